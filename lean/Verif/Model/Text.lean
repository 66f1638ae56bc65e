import Verif.Model.Base

/-!
Text handling of the program: a Go `string` is a list of characters (code points; strings that are not valid UTF-8 are not modelled).
-/

namespace Verif.Text

/-- a Go string -/
abbrev Str := List Char

/-- `unicode.IsSpace` (Go standard library), used by `strings.TrimSpace` -/
def isSpace (c : Char) : Bool :=
  (9 ≤ c.toNat && c.toNat ≤ 13) || c.toNat == 0x20 || c.toNat == 0x85 || c.toNat == 0xa0 || c.toNat == 0x1680 ||
  (0x2000 ≤ c.toNat && c.toNat ≤ 0x200a) || c.toNat == 0x2028 || c.toNat == 0x2029 || c.toNat == 0x202f || c.toNat == 0x205f || c.toNat == 0x3000

/-- `strings.TrimSpace` (Go standard library) -/
def trim (s : Str) : Str := ((s.dropWhile isSpace).reverse.dropWhile isSpace).reverse

/-- `strings.Split(s, "\n")` (Go standard library) -/
def splitNl : Str → List Str
  | [] => [[]]
  | c :: cs => if c = '\n' then [] :: splitNl cs else
    match splitNl cs with
    | [] => [[c]]
    | l :: ls => (c :: l) :: ls

/-- geometry/geojson.go:164-169 the loop over the lines -/
def keepLines : List Str → List Str
  | [] => []
  | tok :: toks => let v := trim tok; if v = [] then keepLines toks else v :: keepLines toks

/-- geometry/geojson.go:159-171 `readJsonFile`, after the file contents were read (a read error panics) -/
def readJsonFile (data : Str) : List Str := keepLines (splitNl (trim data))

/-- io.go:98-113 `readlinesFromReader`: `line` is what `ReadString('\n')` has read so far; at the end of the input `ReadString` returns the
partial line together with the error `e` (`io.EOF` or a read error), and the loop is left before the partial line is looked at.  Result: the
lines given to the callback, in order, and the returned error. -/
def readlines {Err : Type} (e : Err) : (line : Str) → Str → List Str × Option Err
  | _, [] => ([], some e)
  | line, c :: cs =>
    if c = '\n' then
      let l := trim (line ++ [c])
      let r := readlines e [] cs
      if l.length > 0 then (l :: r.1, r.2) else r
    else readlines e (line ++ [c]) cs

/-- io.go:98-113 `readlinesFromReader` -/
def readlinesFromReader {Err : Type} (content : Str) (e : Err) : List Str × Option Err := readlines e [] content

/-- io.go:16-33 `readWKTInput` and io.go:80-96 `readConstraints`, after the file was opened: `accept` is the test of the WKT type, `read` the
WKT reader of the geometry library -/
def readWKT {Err G : Type} (accept : Str → Bool) (read : Str → List G) (content : Str) (e : Err) : List G × Option Err :=
  let r := readlinesFromReader content e
  (r.1.flatMap (fun line => if accept line then read line else []), r.2)

/-! ### identifiers -/

/-- geometry/geojson.go:155-157 `composeId`: `fmt.Sprintf("idx:%v-pos:%v", index, pos)`; both numbers are positions in slices, hence not negative -/
def composeId (index pos : Nat) : Str :=
  ['i', 'd', 'x', ':'] ++ Nat.toDigits 10 index ++ ['-', 'p', 'o', 's', ':'] ++ Nat.toDigits 10 pos

/-- encode.go:13, 22 `numRegx.FindAllString(id, -1)` for the expression `[0-9]+`: the maximal runs of digits; `cur` is the run being read -/
def digitRuns : (cur : Str) → Str → List Str
  | cur, [] => if cur = [] then [] else [cur]
  | cur, c :: cs =>
    if c.isDigit then digitRuns (cur ++ [c]) cs
    else if cur = [] then digitRuns [] cs else cur :: digitRuns [] cs

/-- the greatest Go `int` -/
def maxInt : Nat := 2 ^ 63 - 1

/-- `strconv.Atoi` on a run of digits with the error ignored (encode.go:23, 24): out of range gives the greatest `int` -/
def atoi (s : Str) : Nat := min (Nat.ofDigitChars 10 s 0) maxInt

/-- encode.go:21-26 `indexPos`: `vals[0]`, `vals[1]` panic when there are fewer than two runs -/
def indexPos (id : Str) : Res (Nat × Nat) := do
  let vals := digitRuns [] id
  let i ← Res.ofOption vals[0]?
  let p ← Res.ofOption vals[1]?
  return (atoi i, atoi p)

/-! ### base64 -/

/-- one of the 64 digits of `base64.StdEncoding` -/
def b64Char (n : Nat) : Char :=
  if n < 26 then Char.ofNat (n + 65)
  else if n < 52 then Char.ofNat (n - 26 + 97)
  else if n < 62 then Char.ofNat (n - 52 + 48)
  else if n = 62 then '+' else '/'

/-- the value of a digit -/
def b64Val (c : Char) : Option Nat :=
  if 65 ≤ c.toNat ∧ c.toNat ≤ 90 then some (c.toNat - 65)
  else if 97 ≤ c.toNat ∧ c.toNat ≤ 122 then some (c.toNat - 97 + 26)
  else if 48 ≤ c.toNat ∧ c.toNat ≤ 57 then some (c.toNat - 48 + 52)
  else if c = '+' then some 62
  else if c = '/' then some 63
  else none

/-- `base64.StdEncoding.EncodeToString` (Go standard library), util.go:12-14 -/
def encode64 : List UInt8 → Str
  | [] => []
  | [a] => [b64Char (a.toNat / 4), b64Char (a.toNat % 4 * 16), '=', '=']
  | [a, b] => [b64Char (a.toNat / 4), b64Char (a.toNat % 4 * 16 + b.toNat / 16), b64Char (b.toNat % 16 * 4), '=']
  | a :: b :: c :: rest =>
    b64Char (a.toNat / 4) :: b64Char (a.toNat % 4 * 16 + b.toNat / 16) :: b64Char (b.toNat % 16 * 4 + c.toNat / 64) :: b64Char (c.toNat % 64) ::
      encode64 rest

/-- the bytes of one group of four digits -/
def quad (v w x y : Nat) : List UInt8 :=
  [UInt8.ofNat (v * 4 + w / 16), UInt8.ofNat (w % 16 * 16 + x / 4), UInt8.ofNat (x % 4 * 64 + y)]

/-- `base64.StdEncoding.DecodeString` on text without line ends (not strict: surplus bits before the padding are dropped) -/
def decodeQuads : Str → Option (List UInt8)
  | [] => some []
  | p :: q :: r :: s :: rest =>
    match b64Val p, b64Val q with
    | some v, some w =>
      if r = '=' then
        if s = '=' ∧ rest = [] then some ((quad v w 0 0).take 1) else none
      else
        match b64Val r with
        | none => none
        | some x =>
          if s = '=' then if rest = [] then some ((quad v w x 0).take 2) else none
          else
            match b64Val s with
            | none => none
            | some y => (decodeQuads rest).map (quad v w x y ++ ·)
    | _, _ => none
  | _ => none

/-- util.go:16-22 `decode64`: line ends are ignored by the decoder, a decoding error panics -/
def decode64 (s : Str) : Res (List UInt8) := Res.ofOption (decodeQuads (s.filter (fun c => c ≠ '\r' ∧ c ≠ '\n')))

end Verif.Text
