import Verif.Model.Io

/-!
The configuration, cfg.go: which member of the JSON text sets which field.  The model begins with the members of the parsed text; syntax and the conversion of number
literals are those of `encoding/json`.
-/

namespace Verif.Io

open Verif.Text

/-- a JSON value inside the configuration: arrays and objects are only told apart from the rest; `num none` is a number that does not fit into a float64 -/
inductive Js (F : Type) where
  | null
  | bool (b : Bool)
  | num (x : Option F)
  | str (s : Str)
  | nested
  deriving DecidableEq

/-- the configuration text, parsed -/
inductive CfgDoc (F : Type) where
  | null
  | obj (members : List (Str × Js F))
  | other
  deriving DecidableEq

/-- the fields of `ArgObj`, cfg.go:10-25 -/
inductive Field where
  | input | output | constraints | simplificationType | threshold | minDist | nonPlanarDisplacement | isFeatureClass | planarSelf | nonPlanarSelf
  | avoidNewSelfIntersects | geomRelation | distRelation | sideRelation
  deriving DecidableEq

/-- in the order of cfg.go:11-24 -/
def fields : List Field := [.input, .output, .constraints, .simplificationType, .threshold, .minDist, .nonPlanarDisplacement, .isFeatureClass, .planarSelf,
  .nonPlanarSelf, .avoidNewSelfIntersects, .geomRelation, .distRelation, .sideRelation]

/-- the tags in cfg.go:11-24 -/
def tag : Field → Str
  | .input => "input".toList
  | .output => "output".toList
  | .constraints => "constraints".toList
  | .simplificationType => "simplification_type".toList
  | .threshold => "threshold".toList
  | .minDist => "minimum_distance".toList
  | .nonPlanarDisplacement => "non_planar_displacement".toList
  | .isFeatureClass => "is_feature_class".toList
  | .planarSelf => "planar_self".toList
  | .nonPlanarSelf => "non_planar_self".toList
  | .avoidNewSelfIntersects => "avoid_new_self_intersects".toList
  | .geomRelation => "geometric_relation".toList
  | .distRelation => "distance_relation".toList
  | .sideRelation => "homotopy_relation".toList

/-- `encoding/json` folds letters: the ASCII capitals, and the two other letters whose lower case is an ASCII letter under simple folding (long s, Kelvin sign) -/
def foldChar (c : Char) : Char :=
  if 65 ≤ c.toNat ∧ c.toNat ≤ 90 then Char.ofNat (c.toNat + 32) else if c = 'ſ' then 's' else if c = 'K' then 'k' else c

/-- `encoding/json`: the field with exactly this name, otherwise the first one with this name up to folding -/
def fieldOf (key : Str) : Option Field :=
  match fields.find? (fun f => tag f == key) with
  | some f => some f
  | none => fields.find? (fun f => tag f == key.map foldChar)

variable {F : Type}

/-- `encoding/json` stores a value in a field of type string, float64 or bool (cfg.go:11-24); null leaves the field as it is; none: the value does not fit -/
def setField (o : ArgObj F) : Field → Js F → Option (ArgObj F)
  | _, .null => some o
  | .input, .str s => some { o with input := s }
  | .output, .str s => some { o with output := s }
  | .constraints, .str s => some { o with constraints := s }
  | .simplificationType, .str s => some { o with simplificationType := s }
  | .threshold, .num (some x) => some { o with threshold := x }
  | .minDist, .num (some x) => some { o with minDist := x }
  | .nonPlanarDisplacement, .num (some x) => some { o with nonPlanarDisplacement := x }
  | .isFeatureClass, .bool b => some { o with isFeatureClass := b }
  | .planarSelf, .bool b => some { o with planarSelf := b }
  | .nonPlanarSelf, .bool b => some { o with nonPlanarSelf := b }
  | .avoidNewSelfIntersects, .bool b => some { o with avoidNewSelfIntersects := b }
  | .geomRelation, .bool b => some { o with geomRelation := b }
  | .distRelation, .bool b => some { o with distRelation := b }
  | .sideRelation, .bool b => some { o with sideRelation := b }
  | _, _ => none

/-- one member; a value that does not fit is noted, and decoding goes on -/
def store (st : ArgObj F × Bool) (m : Str × Js F) : ArgObj F × Bool :=
  match fieldOf m.1 with
  | none => st
  | some f =>
    match setField st.1 f m.2 with
    | some o => (o, st.2)
    | none => (st.1, false)

/-- cfg.go:50 `ArgObj{}`; `zero` is 0.0 -/
def emptyArg (zero : F) : ArgObj F := ⟨[], [], [], [], zero, zero, zero, false, false, false, false, false, false, false⟩

/-- cfg.go:52 `json.Unmarshal` into the configuration, after parsing; none: an error -/
def unmarshalCfg (zero : F) : CfgDoc F → Option (ArgObj F)
  | .null => some (emptyArg zero)
  | .obj ms =>
    let r := ms.foldl store (emptyArg zero, true)
    if r.2 then some r.1 else none
  | .other => none

/-- cfg.go:27-33 `ArgObj.String`, up to the text of names and values: the fields in their order; numbers that are not finite make `json.Marshal` fail, and the
method panics -/
def marshalCfg (finite : F → Bool) (o : ArgObj F) : Res (CfgDoc F) :=
  if finite o.threshold && finite o.minDist && finite o.nonPlanarDisplacement then
    .ok (.obj [(tag .input, .str o.input), (tag .output, .str o.output), (tag .constraints, .str o.constraints), (tag .simplificationType, .str o.simplificationType),
      (tag .threshold, .num (some o.threshold)), (tag .minDist, .num (some o.minDist)), (tag .nonPlanarDisplacement, .num (some o.nonPlanarDisplacement)),
      (tag .isFeatureClass, .bool o.isFeatureClass), (tag .planarSelf, .bool o.planarSelf), (tag .nonPlanarSelf, .bool o.nonPlanarSelf),
      (tag .avoidNewSelfIntersects, .bool o.avoidNewSelfIntersects), (tag .geomRelation, .bool o.geomRelation), (tag .distRelation, .bool o.distRelation),
      (tag .sideRelation, .bool o.sideRelation)])
  else .panic

end Verif.Io
