import Verif.Demo.RealProgram
import Verif.Props.C98_Ends

/-! Concrete runs meeting the hypotheses of C98. -/

namespace Verif
namespace Real

open Io Text Planar

/-- some options -/
def zeroOpts : Opts ℝ := ⟨.fin 0, .fin 0, .fin 0, .fin 0, false, false, false, false, false, false⟩

theorem engine_sane (kind : OffsetKind) (lines : List (List ℂ)) : engine.Sane kind lines := by
  have h : ∀ l ∈ lines, 2 ≤ l.length → engine.OK zeroOpts kind [l] :=
    fun l _ h2 => engine_ok _ (by simp [zeroOpts, Fl.fin_le_fin]) kind [l] (by simpa using h2)
  have h0 := engine_ok zeroOpts (by simp [zeroOpts, Fl.fin_le_fin]) kind [] (by simp)
  refine ⟨h0.heur, h0.heap, h0.ord, h0.ordRm, h0.point, h0.lnr, h0.instId, streams _, ?_, ?_, segDist, rfl, ?_⟩
  · intro l hl i j h1 h2 h3
    exact (h l hl (by omega)).hull l (by simp) i j h1 h2 h3
  · intro l hl i j h1 h2 h3
    exact (h l hl (by omega)).box l (by simp) i j h1 h2 h3
  · intro l hl i j h1 h2 h3
    exact (h l hl (by omega)).score l (by simp) i j h1 h2 h3

/-- the configuration with another threshold -/
noncomputable def configT (t : ℝ) (fc : Bool) : ArgObj (Fl ℝ) := { config ['d', 'p'] fc with threshold := .fin t }

theorem readsT (t : ℝ) (fc : Bool) (a b : Doc (Fl ℝ)) (ctx : List Region) :
    Reads (world ordsC (configT t fc) a b ctx) "e30=".toList ['-'] (configT t fc) .maxOffset [a, b] ctx where
  config := ⟨"e30=".toList, rfl, by
    have hx : decode64 (trim "e30=".toList) = .ok [123, 125] := by decide +kernel
    simp only [parseInput, hx]; rfl⟩
  kind := by
    have hk : offsetDictionary ((trim ['d', 'p']).map (lowerChar id)) = some .maxOffset := by decide +kernel
    simp only [offsetFn, configT, config, world, hk]; rfl
  docs := ⟨['a', '\n', 'b', '\n'], rfl, rfl⟩
  out := (by decide : trim ['o', ' '] ≠ [])
  ctx := rfl
  save := rfl

/-- what is read is determined -/
theorem readsT_unique {t : ℝ} {fc : Bool} {a b : Doc (Fl ℝ)} {ctx ctx' : List Region} {obj : ArgObj (Fl ℝ)} {kind : OffsetKind} {docs : List (Doc (Fl ℝ))}
    (h : Reads (world ordsC (configT t fc) a b ctx) "e30=".toList ['-'] obj kind docs ctx') : obj = configT t fc ∧ docs = [a, b] := by
  obtain ⟨s, h1, h2⟩ := h.config
  obtain ⟨s', h3, h4⟩ := (readsT t fc a b ctx).config
  rw [h3] at h1; injection h1 with h1; subst h1
  rw [h4] at h2; injection h2 with h2; subst h2
  obtain ⟨d, h5, h6⟩ := h.docs
  obtain ⟨d', h7, h8⟩ := (readsT t fc a b ctx).docs
  rw [h7] at h5; injection h5 with h5; subst h5
  rw [h8] at h6; injection h6 with h6
  exact ⟨rfl, h6.symm⟩

/-- a point where a line is expected -/
def docPoint : Doc (Fl ℝ) := .geometry .other

theorem setting {t : ℝ} {fc : Bool} {a b : Doc (Fl ℝ)} {ctx : List Region} (h : ∀ d ∈ [a, b], ∀ x ∈ docParts d, x.1 ≤ maxInt) (kind : OffsetKind) :
    Setting (world ordsC (configT t fc) a b ctx) engine kind [a, b] := ⟨fun l => .refl l, engine_sane _ _, by simp [maxInt], h⟩

theorem parts_docA (x) (h : x ∈ docParts docA) : x.1 ≤ maxInt ∧ 2 ≤ x.2.2.length := by
  simp only [docA, docParts, geomParts, List.mem_singleton] at h
  subst h; simp [maxInt]

theorem parts_docB (x) (h : x ∈ docParts docB) : x.1 ≤ maxInt ∧ 2 ≤ x.2.2.length := by
  simp only [docB, docParts, featParts, geomParts, List.zipIdx_cons, List.zipIdx_nil, List.map_cons, List.map_nil, List.mem_cons, List.not_mem_nil, or_false] at h
  rcases h with rfl | rfl <;> simp [maxInt]

theorem parts_point (x) (h : x ∈ docParts docPoint) : x.1 ≤ maxInt ∧ 2 ≤ x.2.2.length := by simp [docPoint, docParts, geomParts] at h

/-- a line followed by a point: saved, with one feature -/
example (fc : Bool) : ∃ path out N, ∀ fuel ≥ N, main (program (world ordsC (configT 5 fc) docB docPoint [above, below]) engine fuel) "e30=".toList ['-'] = .saved path out := by
  have hs := C98_saves (world ordsC (configT 5 fc) docB docPoint [above, below]) engine "e30=".toList ['-'] (fun obj kind docs ctx h => by
    obtain ⟨-, rfl⟩ := readsT_unique h
    refine setting ?_ kind
    rintro d hd x hx
    simp only [List.mem_cons, List.not_mem_nil, or_false] at hd
    rcases hd with rfl | rfl
    · exact (parts_docB x hx).1
    · exact (parts_point x hx).1)
  refine hs.2 (hs.1.2 ⟨_, _, _, _, readsT 5 fc docB docPoint [above, below], ?_⟩)
  refine ⟨?_, ?_, .inr (by simp [configT, Fl.fin_le_fin]), ⟨[docB], [docPoint], rfl, by simp [docB, docParts, featParts, geomParts], by simp [docPoint, docParts, geomParts]⟩,
    fun d hd x hx => .inr rfl⟩
  · intro d hd
    simp only [List.mem_cons, List.not_mem_nil, or_false] at hd
    rcases hd with rfl | rfl
    · simp [docB, HasGeometry]
    · trivial
  · intro d hd x hx
    simp only [List.mem_cons, List.not_mem_nil, or_false] at hd
    rcases hd with rfl | rfl
    · exact (parts_docB x hx).2
    · exact (parts_point x hx).2

/-- a point followed by a line: panic -/
example (fc : Bool) : ∃ N, ∀ fuel ≥ N, main (program (world ordsC (configT 5 fc) docPoint docB [above, below]) engine fuel) "e30=".toList ['-'] = .panic := by
  refine C98_panics _ engine _ _ (readsT 5 fc docPoint docB [above, below]) (setting ?_ _) ?_ ?_ (by simp [configT, Fl.fin_le_fin]) ?_
  · rintro d hd x hx
    simp only [List.mem_cons, List.not_mem_nil, or_false] at hd
    rcases hd with rfl | rfl
    · exact (parts_point x hx).1
    · exact (parts_docB x hx).1
  · intro d hd
    simp only [List.mem_cons, List.not_mem_nil, or_false] at hd
    rcases hd with rfl | rfl
    · trivial
    · simp [docB, HasGeometry]
  · intro d hd x hx
    simp only [List.mem_cons, List.not_mem_nil, or_false] at hd
    rcases hd with rfl | rfl
    · exact (parts_point x hx).2
    · exact (parts_docB x hx).2
  · rintro ⟨⟨as, cs, e, ha, hc⟩, -⟩
    cases as with
    | nil =>
      rw [List.nil_append] at e
      subst e
      have := hc docB (by simp)
      simp [docB, docParts, featParts, geomParts] at this
    | cons d as =>
      rw [List.cons_append] at e
      injection e with e1 e2
      subst e1
      exact ha docPoint (by simp) rfl

/-- a negative tolerance: no end -/
example (fc : Bool) : ∃ N, ∀ fuel ≥ N, main (program (world ordsC (configT (-1) fc) docA docB [above, below]) engine fuel) "e30=".toList ['-'] = .hang := by
  refine C98_hangs _ engine _ _ (readsT (-1) fc docA docB [above, below]) (engine_sane _ _) ?_ ?_ ⟨docA, by simp, by simp [docA, docParts, geomParts]⟩
    (by simp [configT, Fl.fin_le_fin])
  · intro d hd
    simp only [List.mem_cons, List.not_mem_nil, or_false] at hd
    rcases hd with rfl | rfl
    · trivial
    · simp [docB, HasGeometry]
  · intro d hd x hx
    simp only [List.mem_cons, List.not_mem_nil, or_false] at hd
    rcases hd with rfl | rfl
    · exact (parts_docA x hx).2
    · exact (parts_docB x hx).2

end Real
end Verif
