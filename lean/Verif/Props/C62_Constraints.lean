import Verif.Model.Constraints
import Verif.Props.C47_Pipeline
import Verif.Demo.Env

/-! C62: every point, line and polygon of the constraint file becomes exactly one constraint of every polyline. -/

namespace Verif.Io

open Verif.Text

variable {F : Type}

/-- Specification: a shape without identifier -/
inductive Shape (F : Type) where
  | point (c : List F)
  | line (c : List (List F))
  | polygon (c : List (List (List F)))
  deriving DecidableEq

/-- Specification: the shapes of a GeoJSON geometry, in order -/
def CGeom.shapes : CGeom F → List (Shape F)
  | .point c => [.point c]
  | .multiPoint cs => cs.map .point
  | .line c => [.line c]
  | .multiLine cs => cs.map .line
  | .polygon c => [.polygon c]
  | .multiPolygon cs => cs.map .polygon
  | .other => []

/-- Specification: the features of a line of the file, a bare geometry counting as one with properties `null` -/
def CDoc.features : CDoc F → List (CFeature F)
  | .geometry g => [⟨some g, ['n', 'u', 'l', 'l']⟩]
  | .feature f => [f]
  | .collection fs => fs
  | .unknown => []

/-- Specification: shape, number of the line, number of the part and properties of a constraint -/
def Is (x : IGeom F) (s : Shape F) (index pos : Nat) (props : Str) : Prop :=
  match s with
  | .point c => x = .point (composeId index pos) c props
  | .line c => x = .line (composeId index pos) c props
  | .polygon c => x = .polygon (composeId index pos) c props

/-- Specification: the constraints `xs` made from a geometry -/
def FromGeom (g : CGeom F) (index : Nat) (props : Str) (xs : List (IGeom F)) : Prop :=
  List.Forall₂ (fun x s => Is x s.1 index s.2 props) xs g.shapes.zipIdx

theorem partLoop_from {A : Type} (mk : Str → A → Str → IGeom F) (sh : A → Shape F) (index : Nat) (props : Str)
    (h : ∀ c pos, Is (mk (composeId index pos) c props) (sh c) index pos props) : ∀ (cs : List A) (pos : Nat),
    List.Forall₂ (fun x s => Is x s.1 index s.2 props) (partLoop mk index props pos cs) ((cs.map sh).zipIdx pos) := by
  intro cs
  induction cs with
  | nil => intro pos; exact .nil
  | cons c cs ih => intro pos; exact .cons (h c pos) (ih (pos + 1))

theorem createIGeom_ok (index : Nat) (g : CGeom F) (props : Str) :
    ∃ xs, createIGeom index ⟨some g, props⟩ = .ok xs ∧ FromGeom g index props xs := by
  cases g with
  | point c => exact ⟨_, rfl, .cons rfl .nil⟩
  | line c => exact ⟨_, rfl, .cons rfl .nil⟩
  | polygon c => exact ⟨_, rfl, .cons rfl .nil⟩
  | multiPoint cs => exact ⟨_, rfl, partLoop_from .point .point index props (fun _ _ => rfl) cs 0⟩
  | multiLine cs => exact ⟨_, rfl, partLoop_from .line .line index props (fun _ _ => rfl) cs 0⟩
  | multiPolygon cs => exact ⟨_, rfl, partLoop_from .polygon .polygon index props (fun _ _ => rfl) cs 0⟩
  | other => exact ⟨_, rfl, .nil⟩

/-- Specification: the constraints made from features of line `index` -/
def FromFeatures (index : Nat) (fs : List (CFeature F)) (xs : List (IGeom F)) : Prop :=
  ∃ xss : List (List (IGeom F)), xs = xss.flatten ∧ List.Forall₂ (fun f ys => ∃ g, f.geometry = some g ∧ FromGeom g index f.props ys) fs xss

theorem createIGeoms_ok (index : Nat) : ∀ fs : List (CFeature F), (∀ f ∈ fs, f.geometry ≠ none) →
    ∃ xs, createIGeoms index fs = .ok xs ∧ FromFeatures index fs xs := by
  intro fs
  induction fs with
  | nil => intro _; exact ⟨[], rfl, [], rfl, .nil⟩
  | cons f fs ih =>
    intro h
    obtain ⟨xs, e, xss, rfl, hf⟩ := ih (fun x hx => h x (List.mem_cons_of_mem _ hx))
    obtain ⟨og, props⟩ := f
    cases og with
    | none => exact absurd rfl (h _ (List.mem_cons_self ..))
    | some g =>
      obtain ⟨ys, e', hy⟩ := createIGeom_ok index g props
      exact ⟨ys ++ xss.flatten, by simp only [createIGeoms, e', e, Res.ok_bind, Res.pure_eq], ys :: xss, rfl, .cons ⟨g, rfl, hy⟩ hf⟩

theorem docConstraints_ok (index : Nat) (d : CDoc F) (h : ∀ f ∈ d.features, f.geometry ≠ none) :
    ∃ xs, docConstraints index d = .ok xs ∧ FromFeatures index d.features xs := by
  have one : ∀ f : CFeature F, f.geometry ≠ none → ∃ xs, createIGeom index f = .ok xs ∧ FromFeatures index [f] xs := by
    rintro ⟨og, props⟩ hf
    cases og with
    | none => exact absurd rfl hf
    | some g =>
      obtain ⟨ys, e', hy⟩ := createIGeom_ok index g props
      exact ⟨ys, e', [ys], by simp, .cons ⟨g, rfl, hy⟩ .nil⟩
  cases d with
  | geometry g => exact one _ (h _ (List.mem_cons_self ..))
  | feature f => exact one f (h _ (List.mem_cons_self ..))
  | collection fs => exact createIGeoms_ok index fs h
  | unknown => exact ⟨[], rfl, [], rfl, .nil⟩

/-- **C62, reading** (partial: features without geometry stop the program, see `C62_null_geometry`): when no feature lacks its geometry, the constraints are, line by line, feature by feature and part by part in file order, one for each
point, line and polygon, of the same kind and with the same coordinates; the identifier holds the number of the line and the number of the part. -/
theorem C62_read_partial (ds : List (CDoc F)) (h : ∀ d ∈ ds, ∀ f ∈ d.features, f.geometry ≠ none) :
    ∃ xss : List (List (IGeom F)), parseConstraintFeatures ds = .ok xss.flatten ∧
      List.Forall₂ (fun (d : CDoc F × Nat) xs => FromFeatures d.2 d.1.features xs) ds.zipIdx xss := by
  have key : ∀ (ds : List (CDoc F)) (i : Nat), (∀ d ∈ ds, ∀ f ∈ d.features, f.geometry ≠ none) → ∃ xss : List (List (IGeom F)),
      parseConstraintsFrom i ds = .ok xss.flatten ∧ List.Forall₂ (fun (d : CDoc F × Nat) xs => FromFeatures d.2 d.1.features xs) (ds.zipIdx i) xss := by
    intro ds
    induction ds with
    | nil => intro i _; exact ⟨[], rfl, .nil⟩
    | cons d ds ih =>
      intro i h
      obtain ⟨xs, e, hx⟩ := docConstraints_ok i d (h d (List.mem_cons_self ..))
      obtain ⟨xss, e', hxs⟩ := ih (i + 1) (fun x hx => h x (List.mem_cons_of_mem _ hx))
      exact ⟨xs :: xss, by simp only [parseConstraintsFrom, e, e', Res.ok_bind, Res.pure_eq, List.flatten_cons], .cons hx hxs⟩
  exact key ds 0 h

/-- the shape of a constraint -/
def IGeom.shape : IGeom F → Shape F
  | .point _ c _ => .point c
  | .line _ c _ => .line c
  | .polygon _ c _ => .polygon c

/-- Specification: the shapes of a line of the file -/
def CDoc.shapes (d : CDoc F) : List (Shape F) := d.features.flatMap (fun f => match f.geometry with | some g => g.shapes | none => [])

theorem FromGeom.shapes {g : CGeom F} {index : Nat} {props : Str} {xs : List (IGeom F)} (h : FromGeom g index props xs) : xs.map IGeom.shape = g.shapes := by
  have : ∀ (xs : List (IGeom F)) (l : List (Shape F × Nat)), List.Forall₂ (fun x s => Is x s.1 index s.2 props) xs l → xs.map IGeom.shape = l.map Prod.fst := by
    intro xs l h
    induction h with
    | nil => rfl
    | @cons x s _ _ h1 _ ih =>
      rw [List.map_cons, List.map_cons, ih]
      obtain ⟨s, n⟩ := s
      cases s <;> (simp only [Is] at h1; subst h1; rfl)
  rw [this _ _ h, List.zipIdx_map_fst]

/-- **C62, nothing lost, nothing invented** (partial as above): the shapes of the constraints are the shapes of the file, in order. -/
theorem C62_shapes_partial (ds : List (CDoc F)) (h : ∀ d ∈ ds, ∀ f ∈ d.features, f.geometry ≠ none) :
    ∃ xs, parseConstraintFeatures ds = .ok xs ∧ xs.map IGeom.shape = ds.flatMap CDoc.shapes := by
  obtain ⟨xss, e, hf⟩ := C62_read_partial ds h
  refine ⟨_, e, ?_⟩
  have feat : ∀ (i : Nat) (fs : List (CFeature F)) (yss : List (List (IGeom F))),
      List.Forall₂ (fun f ys => ∃ g, f.geometry = some g ∧ FromGeom g i f.props ys) fs yss →
      yss.flatten.map IGeom.shape = fs.flatMap (fun f => match f.geometry with | some g => g.shapes | none => []) := by
    intro i fs yss h
    induction h with
    | nil => rfl
    | cons h1 _ ih =>
      obtain ⟨g, e1, e2⟩ := h1
      rw [List.flatten_cons, List.map_append, ih, List.flatMap_cons, e2.shapes, e1]
  have docs : ∀ (l : List (CDoc F × Nat)) (xss : List (List (IGeom F))), List.Forall₂ (fun (d : CDoc F × Nat) xs => FromFeatures d.2 d.1.features xs) l xss →
      xss.flatten.map IGeom.shape = (l.map Prod.fst).flatMap CDoc.shapes := by
    intro l xss h
    induction h with
    | nil => rfl
    | cons h1 _ ih =>
      obtain ⟨yss, rfl, h2⟩ := h1
      rw [List.flatten_cons, List.map_append, ih, List.map_cons, List.flatMap_cons, feat _ _ _ h2, CDoc.shapes]
  rw [docs _ _ hf, List.zipIdx_map_fst]

/-- **C62 is violated for null geometries**: a feature without geometry (allowed by GeoJSON) makes the program panic -/
theorem C62_null_geometry (ds1 ds2 : List (CDoc F)) (h1 : ∀ d ∈ ds1, ∀ f ∈ d.features, f.geometry ≠ none) (s : Str) :
    parseConstraintFeatures (ds1 ++ .feature ⟨none, s⟩ :: ds2) = .panic := by
  have key : ∀ (ds1 : List (CDoc F)), (∀ d ∈ ds1, ∀ f ∈ d.features, f.geometry ≠ none) → ∀ i,
      parseConstraintsFrom i (ds1 ++ .feature ⟨none, s⟩ :: ds2) = .panic := by
    intro ds1
    induction ds1 with
    | nil => intro _ i; rfl
    | cons d ds1 ih =>
      intro h i
      obtain ⟨xs, e, -⟩ := docConstraints_ok i d (h d (List.mem_cons_self ..))
      rw [List.cons_append, parseConstraintsFrom, e, Res.ok_bind, ih (fun x hx => h x (List.mem_cons_of_mem _ hx))]
      rfl
  exact key ds1 h1 0

/-- **C62 is violated for geometry collections**: their members are constraints by the GeoJSON standard, and are silently dropped -/
theorem C62_collection_dropped (s : Str) : parseConstraintFeatures [(.feature ⟨some .other, s⟩ : CDoc F), .unknown] = .ok [] := rfl

theorem unmarshalDocs_ok (parse : Str → Option (CDoc F)) : ∀ (ls : List Str) (ds : List (CDoc F)), ls.map parse = ds.map some →
    unmarshalDocs parse ls = .ok ds := by
  intro ls
  induction ls with
  | nil => intro ds h; cases ds with | nil => rfl | cons d ds => simp at h
  | cons l ls ih =>
    intro ds h
    cases ds with
    | nil => simp at h
    | cons d ds =>
      rw [List.map_cons, List.map_cons, List.cons.injEq] at h
      rw [unmarshalDocs, h.1, ih ds h.2]
      rfl

theorem createIGeoms_panic (index : Nat) : ∀ fs : List (CFeature F), (∃ f ∈ fs, f.geometry = none) → createIGeoms index fs = .panic := by
  intro fs
  induction fs with
  | nil => rintro ⟨f, hf, -⟩; cases hf
  | cons a fs ih =>
    rintro ⟨f, hf, hn⟩
    cases ha : a.geometry with
    | none => simp [createIGeoms, createIGeom, ha, Bind.bind, Res.bind]
    | some g =>
      have hf' : f ∈ fs := by
        rcases List.mem_cons.1 hf with rfl | h
        · rw [ha] at hn; cases hn
        · exact h
      obtain ⟨xs, h, -⟩ := createIGeom_ok index g a.props
      have hax : createIGeom index a = .ok xs := by rw [← h]; cases a; simp only at ha; subst ha; rfl
      simp only [createIGeoms, hax, Res.ok_bind, ih ⟨f, hf', hn⟩]; rfl

theorem docConstraints_panic (index : Nat) (d : CDoc F) (h : ∃ f ∈ d.features, f.geometry = none) : docConstraints index d = .panic := by
  obtain ⟨f, hf, hn⟩ := h
  cases d with
  | geometry g => simp only [CDoc.features, List.mem_singleton] at hf; subst hf; cases hn
  | feature f' =>
    simp only [CDoc.features, List.mem_singleton] at hf; subst hf
    simp [docConstraints, createIGeom, hn]
  | collection fs => exact createIGeoms_panic index fs ⟨f, hf, hn⟩
  | unknown => simp [CDoc.features] at hf

theorem parseConstraintsFrom_panic : ∀ (ds : List (CDoc F)) (index : Nat), (∃ d ∈ ds, ∃ f ∈ d.features, f.geometry = none) →
    parseConstraintsFrom index ds = .panic := by
  intro ds
  induction ds with
  | nil => rintro _ ⟨d, hd, -⟩; cases hd
  | cons a ds ih =>
    intro index ⟨d, hd, hx⟩
    by_cases ha : ∃ f ∈ a.features, f.geometry = none
    · simp only [parseConstraintsFrom, docConstraints_panic index a ha]; rfl
    · obtain ⟨xs, h, -⟩ := docConstraints_ok index a (fun f hf hn => ha ⟨f, hf, hn⟩)
      have hd' : d ∈ ds := by
        rcases List.mem_cons.1 hd with rfl | h
        · exact absurd hx ha
        · exact h
      simp only [parseConstraintsFrom, h, Res.ok_bind, ih (index + 1) ⟨d, hd', hx⟩]; rfl

theorem unmarshalDocs_panic (parse : Str → Option (CDoc F)) : ∀ ls : List Str, (∃ l ∈ ls, parse l = none) → unmarshalDocs parse ls = .panic := by
  intro ls
  induction ls with
  | nil => rintro ⟨l, hl, -⟩; cases hl
  | cons a ls ih =>
    rintro ⟨l, hl, hn⟩
    cases ha : parse a with
    | none => simp only [unmarshalDocs, ha, Res.ofOption]; rfl
    | some d =>
      have hl' : l ∈ ls := by
        rcases List.mem_cons.1 hl with rfl | h
        · rw [ha] at hn; cases hn
        · exact h
      simp only [unmarshalDocs, ha, Res.ofOption, Res.ok_bind, ih ⟨l, hl', hn⟩]; rfl

/-- C62.  Reading the constraint file panics exactly when some line is not valid JSON or some feature has a null geometry; no line is ever skipped for
being malformed, and in every other case reading returns. -/
theorem C62_panics_iff {G : Type} (parse : Str → Option (CDoc F)) (toC : IGeom F → G) (lines : List Str) :
    (readInputConstraints parse toC lines = .panic ↔
      ∃ l ∈ lines, ∀ d, parse l = some d → ∃ f ∈ d.features, f.geometry = none) ∧
    (readInputConstraints parse toC lines ≠ .panic → ∃ gs : List G, readInputConstraints parse toC lines = .ok gs) := by
  by_cases h1 : ∃ l ∈ lines, parse l = none
  · have e : readInputConstraints parse toC lines = .panic := by simp only [readInputConstraints, unmarshalDocs_panic parse lines h1]; rfl
    obtain ⟨l, hl, hn⟩ := h1
    exact ⟨⟨fun _ => ⟨l, hl, fun d hd => by rw [hn] at hd; cases hd⟩, fun _ => e⟩, fun h => absurd e h⟩
  · have hsome : ∀ l ∈ lines, ∃ d, parse l = some d := fun l hl => by
      cases hp : parse l with
      | none => exact absurd ⟨l, hl, hp⟩ h1
      | some d => exact ⟨d, rfl⟩
    have hds : lines.map parse = (lines.filterMap parse).map some := by
      clear h1
      induction lines with
      | nil => rfl
      | cons a ls ih =>
        obtain ⟨d, hd⟩ := hsome a (by simp)
        simp only [List.map_cons, hd, List.filterMap_cons, ih (fun l hl => hsome l (by simp [hl]))]
    have hu := unmarshalDocs_ok parse lines _ hds
    by_cases h2 : ∃ d ∈ lines.filterMap parse, ∃ f ∈ d.features, f.geometry = none
    · have e : readInputConstraints parse toC lines = .panic := by
        simp only [readInputConstraints, hu, Res.ok_bind, parseConstraintFeatures, parseConstraintsFrom_panic _ 0 h2]; rfl
      obtain ⟨d, hd, hx⟩ := h2
      obtain ⟨l, hl, hp⟩ := List.mem_filterMap.1 hd
      exact ⟨⟨fun _ => ⟨l, hl, fun d' hd' => by rw [hp] at hd'; cases hd'; exact hx⟩, fun _ => e⟩, fun h => absurd e h⟩
    · obtain ⟨xs, hxs, -⟩ := C62_read_partial (lines.filterMap parse) (fun d hd f hf hn => h2 ⟨d, hd, f, hf, hn⟩)
      have e : readInputConstraints parse toC lines = .ok (xs.flatten.map toC) := by
        simp only [readInputConstraints, hu, Res.ok_bind, hxs]; rfl
      refine ⟨⟨fun h => (by rw [e] at h; cases h), ?_⟩, fun _ => ⟨_, e⟩⟩
      rintro ⟨l, hl, hx⟩
      obtain ⟨d, hd⟩ := hsome l hl
      exact absurd ⟨d, List.mem_filterMap.2 ⟨l, hl, hd⟩, hx d hd⟩ h2

/-- three lines, the second not JSON -/
example : readInputConstraints (F := Nat) (G := IGeom Nat) (fun l => if l = ['x'] then none else some (.geometry (.point [1, 2]))) id [['a'], ['x'], ['b']] = .panic := by
  decide +kernel

/-- **C62, in the program** (partial as above): the constraints of the run are the converted constraints of the file, in order. -/
theorem C62_program_partial {P Props G : Type} (w : World F P Props G) (parse : Str → Option (CDoc F)) (toC : IGeom F → G)
    (hw : w.constraints = readInputConstraints parse toC) {path data : Str} (hf : w.file path = some data) {ds : List (CDoc F)}
    (hp : (readJsonFile data).map parse = ds.map some) (h : ∀ d ∈ ds, ∀ f ∈ d.features, f.geometry ≠ none) :
    ∃ xs : List (IGeom F), readConstraints w path = .ok (xs.map toC) ∧ xs.map IGeom.shape = ds.flatMap CDoc.shapes := by
  obtain ⟨xs, e, hx⟩ := C62_shapes_partial ds h
  refine ⟨xs, ?_, hx⟩
  simp only [readConstraints, hf, hw, readInputConstraints, unmarshalDocs_ok parse _ _ hp, Res.ok_bind, e, Res.pure_eq, ofRes]

/-- a point, two lines in a collection with a polygon -/
example : parseConstraintFeatures [(.geometry (.point [1, 2]) : CDoc Int),
      .collection [⟨some (.multiLine [[[0], [1]], [[2], [3]]]), ['p']⟩, ⟨some (.polygon [[[4], [5], [6]]]), ['q']⟩]] =
    .ok [.point (composeId 0 0) [1, 2] ['n', 'u', 'l', 'l'], .line (composeId 1 0) [[0], [1]] ['p'], .line (composeId 1 1) [[2], [3]] ['p'],
      .polygon (composeId 1 0) [[[4], [5], [6]]] ['q']] := by decide +kernel

end Verif.Io

namespace Verif

open Io

variable {P C B K : Type} [LinearOrder B] [BoundedOrder B] [LinearOrder K]

/-- **C62, indexing**: the constraint index of an instance (constdp/constructor.go:37-50) holds exactly one entry for each constraint, with its geometry and
box, for every legal index. -/
theorem C62_indexed (lib : Lib P C B K) {H : Heur (Node P C B) B} (hH : Hdb.Legal H (maxEntries Hdb.defaultCap)) (inst : Int) (geoms : List C) :
    ∃ db : Db P C B, Yields (buildContextDB lib H inst geoms) db ∧
      ((Hdb.contents db).map (fun nd => (nd.geom, nd.mbr))).Perm (geoms.map (fun g => (Geo.ctx g, lib.bounds (.ctx g)))) := by
  have hn : DbOK (Hdb.newHdb Hdb.defaultCap : Db P C B) := DbOK.new
  obtain ⟨t, y, -, -, -, p⟩ := Hdb.load_yields hn.wf (by rw [hn.cap]; exact hH) (geoms.map (ctxNode lib inst))
  rw [contents_new, List.nil_append] at p
  refine ⟨t, y, ?_⟩
  have := p.map (fun nd => (nd.geom, nd.mbr))
  rwa [List.map_map] at this

end Verif
