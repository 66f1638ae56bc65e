import Verif.Spec.Cover

/-! Elementary steps on covers: replacing one piece by a finer chain, two neighbours by their union. -/

set_option linter.unusedSectionVars false

namespace Verif

variable {P C B K : Type} [LinearOrder B] [BoundedOrder B] [LinearOrder K]
variable {env : Env P C B K} {pts : Int → List P} {hs : List Int} {src : Int → Prop} {ids : Nat → Int} {g : Nat}

namespace Pieces

theorem perm {l l' : List (Node P C B)} (h : Pieces env pts hs src ids g l) (hp : l.Perm l') : Pieces env pts hs src ids g l' := by
  refine ⟨(hp.map _).nodup_iff.1 h.nodup, fun nd hnd => h.fresh nd (hp.mem_iff.2 hnd),
    ⟨fun nd hnd => h.source.1 nd (hp.mem_iff.2 hnd), h.source.2⟩, fun nd hnd => h.piece nd (hp.mem_iff.2 hnd), ?_⟩
  intro k hk
  obtain ⟨s, hs1, hs2⟩ := h.cover k hk
  exact ⟨s, hs1.trans (hp.filter _), hs2⟩

theorem mono {l : List (Node P C B)} (h : Pieces env pts hs src ids g l) {g' : Nat} (hg : g ≤ g') : Pieces env pts hs src ids g' l :=
  ⟨h.nodup, fun nd hnd k hk => h.fresh nd hnd k (Nat.le_trans hg hk), h.source, h.piece, h.cover⟩

/-- a piece is a proper sub-range of its polyline -/
theorem bounds {l : List (Node P C B)} (h : Pieces env pts hs src ids g l) {nd : Node P C B} (hnd : nd ∈ l) :
    0 ≤ nd.range.I ∧ nd.range.I < nd.range.J ∧ nd.range.J < (pts nd.inst).length := by
  obtain ⟨s, h1, h2⟩ := h.cover nd.inst (h.piece nd hnd).1
  have : nd ∈ s := h1.mem_iff.2 (List.mem_filter.2 ⟨hnd, by simp⟩)
  have := h2.mem (List.mem_map.2 ⟨nd, this, rfl⟩)
  omega

/-- pieces with the same identifier are the same -/
theorem eq_of_id {l : List (Node P C B)} (h : Pieces env pts hs src ids g l) {a b : Node P C B} (ha : a ∈ l) (hb : b ∈ l) (hid : a.id = b.id) : a = b :=
  List.inj_on_of_nodup_map h.nodup ha hb hid

/-- replacing one piece -/
theorem replace {x : Node P C B} {rest ns : List (Node P C B)} (h : Pieces env pts hs src ids g (x :: rest)) {g' : Nat} (hg : g ≤ g')
    (hn : (ns.map Node.id).Nodup) (hid : ∀ n ∈ ns, ∃ k, g ≤ k ∧ k < g' ∧ n.id = ids k) (hinj : Function.Injective ids)
    (hp : ∀ n ∈ ns, IsPiece env.lib (pts x.inst) x.inst n) (hc : Chain x.range.I x.range.J (ns.map Node.range)) :
    Pieces env pts hs src ids g' (ns ++ rest) := by
  have hinst : ∀ n ∈ ns, n.inst = x.inst := fun n hn => (hp n hn).inst
  refine ⟨?_, ?_, ?_, ?_, ?_⟩
  · rw [List.map_append, List.nodup_append]
    refine ⟨hn, (List.nodup_cons.1 h.nodup).2, ?_⟩
    intro a ha b hb hab
    obtain ⟨n, hn, rfl⟩ := List.mem_map.1 ha
    obtain ⟨m, hm, rfl⟩ := List.mem_map.1 hb
    obtain ⟨k, hk1, _, hk2⟩ := hid n hn
    exact h.fresh m (List.mem_cons_of_mem _ hm) k hk1 (hab.symm.trans hk2)
  · intro nd hnd k hk
    rcases List.mem_append.1 hnd with hnd | hnd
    · obtain ⟨k', hk1, hk3, hk2⟩ := hid nd hnd
      intro heq
      have := hinj (hk2.symm.trans heq)
      omega
    · exact h.fresh nd (List.mem_cons_of_mem _ hnd) k (by omega)
  · refine ⟨fun nd hnd => ?_, h.source.2⟩
    rcases List.mem_append.1 hnd with hnd | hnd
    · obtain ⟨k', -, -, hk2⟩ := hid nd hnd
      rw [hk2]; exact h.source.2 k'
    · exact h.source.1 nd (List.mem_cons_of_mem _ hnd)
  · intro nd hnd
    rcases List.mem_append.1 hnd with hnd | hnd
    · have := hp nd hnd
      rw [hinst nd hnd]
      exact ⟨(h.piece x (by simp)).1, this⟩
    · exact h.piece nd (List.mem_cons_of_mem _ hnd)
  · intro k hk
    obtain ⟨s, h1, h2⟩ := h.cover k hk
    by_cases hkx : x.inst = k
    · have hx : x ∈ s := h1.mem_iff.2 (List.mem_filter.2 ⟨by simp, by simpa using hkx⟩)
      obtain ⟨u, v, rfl⟩ := List.append_of_mem hx
      refine ⟨u ++ (ns ++ v), ?_, ?_⟩
      · have h3 : (x :: (u ++ v)).Perm (x :: rest.filter (fun nd => nd.inst = k)) := by
          refine (List.perm_middle.symm.trans h1).trans ?_
          rw [List.filter_cons_of_pos (by simpa using hkx)]
        have h4 := h3.cons_inv
        rw [List.filter_append, List.filter_eq_self.2 (fun n hn => by simp [hinst n hn, hkx])]
        refine List.Perm.trans ?_ (List.Perm.append_left ns h4)
        exact List.perm_append_comm_assoc u ns v
      · rw [List.map_append, List.map_cons] at h2
        obtain ⟨b, c1, c2⟩ := Chain.append_iff.1 h2
        obtain ⟨c3, c4, c5⟩ := c2
        rw [List.map_append, List.map_append]
        exact c1.append ((c3 ▸ hc).append c5)
    · refine ⟨s, h1.trans ?_, h2⟩
      rw [List.filter_cons_of_neg (by simpa using hkx), List.filter_append,
        (List.filter_eq_nil_iff (l := ns)).2 (fun n hn => by simp [hinst n hn, hkx]), List.nil_append]

/-- two adjacent pieces are neighbours in the cover -/
theorem adjacent {a b : Node P C B} {rest : List (Node P C B)} (h : Pieces env pts hs src ids g (a :: b :: rest)) (hi : a.inst = b.inst)
    (hr : a.range.J = b.range.I) {s : List (Node P C B)} (h1 : s.Perm ((a :: b :: rest).filter (fun nd => nd.inst = a.inst)))
    (h2 : Chain 0 ((pts a.inst).length - 1) (s.map Node.range)) : ∃ u v, s = u ++ a :: b :: v := by
  have ha : a ∈ s := h1.mem_iff.2 (List.mem_filter.2 ⟨by simp, by simp⟩)
  have hb : b ∈ s := h1.mem_iff.2 (List.mem_filter.2 ⟨by simp, by simp [hi]⟩)
  obtain ⟨u, v, rfl⟩ := List.append_of_mem ha
  rw [List.map_append, List.map_cons] at h2
  obtain ⟨m, c1, c3, c4, c5⟩ := Chain.append_iff.1 h2
  have hab : a ≠ b := by
    intro he
    have hn := h.nodup
    rw [he] at hn; simp at hn
  have hbv : b ∈ v := by
    rcases List.mem_append.1 hb with hb | hb
    · have q1 := c1.mem (List.mem_map.2 ⟨b, hb, rfl⟩)
      omega
    · rcases List.mem_cons.1 hb with hb | hb
      · exact absurd hb.symm hab
      · exact hb
  cases v with
  | nil => cases hbv
  | cons b' v =>
    rw [List.map_cons] at c5
    obtain ⟨c6, c7, c8⟩ := c5
    rcases List.mem_cons.1 hbv with rfl | hbv
    · exact ⟨u, v, rfl⟩
    · have := c8.mem (List.mem_map.2 ⟨b, hbv, rfl⟩)
      omega

/-- replacing two adjacent pieces by their union -/
theorem merge {a b m : Node P C B} {rest : List (Node P C B)} (h : Pieces env pts hs src ids g (a :: b :: rest)) (hi : a.inst = b.inst)
    (hr : a.range.J = b.range.I) {g' : Nat} (hid : ∃ k, g ≤ k ∧ k < g' ∧ m.id = ids k) (hinj : Function.Injective ids)
    (hp : IsPiece env.lib (pts a.inst) a.inst m) (hm : m.range = ⟨a.range.I, b.range.J⟩) : Pieces env pts hs src ids g' (m :: rest) := by
  obtain ⟨k0, k1, k2, k3⟩ := hid
  have hsub : ∀ nd ∈ rest, nd ∈ a :: b :: rest := fun nd hnd => List.mem_cons_of_mem _ (List.mem_cons_of_mem _ hnd)
  refine ⟨?_, ?_, ?_, ?_, ?_⟩
  · rw [List.map_cons, List.nodup_cons]
    have hn := h.nodup
    rw [List.map_cons, List.map_cons, List.nodup_cons, List.nodup_cons] at hn
    refine ⟨?_, hn.2.2⟩
    intro hmem
    obtain ⟨nd, h1, h2⟩ := List.mem_map.1 hmem
    exact h.fresh nd (hsub nd h1) k0 k1 (h2.trans k3)
  · intro nd hnd k hk
    rcases List.mem_cons.1 hnd with rfl | hnd
    · intro heq
      have := hinj (k3.symm.trans heq)
      omega
    · exact h.fresh nd (hsub nd hnd) k (by omega)
  · refine ⟨fun nd hnd => ?_, h.source.2⟩
    rcases List.mem_cons.1 hnd with rfl | hnd
    · rw [k3]; exact h.source.2 k0
    · exact h.source.1 nd (hsub nd hnd)
  · intro nd hnd
    rcases List.mem_cons.1 hnd with rfl | hnd
    · rw [hp.inst]; exact ⟨(h.piece a (by simp)).1, hp⟩
    · exact h.piece nd (hsub nd hnd)
  · intro k hk
    obtain ⟨s, h1, h2⟩ := h.cover k hk
    by_cases hka : a.inst = k
    · subst hka
      obtain ⟨u, v, rfl⟩ := h.adjacent hi hr h1 h2
      refine ⟨u ++ m :: v, ?_, ?_⟩
      · have h3 : (a :: b :: (u ++ v)).Perm (a :: b :: rest.filter (fun nd => nd.inst = a.inst)) := by
          have h4 : (u ++ a :: b :: v).Perm (a :: b :: (u ++ v)) :=
            List.perm_middle.trans (List.Perm.cons a List.perm_middle)
          refine h4.symm.trans (h1.trans ?_)
          rw [List.filter_cons_of_pos (by simp), List.filter_cons_of_pos (by simp [hi])]
        rw [List.filter_cons_of_pos (by simp [hp.inst])]
        exact List.perm_middle.trans (List.Perm.cons m h3.cons_inv.cons_inv)
      · rw [List.map_append, List.map_cons, List.map_cons] at h2
        obtain ⟨q, c1, c3, c4, c5, c6, c7⟩ := Chain.append_iff.1 h2
        rw [List.map_append, List.map_cons]
        refine c1.append ⟨?_, ?_, ?_⟩
        · rw [hm]; exact c3
        · rw [hm]; show a.range.I < b.range.J; omega
        · rw [hm]; exact c7
    · refine ⟨s, h1.trans ?_, h2⟩
      rw [List.filter_cons_of_neg (by simpa using hka), List.filter_cons_of_neg (by simpa [← hi] using hka),
        List.filter_cons_of_neg (by simpa [hp.inst] using hka)]

end Pieces

end Verif
