import Verif.Props.C09_Simplify

/-! The points of a sub-line, as a list. -/

namespace Verif

/-- the points of a sub-line -/
theorem points_sub {P : Type} (ps : List P) {i j : Int} (h0 : 0 ≤ i) (h1 : i ≤ j) (h2 : j < ps.length) : (Coords.sub ps i j).points = between ps i j := by
  have hp : ∀ t : Nat, i + t ≤ j → ps[(i + t).toNat]? = (between ps i j)[t]? := by
    intro t ht
    rw [between, List.getElem?_take_of_lt (by omega), List.getElem?_drop]
    congr 1; omega
  have hlen : (between ps i j).length = (j + 1 - i).toNat := by rw [between, List.length_take, List.length_drop]; omega
  unfold Coords.points Coords.sub rangeInts
  rw [List.filterMap_map]
  have : ∀ l : List P, (List.range l.length).filterMap (fun t => l[t]?) = l := by
    intro l
    induction l with
    | nil => rfl
    | cons a l ih => rw [List.length_cons, List.range_succ_eq_map, List.filterMap_cons, List.filterMap_map]; simpa [Function.comp_def] using ih
  conv => rhs; rw [← this (between ps i j)]
  rw [hlen]
  refine List.filterMap_congr (fun t ht => ?_)
  have := List.mem_range.1 ht
  simp only [Function.comp]
  rw [if_neg (by omega), hp t (by omega)]

end Verif
