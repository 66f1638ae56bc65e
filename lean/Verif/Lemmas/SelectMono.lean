import Verif.Model.Select
import Verif.Lemmas.Mono

/-! More fuel never changes the outcome of the selection. -/

set_option linter.unusedSectionVars false

namespace Verif
namespace Sel

variable {T B : Type} [LinearOrder B]

theorem scanUp_le (key : T → B) (t : B) : ∀ (n : Nat) (a : Arr T) (i : Int), Res.Le (scanUp key t n a i) (scanUp key t (n + 1) a i)
  | 0, _, _ => .timeout _
  | n + 1, a, i => by
    rw [scanUp.eq_2, scanUp.eq_2]
    exact .bind (.refl _) (fun _ => .ite (scanUp_le key t n a _) (.refl _))

theorem scanDown_le (key : T → B) (t : B) : ∀ (n : Nat) (a : Arr T) (i : Int), Res.Le (scanDown key t n a i) (scanDown key t (n + 1) a i)
  | 0, _, _ => .timeout _
  | n + 1, a, i => by
    rw [scanDown.eq_2, scanDown.eq_2]
    exact .bind (.refl _) (fun _ => .ite (scanDown_le key t n a _) (.refl _))

theorem partLoop_le (key : T → B) (t : B) : ∀ (n : Nat) (a : Arr T) (i j : Int), Res.Le (partLoop key t n a i j) (partLoop key t (n + 1) a i j)
  | 0, _, _, _ => .timeout _
  | n + 1, a, i, j => by
    rw [partLoop.eq_2, partLoop.eq_2]
    exact .ite (.bind (.refl _) (fun _ => .bind (scanUp_le key t n _ _) (fun _ => .bind (scanDown_le key t n _ _) (fun _ => partLoop_le key t n _ _ _)))) (.refl _)

theorem partRound_le (key : T → B) (n : Nat) (a : Arr T) (k left right : Int) :
    Res.Le (partRound key n a k left right) (partRound key (n + 1) a k left right) := by
  unfold partRound
  exact .bind (.refl _) (fun _ => .bind (.refl _) (fun _ => .bind (.refl _) (fun _ => .bind (partLoop_le key _ n _ _ _) (fun _ => .refl _))))

theorem selLoop_le (big : Int) (win : Int → Int → Int → Int × Int) (key : T → B) (k : Int) : ∀ (n : Nat) (l0 r0 : Int) (a : Arr T) (left right : Int),
    Res.Le (selLoop big win key k n l0 r0 a left right) (selLoop big win key k (n + 1) l0 r0 a left right)
  | 0, _, _, _, _, _ => .timeout _
  | n + 1, l0, r0, a, left, right => by
    rw [selLoop.eq_2, selLoop.eq_2]
    refine .ite (.bind ?_ (fun _ => .bind (partRound_le key n _ _ _ _) (fun _ => selLoop_le big win key k n _ _ _ _ _))) (.refl _)
    unfold sample
    exact .ite (selLoop_le big win key k n _ _ _ _ _) (.refl _)

theorem selectBox_le (big : Int) (win : Int → Int → Int → Int × Int) (key : T → B) (a : Arr T) (k left right : Int) :
    Mono (fun fuel => selectBox big win key fuel a k left right) := fun n => selLoop_le big win key k n _ _ _ _ _

theorem multiLoop_le (big : Int) (win : Int → Int → Int → Int × Int) (key : T → B) (m : Int) : ∀ (n : Nat) (a : Arr T) (st : List (Int × Int)),
    Res.Le (multiLoop big win key m n a st) (multiLoop big win key m (n + 1) a st)
  | 0, _, _ => .timeout _
  | n + 1, a, [] => .refl _
  | n + 1, a, (l, r) :: st => by
    rw [multiLoop.eq_3, multiLoop.eq_3]
    exact .ite (multiLoop_le big win key m n _ _) (.bind (selectBox_le big win key _ _ _ _ n) (fun _ => multiLoop_le big win key m n _ _))

theorem multiSelect_le (big : Int) (win : Int → Int → Int → Int × Int) (key : T → B) (a : Arr T) (left right m : Int) :
    Mono (fun fuel => multiSelect big win key fuel a left right m) := fun n => multiLoop_le big win key m n _ _

end Sel
end Verif
