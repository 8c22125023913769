import Verif.Model.Crop

/-! # Trimming a picture -/

namespace Verif.Spec

open Verif.Model.Crop

/-- The pixel at row `i` and column `j` lies in the picture and differs from the one in the corner. -/
def Ink (a : Img) (i j : ℕ) : Prop := i < a.h ∧ j < a.w ∧ ∃ c < 4, a.px i j c ≠ a.px 0 0 c

/-- `b` is the smallest rectangle of `a` that contains every pixel different from the corner. -/
def IsTrim (a b : Img) : Prop :=
  ∃ x0 y0, x0 + b.h ≤ a.h ∧ y0 + b.w ≤ a.w ∧
    (∀ i j c, i < b.h → j < b.w → c < 4 → b.px i j c = a.px (x0 + i) (y0 + j) c) ∧
    (∀ i j, Ink a i j → x0 ≤ i ∧ i < x0 + b.h ∧ y0 ≤ j ∧ j < y0 + b.w) ∧
    (∃ j, Ink a x0 j) ∧ (∃ i, Ink a i y0) ∧ (∃ j, Ink a (x0 + b.h - 1) j) ∧ ∃ i, Ink a i (y0 + b.w - 1)

end Verif.Spec
