import Verif.Lemmas.ChebGrid
import Mathlib.Logic.Equiv.Fin.Basic
import Mathlib.Algebra.BigOperators.Fin
import Mathlib.Algebra.Order.BigOperators.Ring.Finset

/-! # Products of well-conditioned matrices -/

namespace Verif.Lemmas

/-- If every factor stretches all vectors by factors between `√a` and `√b`, the tensor product does so between the roots of the products. -/
theorem tensor_frame (m : ℕ) : ∀ (d : ℕ) (N : Fin d → ℕ) (V : Fin d → ℕ → ℕ → ℝ) (a b : Fin d → ℝ), (∀ l, 0 ≤ a l) → (∀ l, 0 ≤ b l) →
    (∀ l (ξ : Fin m → ℝ), a l * ∑ k, ξ k ^ 2 ≤ ∑ j : Fin (N l), (∑ k : Fin m, V l j k * ξ k) ^ 2 ∧
      ∑ j : Fin (N l), (∑ k : Fin m, V l j k * ξ k) ^ 2 ≤ b l * ∑ k, ξ k ^ 2) → ∀ ζ : (Fin d → Fin m) → ℝ,
    (∏ l, a l) * ∑ α, ζ α ^ 2 ≤ ∑ ι : (l : Fin d) → Fin (N l), (∑ α : Fin d → Fin m, (∏ l, V l (ι l) (α l)) * ζ α) ^ 2 ∧
      ∑ ι : (l : Fin d) → Fin (N l), (∑ α : Fin d → Fin m, (∏ l, V l (ι l) (α l)) * ζ α) ^ 2 ≤ (∏ l, b l) * ∑ α, ζ α ^ 2 := by
  intro d
  induction d with
  | zero =>
    intro N V a b _ _ _ ζ
    simp
  | succ d ih =>
    intro N V a b ha hb h ζ
    have e1 : ∀ g : (Fin (d + 1) → Fin m) → ℝ, ∑ α, g α = ∑ β : Fin d → Fin m, ∑ k : Fin m, g (Fin.cons k β) := by
      intro g
      rw [Finset.sum_comm, ← Fintype.sum_prod_type', ← Fintype.sum_equiv (Fin.consEquiv fun _ : Fin (d + 1) => Fin m)]
      intro x
      rfl
    have e2 : ∀ g : ((l : Fin (d + 1)) → Fin (N l)) → ℝ, ∑ ι, g ι = ∑ j : Fin (N 0), ∑ ι' : (l : Fin d) → Fin (N l.succ), g (Fin.cons j ι') := by
      intro g
      rw [← Fintype.sum_prod_type', ← Fintype.sum_equiv (Fin.consEquiv fun l : Fin (d + 1) => Fin (N l))]
      intro x
      rfl
    have e3 : ∑ ι : (l : Fin (d + 1)) → Fin (N l), (∑ α : Fin (d + 1) → Fin m, (∏ l, V l (ι l) (α l)) * ζ α) ^ 2 =
        ∑ j : Fin (N 0), ∑ ι' : (l : Fin d) → Fin (N l.succ), (∑ β : Fin d → Fin m, (∏ l : Fin d, V l.succ (ι' l) (β l)) *
          ∑ k : Fin m, V 0 j k * ζ (Fin.cons k β)) ^ 2 := by
      rw [e2]
      refine Finset.sum_congr rfl fun j _ => Finset.sum_congr rfl fun ι' _ => ?_
      congr 1
      rw [e1]
      refine Finset.sum_congr rfl fun β _ => ?_
      rw [Finset.mul_sum]
      refine Finset.sum_congr rfl fun k _ => ?_
      rw [Fin.prod_univ_succ]
      simp only [Fin.cons_zero, Fin.cons_succ]
      ring
    have IH := fun j : Fin (N 0) => ih (fun l => N l.succ) (fun l => V l.succ) (fun l => a l.succ) (fun l => b l.succ) (fun l => ha _) (fun l => hb _)
      (fun l => h l.succ) fun β => ∑ k : Fin m, V 0 j k * ζ (Fin.cons k β)
    have hpa : 0 ≤ ∏ l : Fin d, a l.succ := Finset.prod_nonneg fun l _ => ha _
    have hpb : 0 ≤ ∏ l : Fin d, b l.succ := Finset.prod_nonneg fun l _ => hb _
    rw [e3, e1 fun α => ζ α ^ 2, Fin.prod_univ_succ, Fin.prod_univ_succ]
    constructor
    · calc a 0 * (∏ l : Fin d, a l.succ) * ∑ β : Fin d → Fin m, ∑ k : Fin m, ζ (Fin.cons k β) ^ 2
          = (∏ l : Fin d, a l.succ) * ∑ β : Fin d → Fin m, a 0 * ∑ k : Fin m, ζ (Fin.cons k β) ^ 2 := by rw [← Finset.mul_sum]; ring
        _ ≤ (∏ l : Fin d, a l.succ) * ∑ β : Fin d → Fin m, ∑ j : Fin (N 0), (∑ k : Fin m, V 0 j k * ζ (Fin.cons k β)) ^ 2 :=
          mul_le_mul_of_nonneg_left (Finset.sum_le_sum fun β _ => (h 0 fun k => ζ (Fin.cons k β)).1) hpa
        _ = ∑ j : Fin (N 0), (∏ l : Fin d, a l.succ) * ∑ β : Fin d → Fin m, (∑ k : Fin m, V 0 j k * ζ (Fin.cons k β)) ^ 2 := by
          rw [Finset.sum_comm, Finset.mul_sum]
        _ ≤ _ := Finset.sum_le_sum fun j _ => (IH j).1
    · calc _ ≤ ∑ j : Fin (N 0), (∏ l : Fin d, b l.succ) * ∑ β : Fin d → Fin m, (∑ k : Fin m, V 0 j k * ζ (Fin.cons k β)) ^ 2 :=
          Finset.sum_le_sum fun j _ => (IH j).2
        _ = (∏ l : Fin d, b l.succ) * ∑ β : Fin d → Fin m, ∑ j : Fin (N 0), (∑ k : Fin m, V 0 j k * ζ (Fin.cons k β)) ^ 2 := by
          rw [Finset.sum_comm, Finset.mul_sum]
        _ ≤ (∏ l : Fin d, b l.succ) * ∑ β : Fin d → Fin m, b 0 * ∑ k : Fin m, ζ (Fin.cons k β) ^ 2 :=
          mul_le_mul_of_nonneg_left (Finset.sum_le_sum fun β _ => (h 0 fun k => ζ (Fin.cons k β)).2) hpb
        _ = b 0 * (∏ l : Fin d, b l.succ) * ∑ β : Fin d → Fin m, ∑ k : Fin m, ζ (Fin.cons k β) ^ 2 := by rw [← Finset.mul_sum]; ring

end Verif.Lemmas
