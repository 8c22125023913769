import Verif.Lemmas.PolyFamilies
import Mathlib.Algebra.Polynomial.Degree.Lemmas
import Mathlib.Algebra.Polynomial.BigOperators
import Mathlib.Tactic.ComputeDegree

/-! # Degrees of the classical polynomials -/

namespace Verif

open Polynomial Verif.Spec

variable {K : Type} [Field K] [CharZero K]

theorem natDegree_classical_le (f : PolyFamily) (k : ℕ) : (classical K f k).natDegree ≤ k := by
  cases f with
  | cp =>
    simp only [classical]
    induction k using Nat.strong_induction_on with
    | _ k ih =>
      rcases k with _ | _ | k
      · simp
      · simp
      · have : Chebyshev.T K ((k + 2 : ℕ) : ℤ) =
            2 * X * Chebyshev.T K ((k + 1 : ℕ) : ℤ) - Chebyshev.T K (k : ℤ) := by
          push_cast
          exact Chebyshev.T_add_two K k
        rw [this]
        refine (natDegree_sub_le _ _).trans (max_le ?_ ((ih k (by omega)).trans (by omega)))
        refine natDegree_mul_le.trans ?_
        have h1 := ih (k + 1) (by omega)
        have h2 : (2 * X : K[X]).natDegree ≤ 1 := by compute_degree
        omega
  | lep =>
    simp only [classical, legendre]
    refine (natDegree_C_mul_le _ _).trans ?_
    refine (natDegree_iterate_derivative _ _).trans ?_
    have h : ((X ^ 2 - 1 : K[X]) ^ k).natDegree ≤ k * 2 := by
      refine natDegree_pow_le_of_le k ?_
      compute_degree
    omega
  | lap =>
    simp only [classical, laguerre]
    refine natDegree_sum_le_of_forall_le _ _ fun i hi => ?_
    refine (natDegree_C_mul_le _ _).trans ?_
    rw [natDegree_X_pow]
    simp at hi; omega
  | hopPro =>
    simp only [classical]
    refine natDegree_map_le.trans ?_
    rw [natDegree_hermite]
  | hopPhy =>
    simp only [classical]
    induction k with
    | zero => simp [physHermite]
    | succ k ih =>
      rw [physHermite]
      refine (natDegree_sub_le _ _).trans (max_le ?_ ?_)
      · refine natDegree_mul_le.trans ?_
        have h2 : (2 * X : K[X]).natDegree ≤ 1 := by compute_degree
        omega
      · refine (natDegree_derivative_le _).trans ?_
        omega

theorem polyD_eq_zero (f : PolyFamily) {d k : ℕ} (h : k < d) (z : K) : polyD K f d z k = 0 := by
  unfold polyD
  rw [iterate_derivative_eq_zero (lt_of_le_of_lt (natDegree_classical_le f k) h)]
  simp

end Verif
