import Verif.Lemmas.PolyDegree
import Verif.Spec.Domain
import Mathlib.Algebra.Polynomial.Sequence
import Mathlib.LinearAlgebra.Lagrange
import Mathlib.Algebra.Polynomial.Eval.Degree
import Mathlib.Tactic.FieldSimp
import Mathlib.Tactic.LinearCombination

/-! # The classical polynomials of degree below `m` span the polynomials of degree below `m` -/

namespace Verif

open Polynomial Verif.Spec

variable {K : Type} [Field K] [CharZero K]

theorem coeff_classical_ne_zero (f : PolyFamily) (k : ℕ) : (classical K f k).coeff k ≠ 0 := by
  cases f with
  | cp =>
    simp only [classical]
    have h : (Chebyshev.T K (k : ℤ)).natDegree = k := by
      have := Chebyshev.natDegree_T K (k : ℤ)
      simpa using this
    have h2 : Chebyshev.T K (k : ℤ) ≠ 0 := Chebyshev.T_ne_zero K _
    have := leadingCoeff_ne_zero.mpr h2
    rwa [leadingCoeff, h] at this
  | lep =>
    simp only [classical, legendre]
    rw [coeff_C_mul, coeff_iterate_derivative]
    have hmon : (X ^ 2 - 1 : K[X]).Monic := by monicity!
    have hdeg : (X ^ 2 - 1 : K[X]).natDegree = 2 := by compute_degree!
    have h1 : ((X ^ 2 - 1 : K[X]) ^ k).coeff (k + k) = 1 := by
      have h2 := hmon.pow k
      have h3 : ((X ^ 2 - 1 : K[X]) ^ k).natDegree = k + k := by rw [hmon.natDegree_pow, hdeg]; ring
      rw [Monic, leadingCoeff, h3] at h2
      exact h2
    rw [h1]
    have h4 : ((k + k).descFactorial k : K) ≠ 0 := by
      rw [Nat.cast_ne_zero]
      exact (Nat.descFactorial_pos.mpr (by omega)).ne'
    have h5 : (k.factorial : K) ≠ 0 := Nat.cast_ne_zero.mpr (Nat.factorial_ne_zero k)
    simp only [nsmul_eq_mul, mul_one]
    exact mul_ne_zero (one_div_ne_zero (mul_ne_zero (pow_ne_zero _ two_ne_zero) h5)) h4
  | lap =>
    simp only [classical]
    rw [laguerre_coeff]
    have h5 : (k.factorial : K) ≠ 0 := Nat.cast_ne_zero.mpr (Nat.factorial_ne_zero k)
    simp [h5]
  | hopPro =>
    simp only [classical]
    rw [coeff_map]
    have h := hermite_monic k
    rw [Monic, leadingCoeff, natDegree_hermite] at h
    rw [h]; simp
  | hopPhy =>
    simp only [classical]
    induction k with
    | zero => simp [physHermite]
    | succ k ih =>
      rw [physHermite, coeff_sub, coeff_derivative]
      have h0 : (physHermite K k).coeff (k + 1 + 1) = 0 := by
        refine coeff_eq_zero_of_natDegree_lt ?_
        have := natDegree_classical_le (K := K) .hopPhy k
        simp only [classical] at this
        omega
      rw [h0, zero_mul, sub_zero, mul_assoc, mul_comm X, ← mul_assoc, coeff_mul_X, ← C_ofNat', coeff_C_mul]
      exact mul_ne_zero two_ne_zero ih

theorem degree_classical (f : PolyFamily) (k : ℕ) : (classical K f k).degree = k := by
  have h1 := natDegree_classical_le (K := K) f k
  have h2 := le_natDegree_of_ne_zero (coeff_classical_ne_zero (K := K) f k)
  have h3 : classical K f k ≠ 0 := by
    intro h
    apply coeff_classical_ne_zero (K := K) f k
    rw [h, coeff_zero]
  rw [degree_eq_natDegree h3]
  congr 1
  omega

/-- The classical polynomials as a sequence with one polynomial of each degree. -/
noncomputable def classicalSeq (K : Type) [Field K] [CharZero K] (f : PolyFamily) : Polynomial.Sequence K :=
  ⟨classical K f, degree_classical f⟩

theorem classical_span (f : PolyFamily) (m : ℕ) (p : K[X]) (hp : p.degree < m) :
    ∃ ξ : ℕ → K, p = ∑ k ∈ Finset.range m, C (ξ k) * classical K f k := by
  have h := (classicalSeq K f).span_degreeLT (m := m)
    (fun i _ => (leadingCoeff_ne_zero.mpr ((classicalSeq K f).ne_zero i)).isUnit)
  have hp' : p ∈ Submodule.span K ((classicalSeq K f) '' Set.Iio m) := by
    rw [h, mem_degreeLT]; exact hp
  have himg : ((classicalSeq K f) '' Set.Iio m) = (classicalSeq K f) '' (Finset.range m : Set ℕ) := by simp
  rw [himg, Submodule.mem_span_image_finset_iff_exists_fun'] at hp'
  obtain ⟨c, hc⟩ := hp'
  refine ⟨c, ?_⟩
  rw [← hc]
  refine Finset.sum_congr rfl fun k _ => ?_
  rw [smul_eq_C_mul]
  rfl

theorem classical_indep (f : PolyFamily) (m : ℕ) (ξ : ℕ → K)
    (h : ∑ k ∈ Finset.range m, C (ξ k) * classical K f k = 0) : ∀ k < m, ξ k = 0 := by
  have hl := (classicalSeq K f).linearIndependent
  rw [linearIndependent_iff'] at hl
  intro k hk
  refine hl (Finset.range m) ξ ?_ k (Finset.mem_range.mpr hk)
  rw [← h]
  exact Finset.sum_congr rfl fun k _ => smul_eq_C_mul _

/-- A combination of the first `m` polynomials that vanishes at `m` distinct points is trivial. -/
theorem classical_unisolvent (f : PolyFamily) {m n : ℕ} (hmn : m ≤ n) (ξ : ℕ → K) (zs : ℕ → K)
    (hz : ∀ i < n, ∀ j < n, zs i = zs j → i = j)
    (h : ∀ j < n, ∑ k ∈ Finset.range m, (classical K f k).eval (zs j) * ξ k = 0) : ∀ k < m, ξ k = 0 := by
  apply classical_indep f m ξ
  set p := ∑ k ∈ Finset.range m, C (ξ k) * classical K f k with hp
  have hinj : Set.InjOn zs (Finset.range n : Set ℕ) := by
    intro i hi j hj hij
    exact hz i (by simpa using hi) j (by simpa using hj) hij
  haveI := Classical.decEq K
  refine eq_zero_of_degree_lt_of_eval_finset_eq_zero ((Finset.range n).image zs) ?_ ?_
  · rw [Finset.card_image_of_injOn hinj, Finset.card_range]
    refine lt_of_lt_of_le ?_ (Nat.cast_le.mpr hmn)
    rw [hp, ← mem_degreeLT]
    refine Submodule.sum_mem _ fun k hk => ?_
    rw [mem_degreeLT]
    rw [← smul_eq_C_mul]
    refine lt_of_le_of_lt (degree_smul_le _ _) ?_
    rw [degree_classical]
    exact_mod_cast Finset.mem_range.mp hk
  · intro x hx
    obtain ⟨j, hj, rfl⟩ := Finset.mem_image.mp hx
    rw [hp, eval_finsetSum, ← h j (Finset.mem_range.mp hj)]
    refine Finset.sum_congr rfl fun k _ => ?_
    rw [eval_mul, eval_C, mul_comm]

/-- The point at which the polynomials are evaluated is an invertible affine function of the user's variable. -/
theorem arg_affine (f : PolyFamily) (x0 xf : K) (hx : x0 ≠ xf) :
    ∃ a b : K, a ≠ 0 ∧ ∀ x, f.arg x0 xf x = a * x + b := by
  have hx' : xf - x0 ≠ 0 := sub_ne_zero.mpr hx.symm
  have h2 : (2 : K) ≠ 0 := two_ne_zero
  cases f
  · exact ⟨2 / (xf - x0), -1 - 2 * x0 / (xf - x0), div_ne_zero h2 hx', fun x => by
      simp only [PolyFamily.arg, toBasis]; field_simp; ring⟩
  · exact ⟨2 / (xf - x0), -1 - 2 * x0 / (xf - x0), div_ne_zero h2 hx', fun x => by
      simp only [PolyFamily.arg, toBasis]; field_simp; ring⟩
  all_goals exact ⟨1, 0, one_ne_zero, fun x => by simp [PolyFamily.arg]⟩

/-- Every polynomial of degree below `m` in the user's variable is a combination of the first `m` basis functions. -/
theorem classical_represent (f : PolyFamily) (x0 xf : K) (hx : x0 ≠ xf) (m : ℕ) (p : K[X]) (hp : p.degree < m) :
    ∃ ξ : ℕ → K, ∀ x, p.eval x = ∑ k ∈ Finset.range m, (classical K f k).eval (f.arg x0 xf x) * ξ k := by
  obtain ⟨a, b, ha, harg⟩ := arg_affine f x0 xf hx
  have hq : (p.comp (C (1 / a) * X + C (-b / a))).degree < m := by
    rcases eq_or_ne p 0 with rfl | h0
    · simp
    · refine lt_of_le_of_lt degree_le_natDegree ?_
      rw [degree_eq_natDegree h0] at hp
      have h1 : (p.comp (C (1 / a) * X + C (-b / a))).natDegree ≤ p.natDegree * 1 := by
        refine natDegree_comp_le.trans (Nat.mul_le_mul_left _ ?_)
        exact natDegree_linear_le
      have h2 : p.natDegree < m := by exact_mod_cast hp
      exact_mod_cast (by omega : (p.comp (C (1 / a) * X + C (-b / a))).natDegree < m)
  obtain ⟨ξ, hξ⟩ := classical_span f m _ hq
  refine ⟨ξ, fun x => ?_⟩
  have h := congrArg (fun q => q.eval (f.arg x0 xf x)) hξ
  simp only [eval_comp, eval_add, eval_mul, eval_C, eval_X, eval_finsetSum] at h
  have hxx : 1 / a * f.arg x0 xf x + -b / a = x := by rw [harg]; field_simp; ring
  rw [hxx] at h
  rw [h]
  exact Finset.sum_congr rfl fun k _ => mul_comm _ _

end Verif
