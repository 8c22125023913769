import Verif.Spec.Trig
import Mathlib.LinearAlgebra.Lagrange
import Mathlib.Analysis.SpecialFunctions.Complex.Log
import Mathlib.Tactic.LinearCombination

/-! # The trigonometric system is unisolvent on distinct points of a period -/

namespace Verif

open Polynomial Verif.Spec

theorem sum_fourier (ξ : ℕ → ℝ) (z : ℝ) (g : ℕ) : ∑ k ∈ Finset.range (2 * g + 1), fourier k z * ξ k =
    ξ 0 + ∑ h ∈ Finset.range g, (Real.sin ((h + 1 : ℕ) * z) * ξ (2 * h + 1) + Real.cos ((h + 1 : ℕ) * z) * ξ (2 * h + 2)) := by
  induction g with
  | zero => simp [fourier]
  | succ g ih =>
    rw [show 2 * (g + 1) + 1 = 2 * g + 1 + 1 + 1 by ring, Finset.sum_range_succ, Finset.sum_range_succ, ih,
      Finset.sum_range_succ]
    have h1 : fourier (2 * g + 1) z = Real.sin ((g + 1 : ℕ) * z) := by
      unfold fourier
      rw [if_neg (by omega), if_pos (by omega), show (2 * g + 1 + 1) / 2 = g + 1 by omega]
    have h2 : fourier (2 * g + 1 + 1) z = Real.cos ((g + 1 : ℕ) * z) := by
      unfold fourier
      rw [if_neg (by omega), if_neg (by omega), show (2 * g + 1 + 1) / 2 = g + 1 by omega]
    rw [h1, h2]
    ring

/-- The polynomial in `e^{iz}` that a trigonometric sum becomes after multiplication by `e^{igz}`. -/
noncomputable def trigPoly (ξ : ℕ → ℝ) (g : ℕ) : ℂ[X] :=
  C (ξ 0 : ℂ) * X ^ g + ∑ h ∈ Finset.range g,
    (C (((ξ (2 * h + 2) : ℂ) - Complex.I * ξ (2 * h + 1)) / 2) * X ^ (g + (h + 1)) +
      C (((ξ (2 * h + 2) : ℂ) + Complex.I * ξ (2 * h + 1)) / 2) * X ^ (g - (h + 1)))

theorem trigPoly_eval (ξ : ℕ → ℝ) (g : ℕ) (z : ℝ) :
    (trigPoly ξ g).eval (Complex.exp (z * Complex.I)) =
      Complex.exp (z * Complex.I) ^ g * ((∑ k ∈ Finset.range (2 * g + 1), fourier k z * ξ k : ℝ) : ℂ) := by
  rw [sum_fourier, trigPoly]
  simp only [eval_add, eval_mul, eval_C, eval_pow, eval_X, eval_finsetSum, Complex.ofReal_add, Complex.ofReal_sum,
    Complex.ofReal_mul, mul_add, Finset.mul_sum]
  rw [mul_comm]
  congr 1
  refine Finset.sum_congr rfl fun h hh => ?_
  have hh : h < g := Finset.mem_range.mp hh
  set e := Complex.exp (z * Complex.I) with he
  have he0 : e ≠ 0 := Complex.exp_ne_zero _
  have hp : Complex.exp (((h + 1 : ℕ) * z : ℝ) * Complex.I) = e ^ (h + 1) := by
    rw [he, ← Complex.exp_nat_mul]; congr 1; push_cast; ring
  have hs : ((Real.sin ((h + 1 : ℕ) * z) : ℝ) : ℂ) = (e ^ (h + 1))⁻¹ * Complex.I / 2 - e ^ (h + 1) * Complex.I / 2 := by
    rw [Complex.ofReal_sin, Complex.sin, ← hp, ← Complex.exp_neg, neg_mul]; ring
  have hc : ((Real.cos ((h + 1 : ℕ) * z) : ℝ) : ℂ) = (e ^ (h + 1) + (e ^ (h + 1))⁻¹) / 2 := by
    rw [Complex.ofReal_cos, Complex.cos, ← hp, ← Complex.exp_neg, neg_mul]
  have hq : e ^ (g - (h + 1)) = e ^ g * (e ^ (h + 1))⁻¹ := by
    rw [pow_sub₀ _ he0 (by omega)]
  rw [hs, hc, hq, pow_add]
  have hI : Complex.I * Complex.I = -1 := Complex.I_mul_I
  ring

theorem trigPoly_degree (ξ : ℕ → ℝ) (g : ℕ) : (trigPoly ξ g).degree < (2 * g + 1 : ℕ) := by
  rw [← mem_degreeLT]
  refine Submodule.add_mem _ ?_ (Submodule.sum_mem _ fun h hh => Submodule.add_mem _ ?_ ?_)
  all_goals
    rw [mem_degreeLT]
    refine lt_of_le_of_lt (degree_C_mul_X_pow_le _ _) ?_
    norm_cast
    try have hh := Finset.mem_range.mp hh
    omega

theorem trigPoly_coeffs (ξ : ℕ → ℝ) (g : ℕ) (h0 : trigPoly ξ g = 0) : ∀ k < 2 * g + 1, ξ k = 0 := by
  have hmid : ξ 0 = 0 := by
    have := congrArg (fun p => p.coeff g) h0
    simp only [trigPoly, coeff_add, coeff_C_mul_X_pow, finsetSum_coeff, coeff_zero] at this
    rw [Finset.sum_eq_zero] at this
    · simpa using this
    · intro h hh
      have hh := Finset.mem_range.mp hh
      rw [if_neg (by omega), if_neg (by omega), add_zero]
  have hpair : ∀ h < g, ξ (2 * h + 1) = 0 ∧ ξ (2 * h + 2) = 0 := by
    intro h hh
    have h1 := congrArg (fun p => p.coeff (g + (h + 1))) h0
    have h2 := congrArg (fun p => p.coeff (g - (h + 1))) h0
    simp only [trigPoly, coeff_add, coeff_C_mul_X_pow, finsetSum_coeff, coeff_zero] at h1 h2
    rw [if_neg (by omega), Finset.sum_eq_single h] at h1 h2
    · rw [if_pos rfl, if_neg (by omega)] at h1
      rw [if_pos rfl, if_neg (by omega)] at h2
      have e1 : (ξ (2 * h + 2) : ℂ) = 0 := by linear_combination h1 + h2
      have e2 : Complex.I * (ξ (2 * h + 1) : ℂ) = 0 := by linear_combination h2 - h1
      refine ⟨?_, by exact_mod_cast e1⟩
      have := (mul_eq_zero.mp e2).resolve_left Complex.I_ne_zero
      exact_mod_cast this
    · intro b hb hbh
      have hb := Finset.mem_range.mp hb
      rw [if_neg (by omega), if_neg (by omega), add_zero]
    · intro hn; exact absurd (Finset.mem_range.mpr hh) hn
    · intro b hb hbh
      have hb := Finset.mem_range.mp hb
      rw [if_neg (by omega), if_neg (by omega), add_zero]
    · intro hn; exact absurd (Finset.mem_range.mpr hh) hn
  intro k hk
  rcases Nat.eq_zero_or_pos k with rfl | hpos
  · exact hmid
  · rcases Nat.even_or_odd' (k - 1) with ⟨h, hk' | hk'⟩
    · have := (hpair h (by omega)).1
      rwa [show 2 * h + 1 = k by omega] at this
    · have := (hpair h (by omega)).2
      rwa [show 2 * h + 2 = k by omega] at this

/-- A trigonometric sum with `m` terms that vanishes at more than `2 ⌊m/2⌋` distinct points of one period is trivial. -/
theorem fourier_unisolvent {m n : ℕ} (hmn : 2 * (m / 2) + 1 ≤ n) (ξ : ℕ → ℝ) (zs : ℕ → ℝ)
    (hin : ∀ i < n, -Real.pi < zs i ∧ zs i ≤ Real.pi) (hz : ∀ i < n, ∀ j < n, zs i = zs j → i = j)
    (h : ∀ j < n, ∑ k ∈ Finset.range m, fourier k (zs j) * ξ k = 0) : ∀ k < m, ξ k = 0 := by
  set g := m / 2 with hg
  set η : ℕ → ℝ := fun k => if k < m then ξ k else 0 with hη
  have hsum : ∀ z, ∑ k ∈ Finset.range (2 * g + 1), fourier k z * η k = ∑ k ∈ Finset.range m, fourier k z * ξ k := by
    intro z
    have hsub : Finset.range m ⊆ Finset.range (2 * g + 1) := by
      intro k hk
      have := Finset.mem_range.mp hk
      exact Finset.mem_range.mpr (by omega)
    rw [← Finset.sum_subset hsub]
    · refine Finset.sum_congr rfl fun k hk => ?_
      rw [hη]; simp only; rw [if_pos (Finset.mem_range.mp hk)]
    · intro k _ hk
      rw [hη]; simp only; rw [if_neg (by simpa using hk), mul_zero]
  have hinj : Set.InjOn (fun j => Complex.exp (zs j * Complex.I)) (Finset.range n : Set ℕ) := by
    intro i hi j hj hij
    have hi : i < n := by simpa using hi
    have hj : j < n := by simpa using hj
    apply hz i hi j hj
    have him : ∀ z : ℝ, ((z : ℂ) * Complex.I).im = z := by intro z; simp
    have := Complex.exp_inj_of_neg_pi_lt_of_le_pi (by rw [him]; exact (hin i hi).1) (by rw [him]; exact (hin i hi).2)
      (by rw [him]; exact (hin j hj).1) (by rw [him]; exact (hin j hj).2) hij
    have := congrArg Complex.im this
    rwa [him, him] at this
  have h0 : trigPoly η g = 0 := by
    haveI := Classical.decEq ℂ
    refine eq_zero_of_degree_lt_of_eval_finset_eq_zero ((Finset.range n).image fun j => Complex.exp (zs j * Complex.I)) ?_ ?_
    · rw [Finset.card_image_of_injOn hinj, Finset.card_range]
      exact lt_of_lt_of_le (trigPoly_degree η g) (Nat.cast_le.mpr hmn)
    · intro x hx
      obtain ⟨j, hj, rfl⟩ := Finset.mem_image.mp hx
      rw [trigPoly_eval, hsum, h j (Finset.mem_range.mp hj)]
      simp
  intro k hk
  have := trigPoly_coeffs η g h0 k (by omega)
  rw [hη] at this
  simpa [hk] using this

end Verif
