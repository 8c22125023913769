import Verif.Lemmas.GaussNewton
import Mathlib.Analysis.InnerProductSpace.Basic
import Mathlib.Analysis.Calculus.FDeriv.Basic

/-! # Gauss–Newton steps near a minimum with a residual that is not zero -/

namespace Verif.Lemmas

open Set Metric
open scoped NNReal RealInnerProductSpace

variable {E F : Type} [NormedAddCommGroup E] [NormedSpace ℝ E] [FiniteDimensional ℝ E] [NormedAddCommGroup F] [InnerProductSpace ℝ F]

/-- The minimiser of `‖J d - c‖` leaves a rest that is orthogonal to the range of `J`. -/
theorem min_orthogonal {V : Type} [AddCommGroup V] [Module ℝ V] (J : V →ₗ[ℝ] F) (c : F) (d : V) (h : ∀ y, ‖J d - c‖ ^ 2 ≤ ‖J y - c‖ ^ 2) (k : V) :
    ⟪J d - c, J k⟫ = 0 := by
  obtain ⟨a, ha⟩ : ∃ a, a = ⟪J d - c, J k⟫ := ⟨_, rfl⟩
  have key : ∀ t : ℝ, 0 ≤ 2 * t * a + t ^ 2 * ‖J k‖ ^ 2 := by
    intro t
    have e : J (d + t • k) - c = (J d - c) + t • J k := by
      rw [map_add, map_smul]
      abel
    have := h (d + t • k)
    rw [e, norm_add_sq_real, inner_smul_right, ← ha, norm_smul, mul_pow, Real.norm_eq_abs, sq_abs] at this
    linarith
  rw [← ha]
  by_contra hne
  have hb : 0 < ‖J k‖ ^ 2 + 1 := by positivity
  have := key (-a / (‖J k‖ ^ 2 + 1))
  have e : 2 * (-a / (‖J k‖ ^ 2 + 1)) * a + (-a / (‖J k‖ ^ 2 + 1)) ^ 2 * ‖J k‖ ^ 2
      = -(a ^ 2 * (‖J k‖ ^ 2 + 2)) / (‖J k‖ ^ 2 + 1) ^ 2 := by
    field_simp
    ring
  rw [e] at this
  have h2 : 0 < a ^ 2 * (‖J k‖ ^ 2 + 2) / (‖J k‖ ^ 2 + 1) ^ 2 := by positivity
  rw [neg_div] at this
  linarith

/-- The last inequality, for numbers: `a = ‖A h‖`, `b = ‖A e‖`, `j = ‖J h‖`. -/
theorem contraction_numbers {a b j ε θ q R x1 x2 x3 : ℝ} (ha : 0 ≤ a) (hb : 0 ≤ b) (hq0 : 0 ≤ q) (hε1 : ε ≤ 1 / 2)
    (hε2 : θ + ε * (R + 4) ≤ q * (1 - ε) ^ 2) (hlow : (1 - ε) * a ≤ j) (e : j ^ 2 = x1 + x2 + x3) (h1 : |x1| ≤ R * (ε * b * a)) (h2 : |x2| ≤ θ * b * a)
    (h3 : |x3| ≤ 4 * ε * b * a) : a ≤ q * b := by
  have tot : j ^ 2 ≤ (θ + ε * (R + 4)) * (b * a) := by
    rw [e]
    have c1 := le_abs_self x1
    have c2 := le_abs_self x2
    have c3 := le_abs_self x3
    nlinarith
  have low : (1 - ε) ^ 2 * a ^ 2 ≤ j ^ 2 := by
    have := pow_le_pow_left₀ (by nlinarith) hlow 2
    rwa [mul_pow] at this
  have fin : (1 - ε) ^ 2 * a ^ 2 ≤ q * (1 - ε) ^ 2 * (b * a) := low.trans (tot.trans (mul_le_mul_of_nonneg_right hε2 (mul_nonneg hb ha)))
  rcases ha.eq_or_lt with hz | hz
  · rw [← hz]
    positivity
  · have hpos : 0 < (1 - ε) ^ 2 * a := by
      have : 0 < 1 - ε := by linarith
      positivity
    refine le_of_mul_le_mul_left ?_ hpos
    nlinarith

omit [FiniteDimensional ℝ E] in
theorem contraction (A J : E →L[ℝ] F) (D : E →L[ℝ] F) (rs w : F) (e h : E) (y : F) {β ε θ q : ℝ} (hβ : 0 < β) (hε0 : 0 < ε) (hε1 : ε ≤ 1 / 2) (hq0 : 0 ≤ q)
    (hε2 : θ + ε * (‖rs‖ + 4) ≤ q * (1 - ε) ^ 2) (hmin : ⟪rs, A h⟫ = 0) (hlow : ∀ h, β * ‖h‖ ≤ ‖A h‖) (hB : |⟪rs, D h⟫| ≤ θ * ‖A e‖ * ‖A h‖)
    (hD1 : ‖J - A - D‖ ≤ ε * β ^ 2 * ‖e‖) (hJA : ‖J - A‖ ≤ ε * β) (hw : ‖w‖ ≤ 2 * (ε * β) * ‖e‖) (e1 : J h = y + rs + w) (o : ⟪y, J h⟫ = 0) :
    ‖A h‖ ≤ q * ‖A e‖ := by
  have e2 : ‖J h‖ ^ 2 = ⟪rs, J h⟫ + ⟪w, J h⟫ := by
    rw [← real_inner_self_eq_norm_sq]
    nth_rewrite 1 [e1]
    rw [inner_add_left, inner_add_left, o, zero_add]
  have e3 : ⟪rs, J h⟫ = ⟪rs, (J - A - D) h⟫ + ⟪rs, D h⟫ := by
    rw [← inner_add_right]
    have : (J - A - D) h + D h = J h - A h := by simp
    rw [this, inner_sub_right, hmin, sub_zero]
  have hh0 := norm_nonneg h
  have he0 := norm_nonneg e
  have hAh : β * ‖h‖ ≤ ‖A h‖ := hlow h
  have hAe : β * ‖e‖ ≤ ‖A e‖ := hlow e
  have b1 : |⟪rs, (J - A - D) h⟫| ≤ ‖rs‖ * (ε * ‖A e‖ * ‖A h‖) := by
    refine (abs_real_inner_le_norm _ _).trans (mul_le_mul_of_nonneg_left ?_ (norm_nonneg _))
    refine ((J - A - D).le_of_opNorm_le hD1 h).trans ?_
    have := mul_le_mul hAe hAh (by positivity) (norm_nonneg _)
    nlinarith
  have t1 := (J - A).le_of_opNorm_le hJA h
  have t1' : ‖(J - A) h‖ ≤ ε * ‖A h‖ := by nlinarith
  have hJh : (1 - ε) * ‖A h‖ ≤ ‖J h‖ := by
    have t2 : ‖A h‖ ≤ ‖J h‖ + ‖(J - A) h‖ := by
      have : A h = J h - (J - A) h := by simp
      rw [this]
      exact norm_sub_le _ _
    linarith
  have hJh2 : ‖J h‖ ≤ 2 * ‖A h‖ := by
    have t2 : ‖J h‖ ≤ ‖A h‖ + ‖(J - A) h‖ := by
      have : J h = A h + (J - A) h := by simp
      rw [this]
      exact norm_add_le _ _
    have := norm_nonneg (A h)
    nlinarith
  have b3 : |⟪w, J h⟫| ≤ 4 * ε * ‖A e‖ * ‖A h‖ := by
    refine (abs_real_inner_le_norm _ _).trans ?_
    have t1 : ‖w‖ ≤ 2 * ε * ‖A e‖ := by nlinarith
    have := mul_le_mul t1 hJh2 (norm_nonneg _) (by positivity)
    linarith
  exact contraction_numbers (norm_nonneg _) (norm_nonneg _) hq0 hε1 hε2 hJh (by rw [e2, e3]) b1 hB b3

/-- Near a minimum `s`, one step multiplies the error, measured by `‖A ·‖`, by at most `q`. -/
theorem near_min (r : E → F) (s : E) (hr : ContDiffAt ℝ 2 r s) (hi : ∀ h, fderiv ℝ r s h = 0 → h = 0)
    (hmin : ∀ h, ⟪r s, fderiv ℝ r s h⟫ = 0) {θ q : ℝ} (hθ0 : 0 ≤ θ) (hq : θ < q) (hq1 : q ≤ 1)
    (hB : ∀ h k, |⟪r s, fderiv ℝ (fderiv ℝ r) s h k⟫| ≤ θ * ‖fderiv ℝ r s h‖ * ‖fderiv ℝ r s k‖) :
    ∃ ρ > 0, ∃ β > 0, (∀ h, β * ‖h‖ ≤ ‖fderiv ℝ r s h‖) ∧ ∀ p, ‖p - s‖ ≤ ρ → DifferentiableAt ℝ r p ∧
      (∀ d, (∀ k, ⟪fderiv ℝ r p d - r p, fderiv ℝ r p k⟫ = 0) → ‖fderiv ℝ r s (p - d - s)‖ ≤ q * ‖fderiv ℝ r s (p - s)‖) ∧
      ‖fderiv ℝ r s (p - s)‖ ≤ 2 * ‖r p‖ := by
  obtain ⟨A, hA⟩ : ∃ A, A = fderiv ℝ r s := ⟨_, rfl⟩
  obtain ⟨D, hD⟩ : ∃ D, D = fderiv ℝ (fderiv ℝ r) s := ⟨_, rfl⟩
  rw [← hA] at hi hmin
  rw [← hA, ← hD] at hB
  obtain ⟨K, hK0, hK⟩ := LinearMap.exists_antilipschitzWith (A : E →ₗ[ℝ] F) (by
    rw [LinearMap.ker_eq_bot']
    exact hi)
  have hK0' : (0 : ℝ) < K := by exact_mod_cast hK0
  obtain ⟨β, hβe⟩ : ∃ β : ℝ, β = (K : ℝ)⁻¹ := ⟨_, rfl⟩
  have hβ : 0 < β := by rw [hβe]; positivity
  have hlow : ∀ h, β * ‖h‖ ≤ ‖A h‖ := by
    intro h
    have := hK.le_mul_dist h 0
    rw [dist_zero_right] at this
    simp only [map_zero, dist_zero_right] at this
    rw [hβe, inv_mul_le_iff₀ hK0']
    exact this
  -- a small number
  obtain ⟨ε, hε0, hε1, hε2⟩ : ∃ ε : ℝ, 0 < ε ∧ ε ≤ 1 / 2 ∧ θ + ε * (‖r s‖ + 4) ≤ q * (1 - ε) ^ 2 := by
    have hq0 : 0 < q := by linarith
    refine ⟨min (1 / 2) ((q - θ) / (‖r s‖ + 4 + 2 * q)), ?_, min_le_left _ _, ?_⟩
    · have : 0 < (q - θ) / (‖r s‖ + 4 + 2 * q) := by
        have := norm_nonneg (r s)
        have : 0 < q - θ := by linarith
        positivity
      exact lt_min (by norm_num) this
    · obtain ⟨ε, he⟩ : ∃ ε, ε = min (1 / 2) ((q - θ) / (‖r s‖ + 4 + 2 * q)) := ⟨_, rfl⟩
      have h1 : ε * (‖r s‖ + 4 + 2 * q) ≤ q - θ := by
        rw [← le_div_iff₀ (by positivity), he]
        exact min_le_right _ _
      rw [← he]
      nlinarith [sq_nonneg ε]
  have hεβ : 0 < ε * β ^ 2 / (‖A‖ + β + 1) := by positivity
  -- the derivative near `s`
  have hdf : HasFDerivAt (fderiv ℝ r) D s := by
    rw [hD]
    exact ((hr.fderiv_right (m := 1) (by norm_num)).differentiableAt (by norm_num)).hasFDerivAt
  have ev1 := hdf.isLittleO.bound (c := ε * β ^ 2) (by positivity)
  have ev2 : ∀ᶠ p in nhds s, ‖fderiv ℝ r p - A‖ < ε * β := by
    have hc : ContinuousAt (fun p => ‖fderiv ℝ r p - A‖) s := (hdf.continuousAt.sub continuousAt_const).norm
    refine hc.eventually_lt continuousAt_const ?_
    rw [hA, sub_self, norm_zero]
    positivity
  obtain ⟨ρ1, hρ1, hb1⟩ := Metric.eventually_nhds_iff.1 (ev1.and ev2)
  obtain ⟨ρ2, hρ2, hb2⟩ := Metric.eventually_nhds_iff.1 (hr.eventually (by simp))
  refine ⟨min (ρ1 / 2) (ρ2 / 2), lt_min (by linarith) (by linarith), β, hβ, by rw [← hA]; exact hlow, fun p hp => ?_⟩
  have hp1 : ‖p - s‖ < ρ1 := by linarith [hp.trans (min_le_left _ _)]
  have hp2 : ‖p - s‖ < ρ2 := by linarith [hp.trans (min_le_right _ _)]
  obtain ⟨S, hS⟩ : ∃ S, S = closedBall s ‖p - s‖ := ⟨_, rfl⟩
  have hSc : Convex ℝ S := by rw [hS]; exact convex_closedBall _ _
  have m0 : s ∈ S := by rw [hS]; exact mem_closedBall_self (norm_nonneg _)
  have mp : p ∈ S := by rw [hS, mem_closedBall, dist_eq_norm]
  have hd : ∀ x ∈ S, DifferentiableAt ℝ r x := fun x hx => by
    rw [hS, mem_closedBall] at hx
    exact (hb2 (hx.trans_lt hp2)).differentiableAt (by norm_num)
  have hl : ∀ x ∈ S, ‖fderiv ℝ r x - A‖ ≤ ε * β := fun x hx => by
    rw [hS, mem_closedBall] at hx
    exact (hb1 (hx.trans_lt hp1)).2.le
  have hl2 : ∀ x ∈ S, ‖fderiv ℝ r x - fderiv ℝ r p‖ ≤ 2 * (ε * β) := fun x hx => by
    have e : fderiv ℝ r x - fderiv ℝ r p = (fderiv ℝ r x - A) - (fderiv ℝ r p - A) := by abel
    rw [e]
    exact (norm_sub_le _ _).trans (by linarith [hl x hx, hl p mp])
  have hD1 : ‖fderiv ℝ r p - A - D (p - s)‖ ≤ ε * β ^ 2 * ‖p - s‖ := by
    have := (hb1 (y := p) (by rw [dist_eq_norm]; exact hp1)).1
    rwa [← hA] at this
  obtain ⟨J, hJ⟩ : ∃ J, J = fderiv ℝ r p := ⟨_, rfl⟩
  rw [← hJ] at hD1 hl2
  have hJA : ‖J - A‖ ≤ ε * β := by rw [hJ]; exact hl p mp
  -- `J e = r p - r s + w`
  have hw : ‖r p - r s - J (p - s)‖ ≤ 2 * (ε * β) * ‖p - s‖ := hSc.norm_image_sub_le_of_norm_fderiv_le' hd hl2 m0 mp
  have hwA : ‖r p - r s - A (p - s)‖ ≤ ε * β * ‖p - s‖ := hSc.norm_image_sub_le_of_norm_fderiv_le' hd hl m0 mp
  have hAe : β * ‖p - s‖ ≤ ‖A (p - s)‖ := hlow _
  rw [← hJ, ← hA]
  refine ⟨by rw [hJ] at *; exact hd p mp, fun d hdo => ?_, ?_⟩
  · obtain ⟨h, hh⟩ : ∃ h, h = d - (p - s) := ⟨_, rfl⟩
    have e0 : p - d - s = -h := by rw [hh]; abel
    rw [e0, map_neg, norm_neg]
    refine contraction A J (D (p - s)) (r s) (r p - r s - J (p - s)) (p - s) h (J d - r p) hβ hε0 hε1 (by linarith) hε2 (hmin h) hlow (hB _ _) hD1 hJA hw ?_
      (hdo h)
    rw [hh, map_sub]
    abel
  · have e1 : ⟪r p, A (p - s)⟫ = ‖A (p - s)‖ ^ 2 + ⟪r p - r s - A (p - s), A (p - s)⟫ := by
      rw [inner_sub_left, inner_sub_left, hmin, real_inner_self_eq_norm_sq]
      ring
    have t1 : ‖r p - r s - A (p - s)‖ ≤ 1 / 2 * ‖A (p - s)‖ := by
      have a1 : ε * β * ‖p - s‖ ≤ 1 / 2 * (β * ‖p - s‖) := by
        rw [mul_assoc]
        exact mul_le_mul_of_nonneg_right hε1 (by positivity)
      linarith
    have t2 := neg_le_of_abs_le (abs_real_inner_le_norm (r p - r s - A (p - s)) (A (p - s)))
    have t3 := real_inner_le_norm (r p) (A (p - s))
    rcases (norm_nonneg (A (p - s))).eq_or_lt with hz | hz
    · rw [← hz]
      positivity
    · refine le_of_mul_le_mul_left ?_ hz
      nlinarith

end Verif.Lemmas
