import Mathlib.Analysis.Calculus.MeanValue
import Mathlib.Analysis.Calculus.ContDiff.RCLike
import Mathlib.Analysis.Calculus.ContDiff.Comp
import Mathlib.Analysis.Normed.Module.FiniteDimension

/-! # Local convergence of the Gauss–Newton iteration at a zero where the derivative is injective -/

namespace Verif

variable {E G : Type} [NormedAddCommGroup E] [NormedSpace ℝ E] [FiniteDimensional ℝ E] [NormedAddCommGroup G] [NormedSpace ℝ G]

/-- If `d` minimises `‖f'(x) d - f(x)‖`, then `x - d` is closer to the zero `a` than `x`, quadratically. -/
theorem gauss_newton_local {f : E → G} {a : E} (hf : ContDiffAt ℝ 2 f a) (h0 : f a = 0) (hi : Function.Injective (fderiv ℝ f a)) :
    ∃ δ > 0, ∃ C : ℝ, 0 ≤ C ∧ ∀ x, ‖x - a‖ < δ → DifferentiableAt ℝ f x ∧
      ∀ d, (∀ y, ‖fderiv ℝ f x d - f x‖ ≤ ‖fderiv ℝ f x y - f x‖) →
        ‖x - d - a‖ ≤ C * ‖x - a‖ ^ 2 ∧ ‖x - d - a‖ ≤ 1 / 2 * ‖x - a‖ := by
  -- the derivative is Lipschitz near `a`
  have hf' : ContDiffAt ℝ 1 (fderiv ℝ f) a := hf.fderiv_right (by norm_num)
  obtain ⟨K, t, ht, hL⟩ := hf'.exists_lipschitzOnWith
  have hd : ∀ᶠ x in nhds a, DifferentiableAt ℝ f x := by
    have h1 := (hf.of_le (show (1 : WithTop ℕ∞) ≤ 2 by norm_num)).eventually (by simp)
    exact h1.mono fun x hx => hx.differentiableAt (by norm_num)
  -- and bounded below at `a`
  obtain ⟨κ, hκ0, hκ⟩ := (fderiv ℝ f a).toLinearMap.exists_antilipschitzWith (LinearMap.ker_eq_bot.mpr hi)
  have hbelow : ∀ w, ‖w‖ ≤ κ * ‖fderiv ℝ f a w‖ := by
    intro w
    have := hκ.le_mul_dist w 0
    simpa using this
  have hκ' : (0 : ℝ) < κ := by exact_mod_cast hκ0
  obtain ⟨ε, hε, hball⟩ := Metric.eventually_nhds_iff_ball.mp (hd.and (Filter.eventually_mem_set.mpr ht))
  have hK : (0 : ℝ) ≤ K := K.2
  obtain ⟨C, hC⟩ : ∃ C : ℝ, C = 8 * κ * K := ⟨_, rfl⟩
  have hC0 : 0 ≤ C := by
    rw [hC]
    positivity
  refine ⟨min ε (min (1 / (2 * κ * K + 1)) (1 / (2 * C + 1))), by positivity, C, hC0, fun x hx => ?_⟩
  have hxε : ‖x - a‖ < ε := lt_of_lt_of_le hx (min_le_left _ _)
  have hx1 : ‖x - a‖ < 1 / (2 * κ * K + 1) := lt_of_lt_of_le hx ((min_le_right _ _).trans (min_le_left _ _))
  have hx2 : ‖x - a‖ < 1 / (2 * C + 1) := lt_of_lt_of_le hx ((min_le_right _ _).trans (min_le_right _ _))
  have hin : ∀ y, ‖y - a‖ < ε → DifferentiableAt ℝ f y ∧ y ∈ t := fun y hy => hball y (by rwa [Metric.mem_ball, dist_eq_norm])
  refine ⟨(hin x hxε).1, fun d hmin => ?_⟩
  obtain ⟨e, he⟩ : ∃ e, e = ‖x - a‖ := ⟨_, rfl⟩
  have he0 : 0 ≤ e := he ▸ norm_nonneg _
  -- Taylor
  have taylor : ‖fderiv ℝ f x (x - a) - f x‖ ≤ 2 * K * e * e := by
    have hs : Convex ℝ (Metric.closedBall a e) := convex_closedBall a e
    have hb : ∀ y ∈ Metric.closedBall a e, ‖fderiv ℝ f y - fderiv ℝ f x‖ ≤ 2 * K * e := by
      intro y hy
      rw [Metric.mem_closedBall, dist_eq_norm] at hy
      have h1 := hL.dist_le_mul y (hin y (lt_of_le_of_lt hy (he ▸ hxε))).2 x (hin x hxε).2
      rw [dist_eq_norm, dist_eq_norm] at h1
      have h2 : ‖y - x‖ ≤ 2 * e := by
        have := norm_sub_le (y - a) (x - a)
        rw [sub_sub_sub_cancel_right] at this
        linarith
      have := mul_le_mul_of_nonneg_left h2 hK
      linarith
    have hxm : x ∈ Metric.closedBall a e := by rw [Metric.mem_closedBall, dist_eq_norm, he]
    have ham : a ∈ Metric.closedBall a e := Metric.mem_closedBall_self he0
    have := hs.norm_image_sub_le_of_norm_hasFDerivWithin_le' (f := f) (f' := fderiv ℝ f) (φ := fderiv ℝ f x) (C := 2 * K * e)
      (fun y hy => (hin y (by
        rw [Metric.mem_closedBall, dist_eq_norm] at hy
        exact lt_of_le_of_lt hy (he ▸ hxε))).1.hasFDerivAt.hasFDerivWithinAt) hb hxm ham
    rw [h0, ← norm_neg (a - x), neg_sub, ← he] at this
    refine le_trans (le_of_eq ?_) this
    congr 1
    rw [← neg_sub x a, map_neg]
    abel
  -- the step
  obtain ⟨w, hw⟩ : ∃ w, w = x - d - a := ⟨_, rfl⟩
  have hJw : ‖fderiv ℝ f x w‖ ≤ 4 * K * e * e := by
    have e1 : fderiv ℝ f x w = (fderiv ℝ f x (x - a) - f x) - (fderiv ℝ f x d - f x) := by
      rw [hw, show x - d - a = (x - a) - d by abel, map_sub]
      abel
    rw [e1]
    have := norm_sub_le (fderiv ℝ f x (x - a) - f x) (fderiv ℝ f x d - f x)
    have := hmin (x - a)
    linarith
  have hdiff : ‖fderiv ℝ f a w‖ ≤ ‖fderiv ℝ f x w‖ + K * e * ‖w‖ := by
    have h1 := hL.dist_le_mul a (mem_of_mem_nhds ht) x (hin x hxε).2
    rw [dist_eq_norm, dist_eq_norm, ← norm_neg (a - x), neg_sub, ← he] at h1
    have h2 := (fderiv ℝ f a - fderiv ℝ f x).le_opNorm w
    have h3 := mul_le_mul_of_nonneg_right h1 (norm_nonneg w)
    have h4 : fderiv ℝ f a w = fderiv ℝ f x w + (fderiv ℝ f a - fderiv ℝ f x) w := by simp
    rw [h4]
    have := norm_add_le (fderiv ℝ f x w) ((fderiv ℝ f a - fderiv ℝ f x) w)
    linarith
  have hfin : ‖w‖ ≤ C * e ^ 2 := by
    have h1 := hbelow w
    have h2 : ‖w‖ ≤ κ * (4 * K * e * e + K * e * ‖w‖) := h1.trans (mul_le_mul_of_nonneg_left (by linarith) hκ'.le)
    have h3 : κ * K * e ≤ 1 / 2 := by
      rw [← he, lt_div_iff₀ (by positivity)] at hx1
      nlinarith
    have h4 : κ * K * e * ‖w‖ ≤ 1 / 2 * ‖w‖ := mul_le_mul_of_nonneg_right h3 (norm_nonneg w)
    rw [hC]
    nlinarith
  rw [← hw, ← he]
  refine ⟨hfin, hfin.trans ?_⟩
  have h5 : C * e ≤ 1 / 2 := by
    rw [← he, lt_div_iff₀ (by positivity)] at hx2
    nlinarith
  nlinarith

end Verif
