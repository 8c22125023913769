import Verif.Lemmas.MaxPrinciple
import Verif.Lemmas.TwoOps
import Mathlib.Analysis.SpecialFunctions.SmoothTransition
import Mathlib.MeasureTheory.Integral.Prod
import Mathlib.MeasureTheory.Integral.DominatedConvergence
import Mathlib.MeasureTheory.Integral.IntervalIntegral.FundThmCalculus

/-! Integrals over a rectangle: monotony, the divergence theorem, and the inequality of Cauchy and Schwarz on an interval. -/

namespace Verif.Lemmas.Area
open Set MeasureTheory Verif.Model.Prog
open scoped ContDiff

/-- The integral of `F` over `[a, b] × [c, d]`. -/
noncomputable def area (a b c d : ℝ) (F : ℝ → ℝ → ℝ) : ℝ := ∫ x in a..b, ∫ y in c..d, F x y

variable {a b c d : ℝ} {F G : ℝ → ℝ → ℝ}

theorem inner_continuous (hF : Continuous fun P : ℝ × ℝ => F P.1 P.2) : Continuous fun x => ∫ y in c..d, F x y :=
  intervalIntegral.continuous_parametric_intervalIntegral_of_continuous' hF c d

theorem slice_continuous (hF : Continuous fun P : ℝ × ℝ => F P.1 P.2) (x : ℝ) : Continuous (F x) :=
  hF.comp (by fun_prop : Continuous fun y : ℝ => (x, y))

theorem column_continuous (hF : Continuous fun P : ℝ × ℝ => F P.1 P.2) (y : ℝ) : Continuous fun x => F x y :=
  hF.comp (by fun_prop : Continuous fun x : ℝ => (x, y))

theorem area_mono (hab : a ≤ b) (hcd : c ≤ d) (hF : Continuous fun P : ℝ × ℝ => F P.1 P.2) (hG : Continuous fun P : ℝ × ℝ => G P.1 P.2)
    (h : ∀ x ∈ Icc a b, ∀ y ∈ Icc c d, F x y ≤ G x y) : area a b c d F ≤ area a b c d G :=
  intervalIntegral.integral_mono_on hab ((inner_continuous hF).intervalIntegrable _ _) ((inner_continuous hG).intervalIntegrable _ _) fun x hx =>
    intervalIntegral.integral_mono_on hcd ((slice_continuous hF x).intervalIntegrable _ _) ((slice_continuous hG x).intervalIntegrable _ _) (h x hx)

theorem area_congr (hab : a ≤ b) (hcd : c ≤ d) (h : ∀ x ∈ Icc a b, ∀ y ∈ Icc c d, F x y = G x y) : area a b c d F = area a b c d G := by
  refine intervalIntegral.integral_congr fun x hx => intervalIntegral.integral_congr fun y hy => ?_
  rw [uIcc_of_le hab] at hx
  rw [uIcc_of_le hcd] at hy
  exact h x hx y hy

theorem area_add (hF : Continuous fun P : ℝ × ℝ => F P.1 P.2) (hG : Continuous fun P : ℝ × ℝ => G P.1 P.2) :
    area a b c d (fun x y => F x y + G x y) = area a b c d F + area a b c d G := by
  unfold area
  rw [← intervalIntegral.integral_add ((inner_continuous hF).intervalIntegrable _ _) ((inner_continuous hG).intervalIntegrable _ _)]
  refine intervalIntegral.integral_congr fun x _ => ?_
  exact intervalIntegral.integral_add ((slice_continuous hF x).intervalIntegrable _ _) ((slice_continuous hG x).intervalIntegrable _ _)

theorem area_smul (k : ℝ) : area a b c d (fun x y => k * F x y) = k * area a b c d F := by
  unfold area
  rw [← intervalIntegral.integral_const_mul]
  refine intervalIntegral.integral_congr fun x _ => ?_
  exact intervalIntegral.integral_const_mul _ _

theorem area_swap (hF : Continuous fun P : ℝ × ℝ => F P.1 P.2) : area a b c d F = ∫ y in c..d, ∫ x in a..b, F x y := by
  refine intervalIntegral_intervalIntegral_swap ?_
  exact (hF.continuousOn.integrableOn_compact (isCompact_uIcc.prod isCompact_uIcc)).mono_set (prod_mono uIoc_subset_uIcc uIoc_subset_uIcc)

/-- The divergence theorem on the rectangle, for a field without flux: the first component vanishes on two sides, the second is equal on the
others. -/
theorem area_div (hF : Smooth2 F) (hG : Smooth2 G) (hab : a ≤ b) (hcd : c ≤ d) (h1 : ∀ y ∈ Icc c d, F a y = F b y)
    (h2 : ∀ x ∈ Icc a b, G x c = G x d) : area a b c d (fun x y => dx F x y + dy G x y) = 0 := by
  rw [area_add hF.dx.continuous hG.dy.continuous, area_swap hF.dx.continuous]
  have e1 : ∫ y in c..d, ∫ x in a..b, dx F x y = ∫ y in c..d, (0 : ℝ) := by
    refine intervalIntegral.integral_congr fun y hy => ?_
    rw [uIcc_of_le hcd] at hy
    rw [intervalIntegral.integral_eq_sub_of_hasDerivAt (fun x _ => hF.hasDx x y) ((column_continuous hF.dx.continuous y).intervalIntegrable _ _),
      h1 y hy, sub_self]
  have e2 : area a b c d (dy G) = ∫ x in a..b, (0 : ℝ) := by
    refine intervalIntegral.integral_congr fun x hx => ?_
    rw [uIcc_of_le hab] at hx
    rw [intervalIntegral.integral_eq_sub_of_hasDerivAt (fun y _ => hG.hasDy x y) ((slice_continuous hG.dy.continuous x).intervalIntegrable _ _),
      h2 x hx, sub_self]
  rw [e1, e2, intervalIntegral.integral_zero, intervalIntegral.integral_zero, add_zero]

/-- The inequality of Cauchy and Schwarz on an interval. -/
theorem sq_integral_le {g : ℝ → ℝ} (hg : Continuous g) (hab : a ≤ b) : (∫ s in a..b, g s) ^ 2 ≤ (b - a) * ∫ s in a..b, g s ^ 2 := by
  rcases hab.eq_or_lt with rfl | hab
  · simp
  · have h0 : 0 < b - a := sub_pos.2 hab
    obtain ⟨m, hm⟩ : ∃ m, m = (∫ s in a..b, g s) / (b - a) := ⟨_, rfl⟩
    have hm' : (∫ s in a..b, g s) = m * (b - a) := by rw [hm]; field_simp
    have e : ∫ s in a..b, (g s - m) ^ 2 = (∫ s in a..b, g s ^ 2) - 2 * m * (∫ s in a..b, g s) + m ^ 2 * (b - a) := by
      have : ∀ s, (g s - m) ^ 2 = g s ^ 2 - 2 * m * g s + m ^ 2 := fun s => by ring
      simp only [this]
      rw [intervalIntegral.integral_add ((by fun_prop : Continuous fun s => g s ^ 2 - 2 * m * g s).intervalIntegrable _ _) (by simp),
        intervalIntegral.integral_sub ((by fun_prop : Continuous fun s => g s ^ 2).intervalIntegrable _ _)
          ((by fun_prop : Continuous fun s => 2 * m * g s).intervalIntegrable _ _),
        intervalIntegral.integral_const_mul, intervalIntegral.integral_const, smul_eq_mul]
      ring
    have p : 0 ≤ ∫ s in a..b, (g s - m) ^ 2 := intervalIntegral.integral_nonneg hab.le fun s _ => sq_nonneg _
    rw [e, hm'] at p
    rw [hm']
    nlinarith

/-- The integral of a square over a part of the interval is not larger. -/
theorem integral_part {g : ℝ → ℝ} (hg : Continuous g) {s t : ℝ} (h1 : a ≤ s) (h2 : s ≤ t) (h3 : t ≤ b) :
    ∫ r in s..t, g r ^ 2 ≤ ∫ r in a..b, g r ^ 2 :=
  intervalIntegral.integral_mono_interval h1 h2 h3 (Filter.Eventually.of_forall fun r => sq_nonneg (g r))
    ((by fun_prop : Continuous fun r => g r ^ 2).intervalIntegrable _ _)

/-- The square of a difference, by the integral of the square of the derivative. -/
theorem sq_diff_le {f f' : ℝ → ℝ} (hf : ∀ x, HasDerivAt f (f' x) x) (hc : Continuous f') {s t : ℝ} (h1 : a ≤ s) (h2 : s ≤ t) (h3 : t ≤ b) :
    (f t - f s) ^ 2 ≤ (t - s) * ∫ r in a..b, f' r ^ 2 := by
  rw [← intervalIntegral.integral_eq_sub_of_hasDerivAt (fun x _ => hf x) (hc.intervalIntegrable _ _)]
  exact (sq_integral_le hc h2).trans (mul_le_mul_of_nonneg_left (integral_part hc h1 h2 h3) (sub_nonneg.2 h2))

/-- The same for two points in any order. -/
theorem sq_diff_le' {f f' : ℝ → ℝ} (hf : ∀ x, HasDerivAt f (f' x) x) (hc : Continuous f') {s t : ℝ} (hs : s ∈ Icc a b) (ht : t ∈ Icc a b) :
    (f t - f s) ^ 2 ≤ (b - a) * ∫ r in a..b, f' r ^ 2 := by
  have p : 0 ≤ ∫ r in a..b, f' r ^ 2 := intervalIntegral.integral_nonneg (hs.1.trans hs.2) fun r _ => sq_nonneg _
  rcases le_total s t with h | h
  · exact (sq_diff_le hf hc hs.1 h ht.2).trans (mul_le_mul_of_nonneg_right (by linarith [hs.1, ht.2]) p)
  · have := (sq_diff_le hf hc ht.1 h hs.2).trans (mul_le_mul_of_nonneg_right (by linarith [ht.1, hs.2] : s - t ≤ b - a) p)
    nlinarith

/-- A function that vanishes at both ends, by the integral of the square of its second derivative. -/
theorem sq_le_second {f f1 f2 : ℝ → ℝ} (hf : ∀ x, HasDerivAt f (f1 x) x) (hf1 : ∀ x, HasDerivAt f1 (f2 x) x) (hc : Continuous f2) (hab : a < b)
    (ha : f a = 0) (hb : f b = 0) : ∀ x ∈ Icc a b, f x ^ 2 ≤ (b - a) ^ 3 / 4 * ∫ r in a..b, f2 r ^ 2 := by
  obtain ⟨ξ, hξ, hz⟩ := exists_hasDerivAt_eq_zero hab (fun x _ => (hf x).continuousAt.continuousWithinAt) (ha.trans hb.symm) fun x _ => hf x
  obtain ⟨J, hJ⟩ : ∃ J, J = ∫ r in a..b, f2 r ^ 2 := ⟨_, rfl⟩
  have hJ0 : 0 ≤ J := hJ ▸ intervalIntegral.integral_nonneg hab.le fun r _ => sq_nonneg _
  have k : ∀ r ∈ Icc a b, f1 r ^ 2 ≤ (b - a) * J := fun r hr => by
    have := sq_diff_le' hf1 hc (Ioo_subset_Icc_self hξ) hr
    rwa [hz, sub_zero, ← hJ] at this
  have c1 : Continuous f1 := continuous_iff_continuousAt.2 fun x => (hf1 x).continuousAt
  intro x hx
  rw [← hJ]
  -- from the nearer end
  have near : ∀ s t, a ≤ s → s ≤ t → t ≤ b → (f t - f s) ^ 2 ≤ (t - s) ^ 2 * ((b - a) * J) := by
    intro s t h1 h2 h3
    have e := sq_diff_le hf c1 (a := s) (b := t) le_rfl h2 le_rfl
    have m : ∫ r in s..t, f1 r ^ 2 ≤ ∫ r in s..t, (b - a) * J :=
      intervalIntegral.integral_mono_on h2 ((by fun_prop : Continuous fun r => f1 r ^ 2).intervalIntegrable _ _) (by simp)
        fun r hr => k r ⟨h1.trans hr.1, hr.2.trans h3⟩
    rw [intervalIntegral.integral_const, smul_eq_mul] at m
    have h4 : 0 ≤ t - s := sub_nonneg.2 h2
    nlinarith
  have l := near a x le_rfl hx.1 hx.2
  have r := near x b hx.1 hx.2 le_rfl
  rw [ha, sub_zero] at l
  rw [hb, zero_sub, neg_sq] at r
  have q : 0 ≤ (b - a) * J := mul_nonneg (by linarith) hJ0
  have : (b - a) ^ 3 / 4 * J = ((b - a) / 2) ^ 2 * ((b - a) * J) := by ring
  rw [this]
  rcases le_total x ((a + b) / 2) with h | h
  · exact l.trans (mul_le_mul_of_nonneg_right (by nlinarith [hx.1, hx.2]) q)
  · exact r.trans (mul_le_mul_of_nonneg_right (by nlinarith [hx.1, hx.2]) q)

/-- A smooth function on the line that is `1 / r` for `r > 3/4`. -/
theorem inverse_smooth : ∃ ρ : ℝ → ℝ, ContDiff ℝ ∞ ρ ∧ ∀ r, 3 / 4 < r → ρ r = 1 / r := by
  refine ⟨fun r => Real.smoothTransition (4 * r - 2) / r, contDiff_iff_contDiffAt.2 fun r => ?_, fun r hr => ?_⟩
  · by_cases hr : r < 1 / 2
    · refine (contDiffAt_const (c := (0 : ℝ))).congr_of_eventuallyEq ?_
      filter_upwards [isOpen_Iio.mem_nhds hr] with s hs
      rw [Real.smoothTransition.zero_of_nonpos (by have : s < 1 / 2 := hs; linarith), zero_div]
    · exact ContDiffAt.div (Real.smoothTransition.contDiff.comp (by fun_prop : ContDiff ℝ ∞ fun r : ℝ => 4 * r - 2)).contDiffAt contDiffAt_id
        (by have := not_lt.1 hr; intro h; linarith)
  · beta_reduce
    rw [Real.smoothTransition.one_of_one_le (by linarith)]

end Verif.Lemmas.Area
