import Verif.Props.ResidualWave
import Mathlib.Analysis.ODE.Gronwall

/-! # A small residual means a small error (C96): nonlinear ordinary differential equations -/

namespace Verif.Props

open Verif Verif.Model.Prog Set
open scoped ContDiff

/-- **C96**, tests/test_ODE.py and the programs with the same problem: a candidate that is at most `B` in size. -/
theorem C96_bvp (y : ℝ → ℝ) (hy : ContDiff ℝ 2 y) (h0 : y 0 = 0) (h1 : y Real.pi = 0) {B R : ℝ} (hB : ∀ t ∈ Icc 0 Real.pi, |y t| ≤ B)
    (hR : ∀ t ∈ Icc 0 Real.pi, |bvpResid y t| ≤ R) :
    ∀ t ∈ Icc 0 Real.pi, |y t - bvpReal t| ≤ R * Real.pi / ((B + 1) / 2) * (Real.exp ((B + 1) / 2 * t) - 1) := by
  have hpi := Real.pi_pos
  obtain ⟨v0, v1, v2⟩ := C83_bvp
  have hv : ContDiff ℝ 2 bvpReal := by
    unfold bvpReal
    fun_prop
  have vB : ∀ t ∈ Icc 0 Real.pi, |bvpReal t| ≤ 1 := fun t ht => by
    unfold bvpReal
    rw [abs_mul, abs_of_pos (Real.exp_pos _)]
    have a : Real.exp (-t) ≤ 1 := Real.exp_le_one_iff.2 (by linarith [ht.1])
    have b := Real.abs_sin_le_one t
    nlinarith [Real.exp_pos (-t), abs_nonneg (Real.sin t)]
  have hB0 : 0 ≤ B := (abs_nonneg _).trans (hB 0 ⟨le_rfl, hpi.le⟩)
  have hR0 : 0 ≤ R := (abs_nonneg _).trans (hR 0 ⟨le_rfl, hpi.le⟩)
  -- the first integral of the difference
  obtain ⟨q, hq⟩ : ∃ q : ℝ → ℝ, q = fun t => (deriv y t + y t ^ 2 / 2) - (deriv bvpReal t + bvpReal t ^ 2 / 2) := ⟨_, rfl⟩
  have hqd : ∀ t, HasDerivAt q (bvpResid y t) t := by
    intro t
    have h := ((hasDeriv2 hy t).add (((hasDeriv1 hy t).pow 2).div_const 2)).sub ((hasDeriv2 hv t).add (((hasDeriv1 hv t).pow 2).div_const 2))
    rw [hq]
    refine HasDerivAt.congr_deriv h ?_
    have e2 := v2 t
    unfold bvpResid at e2 ⊢
    push_cast
    linear_combination -e2
  have hw : ∀ t, HasDerivAt (fun t => y t - bvpReal t) (q t - (y t + bvpReal t) / 2 * (y t - bvpReal t)) t := by
    intro t
    refine HasDerivAt.congr_deriv ((hasDeriv1 hy t).sub (hasDeriv1 hv t)) ?_
    rw [hq]
    ring
  -- it vanishes somewhere
  obtain ⟨c, hc, hqc⟩ : ∃ c ∈ Icc 0 Real.pi, q c = 0 := by
    have ha : Continuous fun t => (y t + bvpReal t) / 2 := (hy.continuous.add hv.continuous).div_const 2
    obtain ⟨A, hA⟩ : ∃ A : ℝ → ℝ, ∀ x, HasDerivAt A ((y x + bvpReal x) / 2) x :=
      ⟨fun x => ∫ t in (0 : ℝ)..x, (y t + bvpReal t) / 2, fun x => ha.integral_hasStrictDerivAt 0 x |>.hasDerivAt⟩
    have hd : ∀ t, HasDerivAt (fun t => (y t - bvpReal t) * Real.exp (A t)) (q t * Real.exp (A t)) t := by
      intro t
      refine HasDerivAt.congr_deriv ((hw t).mul (hA t).exp) ?_
      ring
    obtain ⟨c, hc, e⟩ := exists_hasDerivAt_eq_zero (f := fun t => (y t - bvpReal t) * Real.exp (A t)) hpi
      (fun t _ => (hd t).continuousAt.continuousWithinAt) (by simp [h0, h1, v0, v1]) fun t _ => hd t
    exact ⟨c, ⟨hc.1.le, hc.2.le⟩, (mul_eq_zero.1 e).resolve_right (Real.exp_pos _).ne'⟩
  have hqb : ∀ t ∈ Icc 0 Real.pi, |q t| ≤ R * Real.pi := by
    intro t ht
    have h := (convex_Icc 0 Real.pi).norm_image_sub_le_of_norm_hasDerivWithin_le (fun s _ => (hqd s).hasDerivWithinAt)
      (fun s hs => by rw [Real.norm_eq_abs]; exact hR s hs) hc ht
    rw [hqc, sub_zero, Real.norm_eq_abs, Real.norm_eq_abs] at h
    refine h.trans (mul_le_mul_of_nonneg_left (abs_le.2 ⟨?_, ?_⟩) hR0)
    · linarith [ht.1, hc.2]
    · linarith [ht.2, hc.1]
  have g := norm_le_gronwallBound_of_norm_deriv_right_le (f := fun t => y t - bvpReal t) (δ := 0) (K := (B + 1) / 2) (ε := R * Real.pi)
    (a := 0) (b := Real.pi) (fun t _ => (hw t).continuousAt.continuousWithinAt) (fun t _ => (hw t).hasDerivWithinAt)
    (by simp [h0, v0]) fun t ht => by
      have ht' : t ∈ Icc 0 Real.pi := ⟨ht.1, ht.2.le⟩
      simp only [Real.norm_eq_abs]
      have b1 := hB t ht'
      have b2 := vB t ht'
      have b3 := hqb t ht'
      have e1 : |(y t + bvpReal t) / 2| ≤ (B + 1) / 2 := by
        rw [abs_div, abs_of_pos (show (0 : ℝ) < 2 by norm_num)]
        linarith [abs_add_le (y t) (bvpReal t)]
      have e2 : |q t - (y t + bvpReal t) / 2 * (y t - bvpReal t)| ≤ |q t| + |(y t + bvpReal t) / 2| * |y t - bvpReal t| := by
        rw [← abs_mul]
        exact abs_sub _ _
      have e3 := mul_le_mul_of_nonneg_right e1 (abs_nonneg (y t - bvpReal t))
      linarith
  intro t ht
  have := g t ht
  rw [gronwallBound_of_K_ne_0 (by positivity), Real.norm_eq_abs, sub_zero] at this
  beta_reduce at this
  rw [zero_mul, zero_add] at this
  exact this

/-- **C96 fails** for B/Chapter_3/example_3_1.py with a negative starting value: the solution itself, with residual 0, is measured as having an
error of twice the starting value. -/
theorem C96_oscillator_fails (w y0 y0p : ℝ) (hw : w ≠ 0) (hy : y0 < 0) :
    ∃ y : ℝ → ℝ, ContDiff ℝ 2 y ∧ y 0 = y0 ∧ deriv y 0 = y0p ∧ (∀ x, oscResid w y x = 0) ∧ |y 0 - oscReal w y0 y0p 0| = 2 * |y0| := by
  obtain ⟨a, b, -⟩ := C83_oscillator_fails w y0 y0p hw hy
  have e : deriv (fun x => -oscReal w y0 y0p x) = fun x => -deriv (oscReal w y0 y0p) x := by
    funext x
    exact deriv.fun_neg
  refine ⟨fun x => -oscReal w y0 y0p x, ?_, ?_, ?_, fun x => ?_, ?_⟩
  · unfold oscReal
    fun_prop
  · beta_reduce
    rw [a, neg_neg]
  · rw [e]
    beta_reduce
    rw [b, neg_neg]
  · unfold oscResid
    rw [e, deriv.fun_neg, (osc_deriv2 w y0 y0p x).deriv]
    ring
  · beta_reduce
    rw [a, abs_of_neg hy, abs_of_neg (by linarith)]
    ring

/-! ## Lane–Emden -/

/-- Two powers differ by at most `k B^(k-1)` times the difference. -/
theorem pow_sub_le (k : ℕ) {a b B : ℝ} (ha : |a| ≤ B) (hb : 2 ≤ k → |b| ≤ B) : |a ^ k - b ^ k| ≤ k * B ^ (k - 1) * |a - b| := by
  have hB : 0 ≤ B := (abs_nonneg a).trans ha
  rw [← geom_sum₂_mul a b k, abs_mul]
  refine mul_le_mul_of_nonneg_right ?_ (abs_nonneg _)
  refine (Finset.abs_sum_le_sum_abs _ _).trans ?_
  have : ∀ i ∈ Finset.range k, |a ^ i * b ^ (k - 1 - i)| ≤ B ^ (k - 1) := by
    intro i hi
    have hi' := Finset.mem_range.1 hi
    rw [abs_mul, abs_pow, abs_pow]
    rcases Nat.lt_or_ge k 2 with h | h
    · have e : k = 1 := by omega
      have e' : i = 0 := by omega
      subst e e'
      simp
    · have e : B ^ (k - 1) = B ^ i * B ^ (k - 1 - i) := by
        rw [← pow_add]
        congr 1
        omega
      rw [e]
      exact mul_le_mul (pow_le_pow_left₀ (abs_nonneg _) ha _) (pow_le_pow_left₀ (abs_nonneg _) (hb h) _) (by positivity) (by positivity)
  refine (Finset.sum_le_sum this).trans (le_of_eq ?_)
  simp

/-- `V` stands for `x` times a solution `v`. -/
theorem lane_bound (k : ℕ) {L R B : ℝ} (y v V V1 : ℝ → ℝ) (hy : ContDiff ℝ 2 y) (h0 : y 0 = 1) (hB : ∀ x ∈ Icc 0 L, |y x| ≤ B)
    (hvB : 2 ≤ k → ∀ x ∈ Icc 0 L, |v x| ≤ B) (hV : ∀ x, V x = x * v x) (hV1 : ∀ x, HasDerivAt V (V1 x) x)
    (hV2 : ∀ x, HasDerivAt V1 (-(x * v x ^ k)) x) (h10 : V1 0 = 1) (hR : ∀ x ∈ Icc 0 L, |laneResid k y x| ≤ R) :
    ∀ x ∈ Icc 0 L, x * |y x - v x| ≤ R / (1 + k * B ^ (k - 1)) * (Real.exp ((1 + k * B ^ (k - 1)) * x) - 1) := by
  intro x hx
  have hB0 : 0 ≤ B := (abs_nonneg _).trans (hB x hx)
  have hR0 : 0 ≤ R := (abs_nonneg _).trans (hR x hx)
  obtain ⟨C, hC⟩ : ∃ C : ℝ, C = k * B ^ (k - 1) := ⟨_, rfl⟩
  have hC0 : 0 ≤ C := by
    rw [hC]
    positivity
  have d1 : ∀ t, HasDerivAt (fun t => t * y t - V t) (y t + t * deriv y t - V1 t) t := fun t => by
    refine HasDerivAt.congr_deriv (((hasDerivAt_id t).mul (hasDeriv1 hy t)).sub (hV1 t)) ?_
    simp
  have d2 : ∀ t, HasDerivAt (fun t => y t + t * deriv y t - V1 t) (laneResid k y t - t * (y t ^ k - v t ^ k)) t := fun t => by
    refine HasDerivAt.congr_deriv (((hasDeriv1 hy t).add ((hasDerivAt_id t).mul (hasDeriv2 hy t))).sub (hV2 t)) ?_
    unfold laneResid
    simp only [id]
    ring
  have g := norm_le_gronwallBound_of_norm_deriv_right_le (f := fun t => (t * y t - V t, y t + t * deriv y t - V1 t)) (δ := 0) (K := 1 + C) (ε := R)
    (a := 0) (b := L) (fun t _ => ((d1 t).prodMk (d2 t)).continuousAt.continuousWithinAt) (fun t _ => ((d1 t).prodMk (d2 t)).hasDerivWithinAt)
    (by simp [h0, h10, hV]) fun t ht => by
      have ht' : t ∈ Icc 0 L := ⟨ht.1, ht.2.le⟩
      have m1 := norm_fst_le (t * y t - V t, y t + t * deriv y t - V1 t)
      have m2 := norm_snd_le (t * y t - V t, y t + t * deriv y t - V1 t)
      obtain ⟨N, hN⟩ : ∃ N, N = ‖(t * y t - V t, y t + t * deriv y t - V1 t)‖ := ⟨_, rfl⟩
      rw [← hN] at m1 m2 ⊢
      simp only [Real.norm_eq_abs] at m1 m2
      have hN0 : 0 ≤ N := (abs_nonneg _).trans m1
      have hz : t * |y t - v t| ≤ N := by
        rw [hV, ← mul_sub, abs_mul, abs_of_nonneg ht.1] at m1
        exact m1
      have hp := pow_sub_le k (hB t ht') fun h => hvB h t ht'
      rw [← hC] at hp
      have hCN : 0 ≤ C * N := mul_nonneg hC0 hN0
      rw [Prod.norm_def]
      refine max_le ?_ ?_
      · rw [Real.norm_eq_abs]
        linarith
      · rw [Real.norm_eq_abs]
        have e1 : |laneResid k y t - t * (y t ^ k - v t ^ k)| ≤ |laneResid k y t| + t * |y t ^ k - v t ^ k| := by
          have := abs_sub (laneResid k y t) (t * (y t ^ k - v t ^ k))
          rwa [abs_mul t, abs_of_nonneg ht.1] at this
        have e2 := mul_le_mul_of_nonneg_left hp ht.1
        have e3 := mul_le_mul_of_nonneg_left hz hC0
        have e4 := hR t ht'
        linarith
  have g1 := g x hx
  rw [gronwallBound_of_K_ne_0 (by positivity), sub_zero] at g1
  beta_reduce at g1
  rw [zero_mul, zero_add] at g1
  have m1 := (norm_fst_le (x * y x - V x, y x + x * deriv y x - V1 x)).trans g1
  rw [Real.norm_eq_abs] at m1
  simp only [hV] at m1
  rw [← mul_sub, abs_mul, abs_of_nonneg hx.1] at m1
  rw [← hC]
  exact m1

theorem exp_sub_one_le (s : ℝ) : Real.exp s - 1 ≤ s * Real.exp s := by
  have h := Real.add_one_le_exp (-s)
  have e : Real.exp s * Real.exp (-s) = 1 := by rw [← Real.exp_add]; simp
  nlinarith [Real.exp_pos s]

/-- **C96**, B/Chapter_3/section_3_5_1.py and J/Chapter_4/Examples_4_1thru3/laneEmden_tfc.py: a candidate that is at most `B ≥ 1` in size. -/
theorem C96_lane (k : ℕ) (hk : k = 0 ∨ k = 1 ∨ k = 5) {L R B : ℝ} (hB1 : 1 ≤ B) (y : ℝ → ℝ) (hy : ContDiff ℝ 2 y) (h0 : y 0 = 1)
    (hB : ∀ x ∈ Icc 0 L, |y x| ≤ B) (hR : ∀ x ∈ Icc 0 L, |laneResid k y x| ≤ R) :
    ∀ x ∈ Icc 0 L, |y x - laneReal k x| ≤ R * Real.exp ((1 + k * B ^ (k - 1)) * x) := by
  have key : ∀ x ∈ Icc 0 L, x * |y x - laneReal k x| ≤ R / (1 + k * B ^ (k - 1)) * (Real.exp ((1 + k * B ^ (k - 1)) * x) - 1) := by
    rcases hk with rfl | rfl | rfl
    · refine lane_bound 0 y (laneReal 0) (fun x => x * laneReal 0 x) (fun x => 1 - 1 / 2 * x ^ 2) hy h0 hB (by omega) (fun x => rfl) (fun x => ?_)
        (fun x => ?_) (by norm_num) hR
      · rw [lane0_eq]
        refine HasDerivAt.congr_deriv ((hasDerivAt_id x).mul (((hasDerivAt_pow 2 x).const_mul (1 / 6)).const_sub 1)) ?_
        simp only [id]
        push_cast
        ring
      · refine HasDerivAt.congr_deriv (((hasDerivAt_pow 2 x).const_mul (1 / 2)).const_sub 1) ?_
        push_cast
        ring
    · refine lane_bound 1 y (laneReal 1) Real.sin Real.cos hy h0 hB (by omega) (fun x => ?_) Real.hasDerivAt_sin (fun x => ?_) (by simp) hR
      · rw [lane1_eq]
        rcases eq_or_ne x 0 with rfl | hx
        · simp
        · rw [Real.sinc_of_ne_zero hx]
          field_simp
      · refine HasDerivAt.congr_deriv (Real.hasDerivAt_cos x) ?_
        rw [lane1_eq, pow_one]
        rcases eq_or_ne x 0 with rfl | hx
        · simp
        · rw [Real.sinc_of_ne_zero hx]
          field_simp
    · obtain ⟨-, -, c⟩ := C83_lane 5 (by omega)
      have hd1 : ∀ x, HasDerivAt (laneReal 5) (deriv (laneReal 5) x) x := fun x => by
        refine DifferentiableAt.hasDerivAt ?_
        rw [lane5_eq]
        have hp : 0 < 1 + x ^ 2 / 3 := by positivity
        exact ((((hasDerivAt_pow 2 x).div_const 3).const_add 1).rpow_const (p := (-1 / 2 : ℝ)) (Or.inl hp.ne')).differentiableAt
      have hd2 : ∀ x, HasDerivAt (deriv (laneReal 5)) (deriv (deriv (laneReal 5)) x) x := fun x => by
        refine DifferentiableAt.hasDerivAt ?_
        rw [lane5_deriv]
        have hp : 0 < 1 + x ^ 2 / 3 := by positivity
        exact (((hasDerivAt_id x).div_const 3).neg.mul
          ((((hasDerivAt_pow 2 x).div_const 3).const_add 1).rpow_const (p := (-3 / 2 : ℝ)) (Or.inl hp.ne'))).differentiableAt
      refine lane_bound 5 y (laneReal 5) (fun x => x * laneReal 5 x) (fun x => laneReal 5 x + x * deriv (laneReal 5) x) hy h0 hB ?_ (fun x => rfl)
        (fun x => ?_) (fun x => ?_) (by simp [lane5_eq]) hR
      · intro _ x _
        rw [lane5_eq]
        beta_reduce
        have hp : 1 ≤ 1 + x ^ 2 / 3 := by nlinarith [sq_nonneg x]
        rw [abs_of_nonneg (by positivity)]
        exact (Real.rpow_le_one_of_one_le_of_nonpos hp (by norm_num)).trans hB1
      · refine HasDerivAt.congr_deriv ((hasDerivAt_id x).mul (hd1 x)) ?_
        simp
      · refine HasDerivAt.congr_deriv ((hd1 x).add ((hasDerivAt_id x).mul (hd2 x))) ?_
        have := c x
        unfold laneResid at this
        simp only [id]
        linear_combination this
  intro x hx
  have hR0 : 0 ≤ R := (abs_nonneg _).trans (hR x hx)
  have hK : 0 < 1 + (k : ℝ) * B ^ (k - 1) := by positivity
  rcases hx.1.eq_or_lt with h | h
  · rw [← h, h0, (C83_lane k hk).1, sub_self, abs_zero]
    positivity
  · have h1 := key x hx
    have h2 := mul_le_mul_of_nonneg_left (exp_sub_one_le ((1 + k * B ^ (k - 1)) * x)) (show 0 ≤ R / (1 + k * B ^ (k - 1)) by positivity)
    have e : R / (1 + k * B ^ (k - 1)) * ((1 + k * B ^ (k - 1)) * x * Real.exp ((1 + k * B ^ (k - 1)) * x))
        = x * (R * Real.exp ((1 + k * B ^ (k - 1)) * x)) := by
      field_simp
    rw [e] at h2
    exact le_of_mul_le_mul_left (h1.trans h2) h

/-! All twice continuously differentiable candidates with the conditions meet the hypotheses for some `B` and `R`; the expressions of the programs have the
conditions (C01, C70). -/

theorem cont_d1 {y : ℝ → ℝ} (hy : ContDiff ℝ 2 y) : Continuous (deriv y) := continuous_iff_continuousAt.2 fun t => (hasDeriv2 hy t).continuousAt

theorem cont_d2 {y : ℝ → ℝ} (hy : ContDiff ℝ 2 y) : Continuous (deriv (deriv y)) :=
  ((contDiff_succ_iff_deriv (n := 0)).mp ((contDiff_succ_iff_deriv (n := 1)).mp hy).2.2).2.2.continuous

example (y : ℝ → ℝ) (hy : ContDiff ℝ 2 y) (h0 : y 0 = 0) (h1 : y Real.pi = 0) : ∃ B R : ℝ, ∀ t ∈ Icc 0 Real.pi,
    |y t - bvpReal t| ≤ R * Real.pi / ((B + 1) / 2) * (Real.exp ((B + 1) / 2 * t) - 1) := by
  have a := cont_d1 hy
  have b := cont_d2 hy
  have c := hy.continuous
  obtain ⟨B, hB⟩ := isCompact_Icc.exists_bound_of_continuousOn (c.continuousOn (s := Icc 0 Real.pi))
  obtain ⟨R, hR⟩ := isCompact_Icc.exists_bound_of_continuousOn
    (Continuous.continuousOn (s := Icc 0 Real.pi) (f := bvpResid y) (by unfold bvpResid bvpF; fun_prop))
  exact ⟨B, R, C96_bvp y hy h0 h1 (fun t ht => by simpa using hB t ht) fun t ht => by simpa using hR t ht⟩

/-- `cos` for `k = 1`: residual `-2 sin x`, so the error is at most `2 e^{2x}`. -/
example : ∀ x ∈ Icc (0 : ℝ) 3, |Real.cos x - laneReal 1 x| ≤ 2 * Real.exp (2 * x) := by
  have d1 : deriv Real.cos = fun x => -Real.sin x := Real.deriv_cos'
  have d2 : deriv (fun x => -Real.sin x) = fun x => -Real.cos x := by
    funext x
    simpa using (Real.hasDerivAt_sin x).neg.deriv
  have h := C96_lane 1 (by omega) (L := 3) (R := 2) (B := 1) le_rfl Real.cos Real.contDiff_cos (by simp) (fun x _ => Real.abs_cos_le_one x) fun x _ => by
    have e : laneResid 1 Real.cos x = -2 * Real.sin x := by
      unfold laneResid
      rw [d1, d2]
      ring
    rw [e, abs_mul]
    have := Real.abs_sin_le_one x
    norm_num
    linarith
  intro x hx
  refine (h x hx).trans (le_of_eq ?_)
  norm_num

end Verif.Props
