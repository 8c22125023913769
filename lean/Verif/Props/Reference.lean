import Verif.Model.Reference
import Verif.Props.Patch
import Verif.Props.Segments
import Mathlib.Analysis.SpecialFunctions.Trigonometric.ArctanDeriv
import Mathlib.Analysis.SpecialFunctions.Pow.Deriv
import Mathlib.Analysis.SpecialFunctions.Trigonometric.Sinc

/-! # Reference solutions of the tests and example programs (C83) -/

namespace Verif.Props

open Verif Verif.Py Verif.Np Verif.Spec Verif.Model Verif.Model.Py Verif.Model.Prog
open scoped ContDiff

theorem exp_lin (a k x : ℝ) : HasDerivAt (fun x => Real.exp (a + k * x)) (k * Real.exp (a + k * x)) x := by
  have := (((hasDerivAt_id x).const_mul k).const_add a).exp
  refine this.congr_deriv ?_
  simp only [id]
  ring

theorem sin_lin (a k x : ℝ) : HasDerivAt (fun x => Real.sin (a + k * x)) (k * Real.cos (a + k * x)) x := by
  have := (((hasDerivAt_id x).const_mul k).const_add a).sin
  refine this.congr_deriv ?_
  simp only [id]
  ring

theorem cos_lin (a k x : ℝ) : HasDerivAt (fun x => Real.cos (a + k * x)) (-k * Real.sin (a + k * x)) x := by
  have := (((hasDerivAt_id x).const_mul k).const_add a).cos
  refine this.congr_deriv ?_
  simp only [id]
  ring

/-! ## One variable -/

theorem bvp_deriv : deriv bvpReal = fun t => Real.exp (-t) * (Real.cos t - Real.sin t) := by
  funext t
  have h := ((hasDerivAt_neg t).exp).mul (Real.hasDerivAt_sin t)
  refine (HasDerivAt.congr_deriv (f := bvpReal) h ?_).deriv
  ring

theorem bvp_deriv2 : deriv (deriv bvpReal) = fun t => -2 * Real.exp (-t) * Real.cos t := by
  rw [bvp_deriv]
  funext t
  have h := ((hasDerivAt_neg t).exp).mul ((Real.hasDerivAt_cos t).sub (Real.hasDerivAt_sin t))
  refine (HasDerivAt.congr_deriv (f := fun t => Real.exp (-t) * (Real.cos t - Real.sin t)) h ?_).deriv
  simp only [Pi.sub_apply]
  ring

/-- **C83**, tests/test_ODE.py, J/Chapter_4/Example_4_4/BVP_tfc.py, B/Chapter_3/section_3_5_2.py: the reference solution has the boundary values
and residual 0 everywhere. -/
theorem C83_bvp : bvpReal 0 = 0 ∧ bvpReal Real.pi = 0 ∧ ∀ t, bvpResid bvpReal t = 0 := by
  refine ⟨by simp [bvpReal], by simp [bvpReal], fun t => ?_⟩
  unfold bvpResid bvpF
  rw [bvp_deriv2, bvp_deriv]
  unfold bvpReal
  have : Real.exp (-2 * t) = Real.exp (-t) * Real.exp (-t) := by rw [← Real.exp_add]; ring_nf
  rw [this]
  ring

/-- A function with `w' + a w = c` on an interval that vanishes at both ends vanishes there. -/
theorem first_order_zero {w a : ℝ → ℝ} {c L : ℝ} (hL : 0 < L) (ha : Continuous a)
    (hw : ∀ x ∈ Set.Icc 0 L, HasDerivAt w (c - a x * w x) x) (h0 : w 0 = 0) (h1 : w L = 0) : ∀ x ∈ Set.Icc 0 L, w x = 0 := by
  obtain ⟨A, hA⟩ : ∃ A : ℝ → ℝ, ∀ x, HasDerivAt A (a x) x :=
    ⟨fun x => ∫ t in (0 : ℝ)..x, a t, fun x => ha.integral_hasStrictDerivAt 0 x |>.hasDerivAt⟩
  obtain ⟨E, hE⟩ : ∃ E : ℝ → ℝ, ∀ x, HasDerivAt E (Real.exp (A x)) x := by
    have hc : Continuous fun x => Real.exp (A x) :=
      Real.continuous_exp.comp (continuous_iff_continuousAt.mpr fun x => (hA x).continuousAt)
    exact ⟨fun x => ∫ t in (0 : ℝ)..x, Real.exp (A t), fun x => hc.integral_hasStrictDerivAt 0 x |>.hasDerivAt⟩
  -- `w e^A - c E` is constant
  have hd : ∀ x ∈ Set.Icc 0 L, HasDerivAt (fun x => w x * Real.exp (A x) - c * E x) 0 x := by
    intro x hx
    have h := ((hw x hx).mul (hA x).exp).sub ((hE x).const_mul c)
    refine h.congr_deriv ?_
    ring
  have hconst : ∀ x ∈ Set.Icc 0 L, w x * Real.exp (A x) - c * E x = w 0 * Real.exp (A 0) - c * E 0 :=
    constant_of_has_deriv_right_zero (fun x hx => (hd x hx).continuousAt.continuousWithinAt)
      fun x hx => (hd x ⟨hx.1, hx.2.le⟩).hasDerivWithinAt
  have hmono : E 0 < E L := by
    have : StrictMono E := strictMono_of_deriv_pos fun x => by rw [(hE x).deriv]; exact Real.exp_pos _
    exact this hL
  have hc : c = 0 := by
    have := hconst L ⟨hL.le, le_rfl⟩
    rw [h0, h1] at this
    have h2 : c * (E L - E 0) = 0 := by linarith
    rcases mul_eq_zero.mp h2 with h | h
    · exact h
    · linarith
  intro x hx
  have := hconst x hx
  rw [h0, hc] at this
  simp only [zero_mul, sub_zero] at this
  rcases mul_eq_zero.mp this with h | h
  · exact h
  · exact absurd h (Real.exp_pos _).ne'

/-- **C83**, the same programs: it is the only function with these boundary values and residual 0, so a candidate whose residual vanishes on the
domain is the reference solution. -/
theorem C83_bvp_unique (y : ℝ → ℝ) (hy : ContDiff ℝ 2 y) (h0 : y 0 = 0) (h1 : y Real.pi = 0)
    (hr : ∀ t ∈ Set.Icc 0 Real.pi, bvpResid y t = 0) : ∀ t ∈ Set.Icc 0 Real.pi, y t = bvpReal t := by
  obtain ⟨hb0, hb1, hbr⟩ := C83_bvp
  have hreal : ContDiff ℝ 2 bvpReal := by
    unfold bvpReal
    have := Real.contDiff_exp (n := 2)
    have := Real.contDiff_sin (n := 2)
    fun_prop
  have d1 : ∀ {f : ℝ → ℝ}, ContDiff ℝ 2 f → ∀ t, HasDerivAt f (deriv f t) t := fun hf t =>
    (hf.differentiable (by norm_num) t).hasDerivAt
  have d2 : ∀ {f : ℝ → ℝ}, ContDiff ℝ 2 f → ∀ t, HasDerivAt (deriv f) (deriv (deriv f) t) t := fun hf t =>
    (((contDiff_succ_iff_deriv (n := 1)).mp hf).2.2.differentiable (by norm_num) t).hasDerivAt
  -- `(y' + y²/2)'` is the same for both functions
  obtain ⟨q, hq⟩ : ∃ q : ℝ → ℝ, q = fun t => (deriv y t + y t ^ 2 / 2) - (deriv bvpReal t + bvpReal t ^ 2 / 2) := ⟨_, rfl⟩
  have hqd : ∀ t ∈ Set.Icc 0 Real.pi, HasDerivAt q 0 t := by
    intro t ht
    have h := ((d2 hy t).add (((d1 hy t).pow 2).div_const 2)).sub ((d2 hreal t).add (((d1 hreal t).pow 2).div_const 2))
    rw [hq]
    refine HasDerivAt.congr_deriv h ?_
    have e1 := hr t ht
    have e2 := hbr t
    unfold bvpResid at e1 e2
    push_cast
    linear_combination e1 - e2
  have hqc : ∀ t ∈ Set.Icc 0 Real.pi, q t = q 0 :=
    constant_of_has_deriv_right_zero (fun x hx => (hqd x hx).continuousAt.continuousWithinAt)
      fun x hx => (hqd x ⟨hx.1, hx.2.le⟩).hasDerivWithinAt
  have hw := first_order_zero (w := fun t => y t - bvpReal t) (a := fun t => (y t + bvpReal t) / 2) (c := q 0) Real.pi_pos
    ((hy.continuous.add hreal.continuous).div_const 2) (fun t ht => ?_) (by simp [h0, hb0]) (by simp [h1, hb1])
  · intro t ht
    exact sub_eq_zero.mp (hw t ht)
  · have h := (d1 hy t).sub (d1 hreal t)
    refine HasDerivAt.congr_deriv h ?_
    have e := hqc t ht
    obtain ⟨q0, hq0⟩ : ∃ q0, q0 = q 0 := ⟨_, rfl⟩
    rw [← hq0] at e ⊢
    rw [hq] at e
    simp only at e
    linear_combination e

example : ∃ y : ℝ → ℝ, ContDiff ℝ 2 y ∧ y 0 = 0 ∧ y Real.pi = 0 ∧ ∀ t, bvpResid y t = 0 := by
  refine ⟨bvpReal, ?_, C83_bvp⟩
  unfold bvpReal
  have := Real.contDiff_exp (n := 2)
  have := Real.contDiff_sin (n := 2)
  fun_prop

theorem conv_deriv (Pe : ℝ) : deriv (convReal Pe) = fun x => -Pe * Real.exp (-Pe + Pe * x) / (1 - Real.exp (-Pe)) := by
  funext x
  have h := ((exp_lin (-Pe) Pe x).const_sub 1).div_const (1 - Real.exp (-Pe))
  have e : convReal Pe = fun x => (1 - Real.exp (-Pe + Pe * x)) / (1 - Real.exp (-Pe)) := by
    funext x
    unfold convReal
    ring_nf
  rw [e]
  refine (HasDerivAt.congr_deriv h ?_).deriv
  ring

/-- **C83**, D/Appendices/Appendix_D.py, J/Chapter_4/Example_4_6/*.py, all Péclet numbers other than 0: the reference solution has the boundary values
`1` and `0` and residual 0, and every function with these properties on the domain is equal to it. -/
theorem C83_convection (Pe : ℝ) (hP : Pe ≠ 0) :
    convReal Pe 0 = 1 ∧ convReal Pe 1 = 0 ∧ (∀ x, convResid Pe (convReal Pe) x = 0) ∧
    ∀ y : ℝ → ℝ, ContDiff ℝ 2 y → y 0 = 1 → y 1 = 0 → (∀ x ∈ Set.Icc (0 : ℝ) 1, convResid Pe y x = 0) →
      ∀ x ∈ Set.Icc (0 : ℝ) 1, y x = convReal Pe x := by
  have hden : 1 - Real.exp (-Pe) ≠ 0 := by
    intro h
    have : Real.exp (-Pe) = 1 := by linarith
    rw [Real.exp_eq_one_iff] at this
    exact hP (neg_eq_zero.mp this)
  have b0 : convReal Pe 0 = 1 := by
    unfold convReal
    rw [zero_sub, mul_neg, mul_one, div_self hden]
  have b1 : convReal Pe 1 = 0 := by simp [convReal]
  have hd2 : ∀ x, HasDerivAt (deriv (convReal Pe)) (Pe * deriv (convReal Pe) x) x := by
    intro x
    rw [conv_deriv]
    have h := ((exp_lin (-Pe) Pe x).const_mul (-Pe)).div_const (1 - Real.exp (-Pe))
    refine HasDerivAt.congr_deriv h ?_
    ring
  have hr : ∀ x, convResid Pe (convReal Pe) x = 0 := by
    intro x
    unfold convResid
    rw [(hd2 x).deriv]
    ring
  have hd1 : ∀ x, HasDerivAt (convReal Pe) (deriv (convReal Pe) x) x := by
    intro x
    refine DifferentiableAt.hasDerivAt ?_
    unfold convReal
    fun_prop
  refine ⟨b0, b1, hr, fun y hy h0 h1 hyr => ?_⟩
  have e1 : ∀ t, HasDerivAt y (deriv y t) t := fun t => (hy.differentiable (by norm_num) t).hasDerivAt
  have e2 : ∀ t, HasDerivAt (deriv y) (deriv (deriv y) t) t := fun t =>
    (((contDiff_succ_iff_deriv (n := 1)).mp hy).2.2.differentiable (by norm_num) t).hasDerivAt
  obtain ⟨q, hq⟩ : ∃ q : ℝ → ℝ, q = fun t => (deriv y t - Pe * y t) - (deriv (convReal Pe) t - Pe * convReal Pe t) := ⟨_, rfl⟩
  have hqd : ∀ t ∈ Set.Icc (0 : ℝ) 1, HasDerivAt q 0 t := by
    intro t ht
    have h := ((e2 t).sub ((e1 t).const_mul Pe)).sub ((hd2 t).sub ((hd1 t).const_mul Pe))
    rw [hq]
    refine HasDerivAt.congr_deriv h ?_
    have e := hyr t ht
    unfold convResid at e
    linear_combination e
  have hqc : ∀ t ∈ Set.Icc (0 : ℝ) 1, q t = q 0 :=
    constant_of_has_deriv_right_zero (fun x hx => (hqd x hx).continuousAt.continuousWithinAt)
      fun x hx => (hqd x ⟨hx.1, hx.2.le⟩).hasDerivWithinAt
  have hw := first_order_zero (w := fun t => y t - convReal Pe t) (a := fun _ => -Pe) (c := q 0) one_pos
    continuous_const (fun t ht => ?_) (by simp [h0, b0]) (by simp [h1, b1])
  · intro t ht
    exact sub_eq_zero.mp (hw t ht)
  · have h := (e1 t).sub (hd1 t)
    refine HasDerivAt.congr_deriv h ?_
    have e := hqc t ht
    obtain ⟨q0, hq0⟩ : ∃ q0, q0 = q 0 := ⟨_, rfl⟩
    rw [← hq0] at e ⊢
    rw [hq] at e
    simp only at e
    linear_combination e

/-! ### The oscillator -/

theorem osc_deriv (w y0 y0p : ℝ) : deriv (oscReal w y0 y0p) = fun x =>
    Real.sqrt (y0 ^ 2 + (y0p / w) ^ 2) * (-w * Real.sin (Real.arctan (-y0p / w / y0) + w * x)) := by
  have e : oscReal w y0 y0p = fun x => Real.sqrt (y0 ^ 2 + (y0p / w) ^ 2) * Real.cos (Real.arctan (-y0p / w / y0) + w * x) := by
    funext x
    unfold oscReal
    rw [add_comm (w * x)]
  rw [e]
  funext x
  exact ((cos_lin _ w x).const_mul _).deriv

theorem osc_deriv2 (w y0 y0p x : ℝ) : HasDerivAt (deriv (oscReal w y0 y0p)) (-w ^ 2 * oscReal w y0 y0p x) x := by
  rw [osc_deriv]
  have h := ((sin_lin (Real.arctan (-y0p / w / y0)) w x).const_mul (-w)).const_mul (Real.sqrt (y0 ^ 2 + (y0p / w) ^ 2))
  refine HasDerivAt.congr_deriv h ?_
  unfold oscReal
  rw [add_comm (w * x)]
  ring

theorem osc_amplitude {w y0 y0p : ℝ} (hy : y0 ≠ 0) :
    Real.sqrt (y0 ^ 2 + (y0p / w) ^ 2) = |y0| * Real.sqrt (1 + (-y0p / w / y0) ^ 2) := by
  rw [← Real.sqrt_sq_eq_abs, ← Real.sqrt_mul (sq_nonneg _)]
  congr 1
  field_simp

theorem osc_start {w y0 y0p : ℝ} (hy : y0 ≠ 0) : oscReal w y0 y0p 0 = |y0| ∧ (w ≠ 0 → deriv (oscReal w y0 y0p) 0 = |y0| * y0p / y0) := by
  have hq : Real.sqrt (1 + (-y0p / w / y0) ^ 2) ≠ 0 := (Real.sqrt_pos.mpr (by positivity)).ne'
  refine ⟨?_, fun hw => ?_⟩
  · unfold oscReal
    rw [osc_amplitude hy, mul_zero, zero_add, Real.cos_arctan]
    field_simp
  · rw [osc_deriv, osc_amplitude hy]
    simp only [mul_zero, add_zero]
    rw [Real.sin_arctan]
    field_simp

/-- **C83**, B/Chapter_3/example_3_1.py, for starting values with `y0 > 0` (the program has `y0 = 1`, `y0p = 0`, `w = 2π`): the reference
solution starts with `y0` and `y0p` and has residual 0, and it is the only such function. (Missing: `y0 < 0`, where it is false by
`C83_oscillator_fails`, and `y0 = 0`, where the program divides by zero.) -/
theorem C83_oscillator_partial (w y0 y0p : ℝ) (hw : w ≠ 0) (hy : 0 < y0) :
    oscReal w y0 y0p 0 = y0 ∧ deriv (oscReal w y0 y0p) 0 = y0p ∧ (∀ x, oscResid w (oscReal w y0 y0p) x = 0) ∧
    ∀ (L : ℝ) (y : ℝ → ℝ), ContDiff ℝ 2 y → y 0 = y0 → deriv y 0 = y0p → (∀ x ∈ Set.Icc 0 L, oscResid w y x = 0) →
      ∀ x ∈ Set.Icc 0 L, y x = oscReal w y0 y0p x := by
  obtain ⟨s0, s1⟩ := osc_start (w := w) (y0p := y0p) hy.ne'
  have s1 := s1 hw
  rw [abs_of_pos hy] at s0 s1
  rw [mul_div_assoc, mul_div_cancel₀ _ hy.ne'] at s1
  have hr : ∀ x, oscResid w (oscReal w y0 y0p) x = 0 := by
    intro x
    unfold oscResid
    rw [(osc_deriv2 w y0 y0p x).deriv]
    ring
  refine ⟨s0, s1, hr, fun L y hyc h0 h1 hyr => ?_⟩
  have e1 : ∀ t, HasDerivAt y (deriv y t) t := fun t => (hyc.differentiable (by norm_num) t).hasDerivAt
  have e2 : ∀ t, HasDerivAt (deriv y) (deriv (deriv y) t) t := fun t =>
    (((contDiff_succ_iff_deriv (n := 1)).mp hyc).2.2.differentiable (by norm_num) t).hasDerivAt
  have d1 : ∀ t, HasDerivAt (oscReal w y0 y0p) (deriv (oscReal w y0 y0p) t) t := by
    intro t
    refine DifferentiableAt.hasDerivAt ?_
    unfold oscReal
    fun_prop
  -- the energy of the difference
  have hE : ∀ t ∈ Set.Icc 0 L, HasDerivAt (fun t => (deriv y t - deriv (oscReal w y0 y0p) t) ^ 2 + w ^ 2 * (y t - oscReal w y0 y0p t) ^ 2) 0 t := by
    intro t ht
    have h := (((e2 t).sub (osc_deriv2 w y0 y0p t)).pow 2).add ((((e1 t).sub (d1 t)).pow 2).const_mul (w ^ 2))
    refine HasDerivAt.congr_deriv h ?_
    have e := hyr t ht
    unfold oscResid at e
    simp only [Pi.sub_apply]
    push_cast
    linear_combination 2 * (deriv y t - deriv (oscReal w y0 y0p) t) * e
  have hc := constant_of_has_deriv_right_zero (fun x hx => (hE x hx).continuousAt.continuousWithinAt)
      fun x hx => (hE x ⟨hx.1, hx.2.le⟩).hasDerivWithinAt
  intro x hx
  have := hc x hx
  rw [h0, h1, s0, s1] at this
  have h2 : w ^ 2 * (y x - oscReal w y0 y0p x) ^ 2 = 0 := by
    have p1 := sq_nonneg (deriv y x - deriv (oscReal w y0 y0p) x)
    have p2 : 0 ≤ w ^ 2 * (y x - oscReal w y0 y0p x) ^ 2 := by positivity
    nlinarith
  rcases mul_eq_zero.mp h2 with h | h
  · exact absurd (pow_eq_zero_iff (by norm_num) |>.mp h) hw
  · exact sub_eq_zero.mp (pow_eq_zero_iff (by norm_num) |>.mp h)

example : oscReal (2 * Real.pi) 1 0 0 = 1 := (C83_oscillator_partial (2 * Real.pi) 1 0 (by positivity) one_pos).1

/-- **C83 fails** for B/Chapter_3/example_3_1.py with a negative starting value: `arctan` gives the phase in `(-π/2, π/2)`, so the reference
starts with `-y0` and `-y0p`. -/
theorem C83_oscillator_fails (w y0 y0p : ℝ) (hw : w ≠ 0) (hy : y0 < 0) :
    oscReal w y0 y0p 0 = -y0 ∧ deriv (oscReal w y0 y0p) 0 = -y0p ∧ oscReal w y0 y0p 0 ≠ y0 := by
  obtain ⟨s0, s1⟩ := osc_start (w := w) (y0p := y0p) hy.ne
  have s1 := s1 hw
  rw [abs_of_neg hy] at s0 s1
  have hy0 := hy.ne
  refine ⟨s0, ?_, ?_⟩
  · rw [s1]
    field_simp
  · rw [s0]
    intro h
    linarith

/-! ### The Lane–Emden equation -/

theorem lane0_eq : laneReal 0 = fun x => 1 - 1 / 6 * x ^ 2 := by
  funext x
  simp [laneReal]

theorem lane1_eq : laneReal 1 = Real.sinc := by
  funext x
  simp [laneReal, Real.sinc_apply]

theorem lane5_eq : laneReal 5 = fun x => (1 + x ^ 2 / 3) ^ (-1 / 2 : ℝ) := by
  funext x
  simp [laneReal]

theorem sinc_deriv_zero : HasDerivAt Real.sinc 0 0 := by
  have hb : (fun x => Real.sinc x - 1) =O[nhds 0] fun x => ‖x - 0‖ ^ 2 := by
    refine Asymptotics.IsBigO.of_bound 1 ?_
    filter_upwards [Metric.ball_mem_nhds (0 : ℝ) one_pos] with x hx
    have hx1 : |x| < 1 := by simpa using hx
    have key : ∀ t : ℝ, 0 < t → t < 1 → |Real.sinc t - 1| ≤ t ^ 2 := by
      intro t h0 h1
      have a := Real.sin_gt_sub_cube h0
      have b := Real.sin_le h0.le
      rw [Real.sinc_of_ne_zero h0.ne']
      have e : Real.sin t / t - 1 = (Real.sin t - t) / t := by field_simp
      rw [e, abs_div, abs_of_pos h0, div_le_iff₀ h0, abs_of_nonpos (by linarith)]
      nlinarith [pow_pos h0 3]
    rw [Real.norm_eq_abs, sub_zero, Real.norm_eq_abs, one_mul, Real.norm_eq_abs, abs_of_nonneg (by positivity : 0 ≤ |x| ^ 2), sq_abs]
    rcases lt_trichotomy x 0 with h | h | h
    · have := key (-x) (by linarith) (by rw [abs_of_neg h] at hx1; exact hx1)
      rw [Real.sinc_neg, neg_sq] at this
      exact this
    · rw [h]
      simp
    · exact key x h (by rw [abs_of_pos h] at hx1; exact hx1)
  have := (hb.hasFDerivAt (by norm_num)).hasDerivAt
  have h := this.add_const 1
  simp only [sub_add_cancel] at h
  simpa using h

theorem sinc_resid {x : ℝ} (hx : x ≠ 0) : x * deriv (deriv Real.sinc) x + 2 * deriv Real.sinc x + x * Real.sinc x = 0 := by
  have d1 : ∀ s : ℝ, s ≠ 0 → deriv Real.sinc s = (Real.cos s * s - Real.sin s) / s ^ 2 := by
    intro s hs
    have ev : Real.sinc =ᶠ[nhds s] fun t => Real.sin t / t :=
      Filter.eventually_of_mem (isOpen_ne.mem_nhds hs) fun t ht => Real.sinc_of_ne_zero ht
    rw [ev.deriv_eq]
    have h := (Real.hasDerivAt_sin s).div (hasDerivAt_id s) hs
    refine (HasDerivAt.congr_deriv (f := fun t => Real.sin t / t) h ?_).deriv
    simp
  have ev2 : deriv Real.sinc =ᶠ[nhds x] fun s => (Real.cos s * s - Real.sin s) / s ^ 2 :=
    Filter.eventually_of_mem (isOpen_ne.mem_nhds hx) fun t ht => d1 t ht
  have h := (((Real.hasDerivAt_cos x).mul (hasDerivAt_id x)).sub (Real.hasDerivAt_sin x)).div ((hasDerivAt_id x).pow 2) (pow_ne_zero 2 hx)
  have d2 : deriv (deriv Real.sinc) x = _ := ev2.deriv_eq.trans (HasDerivAt.deriv (f := fun s => (Real.cos s * s - Real.sin s) / s ^ 2) h)
  rw [d2, d1 x hx, Real.sinc_of_ne_zero hx]
  simp only [Pi.sub_apply, Pi.mul_apply, Pi.pow_apply, id]
  field_simp
  push_cast
  ring

theorem lane5_deriv : deriv (laneReal 5) = fun x => -(x / 3) * (1 + x ^ 2 / 3) ^ (-3 / 2 : ℝ) := by
  rw [lane5_eq]
  funext x
  have hp : 0 < 1 + x ^ 2 / 3 := by positivity
  have h := (((hasDerivAt_pow 2 x).div_const 3).const_add 1).rpow_const (p := (-1 / 2 : ℝ)) (Or.inl hp.ne')
  refine (HasDerivAt.congr_deriv h ?_).deriv
  have e : (-1 / 2 : ℝ) - 1 = -3 / 2 := by norm_num
  rw [e]
  push_cast
  ring

/-- **C83**, B/Chapter_3/section_3_5_1.py, J/Chapter_4/Examples_4_1thru3/laneEmden_tfc.py: the reference solutions for `k = 0, 1, 5` have the initial value `1`
and initial derivative `0`, and residual 0 everywhere. -/
theorem C83_lane (k : ℕ) (hk : k = 0 ∨ k = 1 ∨ k = 5) :
    laneReal k 0 = 1 ∧ HasDerivAt (laneReal k) 0 0 ∧ ∀ x, laneResid k (laneReal k) x = 0 := by
  rcases hk with rfl | rfl | rfl
  · have hd : deriv (laneReal 0) = fun x => -1 / 3 * x := by
      rw [lane0_eq]
      funext x
      have h := ((hasDerivAt_pow 2 x).const_mul (1 / 6)).const_sub 1
      refine (HasDerivAt.congr_deriv h ?_).deriv
      push_cast
      ring
    refine ⟨by simp [laneReal], ?_, fun x => ?_⟩
    · have hdiff : DifferentiableAt ℝ (laneReal 0) 0 := by
        rw [lane0_eq]
        fun_prop
      have := hdiff.hasDerivAt
      rw [hd] at this
      simpa using this
    · unfold laneResid
      rw [hd, deriv_const_mul _ differentiableAt_id]
      simp
      ring
  · rw [lane1_eq]
    refine ⟨by simp, sinc_deriv_zero, fun x => ?_⟩
    unfold laneResid
    rw [pow_one]
    rcases eq_or_ne x 0 with rfl | hx
    · rw [sinc_deriv_zero.deriv]
      simp
    · exact sinc_resid hx
  · refine ⟨by simp [lane5_eq], ?_, fun x => ?_⟩
    · have hdiff : DifferentiableAt ℝ (laneReal 5) 0 := by
        rw [lane5_eq]
        have h := (((hasDerivAt_pow 2 (0 : ℝ)).div_const 3).const_add 1).rpow_const (p := (-1 / 2 : ℝ)) (Or.inl (by norm_num))
        exact h.differentiableAt
      have := hdiff.hasDerivAt
      rw [lane5_deriv] at this
      simpa using this
    · unfold laneResid
      have hp : 0 < 1 + x ^ 2 / 3 := by positivity
      obtain ⟨q, hq⟩ : ∃ q, q = 1 + x ^ 2 / 3 := ⟨_, rfl⟩
      have h := ((hasDerivAt_id x).div_const 3).neg.mul
        ((((hasDerivAt_pow 2 x).div_const 3).const_add 1).rpow_const (p := (-3 / 2 : ℝ)) (Or.inl hp.ne'))
      have d2 : deriv (deriv (laneReal 5)) x = _ :=
        (congrFun (congrArg deriv lane5_deriv) x).trans (HasDerivAt.deriv (f := fun x : ℝ => -(x / 3) * (1 + x ^ 2 / 3) ^ (-3 / 2 : ℝ)) h)
      rw [d2, lane5_deriv, lane5_eq]
      simp only [id, Pi.neg_apply]
      rw [← hq]
      rw [← hq] at hp
      have e1 : q ^ (-3 / 2 : ℝ) = q * q ^ (-5 / 2 : ℝ) := by
        have := Real.rpow_add hp 1 (-5 / 2)
        rw [Real.rpow_one] at this
        rw [← this]
        norm_num
      have e2 : (q ^ (-1 / 2 : ℝ)) ^ 5 = q ^ (-5 / 2 : ℝ) := by
        rw [← Real.rpow_natCast, ← Real.rpow_mul hp.le]
        norm_num
      have e3 : (-3 / 2 : ℝ) - 1 = -5 / 2 := by norm_num
      rw [e3, e2, e1]
      push_cast
      linear_combination (-x * q ^ (-5 / 2 : ℝ)) * hq

theorem lane_at_most_one (k : ℕ) {L : ℝ} (hL : 0 ≤ L) (y z : ℝ → ℝ) (hy : ContDiff ℝ 2 y) (hz : ContDiff ℝ 2 z) (h0 : y 0 = z 0)
    (h1 : deriv y 0 = deriv z 0) (hyr : ∀ x ∈ Set.Ioo 0 L, laneResid k y x = 0) (hzr : ∀ x ∈ Set.Ioo 0 L, laneResid k z x = 0) :
    ∀ x ∈ Set.Icc 0 L, y x = z x := by
  have d1 : ∀ {f : ℝ → ℝ}, ContDiff ℝ 2 f → ∀ t, HasDerivAt f (deriv f t) t := fun hf t =>
    (hf.differentiable (by norm_num) t).hasDerivAt
  have d2 : ∀ {f : ℝ → ℝ}, ContDiff ℝ 2 f → ∀ t, HasDerivAt (deriv f) (deriv (deriv f) t) t := fun hf t =>
    (((contDiff_succ_iff_deriv (n := 1)).mp hf).2.2.differentiable (by norm_num) t).hasDerivAt
  obtain ⟨G, hG⟩ : ∃ G : ℝ → ℝ, G = fun x => ∑ i ∈ Finset.range k, y x ^ i * z x ^ (k - 1 - i) := ⟨_, rfl⟩
  have hGc : Continuous G := by
    rw [hG]
    exact continuous_finsetSum _ fun i _ => (hy.continuous.pow i).mul (hz.continuous.pow _)
  have hGe : ∀ x, y x ^ k - z x ^ k = G x * (y x - z x) := by
    intro x
    rw [hG]
    exact (geom_sum₂_mul (y x) (z x) k).symm
  obtain ⟨C, hC⟩ := isCompact_Icc.exists_bound_of_continuousOn (hGc.continuousOn (s := Set.Icc 0 L))
  have hC0 : 0 ≤ C := (norm_nonneg _).trans (hC 0 ⟨le_rfl, hL⟩)
  obtain ⟨ψ, hψ⟩ : ∃ ψ : ℝ → ℝ, ψ = fun x => Real.exp (0 + -(1 + C) * x) * ((y x - z x) ^ 2 + (deriv y x - deriv z x) ^ 2) := ⟨_, rfl⟩
  have hd : ∀ x, HasDerivAt ψ (Real.exp (0 + -(1 + C) * x) * (-(1 + C) * ((y x - z x) ^ 2 + (deriv y x - deriv z x) ^ 2)
      + 2 * (y x - z x) * (deriv y x - deriv z x) + 2 * (deriv y x - deriv z x) * (deriv (deriv y) x - deriv (deriv z) x))) x := by
    intro x
    have h := (exp_lin 0 (-(1 + C)) x).mul ((((d1 hy x).sub (d1 hz x)).pow 2).add (((d2 hy x).sub (d2 hz x)).pow 2))
    rw [hψ]
    refine HasDerivAt.congr_deriv h ?_
    simp only [Pi.sub_apply, Pi.add_apply, Pi.pow_apply]
    push_cast
    ring
  have hanti : AntitoneOn ψ (Set.Icc 0 L) := by
    refine antitoneOn_of_deriv_nonpos (convex_Icc 0 L) (fun x _ => (hd x).continuousAt.continuousWithinAt)
      (fun x _ => (hd x).differentiableAt.differentiableWithinAt) fun x hx => ?_
    rw [interior_Icc] at hx
    rw [(hd x).deriv]
    refine mul_nonpos_of_nonneg_of_nonpos (Real.exp_pos _).le ?_
    obtain ⟨w, hw⟩ : ∃ w, w = y x - z x := ⟨_, rfl⟩
    obtain ⟨v, hv⟩ : ∃ v, v = deriv y x - deriv z x := ⟨_, rfl⟩
    obtain ⟨a, ha⟩ : ∃ a, a = deriv (deriv y) x - deriv (deriv z) x := ⟨_, rfl⟩
    have e1 := hyr x hx
    have e2 := hzr x hx
    unfold laneResid at e1 e2
    have e3 : x * a + 2 * v + x * (G x * w) = 0 := by
      rw [ha, hv, hw, ← hGe]
      linear_combination e1 - e2
    rw [← hw, ← hv, ← ha]
    have hx0 : 0 < x := hx.1
    have e4 : a = -2 * v / x - G x * w := by
      field_simp
      linear_combination e3
    have hg := abs_le.mp (hC x ⟨hx.1.le, hx.2.le⟩)
    have hq : 0 ≤ v ^ 2 / x := by positivity
    have e5 : 2 * v * a = -4 * (v ^ 2 / x) - 2 * G x * (w * v) := by
      rw [e4]
      field_simp
      ring
    have p1 : 0 ≤ (w - v) ^ 2 := sq_nonneg _
    have p2 : 0 ≤ (w + v) ^ 2 := sq_nonneg _
    have m1 : 0 ≤ (C - G x) * (w - v) ^ 2 := mul_nonneg (by linarith [hg.2]) p1
    have m2 : 0 ≤ (C + G x) * (w + v) ^ 2 := mul_nonneg (by linarith [hg.1]) p2
    nlinarith
  intro x hx
  have := hanti ⟨le_rfl, hL⟩ hx hx.1
  rw [hψ] at this
  simp only [h0, h1, sub_self] at this
  norm_num at this
  have h2 : (y x - z x) ^ 2 + (deriv y x - deriv z x) ^ 2 ≤ 0 := by
    by_contra hne
    push Not at hne
    have := mul_pos (Real.exp_pos ((-C + -1) * x)) hne
    linarith
  have p1 := sq_nonneg (y x - z x)
  have p2 := sq_nonneg (deriv y x - deriv z x)
  have : (y x - z x) ^ 2 = 0 := by linarith
  exact sub_eq_zero.mp (pow_eq_zero_iff (by norm_num) |>.mp this)

/-- **C83**, the same programs: a candidate with the initial values whose residual vanishes on the domain is the reference solution. -/
theorem C83_lane_unique (k : ℕ) (hk : k = 0 ∨ k = 1 ∨ k = 5) {L : ℝ} (hL : 0 ≤ L) (y : ℝ → ℝ) (hy : ContDiff ℝ 2 y) (h0 : y 0 = 1)
    (h1 : deriv y 0 = 0) (hr : ∀ x ∈ Set.Ioo 0 L, laneResid k y x = 0) : ∀ x ∈ Set.Icc 0 L, y x = laneReal k x := by
  obtain ⟨a, b, c⟩ := C83_lane k hk
  have gen : ContDiff ℝ 2 (laneReal k) → ∀ x ∈ Set.Icc 0 L, y x = laneReal k x := fun hc =>
    lane_at_most_one k hL y (laneReal k) hy hc (h0.trans a.symm) (h1.trans b.deriv.symm) hr fun x _ => c x
  rcases hk with rfl | rfl | rfl
  · refine gen ?_
    rw [lane0_eq]
    fun_prop
  · -- `x y - sin x` solves the oscillator equation with initial values 0
    have e1 : ∀ t, HasDerivAt y (deriv y t) t := fun t => (hy.differentiable (by norm_num) t).hasDerivAt
    have e2 : ∀ t, HasDerivAt (deriv y) (deriv (deriv y) t) t := fun t =>
      (((contDiff_succ_iff_deriv (n := 1)).mp hy).2.2.differentiable (by norm_num) t).hasDerivAt
    have hE : ∀ t, HasDerivAt (fun t => (y t + t * deriv y t - Real.cos t) ^ 2 + (t * y t - Real.sin t) ^ 2)
        (2 * (y t + t * deriv y t - Real.cos t) * (2 * deriv y t + t * deriv (deriv y) t + t * y t)) t := by
      intro t
      have h := ((((e1 t).add ((hasDerivAt_id t).mul (e2 t))).sub (Real.hasDerivAt_cos t)).pow 2).add
        ((((hasDerivAt_id t).mul (e1 t)).sub (Real.hasDerivAt_sin t)).pow 2)
      refine HasDerivAt.congr_deriv h ?_
      simp only [Pi.sub_apply, Pi.add_apply, Pi.mul_apply, id]
      push_cast
      ring
    have hE0 : ∀ t ∈ Set.Ico 0 L, HasDerivWithinAt (fun t => (y t + t * deriv y t - Real.cos t) ^ 2 + (t * y t - Real.sin t) ^ 2) 0 (Set.Ici t) t := by
      intro t ht
      refine ((hE t).congr_deriv ?_).hasDerivWithinAt
      rcases ht.1.eq_or_lt with h | h
      · rw [← h, h1]
        ring
      · have e := hr t ⟨h, ht.2⟩
        unfold laneResid at e
        linear_combination (2 * (y t + t * deriv y t - Real.cos t)) * e
    have hc := constant_of_has_deriv_right_zero (fun x _ => (hE x).continuousAt.continuousWithinAt) hE0
    intro x hx
    have hxc := hc x hx
    rw [h0, h1] at hxc
    norm_num at hxc
    have p1 := sq_nonneg (y x + x * deriv y x - Real.cos x)
    have p2 := sq_nonneg (x * y x - Real.sin x)
    have p3 : (x * y x - Real.sin x) ^ 2 = 0 := by linarith
    have p4 : x * y x - Real.sin x = 0 := pow_eq_zero_iff (by norm_num) |>.mp p3
    rw [lane1_eq]
    rcases eq_or_ne x 0 with rfl | hx0
    · rw [h0, Real.sinc_zero]
    · rw [Real.sinc_of_ne_zero hx0]
      field_simp
      linear_combination p4
  · refine gen ?_
    rw [lane5_eq]
    exact ContDiff.rpow_const_of_ne (by fun_prop) fun x => by positivity

/-! ### The hybrid system -/

theorem hyb1_eq : hybReal1 = fun x => -1 / 5 * Real.exp (Real.pi + -2 * x) + 1 / 2 * Real.exp (Real.pi / 2 + -1 * x)
    + (9 * Real.cos (0 + 1 * x) + 7 * Real.sin (0 + 1 * x)) / 10 := by
  funext x
  unfold hybReal1
  ring_nf

theorem hyb1_deriv : deriv hybReal1 = fun x => 2 / 5 * Real.exp (Real.pi + -2 * x) - 1 / 2 * Real.exp (Real.pi / 2 + -1 * x)
    + (-9 * Real.sin (0 + 1 * x) + 7 * Real.cos (0 + 1 * x)) / 10 := by
  rw [hyb1_eq]
  funext x
  have h := (((exp_lin Real.pi (-2) x).const_mul (-1 / 5)).add ((exp_lin (Real.pi / 2) (-1) x).const_mul (1 / 2))).add
    ((((cos_lin 0 1 x).const_mul 9).add ((sin_lin 0 1 x).const_mul 7)).div_const 10)
  refine (HasDerivAt.congr_deriv h ?_).deriv
  ring

theorem hyb2_deriv : deriv hybReal2 = fun x => -Real.exp (Real.pi / 2 + -1 * x) := by
  have e : hybReal2 = fun x => Real.exp (Real.pi / 2 + -1 * x) := by
    funext x
    unfold hybReal2
    ring_nf
  rw [e]
  funext x
  refine (HasDerivAt.congr_deriv (exp_lin (Real.pi / 2) (-1) x) ?_).deriv
  ring

/-- **C83**, J/Chapter_4/Example_4_5/tfc_linearNonlinear.py: the reference solution has the two boundary values, its two branches have the
value `1` and the derivative `-1` at `π/2`, so it is differentiable, and each branch has residual 0 for the equation of its segment. -/
theorem C83_hybrid :
    hybReal 0 = hybY0 ∧ hybReal Real.pi = hybYf ∧ Differentiable ℝ hybReal ∧
    (hybReal1 (Real.pi / 2) = 1 ∧ hybReal2 (Real.pi / 2) = 1 ∧ deriv hybReal1 (Real.pi / 2) = -1 ∧ deriv hybReal2 (Real.pi / 2) = -1) ∧
    (∀ x < Real.pi / 2, hybResid1 hybReal x = 0) ∧ (∀ x > Real.pi / 2, hybResid2 hybReal x = 0) := by
  have hpi := Real.pi_pos
  have v1 : hybReal1 (Real.pi / 2) = 1 := by
    unfold hybReal1
    rw [Real.cos_pi_div_two, Real.sin_pi_div_two, show Real.pi - 2 * (Real.pi / 2) = 0 by ring, sub_self, Real.exp_zero]
    norm_num
  have v2 : hybReal2 (Real.pi / 2) = 1 := by
    unfold hybReal2
    rw [sub_self, Real.exp_zero]
  have v3 : deriv hybReal1 (Real.pi / 2) = -1 := by
    rw [hyb1_deriv]
    simp only [zero_add, one_mul]
    rw [Real.cos_pi_div_two, Real.sin_pi_div_two, show Real.pi + -2 * (Real.pi / 2) = 0 by ring,
      show Real.pi / 2 + -1 * (Real.pi / 2) = 0 by ring, Real.exp_zero]
    norm_num
  have v4 : deriv hybReal2 (Real.pi / 2) = -1 := by
    rw [hyb2_deriv]
    simp only
    rw [show Real.pi / 2 + -1 * (Real.pi / 2) = 0 by ring, Real.exp_zero]
  have hd1 : Differentiable ℝ hybReal1 := by
    unfold hybReal1
    fun_prop
  have hd2 : Differentiable ℝ hybReal2 := by
    unfold hybReal2
    fun_prop
  have hglue : hybReal = glue (Real.pi / 2) hybReal1 hybReal2 := rfl
  have ev1 : ∀ x < Real.pi / 2, hybReal =ᶠ[nhds x] hybReal1 := fun x hx =>
    Filter.eventually_of_mem (Iio_mem_nhds hx) fun y hy => if_pos (le_of_lt hy)
  have ev2 : ∀ x > Real.pi / 2, hybReal =ᶠ[nhds x] hybReal2 := fun x hx =>
    Filter.eventually_of_mem (Ioi_mem_nhds hx) fun y hy => if_neg (not_le_of_gt hy)
  refine ⟨?_, ?_, ?_, ⟨v1, v2, v3, v4⟩, fun x hx => ?_, fun x hx => ?_⟩
  · unfold hybReal hybY0
    rw [if_pos (by positivity)]
    unfold hybReal1
    have : Real.exp Real.pi = Real.exp (Real.pi / 2) * Real.exp (Real.pi / 2) := by
      rw [← Real.exp_add]
      ring_nf
    simp only [mul_zero, sub_zero, Real.cos_zero, Real.sin_zero]
    rw [this]
    ring
  · unfold hybReal hybYf
    rw [if_neg (by linarith)]
    unfold hybReal2
    ring_nf
  · rw [hglue]
    exact fun x => (glue_hasDerivAt hd1 hd2 (v1.trans v2.symm) (v3.trans v4.symm) x).differentiableAt
  · unfold hybResid1 hybF
    have e1 := (ev1 x hx).deriv
    have h := (((exp_lin Real.pi (-2) x).const_mul (2 / 5)).sub ((exp_lin (Real.pi / 2) (-1) x).const_mul (1 / 2))).add
      ((((sin_lin 0 1 x).const_mul (-9)).add ((cos_lin 0 1 x).const_mul 7)).div_const 10)
    have e2 : deriv (deriv hybReal) x = _ := e1.deriv_eq.trans ((congrFun (congrArg deriv hyb1_deriv) x).trans (HasDerivAt.deriv
      (f := fun x => 2 / 5 * Real.exp (Real.pi + -2 * x) - 1 / 2 * Real.exp (Real.pi / 2 + -1 * x)
        + (-9 * Real.sin (0 + 1 * x) + 7 * Real.cos (0 + 1 * x)) / 10) h))
    rw [e2, (ev1 x hx).eq_of_nhds]
    unfold hybReal1
    ring_nf
  · unfold hybResid2 hybF
    have e1 := (ev2 x hx).deriv
    have h := (exp_lin (Real.pi / 2) (-1) x).neg
    have e2 : deriv (deriv hybReal) x = _ := e1.deriv_eq.trans ((congrFun (congrArg deriv hyb2_deriv) x).trans (HasDerivAt.deriv
      (f := fun x => -Real.exp (Real.pi / 2 + -1 * x)) h))
    rw [e2, (ev2 x hx).eq_of_nhds, (ev2 x hx).deriv_eq, hyb2_deriv]
    unfold hybReal2
    have : Real.exp (Real.pi - 2 * x) = Real.exp (Real.pi / 2 - x) * Real.exp (Real.pi / 2 - x) := by
      rw [← Real.exp_add]
      ring_nf
    rw [this]
    ring_nf

end Verif.Props
