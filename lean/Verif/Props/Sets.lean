import Verif.Props.Programs
import Verif.Model.Sets
import Mathlib.Analysis.SpecialFunctions.Trigonometric.Bounds
import Mathlib.Analysis.Complex.ExponentialBounds
import Mathlib.Topology.Order.IntermediateValue

/-! # Inequality constraints and discrete sets of values in the example programs (C78) -/

namespace Verif.Props

open Verif Verif.Mem Verif.Py Verif.Np Verif.Spec Verif.Model Verif.Model.Py Verif.Model.Prog

theorem step_pos {x : ℝ} (h : 0 < x) : step x = 1 := by
  unfold step
  rw [if_neg h.not_gt, if_pos h]

theorem step_nonpos {x : ℝ} (h : x ≤ 0) : step x = 0 := by
  unfold step
  rw [if_neg (not_lt.mpr h), ite_self]

/-- **C78**, the expression with inequality constraints: wherever the bounds do not cross the value lies between them, and a value
between them is not changed. -/
theorem C78_clamp (lb ub g : ℝ) (h : lb ≤ ub) :
    lb ≤ clamp lb ub g ∧ clamp lb ub g ≤ ub ∧ (lb ≤ g → g ≤ ub → clamp lb ub g = g) ∧ (g < lb → clamp lb ub g = lb) ∧
      (ub < g → clamp lb ub g = ub) := by
  have h1 : lb ≤ g → g ≤ ub → clamp lb ub g = g := by
    intro a b
    unfold clamp
    rw [step_nonpos (by linarith), step_nonpos (by linarith)]
    ring
  have h2 : g < lb → clamp lb ub g = lb := by
    intro a
    unfold clamp
    rw [step_nonpos (by linarith), step_pos (by linarith)]
    ring
  have h3 : ub < g → clamp lb ub g = ub := by
    intro a
    unfold clamp
    rw [step_pos (by linarith), step_nonpos (by linarith)]
    ring
  have h4 : lb ≤ clamp lb ub g ∧ clamp lb ub g ≤ ub := by
    rcases lt_or_ge g lb with a | a
    · rw [h2 a]; exact ⟨le_rfl, h⟩
    · rcases lt_or_ge ub g with b | b
      · rw [h3 b]; exact ⟨h, le_rfl⟩
      · rw [h1 a b]; exact ⟨a, b⟩
  exact ⟨h4.1, h4.2, h1, h2, h3⟩

theorem sq_div_exp_le {a x : ℝ} (ha : 2 ≤ a) (hx : a ≤ x) : x ^ 2 / Real.exp x ≤ a ^ 2 / Real.exp a := by
  have h1 : 1 + (x - a) / 2 ≤ Real.exp ((x - a) / 2) := by linarith [Real.add_one_le_exp ((x - a) / 2)]
  have h2 : x ≤ a * (1 + (x - a) / 2) := by nlinarith
  have h3 : x ≤ a * Real.exp ((x - a) / 2) := h2.trans (by nlinarith)
  have h4 : x ^ 2 ≤ a ^ 2 * Real.exp (x - a) := by
    have : Real.exp (x - a) = Real.exp ((x - a) / 2) ^ 2 := by
      rw [← Real.exp_nat_mul]
      congr 1
      push_cast
      ring
    rw [this, ← mul_pow]
    exact pow_le_pow_left₀ (by linarith) h3 2
  rw [div_le_div_iff₀ (Real.exp_pos _) (Real.exp_pos _)]
  have : Real.exp x = Real.exp (x - a) * Real.exp a := by rw [← Real.exp_add]; ring_nf
  rw [this]
  nlinarith [Real.exp_pos a]

theorem sq_div_exp_le_max {x : ℝ} (hx : 0 ≤ x) : x ^ 2 / Real.exp x ≤ 0.55 := by
  have h1 : x / 2 ≤ Real.exp (x / 2 - 1) := by linarith [Real.add_one_le_exp (x / 2 - 1)]
  have h2 : (x / 2) ^ 2 ≤ Real.exp (x - 2) := by
    have : Real.exp (x - 2) = Real.exp (x / 2 - 1) ^ 2 := by
      rw [← Real.exp_nat_mul]
      congr 1
      push_cast
      ring
    rw [this]
    exact pow_le_pow_left₀ (by linarith) h1 2
  have h3 : Real.exp x = Real.exp (x - 2) * Real.exp 1 ^ 2 := by
    rw [← Real.exp_nat_mul, ← Real.exp_add]
    congr 1
    push_cast
    ring
  have h4 := Real.exp_one_gt_d9
  rw [div_le_iff₀ (Real.exp_pos x), h3]
  have h5 : (7.3 : ℝ) ≤ Real.exp 1 ^ 2 := by nlinarith
  nlinarith [Real.exp_pos (x - 2)]

theorem exp_low {x : ℝ} (hx : 4.7 ≤ x) : x ^ 2 / Real.exp x ≤ 0.23 := by
  refine (sq_div_exp_le (by norm_num) hx).trans ?_
  have h4 := Real.exp_one_gt_d9
  have h1 : (4.7 : ℝ) = 4 * 1 + 0.7 := by norm_num
  have h2 : Real.exp 4.7 = Real.exp 1 ^ 4 * Real.exp 0.7 := by
    rw [h1, Real.exp_add]
    congr 1
    rw [← Real.exp_nat_mul]
    norm_num
  have h3 : (1.94 : ℝ) ≤ Real.exp 0.7 := by
    have := Real.quadratic_le_exp_of_nonneg (show (0 : ℝ) ≤ 0.7 by norm_num)
    norm_num at this ⊢
    linarith
  have h5 : (54 : ℝ) ≤ Real.exp 1 ^ 4 := by
    have : (7.38 : ℝ) ≤ Real.exp 1 ^ 2 := by nlinarith
    have h : Real.exp 1 ^ 4 = (Real.exp 1 ^ 2) ^ 2 := by ring
    rw [h]
    nlinarith
  rw [div_le_iff₀ (Real.exp_pos _), h2]
  nlinarith

/-- The bounds of D/Appendices/Appendix_C.py do not cross on the interval `[0, 8]` on which the program evaluates them. -/
theorem bounds_ordered {x : ℝ} (h0 : 0 ≤ x) (h8 : x ≤ 8) : lbC x ≤ ubC x := by
  unfold lbC ubC
  have hp := Real.pi_gt_d2
  have hp' := Real.pi_lt_d2
  have hpos : 0 ≤ x ^ 2 / Real.exp x := by positivity
  have hs : -(8 / 30) ≤ x / 30 * Real.sin (2 * x) := by
    have := Real.neg_one_le_sin (2 * x)
    nlinarith
  rcases le_or_gt x (Real.pi / 2) with hx | hx
  · have hsin : 0 ≤ x / 30 * Real.sin (2 * x) :=
      mul_nonneg (by linarith) (Real.sin_nonneg_of_nonneg_of_le_pi (by linarith) (by linarith))
    have hc := Real.cos_le_one x
    rcases le_or_gt x 1 with h1 | h1
    · have : x ^ 2 / Real.exp x ≤ 0.5 := by
        rw [div_le_iff₀ (Real.exp_pos x)]
        have := Real.quadratic_le_exp_of_nonneg h0
        nlinarith
      nlinarith
    · have h2 : Real.cos x ≤ 0.6 := by
        have := Real.cos_le_one_sub_mul_cos_sq (x := x)
        refine (Real.cos_le_cos_of_nonneg_of_le_pi (by norm_num) (by linarith) h1.le).trans ?_
        have := Real.cos_one_le
        linarith
      have h3 := sq_div_exp_le_max h0
      nlinarith
  · rcases le_or_gt x (Real.pi + Real.pi / 2) with hx' | hx'
    · have hc := Real.cos_nonpos_of_pi_div_two_le_of_le hx.le hx'
      nlinarith
    · have h3 := exp_low (x := x) (by linarith)
      have hc := Real.cos_le_one x
      nlinarith

/-- **C78**, D/Appendices/Appendix_C.py (B/Chapter_1/example_1_16.py) on `[0, 8]`: with inequality constraints only, for every free
function. -/
theorem C78_inequality (h : ℕ → ℝ → ℝ) {x : ℝ} (h0 : 0 ≤ x) (h8 : x ≤ 8) :
    lbC x ≤ clamp (lbC x) (ubC x) (h 0 x) ∧ clamp (lbC x) (ubC x) (h 0 x) ≤ ubC x :=
  let c := C78_clamp (lbC x) (ubC x) (h 0 x) (bounds_ordered h0 h8)
  ⟨c.1, c.2.1⟩

/-- **C78**, D/Appendices/Appendix_C.py 63–68: with inequality and point constraints both hold, for every free function. -/
theorem C78_points (h : ℕ → ℝ → ℝ) :
    (∀ x, 0 ≤ x → x ≤ 8 → lbC x ≤ clamp (lbC x) (ubC x) (threePoint h x) ∧ clamp (lbC x) (ubC x) (threePoint h x) ≤ ubC x) ∧
    clamp (lbC 0) (ubC 0) (threePoint h 0) = 0 ∧ clamp (lbC 4) (ubC 4) (threePoint h 4) = -0.2 ∧
    clamp (lbC 8) (ubC 8) (threePoint h 8) = -0.1 := by
  have hp := Real.pi_gt_d2
  have hp' := Real.pi_lt_d2
  refine ⟨fun x h0 h8 => C78_inequality (fun _ => threePoint h) h0 h8, ?_⟩
  obtain ⟨a, b, c⟩ := C77_three_point h
  rw [a, b, c]
  have ub4 : (-0.2 : ℝ) ≤ ubC 4 := by
    unfold ubC
    have := Real.neg_one_le_sin (2 * 4)
    norm_num at this ⊢
    linarith
  have lb4 : lbC 4 ≤ -0.2 := by
    unfold lbC
    have hc := Real.cos_nonpos_of_pi_div_two_le_of_le (x := 4) (by linarith) (by linarith)
    have : 0 ≤ (4 : ℝ) ^ 2 / Real.exp 4 := by positivity
    nlinarith
  have ub8 : (-0.1 : ℝ) ≤ ubC 8 := by
    unfold ubC
    have := Real.neg_one_le_sin (2 * 8)
    norm_num at this ⊢
    linarith
  have lb8 : lbC 8 ≤ -0.1 := by
    unfold lbC
    have h1 : (8 : ℝ) ^ 2 / Real.exp 8 ≤ 0.2 := by
      have h4 := Real.exp_one_gt_d9
      have h2 : Real.exp 8 = (Real.exp 1 ^ 4) ^ 2 := by
        rw [← pow_mul, ← Real.exp_nat_mul]
        norm_num
      have h5 : (49 : ℝ) ≤ Real.exp 1 ^ 4 := by
        have : (7 : ℝ) ≤ Real.exp 1 ^ 2 := by nlinarith
        have h : Real.exp 1 ^ 4 = (Real.exp 1 ^ 2) ^ 2 := by ring
        rw [h]
        nlinarith
      rw [div_le_iff₀ (Real.exp_pos _), h2]
      nlinarith
    have hc := Real.cos_le_one 8
    have : 0 ≤ (8 : ℝ) ^ 2 / Real.exp 8 := by positivity
    nlinarith
  refine ⟨(C78_clamp _ _ _ (bounds_ordered le_rfl (by norm_num))).2.2.1 ?_ ?_,
    (C78_clamp _ _ _ (lb4.trans ub4)).2.2.1 lb4 ub4, (C78_clamp _ _ _ (lb8.trans ub8)).2.2.1 lb8 ub8⟩
  · unfold lbC
    norm_num
  · unfold ubC
    norm_num

/-- **C78**, J/Chapter_2/Example_2_9/Figure_2_1.py and Figure_2_2.py, where the two bounds do not cross: the value lies between them, and
the values at the three points of Figure_2_2.py are met exactly if they lie between the bounds. -/
theorem C78_random_partial (hl hu hy : ℕ → ℝ → ℝ) (x : ℝ) (hb : fl hl x ≤ fu hu x) (g : ℝ → ℝ) :
    fl hl x ≤ clamp (fl hl x) (fu hu x) (g x) ∧ clamp (fl hl x) (fu hu x) (g x) ≤ fu hu x ∧
    ∀ x1 x2 x3 y1 y2 y3 : ℝ, x1 ≠ x2 → x1 ≠ x3 → x2 ≠ x3 → (x, g x) ∈ [(x1, y1), (x2, y2), (x3, y3)] →
      (clamp (fl hl x) (fu hu x) (lagrange3 hy x1 x2 x3 y1 y2 y3 x) = g x ↔ fl hl x ≤ g x ∧ g x ≤ fu hu x) := by
  obtain ⟨a, b, -⟩ := C78_clamp _ _ (g x) hb
  refine ⟨a, b, ?_⟩
  intro x1 x2 x3 y1 y2 y3 h12 h13 h23 hm
  obtain ⟨e1, e2, e3⟩ := C77_lagrange hy x1 x2 x3 y1 y2 y3 h12 h13 h23
  have hv : lagrange3 hy x1 x2 x3 y1 y2 y3 x = g x := by
    simp only [List.mem_cons, Prod.mk.injEq, List.not_mem_nil, or_false] at hm
    rcases hm with ⟨rfl, h⟩ | ⟨rfl, h⟩ | ⟨rfl, h⟩
    · rw [e1, h]
    · rw [e2, h]
    · rw [e3, h]
  rw [hv]
  constructor
  · intro h
    rw [h] at a b
    exact ⟨a, b⟩
  · rintro ⟨p, q⟩
    exact (C78_clamp _ _ (g x) hb).2.2.1 p q

/-- The constant as free function: a Chebyshev object without removed functions. -/
theorem const_object : ∃ u, Built 3 "CP" (-1) 1 u ∧ Ready u ∧ ∀ c t, freeFn u [c] t = c := by
  have hu : ∃ u, utfcInit 3 (.int 0) 0 "CP" (some (-1)) (some 1) "C++" (fun _ => 0) (fun _ => 0) = .ok u := ⟨_, rfl⟩
  obtain ⟨u, hu⟩ := hu
  have hr : Ready u := C76_ready _ _ _ _ (by decide) _ _ (by norm_num) _ _ _ u hu (by rintro l (h | h) <;> cases h)
  refine ⟨u, ⟨_, _, _, _, _, hu⟩, hr, fun c t => ?_⟩
  cases hu
  have key : ∀ l : List ℕ, l = [0] → ∑ i : Fin l.length, ([c] : List ℝ).getD i 0 *
      (UniClass.poly PolyFamily.cp).basis (-1) 1 l[i] t = c := by
    rintro _ rfl
    have : (UniClass.poly PolyFamily.cp).basis (-1) 1 0 t = 1 := by
      show (Polynomial.Chebyshev.T ℝ ((0 : ℕ) : ℤ)).eval (toBasis (-1) 1 (-1) 1 t) = _
      simp
    simp [this]
  exact key _ (by decide)

/-- **C78 does not hold** in Figure_2_1.py (and Figure_2_2.py) for all coefficients of the bounds: the bounds have different random
coefficients and can cross, and then the value is neither below the upper nor above the lower bound. -/
theorem C78_random_fails : ∃ (u : Utfc) (xil xiu xi : List ℝ) (hl hu hy : ℕ → ℝ → ℝ), Ready u ∧ Evaluates u xil hl ∧
    Evaluates u xiu hu ∧ Evaluates u xi hy ∧ ∀ x, ¬ clamp (fl hl x) (fu hu x) (hy 0 x) ≤ fu hu x ∧
      ¬ fl hl x ≤ clamp (fl hl x) (fu hu x) (hy 0 x) := by
  obtain ⟨u, -, hr, hc⟩ := const_object
  refine ⟨u, [20], [-20], [0], _, _, _, hr, evaluates_freeFn u hr _, evaluates_freeFn u hr _, evaluates_freeFn u hr _, fun x => ?_⟩
  simp only [iteratedDeriv_zero, fl, fu, hc]
  have : clamp ((20 : ℝ) - 5) (-20 + 5) 0 = 0 := by
    unfold clamp
    rw [step_pos (by norm_num), step_pos (by norm_num)]
    norm_num
  rw [this]
  norm_num

/-! ## Discrete sets -/

theorem sign_step (n : ℝ) : (-1 : ℝ) ^ step n = if 0 < n then -1 else 1 := by
  split_ifs with h
  · rw [step_pos h, Real.rpow_one]
  · rw [step_nonpos (not_lt.mp h), Real.rpow_zero]

/-- **C78**, B/Chapter_1/example_1_18.py: `u(0)² = 3` for every free function and every number `n`; both roots are taken. -/
theorem C78_two_values (h : ℕ → ℝ → ℝ) : (∀ n, twoValues h n 0 ^ 2 = 3) ∧ twoValues h 1 0 = -Real.sqrt 3 ∧ twoValues h (-1) 0 = Real.sqrt 3 := by
  have e : ∀ n, twoValues h n 0 = (if 0 < n then -1 else 1) * Real.sqrt 3 := by
    intro n
    unfold twoValues
    rw [sign_step]
    ring
  refine ⟨fun n => ?_, ?_, ?_⟩
  · rw [e, mul_pow, Real.sq_sqrt (by norm_num)]
    split_ifs <;> norm_num
  · rw [e]; norm_num
  · rw [e]; norm_num

theorem tableValue_cases (n : ℝ) : tableValue n = 1 ∨ tableValue n = 2 ∨ tableValue n = 3 := by
  have h1 : 0 ≤ n - 3 * ⌊n / 3⌋ := by
    have := Int.floor_le (n / 3)
    linarith
  have h2 : n - 3 * ⌊n / 3⌋ < 3 := by
    have := Int.lt_floor_add_one (n / 3)
    linarith
  obtain ⟨k, hk⟩ : ∃ k, k = int64 (n - 3 * ⌊n / 3⌋) := ⟨_, rfl⟩
  have hk' : k = ⌊n - 3 * ⌊n / 3⌋⌋ := by
    rw [hk]
    unfold int64
    rw [if_pos h1]
  have h3 : 0 ≤ k := by rw [hk']; exact Int.floor_nonneg.mpr h1
  have h4 : k < 3 := by rw [hk']; exact Int.floor_lt.mpr (by exact_mod_cast h2)
  unfold tableValue
  rw [← hk]
  simp only
  rw [if_pos h3]
  interval_cases k <;> simp

/-- **C78**, B/Chapter_1/example_1_19.py: `u(0)` is 1, 2 or 3 for every free function and every number `n`; each of them is taken. -/
theorem C78_three_values (h : ℕ → ℝ → ℝ) :
    (∀ n, threeValues h n 0 = 1 ∨ threeValues h n 0 = 2 ∨ threeValues h n 0 = 3) ∧
      threeValues h 0 0 = 1 ∧ threeValues h 1 0 = 2 ∧ threeValues h 2 0 = 3 := by
  have e : ∀ n, threeValues h n 0 = tableValue n := by
    intro n
    unfold threeValues
    ring
  simp only [e]
  refine ⟨tableValue_cases, ?_, ?_, ?_⟩
  · norm_num [tableValue, int64]
  · have : ⌊(1 : ℝ) / 3⌋ = 0 := by rw [Int.floor_eq_zero_iff]; constructor <;> norm_num
    unfold tableValue int64
    rw [this]
    norm_num
  · have : ⌊(2 : ℝ) / 3⌋ = 0 := by rw [Int.floor_eq_zero_iff]; constructor <;> norm_num
    unfold tableValue int64
    rw [this]
    norm_num
    rfl

/-- **C78**, B/Chapter_1/example_1_20.py: `sin(u(1)) = 0` for every free function and every number `n`; every zero of the sine is taken. `u(1)` is the
multiple of `π` with the factor `n` without the digits after the point. -/
theorem C78_multiples (h : ℕ → ℝ → ℝ) :
    (∀ n, Real.sin (multiples h n 1) = 0) ∧ (∀ y, Real.sin y = 0 → ∃ n, multiples h n 1 = y) ∧
      ∀ n : ℝ, ∃ k : ℤ, multiples h n 1 = k * Real.pi ∧ |(k : ℝ)| ≤ |n| ∧ |n - k| < 1 := by
  have e : ∀ n, multiples h n 1 = (int64 n : ℝ) * Real.pi := by
    intro n
    unfold multiples
    ring
  refine ⟨fun n => ?_, fun y hy => ?_, fun n => ⟨int64 n, e n, ?_⟩⟩
  · rw [e]
    exact Real.sin_int_mul_pi _
  · obtain ⟨k, hk⟩ := Real.sin_eq_zero_iff.mp hy
    refine ⟨k, ?_⟩
    rw [e, ← hk]
    unfold int64
    simp
  · unfold int64
    split_ifs with hn
    · have h1 := Int.floor_le n
      have h2 := Int.lt_floor_add_one n
      have h3 : (0 : ℝ) ≤ ⌊n⌋ := by exact_mod_cast Int.floor_nonneg.2 hn
      exact ⟨abs_le_abs_of_nonneg h3 h1, abs_lt.2 ⟨by linarith, by linarith⟩⟩
    · have h1 := Int.le_ceil n
      have h2 := Int.ceil_lt_add_one n
      have h3 : (⌈n⌉ : ℝ) ≤ 0 := by exact_mod_cast Int.ceil_le.2 (by push_cast; linarith)
      exact ⟨abs_le_abs_of_nonpos h3 h1, abs_lt.2 ⟨by linarith, by linarith⟩⟩

/-- **C78**, D/Appendices/Appendix_B/Example_B_5.py: the curve starts on the ellipsoid and ends on the hyperboloid of two sheets, for every free
function and all parameters. -/
theorem C78_conics (h : ℕ → ℝ → ℝ) (phi th v psi n : ℝ) :
    (conicX h phi th v psi 0 / 1) ^ 2 + (conicY h phi th v psi 0 / 0.75) ^ 2 + (conicZ h phi v n 0 / 2) ^ 2 = 1 ∧
    (conicZ h phi v n 3 / 0.3) ^ 2 - ((conicX h phi th v psi 3 - 3) / 0.1) ^ 2 - (conicY h phi th v psi 3 / 0.1) ^ 2 = 1 ∧
    (0 < n → conicZ h phi v n 3 < 0) ∧ (n ≤ 0 → 0 < conicZ h phi v n 3) := by
  have hz : conicZ h phi v n 3 = (if 0 < n then -1 else 1) * 0.3 * Real.cosh v := by
    unfold conicZ
    rw [sign_step]
    ring
  have hc := Real.cosh_pos v
  refine ⟨?_, ?_, ?_, ?_⟩
  · unfold conicX conicY conicZ
    have h1 := Real.sin_sq_add_cos_sq phi
    have h2 := Real.sin_sq_add_cos_sq th
    have : ∀ s c p q : ℝ, s ^ 2 + c ^ 2 = 1 → p ^ 2 + q ^ 2 = 1 → (1 * s * q / 1) ^ 2 + (0.75 * s * p / 0.75) ^ 2 + (2 * c / 2) ^ 2 = 1 := by
      intro s c p q e1 e2
      have : (1 * s * q / 1) ^ 2 + (0.75 * s * p / 0.75) ^ 2 + (2 * c / 2) ^ 2 = s ^ 2 * (p ^ 2 + q ^ 2) + c ^ 2 := by ring
      rw [this, e2]
      linarith
    refine Eq.trans ?_ (this _ _ _ _ h1 h2)
    ring
  · rw [hz]
    unfold conicX conicY
    have h1 := Real.cosh_sq v
    have h2 := Real.sin_sq_add_cos_sq psi
    have e1 : (((if 0 < n then -1 else 1) * 0.3 * Real.cosh v) / 0.3 : ℝ) ^ 2 = Real.cosh v ^ 2 := by
      split_ifs <;> ring
    rw [e1, h1]
    have : Real.sinh v ^ 2 * (Real.sin psi ^ 2 + Real.cos psi ^ 2) = Real.sinh v ^ 2 := by rw [h2, mul_one]
    linear_combination -this
  · intro hn
    rw [hz, if_pos hn]
    linarith
  · intro hn
    rw [hz, if_neg (not_lt.mpr hn)]
    linarith

/-! ## The box -/

/-- The keep-out interval of B/Chapter_1/Problem_6.py 31–32, the same for both coordinates. -/
noncomputable abbrev half : ℝ × ℝ := (-0.5, 0.5)

theorem boxX_outside {X Y : ℝ} (h : ¬ (|X| < 0.5 ∧ |Y| < 0.5)) : boxX half half X Y = X := by
  have hz : ∀ a b c d e f g i : ℝ, a * b * c * d = 0 → a * b * e * f = 0 → g + (i - g) * (a * b * c * d) + (0.5 - g) * (a * b * e * f) = g := by
    intro a b c d e f g i h1 h2
    rw [h1, h2]
    ring
  unfold boxX half Phi1 Phi2 Phi3
  apply hz
  · by_cases hy : |Y| < 0.5
    · have hx : ¬ |X| < 0.5 := fun hx => h ⟨hx, hy⟩
      rw [abs_lt, not_and_or, not_lt, not_lt] at hx
      rcases hx with hx | hx
      · rw [step_nonpos (x := X - (-0.5)) (by linarith), mul_zero]
      · rw [step_nonpos (x := (0.5 + -0.5) / 2 - X) (by norm_num at hx ⊢; linarith), mul_zero, zero_mul]
    · rw [abs_lt, not_and_or, not_lt, not_lt] at hy
      rcases hy with hy | hy
      · rw [step_nonpos (x := Y - (-0.5)) (by linarith)]
        ring
      · rw [step_nonpos (x := 0.5 - Y) (by linarith)]
        ring
  · by_cases hy : |Y| < 0.5
    · have hx : ¬ |X| < 0.5 := fun hx => h ⟨hx, hy⟩
      rw [abs_lt, not_and_or, not_lt, not_lt] at hx
      rcases hx with hx | hx
      · rw [step_nonpos (x := (-0.5 + -(-0.5)) / 2 - -X) (by norm_num at hx ⊢; linarith), mul_zero, zero_mul]
      · rw [step_nonpos (x := 0.5 - X) (by linarith), mul_zero]
    · rw [abs_lt, not_and_or, not_lt, not_lt] at hy
      rcases hy with hy | hy
      · rw [step_nonpos (x := Y - (-0.5)) (by linarith)]
        ring
      · rw [step_nonpos (x := 0.5 - Y) (by linarith)]
        ring

theorem boxX_inside {X Y : ℝ} (hx : |X| < 0.5) (hy : |Y| < 0.5) :
    boxX half half X Y = if X < 0 then -0.5 else if 0 < X then 0.5 else 0 := by
  rw [abs_lt] at hx hy
  unfold boxX half Phi1 Phi2 Phi3
  simp only
  rw [step_pos (x := 0.5 - Y) (by linarith), step_pos (x := Y - (-0.5)) (by linarith), step_pos (x := X - (-0.5)) (by linarith),
    step_pos (x := 0.5 - X) (by linarith)]
  have e1 : (0.5 + -0.5) / 2 - X = -X := by norm_num
  have e2 : (-0.5 + -(-0.5)) / 2 - -X = X := by norm_num
  rw [e1, e2]
  rcases lt_trichotomy X 0 with h | h | h
  · rw [step_pos (x := -X) (by linarith), step_nonpos h.le, if_pos h]
    ring
  · subst h
    rw [step_nonpos (x := -0) (by norm_num), step_nonpos le_rfl]
    norm_num
  · rw [step_nonpos (x := -X) (by linarith), step_pos h, if_neg h.not_gt, if_pos h]
    ring

theorem boxY_eq (b : ℝ × ℝ) (X Y : ℝ) : boxY b b X Y = boxX b b Y X := rfl

/-- **C78**, B/Chapter_1/Problem_6.py: a point of the path is outside the box, unless both `xhat` and `yhat` vanish there; and points outside
the box are not moved. (Missing: the centre, see `C78_box_fails`.) -/
theorem C78_box_partial (X Y : ℝ) :
    (¬ (X = 0 ∧ Y = 0) → ¬ (|boxX half half X Y| < 0.5 ∧ |boxY half half X Y| < 0.5)) ∧
      (¬ (|X| < 0.5 ∧ |Y| < 0.5) → boxX half half X Y = X ∧ boxY half half X Y = Y) := by
  have hout : ¬ (|X| < 0.5 ∧ |Y| < 0.5) → boxX half half X Y = X ∧ boxY half half X Y = Y := by
    intro h
    rw [boxY_eq]
    exact ⟨boxX_outside h, boxX_outside fun h' => h h'.symm⟩
  refine ⟨fun h => ?_, hout⟩
  by_cases hi : |X| < 0.5 ∧ |Y| < 0.5
  · rw [boxY_eq, boxX_inside hi.1 hi.2, boxX_inside hi.2 hi.1]
    rintro ⟨h1, h2⟩
    apply h
    constructor
    · by_contra hne
      rcases lt_or_gt_of_ne hne with h | h
      · rw [if_pos h] at h1
        norm_num at h1
      · rw [if_neg h.not_gt, if_pos h] at h1
        norm_num at h1
    · by_contra hne
      rcases lt_or_gt_of_ne hne with h | h
      · rw [if_pos h] at h2
        norm_num at h2
      · rw [if_neg h.not_gt, if_pos h] at h2
        norm_num at h2
  · obtain ⟨e1, e2⟩ := hout hi
    rw [e1, e2]
    exact hi

theorem boxHat_ends {N : ℕ} (hN : 2 ≤ N) {basis : String} {u : Utfc} (hu : Built N basis 0 1 u) (h : ℕ → ℝ → ℝ) (a b : ℝ) :
    boxHat h u.x a b 0 = a ∧ boxHat h u.x a b 1 = b := by
  obtain ⟨h1, h2⟩ := built_points hN one_pos hu
  unfold boxHat
  rw [h1, h2]
  constructor <;> ring

/-- **C78**, Problem_6.py: the path starts in `(-1, -1)` and ends in `(1, 1)`. -/
theorem C78_box_ends (N : ℕ) (hN : 2 ≤ N) (basis : String) (u : Utfc) (hu : Built N basis 0 1 u) (hx hy : ℕ → ℝ → ℝ) :
    (∀ t X Y, X = boxHat hx u.x (-1) 1 t → Y = boxHat hy u.x (-1) 1 t →
      (t = 0 → boxX half half X Y = -1 ∧ boxY half half X Y = -1) ∧ (t = 1 → boxX half half X Y = 1 ∧ boxY half half X Y = 1)) := by
  rintro t X Y rfl rfl
  obtain ⟨a, b⟩ := boxHat_ends hN hu hx (-1) 1
  obtain ⟨c, d⟩ := boxHat_ends hN hu hy (-1) 1
  constructor
  · rintro rfl
    rw [a, c]
    exact (C78_box_partial (-1) (-1)).2 (by norm_num)
  · rintro rfl
    rw [b, d]
    exact (C78_box_partial 1 1).2 (by norm_num)

/-- **C78 does not hold** in Problem_6.py: whenever the two coordinates have the same coefficients, the path passes through the centre of the
box, for every basis object. -/
theorem C78_box_fails (N : ℕ) (hN : 2 ≤ N) (basis : String) (u : Utfc) (hu : Built N basis 0 1 u) (hr : Ready u) (xi : List ℝ)
    (h : ℕ → ℝ → ℝ) (hh : Evaluates u xi h) :
    ∃ t, 0 < t ∧ t < 1 ∧ boxX half half (boxHat h u.x (-1) 1 t) (boxHat h u.x (-1) 1 t) = 0 ∧
      boxY half half (boxHat h u.x (-1) 1 t) (boxHat h u.x (-1) 1 t) = 0 := by
  obtain ⟨a, b⟩ := boxHat_ends hN hu h (-1) 1
  have hc : ContinuousOn (boxHat h u.x (-1) 1) (Set.Icc 0 1) := by
    have := (evaluates_fn hr hh).1.continuous
    unfold boxHat
    fun_prop
  have := intermediate_value_Ioo zero_le_one hc
  rw [a, b] at this
  obtain ⟨t, ht, e⟩ := this (show (0 : ℝ) ∈ Set.Ioo (-1) 1 by constructor <;> norm_num)
  refine ⟨t, ht.1, ht.2, ?_, ?_⟩
  · rw [e, boxX_inside (by norm_num) (by norm_num)]
    simp
  · rw [e, boxY_eq, boxX_inside (by norm_num) (by norm_num)]
    simp

/-- A point inside the box is moved into a corner, a point beside it stays. -/
example : boxX half half 0.1 (-0.2) = 0.5 ∧ boxY half half 0.1 (-0.2) = -0.5 ∧ boxX half half 0.7 0.1 = 0.7 := by
  rw [boxY_eq, boxX_inside (by norm_num [abs_lt]) (by norm_num [abs_lt]), boxX_inside (by norm_num [abs_lt]) (by norm_num [abs_lt]),
    boxX_outside (by norm_num [abs_lt])]
  norm_num

end Verif.Props
