import Verif.Model.StepExpr
import Verif.Props.Step
import Mathlib.Analysis.Calculus.Deriv.Abs
import Mathlib.Analysis.Calculus.IteratedDeriv.Defs
import Mathlib.Analysis.SpecialFunctions.Trigonometric.Deriv

/-!
# C121: derivatives of expressions that contain `step`

Python: /repo/src/tfc/utils/TFCUtils.py 1731–1746 and 75–116, /repo/tests/test_step.py 18–47.
-/

namespace Verif.Props

open Verif.Model.Step

/-- Expressions in one variable with `step`. -/
inductive StepExpr
  | var | const (c : ℝ)
  | add (a b : StepExpr) | mul (a b : StepExpr) | pow (a : StepExpr) (n : ℕ)
  | sin (a : StepExpr) | cos (a : StepExpr) | neg (a : StepExpr) | step (a : StepExpr)

namespace StepExpr

/-- The function a program computes from such an expression. -/
def traced : StepExpr → Traced
  | var => fun _ _ x => x
  | const c => fun _ N _ => N.const c
  | add a b => fun α N x => N.add (a.traced α N x) (b.traced α N x)
  | mul a b => fun α N x => N.mul (a.traced α N x) (b.traced α N x)
  | pow a n => fun α N x => N.pow (a.traced α N x) n
  | sin a => fun α N x => N.sin (a.traced α N x)
  | cos a => fun α N x => N.cos (a.traced α N x)
  | neg a => fun α N x => N.neg (a.traced α N x)
  | step a => fun α N x => step1 N (a.traced α N x)

/-- The mathematical function: `step a` is `1` where `a > 0` and `0` elsewhere. -/
noncomputable def value : StepExpr → ℝ → ℝ
  | var, x => x
  | const c, _ => c
  | add a b, x => a.value x + b.value x
  | mul a b, x => a.value x * b.value x
  | pow a n, x => a.value x ^ n
  | sin a, x => Real.sin (a.value x)
  | cos a, x => Real.cos (a.value x)
  | neg a, x => -a.value x
  | step a, x => if 0 < a.value x then 1 else 0

/-- The smooth function that has, in place of every `step`, the value this has at the point `p`. -/
noncomputable def frozen (p : ℝ) : StepExpr → ℝ → ℝ
  | var, x => x
  | const c, _ => c
  | add a b, x => a.frozen p x + b.frozen p x
  | mul a b, x => a.frozen p x * b.frozen p x
  | pow a n, x => a.frozen p x ^ n
  | sin a, x => Real.sin (a.frozen p x)
  | cos a, x => Real.cos (a.frozen p x)
  | neg a, x => -a.frozen p x
  | step a, _ => if 0 < a.value p then 1 else 0

/-- No argument of `step` is zero at the point `p`. -/
def Off (p : ℝ) : StepExpr → Prop
  | var => True
  | const _ => True
  | add a b => a.Off p ∧ b.Off p
  | mul a b => a.Off p ∧ b.Off p
  | pow a _ => a.Off p
  | sin a => a.Off p
  | cos a => a.Off p
  | neg a => a.Off p
  | step a => a.Off p ∧ a.value p ≠ 0

/-- The tangent of `x ** n`. -/
def powD (a a' : StepExpr) : ℕ → StepExpr
  | 0 => const 0
  | n + 1 => add (mul (powD a a' n) a) (mul (pow a n) a')

/-- The expression of the tangent. -/
def D : StepExpr → StepExpr
  | var => const 1
  | const _ => const 0
  | add a b => add a.D b.D
  | mul a b => add (mul a.D b) (mul a b.D)
  | pow a n => powD a a.D n
  | sin a => mul a.D (cos a)
  | cos a => neg (mul a.D (sin a))
  | neg a => neg a.D
  | step _ => const 0

theorem pow_dual {α : Type} (N : Arith α) (a a' : StepExpr) (x : α) (n : ℕ) :
    N.dual.pow (a.traced α N x, a'.traced α N x) n = (N.pow (a.traced α N x) n, (powD a a' n).traced α N x) := by
  induction n with
  | zero => rfl
  | succ n ih =>
    change N.dual.mul (N.dual.pow _ n) _ = _
    rw [ih]
    rfl

theorem step1_dual {α : Type} (N : Arith α) (x : α × α) : step1 N.dual x = (step1 N x.1, N.const 0) := by
  have h1 : N.dual.numbers.lt x N.dual.numbers.zero = N.numbers.lt x.1 N.numbers.zero := rfl
  have h2 : N.dual.numbers.lt N.dual.numbers.zero x = N.numbers.lt N.numbers.zero x.1 := rfl
  simp only [step1, heaviside, h1, h2]
  cases N.numbers.lt x.1 N.numbers.zero <;> cases N.numbers.lt N.numbers.zero x.1 <;> rfl

theorem traced_dual (e : StepExpr) {α : Type} (N : Arith α) (x : α) :
    e.traced (α × α) N.dual (x, N.const 1) = (e.traced α N x, e.D.traced α N x) := by
  induction e with
  | var => rfl
  | const c => rfl
  | add a b iha ihb =>
    change N.dual.add (a.traced _ N.dual _) (b.traced _ N.dual _) = _
    rw [iha, ihb]
    rfl
  | mul a b iha ihb =>
    change N.dual.mul (a.traced _ N.dual _) (b.traced _ N.dual _) = _
    rw [iha, ihb]
    rfl
  | pow a n iha =>
    change N.dual.pow (a.traced _ N.dual _) n = _
    rw [iha]
    exact pow_dual N a a.D x n
  | sin a iha =>
    change N.dual.sin (a.traced _ N.dual _) = _
    rw [iha]
    rfl
  | cos a iha =>
    change N.dual.cos (a.traced _ N.dual _) = _
    rw [iha]
    rfl
  | neg a iha =>
    change N.dual.neg (a.traced _ N.dual _) = _
    rw [iha]
    rfl
  | step a iha =>
    change step1 N.dual (a.traced _ N.dual _) = _
    rw [iha]
    exact step1_dual N _

theorem egrad_traced (e : StepExpr) : egrad e.traced = e.D.traced := by
  funext α N x
  unfold egrad
  rw [traced_dual]

theorem egrad_iterate (e : StepExpr) (n : ℕ) : egrad^[n] e.traced = (D^[n] e).traced := by
  induction n generalizing e with
  | zero => rfl
  | succ n ih => rw [Function.iterate_succ_apply, Function.iterate_succ_apply, egrad_traced, ih]

theorem step1_real (x : ℝ) : step1 realArith x = if 0 < x then 1 else 0 := by
  have h := C52_value [x]
  simp only [Verif.Model.Step.step, List.map_cons, List.map_nil, List.cons.injEq, and_true] at h
  exact h

theorem pow_real (x : ℝ) (n : ℕ) : realArith.pow x n = x ^ n := by
  induction n with
  | zero => simp [Arith.pow, realArith]
  | succ n ih =>
    rw [pow_succ, ← ih]
    rfl

theorem traced_real (e : StepExpr) (x : ℝ) : e.traced ℝ realArith x = e.value x := by
  induction e with
  | var => rfl
  | const c => rfl
  | add a b iha ihb => exact congrArg₂ (· + ·) iha ihb
  | mul a b iha ihb => exact congrArg₂ (· * ·) iha ihb
  | pow a n iha =>
    change realArith.pow _ n = _
    rw [iha, pow_real]
    rfl
  | sin a iha => exact congrArg Real.sin iha
  | cos a iha => exact congrArg Real.cos iha
  | neg a iha => exact congrArg (- ·) iha
  | step a iha =>
    change step1 realArith _ = _
    rw [iha, step1_real]
    rfl

theorem frozen_self (e : StepExpr) (p : ℝ) : e.frozen p p = e.value p := by
  induction e with
  | var => rfl
  | const c => rfl
  | add a b iha ihb => exact congrArg₂ (· + ·) iha ihb
  | mul a b iha ihb => exact congrArg₂ (· * ·) iha ihb
  | pow a n iha => exact congrArg (· ^ n) iha
  | sin a iha => exact congrArg Real.sin iha
  | cos a iha => exact congrArg Real.cos iha
  | neg a iha => exact congrArg (- ·) iha
  | step a iha => rfl

theorem powD_frozen (a a' : StepExpr) (p x : ℝ) (n : ℕ) :
    (powD a a' n).frozen p x = n * a.frozen p x ^ (n - 1) * a'.frozen p x := by
  induction n with
  | zero => simp [powD, frozen]
  | succ n ih =>
    simp only [powD, frozen]
    rw [ih]
    cases n with
    | zero => simp
    | succ n =>
      simp only [Nat.add_sub_cancel]
      push_cast
      ring

theorem hasDerivAt_frozen (e : StepExpr) (p x : ℝ) : HasDerivAt (e.frozen p) (e.D.frozen p x) x := by
  induction e with
  | var => exact hasDerivAt_id x
  | const c => exact hasDerivAt_const x c
  | add a b iha ihb => exact iha.fun_add ihb
  | mul a b iha ihb => exact iha.fun_mul ihb
  | pow a n iha =>
    change HasDerivAt _ ((powD a a.D n).frozen p x) x
    rw [powD_frozen]
    exact iha.fun_pow n
  | sin a iha => exact (iha.sin).congr_deriv (mul_comm _ _)
  | cos a iha => exact (iha.cos).congr_deriv (by simp only [D, frozen]; ring)
  | neg a iha => exact iha.fun_neg
  | step a iha => exact hasDerivAt_const x _

theorem iteratedDeriv_frozen (e : StepExpr) (p : ℝ) (n : ℕ) : iteratedDeriv n (e.frozen p) = (D^[n] e).frozen p := by
  induction n generalizing e with
  | zero => rfl
  | succ n ih =>
    rw [iteratedDeriv_succ', Function.iterate_succ_apply, ← ih]
    congr 1
    funext x
    exact (hasDerivAt_frozen e p x).deriv

theorem continuous_frozen (e : StepExpr) (p : ℝ) : Continuous (e.frozen p) :=
  continuous_iff_continuousAt.2 fun x => (hasDerivAt_frozen e p x).continuousAt

/-- Off the zeros of the arguments of `step` the frozen function is the function, near the point. -/
theorem eventually_frozen (e : StepExpr) (p : ℝ) (h : e.Off p) : e.value =ᶠ[nhds p] e.frozen p := by
  induction e with
  | var => exact Filter.Eventually.of_forall fun _ => rfl
  | const c => exact Filter.Eventually.of_forall fun _ => rfl
  | add a b iha ihb => exact ((iha h.1).and (ihb h.2)).mono fun x hx => congrArg₂ (· + ·) hx.1 hx.2
  | mul a b iha ihb => exact ((iha h.1).and (ihb h.2)).mono fun x hx => congrArg₂ (· * ·) hx.1 hx.2
  | pow a n iha => exact (iha h).mono fun x hx => congrArg (· ^ n) hx
  | sin a iha => exact (iha h).mono fun x hx => congrArg Real.sin hx
  | cos a iha => exact (iha h).mono fun x hx => congrArg Real.cos hx
  | neg a iha => exact (iha h).mono fun x hx => congrArg (- ·) hx
  | step a iha =>
    have hc := (continuous_frozen a p).continuousAt (x := p)
    have h2 : a.frozen p p ≠ 0 := by
      rw [frozen_self]
      exact h.2
    rcases lt_or_gt_of_ne h2 with hneg | hpos
    · filter_upwards [iha h.1, hc.eventually (gt_mem_nhds hneg)] with x hx hx'
      change (if 0 < a.value x then (1 : ℝ) else 0) = if 0 < a.value p then 1 else 0
      rw [hx, ← frozen_self a p, if_neg (not_lt.2 hx'.le), if_neg (not_lt.2 hneg.le)]
    · filter_upwards [iha h.1, hc.eventually (lt_mem_nhds hpos)] with x hx hx'
      change (if 0 < a.value x then (1 : ℝ) else 0) = if 0 < a.value p then 1 else 0
      rw [hx, ← frozen_self a p, if_pos hx', if_pos hpos]

end StepExpr

/-- **C121**: for every expression with `step`, every order and every point, nested `egrad` returns the derivative of the smooth function that has every `step` replaced by its value at the point. -/
theorem C121_frozen (e : StepExpr) (n : ℕ) (p : ℝ) : (egrad^[n] e.traced) ℝ realArith p = iteratedDeriv n (e.frozen p) p := by
  rw [StepExpr.egrad_iterate, StepExpr.traced_real, StepExpr.iteratedDeriv_frozen, StepExpr.frozen_self]

/-- **C121**, the derivative itself, partly: where no argument of a `step` is zero, nested `egrad` returns the derivative of the function. Missing: the zeros of the arguments, see `C121_fails`. -/
theorem C121_derivative_partial (e : StepExpr) (n : ℕ) (p : ℝ) (h : e.Off p) :
    (egrad^[n] e.traced) ℝ realArith p = iteratedDeriv n e.value p := by
  rw [C121_frozen]
  have := e.eventually_frozen p h
  exact (Filter.EventuallyEq.iteratedDeriv_eq n this).symm

/-- `g+(ub-g)*step(g-ub)+(lb-g)*step(lb-g)`, the expression of Appendix_C.py 27. -/
def saturated (g ub lb : StepExpr) : StepExpr :=
  .add (.add g (.mul (.add ub (.neg g)) (.step (.add g (.neg ub))))) (.mul (.add lb (.neg g)) (.step (.add lb (.neg g))))

/-- **C121**, the expressions with bounds: the value is clipped, and the derivative of any order that `egrad` returns is the one of the upper bound above it, of the lower bound below it, and of the free expression between them and on them. -/
theorem C121_saturated (g ub lb : StepExpr) (n : ℕ) (p : ℝ) (h : lb.value p ≤ ub.value p) :
    (saturated g ub lb).value p = max (lb.value p) (min (ub.value p) (g.value p)) ∧
    (ub.value p < g.value p → (egrad^[n] (saturated g ub lb).traced) ℝ realArith p = (egrad^[n] ub.traced) ℝ realArith p) ∧
    (g.value p < lb.value p → (egrad^[n] (saturated g ub lb).traced) ℝ realArith p = (egrad^[n] lb.traced) ℝ realArith p) ∧
    (lb.value p ≤ g.value p → g.value p ≤ ub.value p →
      (egrad^[n] (saturated g ub lb).traced) ℝ realArith p = (egrad^[n] g.traced) ℝ realArith p) := by
  have hv : (saturated g ub lb).value p = g.value p + (ub.value p + -g.value p) * (if 0 < g.value p + -ub.value p then 1 else 0) +
      (lb.value p + -g.value p) * (if 0 < lb.value p + -g.value p then 1 else 0) := rfl
  have hf : (saturated g ub lb).frozen p = fun x => g.frozen p x + (ub.frozen p x + -g.frozen p x) *
      (if 0 < g.value p + -ub.value p then 1 else 0) + (lb.frozen p x + -g.frozen p x) * (if 0 < lb.value p + -g.value p then 1 else 0) := rfl
  refine ⟨?_, fun h1 => ?_, fun h1 => ?_, fun h1 h2 => ?_⟩
  · rw [hv]
    rcases lt_or_ge (ub.value p) (g.value p) with h1 | h1
    · rw [if_pos (by linarith), if_neg (by linarith), min_eq_left h1.le, max_eq_right h]
      ring
    · rw [if_neg (by linarith), min_eq_right h1]
      rcases lt_or_ge (g.value p) (lb.value p) with h2 | h2
      · rw [if_pos (by linarith), max_eq_left h2.le]
        ring
      · rw [if_neg (by linarith), max_eq_right h2]
        ring
  · rw [C121_frozen, C121_frozen, hf, if_pos (by linarith), if_neg (by linarith)]
    congr 1
    funext x
    ring
  · rw [C121_frozen, C121_frozen, hf, if_neg (by linarith), if_pos (by linarith)]
    congr 1
    funext x
    ring
  · rw [C121_frozen, C121_frozen, hf, if_neg (by linarith), if_neg (by linarith)]
    congr 1
    funext x
    ring

/-- `lambda A: A*step(A)+A` as an expression. -/
def rampExpr : StepExpr := .add (.mul .var (.step .var)) .var

/-- `lambda A: A**3*step(A)+np.sin(A)*step(A)` as an expression. -/
def cubicExpr : StepExpr := .add (.mul (.pow .var 3) (.step .var)) (.mul (.sin .var) (.step .var))

/-- The claim fails at a kink: `A*step(A)+A` has no derivative at `0`, but `egrad` returns `1` there. -/
theorem C121_fails : egrad fRamp ℝ realArith 0 = 1 ∧ ¬ DifferentiableAt ℝ rampExpr.value 0 := by
  constructor
  · have h := C121_frozen rampExpr 1 0
    have e : rampExpr.frozen 0 = fun x => x * 0 + x := by
      funext x
      simp [rampExpr, StepExpr.frozen, StepExpr.value]
    rw [e, iteratedDeriv_one] at h
    have h2 : deriv (fun x : ℝ => x * 0 + x) 0 = 1 := by simp
    exact h.trans h2
  · intro h
    have e : rampExpr.value = fun x => x * (if 0 < x then 1 else 0) + x := rfl
    rw [e] at h
    have h1 : DifferentiableAt ℝ (fun x : ℝ => |x|) 0 := by
      have : (fun x : ℝ => |x|) = fun x => 2 * (x * (if 0 < x then 1 else 0) + x) - 3 * x := by
        funext x
        rcases lt_trichotomy x 0 with hx | hx | hx
        · rw [if_neg (not_lt.2 hx.le), abs_of_neg hx]
          ring
        · simp [hx]
        · rw [if_pos hx, abs_of_pos hx]
          ring
      rw [this]
      fun_prop
    exact not_differentiableAt_abs_zero h1

/-- **C121**, the test: for every array, the first derivatives of `step(A)` and `A*step(A)+A` and the second derivative of `A**3*step(A)+np.sin(A)*step(A)` are the arrays the test compares with, `0`, `step(A)+1` and `6*A*step(A)-np.sin(A)*step(A)`. -/
theorem C121_test (A : List ℝ) :
    onArray fStep A = A.map (fun a => if 0 < a then 1 else 0) ∧
    onArray (egrad fStep) A = A.map (fun _ => 0) ∧
    onArray (egrad fRamp) A = A.map (fun a => (if 0 < a then 1 else 0) + 1) ∧
    onArray (egrad (egrad fCubic)) A = A.map (fun a => 6 * a * (if 0 < a then 1 else 0) - Real.sin a * (if 0 < a then 1 else 0)) := by
  refine ⟨?_, ?_, ?_, ?_⟩ <;> refine List.map_congr_left fun a _ => ?_
  · exact StepExpr.step1_real a
  · have h := C121_frozen (.step .var) 1 a
    have e : (StepExpr.step .var).frozen a = fun _ => if 0 < a then 1 else 0 := rfl
    rw [e, iteratedDeriv_one, deriv_const] at h
    exact h
  · have h := C121_frozen rampExpr 1 a
    rw [StepExpr.iteratedDeriv_frozen, StepExpr.frozen_self] at h
    refine h.trans ?_
    by_cases ha : 0 < a <;> simp [rampExpr, StepExpr.D, StepExpr.value, ha]
  · have h := C121_frozen cubicExpr 2 a
    rw [StepExpr.iteratedDeriv_frozen, StepExpr.frozen_self] at h
    refine h.trans ?_
    by_cases ha : 0 < a
    · simp [cubicExpr, StepExpr.D, StepExpr.powD, StepExpr.value, ha]
      ring
    · simp [cubicExpr, StepExpr.D, StepExpr.powD, StepExpr.value, ha]

/-- Non-vacuity of `C121_derivative_partial`: the function of the test at `2`, and a step of a step. -/
example : cubicExpr.Off 2 ∧ (StepExpr.step (.add (.step (.cos .var)) (.const (-2)))).Off 0 := by
  simp [cubicExpr, StepExpr.Off, StepExpr.value]
  norm_num

end Verif.Props
