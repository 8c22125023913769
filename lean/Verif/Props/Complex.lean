import Verif.Model.Complex
import Mathlib.Analysis.SpecialFunctions.ExpDeriv
import Mathlib.Analysis.SpecialFunctions.Trigonometric.Deriv
import Mathlib.Analysis.Calculus.MeanValue

/-! # Programs with a complex variable (C82) -/

namespace Verif.Props

open Verif Verif.Py Verif.Model Verif.Model.Cplx Complex

theorem deriv_phi (a b c : ℂ) (x : ℂ) : HasDerivAt (fun x : ℂ => a * x ^ 2 + b * x + c) (2 * a * x + b) x := by
  have h := (((hasDerivAt_pow 2 x).const_mul a).add ((hasDerivAt_id' x).const_mul b)).add_const c
  refine h.congr_deriv ?_
  norm_num
  ring

/-- **C82**: for every free function with a complex derivative at 1 the constrained expression of example_B_2.py has
`u(0.5j) = 1 + πj`, `u(1) = u(j)` and `u(2 + j) + u'(1) = 2j`. -/
theorem C82_constraints (g : ℂ → ℂ) (hg : DifferentiableAt ℂ g 1) :
    cxU g (0.5 * I) = 1 + Real.pi * I ∧ cxU g 1 = cxU g I ∧ cxU g (2 + I) + deriv (cxU g) 1 = 2 * I := by
  have hI := I_mul_I
  have hI2 : I ^ 2 = -1 := I_sq
  have hI3 : I ^ 3 = -I := by rw [pow_succ, hI2]; ring
  refine ⟨?_, ?_, ?_⟩
  · have e1 : phi1 (0.5 * I) = 1 := by
      unfold phi1
      ring_nf
      rw [hI3, hI2]
      ring
    have e2 : phi2 (0.5 * I) = 0 := by
      unfold phi2
      ring_nf
      rw [hI3, hI2]
      ring
    have e3 : phi3 (0.5 * I) = 0 := by
      unfold phi3
      ring_nf
      rw [hI3, hI2]
      ring
    unfold cxU
    rw [e1, e2, e3]
    ring
  · have e1 : phi1 1 = phi1 I := by
      unfold phi1
      ring_nf
      rw [hI3, hI2]
      ring
    have e2 : phi2 1 = phi2 I - 1 := by
      unfold phi2
      ring_nf
      rw [hI3, hI2]
      ring
    have e3 : phi3 1 = phi3 I := by
      unfold phi3
      ring_nf
      rw [hI3, hI2]
      ring
    unfold cxU
    rw [e1, e2, e3]
    ring
  · obtain ⟨A, hA⟩ : ∃ A, A = 1 + Real.pi * I - g (0.5 * I) := ⟨_, rfl⟩
    obtain ⟨B, hB⟩ : ∃ B, B = g 1 - g I := ⟨_, rfl⟩
    obtain ⟨C, hC⟩ : ∃ C, C = 2 * I - g (2 + I) - deriv g 1 := ⟨_, rfl⟩
    have d1 : HasDerivAt phi1 ((2 * (-44 + 8 * I) + (52 + 36 * I)) / 125) 1 := by
      have := (deriv_phi (-44 + 8 * I) (52 + 36 * I) (132 - 24 * I) 1).div_const 125
      rw [mul_one] at this
      exact this
    have d2 : HasDerivAt phi2 (2 * ((69 + 67 * I) / 125) - (129 + 397 * I) / 250) 1 := by
      have := deriv_phi ((69 + 67 * I) / 125) (-((129 + 397 * I) / 250)) ((-82 + 49 * I) / 125) 1
      rw [mul_one, ← sub_eq_add_neg] at this
      have e : phi2 = fun x => (69 + 67 * I) / 125 * x ^ 2 + -((129 + 397 * I) / 250) * x + (-82 + 49 * I) / 125 := by
        funext x
        unfold phi2
        ring
      rw [e]
      exact this
    have d3 : HasDerivAt phi3 ((2 * (44 - 8 * I) - (52 + 36 * I)) / 125) 1 := by
      have := (deriv_phi (44 - 8 * I) (-(52 + 36 * I)) (-7 + 24 * I) 1).div_const 125
      rw [mul_one, ← sub_eq_add_neg] at this
      have e : phi3 = fun x => ((44 - 8 * I) * x ^ 2 + -(52 + 36 * I) * x + (-7 + 24 * I)) / 125 := by
        funext x
        unfold phi3
        ring
      rw [e]
      exact this
    have hd : HasDerivAt (cxU g) (deriv g 1 + (2 * (-44 + 8 * I) + (52 + 36 * I)) / 125 * A
        + (2 * ((69 + 67 * I) / 125) - (129 + 397 * I) / 250) * B + (2 * (44 - 8 * I) - (52 + 36 * I)) / 125 * C) 1 := by
      have := ((hg.hasDerivAt.add (d1.mul_const A)).add (d2.mul_const B)).add (d3.mul_const C)
      rw [hA, hB, hC] at this ⊢
      exact this
    rw [hd.deriv]
    unfold cxU
    rw [← hA, ← hB, ← hC]
    have e1 : phi1 (2 + I) + (2 * (-44 + 8 * I) + (52 + 36 * I)) / 125 = 0 := by
      unfold phi1
      ring_nf
      rw [hI3, hI2]
      ring
    have e2 : phi2 (2 + I) + (2 * ((69 + 67 * I) / 125) - (129 + 397 * I) / 250) = 0 := by
      unfold phi2
      ring_nf
      rw [hI3, hI2]
      ring
    have e3 : phi3 (2 + I) + (2 * (44 - 8 * I) - (52 + 36 * I)) / 125 = 1 := by
      unfold phi3
      ring_nf
      rw [hI3, hI2]
      ring
    linear_combination e1 * A + e2 * B + e3 * C + hC

/-- The free function of the program. -/
example : cxU cxG (0.5 * I) = 1 + Real.pi * I ∧ cxU cxG 1 = cxU cxG I ∧ cxU cxG (2 + I) + deriv (cxU cxG) 1 = 2 * I := by
  apply C82_constraints
  unfold cxG
  fun_prop

/-- **C82**, tests/test_complex_ODE.py: every candidate meets the condition at `1 + j`, for every free function. -/
theorem C82_ode_condition (g : ℂ → ℂ) : odeU g (1 + I) = 5 := by
  unfold odeU
  ring

/-- **C82**, tests/test_complex_ODE.py: on the disk of the test (radius 1 around `1 + j`) a candidate whose residual `u' - u` vanishes is the
reference solution; and the reference solution is one. -/
theorem C82_ode_solution (g : ℂ → ℂ) (hg : DifferentiableOn ℂ g (Metric.ball (1 + I) 1)) :
    (∀ x ∈ Metric.ball (1 + I) 1, deriv (odeU g) x - odeU g x = 0) ↔ ∀ x ∈ Metric.ball (1 + I) 1, odeU g x = odeSoln x := by
  have hball : (1 + I) ∈ Metric.ball (1 + I) (1 : ℝ) := Metric.mem_ball_self one_pos
  have hu : ∀ x ∈ Metric.ball (1 + I) (1 : ℝ), DifferentiableAt ℂ (odeU g) x := by
    intro x hx
    have := (hg x hx).differentiableAt (Metric.isOpen_ball.mem_nhds hx)
    unfold odeU
    fun_prop
  have hs : ∀ x, HasDerivAt odeSoln (odeSoln x) x := by
    intro x
    have := ((Complex.hasDerivAt_exp x).const_mul 5).div_const (Complex.exp (1 + I))
    exact this
  constructor
  · intro h x hx
    have hf : ∀ y ∈ Metric.ball (1 + I) (1 : ℝ), HasDerivAt (fun z => odeU g z * Complex.exp (-z)) 0 y := by
      intro y hy
      have h1 := (hu y hy).hasDerivAt
      rw [sub_eq_zero.mp (h y hy)] at h1
      have h2 : HasDerivAt (fun z : ℂ => Complex.exp (-z)) (-Complex.exp (-y)) y := by
        have := (Complex.hasDerivAt_exp (-y)).comp y (hasDerivAt_neg y)
        exact this.congr_deriv (by ring)
      have := h1.mul h2
      exact this.congr_deriv (by ring)
    have hc := (convex_ball (1 + I) (1 : ℝ)).is_const_of_fderivWithin_eq_zero (𝕜 := ℂ) (f := fun z => odeU g z * Complex.exp (-z))
      (fun y hy => (hf y hy).differentiableAt.differentiableWithinAt) (fun y hy => by
        rw [fderivWithin_of_isOpen Metric.isOpen_ball hy, (hf y hy).hasFDerivAt.fderiv]
        ext
        simp) hx hball
    simp only [C82_ode_condition] at hc
    unfold odeSoln
    have e1 : Complex.exp (-x) * Complex.exp x = 1 := by rw [← Complex.exp_add]; simp
    have e2 : Complex.exp (-(1 + I)) * Complex.exp (1 + I) = 1 := by rw [← Complex.exp_add]; simp
    rw [eq_div_iff (Complex.exp_ne_zero _)]
    linear_combination Complex.exp x * Complex.exp (1 + I) * hc - odeU g x * Complex.exp (1 + I) * e1 + 5 * Complex.exp x * e2
  · intro h x hx
    have : (odeU g) =ᶠ[nhds x] odeSoln := Filter.eventually_of_mem (Metric.isOpen_ball.mem_nhds hx) h
    rw [this.deriv_eq, (hs x).deriv, h x hx, sub_self]

/-- The reference solution as free function: the candidate is the reference solution. -/
example (x : ℂ) (hx : x ∈ Metric.ball (1 + I) 1) : deriv (odeU odeSoln) x - odeU odeSoln x = 0 := by
  refine (C82_ode_solution odeSoln ?_).mpr ?_ x hx
  · unfold odeSoln
    fun_prop
  · intro y _
    unfold odeU
    have : odeSoln (1 + I) = 5 := by
      unfold odeSoln
      rw [mul_div_assoc, div_self (Complex.exp_ne_zero _), mul_one]
    rw [this]
    ring

/-- **C82**, `egrad` starts its function exactly when every argument is a `float64` array. -/
theorem C82_egrad_partial (args : List DType) : egradStart args = .ok () ↔ ∀ t ∈ args, t = .float64 := by
  unfold egradStart jvpCheck egradTans
  rw [ite_eq_left_iff]
  simp only [reduceCtorEq, imp_false, not_not]
  constructor
  · intro h t ht
    have := (List.map_inj_left.mp h) t ht
    cases t <;> first | rfl | simp [DType.tangent] at this ⊢
  · intro h
    refine List.map_inj_left.mpr fun t ht => ?_
    rw [h t ht]
    rfl

/-- **C82**, `egradRobust` starts its function exactly when no argument is an integer or boolean array. -/
theorem C82_egradRobust (args : List DType) : egradRobustStart args = .ok () ↔ ∀ t ∈ args, t ≠ .int64 ∧ t ≠ .bool := by
  unfold egradRobustStart jvpCheck egradRobustTans
  rw [ite_eq_left_iff]
  simp only [reduceCtorEq, imp_false, not_not]
  constructor
  · intro h t ht
    have := (List.map_inj_left.mp h) t ht
    cases t <;> first | rfl | simp [DType.tangent] at this ⊢
  · intro h
    refine List.map_inj_left.mpr fun t ht => ?_
    have := h t ht
    cases t <;> first | rfl | simp [DType.tangent] at this ⊢

/-- **C82**: with a complex array among its arguments, as in the two programs, `egrad` ends in a `TypeError` where `egradRobust` works. -/
theorem C82_egrad_fails : egradStart [.complex128, .float64] = .error .typeError ∧ egradRobustStart [.complex128, .float64] = .ok () := by
  refine ⟨?_, (C82_egradRobust _).mpr (by simp)⟩
  decide

end Verif.Props
