import Verif.Lemmas.Two
import Verif.Lemmas.Programs
import Mathlib.Analysis.SpecialFunctions.Integrals.Basic

/-! # Constrained expressions of the example programs with several independent variables (C79) -/

namespace Verif.Props

open Verif Verif.Py Verif.Np Verif.Spec Verif.Model Verif.Model.Py Verif.Model.Prog
open scoped ContDiff

/-! ## Values on lines -/

/-- **C79**, B/Chapter_1/example_1_29.py: the four values on `y = -2, 0, 1, 3`, for every free function. -/
theorem C79_lines4 (g : ℝ → ℝ → ℝ) (x : ℝ) :
    lines4 g x (-2) = Real.sin (2 * x) ∧ lines4 g x 0 = 5 * Real.sqrt |x| ∧ lines4 g x 1 = 9 * Real.exp (-x ^ 2) ∧
      lines4 g x 3 = 1 - x := by
  unfold lines4
  refine ⟨?_, ?_, ?_, ?_⟩ <;> ring

/-- **C79**, B/Chapter_1/example_1_30.py: values on `y = -2, 1` and derivative on `y = 0`, for every free function with a derivative in `y`. -/
theorem C79_lines3 (g : ℝ → ℝ → ℝ) (x : ℝ) (hg : Differentiable ℝ (g x)) :
    lines3 g x (-2) = Real.sin (2 * x) ∧ dy (lines3 g) x 0 = 0 ∧ lines3 g x 1 = 9 * Real.exp (-x ^ 2) := by
  refine ⟨by unfold lines3; ring, ?_, by unfold lines3; ring⟩
  obtain ⟨D, hD⟩ : ∃ D, D = dy g x 0 := ⟨_, rfl⟩
  have h : deriv (g x) 0 = D := hD.symm
  unfold dy lines3
  rw [← hD]
  deriv_expr
  rw [h]
  ring

/-- **C79**, B/Chapter_2/example_2_4.py: `u(0,y) = y² sin πy`, `u(1,y) + u(2,y) = y sin πy`, `u_y(x,0) = 0`, `u(x,0) = u(x,1)`. -/
theorem C79_relative (g : ℝ → ℝ → ℝ) (hg : ∀ x, Differentiable ℝ (g x)) :
    (∀ y, relU g 0 y = y ^ 2 * Real.sin (Real.pi * y)) ∧ (∀ y, relU g 1 y + relU g 2 y = y * Real.sin (Real.pi * y)) ∧
      (∀ x, dy (relU g) x 0 = 0) ∧ ∀ x, relU g x 0 = relU g x 1 := by
  have hd : ∀ x, Differentiable ℝ (relU1 g x) := by
    intro x
    have := hg 0
    have := hg 1
    have := hg 2
    have := hg x
    unfold relU1
    fun_prop
  have h0 : ∀ y, relU1 g 0 y = y ^ 2 * Real.sin (Real.pi * y) := by
    intro y
    unfold relU1
    ring
  have h12 : ∀ y, relU1 g 1 y + relU1 g 2 y = y * Real.sin (Real.pi * y) := by
    intro y
    unfold relU1
    ring
  have hsin : Differentiable ℝ fun y => Real.sin (Real.pi * y) := by fun_prop
  have d0 : dy (relU1 g) 0 0 = 0 := by
    unfold dy
    simp only [h0]
    rw [deriv_fun_mul (by fun_prop) (by fun_prop), deriv_fun_pow (by fun_prop)]
    simp
  have d12 : dy (relU1 g) 1 0 + dy (relU1 g) 2 0 = 0 := by
    unfold dy
    have e := deriv_fun_add (hd 1 0) (hd 2 0)
    simp only [h12] at e
    have e2 : deriv (fun y : ℝ => y * Real.sin (Real.pi * y)) 0 = 0 := by
      rw [deriv_fun_mul (by fun_prop) (by fun_prop)]
      simp
    rw [e2] at e
    exact e.symm
  refine ⟨fun y => ?_, fun y => ?_, fun x => ?_, fun x => ?_⟩
  · unfold relU
    rw [d0, h0, h0, h0]
    simp
  · unfold relU
    have a := h12 y
    have b := h12 1
    have c := h12 0
    simp only [mul_one, Real.sin_pi, mul_zero, Real.sin_zero] at b c
    linear_combination a - (y - y ^ 2) * d12 - y ^ 2 * b + y ^ 2 * c
  · have := hd x
    obtain ⟨D, hD⟩ : ∃ D, D = dy (relU1 g) x 0 := ⟨_, rfl⟩
    have h : deriv (relU1 g x) 0 = D := hD.symm
    unfold dy relU
    rw [← hD]
    deriv_expr
    rw [h]
    ring
  · unfold relU
    ring

/-- **C79**, B/Chapter_2/example_2_8.py: `u(0,y) = cos πy`, `∫ u(1,y) dy = e` over `[-1, 2]`, `u(x,2) - u(x,1) = 2`, `v(0,y) = 5 - cos πy`,
`u(x,0) + v(x,0) = 5`, for all free functions, if `int1` is the integral of the first one. -/
theorem C79_components (gu gv : ℝ → ℝ → ℝ) (hc : Continuous (gu 1)) (int1 : ℝ) (hi : int1 = ∫ y in (-1 : ℝ)..2, gu 1 y) :
    (∀ y, compU gu int1 0 y = Real.cos (Real.pi * y)) ∧ (∫ y in (-1 : ℝ)..2, compU gu int1 1 y) = Real.exp 1 ∧
      (∀ x, compU gu int1 x 2 - compU gu int1 x 1 = 2) ∧ (∀ y, compV gu gv int1 0 y = 5 - Real.cos (Real.pi * y)) ∧
      ∀ x, compU gu int1 x 0 + compV gu gv int1 x 0 = 5 := by
  have c2 : Real.cos (Real.pi * 2) = 1 := by rw [mul_comm]; exact Real.cos_two_pi
  have u0 : ∀ y, compU gu int1 0 y = Real.cos (Real.pi * y) := by
    intro y
    unfold compU compU1
    rw [c2, mul_one, Real.cos_pi]
    ring
  refine ⟨u0, ?_, fun x => ?_, fun y => ?_, fun x => ?_⟩
  · obtain ⟨k, hk⟩ : ∃ k, k = compU1 gu int1 1 2 - compU1 gu int1 1 1 - 2 := ⟨_, rfl⟩
    have e : ∀ y, compU gu int1 1 y = gu 1 y + (1 / 3 * (Real.exp 1 - int1) + ((1 / 2 * k) - k * y)) := by
      intro y
      unfold compU
      rw [← hk]
      unfold compU1
      ring
    simp only [e]
    rw [intervalIntegral.integral_add (hc.intervalIntegrable _ _) (Continuous.intervalIntegrable (by fun_prop) _ _), ← hi,
      intervalIntegral.integral_add (Continuous.intervalIntegrable (by fun_prop) _ _) (Continuous.intervalIntegrable (by fun_prop) _ _),
      intervalIntegral.integral_sub (Continuous.intervalIntegrable (by fun_prop) _ _) (Continuous.intervalIntegrable (by fun_prop) _ _)]
    have hk2 : ∫ y in (-1 : ℝ)..2, k * y = k * (3 / 2) := by
      rw [intervalIntegral.integral_const_mul k fun y => y, integral_id]
      norm_num
    rw [hk2]
    simp only [intervalIntegral.integral_const, smul_eq_mul]
    ring
  · unfold compU
    ring
  · unfold compV
    rw [u0]
    unfold compV1
    simp
    ring
  · unfold compV
    ring

/-- The free function of the program and the number `int1` it uses (example_2_8.py 12–16). -/
theorem C79_components_int : compInt 2 - compInt (-1) = ∫ y in (-1 : ℝ)..2, compGu 1 y := by
  unfold compGu compInt
  simp only [one_mul]
  rw [intervalIntegral.integral_add (Continuous.intervalIntegrable (by fun_prop) _ _) (Continuous.intervalIntegrable (by fun_prop) _ _),
    intervalIntegral.integral_add (Continuous.intervalIntegrable (by fun_prop) _ _) (Continuous.intervalIntegrable (by fun_prop) _ _)]
  simp only [intervalIntegral.integral_const, integral_id, integral_pow, smul_eq_mul]
  norm_num
  ring

/-- **C79**, D/Chapter_3/Example_3_2_tfc.py, Example_3_5.py, Example_3_4_aux.py: the four boundary values, for every free function. -/
theorem C79_poisson (g : ℝ → ℝ → ℝ) :
    (∀ y, poiU g 0 y = y ^ 3) ∧ (∀ y, poiU g 1 y = (1 + y ^ 3) * Real.exp (-1)) ∧ (∀ x, poiU g x 0 = x * Real.exp (-x)) ∧
      ∀ x, poiU g x 1 = Real.exp (-x) * (x + 1) := by
  refine ⟨fun y => ?_, fun y => ?_, fun x => ?_, fun x => ?_⟩
  · unfold poiU poiU1
    simp
  · unfold poiU poiU1
    ring
  · unfold poiU
    ring
  · unfold poiU
    ring

/-- **C79**, D/Chapter_4/WaveEquation/WaveEquation.py: `u(0,t) = u(1,t) = 0`, `u(x,0) = sin πx`, `u_t(x,0) = 0`. -/
theorem C79_wave (g : ℝ → ℝ → ℝ) (hg : ∀ x, Differentiable ℝ (g x)) :
    (∀ t, wavU g 0 t = 0 ∧ wavU g 1 t = 0) ∧ (∀ x, wavU g x 0 = Real.sin (Real.pi * x)) ∧ ∀ x, dy (wavU g) x 0 = 0 := by
  have h0 : ∀ t, wavU1 g 0 t = 0 := by intro t; unfold wavU1; ring
  have h1 : ∀ t, wavU1 g 1 t = 0 := by intro t; unfold wavU1; ring
  refine ⟨fun t => ⟨?_, ?_⟩, fun x => ?_, fun x => ?_⟩
  · unfold wavU dy
    simp only [h0, deriv_const]
    simp
  · unfold wavU dy
    simp only [h1, deriv_const]
    simp
  · unfold wavU
    ring
  · have hd : Differentiable ℝ (wavU1 g x) := by
      have := hg 0
      have := hg 1
      have := hg x
      unfold wavU1
      fun_prop
    obtain ⟨D, hD⟩ : ∃ D, D = dy (wavU1 g) x 0 := ⟨_, rfl⟩
    have h : deriv (wavU1 g x) 0 = D := hD.symm
    unfold dy wavU
    rw [← hD]
    deriv_expr
    rw [h]
    ring

/-- **C79**, E/PDE/Burgers1D.py: the travelling wave on the two sides and at the start, for every free function and all constants. -/
theorem C79_burgers (p : BurgersPar) (hx : p.xInit ≠ p.xFinal) (g : ℝ → ℝ → ℝ) :
    (∀ t, burU p g p.xInit t = burReal p p.xInit t ∧ burU p g p.xFinal t = burReal p p.xFinal t) ∧ ∀ x, burU p g x 0 = burReal p x 0 := by
  have h1 : p.xFinal - p.xInit ≠ 0 := sub_ne_zero.mpr hx.symm
  have hI : ∀ t, burU1 p g p.xInit t = burReal p p.xInit t := by
    intro t
    unfold burU1 burReal
    rw [div_self h1, sub_self, zero_div]
    ring
  have hF : ∀ t, burU1 p g p.xFinal t = burReal p p.xFinal t := by
    intro t
    unfold burU1 burReal
    rw [div_self h1, sub_self, zero_div]
    ring
  refine ⟨fun t => ⟨?_, ?_⟩, fun x => ?_⟩
  · unfold burU
    rw [hI, hI]
    unfold burReal
    rw [mul_zero, sub_zero]
    ring
  · unfold burU
    rw [hF, hF]
    unfold burReal
    rw [mul_zero, sub_zero]
    ring
  · unfold burU burReal
    rw [mul_zero, sub_zero]
    ring

/-- **C79**, B/Chapter_3/Problem_8.py: `u(2,θ) = 0`, `u(4,θ) = 4 sin 5θ`, and `u` and `u_θ` agree at `θ = 0` and `θ = 2π`. -/
theorem C79_annulus (g : ℝ → ℝ → ℝ) (hg : ∀ r, Differentiable ℝ (g r)) :
    (∀ th, annU g 2 th = 0) ∧ (∀ th, annU g 4 th = 4 * Real.sin (5 * th)) ∧
      ∀ r, annU g r 0 = annU g r (2 * Real.pi) ∧ dy (annU g) r 0 = dy (annU g) r (2 * Real.pi) := by
  have hp := Real.pi_ne_zero
  have h2 : ∀ th, annU1 g 2 th = 0 := by intro th; unfold annU1; norm_num
  have h4 : ∀ th, annU1 g 4 th = 4 * Real.sin (5 * th) := by intro th; unfold annU1; norm_num
  have s10 : Real.sin (5 * (2 * Real.pi)) = 0 := by
    have := Real.sin_nat_mul_pi 10
    push_cast at this
    rw [show 5 * (2 * Real.pi) = 10 * Real.pi by ring]
    exact this
  have c10 : Real.cos (5 * (2 * Real.pi)) = 1 := by
    have := Real.cos_nat_mul_two_pi 5
    push_cast at this
    exact this
  refine ⟨fun th => ?_, fun th => ?_, fun r => ⟨?_, ?_⟩⟩
  · unfold annU dy
    simp only [h2, deriv_const]
    ring
  · unfold annU dy
    simp only [h4]
    have : ∀ t : ℝ, deriv (fun s : ℝ => 4 * Real.sin (5 * s)) t = 20 * Real.cos (5 * t) := by
      intro t
      have h1 : HasDerivAt (fun s : ℝ => 5 * s) 5 t := by simpa using (hasDerivAt_id t).const_mul 5
      have := (h1.sin.const_mul 4).deriv
      rw [this]
      ring
    rw [this, this, s10, c10]
    simp
  · unfold annU
    field_simp
    ring
  · have hd : Differentiable ℝ (annU1 g r) := by
      have := hg 2
      have := hg 4
      have := hg r
      unfold annU1
      fun_prop
    obtain ⟨A, hA⟩ : ∃ A, A = dy (annU1 g) r (2 * Real.pi) := ⟨_, rfl⟩
    obtain ⟨B, hB⟩ : ∃ B, B = dy (annU1 g) r 0 := ⟨_, rfl⟩
    have hA' : deriv (annU1 g r) (2 * Real.pi) = A := hA.symm
    have hB' : deriv (annU1 g r) 0 = B := hB.symm
    unfold dy annU
    rw [← hA, ← hB]
    deriv_expr
    simp only [deriv_neg']
    rw [hA', hB']
    field_simp
    ring

/-! ## The biharmonic equation in a square -/

theorem cubic_second {f : ℝ → ℝ} (hf : ContDiff ℝ ∞ f) (a b c d : ℝ) :
    deriv (fun s => deriv (fun r => f r - (1 - r) * a - r * b - (-r ^ 3 + 3 * r ^ 2 - 2 * r) / 6 * c - (r ^ 3 - r) / 6 * d) s)
      = fun y => deriv (fun s => deriv f s) y - (1 - y) * c - y * d := by
  have h1 : Differentiable ℝ f := hf.differentiable (by simp)
  have h2 : Differentiable ℝ (deriv f) := (contDiff_infty_iff_deriv.mp hf).2.differentiable (by simp)
  have e : (fun s => deriv (fun r => f r - (1 - r) * a - r * b - (-r ^ 3 + 3 * r ^ 2 - 2 * r) / 6 * c - (r ^ 3 - r) / 6 * d) s)
      = fun s => deriv f s + a - b - (-3 * s ^ 2 + 6 * s - 2) / 6 * c - (3 * s ^ 2 - 1) / 6 * d := by
    funext s
    deriv_expr
    rw [deriv_sub_left]
    push_cast
    ring
  rw [e]
  funext y
  deriv_expr
  push_cast
  ring

theorem lin4_second {f f1 f2 f3 f4 : ℝ → ℝ} (hf : ContDiff ℝ ∞ f) (h1 : ContDiff ℝ ∞ f1) (h2 : ContDiff ℝ ∞ f2) (h3 : ContDiff ℝ ∞ f3)
    (h4 : ContDiff ℝ ∞ f4) (a b c d : ℝ) :
    deriv (fun s => deriv (fun r => f r - a * f1 r - b * f2 r - c * f3 r - d * f4 r) s) = fun x => deriv (fun s => deriv f s) x
      - a * deriv (fun s => deriv f1 s) x - b * deriv (fun s => deriv f2 s) x - c * deriv (fun s => deriv f3 s) x
      - d * deriv (fun s => deriv f4 s) x := by
  have step : ∀ f : ℝ → ℝ, ContDiff ℝ ∞ f → Differentiable ℝ f ∧ Differentiable ℝ (deriv f) := fun f hf =>
    ⟨hf.differentiable (by simp), (contDiff_infty_iff_deriv.mp hf).2.differentiable (by simp)⟩
  obtain ⟨d0, e0⟩ := step f hf
  obtain ⟨d1, e1⟩ := step f1 h1
  obtain ⟨d2, e2⟩ := step f2 h2
  obtain ⟨d3, e3⟩ := step f3 h3
  obtain ⟨d4, e4⟩ := step f4 h4
  have e : (fun s => deriv (fun r => f r - a * f1 r - b * f2 r - c * f3 r - d * f4 r) s)
      = fun s => deriv f s - a * deriv f1 s - b * deriv f2 s - c * deriv f3 s - d * deriv f4 s := by
    funext s
    deriv_expr
    ring
  rw [e]
  funext x
  deriv_expr
  ring

theorem bihU1_smooth {g : ℝ → ℝ → ℝ} (hg : Smooth2 g) : Smooth2 (bihU1 g) := by
  unfold bihU1
  refine ((((hg.sub ?_).sub ?_).sub ?_).sub ?_)
  · exact (Smooth2.of_left (f := fun x => 1 - x) (by fun_prop)).mul (hg.at_left 0)
  · exact (Smooth2.of_left (f := fun x => x) (by fun_prop)).mul (hg.at_left 1)
  · exact (Smooth2.of_left (f := fun x => (-x ^ 3 + 3 * x ^ 2 - 2 * x) / 6) (by fun_prop)).mul (hg.dx.dx.at_left 0)
  · exact (Smooth2.of_left (f := fun x => (x ^ 3 - x) / 6) (by fun_prop)).mul (hg.dx.dx.at_left 1)

/-- **C79**, D/Chapter_4/BiharmonicEquation/BiharmonicCartesianCoordinates.py: on the four sides `u` and its second derivative across the side
vanish, for every smooth free function. -/
theorem C79_biharmonic (g : ℝ → ℝ → ℝ) (hg : Smooth2 g) :
    (∀ y, bihU g 0 y = 0 ∧ bihU g 1 y = 0 ∧ dx (dx (bihU g)) 0 y = 0 ∧ dx (dx (bihU g)) 1 y = 0) ∧
      ∀ x, bihU g x 0 = 0 ∧ bihU g x 1 = 0 ∧ dy (dy (bihU g)) x 0 = 0 ∧ dy (dy (bihU g)) x 1 = 0 := by
  have hs := bihU1_smooth hg
  have v0 : ∀ y, bihU1 g 0 y = 0 := by intro y; unfold bihU1; ring
  have v1 : ∀ y, bihU1 g 1 y = 0 := by intro y; unfold bihU1; ring
  have w : ∀ x y, dx (dx (bihU1 g)) x y = dx (dx g) x y - (1 - x) * dx (dx g) 0 y - x * dx (dx g) 1 y := fun x y =>
    congrFun (cubic_second (hg.left y) (g 0 y) (g 1 y) (dx (dx g) 0 y) (dx (dx g) 1 y)) x
  have w0 : ∀ y, dx (dx (bihU1 g)) 0 y = 0 := by intro y; rw [w]; ring
  have w1 : ∀ y, dx (dx (bihU1 g)) 1 y = 0 := by intro y; rw [w]; ring
  have comm : dx (dx (dy (dy (bihU1 g)))) = dy (dy (dx (dx (bihU1 g)))) := by
    rw [dx_dy hs.dy, dx_dy hs, dx_dy hs.dx.dy, dx_dy hs.dx]
  have dd : ∀ (F : ℝ → ℝ → ℝ) (x : ℝ), (∀ y, F x y = 0) → ∀ y, dy (dy F) x y = 0 := by
    intro F x h y
    unfold dy
    simp only [h, deriv_const]
  have xx : ∀ x, (∀ y, dx (dx (bihU1 g)) x y = 0) → ∀ y, dx (dx (bihU g)) x y = 0 := by
    intro x h y
    have := congrFun (lin4_second (hs.left y) (hs.left 0) (hs.left 1) (hs.dy.dy.left 0) (hs.dy.dy.left 1) (1 - y) y
      ((-y ^ 3 + 3 * y ^ 2 - 2 * y) / 6) ((y ^ 3 - y) / 6)) x
    refine Eq.trans (b := _) this ?_
    have c0 : dx (dx (dy (dy (bihU1 g)))) x 0 = 0 := by rw [comm]; exact dd _ x h 0
    have c1 : dx (dx (dy (dy (bihU1 g)))) x 1 = 0 := by rw [comm]; exact dd _ x h 1
    have a := h y
    have b := h 0
    have c := h 1
    unfold dx at a b c c0 c1
    rw [a, b, c, c0, c1]
    ring
  refine ⟨fun y => ⟨?_, ?_, xx 0 w0 y, xx 1 w1 y⟩, fun x => ⟨?_, ?_, ?_, ?_⟩⟩
  · unfold bihU
    rw [v0, v0, v0, dd _ 0 v0, dd _ 0 v0]
    ring
  · unfold bihU
    rw [v1, v1, v1, dd _ 1 v1, dd _ 1 v1]
    ring
  · unfold bihU
    ring
  · unfold bihU
    ring
  · have := congrFun (cubic_second (hs.right x) (bihU1 g x 0) (bihU1 g x 1) (dy (dy (bihU1 g)) x 0) (dy (dy (bihU1 g)) x 1)) 0
    refine Eq.trans (b := _) this ?_
    unfold dy
    ring
  · have := congrFun (cubic_second (hs.right x) (bihU1 g x 0) (bihU1 g x 1) (dy (dy (bihU1 g)) x 0) (dy (dy (bihU1 g)) x 1)) 1
    refine Eq.trans (b := _) this ?_
    unfold dy
    ring

/-! ## Three variables -/

/-- **C79**, D/Chapter_3/Navier_Stokes_TFC_and_XTFC.py: `f(0,y,t) = 0`, `f_x(xend,y,t) = 0`, `f(x,±Hb/2,t) = 0`, `f(x,y,0) = 0`, for every free
function with a derivative in `x` and all constants. -/
theorem C79_navier_stokes (Hb xend : ℝ) (hH : Hb ≠ 0) (g : ℝ → ℝ → ℝ → ℝ) (hg : ∀ y t, Differentiable ℝ fun x => g x y t) :
    (∀ y t, nsF Hb xend g 0 y t = 0) ∧ (∀ y t, deriv (fun x => nsF Hb xend g x y t) xend = 0) ∧
      (∀ x t, nsF Hb xend g x (-Hb / 2) t = 0 ∧ nsF Hb xend g x (Hb / 2) t = 0) ∧ ∀ x y, nsF Hb xend g x y 0 = 0 := by
  have h0 : ∀ y t, nsF1 xend g 0 y t = 0 := by intro y t; unfold nsF1; ring
  have hd : ∀ y t, HasDerivAt (fun x => nsF1 xend g x y t) 0 xend := by
    intro y t
    obtain ⟨D, hD⟩ : ∃ D, D = deriv (fun s => g s y t) xend := ⟨_, rfl⟩
    have h := ((hg y t xend).hasDerivAt.sub_const (g 0 y t)).sub ((hasDerivAt_id xend).mul_const D)
    unfold nsF1
    rw [← hD] at h ⊢
    refine h.congr_deriv ?_
    ring
  have hd2 : ∀ y t, HasDerivAt (fun x => nsF2 Hb xend g x y t) 0 xend := by
    intro y t
    have h := ((hd y t).sub ((hd (-Hb / 2) t).const_mul ((Hb - 2 * y) / (2 * Hb)))).sub ((hd (Hb / 2) t).const_mul ((Hb + 2 * y) / (2 * Hb)))
    unfold nsF2
    refine h.congr_deriv ?_
    ring
  have hm : ∀ x t, nsF2 Hb xend g x (-Hb / 2) t = 0 := by
    intro x t
    unfold nsF2
    have e1 : (Hb - 2 * (-Hb / 2)) / (2 * Hb) = 1 := by field_simp; ring
    have e2 : (Hb + 2 * (-Hb / 2)) / (2 * Hb) = 0 := by field_simp; ring
    rw [e1, e2]
    ring
  have hp : ∀ x t, nsF2 Hb xend g x (Hb / 2) t = 0 := by
    intro x t
    unfold nsF2
    have e1 : (Hb - 2 * (Hb / 2)) / (2 * Hb) = 0 := by field_simp; ring
    have e2 : (Hb + 2 * (Hb / 2)) / (2 * Hb) = 1 := by field_simp; ring
    rw [e1, e2]
    ring
  refine ⟨fun y t => ?_, fun y t => ?_, fun x t => ⟨?_, ?_⟩, fun x y => ?_⟩
  · unfold nsF nsF2
    simp only [h0]
    ring
  · have h := (hd2 y t).sub (hd2 y 0)
    exact (h.congr_deriv (sub_zero 0)).deriv
  · unfold nsF
    rw [hm, hm]
    ring
  · unfold nsF
    rw [hp, hp]
    ring
  · unfold nsF
    ring

/-- **C79**, D/Chapter_4/WaveEquation/WaveEquation2D.py, WaveEquationComparison2D.py: `u = 0` on the four sides, `u(x,y,0) = sin πx sin πy`,
`u_t(x,y,0) = 0`. -/
theorem C79_wave2 (g : ℝ → ℝ → ℝ → ℝ) (hg : ∀ x y, Differentiable ℝ (g x y)) :
    (∀ y t, wav2U g 0 y t = 0 ∧ wav2U g 1 y t = 0) ∧ (∀ x t, wav2U g x 0 t = 0 ∧ wav2U g x 1 t = 0) ∧
      (∀ x y, wav2U g x y 0 = Real.sin (Real.pi * x) * Real.sin (Real.pi * y)) ∧ ∀ x y, deriv (wav2U g x y) 0 = 0 := by
  have a0 : ∀ y t, wav2U2 g 0 y t = 0 := by intro y t; unfold wav2U2 wav2U1; ring
  have a1 : ∀ y t, wav2U2 g 1 y t = 0 := by intro y t; unfold wav2U2 wav2U1; ring
  have b0 : ∀ x t, wav2U2 g x 0 t = 0 := by intro y t; unfold wav2U2; ring
  have b1 : ∀ x t, wav2U2 g x 1 t = 0 := by intro y t; unfold wav2U2; ring
  refine ⟨fun y t => ⟨?_, ?_⟩, fun x t => ⟨?_, ?_⟩, fun x y => ?_, fun x y => ?_⟩
  · unfold wav2U
    simp only [a0, deriv_const]
    simp
  · unfold wav2U
    simp only [a1, deriv_const]
    simp
  · unfold wav2U
    simp only [b0, deriv_const]
    simp
  · unfold wav2U
    simp only [b1, deriv_const]
    simp
  · unfold wav2U
    ring
  · have d1 : ∀ x y, Differentiable ℝ (wav2U1 g x y) := by
      intro x y
      have := hg x y
      have := hg 0 y
      have := hg 1 y
      unfold wav2U1
      fun_prop
    have d2 : Differentiable ℝ (wav2U2 g x y) := by
      have := d1 x y
      have := d1 x 0
      have := d1 x 1
      unfold wav2U2
      fun_prop
    obtain ⟨D, hD⟩ : ∃ D, D = deriv (wav2U2 g x y) 0 := ⟨_, rfl⟩
    unfold wav2U
    rw [← hD]
    deriv_expr
    rw [← hD]
    ring

/-- **C79**, D/Appendices/Appendix_I/Example_I_2.py: `u(0,0) = 5`. -/
theorem C79_point (g : ℝ → ℝ → ℝ) : pointU g 0 0 = 5 := by
  unfold pointU
  ring

/-- **C79**, D/Appendices/Appendix_I/Example_I_3.py: the four conditions the program checks in lines 30–33. -/
theorem C79_cube (g : ℝ → ℝ → ℝ → ℝ) :
    (∀ x y, cubeU g x y 1 = Real.sin x * Real.cos y) ∧ (∀ y, cubeU g 0 y 0 = Real.exp y) ∧ cubeU g 1 0 0 = 3 ∧ cubeU g 1 1 0 = 5 := by
  unfold cubeU
  refine ⟨fun x y => ?_, fun y => ?_, ?_, ?_⟩ <;> ring

end Verif.Props
