import Verif.Props.Reference

/-! # Reference solutions of the partial differential equations (C83) -/

namespace Verif.Props

open Verif Verif.Py Verif.Np Verif.Spec Verif.Model Verif.Model.Py Verif.Model.Prog
open scoped ContDiff

theorem sin_mul (k x : ℝ) : HasDerivAt (fun x => Real.sin (k * x)) (k * Real.cos (k * x)) x := by
  have := sin_lin 0 k x
  simpa only [zero_add] using this

theorem cos_mul (k x : ℝ) : HasDerivAt (fun x => Real.cos (k * x)) (-k * Real.sin (k * x)) x := by
  have := cos_lin 0 k x
  simpa only [zero_add] using this

theorem exp_mul' (k x : ℝ) : HasDerivAt (fun x => Real.exp (k * x)) (k * Real.exp (k * x)) x := by
  have := exp_lin 0 k x
  simpa only [zero_add] using this

theorem sin_pi_one : Real.sin (Real.pi * 1) = 0 := by rw [mul_one, Real.sin_pi]

/-! ## tests/test_PDE.py -/

/-- **C83**, tests/test_PDE.py: the reference solution meets the four conditions of the problem and has residual 0 everywhere. -/
theorem C83_pde :
    (∀ y, pdeReal 0 y = 0 ∧ pdeReal 1 y = 0) ∧ (∀ x, pdeReal x 0 = 0 ∧ dy pdeReal x 1 = 2 * Real.sin (Real.pi * x)) ∧
    ∀ x y, pdeResid pdeReal x y = 0 := by
  have d1 : dx pdeReal = fun x y => y ^ 2 * (Real.pi * Real.cos (Real.pi * x)) := by
    funext x y
    exact ((sin_mul Real.pi x).const_mul (y ^ 2)).deriv
  have d2 : ∀ x y, dx (dx pdeReal) x y = y ^ 2 * (Real.pi * (-Real.pi * Real.sin (Real.pi * x))) := by
    intro x y
    rw [d1]
    exact (((cos_mul Real.pi x).const_mul Real.pi).const_mul (y ^ 2)).deriv
  have e1 : dy pdeReal = fun x y => 2 * y * Real.sin (Real.pi * x) := by
    funext x y
    have := ((hasDerivAt_pow 2 y).mul_const (Real.sin (Real.pi * x))).deriv
    push_cast at this
    rw [pow_one] at this
    exact this
  have e2 : ∀ x y, dy (dy pdeReal) x y = 2 * Real.sin (Real.pi * x) := by
    intro x y
    rw [e1]
    refine (HasDerivAt.congr_deriv (((hasDerivAt_id y).const_mul 2).mul_const (Real.sin (Real.pi * x))) ?_).deriv
    ring
  refine ⟨fun y => ⟨?_, ?_⟩, fun x => ⟨?_, ?_⟩, fun x y => ?_⟩
  · unfold pdeReal
    simp
  · unfold pdeReal
    rw [sin_pi_one, mul_zero]
  · unfold pdeReal
    ring
  · rw [e1]
    ring
  · unfold pdeResid
    rw [d2, e2, e1]
    unfold pdeReal
    ring

/-! ## The Poisson equation -/

/-- **C83**, D/Chapter_3/Example_3_2_tfc.py and the programs with the same problem: the reference solution is the value of the expression for a
free function (itself), and has residual 0 everywhere. -/
theorem C83_poisson : poiU poiReal = poiReal ∧ ∀ x y, poiResid poiReal x y = 0 := by
  have e : poiReal = fun x y => Real.exp (-1 * x) * (x + y ^ 3) := by
    funext x y
    unfold poiReal
    ring_nf
  have d1 : dx poiReal = fun x y => Real.exp (-1 * x) * (1 - x - y ^ 3) := by
    rw [e]
    funext x y
    refine (HasDerivAt.congr_deriv ((exp_mul' (-1) x).mul ((hasDerivAt_id x).add_const (y ^ 3))) ?_).deriv
    simp only [id]
    ring
  have d2 : ∀ x y, dx (dx poiReal) x y = Real.exp (-1 * x) * (x + y ^ 3 - 2) := by
    intro x y
    rw [d1]
    refine (HasDerivAt.congr_deriv ((exp_mul' (-1) x).mul (((hasDerivAt_id x).const_sub 1).sub_const (y ^ 3))) ?_).deriv
    simp only [id]
    ring
  have e1 : dy poiReal = fun x y => Real.exp (-x) * (3 * y ^ 2) := by
    funext x y
    have := (((hasDerivAt_pow 3 y).const_add x).const_mul (Real.exp (-x))).deriv
    push_cast at this
    exact this
  have e2 : ∀ x y, dy (dy poiReal) x y = Real.exp (-x) * (6 * y) := by
    intro x y
    rw [e1]
    refine (HasDerivAt.congr_deriv (((hasDerivAt_pow 2 y).const_mul 3).const_mul (Real.exp (-x))) ?_).deriv
    push_cast
    ring
  refine ⟨?_, fun x y => ?_⟩
  · have h1 : poiU1 poiReal = poiReal := by
      funext x y
      unfold poiU1 poiReal
      simp only [neg_zero, Real.exp_zero]
      ring
    funext x y
    unfold poiU
    rw [h1]
    unfold poiReal
    ring
  · unfold poiResid
    rw [d2, e2]
    ring_nf

/-! ## Wave equations -/

/-- **C83**, D/Chapter_4/WaveEquation/WaveEquation.py: the reference solution is a value of the expression and has residual 0. -/
theorem C83_wave : wavU wavReal = wavReal ∧ ∀ x t, wavResid wavReal x t = 0 := by
  have d1 : dx wavReal = fun x t => Real.pi * Real.cos (Real.pi * x) * Real.cos (Real.pi * t) := by
    funext x t
    exact ((sin_mul Real.pi x).mul_const (Real.cos (Real.pi * t))).deriv
  have d2 : ∀ x t, dx (dx wavReal) x t = Real.pi * (-Real.pi * Real.sin (Real.pi * x)) * Real.cos (Real.pi * t) := by
    intro x t
    rw [d1]
    exact (((cos_mul Real.pi x).const_mul Real.pi).mul_const (Real.cos (Real.pi * t))).deriv
  have e1 : dy wavReal = fun x t => Real.sin (Real.pi * x) * (-Real.pi * Real.sin (Real.pi * t)) := by
    funext x t
    exact ((cos_mul Real.pi t).const_mul (Real.sin (Real.pi * x))).deriv
  have e2 : ∀ x t, dy (dy wavReal) x t = Real.sin (Real.pi * x) * (-Real.pi * (Real.pi * Real.cos (Real.pi * t))) := by
    intro x t
    rw [e1]
    exact (((sin_mul Real.pi t).const_mul (-Real.pi)).const_mul (Real.sin (Real.pi * x))).deriv
  refine ⟨?_, fun x t => ?_⟩
  · have h1 : wavU1 wavReal = wavReal := by
      funext x t
      unfold wavU1 wavReal
      rw [sin_pi_one, mul_zero, Real.sin_zero]
      ring
    funext x t
    unfold wavU
    rw [h1, e1]
    unfold wavReal
    beta_reduce
    rw [mul_zero, Real.sin_zero, Real.cos_zero]
    ring
  · unfold wavResid
    rw [d2, e2]
    ring

/-- **C83**, D/Chapter_4/WaveEquation/WaveEquation2D.py, WaveEquationComparison2D.py: the same. -/
theorem C83_wave2 : wav2U wav2Real = wav2Real ∧ ∀ x y t, wav2Resid wav2Real x y t = 0 := by
  obtain ⟨k, hk⟩ : ∃ k, k = Real.pi * Real.sqrt 2 / 8 := ⟨_, rfl⟩
  have hr : wav2Real = fun x y t => Real.sin (Real.pi * x) * Real.sin (Real.pi * y) * Real.cos (k * t) := by
    rw [hk]
    rfl
  have hk2 : 64 * k ^ 2 = 2 * Real.pi ^ 2 := by
    rw [hk]
    have := Real.sq_sqrt (show (0 : ℝ) ≤ 2 by norm_num)
    linear_combination Real.pi ^ 2 * this
  rw [hr]
  have t1 : ∀ x y, (fun t => deriv (fun t => Real.sin (Real.pi * x) * Real.sin (Real.pi * y) * Real.cos (k * t)) t) =
      fun t => Real.sin (Real.pi * x) * Real.sin (Real.pi * y) * (-k * Real.sin (k * t)) := by
    intro x y
    funext t
    exact ((cos_mul k t).const_mul _).deriv
  have x1 : ∀ y t, (fun x => deriv (fun x => Real.sin (Real.pi * x) * Real.sin (Real.pi * y) * Real.cos (k * t)) x) =
      fun x => Real.pi * Real.cos (Real.pi * x) * Real.sin (Real.pi * y) * Real.cos (k * t) := by
    intro y t
    funext x
    exact (((sin_mul Real.pi x).mul_const _).mul_const _).deriv
  have y1 : ∀ x t, (fun y => deriv (fun y => Real.sin (Real.pi * x) * Real.sin (Real.pi * y) * Real.cos (k * t)) y) =
      fun y => Real.sin (Real.pi * x) * (Real.pi * Real.cos (Real.pi * y)) * Real.cos (k * t) := by
    intro x t
    funext y
    exact (((sin_mul Real.pi y).const_mul _).mul_const _).deriv
  refine ⟨?_, fun x y t => ?_⟩
  · have h1 : wav2U1 (fun x y t => Real.sin (Real.pi * x) * Real.sin (Real.pi * y) * Real.cos (k * t))
        = fun x y t => Real.sin (Real.pi * x) * Real.sin (Real.pi * y) * Real.cos (k * t) := by
      funext x y t
      unfold wav2U1
      beta_reduce
      rw [sin_pi_one, mul_zero, Real.sin_zero]
      ring
    have h2 : wav2U2 (fun x y t => Real.sin (Real.pi * x) * Real.sin (Real.pi * y) * Real.cos (k * t))
        = fun x y t => Real.sin (Real.pi * x) * Real.sin (Real.pi * y) * Real.cos (k * t) := by
      funext x y t
      unfold wav2U2
      rw [h1]
      beta_reduce
      rw [sin_pi_one, mul_zero, Real.sin_zero]
      ring
    funext x y t
    unfold wav2U
    rw [h2]
    have := congrFun (t1 x y) 0
    beta_reduce at this ⊢
    rw [this, mul_zero, Real.sin_zero, Real.cos_zero]
    ring
  · unfold wav2Resid
    simp only
    rw [t1, x1, y1]
    have a := (((cos_mul Real.pi x).const_mul Real.pi).mul_const (Real.sin (Real.pi * y))).mul_const (Real.cos (k * t))
    have b := ((((cos_mul Real.pi y).const_mul Real.pi).const_mul (Real.sin (Real.pi * x))).mul_const (Real.cos (k * t)))
    have c := ((sin_mul k t).const_mul (-k)).const_mul (Real.sin (Real.pi * x) * Real.sin (Real.pi * y))
    rw [a.deriv, b.deriv, c.deriv]
    linear_combination Real.sin (Real.pi * x) * Real.sin (Real.pi * y) * Real.cos (k * t) * hk2

/-! ## The biharmonic equation -/

/-- **C83**, D/Chapter_4/BiharmonicEquation/BiharmonicCartesianCoordinates.py: the same. -/
theorem C83_biharmonic : bihU bihReal = bihReal ∧ ∀ x y, bihResid bihReal x y = 0 := by
  have hp := Real.pi_ne_zero
  -- products of a constant, sin πx or cos πx, and sin πy or cos πy
  have sx : ∀ (a : ℝ) (f : ℝ → ℝ), dx (fun x y => a * Real.sin (Real.pi * x) * f y) = fun x y => a * Real.pi * Real.cos (Real.pi * x) * f y := by
    intro a f
    funext x y
    refine (HasDerivAt.congr_deriv (((sin_mul Real.pi x).const_mul a).mul_const (f y)) ?_).deriv
    ring
  have cx : ∀ (a : ℝ) (f : ℝ → ℝ), dx (fun x y => a * Real.cos (Real.pi * x) * f y) = fun x y => -a * Real.pi * Real.sin (Real.pi * x) * f y := by
    intro a f
    funext x y
    refine (HasDerivAt.congr_deriv (((cos_mul Real.pi x).const_mul a).mul_const (f y)) ?_).deriv
    ring
  have sy : ∀ (a : ℝ) (f : ℝ → ℝ), dy (fun x y => a * f x * Real.sin (Real.pi * y)) = fun x y => a * Real.pi * f x * Real.cos (Real.pi * y) := by
    intro a f
    funext x y
    refine (HasDerivAt.congr_deriv ((sin_mul Real.pi y).const_mul (a * f x)) ?_).deriv
    ring
  have cy : ∀ (a : ℝ) (f : ℝ → ℝ), dy (fun x y => a * f x * Real.cos (Real.pi * y)) = fun x y => -a * Real.pi * f x * Real.sin (Real.pi * y) := by
    intro a f
    funext x y
    refine (HasDerivAt.congr_deriv ((cos_mul Real.pi y).const_mul (a * f x)) ?_).deriv
    ring
  have x2 : dx (dx bihReal) = fun x y => -(1 / Real.pi ^ 2 * Real.pi) * Real.pi * Real.sin (Real.pi * x) * Real.sin (Real.pi * y) := by
    rw [show bihReal = fun x y => 1 / Real.pi ^ 2 * Real.sin (Real.pi * x) * Real.sin (Real.pi * y) from rfl, sx, cx]
  have y2 : dy (dy bihReal) = fun x y => -(1 / Real.pi ^ 2 * Real.pi) * Real.pi * Real.sin (Real.pi * x) * Real.sin (Real.pi * y) := by
    rw [show bihReal = fun x y => 1 / Real.pi ^ 2 * Real.sin (Real.pi * x) * Real.sin (Real.pi * y) from rfl, sy _ fun x => Real.sin (Real.pi * x),
      cy _ fun x => Real.sin (Real.pi * x)]
  refine ⟨?_, fun x y => ?_⟩
  · have h1 : bihU1 bihReal = bihReal := by
      funext x y
      unfold bihU1
      rw [x2]
      unfold bihReal
      beta_reduce
      rw [sin_pi_one, mul_zero, Real.sin_zero]
      ring
    funext x y
    unfold bihU
    rw [h1, y2]
    unfold bihReal
    beta_reduce
    rw [sin_pi_one, mul_zero, Real.sin_zero]
    ring
  · unfold bihResid
    rw [x2, y2, sx _ fun y => Real.sin (Real.pi * y), cx _ fun y => Real.sin (Real.pi * y), sy _ fun x => Real.sin (Real.pi * x),
      cy _ fun x => Real.sin (Real.pi * x)]
    field_simp
    ring

/-! ## Polar coordinates -/

theorem inv_pow_deriv (c : ℝ) (n : ℕ) (s : ℝ) (hs : s ≠ 0) : HasDerivAt (fun s => c / s ^ n) (-(n * c) / s ^ (n + 1)) s := by
  have h := (hasDerivAt_const s c).div (hasDerivAt_pow n s) (pow_ne_zero n hs)
  refine HasDerivAt.congr_deriv h ?_
  cases n with
  | zero => simp
  | succ n =>
    rw [Nat.add_sub_cancel]
    field_simp
    ring

/-- A derivative in the first variable, from a formula valid away from 0. -/
theorem dx_near {u v : ℝ → ℝ → ℝ} (h : ∀ r th, r ≠ 0 → u r th = v r th) {r th d : ℝ} (hr : r ≠ 0)
    (hd : HasDerivAt (fun s => v s th) d r) : dx u r th = d := by
  have ev : (fun s => u s th) =ᶠ[nhds r] fun s => v s th :=
    Filter.eventually_of_mem (isOpen_ne.mem_nhds hr) fun s hs => h s th hs
  unfold dx
  rw [ev.deriv_eq]
  exact hd.deriv

/-- A derivative in the second variable, from a formula valid away from 0. -/
theorem dy_at {u v : ℝ → ℝ → ℝ} (h : ∀ r th, r ≠ 0 → u r th = v r th) {r th d : ℝ} (hr : r ≠ 0)
    (hd : HasDerivAt (fun th => v r th) d th) : dy u r th = d := by
  unfold dy
  rw [show (fun t => u r t) = fun t => v r t from funext fun t => h r t hr]
  exact hd.deriv

/-- Two derivatives in the second variable of a combination of 1, cos θ, sin 2θ, sin 3θ. -/
theorem polar_dydy {u : ℝ → ℝ → ℝ} {a b c d : ℝ → ℝ}
    (h : ∀ r th, r ≠ 0 → u r th = a r + b r * Real.cos (1 * th) + c r * Real.sin (2 * th) + d r * Real.sin (3 * th)) (r th : ℝ) (hr : r ≠ 0) :
    dy (dy u) r th = 0 + -b r * Real.cos (1 * th) + -4 * c r * Real.sin (2 * th) + -9 * d r * Real.sin (3 * th) := by
  have h1 : ∀ r th, r ≠ 0 → dy u r th = b r * (-1 * Real.sin (1 * th)) + c r * (2 * Real.cos (2 * th)) + d r * (3 * Real.cos (3 * th)) :=
    fun r th hr => dy_at h hr
      (((((cos_mul 1 th).const_mul (b r)).const_add (a r)).add ((sin_mul 2 th).const_mul (c r))).add ((sin_mul 3 th).const_mul (d r)))
  refine dy_at h1 hr (HasDerivAt.congr_deriv
    (((((sin_mul 1 th).const_mul (-1)).const_mul (b r)).add (((cos_mul 2 th).const_mul 2).const_mul (c r))).add
      (((cos_mul 3 th).const_mul 3).const_mul (d r))) ?_)
  ring

/-- One derivative in the first variable of such a combination. -/
theorem polar_dx {u : ℝ → ℝ → ℝ} {a b c d : ℝ → ℝ} {a' b' c' d' : ℝ → ℝ}
    (h : ∀ r th, r ≠ 0 → u r th = a r + b r * Real.cos (1 * th) + c r * Real.sin (2 * th) + d r * Real.sin (3 * th))
    (ha : ∀ r, r ≠ 0 → HasDerivAt a (a' r) r) (hb : ∀ r, r ≠ 0 → HasDerivAt b (b' r) r) (hc : ∀ r, r ≠ 0 → HasDerivAt c (c' r) r)
    (hd : ∀ r, r ≠ 0 → HasDerivAt d (d' r) r) :
    ∀ r th, r ≠ 0 → dx u r th = a' r + b' r * Real.cos (1 * th) + c' r * Real.sin (2 * th) + d' r * Real.sin (3 * th) :=
  fun r th hr => dx_near h hr ((((ha r hr).add ((hb r hr).mul_const _)).add ((hc r hr).mul_const _)).add ((hd r hr).mul_const _))

theorem mono_deriv (k : ℝ) (n : ℕ) (r : ℝ) : HasDerivAt (fun r => k * r ^ (n + 1)) ((k * (n + 1)) * r ^ n) r := by
  refine HasDerivAt.congr_deriv ((hasDerivAt_pow (n + 1) r).const_mul k) ?_
  rw [Nat.add_sub_cancel]
  push_cast
  ring

/-- **C83**, D/Chapter_4/BiharmonicEquation/BiharmonicPolarCoordinates.py: the reference solution is a value of the expression, and has
residual 0 wherever `r ≠ 0` (the program samples 1 ≤ r ≤ 4). -/
theorem C83_polar : polU polReal = polReal ∧ ∀ r th, r ≠ 0 → polResid polReal r th = 0 := by
  refine ⟨?_, fun r th hr => ?_⟩
  · have h1 : polU1 polReal = polReal := by
      funext r th
      unfold polU1
      ring
    funext r th
    unfold polU
    rw [h1]
    have q0 := polReal_periodic r
    have q1 : Function.Periodic (dy polReal r) (2 * Real.pi) := periodic_deriv q0
    have q2 : Function.Periodic (dy (dy polReal) r) (2 * Real.pi) := periodic_deriv q1
    have q3 : Function.Periodic (dy (dy (dy polReal)) r) (2 * Real.pi) := periodic_deriv q2
    rw [q0.eq, q1.eq, q2.eq, q3.eq]
    ring
  · have h0 : ∀ r th, r ≠ 0 → polReal r th = 1 / 8 * r ^ (1 + 1) + Real.pi / r ^ 1 * Real.cos (1 * th) + 1 / 4 * r ^ (1 + 1) * Real.sin (2 * th)
        + 1 / 16 * r ^ (2 + 1) * Real.sin (3 * th) := by
      intro r th _
      unfold polReal
      rw [one_mul, pow_one]
      ring
    have h1 := polar_dx h0 (fun r _ => mono_deriv (1 / 8) 1 r) (fun r hr => inv_pow_deriv Real.pi 1 r hr) (fun r _ => mono_deriv (1 / 4) 1 r)
      (fun r _ => mono_deriv (1 / 16) 2 r)
    have h2 := polar_dx h1 (fun r _ => mono_deriv _ 0 r) (fun r hr => inv_pow_deriv _ 2 r hr) (fun r _ => mono_deriv _ 0 r)
      (fun r _ => mono_deriv _ 1 r)
    have cst : ∀ (k : ℝ) r, HasDerivAt (fun r : ℝ => k * r ^ 0) 0 r := by
      intro k r
      simp only [pow_zero]
      exact hasDerivAt_const _ _
    have h3 := polar_dx h2 (fun r _ => cst _ r) (fun r hr => inv_pow_deriv _ 3 r hr) (fun r _ => cst _ r) (fun r _ => mono_deriv _ 0 r)
    have h4 := polar_dx h3 (fun r _ => hasDerivAt_const r 0) (fun r hr => inv_pow_deriv _ 4 r hr) (fun r _ => hasDerivAt_const r 0)
      (fun r _ => cst _ r)
    have y0 := polar_dydy h0
    have y00 := polar_dydy (a := fun _ => 0) y0
    have y1 := polar_dydy h1
    have y2 := polar_dydy h2
    unfold polResid
    rw [h4 r th hr, y2 r th hr, y00 r th hr, h3 r th hr, y1 r th hr, h2 r th hr, y0 r th hr, h1 r th hr]
    push_cast
    field_simp
    ring

/-- **C83**, B/Chapter_3/Problem_8.py: the same. -/
theorem C83_annulus : annU annReal = annReal ∧ ∀ r th, r ≠ 0 → annResid annReal r th = 0 := by
  have h0 : ∀ r th, r ≠ 0 → annReal r th = (4 / 1023 * r ^ (4 + 1) + -4096 / 1023 / r ^ 5) * Real.sin (5 * th) := by
    intro r th hr
    unfold annReal
    field_simp
    ring
  have h1 : ∀ r th, r ≠ 0 → dx annReal r th = (4 / 1023 * ((4 : ℕ) + 1) * r ^ (3 + 1) + -((5 : ℕ) * (-4096 / 1023)) / r ^ 6) * Real.sin (5 * th) :=
    fun r th hr => dx_near h0 hr (((mono_deriv (4 / 1023) 4 r).add (inv_pow_deriv (-4096 / 1023) 5 r hr)).mul_const _)
  have h2 : ∀ r th, r ≠ 0 → dx (dx annReal) r th =
      (4 / 1023 * ((4 : ℕ) + 1) * ((3 : ℕ) + 1) * r ^ 3 + -((6 : ℕ) * -((5 : ℕ) * (-4096 / 1023))) / r ^ 7) * Real.sin (5 * th) :=
    fun r th hr => dx_near h1 hr (((mono_deriv _ 3 r).add (inv_pow_deriv _ 6 r hr)).mul_const _)
  have e1 : dy annReal = fun r th => 4 * (-1024 + r ^ 10) * (5 * Real.cos (5 * th)) / (1023 * r ^ 5) := by
    funext r th
    exact (((sin_mul 5 th).const_mul _).div_const _).deriv
  have e2 : ∀ r th, dy (dy annReal) r th = 4 * (-1024 + r ^ 10) * (5 * (-5 * Real.sin (5 * th))) / (1023 * r ^ 5) := by
    intro r th
    rw [e1]
    exact ((((cos_mul 5 th).const_mul 5).const_mul _).div_const _).deriv
  refine ⟨?_, fun r th hr => ?_⟩
  · have h1 : annU1 annReal = annReal := by
      funext r th
      unfold annU1
      have a2 : annReal 2 th = 0 := by
        unfold annReal
        norm_num
      have a4 : annReal 4 th = 4 * Real.sin (5 * th) := by
        unfold annReal
        ring
      rw [a2, a4]
      ring
    have s10 : Real.sin (5 * (2 * Real.pi)) = Real.sin (5 * 0) := by
      have := Real.sin_add_nat_mul_two_pi 0 5
      push_cast at this
      rw [zero_add] at this
      rw [this, mul_zero]
    have c10 : Real.cos (5 * (2 * Real.pi)) = Real.cos (5 * 0) := by
      have := Real.cos_add_nat_mul_two_pi 0 5
      push_cast at this
      rw [zero_add] at this
      rw [this, mul_zero]
    funext r th
    unfold annU
    rw [h1, e1]
    unfold annReal
    beta_reduce
    rw [s10, c10]
    ring
  · unfold annResid
    rw [h2 r th hr, h1 r th hr, e2]
    push_cast
    field_simp
    ring

/-! ## Burgers' equation -/

theorem tanh_lin (a k x : ℝ) : HasDerivAt (fun x => Real.tanh (a + k * x)) ((1 - Real.tanh (a + k * x) ^ 2) * k) x := by
  have h := tanh_hasDeriv (a + k * x)
  simp only [Polynomial.eval_sub, Polynomial.eval_X, Polynomial.eval_pow, Polynomial.eval_one] at h
  have l : HasDerivAt (fun x => a + k * x) k x := by
    simpa using ((hasDerivAt_id x).const_mul k).const_add a
  exact h.comp x l

/-- **C83**, Extra_Examples/PDE/Burgers1D.py: for all constants with `nu ≠ 0` and `alpha ≠ 0` the reference solution is a value of the
expression and has residual 0. -/
theorem C83_burgers (p : BurgersPar) (hn : p.nu ≠ 0) (ha : p.alpha ≠ 0) :
    burU p (burReal p) = burReal p ∧ ∀ x t, burResid p (burReal p) x t = 0 := by
  obtain ⟨c, nu, al, xi, xf⟩ := p
  dsimp only at hn ha
  refine ⟨?_, fun x t => ?_⟩
  · have h1 : burU1 ⟨c, nu, al, xi, xf⟩ (burReal ⟨c, nu, al, xi, xf⟩) = burReal ⟨c, nu, al, xi, xf⟩ := by
      funext x t
      unfold burU1 burReal
      ring
    funext x t
    unfold burU
    rw [h1]
    unfold burReal
    rw [mul_zero, sub_zero]
    ring
  · have arg : ∀ x t, burReal ⟨c, nu, al, xi, xf⟩ x t = c / al - c / al * Real.tanh (-(c * (c * t)) / (2 * nu) + c / (2 * nu) * x) := by
      intro x t
      unfold burReal
      congr 3
      ring
    have argt : ∀ x t, burReal ⟨c, nu, al, xi, xf⟩ x t = c / al - c / al * Real.tanh (c * x / (2 * nu) + -(c * c) / (2 * nu) * t) := by
      intro x t
      unfold burReal
      congr 3
      ring
    obtain ⟨T, hT⟩ : ∃ T : ℝ → ℝ → ℝ, T = fun x t => Real.tanh (-(c * (c * t)) / (2 * nu) + c / (2 * nu) * x) := ⟨_, rfl⟩
    have Tx : ∀ x t, HasDerivAt (fun x => T x t) ((1 - T x t ^ 2) * (c / (2 * nu))) x := by
      intro x t
      rw [hT]
      exact tanh_lin _ _ _
    have dx1 : dx (burReal ⟨c, nu, al, xi, xf⟩) = fun x t => -(c / al * ((1 - T x t ^ 2) * (c / (2 * nu)))) := by
      funext x t
      have : (fun s => burReal ⟨c, nu, al, xi, xf⟩ s t) = fun s => c / al - c / al * T s t := by
        funext s
        rw [arg, hT]
      unfold dx
      rw [this]
      exact (((Tx x t).const_mul (c / al)).const_sub (c / al)).deriv
    have dx2 : dx (dx (burReal ⟨c, nu, al, xi, xf⟩)) x t =
        c / al * (2 * T x t * ((1 - T x t ^ 2) * (c / (2 * nu))) * (c / (2 * nu))) := by
      rw [dx1]
      refine (HasDerivAt.congr_deriv (((((Tx x t).pow 2).const_sub 1).mul_const (c / (2 * nu))).const_mul (c / al)).neg ?_).deriv
      push_cast
      ring
    have dt1 : dy (burReal ⟨c, nu, al, xi, xf⟩) x t = -(c / al * ((1 - T x t ^ 2) * (-(c * c) / (2 * nu)))) := by
      have : (fun s => burReal ⟨c, nu, al, xi, xf⟩ x s) = fun s => c / al - c / al * Real.tanh (c * x / (2 * nu) + -(c * c) / (2 * nu) * s) := by
        funext s
        exact argt x s
      unfold dy
      rw [this, (((tanh_lin (c * x / (2 * nu)) (-(c * c) / (2 * nu)) t).const_mul (c / al)).const_sub (c / al)).deriv, hT]
      beta_reduce
      rw [show c * x / (2 * nu) + -(c * c) / (2 * nu) * t = -(c * (c * t)) / (2 * nu) + c / (2 * nu) * x by ring]
    unfold burResid
    rw [dx2, dt1, dx1, arg]
    have e : Real.tanh (-(c * (c * t)) / (2 * nu) + c / (2 * nu) * x) = T x t := by rw [hT]
    rw [e]
    dsimp only
    field_simp
    ring

/-! ## Flow between two plates -/

/-- **C83**, D/Chapter_3/Navier_Stokes_TFC_and_XTFC.py: the profile at the end of the channel vanishes at both plates, and, taken as a flow
that depends on neither `x` nor `t`, has residual (0, 0, 0). -/
theorem C83_navier_stokes (Hb rho mu P : ℝ) (hm : mu ≠ 0) :
    nsReal Hb mu P (Hb / 2) = 0 ∧ nsReal Hb mu P (-Hb / 2) = 0 ∧
    ∀ x y t, nsResid rho mu P (fun _ y _ => nsReal Hb mu P y) (fun _ _ _ => 0) x y t = (0, 0, 0) := by
  refine ⟨?_, ?_, fun x y t => ?_⟩
  · unfold nsReal
    ring
  · unfold nsReal
    ring
  · have d1 : (fun y => deriv (fun y => nsReal Hb mu P y) y) = fun y => P * (4 * (2 * y)) / (8 * mu) := by
      funext y
      have := ((((hasDerivAt_pow 2 y).const_mul 4).sub_const (Hb ^ 2)).const_mul P).div_const (8 * mu)
      refine (HasDerivAt.congr_deriv this ?_).deriv
      push_cast
      ring
    have d2 : deriv (fun y => P * (4 * (2 * y)) / (8 * mu)) y = P / mu := by
      refine (HasDerivAt.congr_deriv ((((hasDerivAt_id y).const_mul 2).const_mul 4).const_mul P |>.div_const (8 * mu)) ?_).deriv
      field_simp
      ring
    unfold nsResid
    simp only [deriv_const]
    rw [d1, d2]
    refine Prod.ext ?_ (Prod.ext ?_ ?_)
    · simp
    · simp only
      field_simp
      ring
    · simp

/-- The conditions of the other part of the channel are not met by that profile: the program's `u(0, y, t) = 0` excludes it as soon as `P ≠ 0`. -/
theorem C83_navier_stokes_inflow (Hb mu P y : ℝ) (hm : mu ≠ 0) (hP : P ≠ 0) (hy : y ^ 2 < Hb ^ 2 / 4) (xend : ℝ)
    (g : ℝ → ℝ → ℝ → ℝ) (t : ℝ) : nsF Hb xend g 0 y t ≠ nsReal Hb mu P y := by
  have h0 : nsF Hb xend g 0 y t = 0 := by
    unfold nsF nsF2 nsF1
    ring
  rw [h0]
  unfold nsReal
  intro h
  have : P * (4 * y ^ 2 - Hb ^ 2) ≠ 0 := mul_ne_zero hP (by nlinarith)
  exact (div_ne_zero this (mul_ne_zero (by norm_num) hm)) h.symm

/-- Example: the constants of Navier_Stokes_TFC_and_XTFC.py 12–18. -/
example : nsReal 1 1 (-5) 0 = 5 / 8 := by
  unfold nsReal
  norm_num

end Verif.Props
