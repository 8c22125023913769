import Verif.Props.Polar
import Verif.Props.Expr
import Verif.Props.Pde
import Mathlib.MeasureTheory.Integral.IntervalIntegral.FundThmCalculus

/-! # A parallelogram, Coons patches, and `mtfc` objects as free functions (C79) -/

namespace Verif.Props

open Verif Verif.Py Verif.Np Verif.Spec Verif.Model Verif.Model.Py Verif.Model.Prog
open scoped ContDiff

/-! ## An affine image of the unit square -/

theorem affU1_coord (g : ℝ → ℝ → ℝ) (I : ℝ → ℝ) (a b : ℝ) : affU1 g I (affA (a, b)) =
    g (2 * a + b + 2) (a + b + 3) + Real.sqrt (2 ^ 2 + 1 ^ 2) * (a - 1) * (0.5 - affDn1 g (b + 2, b + 3))
      + 1 / Real.sqrt (1 ^ 2 + 1 ^ 2) * (-2 - I 5 + I 4) := by
  unfold affU1 affA affAinv
  have e1 : 1 * (2 * a + 1 * b + 2 - 2) + -1 * (1 * a + 1 * b + 3 - 3) = a := by ring
  have e2 : -1 * (2 * a + 1 * b + 2 - 2) + 2 * (1 * a + 1 * b + 3 - 3) = b := by ring
  simp only [e1, e2]
  norm_num

theorem affAinv_affA (X : ℝ × ℝ) : affAinv (affA X) = X := by
  unfold affA affAinv
  ext <;> simp only <;> ring

theorem affA_affAinv (x : ℝ × ℝ) : affA (affAinv x) = x := by
  unfold affA affAinv
  ext <;> simp only <;> ring

theorem affU_coord (g : ℝ → ℝ → ℝ) (I : ℝ → ℝ) (a b : ℝ) : affU g I (affA (a, b)) = affU1 g I (affA (a, b))
    + (1 / 2 - b) * (affU1 g I (affA (a, 1)) - affU1 g I (affA (a, 0))) := by
  unfold affU
  rw [affAinv_affA]

theorem affU1_deriv (g : ℝ → ℝ → ℝ) (hg : Smooth2 g) (I : ℝ → ℝ) (b : ℝ) :
    HasDerivAt (fun t => affU1 g I (affA (t / Real.sqrt (2 ^ 2 + 1 ^ 2), b))) 0.5 0 := by
  obtain ⟨q, hq⟩ : ∃ q, q = Real.sqrt (2 ^ 2 + 1 ^ 2) := ⟨_, rfl⟩
  have hq0 : q ≠ 0 := by
    rw [hq]
    exact (Real.sqrt_pos.mpr (by norm_num)).ne'
  obtain ⟨k, hk⟩ : ∃ k, k = 1 / Real.sqrt (1 ^ 2 + 1 ^ 2) * (-2 - I 5 + I 4) := ⟨_, rfl⟩
  simp only [affU1_coord]
  rw [← hk]
  have hd : affDn1 g (b + 2, b + 3) = dx g (b + 2) (b + 3) * (2 / q) + dy g (b + 2) (b + 3) * (1 / q) := by
    unfold affDn1
    rw [← hq]
  obtain ⟨D, hD⟩ : ∃ D, D = affDn1 g (b + 2, b + 3) := ⟨_, rfl⟩
  rw [← hD, ← hq]
  have h := (hg.differentiable (by simp) (2 * (0 / q) + b + 2, 0 / q + b + 3)).hasFDerivAt
  have hp : HasDerivAt (fun t : ℝ => ((2 * (t / q) + b + 2, t / q + b + 3) : ℝ × ℝ)) (2 * (1 / q), 1 / q) 0 := by
    have h1 : HasDerivAt (fun t : ℝ => t / q) (1 / q) 0 := (hasDerivAt_id (0 : ℝ)).div_const q
    exact (((h1.const_mul 2).add_const b).add_const 2).prodMk ((h1.add_const b).add_const 3)
  have hc := h.comp_hasDerivAt (0 : ℝ) hp
  have hval : fderiv ℝ (fun p : ℝ × ℝ => g p.1 p.2) (2 * (0 / q) + b + 2, 0 / q + b + 3) (2 * (1 / q), 1 / q) = D := by
    have e : ((2 * (1 / q), 1 / q) : ℝ × ℝ) = (2 / q) • ((1, 0) : ℝ × ℝ) + (1 / q) • ((0, 1) : ℝ × ℝ) := by
      ext
      · simp; ring
      · simp
    rw [e, map_add, map_smul, map_smul, ← dx_eq hg, ← dy_eq hg, hD, hd]
    simp [mul_comm]
  rw [hval] at hc
  have h1 : HasDerivAt (fun t : ℝ => q * (t / q - 1) * (0.5 - D)) (q * (1 / q) * (0.5 - D)) 0 :=
    ((((hasDerivAt_id (0 : ℝ)).div_const q).sub_const 1).const_mul q).mul_const _
  have := (hc.add h1).add_const k
  refine this.congr_deriv ?_
  field_simp
  ring

/-- **C79**, B/Chapter_2/example_2_16.py, D/Appendices/Appendix_I/Example_I_1.py (domain: the parallelogram `affA` makes of the unit square):
`Ainv` inverts `A`; the derivative of `u` along the unit vector `(2,1)/√5` is `0.5` on the side `X₀ = 0`; the line integral of `u` over the
side from `(4,4)` to `(5,5)` is `-2`, if `I` takes the values of an antiderivative of the integrand; and `u` has the same values on the sides
`X₁ = 0` and `X₁ = 1`. For every smooth free function. -/
theorem C79_affine (g : ℝ → ℝ → ℝ) (hg : Smooth2 g) (I : ℝ → ℝ) (hI : I 5 - I 4 = ∫ t in (4 : ℝ)..5, g t t * Real.sqrt 2) :
    (∀ X, affAinv (affA X) = X) ∧ (∀ x, affA (affAinv x) = x) ∧
    (∀ b, deriv (fun t : ℝ => affU g I (affA (0, b) + t • (2 / Real.sqrt 5, 1 / Real.sqrt 5))) 0 = 0.5) ∧
    (∫ t in (4 : ℝ)..5, affU g I (t, t) * Real.sqrt 2) = -2 ∧
    ∀ a, affU g I (affA (a, 0)) = affU g I (affA (a, 1)) := by
  refine ⟨affAinv_affA, affA_affAinv, fun b => ?_, ?_, fun a => ?_⟩
  · have e5 : Real.sqrt 5 = Real.sqrt (2 ^ 2 + 1 ^ 2) := by norm_num
    have e : (fun t : ℝ => affU g I (affA (0, b) + t • (2 / Real.sqrt 5, 1 / Real.sqrt 5)))
        = fun t => affU g I (affA (t / Real.sqrt (2 ^ 2 + 1 ^ 2), b)) := by
      funext t
      rw [← e5]
      congr 1
      unfold affA
      ext <;> simp <;> ring
    rw [e]
    simp only [affU_coord]
    have h := (affU1_deriv g hg I b).add (((affU1_deriv g hg I 1).sub (affU1_deriv g hg I 0)).const_mul (1 / 2 - b))
    refine (h.congr_deriv ?_).deriv
    ring
  · have e : ∀ t : ℝ, affU g I (t, t) = g t t + 1 / Real.sqrt (1 ^ 2 + 1 ^ 2) * (-2 - I 5 + I 4)
        + (1 / 2 - (t - 4)) * (affU1 g I (affA (1, 1)) - affU1 g I (affA (1, 0))) := by
      intro t
      have ht : ((t, t) : ℝ × ℝ) = affA (1, t - 4) := by unfold affA; ext <;> simp <;> ring
      rw [ht, affU_coord, affU1_coord g I 1 (t - 4)]
      ring_nf
    simp only [e]
    obtain ⟨w, hw⟩ : ∃ w, w = affU1 g I (affA (1, 1)) - affU1 g I (affA (1, 0)) := ⟨_, rfl⟩
    rw [← hw]
    have e2 : Real.sqrt (1 ^ 2 + 1 ^ 2) = Real.sqrt 2 := by norm_num
    have hs : Real.sqrt 2 ≠ 0 := (Real.sqrt_pos.mpr (by norm_num)).ne'
    rw [e2]
    have e3 : ∀ t : ℝ, (g t t + 1 / Real.sqrt 2 * (-2 - I 5 + I 4) + (1 / 2 - (t - 4)) * w) * Real.sqrt 2
        = g t t * Real.sqrt 2 + ((-2 - I 5 + I 4) + (9 / 2 - t) * (w * Real.sqrt 2)) := by
      intro t
      field_simp
      ring
    simp only [e3]
    have hgc : Continuous fun t : ℝ => g t t := hg.continuous.comp (continuous_id.prodMk continuous_id)
    rw [intervalIntegral.integral_add (by apply Continuous.intervalIntegrable; exact hgc.mul continuous_const) (by apply Continuous.intervalIntegrable; fun_prop), ← hI,
      intervalIntegral.integral_add (by apply Continuous.intervalIntegrable; fun_prop) (by apply Continuous.intervalIntegrable; fun_prop),
      intervalIntegral.integral_mul_const, intervalIntegral.integral_sub (by simp) (by apply Continuous.intervalIntegrable; fun_prop)]
    simp
    ring
  · rw [affU_coord, affU_coord]
    ring

/-- **C79**, B/Chapter_2/example_2_16.py 37: `intgn2` is an antiderivative of the integrand of the line integral of the program's free
function, so the hypothesis of C79_affine is met. -/
theorem C79_affine_int : (∀ t, HasDerivAt affInt (affG t t * Real.sqrt 2) t) ∧
    affInt 5 - affInt 4 = (∫ t in (4 : ℝ)..5, affG t t * Real.sqrt 2) ∧ Smooth2 affG := by
  have h : ∀ t, HasDerivAt affInt (affG t t * Real.sqrt 2) t := by
    intro t
    have h := (((Real.hasDerivAt_cos t).pow 2).const_mul (-1 / 2)).mul_const (Real.sqrt 2)
    show HasDerivAt (fun t => -1 / 2 * Real.cos t ^ 2 * Real.sqrt 2) _ t
    refine HasDerivAt.congr_deriv h ?_
    unfold affG
    push_cast
    ring
  have hs : Smooth2 affG := (Smooth2.of_left Real.contDiff_sin).mul (Smooth2.of_right Real.contDiff_cos)
  refine ⟨h, ?_, hs⟩
  have hc : Continuous fun t : ℝ => affG t t := by
    unfold affG
    fun_prop
  have hi : IntervalIntegrable (fun t => affG t t * Real.sqrt 2) MeasureTheory.volume 4 5 := by
    apply Continuous.intervalIntegrable
    exact hc.mul continuous_const
  rw [intervalIntegral.integral_eq_sub_of_hasDerivAt (fun t _ => h t) hi]

/-! ## Coons patches -/

theorem patch_eq (M : Fin 3 → Fin 3 → ℝ) (x y : ℝ) : patch M x y =
    M 0 0 + M 0 1 * (1 - y) + M 0 2 * y + (1 - x) * (M 1 0 + M 1 1 * (1 - y) + M 1 2 * y) + x * (M 2 0 + M 2 1 * (1 - y) + M 2 2 * y) := by
  unfold patch
  simp only [Fin.sum_univ_three, Matrix.cons_val_zero, Matrix.cons_val_one, Matrix.cons_val_two, Matrix.head_cons, Matrix.tail_cons]
  ring

theorem coons_trig : Real.sin (2 * Real.pi) = 0 ∧ Real.cos (2 * Real.pi) = 1 ∧ Real.cos (4 * Real.pi) = 1 := by
  refine ⟨Real.sin_two_pi, Real.cos_two_pi, ?_⟩
  have := Real.cos_nat_mul_two_pi 2
  rw [← this]
  congr 1
  push_cast
  ring

theorem coons_eq (x y : ℝ) : coons x y = 3 * x ^ 2 * (1 - y) + 3 * x * Real.cos (2 * Real.pi * x) * y
    + (1 - x) * Real.sin (2 * Real.pi * y) + x * (3 * Real.cos (4 * Real.pi * y) - 3) := by
  unfold coons
  rw [patch_eq]
  unfold coonsA
  simp only [Matrix.cons_val_zero, Matrix.cons_val_one, Matrix.cons_val_two, Matrix.head_cons, Matrix.tail_cons]
  ring

theorem coonsCe_eq (g : ℝ → ℝ → ℝ) (x y : ℝ) : coonsCe g x y = g x y + (3 * x ^ 2 - g x 0) * (1 - y)
    + (3 * x * Real.cos (2 * Real.pi * x) - g x 1) * y
    + (1 - x) * (Real.sin (2 * Real.pi * y) - g 0 y + g 0 0 * (1 - y) + g 0 1 * y)
    + x * (3 * Real.cos (4 * Real.pi * y) + (g 1 0 - 3) * (1 - y) + (g 1 1 - 3) * y) := by
  unfold coonsCe
  rw [patch_eq]
  unfold coonsM
  simp
  ring

/-- **C79**, B/Chapter_4/Figure_4_3.py, the Coons patch: it has the four curves drawn in red on its sides. -/
theorem C79_coons :
    (∀ y, coons 0 y = Real.sin (2 * Real.pi * y)) ∧ (∀ y, coons 1 y = 3 * Real.cos (4 * Real.pi * y)) ∧
    (∀ x, coons x 0 = 3 * x ^ 2) ∧ ∀ x, coons x 1 = 3 * x * Real.cos (2 * Real.pi * x) := by
  obtain ⟨a, b, c⟩ := coons_trig
  simp only [coons_eq, mul_zero, mul_one, Real.sin_zero, Real.cos_zero, a, b, c]
  refine ⟨fun y => ?_, fun y => ?_, fun x => ?_, fun x => ?_⟩ <;> ring

/-- **C79**, B/Chapter_4/Figure_4_3.py, the constrained expression: it has the four curves on its sides if the free function vanishes on
`x = 1`, as the free function of the program does. (Missing: other free functions, for which this is false by `C79_coons_fails`.) -/
theorem C79_coons_partial :
    (∀ g : ℝ → ℝ → ℝ, (∀ y, g 1 y = 0) →
      (∀ y, coonsCe g 0 y = Real.sin (2 * Real.pi * y)) ∧ (∀ y, coonsCe g 1 y = 3 * Real.cos (4 * Real.pi * y)) ∧
      (∀ x, coonsCe g x 0 = 3 * x ^ 2) ∧ ∀ x, coonsCe g x 1 = 3 * x * Real.cos (2 * Real.pi * x)) ∧
    ∀ y, coonsG 1 y = 0 := by
  refine ⟨fun g hg => ?_, fun y => ?_⟩
  · obtain ⟨a, b, c⟩ := coons_trig
    simp only [coonsCe_eq, mul_zero, mul_one, Real.sin_zero, Real.cos_zero, a, b, c, hg]
    refine ⟨fun y => ?_, fun y => ?_, fun x => ?_, fun x => ?_⟩ <;> ring
  · unfold coonsG
    have := Real.sin_nat_mul_pi 6
    push_cast at this
    rw [mul_one, this]
    ring

/-- **C79 fails** for the constrained expression of B/Chapter_4/Figure_4_3.py: the entry `M[2][0]` lacks the term `-g(1,y)`, so on the side
`x = 1` the free function remains, and it appears on the sides `y = 0` and `y = 1`: the curves are there if and only if the free function vanishes on that
side. -/
theorem C79_coons_fails (g : ℝ → ℝ → ℝ) :
    (∀ y, coonsCe g 1 y = 3 * Real.cos (4 * Real.pi * y) + g 1 y) ∧ (∀ x, coonsCe g x 0 = 3 * x ^ 2 + x * g 1 0) ∧
    ((∀ y, coonsCe g 1 y = 3 * Real.cos (4 * Real.pi * y)) ↔ ∀ y, g 1 y = 0) := by
  obtain ⟨a, b, c⟩ := coons_trig
  have h1 : ∀ y, coonsCe g 1 y = 3 * Real.cos (4 * Real.pi * y) + g 1 y := by
    intro y
    simp only [coonsCe_eq, mul_one, b]
    ring
  refine ⟨h1, fun x => ?_, ?_⟩
  · simp only [coonsCe_eq, mul_zero, Real.sin_zero, Real.cos_zero]
    ring
  · simp only [h1, add_eq_left]

example : ∃ g : ℝ → ℝ → ℝ, ¬ ∀ y, coonsCe g 1 y = 3 * Real.cos (4 * Real.pi * y) :=
  ⟨fun _ _ => 1, fun h => one_ne_zero ((C79_coons_fails _).2.2.mp h 0)⟩

/-! ## `mtfc` objects as free functions -/

theorem partial_left (f : (Fin 2 → ℝ) → ℝ) (x y : ℝ) : partialDeriv 0 f ![x, y] = dx (fun x y => f ![x, y]) x y := by
  unfold partialDeriv dx
  have : ∀ t : ℝ, Function.update ![x, y] 0 t = ![t, y] := by
    intro t
    funext k
    fin_cases k <;> rfl
  simp only [this]
  rfl

theorem partial_right (f : (Fin 2 → ℝ) → ℝ) (x y : ℝ) : partialDeriv 1 f ![x, y] = dy (fun x y => f ![x, y]) x y := by
  unfold partialDeriv dy
  have : ∀ t : ℝ, Function.update ![x, y] 1 t = ![x, t] := by
    intro t
    funext k
    fin_cases k <;> rfl
  simp only [this]
  rfl

theorem iterate_left (f : (Fin 2 → ℝ) → ℝ) (a : ℕ) :
    (fun x y => (partialDeriv 0)^[a] f ![x, y]) = dx^[a] fun x y => f ![x, y] := by
  induction a generalizing f with
  | zero => rfl
  | succ a ih =>
    rw [Function.iterate_succ_apply, Function.iterate_succ_apply, ih]
    congr 1
    funext x y
    exact partial_left f x y

theorem iterate_right (f : (Fin 2 → ℝ) → ℝ) (a : ℕ) :
    (fun x y => (partialDeriv 1)^[a] f ![x, y]) = dy^[a] fun x y => f ![x, y] := by
  induction a generalizing f with
  | zero => rfl
  | succ a ih =>
    rw [Function.iterate_succ_apply, Function.iterate_succ_apply, ih]
    congr 1
    funext x y
    exact partial_right f x y

/-- **C79**, the free functions: for every `mtfc` object in two dimensions (the bases of C76) and every coefficient vector there is a smooth
function `g` of two variables, so that the products of `xi` with `H`, `Hx`, `Hy`, … at any points are the values of `g` and its partial
derivatives there. Hence the theorems above, which hold for all smooth functions, apply to the expressions of the programs. -/
theorem C79_object {n : List ℕ} {nC : MNCArg} {deg : ℕ} {basis backend : String} {x0 xf : Option (List ℝ)} {w : ℕ → ℕ → ℝ} {b : ℕ → ℝ}
    {u : Mtfc} (hu : mtfcInit n nC deg 2 basis x0 xf backend w b = .ok u)
    (hb : basis = "CP" ∨ basis = "LeP" ∨ basis = "FS" ∨
      (basis ≠ "ELMReLU" ∧ ValidRemoval (deg + 1) u.nCl ∧ ∀ k < 2, u.x0 k ≠ u.xf k)) (xi : List ℝ) :
    ∃ g : ℝ → ℝ → ℝ, Smooth2 g ∧ ∀ a c, a + c ≤ 8 → ∀ N X Y, ∃ A, u.Hjax N (points2 X Y) [a, c] false = .ok A ∧ A.rows = N ∧
      ∀ j < N, npDot A xi j = dx^[a] (dy^[c] g) (X j) (Y j) := by
  obtain ⟨G, hG, hs, -⟩ := C76_mtfc (by norm_num) hu hb xi
  refine ⟨fun x y => G ![x, y], ?_, fun a c hac N X Y => ?_⟩
  · unfold Smooth2
    refine hs.comp (contDiff_pi.mpr fun k => ?_)
    fin_cases k
    · exact contDiff_fst
    · exact contDiff_snd
  · obtain ⟨A, hA, hr, hv⟩ := hG [a, c] rfl (by simpa using hac) N (points2 X Y)
    refine ⟨A, hA, hr, fun j hj => ?_⟩
    rw [hv j hj, ← iterate_right, ← iterate_left]
    have hp : (fun k : Fin 2 => points2 X Y j k) = ![X j, Y j] := by
      funext k
      fin_cases k <;> rfl
    rw [hp]
    rfl

/-- The object of D/Chapter_4/WaveEquation/WaveEquation.py with the constants of that program: its expression meets the conditions of the
program for every coefficient vector. -/
example (xi : List ℝ) : ∃ (u : Mtfc) (g : ℝ → ℝ → ℝ),
    mtfcInit [30, 30] (.array1 [2, 2]) 20 2 "LeP" (some [0, 0]) (some [1, 1]) "C++" (fun _ _ => 0) (fun _ => 0) = .ok u ∧
    (∀ N X Y, ∃ A, u.Hjax N (points2 X Y) [0, 0] false = .ok A ∧ ∀ j < N, npDot A xi j = g (X j) (Y j)) ∧
    (∀ t, wavU g 0 t = 0 ∧ wavU g 1 t = 0) ∧ (∀ x, wavU g x 0 = Real.sin (Real.pi * x)) ∧ ∀ x, dy (wavU g) x 0 = 0 := by
  obtain ⟨r, hr⟩ : ∃ r, mtfcRemoved 20 2 .lep (.array1 [2, 2]) = .ok r := ⟨_, rfl⟩
  obtain ⟨u, hu, -⟩ := mtfcInit_succeeds [30, 30] (.array1 [2, 2]) 20 2 (by omega) "LeP" "C++" [0, 0] [1, 1] (fun _ _ => 0) (fun _ => 0)
    rfl rfl rfl (by simp) .lep (by decide) .cpp (by decide) r hr
  obtain ⟨g, hs, hg⟩ := C79_object hu (Or.inr (Or.inl rfl)) xi
  refine ⟨u, g, hu, fun N X Y => ?_, C79_wave g fun x => (hs.right x).differentiable (by simp)⟩
  obtain ⟨A, hA, -, hv⟩ := hg 0 0 (by norm_num) N X Y
  exact ⟨A, hA, hv⟩

/-- The smooth function `sin x · cos y` as free function of the expressions that need smoothness. -/
example : (∀ th, polU affG 1 th = polReal 1 th) ∧ (∀ y, bihU affG 0 y = 0) ∧ (∫ t in (4 : ℝ)..5, affU affG affInt (t, t) * Real.sqrt 2) = -2 :=
  ⟨fun th => ((C79_polar affG C79_affine_int.2.2).1 th).1, fun y => ((C79_biharmonic affG C79_affine_int.2.2).1 y).1,
    (C79_affine affG C79_affine_int.2.2 affInt C79_affine_int.2.1).2.2.2.1⟩

/-- The constants of E/PDE/Burgers1D.py. -/
example (g : ℝ → ℝ → ℝ) (t : ℝ) : burU ⟨1, 0.5, 1, -3, 3⟩ g (-3) t = burReal ⟨1, 0.5, 1, -3, 3⟩ (-3) t :=
  ((C79_burgers ⟨1, 0.5, 1, -3, 3⟩ (by norm_num) g).1 t).1

end Verif.Props
