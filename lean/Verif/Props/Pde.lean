import Verif.Model.Pde
import Verif.Props.MSpan
import Mathlib.Analysis.SpecialFunctions.Trigonometric.Deriv

/-! # The constrained expression in two variables (C70) -/

namespace Verif.Props

open Verif Verif.Mem Verif.Py Verif.Np Verif.Spec Verif.Model Verif.Model.Py

theorem fourier_differentiable (k : ℕ) : Differentiable ℝ (fourier k) := by
  unfold fourier
  split_ifs
  · exact differentiable_const _
  · fun_prop
  · fun_prop

theorem tensor_basis_differentiable (f : NFamily) (x0 xf : ℝ) (k : ℕ) : Differentiable ℝ (f.cls.basis x0 xf k) := by
  have hp : ∀ p : Polynomial ℝ, Differentiable ℝ (fun x => p.eval x) := fun p => p.differentiable
  have ha : Differentiable ℝ (fun x => f.cls.arg x0 xf x) := by
    cases f <;> (simp only [NFamily.cls, UniClass.arg, PolyFamily.arg, toBasis]; fun_prop)
  cases f
  · exact (hp _).comp ha
  · exact (hp _).comp ha
  · exact (fourier_differentiable k).comp ha

/-- `H(x, y) @ ξ` and its derivative in `y`. -/
theorem mtfc_two (u : Mtfc) {n : List ℕ} {nC : MNCArg} {deg : ℕ} {basis backend : String}
    {x0 xf : Option (List ℝ)} {w : ℕ → ℕ → ℝ} {b : ℕ → ℝ}
    (hu : mtfcInit n nC deg 2 basis x0 xf backend w b = .ok u) {f : NFamily} (hf : u.basis.mcls w b = .tensor f) :
    ∃ G : List ℝ → ℝ → ℝ → ℝ, (∀ xi x, Differentiable ℝ (G xi x)) ∧ ∀ e ≤ 1, ∀ n X Y,
      ∃ A, u.Hjax n (points2 X Y) [0, e] false = .ok A ∧ ∀ xi, ∀ j < n, npDot A xi j = iteratedDeriv e (G xi (X j)) (Y j) := by
  obtain ⟨L, -, hL⟩ := mtfc_tensor_H (by omega) hu hf false
  obtain ⟨g, hg⟩ : ∃ g : (Fin 2 → ℕ) → Fin 2 → ℝ → ℝ, g = fun (α : Fin 2 → ℕ) (k : Fin 2) => f.cls.basis (u.x0 k) (u.xf k) (α k) := ⟨_, rfl⟩
  have hgd : ∀ α k, Differentiable ℝ (g α k) := by
    intro α k
    rw [hg]
    exact tensor_basis_differentiable f _ _ _
  refine ⟨fun xi x y => ∑ i : Fin L.length, xi.getD i 0 * (g L[i] 0 x * g L[i] 1 y), ?_, fun e he n X Y => ?_⟩
  · intro xi x
    have : ∀ i : Fin L.length, Differentiable ℝ fun y => xi.getD i 0 * (g L[i] 0 x * g L[i] 1 y) := fun i =>
      ((hgd _ _).const_mul _).const_mul _
    exact Differentiable.fun_sum fun i _ => this i
  · obtain ⟨A, hA, -, hc, hv⟩ := hL n (points2 X Y) [0, e] (by simp)
    refine ⟨A, hA, fun xi j hj => ?_⟩
    have hsum : iteratedDeriv e (fun y => ∑ i : Fin L.length, xi.getD i 0 * (g L[i] 0 (X j) * g L[i] 1 y)) (Y j) =
        ∑ i : Fin L.length, xi.getD i 0 * (g L[i] 0 (X j) * iteratedDeriv e (g L[i] 1) (Y j)) := by
      match e, he with
      | 0, _ => simp only [iteratedDeriv_zero]
      | 1, _ =>
        simp only [iteratedDeriv_one]
        rw [deriv_fun_sum fun i _ => (((hgd _ _).const_mul _).const_mul _) _]
        refine Finset.sum_congr rfl fun i _ => ?_
        rw [deriv_const_mul _ (((hgd _ _).const_mul _) _), deriv_const_mul _ ((hgd _ _) _)]
    rw [hsum]
    unfold npDot
    rw [hc, Finset.sum_range]
    refine Finset.sum_congr rfl fun i _ => ?_
    rw [hv j hj i i.2, mul_comm]
    congr 1
    have htens : ∀ α, f.cls.tensor (fun k : Fin 2 => u.x0 k) (fun k => u.xf k) α = fun x => ∏ k, g α k (x k) := by
      intro α
      rw [hg]; rfl
    beta_reduce
    rw [htens, mixedPartial_tensor]
    simp [points2]

/-- **C70.** For every `mtfc` object in two dimensions with a Chebyshev, Legendre or Fourier basis (both backends, any removed
functions, any domain), every coefficient vector and every function `k` with `k(0) = k(1) = 0`: `z` and `zy` are evaluated without an
error, they are one function `Z` and its derivative in `y`, and this function meets the boundary conditions of the problem everywhere on
the boundary, whatever the coefficients: `Z = 0` for `x = 0`, `x = 1` and `y = 0`, and `∂Z/∂y = k(x)` for `y = 1`. -/
theorem C70_expression (n : List ℕ) (nC : MNCArg) (deg : ℕ) (basis backend : String)
    (hb : basis = "CP" ∨ basis = "LeP" ∨ basis = "FS") (x0 xf : Option (List ℝ)) (w : ℕ → ℕ → ℝ) (b : ℕ → ℝ) (u : Mtfc)
    (hu : mtfcInit n nC deg 2 basis x0 xf backend w b = .ok u) (k : ℝ → ℝ) (hk0 : k 0 = 0) (hk1 : k 1 = 0) (xi : List ℝ) :
    ∃ Z : ℝ → ℝ → ℝ,
      (∀ N X Y, zEval u k xi N X Y = .ok ((List.range N).map fun j => Z (X j) (Y j))) ∧
      (∀ N X Y, zyEval u k xi N X Y = .ok ((List.range N).map fun j => deriv (Z (X j)) (Y j))) ∧
      (∀ y, Z 0 y = 0) ∧ (∀ y, Z 1 y = 0) ∧ (∀ x, Z x 0 = 0) ∧ ∀ x, deriv (Z x) 1 = k x := by
  have hbn : BasisName.parse basis = some u.basis := (mtfcInit_ok hu).2.2.2.2.2.1
  obtain ⟨f, hf⟩ : ∃ f : NFamily, u.basis.mcls w b = .tensor f := by
    rcases hb with rfl | rfl | rfl
    · have h6 : BasisName.parse "CP" = some .cp := by decide
      rw [h6] at hbn
      exact ⟨.cp, by rw [← Option.some.inj hbn]; rfl⟩
    · have h6 : BasisName.parse "LeP" = some .lep := by decide
      rw [h6] at hbn
      exact ⟨.lep, by rw [← Option.some.inj hbn]; rfl⟩
    · have h6 : BasisName.parse "FS" = some .fs := by decide
      rw [h6] at hbn
      exact ⟨.fs, by rw [← Option.some.inj hbn]; rfl⟩
  obtain ⟨G, hG, hH⟩ := mtfc_two u hu hf
  obtain ⟨Z1, hZ1⟩ : ∃ Z1 : ℝ → ℝ → ℝ, Z1 = fun x y => G xi x y - (1 - x) * G xi 0 y - x * G xi 1 y := ⟨_, rfl⟩
  have hd1 : ∀ x, Differentiable ℝ (Z1 x) := by
    intro x
    rw [hZ1]
    exact ((hG xi x).sub ((hG xi 0).const_mul _)).sub ((hG xi 1).const_mul _)
  have hD1 : ∀ x y, deriv (Z1 x) y = deriv (G xi x) y - (1 - x) * deriv (G xi 0) y - x * deriv (G xi 1) y := by
    intro x y
    rw [hZ1]
    exact (((hG xi x y).hasDerivAt.sub ((hG xi 0 y).hasDerivAt.const_mul (1 - x))).sub
      ((hG xi 1 y).hasDerivAt.const_mul x)).deriv
  have h0 : ∀ y, Z1 0 y = 0 := fun y => by rw [hZ1]; ring
  have h1 : ∀ y, Z1 1 y = 0 := fun y => by rw [hZ1]; ring
  have hz1 : ∀ e ≤ 1, ∀ N X Y, ∃ v, z1 u xi e N X Y = .ok v ∧ ∀ j < N, v j = iteratedDeriv e (Z1 (X j)) (Y j) := by
    intro e he N X Y
    obtain ⟨A, hA, vA⟩ := hH e he N X Y
    obtain ⟨A0, hA0, vA0⟩ := hH e he N (fun _ => 0) Y
    obtain ⟨A1, hA1, vA1⟩ := hH e he N (fun _ => 1) Y
    refine ⟨_, by unfold z1; rw [hA, hA0, hA1]; rfl, fun j hj => ?_⟩
    rw [vA xi j hj, vA0 xi j hj, vA1 xi j hj]
    match e, he with
    | 0, _ => simp only [iteratedDeriv_zero, hZ1]
    | 1, _ => simp only [iteratedDeriv_one, hD1]
  have hder : ∀ x y, deriv (fun y => Z1 x y - Z1 x 0 + y * (k x - deriv (Z1 x) 1)) y =
      deriv (Z1 x) y + (k x - deriv (Z1 x) 1) := by
    intro x y
    have h := (((hd1 x y).hasDerivAt.sub_const (Z1 x 0)).add ((hasDerivAt_id y).mul_const (k x - deriv (Z1 x) 1))).deriv
    rw [one_mul] at h
    exact h
  refine ⟨fun x y => Z1 x y - Z1 x 0 + y * (k x - deriv (Z1 x) 1), fun N X Y => ?_, fun N X Y => ?_, fun y => ?_, fun y => ?_, fun x => ?_,
    fun x => ?_⟩
  · obtain ⟨a, ha, va⟩ := hz1 0 (by omega) N X Y
    obtain ⟨a0, ha0, va0⟩ := hz1 0 (by omega) N X (fun _ => 0)
    obtain ⟨a1, ha1, va1⟩ := hz1 1 le_rfl N X (fun _ => 1)
    unfold zEval
    rw [ha, ha0, ha1]
    simp only [bind, Except.bind]
    refine congrArg Except.ok (List.map_congr_left fun j hj => ?_)
    have hj := List.mem_range.mp hj
    rw [va j hj, va0 j hj, va1 j hj]
    simp only [iteratedDeriv_zero, iteratedDeriv_one]
  · obtain ⟨a, ha, va⟩ := hz1 1 le_rfl N X Y
    obtain ⟨a1, ha1, va1⟩ := hz1 1 le_rfl N X (fun _ => 1)
    unfold zyEval
    rw [ha, ha1]
    simp only [bind, Except.bind]
    refine congrArg Except.ok (List.map_congr_left fun j hj => ?_)
    have hj := List.mem_range.mp hj
    rw [va j hj, va1 j hj]
    simp only [iteratedDeriv_one]
    exact (hder _ _).symm
  · have : deriv (Z1 0) 1 = 0 := by
      rw [show Z1 0 = fun _ => 0 from funext h0]
      simp
    simp [h0, hk0, this]
  · have : deriv (Z1 1) 1 = 0 := by
      rw [show Z1 1 = fun _ => 0 from funext h1]
      simp
    simp [h1, hk1, this]
  · simp
  · rw [hder]
    ring

/-- Concrete case: the object and the boundary data of the test, test_PDE.py 12–35. -/
example (xi : List ℝ) : ∃ (u : Mtfc) (Z : ℝ → ℝ → ℝ), mtfcInit [20, 20] (.array1 [2, 2]) 20 2 "CP" (some [0, 0]) (some [1, 1]) "C++" (fun _ _ => 0) (fun _ => 0) =
      .ok u ∧
    (∀ N X Y, zEval u (fun x => 2 * Real.sin (Real.pi * x)) xi N X Y = .ok ((List.range N).map fun j => Z (X j) (Y j))) ∧
    (∀ y, Z 0 y = 0) ∧ (∀ y, Z 1 y = 0) ∧ (∀ x, Z x 0 = 0) ∧ ∀ x, deriv (Z x) 1 = 2 * Real.sin (Real.pi * x) := by
  obtain ⟨r, hr⟩ : ∃ r, mtfcRemoved 20 2 .cp (.array1 [2, 2]) = .ok r := ⟨_, rfl⟩
  obtain ⟨u, hu, -⟩ := mtfcInit_succeeds [20, 20] (.array1 [2, 2]) 20 2 (by omega) "CP" "C++" [0, 0] [1, 1] (fun _ _ => 0) (fun _ => 0)
    rfl rfl rfl (by simp) .cp (by decide) .cpp (by decide) r hr
  obtain ⟨Z, h1, -, h2⟩ := C70_expression [20, 20] (.array1 [2, 2]) 20 "CP" "C++" (Or.inl rfl) (some [0, 0]) (some [1, 1]) (fun _ _ => 0)
    (fun _ => 0) u hu (fun x => 2 * Real.sin (Real.pi * x)) (by simp) (by simp) xi
  exact ⟨u, Z, hu, h1, h2⟩

end Verif.Props
