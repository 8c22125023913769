import Verif.Props.Expr
import Verif.Model.Programs

/-! # Lemmas for the programs in /repo/examples -/

namespace Verif

open Verif.Py Verif.Np Verif.Spec Verif.Model Verif.Model.Py Verif.Model.Prog Verif.Props

theorem deriv_mul_left (c z : ℝ) : deriv (HMul.hMul c) z = c := by
  simp

/-- Differentiate an expression made of a differentiable function and polynomials. -/
macro "deriv_expr" : tactic => `(tactic|
  simp (disch := fun_prop) only [deriv_fun_add, deriv_fun_sub, deriv_fun_mul, deriv.fun_neg, deriv_fun_div, deriv_div_const, deriv_const, deriv_fun_pow,
    deriv_id'', deriv_mul_left])

theorem built_points {N : ℕ} (hN : 2 ≤ N) {basis : String} {x0 xf : ℝ} (hx : x0 < xf) {u : Utfc} (hu : Built N basis x0 xf u) :
    first u.x = x0 ∧ last u.x = xf := by
  obtain ⟨nC, deg, backend, w, b, hu⟩ := hu
  obtain ⟨-, -, -, h1, h2, -, -⟩ := C13_points N hN nC deg basis backend x0 xf hx w b u hu
  refine ⟨?_, ?_⟩
  · unfold first
    rw [List.headD_eq_head?_getD, h1]; rfl
  · unfold last
    rw [List.getLastD_eq_getLast?, h2]; rfl

theorem built_z {N : ℕ} (hN : 2 ≤ N) {basis : String} (hb : basis = "CP" ∨ basis = "LeP") {u : Utfc}
    (hu : Built N basis (-1) 1 u) : u.z = u.x := by
  obtain ⟨nC, deg, backend, w, b, hu⟩ := hu
  obtain ⟨-, -, -, -, -, -, h⟩ := C13_points N hN nC deg basis backend (-1) 1 (by norm_num) w b u hu
  have hcls := (utfcInit_ok hu).2.2.2.2.2
  have harg : ∀ x : ℝ, u.cls.arg (-1) 1 x = x := by
    intro x
    rw [hcls.2]
    rcases hb with rfl | rfl
    · have h6 : BasisName.parse "CP" = some .cp := by decide
      rw [h6] at hcls
      rw [← Option.some.inj hcls.1]
      simp only [BasisName.cls, UniClass.arg, PolyFamily.arg, toBasis]
      ring
    · have h6 : BasisName.parse "LeP" = some .lep := by decide
      rw [h6] at hcls
      rw [← Option.some.inj hcls.1]
      simp only [BasisName.cls, UniClass.arg, PolyFamily.arg, toBasis]
      ring
  rw [← h]
  rw [show (u.cls.arg (-1) 1) = id from funext harg]
  simp

/-- What the programs use of C76. -/
theorem evaluates_fn {u : Utfc} (hu : Ready u) {xi : List ℝ} {h : ℕ → ℝ → ℝ} (hh : Evaluates u xi h) :
    Differentiable ℝ (h 0) ∧ h 1 = deriv (h 0) := by
  obtain ⟨h0, h1⟩ := evaluates_eq hu hh
  rw [h1, h0]
  exact ⟨(freeFn_contDiff u hu xi).differentiable (by simp), rfl⟩

end Verif
