import Verif.Spec.Planar
import Verif.Props.ThreeBody
import Verif.Lemmas.Flow
import Mathlib.Analysis.SpecialFunctions.Sqrt
import Mathlib.Analysis.SpecialFunctions.Pow.Deriv

/-! # The equations of motion in the plane: smoothness and linearisation -/

namespace Verif.Lemmas

open Set Verif.Spec Verif.Props
open scoped ContDiff

variable {μ : ℝ}

theorem apart_open (μ : ℝ) : IsOpen {s : Fin 4 → ℝ | Apart μ s} := by
  have h1 : Continuous fun s : Fin 4 → ℝ => dist1 μ ![s 0, s 1, 0] := by unfold dist1; simp only [Matrix.cons_val_zero, Matrix.cons_val_one, Matrix.cons_val]; fun_prop
  have h2 : Continuous fun s : Fin 4 → ℝ => dist2 μ ![s 0, s 1, 0] := by unfold dist2; simp only [Matrix.cons_val_zero, Matrix.cons_val_one, Matrix.cons_val]; fun_prop
  exact (isOpen_ne_fun h1 continuous_const).inter (isOpen_ne_fun h2 continuous_const)

theorem dist1_contDiff {s : Fin 4 → ℝ} (h : dist1 μ ![s 0, s 1, 0] ≠ 0) : ContDiffAt ℝ 2 (fun s : Fin 4 → ℝ => dist1 μ ![s 0, s 1, 0]) s := by
  unfold dist1 at h ⊢
  refine ContDiffAt.sqrt ?_ (Real.sqrt_ne_zero'.1 h).ne'
  simp only [Matrix.cons_val_zero, Matrix.cons_val_one, Matrix.cons_val]
  fun_prop

theorem dist2_contDiff {s : Fin 4 → ℝ} (h : dist2 μ ![s 0, s 1, 0] ≠ 0) : ContDiffAt ℝ 2 (fun s : Fin 4 → ℝ => dist2 μ ![s 0, s 1, 0]) s := by
  unfold dist2 at h ⊢
  refine ContDiffAt.sqrt ?_ (Real.sqrt_ne_zero'.1 h).ne'
  simp only [Matrix.cons_val_zero, Matrix.cons_val_one, Matrix.cons_val]
  fun_prop

theorem planar_contDiff (μ : ℝ) : ContDiffOn ℝ 2 (planarField μ) {s | Apart μ s} := by
  rintro s ⟨h1, h2⟩
  refine ContDiffAt.contDiffWithinAt ?_
  have e1 := (dist1_contDiff h1).pow 3
  have e2 := (dist2_contDiff h2).pow 3
  have n1 := pow_ne_zero 3 h1
  have n2 := pow_ne_zero 3 h2
  rw [contDiffAt_pi]
  intro i
  fin_cases i
  · show ContDiffAt ℝ 2 (fun s : Fin 4 → ℝ => s 2) s; fun_prop
  · show ContDiffAt ℝ 2 (fun s : Fin 4 → ℝ => s 3) s; fun_prop
  · show ContDiffAt ℝ 2 (fun s : Fin 4 → ℝ => acceleration μ ![s 0, s 1, 0] ![s 2, s 3, 0] 0) s
    unfold acceleration
    refine ContDiffAt.sub (ContDiffAt.sub ?_ (ContDiffAt.div ?_ e1 n1)) (ContDiffAt.div ?_ e2 n2) <;>
      (simp only [Matrix.cons_val_zero, Matrix.cons_val_one, Matrix.cons_val]; fun_prop)
  · show ContDiffAt ℝ 2 (fun s : Fin 4 → ℝ => acceleration μ ![s 0, s 1, 0] ![s 2, s 3, 0] 1) s
    unfold acceleration
    refine ContDiffAt.sub (ContDiffAt.sub ?_ (ContDiffAt.div ?_ e1 n1)) (ContDiffAt.div ?_ e2 n2) <;>
      (simp only [Matrix.cons_val_zero, Matrix.cons_val_one, Matrix.cons_val]; fun_prop)

/-- The matrix of the linearised equations. -/
noncomputable def planarJac (μ : ℝ) (s : Fin 4 → ℝ) : Fin 4 → Fin 4 → ℝ :=
  let r1 := dist1 μ ![s 0, s 1, 0]
  let r2 := dist2 μ ![s 0, s 1, 0]
  ![![0, 0, 1, 0], ![0, 0, 0, 1],
    ![1 - (1 - μ) * (1 / r1 ^ 3 - 3 * (s 0 + μ) ^ 2 / r1 ^ 5) - μ * (1 / r2 ^ 3 - 3 * (s 0 - (1 - μ)) ^ 2 / r2 ^ 5),
      (1 - μ) * 3 * s 1 * (s 0 + μ) / r1 ^ 5 + μ * 3 * s 1 * (s 0 - (1 - μ)) / r2 ^ 5, 0, 2],
    ![(1 - μ) * 3 * s 1 * (s 0 + μ) / r1 ^ 5 + μ * 3 * s 1 * (s 0 - (1 - μ)) / r2 ^ 5,
      1 - (1 - μ) * (1 / r1 ^ 3 - 3 * s 1 ^ 2 / r1 ^ 5) - μ * (1 / r2 ^ 3 - 3 * s 1 ^ 2 / r2 ^ 5), -2, 0]]

theorem planar_fderiv {s : Fin 4 → ℝ} (h : Apart μ s) (v : Fin 4 → ℝ) : fderiv ℝ (planarField μ) s v = fun i => ∑ l, planarJac μ s i l * v l := by
  have hd : DifferentiableAt ℝ (planarField μ) s := ((planar_contDiff μ).contDiffAt ((apart_open μ).mem_nhds h)).differentiableAt (by norm_num)
  have hline : ∀ i, HasDerivAt (fun t : ℝ => s i + t * v i) (v i) 0 := fun i => by
    have := ((hasDerivAt_id (0 : ℝ)).mul_const (v i)).const_add (s i)
    simpa using this
  have hcurve : HasDerivAt (fun t : ℝ => fun i => s i + t * v i) v 0 := hasDerivAt_pi.2 hline
  have e0 : (fun i => s i + (0 : ℝ) * v i) = s := by funext i; ring
  have hcomp : HasDerivAt (fun t : ℝ => planarField μ fun i => s i + t * v i) (fderiv ℝ (planarField μ) s v) 0 := by
    have h2 : HasFDerivAt (planarField μ) (fderiv ℝ (planarField μ) s) (fun i => s i + (0 : ℝ) * v i) := by rw [e0]; exact hd.hasFDerivAt
    exact h2.comp_hasDerivAt (0 : ℝ) hcurve
  refine hcomp.unique (hasDerivAt_pi.2 fun i => ?_)
  obtain ⟨h1, h2⟩ := h
  have hp : ∀ i, HasDerivAt ((![fun t : ℝ => s 0 + t * v 0, fun t => s 1 + t * v 1, fun _ => 0] : Fin 3 → ℝ → ℝ) i) ((![v 0, v 1, 0] : Fin 3 → ℝ) i) 0 := fun i => by
    fin_cases i
    · exact hline 0
    · exact hline 1
    · exact hasDerivAt_const _ _
  have ev : ∀ t : ℝ, (fun i => (![fun t : ℝ => s 0 + t * v 0, fun t => s 1 + t * v 1, fun _ => 0] : Fin 3 → ℝ → ℝ) i t) = ![s 0 + t * v 0, s 1 + t * v 1, 0] := by
    intro t; funext i; fin_cases i <;> rfl
  have ev0 : (![s 0 + 0 * v 0, s 1 + 0 * v 1, 0] : Fin 3 → ℝ) = ![s 0, s 1, 0] := by simp
  have d1 := dist1_deriv (μ := μ) hp (by rw [ev, ev0]; exact h1)
  have d2 := dist2_deriv (μ := μ) hp (by rw [ev, ev0]; exact h2)
  simp only [ev] at d1 d2
  simp only [Matrix.cons_val_zero, Matrix.cons_val_one, Matrix.cons_val, zero_mul, add_zero, mul_zero] at d1 d2
  have r1 : dist1 μ ![s 0 + 0 * v 0, s 1 + 0 * v 1, 0] = dist1 μ ![s 0, s 1, 0] := by simp
  have r2 : dist2 μ ![s 0 + 0 * v 0, s 1 + 0 * v 1, 0] = dist2 μ ![s 0, s 1, 0] := by simp
  have h1' : dist1 μ ![s 0 + 0 * v 0, s 1 + 0 * v 1, 0] ^ 3 ≠ 0 := by rw [r1]; exact pow_ne_zero 3 h1
  have h2' : dist2 μ ![s 0 + 0 * v 0, s 1 + 0 * v 1, 0] ^ 3 ≠ 0 := by rw [r2]; exact pow_ne_zero 3 h2
  fin_cases i
  · have := hline 2
    show HasDerivAt (fun t : ℝ => s 2 + t * v 2) _ 0
    refine this.congr_deriv ?_
    simp [planarJac, Fin.sum_univ_four]
  · have := hline 3
    show HasDerivAt (fun t : ℝ => s 3 + t * v 3) _ 0
    refine this.congr_deriv ?_
    simp [planarJac, Fin.sum_univ_four]
  · show HasDerivAt (fun t : ℝ => 2 * (s 3 + t * v 3) + (s 0 + t * v 0) - (1 - μ) * ((s 0 + t * v 0) - -μ) / dist1 μ ![s 0 + t * v 0, s 1 + t * v 1, 0] ^ 3
      - μ * ((s 0 + t * v 0) - (1 - μ)) / dist2 μ ![s 0 + t * v 0, s 1 + t * v 1, 0] ^ 3) _ 0
    refine ((((((hline 3).const_mul 2).add (hline 0)).sub ((((hline 0).sub_const (-μ)).const_mul (1 - μ)).div (d1.pow 3) h1')).sub
      ((((hline 0).sub_const (1 - μ)).const_mul μ).div (d2.pow 3) h2'))).congr_deriv ?_
    simp only [planarJac, Fin.sum_univ_four, Pi.pow_apply, r1, r2, zero_mul, add_zero]
    generalize dist1 μ ![s 0, s 1, 0] = ρ1 at h1
    generalize dist2 μ ![s 0, s 1, 0] = ρ2 at h2
    simp
    field_simp
    ring
  · show HasDerivAt (fun t : ℝ => -(2 * (s 2 + t * v 2)) + (s 1 + t * v 1) - (1 - μ) * ((s 1 + t * v 1) - 0) / dist1 μ ![s 0 + t * v 0, s 1 + t * v 1, 0] ^ 3
      - μ * ((s 1 + t * v 1) - 0) / dist2 μ ![s 0 + t * v 0, s 1 + t * v 1, 0] ^ 3) _ 0
    refine ((((((hline 2).const_mul 2).neg.add (hline 1)).sub ((((hline 1).sub_const 0).const_mul (1 - μ)).div (d1.pow 3) h1')).sub
      ((((hline 1).sub_const 0).const_mul μ).div (d2.pow 3) h2'))).congr_deriv ?_
    simp only [planarJac, Fin.sum_univ_four, Pi.pow_apply, r1, r2, zero_mul, add_zero]
    generalize dist1 μ ![s 0, s 1, 0] = ρ1 at h1
    generalize dist2 μ ![s 0, s 1, 0] = ρ2 at h2
    simp
    field_simp
    ring

end Verif.Lemmas
