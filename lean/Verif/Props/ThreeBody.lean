import Verif.Spec.ThreeBody
import Verif.Lemmas.PeriodicOrbit
import Mathlib.Analysis.SpecialFunctions.Sqrt
import Mathlib.Analysis.Calculus.Deriv.Inv
import Mathlib.Analysis.Calculus.MeanValue
import Mathlib.Analysis.Calculus.Deriv.Prod
import Mathlib.Analysis.Calculus.Deriv.Pi

/-! # The restricted three-body problem: the constant of Jacobi, and curves that close up -/

namespace Verif.Props

open Set Verif.Spec

variable {μ : ℝ}

theorem dist1_deriv {p : Fin 3 → ℝ → ℝ} {dp : Fin 3 → ℝ} {t : ℝ} (h : ∀ i, HasDerivAt (p i) (dp i) t) (hd : dist1 μ (fun i => p i t) ≠ 0) :
    HasDerivAt (fun t => dist1 μ fun i => p i t)
      (((p 0 t + μ) * dp 0 + p 1 t * dp 1 + p 2 t * dp 2) / dist1 μ fun i => p i t) t := by
  unfold dist1 at hd ⊢
  have hne := (Real.sqrt_ne_zero'.1 hd).ne'
  refine ((((((h 0).add_const μ).pow 2).add ((h 1).pow 2)).add ((h 2).pow 2)).sqrt hne).congr_deriv ?_
  simp only [Pi.add_apply, Pi.pow_apply]
  beta_reduce at hd
  generalize Real.sqrt ((p 0 t + μ) ^ 2 + p 1 t ^ 2 + p 2 t ^ 2) = r at hd ⊢
  field_simp
  push_cast
  ring

theorem dist2_deriv {p : Fin 3 → ℝ → ℝ} {dp : Fin 3 → ℝ} {t : ℝ} (h : ∀ i, HasDerivAt (p i) (dp i) t) (hd : dist2 μ (fun i => p i t) ≠ 0) :
    HasDerivAt (fun t => dist2 μ fun i => p i t)
      (((p 0 t - (1 - μ)) * dp 0 + p 1 t * dp 1 + p 2 t * dp 2) / dist2 μ fun i => p i t) t := by
  unfold dist2 at hd ⊢
  have hne := (Real.sqrt_ne_zero'.1 hd).ne'
  refine ((((((h 0).sub_const (1 - μ)).pow 2).add ((h 1).pow 2)).add ((h 2).pow 2)).sqrt hne).congr_deriv ?_
  simp only [Pi.add_apply, Pi.pow_apply]
  beta_reduce at hd
  generalize Real.sqrt ((p 0 t - (1 - μ)) ^ 2 + p 1 t ^ 2 + p 2 t ^ 2) = r at hd ⊢
  field_simp
  push_cast
  ring

/-- The constant of Jacobi along a curve that misses the equations of motion by `e`, in a time that runs at the rate `c`. -/
theorem jacobi_deriv {p v : Fin 3 → ℝ → ℝ} {e : Fin 3 → ℝ} {c t : ℝ} (hp : ∀ i, HasDerivAt (p i) (c * v i t) t)
    (hv : ∀ i, HasDerivAt (v i) (c * (acceleration μ (fun k => p k t) (fun k => v k t) i - e i)) t)
    (h1 : dist1 μ (fun i => p i t) ≠ 0) (h2 : dist2 μ (fun i => p i t) ≠ 0) :
    HasDerivAt (fun t => jacobi μ (fun i => p i t) fun i => v i t) (2 * c * ∑ i, v i t * e i) t := by
  have d1 := dist1_deriv hp h1
  have d2 := dist2_deriv hp h2
  have hJ := ((((((hp 0).pow 2).add ((hp 1).pow 2)).add ((hasDerivAt_const t (2 * (1 - μ))).div d1 h1)).add
    ((hasDerivAt_const t (2 * μ)).div d2 h2)).add_const (μ * (1 - μ))).sub ((((hv 0).pow 2).add ((hv 1).pow 2)).add ((hv 2).pow 2))
  unfold jacobi
  refine hJ.congr_deriv ?_
  simp only [acceleration, Fin.sum_univ_three]
  generalize dist1 μ (fun i => p i t) = r1 at *
  generalize dist2 μ (fun i => p i t) = r2 at *
  simp only [Matrix.cons_val_zero, Matrix.cons_val_one, Matrix.cons_val]
  field_simp
  ring

/-- **C106, the constant of Jacobi.** It does not change along a motion. -/
theorem C106_jacobi {X : Fin 3 → ℝ → ℝ} (h : ThreeBody μ X) (t s : ℝ) :
    jacobi μ (fun i => X i t) (fun i => deriv (X i) t) = jacobi μ (fun i => X i s) fun i => deriv (X i) s := by
  have hd : ∀ t, HasDerivAt (fun t => jacobi μ (fun i => X i t) fun i => deriv (X i) t) 0 t := by
    intro t
    have := jacobi_deriv (μ := μ) (p := X) (v := fun i => deriv (X i)) (e := fun _ => 0) (c := 1) (t := t) (fun i => by rw [one_mul]; exact h.velocity i t)
      (fun i => by rw [one_mul, sub_zero]; exact h.law i t) (h.apart1 t) (h.apart2 t)
    simpa using this
  exact is_const_of_deriv_eq_zero (fun t => (hd t).differentiableAt) (fun t => (hd t).deriv) t s

theorem dist1_cont (μ : ℝ) : Continuous (dist1 μ) := by
  unfold dist1
  fun_prop

theorem dist2_cont (μ : ℝ) : Continuous (dist2 μ) := by
  unfold dist2
  fun_prop

/-- A curve on `[-1, 1]` that satisfies the equations of motion, with the rate `ρ` of the time, and closes up with its velocity, is a periodic motion. -/
theorem periodic_motion {r v : Fin 3 → ℝ → ℝ} {ρ : (Fin 3 → ℝ) → ℝ} (hρ : Continuous ρ)
    (hr : ∀ i, ∀ z ∈ Icc (-1 : ℝ) 1, HasDerivAt (r i) (ρ (fun k => r k z) * v i z) z)
    (hv : ∀ i, ∀ z ∈ Icc (-1 : ℝ) 1, HasDerivAt (v i) (ρ (fun k => r k z) * acceleration μ (fun k => r k z) (fun k => v k z) i) z)
    (her : ∀ i, r i (-1) = r i 1) (hev : ∀ i, v i (-1) = v i 1) (hpos : ∀ z ∈ Icc (-1 : ℝ) 1, 0 < ρ fun k => r k z)
    (h1 : ∀ z ∈ Icc (-1 : ℝ) 1, dist1 μ (fun k => r k z) ≠ 0) (h2 : ∀ z ∈ Icc (-1 : ℝ) 1, dist2 μ (fun k => r k z) ≠ 0) :
    0 < ∫ z in (-1 : ℝ)..1, ρ (fun k => r k z) ∧ ∃ X, ThreeBody μ X ∧ PeriodicMotion (∫ z in (-1 : ℝ)..1, ρ fun k => r k z) X ∧
      (∀ z ∈ Icc (-1 : ℝ) 1, ∀ i, X i (∫ y in (-1 : ℝ)..z, ρ fun k => r k y) = r i z ∧
        deriv (X i) (∫ y in (-1 : ℝ)..z, ρ fun k => r k y) = v i z) ∧
      ∀ t, ∃ z ∈ Icc (-1 : ℝ) 1, ∀ i, X i t = r i z ∧ deriv (X i) t = v i z := by
  obtain ⟨hP, X, hX1, hX2, hX3, hX4⟩ := Verif.Lemmas.periodic_orbit (E := (Fin 3 → ℝ) × (Fin 3 → ℝ)) (w := fun z => (fun k => r k z, fun k => v k z))
    (F := fun s => (s.2, fun i => acceleration μ s.1 s.2 i)) (ρ := fun s => ρ s.1)
    (fun z hz => by
      rw [Prod.smul_mk]
      refine HasDerivAt.prodMk (hasDerivAt_pi.2 fun i => ?_) (hasDerivAt_pi.2 fun i => ?_)
      · exact hr i z hz
      · exact hv i z hz)
    (Prod.ext (funext her) (funext hev)) hpos fun z _ => (hρ.comp continuous_fst).continuousAt
  refine ⟨hP, fun i t => (X t).1 i, ?_, ?_, ?_, ?_⟩
  · have hvel : ∀ i t, HasDerivAt (fun t => (X t).1 i) ((X t).2 i) t := fun i t =>
      hasDerivAt_pi.1 ((hX2 t).fst) i
    have hacc : ∀ i t, HasDerivAt (fun t => (X t).2 i) (acceleration μ (X t).1 (X t).2 i) t := fun i t =>
      hasDerivAt_pi.1 ((hX2 t).snd) i
    have hder : ∀ i, deriv (fun t => (X t).1 i) = fun t => (X t).2 i := fun i => funext fun t => (hvel i t).deriv
    refine ⟨fun t => ?_, fun t => ?_, fun i t => ?_, fun i t => ?_⟩
    · obtain ⟨z, hz, e⟩ := hX4 t
      show dist1 μ (X t).1 ≠ 0
      rw [e]
      exact h1 z hz
    · obtain ⟨z, hz, e⟩ := hX4 t
      show dist2 μ (X t).1 ≠ 0
      rw [e]
      exact h2 z hz
    · rw [hder]
      exact hvel i t
    · simp only [hder]
      exact hacc i t
  · intro i t
    show (X (t + _)).1 i = (X t).1 i
    rw [hX1 t]
  · intro z hz i
    have hvel : ∀ t, HasDerivAt (fun t => (X t).1 i) ((X t).2 i) t := fun t => hasDerivAt_pi.1 ((hX2 t).fst) i
    have e := hX3 z hz
    refine ⟨?_, ?_⟩
    · show (X _).1 i = _
      rw [e]
    · rw [(hvel _).deriv]
      show (X _).2 i = _
      rw [e]
  · intro t
    obtain ⟨z, hz, e⟩ := hX4 t
    refine ⟨z, hz, fun i => ?_⟩
    have hvel : HasDerivAt (fun t => (X t).1 i) ((X t).2 i) t := hasDerivAt_pi.1 ((hX2 t).fst) i
    refine ⟨?_, ?_⟩
    · show (X t).1 i = _
      rw [e]
    · rw [hvel.deriv, e]

end Verif.Props
