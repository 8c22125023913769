import Verif.Lemmas.Energy
import Verif.Props.ResidualWave
import Mathlib.MeasureTheory.Measure.OpenPos

/-! # A small residual means a small error (C96): the wave equation with two space variables -/

namespace Verif.Props

open Verif Verif.Model.Prog Set MeasureTheory
open scoped ContDiff

/-- A smooth function of three variables. -/
def Smooth3 (u : ℝ → ℝ → ℝ → ℝ) : Prop := ContDiff ℝ ∞ fun P : Fin 3 → ℝ => u (P 0) (P 1) (P 2)

theorem deriv_pd0 {U : (Fin 3 → ℝ) → ℝ} (hU : ContDiff ℝ ∞ U) (x y t : ℝ) : HasDerivAt (fun s => U ![s, y, t]) (pd 0 U ![x, y, t]) x := by
  have h := pd_hasDeriv hU 0 ![x, y, t] x
  have e : ∀ s, Function.update (![x, y, t] : Fin 3 → ℝ) 0 s = ![s, y, t] := fun s => by
    funext i
    fin_cases i <;> rfl
  simp only [e] at h
  exact h

theorem deriv_pd1 {U : (Fin 3 → ℝ) → ℝ} (hU : ContDiff ℝ ∞ U) (x y t : ℝ) : HasDerivAt (fun s => U ![x, s, t]) (pd 1 U ![x, y, t]) y := by
  have h := pd_hasDeriv hU 1 ![x, y, t] y
  have e : ∀ s, Function.update (![x, y, t] : Fin 3 → ℝ) 1 s = ![x, s, t] := fun s => by
    funext i
    fin_cases i <;> rfl
  simp only [e] at h
  exact h

theorem deriv_pd2 {U : (Fin 3 → ℝ) → ℝ} (hU : ContDiff ℝ ∞ U) (x y t : ℝ) : HasDerivAt (fun s => U ![x, y, s]) (pd 2 U ![x, y, t]) t := by
  have h := pd_hasDeriv hU 2 ![x, y, t] t
  have e : ∀ s, Function.update (![x, y, t] : Fin 3 → ℝ) 2 s = ![x, y, s] := fun s => by
    funext i
    fin_cases i <;> rfl
  simp only [e] at h
  exact h

theorem vec3 (P : Fin 3 → ℝ) : ![P 0, P 1, P 2] = P := by
  funext i
  fin_cases i <;> rfl

/-- The residual in partial derivatives. -/
theorem wav2Resid_eq {u : ℝ → ℝ → ℝ → ℝ} (hu : Smooth3 u) (x y t : ℝ) : wav2Resid u x y t =
    pd 0 (pd 0 fun P => u (P 0) (P 1) (P 2)) ![x, y, t] + pd 1 (pd 1 fun P => u (P 0) (P 1) (P 2)) ![x, y, t]
      - 64 * pd 2 (pd 2 fun P => u (P 0) (P 1) (P 2)) ![x, y, t] := by
  have e0 : ∀ x, deriv (fun x => u x y t) x = pd 0 (fun P => u (P 0) (P 1) (P 2)) ![x, y, t] := fun x => (deriv_pd0 hu x y t).deriv
  have e1 : ∀ y, deriv (fun y => u x y t) y = pd 1 (fun P => u (P 0) (P 1) (P 2)) ![x, y, t] := fun y => (deriv_pd1 hu x y t).deriv
  have e2 : ∀ t, deriv (fun t => u x y t) t = pd 2 (fun P => u (P 0) (P 1) (P 2)) ![x, y, t] := fun t => (deriv_pd2 hu x y t).deriv
  unfold wav2Resid
  simp only [e0, e1, e2]
  rw [(deriv_pd0 (pd_smooth hu 0) x y t).deriv, (deriv_pd1 (pd_smooth hu 1) x y t).deriv, (deriv_pd2 (pd_smooth hu 2) x y t).deriv]

/-- The integral over the unit square, as an iterated integral. -/
theorem square_integral {F : ℝ → ℝ → ℝ} (hF : Continuous fun P : ℝ × ℝ => F P.1 P.2) :
    ∫ Q in Icc (0 : Fin 2 → ℝ) 1, F (Q 0) (Q 1) = ∫ x in (0 : ℝ)..1, ∫ y in (0 : ℝ)..1, F x y := by
  have pre : Icc (0 : Fin 2 → ℝ) 1 = (MeasurableEquiv.finTwoArrow : (Fin 2 → ℝ) ≃ᵐ ℝ × ℝ) ⁻¹' (Icc (0 : ℝ) 1 ×ˢ Icc (0 : ℝ) 1) := by
    ext Q
    simp only [mem_Icc, Pi.le_def, Fin.forall_fin_two, mem_preimage, mem_prod, MeasurableEquiv.finTwoArrow_apply]
    simp
    tauto
  have h := (volume_preserving_finTwoArrow ℝ).setIntegral_preimage_emb MeasurableEquiv.finTwoArrow.measurableEmbedding
    (fun P : ℝ × ℝ => F P.1 P.2) (Icc (0 : ℝ) 1 ×ˢ Icc (0 : ℝ) 1)
  rw [← pre] at h
  refine h.trans ?_
  rw [Measure.volume_eq_prod, setIntegral_prod _ (by
    rw [← Measure.volume_eq_prod]
    exact hF.continuousOn.integrableOn_compact (isCompact_Icc.prod isCompact_Icc))]
  rw [intervalIntegral.integral_of_le zero_le_one, ← integral_Icc_eq_integral_Ioc]
  refine setIntegral_congr_fun measurableSet_Icc fun x _ => ?_
  beta_reduce
  rw [intervalIntegral.integral_of_le zero_le_one, ← integral_Icc_eq_integral_Ioc]

theorem wav2Real_smooth : Smooth3 wav2Real := by
  unfold Smooth3 wav2Real
  fun_prop

/-- The conditions for the difference from the reference solution. -/
theorem wave2_difference (u : ℝ → ℝ → ℝ → ℝ) (hu : Smooth3 u) {τ R : ℝ} (hτ : 0 < τ)
    (hx : ∀ y ∈ Icc (0 : ℝ) 1, ∀ t ∈ Icc 0 τ, u 0 y t = 0 ∧ u 1 y t = 0) (hy : ∀ x ∈ Icc (0 : ℝ) 1, ∀ t ∈ Icc 0 τ, u x 0 t = 0 ∧ u x 1 t = 0)
    (h0 : ∀ x ∈ Icc (0 : ℝ) 1, ∀ y ∈ Icc (0 : ℝ) 1, u x y 0 = Real.sin (Real.pi * x) * Real.sin (Real.pi * y) ∧ deriv (u x y) 0 = 0)
    (hR : ∀ x ∈ Icc (0 : ℝ) 1, ∀ y ∈ Icc (0 : ℝ) 1, ∀ t ∈ Icc 0 τ, |wav2Resid u x y t| ≤ R) :
    ∫ Q in Icc (0 : Fin 2 → ℝ) 1, (u (Q 0) (Q 1) τ - wav2Real (Q 0) (Q 1) τ) ^ 2 ≤ Real.exp τ * (τ * R ^ 2) := by
  have hv := wav2Real_smooth
  obtain ⟨v1, v2, v3, v4⟩ := C79_wave2 wav2Real fun x y => by
    unfold wav2Real
    fun_prop
  rw [C83_wave2.1] at v1 v2 v3 v4
  have box : ∀ P ∈ Icc 0 (![1, 1, τ] : Fin 3 → ℝ), P 0 ∈ Icc (0 : ℝ) 1 ∧ P 1 ∈ Icc (0 : ℝ) 1 ∧ P 2 ∈ Icc 0 τ := fun P hP =>
    ⟨⟨hP.1 0, hP.2 0⟩, ⟨hP.1 1, hP.2 1⟩, ⟨hP.1 2, hP.2 2⟩⟩
  refine wave2_energy (W := fun P => u (P 0) (P 1) (P 2) - wav2Real (P 0) (P 1) (P 2)) (ContDiff.sub hu hv) hτ ?_ ?_ ?_
  · intro P hP h
    obtain ⟨p0, p1, p2⟩ := box P hP
    rcases h with h | h | h | h
    · rw [h, (hx _ p1 _ p2).1, (v1 _ _).1, sub_self]
    · rw [h, (hx _ p1 _ p2).2, (v1 _ _).2, sub_self]
    · rw [h, (hy _ p0 _ p2).1, (v2 _ _).1, sub_self]
    · rw [h, (hy _ p0 _ p2).2, (v2 _ _).2, sub_self]
  · intro P hP h
    obtain ⟨p0, p1, -⟩ := box P hP
    constructor
    · rw [h, (h0 _ p0 _ p1).1, v3, sub_self]
    · rw [pd_sub hu hv, ← vec3 P, h]
      have a := (deriv_pd2 hu (P 0) (P 1) 0).deriv
      have b := (deriv_pd2 hv (P 0) (P 1) 0).deriv
      rw [← a, ← b]
      exact (congrArg₂ (· - ·) (h0 _ p0 _ p1).2 (v4 (P 0) (P 1))).trans (sub_self 0)
  · intro P hP
    obtain ⟨p0, p1, p2⟩ := box P hP
    have r := hR _ p0 _ p1 _ p2
    have e := C83_wave2.2 (P 0) (P 1) (P 2)
    rw [wav2Resid_eq hu, vec3] at r
    rw [wav2Resid_eq hv, vec3] at e
    have s : ∀ i, pd i (fun P => u (P 0) (P 1) (P 2) - wav2Real (P 0) (P 1) (P 2)) =
        fun P => pd i (fun P => u (P 0) (P 1) (P 2)) P - pd i (fun P => wav2Real (P 0) (P 1) (P 2)) P := fun i => by
      funext P
      exact pd_sub hu hv i P
    rw [s, s, s, pd_sub (pd_smooth hu 0) (pd_smooth hv 0), pd_sub (pd_smooth hu 1) (pd_smooth hv 1), pd_sub (pd_smooth hu 2) (pd_smooth hv 2)]
    convert r using 2
    linear_combination -e

/-- **C96**, the wave equation with two space variables (D/Chapter_4/WaveEquation/WaveEquation2D.py, WaveEquationComparison2D.py), for all times
`τ`: the mean square of the error over the square. -/
theorem C96_wave2 (u : ℝ → ℝ → ℝ → ℝ) (hu : Smooth3 u) {τ R : ℝ} (hτ : 0 < τ)
    (hx : ∀ y ∈ Icc (0 : ℝ) 1, ∀ t ∈ Icc 0 τ, u 0 y t = 0 ∧ u 1 y t = 0) (hy : ∀ x ∈ Icc (0 : ℝ) 1, ∀ t ∈ Icc 0 τ, u x 0 t = 0 ∧ u x 1 t = 0)
    (h0 : ∀ x ∈ Icc (0 : ℝ) 1, ∀ y ∈ Icc (0 : ℝ) 1, u x y 0 = Real.sin (Real.pi * x) * Real.sin (Real.pi * y) ∧ deriv (u x y) 0 = 0)
    (hR : ∀ x ∈ Icc (0 : ℝ) 1, ∀ y ∈ Icc (0 : ℝ) 1, ∀ t ∈ Icc 0 τ, |wav2Resid u x y t| ≤ R) :
    ∫ x in (0 : ℝ)..1, ∫ y in (0 : ℝ)..1, (u x y τ - wav2Real x y τ) ^ 2 ≤ Real.exp τ * (τ * R ^ 2) := by
  refine (square_integral (F := fun x y => (u x y τ - wav2Real x y τ) ^ 2) ?_).symm.le.trans (wave2_difference u hu hτ hx hy h0 hR)
  have c : Continuous fun P : ℝ × ℝ => (![P.1, P.2, τ] : Fin 3 → ℝ) := by fun_prop
  exact (((ContDiff.continuous hu).comp c).sub ((ContDiff.continuous wav2Real_smooth).comp c)).pow 2

/-- **C96**, the wave equation with two space variables: with residual 0 the function is the reference solution. -/
theorem C96_wave2_unique (u : ℝ → ℝ → ℝ → ℝ) (hu : Smooth3 u) {τ : ℝ} (hτ : 0 < τ)
    (hx : ∀ y ∈ Icc (0 : ℝ) 1, ∀ t ∈ Icc 0 τ, u 0 y t = 0 ∧ u 1 y t = 0) (hy : ∀ x ∈ Icc (0 : ℝ) 1, ∀ t ∈ Icc 0 τ, u x 0 t = 0 ∧ u x 1 t = 0)
    (h0 : ∀ x ∈ Icc (0 : ℝ) 1, ∀ y ∈ Icc (0 : ℝ) 1, u x y 0 = Real.sin (Real.pi * x) * Real.sin (Real.pi * y) ∧ deriv (u x y) 0 = 0)
    (hR : ∀ x ∈ Icc (0 : ℝ) 1, ∀ y ∈ Icc (0 : ℝ) 1, ∀ t ∈ Icc 0 τ, wav2Resid u x y t = 0) :
    ∀ x ∈ Icc (0 : ℝ) 1, ∀ y ∈ Icc (0 : ℝ) 1, u x y τ = wav2Real x y τ := by
  have h := wave2_difference u hu (R := 0) hτ hx hy h0 fun x h1 y h2 t h3 => by rw [hR x h1 y h2 t h3, abs_zero]
  have c : Continuous fun Q : Fin 2 → ℝ => (![Q 0, Q 1, τ] : Fin 3 → ℝ) := by fun_prop
  have cF : Continuous fun Q : Fin 2 → ℝ => (u (Q 0) (Q 1) τ - wav2Real (Q 0) (Q 1) τ) ^ 2 :=
    (((ContDiff.continuous hu).comp c).sub ((ContDiff.continuous wav2Real_smooth).comp c)).pow 2
  have z : ∫ Q in Icc (0 : Fin 2 → ℝ) 1, (u (Q 0) (Q 1) τ - wav2Real (Q 0) (Q 1) τ) ^ 2 = 0 :=
    le_antisymm (h.trans (by simp)) (integral_nonneg fun Q => sq_nonneg _)
  rw [integral_eq_zero_iff_of_nonneg (fun Q => sq_nonneg _) (cF.continuousOn.integrableOn_compact isCompact_Icc)] at z
  have sub : Icc (0 : Fin 2 → ℝ) 1 ⊆ closure (interior (Icc (0 : Fin 2 → ℝ) 1)) := by
    rw [← pi_univ_Icc, interior_pi_set finite_univ, closure_pi_set]
    intro Q hQ i hi
    have := hQ i hi
    simpa using this
  have e := Measure.eqOn_of_ae_eq z cF.continuousOn continuousOn_const sub
  intro x h1 y h2
  have hm : (![x, y] : Fin 2 → ℝ) ∈ Icc (0 : Fin 2 → ℝ) 1 := by
    constructor <;> intro i <;> fin_cases i
    · exact h1.1
    · exact h2.1
    · exact h1.2
    · exact h2.2
  have := e hm
  have : (u x y τ - wav2Real x y τ) ^ 2 = 0 := this
  exact sub_eq_zero.1 (pow_eq_zero_iff (two_ne_zero) |>.1 this)

theorem Smooth3.subst {u : ℝ → ℝ → ℝ → ℝ} (hu : Smooth3 u) {a b c : (Fin 3 → ℝ) → ℝ} (ha : ContDiff ℝ ∞ a) (hb : ContDiff ℝ ∞ b)
    (hc : ContDiff ℝ ∞ c) : ContDiff ℝ ∞ fun P => u (a P) (b P) (c P) := by
  have h : ContDiff ℝ ∞ fun P => (![a P, b P, c P] : Fin 3 → ℝ) := by
    rw [contDiff_pi]
    intro i
    fin_cases i
    · exact ha
    · exact hb
    · exact hc
  exact ContDiff.comp (g := fun P : Fin 3 → ℝ => u (P 0) (P 1) (P 2)) hu h

theorem wav2U_smooth {g : ℝ → ℝ → ℝ → ℝ} (hg : Smooth3 g) : Smooth3 (wav2U g) := by
  have p0 : ContDiff ℝ ∞ fun P : Fin 3 → ℝ => P 0 := by fun_prop
  have p1 : ContDiff ℝ ∞ fun P : Fin 3 → ℝ => P 1 := by fun_prop
  have p2 : ContDiff ℝ ∞ fun P : Fin 3 → ℝ => P 2 := by fun_prop
  have h1 : Smooth3 (wav2U1 g) := by
    have a := hg.subst (contDiff_const (c := (0 : ℝ))) p1 p2
    have b := hg.subst (contDiff_const (c := (1 : ℝ))) p1 p2
    exact (ContDiff.sub hg ((contDiff_const.sub p0).mul a)).sub (p0.mul b)
  have h2 : Smooth3 (wav2U2 g) := by
    have a := h1.subst p0 (contDiff_const (c := (0 : ℝ))) p2
    have b := h1.subst p0 (contDiff_const (c := (1 : ℝ))) p2
    exact (ContDiff.sub h1 ((contDiff_const.sub p1).mul a)).sub (p1.mul b)
  have a := h2.subst p0 p1 (contDiff_const (c := (0 : ℝ)))
  have b : Smooth3 fun x y _ => deriv (wav2U2 g x y) 0 := by
    have e : ∀ x y, deriv (wav2U2 g x y) 0 = pd 2 (fun P => wav2U2 g (P 0) (P 1) (P 2)) ![x, y, 0] := fun x y => (deriv_pd2 h2 x y 0).deriv
    have k : Smooth3 fun x y t => pd 2 (fun P => wav2U2 g (P 0) (P 1) (P 2)) ![x, y, t] := by
      have := pd_smooth h2 2
      unfold Smooth3
      simp only [vec3]
      exact this
    have := k.subst p0 p1 (contDiff_const (c := (0 : ℝ)))
    unfold Smooth3
    simp only [e]
    exact this
  have s : ContDiff ℝ ∞ fun P : Fin 3 → ℝ => Real.sin (Real.pi * P 0) * Real.sin (Real.pi * P 1) := by fun_prop
  exact ((ContDiff.add h2 s).sub a).sub (p2.mul b)

/-- **C96**, the expression of the programs: for all smooth free functions. -/
theorem C96_wave2_program (g : ℝ → ℝ → ℝ → ℝ) (hg : Smooth3 g) {τ R : ℝ} (hτ : 0 < τ)
    (hR : ∀ x ∈ Icc (0 : ℝ) 1, ∀ y ∈ Icc (0 : ℝ) 1, ∀ t ∈ Icc 0 τ, |wav2Resid (wav2U g) x y t| ≤ R) :
    ∫ x in (0 : ℝ)..1, ∫ y in (0 : ℝ)..1, (wav2U g x y τ - wav2Real x y τ) ^ 2 ≤ Real.exp τ * (τ * R ^ 2) := by
  obtain ⟨c1, c2, c3, c4⟩ := C79_wave2 g fun x y t => (deriv_pd2 hg x y t).differentiableAt
  exact C96_wave2 (wav2U g) (wav2U_smooth hg) hτ (fun y _ t _ => c1 y t) (fun x _ t _ => c2 x t) (fun x _ y _ => ⟨c3 x y, c4 x y⟩) hR

/-- The residual of the expression is bounded on the domain, for each smooth free function. -/
example (g : ℝ → ℝ → ℝ → ℝ) (hg : Smooth3 g) :
    ∃ R, ∫ x in (0 : ℝ)..1, ∫ y in (0 : ℝ)..1, (wav2U g x y 1 - wav2Real x y 1) ^ 2 ≤ Real.exp 1 * (1 * R ^ 2) := by
  have k := wav2U_smooth hg
  have c : Continuous fun P : Fin 3 → ℝ => pd 0 (pd 0 fun P => wav2U g (P 0) (P 1) (P 2)) P + pd 1 (pd 1 fun P => wav2U g (P 0) (P 1) (P 2)) P
      - 64 * pd 2 (pd 2 fun P => wav2U g (P 0) (P 1) (P 2)) P := by
    have a := (pd_smooth (pd_smooth k 0) 0).continuous
    have b := (pd_smooth (pd_smooth k 1) 1).continuous
    have d := (pd_smooth (pd_smooth k 2) 2).continuous
    fun_prop
  obtain ⟨R, hR⟩ := (isCompact_Icc (a := (0 : Fin 3 → ℝ)) (b := 1)).exists_bound_of_continuousOn c.continuousOn
  refine ⟨R, C96_wave2_program g hg one_pos fun x h1 y h2 t h3 => ?_⟩
  rw [wav2Resid_eq k]
  refine hR ![x, y, t] ⟨fun i => ?_, fun i => ?_⟩ <;> fin_cases i
  · exact h1.1
  · exact h2.1
  · exact h3.1
  · exact h1.2
  · exact h2.2
  · exact h3.2

end Verif.Props
