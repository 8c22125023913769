import Verif.Lemmas.MaxPrinciple
import Mathlib.MeasureTheory.Integral.DivergenceTheorem
import Mathlib.MeasureTheory.Integral.Prod
import Mathlib.Analysis.SpecialFunctions.ExpDeriv
import Mathlib.Analysis.Calculus.Deriv.Pi

/-! # The energy of a function of two space variables and time -/

namespace Verif

open Set MeasureTheory
open scoped ContDiff

/-- Partial derivative in coordinate `i`. -/
noncomputable def pd (i : Fin 3) (W : (Fin 3 → ℝ) → ℝ) (P : Fin 3 → ℝ) : ℝ := fderiv ℝ W P (Pi.single i 1)

theorem pd_smooth {W : (Fin 3 → ℝ) → ℝ} (hW : ContDiff ℝ ∞ W) (i : Fin 3) : ContDiff ℝ ∞ (pd i W) := by
  have h : ContDiff ℝ ∞ (fderiv ℝ W) := hW.fderiv_right (by simp)
  exact h.clm_apply contDiff_const

theorem pd_hasDeriv {W : (Fin 3 → ℝ) → ℝ} (hW : ContDiff ℝ ∞ W) (i : Fin 3) (P : Fin 3 → ℝ) (s : ℝ) :
    HasDerivAt (fun s => W (Function.update P i s)) (pd i W (Function.update P i s)) s := by
  have h := (hW.differentiable (by simp) (Function.update P i s)).hasFDerivAt
  exact h.comp_hasDerivAt s (hasDerivAt_update P i s)

theorem pd_add {F G : (Fin 3 → ℝ) → ℝ} (hF : ContDiff ℝ ∞ F) (hG : ContDiff ℝ ∞ G) (i : Fin 3) (P : Fin 3 → ℝ) :
    pd i (fun P => F P + G P) P = pd i F P + pd i G P := by
  unfold pd
  rw [fderiv_fun_add (hF.differentiable (by simp) P) (hG.differentiable (by simp) P)]
  rfl

theorem pd_sub {F G : (Fin 3 → ℝ) → ℝ} (hF : ContDiff ℝ ∞ F) (hG : ContDiff ℝ ∞ G) (i : Fin 3) (P : Fin 3 → ℝ) :
    pd i (fun P => F P - G P) P = pd i F P - pd i G P := by
  unfold pd
  rw [fderiv_fun_sub (hF.differentiable (by simp) P) (hG.differentiable (by simp) P)]
  rfl

theorem pd_mul {F G : (Fin 3 → ℝ) → ℝ} (hF : ContDiff ℝ ∞ F) (hG : ContDiff ℝ ∞ G) (i : Fin 3) (P : Fin 3 → ℝ) :
    pd i (fun P => F P * G P) P = F P * pd i G P + G P * pd i F P := by
  unfold pd
  rw [fderiv_fun_mul (hF.differentiable (by simp) P) (hG.differentiable (by simp) P)]
  rfl

theorem pd_const_mul {F : (Fin 3 → ℝ) → ℝ} (hF : ContDiff ℝ ∞ F) (c : ℝ) (i : Fin 3) (P : Fin 3 → ℝ) :
    pd i (fun P => c * F P) P = c * pd i F P := by
  unfold pd
  rw [fderiv_const_mul (hF.differentiable (by simp) P)]
  rfl

theorem pd_comm {W : (Fin 3 → ℝ) → ℝ} (hW : ContDiff ℝ ∞ W) (i j : Fin 3) (P : Fin 3 → ℝ) : pd i (pd j W) P = pd j (pd i W) P := by
  have hf : ContDiff ℝ ∞ (fderiv ℝ W) := hW.fderiv_right (by simp)
  have hd := (hf.differentiable (by simp) P).hasFDerivAt
  have key : ∀ v w : Fin 3 → ℝ, fderiv ℝ (fun P => fderiv ℝ W P v) P w = fderiv ℝ (fderiv ℝ W) P w v := by
    intro v w
    have := hd.clm_apply (hasFDerivAt_const v P)
    rw [this.fderiv]
    simp
  have hsym : IsSymmSndFDerivAt ℝ W P := hW.contDiffAt.isSymmSndFDerivAt (by simp; exact WithTop.coe_le_coe.mpr (le_top : (2 : ℕ∞) ≤ ⊤))
  unfold pd
  rw [key, key]
  exact hsym _ _

theorem weight_smooth : ContDiff ℝ ∞ fun P : Fin 3 → ℝ => Real.exp (-P 2) := by fun_prop

theorem pd_weight (i : Fin 3) (P : Fin 3 → ℝ) : pd i (fun P => Real.exp (-P 2)) P = if i = 2 then -Real.exp (-P 2) else 0 := by
  have h := pd_hasDeriv weight_smooth i P (P i)
  rw [Function.update_eq_self] at h
  by_cases hi : i = 2
  · subst hi
    simp only [Function.update_self] at h
    rw [if_pos rfl, ← h.unique (HasDerivAt.congr_deriv ((hasDerivAt_neg (P 2)).exp) (mul_neg_one _))]
  · simp only [Function.update_of_ne (Ne.symm hi)] at h
    rw [if_neg hi, ← h.unique (hasDerivAt_const _ _)]

/-- A partial derivative along a side on which the function vanishes. -/
theorem pd_zero {W : (Fin 3 → ℝ) → ℝ} (hW : ContDiff ℝ ∞ W) {i : Fin 3} {P : Fin 3 → ℝ} {c d : ℝ} (hcd : c < d) (hP : P i ∈ Icc c d)
    (h : ∀ s ∈ Icc c d, W (Function.update P i s) = 0) : pd i W P = 0 := by
  have hd := pd_hasDeriv hW i P (P i)
  rw [Function.update_eq_self] at hd
  exact deriv_zero_of_zero hcd hd h hP

theorem update_mem {P b : Fin 3 → ℝ} (hP : P ∈ Icc 0 b) {i : Fin 3} {s : ℝ} (hs : s ∈ Icc 0 (b i)) : Function.update P i s ∈ Icc 0 b := by
  constructor
  · intro j
    by_cases h : j = i
    · subst h
      simpa using hs.1
    · simpa [Function.update_of_ne h] using hP.1 j
  · intro j
    by_cases h : j = i
    · subst h
      simpa using hs.2
    · simpa [Function.update_of_ne h] using hP.2 j

/-- The divergence of the energy flow. -/
theorem energy_divergence {W : (Fin 3 → ℝ) → ℝ} (hW : ContDiff ℝ ∞ W) (P : Fin 3 → ℝ) :
    pd 0 (fun P => Real.exp (-P 2) * (-2 * (pd 2 W P * pd 0 W P))) P + pd 1 (fun P => Real.exp (-P 2) * (-2 * (pd 2 W P * pd 1 W P))) P
      + pd 2 (fun P => Real.exp (-P 2) * (W P * W P + 64 * (pd 2 W P * pd 2 W P) + pd 0 W P * pd 0 W P + pd 1 W P * pd 1 W P)) P
    = Real.exp (-P 2) * (-2 * pd 2 W P * (pd 0 (pd 0 W) P + pd 1 (pd 1 W) P - 64 * pd 2 (pd 2 W) P) + 2 * W P * pd 2 W P
      - (W P ^ 2 + 64 * pd 2 W P ^ 2 + pd 0 W P ^ 2 + pd 1 W P ^ 2)) := by
  have hx := pd_smooth hW 0
  have hy := pd_smooth hW 1
  have ht := pd_smooth hW 2
  have w := weight_smooth
  have a0 := ht.mul hx
  have a1 := ht.mul hy
  have e0 := hW.mul hW
  have e1 := ht.mul ht
  have e1' : ContDiff ℝ ∞ fun P => 64 * (pd 2 W P * pd 2 W P) := contDiff_const.mul e1
  have e2 := hx.mul hx
  have e3 := hy.mul hy
  have b0 : ContDiff ℝ ∞ fun P => -2 * (pd 2 W P * pd 0 W P) := contDiff_const.mul a0
  have b1 : ContDiff ℝ ∞ fun P => -2 * (pd 2 W P * pd 1 W P) := contDiff_const.mul a1
  have s1 := e0.add e1'
  have s2 := s1.add e2
  have s3 := s2.add e3
  rw [pd_mul w b0, pd_mul w b1, pd_mul w s3, pd_const_mul a0, pd_const_mul a1, pd_add s2 e3, pd_add s1 e2, pd_add e0 e1', pd_const_mul e1,
    pd_mul ht hx, pd_mul ht hy, pd_mul hW hW, pd_mul ht ht, pd_mul hx hx, pd_mul hy hy, pd_weight, pd_weight, pd_weight,
    pd_comm hW 2 0, pd_comm hW 2 1]
  simp only [Fin.isValue, Fin.reduceEq, if_false, if_true]
  ring

theorem insertNth_two (τ : ℝ) (Q : Fin 2 → ℝ) : (Fin.insertNth 2 τ Q : Fin 3 → ℝ) = ![Q 0, Q 1, τ] := by
  funext i
  fin_cases i <;> rfl

/-- **The wave operator on the unit square** with boundary values 0, starting at rest from 0: the mean square at time `τ`. -/
theorem wave2_energy {W : (Fin 3 → ℝ) → ℝ} (hW : ContDiff ℝ ∞ W) {τ R : ℝ} (hτ : 0 < τ)
    (hside : ∀ P ∈ Icc 0 (![1, 1, τ] : Fin 3 → ℝ), (P 0 = 0 ∨ P 0 = 1 ∨ P 1 = 0 ∨ P 1 = 1) → W P = 0)
    (hstart : ∀ P ∈ Icc 0 (![1, 1, τ] : Fin 3 → ℝ), P 2 = 0 → W P = 0 ∧ pd 2 W P = 0)
    (hR : ∀ P ∈ Icc 0 (![1, 1, τ] : Fin 3 → ℝ), |pd 0 (pd 0 W) P + pd 1 (pd 1 W) P - 64 * pd 2 (pd 2 W) P| ≤ R) :
    ∫ Q in Icc (0 : Fin 2 → ℝ) 1, W ![Q 0, Q 1, τ] ^ 2 ≤ Real.exp τ * (τ * R ^ 2) := by
  obtain ⟨b, hb⟩ : ∃ b : Fin 3 → ℝ, b = ![1, 1, τ] := ⟨_, rfl⟩
  rw [← hb] at hside hstart hR
  have b0 : b 0 = 1 := by rw [hb]; rfl
  have b1 : b 1 = 1 := by rw [hb]; rfl
  have b2 : b 2 = τ := by rw [hb]; rfl
  have hle : (0 : Fin 3 → ℝ) ≤ b := by
    intro i
    fin_cases i
    · simp [b0]
    · simp [b1]
    · simpa [b2] using hτ.le
  -- the flow
  obtain ⟨f, hf⟩ : ∃ f : Fin 3 → (Fin 3 → ℝ) → ℝ, f = ![fun P => Real.exp (-P 2) * (-2 * (pd 2 W P * pd 0 W P)),
    fun P => Real.exp (-P 2) * (-2 * (pd 2 W P * pd 1 W P)),
    fun P => Real.exp (-P 2) * (W P * W P + 64 * (pd 2 W P * pd 2 W P) + pd 0 W P * pd 0 W P + pd 1 W P * pd 1 W P)] := ⟨_, rfl⟩
  have hx := pd_smooth hW 0
  have hy := pd_smooth hW 1
  have ht := pd_smooth hW 2
  have w := weight_smooth
  have hfs : ∀ i, ContDiff ℝ ∞ (f i) := by
    intro i
    rw [hf]
    fin_cases i
    · exact w.mul (contDiff_const.mul (ht.mul hx))
    · exact w.mul (contDiff_const.mul (ht.mul hy))
    · exact w.mul ((((hW.mul hW).add (contDiff_const.mul (ht.mul ht))).add (hx.mul hx)).add (hy.mul hy))
  have hdc : Continuous fun P => ∑ i, fderiv ℝ (f i) P (Pi.single i 1) :=
    continuous_finset_sum _ fun i _ => (pd_smooth (hfs i) i).continuous
  have hdi : IntegrableOn (fun P => ∑ i, fderiv ℝ (f i) P (Pi.single i 1)) (Icc 0 b) := hdc.continuousOn.integrableOn_compact isCompact_Icc
  have div := integral_divergence_of_hasFDerivAt_off_countable' 0 b hle f (fun i => fderiv ℝ (f i)) ∅ countable_empty
    (fun i => (hfs i).continuous.continuousOn) (fun P _ i => ((hfs i).differentiable (by simp) P).hasFDerivAt) hdi
  have hsum : ∀ P, ∑ i, fderiv ℝ (f i) P (Pi.single i 1) = Real.exp (-P 2) * (-2 * pd 2 W P * (pd 0 (pd 0 W) P + pd 1 (pd 1 W) P
      - 64 * pd 2 (pd 2 W) P) + 2 * W P * pd 2 W P - (W P ^ 2 + 64 * pd 2 W P ^ 2 + pd 0 W P ^ 2 + pd 1 W P ^ 2)) := by
    intro P
    rw [← energy_divergence hW P, Fin.sum_univ_three, hf]
    rfl
  -- nothing flows through the sides
  have still : ∀ P ∈ Icc 0 b, (P 0 = 0 ∨ P 0 = 1 ∨ P 1 = 0 ∨ P 1 = 1) → pd 2 W P = 0 := by
    intro P hP h
    refine pd_zero hW (c := 0) (d := b 2) (by rw [b2]; exact hτ) ⟨hP.1 2, hP.2 2⟩ fun s hs => hside _ (update_mem hP hs) ?_
    rw [Function.update_of_ne (by decide), Function.update_of_ne (by decide)]
    exact h
  have face : ∀ (i : Fin 3) (c : ℝ), c ∈ Icc 0 (b i) → (∀ P ∈ Icc 0 b, P i = c → f i P = 0) →
      ∫ Q in Icc ((0 : Fin 3 → ℝ) ∘ Fin.succAbove i) (b ∘ Fin.succAbove i), f i (Fin.insertNth i c Q) = 0 := by
    intro i c hc h
    refine setIntegral_eq_zero_of_forall_eq_zero fun Q hQ => h _ (Fin.insertNth_mem_Icc.2 ⟨hc, hQ⟩) (Fin.insertNth_apply_same ..)
  have z0 : ∀ P ∈ Icc 0 b, (P 0 = 0 ∨ P 0 = 1) → f 0 P = 0 := fun P hP h => by
    rw [hf]
    show Real.exp (-P 2) * (-2 * (pd 2 W P * pd 0 W P)) = 0
    rw [still P hP (h.elim Or.inl fun h => Or.inr (Or.inl h))]
    ring
  have z1 : ∀ P ∈ Icc 0 b, (P 1 = 0 ∨ P 1 = 1) → f 1 P = 0 := fun P hP h => by
    rw [hf]
    show Real.exp (-P 2) * (-2 * (pd 2 W P * pd 1 W P)) = 0
    rw [still P hP (Or.inr (Or.inr h))]
    ring
  -- no energy at the start
  have z2 : ∀ P ∈ Icc 0 b, P 2 = 0 → f 2 P = 0 := fun P hP h => by
    have sx : pd 0 W P = 0 := pd_zero hW (c := 0) (d := b 0) (by rw [b0]; exact one_pos) ⟨hP.1 0, hP.2 0⟩ fun s hs =>
      (hstart _ (update_mem hP hs) (by rw [Function.update_of_ne (by decide)]; exact h)).1
    have sy : pd 1 W P = 0 := pd_zero hW (c := 0) (d := b 1) (by rw [b1]; exact one_pos) ⟨hP.1 1, hP.2 1⟩ fun s hs =>
      (hstart _ (update_mem hP hs) (by rw [Function.update_of_ne (by decide)]; exact h)).1
    rw [hf]
    show Real.exp (-P 2) * (W P * W P + 64 * (pd 2 W P * pd 2 W P) + pd 0 W P * pd 0 W P + pd 1 W P * pd 1 W P) = 0
    rw [(hstart P hP h).1, (hstart P hP h).2, sx, sy]
    ring
  rw [Fin.sum_univ_three, face 0 (b 0) ⟨hle 0, le_rfl⟩ fun P hP h => z0 P hP (Or.inr (h.trans b0)),
    show ((0 : Fin 3 → ℝ) 0) = 0 from rfl, face 0 0 ⟨le_rfl, hle 0⟩ fun P hP h => z0 P hP (Or.inl h),
    face 1 (b 1) ⟨hle 1, le_rfl⟩ fun P hP h => z1 P hP (Or.inr (h.trans b1)),
    show ((0 : Fin 3 → ℝ) 1) = 0 from rfl, face 1 0 ⟨le_rfl, hle 1⟩ fun P hP h => z1 P hP (Or.inl h),
    show ((0 : Fin 3 → ℝ) 2) = 0 from rfl, face 2 0 ⟨le_rfl, hle 2⟩ fun P hP h => z2 P hP h, b2] at div
  simp only [sub_zero, zero_add] at div
  -- the energy at time τ
  have dom : Icc ((0 : Fin 3 → ℝ) ∘ Fin.succAbove 2) (b ∘ Fin.succAbove 2) = Icc (0 : Fin 2 → ℝ) 1 := by
    congr 1
    funext i
    fin_cases i
    · exact b0
    · exact b1
  rw [dom] at div
  have up : ∫ P in Icc 0 b, ∑ i, fderiv ℝ (f i) P (Pi.single i 1) ≤ ∫ _ in Icc 0 b, R ^ 2 := by
    refine setIntegral_mono_on hdi (continuous_const.continuousOn.integrableOn_compact isCompact_Icc) measurableSet_Icc fun P hP => ?_
    rw [hsum]
    obtain ⟨r, hr⟩ : ∃ r, r = pd 0 (pd 0 W) P + pd 1 (pd 1 W) P - 64 * pd 2 (pd 2 W) P := ⟨_, rfl⟩
    have hrR := hR P hP
    rw [← hr] at hrR ⊢
    have hr2 : r ^ 2 ≤ R ^ 2 := sq_le_sq' (abs_le.1 hrR).1 (abs_le.1 hrR).2
    have in1 : -2 * pd 2 W P * r + 2 * W P * pd 2 W P - (W P ^ 2 + 64 * pd 2 W P ^ 2 + pd 0 W P ^ 2 + pd 1 W P ^ 2) ≤ R ^ 2 := by
      nlinarith [sq_nonneg (pd 2 W P + r), sq_nonneg (W P - pd 2 W P), sq_nonneg (pd 2 W P), sq_nonneg (pd 0 W P), sq_nonneg (pd 1 W P)]
    have e0 := Real.exp_pos (-P 2)
    have e1 : Real.exp (-P 2) ≤ 1 := Real.exp_le_one_iff.2 (by have : 0 ≤ P 2 := hP.1 2; linarith)
    calc _ ≤ Real.exp (-P 2) * R ^ 2 := mul_le_mul_of_nonneg_left in1 e0.le
      _ ≤ 1 * R ^ 2 := mul_le_mul_of_nonneg_right e1 (sq_nonneg R)
      _ = R ^ 2 := one_mul _
  have vol : ∫ _ in Icc 0 b, R ^ 2 = τ * R ^ 2 := by
    rw [setIntegral_const, Measure.real, Real.volume_Icc_pi_toReal hle, Fin.prod_univ_three, b0, b1, b2]
    simp
  rw [div, vol] at up
  have c2 : Continuous fun Q : Fin 2 → ℝ => f 2 (Fin.insertNth 2 τ Q) := by
    have : Continuous fun Q : Fin 2 → ℝ => (Fin.insertNth 2 τ Q : Fin 3 → ℝ) := by fun_prop
    exact (hfs 2).continuous.comp this
  have c3 : Continuous fun Q : Fin 2 → ℝ => Real.exp (-τ) * W ![Q 0, Q 1, τ] ^ 2 := by
    have : Continuous fun Q : Fin 2 → ℝ => (![Q 0, Q 1, τ] : Fin 3 → ℝ) := by fun_prop
    exact continuous_const.mul ((hW.continuous.comp this).pow 2)
  have lo : ∫ Q in Icc (0 : Fin 2 → ℝ) 1, Real.exp (-τ) * W ![Q 0, Q 1, τ] ^ 2 ≤ ∫ Q in Icc (0 : Fin 2 → ℝ) 1, f 2 (Fin.insertNth 2 τ Q) := by
    refine setIntegral_mono_on (c3.continuousOn.integrableOn_compact isCompact_Icc) (c2.continuousOn.integrableOn_compact isCompact_Icc)
      measurableSet_Icc fun Q hQ => ?_
    rw [insertNth_two, hf]
    obtain ⟨P, hP⟩ : ∃ P : Fin 3 → ℝ, P = ![Q 0, Q 1, τ] := ⟨_, rfl⟩
    rw [← hP]
    show Real.exp (-τ) * W P ^ 2 ≤ Real.exp (-P 2) * (W P * W P + 64 * (pd 2 W P * pd 2 W P) + pd 0 W P * pd 0 W P + pd 1 W P * pd 1 W P)
    rw [show P 2 = τ by rw [hP]; rfl]
    refine mul_le_mul_of_nonneg_left ?_ (Real.exp_pos _).le
    nlinarith [mul_self_nonneg (pd 2 W P), mul_self_nonneg (pd 0 W P), mul_self_nonneg (pd 1 W P)]
  rw [integral_const_mul] at lo
  have fin := lo.trans up
  rw [Real.exp_neg, inv_mul_le_iff₀ (Real.exp_pos τ)] at fin
  exact fin

end Verif
