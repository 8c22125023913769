import Verif.Props.ResidualWave
import Verif.Props.ResidualOde

/-! # A small residual means a small error (C96): the problem on two segments, linear on the first and nonlinear on the second -/

namespace Verif.Props

open Verif Verif.Model.Prog Set
open scoped ContDiff

theorem sub_le_of_deriv {f g f' g' : ℝ → ℝ} {a b : ℝ} (hab : a ≤ b) (hf : ∀ t ∈ Icc a b, HasDerivAt f (f' t) t)
    (hg : ∀ t ∈ Icc a b, HasDerivAt g (g' t) t) (h : ∀ t ∈ Icc a b, |f' t| ≤ g' t) : |f b - f a| ≤ g b - g a := by
  have mono : ∀ {k k' : ℝ → ℝ}, (∀ t ∈ Icc a b, HasDerivAt k (k' t) t) → (∀ t ∈ Icc a b, 0 ≤ k' t) → k a ≤ k b := by
    intro k k' hk h0
    have hi : interior (Icc a b) ⊆ Icc a b := interior_subset
    refine monotoneOn_of_deriv_nonneg (convex_Icc a b) (fun t ht => (hk t ht).continuousAt.continuousWithinAt)
      (fun t ht => (hk t (hi ht)).differentiableAt.differentiableWithinAt) (fun t ht => ?_) (left_mem_Icc.2 hab) (right_mem_Icc.2 hab) hab
    rw [(hk t (hi ht)).deriv]
    exact h0 t (hi ht)
  have h1 := mono (fun t ht => (hg t ht).sub (hf t ht)) fun t ht => by linarith [le_abs_self (f' t), h t ht]
  have h2 := mono (fun t ht => (hg t ht).add (hf t ht)) fun t ht => by linarith [neg_abs_le (f' t), h t ht]
  simp only [Pi.sub_apply, Pi.add_apply] at h1 h2
  rw [abs_le]
  constructor <;> linarith

/-- The oscillator on a quarter of its period. -/
theorem quarter_bound {d d1 d2 : ℝ → ℝ} {R : ℝ} (h1 : ∀ t ∈ Icc 0 (Real.pi / 2), HasDerivAt d (d1 t) t)
    (h2 : ∀ t ∈ Icc 0 (Real.pi / 2), HasDerivAt d1 (d2 t) t) (h0 : d 0 = 0) (hR : ∀ t ∈ Icc 0 (Real.pi / 2), |d2 t + d t| ≤ R) :
    |d1 (Real.pi / 2)| ≤ R ∧ ∀ t ∈ Icc 0 (Real.pi / 2), |d t| ≤ |d (Real.pi / 2)| + 2 * R := by
  have hpi := Real.pi_pos
  have hR0 : 0 ≤ R := (abs_nonneg _).trans (hR 0 ⟨le_rfl, by linarith⟩)
  have hx : ∀ x ∈ Icc 0 (Real.pi / 2), |d x - d1 0 * Real.sin x| ≤ R := by
    intro x hx
    have hsin : ∀ s : ℝ, HasDerivAt (fun s => Real.sin (x - s)) (-Real.cos (x - s)) s := fun s => by
      have := HasDerivAt.sin ((hasDerivAt_id s).const_sub x)
      exact this.congr_deriv (by simp)
    have hcos : ∀ s : ℝ, HasDerivAt (fun s => Real.cos (x - s)) (Real.sin (x - s)) s := fun s => by
      have := HasDerivAt.cos ((hasDerivAt_id s).const_sub x)
      exact this.congr_deriv (by simp)
    have := sub_le_of_deriv (f := fun s => d1 s * Real.sin (x - s) + d s * Real.cos (x - s)) (g := fun s => R * Real.cos (x - s))
      (f' := fun s => (d2 s + d s) * Real.sin (x - s)) (g' := fun s => R * Real.sin (x - s)) hx.1
      (fun s hs => by
        have hs' : s ∈ Icc 0 (Real.pi / 2) := ⟨hs.1, hs.2.trans hx.2⟩
        refine (((h2 s hs').mul (hsin s)).add ((h1 s hs').mul (hcos s))).congr_deriv ?_
        ring)
      (fun s _ => (hcos s).const_mul R)
      (fun s hs => by
        have hs0 : 0 ≤ Real.sin (x - s) := Real.sin_nonneg_of_nonneg_of_le_pi (by linarith [hs.2]) (by linarith [hs.1, hx.2])
        rw [abs_mul, abs_of_nonneg hs0]
        exact mul_le_mul_of_nonneg_right (hR s ⟨hs.1, hs.2.trans hx.2⟩) hs0)
    simp only [sub_self, Real.sin_zero, Real.cos_zero, mul_zero, mul_one, zero_add, sub_zero, h0, zero_mul, add_zero] at this
    have hc : 0 ≤ Real.cos x := Real.cos_nonneg_of_neg_pi_div_two_le_of_le (by linarith [hx.1]) hx.2
    nlinarith
  constructor
  · have := sub_le_of_deriv (f := fun s => d1 s * Real.sin s - d s * Real.cos s) (g := fun s => -R * Real.cos s)
      (f' := fun s => (d2 s + d s) * Real.sin s) (g' := fun s => R * Real.sin s) (by linarith : (0 : ℝ) ≤ Real.pi / 2)
      (fun s hs => by
        refine (((h2 s hs).mul (Real.hasDerivAt_sin s)).sub ((h1 s hs).mul (Real.hasDerivAt_cos s))).congr_deriv ?_
        ring)
      (fun s _ => ((Real.hasDerivAt_cos s).const_mul (-R)).congr_deriv (by ring))
      (fun s hs => by
        have hs0 : 0 ≤ Real.sin s := Real.sin_nonneg_of_nonneg_of_le_pi hs.1 (by linarith [hs.2])
        rw [abs_mul, abs_of_nonneg hs0]
        exact mul_le_mul_of_nonneg_right (hR s hs) hs0)
    simpa [h0] using this
  · intro t ht
    have e1 := hx t ht
    have e2 := hx (Real.pi / 2) ⟨by linarith, le_rfl⟩
    rw [Real.sin_pi_div_two, mul_one] at e2
    have hs0 : 0 ≤ Real.sin t := Real.sin_nonneg_of_nonneg_of_le_pi ht.1 (by linarith [ht.2])
    have hs1 := Real.sin_le_one t
    have e3 : |d1 0 * Real.sin t| ≤ |d1 0| := by
      rw [abs_mul, abs_of_nonneg hs0]
      nlinarith [abs_nonneg (d1 0)]
    have e4 : |d t| ≤ |d t - d1 0 * Real.sin t| + |d1 0 * Real.sin t| := by
      have := abs_add_le (d t - d1 0 * Real.sin t) (d1 0 * Real.sin t)
      simpa using this
    have e5 : |d1 0| ≤ |d (Real.pi / 2) - d1 0| + |d (Real.pi / 2)| := by
      have := abs_add_le (-(d (Real.pi / 2) - d1 0)) (d (Real.pi / 2))
      rw [abs_neg] at this
      simpa using this
    linarith

/-- A first order equation with the value 0 at the right end, whose left side at the left end is almost a nonnegative multiple of the value there. -/
theorem tail_bound {d d1 p : ℝ → ℝ} {a b p0 W P : ℝ} (hab : a ≤ b) (hp : Continuous p) (h1 : ∀ t ∈ Icc a b, HasDerivAt d (d1 t) t) (hb : d b = 0)
    (hp0 : 0 ≤ p0) (hP0 : 0 ≤ P) (hP : ∀ t ∈ Icc a b, p t ≤ P) (hW : ∀ t ∈ Icc a b, |d1 t + p t * d t - p0 * d a| ≤ W) :
    ∀ t ∈ Icc a b, |d t| ≤ 2 * W * (b - a) * Real.exp (P * (b - a)) := by
  have hW0 : 0 ≤ W := (abs_nonneg _).trans (hW a ⟨le_rfl, hab⟩)
  obtain ⟨M, hM⟩ : ∃ M : ℝ → ℝ, ∀ t, HasDerivAt M (p t) t :=
    ⟨fun t => ∫ s in (0 : ℝ)..t, p s, fun t => intervalIntegral.integral_hasDerivAt_right (hp.intervalIntegrable 0 t)
      (hp.stronglyMeasurableAtFilter _ _) hp.continuousAt⟩
  have hmu : ∀ t ∈ Icc a b, HasDerivAt (fun t => Real.exp (M t) * d t) (Real.exp (M t) * (d1 t + p t * d t)) t := fun t ht => by
    refine (((hM t).exp).mul (h1 t ht)).congr_deriv ?_
    ring
  have key : ∀ σ : ℝ, |σ| = 1 → p0 * (σ * d a) ≤ W := by
    intro σ hσ
    by_contra hlt
    push Not at hlt
    have hpos : 0 < p0 * (σ * d a) := lt_of_le_of_lt hW0 hlt
    have hda : 0 < σ * d a := by
      by_contra h
      push Not at h
      nlinarith
    have mono : MonotoneOn (fun t => σ * (Real.exp (M t) * d t)) (Icc a b) := by
      refine monotoneOn_of_deriv_nonneg (convex_Icc a b) (fun t ht => ((hmu t ht).const_mul σ).continuousAt.continuousWithinAt)
        (fun t ht => ((hmu t (interior_subset ht)).const_mul σ).differentiableAt.differentiableWithinAt) (fun t ht => ?_)
      have ht' := interior_subset ht
      rw [((hmu t ht').const_mul σ).deriv]
      have hw := hW t ht'
      have e : σ * (d1 t + p t * d t) = p0 * (σ * d a) + σ * (d1 t + p t * d t - p0 * d a) := by ring
      have e' : |σ * (d1 t + p t * d t - p0 * d a)| ≤ W := by rw [abs_mul, hσ, one_mul]; exact hw
      have := neg_abs_le (σ * (d1 t + p t * d t - p0 * d a))
      have h0 : 0 ≤ σ * (d1 t + p t * d t) := by linarith
      have := mul_nonneg (Real.exp_pos (M t)).le h0
      linarith
    have := mono (left_mem_Icc.2 hab) (right_mem_Icc.2 hab) hab
    simp only [hb, mul_zero] at this
    have h := mul_pos (Real.exp_pos (M a)) hda
    linarith
  have hp0a : |p0 * d a| ≤ W := by
    have k1 := key 1 (by simp)
    have k2 := key (-1) (by simp)
    rw [abs_le]
    constructor <;> linarith
  have hq : ∀ t ∈ Icc a b, |d1 t + p t * d t| ≤ 2 * W := fun t ht => by
    have := abs_add_le (d1 t + p t * d t - p0 * d a) (p0 * d a)
    rw [sub_add_cancel] at this
    linarith [hW t ht]
  intro t ht
  have hMs : ∀ s ∈ Icc t b, M s ≤ M t + P * (b - a) := by
    intro s hs
    have mono : AntitoneOn (fun s => M s - P * s) (Icc t b) := by
      have hd : ∀ s, HasDerivAt (fun s => M s - P * s) (p s - P) s := fun s =>
        ((hM s).sub ((hasDerivAt_id s).const_mul P)).congr_deriv (by ring)
      refine antitoneOn_of_deriv_nonpos (convex_Icc t b) (fun s _ => (hd s).continuousAt.continuousWithinAt)
        (fun s _ => (hd s).differentiableAt.differentiableWithinAt) (fun s hs' => ?_)
      rw [(hd s).deriv]
      have := interior_subset hs'
      linarith [hP s ⟨ht.1.trans this.1, this.2⟩]
    have := mono (left_mem_Icc.2 ht.2) hs hs.1
    simp only at this
    nlinarith [hs.1, hs.2, ht.1]
  have := sub_le_of_deriv (f := fun t => Real.exp (M t) * d t) (f' := fun t => Real.exp (M t) * (d1 t + p t * d t))
    (g := fun s => Real.exp (M t + P * (b - a)) * (2 * W) * s) (g' := fun _ => Real.exp (M t + P * (b - a)) * (2 * W)) ht.2
    (fun s hs => hmu s ⟨ht.1.trans hs.1, hs.2⟩)
    (fun s _ => ((hasDerivAt_id s).const_mul _).congr_deriv (by ring))
    (fun s hs => by
      rw [abs_mul, abs_of_pos (Real.exp_pos _)]
      exact mul_le_mul (Real.exp_le_exp.2 (hMs s hs)) (hq s ⟨ht.1.trans hs.1, hs.2⟩) (abs_nonneg _) (Real.exp_pos _).le)
  simp only [hb, mul_zero, zero_sub, abs_neg] at this
  rw [abs_mul, abs_of_pos (Real.exp_pos _), ← mul_sub, Real.exp_add] at this
  have he := Real.exp_pos (M t)
  have hE := Real.exp_pos (P * (b - a))
  have h3 : Real.exp (M t) * |d t| ≤ Real.exp (M t) * (2 * W * (b - t) * Real.exp (P * (b - a))) := by linarith
  have h4 := le_of_mul_le_mul_left h3 he
  refine h4.trans (mul_le_mul_of_nonneg_right ?_ hE.le)
  nlinarith [ht.1]

theorem hyb1_smooth : ContDiff ℝ 2 hybReal1 := by
  unfold hybReal1
  fun_prop

theorem hyb2_smooth : ContDiff ℝ 2 hybReal2 := by
  unfold hybReal2
  fun_prop

theorem hyb1_resid (x : ℝ) : hybResid1 hybReal1 x = 0 := by
  have h := (((exp_lin Real.pi (-2) x).const_mul (2 / 5)).sub ((exp_lin (Real.pi / 2) (-1) x).const_mul (1 / 2))).add
    ((((sin_lin 0 1 x).const_mul (-9)).add ((cos_lin 0 1 x).const_mul 7)).div_const 10)
  have e2 : deriv (deriv hybReal1) x = _ := (congrFun (congrArg deriv hyb1_deriv) x).trans (HasDerivAt.deriv
    (f := fun x => 2 / 5 * Real.exp (Real.pi + -2 * x) - 1 / 2 * Real.exp (Real.pi / 2 + -1 * x)
      + (-9 * Real.sin (0 + 1 * x) + 7 * Real.cos (0 + 1 * x)) / 10) h)
  unfold hybResid1 hybF
  rw [e2]
  unfold hybReal1
  ring_nf

theorem hyb2_resid (x : ℝ) : hybResid2 hybReal2 x = 0 := by
  have h := (exp_lin (Real.pi / 2) (-1) x).neg
  have e2 : deriv (deriv hybReal2) x = _ := (congrFun (congrArg deriv hyb2_deriv) x).trans (HasDerivAt.deriv
    (f := fun x => -Real.exp (Real.pi / 2 + -1 * x)) h)
  unfold hybResid2 hybF
  rw [e2, hyb2_deriv]
  unfold hybReal2
  have : Real.exp (Real.pi - 2 * x) = Real.exp (Real.pi / 2 - x) * Real.exp (Real.pi / 2 - x) := by
    rw [← Real.exp_add]
    ring_nf
  rw [this]
  ring_nf

/-- The bound on the second segment, for residuals of at most `R1` and `R2` and a candidate of at most `B`. -/
noncomputable def hybBound (R1 R2 B : ℝ) : ℝ := Real.pi * (R1 + R2 * (Real.pi / 2)) * Real.exp ((B + 1) / 2 * (Real.pi / 2))

/-- **C96**, J/Chapter_4/Example_4_5/tfc_linearNonlinear.py: two functions with the boundary values that have the same value and the same
derivative at `π/2`. If the value there is at least −1 and the second function at most `B`, the errors on both segments are bounded by the
residuals. -/
theorem C96_two_segments (y1 y2 : ℝ → ℝ) (hy1 : ContDiff ℝ 2 y1) (hy2 : ContDiff ℝ 2 y2) (h0 : y1 0 = hybY0) (hf : y2 Real.pi = hybYf)
    (hv : y1 (Real.pi / 2) = y2 (Real.pi / 2)) (hd : deriv y1 (Real.pi / 2) = deriv y2 (Real.pi / 2)) {R1 R2 B : ℝ}
    (hR1 : ∀ t ∈ Icc 0 (Real.pi / 2), |hybResid1 y1 t| ≤ R1) (hR2 : ∀ t ∈ Icc (Real.pi / 2) Real.pi, |hybResid2 y2 t| ≤ R2)
    (hm : -1 ≤ y2 (Real.pi / 2)) (hB : ∀ t ∈ Icc (Real.pi / 2) Real.pi, y2 t ≤ B) :
    (∀ t ∈ Icc 0 (Real.pi / 2), |y1 t - hybReal t| ≤ hybBound R1 R2 B + 2 * R1) ∧
      ∀ t ∈ Icc (Real.pi / 2) Real.pi, |y2 t - hybReal t| ≤ hybBound R1 R2 B := by
  have hpi := Real.pi_pos
  obtain ⟨v0, vf, -, ⟨j1, j2, j3, j4⟩, -⟩ := C83_hybrid
  have v0 : hybReal1 0 = hybY0 := by rw [← v0]; exact (if_pos (by positivity)).symm
  have vf : hybReal2 Real.pi = hybYf := by rw [← vf]; exact (if_neg (by linarith)).symm
  have r1 : ∀ t ∈ Icc 0 (Real.pi / 2), hybReal t = hybReal1 t := fun t ht => if_pos ht.2
  have r2 : ∀ t ∈ Icc (Real.pi / 2) Real.pi, hybReal t = hybReal2 t := fun t ht => by
    unfold hybReal
    split_ifs with h
    · rw [le_antisymm h ht.1, j1, j2]
    · rfl
  obtain ⟨q1, q2⟩ := quarter_bound (d := fun t => y1 t - hybReal1 t) (d1 := fun t => deriv y1 t - deriv hybReal1 t)
    (d2 := fun t => deriv (deriv y1) t - deriv (deriv hybReal1) t) (R := R1)
    (fun t _ => (hasDeriv1 hy1 t).sub (hasDeriv1 hyb1_smooth t)) (fun t _ => (hasDeriv2 hy1 t).sub (hasDeriv2 hyb1_smooth t))
    (by rw [h0, v0, sub_self]) (fun t ht => by
      have e := hyb1_resid t
      have := hR1 t ht
      unfold hybResid1 at e this
      have e' : deriv (deriv y1) t - deriv (deriv hybReal1) t + (y1 t - hybReal1 t) = deriv (deriv y1) t + y1 t - hybF t := by
        linear_combination -e
      rw [e']
      exact this)
  have hR20 : 0 ≤ R2 := (abs_nonneg _).trans (hR2 Real.pi ⟨by linarith, le_rfl⟩)
  have Y1 : ∀ t ∈ Icc (Real.pi / 2) Real.pi, hybReal2 t ≤ 1 := fun t ht => Real.exp_le_one_iff.2 (by linarith [ht.1])
  have hy2c : Continuous y2 := hy2.continuous
  have hYc : Continuous hybReal2 := hyb2_smooth.continuous
  have hBm : -1 ≤ B := hm.trans (hB _ ⟨le_rfl, by linarith⟩)
  have tail := tail_bound (d := fun t => y2 t - hybReal2 t) (d1 := fun t => deriv y2 t - deriv hybReal2 t)
    (p := fun t => (y2 t + hybReal2 t) / 2) (p0 := (y2 (Real.pi / 2) + hybReal2 (Real.pi / 2)) / 2) (a := Real.pi / 2) (b := Real.pi)
    (W := R1 + R2 * (Real.pi / 2)) (P := (B + 1) / 2) (by linarith) (by fun_prop)
    (fun t _ => (hasDeriv1 hy2 t).sub (hasDeriv1 hyb2_smooth t)) (by rw [hf, vf, sub_self]) (by rw [j2]; linarith) (by linarith)
    (fun t ht => by linarith [hB t ht, Y1 t ht]) (fun t ht => by
      have := sub_le_of_deriv (a := Real.pi / 2) (b := t)
        (f := fun t => deriv y2 t - deriv hybReal2 t + (y2 t + hybReal2 t) / 2 * (y2 t - hybReal2 t)) (f' := fun t => hybResid2 y2 t)
        (g := fun t => R2 * t) (g' := fun _ => R2) ht.1
        (fun s _ => by
          have h := ((hasDeriv2 hy2 s).sub (hasDeriv2 hyb2_smooth s)).add
            ((((hasDeriv1 hy2 s).add (hasDeriv1 hyb2_smooth s)).div_const 2).mul ((hasDeriv1 hy2 s).sub (hasDeriv1 hyb2_smooth s)))
          refine HasDerivAt.congr_deriv h ?_
          have e := hyb2_resid s
          unfold hybResid2 at e ⊢
          simp only [Pi.add_apply, Pi.sub_apply]
          linear_combination -e)
        (fun s _ => ((hasDerivAt_id s).const_mul R2).congr_deriv (by ring))
        (fun s hs => hR2 s ⟨hs.1, hs.2.trans ht.2⟩)
      beta_reduce at this
      have e1 : |deriv y2 (Real.pi / 2) - deriv hybReal2 (Real.pi / 2)| ≤ R1 := by
        rw [← hd, j4, ← j3]
        exact q1
      have := abs_add_le (deriv y2 t - deriv hybReal2 t + (y2 t + hybReal2 t) / 2 * (y2 t - hybReal2 t) -
        (deriv y2 (Real.pi / 2) - deriv hybReal2 (Real.pi / 2) + (y2 (Real.pi / 2) + hybReal2 (Real.pi / 2)) / 2 * (y2 (Real.pi / 2) - hybReal2 (Real.pi / 2))))
        (deriv y2 (Real.pi / 2) - deriv hybReal2 (Real.pi / 2))
      rw [show ∀ a b c : ℝ, a - (b + c) + b = a - c by intros; ring] at this
      refine this.trans ?_
      have : R2 * t - R2 * (Real.pi / 2) ≤ R2 * (Real.pi / 2) := by nlinarith [ht.2]
      linarith)
  rw [show Real.pi - Real.pi / 2 = Real.pi / 2 by ring] at tail
  have hb : 2 * (R1 + R2 * (Real.pi / 2)) * (Real.pi / 2) * Real.exp ((B + 1) / 2 * (Real.pi / 2)) = hybBound R1 R2 B := by
    unfold hybBound
    ring
  rw [hb] at tail
  refine ⟨fun t ht => ?_, fun t ht => ?_⟩
  · rw [r1 t ht]
    refine (q2 t ht).trans (add_le_add_left ?_ _)
    have := tail (Real.pi / 2) ⟨le_rfl, by linarith⟩
    rwa [hv, j1, ← j2]
  · rw [r2 t ht]
    exact tail t ht

/-- The reference functions meet the remaining hypotheses of `C96_two_segments`, with residual 0 and `B = 1`. -/
example : (∀ t ∈ Icc 0 (Real.pi / 2), |hybResid1 hybReal1 t| ≤ 0) ∧ (∀ t ∈ Icc (Real.pi / 2) Real.pi, |hybResid2 hybReal2 t| ≤ 0) ∧
    -1 ≤ hybReal2 (Real.pi / 2) ∧ ∀ t ∈ Icc (Real.pi / 2) Real.pi, hybReal2 t ≤ 1 := by
  refine ⟨fun t _ => by rw [hyb1_resid, abs_zero], fun t _ => by rw [hyb2_resid, abs_zero], ?_, fun t ht => ?_⟩
  · unfold hybReal2
    linarith [Real.exp_pos (Real.pi / 2 - Real.pi / 2)]
  · unfold hybReal2
    exact Real.exp_le_one_iff.2 (by linarith [ht.1])

end Verif.Props
