import Verif.Props.Residual
import Mathlib.Analysis.Calculus.MeanValue

/-! # A small residual means a small error (C96): the wave equation, and two equations in one variable -/

namespace Verif.Props

open Verif Verif.Model.Prog Set
open scoped ContDiff

/-! ## The wave equation -/

/-- The derivative along a line in the plane. -/
theorem smooth2_line {F : ℝ → ℝ → ℝ} (hF : Smooth2 F) (a σ s : ℝ) :
    HasDerivAt (fun s => F (a + σ * s) s) (σ * dx F (a + σ * s) s + dy F (a + σ * s) s) s := by
  have h := (ContDiff.differentiable hF (by simp) (a + σ * s, s)).hasFDerivAt
  have h2 : HasDerivAt (fun s : ℝ => ((a + σ * s, s) : ℝ × ℝ)) (σ, 1) s := by
    refine HasDerivAt.prodMk ?_ (hasDerivAt_id s)
    simpa using ((hasDerivAt_id s).const_mul σ).const_add a
  have h3 := HasFDerivAt.comp_hasDerivAt (f := fun s : ℝ => ((a + σ * s, s) : ℝ × ℝ)) s h h2
  refine HasDerivAt.congr_deriv h3 ?_
  have lin : ∀ D : ℝ × ℝ →L[ℝ] ℝ, D (σ, 1) = σ * D (1, 0) + D (0, 1) := fun D => by
    rw [show ((σ, 1) : ℝ × ℝ) = σ • (1, 0) + (0, 1) by simp, map_add, map_smul, smul_eq_mul]
  rw [dx_eq hF, dy_eq hF, lin]

/-- A function changes by at most the bound on its derivative times the length. -/
theorem change_le {f f' : ℝ → ℝ} {a b R : ℝ} (hab : a ≤ b) (hf : ∀ s ∈ Icc a b, HasDerivAt f (f' s) s) (hR : ∀ s ∈ Icc a b, |f' s| ≤ R) :
    |f b| ≤ |f a| + R * (b - a) := by
  have h := (convex_Icc a b).norm_image_sub_le_of_norm_hasDerivWithin_le (fun s hs => (hf s hs).hasDerivWithinAt)
    (fun s hs => by rw [Real.norm_eq_abs]; exact hR s hs) ⟨le_rfl, hab⟩ ⟨hab, le_rfl⟩
  rw [Real.norm_eq_abs, Real.norm_eq_abs, abs_of_nonneg (sub_nonneg.2 hab)] at h
  have := abs_sub_abs_le_abs_sub (f b) (f a)
  linarith

/-- **The wave operator with fixed ends**: a function that starts at rest from 0. -/
theorem wave_bound {w : ℝ → ℝ → ℝ} (hw : Smooth2 w) {T R : ℝ} (hT : 0 < T) (hx : ∀ t ∈ Icc 0 T, w 0 t = 0 ∧ w 1 t = 0)
    (h0 : ∀ x ∈ Icc (0 : ℝ) 1, w x 0 = 0 ∧ dy w x 0 = 0)
    (hR : ∀ x ∈ Icc (0 : ℝ) 1, ∀ t ∈ Icc 0 T, |dx (dx w) x t - dy (dy w) x t| ≤ R) :
    ∀ x ∈ Icc (0 : ℝ) 1, ∀ t ∈ Icc 0 T, |w x t| ≤ R * t ^ 2 / 2 := by
  have hR0 : 0 ≤ R := (abs_nonneg _).trans (hR 0 ⟨le_rfl, zero_le_one⟩ 0 ⟨le_rfl, hT.le⟩)
  obtain ⟨p, hp⟩ : ∃ p, p = fun x t => dy w x t + dx w x t := ⟨_, rfl⟩
  obtain ⟨q, hq⟩ : ∃ q, q = fun x t => dy w x t - dx w x t := ⟨_, rfl⟩
  have sp : Smooth2 p := hp ▸ hw.dy.add hw.dx
  have sq : Smooth2 q := hq ▸ hw.dy.sub hw.dx
  have ep : ∀ x t, -1 * dx p x t + dy p x t = -(dx (dx w) x t - dy (dy w) x t) := fun x t => by
    rw [hp, hw.dy.dx_add hw.dx, hw.dy.dy_add hw.dx, dx_dy hw]
    ring
  have eq : ∀ x t, 1 * dx q x t + dy q x t = -(dx (dx w) x t - dy (dy w) x t) := fun x t => by
    rw [hq, hw.dy.dx_sub hw.dx, hw.dy.dy_sub hw.dx, dx_dy hw]
    ring
  -- the values at the ends and at the start
  have e0 : ∀ t ∈ Icc 0 T, dy w 0 t = 0 := dy_side hw hT fun t h => (hx t h).1
  have e1 : ∀ t ∈ Icc 0 T, dy w 1 t = 0 := dy_side hw hT fun t h => (hx t h).2
  have st : ∀ x ∈ Icc (0 : ℝ) 1, dx w x 0 = 0 := dx_side hw one_pos fun x h => (h0 x h).1
  have p0 : ∀ x ∈ Icc (0 : ℝ) 1, p x 0 = 0 := fun x h => by rw [hp]; simp [(h0 x h).2, st x h]
  have q0 : ∀ x ∈ Icc (0 : ℝ) 1, q x 0 = 0 := fun x h => by rw [hq]; simp [(h0 x h).2, st x h]
  have f0 : ∀ t ∈ Icc 0 T, |q 0 t| = |p 0 t| := fun t h => by rw [hp, hq]; simp [e0 t h]
  have f1 : ∀ t ∈ Icc 0 T, |p 1 t| = |q 1 t| := fun t h => by rw [hp, hq]; simp [e1 t h]
  -- along the characteristics
  have chq : ∀ x t s, s ∈ Icc 0 t → t ≤ T → 0 ≤ x - (t - s) → x ≤ 1 → |q x t| ≤ |q (x - (t - s)) s| + R * (t - s) := by
    intro x t s hs ht h1 h2
    have := change_le (f := fun s => q (x - t + 1 * s) s) hs.2 (fun s _ => smooth2_line sq (x - t) 1 s) fun r hr => by
      rw [eq, abs_neg]
      exact hR _ ⟨by linarith [hr.1], by linarith [hr.2]⟩ r ⟨hs.1.trans hr.1, hr.2.trans ht⟩
    simp only [one_mul] at this
    rwa [sub_add_cancel, show x - t + s = x - (t - s) by ring] at this
  have chp : ∀ x t s, s ∈ Icc 0 t → t ≤ T → x + (t - s) ≤ 1 → 0 ≤ x → |p x t| ≤ |p (x + (t - s)) s| + R * (t - s) := by
    intro x t s hs ht h1 h2
    have := change_le (f := fun s => p (x + t + -1 * s) s) hs.2 (fun s _ => smooth2_line sp (x + t) (-1) s) fun r hr => by
      rw [ep, abs_neg]
      exact hR _ ⟨by linarith [hr.2], by linarith [hr.1]⟩ r ⟨hs.1.trans hr.1, hr.2.trans ht⟩
    simp only [neg_mul, one_mul] at this
    rwa [show x + t + -t = x by ring, show x + t + -s = x + (t - s) by ring] at this
  have bnd : ∀ n : ℕ, ∀ t ∈ Icc 0 T, t ≤ n → |q 1 t| ≤ R * t ∧ |p 0 t| ≤ R * t := by
    intro n
    induction n with
    | zero =>
      intro t ht hn
      have : t = 0 := le_antisymm (by simpa using hn) ht.1
      subst this
      rw [q0 1 ⟨zero_le_one, le_rfl⟩, p0 0 ⟨le_rfl, zero_le_one⟩]
      simp
    | succ n ih =>
      intro t ht hn
      push_cast at hn
      by_cases h : t ≤ 1
      · have a := chq 1 t 0 ⟨le_rfl, ht.1⟩ ht.2 (by linarith) le_rfl
        have b := chp 0 t 0 ⟨le_rfl, ht.1⟩ ht.2 (by linarith) le_rfl
        rw [q0 _ ⟨by linarith, by linarith [ht.1]⟩] at a
        rw [p0 _ ⟨by linarith [ht.1], by linarith⟩] at b
        simp only [abs_zero, sub_zero, zero_add] at a b
        exact ⟨a, b⟩
      · have h : 1 < t := lt_of_not_ge h
        have hm : t - 1 ∈ Icc 0 T := ⟨by linarith, by linarith [ht.2]⟩
        have a := chq 1 t (t - 1) ⟨hm.1, by linarith⟩ ht.2 (by linarith) le_rfl
        have b := chp 0 t (t - 1) ⟨hm.1, by linarith⟩ ht.2 (by linarith) le_rfl
        obtain ⟨i1, i2⟩ := ih (t - 1) hm (by linarith)
        rw [show (1 : ℝ) - (t - (t - 1)) = 0 by ring, f0 _ hm] at a
        rw [show (0 : ℝ) + (t - (t - 1)) = 1 by ring, f1 _ hm] at b
        constructor <;> linarith
  have bnd' : ∀ t ∈ Icc 0 T, |q 1 t| ≤ R * t ∧ |p 0 t| ≤ R * t := fun t ht => by
    obtain ⟨n, hn⟩ := exists_nat_ge t
    exact bnd n t ht hn
  have hqI : ∀ x ∈ Icc (0 : ℝ) 1, ∀ t ∈ Icc 0 T, |q x t| ≤ R * t := by
    intro x h1 t ht
    by_cases h : t ≤ x
    · have a := chq x t 0 ⟨le_rfl, ht.1⟩ ht.2 (by linarith) h1.2
      rw [q0 _ ⟨by linarith, by linarith [ht.1, h1.2]⟩] at a
      simpa using a
    · have h : x < t := lt_of_not_ge h
      have hm : t - x ∈ Icc 0 T := ⟨by linarith, by linarith [ht.2, h1.1]⟩
      have a := chq x t (t - x) ⟨hm.1, by linarith [h1.1]⟩ ht.2 (by linarith) h1.2
      rw [show x - (t - (t - x)) = 0 by ring, f0 _ hm] at a
      have := (bnd' _ hm).2
      linarith
  have hpI : ∀ x ∈ Icc (0 : ℝ) 1, ∀ t ∈ Icc 0 T, |p x t| ≤ R * t := by
    intro x h1 t ht
    by_cases h : t ≤ 1 - x
    · have a := chp x t 0 ⟨le_rfl, ht.1⟩ ht.2 (by linarith) h1.1
      rw [p0 _ ⟨by linarith [ht.1, h1.1], by linarith⟩] at a
      simpa using a
    · have h : 1 - x < t := lt_of_not_ge h
      have hm : t - (1 - x) ∈ Icc 0 T := ⟨by linarith, by linarith [ht.2, h1.2]⟩
      have a := chp x t (t - (1 - x)) ⟨hm.1, by linarith [h1.2]⟩ ht.2 (by linarith) h1.1
      rw [show x + (t - (t - (1 - x))) = 1 by ring, f1 _ hm] at a
      have := (bnd' _ hm).1
      linarith
  have hv : ∀ x ∈ Icc (0 : ℝ) 1, ∀ t ∈ Icc 0 T, |dy w x t| ≤ R * t := fun x h1 t ht => by
    have a := abs_le.1 (hpI x h1 t ht)
    have b := abs_le.1 (hqI x h1 t ht)
    rw [hp] at a
    rw [hq] at b
    simp only at a b
    exact abs_le.2 ⟨by linarith, by linarith⟩
  -- from the velocity to the position
  intro x h1 t ht
  have half : ∀ s : ℝ, HasDerivAt (fun s : ℝ => R * s ^ 2 / 2) (R * s) s := fun s => by
    refine HasDerivAt.congr_deriv (((hasDerivAt_pow 2 s).const_mul R).div_const 2) ?_
    simp
    ring
  have up : w x t - R * t ^ 2 / 2 ≤ w x 0 - R * 0 ^ 2 / 2 := by
    refine antitoneOn_of_deriv_nonpos (f := fun s => w x s - R * s ^ 2 / 2) (convex_Icc 0 T)
      (fun s _ => ((hw.hasDy x s).sub (half s)).continuousAt.continuousWithinAt)
      (fun s _ => ((hw.hasDy x s).sub (half s)).differentiableAt.differentiableWithinAt) (fun s hs => ?_) ⟨le_rfl, hT.le⟩ ht ht.1
    rw [interior_Icc] at hs
    refine ((hw.hasDy x s).sub (half s)).deriv.le.trans ?_
    linarith [(abs_le.1 (hv x h1 s ⟨hs.1.le, hs.2.le⟩)).2]
  have lo : w x 0 + R * 0 ^ 2 / 2 ≤ w x t + R * t ^ 2 / 2 := by
    refine monotoneOn_of_deriv_nonneg (f := fun s => w x s + R * s ^ 2 / 2) (convex_Icc 0 T)
      (fun s _ => ((hw.hasDy x s).add (half s)).continuousAt.continuousWithinAt)
      (fun s _ => ((hw.hasDy x s).add (half s)).differentiableAt.differentiableWithinAt) (fun s hs => ?_) ⟨le_rfl, hT.le⟩ ht ht.1
    rw [interior_Icc] at hs
    refine le_trans ?_ ((hw.hasDy x s).add (half s)).deriv.ge
    linarith [(abs_le.1 (hv x h1 s ⟨hs.1.le, hs.2.le⟩)).1]
  rw [(h0 x h1).1] at up lo
  exact abs_le.2 ⟨by linarith, by linarith⟩

theorem wavReal_smooth : Smooth2 wavReal := by
  unfold Smooth2 wavReal
  fun_prop

/-- **C96**, the wave equation (D/Chapter_4/WaveEquation/WaveEquation.py), for all final times. -/
theorem C96_wave (u : ℝ → ℝ → ℝ) (hu : Smooth2 u) {T R : ℝ} (hT : 0 < T) (hx : ∀ t ∈ Icc 0 T, u 0 t = 0 ∧ u 1 t = 0)
    (h0 : ∀ x ∈ Icc (0 : ℝ) 1, u x 0 = Real.sin (Real.pi * x) ∧ dy u x 0 = 0)
    (hR : ∀ x ∈ Icc (0 : ℝ) 1, ∀ t ∈ Icc 0 T, |wavResid u x t| ≤ R) :
    ∀ x ∈ Icc (0 : ℝ) 1, ∀ t ∈ Icc 0 T, |u x t - wavReal x t| ≤ R * t ^ 2 / 2 := by
  have hv := wavReal_smooth
  obtain ⟨v1, v2, v3⟩ := C79_wave wavReal fun x => (hv.right x).differentiable (by simp)
  rw [C83_wave.1] at v1 v2 v3
  refine wave_bound (hu.sub hv) hT (fun t h => ?_) (fun x h => ?_) fun x h1 t h2 => ?_
  · rw [(hx t h).1, (hx t h).2, (v1 t).1, (v1 t).2]
    norm_num
  · rw [hu.dy_sub hv]
    beta_reduce
    rw [(h0 x h).1, (h0 x h).2, v2, v3]
    norm_num
  · rw [hu.dx_sub hv, hu.dy_sub hv, hu.dx.dx_sub hv.dx, hu.dy.dy_sub hv.dy]
    have e := C83_wave.2 x t
    have r := hR x h1 t h2
    unfold wavResid at e r
    convert r using 2
    linear_combination -e

theorem wavU_smooth {g : ℝ → ℝ → ℝ} (hg : Smooth2 g) : Smooth2 (wavU g) := by
  have h0 := hg.at_left 0
  have h1 := hg.at_left 1
  have k : Smooth2 (wavU1 g) := by
    unfold Smooth2 wavU1 at *
    fun_prop
  have k0 := k.at_right 0
  have k1 := k.dy.at_right 0
  unfold Smooth2 wavU at *
  fun_prop

/-- **C96**, the expression of the program: for all smooth free functions. -/
theorem C96_wave_program (g : ℝ → ℝ → ℝ) (hg : Smooth2 g) {T R : ℝ} (hT : 0 < T)
    (hR : ∀ x ∈ Icc (0 : ℝ) 1, ∀ t ∈ Icc 0 T, |wavResid (wavU g) x t| ≤ R) :
    ∀ x ∈ Icc (0 : ℝ) 1, ∀ t ∈ Icc 0 T, |wavU g x t - wavReal x t| ≤ R * t ^ 2 / 2 := by
  obtain ⟨c1, c2, c3⟩ := C79_wave g fun x => (hg.right x).differentiable (by simp)
  exact C96_wave (wavU g) (wavU_smooth hg) hT (fun t _ => c1 t) (fun x _ => ⟨c2 x, c3 x⟩) hR

/-! ## One variable -/

theorem hasDeriv1 {y : ℝ → ℝ} (hy : ContDiff ℝ 2 y) (t : ℝ) : HasDerivAt y (deriv y t) t := (hy.differentiable (by norm_num) t).hasDerivAt

theorem hasDeriv2 {y : ℝ → ℝ} (hy : ContDiff ℝ 2 y) (t : ℝ) : HasDerivAt (deriv y) (deriv (deriv y) t) t :=
  (((contDiff_succ_iff_deriv (n := 1)).mp hy).2.2.differentiable (by norm_num) t).hasDerivAt

/-- **C96**, the oscillator (B/Chapter_3/example_3_1.py): starting values `y0 > 0` and `y0p`, any frequency. (Missing: the starting values of
`C83_oscillator_fails`, for which the reference solution is not a solution.) -/
theorem C96_oscillator_partial (w y0 y0p : ℝ) (hw : w ≠ 0) (hy0 : 0 < y0) {L R : ℝ} (y : ℝ → ℝ) (hy : ContDiff ℝ 2 y) (h0 : y 0 = y0)
    (h1 : deriv y 0 = y0p) (hR : ∀ x ∈ Icc 0 L, |oscResid w y x| ≤ R) :
    ∀ x ∈ Icc 0 L, |y x - oscReal w y0 y0p x| ≤ R * x / |w| := by
  obtain ⟨v0, v1, v2, -⟩ := C83_oscillator_partial w y0 y0p hw hy0
  have dv : ∀ s, HasDerivAt (oscReal w y0 y0p) (deriv (oscReal w y0 y0p) s) s := fun s => by
    refine DifferentiableAt.hasDerivAt ?_
    unfold oscReal
    fun_prop
  intro x hx
  have key := change_le (R := R / |w|) (f := fun s => (deriv y s - deriv (oscReal w y0 y0p) s) * (Real.sin (w * x + -w * s) / w)
      + (y s - oscReal w y0 y0p s) * Real.cos (w * x + -w * s)) (f' := fun s => oscResid w y s * (Real.sin (w * x + -w * s) / w)) hx.1
    (fun s hs => ?_) fun s hs => ?_
  · simp only [h0, h1, v0, v1, sub_self, zero_mul, add_zero, abs_zero, zero_add, neg_mul, add_neg_cancel, Real.sin_zero, zero_div,
      mul_zero, Real.cos_zero, mul_one, sub_zero] at key
    rw [mul_comm, ← mul_div_assoc, mul_comm] at key
    exact key
  · have a := ((hasDeriv2 hy s).sub (osc_deriv2 w y0 y0p s)).mul ((sin_lin (w * x) (-w) s).div_const w)
    have b := ((hasDeriv1 hy s).sub (dv s)).mul (cos_lin (w * x) (-w) s)
    refine HasDerivAt.congr_deriv (a.add b) ?_
    unfold oscResid
    simp only [Pi.sub_apply]
    field_simp
    ring
  · rw [abs_mul, abs_div, mul_div_assoc']
    refine div_le_div_of_nonneg_right ?_ (abs_nonneg w)
    have r := hR s ⟨hs.1, hs.2.trans hx.2⟩
    have := Real.abs_sin_le_one (w * x + -w * s)
    nlinarith [abs_nonneg (oscResid w y s)]

/-- One side for `y'' - Pe y'` with boundary values 0. -/
theorem conv_upper {w w1 w2 : ℝ → ℝ} (h1 : ∀ x, HasDerivAt w (w1 x) x) (h2 : ∀ x, HasDerivAt w1 (w2 x) x) {Pe R : ℝ} (hP : Pe ≠ 0) (hR0 : 0 ≤ R)
    (b0 : w 0 = 0) (b1 : w 1 = 0) (hR : ∀ x ∈ Icc (0 : ℝ) 1, -R ≤ w2 x - Pe * w1 x) : ∀ x ∈ Icc (0 : ℝ) 1, w x ≤ R / |Pe| := by
  have hPa : 0 < |Pe| := abs_pos.2 hP
  -- a positive function with second derivative 0 and first derivative 1 / Pe
  obtain ⟨k, hk⟩ : ∃ k : ℝ, k = (1 / |Pe| - 1 / Pe) / 2 := ⟨_, rfl⟩
  have hb : ∀ x ∈ Icc (0 : ℝ) 1, 0 ≤ k + x / Pe ∧ k + x / Pe ≤ 1 / |Pe| := by
    intro x hx
    rcases lt_or_gt_of_ne hP with h | h
    · rw [abs_of_neg h] at hk ⊢
      have hi : 1 / Pe < 0 := one_div_neg.2 h
      have e : (1 : ℝ) / -Pe = -(1 / Pe) := by rw [one_div_neg_eq_neg_one_div]
      rw [e] at hk ⊢
      have e2 : x / Pe = x * (1 / Pe) := by ring
      rw [e2]
      constructor <;> nlinarith [hx.1, hx.2]
    · rw [abs_of_pos h] at hk ⊢
      have hi : 0 < 1 / Pe := one_div_pos.2 h
      have e2 : x / Pe = x * (1 / Pe) := by ring
      rw [e2]
      constructor <;> nlinarith [hx.1, hx.2]
  have key : ∀ ε > 0, ∀ x ∈ Icc (0 : ℝ) 1, w x ≤ R * (k + x / Pe + ε) := by
    intro ε hε
    have hpos : ∀ x ∈ Icc (0 : ℝ) 1, 0 < k + x / Pe + ε := fun x hx => by linarith [(hb x hx).1]
    refine le_of_no_touch isCompact_Icc (fun x _ => (h1 x).continuousAt.continuousWithinAt) (by fun_prop) hpos ?_
    intro M hM x hx he hle
    have hMp : 0 < M := lt_of_le_of_lt hR0 hM
    have hpp := mul_pos hMp (hpos x hx)
    have hne : w x ≠ 0 := by rw [he]; exact hpp.ne'
    have x0 : 0 < x := lt_of_le_of_ne hx.1 fun h => hne (h ▸ b0)
    have x1 : x < 1 := lt_of_le_of_ne hx.2 fun h => hne (h ▸ b1)
    have dφ : ∀ s : ℝ, HasDerivAt (fun s => M * (k + s / Pe + ε)) (M * (1 / Pe)) s := fun s =>
      ((((hasDerivAt_id s).div_const Pe).const_add k).add_const ε).const_mul M
    have q := touch x0 x1 (f := fun s => w s - M * (k + s / Pe + ε)) (f' := fun s => w1 s - M * (1 / Pe)) (fun s _ => (h1 s).sub (dφ s))
      ((h2 x).sub_const _) fun s hs => by
        have := hle s hs
        linarith
    have e : Pe * w1 x = M := by
      have := q.1
      rw [show w1 x = M * (1 / Pe) by linarith]
      field_simp
    linarith [hR x hx, q.2]
  intro x hx
  refine le_of_forall_pos_le_add fun δ hδ => ?_
  have a := key (δ / (R + 1)) (by positivity) x hx
  have b : R * (δ / (R + 1)) ≤ δ := by
    rw [mul_div_assoc', div_le_iff₀ (by linarith)]
    nlinarith
  have c : R * (k + x / Pe) ≤ R * (1 / |Pe|) := mul_le_mul_of_nonneg_left (hb x hx).2 hR0
  have d : R / |Pe| = R * (1 / |Pe|) := by ring
  linarith

/-- **C96**, convection and diffusion (D/Appendices/Appendix_D.py, J/Chapter_4/Example_4_6/*.py), all Péclet numbers other than 0. -/
theorem C96_convection (Pe : ℝ) (hP : Pe ≠ 0) {R : ℝ} (y : ℝ → ℝ) (hy : ContDiff ℝ 2 y) (h0 : y 0 = 1) (h1 : y 1 = 0)
    (hR : ∀ x ∈ Icc (0 : ℝ) 1, |convResid Pe y x| ≤ R) : ∀ x ∈ Icc (0 : ℝ) 1, |y x - convReal Pe x| ≤ R / |Pe| := by
  have hR0 : 0 ≤ R := (abs_nonneg _).trans (hR 0 ⟨le_rfl, zero_le_one⟩)
  obtain ⟨v0, v1, v2, -⟩ := C83_convection Pe hP
  have hv : ContDiff ℝ 2 (convReal Pe) := by
    unfold convReal
    fun_prop
  have eq : ∀ x, deriv (deriv y) x - deriv (deriv (convReal Pe)) x - Pe * (deriv y x - deriv (convReal Pe) x) = convResid Pe y x := fun x => by
    have e := v2 x
    unfold convResid at e ⊢
    linear_combination -e
  intro x hx
  refine abs_le.2 ⟨?_, conv_upper (w := fun x => y x - convReal Pe x) (fun x => (hasDeriv1 hy x).sub (hasDeriv1 hv x))
    (fun x => (hasDeriv2 hy x).sub (hasDeriv2 hv x)) hP hR0 (by simp [h0, v0]) (by simp [h1, v1])
    (fun x hx => by rw [eq]; exact (abs_le.1 (hR x hx)).1) x hx⟩
  have := conv_upper (w := fun x => -(y x - convReal Pe x)) (fun x => ((hasDeriv1 hy x).sub (hasDeriv1 hv x)).neg)
    (fun x => ((hasDeriv2 hy x).sub (hasDeriv2 hv x)).neg) hP hR0 (by simp [h0, v0]) (by simp [h1, v1])
    (fun x hx => by linarith [eq x, (abs_le.1 (hR x hx)).2]) x hx
  linarith

end Verif.Props
