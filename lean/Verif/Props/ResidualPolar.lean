import Verif.Lemmas.Area
import Verif.Props.ReferencePde
import Verif.Props.Residual

/-! # Small residual, small error: the biharmonic equation in polar coordinates

The energy of the difference `w` from the solution, the integral of the square of its second derivatives, is the integral of `w` times the
residual; and the energy bounds `w`. -/

namespace Verif.Props
open Set MeasureTheory Verif Verif.Model Verif.Model.Prog Verif.Lemmas.Area
open scoped ContDiff

/-- The derivative of a product with a function of the first variable, and other rules, at the place where `ρ = 1/r`. -/
theorem inv_deriv {ρ : ℝ → ℝ} (h : ∀ r, 3 / 4 < r → ρ r = 1 / r) {r : ℝ} (hr : 3 / 4 < r) : HasDerivAt ρ (-(1 / r) ^ 2) r := by
  have h0 : r ≠ 0 := by linarith |> fun h : 0 < r => h.ne'
  have e := hasDerivAt_inv h0
  refine (e.congr_of_eventuallyEq ?_).congr_deriv ?_
  · filter_upwards [isOpen_Ioi.mem_nhds hr] with s hs
    rw [h s hs, one_div]
  · field_simp

/-- The part of the field of the energy along the radius. -/
noncomputable def fluxR (ρ : ℝ → ℝ) (w : ℝ → ℝ → ℝ) (r t : ℝ) : ℝ :=
  r * (w r t * (dx (dx (dx w)) r t - ρ r ^ 2 * dx w r t + ρ r * dx (dx w) r t - 2 * ρ r ^ 3 * dy (dy w) r t + ρ r ^ 2 * dy (dy (dx w)) r t))
    - r * (dx (dx w) r t * dx w r t) - (ρ r * dy (dx w) r t - ρ r ^ 2 * dy w r t) * dy w r t

/-- The part along the angle. -/
noncomputable def fluxT (ρ : ℝ → ℝ) (w : ℝ → ℝ → ℝ) (r t : ℝ) : ℝ :=
  ρ r * (w r t * (dy (dx (dx w)) r t + ρ r * dy (dx w) r t + ρ r ^ 2 * dy (dy (dy w)) r t))
    - (ρ r * dy (dx w) r t - ρ r ^ 2 * dy w r t) * dx w r t - (ρ r * dx w r t + ρ r ^ 2 * dy (dy w) r t) * (ρ r * dy w r t)

/-- The density of the energy. -/
noncomputable def energyR (ρ : ℝ → ℝ) (w : ℝ → ℝ → ℝ) (r t : ℝ) : ℝ :=
  r * (dx (dx w) r t ^ 2 + 2 * (ρ r * dy (dx w) r t - ρ r ^ 2 * dy w r t) ^ 2 + (ρ r * dx w r t + ρ r ^ 2 * dy (dy w) r t) ^ 2)

variable {ρ : ℝ → ℝ} {w : ℝ → ℝ → ℝ}

theorem fluxR_smooth (hρ : ContDiff ℝ ∞ ρ) (hw : Smooth2 w) : Smooth2 (fluxR ρ w) := by
  have h1 := hw.dx
  have h2 := hw.dx.dx
  have h3 := hw.dx.dx.dx
  have k0 := hw.dy
  have k1 := hw.dx.dy
  have l0 := hw.dy.dy
  have l1 := hw.dx.dy.dy
  unfold Smooth2 fluxR at *
  fun_prop

theorem fluxT_smooth (hρ : ContDiff ℝ ∞ ρ) (hw : Smooth2 w) : Smooth2 (fluxT ρ w) := by
  have h1 := hw.dx
  have k0 := hw.dy
  have k1 := hw.dx.dy
  have k2 := hw.dx.dx.dy
  have l0 := hw.dy.dy
  have m0 := hw.dy.dy.dy
  unfold Smooth2 fluxT at *
  fun_prop

theorem energyR_smooth (hρ : ContDiff ℝ ∞ ρ) (hw : Smooth2 w) : Smooth2 (energyR ρ w) := by
  have h1 := hw.dx
  have h2 := hw.dx.dx
  have k0 := hw.dy
  have k1 := hw.dx.dy
  have l0 := hw.dy.dy
  unfold Smooth2 energyR at *
  fun_prop

/-- The derivatives of the field: the defect of the equation times `w`, and the energy. -/
theorem flux_div (hρ : ∀ r, 3 / 4 < r → ρ r = 1 / r) (hw : Smooth2 w) {r : ℝ} (hr : 3 / 4 < r) (t : ℝ) :
    dx (fluxR ρ w) r t + dy (fluxT ρ w) r t = r * (w r t * polResid w r t) - energyR ρ w r t := by
  have h0 : r ≠ 0 := by linarith |> fun h : 0 < r => h.ne'
  have dρ := inv_deriv hρ hr
  have a0 := hw.hasDx r t
  have a1 := hw.dx.hasDx r t
  have a2 := hw.dx.dx.hasDx r t
  have a3 := hw.dx.dx.dx.hasDx r t
  have b0 := hw.dy.hasDx r t
  have b1 := hw.dx.dy.hasDx r t
  have c0 := hw.dy.dy.hasDx r t
  have c1 := hw.dx.dy.dy.hasDx r t
  rw [dx_dy hw] at b0
  rw [dx_dy hw.dx] at b1
  rw [dx_dy hw.dy, dx_dy hw] at c0
  rw [dx_dy hw.dx.dy, dx_dy hw.dx] at c1
  have hA : HasDerivAt (fun s => fluxR ρ w s t) _ r :=
    (((hasDerivAt_id r).mul (a0.mul ((((a3.sub ((dρ.pow 2).mul a1)).add (dρ.mul a2)).sub (((dρ.pow 3).const_mul 2).mul c0)).add
      ((dρ.pow 2).mul c1)))).sub ((hasDerivAt_id r).mul (a2.mul a1))).sub (((dρ.mul b1).sub ((dρ.pow 2).mul b0)).mul b0)
  have u0 := hw.hasDy r t
  have u1 := hw.dy.hasDy r t
  have u2 := hw.dy.dy.hasDy r t
  have u3 := hw.dy.dy.dy.hasDy r t
  have v0 := hw.dx.hasDy r t
  have v1 := hw.dx.dy.hasDy r t
  have x1 := hw.dx.dx.dy.hasDy r t
  have hB : HasDerivAt (fun s => fluxT ρ w r s) _ t :=
    (((u0.mul ((x1.add (v1.const_mul (ρ r))).add (u3.const_mul (ρ r ^ 2)))).const_mul (ρ r)).sub
      (((v1.const_mul (ρ r)).sub (u1.const_mul (ρ r ^ 2))).mul v0)).sub
      (((v0.const_mul (ρ r)).add (u2.const_mul (ρ r ^ 2))).mul (u1.const_mul (ρ r)))
  have eA : dx (fluxR ρ w) r t = _ := hA.deriv
  have eB : dy (fluxT ρ w) r t = _ := hB.deriv
  rw [eA, eB]
  simp only [Pi.mul_apply, Pi.sub_apply, Pi.add_apply, Pi.pow_apply, id, show (2 : ℕ) - 1 = 1 from rfl, show (3 : ℕ) - 1 = 2 from rfl, pow_one, Nat.cast_ofNat]
  unfold energyR polResid
  rw [hρ r hr]
  generalize dx (dx (dx (dx w))) r t = A4
  generalize dx (dx (dx w)) r t = A3
  generalize dy (dy (dx (dx w))) r t = C2
  generalize dy (dx (dx w)) r t = B2
  generalize dx (dx w) r t = A2
  generalize dy (dy (dx w)) r t = C1
  generalize dy (dx w) r t = B1
  generalize dx w r t = A1
  generalize dy (dy (dy (dy w))) r t = E0
  generalize dy (dy (dy w)) r t = D0
  generalize dy (dy w) r t = C0
  generalize dy w r t = B0
  generalize w r t = A0
  field_simp
  ring

/-- The values at two places of the second variable agree, so do their derivatives in the first variable. -/
theorem dx_agree {F : ℝ → ℝ → ℝ} (hF : Smooth2 F) {a b s t : ℝ} (hab : a < b) (h : ∀ x ∈ Icc a b, F x s = F x t) :
    ∀ x ∈ Icc a b, dx F x s = dx F x t := by
  have hG : Smooth2 fun x _ => F x s - F x t := (hF.at_right s).sub (hF.at_right t)
  intro x hx
  have e := dx_side hG (a := 0) hab (fun x hx => sub_eq_zero.2 (h x hx)) x hx
  have d : dx (fun x _ => F x s - F x t) x 0 = dx F x s - dx F x t := ((hF.hasDx x s).sub (hF.hasDx x t)).deriv
  rw [d] at e
  exact sub_eq_zero.1 e

/-- What the difference from the solution satisfies: it and its second radial derivative vanish on both circles, and it and its first three
derivatives in the angle agree at 0 and 2π. -/
def PolarZero (w : ℝ → ℝ → ℝ) : Prop :=
  (∀ t ∈ Icc (0 : ℝ) (2 * Real.pi), w 1 t = 0 ∧ w 4 t = 0 ∧ dx (dx w) 1 t = 0 ∧ dx (dx w) 4 t = 0) ∧
  ∀ r ∈ Icc (1 : ℝ) 4, w r 0 = w r (2 * Real.pi) ∧ dy w r 0 = dy w r (2 * Real.pi) ∧ dy (dy w) r 0 = dy (dy w) r (2 * Real.pi) ∧
    dy (dy (dy w)) r 0 = dy (dy (dy w)) r (2 * Real.pi)

/-- The energy is the integral of `w` times the residual. -/
theorem polar_energy (hρ : ContDiff ℝ ∞ ρ) (hρ1 : ∀ r, 3 / 4 < r → ρ r = 1 / r) (hw : Smooth2 w) (hz : PolarZero w) {S R : ℝ}
    (hS : ∀ r ∈ Icc (1 : ℝ) 4, ∀ t ∈ Icc (0 : ℝ) (2 * Real.pi), |w r t| ≤ S)
    (hR : ∀ r ∈ Icc (1 : ℝ) 4, ∀ t ∈ Icc (0 : ℝ) (2 * Real.pi), |polResid w r t| ≤ R) :
    area 1 4 0 (2 * Real.pi) (energyR ρ w) ≤ 15 * Real.pi * (S * R) := by
  have hpi := Real.two_pi_pos
  have h14 : (1 : ℝ) < 4 := by norm_num
  have sA := fluxR_smooth hρ hw
  have sB := fluxT_smooth hρ hw
  have sE := energyR_smooth hρ hw
  have y1 := dy_side hw hpi fun t ht => (hz.1 t ht).1
  have y4 := dy_side hw hpi fun t ht => (hz.1 t ht).2.1
  have p0 : ∀ x ∈ Icc (1 : ℝ) 4, w x 0 = w x (2 * Real.pi) := fun r hr => (hz.2 r hr).1
  have p1 : ∀ x ∈ Icc (1 : ℝ) 4, dy w x 0 = dy w x (2 * Real.pi) := fun r hr => (hz.2 r hr).2.1
  have x1 := dx_agree hw h14 p0
  have x2 := dx_agree hw.dy h14 p1
  have x3 := dx_agree hw.dy.dx h14 x2
  rw [dx_dy hw, dx_dy hw.dx] at x3
  rw [dx_dy hw] at x2
  have zero := area_div sA sB h14.le hpi.le (fun t ht => by
    unfold fluxR
    rw [(hz.1 t ht).1, (hz.1 t ht).2.1, (hz.1 t ht).2.2.1, (hz.1 t ht).2.2.2, y1 t ht, y4 t ht]
    ring) fun r hr => by
    unfold fluxT
    rw [p0 r hr, p1 r hr, x1 r hr, x2 r hr, x3 r hr, (hz.2 r hr).2.2.1, (hz.2 r hr).2.2.2]
  have c1 := sE.continuous
  have c2 := (sA.dx.add sB.dy).continuous
  have e := area_add (a := 1) (b := 4) (c := 0) (d := 2 * Real.pi) (G := fun r t => dx (fluxR ρ w) r t + dy (fluxT ρ w) r t) c1 c2
  rw [zero, add_zero] at e
  rw [← e]
  have m := area_mono (F := fun r t => energyR ρ w r t + (dx (fluxR ρ w) r t + dy (fluxT ρ w) r t)) (G := fun r _ => r * (S * R)) h14.le hpi.le (sE.add (sA.dx.add sB.dy)).continuous (by fun_prop) fun r hr t ht => by
    rw [flux_div hρ1 hw (by linarith [hr.1]) t, add_sub_cancel]
    have a := hS r hr t ht
    have b := hR r hr t ht
    have k : w r t * polResid w r t ≤ S * R := by
      refine (le_abs_self _).trans ?_
      rw [abs_mul]
      exact mul_le_mul a b (abs_nonneg _) ((abs_nonneg _).trans a)
    exact mul_le_mul_of_nonneg_left k (by linarith [hr.1])
  refine m.trans_eq ?_
  unfold area
  simp only [intervalIntegral.integral_const, smul_eq_mul, intervalIntegral.integral_const_mul, intervalIntegral.integral_mul_const, integral_id]
  ring

/-- The energy bounds the function. -/
theorem polar_sup (hρ : ContDiff ℝ ∞ ρ) (hρ1 : ∀ r, 3 / 4 < r → ρ r = 1 / r) (hw : Smooth2 w) (hz : PolarZero w) :
    ∀ r ∈ Icc (1 : ℝ) 4, ∀ t ∈ Icc (0 : ℝ) (2 * Real.pi), w r t ^ 2 ≤ 19 * Real.pi * area 1 4 0 (2 * Real.pi) (energyR ρ w) := by
  have hpi := Real.two_pi_pos
  have h14 : (1 : ℝ) < 4 := by norm_num
  have y1 := dy_side hw hpi fun t ht => (hz.1 t ht).1
  have y4 := dy_side hw hpi fun t ht => (hz.1 t ht).2.1
  obtain ⟨p, hp⟩ : ∃ p : ℝ → ℝ → ℝ, p = fun r t => ρ r * dy w r t := ⟨_, rfl⟩
  have sp : Smooth2 p := hp ▸ (Smooth2.of_left hρ).mul hw.dy
  have dp : ∀ r ∈ Icc (1 : ℝ) 4, ∀ t, dx p r t = ρ r * dy (dx w) r t - ρ r ^ 2 * dy w r t := fun r hr t => by
    have h34 : 3 / 4 < r := by linarith [hr.1]
    have d := (inv_deriv hρ1 h34).mul (hw.dy.hasDx r t)
    rw [dx_dy hw] at d
    rw [hp]
    refine d.deriv.trans ?_
    rw [hρ1 r h34]
    ring
  have cH : Continuous fun P : ℝ × ℝ => dx (dx w) P.1 P.2 ^ 2 := hw.dx.dx.continuous.pow 2
  have cQ : Continuous fun P : ℝ × ℝ => dx p P.1 P.2 ^ 2 := sp.dx.continuous.pow 2
  -- the two parts of the energy
  obtain ⟨H, hH⟩ : ∃ H : ℝ → ℝ, H = fun t => ∫ r in (1 : ℝ)..4, dx (dx w) r t ^ 2 := ⟨_, rfl⟩
  obtain ⟨Q, hQ⟩ : ∃ Q : ℝ → ℝ, Q = fun t => ∫ r in (1 : ℝ)..4, dx p r t ^ 2 := ⟨_, rfl⟩
  have hHc : Continuous H := hH ▸ inner_continuous (F := fun t r => dx (dx w) r t ^ 2) (cH.comp continuous_swap)
  have hQc : Continuous Q := hQ ▸ inner_continuous (F := fun t r => dx p r t ^ 2) (cQ.comp continuous_swap)
  have hQ0 : ∀ t, 0 ≤ Q t := fun t => hQ ▸ intervalIntegral.integral_nonneg h14.le fun r _ => sq_nonneg _
  have hH0 : ∀ t, 0 ≤ H t := fun t => hH ▸ intervalIntegral.integral_nonneg h14.le fun r _ => sq_nonneg _
  have parts : (∫ t in (0 : ℝ)..2 * Real.pi, H t) + 2 * (∫ t in (0 : ℝ)..2 * Real.pi, Q t) ≤ area 1 4 0 (2 * Real.pi) (energyR ρ w) := by
    rw [hH, hQ]
    beta_reduce
    rw [← area_swap (F := fun r t => dx (dx w) r t ^ 2) cH, ← area_swap (F := fun r t => dx p r t ^ 2) cQ, ← area_smul,
      ← area_add cH (by fun_prop)]
    refine area_mono h14.le hpi.le (by fun_prop) (energyR_smooth hρ hw).continuous fun r hr t _ => ?_
    rw [dp r hr t]
    unfold energyR
    have := hr.1
    nlinarith [sq_nonneg (dx (dx w) r t), sq_nonneg (ρ r * dy (dx w) r t - ρ r ^ 2 * dy w r t),
      sq_nonneg (ρ r * dx w r t + ρ r ^ 2 * dy (dy w) r t)]
  -- along the radius
  have rad : ∀ r ∈ Icc (1 : ℝ) 4, ∀ t ∈ Icc (0 : ℝ) (2 * Real.pi), w r t ^ 2 ≤ 27 / 4 * H t := fun r hr t ht => by
    have := sq_le_second (f := fun r => w r t) (fun x => hw.hasDx x t) (fun x => hw.dx.hasDx x t) (column_continuous hw.dx.dx.continuous t) h14
      (hz.1 t ht).1 (hz.1 t ht).2.1 r hr
    rw [hH]
    norm_num at this ⊢
    exact this
  -- along the angle
  have ang1 : ∀ r ∈ Icc (1 : ℝ) 4, ∀ t ∈ Icc (0 : ℝ) (2 * Real.pi), dy w r t ^ 2 ≤ 19 / 2 * Q t := fun r hr t ht => by
    have z1 : p 1 t = 0 := by rw [hp]; simp only [y1 t ht, mul_zero]
    have z4 : p 4 t = 0 := by rw [hp]; simp only [y4 t ht, mul_zero]
    have c := column_continuous sp.dx.continuous t
    have l := sq_diff_le (f := fun r => p r t) (fun x => sp.hasDx x t) c le_rfl hr.1 hr.2
    have m := sq_diff_le (f := fun r => p r t) (fun x => sp.hasDx x t) c hr.1 hr.2 le_rfl
    beta_reduce at l m
    rw [z1, sub_zero] at l
    rw [z4, zero_sub, neg_sq] at m
    have eq : Q t = ∫ r in (1 : ℝ)..4, dx p r t ^ 2 := by rw [hQ]
    rw [← eq] at l m
    have pr : dy w r t = r * p r t := by
      rw [hp]
      beta_reduce
      rw [hρ1 r (by linarith [hr.1])]
      have : r ≠ 0 := by linarith [hr.1] |> fun h : 0 < r => h.ne'
      field_simp
    have q0 := hQ0 t
    rw [pr, mul_pow]
    have r1 := hr.1
    have r4 := hr.2
    rcases le_total r (5 / 2) with h | h
    · have k : r ^ 2 * (r - 1) ≤ 19 / 2 := by nlinarith
      calc r ^ 2 * p r t ^ 2 ≤ r ^ 2 * ((r - 1) * Q t) := mul_le_mul_of_nonneg_left l (sq_nonneg r)
        _ = r ^ 2 * (r - 1) * Q t := by ring
        _ ≤ 19 / 2 * Q t := mul_le_mul_of_nonneg_right k q0
    · have k : r ^ 2 * (4 - r) ≤ 19 / 2 := by nlinarith [mul_nonneg (sq_nonneg (r - 8 / 3)) (by linarith : 0 ≤ r + 4 / 3)]
      calc r ^ 2 * p r t ^ 2 ≤ r ^ 2 * ((4 - r) * Q t) := mul_le_mul_of_nonneg_left m (sq_nonneg r)
        _ = r ^ 2 * (4 - r) * Q t := by ring
        _ ≤ 19 / 2 * Q t := mul_le_mul_of_nonneg_right k q0
  obtain ⟨q, hq⟩ : ∃ q, q = ∫ t in (0 : ℝ)..2 * Real.pi, Q t := ⟨_, rfl⟩
  obtain ⟨h, hh⟩ : ∃ h, h = ∫ t in (0 : ℝ)..2 * Real.pi, H t := ⟨_, rfl⟩
  have q0 : 0 ≤ q := hq ▸ intervalIntegral.integral_nonneg hpi.le fun t _ => hQ0 t
  have h0 : 0 ≤ h := hh ▸ intervalIntegral.integral_nonneg hpi.le fun t _ => hH0 t
  rw [← hq, ← hh] at parts
  have ang : ∀ r ∈ Icc (1 : ℝ) 4, ∀ s ∈ Icc (0 : ℝ) (2 * Real.pi), ∀ t ∈ Icc (0 : ℝ) (2 * Real.pi), (w r t - w r s) ^ 2 ≤ 19 * Real.pi * q :=
      fun r hr s hs t ht => by
    have c := slice_continuous hw.dy.continuous r
    have := sq_diff_le' (f := w r) (fun x => hw.hasDy r x) c hs ht
    have m : ∫ t in (0 : ℝ)..2 * Real.pi, dy w r t ^ 2 ≤ ∫ t in (0 : ℝ)..2 * Real.pi, 19 / 2 * Q t :=
      intervalIntegral.integral_mono_on hpi.le ((c.pow 2).intervalIntegrable _ _) ((by fun_prop : Continuous fun t => 19 / 2 * Q t).intervalIntegrable _ _)
        fun t ht => ang1 r hr t ht
    rw [intervalIntegral.integral_const_mul, ← hq] at m
    have := this.trans (mul_le_mul_of_nonneg_left m (by linarith : 0 ≤ 2 * Real.pi - 0))
    linarith
  intro r hr t ht
  -- the mean over the angle
  have mean : ∫ s in (0 : ℝ)..2 * Real.pi, w r t ^ 2 ≤ ∫ s in (0 : ℝ)..2 * Real.pi, (27 / 2 * H s + 38 * Real.pi * q) :=
    intervalIntegral.integral_mono_on hpi.le (by simp) ((by fun_prop : Continuous fun s => 27 / 2 * H s + 38 * Real.pi * q).intervalIntegrable _ _)
      fun s hs => by
        have a := rad r hr s hs
        have b := ang r hr s hs t ht
        nlinarith [sq_nonneg (w r t - 2 * w r s)]
  rw [intervalIntegral.integral_const, smul_eq_mul, intervalIntegral.integral_add
    ((by fun_prop : Continuous fun s => 27 / 2 * H s).intervalIntegrable _ _) (by simp), intervalIntegral.integral_const_mul,
    intervalIntegral.integral_const, smul_eq_mul, ← hh, sub_zero] at mean
  have p3 := Real.pi_gt_three
  have p0 := Real.pi_pos
  have k : 2 * Real.pi * w r t ^ 2 ≤ 2 * Real.pi * (19 * Real.pi * (h + 2 * q)) := by
    have : 27 / 2 * h ≤ 38 * Real.pi ^ 2 * h := mul_le_mul_of_nonneg_right (by nlinarith) h0
    linarith
  have k' := le_of_mul_le_mul_left k hpi
  exact k'.trans (mul_le_mul_of_nonneg_left parts (by positivity))

/-- A function with zero conditions, by its defect in the biharmonic equation. -/
theorem polar_bound (hw : Smooth2 w) (hz : PolarZero w) {R : ℝ}
    (hR : ∀ r ∈ Icc (1 : ℝ) 4, ∀ t ∈ Icc (0 : ℝ) (2 * Real.pi), |polResid w r t| ≤ R) :
    ∀ r ∈ Icc (1 : ℝ) 4, ∀ t ∈ Icc (0 : ℝ) (2 * Real.pi), |w r t| ≤ 285 * Real.pi ^ 2 * R := by
  obtain ⟨ρ, hρ, hρ1⟩ := inverse_smooth
  have hpi := Real.two_pi_pos
  have h14 : (1 : ℝ) < 4 := by norm_num
  have hR0 : 0 ≤ R := (abs_nonneg _).trans (hR 1 ⟨le_rfl, h14.le⟩ 0 ⟨le_rfl, hpi.le⟩)
  obtain ⟨P, hP, hmax⟩ := (isCompact_Icc.prod isCompact_Icc : IsCompact (Icc (1 : ℝ) 4 ×ˢ Icc (0 : ℝ) (2 * Real.pi))).exists_isMaxOn
    ⟨(1, 0), ⟨le_rfl, h14.le⟩, le_rfl, hpi.le⟩ (f := fun P : ℝ × ℝ => |w P.1 P.2|) hw.continuous.abs.continuousOn
  have hS : ∀ r ∈ Icc (1 : ℝ) 4, ∀ t ∈ Icc (0 : ℝ) (2 * Real.pi), |w r t| ≤ |w P.1 P.2| := fun r hr t ht => hmax (a := (r, t)) ⟨hr, ht⟩
  have E := polar_energy hρ hρ1 hw hz hS hR
  have U := polar_sup hρ hρ1 hw hz P.1 hP.1 P.2 hP.2
  intro r hr t ht
  refine (hS r hr t ht).trans ?_
  obtain ⟨S, hSd⟩ : ∃ S, S = |w P.1 P.2| := ⟨_, rfl⟩
  rw [← sq_abs] at U
  rw [← hSd] at E U ⊢
  have S0 : 0 ≤ S := hSd ▸ abs_nonneg _
  have p0 := Real.pi_pos
  have k : S ^ 2 ≤ 19 * Real.pi * (15 * Real.pi * (S * R)) := U.trans (mul_le_mul_of_nonneg_left E (by positivity))
  rcases S0.eq_or_lt with h | h
  · rw [← h]
    positivity
  · refine le_of_mul_le_mul_left ?_ h
    linarith

/-! ## The difference from the reference solution -/

/-- The reference solution, continued smoothly to the centre. -/
noncomputable def polCont (ρ : ℝ → ℝ) (r th : ℝ) : ℝ :=
  r ^ 2 / 8 + Real.pi * Real.cos th * ρ r + r ^ 2 / 4 * Real.sin (2 * th) + r ^ 3 / 16 * Real.sin (3 * th)

theorem polCont_smooth (hρ : ContDiff ℝ ∞ ρ) : Smooth2 (polCont ρ) := by
  unfold Smooth2 polCont
  fun_prop

theorem polCont_eq (hρ : ∀ r, 3 / 4 < r → ρ r = 1 / r) {r : ℝ} (hr : 3 / 4 < r) (th : ℝ) : polCont ρ r th = polReal r th := by
  unfold polCont polReal
  rw [hρ r hr]
  ring

/-- Functions that agree for all radii larger than 3/4 have there the same derivatives. -/
theorem dx_outer {F G : ℝ → ℝ → ℝ} (h : ∀ r t, 3 / 4 < r → F r t = G r t) : ∀ r t, 3 / 4 < r → dx F r t = dx G r t := fun r t hr =>
  Filter.EventuallyEq.deriv_eq (by
    filter_upwards [isOpen_Ioi.mem_nhds hr] with s hs
    exact h s t hs)

theorem dy_outer {F G : ℝ → ℝ → ℝ} (h : ∀ r t, 3 / 4 < r → F r t = G r t) : ∀ r t, 3 / 4 < r → dy F r t = dy G r t := fun r t hr => by
  unfold dy
  rw [show (fun s => F r s) = fun s => G r s from funext fun s => h r s hr]

theorem polResid_outer {F G : ℝ → ℝ → ℝ} (h : ∀ r t, 3 / 4 < r → F r t = G r t) {r : ℝ} (hr : 3 / 4 < r) (t : ℝ) :
    polResid F r t = polResid G r t := by
  have a1 := dx_outer h
  have a2 := dx_outer a1
  have a3 := dx_outer a2
  have a4 := dx_outer a3
  have c2 := dy_outer (dy_outer a2)
  have c1 := dy_outer (dy_outer a1)
  have c0 := dy_outer (dy_outer h)
  have e0 := dy_outer (dy_outer c0)
  unfold polResid
  rw [a1 r t hr, a2 r t hr, a3 r t hr, a4 r t hr, c2 r t hr, c1 r t hr, c0 r t hr, e0 r t hr]

/-- The residual of a difference. -/
theorem polResid_sub {u v : ℝ → ℝ → ℝ} (hu : Smooth2 u) (hv : Smooth2 v) (r t : ℝ) :
    polResid (fun r t => u r t - v r t) r t = polResid u r t - polResid v r t := by
  unfold polResid
  rw [hu.dx_sub hv, hu.dx.dx_sub hv.dx, hu.dx.dx.dx_sub hv.dx.dx, hu.dx.dx.dx.dx_sub hv.dx.dx.dx, hu.dy_sub hv, hu.dy.dy_sub hv.dy,
    hu.dy.dy.dy_sub hv.dy.dy, hu.dy.dy.dy.dy_sub hv.dy.dy.dy, hu.dx.dy_sub hv.dx, hu.dx.dy.dy_sub hv.dx.dy, hu.dx.dx.dy_sub hv.dx.dx,
    hu.dx.dx.dy.dy_sub hv.dx.dx.dy]
  ring

/-- **C96**, the biharmonic equation in polar coordinates (D/Chapter_4/BiharmonicEquation/BiharmonicPolarCoordinates.py): a function with the
values and second radial derivatives of the reference solution on the circles `r = 1` and `r = 4`, that agrees with its first three derivatives
at the angles 0 and 2π, and whose residual is at most `R` on the annulus, is within `285 π² R` of the reference solution. -/
theorem C96_polar (u : ℝ → ℝ → ℝ) (hu : Smooth2 u)
    (hr : ∀ th ∈ Icc (0 : ℝ) (2 * Real.pi), u 1 th = polReal 1 th ∧ u 4 th = polReal 4 th ∧ dx (dx u) 1 th = dx (dx polReal) 1 th ∧
      dx (dx u) 4 th = dx (dx polReal) 4 th)
    (hper : ∀ r ∈ Icc (1 : ℝ) 4, u r 0 = u r (2 * Real.pi) ∧ dy u r 0 = dy u r (2 * Real.pi) ∧
      dy (dy u) r 0 = dy (dy u) r (2 * Real.pi) ∧ dy (dy (dy u)) r 0 = dy (dy (dy u)) r (2 * Real.pi)) {R : ℝ}
    (hR : ∀ r ∈ Icc (1 : ℝ) 4, ∀ th ∈ Icc (0 : ℝ) (2 * Real.pi), |polResid u r th| ≤ R) :
    ∀ r ∈ Icc (1 : ℝ) 4, ∀ th ∈ Icc (0 : ℝ) (2 * Real.pi), |u r th - polReal r th| ≤ 285 * Real.pi ^ 2 * R := by
  obtain ⟨ρ, hρ, hρ1⟩ := inverse_smooth
  have hv := polCont_smooth hρ
  have eq : ∀ r t, 3 / 4 < r → polCont ρ r t = polReal r t := fun r t h => polCont_eq hρ1 h t
  have big : ∀ {r : ℝ}, r ∈ Icc (1 : ℝ) 4 → 3 / 4 < r := fun {r} h => by linarith [h.1]
  have e2 := dx_outer (dx_outer eq)
  have f1 := dy_outer eq
  have f2 := dy_outer f1
  have f3 := dy_outer f2
  have one : (1 : ℝ) ∈ Icc (1 : ℝ) 4 := by norm_num
  have four : (4 : ℝ) ∈ Icc (1 : ℝ) 4 := by norm_num
  have hz : PolarZero fun r t => u r t - polCont ρ r t := by
    refine ⟨fun t ht => ?_, fun r hr => ?_⟩
    · obtain ⟨a, b, c, d⟩ := hr t ht
      simp only [hu.dx_sub hv, hu.dx.dx_sub hv.dx]
      rw [eq 1 t (big one), eq 4 t (big four), e2 1 t (big one), e2 4 t (big four), a, b, c, d]
      simp only [sub_self, and_self]
    · obtain ⟨a, b, c, d⟩ := hper r hr
      simp only [hu.dy_sub hv, hu.dy.dy_sub hv.dy, hu.dy.dy.dy_sub hv.dy.dy]
      have k := big hr
      have q0 := polReal_periodic r
      have q1 : Function.Periodic (dy polReal r) (2 * Real.pi) := periodic_deriv q0
      have q2 : Function.Periodic (dy (dy polReal) r) (2 * Real.pi) := periodic_deriv q1
      have q3 : Function.Periodic (dy (dy (dy polReal)) r) (2 * Real.pi) := periodic_deriv q2
      rw [eq r _ k, eq r _ k, f1 r _ k, f1 r _ k, f2 r _ k, f2 r _ k, f3 r _ k, f3 r _ k, a, b, c, d, q0.eq, q1.eq, q2.eq, q3.eq]
      exact ⟨rfl, rfl, rfl, rfl⟩
  intro r h1 th h2
  have := polar_bound (hu.sub hv) hz (R := R) (fun r h1 t h2 => by
    rw [polResid_sub hu hv, polResid_outer eq (big h1), C83_polar.2 r t (by linarith [big h1] |> fun h : 0 < r => h.ne'), sub_zero]
    exact hR r h1 t h2) r h1 th h2
  rwa [eq r th (big h1)] at this

theorem polU_smooth {g : ℝ → ℝ → ℝ} (hg : Smooth2 g) : Smooth2 (polU g) := by
  have k := polU1_smooth hg
  have k0 := k.at_right 0
  have k1 := k.at_right (2 * Real.pi)
  have k2 := k.dy.at_right 0
  have k3 := k.dy.at_right (2 * Real.pi)
  have k4 := k.dy.dy.at_right 0
  have k5 := k.dy.dy.at_right (2 * Real.pi)
  have k6 := k.dy.dy.dy.at_right 0
  have k7 := k.dy.dy.dy.at_right (2 * Real.pi)
  unfold Smooth2 polU at *
  fun_prop

/-- **C96**, the expression of the program: for all smooth free functions. -/
theorem C96_polar_program (g : ℝ → ℝ → ℝ) (hg : Smooth2 g) {R : ℝ}
    (hR : ∀ r ∈ Icc (1 : ℝ) 4, ∀ th ∈ Icc (0 : ℝ) (2 * Real.pi), |polResid (polU g) r th| ≤ R) :
    ∀ r ∈ Icc (1 : ℝ) 4, ∀ th ∈ Icc (0 : ℝ) (2 * Real.pi), |polU g r th - polReal r th| ≤ 285 * Real.pi ^ 2 * R :=
  C96_polar (polU g) (polU_smooth hg) (fun th _ => (C79_polar g hg).1 th) (fun r _ => (C79_polar g hg).2 r) hR

/-- The residual of every smooth function is bounded on the annulus. -/
theorem polResid_bounded {z : ℝ → ℝ → ℝ} (hz : Smooth2 z) :
    ∃ R, ∀ r ∈ Icc (1 : ℝ) 4, ∀ th ∈ Icc (0 : ℝ) (2 * Real.pi), |polResid z r th| ≤ R := by
  obtain ⟨ρ, hρ, hρ1⟩ := inverse_smooth
  have h1 := hz.dx.continuous
  have h2 := hz.dx.dx.continuous
  have h3 := hz.dx.dx.dx.continuous
  have h4 := hz.dx.dx.dx.dx.continuous
  have c0 := hz.dy.dy.continuous
  have c1 := hz.dx.dy.dy.continuous
  have c2 := hz.dx.dx.dy.dy.continuous
  have e0 := hz.dy.dy.dy.dy.continuous
  have cρ := hρ.continuous
  obtain ⟨F, hF⟩ : ∃ F : ℝ × ℝ → ℝ, F = fun P => dx (dx (dx (dx z))) P.1 P.2 + 2 * ρ P.1 ^ 2 * dy (dy (dx (dx z))) P.1 P.2
      + ρ P.1 ^ 4 * dy (dy (dy (dy z))) P.1 P.2 + 2 * ρ P.1 * dx (dx (dx z)) P.1 P.2 - 2 * ρ P.1 ^ 3 * dy (dy (dx z)) P.1 P.2
      - ρ P.1 ^ 2 * dx (dx z) P.1 P.2 + 4 * ρ P.1 ^ 4 * dy (dy z) P.1 P.2 + ρ P.1 ^ 3 * dx z P.1 P.2 := ⟨_, rfl⟩
  have cF : Continuous F := by rw [hF]; fun_prop
  obtain ⟨R, hR⟩ := (isCompact_Icc.prod isCompact_Icc : IsCompact (Icc (1 : ℝ) 4 ×ˢ Icc (0 : ℝ) (2 * Real.pi))).exists_bound_of_continuousOn
    cF.continuousOn
  refine ⟨R, fun r hr t ht => ?_⟩
  have e : polResid z r t = F (r, t) := by
    rw [hF]
    beta_reduce
    rw [hρ1 r (by linarith [hr.1])]
    unfold polResid
    ring
  rw [e]
  exact hR (r, t) ⟨hr, ht⟩

/-- The hypotheses are met by every free function, as here the monomial `r θ`, with some `R`. -/
example : ∃ R, ∀ r ∈ Icc (1 : ℝ) 4, ∀ th ∈ Icc (0 : ℝ) (2 * Real.pi), |polU (fun r t => r * t) r th - polReal r th| ≤ 285 * Real.pi ^ 2 * R := by
  have hg : Smooth2 fun r t : ℝ => r * t := (Smooth2.of_left contDiff_id).mul (Smooth2.of_right contDiff_id)
  obtain ⟨R, hR⟩ := polResid_bounded (polU_smooth hg)
  exact ⟨R, C96_polar_program _ hg hR⟩

/-- Only the reference solution solves the problem of the program. -/
theorem C96_polar_unique (u : ℝ → ℝ → ℝ) (hu : Smooth2 u)
    (hr : ∀ th ∈ Icc (0 : ℝ) (2 * Real.pi), u 1 th = polReal 1 th ∧ u 4 th = polReal 4 th ∧ dx (dx u) 1 th = dx (dx polReal) 1 th ∧
      dx (dx u) 4 th = dx (dx polReal) 4 th)
    (hper : ∀ r ∈ Icc (1 : ℝ) 4, u r 0 = u r (2 * Real.pi) ∧ dy u r 0 = dy u r (2 * Real.pi) ∧
      dy (dy u) r 0 = dy (dy u) r (2 * Real.pi) ∧ dy (dy (dy u)) r 0 = dy (dy (dy u)) r (2 * Real.pi))
    (h0 : ∀ r ∈ Icc (1 : ℝ) 4, ∀ th ∈ Icc (0 : ℝ) (2 * Real.pi), polResid u r th = 0) :
    ∀ r ∈ Icc (1 : ℝ) 4, ∀ th ∈ Icc (0 : ℝ) (2 * Real.pi), u r th = polReal r th := fun r h1 th h2 => by
  have := C96_polar u hu hr hper (R := 0) (fun r h1 th h2 => by rw [h0 r h1 th h2, abs_zero]) r h1 th h2
  rw [mul_zero] at this
  exact sub_eq_zero.1 (abs_nonpos_iff.1 this)

end Verif.Props
