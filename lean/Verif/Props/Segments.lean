import Verif.Props.Sets
import Verif.Model.Segments
import Mathlib.Analysis.Calculus.Deriv.Comp
import Mathlib.Analysis.Calculus.Deriv.Slope

/-! # Two segments joined with the same value and the same derivative (C80) -/

namespace Verif.Props

open Verif Verif.Mem Verif.Py Verif.Np Verif.Spec Verif.Model Verif.Model.Py Verif.Model.Prog

/-- One function made of two pieces. -/
noncomputable def glue (p : ℝ) (f g : ℝ → ℝ) (x : ℝ) : ℝ := if x ≤ p then f x else g x

theorem glue_left {p : ℝ} {f g : ℝ → ℝ} {x : ℝ} (h : x ≤ p) : glue p f g x = f x := if_pos h

theorem glue_right {p : ℝ} {f g : ℝ → ℝ} (hp : f p = g p) {x : ℝ} (h : p ≤ x) : glue p f g x = g x := by
  unfold glue
  split_ifs with h'
  · rw [le_antisymm h' h, hp]
  · rfl

/-- Two differentiable pieces with the same value and the same derivative at the joint make a differentiable function. -/
theorem glue_hasDerivAt {p : ℝ} {f g : ℝ → ℝ} (hf : Differentiable ℝ f) (hg : Differentiable ℝ g) (hp : f p = g p)
    (hd : deriv f p = deriv g p) (x : ℝ) :
    HasDerivAt (glue p f g) (if x ≤ p then deriv f x else deriv g x) x := by
  rcases lt_trichotomy x p with h | h | h
  · rw [if_pos h.le]
    refine (hf x).hasDerivAt.congr_of_eventuallyEq ?_
    filter_upwards [Iio_mem_nhds h] with y hy
    exact glue_left (le_of_lt hy)
  · subst h
    rw [if_pos le_rfl]
    have h1 : HasDerivWithinAt (glue x f g) (deriv f x) (Set.Iic x) x :=
      (hf x).hasDerivAt.hasDerivWithinAt.congr (fun y hy => glue_left hy) (glue_left le_rfl)
    have h2 : HasDerivWithinAt (glue x f g) (deriv f x) (Set.Ici x) x := by
      rw [hd]
      exact (hg x).hasDerivAt.hasDerivWithinAt.congr (fun y hy => glue_right hp hy) (glue_right hp le_rfl)
    have := h1.union h2
    rw [Set.Iic_union_Ici] at this
    exact hasDerivWithinAt_univ.mp this
  · rw [if_neg h.not_ge]
    refine (hg x).hasDerivAt.congr_of_eventuallyEq ?_
    filter_upwards [Ioi_mem_nhds h] with y hy
    exact glue_right hp (le_of_lt hy)

/-- A function is continuously joined from the pieces `y1`, `y2`, given as functions of `z` in `[-1, 1]` at the points `x1 z`, `x2 z`,
with derivatives `yd1`, `yd2`, from the value `a` at 0 to the value `b` at 1, with the value `y` and the derivative `yd` at `xp`. -/
def Joined (xp y yd a b : ℝ) (x1 y1 yd1 x2 y2 yd2 : ℝ → ℝ) : Prop :=
  ∃ Y : ℝ → ℝ, Differentiable ℝ Y ∧ Y 0 = a ∧ Y 1 = b ∧ Y xp = y ∧ deriv Y xp = yd ∧
    ∀ z, -1 ≤ z → z ≤ 1 → (0 ≤ x1 z ∧ x1 z ≤ xp ∧ Y (x1 z) = y1 z ∧ deriv Y (x1 z) = yd1 z) ∧
      (xp ≤ x2 z ∧ x2 z ≤ 1 ∧ Y (x2 z) = y2 z ∧ deriv Y (x2 z) = yd2 z)

theorem joined_segments {xp : ℝ} (h0 : 0 < xp) (h1 : xp < 1) {g1 g2 : ℕ → ℝ → ℝ} (d1 : Differentiable ℝ (g1 0)) (e1 : g1 1 = deriv (g1 0))
    (d2 : Differentiable ℝ (g2 0)) (e2 : g2 1 = deriv (g2 0)) (y yd : ℝ) :
    Joined xp y yd 1 0 (segX1 xp) (segY1 g1 (-1) 1 xp y yd) (segYd1 g1 (-1) 1 xp y yd)
      (segX2 xp) (segY2 g2 (-1) 1 xp y yd) (segYd2 g2 (-1) 1 xp y yd) := by
  have c1 : 0 < segC1 xp := by unfold segC1; rw [sub_zero]; positivity
  have c2 : 0 < segC2 xp := by unfold segC2; have : 0 < 1 - xp := by linarith
                               positivity
  have i1 : 2 / segC1 xp = xp := by unfold segC1; rw [sub_zero]; field_simp
  have i2 : 2 / segC2 xp = 1 - xp := by unfold segC2; have : 1 - xp ≠ 0 := by linarith
                                        field_simp
  have D1 : Differentiable ℝ (segY1 g1 (-1) 1 xp y yd) := by unfold segY1; fun_prop
  have D2 : Differentiable ℝ (segY2 g2 (-1) 1 xp y yd) := by unfold segY2; fun_prop
  have v1 : segY1 g1 (-1) 1 xp y yd (-1) = 1 := by unfold segY1; ring
  have v2 : segY1 g1 (-1) 1 xp y yd 1 = y := by unfold segY1; ring
  have v3 : deriv (segY1 g1 (-1) 1 xp y yd) 1 = yd / segC1 xp := by
    unfold segY1
    rw [e1]
    generalize g1 0 = g at *
    deriv_expr
    ring
  have w1 : segY2 g2 (-1) 1 xp y yd (-1) = y := by unfold segY2; ring
  have w2 : segY2 g2 (-1) 1 xp y yd 1 = 0 := by unfold segY2; ring
  have w3 : deriv (segY2 g2 (-1) 1 xp y yd) (-1) = yd / segC2 xp := by
    unfold segY2
    rw [e2]
    generalize g2 0 = g at *
    deriv_expr
    ring
  obtain ⟨F, hF⟩ : ∃ F, F = segY1 g1 (-1) 1 xp y yd := ⟨_, rfl⟩
  obtain ⟨G, hG⟩ : ∃ G, G = segY2 g2 (-1) 1 xp y yd := ⟨_, rfl⟩
  unfold segYd1 segYd2
  rw [← hF] at D1 v1 v2 v3 ⊢
  rw [← hG] at D2 w1 w2 w3 ⊢
  have k1 : ∀ x, HasDerivAt (fun x => F (segC1 xp * x - 1)) (deriv F (segC1 xp * x - 1) * segC1 xp) x := by
    intro x
    have : HasDerivAt (fun x => segC1 xp * x - 1) (segC1 xp) x := by
      simpa using ((hasDerivAt_id x).const_mul (segC1 xp)).sub_const 1
    exact (D1 _).hasDerivAt.comp x this
  have k2 : ∀ x, HasDerivAt (fun x => G (segC2 xp * (x - xp) - 1)) (deriv G (segC2 xp * (x - xp) - 1) * segC2 xp) x := by
    intro x
    have : HasDerivAt (fun x => segC2 xp * (x - xp) - 1) (segC2 xp) x := by
      simpa using (((hasDerivAt_id x).sub_const xp).const_mul (segC2 xp)).sub_const 1
    exact (D2 _).hasDerivAt.comp x this
  have a1 : segC1 xp * xp - 1 = 1 := by
    rw [div_eq_iff c1.ne'] at i1
    linarith
  have a2 : segC2 xp * (xp - xp) - 1 = -1 := by ring
  have a3 : segC2 xp * (1 - xp) - 1 = 1 := by
    rw [div_eq_iff c2.ne'] at i2
    linarith
  have hp : F (segC1 xp * xp - 1) = G (segC2 xp * (xp - xp) - 1) := by rw [a1, a2, v2, w1]
  have hd1 : deriv (fun x => F (segC1 xp * x - 1)) xp = yd := by
    rw [(k1 xp).deriv, a1, v3]
    field_simp
  have hd2 : deriv (fun x => G (segC2 xp * (x - xp) - 1)) xp = yd := by
    rw [(k2 xp).deriv, a2, w3]
    field_simp
  have hY := glue_hasDerivAt (p := xp) (fun x => (k1 x).differentiableAt) (fun x => (k2 x).differentiableAt) hp (hd1.trans hd2.symm)
  refine ⟨glue xp _ _, fun x => (hY x).differentiableAt, ?_, ?_, ?_, ?_, fun z hz1 hz2 => ?_⟩
  · rw [glue_left h0.le]
    rw [mul_zero, zero_sub, v1]
  · rw [glue_right hp h1.le]
    rw [a3, w2]
  · rw [glue_left le_rfl]
    rw [a1, v2]
  · rw [(hY xp).deriv, if_pos le_rfl, hd1]
  · have b1 : segC1 xp * segX1 xp z - 1 = z := by
      unfold segX1
      field_simp
      ring
    have b2 : segC2 xp * (segX2 xp z - xp) - 1 = z := by
      unfold segX2
      field_simp
      ring
    have r1 : 0 ≤ segX1 xp z := by
      unfold segX1
      rw [add_zero]
      exact div_nonneg (by linarith) c1.le
    have r2 : segX1 xp z ≤ xp := by
      unfold segX1
      rw [add_zero]
      conv_rhs => rw [← i1]
      exact div_le_div_of_nonneg_right (by linarith) c1.le
    have r3 : xp ≤ segX2 xp z := by
      unfold segX2
      have : 0 ≤ (z + 1) / segC2 xp := div_nonneg (by linarith) c2.le
      linarith
    have r4 : segX2 xp z ≤ 1 := by
      unfold segX2
      have : (z + 1) / segC2 xp ≤ 2 / segC2 xp := div_le_div_of_nonneg_right (by linarith) c2.le
      linarith
    refine ⟨⟨r1, r2, ?_, ?_⟩, r3, r4, ?_, ?_⟩
    · rw [glue_left r2]
      rw [b1]
    · rw [(hY _).deriv, if_pos r2, (k1 _).deriv, b1]
    · rw [glue_right hp r3]
      rw [b2]
    · rw [(hY _).deriv]
      rcases eq_or_lt_of_le r3 with h | h
      · rw [← h, if_pos le_rfl, hd1]
        have : z = -1 := by rw [← b2, ← h]; ring
        rw [this]
        dsimp only
        rw [w3]
        field_simp
      · rw [if_neg h.not_ge, (k2 _).deriv, b2]

/-- **C80**, D/Appendices/Appendix_D.py (B/Chapter_3/section_3_5_4.py): for every Peclet number, every `xpHat` and all coefficients. -/
theorem C80_convection (u : Utfc) (hr : Ready u) (xi1 xi2 : List ℝ)
    (h1 h2 : ℕ → ℝ → ℝ) (hh1 : Evaluates u xi1 h1) (hh2 : Evaluates u xi2 h2) (Pe xpHat y yd xp : ℝ) (hxp : xp = splitXp Pe xpHat) :
    0 < xp ∧ xp < 1 ∧ Joined xp y yd 1 0 (segX1 xp) (segY1 h1 (-1) 1 xp y yd) (segYd1 h1 (-1) 1 xp y yd)
      (segX2 xp) (segY2 h2 (-1) 1 xp y yd) (segYd2 h2 (-1) 1 xp y yd) := by
  obtain ⟨a1, b1⟩ := evaluates_fn hr hh1
  obtain ⟨a2, b2⟩ := evaluates_fn hr hh2
  have hb : 0 < (xpBounds Pe).1 ∧ (xpBounds Pe).1 ≤ (xpBounds Pe).2 ∧ (xpBounds Pe).2 < 1 := by
    unfold xpBounds
    split_ifs <;> norm_num
  obtain ⟨c1, c2, -⟩ := C78_clamp _ _ xpHat hb.2.1
  have p0 : 0 < xp := by rw [hxp]; exact hb.1.trans_le c1
  have p1 : xp < 1 := by rw [hxp]; exact c2.trans_lt hb.2.2
  exact ⟨p0, p1, joined_segments p0 p1 a1 b1 a2 b2 y yd⟩

/-- **C80**, J/Chapter_4/Example_4_6/convectionDiffusionNLS.py, for every `b ≠ 0` (for `b = 0` the program divides by zero). -/
theorem C80_nls (N : ℕ) (hN : 2 ≤ N) (u : Utfc) (hu : Built N "CP" (-1) 1 u) (hr : Ready u) (xi1 xi2 : List ℝ) (h1 h2 : ℕ → ℝ → ℝ)
    (hh1 : Evaluates u xi1 h1) (hh2 : Evaluates u xi2 h2) (b : ℝ) (hb : b ≠ 0) (y yd xp z0 zf : ℝ) (hxp : xp = nlsXp b)
    (hz0 : z0 = first u.z) (hzf : zf = last u.z) :
    0 < xp ∧ xp < 1 ∧ Joined xp y yd 1 0 (segX1 xp) (segY1 h1 z0 zf xp y yd) (segYd1 h1 z0 zf xp y yd)
      (segX2 xp) (segY2 h2 z0 zf xp y yd) (segYd2 h2 z0 zf xp y yd) := by
  obtain ⟨a1, b1⟩ := evaluates_fn hr hh1
  obtain ⟨a2, b2⟩ := evaluates_fn hr hh2
  obtain ⟨e1, e2⟩ := built_points hN (by norm_num) hu
  rw [built_z hN (Or.inl rfl) hu, e1] at hz0
  rw [built_z hN (Or.inl rfl) hu, e2] at hzf
  subst hz0 hzf
  have hpos : 0 < 2 / b ^ 2 := by positivity
  have hx : 0 < xp ∧ xp < 1 := by
    rw [hxp]
    unfold nlsXp
    simp only [add_zero]
    rcases le_or_gt (2 / b ^ 2) (1 - 0.001) with h | h
    · rw [step_nonpos (by linarith)]
      norm_num at h ⊢
      exact ⟨by positivity, by linarith⟩
    · rw [step_pos (by linarith)]
      norm_num
  exact ⟨hx.1, hx.2, joined_segments hx.1 hx.2 a1 b1 a2 b2 y yd⟩

/-- **C80**, J/Chapter_4/Example_4_5/tfc_linearNonlinear.py (B/Chapter_3/Problem_3.py), with `x0 = 0`, `x1 = π/2`, `xf = π`: for all values
`y1`, `y1d` at the joint the two expressions together are a differentiable function with the boundary values `y0` and `yf`. -/
theorem C80_hybrid (N : ℕ) (hN : 2 ≤ N) (basis : String) (u v : Utfc) (hu : Built N basis 0 (Real.pi / 2) u)
    (hv : Built N basis (Real.pi / 2) Real.pi v) (hru : Ready u) (hrv : Ready v) (xi1 xi2 : List ℝ) (h1 h2 : ℕ → ℝ → ℝ)
    (hh1 : Evaluates u xi1 h1) (hh2 : Evaluates v xi2 h2) (y0 y1 y1d yf : ℝ) (ys1 ys2 : ℝ → ℝ)
    (e1 : ys1 = hybridY1 h1 u.x 0 (Real.pi / 2) y0 y1 y1d) (e2 : ys2 = hybridY2 h2 v.x (Real.pi / 2) Real.pi y1 y1d yf) :
    ∃ Y : ℝ → ℝ, Differentiable ℝ Y ∧ Y 0 = y0 ∧ Y Real.pi = yf ∧ Y (Real.pi / 2) = y1 ∧ deriv Y (Real.pi / 2) = y1d ∧
      (∀ x, x ≤ Real.pi / 2 → Y x = ys1 x ∧ deriv Y x = deriv ys1 x) ∧ (∀ x, Real.pi / 2 ≤ x → Y x = ys2 x ∧ deriv Y x = deriv ys2 x) := by
  have hp := Real.pi_pos
  have hpn := Real.pi_ne_zero
  obtain ⟨p1, p2⟩ := built_points hN (by linarith) hu
  obtain ⟨q1, q2⟩ := built_points hN (by linarith) hv
  obtain ⟨a1, b1⟩ := evaluates_fn hru hh1
  obtain ⟨a2, b2⟩ := evaluates_fn hrv hh2
  have D1 : Differentiable ℝ ys1 := by rw [e1]; unfold hybridY1; fun_prop
  have D2 : Differentiable ℝ ys2 := by rw [e2]; unfold hybridY2; fun_prop
  have f1 : ys1 0 = y0 := by
    rw [e1]; unfold hybridY1; rw [p1, p2]; field_simp; ring
  have f2 : ys1 (Real.pi / 2) = y1 := by
    rw [e1]; unfold hybridY1; rw [p1, p2]; field_simp; ring
  have f3 : deriv ys1 (Real.pi / 2) = y1d := by
    rw [e1]; unfold hybridY1; rw [p1, p2, b1]
    generalize h1 0 = g at *
    deriv_expr
    field_simp
    ring
  have g1 : ys2 (Real.pi / 2) = y1 := by
    rw [e2]; unfold hybridY2; rw [q1, q2]; field_simp; ring
  have g2 : ys2 Real.pi = yf := by
    rw [e2]; unfold hybridY2; rw [q1, q2]; field_simp; ring
  have g3 : deriv ys2 (Real.pi / 2) = y1d := by
    rw [e2]; unfold hybridY2; rw [q1, q2, b2]
    generalize h2 0 = g at *
    deriv_expr
    field_simp
    ring
  have hY := glue_hasDerivAt (p := Real.pi / 2) D1 D2 (f2.trans g1.symm) (f3.trans g3.symm)
  refine ⟨glue (Real.pi / 2) ys1 ys2, fun x => (hY x).differentiableAt, ?_, ?_, ?_, ?_, fun x hx => ?_, fun x hx => ?_⟩
  · rw [glue_left (by linarith), f1]
  · rw [glue_right (f2.trans g1.symm) (by linarith), g2]
  · rw [glue_left le_rfl, f2]
  · rw [(hY _).deriv, if_pos le_rfl, f3]
  · exact ⟨glue_left hx, by rw [(hY x).deriv, if_pos hx]⟩
  · refine ⟨glue_right (f2.trans g1.symm) hx, ?_⟩
    rw [(hY x).deriv]
    rcases eq_or_lt_of_le hx with h | h
    · rw [← h, if_pos le_rfl, f3, g3]
    · rw [if_neg h.not_ge]

/-- Concrete case: the objects exist, the coefficients are not zero. -/
example : ∃ (u : Utfc) (h : ℕ → ℝ → ℝ), Evaluates u [1] h ∧ h 0 0 = -1 ∧
    Joined (splitXp 1 0.99) 3 (-2) 1 0 (segX1 0.9) (segY1 h (-1) 1 0.9 3 (-2)) (segYd1 h (-1) 1 0.9 3 (-2))
      (segX2 0.9) (segY2 h (-1) 1 0.9 3 (-2)) (segYd2 h (-1) 1 0.9 3 (-2)) := by
  obtain ⟨u, -, hr, hf⟩ := cheb_object (-1) 1 (by norm_num)
  have hE := evaluates_freeFn u hr [1]
  have hxp : (0.9 : ℝ) = splitXp 1 0.99 := by
    unfold splitXp xpBounds clamp
    norm_num [step]
  refine ⟨u, _, hE, ?_, ?_⟩
  · simp only [iteratedDeriv_zero, hf]
    norm_num
  · rw [← hxp]
    exact (C80_convection u hr [1] [1] _ _ hE hE 1 0.99 3 (-2) 0.9 hxp).2.2

end Verif.Props
