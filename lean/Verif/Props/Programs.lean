import Verif.Lemmas.Programs
import Mathlib.Tactic.FieldSimp
import Mathlib.Analysis.SpecialFunctions.Trigonometric.Complex
import Mathlib.Analysis.Real.Pi.Bounds

/-! # The constrained expressions of the programs with one independent variable (C77)

`h d t` stands for `np.dot(H(t, d=d), xi)`; C76 shows that there is such a family for every object and all coefficients. Where the
derivative is constrained, the theorems take `Evaluates u xi h`, since they need that `h 1` is the derivative of `h 0`; the others hold for
every family `h`. -/

namespace Verif.Props

open Verif Verif.Mem Verif.Py Verif.Np Verif.Spec Verif.Model Verif.Model.Py Verif.Model.Prog

/-- **C77**, D/Appendices/Appendix_C.py 63–66: `g(0) = 0`, `g(4) = -0.2`, `g(8) = -0.1`, for every free function. -/
theorem C77_three_point (h : ℕ → ℝ → ℝ) :
    threePoint h 0 = 0 ∧ threePoint h 4 = -0.2 ∧ threePoint h 8 = -0.1 := by
  unfold threePoint
  refine ⟨?_, ?_, ?_⟩ <;> ring

/-- **C77**, D/Appendices/Appendix_D.py 35: `y(0) = 1`, `y(1) = 0`. -/
theorem C77_convection (h : ℕ → ℝ → ℝ) :
    convDiff h 0 = 1 ∧ convDiff h 1 = 0 := by
  unfold convDiff
  refine ⟨?_, ?_⟩ <;> ring

/-- **C77**, J/Chapter_4/Example_4_4/BVP_tfc.py, B/Chapter_3/section_3_5_2.py: `y(0) = y0`, `y(π) = yf`, for every object built on
`[0, π]`: the first and the last of its points are the ends. -/
theorem C77_bvp (N : ℕ) (hN : 2 ≤ N) (basis : String) (u : Utfc) (hu : Built N basis 0 Real.pi u) (h : ℕ → ℝ → ℝ)
    (y0 yf : ℝ) : bvp h u.x y0 yf 0 = y0 ∧ bvp h u.x y0 yf Real.pi = yf := by
  obtain ⟨h1, h2⟩ := built_points hN Real.pi_pos hu
  have hp := Real.pi_ne_zero
  unfold bvp
  rw [h1, h2, Libm.pi_real]
  constructor
  · field_simp; ring
  · field_simp; ring

/-- **C77**, J/Chapter_4/Examples_4_1thru3/laneEmden_tfc.py, B/Chapter_3/section_3_5_1.py, example_3_1.py, Problem_1.py, Problem_2.py:
`y(x0) = y0` and `y'(x0) = y0p` when the interval starts at `x0 = 0`, as it does in all of them but laneEmden_tfc.py, where the start is an
argument (see `C77_ivp_fails`). -/
theorem C77_ivp_partial (N : ℕ) (hN : 2 ≤ N) (basis : String) (xf : ℝ) (hx : 0 < xf) (u : Utfc) (hu : Built N basis 0 xf u)
    (hr : Ready u) (xi : List ℝ) (h : ℕ → ℝ → ℝ) (hh : Evaluates u xi h) (y0 y0p : ℝ) :
    ivp h u.x y0 y0p 0 = y0 ∧ deriv (ivp h u.x y0 y0p) 0 = y0p := by
  obtain ⟨h1, -⟩ := built_points hN hx hu
  obtain ⟨hd, hd1⟩ := evaluates_fn hr hh
  unfold ivp
  rw [h1, hd1]
  generalize h 0 = g at *
  constructor
  · ring
  · deriv_expr
    ring

/-- **C77**, J/Chapter_4/Example_4_7/UnknownTime.py, B/Chapter_3/Problem_5.py: `x(-1) = x0` and `x(1) = xf`. -/
theorem C77_unknown_time (N : ℕ) (hN : 2 ≤ N) (basis : String) (hb : basis = "CP" ∨ basis = "LeP") (u : Utfc)
    (hu : Built N basis (-1) 1 u) (h : ℕ → ℝ → ℝ) (x0 xf : ℝ) :
    twoPointZ h u.z x0 xf (-1) = x0 ∧ twoPointZ h u.z x0 xf 1 = xf := by
  obtain ⟨h1, h2⟩ := built_points hN (by norm_num) hu
  unfold twoPointZ
  rw [built_z hN hb hu, h1, h2]
  constructor <;> ring

/-- **C77**, B/Chapter_3/Problem_4.py: `r(th0) = r0` and `r(thf) = rf`. -/
theorem C77_brachistochrone (h : ℕ → ℝ → ℝ) (th0 thf r0 rf : ℝ) (ht : th0 ≠ thf) :
    brachistochrone h th0 thf r0 rf th0 = r0 ∧ brachistochrone h th0 thf r0 rf thf = rf := by
  have h1 : th0 - thf ≠ 0 := sub_ne_zero.mpr ht
  have h2 : thf - th0 ≠ 0 := sub_ne_zero.mpr ht.symm
  unfold brachistochrone
  rw [div_self h1, div_self h2]
  simp

/-- **C77**, B/Chapter_1/Problem_4.py: for every function `g` the curve passes through `(0, 0)`, `(π, 2)`, `(e, -3)` at the times 0, 1, 2. -/
theorem C77_curve (gu gv : ℝ → ℝ) :
    (curveU gu 0, curveV gv 0) = (0, 0) ∧ (curveU gu 1, curveV gv 1) = (Real.pi, 2) ∧
      (curveU gu 2, curveV gv 2) = (Real.exp 1, -3) := by
  unfold curveU curveV
  simp only [Prod.mk.injEq]
  refine ⟨⟨?_, ?_⟩, ⟨?_, ?_⟩, ?_, ?_⟩ <;> ring

/-- **C77**, J/Chapter_2/Example_2_9/Figure_2_2.py 42–51: the values at three different points. -/
theorem C77_lagrange (h : ℕ → ℝ → ℝ) (x1 x2 x3 y1 y2 y3 : ℝ) (h12 : x1 ≠ x2)
    (h13 : x1 ≠ x3) (h23 : x2 ≠ x3) :
    lagrange3 h x1 x2 x3 y1 y2 y3 x1 = y1 ∧ lagrange3 h x1 x2 x3 y1 y2 y3 x2 = y2 ∧ lagrange3 h x1 x2 x3 y1 y2 y3 x3 = y3 := by
  have a := sub_ne_zero.mpr h12
  have b := sub_ne_zero.mpr h13
  have c := sub_ne_zero.mpr h23
  have a' := sub_ne_zero.mpr h12.symm
  have c' := sub_ne_zero.mpr h23.symm
  have ea : x2 - x1 = -(x1 - x2) := by ring
  have ec : x3 - x2 = -(x2 - x3) := by ring
  have e1 : ∀ p q : ℝ, p / ((x1 - x2) * (x3 - x2)) = -(p / ((x1 - x2) * (x2 - x3))) := by
    intro p q; rw [ec, mul_neg, div_neg]
  unfold lagrange3
  rw [ea, ec]
  refine ⟨?_, ?_, ?_⟩
  all_goals
    simp only [mul_neg, neg_mul, div_neg]
    field_simp
    ring

/-- The four functions of a cubic with given values and derivatives at the ends. -/
theorem hermite_duality {z0 zf : ℝ} (hz : z0 ≠ zf) :
    (hphi1 z0 zf z0 = 1 ∧ hphi1 z0 zf zf = 0 ∧ deriv (hphi1 z0 zf) z0 = 0 ∧ deriv (hphi1 z0 zf) zf = 0) ∧
    (hphi2 z0 zf z0 = 0 ∧ hphi2 z0 zf zf = 1 ∧ deriv (hphi2 z0 zf) z0 = 0 ∧ deriv (hphi2 z0 zf) zf = 0) ∧
    (hphi3 z0 zf z0 = 0 ∧ hphi3 z0 zf zf = 0 ∧ deriv (hphi3 z0 zf) z0 = 1 ∧ deriv (hphi3 z0 zf) zf = 0) ∧
    (hphi4 z0 zf z0 = 0 ∧ hphi4 z0 zf zf = 0 ∧ deriv (hphi4 z0 zf) z0 = 0 ∧ deriv (hphi4 z0 zf) zf = 1) := by
  have hz' : zf - z0 ≠ 0 := sub_ne_zero.mpr hz.symm
  unfold hphi1 hphi2 hphi3 hphi4
  refine ⟨⟨?_, ?_, ?_, ?_⟩, ⟨?_, ?_, ?_, ?_⟩, ⟨?_, ?_, ?_, ?_⟩, ⟨?_, ?_, ?_, ?_⟩⟩
  all_goals
    try deriv_expr
    field_simp
    ring

theorem hphi_differentiable (z0 zf : ℝ) : Differentiable ℝ (hphi1 z0 zf) ∧ Differentiable ℝ (hphi2 z0 zf) ∧
    Differentiable ℝ (hphi3 z0 zf) ∧ Differentiable ℝ (hphi4 z0 zf) := by
  unfold hphi1 hphi2 hphi3 hphi4
  refine ⟨?_, ?_, ?_, ?_⟩ <;> fun_prop

/-- A function plus multiples of the four cubics. -/
theorem hermite_expr {z0 zf : ℝ} (hz : z0 ≠ zf) {g : ℝ → ℝ} (hg : Differentiable ℝ g) (a b c d : ℝ) :
    let f := fun z => g z + hphi1 z0 zf z * (a - g z0) + hphi2 z0 zf z * (b - g zf) + hphi3 z0 zf z * (c - deriv g z0) +
      hphi4 z0 zf z * (d - deriv g zf)
    f z0 = a ∧ f zf = b ∧ deriv f z0 = c ∧ deriv f zf = d := by
  obtain ⟨⟨a1, a2, a3, a4⟩, ⟨b1, b2, b3, b4⟩, ⟨c1, c2, c3, c4⟩, ⟨d1, d2, d3, d4⟩⟩ := hermite_duality hz
  obtain ⟨e1, e2, e3, e4⟩ := hphi_differentiable z0 zf
  intro f
  have hf : ∀ z, deriv f z = deriv g z + deriv (hphi1 z0 zf) z * (a - g z0) + deriv (hphi2 z0 zf) z * (b - g zf) +
      deriv (hphi3 z0 zf) z * (c - deriv g z0) + deriv (hphi4 z0 zf) z * (d - deriv g zf) := by
    intro z
    exact ((((hg z).hasDerivAt.add ((e1 z).hasDerivAt.mul_const _)).add ((e2 z).hasDerivAt.mul_const _)).add
      ((e3 z).hasDerivAt.mul_const _)).add ((e4 z).hasDerivAt.mul_const _) |>.deriv
  refine ⟨?_, ?_, ?_, ?_⟩
  · simp only [f]; rw [a1, b1, c1, d1]; ring
  · simp only [f]; rw [a2, b2, c2, d2]; ring
  · rw [hf, a3, b3, c3, d3]; ring
  · rw [hf, a4, b4, c4, d4]; ring

/-- **C77**, the periodic orbits of J/Chapter_4/Example_4_8/Lyap.py, Example_4_9/Halo.py, B/Chapter_3/Problem_7.py: each component has
the value `R0` and the derivative `V0` at both ends. -/
theorem C77_periodic (N : ℕ) (hN : 2 ≤ N) (basis : String) (hb : basis = "CP" ∨ basis = "LeP") (u : Utfc)
    (hu : Built N basis (-1) 1 u) (hr : Ready u) (xi : List ℝ) (h : ℕ → ℝ → ℝ) (hh : Evaluates u xi h) (R0 V0 : ℝ) :
    periodic h u.z R0 V0 (-1) = R0 ∧ periodic h u.z R0 V0 1 = R0 ∧ deriv (periodic h u.z R0 V0) (-1) = V0 ∧
      deriv (periodic h u.z R0 V0) 1 = V0 := by
  obtain ⟨h1, h2⟩ := built_points hN (by norm_num) hu
  obtain ⟨hd, hd1⟩ := evaluates_fn hr hh
  have := hermite_expr (z0 := -1) (zf := 1) (by norm_num) hd R0 R0 V0 V0
  unfold periodic
  rw [built_z hN hb hu, h1, h2, hd1]
  exact this

/-- **C77**, the physical velocity of Lyap.py 75 and B/Chapter_3/Problem_7.py 90: at both ends the position is `(X, Y)` and the velocity
`v` is `(dX, dY)`, so the orbit closes, whenever `b ≠ 0` and the point is not the smaller primary. -/
theorem C77_lyapunov (N : ℕ) (hN : 2 ≤ N) (basis : String) (hb : basis = "CP" ∨ basis = "LeP") (u : Utfc)
    (hu : Built N basis (-1) 1 u) (hr : Ready u) (xix xiy : List ℝ) (hx hy : ℕ → ℝ → ℝ) (hhx : Evaluates u xix hx)
    (hhy : Evaluates u xiy hy) (mu X Y dX dY b : ℝ) (hb0 : b ≠ 0) (hp : (X, Y) ≠ (1 - mu, 0)) (e : ℝ) (he : e = -1 ∨ e = 1) :
    lyapR hx hy u.z mu X Y dX dY b e = (X, Y) ∧ lyapV hx hy u.z mu X Y dX dY b e = (dX, dY) := by
  have hD : lyapD0 mu X Y ≠ 0 := by
    unfold lyapD0
    refine (Real.sqrt_pos.mpr ?_).ne'
    rcases eq_or_ne Y 0 with rfl | hY
    · have : X + mu - 1 ≠ 0 := fun h => hp (by rw [show X = 1 - mu by linarith])
      positivity
    · positivity
  have key : ∀ (h : ℕ → ℝ → ℝ) (xi : List ℝ), Evaluates u xi h → ∀ R V, periodic h u.z R V e = R ∧ deriv (periodic h u.z R V) e = V := by
    intro h xi hh R V
    obtain ⟨a, b, c, d⟩ := C77_periodic N hN basis hb u hu hr xi h hh R V
    rcases he with rfl | rfl
    · exact ⟨a, c⟩
    · exact ⟨b, d⟩
  have hR : lyapR hx hy u.z mu X Y dX dY b e = (X, Y) := by
    unfold lyapR
    rw [(key hx xix hhx _ _).1, (key hy xiy hhy _ _).1]
  refine ⟨hR, ?_⟩
  unfold lyapV
  rw [hR]
  have h1 := (key hx xix hhx X (dX / b ^ 2 / (1 / lyapD0 mu X Y))).2
  have h2 := (key hy xiy hhy Y (dY / b ^ 2 / (1 / lyapD0 mu X Y))).2
  have e1 : (fun z => (lyapR hx hy u.z mu X Y dX dY b z).1) = periodic hx u.z X (dX / b ^ 2 / (1 / lyapD0 mu X Y)) := rfl
  have e2 : (fun z => (lyapR hx hy u.z mu X Y dX dY b z).2) = periodic hy u.z Y (dY / b ^ 2 / (1 / lyapD0 mu X Y)) := rfl
  have e3 : lyapR2 mu (X, Y) = lyapD0 mu X Y := rfl
  simp only [e1, e2, e3, h1, h2, Prod.mk.injEq]
  constructor <;> field_simp

/-- **C77**, the velocity of Halo.py 80: `dX` at both ends, whenever `b ≠ 0`. -/
theorem C77_halo (N : ℕ) (hN : 2 ≤ N) (basis : String) (hb : basis = "CP" ∨ basis = "LeP") (u : Utfc)
    (hu : Built N basis (-1) 1 u) (hr : Ready u) (xi : List ℝ) (h : ℕ → ℝ → ℝ) (hh : Evaluates u xi h) (X dX b : ℝ) (hb0 : b ≠ 0) :
    haloV h u.z X dX b (-1) = dX ∧ haloV h u.z X dX b 1 = dX := by
  obtain ⟨-, -, c, d⟩ := C77_periodic N hN basis hb u hu hr xi h hh X (dX / b ^ 2)
  unfold haloV
  rw [c, d]
  constructor <;> field_simp

/-- **C77**, the landing trajectories of B/Chapter_3/Problem_6.py, singleTFC_EOL.py, outTFC_EOL.py, TFC_EOL.py: the start is `R0`, the
end 0, the end is reached at rest, and the velocity in physical time (`scale` times the derivative) is `V0` at the start. -/
theorem C77_landing (N : ℕ) (hN : 2 ≤ N) (basis : String) (hb : basis = "CP" ∨ basis = "LeP") (u : Utfc)
    (hu : Built N basis (-1) 1 u) (hr : Ready u) (xi : List ℝ) (h : ℕ → ℝ → ℝ) (hh : Evaluates u xi h) (R0 V0 scale : ℝ)
    (hs : scale ≠ 0) :
    landing h u.z R0 V0 scale (-1) = R0 ∧ landing h u.z R0 V0 scale 1 = 0 ∧
      scale * deriv (landing h u.z R0 V0 scale) (-1) = V0 ∧ scale * deriv (landing h u.z R0 V0 scale) 1 = 0 := by
  obtain ⟨h1, h2⟩ := built_points hN (by norm_num) hu
  obtain ⟨hd, hd1⟩ := evaluates_fn hr hh
  obtain ⟨a, b, c, d⟩ := hermite_expr (z0 := -1) (zf := 1) (by norm_num) hd R0 0 (V0 / scale) 0
  have he : landing h u.z R0 V0 scale = fun z => h 0 z + hphi1 (-1) 1 z * (R0 - h 0 (-1)) + hphi2 (-1) 1 z * (0 - h 0 1) +
      hphi3 (-1) 1 z * (V0 / scale - deriv (h 0) (-1)) + hphi4 (-1) 1 z * (0 - deriv (h 0) 1) := by
    funext z
    unfold landing
    rw [built_z hN hb hu, h1, h2, hd1, zero_sub, zero_sub]
  rw [he]
  refine ⟨a, b, ?_, ?_⟩
  · rw [c]; field_simp
  · rw [d]; ring

/-- **C77**, J/Chapter_4/Example_4_11/IVP2BVP.py: what the expression enforces for every `gamma` (with `1 + 4 gamma - gamma² ≠ 0`, so for
every `gamma` in `[0, 1]`) is a pair of combined conditions; for `gamma = 0` they are the initial values, for `gamma = 1` the boundary
values. (Missing: with the Fourier and the ELM bases the points `tfc.z` are not the ends of the interval, see `C77_ivp2bvp_fails`; for
other values of `gamma` the single values are not met, see `C77_ivp2bvp_between_fails`.) -/
theorem C77_ivp2bvp_partial (N : ℕ) (hN : 2 ≤ N) (basis : String) (hb : basis = "CP" ∨ basis = "LeP") (u : Utfc)
    (hu : Built N basis (-1) 1 u) (hr : Ready u) (xi : List ℝ) (h : ℕ → ℝ → ℝ) (hh : Evaluates u xi h) (gamma y0 y0p yf : ℝ)
    (hg : 1 + 4 * gamma - gamma ^ 2 ≠ 0) :
    let y := ivp2bvp h u.z gamma y0 y0p yf
    (y (-1) + gamma * y 1 = y0 + gamma * yf ∧
      (1 - gamma) * deriv y (-1) + 2 * gamma * y 1 = (1 - gamma) * y0p + 2 * gamma * yf) ∧
    (gamma = 0 → y (-1) = y0 ∧ deriv y (-1) = y0p) ∧ (gamma = 1 → y (-1) = y0 ∧ y 1 = yf) := by
  obtain ⟨h1, h2⟩ := built_points hN (by norm_num) hu
  obtain ⟨hd, hd1⟩ := evaluates_fn hr hh
  intro y
  have hdy : deriv y (-1) = deriv (h 0) (-1) + 1 / (1 + 4 * gamma - gamma ^ 2) * (-2 * gamma) * (y0 - h 0 (-1))
      + 1 / (1 + 4 * gamma - gamma ^ 2) * (1 - gamma ^ 2) * (y0p - deriv (h 0) (-1))
      + 1 / (1 + 4 * gamma - gamma ^ 2) * (2 * gamma) * (yf - h 0 1) := by
    simp only [y]
    unfold ivp2bvp
    rw [built_z hN hb hu, h1, h2, hd1]
    generalize h 0 = g at *
    deriv_expr
    ring
  have hy : ∀ x, y x = h 0 x + 1 / (1 + 4 * gamma - gamma ^ 2) * ((1 + gamma) - 2 * gamma * x) * (y0 - h 0 (-1))
    + 1 / (1 + 4 * gamma - gamma ^ 2) * ((1 - gamma) ^ 2 + (1 - gamma ^ 2) * x) * (y0p - deriv (h 0) (-1))
    + 1 / (1 + 4 * gamma - gamma ^ 2) * (-gamma * (gamma - 3) + 2 * gamma * x) * (yf - h 0 1) := by
    intro x
    simp only [y]
    unfold ivp2bvp
    rw [built_z hN hb hu, h1, h2, hd1]
  have hA : y (-1) + gamma * y 1 = y0 + gamma * yf := by
    rw [hy, hy]
    field_simp
    ring
  have hB : (1 - gamma) * deriv y (-1) + 2 * gamma * y 1 = (1 - gamma) * y0p + 2 * gamma * yf := by
    have hq : 1 / (1 + 4 * gamma - gamma ^ 2) * (1 + 4 * gamma - gamma ^ 2) = 1 := one_div_mul_cancel hg
    rw [hdy, hy]
    linear_combination ((1 - gamma) * (y0p - deriv (h 0) (-1)) + 2 * gamma * (yf - h 0 1)) * hq
  refine ⟨⟨hA, hB⟩, ?_, ?_⟩
  · rintro rfl
    constructor <;> linarith
  · rintro rfl
    have : y 1 = yf := by linarith
    exact ⟨by linarith, this⟩

/-- **C77**, the balloon programs D/Chapter_4/NaturalBalloonShape: the values at the start `-1` and at the end `1`. -/
theorem C77_balloon (hQ hZ hTh hR : ℕ → ℝ → ℝ) (q0 z0 Rs beta : ℝ) :
    onePoint hQ q0 (-1) = q0 ∧ onePoint hZ z0 (-1) = z0 ∧ balloonTh hTh beta (-1) = Real.pi / 2 - beta ∧
      balloonTh hTh beta 1 = -(Real.pi / 2) ∧ balloonR hR Rs beta (-1) = Rs * Real.sin beta ∧ balloonR hR Rs beta 1 = 0 := by
  unfold onePoint balloonTh balloonR
  refine ⟨?_, ?_, ?_, ?_, ?_, ?_⟩ <;> ring

/-- **C77**, the balloon programs: the two formulas selected by the heaviside functions agree (a cap of the sphere and the complement of
the opposite cap), so `To` is `To1` for every angle, and does not jump where the selection changes. -/
theorem C77_balloon_load (Rs w ws : ℝ) (c : BalloonConst) (beta : ℝ) :
    balloonTo1 Rs w ws c beta = balloonTo2 Rs w ws c beta ∧ balloonTo Rs w ws c beta = balloonTo1 Rs w ws c beta := by
  have h : balloonTo1 Rs w ws c beta = balloonTo2 Rs w ws c beta := by
    have hv : balloonVs Rs - Real.pi / 3 * (2 * Rs - balloonZ0 Rs beta) ^ 2 * (3 * Rs - (2 * Rs - balloonZ0 Rs beta)) =
        Real.pi / 3 * balloonZ0 Rs beta ^ 2 * (3 * Rs - balloonZ0 Rs beta) := by
      unfold balloonVs
      ring
    unfold balloonTo1 balloonTo2
    simp only
    rw [hv]
    ring
  refine ⟨h, ?_⟩
  unfold balloonTo heaviside
  rw [← h]
  rcases lt_trichotomy beta Real.pi with hb | hb | hb
  · rw [if_neg (by linarith), if_pos (by linarith), if_pos (by linarith)]; ring
  · rw [if_neg (by linarith), if_neg (by linarith), if_neg (by linarith), if_neg (by linarith)]; ring
  · rw [if_pos (by linarith), if_neg (by linarith), if_pos (by linarith)]; ring

/-! ## Where the programs miss their constraints -/

theorem freeFn_one (u : Utfc) (k : ℕ) (h : outColumns (u.deg + 1) u.nC false = [k]) : freeFn u [1] = u.cls.basis u.x0 u.xf k := by
  funext t
  have key : ∀ l : List ℕ, l = [k] → ∑ i : Fin l.length, ([1] : List ℝ).getD i 0 * u.cls.basis u.x0 u.xf l[i] t =
      u.cls.basis u.x0 u.xf k t := by
    rintro _ rfl
    simp
  exact key _ h

/-- A Chebyshev object with three functions, the first two removed: its free function for the coefficient 1 is the Chebyshev
polynomial of degree 2 of the mapped variable. -/
theorem cheb_object (x0 xf : ℝ) (hx : x0 ≠ xf) : ∃ u, Built 3 "CP" x0 xf u ∧ Ready u ∧
    ∀ t, freeFn u [1] t = 2 * (-1 + 2 * (t - x0) / (xf - x0)) ^ 2 - 1 := by
  have hu : ∃ u, utfcInit 3 (.int 2) 2 "CP" (some x0) (some xf) "C++" (fun _ => 0) (fun _ => 0) = .ok u := ⟨_, rfl⟩
  obtain ⟨u, hu⟩ := hu
  have hr : Ready u := C76_ready _ _ _ _ (by decide) _ _ (by simpa using hx) _ _ _ u hu (by rintro l (h | h) <;> cases h)
  refine ⟨u, ⟨_, _, _, _, _, hu⟩, hr, fun t => ?_⟩
  cases hu
  rw [freeFn_one _ 2 (show outColumns (2 + 1) (arange 2) false = [2] by decide)]
  show (Polynomial.Chebyshev.T ℝ ((2 : ℕ) : ℤ)).eval (toBasis x0 xf (-1) 1 t) = _
  rw [show ((2 : ℕ) : ℤ) = 2 from rfl, Polynomial.Chebyshev.T_two]
  simp only [Polynomial.eval_sub, Polynomial.eval_mul, Polynomial.eval_pow, Polynomial.eval_X, Polynomial.eval_one,
    Polynomial.eval_ofNat, toBasis]
  norm_num

/-- A Fourier object with three functions, the first two removed: its free function for the coefficient 1 is `cos`. -/
theorem fourier_object : ∃ u, Built 3 "FS" (-1) 1 u ∧ Ready u ∧ (∀ t, freeFn u [1] t = Real.cos (Real.pi * t)) ∧
    first u.z = -Real.pi := by
  have hu : ∃ u, utfcInit 3 (.int 2) 2 "FS" (some (-1)) (some 1) "C++" (fun _ => 0) (fun _ => 0) = .ok u := ⟨_, rfl⟩
  obtain ⟨u, hu⟩ := hu
  have hr : Ready u := C76_ready _ _ _ _ (by decide) _ _ (by norm_num) _ _ _ u hu (by rintro l (h | h) <;> cases h)
  have hz : first u.z = -Real.pi := by
    obtain ⟨-, -, -, h1, -, -, h⟩ := C13_points 3 (by norm_num) _ _ _ _ (-1) 1 (by norm_num) _ _ u hu
    rw [← h]
    unfold first
    rw [List.headD_eq_head?_getD, List.head?_map, h1]
    cases hu
    show toBasis (-1) 1 (-Real.pi) Real.pi (-1) = _
    simp [toBasis]
  refine ⟨u, ⟨_, _, _, _, _, hu⟩, hr, fun t => ?_, hz⟩
  cases hu
  rw [freeFn_one _ 2 (show outColumns (2 + 1) (arange 2) false = [2] by decide)]
  show fourier 2 (toBasis (-1) 1 (-Real.pi) Real.pi t) = _
  have h1 : toBasis (-1) 1 (-Real.pi) Real.pi t = Real.pi * t := by
    simp only [toBasis]
    ring
  rw [h1]
  simp [fourier]

/-- **C77 does not hold for every start**: laneEmden_tfc.py takes the start `xspan[0]` as an argument; for the start 1 there are an object
and coefficients for which `y(1)` is not the initial value 1. -/
theorem C77_ivp_fails : ∃ (u : Utfc) (xi : List ℝ) (h : ℕ → ℝ → ℝ), Built 3 "CP" 1 2 u ∧ Ready u ∧ Evaluates u xi h ∧
    ivp h u.x 1 0 1 ≠ 1 := by
  obtain ⟨u, hb, hr, hf⟩ := cheb_object 1 2 (by norm_num)
  obtain ⟨h1, -⟩ := built_points (by norm_num) (by norm_num) hb
  refine ⟨u, [1], _, hb, hr, evaluates_freeFn u hr [1], ?_⟩
  unfold ivp
  simp only [iteratedDeriv_zero, iteratedDeriv_one, h1]
  have hg : freeFn u [1] = fun t => 8 * t ^ 2 - 24 * t + 17 := by
    funext t
    rw [hf]
    ring
  rw [hg]
  have hd : deriv (fun t : ℝ => 8 * t ^ 2 - 24 * t + 17) 1 = -8 := by
    deriv_expr
    norm_num
  rw [hd]
  norm_num

/-- **C77 does not hold for the Fourier basis** in IVP2BVP.py (the argument `basis` allows it): the points `tfc.z` are `-π` and `π`, the
interval is `[-1, 1]`, and already the initial value is missed. -/
theorem C77_ivp2bvp_fails : ∃ (u : Utfc) (xi : List ℝ) (h : ℕ → ℝ → ℝ), Built 3 "FS" (-1) 1 u ∧ Ready u ∧ Evaluates u xi h ∧
    ivp2bvp h u.z 0 (-2) (-2) 2 (-1) ≠ -2 := by
  obtain ⟨u, hb, hr, hf, hz⟩ := fourier_object
  refine ⟨u, [1], _, hb, hr, evaluates_freeFn u hr [1], ?_⟩
  unfold ivp2bvp
  simp only [iteratedDeriv_zero, iteratedDeriv_one, hz, hf]
  have h1 : Real.cos (Real.pi * -1) = -1 := by rw [mul_neg_one, Real.cos_neg, Real.cos_pi]
  have h2 : Real.cos (Real.pi * -Real.pi) ≠ -1 := by
    rw [mul_neg, Real.cos_neg]
    intro h
    obtain ⟨k, hk⟩ := Real.cos_eq_neg_one_iff.mp h
    have hp := Real.pi_pos
    have h3 : (1 + 2 * (k : ℝ)) = Real.pi := by
      have : Real.pi * (1 + 2 * k) = Real.pi * Real.pi := by linarith
      exact mul_left_cancel₀ hp.ne' this
    have h4 := Real.pi_gt_three
    have h5 := Real.pi_lt_four
    rw [← h3] at h4 h5
    have h6 : (1 : ℝ) < k := by linarith
    have h7 : (k : ℝ) < 2 := by linarith
    have h6' : (1 : ℤ) < k := by exact_mod_cast h6
    have h7' : k < (2 : ℤ) := by exact_mod_cast h7
    omega
  intro h
  apply h2
  rw [h1] at h
  linarith

/-- **C77 does not hold between** the initial and the boundary value problem: for `gamma = 1/2` in IVP2BVP.py with the Chebyshev basis
none of the three values is met. -/
theorem C77_ivp2bvp_between_fails : ∃ (u : Utfc) (xi : List ℝ) (h : ℕ → ℝ → ℝ), Built 3 "CP" (-1) 1 u ∧ Ready u ∧ Evaluates u xi h ∧
    ivp2bvp h u.z (1 / 2) (-2) 0 2 (-1) ≠ -2 ∧ deriv (ivp2bvp h u.z (1 / 2) (-2) 0 2) (-1) ≠ 0 ∧
    ivp2bvp h u.z (1 / 2) (-2) 0 2 1 ≠ 2 := by
  obtain ⟨u, hb, hr, hf⟩ := cheb_object (-1) 1 (by norm_num)
  obtain ⟨h1, h2⟩ := built_points (by norm_num) (by norm_num) hb
  have hg : freeFn u [1] = fun t => 2 * t ^ 2 - 1 := by
    funext t
    rw [hf]
    ring
  have hd : deriv (fun t : ℝ => 2 * t ^ 2 - 1) (-1) = -4 := by
    deriv_expr
    norm_num
  refine ⟨u, [1], _, hb, hr, evaluates_freeFn u hr [1], ?_⟩
  have hy : ivp2bvp (fun d => iteratedDeriv d (freeFn u [1])) u.z (1 / 2) (-2) 0 2 = fun x => 2 * x ^ 2 - 1
      + 4 / 11 * ((1 + 1 / 2) - x) * (-3) + 4 / 11 * ((1 - 1 / 2) ^ 2 + (1 - 1 / 4) * x) * 4 +
      4 / 11 * (5 / 4 + x) := by
    funext x
    unfold ivp2bvp
    simp only [iteratedDeriv_zero, iteratedDeriv_one, built_z (by norm_num) (Or.inl rfl) hb, h1, h2, hg, hd]
    norm_num
  rw [hy]
  refine ⟨by norm_num, ?_, by norm_num⟩
  deriv_expr
  norm_num

/-- What the loop of example_3_1.py keeps true after the rounds `hs`. -/
structure Propagated (x : List ℝ) (L y0 y0p : ℝ) (n : ℕ) (s : LoopState) : Prop where
  len : s.rounds.length = n
  final : s.xFinal = (max n 1 : ℕ) * L
  start : n = 0 → s.y0 = y0 ∧ s.y0p = y0p
  next : ∀ r, s.rounds[n - 1]? = some r → s.y0 = r.fn L ∧ s.y0p = deriv r.fn L
  first : ∀ r, s.rounds[0]? = some r → r.fn 0 = y0 ∧ deriv r.fn 0 = y0p
  join : ∀ i r r', s.rounds[i]? = some r → s.rounds[i + 1]? = some r' → r'.fn 0 = r.fn L ∧ deriv r'.fn 0 = deriv r.fn L
  rows : ∀ (i : ℕ) r, s.rounds[i]? = some r → r.xs = x.dropLast.map (i * L + ·) ∧ r.ys = x.dropLast.map r.fn

theorem propagated_step (N : ℕ) (hN : 2 ≤ N) (basis : String) (L : ℝ) (hL : 0 < L) (u : Utfc) (hu : Built N basis 0 L u)
    (hr : Ready u) (xi : List ℝ) (h : ℕ → ℝ → ℝ) (hh : Evaluates u xi h) (y0 y0p : ℝ) (n : ℕ) (s : LoopState)
    (hs : Propagated u.x L y0 y0p n s) : Propagated u.x L y0 y0p (n + 1) (propagate u.x s h) := by
  obtain ⟨hf0, hf1⟩ := C77_ivp_partial N hN basis L hL u hu hr xi h hh s.y0 s.y0p
  obtain ⟨-, hl⟩ := built_points hN hL hu
  obtain ⟨len, final, start, next, first', join, rows⟩ := hs
  have hlast : ∀ r, (propagate u.x s h).rounds[n]? = some r →
      r.fn = ivp h u.x s.y0 s.y0p ∧ r.xs = u.x.dropLast.map (n * L + ·) ∧ r.ys = u.x.dropLast.map r.fn := by
    intro r hr'
    simp only [propagate] at hr'
    rw [← len, List.getElem?_concat_length] at hr'
    cases hr'
    refine ⟨rfl, ?_, rfl⟩
    dsimp only
    rw [len, final]
    by_cases hn : n > 0
    · rw [if_pos hn, Nat.max_eq_left hn]
    · obtain rfl : n = 0 := by omega
      simp
  have hprev : ∀ i r, i < n → (propagate u.x s h).rounds[i]? = some r → s.rounds[i]? = some r := by
    intro i r hi hr'
    simp only [propagate] at hr'
    rwa [List.getElem?_append_left (by omega)] at hr'
  have hlen : (propagate u.x s h).rounds.length = n + 1 := by
    simp [propagate, len]
  have hlt : ∀ i r, (propagate u.x s h).rounds[i]? = some r → i < n + 1 := by
    intro i r hr'
    have := (List.getElem?_eq_some_iff.mp hr').1
    omega
  refine ⟨hlen, ?_, by omega, ?_, ?_, ?_, ?_⟩
  · simp only [propagate]
    rw [len, final, hl, Nat.max_eq_left (Nat.le_add_left 1 n)]
    by_cases hn : n > 0
    · rw [if_pos hn, Nat.max_eq_left hn]
      push_cast
      ring
    · obtain rfl : n = 0 := by omega
      simp
  · intro r hr'
    obtain ⟨h1, -, -⟩ := hlast r hr'
    rw [h1]
    simp only [propagate]
    rw [hl]
    exact ⟨rfl, rfl⟩
  · intro r hr'
    rcases Nat.eq_zero_or_pos n with rfl | hn
    · obtain ⟨h1, -, -⟩ := hlast r hr'
      obtain ⟨e1, e2⟩ := start rfl
      rw [h1, hf0, hf1]
      exact ⟨e1, e2⟩
    · exact first' r (hprev 0 r hn hr')
  · intro i r r' h1 h2
    have := hlt _ _ h2
    rcases Nat.lt_or_ge (i + 1) n with hi | hi
    · exact join i r r' (hprev _ _ (by omega) h1) (hprev _ _ hi h2)
    · obtain rfl : n = i + 1 := by omega
      obtain ⟨e, -, -⟩ := hlast r' h2
      rw [e, hf0, hf1]
      exact next r (hprev i r (by omega) h1)
  · intro i r h1
    have := hlt _ _ h1
    rcases Nat.lt_or_ge i n with hi | hi
    · exact rows i r (hprev _ _ hi h1)
    · obtain rfl : n = i := by omega
      exact (hlast r h1).2

theorem propagated (N : ℕ) (hN : 2 ≤ N) (basis : String) (L : ℝ) (hL : 0 < L) (u : Utfc) (hu : Built N basis 0 L u) (hr : Ready u)
    (hs : List (ℕ → ℝ → ℝ)) (hh : ∀ h ∈ hs, ∃ xi, Evaluates u xi h) (y0 y0p : ℝ) :
    Propagated u.x L y0 y0p hs.length (propagateAll u.x y0 y0p hs) := by
  induction hs using List.reverseRecOn with
  | nil =>
    obtain ⟨-, hl⟩ := built_points hN hL hu
    refine ⟨rfl, ?_, fun _ => ⟨rfl, rfl⟩, ?_, ?_, ?_, ?_⟩
    · simp [propagateAll, hl]
    all_goals simp [propagateAll]
  | append_singleton hs h ih =>
    unfold propagateAll
    rw [List.foldl_append, List.length_append]
    obtain ⟨xi, hxi⟩ := hh h (by simp)
    exact propagated_step N hN basis L hL u hu hr xi h hxi y0 y0p _ _ (ih fun g hg => hh g (by simp [hg]))

/-- The rows `xSol[0,:]`, `xSol[1,:]`, … put one after the other are strictly increasing. -/
theorem rows_sorted {x : List ℝ} {L : ℝ} (hsort : x.Pairwise (· < ·)) (h0 : ∀ p ∈ x.dropLast, 0 ≤ p ∧ p < L) (n : ℕ) :
    ((List.range n).flatMap fun i : ℕ => x.dropLast.map ((i : ℝ) * L + ·)).Pairwise (· < ·) := by
  rw [List.pairwise_flatMap]
  refine ⟨fun i _ => ?_, ?_⟩
  · rw [List.pairwise_map]
    exact (hsort.sublist (List.dropLast_sublist x)).imp fun h => by linarith
  · refine List.pairwise_lt_range.imp fun {a b} hab p hp q hq => ?_
    obtain ⟨p, hp', rfl⟩ := List.mem_map.mp hp
    obtain ⟨q, hq', rfl⟩ := List.mem_map.mp hq
    have h1 := (h0 p hp').2
    have h2 := (h0 q hq').1
    have hab' : (a : ℝ) + 1 ≤ b := by exact_mod_cast hab
    have : 0 ≤ L := by linarith [(h0 p hp').1]
    nlinarith

/-- **C77, propagation**: B/Chapter_3/example_3_1.py 93–107 and Problem_2.py 106–120. After any number of steps, whatever coefficients
the least-squares runs returned: there is one row for each step, the first function meets the initial values, every other
function continues the one before it with the same value and the same derivative, row `i` of `xSol` is the points shifted by `i` steps, row `i`
of `ySol` its values there, and the points of all rows are strictly increasing. -/
theorem C77_propagation (N : ℕ) (hN : 2 ≤ N) (basis : String) (L : ℝ) (hL : 0 < L) (u : Utfc) (hu : Built N basis 0 L u)
    (hr : Ready u) (hs : List (ℕ → ℝ → ℝ)) (hh : ∀ h ∈ hs, ∃ xi, Evaluates u xi h) (y0 y0p : ℝ) (R : List Round)
    (hR : R = (propagateAll u.x y0 y0p hs).rounds) :
    R.length = hs.length ∧
    (∀ r, R[0]? = some r → r.fn 0 = y0 ∧ deriv r.fn 0 = y0p) ∧
    (∀ i r r', R[i]? = some r → R[i + 1]? = some r' → r'.fn 0 = r.fn L ∧ deriv r'.fn 0 = deriv r.fn L) ∧
    (∀ (i : ℕ) r, R[i]? = some r → r.xs = u.x.dropLast.map (i * L + ·) ∧ r.ys = u.x.dropLast.map r.fn) ∧
    (R.flatMap Round.xs).Pairwise (· < ·) := by
  subst hR
  obtain ⟨len, -, -, -, first', join, rows⟩ := propagated N hN basis L hL u hu hr hs hh y0 y0p
  refine ⟨len, first', join, rows, ?_⟩
  generalize (propagateAll u.x y0 y0p hs).rounds = R at *
  have hb := hu
  obtain ⟨nC, deg, backend, w, b, hu⟩ := hu
  obtain ⟨hlen, -, hsort, -, hlst, hmem, -⟩ := C13_points N hN nC deg basis backend 0 L hL w b u hu
  have hdrop : ∀ p ∈ u.x.dropLast, 0 ≤ p ∧ p < L := by
    intro p hp
    refine ⟨(hmem p (List.dropLast_subset _ hp)).1, ?_⟩
    have hne : u.x ≠ [] := by
      intro h
      rw [h] at hlen
      simp at hlen
      omega
    have hsort' := hsort
    rw [← List.dropLast_append_getLast hne, List.pairwise_append] at hsort'
    have := hsort'.2.2 p hp _ (List.mem_singleton_self _)
    rw [List.getLast?_eq_some_getLast hne] at hlst
    rwa [Option.some.inj hlst] at this
  have hmap : R.map Round.xs = (List.range R.length).map fun i : ℕ => u.x.dropLast.map ((i : ℝ) * L + ·) := by
    apply List.ext_getElem
    · simp
    · intro i h1 h2
      rw [List.getElem_map, List.getElem_map, List.getElem_range]
      exact (rows i _ (List.getElem?_eq_getElem (by simpa using h1))).1
  have := rows_sorted hsort hdrop R.length
  rw [List.flatMap_def] at this ⊢
  rwa [hmap]

/-- **C77, the number of removed functions**: the condition `basis == 'CP' or 'LeP'` of example_3_1.py 32, Problem_1.py 32 and
Problem_2.py 45 is true for every basis, so the branches for `'FS'` (one function) and for the ELM bases (none) are never taken. -/
theorem C77_nC_fails (basis : String) : nCOf basis = 2 := by
  unfold nCOf
  have : ("LeP" != "") = true := by decide
  rw [this, Bool.or_true]
  rfl

/-! ## The hypotheses are met -/

/-- An object on `[0, 1]`, coefficients, and three steps of the propagation loop. -/
example : ∃ u, Built 3 "CP" 0 1 u ∧ Ready u ∧ ∃ hs : List (ℕ → ℝ → ℝ), hs.length = 3 ∧ (∀ h ∈ hs, ∃ xi, Evaluates u xi h) ∧
    (propagateAll u.x 1 0 hs).rounds.length = 3 := by
  obtain ⟨u, hb, hr, -⟩ := cheb_object 0 1 (by norm_num)
  have hh : ∀ h ∈ [fun d => iteratedDeriv d (freeFn u [1]), fun d => iteratedDeriv d (freeFn u [2]), fun d => iteratedDeriv d (freeFn u [3])],
      ∃ xi, Evaluates u xi h := by
    intro h hm
    simp only [List.mem_cons, List.not_mem_nil, or_false] at hm
    rcases hm with rfl | rfl | rfl
    · exact ⟨_, evaluates_freeFn u hr [1]⟩
    · exact ⟨_, evaluates_freeFn u hr [2]⟩
    · exact ⟨_, evaluates_freeFn u hr [3]⟩
  exact ⟨u, hb, hr, _, rfl, hh, (C77_propagation 3 (by norm_num) "CP" 1 one_pos u hb hr _ hh 1 0 _ rfl).1⟩

/-- An orbit: the free function is a Chebyshev polynomial, and the position and velocity at both ends are the given ones. -/
example : ∃ (u : Utfc) (h : ℕ → ℝ → ℝ), Evaluates u [1] h ∧ h 0 0 = -1 ∧ ∀ e, e = -1 ∨ e = 1 →
    lyapR h h u.z 0.01 0.8 0 0 0.5 2 e = (0.8, 0) ∧ lyapV h h u.z 0.01 0.8 0 0 0.5 2 e = (0, 0.5) := by
  obtain ⟨u, hb, hr, hf⟩ := cheb_object (-1) 1 (by norm_num)
  have hE := evaluates_freeFn u hr [1]
  refine ⟨u, _, hE, ?_, fun e he => ?_⟩
  · simp only [iteratedDeriv_zero, hf]
    norm_num
  · exact C77_lyapunov 3 (by norm_num) "CP" (Or.inl rfl) u hb hr [1] [1] _ _ hE hE 0.01 0.8 0 0 0.5 2 (by norm_num)
      (by intro h; simp only [Prod.mk.injEq] at h; norm_num at h) e he

end Verif.Props
