import Verif.Props.OdeGronwall

/-!
# The error of IVP2BVP.py between initial and boundary values

For `gamma` other than 0 the conditions tie the two ends of the interval together, so the residual bounds the error only as far as the problem has one
solution. How far that is, is measured by the solution `w` of the equation without its right side that starts in the direction left free by the conditions.
-/

namespace Verif.Props

open Set Polynomial Verif Verif.Mem Verif.Py Verif.Np Verif.Spec Verif.Model Verif.Model.Py Verif.Model.LSq Verif.Model.Prog Verif.Lemmas.LSq
open scoped ContDiff

/-- The conditions of IVP2BVP.py for a value of `gamma`, with `y0 = -2`, `y0p = -2` and `yf = 2`: the initial values for 0, the values at the ends for 1. -/
def Ties (gamma : ℝ) (y : ℝ → ℝ) : Prop :=
  y (-1) + gamma * y 1 = -2 + gamma * 2 ∧ (1 - gamma) * deriv y (-1) + 2 * gamma * y 1 = (1 - gamma) * -2 + 2 * gamma * 2

/-- The equation of IVP2BVP.py without its right side. -/
def Homogeneous (w : ℝ → ℝ) : Prop :=
  ∀ x ∈ Icc (-1 : ℝ) 1, deriv (deriv w) x + (Real.cos (3 * x ^ 2) - 3 * x + 1) * deriv w x
    + (6 * Real.sin (4 * x ^ 2) - Real.exp (Real.cos (3 * x))) * w x = 0

theorem ivp_close_from {R δ : ℝ} {y v : ℝ → ℝ} (hy : ContDiff ℝ 2 y) (hv : ContDiff ℝ 2 v) (h0 : |y (-1) - v (-1)| ≤ δ)
    (h1 : |deriv y (-1) - deriv v (-1)| ≤ δ) (hF : ∀ x ∈ Icc (-1 : ℝ) 1, |missF ivp2bvpF y x| ≤ R) (v2 : ∀ x ∈ Icc (-1 : ℝ) 1, missF ivp2bvpF v x = 0) :
    ∀ t ∈ Icc (-1 : ℝ) 1, |y t - v t| ≤ δ * Real.exp (14 * (t + 1)) + R / 14 * (Real.exp (14 * (t + 1)) - 1) := by
  intro t ht
  have hg := gronwall2 (a := -1) (b := 1) (K := 14) (R := R) (δ := δ) (by norm_num) ((abs_nonneg _).trans (hF t ht)) hy hv
    h0 h1 (fun x hx => by
      have e1 := ivp2bvp_equation y x
      have e2 := ivp2bvp_equation v x
      rw [v2 x hx] at e2
      obtain ⟨p, hp⟩ : ∃ p, p = Real.cos (3 * x ^ 2) - 3 * x + 1 := ⟨_, rfl⟩
      obtain ⟨q, hq⟩ : ∃ q, q = 6 * Real.sin (4 * x ^ 2) - Real.exp (Real.cos (3 * x)) := ⟨_, rfl⟩
      rw [← hp, ← hq] at e1 e2
      have hp' : |p| ≤ 5 := by
        rw [hp, abs_le]
        constructor <;> linarith [Real.neg_one_le_cos (3 * x ^ 2), Real.cos_le_one (3 * x ^ 2), hx.1, hx.2]
      have hq' : |q| ≤ 9 := by
        have h1 : Real.exp (Real.cos (3 * x)) ≤ Real.exp 1 := Real.exp_le_exp.2 (Real.cos_le_one _)
        have h2 := Real.exp_one_lt_d9
        rw [hq, abs_le]
        constructor <;> linarith [Real.neg_one_le_sin (4 * x ^ 2), Real.sin_le_one (4 * x ^ 2), Real.exp_pos (Real.cos (3 * x))]
      have e : deriv (deriv y) x - deriv (deriv v) x = missF ivp2bvpF y x - p * (deriv y x - deriv v x) - q * (y x - v x) := by linarith
      have b1 : |p * (deriv y x - deriv v x)| ≤ 5 * max |y x - v x| |deriv y x - deriv v x| := by
        rw [abs_mul]
        exact mul_le_mul hp' (le_max_right _ _) (abs_nonneg _) (by norm_num)
      have b2 : |q * (y x - v x)| ≤ 9 * max |y x - v x| |deriv y x - deriv v x| := by
        rw [abs_mul]
        exact mul_le_mul hq' (le_max_left _ _) (abs_nonneg _) (by norm_num)
      rw [e]
      calc _ ≤ |missF ivp2bvpF y x| + |p * (deriv y x - deriv v x)| + |q * (y x - v x)| :=
            (abs_sub _ _).trans (add_le_add_left (abs_sub _ _) _)
        _ ≤ _ := by linarith [hF x hx])
  have := (hg t ht).1
  rw [gronwallBound_of_K_ne_0 (by norm_num)] at this
  beta_reduce at this
  rw [sub_neg_eq_add] at this
  exact this

theorem ivp_close {R : ℝ} {y v : ℝ → ℝ} (hy : ContDiff ℝ 2 y) (hv : ContDiff ℝ 2 v) (h0 : y (-1) = v (-1)) (h1 : deriv y (-1) = deriv v (-1))
    (hF : ∀ x ∈ Icc (-1 : ℝ) 1, |missF ivp2bvpF y x| ≤ R) (v2 : ∀ x ∈ Icc (-1 : ℝ) 1, missF ivp2bvpF v x = 0) :
    ∀ t ∈ Icc (-1 : ℝ) 1, |y t - v t| ≤ R / 14 * (Real.exp (14 * (t + 1)) - 1) := fun t ht => by
  have := ivp_close_from hy hv (δ := 0) (by rw [h0]; simp) (by rw [h1]; simp) hF v2 t ht
  rwa [zero_mul, zero_add] at this

/-- Adding a multiple of a solution of the equation without its right side. -/
theorem shift_solution {v w : ℝ → ℝ} (hv : ContDiff ℝ 2 v) (hw : ContDiff ℝ 2 w) (k : ℝ) :
    (∀ x, deriv (fun t => v t + k * w t) x = deriv v x + k * deriv w x) ∧
      ((∀ x ∈ Icc (-1 : ℝ) 1, missF ivp2bvpF v x = 0) → Homogeneous w → ∀ x ∈ Icc (-1 : ℝ) 1, missF ivp2bvpF (fun t => v t + k * w t) x = 0) := by
  have d1 : ∀ x, deriv (fun t => v t + k * w t) x = deriv v x + k * deriv w x := fun x =>
    ((hasDeriv1 hv x).add ((hasDeriv1 hw x).const_mul k)).deriv
  have d2 : ∀ x, deriv (deriv fun t => v t + k * w t) x = deriv (deriv v) x + k * deriv (deriv w) x := fun x => by
    rw [show (deriv fun t => v t + k * w t) = fun x => deriv v x + k * deriv w x from funext d1]
    exact ((hasDeriv2 hv x).add ((hasDeriv2 hw x).const_mul k)).deriv
  refine ⟨d1, fun h hh x hx => ?_⟩
  have e1 := h x hx
  have e2 := hh x hx
  rw [ivp2bvp_equation] at e1 ⊢
  rw [d1, d2]
  linear_combination e1 + k * e2

theorem ivp2bvp_ties {N m : ℕ} (hN : 2 ≤ N) {basis : String} (hb : basis = "CP" ∨ basis = "LeP") {gamma : ℝ} (hgamma : 1 + 4 * gamma - gamma ^ 2 ≠ 0)
    {w b : ℕ → ℝ} {u : Utfc} (hu : utfcInit N (.int 2) m basis (some (-1)) (some 1) "C++" w b = .ok u) (hr : Ready u) {xi : List ℝ} {y : ℝ → ℝ}
    (h2 : Yields u (ivp2bvpExpr u.z gamma (-2) (-2) 2) xi y) : Ties gamma y := by
  obtain ⟨g, hg, he, hy⟩ := h2
  have e : y = ivp2bvp (fun d => iteratedDeriv d g) u.z gamma (-2) (-2) 2 := by
    rw [hy]
    funext t
    simp [curve, ivp2bvpExpr, ivp2bvp]
    ring
  rw [e]
  exact (C77_ivp2bvp_partial N hN basis hb u ⟨_, _, _, _, _, hu⟩ hr xi _ he gamma (-2) (-2) 2 hgamma).1

/-- **C101, between initial and boundary values**, J/Chapter_4/Example_4_11/IVP2BVP.py for every `gamma` for which the expression is defined (so for all
of `[0, 1]`): the function returned meets the conditions for `gamma`. If its defects at the points are at most `ε` and change by at most `D`, it differs
from every solution of the equation with these conditions by at most the given bound. The bound is finite where `w 1 + (1 - gamma)` is not 0. -/
theorem C101_ivp2bvp_error (lib : LinAlg) (hlib : LinAlgCorrect lib) (N m : ℕ) (hN : 2 ≤ N) (hm : 2 ≤ m) (basis : String)
    (hb : basis = "CP" ∨ basis = "LeP") (gamma : ℝ) (hgamma : 1 + 4 * gamma - gamma ^ 2 ≠ 0) (w b : ℕ → ℝ) (fuel : ℕ) (hf : 52 ≤ fuel) :
    ∃ u xi y, ∃ it : ℕ, utfcInit N (.int 2) m basis (some (-1)) (some 1) "C++" w b = .ok u ∧
      runIvp2bvp lib N m gamma basis w b fuel = .ok (some (.arr xi, (it : ℤ))) ∧ Yields u (ivp2bvpExpr u.z gamma (-2) (-2) 2) xi y ∧ Ties gamma y ∧
      ∀ ε D, (∀ t ∈ u.x, |missF ivp2bvpF y t| ≤ ε) → (∀ t ∈ Icc (-1 : ℝ) 1, |deriv (missF ivp2bvpF y) t| ≤ D) →
        ∀ v : ℝ → ℝ, ContDiff ℝ 2 v → Ties gamma v → (∀ t ∈ Icc (-1 : ℝ) 1, missF ivp2bvpF v t = 0) →
          ∀ s : ℝ → ℝ, ContDiff ℝ 2 s → Homogeneous s → s (-1) = gamma * (1 - gamma) → deriv s (-1) = 2 * gamma → s 1 + (1 - gamma) ≠ 0 →
            let E := fun t => (ε + D * (2 * (Real.pi / (4 * ((N - 1 : ℕ) : ℝ))))) / 14 * (Real.exp (14 * (t + 1)) - 1)
            ∀ t ∈ Icc (-1 : ℝ) 1, |y t - v t| ≤ E t + E 1 / |s 1 + (1 - gamma)| * |s t| := by
  obtain ⟨u, xi, y, it, hu, h1, h2, -, -, -⟩ := C101_ivp2bvp_partial lib hlib N m hN hm basis hb gamma w b fuel hf
  have hr : Ready u := by
    obtain ⟨u', hu', hr, -⟩ := object1 hN hm (basis := basis) (by rcases hb with rfl | rfl <;> decide) (Or.inl rfl) (by norm_num : (-1 : ℝ) < 1) w b
    rw [hu] at hu'
    cases hu'
    exact hr
  have hties := ivp2bvp_ties hN hb hgamma hu hr h2
  refine ⟨u, xi, y, it, hu, h1, h2, hties, fun ε D hε hD v hv hvt v2 s hs hhom s0 s1 hne => ?_⟩
  intro E t ht
  have hy := yields_contDiff (ivp2bvpExpr_smooth u.z gamma (-2) (-2) 2) h2
  have hF : ∀ x ∈ Icc (-1 : ℝ) 1, |missF ivp2bvpF y x| ≤ ε + D * (2 * (Real.pi / (4 * ((N - 1 : ℕ) : ℝ)))) := by
    have hdiff : ∀ x ∈ Icc (-1 : ℝ) 1, DifferentiableAt ℝ (missF ivp2bvpF y) x := fun x hx => by
      have d1 := contDiff_deriv hy
      have a := hy.differentiable (by simp)
      have b := d1.differentiable (by simp)
      have c := (contDiff_deriv d1).differentiable (by simp)
      have h4 : 4 - x ≠ 0 := by linarith [hx.2]
      unfold missF ivp2bvpF
      fun_prop (disch := assumption)
    have h := between1 hN (by norm_num : (-1 : ℝ) < 1) hu hdiff hε hD
    rw [show (1 : ℝ) - -1 = 2 by norm_num] at h
    exact h
  obtain ⟨t1, t2⟩ := hties
  obtain ⟨t3, t4⟩ := hvt
  obtain ⟨k, k0, k1, k2⟩ : ∃ k, y (-1) - v (-1) = k * (gamma * (1 - gamma)) ∧ deriv y (-1) - deriv v (-1) = k * (2 * gamma) ∧
      y 1 - v 1 = -(k * (1 - gamma)) := by
    by_cases hz : gamma = 0
    · subst hz
      exact ⟨-(y 1 - v 1), by linarith, by linarith, by ring⟩
    · have hk : deriv y (-1) - deriv v (-1) = (deriv y (-1) - deriv v (-1)) / (2 * gamma) * (2 * gamma) := by field_simp
      have h5 : y 1 - v 1 = -((deriv y (-1) - deriv v (-1)) / (2 * gamma) * (1 - gamma)) := by
        field_simp
        linarith
      exact ⟨_, by linear_combination t1 - t3 - gamma * h5, hk, h5⟩
  obtain ⟨d1, d2⟩ := shift_solution hv hs k
  have hclose := ivp_close (contDiff_two hy) (v := fun t => v t + k * s t) (hv.add (contDiff_const.mul hs)) (by beta_reduce; rw [s0]; linarith)
    (by rw [d1, s1]; linarith) hF (d2 v2 hhom)
  have c1 := hclose 1 (by norm_num)
  have c2 := hclose t ht
  beta_reduce at c1 c2
  have hk : |k| ≤ E 1 / |s 1 + (1 - gamma)| := by
    rw [le_div_iff₀ (abs_pos.2 hne), ← abs_mul, ← abs_neg]
    refine le_trans (le_of_eq ?_) c1
    congr 1
    linear_combination -k2
  calc |y t - v t| = |(y t - (v t + k * s t)) + k * s t| := by congr 1; ring
    _ ≤ |y t - (v t + k * s t)| + |k * s t| := abs_add_le _ _
    _ ≤ _ := by
      rw [abs_mul]
      exact add_le_add c2 (mul_le_mul_of_nonneg_right hk (abs_nonneg _))

/-- **C101**: where `s 1 + (1 - gamma)` is 0, no bound of this kind is possible, since the problem then has more than one solution: every multiple of `s`
can be added to a solution. -/
theorem C101_ivp2bvp_free (gamma : ℝ) (v s : ℝ → ℝ) (hv : ContDiff ℝ 2 v) (ht : Ties gamma v)
    (h : ∀ t ∈ Icc (-1 : ℝ) 1, missF ivp2bvpF v t = 0) (hs : ContDiff ℝ 2 s) (hh : Homogeneous s) (s0 : s (-1) = gamma * (1 - gamma))
    (s1 : deriv s (-1) = 2 * gamma) (hz : s 1 + (1 - gamma) = 0) (k : ℝ) :
    ContDiff ℝ 2 (fun t => v t + k * s t) ∧ Ties gamma (fun t => v t + k * s t) ∧
      ∀ t ∈ Icc (-1 : ℝ) 1, missF ivp2bvpF (fun t => v t + k * s t) t = 0 := by
  obtain ⟨d1, d2⟩ := shift_solution hv hs k
  obtain ⟨t1, t2⟩ := ht
  refine ⟨hv.add (contDiff_const.mul hs), ⟨?_, ?_⟩, d2 h hh⟩
  · beta_reduce
    linear_combination t1 + k * s0 + k * gamma * hz
  · rw [d1]
    linear_combination t2 + (1 - gamma) * k * s1 + 2 * gamma * k * hz

/-- **C101 for every smooth basis**, IVP2BVP.py: the run ends; unless the start already has defects within the tolerance, the function returned has the
least sum of squared defects among all the object can give; and its distance from any solution of the equation is bounded by the distance of their
initial values and the defects. With the Fourier and the ELM bases the initial values themselves may be wrong (`C77_ivp2bvp_fails`). -/
theorem C101_ivp2bvp_bases (lib : LinAlg) (hlib : LinAlgCorrect lib) (N m : ℕ) (hN : 2 ≤ N) (hm : 2 ≤ m) (basis : String) (hb : basis ∈ smoothNames)
    (gamma : ℝ) (w b : ℕ → ℝ) (fuel : ℕ) (hf : 52 ≤ fuel) :
    ∃ u xi y, ∃ it : ℕ, utfcInit N (.int 2) m basis (some (-1)) (some 1) "C++" w b = .ok u ∧
      runIvp2bvp lib N m gamma basis w b fuel = .ok (some (.arr xi, (it : ℤ))) ∧ Yields u (ivp2bvpExpr u.z gamma (-2) (-2) 2) xi y ∧
      ((∃ t ∈ u.x, (1e-13 : ℝ) < |missF ivp2bvpF (curve (ivp2bvpExpr u.z gamma (-2) (-2) 2) fun _ => 0) t|) →
        Best1 u (ivp2bvpExpr u.z gamma (-2) (-2) 2) ivp2bvpF xi y) ∧
      ∀ ε D δ, (∀ t ∈ u.x, |missF ivp2bvpF y t| ≤ ε) → (∀ t ∈ Icc (-1 : ℝ) 1, |deriv (missF ivp2bvpF y) t| ≤ D) →
        ∀ v : ℝ → ℝ, ContDiff ℝ 2 v → |y (-1) - v (-1)| ≤ δ → |deriv y (-1) - deriv v (-1)| ≤ δ →
          (∀ t ∈ Icc (-1 : ℝ) 1, missF ivp2bvpF v t = 0) →
            ∀ t ∈ Icc (-1 : ℝ) 1, |y t - v t| ≤
              δ * Real.exp (14 * (t + 1)) + (ε + D * (2 * (Real.pi / (4 * ((N - 1 : ℕ) : ℝ))))) / 14 * (Real.exp (14 * (t + 1)) - 1) := by
  obtain ⟨u, hu, hr, hc, hl, -, -, -, -, -⟩ := object1 hN hm hb (Or.inl rfl) (by norm_num : (-1 : ℝ) < 1) w b
  have hs := ivp2bvpExpr_smooth u.z gamma (-2) (-2) 2
  have hlin : LinearF ivp2bvpF := ⟨fun x => 6 * Real.sin (4 * x ^ 2) - Real.exp (Real.cos (3 * x)), fun x => Real.cos (3 * x ^ 2) - 3 * x + 1,
    fun _ => 1, fun x => -(2 * (1 - Real.sin (3 * x)) * (3 * x - Real.pi) / (4 - x)), fun x y y1 y2 => by unfold ivp2bvpF; ring⟩
  obtain ⟨xi, it, ys, h1, h2⟩ := newton1 hlib (method := .pinv) (by decide) hr (by intro e; rw [e] at hl; simp at hl; omega) (by omega) hs
    (F := ivp2bvpF) (fun x => by unfold ivp2bvpF; fun_prop) 1e-13 (by norm_num) 50 true fuel hf
  have hrun : runIvp2bvp lib N m gamma basis w b fuel = .ok (some (.arr xi, (it : ℤ))) := by
    unfold runIvp2bvp
    simp only [hu, bind, Except.bind]
    exact h1
  refine ⟨u, xi, ys it, it, hu, hrun, h2.last, fun hstart => ?_, fun ε D δ hε hD v hv v0 v1 v2 => ?_⟩
  · obtain ⟨xi', y', it', h3, h4⟩ := C101_linear_nlls lib hlib .pinv (by decide) u hr (by omega) _ hs _ hlin 1e-13 (by norm_num) 50 (by norm_num) true
      fuel hf hstart
    rw [h1] at h3
    simp only [Except.ok.injEq, Option.some.injEq, Prod.mk.injEq, View.arr.injEq] at h3
    obtain ⟨rfl, -⟩ := h3
    rw [yields_unique hr h2.last, ← yields_unique hr h4.yields]
    exact h4
  · have hy := yields_contDiff hs h2.last
    refine ivp_close_from (contDiff_two hy) hv v0 v1 ?_ v2
    have hdiff : ∀ x ∈ Icc (-1 : ℝ) 1, DifferentiableAt ℝ (missF ivp2bvpF (ys it)) x := fun x hx => by
      have d1 := contDiff_deriv hy
      have a := hy.differentiable (by simp)
      have b := d1.differentiable (by simp)
      have c := (contDiff_deriv d1).differentiable (by simp)
      have h4 : 4 - x ≠ 0 := by linarith [hx.2]
      unfold missF ivp2bvpF
      fun_prop (disch := assumption)
    have h := between1 hN (by norm_num : (-1 : ℝ) < 1) hu hdiff hε hD
    rw [show (1 : ℝ) - -1 = 2 by norm_num] at h
    exact h

/-- **C101 for small `gamma`**, IVP2BVP.py: as long as `2 gamma exp 28 / (1 - gamma)` is at most 1/2, the bound needs no second
function. -/
theorem C101_ivp2bvp_small (lib : LinAlg) (hlib : LinAlgCorrect lib) (N m : ℕ) (hN : 2 ≤ N) (hm : 2 ≤ m) (basis : String)
    (hb : basis = "CP" ∨ basis = "LeP") (gamma : ℝ) (h0 : 0 ≤ gamma) (h1 : gamma < 1) (hsmall : 2 * gamma / (1 - gamma) * Real.exp 28 ≤ 1 / 2)
    (w b : ℕ → ℝ) (fuel : ℕ) (hf : 52 ≤ fuel) :
    ∃ u xi y, ∃ it : ℕ, utfcInit N (.int 2) m basis (some (-1)) (some 1) "C++" w b = .ok u ∧
      runIvp2bvp lib N m gamma basis w b fuel = .ok (some (.arr xi, (it : ℤ))) ∧ Yields u (ivp2bvpExpr u.z gamma (-2) (-2) 2) xi y ∧
      ∀ ε D, (∀ t ∈ u.x, |missF ivp2bvpF y t| ≤ ε) → (∀ t ∈ Icc (-1 : ℝ) 1, |deriv (missF ivp2bvpF y) t| ≤ D) →
        ∀ v : ℝ → ℝ, ContDiff ℝ 2 v → Ties gamma v → (∀ t ∈ Icc (-1 : ℝ) 1, missF ivp2bvpF v t = 0) →
          let E := fun t => (ε + D * (2 * (Real.pi / (4 * ((N - 1 : ℕ) : ℝ))))) / 14 * (Real.exp (14 * (t + 1)) - 1)
          ∀ t ∈ Icc (-1 : ℝ) 1, |y t - v t| ≤ E t + 2 * gamma / (1 - gamma) * Real.exp (14 * (t + 1)) * (2 * E 1) := by
  have hgamma : 1 + 4 * gamma - gamma ^ 2 ≠ 0 := by nlinarith
  have hpos : 0 < 1 - gamma := by linarith
  obtain ⟨u, xi, y, it, hu, hrun, h2, -, herr⟩ := C101_ivp2bvp_bases lib hlib N m hN hm basis (by rcases hb with rfl | rfl <;> decide) gamma w b fuel hf
  have hr : Ready u := by
    obtain ⟨u', hu', hr, -⟩ := object1 hN hm (basis := basis) (by rcases hb with rfl | rfl <;> decide) (Or.inl rfl) (by norm_num : (-1 : ℝ) < 1) w b
    rw [hu] at hu'
    cases hu'
    exact hr
  obtain ⟨t1, t2⟩ := ivp2bvp_ties hN hb hgamma hu hr h2
  refine ⟨u, xi, y, it, hu, hrun, h2, fun ε D hε hD v hv ⟨t3, t4⟩ v2 => ?_⟩
  intro E t ht
  obtain ⟨c, hc⟩ : ∃ c, c = 2 * gamma / (1 - gamma) := ⟨_, rfl⟩
  have hc0 : 0 ≤ c := by rw [hc]; positivity
  have hcg : gamma ≤ c := by
    rw [hc, le_div_iff₀ hpos]
    nlinarith
  have a0 : |y (-1) - v (-1)| ≤ c * |y 1 - v 1| := by
    rw [show y (-1) - v (-1) = -(gamma * (y 1 - v 1)) by linear_combination t1 - t3, abs_neg, abs_mul, abs_of_nonneg h0]
    exact mul_le_mul_of_nonneg_right hcg (abs_nonneg _)
  have a1 : |deriv y (-1) - deriv v (-1)| ≤ c * |y 1 - v 1| := by
    rw [show deriv y (-1) - deriv v (-1) = -(c * (y 1 - v 1)) by
      rw [hc]
      field_simp
      linear_combination t2 - t4, abs_neg, abs_mul, abs_of_nonneg hc0]
  have hE := herr ε D _ hε hD v hv a0 a1 v2
  have e1 := hE 1 (by norm_num)
  rw [show (14 : ℝ) * (1 + 1) = 28 by norm_num] at e1
  rw [← hc] at hsmall ⊢
  have hz : |y 1 - v 1| ≤ 2 * E 1 := by
    have : c * |y 1 - v 1| * Real.exp 28 ≤ 1 / 2 * |y 1 - v 1| := by
      have := mul_le_mul_of_nonneg_right hsmall (abs_nonneg (y 1 - v 1))
      linarith
    have hE1 : E 1 = (ε + D * (2 * (Real.pi / (4 * ((N - 1 : ℕ) : ℝ))))) / 14 * (Real.exp 28 - 1) := by
      simp only [E]
      norm_num
    rw [hE1]
    linarith
  have e2 := hE t ht
  have e3 : c * |y 1 - v 1| * Real.exp (14 * (t + 1)) ≤ c * Real.exp (14 * (t + 1)) * (2 * E 1) := by
    have := mul_le_mul_of_nonneg_left hz (mul_nonneg hc0 (Real.exp_pos (14 * (t + 1))).le)
    linarith
  exact e2.trans (by rw [add_comm]; exact add_le_add le_rfl e3)

/-- A value of `gamma` other than 0 for which this holds. -/
example : ∃ gamma : ℝ, 0 < gamma ∧ gamma < 1 ∧ 2 * gamma / (1 - gamma) * Real.exp 28 ≤ 1 / 2 := by
  have h := Real.exp_pos 28
  have h1 : 1 ≤ Real.exp 28 := Real.one_le_exp (by norm_num)
  refine ⟨1 / (8 * Real.exp 28), by positivity, ?_, ?_⟩
  · rw [div_lt_one (by positivity)]
    linarith
  · have hq : 1 / (8 * Real.exp 28) ≤ 1 / 8 := one_div_le_one_div_of_le (by norm_num) (by linarith)
    rw [div_mul_eq_mul_div, div_le_iff₀ (by linarith), show 2 * (1 / (8 * Real.exp 28)) * Real.exp 28 = 1 / 4 by field_simp; norm_num]
    linarith

/-- For `gamma = 0` the function 0 is the solution asked for, and the number that must not vanish is 1. -/
example : ContDiff ℝ 2 (fun _ : ℝ => (0 : ℝ)) ∧ Homogeneous (fun _ => 0) ∧ (0 : ℝ) = 0 * (1 - 0) ∧ deriv (fun _ : ℝ => (0 : ℝ)) (-1) = 2 * 0 ∧
    (0 : ℝ) + (1 - 0) ≠ 0 :=
  ⟨contDiff_const, fun x _ => by simp, by norm_num, by simp, by norm_num⟩

end Verif.Props
