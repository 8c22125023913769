import Verif.Props.Propagate
import Mathlib.Analysis.ODE.Gronwall

/-!
# From the residual to the error for equations in the form `y'' = G(x, y, y')`

The programs whose equations have no special form: the equation of IVP2BVP.py between initial and boundary values, the forced oscillator of Problem_2.py,
and the brachistochrone of Problem_4.py, for which the invariant of the cycloid takes the place of the exact solution.
-/

namespace Verif.Props

open Set Polynomial Verif Verif.Mem Verif.Py Verif.Np Verif.Spec Verif.Model Verif.Model.Py Verif.Model.LSq Verif.Model.Prog Verif.Lemmas.LSq
open scoped ContDiff

/-- Two functions whose second derivatives differ by at most `K` times their distance in value or slope, plus `R`. -/
theorem gronwall2 {a b K R δ : ℝ} (hK : 1 ≤ K) (hR : 0 ≤ R) {y v : ℝ → ℝ} (hy : ContDiff ℝ 2 y) (hv : ContDiff ℝ 2 v)
    (h0 : |y a - v a| ≤ δ) (h1 : |deriv y a - deriv v a| ≤ δ)
    (h : ∀ x ∈ Icc a b, |deriv (deriv y) x - deriv (deriv v) x| ≤ K * max |y x - v x| |deriv y x - deriv v x| + R) :
    ∀ x ∈ Icc a b, |y x - v x| ≤ gronwallBound δ K R (x - a) ∧ |deriv y x - deriv v x| ≤ gronwallBound δ K R (x - a) := by
  have hd : ∀ x, HasDerivAt (fun x => (y x - v x, deriv y x - deriv v x)) (deriv y x - deriv v x, deriv (deriv y) x - deriv (deriv v) x) x :=
    fun x => ((hasDeriv1 hy x).sub (hasDeriv1 hv x)).prodMk ((hasDeriv2 hy x).sub (hasDeriv2 hv x))
  have hb := norm_le_gronwallBound_of_norm_deriv_right_le (δ := δ) (K := K) (ε := R) (a := a) (b := b)
    (fun x _ => (hd x).continuousAt.continuousWithinAt) (fun x _ => (hd x).hasDerivWithinAt) (by
      rw [Prod.norm_def]
      exact max_le h0 h1) (fun x hx => by
      rw [Prod.norm_def, Prod.norm_def]
      simp only [Real.norm_eq_abs]
      refine max_le ?_ (h x ⟨hx.1, hx.2.le⟩)
      have h2 := le_max_right |y x - v x| |deriv y x - deriv v x|
      have h3 : 0 ≤ max |y x - v x| |deriv y x - deriv v x| := (abs_nonneg _).trans h2
      nlinarith)
  intro x hx
  have := hb x hx
  rw [Prod.norm_def] at this
  exact ⟨(le_max_left _ _).trans this, (le_max_right _ _).trans this⟩

theorem gronwall_join {K : ℝ} (hK : K ≠ 0) (δ R s t : ℝ) : gronwallBound (gronwallBound δ K R s) K R t = gronwallBound δ K R (s + t) := by
  simp only [gronwallBound_of_K_ne_0 hK, mul_add, Real.exp_add]
  ring

/-! ## Between initial and boundary values -/

/-- The equation of IVP2BVP.py 66–68, written out. -/
theorem ivp2bvp_equation (y : ℝ → ℝ) (x : ℝ) :
    missF ivp2bvpF y x = deriv (deriv y) x + (Real.cos (3 * x ^ 2) - 3 * x + 1) * deriv y x
      + (6 * Real.sin (4 * x ^ 2) - Real.exp (Real.cos (3 * x))) * y x - 2 * (1 - Real.sin (3 * x)) * (3 * x - Real.pi) / (4 - x) := rfl

/-- **C101, from the initial values**, J/Chapter_4/Example_4_11/IVP2BVP.py with `gamma = 0`: if the defects at the points are at most `ε` and
change by at most `D`, the function returned differs from every solution of the initial value problem by at most the given bound. -/
theorem C101_ivp_error (lib : LinAlg) (hlib : LinAlgCorrect lib) (N m : ℕ) (hN : 2 ≤ N) (hm : 2 ≤ m) (basis : String)
    (hb : basis = "CP" ∨ basis = "LeP") (w b : ℕ → ℝ) (fuel : ℕ) (hf : 52 ≤ fuel) :
    ∃ u xi y, ∃ it : ℕ, utfcInit N (.int 2) m basis (some (-1)) (some 1) "C++" w b = .ok u ∧
      runIvp2bvp lib N m 0 basis w b fuel = .ok (some (.arr xi, (it : ℤ))) ∧ Yields u (ivp2bvpExpr u.z 0 (-2) (-2) 2) xi y ∧
      ∀ ε D, (∀ t ∈ u.x, |missF ivp2bvpF y t| ≤ ε) → (∀ t ∈ Icc (-1 : ℝ) 1, |deriv (missF ivp2bvpF y) t| ≤ D) →
        ∀ v : ℝ → ℝ, ContDiff ℝ 2 v → v (-1) = -2 → deriv v (-1) = -2 → (∀ t ∈ Icc (-1 : ℝ) 1, missF ivp2bvpF v t = 0) →
          ∀ t ∈ Icc (-1 : ℝ) 1, |y t - v t| ≤ (ε + D * (2 * (Real.pi / (4 * ((N - 1 : ℕ) : ℝ))))) / 14 * (Real.exp (14 * (t + 1)) - 1) := by
  obtain ⟨u, xi, y, it, hu, h1, h2, -, h3, -⟩ := C101_ivp2bvp_partial lib hlib N m hN hm basis hb 0 w b fuel hf
  refine ⟨u, xi, y, it, hu, h1, h2, fun ε D hε hD v hv v0 v1 v2 t ht => ?_⟩
  have hr : Ready u := by
    obtain ⟨u', hu', hr, -⟩ := object1 hN hm (basis := basis) (by rcases hb with rfl | rfl <;> decide) (Or.inl rfl) (by norm_num : (-1 : ℝ) < 1) w b
    rw [hu] at hu'
    cases hu'
    exact hr
  have hy := yields_contDiff (ivp2bvpExpr_smooth u.z 0 (-2) (-2) 2) h2
  obtain ⟨R, hR⟩ : ∃ R, R = ε + D * (2 * (Real.pi / (4 * ((N - 1 : ℕ) : ℝ)))) := ⟨_, rfl⟩
  have hF : ∀ x ∈ Icc (-1 : ℝ) 1, |missF ivp2bvpF y x| ≤ R := by
    have hdiff : ∀ x ∈ Icc (-1 : ℝ) 1, DifferentiableAt ℝ (missF ivp2bvpF y) x := fun x hx => by
      have d1 := contDiff_deriv hy
      have a := hy.differentiable (by simp)
      have b := d1.differentiable (by simp)
      have c := (contDiff_deriv d1).differentiable (by simp)
      have h4 : 4 - x ≠ 0 := by linarith [hx.2]
      unfold missF ivp2bvpF
      fun_prop (disch := assumption)
    have h := between1 hN (by norm_num : (-1 : ℝ) < 1) hu hdiff hε hD
    rw [show (1 : ℝ) - -1 = 2 by norm_num] at h
    rw [hR]
    exact h
  have hg := gronwall2 (a := -1) (b := 1) (K := 14) (R := R) (δ := 0) (by norm_num) ((abs_nonneg _).trans (hF t ht)) (contDiff_two hy) hv
    (by rw [(h3 rfl).1, v0]; simp) (by rw [(h3 rfl).2, v1]; simp) (fun x hx => by
      have e1 := ivp2bvp_equation y x
      have e2 := ivp2bvp_equation v x
      rw [v2 x hx] at e2
      obtain ⟨p, hp⟩ : ∃ p, p = Real.cos (3 * x ^ 2) - 3 * x + 1 := ⟨_, rfl⟩
      obtain ⟨q, hq⟩ : ∃ q, q = 6 * Real.sin (4 * x ^ 2) - Real.exp (Real.cos (3 * x)) := ⟨_, rfl⟩
      rw [← hp, ← hq] at e1 e2
      have hp' : |p| ≤ 5 := by
        rw [hp, abs_le]
        constructor <;> linarith [Real.neg_one_le_cos (3 * x ^ 2), Real.cos_le_one (3 * x ^ 2), hx.1, hx.2]
      have hq' : |q| ≤ 9 := by
        have h1 : Real.exp (Real.cos (3 * x)) ≤ Real.exp 1 := Real.exp_le_exp.2 (Real.cos_le_one _)
        have h2 := Real.exp_one_lt_d9
        rw [hq, abs_le]
        constructor <;> linarith [Real.neg_one_le_sin (4 * x ^ 2), Real.sin_le_one (4 * x ^ 2), Real.exp_pos (Real.cos (3 * x))]
      have e : deriv (deriv y) x - deriv (deriv v) x = missF ivp2bvpF y x - p * (deriv y x - deriv v x) - q * (y x - v x) := by linarith
      have b1 : |p * (deriv y x - deriv v x)| ≤ 5 * max |y x - v x| |deriv y x - deriv v x| := by
        rw [abs_mul]
        exact mul_le_mul hp' (le_max_right _ _) (abs_nonneg _) (by norm_num)
      have b2 : |q * (y x - v x)| ≤ 9 * max |y x - v x| |deriv y x - deriv v x| := by
        rw [abs_mul]
        exact mul_le_mul hq' (le_max_left _ _) (abs_nonneg _) (by norm_num)
      rw [e]
      calc _ ≤ |missF ivp2bvpF y x| + |p * (deriv y x - deriv v x)| + |q * (y x - v x)| :=
            (abs_sub _ _).trans (add_le_add_left (abs_sub _ _) _)
        _ ≤ _ := by linarith [hF x hx])
  have := (hg t ht).1
  rw [gronwallBound_of_K_ne_0 (by norm_num)] at this
  beta_reduce at this
  rw [zero_mul, zero_add, sub_neg_eq_add, hR] at this
  exact this

/-- A case: the solution with 50 points. -/
example (lib : LinAlg) (hlib : LinAlgCorrect lib) : ∃ xi, ∃ it : ℕ, runIvp2bvp lib 50 40 0 "CP" (fun _ => 0) (fun _ => 0) 52 = .ok (some (.arr xi, (it : ℤ))) := by
  obtain ⟨u, xi, y, it, -, h, -⟩ := C101_ivp_error lib hlib 50 40 (by norm_num) (by norm_num) "CP" (Or.inl rfl) (fun _ => 0) (fun _ => 0) 52 le_rfl
  exact ⟨xi, it, h⟩

/-! ## The forced oscillator -/

/-- By how much the function of a step misses the equation with the force of the step; the equation posed if the step begins at time 0. -/
theorem duff_equation (p : DuffPar) (y : ℝ → ℝ) (t : ℝ) :
    missF (duffF p) y t = deriv (deriv y) t + p.delta * deriv y t + p.alpha * y t + p.beta * y t ^ 3 - p.gamma * Real.cos (p.omega * t) := rfl

/-- Functions joined to each other, and solutions joined to each other. -/
theorem duff_march (p : DuffPar) {L R B K : ℝ} (hL : 0 ≤ L) (hK : 1 ≤ K) (hKB : |p.delta| + |p.alpha| + 3 * |p.beta| * B ^ 2 ≤ K) {n : ℕ} {ys vs : ℕ → ℝ → ℝ}
    (hy : ∀ i < n, ContDiff ℝ 2 (ys i)) (hv : ∀ i < n, ContDiff ℝ 2 (vs i))
    (h0 : 0 < n → ys 0 0 = vs 0 0 ∧ deriv (ys 0) 0 = deriv (vs 0) 0)
    (jy : ∀ i, i + 1 < n → ys (i + 1) 0 = ys i L ∧ deriv (ys (i + 1)) 0 = deriv (ys i) L)
    (jv : ∀ i, i + 1 < n → vs (i + 1) 0 = vs i L ∧ deriv (vs (i + 1)) 0 = deriv (vs i) L)
    (hR : ∀ i < n, ∀ t ∈ Icc 0 L, |missF (duffF p) (ys i) t| ≤ R) (hs : ∀ i < n, ∀ t ∈ Icc 0 L, missF (duffF p) (vs i) t = 0)
    (hB : ∀ i < n, ∀ t ∈ Icc 0 L, |ys i t| ≤ B ∧ |vs i t| ≤ B) :
    ∀ i < n, ∀ t ∈ Icc 0 L, |ys i t - vs i t| ≤ R / K * (Real.exp (K * (i * L + t)) - 1) ∧
      |deriv (ys i) t - deriv (vs i) t| ≤ R / K * (Real.exp (K * (i * L + t)) - 1) := by
  have hK0 : K ≠ 0 := by linarith
  have hstep : ∀ i < n, ∀ δ, |ys i 0 - vs i 0| ≤ δ → |deriv (ys i) 0 - deriv (vs i) 0| ≤ δ → ∀ t ∈ Icc 0 L,
      |ys i t - vs i t| ≤ gronwallBound δ K R t ∧ |deriv (ys i) t - deriv (vs i) t| ≤ gronwallBound δ K R t := by
    intro i hi δ d0 d1 t ht
    have h := gronwall2 (a := 0) (b := L) hK ((abs_nonneg _).trans (hR i hi t ht)) (hy i hi) (hv i hi) d0 d1 (fun x hx => by
      have e1 := duff_equation p (ys i) x
      have e2 := duff_equation p (vs i) x
      rw [hs i hi x hx] at e2
      obtain ⟨b1, b2⟩ := hB i hi x hx
      generalize deriv (deriv (ys i)) x = y2 at *
      generalize deriv (deriv (vs i)) x = v2 at *
      generalize deriv (ys i) x = y1 at *
      generalize deriv (vs i) x = v1 at *
      generalize ys i x = y at *
      generalize vs i x = v at *
      obtain ⟨M, hM⟩ : ∃ M, M = max |y - v| |y1 - v1| := ⟨_, rfl⟩
      rw [← hM]
      have m1 : |y - v| ≤ M := hM ▸ le_max_left _ _
      have m2 : |y1 - v1| ≤ M := hM ▸ le_max_right _ _
      have e : y2 - v2 = missF (duffF p) (ys i) x - p.delta * (y1 - v1) - p.alpha * (y - v) - p.beta * ((y - v) * (y ^ 2 + y * v + v ^ 2)) := by
        linear_combination e2 - e1
      have q : |y ^ 2 + y * v + v ^ 2| ≤ 3 * B ^ 2 := by
        have c1 := abs_le.1 b1
        have c2 := abs_le.1 b2
        rw [abs_le]
        constructor <;> nlinarith [sq_nonneg (y + v), sq_nonneg y, sq_nonneg v, sq_abs y, sq_abs v, abs_nonneg y, abs_nonneg v, mul_self_nonneg (y - v)]
      have a1 : |p.delta * (y1 - v1)| ≤ |p.delta| * M := by
        rw [abs_mul]
        exact mul_le_mul_of_nonneg_left m2 (abs_nonneg _)
      have a2 : |p.alpha * (y - v)| ≤ |p.alpha| * M := by
        rw [abs_mul]
        exact mul_le_mul_of_nonneg_left m1 (abs_nonneg _)
      have hM0 : 0 ≤ M := (abs_nonneg _).trans m1
      have a3 : |p.beta * ((y - v) * (y ^ 2 + y * v + v ^ 2))| ≤ |p.beta| * (M * (3 * B ^ 2)) := by
        rw [abs_mul, abs_mul]
        exact mul_le_mul_of_nonneg_left (mul_le_mul m1 q (abs_nonneg _) hM0) (abs_nonneg _)
      have a4 := mul_le_mul_of_nonneg_right hKB hM0
      have a5 := hR i hi x hx
      rw [e]
      refine (abs_sub _ _).trans ?_
      have a6 := (abs_sub (missF (duffF p) (ys i) x - p.delta * (y1 - v1)) (p.alpha * (y - v)))
      have a7 := abs_sub (missF (duffF p) (ys i) x) (p.delta * (y1 - v1))
      linarith) t ht
    rwa [sub_zero] at h
  have hall : ∀ i < n, |ys i 0 - vs i 0| ≤ gronwallBound 0 K R (i * L) ∧ |deriv (ys i) 0 - deriv (vs i) 0| ≤ gronwallBound 0 K R (i * L) := by
    intro i
    induction i with
    | zero =>
      intro h
      rw [(h0 h).1, (h0 h).2]
      simp [gronwallBound_x0]
    | succ i ih =>
      intro h
      obtain ⟨d0, d1⟩ := ih (by omega)
      have := hstep i (by omega) _ d0 d1 L ⟨hL, le_rfl⟩
      rw [gronwall_join hK0] at this
      rw [(jy i h).1, (jy i h).2, (jv i h).1, (jv i h).2]
      push_cast
      rwa [add_mul, one_mul]
  intro i hi t ht
  have h := hstep i hi _ (hall i hi).1 (hall i hi).2 t ht
  rw [gronwall_join hK0, gronwallBound_of_K_ne_0 hK0] at h
  beta_reduce at h
  rwa [zero_mul, zero_add] at h

/-- **C102, the forced oscillator, error.** If the defects at the points are at most `ε` and change by at most `D`, the functions of Problem_2.py differ from every
sequence of joined solutions of the equation with the force of the step by at most the given bound. For the first step alone this is the
distance from the solution of the problem posed. -/
theorem C102_duffing_error (lib : LinAlg) (hlib : LinAlgCorrect lib) (N m : ℕ) (hN : 1 ≤ N) (hm : 1 ≤ m) (basis : String) (hb : basis ∈ smoothNames) (X : ℝ)
    (hX : 0 < X) (Nstep : ℕ) (hn : 1 ≤ Nstep) (y0 y0p : ℝ) (p : DuffPar) (wt b : ℕ → ℝ) (fuel : ℕ) (hf : 52 ≤ fuel) :
    ∃ u s ys, utfcInit (N + 1) (.int 2) (m + 1) basis (some 0) (some (X / Nstep)) "C++" wt b = .ok u ∧
      runDuffing lib N m basis X Nstep y0 y0p p wt b fuel = .ok (some s) ∧ Marched u (duffF p) (X / Nstep) y0 y0p Nstep ys s ∧
      ∀ n ≤ Nstep, ∀ ε D B K, 1 ≤ K → |p.delta| + |p.alpha| + 3 * |p.beta| * B ^ 2 ≤ K →
        (∀ i < n, ∀ t ∈ u.x, |missF (duffF p) (ys i) t| ≤ ε) → (∀ i < n, ∀ t ∈ Icc 0 (X / Nstep), |deriv (missF (duffF p) (ys i)) t| ≤ D) →
        ∀ vs : ℕ → ℝ → ℝ, (∀ i < n, ContDiff ℝ 2 (vs i)) → (0 < n → vs 0 0 = y0 ∧ deriv (vs 0) 0 = y0p) →
          (∀ i, i + 1 < n → vs (i + 1) 0 = vs i (X / Nstep) ∧ deriv (vs (i + 1)) 0 = deriv (vs i) (X / Nstep)) →
          (∀ i < n, ∀ t ∈ Icc 0 (X / Nstep), missF (duffF p) (vs i) t = 0) →
          (∀ i < n, ∀ t ∈ Icc 0 (X / Nstep), |ys i t| ≤ B ∧ |vs i t| ≤ B) →
          ∀ i < n, ∀ t ∈ Icc 0 (X / Nstep), |ys i t - vs i t| ≤
            (ε + D * (X / Nstep * (Real.pi / (4 * (N : ℝ))))) / K * (Real.exp (K * (i * (X / Nstep) + t)) - 1) := by
  have hL : 0 < X / Nstep := div_pos hX (by exact_mod_cast hn)
  obtain ⟨u, s, ys, hu, h1, h2, -, -⟩ := C102_duffing_partial lib hlib N m hN hm basis hb X hX Nstep hn y0 y0p p wt b fuel hf
  refine ⟨u, s, ys, hu, h1, h2, fun n hn' ε D B K hK hKB hε hD vs hv h0 jv hs hB i hi t ht => ?_⟩
  refine (duff_march p hL.le hK hKB (fun i hi => contDiff_two (h2.smooth i (by omega))) hv (fun h => ?_) (fun i hi => h2.join i (by omega)) jv (fun i hi => ?_)
    hs hB i hi t ht).1
  · rw [(h2.start (by omega)).1, (h2.start (by omega)).2, (h0 h).1, (h0 h).2]
    exact ⟨rfl, rfl⟩
  · have h := between1 (by omega) hL hu (F := duffF p) (fun t _ => missF_diff (by unfold duffF; fun_prop) (h2.smooth i (by omega)) t) (hε i hi) (hD i hi)
    rw [sub_zero, Nat.add_sub_cancel] at h
    exact h

/-! ## The brachistochrone -/

/-- The depth under the start, times the squared speed along the curve over the squared horizontal speed: constant along a cycloid, the curve of fastest
descent. `X` is the horizontal distance and `Y` the depth, as functions of the angle. -/
noncomputable def cycloidInvariant (X Y : ℝ → ℝ) (th : ℝ) : ℝ := Y th * (deriv X th ^ 2 + deriv Y th ^ 2) / deriv X th ^ 2

/-- **C101, the equation of the brachistochrone**, B/Chapter_3/Problem_4.py 28–29: in the coordinates `X = r sin θ`, `Y = r cos θ` that the program plots
(line 40), the residual is the Euler–Lagrange equation of the fastest descent, `X'(X'² + Y'²) + 2Y(X'Y'' − Y'X'') = 0`, up to the factor `−cos θ`; and
it is the rate at which the invariant of the cycloid changes, up to the factor `−cos θ Y'/X'³`. -/
theorem C101_brachistochrone_equation (r : ℝ → ℝ) (hr : ContDiff ℝ 2 r) (th : ℝ) (hc : Real.cos th ≠ 0) (X Y : ℝ → ℝ) (hX : X = fun th => r th * Real.sin th)
    (hY : Y = fun th => r th * Real.cos th) :
    deriv X th * (deriv X th ^ 2 + deriv Y th ^ 2) + 2 * Y th * (deriv X th * deriv (deriv Y) th - deriv Y th * deriv (deriv X) th) =
        -Real.cos th * missF brachF r th ∧
      (deriv X th ≠ 0 → HasDerivAt (cycloidInvariant X Y) (-Real.cos th * deriv Y th / deriv X th ^ 3 * missF brachF r th) th) := by
  have x1 : deriv X = fun th => deriv r th * Real.sin th + r th * Real.cos th := by
    rw [hX]
    exact funext fun t => ((hasDeriv1 hr t).mul (Real.hasDerivAt_sin t)).deriv
  have y1 : deriv Y = fun th => deriv r th * Real.cos th + r th * -Real.sin th := by
    rw [hY]
    exact funext fun t => ((hasDeriv1 hr t).mul (Real.hasDerivAt_cos t)).deriv
  have hx1 : HasDerivAt (deriv X) (deriv (deriv r) th * Real.sin th + deriv r th * Real.cos th + (deriv r th * Real.cos th + r th * -Real.sin th)) th := by
    rw [x1]
    exact ((hasDeriv2 hr th).mul (Real.hasDerivAt_sin th)).add ((hasDeriv1 hr th).mul (Real.hasDerivAt_cos th))
  have hy1 : HasDerivAt (deriv Y) (deriv (deriv r) th * Real.cos th + deriv r th * -Real.sin th + (deriv r th * -Real.sin th + r th * -Real.cos th)) th := by
    rw [y1]
    exact ((hasDeriv2 hr th).mul (Real.hasDerivAt_cos th)).add ((hasDeriv1 hr th).mul (Real.hasDerivAt_sin th).neg)
  have hy0 : HasDerivAt Y (deriv Y th) th := by
    rw [y1, hY]
    exact (hasDeriv1 hr th).mul (Real.hasDerivAt_cos th)
  have e : deriv X th * (deriv X th ^ 2 + deriv Y th ^ 2) + 2 * Y th * (deriv X th * deriv (deriv Y) th - deriv Y th * deriv (deriv X) th) =
        -Real.cos th * missF brachF r th := by
    rw [hx1.deriv, hy1.deriv, x1, y1, hY]
    unfold missF brachF
    rw [Real.tan_eq_sin_div_cos]
    beta_reduce
    have hs := Real.sin_sq_add_cos_sq th
    generalize deriv (deriv r) th = r2
    generalize deriv r th = r1
    generalize r th = r0
    generalize Real.sin th = s at *
    generalize Real.cos th = c at *
    have h1 : (r1 * s + r0 * c) ^ 2 + (r1 * c + r0 * -s) ^ 2 = r1 ^ 2 + r0 ^ 2 := by linear_combination (r1 ^ 2 + r0 ^ 2) * hs
    have h2 : (r1 * s + r0 * c) * (r2 * c + r1 * -s + (r1 * -s + r0 * -c)) - (r1 * c + r0 * -s) * (r2 * s + r1 * c + (r1 * c + r0 * -s)) =
        -(r0 ^ 2 + 2 * r1 ^ 2 - r0 * r2) := by linear_combination -(r0 ^ 2 + 2 * r1 ^ 2 - r0 * r2) * hs
    rw [h1, h2]
    field_simp
    ring
  refine ⟨e, fun hx => ?_⟩
  have hx1' := hx1.differentiableAt.hasDerivAt
  have hy1' := hy1.differentiableAt.hasDerivAt
  refine ((hy0.mul ((hx1'.pow 2).add (hy1'.pow 2))).div (hx1'.pow 2) (pow_ne_zero 2 hx)).congr_deriv ?_
  rw [show -Real.cos th * deriv Y th / deriv X th ^ 3 * missF brachF r th = deriv Y th / deriv X th ^ 3 * (-Real.cos th * missF brachF r th) by ring, ← e]
  simp only [Pi.mul_apply, Pi.add_apply, Pi.pow_apply]
  field_simp
  ring

/-- **C101, the brachistochrone, error.** The curve returned goes through both points, and along any piece of it on which it moves sideways the invariant of
the cycloid changes by at most `B ε` per unit of angle, where `ε` bounds the residual there and `B` the factor of `C101_brachistochrone_equation`. -/
theorem C101_brachistochrone_error (lib : LinAlg) (hlib : LinAlgCorrect lib) (n m : ℕ) (hn : 2 ≤ n) (hm : 2 ≤ m) (th0 thf r0 rf : ℝ) (ht : th0 < thf)
    (w b : ℕ → ℝ) (fuel : ℕ) (hf : 52 ≤ fuel) :
    ∃ u xi r, ∃ it : ℕ, utfcInit n (.int 2) m "CP" (some th0) (some thf) "C++" w b = .ok u ∧
      runBrachistochrone lib n m th0 thf r0 rf w b fuel = .ok (some (.arr xi, (it : ℤ))) ∧ Yields u (brachExpr th0 thf r0 rf) xi r ∧ r th0 = r0 ∧ r thf = rf ∧
      ∀ X Y : ℝ → ℝ, X = (fun th => r th * Real.sin th) → Y = (fun th => r th * Real.cos th) → ∀ a c B ε, a ≤ c →
        (∀ th ∈ Icc a c, Real.cos th ≠ 0 ∧ deriv X th ≠ 0 ∧ |Real.cos th * deriv Y th / deriv X th ^ 3| ≤ B) → (∀ th ∈ Icc a c, |missF brachF r th| ≤ ε) →
          |cycloidInvariant X Y c - cycloidInvariant X Y a| ≤ B * ε * (c - a) := by
  obtain ⟨u, xi, ys, it, hu, h1, h2, h3, h4⟩ := C101_brachistochrone lib hlib n m hn hm th0 thf r0 rf ht w b fuel hf
  refine ⟨u, xi, ys it, it, hu, h1, h2.last, h3, h4, fun X Y hX hY a c B ε hac hB hε => ?_⟩
  have hr := contDiff_two (yields_contDiff (brachExpr_smooth th0 thf r0 rf) h2.last)
  have hm := (convex_Icc a c).norm_image_sub_le_of_norm_hasDerivWithin_le (f := cycloidInvariant X Y) (C := B * ε)
    (fun th hth => ((C101_brachistochrone_equation _ hr th (hB th hth).1 X Y hX hY).2 (hB th hth).2.1).hasDerivWithinAt) (fun th hth => by
      rw [Real.norm_eq_abs, abs_mul, neg_mul, neg_div, abs_neg]
      exact mul_le_mul (hB th hth).2.2 (hε th hth) (abs_nonneg _) ((abs_nonneg _).trans (hB th hth).2.2)) (left_mem_Icc.2 hac) (right_mem_Icc.2 hac)
  rwa [Real.norm_eq_abs, Real.norm_eq_abs, abs_of_nonneg (sub_nonneg.2 hac)] at hm

/-- A case: the circle `r = 1` at the angle 0 has the residual 1 and a horizontal speed of 1. -/
example : missF brachF (fun _ => 1) 0 = 1 ∧ deriv (fun th => 1 * Real.sin th) 0 ≠ 0 := by
  constructor
  · simp [missF, brachF]
  · simp

end Verif.Props
