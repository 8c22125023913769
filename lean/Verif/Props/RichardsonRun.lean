import Verif.Props.Richardson

/-!
# The two functions of Richardson's approximation, from the mass ratio to the table of states
-/

namespace Verif.Props

open Set Verif Verif.Py Verif.Spec Verif.Model.Py Verif.Lemmas
open scoped ContDiff

/-! ## The first root -/

theorem polyLambda_at (c2 : ℝ) (z : ℂ) : polyAt (polyLambda c2) z = z ^ 4 + ((c2 : ℂ) - 2) * z ^ 2 - ((c2 : ℂ) - 1) * (1 + 2 * (c2 : ℂ)) := by
  simp only [polyAt, polyLambda, List.foldl_cons, List.foldl_nil]
  push_cast
  ring

/-- A root is real and not 0, or has the real part 0. -/
theorem root_kinds {c2 : ℝ} (hc : 1 < c2) {r : ℂ} (hr : polyAt (polyLambda c2) r = 0) :
    (r.im = 0 ∧ r.re ≠ 0 ∧ r.re ^ 4 + (c2 - 2) * r.re ^ 2 - (c2 - 1) * (1 + 2 * c2) = 0) ∨ (r.im ≠ 0 ∧ r.re = 0) := by
  rw [polyLambda_at] at hr
  by_cases hi : r.im = 0
  · left
    have e : ((r.re : ℝ) : ℂ) = r := Complex.ext rfl (by simp [hi])
    rw [← e] at hr
    have h : r.re ^ 4 + (c2 - 2) * r.re ^ 2 - (c2 - 1) * (1 + 2 * c2) = 0 := by exact_mod_cast hr
    refine ⟨hi, fun h0 => ?_, h⟩
    rw [h0] at h
    nlinarith
  · right
    refine ⟨hi, ?_⟩
    set w := 2 * r ^ 2 + ((c2 : ℂ) - 2) with hw
    have hD : w ^ 2 = ((9 * c2 ^ 2 - 8 * c2 : ℝ) : ℂ) := by
      push_cast
      rw [hw]
      linear_combination 4 * hr
    have him := congrArg Complex.im hD
    have hre := congrArg Complex.re hD
    rw [Complex.ofReal_im, sq, Complex.mul_im] at him
    rw [Complex.ofReal_re, sq, Complex.mul_re] at hre
    have hw0 : w.im = 0 := by
      by_contra hn
      have : w.re = 0 := by
        have : w.re * w.im = 0 := by linarith
        exact (mul_eq_zero.1 this).resolve_right hn
      rw [this] at hre
      nlinarith [sq_nonneg w.im]
    have : w.im = 4 * (r.re * r.im) := by
      rw [hw, sq]
      simp only [Complex.add_im, Complex.mul_im, Complex.mul_re, Complex.sub_im, Complex.ofReal_im]
      norm_num
      ring
    rw [hw0] at this
    have : r.re * r.im = 0 := by linarith
    exact (mul_eq_zero.1 this).resolve_right hi

theorem root_of_mem {roots : List ℝ → List ℂ} (hR : RootsCorrect roots) {c2 : ℝ} {r : ℂ} (hr : r ∈ roots (polyLambda c2)) : polyAt (polyLambda c2) r = 0 := by
  rw [show polyLambda c2 = 1 :: [0, c2 - 2, 0, -(c2 - 1) * (1 + 2 * c2)] from rfl] at *
  rw [(hR _).2]
  exact List.prod_eq_zero (List.mem_map.2 ⟨r, hr, sub_self r⟩)

/-- There are roots of both kinds. -/
theorem both_kinds {roots : List ℝ → List ℂ} (hR : RootsCorrect roots) {c2 : ℝ} (hc : 1 < c2) :
    (∃ r ∈ roots (polyLambda c2), r.im = 0) ∧ ∃ r ∈ roots (polyLambda c2), r.im ≠ 0 := by
  have mem : ∀ z : ℂ, polyAt (polyLambda c2) z = 0 → z ∈ roots (polyLambda c2) := by
    intro z hz
    rw [show polyLambda c2 = 1 :: [0, c2 - 2, 0, -(c2 - 1) * (1 + 2 * c2)] from rfl] at *
    rw [(hR _).2] at hz
    obtain ⟨r, hr, e⟩ := List.mem_map.1 (List.prod_eq_zero_iff.1 hz)
    rw [sub_eq_zero.1 e]
    exact hr
  have hD : 0 ≤ 9 * c2 ^ 2 - 8 * c2 := by nlinarith
  set d := Real.sqrt (9 * c2 ^ 2 - 8 * c2) with hd
  have hd2 : d ^ 2 = 9 * c2 ^ 2 - 8 * c2 := Real.sq_sqrt hD
  have hd0 : 0 ≤ d := Real.sqrt_nonneg _
  have hbig : |c2 - 2| < d := by
    rw [← sq_lt_sq₀ (abs_nonneg _) hd0, sq_abs, hd2]
    nlinarith
  obtain ⟨hb1, hb2⟩ := abs_lt.1 hbig
  constructor
  · set x := Real.sqrt ((2 - c2 + d) / 2) with hx
    have hx2 : x ^ 2 = (2 - c2 + d) / 2 := Real.sq_sqrt (by linarith)
    refine ⟨(x : ℂ), mem _ ?_, Complex.ofReal_im x⟩
    rw [polyLambda_at]
    have : x ^ 4 + (c2 - 2) * x ^ 2 - (c2 - 1) * (1 + 2 * c2) = 0 := by
      rw [show x ^ 4 = (x ^ 2) ^ 2 by ring, hx2]
      linear_combination hd2 / 4
    exact_mod_cast this
  · set y := Real.sqrt ((c2 - 2 + d) / 2) with hy
    have hy2 : y ^ 2 = (c2 - 2 + d) / 2 := Real.sq_sqrt (by linarith)
    refine ⟨(y : ℂ) * Complex.I, mem _ ?_, ?_⟩
    · rw [polyLambda_at]
      have : y ^ 4 - (c2 - 2) * y ^ 2 - (c2 - 1) * (1 + 2 * c2) = 0 := by
        rw [show y ^ 4 = (y ^ 2) ^ 2 by ring, hy2]
        linear_combination hd2 / 4
      have hc : (y : ℂ) ^ 4 - ((c2 : ℂ) - 2) * (y : ℂ) ^ 2 - ((c2 : ℂ) - 1) * (1 + 2 * (c2 : ℂ)) = 0 := by exact_mod_cast this
      rw [mul_pow, mul_pow, show Complex.I ^ 4 = 1 from Complex.I_pow_four, Complex.I_sq]
      linear_combination hc
    · have : y ≠ 0 := by
        intro h0
        rw [h0] at hy2
        linarith
      simpa using this

/-! ## The loop -/

theorem richLoop_value (freq dtau : ℝ) (row : ℝ → List ℝ) : ∀ (n : ℕ) (tau : ℝ), (richLoop freq dtau row n tau).1.length = n ∧ (richLoop freq dtau row n tau).2.length = n ∧
    ∀ i < n, (richLoop freq dtau row n tau).1[i]? = some ((tau + i * dtau) / freq) ∧ (richLoop freq dtau row n tau).2[i]? = some (row (tau + i * dtau))
  | 0, _ => ⟨rfl, rfl, fun i hi => absurd hi (Nat.not_lt_zero i)⟩
  | n + 1, tau => by
    obtain ⟨h1, h2, h3⟩ := richLoop_value freq dtau row n (tau + dtau)
    refine ⟨by simp [richLoop, h1], by simp [richLoop, h2], fun i hi => ?_⟩
    cases i with
    | zero => simp [richLoop]
    | succ j =>
      obtain ⟨e1, e2⟩ := h3 j (by omega)
      simp only [richLoop, List.getElem?_cons_succ, e1, e2]
      push_cast
      constructor <;> congr 2 <;> ring

theorem curve_periodic (g L : ℝ) (R : Rich) (δ A Z : ℝ) (hf : richFreq R A Z ≠ 0) : PeriodicMotion |2 * Real.pi / richFreq R A Z| (richCurve g L R δ A Z) := by
  set f := richFreq R A Z with hfd
  have key : ∀ i t, richCurve g L R δ A Z i (t + 2 * Real.pi / f) = richCurve g L R δ A Z i t := by
    intro i t
    have e1 : f * (t + 2 * Real.pi / f) = f * t + 2 * Real.pi := by field_simp
    have c1 : Real.cos (f * t + 2 * Real.pi) = Real.cos (f * t) := Real.cos_add_two_pi _
    have s1 : Real.sin (f * t + 2 * Real.pi) = Real.sin (f * t) := Real.sin_add_two_pi _
    have c2 : Real.cos (2 * (f * t + 2 * Real.pi)) = Real.cos (2 * (f * t)) := by
      have := Real.cos_add_nat_mul_two_pi (2 * (f * t)) 2
      rw [← this]; congr 1; push_cast; ring
    have s2 : Real.sin (2 * (f * t + 2 * Real.pi)) = Real.sin (2 * (f * t)) := by
      have := Real.sin_add_nat_mul_two_pi (2 * (f * t)) 2
      rw [← this]; congr 1; push_cast; ring
    have c3 : Real.cos (3 * (f * t + 2 * Real.pi)) = Real.cos (3 * (f * t)) := by
      have := Real.cos_add_nat_mul_two_pi (3 * (f * t)) 3
      rw [← this]; congr 1; push_cast; ring
    have s3 : Real.sin (3 * (f * t + 2 * Real.pi)) = Real.sin (3 * (f * t)) := by
      have := Real.sin_add_nat_mul_two_pi (3 * (f * t)) 3
      rw [← this]; congr 1; push_cast; ring
    fin_cases i
    · show L + g * richX R A Z (f * (t + 2 * Real.pi / f)) = L + g * richX R A Z (f * t)
      unfold richX; rw [e1, c1, c2, c3]
    · show g * richY R A Z (f * (t + 2 * Real.pi / f)) = g * richY R A Z (f * t)
      unfold richY; rw [e1, s1, s2, s3]
    · show g * richZ R δ A Z (f * (t + 2 * Real.pi / f)) = g * richZ R δ A Z (f * t)
      unfold richZ; rw [e1, c1, c2, c3]
  intro i t
  rcases abs_choice (2 * Real.pi / f) with h | h
  · rw [h]; exact key i t
  · rw [h, ← key i (t + -(2 * Real.pi / f))]
    congr 1; ring

/-! ## The theorems -/

/-- The table of states of a curve at `npts` times that are equally spaced over one turn. -/
structure StatesOf (F : Fin 3 → ℝ → ℝ) (w : ℝ) (npts : ℕ) (out : RichOut) : Prop where
  period : out.period = |2 * Real.pi / w|
  times : out.ss.length = npts
  rows : out.rvi.length = npts
  time : ∀ i < npts, out.ss[i]? = some (i * (if npts > 1 then 2 * Real.pi / ((npts : ℝ) - 1) else 2 * Real.pi) / w)
  row : ∀ (i : ℕ) (t : ℝ), out.ss[i]? = some t → out.rvi[i]? = some [F 0 t, F 1 t, F 2 t, deriv (F 0) t, deriv (F 1) t, deriv (F 2) t]

theorem states_of (g L : ℝ) (hg : g ≠ 0) (R : Rich) (δ A Z : ℝ) (hf : richFreq R A Z ≠ 0) (npts : ℕ) (row : ℝ → List ℝ)
    (hrow : ∀ τ, row τ = [L + g * richX R A Z τ, g * richY R A Z τ, g * richZ R δ A Z τ, g * richXdot R A Z τ, g * richYdot R A Z τ, g * richZdot R δ A Z τ]) :
    StatesOf (richCurve g L R δ A Z) (richFreq R A Z) npts ⟨(richLoop (richFreq R A Z) (richStep npts) row npts 0).1,
      (richLoop (richFreq R A Z) (richStep npts) row npts 0).2, |2 * Real.pi / richFreq R A Z|⟩ := by
  obtain ⟨h1, h2, h3⟩ := richLoop_value (richFreq R A Z) (richStep npts) row npts 0
  refine ⟨rfl, h1, h2, fun i hi => ?_, fun i t ht => ?_⟩
  · rw [(h3 i hi).1]
    simp only [richStep, zero_add]
  · have hi : i < npts := by
      by_contra hn
      rw [List.getElem?_eq_none (by rw [h1]; omega)] at ht
      exact absurd ht (by simp)
    simp only at ht ⊢
    rw [(h3 i hi).1] at ht
    obtain rfl := Option.some.inj ht
    rw [(h3 i hi).2, hrow]
    obtain ⟨v0, v1, v2⟩ := curve_velocity g L R δ A Z ((0 + i * richStep npts) / richFreq R A Z)
    rw [v0.deriv, v1.deriv, v2.deriv]
    have e : richFreq R A Z * ((0 + i * richStep npts) / richFreq R A Z) = 0 + i * richStep npts := by field_simp
    simp only [richCurve, Matrix.cons_val_zero, Matrix.cons_val_one, Matrix.cons_val, e]

theorem setup_value {roots : List ℝ → List ℂ} {mu g : ℝ} {Lpt : ℤ} {r : ℂ} (hg : gammaL roots mu Lpt = .ok g) (hr : (roots (polyLambda (richC mu g Lpt 2)))[0]? = some r) :
    richSetup roots mu Lpt = .ok (g, if r.re = 0 then none else some (richCoef r.re (richC mu g Lpt 2) (richC mu g Lpt 3) (richC mu g Lpt 4))) := by
  unfold richSetup
  rw [hg]
  simp only [bind, Except.bind, hr]
  rfl

/-- **C108, Lyapunov orbits.** If `np.roots` lists a real root first, `rich3_lyap` returns states of closed curves around the libration point, with their velocities: the curve
of amplitude `a` leaves the motion `x = L - g a cos (w t)`, `y = k g a sin (w t)` by terms of the second order only, and it satisfies the equations of motion
up to terms of the fourth order in `a`. -/
theorem C108_lyap_partial {roots : List ℝ → List ℂ} (hR : RootsCorrect roots) {mu : ℝ} (h0 : 0 < mu) (h1 : mu < 1) {Lpt : ℤ} (hL : Lpt = 1 ∨ Lpt = 2 ∨ Lpt = 3) {g : ℝ}
    (hg : gammaL roots mu Lpt = .ok g) {r : ℂ} (hr : (roots (polyLambda (richC mu g Lpt 2)))[0]? = some r) (hr0 : r.im = 0) :
    ∃ (L k : ℝ) (F : ℝ → Fin 3 → ℝ → ℝ) (w : ℝ → ℝ), Equilibrium mu ![L, 0, 0] ∧ k ≠ 0 ∧ Continuous w ∧ w 0 ≠ 0 ∧ ThirdOrder mu F ∧
      (∀ a t, F a 2 t = 0) ∧
      (∃ K δ : ℝ, 0 < δ ∧ ∀ a, |a| ≤ δ → ∀ t, |F a 0 t - (L - g * a * Real.cos (w a * t))| ≤ K * |a| ^ 2 ∧ |F a 1 t - k * g * a * Real.sin (w a * t)| ≤ K * |a| ^ 2) ∧
      ∀ a, w a ≠ 0 → PeriodicMotion |2 * Real.pi / w a| (F a) ∧ ∀ npts, ∃ out, rich3Lyap roots mu a Lpt npts = .ok (some out) ∧ StatesOf (F a) (w a) npts out := by
  obtain ⟨D1, D2, hp⟩ := rich_place hR h0 h1 hL hg
  obtain ⟨-, hre, hpol⟩ := (root_kinds hp.big (root_of_mem hR (List.mem_of_getElem? hr))).resolve_right (fun h => h.1 hr0)
  have rel := richCoef_rel (richC mu g Lpt 3) (richC mu g Lpt 4) hp.big hpol
  set R := richCoef r.re (richC mu g Lpt 2) (richC mu g Lpt 3) (richC mu g Lpt 4) with hRd
  set L := (richSide mu Lpt).2 + g * -(richSide mu Lpt).1 with hLd
  have hp' : RichPlace mu g L D1 D2 R.c2 R.c3 R.c4 := hp
  obtain ⟨sm, K, δ, hδ, H⟩ := rich_defect h0 h1 hp' rel (δ := 1) (by norm_num)
  have hz : ∀ a t, richCurve g L R 1 a 0 2 t = 0 := by
    intro a t
    show g * richZ R 1 a 0 _ = 0
    unfold richZ; ring
  have hlam : R.lam = r.re := rfl
  have hk : R.k ≠ 0 := by
    intro h
    have := rel.y11
    rw [h] at this
    have : R.lam = 0 := by linarith
    exact hre (hlam ▸ this)
  refine ⟨L, R.k, fun a => richCurve g L R 1 a 0, fun a => richFreq R a 0, hp.rest, hk, by unfold richFreq; fun_prop, ?_, ⟨fun a i => sm a 0 i, K, δ, hδ, fun a ha i t => ?_⟩,
    hz, ?_, fun a ha => ⟨curve_periodic g L R 1 a 0 ha, fun npts => ?_⟩⟩
  · show richFreq R 0 0 ≠ 0
    unfold richFreq
    rw [hlam]
    simpa using hre
  · have := H a 0 ha (by simpa using hδ.le) i t
    beta_reduce at this
    rw [hz a t, mul_zero, abs_zero, max_eq_left (abs_nonneg a)] at this
    simpa using this
  · obtain ⟨C, hC, HC⟩ := positions_bounded R 1
    have hg0 := hp.g0
    refine ⟨g * C, 1, one_pos, fun a ha t => ?_⟩
    obtain ⟨-, -, -, b1, b2, -⟩ := HC a 1 0 (Real.cos (richFreq R a 0 * t)) (Real.sin (richFreq R a 0 * t)) ha (by simp) (by simp) (Real.abs_cos_le_one _) (Real.abs_sin_le_one _)
    obtain ⟨e1, e2, -⟩ := curve_series R 1 a 1 0 (richFreq R a 0 * t)
    rw [mul_one, mul_zero] at e1 e2
    rw [← e1] at b1
    rw [← e2] at b2
    constructor
    · have : richCurve g L R 1 a 0 0 t - (L - g * a * Real.cos (richFreq R a 0 * t)) = g * (richX R a 0 (richFreq R a 0 * t) - a * tx1 1 (Real.cos (richFreq R a 0 * t))) := by
        show L + g * richX R a 0 (richFreq R a 0 * t) - _ = _
        unfold tx1; ring
      rw [this, abs_mul, abs_of_pos hg0, mul_assoc]
      exact mul_le_mul_of_nonneg_left b1 hg0.le
    · have : richCurve g L R 1 a 0 1 t - R.k * g * a * Real.sin (richFreq R a 0 * t) = g * (richY R a 0 (richFreq R a 0 * t) - a * ty1 R 1 (Real.sin (richFreq R a 0 * t))) := by
        show g * richY R a 0 (richFreq R a 0 * t) - _ = _
        unfold ty1; ring
      rw [this, abs_mul, abs_of_pos hg0, mul_assoc]
      exact mul_le_mul_of_nonneg_left b2 hg0.le
  · refine ⟨_, ?_, states_of g L hp.g0.ne' R 1 a 0 ha npts _ fun τ => rfl⟩
    unfold rich3Lyap
    rw [setup_value hg hr, if_neg hre, ← hRd]
    simp only [bind, Except.bind]
    rw [if_neg ha]
    have hrow : (fun tau1 => [g * (((richSide mu Lpt).2 + g * (-(richSide mu Lpt).1 + richX R a 0 tau1)) / g), g * richY R a 0 tau1, g * 0, g * richXdot R a 0 tau1,
        g * richYdot R a 0 tau1, g * 0]) = fun τ => [L + g * richX R a 0 τ, g * richY R a 0 τ, g * richZ R 1 a 0 τ, g * richXdot R a 0 τ, g * richYdot R a 0 τ, g * richZdot R 1 a 0 τ] := by
      funext τ
      have z1 : richZ R 1 a 0 τ = 0 := by unfold richZ; ring
      have z2 : richZdot R 1 a 0 τ = 0 := by unfold richZdot; ring
      rw [z1, z2, mul_div_cancel₀ _ hp.g0.ne', hLd]
      congr 1
      ring
    rw [hrow]
    rfl

/-- The run of `rich`. -/
theorem halo_value {roots : List ℝ → List ℂ} {mu g : ℝ} {Lpt : ℤ} (hg : gammaL roots mu Lpt = .ok g) (g0 : g ≠ 0) {r : ℂ}
    (hr : (roots (polyLambda (richC mu g Lpt 2)))[0]? = some r) (hre : r.re ≠ 0) {R : Rich} (hR : richCoef r.re (richC mu g Lpt 2) (richC mu g Lpt 3) (richC mu g Lpt 4) = R) {L : ℝ}
    (hL : (richSide mu Lpt).2 + g * -(richSide mu Lpt).1 = L) (Az : ℝ) (south : Bool) (npts : ℕ) :
    ∃ row : ℝ → ℝ → List ℝ, (∀ A τ, row A τ = [L + g * richX R A Az τ, g * richY R A Az τ, g * richZ R (if south then -1 else 1) A Az τ,
        g * richXdot R A Az τ, g * richYdot R A Az τ, g * richZdot R (if south then -1 else 1) A Az τ]) ∧
      ∀ A, A = Real.sqrt ((-R.dela - R.l2 * Az ^ 2) / R.l1) → richHalo roots mu Az Lpt south npts = if R.l1 = 0 ∨ (-R.dela - R.l2 * Az ^ 2) / R.l1 < 0 then .ok none else
        if richFreq R A Az = 0 then .ok none else
        .ok (some ⟨(richLoop (richFreq R A Az) (richStep npts) (row A) npts 0).1, (richLoop (richFreq R A Az) (richStep npts) (row A) npts 0).2, |2 * Real.pi / richFreq R A Az|⟩) := by
  refine ⟨_, fun A τ => rfl, ?_⟩
  rintro A hA
  unfold richHalo
  rw [setup_value hg hr, if_neg hre, hR]
  clear hR
  simp only [bind, Except.bind]
  have hdn : (2 : ℝ) - (if south = true then 3 else 1) = if south then -1 else 1 := by cases south <;> norm_num
  have hcell : ∀ τ A : ℝ, g * (((richSide mu Lpt).2 + g * (-(richSide mu Lpt).1 + richX R A Az τ)) / g) = L + g * richX R A Az τ := by
    intro τ A
    rw [mul_div_cancel₀ _ g0, ← hL]
    ring
  simp only [hdn, hcell, ← hA]
  split_ifs <;> rfl

set_option maxHeartbeats 1000000 in
/-- **C108, halo orbits.** The same with two amplitudes: the curves satisfy the equations of motion with an additional force `E A Z * z`, up to terms of the fourth order in the
larger amplitude; `rich` returns states of the curve for which this force is 0, if there is one: `Ax` is chosen such that `E Ax Az = 0`. -/
theorem C108_halo_partial {roots : List ℝ → List ℂ} (hR : RootsCorrect roots) {mu : ℝ} (h0 : 0 < mu) (h1 : mu < 1) {Lpt : ℤ} (hL : Lpt = 1 ∨ Lpt = 2 ∨ Lpt = 3) {g : ℝ}
    (hg : gammaL roots mu Lpt = .ok g) {r : ℂ} (hr : (roots (polyLambda (richC mu g Lpt 2)))[0]? = some r) (hr0 : r.im = 0) :
    ∃ (L k e0 l1 l2 : ℝ) (F : Bool → ℝ → ℝ → Fin 3 → ℝ → ℝ) (w : ℝ → ℝ → ℝ), Equilibrium mu ![L, 0, 0] ∧ k ≠ 0 ∧ Continuous (fun p : ℝ × ℝ => w p.1 p.2) ∧ w 0 0 ≠ 0 ∧
      (∀ south, ThirdOrderForced mu (fun A Z => e0 - l1 * A ^ 2 - l2 * Z ^ 2) (F south)) ∧
      (∀ A Z t, F true A Z 0 t = F false A Z 0 t ∧ F true A Z 1 t = F false A Z 1 t ∧ F true A Z 2 t = -F false A Z 2 t) ∧
      (∃ K δ : ℝ, 0 < δ ∧ ∀ A Z, |A| ≤ δ → |Z| ≤ δ → ∀ t, |F false A Z 0 t - (L - g * A * Real.cos (w A Z * t))| ≤ K * max |A| |Z| ^ 2 ∧
        |F false A Z 1 t - k * g * A * Real.sin (w A Z * t)| ≤ K * max |A| |Z| ^ 2 ∧ |F false A Z 2 t - g * Z * Real.cos (w A Z * t)| ≤ K * max |A| |Z| ^ 2) ∧
      (∀ south A Z, w A Z ≠ 0 → PeriodicMotion |2 * Real.pi / w A Z| (F south A Z)) ∧
      ∀ Az south npts, (∃ Ax out, 0 ≤ Ax ∧ e0 - l1 * Ax ^ 2 - l2 * Az ^ 2 = 0 ∧ richHalo roots mu Az Lpt south npts = .ok (some out) ∧ StatesOf (F south Ax Az) (w Ax Az) npts out) ∨
        richHalo roots mu Az Lpt south npts = .ok none ∧ (l1 = 0 ∨ (∀ Ax, e0 - l1 * Ax ^ 2 - l2 * Az ^ 2 ≠ 0) ∨ ∃ Ax, e0 - l1 * Ax ^ 2 - l2 * Az ^ 2 = 0 ∧ w Ax Az = 0) := by
  obtain ⟨D1, D2, hp⟩ := rich_place hR h0 h1 hL hg
  obtain ⟨-, hre, hpol⟩ := (root_kinds hp.big (root_of_mem hR (List.mem_of_getElem? hr))).resolve_right (fun h => h.1 hr0)
  have rel := richCoef_rel (richC mu g Lpt 3) (richC mu g Lpt 4) hp.big hpol
  have hp' : RichPlace mu g ((richSide mu Lpt).2 + g * -(richSide mu Lpt).1) D1 D2 (richCoef r.re (richC mu g Lpt 2) (richC mu g Lpt 3) (richC mu g Lpt 4)).c2
    (richCoef r.re (richC mu g Lpt 2) (richC mu g Lpt 3) (richC mu g Lpt 4)).c3 (richCoef r.re (richC mu g Lpt 2) (richC mu g Lpt 3) (richC mu g Lpt 4)).c4 := hp
  have hlam : (richCoef r.re (richC mu g Lpt 2) (richC mu g Lpt 3) (richC mu g Lpt 4)).lam = r.re := rfl
  have hdela : (richCoef r.re (richC mu g Lpt 2) (richC mu g Lpt 3) (richC mu g Lpt 4)).dela =
    (richCoef r.re (richC mu g Lpt 2) (richC mu g Lpt 3) (richC mu g Lpt 4)).lam ^ 2 - (richCoef r.re (richC mu g Lpt 2) (richC mu g Lpt 3) (richC mu g Lpt 4)).c2 := rfl
  have hruns := fun Az south npts => halo_value hg hp.g0.ne' hr hre rfl rfl Az south npts
  revert hp' rel hlam hdela hruns
  generalize richCoef r.re (richC mu g Lpt 2) (richC mu g Lpt 3) (richC mu g Lpt 4) = R
  generalize (richSide mu Lpt).2 + g * -(richSide mu Lpt).1 = L
  intro rel hp' hlam hdela hruns
  have hg0 := hp'.g0
  have hrest := hp'.rest
  clear hp
  have hk : R.k ≠ 0 := by
    intro h
    have := rel.y11
    rw [h] at this
    have : R.lam = 0 := by linarith
    exact hre (hlam ▸ this)
  refine ⟨L, R.k, -R.dela, R.l1, R.l2, fun south => fun A Z => richCurve g L R (if south then -1 else 1) A Z, fun A Z => richFreq R A Z, hrest, hk, by unfold richFreq; fun_prop, ?_,
    fun south => ?_, fun A Z t => ⟨rfl, rfl, ?_⟩, ?_, fun south A Z ha => curve_periodic g L R _ A Z ha, fun Az south npts => ?_⟩
  · show richFreq R 0 0 ≠ 0
    unfold richFreq
    rw [hlam]
    simpa using hre
  · rw [hdela]
    refine rich_defect h0 h1 hp' rel ?_
    cases south <;> norm_num
  · show g * richZ R (-1) A Z _ = -(g * richZ R 1 A Z _)
    unfold richZ; ring
  · obtain ⟨C, hC, HC⟩ := positions_bounded R 1
    refine ⟨g * C, 1, one_pos, fun A Z hA hZ t => ?_⟩
    obtain ⟨ε, α, β, hε, hα, hβ, rfl, rfl⟩ := scale_pair A Z
    have hε0 : 0 ≤ ε := by rw [hε]; exact (abs_nonneg _).trans (le_max_left _ _)
    have hε1 : |ε| ≤ 1 := by rw [abs_of_nonneg hε0, hε]; exact max_le hA hZ
    rw [← hε]
    set τ := richFreq R (ε * α) (ε * β) * t with hτ
    obtain ⟨-, -, -, b1, b2, b3⟩ := HC ε α β (Real.cos τ) (Real.sin τ) hε1 hα hβ (Real.abs_cos_le_one _) (Real.abs_sin_le_one _)
    obtain ⟨e1, e2, e3⟩ := curve_series R 1 ε α β τ
    rw [← e1, abs_of_nonneg hε0] at b1
    rw [← e2, abs_of_nonneg hε0] at b2
    rw [← e3, abs_of_nonneg hε0] at b3
    have fin : ∀ q u : ℝ, |u| ≤ C * ε ^ 2 → q = g * u → |q| ≤ g * C * ε ^ 2 := by
      rintro q u hu rfl
      rw [abs_mul, abs_of_pos hg0, mul_assoc]
      exact mul_le_mul_of_nonneg_left hu hg0.le
    refine ⟨fin _ _ b1 ?_, fin _ _ b2 ?_, fin _ _ b3 ?_⟩
    · show L + g * richX R (ε * α) (ε * β) τ - _ = _
      unfold tx1; ring
    · show g * richY R (ε * α) (ε * β) τ - _ = _
      unfold ty1; ring
    · show g * richZ R 1 (ε * α) (ε * β) τ - _ = _
      unfold tz1; ring
  · obtain ⟨row, hrow, hrun⟩ := hruns Az south npts
    replace hrun := hrun _ rfl
    by_cases hbad : R.l1 = 0 ∨ (-R.dela - R.l2 * Az ^ 2) / R.l1 < 0
    · right
      refine ⟨by rw [hrun, if_pos hbad], ?_⟩
      rcases hbad with h | h
      · exact Or.inl h
      · by_cases hl : R.l1 = 0
        · exact Or.inl hl
        · refine Or.inr (Or.inl fun Ax hAx => ?_)
          have : (-R.dela - R.l2 * Az ^ 2) / R.l1 = Ax ^ 2 := by
            rw [div_eq_iff hl]; linear_combination hAx
          rw [this] at h
          exact absurd h (not_lt.2 (sq_nonneg Ax))
    · push Not at hbad
      obtain ⟨hl, hq⟩ := hbad
      have hE : -R.dela - R.l1 * Real.sqrt ((-R.dela - R.l2 * Az ^ 2) / R.l1) ^ 2 - R.l2 * Az ^ 2 = 0 := by
        rw [Real.sq_sqrt hq]; field_simp; ring
      rw [if_neg (by push Not; exact ⟨hl, hq⟩)] at hrun
      by_cases hf : richFreq R (Real.sqrt ((-R.dela - R.l2 * Az ^ 2) / R.l1)) Az = 0
      · rw [if_pos hf] at hrun
        exact Or.inr ⟨hrun, Or.inr (Or.inr ⟨_, hE, hf⟩)⟩
      · rw [if_neg hf] at hrun
        exact Or.inl ⟨_, _, Real.sqrt_nonneg _, hE, hrun, states_of g L hg0.ne' R _ _ Az hf npts _ fun τ => hrow _ τ⟩

/-! ## The order of the roots -/

theorem reorder {roots : List ℝ → List ℂ} (hR : RootsCorrect roots) (p : ℂ → Bool) :
    RootsCorrect fun l => (roots l).filter p ++ (roots l).filter fun z => !p z := by
  intro l
  obtain ⟨h1, h2⟩ := hR l
  have perm : ((roots (1 :: l)).filter p ++ (roots (1 :: l)).filter fun z => !p z).Perm (roots (1 :: l)) := List.filter_append_perm p _
  exact ⟨perm.length_eq.trans h1, fun z => by rw [h2, (perm.map _).prod_eq]⟩

theorem first_of {l : List ℂ} {p : ℂ → Bool} (h : ∃ r ∈ l, p r = true) : ∃ r, (l.filter p ++ l.filter fun z => !p z)[0]? = some r ∧ r ∈ l ∧ p r = true := by
  obtain ⟨r, hr, hp⟩ := h
  have hm : r ∈ l.filter p := List.mem_filter.2 ⟨hr, hp⟩
  cases hf : l.filter p with
  | nil => rw [hf] at hm; exact absurd hm (by simp)
  | cons a t =>
    have ha : a ∈ l.filter p := by rw [hf]; simp
    exact ⟨a, by simp, (List.mem_filter.1 ha).1, (List.mem_filter.1 ha).2⟩

/-- **C108, where the order matters.** `np.roots` may list a root that is not real first; then the frequency is 0, and neither function returns numbers, for any mass ratio,
point, amplitude, and number of rows. -/
theorem C108_order {roots : List ℝ → List ℂ} (hR : RootsCorrect roots) {mu : ℝ} (h0 : 0 < mu) (h1 : mu < 1) {Lpt : ℤ} (hL : Lpt = 1 ∨ Lpt = 2 ∨ Lpt = 3) {g : ℝ}
    (hg : gammaL roots mu Lpt = .ok g) {r : ℂ} (hr : (roots (polyLambda (richC mu g Lpt 2)))[0]? = some r) (hr0 : r.im ≠ 0) (a : ℝ) (south : Bool) (npts : ℕ) :
    rich3Lyap roots mu a Lpt npts = .ok none ∧ richHalo roots mu a Lpt south npts = .ok none := by
  obtain ⟨D1, D2, hp⟩ := rich_place hR h0 h1 hL hg
  obtain ⟨-, hre⟩ := (root_kinds hp.big (root_of_mem hR (List.mem_of_getElem? hr))).resolve_left (fun h => hr0 h.1)
  have hs := setup_value hg hr
  rw [if_pos hre] at hs
  constructor
  · unfold rich3Lyap; rw [hs]; rfl
  · unfold richHalo; rw [hs]; rfl

/-- **C108, witness**: correct roots for which the two functions never return numbers. -/
theorem C108_order_fails : ∃ roots, RootsCorrect roots ∧ ∀ mu : ℝ, 0 < mu → mu < 1 → ∀ Lpt : ℤ, Lpt = 1 ∨ Lpt = 2 ∨ Lpt = 3 → ∀ a south npts,
    rich3Lyap roots mu a Lpt npts = .ok none ∧ richHalo roots mu a Lpt south npts = .ok none := by
  classical
  obtain ⟨roots, hR⟩ := roots_exist
  have hR' := reorder hR fun z => decide (z.im ≠ 0)
  refine ⟨_, hR', fun mu h0 h1 Lpt hL a south npts => ?_⟩
  obtain ⟨g1, g2, g3, e1, e2, e3, -⟩ := C107_gammaL hR' h0 h1
  obtain ⟨g, hg⟩ : ∃ g, gammaL (fun l => (roots l).filter (fun z => decide (z.im ≠ 0)) ++ (roots l).filter fun z => !decide (z.im ≠ 0)) mu Lpt = .ok g := by
    rcases hL with rfl | rfl | rfl
    · exact ⟨g1, e1⟩
    · exact ⟨g2, e2⟩
    · exact ⟨g3, e3⟩
  obtain ⟨D1, D2, hp⟩ := rich_place hR' h0 h1 hL hg
  obtain ⟨q, hq, hqi⟩ := (both_kinds hR hp.big).2
  obtain ⟨r, hr, -, hri⟩ := first_of (l := roots (polyLambda (richC mu g Lpt 2))) (p := fun z => decide (z.im ≠ 0)) ⟨q, hq, by simpa using hqi⟩
  exact C108_order hR' h0 h1 hL hg hr (by simpa using hri) a south npts

/-- The hypotheses can be met, here for the second libration point of earth and moon. -/
example : ∃ roots g r, RootsCorrect roots ∧ gammaL roots 0.01215 2 = .ok g ∧ (roots (polyLambda (richC 0.01215 g 2 2)))[0]? = some r ∧ r.im = 0 := by
  classical
  obtain ⟨roots, hR⟩ := roots_exist
  have hR' := reorder hR fun z => decide (z.im = 0)
  obtain ⟨g1, g2, g3, e1, e2, e3, -⟩ := C107_gammaL hR' (mu := 0.01215) (by norm_num) (by norm_num)
  obtain ⟨D1, D2, hp⟩ := rich_place hR' (by norm_num) (by norm_num) (Or.inr (Or.inl rfl)) e2
  obtain ⟨q, hq, hqi⟩ := (both_kinds hR hp.big).1
  obtain ⟨r, hr, -, hri⟩ := first_of (l := roots (polyLambda (richC 0.01215 g2 2 2))) (p := fun z => decide (z.im = 0)) ⟨q, hq, by simpa using hqi⟩
  exact ⟨_, g2, r, hR', e2, hr, by simpa using hri⟩

end Verif.Props
