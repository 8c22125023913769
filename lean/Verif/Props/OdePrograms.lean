import Verif.Props.OdeSolve
import Verif.Props.OdeError

/-!
# C101: the programs

Each program is followed from the constructor call to the coefficients it returns. The error bounds need the defect at the collocation points and
a bound for its derivative between them.
-/

namespace Verif.Props

open Set Polynomial Verif Verif.Mem Verif.Py Verif.Np Verif.Spec Verif.Model Verif.Model.Py Verif.Model.LSq Verif.Model.Prog Verif.Lemmas.LSq
open scoped ContDiff

theorem yields_contDiff {u : Utfc} {cs : List EndCond} (hcs : SmoothEnds cs) {xi : List ℝ} {y : ℝ → ℝ} (hy : Yields u cs xi y) :
    ContDiff ℝ ∞ y := by
  obtain ⟨g, hg, -, rfl⟩ := hy
  exact curve_contDiff hcs hg

theorem contDiff_deriv {y : ℝ → ℝ} (hy : ContDiff ℝ ∞ y) : ContDiff ℝ ∞ (deriv y) := (contDiff_infty_iff_deriv.1 hy).2

/-- **C101, quality.** If the object can give a function with defects at most `δ` at all points, the defects of the least squares solution are at
most `√N δ`. -/
theorem C101_near {u : Utfc} {cs : List EndCond} {F : ℝ → ℝ → ℝ → ℝ → ℝ} {xi : List ℝ} {y : ℝ → ℝ} (h : Best1 u cs F xi y) {xi' : List ℝ}
    {w : ℝ → ℝ} (hw : Yields u cs xi' w) {δ : ℝ} (hδ : 0 ≤ δ) (hd : ∀ t ∈ u.x, |missF F w t| ≤ δ) :
    ∀ t ∈ u.x, |missF F y t| ≤ Real.sqrt u.x.length * δ := by
  intro t ht
  have h1 : missF F y t ^ 2 ≤ sumSq1 u.x (missF F y) :=
    List.single_le_sum (by simp only [List.mem_map]; rintro _ ⟨s, -, rfl⟩; positivity) _ (List.mem_map_of_mem (f := fun t => missF F y t ^ 2) ht)
  have h2 : sumSq1 u.x (missF F w) ≤ u.x.length * δ ^ 2 := by
    have := List.sum_le_card_nsmul (u.x.map fun t => missF F w t ^ 2) (δ ^ 2) (by
      simp only [List.mem_map]
      rintro _ ⟨s, hs, rfl⟩
      exact sq_le_sq' (by linarith [(abs_le.1 (hd s hs)).1]) (abs_le.1 (hd s hs)).2)
    simpa [sumSq1, nsmul_eq_mul] using this
  refine abs_le_of_sq_le_sq ?_ (by positivity)
  rw [mul_pow, Real.sq_sqrt (by positivity)]
  exact h1.trans ((h.best xi' w hw).trans h2)

/-- The defect between the points, from the defect at the points. -/
theorem between1 {N m : ℕ} (hN : 2 ≤ N) {basis backend : String} {x0 xf : ℝ} (hx : x0 < xf) {w b : ℕ → ℝ} {u : Utfc}
    (hu : utfcInit N (.int 2) m basis (some x0) (some xf) backend w b = .ok u) {F : ℝ → ℝ → ℝ → ℝ → ℝ} {y : ℝ → ℝ}
    (hd : ∀ t ∈ Icc x0 xf, DifferentiableAt ℝ (missF F y) t) {ε L : ℝ} (hε : ∀ t ∈ u.x, |missF F y t| ≤ ε) (hL : ∀ t ∈ Icc x0 xf, |deriv (missF F y) t| ≤ L) :
    ∀ t ∈ Icc x0 xf, |missF F y t| ≤ ε + L * ((xf - x0) * (Real.pi / (4 * ((N - 1 : ℕ) : ℝ)))) :=
  miss_between hd hL (C13_points N hN (.int 2) m basis backend x0 xf hx w b u hu).2.2.2.2.2.1
    (C98_points N hN (.int 2) m basis backend x0 xf hx w b u hu) hε

theorem contDiff_two {y : ℝ → ℝ} (hy : ContDiff ℝ ∞ y) : ContDiff ℝ 2 y := by exact_mod_cast contDiff_infty.1 hy 2

/-- A defect that is formed smoothly from `x`, `y`, `y'`, `y''` is differentiable. -/
theorem missF_diff {F : ℝ → ℝ → ℝ → ℝ → ℝ} (hF : Differentiable ℝ fun p : ℝ × ℝ × ℝ × ℝ => F p.1 p.2.1 p.2.2.1 p.2.2.2) {y : ℝ → ℝ}
    (hy : ContDiff ℝ ∞ y) : Differentiable ℝ (missF F y) := by
  have d1 := contDiff_deriv hy
  have d2 := contDiff_deriv d1
  have a := hy.differentiable (by simp)
  have b := d1.differentiable (by simp)
  have c := d2.differentiable (by simp)
  exact hF.comp (f := fun x => (x, y x, deriv y x, deriv (deriv y) x)) (by fun_prop)

/-! ## Lane–Emden -/

theorem ivpExpr_smooth (x : List ℝ) (a b : ℝ) : SmoothEnds (ivpExpr x a b) := by
  intro c hc
  simp only [ivpExpr, List.mem_cons, List.not_mem_nil, or_false] at hc
  rcases hc with rfl | rfl
  · exact ⟨contDiff_const, by simp⟩
  · exact ⟨contDiff_id, by simp⟩

theorem ivpExpr_dual {x : List ℝ} (h : first x = 0) (a b : ℝ) : DualEnds (ivpExpr x a b) := by
  intro i j hi hj
  simp only [ivpExpr, List.length_cons, List.length_nil] at hi hj
  interval_cases i <;> interval_cases j <;> simp [ivpExpr, h, iteratedDeriv_one]

theorem laneF_diff (k : ℕ) : DiffF (laneF k) := fun x => by
  unfold laneF
  fun_prop

theorem laneF_linear {k : ℕ} (hk : k = 0 ∨ k = 1) : LinearF (laneF k) := by
  rcases hk with rfl | rfl
  · exact ⟨fun _ => 0, fun _ => 2, fun x => x, fun x => x, fun x y y1 y2 => by unfold laneF; ring⟩
  · exact ⟨fun x => x, fun _ => 2, fun x => x, fun _ => 0, fun x y y1 y2 => by unfold laneF; ring⟩

/-- The error of a function given by an object of the program, from its defects. -/
theorem lane_error {N m : ℕ} (hN : 2 ≤ N) {basis : String} {xf : ℝ} (hxf : 0 < xf) {w b : ℕ → ℝ} {u : Utfc}
    (hu : utfcInit N (.int 2) m basis (some 0) (some xf) "C++" w b = .ok u) {k : ℕ} (hk : k = 0 ∨ k = 1 ∨ k = 5) {y : ℝ → ℝ}
    (hy : ContDiff ℝ ∞ y) (h0 : y 0 = 1) {ε L B : ℝ} (hB1 : 1 ≤ B) (hB : ∀ t ∈ Icc 0 xf, |y t| ≤ B) (hε : ∀ t ∈ u.x, |laneResid k y t| ≤ ε)
    (hL : ∀ t ∈ Icc 0 xf, |deriv (laneResid k y) t| ≤ L) :
    ∀ t ∈ Icc 0 xf, |y t - laneReal k t| ≤ (ε + L * (xf * (Real.pi / (4 * ((N - 1 : ℕ) : ℝ))))) * Real.exp ((1 + k * B ^ (k - 1)) * t) := by
  have h := between1 hN hxf hu (F := laneF k) (y := y) (fun t _ => missF_diff (by unfold laneF; fun_prop) hy t) hε hL
  rw [sub_zero] at h
  exact C96_lane k hk hB1 y (contDiff_two hy) h0 hB h

/-- **C101, Lane–Emden.** B/Chapter_3/section_3_5_1.py for all `N ≥ 2`, `m ≥ 2`, `xf > 0` and bases with derivatives: the program returns
coefficients of a smooth function with `y(0) = 1`, `y'(0) = 0`. For `k` 0 and 1 it has the least sum of squared defects of all the object can
give; for other `k` it is the last of a sequence of Gauss–Newton steps. For `k` 0, 1 and 5 its distance from the known solution is bounded by the
defects at the points (`ε`) and the change of the defect between them (`L`). -/
theorem C101_lane (lib : LinAlg) (hlib : LinAlgCorrect lib) (N m : ℕ) (hN : 2 ≤ N) (hm : 2 ≤ m) (basis : String) (hb : basis ∈ smoothNames)
    (k : ℕ) (xf : ℝ) (hxf : 0 < xf) (w b : ℕ → ℝ) (fuel : ℕ) (hf : 52 ≤ fuel) :
    ∃ u xi y, utfcInit N (.int 2) m basis (some 0) (some xf) "C++" w b = .ok u ∧
      runLaneEmden lib N m basis k xf w b fuel = .ok (some (.arr xi)) ∧ Yields u (ivpExpr u.x 1 0) xi y ∧ y 0 = 1 ∧ deriv y 0 = 0 ∧
      (k = 0 ∨ k = 1 → Best1 u (ivpExpr u.x 1 0) (laneF k) xi y) ∧
      (k ≠ 0 ∧ k ≠ 1 → ∃ it ys, Newton1 u (ivpExpr u.x 1 0) (laneF k) 1e-13 50 xi it ys ∧ y = ys it) ∧
      (k = 0 ∨ k = 1 ∨ k = 5 → ∀ ε L B, 1 ≤ B → (∀ t ∈ Icc 0 xf, |y t| ≤ B) → (∀ t ∈ u.x, |laneResid k y t| ≤ ε) →
        (∀ t ∈ Icc 0 xf, |deriv (laneResid k y) t| ≤ L) →
        ∀ t ∈ Icc 0 xf,
          |y t - laneReal k t| ≤ (ε + L * (xf * (Real.pi / (4 * ((N - 1 : ℕ) : ℝ))))) * Real.exp ((1 + k * B ^ (k - 1)) * t)) := by
  obtain ⟨u, hu, hr, hc, hl, hf0, -, -, -, -⟩ := object1 hN hm hb (Or.inl rfl) hxf w b
  have hs := ivpExpr_smooth u.x 1 0
  have hmeet : ∀ xi y, Yields u (ivpExpr u.x 1 0) xi y → y 0 = 1 ∧ deriv y 0 = 0 := fun xi y hy => by
    have h := C101_meets u _ hs (ivpExpr_dual hf0 1 0) xi y hy
    simpa [MeetsAll, ivpExpr, hf0, iteratedDeriv_one] using h
  have herr : ∀ xi y, Yields u (ivpExpr u.x 1 0) xi y → k = 0 ∨ k = 1 ∨ k = 5 → ∀ ε L B, 1 ≤ B → (∀ t ∈ Icc 0 xf, |y t| ≤ B) →
      (∀ t ∈ u.x, |laneResid k y t| ≤ ε) → (∀ t ∈ Icc 0 xf, |deriv (laneResid k y) t| ≤ L) → ∀ t ∈ Icc 0 xf,
        |y t - laneReal k t| ≤ (ε + L * (xf * (Real.pi / (4 * ((N - 1 : ℕ) : ℝ))))) * Real.exp ((1 + k * B ^ (k - 1)) * t) :=
    fun xi y hy hk ε L B hB1 hB hε hL => lane_error hN hxf hu hk (yields_contDiff hs hy) (hmeet xi y hy).1 hB1 hB hε hL
  by_cases hk : k = 0 ∨ k = 1
  · obtain ⟨xi, y, h1, h2⟩ := C101_linear lib hlib .pinv (by decide) u hr _ hs _ (laneF_linear hk) true
    refine ⟨u, xi, y, hu, ?_, h2.yields, (hmeet xi y h2.yields).1, (hmeet xi y h2.yields).2, fun _ => h2, fun h => absurd hk (by tauto),
      herr xi y h2.yields⟩
    unfold runLaneEmden
    simp only [hu, bind, Except.bind, if_pos hk, h1]
    rfl
  · obtain ⟨xi, it, ys, h1, h2⟩ := newton1 hlib (method := .pinv) (by decide) hr (by intro e; rw [e] at hl; simp at hl; omega) (by omega) hs
      (laneF_diff k) 1e-13 (by norm_num) 50 true fuel hf
    refine ⟨u, xi, ys it, hu, ?_, h2.last, (hmeet _ _ h2.last).1, (hmeet _ _ h2.last).2, fun h => absurd h hk, fun _ => ⟨it, ys, h2, rfl⟩,
      herr _ _ h2.last⟩
    unfold runLaneEmden
    simp only [hu, bind, Except.bind, if_neg hk, h1]
    rfl

/-- A case: the call of the program with 100 points, degree 2 and `k = 0`. -/
example (lib : LinAlg) (hlib : LinAlgCorrect lib) : ∃ xi, runLaneEmden lib 100 2 "LeP" 0 10 (fun _ => 0) (fun _ => 0) 60 = .ok (some (.arr xi)) := by
  obtain ⟨u, xi, y, -, h, -⟩ := C101_lane lib hlib 100 2 (by norm_num) le_rfl "LeP" (by decide) 0 10 (by norm_num) (fun _ => 0) (fun _ => 0) 60
    (by norm_num)
  exact ⟨xi, h⟩

theorem ivpExpr_reproduces {x : List ℝ} (h : first x = 0) (a b : ℝ) : ReproducesEnds (ivpExpr x a b) 2 := by
  intro p hp t
  obtain ⟨c, d, rfl⟩ : ∃ c d : ℝ, p = C c * X + C d := ⟨_, _, eq_X_add_C_of_natDegree_le_one (by
    by_cases h0 : p = 0
    · simp [h0]
    · have := (natDegree_lt_iff_degree_lt h0).2 hp
      omega)⟩
  simp [ivpExpr, h]
  ring

theorem ivpExpr_poly (x : List ℝ) (a b : ℝ) : ∀ c ∈ ivpExpr x a b, ∃ q : ℝ[X], q.degree < 2 ∧ c.weight = fun t => q.eval t := by
  intro c hc
  simp only [ivpExpr, List.mem_cons, List.not_mem_nil, or_false] at hc
  rcases hc with rfl | rfl
  · exact ⟨1, by rw [degree_one]; decide, by simp⟩
  · exact ⟨X, by rw [degree_X]; decide, by simp⟩

theorem poly_cls {N m : ℕ} {basis backend : String} (hb : basis = "CP" ∨ basis = "LeP") {x0 xf : ℝ} {w b : ℕ → ℝ} {u : Utfc}
    (hu : utfcInit N (.int 2) m basis (some x0) (some xf) backend w b = .ok u) : ∃ f, u.cls = .poly f := by
  obtain ⟨-, -, -, h1, h2⟩ := init_fields hu
  rcases hb with rfl | rfl
  · have h : u.basis = .cp := (Option.some.inj h1).symm
    rw [h] at h2
    exact ⟨_, h2⟩
  · have h : u.basis = .lep := (Option.some.inj h1).symm
    rw [h] at h2
    exact ⟨_, h2⟩

/-- **C101, Lane–Emden with `k = 0`, exactly.** With a polynomial basis and at least as many points as the degree, the program returns the coefficients of
the solution `1 - x²/6` itself, on the whole line. -/
theorem C101_lane0 (lib : LinAlg) (hlib : LinAlgCorrect lib) (N m : ℕ) (hN : 2 ≤ N) (hm : 2 ≤ m) (hNm : m ≤ N) (basis : String)
    (hb : basis = "CP" ∨ basis = "LeP") (xf : ℝ) (hxf : 0 < xf) (w b : ℕ → ℝ) (fuel : ℕ) (hf : 52 ≤ fuel) :
    ∃ u xi, utfcInit N (.int 2) m basis (some 0) (some xf) "C++" w b = .ok u ∧
      runLaneEmden lib N m basis 0 xf w b fuel = .ok (some (.arr xi)) ∧ Yields u (ivpExpr u.x 1 0) xi (laneReal 0) := by
  have hb' : basis ∈ smoothNames := by rcases hb with rfl | rfl <;> decide
  obtain ⟨u, xi, y, hu, h1, hy, -, -, hbest, -, -⟩ := C101_lane lib hlib N m hN hm basis hb' 0 xf hxf w b fuel hf
  obtain ⟨u', hu', hr, -, hl, hf0, -, hdeg, hnC, hx⟩ := object1 hN hm hb' (Or.inl rfl) hxf w b
  rw [hu] at hu'
  cases hu'
  obtain ⟨f, hcls⟩ := poly_cls hb hu
  have hreach := C101_reach u f hcls hx (by omega) hnC _ (ivpExpr_smooth u.x 1 0) (ivpExpr_poly u.x 1 0) (ivpExpr_dual hf0 1 0)
    (ivpExpr_reproduces hf0 1 0)
  have hreal : laneReal 0 = fun x => (1 - C (1 / 6 : ℝ) * X ^ 2 : ℝ[X]).eval x := by
    funext x
    simp [laneReal]
  have hq := eval_smooth (1 - C (1 / 6 : ℝ) * X ^ 2 : ℝ[X])
  have dq : deriv (laneReal 0) = fun x => -(1 / 3) * x := by
    rw [hreal]
    funext x
    rw [Polynomial.deriv]
    simp
    ring
  obtain ⟨xi', hxi'⟩ := (hreach (laneReal 0)).2 ⟨_, by rw [hdeg]; refine lt_of_le_of_lt (b := (2 : WithBot ℕ)) (by compute_degree!) (by exact_mod_cast (by omega : 2 < m + 1)),
    hreal, by
    intro c hc
    simp only [ivpExpr, List.mem_cons, List.not_mem_nil, or_false] at hc
    rcases hc with rfl | rfl
    · simp [hf0, laneReal]
    · simp [hf0, dq, iteratedDeriv_one]⟩
  have hzero : ∀ t, missF (laneF 0) (laneReal 0) t = 0 := fun t => by
    unfold missF laneF
    rw [dq, deriv_const_mul_field, deriv_id'']
    ring
  have hres := C101_near (hbest (Or.inl rfl)) hxi' le_rfl (fun t _ => by rw [hzero, abs_zero])
  simp only [mul_zero, abs_nonpos_iff] at hres
  obtain ⟨p, hp, rfl, hmeet⟩ := (hreach y).1 ⟨xi, hy⟩
  obtain ⟨R, hR⟩ : ∃ R : ℝ[X], R = X * derivative (derivative p) + 2 * derivative p + X := ⟨_, rfl⟩
  have hRe : ∀ t, missF (laneF 0) (fun x => p.eval x) t = R.eval t := fun t => by
    have e : deriv (fun x => p.eval x) = fun x => (derivative p).eval x := by funext x; exact p.deriv
    unfold missF laneF
    rw [e, Polynomial.deriv, hR]
    simp
  have hRd : R.natDegree < N := by
    have h1 : p.natDegree ≤ m := by
      rw [hdeg] at hp
      exact natDegree_le_of_degree_le (Order.le_of_lt_succ (by exact_mod_cast hp))
    have h2 : (derivative p).natDegree ≤ m - 1 := (natDegree_derivative_le p).trans (by omega)
    have h3 : (derivative (derivative p)).natDegree ≤ m - 2 := (natDegree_derivative_le _).trans (by omega)
    have : R.natDegree ≤ m - 1 := by
      rw [hR]
      refine natDegree_add_le_of_degree_le (natDegree_add_le_of_degree_le ?_ ?_) ?_
      · refine natDegree_mul_le.trans ?_
        rw [natDegree_X]
        omega
      · refine natDegree_mul_le.trans ?_
        rw [natDegree_ofNat]
        omega
      · rw [natDegree_X]
        omega
    omega
  have hR0 : R = 0 := by
    have hnd : u.x.Nodup := (C13_points N hN (.int 2) m basis "C++" 0 xf hxf w b u hu).2.2.1.imp fun h => h.ne
    refine eq_zero_of_natDegree_lt_card_of_eval_eq_zero' R u.x.toFinset (fun t ht => ?_) ?_
    · rw [← hRe]
      exact hres t (List.mem_toFinset.1 ht)
    · rw [List.toFinset_card_of_nodup hnd, hl]
      exact hRd
  have hy0 : (fun x => p.eval x) = laneReal 0 := by
    have h0 : p.eval 0 = 1 := by
      have := hmeet ⟨fun _ => 1, 0, first u.x, 1⟩ (by simp [ivpExpr])
      simpa [hf0] using this
    obtain ⟨B, hB⟩ := (isCompact_Icc (a := (0 : ℝ)) (b := xf)).exists_bound_of_continuousOn (f := fun x => p.eval x) (eval_smooth p).continuous.continuousOn
    have hI : ∀ x ∈ Icc 0 xf, p.eval x = laneReal 0 x := fun x hx => by
      have := C96_lane 0 (Or.inl rfl) (L := xf) (R := 0) (B := max 1 B) (le_max_left _ _) (fun x => p.eval x) (contDiff_two (eval_smooth p)) h0
        (fun x hx => (hB x hx).trans (le_max_right _ _)) (fun x _ => by
          have := hRe x
          rw [hR0, eval_zero] at this
          exact (abs_eq_zero.2 this).le) x hx
      rw [zero_mul] at this
      exact sub_eq_zero.1 (abs_nonpos_iff.1 this)
    have : p = 1 - C (1 / 6 : ℝ) * X ^ 2 := by
      refine eq_of_infinite_eval_eq _ _ ((Icc_infinite hxf).mono fun x hx => ?_)
      have := hI x hx
      rw [hreal] at this
      exact this
    rw [hreal, this]
  exact ⟨u, xi, hu, h1, hy0 ▸ hy⟩

/-- A case: the first call of the program, line 84 of B/Chapter_3/section_3_5_1.py. -/
example (lib : LinAlg) (hlib : LinAlgCorrect lib) : ∃ u xi, runLaneEmden lib 100 2 "CP" 0 10 (fun _ => 0) (fun _ => 0) 60 = .ok (some (.arr xi)) ∧
    Yields u (ivpExpr u.x 1 0) xi (laneReal 0) := by
  obtain ⟨u, xi, -, h⟩ := C101_lane0 lib hlib 100 2 (by norm_num) le_rfl (by norm_num) "CP" (Or.inl rfl) 10 (by norm_num) (fun _ => 0) (fun _ => 0) 60
    (by norm_num)
  exact ⟨u, xi, h⟩

/-- **C101, `laneEmden_tfc`.** On an interval that starts at 0: for the types 0 and 1 the single iteration the program allows gives the least squares
solution, for type 5 at most `iterMax` steps are made; any other type ends with an unassigned variable (`maxIter`, line 94). -/
theorem C101_laneTfc (lib : LinAlg) (hlib : LinAlgCorrect lib) (N m : ℕ) (hN : 2 ≤ N) (hm : 2 ≤ m) (basis : String) (hb : basis ∈ smoothNames)
    (type : ℕ) (xf : ℝ) (hxf : 1e-13 < xf) (iterMax : ℕ) (w b : ℕ → ℝ) (fuel : ℕ) (hf : iterMax + 3 ≤ fuel) :
    ∃ u, utfcInit N (.int 2) m basis (some 0) (some xf) "C++" w b = .ok u ∧
      (type = 0 ∨ type = 1 → ∃ xi y, laneEmdenTfc lib N m type 0 xf basis iterMax w b fuel = .ok (some (.arr xi)) ∧
        Best1 u (ivpExpr u.x 1 0) (laneF type) xi y ∧ y 0 = 1 ∧ deriv y 0 = 0) ∧
      (type = 5 → ∃ xi it ys, laneEmdenTfc lib N m type 0 xf basis iterMax w b fuel = .ok (some (.arr xi)) ∧
        Newton1 u (ivpExpr u.x 1 0) (laneF type) 1e-13 iterMax xi it ys ∧ ys it 0 = 1 ∧ deriv (ys it) 0 = 0) ∧
      (type ≠ 0 → type ≠ 1 → type ≠ 5 → laneEmdenTfc lib N m type 0 xf basis iterMax w b fuel = .error .unboundLocal) := by
  have hxf0 : (0 : ℝ) < xf := lt_trans (by norm_num) hxf
  obtain ⟨u, hu, hr, hc, hl, hf0, hfl, -, -, -⟩ := object1 hN hm hb (Or.inl rfl) hxf0 w b
  have hs := ivpExpr_smooth u.x 1 0
  have hmeet : ∀ xi y, Yields u (ivpExpr u.x 1 0) xi y → y 0 = 1 ∧ deriv y 0 = 0 := fun xi y hy => by
    have h := C101_meets u _ hs (ivpExpr_dual hf0 1 0) xi y hy
    simpa [MeetsAll, ivpExpr, hf0, iteratedDeriv_one] using h
  have hne : u.x ≠ [] := by intro e; rw [e] at hl; simp at hl; omega
  have hstart : ∃ t ∈ u.x, (1e-13 : ℝ) < |missF (laneF type) (curve (ivpExpr u.x 1 0) fun _ => 0) t| := by
    have hlast := (C13_points N hN (.int 2) m basis "C++" 0 xf hxf0 w b u hu).2.2.2.2.1
    refine ⟨xf, List.mem_of_getLast? hlast, ?_⟩
    have e : curve (ivpExpr u.x 1 0) (fun _ => 0) = fun _ => 1 := by
      funext t
      simp [curve, ivpExpr]
    rw [e]
    simpa [missF, laneF, abs_of_pos hxf0] using hxf
  refine ⟨u, hu, fun ht => ?_, fun ht => ?_, fun h0 h1 h5 => ?_⟩
  · obtain ⟨xi, y, it, h1, h2⟩ := C101_linear_nlls lib hlib .pinv (by decide) u hr (by omega) _ hs _ (laneF_linear ht) 1e-13 (by norm_num) 1 le_rfl
      true fuel (by omega) hstart
    refine ⟨xi, y, ?_, h2, hmeet _ _ h2.yields⟩
    unfold laneEmdenTfc
    rcases ht with rfl | rfl <;> simp [hu, bind, Except.bind, start_value hr hs, h1] <;> rfl
  · subst ht
    obtain ⟨xi, it, ys, h1, h2⟩ := newton1 hlib (method := .pinv) (by decide) hr hne (by omega) hs (laneF_diff 5) 1e-13 (by norm_num) iterMax true fuel
      (by omega)
    refine ⟨xi, it, ys, ?_, h2, hmeet _ _ h2.last⟩
    unfold laneEmdenTfc
    simp [hu, bind, Except.bind, start_value hr hs, h1]
    rfl
  · unfold laneEmdenTfc
    simp [hu, bind, Except.bind, start_value hr hs, h0, h1, h5]

/-! ## The nonlinear boundary value problem -/

theorem bvpExpr_smooth (x : List ℝ) (a b : ℝ) : SmoothEnds (bvpExpr x a b) := by
  intro c hc
  simp only [bvpExpr, List.mem_cons, List.not_mem_nil, or_false] at hc
  rcases hc with rfl | rfl
  · exact ⟨by fun_prop, by simp⟩
  · exact ⟨by fun_prop, by simp⟩

theorem bvpExpr_dual {x : List ℝ} (h : first x = 0) (h' : last x = Real.pi) (a b : ℝ) : DualEnds (bvpExpr x a b) := by
  intro i j hi hj
  have hp := Real.pi_ne_zero
  simp only [bvpExpr, List.length_cons, List.length_nil] at hi hj
  interval_cases i <;> interval_cases j <;> simp [bvpExpr, h, h', hp]

/-- **C101, the boundary value problem** of B/Chapter_3/section_3_5_2.py and BVP_tfc.py, for all bases with derivatives. -/
theorem C101_bvp (lib : LinAlg) (hlib : LinAlgCorrect lib) (N m : ℕ) (hN : 2 ≤ N) (hm : 2 ≤ m) (basis : String) (hb : basis ∈ smoothNames)
    (iterMax : ℕ) (w b : ℕ → ℝ) (fuel : ℕ) (hf : iterMax + 2 ≤ fuel) :
    ∃ u xi ys, ∃ it : ℕ, utfcInit N (.int 2) m basis (some 0) (some Real.pi) "C++" w b = .ok u ∧
      runBvp lib N m basis iterMax w b fuel = .ok (some (.arr xi, (it : ℤ))) ∧ Newton1 u (bvpExpr u.x 0 0) bvpFormula 1e-13 iterMax xi it ys ∧
      ys it 0 = 0 ∧ ys it Real.pi = 0 ∧
      ∀ ε L B, (∀ t ∈ Icc 0 Real.pi, |ys it t| ≤ B) → (∀ t ∈ u.x, |bvpResid (ys it) t| ≤ ε) →
        (∀ t ∈ Icc 0 Real.pi, |deriv (bvpResid (ys it)) t| ≤ L) → ∀ t ∈ Icc 0 Real.pi,
          |ys it t - bvpReal t| ≤ (ε + L * (Real.pi * (Real.pi / (4 * ((N - 1 : ℕ) : ℝ))))) * Real.pi / ((B + 1) / 2) *
            (Real.exp ((B + 1) / 2 * t) - 1) := by
  obtain ⟨u, hu, hr, hc, hl, hf0, hfl, -, -, -⟩ := object1 hN hm hb (Or.inl rfl) Real.pi_pos w b
  have hs := bvpExpr_smooth u.x 0 0
  obtain ⟨xi, it, ys, h1, h2⟩ := newton1 hlib (method := .pinv) (by decide) hr (by intro e; rw [e] at hl; simp at hl; omega) (by omega) hs
    (F := bvpFormula) (fun x => by unfold bvpFormula; fun_prop) 1e-13 (by norm_num) iterMax true fuel hf
  have hmeet := C101_meets u _ hs (bvpExpr_dual hf0 hfl 0 0) xi _ h2.last
  simp only [MeetsAll, bvpExpr, hf0, hfl, List.mem_cons, List.not_mem_nil, or_false, forall_eq_or_imp, forall_eq, iteratedDeriv_zero] at hmeet
  refine ⟨u, xi, ys, it, hu, ?_, h2, hmeet.1, hmeet.2, fun ε L B hB hε hL => ?_⟩
  · unfold runBvp
    simp only [hu, bind, Except.bind]
    exact h1
  · have hy := yields_contDiff hs h2.last
    have h := between1 hN Real.pi_pos hu (F := bvpFormula) (y := ys it) (fun t _ => missF_diff (by unfold bvpFormula bvpF; fun_prop) hy t) hε hL
    rw [sub_zero] at h
    exact C96_bvp (ys it) (contDiff_two hy) hmeet.1 hmeet.2 hB h

/-! ## Convection and diffusion -/

theorem convExpr_smooth : SmoothEnds convExpr := by
  intro c hc
  simp only [convExpr, List.mem_cons, List.not_mem_nil, or_false] at hc
  rcases hc with rfl | rfl
  · exact ⟨by fun_prop, by simp⟩
  · exact ⟨by fun_prop, by simp⟩

theorem convExpr_dual : DualEnds convExpr := by
  intro i j hi hj
  simp only [convExpr, List.length_cons, List.length_nil] at hi hj
  interval_cases i <;> interval_cases j <;> simp [convExpr]

/-- **C101, convection and diffusion**, D/Appendices/Appendix_D.py: the program returns the function with the least sum of squared defects among all the
object can give, it meets the conditions, and its distance from the solution is bounded. -/
theorem C101_convection (lib : LinAlg) (hlib : LinAlgCorrect lib) (N m : ℕ) (hN : 2 ≤ N) (hm : 2 ≤ m) (basis : String) (hb : basis ∈ smoothNames)
    (Pe : ℝ) (hP : 1e-13 < |Pe|) (w b : ℕ → ℝ) (fuel : ℕ) (hf : 52 ≤ fuel) :
    ∃ u xi y, ∃ it : ℕ, utfcInit N (.int 2) m basis (some 0) (some 1) "C++" w b = .ok u ∧
      calculateSolution lib N m basis Pe w b fuel = .ok (some (.arr xi, (it : ℤ))) ∧ Best1 u convExpr (convF Pe) xi y ∧ y 0 = 1 ∧ y 1 = 0 ∧
      ∀ ε L, (∀ t ∈ u.x, |convResid Pe y t| ≤ ε) → (∀ t ∈ Icc (0 : ℝ) 1, |deriv (convResid Pe y) t| ≤ L) → ∀ t ∈ Icc (0 : ℝ) 1,
        |y t - convReal Pe t| ≤ (ε + L * (Real.pi / (4 * ((N - 1 : ℕ) : ℝ)))) / |Pe| := by
  have hP0 : Pe ≠ 0 := fun e => by rw [e, abs_zero] at hP; norm_num at hP
  obtain ⟨u, hu, hr, hc, hl, hf0, hfl, -, -, -⟩ := object1 hN hm hb (Or.inl rfl) one_pos w b
  have hs := convExpr_smooth
  have hstart : ∃ t ∈ u.x, (1e-13 : ℝ) < |missF (convF Pe) (curve convExpr fun _ => 0) t| := by
    have hlast := (C13_points N hN (.int 2) m basis "C++" 0 1 one_pos w b u hu).2.2.2.2.1
    refine ⟨1, List.mem_of_getLast? hlast, ?_⟩
    have e : curve convExpr (fun _ => 0) = fun t => 1 - t := by
      funext t
      simp [curve, convExpr]
    have e1 : deriv (fun t : ℝ => 1 - t) = fun _ => -1 := by
      funext t
      simp
    rw [e]
    unfold missF convF
    rw [e1]
    simpa using hP
  obtain ⟨xi, y, it, h1, h2⟩ := C101_linear_nlls lib hlib .pinv (by decide) u hr (by omega) _ hs (convF Pe)
    ⟨fun _ => 0, fun _ => -Pe, fun _ => 1, fun _ => 0, fun x y y1 y2 => by unfold convF; ring⟩ 1e-13 (by norm_num) 50 (by norm_num) false fuel
    (by omega) hstart
  have hmeet := C101_meets u _ hs convExpr_dual xi _ h2.yields
  simp only [MeetsAll, convExpr, List.mem_cons, List.not_mem_nil, or_false, forall_eq_or_imp, forall_eq, iteratedDeriv_zero] at hmeet
  refine ⟨u, xi, y, it, hu, ?_, h2, hmeet.1, hmeet.2, fun ε L hε hL => ?_⟩
  · unfold calculateSolution
    simp only [hu, bind, Except.bind]
    exact h1
  · have hy := yields_contDiff hs h2.yields
    have h := between1 hN one_pos hu (F := convF Pe) (y := y) (fun t _ => missF_diff (by unfold convF; fun_prop) hy t) hε hL
    rw [sub_zero, one_mul] at h
    exact C96_convection Pe hP0 y (contDiff_two hy) hmeet.1 hmeet.2 h

/-- A case: the program as it is called in D/Appendices/Appendix_D.py with `Pe = 1`. -/
example (lib : LinAlg) (hlib : LinAlgCorrect lib) :
    ∃ xi, ∃ it : ℕ, calculateSolution lib 200 190 "LeP" 1 (fun _ => 0) (fun _ => 0) 60 = .ok (some (.arr xi, (it : ℤ))) := by
  obtain ⟨u, xi, y, it, -, h, -⟩ := C101_convection lib hlib 200 190 (by norm_num) (by norm_num) "LeP" (by decide) 1 (by norm_num) (fun _ => 0)
    (fun _ => 0) 60 (by norm_num)
  exact ⟨xi, it, h⟩

/-! ## The brachistochrone and the equation between initial and boundary values -/

theorem brachExpr_smooth (th0 thf r0 rf : ℝ) : SmoothEnds (brachExpr th0 thf r0 rf) := by
  intro c hc
  simp only [brachExpr, List.mem_cons, List.not_mem_nil, or_false] at hc
  rcases hc with rfl | rfl
  · exact ⟨by fun_prop, by simp⟩
  · exact ⟨by fun_prop, by simp⟩

theorem brachExpr_dual {th0 thf : ℝ} (h : th0 ≠ thf) (r0 rf : ℝ) : DualEnds (brachExpr th0 thf r0 rf) := by
  intro i j hi hj
  have h1 := sub_ne_zero.2 h
  have h2 := sub_ne_zero.2 h.symm
  simp only [brachExpr, List.length_cons, List.length_nil] at hi hj
  interval_cases i <;> interval_cases j <;> simp [brachExpr, h1, h2]

/-- **C101, the brachistochrone**, B/Chapter_3/Problem_4.py: the coefficients returned give a curve through both points, the last of a sequence of
Gauss–Newton steps. -/
theorem C101_brachistochrone (lib : LinAlg) (hlib : LinAlgCorrect lib) (n m : ℕ) (hn : 2 ≤ n) (hm : 2 ≤ m) (th0 thf r0 rf : ℝ) (ht : th0 < thf)
    (w b : ℕ → ℝ) (fuel : ℕ) (hf : 52 ≤ fuel) :
    ∃ u xi ys, ∃ it : ℕ, utfcInit n (.int 2) m "CP" (some th0) (some thf) "C++" w b = .ok u ∧
      runBrachistochrone lib n m th0 thf r0 rf w b fuel = .ok (some (.arr xi, (it : ℤ))) ∧
      Newton1 u (brachExpr th0 thf r0 rf) brachF 1e-13 50 xi it ys ∧ ys it th0 = r0 ∧ ys it thf = rf := by
  obtain ⟨u, hu, hr, hc, hl, -, -, -, -, -⟩ := object1 hn hm (basis := "CP") (by decide) (Or.inl rfl) ht w b
  have hs := brachExpr_smooth th0 thf r0 rf
  obtain ⟨xi, it, ys, h1, h2⟩ := newton1 hlib (method := .pinv) (by decide) hr (by intro e; rw [e] at hl; simp at hl; omega) (by omega) hs
    (F := brachF) (fun x => by unfold brachF; fun_prop) 1e-13 (by norm_num) 50 true fuel hf
  have hmeet := C101_meets u _ hs (brachExpr_dual ht.ne r0 rf) xi _ h2.last
  simp only [MeetsAll, brachExpr, List.mem_cons, List.not_mem_nil, or_false, forall_eq_or_imp, forall_eq, iteratedDeriv_zero] at hmeet
  refine ⟨u, xi, ys, it, hu, ?_, h2, hmeet.1, hmeet.2⟩
  unfold runBrachistochrone
  simp only [hu, bind, Except.bind]
  exact h1

theorem ivp2bvpExpr_smooth (z : List ℝ) (gamma a b c : ℝ) : SmoothEnds (ivp2bvpExpr z gamma a b c) := by
  intro e he
  simp only [ivp2bvpExpr, List.mem_cons, List.not_mem_nil, or_false] at he
  rcases he with rfl | rfl | rfl
  · exact ⟨by fun_prop, by simp⟩
  · exact ⟨by fun_prop, by simp⟩
  · exact ⟨by fun_prop, by simp⟩

/-- **C101, from initial to boundary values**, IVP2BVP.py: the run ends; unless the start already has defects within the tolerance, the function returned has
the least sum of squared defects among all the object can give. For `gamma` 0 it meets the initial conditions, for `gamma` 1 the boundary conditions. -/
theorem C101_ivp2bvp_partial (lib : LinAlg) (hlib : LinAlgCorrect lib) (N m : ℕ) (hN : 2 ≤ N) (hm : 2 ≤ m) (basis : String)
    (hb : basis = "CP" ∨ basis = "LeP") (gamma : ℝ) (w b : ℕ → ℝ) (fuel : ℕ) (hf : 52 ≤ fuel) :
    ∃ u xi y, ∃ it : ℕ, utfcInit N (.int 2) m basis (some (-1)) (some 1) "C++" w b = .ok u ∧
      runIvp2bvp lib N m gamma basis w b fuel = .ok (some (.arr xi, (it : ℤ))) ∧ Yields u (ivp2bvpExpr u.z gamma (-2) (-2) 2) xi y ∧
      ((∃ t ∈ u.x, (1e-13 : ℝ) < |missF ivp2bvpF (curve (ivp2bvpExpr u.z gamma (-2) (-2) 2) fun _ => 0) t|) →
        Best1 u (ivp2bvpExpr u.z gamma (-2) (-2) 2) ivp2bvpF xi y) ∧
      (gamma = 0 → y (-1) = -2 ∧ deriv y (-1) = -2) ∧ (gamma = 1 → y (-1) = -2 ∧ y 1 = 2) := by
  have hb' : basis ∈ smoothNames := by rcases hb with rfl | rfl <;> decide
  obtain ⟨u, hu, hr, hc, hl, -, -, -, -, -⟩ := object1 hN hm hb' (Or.inl rfl) (by norm_num : (-1 : ℝ) < 1) w b
  have hs := ivp2bvpExpr_smooth u.z gamma (-2) (-2) 2
  have hlin : LinearF ivp2bvpF := ⟨fun x => 6 * Real.sin (4 * x ^ 2) - Real.exp (Real.cos (3 * x)), fun x => Real.cos (3 * x ^ 2) - 3 * x + 1,
    fun _ => 1, fun x => -(2 * (1 - Real.sin (3 * x)) * (3 * x - Real.pi) / (4 - x)), fun x y y1 y2 => by unfold ivp2bvpF; ring⟩
  obtain ⟨xi, it, ys, h1, h2⟩ := newton1 hlib (method := .pinv) (by decide) hr (by intro e; rw [e] at hl; simp at hl; omega) (by omega) hs
    (F := ivp2bvpF) (fun x => by unfold ivp2bvpF; fun_prop) 1e-13 (by norm_num) 50 true fuel hf
  have hrun : runIvp2bvp lib N m gamma basis w b fuel = .ok (some (.arr xi, (it : ℤ))) := by
    unfold runIvp2bvp
    simp only [hu, bind, Except.bind]
    exact h1
  have hcond : (gamma = 0 → ys it (-1) = -2 ∧ deriv (ys it) (-1) = -2) ∧ (gamma = 1 → ys it (-1) = -2 ∧ ys it 1 = 2) := by
    obtain ⟨g, hg, he, hy⟩ := h2.last
    have e : ys it = ivp2bvp (fun d => iteratedDeriv d g) u.z gamma (-2) (-2) 2 := by
      rw [hy]
      funext t
      simp [curve, ivp2bvpExpr, ivp2bvp]
      ring
    have h := fun hg => (C77_ivp2bvp_partial N hN basis hb u ⟨_, _, _, _, _, hu⟩ hr xi _ he gamma (-2) (-2) 2 hg).2
    rw [e]
    exact ⟨fun h0 => (h (by rw [h0]; norm_num)).1 h0, fun h0 => (h (by rw [h0]; norm_num)).2 h0⟩
  refine ⟨u, xi, ys it, it, hu, hrun, h2.last, fun hstart => ?_, hcond⟩
  obtain ⟨xi', y', it', h3, h4⟩ := C101_linear_nlls lib hlib .pinv (by decide) u hr (by omega) _ hs _ hlin 1e-13 (by norm_num) 50 (by norm_num) true fuel
    hf hstart
  rw [h1] at h3
  simp only [Except.ok.injEq, Option.some.injEq, Prod.mk.injEq, View.arr.injEq] at h3
  obtain ⟨rfl, -⟩ := h3
  rw [yields_unique hr h2.last, ← yields_unique hr h4.yields]
  exact h4

end Verif.Props
