import Verif.Props.OdePrograms
import Verif.Props.SpectralLanding
import Verif.Spec.Spectral

/-!
# The spectral method for one unknown function

The conditions are rows of the least-squares problem, so they are met only as well as the equation.
-/

open Set Polynomial Verif Verif.Mem Verif.Py Verif.Np Verif.Spec Verif.Model Verif.Model.Py Verif.Model.LSq Verif.Model.Prog Verif.Model.Dict Verif.Lemmas.LSq

open scoped ContDiff

namespace Verif.Props

theorem noEnds : SmoothEnds [] := fun _ h => absurd h (by simp)

/-- All rows with their points. -/
def rowPlaces (rows : List SpecRows) : List ((ℝ → ℝ → ℝ → ℝ → ℝ) × ℝ) := (rows.map fun r => r.pts.map fun t => (r.F, t)).flatten

theorem sum_rowPlaces (rows : List SpecRows) (f : (ℝ → ℝ → ℝ → ℝ → ℝ) → ℝ → ℝ) :
    ((rowPlaces rows).map fun q => f q.1 q.2 ^ 2).sum = sumRows rows f := by
  unfold rowPlaces sumRows sumSq1
  induction rows with
  | nil => simp
  | cons r rows ih =>
    simp only [List.map_cons, List.flatten_cons, List.map_append, List.sum_append, List.sum_cons, ih, List.map_map]
    rfl

theorem mem_rowPlaces {rows : List SpecRows} {q : (ℝ → ℝ → ℝ → ℝ → ℝ) × ℝ} : q ∈ rowPlaces rows ↔ ∃ r ∈ rows, r.F = q.1 ∧ q.2 ∈ r.pts := by
  simp only [rowPlaces, List.mem_flatten, List.mem_map, exists_exists_and_eq_and]
  constructor
  · rintro ⟨r, hr, t, ht, rfl⟩
    exact ⟨r, hr, rfl, ht⟩
  · rintro ⟨r, hr, e, ht⟩
    exact ⟨r, hr, q.2, ht, by rw [e]⟩

theorem mapM_eq {α β : Type} {f : α → Except Err β} {g : α → β} (h : ∀ a, f a = .ok (g a)) (l : List α) : l.mapM f = .ok (l.map g) := by
  induction l with
  | nil => rfl
  | cons a l ih =>
    rw [List.mapM_cons, h a, ih]
    rfl

theorem specRes_value {u : Utfc} (hu : Ready u) (rows : List SpecRows) (xi : List ℝ) :
    specRes u rows xi = .ok ((rowPlaces rows).map fun q => curveMiss u [] q.1 (coef xi) q.2) := by
  obtain ⟨g, hg, he, e⟩ := yields_coef hu [] xi
  unfold specRes
  rw [mapM_eq (g := fun r => r.pts.map (missF r.F (curve [] g))) fun r => curveRes_ok noEnds r.F r.pts hg he]
  simp only [bind, Except.bind, pure, Except.pure]
  congr 1
  rw [← e]
  unfold rowPlaces
  rw [List.map_flatten, List.map_map]
  congr 1
  refine List.map_congr_left fun r _ => ?_
  simp only [Function.comp, List.map_map]
  rfl

theorem startSpec_value {u : Utfc} (hu : Ready u) (rows : List SpecRows) : startSpec u rows = .ok (List.replicate (cols1 u) 0) := by
  obtain ⟨A, hA, hc⟩ : ∃ A, u.Hjax u.x.length (fun j => u.x.getD j 0) 0 false = .ok A ∧ A.cols = cols1 u := by
    have := start_value hu noEnds fun _ _ _ _ => 0
    unfold startCurve at this
    cases hA : u.Hjax u.x.length (fun j => u.x.getD j 0) 0 false with
    | error e => rw [hA] at this; simp [bind, Except.bind] at this
    | ok A =>
      rw [hA] at this
      simp only [bind, Except.bind, residual_value hu noEnds, pure, Except.pure, Except.ok.injEq] at this
      exact ⟨A, rfl, by simpa using congrArg List.length this⟩
  unfold startSpec
  rw [hA]
  simp only [bind, Except.bind, specRes_value hu, hc, pure, Except.pure]

theorem curve_nil (g : ℝ → ℝ) : curve [] g = g := by
  funext x
  simp [curve]

/-- **C110, the iteration over all rows.** For every object, all rows with differentiable formulas, every tolerance below 1 and every limit: the solver returns
the result of a Gauss–Newton iteration in which every step minimises the sum of the squares of all linearised rows, those of the conditions included. -/
theorem C110_rows {lib : LinAlg} (hlib : LinAlgCorrect lib) {method : Method} (hm : method ≠ .other) {u : Utfc} (hu : Ready u) (hc : cols1 u ≠ 0)
    {rows : List SpecRows} (hne : ∃ r ∈ rows, r.pts ≠ []) (hF : ∀ r ∈ rows, DiffF r.F) (tol : ℝ) (htol : tol < 1) (maxIter : ℕ) (timer : Bool) (fuel : ℕ)
    (hf : maxIter + 2 ≤ fuel) :
    ∃ xi it ys, solveSpec lib method tol maxIter timer u rows fuel = .ok (some (.arr xi, ((it : ℕ) : ℤ))) ∧ NewtonRows u rows tol maxIter xi it ys := by
  obtain ⟨k, ξ, h1, h0, hr⟩ := newton_run hlib hm hc (args := []) (L := []) (by simp [GoodConstants]) (z := .arr (List.replicate (cols1 u) 0))
    trivial (pts := rowPlaces rows) (by
      obtain ⟨r, hr, hp⟩ := hne
      obtain ⟨t, ht⟩ := List.exists_mem_of_ne_nil _ hp
      exact List.ne_nil_of_mem (a := (r.F, t)) (mem_rowPlaces.2 ⟨r, hr, rfl, ht⟩)) (by simp [entries]) (res := specResidual u rows)
    (miss := fun c q => curveMiss u [] q.1 c q.2) (fun v hv => by
      cases v with
      | dict cls kvs => exact hv.elim
      | arr xi =>
        unfold specResidual
        simp only [specRes_value hu]
        rfl) (fun q hq => by
      obtain ⟨r, hr, e, -⟩ := mem_rowPlaces.1 hq
      have hs := curveMiss_smooth hu noEnds (F := q.1) (e ▸ hF r hr) q.2
      exact ⟨fun c c' h => hs.1 c c' h, fun c => hs.2 c⟩) tol htol maxIter timer fuel hf
  refine ⟨ξ k, k, fun j => curve [] (freeOf u (coef (ξ j))), ?_, hr.bound, ?_, fun j _ => ⟨ξ j, yields_coef hu [] _⟩, yields_coef hu [] _,
    fun j hj xi' w hw => ?_, ?_⟩
  · unfold solveSpec
    simp only [startSpec_value hu, bind, Except.bind]
    exact h1
  · beta_reduce
    rw [h0]
    show curve [] (freeOf u (coef (List.replicate (cols1 u) 0))) = _
    rw [coef_replicate, freeOf_zero, curve_nil]
  · rw [yields_unique hu hw]
    have := hr.step j hj (coef xi')
    have e : ∀ c z (q : (ℝ → ℝ → ℝ → ℝ → ℝ) × ℝ), linAt (fun c q => curveMiss u [] q.1 c q.2) c z q =
        linF q.1 (curve [] (freeOf u c)) (curve [] (freeOf u z)) q.2 := fun c z q => linAt_curve hu noEnds q.1 c z q.2
    simp only [e] at this
    rw [sum_rowPlaces rows fun F => linF F (curve [] (freeOf u (coef (ξ j)))) (curve [] (freeOf u (coef (ξ (j + 1))))),
      sum_rowPlaces rows fun F => linF F (curve [] (freeOf u (coef (ξ j)))) (curve [] (freeOf u (coef xi')))] at this
    exact this
  · rcases hr.stop with h | h | ⟨j, e, h⟩
    · exact Or.inl fun r hr t ht => h (r.F, t) (mem_rowPlaces.2 ⟨r, hr, rfl, ht⟩)
    · exact Or.inr (Or.inl h)
    · exact Or.inr (Or.inr ⟨j, ξ j, e, yields_coef hu [] _, h⟩)

/-- A linear equation linearised is the equation. -/
theorem linF_linear {F : ℝ → ℝ → ℝ → ℝ → ℝ} (hF : LinearF F) {y w : ℝ → ℝ} (hy : ContDiff ℝ ∞ y) (hw : ContDiff ℝ ∞ w) (x : ℝ) :
    linF F y w x = missF F w x := by
  obtain ⟨a, b, c, e, h⟩ := hF
  have y1 := contDiff_deriv hy
  have w1 := contDiff_deriv hw
  have dy : Differentiable ℝ y := hy.differentiable (by simp)
  have dw : Differentiable ℝ w := hw.differentiable (by simp)
  have dy1 : Differentiable ℝ (deriv y) := y1.differentiable (by simp)
  have dw1 : Differentiable ℝ (deriv w) := w1.differentiable (by simp)
  have e1 : ∀ s : ℝ, deriv (fun t => y t + s * (w t - y t)) = fun t => deriv y t + s * (deriv w t - deriv y t) := fun s => by
    funext t
    exact ((dy t).hasDerivAt.add (((dw t).hasDerivAt.sub (dy t).hasDerivAt).const_mul s)).deriv
  have e2 : ∀ s : ℝ, deriv (fun t => deriv y t + s * (deriv w t - deriv y t)) x =
      deriv (deriv y) x + s * (deriv (deriv w) x - deriv (deriv y) x) := fun s =>
    ((dy1 x).hasDerivAt.add (((dw1 x).hasDerivAt.sub (dy1 x).hasDerivAt).const_mul s)).deriv
  have key : (fun s : ℝ => missF F (fun t => y t + s * (w t - y t)) x) = fun s => missF F y x + s * (missF F w x - missF F y x) := by
    funext s
    unfold missF
    rw [e1, e2]
    simp only [h]
    ring
  unfold linF
  rw [key]
  have : HasDerivAt (fun s : ℝ => missF F y x + s * (missF F w x - missF F y x)) (missF F w x - missF F y x) 0 :=
    (((hasDerivAt_id (0 : ℝ)).mul_const _).const_add _).congr_deriv (by simp)
  rw [this.deriv]
  ring

/-- **C110, linear rows.** After a step of such an iteration with linear formulas the function has the least sum of squares over all rows. -/
theorem C110_linear {u : Utfc} {rows : List SpecRows} (hF : ∀ r ∈ rows, LinearF r.F) {tol : ℝ} {maxIter : ℕ} {xi : List ℝ} {it : ℕ} {ys : ℕ → ℝ → ℝ}
    (h : NewtonRows u rows tol maxIter xi it ys) (hit : it ≠ 0) : BestRows u rows xi (ys it) := by
  obtain ⟨j, rfl⟩ := Nat.exists_eq_succ_of_ne_zero hit
  obtain ⟨xj, hj⟩ := h.yields j (by omega)
  refine ⟨h.last, fun xi' w hw => ?_⟩
  have := h.step j (by omega) xi' w hw
  have e : ∀ {v xv}, Yields u [] xv v → sumRows rows (fun F => linF F (ys j) v) = sumRows rows fun F => missF F v := by
    intro v xv hv
    unfold sumRows sumSq1
    refine congrArg _ (List.map_congr_left fun r hr => congrArg _ (List.map_congr_left fun t _ => ?_))
    dsimp only
    rw [linF_linear (hF r hr) (yields_contDiff noEnds hj) (yields_contDiff noEnds hv)]
  rw [e hw, e h.last] at this
  exact this

theorem rows_zero {rows : List SpecRows} {y : ℝ → ℝ} (h : sumRows rows (fun F => missF F y) ≤ 0) : RowsWithin rows 0 y := by
  intro r hr t ht
  have h1 : sumSq1 r.pts (missF r.F y) ≤ sumRows rows fun F => missF F y :=
    List.single_le_sum (by
      simp only [List.mem_map]
      rintro _ ⟨s, -, rfl⟩
      exact List.sum_nonneg (by simp only [List.mem_map]; rintro _ ⟨q, -, rfl⟩; positivity)) _ (List.mem_map_of_mem (f := fun r => sumSq1 r.pts (missF r.F y)) hr)
  have h2 : missF r.F y t ^ 2 ≤ sumSq1 r.pts (missF r.F y) :=
    List.single_le_sum (by simp only [List.mem_map]; rintro _ ⟨s, -, rfl⟩; positivity) _ (List.mem_map_of_mem (f := fun t => missF r.F y t ^ 2) ht)
  have : missF r.F y t ^ 2 ≤ 0 := h2.trans (h1.trans h)
  have : missF r.F y t = 0 := by nlinarith
  rw [this, abs_zero]

theorem zero_rows {rows : List SpecRows} {y : ℝ → ℝ} (h : RowsWithin rows 0 y) : sumRows rows (fun F => missF F y) = 0 := by
  unfold sumRows sumSq1
  refine List.sum_eq_zero fun a ha => ?_
  obtain ⟨r, hr, rfl⟩ := List.mem_map.1 ha
  refine List.sum_eq_zero fun b hb => ?_
  obtain ⟨t, ht, rfl⟩ := List.mem_map.1 hb
  dsimp only
  rw [abs_nonpos_iff.1 (h r hr t ht)]
  ring

/-- **C110, exact cases.** If the object can give a function that makes all rows vanish, the rows of the least squares solution vanish. -/
theorem C110_exact {u : Utfc} {rows : List SpecRows} {xi : List ℝ} {y : ℝ → ℝ} (h : BestRows u rows xi y) {xi' : List ℝ} {w : ℝ → ℝ}
    (hw : Yields u [] xi' w) (h0 : RowsWithin rows 0 w) : RowsWithin rows 0 y := by
  have := h.best xi' w hw
  rw [zero_rows h0] at this
  exact rows_zero this

/-! ## Lane–Emden -/

theorem laneRows_diff (x : List ℝ) (k : ℕ) : ∀ r ∈ laneRows x 1 0 k, DiffF r.F := by
  intro r hr
  simp only [laneRows, List.mem_cons, List.not_mem_nil, or_false] at hr
  rcases hr with rfl | rfl | rfl
  · exact fun x => by dsimp only; fun_prop
  · exact fun x => by dsimp only; fun_prop
  · exact laneF_diff k

theorem laneRows_linear (x : List ℝ) {k : ℕ} (hk : k = 0 ∨ k = 1) : ∀ r ∈ laneRows x 1 0 k, LinearF r.F := by
  intro r hr
  simp only [laneRows, List.mem_cons, List.not_mem_nil, or_false] at hr
  rcases hr with rfl | rfl | rfl
  · exact ⟨fun _ => 1, fun _ => 0, fun _ => 0, fun _ => -1, fun x y y1 y2 => by ring⟩
  · exact ⟨fun _ => 0, fun _ => 1, fun _ => 0, fun _ => 0, fun x y y1 y2 => by ring⟩
  · exact laneF_linear hk

/-- What the rows say. -/
theorem laneRows_within {x : List ℝ} {k : ℕ} {tol : ℝ} {y : ℝ → ℝ} :
    RowsWithin (laneRows x 1 0 k) tol y ↔ |y (first x) - 1| ≤ tol ∧ |deriv y (first x)| ≤ tol ∧ ∀ t ∈ x, |laneResid k y t| ≤ tol := by
  have e : ∀ t, missF (laneF k) y t = laneResid k y t := fun t => rfl
  simp only [RowsWithin, laneRows, List.mem_cons, List.not_mem_nil, or_false, forall_eq_or_imp, forall_eq, missF, sub_zero]
  exact Iff.rfl

/-- **C110, Lane–Emden.** For every number of points, degree, smooth basis, interval, limit and natural number `type`: for types 0 and 1 the program returns
the coefficients of the function with the least sum of squares over the rows of both conditions and the equation, for type 5 the result of the iteration, and if
that ended because its rows were small, the conditions hold within `1e-13`; for all other types it ends with an error. -/
theorem C110_lane (lib : LinAlg) (hlib : LinAlgCorrect lib) (N m : ℕ) (hN : 2 ≤ N) (basis : String) (hb : basis ∈ smoothNames)
    (type : ℕ) (x0 xf : ℝ) (hx : x0 < xf) (iterMax : ℕ) (w b : ℕ → ℝ) (fuel : ℕ) (hf : iterMax + 3 ≤ fuel) :
    ∃ u, utfcInit N (.int 0) m basis (some x0) (some xf) "C++" w b = .ok u ∧
      (type = 0 ∨ type = 1 → ∃ xi y, laneEmdenSpec lib N m type x0 xf basis iterMax w b fuel = .ok (some (.arr xi)) ∧
        BestRows u (laneRows u.x 1 0 type) xi y) ∧
      (type = 5 → ∃ xi it ys, laneEmdenSpec lib N m type x0 xf basis iterMax w b fuel = .ok (some (.arr xi)) ∧
        NewtonRows u (laneRows u.x 1 0 type) 1e-13 iterMax xi it ys ∧
        (RowsWithin (laneRows u.x 1 0 type) 1e-13 (ys it) → |ys it x0 - 1| ≤ 1e-13 ∧ |deriv (ys it) x0| ≤ 1e-13)) ∧
      (type ≠ 0 → type ≠ 1 → type ≠ 5 → laneEmdenSpec lib N m type x0 xf basis iterMax w b fuel = .error .unboundLocal) := by
  obtain ⟨u, hu, hB, hr, hl, f1, l1, c1⟩ := objectK (k := 0) (m := m) hN (by omega) hb (Or.inl rfl) hx w b
  replace hu : utfcInit N (.int 0) m basis (some x0) (some xf) "C++" w b = .ok u := hu
  have hne : ∃ r ∈ laneRows u.x 1 0 type, r.pts ≠ [] := ⟨⟨[first u.x], fun _ y _ _ => y - 1⟩, by simp [laneRows], by simp⟩
  refine ⟨u, hu, fun ht => ?_, fun ht => ?_, fun h0 h1 h5 => ?_⟩
  · obtain ⟨xi, it, ys, h1, h2⟩ := C110_rows hlib (method := .pinv) (by decide) hr (by rw [c1]; omega) hne (laneRows_diff u.x type) 1e-13 (by norm_num) 1
      true fuel (by omega)
    refine ⟨xi, ys it, ?_, C110_linear (laneRows_linear u.x ht) h2 ?_⟩
    · unfold laneEmdenSpec
      rcases ht with rfl | rfl <;> simp [hu, bind, Except.bind, startSpec_value hr, h1] <;> rfl
    · rintro rfl
      rcases h2.stop with h | h | ⟨j, _, h, -⟩
      · have := (laneRows_within.1 h).1
        rw [h2.start] at this
        norm_num at this
      · omega
      · omega
  · subst ht
    obtain ⟨xi, it, ys, h1, h2⟩ := C110_rows hlib (method := .pinv) (by decide) hr (by rw [c1]; omega) hne (laneRows_diff u.x 5) 1e-13 (by norm_num)
      iterMax true fuel (by omega)
    refine ⟨xi, it, ys, ?_, h2, fun h => ?_⟩
    · unfold laneEmdenSpec
      simp [hu, bind, Except.bind, startSpec_value hr, h1]
      rfl
    · have := laneRows_within.1 h
      rw [f1] at this
      exact ⟨this.1, this.2.1⟩
  · unfold laneEmdenSpec
    simp [hu, bind, Except.bind, startSpec_value hr, h0, h1, h5]

/-- **C110, Lane–Emden, the error.** A function that starts at `y 0` instead of 1 and has defects at most `R` is within this distance of the solution. -/
theorem C110_lane_error (k : ℕ) (hk : k = 0 ∨ k = 1 ∨ k = 5) {L R B : ℝ} (hB1 : 1 ≤ B) (y : ℝ → ℝ) (hy : ContDiff ℝ 2 y)
    (hB : ∀ x ∈ Icc 0 L, |y x| + |y 0 - 1| ≤ B) (hR : ∀ x ∈ Icc 0 L, |laneResid k y x| ≤ R) :
    ∀ x ∈ Icc 0 L, |y x - laneReal k x| ≤ |y 0 - 1| + (R + L * (k * B ^ (k - 1) * |y 0 - 1|)) * Real.exp ((1 + k * B ^ (k - 1)) * x) := by
  intro x hx
  obtain ⟨z, hz⟩ : ∃ z : ℝ → ℝ, z = fun t => y t - (y 0 - 1) := ⟨_, rfl⟩
  have d1 : deriv z = deriv y := by rw [hz]; funext t; exact deriv_sub_const _
  have hzB : ∀ t ∈ Icc 0 L, |z t| ≤ B := fun t ht => by
    rw [hz]
    exact (abs_sub _ _).trans (hB t ht)
  have hyB : ∀ t ∈ Icc 0 L, |y t| ≤ B := fun t ht => le_trans (le_add_of_nonneg_right (abs_nonneg _)) (hB t ht)
  have hpow : ∀ t ∈ Icc 0 L, |z t ^ k - y t ^ k| ≤ k * B ^ (k - 1) * |y 0 - 1| := by
    intro t ht
    have e : |z t - y t| = |y 0 - 1| := by rw [hz]; dsimp only; rw [sub_sub_cancel_left, abs_neg]
    have h1 : z t ^ k - y t ^ k = (∑ i ∈ Finset.range k, z t ^ i * y t ^ (k - 1 - i)) * (z t - y t) := (geom_sum₂_mul _ _ _).symm
    rw [h1, abs_mul, e]
    refine mul_le_mul_of_nonneg_right ((Finset.abs_sum_le_sum_abs _ _).trans ?_) (abs_nonneg _)
    have : ∀ i ∈ Finset.range k, |z t ^ i * y t ^ (k - 1 - i)| ≤ B ^ (k - 1) := by
      intro i hi
      have hi := Finset.mem_range.1 hi
      rw [abs_mul, abs_pow, abs_pow]
      calc |z t| ^ i * |y t| ^ (k - 1 - i) ≤ B ^ i * B ^ (k - 1 - i) :=
            mul_le_mul (pow_le_pow_left₀ (abs_nonneg _) (hzB t ht) _) (pow_le_pow_left₀ (abs_nonneg _) (hyB t ht) _) (by positivity) (by positivity)
        _ = B ^ (k - 1) := by rw [← pow_add]; congr 1; omega
    refine (Finset.sum_le_sum this).trans (le_of_eq ?_)
    rw [Finset.sum_const, Finset.card_range, nsmul_eq_mul]
  have hL : 0 ≤ L := hx.1.trans hx.2
  have hRz : ∀ t ∈ Icc 0 L, |laneResid k z t| ≤ R + L * (k * B ^ (k - 1) * |y 0 - 1|) := by
    intro t ht
    have e : laneResid k z t = laneResid k y t + t * (z t ^ k - y t ^ k) := by
      unfold laneResid
      rw [d1]
      ring
    rw [e]
    refine (abs_add_le _ _).trans (add_le_add (hR t ht) ?_)
    rw [abs_mul, abs_of_nonneg ht.1]
    exact mul_le_mul ht.2 (hpow t ht) (abs_nonneg _) hL
  have h0 : z 0 = 1 := by rw [hz]; ring
  have hzc : ContDiff ℝ 2 z := by rw [hz]; exact hy.sub contDiff_const
  have key := C96_lane k hk hB1 z hzc h0 hzB hRz x hx
  have e : y x - laneReal k x = (y 0 - 1) + (z x - laneReal k x) := by rw [hz]; ring
  rw [e]
  exact (abs_add_le _ _).trans (add_le_add_right key _)

/-- A case: the constant 1/2 for `k = 1` on the unit interval. -/
example : ∀ x ∈ Icc (0 : ℝ) 1, |(1 / 2 : ℝ) - laneReal 1 x| ≤ 1 / 2 + (1 / 2 + 1 * (1 * 1 * (1 / 2))) * Real.exp ((1 + 1 * 1) * x) := by
  have := C110_lane_error 1 (Or.inr (Or.inl rfl)) (L := 1) (R := 1 / 2) (B := 1) le_rfl (fun _ => 1 / 2) contDiff_const
    (fun x _ => by norm_num) (fun x hx => by
      unfold laneResid
      simp
      rw [abs_of_nonneg hx.1]
      linarith [hx.2])
  intro x hx
  have h := this x hx
  norm_num at h ⊢
  exact h

/-- **C110, Lane–Emden with `type = 0`, exactly.** With a polynomial basis of degree at least 2 and at least as many points as the degree the program returns the
coefficients of the solution `1 - x²/6` itself, on the whole line. -/
theorem C110_lane0 (lib : LinAlg) (hlib : LinAlgCorrect lib) (N m : ℕ) (hN : 2 ≤ N) (hm : 2 ≤ m) (hNm : m ≤ N) (basis : String)
    (hb : basis = "CP" ∨ basis = "LeP") (xf : ℝ) (hxf : 0 < xf) (iterMax : ℕ) (w b : ℕ → ℝ) (fuel : ℕ) (hf : iterMax + 3 ≤ fuel) :
    ∃ u xi, utfcInit N (.int 0) m basis (some 0) (some xf) "C++" w b = .ok u ∧
      laneEmdenSpec lib N m 0 0 xf basis iterMax w b fuel = .ok (some (.arr xi)) ∧ Yields u [] xi (laneReal 0) := by
  have hb' : basis ∈ smoothNames := by rcases hb with rfl | rfl <;> decide
  obtain ⟨u, hu, h01, -, -⟩ := C110_lane lib hlib N m hN basis hb' 0 0 xf hxf iterMax w b fuel hf
  obtain ⟨xi, y, h1, hbest⟩ := h01 (Or.inl rfl)
  obtain ⟨u', hu', -, hr, hl, hf0, -, -⟩ := objectK (k := 0) (m := m) hN (by omega) hb' (Or.inl rfl) hxf w b
  replace hu' : utfcInit N (.int 0) m basis (some 0) (some xf) "C++" w b = .ok u' := hu'
  rw [hu] at hu'
  cases hu'
  obtain ⟨hdeg, hx0, hx1, k1, k2⟩ := init_fields hu
  obtain ⟨f, hcls⟩ : ∃ f, u.cls = .poly f := by
    rcases hb with rfl | rfl
    · have h : u.basis = .cp := (Option.some.inj k1).symm
      rw [h] at k2
      exact ⟨_, k2⟩
    · have h : u.basis = .lep := (Option.some.inj k1).symm
      rw [h] at k2
      exact ⟨_, k2⟩
  have hx : u.x0 ≠ u.xf := by rw [hx0, hx1]; exact hxf.ne
  have hnc := init_nil hu
  have hreal : laneReal 0 = fun x => (1 - C (1 / 6 : ℝ) * X ^ 2 : ℝ[X]).eval x := by
    funext x
    simp [laneReal]
  have dq : deriv (laneReal 0) = fun x => -(1 / 3) * x := by
    rw [hreal]
    funext x
    rw [Polynomial.deriv]
    simp
    ring
  have hzero : ∀ t, laneResid 0 (laneReal 0) t = 0 := fun t => by
    unfold laneResid
    rw [dq, deriv_const_mul_field, deriv_id'']
    ring
  have hwrows : RowsWithin (laneRows u.x 1 0 0) 0 (laneReal 0) := by
    refine laneRows_within.2 ⟨?_, ?_, fun t _ => by rw [hzero, abs_zero]⟩
    · rw [hf0]; simp [laneReal]
    · rw [dq, hf0]; simp
  obtain ⟨c, hc⟩ := freeOf_reach hcls hnc hx (p := 1 - C (1 / 6 : ℝ) * X ^ 2) (by
    rw [hdeg]
    exact lt_of_le_of_lt (b := (2 : WithBot ℕ)) (by compute_degree!) (by exact_mod_cast (by omega : 2 < m + 1)))
  obtain ⟨xi', -, hxi'⟩ := exists_list (cols1 u) c
  have hw : Yields u [] xi' (laneReal 0) := by
    have := yields_coef hr [] xi'
    rwa [curve_nil, freeOf_congr u hxi', hc, ← hreal] at this
  obtain ⟨r1, r2, r3⟩ := laneRows_within.1 (C110_exact hbest hw hwrows)
  rw [hf0] at r1 r2
  simp only [abs_nonpos_iff] at r1 r2 r3
  have hyf := yields_unique hr hbest.yields
  rw [curve_nil] at hyf
  obtain ⟨p, hp, hpe⟩ := freeOf_poly hcls hx (coef xi)
  rw [hpe] at hyf
  subst hyf
  obtain ⟨R, hR⟩ : ∃ R : ℝ[X], R = X * derivative (derivative p) + 2 * derivative p + X := ⟨_, rfl⟩
  have hRe : ∀ t, laneResid 0 (fun x => p.eval x) t = R.eval t := fun t => by
    have e : deriv (fun x => p.eval x) = fun x => (derivative p).eval x := by funext x; exact p.deriv
    unfold laneResid
    rw [e, Polynomial.deriv, hR]
    simp
  have hRd : R.natDegree < N := by
    have h1 : p.natDegree ≤ m := by
      rw [hdeg] at hp
      exact natDegree_le_of_degree_le (Order.le_of_lt_succ (by exact_mod_cast hp))
    have h2 : (derivative p).natDegree ≤ m - 1 := (natDegree_derivative_le p).trans (by omega)
    have h3 : (derivative (derivative p)).natDegree ≤ m - 2 := (natDegree_derivative_le _).trans (by omega)
    have : R.natDegree ≤ m - 1 := by
      rw [hR]
      refine natDegree_add_le_of_degree_le (natDegree_add_le_of_degree_le ?_ ?_) ?_
      · refine natDegree_mul_le.trans ?_
        rw [natDegree_X]
        omega
      · refine natDegree_mul_le.trans ?_
        rw [natDegree_ofNat]
        omega
      · rw [natDegree_X]
        omega
    omega
  have hR0 : R = 0 := by
    have hnd : u.x.Nodup := (C13_points N hN (.int 0) m basis "C++" 0 xf hxf w b u hu).2.2.1.imp fun h => h.ne
    refine eq_zero_of_natDegree_lt_card_of_eval_eq_zero' R u.x.toFinset (fun t ht => ?_) ?_
    · rw [← hRe]
      exact r3 t (List.mem_toFinset.1 ht)
    · rw [List.toFinset_card_of_nodup hnd, hl]
      exact hRd
  have hy0 : (fun x => p.eval x) = laneReal 0 := by
    have h0 : p.eval 0 = 1 := by linarith
    obtain ⟨B, hB⟩ := (isCompact_Icc (a := (0 : ℝ)) (b := xf)).exists_bound_of_continuousOn (f := fun x => p.eval x) (eval_smooth p).continuous.continuousOn
    have hI : ∀ x ∈ Icc 0 xf, p.eval x = laneReal 0 x := fun x hx => by
      have := C96_lane 0 (Or.inl rfl) (L := xf) (R := 0) (B := max 1 B) (le_max_left _ _) (fun x => p.eval x) (contDiff_two (eval_smooth p)) h0
        (fun x hx => (hB x hx).trans (le_max_right _ _)) (fun x _ => by
          rw [hRe, hR0]
          simp) x hx
      rw [zero_mul, abs_nonpos_iff] at this
      linarith
    have : p = 1 - C (1 / 6 : ℝ) * X ^ 2 := by
      refine Polynomial.eq_of_infinite_eval_eq p _ ((Icc_infinite hxf).mono fun x hx => ?_)
      show p.eval x = _
      rw [hI x hx, hreal]
    rw [hreal, this]
  refine ⟨u, xi, hu, h1, ?_⟩
  rw [← hy0]
  exact hbest.yields

/-- A case: 20 points and degree 15, as in the programs. -/
example (w b : ℕ → ℝ) : ∃ lib u xi, utfcInit 20 (.int 0) 15 "CP" (some 0) (some 10) "C++" w b = .ok u ∧
    laneEmdenSpec lib 20 15 0 0 10 "CP" 100 w b 103 = .ok (some (.arr xi)) ∧ Yields u [] xi (laneReal 0) := by
  obtain ⟨lib, hlib⟩ := Verif.Lemmas.LinAlg.linAlg_exists
  exact ⟨lib, C110_lane0 lib hlib 20 15 (by norm_num) (by norm_num) (by norm_num) "CP" (Or.inl rfl) 10 (by norm_num) 100 w b 103 le_rfl⟩

/-- **The conditions are not built in.** For `type = 1` with the constants only, every number of points and every interval from 0, the returned function does
not start at 1, while the same program with the constrained expression does for all coefficients (`C101_laneTfc`). -/
theorem C110_conditions_fails (lib : LinAlg) (hlib : LinAlgCorrect lib) (N : ℕ) (hN : 2 ≤ N) (xf : ℝ) (hxf : 0 < xf) (iterMax : ℕ) (w b : ℕ → ℝ) (fuel : ℕ)
    (hf : iterMax + 3 ≤ fuel) :
    ∃ u xi y, utfcInit N (.int 0) 0 "CP" (some 0) (some xf) "C++" w b = .ok u ∧
      laneEmdenSpec lib N 0 1 0 xf "CP" iterMax w b fuel = .ok (some (.arr xi)) ∧ Yields u [] xi y ∧ y 0 ≠ 1 := by
  have hb' : "CP" ∈ smoothNames := by decide
  obtain ⟨u, hu, h01, -, -⟩ := C110_lane lib hlib N 0 hN "CP" hb' 1 0 xf hxf iterMax w b fuel hf
  obtain ⟨xi, y, h1, hbest⟩ := h01 (Or.inr rfl)
  refine ⟨u, xi, y, hu, h1, hbest.yields, fun hy1 => ?_⟩
  obtain ⟨u', hu', -, hr, hl, hf0, hfl, -⟩ := objectK (k := 0) (m := 0) hN (by omega) hb' (Or.inl rfl) hxf w b
  replace hu' : utfcInit N (.int 0) 0 "CP" (some 0) (some xf) "C++" w b = .ok u' := hu'
  rw [hu] at hu'
  cases hu'
  obtain ⟨hdeg, hx0, hx1, k1, k2⟩ := init_fields hu
  have hcls : u.cls = .poly .cp := by
    have h : u.basis = .cp := (Option.some.inj k1).symm
    rw [h] at k2
    exact k2
  have hconst : ∀ c, freeOf u c = fun _ => c 0 := fun c => by
    funext x
    rw [freeOf_full hcls (init_nil hu), hdeg]
    simp [classical]
  have hy := yields_unique hr hbest.yields
  rw [curve_nil, hconst] at hy
  have hc1 : coef xi 0 = 1 := by rw [hy] at hy1; exact hy1
  rw [hc1] at hy
  obtain ⟨S, hS⟩ : ∃ S, S = (u.x.map fun t => t ^ 2).sum := ⟨_, rfl⟩
  have hval : ∀ c : ℝ, sumRows (laneRows u.x 1 0 1) (fun F => missF F fun _ => c) = (c - 1) ^ 2 + S * c ^ 2 := by
    intro c
    have e : (u.x.map fun t => (t * c) ^ 2) = (u.x.map fun t => t ^ 2 * c ^ 2) := List.map_congr_left fun t _ => by ring
    simp only [sumRows, laneRows, sumSq1, missF, laneF, List.map_cons, List.map_nil, List.sum_cons, List.sum_nil, deriv_const', mul_zero, zero_add, pow_one,
      add_zero, sub_zero]
    rw [e, List.sum_map_mul_right, hS]
    ring
  have hSpos : 0 < S := by
    have hlast := (C13_points N hN (.int 0) 0 "CP" "C++" 0 xf hxf w b u hu).2.2.2.2.1
    have h2 : xf ^ 2 ≤ S := by
      rw [hS]
      exact List.single_le_sum (by simp only [List.mem_map]; rintro _ ⟨s, -, rfl⟩; positivity) _
        (List.mem_map_of_mem (f := fun t : ℝ => t ^ 2) (List.mem_of_getLast? hlast))
    have : 0 < xf ^ 2 := by positivity
    linarith
  have := hbest.best [1 / (1 + S)] (fun _ => 1 / (1 + S)) (by
    have := yields_coef hr [] [1 / (1 + S)]
    rw [curve_nil, hconst] at this
    exact this)
  rw [hy, hval, hval] at this
  have e : (1 / (1 + S) - 1) ^ 2 + S * (1 / (1 + S)) ^ 2 = S / (1 + S) := by
    field_simp
    ring
  rw [e] at this
  have h3 : S / (1 + S) < S := by
    rw [div_lt_iff₀ (by linarith)]
    nlinarith
  linarith

/-! ## The boundary value problem -/

/-- **C110, the boundary value problem.** For every number of points, degree, smooth basis and limit the program returns the result of the iteration over the rows
of both conditions and the equation; if it ended because its rows were small, the boundary values hold within `1e-13`. -/
theorem C110_bvp (lib : LinAlg) (hlib : LinAlgCorrect lib) (N m : ℕ) (hN : 2 ≤ N) (basis : String) (hb : basis ∈ smoothNames)
    (iterMax : ℕ) (w b : ℕ → ℝ) (fuel : ℕ) (hf : iterMax + 2 ≤ fuel) :
    ∃ u xi ys, ∃ it : ℕ, utfcInit N (.int 0) m basis (some 0) (some Real.pi) "C++" w b = .ok u ∧
      runBvpSpec lib N m basis iterMax w b fuel = .ok (some (.arr xi, (it : ℤ))) ∧ NewtonRows u (bvpRows u.x 0 0) 1e-13 iterMax xi it ys ∧
      (RowsWithin (bvpRows u.x 0 0) 1e-13 (ys it) → |ys it 0| ≤ 1e-13 ∧ |ys it Real.pi| ≤ 1e-13 ∧ ∀ t ∈ u.x, |bvpResid (ys it) t| ≤ 1e-13) := by
  obtain ⟨u, hu, -, hr, hl, f1, l1, c1⟩ := objectK (k := 0) (m := m) hN (by omega) hb (Or.inl rfl) Real.pi_pos w b
  replace hu : utfcInit N (.int 0) m basis (some 0) (some Real.pi) "C++" w b = .ok u := hu
  have hne : ∃ r ∈ bvpRows u.x 0 0, r.pts ≠ [] := ⟨⟨[first u.x], fun _ y _ _ => y - 0⟩, by simp [bvpRows], by simp⟩
  obtain ⟨xi, it, ys, h1, h2⟩ := C110_rows hlib (method := .pinv) (by decide) hr (by rw [c1]; omega) hne (by
    intro r hr
    simp only [bvpRows, List.mem_cons, List.not_mem_nil, or_false] at hr
    rcases hr with rfl | rfl | rfl
    · exact fun x => by dsimp only; fun_prop
    · exact fun x => by unfold bvpFormula; fun_prop
    · exact fun x => by dsimp only; fun_prop) 1e-13 (by norm_num) iterMax true fuel hf
  refine ⟨u, xi, ys, it, hu, ?_, h2, fun h => ?_⟩
  · unfold runBvpSpec
    simp only [hu, bind, Except.bind]
    exact h1
  · have a1 := h ⟨[first u.x], fun _ y _ _ => y - 0⟩ (by simp [bvpRows]) _ (List.mem_singleton_self _)
    have a2 := h ⟨u.x, bvpFormula⟩ (by simp [bvpRows])
    have a3 := h ⟨[last u.x], fun _ y _ _ => y - 0⟩ (by simp [bvpRows]) _ (List.mem_singleton_self _)
    rw [f1] at a1
    rw [l1] at a3
    simp only [missF, sub_zero] at a1 a3
    exact ⟨a1, a3, a2⟩

/-- A case: at the start of the iteration, zero, the rows of the program are not small, so with `iterMax ≥ 1` at least one step is made. -/
example : ¬ RowsWithin (bvpRows [0, Real.pi / 2, Real.pi] 0 0) 1e-13 fun _ => 0 := by
  intro h
  have := h ⟨[0, Real.pi / 2, Real.pi], bvpFormula⟩ (by simp [bvpRows]) 0 (by simp)
  simp [missF, bvpFormula, bvpF] at this
  norm_num at this

end Verif.Props
