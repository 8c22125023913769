import Verif.Spec.Propagate
import Verif.Props.ClassArgs
import Verif.Props.OdePrograms

/-!
# C102: initial value problems solved step by step
-/

namespace Verif.Props

open Set Polynomial Verif Verif.Mem Verif.Py Verif.Np Verif.Spec Verif.Model Verif.Model.Py Verif.Model.LSq Verif.Model.Prog Verif.Lemmas.LSq
open scoped ContDiff

theorem last_map {f : ℝ → ℝ} {l : List ℝ} (h : l ≠ []) : last (l.map f) = f (last l) := by
  unfold last
  rw [List.getLastD_eq_getLast?, List.getLastD_eq_getLast?, List.getLast?_map, List.getLast?_eq_some_getLast h]
  rfl

/-- A round saves the values of the function and hands on its value and its derivative at the end. -/
theorem finishRound_ok {u : Utfc} (hu : Ready u) (hx : u.x ≠ []) (F : ℝ → ℝ → ℝ → ℝ → ℝ) (s : MarchState) {xi : List ℝ} {y : ℝ → ℝ}
    (hy : Yields u (ivpExpr u.x s.y0 s.y0p) xi y) :
    finishRound u F s xi = .ok ⟨y (last u.x), deriv y (last u.x), if s.rows.length > 0 then s.xFinal + last u.x else s.xFinal,
      s.rows ++ [⟨if s.rows.length > 0 then u.x.dropLast.map (s.xFinal + ·) else u.x.dropLast, u.x.dropLast.map y,
        u.x.dropLast.map fun t => |missF F y t|⟩]⟩ := by
  obtain ⟨g, hg, he, rfl⟩ := hy
  have hs := ivpExpr_smooth u.x s.y0 s.y0p
  obtain ⟨v0, e0, h0⟩ := curveD_ok hs hg he (d := 0) (by omega) u.x.length fun j => u.x.getD j 0
  obtain ⟨v1, e1, h1⟩ := curveD_ok (ivpExpr_smooth u.x (curve (ivpExpr u.x s.y0 s.y0p) g (last u.x)) s.y0p) hg he (d := 1) (by omega) u.x.length
    fun j => u.x.getD j 0
  have hv : (List.range u.x.length).map v0 = u.x.map (curve (ivpExpr u.x s.y0 s.y0p) g) := by
    rw [← map_range_getD]
    refine List.map_congr_left fun j hj => ?_
    rw [h0 j (List.mem_range.1 hj), iteratedDeriv_zero]
  have hd : ∀ a, deriv (curve (ivpExpr u.x a s.y0p) g) = deriv (curve (ivpExpr u.x s.y0 s.y0p) g) := by
    intro a
    have e : ∀ a, curve (ivpExpr u.x a s.y0p) g = fun t => (g t + t * (s.y0p - iteratedDeriv 1 g (first u.x))) + (a - g (first u.x)) := by
      intro a
      funext t
      simp [curve, ivpExpr]
      ring
    rw [e a, e s.y0]
    funext t
    rw [deriv_add_const, deriv_add_const]
  have hv1 : (List.range u.x.length).map v1 = u.x.map (deriv (curve (ivpExpr u.x s.y0 s.y0p) g)) := by
    rw [← map_range_getD]
    refine List.map_congr_left fun j hj => ?_
    rw [h1 j (List.mem_range.1 hj), iteratedDeriv_one, hd]
  unfold finishRound curveEval
  simp only [e0, curveRes_ok hs F u.x hg he, bind, Except.bind, pure, Except.pure, hv, last_map hx, e1, hv1]
  simp only [List.map_dropLast, List.map_map]
  rfl

/-- The state after `n` rounds. -/
structure Reached (u : Utfc) (F : ℝ → ℝ → ℝ → ℝ → ℝ) (L y0 y0p : ℝ) (n : ℕ) (ys : ℕ → ℝ → ℝ) (s : MarchState) : Prop extends
    Marched u F L y0 y0p n ys s where
  final : s.xFinal = (max n 1 : ℕ) * L
  now0 : n = 0 → s.y0 = y0 ∧ s.y0p = y0p
  now : ∀ k, n = k + 1 → s.y0 = ys k L ∧ s.y0p = deriv (ys k) L

theorem reached_step {u : Utfc} (hu : Ready u) (hx : u.x ≠ []) (hf : first u.x = 0) {L : ℝ} (hl : last u.x = L) {F : ℝ → ℝ → ℝ → ℝ → ℝ} {y0 y0p : ℝ}
    {n : ℕ} {ys : ℕ → ℝ → ℝ} {s : MarchState} (h : Reached u F L y0 y0p n ys s) {xi : List ℝ} {y : ℝ → ℝ}
    (hy : Yields u (ivpExpr u.x s.y0 s.y0p) xi y) :
    ∃ s', finishRound u F s xi = .ok s' ∧ Reached u F L y0 y0p (n + 1) (fun i => if i < n then ys i else y) s' ∧ y 0 = s.y0 ∧ deriv y 0 = s.y0p := by
  have hs := ivpExpr_smooth u.x s.y0 s.y0p
  have hm := C101_meets u _ hs (ivpExpr_dual hf _ _) xi y hy
  simp only [MeetsAll, ivpExpr, hf, List.mem_cons, List.not_mem_nil, or_false, forall_eq_or_imp, forall_eq, iteratedDeriv_zero,
    iteratedDeriv_one] at hm
  have hlen : s.rows.length = n := by rw [h.rows]; simp
  refine ⟨_, finishRound_ok hu hx F s hy, ⟨⟨fun i hi => ?_, fun _ => ?_, fun i hi => ?_, ?_⟩, ?_, fun e => by omega, fun k hk => ?_⟩, hm.1, hm.2⟩
  · beta_reduce
    split
    · exact h.smooth i ‹_›
    · exact yields_contDiff hs hy
  · beta_reduce
    by_cases hn : 0 < n
    · rw [if_pos hn]
      exact h.start hn
    · rw [if_neg hn]
      obtain ⟨a, b⟩ := h.now0 (by omega)
      exact ⟨hm.1.trans a, hm.2.trans b⟩
  · beta_reduce
    rw [if_pos (show i < n by omega)]
    by_cases hn : i + 1 < n
    · rw [if_pos hn]
      exact h.join i hn
    · rw [if_neg hn]
      obtain ⟨a, b⟩ := h.now i (by omega)
      exact ⟨hm.1.trans a, hm.2.trans b⟩
  · dsimp only
    rw [List.range_succ, List.map_append, List.map_singleton, if_neg (lt_irrefl n), hlen]
    congr 1
    · rw [h.rows]
      refine List.map_congr_left fun i hi => ?_
      rw [if_pos (List.mem_range.1 hi)]
    · congr 2
      by_cases hn : n > 0
      · rw [if_pos hn, h.final, Nat.max_eq_left hn]
      · obtain rfl : n = 0 := by omega
        simp
  · dsimp only
    rw [hlen, h.final, hl, Nat.max_eq_left (Nat.le_add_left 1 n)]
    by_cases hn : n > 0
    · rw [if_pos hn, Nat.max_eq_left hn]
      push_cast
      ring
    · obtain rfl : n = 0 := by omega
      simp
  · obtain rfl : k = n := by omega
    rw [if_neg (lt_irrefl _), ← hl]
    exact ⟨rfl, rfl⟩

theorem reached_start (u : Utfc) (F : ℝ → ℝ → ℝ → ℝ → ℝ) {L : ℝ} (hl : last u.x = L) (y0 y0p : ℝ) (ys : ℕ → ℝ → ℝ) :
    Reached u F L y0 y0p 0 ys ⟨y0, y0p, last u.x, []⟩ :=
  ⟨⟨by simp, by simp, by simp, rfl⟩, by simp [hl], fun _ => ⟨rfl, rfl⟩, by simp⟩

/-! ## The loops, for any equation -/

/-- The least squares object of E 81 solves every step. -/
theorem lsStep {lib : LinAlg} (hlib : LinAlgCorrect lib) {u : Utfc} (hu : Ready u) {F : ℝ → ℝ → ℝ → ℝ → ℝ} (hF : LinearF F) (a b : ℝ) :
    ∃ o, (LsObj.init lib .pinv none true (marchResX u F) (.arr (List.replicate (cols1 u) 0)) [.arr u.x, .arr [a, b]] [1]).1 = .ok o ∧
      ∀ (c : Bool) (a' b' : ℝ), ∃ h xi y, LsObj.run { o with compiled := c } noHeap (.arr (List.replicate (cols1 u) 0)) [.arr [a', b']] =
        .ok (h, .arr xi, { o with compiled := true }) ∧ Best1 u (ivpExpr u.x a' b') F xi y := by
  obtain ⟨o, h1, h2⟩ := C36_lsClass_args_partial lib hlib .pinv (by decide) none (marchResX u F) (.arr (List.replicate (cols1 u) 0))
    [.arr u.x, .arr [a, b]] [1] ⟨by simp, by simp⟩ trivial
  refine ⟨o, h1, fun c a' b' => ?_⟩
  have hs := ivpExpr_smooth u.x a' b'
  have hres : ∀ v, SameForm (.arr (List.replicate (cols1 u) 0)) v →
      marchResX u F (v :: [.arr u.x, .arr [a', b']]) = curveResidual u (ivpExpr u.x a' b') F [v] := by
    intro v hv
    cases v with
    | dict cls kvs => exact hv.elim
    | arr xi => rfl
  obtain ⟨rest, h3, h4⟩ := h2 [.arr u.x, .arr [a', b']] ⟨rfl, by simp⟩
  have hrest : rest = [.arr [a', b']] := by
    have e : remaining [1] [(.arr (List.replicate (cols1 u) 0) : View Unit), .arr u.x, .arr [a', b']] =
        [.arr (List.replicate (cols1 u) 0), .arr [a', b']] := rfl
    rw [e] at h3
    cases h3
    rfl
  subst hrest
  obtain ⟨A, bb, hA⟩ := curve_affineIn hF hu hs
  obtain ⟨h, x, h5, h6⟩ := h4 u.x.length A bb (fun v hv => by rw [hres v hv]; exact hA v hv) (Or.inl rfl) c noHeap
    (.arr (List.replicate (cols1 u) 0)) trivial (SameForm.refl _)
  have h7 : IsLeastSquares (curveResidual u (ivpExpr u.x a' b') F) (.arr (List.replicate (cols1 u) 0)) [] (x.view h) := by
    refine ⟨h6.1, fun v hv => ?_⟩
    have := h6.2 v hv
    rwa [hres _ h6.1, hres v hv] at this
  cases x with
  | dict cls d => exact h6.1.elim
  | arr xi =>
    obtain ⟨xi', e, h8⟩ := best_of_ls hu hs h7
    cases e
    exact ⟨h, xi, _, h5, h8⟩

/-- The nonlinear object of P 95 runs in every step. -/
theorem nllsStep {lib : LinAlg} (hlib : LinAlgCorrect lib) {u : Utfc} (hu : Ready u) (hx : u.x ≠ []) (hc : cols1 u ≠ 0) {F : ℝ → ℝ → ℝ → ℝ → ℝ}
    (hF : DiffF F) (tol : ℝ) (htol : tol < 1) (maxIter fuel : ℕ) (hf : maxIter + 2 ≤ fuel) (a b : ℝ) :
    ∃ o, (NllsObj.init lib .pinv none none none tol maxIter true (marchRes u F) (.arr (List.replicate (cols1 u) 0)) [.arr [a, b]] []).1 = .ok o ∧
      ∀ (c : Bool) (a' b' : ℝ), ∃ xi ys, ∃ it : ℕ, NllsObj.run { o with compiled := c } (.arr (List.replicate (cols1 u) 0)) [.arr [a', b']] fuel =
        (.ok (some (.arr xi, (it : ℤ))), { o with compiled := true }) ∧ Newton1 u (ivpExpr u.x a' b') F tol maxIter xi it ys := by
  obtain ⟨o, h1, h2⟩ := C37_nllsClass_args_partial lib .pinv (by decide) none (marchRes u F) (.arr (List.replicate (cols1 u) 0))
    [.arr [a, b]] [] ⟨by simp, by simp⟩ none tol htol maxIter true fuel hf
  refine ⟨o, h1, fun c a' b' => ?_⟩
  have hs := ivpExpr_smooth u.x a' b'
  have hval : ∀ v, SameForm (.arr (List.replicate (cols1 u) 0)) v →
      marchRes u F (v :: [.arr [a', b']]) = u.x.map (curveMiss u (ivpExpr u.x a' b') F (coef (entries v))) := by
    intro v hv
    cases v with
    | dict cls kvs => exact hv.elim
    | arr xi =>
      unfold marchRes
      simp only [residual_value hu hs]
      rfl
  obtain ⟨rest, h3, h4⟩ := h2 [.arr [a', b']] ⟨rfl, by simp⟩
  have hrest : rest = [.arr [a', b']] := by
    have e : remaining [] [(.arr (List.replicate (cols1 u) 0) : View Unit), .arr [a', b']] =
        [.arr (List.replicate (cols1 u) 0), .arr [a', b']] := rfl
    rw [e] at h3
    cases h3
    rfl
  subst hrest
  obtain ⟨x, n, h5, h6⟩ := h4 ⟨hlib, by decide, Or.inl rfl, ⟨by simp, by simp⟩, trivial, by simp [entries, hc], fun v hv => by
    rw [hval v hv]; simpa using hx⟩ c _ (SameForm.refl _)
  obtain ⟨ξ, h0, hx', hr⟩ := newton_stops hc (by simp [entries]) hval (fun t _ => curveMiss_smooth hu hs hF t) (SameForm.refl _) h6
  exact ⟨ξ n, _, n, by rw [h5, hx']; rfl, newton1_of_run hu hs h0 hr⟩

/-- The loop of E solves a linear equation in every step. -/
theorem oscRounds_ok {u : Utfc} (hu : Ready u) (hx : u.x ≠ []) (hf : first u.x = 0) {L : ℝ} (hl : last u.x = L) {F : ℝ → ℝ → ℝ → ℝ → ℝ} {o : LsObj Unit}
    (ho : ∀ (c : Bool) (a' b' : ℝ), ∃ h xi y, LsObj.run { o with compiled := c } noHeap (.arr (List.replicate (cols1 u) 0)) [.arr [a', b']] =
        .ok (h, .arr xi, { o with compiled := true }) ∧ Best1 u (ivpExpr u.x a' b') F xi y) (y0 y0p : ℝ) :
    ∀ (k n : ℕ) (c : Bool) (ys : ℕ → ℝ → ℝ) (s : MarchState), Reached u F L y0 y0p n ys s →
      (∀ i < n, ∃ xi, Best1 u (ivpExpr u.x (ys i 0) (deriv (ys i) 0)) F xi (ys i)) →
      ∃ s' ys', oscRounds u F (List.replicate (cols1 u) 0) k { o with compiled := c } s = .ok s' ∧ Reached u F L y0 y0p (n + k) ys' s' ∧
        ∀ i < n + k, ∃ xi, Best1 u (ivpExpr u.x (ys' i 0) (deriv (ys' i) 0)) F xi (ys' i) := by
  intro k
  induction k with
  | zero => exact fun n c ys s h hb => ⟨s, ys, rfl, h, hb⟩
  | succ k ih =>
    intro n c ys s h hb
    obtain ⟨hp, xi, y, h1, h2⟩ := ho c s.y0 s.y0p
    obtain ⟨s', h3, h4, h5, h6⟩ := reached_step hu hx hf hl h h2.yields
    obtain ⟨s2, ys2, h7, h8, h9⟩ := ih (n + 1) true _ s' h4 (fun i hi => by
      beta_reduce
      by_cases hn : i < n
      · rw [if_pos hn]
        exact hb i hn
      · rw [if_neg hn, h5, h6]
        exact ⟨xi, h2⟩)
    refine ⟨s2, ys2, ?_, by rwa [Nat.add_right_comm, Nat.add_assoc] at h8, fun i hi => h9 i (by omega)⟩
    rw [oscRounds, h1]
    simp only [bind, Except.bind, h3]
    exact h7

/-- The loop of P runs in every step. -/
theorem duffRounds_ok {u : Utfc} (hu : Ready u) (hx : u.x ≠ []) (hf : first u.x = 0) {L : ℝ} (hl : last u.x = L) {F : ℝ → ℝ → ℝ → ℝ → ℝ} {o : NllsObj Unit}
    {tol : ℝ} {maxIter fuel : ℕ}
    (ho : ∀ (c : Bool) (a' b' : ℝ), ∃ xi ys, ∃ it : ℕ, NllsObj.run { o with compiled := c } (.arr (List.replicate (cols1 u) 0)) [.arr [a', b']] fuel =
        (.ok (some (.arr xi, (it : ℤ))), { o with compiled := true }) ∧ Newton1 u (ivpExpr u.x a' b') F tol maxIter xi it ys) (y0 y0p : ℝ) :
    ∀ (k n : ℕ) (c : Bool) (ys : ℕ → ℝ → ℝ) (s : MarchState), Reached u F L y0 y0p n ys s →
      (∀ i < n, ∃ xi it zs, Newton1 u (ivpExpr u.x (ys i 0) (deriv (ys i) 0)) F tol maxIter xi it zs ∧ ys i = zs it) →
      ∃ s' ys', duffRounds u F (List.replicate (cols1 u) 0) fuel k { o with compiled := c } s = .ok (some s') ∧ Reached u F L y0 y0p (n + k) ys' s' ∧
        ∀ i < n + k, ∃ xi it zs, Newton1 u (ivpExpr u.x (ys' i 0) (deriv (ys' i) 0)) F tol maxIter xi it zs ∧ ys' i = zs it := by
  intro k
  induction k with
  | zero => exact fun n c ys s h hb => ⟨s, ys, rfl, h, hb⟩
  | succ k ih =>
    intro n c ys s h hb
    obtain ⟨xi, zs, it, h1, h2⟩ := ho c s.y0 s.y0p
    obtain ⟨s', h3, h4, h5, h6⟩ := reached_step hu hx hf hl h h2.last
    obtain ⟨s2, ys2, h7, h8, h9⟩ := ih (n + 1) true _ s' h4 (fun i hi => by
      beta_reduce
      by_cases hn : i < n
      · rw [if_pos hn]
        exact hb i hn
      · rw [if_neg hn, h5, h6]
        exact ⟨xi, it, zs, h2, rfl⟩)
    refine ⟨s2, ys2, ?_, by rwa [Nat.add_right_comm, Nat.add_assoc] at h8, fun i hi => h9 i (by omega)⟩
    rw [duffRounds, h1]
    simp only [bind, Except.bind, h3]
    exact h7

/-! ## The oscillator -/

/-- The error grows at most linearly over all steps. -/
theorem osc_march {w y0 y0p : ℝ} (hw : w ≠ 0) (hy0 : 0 < y0) {L R : ℝ} (hL : 0 ≤ L) {n : ℕ} {ys : ℕ → ℝ → ℝ} (hs : ∀ i < n, ContDiff ℝ 2 (ys i))
    (h0 : 0 < n → ys 0 0 = y0 ∧ deriv (ys 0) 0 = y0p)
    (hj : ∀ i, i + 1 < n → ys (i + 1) 0 = ys i L ∧ deriv (ys (i + 1)) 0 = deriv (ys i) L)
    (hR : ∀ i < n, ∀ t ∈ Icc 0 L, |oscResid w (ys i) t| ≤ R) :
    ∀ i < n, ∀ t ∈ Icc 0 L, |ys i t - oscReal w y0 y0p (i * L + t)| ≤ R * (i * L + t) / |w| := by
  obtain ⟨v0, v1, v2, -⟩ := C83_oscillator_partial w y0 y0p hw hy0
  generalize hv : oscReal w y0 y0p = v at v0 v1 v2 ⊢
  have cv : ContDiff ℝ 2 v := by
    rw [← hv]
    unfold oscReal
    fun_prop
  intro i hi t ht
  obtain ⟨T, hT⟩ : ∃ T, T = (i : ℝ) * L + t := ⟨_, rfl⟩
  obtain ⟨f, hf⟩ : ∃ f : ℕ → ℝ → ℝ, f = fun j s => (deriv (ys j) s - deriv v (j * L + s)) * (Real.sin (w * (T - j * L - s)) / w) +
    (ys j s - v (j * L + s)) * Real.cos (w * (T - j * L - s)) := ⟨_, rfl⟩
  have hd : ∀ j < n, ∀ s, HasDerivAt (f j) (oscResid w (ys j) s * (Real.sin (w * (T - j * L - s)) / w)) s := by
    intro j hj s
    have a1 := hasDeriv1 (hs j hj) s
    have a2 := hasDeriv2 (hs j hj) s
    have sh : HasDerivAt (fun s : ℝ => (j : ℝ) * L + s) 1 s := (hasDerivAt_id s).const_add _
    have b1 : HasDerivAt (fun s => v (j * L + s)) (deriv v (j * L + s)) s := by
      have := (hasDeriv1 cv (j * L + s)).comp s sh
      rwa [mul_one] at this
    have b2 : HasDerivAt (fun s => deriv v (j * L + s)) (deriv (deriv v) (j * L + s)) s := by
      have := (hasDeriv2 cv (j * L + s)).comp s sh
      rwa [mul_one] at this
    have arg : HasDerivAt (fun s : ℝ => w * (T - j * L - s)) (-w) s := by
      simpa using ((hasDerivAt_id s).const_sub (T - j * L)).const_mul w
    have e := v2 (j * L + s)
    unfold oscResid at e ⊢
    rw [hf]
    refine (((a2.sub b2).mul (arg.sin.div_const w)).add ((a1.sub b1).mul arg.cos)).congr_deriv ?_
    have e' : deriv (deriv v) (j * L + s) = -(w ^ 2 * v (j * L + s)) := by linarith
    rw [e']
    simp only [Pi.sub_apply]
    generalize Real.sin (w * (T - j * L - s)) = S
    generalize Real.cos (w * (T - j * L - s)) = C
    field_simp
    ring
  have hb : ∀ j < n, ∀ s ∈ Icc 0 L, |oscResid w (ys j) s * (Real.sin (w * (T - j * L - s)) / w)| ≤ R / |w| := fun j hj s hs => by
    rw [abs_mul, abs_div, div_eq_mul_inv, div_eq_mul_inv, ← mul_assoc]
    refine mul_le_mul_of_nonneg_right ?_ (by positivity)
    have := mul_le_mul (hR j hj s hs) (Real.abs_sin_le_one (w * (T - j * L - s))) (abs_nonneg _) ((abs_nonneg _).trans (hR j hj s hs))
    rwa [mul_one] at this
  have hstart : ∀ j < n, |f j 0| ≤ R / |w| * (j * L) := by
    intro j
    induction j with
    | zero =>
      intro h
      obtain ⟨a, b⟩ := h0 h
      rw [hf]
      simp [a, b, v0, v1]
    | succ j ih =>
      intro h
      have h1 := ih (by omega)
      have h2 := change_le (f := f j) hL (fun s _ => hd j (by omega) s) fun s hs => hb j (by omega) s hs
      obtain ⟨a, b⟩ := hj j h
      have e : f (j + 1) 0 = f j L := by
        rw [hf]
        beta_reduce
        rw [a, b]
        have e1 : ((j + 1 : ℕ) : ℝ) * L + 0 = j * L + L := by push_cast; ring
        have e2 : T - ((j + 1 : ℕ) : ℝ) * L - 0 = T - j * L - L := by push_cast; ring
        rw [e1, e2]
      rw [e]
      push_cast
      linarith
  have h1 := hstart i hi
  have h2 := change_le (f := f i) ht.1 (fun s _ => hd i hi s) fun s hs => hb i hi s ⟨hs.1, hs.2.trans ht.2⟩
  have e : f i t = ys i t - v (i * L + t) := by
    rw [hf]
    beta_reduce
    have : T - i * L - t = 0 := by rw [hT]; ring
    rw [this]
    simp
  rw [e] at h2
  calc _ ≤ R / |w| * (i * L) + R / |w| * (t - 0) := by linarith
    _ = _ := by ring

theorem oscF_linear (w : ℝ) : LinearF (oscF w) :=
  ⟨fun _ => w ^ 2, fun _ => 0, fun _ => 1, fun _ => 0, fun x y y1 y2 => by unfold oscF; ring⟩

/-- **C102, the oscillator**, example_3_1.py and Problem_1.py: the program returns one row for each step. The rows are the values of functions that start from
the given values and join with equal value and derivative; each has the least sum of squared defects among all the object can give with its
start values. If the defects at the points are at most `ε` and change by at most `D` between them, the distance from the solution of the whole
problem grows at most linearly with the time since the start of the run. -/
theorem C102_oscillator (lib : LinAlg) (hlib : LinAlgCorrect lib) (N m : ℕ) (hN : 1 ≤ N) (hm : 1 ≤ m) (basis : String) (hb : basis ∈ smoothNames) (X : ℝ)
    (hX : 0 < X) (Nstep : ℕ) (hn : 1 ≤ Nstep) (y0 y0p w : ℝ) (wt b : ℕ → ℝ) :
    ∃ u s ys, utfcInit (N + 1) (.int 2) (m + 1) basis (some 0) (some (X / Nstep)) "C++" wt b = .ok u ∧
      runOscillator lib N m basis X Nstep y0 y0p w wt b = .ok s ∧ Marched u (oscF w) (X / Nstep) y0 y0p Nstep ys s ∧
      (∀ i < Nstep, ∃ xi, Best1 u (ivpExpr u.x (ys i 0) (deriv (ys i) 0)) (oscF w) xi (ys i)) ∧
      (w ≠ 0 → 0 < y0 → ∀ ε D, (∀ i < Nstep, ∀ t ∈ u.x, |oscResid w (ys i) t| ≤ ε) →
        (∀ i < Nstep, ∀ t ∈ Icc 0 (X / Nstep), |deriv (oscResid w (ys i)) t| ≤ D) →
        ∀ i < Nstep, ∀ t ∈ Icc 0 (X / Nstep), |ys i t - oscReal w y0 y0p (i * (X / Nstep) + t)| ≤
          (ε + D * (X / Nstep * (Real.pi / (4 * (N : ℝ))))) * (i * (X / Nstep) + t) / |w|) := by
  have hL : 0 < X / Nstep := div_pos hX (by exact_mod_cast hn)
  obtain ⟨u, hu, hr, hc, hl, hf0, hfl, -, -, -⟩ := object1 (N := N + 1) (m := m + 1) (by omega) (by omega) hb (Or.inl rfl) hL wt b
  have hne : u.x ≠ [] := by intro e; rw [e] at hl; simp at hl
  obtain ⟨o, h1, h2⟩ := lsStep hlib hr (oscF_linear w) y0 y0p
  obtain ⟨s, ys, h3, h4, h5⟩ := oscRounds_ok hr hne hf0 hfl h2 y0 y0p Nstep 0 o.compiled (fun _ _ => 0) _ (reached_start u (oscF w) hfl y0 y0p _)
    (by simp)
  rw [Nat.zero_add] at h4 h5
  refine ⟨u, s, ys, hu, ?_, h4.toMarched, h5, fun hw hy0 ε D hε hD => ?_⟩
  · unfold runOscillator
    rw [C77_nC_fails basis]
    simp only [Nat.cast_ofNat, hu, bind, Except.bind, start_value hr (ivpExpr_smooth u.x y0 y0p), h1]
    exact h3
  · refine osc_march hw hy0 hL.le (fun i hi => contDiff_two (h4.smooth i hi)) h4.start h4.join fun i hi => ?_
    have h := between1 (by omega) hL hu (F := oscF w) (fun t _ => missF_diff (by unfold oscF; fun_prop) (h4.smooth i hi) t) (hε i hi) (hD i hi)
    rw [sub_zero, Nat.add_sub_cancel] at h
    exact h

/-- A case: the program as it stands, one step of length 2. -/
example (lib : LinAlg) (hlib : LinAlgCorrect lib) :
    ∃ s, runOscillator lib 100 40 "CP" 2 1 1 0 (2 * Real.pi) (fun _ => 0) (fun _ => 0) = .ok s ∧ s.rows.length = 1 := by
  obtain ⟨u, s, ys, -, h, hm, -⟩ := C102_oscillator lib hlib 100 40 (by norm_num) (by norm_num) "CP" (by decide) 2 (by norm_num) 1 le_rfl 1 0 (2 * Real.pi)
    (fun _ => 0) (fun _ => 0)
  exact ⟨s, h, by rw [hm.rows]; simp⟩

/-! ## The forced oscillator -/

/-- By how much `y`, a function of the time `t` since the start of a step that begins at the time `a`, misses the equation in the head of Problem_2.py 4:
`y'' + δ y' + α y + β y³ = γ cos(ω x)`, where `x` is the time since the start of the run. -/
noncomputable def duffPosed (p : DuffPar) (a : ℝ) (y : ℝ → ℝ) (t : ℝ) : ℝ :=
  deriv (deriv y) t + p.delta * deriv y t + p.alpha * y t + p.beta * y t ^ 3 - p.gamma * Real.cos (p.omega * (a + t))

/-- **C102, the forced oscillator**, Problem_2.py: every step runs to an end and joins the one before; its function is the last of a sequence of
Gauss–Newton steps for the equation with the time counted from the start of the step. In the first step that is the equation posed. Missing:
the later steps, see `C102_duffing_fails`. -/
theorem C102_duffing_partial (lib : LinAlg) (hlib : LinAlgCorrect lib) (N m : ℕ) (hN : 1 ≤ N) (hm : 1 ≤ m) (basis : String) (hb : basis ∈ smoothNames) (X : ℝ)
    (hX : 0 < X) (Nstep : ℕ) (hn : 1 ≤ Nstep) (y0 y0p : ℝ) (p : DuffPar) (wt b : ℕ → ℝ) (fuel : ℕ) (hf : 52 ≤ fuel) :
    ∃ u s ys, utfcInit (N + 1) (.int 2) (m + 1) basis (some 0) (some (X / Nstep)) "C++" wt b = .ok u ∧
      runDuffing lib N m basis X Nstep y0 y0p p wt b fuel = .ok (some s) ∧ Marched u (duffF p) (X / Nstep) y0 y0p Nstep ys s ∧
      (∀ i < Nstep, ∃ xi it zs, Newton1 u (ivpExpr u.x (ys i 0) (deriv (ys i) 0)) (duffF p) 1e-15 50 xi it zs ∧ ys i = zs it) ∧
      ∀ t, missF (duffF p) (ys 0) t = duffPosed p 0 (ys 0) t := by
  have hL : 0 < X / Nstep := div_pos hX (by exact_mod_cast hn)
  obtain ⟨u, hu, hr, hc, hl, hf0, hfl, -, -, -⟩ := object1 (N := N + 1) (m := m + 1) (by omega) (by omega) hb (Or.inl rfl) hL wt b
  have hne : u.x ≠ [] := by intro e; rw [e] at hl; simp at hl
  obtain ⟨o, h1, h2⟩ := nllsStep hlib hr hne (by omega) (F := duffF p) (fun x => by unfold duffF; fun_prop) 1e-15 (by norm_num) 50 fuel hf y0 y0p
  obtain ⟨s, ys, h3, h4, h5⟩ := duffRounds_ok hr hne hf0 hfl h2 y0 y0p Nstep 0 o.compiled (fun _ _ => 0) _ (reached_start u (duffF p) hfl y0 y0p _)
    (by simp)
  rw [Nat.zero_add] at h4 h5
  refine ⟨u, s, ys, hu, ?_, h4.toMarched, h5, fun t => ?_⟩
  · unfold runDuffing
    rw [C77_nC_fails basis]
    simp only [Nat.cast_ofNat, hu, bind, Except.bind, start_value hr (ivpExpr_smooth u.x y0 y0p), h1]
    exact h3
  · unfold missF duffF duffPosed
    rw [zero_add]

/-- C102 is false for Problem_2.py as it stands (1000 units of time in 333 steps): the force restarts with every step. Whenever the saved defect of the second step is
small at its first point, the function there misses the equation posed by more than 0.3: the smaller the reported residual, the surer the error. -/
theorem C102_duffing_fails (lib : LinAlg) (hlib : LinAlgCorrect lib) (wt b : ℕ → ℝ) (fuel : ℕ) (hf : 52 ≤ fuel) :
    ∃ u s ys, runDuffing lib 100 40 "CP" 1000 333 1 0 duffPar wt b fuel = .ok (some s) ∧ Marched u (duffF duffPar) (1000 / 333) 1 0 333 ys s ∧
      ∃ row, ∃ r : ℝ, s.rows[1]? = some row ∧ row.res[0]? = some r ∧ (r ≤ 0.1 → 0.3 ≤ |duffPosed duffPar (1000 / 333) (ys 1) 0|) := by
  obtain ⟨u, s, ys, hu, h1, h2, -, -⟩ := C102_duffing_partial lib hlib 100 40 (by norm_num) (by norm_num) "CP" (by decide) 1000 (by norm_num) 333 (by norm_num)
    1 0 duffPar wt b fuel hf
  rw [show ((333 : ℕ) : ℝ) = 333 by norm_num] at hu h2
  have hp := C13_points 101 (by norm_num) (.int 2) 41 "CP" "C++" 0 (1000 / 333) (by norm_num) wt b u hu
  have hx : ∃ l, u.x.dropLast = 0 :: l := by
    obtain ⟨hl, -, -, hh, -⟩ := hp
    match hu : u.x, hl, hh with
    | a :: c :: l, _, hh => exact ⟨(c :: l).dropLast, by cases hh; rfl⟩
  obtain ⟨l, hx⟩ := hx
  refine ⟨u, s, ys, h1, h2, _, |missF (duffF duffPar) (ys 1) 0|, by rw [h2.rows]; simp; rfl, by
    change (List.map (fun t => |missF (duffF duffPar) (ys 1) t|) u.x).dropLast[0]? = _
    rw [← List.map_dropLast, hx]
    rfl, fun hr => ?_⟩
  have hpi := Real.pi_gt_d2
  have hpi' := Real.pi_lt_d2
  have hcos : Real.cos (1.2 * (1000 / 333)) ≤ 0 := Real.cos_nonpos_of_pi_div_two_le_of_le (by linarith) (by linarith)
  have e : duffPosed duffPar (1000 / 333) (ys 1) 0 = missF (duffF duffPar) (ys 1) 0 + 0.4 * (1 - Real.cos (1.2 * (1000 / 333))) := by
    unfold duffPosed missF duffF duffPar
    simp only [mul_zero, Real.cos_zero, add_zero]
    ring
  have h3 := (abs_le.1 hr).1
  rw [e]
  refine le_trans ?_ (le_abs_self _)
  linarith

end Verif.Props
