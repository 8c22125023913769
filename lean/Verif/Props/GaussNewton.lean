import Verif.Props.QuadNewton

/-!
# What a run of `NLLS` or `NllsClass` computes, for any residual that is differentiable in the coefficients
-/

namespace Verif.Props

open Verif Verif.Mem Verif.Py Verif.Np Verif.Spec Verif.Model Verif.Model.Py Verif.Model.LSq Verif.Lemmas.LSq

variable {T Key : Type}

/-- The residual at `t` depends on the first `n` coefficients only, and differentiably. -/
structure Smooths (n : ℕ) (miss : (ℕ → ℝ) → T → ℝ) (t : T) : Prop where
  first : ∀ c c' : ℕ → ℝ, (∀ i < n, c i = c' i) → miss c t = miss c' t
  diff : ∀ c : ℕ → ℝ, ∃ g : ℕ → ℝ, ∀ z : ℕ → ℝ,
    HasDerivAt (fun s : ℝ => miss (fun i => c i + s * z i) t) (∑ j ∈ Finset.range n, z j * g j) 0

/-- The residual linearised at the coefficients `c`, for the coefficients `z`. -/
noncomputable def linAt (miss : (ℕ → ℝ) → T → ℝ) (c z : ℕ → ℝ) (t : T) : ℝ :=
  miss c t + deriv (fun s : ℝ => miss (fun i => c i + s * (z i - c i)) t) 0

theorem linAt_sub {n : ℕ} {miss : (ℕ → ℝ) → T → ℝ} {t : T} (c : ℕ → ℝ) {g : ℕ → ℝ}
    (hg : ∀ z : ℕ → ℝ, HasDerivAt (fun s : ℝ => miss (fun i => c i + s * z i) t) (∑ j ∈ Finset.range n, z j * g j) 0) (y : ℕ → ℝ) :
    linAt miss c (fun i => c i - y i) t = miss c t - ∑ j ∈ Finset.range n, g j * y j := by
  unfold linAt
  have := (hg fun i => c i - y i - c i).deriv
  rw [this, sub_eq_add_neg, ← Finset.sum_neg_distrib]
  exact congrArg _ (Finset.sum_congr rfl fun j _ => by ring)

theorem linAt_congr {n : ℕ} {miss : (ℕ → ℝ) → T → ℝ} {t : T} (hs : Smooths n miss t) (c : ℕ → ℝ) {z z' : ℕ → ℝ}
    (h : ∀ i < n, z i = z' i) : linAt miss c z t = linAt miss c z' t := by
  unfold linAt
  have : (fun s : ℝ => miss (fun i => c i + s * (z i - c i)) t) = fun s : ℝ => miss (fun i => c i + s * (z' i - c i)) t :=
    funext fun s => hs.first _ _ fun i hi => by rw [h i hi]
  rw [this]

variable [DecidableEq Key]

/-- The partial derivative of the residual by a coefficient. -/
theorem newton_partial {n : ℕ} {miss : (ℕ → ℝ) → T → ℝ} {res : Residual Key} {args : List (View Key)} {z : View Key} {pts : List T}
    (hn : (entries z).length = n) (hval : ∀ v, SameForm z v → res (v :: args) = pts.map (miss (coef (entries v))))
    {v : View Key} (hv : SameForm z v) {i j : ℕ} (hi : i < pts.length) (hj : j < n) {g : ℕ → ℝ}
    (hg : ∀ y : ℕ → ℝ, HasDerivAt (fun s : ℝ => miss (fun k => coef (entries v) k + s * y k) pts[i])
      (∑ k ∈ Finset.range n, y k * g k) 0) : resPartial res args v i j = g j := by
  have hlv : (entries v).length = n := by rw [← SameForm.length hv, hn]
  have hfun : (fun s : ℝ => (res (refill v ((entries v).modify j (· + s)) :: args)).getD i 0) =
      fun s : ℝ => miss (fun k => coef (entries v) k + s * (if k = j then 1 else 0)) pts[i] := by
    funext s
    have hlen : ((entries v).modify j (· + s)).length = (entries v).length := by simp
    rw [hval _ (SameForm.trans hv (refill_form v hlen)), entries_refill v hlen]
    have hget : ∀ f : T → ℝ, (pts.map f).getD i 0 = f pts[i] := fun f => by simp [List.getD, hi]
    rw [hget]
    congr 1
    funext k
    unfold coef
    rw [modify_getD _ j (by omega) s k]
    by_cases hk : k = j <;> simp [hk]
  unfold resPartial
  rw [hfun, (hg _).deriv, Finset.sum_eq_single j (fun k _ hk => by rw [if_neg hk, zero_mul])
      fun h => (h (Finset.mem_range.mpr hj)).elim, if_pos rfl, one_mul]

/-- A Gauss–Newton step of the solver minimises the linearised residual. -/
theorem newton_step {n : ℕ} {miss : (ℕ → ℝ) → T → ℝ} {res : Residual Key} {args : List (View Key)} {z : View Key} {pts : List T}
    (hn : (entries z).length = n) (hval : ∀ v, SameForm z v → res (v :: args) = pts.map (miss (coef (entries v))))
    (hs : ∀ t ∈ pts, Smooths n miss t) {v v' : View Key} (hv : SameForm z v) {dx : List ℝ} (h : GaussNewtonStep res args v dx v') :
    dx.length = n ∧ SameForm z v' ∧ entries v' = List.zipWith (· - ·) (entries v) dx ∧ ∀ y : ℕ → ℝ,
      (pts.map fun t => linAt miss (coef (entries v)) (coef (entries v')) t ^ 2).sum ≤
        (pts.map fun t => linAt miss (coef (entries v)) y t ^ 2).sum := by
  have hlv : (entries v).length = n := by rw [← SameForm.length hv, hn]
  obtain ⟨⟨hdx, hmin, -⟩, hv'⟩ := h
  rw [hlv] at hdx
  have hlen : (List.zipWith (· - ·) (entries v) dx).length = (entries v).length := by rw [List.length_zipWith, hlv, hdx, min_self]
  have he : entries v' = List.zipWith (· - ·) (entries v) dx := by rw [hv', entries_refill v hlen]
  refine ⟨hdx, hv' ▸ SameForm.trans hv (refill_form v hlen), he, fun y => ?_⟩
  have hz : ∀ i < n, coef (entries v') i = coef (entries v) i - vec dx i := by
    intro i hi
    rw [he]
    simp [coef, vec, List.getD, hlv, hdx, hi]
  have key : ∀ y : ℕ → ℝ, missSq (res (v :: args)).length (entries v).length (resPartial res args v) y (vec (res (v :: args))) =
      (pts.map fun t => linAt miss (coef (entries v)) (fun i => coef (entries v) i - y i) t ^ 2).sum := by
    intro y
    rw [← sum_range_get]
    unfold missSq
    rw [hval v hv, List.length_map, Finset.sum_range]
    refine Finset.sum_congr rfl fun i _ => ?_
    obtain ⟨g, hg⟩ := (hs _ (List.getElem_mem i.2)).diff (coef (entries v))
    have := linAt_sub (n := n) (coef (entries v)) hg y
    rw [Fin.getElem_fin, this, sub_sq_comm]
    congr 2
    · simp [vec, List.getD]
    · rw [hlv]
      refine Finset.sum_congr rfl fun j hj => ?_
      rw [newton_partial hn hval hv i.2 (Finset.mem_range.mp hj) hg]
  have := hmin fun i => coef (entries v) i - y i
  rw [key, key] at this
  have e1 : (pts.map fun t => linAt miss (coef (entries v)) (coef (entries v')) t ^ 2) =
      pts.map fun t => linAt miss (coef (entries v)) (fun i => coef (entries v) i - vec dx i) t ^ 2 :=
    List.map_congr_left fun t ht => by rw [linAt_congr (hs t ht) _ hz]
  have e2 : (pts.map fun t => linAt miss (coef (entries v)) y t ^ 2) =
      pts.map fun t => linAt miss (coef (entries v)) (fun i => coef (entries v) i - (coef (entries v) i - y i)) t ^ 2 :=
    List.map_congr_left fun t ht => by
      rw [linAt_congr (hs t ht) _ (z' := fun i => coef (entries v) i - (coef (entries v) i - y i)) fun i _ => by ring]
  rw [e1, e2]
  exact this

/-- The iterates `ξ 0, …, ξ k` of a run on such a residual, at the points `pts`: each minimises the sum of the squares of the residual
linearised at the one before, and there is a reason for the stop. -/
structure GaussNewtonRun (n : ℕ) (miss : (ℕ → ℝ) → T → ℝ) (pts : List T) (tol : ℝ) (maxIter k : ℕ) (ξ : ℕ → List ℝ) : Prop where
  bound : k ≤ maxIter
  length : ∀ j ≤ k, (ξ j).length = n
  step : ∀ j < k, ∀ z : ℕ → ℝ, (pts.map fun t => linAt miss (coef (ξ j)) (coef (ξ (j + 1))) t ^ 2).sum ≤
    (pts.map fun t => linAt miss (coef (ξ j)) z t ^ 2).sum
  stop : (∀ t ∈ pts, |miss (coef (ξ k)) t| ≤ tol) ∨ k = maxIter ∨ ∃ j, k = j + 1 ∧ ∀ i, |coef (ξ k) i - coef (ξ j) i| ≤ tol

/-- The iterates of a run. -/
theorem newton_stops {n : ℕ} (hn0 : n ≠ 0) {miss : (ℕ → ℝ) → T → ℝ} {res : Residual Key} {args : List (View Key)} {z : View Key}
    {pts : List T} (hn : (entries z).length = n) (hval : ∀ v, SameForm z v → res (v :: args) = pts.map (miss (coef (entries v))))
    (hs : ∀ t ∈ pts, Smooths n miss t) {tol : ℝ} {maxIter k : ℕ} {v x : View Key} (hv : SameForm z v)
    (h : StopsWithReason res args tol maxIter v x k) :
    ∃ ξ : ℕ → List ℝ, ξ 0 = entries v ∧ x = refill z (ξ k) ∧ GaussNewtonRun n miss pts tol maxIter k ξ := by
  obtain ⟨hk, xs, dxs, x0, xk, hst, hstop⟩ := h
  have hform : ∀ j ≤ k, SameForm z (xs j) := by
    intro j
    induction j with
    | zero => exact fun _ => x0 ▸ hv
    | succ j ih => exact fun hj => (newton_step hn hval hs (ih (by omega)) (hst j (by omega))).2.1
  have hlen : ∀ j ≤ k, (entries (xs j)).length = n := fun j hj => by rw [← SameForm.length (hform j hj), hn]
  refine ⟨fun j => entries (xs j), congrArg entries x0, by rw [← xk, refill_entries (hform k le_rfl)], hk, hlen, fun j hj =>
    (newton_step hn hval hs (hform j hj.le) (hst j hj)).2.2.2, ?_⟩
  rcases hstop with h | ⟨j, rfl, h⟩ | h
  · left
    intro t ht'
    rw [← xk, hval _ (hform k le_rfl)] at h
    exact h _ (List.mem_map_of_mem ht')
  · right; right
    obtain ⟨hd, -, he, -⟩ := newton_step hn hval hs (hform j (by omega)) (hst j (by omega))
    have hlj := hlen j (by omega)
    refine ⟨j, rfl, fun i => ?_⟩
    rw [he]
    unfold coef
    by_cases hi : i < n
    · have e : (List.zipWith (· - ·) (entries (xs j)) (dxs j)).getD i 0 = (entries (xs j)).getD i 0 - (dxs j).getD i 0 := by
        simp [List.getD, hlj, hd, hi]
      rw [e, sub_sub_cancel_left, abs_neg]
      refine h _ ?_
      rw [List.getD, List.getElem?_eq_getElem (by omega)]
      exact List.getElem_mem _
    · have e1 : (List.zipWith (· - ·) (entries (xs j)) (dxs j)).getD i 0 = 0 := by
        rw [List.getD, List.getElem?_eq_none (by rw [List.length_zipWith, hlj, hd]; omega)]
        rfl
      have e2 : (entries (xs j)).getD i 0 = 0 := by
        rw [List.getD, List.getElem?_eq_none (by omega)]
        rfl
      rw [e1, e2, sub_zero, abs_zero]
      have : 0 < (dxs j).length := by omega
      exact (abs_nonneg _).trans (h _ (List.getElem_mem this))
  · exact Or.inr (Or.inl h)

/-- The run of `NLLS` on such a residual. -/
theorem newton_run {lib : LinAlg} (hlib : LinAlgCorrect lib) {method : Method} (hm : method ≠ .other) {n : ℕ} (hn0 : n ≠ 0)
    {miss : (ℕ → ℝ) → T → ℝ} {res : Residual Key} {args : List (View Key)} {L : List ℕ} (hL : GoodConstants L args) {z : View Key}
    (hp : ProperUnknowns z) {pts : List T} (hpts : pts ≠ []) (hn : (entries z).length = n)
    (hval : ∀ v, SameForm z v → res (v :: args) = pts.map (miss (coef (entries v)))) (hs : ∀ t ∈ pts, Smooths n miss t)
    (tol : ℝ) (htol : tol < 1) (maxIter : ℕ) (timer : Bool) (fuel : ℕ) (hf : maxIter + 2 ≤ fuel) :
    ∃ (k : ℕ) (ξ : ℕ → List ℝ), (NLLS lib method none none none tol maxIter timer res z args L fuel).1 =
      .ok (some (refill z (ξ k), ((k : ℕ) : ℤ))) ∧ ξ 0 = entries z ∧ GaussNewtonRun n miss pts tol maxIter k ξ := by
  have G : GoodProblem lib method none res z args L :=
    ⟨hlib, hm, Or.inl rfl, hL, hp, fun e => hn0 (by rw [← hn, e]; rfl), fun v hv => by rw [hval v hv]; simpa using hpts⟩
  obtain ⟨x, k, h1, h2⟩ := C37_nlls_partial G none tol htol maxIter timer fuel hf
  obtain ⟨ξ, h0, hx, hr⟩ := newton_stops hn0 hn hval hs (SameForm.refl z) h2
  exact ⟨k, ξ, by rw [h1, hx], h0, hr⟩

end Verif.Props
