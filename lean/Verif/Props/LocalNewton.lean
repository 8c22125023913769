import Verif.Props.GaussNewton

/-!
# What a run of `NLLS` or `NllsClass` computes, where the residual need not be differentiable for all coefficients
-/

namespace Verif.Props

open Verif Verif.Mem Verif.Py Verif.Np Verif.Spec Verif.Model Verif.Model.Py Verif.Model.LSq Verif.Lemmas.LSq

variable {T Key : Type}

/-- The residual at `t` is differentiable in the first `n` coefficients at `c`. -/
def DiffAtCoef (n : ℕ) (miss : (ℕ → ℝ) → T → ℝ) (t : T) (c : ℕ → ℝ) : Prop :=
  ∃ g : ℕ → ℝ, ∀ z : ℕ → ℝ, HasDerivAt (fun s : ℝ => miss (fun i => c i + s * z i) t) (∑ j ∈ Finset.range n, z j * g j) 0

/-- The residual depends on the first `n` coefficients only. -/
def FirstOnly (n : ℕ) (miss : (ℕ → ℝ) → T → ℝ) (t : T) : Prop := ∀ c c' : ℕ → ℝ, (∀ i < n, c i = c' i) → miss c t = miss c' t

theorem linAt_first {n : ℕ} {miss : (ℕ → ℝ) → T → ℝ} {t : T} (hs : FirstOnly n miss t) (c : ℕ → ℝ) {z z' : ℕ → ℝ}
    (h : ∀ i < n, z i = z' i) : linAt miss c z t = linAt miss c z' t := by
  unfold linAt
  have : (fun s : ℝ => miss (fun i => c i + s * (z i - c i)) t) = fun s : ℝ => miss (fun i => c i + s * (z' i - c i)) t :=
    funext fun s => hs _ _ fun i hi => by rw [h i hi]
  rw [this]

variable [DecidableEq Key]

theorem step_form {n : ℕ} {res : Residual Key} {args : List (View Key)} {z : View Key} (hn : (entries z).length = n)
    {v v' : View Key} (hv : SameForm z v) {dx : List ℝ} (h : GaussNewtonStep res args v dx v') :
    dx.length = n ∧ SameForm z v' ∧ entries v' = List.zipWith (· - ·) (entries v) dx := by
  have hlv : (entries v).length = n := by rw [← SameForm.length hv, hn]
  obtain ⟨⟨hdx, -, -⟩, hv'⟩ := h
  rw [hlv] at hdx
  have hlen : (List.zipWith (· - ·) (entries v) dx).length = (entries v).length := by rw [List.length_zipWith, hlv, hdx, min_self]
  exact ⟨hdx, hv' ▸ SameForm.trans hv (refill_form v hlen), by rw [hv', entries_refill v hlen]⟩

/-- A Gauss–Newton step from coefficients where the residual is differentiable minimises the linearised residual. -/
theorem local_step {n : ℕ} {miss : (ℕ → ℝ) → T → ℝ} {res : Residual Key} {args : List (View Key)} {z : View Key} {pts : List T}
    (hn : (entries z).length = n) (hval : ∀ v, SameForm z v → res (v :: args) = pts.map (miss (coef (entries v))))
    (hfirst : ∀ t ∈ pts, FirstOnly n miss t) {v v' : View Key} (hv : SameForm z v)
    (hs : ∀ t ∈ pts, DiffAtCoef n miss t (coef (entries v))) {dx : List ℝ} (h : GaussNewtonStep res args v dx v') (y : ℕ → ℝ) :
    (pts.map fun t => linAt miss (coef (entries v)) (coef (entries v')) t ^ 2).sum ≤
      (pts.map fun t => linAt miss (coef (entries v)) y t ^ 2).sum := by
  obtain ⟨hdx, -, he⟩ := step_form hn hv h
  have hlv : (entries v).length = n := by rw [← SameForm.length hv, hn]
  obtain ⟨⟨-, hmin, -⟩, -⟩ := h
  have hz : ∀ i < n, coef (entries v') i = coef (entries v) i - vec dx i := by
    intro i hi
    rw [he]
    simp [coef, vec, List.getD, hlv, hdx, hi]
  have key : ∀ y : ℕ → ℝ, missSq (res (v :: args)).length (entries v).length (resPartial res args v) y (vec (res (v :: args))) =
      (pts.map fun t => linAt miss (coef (entries v)) (fun i => coef (entries v) i - y i) t ^ 2).sum := by
    intro y
    rw [← sum_range_get]
    unfold missSq
    rw [hval v hv, List.length_map, Finset.sum_range]
    refine Finset.sum_congr rfl fun i _ => ?_
    obtain ⟨g, hg⟩ := hs _ (List.getElem_mem i.2)
    have := linAt_sub (n := n) (coef (entries v)) hg y
    rw [Fin.getElem_fin, this, sub_sq_comm]
    congr 2
    · simp [vec, List.getD]
    · rw [hlv]
      refine Finset.sum_congr rfl fun j hj => ?_
      rw [newton_partial hn hval hv i.2 (Finset.mem_range.mp hj) hg]
  have := hmin fun i => coef (entries v) i - y i
  rw [key, key] at this
  have e1 : (pts.map fun t => linAt miss (coef (entries v)) (coef (entries v')) t ^ 2) =
      pts.map fun t => linAt miss (coef (entries v)) (fun i => coef (entries v) i - vec dx i) t ^ 2 :=
    List.map_congr_left fun t ht => by rw [linAt_first (hfirst t ht) _ hz]
  have e2 : (pts.map fun t => linAt miss (coef (entries v)) y t ^ 2) =
      pts.map fun t => linAt miss (coef (entries v)) (fun i => coef (entries v) i - (coef (entries v) i - y i)) t ^ 2 :=
    List.map_congr_left fun t ht => by
      rw [linAt_first (hfirst t ht) _ (z' := fun i => coef (entries v) i - (coef (entries v) i - y i)) fun i _ => by ring]
  rw [e1, e2]
  exact this

/-- Among all coefficients with the same linearised residual the step goes to the nearest. -/
theorem local_short {n : ℕ} {miss : (ℕ → ℝ) → T → ℝ} {res : Residual Key} {args : List (View Key)} {z : View Key} {pts : List T}
    (hn : (entries z).length = n) (hval : ∀ v, SameForm z v → res (v :: args) = pts.map (miss (coef (entries v))))
    (hfirst : ∀ t ∈ pts, FirstOnly n miss t) {v v' : View Key} (hv : SameForm z v)
    (hs : ∀ t ∈ pts, DiffAtCoef n miss t (coef (entries v))) {dx : List ℝ} (h : GaussNewtonStep res args v dx v') (y : ℕ → ℝ)
    (hy : (pts.map fun t => linAt miss (coef (entries v)) y t ^ 2).sum ≤
      (pts.map fun t => linAt miss (coef (entries v)) (coef (entries v')) t ^ 2).sum) :
    ∑ i ∈ Finset.range n, (coef (entries v') i - coef (entries v) i) ^ 2 ≤ ∑ i ∈ Finset.range n, (y i - coef (entries v) i) ^ 2 := by
  obtain ⟨hdx, -, he⟩ := step_form hn hv h
  have hlv : (entries v).length = n := by rw [← SameForm.length hv, hn]
  obtain ⟨⟨-, -, hnorm⟩, -⟩ := h
  have hz : ∀ i < n, coef (entries v') i = coef (entries v) i - vec dx i := by
    intro i hi
    rw [he]
    simp [coef, vec, List.getD, hlv, hdx, hi]
  have key : ∀ y : ℕ → ℝ, missSq (res (v :: args)).length (entries v).length (resPartial res args v) y (vec (res (v :: args))) =
      (pts.map fun t => linAt miss (coef (entries v)) (fun i => coef (entries v) i - y i) t ^ 2).sum := by
    intro y
    rw [← sum_range_get]
    unfold missSq
    rw [hval v hv, List.length_map, Finset.sum_range]
    refine Finset.sum_congr rfl fun i _ => ?_
    obtain ⟨g, hg⟩ := hs _ (List.getElem_mem i.2)
    have := linAt_sub (n := n) (coef (entries v)) hg y
    rw [Fin.getElem_fin, this, sub_sq_comm]
    congr 2
    · simp [vec, List.getD]
    · rw [hlv]
      refine Finset.sum_congr rfl fun j hj => ?_
      rw [newton_partial hn hval hv i.2 (Finset.mem_range.mp hj) hg]
  obtain ⟨l, hl⟩ : ∃ l : List ℝ, l = (List.range n).map fun i => coef (entries v) i - y i := ⟨_, rfl⟩
  have hll : l.length = n := by rw [hl]; simp
  have hlv' : ∀ i < n, vec l i = coef (entries v) i - y i := fun i hi => by
    rw [hl]
    simp [vec, List.getD, hi]
  have e1 : (pts.map fun t => linAt miss (coef (entries v)) (coef (entries v')) t ^ 2) =
      pts.map fun t => linAt miss (coef (entries v)) (fun i => coef (entries v) i - vec dx i) t ^ 2 :=
    List.map_congr_left fun t ht => by rw [linAt_first (hfirst t ht) _ hz]
  have e2 : (pts.map fun t => linAt miss (coef (entries v)) y t ^ 2) =
      pts.map fun t => linAt miss (coef (entries v)) (fun i => coef (entries v) i - vec l i) t ^ 2 :=
    List.map_congr_left fun t ht => by
      rw [linAt_first (hfirst t ht) _ (z' := fun i => coef (entries v) i - vec l i) fun i hi => by rw [hlv' i hi]; ring]
  rw [e1, e2, ← key, ← key] at hy
  have hle := hnorm l (by rw [hll, hlv]) hy
  have hsum : ∀ a : List ℝ, a.length = n → normSq a = ∑ i ∈ Finset.range n, vec a i ^ 2 := by
    intro a ha
    unfold normSq
    rw [← sum_range_get]
    subst ha
    rw [Finset.sum_range]
    refine Finset.sum_congr rfl fun i _ => ?_
    simp [vec, List.getD]
  rw [hsum dx hdx, hsum l hll] at hle
  refine le_trans (le_of_eq ?_) (hle.trans (le_of_eq ?_))
  · refine Finset.sum_congr rfl fun i hi => ?_
    rw [hz i (Finset.mem_range.1 hi)]
    ring
  · refine Finset.sum_congr rfl fun i hi => ?_
    rw [hlv' i (Finset.mem_range.1 hi)]
    ring

/-- The unknowns `xs 0, …, xs k` of a run: each step from unknowns where the residual is differentiable minimises the sum of the squares of the
residual linearised there and goes to the nearest such unknowns, and there is a reason for the stop. -/
structure LocalRun (n : ℕ) (miss : (ℕ → ℝ) → T → ℝ) (pts : List T) (z : View Key) (tol : ℝ) (maxIter k : ℕ) (xs : ℕ → View Key) : Prop where
  bound : k ≤ maxIter
  form : ∀ j ≤ k, SameForm z (xs j)
  step : ∀ j < k, (∀ t ∈ pts, DiffAtCoef n miss t (coef (entries (xs j)))) → ∀ y : ℕ → ℝ,
    (pts.map fun t => linAt miss (coef (entries (xs j))) (coef (entries (xs (j + 1)))) t ^ 2).sum ≤
      (pts.map fun t => linAt miss (coef (entries (xs j))) y t ^ 2).sum
  shortest : ∀ j < k, (∀ t ∈ pts, DiffAtCoef n miss t (coef (entries (xs j)))) → ∀ y : ℕ → ℝ,
    (pts.map fun t => linAt miss (coef (entries (xs j))) y t ^ 2).sum ≤
      (pts.map fun t => linAt miss (coef (entries (xs j))) (coef (entries (xs (j + 1)))) t ^ 2).sum →
    ∑ i ∈ Finset.range n, (coef (entries (xs (j + 1))) i - coef (entries (xs j)) i) ^ 2 ≤ ∑ i ∈ Finset.range n, (y i - coef (entries (xs j)) i) ^ 2
  stop : (∀ t ∈ pts, |miss (coef (entries (xs k))) t| ≤ tol) ∨ k = maxIter ∨
    ∃ j, k = j + 1 ∧ ∀ i, |coef (entries (xs k)) i - coef (entries (xs j)) i| ≤ tol

theorem local_stops {n : ℕ} (hn0 : n ≠ 0) {miss : (ℕ → ℝ) → T → ℝ} {res : Residual Key} {args : List (View Key)} {z : View Key}
    {pts : List T} (hn : (entries z).length = n) (hval : ∀ v, SameForm z v → res (v :: args) = pts.map (miss (coef (entries v))))
    (hfirst : ∀ t ∈ pts, FirstOnly n miss t) {tol : ℝ} {maxIter k : ℕ} {v x : View Key} (hv : SameForm z v)
    (h : StopsWithReason res args tol maxIter v x k) :
    ∃ xs : ℕ → View Key, xs 0 = v ∧ xs k = x ∧ LocalRun n miss pts z tol maxIter k xs := by
  obtain ⟨hk, xs, dxs, x0, xk, hst, hstop⟩ := h
  have hform : ∀ j ≤ k, SameForm z (xs j) := by
    intro j
    induction j with
    | zero => exact fun _ => x0 ▸ hv
    | succ j ih => exact fun hj => (step_form hn (ih (by omega)) (hst j (by omega))).2.1
  have hlen : ∀ j ≤ k, (entries (xs j)).length = n := fun j hj => by rw [← SameForm.length (hform j hj), hn]
  refine ⟨xs, x0, xk, hk, hform, fun j hj hs y => local_step hn hval hfirst (hform j hj.le) hs (hst j hj) y,
    fun j hj hs y => local_short hn hval hfirst (hform j hj.le) hs (hst j hj) y, ?_⟩
  rcases hstop with h | ⟨j, rfl, h⟩ | h
  · left
    intro t ht'
    rw [← xk, hval _ (hform k le_rfl)] at h
    exact h _ (List.mem_map_of_mem ht')
  · right; right
    obtain ⟨hd, -, he⟩ := step_form hn (hform j (by omega)) (hst j (by omega))
    have hlj := hlen j (by omega)
    refine ⟨j, rfl, fun i => ?_⟩
    rw [he]
    unfold coef
    by_cases hi : i < n
    · have e : (List.zipWith (· - ·) (entries (xs j)) (dxs j)).getD i 0 = (entries (xs j)).getD i 0 - (dxs j).getD i 0 := by
        simp [List.getD, hlj, hd, hi]
      rw [e, sub_sub_cancel_left, abs_neg]
      refine h _ ?_
      rw [List.getD, List.getElem?_eq_getElem (by omega)]
      exact List.getElem_mem _
    · have e1 : (List.zipWith (· - ·) (entries (xs j)) (dxs j)).getD i 0 = 0 := by
        rw [List.getD, List.getElem?_eq_none (by rw [List.length_zipWith, hlj, hd]; omega)]
        rfl
      have e2 : (entries (xs j)).getD i 0 = 0 := by
        rw [List.getD, List.getElem?_eq_none (by omega)]
        rfl
      rw [e1, e2, sub_zero, abs_zero]
      have : 0 < (dxs j).length := by omega
      exact (abs_nonneg _).trans (h _ (List.getElem_mem this))
  · exact Or.inr (Or.inl h)

/-- The run of `NLLS` on such a residual. -/
theorem local_run {lib : LinAlg} (hlib : LinAlgCorrect lib) {method : Method} (hm : method ≠ .other) {n : ℕ} (hn0 : n ≠ 0)
    {miss : (ℕ → ℝ) → T → ℝ} {res : Residual Key} {args : List (View Key)} {L : List ℕ} (hL : GoodConstants L args) {z : View Key}
    (hp : ProperUnknowns z) {pts : List T} (hpts : pts ≠ []) (hn : (entries z).length = n)
    (hval : ∀ v, SameForm z v → res (v :: args) = pts.map (miss (coef (entries v)))) (hfirst : ∀ t ∈ pts, FirstOnly n miss t)
    (tol : ℝ) (htol : tol < 1) (maxIter : ℕ) (timer : Bool) (fuel : ℕ) (hf : maxIter + 2 ≤ fuel) :
    ∃ (k : ℕ) (xs : ℕ → View Key), (NLLS lib method none none none tol maxIter timer res z args L fuel).1 =
      .ok (some (xs k, ((k : ℕ) : ℤ))) ∧ xs 0 = z ∧ LocalRun n miss pts z tol maxIter k xs := by
  have G : GoodProblem lib method none res z args L :=
    ⟨hlib, hm, Or.inl rfl, hL, hp, fun e => hn0 (by rw [← hn, e]; rfl), fun v hv => by rw [hval v hv]; simpa using hpts⟩
  obtain ⟨x, k, h1, h2⟩ := C37_nlls_partial G none tol htol maxIter timer fuel hf
  obtain ⟨xs, h0, hx, hr⟩ := local_stops hn0 hn hval hfirst (SameForm.refl z) h2
  exact ⟨k, xs, by rw [h1, hx], h0, hr⟩

end Verif.Props
