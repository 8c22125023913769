import Verif.Props.QuadNewton
import Verif.Props.Ls

/-!
# What a run of `NLLS` or `LS` computes, for any differentiable or affine residual and any kind of unknowns (arrays and dictionaries)
-/

namespace Verif.Props

open Verif Verif.Mem Verif.Py Verif.Np Verif.Spec Verif.Model Verif.Model.Py Verif.Model.LSq Verif.Lemmas.LSq

variable {Key : Type} [DecidableEq Key] {T : Type}

/-- The residual `R t y` with the partial derivatives `D t y j` in the `n` coefficients. -/
structure Differentiates (n : ℕ) (R : T → (ℕ → ℝ) → ℝ) (D : T → (ℕ → ℝ) → ℕ → ℝ) : Prop where
  only : ∀ t y z, (∀ i < n, y i = z i) → R t y = R t z
  partials : ∀ t y j, j < n → HasDerivAt (fun s : ℝ => R t fun i => y i + if i = j then s else 0) (D t y j) 0

/-- The residual linearised at `y`, for the coefficients `z`. -/
noncomputable def tangent (n : ℕ) (R : T → (ℕ → ℝ) → ℝ) (D : T → (ℕ → ℝ) → ℕ → ℝ) (t : T) (y z : ℕ → ℝ) : ℝ :=
  R t y - ∑ j ∈ Finset.range n, D t y j * (y j - z j)

theorem tangent_congr {n : ℕ} (R : T → (ℕ → ℝ) → ℝ) (D : T → (ℕ → ℝ) → ℕ → ℝ) (t : T) (y : ℕ → ℝ) {z z' : ℕ → ℝ} (h : ∀ i < n, z i = z' i) :
    tangent n R D t y z = tangent n R D t y z' := by
  unfold tangent
  refine congrArg _ (Finset.sum_congr rfl fun i hi => by rw [h i (Finset.mem_range.mp hi)])

theorem run_partial {n : ℕ} {R : T → (ℕ → ℝ) → ℝ} {D : T → (ℕ → ℝ) → ℕ → ℝ} (hR : Differentiates n R D) {res : Residual Key} {z0 : View Key}
    {args : List (View Key)} {pts : List T} (hn : (entries z0).length = n)
    (hval : ∀ v, SameForm z0 v → res (v :: args) = pts.map fun t => R t (coef (entries v))) {v : View Key} (hv : SameForm z0 v)
    {i j : ℕ} (hi : i < pts.length) (hj : j < n) : resPartial res args v i j = D pts[i] (coef (entries v)) j := by
  have hl : (entries v).length = n := (SameForm.length hv).symm.trans hn
  have hfun : (fun s : ℝ => (res (refill v ((entries v).modify j (· + s)) :: args)).getD i 0) = fun s =>
      R pts[i] fun k => coef (entries v) k + if k = j then s else 0 := by
    funext s
    have hml : ((entries v).modify j (· + s)).length = (entries v).length := by simp
    rw [hval _ (SameForm.trans hv (refill_form v hml)), entries_refill v hml]
    have hg : ∀ g : T → ℝ, (pts.map g).getD i 0 = g pts[i] := fun g => by simp [List.getD, hi]
    rw [hg]
    refine hR.only _ _ _ fun k _ => ?_
    show ((entries v).modify j (· + s)).getD k 0 = _
    rw [modify_getD _ j (by omega) s k]
    by_cases h : k = j
    · simp only [h, if_true, coef]
      ring
    · simp only [h, if_false, coef]
      ring
  unfold resPartial
  rw [hfun]
  exact (hR.partials pts[i] (coef (entries v)) j hj).deriv

/-- A step of the solver minimises the linearised residual. -/
theorem run_step {n : ℕ} {R : T → (ℕ → ℝ) → ℝ} {D : T → (ℕ → ℝ) → ℕ → ℝ} (hR : Differentiates n R D) {res : Residual Key} {z0 : View Key}
    {args : List (View Key)} {pts : List T} (hn : (entries z0).length = n)
    (hval : ∀ v, SameForm z0 v → res (v :: args) = pts.map fun t => R t (coef (entries v))) {v v' : View Key} (hv : SameForm z0 v) {dx : List ℝ}
    (h : GaussNewtonStep res args v dx v') :
    SameForm z0 v' ∧ dx.length = n ∧ entries v' = List.zipWith (· - ·) (entries v) dx ∧ ∀ z : ℕ → ℝ,
      (pts.map fun t => tangent n R D t (coef (entries v)) (coef (entries v')) ^ 2).sum ≤
        (pts.map fun t => tangent n R D t (coef (entries v)) z ^ 2).sum := by
  obtain ⟨⟨hdx, hmin, -⟩, hv'⟩ := h
  have hl : (entries v).length = n := (SameForm.length hv).symm.trans hn
  have hdx : dx.length = n := by rw [hdx, hl]
  have hzl : (List.zipWith (· - ·) (entries v) dx).length = (entries v).length := by rw [List.length_zipWith, hl, hdx, min_self]
  have he : entries v' = List.zipWith (· - ·) (entries v) dx := by rw [hv', entries_refill v hzl]
  refine ⟨hv' ▸ SameForm.trans hv (refill_form v hzl), hdx, he, fun z => ?_⟩
  have hz : ∀ i < n, coef (entries v') i = coef (entries v) i - vec dx i := by
    intro i hi
    rw [he]
    simp [coef, vec, List.getD, hl, hdx, hi]
  have key : ∀ y : ℕ → ℝ, missSq (res (v :: args)).length (entries v).length (resPartial res args v) y
      (vec (res (v :: args))) = (pts.map fun t => tangent n R D t (coef (entries v)) (fun i => coef (entries v) i - y i) ^ 2).sum := by
    intro y
    rw [← sum_range_get]
    unfold missSq
    rw [hval v hv, List.length_map, Finset.sum_range]
    refine Finset.sum_congr rfl fun i _ => ?_
    unfold tangent
    rw [sub_sq_comm]
    congr 2
    · simp [vec, List.getD]
    · rw [hl]
      refine Finset.sum_congr rfl fun j hj => ?_
      rw [run_partial hR hn hval hv i.2 (Finset.mem_range.mp hj), sub_sub_cancel]
      rfl
  have := hmin fun i => coef (entries v) i - z i
  rw [key, key] at this
  have e1 : (pts.map fun t => tangent n R D t (coef (entries v)) (coef (entries v')) ^ 2) =
      pts.map fun t => tangent n R D t (coef (entries v)) (fun i => coef (entries v) i - vec dx i) ^ 2 :=
    List.map_congr_left fun t _ => by rw [tangent_congr R D t _ hz]
  have e2 : (pts.map fun t => tangent n R D t (coef (entries v)) z ^ 2) =
      pts.map fun t => tangent n R D t (coef (entries v)) (fun i => coef (entries v) i - (coef (entries v) i - z i)) ^ 2 :=
    List.map_congr_left fun t _ => by
      rw [tangent_congr R D t _ (z' := fun i => coef (entries v) i - (coef (entries v) i - z i)) fun i _ => by ring]
  rw [e1, e2]
  exact this

/-- The run of the solver: the iterates, each a minimiser of the residual linearised at the one before, and the reason for the stop. -/
theorem view_run {lib : LinAlg} (hlib : LinAlgCorrect lib) {method : Method} (hm : method ≠ .other) {n : ℕ} (hn0 : n ≠ 0)
    {R : T → (ℕ → ℝ) → ℝ} {D : T → (ℕ → ℝ) → ℕ → ℝ} (hR : Differentiates n R D) {pts : List T} (hpts : pts ≠ []) {res : Residual Key} {z0 : View Key}
    (hp : ProperUnknowns z0) (hn : (entries z0).length = n) {args : List (View Key)} {L : List ℕ} (hL : GoodConstants L args)
    (hval : ∀ v, SameForm z0 v → res (v :: args) = pts.map fun t => R t (coef (entries v)))
    (tol : ℝ) (htol : tol < 1) (maxIter : ℕ) (timer : Bool) (fuel : ℕ) (hf : maxIter + 2 ≤ fuel) :
    ∃ (k : ℕ) (xs : ℕ → View Key), (NLLS lib method none none none tol maxIter timer res z0 args L fuel).1 =
      .ok (some (xs k, ((k : ℕ) : ℤ))) ∧ k ≤ maxIter ∧ xs 0 = z0 ∧ (∀ j ≤ k, SameForm z0 (xs j)) ∧
      (∀ j < k, ∀ z : ℕ → ℝ, (pts.map fun t => tangent n R D t (coef (entries (xs j))) (coef (entries (xs (j + 1)))) ^ 2).sum ≤
        (pts.map fun t => tangent n R D t (coef (entries (xs j))) z ^ 2).sum) ∧
      ((∀ t ∈ pts, |R t (coef (entries (xs k)))| ≤ tol) ∨ k = maxIter ∨
        ∃ j, k = j + 1 ∧ ∀ i, |coef (entries (xs k)) i - coef (entries (xs j)) i| ≤ tol) := by
  have G : GoodProblem lib method none res z0 args L :=
    ⟨hlib, hm, Or.inl rfl, hL, hp, fun h => hn0 (by rw [← hn, h]; rfl), fun v hv => by
      rw [hval v hv]
      simpa using hpts⟩
  obtain ⟨x, k, h1, hk, xs, dxs, x0, xk, hst, hstop⟩ := C37_nlls_partial G none tol htol maxIter timer fuel hf
  have hform : ∀ j ≤ k, SameForm z0 (xs j) := by
    intro j
    induction j with
    | zero => exact fun _ => x0 ▸ SameForm.refl z0
    | succ j ih => exact fun hj => (run_step hR hn hval (ih (by omega)) (hst j (by omega))).1
  refine ⟨k, xs, by rw [h1, xk], hk, x0, hform, fun j hj => (run_step hR hn hval (hform j hj.le) (hst j hj)).2.2.2, ?_⟩
  rcases hstop with h | ⟨j, rfl, h⟩ | h
  · left
    intro t ht'
    rw [← xk, hval _ (hform k le_rfl)] at h
    exact h _ (List.mem_map_of_mem (f := fun t => R t (coef (entries (xs k)))) ht')
  · right; right
    obtain ⟨-, hd, he, -⟩ := run_step hR hn hval (hform j (by omega)) (hst j (by omega))
    refine ⟨j, rfl, fun i => ?_⟩
    have hlj : (entries (xs j)).length = n := (SameForm.length (hform j (by omega))).symm.trans hn
    rw [he]
    unfold coef
    by_cases hi : i < n
    · have e : (List.zipWith (· - ·) (entries (xs j)) (dxs j)).getD i 0 = (entries (xs j)).getD i 0 - (dxs j).getD i 0 := by
        simp [List.getD, hlj, hd, hi]
      rw [e, sub_sub_cancel_left, abs_neg]
      refine h _ ?_
      rw [List.getD, List.getElem?_eq_getElem (by omega)]
      exact List.getElem_mem _
    · have e1 : (List.zipWith (· - ·) (entries (xs j)) (dxs j)).getD i 0 = 0 := by
        rw [List.getD, List.getElem?_eq_none (by rw [List.length_zipWith, hlj, hd]; omega)]
        rfl
      have e2 : (entries (xs j)).getD i 0 = 0 := by
        rw [List.getD, List.getElem?_eq_none (by omega)]
        rfl
      rw [e1, e2, sub_zero, abs_zero]
      have : 0 < (dxs j).length := by omega
      exact (abs_nonneg _).trans (h _ (List.getElem_mem this))
  · exact Or.inr (Or.inl h)

/-! ## Affine residuals -/

/-- Entry `i` of a list of functions. -/
def entryOf (pts : List T) (f : T → ℝ) (i : ℕ) : ℝ := (pts[i]?.map f).getD 0

theorem affine_of_values {n : ℕ} {R : T → (ℕ → ℝ) → ℝ} {a : T → ℕ → ℝ} {b : T → ℝ} {pts : List T}
    (hR : ∀ t ∈ pts, ∀ y, R t y = (∑ j ∈ Finset.range n, a t j * y j) + b t) {res : Residual Key} {z0 : View Key} {args : List (View Key)}
    (hn : (entries z0).length = n) (hval : ∀ v, SameForm z0 v → res (v :: args) = pts.map fun t => R t (coef (entries v))) :
    AffineIn res z0 args pts.length (fun i j => entryOf pts (fun t => a t j) i) (entryOf pts b) := by
  intro v hv
  rw [hval v hv]
  refine List.ext_getElem (by simp) fun i h1 h2 => ?_
  have hi : i < pts.length := by simpa using h1
  have hl : (entries v).length = n := (SameForm.length hv).symm.trans hn
  simp only [List.getElem_map, List.getElem_range, entryOf, List.getElem?_eq_getElem hi, Option.map_some, Option.getD_some, hl]
  exact hR _ (List.getElem_mem _) _

theorem exists_view {n : ℕ} {z0 : View Key} (hn : (entries z0).length = n) (y : ℕ → ℝ) :
    ∃ v, SameForm z0 v ∧ ∀ i < n, coef (entries v) i = y i := by
  have hl : ((List.range n).map y).length = (entries z0).length := by simp [hn]
  refine ⟨refill z0 ((List.range n).map y), refill_form z0 hl, fun i hi => ?_⟩
  rw [entries_refill z0 hl]
  simp [coef, List.getD, hi]

/-- The solution of `LS` has the least sum of squares. -/
theorem linear_run {lib : LinAlg} (hlib : LinAlgCorrect lib) {method : Method} (hm : method ≠ .other) {n : ℕ}
    {R : T → (ℕ → ℝ) → ℝ} {a : T → ℕ → ℝ} {b : T → ℝ} {pts : List T} (hR : ∀ t ∈ pts, ∀ y, R t y = (∑ j ∈ Finset.range n, a t j * y j) + b t)
    {res : Residual Key} {z0 : View Key} (hp : ProperUnknowns z0) (hz : NotRobustMany z0) (hn : (entries z0).length = n) {args : List (View Key)}
    {L : List ℕ} (hL : GoodConstants L args) (hval : ∀ v, SameForm z0 v → res (v :: args) = pts.map fun t => R t (coef (entries v))) (timer : Bool) :
    ∃ x, (LS lib method none timer res z0 args L).1 = .ok x ∧ SameForm z0 x ∧
      ∀ y : ℕ → ℝ, (pts.map fun t => R t (coef (entries x)) ^ 2).sum ≤ (pts.map fun t => R t y ^ 2).sum := by
  obtain ⟨x, h1, ⟨hf, hmin⟩, -⟩ := C35_ls_partial lib hlib method hm none timer res z0 args L hL hp hz pts.length _ _ (affine_of_values hR hn hval)
    (Or.inl rfl)
  refine ⟨x, h1, hf, fun y => ?_⟩
  obtain ⟨v, hv, e⟩ := exists_view hn y
  have := hmin v hv
  rw [hval x hf, hval v hv] at this
  simp only [normSq, List.map_map, Function.comp_def] at this
  refine this.trans_eq (congrArg List.sum (List.map_congr_left fun t ht => ?_))
  rw [hR t ht, hR t ht]
  exact congrArg (fun s => (s + b t) ^ 2) (Finset.sum_congr rfl fun i hi => by rw [e i (Finset.mem_range.mp hi)])

/-- The same for the solution without `LS`, from unknowns that are zero. -/
theorem direct_run {lib : LinAlg} (hlib : LinAlgCorrect lib) {method : Method} (hm : method ≠ .other) {n : ℕ}
    {R : T → (ℕ → ℝ) → ℝ} {a : T → ℕ → ℝ} {b : T → ℝ} {pts : List T} (hR : ∀ t ∈ pts, ∀ y, R t y = (∑ j ∈ Finset.range n, a t j * y j) + b t)
    {res : Residual Key} {z0 : View Key} (hp : ProperUnknowns z0) (hn : (entries z0).length = n) (h0 : ∀ i, coef (entries z0) i = 0)
    {args : List (View Key)} (hval : ∀ v, SameForm z0 v → res (v :: args) = pts.map fun t => R t (coef (entries v))) :
    ∃ dx, lsFun lib method none res (z0 :: args) = .ok dx ∧ dx.length = n ∧
      ∀ y : ℕ → ℝ, (pts.map fun t => R t (coef dx) ^ 2).sum ≤ (pts.map fun t => R t y ^ 2).sum := by
  obtain ⟨dx, h1, h2⟩ := lsFun_affine hlib hm (affine_of_values hR hn hval) (J := none) (Or.inl rfl) (SameForm.refl z0) hp
  rw [hn] at h2
  have key : ∀ y : ℕ → ℝ, missSq pts.length n (fun i j => entryOf pts (fun t => a t j) i) y (vec ((res (z0 :: args)).map (- ·))) =
      (pts.map fun t => R t y ^ 2).sum := by
    intro y
    rw [← sum_range_get]
    unfold missSq
    rw [Finset.sum_range]
    refine Finset.sum_congr rfl fun i _ => ?_
    rw [hval z0 (SameForm.refl z0)]
    have e0 : ∀ t ∈ pts, R t (coef (entries z0)) = b t := fun t ht => by
      rw [hR t ht]
      simp [h0]
    have e1 : vec ((pts.map fun t => R t (coef (entries z0))).map (- ·)) i = -b pts[i] := by
      simp [vec, List.getD, e0]
    rw [e1, sub_neg_eq_add]
    simp only [entryOf, List.getElem?_eq_getElem i.2, Option.map_some, Option.getD_some]
    rw [hR pts[i] (List.getElem_mem _)]
    rfl
  refine ⟨dx, h1, h2.length, fun y => ?_⟩
  have := h2.min y
  rw [key, key] at this
  exact this

end Verif.Props
