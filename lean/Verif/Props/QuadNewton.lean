import Verif.Props.OdeProgram

/-!
# Residuals `D(ξ) + E(ξ) F(ξ) - c` with `D`, `E` and `F` affine in the coefficients: what a run of `NLLS` computes
-/

namespace Verif.Props

open Verif Verif.Mem Verif.Py Verif.Np Verif.Spec Verif.Model Verif.Model.Py Verif.Model.LSq

/-- An affine function of `m` coefficients. -/
noncomputable def aff (m : ℕ) (a0 : ℝ) (a y : ℕ → ℝ) : ℝ := a0 + ∑ i ∈ Finset.range m, y i * a i

theorem aff_sub (m : ℕ) (a0 : ℝ) (a y z : ℕ → ℝ) :
    aff m a0 a (fun i => y i - z i) = aff m a0 a y - ∑ i ∈ Finset.range m, z i * a i := by
  unfold aff
  rw [add_sub_assoc, ← Finset.sum_sub_distrib]
  refine congrArg _ (Finset.sum_congr rfl fun i _ => by ring)

theorem aff_congr {m : ℕ} {a0 : ℝ} {a y z : ℕ → ℝ} (h : ∀ i < m, y i = z i) : aff m a0 a y = aff m a0 a z := by
  unfold aff
  refine congrArg _ (Finset.sum_congr rfl fun i hi => by rw [h i (Finset.mem_range.mp hi)])

/-- The data of such a residual, at points of any kind. -/
structure Quad (T : Type) where
  m : ℕ
  D0 : T → ℝ
  E0 : T → ℝ
  F0 : T → ℝ
  c : T → ℝ
  D : ℕ → T → ℝ
  E : ℕ → T → ℝ
  F : ℕ → T → ℝ

variable {T : Type}

/-- The residual at `t` for the coefficients `y`. -/
noncomputable def Quad.miss (q : Quad T) (y : ℕ → ℝ) (t : T) : ℝ :=
  aff q.m (q.D0 t) (q.D · t) y + aff q.m (q.E0 t) (q.E · t) y * aff q.m (q.F0 t) (q.F · t) y - q.c t

/-- The residual linearised at `y`, for the coefficients `z`. -/
noncomputable def Quad.lin (q : Quad T) (y z : ℕ → ℝ) (t : T) : ℝ :=
  aff q.m (q.D0 t) (q.D · t) z + (aff q.m (q.E0 t) (q.E · t) y * aff q.m (q.F0 t) (q.F · t) z +
    aff q.m (q.E0 t) (q.E · t) z * aff q.m (q.F0 t) (q.F · t) y -
    aff q.m (q.E0 t) (q.E · t) y * aff q.m (q.F0 t) (q.F · t) y) - q.c t

theorem Quad.lin_congr (q : Quad T) {y z z' : ℕ → ℝ} (h : ∀ i < q.m, z i = z' i) (t : T) : q.lin y z t = q.lin y z' t := by
  unfold Quad.lin
  rw [aff_congr h, aff_congr (a := (q.F · t)) h, aff_congr (a := (q.E · t)) h]

theorem Quad.miss_congr (q : Quad T) {z z' : ℕ → ℝ} (h : ∀ i < q.m, z i = z' i) (t : T) : q.miss z t = q.miss z' t := by
  unfold Quad.miss
  rw [aff_congr h, aff_congr (a := (q.F · t)) h, aff_congr (a := (q.E · t)) h]

theorem Quad.lin_sub (q : Quad T) (y z : ℕ → ℝ) (t : T) : q.lin y (fun i => y i - z i) t = q.miss y t -
    ∑ i ∈ Finset.range q.m, (q.D i t + (aff q.m (q.E0 t) (q.E · t) y * q.F i t + q.E i t * aff q.m (q.F0 t) (q.F · t) y)) * z i := by
  have h : ∀ i, (q.D i t + (aff q.m (q.E0 t) (q.E · t) y * q.F i t + q.E i t * aff q.m (q.F0 t) (q.F · t) y)) * z i =
      z i * q.D i t + (aff q.m (q.E0 t) (q.E · t) y * (z i * q.F i t) + aff q.m (q.F0 t) (q.F · t) y * (z i * q.E i t)) := fun i => by ring
  simp only [h, Finset.sum_add_distrib, ← Finset.mul_sum]
  unfold Quad.lin Quad.miss
  rw [aff_sub, aff_sub, aff_sub]
  ring

/-- The coefficients held in an array. -/
def coef (xi : List ℝ) (i : ℕ) : ℝ := xi.getD i 0

/-- The partial derivative of the residual by a coefficient. -/
theorem quad_partial {q : Quad T} {res : Residual Unit} {args : List (View Unit)} {pts : List T}
    (hval : ∀ xi, res (.arr xi :: args) = pts.map (q.miss (coef xi))) {xi : List ℝ} (hl : xi.length = q.m)
    {i j : ℕ} (hi : i < pts.length) (hj : j < q.m) :
    resPartial res args (.arr xi) i j = q.D j pts[i] + (aff q.m (q.E0 pts[i]) (q.E · pts[i]) (coef xi) * q.F j pts[i] +
      q.E j pts[i] * aff q.m (q.F0 pts[i]) (q.F · pts[i]) (coef xi)) := by
  obtain ⟨t, ht⟩ : ∃ t, t = pts[i] := ⟨_, rfl⟩
  have hmove : ∀ (a0 : ℝ) (a : ℕ → ℝ) (s : ℝ), aff q.m a0 a (coef (xi.modify j (· + s))) = aff q.m a0 a (coef xi) + s * a j := by
    intro a0 a s
    have : aff q.m a0 a (coef (xi.modify j (· + s))) = aff q.m a0 a (fun k => coef xi k - if k = j then -s else 0) :=
      aff_congr fun k _ => modify_getD xi j (by omega) s k
    rw [this, aff_sub, Finset.sum_eq_single j (fun k _ hk => by rw [if_neg hk, zero_mul])
      fun h => (h (Finset.mem_range.mpr hj)).elim, if_pos rfl]
    ring
  have hfun : (fun s : ℝ => (res (refill (.arr xi) ((entries (.arr xi : View Unit)).modify j (· + s)) :: args)).getD i 0) = fun s =>
      (aff q.m (q.D0 t) (q.D · t) (coef xi) + s * q.D j t) + (aff q.m (q.E0 t) (q.E · t) (coef xi) + s * q.E j t) *
        (aff q.m (q.F0 t) (q.F · t) (coef xi) + s * q.F j t) - q.c t := by
    funext s
    simp only [refill, entries]
    rw [hval]
    have hg : ∀ g : T → ℝ, (pts.map g).getD i 0 = g t := fun g => by simp [ht, List.getD, hi]
    rw [hg, Quad.miss, hmove, hmove, hmove]
  unfold resPartial
  rw [hfun, ← ht]
  have hlin : ∀ A B : ℝ, HasDerivAt (fun s : ℝ => A + s * B) B 0 := fun A B => by
    simpa using ((hasDerivAt_id (0 : ℝ)).mul_const B).const_add A
  have h1 := hlin (aff q.m (q.D0 t) (q.D · t) (coef xi)) (q.D j t)
  have h2 := hlin (aff q.m (q.E0 t) (q.E · t) (coef xi)) (q.E j t)
  have h3 := hlin (aff q.m (q.F0 t) (q.F · t) (coef xi)) (q.F j t)
  have := ((h1.add (h2.mul h3)).sub_const (q.c t)).deriv
  refine this.trans ?_
  simp only [zero_mul, add_zero]
  ring

theorem sum_range_get (g : T → ℝ) (l : List T) : ∑ i : Fin l.length, g l[i] = (l.map g).sum := by
  rw [← List.sum_ofFn]
  congr 1
  apply List.ext_getElem <;> simp

/-- A Gauss–Newton step of the solver minimises the linearised residual. -/
theorem quad_step {q : Quad T} {res : Residual Unit} {args : List (View Unit)} {pts : List T}
    (hval : ∀ xi, res (.arr xi :: args) = pts.map (q.miss (coef xi))) {xi dx : List ℝ} {v : View Unit} (hl : xi.length = q.m)
    (h : GaussNewtonStep res args (.arr xi) dx v) :
    dx.length = q.m ∧ v = .arr (List.zipWith (· - ·) xi dx) ∧ ∀ z : ℕ → ℝ,
      (pts.map fun t => q.lin (coef xi) (coef (List.zipWith (· - ·) xi dx)) t ^ 2).sum ≤
        (pts.map fun t => q.lin (coef xi) z t ^ 2).sum := by
  obtain ⟨⟨hdx, hmin, -⟩, hv⟩ := h
  have hdx : dx.length = q.m := by simpa [entries, hl] using hdx
  refine ⟨hdx, hv, fun z => ?_⟩
  have hz : ∀ i < q.m, coef (List.zipWith (· - ·) xi dx) i = coef xi i - vec dx i := by
    intro i hi
    simp [coef, vec, List.getD, hl, hdx, hi]
  have key : ∀ y : ℕ → ℝ, missSq (res (.arr xi :: args)).length (entries (.arr xi : View Unit)).length (resPartial res args (.arr xi)) y
      (vec (res (.arr xi :: args))) = (pts.map fun t => q.lin (coef xi) (fun i => coef xi i - y i) t ^ 2).sum := by
    intro y
    rw [← sum_range_get]
    unfold missSq
    rw [hval, List.length_map, Finset.sum_range]
    refine Finset.sum_congr rfl fun i _ => ?_
    rw [Quad.lin_sub, sub_sq_comm]
    congr 2
    · simp [vec, List.getD]
    · simp only [entries, hl]
      refine Finset.sum_congr rfl fun j hj => ?_
      rw [quad_partial hval hl i.2 (Finset.mem_range.mp hj)]
      rfl
  have := hmin fun i => coef xi i - z i
  rw [key, key] at this
  have e1 : (pts.map fun t => q.lin (coef xi) (coef (List.zipWith (· - ·) xi dx)) t ^ 2) =
      pts.map fun t => q.lin (coef xi) (fun i => coef xi i - vec dx i) t ^ 2 :=
    List.map_congr_left fun t _ => by rw [q.lin_congr hz]
  have e2 : (pts.map fun t => q.lin (coef xi) z t ^ 2) =
      pts.map fun t => q.lin (coef xi) (fun i => coef xi i - (coef xi i - z i)) t ^ 2 :=
    List.map_congr_left fun t _ => by rw [q.lin_congr (z' := fun i => coef xi i - (coef xi i - z i)) fun i _ => by ring]
  rw [e1, e2]
  exact this

/-- The run of the solver on such a residual: iterates `ξ 0 = 0, …, ξ k`, each a minimiser of the residual linearised at the one
before, and the reason for the stop. -/
theorem quad_run {lib : LinAlg} (hlib : LinAlgCorrect lib) {method : Method} (hm : method ≠ .other) {q : Quad T} (hm0 : q.m ≠ 0)
    {pts : List T} (hpts : pts ≠ []) {res : Residual Unit} {args : List (View Unit)} {L : List ℕ} (hL : GoodConstants L args)
    (hval : ∀ xi, res (.arr xi :: args) = pts.map (q.miss (coef xi)))
    (tol : ℝ) (htol : tol < 1) (maxIter : ℕ) (timer : Bool) (fuel : ℕ) (hf : maxIter + 2 ≤ fuel) :
    ∃ (k : ℕ) (ξ : ℕ → List ℝ), (NLLS lib method none none none tol maxIter timer res (.arr (List.replicate q.m 0)) args L fuel).1 =
      .ok (some (.arr (ξ k), ((k : ℕ) : ℤ))) ∧ k ≤ maxIter ∧ ξ 0 = List.replicate q.m 0 ∧ (∀ j ≤ k, (ξ j).length = q.m) ∧
      (∀ j < k, ∀ z : ℕ → ℝ, (pts.map fun t => q.lin (coef (ξ j)) (coef (ξ (j + 1))) t ^ 2).sum ≤
        (pts.map fun t => q.lin (coef (ξ j)) z t ^ 2).sum) ∧
      ((∀ t ∈ pts, |q.miss (coef (ξ k)) t| ≤ tol) ∨ k = maxIter ∨ ∃ j, k = j + 1 ∧ ∀ i, |coef (ξ k) i - coef (ξ j) i| ≤ tol) := by
  have G : GoodProblem lib method none res (.arr (List.replicate q.m 0)) args L :=
    ⟨hlib, hm, Or.inl rfl, hL, trivial, by simp [entries, hm0], fun v hv => by
      cases v with
      | dict cls kvs => exact hv.elim
      | arr xi => rw [hval]; simpa using hpts⟩
  obtain ⟨x, k, h1, hk, xs, dxs, x0, xk, hst, hstop⟩ := C37_nlls_partial G none tol htol maxIter timer fuel hf
  have harr : ∀ j ≤ k, ∃ xi : List ℝ, xs j = .arr xi ∧ xi.length = q.m := by
    intro j
    induction j with
    | zero => exact fun _ => ⟨_, x0, by simp⟩
    | succ j ih =>
      intro hj
      obtain ⟨xi, e, hl⟩ := ih (by omega)
      have hs := hst j (by omega)
      rw [e] at hs
      obtain ⟨hd, hv, -⟩ := quad_step hval hl hs
      exact ⟨_, hv, by rw [List.length_zipWith, hl, hd, min_self]⟩
  choose! ξ hξ hξl using harr
  have hx' : x = .arr (ξ k) := by rw [← xk, hξ k le_rfl]
  refine ⟨k, ξ, by rw [h1, hx'], hk, ?_, hξl, ?_, ?_⟩
  · have := hξ 0 (Nat.zero_le _)
    rw [x0] at this
    exact (View.arr.inj this).symm
  · intro j hj
    have hs := hst j hj
    rw [hξ j hj.le] at hs
    obtain ⟨-, hv, hN⟩ := quad_step hval (hξl j hj.le) hs
    rw [hξ (j + 1) hj] at hv
    rw [View.arr.inj hv]
    exact hN
  · rcases hstop with h | ⟨j, rfl, h⟩ | h
    · left
      intro t ht'
      rw [hx', hval] at h
      exact h _ (List.mem_map_of_mem ht')
    · right; right
      have hs := hst j (by omega)
      rw [hξ j (by omega)] at hs
      obtain ⟨hd, hv, -⟩ := quad_step hval (hξl j (by omega)) hs
      rw [hξ (j + 1) le_rfl] at hv
      rw [View.arr.inj hv]
      refine ⟨j, rfl, fun i => ?_⟩
      have hlj := hξl j (by omega)
      unfold coef
      by_cases hi : i < q.m
      · have e : (List.zipWith (· - ·) (ξ j) (dxs j)).getD i 0 = (ξ j).getD i 0 - (dxs j).getD i 0 := by
          simp [List.getD, hlj, hd, hi]
        rw [e, sub_sub_cancel_left, abs_neg]
        refine h _ ?_
        rw [List.getD, List.getElem?_eq_getElem (by omega)]
        exact List.getElem_mem _
      · have e1 : (List.zipWith (· - ·) (ξ j) (dxs j)).getD i 0 = 0 := by
          rw [List.getD, List.getElem?_eq_none (by rw [List.length_zipWith, hlj, hd]; omega)]
          rfl
        have e2 : (ξ j).getD i 0 = 0 := by
          rw [List.getD, List.getElem?_eq_none (by omega)]
          rfl
        rw [e1, e2, sub_zero, abs_zero]
        have : 0 < (dxs j).length := by omega
        exact (abs_nonneg _).trans (h _ (List.getElem_mem this))
    · exact Or.inr (Or.inl h)

end Verif.Props
