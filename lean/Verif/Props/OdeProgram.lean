import Verif.Model.Ode
import Verif.Spec.Ode
import Verif.Props.Bvp
import Verif.Props.Nlls

/-!
# C98: the nonlinear boundary value problem of the tests, from the constructor to the solution
-/

namespace Verif.Props

open Polynomial Verif Verif.Mem Verif.Py Verif.Np Verif.Spec Verif.Model Verif.Model.Py Verif.Model.LSq

/-- The direction in which coefficient `j` moves the constrained expression. -/
noncomputable def ceDir (ti tf : ℝ) (φ : ℕ → ℝ[X]) (j : ℕ) : ℝ[X] := cePoly ti tf 0 0 (φ (j + 2))

theorem ce_move (φ : ℕ → ℝ[X]) (m : ℕ) (ti tf yi yf : ℝ) {xi xi' : List ℝ} (y : ℕ → ℝ)
    (h : ∀ i < m, xi'.getD i 0 = xi.getD i 0 - y i) :
    cePoly ti tf yi yf (freePart φ m xi') =
      cePoly ti tf yi yf (freePart φ m xi) - ∑ i ∈ Finset.range m, C (y i) * ceDir ti tf φ i := by
  rw [cePoly_sum, cePoly_sum, add_sub_assoc, ← Finset.sum_sub_distrib]
  refine congrArg _ (Finset.sum_congr rfl fun i hi => ?_)
  rw [h i (Finset.mem_range.mp hi), C_sub, sub_mul]
  rfl

theorem odeLin_move (f f2 : ℝ → ℝ) (p : ℝ[X]) (m : ℕ) (y : ℕ → ℝ) (b : ℕ → ℝ[X]) (t : ℝ) :
    odeLin f f2 p (p - ∑ i ∈ Finset.range m, C (y i) * b i) t = odeMiss f f2 p t -
      ∑ i ∈ Finset.range m, ((derivative (derivative (b i))).eval t +
        f t * (p.eval t * (derivative (b i)).eval t + (derivative p).eval t * (b i).eval t)) * y i := by
  simp only [odeLin, odeMiss, derivative_sub, derivative_sum, derivative_C_mul, eval_sub, eval_finsetSum, eval_mul, eval_C]
  have h : ∀ i, ((derivative (derivative (b i))).eval t +
        f t * (p.eval t * (derivative (b i)).eval t + (derivative p).eval t * (b i).eval t)) * y i =
      y i * (derivative (derivative (b i))).eval t + (f t * p.eval t * (y i * (derivative (b i)).eval t) +
        f t * (derivative p).eval t * (y i * (b i).eval t)) := fun i => by ring
  simp only [h, Finset.sum_add_distrib, ← Finset.mul_sum]
  ring

theorem modify_getD (l : List ℝ) (j : ℕ) (hj : j < l.length) (s : ℝ) (i : ℕ) :
    (l.modify j (· + s)).getD i 0 = l.getD i 0 - if i = j then -s else 0 := by
  by_cases h : i = j
  · subst h
    simp [List.getD, hj]
  · have h' : j ≠ i := fun e => h e.symm
    simp [List.getD, List.getElem?_modify, h, h']

theorem odeRes_ok (u : Utfc) (f : PolyFamily) (hcls : u.cls = .poly f) (hx : u.x0 ≠ u.xf) (m : ℕ) (hdeg : u.deg = m + 1)
    (hnC : u.nC = [0, 1]) {φ : ℕ → ℝ[X]} (hφ : ∀ k x, (φ k).eval x = (classical ℝ f k).eval (f.arg u.x0 u.xf x))
    (ti tf yi yf : ℝ) (a c : ℝ → ℝ) (t xi : List ℝ) :
    odeRes u ti tf yi yf a c t xi = .ok (t.map (odeMiss a c (cePoly ti tf yi yf (freePart φ m xi)))) := by
  have hM := fun d => ceMats_ok u f hcls hx m hdeg hnC hφ ti tf d t.length (fun j => t.getD j 0)
  obtain ⟨M, hM0, -, hMv⟩ := hM 0
  obtain ⟨M1, hM1, -, hM1v⟩ := hM 1
  obtain ⟨M2, hM2, -, hM2v⟩ := hM 2
  unfold odeRes
  simp only [hM0, hM1, hM2, bind, Except.bind, pure, Except.pure]
  refine congrArg Except.ok ?_
  rw [← map_range_getD]
  refine List.map_congr_left fun j hj => ?_
  have hj := List.mem_range.mp hj
  rw [hMv yi yf xi j hj, hM1v yi yf xi j hj, hM2v yi yf xi j hj]
  rfl

/-- The partial derivative of the residual by a coefficient. -/
theorem odeRes_partial {res : Residual Unit} {args : List (View Unit)} {φ : ℕ → ℝ[X]} {m : ℕ} {ti tf yi yf : ℝ} {a c : ℝ → ℝ} {pts : List ℝ}
    (hval : ∀ xi, res (.arr xi :: args) = pts.map (odeMiss a c (cePoly ti tf yi yf (freePart φ m xi)))) {xi : List ℝ} (hl : xi.length = m)
    {i j : ℕ} (hi : i < pts.length) (hj : j < m) :
    resPartial res args (.arr xi) i j = (derivative (derivative (ceDir ti tf φ j))).eval (pts.getD i 0) +
      a (pts.getD i 0) * ((cePoly ti tf yi yf (freePart φ m xi)).eval (pts.getD i 0) * (derivative (ceDir ti tf φ j)).eval (pts.getD i 0) +
        (derivative (cePoly ti tf yi yf (freePart φ m xi))).eval (pts.getD i 0) * (ceDir ti tf φ j).eval (pts.getD i 0)) := by
  obtain ⟨p, hp⟩ : ∃ p, p = cePoly ti tf yi yf (freePart φ m xi) := ⟨_, rfl⟩
  obtain ⟨b, hb⟩ : ∃ b, b = ceDir ti tf φ j := ⟨_, rfl⟩
  obtain ⟨t, ht⟩ : ∃ t, t = pts.getD i 0 := ⟨_, rfl⟩
  have hfun : (fun s : ℝ => (res (refill (.arr xi) ((entries (.arr xi : View Unit)).modify j (· + s)) :: args)).getD i 0) = fun s =>
      ((derivative (derivative p)).eval t + s * (derivative (derivative b)).eval t) +
        a t * (p.eval t + s * b.eval t) * ((derivative p).eval t + s * (derivative b).eval t) - c t := by
    funext s
    simp only [refill, entries]
    rw [hval, ce_move φ m ti tf yi yf (xi := xi) (fun k => if k = j then -s else 0) fun k _ => modify_getD xi j (by omega) s k]
    rw [Finset.sum_eq_single j (fun k _ hk => by rw [if_neg hk, C_0, zero_mul]) fun h => (h (Finset.mem_range.mpr hj)).elim, if_pos rfl]
    have hg : ∀ g : ℝ → ℝ, (pts.map g).getD i 0 = g t := fun g => by simp [ht, List.getD, hi]
    rw [← hp, ← hb, hg]
    simp [odeMiss]
  unfold resPartial
  rw [hfun, ← hp, ← hb, ← ht]
  have hlin : ∀ A B : ℝ, HasDerivAt (fun s : ℝ => A + s * B) B 0 := fun A B => by
    simpa using ((hasDerivAt_id (0 : ℝ)).mul_const B).const_add A
  have h1 := hlin ((derivative (derivative p)).eval t) ((derivative (derivative b)).eval t)
  have h2 := hlin (p.eval t) (b.eval t)
  have h3 := hlin ((derivative p).eval t) ((derivative b).eval t)
  have := ((h1.add ((h2.const_mul (a t)).mul h3)).sub_const (c t)).deriv
  refine this.trans ?_
  simp only [zero_mul, add_zero]
  ring

theorem sum_range_list (g : ℝ → ℝ) (l : List ℝ) : ∑ i ∈ Finset.range l.length, g (l.getD i 0) = (l.map g).sum := by
  rw [← map_range_getD]
  simp [Finset.sum, Finset.range, Multiset.range]

/-- A Gauss–Newton step of the solver is a Newton step of the boundary value problem. -/
theorem step_newton {res : Residual Unit} {args : List (View Unit)} {fam : PolyFamily} {x0 xf : ℝ} (hx : x0 ≠ xf) {φ : ℕ → ℝ[X]}
    (hφ : ∀ k x, (φ k).eval x = (classical ℝ fam k).eval (fam.arg x0 xf x)) (hφd : ∀ k, (φ k).degree < (k + 1 : ℕ)) {m : ℕ}
    {ti tf yi yf : ℝ} (ht : ti ≠ tf) {a c : ℝ → ℝ} {pts : List ℝ}
    (hval : ∀ xi, res (.arr xi :: args) = pts.map (odeMiss a c (cePoly ti tf yi yf (freePart φ m xi)))) {xi dx : List ℝ}
    {v : View Unit} (hl : xi.length = m) (h : GaussNewtonStep res args (.arr xi) dx v) :
    dx.length = m ∧ v = .arr (List.zipWith (· - ·) xi dx) ∧ NewtonStep (m + 1) ti tf yi yf a c pts (cePoly ti tf yi yf (freePart φ m xi))
      (cePoly ti tf yi yf (freePart φ m (List.zipWith (· - ·) xi dx))) := by
  obtain ⟨⟨hdx, hmin, -⟩, hv⟩ := h
  have hdx : dx.length = m := by simpa [entries, hl] using hdx
  refine ⟨hdx, hv, fun q hq => ?_⟩
  have hz : ∀ i < m, (List.zipWith (· - ·) xi dx).getD i 0 = xi.getD i 0 - vec dx i := by
    intro i hi
    simp [vec, List.getD, hl, hdx, hi]
  rw [ce_move φ m ti tf yi yf (vec dx) hz]
  obtain ⟨xi', hl', rfl⟩ := admissible_ce hx hφ hφd ht hq
  rw [ce_move φ m ti tf yi yf (xi := xi) (xi' := xi') (fun i => xi.getD i 0 - xi'.getD i 0) fun i _ => by ring]
  have key : ∀ y : ℕ → ℝ, missSq (res (.arr xi :: args)).length (entries (.arr xi : View Unit)).length (resPartial res args (.arr xi)) y
      (vec (res (.arr xi :: args))) = (pts.map fun t => odeLin a c (cePoly ti tf yi yf (freePart φ m xi))
        (cePoly ti tf yi yf (freePart φ m xi) - ∑ i ∈ Finset.range m, C (y i) * ceDir ti tf φ i) t ^ 2).sum := by
    intro y
    rw [← sum_range_list]
    unfold missSq
    rw [hval, List.length_map]
    refine Finset.sum_congr rfl fun i hi => ?_
    have hi := Finset.mem_range.mp hi
    rw [odeLin_move, sub_sq_comm]
    congr 2
    · simp [vec, List.getD, hi]
    · simp only [entries, hl]
      refine Finset.sum_congr rfl fun j hj => ?_
      rw [odeRes_partial hval hl hi (Finset.mem_range.mp hj)]
  have := hmin fun i => xi.getD i 0 - xi'.getD i 0
  rwa [key, key] at this

/-- What the run of the program means: `k` Newton steps `ps 0, …, ps k` in the polynomials that meet the end values, from the straight line,
and the reason for the stop. The last is `y(·, xi)`. -/
structure NewtonRun (u : Utfc) (ti tf yi yf : ℝ) (f f2 : ℝ → ℝ) (tol : ℝ) (maxIter : ℕ) (xi : List ℝ) (k : ℕ) (ps : ℕ → ℝ[X]) : Prop where
  count : k ≤ maxIter
  length : xi.length = u.deg - 1
  start : (ps 0).degree < (2 : ℕ)
  ends : ∀ j ≤ k, MeetsEnds u.deg ti tf yi yf (ps j)
  steps : ∀ j < k, NewtonStep u.deg ti tf yi yf f f2 u.x (ps j) (ps (j + 1))
  result : ∀ d n ts, yEval u ti tf yi yf d n ts xi = .ok ((List.range n).map fun j => (derivative^[d] (ps k)).eval (ts j))
  stop : (∀ t ∈ u.x, |odeMiss f f2 (ps k) t| ≤ tol) ∨ k = maxIter ∨
    ∃ j, k = j + 1 ∧ ∃ xi' : List ℝ, xi'.length = u.deg - 1 ∧ (∀ i, |xi.getD i 0 - xi'.getD i 0| ≤ tol) ∧
      ∀ d n ts, yEval u ti tf yi yf d n ts xi' = .ok ((List.range n).map fun i => (derivative^[d] (ps j)).eval (ts i))

/-- The run of the solver on a residual of this kind. -/
theorem nlls_newton {lib : LinAlg} (hlib : LinAlgCorrect lib) {method : Method} (hm : method ≠ .other) (u : Utfc) (f : PolyFamily)
    (hcls : u.cls = .poly f) (hx : u.x0 ≠ u.xf) {m : ℕ} (hdeg : u.deg = m + 1) (hm0 : m ≠ 0) (hnC : u.nC = [0, 1]) (hpts : u.x ≠ [])
    {φ : ℕ → ℝ[X]} (hφ : ∀ k x, (φ k).eval x = (classical ℝ f k).eval (f.arg u.x0 u.xf x)) (hφd : ∀ k, (φ k).degree < (k + 1 : ℕ))
    (ti tf yi yf : ℝ) (ht : ti ≠ tf) (a c : ℝ → ℝ) {res : Residual Unit} {args : List (View Unit)} {L : List ℕ} (hL : GoodConstants L args)
    (hval : ∀ xi, res (.arr xi :: args) = u.x.map (odeMiss a c (cePoly ti tf yi yf (freePart φ m xi))))
    (tol : ℝ) (htol : tol < 1) (maxIter : ℕ) (timer : Bool) (fuel : ℕ) (hf : maxIter + 2 ≤ fuel) :
    ∃ xi k ps, (NLLS lib method none none none tol maxIter timer res (.arr (List.replicate m 0)) args L fuel).1 =
      .ok (some (.arr xi, ((k : ℕ) : ℤ))) ∧ NewtonRun u ti tf yi yf a c tol maxIter xi k ps := by
  have G : GoodProblem lib method none res (.arr (List.replicate m 0)) args L :=
    ⟨hlib, hm, Or.inl rfl, hL, trivial, by simp [entries, hm0], fun v hv => by
      cases v with
      | dict cls kvs => exact hv.elim
      | arr xi => rw [hval]; simpa using hpts⟩
  obtain ⟨x, k, h1, hk, xs, dxs, x0, xk, hst, hstop⟩ := C37_nlls_partial G none tol htol maxIter timer fuel hf
  -- all iterates are arrays of `m` entries
  have harr : ∀ j ≤ k, ∃ xi : List ℝ, xs j = .arr xi ∧ xi.length = m := by
    intro j
    induction j with
    | zero => exact fun _ => ⟨_, x0, by simp⟩
    | succ j ih =>
      intro hj
      obtain ⟨xi, e, hl⟩ := ih (by omega)
      have hs := hst j (by omega)
      rw [e] at hs
      obtain ⟨hd, hv, -⟩ := step_newton hx hφ hφd ht hval hl hs
      exact ⟨_, hv, by rw [List.length_zipWith, hl, hd, min_self]⟩
  choose! ξ hξ hξl using harr
  have hev : ∀ xi d n ts, yEval u ti tf yi yf d n ts xi =
      .ok ((List.range n).map fun j => (derivative^[d] (cePoly ti tf yi yf (freePart φ m xi))).eval (ts j)) := by
    intro xi d n ts
    obtain ⟨M, hM, -, hv⟩ := ceMats_ok u f hcls hx m hdeg hnC hφ ti tf d n ts
    unfold yEval
    rw [hM]
    exact congrArg Except.ok (List.map_congr_left fun j hj => hv yi yf xi j (List.mem_range.mp hj))
  have hx' : x = .arr (ξ k) := by rw [← xk, hξ k le_rfl]
  refine ⟨ξ k, k, fun j => cePoly ti tf yi yf (freePart φ m (ξ j)), by rw [h1, hx'], hk, ?_, ?_, ?_, ?_, hev _, ?_⟩
  · rw [hξl k le_rfl, hdeg]
    rfl
  · have e : ξ 0 = List.replicate m 0 := by
      have := hξ 0 (Nat.zero_le _)
      rw [x0] at this
      exact (View.arr.inj this).symm
    have e0 : freePart φ m (ξ 0) = 0 := by
      rw [e]
      refine Finset.sum_eq_zero fun i hi => ?_
      have hi := Finset.mem_range.mp hi
      simp [List.getD, hi]
    show (cePoly ti tf yi yf (freePart φ m (ξ 0))).degree < (2 : ℕ)
    rw [e0]
    exact (cePoly_admissible (m := 0) ht (by rw [degree_zero]; exact WithBot.bot_lt_coe _)).degree
  · intro j hj
    rw [hdeg]
    exact cePoly_admissible ht (freePart_degree hφd m _)
  · intro j hj
    have hs := hst j hj
    rw [hξ j hj.le] at hs
    obtain ⟨-, hv, hN⟩ := step_newton hx hφ hφd ht hval (hξl j hj.le) hs
    rw [hξ (j + 1) hj] at hv
    rw [hdeg, View.arr.inj hv]
    exact hN
  · rcases hstop with h | ⟨j, rfl, h⟩ | h
    · left
      intro t ht'
      rw [hx', hval] at h
      exact h _ (List.mem_map_of_mem ht')
    · right; right
      have hs := hst j (by omega)
      rw [hξ j (by omega)] at hs
      obtain ⟨hd, hv, -⟩ := step_newton hx hφ hφd ht hval (hξl j (by omega)) hs
      rw [hξ (j + 1) le_rfl] at hv
      rw [View.arr.inj hv]
      refine ⟨j, rfl, ξ j, by rw [hξl j (by omega), hdeg]; rfl, fun i => ?_, hev _⟩
      have hlj := hξl j (by omega)
      by_cases hi : i < m
      · have e : (List.zipWith (· - ·) (ξ j) (dxs j)).getD i 0 = (ξ j).getD i 0 - (dxs j).getD i 0 := by
          simp [List.getD, hlj, hd, hi]
        rw [e, sub_sub_cancel_left, abs_neg]
        refine h _ ?_
        rw [List.getD, List.getElem?_eq_getElem (by omega)]
        exact List.getElem_mem _
      · have e1 : (List.zipWith (· - ·) (ξ j) (dxs j)).getD i 0 = 0 := by
          rw [List.getD, List.getElem?_eq_none (by rw [List.length_zipWith, hlj, hd]; omega)]
          rfl
        have e2 : (ξ j).getD i 0 = 0 := by
          rw [List.getD, List.getElem?_eq_none (by omega)]
          rfl
        rw [e1, e2, sub_zero, abs_zero]
        have : 0 < (dxs j).length := by omega
        exact (abs_nonneg _).trans (h _ (List.getElem_mem this))
    · exact Or.inr (Or.inl h)

/-- **C98.** For every equation `y'' + f(t) y y' = f2(t)` (any functions `f` and `f2`), every polynomial class with the basis functions 0
and 1 removed, all collocation points, both methods, both ways of passing the points, any number of iterations and a
tolerance below 1: the program of tests/test_ODE.py returns without an error. It computes Newton's method for the boundary value
problem: from the straight line through the end values, each step is a polynomial with the end values that minimises the linearised
equation at the collocation points; every iterate meets the end values, and the run stops because the equation holds at all points within the
tolerance, the coefficients did not change by more than the tolerance, or the iterations are used up. The contracts of the
linear algebra functions are assumed. -/
theorem C98_program (lib : LinAlg) (hlib : LinAlgCorrect lib) (method : Method) (hm : method ≠ .other) (u : Utfc) (fam : PolyFamily)
    (hcls : u.cls = .poly fam) (hx : u.x0 ≠ u.xf) (hdeg : 2 ≤ u.deg) (hnC : u.nC = [0, 1]) (hpts : u.x ≠ []) (ti tf yi yf : ℝ)
    (ht : ti ≠ tf) (f f2 : ℝ → ℝ) (tol : ℝ) (htol : tol < 1) (maxIter : ℕ) (timer pass_t : Bool) (fuel : ℕ) (hf : maxIter + 2 ≤ fuel) :
    ∃ xi k ps, solveOde lib method tol maxIter timer pass_t u ti tf yi yf f f2 fuel = .ok (some (.arr xi, ((k : ℕ) : ℤ))) ∧
      NewtonRun u ti tf yi yf f f2 tol maxIter xi k ps := by
  obtain ⟨φ, hφ, hφd⟩ := basis_poly fam u.x0 u.xf hx
  obtain ⟨m, hmd⟩ : ∃ m, u.deg = m + 1 := ⟨u.deg - 1, by omega⟩
  obtain ⟨M, hM, hMc, -⟩ := ceMats_ok u fam hcls hx m hmd hnC hφ ti tf 0 u.x.length (fun j => u.x.getD j 0)
  have hres := fun t xi => odeRes_ok u fam hcls hx m hmd hnC hφ ti tf yi yf f f2 t xi
  cases pass_t with
  | false =>
    obtain ⟨xi, k, ps, h1, h2⟩ := nlls_newton hlib hm u fam hcls hx hmd (by omega) hnC hpts hφ hφd ti tf yi yf ht f f2
      (res := odeResidual u ti tf yi yf f f2) (args := []) (L := []) (by simp [GoodConstants])
      (fun xi => by simp only [odeResidual, hres, orEmpty]) tol htol maxIter timer fuel hf
    refine ⟨xi, k, ps, ?_, h2⟩
    unfold solveOde
    simp only [hM, hres, bind, Except.bind, hMc]
    exact h1
  | true =>
    obtain ⟨xi, k, ps, h1, h2⟩ := nlls_newton hlib hm u fam hcls hx hmd (by omega) hnC hpts hφ hφd ti tf yi yf ht f f2
      (res := odeResidual u ti tf yi yf f f2) (args := [.arr u.x]) (L := [1]) (by simp [GoodConstants])
      (fun xi => by simp only [odeResidual, hres, orEmpty]) tol htol maxIter timer fuel hf
    refine ⟨xi, k, ps, ?_, h2⟩
    unfold solveOde
    simp only [hM, hres, bind, Except.bind, hMc]
    exact h1

end Verif.Props
