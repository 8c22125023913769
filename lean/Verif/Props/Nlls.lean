import Verif.Props.LsMore
import Verif.Lemmas.Nlls

/-!
# C37–C40: nonlinear least squares
-/

set_option linter.unusedSectionVars false

namespace Verif.Props

open Verif.Py Verif.Np Verif.Spec Verif.Model Verif.Model.Dict Verif.Model.LSq Verif.Lemmas.LinAlg Verif.Lemmas.LSq
  Verif.Lemmas.Pe

variable {Key : Type} [DecidableEq Key]

/-- The Jacobian used: the default one, or a function of the user that gives the partial derivatives. -/
def JacobianCorrect (J : Option (List (View Key) → Mat ℝ)) (res : Residual Key) (z : View Key) (args : List (View Key)) : Prop :=
  J = none ∨ ∃ f, J = some f ∧ ∀ v, SameForm z v → (f (v :: args)).rows = (res (v :: args)).length ∧
    (f (v :: args)).cols = (entries v).length ∧
    ∀ i < (res (v :: args)).length, ∀ j < (entries v).length, (f (v :: args)).at_ i j = resPartial res args v i j

/-- The problems considered: the contracts of the library hold, the method is one of the two, the Jacobian is right, the constant
positions are in ascending order, the unknowns are of a form the dictionaries support, and neither they nor the residual are
empty (`np.max` of an empty array raises). -/
structure GoodProblem (lib : LinAlg) (method : Method) (J : Option (List (View Key) → Mat ℝ)) (res : Residual Key) (z : View Key)
    (args : List (View Key)) (L : List ℕ) : Prop where
  lib : LinAlgCorrect lib
  method : method ≠ .other
  jac : JacobianCorrect J res z args
  consts : GoodConstants L args
  proper : ProperUnknowns z
  unknowns : entries z ≠ []
  residual : ∀ v, SameForm z v → res (v :: args) ≠ []

theorem nllsFun_ok {lib : LinAlg} (hlib : LinAlgCorrect lib) {method : Method} (hm : method ≠ .other)
    {J : Option (List (View Key) → Mat ℝ)} {res : Residual Key} {z : View Key} {args : List (View Key)}
    (hJ : JacobianCorrect J res z args) {v : View Key} (hv : SameForm z v) (hp : ProperUnknowns v) :
    ∃ dx, nllsFun lib method J res (v :: args) = .ok dx ∧
      LeastNormSolution (res (v :: args)).length (entries v).length (resPartial res args v) (res (v :: args)) dx := by
  have hM : ∃ M, evalJ J res (v :: args) = .ok M ∧
      Holds M (res (v :: args)).length (entries v).length (resPartial res args v) := by
    rcases hJ with rfl | ⟨f, rfl, hf⟩
    · exact jacobian_partial res args hp
    · exact ⟨_, rfl, (hf v hv).1, (hf v hv).2.1, (hf v hv).2.2⟩
  obtain ⟨M, hM, hH⟩ := hM
  obtain ⟨dx, h1, h2⟩ := solve_spec hlib hm M (c := res (v :: args)) hH.rows.symm
  refine ⟨dx, ?_, ?_⟩
  · unfold nllsFun
    rw [hM]
    exact h1
  · rw [hH.rows, hH.cols] at h2
    exact solves_congr hH.at_ h2

section
variable {lib : LinAlg} {method : Method} {J : Option (List (View Key) → Mat ℝ)} {res : Residual Key} {z : View Key}
  {args : List (View Key)} {L : List ℕ}

/-- `NLLS` and `NllsClass` with some arguments constant run the same loop as without. -/
theorem nlls_reduce (G : GoodProblem lib method J res z args L) :
    ∃ (ls : List (View Key) → Except Err (List ℝ)) (rE : List (View Key) → Except Err (List ℝ)) (args' : List (View Key)),
      (∀ v, ls (v :: args') = nllsFun lib method J res (v :: args)) ∧ (∀ v, rE (v :: args') = .ok (res (v :: args))) ∧
      remaining L (z :: args) = z :: args' ∧
      (∀ cond tol maxIter timer fuel, (NLLS lib method J cond none tol maxIter timer res z args L fuel).1 =
        runLoop (defaultCond rE tol maxIter) (defaultBody ls) timer maxIter z args' fuel) ∧
      ∀ cond tol maxIter timer, (NllsObj.init lib method J cond none tol maxIter timer res z args L).1 =
        .ok ⟨defaultCond rE tol maxIter, defaultBody ls, timer, maxIter, false⟩ := by
  by_cases h0 : L = []
  · subst h0
    refine ⟨nllsFun lib method J res, fun all => .ok (res all), args, fun v => rfl, fun v => rfl, ?_, ?_, ?_⟩
    · obtain ⟨args', e1, e2⟩ := popArgs_ok (L := []) (by simp) z args (by simp)
      cases e1
      exact e2
    · intro cond tol maxIter timer fuel
      unfold NLLS
      simp only
      rw [if_neg G.method, if_pos trivial]
      rfl
    · intro cond tol maxIter timer
      unfold NllsObj.init
      simp only
      rw [if_neg G.method, if_pos trivial]
      rfl
  · obtain ⟨g, args', h1, h2, h3, h4⟩ := pe_pop G.consts.1 z args G.consts.2 (nllsFun lib method J res)
    obtain ⟨g', h5, h6⟩ := h4 fun all => .ok (res all)
    refine ⟨g, g', args', h3, h6, ?_, ?_, ?_⟩
    · obtain ⟨args'', e1, e2⟩ := popArgs_ok G.consts.1 z args G.consts.2
      rw [sortReverse_ascending G.consts.1, e1] at h2
      cases h2
      exact e2
    · intro cond tol maxIter timer fuel
      unfold NLLS
      simp only
      rw [if_neg G.method, if_neg h0, h1]
      simp only
      rw [h5]
      simp only
      rw [h2]
      rfl
    · intro cond tol maxIter timer
      unfold NllsObj.init
      simp only
      rw [if_neg G.method, if_neg h0, h1]
      simp only
      rw [h5]
      simp only
      rw [h2]
      rfl

theorem entries_ne {v w : View Key} (h : SameForm v w) (hv : entries v ≠ []) : entries w ≠ [] := by
  intro e
  have := SameForm.length h
  rw [e] at this
  exact hv (List.eq_nil_of_length_eq_zero (by simpa using this))

/-- What a run of the loop does: `n` Gauss–Newton steps, until one of the three tests holds. -/
def RunsTo (res : Residual Key) (args : List (View Key)) (tol : ℝ) (maxIter : ℕ) (v x : View Key) (n : ℕ) : Prop :=
  n ≤ maxIter ∧ ∃ (xs : ℕ → View Key) (dxs : ℕ → List ℝ), xs 0 = v ∧ xs n = x ∧
    (∀ k < n, GaussNewtonStep res args (xs k) (dxs k) (xs (k + 1)) ∧ SameForm v (xs (k + 1)) ∧
      ¬ Within tol (res (xs k :: args))) ∧
    (Within tol (res (x :: args)) ∨ n = maxIter ∨
      Within tol (if n = 0 then List.replicate (entries v).length 1 else dxs (n - 1)))

theorem loop_runs (G : GoodProblem lib method J res z args L) {ls rE : List (View Key) → Except Err (List ℝ)}
    {args' : List (View Key)} (hls : ∀ v, ls (v :: args') = nllsFun lib method J res (v :: args))
    (hrE : ∀ v, rE (v :: args') = .ok (res (v :: args))) (tol : ℝ) (maxIter : ℕ) {v : View Key} (hv : SameForm z v) (fuel : ℕ)
    (hf : maxIter + 2 ≤ fuel) :
    ∃ x n, RunsTo res args tol maxIter v x n ∧ ∀ warm,
      runLoop (defaultCond rE tol maxIter) (defaultBody ls) warm maxIter v args' fuel = .ok (some (x, (n : ℤ))) := by
  set P : NState Key → Prop := fun s => s.args = args' ∧ SameForm z s.xi ∧ s.dxi ≠ [] with hP
  have hc' : ∀ s, P s → ∃ c, defaultCond rE tol maxIter s = .ok c ∧
      (c = true ↔ ¬ Within tol (res (s.xi :: args)) ∧ s.it < maxIter ∧ ¬ Within tol s.dxi) := by
    rintro s ⟨h1, h2, h3⟩
    exact defaultCond_ok (by rw [h1, hrE]) (G.residual _ h2) h3
  have hc : ∀ s, P s → ∃ c, defaultCond rE tol maxIter s = .ok c ∧ (c = true → s.it < maxIter) := by
    intro s hs
    obtain ⟨c, h1, h2⟩ := hc' s hs
    exact ⟨c, h1, fun h => (h2.1 h).2.1⟩
  have hb' : ∀ s, P s → ∃ s', defaultBody ls s = .ok s' ∧ P s' ∧ s'.it = s.it + 1 ∧
      GaussNewtonStep res args s.xi s'.dxi s'.xi := by
    rintro s ⟨h1, h2, h3⟩
    have hp := proper_of_form h2 G.proper
    obtain ⟨dx, d1, d2⟩ := nllsFun_ok G.lib G.method G.jac h2 hp
    have hl := d2.length
    refine ⟨_, defaultBody_ok hp (by rw [h1, hls]; exact d1) hl, ⟨h1, ?_, ?_⟩, rfl, d2, rfl⟩
    · exact SameForm.trans h2 (refill_form _ (by rw [List.length_zipWith]; omega))
    · intro e
      have e : dx = [] := e
      rw [e] at hl
      exact entries_ne h2 G.unknowns (List.eq_nil_of_length_eq_zero (by simpa using hl.symm))
  have hb : ∀ s, P s → ∃ s', defaultBody ls s = .ok s' ∧ P s' ∧ s'.it = s.it + 1 := fun s hs => by
    obtain ⟨s', h1, h2, h3, -⟩ := hb' s hs
    exact ⟨s', h1, h2, h3⟩
  have hones : List.replicate (entries v).length (1 : ℝ) ≠ [] := by
    intro e
    have := congrArg List.length e
    rw [List.length_replicate] at this
    exact entries_ne hv G.unknowns (List.eq_nil_of_length_eq_zero (by simpa using this))
  have hP0 : ∀ i, P ⟨v, List.replicate (entries v).length 1, i, args'⟩ := fun i => ⟨rfl, hv, hones⟩
  obtain ⟨n, tr, t1, t2, t3, t4, t5⟩ := whileLoop_trace (it := NState.it) (M := maxIter) hc hb fuel _ (hP0 0) (by omega)
    (by show (maxIter : ℤ) - 0 < fuel; omega)
  obtain ⟨nw, trw, -, -, -, -, t5w⟩ := whileLoop_trace (it := NState.it) (M := maxIter) hc hb fuel _ (hP0 (maxIter - 1)) (by omega)
    (by show (maxIter : ℤ) - (maxIter - 1) < fuel; omega)
  have hit : ∀ k ≤ n, (tr k).it = k := fun k hk => by
    have := (t4 k hk).2
    simpa using this
  refine ⟨(tr n).xi, n, ⟨?_, fun k => (tr k).xi, fun k => (tr (k + 1)).dxi, congrArg NState.xi t1, rfl, ?_, ?_⟩, ?_⟩
  · rcases Nat.eq_zero_or_pos n with h | h
    · omega
    · obtain ⟨c, c1, c2⟩ := hc' (tr (n - 1)) (t4 (n - 1) (by omega)).1
      rw [(t2 (n - 1) (by omega)).1] at c1
      cases c1
      have := (c2.1 rfl).2.1
      rw [hit (n - 1) (by omega)] at this
      omega
  · intro k hk
    obtain ⟨s', b1, b2, b3, b4⟩ := hb' (tr k) (t4 k (by omega)).1
    rw [(t2 k hk).2] at b1
    have b1 := Except.ok.inj b1
    subst b1
    obtain ⟨c, c1, c2⟩ := hc' (tr k) (t4 k (by omega)).1
    rw [(t2 k hk).1] at c1
    cases c1
    exact ⟨b4, SameForm.trans (SameForm.symm hv) b2.2.1, (c2.1 rfl).1⟩
  · obtain ⟨c, c1, c2⟩ := hc' (tr n) (t4 n le_rfl).1
    rw [t3] at c1
    cases c1
    have hnot : ¬ (¬ Within tol (res ((tr n).xi :: args)) ∧ (tr n).it < maxIter ∧ ¬ Within tol (tr n).dxi) := fun h => by
      have := c2.2 h
      cases this
    by_cases h1 : Within tol (res ((tr n).xi :: args))
    · exact Or.inl h1
    · refine Or.inr ?_
      by_cases h2 : (tr n).it < maxIter
      · refine Or.inr ?_
        have h3 : Within tol (tr n).dxi := by
          by_contra h
          exact hnot ⟨h1, h2, h⟩
        cases n with
        | zero =>
          rw [t1] at h3
          exact h3
        | succ n => exact h3
      · left
        have hle : n ≤ maxIter := by
          rcases Nat.eq_zero_or_pos n with h | h
          · omega
          · obtain ⟨c, c1, c2⟩ := hc' (tr (n - 1)) (t4 (n - 1) (by omega)).1
            rw [(t2 (n - 1) (by omega)).1] at c1
            cases c1
            have := (c2.1 rfl).2.1
            rw [hit (n - 1) (by omega)] at this
            omega
        rw [hit n le_rfl] at h2
        omega
  · intro warm
    unfold runLoop
    rw [onesFor_ok (proper_of_form hv G.proper)]
    simp only [bind, Except.bind]
    have hn : ((tr n).it : ℤ) = n := hit n le_rfl
    cases warm with
    | false =>
      simp only [Bool.false_eq_true, if_false]
      rw [t5]
      simp [hn]
    | true =>
      simp only [if_true]
      rw [t5w]
      simp only
      rw [t5]
      simp [hn]

end

/-! ## C37 -/

/-- What C37 asks of the returned unknowns `x` and number of iterations `n`, for the start value `v`. -/
def StopsWithReason (res : Residual Key) (args : List (View Key)) (tol : ℝ) (maxIter : ℕ) (v x : View Key) (n : ℕ) : Prop :=
  n ≤ maxIter ∧ ∃ (xs : ℕ → View Key) (dxs : ℕ → List ℝ), xs 0 = v ∧ xs n = x ∧
    (∀ k < n, GaussNewtonStep res args (xs k) (dxs k) (xs (k + 1))) ∧
    (Within tol (res (x :: args)) ∨ (∃ k, n = k + 1 ∧ Within tol (dxs k)) ∨ n = maxIter)

theorem RunsTo.stops {res : Residual Key} {args : List (View Key)} {tol : ℝ} (ht : tol < 1) {maxIter : ℕ} {v x : View Key} {n : ℕ}
    (hv : entries v ≠ []) (h : RunsTo res args tol maxIter v x n) : StopsWithReason res args tol maxIter v x n := by
  obtain ⟨h1, xs, dxs, h2, h3, h4, h5⟩ := h
  refine ⟨h1, xs, dxs, h2, h3, fun k hk => (h4 k hk).1, ?_⟩
  rcases h5 with h5 | h5 | h5
  · exact Or.inl h5
  · exact Or.inr (Or.inr h5)
  · cases n with
    | zero =>
      exfalso
      rw [if_pos rfl] at h5
      have := h5 1 (by
        rw [List.mem_replicate]
        exact ⟨fun e => hv (List.eq_nil_of_length_eq_zero e), rfl⟩)
      rw [abs_one] at this
      linarith
    | succ n =>
      rw [if_neg (by simp)] at h5
      exact Or.inr (Or.inl ⟨n, rfl, h5⟩)

/-- **C37**, for tolerances below 1. For every residual (differentiable or not: the Jacobian is the matrix of the derivatives as
computed), start value, `maxIter`, method and timer flag, whatever `cond` is passed, `NLLS` ends, after at most `maxIter`
iterations, and returns the iterate reached after that number of Gauss–Newton steps from the start value; then the
residual is within `tol`, or a step was made and the last one is within `tol`, or `maxIter` iterations were made.
Missing: `tol ≥ 1`, where the claim is false, see `C37_tol_fails`; an empty residual, no unknowns, or constant positions not in
ascending order; a user-supplied `body`. -/
theorem C37_nlls_partial {lib : LinAlg} {method : Method} {J : Option (List (View Key) → Mat ℝ)} {res : Residual Key} {z : View Key}
    {args : List (View Key)} {L : List ℕ} (G : GoodProblem lib method J res z args L)
    (cond : Option (NState Key → Except Err Bool)) (tol : ℝ) (ht : tol < 1) (maxIter : ℕ) (timer : Bool) (fuel : ℕ)
    (hf : maxIter + 2 ≤ fuel) :
    ∃ (x : View Key) (n : ℕ), (NLLS lib method J cond none tol maxIter timer res z args L fuel).1 = .ok (some (x, (n : ℤ))) ∧
      StopsWithReason res args tol maxIter z x n := by
  obtain ⟨ls, rE, args', h1, h2, -, h3, -⟩ := nlls_reduce G
  obtain ⟨x, n, h4, h5⟩ := loop_runs G h1 h2 tol maxIter (SameForm.refl z) fuel hf
  exact ⟨x, n, by rw [h3]; exact h5 timer, h4.stops ht G.unknowns⟩

/-- **C37** for `NllsClass`: the same for every call of `run` (`c` says whether the object has been run before), from every start value
of the form given to the constructor. -/
theorem C37_nllsClass_partial {lib : LinAlg} {method : Method} {J : Option (List (View Key) → Mat ℝ)} {res : Residual Key}
    {z : View Key} {args : List (View Key)} {L : List ℕ} (G : GoodProblem lib method J res z args L)
    (cond : Option (NState Key → Except Err Bool)) (tol : ℝ) (ht : tol < 1) (maxIter : ℕ) (timer : Bool) (fuel : ℕ)
    (hf : maxIter + 2 ≤ fuel) :
    ∃ o args', (NllsObj.init lib method J cond none tol maxIter timer res z args L).1 = .ok o ∧
      remaining L (z :: args) = z :: args' ∧
      ∀ (c : Bool) (v : View Key), SameForm z v → ∃ (x : View Key) (n : ℕ),
        NllsObj.run { o with compiled := c } v args' fuel = (.ok (some (x, (n : ℤ))), { o with compiled := true }) ∧
        StopsWithReason res args tol maxIter v x n := by
  obtain ⟨ls, rE, args', h1, h2, h2', -, h3⟩ := nlls_reduce G
  refine ⟨_, args', h3 cond tol maxIter timer, h2', fun c v hv => ?_⟩
  obtain ⟨x, n, h4, h5⟩ := loop_runs G h1 h2 tol maxIter hv fuel hf
  refine ⟨x, n, ?_, h4.stops ht (entries_ne hv G.unknowns)⟩
  unfold NllsObj.run
  simp only
  rw [h5]

/-- The residual `x² - 2` of an array with one entry. -/
def squareRes : Residual Key
  | [.arr [x]] => [x ^ 2 - 2]
  | _ => [0]

/-- The hypotheses are met: solving `x² = 2` from 1. -/
theorem squareRes_good : ∃ lib : LinAlg, GoodProblem lib .pinv none (squareRes : Residual Key) (.arr [1]) [] [] := by
  obtain ⟨lib, hlib⟩ := linAlg_exists
  refine ⟨lib, hlib, by simp, Or.inl rfl, ⟨by simp, by simp⟩, trivial, by simp [entries], fun v hv => ?_⟩
  cases v with
  | dict c kvs => exact hv.elim
  | arr l =>
    have hl : l.length = 1 := by
      have : [(1 : ℝ)].length = l.length := hv
      simpa using this.symm
    obtain ⟨y, rfl⟩ := List.length_eq_one_iff.1 hl
    simp [squareRes]

example : ∃ lib : LinAlg, ∃ x n, (NLLS lib .pinv none none none (1 / 100) 50 true (squareRes : Residual ℕ) (.arr [1]) [] [] 52).1 =
    .ok (some (x, ((n : ℕ) : ℤ))) ∧ StopsWithReason squareRes [] (1 / 100) 50 (.arr [1]) x n := by
  obtain ⟨lib, G⟩ := squareRes_good (Key := ℕ)
  exact ⟨lib, C37_nlls_partial G none (1 / 100) (by norm_num) 50 true 52 (by norm_num)⟩

/-- C37 is false for `tol = 1`: the step before the first one is taken to be all ones, so `NLLS` returns the start value after no
iteration at all, although the residual, 5, is larger than the tolerance and iterations are left. -/
theorem C37_tol_fails (lib : LinAlg) (hlib : LinAlgCorrect lib) (method : Method) (hm : method ≠ .other) (fuel : ℕ) :
    ∃ (res : Residual Key) (z : View Key), (NLLS lib method none none none 1 50 false res z [] [] (fuel + 1)).1 = .ok (some (z, 0)) ∧
      ¬ ∃ n : ℕ, ((n : ℤ) = 0) ∧ StopsWithReason res [] 1 50 z z n := by
  refine ⟨fun _ => [5], .arr [0], ?_, ?_⟩
  · unfold NLLS
    simp only
    rw [if_neg hm, if_pos trivial]
    have hc : defaultCond (fun _ : List (View Key) => .ok [5]) 1 50 ⟨.arr [0], [1], 0, []⟩ = .ok false := by
      unfold defaultCond
      simp [maxAbs, bind, Except.bind]
    unfold runLoop onesFor
    simp only [bind, Except.bind, Bool.false_eq_true, if_false, List.length_cons, List.length_nil, List.replicate_succ,
      List.replicate_zero]
    unfold whileLoop
    rw [hc]
    rfl
  · rintro ⟨n, h0, h1, xs, dxs, h2, h3, h4, h5⟩
    have : n = 0 := by exact_mod_cast h0
    subst this
    rcases h5 with h5 | ⟨k, h5, -⟩ | h5
    · have := h5 5 (by simp)
      norm_num at this
    · omega
    · omega

/-! ## C38 -/

/-- What C38 asks: from the start state, the loop runs exactly while `cond` holds, ending with the returned unknowns and count. -/
def ContinuesWhile (cond : NState Key → Except Err Bool) (body : NState Key → Except Err (NState Key)) (s : NState Key)
    (r : View Key × ℤ) : Prop :=
  ∃ (n : ℕ) (tr : ℕ → NState Key), tr 0 = s ∧ (∀ k < n, cond (tr k) = .ok true ∧ body (tr k) = .ok (tr (k + 1))) ∧
    cond (tr n) = .ok false ∧ r = ((tr n).xi, (tr n).it)

theorem whileLoop_while {σ : Type} (cond : σ → Except Err Bool) (body : σ → Except Err σ) (fuel : ℕ) (s s' : σ)
    (h : whileLoop cond body fuel s = .ok (some s')) :
    ∃ (n : ℕ) (tr : ℕ → σ), tr 0 = s ∧ (∀ k < n, cond (tr k) = .ok true ∧ body (tr k) = .ok (tr (k + 1))) ∧
      cond (tr n) = .ok false ∧ s' = tr n := by
  induction fuel generalizing s with
  | zero => cases h
  | succ fuel ih =>
    unfold whileLoop at h
    cases hc : cond s with
    | error e =>
      rw [hc] at h
      cases h
    | ok c =>
      rw [hc] at h
      cases c with
      | false =>
        have h : (Except.ok (some s) : Except Err (Option σ)) = .ok (some s') := h
        have h := Option.some.inj (Except.ok.inj h)
        exact ⟨0, fun _ => s, rfl, fun k hk => absurd hk (by simp), hc, h.symm⟩
      | true =>
        have h : (body s >>= fun s => whileLoop cond body fuel s) = .ok (some s') := h
        cases hb : body s with
        | error e =>
          rw [hb] at h
          cases h
        | ok s1 =>
          rw [hb] at h
          obtain ⟨n, tr, t1, t2, t3, t4⟩ := ih s1 h
          refine ⟨n + 1, fun k => Nat.casesOn k s tr, rfl, fun k hk => ?_, t3, t4⟩
          cases k with
          | zero => exact ⟨hc, by show body s = .ok (tr 0); rw [t1]; exact hb⟩
          | succ k => exact t2 k (by omega)

/-- **C38**, for conditions that agree with the built-in one (residual above `tol`, fewer than `maxIter` iterations, last step above
`tol`).
Missing: every other condition; the claim is false for them, see `C38_fails`: the argument is ignored. -/
theorem C38_cond_partial (lib : LinAlg) (method : Method) (hm : method ≠ .other) (J : Option (List (View Key) → Mat ℝ))
    (cond : NState Key → Except Err Bool) (body : Option (NState Key → Except Err (NState Key))) (tol : ℝ) (maxIter : ℕ)
    (timer : Bool) (res : Residual Key) (z : View Key) (args : List (View Key)) (fuel : ℕ)
    (hc : ∀ s, cond s = defaultCond (fun all => .ok (res all)) tol maxIter s) (r : View Key × ℤ) (dx : List ℝ)
    (hdx : onesFor z = .ok dx)
    (h : (NLLS lib method J (some cond) body tol maxIter timer res z args [] fuel).1 = .ok (some r)) :
    ContinuesWhile cond (body.getD (defaultBody (nllsFun lib method J res))) ⟨z, dx, 0, args⟩ r := by
  have hc : cond = defaultCond (fun all => .ok (res all)) tol maxIter := funext hc
  unfold NLLS at h
  simp only at h
  rw [if_neg hm, if_pos trivial, ← hc] at h
  unfold runLoop at h
  rw [hdx] at h
  set body' := body.getD (defaultBody (nllsFun lib method J res)) with hbody
  have key : ∀ w : Except Err (Option (View Key × ℤ)), w = .ok (some r) →
      w = (whileLoop cond body' fuel ⟨z, dx, 0, args⟩ >>= fun o => .ok (o.map fun s => (s.xi, s.it))) →
      ContinuesWhile cond body' ⟨z, dx, 0, args⟩ r := by
    intro w h1 h2
    rw [h1] at h2
    cases hw : whileLoop cond body' fuel ⟨z, dx, 0, args⟩ with
    | error e =>
      rw [hw] at h2
      cases h2
    | ok o =>
      rw [hw] at h2
      cases o with
      | none => cases h2
      | some s =>
        obtain ⟨n, tr, t1, t2, t3, t4⟩ := whileLoop_while cond body' fuel _ s hw
        have h2 : (some r : Option (View Key × ℤ)) = some (s.xi, s.it) := Except.ok.inj h2
        exact ⟨n, tr, t1, t2, t3, by rw [← t4]; exact Option.some.inj h2⟩
  cases timer with
  | false => exact key _ h rfl
  | true =>
    have h : (whileLoop cond body' fuel ⟨z, dx, maxIter - 1, args⟩ >>= fun w => match w with
        | none => .ok none
        | some _ => (whileLoop cond body' fuel ⟨z, dx, 0, args⟩ >>= fun o => .ok (o.map fun s => (s.xi, s.it)))) =
        .ok (some r) := h
    cases hw : whileLoop cond body' fuel ⟨z, dx, maxIter - 1, args⟩ with
    | error e =>
      rw [hw] at h
      cases h
    | ok o =>
      rw [hw] at h
      cases o with
      | none => cases h
      | some s => exact key _ h rfl

/-- The condition passed has no influence on the result, neither for `NLLS` nor for `NllsClass`. -/
theorem C38_ignored (lib : LinAlg) (method : Method) (J : Option (List (View Key) → Mat ℝ))
    (cond cond' : Option (NState Key → Except Err Bool)) (body : Option (NState Key → Except Err (NState Key))) (tol : ℝ)
    (maxIter : ℕ) (timer : Bool) (res : Residual Key) (z : View Key) (args : List (View Key)) (L : List ℕ) (fuel : ℕ) :
    NLLS lib method J cond body tol maxIter timer res z args L fuel =
      NLLS lib method J cond' body tol maxIter timer res z args L fuel ∧
    NllsObj.init lib method J cond body tol maxIter timer res z args L =
      NllsObj.init lib method J cond' body tol maxIter timer res z args L := ⟨rfl, rfl⟩

/-- C38 is false: with the condition "stop at once" `NLLS` returns, but does not stop at once. -/
theorem C38_fails : ∃ (lib : LinAlg) (method : Method) (res : Residual Key) (z : View Key) (tol : ℝ) (maxIter : ℕ)
    (cond : NState Key → Except Err Bool) (dx : List ℝ), onesFor z = .ok dx ∧ ∀ fuel ≥ maxIter + 2, ∃ r,
      (NLLS lib method none (some cond) none tol maxIter false res z [] [] fuel).1 = .ok (some r) ∧
      ¬ ContinuesWhile cond (defaultBody (nllsFun lib method none res)) ⟨z, dx, 0, []⟩ r := by
  obtain ⟨lib, G⟩ := squareRes_good (Key := Key)
  refine ⟨lib, .pinv, squareRes, .arr [1], 1 / 2, 10, fun _ => .ok false, [1], rfl, fun fuel hf => ?_⟩
  obtain ⟨x, n, h1, h2, xs, dxs, h3, h4, -, h6⟩ := C37_nlls_partial G (some fun _ => .ok false) (1 / 2) (by norm_num) 10 false fuel hf
  refine ⟨_, h1, ?_⟩
  rintro ⟨m, tr, t1, t2, t3, t4⟩
  cases m with
  | succ m =>
    have := (t2 0 (by simp)).1
    cases this
  | zero =>
    rw [t1] at t4
    have t5 : (n : ℤ) = 0 := congrArg Prod.snd t4
    have t6 : x = .arr [1] := congrArg Prod.fst t4
    have hn : n = 0 := by exact_mod_cast t5
    subst hn
    rcases h6 with h6 | ⟨k, h6, -⟩ | h6
    · rw [t6] at h6
      have := h6 (-1) (by simp [squareRes]; norm_num)
      norm_num at this
    · omega
    · omega

/-! ## C39 -/

/-- One Gauss–Newton step on an affine residual reaches a least-squares solution. -/
theorem step_affine {res : Residual Key} {z : View Key} {args : List (View Key)} {N : ℕ} {A : ℕ → ℕ → ℝ} {b : ℕ → ℝ}
    (hA : AffineIn res z args N A b) {v v' : View Key} (hv : SameForm z v) {dx : List ℝ}
    (h : GaussNewtonStep res args v dx v') : IsLeastSquares res z args v' := by
  have hl := h.solves.length
  have hzl : (List.zipWith (· - ·) (entries v) dx).length = (entries v).length := by rw [List.length_zipWith]; omega
  have hf : SameForm v v' := by rw [h.next]; exact refill_form v hzl
  have he : entries v' = List.zipWith (· - ·) (entries v) dx := by rw [h.next]; exact entries_refill v hzl
  have hmiss : ∀ (y : ℕ → ℝ), missSq N (entries v).length A y (fun i => - vec (res (v :: args)) i) =
      missSq (res (v :: args)).length (entries v).length (resPartial res args v) (fun j => - y j) (vec (res (v :: args))) := by
    intro y
    rw [res_length hA hv]
    unfold missSq
    refine Finset.sum_congr rfl fun i hi => ?_
    have : ∑ j ∈ Finset.range (entries v).length, resPartial res args v i j * - y j =
        - ∑ j ∈ Finset.range (entries v).length, A i j * y j := by
      rw [← Finset.sum_neg_distrib]
      refine Finset.sum_congr rfl fun j hj => ?_
      rw [affine_partial hA hv (Finset.mem_range.1 hi) (Finset.mem_range.1 hj)]
      ring
    rw [this]
    ring
  refine step_min hA hv (SameForm.trans hv hf) (dx := dx.map (- ·)) (fun y => ?_) fun j hj => ?_
  · rw [hmiss, hmiss]
    have : (fun j => - vec (dx.map (- ·)) j) = vec dx := funext fun j => by rw [vec_map_neg, neg_neg]
    rw [this]
    exact h.solves.min _
  · rw [he, vec_map_neg]
    unfold vec
    have hd : j < dx.length := by omega
    rw [List.getD_eq_getElem?_getD, List.getD_eq_getElem?_getD, List.getD_eq_getElem?_getD, List.getElem?_zipWith,
      List.getElem?_eq_getElem hj, List.getElem?_eq_getElem hd]
    simp [sub_eq_add_neg]

/-- **C39, first part.** Let the residual be affine in the unknowns (the matrix need not have full column rank). The body of the loop
takes every state to one whose unknowns are a least-squares solution; so from every start value whose residual is not within
`tol < 1`, `NLLS` with `maxIter ≥ 1` returns a least-squares solution. -/
theorem C39_affine {lib : LinAlg} {method : Method} {J : Option (List (View Key) → Mat ℝ)} {res : Residual Key} {z : View Key}
    {args : List (View Key)} {L : List ℕ} (G : GoodProblem lib method J res z args L) (N : ℕ) (A : ℕ → ℕ → ℝ) (b : ℕ → ℝ)
    (hA : AffineIn res z args N A b) :
    (∀ v, SameForm z v → ∀ dxi it, ∃ s', defaultBody (nllsFun lib method J res) ⟨v, dxi, it, args⟩ = .ok s' ∧
      IsLeastSquares res z args s'.xi) ∧
    ∀ (cond : Option (NState Key → Except Err Bool)) (tol : ℝ), tol < 1 → ∀ maxIter ≥ 1, ∀ (timer : Bool) (fuel : ℕ),
      maxIter + 2 ≤ fuel → ¬ Within tol (res (z :: args)) →
      ∃ (x : View Key) (n : ℕ), (NLLS lib method J cond none tol maxIter timer res z args L fuel).1 = .ok (some (x, (n : ℤ))) ∧
        IsLeastSquares res z args x := by
  refine ⟨fun v hv dxi it => ?_, fun cond tol ht maxIter hmax timer fuel hf hres => ?_⟩
  · have hp := proper_of_form hv G.proper
    obtain ⟨dx, d1, d2⟩ := nllsFun_ok G.lib G.method G.jac hv hp
    exact ⟨_, defaultBody_ok (s := ⟨v, dxi, it, args⟩) hp d1 d2.length, step_affine hA hv ⟨d2, rfl⟩⟩
  · obtain ⟨ls, rE, args', h1, h2, -, h3, -⟩ := nlls_reduce G
    obtain ⟨x, n, h4, h5⟩ := loop_runs G h1 h2 tol maxIter (SameForm.refl z) fuel hf
    refine ⟨x, n, by rw [h3]; exact h5 timer, ?_⟩
    obtain ⟨s1, xs, dxs, s2, s3, s4, s5⟩ := h4.stops ht G.unknowns
    obtain ⟨-, ys, dys, y2, y3, y4, -⟩ := h4
    cases n with
    | zero =>
      exfalso
      rw [s2] at s3
      subst s3
      rcases s5 with s5 | ⟨k, s5, -⟩ | s5
      · exact hres s5
      · omega
      · omega
    | succ n =>
      have hv : SameForm z (ys n) := by
        cases n with
        | zero => rw [y2]; exact SameForm.refl z
        | succ n => exact (y4 n (by omega)).2.1
      rw [← y3]
      exact step_affine hA hv (y4 n (by omega)).1

/-- A step from unknowns with zero residual goes nowhere. -/
theorem step_zero {res : Residual Key} {args : List (View Key)} {v v' : View Key} {dx : List ℝ}
    (h : GaussNewtonStep res args v dx v') (h0 : ∀ r ∈ res (v :: args), r = 0) : v' = v := by
  have hz : dx = List.replicate (entries v).length 0 := by
    refine solves_zero h.solves ?_
    have : missSq (res (v :: args)).length (entries v).length (resPartial res args v) (fun _ => 0) (vec (res (v :: args))) = 0 := by
      unfold missSq
      refine Finset.sum_eq_zero fun i hi => ?_
      have : vec (res (v :: args)) i = 0 := by
        unfold vec
        rw [List.getD_eq_getElem?_getD, List.getElem?_eq_getElem (Finset.mem_range.1 hi)]
        exact h0 _ (List.getElem_mem _)
      rw [this]
      simp
    rw [this]
    exact Finset.sum_nonneg fun i _ => sq_nonneg _
  have hsub : List.zipWith (· - ·) (entries v) (List.replicate (entries v).length 0) = entries v := by
    generalize entries v = l
    induction l with
    | nil => rfl
    | cons a l ih => simp [List.replicate_succ, ih]
  rw [h.next, hz, hsub]
  exact refill_entries (SameForm.refl v)

/-- **C39, second part.** For every residual: unknowns at which it is zero are returned unchanged, for every `tol` and `maxIter`. -/
theorem C39_zero {lib : LinAlg} {method : Method} {J : Option (List (View Key) → Mat ℝ)} {res : Residual Key} {z : View Key}
    {args : List (View Key)} {L : List ℕ} (G : GoodProblem lib method J res z args L)
    (cond : Option (NState Key → Except Err Bool)) (tol : ℝ) (maxIter : ℕ) (timer : Bool) (fuel : ℕ) (hf : maxIter + 2 ≤ fuel)
    (h0 : ∀ r ∈ res (z :: args), r = 0) :
    ∃ n : ℕ, (NLLS lib method J cond none tol maxIter timer res z args L fuel).1 = .ok (some (z, (n : ℤ))) := by
  obtain ⟨ls, rE, args', h1, h2, -, h3, -⟩ := nlls_reduce G
  obtain ⟨x, n, ⟨-, xs, dxs, s2, s3, s4, -⟩, h5⟩ := loop_runs G h1 h2 tol maxIter (SameForm.refl z) fuel hf
  have key : ∀ k ≤ n, xs k = z := by
    intro k
    induction k with
    | zero => exact fun _ => s2
    | succ k ih =>
      intro hk
      have hz := ih (by omega)
      have hs := (s4 k (by omega)).1
      rw [hz] at hs
      exact step_zero hs h0
  refine ⟨n, ?_⟩
  rw [h3, h5 timer, ← s3, key n le_rfl]

/-- The hypotheses are met: `2 xi - 3` with `xi = 9` at first. -/
example : ∃ lib : LinAlg, GoodProblem lib .lstsq none (lineRes : Residual ℕ) (.arr [9]) [.arr [2], .arr [3]] [1] ∧
    AffineIn (lineRes : Residual ℕ) (.arr [9]) [.arr [2], .arr [3]] 1 (fun _ _ => 2) (fun _ => - 3) ∧
    ¬ Within (1 / 10) ((lineRes : Residual ℕ) [.arr [9], .arr [2], .arr [3]]) := by
  obtain ⟨lib, hlib⟩ := linAlg_exists
  have hA := lineRes_affine (Key := ℕ) 9 2 3
  refine ⟨lib, ⟨hlib, by simp, Or.inl rfl, ⟨by simp, by simp⟩, trivial, by simp [entries], fun v hv => ?_⟩, hA, ?_⟩
  · rw [hA v hv]
    simp
  · intro h
    have := h 15 (by simp [lineRes]; norm_num)
    norm_num at this

/-! ## C40 -/

/-- **C40.** `NLLS` with the timer returns what it returns without: some unknowns and iteration count. -/
theorem C40_timer {lib : LinAlg} {method : Method} {J : Option (List (View Key) → Mat ℝ)} {res : Residual Key} {z : View Key}
    {args : List (View Key)} {L : List ℕ} (G : GoodProblem lib method J res z args L)
    (cond : Option (NState Key → Except Err Bool)) (tol : ℝ) (maxIter : ℕ) (fuel : ℕ) (hf : maxIter + 2 ≤ fuel) :
    ∃ r, (NLLS lib method J cond none tol maxIter true res z args L fuel).1 = .ok (some r) ∧
      (NLLS lib method J cond none tol maxIter false res z args L fuel).1 = .ok (some r) := by
  obtain ⟨ls, rE, args', h1, h2, -, h3, -⟩ := nlls_reduce G
  obtain ⟨x, n, -, h5⟩ := loop_runs G h1 h2 tol maxIter (SameForm.refl z) fuel hf
  exact ⟨_, by rw [h3]; exact h5 true, by rw [h3]; exact h5 false⟩

/-- **C40** for `NllsClass`: every call of `run`, the first or a later one, with or without the timer, returns the same. -/
theorem C40_nllsClass {lib : LinAlg} {method : Method} {J : Option (List (View Key) → Mat ℝ)} {res : Residual Key} {z : View Key}
    {args : List (View Key)} {L : List ℕ} (G : GoodProblem lib method J res z args L)
    (cond : Option (NState Key → Except Err Bool)) (tol : ℝ) (maxIter : ℕ) (fuel : ℕ) (hf : maxIter + 2 ≤ fuel)
    {args' : List (View Key)} (hargs : remaining L (z :: args) = z :: args') (v : View Key) (hv : SameForm z v) :
    ∃ r, ∀ timer c, ∃ o, (NllsObj.init lib method J cond none tol maxIter timer res z args L).1 = .ok o ∧
      (NllsObj.run { o with compiled := c } v args' fuel).1 = .ok (some r) := by
  obtain ⟨ls, rE, args'', h1, h2, h2', -, h3⟩ := nlls_reduce G
  obtain ⟨x, n, -, h5⟩ := loop_runs G h1 h2 tol maxIter hv fuel hf
  rw [h2'] at hargs
  cases hargs
  exact ⟨_, fun timer c => ⟨_, h3 cond tol maxIter timer, h5 _⟩⟩

example : ∃ lib : LinAlg, ∃ r, (NLLS lib .pinv none none none 0 7 true (squareRes : Residual ℕ) (.arr [1]) [] [] 9).1 = .ok (some r) ∧
    (NLLS lib .pinv none none none 0 7 false (squareRes : Residual ℕ) (.arr [1]) [] [] 9).1 = .ok (some r) := by
  obtain ⟨lib, G⟩ := squareRes_good (Key := ℕ)
  exact ⟨lib, C40_timer G none 0 7 9 (by norm_num)⟩

end Verif.Props
