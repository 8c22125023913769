import Verif.Props.OdeExample
import Verif.Props.Programs
import Verif.Props.ResidualWave
import Verif.Props.PdeReach

/-!
# C101: example programs that solve ordinary differential equations, from the constructor to the solution
-/

namespace Verif.Props

open Set Polynomial Verif Verif.Mem Verif.Py Verif.Np Verif.Spec Verif.Model Verif.Model.Py Verif.Model.LSq Verif.Model.Prog Verif.Lemmas.LSq
open scoped ContDiff

/-- The names of the bases with derivatives. -/
def smoothNames : List String := ["CP", "LeP", "FS", "ELMTanh", "ELMSigmoid", "ELMSin", "ELMSwish"]

/-- The objects of the programs. -/
theorem object1 {N m : ℕ} (hN : 2 ≤ N) (hm : 2 ≤ m) {basis backend : String} (hb : basis ∈ smoothNames)
    (hbe : backend = "C++" ∨ backend = "Python") {x0 xf : ℝ} (hx : x0 < xf) (w b : ℕ → ℝ) :
    ∃ u, utfcInit N (.int 2) m basis (some x0) (some xf) backend w b = .ok u ∧ Ready u ∧ cols1 u = m - 1 ∧ u.x.length = N ∧
      first u.x = x0 ∧ last u.x = xf ∧ u.deg = m ∧ u.nC = [0, 1] ∧ u.x0 ≠ u.xf := by
  have hnc : utfcNC m (.int 2) = .ok [0, 1] := by
    unfold utfcNC
    simp [arange, bind, Except.bind, List.range_succ]
    omega
  obtain ⟨be, hbe'⟩ : ∃ be, Backend.parse backend = some be := by
    rcases hbe with rfl | rfl <;> exact ⟨_, rfl⟩
  obtain ⟨bn, hbn⟩ : ∃ bn, BasisName.parse basis = some bn := by
    simp only [smoothNames, List.mem_cons, List.not_mem_nil, or_false] at hb
    rcases hb with rfl | rfl | rfl | rfl | rfl | rfl | rfl <;> exact ⟨_, rfl⟩
  have hne : basis ≠ "ELMReLU" := by
    simp only [smoothNames, List.mem_cons, List.not_mem_nil, or_false] at hb
    rcases hb with rfl | rfl | rfl | rfl | rfl | rfl | rfl <;> decide
  have hu : ∃ u, utfcInit N (.int 2) m basis (some x0) (some xf) backend w b = .ok u ∧ u.nC = [0, 1] := by
    unfold utfcInit
    simp only [hnc, hbe', hbn, bind, Except.bind]
    exact ⟨_, rfl, rfl⟩
  obtain ⟨u, hu, hn⟩ := hu
  obtain ⟨h1, h2, h3, -, -⟩ := init_fields hu
  have hl := (C13_points N hN (.int 2) m basis backend x0 xf hx w b u hu).1
  obtain ⟨p1, p2⟩ := built_points hN hx ⟨_, _, _, _, _, hu⟩
  refine ⟨u, hu, C76_ready N (.int 2) m basis hne (some x0) (some xf) hx.ne backend w b u hu (by simp), ?_, hl, p1, p2, h1, hn,
    by rw [h2, h3]; exact hx.ne⟩
  unfold cols1
  rw [h1, hn]
  obtain ⟨k, rfl⟩ : ∃ k, m = k + 1 := ⟨m - 1, by omega⟩
  have : outColumns (k + 1 + 1) [0, 1] false = (List.range k).map (· + 2) := kept_from_two k
  rw [this]
  simp

/-- **C101, linear equations with `LS`.** For every usable object, all smooth weights and every linear equation of second order: the program returns
coefficients that give a smooth function with the least sum of squared defects at the collocation points, among all functions the object can
give. -/
theorem C101_linear (lib : LinAlg) (hlib : LinAlgCorrect lib) (method : Method) (hm : method ≠ .other) (u : Utfc) (hu : Ready u)
    (cs : List EndCond) (hcs : SmoothEnds cs) (F : ℝ → ℝ → ℝ → ℝ → ℝ) (hF : LinearF F) (timer : Bool) :
    ∃ xi y, solveLS1 lib method timer u cs F = .ok (.arr xi) ∧ Best1 u cs F xi y := linear1 hlib hm hu hcs hF timer

/-- **C101, nonlinear equations with `NLLS`.** For every usable object with points and at least one column, all smooth weights and every
equation that is differentiable in `y`, `y'` and `y''`: the program returns after at most `maxIter` steps; every step minimises the linearised
equation, among all functions the object can give, and the run ends for one of the three reasons of `Newton1`. -/
theorem C101_newton (lib : LinAlg) (hlib : LinAlgCorrect lib) (method : Method) (hm : method ≠ .other) (u : Utfc) (hu : Ready u)
    (hx : u.x ≠ []) (hc : ∃ n X A, u.Hjax n X 0 false = .ok A ∧ A.cols ≠ 0) (cs : List EndCond) (hcs : SmoothEnds cs)
    (F : ℝ → ℝ → ℝ → ℝ → ℝ) (hF : DiffF F) (tol : ℝ) (htol : tol < 1) (maxIter : ℕ) (timer : Bool) (fuel : ℕ) (hf : maxIter + 2 ≤ fuel) :
    ∃ xi it ys, solveNLLS1 lib method tol maxIter timer u cs F fuel = .ok (some (.arr xi, ((it : ℕ) : ℤ))) ∧
      Newton1 u cs F tol maxIter xi it ys := by
  refine newton1 hlib hm hu hx ?_ hcs hF tol htol maxIter timer fuel hf
  obtain ⟨n, X, A, hA, hc⟩ := hc
  have h1 : Evaluable u.backend u.cls 0 := by
    cases u.backend with
    | cpp => exact fun _ _ _ => by omega
    | python => exact fun w b h => absurd h (hu.smooth w b)
  obtain ⟨V, ⟨B, hB, -, hcB, -⟩, -⟩ := utfc_Hjax u h1 false (Or.inr hu.removal) n X
  rw [hA] at hB
  cases hB
  rwa [hcB] at hc

/-- **C101, linear equations with `NLLS`.** If the residual at the start is not below the tolerance already, the program returns a function with the
least sum of squared defects, as with `LS`. -/
theorem C101_linear_nlls (lib : LinAlg) (hlib : LinAlgCorrect lib) (method : Method) (hm : method ≠ .other) (u : Utfc) (hu : Ready u)
    (hc : cols1 u ≠ 0) (cs : List EndCond) (hcs : SmoothEnds cs) (F : ℝ → ℝ → ℝ → ℝ → ℝ) (hF : LinearF F) (tol : ℝ) (htol : tol < 1)
    (maxIter : ℕ) (hmax : 1 ≤ maxIter) (timer : Bool) (fuel : ℕ) (hf : maxIter + 2 ≤ fuel)
    (hstart : ∃ t ∈ u.x, tol < |missF F (curve cs fun _ => 0) t|) :
    ∃ xi y, ∃ it : ℕ, solveNLLS1 lib method tol maxIter timer u cs F fuel = .ok (some (.arr xi, (it : ℤ))) ∧ Best1 u cs F xi y := by
  obtain ⟨A, b, hA⟩ := curve_affineIn hF hu hcs
  obtain ⟨t, ht, h0⟩ := hstart
  have hval : ∀ xi, curveResidual u cs F [.arr xi] = u.x.map (curveMiss u cs F (coef xi)) := fun xi => by
    unfold curveResidual
    simp only [residual_value hu hcs]
    rfl
  have G : GoodProblem lib method none (curveResidual u cs F) (.arr (List.replicate (cols1 u) 0)) [] [] :=
    ⟨hlib, hm, Or.inl rfl, by simp [GoodConstants], trivial, by simp [entries, hc], fun v hv => by
      cases v with
      | dict cls kvs => exact hv.elim
      | arr xi =>
        rw [hval]
        intro e
        rw [List.map_eq_nil_iff] at e
        rw [e] at ht
        cases ht⟩
  obtain ⟨x, it, h1, h2⟩ := (C39_affine G u.x.length A b hA).2 none tol htol maxIter hmax timer fuel hf (fun hw => by
    rw [hval] at hw
    have := hw _ (List.mem_map_of_mem (f := curveMiss u cs F (coef (List.replicate (cols1 u) 0))) ht)
    rw [coef_replicate, curveMiss, freeOf_zero] at this
    linarith)
  obtain ⟨xi, rfl, h3⟩ := best_of_ls hu hcs h2
  refine ⟨xi, _, it, ?_, h3⟩
  unfold solveNLLS1
  simp only [start_value hu hcs, bind, Except.bind]
  exact h1

/-- **C101, the conditions.** Every function the object gives meets all conditions exactly. -/
theorem C101_meets (u : Utfc) (cs : List EndCond) (hcs : SmoothEnds cs) (hd : DualEnds cs) (xi : List ℝ) (y : ℝ → ℝ)
    (hy : Yields u cs xi y) : MeetsAll cs y := by
  obtain ⟨g, hg, -, rfl⟩ := hy
  intro c hc
  obtain ⟨i, hi, rfl⟩ := List.getElem_of_mem hc
  rw [iteratedDeriv_curve hcs hg, ← sum_range_get, Finset.sum_eq_single ⟨i, hi⟩]
  · beta_reduce
    rw [Fin.getElem_fin, hd i i hi hi, if_pos rfl]
    ring
  · intro j _ hj
    rw [Fin.getElem_fin, hd i j hi j.2, if_neg fun e => hj (Fin.ext e.symm), zero_mul]
  · simp

/-- **C101, what the object can give.** With the polynomial bases and two removed functions, and weights of degree less than 2 that reproduce the
polynomials of degree less than 2 and belong to different conditions: the functions the object can give are exactly the polynomials of degree
at most `deg` that meet the conditions. -/
theorem C101_reach (u : Utfc) (f : PolyFamily) (hcls : u.cls = .poly f) (hx : u.x0 ≠ u.xf) (hdeg : 1 ≤ u.deg) (hnC : u.nC = [0, 1])
    (cs : List EndCond) (hcs : SmoothEnds cs) (hw : ∀ c ∈ cs, ∃ q : ℝ[X], q.degree < 2 ∧ c.weight = fun x => q.eval x) (hd : DualEnds cs)
    (hr : ReproducesEnds cs 2) (y : ℝ → ℝ) :
    (∃ xi, Yields u cs xi y) ↔ ∃ p : ℝ[X], p.degree < (u.deg + 1 : ℕ) ∧ y = (fun x => p.eval x) ∧ MeetsAll cs y := by
  obtain ⟨φ, hφ, hφd⟩ := basis_poly f u.x0 u.xf hx
  obtain ⟨m, hmd⟩ : ∃ m, u.deg = m + 1 := ⟨u.deg - 1, by omega⟩
  have hev : ∀ xi, Evaluates u xi fun d => iteratedDeriv d fun x => (freePart φ m xi).eval x := by
    intro xi d _ n ts
    obtain ⟨A, hA, hr, -, hv⟩ := npDot_H u f hcls hx m hmd hnC hφ d n ts
    exact ⟨A, hA, hr, fun j hj => by
      beta_reduce
      rw [hv xi j hj, iteratedDeriv_poly]⟩
  constructor
  · rintro ⟨xi, hy⟩
    have hmeet := C101_meets u cs hcs hd xi y hy
    obtain ⟨g, hg, he, rfl⟩ := hy
    have hg' := evaluates_unique he (hev xi) 0 (by omega)
    beta_reduce at hg'
    rw [iteratedDeriv_zero, iteratedDeriv_zero] at hg'
    have hsum : ∀ (cs : List EndCond) (v : EndCond → ℝ), (∀ c ∈ cs, ∃ q : ℝ[X], q.degree < 2 ∧ c.weight = fun x => q.eval x) →
        ∃ q : ℝ[X], q.degree < (u.deg + 1 : ℕ) ∧ ∀ x, (cs.map fun c => c.weight x * v c).sum = q.eval x := by
      intro cs v h
      induction cs with
      | nil => exact ⟨0, by simp, by simp⟩
      | cons c cs ih =>
        obtain ⟨q, hq, e⟩ := ih fun c hc => h c (by simp [hc])
        obtain ⟨r, hr, e'⟩ := h c (by simp)
        refine ⟨C (v c) * r + q, ?_, fun x => ?_⟩
        · refine degree_add_lt' ?_ hq
          rw [← smul_eq_C_mul]
          refine lt_of_le_of_lt (degree_smul_le _ _) (lt_of_lt_of_le hr ?_)
          exact_mod_cast (by omega : 2 ≤ u.deg + 1)
        · simp only [List.map_cons, List.sum_cons, e, e', eval_add, eval_mul, eval_C]
          ring
    obtain ⟨q, hq, e⟩ := hsum cs (fun c => c.value - iteratedDeriv c.order g c.point) hw
    refine ⟨freePart φ m xi + q, degree_add_lt' ?_ hq, ?_, hmeet⟩
    · rw [hmd]
      exact freePart_degree hφd m xi
    · funext x
      unfold curve
      rw [e, eval_add]
      have := congrFun hg' x
      rw [this]
  · rintro ⟨p, hp, rfl, hmeet⟩
    rw [hmd] at hp
    obtain ⟨xi, -, hxi⟩ := admissible_ce hx hφ hφd (ti := 0) (tf := 1) (by norm_num) (p := p) (yi := p.eval 0) (yf := p.eval 1) ⟨hp, rfl, rfl⟩
    refine ⟨xi, _, eval_smooth _, hev xi, ?_⟩
    obtain ⟨r, hr'⟩ : ∃ r, r = p - freePart φ m xi := ⟨_, rfl⟩
    have hrd : r.degree < 2 := by
      have : r = C (1 / (0 - 1)) * (X - C 1) * C (p.eval 0 - (freePart φ m xi).eval 0) +
          C (1 / (0 - 1)) * (C 0 - X) * C (p.eval 1 - (freePart φ m xi).eval 1) := by
        rw [hr', sub_eq_iff_eq_add', ← add_assoc]
        exact hxi.symm
      rw [this]
      compute_degree!
    have hp' : p = freePart φ m xi + r := by rw [hr']; ring
    funext x
    have e := hr r hrd x
    have hc : ∀ c ∈ cs, c.weight x * (c.value - iteratedDeriv c.order (fun x => (freePart φ m xi).eval x) c.point) =
        c.weight x * (derivative^[c.order] r).eval c.point := by
      intro c hc
      have := hmeet c hc
      rw [iteratedDeriv_poly] at this ⊢
      beta_reduce at this ⊢
      rw [← this, hp', iterate_map_add, eval_add]
      ring
    unfold curve
    rw [List.map_congr_left hc, ← e, ← eval_add, ← hp']

end Verif.Props
