import Verif.Props.GaussNewton
import Verif.Props.PdeExample
import Verif.Props.Expr
import Verif.Spec.OdeExample
import Verif.Props.OdeError

/-!
# The example programs for ordinary differential equations: what the residual computes, and what the solvers make of it
-/

namespace Verif.Props

open Set Polynomial Verif Verif.Mem Verif.Py Verif.Np Verif.Spec Verif.Model Verif.Model.Py Verif.Model.LSq Verif.Model.Prog Verif.Lemmas.LSq
open scoped ContDiff

theorem curve_contDiff {cs : List EndCond} (hcs : SmoothEnds cs) {g : ℝ → ℝ} (hg : ContDiff ℝ ∞ g) : ContDiff ℝ ∞ (curve cs g) := by
  have : ∀ (cs : List EndCond) (v : EndCond → ℝ), (∀ c ∈ cs, ContDiff ℝ ∞ c.weight) →
      ContDiff ℝ ∞ fun x => (cs.map fun c => c.weight x * v c).sum := by
    intro cs v h
    induction cs with
    | nil => simpa using contDiff_const
    | cons c cs ih =>
      simp only [List.map_cons, List.sum_cons]
      exact ((h c (by simp)).mul contDiff_const).add (ih fun c hc => h c (by simp [hc]))
  exact hg.add (this cs (fun c => c.value - iteratedDeriv c.order g c.point) fun c hc => (hcs c hc).1)

theorem iteratedDeriv_weights (cs : List EndCond) (hcs : SmoothEnds cs) (v : EndCond → ℝ) (d : ℕ) (x : ℝ) :
    ContDiff ℝ ∞ (fun x => (cs.map fun c => c.weight x * v c).sum) ∧
    iteratedDeriv d (fun x => (cs.map fun c => c.weight x * v c).sum) x = (cs.map fun c => iteratedDeriv d c.weight x * v c).sum := by
  induction cs with
  | nil =>
    simp only [List.map_nil, List.sum_nil]
    refine ⟨contDiff_const, ?_⟩
    rw [iteratedDeriv_const]
    split_ifs <;> rfl
  | cons c cs ih =>
    obtain ⟨h1, h2⟩ := ih fun c hc => hcs c (by simp [hc])
    have hc := (hcs c (by simp)).1
    simp only [List.map_cons, List.sum_cons]
    refine ⟨(hc.mul contDiff_const).add h1, ?_⟩
    have a : ContDiffAt ℝ d (fun x => c.weight x * v c) x := ((hc.mul contDiff_const).of_le (by exact_mod_cast le_top)).contDiffAt
    have b : ContDiffAt ℝ d (fun x => (cs.map fun c => c.weight x * v c).sum) x := (h1.of_le (by exact_mod_cast le_top)).contDiffAt
    rw [iteratedDeriv_fun_add a b, h2, iteratedDeriv_mul_const_field]

theorem iteratedDeriv_curve {cs : List EndCond} (hcs : SmoothEnds cs) {g : ℝ → ℝ} (hg : ContDiff ℝ ∞ g) (d : ℕ) (x : ℝ) :
    iteratedDeriv d (curve cs g) x = iteratedDeriv d g x +
      (cs.map fun c => iteratedDeriv d c.weight x * (c.value - iteratedDeriv c.order g c.point)).sum := by
  obtain ⟨h1, h2⟩ := iteratedDeriv_weights cs hcs (fun c => c.value - iteratedDeriv c.order g c.point) d x
  rw [← h2]
  exact iteratedDeriv_fun_add ((hg.of_le (by exact_mod_cast le_top)).contDiffAt) ((h1.of_le (by exact_mod_cast le_top)).contDiffAt)

/-- The arrays the program computes hold the derivatives of the expression. -/
theorem curveD_ok {u : Utfc} {cs : List EndCond} (hcs : SmoothEnds cs) {xi : List ℝ} {g : ℝ → ℝ} (hg : ContDiff ℝ ∞ g)
    (he : Evaluates u xi fun d => iteratedDeriv d g) {d : ℕ} (hd : d ≤ 8) (n : ℕ) (X : ℕ → ℝ) :
    ∃ v, curveD u cs xi d n X = .ok v ∧ ∀ j < n, v j = iteratedDeriv d (curve cs g) (X j) := by
  obtain ⟨A, hA, -, hv⟩ := he d hd n X
  obtain ⟨vs, hvs, e⟩ := mapM_values (n := n) (f := fun c : EndCond => do
      let B ← u.Hjax 1 (fun _ => c.point) c.order false
      return fun j => iteratedDeriv d c.weight (X j) * (c.value - npDot B xi 0))
    (F := fun c j => iteratedDeriv d c.weight (X j) * (c.value - iteratedDeriv c.order g c.point)) cs fun c hc => by
      obtain ⟨B, hB, -, hb⟩ := he c.order (hcs c hc).2 1 fun _ => c.point
      refine ⟨_, by rw [hB]; rfl, fun j _ => ?_⟩
      beta_reduce
      rw [hb 0 Nat.one_pos]
  refine ⟨fun j => npDot A xi j + (vs.map fun v => v j).sum, ?_, fun j hj => ?_⟩
  · unfold curveD
    rw [hA]
    simp only [bind, Except.bind] at hvs ⊢
    rw [hvs]
    rfl
  · beta_reduce
    rw [hv j hj, e j hj, iteratedDeriv_curve hcs hg]

theorem curveRes_ok {u : Utfc} {cs : List EndCond} (hcs : SmoothEnds cs) (F : ℝ → ℝ → ℝ → ℝ → ℝ) (x : List ℝ) {xi : List ℝ} {g : ℝ → ℝ}
    (hg : ContDiff ℝ ∞ g) (he : Evaluates u xi fun d => iteratedDeriv d g) :
    curveRes u cs F x xi = .ok (x.map (missF F (curve cs g))) := by
  obtain ⟨v2, e2, h2⟩ := curveD_ok hcs hg he (d := 2) (by omega) x.length fun j => x.getD j 0
  obtain ⟨v1, e1, h1⟩ := curveD_ok hcs hg he (d := 1) (by omega) x.length fun j => x.getD j 0
  obtain ⟨v0, e0, h0⟩ := curveD_ok hcs hg he (d := 0) (by omega) x.length fun j => x.getD j 0
  unfold curveRes
  simp only [e2, e1, e0, bind, Except.bind]
  refine congrArg Except.ok ?_
  rw [← map_range_getD]
  refine List.map_congr_left fun j hj => ?_
  have hj := List.mem_range.mp hj
  rw [h2 j hj, h1 j hj, h0 j hj, iteratedDeriv_zero, iteratedDeriv_one, iteratedDeriv_succ, iteratedDeriv_one]
  rfl

/-- The free function for any coefficients. -/
noncomputable def freeOf (u : Utfc) (c : ℕ → ℝ) (t : ℝ) : ℝ :=
  ∑ i ∈ Finset.range (outColumns (u.deg + 1) u.nC false).length,
    c i * u.cls.basis u.x0 u.xf ((outColumns (u.deg + 1) u.nC false).getD i 0) t

/-- The number of coefficients. -/
def cols1 (u : Utfc) : ℕ := (outColumns (u.deg + 1) u.nC false).length

theorem freeFn_eq (u : Utfc) (xi : List ℝ) : freeFn u xi = freeOf u (coef xi) := by
  funext t
  unfold freeFn freeOf
  rw [Finset.sum_range]
  refine Finset.sum_congr rfl fun i _ => ?_
  simp [coef, List.getD]

theorem freeOf_congr (u : Utfc) {c c' : ℕ → ℝ} (h : ∀ i < cols1 u, c i = c' i) : freeOf u c = freeOf u c' := by
  funext t
  exact Finset.sum_congr rfl fun i hi => by rw [h i (Finset.mem_range.mp hi)]

theorem freeOf_contDiff {u : Utfc} (hu : Ready u) (c : ℕ → ℝ) : ContDiff ℝ ∞ (freeOf u c) := by
  unfold freeOf
  exact ContDiff.sum fun i _ => contDiff_const.mul (basis_contDiff _ hu.smooth _ _ _)

theorem yields_coef {u : Utfc} (hu : Ready u) (cs : List EndCond) (xi : List ℝ) : Yields u cs xi (curve cs (freeOf u (coef xi))) := by
  refine ⟨_, freeOf_contDiff hu _, ?_, rfl⟩
  rw [← freeFn_eq]
  exact evaluates_freeFn u hu xi

/-- The function is determined by the coefficients. -/
theorem yields_unique {u : Utfc} (hu : Ready u) {cs : List EndCond} {xi : List ℝ} {y : ℝ → ℝ} (h : Yields u cs xi y) :
    y = curve cs (freeOf u (coef xi)) := by
  obtain ⟨g, -, he, rfl⟩ := h
  have := (evaluates_eq hu he).1
  beta_reduce at this
  rw [iteratedDeriv_zero] at this
  rw [this, freeFn_eq]

theorem iteratedDeriv_freeOf {u : Utfc} (hu : Ready u) (c : ℕ → ℝ) (d : ℕ) (t : ℝ) : iteratedDeriv d (freeOf u c) t =
    ∑ i ∈ Finset.range (cols1 u), c i * iteratedDeriv d (u.cls.basis u.x0 u.xf ((outColumns (u.deg + 1) u.nC false).getD i 0)) t := by
  have hd : ∀ i, ContDiffAt ℝ d (u.cls.basis u.x0 u.xf ((outColumns (u.deg + 1) u.nC false).getD i 0)) t := fun i =>
    ((basis_contDiff _ hu.smooth _ _ _).of_le (by exact_mod_cast le_top)).contDiffAt
  unfold freeOf
  rw [iteratedDeriv_fun_sum fun i _ => contDiffAt_const.mul (hd i)]
  refine Finset.sum_congr rfl fun i _ => ?_
  rw [iteratedDeriv_const_mul_field]

/-- What coefficient `i` adds to the expression. -/
noncomputable def addedBy (u : Utfc) (cs : List EndCond) (i d : ℕ) (t : ℝ) : ℝ :=
  iteratedDeriv d (u.cls.basis u.x0 u.xf ((outColumns (u.deg + 1) u.nC false).getD i 0)) t -
    (cs.map fun c => iteratedDeriv d c.weight t *
      iteratedDeriv c.order (u.cls.basis u.x0 u.xf ((outColumns (u.deg + 1) u.nC false).getD i 0)) c.point).sum

theorem sum_list_swap (cs : List EndCond) (n : ℕ) (a : EndCond → ℝ) (b : EndCond → ℕ → ℝ) (c : ℕ → ℝ) :
    (cs.map fun e => a e * (e.value - ∑ i ∈ Finset.range n, c i * b e i)).sum =
      (cs.map fun e => a e * e.value).sum - ∑ i ∈ Finset.range n, c i * (cs.map fun e => a e * b e i).sum := by
  induction cs with
  | nil => simp
  | cons e cs ih =>
    simp only [List.map_cons, List.sum_cons, ih, mul_add, Finset.sum_add_distrib]
    have : ∑ i ∈ Finset.range n, c i * (a e * b e i) = a e * ∑ i ∈ Finset.range n, c i * b e i := by
      rw [Finset.mul_sum]
      exact Finset.sum_congr rfl fun i _ => by ring
    rw [this]
    ring

/-- The expression and its derivatives are affine in the coefficients. -/
theorem curve_affine {u : Utfc} (hu : Ready u) {cs : List EndCond} (hcs : SmoothEnds cs) (c : ℕ → ℝ) (d : ℕ) (t : ℝ) :
    iteratedDeriv d (curve cs (freeOf u c)) t = aff (cols1 u) (cs.map fun e => iteratedDeriv d e.weight t * e.value).sum
      (fun i => addedBy u cs i d t) c := by
  rw [iteratedDeriv_curve hcs (freeOf_contDiff hu c), iteratedDeriv_freeOf hu]
  simp only [iteratedDeriv_freeOf hu]
  rw [sum_list_swap]
  unfold aff addedBy
  simp only [mul_sub, Finset.sum_sub_distrib]
  ring

theorem missF_iter (F : ℝ → ℝ → ℝ → ℝ → ℝ) (y : ℝ → ℝ) (x : ℝ) :
    missF F y x = F x (iteratedDeriv 0 y x) (iteratedDeriv 1 y x) (iteratedDeriv 2 y x) := by
  rw [iteratedDeriv_zero, iteratedDeriv_one, iteratedDeriv_succ, iteratedDeriv_one]
  rfl

/-- The defect of the expression, as a function of the coefficients. -/
noncomputable def curveMiss (u : Utfc) (cs : List EndCond) (F : ℝ → ℝ → ℝ → ℝ → ℝ) (c : ℕ → ℝ) (t : ℝ) : ℝ :=
  missF F (curve cs (freeOf u c)) t

theorem aff_line (m : ℕ) (a0 : ℝ) (a c z : ℕ → ℝ) (s : ℝ) :
    aff m a0 a (fun i => c i + s * z i) = aff m a0 a c + s * ∑ i ∈ Finset.range m, z i * a i := by
  unfold aff
  rw [Finset.mul_sum, add_assoc, ← Finset.sum_add_distrib]
  refine congrArg _ (Finset.sum_congr rfl fun i _ => by ring)

theorem curveMiss_smooth {u : Utfc} (hu : Ready u) {cs : List EndCond} (hcs : SmoothEnds cs) {F : ℝ → ℝ → ℝ → ℝ → ℝ} (hF : DiffF F)
    (t : ℝ) : Smooths (cols1 u) (curveMiss u cs F) t := by
  refine ⟨fun c c' h => by unfold curveMiss; rw [freeOf_congr u h], fun c => ?_⟩
  obtain ⟨A, hA⟩ : ∃ A : ℕ → ℝ, ∀ d, A d = iteratedDeriv d (curve cs (freeOf u c)) t := ⟨_, fun _ => rfl⟩
  obtain ⟨L, hL⟩ : ∃ L, HasFDerivAt (fun p : ℝ × ℝ × ℝ => F t p.1 p.2.1 p.2.2) L (A 0, A 1, A 2) := ⟨_, (hF t _).hasFDerivAt⟩
  refine ⟨fun i => L (addedBy u cs i 0 t, addedBy u cs i 1 t, addedBy u cs i 2 t), fun z => ?_⟩
  have hfun : (fun s : ℝ => curveMiss u cs F (fun i => c i + s * z i) t) = fun s : ℝ =>
      F t (A 0 + s * ∑ i ∈ Finset.range (cols1 u), z i * addedBy u cs i 0 t)
        (A 1 + s * ∑ i ∈ Finset.range (cols1 u), z i * addedBy u cs i 1 t)
        (A 2 + s * ∑ i ∈ Finset.range (cols1 u), z i * addedBy u cs i 2 t) := by
    funext s
    unfold curveMiss
    rw [missF_iter]
    simp only [hA, curve_affine hu hcs, aff_line]
  rw [hfun]
  have hlin : ∀ a b : ℝ, HasDerivAt (fun s : ℝ => a + s * b) b 0 := fun a b => by
    simpa using ((hasDerivAt_id (0 : ℝ)).mul_const b).const_add a
  have hL' : HasFDerivAt (fun p : ℝ × ℝ × ℝ => F t p.1 p.2.1 p.2.2) L
      ((fun s : ℝ => (A 0 + s * ∑ i ∈ Finset.range (cols1 u), z i * addedBy u cs i 0 t,
        A 1 + s * ∑ i ∈ Finset.range (cols1 u), z i * addedBy u cs i 1 t,
        A 2 + s * ∑ i ∈ Finset.range (cols1 u), z i * addedBy u cs i 2 t)) 0) := by simpa using hL
  have := hL'.comp_hasDerivAt (0 : ℝ) ((hlin (A 0) (∑ i ∈ Finset.range (cols1 u), z i * addedBy u cs i 0 t)).prodMk
    ((hlin (A 1) (∑ i ∈ Finset.range (cols1 u), z i * addedBy u cs i 1 t)).prodMk
      (hlin (A 2) (∑ i ∈ Finset.range (cols1 u), z i * addedBy u cs i 2 t))))
  refine this.congr_deriv ?_
  have e : (∑ i ∈ Finset.range (cols1 u), z i * addedBy u cs i 0 t, ∑ i ∈ Finset.range (cols1 u), z i * addedBy u cs i 1 t,
      ∑ i ∈ Finset.range (cols1 u), z i * addedBy u cs i 2 t) =
      ∑ i ∈ Finset.range (cols1 u), z i • ((addedBy u cs i 0 t, addedBy u cs i 1 t, addedBy u cs i 2 t) : ℝ × ℝ × ℝ) := by
    refine Prod.ext ?_ (Prod.ext ?_ ?_) <;> simp [Prod.fst_sum, Prod.snd_sum]
  rw [e, map_sum]
  exact Finset.sum_congr rfl fun i _ => by rw [map_smul, smul_eq_mul]

theorem curve_line {u : Utfc} (hu : Ready u) {cs : List EndCond} (hcs : SmoothEnds cs) (c z : ℕ → ℝ) (s : ℝ) :
    curve cs (freeOf u fun i => c i + s * (z i - c i)) =
      fun t => curve cs (freeOf u c) t + s * (curve cs (freeOf u z) t - curve cs (freeOf u c) t) := by
  funext t
  have h := fun c => curve_affine hu hcs c 0 t
  simp only [iteratedDeriv_zero] at h
  rw [h, h, h, aff_line]
  unfold aff
  simp only [sub_mul, Finset.sum_sub_distrib]
  ring

theorem linAt_curve {u : Utfc} (hu : Ready u) {cs : List EndCond} (hcs : SmoothEnds cs) (F : ℝ → ℝ → ℝ → ℝ → ℝ) (c z : ℕ → ℝ) (t : ℝ) :
    linAt (curveMiss u cs F) c z t = linF F (curve cs (freeOf u c)) (curve cs (freeOf u z)) t := by
  unfold linAt linF curveMiss
  simp only [curve_line hu hcs]

theorem residual_value {u : Utfc} (hu : Ready u) {cs : List EndCond} (hcs : SmoothEnds cs) (F : ℝ → ℝ → ℝ → ℝ → ℝ) (xi : List ℝ) :
    curveRes u cs F u.x xi = .ok (u.x.map (curveMiss u cs F (coef xi))) := by
  obtain ⟨g, hg, he, e⟩ := yields_coef hu cs xi
  rw [curveRes_ok hcs F u.x hg he, ← e]
  rfl

theorem start_value {u : Utfc} (hu : Ready u) {cs : List EndCond} (hcs : SmoothEnds cs) (F : ℝ → ℝ → ℝ → ℝ → ℝ) :
    startCurve u cs F = .ok (List.replicate (cols1 u) 0) := by
  obtain ⟨A, hA, hc⟩ : ∃ A, u.Hjax u.x.length (fun j => u.x.getD j 0) 0 false = .ok A ∧ A.cols = cols1 u := by
    have h1 : Evaluable u.backend u.cls 0 := by
      cases u.backend with
      | cpp => exact fun _ _ _ => by omega
      | python => exact fun w b h => absurd h (hu.smooth w b)
    obtain ⟨V, ⟨A, hA, -, hc, -⟩, -⟩ := utfc_Hjax u h1 false (Or.inr hu.removal) u.x.length fun j => u.x.getD j 0
    exact ⟨A, hA, hc⟩
  unfold startCurve
  simp only [hA, bind, Except.bind, hc, residual_value hu hcs]
  rfl

theorem coef_replicate (m : ℕ) : coef (List.replicate m 0) = fun _ => 0 := by
  funext i
  unfold coef
  rw [List.getD]
  by_cases h : i < m <;> simp [h]

theorem freeOf_zero (u : Utfc) : freeOf u (fun _ => 0) = fun _ => 0 := by
  funext t
  simp [freeOf]

/-- The functions of a run of Gauss–Newton steps from zero. -/
theorem newton1_of_run {u : Utfc} (hu : Ready u) {cs : List EndCond} (hcs : SmoothEnds cs) {F : ℝ → ℝ → ℝ → ℝ → ℝ} {tol : ℝ} {maxIter k : ℕ}
    {ξ : ℕ → List ℝ} (h0 : ξ 0 = List.replicate (cols1 u) 0) (hr : GaussNewtonRun (cols1 u) (curveMiss u cs F) u.x tol maxIter k ξ) :
    Newton1 u cs F tol maxIter (ξ k) k fun j => curve cs (freeOf u (coef (ξ j))) := by
  refine ⟨hr.bound, ?_, fun j _ => ⟨ξ j, yields_coef hu cs _⟩, yields_coef hu cs _, fun j hj xi' w hw => ?_, ?_⟩
  · beta_reduce
    rw [h0, coef_replicate, freeOf_zero]
  · rw [yields_unique hu hw]
    have := hr.step j hj (coef xi')
    simp only [linAt_curve hu hcs] at this
    exact this
  · rcases hr.stop with h | h | ⟨j, e, h⟩
    · exact Or.inl h
    · exact Or.inr (Or.inl h)
    · exact Or.inr (Or.inr ⟨j, ξ j, e, yields_coef hu cs _, h⟩)

/-- What `NLLS` returns. -/
theorem newton1 {lib : LinAlg} (hlib : LinAlgCorrect lib) {method : Method} (hm : method ≠ .other) {u : Utfc} (hu : Ready u)
    (hx : u.x ≠ []) (hc : cols1 u ≠ 0) {cs : List EndCond} (hcs : SmoothEnds cs) {F : ℝ → ℝ → ℝ → ℝ → ℝ} (hF : DiffF F) (tol : ℝ) (htol : tol < 1)
    (maxIter : ℕ) (timer : Bool) (fuel : ℕ) (hf : maxIter + 2 ≤ fuel) :
    ∃ xi it ys, solveNLLS1 lib method tol maxIter timer u cs F fuel = .ok (some (.arr xi, ((it : ℕ) : ℤ))) ∧
      Newton1 u cs F tol maxIter xi it ys := by
  obtain ⟨k, ξ, h1, h0, hr⟩ := newton_run hlib hm hc (args := []) (L := []) (by simp [GoodConstants]) (z := .arr (List.replicate (cols1 u) 0))
    trivial hx (by simp [entries]) (res := curveResidual u cs F) (miss := curveMiss u cs F) (fun v hv => by
      cases v with
      | dict cls kvs => exact hv.elim
      | arr xi =>
        unfold curveResidual
        simp only [residual_value hu hcs]
        rfl) (fun t _ => curveMiss_smooth hu hcs hF t) tol htol maxIter timer fuel hf
  refine ⟨ξ k, k, _, ?_, newton1_of_run hu hcs h0 hr⟩
  unfold solveNLLS1
  simp only [start_value hu hcs, bind, Except.bind]
  exact h1

theorem linearF_miss {F : ℝ → ℝ → ℝ → ℝ → ℝ} (hF : LinearF F) {u : Utfc} (hu : Ready u) {cs : List EndCond} (hcs : SmoothEnds cs) :
    ∃ (A : ℝ → ℕ → ℝ) (b : ℝ → ℝ), ∀ c t, curveMiss u cs F c t = (∑ i ∈ Finset.range (cols1 u), A t i * c i) + b t := by
  obtain ⟨a, b, c, e, h⟩ := hF
  refine ⟨fun t i => a t * addedBy u cs i 0 t + b t * addedBy u cs i 1 t + c t * addedBy u cs i 2 t,
    fun t => a t * (cs.map fun e => iteratedDeriv 0 e.weight t * e.value).sum + b t * (cs.map fun e => iteratedDeriv 1 e.weight t * e.value).sum +
      c t * (cs.map fun e => iteratedDeriv 2 e.weight t * e.value).sum + e t, fun y t => ?_⟩
  · unfold curveMiss
    rw [missF_iter, h, curve_affine hu hcs, curve_affine hu hcs, curve_affine hu hcs]
    unfold aff
    have : ∀ i, (a t * addedBy u cs i 0 t + b t * addedBy u cs i 1 t + c t * addedBy u cs i 2 t) * y i =
        a t * (y i * addedBy u cs i 0 t) + b t * (y i * addedBy u cs i 1 t) + c t * (y i * addedBy u cs i 2 t) := fun i => by ring
    simp only [this, Finset.sum_add_distrib, ← Finset.mul_sum]
    ring

theorem curve_affineIn {F : ℝ → ℝ → ℝ → ℝ → ℝ} (hF : LinearF F) {u : Utfc} (hu : Ready u) {cs : List EndCond} (hcs : SmoothEnds cs) :
    ∃ A b, AffineIn (curveResidual u cs F) (.arr (List.replicate (cols1 u) 0)) [] u.x.length A b := by
  obtain ⟨A, b, h⟩ := linearF_miss hF hu hcs
  refine ⟨fun i j => A (u.x.getD i 0) j, fun i => b (u.x.getD i 0), fun v hv => ?_⟩
  cases v with
  | dict cls kvs => exact hv.elim
  | arr xi =>
    have hl : cols1 u = xi.length := by simpa [SameForm] using hv
    unfold curveResidual
    simp only [residual_value hu hcs, orEmpty]
    rw [← map_range_getD]
    refine List.map_congr_left fun j _ => ?_
    rw [h]
    simp only [entries, ← hl]
    rfl

theorem best_of_ls {F : ℝ → ℝ → ℝ → ℝ → ℝ} {u : Utfc} (hu : Ready u) {cs : List EndCond} (hcs : SmoothEnds cs) {x : View Unit}
    (h : IsLeastSquares (curveResidual u cs F) (.arr (List.replicate (cols1 u) 0)) [] x) :
    ∃ xi, x = .arr xi ∧ Best1 u cs F xi (curve cs (freeOf u (coef xi))) := by
  obtain ⟨hform, hmin⟩ := h
  cases x with
  | dict cls kvs => exact hform.elim
  | arr xi =>
    refine ⟨xi, rfl, yields_coef hu cs xi, fun xi' w hw => ?_⟩
    obtain ⟨xi2, hl, h2⟩ := exists_list (cols1 u) (coef xi')
    have := hmin (.arr xi2) (by simp [SameForm, hl])
    unfold curveResidual at this
    simp only [residual_value hu hcs, orEmpty] at this
    rw [yields_unique hu hw, freeOf_congr u fun i hi => (h2 i hi).symm]
    simpa [normSq, sumSq1, List.map_map, Function.comp_def, curveMiss] using this

/-- What `LS` returns. -/
theorem linear1 {lib : LinAlg} (hlib : LinAlgCorrect lib) {method : Method} (hm : method ≠ .other) {u : Utfc} (hu : Ready u)
    {cs : List EndCond} (hcs : SmoothEnds cs) {F : ℝ → ℝ → ℝ → ℝ → ℝ} (hF : LinearF F) (timer : Bool) :
    ∃ xi y, solveLS1 lib method timer u cs F = .ok (.arr xi) ∧ Best1 u cs F xi y := by
  obtain ⟨A, b, h⟩ := curve_affineIn hF hu hcs
  obtain ⟨x, h1, h2, -⟩ := C35_ls_partial lib hlib method hm none timer (curveResidual u cs F) (.arr (List.replicate (cols1 u) 0)) [] []
    (by simp [GoodConstants]) trivial trivial u.x.length A b h (Or.inl rfl)
  obtain ⟨xi, rfl, h3⟩ := best_of_ls hu hcs h2
  refine ⟨xi, _, ?_, h3⟩
  unfold solveLS1
  simp only [start_value hu hcs, bind, Except.bind]
  exact h1

end Verif.Props
