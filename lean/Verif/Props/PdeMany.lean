import Verif.Lemmas.ManyOps
import Verif.Props.NewtonRun
import Verif.Props.PdeExample
import Verif.Spec.PdeMany

/-!
# C103: the example programs for partial differential equations in three variables, from the object to the solution
-/

namespace Verif.Props

open Set Verif Verif.Mem Verif.Py Verif.Np Verif.Spec Verif.Model Verif.Model.Py Verif.Model.LSq Verif.Model.Prog Verif.Lemmas.LSq
open scoped ContDiff

variable {dim : ℕ}

/-! ## The columns of `H` -/

/-- A combination of functions. -/
noncomputable def combN (m : ℕ) (φ : ℕ → (Fin dim → ℝ) → ℝ) (y : ℕ → ℝ) : (Fin dim → ℝ) → ℝ := fun P => ∑ i ∈ Finset.range m, y i * φ i P

theorem combN_smooth {m : ℕ} {φ : ℕ → (Fin dim → ℝ) → ℝ} (h : ∀ i, ContDiff ℝ ∞ (φ i)) (y : ℕ → ℝ) : ContDiff ℝ ∞ (combN m φ y) :=
  ContDiff.sum fun i _ => contDiff_const.mul (h i)

theorem combN_congr {m : ℕ} {φ : ℕ → (Fin dim → ℝ) → ℝ} {y z : ℕ → ℝ} (h : ∀ i < m, y i = z i) : combN m φ y = combN m φ z := by
  funext P
  exact Finset.sum_congr rfl fun i hi => by rw [h i (Finset.mem_range.mp hi)]

theorem coords_row (pts : ℕ → Fin dim → ℝ) (j : ℕ) : (fun k : Fin dim => coords pts j k) = pts j := by
  funext k
  simp [coords]

theorem columns_H {u : Mtfc} {m : ℕ} {φ : ℕ → (Fin dim → ℝ) → ℝ} (h : ColumnFns dim u m φ) {d : Fin dim → ℕ} (hd : ∑ k, d k ≤ 8) (n : ℕ)
    (pts : ℕ → Fin dim → ℝ) : ∃ A, u.Hjax n (coords pts) (List.ofFn d) false = .ok A ∧ A.cols = m ∧
      ∀ xi, ∀ j < n, npDot A xi j = mixedPartial d (combN m φ (coef xi)) (pts j) := by
  obtain ⟨A, hA, -, hc, hv⟩ := h.2 n (coords pts) (List.ofFn d) (by simp) (by rw [List.sum_ofFn]; exact hd)
  refine ⟨A, hA, hc, fun xi j hj => ?_⟩
  have e := mixedPartial_sum (Finset.range m) (coef xi) d (f := fun i => φ i) h.1
  unfold combN
  rw [e]
  unfold npDot
  rw [hc]
  refine Finset.sum_congr rfl fun i hi => ?_
  rw [hv j hj i (Finset.mem_range.mp hi), mul_comm, coords_row]
  have : (fun k : Fin dim => (List.ofFn d).getD (k : ℕ) 0) = d := by
    funext k
    simp [List.getD]
  rw [this]
  rfl

theorem freeN_unique {u : Mtfc} {xi : List ℝ} {g g' : (Fin dim → ℝ) → ℝ} (h : FreeN u xi g) (h' : FreeN u xi g') : g = g' := by
  funext P
  obtain ⟨A, hA, hv⟩ := h 1 fun _ => P
  obtain ⟨B, hB, hw⟩ := h' 1 fun _ => P
  rw [hA] at hB
  cases hB
  exact (hv 0 one_pos).symm.trans (hw 0 one_pos)

theorem columns_free {u : Mtfc} {m : ℕ} {φ : ℕ → (Fin dim → ℝ) → ℝ} (h : ColumnFns dim u m φ) (xi : List ℝ) : FreeN u xi (combN m φ (coef xi)) := by
  intro n pts
  obtain ⟨A, hA, -, hv⟩ := columns_H h (d := fun _ => 0) (by simp) n pts
  refine ⟨A, hA, fun j hj => ?_⟩
  rw [hv xi j hj, mixedPartial_zero]

/-! ## The expression -/

theorem smoothSteps_tail {s : StepN dim} {S : List (StepN dim)} (h : SmoothSteps (s :: S)) : SmoothSteps S := fun s' hs => h s' (by simp [hs])

theorem seen_smooth {k : Fin dim} {terms : List (ℝ × ℕ × ℝ)} {f : (Fin dim → ℝ) → ℝ} (hf : ContDiff ℝ ∞ f) :
    ContDiff ℝ ∞ fun P => (terms.map fun t => t.1 * (partialDeriv k)^[t.2.1] f (Function.update P k t.2.2)).sum :=
  list_sum_smooth terms fun t _ => contDiff_const.mul (subst_smooth (iter_partialDeriv_contDiff k t.2.1 hf) k t.2.2)

theorem bracket_smooth {k : Fin dim} {c : CondN dim} (hc : ContDiff ℝ ∞ c.data) {f : (Fin dim → ℝ) → ℝ} (hf : ContDiff ℝ ∞ f) :
    ContDiff ℝ ∞ fun P => c.data P - (c.terms.map fun t => t.1 * (partialDeriv k)^[t.2.1] f (Function.update P k t.2.2)).sum :=
  hc.sub (seen_smooth hf)

theorem bracket_noVar {k : Fin dim} {c : CondN dim} (hc : ∀ P x, c.data (Function.update P k x) = c.data P) (f : (Fin dim → ℝ) → ℝ) :
    NoVar k fun P => c.data P - (c.terms.map fun t => t.1 * (partialDeriv k)^[t.2.1] f (Function.update P k t.2.2)).sum := fun P s => by
  simp only [hc, Function.update_idem]

theorem summand_smooth {k : Fin dim} {c : CondN dim} (hw : ContDiff ℝ ∞ c.weight) (hc : ContDiff ℝ ∞ c.data) {f : (Fin dim → ℝ) → ℝ}
    (hf : ContDiff ℝ ∞ f) : ContDiff ℝ ∞ fun P => c.weight (P k) *
      (c.data P - (c.terms.map fun t => t.1 * (partialDeriv k)^[t.2.1] f (Function.update P k t.2.2)).sum) :=
  (hw.comp (contDiff_apply ℝ ℝ k)).mul (bracket_smooth hc hf)

theorem buildN_smooth {S : List (StepN dim)} (hS : SmoothSteps S) {g : (Fin dim → ℝ) → ℝ} (hg : ContDiff ℝ ∞ g) : ContDiff ℝ ∞ (buildN S g) := by
  induction S with
  | nil => exact hg
  | cons s S ih =>
    have h := ih (smoothSteps_tail hS)
    exact h.add (list_sum_smooth s.conds fun c hc => summand_smooth (hS s (by simp) c hc).1 (hS s (by simp) c hc).2.1 h)

/-- The derivatives of an expression. -/
theorem buildN_mixed {s : StepN dim} {S : List (StepN dim)} (hS : SmoothSteps (s :: S)) {g : (Fin dim → ℝ) → ℝ} (hg : ContDiff ℝ ∞ g)
    (d : Fin dim → ℕ) (P : Fin dim → ℝ) : mixedPartial d (buildN (s :: S) g) P = mixedPartial d (buildN S g) P +
      (s.conds.map fun c => iteratedDeriv (d s.var) c.weight (P s.var) * (mixedPartial (Function.update d s.var 0) c.data P -
        (c.terms.map fun t => t.1 * mixedPartial (Function.update d s.var t.2.1) (buildN S g) (Function.update P s.var t.2.2)).sum)).sum := by
  have h := buildN_smooth (smoothSteps_tail hS) hg
  have e : buildN (s :: S) g = fun P => buildN S g P + (s.conds.map fun c => c.weight (P s.var) *
      (c.data P - (c.terms.map fun t => t.1 * (partialDeriv s.var)^[t.2.1] (buildN S g) (Function.update P s.var t.2.2)).sum)).sum := rfl
  have hc : ∀ c ∈ s.conds, ContDiff ℝ ∞ fun P => c.weight (P s.var) *
      (c.data P - (c.terms.map fun t => t.1 * (partialDeriv s.var)^[t.2.1] (buildN S g) (Function.update P s.var t.2.2)).sum) :=
    fun c hc => summand_smooth (hS s (by simp) c hc).1 (hS s (by simp) c hc).2.1 h
  rw [e, mixed_add d h (list_sum_smooth s.conds hc), mixed_list_sum d s.conds hc]
  refine congrArg (mixedPartial d (buildN S g) P + ·) (congrArg List.sum (List.map_congr_left fun c hc => ?_))
  obtain ⟨h1, h2, h3⟩ := hS s (by simp) c hc
  rw [mixed_weight s.var d h1 (bracket_smooth h2 h) (bracket_noVar h3 _), mixed_sub _ h2 (seen_smooth h),
    mixed_list_sum _ c.terms fun t _ => contDiff_const.mul (subst_smooth (iter_partialDeriv_contDiff s.var t.2.1 h) s.var t.2.2)]
  refine congrArg (iteratedDeriv (d s.var) c.weight (P s.var) * ·) (congrArg (mixedPartial (Function.update d s.var 0) c.data P - ·)
    (congrArg List.sum (List.map_congr_left fun t _ => ?_)))
  rw [mixed_const_mul _ t.1 (subst_smooth (iter_partialDeriv_contDiff s.var t.2.1 h) s.var t.2.2), mixed_seen s.var d t.2.1 t.2.2 h]

theorem exprN_ok {u : Mtfc} {m : ℕ} {φ : ℕ → (Fin dim → ℝ) → ℝ} (B : ColumnFns dim u m φ) (xi : List ℝ) {S : List (StepN dim)} (hS : SmoothSteps S)
    {d : Fin dim → ℕ} (hd : OrdersN S d) (n : ℕ) (pts : ℕ → Fin dim → ℝ) :
    ∃ v, exprN u xi S d n pts = .ok v ∧ ∀ j < n, v j = mixedPartial d (buildN S (combN m φ (coef xi))) (pts j) := by
  induction S generalizing d pts with
  | nil =>
    obtain ⟨A, hA, -, hv⟩ := columns_H B hd n pts
    refine ⟨npDot A xi, by unfold exprN; rw [hA]; rfl, fun j hj => hv xi j hj⟩
  | cons s S ih =>
    have hS' := smoothSteps_tail hS
    obtain ⟨a, ha, ea⟩ := ih hS' hd.1 pts
    obtain ⟨cs, hcs, ec⟩ := mapM_values (n := n) (f := fun c : CondN dim => do
      let vs ← c.terms.mapM fun t => do
        let v ← exprN u xi S (Function.update d s.var t.2.1) n fun j => Function.update (pts j) s.var t.2.2
        return fun j => t.1 * v j
      return fun j => iteratedDeriv (d s.var) c.weight (pts j s.var) *
        (mixedPartial (Function.update d s.var 0) c.data (pts j) - (vs.map fun v => v j).sum))
      (F := fun c j => iteratedDeriv (d s.var) c.weight (pts j s.var) * (mixedPartial (Function.update d s.var 0) c.data (pts j) -
        (c.terms.map fun t => t.1 * mixedPartial (Function.update d s.var t.2.1) (buildN S (combN m φ (coef xi)))
          (Function.update (pts j) s.var t.2.2)).sum)) s.conds fun c hc => by
        obtain ⟨vs, hvs, e⟩ := mapM_values (n := n) (f := fun t : ℝ × ℕ × ℝ => do
          let v ← exprN u xi S (Function.update d s.var t.2.1) n fun j => Function.update (pts j) s.var t.2.2
          return fun j => t.1 * v j) (F := fun t j => t.1 * mixedPartial (Function.update d s.var t.2.1) (buildN S (combN m φ (coef xi)))
            (Function.update (pts j) s.var t.2.2)) c.terms fun t ht => by
            obtain ⟨v, hv, e⟩ := ih hS' (hd.2 c hc t ht) fun j => Function.update (pts j) s.var t.2.2
            exact ⟨fun j => t.1 * v j, by rw [hv]; rfl, fun j hj => by beta_reduce; rw [e j hj]⟩
        exact ⟨_, by rw [hvs]; rfl, fun j hj => by rw [e j hj]⟩
    refine ⟨_, by unfold exprN; rw [ha, hcs]; rfl, fun j hj => ?_⟩
    rw [ea j hj, ec j hj, buildN_mixed hS (combN_smooth B.1 _)]

/-! ## The residual -/

/-- A problem the theorems apply to: an object with smooth columns, smooth weights and data, orders up to 8 in total. -/
structure GoodN (u : Mtfc) (S : List (StepN dim)) (Q : List (EqnN dim)) (m : ℕ) (φ : ℕ → (Fin dim → ℝ) → ℝ) : Prop where
  cols : ColumnFns dim u m φ
  steps : SmoothSteps S
  orders0 : OrdersN S fun _ => 0
  orders : ∀ E ∈ Q, (∀ t ∈ E.lin, OrdersN S t.ord) ∧ ∀ t ∈ E.prods, OrdersN S t.1.ord ∧ OrdersN S t.2.ord

variable {u : Mtfc} {S : List (StepN dim)} {Q : List (EqnN dim)} {m : ℕ} {φ : ℕ → (Fin dim → ℝ) → ℝ}

/-- The functions of the coefficients `xis`. -/
noncomputable def fieldsN (S : List (StepN dim)) (m : ℕ) (φ : ℕ → (Fin dim → ℝ) → ℝ) (xis : List (List ℝ)) (q : ℕ) : (Fin dim → ℝ) → ℝ :=
  buildN S (combN m φ (coef (xis.getD q [])))

theorem GoodN.eval (G : GoodN u S Q m φ) (xi : List ℝ) (n : ℕ) (pts : ℕ → Fin dim → ℝ) :
    evalN u S xi n pts = .ok ((List.range n).map fun j => buildN S (combN m φ (coef xi)) (pts j)) := by
  obtain ⟨v, hv, e⟩ := exprN_ok G.cols xi G.steps G.orders0 n pts
  unfold evalN
  rw [hv]
  refine congrArg Except.ok (List.map_congr_left fun j hj => ?_)
  rw [e j (List.mem_range.mp hj), mixedPartial_zero]

theorem GoodN.term (G : GoodN u S Q m φ) {t : TermN dim} (ht : OrdersN S t.ord) (xis : List (List ℝ)) (n : ℕ) (pts : ℕ → Fin dim → ℝ) :
    ∃ v, termN u S xis n pts t = .ok v ∧ ∀ j < n, v j = termVal t (fieldsN S m φ xis) (pts j) := by
  obtain ⟨v, hv, e⟩ := exprN_ok G.cols (xis.getD t.unk []) G.steps ht n pts
  exact ⟨_, by unfold termN; rw [hv]; rfl, fun j hj => by rw [e j hj]; rfl⟩

theorem GoodN.eqn (G : GoodN u S Q m φ) {E : EqnN dim} (hE : E ∈ Q) (xis : List (List ℝ)) (n : ℕ) (pts : ℕ → Fin dim → ℝ) :
    eqnN u S xis n pts E = .ok ((List.range n).map fun j => missN E (fieldsN S m φ xis) (pts j)) := by
  obtain ⟨ls, hls, el⟩ := mapM_values (n := n) (f := termN u S xis n pts) (F := fun t j => termVal t (fieldsN S m φ xis) (pts j)) E.lin
    fun t ht => G.term ((G.orders E hE).1 t ht) xis n pts
  obtain ⟨ps, hps, ep⟩ := mapM_values (n := n) (f := fun t : TermN dim × TermN dim => do
    let a ← termN u S xis n pts t.1
    let b ← termN u S xis n pts t.2
    return fun j => a j * b j) (F := fun t j => termVal t.1 (fieldsN S m φ xis) (pts j) * termVal t.2 (fieldsN S m φ xis) (pts j)) E.prods
    fun t ht => by
      obtain ⟨a, ha, ea⟩ := G.term ((G.orders E hE).2 t ht).1 xis n pts
      obtain ⟨b, hb, eb⟩ := G.term ((G.orders E hE).2 t ht).2 xis n pts
      exact ⟨_, by rw [ha, hb]; rfl, fun j hj => by rw [ea j hj, eb j hj]⟩
  unfold eqnN
  rw [hls, hps]
  refine congrArg Except.ok (List.map_congr_left fun j hj => ?_)
  have hj := List.mem_range.mp hj
  rw [el j hj, ep j hj]
  rfl

/-- The pairs of an equation and a point, in the order of the residual. -/
def allPairs (Q : List (EqnN dim)) (pts : List (Fin dim → ℝ)) : List (EqnN dim × (Fin dim → ℝ)) := Q.flatMap fun E => pts.map fun P => (E, P)

/-- The points with the coordinates `X`. -/
def ptsOf (dim : ℕ) (X : List (List ℝ)) : List (Fin dim → ℝ) := (List.range (X.getD 0 []).length).map (gridN dim X)

theorem mapM_ok {ι α : Type} {f : ι → Except Err α} {F : ι → α} : ∀ (l : List ι), (∀ i ∈ l, f i = .ok (F i)) → l.mapM f = .ok (l.map F)
  | [], _ => rfl
  | i :: l, h => by
    rw [List.mapM_cons, h i (by simp), mapM_ok l fun k hk => h k (by simp [hk])]
    rfl

theorem GoodN.sys (G : GoodN u S Q m φ) (X xis : List (List ℝ)) :
    sysN u S Q X xis = .ok ((allPairs Q (ptsOf dim X)).map fun t => missN t.1 (fieldsN S m φ xis) t.2) := by
  unfold sysN
  rw [mapM_ok Q fun E hE => G.eqn hE xis _ _]
  refine congrArg Except.ok ?_
  simp only [allPairs, ptsOf, List.flatMap, List.map_flatten, List.map_map, Function.comp_def]

theorem sum_allPairs (Q : List (EqnN dim)) (pts : List (Fin dim → ℝ)) (f : EqnN dim → (Fin dim → ℝ) → ℝ) :
    ((allPairs Q pts).map fun t => f t.1 t.2 ^ 2).sum = sumSqN Q pts f := by
  unfold allPairs sumSqN
  induction Q with
  | nil => rfl
  | cons E Q ih =>
    simp only [List.flatMap_cons, List.map_append, List.sum_append, List.map_cons, List.sum_cons, ih, List.map_map, Function.comp_def]

/-! ## The residual as a function of all coefficients -/

theorem buildN_affine {S : List (StepN dim)} (hS : SmoothSteps S) {g h : (Fin dim → ℝ) → ℝ} (hg : ContDiff ℝ ∞ g) (hh : ContDiff ℝ ∞ h) (c : ℝ)
    (d : Fin dim → ℕ) (P : Fin dim → ℝ) : mixedPartial d (buildN S fun P => g P + c * h P) P =
      mixedPartial d (buildN S g) P + c * (mixedPartial d (buildN S h) P - mixedPartial d (buildN S fun _ => 0) P) := by
  have hs : ContDiff ℝ ∞ fun P => g P + c * h P := hg.add (contDiff_const.mul hh)
  induction S generalizing d P with
  | nil =>
    show mixedPartial d (fun P => g P + c * h P) P = mixedPartial d g P + c * (mixedPartial d h P - mixedPartial d (fun _ => 0) P)
    rw [mixed_add d hg (contDiff_const.mul hh), mixed_const_mul d c hh, mixed_const_zero]
    ring
  | cons s S ih =>
    rw [buildN_mixed hS hs, buildN_mixed hS hg, buildN_mixed hS hh, buildN_mixed hS contDiff_const, ih (smoothSteps_tail hS)]
    simp only [ih (smoothSteps_tail hS)]
    generalize s.conds = l
    induction l with
    | nil => simp
    | cons a l ihl =>
      have inner : ∀ terms : List (ℝ × ℕ × ℝ), (terms.map fun t => t.1 * (mixedPartial (Function.update d s.var t.2.1) (buildN S g)
            (Function.update P s.var t.2.2) + c * (mixedPartial (Function.update d s.var t.2.1) (buildN S h) (Function.update P s.var t.2.2) -
              mixedPartial (Function.update d s.var t.2.1) (buildN S fun _ => 0) (Function.update P s.var t.2.2)))).sum =
          (terms.map fun t => t.1 * mixedPartial (Function.update d s.var t.2.1) (buildN S g) (Function.update P s.var t.2.2)).sum +
            c * ((terms.map fun t => t.1 * mixedPartial (Function.update d s.var t.2.1) (buildN S h) (Function.update P s.var t.2.2)).sum -
              (terms.map fun t => t.1 * mixedPartial (Function.update d s.var t.2.1) (buildN S fun _ => 0) (Function.update P s.var t.2.2)).sum) := by
        intro terms
        induction terms with
        | nil => simp
        | cons t terms iht =>
          simp only [List.map_cons, List.sum_cons, iht]
          ring
      simp only [List.map_cons, List.sum_cons]
      rw [inner]
      linear_combination ihl

/-- The coefficients of unknown `q`. -/
def partOf (K m q : ℕ) (y : ℕ → ℝ) (i : ℕ) : ℝ := if q < K then y (q * m + i) else 0

/-- The functions of the coefficients of `K` unknowns, unknown `q` taking the coefficients from `q * m` on. -/
noncomputable def fieldsY (S : List (StepN dim)) (K m : ℕ) (φ : ℕ → (Fin dim → ℝ) → ℝ) (y : ℕ → ℝ) (q : ℕ) : (Fin dim → ℝ) → ℝ :=
  buildN S (combN m φ (partOf K m q y))

theorem fieldsY_congr {K : ℕ} {y z : ℕ → ℝ} (h : ∀ i < K * m, y i = z i) : fieldsY S K m φ y = fieldsY S K m φ z := by
  funext q
  refine congrArg (buildN S) (combN_congr fun i hi => ?_)
  unfold partOf
  split_ifs with hq
  · refine h _ ?_
    calc q * m + i < q * m + m := by omega
      _ = (q + 1) * m := by ring
      _ ≤ K * m := Nat.mul_le_mul_right m hq
  · rfl

/-- A term as a function of the coefficients is affine. -/
theorem GoodN.term_affine (G : GoodN u S Q m φ) (K : ℕ) (t : TermN dim) (P : Fin dim → ℝ) (y z : ℕ → ℝ) (c : ℝ) :
    termVal t (fieldsY S K m φ fun i => y i + c * z i) P = termVal t (fieldsY S K m φ y) P +
      c * (termVal t (fieldsY S K m φ z) P - termVal t (fieldsY S K m φ fun _ => 0) P) := by
  have e : combN m φ (partOf K m t.unk fun i => y i + c * z i) =
      fun P => combN m φ (partOf K m t.unk y) P + c * combN m φ (partOf K m t.unk z) P := by
    funext P
    unfold combN partOf
    rw [Finset.mul_sum, ← Finset.sum_add_distrib]
    refine Finset.sum_congr rfl fun i _ => ?_
    split_ifs
    · ring
    · ring
  have e0 : combN m φ (partOf K m t.unk fun _ => 0) = fun _ => 0 := by
    funext P
    simp [combN, partOf]
  unfold termVal fieldsY
  rw [e, e0, buildN_affine G.steps (combN_smooth G.cols.1 _) (combN_smooth G.cols.1 _)]
  ring

/-- An affine function of the first `n` coefficients. -/
theorem affine_sum {T : (ℕ → ℝ) → ℝ} (h : ∀ y z c, T (fun i => y i + c * z i) = T y + c * (T z - T fun _ => 0)) {n : ℕ}
    (only : ∀ y z, (∀ i < n, y i = z i) → T y = T z) (y : ℕ → ℝ) :
    T y = aff n (T fun _ => 0) (fun j => T (fun i => if i = j then 1 else 0) - T fun _ => 0) y := by
  have key : ∀ k, T (fun i => if i < k then y i else 0) = aff k (T fun _ => 0) (fun j => T (fun i => if i = j then 1 else 0) - T fun _ => 0) y := by
    intro k
    induction k with
    | zero => simp [aff]
    | succ k ih =>
      have e : (fun i => if i < k + 1 then y i else 0) = fun i => (if i < k then y i else 0) + y k * if i = k then 1 else 0 := by
        funext i
        rcases lt_trichotomy i k with hi | hi | hi
        · simp [hi, hi.ne, Nat.lt_succ_of_lt hi]
        · simp [hi]
        · have h1 : ¬i < k + 1 := by omega
          have h2 : ¬i < k := by omega
          have h3 : i ≠ k := by omega
          simp [h1, h2, h3]
      rw [e, h, ih]
      unfold aff
      rw [Finset.sum_range_succ]
      ring
  rw [← key n]
  exact only _ _ fun i hi => by simp [hi]

/-- The derivative of a term by a coefficient. -/
noncomputable def termPart (S : List (StepN dim)) (K m : ℕ) (φ : ℕ → (Fin dim → ℝ) → ℝ) (P : Fin dim → ℝ) (j : ℕ) (t : TermN dim) : ℝ :=
  termVal t (fieldsY S K m φ fun i => if i = j then 1 else 0) P - termVal t (fieldsY S K m φ fun _ => 0) P

/-- The derivative of the residual by a coefficient. -/
noncomputable def missPart (S : List (StepN dim)) (K m : ℕ) (φ : ℕ → (Fin dim → ℝ) → ℝ) (E : EqnN dim × (Fin dim → ℝ)) (y : ℕ → ℝ) (j : ℕ) : ℝ :=
  (E.1.lin.map (termPart S K m φ E.2 j)).sum + (E.1.prods.map fun t => termPart S K m φ E.2 j t.1 * termVal t.2 (fieldsY S K m φ y) E.2 +
    termVal t.1 (fieldsY S K m φ y) E.2 * termPart S K m φ E.2 j t.2).sum

theorem hasDerivAt_listSum {α : Type} {f : α → ℝ → ℝ} {f' : α → ℝ} {x : ℝ} : ∀ (l : List α), (∀ a ∈ l, HasDerivAt (f a) (f' a) x) →
    HasDerivAt (fun s => (l.map fun a => f a s).sum) (l.map f').sum x
  | [], _ => by simpa using hasDerivAt_const x (0 : ℝ)
  | a :: l, h => by
    simp only [List.map_cons, List.sum_cons]
    exact (h a (by simp)).add (hasDerivAt_listSum l fun b hb => h b (by simp [hb]))

theorem GoodN.differentiates (G : GoodN u S Q m φ) (K : ℕ) :
    Differentiates (K * m) (fun (t : EqnN dim × (Fin dim → ℝ)) y => missN t.1 (fieldsY S K m φ y) t.2) (missPart S K m φ) := by
  refine ⟨fun t y z h => by rw [fieldsY_congr h], fun t y j _ => ?_⟩
  have hT : ∀ r : TermN dim, HasDerivAt (fun s : ℝ => termVal r (fieldsY S K m φ fun i => y i + if i = j then s else 0) t.2)
      (termPart S K m φ t.2 j r) 0 := by
    intro r
    have e : (fun s : ℝ => termVal r (fieldsY S K m φ fun i => y i + if i = j then s else 0) t.2) = fun s =>
        termVal r (fieldsY S K m φ y) t.2 + s * termPart S K m φ t.2 j r := by
      funext s
      rw [termPart, ← G.term_affine K r t.2 y _ s]
      refine congrArg (fun z => termVal r (fieldsY S K m φ z) t.2) ?_
      funext i
      by_cases h : i = j <;> simp [h]
    rw [e]
    simpa using ((hasDerivAt_id (0 : ℝ)).mul_const (termPart S K m φ t.2 j r)).const_add (termVal r (fieldsY S K m φ y) t.2)
  have hy : (fun i => y i + if i = j then (0 : ℝ) else 0) = y := by
    funext i
    simp
  have h2 := hasDerivAt_listSum (x := 0) t.1.prods fun p _ => (hT p.1).mul (hT p.2)
  rw [hy] at h2
  exact ((hasDerivAt_listSum t.1.lin fun r _ => hT r).add h2).add_const t.1.const

theorem GoodN.term_step (G : GoodN u S Q m φ) (K : ℕ) (r : TermN dim) (P : Fin dim → ℝ) (y z : ℕ → ℝ) :
    termVal r (fieldsY S K m φ y) P - ∑ j ∈ Finset.range (K * m), termPart S K m φ P j r * (y j - z j) = termVal r (fieldsY S K m φ z) P := by
  have h := affine_sum (T := fun y => termVal r (fieldsY S K m φ y) P) (G.term_affine K r P) (n := K * m) fun y z h => by
    beta_reduce
    rw [fieldsY_congr h]
  have hy := h y
  have hz := h z
  beta_reduce at hy hz
  rw [hy, hz]
  unfold aff
  have e : ∑ j ∈ Finset.range (K * m), termPart S K m φ P j r * (y j - z j) =
      ∑ j ∈ Finset.range (K * m), y j * termPart S K m φ P j r - ∑ j ∈ Finset.range (K * m), z j * termPart S K m φ P j r := by
    rw [← Finset.sum_sub_distrib]
    exact Finset.sum_congr rfl fun j _ => by ring
  rw [e]
  simp only [termPart]
  ring

theorem sum_list_comm {α : Type} (n : ℕ) (f : ℕ → α → ℝ) (c : ℕ → ℝ) : ∀ l : List α,
    ∑ j ∈ Finset.range n, (l.map (f j)).sum * c j = (l.map fun a => ∑ j ∈ Finset.range n, f j a * c j).sum
  | [] => by simp
  | a :: l => by
    simp only [List.map_cons, List.sum_cons, add_mul, Finset.sum_add_distrib, sum_list_comm n f c l]

theorem list_sum_sub {α : Type} (f g : α → ℝ) : ∀ l : List α, (l.map f).sum - (l.map g).sum = (l.map fun a => f a - g a).sum
  | [] => by simp
  | a :: l => by
    simp only [List.map_cons, List.sum_cons, ← list_sum_sub f g l]
    ring

theorem GoodN.tangent_lin (G : GoodN u S Q m φ) (K : ℕ) (t : EqnN dim × (Fin dim → ℝ)) (y z : ℕ → ℝ) :
    tangent (K * m) (fun (t : EqnN dim × (Fin dim → ℝ)) y => missN t.1 (fieldsY S K m φ y) t.2) (missPart S K m φ) t y z =
      linN t.1 (fieldsY S K m φ y) (fieldsY S K m φ z) t.2 := by
  unfold tangent missPart missN linN
  simp only [add_mul, Finset.sum_add_distrib, sum_list_comm]
  have e1 := list_sum_sub (fun r => termVal r (fieldsY S K m φ y) t.2)
    (fun r => ∑ j ∈ Finset.range (K * m), termPart S K m φ t.2 j r * (y j - z j)) t.1.lin
  have e2 := list_sum_sub (fun p : TermN dim × TermN dim => termVal p.1 (fieldsY S K m φ y) t.2 * termVal p.2 (fieldsY S K m φ y) t.2)
    (fun p => ∑ j ∈ Finset.range (K * m), (termPart S K m φ t.2 j p.1 * termVal p.2 (fieldsY S K m φ y) t.2 * (y j - z j) +
      termVal p.1 (fieldsY S K m φ y) t.2 * termPart S K m φ t.2 j p.2 * (y j - z j))) t.1.prods
  simp only [G.term_step] at e1
  have e3 : ∀ p : TermN dim × TermN dim, termVal p.1 (fieldsY S K m φ y) t.2 * termVal p.2 (fieldsY S K m φ y) t.2 -
      ∑ j ∈ Finset.range (K * m), (termPart S K m φ t.2 j p.1 * termVal p.2 (fieldsY S K m φ y) t.2 * (y j - z j) +
      termVal p.1 (fieldsY S K m φ y) t.2 * termPart S K m φ t.2 j p.2 * (y j - z j)) =
      termVal p.1 (fieldsY S K m φ y) t.2 * termVal p.2 (fieldsY S K m φ z) t.2 +
        termVal p.1 (fieldsY S K m φ z) t.2 * termVal p.2 (fieldsY S K m φ y) t.2 -
        termVal p.1 (fieldsY S K m φ y) t.2 * termVal p.2 (fieldsY S K m φ y) t.2 := by
    intro p
    have h1 := G.term_step K p.1 t.2 y z
    have h2 := G.term_step K p.2 t.2 y z
    have s : ∑ j ∈ Finset.range (K * m), (termPart S K m φ t.2 j p.1 * termVal p.2 (fieldsY S K m φ y) t.2 * (y j - z j) +
        termVal p.1 (fieldsY S K m φ y) t.2 * termPart S K m φ t.2 j p.2 * (y j - z j)) =
        (∑ j ∈ Finset.range (K * m), termPart S K m φ t.2 j p.1 * (y j - z j)) * termVal p.2 (fieldsY S K m φ y) t.2 +
          termVal p.1 (fieldsY S K m φ y) t.2 * ∑ j ∈ Finset.range (K * m), termPart S K m φ t.2 j p.2 * (y j - z j) := by
      rw [Finset.sum_mul, Finset.mul_sum, ← Finset.sum_add_distrib]
      exact Finset.sum_congr rfl fun j _ => by ring
    rw [s, ← h1, ← h2]
    ring
  simp only [e3] at e2
  simp only [Finset.sum_add_distrib] at e2
  linear_combination e1 + e2

/-! ## The unknowns -/

/-- The number of unknown functions. -/
def countN (names : List String) : ℕ := if names = [] then 1 else names.length

/-- The unknowns at the start. -/
def zeroN (names : List String) (m : ℕ) : View String :=
  if names = [] then .arr (List.replicate m 0) else .dict .plain (names.map fun k => (k, ⟨[m], List.replicate m 0⟩))

theorem coef_flatten {m : ℕ} : ∀ (l : List (List ℝ)), (∀ a ∈ l, a.length = m) → ∀ q < l.length, ∀ i < m,
    coef l.flatten (q * m + i) = coef (l.getD q []) i
  | [], _, q, hq, _, _ => by simp at hq
  | a :: l, h, 0, _, i, hi => by
    have ha : a.length = m := h a (by simp)
    simp [coef, List.getD, List.getElem?_append_left (show i < a.length by omega)]
  | a :: l, h, q + 1, hq, i, hi => by
    have ha : a.length = m := h a (by simp)
    have := coef_flatten l (fun b hb => h b (by simp [hb])) q (by simpa using hq) i hi
    simp only [coef, List.getD, List.flatten_cons, List.getElem?_cons_succ] at this ⊢
    rw [← this, List.getElem?_append_right (by rw [ha]; nlinarith), ha]
    congr 2
    rw [Nat.add_mul]
    omega

theorem find_key {kvs : List (String × Model.Dict.Arr ℝ)} (h : (kvs.map (·.1)).Nodup) :
    (kvs.map (·.1)).map (fun k => ((kvs.find? fun p => p.1 = k).map fun p => p.2.data).getD []) = kvs.map fun p => p.2.data := by
  rw [List.map_map]
  refine List.map_congr_left fun p hp => ?_
  have : kvs.find? (fun r => r.1 = p.1) = some p := by
    induction kvs with
    | nil => simp at hp
    | cons r kvs ih =>
      rw [List.find?_cons]
      simp only [List.map_cons, List.nodup_cons, List.mem_map] at h
      rcases List.mem_cons.mp hp with rfl | hp
      · simp
      · have : r.1 ≠ p.1 := fun e => h.1 ⟨p, hp, e.symm⟩
        simp only [this, decide_false]
        exact ih h.2 hp
  simp only [Function.comp_apply, this, Option.map_some, Option.getD_some]

/-- The unknowns of an argument of the right form, and its entries. -/
theorem unknownsN_entries {names : List String} (hn : names.Nodup) {m : ℕ} {v : View String} (hv : SameForm (zeroN names m) v) :
    (unknownsN names v).length = countN names ∧ ∀ q i, i < m → partOf (countN names) m q (coef (entries v)) i = coef ((unknownsN names v).getD q []) i := by
  by_cases h0 : names = []
  · subst h0
    cases v with
    | dict cls kvs => simp [zeroN, SameForm] at hv
    | arr xi =>
      refine ⟨by simp [unknownsN, countN], fun q i hi => ?_⟩
      rcases Nat.eq_zero_or_pos q with rfl | hq
      · simp [unknownsN, countN, partOf, entries]
      · have : ¬q < 1 := by omega
        rw [partOf, countN, if_pos rfl, if_neg this]
        have e : ([xi] : List (List ℝ)).getD q [] = [] := by
          rw [List.getD, List.getElem?_eq_none (by simp; omega)]
          rfl
        show 0 = coef (([xi] : List (List ℝ)).getD q []) i
        rw [e]
        rfl
  · rw [zeroN, if_neg h0] at hv
    cases v with
    | arr xi => simp [SameForm] at hv
    | dict cls kvs =>
      obtain ⟨-, hk⟩ := hv
      have hk1 : names = kvs.map (·.1) := by
        have := congrArg (List.map (·.1)) hk
        simpa [List.map_map, Function.comp_def] using this
      have hk2 : ∀ a ∈ kvs.map fun p => p.2.data, a.length = m := by
        intro a ha
        obtain ⟨p, hp, rfl⟩ := List.mem_map.mp ha
        have : (p.1, p.2.shape, p.2.data.length) ∈ kvs.map fun p => (p.1, p.2.shape, p.2.data.length) := List.mem_map_of_mem hp
        rw [← hk] at this
        simp at this
        omega
      have hu : unknownsN names (.dict cls kvs) = kvs.map fun p => p.2.data := by
        unfold unknownsN
        have := find_key (hk1 ▸ hn)
        rw [← hk1] at this
        exact this
      have hc : countN names = kvs.length := by rw [countN, if_neg h0, hk1, List.length_map]
      rw [hu]
      refine ⟨by rw [hc, List.length_map], fun q i hi => ?_⟩
      unfold partOf
      split_ifs with hq
      · exact coef_flatten _ hk2 q (by rw [List.length_map, ← hc]; exact hq) i hi
      · rw [List.getD, List.getElem?_eq_none (by rw [List.length_map, ← hc]; omega)]
        rfl

theorem fieldsY_unknowns {names : List String} (hn : names.Nodup) {v : View String} (hv : SameForm (zeroN names m) v) :
    fieldsN S m φ (unknownsN names v) = fieldsY S (countN names) m φ (coef (entries v)) := by
  funext q
  exact congrArg (buildN S) (combN_congr fun i hi => ((unknownsN_entries hn hv).2 q i hi).symm)

theorem zeroN_length (names : List String) (m : ℕ) : (entries (zeroN names m)).length = countN names * m := by
  unfold zeroN countN
  split_ifs with h
  · simp [entries]
  · simp [entries, List.map_map, Function.comp_def]

theorem zeroN_zero (names : List String) (m i : ℕ) : coef (entries (zeroN names m)) i = 0 := by
  have : ∀ x ∈ entries (zeroN names m), x = 0 := by
    unfold zeroN
    split_ifs with h
    · simp [entries]
    · simp only [entries, List.map_map, Function.comp_def, List.mem_flatten, List.mem_map]
      rintro x ⟨l, ⟨k, -, rfl⟩, hx⟩
      exact (List.mem_replicate.mp hx).2
  unfold coef
  by_cases hi : i < (entries (zeroN names m)).length
  · rw [List.getD, List.getElem?_eq_getElem hi]
    exact this _ (List.getElem_mem _)
  · rw [List.getD, List.getElem?_eq_none (by omega)]
    rfl

theorem zeroN_proper {names : List String} (hn : names.Nodup) (m : ℕ) : ProperUnknowns (zeroN names m) ∧ NotRobustMany (zeroN names m) := by
  unfold zeroN
  split_ifs with h
  · exact ⟨trivial, trivial⟩
  · refine ⟨⟨by simpa using h, by simpa [List.map_map, Function.comp_def] using hn, ?_⟩, trivial⟩
    intro p hp
    obtain ⟨k, -, rfl⟩ := List.mem_map.mp hp
    simp

theorem GoodN.start (G : GoodN u S Q m φ) (names : List String) : startN names u S Q = .ok (zeroN names m) := by
  obtain ⟨A, hA, hc, -⟩ := columns_H G.cols (d := fun _ => 0) (by simp) (u.x.getD 0 []).length (gridN dim u.x)
  unfold startN
  simp only [hA, G.sys, bind, Except.bind, hc]
  rfl

theorem GoodN.value (G : GoodN u S Q m φ) {names : List String} (hn : names.Nodup) {v : View String} (hv : SameForm (zeroN names m) v) (X : List (List ℝ)) :
    orEmpty (sysN u S Q X (unknownsN names v)) =
      (allPairs Q (ptsOf dim X)).map fun t => missN t.1 (fieldsY S (countN names) m φ (coef (entries v))) t.2 := by
  rw [G.sys, fieldsY_unknowns hn hv]
  rfl

theorem arraysN_arr (X : List (List ℝ)) : arraysN (X.map .arr) = X := by
  induction X with
  | nil => rfl
  | cons a X ih => simp only [List.map_cons, arraysN, ih]

theorem residualN_args (names : List String) (u : Mtfc) (S : List (StepN dim)) (Q : List (EqnN dim)) (v : View String) :
    residualN names u S Q (v :: u.x.map .arr) = orEmpty (sysN u S Q u.x (unknownsN names v)) := by
  cases h : u.x with
  | nil => simp only [List.map_nil, residualN, h]
  | cons a l =>
    have := arraysN_arr (a :: l)
    simp only [List.map_cons] at this
    simp only [List.map_cons, residualN, this]

/-! ## The programs -/

theorem missN_congr {K : ℕ} {E : EqnN dim} (h : UsesN K E) {z z' : ℕ → (Fin dim → ℝ) → ℝ} (e : ∀ q < K, z q = z' q) (P : Fin dim → ℝ) :
    missN E z P = missN E z' P := by
  have ht : ∀ t : TermN dim, t.unk < K → termVal t z P = termVal t z' P := fun t ht => by rw [termVal, termVal, e _ ht]
  have h1 : (E.lin.map fun t => termVal t z P) = E.lin.map fun t => termVal t z' P := List.map_congr_left fun t k => ht t (h.1 t k)
  have h2 : (E.prods.map fun t => termVal t.1 z P * termVal t.2 z P) = E.prods.map fun t => termVal t.1 z' P * termVal t.2 z' P :=
    List.map_congr_left fun t k => by rw [ht t.1 (h.2 t k).1, ht t.2 (h.2 t k).2]
  rw [missN, missN, h1, h2]

theorem linN_congr {K : ℕ} {E : EqnN dim} (h : UsesN K E) {z z' w w' : ℕ → (Fin dim → ℝ) → ℝ} (e : ∀ q < K, z q = z' q) (e2 : ∀ q < K, w q = w' q)
    (P : Fin dim → ℝ) : linN E z w P = linN E z' w' P := by
  have ht : ∀ t : TermN dim, t.unk < K → termVal t z P = termVal t z' P := fun t ht => by rw [termVal, termVal, e _ ht]
  have hw : ∀ t : TermN dim, t.unk < K → termVal t w P = termVal t w' P := fun t ht => by rw [termVal, termVal, e2 _ ht]
  have h1 : (E.lin.map fun t => termVal t w P) = E.lin.map fun t => termVal t w' P := List.map_congr_left fun t k => hw t (h.1 t k)
  have h2 : (E.prods.map fun t => termVal t.1 z P * termVal t.2 w P + termVal t.1 w P * termVal t.2 z P - termVal t.1 z P * termVal t.2 z P) =
      E.prods.map fun t => termVal t.1 z' P * termVal t.2 w' P + termVal t.1 w' P * termVal t.2 z' P - termVal t.1 z' P * termVal t.2 z' P :=
    List.map_congr_left fun t k => by rw [ht t.1 (h.2 t k).1, ht t.2 (h.2 t k).2, hw t.1 (h.2 t k).1, hw t.2 (h.2 t k).2]
  rw [linN, linN, h1, h2]

theorem sumSqN_congr {pts : List (Fin dim → ℝ)} {f g : EqnN dim → (Fin dim → ℝ) → ℝ} (h : ∀ E ∈ Q, ∀ P, f E P = g E P) :
    sumSqN Q pts f = sumSqN Q pts g := by
  unfold sumSqN
  refine congrArg List.sum (List.map_congr_left fun E hE => congrArg List.sum (List.map_congr_left fun P _ => by rw [h E hE]))

/-- The coefficients `xi` give the free function `g`, the program then computes the expression of `g` at any points, and the equations are
missed, at the collocation points, by no more than for any other coefficients. -/
structure BestN (dim : ℕ) (u : Mtfc) (S : List (StepN dim)) (Q : List (EqnN dim)) (xi : List ℝ) (g : (Fin dim → ℝ) → ℝ) : Prop where
  free : FreeN u xi g
  smooth : ContDiff ℝ ∞ g
  values : ∀ N pts, evalN u S xi N pts = .ok ((List.range N).map fun j => buildN S g (pts j))
  least : ∀ xi' g', FreeN u xi' g' → sumSqN Q (pointsN dim u) (fun E => missN E fun _ => buildN S g) ≤
    sumSqN Q (pointsN dim u) fun E => missN E fun _ => buildN S g'

theorem fieldsY_free (K : ℕ) (y : ℕ → ℝ) (hK : 0 < K) : ∀ q < 1, fieldsY S K m φ y q = buildN S (combN m φ y) := by
  intro q hq
  obtain rfl : q = 0 := by omega
  refine congrArg (buildN S) (combN_congr fun i _ => ?_)
  simp [partOf, hK]

theorem GoodN.best (G : GoodN u S Q m φ) (hU : ∀ E ∈ Q, UsesN 1 E) {xi : List ℝ}
    (h : ∀ y : ℕ → ℝ, ((allPairs Q (pointsN dim u)).map fun t => missN t.1 (fieldsY S 1 m φ (coef xi)) t.2 ^ 2).sum ≤
      ((allPairs Q (pointsN dim u)).map fun t => missN t.1 (fieldsY S 1 m φ y) t.2 ^ 2).sum) : BestN dim u S Q xi (combN m φ (coef xi)) := by
  refine ⟨columns_free G.cols xi, combN_smooth G.cols.1 _, G.eval xi, fun xi' g' hg' => ?_⟩
  rw [freeN_unique hg' (columns_free G.cols xi')]
  have := h (coef xi')
  rw [sum_allPairs Q _ fun E P => missN E (fieldsY S 1 m φ (coef xi)) P, sum_allPairs Q _ fun E P => missN E (fieldsY S 1 m φ (coef xi')) P] at this
  refine (le_of_eq ?_).trans (this.trans (le_of_eq ?_))
  · exact sumSqN_congr fun E hE P => missN_congr (hU E hE) (fun q hq => (fieldsY_free 1 _ one_pos q hq).symm) P
  · exact sumSqN_congr fun E hE P => missN_congr (hU E hE) (fun q hq => fieldsY_free 1 _ one_pos q hq) P

theorem GoodN.affine (G : GoodN u S Q m φ) (hQ : ∀ E ∈ Q, E.prods = []) (K : ℕ) (pts : List (Fin dim → ℝ)) :
    ∀ t ∈ allPairs Q pts, ∀ y, missN t.1 (fieldsY S K m φ y) t.2 =
      (∑ j ∈ Finset.range (K * m), missPart S K m φ t (fun _ => 0) j * y j) + missN t.1 (fieldsY S K m φ fun _ => 0) t.2 := by
  intro t ht y
  obtain ⟨E, hE, ht⟩ := List.mem_flatMap.mp ht
  obtain ⟨P, -, rfl⟩ := List.mem_map.mp ht
  have h := G.tangent_lin K (E, P) (fun _ => 0) y
  have e : linN E (fieldsY S K m φ fun _ => 0) (fieldsY S K m φ y) P = missN E (fieldsY S K m φ y) P := by
    simp [linN, missN, hQ E hE]
  simp only [e] at h
  rw [← h]
  unfold tangent
  simp only [zero_sub, mul_neg, Finset.sum_neg_distrib, sub_neg_eq_add]
  ring

theorem GoodN.linear (G : GoodN u S Q m φ) (hQ : ∀ E ∈ Q, E.prods = []) (hU : ∀ E ∈ Q, UsesN 1 E) {lib : LinAlg} (hlib : LinAlgCorrect lib)
    {method : Method} (hm : method ≠ .other) (timer constants : Bool) (hc : constants = true → 3 ≤ u.x.length) :
    ∃ xi, solveLSN lib method timer constants u S Q = .ok (.arr xi) ∧ BestN dim u S Q xi (combN m φ (coef xi)) := by
  have hn : ([] : List String).Nodup := List.nodup_nil
  obtain ⟨x, h1, hf, hmin⟩ := linear_run hlib hm (G.affine hQ 1 (pointsN dim u)) (res := residualN [] u S Q) (z0 := zeroN [] m)
    (zeroN_proper hn m).1 (zeroN_proper hn m).2 (zeroN_length [] m) (args := u.x.map .arr) (L := if constants then [1, 2, 3] else [])
    (by
      cases constants
      · simp [GoodConstants]
      · have := hc rfl
        refine ⟨by simp, ?_⟩
        simp only [if_true, List.length_map]
        intro k hk
        simp at hk
        omega) (fun v hv => by rw [residualN_args, G.value hn hv]; rfl) timer
  cases x with
  | dict cls kvs => exact hf.elim
  | arr xi =>
    refine ⟨xi, ?_, G.best hU hmin⟩
    unfold solveLSN
    simp only [G.start, bind, Except.bind]
    exact h1

theorem GoodN.direct (G : GoodN u S Q m φ) (hQ : ∀ E ∈ Q, E.prods = []) (hU : ∀ E ∈ Q, UsesN 1 E) {lib : LinAlg} (hlib : LinAlgCorrect lib)
    {method : Method} (hm : method ≠ .other) :
    ∃ xi, solveDirectN lib method u S Q = .ok xi ∧ BestN dim u S Q xi (combN m φ (coef xi)) := by
  have hn : ([] : List String).Nodup := List.nodup_nil
  obtain ⟨xi, h1, -, hmin⟩ := direct_run hlib hm (G.affine hQ 1 (pointsN dim u)) (res := residualN [] u S Q) (z0 := zeroN [] m)
    (zeroN_proper hn m).1 (zeroN_length [] m) (zeroN_zero [] m) (args := []) (fun v hv => by rw [residualN, G.value hn hv]; rfl)
  refine ⟨xi, ?_, G.best hU hmin⟩
  unfold solveDirectN
  simp only [G.start, bind, Except.bind]
  exact h1

/-- A run of Newton's method for a system of equations for `K` unknown functions: `gs j q` is the free function of unknown `q` in iterate `j`, `xis`
are the returned coefficients. Each iterate minimises the equations linearised at the one before among all free functions, and the run stops
for one of the three reasons. -/
structure NewtonN (dim : ℕ) (u : Mtfc) (S : List (StepN dim)) (Q : List (EqnN dim)) (K : ℕ) (tol : ℝ) (maxIter : ℕ) (xis : List (List ℝ)) (it : ℕ)
    (gs : ℕ → ℕ → (Fin dim → ℝ) → ℝ) : Prop where
  count : it ≤ maxIter
  start : ∀ q < K, gs 0 q = fun _ => 0
  reach : ∀ j ≤ it, ∀ q < K, ∃ xi', FreeN u xi' (gs j q)
  free : ∀ q < K, FreeN u (xis.getD q []) (gs it q)
  smooth : ∀ j, ∀ q < K, ContDiff ℝ ∞ (gs j q)
  values : ∀ q < K, ∀ N pts, evalN u S (xis.getD q []) N pts = .ok ((List.range N).map fun j => buildN S (gs it q) (pts j))
  steps : ∀ j < it, ∀ h : ℕ → (Fin dim → ℝ) → ℝ, (∀ q < K, ∃ xi', FreeN u xi' (h q)) →
    sumSqN Q (pointsN dim u) (fun E => linN E (fun q => buildN S (gs j q)) fun q => buildN S (gs (j + 1) q)) ≤
      sumSqN Q (pointsN dim u) fun E => linN E (fun q => buildN S (gs j q)) fun q => buildN S (h q)
  stop : (∀ E ∈ Q, ∀ P ∈ pointsN dim u, |missN E (fun q => buildN S (gs it q)) P| ≤ tol) ∨ it = maxIter ∨
    ∃ j, it = j + 1 ∧ ∃ xis' : List (List ℝ), ∀ q < K, FreeN u (xis'.getD q []) (gs j q) ∧
      ∀ i, |(xis.getD q []).getD i 0 - (xis'.getD q []).getD i 0| ≤ tol

theorem mem_allPairs {pts : List (Fin dim → ℝ)} {E : EqnN dim} (hE : E ∈ Q) {P : Fin dim → ℝ} (hP : P ∈ pts) : (E, P) ∈ allPairs Q pts :=
  List.mem_flatMap.mpr ⟨E, hE, List.mem_map_of_mem hP⟩

theorem unknownsN_row {names : List String} {v : View String} (hv : SameForm (zeroN names m) v) (hn : names.Nodup) {q : ℕ} (hq : q < countN names) :
    ((unknownsN names v).getD q []).length = m := by
  by_cases h0 : names = []
  · subst h0
    cases v with
    | dict cls kvs => simp [zeroN, SameForm] at hv
    | arr xi =>
      have : q = 0 := by
        simp [countN] at hq
        exact hq
      subst this
      simp [zeroN, SameForm] at hv
      simp [unknownsN, hv]
  · rw [zeroN, if_neg h0] at hv
    cases v with
    | arr xi => simp [SameForm] at hv
    | dict cls kvs =>
      obtain ⟨-, hk⟩ := hv
      have hk1 : names = kvs.map (·.1) := by
        have := congrArg (List.map (·.1)) hk
        simpa [List.map_map, Function.comp_def] using this
      have hu : unknownsN names (.dict cls kvs) = kvs.map fun p => p.2.data := by
        unfold unknownsN
        have := find_key (hk1 ▸ hn)
        rw [← hk1] at this
        exact this
      have hc : countN names = kvs.length := by rw [countN, if_neg h0, hk1, List.length_map]
      rw [hu, List.getD, List.getElem?_eq_getElem (by rw [List.length_map, ← hc]; exact hq)]
      have hq' : q < kvs.length := by omega
      have : (kvs[q].1, kvs[q].2.shape, kvs[q].2.data.length) ∈ kvs.map fun p => (p.1, p.2.shape, p.2.data.length) :=
        List.mem_map_of_mem (List.getElem_mem hq')
      rw [← hk] at this
      simp at this
      simp [this]

theorem GoodN.newton (G : GoodN u S Q m φ) (hm0 : m ≠ 0) (hQ0 : Q ≠ []) (hpts : pointsN dim u ≠ []) {names : List String} (hn : names.Nodup)
    (hU : ∀ E ∈ Q, UsesN (countN names) E) {lib : LinAlg} (hlib : LinAlgCorrect lib) {method : Method}
    (hm : method ≠ .other) (tol : ℝ) (htol : tol < 1) (maxIter : ℕ) (timer : Bool) (fuel : ℕ) (hf : maxIter + 2 ≤ fuel) :
    ∃ v it gs, solveNLLSN lib method tol maxIter timer names u S Q fuel = .ok (some (v, ((it : ℕ) : ℤ))) ∧ SameForm (zeroN names m) v ∧
      NewtonN dim u S Q (countN names) tol maxIter (unknownsN names v) it gs := by
  have hne : allPairs Q (pointsN dim u) ≠ [] := by
    obtain ⟨E, hE⟩ := List.exists_mem_of_ne_nil Q hQ0
    obtain ⟨P, hP⟩ := List.exists_mem_of_ne_nil _ hpts
    exact List.ne_nil_of_mem (mem_allPairs hE hP)
  have hK : countN names ≠ 0 := by
    unfold countN
    split_ifs with h
    · exact one_ne_zero
    · exact fun e => h (List.length_eq_zero_iff.mp e)
  obtain ⟨it, xs, h1, hit, h0, hform, hst, hstop⟩ := view_run hlib hm (Nat.mul_ne_zero hK hm0) (G.differentiates (countN names))
    hne (res := residualN names u S Q) (z0 := zeroN names m) (zeroN_proper hn m).1 (zeroN_length names m) (args := []) (L := [])
    (by simp [GoodConstants]) (fun v hv => by rw [residualN, G.value hn hv]; rfl) tol htol maxIter timer fuel hf
  have hF : ∀ y, ∀ q < countN names, fieldsY S (countN names) m φ y q = buildN S (combN m φ fun i => y (q * m + i)) := by
    intro y q hq
    refine congrArg (buildN S) (combN_congr fun i _ => ?_)
    simp [partOf, hq]
  have hfree : ∀ j ≤ it, ∀ q < countN names, FreeN u ((unknownsN names (xs j)).getD q []) (combN m φ fun i => coef (entries (xs j)) (q * m + i)) := by
    intro j hj q hq
    have := columns_free G.cols ((unknownsN names (xs j)).getD q [])
    rwa [combN_congr fun i hi => ((unknownsN_entries hn (hform j hj)).2 q i hi).symm, combN_congr (z := fun i => coef (entries (xs j)) (q * m + i))
      fun i _ => by simp [partOf, hq]] at this
  refine ⟨xs it, it, fun j q => combN m φ fun i => coef (entries (xs j)) (q * m + i), ?_, hform it le_rfl, hit, ?_, fun j hj q hq =>
    ⟨_, hfree j hj q hq⟩, hfree it le_rfl, fun j q _ => combN_smooth G.cols.1 _, ?_, ?_, ?_⟩
  · unfold solveNLLSN
    simp only [G.start, bind, Except.bind]
    exact h1
  · intro q hq
    funext P
    simp only [h0, combN, zeroN_zero, zero_mul, Finset.sum_const_zero]
  · intro q hq N pts
    rw [G.eval, freeN_unique (columns_free G.cols _) (hfree it le_rfl q hq)]
  · intro j hj h hh
    choose! ξ hξ using hh
    have := hst j hj fun i => coef (ξ (i / m)) (i % m)
    simp only [G.tangent_lin] at this
    rw [sum_allPairs Q _ fun E P => linN E (fieldsY S (countN names) m φ (coef (entries (xs j))))
        (fieldsY S (countN names) m φ (coef (entries (xs (j + 1))))) P,
      sum_allPairs Q _ fun E P => linN E (fieldsY S (countN names) m φ (coef (entries (xs j))))
        (fieldsY S (countN names) m φ fun i => coef (ξ (i / m)) (i % m)) P] at this
    refine (le_of_eq ?_).trans (this.trans (le_of_eq ?_))
    · exact sumSqN_congr fun E hE P => linN_congr (hU E hE) (fun q hq => (hF _ q hq).symm) (fun q hq => (hF _ q hq).symm) P
    · refine sumSqN_congr fun E hE P => linN_congr (hU E hE) (fun q hq => hF _ q hq) (fun q hq => ?_) P
      rw [hF _ q hq, freeN_unique (hξ q hq) (columns_free G.cols _)]
      refine congrArg (buildN S) (combN_congr fun i hi => ?_)
      have e1 : (q * m + i) / m = q := by rw [Nat.mul_comm, Nat.mul_add_div (by omega), Nat.div_eq_of_lt hi, Nat.add_zero]
      have e2 : (q * m + i) % m = i := by rw [Nat.mul_comm, Nat.mul_add_mod, Nat.mod_eq_of_lt hi]
      rw [e1, e2]
  · rcases hstop with h | h | ⟨j, rfl, h⟩
    · left
      intro E hE P hP
      have := h (E, P) (mem_allPairs hE hP)
      rwa [missN_congr (hU E hE) fun q hq => hF _ q hq] at this
    · exact Or.inr (Or.inl h)
    · refine Or.inr (Or.inr ⟨j, rfl, unknownsN names (xs j), fun q hq => ⟨hfree j (by omega) q hq, fun i => ?_⟩⟩)
      by_cases hi : i < m
      · have a1 := (unknownsN_entries hn (hform (j + 1) le_rfl)).2 q i hi
        have a2 := (unknownsN_entries hn (hform j (by omega))).2 q i hi
        simp only [coef, partOf, hq, if_true] at a1 a2
        rw [← a1, ← a2]
        exact h _
      · have b1 := unknownsN_row (hform (j + 1) le_rfl) hn hq
        have b2 := unknownsN_row (hform j (by omega)) hn hq
        have z : ∀ l : List ℝ, l.length = m → l.getD i 0 = 0 := fun l hl => by
          rw [List.getD, List.getElem?_eq_none (by omega)]
          rfl
        rw [z _ b1, z _ b2, sub_zero, abs_zero]
        exact (abs_nonneg _).trans (h 0)

end Verif.Props
