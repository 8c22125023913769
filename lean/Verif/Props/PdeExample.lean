import Verif.Lemmas.TwoOps
import Verif.Props.QuadNewton
import Verif.Props.PdeProgram
import Verif.Props.Patch
import Verif.Props.Ls

/-!
# C100: the example programs for partial differential equations in two variables, from the object to the solution
-/

namespace Verif.Props

open Polynomial Verif Verif.Mem Verif.Py Verif.Np Verif.Spec Verif.Model Verif.Model.Py Verif.Model.LSq Verif.Model.Prog
open scoped ContDiff

/-! ## The columns of `H` -/

/-- A combination of functions of two variables. -/
noncomputable def comb (m : ℕ) (φ : ℕ → ℝ → ℝ → ℝ) (y : ℕ → ℝ) : ℝ → ℝ → ℝ := fun a b => ∑ i ∈ Finset.range m, y i * φ i a b

/-- The columns of `H` and its derivatives, for an object in two dimensions. -/
structure Cols2 (u : Mtfc) (m : ℕ) (φ : ℕ → ℝ → ℝ → ℝ) : Prop where
  smooth : ∀ i, Smooth2 (φ i)
  H : ∀ d e, d + e ≤ 8 → ∀ N X Y, ∃ A, u.Hjax N (points2 X Y) [d, e] false = .ok A ∧ A.cols = m ∧
    ∀ xi, ∀ j < N, npDot A xi j = dx^[d] (dy^[e] (comb m φ (coef xi))) (X j) (Y j)

theorem comb_smooth {m : ℕ} {φ : ℕ → ℝ → ℝ → ℝ} (h : ∀ i, Smooth2 (φ i)) (y : ℕ → ℝ) : Smooth2 (comb m φ y) :=
  .sum _ fun i _ => (h i).smul (y i)

theorem linOp_comb {T : (ℝ → ℝ → ℝ) → ℝ → ℝ → ℝ} (hT : LinOp T) {m : ℕ} {φ : ℕ → ℝ → ℝ → ℝ} (h : ∀ i, Smooth2 (φ i)) (y : ℕ → ℝ) :
    T (comb m φ y) = comb m (fun i => T (φ i)) y := by
  unfold comb
  rw [hT.sum _ fun i _ => (h i).smul (y i)]
  funext a b
  refine Finset.sum_congr rfl fun i _ => ?_
  rw [hT.smul (h i)]

theorem cols2_of_columns {u : Mtfc} {m : ℕ} {φ : ℕ → (Fin 2 → ℝ) → ℝ} (h : ColumnFns 2 u m φ) : Cols2 u m fun i x y => φ i ![x, y] := by
  have hs : ∀ i, Smooth2 fun x y => φ i ![x, y] := by
    intro i
    unfold Smooth2
    refine (h.1 i).comp (contDiff_pi.mpr fun k => ?_)
    fin_cases k
    · exact contDiff_fst
    · exact contDiff_snd
  refine ⟨hs, fun d e hde N X Y => ?_⟩
  obtain ⟨A, hA, -, hc, hv⟩ := h.2 N (points2 X Y) [d, e] rfl (by simpa using hde)
  refine ⟨A, hA, hc, fun xi j hj => ?_⟩
  rw [linOp_comb (LinOp.mixed d e) hs]
  unfold npDot comb
  rw [hc]
  refine Finset.sum_congr rfl fun i hi => ?_
  beta_reduce
  rw [hv j hj i (Finset.mem_range.mp hi), mul_comm, ← iterate_right, ← iterate_left]
  have hp : (fun k : Fin 2 => points2 X Y j k) = ![X j, Y j] := by
    funext k
    fin_cases k <;> rfl
  rw [hp]
  rfl

/-- The free function of a coefficient vector is determined by the products with `H`. -/
theorem free_unique {u : Mtfc} {xi : List ℝ} {g g' : ℝ → ℝ → ℝ} (h : Free u xi g) (h' : Free u xi g') : g = g' := by
  funext x y
  obtain ⟨A, hA, hv⟩ := h 1 (fun _ => x) fun _ => y
  obtain ⟨B, hB, hw⟩ := h' 1 (fun _ => x) fun _ => y
  rw [hA] at hB
  cases hB
  exact (hv 0 one_pos).symm.trans (hw 0 one_pos)

theorem Cols2.free {u : Mtfc} {m : ℕ} {φ : ℕ → ℝ → ℝ → ℝ} (B : Cols2 u m φ) (xi : List ℝ) : Free u xi (comb m φ (coef xi)) := by
  intro N X Y
  obtain ⟨A, hA, -, hv⟩ := B.H 0 0 (by omega) N X Y
  exact ⟨A, hA, hv xi⟩

/-! ## The expression -/

theorem mapM_values {ι : Type} {n : ℕ} {f : ι → Except Err (ℕ → ℝ)} {F : ι → ℕ → ℝ} : ∀ (l : List ι),
    (∀ i ∈ l, ∃ v, f i = .ok v ∧ ∀ j < n, v j = F i j) → ∃ vs, l.mapM f = .ok vs ∧ ∀ j < n, (vs.map fun v => v j) = l.map fun i => F i j
  | [], _ => ⟨[], rfl, fun _ _ => rfl⟩
  | i :: l, h => by
    obtain ⟨v, hv, e⟩ := h i (by simp)
    obtain ⟨vs, hvs, e2⟩ := mapM_values l fun k hk => h k (by simp [hk])
    refine ⟨v :: vs, ?_, fun j hj => ?_⟩
    · rw [List.mapM_cons, hv, hvs]
      rfl
    · simp only [List.map_cons, e j hj, e2 j hj]

theorem sideTerm_ok {c : SideCond} {k l n : ℕ} {S T : ℕ → ℝ} {f : ℕ → ℝ → Except Err (ℕ → ℝ)} {F : ℕ → ℝ → ℕ → ℝ}
    (h : ∀ t ∈ c.terms, ∃ v, f t.2.1 t.2.2 = .ok v ∧ ∀ j < n, v j = F t.2.1 t.2.2 j) :
    ∃ v, sideTerm c k l S T f = .ok v ∧ ∀ j < n, v j = iteratedDeriv k c.weight (S j) *
      (iteratedDeriv l c.data (T j) - (c.terms.map fun t => t.1 * F t.2.1 t.2.2 j).sum) := by
  obtain ⟨vs, hvs, e⟩ := mapM_values (n := n) (f := fun t : ℝ × ℕ × ℝ => do
    let v ← f t.2.1 t.2.2
    return fun j => t.1 * v j) (F := fun t j => t.1 * F t.2.1 t.2.2 j) c.terms fun t ht => by
      obtain ⟨v, hv, e⟩ := h t ht
      exact ⟨fun j => t.1 * v j, by rw [hv]; rfl, fun j hj => by beta_reduce; rw [e j hj]⟩
  refine ⟨_, by unfold sideTerm; rw [hvs]; rfl, fun j hj => ?_⟩
  rw [e j hj]

theorem exprD1_ok {u : Mtfc} {m : ℕ} {φ : ℕ → ℝ → ℝ → ℝ} (B : Cols2 u m φ) {xs : List SideCond} (hs : SmoothSides xs) (xi : List ℝ)
    {d e : ℕ} (h1 : d + e ≤ 8) (h2 : ∀ c ∈ xs, ∀ t ∈ c.terms, t.2.1 + e ≤ 8) (n : ℕ) (X Y : ℕ → ℝ) :
    ∃ v, exprD1 u xs xi d e n X Y = .ok v ∧ ∀ j < n, v j = dx^[d] (dy^[e] (full1 xs (comb m φ (coef xi)))) (X j) (Y j) := by
  obtain ⟨A, hA, -, hv⟩ := B.H d e h1 n X Y
  obtain ⟨cs, hcs, ec⟩ := mapM_values (n := n) (f := fun c => sideTerm c d e X Y fun r p => do
    let B ← u.Hjax n (points2 (fun _ => p) Y) [r, e] false
    return npDot B xi) xs fun c hc => sideTerm_ok (F := fun r p j => dx^[r] (dy^[e] (comb m φ (coef xi))) p (Y j)) fun t ht => by
      obtain ⟨A, hA, -, hv⟩ := B.H t.2.1 e (h2 c hc t ht) n (fun _ => t.2.2) Y
      exact ⟨_, by rw [hA]; rfl, hv xi⟩
  refine ⟨_, by unfold exprD1; rw [hA, hcs]; rfl, fun j hj => ?_⟩
  rw [hv xi j hj, ec j hj, full1_mixed hs (comb_smooth B.smooth _)]

theorem exprD_ok {u : Mtfc} {m : ℕ} {φ : ℕ → ℝ → ℝ → ℝ} (B : Cols2 u m φ) {P : TwoStep} (hx : SmoothSides P.xs) (hy : SmoothSides P.ys)
    {kx ky : ℕ} (hk : kx + ky ≤ 8) (ox : ∀ c ∈ P.xs, ∀ t ∈ c.terms, t.2.1 ≤ kx) (oy : ∀ c ∈ P.ys, ∀ t ∈ c.terms, t.2.1 ≤ ky) (xi : List ℝ)
    {d e : ℕ} (hd : d ≤ kx) (he : e ≤ ky) (n : ℕ) (X Y : ℕ → ℝ) :
    ∃ v, exprD u P xi d e n X Y = .ok v ∧ ∀ j < n, v j = dx^[d] (dy^[e] (full P (comb m φ (coef xi)))) (X j) (Y j) := by
  obtain ⟨a, ha, ea⟩ := exprD1_ok B hx xi (d := d) (e := e) (by omega) (fun c hc t ht => by have := ox c hc t ht; omega) n X Y
  obtain ⟨cs, hcs, ec⟩ := mapM_values (n := n) (f := fun c => sideTerm c e d Y X fun s p => exprD1 u P.xs xi d s n X fun _ => p) P.ys
    fun c hc => sideTerm_ok (F := fun s p j => dx^[d] (dy^[s] (full1 P.xs (comb m φ (coef xi)))) (X j) p) fun t ht =>
      exprD1_ok B hx xi (by have := oy c hc t ht; omega) (fun c' hc' t' ht' => by have := ox c' hc' t' ht'; have := oy c hc t ht; omega) n X _
  refine ⟨_, by unfold exprD; rw [ha, hcs]; rfl, fun j hj => ?_⟩
  rw [ea j hj, ec j hj, full_mixed hx hy (comb_smooth B.smooth _)]

/-- A problem the theorems apply to: an object with smooth columns, smooth weights and data, orders up to 8 in total. -/
structure Good2 (u : Mtfc) (P : TwoStep) (Q : Equation2) (m : ℕ) (φ : ℕ → ℝ → ℝ → ℝ) : Prop where
  cols : Cols2 u m φ
  xs : SmoothSides P.xs
  ys : SmoothSides P.ys
  orders : ∃ kx ky, kx + ky ≤ 8 ∧ Orders P Q kx ky

variable {u : Mtfc} {P : TwoStep} {Q : Equation2} {m : ℕ} {φ : ℕ → ℝ → ℝ → ℝ}

theorem Good2.eval (G : Good2 u P Q m φ) (xi : List ℝ) (n : ℕ) (X Y : ℕ → ℝ) :
    exprEval u P xi n X Y = .ok ((List.range n).map fun j => full P (comb m φ (coef xi)) (X j) (Y j)) := by
  obtain ⟨kx, ky, hk, ho⟩ := G.orders
  obtain ⟨v, hv, e⟩ := exprD_ok G.cols G.xs G.ys hk ho.xs ho.ys xi (Nat.zero_le kx) (Nat.zero_le ky) n X Y
  unfold exprEval
  rw [hv]
  exact congrArg Except.ok (List.map_congr_left fun j hj => e j (List.mem_range.mp hj))

theorem Good2.op (G : Good2 u P Q m φ) {l : List OpTerm} (hl : ∀ t ∈ l, t ∈ Q.lin ++ Q.fac1 ++ Q.fac2) (xi : List ℝ) (n : ℕ) (X Y : ℕ → ℝ) :
    ∃ v, opD u P xi l n X Y = .ok v ∧ ∀ j < n, v j = opVal l (full P (comb m φ (coef xi))) (X j) (Y j) := by
  obtain ⟨kx, ky, hk, ho⟩ := G.orders
  obtain ⟨vs, hvs, e⟩ := mapM_values (n := n) (f := fun t : OpTerm => do
    let v ← exprD u P xi t.d t.e n X Y
    return fun j => t.coef (X j) (Y j) * v j)
    (F := fun t j => t.coef (X j) (Y j) * dx^[t.d] (dy^[t.e] (full P (comb m φ (coef xi)))) (X j) (Y j)) l fun t ht => by
      obtain ⟨v, hv, e⟩ := exprD_ok G.cols G.xs G.ys hk ho.xs ho.ys xi (ho.terms t (hl t ht)).1 (ho.terms t (hl t ht)).2 n X Y
      exact ⟨_, by rw [hv]; rfl, fun j hj => by rw [e j hj]⟩
  refine ⟨_, by unfold opD; rw [hvs]; rfl, fun j hj => ?_⟩
  rw [e j hj]
  rfl

theorem Good2.res (G : Good2 u P Q m φ) (X Y xi : List ℝ) :
    eqRes u P Q X Y xi = .ok ((pairs X Y).map fun t => missOf Q (full P (comb m φ (coef xi))) t.1 t.2) := by
  obtain ⟨a, ha, ea⟩ := G.op (l := Q.lin) (fun t h => by simp [h]) xi X.length (fun j => X.getD j 0) fun j => Y.getD j 0
  obtain ⟨b, hb, eb⟩ := G.op (l := Q.fac1) (fun t h => by simp [h]) xi X.length (fun j => X.getD j 0) fun j => Y.getD j 0
  obtain ⟨c, hc, ec⟩ := G.op (l := Q.fac2) (fun t h => by simp [h]) xi X.length (fun j => X.getD j 0) fun j => Y.getD j 0
  unfold eqRes
  simp only [ha, hb, hc, bind, Except.bind, pairs, List.map_map, Function.comp_def]
  refine congrArg Except.ok (List.map_congr_left fun j hj => ?_)
  have hj := List.mem_range.mp hj
  rw [ea j hj, eb j hj, ec j hj]
  rfl

theorem Good2.start (G : Good2 u P Q m φ) : startXi u P Q = .ok (List.replicate m 0) := by
  obtain ⟨A, hA, hc, -⟩ := G.cols.H 0 0 (by omega) (u.x.getD 0 []).length (fun j => (u.x.getD 0 []).getD j 0) fun j => (u.x.getD 1 []).getD j 0
  unfold startXi
  simp only [hA, G.res, bind, Except.bind, hc]
  rfl

/-- The collocation points of the object. -/
def points (u : Mtfc) : List (ℝ × ℝ) := pairs (u.x.getD 0 []) (u.x.getD 1 [])

theorem Good2.residual (G : Good2 u P Q m φ) (pass_x : Bool) (xi : List ℝ) : eqResidual u P Q (.arr xi :: passedX pass_x u) =
    (points u).map fun t => missOf Q (full P (comb m φ (coef xi))) t.1 t.2 := by
  cases pass_x
  · simp only [passedX, eqResidual, G.res, orEmpty, points, Bool.false_eq_true, if_false]
  · simp only [passedX, eqResidual, G.res, orEmpty, points, if_true]

/-! ## The residual as a function of the coefficients -/

theorem opVal_linOp (l : List OpTerm) (x y : ℝ) {f g : ℝ → ℝ → ℝ} (hf : Smooth2 f) (hg : Smooth2 g) :
    opVal l (fun x y => f x y + g x y) x y = opVal l f x y + opVal l g x y := by
  unfold opVal
  induction l with
  | nil => simp
  | cons t l ih =>
    simp only [List.map_cons, List.sum_cons, ih]
    rw [(LinOp.mixed t.d t.e).add hf hg]
    ring

theorem opVal_comb (l : List OpTerm) (x y : ℝ) {ψ : ℕ → ℝ → ℝ → ℝ} (h : ∀ i, Smooth2 (ψ i)) (c : ℕ → ℝ) :
    opVal l (comb m ψ c) x y = ∑ i ∈ Finset.range m, c i * opVal l (ψ i) x y := by
  unfold opVal
  induction l with
  | nil => simp
  | cons t l ih =>
    simp only [List.map_cons, List.sum_cons, ih, mul_add, Finset.sum_add_distrib]
    rw [linOp_comb (LinOp.mixed t.d t.e) h, comb, Finset.mul_sum]
    refine congrArg (· + _) (Finset.sum_congr rfl fun i _ => by ring)

theorem full_comb (G : Good2 u P Q m φ) (c : ℕ → ℝ) :
    full P (comb m φ c) = fun x y => full P (fun _ _ => 0) x y + comb m (fun i => homP P (φ i)) c x y := by
  have := full_add (P := P) G.xs (Smooth2.const 0) (comb_smooth (m := m) G.cols.smooth c)
  simp only [zero_add] at this
  rw [← linOp_comb (homP_linOp G.xs G.ys) G.cols.smooth]
  exact this

theorem opVal_full (G : Good2 u P Q m φ) (l : List OpTerm) (c : ℕ → ℝ) (x y : ℝ) :
    opVal l (full P (comb m φ c)) x y = aff m (opVal l (full P fun _ _ => 0) x y) (fun i => opVal l (homP P (φ i)) x y) c := by
  have hs : ∀ i, Smooth2 (homP P (φ i)) := fun i => (homP_linOp G.xs G.ys).smooth (G.cols.smooth i)
  rw [full_comb G, opVal_linOp l x y (full_smooth G.xs G.ys (Smooth2.const 0)) (comb_smooth hs c), opVal_comb l x y hs]
  rfl

/-- The residual in the form of `Quad`. -/
noncomputable def quadOf (P : TwoStep) (Q : Equation2) (m : ℕ) (φ : ℕ → ℝ → ℝ → ℝ) : Quad (ℝ × ℝ) where
  m := m
  D0 t := opVal Q.lin (full P fun _ _ => 0) t.1 t.2
  E0 t := opVal Q.fac1 (full P fun _ _ => 0) t.1 t.2
  F0 t := opVal Q.fac2 (full P fun _ _ => 0) t.1 t.2
  c t := Q.source t.1 t.2
  D i t := opVal Q.lin (homP P (φ i)) t.1 t.2
  E i t := opVal Q.fac1 (homP P (φ i)) t.1 t.2
  F i t := opVal Q.fac2 (homP P (φ i)) t.1 t.2

theorem quadOf_miss (G : Good2 u P Q m φ) (c : ℕ → ℝ) (t : ℝ × ℝ) :
    (quadOf P Q m φ).miss c t = missOf Q (full P (comb m φ c)) t.1 t.2 := by
  unfold missOf
  rw [opVal_full G, opVal_full G, opVal_full G]
  rfl

theorem quadOf_lin (G : Good2 u P Q m φ) (c c' : ℕ → ℝ) (t : ℝ × ℝ) :
    (quadOf P Q m φ).lin c c' t = linOf Q (full P (comb m φ c)) (full P (comb m φ c')) t.1 t.2 := by
  unfold linOf
  rw [opVal_full G, opVal_full G, opVal_full G, opVal_full G, opVal_full G]
  rfl

/-! ## Linear equations -/

theorem comb_congr {y z : ℕ → ℝ} (h : ∀ i < m, y i = z i) : comb m φ y = comb m φ z := by
  funext a b
  exact Finset.sum_congr rfl fun i hi => by rw [h i (Finset.mem_range.mp hi)]

/-- The coefficients as a list. -/
theorem exists_list (m : ℕ) (y : ℕ → ℝ) : ∃ xi : List ℝ, xi.length = m ∧ ∀ i < m, coef xi i = y i := by
  refine ⟨(List.range m).map y, by simp, fun i hi => ?_⟩
  simp [coef, List.getD, hi]

theorem map_range_pts {β : Type} (l : List (ℝ × ℝ)) (f : ℝ × ℝ → β) : (List.range l.length).map (fun j => f (l.getD j 0)) = l.map f := by
  refine List.ext_getElem (by simp) fun i h1 h2 => ?_
  have hi : i < l.length := by simpa using h1
  simp [List.getD, hi]

theorem sum_range_pts (l : List (ℝ × ℝ)) (f : ℝ × ℝ → ℝ) : ∑ j ∈ Finset.range l.length, f (l.getD j 0) = (l.map f).sum := by
  rw [← map_range_pts, Finset.sum_range, ← List.sum_ofFn]
  congr 1
  refine List.ext_getElem (by simp) fun i h1 h2 => ?_
  have hi : i < l.length := by simpa using h1
  simp [List.getD, hi]

/-- The matrix of a linear problem. -/
noncomputable def matOf (u : Mtfc) (P : TwoStep) (Q : Equation2) (φ : ℕ → ℝ → ℝ → ℝ) (i j : ℕ) : ℝ :=
  opVal Q.lin (homP P (φ j)) ((points u).getD i 0).1 ((points u).getD i 0).2

/-- The constant part of a linear problem. -/
noncomputable def vecOf2 (u : Mtfc) (P : TwoStep) (Q : Equation2) (i : ℕ) : ℝ :=
  opVal Q.lin (full P fun _ _ => 0) ((points u).getD i 0).1 ((points u).getD i 0).2 -
    Q.source ((points u).getD i 0).1 ((points u).getD i 0).2

theorem Good2.missLin (G : Good2 u P Q m φ) (hQ : Q.fac1 = []) (c : ℕ → ℝ) (i : ℕ) :
    missOf Q (full P (comb m φ c)) ((points u).getD i 0).1 ((points u).getD i 0).2 =
      (∑ j ∈ Finset.range m, matOf u P Q φ i j * c j) + vecOf2 u P Q i := by
  unfold missOf
  have : ∀ z x y, opVal [] z x y = 0 := fun _ _ _ => rfl
  rw [opVal_full G, hQ, this, zero_mul, add_zero, aff, vecOf2]
  have e : ∑ j ∈ Finset.range m, matOf u P Q φ i j * c j =
      ∑ j ∈ Finset.range m, c j * opVal Q.lin (homP P (φ j)) ((points u).getD i 0).1 ((points u).getD i 0).2 :=
    Finset.sum_congr rfl fun j _ => mul_comm _ _
  rw [e]
  ring

theorem Good2.affine (G : Good2 u P Q m φ) (hQ : Q.fac1 = []) (pass_x : Bool) :
    AffineIn (eqResidual u P Q) (.arr (List.replicate m 0)) (passedX pass_x u) (points u).length (matOf u P Q φ) (vecOf2 u P Q) := by
  intro v hv
  cases v with
  | dict cls kvs => exact hv.elim
  | arr xi =>
    have hl : m = xi.length := by simpa [SameForm] using hv
    rw [G.residual, ← map_range_pts (points u)]
    refine List.map_congr_left fun j _ => ?_
    rw [G.missLin hQ]
    simp only [entries, ← hl]
    rfl

/-- The coefficients `xi` give the free function `g`, the program then computes the expression of `g` at any points, and the equation is
missed, at the collocation points, by no more than for any other coefficients. -/
structure Best2 (u : Mtfc) (P : TwoStep) (Q : Equation2) (xi : List ℝ) (g : ℝ → ℝ → ℝ) : Prop where
  free : Free u xi g
  smooth : Smooth2 g
  values : ∀ N X Y, exprEval u P xi N X Y = .ok ((List.range N).map fun j => full P g (X j) (Y j))
  least : ∀ xi' g', Free u xi' g' → sumSq2 (points u) (missOf Q (full P g)) ≤ sumSq2 (points u) (missOf Q (full P g'))

theorem Good2.best (G : Good2 u P Q m φ) {xi : List ℝ}
    (h : ∀ y : List ℝ, y.length = m → sumSq2 (points u) (missOf Q (full P (comb m φ (coef xi)))) ≤
      sumSq2 (points u) (missOf Q (full P (comb m φ (coef y))))) : Best2 u P Q xi (comb m φ (coef xi)) := by
  refine ⟨G.cols.free xi, comb_smooth G.cols.smooth _, G.eval xi, fun xi' g' hg' => ?_⟩
  obtain ⟨y, hy, e⟩ := exists_list m (coef xi')
  rw [free_unique hg' (G.cols.free xi'), ← comb_congr e]
  exact h y hy

theorem Good2.linear (G : Good2 u P Q m φ) (hQ : Q.fac1 = []) {lib : LinAlg} (hlib : LinAlgCorrect lib) {method : Method}
    (hm : method ≠ .other) (timer pass_x : Bool) :
    ∃ xi, solveLS2 lib method timer pass_x u P Q = .ok (.arr xi) ∧ Best2 u P Q xi (comb m φ (coef xi)) := by
  obtain ⟨x, hx1, ⟨hform, hmin⟩, -⟩ := C35_ls_partial lib hlib method hm none timer (eqResidual u P Q) (.arr (List.replicate m 0))
    (passedX pass_x u) (if pass_x then [1, 2] else []) (by cases pass_x <;> simp [GoodConstants, passedX]) trivial trivial (points u).length _ _
    (G.affine hQ pass_x) (Or.inl rfl)
  cases x with
  | dict cls kvs => exact hform.elim
  | arr xi =>
    refine ⟨xi, ?_, G.best fun y hy => ?_⟩
    · unfold solveLS2
      simp only [G.start, bind, Except.bind]
      exact hx1
    · have := hmin (.arr y) (by simp [SameForm, hy])
      rw [G.residual, G.residual] at this
      simpa [normSq, sumSq2, List.map_map, Function.comp_def] using this

theorem Good2.direct (G : Good2 u P Q m φ) (hQ : Q.fac1 = []) {lib : LinAlg} (hlib : LinAlgCorrect lib) {method : Method}
    (hm : method ≠ .other) : ∃ xi, solveDirect2 lib method u P Q = .ok xi ∧ Best2 u P Q xi (comb m φ (coef xi)) := by
  obtain ⟨xi, h1, h2⟩ := lsFun_affine hlib hm (G.affine hQ true) (J := none) (Or.inl rfl) (v := .arr (List.replicate m 0)) (by simp [SameForm])
    trivial
  have hlen : (entries (.arr (List.replicate m 0) : View Unit)).length = m := by simp [entries]
  rw [hlen] at h2
  have hvec : ∀ y : ℕ → ℝ, missSq (points u).length m (matOf u P Q φ) y
      (vec ((eqResidual u P Q (.arr (List.replicate m 0) :: passedX true u)).map (- ·))) = sumSq2 (points u) (missOf Q (full P (comb m φ y))) := by
    intro y
    unfold missSq sumSq2
    rw [← sum_range_pts (points u) fun t => missOf Q (full P (comb m φ y)) t.1 t.2 ^ 2]
    refine Finset.sum_congr rfl fun i hi => ?_
    have hi := Finset.mem_range.mp hi
    rw [G.missLin hQ, G.residual, vec, ← map_range_pts (points u)]
    simp only [List.map_map, List.getD, List.getElem?_map, List.getElem?_range hi, Option.map_some, Option.getD_some, Function.comp]
    have e := G.missLin hQ (coef (List.replicate m 0)) i
    simp only [List.getD] at e
    rw [e]
    have z : ∑ j ∈ Finset.range m, matOf u P Q φ i j * coef (List.replicate m 0) j = 0 := by
      refine Finset.sum_eq_zero fun j hj => ?_
      have : coef (List.replicate m 0) j = 0 := by
        simp [coef, List.getD, Finset.mem_range.mp hj]
      rw [this, mul_zero]
    rw [z]
    ring
  refine ⟨xi, ?_, G.best fun y _ => ?_⟩
  · unfold solveDirect2
    simp only [G.start, bind, Except.bind]
    exact h1
  · have := h2.min (coef y)
    rw [hvec, hvec] at this
    exact this

/-! ## Nonlinear equations -/

/-- A run of Newton's method for the equation: `gs j` are the free functions of the iterates, each minimises the equation linearised at the one
before among all free functions, and the run stops for one of the three reasons. -/
structure Newton2 (u : Mtfc) (P : TwoStep) (Q : Equation2) (tol : ℝ) (maxIter : ℕ) (xi : List ℝ) (it : ℕ) (gs : ℕ → ℝ → ℝ → ℝ) : Prop where
  count : it ≤ maxIter
  start : gs 0 = fun _ _ => 0
  reach : ∀ j ≤ it, ∃ xi', Free u xi' (gs j)
  free : Free u xi (gs it)
  smooth : ∀ j, Smooth2 (gs j)
  values : ∀ N X Y, exprEval u P xi N X Y = .ok ((List.range N).map fun j => full P (gs it) (X j) (Y j))
  steps : ∀ j < it, ∀ xi' g', Free u xi' g' → sumSq2 (points u) (linOf Q (full P (gs j)) (full P (gs (j + 1)))) ≤
    sumSq2 (points u) (linOf Q (full P (gs j)) (full P g'))
  stop : (∀ t ∈ points u, |missOf Q (full P (gs it)) t.1 t.2| ≤ tol) ∨ it = maxIter ∨
    ∃ j, it = j + 1 ∧ ∃ xi', Free u xi' (gs j) ∧ ∀ i, |xi.getD i 0 - xi'.getD i 0| ≤ tol

theorem Good2.newton (G : Good2 u P Q m φ) (hm0 : m ≠ 0) (hpts : points u ≠ []) {lib : LinAlg} (hlib : LinAlgCorrect lib) {method : Method}
    (hm : method ≠ .other) (tol : ℝ) (htol : tol < 1) (maxIter : ℕ) (timer : Bool) (fuel : ℕ) (hf : maxIter + 2 ≤ fuel) :
    ∃ xi it gs, solveNLLS2 lib method tol maxIter timer u P Q fuel = .ok (some (.arr xi, ((it : ℕ) : ℤ))) ∧
      Newton2 u P Q tol maxIter xi it gs := by
  have hval : ∀ xi, eqResidual u P Q (.arr xi :: []) = (points u).map ((quadOf P Q m φ).miss (coef xi)) := by
    intro xi
    have := G.residual false xi
    simp only [passedX, Bool.false_eq_true, if_false] at this
    rw [this]
    exact List.map_congr_left fun t _ => (quadOf_miss G _ t).symm
  obtain ⟨it, ξ, h1, hit, h0, hl, hst, hstop⟩ := quad_run hlib hm (q := quadOf P Q m φ) hm0 hpts (L := []) (by simp [GoodConstants]) hval tol htol
    maxIter timer fuel hf
  refine ⟨ξ it, it, fun j => comb m φ (coef (ξ j)), ?_, hit, ?_, fun j _ => ⟨_, G.cols.free _⟩, G.cols.free _,
    fun j => comb_smooth G.cols.smooth _, G.eval _, fun j hj xi' g' hg' => ?_, ?_⟩
  · unfold solveNLLS2
    simp only [G.start, bind, Except.bind]
    exact h1
  · funext a b
    refine Finset.sum_eq_zero fun i hi => ?_
    have : coef (ξ 0) i = 0 := by
      rw [h0]
      show (List.replicate m (0 : ℝ)).getD i 0 = 0
      simp [List.getD, Finset.mem_range.mp hi]
    rw [this, zero_mul]
  · have := hst j hj (coef xi')
    simp only [quadOf_lin G] at this
    rw [free_unique hg' (G.cols.free xi')]
    exact this
  · rcases hstop with h | h | ⟨j, rfl, h⟩
    · left
      intro t ht
      rw [← quadOf_miss G]
      exact h t ht
    · exact Or.inr (Or.inl h)
    · exact Or.inr (Or.inr ⟨j, rfl, ξ j, G.cols.free _, h⟩)

end Verif.Props
