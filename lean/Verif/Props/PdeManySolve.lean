import Verif.Props.PdeMany
import Verif.Props.PdeErrors

/-!
# C103: programs that solve systems of partial differential equations in any number of variables
-/

namespace Verif.Props

open Set Verif Verif.Mem Verif.Py Verif.Np Verif.Spec Verif.Model Verif.Model.Py Verif.Model.LSq Verif.Model.Prog Verif.Lemmas.LSq
open scoped ContDiff

/-- The orders of derivation in the expression and in the equations are at most 8 in total. -/
def AllOrders {dim : ℕ} (S : List (StepN dim)) (Q : List (EqnN dim)) : Prop :=
  OrdersN S (fun _ => 0) ∧ ∀ E ∈ Q, (∀ t ∈ E.lin, OrdersN S t.ord) ∧ ∀ t ∈ E.prods, OrdersN S t.1.ord ∧ OrdersN S t.2.ord

theorem goodN_of_init {n : List ℕ} {nC : MNCArg} {deg dim : ℕ} (hdim : 1 ≤ dim) {basis backend : String} {x0 xf : Option (List ℝ)} {w : ℕ → ℕ → ℝ}
    {b : ℕ → ℝ} {u : Mtfc} (hu : mtfcInit n nC deg dim basis x0 xf backend w b = .ok u)
    (hb : basis = "CP" ∨ basis = "LeP" ∨ basis = "FS" ∨ (basis ≠ "ELMReLU" ∧ ValidRemoval (deg + 1) u.nCl ∧ ∀ k < dim, u.x0 k ≠ u.xf k))
    {S : List (StepN dim)} {Q : List (EqnN dim)} (hS : SmoothSteps S) (ho : AllOrders S Q) : ∃ m φ, GoodN u S Q m φ := by
  obtain ⟨m, φ, h⟩ := mtfc_columns hdim hu hb
  exact ⟨m, φ, h, hS, ho.1, ho.2⟩

theorem x_length {n : List ℕ} {nC : MNCArg} {deg dim : ℕ} {basis backend : String} {x0 xf : Option (List ℝ)} {w : ℕ → ℕ → ℝ}
    {b : ℕ → ℝ} {u : Mtfc} (hu : mtfcInit n nC deg dim basis x0 xf backend w b = .ok u) : u.x.length = dim := by
  obtain ⟨-, -, -, -, -, -, -, -, -, -, -, hxx⟩ := mtfcInit_ok hu
  rw [hxx]
  simp

/-- **C103, linear equations with `LS`.** For every number of variables, every basis but `ELMReLU`, every expression of any number of steps
with smooth weights and data, every system of linear equations for one unknown function, orders of derivation up to 8 in total, with and without
`constant_arg_nums=[1,2,3]` (the latter for three variables or more): the program returns coefficients. The values of the returned expression are
those of one smooth function, `buildN S g`, at any points; among all functions the object can give, it has the least sum of squared
defects of the equations at the collocation points. -/
theorem C103_linear (lib : LinAlg) (hlib : LinAlgCorrect lib) (method : Method) (hm : method ≠ .other) (n : List ℕ) (nC : MNCArg) (deg dim : ℕ)
    (hdim : 1 ≤ dim) (basis backend : String) (x0 xf : Option (List ℝ)) (w : ℕ → ℕ → ℝ) (b : ℕ → ℝ) (u : Mtfc)
    (hu : mtfcInit n nC deg dim basis x0 xf backend w b = .ok u)
    (hb : basis = "CP" ∨ basis = "LeP" ∨ basis = "FS" ∨ (basis ≠ "ELMReLU" ∧ ValidRemoval (deg + 1) u.nCl ∧ ∀ k < dim, u.x0 k ≠ u.xf k))
    (S : List (StepN dim)) (Q : List (EqnN dim)) (hS : SmoothSteps S) (ho : AllOrders S Q) (hQ : ∀ E ∈ Q, E.prods = []) (hU : ∀ E ∈ Q, UsesN 1 E)
    (timer constants : Bool) (hc : constants = true → 3 ≤ dim) :
    ∃ xi g, solveLSN lib method timer constants u S Q = .ok (.arr xi) ∧ BestN dim u S Q xi g := by
  obtain ⟨m, φ, G⟩ := goodN_of_init hdim hu hb hS ho
  obtain ⟨xi, h1, h2⟩ := G.linear hQ hU hlib hm timer constants fun h => (x_length hu).symm ▸ hc h
  exact ⟨xi, _, h1, h2⟩

/-- **C103, linear equations without `LS`.** The same for the programs that call `jacfwd` and `pinv` or `lstsq` themselves. -/
theorem C103_direct (lib : LinAlg) (hlib : LinAlgCorrect lib) (method : Method) (hm : method ≠ .other) (n : List ℕ) (nC : MNCArg) (deg dim : ℕ)
    (hdim : 1 ≤ dim) (basis backend : String) (x0 xf : Option (List ℝ)) (w : ℕ → ℕ → ℝ) (b : ℕ → ℝ) (u : Mtfc)
    (hu : mtfcInit n nC deg dim basis x0 xf backend w b = .ok u)
    (hb : basis = "CP" ∨ basis = "LeP" ∨ basis = "FS" ∨ (basis ≠ "ELMReLU" ∧ ValidRemoval (deg + 1) u.nCl ∧ ∀ k < dim, u.x0 k ≠ u.xf k))
    (S : List (StepN dim)) (Q : List (EqnN dim)) (hS : SmoothSteps S) (ho : AllOrders S Q) (hQ : ∀ E ∈ Q, E.prods = [])
    (hU : ∀ E ∈ Q, UsesN 1 E) : ∃ xi g, solveDirectN lib method u S Q = .ok xi ∧ BestN dim u S Q xi g := by
  obtain ⟨m, φ, G⟩ := goodN_of_init hdim hu hb hS ho
  obtain ⟨xi, h1, h2⟩ := G.direct hQ hU hlib hm
  exact ⟨xi, _, h1, h2⟩

/-- The number of collocation points. -/
theorem pointsN_ne {n : List ℕ} (hn : ∀ v ∈ n, 2 ≤ v) {nC : MNCArg} {deg dim : ℕ} (hdim : 1 ≤ dim) {basis backend : String} {x0 xf : Option (List ℝ)}
    {w : ℕ → ℕ → ℝ} {b : ℕ → ℝ} {u : Mtfc} (hu : mtfcInit n nC deg dim basis x0 xf backend w b = .ok u) (hx : ∀ k < dim, u.x0 k ≠ u.xf k) :
    (u.x.getD 0 []).length = n.prod ∧ pointsN dim u ≠ [] := by
  have hlen := (C14_grid n nC deg dim hdim basis backend x0 xf w b u hu
    (fun v hv => ⟨by have := hn v hv; omega, fun _ => hn v hv⟩) hx).2.2.2.1
  have e := (hlen 0 (by omega)).2
  refine ⟨e, fun h => ?_⟩
  have : n.prod = 0 := by
    rw [← e]
    simpa [pointsN] using h
  have := hn _ (List.prod_eq_zero_iff.mp this)
  omega

/-- **C103, nonlinear systems with `NLLS`.** For systems of equations with products of two factors, for one unknown function (`names` empty, an array of
coefficients) or several (a TFCDict with those names): if `H` has at least one column and there are at least two points in each dimension, the
program returns after at most `maxIter` steps. Every step minimises the equations linearised at the functions before, among all functions
the object can give, and the run ends for one of the three reasons of `NewtonN`. -/
theorem C103_newton (lib : LinAlg) (hlib : LinAlgCorrect lib) (method : Method) (hm : method ≠ .other) (n : List ℕ) (hn : ∀ v ∈ n, 2 ≤ v)
    (nC : MNCArg) (deg dim : ℕ) (hdim : 1 ≤ dim) (basis backend : String) (x0 xf : Option (List ℝ)) (w : ℕ → ℕ → ℝ) (b : ℕ → ℝ) (u : Mtfc)
    (hu : mtfcInit n nC deg dim basis x0 xf backend w b = .ok u)
    (hb : basis = "CP" ∨ basis = "LeP" ∨ basis = "FS" ∨ (basis ≠ "ELMReLU" ∧ ValidRemoval (deg + 1) u.nCl)) (hx : ∀ k < dim, u.x0 k ≠ u.xf k)
    (hc : ∃ N pts A, u.Hjax N (coords (dim := dim) pts) (List.ofFn fun _ : Fin dim => 0) false = .ok A ∧ A.cols ≠ 0)
    (S : List (StepN dim)) (Q : List (EqnN dim)) (hS : SmoothSteps S) (ho : AllOrders S Q) (hQ : Q ≠ []) (names : List String) (hnd : names.Nodup)
    (hU : ∀ E ∈ Q, UsesN (countN names) E) (tol : ℝ) (htol : tol < 1) (maxIter : ℕ) (timer : Bool) (fuel : ℕ) (hf : maxIter + 2 ≤ fuel) :
    ∃ m v it gs, solveNLLSN lib method tol maxIter timer names u S Q fuel = .ok (some (v, ((it : ℕ) : ℤ))) ∧ SameForm (zeroN names m) v ∧
      NewtonN dim u S Q (countN names) tol maxIter (unknownsN names v) it gs := by
  obtain ⟨m, φ, G⟩ := goodN_of_init hdim hu (hb.imp_right (Or.imp_right (Or.imp_right fun h => ⟨h.1, h.2, hx⟩))) hS ho
  obtain ⟨N, pts, A, hA, hc⟩ := hc
  obtain ⟨B, hB, e, -⟩ := columns_H G.cols (d := fun _ => 0) (by simp) N pts
  rw [hA] at hB
  cases hB
  exact ⟨m, G.newton (e ▸ hc) hQ (pointsN_ne hn hdim hu hx).2 hnd hU hlib hm tol htol maxIter timer fuel hf⟩

/-! ## Between the points -/

theorem change_bound {dim : ℕ} {R : (Fin dim → ℝ) → ℝ} (hR : ContDiff ℝ ∞ R) {a b : Fin dim → ℝ} {L : Fin dim → ℝ}
    (hL : ∀ P, (∀ k, P k ∈ Icc (a k) (b k)) → ∀ k, |partialDeriv k R P| ≤ L k) {P T : Fin dim → ℝ} (hP : ∀ k, P k ∈ Icc (a k) (b k))
    (hT : ∀ k, T k ∈ Icc (a k) (b k)) (s : Finset (Fin dim)) :
    |R (fun k => if k ∈ s then P k else T k) - R T| ≤ ∑ k ∈ s, L k * |P k - T k| := by
  induction s using Finset.induction_on with
  | empty => simp
  | insert i s hi ih =>
    rw [Finset.sum_insert hi]
    obtain ⟨F, hF⟩ : ∃ F : Fin dim → ℝ, F = fun k => if k ∈ s then P k else T k := ⟨_, rfl⟩
    have hF' : ∀ k, F k ∈ Icc (a k) (b k) := fun k => by
      rw [hF]
      beta_reduce
      split_ifs
      · exact hP k
      · exact hT k
    have e1 : (fun k => if k ∈ insert i s then P k else T k) = Function.update F i (P i) := by
      funext k
      by_cases h : k = i
      · subst h
        simp
      · rw [Function.update_of_ne h, hF]
        simp [h]
    have e2 : F = Function.update F i (T i) := by
      funext k
      by_cases h : k = i
      · subst h
        simp [hF, hi]
      · rw [Function.update_of_ne h]
    have hd : ∀ t, HasDerivAt (fun t => R (Function.update F i t)) (partialDeriv i R (Function.update F i t)) t := by
      intro t
      have hdif : DifferentiableAt ℝ (fun t => R (Function.update F i t)) t :=
        (hR.differentiable (by simp) _).comp t (hasDerivAt_update F i t).differentiableAt
      have := hdif.hasDerivAt
      unfold partialDeriv
      simpa using this
    have m1 := (convex_Icc (a i) (b i)).norm_image_sub_le_of_norm_deriv_le (f := fun t => R (Function.update F i t)) (C := L i)
      (fun t _ => (hd t).differentiableAt) (fun t ht => by
        rw [(hd t).deriv]
        refine hL _ (fun k => ?_) i
        by_cases h : k = i
        · subst h
          simpa using ht
        · rw [Function.update_of_ne h]
          exact hF' k) (hT i) (hP i)
    rw [Real.norm_eq_abs, Real.norm_eq_abs] at m1
    rw [← hF] at ih
    rw [e1]
    rw [← e2] at m1
    calc |R (Function.update F i (P i)) - R T| = |(R (Function.update F i (P i)) - R F) + (R F - R T)| := by ring_nf
      _ ≤ |R (Function.update F i (P i)) - R F| + |R F - R T| := abs_add_le _ _
      _ ≤ _ := by linarith

/-- `R` is at most `ε` at the collocation points, and its partial derivatives are bounded by `L` on the domain. -/
def SmallAtN (dim : ℕ) (u : Mtfc) (R : (Fin dim → ℝ) → ℝ) (ε : ℝ) (L : Fin dim → ℝ) : Prop :=
  (∀ P ∈ pointsN dim u, |R P| ≤ ε) ∧ ∀ P, (∀ k : Fin dim, P k ∈ Icc (u.x0 k) (u.xf k)) → ∀ k, |partialDeriv k R P| ≤ L k

/-- **C103, between the points.** What is known of a smooth function at the collocation points of an object holds on the whole domain, up to
the bounds of its derivatives times the distance to the next point. -/
theorem C103_between (n : List ℕ) (hn : ∀ v ∈ n, 2 ≤ v) (nC : MNCArg) (deg dim : ℕ) (hdim : 1 ≤ dim) (basis backend : String)
    (x0 xf : Option (List ℝ)) (w : ℕ → ℕ → ℝ) (b : ℕ → ℝ) (u : Mtfc) (hu : mtfcInit n nC deg dim basis x0 xf backend w b = .ok u)
    (hx : ∀ k < dim, u.x0 k < u.xf k) (R : (Fin dim → ℝ) → ℝ) (hR : ContDiff ℝ ∞ R) (ε : ℝ) (L : Fin dim → ℝ) (h : SmallAtN dim u R ε L) :
    ∀ P, (∀ k : Fin dim, P k ∈ Icc (u.x0 k) (u.xf k)) → |R P| ≤ ε + ∑ k : Fin dim, L k * ((u.xf k - u.x0 k) * gap (n.getD k 0)) := by
  intro P hP
  obtain ⟨p, hp, hpk⟩ := C99_points n hn nC deg dim hdim basis backend x0 xf w b u hu hx (fun k => if hk : k < dim then P ⟨k, hk⟩ else 0)
    (fun k hk => by simpa [hk] using hP ⟨k, hk⟩)
  have hT : ∀ k : Fin dim, gridN dim u.x p k ∈ Icc (u.x0 k) (u.xf k) := fun k => (hpk k k.2).1
  have hm : gridN dim u.x p ∈ pointsN dim u := by
    refine List.mem_map.2 ⟨p, List.mem_range.2 ?_, rfl⟩
    rw [(pointsN_ne hn hdim hu fun k hk => (hx k hk).ne).1]
    exact hp
  have h1 := change_bound hR (a := fun k => u.x0 k) (b := fun k => u.xf k) h.2 hP hT Finset.univ
  simp only [Finset.mem_univ, if_true] at h1
  have h2 : ∑ k : Fin dim, L k * |P k - gridN dim u.x p k| ≤ ∑ k : Fin dim, L k * ((u.xf k - u.x0 k) * gap (n.getD k 0)) := by
    refine Finset.sum_le_sum fun k _ => mul_le_mul_of_nonneg_left ?_ ((abs_nonneg _).trans (h.2 P hP k))
    have := (hpk k k.2).2
    simp only [k.2, dite_true] at this
    exact this
  have h3 := h.1 _ hm
  calc |R P| = |(R P - R (gridN dim u.x p)) + R (gridN dim u.x p)| := by ring_nf
    _ ≤ |R P - R (gridN dim u.x p)| + |R (gridN dim u.x p)| := abs_add_le _ _
    _ ≤ _ := by linarith

/-- Such bounds exist for every smooth function. -/
theorem smallAtN_exists {dim : ℕ} (u : Mtfc) {R : (Fin dim → ℝ) → ℝ} (hR : ContDiff ℝ ∞ R) : ∃ ε L, SmallAtN dim u R ε L := by
  have hK : IsCompact (Set.pi univ fun k : Fin dim => Icc (u.x0 k) (u.xf k)) := isCompact_univ_pi fun _ => isCompact_Icc
  have : ∀ k : Fin dim, ∃ l, ∀ P ∈ Set.pi univ fun k : Fin dim => Icc (u.x0 k) (u.xf k), ‖partialDeriv k R P‖ ≤ l := fun k =>
    hK.exists_bound_of_continuousOn (partialDeriv_contDiff hR k).continuous.continuousOn
  choose L hL using this
  refine ⟨((pointsN dim u).map fun P => |R P|).sum, L, fun P hP => ?_, fun P hP k => hL k P fun i _ => hP i⟩
  refine List.single_le_sum ?_ _ (List.mem_map.mpr ⟨P, hP, rfl⟩)
  intro v hv
  obtain ⟨s, -, rfl⟩ := List.mem_map.mp hv
  exact abs_nonneg _

/-! ## The corner of the domain is a collocation point -/

/-- The point where all variables have their first value. -/
theorem corner_point {n : List ℕ} (hn : ∀ v ∈ n, 2 ≤ v) {nC : MNCArg} {deg dim : ℕ} (hdim : 1 ≤ dim) {basis backend : String} {x0 xf : Option (List ℝ)}
    {w : ℕ → ℕ → ℝ} {b : ℕ → ℝ} {u : Mtfc} (hu : mtfcInit n nC deg dim basis x0 xf backend w b = .ok u) (hx : ∀ k < dim, u.x0 k ≠ u.xf k) :
    (fun k : Fin dim => u.x0 k) ∈ pointsN dim u := by
  obtain ⟨hlen, -, -, hl, hall, -, hback⟩ := C14_grid n nC deg dim hdim basis backend x0 xf w b u hu
    (fun v hv => ⟨by have := hn v hv; omega, fun _ => hn v hv⟩) hx
  have hzlt := zRange_lt u.basis
  have hn2 : ∀ k < dim, 2 ≤ n.getD k 0 := by
    intro k hk
    refine hn _ ?_
    rw [List.getD, List.getElem?_eq_getElem (by omega)]
    exact List.getElem_mem _
  obtain ⟨p, ⟨hp, hpz⟩, -⟩ := hall (fun _ => 0) fun k hk => by have := hn2 k hk; omega
  refine List.mem_map.2 ⟨p, List.mem_range.2 (by rw [(hl 0 (by omega)).2]; exact hp), ?_⟩
  funext k
  have e := hback k k.2 p hp
  rw [hpz k k.2, zPoint_first u.basis (hn2 k k.2)] at e
  unfold toBasis at e
  have h1 : (u.basis.zRange.2 - u.basis.zRange.1) / (u.xf k - u.x0 k) ≠ 0 :=
    div_ne_zero (sub_ne_zero.2 hzlt.ne') (sub_ne_zero.2 (hx k k.2).symm)
  have h2 : (u.basis.zRange.2 - u.basis.zRange.1) / (u.xf k - u.x0 k) * ((u.x.getD k []).getD p 0 - u.x0 k) = 0 := by
    linear_combination e
  rcases mul_eq_zero.1 h2 with h | h
  · exact absurd h h1
  · exact sub_eq_zero.1 h

/-! ## Building the objects -/

/-- The objects with polynomials. -/
theorem buildN_poly (n : List ℕ) (hn : ∀ v ∈ n, 1 ≤ v) (E : List NCEntry) (hone : ∀ e ∈ E, ∀ v, e ≠ .arr [v]) (deg dim : ℕ) (hdim : 1 ≤ dim)
    (hc : ∀ e ∈ E, count e ≤ deg) (basis backend : String) (hb : basis = "CP" ∨ basis = "LeP")
    (hbe : backend = "C++" ∨ backend = "Python") (x0 xf : List ℝ) (w : ℕ → ℕ → ℝ) (b : ℕ → ℝ) (l1 : n.length = dim) (l2 : E.length = dim)
    (l3 : x0.length = dim) (l4 : xf.length = dim) :
    ∃ u, mtfcInit n (.list E) deg dim basis (some x0) (some xf) backend w b = .ok u ∧ u.x0 = vecOf x0 ∧ u.xf = vecOf xf := by
  obtain ⟨bn, hbn, hbn'⟩ : ∃ bn, BasisName.parse basis = some bn ∧ (bn = .cp ∨ bn = .lep) := by
    rcases hb with rfl | rfl
    · exact ⟨.cp, by decide, Or.inl rfl⟩
    · exact ⟨.lep, by decide, Or.inr rfl⟩
  obtain ⟨be, hbe'⟩ : ∃ be, Backend.parse backend = some be := by
    rcases hbe with rfl | rfl
    · exact ⟨.cpp, by decide⟩
    · exact ⟨.python, by decide⟩
  obtain ⟨r, hr⟩ : ∃ r, mtfcRemoved deg dim bn (.list E) = .ok r := by
    obtain ⟨c, rows, h, -⟩ := (C20_list_partial deg dim E hone).1 l2 hc
    rcases hbn' with rfl | rfl <;> exact ⟨_, by simp only [mtfcRemoved, h]; rfl⟩
  exact mtfcInit_succeeds n (.list E) deg dim hdim basis backend x0 xf w b l1 l3 l4 hn bn hbn be hbe' r hr

/-- The objects with random features (`nC=-1`, nothing is removed). -/
theorem buildN_elm (n : List ℕ) (hn : ∀ v ∈ n, 1 ≤ v) (deg dim : ℕ) (hdim : 1 ≤ dim) (basis backend : String)
    (hb : basis = "ELMTanh" ∨ basis = "ELMSin" ∨ basis = "ELMSigmoid" ∨ basis = "ELMSwish")
    (hbe : backend = "C++" ∨ backend = "Python") (x0 xf : List ℝ) (w : ℕ → ℕ → ℝ) (b : ℕ → ℝ) (l1 : n.length = dim) (l3 : x0.length = dim)
    (l4 : xf.length = dim) :
    ∃ u, mtfcInit n (.int (-1)) deg dim basis (some x0) (some xf) backend w b = .ok u ∧ u.x0 = vecOf x0 ∧ u.xf = vecOf xf ∧
      basis ≠ "ELMReLU" ∧ ValidRemoval (deg + 1) u.nCl := by
  obtain ⟨a, hbn, hne⟩ : ∃ a, BasisName.parse basis = some (.elm a) ∧ basis ≠ "ELMReLU" := by
    rcases hb with rfl | rfl | rfl | rfl
    · exact ⟨.tanh, by decide, by decide⟩
    · exact ⟨.sin, by decide, by decide⟩
    · exact ⟨.sigmoid, by decide, by decide⟩
    · exact ⟨.swish, by decide, by decide⟩
  obtain ⟨be, hbe'⟩ : ∃ be, Backend.parse backend = some be := by
    rcases hbe with rfl | rfl
    · exact ⟨.cpp, by decide⟩
    · exact ⟨.python, by decide⟩
  have hr : mtfcRemoved deg dim (.elm a) (.int (-1)) = .ok (0, [], []) := rfl
  obtain ⟨u, hu, h0, h1⟩ := mtfcInit_succeeds n (.int (-1)) deg dim hdim basis backend x0 xf w b l1 l3 l4 hn (.elm a) hbn be hbe' _ hr
  obtain ⟨-, -, -, -, -, hbn2, -, -, ⟨rows, hrem, -⟩, -⟩ := mtfcInit_ok hu
  rw [hbn] at hbn2
  rw [← Option.some.inj hbn2, hr] at hrem
  have hnc : u.nCl = [] := by
    have := Except.ok.inj hrem
    simp only [Prod.mk.injEq] at this
    exact this.2.2.symm
  exact ⟨u, hu, h0, h1, hne, by simp [hnc, ValidRemoval]⟩

/-- An object with polynomials has a column if a function is left. -/
theorem polyN_column {n : List ℕ} {E : List NCEntry} (hone : ∀ e ∈ E, ∀ v, e ≠ .arr [v]) {deg dim : ℕ} (hdim : 1 ≤ dim) {basis backend : String}
    (hb : basis = "CP" ∨ basis = "LeP") {x0 xf : Option (List ℝ)} {w : ℕ → ℕ → ℝ} {b : ℕ → ℝ} {u : Mtfc}
    (hu : mtfcInit n (.list E) deg dim basis x0 xf backend w b = .ok u) (hk : ∃ a ≤ deg, ¬ Asks (E.getD 0 (.int 0)) a) :
    ∃ N pts A, u.Hjax N (coords (dim := dim) pts) (List.ofFn fun _ : Fin dim => 0) false = .ok A ∧ A.cols ≠ 0 := by
  obtain ⟨-, -, -, -, -, hbn, -⟩ := mtfcInit_ok hu
  obtain ⟨f, hf⟩ : ∃ f : NFamily, u.basis.mcls w b = .tensor f := by
    rcases hb with rfl | rfl
    · rw [show BasisName.parse "CP" = some .cp by decide] at hbn
      rw [← Option.some.inj hbn]
      exact ⟨.cp, rfl⟩
    · rw [show BasisName.parse "LeP" = some .lep by decide] at hbn
      rw [← Option.some.inj hbn]
      exact ⟨.lep, rfl⟩
  obtain ⟨L, -, hmem, hH⟩ := C20_columns_partial n E hone deg dim hdim basis backend x0 xf w b u hu f hf
  obtain ⟨A, hA, -, hc, -⟩ := hH 0 (coords (dim := dim) fun _ _ => 0) (List.ofFn fun _ : Fin dim => 0) (by simp)
  refine ⟨0, _, A, hA, fun h => ?_⟩
  obtain ⟨a, ha, hn⟩ := hk
  have : (Pi.single ⟨0, hdim⟩ a : Fin dim → ℕ) ∈ L := (hmem _).mpr ⟨by
    rw [Finset.sum_pi_single']
    simpa using ha, ⟨0, hdim⟩, by simpa using hn⟩
  rw [hc] at h
  rw [List.length_eq_zero_iff.mp h] at this
  exact absurd this (by simp)

/-- An object with random features and nothing removed has columns. -/
theorem elmN_column {n : List ℕ} {deg dim : ℕ} {basis backend : String} {x0 xf : Option (List ℝ)} {w : ℕ → ℕ → ℝ} {b : ℕ → ℝ} {u : Mtfc}
    (hu : mtfcInit n (.int (-1)) deg dim basis x0 xf backend w b = .ok u)
    (hb : basis = "ELMTanh" ∨ basis = "ELMSin" ∨ basis = "ELMSigmoid" ∨ basis = "ELMSwish")
    (hx : ∀ k < dim, u.x0 k ≠ u.xf k) :
    ∃ N pts A, u.Hjax N (coords (dim := dim) pts) (List.ofFn fun _ : Fin dim => 0) false = .ok A ∧ A.cols ≠ 0 := by
  obtain ⟨a, hbn⟩ : ∃ a, BasisName.parse basis = some (.elm a) := by
    rcases hb with rfl | rfl | rfl | rfl
    · exact ⟨.tanh, by decide⟩
    · exact ⟨.sin, by decide⟩
    · exact ⟨.sigmoid, by decide⟩
    · exact ⟨.swish, by decide⟩
  obtain ⟨-, -, hud, -, -, hbn2, -, -, ⟨rows, hrem, -⟩, ⟨be, -, hobj⟩, -, -⟩ := mtfcInit_ok hu
  rw [hbn] at hbn2
  have hbs := Option.some.inj hbn2
  rw [← hbs] at hrem hobj
  have hnc : u.nCl = [] := by
    have := Except.ok.inj hrem
    simp only [Prod.mk.injEq] at this
    exact this.2.2.symm
  have hobj : MObj.new be (.elm a w b) dim u.x0 u.xf u.numC u.tab u.nCl (deg + 1) = .ok u.obj := hobj
  obtain ⟨o, g1, -, -, g2⟩ := MObj.new_elm be a w b dim (deg + 1) u.x0 u.xf u.numC u.tab u.nCl
  rw [g1] at hobj
  cases hobj
  obtain ⟨-, g3⟩ := g2 false (Or.inr (by simp [hnc, ValidRemoval])) hx
  have hz : (List.ofFn fun _ : Fin dim => 0).sum = 0 := by rw [List.sum_ofFn]; simp
  obtain ⟨A, hA, -, hc, -⟩ := g3 0 (coords (dim := dim) fun _ _ => 0) (List.ofFn fun _ : Fin dim => 0) (by simp) (by
    cases be with
    | cpp => exact fun _ => by rw [hz]; omega
    | python => exact fun _ => by rw [hz]; omega) (fun _ h => absurd (by simp) h)
  refine ⟨0, _, A, by unfold Mtfc.Hjax; rw [hud]; exact hA, ?_⟩
  rw [hc, hnc]
  simp [outColumns, keptColumns]

end Verif.Props
