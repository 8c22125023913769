import Verif.Model.Bvp
import Verif.Spec.Bvp
import Verif.Props.Span
import Mathlib.Analysis.Calculus.Deriv.Polynomial

/-! # The constrained expression as a polynomial -/

namespace Verif

open Polynomial Verif.Mem Verif.Py Verif.Np Verif.Spec Verif.Model Verif.Model.Py

theorem iteratedDeriv_poly (p : ℝ[X]) (d : ℕ) : iteratedDeriv d (fun x => p.eval x) = fun x => (derivative^[d] p).eval x := by
  induction d generalizing p with
  | zero => rfl
  | succ d ih =>
    rw [iteratedDeriv_succ', Function.iterate_succ_apply, ← ih]
    congr 1
    funext x
    exact p.deriv

/-- Basis function `k` as a polynomial in the user's variable. -/
theorem basis_poly (f : PolyFamily) (x0 xf : ℝ) (hx : x0 ≠ xf) :
    ∃ φ : ℕ → ℝ[X], (∀ k x, (φ k).eval x = (classical ℝ f k).eval (f.arg x0 xf x)) ∧ ∀ k, (φ k).degree < (k + 1 : ℕ) := by
  obtain ⟨a, b, ha, harg⟩ := arg_affine f x0 xf hx
  refine ⟨fun k => (classical ℝ f k).comp (C a * X + C b), fun k x => ?_, fun k => ?_⟩
  · simp [eval_comp, harg]
  · refine lt_of_le_of_lt degree_le_natDegree ?_
    have h1 : ((classical ℝ f k).comp (C a * X + C b)).natDegree ≤ (classical ℝ f k).natDegree * 1 :=
      natDegree_comp_le.trans (Nat.mul_le_mul_left _ natDegree_linear_le)
    have h2 := natDegree_classical_le (K := ℝ) f k
    exact_mod_cast (by omega : ((classical ℝ f k).comp (C a * X + C b)).natDegree < k + 1)

theorem kept_from_two (m : ℕ) : keptColumns (m + 2) [0, 1] = (List.range m).map (· + 2) := by
  unfold keptColumns
  rw [List.range_succ_eq_map, List.range_succ_eq_map]
  simp only [List.map_cons, List.map_map, List.filter_cons]
  simp only [Nat.cast_zero, List.mem_cons, true_or, not_true_eq_false, decide_false, Bool.false_eq_true, if_false]
  simp only [show (((Nat.succ 0 : ℕ)) : ℤ) = 1 from rfl, or_true, true_or, not_true_eq_false, decide_false, Bool.false_eq_true, if_false]
  rw [List.filter_eq_self.mpr]
  · rfl
  · intro k hk
    obtain ⟨i, -, rfl⟩ := List.mem_map.mp hk
    simp only [Function.comp, List.mem_cons, List.not_mem_nil, or_false, decide_eq_true_eq]
    omega

/-- The free part `H(t) @ ξ`. -/
noncomputable def freePart (φ : ℕ → ℝ[X]) (m : ℕ) (xi : List ℝ) : ℝ[X] := ∑ i ∈ Finset.range m, C (xi.getD i 0) * φ (i + 2)

/-- The constrained expression as a polynomial. -/
noncomputable def cePoly (ti tf yi yf : ℝ) (g : ℝ[X]) : ℝ[X] :=
  g + (C (1 / (ti - tf)) * (X - C tf)) * C (yi - g.eval ti) + (C (1 / (ti - tf)) * (C ti - X)) * C (yf - g.eval tf)

theorem iterate_derivative_C_mul' (a : ℝ) (p : ℝ[X]) (d : ℕ) : derivative^[d] (C a * p) = C a * derivative^[d] p :=
  iterate_derivative_C_mul a p d

/-- What `H` with the removed functions 0 and 1 does to a vector. -/
theorem npDot_H (u : Utfc) (f : PolyFamily) (hcls : u.cls = .poly f) (hx : u.x0 ≠ u.xf) (m : ℕ) (hdeg : u.deg = m + 1)
    (hnC : u.nC = [0, 1]) {φ : ℕ → ℝ[X]} (hφ : ∀ k x, (φ k).eval x = (classical ℝ f k).eval (f.arg u.x0 u.xf x)) (d n : ℕ)
    (ts : ℕ → ℝ) : ∃ A, u.Hjax n ts d false = .ok A ∧ A.rows = n ∧ A.cols = m ∧
      ∀ xi, ∀ j < n, npDot A xi j = (derivative^[d] (freePart φ m xi)).eval (ts j) := by
  obtain ⟨A, hA, hr, hc, hv⟩ := Props.Hjax_poly u f hcls d false (Or.inr (by rw [hdeg, hnC]; constructor <;> simp; omega)) n ts
  have hcols : outColumns (u.deg + 1) u.nC false = (List.range m).map (· + 2) := by
    rw [hdeg, hnC]
    exact kept_from_two m
  rw [hcols] at hc
  have hc : A.cols = m := by simpa using hc
  refine ⟨A, hA, hr, hc, fun xi j hj => ?_⟩
  unfold npDot freePart
  rw [hc, iterate_derivative_sum, eval_finsetSum]
  refine Finset.sum_congr rfl fun i hi => ?_
  have hi := Finset.mem_range.mp hi
  rw [hv j hj i (by rw [hcols]; simpa using hi), iterate_derivative_C_mul, eval_mul, eval_C, mul_comm]
  congr 1
  have hfun : (fun x => (classical ℝ f (i + 2)).eval (f.arg u.x0 u.xf x)) = fun x => (φ (i + 2)).eval x :=
    funext fun x => (hφ _ _).symm
  have e : (outColumns (u.deg + 1) u.nC false)[i]'(by rw [hcols]; simpa using hi) = i + 2 := by
    simp [hcols]
  rw [e]
  beta_reduce
  rw [hfun, iteratedDeriv_poly]

theorem iterate_derivative_beta (d : ℕ) (c s e t : ℝ) :
    (derivative^[d] (C c * (C s * X + C e))).eval t =
      match d with
      | 0 => c * (s * t + e)
      | 1 => c * s
      | _ => 0 := by
  rw [iterate_derivative_C_mul]
  match d with
  | 0 => simp
  | 1 => simp
  | d + 2 =>
    rw [Function.iterate_add_apply]
    simp

theorem beta0_eval (ti tf : ℝ) (d : ℕ) (t : ℝ) :
    (derivative^[d] (C (1 / (ti - tf)) * (X - C tf))).eval t = beta0 ti tf d t := by
  have := iterate_derivative_beta d (1 / (ti - tf)) 1 (-tf) t
  rw [show (C (1:ℝ) * X + C (-tf) : ℝ[X]) = X - C tf by rw [C_1, one_mul, C_neg, sub_eq_add_neg]] at this
  rw [this]
  match d with
  | 0 => simp only [beta0]; ring
  | 1 => simp only [beta0]; ring
  | d + 2 => rfl

theorem beta1_eval (ti tf : ℝ) (d : ℕ) (t : ℝ) :
    (derivative^[d] (C (1 / (ti - tf)) * (C ti - X))).eval t = beta1 ti tf d t := by
  have := iterate_derivative_beta d (1 / (ti - tf)) (-1) ti t
  rw [show (C (-1:ℝ) * X + C ti : ℝ[X]) = C ti - X by rw [C_neg, C_1]; ring] at this
  rw [this]
  match d with
  | 0 => simp only [beta1]; ring
  | 1 => simp only [beta1]; ring
  | d + 2 => rfl

theorem cePoly_eval (ti tf yi yf : ℝ) (g : ℝ[X]) (d : ℕ) (t : ℝ) :
    (derivative^[d] (cePoly ti tf yi yf g)).eval t = (derivative^[d] g).eval t + beta0 ti tf d t * (yi - g.eval ti) +
      beta1 ti tf d t * (yf - g.eval tf) := by
  unfold cePoly
  rw [mul_comm _ (C (yi - g.eval ti)), mul_comm _ (C (yf - g.eval tf)), iterate_map_add, iterate_map_add,
    iterate_derivative_C_mul (yi - g.eval ti), iterate_derivative_C_mul (yf - g.eval tf), eval_add, eval_add, eval_mul, eval_mul,
    eval_C, eval_C, beta0_eval, beta1_eval]
  ring

theorem degree_lt_of_natDegree {p : ℝ[X]} {n : ℕ} (h : p.natDegree < n) : p.degree < (n : ℕ) :=
  lt_of_le_of_lt degree_le_natDegree (by exact_mod_cast h)

theorem degree_add_lt' {p q : ℝ[X]} {n : ℕ} (hp : p.degree < (n : ℕ)) (hq : q.degree < (n : ℕ)) : (p + q).degree < (n : ℕ) :=
  lt_of_le_of_lt (degree_add_le p q) (max_lt hp hq)

theorem freePart_degree {φ : ℕ → ℝ[X]} (hdeg : ∀ k, (φ k).degree < (k + 1 : ℕ)) (m : ℕ) (xi : List ℝ) :
    (freePart φ m xi).degree < (m + 2 : ℕ) := by
  unfold freePart
  rw [← mem_degreeLT]
  refine Submodule.sum_mem _ fun i hi => ?_
  rw [mem_degreeLT, ← smul_eq_C_mul]
  refine lt_of_le_of_lt (degree_smul_le _ _) (lt_of_lt_of_le (hdeg (i + 2)) ?_)
  have := Finset.mem_range.mp hi
  exact_mod_cast (by omega : i + 2 + 1 ≤ m + 2)

theorem linear_degree (c s e z : ℝ) (m : ℕ) : ((C c * (C s * X + C e)) * C z : ℝ[X]).degree < (m + 2 : ℕ) := by
  have h : ((C c * (C s * X + C e)) * C z : ℝ[X]) = C (c * s * z) * X + C (c * e * z) := by
    simp only [C_mul]; ring
  rw [h]
  refine degree_lt_of_natDegree ?_
  have := natDegree_linear_le (a := c * s * z) (b := c * e * z)
  omega

theorem cePoly_admissible {ti tf yi yf : ℝ} (ht : ti ≠ tf) {g : ℝ[X]} {m : ℕ} (hg : g.degree < (m + 2 : ℕ)) :
    MeetsEnds (m + 1) ti tf yi yf (cePoly ti tf yi yf g) := by
  have hne : ti - tf ≠ 0 := sub_ne_zero.mpr ht
  refine ⟨?_, ?_, ?_⟩
  · unfold cePoly
    refine degree_add_lt' (degree_add_lt' hg ?_) ?_
    · have := linear_degree (1 / (ti - tf)) 1 (-tf) (yi - g.eval ti) m
      rwa [show (C (1:ℝ) * X + C (-tf) : ℝ[X]) = X - C tf by rw [C_1, one_mul, C_neg, sub_eq_add_neg]] at this
    · have := linear_degree (1 / (ti - tf)) (-1) ti (yf - g.eval tf) m
      rwa [show (C (-1:ℝ) * X + C ti : ℝ[X]) = C ti - X by rw [C_neg, C_1]; ring] at this
  · have := cePoly_eval ti tf yi yf g 0 ti
    simp only [Function.iterate_zero, id] at this
    rw [this]
    simp only [beta0, beta1]
    field_simp
    ring
  · have := cePoly_eval ti tf yi yf g 0 tf
    simp only [Function.iterate_zero, id] at this
    rw [this]
    simp only [beta0, beta1]
    field_simp
    ring

/-- The constrained expression does not change when an affine function is added to the free part. -/
theorem cePoly_affine {ti tf yi yf : ℝ} (ht : ti ≠ tf) (g : ℝ[X]) (s e : ℝ) :
    cePoly ti tf yi yf (g + (C s * X + C e)) = cePoly ti tf yi yf g := by
  have hne : ti - tf ≠ 0 := sub_ne_zero.mpr ht
  refine Polynomial.funext fun t => ?_
  have h1 := cePoly_eval ti tf yi yf (g + (C s * X + C e)) 0 t
  have h2 := cePoly_eval ti tf yi yf g 0 t
  simp only [Function.iterate_zero, id] at h1 h2
  rw [h1, h2]
  simp only [beta0, beta1, eval_add, eval_mul, eval_C, eval_X]
  field_simp
  ring

theorem cePoly_self {ti tf yi yf : ℝ} {p : ℝ[X]} (h0 : p.eval ti = yi) (hf : p.eval tf = yf) : cePoly ti tf yi yf p = p := by
  unfold cePoly
  rw [h0, hf]
  simp

theorem affine_of_degree {q : ℝ[X]} (h : q.degree < (2 : ℕ)) : ∃ s e : ℝ, q = C s * X + C e := by
  refine ⟨q.coeff 1, q.coeff 0, ?_⟩
  refine Polynomial.eq_X_add_C_of_degree_le_one ?_
  exact Order.le_of_lt_succ h

/-- Every admissible polynomial is the constrained expression of a vector of `m` coefficients. -/
theorem admissible_ce {f : PolyFamily} {x0 xf : ℝ} (hx : x0 ≠ xf) {φ : ℕ → ℝ[X]}
    (hφ : ∀ k x, (φ k).eval x = (classical ℝ f k).eval (f.arg x0 xf x)) (hdeg : ∀ k, (φ k).degree < (k + 1 : ℕ))
    {m : ℕ} {ti tf yi yf : ℝ} (ht : ti ≠ tf) {p : ℝ[X]} (hp : MeetsEnds (m + 1) ti tf yi yf p) :
    ∃ xi : List ℝ, xi.length = m ∧ cePoly ti tf yi yf (freePart φ m xi) = p := by
  obtain ⟨ζ, hζ⟩ := classical_represent f x0 xf hx (m + 2) p hp.degree
  refine ⟨(List.range m).map fun i => ζ (i + 2), by simp, ?_⟩
  obtain ⟨s, e, hA⟩ := affine_of_degree (q := C (ζ 0) * φ 0 + C (ζ 1) * φ 1) (by
    refine degree_add_lt' ?_ ?_
    · rw [← smul_eq_C_mul]
      refine lt_of_le_of_lt (degree_smul_le _ _) (lt_of_lt_of_le (hdeg 0) ?_)
      exact_mod_cast (by omega : 0 + 1 ≤ 2)
    · rw [← smul_eq_C_mul]
      exact lt_of_le_of_lt (degree_smul_le _ _) (hdeg 1))
  have hsplit : p = freePart φ m ((List.range m).map fun i => ζ (i + 2)) + (C s * X + C e) := by
    refine Polynomial.funext fun x => ?_
    rw [hζ x, ← hA, Finset.sum_range_succ', Finset.sum_range_succ', freePart, eval_add, eval_finsetSum, eval_add, eval_mul,
      eval_mul, eval_C, eval_C, hφ, hφ]
    have : ∑ i ∈ Finset.range m, (C (((List.range m).map fun i => ζ (i + 2)).getD i 0) * φ (i + 2)).eval x =
        ∑ i ∈ Finset.range m, (classical ℝ f (i + 1 + 1)).eval (f.arg x0 xf x) * ζ (i + 1 + 1) := by
      refine Finset.sum_congr rfl fun i hi => ?_
      have hi := Finset.mem_range.mp hi
      rw [eval_mul, eval_C, hφ]
      simp [List.getD, hi, mul_comm]
    rw [this]
    ring
  calc cePoly ti tf yi yf (freePart φ m ((List.range m).map fun i => ζ (i + 2)))
      = cePoly ti tf yi yf (freePart φ m ((List.range m).map fun i => ζ (i + 2)) + (C s * X + C e)) := (cePoly_affine ht _ s e).symm
    _ = cePoly ti tf yi yf p := by rw [← hsplit]
    _ = p := cePoly_self hp.left hp.right

/-- The coefficients are determined by the constrained expression. -/
theorem ce_inj {f : PolyFamily} {x0 xf : ℝ} (hx : x0 ≠ xf) {φ : ℕ → ℝ[X]}
    (hφ : ∀ k x, (φ k).eval x = (classical ℝ f k).eval (f.arg x0 xf x)) {m : ℕ} {ti tf yi yf : ℝ}
    {xi xi' : List ℝ} (h : cePoly ti tf yi yf (freePart φ m xi) = cePoly ti tf yi yf (freePart φ m xi')) :
    ∀ i < m, xi.getD i 0 = xi'.getD i 0 := by
  obtain ⟨q, hq, hd⟩ : ∃ q : ℝ[X], freePart φ m xi - freePart φ m xi' + q = 0 ∧ q.degree < (0 + 2 : ℕ) := by
    refine ⟨(C (1 / (ti - tf)) * (X - C tf)) * C ((freePart φ m xi').eval ti - (freePart φ m xi).eval ti) +
      (C (1 / (ti - tf)) * (C ti - X)) * C ((freePart φ m xi').eval tf - (freePart φ m xi).eval tf), ?_, ?_⟩
    · have h' := sub_eq_zero.mpr h
      rw [← h']
      unfold cePoly
      simp only [C_sub]
      ring
    · refine degree_add_lt' ?_ ?_
      · have := linear_degree (1 / (ti - tf)) 1 (-tf) ((freePart φ m xi').eval ti - (freePart φ m xi).eval ti) 0
        rwa [show (C (1:ℝ) * X + C (-tf) : ℝ[X]) = X - C tf by rw [C_1, one_mul, C_neg, sub_eq_add_neg]] at this
      · have := linear_degree (1 / (ti - tf)) (-1) ti ((freePart φ m xi').eval tf - (freePart φ m xi).eval tf) 0
        rwa [show (C (-1:ℝ) * X + C ti : ℝ[X]) = C ti - X by rw [C_neg, C_1]; ring] at this
  obtain ⟨ζ, hζ⟩ := classical_represent f x0 xf hx 2 q hd
  obtain ⟨a, b, ha, harg⟩ := arg_affine f x0 xf hx
  let η : ℕ → ℝ := fun k => if k < 2 then ζ k else xi.getD (k - 2) 0 - xi'.getD (k - 2) 0
  have hη := classical_unisolvent (K := ℝ) f (m := m + 2) (n := m + 2) le_rfl η (fun j => f.arg x0 xf (j : ℝ))
    (fun i _ j _ hij => by
      simp only [harg] at hij
      exact_mod_cast mul_left_cancel₀ ha (add_right_cancel hij)) (fun j _ => by
      have h1 := congrArg (fun r => r.eval (j : ℝ)) hq
      simp only [eval_add, eval_sub, eval_zero, hζ, freePart, eval_finsetSum, eval_mul, eval_C, hφ] at h1
      rw [Finset.sum_range_succ', Finset.sum_range_succ', ← h1, ← Finset.sum_sub_distrib, Finset.sum_range_succ,
        Finset.sum_range_one, add_assoc]
      congr 1
      · refine Finset.sum_congr rfl fun i _ => ?_
        simp only [η, show ¬ (i + 1 + 1 < 2) by omega, if_false, show i + 1 + 1 - 2 = i by omega]
        ring
      · simp only [η]
        norm_num
        ring)
  intro i hi
  have := hη (i + 2) (by omega)
  simp only [η, show ¬ (i + 2 < 2) by omega, if_false, show i + 2 - 2 = i by omega] at this
  linarith

end Verif
