import Verif.Lemmas.CeSolver
import Mathlib.Algebra.Polynomial.Derivative
import Mathlib.Algebra.Polynomial.AlgebraMap
import Mathlib.Data.Matrix.Mul

/-!
# C43–C47: `CeSolver`

Python: /repo/src/tfc/utils/CeSolver.py 10–369.
-/

set_option linter.unusedSectionVars false

namespace Verif.Props

open Verif.Np Verif.Py Verif.Spec Verif.Model.CeSolver Verif.Lemmas.CeSolver

variable {A : Type} [CommRing A] {F : Type} [DecidableEq F]

/-- The object after a history that starts with the constructor; exceptions are caught. -/
def ceRun (inv : Mat A → Except Err (Mat A)) (simplify : A → F) (C : List (A → A)) (K s : List A) (g : A) (ops : List (Op A)) : Solver A :=
  ops.foldl (step inv simplify) (init C K s g)

/-- The data after the same history. -/
def ceDataRun (C : List (A → A)) (K s : List A) (g : A) (ops : List (Op A)) : CeData A :=
  ops.foldl CeData.apply { C := C, K := K, s := s, g := g }

section C45

variable {inv : Mat A → Except Err (Mat A)} (simplify : A → F) (C : List (A → A)) (K s : List A) (g : A) (ops : List (Op A))

theorem ceRun_sim (h : NoLatePhi false ops) : Sim inv (ceRun inv simplify C K s g ops) (ceDataRun C K s g ops) :=
  run_sim ops false (sim_init C K s g) (fun _ => rfl) h

/-- **C45**, for every history of readings (also failing ones) and assignments to `C`, `kappa`, `s` and `g`: `ce` returns exactly the constrained expression of the current data, and raises if and only if there is none. -/
theorem C45_data (hinv : InverseContract inv) (h : OnlyData ops) (e : A) :
    (readCe inv (ceRun inv simplify C K s g ops)).1 = .ok e ↔
      ConstrainedExpr (ceDataRun C K s g ops).C (ceDataRun C K s g ops).K (ceDataRun C K s g ops).s (ceDataRun C K s g ops).g e := by
  rw [(readCe_sim (ceRun_sim simplify C K s g ops (onlyData_noLate ops h false))).1, ceOf_expected hinv]
  obtain ⟨h1, h2⟩ := onlyData_data ops h { C := C, K := K, s := s, g := g } rfl rfl
  have h1 : (ceDataRun C K s g ops).phi = none := h1
  have h2 : (ceDataRun C K s g ops).ce = none := h2
  unfold CeData.Expected
  rw [h1, h2]

/-- **C45** with assignments to `phi` and `ce`, partly: if `phi` is never assigned while an already computed `ce` is in force, then `ce` returns what is expected from the data and the assignments in force. Missing: `phi` assigned after `ce` was read, see `C45_phi_fails`. -/
theorem C45_partial (hinv : InverseContract inv) (h : NoLatePhi false ops) (e : A) :
    (readCe inv (ceRun inv simplify C K s g ops)).1 = .ok e ↔ (ceDataRun C K s g ops).Expected e := by
  rw [(readCe_sim (ceRun_sim simplify C K s g ops h)).1, ceOf_expected hinv]

/-- The claim fails when `phi` is assigned after `ce` was read: the next reading returns the old expression. -/
theorem C45_phi_fails (simplify : ℚ → F) (inv : Mat ℚ → Except Err (Mat ℚ)) (hinv : InverseContract inv) :
    ∃ (C : List (ℚ → ℚ)) (K s : List ℚ) (g : ℚ) (ops : List (Op ℚ)) (e : ℚ),
      (readCe inv (ceRun inv simplify C K s g ops)).1 = .ok e ∧ ¬ (ceDataRun C K s g ops).Expected e := by
  refine ⟨[id], [0], [1], 1, [.readCe, .setPhi ⟨1, 1, fun _ _ => 0⟩], 0, ?_, ?_⟩
  · have h := (C45_data (inv := inv) simplify [id] [0] [1] 1 [.readCe] hinv (by intro o ho; simp at ho; subst ho; simp) 0).2 (by
      refine ⟨by simp [ceDataRun, CeData.apply], by simp [ceDataRun, CeData.apply], by simp [ceDataRun, CeData.apply], fun _ _ => 1, ?_, ?_⟩
      · simp [ceDataRun, CeData.apply, IsInverse, applyOp]
      · simp [ceDataRun, CeData.apply, withSwitching, applyOp])
    have h0 := (C45_data (inv := inv) simplify [id] [0] [1] 1 [] hinv (by intro o ho; simp at ho) 0).2 (by
      refine ⟨by simp [ceDataRun], by simp [ceDataRun], by simp [ceDataRun], fun _ _ => 1, ?_, ?_⟩
      · simp [ceDataRun, IsInverse, applyOp]
      · simp [ceDataRun, withSwitching, applyOp])
    have h1 : (readCe inv (init [id] [0] [1] (1 : ℚ))).1 = .ok 0 := h0
    have h2 : ceRun inv simplify [id] [0] [1] 1 [.readCe, .setPhi ⟨1, 1, fun _ _ => 0⟩] =
        setPhi (readCe inv (init [id] [0] [1] (1 : ℚ))).2 ⟨1, 1, fun _ _ => 0⟩ := rfl
    have h3 : (readCe inv (init [id] [0] [1] (1 : ℚ))).2.ceStale = false := by
      have hr : readCe inv (init [id] [0] [1] (1 : ℚ)) = clearCe (solveCe inv (init [id] [0] [1] (1 : ℚ))) := rfl
      rw [hr] at h1 ⊢
      rcases hq : solveCe inv (init [id] [0] [1] (1 : ℚ)) with ⟨r, σ⟩
      rw [hq] at h1
      cases r with
      | error e => cases h1
      | ok x => rfl
    have h4 : (readCe inv (readCe inv (init [id] [0] [1] (1 : ℚ))).2).1 = .ok 0 := h
    rw [h2]
    unfold readCe at h4 ⊢
    rw [if_neg] at h4 ⊢
    · exact h4
    · change ¬ (readCe inv (init [id] [0] [1] (1 : ℚ))).2.ceStale = true
      rw [h3]
      simp
    · change ¬ (readCe inv (init [id] [0] [1] (1 : ℚ))).2.ceStale = true
      rw [h3]
      simp
  · intro h
    have h : 0 < 1 ∧ 0 < 1 ∧ 1 = 1 ∧ 1 ≤ 1 ∧ (0 : ℚ) = withSwitching [id] [0] 1 fun _ => 0 := h
    have := h.2.2.2.2
    simp [withSwitching] at this

end C45

/-! ### Linear functionals -/

section Linear

variable {R : Type} [CommRing R] [Algebra R A] {n : ℕ}

/-- Constraint operators given by linear functionals with values in the ring of coefficients. -/
def functionals (L : Fin n → A →ₗ[R] R) : List (A → A) := List.ofFn fun i f => algebraMap R A (L i f)

/-- Values given by coefficients. -/
def values (k : Fin n → R) : List A := List.ofFn fun i => algebraMap R A (k i)

theorem ofFn_getD {α : Type} (f : Fin n → α) (d : α) {i : ℕ} (h : i < n) : (List.ofFn f).getD i d = f ⟨i, h⟩ := by
  rw [List.getD_eq_getElem?_getD, List.getElem?_eq_getElem (by simpa using h), List.getElem_ofFn]
  rfl

/-- The support matrix over the coefficients. -/
def supp (L : Fin n → A →ₗ[R] R) (s : Fin n → A) : Matrix (Fin n) (Fin n) R := Matrix.of fun i j => L i (s j)

open Classical in
/-- The inverse over the coefficients, as an inverse over the expressions. -/
theorem supp_inverse (L : Fin n → A →ₗ[R] R) (s : Fin n → A) (hS : IsUnit (supp L s)) :
    IsInverse n (fun i j => applyOp (functionals L) i ((List.ofFn s).getD j 0))
      (fun i j => if h : i < n ∧ j < n then algebraMap R A ((supp L s)⁻¹ ⟨i, h.1⟩ ⟨j, h.2⟩) else 0) := by
  have hdet : IsUnit (supp L s).det := (Matrix.isUnit_iff_isUnit_det _).1 hS
  have hent : ∀ (i j : ℕ) (hi : i < n) (hj : j < n),
      applyOp (functionals L) i ((List.ofFn s).getD j 0) = algebraMap R A (supp L s ⟨i, hi⟩ ⟨j, hj⟩) := by
    intro i j hi hj
    unfold applyOp functionals
    rw [ofFn_getD _ _ hi, ofFn_getD _ _ hj]
    rfl
  constructor
  · intro i hi j hj
    have h := congrFun (congrFun (Matrix.mul_nonsing_inv _ hdet) ⟨i, hi⟩) ⟨j, hj⟩
    rw [Matrix.mul_apply, Matrix.one_apply] at h
    have h2 := congrArg (algebraMap R A) h
    rw [map_sum] at h2
    rw [Finset.sum_range]
    refine (Finset.sum_congr rfl fun l _ => ?_).trans (h2.trans ?_)
    · beta_reduce
      rw [hent i l hi l.2, dif_pos ⟨l.2, hj⟩, map_mul]
    · by_cases hij : i = j
      · simp [hij]
      · simp [hij]
  · intro i hi j hj
    have h := congrFun (congrFun (Matrix.nonsing_inv_mul _ hdet) ⟨i, hi⟩) ⟨j, hj⟩
    rw [Matrix.mul_apply, Matrix.one_apply] at h
    have h2 := congrArg (algebraMap R A) h
    rw [map_sum] at h2
    rw [Finset.sum_range]
    refine (Finset.sum_congr rfl fun l _ => ?_).trans (h2.trans ?_)
    · beta_reduce
      rw [hent l j l.2 hj, dif_pos ⟨hi, l.2⟩, map_mul]
    · by_cases hij : i = j
      · simp [hij]
      · simp [hij]

/-- The switching functions of linear functionals. -/
theorem switching_eq (L : Fin n → A →ₗ[R] R) (s : Fin n → A) (hS : IsUnit (supp L s)) {N : ℕ → ℕ → A}
    (hN : IsInverse n (fun i j => applyOp (functionals L) i ((List.ofFn s).getD j 0)) N) (j : Fin n) :
    ∑ i ∈ Finset.range n, (List.ofFn s).getD i 0 * N i j = ∑ l : Fin n, (supp L s)⁻¹ l j • s l := by
  rw [Finset.sum_range]
  refine Finset.sum_congr rfl fun l _ => ?_
  rw [isInverse_unique hN (supp_inverse L s hS) l.2 j.2, dif_pos ⟨l.2, j.2⟩, ofFn_getD _ _ l.2, Algebra.smul_def, mul_comm]

theorem switching_dual (L : Fin n → A →ₗ[R] R) (s : Fin n → A) (hS : IsUnit (supp L s)) (i j : Fin n) :
    L i (∑ l : Fin n, (supp L s)⁻¹ l j • s l) = if i = j then 1 else 0 := by
  have hdet : IsUnit (supp L s).det := (Matrix.isUnit_iff_isUnit_det _).1 hS
  have h := congrFun (congrFun (Matrix.mul_nonsing_inv _ hdet) i) j
  rw [Matrix.mul_apply, Matrix.one_apply] at h
  rw [map_sum, ← h]
  refine Finset.sum_congr rfl fun l _ => ?_
  rw [map_smul, smul_eq_mul, mul_comm]
  rfl

/-- The algebra behind C43. -/
theorem constrainedExpr_satisfies (L : Fin n → A →ₗ[R] R) (k : Fin n → R) (s : Fin n → A) (g e : A) (hS : IsUnit (supp L s))
    (he : ConstrainedExpr (functionals L) (values k) (List.ofFn s) g e) (i : Fin n) : L i e = k i := by
  obtain ⟨-, -, -, N, hN, rfl⟩ := he
  have hlen : (functionals L).length = n := by simp [functionals]
  have hlenK : (values (A := A) k).length = n := by simp [values]
  rw [hlen] at hN
  unfold withSwitching
  rw [hlen, hlenK, Finset.sum_range, map_add, map_sum]
  have : ∀ j : Fin n, L i ((∑ l ∈ Finset.range n, (List.ofFn s).getD l 0 * N l j) *
      ((values k).getD j 0 - applyOp (functionals L) j g)) = (if i = j then 1 else 0) * (k j - L j g) := by
    intro j
    rw [switching_eq L s hS hN j]
    unfold values applyOp functionals
    rw [ofFn_getD _ _ j.2, ofFn_getD _ _ j.2, ← map_sub, mul_comm, ← Algebra.smul_def, map_smul, switching_dual L s hS, smul_eq_mul,
      mul_comm]
  rw [Finset.sum_congr rfl fun j _ => this j]
  simp

variable {inv : Mat A → Except Err (Mat A)} (simplify : A → F) (C₀ : List (A → A)) (K₀ s₀ : List A) (g₀ : A) (ops : List (Op A))

/-- **C43**, partly: after any history without assignments to `phi` and `ce`, if the current operators are linear functionals over a ring of coefficients, the current values are coefficients and the support matrix is invertible, then `ce` returns an expression that satisfies every constraint, whatever the free function. Missing: linear operators whose values are not coefficients, see `C43_fails`. -/
theorem C43_partial (hinv : InverseContract inv) (h : OnlyData ops) (hn : 0 < n) (L : Fin n → A →ₗ[R] R) (k : Fin n → R)
    (s : Fin n → A) (hS : IsUnit (supp L s)) (hC : (ceDataRun C₀ K₀ s₀ g₀ ops).C = functionals L)
    (hK : (ceDataRun C₀ K₀ s₀ g₀ ops).K = values k) (hs : (ceDataRun C₀ K₀ s₀ g₀ ops).s = List.ofFn s) :
    ∃ e, (readCe inv (ceRun inv simplify C₀ K₀ s₀ g₀ ops)).1 = .ok e ∧ ∀ i, L i e = k i := by
  have hlen : (functionals L).length = n := by simp [functionals]
  refine ⟨withSwitching (functionals L) (values k) (ceDataRun C₀ K₀ s₀ g₀ ops).g fun j => ∑ i ∈ Finset.range n,
      (List.ofFn s).getD i 0 * (fun i j => if h : i < n ∧ j < n then algebraMap R A ((supp L s)⁻¹ ⟨i, h.1⟩ ⟨j, h.2⟩) else 0) i j,
    (C45_data simplify C₀ K₀ s₀ g₀ ops hinv h _).2 ?_, ?_⟩
  · rw [hC, hK, hs]
    refine ⟨by omega, by simp [functionals], by simp [functionals, values], _, by rw [hlen]; exact supp_inverse L s hS, ?_⟩
    rw [hlen]
  · refine constrainedExpr_satisfies L k s (ceDataRun C₀ K₀ s₀ g₀ ops).g _ hS ?_
    refine ⟨by omega, by simp [functionals], by simp [functionals, values], _, by rw [hlen]; exact supp_inverse L s hS, ?_⟩
    rw [hlen]

/-- **C44**, idempotence: the constrained expression of a constrained expression is itself. -/
theorem C44_idempotent (hinv : InverseContract inv) (L : Fin n → A →ₗ[R] R) (k : Fin n → R)
    (s : Fin n → A) (hS : IsUnit (supp L s)) (g e : A) (he : (readCe inv (init (functionals L) (values k) (List.ofFn s) g)).1 = .ok e) :
    (readCe inv (init (functionals L) (values k) (List.ofFn s) e)).1 = .ok e := by
  have h0 : OnlyData ([] : List (Op A)) := fun o ho => by simp at ho
  have h1 : ConstrainedExpr (functionals L) (values k) (List.ofFn s) g e := (C45_data (F := Unit) (fun _ => ()) _ _ _ g [] hinv h0 e).1 he
  refine (C45_data (F := Unit) (fun _ => ()) _ _ _ e [] hinv h0 e).2 ?_
  have h2 := constrainedExpr_satisfies L k s g e hS h1
  obtain ⟨a, b, c, N, hN, -⟩ := h1
  refine ⟨a, b, c, N, hN, ?_⟩
  have hlenK : (values (A := A) k).length = n := by simp [values]
  change e = withSwitching (functionals L) (values k) e _
  unfold withSwitching
  rw [hlenK, Finset.sum_range]
  have : ∀ j : Fin n, (values (A := A) k).getD j 0 - applyOp (functionals L) j e = 0 := by
    intro j
    unfold values applyOp functionals
    rw [ofFn_getD _ _ j.2, ofFn_getD _ _ j.2, h2 j, sub_self]
  rw [Finset.sum_eq_zero fun j _ => by rw [this j, mul_zero], add_zero]

/-- **C46**, partly: after any history without assignments to `phi`, for linear functionals with an invertible support matrix: `S` is the matrix of the numbers `C_i[s_j]`, `alpha` its inverse, and `phi` a row of switching functions with `C_i[φ_j] = δ_ij`. Missing: operators whose values are not coefficients, see `C46_fails`. -/
theorem C46_partial (hinv : InverseContract inv) (h : NoLatePhi false ops) (hphi : (ceDataRun C₀ K₀ s₀ g₀ ops).phi = none) (hn : 0 < n)
    (L : Fin n → A →ₗ[R] R) (s : Fin n → A) (hS : IsUnit (supp L s)) (hC : (ceDataRun C₀ K₀ s₀ g₀ ops).C = functionals L)
    (hs : (ceDataRun C₀ K₀ s₀ g₀ ops).s = List.ofFn s) :
    (∃ M, (readS (ceRun inv simplify C₀ K₀ s₀ g₀ ops)).1 = .ok M ∧ M.rows = n ∧ M.cols = n ∧
      ∀ i j : Fin n, M.at_ i j = algebraMap R A (L i (s j))) ∧
    (∃ N, (readAlpha inv (ceRun inv simplify C₀ K₀ s₀ g₀ ops)).1 = .ok N ∧ N.rows = n ∧ N.cols = n ∧
      ∀ i j : Fin n, N.at_ i j = algebraMap R A ((supp L s)⁻¹ i j)) ∧
    ∃ p, (readPhi inv (ceRun inv simplify C₀ K₀ s₀ g₀ ops)).1 = .ok p ∧ p.rows = 1 ∧ p.cols = n ∧
      ∀ i j : Fin n, L i (p.at_ 0 j) = if i = j then 1 else 0 := by
  have hsim := ceRun_sim (inv := inv) simplify C₀ K₀ s₀ g₀ ops h
  have hlen : (functionals L).length = n := by simp [functionals]
  have hlens : (List.ofFn s).length = n := by simp
  have hex : ∃ N, IsInverse (functionals L).length (fun i j => applyOp (functionals L) i ((List.ofFn s).getD j 0)) N := by
    rw [hlen]
    exact ⟨_, supp_inverse L s hS⟩
  obtain ⟨p, hp⟩ := phiCalc_exists hinv (functionals L) (List.ofFn s) (by omega) (by omega) hex
  obtain ⟨-, hp1, hp2, N, hN, hNi, hpN⟩ := phiCalc_ok hinv (functionals L) (List.ofFn s) (by omega) p hp
  rw [hlen] at hNi hp2 hpN
  obtain ⟨-, hNr, hNc, -⟩ := hinv.sound _ _ hN
  refine ⟨⟨_, (readS_sim hsim).1, ?_, ?_, ?_⟩, ⟨N, ?_, ?_, ?_, ?_⟩, ⟨p, ?_, hp1, hp2, ?_⟩⟩
  · rw [hC]
    exact hlen
  · rw [hC, hs]
    simp only [supportMatrix]
    rw [if_neg (by omega), hlens]
  · intro i j
    rw [hC, hs]
    simp only [supportMatrix, functionals]
    rw [ofFn_getD _ _ i.2, ofFn_getD _ _ j.2]
  · rw [(readAlpha_sim hsim).1, hC, hs, hN]
  · rw [hNr]
    exact hlen
  · rw [hNc]
    exact hlen
  · intro i j
    rw [isInverse_unique hNi (supp_inverse L s hS) i.2 j.2, dif_pos ⟨i.2, j.2⟩]
  · rw [(readPhi_sim hsim).1]
    unfold phiOf
    rw [hphi, hC, hs]
    exact hp
  · intro i j
    rw [hpN j, switching_eq L s hS hNi j, switching_dual L s hS]

end Linear

/-- The claim of C43 fails for a linear operator whose values are not coefficients: for the constraint `u' = 0` with the support function `x` (support matrix 1) and the free function `x²`, `ce` returns `-x²`. -/
theorem C43_fails (inv : Mat (Polynomial ℚ) → Except Err (Mat (Polynomial ℚ))) (hinv : InverseContract inv) :
    ∃ (c : Polynomial ℚ →ₗ[ℚ] Polynomial ℚ) (κ s g e : Polynomial ℚ), c s = 1 ∧
      (readCe inv (init [fun f => c f] [κ] [s] g)).1 = .ok e ∧ c e ≠ κ := by
  refine ⟨Polynomial.derivative, 0, Polynomial.X, Polynomial.X ^ 2, - Polynomial.X ^ 2, by simp, ?_, ?_⟩
  · refine (C45_data (F := Polynomial ℚ) (inv := inv) id _ _ _ _ [] hinv (fun o ho => by simp at ho) _).2 ?_
    refine ⟨by simp [ceDataRun], by simp [ceDataRun], by simp [ceDataRun], fun _ _ => 1, ?_, ?_⟩
    · simp [ceDataRun, IsInverse, applyOp]
    · simp [ceDataRun, withSwitching, applyOp]
      ring
  · intro h
    have h2 := congrArg (Polynomial.eval (1 : ℚ)) h
    simp at h2

/-- **C46**, the matrices, for all operators: after any history `S` is the matrix of the expressions `C_i[s_j]`; `alpha` is its inverse, and is returned if and only if there is one. -/
theorem C46_alpha {inv : Mat A → Except Err (Mat A)} (simplify : A → F) (C₀ : List (A → A)) (K₀ s₀ : List A) (g₀ : A) (ops : List (Op A))
    (hinv : InverseContract inv) (h : NoLatePhi false ops) (d : CeData A) (hd : d = ceDataRun C₀ K₀ s₀ g₀ ops) (hC : 0 < d.C.length) :
    (∃ M, (readS (ceRun inv simplify C₀ K₀ s₀ g₀ ops)).1 = .ok M ∧ M.rows = d.C.length ∧ M.cols = d.s.length ∧
      ∀ (i j : ℕ) (c : A → A) (f : A), d.C[i]? = some c → d.s[j]? = some f → M.at_ i j = c f) ∧
    (∀ N, (readAlpha inv (ceRun inv simplify C₀ K₀ s₀ g₀ ops)).1 = .ok N → d.s.length = d.C.length ∧ N.rows = d.C.length ∧
      N.cols = d.C.length ∧ IsInverse d.C.length (fun i j => applyOp d.C i (d.s.getD j 0)) N.at_) ∧
    (d.s.length = d.C.length → (∃ N, IsInverse d.C.length (fun i j => applyOp d.C i (d.s.getD j 0)) N) →
      ∃ N, (readAlpha inv (ceRun inv simplify C₀ K₀ s₀ g₀ ops)).1 = .ok N) := by
  have hsim := ceRun_sim (inv := inv) simplify C₀ K₀ s₀ g₀ ops h
  rw [← hd] at hsim
  rw [(readAlpha_sim hsim).1]
  refine ⟨⟨_, (readS_sim hsim).1, rfl, if_neg (by omega), ?_⟩, ?_, ?_⟩
  · intro i j c f hc hf
    simp only [supportMatrix]
    rw [List.getD_eq_getElem?_getD, List.getD_eq_getElem?_getD, hc, hf]
    rfl
  · intro N hN
    obtain ⟨h1, h2, h3, h4⟩ := hinv.sound _ _ hN
    simp only [supportMatrix] at h1 h2 h3 h4
    rw [if_neg (by omega)] at h1
    exact ⟨h1, h2, h3, h4⟩
  · intro hs hN
    exact hinv.complete (supportMatrix d.C d.s) (by simp only [supportMatrix]; rw [if_neg (by omega), hs]) hN

/-- The duality of C46 fails for a linear operator whose values are not coefficients: on pairs of numbers, the operator that swaps them, with the support function `(1, 2)`. -/
theorem C46_fails (inv : Mat (ℚ × ℚ) → Except Err (Mat (ℚ × ℚ))) (hinv : InverseContract inv) :
    ∃ (c : ℚ × ℚ →ₗ[ℚ] ℚ × ℚ) (κ s g : ℚ × ℚ) (p : Mat (ℚ × ℚ)), IsUnit (c s) ∧
      (readPhi inv (init [fun f => c f] [κ] [s] g)).1 = .ok p ∧ c (p.at_ 0 0) ≠ 1 := by
  let c : ℚ × ℚ →ₗ[ℚ] ℚ × ℚ := (LinearMap.snd ℚ ℚ ℚ).prod (LinearMap.fst ℚ ℚ ℚ)
  have hN : IsInverse 1 (fun i j => applyOp [fun f => c f] i ([((1 : ℚ), (2 : ℚ))].getD j 0)) fun _ _ => ((1 / 2 : ℚ), (1 : ℚ)) := by
    simp [IsInverse, applyOp, c]
  obtain ⟨p, hp⟩ := phiCalc_exists hinv [fun f => c f] [((1 : ℚ), (2 : ℚ))] (by simp) rfl ⟨_, hN⟩
  obtain ⟨-, -, -, N, -, hN', hp'⟩ := phiCalc_ok hinv [fun f => c f] [((1 : ℚ), (2 : ℚ))] (by simp) p hp
  refine ⟨c, 0, (1, 2), 0, p, ?_, ?_, ?_⟩
  · exact (Prod.isUnit_iff).2 ⟨by simp [c], by simp [c]⟩
  · rw [(readPhi_sim (sim_init _ _ _ _)).1]
    exact hp
  · rw [hp' 0]
    have h0 := isInverse_unique hN' hN (i := 0) (j := 0) (by simp) (by simp)
    simp only [List.length_singleton, Finset.sum_range_one]
    rw [h0]
    intro h
    have := congrArg Prod.fst h
    simp [c] at this

section C44

variable {inv : Mat A → Except Err (Mat A)} (simplify : A → F) (C₀ : List (A → A)) (K₀ s₀ : List A) (g₀ : A) (ops : List (Op A))

/-- **C44**, partly: after any history without assignments to `phi` and `ce`, for all operators (not only linear ones), at least one constraint, and an invertible support matrix: if the free function satisfies every constraint then `ce` returns it. Missing: no constraint at all, see `C44_fails`. -/
theorem C44_partial (hinv : InverseContract inv) (h : OnlyData ops) (d : CeData A) (hd : d = ceDataRun C₀ K₀ s₀ g₀ ops)
    (hC : 0 < d.C.length) (hK : d.K.length = d.C.length) (hs : d.s.length = d.C.length)
    (hS : ∃ N, IsInverse d.C.length (fun i j => applyOp d.C i (d.s.getD j 0)) N)
    (hf : ∀ (i : ℕ) (c : A → A) (κ : A), d.C[i]? = some c → d.K[i]? = some κ → c d.g = κ) :
    (readCe inv (ceRun inv simplify C₀ K₀ s₀ g₀ ops)).1 = .ok d.g := by
  refine (C45_data simplify C₀ K₀ s₀ g₀ ops hinv h _).2 ?_
  rw [← hd]
  obtain ⟨N, hN⟩ := hS
  refine ⟨hC, hs, hK, N, hN, ?_⟩
  unfold withSwitching
  have : ∀ j ∈ Finset.range d.K.length, (∑ i ∈ Finset.range d.C.length, d.s.getD i 0 * N i j) *
      (d.K.getD j 0 - applyOp d.C j d.g) = 0 := by
    intro j hj
    have hj := Finset.mem_range.1 hj
    have hjC : j < d.C.length := by omega
    have := hf j _ _ (List.getElem?_eq_getElem hjC) (List.getElem?_eq_getElem hj)
    unfold applyOp
    rw [List.getD_eq_getElem?_getD, List.getD_eq_getElem?_getD, List.getElem?_eq_getElem hjC, List.getElem?_eq_getElem hj, Option.getD_some,
      Option.getD_some, this, sub_self, mul_zero]
  rw [Finset.sum_eq_zero this, add_zero]

/-- Without constraints every function satisfies all of them, but `ce` raises an exception. -/
theorem C44_fails (hinv : InverseContract inv) (g : A) : ∃ err, (readCe inv (init [] [] [] g)).1 = .error err := by
  cases h : (readCe inv (init [] [] [] g)).1 with
  | error e => exact ⟨e, rfl⟩
  | ok x =>
    have h2 := (C45_data (F := Unit) (inv := inv) (fun _ => ()) [] [] [] g [] hinv (fun o ho => by simp at ho) x).1 h
    have := h2.1
    simp [ceDataRun] at this

end C44

section C47

variable {inv : Mat A → Except Err (Mat A)} (simplify : A → F) (C₀ : List (A → A)) (K₀ s₀ : List A) (g₀ : A) (ops : List (Op A))

/-- **C47.** After any history (`phi` not assigned while a computed `ce` is in force), for the current constraints given as pairs of operator and value, and a simplifier that decides equality: if `ce` returns `x` then `checkCe` returns `True` exactly if `x` meets every constraint; if there is a constraint and `ce` raises, so does `checkCe`; without constraints it returns `True`. -/
theorem C47 (hsimp : ∀ a b, simplify a = simplify b ↔ a = b) (h : NoLatePhi false ops) (l : List ((A → A) × A))
    (hC : (ceDataRun C₀ K₀ s₀ g₀ ops).C = l.map Prod.fst) (hK : (ceDataRun C₀ K₀ s₀ g₀ ops).K = l.map Prod.snd) :
    (∀ x, (readCe inv (ceRun inv simplify C₀ K₀ s₀ g₀ ops)).1 = .ok x →
      ∃ b, (checkCe inv simplify (ceRun inv simplify C₀ K₀ s₀ g₀ ops)).1 = .ok b ∧ (b = true ↔ ∀ p ∈ l, p.1 x = p.2)) ∧
    (∀ err, (readCe inv (ceRun inv simplify C₀ K₀ s₀ g₀ ops)).1 = .error err → l ≠ [] →
      (checkCe inv simplify (ceRun inv simplify C₀ K₀ s₀ g₀ ops)).1 = .error err) ∧
    (l = [] → (checkCe inv simplify (ceRun inv simplify C₀ K₀ s₀ g₀ ops)).1 = .ok true) := by
  have hsim := ceRun_sim (inv := inv) simplify C₀ K₀ s₀ g₀ ops h
  rw [(readCe_sim hsim).1, (checkCe_sim hsim).1, hC, hK]
  have hz : (l.map Prod.fst).zip (l.map Prod.snd) = l := (List.zip_of_prod rfl rfl).symm
  rw [hz]
  refine ⟨?_, ?_, ?_⟩
  · intro x hx
    cases l with
    | nil => exact ⟨true, rfl, by simp⟩
    | cons p l =>
      simp only [checksOf, hx, Except.map]
      refine ⟨_, rfl, ?_⟩
      simp [hsimp]
  · intro err he hl
    cases l with
    | nil => exact absurd rfl hl
    | cons p l => simp only [checksOf, he, Except.map]
  · rintro rfl
    rfl

end C47

/-! ### The example of the documentation: `u(0) = 2` and `u'(2) = 1` with support functions `1` and `x` -/

/-- The two functionals on polynomials. -/
noncomputable def docL : Fin 2 → Polynomial ℚ →ₗ[ℚ] ℚ :=
  ![(Polynomial.aeval (0 : ℚ)).toLinearMap, (Polynomial.aeval (2 : ℚ)).toLinearMap.comp Polynomial.derivative]

theorem docSupp : supp docL ![1, Polynomial.X] = 1 := by
  ext i j
  fin_cases i <;> fin_cases j <;> simp [supp, docL]

/-- Non-vacuity of `C43_partial`, `C44_idempotent` and `C46_partial`: for every free function there is a constrained expression. -/
example (inv : Mat (Polynomial ℚ) → Except Err (Mat (Polynomial ℚ))) (hinv : InverseContract inv) (g : Polynomial ℚ) :
    ∃ e : Polynomial ℚ, (readCe inv (init (functionals docL) (values ![(2 : ℚ), 1]) (List.ofFn ![1, Polynomial.X]) g)).1 = .ok e ∧
      e.eval 0 = 2 ∧ e.derivative.eval 2 = 1 := by
  obtain ⟨e, he, h⟩ := C43_partial (inv := inv) (F := Unit) (fun _ => ()) (functionals docL) (values ![(2 : ℚ), 1]) (List.ofFn ![1, Polynomial.X]) g []
    hinv (fun o ho => by simp at ho) (by norm_num) docL ![(2 : ℚ), 1] ![1, Polynomial.X] (by rw [docSupp]; exact isUnit_one) rfl rfl rfl
  exact ⟨e, he, by simpa [docL] using h 0, by simpa [docL] using h 1⟩

/-- The contract of the inverse can be met. -/
example : ∃ inv : Mat (Polynomial ℚ) → Except Err (Mat (Polynomial ℚ)), InverseContract inv := inverse_exists

/-- Non-vacuity of `C45_partial`: reading, assigning data, then an assigned `phi`, then reading twice. -/
example (p : Mat ℚ) : NoLatePhi false [Op.readCe, .setG (2 : ℚ), .setPhi p, .readCe, .readPhi] := by simp [NoLatePhi]

/-- Non-vacuity of `C44_partial` with an operator that is not linear. -/
example (inv : Mat ℚ → Except Err (Mat ℚ)) (hinv : InverseContract inv) : (readCe inv (init [fun f => f ^ 2] [9] [2] 3)).1 = .ok 3 := by
  refine C44_partial (inv := inv) (F := ℚ) id [fun f => f ^ 2] [9] [2] 3 [] hinv (fun o ho => by simp at ho) _ rfl ?_ ?_ ?_ ?_ ?_
  · simp [ceDataRun]
  · simp [ceDataRun]
  · simp [ceDataRun]
  · refine ⟨fun _ _ => 1 / 4, ?_⟩
    simp [ceDataRun, IsInverse, applyOp]
    norm_num
  · intro i c κ h1 h2
    cases i with
    | zero =>
      simp [ceDataRun] at h1 h2
      subst h1 h2
      simp [ceDataRun]
      norm_num
    | succ i => simp [ceDataRun] at h1

end Verif.Props
