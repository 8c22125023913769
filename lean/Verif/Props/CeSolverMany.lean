import Verif.Props.CeSolver
import Verif.Model.CeSolverExamples
import Mathlib.Analysis.SpecialFunctions.Integrals.Basic

/-!
# C120: constrained expressions of several variables from several `CeSolver` objects

Python: /repo/tests/test_ce_solver.py 30–57, /repo/docs/notebooks/CeSolver.ipynb, the cells with `csx`, `csy` and with `cs_ux`, `cs_uy`, `cs_vx`, `cs_vy`.
-/

set_option linter.unusedSectionVars false

namespace Verif.Props

open Verif.Np Verif.Py Verif.Spec Verif.Model.CeSolver Verif.Lemmas.CeSolver

variable {A : Type} [CommRing A] {F : Type} [DecidableEq F]

/-- `checkCe` returns `True` when the expression in force meets the constraints. -/
theorem check_true {inv : Mat A → Except Err (Mat A)} (simplify : A → F) (hinv : InverseContract inv)
    (hsimp : ∀ a b, simplify a = simplify b ↔ a = b) (C₀ : List (A → A)) (K₀ s₀ : List A) (g₀ : A) (ops : List (Op A))
    (h : NoLatePhi false ops) (l : List ((A → A) × A)) (hC : (ceDataRun C₀ K₀ s₀ g₀ ops).C = l.map Prod.fst)
    (hK : (ceDataRun C₀ K₀ s₀ g₀ ops).K = l.map Prod.snd) {x : A} (hx : (ceDataRun C₀ K₀ s₀ g₀ ops).Expected x) (b : Bool) :
    (checkCe inv simplify (ceRun inv simplify C₀ K₀ s₀ g₀ ops)).1 = .ok b ↔ (b = true ↔ ∀ p ∈ l, p.1 x = p.2) := by
  obtain ⟨b', hb, hb'⟩ := (C47 simplify C₀ K₀ s₀ g₀ ops hsimp h l hC hK).1 x ((C45_partial simplify C₀ K₀ s₀ g₀ ops hinv h x).2 hx)
  rw [hb, ← hb']
  constructor
  · intro h
    cases h
    rfl
  · intro h
    rw [Bool.eq_iff_iff.2 h]

section General

variable {k R₁ R₂ : Type} [CommRing k] [CommRing R₁] [CommRing R₂] [Algebra k R₁] [Algebra k R₂] [Algebra k A] [Algebra R₁ A] [Algebra R₂ A]
  [IsScalarTower k R₁ A] [IsScalarTower k R₂ A] {n m : ℕ}

/-- The constrained expression of functionals, with the inverse support matrix written out. -/
theorem constrainedExpr_eq {R : Type} [CommRing R] [Algebra R A] (L : Fin n → A →ₗ[R] R) (κ : Fin n → R) (s : Fin n → A) (g e : A)
    (hS : IsUnit (supp L s)) (he : ConstrainedExpr (functionals L) (values κ) (List.ofFn s) g e) :
    e = g + ∑ j : Fin n, (∑ l : Fin n, (supp L s)⁻¹ l j • s l) * algebraMap R A (κ j - L j g) := by
  obtain ⟨-, -, -, N, hN, rfl⟩ := he
  have hlen : (functionals L).length = n := by simp [functionals]
  have hlenK : (values (A := A) κ).length = n := by simp [values]
  rw [hlen] at hN
  unfold withSwitching
  rw [hlen, hlenK, Finset.sum_range]
  congr 1
  refine Finset.sum_congr rfl fun j _ => ?_
  beta_reduce
  rw [switching_eq L s hS hN j, map_sub]
  unfold values applyOp functionals
  rw [ofFn_getD _ _ j.2, ofFn_getD _ _ j.2]

/-- The second group of constraints leaves the first alone: its switching functions are coefficients for the first group, and the operators commute. -/
theorem second_keeps (L₁ : Fin n → A →ₗ[R₁] R₁) (L₂ : Fin m → A →ₗ[R₂] R₂) (κ₁ : Fin n → R₁) (κ₂ : Fin m → R₂) (t : Fin m → R₁)
    (M : Matrix (Fin m) (Fin m) k) (hM : IsUnit M) (hL : ∀ i j, L₂ i (algebraMap R₁ A (t j)) = algebraMap k R₂ (M i j))
    (hcomm : ∀ i j f, algebraMap R₁ A (L₁ i (algebraMap R₂ A (L₂ j f))) = algebraMap R₂ A (L₂ j (algebraMap R₁ A (L₁ i f))))
    (e₁ e : A) (h₁ : ∀ i, L₁ i e₁ = κ₁ i)
    (he : ConstrainedExpr (functionals L₂) (values κ₂) (List.ofFn fun j => algebraMap R₁ A (t j)) e₁ e)
    (hk : ∀ i j, algebraMap R₁ A (L₁ i (algebraMap R₂ A (κ₂ j))) = algebraMap R₂ A (L₂ j (algebraMap R₁ A (κ₁ i)))) (i : Fin n) :
    algebraMap R₁ A (L₁ i e) = algebraMap R₁ A (κ₁ i) := by
  have hsupp : supp L₂ (fun j => algebraMap R₁ A (t j)) = M.map (algebraMap k R₂) := by
    ext a b
    exact hL a b
  have hMd : IsUnit M.det := (Matrix.isUnit_iff_isUnit_det _).1 hM
  have hinv : (supp L₂ (fun j => algebraMap R₁ A (t j)))⁻¹ = (M⁻¹).map (algebraMap k R₂) := by
    rw [hsupp]
    refine Matrix.inv_eq_right_inv ?_
    rw [← Matrix.map_mul, Matrix.mul_nonsing_inv _ hMd, Matrix.map_one _ (map_zero _) (map_one _)]
  have hu : IsUnit (supp L₂ (fun j => algebraMap R₁ A (t j))) := by
    rw [hsupp]
    exact hM.map (RingHom.mapMatrix (algebraMap k R₂))
  have hphi : ∀ j, ∑ l : Fin m, (supp L₂ fun j => algebraMap R₁ A (t j))⁻¹ l j • algebraMap R₁ A (t l) =
      algebraMap R₁ A (∑ l : Fin m, M⁻¹ l j • t l) := by
    intro j
    rw [map_sum]
    refine Finset.sum_congr rfl fun l _ => ?_
    rw [hinv, Matrix.map_apply, algebraMap_smul, Algebra.algebraMap_eq_smul_one, Algebra.algebraMap_eq_smul_one, smul_assoc]
  rw [constrainedExpr_eq L₂ κ₂ _ e₁ e hu he, map_add, map_add, map_sum, map_sum, h₁ i]
  have : ∀ j : Fin m, algebraMap R₁ A (L₁ i ((∑ l : Fin m, (supp L₂ fun j => algebraMap R₁ A (t j))⁻¹ l j • algebraMap R₁ A (t l)) *
      algebraMap R₂ A (κ₂ j - L₂ j e₁))) = 0 := by
    intro j
    rw [hphi j, ← Algebra.smul_def, map_smul, smul_eq_mul, map_mul, map_sub, map_sub, map_sub, hcomm i j, h₁ i, hk i j, sub_self, mul_zero]
  rw [Finset.sum_congr rfl fun j _ => this j]
  simp

variable {inv : Mat A → Except Err (Mat A)} (simplify : A → F) (C₁ C₂ : List (A → A)) (K₁ s₁ K₂ s₂ : List A) (g₁ g₂ : A) (ops₁ ops₂ : List (Op A))

/-- **C120**, two groups of constraints (one per variable), after any histories of two `CeSolver` objects without assignments to `phi` and
`ce`: if the second object gets the expression of the first as free function, the operators of the two groups commute and the support functions
of the second group are coefficients for the first with numbers as support matrix, then the expression meets the constraints of both groups if
and only if the values agree on the corners; and then, assigned to the first object, both `checkCe` return `True`. -/
theorem C120_groups (hinv : InverseContract inv) (hsimp : ∀ a b, simplify a = simplify b ↔ a = b) (h₁ : OnlyData ops₁) (h₂ : OnlyData ops₂)
    (hinj : Function.Injective (algebraMap R₁ A))
    (hn : 0 < n) (hm : 0 < m) (L₁ : Fin n → A →ₗ[R₁] R₁) (L₂ : Fin m → A →ₗ[R₂] R₂) (κ₁ : Fin n → R₁) (κ₂ : Fin m → R₂) (s : Fin n → A)
    (hS : IsUnit (supp L₁ s)) (t : Fin m → R₁) (M : Matrix (Fin m) (Fin m) k) (hM : IsUnit M)
    (hL : ∀ i j, L₂ i (algebraMap R₁ A (t j)) = algebraMap k R₂ (M i j))
    (hcomm : ∀ i j f, algebraMap R₁ A (L₁ i (algebraMap R₂ A (L₂ j f))) = algebraMap R₂ A (L₂ j (algebraMap R₁ A (L₁ i f))))
    (hC₁ : (ceDataRun C₁ K₁ s₁ g₁ ops₁).C = functionals L₁) (hK₁ : (ceDataRun C₁ K₁ s₁ g₁ ops₁).K = values κ₁)
    (hs₁ : (ceDataRun C₁ K₁ s₁ g₁ ops₁).s = List.ofFn s)
    (hC₂ : (ceDataRun C₂ K₂ s₂ g₂ ops₂).C = functionals L₂) (hK₂ : (ceDataRun C₂ K₂ s₂ g₂ ops₂).K = values κ₂)
    (hs₂ : (ceDataRun C₂ K₂ s₂ g₂ ops₂).s = List.ofFn fun j => algebraMap R₁ A (t j)) :
    ∃ e₁ e, (readCe inv (ceRun inv simplify C₁ K₁ s₁ g₁ ops₁)).1 = .ok e₁ ∧
      (readCe inv (setG (ceRun inv simplify C₂ K₂ s₂ g₂ ops₂) e₁)).1 = .ok e ∧
      (((∀ i, L₁ i e = κ₁ i) ∧ ∀ j, L₂ j e = κ₂ j) ↔
        ∀ i j, algebraMap R₁ A (L₁ i (algebraMap R₂ A (κ₂ j))) = algebraMap R₂ A (L₂ j (algebraMap R₁ A (κ₁ i)))) ∧
      ((∀ i j, algebraMap R₁ A (L₁ i (algebraMap R₂ A (κ₂ j))) = algebraMap R₂ A (L₂ j (algebraMap R₁ A (κ₁ i)))) →
        (checkCe inv simplify (setCe (ceRun inv simplify C₁ K₁ s₁ g₁ ops₁) e)).1 = .ok true ∧
        (checkCe inv simplify (setG (ceRun inv simplify C₂ K₂ s₂ g₂ ops₂) e₁)).1 = .ok true) := by
  obtain ⟨e₁, he₁, hc₁⟩ := C43_partial simplify C₁ K₁ s₁ g₁ ops₁ hinv h₁ hn L₁ κ₁ s hS hC₁ hK₁ hs₁
  have hu : IsUnit (supp L₂ (fun j => algebraMap R₁ A (t j))) := by
    have : supp L₂ (fun j => algebraMap R₁ A (t j)) = RingHom.mapMatrix (algebraMap k R₂) M := by
      ext a b
      exact hL a b
    rw [this]
    exact hM.map (RingHom.mapMatrix (algebraMap k R₂))
  have h₂' : OnlyData (ops₂ ++ [.setG e₁]) := by
    intro o ho
    rcases List.mem_append.1 ho with ho | ho
    · exact h₂ o ho
    · rw [List.mem_singleton.1 ho]
      exact ⟨fun p => by simp, fun p => by simp⟩
  have hrun : ceRun inv simplify C₂ K₂ s₂ g₂ (ops₂ ++ [.setG e₁]) = setG (ceRun inv simplify C₂ K₂ s₂ g₂ ops₂) e₁ := by
    unfold ceRun
    rw [List.foldl_append]
    rfl
  have hdat : ceDataRun C₂ K₂ s₂ g₂ (ops₂ ++ [.setG e₁]) = (ceDataRun C₂ K₂ s₂ g₂ ops₂).apply (.setG e₁) := by
    unfold ceDataRun
    rw [List.foldl_append]
    rfl
  have hC₂' : (ceDataRun C₂ K₂ s₂ g₂ (ops₂ ++ [.setG e₁])).C = functionals L₂ := by rw [hdat]; exact hC₂
  have hK₂' : (ceDataRun C₂ K₂ s₂ g₂ (ops₂ ++ [.setG e₁])).K = values κ₂ := by rw [hdat]; exact hK₂
  have hs₂' : (ceDataRun C₂ K₂ s₂ g₂ (ops₂ ++ [.setG e₁])).s = List.ofFn fun j => algebraMap R₁ A (t j) := by rw [hdat]; exact hs₂
  obtain ⟨e, he, hc⟩ := C43_partial simplify C₂ K₂ s₂ g₂ _ hinv h₂' hm L₂ κ₂ _ hu hC₂' hK₂' hs₂'
  have hce := (C45_data simplify C₂ K₂ s₂ g₂ _ hinv h₂' e).1 he
  rw [hC₂', hK₂', hs₂'] at hce
  have hg : (ceDataRun C₂ K₂ s₂ g₂ (ops₂ ++ [.setG e₁])).g = e₁ := by rw [hdat]; rfl
  rw [hg] at hce
  have hall : (∀ i j, algebraMap R₁ A (L₁ i (algebraMap R₂ A (κ₂ j))) = algebraMap R₂ A (L₂ j (algebraMap R₁ A (κ₁ i)))) →
      ∀ i, L₁ i e = κ₁ i := fun hk i => hinj (second_keeps L₁ L₂ κ₁ κ₂ t M hM hL hcomm e₁ e hc₁ hce hk i)
  refine ⟨e₁, e, he₁, hrun ▸ he, ⟨?_, fun hk => ⟨hall hk, hc⟩⟩, fun hk => ?_⟩
  · rintro ⟨a, b⟩ i j
    rw [← a i, ← b j, hcomm]
  · have hfl : ∀ {R : Type} [CommRing R] [Algebra R A] {q : ℕ} (L : Fin q → A →ₗ[R] R) (κ : Fin q → R),
        functionals L = (List.ofFn fun i => ((fun f => algebraMap R A (L i f)), algebraMap R A (κ i))).map Prod.fst ∧
        values κ = (List.ofFn fun i => ((fun f => algebraMap R A (L i f)), algebraMap R A (κ i))).map Prod.snd := by
      intro R _ _ q L κ
      exact ⟨by rw [List.map_ofFn]; rfl, by rw [List.map_ofFn]; rfl⟩
    constructor
    · have hN : NoLatePhi false (ops₁ ++ [.setCe e]) := by
        have : ∀ (l : List (Op A)) (b : Bool), OnlyData l → NoLatePhi b (l ++ [.setCe e]) := by
          intro l
          induction l with
          | nil => intro b _; trivial
          | cons o l ih =>
            intro b hl
            have hl' : OnlyData l := fun o ho => hl o (List.mem_cons_of_mem _ ho)
            have ho := hl o List.mem_cons_self
            cases o with
            | setPhi p => exact absurd rfl (ho.1 p)
            | setCe x => exact absurd rfl (ho.2 x)
            | _ => exact ih _ hl'
        exact this ops₁ false h₁
      have hrun : ceRun inv simplify C₁ K₁ s₁ g₁ (ops₁ ++ [.setCe e]) = setCe (ceRun inv simplify C₁ K₁ s₁ g₁ ops₁) e := by
        unfold ceRun
        rw [List.foldl_append]
        rfl
      have hdat : ceDataRun C₁ K₁ s₁ g₁ (ops₁ ++ [.setCe e]) = (ceDataRun C₁ K₁ s₁ g₁ ops₁).apply (.setCe e) := by
        unfold ceDataRun
        rw [List.foldl_append]
        rfl
      rw [← hrun]
      refine (check_true simplify hinv hsimp C₁ K₁ s₁ g₁ _ hN _ (by rw [hdat]; exact hC₁.trans (hfl L₁ κ₁).1)
        (by rw [hdat]; exact hK₁.trans (hfl L₁ κ₁).2) (x := e) (by rw [hdat]; rfl) true).2 ⟨fun _ p hp => ?_, fun _ => rfl⟩
      obtain ⟨i, rfl⟩ := (List.mem_ofFn' _ _).1 hp
      exact congrArg _ (hall hk i)
    · rw [← hrun]
      refine (check_true simplify hinv hsimp C₂ K₂ s₂ g₂ _ (onlyData_noLate _ h₂' false) _ (hC₂'.trans (hfl L₂ κ₂).1)
        (hK₂'.trans (hfl L₂ κ₂).2) (x := e) ?_ true).2 ⟨fun _ p hp => ?_, fun _ => rfl⟩
      · rw [← hrun] at *
        exact (C45_partial simplify C₂ K₂ s₂ g₂ _ hinv (onlyData_noLate _ h₂' false) e).1 he
      · obtain ⟨i, rfl⟩ := (List.mem_ofFn' _ _).1 hp
        exact congrArg _ (hc i)

end General

/-! ### The program of the test -/

theorem constrained_one (c : A → A) (κ s g n : A) (hn : c s * n = 1) : ConstrainedExpr [c] [κ] [s] g (g + s * n * (κ - c g)) := by
  refine ⟨by simp, rfl, rfl, fun _ _ => n, ?_, ?_⟩
  · constructor
    · intro i hi j hj
      have hi : i = 0 := by simpa using hi
      have hj : j = 0 := by simpa using hj
      subst hi hj
      simpa [applyOp] using hn
    · intro i hi j hj
      have hi : i = 0 := by simpa using hi
      have hj : j = 0 := by simpa using hj
      subst hi hj
      simpa [applyOp, mul_comm] using hn
  · simp [withSwitching, applyOp]

theorem constrained_two (c d : A → A) (κ μ s t g : A) (N : Fin 2 → Fin 2 → A)
    (h₁ : ∀ i j : Fin 2, (![c, d] i) s * N 0 j + (![c, d] i) t * N 1 j = if i = j then 1 else 0)
    (h₂ : ∀ i j : Fin 2, N i 0 * c (![s, t] j) + N i 1 * d (![s, t] j) = if i = j then 1 else 0) :
    ConstrainedExpr [c, d] [κ, μ] [s, t] g (g + ((s * N 0 0 + t * N 1 0) * (κ - c g) + (s * N 0 1 + t * N 1 1) * (μ - d g))) := by
  refine ⟨by simp, rfl, rfl, fun i j => if h : i < 2 ∧ j < 2 then N ⟨i, h.1⟩ ⟨j, h.2⟩ else 0, ?_, ?_⟩
  · constructor
    · intro i hi j hj
      have hi : i < 2 := hi
      have hj : j < 2 := hj
      have h := h₁ ⟨i, hi⟩ ⟨j, hj⟩
      interval_cases i <;> interval_cases j <;> simpa [applyOp, Finset.sum_range_succ] using h
    · intro i hi j hj
      have hi : i < 2 := hi
      have hj : j < 2 := hj
      have h := h₂ ⟨i, hi⟩ ⟨j, hj⟩
      interval_cases i <;> interval_cases j <;> simpa [applyOp, Finset.sum_range_succ] using h
  · simp [withSwitching, applyOp, Finset.sum_range_succ]

section Test

variable {inv : Mat Ex → Except Err (Mat Ex)} (simplify : Ex → F)

/-- `cex` of the test. -/
noncomputable def cexOf (g : Ex) : Ex :=
  ⟨fun p => g p + ((1 - p.1) * (0 - g (0, p.2)) + p.1 * (Real.cos p.2 - g (1, p.2))), by fun_prop⟩

/-- The expression of `csy` with free function `f`. -/
noncomputable def ceyOf (f : Ex) : Ex :=
  ⟨fun p => f p + p.2 * (-(1 / (2 * Real.pi))) * (0 - (f (p.1, 0) - f (p.1, 2 * Real.pi))), by fun_prop⟩

theorem cex_constrained (g : Ex) : ConstrainedExpr [subsX 0, subsX 1] [num 0, ⟨fun p => Real.cos p.2, by fun_prop⟩] [num 1, symX] g (cexOf g) := by
  have h := constrained_two (subsX 0) (subsX 1) (num 0) (⟨fun p => Real.cos p.2, by fun_prop⟩) (num 1) symX g ![![1, 0], ![-1, 1]]
    (by intro i j; fin_cases i <;> fin_cases j <;> ext p <;> simp [subsX, num, symX])
    (by intro i j; fin_cases i <;> fin_cases j <;> ext p <;> simp [subsX, num, symX])
  convert h using 1
  ext p
  have e : cexOf g p = g p + ((1 * 1 + p.1 * -1) * (0 - g (0, p.2)) + (1 * 0 + p.1 * 1) * (Real.cos p.2 - g (1, p.2))) := by
    unfold cexOf
    simp only [ContinuousMap.coe_mk]
    ring
  exact e

theorem cey_constrained (f : Ex) : ConstrainedExpr [fun u => subsY 0 u - subsY (2 * Real.pi) u] [num 0] [symY] f (ceyOf f) := by
  have h := constrained_one (fun u => subsY 0 u - subsY (2 * Real.pi) u) (num 0) symY f (num (-(1 / (2 * Real.pi)))) (by
    ext p
    have := Real.pi_ne_zero
    simp [subsY, symY, num]
    field_simp)
  convert h using 1
  ext p
  rfl

/-- **C120**, the test program: for every free function and every other unknown function it runs, its four assertions hold, and the full
expression meets `u(0, y) = 0`, `u(1, y) = cos y` and `u(x, 0) = u(x, 2π)` everywhere. -/
theorem C120_test (hinv : InverseContract inv) (hsimp : ∀ a b, simplify a = simplify b ↔ a = b) (g u1 : Ex) :
    ∃ ce : Ex, testMultivariate inv simplify g u1 = .ok ([true, true, true, true], ce) ∧
      (∀ y, ce (0, y) = 0) ∧ (∀ y, ce (1, y) = Real.cos y) ∧ ∀ x, ce (x, 0) = ce (x, 2 * Real.pi) := by
  have h0 : (0 : Ex) = num 0 := by ext; rfl
  set Cx : List (Ex → Ex) := [subsX 0, subsX 1] with hCx
  set Kx : List Ex := [num 0, ⟨fun p => Real.cos p.2, by fun_prop⟩] with hKx
  set Cy : List (Ex → Ex) := [fun u => subsY 0 u - subsY (2 * Real.pi) u] with hCy
  have hx : ∀ y, ceyOf (cexOf g) (0, y) = 0 := by
    intro y
    simp [ceyOf, cexOf]
  have hx1 : ∀ y, ceyOf (cexOf g) (1, y) = Real.cos y := by
    intro y
    simp [ceyOf, cexOf]
  have hy : ∀ (f : Ex) x, ceyOf f (x, 0) = ceyOf f (x, 2 * Real.pi) := by
    intro f x
    have := Real.pi_ne_zero
    simp [ceyOf]
    field_simp
    ring
  have r1 : (readCe inv (init Cx Kx [num 1, symX] g)).1 = .ok (cexOf g) :=
    (C45_partial (inv := inv) simplify Cx Kx [num 1, symX] g [] hinv trivial _).2 (cex_constrained g)
  have r2 : (checkCe inv simplify (readCe inv (init Cx Kx [num 1, symX] g)).2).1 = .ok true := by
    refine (check_true simplify hinv hsimp Cx Kx [num 1, symX] g [.readCe] trivial (Cx.zip Kx) rfl rfl (x := cexOf g) (cex_constrained g) true).2 ⟨fun _ => ?_, fun _ => rfl⟩
    simp only [hCx, hKx, List.zip_cons_cons, List.zip_nil_right, List.forall_mem_cons]
    refine ⟨?_, ?_, by simp⟩ <;> ext p <;> simp [subsX, cexOf, num]
  have r3 : (checkCe inv simplify (init Cy [num 0] [symY] u1)).1 = .ok true := by
    refine (check_true simplify hinv hsimp Cy [num 0] [symY] u1 [] trivial (Cy.zip [num 0]) rfl rfl (x := ceyOf u1) (cey_constrained u1) true).2 ⟨fun _ => ?_, fun _ => rfl⟩
    simp only [hCy, List.zip_cons_cons, List.zip_nil_right, List.forall_mem_cons]
    refine ⟨?_, by simp⟩
    ext p
    exact sub_eq_zero.2 (hy u1 p.1)
  have r4 : (readCe inv (setG (checkCe inv simplify (init Cy [num 0] [symY] u1)).2 (cexOf g))).1 = .ok (ceyOf (cexOf g)) :=
    (C45_partial (inv := inv) simplify Cy [num 0] [symY] u1 [.checkCe, .setG (cexOf g)] hinv trivial _).2 (cey_constrained _)
  have r5 : (checkCe inv simplify (setCe (checkCe inv simplify (readCe inv (init Cx Kx [num 1, symX] g)).2).2 (ceyOf (cexOf g)))).1 = .ok true := by
    refine (check_true simplify hinv hsimp Cx Kx [num 1, symX] g [.readCe, .checkCe, .setCe (ceyOf (cexOf g))] trivial (Cx.zip Kx) rfl rfl
      (x := ceyOf (cexOf g)) rfl true).2 ⟨fun _ => ?_, fun _ => rfl⟩
    simp only [hCx, hKx, List.zip_cons_cons, List.zip_nil_right, List.forall_mem_cons]
    refine ⟨?_, ?_, by simp⟩ <;> ext p
    · exact hx p.2
    · exact hx1 p.2
  have r6 : (checkCe inv simplify (readCe inv (setG (checkCe inv simplify (init Cy [num 0] [symY] u1)).2 (cexOf g))).2).1 = .ok true := by
    refine (check_true simplify hinv hsimp Cy [num 0] [symY] u1 [.checkCe, .setG (cexOf g), .readCe] trivial (Cy.zip [num 0]) rfl rfl
      (x := ceyOf (cexOf g)) (cey_constrained _) true).2 ⟨fun _ => ?_, fun _ => rfl⟩
    simp only [hCy, List.zip_cons_cons, List.zip_nil_right, List.forall_mem_cons]
    refine ⟨?_, by simp⟩
    ext p
    exact sub_eq_zero.2 (hy _ p.1)
  refine ⟨ceyOf (cexOf g), ?_, hx, hx1, hy _⟩
  unfold testMultivariate
  simp only [← hCx, ← hKx, ← hCy]
  rw [r1]
  simp only [bind, Except.bind]
  rw [r2]
  simp only
  rw [r3]
  simp only
  rw [r4]
  simp only
  rw [r5]
  simp only
  rw [r6]
  rfl

/-! ### Example 2.9 of the notebook -/

/-- `cs_ux_ce`. -/
noncomputable def uxOf (g : Ex) : Ex :=
  ⟨fun p => g p + ((1 - p.1) * (Real.cos (Real.pi * p.2) - g (0, p.2)) + p.1 / 3 * (Real.exp 1 - ∫ y in (-1 : ℝ)..2, g (1, y))), by fun_prop⟩

/-- The expression of `cs_uy` with free function `f`. -/
noncomputable def uyOf (f : Ex) : Ex := ⟨fun p => f p + (1 - 2 * p.2) / 2 * (-2 - (f (p.1, 1) - f (p.1, 2))), by fun_prop⟩

/-- `cs_vx_ce`. -/
noncomputable def vxOf (g : Ex) : Ex := ⟨fun p => g p + (5 - Real.cos (Real.pi * p.2) - g (0, p.2)), by fun_prop⟩

/-- The expression of `cs_vy` with free function `f`. -/
noncomputable def vyOf (u f : Ex) : Ex := ⟨fun p => f p + (5 - u (p.1, 0) - f (p.1, 0)), by fun_prop⟩

theorem integrateY_const (c : ℝ) : integrateY (-1) 2 (num c) = num (3 * c) := by
  ext p
  have : ∫ _ in (-1 : ℝ)..2, c = 3 * c := by
    rw [intervalIntegral.integral_const, smul_eq_mul]
    norm_num
  exact this

theorem ux_constrained (g : Ex) : ConstrainedExpr [subsX 0, fun u => integrateY (-1) 2 (subsX 1 u)]
    [⟨fun p => Real.cos (Real.pi * p.2), by fun_prop⟩, num (Real.exp 1)] [num 1, symX] g (uxOf g) := by
  have e1 : subsX 1 (num 1) = num 1 := by ext; rfl
  have e2 : subsX 1 symX = num 1 := by ext; rfl
  have e3 : subsX 0 (num 1) = num 1 := by ext; rfl
  have e4 : subsX 0 symX = num 0 := by ext; rfl
  have h := constrained_two (subsX 0) (fun u => integrateY (-1) 2 (subsX 1 u)) (⟨fun p => Real.cos (Real.pi * p.2), by fun_prop⟩)
    (num (Real.exp 1)) (num 1) symX g ![![num 1, num 0], ![num (-1), num (1 / 3)]]
    (by intro i j; fin_cases i <;> fin_cases j <;> ext p <;> simp [e1, e2, e3, e4, integrateY_const] <;> simp [num])
    (by intro i j; fin_cases i <;> fin_cases j <;> ext p <;> simp [e1, e2, e3, e4, integrateY_const] <;> simp [num])
  convert h using 1
  ext p
  have e : uxOf g p = g p + ((1 * 1 + p.1 * -1) * (Real.cos (Real.pi * p.2) - g (0, p.2)) +
      (1 * 0 + p.1 * (1 / 3)) * (Real.exp 1 - ∫ y in (-1 : ℝ)..2, g (1, y))) := by
    unfold uxOf
    simp only [ContinuousMap.coe_mk]
    ring
  exact e

theorem vx_constrained (g : Ex) : ConstrainedExpr [subsX 0] [⟨fun p => 5 - Real.cos (Real.pi * p.2), by fun_prop⟩] [num 1] g (vxOf g) := by
  have h := constrained_one (subsX 0) (⟨fun p => 5 - Real.cos (Real.pi * p.2), by fun_prop⟩) (num 1) g (num 1) (by
    ext p
    simp [subsX, num])
  convert h using 1
  ext p
  simp [vxOf, num, subsX]

theorem vy_constrained (u f : Ex) : ConstrainedExpr [subsY 0] [num 5 - subsY 0 u] [num 1] f (vyOf u f) := by
  have h := constrained_one (subsY 0) (num 5 - subsY 0 u) (num 1) f (num 1) (by
    ext p
    simp [subsY, num])
  convert h using 1
  ext p
  simp [vyOf, num, subsY]

theorem uy_switching (f : Ex) : uyOf f = withSwitching [fun u => subsY 1 u - subsY 2 u] [num (-2)] f
    fun _ => (⟨fun p => (1 - 2 * p.2) / 2, by fun_prop⟩ : Ex) := by
  ext p
  simp [withSwitching, applyOp, uyOf, subsY, num]

/-- The integral of the switching function for `y` is zero, so the integral constraint is kept. -/
theorem integral_switching (c : ℝ) : ∫ y in (-1 : ℝ)..2, (1 - 2 * y) / 2 * c = 0 := by
  have h : ∫ y in (-1 : ℝ)..2, (1 - 2 * y) / 2 * c = (fun y : ℝ => (y - y ^ 2) / 2 * c) 2 - (fun y : ℝ => (y - y ^ 2) / 2 * c) (-1) := by
    refine intervalIntegral.integral_eq_sub_of_hasDerivAt (f := fun y : ℝ => (y - y ^ 2) / 2 * c) (fun y _ => ?_)
      (Continuous.intervalIntegrable (u := fun y : ℝ => (1 - 2 * y) / 2 * c) (by fun_prop) _ _)
    have := (((hasDerivAt_id y).sub (hasDerivAt_pow 2 y)).div_const 2).mul_const c
    refine this.congr_deriv ?_
    simp
  rw [h]
  norm_num

/-- **C120**, Example 2.9 of the notebook: for all free functions the program runs, its four calls of `checkCe` return `True`, and the two full expressions meet the five constraints, among them the integral and the one that couples `u` and `v`. -/
theorem C120_example (hinv : InverseContract inv) (hsimp : ∀ a b, simplify a = simplify b ↔ a = b) (gu gv u₀ v1 : Ex) :
    ∃ u v : Ex, exampleTwoNine inv simplify gu gv u₀ v1 = .ok ([true, true, true, true], u, v) ∧
      (∀ y, u (0, y) = Real.cos (Real.pi * y)) ∧ (∫ y in (-1 : ℝ)..2, u (1, y)) = Real.exp 1 ∧ (∀ x, u (x, 1) - u (x, 2) = -2) ∧
      (∀ x, u (x, 0) + v (x, 0) = 5) ∧ ∀ y, v (0, y) = 5 - Real.cos (Real.pi * y) := by
  set Cux : List (Ex → Ex) := [subsX 0, fun u => integrateY (-1) 2 (subsX 1 u)] with hCux
  set Kux : List Ex := [⟨fun p => Real.cos (Real.pi * p.2), by fun_prop⟩, num (Real.exp 1)] with hKux
  set Cuy : List (Ex → Ex) := [fun u => subsY 1 u - subsY 2 u] with hCuy
  set suy : Ex := ⟨fun p => (1 - 2 * p.2) / 2, by fun_prop⟩ with hsuy
  set Kvx : List Ex := [⟨fun p => 5 - Real.cos (Real.pi * p.2), by fun_prop⟩] with hKvx
  set U : Ex := uyOf (uxOf gu) with hU
  set V : Ex := vyOf U (vxOf gv) with hV
  have hux0 : ∀ y, uxOf gu (0, y) = Real.cos (Real.pi * y) := by
    intro y
    simp [uxOf]
  have hc2 : Real.cos (Real.pi * 2) = 1 := by
    rw [mul_comm]
    exact Real.cos_two_pi
  have h1 : ∀ y, U (0, y) = Real.cos (Real.pi * y) := by
    intro y
    simp only [hU, uyOf, ContinuousMap.coe_mk]
    rw [hux0, hux0, hux0, hc2, mul_one, Real.cos_pi]
    ring
  have hI : ∀ f : ℝ → ℝ, Continuous f → IntervalIntegrable f MeasureTheory.volume (-1) 2 := fun f hf => hf.intervalIntegrable _ _
  have h2' : ∫ y in (-1 : ℝ)..2, uxOf gu (1, y) = Real.exp 1 := by
    have e : ∀ y, uxOf gu (1, y) = gu (1, y) + 1 / 3 * (Real.exp 1 - ∫ y in (-1 : ℝ)..2, gu (1, y)) := by
      intro y
      simp [uxOf]
    rw [intervalIntegral.integral_congr (fun y _ => e y),
      intervalIntegral.integral_add (hI (fun y => gu (1, y)) (by fun_prop)) (hI (fun _ => _) continuous_const), intervalIntegral.integral_const, smul_eq_mul]
    ring
  have h2 : ∫ y in (-1 : ℝ)..2, U (1, y) = Real.exp 1 := by
    have e : ∀ y, U (1, y) = uxOf gu (1, y) + (1 - 2 * y) / 2 * (-2 - (uxOf gu (1, 1) - uxOf gu (1, 2))) := fun y => rfl
    rw [intervalIntegral.integral_congr (fun y _ => e y), intervalIntegral.integral_add (hI (fun y => uxOf gu (1, y)) (by fun_prop))
        (hI (fun y => (1 - 2 * y) / 2 * (-2 - (uxOf gu (1, 1) - uxOf gu (1, 2)))) (by fun_prop)), h2', integral_switching, add_zero]
  have h3 : ∀ (f : Ex) x, uyOf f (x, 1) - uyOf f (x, 2) = -2 := by
    intro f x
    simp only [uyOf, ContinuousMap.coe_mk]
    ring
  have h4 : ∀ x, V (x, 0) = 5 - U (x, 0) := by
    intro x
    simp only [hV, vyOf, ContinuousMap.coe_mk]
    ring
  have h5 : ∀ y, V (0, y) = 5 - Real.cos (Real.pi * y) := by
    intro y
    have e : V (0, y) = vxOf gv (0, y) + (5 - U (0, 0) - vxOf gv (0, 0)) := rfl
    rw [e, h1]
    simp [vxOf]
  have r1 : (readCe inv (init Cux Kux [num 1, symX] gu)).1 = .ok (uxOf gu) :=
    (C45_partial (inv := inv) simplify Cux Kux [num 1, symX] gu [] hinv trivial _).2 (ux_constrained gu)
  have r2 : (readCe inv (setPhi (init Cuy [num (-2)] [suy] gu) ⟨1, 1, fun _ _ => suy⟩)).1 = .ok (uyOf gu) :=
    (C45_partial (inv := inv) simplify Cuy [num (-2)] [suy] gu [.setPhi ⟨1, 1, fun _ _ => suy⟩] hinv ⟨rfl, trivial⟩ _).2
      ⟨Nat.one_pos, Nat.one_pos, rfl, le_refl _, uy_switching gu⟩
  have r3 : (readCe inv (init [subsX 0] Kvx [num 1] gv)).1 = .ok (vxOf gv) :=
    (C45_partial (inv := inv) simplify [subsX 0] Kvx [num 1] gv [] hinv trivial _).2 (vx_constrained gv)
  have r4 : (readCe inv (init [subsY 0] [num 5 - subsY 0 u₀] [num 1] v1)).1 = .ok (vyOf u₀ v1) :=
    (C45_partial (inv := inv) simplify [subsY 0] [num 5 - subsY 0 u₀] [num 1] v1 [] hinv trivial _).2 (vy_constrained u₀ v1)
  have r5 : (readCe inv (setG (readCe inv (setPhi (init Cuy [num (-2)] [suy] gu) ⟨1, 1, fun _ _ => suy⟩)).2 (uxOf gu))).1 = .ok U :=
    (C45_partial (inv := inv) simplify Cuy [num (-2)] [suy] gu [.setPhi ⟨1, 1, fun _ _ => suy⟩, .readCe, .setG (uxOf gu)] hinv ⟨rfl, trivial⟩ _).2
      ⟨Nat.one_pos, Nat.one_pos, rfl, le_refl _, uy_switching _⟩
  have r6 : (readCe inv (setG (setKappa (readCe inv (init [subsY 0] [num 5 - subsY 0 u₀] [num 1] v1)).2 [num 5 - subsY 0 U]) (vxOf gv))).1 = .ok V :=
    (C45_partial (inv := inv) simplify [subsY 0] [num 5 - subsY 0 u₀] [num 1] v1 [.readCe, .setKappa [num 5 - subsY 0 U], .setG (vxOf gv)]
      hinv trivial _).2 (vy_constrained U _)
  have r7 : (checkCe inv simplify (setCe (readCe inv (init Cux Kux [num 1, symX] gu)).2 U)).1 = .ok true := by
    refine (check_true simplify hinv hsimp Cux Kux [num 1, symX] gu [.readCe, .setCe U] trivial (Cux.zip Kux) rfl rfl (x := U) rfl true).2
      ⟨fun _ => ?_, fun _ => rfl⟩
    simp only [hCux, hKux, List.zip_cons_cons, List.zip_nil_right, List.forall_mem_cons]
    refine ⟨?_, ?_, by simp⟩ <;> ext p
    · exact h1 p.2
    · exact h2
  have r8 : (checkCe inv simplify (setCe (readCe inv (setG (readCe inv (setPhi (init Cuy [num (-2)] [suy] gu) ⟨1, 1, fun _ _ => suy⟩)).2
      (uxOf gu))).2 U)).1 = .ok true := by
    refine (check_true simplify hinv hsimp Cuy [num (-2)] [suy] gu [.setPhi ⟨1, 1, fun _ _ => suy⟩, .readCe, .setG (uxOf gu), .readCe, .setCe U]
      ⟨rfl, trivial⟩ (Cuy.zip [num (-2)]) rfl rfl (x := U) rfl true).2 ⟨fun _ => ?_, fun _ => rfl⟩
    simp only [hCuy, List.zip_cons_cons, List.zip_nil_right, List.forall_mem_cons]
    refine ⟨?_, by simp⟩
    ext p
    exact h3 _ p.1
  have r9 : (checkCe inv simplify (setCe (readCe inv (init [subsX 0] Kvx [num 1] gv)).2 V)).1 = .ok true := by
    refine (check_true simplify hinv hsimp [subsX 0] Kvx [num 1] gv [.readCe, .setCe V] trivial (List.zip [subsX 0] Kvx) rfl rfl (x := V) rfl true).2
      ⟨fun _ => ?_, fun _ => rfl⟩
    simp only [hKvx, List.zip_cons_cons, List.zip_nil_right, List.forall_mem_cons]
    refine ⟨?_, by simp⟩
    ext p
    exact h5 p.2
  have r10 : (checkCe inv simplify (setCe (readCe inv (setG (setKappa (readCe inv (init [subsY 0] [num 5 - subsY 0 u₀] [num 1] v1)).2
      [num 5 - subsY 0 U]) (vxOf gv))).2 V)).1 = .ok true := by
    refine (check_true simplify hinv hsimp [subsY 0] [num 5 - subsY 0 u₀] [num 1] v1
      [.readCe, .setKappa [num 5 - subsY 0 U], .setG (vxOf gv), .readCe, .setCe V] trivial (List.zip [subsY 0] [num 5 - subsY 0 U])
      rfl rfl (x := V) rfl true).2 ⟨fun _ => ?_, fun _ => rfl⟩
    simp only [List.zip_cons_cons, List.zip_nil_right, List.forall_mem_cons]
    refine ⟨?_, by simp⟩
    ext p
    exact h4 p.1
  refine ⟨U, V, ?_, h1, h2, h3 _, fun x => by rw [h4]; ring, h5⟩
  unfold exampleTwoNine
  simp only [← hCux, ← hKux, ← hCuy, ← hsuy, ← hKvx]
  rw [r1]
  simp only [bind, Except.bind]
  rw [r2]
  simp only
  rw [r3]
  simp only
  rw [r4]
  simp only
  rw [r5]
  simp only
  rw [r6]
  simp only
  rw [r7]
  simp only
  rw [r8]
  simp only
  rw [r9]
  simp only
  rw [r10]
  rfl

/-- The claim fails for an integral constraint when the support function of the other variable is not chosen for it, as the notebook warns: with `y` in place of `(1 - 2y)/2` and no assigned `phi`, the full expression misses the integral by 3, and `checkCe` of the first object says so. -/
theorem C120_integral_fails (hinv : InverseContract inv) (hsimp : ∀ a b, simplify a = simplify b ↔ a = b) :
    ∃ u1 u : Ex, (readCe inv (init [subsX 0, fun u => integrateY (-1) 2 (subsX 1 u)]
        [⟨fun p => Real.cos (Real.pi * p.2), by fun_prop⟩, num (Real.exp 1)] [num 1, symX] 0)).1 = .ok u1 ∧
      (readCe inv (init [fun u => subsY 1 u - subsY 2 u] [num (-2)] [symY] u1)).1 = .ok u ∧
      (∫ y in (-1 : ℝ)..2, u1 (1, y)) = Real.exp 1 ∧ (∫ y in (-1 : ℝ)..2, u (1, y)) = Real.exp 1 + 3 ∧
      (checkCe inv simplify (setCe (readCe inv (init [subsX 0, fun u => integrateY (-1) 2 (subsX 1 u)]
        [⟨fun p => Real.cos (Real.pi * p.2), by fun_prop⟩, num (Real.exp 1)] [num 1, symX] 0)).2 u)).1 = .ok false := by
  set Cux : List (Ex → Ex) := [subsX 0, fun u => integrateY (-1) 2 (subsX 1 u)] with hCux
  set Kux : List Ex := [⟨fun p => Real.cos (Real.pi * p.2), by fun_prop⟩, num (Real.exp 1)] with hKux
  set W : Ex := uxOf 0 + symY * num (-1) * (num (-2) - (subsY 1 (uxOf 0) - subsY 2 (uxOf 0))) with hW
  have e1 : ∀ y, uxOf 0 (1, y) = Real.exp 1 / 3 := by
    intro y
    simp [uxOf]
    ring
  have i1 : ∫ y in (-1 : ℝ)..2, uxOf 0 (1, y) = Real.exp 1 := by
    rw [intervalIntegral.integral_congr (fun y _ => e1 y), intervalIntegral.integral_const, smul_eq_mul]
    ring
  have e2 : ∀ y, W (1, y) = Real.exp 1 / 3 + 2 * y := by
    intro y
    have : W (1, y) = uxOf 0 (1, y) + y * (-1) * (-2 - (uxOf 0 (1, 1) - uxOf 0 (1, 2))) := rfl
    rw [this, e1, e1, e1]
    ring
  have i2 : ∫ y in (-1 : ℝ)..2, W (1, y) = Real.exp 1 + 3 := by
    rw [intervalIntegral.integral_congr (fun y _ => e2 y),
      intervalIntegral.integral_add (Continuous.intervalIntegrable continuous_const _ _)
        (Continuous.intervalIntegrable (u := fun y : ℝ => 2 * y) (by fun_prop) _ _),
      intervalIntegral.integral_const, intervalIntegral.integral_const_mul, integral_id, smul_eq_mul]
    ring
  refine ⟨uxOf 0, W, (C45_partial (inv := inv) simplify Cux Kux [num 1, symX] 0 [] hinv trivial _).2 (ux_constrained 0),
    (C45_partial (inv := inv) simplify _ _ _ _ [] hinv trivial _).2 (constrained_one (fun u => subsY 1 u - subsY 2 u) (num (-2)) symY (uxOf 0) (num (-1)) ?_),
    i1, i2, ?_⟩
  · ext p
    simp [subsY, symY, num]
    norm_num
  · refine (check_true simplify hinv hsimp Cux Kux [num 1, symX] 0 [.readCe, .setCe W] trivial (Cux.zip Kux) rfl rfl (x := W) rfl false).2
      ⟨fun h => by simp at h, fun h => ?_⟩
    have h2 := h ((fun u => integrateY (-1) 2 (subsX 1 u)), num (Real.exp 1)) (by simp [hCux, hKux])
    have h3 : ∫ y in (-1 : ℝ)..2, W (1, y) = Real.exp 1 := congrArg (fun f : Ex => f (0, 0)) h2
    rw [i2] at h3
    linarith

/-- The contract of the inverse can be met for these expressions, and there is a simplifier that decides equality. -/
example : (∃ inv : Mat Ex → Except Err (Mat Ex), InverseContract inv) ∧ ∀ a b : Ex, id a = id b ↔ a = b := ⟨inverse_exists, fun _ _ => Iff.rfl⟩

end Test

/-! ### The hypotheses of `C120_groups` for the constraints of the test -/

section Groups

/-- The functions of `x`. -/
def FunX := C(ℝ, ℝ)

/-- The functions of `y`. -/
def FunY := C(ℝ, ℝ)

noncomputable instance : CommRing FunX := inferInstanceAs (CommRing C(ℝ, ℝ))
noncomputable instance : CommRing FunY := inferInstanceAs (CommRing C(ℝ, ℝ))
noncomputable instance : Algebra ℝ FunX := inferInstanceAs (Algebra ℝ C(ℝ, ℝ))
noncomputable instance : Algebra ℝ FunY := inferInstanceAs (Algebra ℝ C(ℝ, ℝ))

/-- A function of `x` as a function of `x` and `y`. -/
noncomputable def liftX : C(ℝ, ℝ) →+* Ex where
  toFun f := ⟨fun p => f p.1, by fun_prop⟩
  map_one' := rfl
  map_mul' _ _ := rfl
  map_zero' := rfl
  map_add' _ _ := rfl

/-- A function of `y` as a function of `x` and `y`. -/
noncomputable def liftY : C(ℝ, ℝ) →+* Ex where
  toFun f := ⟨fun p => f p.2, by fun_prop⟩
  map_one' := rfl
  map_mul' _ _ := rfl
  map_zero' := rfl
  map_add' _ _ := rfl

noncomputable instance : Algebra FunX Ex := RingHom.toAlgebra (R := C(ℝ, ℝ)) liftX
noncomputable instance : Algebra FunY Ex := RingHom.toAlgebra (R := C(ℝ, ℝ)) liftY
instance : IsScalarTower ℝ FunX Ex := IsScalarTower.of_algebraMap_eq' rfl
instance : IsScalarTower ℝ FunY Ex := IsScalarTower.of_algebraMap_eq' rfl

/-- The constraint operators on `x`. -/
noncomputable def testLx : Fin 2 → Ex →ₗ[FunY] FunY := fun i =>
  { toFun := fun f => (⟨fun y => f ((i : ℝ), y), by fun_prop⟩ : C(ℝ, ℝ))
    map_add' := fun _ _ => rfl
    map_smul' := fun _ _ => rfl }

/-- The constraint operator on `y`. -/
noncomputable def testLy : Fin 1 → Ex →ₗ[FunX] FunX := fun _ =>
  { toFun := fun f => (⟨fun x => f (x, 0) - f (x, 2 * Real.pi), by fun_prop⟩ : C(ℝ, ℝ))
    map_add' := fun f g => ContinuousMap.ext fun x => add_sub_add_comm (f (x, 0)) (g (x, 0)) (f (x, 2 * Real.pi)) (g (x, 2 * Real.pi))
    map_smul' := fun c f => ContinuousMap.ext fun x => (mul_sub (DFunLike.coe (F := C(ℝ, ℝ)) c x) (f (x, 0)) (f (x, 2 * Real.pi))).symm }

/-- The values on `x`. -/
noncomputable def testKx : Fin 2 → FunY := ![(0 : C(ℝ, ℝ)), (⟨Real.cos, by fun_prop⟩ : C(ℝ, ℝ))]

/-- The support function for `y`. -/
noncomputable def testSy : Fin 1 → FunY := ![(⟨fun y => y, by fun_prop⟩ : C(ℝ, ℝ))]

/-- Non-vacuity of `C120_groups`: the constraints of the test, with other histories: first a wrong value that is corrected, readings in between. -/
example (inv : Mat Ex → Except Err (Mat Ex)) (hinv : InverseContract inv) (g g' : Ex) [DecidableEq Ex] :
    ∃ e₁ e : Ex, (readCe inv (ceRun inv id (functionals testLx) [] (List.ofFn ![1, symX]) g
        [.readCe, .setKappa (values testKx), .readRho])).1 = .ok e₁ ∧
      (readCe inv (setG (ceRun inv id (functionals testLy) (values (0 : Fin 1 → FunX)) (List.ofFn ![symY]) g' [.readPhi]) e₁)).1 = .ok e ∧
      (∀ y, e (0, y) = 0) ∧ (∀ y, e (1, y) = Real.cos y) ∧ ∀ x, e (x, 0) = e (x, 2 * Real.pi) := by
  have hs : supp testLx ![1, symX] = !![1, 0; 1, 1] := by
    ext i j
    fin_cases i <;> fin_cases j <;> first | rfl | exact ContinuousMap.ext fun y => by simp [supp, testLx, symX]; rfl
  obtain ⟨e₁, e, h1, h2, h3, -⟩ := C120_groups (k := ℝ) (R₁ := FunY) (R₂ := FunX) (inv := inv) (id : Ex → Ex) (functionals testLx) (functionals testLy) [] (List.ofFn ![1, symX])
    (values (0 : Fin 1 → FunX)) (List.ofFn ![symY]) g g'
    [.readCe, .setKappa (values testKx), .readRho] [.readPhi] hinv (fun _ _ => Iff.rfl)
    (by intro o ho; simp at ho; rcases ho with rfl | rfl | rfl <;> simp) (by intro o ho; simp at ho; subst ho; simp)
    (fun a b h => ContinuousMap.ext fun y => congrArg (fun f : Ex => f (0, y)) h) (by norm_num) (by norm_num)
    testLx testLy testKx 0 ![1, symX]
    (by rw [hs, Matrix.isUnit_iff_isUnit_det]; simp) testSy !![-(2 * Real.pi)]
    (by rw [Matrix.isUnit_iff_isUnit_det]; simp [Real.pi_ne_zero])
    (by intro i j; fin_cases i; fin_cases j; exact ContinuousMap.ext fun x => zero_sub (2 * Real.pi))
    (fun i j f => rfl) rfl rfl rfl rfl rfl (by congr 1)
  have h4 := h3.2 (by
    intro i j
    fin_cases j
    ext p
    fin_cases i
    · change (0 : ℝ) = 0 - 0
      norm_num
    · change (0 : ℝ) = Real.cos 0 - Real.cos (2 * Real.pi)
      simp)
  refine ⟨e₁, e, h1, h2, fun y => ?_, fun y => ?_, fun x => ?_⟩
  · have := congrArg (fun f : C(ℝ, ℝ) => f y) (h4.1 0)
    have h : e (((0 : Fin 2) : ℕ), y) = 0 := this
    simpa using h
  · have := congrArg (fun f : C(ℝ, ℝ) => f y) (h4.1 1)
    have h : e (((1 : Fin 2) : ℕ), y) = Real.cos y := this
    simpa using h
  · have := congrArg (fun f : C(ℝ, ℝ) => f x) (h4.2 0)
    exact sub_eq_zero.1 this

end Groups

end Verif.Props
