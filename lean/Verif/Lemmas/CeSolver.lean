import Verif.Spec.CeSolver
import Mathlib.Algebra.BigOperators.Ring.Finset
import Mathlib.LinearAlgebra.Matrix.NonsingularInverse

/-! # The caches of `CeSolver` -/

set_option linter.unusedSectionVars false

namespace Verif.Lemmas.CeSolver

open Verif.Np Verif.Py Verif.Spec Verif.Model.CeSolver

variable {A : Type} [CommRing A] {F : Type} [DecidableEq F]

/-- `phi` of the data without caches. -/
def phiCalc (inv : Mat A → Except Err (Mat A)) (C : List (A → A)) (s : List A) : Except Err (Mat A) :=
  (inv (supportMatrix C s)).bind fun N => mul (transpose (colMatrix s)) N

def phiOf (inv : Mat A → Except Err (Mat A)) (d : CeData A) : Except Err (Mat A) :=
  match d.phi with
  | some p => .ok p
  | none => phiCalc inv d.C d.s

def rhoOf (d : CeData A) : Except Err (Mat A) := (rhoList d.C d.g 0 d.K).map colMatrix

def ceCalc (inv : Mat A → Except Err (Mat A)) (d : CeData A) : Except Err A :=
  (phiOf inv d).bind fun p => (rhoOf d).bind fun r => ((mul p r).bind first).map (d.g + ·)

def ceOf (inv : Mat A → Except Err (Mat A)) (d : CeData A) : Except Err A :=
  match d.ce with
  | some e => .ok e
  | none => ceCalc inv d

/-- The caches agree with the data. -/
structure Sim (inv : Mat A → Except Err (Mat A)) (σ : Solver A) (d : CeData A) : Prop where
  C : σ.C = d.C
  K : σ.K = d.K
  s : σ.s = d.s
  g : σ.g = d.g
  rho : σ.rhoStale = true
  S : σ.SStale = false → σ.S = some (supportMatrix d.C d.s)
  alpha : σ.alphaStale = false → ∃ N, σ.alpha = some N ∧ inv (supportMatrix d.C d.s) = .ok N
  phi : σ.phiStale = false → ∃ p, σ.phi = some p ∧ phiOf inv d = .ok p
  phiNone : σ.phiStale = true → d.phi = none
  ce : σ.ceStale = false → ∃ e, σ.ce = some e ∧ ceOf inv d = .ok e
  ceNone : σ.ceStale = true → d.ce = none

variable {inv : Mat A → Except Err (Mat A)} {σ : Solver A} {d : CeData A} {simplify : A → F}

theorem sim_init (C : List (A → A)) (K s : List A) (g : A) : Sim inv (init C K s g) { C := C, K := K, s := s, g := g } := by
  constructor <;> simp [init]

theorem readS_sim (h : Sim inv σ d) : (readS σ).1 = .ok (supportMatrix d.C d.s) ∧ Sim inv (readS σ).2 d ∧
    (readS σ).2.ceStale = σ.ceStale := by
  unfold readS
  by_cases hs : σ.SStale = true
  · rw [if_pos hs]
    refine ⟨by rw [h.C, h.s], ⟨h.C, h.K, h.s, h.g, h.rho, fun _ => ?_, h.alpha, h.phi, h.phiNone, h.ce, h.ceNone⟩, rfl⟩
    change some _ = some _
    rw [h.C, h.s]
  · rw [if_neg hs, h.S (by simpa using hs)]
    exact ⟨rfl, h, rfl⟩

theorem readAlpha_sim (h : Sim inv σ d) : (readAlpha inv σ).1 = inv (supportMatrix d.C d.s) ∧ Sim inv (readAlpha inv σ).2 d ∧
    (readAlpha inv σ).2.ceStale = σ.ceStale := by
  unfold readAlpha
  by_cases hs : σ.alphaStale = true
  · rw [if_pos hs]
    obtain ⟨h1, h2, h3⟩ := readS_sim h
    rcases hqr : readS σ with ⟨r, σ'⟩
    rw [hqr] at h1 h2 h3
    simp only at h1 h2 h3
    subst h1
    simp only [storeAlpha]
    cases hi : inv (supportMatrix d.C d.s) with
    | error e => exact ⟨rfl, h2, h3⟩
    | ok N => exact ⟨rfl, ⟨h2.C, h2.K, h2.s, h2.g, h2.rho, h2.S, fun _ => ⟨N, rfl, hi⟩, h2.phi, h2.phiNone, h2.ce, h2.ceNone⟩, h3⟩
  · rw [if_neg hs]
    obtain ⟨N, hN, hi⟩ := h.alpha (by simpa using hs)
    rw [hN, hi]
    exact ⟨rfl, h, rfl⟩

theorem readPhi_sim (h : Sim inv σ d) : (readPhi inv σ).1 = phiOf inv d ∧ Sim inv (readPhi inv σ).2 d ∧
    (readPhi inv σ).2.ceStale = σ.ceStale := by
  unfold readPhi
  by_cases hs : σ.phiStale = true
  · rw [if_pos hs]
    obtain ⟨h1, h2, h3⟩ := readAlpha_sim h
    have hn := h.phiNone hs
    have hp : phiOf inv d = phiCalc inv d.C d.s := by
      unfold phiOf
      rw [hn]
    rcases hqr : readAlpha inv σ with ⟨r, σ'⟩
    rw [hqr] at h1 h2 h3
    simp only at h1 h2 h3
    rw [hp]
    unfold phiCalc
    rw [h.s, ← h1]
    cases r with
    | error e => exact ⟨rfl, h2, h3⟩
    | ok N =>
      simp only [storePhi, Except.bind]
      cases hm : mul (transpose (colMatrix d.s)) N with
      | error e => exact ⟨rfl, h2, h3⟩
      | ok p =>
        refine ⟨rfl, ⟨h2.C, h2.K, h2.s, h2.g, h2.rho, h2.S, h2.alpha, fun _ => ⟨p, rfl, ?_⟩, fun hc => by simp at hc, h2.ce, h2.ceNone⟩, h3⟩
        rw [hp]
        unfold phiCalc
        rw [← h1]
        exact hm
  · rw [if_neg hs]
    obtain ⟨p, hp, hi⟩ := h.phi (by simpa using hs)
    rw [hp, hi]
    exact ⟨rfl, h, rfl⟩

theorem readRho_sim (h : Sim inv σ d) : (readRho σ).1 = rhoOf d ∧ Sim inv (readRho σ).2 d ∧ (readRho σ).2.ceStale = σ.ceStale := by
  unfold readRho rhoOf
  rw [if_pos h.rho, ← h.C, ← h.g, ← h.K]
  cases rhoList σ.C σ.g 0 σ.K with
  | error e => exact ⟨rfl, h, rfl⟩
  | ok l => exact ⟨rfl, ⟨h.C, h.K, h.s, h.g, h.rho, h.S, h.alpha, h.phi, h.phiNone, h.ce, h.ceNone⟩, rfl⟩

theorem solveCe_sim (h : Sim inv σ d) (hs : σ.ceStale = true) : (solveCe inv σ).1 = ceCalc inv d ∧ Sim inv (solveCe inv σ).2 d ∧
    (solveCe inv σ).2.ceStale = true ∧ ∀ e, (solveCe inv σ).1 = .ok e → (solveCe inv σ).2.ce = some e := by
  unfold solveCe ceCalc
  obtain ⟨h1, h2, h3⟩ := readPhi_sim h
  rcases hqr : readPhi inv σ with ⟨r, σ'⟩
  rw [hqr] at h1 h2 h3
  simp only at h1 h2 h3
  rw [← h1]
  rw [hs] at h3
  cases r with
  | error e => exact ⟨rfl, h2, h3, fun e he => by cases he⟩
  | ok p =>
    obtain ⟨k1, k2, k3⟩ := readRho_sim h2
    simp only [Except.bind]
    rcases hqq : readRho σ' with ⟨q, σ''⟩
    rw [hqq] at k1 k2 k3
    simp only at k1 k2 k3
    rw [← k1]
    rw [h3] at k3
    cases q with
    | error e => exact ⟨rfl, k2, k3, fun e he => by cases he⟩
    | ok r =>
      simp only [storeCe]
      change _ = Except.map (d.g + ·) ((mul p r).bind first) ∧ _
      cases (mul p r).bind first with
      | error e => exact ⟨rfl, k2, k3, fun e he => by cases he⟩
      | ok x =>
        rw [k2.g]
        refine ⟨rfl, ⟨k2.C, k2.K, k2.s, rfl, k2.rho, k2.S, k2.alpha, k2.phi, k2.phiNone, ?_, k2.ceNone⟩, k3, ?_⟩
        · intro hc
          change σ''.ceStale = false at hc
          rw [k3] at hc
          cases hc
        · intro e he
          exact congrArg some (Except.ok.inj he)

theorem readCe_sim (h : Sim inv σ d) : (readCe inv σ).1 = ceOf inv d ∧ Sim inv (readCe inv σ).2 d := by
  unfold readCe
  by_cases hs : σ.ceStale = true
  · rw [if_pos hs]
    obtain ⟨h1, h2, h3, h4⟩ := solveCe_sim h hs
    have hn := h.ceNone hs
    have hc : ceOf inv d = ceCalc inv d := by
      unfold ceOf
      rw [hn]
    rcases hqr : solveCe inv σ with ⟨r, σ'⟩
    rw [hqr] at h1 h2 h3 h4
    simp only at h1 h2 h3 h4
    rw [hc, ← h1]
    cases r with
    | error e => exact ⟨rfl, h2⟩
    | ok x =>
      refine ⟨rfl, ⟨h2.C, h2.K, h2.s, h2.g, h2.rho, h2.S, h2.alpha, h2.phi, h2.phiNone, fun _ => ⟨x, h4 x rfl, ?_⟩, fun hc => by cases hc⟩⟩
      rw [hc, ← h1]
  · rw [if_neg hs]
    obtain ⟨e, he, hi⟩ := h.ce (by simpa using hs)
    rw [he, hi]
    exact ⟨rfl, h⟩

/-- The value of the list of checks. -/
def checksOf (inv : Mat A → Except Err (Mat A)) (simplify : A → F) (l : List ((A → A) × A)) (d : CeData A) : Except Err (List Bool) :=
  match l with
  | [] => .ok []
  | l => (ceOf inv d).map fun x => l.map fun p => decide (simplify (p.1 x) = simplify p.2)

theorem checks_sim (l : List ((A → A) × A)) (h : Sim inv σ d) : (checks inv simplify l σ).1 = checksOf inv simplify l d ∧
    Sim inv (checks inv simplify l σ).2 d := by
  induction l generalizing σ with
  | nil => exact ⟨rfl, h⟩
  | cons p l ih =>
    obtain ⟨c, κ⟩ := p
    obtain ⟨h1, h2⟩ := readCe_sim h
    simp only [checks]
    rcases hqr : readCe inv σ with ⟨r, σ'⟩
    rw [hqr] at h1 h2
    simp only at h1 h2
    cases r with
    | error e =>
      refine ⟨?_, h2⟩
      simp [checksOf, ← h1, Except.map]
    | ok x =>
      obtain ⟨k1, k2⟩ := ih h2
      simp only
      rcases hqq : checks inv simplify l σ' with ⟨q, σ''⟩
      rw [hqq] at k1 k2
      simp only at k1 k2
      have hq : q = .ok (l.map fun p => decide (simplify (p.1 x) = simplify p.2)) := by
        rw [k1]
        cases l with
        | nil => rfl
        | cons a l => simp [checksOf, ← h1, Except.map]
      subst hq
      refine ⟨?_, k2⟩
      simp [checksOf, ← h1, Except.map]

theorem warnings_sim (bs : List Bool) (ret : Bool) {x : A} (hx : ceOf inv d = .ok x) (h : Sim inv σ d) :
    (warnings inv bs ret σ).1 = .ok (ret && bs.all id) ∧ Sim inv (warnings inv bs ret σ).2 d := by
  induction bs generalizing σ ret with
  | nil => exact ⟨by simp [warnings], h⟩
  | cons b bs ih =>
    cases b with
    | true =>
      obtain ⟨k1, k2⟩ := ih ret h
      exact ⟨by simpa [warnings] using k1, by simpa [warnings] using k2⟩
    | false =>
      obtain ⟨h1, h2⟩ := readCe_sim h
      simp only [warnings]
      rcases hqr : readCe inv σ with ⟨r, σ'⟩
      rw [hqr] at h1 h2
      simp only at h1 h2
      rw [hx] at h1
      subst h1
      obtain ⟨k1, k2⟩ := ih false h2
      exact ⟨by simpa using k1, k2⟩

theorem checkCe_sim (h : Sim inv σ d) : (checkCe inv simplify σ).1 =
      (checksOf inv simplify (d.C.zip d.K) d).map (fun bs => bs.all id) ∧ Sim inv (checkCe inv simplify σ).2 d := by
  obtain ⟨h1, h2⟩ := checks_sim (simplify := simplify) (d.C.zip d.K) h
  unfold checkCe
  rw [h.C, h.K]
  rcases hqr : checks inv simplify (d.C.zip d.K) σ with ⟨r, σ'⟩
  rw [hqr] at h1 h2
  simp only at h1 h2
  rw [← h1]
  cases r with
  | error e => exact ⟨rfl, h2⟩
  | ok bs =>
    cases hz : d.C.zip d.K with
    | nil =>
      rw [hz] at h1
      have : bs = [] := Except.ok.inj h1
      subst this
      exact ⟨rfl, h2⟩
    | cons p l =>
      rw [hz] at h1
      cases hx : ceOf inv d with
      | error e =>
        simp [checksOf, hx, Except.map] at h1
      | ok x =>
        obtain ⟨k1, k2⟩ := warnings_sim bs true hx h2
        exact ⟨by simpa [Except.map] using k1, k2⟩

/-- The flag `fresh` of `NoLatePhi` covers the cache of `ce`. -/
def Fresh (fresh : Bool) (σ : Solver A) : Prop := fresh = false → σ.ceStale = true

theorem run_sim (ops : List (Op A)) (fresh : Bool) (h : Sim inv σ d) (hf : Fresh fresh σ) (hl : NoLatePhi fresh ops) :
    Sim inv (ops.foldl (step inv simplify) σ) (ops.foldl CeData.apply d) := by
  induction ops generalizing σ d fresh with
  | nil => exact h
  | cons o ops ih =>
    rw [List.foldl_cons, List.foldl_cons]
    cases o with
    | readCe => exact ih true (readCe_sim h).2 (fun hc => by cases hc) hl
    | checkCe => exact ih true (checkCe_sim h).2 (fun hc => by cases hc) hl
    | readPhi => exact ih fresh (readPhi_sim h).2.1 (fun hc => (readPhi_sim h).2.2.trans (hf hc)) hl
    | readAlpha => exact ih fresh (readAlpha_sim h).2.1 (fun hc => (readAlpha_sim h).2.2.trans (hf hc)) hl
    | readS => exact ih fresh (readS_sim h).2.1 (fun hc => (readS_sim h).2.2.trans (hf hc)) hl
    | readRho => exact ih fresh (readRho_sim h).2.1 (fun hc => (readRho_sim h).2.2.trans (hf hc)) hl
    | setC C =>
      refine ih false ⟨rfl, h.K, h.s, h.g, rfl, ?_, ?_, ?_, fun _ => rfl, ?_, fun _ => rfl⟩ (fun _ => rfl) hl <;>
        intro hc <;> cases hc
    | setKappa K =>
      refine ih false ⟨h.C, rfl, h.s, h.g, rfl, h.S, h.alpha, h.phi, h.phiNone, ?_, fun _ => rfl⟩ (fun _ => rfl) hl
      intro hc
      cases hc
    | setS s =>
      refine ih false ⟨h.C, h.K, rfl, h.g, h.rho, ?_, ?_, ?_, fun _ => rfl, ?_, fun _ => rfl⟩ (fun _ => rfl) hl <;>
        intro hc <;> cases hc
    | setG g =>
      refine ih false ⟨h.C, h.K, h.s, rfl, rfl, h.S, h.alpha, h.phi, h.phiNone, ?_, fun _ => rfl⟩ (fun _ => rfl) hl
      intro hc
      cases hc
    | setPhi p =>
      obtain ⟨hfr, hl⟩ := hl
      refine ih fresh ⟨h.C, h.K, h.s, h.g, h.rho, h.S, h.alpha, fun _ => ⟨p, rfl, rfl⟩, ?_, ?_, h.ceNone⟩ hf hl
      · intro hc
        cases hc
      · intro hc
        change σ.ceStale = false at hc
        rw [hf hfr] at hc
        cases hc
    | setCe e =>
      refine ih true ⟨h.C, h.K, h.s, h.g, h.rho, h.S, h.alpha, h.phi, h.phiNone, fun _ => ⟨e, rfl, rfl⟩, ?_⟩ (fun hc => by cases hc) hl
      intro hc
      cases hc

theorem onlyData_noLate (ops : List (Op A)) (h : OnlyData ops) (fresh : Bool) : NoLatePhi fresh ops := by
  induction ops generalizing fresh with
  | nil => trivial
  | cons o ops ih =>
    have h' : OnlyData ops := fun o ho => h o (List.mem_cons_of_mem _ ho)
    cases o with
    | setPhi p => exact absurd rfl ((h _ (List.mem_cons_self ..)).1 p)
    | setCe e => exact ih h' true
    | readCe => exact ih h' true
    | checkCe => exact ih h' true
    | readPhi => exact ih h' fresh
    | readAlpha => exact ih h' fresh
    | readS => exact ih h' fresh
    | readRho => exact ih h' fresh
    | setC C => exact ih h' false
    | setKappa K => exact ih h' false
    | setS s => exact ih h' false
    | setG g => exact ih h' false

theorem onlyData_data (ops : List (Op A)) (h : OnlyData ops) (d : CeData A) (hp : d.phi = none) (hc : d.ce = none) :
    (ops.foldl CeData.apply d).phi = none ∧ (ops.foldl CeData.apply d).ce = none := by
  induction ops generalizing d with
  | nil => exact ⟨hp, hc⟩
  | cons o ops ih =>
    have h' : OnlyData ops := fun o ho => h o (List.mem_cons_of_mem _ ho)
    rw [List.foldl_cons]
    refine ih h' _ ?_ ?_
    · cases o <;> simp_all [CeData.apply]
      exact absurd rfl ((h _ (List.mem_cons_self ..)).1 _)
    · cases o <;> simp_all [CeData.apply]
      exact absurd rfl ((h _ (List.mem_cons_self ..)).2 _)

/-! ### The value without caches -/

theorem rhoList_ok (C : List (A → A)) (g : A) (k : ℕ) (K : List A) (l : List A) :
    rhoList C g k K = .ok l ↔ (0 < K.length → k + K.length ≤ C.length) ∧ l.length = K.length ∧
      ∀ i < K.length, l.getD i 0 = K.getD i 0 - applyOp C (k + i) g := by
  induction K generalizing k l with
  | nil =>
    simp [rhoList]
  | cons κ K ih =>
    simp only [rhoList]
    by_cases hk : k < C.length
    · rw [List.getElem?_eq_getElem hk]
      simp only
      constructor
      · intro h
        cases hr : rhoList C g (k + 1) K with
        | error e =>
          rw [hr] at h
          cases h
        | ok l' =>
          rw [hr] at h
          have hl := Except.ok.inj h
          subst hl
          obtain ⟨h1, h2, h3⟩ := (ih (k + 1) l').1 hr
          refine ⟨fun _ => ?_, by simp [h2], ?_⟩
          · rw [List.length_cons]
            by_cases hK : 0 < K.length
            · have := h1 hK
              omega
            · omega
          · intro i hi
            cases i with
            | zero =>
              simp only [List.getD_cons_zero, Nat.add_zero, applyOp]
              rw [List.getD_eq_getElem?_getD, List.getElem?_eq_getElem hk, Option.getD_some, sub_eq_add_neg]
            | succ i =>
              simp only [List.getD_cons_succ]
              rw [h3 i (by simpa using hi), show k + 1 + i = k + (i + 1) by omega]
      · rintro ⟨h1, h2, h3⟩
        cases l with
        | nil => simp at h2
        | cons a l =>
          have hr : rhoList C g (k + 1) K = .ok l := by
            rw [ih]
            refine ⟨fun _ => ?_, by simpa using h2, ?_⟩
            · have := h1 (by simp)
              rw [List.length_cons] at this
              omega
            · intro i hi
              have := h3 (i + 1) (by simpa using hi)
              simp only [List.getD_cons_succ] at this
              rw [this, show k + 1 + i = k + (i + 1) by omega]
          rw [hr]
          have ha := h3 0 (by simp)
          simp only [List.getD_cons_zero, Nat.add_zero, applyOp] at ha
          rw [List.getD_eq_getElem?_getD, List.getElem?_eq_getElem hk, Option.getD_some, sub_eq_add_neg] at ha
          rw [ha]
          rfl
    · rw [List.getElem?_eq_none (by omega)]
      constructor
      · intro h
        cases h
      · rintro ⟨h1, -, -⟩
        have := h1 (by simp)
        rw [List.length_cons] at this
        omega

theorem bind_ok_iff {α β : Type} (x : Except Err α) (f : α → Except Err β) (b : β) : x.bind f = .ok b ↔ ∃ a, x = .ok a ∧ f a = .ok b := by
  cases x with
  | error e =>
    constructor
    · intro h
      cases h
    · rintro ⟨a, h, -⟩
      cases h
  | ok a =>
    constructor
    · intro h
      exact ⟨a, rfl, h⟩
    · rintro ⟨a', h, h'⟩
      cases h
      exact h'

theorem map_ok_iff {α β : Type} (x : Except Err α) (f : α → β) (b : β) : x.map f = .ok b ↔ ∃ a, x = .ok a ∧ f a = b := by
  cases x with
  | error e =>
    constructor
    · intro h
      cases h
    · rintro ⟨a, h, -⟩
      cases h
  | ok a =>
    constructor
    · intro h
      exact ⟨a, rfl, Except.ok.inj h⟩
    · rintro ⟨a', h, rfl⟩
      cases h
      rfl

theorem mul_ok_iff (M N P : Mat A) : mul M N = .ok P ↔ M.cols = N.rows ∧
    P = ⟨M.rows, N.cols, fun i j => ∑ l ∈ Finset.range M.cols, M.at_ i l * N.at_ l j⟩ := by
  unfold mul
  by_cases h : M.cols = N.rows
  · rw [if_pos h]
    constructor
    · intro hp
      exact ⟨h, (Except.ok.inj hp).symm⟩
    · rintro ⟨-, rfl⟩
      rfl
  · rw [if_neg h]
    constructor
    · intro hp
      cases hp
    · rintro ⟨h', -⟩
      exact absurd h' h

theorem first_ok_iff (M : Mat A) (x : A) : first M = .ok x ↔ 0 < M.rows ∧ 0 < M.cols ∧ x = M.at_ 0 0 := by
  unfold first
  by_cases h : M.rows = 0 ∨ M.cols = 0
  · rw [if_pos h]
    constructor
    · intro hp
      cases hp
    · rintro ⟨h1, h2, -⟩
      omega
  · rw [if_neg h]
    constructor
    · intro hp
      exact ⟨by omega, by omega, (Except.ok.inj hp).symm⟩
    · rintro ⟨-, -, rfl⟩
      rfl

/-- The value for given switching functions. -/
theorem with_phi (d : CeData A) (p : Mat A) (e : A) :
    ((rhoOf d).bind fun r => ((mul p r).bind first).map (d.g + ·)) = .ok e ↔
      0 < p.rows ∧ 0 < p.cols ∧ p.cols = d.K.length ∧ d.K.length ≤ d.C.length ∧ e = withSwitching d.C d.K d.g (p.at_ 0) := by
  rw [bind_ok_iff]
  unfold rhoOf
  constructor
  · rintro ⟨r, hr, hm⟩
    obtain ⟨l, hl, rfl⟩ := (map_ok_iff _ _ _).1 hr
    obtain ⟨h1, h2, h3⟩ := (rhoList_ok _ _ _ _ _).1 hl
    obtain ⟨x, hx, rfl⟩ := (map_ok_iff _ _ _).1 hm
    obtain ⟨P, hP, hx⟩ := (bind_ok_iff _ _ _).1 hx
    obtain ⟨hc, rfl⟩ := (mul_ok_iff _ _ _).1 hP
    obtain ⟨k1, k2, rfl⟩ := (first_ok_iff _ _).1 hx
    simp only [colMatrix] at hc k1 k2 ⊢
    have hl0 : 0 < l.length := by
      by_contra h0
      rw [if_pos (by omega)] at k2
      omega
    refine ⟨k1, by omega, by omega, by have := h1 (by omega); omega, ?_⟩
    unfold withSwitching
    rw [hc, h2]
    congr 1
    refine Finset.sum_congr rfl fun i hi => ?_
    rw [h3 i (Finset.mem_range.1 hi), Nat.zero_add]
  · rintro ⟨h1, h2, h3, h4, rfl⟩
    have hl : rhoList d.C d.g 0 d.K = .ok ((List.range d.K.length).map fun i => d.K.getD i 0 - applyOp d.C i d.g) := by
      rw [rhoList_ok]
      refine ⟨fun _ => by omega, by simp, ?_⟩
      intro i hi
      rw [List.getD_eq_getElem?_getD, List.getElem?_map, List.getElem?_range hi, Nat.zero_add]
      rfl
    rw [hl]
    refine ⟨_, rfl, ?_⟩
    rw [map_ok_iff]
    refine ⟨_, (bind_ok_iff _ _ _).2 ⟨_, (mul_ok_iff _ _ _).2 ⟨?_, rfl⟩, (first_ok_iff _ _).2 ⟨h1, ?_, rfl⟩⟩, ?_⟩
    · simp [colMatrix, h3]
    · simp only [colMatrix, List.length_map, List.length_range]
      rw [if_neg (by omega)]
      exact Nat.one_pos
    · unfold withSwitching
      simp only [colMatrix]
      rw [h3]
      congr 1
      refine Finset.sum_congr rfl fun i hi => ?_
      rw [List.getD_eq_getElem?_getD, List.getElem?_map, List.getElem?_range (Finset.mem_range.1 hi)]
      rfl

theorem isInverse_unique {n : ℕ} {M N N' : ℕ → ℕ → A} (h : IsInverse n M N) (h' : IsInverse n M N') {i j : ℕ} (hi : i < n) (hj : j < n) :
    N i j = N' i j := by
  have h1 : ∑ l ∈ Finset.range n, N i l * ∑ m ∈ Finset.range n, M l m * N' m j = N i j := by
    rw [Finset.sum_congr rfl fun l hl => by rw [h'.1 l (Finset.mem_range.1 hl) j hj]]
    simp [Finset.sum_ite_eq', hj]
  have h2 : ∑ l ∈ Finset.range n, N i l * ∑ m ∈ Finset.range n, M l m * N' m j = N' i j := by
    simp only [Finset.mul_sum]
    rw [Finset.sum_comm]
    have : ∀ m ∈ Finset.range n, ∑ l ∈ Finset.range n, N i l * (M l m * N' m j) = (if i = m then 1 else 0) * N' m j := by
      intro m hm
      rw [← h.2 i hi m (Finset.mem_range.1 hm), Finset.sum_mul]
      exact Finset.sum_congr rfl fun l _ => by ring
    rw [Finset.sum_congr rfl this]
    simp [hi]
  exact h1.symm.trans h2

theorem withSwitching_congr (C : List (A → A)) (K : List A) (g : A) {p q : ℕ → A} (h : ∀ j < K.length, p j = q j) :
    withSwitching C K g p = withSwitching C K g q := by
  unfold withSwitching
  congr 1
  exact Finset.sum_congr rfl fun j hj => by rw [h j (Finset.mem_range.1 hj)]

/-- The switching functions without caches. -/
theorem phiCalc_ok (hinv : InverseContract inv) (C : List (A → A)) (s : List A) (hC : 0 < C.length) (p : Mat A)
    (h : phiCalc inv C s = .ok p) : s.length = C.length ∧ p.rows = 1 ∧ p.cols = C.length ∧
      ∃ N : Mat A, inv (supportMatrix C s) = .ok N ∧ IsInverse C.length (fun i j => applyOp C i (s.getD j 0)) N.at_ ∧
        ∀ j, p.at_ 0 j = ∑ i ∈ Finset.range C.length, s.getD i 0 * N.at_ i j := by
  obtain ⟨N, hN, hm⟩ := (bind_ok_iff _ _ _).1 h
  obtain ⟨h1, h2, h3, h4⟩ := hinv.sound _ _ hN
  obtain ⟨h5, rfl⟩ := (mul_ok_iff _ _ _).1 hm
  simp only [supportMatrix] at h1 h2 h3 h4
  rw [if_neg (by omega)] at h1
  simp only [transpose, colMatrix] at h5 ⊢
  refine ⟨h1, by rw [if_neg (by omega)], h3, N, hN, h4, fun j => ?_⟩
  rw [h1]

theorem phiCalc_exists (hinv : InverseContract inv) (C : List (A → A)) (s : List A) (hC : 0 < C.length) (hs : s.length = C.length)
    (hN : ∃ N, IsInverse C.length (fun i j => applyOp C i (s.getD j 0)) N) : ∃ p, phiCalc inv C s = .ok p := by
  obtain ⟨N, hN⟩ := hinv.complete (supportMatrix C s) (by simp only [supportMatrix]; rw [if_neg (by omega), hs]) hN
  obtain ⟨h1, h2, h3, h4⟩ := hinv.sound _ _ hN
  unfold phiCalc
  rw [hN]
  refine ⟨_, (mul_ok_iff _ _ _).2 ⟨?_, rfl⟩⟩
  simp only [transpose, colMatrix, h2, supportMatrix, hs]

theorem ceOf_expected (hinv : InverseContract inv) (d : CeData A) (e : A) : ceOf inv d = .ok e ↔ d.Expected e := by
  unfold ceOf CeData.Expected
  cases hce : d.ce with
  | some x =>
    constructor
    · intro h
      exact (Except.ok.inj h).symm
    · rintro rfl
      rfl
  | none =>
    cases hphi : d.phi with
    | some p =>
      simp only [ceCalc, phiOf, hphi]
      exact with_phi d p e
    | none =>
      simp only [ceCalc, phiOf, hphi]
      constructor
      · intro h
        obtain ⟨p, hp, hr⟩ := (bind_ok_iff _ _ _).1 h
        obtain ⟨h1, h2, h3, h4, h5⟩ := (with_phi d p e).1 hr
        have hC : 0 < d.C.length := by omega
        obtain ⟨k1, k2, k3, N, -, hN, hp'⟩ := phiCalc_ok hinv _ _ hC p hp
        refine ⟨hC, k1, by omega, N.at_, hN, ?_⟩
        rw [h5]
        exact withSwitching_congr _ _ _ fun j _ => hp' j
      · rintro ⟨hC, hs, hK, N, hN, rfl⟩
        obtain ⟨p, hp⟩ := phiCalc_exists hinv _ _ hC hs ⟨N, hN⟩
        obtain ⟨k1, k2, k3, N', -, hN', hp'⟩ := phiCalc_ok hinv _ _ hC p hp
        rw [hp]
        refine (with_phi d p _).2 ⟨by omega, by omega, by omega, by omega, ?_⟩
        refine withSwitching_congr _ _ _ fun j hj => ?_
        rw [hp' j]
        exact Finset.sum_congr rfl fun i hi => by rw [isInverse_unique hN hN' (Finset.mem_range.1 hi) (by omega)]

/-! ### The contract can be met -/

open Classical in
theorem inverse_exists : ∃ inv : Mat A → Except Err (Mat A), InverseContract inv := by
  refine ⟨fun M => if h : M.cols = M.rows ∧ ∃ N, IsInverse M.rows M.at_ N then .ok ⟨M.rows, M.rows, h.2.choose⟩ else .error .valueError, ?_, ?_⟩
  · intro M N h
    by_cases hM : M.cols = M.rows ∧ ∃ N, IsInverse M.rows M.at_ N
    · rw [dif_pos hM] at h
      have := Except.ok.inj h
      subst this
      exact ⟨hM.1, rfl, rfl, hM.2.choose_spec⟩
    · rw [dif_neg hM] at h
      cases h
  · intro M h1 h2
    exact ⟨_, dif_pos ⟨h1, h2⟩⟩

end Verif.Lemmas.CeSolver
