import Verif.Spec.Graph
import Mathlib.LinearAlgebra.Matrix.Charpoly.Coeff
import Mathlib.LinearAlgebra.Matrix.ToLinearEquiv
import Mathlib.Analysis.Complex.Polynomial.Basic
import Mathlib.Algebra.Polynomial.Splits

/-! # The eigenvalue test finds cycles -/

namespace Verif.Lemmas.Graph

open Verif.Py Verif.Spec Verif.Model.Graph Matrix Relation

/-! ### The adjacency matrix -/

/-- Whether the body of the inner loops sets the entry `(a, b)`. -/
def Sets (N : List String) (k : String) (p : Edge × Bool) (a b : ℕ) : Prop :=
  if p.1.node0 = k then p.2 = true ∧ a = N.idxOf p.1.node1 ∧ b = N.idxOf p.1.node0
  else p.1.node1 = k ∧ p.2 = false ∧ a = N.idxOf p.1.node0 ∧ b = N.idxOf p.1.node1

open Classical in
theorem adjStep_eq (N : List String) (k : String) (adj : ℕ → ℕ → ℝ) (p : Edge × Bool) (a b : ℕ) :
    adjStep N k adj p.1 p.2 a b = if Sets N k p a b then 1 else adj a b := by
  obtain ⟨e, t⟩ := p
  unfold adjStep Sets
  by_cases h0 : e.node0 = k
  · cases t <;> simp [h0, setOne]
  · by_cases h1 : e.node1 = k
    · cases t <;> simp [h0, h1, setOne]
    · simp [h0, h1]

open Classical in
theorem foldl_set {α : Type} (P : α → ℕ → ℕ → Prop) (f : (ℕ → ℕ → ℝ) → α → ℕ → ℕ → ℝ)
    (hf : ∀ adj x a b, f adj x a b = if P x a b then 1 else adj a b) (l : List α) (adj : ℕ → ℕ → ℝ) (a b : ℕ) :
    l.foldl f adj a b = if ∃ x ∈ l, P x a b then 1 else adj a b := by
  induction l generalizing adj with
  | nil => simp
  | cons x l ih =>
    rw [List.foldl_cons, ih, hf]
    by_cases h1 : ∃ y ∈ l, P y a b
    · rw [if_pos h1, if_pos (by obtain ⟨y, hy, h⟩ := h1; exact ⟨y, by simp [hy], h⟩)]
    · rw [if_neg h1]
      by_cases h2 : P x a b
      · rw [if_pos h2, if_pos ⟨x, by simp, h2⟩]
      · rw [if_neg h2, if_neg]
        rintro ⟨y, hy, h⟩
        rcases List.mem_cons.1 hy with rfl | hy
        · exact h2 h
        · exact h1 ⟨y, hy, h⟩

open Classical in
theorem adjacency_eq (N : List String) (E : List Edge) (t : List Bool) (a b : ℕ) :
    adjacency N E t a b = if ∃ k ∈ N, ∃ p ∈ E.zip t, Sets N k p a b then 1 else 0 := by
  unfold adjacency
  refine (foldl_set (fun k a b => ∃ p ∈ E.zip t, Sets N k p a b) _ ?_ N _ a b).trans (by congr)
  intro adj k a b
  refine (foldl_set (fun p a b => Sets N k p a b) _ ?_ (E.zip t) adj a b).trans (by congr)
  intro adj p a b
  exact adjStep_eq N k adj p a b

/-- Edges between two different nodes of the list. -/
def GoodEdges (N : List String) (E : List Edge) : Prop := ∀ e ∈ E, e.node0 ∈ N ∧ e.node1 ∈ N ∧ e.node0 ≠ e.node1

theorem arrow_mem {N : List String} {E : List Edge} (hE : GoodEdges N E) {t : List Bool} {u v : String} (h : Arrow E t u v) :
    u ∈ N ∧ v ∈ N := by
  obtain ⟨e, b, hm, h⟩ := h
  have := hE e (List.of_mem_zip hm).1
  cases b with
  | true =>
    rw [if_pos rfl] at h
    rw [h.1, h.2]
    exact ⟨this.2.1, this.1⟩
  | false =>
    rw [if_neg (by simp)] at h
    rw [h.1, h.2]
    exact ⟨this.1, this.2.1⟩

theorem idxOf_eq {N : List String} {u v : String} (hu : u ∈ N) (hv : v ∈ N) (h : N.idxOf u = N.idxOf v) : u = v :=
  (List.idxOf_inj hu).1 h

/-- The entry for two nodes is 1 if there is an arrow between them, else 0. -/
theorem adjacency_arrow {N : List String} {E : List Edge} (hE : GoodEdges N E) (t : List Bool) {u v : String} (hu : u ∈ N)
    (hv : v ∈ N) : (∃ k ∈ N, ∃ p ∈ E.zip t, Sets N k p (N.idxOf u) (N.idxOf v)) ↔ Arrow E t u v := by
  constructor
  · rintro ⟨k, hk, ⟨e, b⟩, hp, hs⟩
    have hg := hE e (List.of_mem_zip hp).1
    refine ⟨e, b, hp, ?_⟩
    unfold Sets at hs
    split at hs
    · obtain ⟨rfl, h1, h2⟩ := hs
      rw [if_pos rfl]
      exact ⟨idxOf_eq hu hg.2.1 h1, idxOf_eq hv hg.1 h2⟩
    · obtain ⟨-, rfl, h1, h2⟩ := hs
      rw [if_neg (by simp)]
      exact ⟨idxOf_eq hu hg.1 h1, idxOf_eq hv hg.2.1 h2⟩
  · rintro ⟨e, b, hp, h⟩
    have hg := hE e (List.of_mem_zip hp).1
    cases b with
    | true =>
      rw [if_pos rfl] at h
      refine ⟨e.node0, hg.1, (e, true), hp, ?_⟩
      unfold Sets
      rw [if_pos rfl]
      exact ⟨rfl, by rw [h.1], by rw [h.2]⟩
    | false =>
      rw [if_neg (by simp)] at h
      refine ⟨e.node1, hg.2.1, (e, false), hp, ?_⟩
      unfold Sets
      rw [if_neg hg.2.2]
      exact ⟨rfl, rfl, by rw [h.1], by rw [h.2]⟩

theorem sets_index {N : List String} {E : List Edge} (hE : GoodEdges N E) {t : List Bool} {a b : ℕ}
    (h : ∃ k ∈ N, ∃ p ∈ E.zip t, Sets N k p a b) : ∃ u v, a = N.idxOf u ∧ b = N.idxOf v ∧ Arrow E t u v := by
  obtain ⟨k, hk, ⟨e, c⟩, hp, hs⟩ := h
  have hg := hE e (List.of_mem_zip hp).1
  unfold Sets at hs
  split at hs
  · obtain ⟨rfl, h1, h2⟩ := hs
    exact ⟨e.node1, e.node0, h1, h2, e, true, hp, by rw [if_pos rfl]; exact ⟨rfl, rfl⟩⟩
  · obtain ⟨-, rfl, h1, h2⟩ := hs
    exact ⟨e.node0, e.node1, h1, h2, e, false, hp, by rw [if_neg (by simp)]; exact ⟨rfl, rfl⟩⟩

/-! ### Nilpotent matrices and cycles -/

variable {n : ℕ} {M : Matrix (Fin n) (Fin n) ℝ}

theorem pow_nonneg_entries (hM : ∀ i j, 0 ≤ M i j) (k : ℕ) (i j : Fin n) : 0 ≤ (M ^ k) i j := by
  induction k generalizing j with
  | zero =>
    rw [pow_zero, Matrix.one_apply]
    split
    · exact zero_le_one
    · exact le_refl _
  | succ k ih =>
    rw [pow_succ, Matrix.mul_apply]
    exact Finset.sum_nonneg fun l _ => mul_nonneg (ih l) (hM l j)

theorem mul_entries (hM : ∀ i j, 0 ≤ M i j) (a b : ℕ) (i l j : Fin n) (h1 : 0 < (M ^ a) i l) (h2 : 0 < (M ^ b) l j) :
    0 < (M ^ (a + b)) i j := by
  rw [pow_add, Matrix.mul_apply]
  exact Finset.sum_pos' (fun x _ => mul_nonneg (pow_nonneg_entries hM a i x) (pow_nonneg_entries hM b x j))
    ⟨l, Finset.mem_univ l, mul_pos h1 h2⟩

theorem path_pow (hM : ∀ i j, 0 ≤ M i j) {i j : Fin n} (h : TransGen (fun a b => M a b ≠ 0) i j) :
    ∃ k, 0 < k ∧ 0 < (M ^ k) i j := by
  induction h with
  | single h => exact ⟨1, Nat.one_pos, by rw [pow_one]; exact lt_of_le_of_ne (hM _ _) (Ne.symm h)⟩
  | tail _ h ih =>
    obtain ⟨k, -, hk⟩ := ih
    exact ⟨k + 1, Nat.succ_pos k, mul_entries hM k 1 _ _ _ hk (by rw [pow_one]; exact lt_of_le_of_ne (hM _ _) (Ne.symm h))⟩

theorem cycle_not_nilpotent (hM : ∀ i j, 0 ≤ M i j) {i : Fin n} (h : TransGen (fun a b => M a b ≠ 0) i i) (m : ℕ) : M ^ m ≠ 0 := by
  obtain ⟨k, hk0, hk⟩ := path_pow hM h
  have h1 : ∀ a, 0 < (M ^ (k * a)) i i := by
    intro a
    induction a with
    | zero => simp
    | succ a ih =>
      rw [Nat.mul_succ]
      exact mul_entries hM _ _ _ _ _ ih hk
  intro h0
  have h2 := h1 m
  have : M ^ (k * m) = 0 := by
    rw [mul_comm, pow_mul, h0, zero_pow (by omega)]
  rw [this] at h2
  simp at h2

open Classical in
theorem acyclic_nilpotent (h : ∀ i, ¬ TransGen (fun a b => M a b ≠ 0) i i) : M ^ (n + 1) = 0 := by
  set R := TransGen (fun a b => M a b ≠ 0) with hR
  set ht : Fin n → ℕ := fun i => (Finset.univ.filter fun j => R i j).card with hht
  have hlt : ∀ i j, M i j ≠ 0 → ht j < ht i := by
    intro i j hij
    refine Finset.card_lt_card ?_
    rw [Finset.ssubset_iff_of_subset]
    · exact ⟨j, Finset.mem_filter.2 ⟨Finset.mem_univ j, TransGen.single hij⟩, fun hj => h j (Finset.mem_filter.1 hj).2⟩
    · intro l hl
      simp only [Finset.mem_filter, Finset.mem_univ, true_and] at hl ⊢
      exact TransGen.head hij hl
  have hle : ∀ i, ht i ≤ n := fun i => by
    refine (Finset.card_le_univ _).trans ?_
    simp
  have key : ∀ k i j, (M ^ k) i j ≠ 0 → ht j + k ≤ ht i := by
    intro k
    induction k with
    | zero =>
      intro i j hij
      rw [pow_zero, Matrix.one_apply] at hij
      have : i = j := by
        by_contra hne
        rw [if_neg hne] at hij
        exact hij rfl
      rw [this]
      omega
    | succ k ih =>
      intro i j hij
      rw [pow_succ, Matrix.mul_apply] at hij
      obtain ⟨l, -, hl⟩ := Finset.exists_ne_zero_of_sum_ne_zero hij
      have h1 := ih i l (left_ne_zero_of_mul hl)
      have h2 := hlt l j (right_ne_zero_of_mul hl)
      omega
  ext i j
  by_contra hij
  have := key (n + 1) i j hij
  have := hle i
  omega

/-! ### Eigenvalues -/

theorem complex_pow (M : Matrix (Fin n) (Fin n) ℝ) (k : ℕ) :
    (Matrix.of fun i j => (M i j : ℂ)) ^ k = Matrix.of fun i j => ((M ^ k) i j : ℂ) := by
  induction k with
  | zero =>
    ext i j
    simp only [pow_zero, Matrix.one_apply, Matrix.of_apply]
    split <;> simp
  | succ k ih =>
    rw [pow_succ, ih]
    ext i j
    simp [pow_succ, Matrix.mul_apply]

theorem eig_zero_of_nilpotent {A : Matrix (Fin n) (Fin n) ℂ} {k : ℕ} (hA : A ^ k = 0) {μ : ℂ} {v : Fin n → ℂ} (hv : v ≠ 0)
    (h : A *ᵥ v = μ • v) : μ = 0 := by
  have h1 : ∀ m, (A ^ m) *ᵥ v = μ ^ m • v := by
    intro m
    induction m with
    | zero => simp
    | succ m ih => rw [pow_succ, ← mulVec_mulVec, h, mulVec_smul, ih, smul_smul, pow_succ, mul_comm]
  have h2 := h1 k
  rw [hA, zero_mulVec] at h2
  rcases smul_eq_zero.1 h2.symm with h3 | h3
  · exact eq_zero_of_pow_eq_zero h3
  · exact absurd h3 hv

theorem nilpotent_of_eig_zero {A : Matrix (Fin n) (Fin n) ℂ} (h : ∀ (μ : ℂ) (v : Fin n → ℂ), v ≠ 0 → A *ᵥ v = μ • v → μ = 0) :
    A ^ n = 0 := by
  have hroot : ∀ μ ∈ A.charpoly.roots, μ = 0 := by
    intro μ hμ
    have h1 := (Polynomial.mem_roots (charpoly_monic A).ne_zero).1 hμ
    have h2 : A.charpoly.eval μ = 0 := h1
    rw [eval_charpoly] at h2
    obtain ⟨v, hv, hv'⟩ := exists_mulVec_eq_zero_iff.2 h2
    refine h μ v hv ?_
    rw [sub_mulVec] at hv'
    have h3 : A *ᵥ v = (scalar (Fin n)) μ *ᵥ v := (sub_eq_zero.1 hv').symm
    rw [h3]
    simp [scalar_apply, ← smul_one_eq_diagonal, smul_mulVec]
  have h1 := (IsAlgClosed.splits A.charpoly).eq_prod_roots_of_monic (charpoly_monic A)
  have h2 : A.charpoly.roots = Multiset.replicate A.charpoly.roots.card 0 := Multiset.eq_replicate.2 ⟨rfl, hroot⟩
  rw [h2, Multiset.map_replicate, Multiset.prod_replicate, Polynomial.C_0, sub_zero] at h1
  have h3 : A.charpoly.roots.card = n := by
    have := congrArg Polynomial.natDegree h1
    rw [charpoly_natDegree_eq_dim, Polynomial.natDegree_X_pow, Fintype.card_fin] at this
    exact this.symm
  have h4 := aeval_self_charpoly A
  rw [h1, h3] at h4
  simpa using h4

/-- The eigenvalue test on a matrix of non-negative numbers finds exactly the matrices without a cycle. -/
theorem eig_zero_iff {M : Matrix (Fin n) (Fin n) ℝ} (hM : ∀ i j, 0 ≤ M i j) :
    (∀ (μ : ℂ) (v : Fin n → ℂ), v ≠ 0 → (Matrix.of fun i j => (M i j : ℂ)) *ᵥ v = μ • v → μ = 0) ↔
      ∀ i, ¬ TransGen (fun a b => M a b ≠ 0) i i := by
  constructor
  · intro h i hi
    have h1 := nilpotent_of_eig_zero h
    rw [complex_pow] at h1
    refine cycle_not_nilpotent hM hi n ?_
    ext a b
    have := congrFun (congrFun h1 a) b
    simpa using this
  · intro h μ v hv hμ
    have h1 := acyclic_nilpotent h
    refine eig_zero_of_nilpotent (k := n + 1) ?_ hv hμ
    rw [complex_pow, h1]
    ext a b
    simp

/-! ### The listed targets -/

theorem good_iff {N : List String} {E : List Edge} (hE : GoodEdges N E) (t : List Bool) :
    allEigvalsZero N.length (adjacency N E t) ↔ Acyclic (Arrow E t) := by
  classical
  unfold allEigvalsZero
  have hM : ∀ i j : Fin N.length, 0 ≤ (Matrix.of fun i j : Fin N.length => adjacency N E t i j) i j := by
    intro i j
    rw [Matrix.of_apply, adjacency_eq]
    split
    · exact zero_le_one
    · exact le_refl _
  have h0 := eig_zero_iff hM
  simp only [Matrix.of_apply] at h0
  rw [h0]
  have hne : ∀ i j : ℕ, adjacency N E t i j ≠ 0 ↔ ∃ u v, i = N.idxOf u ∧ j = N.idxOf v ∧ Arrow E t u v := by
    intro i j
    rw [adjacency_eq]
    constructor
    · intro h
      by_cases hs : ∃ k ∈ N, ∃ p ∈ E.zip t, Sets N k p i j
      · exact sets_index hE hs
      · rw [if_neg hs] at h
        exact absurd rfl h
    · rintro ⟨u, v, rfl, rfl, h⟩
      rw [if_pos ((adjacency_arrow hE t (arrow_mem hE h).1 (arrow_mem hE h).2).2 h)]
      exact one_ne_zero
  constructor
  · intro h v hv
    have hmem : ∀ w, TransGen (Arrow E t) v w → v ∈ N := by
      intro w hw
      rcases TransGen.head'_iff.1 hw with ⟨c, hc, -⟩
      exact (arrow_mem hE hc).1
    have hvN := hmem v hv
    have key : ∀ w, TransGen (Arrow E t) v w → ∃ hw : N.idxOf w < N.length,
        TransGen (fun a b : Fin N.length => adjacency N E t a b ≠ 0) ⟨N.idxOf v, List.idxOf_lt_length_of_mem hvN⟩ ⟨N.idxOf w, hw⟩ := by
      intro w hw
      induction hw with
      | single h1 => exact ⟨List.idxOf_lt_length_of_mem (arrow_mem hE h1).2, TransGen.single ((hne _ _).2 ⟨_, _, rfl, rfl, h1⟩)⟩
      | tail _ h1 ih =>
        obtain ⟨hb, ih⟩ := ih
        exact ⟨List.idxOf_lt_length_of_mem (arrow_mem hE h1).2, TransGen.tail ih ((hne _ _).2 ⟨_, _, rfl, rfl, h1⟩)⟩
    obtain ⟨hw, h1⟩ := key v hv
    exact h _ h1
  · intro h i hi
    have key : ∀ j : Fin N.length, TransGen (fun a b : Fin N.length => adjacency N E t a b ≠ 0) i j →
        ∃ u v, (i : ℕ) = N.idxOf u ∧ (j : ℕ) = N.idxOf v ∧ u ∈ N ∧ v ∈ N ∧ TransGen (Arrow E t) u v := by
      intro j hj
      induction hj with
      | single h1 =>
        obtain ⟨u, v, hu, hv, ha⟩ := (hne _ _).1 h1
        exact ⟨u, v, hu, hv, (arrow_mem hE ha).1, (arrow_mem hE ha).2, TransGen.single ha⟩
      | tail _ h1 ih =>
        obtain ⟨u, v, hu, hv, huN, hvN, ha⟩ := ih
        obtain ⟨u', v', hu', hv', ha'⟩ := (hne _ _).1 h1
        have : v = u' := idxOf_eq hvN (arrow_mem hE ha').1 (hv.symm.trans hu')
        subst this
        exact ⟨u, v', hu, hv', huN, (arrow_mem hE ha').2, TransGen.tail ha ha'⟩
    obtain ⟨u, v, hu, hv, huN, hvN, ha⟩ := key i hi
    have : u = v := idxOf_eq huN hvN (hu.symm.trans hv)
    subst this
    exact h u ha

theorem mem_productBits {m : ℕ} {t : List Bool} : t ∈ productBits m ↔ t.length = m := by
  induction m generalizing t with
  | zero => simp [productBits]
  | succ m ih =>
    cases t with
    | nil => simp [productBits]
    | cons b t => cases b <;> simp [productBits, ih]

theorem nodup_productBits (m : ℕ) : (productBits m).Nodup := by
  induction m with
  | zero => simp [productBits]
  | succ m ih =>
    unfold productBits
    refine List.Nodup.append (ih.map fun a b h => (List.cons.inj h).2) (ih.map fun a b h => (List.cons.inj h).2) ?_
    intro x h1 h2
    obtain ⟨a, -, rfl⟩ := List.mem_map.1 h1
    obtain ⟨b, -, hb⟩ := List.mem_map.1 h2
    exact absurd (List.cons.inj hb).1 (by simp)

end Verif.Lemmas.Graph
