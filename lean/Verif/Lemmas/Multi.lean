import Verif.Spec.Multi
import Mathlib.Data.List.NodupEquivFin
import Mathlib.Data.Nat.Choose.Sum
import Mathlib.Order.Fin.Basic
import Mathlib.Analysis.Calculus.IteratedDeriv.Defs
import Mathlib.Analysis.Calculus.Deriv.Mul

/-! # The list of multi-indices -/

namespace Verif

open Verif.Spec

theorem mem_boxTuples {m dim : ℕ} (α : Fin dim → ℕ) : α ∈ boxTuples m dim ↔ ∀ k, α k < m := by
  induction dim with
  | zero => simp [boxTuples]; exact Subsingleton.elim _ _
  | succ n ih =>
    simp only [boxTuples, List.mem_flatMap, List.mem_range, List.mem_map]
    constructor
    · rintro ⟨a, ha, β, hβ, rfl⟩ k
      refine Fin.lastCases ?_ (fun i => ?_) k
      · simpa using ha
      · simpa using (ih β).mp hβ i
    · intro h
      refine ⟨α (Fin.last n), h _, Fin.init α, (ih _).mpr fun k => h _, ?_⟩
      simp

theorem colexLt_snoc {n : ℕ} {α β : Fin n → ℕ} {a b : ℕ}
    (h : a < b ∨ (a = b ∧ ColexLt α β)) :
    ColexLt (Fin.snoc α a : Fin (n + 1) → ℕ) (Fin.snoc β b) := by
  rcases h with h | ⟨rfl, k, hk, hl⟩
  · refine ⟨Fin.last n, by simpa using h, fun l hl => absurd hl (not_lt.mpr (Fin.le_last l))⟩
  · refine ⟨k.castSucc, by simpa using hk, fun l => ?_⟩
    refine Fin.lastCases (by simp) (fun i hi => ?_) l
    simpa using hl i (by simpa using hi)

theorem colexLt_irrefl {n : ℕ} (α : Fin n → ℕ) : ¬ ColexLt α α := fun ⟨_, h, _⟩ => lt_irrefl _ h

theorem colexLt_asymm {n : ℕ} {α β : Fin n → ℕ} (h : ColexLt α β) : ¬ ColexLt β α := by
  obtain ⟨k, hk, hl⟩ := h
  rintro ⟨k', hk', hl'⟩
  rcases lt_trichotomy k k' with h | rfl | h
  · have := hl k' h; omega
  · omega
  · have := hl' k h; omega

theorem boxTuples_sorted (m dim : ℕ) : (boxTuples m dim).Pairwise ColexLt := by
  induction dim with
  | zero => simp [boxTuples]
  | succ n ih =>
    rw [boxTuples, List.pairwise_flatMap]
    refine ⟨fun a _ => ?_, ?_⟩
    · rw [List.pairwise_map]
      exact ih.imp fun h => colexLt_snoc (.inr ⟨rfl, h⟩)
    · refine (List.pairwise_lt_range (n := m)).imp fun {a b} hab x hx y hy => ?_
      simp only [List.mem_map] at hx hy
      obtain ⟨α, _, rfl⟩ := hx
      obtain ⟨β, _, rfl⟩ := hy
      exact colexLt_snoc (.inl hab)

theorem admissible_lt {dim m : ℕ} {nC : Fin dim → List ℤ} {full : Bool} {α : Fin dim → ℕ}
    (h : Admissible m nC full α) (k : Fin dim) : α k < m :=
  lt_of_le_of_lt (Finset.single_le_sum (f := α) (fun _ _ => Nat.zero_le _) (Finset.mem_univ k)) h.1

/-- The columns are in the specified order. -/
theorem multiColumns_order {dim : ℕ} (m : ℕ) (nC : Fin dim → List ℤ) (full : Bool) :
    IsColumnOrder m nC full (multiColumns m nC full) := by
  have hs : (multiColumns m nC full).Pairwise ColexLt := (boxTuples_sorted m dim).filter _
  refine ⟨fun α => ?_, hs.imp fun h => ?_, hs⟩
  · simp only [multiColumns, List.mem_filter, mem_boxTuples, decide_eq_true_eq]
    exact ⟨fun h => h.2, fun h => ⟨admissible_lt h, h⟩⟩
  · rintro rfl
    exact colexLt_irrefl _ h

theorem IsColumnOrder.unique {dim m : ℕ} {nC : Fin dim → List ℤ} {full : Bool} {L L' : List (Fin dim → ℕ)}
    (h : IsColumnOrder m nC full L) (h' : IsColumnOrder m nC full L') : L = L' := by
  have hp : L.Perm L' := (List.perm_ext_iff_of_nodup h.nodup h'.nodup).mpr fun α => by
    rw [h.mem, h'.mem]
  exact hp.eq_of_pairwise (fun a b _ _ h1 h2 => absurd h2 (colexLt_asymm h1)) h.sorted h'.sorted

/-- Number of multi-indices of total degree below `m`. -/
theorem boxTuples_count (dim : ℕ) : ∀ m M : ℕ, m ≤ M →
    ((boxTuples M dim).filter fun α => ∑ k, α k < m).length = if m = 0 then 0 else (m - 1 + dim).choose dim := by
  induction dim with
  | zero =>
    intro m M _
    by_cases hm : m = 0
    · simp [boxTuples, hm]
    · simp [boxTuples, hm, Nat.pos_of_ne_zero hm]
  | succ n ih =>
    intro m M hM
    have h1 : ((boxTuples M (n + 1)).filter fun α => ∑ k, α k < m).length =
        ((List.range M).map fun a => if m - a = 0 then 0 else (m - a - 1 + n).choose n).sum := by
      rw [boxTuples, List.filter_flatMap, List.length_flatMap]
      congr 1
      refine List.map_congr_left fun a _ => ?_
      rw [List.filter_map, List.length_map, ← ih (m - a) M (by omega)]
      congr 2
      funext α
      simp only [Function.comp, Fin.sum_univ_castSucc, Fin.snoc_castSucc, Fin.snoc_last]
      congr 1
      apply propext
      omega
    rw [h1]
    clear h1 ih
    induction m generalizing M with
    | zero => simp
    | succ m ihm =>
      obtain ⟨M, rfl⟩ : ∃ M', M = M' + 1 := ⟨M - 1, by omega⟩
      rw [List.range_succ_eq_map, List.map_cons, List.map_map, List.sum_cons]
      have := ihm M (by omega)
      have e : (List.map ((fun a => if m + 1 - a = 0 then 0 else (m + 1 - a - 1 + n).choose n) ∘ Nat.succ)
          (List.range M)) = (List.range M).map fun a => if m - a = 0 then 0 else (m - a - 1 + n).choose n := by
        refine List.map_congr_left fun a _ => ?_
        simp [Function.comp]
      rw [e, this]
      simp only [Nat.sub_zero, Nat.add_sub_cancel, Nat.succ_ne_zero, if_false]
      by_cases hm : m = 0
      · subst hm; simp
      · rw [if_neg hm, show m + (n + 1) = (m + n) + 1 by omega, Nat.choose_succ_succ,
          show m - 1 + (n + 1) = m + n by omega]

theorem multiColumns_full_length {dim m : ℕ} (hm : 1 ≤ m) (nC : Fin dim → List ℤ) :
    (multiColumns m nC true).length = (m - 1 + dim).choose dim := by
  have h := boxTuples_count dim m m le_rfl
  rw [if_neg (by omega)] at h
  rw [← h, multiColumns]
  congr 2
  funext α
  simp [Admissible]

end Verif

namespace Verif

open Verif.Spec

/-- Partial derivative of a product of functions of one variable each. -/
theorem partialDeriv_tensor {dim : ℕ} (k : Fin dim) (g : Fin dim → ℝ → ℝ) (e : Fin dim → ℕ) :
    partialDeriv k (fun x => ∏ l, iteratedDeriv (e l) (g l) (x l)) =
      fun x => ∏ l, iteratedDeriv (Function.update e k (e k + 1) l) (g l) (x l) := by
  funext x
  unfold partialDeriv
  have h1 : (fun t => ∏ l, iteratedDeriv (e l) (g l) (Function.update x k t l)) =
      fun t => (∏ l ∈ Finset.univ.erase k, iteratedDeriv (e l) (g l) (x l)) * iteratedDeriv (e k) (g k) t := by
    funext t
    rw [← Finset.prod_erase_mul _ _ (Finset.mem_univ k)]
    simp only [Function.update_self]
    congr 1
    refine Finset.prod_congr rfl fun l hl => ?_
    rw [Function.update_of_ne (Finset.ne_of_mem_erase hl)]
  rw [h1, deriv_const_mul_field, ← Finset.prod_erase_mul _ _ (Finset.mem_univ k)]
  rw [Function.update_self, iteratedDeriv_succ]
  congr 1
  refine Finset.prod_congr rfl fun l hl => ?_
  rw [Function.update_of_ne (Finset.ne_of_mem_erase hl)]

theorem partialDeriv_iterate_tensor {dim : ℕ} (k : Fin dim) (g : Fin dim → ℝ → ℝ) (n : ℕ) (e : Fin dim → ℕ) :
    (partialDeriv k)^[n] (fun x => ∏ l, iteratedDeriv (e l) (g l) (x l)) =
      fun x => ∏ l, iteratedDeriv (Function.update e k (e k + n) l) (g l) (x l) := by
  induction n generalizing e with
  | zero => simp
  | succ n ih =>
    rw [Function.iterate_succ_apply, partialDeriv_tensor, ih]
    simp only [Function.update_self, Function.update_idem]
    rw [show e k + 1 + n = e k + (n + 1) by omega]

/-- The mixed partial derivative of a tensor product is the product of the derivatives of the factors. -/
theorem mixedPartial_tensor {dim : ℕ} (d : Fin dim → ℕ) (g : Fin dim → ℝ → ℝ) :
    mixedPartial d (fun x => ∏ l, g l (x l)) = fun x => ∏ l, iteratedDeriv (d l) (g l) (x l) := by
  have key : ∀ L : List (Fin dim), L.Nodup → L.foldr (fun k g => (partialDeriv k)^[d k] g)
      (fun x => ∏ l, g l (x l)) = fun x => ∏ l, iteratedDeriv (if l ∈ L then d l else 0) (g l) (x l) := by
    intro L
    induction L with
    | nil => intro _; simp
    | cons k L ih =>
      intro hL
      rw [List.foldr_cons, ih (List.nodup_cons.mp hL).2, partialDeriv_iterate_tensor]
      have hk := (List.nodup_cons.mp hL).1
      funext x
      refine Finset.prod_congr rfl fun l _ => ?_
      congr 1
      by_cases hl : l = k
      · subst hl; simp [hk]
      · simp [Function.update_of_ne hl, hl]
  unfold mixedPartial
  rw [key _ (List.nodup_finRange dim)]
  simp

end Verif
