import Verif.Spec.Columns
import Mathlib.Data.List.Nodup
import Mathlib.Data.Finset.Card
import Mathlib.Data.Finset.Image
import Mathlib.Tactic.Ring
import Mathlib.Tactic.Linarith
import Mathlib.Algebra.Order.Ring.Int
import Mathlib.Data.Int.Cast.Lemmas

namespace Verif.Spec

theorem keptColumns_succ (m : ℕ) (nC : List ℤ) :
    keptColumns (m + 1) nC = keptColumns m nC ++ (if (m : ℤ) ∈ nC then [] else [m]) := by
  unfold keptColumns
  rw [List.range_succ, List.filter_append]
  by_cases h : (m : ℤ) ∈ nC <;> simp [h]

theorem mem_keptColumns {m : ℕ} {nC : List ℤ} {j : ℕ} :
    j ∈ keptColumns m nC ↔ j < m ∧ (j : ℤ) ∉ nC := by
  simp [keptColumns]

theorem keptColumns_nodup (m : ℕ) (nC : List ℤ) : (keptColumns m nC).Nodup :=
  List.Nodup.filter _ List.nodup_range

theorem keptColumns_sorted (m : ℕ) (nC : List ℤ) : (keptColumns m nC).Pairwise (· < ·) :=
  List.Pairwise.filter _ List.pairwise_lt_range

theorem keptColumns_nil (m : ℕ) : keptColumns m [] = List.range m := by
  simp [keptColumns]

theorem keptColumns_length_mono {m m' : ℕ} (nC : List ℤ) (h : m ≤ m') :
    (keptColumns m nC).length ≤ (keptColumns m' nC).length := by
  induction m', h using Nat.le_induction with
  | base => exact le_rfl
  | succ k _ ih =>
    rw [keptColumns_succ, List.length_append]; omega

/-- The removed indices that actually exist. -/
theorem keptColumns_card (m : ℕ) (nC : List ℤ) :
    (keptColumns m nC).length + (nC.toFinset.filter (fun r => 0 ≤ r ∧ r < (m : ℤ))).card = m := by
  induction m with
  | zero =>
    simp [keptColumns]
  | succ m ih =>
    rw [keptColumns_succ, List.length_append]
    by_cases h : (m : ℤ) ∈ nC
    · have hins : (nC.toFinset.filter (fun r => 0 ≤ r ∧ r < ((m + 1 : ℕ) : ℤ))) =
          insert (m : ℤ) (nC.toFinset.filter (fun r => 0 ≤ r ∧ r < (m : ℤ))) := by
        ext r
        simp only [Finset.mem_filter, List.mem_toFinset, Finset.mem_insert]
        constructor
        · rintro ⟨h1, h2, h3⟩
          by_cases hr : r = m
          · exact Or.inl hr
          · right; refine ⟨h1, h2, ?_⟩; push_cast at h3; omega
        · rintro (rfl | ⟨h1, h2, h3⟩)
          · exact ⟨h, by omega, by push_cast; omega⟩
          · exact ⟨h1, h2, by push_cast; omega⟩
      have hnot : (m : ℤ) ∉ (nC.toFinset.filter (fun r => 0 ≤ r ∧ r < (m : ℤ))) := by simp
      rw [hins, Finset.card_insert_of_notMem hnot]
      simp [h]; omega
    · have hins : (nC.toFinset.filter (fun r => 0 ≤ r ∧ r < ((m + 1 : ℕ) : ℤ))) =
          (nC.toFinset.filter (fun r => 0 ≤ r ∧ r < (m : ℤ))) := by
        apply Finset.filter_congr
        intro r hr
        have hne : r ≠ m := by rintro rfl; exact h (by simpa using hr)
        push_cast; omega
      rw [hins]; simp [h]; omega

theorem keptColumns_length_ge (m : ℕ) (nC : List ℤ) :
    m ≤ (keptColumns m nC).length + nC.length := by
  have h := keptColumns_card m nC
  have h1 := Finset.card_filter_le nC.toFinset (fun r => 0 ≤ r ∧ r < (m : ℤ))
  have h2 := nC.toFinset_card_le
  omega

/-- Exactly `m - numC` columns are kept iff `nC` lists distinct existing indices. -/
theorem keptColumns_length_iff (m : ℕ) (nC : List ℤ) :
    (keptColumns m nC).length + nC.length = m ↔ ValidRemoval m nC := by
  have h := keptColumns_card m nC
  have h1 := Finset.card_filter_le nC.toFinset (fun r => 0 ≤ r ∧ r < (m : ℤ))
  have h2 := nC.toFinset_card_le
  constructor
  · intro he
    have e1 : (nC.toFinset.filter (fun r => 0 ≤ r ∧ r < (m : ℤ))).card = nC.toFinset.card := by omega
    have e2 : nC.toFinset.card = nC.length := by omega
    refine ⟨?_, ?_⟩
    · rw [List.card_toFinset] at e2
      have : nC.dedup = nC := List.Sublist.eq_of_length (List.dedup_sublist nC) e2
      exact List.dedup_eq_self.mp this
    · intro r hr
      rw [Finset.card_filter_eq_iff] at e1
      exact e1 r (by simpa using hr)
  · rintro ⟨hn, hr⟩
    have e1 : (nC.toFinset.filter (fun r => 0 ≤ r ∧ r < (m : ℤ))).card = nC.toFinset.card := by
      rw [Finset.card_filter_eq_iff]; intro r h; exact hr r (by simpa using h)
    have e2 := List.toFinset_card_of_nodup hn
    omega

theorem ValidRemoval.length_le {m : ℕ} {nC : List ℤ} (h : ValidRemoval m nC) : nC.length ≤ m := by
  have := (keptColumns_length_iff m nC).mpr h
  omega

end Verif.Spec
