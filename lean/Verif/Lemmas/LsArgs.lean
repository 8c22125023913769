import Verif.Lemmas.LsUnknowns

/-! # Constant arguments of LS and NLLS -/

set_option linter.unusedSectionVars false

namespace Verif.Lemmas.LSq

open Verif.Py Verif.Np Verif.Spec Verif.Model Verif.Model.Dict Verif.Model.LSq Verif.Lemmas.LinAlg Verif.Lemmas.Pe

variable {Key : Type} [DecidableEq Key] {α : Type}

theorem sortReverse_ascending {L : List ℕ} (hs : L.Pairwise (· < ·)) : sortReverse L = L.reverse := by
  unfold sortReverse
  rw [List.mergeSort_of_pairwise (hs.imp fun h => by simpa using le_of_lt h)]

theorem filterMap_range' (l : List α) (a : List α) : (List.range' a.length l.length).filterMap ((a ++ l)[·]?) = l := by
  have h := filterMap_getElem? (a ++ l) (List.range' a.length l.length) fun k hk => by
    have := List.mem_range'_1.1 hk
    simp
    omega
  have h2 : (List.range' a.length l.length).map ((a ++ l)[·]?) = l.map some := by
    refine List.ext_getElem (by simp) fun i h1 h2 => ?_
    have hi : i < l.length := by simpa using h2
    simp [hi]
  rw [h2] at h
  exact (List.map_injective_iff.2 (Option.some_injective α)) h

/-- Removing position `k` and then the smaller ones is removing them all. -/
theorem remaining_snoc {P : List ℕ} {k : ℕ} (hP : ∀ x ∈ P, x < k) (l : List α) (hk : k < l.length) :
    remaining P (l.eraseIdx k) = remaining (P ++ [k]) l := by
  obtain ⟨a, x, c, rfl, ha⟩ : ∃ a x c, l = a ++ x :: c ∧ a.length = k :=
    ⟨l.take k, l[k], l.drop (k + 1), by simp, by simp; omega⟩
  have he : (a ++ x :: c).eraseIdx k = a ++ c := by
    rw [List.eraseIdx_append_of_length_le (by omega), ← ha]
    simp
  rw [he]
  unfold remaining
  have h1 : List.range (a ++ c).length = List.range k ++ List.range' k c.length := by
    rw [List.length_append, ha, List.range_eq_range', List.range_eq_range']
    have := @List.range'_append_1 0 k c.length
    rw [Nat.zero_add] at this
    exact this.symm
  have h2 : List.range (a ++ x :: c).length = List.range k ++ k :: List.range' (k + 1) c.length := by
    have hl : (a ++ x :: c).length - k - 1 = c.length := by simp; omega
    rw [range_split (k := k) (n := (a ++ x :: c).length) (by simp; omega), hl]
  rw [h1, h2, List.filter_append, List.filter_append, List.filterMap_append, List.filterMap_append]
  congr 1
  · have hf : (List.range k).filter (fun i => decide (i ∉ P)) = (List.range k).filter (fun i => decide (i ∉ P ++ [k])) := by
      refine List.filter_congr fun i hi => ?_
      have := List.mem_range.1 hi
      simp only [List.mem_append, List.mem_singleton, not_or, decide_eq_decide]
      exact ⟨fun h => ⟨h, by omega⟩, fun h => h.1⟩
    rw [hf]
    refine List.filterMap_congr fun i hi => ?_
    have := List.mem_range.1 (List.mem_of_mem_filter hi)
    rw [List.getElem?_append_left (by omega), List.getElem?_append_left (by omega)]
  · rw [List.filter_cons_of_neg (by simp), List.filter_eq_self.2, List.filter_eq_self.2]
    · have := filterMap_range' c a
      rw [ha] at this
      rw [this]
      have := filterMap_range' c (a ++ [x])
      rw [List.length_append, List.append_assoc] at this
      simp only [List.length_singleton, List.singleton_append] at this
      rw [ha] at this
      exact this.symm
    · intro i hi
      have := (List.mem_range'_1.1 hi).1
      simp only [List.mem_append, List.mem_singleton, not_or, decide_eq_true_eq]
      exact ⟨fun h => by have := hP i h; omega, by omega⟩
    · intro i hi
      have := (List.mem_range'_1.1 hi).1
      simp only [decide_eq_true_eq]
      exact fun h => by have := hP i h; omega

/-- The pops leave the arguments whose positions are not in the list. -/
theorem popArgs_ok {L : List ℕ} (hs : L.Pairwise (· < ·)) (z : α) (args : List α) (hL : ∀ k ∈ L, 1 ≤ k ∧ k ≤ args.length) :
    ∃ args', popArgs args L.reverse = .ok args' ∧ remaining L (z :: args) = z :: args' := by
  induction L using List.reverseRecOn generalizing args with
  | nil =>
    refine ⟨args, rfl, ?_⟩
    have h5 := filterMap_getElem? (z :: args) (List.range (z :: args).length) fun k hk => List.mem_range.1 hk
    rw [map_getElem?] at h5
    unfold remaining
    rw [List.filter_eq_self.2 (by simp)]
    exact (List.map_injective_iff.2 (Option.some_injective α)) h5
  | append_singleton P k ih =>
    rw [List.pairwise_append] at hs
    have hP : ∀ x ∈ P, x < k := fun x hx => hs.2.2 x hx k (by simp)
    obtain ⟨hk1, hk2⟩ := hL k (by simp)
    have hpop : popArg args k = .ok (args.eraseIdx (k - 1)) := by
      have hi : (if k = 0 then args.length - 1 else k - 1) = k - 1 := if_neg (by omega)
      unfold popArg
      simp only [hi]
      rw [if_pos (by omega)]
    obtain ⟨args', h1, h2⟩ := ih hs.1 (args.eraseIdx (k - 1)) fun x hx => by
      have := hP x hx
      have := (hL x (by simp [hx])).1
      rw [List.length_eraseIdx_of_lt (by omega)]
      omega
    refine ⟨args', ?_, ?_⟩
    · unfold popArgs at h1 ⊢
      rw [List.reverse_append, List.reverse_singleton, List.singleton_append, List.foldlM_cons, hpop]
      exact h1
    · rw [← remaining_snoc hP (z :: args) (by simp; omega), ← h2]
      congr 1
      obtain ⟨j, rfl⟩ : ∃ j, k = j + 1 := ⟨k - 1, by omega⟩
      rfl

/-- Freezing arguments of a function of the unknowns and removing them from the argument list changes nothing. -/
theorem pe_pop {R : Type} {L : List ℕ} (hs : L.Pairwise (· < ·)) (z : α) (args : List α)
    (hL : ∀ k ∈ L, 1 ≤ k ∧ k ≤ args.length) (f : List α → Except Err R) :
    ∃ g args', pe (z :: args) L f = .ok g ∧ popArgs args (sortReverse L) = .ok args' ∧
      (∀ v, g (v :: args') = f (v :: args)) ∧ ∀ h, ∃ g', pe (z :: args) L h = .ok g' ∧ ∀ v, (g' (v :: args') : Except Err (List ℝ)) = h (v :: args) := by
  have hL' : ∀ k ∈ L, k < (z :: args).length := fun k hk => by
    have := (hL k hk).2
    simp
    omega
  obtain ⟨args', h1, h2⟩ := popArgs_ok hs z args hL
  have hrem : ∀ v, remaining L (v :: args) = v :: args' := by
    intro v
    obtain ⟨a2, h1', h2'⟩ := popArgs_ok hs v args hL
    rw [h1] at h1'
    cases h1'
    exact h2'
  have hagree : ∀ v : α, ∀ k ∈ L, (v :: args)[k]? = (z :: args)[k]? := by
    intro v k hk
    obtain ⟨j, rfl⟩ : ∃ j, k = j + 1 := ⟨k - 1, by have := (hL k hk).1; omega⟩
    rfl
  obtain ⟨g, hg, hg'⟩ := pe_good (z :: args) hs hL' f
  refine ⟨g, args', hg, by rw [sortReverse_ascending hs]; exact h1, fun v => ?_, fun h => ?_⟩
  · rw [← hrem v]
    exact hg' (v :: args) rfl (hagree v)
  · obtain ⟨g', hg, hg'⟩ := pe_good (z :: args) hs hL' h
    refine ⟨g', hg, fun v => ?_⟩
    rw [← hrem v]
    exact hg' (v :: args) rfl (hagree v)

theorem addStep_congr (timer : Bool) {ls ls' : List (View Key) → Except Err (List ℝ)} {args args' : List (View Key)}
    (h : ∀ v, ls' (v :: args') = ls (v :: args)) (z : View Key) : addStep timer ls' z args' = addStep timer ls z args := by
  cases z with
  | arr l =>
    unfold addStep
    simp only [h]
  | dict cls kvs =>
    unfold addStep
    simp only [h]

end Verif.Lemmas.LSq
