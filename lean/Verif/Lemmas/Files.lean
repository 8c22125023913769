import Verif.Model.Files

/-! # Names of files -/

namespace Verif.Lemmas.Files

open Verif.Py Verif.Model.Files

theorem split_ne_nil (s : Str) : split s ≠ [] := by
  cases s with
  | nil => simp [split]
  | cons c s =>
      rw [split]
      split
      · simp
      · split <;> simp

theorem split_noslash (s : Str) (h : '/' ∉ s) : split s = [s] := by
  induction s with
  | nil => rfl
  | cons c s ih =>
      simp only [List.mem_cons, not_or] at h
      rw [split, if_neg (fun e => h.1 e.symm), ih h.2]

theorem split_append (a b : Str) : split (a ++ '/' :: b) = split a ++ split b := by
  induction a with
  | nil => simp [split]
  | cons c a ih =>
      rw [List.cons_append, split, split, ih]
      by_cases hc : c = '/'
      · simp [hc]
      · rw [if_neg hc, if_neg hc]
        cases h : split a with
        | nil => exact absurd h (split_ne_nil a)
        | cons w ws => simp

theorem parts_append (a b : Str) : parts (a ++ '/' :: b) = parts a ++ parts b := by
  simp [parts, split_append, List.filter_append]

/-- A string without a slash, or one with what follows its last slash. -/
theorem slash_cases (s : Str) : '/' ∉ s ∨ ∃ a b, s = a ++ '/' :: b ∧ '/' ∉ b := by
  induction s with
  | nil => simp
  | cons c s ih =>
      rcases ih with h | ⟨a, b, rfl, hb⟩
      · by_cases hc : c = '/'
        · exact .inr ⟨[], s, by simp [hc], h⟩
        · exact .inl (by simp only [List.mem_cons, not_or]; exact ⟨fun e => hc e.symm, h⟩)
      · exact .inr ⟨c :: a, b, rfl, hb⟩

theorem basename_noslash (s : Str) (h : '/' ∉ s) : basename s = s := by simp [basename, split_noslash s h]

theorem basename_slash (a b : Str) (h : '/' ∉ b) : basename (a ++ '/' :: b) = b := by
  simp [basename, split_append, split_noslash b h]

theorem basename_append (s t : Str) (ht : '/' ∉ t) : basename (s ++ t) = basename s ++ t := by
  rcases slash_cases s with h | ⟨a, b, rfl, hb⟩
  · rw [basename_noslash s h, basename_noslash _ (by simp [h, ht])]
  · rw [basename_slash a b hb, List.append_assoc, List.cons_append, basename_slash _ _ (by simp [hb, ht])]

theorem basename_suffix (s : Str) : ∃ a, s = a ++ basename s := by
  rcases slash_cases s with h | ⟨a, b, rfl, hb⟩
  · exact ⟨[], by simp [basename_noslash s h]⟩
  · exact ⟨a ++ ['/'], by simp [basename_slash a b hb]⟩

theorem take_head (s t : Str) (ht : '/' ∉ t) :
    (s ++ t).take ((s ++ t).length - (basename (s ++ t)).length) = s.take (s.length - (basename s).length) := by
  obtain ⟨a, ha⟩ := basename_suffix s
  have hl : s.length = a.length + (basename s).length := by
    have := congrArg List.length ha
    simpa using this
  rw [basename_append s t ht]
  have h1 : (s ++ t).length - (basename s ++ t).length = a.length := by simp; omega
  have h2 : s.length - (basename s).length = a.length := by omega
  rw [h1, h2, List.take_append_of_le_length (by omega)]

theorem dirname_append (s t : Str) (ht : '/' ∉ t) : dirname (s ++ t) = dirname s := by
  rw [dirname, dirname, take_head s t ht]

theorem pathName_eq (s : Str) (h1 : basename s ≠ []) (h2 : basename s ≠ ['.']) : pathName s = basename s := by
  obtain ⟨l, hl⟩ : ∃ l, split s = l ++ [basename s] := by
    have := List.dropLast_append_getLast (split_ne_nil s)
    refine ⟨(split s).dropLast, ?_⟩
    rw [basename, List.getLastD_eq_getLast?, List.getLast?_eq_getLast_of_ne_nil (split_ne_nil s)]
    simpa using this.symm
  rw [pathName, parts, hl, List.filter_append]
  simp [h1, h2]

theorem afterDot_append (s t : Str) (ht : '.' ∉ t) : afterDot (s ++ '.' :: t) = t := by
  have h : (s ++ '.' :: t).reverse = t.reverse ++ '.' :: s.reverse := by simp
  rw [afterDot, h, List.takeWhile_append_of_pos (by intro a ha; simp only [decide_eq_true_eq]; rintro rfl; exact ht (by simpa using ha))]
  simp

theorem beforeDot_append (s t : Str) (ht : '.' ∉ t) : beforeDot (s ++ '.' :: t) = s := by
  have h : (s ++ '.' :: t).reverse = t.reverse ++ '.' :: s.reverse := by simp
  rw [beforeDot, h, List.dropWhile_append_of_pos (by intro a ha; simp only [decide_eq_true_eq]; rintro rfl; exact ht (by simpa using ha))]
  simp

theorem dot_split (s : Str) (h : '.' ∈ s) : s = beforeDot s ++ '.' :: afterDot s := by
  obtain ⟨a, b, rfl, hb⟩ : ∃ a b, s = a ++ '.' :: b ∧ '.' ∉ b := by
    induction s with
    | nil => simp at h
    | cons c s ih =>
        by_cases hs : '.' ∈ s
        · obtain ⟨a, b, rfl, hb⟩ := ih hs
          exact ⟨c :: a, b, rfl, hb⟩
        · have : c = '.' := by
            rcases List.mem_cons.1 h with h | h
            · exact h.symm
            · exact absurd h hs
          exact ⟨[], s, by simp [this], hs⟩
  rw [beforeDot_append a b hb, afterDot_append a b hb]

/-- The suffix of a name to which a type has been added is that type. -/
theorem suffix_add (n t : Str) (hn : basename n ≠ []) (ht : t ≠ []) (hd : '.' ∉ t) (hs : '/' ∉ t) : suffix (n ++ '.' :: t) = t := by
  have hb : basename (n ++ '.' :: t) = basename n ++ '.' :: t := basename_append n _ (by simp [hs])
  have hp : pathName (n ++ '.' :: t) = basename n ++ '.' :: t := by
    rw [pathName_eq _ (by simp [hb]), hb]
    rw [hb]
    intro e
    have := congrArg List.length e
    simp only [List.length_append, List.length_cons, List.length_nil] at this
    exact hn (List.length_eq_zero_iff.1 (by omega))
  rw [suffix, hp, afterDot_append _ _ hd, beforeDot_append _ _ hd, if_pos ⟨by simp, ht, hn⟩]

/-- A name that can be written to ends in a dot and its suffix. -/
theorem suffix_ends (p : Str) (h1 : basename p ≠ []) (h2 : basename p ≠ ['.']) (hs : suffix p ≠ []) : ∃ a, p = a ++ '.' :: suffix p := by
  have hp := pathName_eq p h1 h2
  rw [suffix, hp] at hs
  split at hs
  · next h =>
      rw [suffix, hp, if_pos h]
      obtain ⟨a, ha⟩ := basename_suffix p
      exact ⟨a ++ beforeDot (basename p), by
        rw [List.append_assoc, ← dot_split _ h.1, ← ha]⟩
  · exact absurd rfl hs

/-! ## Numbers of frames -/

theorem digit_toNat : ∀ d < 10, (Char.ofNat (48 + d)).toNat = 48 + d := by decide

theorem digit_isDigit : ∀ d < 10, (Char.ofNat (48 + d)).isDigit = true := by decide

/-- The value of a string of decimal digits. -/
def val (s : Str) : ℕ := s.foldl (fun a c => 10 * a + (c.toNat - 48)) 0

theorem val_digits (n : ℕ) : val (digits n) = n := by
  induction n using Nat.strongRecOn with
  | _ n ih =>
      rw [digits]
      split
      · next h => simp [val, h]
      · next h =>
          have := ih (n / 10) (by omega)
          rw [val, List.foldl_append, ← val, this]
          simp only [List.foldl_cons, List.foldl_nil, digit_toNat (n % 10) (by omega)]
          omega

theorem isDigit_digits (n : ℕ) : ∀ c ∈ digits n, c.isDigit = true := by
  induction n using Nat.strongRecOn with
  | _ n ih =>
      rw [digits]
      split
      · simp
      · next h =>
          intro c hc
          rcases List.mem_append.1 hc with hc | hc
          · exact ih (n / 10) (by omega) c hc
          · rw [List.mem_singleton.1 hc]; exact digit_isDigit (n % 10) (by omega)

theorem head_digits (n : ℕ) : (digits n).head? ≠ some '0' := by
  induction n using Nat.strongRecOn with
  | _ n ih =>
      rw [digits]
      split
      · simp
      · next h =>
          by_cases hq : n / 10 = 0
          · rw [hq]
            rw [digits]
            simp only [dif_pos, List.nil_append, List.head?_cons]
            intro e
            have hd := digit_toNat (n % 10) (by omega)
            rw [Option.some.inj e] at hd
            have : ('0' : Char).toNat = 48 := rfl
            omega
          · have h1 := ih (n / 10) (by omega)
            have h2 : digits (n / 10) ≠ [] := by
              rw [digits, dif_neg hq]; simp
            rw [List.head?_append_of_ne_nil _ h2]
            exact h1

theorem val_replicate (m : ℕ) (s : Str) : val (List.replicate m '0' ++ s) = val s := by
  induction m with
  | zero => simp
  | succ m ih => rw [List.replicate_succ, List.cons_append, val, List.foldl_cons]; exact ih

theorem val_pad6 (k : ℕ) : val (pad6 k) = k := by rw [pad6, val_replicate, val_digits]

theorem isDigit_pad6 (k : ℕ) : ∀ c ∈ pad6 k, c.isDigit = true := by
  intro c hc
  rcases List.mem_append.1 hc with hc | hc
  · rw [(List.mem_replicate.1 hc).2]; rfl
  · exact isDigit_digits k c hc

theorem pad6_length (k : ℕ) : 6 ≤ (pad6 k).length := by simp [pad6]; omega

theorem slash_pad6 (k : ℕ) : '/' ∉ pad6 k := fun h => by
  have := isDigit_pad6 k _ h
  simp at this

end Verif.Lemmas.Files
