import Verif.Model.Latex
import Verif.Spec.Latex

/-!
# C51: LaTeX tables

Python: /repo/src/tfc/utils/Latex.py.
-/

namespace Verif.Props

open Verif.Py Verif.Spec Verif.Model.Latex

variable {K : Type}

theorem rstrip_snoc {c : Char} (h : isSpace c = false) (s : Str) : rstrip (s ++ [c]) = s ++ [c] := by
  unfold rstrip
  rw [List.reverse_append]
  simp [List.dropWhile_cons, h]

theorem rstrip_snoc_space {c : Char} (h : isSpace c = true) (s : Str) : rstrip (s ++ [c]) = rstrip s := by
  unfold rstrip
  rw [List.reverse_append]
  simp [List.dropWhile_cons, h]

theorem rstrip_sep (line : Str) : rstrip (line ++ sep) = line ++ [' ', '&'] := by
  have h1 : line ++ sep = (line ++ [' ', '&']) ++ [' '] := by simp [sep]
  have h2 : line ++ [' ', '&'] = (line ++ [' ']) ++ ['&'] := by simp
  rw [h1, rstrip_snoc_space (by decide), h2, rstrip_snoc (by decide)]

/-- The words after a separator. -/
theorem joinWords_sep (s line : Str) (ws : List Str) (hw : ws ≠ []) : ∃ t, RowText ws t ∧
    (joinWords s (line ++ sep) ws = s ++ line ++ [' ', '&', ' '] ++ t ∨ joinWords s (line ++ sep) ws = s ++ line ++ [' ', '&', '\n', ' '] ++ t) := by
  induction ws generalizing s line with
  | nil => exact absurd rfl hw
  | cons w ws ih =>
    cases ws with
    | nil =>
      refine ⟨w, .one w, ?_⟩
      simp only [joinWords, extendLine]
      by_cases hc : 73 < (line ++ sep).length + w.length ∧ 1 < (line ++ sep).length
      · right
        rw [if_pos hc, rstrip_sep]
        simp
      · left
        rw [if_neg hc]
        simp [sep]
    | cons v ws =>
      by_cases hc : 73 < (line ++ sep).length + w.length ∧ 1 < (line ++ sep).length
      · have he : extendLine s (line ++ sep) w = (s ++ (line ++ [' ', '&']) ++ ['\n'], [' '] ++ w) := by
          unfold extendLine
          rw [if_pos hc, rstrip_sep]
        have hj : joinWords s (line ++ sep) (w :: v :: ws) = joinWords (s ++ (line ++ [' ', '&']) ++ ['\n']) (([' '] ++ w) ++ sep) (v :: ws) := by
          rw [joinWords, he]
          simp
        obtain ⟨t, ht, h⟩ := ih (s ++ (line ++ [' ', '&']) ++ ['\n']) ([' '] ++ w) (by simp)
        rw [hj]
        rcases h with h | h
        · exact ⟨_, .cons w _ t ht, Or.inr (by rw [h]; simp)⟩
        · exact ⟨_, .wrap w _ t ht, Or.inr (by rw [h]; simp)⟩
      · have he : extendLine s (line ++ sep) w = (s, (line ++ sep) ++ w) := by
          unfold extendLine
          rw [if_neg hc]
        have hj : joinWords s (line ++ sep) (w :: v :: ws) = joinWords s (((line ++ sep) ++ w) ++ sep) (v :: ws) := by
          rw [joinWords, he]
          simp
        obtain ⟨t, ht, h⟩ := ih s ((line ++ sep) ++ w) (by simp)
        rw [hj]
        rcases h with h | h
        · exact ⟨_, .cons w _ t ht, Or.inl (by rw [h]; simp [sep])⟩
        · exact ⟨_, .wrap w _ t ht, Or.inl (by rw [h]; simp [sep])⟩

/-- The text of a row before the brackets are added. -/
theorem joinWords_row (ws : List Str) (hw : ws ≠ []) : ∃ t, RowText ws t ∧ joinWords [] [' '] ws = ' ' :: t := by
  cases ws with
  | nil => exact absurd rfl hw
  | cons w ws =>
    have he : extendLine [] [' '] w = ([], [' '] ++ w) := by
      unfold extendLine
      rw [if_neg (by simp)]
    cases ws with
    | nil =>
      refine ⟨w, .one w, ?_⟩
      simp only [joinWords, he]
      simp
    | cons v ws =>
      have hj : joinWords [] [' '] (w :: v :: ws) = joinWords [] (([' '] ++ w) ++ sep) (v :: ws) := by
        rw [joinWords, he]
        simp
      obtain ⟨t, ht, h⟩ := joinWords_sep [] ([' '] ++ w) (v :: ws) (by simp)
      rw [hj]
      rcases h with h | h
      · exact ⟨_, .cons w _ t ht, by rw [h]; simp⟩
      · exact ⟨_, .wrap w _ t ht, by rw [h]; simp⟩

theorem rowText_chars {cs : List Str} {t : Str} (h : RowText cs t) (p : Char → Prop) (hp : ∀ c ∈ cs, ∀ x ∈ c, p x)
    (h1 : p ' ') (h2 : p '&') (h3 : p '\n') : ∀ x ∈ t, p x := by
  induction h with
  | one c => exact hp c (by simp)
  | cons c cs t _ ih =>
    intro x hx
    simp only [List.mem_append, List.mem_cons, List.not_mem_nil, or_false] at hx
    rcases hx with (hx | rfl | rfl | rfl) | hx
    · exact hp c (by simp) x hx
    · exact h1
    · exact h2
    · exact h1
    · exact ih (fun c hc => hp c (by simp [hc])) x hx
  | wrap c cs t _ ih =>
    intro x hx
    simp only [List.mem_append, List.mem_cons, List.not_mem_nil, or_false] at hx
    rcases hx with (hx | rfl | rfl | rfl | rfl) | hx
    · exact hp c (by simp) x hx
    · exact h1
    · exact h2
    · exact h3
    · exact h1
    · exact ih (fun c hc => hp c (by simp [hc])) x hx

theorem rowText_count {cs : List Str} {t : Str} (h : RowText cs t) (hp : ∀ c ∈ cs, '&' ∉ c) : t.count '&' = cs.length - 1 := by
  have key : t.count '&' + 1 = cs.length := by
    induction h with
    | one c => simp [List.count_eq_zero.2 (hp c (by simp))]
    | cons c cs t _ ih =>
      have := ih fun c hc => hp c (by simp [hc])
      simp only [List.count_append, List.count_eq_zero.2 (hp c (by simp)), List.length_cons]
      have h1 : List.count '&' [' ', '&', ' '] = 1 := by decide
      omega
    | wrap c cs t _ ih =>
      have := ih fun c hc => hp c (by simp [hc])
      simp only [List.count_append, List.count_eq_zero.2 (hp c (by simp)), List.length_cons]
      have h1 : List.count '&' [' ', '&', '\n', ' '] = 1 := by decide
      omega
  omega

theorem dropWhile_none {p : Char → Bool} {s : Str} (h : ∀ c ∈ s, p c = false) : s.dropWhile p = s := by
  cases s with
  | nil => rfl
  | cons c s => rw [List.dropWhile_cons, if_neg (by simp [h c])]

theorem stripBrackets_wrap {t : Str} (h : ∀ c ∈ t, isBracket c = false) : stripBrackets (['['] ++ t ++ [']']) = t := by
  unfold stripBrackets
  have h1 : (['['] ++ t ++ [']']).dropWhile isBracket = (t ++ [']']).dropWhile isBracket := by
    change ('[' :: (t ++ [']'])).dropWhile isBracket = _
    rw [List.dropWhile_cons, if_pos (by decide)]
  rw [h1]
  cases t with
  | nil => decide
  | cons c t =>
    have h2 : ((c :: t) ++ [']']).dropWhile isBracket = (c :: t) ++ [']'] := by
      rw [List.cons_append, List.dropWhile_cons, if_neg (by simp [h c])]
    rw [h2, List.reverse_append]
    change ((']' :: (c :: t).reverse).dropWhile isBracket).reverse = _
    rw [List.dropWhile_cons, if_pos (by decide), dropWhile_none, List.reverse_reverse]
    intro x hx
    exact h x (List.mem_reverse.1 hx)

/-- The text of a row. -/
theorem row_text (fmt : K → Str) (hf : ∀ x, ∀ c ∈ fmt x, isBracket c = false) (r : List K) (hr : r ≠ []) :
    RowText (shown (r.map fmt)) (stripBrackets (array2string fmt r)) := by
  have hne : shown (r.map fmt) ≠ [] := by
    unfold shown
    split
    · simp
    · simpa using hr
  obtain ⟨t, ht, h⟩ := joinWords_row (shown (r.map fmt)) hne
  unfold array2string
  rw [if_neg (by simpa using hr), h]
  change RowText _ (stripBrackets (['['] ++ t ++ [']']))
  rw [stripBrackets_wrap]
  · exact ht
  · refine rowText_chars ht (fun c => isBracket c = false) ?_ (by decide) (by decide) (by decide)
    intro w hw c hc
    have hmem : ∀ w ∈ r.map fmt, ∀ c ∈ w, isBracket c = false := by
      intro w hw c hc
      obtain ⟨x, -, rfl⟩ := List.mem_map.1 hw
      exact hf x c hc
    unfold shown at hw
    split at hw
    · simp only [List.mem_append, List.mem_cons, List.not_mem_nil, or_false] at hw
      rcases hw with (hw | rfl) | hw
      · exact hmem w (List.mem_of_mem_take hw) c hc
      · simp only [List.mem_cons, List.not_mem_nil, or_false, or_self] at hc
        rw [hc]
        decide
      · exact hmem w (List.mem_of_mem_drop hw) c hc
    · exact hmem w hw c hc

theorem rowsPlain_eq (fmt : K → Str) (out : Str) (rows : List (List K)) :
    rowsPlain fmt out rows = out ++ (rows.map fun r => stripBrackets (array2string fmt r) ++ ['\\', '\\', '\n'] ++ hline).flatten := by
  induction rows generalizing out with
  | nil => simp [rowsPlain]
  | cons r rows ih =>
    rw [rowsPlain, ih]
    simp

theorem rowsHeaded_eq (fmt : K → Str) (h : List Str) (out : Str) (k : ℕ) (rows : List (List K)) (hl : k + rows.length ≤ h.length) :
    rowsHeaded fmt h out k rows =
      .ok (out ++ ((rows.zip (h.drop k)).map fun p => p.2 ++ sep ++ stripBrackets (array2string fmt p.1) ++ ['\\', '\\', '\n'] ++ hline).flatten) := by
  induction rows generalizing out k with
  | nil => simp [rowsHeaded]
  | cons r rows ih =>
    rw [List.length_cons] at hl
    have hk : k < h.length := by omega
    rw [rowsHeaded, List.getElem?_eq_getElem hk]
    simp only
    rw [ih _ _ (by omega), List.drop_eq_getElem_cons hk]
    simp only [List.zip_cons_cons, List.map_cons, List.flatten_cons, List.append_assoc]

theorem rstrip_rows (rows : List Str) : rstrip ((rows.map fun r => r ++ ['\\', '\\', '\n'] ++ hline).flatten) ++ ['\n'] =
    (rows.map fun r => r ++ ['\\', '\\', '\n'] ++ hline).flatten ++ (if rows = [] then ['\n'] else []) := by
  rcases List.eq_nil_or_concat rows with rfl | ⟨rows, r, rfl⟩
  · rfl
  · rw [if_neg (by simp), List.concat_eq_append, List.map_append, List.flatten_append]
    have h1 : ∀ X : Str, X ++ ([r].map fun r => r ++ ['\\', '\\', '\n'] ++ hline).flatten =
        ((X ++ r ++ ['\\', '\\', '\n'] ++ ['\\', 'h', 'l', 'i', 'n']) ++ ['e']) ++ ['\n'] := by
      intro X
      simp [hline]
    rw [h1, rstrip_snoc_space (by decide), rstrip_snoc (by decide)]
    simp

theorem colHeader_eq (c : List Str) : colHeader c = ampText c ++ ['\\', '\\', '\n'] := by
  unfold colHeader
  congr 1
  induction c with
  | nil => rfl
  | cons a c ih =>
    cases c with
    | nil => simp [ampText, List.intercalate]
    | cons b c =>
      rw [ampText]
      · rw [← ih]
        simp [List.intercalate, sep]
      · simp

theorem hline_eq : hline = hlineText := rfl

/-- The row texts with row headers. -/
def headed (rowH : Option (List Str)) (ts : List Str) : List Str :=
  match rowH with
  | none => ts
  | some h => (h.zip ts).map fun p => p.1 ++ [' ', '&', ' '] ++ p.2

/-- **C51**, partly: for a two-dimensional array with 1 to 1000 columns, formatted entries without square brackets, and row headers (if any) for every row, `SimpleTable` gives a tabular with a column for each column of the array (and one for the row headers), the column headers (if any) as first line, and a row for each row of the array, in order, that lists its entries in order; if no entry contains `&`, each row has one separator less than entries. Missing: one-dimensional arrays and more than 1000 columns, see `C51_one_dim_fails` and `C51_wide_fails`. -/
theorem C51_partial (fmt : K → Str) (hf : ∀ x, ∀ c ∈ fmt x, c ≠ '[' ∧ c ≠ ']') (colH rowH : Option (List Str)) (m : ℕ) (rows : List (List K))
    (hm : 0 < m) (hm' : m ≤ 1000) (hrows : ∀ r ∈ rows, r.length = m) (hh : ∀ h, rowH = some h → rows.length ≤ h.length) :
    ∃ ts : List Str, ts.length = rows.length ∧
      (∀ (k : ℕ) (r : List K) (t : Str), rows[k]? = some r → ts[k]? = some t → RowText (r.map fmt) t ∧
        ((∀ x, '&' ∉ fmt x) → t.count '&' = m - 1)) ∧
      simpleTable fmt colH rowH (.d2 m rows) =
        .ok (tabularText (m + if rowH.isSome then 1 else 0) (colH.map ampText) (headed rowH ts)) := by
  have hf' : ∀ x, ∀ c ∈ fmt x, isBracket c = false := by
    intro x c hc
    have := hf x c hc
    simp [isBracket, this.1, this.2]
  refine ⟨rows.map fun r => stripBrackets (array2string fmt r), by simp, ?_, ?_⟩
  · intro k r t hr ht
    rw [List.getElem?_map, hr] at ht
    have ht : stripBrackets (array2string fmt r) = t := by simpa using ht
    have hlen := hrows r (List.mem_of_getElem? hr)
    have h1 := row_text fmt hf' r (by intro h; rw [h] at hlen; simp at hlen; omega)
    have h2 : shown (r.map fmt) = r.map fmt := by
      unfold shown
      rw [if_neg]
      rw [List.length_map]
      omega
    rw [h2, ht] at h1
    refine ⟨h1, fun hamp => ?_⟩
    rw [rowText_count h1, List.length_map, hlen]
    intro c hc
    obtain ⟨x, -, rfl⟩ := List.mem_map.1 hc
    exact hamp x
  · have hplain : ∀ m, header m ++ hline = beginText ++ (List.replicate m ['|', 'c']).flatten ++
        ['|', '}', '\n'] ++ hlineText := by
      intro m
      rw [hline_eq]
      rfl
    have hbody : arr2Tab fmt rowH (.d2 m rows) = .ok (rstrip (((headed rowH (rows.map fun r => stripBrackets (array2string fmt r))).map
        fun r => r ++ ['\\', '\\', '\n'] ++ hline).flatten)) := by
      cases rowH with
      | none =>
        simp only [arr2Tab, headed]
        rw [rowsPlain_eq, List.map_map, List.nil_append]
        rfl
      | some h =>
        simp only [arr2Tab, headed]
        rw [rowsHeaded_eq fmt h [] 0 rows (by have := hh h rfl; omega), List.drop_zero, List.nil_append]
        simp only [Except.map]
        congr 3
        rw [List.map_map, List.zip_map_right, List.map_map]
        clear hh
        induction rows generalizing h with
        | nil => simp
        | cons r rows ih =>
          cases h with
          | nil => simp
          | cons a h =>
            simp only [List.zip_cons_cons, List.map_cons, ih (fun r hr => hrows r (by simp [hr]))]
            rfl
    have hcol : ∀ c : List Str, colHeader c ++ hline = ampText c ++ ['\\', '\\', '\n'] ++ hlineText := by
      intro c
      rw [colHeader_eq, hline_eq]
    have hend := rstrip_rows (headed rowH (rows.map fun r => stripBrackets (array2string fmt r)))
    have hrow : ∀ r : Str, r ++ ['\\', '\\', '\n'] ++ hline = r ++ ['\\', '\\', '\n'] ++ hlineText := by
      intro r
      rw [hline_eq]
    simp only [hrow] at hend hbody
    have hfoot : footer = endText := rfl
    unfold tabularText
    cases colH with
    | none =>
      cases rowH with
      | none =>
        simp only [simpleTable, shape1, hbody, bind, Except.bind]
        rw [hplain, List.append_assoc (_ ++ _) (rstrip _) ['\n'], hend, hfoot]
        simp only [Option.map_none, Option.isSome_none, List.append_assoc, List.nil_append, Bool.false_eq_true, if_false, Nat.add_zero]
      | some h =>
        simp only [simpleTable, shape1, hbody, bind, Except.bind]
        rw [hplain, List.append_assoc (_ ++ _) (rstrip _) ['\n'], hend, hfoot]
        simp only [Option.map_none, Option.isSome_some, List.append_assoc, List.nil_append, if_true]
    | some c =>
      cases rowH with
      | none =>
        simp only [simpleTable, shape1, hbody, bind, Except.bind]
        rw [hplain, List.append_assoc _ (colHeader c) hline, hcol, List.append_assoc _ (rstrip _) ['\n'], hend, hfoot]
        simp only [Option.map_some, Option.isSome_none, List.append_assoc, Bool.false_eq_true, if_false, Nat.add_zero]
      | some h =>
        simp only [simpleTable, shape1, hbody, bind, Except.bind]
        rw [hplain, List.append_assoc _ (colHeader c) hline, hcol, List.append_assoc _ (rstrip _) ['\n'], hend, hfoot]
        simp only [Option.map_some, Option.isSome_some, List.append_assoc, if_true]

/-- The claim fails for every one-dimensional array: an exception is raised, in `SimpleTable` and also in `_Arr2Tab` itself. -/
theorem C51_one_dim_fails (fmt : K → Str) (colH rowH : Option (List Str)) (l : List K) :
    simpleTable fmt colH rowH (.d1 l) = .error .indexError ∧ arr2Tab fmt rowH (.d1 l) = .error .unboundLocal := by
  refine ⟨?_, rfl⟩
  cases colH <;> cases rowH <;> rfl

/-- The claim fails for every row with more than 1000 entries: it has six separators only. -/
theorem C51_wide_fails (fmt : K → Str) (hf : ∀ x, ∀ c ∈ fmt x, c ≠ '[' ∧ c ≠ ']' ∧ c ≠ '&') (r : List K) (hr : 1000 < r.length) :
    simpleTable fmt none none (.d2 r.length [r]) = .ok (tabularText r.length none [stripBrackets (array2string fmt r)]) ∧
      (stripBrackets (array2string fmt r)).count '&' = 6 := by
  have hf' : ∀ x, ∀ c ∈ fmt x, isBracket c = false := by
    intro x c hc
    have := hf x c hc
    simp [isBracket, this.1, this.2]
  constructor
  · have h1 := rstrip_rows [stripBrackets (array2string fmt r)]
    rw [if_neg (by simp), List.append_nil] at h1
    simp only [simpleTable, shape1, arr2Tab, bind, Except.bind]
    rw [rowsPlain_eq]
    simp only [List.nil_append, List.map_cons, List.map_nil] at h1 ⊢
    rw [List.append_assoc (_ ++ _) (rstrip _) ['\n'], h1]
    have hfoot : footer = endText := rfl
    have hhead : header r.length = beginText ++ (List.replicate r.length ['|', 'c']).flatten ++ ['|', '}', '\n'] := rfl
    rw [hfoot, hhead, hline_eq]
    simp only [tabularText, List.map_cons, List.map_nil, List.append_assoc, List.nil_append, List.cons_ne_nil, if_false]
  · have h1 := row_text fmt hf' r (by intro h; rw [h] at hr; simp at hr)
    rw [rowText_count h1]
    · unfold shown
      rw [if_pos (by simpa using hr)]
      simp
      omega
    · intro c hc hmem
      have hc' : c = ['.', '.', '.'] ∨ c ∈ r.map fmt := by
        unfold shown at hc
        split at hc
        · simp only [List.mem_append, List.mem_cons, List.not_mem_nil, or_false] at hc
          rcases hc with (hc | rfl) | hc
          · exact Or.inr (List.mem_of_mem_take hc)
          · exact Or.inl rfl
          · exact Or.inr (List.mem_of_mem_drop hc)
        · exact Or.inr hc
      rcases hc' with rfl | hc'
      · simp at hmem
      · obtain ⟨x, -, rfl⟩ := List.mem_map.1 hc'
        exact (hf x '&' hmem).2.2 rfl

/-- Non-vacuity of `C51_partial`, and the text itself: a 2 × 2 array with row headers. -/
example : simpleTable (fun n : ℕ => Nat.toDigits 10 n) none (some [['a'], ['b']]) (.d2 2 [[1, 2], [3, 4]]) =
    .ok "\\begin{center}\n\\begin{tabular}{|c|c|c|}\n\\hline\na & 1 & 2\\\\\n\\hline\nb & 3 & 4\\\\\n\\hline\n\\end{tabular}\n\\end{center}".toList := by
  decide

end Verif.Props
