import Verif.Model.PrintType
import Mathlib.Data.Nat.Find
import Mathlib.Tactic.IntervalCases

/-!
# C122: print types and the tables of names

Python: /repo/src/tfc/utils/CeSolver.py 76–99, 372–382.
-/

namespace Verif.Props

open Verif.Py Verif.Model.Printer

/-- The word that is replaced, and the new one. -/
def mathW : List Char := ['m', 'a', 't', 'h']
def npW : List Char := ['n', 'p']

/-- `t` is `s` with every occurrence of `math` replaced by `np`: the pieces between the occurrences are kept. -/
inductive Renamed : List Char → List Char → Prop
  | done (s : List Char) : ¬ mathW <:+: s → Renamed s s
  | next (a s t : List Char) : ¬ mathW <:+: a → Renamed s t → Renamed (a ++ mathW ++ s) (a ++ npW ++ t)

theorem mathW_eq : "math".toList = mathW := rfl
theorem npW_eq : "np".toList = npW := rfl

theorem replace_math (s : List Char) : replace mathW npW (mathW ++ s) = npW ++ replace mathW npW s := by
  rw [replace, dif_pos ⟨by simp [mathW], List.prefix_append _ _⟩, List.drop_left]

theorem replace_cons (c : Char) (s : List Char) (h : ¬ mathW <+: c :: s) : replace mathW npW (c :: s) = c :: replace mathW npW s := by
  rw [replace, dif_neg (fun hh => h hh.2)]

theorem replace_piece (a r : List Char) (ha : ¬ mathW <:+: a) (hr : r = [] ∨ mathW <+: r) :
    replace mathW npW (a ++ r) = a ++ replace mathW npW r := by
  induction a with
  | nil => rfl
  | cons c a ih =>
    have ha' : ¬ mathW <:+: a := fun h => ha (h.trans (List.suffix_cons c a).isInfix)
    rw [List.cons_append, replace_cons _ _ ?_, ih ha', List.cons_append]
    intro hp
    apply ha
    rcases a with - | ⟨d, - | ⟨e, - | ⟨f, a⟩⟩⟩
    · rcases hr with rfl | ⟨q, rfl⟩ <;> simp [mathW] at hp
    · rcases hr with rfl | ⟨q, rfl⟩ <;> simp [mathW] at hp
    · rcases hr with rfl | ⟨q, rfl⟩ <;> simp [mathW] at hp
    · simp only [mathW, List.cons_append, List.cons_prefix_cons] at hp
      obtain ⟨rfl, rfl, rfl, rfl, -⟩ := hp
      exact ⟨[], a, rfl⟩

theorem replace_of_renamed {s t : List Char} (h : Renamed s t) : replace mathW npW s = t := by
  induction h with
  | done s hs =>
    have h := replace_piece s [] hs (Or.inl rfl)
    rw [List.append_nil] at h
    rw [h, replace, dif_neg (by simp [mathW])]
    simp
  | next a s t ha _ ih =>
    rw [List.append_assoc, replace_piece a _ ha (Or.inr ⟨s, rfl⟩), replace_math, ih, List.append_assoc]

/-- Every string has exactly one renaming. -/
theorem renamed_exists (s : List Char) : ∃ t, Renamed s t := by
  induction h : s.length using Nat.strong_induction_on generalizing s with
  | _ n ih =>
    by_cases hm : mathW <:+: s
    · obtain ⟨k, hk, hmin⟩ : ∃ k, (∃ a b, s = a ++ mathW ++ b ∧ a.length = k) ∧ ∀ j < k, ¬ ∃ a b, s = a ++ mathW ++ b ∧ a.length = j := by
        classical
        obtain ⟨a, b, hab⟩ := hm
        have hex : ∃ k, ∃ a b, s = a ++ mathW ++ b ∧ a.length = k := ⟨_, a, b, hab.symm, rfl⟩
        exact ⟨Nat.find hex, Nat.find_spec hex, fun j hj => Nat.find_min hex hj⟩
      obtain ⟨a, b, rfl, rfl⟩ := hk
      obtain ⟨t, ht⟩ := ih b.length (by rw [← h]; simp [mathW]; omega) b rfl
      refine ⟨_, Renamed.next a b t ?_ ht⟩
      rintro ⟨c, d, rfl⟩
      refine hmin c.length (by simp [mathW]) ⟨c, d ++ mathW ++ b, by simp, rfl⟩
    · exact ⟨s, .done s hm⟩

theorem renamed_iff (s t : List Char) : Renamed s t ↔ t = replace mathW npW s := by
  constructor
  · intro h
    exact (replace_of_renamed h).symm
  · rintro rfl
    obtain ⟨t, ht⟩ := renamed_exists s
    rw [replace_of_renamed ht]
    exact ht

/-- After renaming there is no `math` left. -/
theorem renamed_none {s t : List Char} (h : Renamed s t) : ¬ mathW <:+: t := by
  induction h with
  | done s hs => exact hs
  | next a s t ha _ ih =>
    intro hm
    obtain ⟨i, hi, hk⟩ := List.infix_iff_getElem?.1 hm
    have hlen : mathW.length = 4 := rfl
    rw [List.append_assoc] at hk hi
    by_cases h1 : i + 4 ≤ a.length
    · refine ha (List.infix_iff_getElem?.2 ⟨i, by omega, fun k h => ?_⟩)
      rw [← hk k h, List.getElem?_append_left (by omega)]
    · by_cases h2 : a.length + 2 ≤ i
      · refine ih (List.infix_iff_getElem?.2 ⟨i - a.length - 2, ?_, fun k h => ?_⟩)
        · simp [npW] at hi
          omega
        · rw [← hk k h, List.getElem?_append_right (by omega), List.getElem?_append_right (by simp [npW]; omega)]
          congr 1
          simp [npW]
          omega
      · have hbad : ∀ k < 4, (i + k = a.length ∨ i + k = a.length + 1) → False := by
          intro k hk4 hor
          have h3 := hk k (by omega)
          rw [Nat.add_comm k i] at h3
          rcases hor with hor | hor
          · rw [hor, List.getElem?_append_right (by omega), Nat.sub_self] at h3
            interval_cases k <;> simp [npW, mathW] at h3
          · rw [hor, List.getElem?_append_right (by omega), Nat.add_sub_cancel_left] at h3
            interval_cases k <;> simp [npW, mathW] at h3
        by_cases h3 : i ≤ a.length
        · exact hbad (a.length - i) (by omega) (Or.inl (by omega))
        · exact hbad 0 (by omega) (Or.inr (by omega))

/-- The table with every value renamed. -/
def RenamedTable (t t' : List (List Char × List Char)) : Prop :=
  List.Forall₂ (fun kv kv' => kv'.1 = kv.1 ∧ Renamed kv.2 kv'.2) t t'

theorem switchTable_eq (t : List (List Char × List Char)) : switchTable t = t.map fun kv => (kv.1, replace mathW npW kv.2) := by
  refine List.map_congr_left fun kv _ => ?_
  rw [mathW_eq, npW_eq]
  by_cases h : mathW <:+: kv.2
  · rw [if_pos h]
  · rw [if_neg h, replace_of_renamed (.done _ h)]

theorem switchTable_renamed (t t' : List (List Char × List Char)) : RenamedTable t t' ↔ t' = switchTable t := by
  rw [switchTable_eq]
  constructor
  · intro h
    induction h with
    | nil => rfl
    | cons h _ ih => rw [List.map_cons, ← ih, ← (renamed_iff _ _).1 h.2, ← h.1]
  · rintro rfl
    induction t with
    | nil => exact .nil
    | cons kv t ih => exact .cons ⟨rfl, (renamed_iff _ _).2 rfl⟩ ih

theorem switchTable_twice (t : List (List Char × List Char)) : switchTable (switchTable t) = switchTable t := by
  conv_lhs => rw [switchTable]
  conv_rhs => rw [← List.map_id (switchTable t)]
  refine List.map_congr_left fun kv hkv => ?_
  rw [switchTable_eq] at hkv
  obtain ⟨kv0, -, rfl⟩ := List.mem_map.1 hkv
  rw [mathW_eq, if_neg (renamed_none ((renamed_iff _ _).2 rfl))]
  rfl

/-- The program after the operations. -/
def printRun (w : World) (ops : List PrintOp) : World := ops.foldl printStep w

/-- A `TfcPrinter` was made: by the program or by the print type `tfc`. -/
def MadePrinter (ops : List PrintOp) : Prop := ∃ o ∈ ops, o = .printer ∨ ∃ i, o = .set i "tfc".toList

/-- The mode that belongs to a print type. -/
def modeOf (t : List Char) : Option Shown :=
  if t = "tfc".toList then some .tfc else if t = "str".toList then some .str else if t = "pretty".toList then some .pretty
  else if t = "latex".toList then some .latex else none

theorem setPrintType_types (w : World) (i : ℕ) (t : List Char) : (setPrintType w i t).2.types = w.types.set i (some t) := by
  unfold setPrintType tfcPrinter
  split_ifs <;> rfl

theorem setPrintType_shown (w : World) (i : ℕ) (t : List Char) : (setPrintType w i t).2.shown = (modeOf t).getD w.shown := by
  unfold setPrintType modeOf tfcPrinter
  split_ifs <;> rfl

theorem setPrintType_tables (w : World) (i : ℕ) (t : List Char) :
    (setPrintType w i t).2.kf = (if t = "tfc".toList then switchTable w.kf else w.kf) ∧
    (setPrintType w i t).2.kc = (if t = "tfc".toList then switchTable w.kc else w.kc) := by
  unfold setPrintType tfcPrinter
  split_ifs <;> exact ⟨rfl, rfl⟩

/-- **C122**, the tables: they are the original ones until the first `TfcPrinter` is made, and from then on, for every printer of the program and however many are made, the original ones with `math` replaced by `np` in every value; no value contains `math` any more. -/
theorem C122_tables (w : World) (ops : List PrintOp) :
    (MadePrinter ops → RenamedTable w.kf (printRun w ops).kf ∧ RenamedTable w.kc (printRun w ops).kc ∧
      ∀ kv, kv ∈ (printRun w ops).kf ∨ kv ∈ (printRun w ops).kc → ¬ "math".toList <:+: kv.2) ∧
    (¬ MadePrinter ops → (printRun w ops).kf = w.kf ∧ (printRun w ops).kc = w.kc) := by
  have key : ∀ (ops : List PrintOp) (w : World),
      (MadePrinter ops → (printRun w ops).kf = switchTable w.kf ∧ (printRun w ops).kc = switchTable w.kc) ∧
      (¬ MadePrinter ops → (printRun w ops).kf = w.kf ∧ (printRun w ops).kc = w.kc) := by
    intro ops
    induction ops with
    | nil => exact fun w => ⟨fun ⟨o, ho, _⟩ => by simp at ho, fun _ => ⟨rfl, rfl⟩⟩
    | cons o ops ih =>
      intro w
      have hrun : printRun w (o :: ops) = printRun (printStep w o) ops := rfl
      have hmade : MadePrinter (o :: ops) ↔ (o = .printer ∨ ∃ i, o = .set i "tfc".toList) ∨ MadePrinter ops := by
        simp [MadePrinter]
      rw [hrun, hmade]
      obtain ⟨h1, h2⟩ := ih (printStep w o)
      by_cases ho : o = .printer ∨ ∃ i, o = .set i "tfc".toList
      · have hs : (printStep w o).kf = switchTable w.kf ∧ (printStep w o).kc = switchTable w.kc := by
          rcases ho with rfl | ⟨i, rfl⟩
          · exact ⟨rfl, rfl⟩
          · have h := setPrintType_tables w i "tfc".toList
            rw [if_pos rfl, if_pos rfl] at h
            exact h
        refine ⟨fun _ => ?_, fun h => absurd (Or.inl ho) h⟩
        by_cases hm : MadePrinter ops
        · obtain ⟨a, b⟩ := h1 hm
          rw [a, b, hs.1, hs.2, switchTable_twice, switchTable_twice]
          exact ⟨rfl, rfl⟩
        · obtain ⟨a, b⟩ := h2 hm
          rw [a, b]
          exact hs
      · have hs : (printStep w o).kf = w.kf ∧ (printStep w o).kc = w.kc := by
          cases o with
          | new => exact ⟨rfl, rfl⟩
          | printer => exact absurd (Or.inl rfl) ho
          | set i t =>
            have ht : t ≠ "tfc".toList := fun h => ho (Or.inr ⟨i, by rw [h]⟩)
            have h := setPrintType_tables w i t
            rw [if_neg ht, if_neg ht] at h
            exact h
        rw [hs.1, hs.2] at h1 h2
        exact ⟨fun h => h1 (h.resolve_left ho), fun h => h2 fun hm => h (Or.inr hm)⟩
  refine ⟨fun hm => ?_, (key ops w).2⟩
  obtain ⟨a, b⟩ := (key ops w).1 hm
  refine ⟨(switchTable_renamed _ _).2 a, (switchTable_renamed _ _).2 b, fun kv hkv => ?_⟩
  rw [a, b, switchTable_eq, switchTable_eq] at hkv
  rcases hkv with hkv | hkv <;> obtain ⟨kv0, -, rfl⟩ := List.mem_map.1 hkv <;> exact renamed_none ((renamed_iff _ _).2 rfl)

/-- The print type last assigned to object `i`, which must exist then; `n` objects exist at the start. -/
def lastSet (i : ℕ) : ℕ → Option (List Char) → List PrintOp → Option (List Char)
  | _, r, [] => r
  | n, r, .new :: ops => lastSet i (n + 1) r ops
  | n, r, .printer :: ops => lastSet i n r ops
  | n, r, .set j t :: ops => lastSet i n (if j = i ∧ i < n then some t else r) ops

/-- The last accepted print type of the whole program, as a mode. -/
def lastShown : Shown → List PrintOp → Shown
  | r, [] => r
  | r, .set _ t :: ops => lastShown ((modeOf t).getD r) ops
  | r, _ :: ops => lastShown r ops

theorem types_run (ops : List PrintOp) (w : World) (i : ℕ) :
    ((printRun w ops).types[i]?).join = lastSet i w.types.length (w.types[i]?).join ops := by
  induction ops generalizing w with
  | nil => rfl
  | cons o ops ih =>
    have hrun : printRun w (o :: ops) = printRun (printStep w o) ops := rfl
    rw [hrun, ih]
    cases o with
    | printer => rfl
    | new =>
      change lastSet i (w.types ++ [none]).length _ ops = lastSet i (w.types.length + 1) _ ops
      rw [List.length_append]
      change lastSet i (w.types.length + 1) ((w.types ++ [none])[i]?).join ops = _
      congr 1
      by_cases h : i < w.types.length
      · rw [List.getElem?_append_left h]
      · rw [List.getElem?_append_right (by omega), List.getElem?_eq_none (l := w.types) (by omega)]
        rcases hq : i - w.types.length with - | q <;> simp
    | set j t =>
      change lastSet i (setPrintType w j t).2.types.length ((setPrintType w j t).2.types[i]?).join ops = lastSet i w.types.length _ ops
      rw [setPrintType_types, List.length_set]
      congr 1
      by_cases hj : j = i
      · subst hj
        by_cases hl : j < w.types.length
        · rw [List.getElem?_set_self hl, if_pos ⟨rfl, hl⟩]
          rfl
        · rw [if_neg (fun h => hl h.2), List.getElem?_eq_none (by rw [List.length_set]; omega), List.getElem?_eq_none (by omega)]
      · rw [List.getElem?_set_ne hj, if_neg (fun h => hj h.1)]

/-- The number of objects made. -/
def objects : List PrintOp → ℕ
  | [] => 0
  | .new :: ops => objects ops + 1
  | _ :: ops => objects ops

theorem types_length (ops : List PrintOp) (w : World) : (printRun w ops).types.length = w.types.length + objects ops := by
  induction ops generalizing w with
  | nil => rfl
  | cons o ops ih =>
    have hrun : printRun w (o :: ops) = printRun (printStep w o) ops := rfl
    rw [hrun, ih]
    cases o with
    | printer => rfl
    | new =>
      change (w.types ++ [none]).length + objects ops = w.types.length + (objects ops + 1)
      simp
      omega
    | set j t =>
      change (setPrintType w j t).2.types.length + objects ops = w.types.length + objects ops
      rw [setPrintType_types, List.length_set]

/-- **C122**, reading: `print_type` of an object returns what was last assigned to it, and raises an `AttributeError` when nothing was. -/
theorem C122_read (kf kc : List (List Char × List Char)) (ops : List PrintOp) (i : ℕ) (hi : i < objects ops) :
    (∀ t, getPrintType (printRun ⟨kf, kc, .start, []⟩ ops) i = .ok t ↔ lastSet i 0 none ops = some t) ∧
    (getPrintType (printRun ⟨kf, kc, .start, []⟩ ops) i = .error .attributeError ↔ lastSet i 0 none ops = none) := by
  have h := types_run ops ⟨kf, kc, .start, []⟩ i
  have h : ((printRun ⟨kf, kc, .start, []⟩ ops).types[i]?).join = lastSet i 0 none ops := h
  have hl := types_length ops ⟨kf, kc, .start, []⟩
  have hl : (printRun ⟨kf, kc, .start, []⟩ ops).types.length = 0 + objects ops := hl
  unfold getPrintType
  rw [← h, List.getElem?_eq_getElem (by omega)]
  rcases (printRun ⟨kf, kc, .start, []⟩ ops).types[i] with - | t' <;> simp

/-- **C122**, showing: expressions are shown in the mode of the last accepted print type of the program, whichever object it was assigned to. -/
theorem C122_shown (w : World) (ops : List PrintOp) : (printRun w ops).shown = lastShown w.shown ops := by
  induction ops generalizing w with
  | nil => rfl
  | cons o ops ih =>
    have hrun : printRun w (o :: ops) = printRun (printStep w o) ops := rfl
    rw [hrun, ih]
    cases o with
    | printer => rfl
    | new => rfl
    | set j t =>
      change lastShown (setPrintType w j t).2.shown ops = _
      rw [setPrintType_shown]
      rfl

/-- The claim that an object is shown by its own print type fails for two objects: the first keeps its `tfc`, but expressions are shown as strings. -/
theorem C122_two_fails (kf kc : List (List Char × List Char)) :
    ∃ ops, getPrintType (printRun ⟨kf, kc, .start, []⟩ ops) 0 = .ok "tfc".toList ∧ (printRun ⟨kf, kc, .start, []⟩ ops).shown ≠ .tfc := by
  refine ⟨[.new, .new, .set 0 "tfc".toList, .set 1 "str".toList], ?_, ?_⟩
  · exact ((C122_read kf kc _ 0 (by simp [objects])).1 _).2 (by simp [lastSet])
  · rw [C122_shown]
    simp [lastShown, modeOf]

/-- The claim that `print_type` is one of the four accepted ones fails: a new object has none, and a rejected one is kept. -/
theorem C122_rejected_fails (kf kc : List (List Char × List Char)) :
    getPrintType (printRun ⟨kf, kc, .start, []⟩ [.new]) 0 = .error .attributeError ∧
    ∃ t, modeOf t = none ∧ (setPrintType (printRun ⟨kf, kc, .start, []⟩ [.new]) 0 t).1 = .error .exit ∧
      getPrintType (printRun ⟨kf, kc, .start, []⟩ [.new, .set 0 t]) 0 = .ok t := by
  refine ⟨rfl, "html".toList, by simp [modeOf], by simp [setPrintType], ?_⟩
  exact ((C122_read kf kc _ 0 (by simp [objects])).1 _).2 (by simp [lastSet])

/-- Non-vacuity of `C122_tables`: a table of two functions, one of them not from `math`. -/
example : RenamedTable [("sin".toList, "math.sin".toList), ("Abs".toList, "abs".toList)] [("sin".toList, "np.sin".toList), ("Abs".toList, "abs".toList)] ∧
    MadePrinter [.new, .set 0 "tfc".toList, .printer] := by
  refine ⟨.cons ⟨rfl, ?_⟩ (.cons ⟨rfl, ?_⟩ .nil), .set 0 "tfc".toList, by simp, Or.inr ⟨0, rfl⟩⟩
  · exact Renamed.next [] ".sin".toList ".sin".toList (by simp [mathW]) (.done _ (by decide))
  · exact .done _ (by decide)

end Verif.Props
