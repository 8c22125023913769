import Verif.Model.Print
import Verif.Spec.Terminal

/-! # C129: errors, warnings and progress lines on the terminal -/

namespace Verif.Props

open Verif.Spec Verif.Model.Print

theorem write_append (t : Terminal) (a b : List Char) : t.write (a ++ b) = (t.write a).write b := List.foldl_append

/-- Text without control sequences is shown in the style of the terminal. -/
theorem write_plain (st : Style) (sh : List (Char × Style)) (s : List Char) (h : esc ∉ s) :
    (⟨st, .text, sh⟩ : Terminal).write s = ⟨st, .text, sh ++ s.map fun c => (c, st)⟩ := by
  induction s generalizing sh with
  | nil => simp [Terminal.write]
  | cons c s ih =>
      have hc : c ≠ esc := fun e => h (by simp [e])
      have e : (⟨st, .text, sh⟩ : Terminal).take c = ⟨st, .text, sh ++ [(c, st)]⟩ := if_neg hc
      rw [Terminal.write, List.foldl_cons, e]
      refine (ih _ fun h' => h (by simp [h'])).trans ?_
      simp

theorem write_red (st : Style) (sh : List (Char × Style)) : (⟨st, .text, sh⟩ : Terminal).write (foreRed ++ styleBright) = ⟨⟨some 31, true⟩, .text, sh⟩ := rfl

theorem write_yellow (st : Style) (sh : List (Char × Style)) : (⟨st, .text, sh⟩ : Terminal).write (foreYellow ++ styleBright) = ⟨⟨some 33, true⟩, .text, sh⟩ := rfl

theorem write_reset (st : Style) (sh : List (Char × Style)) : (⟨st, .text, sh⟩ : Terminal).write resetAll = ⟨.normal, .text, sh⟩ := rfl

/-- **C129**, what is seen: on a terminal in any style, `Error` shows its text in bright red (colour 31), `Warning` in bright yellow (33), each followed by the end of the line; what is written afterwards
is shown in the normal style. `Error` does not return, `Warning` does. The progress line of `NLLS` is shown as it is, in the style of the terminal. (Missing: the exit status, `C129_status_fails`.) -/
theorem C129_partial (st : Style) (sh : List (Char × Style)) (s : List Char) (h : esc ∉ s) :
    (⟨st, .text, sh⟩ : Terminal).write (error s).1 = ⟨.normal, .text, sh ++ (s ++ ['\n']).map fun c => (c, ⟨some 31, true⟩)⟩ ∧
    (⟨st, .text, sh⟩ : Terminal).write (warning s).1 = ⟨.normal, .text, sh ++ (s ++ ['\n']).map fun c => (c, ⟨some 33, true⟩)⟩ ∧
    (∃ code, (error s).2 = .systemExit code) ∧ (warning s).2 = .returned ∧
    ∀ it x ending : List Char, esc ∉ it → esc ∉ x → esc ∉ ending → (⟨st, .text, sh⟩ : Terminal).write (idPrint it x ending) =
      ⟨st, .text, sh ++ ("Iteration: ".toList ++ it ++ "\tmax(abs(res)): ".toList ++ x ++ ending).map fun c => (c, st)⟩ := by
  have hs : esc ∉ s ++ ['\n'] := by
    rw [List.mem_append]
    rintro (h1 | h1)
    · exact h h1
    · exact absurd h1 (by decide)
  refine ⟨?_, ?_, ⟨_, rfl⟩, rfl, fun it x ending h1 h2 h3 => ?_⟩
  · unfold error print
    rw [List.append_nil, write_append, List.append_assoc (foreRed ++ styleBright) s, write_append, write_red, write_plain _ _ _ hs, write_reset]
  · unfold warning print
    rw [List.append_nil, write_append, List.append_assoc (foreYellow ++ styleBright) s, write_append, write_yellow, write_plain _ _ _ hs, write_reset]
  · refine write_plain _ _ _ fun hm => ?_
    rcases List.mem_append.mp hm with hm | hm
    · rcases List.mem_append.mp hm with hm | hm
      · rcases List.mem_append.mp hm with hm | hm
        · rcases List.mem_append.mp hm with hm | hm
          · exact absurd hm (by decide)
          · exact h1 hm
        · exact absurd hm (by decide)
      · exact h2 hm
    · exact h3 hm

/-- A program that is stopped by `Error` tells its caller that it succeeded. -/
theorem C129_status_fails (s : List Char) : ∃ code, (error s).2 = .systemExit code ∧ exitStatus code = 0 := ⟨none, rfl, rfl⟩

/-- A text in bright red, then one in the normal style. -/
example : (((⟨.normal, .text, []⟩ : Terminal).write (error ['N', 'o']).1).write ['>']).shown =
    [('N', ⟨some 31, true⟩), ('o', ⟨some 31, true⟩), ('\n', ⟨some 31, true⟩), ('>', .normal)] := by
  rw [(C129_partial .normal [] ['N', 'o'] (by decide)).1]
  rfl

end Verif.Props
