import Verif.Model.Files

/-! # Files written under the right names -/

namespace Verif.Spec

open Verif.Model.Files

variable {B : Type}

/-- The name ends in a dot and the format. -/
def EndsIn (name fmt : List Char) : Prop := ∃ a, name = a ++ '.' :: fmt

/-- The only difference between the two file systems is that `p` now holds `f`. -/
def OnlyWrote (fs fs' : FS B) (p : List Char) (f : File B) : Prop :=
  fs'.dirs = fs.dirs ∧ fs'.files p = some f ∧ ∀ q, q ≠ p → fs'.files q = fs.files q

/-- `s` is the number `k` in decimal notation, filled up with zeros to six digits. -/
def IsFrameNumber (s : List Char) (k : ℕ) : Prop :=
  6 ≤ s.length ∧ (∀ c ∈ s, c.isDigit = true) ∧ s.foldl (fun a c => 10 * a + (c.toNat - 48)) 0 = k ∧ (6 < s.length → s.head? ≠ some '0')

/-- The absolute form of a name, seen from the directory `cwd`. -/
def absolute (cwd p : List Char) : List Char := if p.head? = some '/' then p else cwd ++ '/' :: p

/-- Two names denote the same file: their absolute forms have the same parts, not counting empty ones and single dots. -/
def SameFile (cwd p q : List Char) : Prop := parts (absolute cwd p) = parts (absolute cwd q)

end Verif.Spec
