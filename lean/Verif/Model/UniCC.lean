import Verif.Model.ElmCC
import Verif.Spec.Basis

/-! # The univariate classes of the compiled backend -/

namespace Verif.Model.CC

open Verif.Mem Verif.Spec

/-- Construct an object of a class: `BF.<Class>(x0, xf, nC, m)` (for ELM classes followed by setting `w` and `b`). -/
noncomputable def uniNew : UniClass → ℝ → ℝ → List ℤ → ℕ → BasisFunc ℝ
  | .poly f, x0, xf, nC, m => polyNew f x0 xf nC m
  | .fs, x0, xf, nC, m => FS.new x0 xf nC m
  | .elm a w b, x0, xf, nC, m => elmNew a (Buf.ofFn m w) (Buf.ofFn m b) x0 xf nC m

end Verif.Model.CC
