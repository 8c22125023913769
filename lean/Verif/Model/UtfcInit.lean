import Verif.Model.Utfc
import Verif.Model.UniCC
import Verif.Model.BasisPy

/-!
# Model of `utfc.__init__`: /repo/src/tfc/utfc.py lines 92–187

Simplifications: exact reals; the registration with JAX (`_SetupJax`) is modelled separately (`Verif.Model.UtfcJax`); warnings
are dropped. A degenerate domain (`x0 = xf`) and `N = 1` with a Chebyshev grid give infinities or NaNs in the code, which
the exact reals do not have: nothing is claimed about them. Random ELM weights and biases are parameters.
-/

namespace Verif.Model.Py

open Verif.Py Verif.Spec Verif.Mem

/-- The values of the keyword `basis` that `utfc.__init__` accepts. utfc.py 140–173. -/
inductive BasisName
  | cp | lep | fs | elm (a : Activation)
  deriving DecidableEq, Repr

/-- The `if self.basis == …` chain, utfc.py 140–173 and mtfc.py 286–319. -/
def BasisName.parse (s : String) : Option BasisName :=
  if s = "CP" then some .cp
  else if s = "LeP" then some .lep
  else if s = "FS" then some .fs
  else if s = "ELMReLU" then some (.elm .relu)
  else if s = "ELMSigmoid" then some (.elm .sigmoid)
  else if s = "ELMTanh" then some (.elm .tanh)
  else if s = "ELMSin" then some (.elm .sin)
  else if s = "ELMSwish" then some (.elm .swish)
  else none

/-- The local variables `z0`, `zf` of that chain. -/
noncomputable def BasisName.zRange : BasisName → ℝ × ℝ
  | .cp => (-1, 1)
  | .lep => (-1, 1)
  | .fs => (-Real.pi, Real.pi)
  | .elm _ => (0, 1)

/-- The class constructed by the chain (with the random weights and biases `w`, `b` of an ELM). utfc.py 140–173. -/
def BasisName.cls (w b : ℕ → ℝ) : BasisName → UniClass
  | .cp => .poly .cp
  | .lep => .poly .lep
  | .fs => .fs
  | .elm a => .elm a w b

/-- `numpy.linspace(a, b, num)`. Called at utfc.py 182, 186. -/
noncomputable def linspace (a b : ℝ) (num : ℕ) : List ℝ :=
  (List.range num).map fun i : ℕ => a + (i : ℝ) * ((b - a) / ((num : ℝ) - 1))

/-- The two argument values of `backend`. utfc.py 132–139. -/
inductive Backend
  | cpp | python
  deriving DecidableEq, Repr

/-- The attributes set by `utfc.__init__` that the rest of the class uses. utfc.py 92–187. -/
structure Utfc where
  N : ℕ
  deg : ℕ
  nC : List ℤ
  basis : BasisName
  backend : Backend
  x0 : ℝ
  xf : ℝ
  cls : UniClass
  c : ℝ
  z : List ℝ
  x : List ℝ

/-- Parsing of `backend`, utfc.py 132–139. -/
def Backend.parse (s : String) : Option Backend :=
  if s = "C++" then some .cpp else if s = "Python" then some .python else none

/-- `self.c = self.basisClass.c`, utfc.py 175, for the object constructed by the selected backend. -/
noncomputable def Backend.c : Backend → UniClass → ℝ → ℝ → List ℤ → ℕ → ℝ
  | .cpp, cls, x0, xf, nC, m => (CC.uniNew cls x0 xf nC m).c
  | .python, cls, x0, xf, nC, m => (PyBF.uniInit cls x0 xf nC m).c

/-- The points of utfc.py 177–187. -/
noncomputable def utfcPoints (basis : BasisName) (N : ℕ) (z0 zf c x0 : ℝ) : List ℝ × List ℝ :=
  match basis with
  | .cp | .lep =>
    let n := N - 1
    let I := linspace (0 * x0) n (n + 1)
    let z := I.map fun i => Real.cos (Real.pi * ((n : ℝ) - i) / (n : ℝ))
    (z, z.map fun z => (z - z0) / c + x0)
  | _ =>
    let z := linspace z0 zf N
    (z, z.map fun z => (z - z0) / c + x0)

/-- `utfc.__init__`, utfc.py 58–187. -/
noncomputable def utfcInit (N : ℕ) (nC : NCArg) (deg : ℕ) (basis : String) (x0 xf : Option ℝ) (backend : String)
    (w b : ℕ → ℝ) : Except Err Utfc := do
  let nC ← utfcNC deg nC
  let x0 := x0.getD 0
  let xf := xf.getD 0
  match Backend.parse backend with
  | none => .error .exit
  | some be =>
    match BasisName.parse basis with
    | none => .error .exit
    | some bn =>
      let cls := bn.cls w b
      let c := be.c cls x0 xf nC (deg + 1)
      let zr := bn.zRange
      let p := utfcPoints bn N zr.1 zr.2 c x0
      .ok { N, deg, nC, basis := bn, backend := be, x0, xf, cls, c, z := p.1, x := p.2 }

end Verif.Model.Py
