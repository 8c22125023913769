import Verif.Model.PolyPy
import Verif.Model.Egrad
import Verif.Spec.Basis
import Verif.Libm

/-!
# Model of the univariate classes of the Python backend: /repo/src/tfc/utils/BF_Py.py lines 8–121, 505–866

Simplifications: exact real numbers instead of floats for the ELMs (the polynomial classes and the Fourier series take any number type with
the operations); the points `x` are a one-dimensional array (`utfc` always passes one);
`zf = float("inf")` is `none`.
-/

namespace Verif.Model.PyBF

open Verif.Py Verif.Np Verif.Spec

/-- The attributes of a `BasisFunc` object; `hint m N z d` is the virtual method `_Hint`. BF_Py.py 8–57. -/
structure BasisFunc (K : Type) where
  m : ℕ
  nC : List ℤ
  z0 : K
  x0 : K
  c : K
  hint : ℕ → ℕ → (ℕ → K) → ℕ → Except Err (Mat K)

variable {K : Type} [Zero K] [One K] [Add K] [Sub K] [Mul K] [Div K] [Neg K] [NatCast K] [Pow K ℕ]

/-- `BasisFunc.__init__`, BF_Py.py 19–57. -/
def BasisFunc.init (x0 xf : K) (nC : List ℤ) (m : ℕ) (z0 : K) (zf : Option K)
    (hint : ℕ → ℕ → (ℕ → K) → ℕ → Except Err (Mat K)) : BasisFunc K :=
  match zf with
  | none => { m, nC, z0, x0 := 0, c := 1, hint }
  | some zf => { m, nC, z0, x0, c := (zf - z0) / (xf - x0), hint }

/-- `BasisFunc.H`, BF_Py.py 59–86, for the array `x` with the `n` entries `xs 0, …`. -/
def BasisFunc.H [Inhabited K] (self : BasisFunc K) (n : ℕ) (xs : ℕ → K) (d : ℕ) (full : Bool) :
    Except Err (Mat K) := do
  let z := fun j => (xs j - self.x0) * self.c + self.z0
  let dMult := self.c ^ d
  let F0 ← self.hint self.m n z d
  let F := F0.map (· * dMult)
  if !full && self.nC.length > 0 then F.delete self.nC else .ok F

/-- `CP.__init__` BF_Py.py 128–149 and `LeP.__init__` 217–238 pass `-1.0, 1.0`; `LaP`, `HoPpro`, `HoPphy` (303–502) inherit
`BasisFunc.__init__` with the defaults `z0 = 0`, `zf = inf`. -/
def polyInit (f : PolyFamily) (x0 xf : K) (nC : List ℤ) (m : ℕ) : BasisFunc K :=
  match f with
  | .cp => BasisFunc.init x0 xf nC m (-1) (some 1) CP.hint
  | .lep => BasisFunc.init x0 xf nC m (-1) (some 1) LeP.hint
  | .lap => BasisFunc.init x0 xf nC m 0 none LaP.hint
  | .hopPro => BasisFunc.init x0 xf nC m 0 none HoPpro.hint
  | .hopPhy => BasisFunc.init x0 xf nC m 0 none HoPphy.hint

/-! ## FS -/

section
variable [Libm K]

/-- The loop `for k in range(1, self._m)` of `FS._Hint` with its even/odd branches, BF_Py.py 553–588;
`np.ceil(k / 2.0)` is `(k+1)/2` in ℕ. -/
def FS.fill (m : ℕ) (z : ℕ → K) (even odd : K → K → K) (F : Mat K) : Mat K :=
  pfor 1 m (fun k F =>
    let g : K := (((k + 1) / 2 : ℕ) : K)
    if k % 2 = 0 then F.setCol k (fun i => even g (z i)) else F.setCol k (fun i => odd g (z i))) F

/-- `FS._Hint`, BF_Py.py 533–589. `F[:, 0] = …` on an array without columns is an `IndexError`. -/
def FS.hint (m N : ℕ) (z : ℕ → K) (d : ℕ) : Except Err (Mat K) := do
  let F ← Mat.zeros N m
  if m = 0 then .error .indexError
  else if d = 0 then
    .ok (FS.fill m z (fun g z => Libm.cos (g * z)) (fun g z => Libm.sin (g * z)) (F.setCol 0 fun _ => 1))
  else
    let F := F.setCol 0 fun _ => 0
    if d % 4 = 0 then
      .ok (FS.fill m z (fun g z => g ^ d * Libm.cos (g * z)) (fun g z => g ^ d * Libm.sin (g * z)) F)
    else if d % 4 = 1 then
      .ok (FS.fill m z (fun g z => -(g ^ d) * Libm.sin (g * z)) (fun g z => g ^ d * Libm.cos (g * z)) F)
    else if d % 4 = 2 then
      .ok (FS.fill m z (fun g z => -(g ^ d) * Libm.cos (g * z)) (fun g z => -(g ^ d) * Libm.sin (g * z)) F)
    else
      .ok (FS.fill m z (fun g z => g ^ d * Libm.sin (g * z)) (fun g z => -(g ^ d) * Libm.cos (g * z)) F)

/-- `FS.__init__`, BF_Py.py 510–531. -/
def FS.init (x0 xf : K) (nC : List ℤ) (m : ℕ) : BasisFunc K :=
  BasisFunc.init x0 xf nC m (-Libm.pi) (some Libm.pi) FS.hint

end

/-! ## ELM -/

/-- `ELMReLU._Hint`, BF_Py.py 692–714, with weights `w` and biases `b` of shape `(1,m)`; the `(N,1)` array `z` broadcasts
against them. For `d ≥ 2` the code returns `np.zeros((self._m, z.size))`. -/
noncomputable def ELMReLU.hint (w b : ℕ → ℝ) (m N : ℕ) (z : ℕ → ℝ) (d : ℕ) : Except Err (Mat ℝ) :=
  if d = 0 then .ok ⟨N, m, fun i k => max 0 (w k * z i + b k)⟩
  else if d = 1 then .ok ⟨N, m, fun i k => w k * (if w k * z i + b k > 0 then 1 else 0)⟩
  else .ok ⟨m, N, fun _ _ => 0⟩

/-- The function `f` of the smooth ELM classes, of the `(N,1)` argument `x = args 0`; entry `(i, k)` of the broadcast result.
`ELMSigmoid` BF_Py.py 737, `ELMTanh` 775, `ELMSin` 813, `ELMSwish` 851. -/
noncomputable def elmF (a : Activation) (w b : ℕ → ℝ) (args : ℕ → ℕ → ℝ) (ik : ℕ × ℕ) : ℝ :=
  let x := args 0 ik.1
  let w := w ik.2
  let b := b ik.2
  match a with
  | .sigmoid => 1 / (1 + Real.exp (-w * x - b))
  | .tanh => Real.tanh (w * x + b)
  | .sin => Real.sin (w * x + b)
  | .swish => (w * x + b) / (1 + Real.exp (-w * x - b))
  | .relu => max 0 (w * x + b)

/-- The inner function `Recurse` of the smooth ELM classes: `egrad` applied `left = d - dCurr` times (BF_Py.py 739–750 and
the three copies). -/
noncomputable def elmRecurse : ℕ → ((ℕ → ℕ → ℝ) → ℕ × ℕ → ℝ) → (ℕ → ℕ → ℝ) → ℕ × ℕ → ℝ
  | 0, dark => dark
  | left + 1, dark => elmRecurse left (Jax.egrad dark 0)

/-- `_Hint` of the ELM classes: `ELMReLU` 691–714, `ELMSigmoid` 717–753, `ELMTanh` 756–790, `ELMSin` 793–827, `ELMSwish`
830–866. -/
noncomputable def elmHint (a : Activation) (w b : ℕ → ℝ) (m N : ℕ) (z : ℕ → ℝ) (d : ℕ) : Except Err (Mat ℝ) :=
  match a with
  | .relu => ELMReLU.hint w b m N z d
  | a => .ok ⟨N, m, fun i k => elmRecurse d (elmF a w b) (fun _ => z) (i, k)⟩

/-- `ELM.__init__`, BF_Py.py 597–626; the random weights and biases are arbitrary. -/
noncomputable def elmInit (a : Activation) (w b : ℕ → ℝ) (x0 xf : ℝ) (nC : List ℤ) (m : ℕ) : BasisFunc ℝ :=
  BasisFunc.init x0 xf nC m 0 (some 1) (elmHint a w b)

/-- All ten classes. BF_Py.py 123–866. -/
noncomputable def uniInit (cls : UniClass) (x0 xf : ℝ) (nC : List ℤ) (m : ℕ) : BasisFunc ℝ :=
  match cls with
  | .poly f => polyInit f x0 xf nC m
  | .fs => FS.init x0 xf nC m
  | .elm a w b => elmInit a w b x0 xf nC m

end Verif.Model.PyBF
