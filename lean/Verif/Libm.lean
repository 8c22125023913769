import Mathlib.Analysis.SpecialFunctions.Trigonometric.Basic
import Mathlib.Analysis.SpecialFunctions.Exp

/-!
# The library functions the Fourier and ELM bases call

`sin`, `cos`, `exp` and `tanh` of `<cmath>` and of numpy, and the constants `M_PI` and `np.pi`. For the exact claims they are the real functions; for the claims
about rounded arithmetic they are arbitrary functions on the rounded numbers, about which a theorem assumes what it needs.
-/

namespace Verif

/-- `sin`, `cos` and π as in BF.cc 524–590, BF.h 250–251 and BF_Py.py 531–588. -/
class Libm (K : Type) where
  sin : K → K
  cos : K → K
  pi : K

/-- The exact functions. -/
noncomputable instance : Libm ℝ := ⟨Real.sin, Real.cos, Real.pi⟩

/-- `exp` and `tanh` as in BF.cc 679–1010. -/
class LibmExp (K : Type) where
  exp : K → K
  tanh : K → K

/-- The exact functions. -/
noncomputable instance : LibmExp ℝ := ⟨Real.exp, Real.tanh⟩

@[simp] theorem LibmExp.exp_real (x : ℝ) : LibmExp.exp x = Real.exp x := rfl
@[simp] theorem LibmExp.tanh_real (x : ℝ) : LibmExp.tanh x = Real.tanh x := rfl
@[simp] theorem Libm.sin_real (x : ℝ) : Libm.sin x = Real.sin x := rfl
@[simp] theorem Libm.cos_real (x : ℝ) : Libm.cos x = Real.cos x := rfl
@[simp] theorem Libm.pi_real : (Libm.pi : ℝ) = Real.pi := rfl

end Verif
