import Verif.Spec.Poly

/-! # The domain map of the univariate bases -/

namespace Verif.Spec

/-- The affine map sending `[x0, xf]` onto `[z0, zf]`. -/
def toBasis {K : Type} [Field K] (x0 xf z0 zf x : K) : K := z0 + (zf - z0) * (x - x0) / (xf - x0)

/-- The point at which the classical polynomial is evaluated: Chebyshev and Legendre live on `[-1,1]`; the Laguerre
and Hermite classes do not map their argument. -/
def PolyFamily.arg {K : Type} [Field K] : PolyFamily → K → K → K → K
  | .cp, x0, xf, x => toBasis x0 xf (-1) 1 x
  | .lep, x0, xf, x => toBasis x0 xf (-1) 1 x
  | _, _, _, x => x

end Verif.Spec
