import Verif.Props.PdeReach

/-!
# C100: example programs that solve partial differential equations in two variables
-/

namespace Verif.Props

open Set Polynomial Verif Verif.Mem Verif.Py Verif.Np Verif.Spec Verif.Model Verif.Model.Py Verif.Model.LSq Verif.Model.Prog
open scoped ContDiff

/-- The objects the theorems are about. -/
theorem good2_of_init {n : List ℕ} {nC : MNCArg} {deg : ℕ} {basis backend : String} {x0 xf : Option (List ℝ)} {w : ℕ → ℕ → ℝ} {b : ℕ → ℝ}
    {u : Mtfc} (hu : mtfcInit n nC deg 2 basis x0 xf backend w b = .ok u)
    (hb : basis = "CP" ∨ basis = "LeP" ∨ basis = "FS" ∨ (basis ≠ "ELMReLU" ∧ ValidRemoval (deg + 1) u.nCl ∧ ∀ k < 2, u.x0 k ≠ u.xf k))
    {P : TwoStep} {Q : Equation2} (hPx : SmoothSides P.xs) (hPy : SmoothSides P.ys) {kx ky : ℕ} (hk : kx + ky ≤ 8) (ho : Orders P Q kx ky) :
    ∃ m φ, Good2 u P Q m φ := by
  obtain ⟨m, φ, h⟩ := mtfc_columns (by norm_num) hu hb
  exact ⟨m, _, cols2_of_columns h, hPx, hPy, kx, ky, hk, ho⟩

/-- **C100, linear equations with `LS`.** For every object of two variables and every basis but `ELMReLU`, every expression of two steps with smooth
weights and data, every linear equation, orders of derivation up to 8 in total, and both ways of passing the points: the program returns
coefficients. The values of the returned expression are those of one smooth function, `full P g`, at any points; among all functions the
object can give, it has the least sum of squared defects of the equation at the collocation points. -/
theorem C100_linear (lib : LinAlg) (hlib : LinAlgCorrect lib) (method : Method) (hm : method ≠ .other) (n : List ℕ) (nC : MNCArg) (deg : ℕ)
    (basis backend : String) (x0 xf : Option (List ℝ)) (w : ℕ → ℕ → ℝ) (b : ℕ → ℝ) (u : Mtfc)
    (hu : mtfcInit n nC deg 2 basis x0 xf backend w b = .ok u)
    (hb : basis = "CP" ∨ basis = "LeP" ∨ basis = "FS" ∨ (basis ≠ "ELMReLU" ∧ ValidRemoval (deg + 1) u.nCl ∧ ∀ k < 2, u.x0 k ≠ u.xf k))
    (P : TwoStep) (Q : Equation2) (hQ : Q.fac1 = []) (hPx : SmoothSides P.xs) (hPy : SmoothSides P.ys) (kx ky : ℕ) (hk : kx + ky ≤ 8)
    (ho : Orders P Q kx ky) (timer pass_x : Bool) :
    ∃ xi g, solveLS2 lib method timer pass_x u P Q = .ok (.arr xi) ∧ Best2 u P Q xi g := by
  obtain ⟨m, φ, G⟩ := good2_of_init hu hb hPx hPy hk ho
  obtain ⟨xi, h1, h2⟩ := G.linear hQ hlib hm timer pass_x
  exact ⟨xi, _, h1, h2⟩

/-- **C100, linear equations without `LS`.** The same for the programs that call `jacfwd` and `pinv` or `lstsq` themselves. -/
theorem C100_direct (lib : LinAlg) (hlib : LinAlgCorrect lib) (method : Method) (hm : method ≠ .other) (n : List ℕ) (nC : MNCArg) (deg : ℕ)
    (basis backend : String) (x0 xf : Option (List ℝ)) (w : ℕ → ℕ → ℝ) (b : ℕ → ℝ) (u : Mtfc)
    (hu : mtfcInit n nC deg 2 basis x0 xf backend w b = .ok u)
    (hb : basis = "CP" ∨ basis = "LeP" ∨ basis = "FS" ∨ (basis ≠ "ELMReLU" ∧ ValidRemoval (deg + 1) u.nCl ∧ ∀ k < 2, u.x0 k ≠ u.xf k))
    (P : TwoStep) (Q : Equation2) (hQ : Q.fac1 = []) (hPx : SmoothSides P.xs) (hPy : SmoothSides P.ys) (kx ky : ℕ) (hk : kx + ky ≤ 8)
    (ho : Orders P Q kx ky) :
    ∃ xi g, solveDirect2 lib method u P Q = .ok xi ∧ Best2 u P Q xi g := by
  obtain ⟨m, φ, G⟩ := good2_of_init hu hb hPx hPy hk ho
  obtain ⟨xi, h1, h2⟩ := G.direct hQ hlib hm
  exact ⟨xi, _, h1, h2⟩

/-- The number of collocation points. -/
theorem points_length {n : List ℕ} (hn : ∀ v ∈ n, 2 ≤ v) {nC : MNCArg} {deg : ℕ} {basis backend : String} {x0 xf : Option (List ℝ)} {w : ℕ → ℕ → ℝ}
    {b : ℕ → ℝ} {u : Mtfc} (hu : mtfcInit n nC deg 2 basis x0 xf backend w b = .ok u) (hx : ∀ k < 2, u.x0 k ≠ u.xf k) :
    (u.x.getD 0 []).length = n.prod ∧ n.prod ≠ 0 := by
  have hlen := (C14_grid n nC deg 2 (by omega) basis backend x0 xf w b u hu
    (fun v hv => ⟨by have := hn v hv; omega, fun _ => hn v hv⟩) hx).2.2.2.1
  refine ⟨(hlen 0 (by omega)).2, fun h => ?_⟩
  have := hn _ (List.prod_eq_zero_iff.mp h)
  omega

/-- **C100, nonlinear equations with `NLLS`.** For equations with a product of two linear terms (Burgers' equation), and also for linear ones:
if `H` has at least one column and there are at least two points in each dimension, the program returns after at most `maxIter` steps.
Every step minimises the equation linearised at the function before, among all functions the object can give, and the run
ends for one of the three reasons of `Newton2`. -/
theorem C100_newton (lib : LinAlg) (hlib : LinAlgCorrect lib) (method : Method) (hm : method ≠ .other) (n : List ℕ) (hn : ∀ v ∈ n, 2 ≤ v)
    (nC : MNCArg) (deg : ℕ) (basis backend : String) (x0 xf : Option (List ℝ)) (w : ℕ → ℕ → ℝ) (b : ℕ → ℝ) (u : Mtfc)
    (hu : mtfcInit n nC deg 2 basis x0 xf backend w b = .ok u)
    (hb : basis = "CP" ∨ basis = "LeP" ∨ basis = "FS" ∨ (basis ≠ "ELMReLU" ∧ ValidRemoval (deg + 1) u.nCl)) (hx : ∀ k < 2, u.x0 k ≠ u.xf k)
    (hc : ∃ N X Y A, u.Hjax N (points2 X Y) [0, 0] false = .ok A ∧ A.cols ≠ 0)
    (P : TwoStep) (Q : Equation2) (hPx : SmoothSides P.xs) (hPy : SmoothSides P.ys) (kx ky : ℕ) (hk : kx + ky ≤ 8)
    (ho : Orders P Q kx ky) (tol : ℝ) (htol : tol < 1) (maxIter : ℕ) (timer : Bool) (fuel : ℕ) (hf : maxIter + 2 ≤ fuel) :
    ∃ xi it gs, solveNLLS2 lib method tol maxIter timer u P Q fuel = .ok (some (.arr xi, ((it : ℕ) : ℤ))) ∧
      Newton2 u P Q tol maxIter xi it gs := by
  obtain ⟨m, φ, G⟩ := good2_of_init hu (hb.imp_right (Or.imp_right (Or.imp_right fun h => ⟨h.1, h.2, hx⟩))) hPx hPy hk ho
  obtain ⟨N, X, Y, A, hA, hc⟩ := hc
  obtain ⟨B, hB, e, -⟩ := G.cols.H 0 0 (by omega) N X Y
  rw [hA] at hB
  cases hB
  obtain ⟨l1, l2⟩ := points_length hn hu hx
  refine G.newton (e ▸ hc) (fun h => l2 ?_) hlib hm tol htol maxIter timer fuel hf
  rw [← l1]
  simpa [points, pairs] using h

/-- The residual between the points, any rectangle. -/
theorem between_box {R : ℝ → ℝ → ℝ} {a b c d L1 L2 ε h1 h2 : ℝ}
    (hR : ∀ x ∈ Icc a b, ∀ y ∈ Icc c d, DifferentiableAt ℝ (fun s => R s y) x ∧ DifferentiableAt ℝ (R x) y) (hx : ∀ x ∈ Icc a b, ∀ y ∈ Icc c d, |dx R x y| ≤ L1)
    (hy : ∀ x ∈ Icc a b, ∀ y ∈ Icc c d, |dy R x y| ≤ L2) {x y p q : ℝ} (kx : x ∈ Icc a b) (ky : y ∈ Icc c d)
    (kp : p ∈ Icc a b) (kq : q ∈ Icc c d) (hp : |x - p| ≤ h1) (hq : |y - q| ≤ h2) (hε : |R p q| ≤ ε) :
    |R x y| ≤ ε + L1 * h1 + L2 * h2 := by
  have m1 := (convex_Icc a b).norm_image_sub_le_of_norm_deriv_le (f := fun s => R s y) (C := L1)
    (fun s hs => (hR s hs y ky).1) (fun s hs => hx s hs y ky) kp kx
  have m2 := (convex_Icc c d).norm_image_sub_le_of_norm_deriv_le (f := fun s => R p s) (C := L2)
    (fun s hs => (hR p kp s hs).2) (fun s hs => hy p kp s hs) kq ky
  rw [Real.norm_eq_abs, Real.norm_eq_abs] at m1 m2
  have l1 : 0 ≤ L1 := (abs_nonneg _).trans (hx x kx y ky)
  have l2 : 0 ≤ L2 := (abs_nonneg _).trans (hy x kx y ky)
  calc |R x y| = |(R x y - R p y) + (R p y - R p q) + R p q| := by ring_nf
    _ ≤ |R x y - R p y| + |R p y - R p q| + |R p q| := abs_add_three _ _ _
    _ ≤ ε + L1 * h1 + L2 * h2 := by linarith [mul_le_mul_of_nonneg_left hp l1, mul_le_mul_of_nonneg_left hq l2]

/-- **C100, between the points.** What is known of a differentiable function at the collocation points of an object holds on the whole domain, up to
the bounds `L1` and `L2` of its derivatives times the distance to the next point. -/
theorem C100_between (n0 n1 : ℕ) (hn0 : 2 ≤ n0) (hn1 : 2 ≤ n1) (nC : MNCArg) (deg : ℕ) (basis backend : String) (x0 xf : Option (List ℝ))
    (w : ℕ → ℕ → ℝ) (b : ℕ → ℝ) (u : Mtfc) (hu : mtfcInit [n0, n1] nC deg 2 basis x0 xf backend w b = .ok u) (hx : ∀ k < 2, u.x0 k < u.xf k)
    (R : ℝ → ℝ → ℝ) (hR : ∀ x ∈ Icc (u.x0 0) (u.xf 0), ∀ y ∈ Icc (u.x0 1) (u.xf 1), DifferentiableAt ℝ (fun s => R s y) x ∧
      DifferentiableAt ℝ (R x) y) (ε L1 L2 : ℝ) (hε : ∀ t ∈ points u, |R t.1 t.2| ≤ ε)
    (hL : ∀ x ∈ Icc (u.x0 0) (u.xf 0), ∀ y ∈ Icc (u.x0 1) (u.xf 1), |dx R x y| ≤ L1 ∧ |dy R x y| ≤ L2) :
    ∀ x ∈ Icc (u.x0 0) (u.xf 0), ∀ y ∈ Icc (u.x0 1) (u.xf 1), |R x y| ≤ ε + L1 * ((u.xf 0 - u.x0 0) * (Real.pi / (4 * ((n0 - 1 : ℕ) : ℝ)))) +
      L2 * ((u.xf 1 - u.x0 1) * (Real.pi / (4 * ((n1 - 1 : ℕ) : ℝ)))) := by
  intro x kx y ky
  have hn : ∀ v ∈ [n0, n1], 2 ≤ v := by simp [hn0, hn1]
  obtain ⟨p, hp, hpk⟩ := C99_points [n0, n1] hn nC deg 2 (by omega) basis backend x0 xf w b u hu hx (fun k => if k = 0 then x else y) (fun k hk => by
      interval_cases k
      · simpa using kx
      · simpa using ky)
  obtain ⟨p1, p2⟩ := hpk 0 (by omega)
  obtain ⟨q1, q2⟩ := hpk 1 (by omega)
  refine between_box hR (fun x hx y hy => (hL x hx y hy).1) (fun x hx y hy => (hL x hx y hy).2) kx ky p1 q1 (by simpa using p2)
    (by simpa using q2) ?_
  refine hε (_, _) (List.mem_map.2 ⟨p, List.mem_range.2 ?_, rfl⟩)
  rw [(points_length hn hu fun k hk => (hx k hk).ne).1]
  exact hp

end Verif.Props
