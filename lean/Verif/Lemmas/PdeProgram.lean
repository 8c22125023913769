import Verif.Spec.PdeProgram
import Verif.Model.PdeProgram
import Verif.Lemmas.Bvp
import Verif.Lemmas.Two
import Mathlib.Algebra.MvPolynomial.Polynomial

/-! # Sums of products of polynomials in one variable, and the terms that correct them on the boundary -/

namespace Verif

open Polynomial Verif.Spec Verif.Model.Prog Verif.Model.Py

/-- What remains of a factor in `x`. -/
noncomputable def sideX (p : ℝ[X]) : ℝ[X] := p - (1 - X) * C (p.eval 0) - X * C (p.eval 1)

/-- What remains of a factor in `y`. -/
noncomputable def sideY (q : ℝ[X]) : ℝ[X] := q - C (q.eval 0) - X * C ((derivative q).eval 1)

theorem sideX_deriv (p : ℝ[X]) (d : ℕ) (x : ℝ) : (derivative^[d] (sideX p)).eval x =
    (derivative^[d] p).eval x - sideW0 d x * p.eval 0 - sideW1 d x * p.eval 1 := by
  match d with
  | 0 => simp [sideX, sideW0, sideW1]; ring
  | 1 => simp [sideX, sideW0, sideW1]
  | d + 2 => simp [sideX, sideW0, sideW1, Function.iterate_succ_apply]

theorem sideX_affine {p : ℝ[X]} (h : p.degree < (2 : ℕ)) : sideX p = 0 := by
  have h1 : p.natDegree ≤ 1 := by
    by_cases h0 : p = 0
    · simp [h0]
    · have := (natDegree_lt_iff_degree_lt h0).mpr h
      omega
  rw [eq_X_add_C_of_natDegree_le_one h1]
  unfold sideX
  simp
  ring

theorem sideY_affine {q : ℝ[X]} (h : q.degree < (2 : ℕ)) : sideY q = 0 := by
  have h1 : q.natDegree ≤ 1 := by
    by_cases h0 : q = 0
    · simp [h0]
    · have := (natDegree_lt_iff_degree_lt h0).mpr h
      omega
  rw [eq_X_add_C_of_natDegree_le_one h1]
  unfold sideY
  simp

/-- `η(y) κ(x)` plus a sum of products. -/
noncomputable def tz {ι : Type} (κ η : ℝ → ℝ) (S : Finset ι) (c : ι → ℝ) (p q : ι → ℝ[X]) (x y : ℝ) : ℝ :=
  η y * κ x + ∑ i ∈ S, c i * ((p i).eval x * (q i).eval y)

variable {ι : Type} {κ η : ℝ → ℝ} {S : Finset ι} {c : ι → ℝ} {p q : ι → ℝ[X]}

theorem dx_tz (hκ : Differentiable ℝ κ) : dx (tz κ η S c p q) = tz (deriv κ) η S c (fun i => derivative (p i)) q := by
  funext x y
  have h1 := (hκ x).hasDerivAt.const_mul (η y)
  have h2 : HasDerivAt (fun x => ∑ i ∈ S, c i * ((p i).eval x * (q i).eval y))
      (∑ i ∈ S, c i * ((derivative (p i)).eval x * (q i).eval y)) x :=
    HasDerivAt.fun_sum fun i _ => (((p i).hasDerivAt x).mul_const _).const_mul _
  exact (h1.add h2).deriv

theorem dy_tz (hη : Differentiable ℝ η) : dy (tz κ η S c p q) = tz κ (deriv η) S c p (fun i => derivative (q i)) := by
  funext x y
  have h1 := (hη y).hasDerivAt.mul_const (κ x)
  have h2 : HasDerivAt (fun y => ∑ i ∈ S, c i * ((p i).eval x * (q i).eval y))
      (∑ i ∈ S, c i * ((p i).eval x * (derivative (q i)).eval y)) y :=
    HasDerivAt.fun_sum fun i _ => (((q i).hasDerivAt y).const_mul _).const_mul _
  exact (h1.add h2).deriv

theorem tz_smooth (hκ : ContDiff ℝ (⊤ : ℕ∞) κ) (hη : ContDiff ℝ (⊤ : ℕ∞) η) : Smooth2 (tz κ η S c p q) := by
  have hp : ∀ p : ℝ[X], ContDiff ℝ (⊤ : ℕ∞) (fun x => p.eval x) := fun p => by
    simpa using Polynomial.contDiff_aeval (𝕜 := ℝ) p (⊤ : ℕ∞)
  refine Smooth2.add ((Smooth2.of_right hη).mul (Smooth2.of_left hκ)) ?_
  exact ContDiff.sum fun i _ => contDiff_const.mul (((hp (p i)).comp contDiff_fst).mul ((hp (q i)).comp contDiff_snd))

/-- The corrected expression of a sum of products. -/
theorem meets_sum (k : ℝ → ℝ) (S : Finset ι) (c : ι → ℝ) (p q : ι → ℝ[X]) :
    meets k (fun x y => ∑ i ∈ S, c i * ((p i).eval x * (q i).eval y)) =
      tz k (fun y => y) S c (fun i => sideX (p i)) fun i => sideY (q i) := by
  funext x y
  have h1 : ∀ x y : ℝ, ((∑ i ∈ S, c i * ((p i).eval x * (q i).eval y)) - (1 - x) * (∑ i ∈ S, c i * ((p i).eval 0 * (q i).eval y)) -
      x * ∑ i ∈ S, c i * ((p i).eval 1 * (q i).eval y)) = ∑ i ∈ S, c i * ((sideX (p i)).eval x * (q i).eval y) := by
    intro x y
    rw [Finset.mul_sum, Finset.mul_sum, ← Finset.sum_sub_distrib, ← Finset.sum_sub_distrib]
    refine Finset.sum_congr rfl fun i _ => ?_
    simp [sideX]
    ring
  have h2 : deriv (fun y => ∑ i ∈ S, c i * ((sideX (p i)).eval x * (q i).eval y)) 1 =
      ∑ i ∈ S, c i * ((sideX (p i)).eval x * (derivative (q i)).eval 1) :=
    (HasDerivAt.fun_sum fun i _ => (((q i).hasDerivAt 1).const_mul _).const_mul _).deriv
  unfold meets
  simp only [h1, h2]
  unfold tz
  rw [mul_sub, Finset.mul_sum, ← Finset.sum_sub_distrib, ← add_sub_assoc, add_comm, add_sub_assoc, ← Finset.sum_sub_distrib]
  refine congrArg _ (Finset.sum_congr rfl fun i _ => ?_)
  simp [sideY]
  ring

/-- The polynomial in two variables of a sum of products. -/
noncomputable def sumXY (S : Finset ι) (c : ι → ℝ) (p q : ι → ℝ[X]) : MvPolynomial (Fin 2) ℝ :=
  ∑ i ∈ S, MvPolynomial.C (c i) * (aeval (MvPolynomial.X 0) (p i) * aeval (MvPolynomial.X 1) (q i))

theorem eval_aeval_X (p : ℝ[X]) (l : Fin 2) (v : Fin 2 → ℝ) :
    MvPolynomial.eval v (aeval (MvPolynomial.X l : MvPolynomial (Fin 2) ℝ) p) = p.eval (v l) := by
  induction p using Polynomial.induction_on' with
  | add p q hp hq => simp [hp, hq]
  | monomial n a => simp [aeval_monomial]

theorem totalDegree_aeval_X (p : ℝ[X]) (l : Fin 2) :
    (aeval (MvPolynomial.X l : MvPolynomial (Fin 2) ℝ) p).totalDegree ≤ p.natDegree := by
  rw [aeval_eq_sum_range]
  refine MvPolynomial.totalDegree_finsetSum_le fun i hi => ?_
  refine (MvPolynomial.totalDegree_smul_le _ _).trans ?_
  rw [MvPolynomial.totalDegree_X_pow]
  exact Nat.lt_succ_iff.mp (Finset.mem_range.mp hi)

theorem evalXY_sumXY (S : Finset ι) (c : ι → ℝ) (p q : ι → ℝ[X]) :
    evalXY (sumXY S c p q) = fun x y => ∑ i ∈ S, c i * ((p i).eval x * (q i).eval y) := by
  funext x y
  unfold evalXY sumXY
  rw [map_sum]
  refine Finset.sum_congr rfl fun i _ => ?_
  rw [map_mul, map_mul, eval_aeval_X, eval_aeval_X, MvPolynomial.eval_C]
  rfl

theorem totalDegree_sumXY {deg : ℕ} (h : ∀ i ∈ S, (p i).natDegree + (q i).natDegree ≤ deg) : (sumXY S c p q).totalDegree ≤ deg := by
  refine MvPolynomial.totalDegree_finsetSum_le fun i hi => ?_
  refine (MvPolynomial.totalDegree_mul _ _).trans ?_
  rw [MvPolynomial.totalDegree_C, zero_add]
  refine (MvPolynomial.totalDegree_mul _ _).trans ((Nat.add_le_add (totalDegree_aeval_X _ _) (totalDegree_aeval_X _ _)).trans (h i hi))

end Verif
