import Verif.Spec.Poly
import Mathlib.Tactic.LinearCombination
import Mathlib.Tactic.FieldSimp
import Mathlib.Algebra.CharZero.Defs

/-! # Three-term recurrences of the classical polynomials and of their derivatives -/

namespace Verif

open Polynomial Verif.Spec

variable {K : Type} [Field K]

theorem C_ofNat' : (C (2 : K) : K[X]) = 2 := rfl

/-- Leibniz for `X * p`. -/
theorem iterate_derivative_X_mul' (p : K[X]) (n : ℕ) :
    derivative^[n + 1] (X * p) = X * derivative^[n + 1] p + (n + 1 : K[X]) * derivative^[n] p := by
  rw [mul_comm X p, iterate_derivative_mul_X]
  simp [mul_comm, nsmul_eq_mul]

theorem iter_C_mul (n : ℕ) (a : K) (p : K[X]) : derivative^[n] (C a * p) = C a * derivative^[n] p := by
  exact iterate_derivative_C_mul a p n

theorem iter_nat_mul (n : ℕ) (a : ℕ) (p : K[X]) :
    derivative^[n] ((a : K[X]) * p) = (a : K[X]) * derivative^[n] p := by
  exact iterate_derivative_natCast_mul

theorem iter_sub (n : ℕ) (p q : K[X]) :
    derivative^[n] (p - q) = derivative^[n] p - derivative^[n] q := iterate_derivative_sub

theorem iter_add (n : ℕ) (p q : K[X]) :
    derivative^[n] (p + q) = derivative^[n] p + derivative^[n] q := _root_.iterate_map_add derivative n p q

/-! ## Legendre -/

private noncomputable def Q (K : Type) [Field K] (n : ℕ) : K[X] := (X ^ 2 - 1) ^ n

private theorem Q_deriv (n : ℕ) :
    derivative (Q K (n + 1)) = ((2 * (n + 1) : ℕ) : K[X]) * (X * Q K n) := by
  simp only [Q, derivative_pow_succ, derivative_sub, derivative_one]
  push_cast
  simp only [map_add, map_natCast, map_one, derivative_X, pow_one]
  ring

private theorem Q_deriv2 (n : ℕ) :
    derivative (derivative (Q K (n + 2))) =
      ((2 * (n + 2) : ℕ) : K[X]) * (((2 * (n + 1) + 1 : ℕ) : K[X]) * Q K (n + 1) +
        ((2 * (n + 1) : ℕ) : K[X]) * Q K n) := by
  rw [Q_deriv, derivative_natCast_mul, derivative_mul, derivative_X, Q_deriv]
  have h : Q K (n + 1) = (X ^ 2 - 1) * Q K n := by simp [Q, pow_succ, mul_comm]
  rw [h]
  push_cast
  ring

theorem legendre_zero : legendre K 0 = 1 := by simp [legendre]

theorem legendre_one [CharZero K] : legendre K 1 = X := by
  have h2 : (2 : K) ≠ 0 := two_ne_zero
  have h : derivative ((X : K[X]) ^ 2 - 1) = C 2 * X := by
    simp [C_ofNat']; norm_num
  simp only [legendre, pow_one, Function.iterate_one, h]
  rw [← mul_assoc, ← C_mul]
  simp [h2]

theorem legendre_bonnet [CharZero K] (n : ℕ) :
    ((n + 2 : ℕ) : K[X]) * legendre K (n + 2) =
      ((2 * (n + 1) + 1 : ℕ) : K[X]) * (X * legendre K (n + 1)) - ((n + 1 : ℕ) : K[X]) * legendre K n := by
  have hf : ∀ k : ℕ, (k.factorial : K) ≠ 0 := fun k => by
    exact_mod_cast Nat.factorial_ne_zero k
  have h2 : (2 : K) ≠ 0 := two_ne_zero
  -- first relation
  have e1 : derivative^[n + 2] (Q K (n + 2)) = ((2 * (n + 2) : ℕ) : K[X]) *
      (X * derivative^[n + 1] (Q K (n + 1)) + (n + 1 : K[X]) * derivative^[n] (Q K (n + 1))) := by
    rw [Function.iterate_succ_apply, Q_deriv, iter_nat_mul, iterate_derivative_X_mul']
  have e2 : derivative^[n + 2] (Q K (n + 2)) = ((2 * (n + 2) : ℕ) : K[X]) *
      (((2 * (n + 1) + 1 : ℕ) : K[X]) * derivative^[n] (Q K (n + 1)) +
        ((2 * (n + 1) : ℕ) : K[X]) * derivative^[n] (Q K n)) := by
    rw [Function.iterate_succ_apply, Function.iterate_succ_apply, Q_deriv2, iter_nat_mul, iter_add,
      iter_nat_mul, iter_nat_mul]
  have hQ : ∀ k, legendre K k = C (1 / (2 ^ k * (k.factorial : K))) * derivative^[k] (Q K k) :=
    fun k => rfl
  rw [hQ (n + 2), hQ (n + 1), hQ n]
  set A := derivative^[n + 2] (Q K (n + 2))
  set B := derivative^[n + 1] (Q K (n + 1))
  set R := derivative^[n] (Q K (n + 1))
  set D := derivative^[n] (Q K n)
  have c1 : (1 / (2 ^ (n + 1) * ((n + 1).factorial : K))) =
      (1 / (2 ^ (n + 2) * ((n + 2).factorial : K))) * (2 * (n + 2)) := by
    rw [Nat.factorial_succ (n + 1)]
    have := hf (n + 1)
    have h3 : ((n : K) + 1 + 1) ≠ 0 := by exact_mod_cast Nat.succ_ne_zero (n + 1)
    have h3' : ((n : K) + 2) ≠ 0 := by exact_mod_cast Nat.succ_ne_zero (n + 1)
    push_cast
    field_simp
    ring
  have c0 : (1 / (2 ^ n * (n.factorial : K))) =
      (1 / (2 ^ (n + 1) * ((n + 1).factorial : K))) * (2 * (n + 1)) := by
    rw [Nat.factorial_succ n]
    have := hf n
    have h3 : ((n : K) + 1) ≠ 0 := by exact_mod_cast Nat.succ_ne_zero n
    push_cast
    field_simp
    ring
  rw [c0, c1]
  set a := (1 / (2 ^ (n + 2) * ((n + 2).factorial : K)))
  have e3 : A = C (2 * (n + 2) : K) * (X * B + C (n + 1 : K) * R) := by
    rw [e1]; simp only [map_add, map_mul, map_natCast, map_one, C_ofNat']; push_cast; ring
  have e4 : A = C (2 * (n + 2) : K) * (C (2 * (n + 1) + 1 : K) * R + C (2 * (n + 1) : K) * D) := by
    rw [e2]; simp only [map_add, map_mul, map_natCast, map_one, C_ofNat']; push_cast; ring
  have g : ((n + 2 : ℕ) : K[X]) * A = ((2 * (n + 1) + 1 : ℕ) : K[X]) * (C (2 * (n + 2) : K) * (X * B)) -
      C (2 * (n + 2) : K) * (C (2 * (n + 1) : K) * (((n + 1 : ℕ) : K[X]) * D)) := by
    have hn2 : (((n + 2 : ℕ) : K[X])) = ((2 * (n + 1) + 1 : ℕ) : K[X]) - ((n + 1 : ℕ) : K[X]) := by
      push_cast; ring
    rw [hn2, sub_mul]
    nth_rewrite 2 [e4]
    rw [e3]
    simp only [map_add, map_mul, map_natCast, map_one, map_ofNat]
    push_cast
    ring
  simp only [map_mul, map_add] at g ⊢
  linear_combination (C a) * g

/-! ## Laguerre -/

theorem laguerre_coeff (n k : ℕ) :
    (laguerre K n).coeff k = (n.choose k : K) * (-1) ^ k / (k.factorial : K) := by
  simp only [laguerre, finsetSum_coeff, coeff_C_mul, coeff_X_pow]
  simp only [mul_ite, mul_one, mul_zero]
  rw [Finset.sum_ite_eq]
  split_ifs with h
  · rfl
  · have : n < k := by simpa [Nat.lt_succ_iff] using h
    simp [Nat.choose_eq_zero_of_lt this]

theorem laguerre_zero : laguerre K 0 = 1 := by simp [laguerre]

theorem laguerre_one : laguerre K 1 = 1 - X := by
  simp [laguerre, Finset.sum_range_succ]
  ring

theorem laguerre_rec [CharZero K] (n : ℕ) :
    ((n + 2 : ℕ) : K[X]) * laguerre K (n + 2) =
      ((2 * (n + 1) + 1 : ℕ) : K[X]) * laguerre K (n + 1) - X * laguerre K (n + 1)
        - ((n + 1 : ℕ) : K[X]) * laguerre K n := by
  ext k
  rw [← C_eq_natCast, ← C_eq_natCast, ← C_eq_natCast, coeff_sub, coeff_sub, coeff_C_mul, coeff_C_mul,
    coeff_C_mul]
  cases k with
  | zero =>
    simp [laguerre_coeff]
    ring
  | succ k =>
    rw [coeff_X_mul]
    simp only [laguerre_coeff]
    have h1 : ((k + 1).factorial : K) = (k + 1) * (k.factorial : K) := by
      rw [Nat.factorial_succ]; push_cast; ring
    have hk : (k.factorial : K) ≠ 0 := by exact_mod_cast Nat.factorial_ne_zero k
    have hk1 : ((k : K) + 1) ≠ 0 := by exact_mod_cast Nat.succ_ne_zero k
    -- binomial identity
    have hb : ((n + 2 : ℕ) : K) * ((n + 2).choose (k + 1) : K) =
        ((2 * (n + 1) + 1 : ℕ) : K) * ((n + 1).choose (k + 1) : K) + (k + 1) * ((n + 1).choose k : K)
          - ((n + 1 : ℕ) : K) * (n.choose (k + 1) : K) := by
      have p1 : ((n + 2).choose (k + 1) : K) = (n + 1).choose k + (n + 1).choose (k + 1) := by
        rw [Nat.choose_succ_succ]; push_cast; ring
      have p2 : ((n + 1).choose (k + 1) : K) = n.choose k + n.choose (k + 1) := by
        rw [Nat.choose_succ_succ]; push_cast; ring
      have p3 : ((n + 1 : ℕ) : K) * (n.choose k : K) = ((n + 1).choose (k + 1) : K) * (k + 1) := by
        have := Nat.add_one_mul_choose_eq n k
        exact_mod_cast this
      have p4 : ((n + 1).choose k : K) * (n + 1 - k : K) = (n + 1) * n.choose k := by
        rcases le_or_gt k n with hkn | hkn
        · have h := Nat.choose_mul_succ_eq n k
          have hc : ((n + 1 - k : ℕ) : K) = (n : K) + 1 - k := by
            rw [Nat.cast_sub (by omega)]; push_cast; ring
          rw [← hc]
          have h' : ((n.choose k * (n + 1) : ℕ) : K) = (((n + 1).choose k * (n + 1 - k) : ℕ) : K) := by
            exact_mod_cast congrArg (Nat.cast (R := K)) h
          push_cast at h' ⊢
          linear_combination -h'
        · rcases Nat.lt_or_ge k (n + 2) with h2 | h2
          · have : k = n + 1 := by omega
            subst this
            simp
          · simp [Nat.choose_eq_zero_of_lt (show n + 1 < k by omega), Nat.choose_eq_zero_of_lt hkn]
      rw [p1]
      push_cast at *
      linear_combination p4 + p3 * 0 - (n + 1) * p2
    rw [h1, pow_succ]
    field_simp
    linear_combination -hb

/-! ## Hermite -/

theorem derivative_hermite_succ (n : ℕ) :
    derivative (hermite (n + 1)) = (n + 1 : ℤ[X]) * hermite n := by
  induction n with
  | zero => simp [hermite_zero]
  | succ n ih =>
    rw [hermite_succ (n + 1), derivative_sub, derivative_mul, derivative_X, ih]
    rw [derivative_mul]
    simp only [derivative_add, derivative_natCast, derivative_one]
    have := hermite_succ n
    push_cast
    linear_combination (-(n + 1 : ℤ[X])) * this

theorem hermite_rec (n : ℕ) :
    hermite (n + 2) = X * hermite (n + 1) - ((n + 1 : ℕ) : ℤ[X]) * hermite n := by
  rw [hermite_succ (n + 1), derivative_hermite_succ]
  push_cast
  ring

theorem derivative_physHermite_succ (n : ℕ) :
    derivative (physHermite K (n + 1)) = (2 * (n + 1) : K[X]) * physHermite K n := by
  induction n with
  | zero => simp [physHermite]
  | succ n ih =>
    rw [show physHermite K (n + 1 + 1) = 2 * X * physHermite K (n + 1) -
      derivative (physHermite K (n + 1)) from rfl, derivative_sub, derivative_mul, ih]
    rw [derivative_mul, derivative_mul]
    simp only [derivative_add, derivative_natCast, derivative_one, derivative_mul, derivative_X,
      derivative_ofNat]
    have : physHermite K (n + 1) = 2 * X * physHermite K n - derivative (physHermite K n) := rfl
    push_cast
    linear_combination (-(2 * (n + 1) : K[X])) * this

theorem physHermite_rec (n : ℕ) :
    physHermite K (n + 2) = 2 * X * physHermite K (n + 1) -
      ((2 * (n + 1) : ℕ) : K[X]) * physHermite K n := by
  rw [show physHermite K (n + 2) = 2 * X * physHermite K (n + 1) -
      derivative (physHermite K (n + 1)) from rfl, derivative_physHermite_succ]
  push_cast
  ring

end Verif
