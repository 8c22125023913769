import Verif.Lemmas.PolyCC

/-! # The five families satisfy the recurrences, order by order -/

set_option linter.unusedSectionVars false

namespace Verif

open Verif.Mem Verif.Model.CC Polynomial Verif.Spec

variable {K : Type} [Field K]

/-- Value at `z` of the `d`-th derivative of the `k`-th classical polynomial. -/
noncomputable def polyD (K : Type) [Field K] (f : PolyFamily) (d : ℕ) (z : K) (k : ℕ) : K :=
  (derivative^[d] (classical K f k)).eval z

theorem iter_one (d : ℕ) : derivative^[d + 1] (1 : K[X]) = 0 := by
  rw [Function.iterate_succ_apply, derivative_one]
  exact iterate_map_zero derivative d

theorem iter_X_ge_two (d : ℕ) : derivative^[d + 2] (X : K[X]) = 0 := by
  rw [Function.iterate_succ_apply, derivative_X, iter_one]

theorem recSpec_cp : RecSpec (K := K) (fun z => z) 1 (fun _ z f1 f2 => 2 * z * f1 - f2)
    (fun d _ z e f1 f2 => (2 + 2 * (d : K)) * e + 2 * z * f1 - f2) (polyD K .cp) where
  z0 z := by simp [polyD, classical]
  z1 z := by simp [polyD, classical]
  zs z k := by
    simp only [polyD, classical, Function.iterate_zero, id]
    have := Chebyshev.T_add_two K (k : ℤ)
    push_cast
    rw [this]
    simp
  d0 d z := by simp [polyD, classical]
  d1 z := by simp [polyD, classical]
  d2 d z := by simp [polyD, classical]
  ds d z k := by
    simp only [polyD, classical]
    have := Chebyshev.T_add_two K (k : ℤ)
    push_cast
    rw [this, iter_sub, mul_assoc, show (2 : K[X]) = ((2 : ℕ) : K[X]) by norm_num, iter_nat_mul,
      iterate_derivative_X_mul']
    simp
    ring

theorem legendre_succ [CharZero K] (k : ℕ) : legendre K (k + 2) =
    C ((1 : K) / ((k : K) + 2)) * (((2 * (k + 1) + 1 : ℕ) : K[X]) * (X * legendre K (k + 1)) -
      ((k + 1 : ℕ) : K[X]) * legendre K k) := by
  rw [← legendre_bonnet, ← mul_assoc, ← C_eq_natCast, ← C_mul]
  have : ((k : K) + 2) ≠ 0 := by exact_mod_cast Nat.succ_ne_zero (k + 1)
  push_cast
  rw [one_div_mul_cancel this]
  simp

theorem laguerre_succ [CharZero K] (k : ℕ) : laguerre K (k + 2) =
    C ((1 : K) / ((k : K) + 2)) * (((2 * (k + 1) + 1 : ℕ) : K[X]) * laguerre K (k + 1) -
      X * laguerre K (k + 1) - ((k + 1 : ℕ) : K[X]) * laguerre K k) := by
  rw [← laguerre_rec, ← mul_assoc, ← C_eq_natCast, ← C_mul]
  have : ((k : K) + 2) ≠ 0 := by exact_mod_cast Nat.succ_ne_zero (k + 1)
  push_cast
  rw [one_div_mul_cancel this]
  simp

theorem recSpec_lep [CharZero K] : RecSpec (K := K) (fun z => z) 1
    (fun k z f1 f2 => ((2 * (k : K) + 1) * z * f1 - (k : K) * f2) / ((k : K) + 1))
    (fun d k z e f1 f2 =>
      ((2 * (k : K) + 1) * (((d : K) + 1) * e + z * f1) - (k : K) * f2) / ((k : K) + 1))
    (polyD K .lep) where
  z0 z := by simp [polyD, classical, legendre_zero]
  z1 z := by simp [polyD, classical, legendre_one]
  zs z k := by
    simp only [polyD, classical, Function.iterate_zero, id]
    rw [legendre_succ]
    simp
    have : ((k : K) + 2) ≠ 0 := by exact_mod_cast Nat.succ_ne_zero (k + 1)
    have : ((k : K) + 1 + 1) ≠ 0 := by exact_mod_cast Nat.succ_ne_zero (k + 1)
    field_simp
    ring
  d0 d z := by simp [polyD, classical, legendre_zero]
  d1 z := by simp [polyD, classical, legendre_one]
  d2 d z := by simp [polyD, classical, legendre_one]
  ds d z k := by
    simp only [polyD, classical]
    rw [legendre_succ, iter_C_mul, iter_sub, iter_nat_mul, iter_nat_mul, iterate_derivative_X_mul']
    simp
    have : ((k : K) + 2) ≠ 0 := by exact_mod_cast Nat.succ_ne_zero (k + 1)
    have : ((k : K) + 1 + 1) ≠ 0 := by exact_mod_cast Nat.succ_ne_zero (k + 1)
    field_simp
    ring

theorem recSpec_lap [CharZero K] : RecSpec (K := K) (fun z => 1 - z) (-1)
    (fun k z f1 f2 => ((2 * (k : K) + 1 - z) * f1 - (k : K) * f2) / ((k : K) + 1))
    (fun d k z e f1 f2 =>
      ((2 * (k : K) + 1 - z) * f1 - ((d : K) + 1) * e - (k : K) * f2) / ((k : K) + 1))
    (polyD K .lap) where
  z0 z := by simp [polyD, classical, laguerre_zero]
  z1 z := by simp [polyD, classical, laguerre_one]
  zs z k := by
    simp only [polyD, classical, Function.iterate_zero, id]
    rw [laguerre_succ]
    simp
    have : ((k : K) + 2) ≠ 0 := by exact_mod_cast Nat.succ_ne_zero (k + 1)
    have : ((k : K) + 1 + 1) ≠ 0 := by exact_mod_cast Nat.succ_ne_zero (k + 1)
    field_simp
    ring
  d0 d z := by simp [polyD, classical, laguerre_zero]
  d1 z := by simp [polyD, classical, laguerre_one]
  d2 d z := by simp [polyD, classical, laguerre_one]
  ds d z k := by
    simp only [polyD, classical]
    rw [laguerre_succ, iter_C_mul, iter_sub, iter_sub, iter_nat_mul, iter_nat_mul,
      iterate_derivative_X_mul']
    simp
    have : ((k : K) + 2) ≠ 0 := by exact_mod_cast Nat.succ_ne_zero (k + 1)
    have : ((k : K) + 1 + 1) ≠ 0 := by exact_mod_cast Nat.succ_ne_zero (k + 1)
    field_simp
    ring

theorem hermite_map_rec (k : ℕ) : (hermite (k + 2)).map (Int.castRingHom K) =
    X * (hermite (k + 1)).map (Int.castRingHom K) -
      ((k + 1 : ℕ) : K[X]) * (hermite k).map (Int.castRingHom K) := by
  rw [hermite_rec]
  simp [Polynomial.map_sub, Polynomial.map_mul]

theorem hermite_map_zero : (hermite 0).map (Int.castRingHom K) = 1 := by
  rw [hermite_zero]; simp

theorem hermite_map_one : (hermite 1).map (Int.castRingHom K) = X := by
  rw [hermite_one]; simp

/-- `hermite k` over `K` (kept opaque, so that the kernel never unfolds `hermite`). -/
private noncomputable def he (K : Type) [Field K] (k : ℕ) : K[X] :=
  (hermite k).map (Int.castRingHom K)

private theorem he_rec (k : ℕ) : he K (k + 2) = X * he K (k + 1) - ((k + 1 : ℕ) : K[X]) * he K k :=
  hermite_map_rec k

private theorem polyD_hopPro (d : ℕ) (z : K) (k : ℕ) :
    polyD K .hopPro d z k = (derivative^[d] (he K k)).eval z := rfl

attribute [local irreducible] he

theorem recSpec_hopPro : RecSpec (K := K) (fun z => z) 1
    (fun k z f1 f2 => z * f1 - (k : K) * f2)
    (fun d k z e f1 f2 => ((d : K) + 1) * e + z * f1 - (k : K) * f2)
    (polyD K .hopPro) where
  z0 z := by simp only [polyD, classical, hermite_map_zero, Function.iterate_zero, id, eval_one]
  z1 z := by simp only [polyD, classical, hermite_map_one, Function.iterate_zero, id, eval_X]
  zs z k := by
    rw [polyD_hopPro, polyD_hopPro, polyD_hopPro, he_rec]
    simp
  d0 d z := by simp only [polyD, classical, hermite_map_zero, iter_one, eval_zero]
  d1 z := by
    simp only [polyD, classical, hermite_map_one, Function.iterate_one, derivative_X, eval_one]
  d2 d z := by simp only [polyD, classical, hermite_map_one, iter_X_ge_two, eval_zero]
  ds d z k := by
    rw [polyD_hopPro, polyD_hopPro, polyD_hopPro, polyD_hopPro, he_rec, iter_sub, iter_nat_mul,
      iterate_derivative_X_mul']
    simp
    ring

theorem recSpec_hopPhy : RecSpec (K := K) (fun z => 2 * z) 2
    (fun k z f1 f2 => 2 * z * f1 - 2 * (k : K) * f2)
    (fun d k z e f1 f2 => 2 * ((d : K) + 1) * e + 2 * z * f1 - 2 * (k : K) * f2)
    (polyD K .hopPhy) where
  z0 z := by simp [polyD, classical, physHermite]
  z1 z := by simp [polyD, classical, physHermite]
  zs z k := by
    simp only [polyD, classical, Function.iterate_zero, id]
    rw [physHermite_rec]
    simp
  d0 d z := by simp [polyD, classical, physHermite]
  d1 z := by simp [polyD, classical, physHermite]
  d2 d z := by
    simp only [polyD, classical, physHermite]
    rw [show (2 * X * 1 - derivative 1 : K[X]) = ((2 : ℕ) : K[X]) * X by simp, iter_nat_mul,
      iter_X_ge_two]
    simp
  ds d z k := by
    simp only [polyD, classical]
    rw [physHermite_rec, iter_sub, mul_assoc, show (2 : K[X]) = ((2 : ℕ) : K[X]) by norm_num,
      iter_nat_mul, iter_nat_mul, iterate_derivative_X_mul']
    simp
    ring

/-! ## The models are instances of the common shape, in every arithmetic -/

section Ops
variable {K : Type} [Zero K] [One K] [Add K] [Sub K] [Mul K] [Div K] [Neg K] [NatCast K]

theorem cp_deriv_eq (m n : ℕ) (x : Buf K) (left d : ℕ) (F : Buf K) (hm : 1 ≤ m) :
    CP.recurseDeriv m x n left d F =
      skelDeriv 1 (fun d _ z e f1 f2 => (2 + 2 * (d : K)) * e + 2 * z * f1 - f2) m x n left d F := by
  induction left generalizing d F with
  | zero => rfl
  | succ left ih =>
    obtain ⟨m, rfl⟩ : ∃ e, m = e + 1 := ⟨m - 1, by omega⟩
    have e1 : ∀ a k : ℕ, a + (k + 1) - 1 = a + k := fun a k => by omega
    have e2 : ∀ a k : ℕ, a + (k + 1) - 2 = a + k - 1 := fun a k => by omega
    simp only [CP.recurseDeriv, skelDeriv, ih, loop_shift 1 m, e1, e2]
    rfl

theorem cp_hint_eq (m d n : ℕ) (x dark : Buf K) (hm : 1 ≤ m) :
    CP.hint m d x n dark = skelHint (fun z => z) 1 (fun _ z f1 f2 => 2 * z * f1 - f2)
      (fun d _ z e f1 f2 => (2 + 2 * (d : K)) * e + 2 * z * f1 - f2) m d x n dark := by
  unfold CP.hint skelHint
  simp only [cp_deriv_eq (K := K) _ _ _ _ _ _ hm]
  obtain ⟨m, rfl⟩ : ∃ e, m = e + 1 := ⟨m - 1, by omega⟩
  have e1 : ∀ a k : ℕ, a + (k + 1) - 1 = a + k := fun a k => by omega
  have e2 : ∀ a k : ℕ, a + (k + 1) - 2 = a + k - 1 := fun a k => by omega
  simp only [loop_shift 1 m, e1, e2]
  rfl

theorem lep_deriv_eq (m n : ℕ) (x : Buf K) (left d : ℕ) (F : Buf K) :
    LeP.recurseDeriv m x n left d F = skelDeriv 1 (fun d k z e f1 f2 =>
      ((2 * (k : K) + 1) * (((d : K) + 1) * e + z * f1) - (k : K) * f2) / ((k : K) + 1))
      m x n left d F := by
  induction left generalizing d F with
  | zero => rfl
  | succ left ih => simp only [LeP.recurseDeriv, skelDeriv, ih]

theorem lap_deriv_eq (m n : ℕ) (x : Buf K) (left d : ℕ) (F : Buf K) :
    LaP.recurseDeriv m x n left d F = skelDeriv (-1) (fun d k z e f1 f2 =>
      ((2 * (k : K) + 1 - z) * f1 - ((d : K) + 1) * e - (k : K) * f2) / ((k : K) + 1))
      m x n left d F := by
  induction left generalizing d F with
  | zero => rfl
  | succ left ih => simp only [LaP.recurseDeriv, skelDeriv, ih]

theorem hopPro_deriv_eq (m n : ℕ) (x : Buf K) (left d : ℕ) (F : Buf K) :
    HoPpro.recurseDeriv m x n left d F = skelDeriv 1 (fun d k z e f1 f2 =>
      ((d : K) + 1) * e + z * f1 - (k : K) * f2) m x n left d F := by
  induction left generalizing d F with
  | zero => rfl
  | succ left ih => simp only [HoPpro.recurseDeriv, skelDeriv, ih]

theorem hopPhy_deriv_eq (m n : ℕ) (x : Buf K) (left d : ℕ) (F : Buf K) :
    HoPphy.recurseDeriv m x n left d F = skelDeriv 2 (fun d k z e f1 f2 =>
      2 * ((d : K) + 1) * e + 2 * z * f1 - 2 * (k : K) * f2) m x n left d F := by
  induction left generalizing d F with
  | zero => rfl
  | succ left ih => simp only [HoPphy.recurseDeriv, skelDeriv, ih]

theorem lep_hint_eq (m d n : ℕ) (x dark : Buf K) :
    LeP.hint m d x n dark = skelHint (fun z => z) 1
      (fun k z f1 f2 => ((2 * (k : K) + 1) * z * f1 - (k : K) * f2) / ((k : K) + 1))
      (fun d k z e f1 f2 =>
        ((2 * (k : K) + 1) * (((d : K) + 1) * e + z * f1) - (k : K) * f2) / ((k : K) + 1)) m d x n dark := by
  simp only [LeP.hint, skelHint, lep_deriv_eq]

theorem lap_hint_eq (m d n : ℕ) (x dark : Buf K) :
    LaP.hint m d x n dark = skelHint (fun z => 1 - z) (-1)
      (fun k z f1 f2 => ((2 * (k : K) + 1 - z) * f1 - (k : K) * f2) / ((k : K) + 1))
      (fun d k z e f1 f2 => ((2 * (k : K) + 1 - z) * f1 - ((d : K) + 1) * e - (k : K) * f2) / ((k : K) + 1)) m d x n dark := by
  simp only [LaP.hint, skelHint, lap_deriv_eq]

theorem hopPro_hint_eq (m d n : ℕ) (x dark : Buf K) :
    HoPpro.hint m d x n dark = skelHint (fun z => z) 1
      (fun k z f1 f2 => z * f1 - (k : K) * f2)
      (fun d k z e f1 f2 => ((d : K) + 1) * e + z * f1 - (k : K) * f2) m d x n dark := by
  simp only [HoPpro.hint, skelHint, hopPro_deriv_eq]

theorem hopPhy_hint_eq (m d n : ℕ) (x dark : Buf K) :
    HoPphy.hint m d x n dark = skelHint (fun z => 2 * z) 2
      (fun k z f1 f2 => 2 * z * f1 - 2 * (k : K) * f2)
      (fun d k z e f1 f2 => 2 * ((d : K) + 1) * e + 2 * z * f1 - 2 * (k : K) * f2) m d x n dark := by
  simp only [HoPphy.hint, skelHint, hopPhy_deriv_eq]

end Ops

/-- Dispatch to the `Hint` of a class. -/
def polyHint (f : PolyFamily) : (m d : ℕ) → Buf K → ℕ → Buf K → Except Fault (Buf K) :=
  match f with
  | .cp => CP.hint
  | .lep => LeP.hint
  | .lap => LaP.hint
  | .hopPro => HoPpro.hint
  | .hopPhy => HoPphy.hint

theorem polyHint_spec [CharZero K] (f : PolyFamily) {m n d : ℕ} {x : Buf K} {xs : ℕ → K}
    (hm : 1 ≤ m) (hx : ∀ j < n, x.read j = .ok (xs j)) {M : ℕ → ℕ → Option K} {dark : Buf K}
    (hdark : View dark n m M) :
    Runs (polyHint f m d x n dark) (fun b => View b n m (fun j c => some (polyD K f d (xs j) c))) := by
  cases f with
  | cp =>
    rw [show polyHint .cp m d x n dark = CP.hint m d x n dark from rfl, cp_hint_eq _ _ _ _ _ hm]
    exact skelHint_spec hm hx recSpec_cp hdark
  | lep =>
    have : polyHint .lep m d x n dark = skelHint (fun z => z) 1
      (fun k z f1 f2 => ((2 * (k : K) + 1) * z * f1 - (k : K) * f2) / ((k : K) + 1))
      (fun d k z e f1 f2 =>
        ((2 * (k : K) + 1) * (((d : K) + 1) * e + z * f1) - (k : K) * f2) / ((k : K) + 1)) m d x n dark := by
      simp only [polyHint, LeP.hint, skelHint, lep_deriv_eq]
    rw [this]
    exact skelHint_spec hm hx recSpec_lep hdark
  | lap =>
    have : polyHint .lap m d x n dark = skelHint (fun z => 1 - z) (-1)
      (fun k z f1 f2 => ((2 * (k : K) + 1 - z) * f1 - (k : K) * f2) / ((k : K) + 1))
      (fun d k z e f1 f2 =>
        ((2 * (k : K) + 1 - z) * f1 - ((d : K) + 1) * e - (k : K) * f2) / ((k : K) + 1)) m d x n dark := by
      simp only [polyHint, LaP.hint, skelHint, lap_deriv_eq]
    rw [this]
    exact skelHint_spec hm hx recSpec_lap hdark
  | hopPro =>
    have : polyHint .hopPro m d x n dark = skelHint (fun z => z) 1
      (fun k z f1 f2 => z * f1 - (k : K) * f2)
      (fun d k z e f1 f2 => ((d : K) + 1) * e + z * f1 - (k : K) * f2) m d x n dark := by
      simp only [polyHint, HoPpro.hint, skelHint, hopPro_deriv_eq]
    rw [this]
    exact skelHint_spec hm hx recSpec_hopPro hdark
  | hopPhy =>
    have : polyHint .hopPhy m d x n dark = skelHint (fun z => 2 * z) 2
      (fun k z f1 f2 => 2 * z * f1 - 2 * (k : K) * f2)
      (fun d k z e f1 f2 => 2 * ((d : K) + 1) * e + 2 * z * f1 - 2 * (k : K) * f2) m d x n dark := by
      simp only [polyHint, HoPphy.hint, skelHint, hopPhy_deriv_eq]
    rw [this]
    exact skelHint_spec hm hx recSpec_hopPhy hdark

end Verif
