import Verif.Model.NegOrder
import Verif.Spec.Trig
import Mathlib.Analysis.Calculus.IteratedDeriv.Defs
import Mathlib.Analysis.Calculus.Deriv.Mul
import Mathlib.Analysis.Calculus.Deriv.Add

/-!
# Orders below zero

Nothing keeps a negative order of the derivative from reaching the basis functions. The least that can be asked is that it is refused or that the
rule used by jax stays true: the derivative of the functions of order `d` are those of order `d + 1`, in both backends.
-/

namespace Verif.Props

open Verif.Py Verif.Spec Verif.Model.NegOrder

theorem freq_pos {k : ℕ} (hk : 1 ≤ k) : 0 < freq k := by
  unfold freq
  exact_mod_cast (by omega : 0 < (k + 1) / 2)

theorem tmod_nonpos {d : ℤ} (hd : d ≤ 0) : d.tmod 4 ≤ 0 := by
  have h : d.tmod 4 = -((-d).tmod 4) := by rw [Int.neg_tmod, neg_neg]
  rw [h, Int.tmod_eq_emod_of_nonneg (by omega)]
  omega

/-- The four cases of python, without the separate case of order 0. -/
theorem fsPy_cases {k : ℕ} (hk : 1 ≤ k) (d : ℤ) :
    (d % 4 = 0 → fsPy d k = fun z => if k % 2 = 0 then freq k ^ d * Real.cos (freq k * z) else freq k ^ d * Real.sin (freq k * z)) ∧
    (d % 4 = 1 → fsPy d k = fun z => if k % 2 = 0 then -(freq k ^ d) * Real.sin (freq k * z) else freq k ^ d * Real.cos (freq k * z)) ∧
    (d % 4 = 2 → fsPy d k = fun z => if k % 2 = 0 then -(freq k ^ d) * Real.cos (freq k * z) else -(freq k ^ d) * Real.sin (freq k * z)) ∧
    (d % 4 = 3 → fsPy d k = fun z => if k % 2 = 0 then freq k ^ d * Real.sin (freq k * z) else -(freq k ^ d) * Real.cos (freq k * z)) := by
  have hk0 : k ≠ 0 := by omega
  refine ⟨fun h => ?_, fun h => ?_, fun h => ?_, fun h => ?_⟩ <;> funext z <;> unfold fsPy <;> by_cases hd : d = 0
  · simp [hd, hk0]
  · simp [hd, hk0, h]
  all_goals first
    | (exfalso; rw [hd] at h; revert h; decide)
    | simp [hd, hk0, h]

theorem hasDeriv_sin (g a z : ℝ) : HasDerivAt (fun z => a * Real.sin (g * z)) (a * g * Real.cos (g * z)) z := by
  have h := ((Real.hasDerivAt_sin (g * z)).comp z ((hasDerivAt_id z).const_mul g)).const_mul a
  refine h.congr_deriv ?_
  ring

theorem hasDeriv_cos (g a z : ℝ) : HasDerivAt (fun z => a * Real.cos (g * z)) (-(a * g) * Real.sin (g * z)) z := by
  have h := ((Real.hasDerivAt_cos (g * z)).comp z ((hasDerivAt_id z).const_mul g)).const_mul a
  refine h.congr_deriv ?_
  ring

theorem fsPy_deriv {k : ℕ} (hk : 1 ≤ k) (d : ℤ) (z : ℝ) : HasDerivAt (fsPy d k) (fsPy (d + 1) k z) z := by
  have hg := (freq_pos hk).ne'
  have hpow : freq k ^ (d + 1) = freq k ^ d * freq k := zpow_add_one₀ hg d
  obtain ⟨a0, a1, a2, a3⟩ := fsPy_cases hk d
  obtain ⟨b0, b1, b2, b3⟩ := fsPy_cases hk (d + 1)
  have h4 : d % 4 = 0 ∨ d % 4 = 1 ∨ d % 4 = 2 ∨ d % 4 = 3 := by omega
  rcases h4 with h | h | h | h
  · rw [a0 h, b1 (by omega)]
    by_cases hp : k % 2 = 0 <;> simp only [hp, if_true, if_false, hpow]
    · exact hasDeriv_cos _ _ _
    · exact hasDeriv_sin _ _ _
  · rw [a1 h, b2 (by omega)]
    by_cases hp : k % 2 = 0 <;> simp only [hp, if_true, if_false, hpow]
    · exact (hasDeriv_sin _ _ _).congr_deriv (by ring)
    · exact (hasDeriv_cos _ _ _).congr_deriv (by ring)
  · rw [a2 h, b3 (by omega)]
    by_cases hp : k % 2 = 0 <;> simp only [hp, if_true, if_false, hpow]
    · exact (hasDeriv_cos _ _ _).congr_deriv (by ring)
    · exact (hasDeriv_sin _ _ _).congr_deriv (by ring)
  · rw [a3 h, b0 (by omega)]
    by_cases hp : k % 2 = 0 <;> simp only [hp, if_true, if_false, hpow]
    · exact hasDeriv_sin _ _ _
    · exact (hasDeriv_cos _ _ _).congr_deriv (by ring)

/-- **C130, Fourier basis of python**: for every order, negative ones included, and every function but the constant, the derivative of the function of
order `d` is the one of order `d + 1`; and order 0 is the trigonometric system. So a negative order gives repeated antiderivatives.
(Missing: the constant function, see `C130_constant_fails`, the C++ backend, see `C130_backends_fails` and `C130_elmSin_fails`.) -/
theorem C130_partial (k : ℕ) (hk : 1 ≤ k) (x0 c z0 : ℝ) (hc : c ≠ 0) :
    (∀ z, fsPy 0 k z = fourier k z) ∧
      ∀ (d : ℤ) (x : ℝ), HasDerivAt (entryH (fun d => fsPy d k) x0 c z0 d) (entryH (fun d => fsPy d k) x0 c z0 (d + 1) x) x := by
  refine ⟨fun z => ?_, fun d x => ?_⟩
  · unfold fsPy fourier freq
    have hk0 : k ≠ 0 := by omega
    by_cases hp : k % 2 = 0
    · simp [hk0, hp, show (k + 1) / 2 = k / 2 by omega]
    · simp [hk0, show k % 2 = 1 by omega]
  · have hm : HasDerivAt (fun x => (x - x0) * c + z0) c x := by
      have := (((hasDerivAt_id x).sub_const x0).mul_const c).add_const z0
      exact this.congr_deriv (by ring)
    have h := ((fsPy_deriv hk d ((x - x0) * c + z0)).comp x hm).mul_const (c ^ d)
    refine h.congr_deriv ?_
    unfold entryH
    rw [zpow_add_one₀ hc]
    ring

/-- **C130**: for orders from 0 on, the entries are the derivatives of the trigonometric system, as in the models of the whole matrices (C06). -/
theorem C130_natural (k d : ℕ) : fsPy (d : ℤ) k = iteratedDeriv d (fourier k) := by
  induction d with
  | zero =>
    rw [iteratedDeriv_zero]
    rcases Nat.eq_zero_or_pos k with rfl | hk
    · funext z
      simp [fsPy, fourier]
    · exact funext (C130_partial k hk 0 1 0 one_ne_zero).1
  | succ d ih =>
    rw [iteratedDeriv_succ, ← ih]
    funext z
    rcases Nat.eq_zero_or_pos k with rfl | hk
    · have e : fsPy (d : ℤ) 0 = fun _ => fsPy (d : ℤ) 0 0 := by
        funext t
        simp [fsPy]
      rw [e, deriv_const]
      unfold fsPy
      rw [if_neg (by omega), if_pos rfl]
    · exact (fsPy_deriv hk d z).deriv.symm

/-- **C130 does not hold for the constant function**: the function of order -1 is 0, whose derivative is not the constant 1. -/
theorem C130_constant_fails (z : ℝ) : ¬ HasDerivAt (fsPy (-1) 0) (fsPy 0 0 z) z := by
  intro h
  have e : fsPy (-1) 0 = fun _ => 0 := by
    funext t
    simp [fsPy]
  rw [e] at h
  have := h.unique (hasDerivAt_const z 0)
  simp [fsPy] at this

/-- **C130, the two backends** give the same functions for every order from 0 on, and for those negative orders that are 0 or 3 modulo 4. -/
theorem C130_backends_partial (d : ℤ) (hd : 0 ≤ d ∨ d % 4 = 0 ∨ d % 4 = 3) (k : ℕ) (z : ℝ) : fsCC d k z = fsPy d k z := by
  unfold fsCC fsPy
  by_cases h0 : d = 0
  · simp [h0]
  by_cases hk : k = 0
  · simp [h0, hk]
  rcases hd with hd | hd | hd
  · rw [Int.tmod_eq_emod_of_nonneg hd]
  · have : d.tmod 4 = 0 := Int.tmod_eq_zero_of_dvd (Int.dvd_of_emod_eq_zero hd)
    simp [h0, hk, hd, this]
  · have ht : 0 < d ∨ d < 0 := by omega
    rcases ht with ht | ht
    · rw [Int.tmod_eq_emod_of_nonneg ht.le]
    · have h1 : d.tmod 4 ≤ 0 := tmod_nonpos ht.le
      have h2 : d.tmod 4 ≠ 0 := fun h => by
        have := Int.dvd_of_tmod_eq_zero h
        omega
      have h3 : d.tmod 4 ≠ 1 := by omega
      have h4 : d.tmod 4 ≠ 2 := by omega
      simp [h0, hk, hd, h2, h3, h4]

/-- **C130 does not hold for the two backends**: for every negative order that is 1 or 2 modulo 4, -2 and -3 among them, and every function but the constant
they differ. The remainder of a negative number is negative in C++, so the last branch is taken. -/
theorem C130_backends_fails (d : ℤ) (hd : d < 0) (hm : d % 4 = 1 ∨ d % 4 = 2) (k : ℕ) (hk : 1 ≤ k) : ∃ z, fsCC d k z ≠ fsPy d k z := by
  have hk0 : k ≠ 0 := by omega
  have h0 : d ≠ 0 := by omega
  have h1 : d.tmod 4 ≤ 0 := tmod_nonpos hd.le
  have h2 : d.tmod 4 ≠ 0 := fun h => by
    have := Int.dvd_of_tmod_eq_zero h
    omega
  have h3 : d.tmod 4 ≠ 1 := by omega
  have h4 : d.tmod 4 ≠ 2 := by omega
  have hg := freq_pos hk
  have hp : 0 < freq k ^ d := zpow_pos hg d
  have hcc : ∀ z, fsCC d k z = if k % 2 = 0 then freq k ^ d * Real.sin (freq k * z) else -freq k ^ d * Real.cos (freq k * z) := fun z => by
    simp [fsCC, h0, hk0, h2, h3, h4]
  obtain ⟨-, a1, a2, -⟩ := fsPy_cases hk d
  rcases hm with hm | hm
  · by_cases he : k % 2 = 0
    · refine ⟨Real.pi / 2 / freq k, ?_⟩
      rw [hcc, a1 hm]
      simp only [he, if_true]
      rw [mul_div_cancel₀ _ hg.ne', Real.sin_pi_div_two]
      intro h
      linarith
    · refine ⟨0, ?_⟩
      rw [hcc, a1 hm]
      simp only [he, if_false, mul_zero, Real.cos_zero]
      intro h
      linarith
  · refine ⟨0, ?_⟩
    rw [hcc, a2 hm]
    by_cases he : k % 2 = 0
    · simp only [he, if_true, mul_zero, Real.cos_zero, Real.sin_zero]
      intro h
      linarith
    · simp only [he, if_false, mul_zero, Real.cos_zero, Real.sin_zero]
      intro h
      linarith

theorem hasDeriv_sin_shift (w b a x : ℝ) : HasDerivAt (fun x => a * Real.sin (w * x + b)) (a * w * Real.cos (w * x + b)) x := by
  have h := ((Real.hasDerivAt_sin (w * x + b)).comp x (((hasDerivAt_id x).const_mul w).add_const b)).const_mul a
  exact h.congr_deriv (by simp; ring)

theorem hasDeriv_cos_shift (w b a x : ℝ) : HasDerivAt (fun x => a * Real.cos (w * x + b)) (-(a * w) * Real.sin (w * x + b)) x := by
  have h := ((Real.hasDerivAt_cos (w * x + b)).comp x (((hasDerivAt_id x).const_mul w).add_const b)).const_mul a
  exact h.congr_deriv (by simp; ring)

/-- **C130, `ELMSin` of C++**: from order -1 on, the derivative of the function of order `d` is the one of order `d + 1`, and order 0 is the sine. -/
theorem C130_elmSin_partial (w b : ℝ) (hw : w ≠ 0) :
    (∀ x, elmSinCC 0 w b x = Real.sin (w * x + b)) ∧ ∀ d : ℤ, -1 ≤ d → ∀ x, HasDerivAt (elmSinCC d w b) (elmSinCC (d + 1) w b x) x := by
  refine ⟨fun x => by simp [elmSinCC], fun d hd x => ?_⟩
  have hpow : w ^ (d + 1) = w ^ d * w := zpow_add_one₀ hw d
  have e1 : (d + 1).tmod 4 = (d + 1) % 4 := Int.tmod_eq_emod_of_nonneg (by omega)
  have e0 : (0 ≤ d ∧ d.tmod 4 = d % 4) ∨ d.tmod 4 = -1 ∧ d % 4 = 3 := by
    by_cases h : 0 ≤ d
    · exact Or.inl ⟨h, Int.tmod_eq_emod_of_nonneg h⟩
    · obtain rfl : d = -1 := by omega
      exact Or.inr (by decide)
  have key : (fun x => elmSinCC d w b x) = elmSinCC d w b := rfl
  rw [← key]
  unfold elmSinCC
  rw [e1]
  have h4 : d % 4 = 0 ∨ d % 4 = 1 ∨ d % 4 = 2 ∨ d % 4 = 3 := by omega
  rcases h4 with h | h | h | h
  · have a : d.tmod 4 = 0 := by omega
    have c : (d + 1) % 4 = 1 := by omega
    simp only [a, c, hpow]
    exact (hasDeriv_sin_shift w b (w ^ d) x).congr_deriv (by norm_num)
  · have a : d.tmod 4 = 1 := by omega
    have c : (d + 1) % 4 = 2 := by omega
    simp only [a, c, hpow]
    exact (hasDeriv_cos_shift w b (w ^ d) x).congr_deriv (by norm_num)
  · have a : d.tmod 4 = 2 := by omega
    have c : (d + 1) % 4 = 3 := by omega
    simp only [a, c, hpow]
    exact (hasDeriv_sin_shift w b (-w ^ d) x).congr_deriv (by norm_num)
  · have a0 : d.tmod 4 ≠ 0 := by omega
    have a1 : d.tmod 4 ≠ 1 := by omega
    have a2 : d.tmod 4 ≠ 2 := by omega
    have c : (d + 1) % 4 = 0 := by omega
    simp only [a0, a1, a2, c, hpow, if_false, if_true]
    exact (hasDeriv_cos_shift w b (-w ^ d) x).congr_deriv (by ring)

/-- **C130 does not hold for `ELMSin` of C++**: the derivative of the function of order -2 is not the one of order -1. -/
theorem C130_elmSin_fails : ¬ HasDerivAt (elmSinCC (-2) 1 0) (elmSinCC (-1) 1 0 0) 0 := by
  intro h
  have e : elmSinCC (-2) 1 0 = fun x => -1 * Real.cos (1 * x) := by
    funext x
    unfold elmSinCC
    rw [show Int.tmod (-2) 4 = -2 by decide]
    simp
  have e1 : elmSinCC (-1) 1 0 0 = -1 := by
    unfold elmSinCC
    rw [show Int.tmod (-1) 4 = -1 by decide]
    simp
  rw [e, e1] at h
  have := h.unique (hasDeriv_cos 1 (-1) 0)
  simp at this

/-- **C130, the recursive classes**: a negative order is never reached, so the recursion ends in an error whatever the limit is; an order from 0 on is
reached if the limit allows it, after one step for each derivative. -/
theorem C130_recursion {α : Type} (step : ℕ → α → α) (a : α) :
    (∀ d : ℤ, d < 0 → ∀ limit, recurse step d limit 0 a = .error .crash) ∧
      ∀ d limit : ℕ, d < limit → recurse step d limit 0 a = .ok ((List.range d).foldl (fun b i => step i b) a) := by
  constructor
  · intro d hd limit
    suffices h : ∀ n a, recurse step d limit n a = .error .crash from h 0 a
    induction limit with
    | zero => intro n a; rfl
    | succ l ih =>
      intro n a
      unfold recurse
      rw [if_neg (by omega)]
      exact ih _ _
  · intro d limit hl
    suffices h : ∀ j n b, n + j = d → j < limit → recurse step d limit n b = .ok ((List.range' n j).foldl (fun b i => step i b) b) by
      rw [h d 0 a (by omega) hl, List.range_eq_range']
    clear hl
    intro j
    induction j generalizing limit with
    | zero =>
      intro n b hn hl
      obtain ⟨l, rfl⟩ : ∃ l, limit = l + 1 := ⟨limit - 1, by omega⟩
      unfold recurse
      rw [if_pos (by omega)]
      rfl
    | succ j ih =>
      intro n b hn hl
      obtain ⟨l, rfl⟩ : ∃ l, limit = l + 1 := ⟨limit - 1, by omega⟩
      unfold recurse
      rw [if_neg (by omega), ih l (n + 1) _ (by omega) (by omega)]
      rfl

/-- The antiderivative of `cos` in python is `sin`, of order -1, and in C++ too; of order -2 python has `-cos` and C++ still `sin`. -/
example : fsPy (-1) 2 = Real.sin ∧ fsCC (-1) 2 = Real.sin ∧ (fsPy (-2) 2 = fun z => -Real.cos z) ∧ fsCC (-2) 2 = Real.sin := by
  refine ⟨?_, ?_, ?_, ?_⟩ <;> funext z
  · simp [fsPy, freq]
  · simp [fsCC, freq, show Int.tmod (-1) 4 = -1 by decide]
  · simp [fsPy, freq]
  · simp [fsCC, freq, show Int.tmod (-2) 4 = -2 by decide]

example : recurse (fun i (l : List ℕ) => l ++ [i]) 3 1000 0 [] = .ok [0, 1, 2] := by decide

end Verif.Props
