import Verif.Lemmas.ChebGrid
import Verif.Spec.Trig

/-! # The trigonometric system on equidistant points -/

namespace Verif.Lemmas

open Finset Real Verif.Spec

theorem fourier_even (p : ℕ) (t : ℝ) : fourier (2 * p) t = cos (p * t) := by
  unfold fourier
  rcases Nat.eq_zero_or_pos p with rfl | h
  · simp
  · rw [if_neg (by omega), if_neg (by omega)]
    have : 2 * p / 2 = p := by omega
    rw [this]

theorem fourier_odd (p : ℕ) (t : ℝ) : fourier (2 * p + 1) t = sin ((p + 1 : ℕ) * t) := by
  unfold fourier
  rw [if_neg (by omega), if_pos (by omega)]
  have : (2 * p + 1 + 1) / 2 = p + 1 := by omega
  rw [this]

theorem fourier_off {n m k l : ℕ} (hn : 2 * (m / 2) + 1 ≤ n) (hk : k < m) (hl : l < m) (h : k ≠ l) :
    trap n (fun j => fourier k (theta n j) * fourier l (theta n j)) = 0 := by
  wlog hlt : k < l generalizing k l
  · rw [← this hl hk h.symm (by omega)]
    exact trap_congr fun j _ => mul_comm _ _
  rcases Nat.even_or_odd' k with ⟨p, rfl | rfl⟩ <;> rcases Nat.even_or_odd' l with ⟨q, rfl | rfl⟩
  · simp only [fourier_even]
    exact trap_cc (by omega) (by omega)
  · exact trap_odd (f := fun t => fourier (2 * p) t * fourier (2 * q + 1) t) (by omega) fun t => by
      rw [fourier_even, fourier_even, fourier_odd, fourier_odd, mul_neg, mul_neg, cos_neg, sin_neg, mul_neg]
  · exact trap_odd (f := fun t => fourier (2 * p + 1) t * fourier (2 * q) t) (by omega) fun t => by
      rw [fourier_even, fourier_even, fourier_odd, fourier_odd, mul_neg, mul_neg, cos_neg, sin_neg, neg_mul]
  · simp only [fourier_odd]
    exact trap_ss (by omega) (by omega)

theorem fourier_diag {n m k : ℕ} (hn : 2 * (m / 2) + 1 ≤ n) (hk : k < m) :
    (n : ℝ) / 2 ≤ trap n (fun j => fourier k (theta n j) * fourier k (theta n j)) ∧
      trap n (fun j => fourier k (theta n j) * fourier k (theta n j)) ≤ n := by
  have hnn : (0 : ℝ) ≤ n := by positivity
  rcases Nat.even_or_odd' k with ⟨p, rfl | rfl⟩
  · simp only [fourier_even]
    rcases Nat.eq_zero_or_pos p with rfl | h
    · have : trap n (fun j => cos ((0 : ℕ) * theta n j) * cos ((0 : ℕ) * theta n j)) = n := by
        refine Eq.trans ?_ (trap_one n)
        exact trap_congr fun j _ => by simp
      rw [this]
      constructor <;> linarith
    · rw [trap_c2 h (by omega)]
      constructor <;> linarith
  · simp only [fourier_odd]
    rw [trap_s2 (by omega) (by omega)]
    constructor <;> linarith

/-- The sum of squares of a combination of different trigonometric functions on the points. -/
theorem fourier_grid {n m : ℕ} (hn : 2 * (m / 2) + 1 ≤ n) {M : ℕ} (k : Fin M → ℕ) (hk : ∀ i, k i < m) (hinj : Function.Injective k) (ξ : Fin M → ℝ) :
    (n : ℝ) / 2 * ∑ i, ξ i ^ 2 ≤ ∑ j ∈ range (n + 1), (∑ i, fourier (k i) (theta n j) * ξ i) ^ 2 ∧
      ∑ j ∈ range (n + 1), (∑ i, fourier (k i) (theta n j) * ξ i) ^ 2 ≤ 2 * n * ∑ i, ξ i ^ 2 :=
  trap_frame (by omega) (fun i j => fourier (k i) (theta n j)) (fun i l h => fourier_off hn (hk i) (hk l) fun h' => h (hinj h'))
    (fun i => fourier_diag hn (hk i)) ξ

end Verif.Lemmas
