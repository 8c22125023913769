import Mathlib.Analysis.SpecialFunctions.Trigonometric.Basic
import Mathlib.Algebra.BigOperators.Intervals
import Mathlib.Algebra.BigOperators.Field
import Mathlib.Tactic.Linarith
import Mathlib.Tactic.Ring
import Mathlib.Tactic.FieldSimp

/-! # The cosines on the points `π j / n`: discrete orthogonality -/

namespace Verif.Lemmas

open Finset Real

/-- The trapezoidal sum over `0, …, n`. -/
noncomputable def trap (n : ℕ) (f : ℕ → ℝ) : ℝ := ∑ j ∈ range n, (f j + f (j + 1)) / 2

theorem trap_sum {ι : Type} (s : Finset ι) (n : ℕ) (f : ι → ℕ → ℝ) : trap n (fun j => ∑ i ∈ s, f i j) = ∑ i ∈ s, trap n (f i) := by
  unfold trap
  rw [sum_comm]
  refine sum_congr rfl fun j _ => ?_
  rw [← sum_add_distrib, sum_div]

theorem trap_mul (n : ℕ) (c : ℝ) (f : ℕ → ℝ) : trap n (fun j => c * f j) = c * trap n f := by
  unfold trap
  rw [mul_sum]
  exact sum_congr rfl fun j _ => by ring

theorem trap_eq (n : ℕ) (f : ℕ → ℝ) : ∑ j ∈ range (n + 1), f j = trap n f + (f 0 + f n) / 2 := by
  have h1 := sum_range_succ f n
  have h2 := sum_range_succ' f n
  have h3 : trap n f = (∑ j ∈ range n, f j + ∑ j ∈ range n, f (j + 1)) / 2 := by
    unfold trap
    rw [← sum_add_distrib, sum_div]
  linarith

theorem trap_le {n : ℕ} (hn : 1 ≤ n) {f : ℕ → ℝ} (hf : ∀ j, 0 ≤ f j) : trap n f ≤ ∑ j ∈ range (n + 1), f j ∧ ∑ j ∈ range (n + 1), f j ≤ 2 * trap n f := by
  have h1 := trap_eq n f
  have h2 : f 0 + f n ≤ ∑ j ∈ range (n + 1), f j := by
    obtain ⟨k, rfl⟩ : ∃ k, n = k + 1 := ⟨n - 1, by omega⟩
    rw [sum_range_succ, sum_range_succ']
    have := sum_nonneg (s := range k) (f := fun j => f (j + 1)) fun j _ => hf (j + 1)
    linarith
  have := hf 0
  have := hf n
  constructor <;> linarith

/-- The sum of `cos (m θ)` over the points is zero unless `m` is a multiple of `2 n`. -/
theorem trap_cos {n m : ℕ} (h0 : 0 < m) (hm : m < 2 * n) : trap n (fun j => cos (m * (π * j / n))) = 0 := by
  have hn : (0 : ℝ) < n := by
    have : 0 < n := by omega
    exact_mod_cast this
  obtain ⟨a, ha⟩ : ∃ a : ℝ, a = m * π / n := ⟨_, rfl⟩
  have hs : sin (a / 2) ≠ 0 := by
    refine (sin_pos_of_pos_of_lt_pi ?_ ?_).ne'
    · have : (0 : ℝ) < m := by exact_mod_cast h0
      rw [ha]
      positivity
    · rw [ha, div_div, div_lt_iff₀ (by positivity)]
      have : (m : ℝ) < 2 * n := by exact_mod_cast hm
      nlinarith [pi_pos]
  have tel : ∀ k : ℕ, sin (a / 2) * trap k (fun j => cos (m * (π * j / n))) = cos (a / 2) * sin (k * a) / 2 := by
    intro k
    induction k with
    | zero => simp [trap]
    | succ k ih =>
      have e : trap (k + 1) (fun j => cos (m * (π * j / n))) = trap k (fun j => cos (m * (π * j / n))) +
          (cos (m * (π * k / n)) + cos (m * (π * ((k + 1 : ℕ) : ℝ) / n))) / 2 := by
        unfold trap
        rw [sum_range_succ]
      have e1 : (m : ℝ) * (π * k / n) = k * a := by rw [ha]; ring
      have e2 : (m : ℝ) * (π * ((k + 1 : ℕ) : ℝ) / n) = k * a + a := by rw [ha]; push_cast; ring
      rw [e, mul_add, ih, e1, e2]
      have e3 : ((k + 1 : ℕ) : ℝ) * a = k * a + a := by push_cast; ring
      rw [e3, cos_add, sin_add]
      obtain ⟨b, hb⟩ : ∃ b, b = a / 2 := ⟨_, rfl⟩
      have e4 : a = 2 * b := by rw [hb]; ring
      rw [← hb, e4, cos_two_mul, sin_two_mul]
      have := sin_sq_add_cos_sq b
      have e5 : sin b ^ 2 = 1 - cos b ^ 2 := by linarith
      ring_nf
      rw [e5]
      ring
  have hz := tel n
  have e6 : (n : ℝ) * a = m * π := by rw [ha]; field_simp
  rw [e6, sin_nat_mul_pi, mul_zero, zero_div] at hz
  exact (mul_eq_zero.mp hz).resolve_left hs

theorem trap_one (n : ℕ) : trap n (fun _ => 1) = n := by
  unfold trap
  simp

/-- The size of a cosine on the points. -/
theorem trap_diag {n k : ℕ} (hn : 1 ≤ n) (hk : k ≤ n) : (n : ℝ) / 2 ≤ trap n (fun j => cos (k * (π * j / n)) * cos (k * (π * j / n))) ∧
    trap n (fun j => cos (k * (π * j / n)) * cos (k * (π * j / n))) ≤ n := by
  have hn0 : (n : ℝ) ≠ 0 := by
    have : n ≠ 0 := by omega
    exact_mod_cast this
  have hnn : (0 : ℝ) ≤ n := by positivity
  have e : trap n (fun j => cos (k * (π * j / n)) * cos (k * (π * j / n))) = (n + trap n (fun j => cos ((2 * k : ℕ) * (π * j / n)))) / 2 := by
    suffices e0 : trap n (fun j => cos (k * (π * j / n)) * cos (k * (π * j / n))) =
        (trap n (fun _ => 1) + trap n (fun j => cos ((2 * k : ℕ) * (π * j / n)))) / 2 by
      rw [e0, trap_one]
    unfold trap
    rw [← sum_add_distrib, sum_div]
    refine sum_congr rfl fun j _ => ?_
    have h : ∀ t : ℝ, cos (k * t) * cos (k * t) = (1 + cos ((2 * k : ℕ) * t)) / 2 := by
      intro t
      have : ((2 * k : ℕ) : ℝ) * t = 2 * (k * t) := by push_cast; ring
      rw [this, cos_two_mul]
      ring
    beta_reduce
    rw [h, h]
    ring
  rw [e]
  rcases Nat.eq_zero_or_pos k with rfl | h0
  · have : trap n (fun j => cos ((2 * 0 : ℕ) * (π * j / n))) = n := by
      refine Eq.trans ?_ (trap_one n)
      congr 1
      funext j
      simp
    rw [this]
    constructor <;> linarith
  · rcases Nat.lt_or_ge k n with h1 | h1
    · rw [trap_cos (by omega) (by omega)]
      constructor <;> linarith
    · have hkn : k = n := by omega
      subst hkn
      have : trap k (fun j => cos ((2 * k : ℕ) * (π * j / k))) = k := by
        refine Eq.trans ?_ (trap_one k)
        congr 1
        funext j
        have : ((2 * k : ℕ) : ℝ) * (π * j / k) = j * (2 * π) := by push_cast; field_simp
        rw [this, cos_nat_mul_two_pi]
      rw [this]
      constructor <;> linarith

/-- Two different cosines are orthogonal on the points. -/
theorem trap_off {n k l : ℕ} (hk : k ≤ n) (hl : l ≤ n) (h : k ≠ l) : trap n (fun j => cos (k * (π * j / n)) * cos (l * (π * j / n))) = 0 := by
  wlog hlt : k < l generalizing k l
  · have := this hl hk h.symm (by omega)
    rw [← this]
    congr 1
    funext j
    ring
  have e : trap n (fun j => cos (k * (π * j / n)) * cos (l * (π * j / n))) =
      (trap n (fun j => cos ((l - k : ℕ) * (π * j / n))) + trap n (fun j => cos ((k + l : ℕ) * (π * j / n)))) / 2 := by
    unfold trap
    rw [← sum_add_distrib, sum_div]
    refine sum_congr rfl fun j _ => ?_
    have h : ∀ t : ℝ, cos (k * t) * cos (l * t) = (cos ((l - k : ℕ) * t) + cos ((k + l : ℕ) * t)) / 2 := by
      intro t
      have e1 : ((l - k : ℕ) : ℝ) * t = l * t - k * t := by rw [Nat.cast_sub hlt.le]; ring
      have e2 : ((k + l : ℕ) : ℝ) * t = k * t + l * t := by push_cast; ring
      rw [e1, e2, cos_sub, cos_add]
      ring
    beta_reduce
    rw [h, h]
    ring
  rw [e, trap_cos (by omega) (by omega), trap_cos (by omega) (by omega)]
  simp

/-- Functions that are orthogonal for the trapezoidal sum, with squares between `n / 2` and `n`: the sum of squares of a combination of them. -/
theorem trap_frame {n : ℕ} (hn : 1 ≤ n) {M : ℕ} (g : Fin M → ℕ → ℝ) (hoff : ∀ i l, i ≠ l → trap n (fun j => g i j * g l j) = 0)
    (hdiag : ∀ i, (n : ℝ) / 2 ≤ trap n (fun j => g i j * g i j) ∧ trap n (fun j => g i j * g i j) ≤ n) (ξ : Fin M → ℝ) :
    (n : ℝ) / 2 * ∑ i, ξ i ^ 2 ≤ ∑ j ∈ range (n + 1), (∑ i, g i j * ξ i) ^ 2 ∧
      ∑ j ∈ range (n + 1), (∑ i, g i j * ξ i) ^ 2 ≤ 2 * n * ∑ i, ξ i ^ 2 := by
  have e : trap n (fun j => (∑ i, g i j * ξ i) ^ 2) = ∑ i, ξ i ^ 2 * trap n (fun j => g i j * g i j) := by
    have e1 : (fun j : ℕ => (∑ i, g i j * ξ i) ^ 2) = fun j : ℕ => ∑ i, ∑ l, ξ i * ξ l * (g i j * g l j) := by
      funext j
      rw [pow_two, sum_mul_sum]
      exact sum_congr rfl fun i _ => sum_congr rfl fun l _ => by ring
    rw [e1, trap_sum]
    refine sum_congr rfl fun i _ => ?_
    rw [trap_sum]
    have e2 : ∀ l, trap n (fun j => ξ i * ξ l * (g i j * g l j)) = ξ i * ξ l * trap n (fun j => g i j * g l j) := fun l => trap_mul n _ _
    rw [sum_congr rfl fun l _ => e2 l, sum_eq_single i]
    · ring
    · intro l _ hl
      rw [hoff i l hl.symm, mul_zero]
    · intro h
      exact absurd (mem_univ i) h
  obtain ⟨h1, h2⟩ := trap_le hn (f := fun j => (∑ i, g i j * ξ i) ^ 2) fun j => sq_nonneg _
  rw [e] at h1 h2
  have h3 : (n : ℝ) / 2 * ∑ i, ξ i ^ 2 ≤ ∑ i, ξ i ^ 2 * trap n (fun j => g i j * g i j) := by
    rw [mul_sum]
    refine sum_le_sum fun i _ => ?_
    have := mul_le_mul_of_nonneg_left (hdiag i).1 (sq_nonneg (ξ i))
    linarith
  have h4 : ∑ i, ξ i ^ 2 * trap n (fun j => g i j * g i j) ≤ n * ∑ i, ξ i ^ 2 := by
    rw [mul_sum]
    refine sum_le_sum fun i _ => ?_
    have := mul_le_mul_of_nonneg_left (hdiag i).2 (sq_nonneg (ξ i))
    linarith
  constructor <;> linarith

/-- The sum of squares of a combination of different cosines on the points. -/
theorem cos_grid {n : ℕ} (hn : 1 ≤ n) {M : ℕ} (k : Fin M → ℕ) (hk : ∀ i, k i ≤ n) (hinj : Function.Injective k) (ξ : Fin M → ℝ) :
    (n : ℝ) / 2 * ∑ i, ξ i ^ 2 ≤ ∑ j ∈ range (n + 1), (∑ i, cos (k i * (π * j / n)) * ξ i) ^ 2 ∧
      ∑ j ∈ range (n + 1), (∑ i, cos (k i * (π * j / n)) * ξ i) ^ 2 ≤ 2 * n * ∑ i, ξ i ^ 2 :=
  trap_frame hn (fun i j => cos (k i * (π * j / n))) (fun i l h => trap_off (hk i) (hk l) fun h' => h (hinj h')) (fun i => trap_diag hn (hk i)) ξ

/-! ## Sines and cosines on equidistant points of a period -/

/-- The points `-π, …, π`. -/
noncomputable def theta (n j : ℕ) : ℝ := -π + j * (2 * π / n)

theorem trap_reflect (n : ℕ) (f : ℕ → ℝ) : trap n f = trap n fun j => f (n - j) := by
  unfold trap
  rw [← sum_range_reflect]
  refine sum_congr rfl fun j hj => ?_
  have := mem_range.mp hj
  have e1 : n - 1 - j + 1 = n - j := by omega
  have e2 : n - (j + 1) = n - 1 - j := by omega
  beta_reduce
  rw [e1, e2, add_comm]

theorem theta_reflect {n j : ℕ} (hn : 1 ≤ n) (hj : j ≤ n) : theta n (n - j) = -theta n j := by
  have : (n : ℝ) ≠ 0 := by
    have : n ≠ 0 := by omega
    exact_mod_cast this
  unfold theta
  rw [Nat.cast_sub hj]
  field_simp
  ring

theorem trap_congr {n : ℕ} {f g : ℕ → ℝ} (h : ∀ j ≤ n, f j = g j) : trap n f = trap n g := by
  unfold trap
  refine sum_congr rfl fun j hj => ?_
  have := mem_range.mp hj
  rw [h j (by omega), h (j + 1) (by omega)]

/-- An odd function has the sum zero. -/
theorem trap_odd {n : ℕ} (hn : 1 ≤ n) {f : ℝ → ℝ} (hf : ∀ t, f (-t) = -f t) : trap n (fun j => f (theta n j)) = 0 := by
  have h1 := trap_reflect n fun j => f (theta n j)
  have h2 : trap n (fun j => f (theta n (n - j))) = trap n fun j => (-1) * f (theta n j) :=
    trap_congr fun j hj => by rw [theta_reflect hn hj, hf]; ring
  rw [h2, trap_mul] at h1
  linarith

theorem trap_cos_theta {n p : ℕ} (h0 : 0 < p) (hp : p < n) : trap n (fun j => cos (p * theta n j)) = 0 := by
  have e : (fun j : ℕ => cos (p * theta n j)) = fun j : ℕ => (-1) ^ p * cos ((2 * p : ℕ) * (π * j / n)) := by
    funext j
    rw [← cos_sub_nat_mul_pi]
    congr 1
    unfold theta
    push_cast
    ring
  rw [e, trap_mul, trap_cos (by omega) (by omega), mul_zero]

theorem trap_add (n : ℕ) (f g : ℕ → ℝ) : trap n (fun j => f j + g j) = trap n f + trap n g := by
  unfold trap
  rw [← sum_add_distrib]
  exact sum_congr rfl fun j _ => by ring

/-- Products of two cosines. -/
theorem trap_cc {n p q : ℕ} (hpq : p < q) (h : p + q < n) : trap n (fun j => cos (p * theta n j) * cos (q * theta n j)) = 0 := by
  have e : (fun j : ℕ => cos (p * theta n j) * cos (q * theta n j)) =
      fun j : ℕ => 1 / 2 * cos ((q - p : ℕ) * theta n j) + 1 / 2 * cos ((p + q : ℕ) * theta n j) := by
    funext j
    have e1 : ((q - p : ℕ) : ℝ) * theta n j = q * theta n j - p * theta n j := by rw [Nat.cast_sub hpq.le]; ring
    have e2 : ((p + q : ℕ) : ℝ) * theta n j = p * theta n j + q * theta n j := by push_cast; ring
    rw [e1, e2, cos_sub, cos_add]
    ring
  rw [e, trap_add, trap_mul, trap_mul, trap_cos_theta (by omega) (by omega), trap_cos_theta (by omega) h]
  ring

/-- Products of two sines. -/
theorem trap_ss {n p q : ℕ} (hpq : p < q) (h : p + q < n) : trap n (fun j => sin (p * theta n j) * sin (q * theta n j)) = 0 := by
  have e : (fun j : ℕ => sin (p * theta n j) * sin (q * theta n j)) =
      fun j : ℕ => 1 / 2 * cos ((q - p : ℕ) * theta n j) + -1 / 2 * cos ((p + q : ℕ) * theta n j) := by
    funext j
    have e1 : ((q - p : ℕ) : ℝ) * theta n j = q * theta n j - p * theta n j := by rw [Nat.cast_sub hpq.le]; ring
    have e2 : ((p + q : ℕ) : ℝ) * theta n j = p * theta n j + q * theta n j := by push_cast; ring
    rw [e1, e2, cos_sub, cos_add]
    ring
  rw [e, trap_add, trap_mul, trap_mul, trap_cos_theta (by omega) (by omega), trap_cos_theta (by omega) h]
  ring

/-- Squares. -/
theorem trap_c2 {n p : ℕ} (h0 : 0 < p) (h : 2 * p < n) : trap n (fun j => cos (p * theta n j) * cos (p * theta n j)) = n / 2 := by
  have e : (fun j : ℕ => cos (p * theta n j) * cos (p * theta n j)) = fun j : ℕ => 1 / 2 * 1 + 1 / 2 * cos ((2 * p : ℕ) * theta n j) := by
    funext j
    have e1 : ((2 * p : ℕ) : ℝ) * theta n j = 2 * (p * theta n j) := by push_cast; ring
    rw [e1, cos_two_mul]
    ring
  rw [e, trap_add, trap_mul n (1 / 2) fun _ => 1, trap_mul, trap_cos_theta (by omega) h, trap_one]
  ring

theorem trap_s2 {n p : ℕ} (h0 : 0 < p) (h : 2 * p < n) : trap n (fun j => sin (p * theta n j) * sin (p * theta n j)) = n / 2 := by
  have e : (fun j : ℕ => sin (p * theta n j) * sin (p * theta n j)) = fun j : ℕ => 1 / 2 * 1 + -1 / 2 * cos ((2 * p : ℕ) * theta n j) := by
    funext j
    have e1 : ((2 * p : ℕ) : ℝ) * theta n j = 2 * (p * theta n j) := by push_cast; ring
    rw [e1, cos_two_mul]
    have := sin_sq_add_cos_sq (p * theta n j)
    nlinarith
  rw [e, trap_add, trap_mul n (1 / 2) fun _ => 1, trap_mul, trap_cos_theta (by omega) h, trap_one]
  ring

end Verif.Lemmas
