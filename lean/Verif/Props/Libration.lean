import Verif.Model.Libration
import Verif.Spec.Libration
import Mathlib.Topology.Order.IntermediateValue
import Mathlib.Analysis.SpecialFunctions.Sqrt
import Mathlib.Analysis.Complex.Polynomial.Basic

/-!
# The libration points
-/

namespace Verif.Props

open Set Verif.Py Verif.Spec Verif.Model.Py

/-! ## The three quintics -/

/-- The polynomial of the first point. -/
noncomputable def q1 (μ s : ℝ) : ℝ := s ^ 5 - (3 - μ) * s ^ 4 + (3 - 2 * μ) * s ^ 3 - μ * s ^ 2 + 2 * μ * s - μ

/-- The polynomial of the second point. -/
noncomputable def q2 (μ s : ℝ) : ℝ := s ^ 5 + (3 - μ) * s ^ 4 + (3 - 2 * μ) * s ^ 3 - μ * s ^ 2 - 2 * μ * s - μ

/-- The polynomial of the third point. -/
noncomputable def q3 (μ s : ℝ) : ℝ := s ^ 5 + (2 + μ) * s ^ 4 + (1 + 2 * μ) * s ^ 3 - (1 - μ) * s ^ 2 - 2 * (1 - μ) * s - (1 - μ)

theorem q1_range {μ s : ℝ} (h0 : 0 < μ) (h1 : μ < 1) (h : q1 μ s = 0) : 0 < s ∧ s < 1 := by
  constructor
  · by_contra hs
    have hs : s ≤ 0 := not_lt.1 hs
    have : q1 μ s < 0 := by
      have e : q1 μ s = s * (s ^ 4 + (3 - 2 * μ) * s ^ 2 + 2 * μ) - (3 - μ) * s ^ 4 - μ * s ^ 2 - μ := by unfold q1; ring
      have a : s * (s ^ 4 + (3 - 2 * μ) * s ^ 2 + 2 * μ) ≤ 0 :=
        mul_nonpos_of_nonpos_of_nonneg hs (by have := mul_nonneg (by linarith : (0 : ℝ) ≤ 3 - 2 * μ) (sq_nonneg s); positivity)
      have b : 0 ≤ (3 - μ) * s ^ 4 := mul_nonneg (by linarith) (by positivity)
      have c : 0 ≤ μ * s ^ 2 := by positivity
      rw [e]
      linarith
    linarith
  · by_contra hs
    have hs : 1 ≤ s := not_lt.1 hs
    have e : q1 μ s = (1 - μ) * (s ^ 3 * (s ^ 2 - 3 * s + 3)) + μ * ((s - 1) ^ 2 * (s ^ 3 - 1)) := by unfold q1; ring
    have a : 0 < s ^ 3 * (s ^ 2 - 3 * s + 3) := mul_pos (by positivity) (by nlinarith [sq_nonneg (s - 3 / 2)])
    have b : 0 ≤ (s - 1) ^ 2 * (s ^ 3 - 1) := mul_nonneg (sq_nonneg _) (by nlinarith [one_le_pow₀ hs (n := 3)])
    have := mul_pos (by linarith : (0 : ℝ) < 1 - μ) a
    have := mul_nonneg h0.le b
    linarith

theorem q2_range {μ s : ℝ} (h0 : 0 < μ) (h1 : μ < 1) (h : q2 μ s = 0) : 0 < s := by
  by_contra hs
  have hs : 0 ≤ -s := by linarith
  obtain ⟨t, ht⟩ : ∃ t, t = -s := ⟨_, rfl⟩
  have hst : s = -t := by linarith
  rw [← ht] at hs
  have e : q2 μ s = -((1 - μ) * (t ^ 3 * (t ^ 2 - 3 * t + 3)) + μ * ((t - 1) ^ 2 * (t ^ 3 + 1))) := by unfold q2; rw [hst]; ring
  have a : 0 ≤ t ^ 3 * (t ^ 2 - 3 * t + 3) := mul_nonneg (by positivity) (by nlinarith [sq_nonneg (t - 3 / 2)])
  have b : 0 ≤ (t - 1) ^ 2 * (t ^ 3 + 1) := by positivity
  have a' := mul_nonneg (by linarith : (0 : ℝ) ≤ 1 - μ) a
  have b' := mul_nonneg h0.le b
  have hb : μ * ((t - 1) ^ 2 * (t ^ 3 + 1)) = 0 := by linarith
  have ha : (1 - μ) * (t ^ 3 * (t ^ 2 - 3 * t + 3)) = 0 := by linarith
  have ht0 : t = 0 := by
    rcases mul_eq_zero.1 ha with h' | h'
    · linarith
    rcases mul_eq_zero.1 h' with h' | h'
    · exact pow_eq_zero_iff (by norm_num) |>.1 h'
    · nlinarith [sq_nonneg (t - 3 / 2)]
  rw [ht0] at hb
  norm_num at hb
  linarith

theorem q3_range {μ s : ℝ} (h0 : 0 < μ) (h1 : μ < 1) (h : q3 μ s = 0) : 0 < s := by
  by_contra hs
  have hs : 0 ≤ -s := by linarith
  obtain ⟨t, ht⟩ : ∃ t, t = -s := ⟨_, rfl⟩
  have hst : s = -t := by linarith
  rw [← ht] at hs
  have e : q3 μ s = -((1 - t) ^ 2 * (t ^ 3 + (1 - μ)) + μ * (t ^ 3 * (2 - t))) := by unfold q3; rw [hst]; ring
  have hp : 0 < (1 - t) ^ 2 * (t ^ 3 + (1 - μ)) + μ * (t ^ 3 * (2 - t)) := by
    rcases le_or_gt t 2 with h2 | h2
    · rcases eq_or_ne t 1 with rfl | hne
      · norm_num
        linarith
      · have a : 0 < (1 - t) ^ 2 * (t ^ 3 + (1 - μ)) := mul_pos (by have := sub_ne_zero.2 hne.symm; positivity) (by have := pow_nonneg hs 3; linarith)
        have b : 0 ≤ μ * (t ^ 3 * (2 - t)) := mul_nonneg h0.le (mul_nonneg (by positivity) (by linarith))
        linarith
    · have a : 0 < t ^ 3 := by positivity
      have b : μ * (t ^ 3 * (t - 2)) ≤ 1 * (t ^ 3 * (t - 2)) := mul_le_mul_of_nonneg_right h1.le (mul_nonneg a.le (by linarith))
      have c : 0 ≤ (1 - t) ^ 2 * (1 - μ) := mul_nonneg (sq_nonneg _) (by linarith)
      have d : 0 < t ^ 3 * ((1 - t) ^ 2 - (t - 2)) := mul_pos a (by nlinarith [sq_nonneg (t - 3 / 2)])
      nlinarith
  linarith

/-- Between the two bodies the force grows away from the point. -/
theorem q1_unique {μ s t : ℝ} (h0 : 0 < μ) (h1 : μ < 1) (hs : q1 μ s = 0) (ht : q1 μ t = 0) : s = t := by
  have key : ∀ {s t : ℝ}, q1 μ s = 0 → q1 μ t = 0 → ¬ s < t := by
    intro s t hs ht hlt
    obtain ⟨s0, s1⟩ := q1_range h0 h1 hs
    obtain ⟨t0, t1⟩ := q1_range h0 h1 ht
    have f : ∀ {r : ℝ}, 0 < r → r < 1 → q1 μ r = 0 → (1 - μ - r) - (1 - μ) / (1 - r) ^ 2 + μ / r ^ 2 = 0 := by
      intro r r0 r1 h
      have n1 : (1 - r) ≠ 0 := by linarith
      have n0 : r ≠ 0 := r0.ne'
      field_simp
      unfold q1 at h
      linear_combination -h
    have fs := f s0 s1 hs
    have ft := f t0 t1 ht
    have a : (1 - μ) / (1 - s) ^ 2 ≤ (1 - μ) / (1 - t) ^ 2 :=
      div_le_div_of_nonneg_left (by linarith) (by have : 0 < 1 - t := by linarith
                                                  positivity) (pow_le_pow_left₀ (by linarith) (by linarith) 2)
    have b : μ / t ^ 2 ≤ μ / s ^ 2 := div_le_div_of_nonneg_left h0.le (by positivity) (pow_le_pow_left₀ s0.le hlt.le 2)
    linarith
  rcases lt_trichotomy s t with h | h | h
  · exact absurd h (key hs ht)
  · exact h
  · exact absurd h (key ht hs)

theorem q2_unique {μ s t : ℝ} (h0 : 0 < μ) (h1 : μ < 1) (hs : q2 μ s = 0) (ht : q2 μ t = 0) : s = t := by
  have key : ∀ {s t : ℝ}, q2 μ s = 0 → q2 μ t = 0 → ¬ s < t := by
    intro s t hs ht hlt
    have s0 := q2_range h0 h1 hs
    have t0 := q2_range h0 h1 ht
    have f : ∀ {r : ℝ}, 0 < r → q2 μ r = 0 → (1 - μ + r) - (1 - μ) / (1 + r) ^ 2 - μ / r ^ 2 = 0 := by
      intro r r0 h
      have n1 : (1 + r) ≠ 0 := by linarith
      have n0 : r ≠ 0 := r0.ne'
      field_simp
      unfold q2 at h
      linear_combination h
    have fs := f s0 hs
    have ft := f t0 ht
    have a : (1 - μ) / (1 + t) ^ 2 ≤ (1 - μ) / (1 + s) ^ 2 :=
      div_le_div_of_nonneg_left (by linarith) (by positivity) (pow_le_pow_left₀ (by linarith) (by linarith) 2)
    have b : μ / t ^ 2 ≤ μ / s ^ 2 := div_le_div_of_nonneg_left h0.le (by positivity) (pow_le_pow_left₀ s0.le hlt.le 2)
    linarith
  rcases lt_trichotomy s t with h | h | h
  · exact absurd h (key hs ht)
  · exact h
  · exact absurd h (key ht hs)

theorem q3_unique {μ s t : ℝ} (h0 : 0 < μ) (h1 : μ < 1) (hs : q3 μ s = 0) (ht : q3 μ t = 0) : s = t := by
  have key : ∀ {s t : ℝ}, q3 μ s = 0 → q3 μ t = 0 → ¬ s < t := by
    intro s t hs ht hlt
    have s0 := q3_range h0 h1 hs
    have t0 := q3_range h0 h1 ht
    have f : ∀ {r : ℝ}, 0 < r → q3 μ r = 0 → -(μ + r) + (1 - μ) / r ^ 2 + μ / (1 + r) ^ 2 = 0 := by
      intro r r0 h
      have n1 : (1 + r) ≠ 0 := by linarith
      have n0 : r ≠ 0 := r0.ne'
      field_simp
      unfold q3 at h
      linear_combination -h
    have fs := f s0 hs
    have ft := f t0 ht
    have a : μ / (1 + t) ^ 2 ≤ μ / (1 + s) ^ 2 :=
      div_le_div_of_nonneg_left h0.le (by positivity) (pow_le_pow_left₀ (by linarith) (by linarith) 2)
    have b : (1 - μ) / t ^ 2 ≤ (1 - μ) / s ^ 2 :=
      div_le_div_of_nonneg_left (by linarith) (by positivity) (pow_le_pow_left₀ s0.le hlt.le 2)
    linarith
  rcases lt_trichotomy s t with h | h | h
  · exact absurd h (key hs ht)
  · exact h
  · exact absurd h (key ht hs)

theorem q1_exists {μ : ℝ} (h0 : 0 < μ) (h1 : μ < 1) : ∃ s, q1 μ s = 0 := by
  have hc : ContinuousOn (q1 μ) (Icc 0 1) := by unfold q1; fun_prop
  obtain ⟨s, -, hs⟩ := intermediate_value_Icc (by norm_num : (0 : ℝ) ≤ 1) hc (show (0 : ℝ) ∈ Icc (q1 μ 0) (q1 μ 1) by
    constructor <;> (unfold q1; norm_num; linarith))
  exact ⟨s, hs⟩

theorem q2_exists {μ : ℝ} (h0 : 0 < μ) (h1 : μ < 1) : ∃ s, q2 μ s = 0 := by
  have hc : ContinuousOn (q2 μ) (Icc 0 2) := by unfold q2; fun_prop
  obtain ⟨s, -, hs⟩ := intermediate_value_Icc (by norm_num : (0 : ℝ) ≤ 2) hc (show (0 : ℝ) ∈ Icc (q2 μ 0) (q2 μ 2) by
    constructor <;> (unfold q2; norm_num; linarith))
  exact ⟨s, hs⟩

theorem q3_exists {μ : ℝ} (h0 : 0 < μ) (h1 : μ < 1) : ∃ s, q3 μ s = 0 := by
  have hc : ContinuousOn (q3 μ) (Icc 0 2) := by unfold q3; fun_prop
  obtain ⟨s, -, hs⟩ := intermediate_value_Icc (by norm_num : (0 : ℝ) ≤ 2) hc (show (0 : ℝ) ∈ Icc (q3 μ 0) (q3 μ 2) by
    constructor <;> (unfold q3; norm_num; linarith))
  exact ⟨s, hs⟩

/-! ## The five points -/

theorem sqrt_sq_two (a : ℝ) : Real.sqrt (a ^ 2 + 0 ^ 2 + 0 ^ 2) = |a| := by
  rw [show a ^ 2 + 0 ^ 2 + 0 ^ 2 = a ^ 2 by ring, Real.sqrt_sq_eq_abs]

/-- On the axis. -/
theorem axis_equilibrium {μ : ℝ} (x : ℝ) : Equilibrium μ ![x, 0, 0] ↔
    x + μ ≠ 0 ∧ x - (1 - μ) ≠ 0 ∧ x - (1 - μ) * (x + μ) / |x + μ| ^ 3 - μ * (x - (1 - μ)) / |x - (1 - μ)| ^ 3 = 0 := by
  unfold Equilibrium
  have d1 : dist1 μ ![x, 0, 0] = |x + μ| := by
    unfold dist1
    simp only [Matrix.cons_val_zero, Matrix.cons_val_one, Matrix.cons_val]
    exact sqrt_sq_two _
  have d2 : dist2 μ ![x, 0, 0] = |x - (1 - μ)| := by
    unfold dist2
    simp only [Matrix.cons_val_zero, Matrix.cons_val_one, Matrix.cons_val]
    exact sqrt_sq_two _
  rw [d1, d2, abs_ne_zero, abs_ne_zero]
  refine and_congr_right fun _ => and_congr_right fun _ => ?_
  constructor
  · intro h
    have := h 0
    unfold acceleration at this
    rw [d1, d2] at this
    simp only [Matrix.cons_val_zero, mul_zero, zero_add, sub_neg_eq_add] at this
    exact this
  · intro h i
    unfold acceleration
    rw [d1, d2]
    fin_cases i
    · simp only [Fin.zero_eta, Matrix.cons_val_zero, mul_zero, zero_add, sub_neg_eq_add]
      exact h
    · simp
    · simp

/-- **C107**: the points on the axis where the third body can rest are the three given by the quintics. -/
theorem axis_points {μ : ℝ} (h0 : 0 < μ) (h1 : μ < 1) {g1 g2 g3 : ℝ} (hg1 : q1 μ g1 = 0) (hg2 : q2 μ g2 = 0) (hg3 : q3 μ g3 = 0) (x : ℝ) :
    Equilibrium μ ![x, 0, 0] ↔ x = 1 - μ - g1 ∨ x = 1 - μ + g2 ∨ x = -μ - g3 := by
  rw [axis_equilibrium]
  constructor
  · rintro ⟨n1, n2, h⟩
    rcases lt_or_gt_of_ne n1 with a | a
    · right; right
      have b : x - (1 - μ) < 0 := by linarith
      rw [abs_of_neg a, abs_of_neg b] at h
      have : q3 μ (-μ - x) = 0 := by
        field_simp at h
        unfold q3
        linear_combination -h
      linarith [q3_unique h0 h1 this hg3]
    · rcases lt_or_gt_of_ne n2 with b | b
      · left
        rw [abs_of_pos a, abs_of_neg b] at h
        have : q1 μ (1 - μ - x) = 0 := by
          field_simp at h
          unfold q1
          linear_combination -h
        linarith [q1_unique h0 h1 this hg1]
      · right; left
        rw [abs_of_pos a, abs_of_pos b] at h
        have : q2 μ (x - (1 - μ)) = 0 := by
          field_simp at h
          unfold q2
          linear_combination h
        linarith [q2_unique h0 h1 this hg2]
  · rintro (rfl | rfl | rfl)
    · obtain ⟨a, b⟩ := q1_range h0 h1 hg1
      have n0 : g1 ≠ 0 := a.ne'
      have n1 : 1 - g1 ≠ 0 := by linarith
      refine ⟨by rw [show 1 - μ - g1 + μ = 1 - g1 by ring]; exact n1, by rw [show 1 - μ - g1 - (1 - μ) = -g1 by ring]; exact neg_ne_zero.2 n0, ?_⟩
      rw [show 1 - μ - g1 + μ = 1 - g1 by ring, show 1 - μ - g1 - (1 - μ) = -g1 by ring, abs_neg, abs_of_pos a, abs_of_pos (by linarith)]
      field_simp
      unfold q1 at hg1
      linear_combination -hg1
    · have a := q2_range h0 h1 hg2
      have n0 : g2 ≠ 0 := a.ne'
      have n1 : 1 + g2 ≠ 0 := by linarith
      refine ⟨by rw [show 1 - μ + g2 + μ = 1 + g2 by ring]; exact n1, by rw [show 1 - μ + g2 - (1 - μ) = g2 by ring]; exact n0, ?_⟩
      rw [show 1 - μ + g2 + μ = 1 + g2 by ring, show 1 - μ + g2 - (1 - μ) = g2 by ring, abs_of_pos a, abs_of_pos (by linarith)]
      field_simp
      unfold q2 at hg2
      linear_combination hg2
    · have a := q3_range h0 h1 hg3
      have n0 : g3 ≠ 0 := a.ne'
      have n1 : 1 + g3 ≠ 0 := by linarith
      refine ⟨by rw [show -μ - g3 + μ = -g3 by ring]; exact neg_ne_zero.2 n0, by rw [show -μ - g3 - (1 - μ) = -(1 + g3) by ring]; exact neg_ne_zero.2 n1, ?_⟩
      rw [show -μ - g3 + μ = -g3 by ring, show -μ - g3 - (1 - μ) = -(1 + g3) by ring, abs_neg, abs_neg, abs_of_pos a, abs_of_pos (by linarith)]
      field_simp
      unfold q3 at hg3
      linear_combination -hg3

theorem cube_one {d : ℝ} (h : d ^ 3 = 1) : d = 1 := by
  have : (d - 1) * (d ^ 2 + d + 1) = 0 := by linear_combination h
  rcases mul_eq_zero.1 this with h' | h'
  · linarith
  · nlinarith [sq_nonneg (d + 1 / 2)]

/-- Off the axis. -/
theorem corner_points {μ : ℝ} (h0 : 0 < μ) (h1 : μ < 1) {p : Fin 3 → ℝ} (hp : p 1 ≠ 0 ∨ p 2 ≠ 0) :
    Equilibrium μ p ↔ p = ![1 / 2 - μ, Real.sqrt 3 / 2, 0] ∨ p = ![1 / 2 - μ, -(Real.sqrt 3 / 2), 0] := by
  have hs3 : (Real.sqrt 3 / 2) ^ 2 = 3 / 4 := by
    rw [div_pow, Real.sq_sqrt (by norm_num)]
    norm_num
  constructor
  · rintro ⟨n1, n2, h⟩
    have p1 : 0 < dist1 μ p := lt_of_le_of_ne (Real.sqrt_nonneg _) n1.symm
    have p2 : 0 < dist2 μ p := lt_of_le_of_ne (Real.sqrt_nonneg _) n2.symm
    have e0 := h 0
    have e1 := h 1
    have e2 := h 2
    unfold acceleration at e0 e1 e2
    simp only [Matrix.cons_val_zero, Matrix.cons_val_one, Matrix.cons_val, mul_zero, neg_zero, zero_add, sub_zero, sub_neg_eq_add, zero_sub] at e0 e1 e2
    have hA : 0 < (1 - μ) / dist1 μ p ^ 3 := div_pos (by linarith) (by positivity)
    have hB : 0 < μ / dist2 μ p ^ 3 := div_pos h0 (by positivity)
    obtain ⟨A, hAe⟩ : ∃ A, A = (1 - μ) / dist1 μ p ^ 3 := ⟨_, rfl⟩
    obtain ⟨B, hBe⟩ : ∃ B, B = μ / dist2 μ p ^ 3 := ⟨_, rfl⟩
    rw [mul_div_right_comm, mul_div_right_comm μ, ← hAe, ← hBe] at e0 e1 e2
    rw [← hAe] at hA
    rw [← hBe] at hB
    have z0 : p 2 = 0 := by
      have : (A + B) * p 2 = 0 := by linear_combination -e2
      rcases mul_eq_zero.1 this with h' | h'
      · linarith
      · exact h'
    have y0 : p 1 ≠ 0 := hp.resolve_right fun h => h z0
    have hAB : A + B = 1 := by
      have : (1 - A - B) * p 1 = 0 := by linear_combination e1
      rcases mul_eq_zero.1 this with h' | h'
      · linarith
      · exact absurd h' y0
    have hB1 : B = μ := by linear_combination e0 - (p 0 + μ) * (1 - hAB)
    have hA1 : A = 1 - μ := by linarith
    have d2 : dist2 μ p = 1 := by
      apply cube_one
      rw [hB1, eq_div_iff (by positivity)] at hBe
      exact mul_left_cancel₀ h0.ne' (by linarith)
    have d1 : dist1 μ p = 1 := by
      apply cube_one
      rw [hA1, eq_div_iff (by positivity)] at hAe
      exact mul_left_cancel₀ (by linarith : (1 - μ) ≠ 0) (by linarith)
    unfold dist1 at d1
    unfold dist2 at d2
    rw [Real.sqrt_eq_one, z0] at d1 d2
    have hx : p 0 = 1 / 2 - μ := by linear_combination (d1 - d2) / 2
    have hy : p 1 ^ 2 = (Real.sqrt 3 / 2) ^ 2 := by
      rw [hs3]
      rw [hx] at d1
      linear_combination d1
    rcases sq_eq_sq_iff_eq_or_eq_neg.1 hy with h' | h'
    · left
      funext i
      fin_cases i
      · exact hx
      · exact h'
      · exact z0
    · right
      funext i
      fin_cases i
      · exact hx
      · exact h'
      · exact z0
  · have key : ∀ y : ℝ, y ^ 2 = 3 / 4 → Equilibrium μ ![1 / 2 - μ, y, 0] := by
      intro y hy
      have d1 : dist1 μ ![1 / 2 - μ, y, 0] = 1 := by
        unfold dist1
        rw [Real.sqrt_eq_one]
        simp only [Matrix.cons_val_zero, Matrix.cons_val_one, Matrix.cons_val]
        rw [hy]
        ring
      have d2 : dist2 μ ![1 / 2 - μ, y, 0] = 1 := by
        unfold dist2
        rw [Real.sqrt_eq_one]
        simp only [Matrix.cons_val_zero, Matrix.cons_val_one, Matrix.cons_val]
        rw [hy]
        ring
      refine ⟨by rw [d1]; norm_num, by rw [d2]; norm_num, fun i => ?_⟩
      unfold acceleration
      rw [d1, d2]
      fin_cases i
      · simp only [Fin.zero_eta, Matrix.cons_val_zero]
        ring
      · simp only [Fin.mk_one, Matrix.cons_val_one, Matrix.cons_val_zero]
        ring
      · simp
    rintro (rfl | rfl)
    · exact key _ hs3
    · exact key _ (by rw [neg_sq, hs3])

/-- All points where the third body can rest. -/
theorem five_points {μ : ℝ} (h0 : 0 < μ) (h1 : μ < 1) {g1 g2 g3 : ℝ} (hg1 : q1 μ g1 = 0) (hg2 : q2 μ g2 = 0) (hg3 : q3 μ g3 = 0) (p : Fin 3 → ℝ) :
    Equilibrium μ p ↔ p = ![1 - μ - g1, 0, 0] ∨ p = ![1 - μ + g2, 0, 0] ∨ p = ![-μ - g3, 0, 0] ∨ p = ![1 / 2 - μ, Real.sqrt 3 / 2, 0] ∨
      p = ![1 / 2 - μ, -(Real.sqrt 3 / 2), 0] := by
  have hs : Real.sqrt 3 ≠ 0 := (Real.sqrt_pos.2 (by norm_num)).ne'
  by_cases hp : p 1 ≠ 0 ∨ p 2 ≠ 0
  · rw [corner_points h0 h1 hp]
    constructor
    · rintro (h | h)
      · exact Or.inr (Or.inr (Or.inr (Or.inl h)))
      · exact Or.inr (Or.inr (Or.inr (Or.inr h)))
    · rintro (rfl | rfl | rfl | h | h)
      · simp at hp
      · simp at hp
      · simp at hp
      · exact Or.inl h
      · exact Or.inr h
  · have hp' : p 1 = 0 ∧ p 2 = 0 := by
      constructor
      · by_contra h; exact hp (Or.inl h)
      · by_contra h; exact hp (Or.inr h)
    have e : p = ![p 0, 0, 0] := by
      funext i
      fin_cases i
      · rfl
      · exact hp'.1
      · exact hp'.2
    have inj : ∀ a : ℝ, p = ![a, 0, 0] ↔ p 0 = a := fun a => ⟨fun h => by rw [h]; rfl, fun h => by rw [← h]; exact e⟩
    rw [inj, inj, inj, e, axis_points h0 h1 hg1 hg2 hg3]
    constructor
    · rintro (h | h | h)
      · exact Or.inl h
      · exact Or.inr (Or.inl h)
      · exact Or.inr (Or.inr (Or.inl h))
    · rintro (h | h | h | h | h)
      · exact Or.inl h
      · exact Or.inr (Or.inl h)
      · exact Or.inr (Or.inr h)
      · have := congrFun h 1
        simp only [Matrix.cons_val_one, Matrix.cons_val_zero] at this
        exact absurd (by linarith) hs
      · have := congrFun h 1
        simp only [Matrix.cons_val_one, Matrix.cons_val_zero] at this
        exact absurd (by linarith) hs

/-! ## `gammaL` -/

theorem lastReal_fold (rt : List ℂ) (g : ℝ) : ∀ (is : List ℕ) (a : ℝ), (∀ i ∈ is, i < rt.length) → (∀ r ∈ rt, r.im = 0 → r.re = g) →
    (a = g ∨ ∃ i ∈ is, ∃ r, rt[i]? = some r ∧ r.im = 0) →
    is.foldlM (fun g i => match rt[i]? with
      | none => (.error .indexError : Except Err ℝ)
      | some r => .ok (if r.im = 0 then r.re else g)) a = .ok g
  | [], a, _, _, h => by
    rcases h with h | ⟨i, hi, -⟩
    · rw [h]; rfl
    · cases hi
  | i :: is, a, hl, hg, h => by
    have hi := hl i (by simp)
    simp only [List.foldlM_cons, List.getElem?_eq_getElem hi, bind, Except.bind]
    apply lastReal_fold rt g is _ (fun j hj => hl j (by simp [hj])) hg
    by_cases hr : rt[i].im = 0
    · rw [if_pos hr]
      exact Or.inl (hg _ (List.getElem_mem hi) hr)
    · rw [if_neg hr]
      rcases h with h | ⟨j, hj, r, e, hr'⟩
      · exact Or.inl h
      · rcases List.mem_cons.1 hj with rfl | hj
        · rw [List.getElem?_eq_getElem hi] at e
          cases e
          exact absurd hr' hr
        · exact Or.inr ⟨j, hj, r, e, hr'⟩

/-- The loop finds the only real root. -/
theorem lastReal_root {roots : List ℝ → List ℂ} (hR : RootsCorrect roots) {l : List ℝ} (hl : l.length = 5) {q : ℝ → ℝ}
    (hq : ∀ s : ℝ, polyAt (1 :: l) (s : ℂ) = (q s : ℂ)) {g : ℝ} (hg : q g = 0) (hu : ∀ s, q s = 0 → s = g) :
    lastReal (roots (1 :: l)) = .ok g := by
  obtain ⟨h1, h2⟩ := hR l
  unfold lastReal
  apply lastReal_fold
  · intro i hi
    rw [h1, hl]
    exact List.mem_range.1 hi
  · intro r hr hr0
    apply hu
    have e : ((r.re : ℝ) : ℂ) = r := by
      apply Complex.ext <;> simp [hr0]
    have : ((q r.re : ℝ) : ℂ) = 0 := by
      rw [← hq, e, h2]
      exact List.prod_eq_zero (List.mem_map.2 ⟨r, hr, sub_self r⟩)
    exact_mod_cast this
  · right
    have : ((roots (1 :: l)).map fun r => (g : ℂ) - r).prod = 0 := by rw [← h2, hq, hg]; simp
    obtain ⟨r, hr, e⟩ := List.mem_map.1 (List.prod_eq_zero_iff.1 this)
    obtain ⟨i, hi, e2⟩ := List.getElem_of_mem hr
    refine ⟨i, List.mem_range.2 (by omega), r, by rw [List.getElem?_eq_getElem hi, e2], ?_⟩
    rw [← sub_eq_zero.1 e]
    simp

/-- What `gammaL` returns. -/
theorem gammaL_value {roots : List ℝ → List ℂ} (hR : RootsCorrect roots) {mu : ℝ} (h0 : 0 < mu) (h1 : mu < 1) :
    ∃ g1 g2 g3 : ℝ, q1 mu g1 = 0 ∧ q2 mu g2 = 0 ∧ q3 mu g3 = 0 ∧ ∀ L : ℤ, gammaL roots mu L =
      if L - 1 = 0 ∨ L - 1 = -3 then .ok g1 else if L - 1 = 1 ∨ L - 1 = -2 then .ok g2 else if L - 1 = 2 ∨ L - 1 = -1 then .ok g3
      else .error .indexError := by
  obtain ⟨g1, hg1⟩ := q1_exists h0 h1
  obtain ⟨g2, hg2⟩ := q2_exists h0 h1
  obtain ⟨g3, hg3⟩ := q3_exists h0 h1
  have r1 : lastReal (roots (gammaPoly1 mu)) = .ok g1 := lastReal_root hR rfl (q := q1 mu) (fun s => by
    simp only [polyAt, List.foldl_cons, List.foldl_nil, q1]; push_cast; ring) hg1 fun s hs => q1_unique h0 h1 hs hg1
  have r2 : lastReal (roots (gammaPoly2 mu)) = .ok g2 := lastReal_root hR rfl (q := q2 mu) (fun s => by
    simp only [polyAt, List.foldl_cons, List.foldl_nil, q2]; push_cast; ring) hg2 fun s hs => q2_unique h0 h1 hs hg2
  have r3 : lastReal (roots (gammaPoly3 mu)) = .ok g3 := lastReal_root hR rfl (q := q3 mu) (fun s => by
    simp only [polyAt, List.foldl_cons, List.foldl_nil, q3]; push_cast; ring) hg3 fun s hs => q3_unique h0 h1 hs hg3
  refine ⟨g1, g2, g3, hg1, hg2, hg3, fun L => ?_⟩
  unfold gammaL
  simp only [r1, r2, r3, bind, Except.bind]
  rfl

/-- **C107, the libration points.** With the roots of `np.roots`, `gammaL` returns for `Lpt` 1, 2, 3 the distances of three points from the nearest body:
these three points, and the two that form an equilateral triangle with the bodies, are all the points where the third body can rest. -/
theorem C107_gammaL {roots : List ℝ → List ℂ} (hR : RootsCorrect roots) {mu : ℝ} (h0 : 0 < mu) (h1 : mu < 1) :
    ∃ g1 g2 g3 : ℝ, gammaL roots mu 1 = .ok g1 ∧ gammaL roots mu 2 = .ok g2 ∧ gammaL roots mu 3 = .ok g3 ∧ 0 < g1 ∧ g1 < 1 ∧ 0 < g2 ∧ 0 < g3 ∧
      ∀ p, Equilibrium mu p ↔ p = ![1 - mu - g1, 0, 0] ∨ p = ![1 - mu + g2, 0, 0] ∨ p = ![-mu - g3, 0, 0] ∨ p = ![1 / 2 - mu, Real.sqrt 3 / 2, 0] ∨
        p = ![1 / 2 - mu, -(Real.sqrt 3 / 2), 0] := by
  obtain ⟨g1, g2, g3, hg1, hg2, hg3, h⟩ := gammaL_value hR h0 h1
  obtain ⟨a, b⟩ := q1_range h0 h1 hg1
  exact ⟨g1, g2, g3, h 1, h 2, h 3, a, b, q2_range h0 h1 hg2, q3_range h0 h1 hg3, five_points h0 h1 hg1 hg2 hg3⟩

/-- `gammaL` takes 0, -1 and -2 for points as well, and stops for any other number. -/
theorem C107_index {roots : List ℝ → List ℂ} (hR : RootsCorrect roots) {mu : ℝ} (h0 : 0 < mu) (h1 : mu < 1) :
    gammaL roots mu 0 = gammaL roots mu 3 ∧ gammaL roots mu (-1) = gammaL roots mu 2 ∧ gammaL roots mu (-2) = gammaL roots mu 1 ∧
    ∀ L : ℤ, L < -2 ∨ 3 < L → gammaL roots mu L = .error .indexError := by
  refine ⟨rfl, rfl, rfl, fun L hL => ?_⟩
  obtain ⟨g1, g2, g3, -, -, -, h⟩ := gammaL_value hR h0 h1
  rw [h, if_neg (by omega), if_neg (by omega), if_neg (by omega)]

open Polynomial in
theorem horner_monic : ∀ (l : List ℝ) (A : ℂ[X]), A.Monic → ∃ P : ℂ[X], P.Monic ∧ P.natDegree = A.natDegree + l.length ∧
    ∀ z, P.eval z = l.foldl (fun (acc : ℂ) (a : ℝ) => acc * z + (a : ℂ)) (A.eval z)
  | [], A, hA => ⟨A, hA, by simp, fun z => by simp⟩
  | a :: l, A, hA => by
    have hd : degree (C (a : ℂ)) < degree (A * X) := by
      rw [degree_mul_X]
      refine lt_of_le_of_lt degree_C_le ?_
      rw [degree_eq_natDegree hA.ne_zero]
      exact_mod_cast Nat.succ_pos _
    obtain ⟨P, h1, h2, h3⟩ := horner_monic l (A * X + C (a : ℂ)) ((hA.mul monic_X).add_of_left hd)
    refine ⟨P, h1, ?_, fun z => ?_⟩
    · rw [h2, natDegree_add_eq_left_of_degree_lt hd, natDegree_mul_X hA.ne_zero, List.length_cons]
      omega
    · rw [h3]
      simp

/-- There are such functions: over the complex numbers every polynomial splits. -/
theorem roots_exist : ∃ roots, RootsCorrect roots := by
  have key : ∀ l : List ℝ, ∃ rs : List ℂ, rs.length = l.length ∧ ∀ z : ℂ, polyAt (1 :: l) z = (rs.map fun r => z - r).prod := by
    intro l
    obtain ⟨P, h1, h2, h3⟩ := horner_monic l 1 Polynomial.monic_one
    have hs := IsAlgClosed.splits P
    refine ⟨P.roots.toList, ?_, fun z => ?_⟩
    · rw [Multiset.length_toList, ← hs.natDegree_eq_card_roots, h2]
      simp
    · have e : polyAt (1 :: l) z = P.eval z := by
        rw [h3]
        simp [polyAt]
      rw [e, hs.eval_eq_prod_roots_of_monic h1, ← Multiset.prod_coe, ← Multiset.map_coe, Multiset.coe_toList]
  choose f hf using key
  refine ⟨fun l => f l.tail, fun l => hf l⟩

/-! ## `Lagrange` and `getL1L2` -/

/-- **C107, `Lagrange`.** If `fsolve` finds zeros, the columns of the result are exactly the five points where the third body can rest. -/
theorem C107_lagrange {solve : (ℝ → ℝ) → ℝ → ℝ} (hs : ZeroFinder solve) {mu : ℝ} (h0 : 0 < mu) (h1 : mu < 1) (p : Fin 3 → ℝ) :
    Equilibrium mu p ↔ ∃ c ∈ lagrange solve mu, p = ![c.1, c.2, 0] := by
  obtain ⟨g1, hg1⟩ := q1_exists h0 h1
  obtain ⟨g2, hg2⟩ := q2_exists h0 h1
  obtain ⟨g3, hg3⟩ := q3_exists h0 h1
  have e1 : ∀ x, lagFun1 mu x = -q1 mu (1 - mu - x) := fun x => by unfold lagFun1 q1; ring
  have e2 : ∀ x, lagFun2 mu x = -q2 mu (x - (1 - mu)) := fun x => by unfold lagFun2 q2; ring
  have e3 : ∀ x, lagFun3 mu x = -q3 mu (-mu - x) := fun x => by unfold lagFun3 q3; ring
  have s1 : solve (lagFun1 mu) 0 = 1 - mu - g1 := by
    have := hs (lagFun1 mu) 0 ⟨1 - mu - g1, by rw [e1, sub_sub_cancel, hg1, neg_zero]⟩
    rw [e1, neg_eq_zero] at this
    linarith [q1_unique h0 h1 this hg1]
  have s2 : solve (lagFun2 mu) 0 = 1 - mu + g2 := by
    have := hs (lagFun2 mu) 0 ⟨1 - mu + g2, by rw [e2, add_sub_cancel_left, hg2, neg_zero]⟩
    rw [e2, neg_eq_zero] at this
    linarith [q2_unique h0 h1 this hg2]
  have s3 : solve (lagFun3 mu) (-1) = -mu - g3 := by
    have := hs (lagFun3 mu) (-1) ⟨-mu - g3, by rw [e3, sub_sub_cancel, hg3, neg_zero]⟩
    rw [e3, neg_eq_zero] at this
    linarith [q3_unique h0 h1 this hg3]
  rw [five_points h0 h1 hg1 hg2 hg3]
  unfold lagrange
  rw [s1, s2, s3]
  have e5 : (0.5 : ℝ) = 1 / 2 := by norm_num
  simp only [List.mem_cons, List.not_mem_nil, or_false, exists_eq_or_imp, exists_eq_left, e5, neg_div]

/-- `getL1L2` does not return the libration points. -/
theorem C107_getL1L2_fails : (0 : ℝ) < 3 / 8 ∧ (3 / 8 : ℝ) < 1 ∧ ¬ Equilibrium (3 / 8) ![(getL1L2 (3 / 8)).1, 0, 0] ∧
    ¬ Equilibrium (3 / 8) ![(getL1L2 (3 / 8)).2, 0, 0] := by
  have h : ((3 / 8 : ℝ) / 3) ^ ((1 : ℝ) / 3) = 1 / 2 := by
    rw [show ((3 / 8 : ℝ) / 3) = (1 / 2) ^ (3 : ℕ) by norm_num, ← Real.rpow_natCast, ← Real.rpow_mul (by norm_num)]
    norm_num
  have h1 : (getL1L2 (3 / 8)).1 = 1 / 2 := by unfold getL1L2; simp only; rw [h]; norm_num
  have h2 : (getL1L2 (3 / 8)).2 = 3 / 2 := by unfold getL1L2; simp only; rw [h]; norm_num
  refine ⟨by norm_num, by norm_num, ?_, ?_⟩
  · rw [h1, axis_equilibrium]
    rintro ⟨-, -, h⟩
    rw [abs_of_pos (by norm_num), abs_of_neg (by norm_num)] at h
    norm_num at h
  · rw [h2, axis_equilibrium]
    rintro ⟨-, -, h⟩
    rw [abs_of_pos (by norm_num), abs_of_pos (by norm_num)] at h
    norm_num at h

/-- **C107**: what `getL1L2` returns is right to first order for small masses: the cubes of the distances to the second body differ from `μ/3` by at most a
multiple of `μ` times the distance. -/
theorem C107_getL1L2_partial {roots : List ℝ → List ℂ} (hR : RootsCorrect roots) {mu : ℝ} (h0 : 0 < mu) (h1 : mu < 1) {g1 g2 : ℝ}
    (hL1 : gammaL roots mu 1 = .ok g1) (hL2 : gammaL roots mu 2 = .ok g2) :
    (1 - (getL1L2 mu).1) ^ 3 = mu / 3 ∧ ((getL1L2 mu).2 - 1) ^ 3 = mu / 3 ∧ |g1 ^ 3 - mu / 3| ≤ 2 * mu * g1 ∧ |g2 ^ 3 - mu / 3| ≤ 2 * mu * g2 := by
  obtain ⟨hg1, hg2⟩ : q1 mu g1 = 0 ∧ q2 mu g2 = 0 := by
    obtain ⟨a1, a2, a3, e1, e2, -, h⟩ := gammaL_value hR h0 h1
    have b1 := hL1.symm.trans (h 1)
    have b2 := hL2.symm.trans (h 2)
    simp only [Int.reduceSub, Int.reduceNeg, true_or, if_true, zero_ne_one, Int.reduceEq, or_false, if_false, one_ne_zero] at b1 b2
    cases b1
    cases b2
    exact ⟨e1, e2⟩
  have h : ((mu / 3) ^ ((1 : ℝ) / 3)) ^ 3 = mu / 3 := by
    rw [← Real.rpow_natCast, ← Real.rpow_mul (by positivity)]
    norm_num
  obtain ⟨a, b⟩ := q1_range h0 h1 hg1
  have c := q2_range h0 h1 hg2
  refine ⟨by unfold getL1L2; simp only; rw [sub_sub_cancel, h], by unfold getL1L2; simp only; rw [add_sub_cancel_left, h], ?_, ?_⟩
  · have e : (g1 ^ 3 - mu / 3) * (g1 ^ 2 - 3 * g1 + 3) = mu * g1 * ((-3 + 2 * g1 + 6 * g1 ^ 2 - 3 * g1 ^ 3) / 3) := by
      unfold q1 at hg1
      linear_combination hg1
    have d : 3 / 4 ≤ g1 ^ 2 - 3 * g1 + 3 := by nlinarith [sq_nonneg (g1 - 3 / 2)]
    have f1 : 0 ≤ g1 * (2 + 6 * g1 - 3 * g1 ^ 2) := mul_nonneg a.le (by nlinarith)
    have f2 : -3 + 2 * g1 + 6 * g1 ^ 2 - 3 * g1 ^ 3 ≤ 3 := by nlinarith [mul_nonneg a.le (sub_nonneg.2 b.le), mul_nonneg (sq_nonneg g1) (sub_nonneg.2 b.le)]
    have m : 0 < mu * g1 := mul_pos h0 a
    rw [abs_le]
    constructor
    · by_contra hlt
      have hlt : g1 ^ 3 - mu / 3 < -(2 * mu * g1) := not_le.1 hlt
      nlinarith [mul_le_mul_of_nonneg_left d (by linarith : 0 ≤ -(g1 ^ 3 - mu / 3))]
    · by_contra hlt
      have hlt : 2 * mu * g1 < g1 ^ 3 - mu / 3 := not_le.1 hlt
      nlinarith [mul_le_mul_of_nonneg_left d (by linarith : 0 ≤ g1 ^ 3 - mu / 3)]
  · have e : (g2 ^ 3 - mu / 3) * (g2 ^ 2 + 3 * g2 + 3) = mu * g2 * (g2 ^ 3 + 2 * g2 ^ 2 + 2 / 3 * g2 + 1) := by
      unfold q2 at hg2
      linear_combination hg2
    have hle : g2 < 1 := by
      by_contra hs
      have hs : 1 ≤ g2 := not_lt.1 hs
      have e' : q2 mu g2 = (1 - mu) * (g2 ^ 3 * (g2 ^ 2 + 3 * g2 + 3)) + mu * ((g2 + 1) ^ 2 * (g2 ^ 3 - 1)) := by unfold q2; ring
      have x : 0 < (1 - mu) * (g2 ^ 3 * (g2 ^ 2 + 3 * g2 + 3)) := mul_pos (by linarith) (by positivity)
      have y : 0 ≤ mu * ((g2 + 1) ^ 2 * (g2 ^ 3 - 1)) := mul_nonneg h0.le (mul_nonneg (sq_nonneg _) (by linarith [one_le_pow₀ hs (n := 3)]))
      linarith
    have m : 0 < mu * g2 := mul_pos h0 c
    have D : 3 ≤ g2 ^ 2 + 3 * g2 + 3 := by nlinarith
    have F : g2 ^ 3 + 2 * g2 ^ 2 + 2 / 3 * g2 + 1 ≤ 5 := by nlinarith [mul_nonneg c.le (sub_nonneg.2 hle.le), mul_nonneg (sq_nonneg g2) (sub_nonneg.2 hle.le)]
    have G : 0 < g2 ^ 3 + 2 * g2 ^ 2 + 2 / 3 * g2 + 1 := by positivity
    rw [abs_le]
    constructor
    · by_contra hlt
      have hlt : g2 ^ 3 - mu / 3 < -(2 * mu * g2) := not_le.1 hlt
      nlinarith [mul_pos m G, mul_le_mul_of_nonneg_left D (by linarith : 0 ≤ -(g2 ^ 3 - mu / 3))]
    · by_contra hlt
      have hlt : 2 * mu * g2 < g2 ^ 3 - mu / 3 := not_le.1 hlt
      nlinarith [mul_le_mul_of_nonneg_left F m.le, mul_le_mul_of_nonneg_left D (by linarith : 0 ≤ g2 ^ 3 - mu / 3)]

/-- There are functions of both kinds, so the hypotheses can be met: for the masses of earth and moon, for example. -/
example : ∃ roots g1 g2 g3, RootsCorrect roots ∧ gammaL roots 0.01215 1 = .ok g1 ∧ gammaL roots 0.01215 2 = .ok g2 ∧ gammaL roots 0.01215 3 = .ok g3 ∧
    Equilibrium 0.01215 ![1 - 0.01215 - g1, 0, 0] := by
  obtain ⟨roots, hR⟩ := roots_exist
  obtain ⟨g1, g2, g3, e1, e2, e3, -, -, -, -, h⟩ := C107_gammaL hR (mu := 0.01215) (by norm_num) (by norm_num)
  exact ⟨roots, g1, g2, g3, hR, e1, e2, e3, (h _).2 (Or.inl rfl)⟩

open Classical in
example : ∃ solve, ZeroFinder solve :=
  ⟨fun f _ => if h : ∃ r, f r = 0 then h.choose else 0, fun f _ h => by simp only [dif_pos h]; exact h.choose_spec⟩

end Verif.Props
