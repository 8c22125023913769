import Verif.Model.StartSet
import Mathlib.Analysis.SpecialFunctions.Complex.Arg
import Mathlib.Tactic.Linarith
import Mathlib.Tactic.FieldSimp

/-!
# C118: the random starts of the landing programs
-/

namespace Verif.Props

open Verif.Model.StartSet

theorem ellipse_pos (θ : ℝ) : 0 < (1000 : ℝ) ^ 2 * Real.sin θ ^ 2 + 500 ^ 2 * Real.cos θ ^ 2 := by
  nlinarith [Real.sin_sq_add_cos_sq θ, sq_nonneg (Real.sin θ), sq_nonneg (Real.cos θ)]

/-- The square of the distance from the centre in the norm of the ellipse. -/
noncomputable def ellipseSq (p : ℝ × ℝ × ℝ) : ℝ := ((p.1 + 2000) / 1000) ^ 2 + (p.2.1 / 500) ^ 2

/-- **C118, the positions.** In the norm of the ellipse with half axes 1000 and 500 about the point 2000 up-range the distance is the number drawn; so the start
is inside the ellipse, at a height from 1400 up to 1500. -/
theorem C118_positions (w1 w2 w3 : ℝ) : ellipseSq (R0 w1 w2 w3) = w2 ^ 2 ∧
    (0 ≤ w2 → w2 < 1 → ellipseSq (R0 w1 w2 w3) < 1) ∧ (0 ≤ w3 → w3 < 1 → 1400 ≤ (R0 w1 w2 w3).2.2 ∧ (R0 w1 w2 w3).2.2 < 1500) := by
  have e : ellipseSq (R0 w1 w2 w3) = w2 ^ 2 := by
    unfold ellipseSq R0 radius
    dsimp only
    set θ := 2 * Real.pi * w1
    have hp := ellipse_pos θ
    set q := (1000 : ℝ) ^ 2 * Real.sin θ ^ 2 + 500 ^ 2 * Real.cos θ ^ 2 with hq
    have hs : Real.sqrt q ≠ 0 := (Real.sqrt_pos.2 hp).ne'
    have h2 : Real.sqrt q ^ 2 = q := Real.sq_sqrt hp.le
    have : ((-2000 + w2 * (1000 * 500) / √q * Real.cos θ + 2000) / 1000) ^ 2 + ((0 + w2 * (1000 * 500) / √q * Real.sin θ) / 500) ^ 2 =
        w2 ^ 2 * (500 ^ 2 * Real.cos θ ^ 2 + 1000 ^ 2 * Real.sin θ ^ 2) / √q ^ 2 := by
      field_simp
      ring
    rw [this, h2, show (500 : ℝ) ^ 2 * Real.cos θ ^ 2 + 1000 ^ 2 * Real.sin θ ^ 2 = q by rw [hq]; ring, mul_div_assoc, div_self hp.ne', mul_one]
  refine ⟨e, fun h0 h1 => ?_, fun h0 h1 => ?_⟩
  · rw [e]
    nlinarith
  · unfold R0
    constructor <;> dsimp only <;> linarith

/-- **C118, every position.** Each point inside the ellipse at such a height is a start, for some numbers in `[0, 1)`. -/
theorem C118_every_position (p : ℝ × ℝ × ℝ) (hp : ellipseSq p < 1) (h1 : 1400 ≤ p.2.2) (h2 : p.2.2 < 1500) :
    ∃ w1 w2 w3 : ℝ, (0 ≤ w1 ∧ w1 < 1) ∧ (0 ≤ w2 ∧ w2 < 1) ∧ (0 ≤ w3 ∧ w3 < 1) ∧ R0 w1 w2 w3 = p := by
  obtain ⟨x, y, h⟩ := p
  dsimp only at h1 h2
  have hpi := Real.pi_pos
  obtain ⟨ρ, θ, hρ, hθ0, hθ1, hc, hs⟩ : ∃ ρ θ : ℝ, 0 ≤ ρ ∧ 0 ≤ θ ∧ θ < 2 * Real.pi ∧ ρ * Real.cos θ = x + 2000 ∧ ρ * Real.sin θ = y := by
    have ec := Complex.norm_mul_cos_arg ⟨x + 2000, y⟩
    have es := Complex.norm_mul_sin_arg ⟨x + 2000, y⟩
    have hlo := Complex.neg_pi_lt_arg ⟨x + 2000, y⟩
    have hhi := Complex.arg_le_pi ⟨x + 2000, y⟩
    dsimp only at ec es
    rcases le_or_gt 0 (Complex.arg ⟨x + 2000, y⟩) with h0 | h0
    · exact ⟨_, _, norm_nonneg _, h0, by linarith, ec, es⟩
    · exact ⟨_, Complex.arg ⟨x + 2000, y⟩ + 2 * Real.pi, norm_nonneg _, by linarith, by linarith, by rw [Real.cos_add_two_pi]; exact ec,
        by rw [Real.sin_add_two_pi]; exact es⟩
  have hq := ellipse_pos θ
  have hs0 : 0 < √((1000 : ℝ) ^ 2 * Real.sin θ ^ 2 + 500 ^ 2 * Real.cos θ ^ 2) := Real.sqrt_pos.2 hq
  have hw1 : 2 * Real.pi * (θ / (2 * Real.pi)) = θ := by field_simp
  have hR : R0 (θ / (2 * Real.pi)) (ρ * √((1000 : ℝ) ^ 2 * Real.sin θ ^ 2 + 500 ^ 2 * Real.cos θ ^ 2) / (1000 * 500)) ((h - 1400) / 100) = (x, y, h) := by
    unfold R0 radius
    rw [hw1, div_mul_cancel₀ _ (by norm_num), mul_div_cancel_right₀ _ hs0.ne', hc, hs]
    refine Prod.ext ?_ (Prod.ext ?_ ?_) <;> dsimp only <;> ring
  refine ⟨_, _, _, ⟨by positivity, by rw [div_lt_one (by positivity)]; exact hθ1⟩, ⟨by positivity, ?_⟩, ⟨by linarith, by linarith⟩, hR⟩
  have e := (C118_positions (θ / (2 * Real.pi)) (ρ * √((1000 : ℝ) ^ 2 * Real.sin θ ^ 2 + 500 ^ 2 * Real.cos θ ^ 2) / (1000 * 500)) ((h - 1400) / 100)).1
  rw [hR] at e
  rw [e] at hp
  exact (sq_lt_one_iff₀ (by positivity)).1 hp

/-- **C118, the velocities.** The horizontal speed is 100, not away from the target (the first component is at least 0), and the sink rate is from 75 to 85. -/
theorem C118_velocities (w4 w5 : ℝ) (h4 : 0 ≤ w4 ∧ w4 < 1) (h5 : 0 ≤ w5 ∧ w5 < 1) :
    (V0 w4 w5).1 ^ 2 + (V0 w4 w5).2.1 ^ 2 = 100 ^ 2 ∧ 0 ≤ (V0 w4 w5).1 ∧ -85 ≤ (V0 w4 w5).2.2 ∧ (V0 w4 w5).2.2 < -75 := by
  unfold V0
  dsimp only
  refine ⟨?_, ?_, by linarith, by linarith⟩
  · linear_combination 100 ^ 2 * Real.sin_sq_add_cos_sq (Real.pi * w4 - Real.pi / 2)
  · have := Real.pi_pos
    have := Real.cos_nonneg_of_mem_Icc (x := Real.pi * w4 - Real.pi / 2) ⟨by nlinarith, by nlinarith⟩
    linarith

/-! ## Cases -/

/-- Half of the way to the end of the long half axis. -/
example : R0 0 (1 / 2) 0 = (-1500, 0, 1400) := by
  have h : radius 0 (1 / 2) = 500 := by
    unfold radius
    rw [show (1000 : ℝ) ^ 2 * Real.sin (2 * Real.pi * 0) ^ 2 + 500 ^ 2 * Real.cos (2 * Real.pi * 0) ^ 2 = 500 ^ 2 by simp, Real.sqrt_sq (by norm_num)]
    norm_num
  unfold R0
  rw [h]
  norm_num

example : ∃ w1 w2 w3 : ℝ, (0 ≤ w1 ∧ w1 < 1) ∧ (0 ≤ w2 ∧ w2 < 1) ∧ (0 ≤ w3 ∧ w3 < 1) ∧ R0 w1 w2 w3 = (-2300, 200, 1450) :=
  C118_every_position _ (by norm_num [ellipseSq]) (by norm_num) (by norm_num)

example : 0 ≤ (V0 (1 / 4) (1 / 2)).1 := (C118_velocities _ _ (by norm_num) (by norm_num)).2.1

end Verif.Props
