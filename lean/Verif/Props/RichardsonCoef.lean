import Verif.Model.Richardson
import Mathlib.Tactic.LinearCombination
import Mathlib.Tactic.FieldSimp
import Mathlib.Tactic.Positivity

/-!
# The equations that Richardson's coefficients solve
-/

namespace Verif.Props

open Verif Verif.Model.Py

/-- The equations between the coefficients that come from the three equations of motion, one for each order, multiple of the angle, and product of the amplitudes. -/
structure RichRel (R : Rich) : Prop where
  x11 : R.lam ^ 2 - 2 * R.k * R.lam + 1 + 2 * R.c2 = 0
  y11 : R.k * (R.lam ^ 2 + 1 - R.c2) - 2 * R.lam = 0
  x20a : -(1 + 2 * R.c2) * R.a21 = 3 / 2 * R.c3 * (1 - R.k ^ 2 / 2)
  x20b : -(1 + 2 * R.c2) * R.a22 = -(3 / 4) * R.c3
  x22a : -(4 * R.lam ^ 2 + 1 + 2 * R.c2) * R.a23 - 4 * R.lam * R.b21 = 3 / 2 * R.c3 * (1 + R.k ^ 2 / 2)
  x22b : (4 * R.lam ^ 2 + 1 + 2 * R.c2) * R.a24 + 4 * R.lam * R.b22 = -(3 / 4) * R.c3
  y22a : -(4 * R.lam ^ 2 + 1 - R.c2) * R.b21 - 4 * R.lam * R.a23 = 3 / 2 * R.c3 * R.k
  y22b : (4 * R.lam ^ 2 + 1 - R.c2) * R.b22 + 4 * R.lam * R.a24 = 0
  z2 : -3 * R.lam ^ 2 * R.d21 = 3 / 2 * R.c3
  x33a : -(9 * R.lam ^ 2 + 1 + 2 * R.c2) * R.a31 - 6 * R.lam * R.b31 = -(1 / 2) * (3 * R.c3 * (2 * R.a23 - R.k * R.b21) + R.c4 * (2 + 3 * R.k ^ 2))
  y33a : -(9 * R.lam ^ 2 + 1 - R.c2) * R.b31 - 6 * R.lam * R.a31 = -(3 / 8) * (4 * R.c3 * (R.k * R.a23 - R.b21) + R.k * R.c4 * (4 + R.k ^ 2))
  x33b : (9 * R.lam ^ 2 + 1 + 2 * R.c2) * R.a32 + 6 * R.lam * R.b32 = -(3 / 2) * (R.c3 * (R.k * R.b22 + R.d21 - 2 * R.a24) - R.c4)
  y33b : (9 * R.lam ^ 2 + 1 - R.c2) * R.b32 + 6 * R.lam * R.a32 = 3 / 8 * (4 * R.c3 * (R.k * R.a24 - R.b22) + R.k * R.c4)
  z33a : -8 * R.lam ^ 2 * R.d32 = -(3 / 8) * (4 * R.c3 * (R.a23 - R.d21) + R.c4 * (4 + R.k ^ 2))
  z33b : 8 * R.lam ^ 2 * R.d31 = 3 / 8 * (4 * R.c3 * R.a24 + R.c4)
  y31a : (R.c2 - 1 - R.lam ^ 2) * R.b33 - 2 * R.lam * R.s1 * (R.lam * R.k - 1)
    = 3 / 2 * R.c3 * (R.b21 - 2 * R.k * R.a21 + R.k * R.a23) + 3 / 8 * R.c4 * R.k * (3 * R.k ^ 2 - 4)
  y31b : (R.c2 - 1 - R.lam ^ 2) * (R.b34 - R.b35) - 2 * R.lam * R.s2 * (R.lam * R.k - 1)
    = -3 * R.c3 * R.k * R.a22 + 3 / 4 * R.c4 * R.k - 3 / 2 * R.c3 * (R.b22 + R.k * R.a24) - 3 / 8 * R.c4 * R.k
  x31a : 2 * R.lam ^ 2 * R.s1 - 2 * R.lam * R.b33 - 2 * R.lam * R.k * R.s1 = 3 / 2 * R.c3 * (2 * R.a21 * (-2) - 2 * R.a23 - R.k * R.b21) + 2 * R.c4 * (-(3 / 2) + 3 / 4 * R.k ^ 2)
  x31b : 2 * R.lam ^ 2 * R.s2 - 2 * R.lam * (R.b34 - R.b35) - 2 * R.lam * R.k * R.s2 = 3 / 2 * R.c3 * (2 * R.a22 * (-2) + 2 * R.a24 + R.k * R.b22 + 5 * R.d21) + 9 / 2 * R.c4
  l1 : R.l1 - 2 * R.lam ^ 2 * R.s1 = -(3 / 2) * R.c3 * (2 * R.a21 + R.a23 + 5 * R.d21) - 3 / 8 * R.c4 * (12 - R.k ^ 2)
  l2 : R.l2 - 2 * R.lam ^ 2 * R.s2 = 3 / 2 * R.c3 * (R.a24 - 2 * R.a22) + 9 / 8 * R.c4

theorem lambda_facts {lam c2 : ℝ} (hc : 1 < c2) (h : lam ^ 4 + (c2 - 2) * lam ^ 2 - (c2 - 1) * (1 + 2 * c2) = 0) :
    1 < lam ^ 2 ∧ 0 < lam ^ 2 + 1 - c2 := by
  constructor
  · by_contra hn
    nlinarith [sq_nonneg lam, mul_nonneg (sub_nonneg.2 (not_lt.1 hn)) (sq_nonneg lam)]
  · by_contra hn
    nlinarith [sq_nonneg lam, mul_nonneg (by linarith : 0 ≤ c2 - 1 - lam ^ 2) (sq_nonneg lam)]

theorem rich_nonzero {lam c2 k : ℝ} (hL : 1 < lam ^ 2) (hc : 1 < c2) (hkl : k * lam = (lam ^ 2 + 1 + 2 * c2) / 2) :
    k * (6 * lam ^ 2 - 1) - 2 * lam ≠ 0 ∧ k * (11 * lam ^ 2 - 1) - 2 * lam ≠ 0 ∧ lam * (1 + k ^ 2) - 2 * k ≠ 0 := by
  refine ⟨fun h0 => ?_, fun h0 => ?_, fun h0 => ?_⟩
  · have : (k * lam) * (6 * lam ^ 2 - 1) - 2 * lam ^ 2 = 0 := by linear_combination lam * h0
    rw [hkl] at this
    nlinarith [mul_pos (sub_pos.2 hL) (sub_pos.2 hc)]
  · have : (k * lam) * (11 * lam ^ 2 - 1) - 2 * lam ^ 2 = 0 := by linear_combination lam * h0
    rw [hkl] at this
    nlinarith [mul_pos (sub_pos.2 hL) (sub_pos.2 hc)]
  · have : lam ^ 2 + (k * lam) ^ 2 - 2 * (k * lam) = 0 := by linear_combination lam * h0
    nlinarith [sq_nonneg (k * lam - 1)]

set_option maxHeartbeats 1000000 in
theorem richCoef_rel {lam c2 : ℝ} (c3 c4 : ℝ) (hc : 1 < c2) (h : lam ^ 4 + (c2 - 2) * lam ^ 2 - (c2 - 1) * (1 + 2 * c2) = 0) :
    RichRel (richCoef lam c2 c3 c4) := by
  obtain ⟨hL, hM⟩ := lambda_facts hc h
  have hl0 : lam ≠ 0 := by rintro rfl; norm_num at hL
  have hk : (richCoef lam c2 c3 c4).k = 2 * lam / (lam ^ 2 + 1 - c2) := rfl
  have hlam : (richCoef lam c2 c3 c4).lam = lam := rfl
  have hc2 : (richCoef lam c2 c3 c4).c2 = c2 := rfl
  have hc3 : (richCoef lam c2 c3 c4).c3 = c3 := rfl
  have hc4 : (richCoef lam c2 c3 c4).c4 = c4 := rfl
  set R := richCoef lam c2 c3 c4 with hR
  have d1 : R.d1 = ((3 * lam ^ 2) / R.k) * (R.k * (6 * lam ^ 2 - 1) - 2 * lam) := rfl
  have d2 : R.d2 = ((8 * lam ^ 2) / R.k) * (R.k * (11 * lam ^ 2 - 1) - 2 * lam) := rfl
  have a21 : R.a21 = (3 * c3 * (R.k ^ 2 - 2)) / (4 * (1 + 2 * c2)) := rfl
  have a22 : R.a22 = 3 * c3 / (4 * (1 + 2 * c2)) := rfl
  have a23 : R.a23 = -(3 * c3 * lam / (4 * R.k * R.d1)) * (3 * (R.k ^ 3) * lam - 6 * R.k * (R.k - lam) + 4) := rfl
  have a24 : R.a24 = -(3 * c3 * lam / (4 * R.k * R.d1)) * (2 + 3 * R.k * lam) := rfl
  have b21 : R.b21 = -(3 * c3 * lam / (2 * R.d1)) * (3 * R.k * lam - 4) := rfl
  have b22 : R.b22 = 3 * c3 * lam / R.d1 := rfl
  have d21 : R.d21 = -c3 / (2 * lam ^ 2) := rfl
  have a31 : R.a31 = -(9 * lam / (4 * R.d2)) * (4 * c3 * (R.k * R.a23 - R.b21) + R.k * c4 * (4 + R.k ^ 2)) + ((9 * lam ^ 2 + 1 - c2) / (2 * R.d2)) * (3 * c3 * (2 * R.a23 - R.k * R.b21) + c4 * (2 + 3 * R.k ^ 2)) := rfl
  have a32 : R.a32 = -(1 / R.d2) * ((9 * lam / 4) * (4 * c3 * (R.k * R.a24 - R.b22) + R.k * c4) + 1.5 * (9 * lam ^ 2 + 1 - c2) * (c3 * (R.k * R.b22 + R.d21 - 2 * R.a24) - c4)) := rfl
  have b31 : R.b31 = (0.375 / R.d2) * (8 * lam * (3 * c3 * (R.k * R.b21 - 2 * R.a23) - c4 * (2 + 3 * R.k ^ 2)) + (9 * lam ^ 2 + 1 + 2 * c2) * (4 * c3 * (R.k * R.a23 - R.b21) + R.k * c4 * (4 + R.k ^ 2))) := rfl
  have b32 : R.b32 = (1 / R.d2) * (9 * lam * (c3 * (R.k * R.b22 + R.d21 - 2 * R.a24) - c4) + 0.375 * (9 * lam ^ 2 + 1 + 2 * c2) * (4 * c3 * (R.k * R.a24 - R.b22) + R.k * c4)) := rfl
  have d31 : R.d31 = (3 / (64 * lam ^ 2)) * (4 * c3 * R.a24 + c4) := rfl
  have d32 : R.d32 = (3 / (64 * lam ^ 2)) * (4 * c3 * (R.a23 - R.d21) + c4 * (4 + R.k ^ 2)) := rfl
  have s1 : R.s1 = (1 / (2 * lam * (lam * (1 + R.k ^ 2) - 2 * R.k))) * (1.5 * c3 * (2 * R.a21 * (R.k ^ 2 - 2) - R.a23 * (R.k ^ 2 + 2) - 2 * R.k * R.b21) - 0.375 * c4 * (3 * R.k ^ 4 - 8 * R.k ^ 2 + 8)) := rfl
  have s2 : R.s2 = (1 / (2 * lam * (lam * (1 + R.k ^ 2) - 2 * R.k))) * (1.5 * c3 * (2 * R.a22 * (R.k ^ 2 - 2) + R.a24 * (R.k ^ 2 + 2) + 2 * R.k * R.b22 + 5 * R.d21) + 0.375 * c4 * (12 - R.k ^ 2)) := rfl
  have l1 : R.l1 = (-1.5 * c3 * (2 * R.a21 + R.a23 + 5 * R.d21) - 0.375 * c4 * (12 - R.k ^ 2)) + 2 * (lam ^ 2) * R.s1 := rfl
  have l2 : R.l2 = (1.5 * c3 * (R.a24 - 2 * R.a22) + 1.125 * c4) + 2 * (lam ^ 2) * R.s2 := rfl
  have b33 : R.b33 = -R.k / (16 * lam) * (12 * c3 * (R.b21 - 2 * R.k * R.a21 + R.k * R.a23) + 3 * c4 * R.k * (3 * R.k ^ 2 - 4) + 16 * R.s1 * lam * (lam * R.k - 1)) := rfl
  have b34 : R.b34 = -R.k / (8 * lam) * (-12 * c3 * R.k * R.a22 + 3 * c4 * R.k + 8 * R.s2 * lam * (lam * R.k - 1)) := rfl
  have b35 : R.b35 = -R.k / (16 * lam) * (12 * c3 * (R.b22 + R.k * R.a24) + 3 * c4 * R.k) := rfl
  clear_value R
  have y11 : R.k * (lam ^ 2 + 1 - c2) - 2 * lam = 0 := by rw [hk]; field_simp; ring
  have x11 : lam ^ 2 - 2 * R.k * lam + 1 + 2 * c2 = 0 := by
    rw [hk]; field_simp; linear_combination h
  have hk0 : R.k ≠ 0 := by rw [hk]; exact div_ne_zero (mul_ne_zero two_ne_zero hl0) hM.ne'
  have hkl : R.k * lam = (lam ^ 2 + 1 + 2 * c2) / 2 := by linear_combination -(1 / 2) * x11
  obtain ⟨hA1, hA2, hD⟩ := rich_nonzero hL hc hkl
  have h12 : 1 + 2 * c2 ≠ 0 := by linarith
  have hd1 : R.d1 ≠ 0 := by rw [d1]; exact mul_ne_zero (div_ne_zero (by positivity) hk0) hA1
  have hd2 : R.d2 ≠ 0 := by rw [d2]; exact mul_ne_zero (div_ne_zero (by positivity) hk0) hA2
  have w1 : R.k⁻¹ * R.d1⁻¹ * (3 * lam ^ 2 * (R.k * (6 * lam ^ 2 - 1) - 2 * lam)) = 1 := by
    rw [← (by rw [d1]; field_simp : R.k * R.d1 = 3 * lam ^ 2 * (R.k * (6 * lam ^ 2 - 1) - 2 * lam)), ← mul_inv]
    exact inv_mul_cancel₀ (mul_ne_zero hk0 hd1)
  have k1 : R.k⁻¹ * R.k = 1 := inv_mul_cancel₀ hk0
  have a23' : R.a23 = c3 * (R.k⁻¹ * R.d1⁻¹) * (-(3 / 4) * lam * (3 * R.k ^ 3 * lam - 6 * R.k * (R.k - lam) + 4)) := by rw [a23]; ring
  have a24' : R.a24 = c3 * (R.k⁻¹ * R.d1⁻¹) * (-(3 / 4) * lam * (2 + 3 * R.k * lam)) := by rw [a24]; ring
  have b21' : R.b21 = c3 * (R.k⁻¹ * R.d1⁻¹) * (-(3 / 2) * lam * (3 * R.k * lam - 4) * R.k) := by rw [b21]; field_simp
  have b22' : R.b22 = c3 * (R.k⁻¹ * R.d1⁻¹) * (3 * lam * R.k) := by rw [b22]; field_simp
  generalize R.k⁻¹ * R.d1⁻¹ = W at w1 a23' a24' b21' b22'
  have m1 : lam⁻¹ * lam = 1 := inv_mul_cancel₀ hl0
  have hdet : R.d2 = (9 * lam ^ 2 + 1 + 2 * c2) * (9 * lam ^ 2 + 1 - c2) - 36 * lam ^ 2 := by
    have : R.k * R.d2 = 8 * lam ^ 2 * (R.k * (11 * lam ^ 2 - 1) - 2 * lam) := by rw [d2]; field_simp
    refine mul_left_cancel₀ hk0 ?_
    linear_combination this - ((-1)*c2*R.k + (1)*R.k + (1)*R.k*lam^2) * x11 - ((2)*R.k*lam + (-8)*lam^2) * y11
  have w2 : R.d2⁻¹ * ((9 * lam ^ 2 + 1 + 2 * c2) * (9 * lam ^ 2 + 1 - c2) - 36 * lam ^ 2) = 1 := by rw [← hdet]; exact inv_mul_cancel₀ hd2
  have hs1 : 2 * lam * R.s1 * (lam * (1 + R.k ^ 2) - 2 * R.k)
      = 1.5 * c3 * (2 * R.a21 * (R.k ^ 2 - 2) - R.a23 * (R.k ^ 2 + 2) - 2 * R.k * R.b21) - 0.375 * c4 * (3 * R.k ^ 4 - 8 * R.k ^ 2 + 8) := by
    rw [s1]; field_simp
  have hs2 : 2 * lam * R.s2 * (lam * (1 + R.k ^ 2) - 2 * R.k)
      = 1.5 * c3 * (2 * R.a22 * (R.k ^ 2 - 2) + R.a24 * (R.k ^ 2 + 2) + 2 * R.k * R.b22 + 5 * R.d21) + 0.375 * c4 * (12 - R.k ^ 2) := by
    rw [s2]; field_simp
  have hb33 : 16 * lam * R.b33 = -R.k * (12 * c3 * (R.b21 - 2 * R.k * R.a21 + R.k * R.a23) + 3 * c4 * R.k * (3 * R.k ^ 2 - 4) + 16 * R.s1 * lam * (lam * R.k - 1)) := by
    rw [b33]; field_simp
  have hb34 : 8 * lam * R.b34 = -R.k * (-12 * c3 * R.k * R.a22 + 3 * c4 * R.k + 8 * R.s2 * lam * (lam * R.k - 1)) := by
    rw [b34]; field_simp
  have hb35 : 16 * lam * R.b35 = -R.k * (12 * c3 * (R.b22 + R.k * R.a24) + 3 * c4 * R.k) := by
    rw [b35]; field_simp
  have hkM : R.k * (c2 - 1 - lam ^ 2) = -2 * lam := by linear_combination -y11
  constructor <;> simp only [hlam, hc2, hc3, hc4]
  · exact x11
  · exact y11
  · rw [a21]; field_simp; ring
  · rw [a22]; field_simp
  · rw [a23', b21']
    linear_combination c3 * W * ((-9/2)*R.k^2*lam + (3)*lam) * x11 + c3 * W * ((-9/2)*R.k^2*lam^2 + (-9)*lam^2) * y11
      + 3 / 2 * c3 * (1 + R.k ^ 2 / 2) * w1
  · rw [a24', b22']
    linear_combination c3 * W * ((-3/2)*lam) * x11 + c3 * W * ((9/2)*lam^2) * y11 - 3 / 4 * c3 * w1
  · rw [a23', b21']
    linear_combination c3 * W * ((-9/2)*R.k^2*lam^2) * x11 + c3 * W * ((-9/2)*R.k*lam^2 + (-6)*lam) * y11 + 3 / 2 * c3 * R.k * w1
  · rw [a24', b22']
    linear_combination c3 * W * (3 * lam) * y11
  · rw [d21]; field_simp
  · rw [a31, b31]
    linear_combination -(1 / 2) * (3 * c3 * (2 * R.a23 - R.k * R.b21) + c4 * (2 + 3 * R.k ^ 2)) * w2
  · rw [a31, b31]
    linear_combination -(3 / 8) * (4 * c3 * (R.k * R.a23 - R.b21) + R.k * c4 * (4 + R.k ^ 2)) * w2
  · rw [a32, b32]
    linear_combination -(3 / 2) * (c3 * (R.k * R.b22 + R.d21 - 2 * R.a24) - c4) * w2
  · rw [a32, b32]
    linear_combination (3 / 8) * (4 * c3 * (R.k * R.a24 - R.b22) + R.k * c4) * w2
  · rw [d32]; field_simp
    ring
  · rw [d31]; field_simp
    ring
  · refine mul_left_cancel₀ (mul_ne_zero (by norm_num : (16 : ℝ) ≠ 0) hl0) ?_
    linear_combination (c2 - 1 - lam ^ 2) * hb33 - (12 * c3 * (R.b21 - 2 * R.k * R.a21 + R.k * R.a23) + 3 * c4 * R.k * (3 * R.k ^ 2 - 4) + 16 * R.s1 * lam * (lam * R.k - 1)) * hkM
  · refine mul_left_cancel₀ (mul_ne_zero (by norm_num : (16 : ℝ) ≠ 0) hl0) ?_
    linear_combination (c2 - 1 - lam ^ 2) * (2 * hb34 - hb35)
      - (2 * (-12 * c3 * R.k * R.a22 + 3 * c4 * R.k + 8 * R.s2 * lam * (lam * R.k - 1)) - (12 * c3 * (R.b22 + R.k * R.a24) + 3 * c4 * R.k)) * hkM
  · linear_combination -(1 / 8) * hb33 + hs1
  · linear_combination -(1 / 8) * (2 * hb34 - hb35) + hs2
  · rw [l1]; ring
  · rw [l2]; ring

end Verif.Props
