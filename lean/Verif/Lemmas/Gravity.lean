import Verif.Spec.ThreeBody
import Mathlib.Analysis.Normed.Group.Bounded
import Mathlib.Topology.Order.Compact
import Mathlib.Topology.Algebra.Polynomial
import Mathlib.Analysis.SpecialFunctions.Pow.Real
import Mathlib.Tactic.LinearCombination
import Mathlib.Tactic.FunProp

/-!
# The attraction of the two bodies near a point of the axis, to the third order
-/

namespace Verif.Lemmas

open Set Verif Verif.Spec

/-- The first terms of `(1 + h) ^ (-3/2)`. -/
noncomputable def binomHead (h : ℝ) : ℝ := 1 - 3 / 2 * h + 15 / 8 * h ^ 2 - 35 / 16 * h ^ 3

theorem binom_head {h : ℝ} (hh : |h| ≤ 1 / 4) : |1 / Real.sqrt (1 + h) ^ 3 - binomHead h| ≤ 100 * h ^ 4 := by
  obtain ⟨h1, h2⟩ := abs_le.1 hh
  have hp : 0 < 1 + h := by linarith
  set r := Real.sqrt (1 + h) with hr
  have hr0 : 0 < r := Real.sqrt_pos.2 hp
  have hr2 : r ^ 2 = 1 + h := Real.sq_sqrt hp.le
  set w := 1 / r ^ 3 with hw
  have hw0 : 0 < w := by positivity
  have hw2 : w ^ 2 * (1 + h) ^ 3 = 1 := by rw [hw, ← hr2]; field_simp
  have hP : 1 / 2 ≤ binomHead h := by
    unfold binomHead
    nlinarith [mul_nonneg (sub_nonneg.2 h2) (sq_nonneg h), sq_nonneg h, sq_nonneg (h - 1 / 4), mul_nonneg (sub_nonneg.2 h2) (sub_nonneg.2 h2)]
  have hid : (w - binomHead h) * ((w + binomHead h) * (1 + h) ^ 3)
      = -(h ^ 4 * (-315 / 64 - 63 / 32 * h + 105 / 256 * h ^ 2 - 45 / 256 * h ^ 3 + 1575 / 256 * h ^ 4 + 1225 / 256 * h ^ 5)) := by
    have : binomHead h ^ 2 * (1 + h) ^ 3 = 1 + h ^ 4 * (-315 / 64 - 63 / 32 * h + 105 / 256 * h ^ 2 - 45 / 256 * h ^ 3 + 1575 / 256 * h ^ 4 + 1225 / 256 * h ^ 5) := by
      unfold binomHead; ring
    linear_combination hw2 - this
  have hc : 1 / 8 ≤ (w + binomHead h) * (1 + h) ^ 3 := by
    have h3 : (3 / 4 : ℝ) ^ 3 ≤ (1 + h) ^ 3 := pow_le_pow_left₀ (by norm_num) (by linarith) 3
    have h4 : (1 / 2 : ℝ) ≤ w + binomHead h := by linarith
    calc (1 / 8 : ℝ) ≤ 1 / 2 * (3 / 4) ^ 3 := by norm_num
      _ ≤ _ := mul_le_mul h4 h3 (by norm_num) (by linarith)
  have hq : |(-315 / 64 - 63 / 32 * h + 105 / 256 * h ^ 2 - 45 / 256 * h ^ 3 + 1575 / 256 * h ^ 4 + 1225 / 256 * h ^ 5 : ℝ)| ≤ 12 := by
    have e2 : |h| ^ 2 ≤ 1 := pow_le_one₀ (abs_nonneg _) (by linarith)
    have e3 : |h| ^ 3 ≤ 1 / 8 := (pow_le_pow_left₀ (abs_nonneg _) hh 3).trans (by norm_num)
    have e4 : |h| ^ 4 ≤ 1 / 8 := (pow_le_pow_left₀ (abs_nonneg _) hh 4).trans (by norm_num)
    have e5 : |h| ^ 5 ≤ 1 / 8 := (pow_le_pow_left₀ (abs_nonneg _) hh 5).trans (by norm_num)
    rw [← abs_pow] at e2 e3 e4 e5
    have := abs_le.1 e2; have := abs_le.1 e3; have := abs_le.1 e4; have := abs_le.1 e5
    rw [abs_le]; constructor <;> linarith
  have habs := congrArg abs hid
  rw [abs_neg, abs_mul (w - binomHead h), abs_mul (h ^ 4), abs_of_pos (lt_of_lt_of_le (by norm_num) hc), abs_of_nonneg (by positivity : (0 : ℝ) ≤ h ^ 4)] at habs
  have h4 : (0 : ℝ) ≤ h ^ 4 := by positivity
  nlinarith [mul_le_mul_of_nonneg_left hc (abs_nonneg (w - binomHead h)), mul_le_mul_of_nonneg_left hq h4]

/-- The terms of order four and more of the attraction along the axis. -/
noncomputable def gravRestX (e a b d : ℝ) : ℝ :=
  (45 / 2) * a * b ^ 2 * d ^ 2 * e + (105 / 16) * a * b ^ 2 * d ^ 4 * e ^ 3 + (105 / 16) * a * b ^ 4 * d ^ 2 * e ^ 3 + (45 / 4) * a * b ^ 4 * e + (35 / 16) * a * b ^ 6 * e ^ 3 + (45 / 4) * a * d ^ 4 * e + (35 / 16) * a * d ^ 6 * e ^ 3 + (-15) * a ^ 2 * b ^ 2 + (-315 / 8) * a ^ 2 * b ^ 2 * d ^ 2 * e ^ 2 + (-315 / 16) * a ^ 2 * b ^ 4 * e ^ 2 + (-15) * a ^ 2 * d ^ 2 + (-315 / 16) * a ^ 2 * d ^ 4 * e ^ 2 + (105 / 8) * a ^ 3 * b ^ 2 * d ^ 2 * e ^ 3 + (195 / 4) * a ^ 3 * b ^ 2 * e + (105 / 16) * a ^ 3 * b ^ 4 * e ^ 3 + (195 / 4) * a ^ 3 * d ^ 2 * e + (105 / 16) * a ^ 3 * d ^ 4 * e ^ 3 + (-275 / 8) * a ^ 4 + (-525 / 16) * a ^ 4 * b ^ 2 * e ^ 2 + (-525 / 16) * a ^ 4 * d ^ 2 * e ^ 2 + (105 / 16) * a ^ 5 * b ^ 2 * e ^ 3 + (105 / 16) * a ^ 5 * d ^ 2 * e ^ 3 + (75 / 2) * a ^ 5 * e + (-245 / 16) * a ^ 6 * e ^ 2 + (35 / 16) * a ^ 7 * e ^ 3 + (15 / 4) * b ^ 2 * d ^ 2 + (-105 / 16) * b ^ 2 * d ^ 4 * e ^ 2 + (15 / 8) * b ^ 4 + (-105 / 16) * b ^ 4 * d ^ 2 * e ^ 2 + (-35 / 16) * b ^ 6 * e ^ 2 + (15 / 8) * d ^ 4 + (-35 / 16) * d ^ 6 * e ^ 2

/-- The terms of order four and more of the attraction across the axis. -/
noncomputable def gravRestY (e a b d : ℝ) : ℝ :=
  (-15 / 2) * a * b * d ^ 2 + (105 / 8) * a * b * d ^ 4 * e ^ 2 + (-15 / 2) * a * b ^ 3 + (105 / 4) * a * b ^ 3 * d ^ 2 * e ^ 2 + (105 / 8) * a * b ^ 5 * e ^ 2 + (-45 / 2) * a ^ 2 * b * d ^ 2 * e + (-105 / 16) * a ^ 2 * b * d ^ 4 * e ^ 3 + (-105 / 8) * a ^ 2 * b ^ 3 * d ^ 2 * e ^ 3 + (-45 / 2) * a ^ 2 * b ^ 3 * e + (-105 / 16) * a ^ 2 * b ^ 5 * e ^ 3 + (10) * a ^ 3 * b + (105 / 4) * a ^ 3 * b * d ^ 2 * e ^ 2 + (105 / 4) * a ^ 3 * b ^ 3 * e ^ 2 + (-105 / 16) * a ^ 4 * b * d ^ 2 * e ^ 3 + (-195 / 8) * a ^ 4 * b * e + (-105 / 16) * a ^ 4 * b ^ 3 * e ^ 3 + (105 / 8) * a ^ 5 * b * e ^ 2 + (-35 / 16) * a ^ 6 * b * e ^ 3 + (15 / 8) * b * d ^ 4 * e + (-35 / 16) * b * d ^ 6 * e ^ 3 + (15 / 4) * b ^ 3 * d ^ 2 * e + (-105 / 16) * b ^ 3 * d ^ 4 * e ^ 3 + (-105 / 16) * b ^ 5 * d ^ 2 * e ^ 3 + (15 / 8) * b ^ 5 * e + (-35 / 16) * b ^ 7 * e ^ 3

theorem bounded_on_box (f : ℝ × ℝ × ℝ × ℝ → ℝ) (hf : Continuous f) :
    ∃ C : ℝ, 0 ≤ C ∧ ∀ a b c d : ℝ, |a| ≤ 1 → |b| ≤ 1 → |c| ≤ 1 → |d| ≤ 1 → |f (a, b, c, d)| ≤ C := by
  obtain ⟨C, hC⟩ := (isCompact_Icc (a := ((-1, -1, -1, -1) : ℝ × ℝ × ℝ × ℝ)) (b := (1, 1, 1, 1))).exists_bound_of_continuousOn hf.continuousOn
  refine ⟨C, ?_, fun a b c d ha hb hc hd => ?_⟩
  · exact (norm_nonneg _).trans (hC (0, 0, 0, 0) (by simp [Prod.le_def, mem_Icc]))
  · refine (Real.norm_eq_abs _).symm.le.trans (hC _ ?_)
    have := abs_le.1 ha; have := abs_le.1 hb; have := abs_le.1 hc; have := abs_le.1 hd
    refine ⟨⟨?_, ?_, ?_, ?_⟩, ⟨?_, ?_, ?_, ?_⟩⟩ <;> simp only [] <;> linarith

/-- The attraction of a body at `(1, 0, 0)` on a point near the origin. -/
theorem grav_expand : ∃ C : ℝ, 0 ≤ C ∧ ∀ e x y z : ℝ, e ≤ 1 / 16 → |x| ≤ e → |y| ≤ e → |z| ≤ e →
    |(1 - x) / Real.sqrt ((1 - x) ^ 2 + y ^ 2 + z ^ 2) ^ 3 - (1 + 2 * x + 3 / 2 * (2 * x ^ 2 - y ^ 2 - z ^ 2) + 2 * x * (2 * x ^ 2 - 3 * y ^ 2 - 3 * z ^ 2))| ≤ C * e ^ 4 ∧
    |y / Real.sqrt ((1 - x) ^ 2 + y ^ 2 + z ^ 2) ^ 3 - (y + 3 * x * y + 3 / 2 * y * (4 * x ^ 2 - y ^ 2 - z ^ 2))| ≤ C * e ^ 4 ∧
    |z / Real.sqrt ((1 - x) ^ 2 + y ^ 2 + z ^ 2) ^ 3 - (z + 3 * x * z + 3 / 2 * z * (4 * x ^ 2 - y ^ 2 - z ^ 2))| ≤ C * e ^ 4 := by
  obtain ⟨CX, hX0, hX⟩ := bounded_on_box (fun q => gravRestX q.1 q.2.1 q.2.2.1 q.2.2.2) (by unfold gravRestX; fun_prop)
  obtain ⟨CY, hY0, hY⟩ := bounded_on_box (fun q => gravRestY q.1 q.2.1 q.2.2.1 q.2.2.2) (by unfold gravRestY; fun_prop)
  refine ⟨CX + CY + 2 * (100 * 81 * 81), by positivity, fun e x y z he hx hy hz => ?_⟩
  have he0 : 0 ≤ e := (abs_nonneg x).trans hx
  -- the three numbers as multiples of `e`
  have scale : ∀ x : ℝ, |x| ≤ e → ∃ a : ℝ, |a| ≤ 1 ∧ x = e * a := by
    intro x hx
    rcases he0.eq_or_lt with h | h
    · exact ⟨0, by simp, by rw [← h] at hx; rw [abs_nonpos_iff.1 hx]; simp⟩
    · exact ⟨x / e, by rw [abs_div, abs_of_pos h]; exact (div_le_one h).2 hx, by field_simp⟩
  obtain ⟨a, ha, rfl⟩ := scale x hx
  obtain ⟨b, hb, rfl⟩ := scale y hy
  obtain ⟨d, hd, rfl⟩ := scale z hz
  have hea : |e| ≤ 1 := by rw [abs_of_nonneg he0]; linarith
  set x := e * a with hxe
  set y := e * b with hye
  set z := e * d with hze
  have hx' := abs_le.1 hx; have hy' := abs_le.1 hy; have hz' := abs_le.1 hz
  have hx2 : x ^ 2 ≤ e * e := by rw [← sq_abs, sq]; exact mul_le_mul hx hx (abs_nonneg _) he0
  have hy2 : y ^ 2 ≤ e * e := by rw [← sq_abs, sq]; exact mul_le_mul hy hy (abs_nonneg _) he0
  have hz2 : z ^ 2 ≤ e * e := by rw [← sq_abs, sq]; exact mul_le_mul hz hz (abs_nonneg _) he0
  have hee : e * e ≤ e / 16 := by nlinarith
  set h := -2 * x + x ^ 2 + y ^ 2 + z ^ 2 with hh
  have hh1 : |h| ≤ 3 * e := by
    rw [abs_le]
    constructor <;> nlinarith [sq_nonneg x, sq_nonneg y, sq_nonneg z]
  have hb4 := binom_head (h := h) (hh1.trans (by linarith))
  have hh4 : h ^ 4 ≤ 81 * e ^ 4 := by
    have := pow_le_pow_left₀ (abs_nonneg h) hh1 4
    rw [(by decide : Even 4).pow_abs] at this
    linarith [this, (by ring : (3 * e) ^ 4 = 81 * e ^ 4)]
  have harg : (1 - x) ^ 2 + y ^ 2 + z ^ 2 = 1 + h := by rw [hh]; ring
  rw [harg]
  set w := 1 / Real.sqrt (1 + h) ^ 3 with hw
  have hwb : |w - binomHead h| ≤ 100 * 81 * e ^ 4 := by linarith
  have he4 : 0 ≤ e ^ 4 := by positivity
  have key : ∀ u A : ℝ, |u| ≤ 2 → |u * binomHead h - A| ≤ (CX + CY) * e ^ 4 → |u / Real.sqrt (1 + h) ^ 3 - A| ≤ (CX + CY + 2 * (100 * 81 * 81)) * e ^ 4 := by
    intro u A hu hA
    have e1 : u / Real.sqrt (1 + h) ^ 3 - A = u * (w - binomHead h) + (u * binomHead h - A) := by rw [hw]; ring
    rw [e1]
    refine (abs_add_le _ _).trans ?_
    rw [abs_mul]
    have := mul_le_mul hu hwb (abs_nonneg _) (by norm_num)
    nlinarith
  have hXb := hX e a b d hea ha hb hd
  have hYb := hY e a b d hea ha hb hd
  have hZb := hY e a d b hea ha hd hb
  refine ⟨key _ _ ?_ ?_, key _ _ ?_ ?_, key _ _ ?_ ?_⟩
  · rw [abs_le]; constructor <;> linarith
  · rw [show (1 - x) * binomHead h - (1 + 2 * x + 3 / 2 * (2 * x ^ 2 - y ^ 2 - z ^ 2) + 2 * x * (2 * x ^ 2 - 3 * y ^ 2 - 3 * z ^ 2)) = gravRestX e a b d * e ^ 4 by
      rw [hh, hxe, hye, hze]; unfold gravRestX binomHead; ring, abs_mul, abs_of_nonneg he4]
    exact mul_le_mul_of_nonneg_right (by simpa using hXb.trans (by linarith)) he4
  · rw [abs_le]; constructor <;> linarith
  · rw [show y * binomHead h - (y + 3 * x * y + 3 / 2 * y * (4 * x ^ 2 - y ^ 2 - z ^ 2)) = gravRestY e a b d * e ^ 4 by
      rw [hh, hxe, hye, hze]; unfold gravRestY binomHead; ring, abs_mul, abs_of_nonneg he4]
    exact mul_le_mul_of_nonneg_right (by simpa using hYb.trans (by linarith)) he4
  · rw [abs_le]; constructor <;> linarith
  · rw [show z * binomHead h - (z + 3 * x * z + 3 / 2 * z * (4 * x ^ 2 - y ^ 2 - z ^ 2)) = gravRestY e a d b * e ^ 4 by
      rw [hh, hxe, hye, hze]; unfold gravRestY binomHead; ring, abs_mul, abs_of_nonneg he4]
    exact mul_le_mul_of_nonneg_right (by simpa using hZb.trans (by linarith)) he4

/-- The attraction of one body of strength `m` at the distance `g D` (with sign) on the axis, in coordinates of scale `g` from the point. -/
theorem body_expand {g D : ℝ} (hg : 0 < g) (hD : D ≠ 0) : ∃ C δ : ℝ, 0 ≤ C ∧ 0 < δ ∧ ∀ e x y z : ℝ, e ≤ δ → |x| ≤ e → |y| ≤ e → |z| ≤ e →
    |g * (x - D) / Real.sqrt ((g * (x - D)) ^ 2 + (g * y) ^ 2 + (g * z) ^ 2) ^ 3
        + g / |g * D| ^ 3 * (D + 2 * x + 3 / 2 * (2 * x ^ 2 - y ^ 2 - z ^ 2) / D + 2 * x * (2 * x ^ 2 - 3 * y ^ 2 - 3 * z ^ 2) / D ^ 2)| ≤ C * e ^ 4 ∧
    |g * y / Real.sqrt ((g * (x - D)) ^ 2 + (g * y) ^ 2 + (g * z) ^ 2) ^ 3
        - g / |g * D| ^ 3 * (y + 3 * x * y / D + 3 / 2 * y * (4 * x ^ 2 - y ^ 2 - z ^ 2) / D ^ 2)| ≤ C * e ^ 4 ∧
    |g * z / Real.sqrt ((g * (x - D)) ^ 2 + (g * y) ^ 2 + (g * z) ^ 2) ^ 3
        - g / |g * D| ^ 3 * (z + 3 * x * z / D + 3 / 2 * z * (4 * x ^ 2 - y ^ 2 - z ^ 2) / D ^ 2)| ≤ C * e ^ 4 := by
  obtain ⟨C, hC0, hC⟩ := grav_expand
  have hDp : 0 < |D| := abs_pos.2 hD
  have hgD : 0 < |g * D| := abs_pos.2 (mul_ne_zero hg.ne' hD)
  have hk : 0 ≤ g / |g * D| ^ 3 * |D| := by positivity
  refine ⟨g / |g * D| ^ 3 * |D| * (C / |D| ^ 4), |D| / 16, by positivity, by positivity, fun e x y z he hx hy hz => ?_⟩
  have hs : ∀ u : ℝ, |u| ≤ e → |u / D| ≤ e / |D| := fun u hu => by rw [abs_div]; exact div_le_div_of_nonneg_right hu hDp.le
  obtain ⟨k1, k2, k3⟩ := hC (e / |D|) (x / D) (y / D) (z / D) (by rw [div_le_iff₀ hDp]; linarith) (hs x hx) (hs y hy) (hs z hz)
  have hroot : Real.sqrt ((g * (x - D)) ^ 2 + (g * y) ^ 2 + (g * z) ^ 2) = |g * D| * Real.sqrt ((1 - x / D) ^ 2 + (y / D) ^ 2 + (z / D) ^ 2) := by
    rw [show (g * (x - D)) ^ 2 + (g * y) ^ 2 + (g * z) ^ 2 = (g * D) ^ 2 * ((1 - x / D) ^ 2 + (y / D) ^ 2 + (z / D) ^ 2) by field_simp; ring,
      Real.sqrt_mul (sq_nonneg _), Real.sqrt_sq_eq_abs]
  rw [hroot]
  generalize Real.sqrt ((1 - x / D) ^ 2 + (y / D) ^ 2 + (z / D) ^ 2) = r at k1 k2 k3
  have fin : ∀ q s : ℝ, |s| ≤ C * (e / |D|) ^ 4 → q = g / |g * D| ^ 3 * D * s ∨ q = -(g / |g * D| ^ 3 * D * s) → |q| ≤ g / |g * D| ^ 3 * |D| * (C / |D| ^ 4) * e ^ 4 := by
    intro q s hs hq
    have : |q| = g / |g * D| ^ 3 * |D| * |s| := by
      rcases hq with rfl | rfl
      · rw [abs_mul, abs_mul, abs_of_nonneg (by positivity : 0 ≤ g / |g * D| ^ 3)]
      · rw [abs_neg, abs_mul, abs_mul, abs_of_nonneg (by positivity : 0 ≤ g / |g * D| ^ 3)]
    rw [this]
    calc _ ≤ g / |g * D| ^ 3 * |D| * (C * (e / |D|) ^ 4) := mul_le_mul_of_nonneg_left hs hk
      _ = _ := by rw [div_pow]; ring
  rw [mul_pow]
  generalize |g * D| ^ 3 = G at *
  generalize r ^ 3 = q at *
  have hq : ∀ u v : ℝ, u / (G * q) = u * G⁻¹ * q⁻¹ := fun u _ => by rw [div_eq_mul_inv, mul_inv, mul_assoc]
  have hG : ∀ u : ℝ, u / G = u * G⁻¹ := fun u => div_eq_mul_inv u G
  have hq' : ∀ u : ℝ, u / q = u * q⁻¹ := fun u => div_eq_mul_inv u q
  refine ⟨fin _ _ k1 (Or.inr ?_), fin _ _ k2 (Or.inl ?_), fin _ _ k3 (Or.inl ?_)⟩
  · rw [hq _ 0, hG, hq']; generalize G⁻¹ = G'; generalize q⁻¹ = q'; field_simp; ring
  · rw [hq _ 0, hG, hq']; generalize G⁻¹ = G'; generalize q⁻¹ = q'; field_simp
  · rw [hq _ 0, hG, hq']; generalize G⁻¹ = G'; generalize q⁻¹ = q'; field_simp

/-- The acceleration near a point of equilibrium on the axis, in coordinates of scale `g`. -/
theorem acc_expand {μ L g D1 D2 c2 c3 c4 : ℝ} (h0 : 0 < μ) (h1 : μ < 1) (hg : 0 < g) (hD1 : D1 ≠ 0) (hD2 : D2 ≠ 0) (hb1 : -μ = L + g * D1) (hb2 : 1 - μ = L + g * D2)
    (heq : L + g * ((1 - μ) / |g * D1| ^ 3 * D1 + μ / |g * D2| ^ 3 * D2) = 0)
    (hc2 : c2 = (1 - μ) / |g * D1| ^ 3 + μ / |g * D2| ^ 3) (hc3 : c3 = (1 - μ) / |g * D1| ^ 3 / D1 + μ / |g * D2| ^ 3 / D2)
    (hc4 : c4 = (1 - μ) / |g * D1| ^ 3 / D1 ^ 2 + μ / |g * D2| ^ 3 / D2 ^ 2) :
    ∃ C δ : ℝ, 0 ≤ C ∧ 0 < δ ∧ ∀ e x y z : ℝ, e ≤ δ → |x| ≤ e → |y| ≤ e → |z| ≤ e → ∀ v : Fin 3 → ℝ,
    |acceleration μ ![L + g * x, g * y, g * z] v 0
      - (2 * v 1 + g * ((1 + 2 * c2) * x + 3 / 2 * c3 * (2 * x ^ 2 - y ^ 2 - z ^ 2) + 2 * c4 * x * (2 * x ^ 2 - 3 * y ^ 2 - 3 * z ^ 2)))| ≤ C * e ^ 4 ∧
    |acceleration μ ![L + g * x, g * y, g * z] v 1
      - (-(2 * v 0) + g * ((1 - c2) * y - 3 * c3 * x * y - 3 / 2 * c4 * y * (4 * x ^ 2 - y ^ 2 - z ^ 2)))| ≤ C * e ^ 4 ∧
    |acceleration μ ![L + g * x, g * y, g * z] v 2
      - g * (-(c2 * z) - 3 * c3 * x * z - 3 / 2 * c4 * z * (4 * x ^ 2 - y ^ 2 - z ^ 2))| ≤ C * e ^ 4 := by
  obtain ⟨C1, δ1, hC1, hδ1, H1⟩ := body_expand hg hD1
  obtain ⟨C2, δ2, hC2, hδ2, H2⟩ := body_expand hg hD2
  refine ⟨C1 + C2, min δ1 δ2, by positivity, lt_min hδ1 hδ2, fun e x y z he hx hy hz v => ?_⟩
  obtain ⟨a1, a2, a3⟩ := H1 e x y z (he.trans (min_le_left _ _)) hx hy hz
  obtain ⟨b1, b2, b3⟩ := H2 e x y z (he.trans (min_le_right _ _)) hx hy hz
  have e1 : dist1 μ ![L + g * x, g * y, g * z] = Real.sqrt ((g * (x - D1)) ^ 2 + (g * y) ^ 2 + (g * z) ^ 2) := by
    simp only [dist1, Matrix.cons_val_zero, Matrix.cons_val_one, Matrix.cons_val]
    rw [show L + g * x + μ = g * (x - D1) by linarith]
  have e2 : dist2 μ ![L + g * x, g * y, g * z] = Real.sqrt ((g * (x - D2)) ^ 2 + (g * y) ^ 2 + (g * z) ^ 2) := by
    simp only [dist2, Matrix.cons_val_zero, Matrix.cons_val_one, Matrix.cons_val]
    rw [show L + g * x - (1 - μ) = g * (x - D2) by linarith]
  have sum : ∀ q s t : ℝ, |s| ≤ C1 * e ^ 4 → |t| ≤ C2 * e ^ 4 → q = -(1 - μ) * s - μ * t → |q| ≤ (C1 + C2) * e ^ 4 := by
    rintro q s t hs ht rfl
    have he4 : 0 ≤ e ^ 4 := by positivity
    have m1 : |-(1 - μ) * s| ≤ C1 * e ^ 4 := by
      rw [abs_mul, abs_neg, abs_of_pos (by linarith : 0 < 1 - μ)]
      exact (mul_le_of_le_one_left (abs_nonneg _) (by linarith)).trans hs
    have m2 : |μ * t| ≤ C2 * e ^ 4 := by
      rw [abs_mul, abs_of_pos h0]
      exact (mul_le_of_le_one_left (abs_nonneg _) h1.le).trans ht
    calc _ ≤ |-(1 - μ) * s| + |μ * t| := abs_sub _ _
      _ ≤ _ := by linarith
  unfold acceleration
  rw [e1, e2]
  simp only [Matrix.cons_val_zero, Matrix.cons_val_one, Matrix.cons_val]
  rw [show L + g * x - -μ = g * (x - D1) by linarith, show L + g * x - (1 - μ) = g * (x - D2) by linarith]
  generalize Real.sqrt ((g * (x - D1)) ^ 2 + (g * y) ^ 2 + (g * z) ^ 2) ^ 3 = r1 at *
  generalize Real.sqrt ((g * (x - D2)) ^ 2 + (g * y) ^ 2 + (g * z) ^ 2) ^ 3 = r2 at *
  refine ⟨sum _ _ _ a1 b1 ?_, sum _ _ _ a2 b2 ?_, sum _ _ _ a3 b3 ?_⟩
  · rw [hc2, hc3, hc4]; linear_combination heq
  · rw [hc2, hc3, hc4]; ring
  · rw [hc2, hc3, hc4]; ring

end Verif.Lemmas
