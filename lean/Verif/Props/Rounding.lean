import Verif.Model.Rounded
import Verif.Spec.Rounding
import Mathlib.Data.Int.Log
import Mathlib.Algebra.Order.Round
import Mathlib.Analysis.Real.Pi.Bounds
import Mathlib.Tactic.Linarith
import Mathlib.Tactic.Positivity
import Mathlib.Tactic.FieldSimp

/-!
# C86: the domain map in floating point arithmetic
-/

namespace Verif.Props

open Verif.Spec Verif.Model.Rounded

/-! ## Rounding to nearest -/

theorem two_zpow_pos (e : ℤ) : (0 : ℝ) < 2 ^ e := by positivity

/-- A multiple of `2 ^ e` with a higher exponent. -/
theorem zpow_int_mul {e f : ℤ} (h : e ≤ f) (m : ℤ) : ∃ n : ℤ, (m : ℝ) * 2 ^ f = n * 2 ^ e := by
  refine ⟨m * 2 ^ (f - e).toNat, ?_⟩
  push_cast
  rw [mul_assoc, ← zpow_natCast, ← zpow_add₀ (by norm_num), Int.toNat_of_nonneg (by omega), sub_add_cancel]

theorem float_bound {p : ℕ} {m : ℤ} (hm : |m| ≤ 2 ^ p) (e : ℤ) : |(m : ℝ) * 2 ^ e| ≤ 2 ^ ((p : ℤ) + e) := by
  rw [abs_mul, abs_of_pos (two_zpow_pos e), zpow_add₀ (by norm_num), zpow_natCast]
  refine mul_le_mul_of_nonneg_right ?_ (two_zpow_pos e).le
  exact_mod_cast hm

/-- The numbers of the format of size at least `2 ^ k` are multiples of `2 ^ (k + 1 - p)`, except `±2 ^ k` itself, which also is if `p > 0`. -/
theorem float_grid {p : ℕ} (hp : 0 < p) {w : ℝ} (hw : IsFloat p w) {k : ℤ} (hk : 2 ^ k ≤ |w|) : ∃ n : ℤ, w = n * 2 ^ (k + 1 - p) := by
  obtain ⟨m, e, h1, h2⟩ := hw
  rcases le_or_gt (k + 1 - p) e with h | h
  · obtain ⟨n, hn⟩ := zpow_int_mul h m
    exact ⟨n, by rw [h2, hn]⟩
  · have h3 := float_bound h1 e
    rw [← h2] at h3
    have h4 : (2 : ℝ) ^ ((p : ℤ) + e) ≤ 2 ^ k := zpow_le_zpow_right₀ (by norm_num) (by omega)
    have h5 : |w| = 2 ^ k := le_antisymm (h3.trans h4) hk
    obtain ⟨n, hn⟩ := zpow_int_mul (show k + 1 - p ≤ k by omega) 1
    rw [Int.cast_one, one_mul] at hn
    rcases abs_eq (two_zpow_pos k).le |>.1 h5 with h6 | h6
    · exact ⟨n, by rw [h6, hn]⟩
    · exact ⟨-n, by rw [h6, hn]; push_cast; ring⟩

theorem isFloat_zpow (p : ℕ) (k : ℤ) : IsFloat p (2 ^ k) := ⟨1, k, by
  rw [abs_one]
  exact one_le_pow₀ (by norm_num), by simp⟩

theorem isFloat_int {p : ℕ} {m : ℤ} (h : |m| ≤ 2 ^ p) : IsFloat p m := ⟨m, 0, h, by simp⟩

theorem isFloat_neg {p : ℕ} {x : ℝ} (h : IsFloat p x) : IsFloat p (-x) := by
  obtain ⟨m, e, h1, h2⟩ := h
  exact ⟨-m, e, by rwa [abs_neg], by rw [h2]; push_cast; ring⟩

section
variable {p : ℕ} {rnd : ℝ → ℝ}

theorem rnd_float (R : RoundsToNearest p rnd) {x : ℝ} (hx : IsFloat p x) : rnd x = x := by
  have := R.nearest x x hx
  rw [sub_self, abs_zero] at this
  exact sub_eq_zero.1 (abs_eq_zero.1 (le_antisymm this (abs_nonneg _)))

theorem rnd_zero (R : RoundsToNearest p rnd) : rnd 0 = 0 := rnd_float R ⟨0, 0, by simp, by simp⟩

theorem rnd_mono (R : RoundsToNearest p rnd) : Monotone rnd := by
  intro x y hxy
  by_contra h
  push Not at h
  have h1 := R.nearest x _ (R.float y)
  have h2 := R.nearest y _ (R.float x)
  have h3 : x ≠ y := fun e => by
    rw [e] at h
    exact lt_irrefl _ h
  have h4 : x < y := lt_of_le_of_ne hxy h3
  have h5 : (rnd x + rnd y) / 2 ≤ x := by
    by_contra hc
    push Not at hc
    rcases abs_cases (rnd x - x) with ⟨a1, a2⟩ | ⟨a1, a2⟩ <;> rcases abs_cases (rnd y - x) with ⟨b1, b2⟩ | ⟨b1, b2⟩ <;> linarith
  have h6 : y ≤ (rnd x + rnd y) / 2 := by
    by_contra hc
    push Not at hc
    rcases abs_cases (rnd x - y) with ⟨a1, a2⟩ | ⟨a1, a2⟩ <;> rcases abs_cases (rnd y - y) with ⟨b1, b2⟩ | ⟨b1, b2⟩ <;> linarith
  linarith

theorem rnd_nonneg (R : RoundsToNearest p rnd) {x : ℝ} (hx : 0 ≤ x) : 0 ≤ rnd x := by
  have := rnd_mono R hx
  rwa [rnd_zero R] at this

/-- Every number is at most `2 ^ (k - p)` from a number of the format, if its size is between `2 ^ k` and `2 ^ (k + 1)`. -/
theorem float_near (p : ℕ) {x : ℝ} {k : ℤ} (h2 : |x| ≤ 2 ^ (k + 1)) : ∃ y, IsFloat p y ∧ |y - x| ≤ 2 ^ (k - p) := by
  have hg := two_zpow_pos (k + 1 - p)
  refine ⟨round (x / 2 ^ (k + 1 - p)) * 2 ^ (k + 1 - p), ⟨_, _, ?_, rfl⟩, ?_⟩
  · have h3 : |x / 2 ^ (k + 1 - (p : ℤ))| ≤ ((2 ^ p : ℤ) : ℝ) := by
      rw [abs_div, abs_of_pos hg, div_le_iff₀ hg]
      push_cast
      rw [← zpow_natCast, ← zpow_add₀ (by norm_num)]
      have : (p : ℤ) + (k + 1 - p) = k + 1 := by ring
      rw [this]
      exact h2
    obtain ⟨h4, h5⟩ := abs_le.1 h3
    have h6 := abs_sub_round (x / 2 ^ (k + 1 - (p : ℤ)))
    obtain ⟨h7, h8⟩ := abs_le.1 h6
    rw [abs_le]
    have e1 : (((round (x / 2 ^ (k + 1 - (p : ℤ))) : ℤ) : ℝ)) < ((2 ^ p + 1 : ℤ) : ℝ) := by
      push_cast at h4 h5 ⊢
      linarith
    have e2 : ((-(2 ^ p) - 1 : ℤ) : ℝ) < (((round (x / 2 ^ (k + 1 - (p : ℤ))) : ℤ) : ℝ)) := by
      push_cast at h4 h5 ⊢
      linarith
    have e1' := Int.cast_lt.1 e1
    have e2' := Int.cast_lt.1 e2
    constructor <;> omega
  · have h6 := abs_sub_round (x / 2 ^ (k + 1 - (p : ℤ)))
    have e : (round (x / 2 ^ (k + 1 - (p : ℤ))) : ℝ) * 2 ^ (k + 1 - (p : ℤ)) - x =
        -((x / 2 ^ (k + 1 - (p : ℤ)) - round (x / 2 ^ (k + 1 - (p : ℤ)))) * 2 ^ (k + 1 - (p : ℤ))) := by
      field_simp
      ring
    rw [e, abs_neg, abs_mul, abs_of_pos hg]
    have e2 : (2 : ℝ) ^ (k + 1 - (p : ℤ)) = 2 * 2 ^ (k - (p : ℤ)) := by
      rw [show k + 1 - (p : ℤ) = 1 + (k - p) by ring, zpow_add₀ (by norm_num), zpow_one]
    have := two_zpow_pos (k - p)
    have h7 := mul_le_mul_of_nonneg_right h6 hg.le
    linarith

theorem exists_binade {x : ℝ} (hx : x ≠ 0) : ∃ k : ℤ, 2 ^ k ≤ |x| ∧ |x| < 2 ^ (k + 1) := by
  have h : 0 < |x| := abs_pos.2 hx
  exact ⟨Int.log 2 |x|, by exact_mod_cast Int.zpow_log_le_self (by norm_num) h, by exact_mod_cast Int.lt_zpow_succ_log_self (by norm_num) |x|⟩

/-- The unit roundoff: `2 ^ -53` for doubles. -/
noncomputable def unit (p : ℕ) : ℝ := 2 ^ (-(p : ℤ))

theorem unit_pos (p : ℕ) : 0 < unit p := two_zpow_pos _

/-- The relative error of a rounding is at most `u / (1 + u)`. -/
theorem rnd_error (R : RoundsToNearest p rnd) (x : ℝ) : |rnd x - x| ≤ unit p / (1 + unit p) * |x| := by
  have hu := unit_pos p
  by_cases hx : x = 0
  · rw [hx, rnd_zero R]
    simp
  obtain ⟨k, h1, h2⟩ := exists_binade hx
  obtain ⟨y, hy, hn⟩ := float_near p h2.le
  have e : (2 : ℝ) ^ (k - (p : ℤ)) = unit p * 2 ^ k := by
    unfold unit
    rw [← zpow_add₀ (by norm_num)]
    congr 1
    ring
  rw [e] at hn
  have h3 := (R.nearest x y hy).trans hn
  have hk := two_zpow_pos k
  rw [div_mul_eq_mul_div, le_div_iff₀ (by linarith)]
  rcases le_or_gt ((1 + unit p) * 2 ^ k) |x| with h4 | h4
  · have := mul_le_mul_of_nonneg_right h3 (show 0 ≤ 1 + unit p by linarith)
    nlinarith
  · have h5 : |rnd x - x| ≤ |x| - 2 ^ k := by
      rcases le_or_gt 0 x with h0 | h0
      · rw [abs_of_nonneg h0] at h1 h4 ⊢
        have := R.nearest x (2 ^ k) (isFloat_zpow p k)
        rwa [abs_of_nonpos (show (2 : ℝ) ^ k - x ≤ 0 by linarith), neg_sub] at this
      · rw [abs_of_neg h0] at h1 h4 ⊢
        have := R.nearest x (-2 ^ k) (isFloat_neg (isFloat_zpow p k))
        rw [abs_of_nonneg (show 0 ≤ -(2 : ℝ) ^ k - x by linarith)] at this
        linarith
    nlinarith

theorem rnd_error' (R : RoundsToNearest p rnd) (x : ℝ) : |rnd x - x| ≤ unit p * |x| := by
  refine (rnd_error R x).trans (mul_le_mul_of_nonneg_right ?_ (abs_nonneg _))
  have hu := unit_pos p
  rw [div_le_iff₀ (by linarith)]
  nlinarith

theorem rnd_pos (R : RoundsToNearest p rnd) {x : ℝ} (hx : 0 < x) : 0 < rnd x := by
  have h := rnd_error R x
  have hu := unit_pos p
  rw [abs_of_pos hx] at h
  have h1 : unit p / (1 + unit p) < 1 := by
    rw [div_lt_one (by linarith)]
    linarith
  have := (abs_le.1 h).1
  nlinarith

/-- Just above a power of two there is a gap. -/
theorem float_gap (hp : 0 < p) {w : ℝ} (hw : IsFloat p w) {k : ℤ} (h : 2 ^ k < w) : 2 ^ k * (1 + 2 * unit p) ≤ w := by
  have hk := two_zpow_pos k
  obtain ⟨n, hn⟩ := float_grid hp hw (k := k) (by rw [abs_of_pos (by linarith)]; exact h.le)
  have hg := two_zpow_pos (k + 1 - p)
  have e1 : (2 : ℝ) ^ k = ((2 ^ (p - 1) : ℤ) : ℝ) * 2 ^ (k + 1 - (p : ℤ)) := by
    push_cast
    rw [← zpow_natCast, ← zpow_add₀ (by norm_num)]
    congr 1
    omega
  have e2 : (2 : ℝ) ^ k * (2 * unit p) = 2 ^ (k + 1 - (p : ℤ)) := by
    unfold unit
    rw [show k + 1 - (p : ℤ) = k + (1 + -p) by ring, zpow_add₀ (by norm_num), zpow_add₀ (by norm_num), zpow_one]
  rw [mul_add, mul_one, e2, hn]
  rw [hn, e1, mul_lt_mul_iff_left₀ hg, Int.cast_lt] at h
  have h' : (((2 ^ (p - 1) : ℤ) : ℝ)) + 1 ≤ n := by exact_mod_cast h
  rw [e1]
  nlinarith

/-- A product that is at most `2 ^ k` with a relative error below the unit roundoff rounds to at most `2 ^ k`. -/
theorem rnd_le_zpow (R : RoundsToNearest p rnd) (hp : 0 < p) {y : ℝ} {k : ℤ} (h : y < 2 ^ k * (1 + unit p)) : rnd y ≤ 2 ^ k := by
  by_contra hc
  push Not at hc
  have h1 := float_gap hp (R.float y) hc
  have h2 := R.nearest y _ (isFloat_zpow p k)
  have h3 : 2 ^ k < y := by
    by_contra h4
    push Not at h4
    have := rnd_mono R h4
    rw [rnd_float R (isFloat_zpow p k)] at this
    linarith
  rw [abs_of_neg (show (2 : ℝ) ^ k - y < 0 by linarith)] at h2
  have := le_abs_self (rnd y - y)
  nlinarith

/-- The span times the rounded slope does not exceed the power of two. -/
theorem back_le (R : RoundsToNearest p rnd) (hp : 0 < p) {D : ℝ} (hD : 0 < D) (k : ℤ) : rnd (D * rnd (2 ^ k / D)) ≤ 2 ^ k := by
  apply rnd_le_zpow R hp
  have hk := two_zpow_pos k
  have hu := unit_pos p
  have h := (abs_le.1 (rnd_error R (2 ^ k / D))).2
  rw [abs_of_pos (by positivity)] at h
  have h1 : D * rnd (2 ^ k / D) ≤ 2 ^ k * (1 + unit p / (1 + unit p)) := by
    have := mul_le_mul_of_nonneg_left h hD.le
    have e : D * (2 ^ k / D) = 2 ^ k := by field_simp
    have e2 : D * (unit p / (1 + unit p) * (2 ^ k / D)) = unit p / (1 + unit p) * 2 ^ k := by field_simp
    rw [e2, mul_sub, e] at this
    linarith
  refine lt_of_le_of_lt h1 (mul_lt_mul_of_pos_left ?_ hk)
  have : unit p / (1 + unit p) < unit p := by
    rw [div_lt_iff₀ (by linarith)]
    nlinarith
  linarith

/-! ## Rounding to nearest exists -/

theorem rounding_exists (p : ℕ) (hp : 0 < p) : ∃ rnd, RoundsToNearest p rnd := by
  have key : ∀ x : ℝ, ∃ w, IsFloat p w ∧ ∀ y, IsFloat p y → |w - x| ≤ |y - x| := by
    intro x
    by_cases hx : x = 0
    · exact ⟨0, ⟨0, 0, by simp, by simp⟩, fun y _ => by rw [hx]; simp⟩
    obtain ⟨k, h1, h2⟩ := exists_binade hx
    have hg := two_zpow_pos (k + 1 - p)
    -- the nearest multiple of the spacing
    have near : ∀ n : ℤ, |(round (x / 2 ^ (k + 1 - (p : ℤ))) : ℝ) * 2 ^ (k + 1 - (p : ℤ)) - x| ≤ |(n : ℝ) * 2 ^ (k + 1 - (p : ℤ)) - x| := by
      intro n
      have h3 := round_le (x / 2 ^ (k + 1 - (p : ℤ))) n
      have e : ∀ m : ℤ, |(m : ℝ) * 2 ^ (k + 1 - (p : ℤ)) - x| = |x / 2 ^ (k + 1 - (p : ℤ)) - m| * 2 ^ (k + 1 - (p : ℤ)) := by
        intro m
        rw [← abs_of_pos hg, ← abs_mul, abs_of_pos hg, sub_mul, div_mul_cancel₀ _ hg.ne', abs_sub_comm]
      rw [e, e]
      exact mul_le_mul_of_nonneg_right h3 hg.le
    obtain ⟨n0, hn0⟩ := zpow_int_mul (show k + 1 - (p : ℤ) ≤ k by omega) 1
    rw [Int.cast_one, one_mul] at hn0
    refine ⟨(round (x / 2 ^ (k + 1 - (p : ℤ))) : ℝ) * 2 ^ (k + 1 - (p : ℤ)), ?_, fun y hy => ?_⟩
    · refine ⟨_, _, ?_, rfl⟩
      have h3 : |x / 2 ^ (k + 1 - (p : ℤ))| < ((2 ^ p : ℤ) : ℝ) := by
        rw [abs_div, abs_of_pos hg, div_lt_iff₀ hg]
        push_cast
        rw [← zpow_natCast, ← zpow_add₀ (by norm_num)]
        have : (p : ℤ) + (k + 1 - p) = k + 1 := by ring
        rw [this]
        exact h2
      obtain ⟨h4, h5⟩ := abs_lt.1 h3
      have h6 := abs_sub_round (x / 2 ^ (k + 1 - (p : ℤ)))
      obtain ⟨h7, h8⟩ := abs_le.1 h6
      rw [abs_le]
      have e1 : (((round (x / 2 ^ (k + 1 - (p : ℤ))) : ℤ) : ℝ)) < ((2 ^ p + 1 : ℤ) : ℝ) := by
        push_cast at h4 h5 ⊢
        linarith
      have e2 : ((-(2 ^ p) - 1 : ℤ) : ℝ) < (((round (x / 2 ^ (k + 1 - (p : ℤ))) : ℤ) : ℝ)) := by
        push_cast at h4 h5 ⊢
        linarith
      have e1' := Int.cast_lt.1 e1
      have e2' := Int.cast_lt.1 e2
      constructor <;> omega
    · rcases le_or_gt (2 ^ k) |y| with h | h
      · obtain ⟨n, hn⟩ := float_grid hp hy h
        rw [hn]
        exact near n
      · -- smaller numbers are further away than `±2 ^ k`
        rcases le_or_gt 0 x with h0 | h0
        · refine (near n0).trans ?_
          rw [← hn0]
          rw [abs_of_nonneg h0] at h1
          have := (abs_lt.1 h).2
          rw [abs_of_nonpos (by linarith), abs_of_nonpos (by linarith)]
          linarith
        · refine (near (-n0)).trans ?_
          rw [show ((-n0 : ℤ) : ℝ) * 2 ^ (k + 1 - (p : ℤ)) = -2 ^ k by rw [hn0]; push_cast; ring]
          rw [abs_of_neg h0] at h1
          have := (abs_lt.1 h).1
          rw [abs_of_nonneg (by linarith), abs_of_nonneg (by linarith)]
          linarith
  choose rnd h using key
  exact ⟨rnd, fun x => (h x).1, fun x => (h x).2⟩

/-! ## C86 -/

theorem slope_pos (R : RoundsToNearest p rnd) {z0 zf x0 xf : ℝ} (hz : z0 < zf) (hx : x0 < xf) : 0 < rndSlope rnd z0 zf x0 xf :=
  rnd_pos R (div_pos (rnd_pos R (by linarith)) (rnd_pos R (by linarith)))

/-- **C86**: in floating point arithmetic, of whatever precision and however ties are broken, the domain map preserves the order. -/
theorem C86_monotone (R : RoundsToNearest p rnd) {z0 zf x0 xf : ℝ} (hz : z0 < zf) (hx : x0 < xf) : Monotone (rndToZ rnd z0 zf x0 xf) := by
  intro x y hxy
  have hc := slope_pos R hz hx
  refine rnd_mono R (add_le_add_left (rnd_mono R ?_) _)
  exact mul_le_mul_of_nonneg_right (rnd_mono R (by linarith)) hc.le

/-- **C86**: the start of the problem domain is sent to the start of the basis domain exactly. -/
theorem C86_start (R : RoundsToNearest p rnd) {z0 : ℝ} (hz : IsFloat p z0) (zf x0 xf : ℝ) : rndToZ rnd z0 zf x0 xf x0 = z0 := by
  unfold rndToZ
  rw [sub_self, rnd_zero R, zero_mul, rnd_zero R, zero_add, rnd_float R hz]

/-- **C86**, for basis domains whose length is a power of two: `[-1, 1]` of the Chebyshev and Legendre polynomials (`k = 1`) and `[0, 1]` of
the extreme learning machines (`k = 0`). No point of the problem domain is sent out of the basis domain.
Missing: the domain `[-π, π]` of the Fourier series, where it is false, see `C86_fourier_fails`. -/
theorem C86_inside_partial (R : RoundsToNearest p rnd) (hp : 0 < p) {z0 zf x0 xf : ℝ} (h0 : IsFloat p z0) (hf : IsFloat p zf) {k : ℤ}
    (hk : zf - z0 = 2 ^ k) (hx : x0 < xf) {x : ℝ} (h1 : x0 ≤ x) (h2 : x ≤ xf) :
    z0 ≤ rndToZ rnd z0 zf x0 xf x ∧ rndToZ rnd z0 zf x0 xf x ≤ zf := by
  have hz : z0 < zf := by
    have := two_zpow_pos k
    linarith
  constructor
  · have := C86_monotone R hz hx h1
    rwa [C86_start R h0] at this
  · refine (C86_monotone R hz hx h2).trans ?_
    unfold rndToZ rndSlope
    rw [hk, rnd_float R (isFloat_zpow p k)]
    have h3 := back_le R hp (rnd_pos R (show 0 < xf - x0 by linarith)) k
    have h4 : rnd (rnd (xf - x0) * rnd (2 ^ k / rnd (xf - x0))) + z0 ≤ zf := by linarith
    have := rnd_mono R h4
    rwa [rnd_float R hf] at this

theorem isFloat_one (p : ℕ) : IsFloat p 1 := by
  have := isFloat_zpow p 0
  simpa using this

/-- The case of the polynomials, in double precision. -/
example (R : RoundsToNearest 53 rnd) (x : ℝ) (h1 : 0 ≤ x) (h2 : x ≤ 49) : -1 ≤ rndToZ rnd (-1) 1 0 49 x ∧ rndToZ rnd (-1) 1 0 49 x ≤ 1 :=
  C86_inside_partial R (by norm_num) (isFloat_neg (isFloat_one 53)) (isFloat_one 53) (k := 1) (by norm_num) (by norm_num) h1 h2

example : ∃ rnd, RoundsToNearest 53 rnd := rounding_exists 53 (by norm_num)

/-- **C86**: the collocation points are in order, and the first one is the start of the problem domain exactly. -/
theorem C86_points (R : RoundsToNearest p rnd) {z0 zf x0 xf : ℝ} (hz : z0 < zf) (hx : x0 < xf) (h0 : IsFloat p x0) :
    Monotone (rndToX rnd z0 zf x0 xf) ∧ rndToX rnd z0 zf x0 xf z0 = x0 := by
  constructor
  · intro x y hxy
    have hc := slope_pos R hz hx
    refine rnd_mono R (add_le_add_left (rnd_mono R ?_) _)
    exact div_le_div_of_nonneg_right (rnd_mono R (by linarith)) hc.le
  · unfold rndToX
    rw [sub_self, rnd_zero R, zero_div, rnd_zero R, zero_add, rnd_float R h0]

/-! ## The size of the error -/

/-- A rounding multiplies by `1 + δ`. -/
theorem rnd_factor (R : RoundsToNearest p rnd) (x : ℝ) : ∃ t, rnd x = x * t ∧ 1 - unit p ≤ t ∧ t ≤ 1 + unit p := by
  have hu := unit_pos p
  by_cases hx : x = 0
  · exact ⟨1, by rw [hx, rnd_zero R, zero_mul], by linarith, by linarith⟩
  refine ⟨rnd x / x, by field_simp, ?_⟩
  have h := rnd_error' R x
  have h1 : |rnd x / x - 1| ≤ unit p := by
    rw [show rnd x / x - 1 = (rnd x - x) / x by field_simp, abs_div, div_le_iff₀ (abs_pos.2 hx)]
    exact h
  obtain ⟨h2, h3⟩ := abs_le.1 h1
  constructor <;> linarith

theorem factor_bound {u a b c d : ℝ} (hu : 0 < u) (hu' : u ≤ 1 / 64) (ha : 1 - u ≤ a ∧ a ≤ 1 + u) (hb : 1 - u ≤ b ∧ b ≤ 1 + u)
    (hc : 1 - u ≤ c ∧ c ≤ 1 + u) (hd : 1 - u ≤ d ∧ d ≤ 1 + u) : |a * b * c / d - 1| ≤ 5 * u := by
  have hd0 : 0 < d := by linarith [hd.1]
  have h0 : 0 ≤ 1 - u := by linarith
  have up : a * b * c ≤ (1 + u) * (1 + u) * (1 + u) :=
    mul_le_mul (mul_le_mul ha.2 hb.2 (h0.trans hb.1) (by linarith)) hc.2 (h0.trans hc.1) (by positivity)
  have lo : (1 - u) * (1 - u) * (1 - u) ≤ a * b * c :=
    mul_le_mul (mul_le_mul ha.1 hb.1 h0 (h0.trans ha.1)) hc.1 h0 (mul_nonneg (h0.trans ha.1) (h0.trans hb.1))
  rw [abs_le]
  constructor
  · rw [neg_le_sub_iff_le_add, ← sub_le_iff_le_add, le_div_iff₀ hd0]
    have h1 : (1 - 5 * u) * d ≤ (1 - 5 * u) * (1 + u) := mul_le_mul_of_nonneg_left hd.2 (by linarith)
    nlinarith [mul_pos hu hu, mul_pos (mul_pos hu hu) hu]
  · rw [sub_le_iff_le_add, div_le_iff₀ hd0]
    have h1 : (5 * u + 1) * (1 - u) ≤ (5 * u + 1) * d := mul_le_mul_of_nonneg_left hd.1 (by linarith)
    have h2 : u * u ≤ u * (1 / 64) := mul_le_mul_of_nonneg_left hu' hu.le
    have h3 : u * u * u ≤ u * u * (1 / 64) := mul_le_mul_of_nonneg_left hu' (by positivity)
    nlinarith

theorem unit_le (hp : 6 ≤ p) : unit p ≤ 1 / 64 := by
  unfold unit
  have : (2 : ℝ) ^ (-(p : ℤ)) ≤ 2 ^ (-6 : ℤ) := zpow_le_zpow_right₀ (by norm_num) (by omega)
  refine this.trans ?_
  norm_num

/-- Scaling with a relative error of `5 u`, then shifting and rounding. -/
theorem shift_error (R : RoundsToNearest p rnd) (hp : 6 ≤ p) {B t s S : ℝ} (hB : 0 ≤ B) (hBS : B ≤ S) (ht : |t - 1| ≤ 5 * unit p) :
    |rnd (B * t + s) - (B + s)| ≤ unit p * (6 * S + max |s| |s + S|) := by
  have hu := unit_pos p
  have hu' := unit_le hp
  have h1 : |B * t + s - (B + s)| ≤ 5 * unit p * S := by
    rw [show B * t + s - (B + s) = B * (t - 1) by ring, abs_mul, abs_of_nonneg hB]
    have := mul_le_mul hBS ht (abs_nonneg _) (hB.trans hBS)
    linarith
  have h2 := rnd_error' R (B * t + s)
  have h3 : |B + s| ≤ max |s| |s + S| := by
    rw [abs_le]
    constructor
    · have := neg_abs_le s
      have := le_max_left |s| |s + S|
      linarith
    · have := le_abs_self (s + S)
      have := le_max_right |s| |s + S|
      linarith
  have h4 : |B * t + s| ≤ max |s| |s + S| + 5 * unit p * S := by
    have := abs_sub_abs_le_abs_sub (B * t + s) (B + s)
    linarith
  have h5 := abs_sub_le (rnd (B * t + s)) (B * t + s) (B + s)
  have h6 : unit p * |B * t + s| ≤ unit p * (max |s| |s + S| + 5 * unit p * S) := mul_le_mul_of_nonneg_left h4 hu.le
  have h7 : 0 ≤ S := hB.trans hBS
  have h8 : unit p * (5 * unit p * S) ≤ unit p * S := by
    have : 5 * unit p * S ≤ 1 * S := mul_le_mul_of_nonneg_right (by linarith) h7
    nlinarith
  nlinarith

/-- **C86**: the rounded map differs from the exact one, on the problem domain, by at most `u (6 (zf - z0) + max(|z0|, |zf|))`, where
`u` is the unit roundoff: `13 · 2 ^ -53` for the polynomials with doubles. -/
theorem C86_error (R : RoundsToNearest p rnd) (hp : 6 ≤ p) {z0 zf x0 xf : ℝ} (hz : z0 < zf) (hs : IsFloat p (zf - z0)) (hx : x0 < xf)
    {x : ℝ} (h1 : x0 ≤ x) (h2 : x ≤ xf) :
    |rndToZ rnd z0 zf x0 xf x - (z0 + (x - x0) * ((zf - z0) / (xf - x0)))| ≤ unit p * (6 * (zf - z0) + max |z0| |zf|) := by
  have hu := unit_pos p
  have hu' := unit_le hp
  obtain ⟨t1, a1, b1⟩ := rnd_factor R (x - x0)
  obtain ⟨t2, a2, b2⟩ := rnd_factor R (xf - x0)
  obtain ⟨t3, a3, b3⟩ := rnd_factor R ((zf - z0) / rnd (xf - x0))
  obtain ⟨t4, a4, b4⟩ := rnd_factor R (rnd (x - x0) * rnd ((zf - z0) / rnd (xf - x0)))
  have ht2 : t2 ≠ 0 := by
    have := b2.1
    intro h
    rw [h] at this
    linarith
  have hx' : xf - x0 ≠ 0 := by linarith
  have e : rnd (rnd (x - x0) * rnd ((zf - z0) / rnd (xf - x0))) = (x - x0) * ((zf - z0) / (xf - x0)) * (t1 * t3 * t4 / t2) := by
    rw [a4, a3, a1, a2]
    field_simp
  have hB : 0 ≤ (x - x0) * ((zf - z0) / (xf - x0)) := mul_nonneg (by linarith) (div_nonneg (by linarith) (by linarith))
  have hBS : (x - x0) * ((zf - z0) / (xf - x0)) ≤ zf - z0 := by
    rw [mul_div_assoc', div_le_iff₀ (by linarith), mul_comm]
    exact mul_le_mul_of_nonneg_left (by linarith) (by linarith)
  have := shift_error R hp (s := z0) hB hBS (factor_bound hu hu' b1 b3 b4 b2)
  unfold rndToZ rndSlope
  rw [rnd_float R hs, e]
  rw [show z0 + (zf - z0) = zf by ring] at this
  rwa [add_comm z0]

/-- **C86**: the collocation points differ from the exact ones by at most `u (6 (xf - x0) + max(|x0|, |xf|))`. -/
theorem C86_points_error (R : RoundsToNearest p rnd) (hp : 6 ≤ p) {z0 zf x0 xf : ℝ} (hz : z0 < zf) (hs : IsFloat p (zf - z0)) (hx : x0 < xf)
    {z : ℝ} (h1 : z0 ≤ z) (h2 : z ≤ zf) :
    |rndToX rnd z0 zf x0 xf z - (x0 + (z - z0) / ((zf - z0) / (xf - x0)))| ≤ unit p * (6 * (xf - x0) + max |x0| |xf|) := by
  have hu := unit_pos p
  have hu' := unit_le hp
  obtain ⟨t1, a1, b1⟩ := rnd_factor R (z - z0)
  obtain ⟨t2, a2, b2⟩ := rnd_factor R (xf - x0)
  obtain ⟨t3, a3, b3⟩ := rnd_factor R ((zf - z0) / rnd (xf - x0))
  obtain ⟨t4, a4, b4⟩ := rnd_factor R (rnd (z - z0) / rnd ((zf - z0) / rnd (xf - x0)))
  have ne : ∀ t, 1 - unit p ≤ t → t ≠ 0 := by
    intro t ht h
    rw [h] at ht
    linarith
  have ht2 := ne _ b2.1
  have ht3 := ne _ b3.1
  have hx' : xf - x0 ≠ 0 := by linarith
  have hz' : zf - z0 ≠ 0 := by linarith
  have e : rnd (rnd (z - z0) / rnd ((zf - z0) / rnd (xf - x0))) = (z - z0) / ((zf - z0) / (xf - x0)) * (t1 * t2 * t4 / t3) := by
    rw [a4, a3, a1, a2]
    field_simp
  have hB : 0 ≤ (z - z0) / ((zf - z0) / (xf - x0)) := div_nonneg (by linarith) (div_nonneg (by linarith) (by linarith))
  have hBS : (z - z0) / ((zf - z0) / (xf - x0)) ≤ xf - x0 := by
    rw [div_le_iff₀ (div_pos (by linarith) (by linarith)), mul_div_cancel₀ _ hx']
    linarith
  have := shift_error R hp (s := x0) hB hBS (factor_bound hu hu' b1 b2 b4 b3)
  unfold rndToX rndSlope
  rw [rnd_float R hs, e]
  rw [show x0 + (xf - x0) = xf by ring] at this
  rwa [add_comm x0]

/-- The case of the polynomials with doubles. -/
example (R : RoundsToNearest 53 rnd) : |rndToZ rnd (-1) 1 0 49 49 - 1| ≤ 13 / 2 ^ 53 := by
  have h := C86_error R (by norm_num) (z0 := -1) (zf := 1) (x0 := 0) (xf := 49) (by norm_num)
    (by
      have := isFloat_zpow 53 1
      norm_num at this ⊢
      exact this) (by norm_num) (x := 49) (by norm_num) le_rfl
  unfold unit at h
  norm_num at h ⊢
  exact h

/-! ## Where it fails -/

/-- A way to find roundings: a number of the format with full significand that is closer than half the spacing. -/
theorem rnd_eq (R : RoundsToNearest p rnd) (hp : 0 < p) {x : ℝ} (M e : ℤ) (h1 : 2 ^ (p - 1) < M) (h2 : M ≤ 2 ^ p)
    (h : |x - M * 2 ^ e| < 2 ^ e / 2) : rnd x = M * 2 ^ e := by
  have hM : (0 : ℤ) < 2 ^ (p - 1) := by positivity
  have hy : IsFloat p (M * 2 ^ e) := ⟨M, e, by rw [abs_of_pos (by omega)]; exact h2, rfl⟩
  have hn := R.nearest x _ hy
  have he := two_zpow_pos e
  rw [abs_sub_comm x] at h
  have hd : |rnd x - M * 2 ^ e| < 2 ^ e := by
    have := abs_sub_le (rnd x) x (M * 2 ^ e)
    rw [abs_sub_comm x] at this
    linarith
  obtain ⟨m, f, hm, hw⟩ := R.float x
  rcases le_or_gt e f with hef | hef
  · obtain ⟨n, hn⟩ := zpow_int_mul hef m
    rw [hn] at hw
    rw [hw, ← sub_mul, abs_mul, abs_of_pos he] at hd
    have : |((n - M : ℤ) : ℝ)| < 1 := by
      push_cast
      by_contra hc
      push Not at hc
      nlinarith
    have h3 : |n - M| < 1 := by exact_mod_cast this
    have h4 : n = M := by
      rw [Int.abs_lt_one_iff] at h3
      omega
    rw [hw, h4]
  · exfalso
    have h3 := float_bound hm f
    rw [← hw] at h3
    have h4 : (2 : ℝ) ^ ((p : ℤ) + f) ≤ 2 ^ (((p - 1 : ℕ) : ℤ) + e) := zpow_le_zpow_right₀ (by norm_num) (by omega)
    rw [zpow_add₀ (by norm_num : (2 : ℝ) ≠ 0) ((p - 1 : ℕ) : ℤ) e, zpow_natCast] at h4
    have h5 := (le_abs_self _).trans (h3.trans h4)
    have h6 : (2 : ℝ) ^ (p - 1) + 1 ≤ M := by exact_mod_cast h1
    have h7 := (abs_lt.1 hd).1
    nlinarith

/-- The end of the problem domain need not be sent to the end of the basis domain: with doubles, the end of `[0, 49]` is sent to
`1 - 2 ^ -52` by the polynomial classes. -/
theorem C86_end_fails (R : RoundsToNearest 53 rnd) : rndToZ rnd (-1) 1 0 49 49 = 1 - 2 ^ (-52 : ℤ) := by
  unfold rndToZ rndSlope
  have h2 : rnd 2 = 2 := rnd_float R (by exact_mod_cast isFloat_int (p := 53) (m := 2) (by norm_num))
  have h49 : rnd 49 = 49 := rnd_float R (by exact_mod_cast isFloat_int (p := 53) (m := 49) (by norm_num))
  rw [show (1 : ℝ) - -1 = 2 by norm_num, show (49 : ℝ) - 0 = 49 by norm_num, h2, h49,
    rnd_eq R (by norm_num) (x := 2 / 49) 5882252574524729 (-57) (by norm_num) (by norm_num) (by norm_num [abs_lt]),
    rnd_eq R (by norm_num) (x := 49 * (((5882252574524729 : ℤ) : ℝ) * 2 ^ (-57 : ℤ))) 9007199254740991 (-52) (by norm_num) (by norm_num) (by norm_num [abs_lt]),
    rnd_float R (x := ((9007199254740991 : ℤ) : ℝ) * 2 ^ (-52 : ℤ) + -1) ⟨9007199254740990, -53, by norm_num, by norm_num⟩]
  norm_num

/-- The last collocation point need not be in the problem domain: with doubles, the one at the end of `[0, 49]` is `49 + 2 ^ -47`. -/
theorem C86_points_fails (R : RoundsToNearest 53 rnd) : rndToX rnd (-1) 1 0 49 1 = 49 + 2 ^ (-47 : ℤ) ∧ 49 < rndToX rnd (-1) 1 0 49 1 := by
  have e : rndToX rnd (-1) 1 0 49 1 = 49 + 2 ^ (-47 : ℤ) := by
    unfold rndToX rndSlope
    have h2 : rnd 2 = 2 := rnd_float R (by exact_mod_cast isFloat_int (p := 53) (m := 2) (by norm_num))
    have h49 : rnd 49 = 49 := rnd_float R (by exact_mod_cast isFloat_int (p := 53) (m := 49) (by norm_num))
    rw [show (1 : ℝ) - -1 = 2 by norm_num, show (49 : ℝ) - 0 = 49 by norm_num, h2, h49,
      rnd_eq R (by norm_num) (x := 2 / 49) 5882252574524729 (-57) (by norm_num) (by norm_num) (by norm_num [abs_lt]),
      rnd_eq R (by norm_num) (x := 2 / (((5882252574524729 : ℤ) : ℝ) * 2 ^ (-57 : ℤ))) 6896136929411073 (-47) (by norm_num) (by norm_num) (by norm_num [abs_lt]),
      rnd_float R (x := ((6896136929411073 : ℤ) : ℝ) * 2 ^ (-47 : ℤ) + 0) ⟨6896136929411073, -47, by norm_num, by norm_num⟩]
    norm_num
  refine ⟨e, ?_⟩
  rw [e]
  have := two_zpow_pos (-47)
  linarith

/-- The number used for π: the double nearest to it. -/
theorem rnd_pi (R : RoundsToNearest 53 rnd) : rnd Real.pi = 884279719003555 / 2 ^ 48 := by
  rw [rnd_eq R (by norm_num) 7074237752028440 (-51) (by norm_num) (by norm_num)]
  · norm_num
  · have h1 := Real.pi_gt_d20
    have h2 := Real.pi_lt_d20
    rw [abs_lt]
    constructor <;> norm_num at h1 h2 ⊢ <;> linarith

/-- C86 is false for the Fourier series: with doubles, the end of `[0, 25]` is sent to a point greater than π (by about `7.7e-16`). -/
theorem C86_fourier_fails (R : RoundsToNearest 53 rnd) : Real.pi < rndToZ rnd (-rnd Real.pi) (rnd Real.pi) 0 25 25 := by
  have e : rndToZ rnd (-rnd Real.pi) (rnd Real.pi) 0 25 25 = 7074237752028442 / 2 ^ 51 := by
    unfold rndToZ rndSlope
    rw [rnd_pi R]
    have h25 : rnd 25 = 25 := rnd_float R (by exact_mod_cast isFloat_int (p := 53) (m := 25) (by norm_num))
    rw [show (25 : ℝ) - 0 = 25 by norm_num, h25,
      rnd_float R (x := 884279719003555 / 2 ^ 48 - -(884279719003555 / 2 ^ 48)) ⟨884279719003555, -47, by norm_num, by norm_num⟩,
      rnd_eq R (by norm_num) (x := (884279719003555 / 2 ^ 48 - -(884279719003555 / 2 ^ 48)) / 25) 4527512161298202 (-54) (by norm_num) (by norm_num)
        (by norm_num [abs_lt]),
      rnd_eq R (by norm_num) (x := 25 * (((4527512161298202 : ℤ) : ℝ) * 2 ^ (-54 : ℤ))) 7074237752028441 (-50) (by norm_num) (by norm_num) (by norm_num [abs_lt]),
      rnd_float R (x := ((7074237752028441 : ℤ) : ℝ) * 2 ^ (-50 : ℤ) + -(884279719003555 / 2 ^ 48)) ⟨7074237752028442, -51, by norm_num, by norm_num⟩]
    norm_num
  rw [e]
  have h2 := Real.pi_lt_d20
  norm_num at h2 ⊢
  linarith

end

end Verif.Props
