import Verif.Props.RoundedFS
import Verif.Model.Programs
import Verif.Model.Bvp

/-!
# C93: the constraints of constrained expressions in floating point arithmetic

The expressions of the programs, computed with rounded operations. `h 0 t` stands for the entry of `np.dot(H(x),xi)` at the point `t`, whatever its own
rounding errors: the theorems only use that the same point gives the same entry and, for the exact cases, that it is a floating point number.
-/

namespace Verif.Props

open Verif Verif.Spec Verif.Model.Rounded Verif.Model.Prog Verif.Model.Py

section
variable {p : ℕ} {rnd : ℝ → ℝ}

theorem fl_val_add (a b : Fl rnd) : (a + b).val = rnd (a.val + b.val) := rfl
theorem fl_val_sub (a b : Fl rnd) : (a - b).val = rnd (a.val - b.val) := rfl
theorem fl_val_mul (a b : Fl rnd) : (a * b).val = rnd (a.val * b.val) := rfl
theorem fl_val_div (a b : Fl rnd) : (a / b).val = rnd (a.val / b.val) := rfl
theorem fl_val_neg (a : Fl rnd) : (-a).val = -a.val := rfl
theorem fl_val_pow (a : Fl rnd) (n : ℕ) : (a ^ n).val = rnd (a.val ^ n) := rfl
theorem fl_val_zero : (0 : Fl rnd).val = 0 := rfl
theorem fl_val_one : (1 : Fl rnd).val = 1 := rfl

theorem rnd_rnd (R : RoundsToNearest p rnd) (x : ℝ) : rnd (rnd x) = rnd x := rnd_float R (R.float x)

theorem rnd_one (R : RoundsToNearest p rnd) : rnd 1 = 1 := rnd_float R (isFloat_one p)

theorem rnd_ne_zero (R : RoundsToNearest p rnd) {x : ℝ} (hx : x ≠ 0) : rnd x ≠ 0 := by
  intro h
  have h1 := rnd_error R x
  rw [h, zero_sub, abs_neg] at h1
  have h2 := abs_pos.2 hx
  have h3 := unit_pos p
  have h4 : unit p / (1 + unit p) < 1 := by
    rw [div_lt_one (by linarith)]
    linarith
  nlinarith

/-- `(b - a) / (b - a)` is computed as 1. -/
theorem rnd_div_self (R : RoundsToNearest p rnd) {x : ℝ} (hx : x ≠ 0) : rnd (rnd x / rnd x) = 1 := by
  rw [div_self (rnd_ne_zero R hx), rnd_one R]

/-- A correction `a + (y - b)`, where `b` should be the same as `a`. -/
theorem correction_error (R : RoundsToNearest p rnd) (a b y : ℝ) :
    |rnd (a + rnd (y - b)) - y| ≤ unit p * |y| + 2 * unit p * |y - b| + (1 + unit p) * |a - b| := by
  have hu := unit_pos p
  have hu1 : unit p ≤ 1 := by
    unfold unit
    rw [zpow_neg, zpow_natCast]
    exact inv_le_one_of_one_le₀ (one_le_pow₀ (by norm_num))
  have h1 := rnd_error' R (y - b)
  have h2 := rnd_error' R (a + rnd (y - b))
  have h3 : |a + rnd (y - b) - y| ≤ |a - b| + unit p * |y - b| := by
    have e : a + rnd (y - b) - y = (a - b) + (rnd (y - b) - (y - b)) := by ring
    rw [e]
    exact (abs_add_le _ _).trans (by linarith)
  have h4 : |a + rnd (y - b)| ≤ |y| + (|a - b| + unit p * |y - b|) := by
    have e : a + rnd (y - b) = y + (a + rnd (y - b) - y) := by ring
    rw [e]
    exact (abs_add_le _ _).trans (by linarith)
  have h5 : |rnd (a + rnd (y - b)) - y| ≤ |rnd (a + rnd (y - b)) - (a + rnd (y - b))| + |a + rnd (y - b) - y| := by
    have e : rnd (a + rnd (y - b)) - y = (rnd (a + rnd (y - b)) - (a + rnd (y - b))) + (a + rnd (y - b) - y) := by ring
    rw [e]
    exact abs_add_le _ _
  have h6 := mul_le_mul_of_nonneg_left h4 hu.le
  have h7 : unit p * (unit p * |y - b|) ≤ unit p * |y - b| :=
    mul_le_mul_of_nonneg_left (mul_le_of_le_one_left (abs_nonneg _) hu1) hu.le
  nlinarith

theorem correction_self (R : RoundsToNearest p rnd) (a y : ℝ) : |rnd (a + rnd (y - a)) - y| ≤ unit p * (|y| + 2 * |y - a|) := by
  have := correction_error R a a y
  rw [sub_self, abs_zero] at this
  linarith

/-- The difference of two floating point numbers within a factor two of each other is a floating point number. -/
theorem sterbenz {x y : ℝ} (hx : IsFloat p x) (hy : IsFloat p y) (h1 : y ≤ 2 * x) (h2 : x ≤ 2 * y) : IsFloat p (x - y) := by
  obtain ⟨m, e, hm, rfl⟩ := hx
  obtain ⟨n, f, hn, rfl⟩ := hy
  have bm := float_bound hm e
  have bn := float_bound hn f
  have key : ∀ (g : ℤ) (k : ℤ), (m : ℝ) * 2 ^ e - n * 2 ^ f = k * 2 ^ g → |(m : ℝ) * 2 ^ e - n * 2 ^ f| ≤ 2 ^ ((p : ℤ) + g) →
      IsFloat p ((m : ℝ) * 2 ^ e - n * 2 ^ f) := by
    intro g k hk hb
    refine ⟨k, g, ?_, hk⟩
    rw [hk, abs_mul, abs_of_pos (two_zpow_pos g), zpow_add₀ (by norm_num), zpow_natCast] at hb
    have := le_of_mul_le_mul_right hb (two_zpow_pos g)
    exact_mod_cast this
  rcases le_total e f with h | h
  · obtain ⟨k, hk⟩ := zpow_int_mul h n
    refine key e (m - k) (by rw [hk]; push_cast; ring) (le_trans ?_ bm)
    rw [abs_of_nonneg (by linarith : 0 ≤ (m : ℝ) * 2 ^ e), abs_le]
    constructor <;> linarith
  · obtain ⟨k, hk⟩ := zpow_int_mul h m
    refine key f (k - n) (by rw [hk]; push_cast; ring) (le_trans ?_ bn)
    rw [abs_of_nonneg (by linarith : 0 ≤ (n : ℝ) * 2 ^ f), abs_le]
    constructor <;> linarith

/-- When the correction is exact: the prescribed value is 0, or within a factor two of the value of the free function. -/
theorem correction_exact (R : RoundsToNearest p rnd) {a y : ℝ} (ha : IsFloat p a) (hy : IsFloat p y)
    (h : y = 0 ∨ (a ≤ 2 * y ∧ y ≤ 2 * a) ∨ (2 * y ≤ a ∧ 2 * a ≤ y)) : rnd (a + rnd (y - a)) = y := by
  have e : ∀ {d}, IsFloat p d → d = y - a → rnd (a + rnd (y - a)) = y := fun hd h => by
    rw [← h, rnd_float R hd, h, add_sub_cancel, rnd_float R hy]
  rcases h with h | ⟨h1, h2⟩ | ⟨h1, h2⟩
  · exact e (isFloat_neg ha) (by rw [h, zero_sub])
  · exact e (sterbenz hy ha h1 h2) rfl
  · exact e (isFloat_neg (sterbenz (isFloat_neg hy) (isFloat_neg ha) (by linarith) (by linarith))) (by ring)

/-- tests/test_ODE.py 42–44: at the ends the rounded expression is `a + (y - a)` with two roundings, where `y` is the prescribed value and `a` the value of
the free function. -/
theorem ceExpr_ends (R : RoundsToNearest p rnd) {ti tf : Fl rnd} (h : ti.val ≠ tf.val) (yi yf g0 gf : Fl rnd) (hf : IsFloat p gf.val) :
    (ceExpr ti tf yi yf 0 ti g0 g0 gf).val = rnd (g0.val + rnd (yi.val - g0.val)) ∧
      (ceExpr ti tf yi yf 0 tf gf g0 gf).val = rnd (gf.val + rnd (yf.val - gf.val)) := by
  have h' := sub_ne_zero.2 h
  constructor <;>
  simp only [ceExpr, beta0, beta1, fl_val_add, fl_val_sub, fl_val_mul, fl_val_div, rnd_div_self R h', sub_self, rnd_zero R, zero_div, zero_mul,
    one_mul, add_zero, rnd_rnd R, rnd_float R hf]

theorem twoPointZ_ends (R : RoundsToNearest p rnd) (h : ℕ → Fl rnd → Fl rnd) {pts : List (Fl rnd)} (hp : (first pts).val ≠ (last pts).val) (x0 xf : Fl rnd)
    (hf : IsFloat p (h 0 (last pts)).val) :
    (twoPointZ h pts x0 xf (first pts)).val = rnd ((h 0 (first pts)).val + rnd (x0.val - (h 0 (first pts)).val)) ∧
      (twoPointZ h pts x0 xf (last pts)).val = rnd ((h 0 (last pts)).val + rnd (xf.val - (h 0 (last pts)).val)) := by
  have h' := sub_ne_zero.2 hp.symm
  constructor <;>
  simp only [twoPointZ, fl_val_add, fl_val_sub, fl_val_mul, fl_val_div, rnd_div_self R h', sub_self, rnd_zero R, zero_div, zero_mul,
    one_mul, add_zero, rnd_rnd R, rnd_float R hf]

theorem brachistochrone_ends (R : RoundsToNearest p rnd) (h : ℕ → Fl rnd → Fl rnd) {th0 thf : Fl rnd} (hp : th0.val ≠ thf.val) (r0 rf : Fl rnd)
    (hf : IsFloat p (h 0 thf).val) :
    (brachistochrone h th0 thf r0 rf th0).val = rnd ((h 0 th0).val + rnd (r0.val - (h 0 th0).val)) ∧
      (brachistochrone h th0 thf r0 rf thf).val = rnd ((h 0 thf).val + rnd (rf.val - (h 0 thf).val)) := by
  have h' := sub_ne_zero.2 hp.symm
  have h'' := sub_ne_zero.2 hp
  constructor <;>
  simp only [brachistochrone, fl_val_add, fl_val_sub, fl_val_mul, fl_val_div, rnd_div_self R h', rnd_div_self R h'', sub_self, rnd_zero R, zero_div,
    zero_mul, one_mul, add_zero, rnd_rnd R, rnd_float R hf]

theorem ivp_start (R : RoundsToNearest p rnd) (h : ℕ → Fl rnd → Fl rnd) (pts : List (Fl rnd)) (h0 : first pts = 0) (y0 y0p : Fl rnd) :
    (ivp h pts y0 y0p (first pts)).val = rnd ((h 0 (first pts)).val + rnd (y0.val - (h 0 (first pts)).val)) := by
  simp only [ivp, h0, fl_val_add, fl_val_sub, fl_val_mul, fl_val_zero, fl_val_one, rnd_zero R, zero_mul, one_mul, add_zero, rnd_rnd R]

theorem convDiff_ends (R : RoundsToNearest p rnd) (h : ℕ → Fl rnd → Fl rnd) :
    (convDiff h 0).val = rnd ((h 0 0).val + rnd (1 - (h 0 0).val)) ∧ (convDiff h 1).val = 0 := by
  constructor <;>
  simp only [convDiff, fl_val_add, fl_val_sub, fl_val_mul, fl_val_zero, fl_val_one, sub_self, sub_zero, rnd_one R, rnd_zero R, zero_mul, one_mul, add_zero,
    rnd_rnd R]

theorem bvp_ends [Libm (Fl rnd)] (R : RoundsToNearest p rnd) (hpi : (Libm.pi : Fl rnd).val = rnd Real.pi) (h : ℕ → Fl rnd → Fl rnd) (pts : List (Fl rnd))
    (h0 : first pts = 0) (y0 yf : Fl rnd) (hf : IsFloat p (h 0 Libm.pi).val) :
    (bvp h pts y0 yf (first pts)).val = rnd ((h 0 (first pts)).val + rnd (y0.val - (h 0 (first pts)).val)) ∧
      (bvp h pts y0 yf Libm.pi).val = rnd ((h 0 Libm.pi).val + rnd (yf.val - (h 0 (last pts)).val)) := by
  have h1 := div_self (rnd_ne_zero R Real.pi_ne_zero)
  constructor <;>
  simp only [bvp, h0, fl_val_add, fl_val_sub, fl_val_mul, fl_val_div, fl_val_zero, hpi, sub_self, sub_zero, rnd_rnd R, h1, rnd_one R, rnd_zero R, zero_div,
    zero_mul, one_mul, add_zero, rnd_float R hf]

/-! ## The cubic switching functions on `[-1, 1]` -/

theorem isFloat_small (hp : 6 ≤ p) {x : ℝ} (m : ℤ) (e : ℤ) (hm : |m| ≤ 64) (hx : x = m * 2 ^ e) : IsFloat p x :=
  ⟨m, e, hm.trans (by
    calc (64 : ℤ) = 2 ^ 6 := by norm_num
      _ ≤ 2 ^ p := pow_le_pow_right₀ (by norm_num) hp), hx⟩

theorem hphi_ends (R : RoundsToNearest p rnd) (hp : 6 ≤ p) {z0 zf : Fl rnd} (h0 : z0.val = -1) (hf : zf.val = 1) :
    (hphi1 z0 zf z0).val = 1 ∧ (hphi1 z0 zf zf).val = 0 ∧ (hphi2 z0 zf z0).val = 0 ∧ (hphi2 z0 zf zf).val = 1 ∧
      (hphi3 z0 zf z0).val = 0 ∧ (hphi3 z0 zf zf).val = 0 ∧ (hphi4 z0 zf z0).val = 0 ∧ (hphi4 z0 zf zf).val = 0 := by
  have I : ∀ m : ℤ, |m| ≤ 64 → rnd (m : ℝ) = m := fun m hm => rnd_float R (isFloat_small hp m 0 hm (by simp))
  have N : ∀ (n : ℕ) [n.AtLeastTwo], n ≤ 64 → (OfNat.ofNat n : Fl rnd).val = n := fun n _ hn => rnd_nat R (hn.trans (by
    calc 64 = 2 ^ 6 := by norm_num
      _ ≤ 2 ^ p := Nat.pow_le_pow_right (by norm_num) hp))
  have n2 : (2 : Fl rnd).val = 2 := by exact_mod_cast N 2 (by norm_num)
  have n3 : (3 : Fl rnd).val = 3 := by exact_mod_cast N 3 (by norm_num)
  have n6 : (6 : Fl rnd).val = 6 := by exact_mod_cast N 6 (by norm_num)
  have i0 := rnd_zero R
  have i1 := rnd_one R
  have i2 : rnd 2 = 2 := by exact_mod_cast I 2 (by norm_num)
  have i3 : rnd 3 = 3 := by exact_mod_cast I 3 (by norm_num)
  have i4 : rnd 4 = 4 := by exact_mod_cast I 4 (by norm_num)
  have i6 : rnd 6 = 6 := by exact_mod_cast I 6 (by norm_num)
  have i8 : rnd 8 = 8 := by exact_mod_cast I 8 (by norm_num)
  have i10 : rnd 10 = 10 := by exact_mod_cast I 10 (by norm_num)
  have j1 : rnd (-1) = -1 := by exact_mod_cast I (-1) (by norm_num)
  have j2 : rnd (-2) = -2 := by exact_mod_cast I (-2) (by norm_num)
  have j3 : rnd (-3) = -3 := by exact_mod_cast I (-3) (by norm_num)
  have j4 : rnd (-4) = -4 := by exact_mod_cast I (-4) (by norm_num)
  have j6 : rnd (-6) = -6 := by exact_mod_cast I (-6) (by norm_num)
  have q8 : rnd (1 / 8) = 1 / 8 := rnd_float R (isFloat_small hp 1 (-3) (by norm_num) (by norm_num))
  have q4 : rnd (1 / 4) = 1 / 4 := rnd_float R (isFloat_small hp 1 (-2) (by norm_num) (by norm_num))
  refine ⟨?_, ?_, ?_, ?_, ?_, ?_, ?_, ?_⟩ <;>
  norm_num [hphi1, hphi2, hphi3, hphi4, fl_val_add, fl_val_sub, fl_val_mul, fl_val_div, fl_val_neg, fl_val_pow, fl_val_one, h0, hf, n2, n3, n6, i0, i1, i2, i3, i4,
    i6, i8, i10, j1, j2, j3, j4, j6, q4, q8]

theorem periodic_ends (R : RoundsToNearest p rnd) (hp : 6 ≤ p) (h : ℕ → Fl rnd → Fl rnd) {pts : List (Fl rnd)} (h0 : (first pts).val = -1)
    (hf : (last pts).val = 1) (R0 V0 : Fl rnd) (hl : IsFloat p (h 0 (last pts)).val) :
    (periodic h pts R0 V0 (first pts)).val = rnd ((h 0 (first pts)).val + rnd (R0.val - (h 0 (first pts)).val)) ∧
      (periodic h pts R0 V0 (last pts)).val = rnd ((h 0 (last pts)).val + rnd (R0.val - (h 0 (last pts)).val)) := by
  obtain ⟨a1, a2, a3, a4, a5, a6, a7, a8⟩ := hphi_ends R hp h0 hf
  constructor
  · simp only [periodic, fl_val_add, fl_val_sub, fl_val_mul, a1, a3, a5, a7, rnd_zero R, zero_mul, one_mul, add_zero, rnd_rnd R]
  · simp only [periodic, fl_val_add, fl_val_sub, fl_val_mul, a2, a4, a6, a8, rnd_zero R, zero_mul, one_mul, add_zero, rnd_rnd R, rnd_float R hl]

theorem landing_ends (R : RoundsToNearest p rnd) (hp : 6 ≤ p) (h : ℕ → Fl rnd → Fl rnd) {pts : List (Fl rnd)} (h0 : (first pts).val = -1)
    (hf : (last pts).val = 1) (R0 V0 scale : Fl rnd) (hl : IsFloat p (h 0 (last pts)).val) :
    (landing h pts R0 V0 scale (first pts)).val = rnd ((h 0 (first pts)).val + rnd (R0.val - (h 0 (first pts)).val)) ∧
      (landing h pts R0 V0 scale (last pts)).val = 0 := by
  obtain ⟨a1, a2, a3, a4, a5, a6, a7, a8⟩ := hphi_ends R hp h0 hf
  constructor
  · simp only [landing, fl_val_add, fl_val_sub, fl_val_mul, a1, a3, a5, a7, rnd_zero R, zero_mul, one_mul, add_zero, rnd_rnd R]
  · simp only [landing, fl_val_add, fl_val_sub, fl_val_mul, fl_val_neg, a2, a4, a6, a8, rnd_zero R, zero_mul, one_mul, add_zero, rnd_rnd R, rnd_float R hl,
      rnd_float R (isFloat_neg hl), add_neg_cancel]

/-! ## The claims -/

theorem met_of_eq (R : RoundsToNearest p rnd) {v a y : ℝ} (ha : IsFloat p a) (hy : IsFloat p y) (h : v = rnd (a + rnd (y - a))) :
    MetUpToRounding (unit p) v y a := by
  rw [h]
  exact ⟨correction_self R a y, correction_exact R ha hy⟩

/-- **C93**, tests/test_ODE.py 42–44: the values `yi` and `yf` at the ends `ti` and `tf` are met up to rounding, whatever the free function. -/
theorem C93_ode (R : RoundsToNearest p rnd) {ti tf : Fl rnd} (h : ti.val ≠ tf.val) {yi yf g0 gf : Fl rnd} (hyi : IsFloat p yi.val) (hyf : IsFloat p yf.val)
    (h0 : IsFloat p g0.val) (hf : IsFloat p gf.val) :
    MetUpToRounding (unit p) (ceExpr ti tf yi yf 0 ti g0 g0 gf).val yi.val g0.val ∧
      MetUpToRounding (unit p) (ceExpr ti tf yi yf 0 tf gf g0 gf).val yf.val gf.val := by
  obtain ⟨h1, h2⟩ := ceExpr_ends R h yi yf g0 gf hf
  exact ⟨met_of_eq R h0 hyi h1, met_of_eq R hf hyf h2⟩

/-- **C93**, the expressions of the programs with values at both ends of the points of the object: J/Chapter_4/Example_4_7/UnknownTime.py,
B/Chapter_3/Problem_5.py and B/Chapter_3/Problem_4.py. -/
theorem C93_two_points (R : RoundsToNearest p rnd) (h : ℕ → Fl rnd → Fl rnd) (hh : ∀ t, IsFloat p (h 0 t).val) {y0 yf : Fl rnd} (h0 : IsFloat p y0.val)
    (hf : IsFloat p yf.val) :
    (∀ pts, (first pts).val ≠ (last pts).val →
      MetUpToRounding (unit p) (twoPointZ h pts y0 yf (first pts)).val y0.val (h 0 (first pts)).val ∧
      MetUpToRounding (unit p) (twoPointZ h pts y0 yf (last pts)).val yf.val (h 0 (last pts)).val) ∧
    (∀ a b : Fl rnd, a.val ≠ b.val →
      MetUpToRounding (unit p) (brachistochrone h a b y0 yf a).val y0.val (h 0 a).val ∧
      MetUpToRounding (unit p) (brachistochrone h a b y0 yf b).val yf.val (h 0 b).val) := by
  refine ⟨fun pts hp => ?_, fun a b hp => ?_⟩
  · obtain ⟨h1, h2⟩ := twoPointZ_ends R h hp y0 yf (hh _)
    exact ⟨met_of_eq R (hh _) h0 h1, met_of_eq R (hh _) hf h2⟩
  · obtain ⟨h1, h2⟩ := brachistochrone_ends R h hp y0 yf (hh _)
    exact ⟨met_of_eq R (hh _) h0 h1, met_of_eq R (hh _) hf h2⟩

/-- **C93**, the initial value of J/Chapter_4/Examples_4_1thru3/laneEmden_tfc.py and B/Chapter_3/section_3_5_1.py, example_3_1.py, Problem_1.py, Problem_2.py. -/
theorem C93_initial (R : RoundsToNearest p rnd) (h : ℕ → Fl rnd → Fl rnd) (hh : ∀ t, IsFloat p (h 0 t).val) {y0 : Fl rnd} (h0 : IsFloat p y0.val)
    (y0p : Fl rnd) (pts : List (Fl rnd)) (hp : first pts = 0) :
    MetUpToRounding (unit p) (ivp h pts y0 y0p (first pts)).val y0.val (h 0 (first pts)).val :=
  met_of_eq R (hh _) h0 (ivp_start R h pts hp y0 y0p)

/-- **C93**, D/Appendices/Appendix_D.py 35: the value 1 at 0 is met up to rounding, the value 0 at 1 exactly. -/
theorem C93_convection (R : RoundsToNearest p rnd) (h : ℕ → Fl rnd → Fl rnd) (hh : ∀ t, IsFloat p (h 0 t).val) :
    MetUpToRounding (unit p) (convDiff h 0).val 1 (h 0 0).val ∧ (convDiff h 1).val = 0 :=
  ⟨met_of_eq R (hh _) (isFloat_one p) (convDiff_ends R h).1, (convDiff_ends R h).2⟩

/-- **C93**, J/Chapter_4/Example_4_4/BVP_tfc.py and B/Chapter_3/section_3_5_2.py: the value at 0 is met up to rounding. At the rounded π the free function is
subtracted at the last collocation point, which need not be the rounded π (C86): the difference of the two values is added to the error. -/
theorem C93_bvp [Libm (Fl rnd)] (R : RoundsToNearest p rnd) (hpi : (Libm.pi : Fl rnd).val = rnd Real.pi) (h : ℕ → Fl rnd → Fl rnd)
    (hh : ∀ t, IsFloat p (h 0 t).val) (pts : List (Fl rnd)) (hp : first pts = 0) {y0 : Fl rnd} (h0 : IsFloat p y0.val) (yf : Fl rnd) :
    MetUpToRounding (unit p) (bvp h pts y0 yf (first pts)).val y0.val (h 0 (first pts)).val ∧
      |(bvp h pts y0 yf Libm.pi).val - yf.val| ≤ unit p * (|yf.val| + 2 * |yf.val - (h 0 (last pts)).val|) +
        (1 + unit p) * |(h 0 Libm.pi).val - (h 0 (last pts)).val| := by
  obtain ⟨h1, h2⟩ := bvp_ends R hpi h pts hp y0 yf (hh _)
  refine ⟨met_of_eq R (hh _) h0 h1, ?_⟩
  rw [h2]
  have := correction_error R (h 0 Libm.pi).val (h 0 (last pts)).val yf.val
  linarith

/-- **C93**, the programs with values and derivatives at both ends of `[-1, 1]`: the periodic orbits of J/Chapter_4/Example_4_8/Lyap.py and Example_4_9/Halo.py
(the same value at both ends) and the landings of B/Chapter_3/Problem_6.py and J/Chapter_6 (the end 0 is reached exactly). -/
theorem C93_cubic (R : RoundsToNearest p rnd) (hp : 6 ≤ p) (h : ℕ → Fl rnd → Fl rnd) (hh : ∀ t, IsFloat p (h 0 t).val) {pts : List (Fl rnd)}
    (h0 : (first pts).val = -1) (hf : (last pts).val = 1) {R0 : Fl rnd} (hR : IsFloat p R0.val) (V0 scale : Fl rnd) :
    MetUpToRounding (unit p) (periodic h pts R0 V0 (first pts)).val R0.val (h 0 (first pts)).val ∧
      MetUpToRounding (unit p) (periodic h pts R0 V0 (last pts)).val R0.val (h 0 (last pts)).val ∧
      MetUpToRounding (unit p) (landing h pts R0 V0 scale (first pts)).val R0.val (h 0 (first pts)).val ∧
      (landing h pts R0 V0 scale (last pts)).val = 0 := by
  obtain ⟨h1, h2⟩ := periodic_ends R hp h h0 hf R0 V0 (hh _)
  obtain ⟨h3, h4⟩ := landing_ends R hp h h0 hf R0 V0 scale (hh _)
  exact ⟨met_of_eq R (hh _) hR h1, met_of_eq R (hh _) hR h2, met_of_eq R (hh _) hR h3, h4⟩

/-- **C93**, D/Chapter_4/NaturalBalloonShape, `onePoint`: `h + v - h(-1)` adds first, so the size of the sum decides. -/
theorem C93_one_point (R : RoundsToNearest p rnd) (h : ℕ → Fl rnd → Fl rnd) (v : Fl rnd) :
    |(onePoint h v (-1)).val - v.val| ≤ unit p * (|v.val| + 2 * |(h 0 (-1)).val + v.val|) := by
  have e : (onePoint h v (-1)).val = rnd (rnd ((h 0 (-1)).val + v.val) - (h 0 (-1)).val) := rfl
  rw [e]
  have hu := unit_pos p
  have hu1 : unit p ≤ 1 := by
    unfold unit
    rw [zpow_neg, zpow_natCast]
    exact inv_le_one_of_one_le₀ (one_le_pow₀ (by norm_num))
  obtain ⟨a, ha⟩ : ∃ a, a = (h 0 (-1)).val := ⟨_, rfl⟩
  rw [← ha]
  have h1 := rnd_error' R (a + v.val)
  have h2 := rnd_error' R (rnd (a + v.val) - a)
  have e1 : rnd (a + v.val) - a = v.val + (rnd (a + v.val) - (a + v.val)) := by ring
  have h3 : |rnd (a + v.val) - a| ≤ |v.val| + unit p * |a + v.val| := by
    rw [e1]
    exact (abs_add_le _ _).trans (by linarith)
  have h4 : |rnd (rnd (a + v.val) - a) - v.val| ≤ |rnd (rnd (a + v.val) - a) - (rnd (a + v.val) - a)| + |rnd (a + v.val) - (a + v.val)| := by
    have e2 : rnd (rnd (a + v.val) - a) - v.val = (rnd (rnd (a + v.val) - a) - (rnd (a + v.val) - a)) + (rnd (a + v.val) - (a + v.val)) := by ring
    rw [e2]
    exact abs_add_le _ _
  have h5 := mul_le_mul_of_nonneg_left h3 hu.le
  have h6 : unit p * (unit p * |a + v.val|) ≤ unit p * |a + v.val| := mul_le_mul_of_nonneg_left (mul_le_of_le_one_left (abs_nonneg _) hu1) hu.le
  nlinarith

/-- **C93**, negated: in exact arithmetic the constraints hold whatever the free function (C69, C77), with doubles they do not. With the free function
`-2 ^ 60` and the prescribed value 1 at the start, the expression of tests/test_ODE.py is 0 there. -/
theorem C93_fails (R : RoundsToNearest 53 rnd) {ti tf : Fl rnd} (h : ti.val ≠ tf.val) :
    (ceExpr ti tf 1 1 0 ti ⟨-2 ^ 60⟩ ⟨-2 ^ 60⟩ ⟨-2 ^ 60⟩).val = 0 := by
  have hf : IsFloat 53 (-2 ^ 60) := isFloat_neg (by exact_mod_cast isFloat_zpow 53 60)
  rw [(ceExpr_ends R h 1 1 _ _ hf).1]
  change rnd (-2 ^ 60 + rnd (1 - -2 ^ 60)) = 0
  rw [rnd_eq R (by norm_num) (x := 1 - -2 ^ 60) (2 ^ 53) 7 (by norm_num) (by norm_num) (by norm_num)]
  norm_num [rnd_zero R]

/-- A concrete case: doubles, the expression of tests/test_ODE.py on `[0, 10]` with `y(0) = 1`, `y(10) = 0` and a free function with the values 3 and 7. -/
example (R : RoundsToNearest 53 rnd) : |(ceExpr (⟨0⟩ : Fl rnd) ⟨10⟩ ⟨1⟩ ⟨0⟩ 0 ⟨0⟩ ⟨3⟩ ⟨3⟩ ⟨7⟩).val - 1| ≤ 2 ^ (-53 : ℤ) * 5 ∧
    (ceExpr (⟨0⟩ : Fl rnd) ⟨10⟩ ⟨1⟩ ⟨0⟩ 0 ⟨10⟩ ⟨7⟩ ⟨3⟩ ⟨7⟩).val = 0 := by
  have I : ∀ m : ℤ, |m| ≤ 64 → IsFloat 53 (m : ℝ) := fun m hm => isFloat_small (by norm_num) m 0 hm (by simp)
  obtain ⟨h1, h2⟩ := C93_ode R (ti := ⟨0⟩) (tf := ⟨10⟩) (yi := ⟨1⟩) (yf := ⟨0⟩) (g0 := ⟨3⟩) (gf := ⟨7⟩) (by norm_num) (by exact_mod_cast I 1 (by norm_num))
    (by exact_mod_cast I 0 (by norm_num)) (by exact_mod_cast I 3 (by norm_num)) (by exact_mod_cast I 7 (by norm_num))
  refine ⟨h1.error.trans ?_, h2.exact (Or.inl rfl)⟩
  have : |(1 : ℝ)| + 2 * |(1 : ℝ) - 3| = 5 := by norm_num
  rw [this]
  exact le_refl _

end

end Verif.Props
