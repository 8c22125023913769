import Verif.Props.RoundedCE
import Verif.Props.Backends
import Verif.Spec.Magnitude
import Verif.Spec.Domain

/-!
# C94: all polynomial classes in floating point arithmetic, at all points
-/

namespace Verif.Props

open Verif Verif.Mem Verif.Py Verif.Np Verif.Spec Verif.Model.Rounded Polynomial

/-! ## Numbers with a bound of their size and an error of `n` roundings -/

/-- `x` is a computed value of `X`, whose size is at most `M`, after at most `n` roundings of relative error `u`. -/
structure Near (u : ℝ) (n : ℕ) (M X x : ℝ) : Prop where
  le : |X| ≤ M
  err : |x - X| ≤ ((1 + u) ^ n - 1) * M

section
variable {u M X x N Y y : ℝ} {n m : ℕ}

theorem Near.nonneg (h : Near u n M X x) : 0 ≤ M := (abs_nonneg _).trans h.le

theorem Near.size (h : Near u n M X x) : |x| ≤ (1 + u) ^ n * M := by
  have e : x = (x - X) + X := by ring
  rw [e]
  have h1 := h.err
  have h2 := h.le
  exact (abs_add_le _ _).trans (by linarith)

theorem Near.mono (hu : 0 ≤ u) (h : Near u n M X x) (hnm : n ≤ m) : Near u m M X x := by
  refine ⟨h.le, h.err.trans (mul_le_mul_of_nonneg_right ?_ h.nonneg)⟩
  have := pow_le_pow_right₀ (show 1 ≤ 1 + u by linarith) hnm
  linarith

theorem near_exact (x : ℝ) (h : 0 ≤ x) : Near u 0 x x x := ⟨(abs_of_nonneg h).le, by simp⟩

theorem Near.neg (h : Near u n M X x) : Near u n M (-X) (-x) := ⟨by rw [abs_neg]; exact h.le, by
  have e : -x - -X = -(x - X) := by ring
  rw [e, abs_neg]
  exact h.err⟩

/-- One more rounding. -/
theorem near_round {z Z S : ℝ} (h1 : |Z| ≤ S) (h2 : |z - Z| ≤ ((1 + u) ^ n - 1) * S) (hu : 0 ≤ u) {w : ℝ} (hw : |w - z| ≤ u * |z|) :
    Near u (n + 1) S Z w := by
  refine ⟨h1, ?_⟩
  have h3 : |z| ≤ (1 + u) ^ n * S := Near.size ⟨h1, h2⟩
  have e : w - Z = (w - z) + (z - Z) := by ring
  rw [e]
  refine (abs_add_le _ _).trans ?_
  have h4 := mul_le_mul_of_nonneg_left h3 hu
  have : ((1 + u) ^ (n + 1) - 1) * S = u * ((1 + u) ^ n * S) + ((1 + u) ^ n - 1) * S := by ring
  linarith

variable {p : ℕ} {rnd : ℝ → ℝ}

theorem Near.add (R : RoundsToNearest p rnd) (h1 : Near (unit p) n M X x) (h2 : Near (unit p) m N Y y) {k : ℕ} (hn : n ≤ k) (hm : m ≤ k) :
    Near (unit p) (k + 1) (M + N) (X + Y) (rnd (x + y)) := by
  have hu := (unit_pos p).le
  have h1 := h1.mono hu hn
  have h2 := h2.mono hu hm
  refine near_round ((abs_add_le _ _).trans (add_le_add h1.le h2.le)) ?_ hu (rnd_error' R (x + y))
  have e : x + y - (X + Y) = (x - X) + (y - Y) := by ring
  rw [e]
  exact (abs_add_le _ _).trans (by linarith [h1.err, h2.err])

theorem Near.sub (R : RoundsToNearest p rnd) (h1 : Near (unit p) n M X x) (h2 : Near (unit p) m N Y y) {k : ℕ} (hn : n ≤ k) (hm : m ≤ k) :
    Near (unit p) (k + 1) (M + N) (X - Y) (rnd (x - y)) := by
  rw [sub_eq_add_neg, sub_eq_add_neg]
  exact h1.add R h2.neg hn hm

theorem Near.mul (R : RoundsToNearest p rnd) (h1 : Near (unit p) n M X x) (h2 : Near (unit p) m N Y y) :
    Near (unit p) (n + m + 1) (M * N) (X * Y) (rnd (x * y)) := by
  have hu := (unit_pos p).le
  refine near_round ?_ ?_ hu (rnd_error' R (x * y))
  · rw [abs_mul]
    exact mul_le_mul h1.le h2.le (abs_nonneg _) h1.nonneg
  · have e : x * y - X * Y = (x - X) * y + X * (y - Y) := by ring
    rw [e]
    refine (abs_add_le _ _).trans ?_
    rw [abs_mul (x - X), abs_mul X]
    have a1 : |x - X| * |y| ≤ (((1 + unit p) ^ n - 1) * M) * ((1 + unit p) ^ m * N) :=
      mul_le_mul h1.err h2.size (abs_nonneg _) ((abs_nonneg _).trans h1.err)
    have a2 : |X| * |y - Y| ≤ M * (((1 + unit p) ^ m - 1) * N) := mul_le_mul h1.le h2.err (abs_nonneg _) h1.nonneg
    have e2 : ((1 + unit p) ^ (n + m) - 1) * (M * N) = (((1 + unit p) ^ n - 1) * M) * ((1 + unit p) ^ m * N) + M * (((1 + unit p) ^ m - 1) * N) := by
      rw [pow_add]
      ring
    linarith

theorem Near.div (R : RoundsToNearest p rnd) (h1 : Near (unit p) n M X x) {q : ℝ} (hq : 0 < q) : Near (unit p) (n + 1) (M / q) (X / q) (rnd (x / q)) := by
  have hu := (unit_pos p).le
  refine near_round ?_ ?_ hu (rnd_error' R (x / q))
  · rw [abs_div, abs_of_pos hq]
    exact div_le_div_of_nonneg_right h1.le hq.le
  · have e : x / q - X / q = (x - X) / q := by ring
    rw [e, abs_div, abs_of_pos hq, ← mul_div_assoc]
    exact div_le_div_of_nonneg_right h1.err hq.le

/-- A power, exact. -/
theorem near_pow (hu : 0 ≤ u) (h : Near u n M X x) : ∀ d : ℕ, |X ^ d| ≤ M ^ d ∧ |x ^ d - X ^ d| ≤ ((1 + u) ^ (n * d) - 1) * M ^ d
  | 0 => by simp
  | d + 1 => by
    obtain ⟨a1, a2⟩ := near_pow hu h d
    have hM := h.nonneg
    have hMd : 0 ≤ M ^ d := pow_nonneg hM d
    refine ⟨?_, ?_⟩
    · rw [pow_succ, pow_succ, abs_mul]
      exact mul_le_mul a1 h.le (abs_nonneg _) hMd
    · have e : x ^ (d + 1) - X ^ (d + 1) = (x ^ d - X ^ d) * x + X ^ d * (x - X) := by ring
      rw [e]
      refine (abs_add_le _ _).trans ?_
      rw [abs_mul (x ^ d - X ^ d), abs_mul (X ^ d)]
      have b1 : |x ^ d - X ^ d| * |x| ≤ (((1 + u) ^ (n * d) - 1) * M ^ d) * ((1 + u) ^ n * M) :=
        mul_le_mul a2 h.size (abs_nonneg _) ((abs_nonneg _).trans a2)
      have b2 : |X ^ d| * |x - X| ≤ M ^ d * (((1 + u) ^ n - 1) * M) := mul_le_mul a1 h.err (abs_nonneg _) hMd
      have e2 : ((1 + u) ^ (n * (d + 1)) - 1) * M ^ (d + 1) =
          (((1 + u) ^ (n * d) - 1) * M ^ d) * ((1 + u) ^ n * M) + M ^ d * (((1 + u) ^ n - 1) * M) := by
        rw [mul_add, mul_one, pow_add, pow_succ M]
        ring
      linarith

theorem Near.pow (R : RoundsToNearest p rnd) (h : Near (unit p) n M X x) (d : ℕ) : Near (unit p) (n * d + 1) (M ^ d) (X ^ d) (rnd (x ^ d)) := by
  obtain ⟨h1, h2⟩ := near_pow (unit_pos p).le h d
  exact near_round h1 h2 (unit_pos p).le (rnd_error' R (x ^ d))

end

/-! ## The tables -/

/-- The recurrences with all signs positive. -/
noncomputable def sizeTable : PolyFamily → ℕ → ℝ → ℕ → ℝ
  | .cp => recTable (fun z => z) 1 (fun _ z f1 f2 => 2 * z * f1 + f2) (fun d _ z e f1 f2 => (2 + 2 * (d : ℝ)) * e + 2 * z * f1 + f2)
  | .lep => recTable (fun z => z) 1 (fun k z f1 f2 => ((2 * (k : ℝ) + 1) * z * f1 + (k : ℝ) * f2) / ((k : ℝ) + 1))
      (fun d k z e f1 f2 => ((2 * (k : ℝ) + 1) * (((d : ℝ) + 1) * e + z * f1) + (k : ℝ) * f2) / ((k : ℝ) + 1))
  | .lap => recTable (fun z => 1 + z) 1 (fun k z f1 f2 => ((2 * (k : ℝ) + 1 + z) * f1 + (k : ℝ) * f2) / ((k : ℝ) + 1))
      (fun d k z e f1 f2 => ((2 * (k : ℝ) + 1 + z) * f1 + ((d : ℝ) + 1) * e + (k : ℝ) * f2) / ((k : ℝ) + 1))
  | .hopPro => recTable (fun z => z) 1 (fun k z f1 f2 => z * f1 + (k : ℝ) * f2) (fun d k z e f1 f2 => ((d : ℝ) + 1) * e + z * f1 + (k : ℝ) * f2)
  | .hopPhy => recTable (fun z => 2 * z) 2 (fun k z f1 f2 => 2 * z * f1 + 2 * (k : ℝ) * f2)
      (fun d k z e f1 f2 => 2 * ((d : ℝ) + 1) * e + 2 * z * f1 + 2 * (k : ℝ) * f2)

section
variable {p : ℕ} {rnd : ℝ → ℝ}

/-- Three recurrences side by side: the sizes, the exact values, the computed values. -/
theorem tables_near {u : ℝ} (hu : 0 ≤ u) {K : Type} [Zero K] [One K] (val : K → ℝ) (v0 : val 0 = 0) (v1 : val 1 = 1)
    {i1 : ℝ → ℝ} {dc1 : ℝ} {r1 : ℕ → ℝ → ℝ → ℝ → ℝ} {dr1 : ℕ → ℕ → ℝ → ℝ → ℝ → ℝ → ℝ} {D1 : ℕ → ℝ → ℕ → ℝ} (S1 : RecSpec i1 dc1 r1 dr1 D1)
    {i2 : ℝ → ℝ} {dc2 : ℝ} {r2 : ℕ → ℝ → ℝ → ℝ → ℝ} {dr2 : ℕ → ℕ → ℝ → ℝ → ℝ → ℝ → ℝ} {D2 : ℕ → ℝ → ℕ → ℝ} (S2 : RecSpec i2 dc2 r2 dr2 D2)
    {i3 : K → K} {dc3 : K} {r3 : ℕ → K → K → K → K} {dr3 : ℕ → ℕ → K → K → K → K → K} {D3 : ℕ → K → ℕ → K} (S3 : RecSpec i3 dc3 r3 dr3 D3)
    {a L D : ℕ} {r Z : ℝ} {z : K} (hi : Near u a (i1 r) (i2 Z) (val (i3 z))) (hd : Near u a dc1 dc2 (val dc3))
    (hr : ∀ k, 2 * k + 1 ≤ L → ∀ n M1 X1 x1 M2 X2 x2, Near u n M1 X1 (val x1) → Near u n M2 X2 (val x2) →
      Near u (n + a) (r1 k r M1 M2) (r2 k Z X1 X2) (val (r3 k z x1 x2)))
    (hdr : ∀ d k, 2 + 2 * d ≤ D → 2 * k + 1 ≤ L → ∀ n M0 X0 x0 M1 X1 x1 M2 X2 x2, Near u n M0 X0 (val x0) → Near u n M1 X1 (val x1) →
      Near u n M2 X2 (val x2) → Near u (n + a) (dr1 d k r M0 M1 M2) (dr2 d k Z X0 X1 X2) (val (dr3 d k z x0 x1 x2))) :
    ∀ d, 2 * d ≤ D → ∀ k, 2 * k ≤ L + 1 → Near u (a * k) (D1 d r k) (D2 d Z k) (val (D3 d z k)) := by
  intro d
  induction d with
  | zero =>
    intro _ k
    induction k using Nat.strong_induction_on with
    | _ k ih =>
      intro hk
      match k, ih, hk with
      | 0, _, _ =>
        rw [S1.z0, S2.z0, S3.z0, v1, mul_zero]
        exact near_exact 1 zero_le_one
      | 1, _, _ =>
        rw [S1.z1, S2.z1, S3.z1, mul_one]
        exact hi
      | k + 2, ih, hk =>
        rw [S1.zs, S2.zs, S3.zs]
        have := hr (k + 1) (by omega) (a * (k + 1)) _ _ _ _ _ _ (ih (k + 1) (by omega) (by omega))
          ((ih k (by omega) (by omega)).mono hu (Nat.mul_le_mul_left a (by omega)))
        rwa [← Nat.mul_succ] at this
  | succ d ihd =>
    intro hD k
    induction k using Nat.strong_induction_on with
    | _ k ih =>
      intro hk
      match k, ih, hk with
      | 0, _, _ =>
        rw [S1.d0, S2.d0, S3.d0, v0, mul_zero]
        exact near_exact 0 le_rfl
      | 1, _, _ =>
        rcases d with _ | d
        · rw [S1.d1, S2.d1, S3.d1, mul_one]
          exact hd
        · rw [S1.d2, S2.d2, S3.d2, v0]
          exact (near_exact 0 le_rfl).mono hu (Nat.zero_le _)
      | k + 2, ih, hk =>
        rw [S1.ds, S2.ds, S3.ds]
        have := hdr d (k + 1) (by omega) (by omega) (a * (k + 1)) _ _ _ _ _ _ _ _ _ (ihd (by omega) (k + 1) (by omega))
          (ih (k + 1) (by omega) (by omega)) ((ih k (by omega) (by omega)).mono hu (Nat.mul_le_mul_left a (by omega)))
        rwa [← Nat.mul_succ] at this

theorem near_nat {u : ℝ} (k : ℕ) : Near u 0 (k : ℝ) k k := near_exact _ (Nat.cast_nonneg k)

/-- The computed table of a class: every column costs five roundings more than the point itself. -/
theorem opTable_near (R : RoundsToNearest p rnd) (f : PolyFamily) {b : ℕ} {r Z : ℝ} {z : Fl rnd} (hz : Near (unit p) b r Z z.val) (d : ℕ) (hd : 2 * d ≤ 2 ^ p)
    (k : ℕ) (hk : 2 * k ≤ 2 ^ p + 1) :
    Near (unit p) ((b + 5) * k) (sizeTable f d r k) (polyD ℝ f d Z k) (opTable f d z k).val := by
  have hu := (unit_pos p).le
  have two : Near (unit p) 0 2 2 2 := near_exact 2 zero_le_two
  have one : Near (unit p) 0 1 1 1 := near_exact 1 zero_le_one
  have odd : ∀ k : ℕ, Near (unit p) 0 (2 * (k : ℝ) + 1) (2 * (k : ℝ) + 1) (2 * (k : ℝ) + 1) := fun k => near_exact _ (by positivity)
  have succ : ∀ k : ℕ, Near (unit p) 0 ((k : ℝ) + 1) ((k : ℝ) + 1) ((k : ℝ) + 1) := fun k => near_exact _ (by positivity)
  have vtwo := fl_two R
  cases f with
  | cp =>
    refine tables_near hu Fl.val rfl rfl (recTable_spec _ _ _ _) (recSpec_cp (K := ℝ)) (recTable_spec _ _ _ _) (L := 2 ^ p) (D := 2 ^ p)
      (hz.mono hu (by omega)) (one.mono hu (by omega)) ?_ ?_ d hd k hk
    · intro k hk n M1 X1 x1 M2 X2 x2 h1 h2
      show Near _ _ _ _ (rnd (rnd (rnd ((2 : Fl rnd).val * z.val) * x1.val) - x2.val))
      rw [vtwo]
      exact (((two.mul R hz).mul R h1).sub R h2 le_rfl (by omega)).mono hu (by omega)
    · intro d k hd hk n M0 X0 x0 M1 X1 x1 M2 X2 x2 h0 h1 h2
      show Near _ _ _ _ (rnd (rnd (rnd ((2 + 2 * (d : Fl rnd) : Fl rnd).val * x0.val) + rnd (rnd ((2 : Fl rnd).val * z.val) * x1.val)) - x2.val))
      rw [vtwo, fl_coeff R hd]
      have c : Near (unit p) 0 (2 + 2 * (d : ℝ)) (2 + 2 * (d : ℝ)) (2 + 2 * (d : ℝ)) := near_exact _ (by positivity)
      exact ((((c.mul R h0).add R ((two.mul R hz).mul R h1) (k := n + b + 2) (by omega) (by omega)).sub R h2 le_rfl (by omega))).mono hu (by omega)
  | lep =>
    refine tables_near hu Fl.val rfl rfl (recTable_spec _ _ _ _) (recSpec_lep (K := ℝ)) (recTable_spec _ _ _ _) (L := 2 ^ p) (D := 2 ^ p)
      (hz.mono hu (by omega)) (one.mono hu (by omega)) ?_ ?_ d hd k hk
    · intro k hk n M1 X1 x1 M2 X2 x2 h1 h2
      show Near _ _ _ _ (rnd (rnd (rnd (rnd ((2 * (k : Fl rnd) + 1 : Fl rnd).val * z.val) * x1.val) - rnd ((k : Fl rnd).val * x2.val)) / ((k : Fl rnd) + 1 : Fl rnd).val))
      rw [fl_odd R hk, fl_nat R (by omega), fl_nat_succ R (by omega)]
      exact (((((odd k).mul R hz).mul R h1).sub R ((near_nat k).mul R h2) le_rfl (by omega)).div R (by positivity)).mono hu (by omega)
    · intro d k hd hk n M0 X0 x0 M1 X1 x1 M2 X2 x2 h0 h1 h2
      show Near _ _ _ _ (rnd (rnd (rnd ((2 * (k : Fl rnd) + 1 : Fl rnd).val * rnd (rnd (((d : Fl rnd) + 1 : Fl rnd).val * x0.val) + rnd (z.val * x1.val))) -
        rnd ((k : Fl rnd).val * x2.val)) / ((k : Fl rnd) + 1 : Fl rnd).val))
      rw [fl_odd R hk, fl_nat R (by omega), fl_nat_succ R (by omega), fl_nat_succ R (by omega)]
      exact ((((odd k).mul R (((succ d).mul R h0).add R (hz.mul R h1) (k := b + n + 1) (by omega) le_rfl)).sub R ((near_nat k).mul R h2) le_rfl
        (by omega)).div R (by positivity)).mono hu (by omega)
  | lap =>
    refine tables_near hu Fl.val rfl rfl (recTable_spec _ _ _ _) (recSpec_lap (K := ℝ)) (recTable_spec _ _ _ _) (L := 2 ^ p) (D := 2 ^ p)
      ((one.sub R hz (Nat.zero_le _) le_rfl).mono hu (by omega)) (one.neg.mono hu (by omega)) ?_ ?_ d hd k hk
    · intro k hk n M1 X1 x1 M2 X2 x2 h1 h2
      show Near _ _ _ _ (rnd (rnd (rnd (rnd ((2 * (k : Fl rnd) + 1 : Fl rnd).val - z.val) * x1.val) - rnd ((k : Fl rnd).val * x2.val)) / ((k : Fl rnd) + 1 : Fl rnd).val))
      rw [fl_odd R hk, fl_nat R (by omega), fl_nat_succ R (by omega)]
      exact ((((((odd k).sub R hz (Nat.zero_le _) le_rfl)).mul R h1).sub R ((near_nat k).mul R h2) le_rfl (by omega)).div R (by positivity)).mono hu (by omega)
    · intro d k hd hk n M0 X0 x0 M1 X1 x1 M2 X2 x2 h0 h1 h2
      show Near _ _ _ _ (rnd (rnd (rnd (rnd (rnd ((2 * (k : Fl rnd) + 1 : Fl rnd).val - z.val) * x1.val) - rnd (((d : Fl rnd) + 1 : Fl rnd).val * x0.val)) -
        rnd ((k : Fl rnd).val * x2.val)) / ((k : Fl rnd) + 1 : Fl rnd).val))
      rw [fl_odd R hk, fl_nat R (by omega), fl_nat_succ R (by omega), fl_nat_succ R (by omega)]
      exact (((((((odd k).sub R hz (Nat.zero_le _) le_rfl)).mul R h1).sub R ((succ d).mul R h0) le_rfl (by omega)).sub R ((near_nat k).mul R h2) le_rfl
        (by omega)).div R (by positivity)).mono hu (by omega)
  | hopPro =>
    refine tables_near hu Fl.val rfl rfl (recTable_spec _ _ _ _) (recSpec_hopPro (K := ℝ)) (recTable_spec _ _ _ _) (L := 2 ^ p) (D := 2 ^ p)
      (hz.mono hu (by omega)) (one.mono hu (by omega)) ?_ ?_ d hd k hk
    · intro k hk n M1 X1 x1 M2 X2 x2 h1 h2
      show Near _ _ _ _ (rnd (rnd (z.val * x1.val) - rnd ((k : Fl rnd).val * x2.val)))
      rw [fl_nat R (by omega)]
      exact ((hz.mul R h1).sub R ((near_nat k).mul R h2) le_rfl (by omega)).mono hu (by omega)
    · intro d k hd hk n M0 X0 x0 M1 X1 x1 M2 X2 x2 h0 h1 h2
      show Near _ _ _ _ (rnd (rnd (rnd (((d : Fl rnd) + 1 : Fl rnd).val * x0.val) + rnd (z.val * x1.val)) - rnd ((k : Fl rnd).val * x2.val)))
      rw [fl_nat R (by omega), fl_nat_succ R (by omega)]
      exact ((((succ d).mul R h0).add R (hz.mul R h1) (k := b + n + 1) (by omega) le_rfl).sub R ((near_nat k).mul R h2) le_rfl (by omega)).mono hu (by omega)
  | hopPhy =>
    have tk : ∀ k : ℕ, 2 * k ≤ 2 ^ p → (2 * (k : Fl rnd) : Fl rnd).val = 2 * (k : ℝ) := fun k hk => by
      show rnd ((2 : Fl rnd).val * (k : Fl rnd).val) = _
      rw [vtwo, fl_nat R (by omega)]
      exact_mod_cast rnd_nat R hk
    have td : ∀ d : ℕ, 2 + 2 * d ≤ 2 ^ p → (2 * ((d : Fl rnd) + 1) : Fl rnd).val = 2 * ((d : ℝ) + 1) := fun d hd => by
      show rnd ((2 : Fl rnd).val * ((d : Fl rnd) + 1 : Fl rnd).val) = _
      rw [vtwo, fl_nat_succ R (by omega)]
      exact_mod_cast rnd_nat R (show 2 * (d + 1) ≤ 2 ^ p by omega)
    have n2 : ∀ k : ℕ, Near (unit p) 0 (2 * (k : ℝ)) (2 * (k : ℝ)) (2 * (k : ℝ)) := fun k => near_exact _ (by positivity)
    have nd : ∀ d : ℕ, Near (unit p) 0 (2 * ((d : ℝ) + 1)) (2 * ((d : ℝ) + 1)) (2 * ((d : ℝ) + 1)) := fun d => near_exact _ (by positivity)
    refine tables_near hu Fl.val rfl rfl (recTable_spec _ _ _ _) (recSpec_hopPhy (K := ℝ)) (recTable_spec _ _ _ _) (L := 2 ^ p) (D := 2 ^ p)
      ?_ ?_ ?_ ?_ d hd k hk
    · show Near _ _ _ _ (rnd ((2 : Fl rnd).val * z.val))
      rw [vtwo]
      exact (two.mul R hz).mono hu (by omega)
    · rw [vtwo]
      exact two.mono hu (by omega)
    · intro k hk n M1 X1 x1 M2 X2 x2 h1 h2
      show Near _ _ _ _ (rnd (rnd (rnd ((2 : Fl rnd).val * z.val) * x1.val) - rnd ((2 * (k : Fl rnd) : Fl rnd).val * x2.val)))
      rw [vtwo, tk k (by omega)]
      exact (((two.mul R hz).mul R h1).sub R ((n2 k).mul R h2) le_rfl (by omega)).mono hu (by omega)
    · intro d k hd hk n M0 X0 x0 M1 X1 x1 M2 X2 x2 h0 h1 h2
      show Near _ _ _ _ (rnd (rnd (rnd ((2 * ((d : Fl rnd) + 1) : Fl rnd).val * x0.val) + rnd (rnd ((2 : Fl rnd).val * z.val) * x1.val)) -
        rnd ((2 * (k : Fl rnd) : Fl rnd).val * x2.val)))
      rw [vtwo, tk k (by omega), td d hd]
      exact ((((nd d).mul R h0).add R ((two.mul R hz).mul R h1) (k := b + n + 2) (by omega) (by omega)).sub R ((n2 k).mul R h2) le_rfl (by omega)).mono hu (by omega)

end

/-! ## The sizes -/

/-- Two recurrences side by side: positive signs, and complex values at an imaginary point. -/
theorem tables_twist {i1 : ℝ → ℝ} {dc1 : ℝ} {r1 : ℕ → ℝ → ℝ → ℝ → ℝ} {dr1 : ℕ → ℕ → ℝ → ℝ → ℝ → ℝ → ℝ} {D1 : ℕ → ℝ → ℕ → ℝ} (S1 : RecSpec i1 dc1 r1 dr1 D1)
    {i2 : ℂ → ℂ} {dc2 : ℂ} {r2 : ℕ → ℂ → ℂ → ℂ → ℂ} {dr2 : ℕ → ℕ → ℂ → ℂ → ℂ → ℂ → ℂ} {D2 : ℕ → ℂ → ℕ → ℂ} (S2 : RecSpec i2 dc2 r2 dr2 D2)
    {r : ℝ} (hi : Complex.I * (i1 r : ℂ) = i2 ((r : ℂ) * Complex.I)) (hd : (dc1 : ℂ) = dc2)
    (hr : ∀ (k : ℕ) (M1 M2 : ℝ) (X1 X2 : ℂ), Complex.I ^ (k + 1) * M1 = X1 → Complex.I ^ k * M2 = X2 →
      Complex.I ^ (k + 2) * (r1 (k + 1) r M1 M2 : ℂ) = r2 (k + 1) ((r : ℂ) * Complex.I) X1 X2)
    (hdr : ∀ (d k : ℕ) (M0 M1 M2 : ℝ) (X0 X1 X2 : ℂ), Complex.I ^ (k + 1) * M0 = Complex.I ^ d * X0 → Complex.I ^ (k + 1) * M1 = Complex.I ^ (d + 1) * X1 →
      Complex.I ^ k * M2 = Complex.I ^ (d + 1) * X2 →
      Complex.I ^ (k + 2) * (dr1 d (k + 1) r M0 M1 M2 : ℂ) = Complex.I ^ (d + 1) * dr2 d (k + 1) ((r : ℂ) * Complex.I) X0 X1 X2) :
    ∀ d k, Complex.I ^ k * (D1 d r k : ℂ) = Complex.I ^ d * D2 d ((r : ℂ) * Complex.I) k := by
  intro d
  induction d with
  | zero =>
    intro k
    induction k using Nat.strong_induction_on with
    | _ k ih =>
      match k, ih with
      | 0, _ =>
        rw [S1.z0, S2.z0]
        simp
      | 1, _ =>
        rw [S1.z1, S2.z1, pow_one, hi, pow_zero, one_mul]
      | k + 2, ih =>
        have h1 := ih (k + 1) (by omega)
        have h2 := ih k (by omega)
        rw [pow_zero, one_mul] at h1 h2
        rw [S1.zs, S2.zs, pow_zero, one_mul]
        exact hr k _ _ _ _ h1 h2
  | succ d ihd =>
    intro k
    induction k using Nat.strong_induction_on with
    | _ k ih =>
      match k, ih with
      | 0, _ =>
        rw [S1.d0, S2.d0]
        simp
      | 1, _ =>
        rcases d with _ | d
        · rw [S1.d1, S2.d1, hd]
        · rw [S1.d2, S2.d2]
          simp
      | k + 2, ih =>
        rw [S1.ds, S2.ds]
        exact hdr d k _ _ _ _ _ _ (ihd (k + 1)) (ih (k + 1) (by omega)) (ih k (by omega))

/-- The solution of the recurrences with positive signs is the value at an imaginary point, up to a power of `i`. -/
theorem sizeTable_complex (f : PolyFamily) (hf : f ≠ .lap) (d k : ℕ) (r : ℝ) :
    Complex.I ^ k * (sizeTable f d r k : ℂ) = Complex.I ^ d * polyD ℂ f d ((r : ℂ) * Complex.I) k := by
  have hI := Complex.I_sq
  revert d k
  cases f with
  | lap => exact absurd rfl hf
  | cp =>
    refine tables_twist (recTable_spec _ _ _ _) (recSpec_cp (K := ℂ)) (by ring) (by simp) ?_ ?_
    · intro k M1 M2 X1 X2 h1 h2
      push_cast
      linear_combination (2 * (r : ℂ) * Complex.I) * h1 - h2 + (Complex.I ^ k * M2) * hI
    · intro d k M0 M1 M2 X0 X1 X2 h0 h1 h2
      push_cast
      linear_combination ((2 + 2 * (d : ℂ)) * Complex.I) * h0 + (2 * (r : ℂ) * Complex.I) * h1 - h2 + (Complex.I ^ k * M2) * hI
  | lep =>
    have q : ∀ k : ℕ, ((k : ℂ) + 1 + 1) ≠ 0 := fun k => by exact_mod_cast (Nat.succ_ne_zero (k + 1))
    refine tables_twist (recTable_spec _ _ _ _) (recSpec_lep (K := ℂ)) (by ring) (by simp) ?_ ?_
    · intro k M1 M2 X1 X2 h1 h2
      push_cast
      rw [← mul_div_assoc]
      congr 1
      linear_combination ((2 * ((k : ℂ) + 1) + 1) * (r : ℂ) * Complex.I) * h1 - ((k : ℂ) + 1) * h2 + (((k : ℂ) + 1) * Complex.I ^ k * M2) * hI
    · intro d k M0 M1 M2 X0 X1 X2 h0 h1 h2
      push_cast
      rw [← mul_div_assoc, ← mul_div_assoc]
      congr 1
      linear_combination ((2 * ((k : ℂ) + 1) + 1) * ((d : ℂ) + 1) * Complex.I) * h0 + ((2 * ((k : ℂ) + 1) + 1) * (r : ℂ) * Complex.I) * h1 - ((k : ℂ) + 1) * h2 +
        (((k : ℂ) + 1) * Complex.I ^ k * M2) * hI
  | hopPro =>
    refine tables_twist (recTable_spec _ _ _ _) (recSpec_hopPro (K := ℂ)) (by ring) (by simp) ?_ ?_
    · intro k M1 M2 X1 X2 h1 h2
      push_cast
      linear_combination ((r : ℂ) * Complex.I) * h1 - ((k : ℂ) + 1) * h2 + (((k : ℂ) + 1) * Complex.I ^ k * M2) * hI
    · intro d k M0 M1 M2 X0 X1 X2 h0 h1 h2
      push_cast
      linear_combination (((d : ℂ) + 1) * Complex.I) * h0 + ((r : ℂ) * Complex.I) * h1 - ((k : ℂ) + 1) * h2 + (((k : ℂ) + 1) * Complex.I ^ k * M2) * hI
  | hopPhy =>
    refine tables_twist (recTable_spec _ _ _ _) (recSpec_hopPhy (K := ℂ)) (by push_cast; ring) (by simp) ?_ ?_
    · intro k M1 M2 X1 X2 h1 h2
      push_cast
      linear_combination (2 * (r : ℂ) * Complex.I) * h1 - (2 * ((k : ℂ) + 1)) * h2 + (2 * ((k : ℂ) + 1) * Complex.I ^ k * M2) * hI
    · intro d k M0 M1 M2 X0 X1 X2 h0 h1 h2
      push_cast
      linear_combination (2 * ((d : ℂ) + 1) * Complex.I) * h0 + (2 * (r : ℂ) * Complex.I) * h1 - (2 * ((k : ℂ) + 1)) * h2 +
        (2 * ((k : ℂ) + 1) * Complex.I ^ k * M2) * hI

theorem sizeTable_eq (f : PolyFamily) (hf : f ≠ .lap) (d k : ℕ) {r : ℝ} (h : 0 ≤ sizeTable f d r k) : sizeTable f d r k = sizeAt f d r k := by
  have := congrArg norm (sizeTable_complex f hf d k r)
  simp only [norm_mul, norm_pow, Complex.norm_I, one_pow, one_mul, Complex.norm_real, Real.norm_eq_abs, abs_of_nonneg h] at this
  exact this

theorem sizeTable_lap (d k : ℕ) (r : ℝ) : sizeTable .lap d r k = laguerreSize d r k := by
  have S := recTable_spec (fun z : ℝ => 1 + z) 1 (fun k z f1 f2 => ((2 * (k : ℝ) + 1 + z) * f1 + (k : ℝ) * f2) / ((k : ℝ) + 1))
      (fun d k z e f1 f2 => ((2 * (k : ℝ) + 1 + z) * f1 + ((d : ℝ) + 1) * e + (k : ℝ) * f2) / ((k : ℝ) + 1))
  show recTable _ _ _ _ d r k = _
  induction d generalizing k with
  | zero =>
    induction k using Nat.strong_induction_on with
    | _ k ih =>
      match k, ih with
      | 0, _ => rw [S.z0, laguerreSize]
      | 1, _ => rw [S.z1, laguerreSize]
      | k + 2, ih => rw [S.zs, laguerreSize, ih (k + 1) (by omega), ih k (by omega)]
  | succ d ihd =>
    induction k using Nat.strong_induction_on with
    | _ k ih =>
      match k, ih with
      | 0, _ => rw [S.d0, laguerreSize]
      | 1, _ =>
        rcases d with _ | d
        · rw [S.d1, laguerreSize]
        · rw [S.d2, laguerreSize]
      | k + 2, ih => rw [S.ds, laguerreSize, ih (k + 1) (by omega), ih k (by omega), ihd]

section
variable {p : ℕ} {rnd : ℝ → ℝ}

/-- The slope of the map to `[-1,1]`: two roundings, although there are two divisors and dividends to be rounded. -/
theorem slope_near (R : RoundsToNearest p rnd) {x0 xf : ℝ} (h : x0 ≠ xf) : Near (unit p) 2 |2 / (xf - x0)| (2 / (xf - x0)) (rndSlope rnd (-1) 1 x0 xf) := by
  have hu := unit_pos p
  have two : rnd (1 - -1) = 2 := by
    have : IsFloat p ((1 : ℝ) - -1) := by
      have := isFloat_zpow p 1
      norm_num at this ⊢
      exact this
    rw [rnd_float R this]
    norm_num
  obtain ⟨D, hD⟩ : ∃ D, D = xf - x0 := ⟨_, rfl⟩
  have hD0 : D ≠ 0 := by
    rw [hD]
    exact sub_ne_zero.2 (Ne.symm h)
  have hD1 : rnd D ≠ 0 := rnd_ne_zero R hD0
  unfold rndSlope
  rw [two, ← hD]
  refine near_round (n := 1) le_rfl ?_ hu.le (rnd_error' R _)
  have e := rnd_error R D
  have e1 : (1 + unit p) * |rnd D - D| ≤ unit p * |D| := by
    rw [div_mul_eq_mul_div, le_div_iff₀ (by linarith)] at e
    linarith
  have e2 : |D| ≤ (1 + unit p) * |rnd D| := by
    have h1 : |D| ≤ |rnd D| + |rnd D - D| := by
      have := abs_sub_abs_le_abs_sub D (rnd D)
      rw [abs_sub_comm] at this
      linarith
    have h2 := mul_le_mul_of_nonneg_left h1 (show 0 ≤ 1 + unit p by linarith)
    linarith
  have e3 : |rnd D - D| ≤ unit p * |rnd D| := by
    have h1 := mul_le_mul_of_nonneg_left e2 hu.le
    have h2 : (1 + unit p) * |rnd D - D| ≤ (1 + unit p) * (unit p * |rnd D|) := by linarith
    exact le_of_mul_le_mul_left h2 (by linarith)
  have e4 : 2 / rnd D - 2 / D = 2 / D * ((D - rnd D) / rnd D) := by
    field_simp
  rw [e4, abs_mul, abs_div (D - rnd D), pow_one, mul_comm]
  refine mul_le_mul_of_nonneg_right ?_ (abs_nonneg _)
  rw [div_le_iff₀ (abs_pos.2 hD1), abs_sub_comm]
  linarith

/-- The mapped point. -/
theorem toZ_near (R : RoundsToNearest p rnd) {x0 xf : ℝ} (h : x0 ≠ xf) (x : ℝ) :
    Near (unit p) 5 (|x - x0| * |2 / (xf - x0)| + 1) ((x - x0) * (2 / (xf - x0)) + -1) (rndToZ rnd (-1) 1 x0 xf x) := by
  have hu := (unit_pos p).le
  have h1 : Near (unit p) 1 |x - x0| (x - x0) (rnd (x - x0)) := near_round (n := 0) le_rfl (by simp) hu (rnd_error' R _)
  have h2 := h1.mul R (slope_near R h)
  exact h2.add R (m := 0) (Y := -1) (N := 1) ⟨by simp, by simp⟩ le_rfl (by norm_num)

end

section
variable {p : ℕ} {rnd : ℝ → ℝ}

/-- Chebyshev and Legendre. -/
theorem mapped_near (R : RoundsToNearest p rnd) (f : PolyFamily) (hf : f = .cp ∨ f = .lep) {x0 xf : ℝ} (h : x0 ≠ xf) (nC : List ℤ) (m : ℕ) (d : ℕ) (hd : 2 * d ≤ 2 ^ p)
    (k : ℕ) (hk : 2 * k ≤ 2 ^ p + 1) (x : ℝ) :
    |(opTable f d (((⟨x⟩ : Fl rnd) - (Model.CC.polyNew f ⟨x0⟩ ⟨xf⟩ nC m).x0) * (Model.CC.polyNew f ⟨x0⟩ ⟨xf⟩ nC m).c + (Model.CC.polyNew f ⟨x0⟩ ⟨xf⟩ nC m).z0) k *
        (Model.CC.polyNew f ⟨x0⟩ ⟨xf⟩ nC m).c ^ d).val - iteratedDeriv d (fun x => (classical ℝ f k).eval (f.arg x0 xf x)) x| ≤
      ((1 + unit p) ^ (10 * k + 2 * d + 2) - 1) * (sizeAt f d (|x - x0| * |2 / (xf - x0)| + 1) k * |2 / (xf - x0)| ^ d) := by
  have e1 : (Model.CC.polyNew f (⟨x0⟩ : Fl rnd) ⟨xf⟩ nC m).c.val = rndSlope rnd (-1) 1 x0 xf := by
    rcases hf with rfl | rfl <;> rfl
  have e2 : (((⟨x⟩ : Fl rnd) - (Model.CC.polyNew f ⟨x0⟩ ⟨xf⟩ nC m).x0) * (Model.CC.polyNew f ⟨x0⟩ ⟨xf⟩ nC m).c + (Model.CC.polyNew f ⟨x0⟩ ⟨xf⟩ nC m).z0).val =
      rndToZ rnd (-1) 1 x0 xf x := by
    rcases hf with rfl | rfl <;> rfl
  have h1 := opTable_near R f (b := 5) (z := ((⟨x⟩ : Fl rnd) - (Model.CC.polyNew f ⟨x0⟩ ⟨xf⟩ nC m).x0) * (Model.CC.polyNew f ⟨x0⟩ ⟨xf⟩ nC m).c +
    (Model.CC.polyNew f ⟨x0⟩ ⟨xf⟩ nC m).z0) (by rw [e2]; exact toZ_near R h x) d hd k hk
  have h2 := (slope_near R h).pow R d
  rw [← e1] at h2
  have h3 := (h1.mul R h2).err
  rw [sizeTable_eq f (by rcases hf with rfl | rfl <;> simp) d k h1.nonneg] at h3
  have e3 : (5 + 5) * k + (2 * d + 1) + 1 = 10 * k + 2 * d + 2 := by ring
  rw [e3] at h3
  have e4 : iteratedDeriv d (fun x => (classical ℝ f k).eval (f.arg x0 xf x)) x = polyD ℝ f d ((x - x0) * (2 / (xf - x0)) + -1) k * (2 / (xf - x0)) ^ d := by
    have := iteratedDeriv_polynomial (classical ℝ f k) (2 / (xf - x0)) (-1 - x0 * (2 / (xf - x0))) d
    have e : ∀ x, f.arg x0 xf x = 2 / (xf - x0) * x + (-1 - x0 * (2 / (xf - x0))) := fun x => by
      have : f.arg x0 xf x = toBasis x0 xf (-1) 1 x := by
        rcases hf with rfl | rfl <;> rfl
      rw [this]
      unfold toBasis
      ring
    simp only [e]
    rw [this]
    unfold polyD
    dsimp only
    rw [mul_comm]
    congr 2
    ring
  rw [e4]
  exact h3

/-- Laguerre and Hermite. -/
theorem plain_near (R : RoundsToNearest p rnd) (f : PolyFamily) (hf : f ≠ .cp ∧ f ≠ .lep) (x0 xf : ℝ) (nC : List ℤ) (m : ℕ) (d : ℕ) (hd : 2 * d ≤ 2 ^ p)
    (k : ℕ) (hk : 2 * k ≤ 2 ^ p + 1) {x : ℝ} (hx : IsFloat p x) :
    0 ≤ sizeTable f d |x| k ∧
    |(opTable f d (((⟨x⟩ : Fl rnd) - (Model.CC.polyNew f ⟨x0⟩ ⟨xf⟩ nC m).x0) * (Model.CC.polyNew f ⟨x0⟩ ⟨xf⟩ nC m).c + (Model.CC.polyNew f ⟨x0⟩ ⟨xf⟩ nC m).z0) k *
        (Model.CC.polyNew f ⟨x0⟩ ⟨xf⟩ nC m).c ^ d).val - iteratedDeriv d (fun x => (classical ℝ f k).eval (f.arg x0 xf x)) x| ≤
      ((1 + unit p) ^ (5 * k + 1) - 1) * sizeTable f d |x| k := by
  have hu := (unit_pos p).le
  have e1 : (Model.CC.polyNew f (⟨x0⟩ : Fl rnd) ⟨xf⟩ nC m).c.val = 1 := by
    obtain ⟨h1, h2⟩ := hf
    cases f with
    | cp => exact absurd rfl h1
    | lep => exact absurd rfl h2
    | _ => rfl
  have e2 : (((⟨x⟩ : Fl rnd) - (Model.CC.polyNew f ⟨x0⟩ ⟨xf⟩ nC m).x0) * (Model.CC.polyNew f ⟨x0⟩ ⟨xf⟩ nC m).c + (Model.CC.polyNew f ⟨x0⟩ ⟨xf⟩ nC m).z0).val = x := by
    have a1 : (Model.CC.polyNew f (⟨x0⟩ : Fl rnd) ⟨xf⟩ nC m).x0.val = 0 ∧ (Model.CC.polyNew f (⟨x0⟩ : Fl rnd) ⟨xf⟩ nC m).z0.val = 0 := by
      obtain ⟨h1, h2⟩ := hf
      cases f with
      | cp => exact absurd rfl h1
      | lep => exact absurd rfl h2
      | _ => exact ⟨rfl, rfl⟩
    rw [fl_val_add, fl_val_mul, fl_val_sub, e1, a1.1, a1.2, sub_zero, mul_one, add_zero, rnd_float R hx, rnd_float R hx, rnd_float R hx]
  have h1 := opTable_near R f (b := 0) (r := |x|) (Z := x) (z := ((⟨x⟩ : Fl rnd) - (Model.CC.polyNew f ⟨x0⟩ ⟨xf⟩ nC m).x0) * (Model.CC.polyNew f ⟨x0⟩ ⟨xf⟩ nC m).c +
    (Model.CC.polyNew f ⟨x0⟩ ⟨xf⟩ nC m).z0) (by rw [e2]; exact ⟨le_rfl, by simp⟩) d hd k hk
  refine ⟨h1.nonneg, ?_⟩
  have e3 : iteratedDeriv d (fun x => (classical ℝ f k).eval (f.arg x0 xf x)) x = polyD ℝ f d x k := by
    have := iteratedDeriv_polynomial (classical ℝ f k) 1 0 d
    have e : ∀ x, f.arg x0 xf x = 1 * x + 0 := fun x => by
      obtain ⟨h1, h2⟩ := hf
      cases f with
      | cp => exact absurd rfl h1
      | lep => exact absurd rfl h2
      | _ => show x = _; ring
    simp only [e]
    rw [this]
    simp [polyD]
  rw [e3, fl_val_mul, fl_val_pow, e1, one_pow, rnd_one R, mul_one]
  have h2 := near_round h1.le h1.err hu (rnd_error' R _)
  have h3 := h2.err
  have e4 : (0 + 5) * k + 1 = 5 * k + 1 := by ring
  rw [e4] at h3
  exact h3

theorem mem_outColumns {m : ℕ} {nC : List ℤ} {full : Bool} {k : ℕ} (h : k ∈ outColumns m nC full) : k < m := by
  unfold outColumns at h
  split_ifs at h
  · exact List.mem_range.1 h
  · exact List.mem_range.1 (List.mem_of_mem_filter h)

/-- **C94**, Chebyshev and Legendre: at all points, inside the domain or not, and for all orders, the entries of the matrix given by each of the three entry points differ from the
derivative of the polynomial of the mapped point by at most `10 k + 2 d + 2` relative rounding errors of the size of the terms. -/
theorem C94_mapped (R : RoundsToNearest p rnd) (f : PolyFamily) (hf : f = .cp ∨ f = .lep) {x0 xf : ℝ} (h : x0 ≠ xf) {nC : List ℤ} {m : ℕ} (hm : 1 ≤ m)
    (hmp : 2 * m ≤ 2 ^ p) (d : ℕ) (hd : 2 * d ≤ 2 ^ p) (full : Bool) (hC : full = true ∨ ValidRemoval m nC) (n : ℕ) (xs : ℕ → ℝ) (out : Buf (Fl rnd))
    (hout : out.size = n * (outColumns m nC full).length) :
    ∃ V : ℕ → ℕ → Fl rnd,
      ReturnsMatrix ((Model.CC.polyNew f ⟨x0⟩ ⟨xf⟩ nC m).H (Buf.ofFn n fun j => ⟨xs j⟩) n d full) n (outColumns m nC full) V ∧
      FillsMatrix ((Model.CC.polyNew f ⟨x0⟩ ⟨xf⟩ nC m).xla out (Buf.ofFn n fun j => ⟨xs j⟩) d full n (outColumns m nC full).length) n (outColumns m nC full) V ∧
      ReturnsArray ((Model.PyBF.polyInit f ⟨x0⟩ ⟨xf⟩ nC m).H n (fun j => ⟨xs j⟩) d full) n (outColumns m nC full) V ∧
      ∀ j < n, ∀ k ∈ outColumns m nC full, |(V j k).val - iteratedDeriv d (fun x => (classical ℝ f k).eval (f.arg x0 xf x)) (xs j)| ≤
        ((1 + unit p) ^ (10 * k + 2 * d + 2) - 1) * (sizeAt f d (|xs j - x0| * |2 / (xf - x0)| + 1) k * |2 / (xf - x0)| ^ d) := by
  obtain ⟨h1, h2, h3⟩ := same_values (fl_two_one R) f (⟨x0⟩ : Fl rnd) ⟨xf⟩ hm d full hC n (fun j => ⟨xs j⟩) out hout
  exact ⟨_, h1, h2, h3, fun j _ k hk => mapped_near R f hf h nC m d hd k (by have := mem_outColumns hk; omega) (xs j)⟩

/-- **C94**, Hermite polynomials, both kinds. -/
theorem C94_hermite (R : RoundsToNearest p rnd) (f : PolyFamily) (hf : f = .hopPro ∨ f = .hopPhy) (x0 xf : ℝ) {nC : List ℤ} {m : ℕ} (hm : 1 ≤ m)
    (hmp : 2 * m ≤ 2 ^ p) (d : ℕ) (hd : 2 * d ≤ 2 ^ p) (full : Bool) (hC : full = true ∨ ValidRemoval m nC) (n : ℕ) (xs : ℕ → ℝ) (hx : ∀ j < n, IsFloat p (xs j))
    (out : Buf (Fl rnd)) (hout : out.size = n * (outColumns m nC full).length) :
    ∃ V : ℕ → ℕ → Fl rnd,
      ReturnsMatrix ((Model.CC.polyNew f ⟨x0⟩ ⟨xf⟩ nC m).H (Buf.ofFn n fun j => ⟨xs j⟩) n d full) n (outColumns m nC full) V ∧
      FillsMatrix ((Model.CC.polyNew f ⟨x0⟩ ⟨xf⟩ nC m).xla out (Buf.ofFn n fun j => ⟨xs j⟩) d full n (outColumns m nC full).length) n (outColumns m nC full) V ∧
      ReturnsArray ((Model.PyBF.polyInit f ⟨x0⟩ ⟨xf⟩ nC m).H n (fun j => ⟨xs j⟩) d full) n (outColumns m nC full) V ∧
      ∀ j < n, ∀ k ∈ outColumns m nC full, |(V j k).val - iteratedDeriv d (fun x => (classical ℝ f k).eval x) (xs j)| ≤
        ((1 + unit p) ^ (5 * k + 1) - 1) * sizeAt f d |xs j| k := by
  obtain ⟨h1, h2, h3⟩ := same_values (fl_two_one R) f (⟨x0⟩ : Fl rnd) ⟨xf⟩ hm d full hC n (fun j => ⟨xs j⟩) out hout
  refine ⟨_, h1, h2, h3, fun j hj k hk => ?_⟩
  obtain ⟨a1, a2⟩ := plain_near R f (by rcases hf with rfl | rfl <;> simp) x0 xf nC m d hd k (by have := mem_outColumns hk; omega) (hx j hj)
  rw [sizeTable_eq f (by rcases hf with rfl | rfl <;> simp) d k a1] at a2
  have e : (fun x => (classical ℝ f k).eval (f.arg x0 xf x)) = fun x => (classical ℝ f k).eval x := by
    rcases hf with rfl | rfl <;> rfl
  rw [e] at a2
  exact a2

/-- **C94**, Laguerre polynomials. -/
theorem C94_laguerre (R : RoundsToNearest p rnd) (x0 xf : ℝ) {nC : List ℤ} {m : ℕ} (hm : 1 ≤ m)
    (hmp : 2 * m ≤ 2 ^ p) (d : ℕ) (hd : 2 * d ≤ 2 ^ p) (full : Bool) (hC : full = true ∨ ValidRemoval m nC) (n : ℕ) (xs : ℕ → ℝ) (hx : ∀ j < n, IsFloat p (xs j))
    (out : Buf (Fl rnd)) (hout : out.size = n * (outColumns m nC full).length) :
    ∃ V : ℕ → ℕ → Fl rnd,
      ReturnsMatrix ((Model.CC.polyNew .lap ⟨x0⟩ ⟨xf⟩ nC m).H (Buf.ofFn n fun j => ⟨xs j⟩) n d full) n (outColumns m nC full) V ∧
      FillsMatrix ((Model.CC.polyNew .lap ⟨x0⟩ ⟨xf⟩ nC m).xla out (Buf.ofFn n fun j => ⟨xs j⟩) d full n (outColumns m nC full).length) n (outColumns m nC full) V ∧
      ReturnsArray ((Model.PyBF.polyInit .lap ⟨x0⟩ ⟨xf⟩ nC m).H n (fun j => ⟨xs j⟩) d full) n (outColumns m nC full) V ∧
      ∀ j < n, ∀ k ∈ outColumns m nC full, |(V j k).val - iteratedDeriv d (fun x => (classical ℝ .lap k).eval x) (xs j)| ≤
        ((1 + unit p) ^ (5 * k + 1) - 1) * laguerreSize d |xs j| k := by
  obtain ⟨h1, h2, h3⟩ := same_values (fl_two_one R) .lap (⟨x0⟩ : Fl rnd) ⟨xf⟩ hm d full hC n (fun j => ⟨xs j⟩) out hout
  refine ⟨_, h1, h2, h3, fun j hj k hk => ?_⟩
  obtain ⟨_, a2⟩ := plain_near R .lap (by simp) x0 xf nC m d hd k (by have := mem_outColumns hk; omega) (hx j hj)
  rw [sizeTable_lap] at a2
  exact a2

/-- A concrete case: doubles, 30 Chebyshev polynomials on `[0, 2]` without the first two, fourth derivatives at the points 0, 1, ..., 9, most of them outside. -/
example (R : RoundsToNearest 53 rnd) (out : Buf (Fl rnd)) (hout : out.size = 10 * (outColumns 30 [0, 1] false).length) :
    ∃ V : ℕ → ℕ → Fl rnd,
      ReturnsMatrix ((Model.CC.polyNew .cp ⟨0⟩ ⟨2⟩ [0, 1] 30).H (Buf.ofFn 10 fun j => ⟨(j : ℝ)⟩) 10 4 false) 10 (outColumns 30 [0, 1] false) V ∧
      FillsMatrix ((Model.CC.polyNew .cp ⟨0⟩ ⟨2⟩ [0, 1] 30).xla out (Buf.ofFn 10 fun j => ⟨(j : ℝ)⟩) 4 false 10 (outColumns 30 [0, 1] false).length) 10
        (outColumns 30 [0, 1] false) V ∧
      ReturnsArray ((Model.PyBF.polyInit .cp ⟨0⟩ ⟨2⟩ [0, 1] 30).H 10 (fun j => ⟨(j : ℝ)⟩) 4 false) 10 (outColumns 30 [0, 1] false) V ∧
      ∀ j < 10, ∀ k ∈ outColumns 30 [0, 1] false, |(V j k).val - iteratedDeriv 4 (fun x => (classical ℝ .cp k).eval (PolyFamily.arg .cp 0 2 x)) (j : ℝ)| ≤
        ((1 + unit 53) ^ (10 * k + 2 * 4 + 2) - 1) * (sizeAt .cp 4 (|(j : ℝ) - 0| * |2 / (2 - 0)| + 1) k * |2 / (2 - 0)| ^ 4) :=
  C94_mapped R .cp (Or.inl rfl) (by norm_num) (by norm_num) (by norm_num) 4 (by norm_num) false (Or.inr ⟨by decide, by decide⟩) 10 (fun j => (j : ℝ)) out hout

/-- A concrete case: doubles, 30 physicists' Hermite polynomials, first derivatives at the points 0, 1, ..., 9. -/
example (R : RoundsToNearest 53 rnd) (out : Buf (Fl rnd)) (hout : out.size = 10 * (outColumns 30 [0, 1] false).length) :
    ∃ V : ℕ → ℕ → Fl rnd,
      ReturnsMatrix ((Model.CC.polyNew .hopPhy ⟨0⟩ ⟨9⟩ [0, 1] 30).H (Buf.ofFn 10 fun j => ⟨(j : ℝ)⟩) 10 1 false) 10 (outColumns 30 [0, 1] false) V ∧
      FillsMatrix ((Model.CC.polyNew .hopPhy ⟨0⟩ ⟨9⟩ [0, 1] 30).xla out (Buf.ofFn 10 fun j => ⟨(j : ℝ)⟩) 1 false 10 (outColumns 30 [0, 1] false).length) 10
        (outColumns 30 [0, 1] false) V ∧
      ReturnsArray ((Model.PyBF.polyInit .hopPhy ⟨0⟩ ⟨9⟩ [0, 1] 30).H 10 (fun j => ⟨(j : ℝ)⟩) 1 false) 10 (outColumns 30 [0, 1] false) V ∧
      ∀ j < 10, ∀ k ∈ outColumns 30 [0, 1] false, |(V j k).val - iteratedDeriv 1 (fun x => (classical ℝ .hopPhy k).eval x) (j : ℝ)| ≤
        ((1 + unit 53) ^ (5 * k + 1) - 1) * sizeAt .hopPhy 1 |(j : ℝ)| k :=
  C94_hermite R .hopPhy (Or.inr rfl) 0 9 (by norm_num) (by norm_num) 1 (by norm_num) false (Or.inr ⟨by decide, by decide⟩) 10 (fun j => (j : ℝ))
    (fun j hj => isFloat_small (by norm_num) j 0 (by rw [Nat.abs_cast]; omega) (by simp)) out hout

end

end Verif.Props
