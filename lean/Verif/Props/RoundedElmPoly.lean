import Verif.Props.RoundedPoly
import Verif.Lemmas.ElmDeriv

/-!
# The polynomials of the ELM classes in floating point arithmetic
-/

namespace Verif.Props

open Verif Verif.Mem Verif.Py Verif.Np Verif.Spec Verif.Model.Rounded

/-- `x` is a computed value of `Y`, whose size is at most `M`: apart from `n` roundings it is the value of the same formula for an argument that differs
by at most `δ`, and the formula changes at most `L` times as much. -/
structure Close (u δ : ℝ) (n : ℕ) (M L Y x : ℝ) : Prop where
  le : |Y| ≤ M
  near : ∃ X, Near u n M X x ∧ |X - Y| ≤ L * δ

section
variable {u δ M L X x N L' Y y : ℝ} {n m : ℕ}

theorem Near.close (h : Near u n M X x) : Close u δ n M 0 X x := ⟨h.le, X, h, by simp⟩

theorem Close.nonneg (h : Close u δ n M L Y x) : 0 ≤ M := (abs_nonneg _).trans h.le

theorem Close.mono (hu : 0 ≤ u) (h : Close u δ n M L Y x) (hnm : n ≤ m) : Close u δ m M L Y x := by
  obtain ⟨h1, X, h2, h3⟩ := h
  exact ⟨h1, X, h2.mono hu hnm, h3⟩

theorem Close.weak (hu : 0 ≤ u) (hδ : 0 ≤ δ) (h : Close u δ n M L Y x) (hM : M ≤ N) (hL : L ≤ L') : Close u δ n N L' Y x := by
  obtain ⟨h1, X, h2, h3⟩ := h
  refine ⟨h1.trans hM, X, ⟨h2.le.trans hM, h2.err.trans (mul_le_mul_of_nonneg_left hM ?_)⟩, h3.trans (mul_le_mul_of_nonneg_right hL hδ)⟩
  have := one_le_pow₀ (n := n) (show 1 ≤ 1 + u by linarith)
  linarith

theorem Close.err (h : Close u δ n M L Y x) : |x - Y| ≤ ((1 + u) ^ n - 1) * M + L * δ := by
  obtain ⟨_, X, h2, h3⟩ := h
  exact (abs_sub_le x X Y).trans (add_le_add h2.err h3)

theorem Close.neg (h : Close u δ n M L Y x) : Close u δ n M L (-Y) (-x) := by
  obtain ⟨h1, X, h2, h3⟩ := h
  refine ⟨by rwa [abs_neg], -X, h2.neg, ?_⟩
  rwa [neg_sub_neg, abs_sub_comm]

variable {p : ℕ} {rnd : ℝ → ℝ}

theorem Close.add (R : RoundsToNearest p rnd) (h1 : Close (unit p) δ n M L X x) (h2 : Close (unit p) δ m N L' Y y) {k : ℕ} (hn : n ≤ k) (hm : m ≤ k) :
    Close (unit p) δ (k + 1) (M + N) (L + L') (X + Y) (rnd (x + y)) := by
  obtain ⟨a1, A, a2, a3⟩ := h1
  obtain ⟨b1, B, b2, b3⟩ := h2
  refine ⟨(abs_add_le _ _).trans (add_le_add a1 b1), A + B, a2.add R b2 hn hm, ?_⟩
  rw [show A + B - (X + Y) = (A - X) + (B - Y) by ring, add_mul]
  exact (abs_add_le _ _).trans (add_le_add a3 b3)

theorem Close.sub (R : RoundsToNearest p rnd) (h1 : Close (unit p) δ n M L X x) (h2 : Close (unit p) δ m N L' Y y) {k : ℕ} (hn : n ≤ k) (hm : m ≤ k) :
    Close (unit p) δ (k + 1) (M + N) (L + L') (X - Y) (rnd (x - y)) := by
  rw [sub_eq_add_neg, sub_eq_add_neg]
  exact h1.add R h2.neg hn hm

theorem Close.mul (R : RoundsToNearest p rnd) (h1 : Close (unit p) δ n M L X x) (h2 : Close (unit p) δ m N L' Y y) :
    Close (unit p) δ (n + m + 1) (M * N) (M * L' + N * L) (X * Y) (rnd (x * y)) := by
  obtain ⟨a1, A, a2, a3⟩ := h1
  obtain ⟨b1, B, b2, b3⟩ := h2
  have hM := a2.nonneg
  have hN := b2.nonneg
  refine ⟨?_, A * B, a2.mul R b2, ?_⟩
  · rw [abs_mul]
    exact mul_le_mul a1 b1 (abs_nonneg _) hM
  · rw [show A * B - X * Y = A * (B - Y) + Y * (A - X) by ring, add_mul]
    refine (abs_add_le _ _).trans ?_
    rw [abs_mul, abs_mul, mul_assoc, mul_assoc]
    exact add_le_add (mul_le_mul a2.le b3 (abs_nonneg _) hM) (mul_le_mul b1 a3 (abs_nonneg _) hN)

theorem Close.pow (R : RoundsToNearest p rnd) (h : Close (unit p) δ n M L X x) (i : ℕ) :
    Close (unit p) δ (n * i + 1) (M ^ i) (i * M ^ (i - 1) * L) (X ^ i) (rnd (x ^ i)) := by
  obtain ⟨a1, A, a2, a3⟩ := h
  have hM := a2.nonneg
  refine ⟨?_, A ^ i, a2.pow R i, ?_⟩
  · rw [abs_pow]
    exact pow_le_pow_left₀ (abs_nonneg _) a1 i
  · refine (abs_pow_sub_pow_le _ _ _).trans ?_
    have h1 : max |A| |X| ^ (i - 1) ≤ M ^ (i - 1) := pow_le_pow_left₀ (le_max_of_le_left (abs_nonneg _)) (max_le a2.le a1) _
    have h2 : |A - X| * i * max |A| |X| ^ (i - 1) ≤ (L * δ) * i * M ^ (i - 1) :=
      mul_le_mul (mul_le_mul_of_nonneg_right a3 (Nat.cast_nonneg i)) h1 (pow_nonneg (le_max_of_le_left (abs_nonneg _)) _)
        (mul_nonneg ((abs_nonneg _).trans a3) (Nat.cast_nonneg i))
    calc _ ≤ _ := h2
      _ = _ := by ring

end

/-! ## The polynomials -/

section
variable {K : Type} [Zero K] [One K] [Add K] [Sub K] [Mul K] [Neg K] [NatCast K] [Pow K ℕ]

/-- The polynomials in the code of the sigmoid and swish classes. -/
def sigPoly : ℕ → K → K
  | 0, t => t
  | 1, t => t - t ^ 2
  | 2, t => t - 3 * t ^ 2 + 2 * t ^ 3
  | 3, t => t - 7 * t ^ 2 + 12 * t ^ 3 - 6 * t ^ 4
  | 4, t => t - 15 * t ^ 2 + 50 * t ^ 3 - 60 * t ^ 4 + 24 * t ^ 5
  | 5, t => t - 31 * t ^ 2 + 180 * t ^ 3 - 390 * t ^ 4 + 360 * t ^ 5 - 120 * t ^ 6
  | 6, t => t - 63 * t ^ 2 + 602 * t ^ 3 - 2100 * t ^ 4 + 3360 * t ^ 5 - 2520 * t ^ 6 + 720 * t ^ 7
  | 7, t => t - 127 * t ^ 2 + 1932 * t ^ 3 - 10206 * t ^ 4 + 25200 * t ^ 5 - 31920 * t ^ 6 + 20160 * t ^ 7 - 5040 * t ^ 8
  | _, t => t - 255 * t ^ 2 + 6050 * t ^ 3 - 46620 * t ^ 4 + 166824 * t ^ 5 - 317520 * t ^ 6 + 332640 * t ^ 7 - 181440 * t ^ 8 + 40320 * t ^ 9

/-- The polynomials in the code of the class with tanh. -/
def tanhPoly : ℕ → K → K
  | 0, t => t
  | 1, t => 1 - t ^ 2
  | 2, t => -2 * t + 2 * t ^ 3
  | 3, t => -2 + 8 * t ^ 2 - 6 * t ^ 4
  | 4, t => 16 * t - 40 * t ^ 3 + 24 * t ^ 5
  | 5, t => 16 - 136 * t ^ 2 + 240 * t ^ 4 - 120 * t ^ 6
  | 6, t => -272 * t + 1232 * t ^ 3 - 1680 * t ^ 5 + 720 * t ^ 7
  | 7, t => -272 + 3968 * t ^ 2 - 12096 * t ^ 4 + 13440 * t ^ 6 - 5040 * t ^ 8
  | _, t => 7936 * t - 56320 * t ^ 3 + 129024 * t ^ 5 - 120960 * t ^ 7 + 40320 * t ^ 9

theorem sig_switch {d : ℕ} (h1 : 1 ≤ d) (h8 : d ≤ 8) :
    Model.CC.ELMSigmoid.switch (K := K) d = some fun w t => (if d = 1 then w else w ^ d) * sigPoly d t := by
  interval_cases d <;> rfl

theorem tanh_switch {d : ℕ} (h1 : 1 ≤ d) (h8 : d ≤ 8) :
    Model.CC.ELMTanh.switch (K := K) d = some fun w t => (if d = 1 then w else w ^ d) * tanhPoly d t := by
  interval_cases d <;> rfl

/-- The literal number of the code, which is left out for 1. -/
def times (d : ℕ) (t : K) : K := if d = 1 then t else (d : K) * t

theorem swish_switch {d : ℕ} (h1 : 1 ≤ d) (h8 : d ≤ 8) :
    Model.CC.ELMSwish.switch (K := K) d =
      some fun w s z => (if d = 1 then w else w ^ d) * (times d (sigPoly (d - 1) s) + z * sigPoly d s) := by
  interval_cases d <;> rfl

end

section
variable {p : ℕ} {rnd : ℝ → ℝ} {δ : ℝ}

theorem close_lit (R : RoundsToNearest p rnd) (c : ℕ) [c.AtLeastTwo] :
    Close (unit p) δ 1 (OfNat.ofNat c) 0 (OfNat.ofNat c : ℝ) (OfNat.ofNat c : Fl rnd).val := by
  refine Near.close ?_
  have h : Near (unit p) 0 (OfNat.ofNat c : ℝ) (OfNat.ofNat c) (OfNat.ofNat c) := near_exact _ (Nat.ofNat_nonneg c)
  have e : |((c : ℕ) : ℝ) - OfNat.ofNat c| ≤ ((1 + unit p) ^ 0 - 1) * (OfNat.ofNat c : ℝ) := by
    rw [pow_zero, sub_self, zero_mul, show ((c : ℕ) : ℝ) = OfNat.ofNat c from rfl, sub_self, abs_zero]
  exact near_round (n := 0) h.le e (unit_pos p).le (rnd_error' R _)

variable {M t : ℝ} {T : Fl rnd}

/-- A term of a polynomial. -/
theorem close_term (R : RoundsToNearest p rnd) (hT : Close (unit p) δ 0 M 1 t T.val) (c : ℕ) [c.AtLeastTwo] (i : ℕ) :
    Close (unit p) δ 3 (OfNat.ofNat c * M ^ i) (OfNat.ofNat c * (i * M ^ (i - 1))) ((OfNat.ofNat c : ℝ) * t ^ i) ((OfNat.ofNat c : Fl rnd) * T ^ i).val := by
  have h := (close_lit (δ := δ) R c).mul R (hT.pow R i)
  rw [show 0 * i + 1 = 1 by ring, mul_one, mul_zero, add_zero] at h
  exact h

theorem close_lin (R : RoundsToNearest p rnd) (hT : Close (unit p) δ 0 M 1 t T.val) (c : ℕ) [c.AtLeastTwo] :
    Close (unit p) δ 3 (OfNat.ofNat c * M) (OfNat.ofNat c) ((OfNat.ofNat c : ℝ) * t) ((OfNat.ofNat c : Fl rnd) * T).val := by
  have h := ((close_lit (δ := δ) R c).mul R hT).mono (unit_pos p).le (show 1 + 0 + 1 ≤ 3 by norm_num)
  rw [mul_one, mul_zero, add_zero] at h
  exact h

theorem close_neglin (R : RoundsToNearest p rnd) (hT : Close (unit p) δ 0 M 1 t T.val) (c : ℕ) [c.AtLeastTwo] :
    Close (unit p) δ 3 (OfNat.ofNat c * M) (OfNat.ofNat c) (-(OfNat.ofNat c : ℝ) * t) (-(OfNat.ofNat c : Fl rnd) * T).val := by
  have h := ((close_lit (δ := δ) R c).neg.mul R hT).mono (unit_pos p).le (show 1 + 0 + 1 ≤ 3 by norm_num)
  rw [mul_one, mul_zero, add_zero] at h
  exact h

variable {n : ℕ} {A L X B L' Y : ℝ} {x y : Fl rnd}

theorem Close.plus (R : RoundsToNearest p rnd) (h1 : Close (unit p) δ n A L X x.val) (h2 : Close (unit p) δ 3 B L' Y y.val) (hn : 3 ≤ n := by norm_num) :
    Close (unit p) δ (n + 1) (A + B) (L + L') (X + Y) (x + y).val := h1.add R h2 le_rfl hn

theorem Close.minus (R : RoundsToNearest p rnd) (h1 : Close (unit p) δ n A L X x.val) (h2 : Close (unit p) δ 3 B L' Y y.val) (hn : 3 ≤ n := by norm_num) :
    Close (unit p) δ (n + 1) (A + B) (L + L') (X - Y) (x - y).val := h1.sub R h2 le_rfl hn

theorem close_square (R : RoundsToNearest p rnd) (hT : Close (unit p) δ 0 M 1 t T.val) : Close (unit p) δ 3 (M ^ 2) (2 * M) (t ^ 2) (T ^ 2).val := by
  have h := (hT.pow R 2).mono (unit_pos p).le (show 0 * 2 + 1 ≤ 3 by norm_num)
  norm_num at h
  exact h

/-- The polynomials of the sigmoid. -/
theorem sigPoly_close (R : RoundsToNearest p rnd) (hδ : 0 ≤ δ) (hT : Close (unit p) δ 0 1 1 t T.val) {d : ℕ} (hd : d ≤ 8) :
    Close (unit p) δ 11 (2 ^ (d + 1) * d.factorial) (2 ^ (d + 1) * (d + 1).factorial) (sigPoly d t) (sigPoly d T).val := by
  have hu := (unit_pos p).le
  have h0 := hT.mono hu (show 0 ≤ 3 by norm_num)
  have c := fun (c : ℕ) [c.AtLeastTwo] (i : ℕ) => close_term R hT c i
  interval_cases d
  · exact (hT.mono hu (by norm_num)).weak hu hδ (by norm_num [Nat.factorial]) (by norm_num [Nat.factorial])
  · exact ((h0.minus R (close_square R hT)).mono hu (by norm_num)).weak hu hδ (by norm_num [Nat.factorial]) (by norm_num [Nat.factorial])
  · exact (((h0.minus R (c 3 2)).plus R (c 2 3)).mono hu (by norm_num)).weak hu hδ (by norm_num [Nat.factorial]) (by norm_num [Nat.factorial])
  · exact ((((h0.minus R (c 7 2)).plus R (c 12 3)).minus R (c 6 4)).mono hu (by norm_num)).weak hu hδ (by norm_num [Nat.factorial]) (by norm_num [Nat.factorial])
  · exact (((((h0.minus R (c 15 2)).plus R (c 50 3)).minus R (c 60 4)).plus R (c 24 5)).mono hu (by norm_num)).weak hu hδ
      (by norm_num [Nat.factorial]) (by norm_num [Nat.factorial])
  · exact ((((((h0.minus R (c 31 2)).plus R (c 180 3)).minus R (c 390 4)).plus R (c 360 5)).minus R (c 120 6)).mono hu (by norm_num)).weak hu hδ
      (by norm_num [Nat.factorial]) (by norm_num [Nat.factorial])
  · exact (((((((h0.minus R (c 63 2)).plus R (c 602 3)).minus R (c 2100 4)).plus R (c 3360 5)).minus R (c 2520 6)).plus R (c 720 7)).mono hu
      (by norm_num)).weak hu hδ (by norm_num [Nat.factorial]) (by norm_num [Nat.factorial])
  · exact ((((((((h0.minus R (c 127 2)).plus R (c 1932 3)).minus R (c 10206 4)).plus R (c 25200 5)).minus R (c 31920 6)).plus R (c 20160 7)).minus R
      (c 5040 8)).mono hu (by norm_num)).weak hu hδ (by norm_num [Nat.factorial]) (by norm_num [Nat.factorial])
  · exact (((((((((h0.minus R (c 255 2)).plus R (c 6050 3)).minus R (c 46620 4)).plus R (c 166824 5)).minus R (c 317520 6)).plus R (c 332640 7)).minus R
      (c 181440 8)).plus R (c 40320 9)).mono hu (by norm_num)).weak hu hδ (by norm_num [Nat.factorial]) (by norm_num [Nat.factorial])

/-- The polynomials of tanh. -/
theorem tanhPoly_close (R : RoundsToNearest p rnd) (hδ : 0 ≤ δ) (hT : Close (unit p) δ 0 (17 / 16) 1 t T.val) {d : ℕ} (hd : d ≤ 8) :
    Close (unit p) δ 11 (2 ^ (d + 1) * d.factorial) (2 ^ (d + 1) * (d + 1).factorial) (tanhPoly d t) (tanhPoly d T).val := by
  have hu := (unit_pos p).le
  have c := fun (c : ℕ) [c.AtLeastTwo] (i : ℕ) => close_term R hT c i
  have l := fun (c : ℕ) [c.AtLeastTwo] => close_lin R hT c
  have nl := fun (c : ℕ) [c.AtLeastTwo] => close_neglin R hT c
  have k := fun (c : ℕ) [c.AtLeastTwo] => (close_lit (δ := δ) R c).mono hu (show 1 ≤ 3 by norm_num)
  have kn := fun (c : ℕ) [c.AtLeastTwo] => show Close (unit p) δ 3 (OfNat.ofNat c) 0 (-(OfNat.ofNat c : ℝ)) (-(OfNat.ofNat c : Fl rnd)).val from (k c).neg
  have one : Close (unit p) δ 3 1 0 1 (1 : Fl rnd).val := ((near_exact (u := unit p) 1 (by norm_num)).mono hu (by norm_num)).close
  interval_cases d
  · exact (hT.mono hu (by norm_num)).weak hu hδ (by norm_num [Nat.factorial]) (by norm_num [Nat.factorial])
  · exact ((one.minus R (close_square R hT)).mono hu (by norm_num)).weak hu hδ (by norm_num [Nat.factorial]) (by norm_num [Nat.factorial])
  · exact (((nl 2).plus R (c 2 3)).mono hu (by norm_num)).weak hu hδ (by norm_num [Nat.factorial]) (by norm_num [Nat.factorial])
  · exact ((((kn 2).plus R (c 8 2)).minus R (c 6 4)).mono hu (by norm_num)).weak hu hδ (by norm_num [Nat.factorial]) (by norm_num [Nat.factorial])
  · exact ((((l 16).minus R (c 40 3)).plus R (c 24 5)).mono hu (by norm_num)).weak hu hδ (by norm_num [Nat.factorial]) (by norm_num [Nat.factorial])
  · exact (((((k 16).minus R (c 136 2)).plus R (c 240 4)).minus R (c 120 6)).mono hu (by norm_num)).weak hu hδ
      (by norm_num [Nat.factorial]) (by norm_num [Nat.factorial])
  · exact (((((nl 272).plus R (c 1232 3)).minus R (c 1680 5)).plus R (c 720 7)).mono hu (by norm_num)).weak hu hδ
      (by norm_num [Nat.factorial]) (by norm_num [Nat.factorial])
  · exact ((((((kn 272).plus R (c 3968 2)).minus R (c 12096 4)).plus R (c 13440 6)).minus R (c 5040 8)).mono hu (by norm_num)).weak hu hδ
      (by norm_num [Nat.factorial]) (by norm_num [Nat.factorial])
  · exact ((((((l 7936).minus R (c 56320 3)).plus R (c 129024 5)).minus R (c 120960 7)).plus R (c 40320 9)).mono hu (by norm_num)).weak hu hδ
      (by norm_num [Nat.factorial]) (by norm_num [Nat.factorial])

end

end Verif.Props
