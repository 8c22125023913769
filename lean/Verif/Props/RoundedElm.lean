import Verif.Props.RoundedElmPoly
import Verif.Props.RoundedFS
import Verif.Props.UniCC

/-!
# C111: the ELM matrices in floating point arithmetic

The library functions are known only by bounds of their errors.
-/

namespace Verif.Props

open Verif Verif.Mem Verif.Py Verif.Np Verif.Spec Verif.Model.Rounded

/-- What is assumed about the library: absolute errors of at most `ε`, for `exp` relative to the value. -/
structure ElmLibmAccurate (rnd : ℝ → ℝ) [Libm (Fl rnd)] [LibmExp (Fl rnd)] (ε : ℝ) : Prop where
  sin : ∀ a : Fl rnd, |(Libm.sin a).val - Real.sin a.val| ≤ ε
  cos : ∀ a : Fl rnd, |(Libm.cos a).val - Real.cos a.val| ≤ ε
  exp : ∀ a : Fl rnd, |(LibmExp.exp a).val - Real.exp a.val| ≤ ε * Real.exp a.val
  tanh : ∀ a : Fl rnd, |(LibmExp.tanh a).val - Real.tanh a.val| ≤ ε

/-- The size of the argument `w z + b` of the activation function at the point `x`: the sum of the absolute values. -/
noncomputable def argSize (w b x0 xf x : ℝ) : ℝ := |w| * |(x - x0) / (xf - x0)| + |b|

section
variable {K : Type} [Zero K] [One K] [Add K] [Sub K] [Mul K] [Div K] [Neg K] [NatCast K] [Pow K ℕ] [Libm K] [LibmExp K] [Max K] [LE K] [DecidableLE K]

/-- **C111**: in any arithmetic and with any library functions, the eager function of a compiled ELM class and the function it registers for compiled
computations give the same matrix, whose entries are the operations in the code. -/
theorem C111_same (a : Activation) (w b : ℕ → K) (x0 xf : K) {nC : List ℤ} {m : ℕ} (d : ℕ) (hd : a = .swish → d ≤ 8) (full : Bool)
    (hC : full = true ∨ ValidRemoval m nC) (n : ℕ) (xs : ℕ → K) (out : Buf K) (hout : out.size = n * (outColumns m nC full).length) :
    ∃ V : ℕ → ℕ → K,
      ReturnsMatrix ((Model.CC.elmNew a (Buf.ofFn m w) (Buf.ofFn m b) x0 xf nC m).H (Buf.ofFn n xs) n d full) n (outColumns m nC full) V ∧
      FillsMatrix ((Model.CC.elmNew a (Buf.ofFn m w) (Buf.ofFn m b) x0 xf nC m).xla out (Buf.ofFn n xs) d full n (outColumns m nC full).length) n
        (outColumns m nC full) V ∧
      ∀ j k, V j k = elmOp a d (w k) (b k) ((xs j - x0) * ((1 - 0) / (xf - x0)) + 0) * ((1 - 0) / (xf - x0)) ^ d := by
  have hs := elmOp_hintSpec a (w := Buf.ofFn m w) (b := Buf.ofFn m b) (ws := w) (bs := b) (m := m) (fun k hk => Buf.ofFn_read hk)
    (fun k hk => Buf.ofFn_read hk) d hd
  refine ⟨_, ?_, ?_, fun _ _ => rfl⟩
  · exact returns_of_runs (H_spec (Model.CC.elmNew a (Buf.ofFn m w) (Buf.ofFn m b) x0 xf nC m) (d := d) hs (x := Buf.ofFn n xs) (n := n) (xs := xs)
      (fun j hj => Buf.ofFn_read hj) full hC)
  · exact fills_of_runs (xla_spec (Model.CC.elmNew a (Buf.ofFn m w) (Buf.ofFn m b) x0 xf nC m) (d := d) hs (x := Buf.ofFn n xs) (n := n) (xs := xs)
      (fun j hj => Buf.ofFn_read hj) full (out := out) (M := fun j i => out.cell ((outColumns m nC full).length * j + i)) ⟨hout, fun _ _ _ _ => rfl⟩)

end

/-- A function whose slope is at most 1. -/
theorem lip_one {f f' : ℝ → ℝ} (hf : ∀ t, HasDerivAt f (f' t) t) (hb : ∀ t, |f' t| ≤ 1) (s t : ℝ) : |f s - f t| ≤ |s - t| := by
  have h := Convex.norm_image_sub_le_of_norm_hasDerivWithin_le (f := f) (f' := f') (s := Set.univ) (C := 1)
    (fun x _ => (hf x).hasDerivWithinAt) (fun x _ => hb x) convex_univ (Set.mem_univ t) (Set.mem_univ s)
  simpa using h

theorem sigmoid_mem (t : ℝ) : 0 < sigmoid t ∧ sigmoid t < 1 := by
  have := Real.exp_pos (-t)
  unfold sigmoid
  refine ⟨by positivity, ?_⟩
  rw [div_lt_one (by positivity)]
  linarith

theorem sigmoid_lip (s t : ℝ) : |sigmoid s - sigmoid t| ≤ |s - t| := by
  refine lip_one sigmoid_hasDeriv (fun t => ?_) s t
  obtain ⟨h1, h2⟩ := sigmoid_mem t
  simp only [Polynomial.eval_sub, Polynomial.eval_X, Polynomial.eval_pow]
  rw [abs_le]
  constructor <;> nlinarith

theorem tanh_lip (s t : ℝ) : |Real.tanh s - Real.tanh t| ≤ |s - t| := by
  refine lip_one tanh_hasDeriv (fun t => ?_) s t
  have h := abs_le.1 (Real.abs_tanh_lt_one t).le
  simp only [Polynomial.eval_sub, Polynomial.eval_one, Polynomial.eval_X, Polynomial.eval_pow]
  rw [abs_le]
  constructor <;> nlinarith [h.1, h.2]

section
variable {p : ℕ} {rnd : ℝ → ℝ}

theorem near_self (u x : ℝ) : Near u 0 |x| x x := ⟨le_rfl, by simp⟩

/-- The error relative to the rounded number. -/
theorem rnd_error_rel (R : RoundsToNearest p rnd) (D : ℝ) : |rnd D - D| ≤ unit p * |rnd D| := by
  have hu := unit_pos p
  have e := rnd_error R D
  have e1 : (1 + unit p) * |rnd D - D| ≤ unit p * |D| := by
    rw [div_mul_eq_mul_div, le_div_iff₀ (by linarith)] at e
    linarith
  have e2 : |D| ≤ (1 + unit p) * |rnd D| := by
    have h1 : |D| ≤ |rnd D| + |rnd D - D| := by
      have := abs_sub_abs_le_abs_sub D (rnd D)
      rw [abs_sub_comm] at this
      linarith
    have h2 := mul_le_mul_of_nonneg_left h1 (show 0 ≤ 1 + unit p by linarith)
    linarith
  have h1 := mul_le_mul_of_nonneg_left e2 hu.le
  have h2 : (1 + unit p) * |rnd D - D| ≤ (1 + unit p) * (unit p * |rnd D|) := by linarith
  exact le_of_mul_le_mul_left h2 (by linarith)

/-- The inverse of a rounded number. -/
theorem inv_near (R : RoundsToNearest p rnd) {D : ℝ} (hD : D ≠ 0) : |1 / rnd D - 1 / D| ≤ unit p * |1 / D| := by
  have hD1 : rnd D ≠ 0 := rnd_ne_zero R hD
  have e : 1 / rnd D - 1 / D = 1 / D * ((D - rnd D) / rnd D) := by
    field_simp
  rw [e, abs_mul, abs_div (D - rnd D), mul_comm]
  refine mul_le_mul_of_nonneg_right ?_ (abs_nonneg _)
  rw [div_le_iff₀ (abs_pos.2 hD1), abs_sub_comm]
  exact rnd_error_rel R D

/-- The slope of the map to `[0,1]`. -/
theorem unitSlope_near (R : RoundsToNearest p rnd) {x0 xf : ℝ} (h : x0 ≠ xf) : Near (unit p) 2 |1 / (xf - x0)| (1 / (xf - x0)) (rndSlope rnd 0 1 x0 xf) := by
  unfold rndSlope
  rw [sub_zero, rnd_float R (isFloat_one p)]
  exact near_round (n := 1) le_rfl (by rw [pow_one, add_sub_cancel_left]; exact inv_near R (sub_ne_zero.2 (Ne.symm h))) (unit_pos p).le (rnd_error' R _)

/-- The mapped point. -/
theorem unitZ_near (R : RoundsToNearest p rnd) {x0 xf : ℝ} (h : x0 ≠ xf) (x : ℝ) :
    Near (unit p) 5 |(x - x0) / (xf - x0)| ((x - x0) / (xf - x0)) (rndToZ rnd 0 1 x0 xf x) := by
  have hu := (unit_pos p).le
  have h1 : Near (unit p) 1 |x - x0| (x - x0) (rnd (x - x0)) := near_round (n := 0) le_rfl (by simp) hu (rnd_error' R _)
  have h2 := (h1.mul R (unitSlope_near R h)).add R (m := 0) (Y := 0) (N := 0) (y := 0) ⟨by simp, by simp⟩ le_rfl (by norm_num)
  rw [add_zero, add_zero, ← abs_mul, mul_one_div] at h2
  exact h2

/-- The argument of the activation function. -/
theorem arg_near (R : RoundsToNearest p rnd) {z w b : ℝ} {Z : Fl rnd} (hZ : Near (unit p) 5 |z| z Z.val) :
    Near (unit p) 7 (|w| * |z| + |b|) (w * z + b) ((⟨w⟩ : Fl rnd) * Z + ⟨b⟩).val :=
  ((near_self _ w).mul R hZ).add R (near_self _ b) le_rfl (by norm_num)

/-- The argument of `exp`. -/
theorem negarg_near (R : RoundsToNearest p rnd) {z w b : ℝ} {Z : Fl rnd} (hZ : Near (unit p) 5 |z| z Z.val) :
    Near (unit p) 7 (|w| * |z| + |b|) (-(w * z + b)) (-(⟨w⟩ : Fl rnd) * Z - ⟨b⟩).val := by
  have h := ((near_self _ w).neg.mul R hZ).sub R (near_self _ b) (k := 6) le_rfl (by norm_num)
  rw [show -w * z - b = -(w * z + b) by ring] at h
  exact h

/-- The error of arguments of size `S` with `N` roundings and of the library functions. -/
noncomputable def elmDelta (u ε : ℝ) (N : ℕ) (S : ℝ) : ℝ := ε + ((1 + u) ^ N - 1) * (1 + S)

theorem elmDelta_nonneg {u ε S : ℝ} {N : ℕ} (hu : 0 ≤ u) (hε : 0 ≤ ε) (hS : 0 ≤ S) : 0 ≤ elmDelta u ε N S := by
  have := one_le_pow₀ (n := N) (show 1 ≤ 1 + u by linarith)
  have : 0 ≤ ((1 + u) ^ N - 1) * (1 + S) := mul_nonneg (by linarith) (by linarith)
  unfold elmDelta
  linarith

theorem two_unit_le {u : ℝ} (hu : 0 ≤ u) {N : ℕ} (hN : 2 ≤ N) : 2 * u ≤ (1 + u) ^ N - 1 := by
  have h := one_add_mul_le_pow (show -2 ≤ u by linarith) N
  have : (2 : ℝ) ≤ N := by exact_mod_cast hN
  nlinarith

variable [Libm (Fl rnd)] [LibmExp (Fl rnd)]

/-- The denominator of the sigmoid. -/
theorem logistic_inv (R : RoundsToNearest p rnd) {ε : ℝ} (h0 : 0 ≤ ε) (hε : ε ≤ 1 / 16) (hlib : ElmLibmAccurate rnd ε) {S A : ℝ} {N : ℕ} {g : Fl rnd}
    (hg : Near (unit p) N S (-A) g.val) :
    1 ≤ (1 + LibmExp.exp g : Fl rnd).val ∧ |1 / (1 + LibmExp.exp g : Fl rnd).val - sigmoid A| ≤ unit p + ε + ((1 + unit p) ^ N - 1) * S := by
  have hu := (unit_pos p).le
  obtain ⟨E, hE⟩ : ∃ E, E = (LibmExp.exp g).val := ⟨_, rfl⟩
  obtain ⟨e, he⟩ : ∃ e, e = Real.exp g.val := ⟨_, rfl⟩
  have hl := hlib.exp g
  rw [← hE, ← he] at hl
  have e0 : 0 < e := by rw [he]; exact Real.exp_pos _
  have hl' := abs_le.1 hl
  have hE2 : e / 2 ≤ E := by nlinarith
  have hE0 : 0 < E := by linarith
  have hv : (1 + LibmExp.exp g : Fl rnd).val = rnd (1 + E) := by rw [hE]; rfl
  rw [hv]
  have hD1 : 1 ≤ rnd (1 + E) := by
    rw [← rnd_float R (isFloat_one p)]
    refine rnd_mono R ?_
    rw [rnd_float R (isFloat_one p)]
    linarith
  refine ⟨hD1, ?_⟩
  -- the rounding of the denominator
  have a1 : |1 / rnd (1 + E) - 1 / (1 + E)| ≤ unit p := by
    refine (inv_near R (by linarith : (1 + E) ≠ 0)).trans ?_
    have : |1 / (1 + E)| ≤ 1 := by
      rw [abs_of_pos (by positivity), div_le_one (by positivity)]
      linarith
    nlinarith
  -- the error of `exp`
  have a2 : |1 / (1 + E) - 1 / (1 + e)| ≤ ε := by
    have e1 : 1 / (1 + E) - 1 / (1 + e) = (e - E) / ((1 + E) * (1 + e)) := by
      field_simp
      ring
    rw [e1, abs_div, abs_of_pos (show 0 < (1 + E) * (1 + e) by positivity), div_le_iff₀ (by positivity), abs_sub_comm]
    refine hl.trans (mul_le_mul_of_nonneg_left ?_ h0)
    nlinarith
  -- the argument
  have a3 : |1 / (1 + e) - sigmoid A| ≤ ((1 + unit p) ^ N - 1) * S := by
    have e1 : 1 / (1 + e) = sigmoid (-g.val) := by
      unfold sigmoid
      rw [neg_neg, he]
    rw [e1]
    refine (sigmoid_lip _ _).trans ?_
    have := hg.err
    rwa [show g.val - -A = -(-g.val - A) by ring, abs_neg] at this
  have b1 := abs_sub_le (1 / rnd (1 + E)) (1 / (1 + E)) (sigmoid A)
  have b2 := abs_sub_le (1 / (1 + E)) (1 / (1 + e)) (sigmoid A)
  linarith

/-- The sigmoid. -/
theorem logistic_close (R : RoundsToNearest p rnd) {ε : ℝ} (h0 : 0 ≤ ε) (hε : ε ≤ 1 / 16) (hlib : ElmLibmAccurate rnd ε) {S A : ℝ} {N : ℕ} (hN : 2 ≤ N)
    {g : Fl rnd} (hg : Near (unit p) N S (-A) g.val) : Close (unit p) (elmDelta (unit p) ε N S) 0 1 1 (sigmoid A) (1 / (1 + LibmExp.exp g) : Fl rnd).val := by
  have hu := (unit_pos p).le
  obtain ⟨h1, h2⟩ := logistic_inv R h0 hε hlib hg
  obtain ⟨D, hD⟩ : ∃ D, D = (1 + LibmExp.exp g : Fl rnd).val := ⟨_, rfl⟩
  rw [← hD] at h1 h2
  have hv : (1 / (1 + LibmExp.exp g) : Fl rnd).val = rnd (1 / D) := by rw [hD]; rfl
  rw [hv]
  have i0 : 0 ≤ 1 / D := by positivity
  have i1 : 1 / D ≤ 1 := by rw [div_le_one (by linarith)]; exact h1
  have r0 := rnd_nonneg R i0
  have r1 : rnd (1 / D) ≤ 1 := by
    have := rnd_mono R i1
    rwa [rnd_float R (isFloat_one p)] at this
  obtain ⟨s0, s1⟩ := sigmoid_mem A
  have hS := hg.nonneg
  refine ⟨by rw [abs_of_pos s0]; exact s1.le, rnd (1 / D), ⟨by rw [abs_of_nonneg r0]; exact r1, by simp⟩, ?_⟩
  have h3 := rnd_error' R (1 / D)
  rw [abs_of_nonneg i0] at h3
  have h4 : unit p * (1 / D) ≤ unit p := by nlinarith
  have h5 := abs_sub_le (rnd (1 / D)) (1 / D) (sigmoid A)
  have h6 := two_unit_le hu hN
  unfold elmDelta
  nlinarith

/-- tanh. -/
theorem tanh_close {ε : ℝ} (h0 : 0 ≤ ε) (hε : ε ≤ 1 / 16) (hlib : ElmLibmAccurate rnd ε) {S A : ℝ} {N : ℕ} {g : Fl rnd}
    (hg : Near (unit p) N S A g.val) : Close (unit p) (elmDelta (unit p) ε N S) 0 (17 / 16) 1 (Real.tanh A) (LibmExp.tanh g).val := by
  have hu := (unit_pos p).le
  have h1 := hlib.tanh g
  have h2 := tanh_lip g.val A
  have h3 := (Real.abs_tanh_lt_one A).le
  have h4 := (Real.abs_tanh_lt_one g.val).le
  have h5 := abs_sub_abs_le_abs_sub (LibmExp.tanh g).val (Real.tanh g.val)
  have h6 := abs_sub_le (LibmExp.tanh g).val (Real.tanh g.val) (Real.tanh A)
  have h7 := one_le_pow₀ (n := N) (show 1 ≤ 1 + unit p by linarith)
  refine ⟨by linarith, (LibmExp.tanh g).val, ⟨by linarith, by simp⟩, ?_⟩
  have := hg.err
  unfold elmDelta
  nlinarith

theorem sin_close {ε : ℝ} (h0 : 0 ≤ ε) (hε : ε ≤ 1 / 16) (hlib : ElmLibmAccurate rnd ε) {S A : ℝ} {N : ℕ} {g : Fl rnd}
    (hg : Near (unit p) N S A g.val) : Close (unit p) (elmDelta (unit p) ε N S) 0 (17 / 16) 1 (Real.sin A) (Libm.sin g).val := by
  have hu := (unit_pos p).le
  have h1 := hlib.sin g
  have h2 := lip_one Real.hasDerivAt_sin Real.abs_cos_le_one g.val A
  have h3 := Real.abs_sin_le_one A
  have h4 := Real.abs_sin_le_one g.val
  have h5 := abs_sub_abs_le_abs_sub (Libm.sin g).val (Real.sin g.val)
  have h6 := abs_sub_le (Libm.sin g).val (Real.sin g.val) (Real.sin A)
  have h7 := one_le_pow₀ (n := N) (show 1 ≤ 1 + unit p by linarith)
  refine ⟨by linarith, (Libm.sin g).val, ⟨by linarith, by simp⟩, ?_⟩
  have := hg.err
  unfold elmDelta
  nlinarith

theorem cos_close {ε : ℝ} (h0 : 0 ≤ ε) (hε : ε ≤ 1 / 16) (hlib : ElmLibmAccurate rnd ε) {S A : ℝ} {N : ℕ} {g : Fl rnd}
    (hg : Near (unit p) N S A g.val) : Close (unit p) (elmDelta (unit p) ε N S) 0 (17 / 16) 1 (Real.cos A) (Libm.cos g).val := by
  have hu := (unit_pos p).le
  have h1 := hlib.cos g
  have h2 := lip_one Real.hasDerivAt_cos (fun t => by rw [abs_neg]; exact Real.abs_sin_le_one t) g.val A
  have h3 := Real.abs_cos_le_one A
  have h4 := Real.abs_cos_le_one g.val
  have h5 := abs_sub_abs_le_abs_sub (Libm.cos g).val (Real.cos g.val)
  have h6 := abs_sub_le (Libm.cos g).val (Real.cos g.val) (Real.cos A)
  have h7 := one_le_pow₀ (n := N) (show 1 ≤ 1 + unit p by linarith)
  refine ⟨by linarith, (Libm.cos g).val, ⟨by linarith, by simp⟩, ?_⟩
  have := hg.err
  unfold elmDelta
  nlinarith

omit [Libm (Fl rnd)] [LibmExp (Fl rnd)] in
/-- The power of the weight. -/
theorem wpow_near (R : RoundsToNearest p rnd) (w : ℝ) (d : ℕ) :
    Near (unit p) 1 (|w| ^ d) (if d = 1 then w else w ^ d) (if d = 1 then (⟨w⟩ : Fl rnd) else ⟨w⟩ ^ d).val := by
  split_ifs with h
  · subst h
    rw [pow_one]
    exact (near_self _ w).mono (unit_pos p).le (by norm_num)
  · have := (near_self (unit p) w).pow R d
    rw [zero_mul] at this
    exact this

/-- The constant of the error bound: `2^(d+1) (d+1)!`, for the activation functions that are not bounded times `1 + S`. -/
noncomputable def elmConst (a : Activation) (d : ℕ) (S : ℝ) : ℝ :=
  2 ^ (d + 1) * (d + 1).factorial * (match a with | .relu => 1 + S | .swish => 1 + S | _ => 1)

theorem factorial_le_real (d : ℕ) : ((d.factorial : ℕ) : ℝ) ≤ ((d + 1).factorial : ℕ) := by
  exact_mod_cast Nat.factorial_le (Nat.le_succ d)

/-- All ELM classes: what the `Hint` computes. -/
theorem elm_close (R : RoundsToNearest p rnd) {ε : ℝ} (h0 : 0 ≤ ε) (hε : ε ≤ 1 / 16) (hlib : ElmLibmAccurate rnd ε) (a : Activation) {d : ℕ}
    (hd : orderOk a d) {w b z : ℝ} {Z : Fl rnd} (hZ : Near (unit p) 5 |z| z Z.val) {S : ℝ} (hS : S = |w| * |z| + |b|)
    (hk : a = .relu → d ≠ 0 → ((1 + unit p) ^ 7 - 1) * S < |w * z + b|) :
    Close (unit p) (elmDelta (unit p) ε 7 S) 22 (|w| ^ d * elmConst a d S) (|w| ^ d * elmConst a d S) (elmOp a d w b z) (elmOp a d (⟨w⟩ : Fl rnd) ⟨b⟩ Z).val := by
  have hu := (unit_pos p).le
  have hS0 : 0 ≤ S := by rw [hS]; positivity
  have hδ := elmDelta_nonneg (N := 7) hu h0 hS0
  have hA := arg_near R (w := w) (b := b) hZ
  have hN := negarg_near R (w := w) (b := b) hZ
  rw [← hS] at hA hN
  have hw : 0 ≤ |w| ^ d := by positivity
  obtain ⟨F, hF⟩ : ∃ F : ℝ, F = ((d + 1).factorial : ℕ) := ⟨_, rfl⟩
  have hF1 : 1 ≤ F := by
    rw [hF]
    exact_mod_cast Nat.one_le_iff_ne_zero.2 (Nat.factorial_ne_zero _)
  have h2 : (2 : ℝ) ≤ 2 ^ (d + 1) := by
    have := pow_le_pow_right₀ (show (1 : ℝ) ≤ 2 by norm_num) (show 1 ≤ d + 1 by omega)
    simpa using this
  have hK : 2 ≤ 2 ^ (d + 1) * F := by nlinarith
  cases a with
  | relu =>
    simp only [elmConst, elmOp]
    rw [← hF]
    split_ifs with d0 d1 c1 c2 c2
    · -- the value
      subst d0
      have hmax : |max 0 (⟨w⟩ * Z + ⟨b⟩ : Fl rnd).val - max 0 (w * z + b)| ≤ ((1 + unit p) ^ 7 - 1) * S := by
        refine le_trans ?_ hA.err
        have := abs_max_sub_max_le_abs (⟨w⟩ * Z + ⟨b⟩ : Fl rnd).val (w * z + b) 0
        rwa [max_comm _ (0 : ℝ), max_comm _ (0 : ℝ)] at this
      have hle : |max 0 (w * z + b)| ≤ S := by
        rw [abs_of_nonneg (le_max_left _ _)]
        exact max_le hS0 ((le_abs_self _).trans hA.le)
      have hn : Near (unit p) 7 S (max 0 (w * z + b)) (max 0 (⟨w⟩ * Z + ⟨b⟩ : Fl rnd).val) := ⟨hle, hmax⟩
      refine ((hn.close (δ := elmDelta (unit p) ε 7 S)).mono hu (by norm_num)).weak hu hδ ?_ ?_
      · rw [pow_zero, one_mul]
        nlinarith
      · rw [pow_zero, one_mul]
        positivity
    · exact (((near_exact (u := unit p) 0 le_rfl).close (δ := elmDelta (unit p) ε 7 S)).mono hu (by norm_num)).weak hu hδ (by positivity) (by positivity)
    · exfalso
      have h := hk rfl d0
      have e := abs_le.1 hA.err
      have c2' : ¬ (⟨w⟩ * Z + ⟨b⟩ : Fl rnd).val ≤ 0 := c2
      rw [abs_of_nonpos c1] at h
      linarith [e.2]
    · exfalso
      have h := hk rfl d0
      have e := abs_le.1 hA.err
      have c2' : (⟨w⟩ * Z + ⟨b⟩ : Fl rnd).val ≤ 0 := c2
      rw [abs_of_pos (not_le.1 c1)] at h
      linarith [e.1]
    · subst d1
      refine (((near_self (unit p) w).close (δ := elmDelta (unit p) ε 7 S)).mono hu (by norm_num)).weak hu hδ ?_ (by positivity)
      rw [pow_one]
      have : 1 ≤ 2 ^ (1 + 1) * F * (1 + S) := by nlinarith
      nlinarith [abs_nonneg w]
    · exact (((near_exact (u := unit p) 0 le_rfl).close (δ := elmDelta (unit p) ε 7 S)).mono hu (by norm_num)).weak hu hδ (by positivity) (by positivity)
  | sigmoid =>
    have hT := logistic_close R h0 hε hlib (by norm_num) hN
    simp only [elmConst, elmOp, mul_one]
    by_cases d0 : d = 0
    · subst d0
      show Close _ _ _ _ _ (1 / (1 + Real.exp (-w * z - b))) (1 / (1 + LibmExp.exp (-(⟨w⟩ : Fl rnd) * Z - ⟨b⟩)) : Fl rnd).val
      rw [sigmoid_form]
      exact (hT.mono hu (by norm_num)).weak hu hδ (by norm_num) (by norm_num)
    · rw [sig_switch (by omega) hd, sig_switch (by omega) hd]
      have h := ((wpow_near R w d).close (δ := elmDelta (unit p) ε 7 S)).mul R (sigPoly_close R hδ hT hd)
      show Close _ _ _ _ _ ((if d = 1 then w else w ^ d) * sigPoly d (1 / (1 + Real.exp (-w * z - b)))) (rnd _)
      rw [sigmoid_form]
      refine (h.mono hu (by norm_num)).weak hu hδ ?_ ?_
      · exact mul_le_mul_of_nonneg_left (mul_le_mul_of_nonneg_left (factorial_le_real d) (by positivity)) hw
      · rw [mul_zero, add_zero]
  | tanh =>
    have hT := tanh_close h0 hε hlib hA
    simp only [elmConst, elmOp, mul_one]
    by_cases d0 : d = 0
    · subst d0
      show Close _ _ _ _ _ (Real.tanh (w * z + b)) (LibmExp.tanh ((⟨w⟩ : Fl rnd) * Z + ⟨b⟩)).val
      exact (hT.mono hu (by norm_num)).weak hu hδ (by norm_num) (by norm_num)
    · rw [tanh_switch (by omega) hd, tanh_switch (by omega) hd]
      have h := ((wpow_near R w d).close (δ := elmDelta (unit p) ε 7 S)).mul R (tanhPoly_close R hδ hT hd)
      show Close _ _ _ _ _ ((if d = 1 then w else w ^ d) * tanhPoly d (Real.tanh (w * z + b))) (rnd _)
      refine (h.mono hu (by norm_num)).weak hu hδ ?_ ?_
      · exact mul_le_mul_of_nonneg_left (mul_le_mul_of_nonneg_left (factorial_le_real d) (by positivity)) hw
      · rw [mul_zero, add_zero]
  | sin =>
    have hs := sin_close h0 hε hlib hA
    have hc := cos_close h0 hε hlib hA
    have hp : Close (unit p) (elmDelta (unit p) ε 7 S) 1 (|w| ^ d) 0 (w ^ d) ((⟨w⟩ : Fl rnd) ^ d).val := by
      have := (near_self (unit p) w).pow R d
      rw [zero_mul] at this
      exact this.close
    have hm : |w| ^ d * (17 / 16) ≤ |w| ^ d * (2 ^ (d + 1) * F) := mul_le_mul_of_nonneg_left (by linarith) hw
    have hl : |w| ^ d * 1 + 17 / 16 * 0 ≤ |w| ^ d * (2 ^ (d + 1) * F) := by
      rw [mul_zero, add_zero]
      exact mul_le_mul_of_nonneg_left (by linarith) hw
    simp only [elmConst, elmOp, mul_one]
    rw [← hF]
    split_ifs
    · exact ((hp.mul R hs).mono hu (by norm_num)).weak hu hδ hm hl
    · exact ((hp.mul R hc).mono hu (by norm_num)).weak hu hδ hm hl
    · exact ((hp.neg.mul R hs).mono hu (by norm_num)).weak hu hδ hm hl
    · exact ((hp.neg.mul R hc).mono hu (by norm_num)).weak hu hδ hm hl
  | swish =>
    have hd8 : d ≤ 8 := hd
    simp only [elmConst, elmOp]
    rw [← hF]
    by_cases d0 : d = 0
    · subst d0
      rw [if_pos rfl, if_pos rfl]
      obtain ⟨i1, i2⟩ := logistic_inv R h0 hε hlib hN
      obtain ⟨D, hD⟩ : ∃ D, D = (1 + LibmExp.exp (-(⟨w⟩ : Fl rnd) * Z - ⟨b⟩) : Fl rnd).val := ⟨_, rfl⟩
      rw [← hD] at i1 i2
      have hnum := hA.mul R (near_exact (u := unit p) 1 (by norm_num))
      rw [mul_one, mul_one] at hnum
      obtain ⟨v, hv⟩ : ∃ v, v = rnd ((⟨w⟩ * Z + ⟨b⟩ : Fl rnd).val * 1) := ⟨_, rfl⟩
      rw [← hv] at hnum
      have hval : ((⟨w⟩ * Z + ⟨b⟩) * 1 / (1 + LibmExp.exp (-(⟨w⟩ : Fl rnd) * Z - ⟨b⟩)) : Fl rnd).val = rnd (v / D) := by
        rw [hv, hD]
        rfl
      rw [hval]
      have hD0 : 0 < D := by linarith
      have j1 : |1 / D| ≤ 1 := by
        rw [abs_of_pos (by positivity), div_le_one hD0]
        exact i1
      have e1 : ((w * z + b) * 1 / (1 + LibmExp.exp (-w * z - b)) : ℝ) = (w * z + b) * sigmoid (w * z + b) := by
        rw [LibmExp.exp_real, mul_div_assoc, sigmoid_form]
      rw [e1]
      have n1 : |(w * z + b) * (1 / D)| ≤ S := by
        rw [abs_mul]
        have := mul_le_mul hA.le j1 (abs_nonneg _) hS0
        linarith
      have n2 : |v / D - (w * z + b) * (1 / D)| ≤ ((1 + unit p) ^ (7 + 0 + 1) - 1) * S := by
        rw [show v / D - (w * z + b) * (1 / D) = (v - (w * z + b)) * (1 / D) by ring, abs_mul]
        have := mul_le_mul hnum.err j1 (abs_nonneg _) ((abs_nonneg _).trans hnum.err)
        linarith
      have hn := near_round n1 n2 hu (rnd_error' R (v / D))
      obtain ⟨s0, s1⟩ := sigmoid_mem (w * z + b)
      have hcl : Close (unit p) (elmDelta (unit p) ε 7 S) (7 + 0 + 1 + 1) S S ((w * z + b) * sigmoid (w * z + b)) (rnd (v / D)) := by
        refine ⟨?_, _, hn, ?_⟩
        · rw [abs_mul, abs_of_pos s0]
          have := mul_le_mul hA.le s1.le s0.le hS0
          linarith
        · rw [← mul_sub, abs_mul]
          refine mul_le_mul hA.le (i2.trans ?_) (abs_nonneg _) hS0
          have h6 := one_add_mul_le_pow (show -2 ≤ unit p by linarith) 7
          unfold elmDelta
          push_cast at h6
          nlinarith
      refine (hcl.mono hu (by norm_num)).weak hu hδ ?_ ?_
      all_goals
        rw [pow_zero, one_mul]
        nlinarith
    · rw [if_neg d0, if_neg d0, swish_switch (by omega) hd, swish_switch (by omega) hd]
      have hgn : Near (unit p) 7 S (-(w * z + b)) (-((⟨w⟩ : Fl rnd) * Z + ⟨b⟩)).val := hA.neg
      have hT := logistic_close R h0 hε hlib (by norm_num) hgn
      have hz := hA.close (δ := elmDelta (unit p) ε 7 S)
      have hP := sigPoly_close R hδ hT hd
      have hQ := sigPoly_close R hδ hT (d := d - 1) (by omega)
      obtain ⟨T, hTdef⟩ : ∃ T : Fl rnd, T = 1 / (1 + LibmExp.exp (-((⟨w⟩ : Fl rnd) * Z + ⟨b⟩))) := ⟨_, rfl⟩
      rw [← hTdef] at hT hP hQ
      obtain ⟨e, he⟩ : ∃ e, e + 1 = d := ⟨d - 1, by omega⟩
      subst he
      rw [show e + 1 - 1 = e from rfl] at hQ
      -- the literal
      have hL : Close (unit p) (elmDelta (unit p) ε 7 S) 13 (2 ^ (e + 1) * (e + 1).factorial) (2 ^ (e + 1) * ((e + 1) * (e + 1).factorial))
          (times (e + 1) (sigPoly e (sigmoid (w * z + b)))) (times (e + 1) (sigPoly e T)).val := by
        unfold times
        split_ifs with h1
        · have : e = 0 := by omega
          subst this
          exact (hQ.mono hu (by norm_num)).weak hu hδ (by norm_num [Nat.factorial]) (by norm_num [Nat.factorial])
        · have hl : Near (unit p) 1 (((e + 1 : ℕ) : ℝ)) ((e + 1 : ℕ) : ℝ) ((e + 1 : ℕ) : Fl rnd).val :=
            near_round (n := 0) (by rw [abs_of_nonneg (Nat.cast_nonneg _)]) (by simp) hu (rnd_error' R _)
          refine ((hl.close.mul R hQ).mono hu (by norm_num)).weak hu hδ ?_ ?_
          · rw [Nat.factorial_succ e]
            push_cast
            exact le_of_eq (by ring)
          · rw [mul_zero, add_zero]
            push_cast
            exact le_of_eq (by ring)
      have h := ((wpow_near R w (e + 1)).close (δ := elmDelta (unit p) ε 7 S)).mul R (hL.add R (hz.mul R hP) (k := 19) (by norm_num) (by norm_num))
      show Close _ _ _ _ _ ((if e + 1 = 1 then w else w ^ (e + 1)) * (times (e + 1) (sigPoly (e + 1 - 1) (1 / (1 + Real.exp (-(w * z + b))))) +
        (w * z + b) * sigPoly (e + 1) (1 / (1 + Real.exp (-(w * z + b)))))) (rnd _)
      rw [← hTdef]
      have hsg : 1 / (1 + Real.exp (-(w * z + b))) = sigmoid (w * z + b) := rfl
      rw [hsg]
      have g1 : (((e + 1).factorial : ℕ) : ℝ) ≤ F := by rw [hF]; exact factorial_le_real _
      have g0 : (0 : ℝ) ≤ ((e + 1).factorial : ℕ) := Nat.cast_nonneg _
      have g2 : ((e : ℝ) + 1) * ((e + 1).factorial : ℕ) ≤ F := by
        rw [hF, Nat.factorial_succ (e + 1)]
        push_cast
        nlinarith
      have q : (2 : ℝ) ^ (e + 1 + 1) = 2 * 2 ^ (e + 1) := by ring
      have q0 : (0 : ℝ) < 2 ^ (e + 1) := by positivity
      refine (h.mono hu (by norm_num)).weak hu hδ ?_ ?_
      · refine mul_le_mul_of_nonneg_left ?_ hw
        rw [q]
        have k1 := mul_le_mul_of_nonneg_left g1 q0.le
        have k2 := mul_le_mul_of_nonneg_left k1 hS0
        have k3 : 0 ≤ 2 ^ (e + 1) * F := by positivity
        linarith
      · rw [mul_zero, add_zero, mul_zero, add_zero, q, ← hF]
        refine mul_le_mul_of_nonneg_left ?_ hw
        have k1 := mul_le_mul_of_nonneg_left g2 q0.le
        have k3 : 0 ≤ 2 ^ (e + 1) * F := by positivity
        linarith

/-- **C111**: with every operation rounded to nearest, library functions `sin`, `cos`, `tanh` of absolute error `ε` and `exp` of relative error `ε`, the
compiled ELM classes give in column `k` values that differ from the `d`-th derivative of the activation function of `w z + b` at the exactly mapped point by
at most `2^(d+1) (d+1)! |w c|^d (ε + ((1 + u)^(2 d + 24) - 1) (2 + S))`, where `u` is the unit roundoff, `c` the slope of the map and `S` the size of the
argument; for the two activation functions that are not bounded there is a further factor `1 + S`. For the derivatives of the rectifier the argument must
not be within `((1 + u)^7 - 1) S` of the kink. The points may be outside the domain. -/
theorem C111_accurate (R : RoundsToNearest p rnd) {ε : ℝ} (h0 : 0 ≤ ε) (hε : ε ≤ 1 / 16) (hlib : ElmLibmAccurate rnd ε) (a : Activation) {d : ℕ}
    (hd : orderOk a d) (w b : ℕ → ℝ) {x0 xf : ℝ} (h01 : x0 ≠ xf) {nC : List ℤ} {m : ℕ} (full : Bool) (hC : full = true ∨ ValidRemoval m nC) (n : ℕ)
    (xs : ℕ → ℝ) (hk : a = .relu → d ≠ 0 → ∀ j < n, ∀ k ∈ outColumns m nC full,
      ((1 + unit p) ^ 7 - 1) * argSize (w k) (b k) x0 xf (xs j) < |w k * toBasis x0 xf 0 1 (xs j) + b k|)
    (out : Buf (Fl rnd)) (hout : out.size = n * (outColumns m nC full).length) :
    ∃ V : ℕ → ℕ → Fl rnd,
      ReturnsMatrix ((Model.CC.elmNew a (Buf.ofFn m fun k => (⟨w k⟩ : Fl rnd)) (Buf.ofFn m fun k => ⟨b k⟩) ⟨x0⟩ ⟨xf⟩ nC m).H (Buf.ofFn n fun j => ⟨xs j⟩) n d full)
        n (outColumns m nC full) V ∧
      FillsMatrix ((Model.CC.elmNew a (Buf.ofFn m fun k => (⟨w k⟩ : Fl rnd)) (Buf.ofFn m fun k => ⟨b k⟩) ⟨x0⟩ ⟨xf⟩ nC m).xla out (Buf.ofFn n fun j => ⟨xs j⟩) d full n
        (outColumns m nC full).length) n (outColumns m nC full) V ∧
      ∀ j < n, ∀ k ∈ outColumns m nC full,
        |(V j k).val - iteratedDeriv d (fun x => act a (w k * toBasis x0 xf 0 1 x + b k)) (xs j)| ≤
          elmConst a d (argSize (w k) (b k) x0 xf (xs j)) * |w k / (xf - x0)| ^ d *
            (ε + ((1 + unit p) ^ (2 * d + 24) - 1) * (2 + argSize (w k) (b k) x0 xf (xs j))) := by
  have hsw : a = .swish → d ≤ 8 := by
    rintro rfl
    exact hd
  obtain ⟨V, v1, v2, v3⟩ := C111_same a (fun k => (⟨w k⟩ : Fl rnd)) (fun k => ⟨b k⟩) ⟨x0⟩ ⟨xf⟩ (nC := nC) (m := m) d hsw full hC n (fun j => ⟨xs j⟩) out hout
  refine ⟨V, v1, v2, fun j hj k hkc => ?_⟩
  have hu := (unit_pos p).le
  obtain ⟨S, hS⟩ : ∃ S, S = argSize (w k) (b k) x0 xf (xs j) := ⟨_, rfl⟩
  have hk' := fun ha hd0 => hk ha hd0 j hj k hkc
  rw [← hS] at hk' ⊢
  have hS0 : 0 ≤ S := by
    rw [hS]
    unfold argSize
    positivity
  obtain ⟨z, hz⟩ : ∃ z, z = (xs j - x0) / (xf - x0) := ⟨_, rfl⟩
  have htb : ∀ x, toBasis x0 xf 0 1 x = (x - x0) * (1 / (xf - x0)) + 0 := by
    intro x
    unfold toBasis
    ring
  have hzz : (xs j - x0) * (1 / (xf - x0)) + 0 = z := by
    rw [hz]
    ring
  have hZ := unitZ_near R h01 (xs j)
  rw [← hz] at hZ
  have hSz : S = |w k| * |z| + |b k| := by
    rw [hS, hz]
    rfl
  have hcl := elm_close R h0 hε hlib a hd (w := w k) (b := b k) (z := z) (Z := ((⟨xs j⟩ : Fl rnd) - (⟨x0⟩ : Fl rnd)) * ((1 - 0) / ((⟨xf⟩ : Fl rnd) - (⟨x0⟩ : Fl rnd))) + 0) hZ hSz
    (fun ha hd0 => by
      have := hk' ha hd0
      rwa [htb, hzz] at this)
  have hc := (unitSlope_near R h01).pow R d
  have hfin := hcl.mul R (hc.close (δ := elmDelta (unit p) ε 7 S))
  have herr := hfin.err
  -- the exact value
  have hex : iteratedDeriv d (fun x => act a (w k * toBasis x0 xf 0 1 x + b k)) (xs j) = elmOp a d (w k) (b k) z * (1 / (xf - x0)) ^ d := by
    simp only [htb]
    rw [elm_iteratedDeriv a hd, hzz, elmOp_real a d hsw]
    intro ha hd0
    have := hk' ha hd0
    have h7 := one_le_pow₀ (n := 7) (show 1 ≤ 1 + unit p by linarith)
    have h8 : 0 ≤ ((1 + unit p) ^ 7 - 1) * S := mul_nonneg (by linarith) hS0
    rw [htb] at this
    intro h9
    rw [h9, abs_zero] at this
    linarith
  rw [hex]
  have hV : (V j k).val = rnd ((elmOp a d (⟨w k⟩ : Fl rnd) ⟨b k⟩ (((⟨xs j⟩ : Fl rnd) - ⟨x0⟩) * ((1 - 0) / (⟨xf⟩ - ⟨x0⟩)) + 0)).val *
      rnd (rndSlope rnd 0 1 x0 xf ^ d)) := by
    rw [v3]
    rfl
  rw [hV]
  refine herr.trans ?_
  obtain ⟨C, hCd⟩ : ∃ C, C = elmConst a d S := ⟨_, rfl⟩
  rw [← hCd]
  have hC0 : 0 ≤ C := by
    rw [hCd]
    unfold elmConst
    have : 0 ≤ 1 + S := by linarith
    cases a <;> positivity
  have hmul : |w k / (xf - x0)| ^ d = |w k| ^ d * |1 / (xf - x0)| ^ d := by
    rw [← mul_pow, ← abs_mul, mul_one_div]
  rw [hmul, mul_zero, zero_add, show 22 + (2 * d + 1) + 1 = 2 * d + 24 by ring]
  have hpw : (1 + unit p) ^ 7 ≤ (1 + unit p) ^ (2 * d + 24) := pow_le_pow_right₀ (by linarith) (by omega)
  have hdl : (1 + unit p) ^ (2 * d + 24) - 1 + elmDelta (unit p) ε 7 S ≤ ε + ((1 + unit p) ^ (2 * d + 24) - 1) * (2 + S) := by
    unfold elmDelta
    have := mul_le_mul_of_nonneg_right (show (1 + unit p) ^ 7 - 1 ≤ (1 + unit p) ^ (2 * d + 24) - 1 by linarith) (show 0 ≤ 1 + S by linarith)
    linarith
  have hE : 0 ≤ C * (|w k| ^ d * |1 / (xf - x0)| ^ d) := by positivity
  have := mul_le_mul_of_nonneg_left hdl hE
  calc _ = C * (|w k| ^ d * |1 / (xf - x0)| ^ d) * ((1 + unit p) ^ (2 * d + 24) - 1 + elmDelta (unit p) ε 7 S) := by ring
    _ ≤ _ := this

end

/-- C111 is false for the slope of the rectifier at points next to the kink: with doubles, on `[0, 49]` with the weight 1 and the bias `-(1 - 2^-53)`, the
compiled class gives the slope 0 at the point 49, where the function has the slope `1/49`. -/
theorem C111_relu_fails {rnd : ℝ → ℝ} [Libm (Fl rnd)] [LibmExp (Fl rnd)] (R : RoundsToNearest 53 rnd) :
    ∃ V : ℕ → ℕ → Fl rnd,
      ReturnsMatrix ((Model.CC.elmNew .relu (Buf.ofFn 1 fun _ => (⟨1⟩ : Fl rnd)) (Buf.ofFn 1 fun _ => ⟨-(1 - 2 ^ (-53 : ℤ))⟩) ⟨0⟩ ⟨49⟩ [] 1).H
        (Buf.ofFn 1 fun _ => ⟨49⟩) 1 1 true) 1 [0] V ∧ (V 0 0).val = 0 ∧
      iteratedDeriv 1 (fun x => act .relu (1 * toBasis 0 49 0 1 x + -(1 - 2 ^ (-53 : ℤ)))) 49 = 1 / 49 := by
  obtain ⟨V, v1, _, v3⟩ := C111_same .relu (fun _ => (⟨1⟩ : Fl rnd)) (fun _ => ⟨-(1 - 2 ^ (-53 : ℤ))⟩) ⟨0⟩ ⟨49⟩ (nC := []) (m := 1) 1 (by simp) true
    (Or.inl rfl) 1 (fun _ => ⟨49⟩) (alloc 1) (by simp [outColumns, alloc])
  refine ⟨V, v1, ?_, ?_⟩
  · have hz : rndToZ rnd 0 1 0 49 49 = 1 - 2 ^ (-53 : ℤ) := by
      unfold rndToZ rndSlope
      have h1 : rnd 1 = 1 := rnd_float R (isFloat_one 53)
      have h49 : rnd 49 = 49 := rnd_float R (by exact_mod_cast isFloat_int (p := 53) (m := 49) (by norm_num))
      rw [show (1 : ℝ) - 0 = 1 by norm_num, show (49 : ℝ) - 0 = 49 by norm_num, h1, h49,
        rnd_eq R (by norm_num) (x := 1 / 49) 5882252574524729 (-58) (by norm_num) (by norm_num) (by norm_num [abs_lt]),
        rnd_eq R (by norm_num) (x := 49 * (((5882252574524729 : ℤ) : ℝ) * 2 ^ (-58 : ℤ))) 9007199254740991 (-53) (by norm_num) (by norm_num) (by norm_num [abs_lt]),
        rnd_float R (x := ((9007199254740991 : ℤ) : ℝ) * 2 ^ (-53 : ℤ) + 0) ⟨9007199254740991, -53, by norm_num, by norm_num⟩]
      norm_num
    have hv : (V 0 0).val = rnd ((if rnd (rnd (1 * rndToZ rnd 0 1 0 49 49) + -(1 - 2 ^ (-53 : ℤ))) ≤ 0 then (0 : Fl rnd) else ⟨1⟩).val *
        rnd (rndSlope rnd 0 1 0 49 ^ 1)) := by
      rw [v3]
      rfl
    have hf : rnd (1 - 2 ^ (-53 : ℤ)) = 1 - 2 ^ (-53 : ℤ) := rnd_float R ⟨9007199254740991, -53, by norm_num, by norm_num⟩
    have h0 : rnd 0 = 0 := rnd_zero R
    rw [hv, hz, one_mul, hf, add_neg_cancel, h0, if_pos le_rfl]
    show rnd (0 * _) = 0
    rw [zero_mul, h0]
  · have htb : ∀ x : ℝ, toBasis 0 49 0 1 x = (x - 0) * (1 / 49) + 0 := by
      intro x
      unfold toBasis
      ring
    simp only [htb]
    rw [elm_iteratedDeriv .relu (d := 1) trivial]
    · simp only [elmD]
      norm_num
    · intro _ _
      norm_num

/-- `exp` and `tanh` correctly rounded. -/
noncomputable def roundedLibmExp (rnd : ℝ → ℝ) : LibmExp (Fl rnd) := ⟨fun a => ⟨rnd (Real.exp a.val)⟩, fun a => ⟨rnd (Real.tanh a.val)⟩⟩

theorem roundedLibmExp_accurate {p : ℕ} {rnd : ℝ → ℝ} (R : RoundsToNearest p rnd) :
    @ElmLibmAccurate rnd (roundedLibm rnd) (roundedLibmExp rnd) (unit p) := by
  letI := roundedLibm rnd
  letI := roundedLibmExp rnd
  have hu := unit_pos p
  have hl := roundedLibm_accurate R
  refine ⟨hl.sin, hl.cos, fun a => ?_, fun a => ?_⟩
  · have := rnd_error' R (Real.exp a.val)
    rwa [abs_of_pos (Real.exp_pos _)] at this
  · refine (rnd_error' R (Real.tanh a.val)).trans ?_
    have := mul_le_mul_of_nonneg_left (Real.abs_tanh_lt_one a.val).le hu.le
    linarith

/-- A concrete case: doubles, 20 swish neurons on `[0, 2]`, the third removed, second derivatives at ten points. -/
example {rnd : ℝ → ℝ} (R : RoundsToNearest 53 rnd) : letI := roundedLibm rnd; letI := roundedLibmExp rnd
    ∃ V : ℕ → ℕ → Fl rnd,
      ReturnsMatrix ((Model.CC.elmNew .swish (Buf.ofFn 20 fun k => (⟨(k : ℝ) / 2 - 5⟩ : Fl rnd)) (Buf.ofFn 20 fun k => ⟨(k : ℝ) / 4⟩) ⟨0⟩ ⟨2⟩ [2] 20).H
        (Buf.ofFn 10 fun j => ⟨(j : ℝ) / 5⟩) 10 2 false) 10 (outColumns 20 [2] false) V ∧
      |(V 3 7).val - iteratedDeriv 2 (fun x => act .swish ((((7 : ℕ) : ℝ) / 2 - 5) * toBasis 0 2 0 1 x + ((7 : ℕ) : ℝ) / 4)) (((3 : ℕ) : ℝ) / 5)| ≤ 1e-11 := by
  letI := roundedLibm rnd
  letI := roundedLibmExp rnd
  obtain ⟨V, h, _, hb⟩ := C111_accurate R (unit_pos 53).le (by unfold unit; norm_num) (roundedLibmExp_accurate R) .swish (d := 2)
    (show 2 ≤ 8 by norm_num) (fun k => (k : ℝ) / 2 - 5) (fun k => (k : ℝ) / 4) (x0 := 0) (xf := 2) (by norm_num) (nC := [2]) (m := 20) false
    (Or.inr ⟨by decide, by decide⟩) 10 (fun j => (j : ℝ) / 5) (by simp) (alloc (10 * (outColumns 20 [2] false).length)) (by simp [alloc])
  refine ⟨V, h, (hb 3 (by norm_num) 7 (by decide)).trans ?_⟩
  simp only [elmConst, argSize, unit]
  norm_num [Nat.factorial, abs_of_nonneg, abs_of_nonpos]

end Verif.Props
