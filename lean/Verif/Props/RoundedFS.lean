import Verif.Props.RoundedN

/-!
# C92: the Fourier matrices in floating point arithmetic

The library functions `sin` and `cos` are known only by a bound `ε` of their absolute error; the constant π is the number of the format next to π.
-/

namespace Verif.Props

open Verif Verif.Mem Verif.Py Verif.Np Verif.Spec Verif.Model.Rounded

/-- What is assumed about the library: an absolute error of at most `ε`, and the nearest number to π. -/
structure LibmAccurate (rnd : ℝ → ℝ) [Libm (Fl rnd)] (ε : ℝ) : Prop where
  sin : ∀ a : Fl rnd, |(Libm.sin a).val - Real.sin a.val| ≤ ε
  cos : ∀ a : Fl rnd, |(Libm.cos a).val - Real.cos a.val| ≤ ε
  pi : (Libm.pi : Fl rnd).val = rnd Real.pi

section
variable {K : Type} [Zero K] [One K] [Add K] [Sub K] [Mul K] [Div K] [Neg K] [NatCast K] [Pow K ℕ] [Libm K]

/-- **C92**: in any arithmetic and with any library functions, the eager function of the compiled class `FS`, the function it registers for compiled
computations, and the Python class give the same matrix. -/
theorem C92_same [Inhabited K] (x0 xf : K) {nC : List ℤ} {m : ℕ} (hm : 1 ≤ m) (d : ℕ) (full : Bool)
    (hC : full = true ∨ ValidRemoval m nC) (n : ℕ) (xs : ℕ → K) (out : Buf K) (hout : out.size = n * (outColumns m nC full).length) :
    ∃ V : ℕ → ℕ → K,
      ReturnsMatrix ((Model.CC.FS.new x0 xf nC m).H (Buf.ofFn n xs) n d full) n (outColumns m nC full) V ∧
      FillsMatrix ((Model.CC.FS.new x0 xf nC m).xla out (Buf.ofFn n xs) d full n (outColumns m nC full).length) n (outColumns m nC full) V ∧
      ReturnsArray ((Model.PyBF.FS.init x0 xf nC m).H n xs d full) n (outColumns m nC full) V := by
  refine ⟨fun j k => fsOp d ((xs j - x0) * ((Libm.pi - -Libm.pi) / (xf - x0)) + -Libm.pi) k * ((Libm.pi - -Libm.pi) / (xf - x0)) ^ d, ?_, ?_, ?_⟩
  · exact returns_of_runs (H_spec (Model.CC.FS.new x0 xf nC m) (d := d) (E := fsOp d) (fsOp_hintSpec hm d) (x := Buf.ofFn n xs) (n := n) (xs := xs)
      (fun j hj => Buf.ofFn_read hj) full hC)
  · exact fills_of_runs (xla_spec (Model.CC.FS.new x0 xf nC m) (d := d) (E := fsOp d) (fsOp_hintSpec hm d) (x := Buf.ofFn n xs) (n := n) (xs := xs)
      (fun j hj => Buf.ofFn_read hj) full (out := out) (M := fun j i => out.cell ((outColumns m nC full).length * j + i)) ⟨hout, fun _ _ _ _ => rfl⟩)
  · obtain ⟨B, h1, h2⟩ := fsPy_hint_op (n := n) hm (fun j => (xs j - (Model.PyBF.FS.init x0 xf nC m).x0) * (Model.PyBF.FS.init x0 xf nC m).c +
      (Model.PyBF.FS.init x0 xf nC m).z0) d
    exact pyH_spec (Model.PyBF.FS.init x0 xf nC m) (n := n) (d := d) (xs := xs) (E := fsOp d) (B := B) h1 h2 full (hC.imp id fun h => h.2)

/-- **C92**, several variables: the same for the tensor products. -/
theorem C92_same_several {dim m numC : ℕ} (hdim : 1 ≤ dim) (hm : 1 ≤ m) (x0 xf : ℕ → K) (nC : ℕ → ℕ → ℤ) :
    ∃ bc bp, Model.CC.nFS.new (Buf.ofVec fun k : Fin dim => x0 k) dim (Buf.ofVec fun k : Fin dim => xf k)
        (Buf.ofMat fun (k : Fin dim) (g : Fin numC) => nC k g) dim numC m = .ok bc ∧
      Model.PyBF.nFS.init x0 xf nC dim numC m = .ok bp ∧ ∀ full, ∃ L,
        IsColumnOrder m (fun k : Fin dim => (List.range numC).map (nC k)) full L ∧
        ∀ (n : ℕ) (xs : ℕ → ℕ → K) (ds : List ℕ) (out : Buf K), dim ≤ ds.length → out.size = n * L.length → ∃ V : ℕ → (Fin dim → ℕ) → K,
          ReturnsMatrix (bc.H (Buf.ofMat fun (k : Fin dim) (j : Fin n) => xs j k) n (Buf.ofList ds) ds.length full) n L V ∧
          FillsMatrix (bc.xla out (Buf.ofMat fun (k : Fin dim) (j : Fin n) => xs j k) (Buf.ofList ds) ds.length full n L.length) n L V ∧
          ReturnsArray (bp.H dim n (fun k j => xs j k) ds full) n L V := by
  obtain ⟨bc, b1, b2⟩ := nSame_cc (hc := Model.CC.FS.hint) (E := fsOp) (numC := numC) hdim (fun d => fsOp_hintSpec (K := K) hm d)
    (-Libm.pi) Libm.pi x0 xf nC
  obtain ⟨bp, p1, p2⟩ := nSame_py (hp := Model.PyBF.FS.hint) (E := fsOp) (numC := numC) hdim
    (fun N dk z => fsPy_hint_op (n := N) hm z dk) (-Libm.pi) Libm.pi x0 xf nC
  refine ⟨bc, bp, b1, p1, fun full => ⟨_, multiColumns_order _ _ _, fun n xs ds out hds hout => ⟨_, (b2 full n xs ds out hds hout).1,
    (b2 full n xs ds out hds hout).2, p2 full n xs ds hds⟩⟩⟩

end

section
variable {p : ℕ} {rnd : ℝ → ℝ}

/-- The rounded π. -/
theorem rnd_pi_near (R : RoundsToNearest p rnd) : |rnd Real.pi - Real.pi| ≤ unit p * Real.pi := by
  have := rnd_error' R Real.pi
  rwa [abs_of_pos Real.pi_pos] at this

/-- The length of the basis domain is computed exactly. -/
theorem twice_float (R : RoundsToNearest p rnd) (x : ℝ) : IsFloat p (rnd x - -rnd x) := by
  obtain ⟨m, e, h1, h2⟩ := R.float x
  refine ⟨m, e + 1, h1, ?_⟩
  rw [h2, zpow_add₀ (by norm_num), zpow_one]
  ring

/-- The mapped point. -/
theorem fs_point (R : RoundsToNearest p rnd) (hp : 6 ≤ p) {x0 xf x : ℝ} (h01 : x0 < xf) (hx : x0 ≤ x ∧ x ≤ xf) :
    |rndToZ rnd (-rnd Real.pi) (rnd Real.pi) x0 xf x - ((x - x0) * ((Real.pi - -Real.pi) / (xf - x0)) + -Real.pi)| ≤ 45 * unit p ∧
      |rndToZ rnd (-rnd Real.pi) (rnd Real.pi) x0 xf x| ≤ 4 := by
  have hu := unit_pos p
  have hu' := unit_le hp
  have hπ := Real.pi_pos
  have hπ3 := Real.pi_gt_three
  have hπ4 := Real.pi_lt_d2
  have hL : 0 < xf - x0 := by linarith
  have hn := abs_le.1 (rnd_pi_near R)
  have hP : 0 < rnd Real.pi := rnd_pos R hπ
  have hPle : rnd Real.pi ≤ Real.pi * (1 + unit p) := by linarith [hn.2]
  have h := C86_error R hp (z0 := -rnd Real.pi) (zf := rnd Real.pi) (by linarith) (twice_float R _) h01 hx.1 hx.2
  rw [abs_neg, max_self, abs_of_pos hP] at h
  obtain ⟨s, hs⟩ : ∃ s, s = (x - x0) / (xf - x0) := ⟨_, rfl⟩
  have s0 : 0 ≤ s := by
    rw [hs]
    exact div_nonneg (by linarith [hx.1]) hL.le
  have s1 : s ≤ 1 := by
    rw [hs, div_le_one hL]
    linarith [hx.2]
  obtain ⟨z, hz⟩ : ∃ z, z = rndToZ rnd (-rnd Real.pi) (rnd Real.pi) x0 xf x := ⟨_, rfl⟩
  rw [← hz] at h ⊢
  have e1 : -rnd Real.pi + (x - x0) * ((rnd Real.pi - -rnd Real.pi) / (xf - x0)) = (2 * s - 1) * rnd Real.pi := by
    rw [hs]
    field_simp
    ring
  have e2 : (x - x0) * ((Real.pi - -Real.pi) / (xf - x0)) + -Real.pi = (2 * s - 1) * Real.pi := by
    rw [hs]
    field_simp
    ring
  rw [e1] at h
  rw [e2]
  have hs2 : |2 * s - 1| ≤ 1 := by
    rw [abs_le]
    constructor <;> linarith
  have d1 : |(2 * s - 1) * rnd Real.pi - (2 * s - 1) * Real.pi| ≤ unit p * Real.pi := by
    rw [← mul_sub, abs_mul]
    calc |2 * s - 1| * |rnd Real.pi - Real.pi| ≤ 1 * (unit p * Real.pi) := mul_le_mul hs2 (rnd_pi_near R) (abs_nonneg _) (by norm_num)
      _ = _ := one_mul _
  have d2 := abs_sub_le z ((2 * s - 1) * rnd Real.pi) ((2 * s - 1) * Real.pi)
  have d3 : unit p * (6 * (rnd Real.pi - -rnd Real.pi) + rnd Real.pi) ≤ unit p * (13 * (Real.pi * (1 + 1 / 64))) := by
    refine mul_le_mul_of_nonneg_left ?_ hu.le
    have : Real.pi * (1 + unit p) ≤ Real.pi * (1 + 1 / 64) := mul_le_mul_of_nonneg_left (by linarith) hπ.le
    linarith
  have d4 : |z - (2 * s - 1) * Real.pi| ≤ 45 * unit p := by
    have : unit p * (13 * (Real.pi * (1 + 1 / 64))) + unit p * Real.pi ≤ 45 * unit p := by
      have : 13 * (Real.pi * (1 + 1 / 64)) + Real.pi ≤ 45 := by linarith
      nlinarith
    linarith
  refine ⟨d4, ?_⟩
  have d5 := abs_sub_abs_le_abs_sub z ((2 * s - 1) * Real.pi)
  have d6 : |(2 * s - 1) * Real.pi| ≤ Real.pi := by
    rw [abs_mul, abs_of_pos hπ]
    nlinarith
  linarith

/-- The factor by which derivatives are multiplied. -/
theorem fs_slope (R : RoundsToNearest p rnd) (hp : 6 ≤ p) {x0 xf : ℝ} (h01 : x0 < xf) (d : ℕ) (hdu : (7 * (d : ℝ) + 9) * unit p ≤ 1) (D : ℝ) :
    ∃ ρ, rnd (D * rnd (rndSlope rnd (-rnd Real.pi) (rnd Real.pi) x0 xf ^ d)) = D * (2 * Real.pi / (xf - x0)) ^ d * ρ ∧
      |ρ - 1| ≤ (7 * d + 3) * unit p := by
  have hu := unit_pos p
  have hu' := unit_le hp
  have hL : 0 < xf - x0 := by linarith
  have hd0 : (0 : ℝ) ≤ d := by positivity
  obtain ⟨t1, a1, b1⟩ := rnd_factor R Real.pi
  obtain ⟨t2, a2, b2⟩ := rnd_factor R (xf - x0)
  obtain ⟨t3, a3, b3⟩ := rnd_factor R ((rnd Real.pi - -rnd Real.pi) / rnd (xf - x0))
  have ht2 : 0 < t2 := by linarith [b2.1]
  have hs : rndSlope rnd (-rnd Real.pi) (rnd Real.pi) x0 xf = 2 * Real.pi / (xf - x0) * (t1 * t3 / t2) := by
    unfold rndSlope
    rw [rnd_float R (twice_float R _), a3, a2, a1]
    field_simp
    ring
  obtain ⟨t, ht⟩ : ∃ t, t = t1 * t3 / t2 := ⟨_, rfl⟩
  rw [← ht] at hs
  have hlo : 1 - 3 * unit p ≤ t := by
    rw [ht, le_div_iff₀ ht2]
    have c1 : (1 - unit p) * (1 - unit p) ≤ t1 * t3 := mul_le_mul b1.1 b3.1 (by linarith) (by linarith [b1.1])
    have c2 : (1 - 3 * unit p) * t2 ≤ (1 - 3 * unit p) * (1 + unit p) := mul_le_mul_of_nonneg_left b2.2 (by linarith)
    nlinarith
  have hhi : t ≤ 1 / (1 - 3 * unit p) := by
    rw [ht, div_le_div_iff₀ ht2 (by linarith)]
    have c1 : t1 * t3 ≤ (1 + unit p) * (1 + unit p) := mul_le_mul b1.2 b3.2 (by linarith [b3.1]) (by linarith)
    have c2 : t1 * t3 * (1 - 3 * unit p) ≤ (1 + unit p) * (1 + unit p) * (1 - 3 * unit p) := mul_le_mul_of_nonneg_right c1 (by linarith)
    have c3 := b2.1
    nlinarith [mul_pos hu hu, mul_pos (mul_pos hu hu) hu]
  have hpow := pow_factor (u := 3 * unit p) (by positivity) (by linarith) hlo hhi d (by nlinarith)
  obtain ⟨t5, a5, b5⟩ := rnd_factor R (rndSlope rnd (-rnd Real.pi) (rnd Real.pi) x0 xf ^ d)
  obtain ⟨t6, a6, b6⟩ := rnd_factor R (D * rnd (rndSlope rnd (-rnd Real.pi) (rnd Real.pi) x0 xf ^ d))
  refine ⟨t ^ d * (t5 * t6), ?_, ?_⟩
  · rw [a6, a5, hs, mul_pow]
    ring
  · obtain ⟨q, hq⟩ : ∃ q, q = t5 * t6 := ⟨_, rfl⟩
    have q1 : |q - 1| ≤ 2 * unit p + unit p * unit p := by
      rw [hq, abs_le]
      have c1 : (1 - unit p) * (1 - unit p) ≤ t5 * t6 := mul_le_mul b5.1 b6.1 (by linarith) (by linarith [b5.1])
      have c2 : t5 * t6 ≤ (1 + unit p) * (1 + unit p) := mul_le_mul b5.2 b6.2 (by linarith [b6.1]) (by linarith)
      constructor <;> nlinarith
    rw [← hq]
    have e : t ^ d * q - 1 = (t ^ d - 1) * q + (q - 1) := by ring
    rw [e]
    have q2 : |q| ≤ 1 + 1 / 16 := by
      have := abs_sub_abs_le_abs_sub q 1
      rw [abs_one] at this
      nlinarith
    refine (abs_add_le _ _).trans ?_
    rw [abs_mul]
    have h1 : |t ^ d - 1| * |q| ≤ 2 * d * (3 * unit p) * (1 + 1 / 16) := mul_le_mul hpow q2 (abs_nonneg _) (by positivity)
    have h2 : 0 ≤ (d : ℝ) * unit p := by positivity
    nlinarith

/-- The exact value without the power of the frequency. -/
noncomputable def fsS (d : ℕ) (k : ℕ) (a : ℝ) : ℝ :=
  if k % 2 = 0 then
    (if d % 4 = 0 then Real.cos a else if d % 4 = 1 then -Real.sin a else if d % 4 = 2 then -Real.cos a else Real.sin a)
  else (if d % 4 = 0 then Real.sin a else if d % 4 = 1 then Real.cos a else if d % 4 = 2 then -Real.sin a else -Real.cos a)

theorem fsS_le (d k : ℕ) (a : ℝ) : |fsS d k a| ≤ 1 := by
  unfold fsS
  split_ifs <;> simp [Real.abs_cos_le_one, Real.abs_sin_le_one]

theorem fsS_lip (d k : ℕ) (a b : ℝ) : |fsS d k a - fsS d k b| ≤ |a - b| := by
  have hs := Real.abs_sin_sub_sin_le a b
  have hc := Real.abs_cos_sub_cos_le a b
  unfold fsS
  split_ifs
  all_goals first
    | exact hs
    | exact hc
    | (rw [neg_sub_neg, abs_sub_comm]; first | exact hs | exact hc)

theorem fsD_eq (d : ℕ) (z : ℝ) {k : ℕ} (hk : k ≠ 0) : fsD d z k = (((k + 1) / 2 : ℕ) : ℝ) ^ d * fsS d k ((((k + 1) / 2 : ℕ) : ℝ) * z) := by
  unfold fsD fsS
  rw [if_neg hk]
  simp only
  split_ifs <;> rfl

variable [Libm (Fl rnd)]

/-- One entry before the scaling: the frequency `g` is exact, `z` is the computed point, `a` the rounded argument of the library function. -/
theorem fsOp_value (R : RoundsToNearest p rnd) (hp : 6 ≤ p) {ε : ℝ} (hlib : LibmAccurate rnd ε) (d : ℕ) (z : Fl rnd) {k : ℕ} (hk : k ≠ 0) (hkp : k ≤ 2 ^ p) :
    ∃ s ρ, (fsOp d z k).val = (((k + 1) / 2 : ℕ) : ℝ) ^ d * s * ρ ∧ |s - fsS d k (rnd ((((k + 1) / 2 : ℕ) : ℝ) * z.val))| ≤ ε ∧ |ρ - 1| ≤ 3 * unit p := by
  have hu := unit_pos p
  have hu' := unit_le hp
  obtain ⟨g, hg⟩ : ∃ g, g = (k + 1) / 2 := ⟨_, rfl⟩
  have hgv : ((g : ℕ) : Fl rnd).val = g := fl_nat R (by omega)
  have harg : (((g : ℕ) : Fl rnd) * z).val = rnd (g * z.val) := by
    show rnd (((g : ℕ) : Fl rnd).val * z.val) = _
    rw [hgv]
  have hpw : (((g : ℕ) : Fl rnd) ^ d).val = rnd ((g : ℝ) ^ d) := by
    show rnd (((g : ℕ) : Fl rnd).val ^ d) = _
    rw [hgv]
  have hsin := hlib.sin (((g : ℕ) : Fl rnd) * z)
  have hcos := hlib.cos (((g : ℕ) : Fl rnd) * z)
  rw [harg] at hsin hcos
  have hneg : ∀ x y : ℝ, |(-x) - (-y)| = |x - y| := fun x y => by rw [neg_sub_neg, abs_sub_comm]
  -- a product with the power
  have mulp : ∀ S : Fl rnd, ∃ ρ, ((((g : ℕ) : Fl rnd) ^ d) * S).val = (g : ℝ) ^ d * S.val * ρ ∧ |ρ - 1| ≤ 3 * unit p := by
    intro S
    obtain ⟨t1, a1, b1⟩ := rnd_factor R ((g : ℝ) ^ d)
    obtain ⟨t2, a2, b2⟩ := rnd_factor R (rnd ((g : ℝ) ^ d) * S.val)
    refine ⟨t1 * t2, ?_, ?_⟩
    · show rnd ((((g : ℕ) : Fl rnd) ^ d).val * S.val) = _
      rw [hpw, a2, a1]
      ring
    · have c1 : (1 - unit p) * (1 - unit p) ≤ t1 * t2 := mul_le_mul b1.1 b2.1 (by linarith) (by linarith [b1.1])
      have c2 : t1 * t2 ≤ (1 + unit p) * (1 + unit p) := mul_le_mul b1.2 b2.2 (by linarith [b2.1]) (by linarith)
      rw [abs_le]
      constructor <;> nlinarith
  have muln : ∀ S : Fl rnd, ∃ ρ, (-(((g : ℕ) : Fl rnd) ^ d) * S).val = (g : ℝ) ^ d * (-S.val) * ρ ∧ |ρ - 1| ≤ 3 * unit p := by
    intro S
    obtain ⟨t1, a1, b1⟩ := rnd_factor R ((g : ℝ) ^ d)
    obtain ⟨t2, a2, b2⟩ := rnd_factor R (-rnd ((g : ℝ) ^ d) * S.val)
    refine ⟨t1 * t2, ?_, ?_⟩
    · show rnd (-(((g : ℕ) : Fl rnd) ^ d).val * S.val) = _
      rw [hpw, a2, a1]
      ring
    · have c1 : (1 - unit p) * (1 - unit p) ≤ t1 * t2 := mul_le_mul b1.1 b2.1 (by linarith) (by linarith [b1.1])
      have c2 : t1 * t2 ≤ (1 + unit p) * (1 + unit p) := mul_le_mul b1.2 b2.2 (by linarith [b2.1]) (by linarith)
      rw [abs_le]
      constructor <;> nlinarith
  unfold fsOp
  rw [if_neg hk]
  simp only
  rw [← hg]
  by_cases h0 : d = 0
  · subst h0
    rw [if_pos rfl]
    by_cases hk2 : k % 2 = 0
    · rw [if_pos hk2]
      refine ⟨_, 1, by rw [pow_zero, one_mul, mul_one], ?_, by rw [sub_self, abs_zero]; positivity⟩
      simpa [fsS, hk2] using hcos
    · rw [if_neg hk2]
      refine ⟨_, 1, by rw [pow_zero, one_mul, mul_one], ?_, by rw [sub_self, abs_zero]; positivity⟩
      simpa [fsS, hk2] using hsin
  rw [if_neg h0]
  have h4 : d % 4 = 0 ∨ d % 4 = 1 ∨ d % 4 = 2 ∨ d % 4 = 3 := by omega
  by_cases hk2 : k % 2 = 0
  · rcases h4 with h | h | h | h
    all_goals simp only [h, hk2, fsS, if_true, OfNat.one_ne_ofNat, OfNat.ofNat_ne_zero, one_ne_zero, if_false, OfNat.ofNat_ne_one,
      Nat.reduceEqDiff]
    · obtain ⟨ρ, h1, h2⟩ := mulp (Libm.cos (((g : ℕ) : Fl rnd) * z))
      exact ⟨_, ρ, h1, hcos, h2⟩
    · obtain ⟨ρ, h1, h2⟩ := muln (Libm.sin (((g : ℕ) : Fl rnd) * z))
      exact ⟨_, ρ, h1, by rw [hneg]; exact hsin, h2⟩
    · obtain ⟨ρ, h1, h2⟩ := muln (Libm.cos (((g : ℕ) : Fl rnd) * z))
      exact ⟨_, ρ, h1, by rw [hneg]; exact hcos, h2⟩
    · obtain ⟨ρ, h1, h2⟩ := mulp (Libm.sin (((g : ℕ) : Fl rnd) * z))
      exact ⟨_, ρ, h1, hsin, h2⟩
  · rcases h4 with h | h | h | h
    all_goals simp only [h, hk2, fsS, if_true, OfNat.one_ne_ofNat, OfNat.ofNat_ne_zero, one_ne_zero, if_false, OfNat.ofNat_ne_one,
      Nat.reduceEqDiff]
    · obtain ⟨ρ, h1, h2⟩ := mulp (Libm.sin (((g : ℕ) : Fl rnd) * z))
      exact ⟨_, ρ, h1, hsin, h2⟩
    · obtain ⟨ρ, h1, h2⟩ := mulp (Libm.cos (((g : ℕ) : Fl rnd) * z))
      exact ⟨_, ρ, h1, hcos, h2⟩
    · obtain ⟨ρ, h1, h2⟩ := muln (Libm.sin (((g : ℕ) : Fl rnd) * z))
      exact ⟨_, ρ, h1, by rw [hneg]; exact hsin, h2⟩
    · obtain ⟨ρ, h1, h2⟩ := muln (Libm.cos (((g : ℕ) : Fl rnd) * z))
      exact ⟨_, ρ, h1, by rw [hneg]; exact hcos, h2⟩

/-- One entry of the matrix. -/
theorem fs_entry (R : RoundsToNearest p rnd) (hp : 6 ≤ p) {ε : ℝ} (hlib : LibmAccurate rnd ε) {x0 xf x : ℝ} (h01 : x0 < xf) (d : ℕ)
    (hdu : (7 * (d : ℝ) + 9) * unit p ≤ 1) {k : ℕ} (hkp : k ≤ 2 ^ p) (hx : x0 ≤ x ∧ x ≤ xf) :
    |(fsOp d (((⟨x⟩ : Fl rnd) - ⟨x0⟩) * ((Libm.pi - -Libm.pi) / (⟨xf⟩ - ⟨x0⟩)) + -Libm.pi) k * ((Libm.pi - -Libm.pi) / (⟨xf⟩ - ⟨x0⟩)) ^ d : Fl rnd).val -
      iteratedDeriv d (NFamily.fs.cls.basis x0 xf k) x| ≤
        (2 * ε + (107 * (((k + 1) / 2 : ℕ) : ℝ) + 7 * d) * unit p) * ((((k + 1) / 2 : ℕ) : ℝ) * (2 * Real.pi / (xf - x0))) ^ d := by
  have hu := unit_pos p
  have hu' := unit_le hp
  have hπ := Real.pi_pos
  have hL : 0 < xf - x0 := by linarith
  have hε : 0 ≤ ε := (abs_nonneg _).trans (hlib.sin 0)
  obtain ⟨w, hw⟩ : ∃ w, w = (x - x0) * ((Real.pi - -Real.pi) / (xf - x0)) + -Real.pi := ⟨_, rfl⟩
  have hder : iteratedDeriv d (NFamily.fs.cls.basis x0 xf k) x = fsD d w k * (2 * Real.pi / (xf - x0)) ^ d := by
    rw [NFamily.deriv, hw]
    have : (Real.pi - -Real.pi) = 2 * Real.pi := by ring
    show fsD d _ k * ((Real.pi - -Real.pi) / (xf - x0)) ^ d = fsD d _ k * _
    rw [this]
    show fsD d ((x - x0) * ((Real.pi - -Real.pi) / (xf - x0)) + -Real.pi) k * _ = _
    rw [this]
  rw [hder]
  obtain ⟨Z, hZ⟩ : ∃ Z : Fl rnd, Z = ((⟨x⟩ : Fl rnd) - ⟨x0⟩) * ((Libm.pi - -Libm.pi) / (⟨xf⟩ - ⟨x0⟩)) + -Libm.pi := ⟨_, rfl⟩
  have hZv : Z.val = rndToZ rnd (-rnd Real.pi) (rnd Real.pi) x0 xf x := by
    rw [hZ]
    show rnd (rnd (rnd (x - x0) * rnd (rnd ((Libm.pi : Fl rnd).val - -(Libm.pi : Fl rnd).val) / rnd (xf - x0))) + -(Libm.pi : Fl rnd).val) = _
    rw [hlib.pi]
    rfl
  have hcv : ∀ v : Fl rnd, (v * ((Libm.pi - -Libm.pi) / (⟨xf⟩ - ⟨x0⟩)) ^ d : Fl rnd).val =
      rnd (v.val * rnd (rndSlope rnd (-rnd Real.pi) (rnd Real.pi) x0 xf ^ d)) := by
    intro v
    show rnd (v.val * rnd (rnd (rnd ((Libm.pi : Fl rnd).val - -(Libm.pi : Fl rnd).val) / rnd (xf - x0)) ^ d)) = _
    rw [hlib.pi]
    rfl
  rw [← hZ, hcv]
  obtain ⟨ρ, r1, r2⟩ := fs_slope R hp h01 d hdu (fsOp d Z k).val
  rw [r1]
  obtain ⟨c, hc⟩ : ∃ c, c = 2 * Real.pi / (xf - x0) := ⟨_, rfl⟩
  have hc0 : 0 ≤ c := by
    rw [hc]
    positivity
  rw [← hc]
  by_cases hk : k = 0
  · subst hk
    by_cases hd : d = 0
    · subst hd
      have e1 : (fsOp 0 Z 0).val = 1 := by
        unfold fsOp
        rw [if_pos rfl, if_pos rfl]
        rfl
      have e2 : fsD 0 w 0 = 1 := by simp [fsD]
      have e3 : rnd (1 * rnd (rndSlope rnd (-rnd Real.pi) (rnd Real.pi) x0 xf ^ 0)) = 1 := by
        rw [pow_zero, rnd_float R (isFloat_one p), mul_one, rnd_float R (isFloat_one p)]
      rw [← hc] at r1
      rw [← r1, e1, e2, e3]
      simp only [pow_zero, mul_one, sub_self, abs_zero]
      positivity
    · have e1 : (fsOp d Z 0).val = 0 := by
        unfold fsOp
        rw [if_pos rfl, if_neg hd]
        rfl
      have e2 : fsD d w 0 = 0 := by simp [fsD, hd]
      rw [e1, e2]
      simp only [zero_mul, sub_self, abs_zero]
      positivity
  obtain ⟨s, σ, v1, v2, v3⟩ := fsOp_value R hp hlib d Z hk hkp
  rw [v1, fsD_eq d w hk]
  obtain ⟨g, hg⟩ : ∃ g : ℝ, g = (((k + 1) / 2 : ℕ) : ℝ) := ⟨_, rfl⟩
  have hg1 : 1 ≤ g := by
    rw [hg]
    have : 1 ≤ (k + 1) / 2 := by omega
    exact_mod_cast this
  rw [← hg] at v2 ⊢
  obtain ⟨z1, z2⟩ := fs_point R hp h01 hx
  rw [← hZv, ← hw] at z1
  rw [← hZv] at z2
  -- the argument
  have ha : |rnd (g * Z.val) - g * w| ≤ 49 * g * unit p := by
    have h1 := rnd_error' R (g * Z.val)
    rw [abs_mul, abs_of_pos (by linarith : 0 < g)] at h1
    have h2 : |g * Z.val - g * w| ≤ g * (45 * unit p) := by
      rw [← mul_sub, abs_mul, abs_of_pos (by linarith : 0 < g)]
      exact mul_le_mul_of_nonneg_left z1 (by linarith)
    have h3 := abs_sub_le (rnd (g * Z.val)) (g * Z.val) (g * w)
    have h4 : unit p * (g * |Z.val|) ≤ unit p * (g * 4) := mul_le_mul_of_nonneg_left (mul_le_mul_of_nonneg_left z2 (by linarith)) hu.le
    linarith
  obtain ⟨S, hS⟩ : ∃ S, S = fsS d k (g * w) := ⟨_, rfl⟩
  have hsS : |s - S| ≤ ε + 49 * g * unit p := by
    have h1 := abs_sub_le s (fsS d k (rnd (g * Z.val))) S
    have h2 := fsS_lip d k (rnd (g * Z.val)) (g * w)
    rw [← hS] at h2
    linarith
  have hS1 : |S| ≤ 1 := by
    rw [hS]
    exact fsS_le _ _ _
  rw [← hS]
  -- the factors
  have hd0 : (0 : ℝ) ≤ d := by positivity
  have hq : |σ * ρ - 1| ≤ (7 * d + 9) * unit p := by
    have e : σ * ρ - 1 = (σ - 1) * (ρ - 1) + ((σ - 1) + (ρ - 1)) := by ring
    rw [e]
    refine (abs_add_le _ _).trans ?_
    have h1 := abs_add_le (σ - 1) (ρ - 1)
    have h2 : |(σ - 1) * (ρ - 1)| ≤ 3 * unit p * ((7 * d + 3) * unit p) := by
      rw [abs_mul]
      exact mul_le_mul v3 r2 (abs_nonneg _) (by positivity)
    have h3 : (7 * (d : ℝ) + 3) * unit p ≤ 1 := by nlinarith
    have h4 : 3 * unit p * ((7 * d + 3) * unit p) ≤ 3 * unit p * 1 := mul_le_mul_of_nonneg_left h3 (by positivity)
    linarith
  have hq2 : |σ * ρ| ≤ 2 := by
    have := abs_sub_abs_le_abs_sub (σ * ρ) 1
    rw [abs_one] at this
    linarith
  have e : g ^ d * s * σ * c ^ d * ρ - g ^ d * S * c ^ d = ((s - S) * (σ * ρ) + S * (σ * ρ - 1)) * (g * c) ^ d := by
    rw [mul_pow]
    ring
  rw [e, abs_mul, abs_of_nonneg (show 0 ≤ (g * c) ^ d by positivity)]
  refine mul_le_mul_of_nonneg_right ?_ (by positivity)
  refine (abs_add_le _ _).trans ?_
  rw [abs_mul (s - S), abs_mul S]
  have h1 : |s - S| * |σ * ρ| ≤ (ε + 49 * g * unit p) * 2 := mul_le_mul hsS hq2 (abs_nonneg _) (by positivity)
  have h2 : |S| * |σ * ρ - 1| ≤ 1 * ((7 * d + 9) * unit p) := mul_le_mul hS1 hq (abs_nonneg _) (by norm_num)
  have h3 : 9 * unit p ≤ 9 * (g * unit p) := by nlinarith
  linarith

/-- The size of the exact entry. -/
theorem fs_entry_le {x0 xf : ℝ} (x : ℝ) (h01 : x0 < xf) (d k : ℕ) :
    |iteratedDeriv d (NFamily.fs.cls.basis x0 xf k) x| ≤ ((((k + 1) / 2 : ℕ) : ℝ) * (2 * Real.pi / (xf - x0))) ^ d := by
  have hL : 0 < xf - x0 := by linarith
  have hπ := Real.pi_pos
  rw [NFamily.deriv]
  show |fsD d ((x - x0) * ((Real.pi - -Real.pi) / (xf - x0)) + -Real.pi) k * ((Real.pi - -Real.pi) / (xf - x0)) ^ d| ≤ _
  rw [show (Real.pi - -Real.pi) = 2 * Real.pi by ring, abs_mul, abs_of_nonneg (show 0 ≤ (2 * Real.pi / (xf - x0)) ^ d by positivity), mul_pow]
  refine mul_le_mul_of_nonneg_right ?_ (by positivity)
  by_cases hk : k = 0
  · subst hk
    by_cases hd : d = 0
    · subst hd
      simp [fsD]
    · simp [fsD, hd]
  · rw [fsD_eq d _ hk, abs_mul, abs_of_nonneg (show 0 ≤ (((k + 1) / 2 : ℕ) : ℝ) ^ d by positivity)]
    have := mul_le_mul_of_nonneg_left (fsS_le d k ((((k + 1) / 2 : ℕ) : ℝ) * ((x - x0) * (2 * Real.pi / (xf - x0)) + -Real.pi)))
      (show 0 ≤ (((k + 1) / 2 : ℕ) : ℝ) ^ d by positivity)
    rwa [mul_one] at this

theorem fs_basis (x0 xf : ℝ) (k : ℕ) : NFamily.fs.cls.basis x0 xf k = fun x => fourier k (-Real.pi + (x - x0) * (2 * Real.pi / (xf - x0))) := by
  funext t
  show fourier k (-Real.pi + (Real.pi - -Real.pi) * (t - x0) / (xf - x0)) = _
  congr 2
  ring

/-- **C92**: with every operation rounded to nearest and library functions of absolute error `ε`, `BasisFunc::H` of the compiled Fourier series gives
in column `k`, whose frequency is `g = ⌈k/2⌉`, values that differ from the `d`-th derivative of the `k`-th trigonometric function of the exactly mapped
point by at most `(2 ε + (107 g + 7 d) u) (g c)^d`, where `u` is the unit roundoff and `c` the slope of the map; and so does the Python class. -/
theorem C92_fourier (R : RoundsToNearest p rnd) (hp : 6 ≤ p) {ε : ℝ} (hlib : LibmAccurate rnd ε) {x0 xf : ℝ} (h01 : x0 < xf) {nC : List ℤ} {m : ℕ}
    (hm : 1 ≤ m) (hmp : m ≤ 2 ^ p) (d : ℕ) (hdu : (7 * (d : ℝ) + 9) * unit p ≤ 1) (full : Bool) (hC : full = true ∨ ValidRemoval m nC) (n : ℕ) {xs : ℕ → ℝ}
    (hin : ∀ j < n, x0 ≤ xs j ∧ xs j ≤ xf) :
    ∃ V : ℕ → ℕ → Fl rnd,
      ReturnsMatrix ((Model.CC.FS.new (⟨x0⟩ : Fl rnd) ⟨xf⟩ nC m).H (Buf.ofFn n fun j => ⟨xs j⟩) n d full) n (outColumns m nC full) V ∧
      ReturnsArray ((Model.PyBF.FS.init (⟨x0⟩ : Fl rnd) ⟨xf⟩ nC m).H n (fun j => ⟨xs j⟩) d full) n (outColumns m nC full) V ∧
      ∀ j < n, ∀ k ∈ outColumns m nC full,
        |(V j k).val - iteratedDeriv d (fun x => fourier k (-Real.pi + (x - x0) * (2 * Real.pi / (xf - x0)))) (xs j)| ≤
          (2 * ε + (107 * (((k + 1) / 2 : ℕ) : ℝ) + 7 * d) * unit p) * ((((k + 1) / 2 : ℕ) : ℝ) * (2 * Real.pi / (xf - x0))) ^ d := by
  refine ⟨fun j k => fsOp d (((⟨xs j⟩ : Fl rnd) - ⟨x0⟩) * ((Libm.pi - -Libm.pi) / (⟨xf⟩ - ⟨x0⟩)) + -Libm.pi) k * ((Libm.pi - -Libm.pi) / (⟨xf⟩ - ⟨x0⟩)) ^ d,
    ?_, ?_, fun j hj k hk => ?_⟩
  · exact returns_of_runs (H_spec (Model.CC.FS.new (⟨x0⟩ : Fl rnd) ⟨xf⟩ nC m) (d := d) (E := fsOp d) (fsOp_hintSpec hm d)
      (x := Buf.ofFn n fun j => ⟨xs j⟩) (n := n) (xs := fun j => ⟨xs j⟩) (fun j hj => Buf.ofFn_read hj) full hC)
  · obtain ⟨B, h1, h2⟩ := fsPy_hint_op (n := n) hm (fun j => ((⟨xs j⟩ : Fl rnd) - (Model.PyBF.FS.init (⟨x0⟩ : Fl rnd) ⟨xf⟩ nC m).x0) *
      (Model.PyBF.FS.init (⟨x0⟩ : Fl rnd) ⟨xf⟩ nC m).c + (Model.PyBF.FS.init (⟨x0⟩ : Fl rnd) ⟨xf⟩ nC m).z0) d
    exact pyH_spec (Model.PyBF.FS.init (⟨x0⟩ : Fl rnd) ⟨xf⟩ nC m) (n := n) (d := d) (xs := fun j => ⟨xs j⟩) (E := fsOp d) (B := B) h1 h2 full
      (hC.imp id fun h => h.2)
  · have hkm : k < m := by
      unfold outColumns at hk
      split_ifs at hk
      · exact List.mem_range.1 hk
      · exact List.mem_range.1 (List.mem_of_mem_filter hk)
    have h := fs_entry R hp hlib h01 d hdu (k := k) (by omega) (hin j hj)
    rw [fs_basis] at h
    exact h

/-- **C92**, several variables: with the same assumptions, both backends compute for the multi-index `α`, with frequencies `g l = ⌈α l / 2⌉`, and the
orders `d l` values that differ from the mixed derivative of the product by at most `2 Σ (2 ε + (107 g l + 7 d l + 1) u) ∏ (g l c l)^(d l)`, if this sum is
at most 1. -/
theorem C92_several (R : RoundsToNearest p rnd) (hp : 6 ≤ p) {ε : ℝ} (hlib : LibmAccurate rnd ε) {dim m numC : ℕ} (hdim : 1 ≤ dim) (hm : 1 ≤ m)
    (hmp : m ≤ 2 ^ p) {x0 xf : ℕ → ℝ} (h01 : ∀ l < dim, x0 l < xf l) (nC : ℕ → ℕ → ℤ) :
    ∃ bc bp, Model.CC.nFS.new (Buf.ofVec fun k : Fin dim => (⟨x0 k⟩ : Fl rnd)) dim (Buf.ofVec fun k : Fin dim => ⟨xf k⟩)
        (Buf.ofMat fun (k : Fin dim) (g : Fin numC) => nC k g) dim numC m = .ok bc ∧
      Model.PyBF.nFS.init (fun l => (⟨x0 l⟩ : Fl rnd)) (fun l => ⟨xf l⟩) nC dim numC m = .ok bp ∧ ∀ full, ∃ L,
        IsColumnOrder m (fun k : Fin dim => (List.range numC).map (nC k)) full L ∧
        ∀ (n : ℕ) (xs : ℕ → ℕ → ℝ) (ds : List ℕ), (∀ j < n, ∀ l < dim, x0 l ≤ xs j l ∧ xs j l ≤ xf l) → dim ≤ ds.length →
          (∀ l < dim, (7 * (ds.getD l 0 : ℝ) + 9) * unit p ≤ 1) → ∃ V : ℕ → (Fin dim → ℕ) → Fl rnd,
          ReturnsMatrix (bc.H (Buf.ofMat fun (k : Fin dim) (j : Fin n) => (⟨xs j k⟩ : Fl rnd)) n (Buf.ofList ds) ds.length full) n L V ∧
          ReturnsArray (bp.H dim n (fun k j => ⟨xs j k⟩) ds full) n L V ∧
          ∀ j < n, ∀ α ∈ L, ∀ s : ℝ,
            s = ∑ l : Fin dim, (2 * ε + (107 * (((α l + 1) / 2 : ℕ) : ℝ) + 7 * ((ds.getD l 0 : ℕ) : ℝ) + 1) * unit p) → s ≤ 1 →
            |(V j α).val -
              mixedPartial (fun k : Fin dim => ds.getD k 0) (NFamily.fs.cls.tensor (fun k : Fin dim => x0 k) (fun k => xf k) α) (fun k => xs j k)| ≤
              2 * s * ∏ l : Fin dim, ((((α l + 1) / 2 : ℕ) : ℝ) * (2 * Real.pi / (xf l - x0 l))) ^ ds.getD l 0 := by
  have hu := unit_pos p
  have hε : 0 ≤ ε := (abs_nonneg _).trans (hlib.sin 0)
  obtain ⟨bc, b1, b2⟩ := nSame_cc (hc := Model.CC.FS.hint) (E := fsOp) (numC := numC) hdim
    (fun d => fsOp_hintSpec (K := Fl rnd) hm d) (-Libm.pi) Libm.pi (fun l => ⟨x0 l⟩) (fun l => ⟨xf l⟩) nC
  obtain ⟨bp, p1, p2⟩ := nSame_py (hp := Model.PyBF.FS.hint) (E := fsOp) (numC := numC) hdim
    (fun N dk z => fsPy_hint_op (n := N) hm z dk) (-Libm.pi) Libm.pi (fun l => (⟨x0 l⟩ : Fl rnd)) (fun l => ⟨xf l⟩) nC
  refine ⟨bc, bp, b1, p1, fun full => ⟨_, multiColumns_order _ _ _, fun n xs ds hin hds hD => ⟨_,
    (b2 full n (fun j k => ⟨xs j k⟩) ds (alloc (n * _)) hds rfl).1, p2 full n (fun j k => ⟨xs j k⟩) ds hds, fun j hj α hα s hs hs1 => ?_⟩⟩⟩
  have hα' := ((multiColumns_order m (fun l : Fin dim => tabRow numC nC l) full).mem α).mp hα
  have hk : ∀ l, α l < m := fun l => admissible_lt hα' l
  have ht : NFamily.fs.cls.tensor (fun k : Fin dim => x0 k) (fun k => xf k) α =
      fun x => ∏ l : Fin dim, NFamily.fs.cls.basis (x0 l) (xf l) (α l) (x l) := rfl
  rw [ht, mixedPartial_tensor]
  obtain ⟨e, he⟩ : ∃ e : Fin dim → ℝ, e = fun l => 2 * ε + (107 * (((α l + 1) / 2 : ℕ) : ℝ) + 7 * ((ds.getD l 0 : ℕ) : ℝ)) * unit p := ⟨_, rfl⟩
  have he0 : ∀ l, 0 ≤ e l := fun l => by
    rw [he]
    positivity
  obtain ⟨h1, _, _⟩ := opProd_error R dim (fun l : Fin dim => fsOp (ds.getD l 0) (((⟨xs j l⟩ : Fl rnd) - ⟨x0 l⟩) *
      ((Libm.pi - -Libm.pi) / (⟨xf l⟩ - ⟨x0 l⟩)) + -Libm.pi) (α l) * ((Libm.pi - -Libm.pi) / (⟨xf l⟩ - ⟨x0 l⟩)) ^ ds.getD l 0)
    (fun l => iteratedDeriv (ds.getD l 0) (NFamily.fs.cls.basis (x0 l) (xf l) (α l)) (xs j l))
    (fun l => ((((α l + 1) / 2 : ℕ) : ℝ) * (2 * Real.pi / (xf l - x0 l))) ^ ds.getD l 0) e he0 (fun l => fs_entry_le _ (h01 l l.2) _ _) (fun l => by
      rw [he]
      exact fs_entry R hp hlib (h01 l l.2) _ (hD l l.2) ((hk l).le.trans hmp) (hin j hj l l.2))
  have h2 := prod_sub_one_le hu.le e he0 (s := s) (by
    rw [hs, he]
    have : (dim : ℝ) * unit p = ∑ _l : Fin dim, unit p := by simp
    rw [this, ← Finset.sum_add_distrib]
    exact Finset.sum_le_sum fun l _ => by linarith) hs1
  refine h1.trans (mul_le_mul_of_nonneg_right h2 (Finset.prod_nonneg fun l _ => (abs_nonneg _).trans (fs_entry_le (xs j l) (h01 l l.2) _ _)))

end

/-- The assumptions about the library can be met: correctly rounded functions, error `u`. -/
noncomputable def roundedLibm (rnd : ℝ → ℝ) : Libm (Fl rnd) := ⟨fun a => ⟨rnd (Real.sin a.val)⟩, fun a => ⟨rnd (Real.cos a.val)⟩, ⟨rnd Real.pi⟩⟩

theorem roundedLibm_accurate {p : ℕ} {rnd : ℝ → ℝ} (R : RoundsToNearest p rnd) : @LibmAccurate rnd (roundedLibm rnd) (unit p) := by
  have hu := unit_pos p
  refine @LibmAccurate.mk rnd (roundedLibm rnd) _ (fun a => ?_) (fun a => ?_) rfl
  · refine (rnd_error' R (Real.sin a.val)).trans ?_
    have := mul_le_mul_of_nonneg_left (Real.abs_sin_le_one a.val) hu.le
    linarith
  · refine (rnd_error' R (Real.cos a.val)).trans ?_
    have := mul_le_mul_of_nonneg_left (Real.abs_cos_le_one a.val) hu.le
    linarith

/-- A concrete case: doubles, 21 functions on `[0, 2]` without the constant, second derivatives at ten points. -/
example {rnd : ℝ → ℝ} (R : RoundsToNearest 53 rnd) : letI := roundedLibm rnd
    ∃ V : ℕ → ℕ → Fl rnd, ReturnsArray ((Model.PyBF.FS.init (⟨0⟩ : Fl rnd) ⟨2⟩ [0] 21).H 10 (fun j => ⟨(j : ℝ) / 5⟩) 2 false) 10 (outColumns 21 [0] false) V := by
  letI := roundedLibm rnd
  obtain ⟨V, _, h, _⟩ := C92_fourier R (by norm_num) (roundedLibm_accurate R) (x0 := 0) (xf := 2) (by norm_num) (nC := [0]) (m := 21) (by norm_num) (by norm_num) 2
    (by unfold unit; norm_num) false (Or.inr ⟨by decide, by decide⟩) 10 (xs := fun j => (j : ℝ) / 5) (fun j hj => by
      have h1 : (j : ℝ) ≤ 10 := by exact_mod_cast hj.le
      constructor
      · positivity
      · linarith)
  exact ⟨V, h⟩

end Verif.Props
