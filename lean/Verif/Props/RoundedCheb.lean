import Verif.Props.Rounding
import Verif.Lemmas.PolyFamilies
import Verif.Lemmas.BasisFuncCC
import Mathlib.Analysis.SpecialFunctions.Trigonometric.Chebyshev.RootsExtrema

/-!
# C86, C87: the compiled Chebyshev polynomials in floating point arithmetic

The theorems are about the transliteration of the compiled code, run with rounded operations.
-/

namespace Verif.Props

open Verif Verif.Mem Verif.Spec Verif.Model.CC Verif.Model.Rounded Polynomial

/-! ## What the recurrences compute, in every arithmetic -/

section
variable {K : Type} [Zero K] [One K]

/-- The numbers that the recurrences of a `Hint` give. -/
def recTable (init1 : K → K) (dconst : K) (rec : ℕ → K → K → K → K) (drec : ℕ → ℕ → K → K → K → K → K) : ℕ → K → ℕ → K
  | 0, _, 0 => 1
  | 0, z, 1 => init1 z
  | 0, z, k + 2 => rec (k + 1) z (recTable init1 dconst rec drec 0 z (k + 1)) (recTable init1 dconst rec drec 0 z k)
  | _ + 1, _, 0 => 0
  | 1, _, 1 => dconst
  | _ + 2, _, 1 => 0
  | d + 1, z, k + 2 => drec d (k + 1) z (recTable init1 dconst rec drec d z (k + 1)) (recTable init1 dconst rec drec (d + 1) z (k + 1))
      (recTable init1 dconst rec drec (d + 1) z k)
termination_by d _ k => (d, k)

theorem recTable_spec (init1 : K → K) (dconst : K) (rec : ℕ → K → K → K → K) (drec : ℕ → ℕ → K → K → K → K → K) :
    RecSpec init1 dconst rec drec (recTable init1 dconst rec drec) where
  z0 z := by rw [recTable]
  z1 z := by rw [recTable]
  zs z k := by rw [recTable]
  d0 d z := by rw [recTable]
  d1 z := by rw [recTable]
  d2 d z := by rw [recTable]
  ds d z k := by
    cases d <;> rw [recTable]

end

/-! ## The recurrence of the Chebyshev polynomials with errors -/

/-- Solutions of the recurrence with a forcing term of at most `h` grow at most quadratically. -/
theorem cheb_growth {z : ℝ} (hz : |z| ≤ 1) {e η : ℕ → ℝ} {h : ℝ} {N : ℕ} (h0 : e 0 = 0)
    (hrec : ∀ k, k + 2 ≤ N → e (k + 2) = 2 * z * e (k + 1) - e k + η k) (hη : ∀ k, k + 2 ≤ N → |η k| ≤ h) :
    ∀ n ≤ N, |e n| ≤ n * |e 1| + h * (n * (n - 1) / 2) := by
  -- `ω + 1/ω = 2 z` with `|ω| = 1`
  obtain ⟨ω, hω, hc⟩ : ∃ ω : ℂ, ‖ω‖ = 1 ∧ ω + starRingEnd ℂ ω = 2 * z := by
    refine ⟨⟨z, Real.sqrt (1 - z ^ 2)⟩, ?_, ?_⟩
    · rw [← sq_eq_sq₀ (norm_nonneg _) (by norm_num), Complex.sq_norm, Complex.normSq_mk]
      have : 0 ≤ 1 - z ^ 2 := by
        have := (sq_le_one_iff_abs_le_one z).2 hz
        linarith
      have h1 := Real.mul_self_sqrt this
      linarith
    · apply Complex.ext
      · simp
        ring
      · simp
  have hω' : ω * starRingEnd ℂ ω = 1 := by
    rw [Complex.mul_conj, Complex.normSq_eq_norm_sq, hω]
    norm_num
  have step : ∀ k, k + 1 ≤ N → ‖(e (k + 1) : ℂ) - ω * e k‖ ≤ |e 1| + h * k := by
    intro k
    induction k with
    | zero =>
      intro _
      rw [h0]
      simp
    | succ k ih =>
      intro hk
      have e1 : ((e (k + 2) : ℝ) : ℂ) - ω * e (k + 1) = starRingEnd ℂ ω * (e (k + 1) - ω * e k) + η k := by
        rw [hrec k hk]
        push_cast
        linear_combination (-(e (k + 1) : ℂ)) * hc + (-(e k : ℂ)) * (-hω')
      rw [show k + 1 + 1 = k + 2 from rfl, e1]
      refine (norm_add_le _ _).trans ?_
      rw [norm_mul, RCLike.norm_conj, hω, one_mul, Complex.norm_real, Real.norm_eq_abs]
      have := ih (by omega)
      have := hη k hk
      push_cast
      linarith
  intro n
  induction n with
  | zero =>
    intro _
    rw [h0]
    simp
  | succ n ih =>
    intro hn
    have h1 := step n hn
    have h2 : |e (n + 1)| ≤ ‖((e (n + 1) : ℝ) : ℂ) - ω * e n‖ + |e n| := by
      have : ((e (n + 1) : ℝ) : ℂ) = (((e (n + 1) : ℝ) : ℂ) - ω * e n) + ω * e n := by ring
      have h3 := norm_add_le (((e (n + 1) : ℝ) : ℂ) - ω * e n) (ω * e n)
      rw [← this, norm_mul, hω, one_mul, Complex.norm_real, Complex.norm_real, Real.norm_eq_abs, Real.norm_eq_abs] at h3
      exact h3
    have h4 := ih (by omega)
    push_cast
    linarith

/-- The Chebyshev polynomial as a real function. -/
noncomputable def chebT (n : ℕ) (z : ℝ) : ℝ := (Chebyshev.T ℝ n).eval z

theorem chebT_rec (n : ℕ) (z : ℝ) : chebT (n + 2) z = 2 * z * chebT (n + 1) z - chebT n z := by
  unfold chebT
  have := Chebyshev.T_add_two ℝ (n : ℤ)
  push_cast
  rw [this]
  simp

theorem chebT_le (n : ℕ) {z : ℝ} (hz : |z| ≤ 1) : |chebT n z| ≤ 1 := Chebyshev.abs_eval_T_real_le_one n hz

/-- `T n` is Lipschitz with constant `n²` on `[-1, 1]`. -/
theorem chebT_lipschitz (n : ℕ) {z y : ℝ} (hz : |z| ≤ 1) (hy : |y| ≤ 1) : |chebT n z - chebT n y| ≤ n ^ 2 * |z - y| := by
  have h := cheb_growth hz (e := fun k => chebT k z - chebT k y) (η := fun k => 2 * (z - y) * chebT (k + 1) y) (h := 2 * |z - y|) (N := n)
    (by simp [chebT]) (fun k _ => by
      beta_reduce
      rw [chebT_rec, chebT_rec]
      ring) (fun k _ => by
      rw [abs_mul, abs_mul, abs_of_pos (by norm_num : (0 : ℝ) < 2)]
      have := chebT_le (k + 1) hy
      have h0 : 0 ≤ 2 * |z - y| := by positivity
      nlinarith) n le_rfl
  have h1 : chebT 1 z - chebT 1 y = z - y := by simp [chebT]
  beta_reduce at h
  rw [h1] at h
  refine h.trans (le_of_eq ?_)
  ring

section
variable {p : ℕ} {rnd : ℝ → ℝ}

/-- The compiled recurrence with rounding: `2. * x * F1 - F2`. -/
noncomputable def rndCheb (rnd : ℝ → ℝ) (z : ℝ) : ℕ → ℝ
  | 0 => 1
  | 1 => z
  | k + 2 => rnd (rnd (rnd (2 * z) * rndCheb rnd z (k + 1)) - rndCheb rnd z k)

theorem isFloat_two_mul {z : ℝ} (h : IsFloat p z) : IsFloat p (2 * z) := by
  obtain ⟨m, e, h1, h2⟩ := h
  refine ⟨m, e + 1, h1, ?_⟩
  rw [h2, zpow_add₀ (by norm_num), zpow_one]
  ring

/-- The rounded recurrence: at most `4 u n²` from the polynomial at the same point. -/
theorem rndCheb_error (R : RoundsToNearest p rnd) (hp : 6 ≤ p) {z : ℝ} (hf : IsFloat p z) (hz : |z| ≤ 1) :
    ∀ n : ℕ, 8 * unit p * n ^ 2 ≤ 1 → |rndCheb rnd z n - chebT n z| ≤ 4 * unit p * n ^ 2 := by
  have hu := unit_pos p
  have hu' := unit_le hp
  intro n
  induction n using Nat.strong_induction_on with
  | _ n ih =>
  intro hn
  -- smaller indices
  have small : ∀ k ≤ n, 8 * unit p * (k : ℝ) ^ 2 ≤ 1 := by
    intro k hk
    have h1 : (k : ℝ) ^ 2 ≤ (n : ℝ) ^ 2 := pow_le_pow_left₀ (by positivity) (by exact_mod_cast hk) 2
    have := mul_le_mul_of_nonneg_left h1 (show 0 ≤ 8 * unit p by linarith)
    linarith
  have size : ∀ k < n, |rndCheb rnd z k| ≤ 3 / 2 := by
    intro k hk
    have h1 := ih k hk (small k hk.le)
    have h2 := chebT_le k hz
    have h3 := small k hk.le
    have h4 := abs_sub_abs_le_abs_sub (rndCheb rnd z k) (chebT k z)
    linarith
  have hg := cheb_growth hz (e := fun k => rndCheb rnd z k - chebT k z)
    (η := fun k => rndCheb rnd z (k + 2) - (2 * z * rndCheb rnd z (k + 1) - rndCheb rnd z k)) (h := 8 * unit p) (N := n)
    (by simp [rndCheb, chebT]) (fun k _ => by
      beta_reduce
      rw [chebT_rec]
      ring) (fun k hk => by
      have a1 := size (k + 1) (by omega)
      have a0 := size k (by omega)
      obtain ⟨A, hA⟩ : ∃ A, A = 2 * z * rndCheb rnd z (k + 1) := ⟨_, rfl⟩
      have hA' : |A| ≤ 3 := by
        rw [hA, abs_mul, abs_mul, abs_of_pos (by norm_num : (0 : ℝ) < 2)]
        have := abs_nonneg (rndCheb rnd z (k + 1))
        nlinarith [abs_nonneg z]
      have b1 := rnd_error' R A
      have b2 : unit p * |A| ≤ unit p * 3 := mul_le_mul_of_nonneg_left hA' hu.le
      have b3 := rnd_error' R (rnd A - rndCheb rnd z k)
      have b4 : |rnd A - rndCheb rnd z k| ≤ 3 + unit p * 3 + 3 / 2 := by
        have c1 := abs_sub (rnd A) (rndCheb rnd z k)
        have c2 := abs_sub_abs_le_abs_sub (rnd A) A
        linarith
      have b5 : unit p * |rnd A - rndCheb rnd z k| ≤ unit p * (3 + unit p * 3 + 3 / 2) := mul_le_mul_of_nonneg_left b4 hu.le
      have b6 : rndCheb rnd z (k + 2) = rnd (rnd A - rndCheb rnd z k) := by
        rw [rndCheb, rnd_float R (isFloat_two_mul hf), hA]
      rw [b6, ← hA]
      have b7 := abs_sub_le (rnd (rnd A - rndCheb rnd z k)) (rnd A - rndCheb rnd z k) (A - rndCheb rnd z k)
      rw [sub_sub_sub_cancel_right] at b7
      have b8 : unit p * (unit p * 3) ≤ unit p * (3 / 64) := mul_le_mul_of_nonneg_left (by linarith) hu.le
      nlinarith) n le_rfl
  beta_reduce at hg
  have h1 : rndCheb rnd z 1 - chebT 1 z = 0 := by simp [rndCheb, chebT]
  rw [h1, abs_zero, mul_zero, zero_add] at hg
  refine hg.trans ?_
  have : (0 : ℝ) ≤ n := by positivity
  nlinarith

/-! ## The compiled code -/

theorem fl_two (R : RoundsToNearest p rnd) : ((2 : Fl rnd)).val = 2 := by
  show rnd ((2 : ℕ) : ℝ) = 2
  rw [Nat.cast_two]
  have h : IsFloat p 2 := by
    have := isFloat_zpow p 1
    simpa using this
  exact rnd_float R h

/-- The numbers of the first `CP::Hint` loop. -/
theorem recTable_rndCheb (R : RoundsToNearest p rnd) (dconst : Fl rnd) (drec : ℕ → ℕ → Fl rnd → Fl rnd → Fl rnd → Fl rnd → Fl rnd) (z : Fl rnd) (k : ℕ) :
    (recTable (fun z => z) dconst (fun _ z f1 f2 => 2 * z * f1 - f2) drec 0 z k).val = rndCheb rnd z.val k := by
  induction k using Nat.twoStepInduction with
  | zero =>
    rw [recTable]
    rfl
  | one =>
    rw [recTable]
    rfl
  | more k h0 h1 =>
    rw [recTable]
    show rnd (rnd (rnd ((2 : Fl rnd).val * z.val) * Fl.val _) - Fl.val _) = _
    rw [h0, h1, fl_two R, rndCheb]

theorem rndCheb_float (R : RoundsToNearest p rnd) {z : ℝ} (hf : IsFloat p z) (k : ℕ) : IsFloat p (rndCheb rnd z k) := by
  match k with
  | 0 => exact isFloat_one p
  | 1 => exact hf
  | k + 2 =>
    rw [rndCheb]
    exact R.float _

/-- **C86**, the compiled code: `BasisFunc::H` and `xla` with rounded operations map the points by `rndToZ`. -/
theorem C86_code (rnd : ℝ → ℝ) (x0 xf : ℝ) (nC : List ℤ) (m : ℕ) {x : Buf (Fl rnd)} {n : ℕ} {xs : ℕ → ℝ} (hx : ∀ j < n, x.read j = .ok ⟨xs j⟩) :
    ∃ z, (CP.new ⟨x0⟩ ⟨xf⟩ nC m : BasisFunc (Fl rnd)).mapPoints x n = .ok z ∧ ∀ j < n, z.read j = .ok ⟨rndToZ rnd (-1) 1 x0 xf (xs j)⟩ := by
  obtain ⟨z, h1, h2⟩ := mapPoints_spec (CP.new ⟨x0⟩ ⟨xf⟩ nC m : BasisFunc (Fl rnd)) (xs := fun j => ⟨xs j⟩) hx
  exact ⟨z, h1, fun j hj => h2 j hj⟩

/-- **C87**: with every operation rounded to nearest, `BasisFunc::H` of the Chebyshev polynomials, of order 0, gives in each column `k` values that differ
from `T k` at the exactly mapped point by at most `17 u k²`, where `u` is the unit roundoff, as long as `8 u m² ≤ 1` (with doubles,
for `m` up to 33 million). -/
theorem C87_chebyshev (R : RoundsToNearest p rnd) (hp : 6 ≤ p) {x0 xf : ℝ} (h01 : x0 < xf) {nC : List ℤ} {m : ℕ} (hm : 1 ≤ m)
    (hmu : 8 * unit p * m ^ 2 ≤ 1) (full : Bool) (hC : full = true ∨ ValidRemoval m nC) {x : Buf (Fl rnd)} {n : ℕ} {xs : ℕ → ℝ}
    (hx : ∀ j < n, x.read j = .ok ⟨xs j⟩) (hin : ∀ j < n, x0 ≤ xs j ∧ xs j ≤ xf) :
    ∃ F, (CP.new ⟨x0⟩ ⟨xf⟩ nC m : BasisFunc (Fl rnd)).H x n 0 full = .ok (n, (outColumns m nC full).length, F) ∧
      ∀ j < n, ∀ (i : ℕ) (hi : i < (outColumns m nC full).length), ∃ v : Fl rnd, F.read ((outColumns m nC full).length * j + i) = .ok v ∧
        |v.val - chebT (outColumns m nC full)[i] (-1 + (xs j - x0) * (2 / (xf - x0)))| ≤ 17 * unit p * ((outColumns m nC full)[i] : ℝ) ^ 2 := by
  have hu := unit_pos p
  have hE : HintSpec (CP.new ⟨x0⟩ ⟨xf⟩ nC m : BasisFunc (Fl rnd)).hint m 0
      (recTable (fun z => z) 1 (fun _ z f1 f2 => 2 * z * f1 - f2) (fun d _ z e f1 f2 => (2 + 2 * (d : Fl rnd)) * e + 2 * z * f1 - f2) 0) := by
    intro n z zs dark M h1 h2
    show Runs (CP.hint m 0 z n dark) _
    rw [cp_hint_eq m 0 n z dark hm]
    exact skelHint_spec hm h1 (recTable_spec _ _ _ _) h2
  obtain ⟨⟨a, b, F⟩, h1, h2, h3, h4⟩ := H_spec (CP.new ⟨x0⟩ ⟨xf⟩ nC m : BasisFunc (Fl rnd)) (d := 0) hE (xs := fun j => ⟨xs j⟩) hx full hC
  dsimp only at h2 h3 h4
  subst h2
  subst h3
  refine ⟨F, h1, fun j hj i hi => ?_⟩
  have hi' : i < (outColumns (CP.new ⟨x0⟩ ⟨xf⟩ nC m : BasisFunc (Fl rnd)).m (CP.new ⟨x0⟩ ⟨xf⟩ nC m : BasisFunc (Fl rnd)).nC full).length := hi
  refine ⟨_, h4.read hj hi' (by rw [List.getElem?_eq_getElem hi']; rfl), ?_⟩
  obtain ⟨k, hk⟩ : ∃ k, k = (outColumns m nC full)[i]'hi := ⟨_, rfl⟩
  have hk' : (outColumns (CP.new ⟨x0⟩ ⟨xf⟩ nC m : BasisFunc (Fl rnd)).m (CP.new ⟨x0⟩ ⟨xf⟩ nC m : BasisFunc (Fl rnd)).nC full)[i] = k := hk.symm
  rw [hk']
  show |_ - chebT ((outColumns m nC full)[i]'hi) _| ≤ 17 * unit p * (((outColumns m nC full)[i]'hi : ℕ) : ℝ) ^ 2
  rw [← hk]
  obtain ⟨z, hz⟩ : ∃ z, z = rndToZ rnd (-1) 1 x0 xf (xs j) := ⟨_, rfl⟩
  have hzf : IsFloat p z := by
    rw [hz]
    exact R.float _
  have hin' := C86_inside_partial R (show 0 < p by omega) (isFloat_neg (isFloat_one p)) (isFloat_one p) (k := 1) (by norm_num) h01 (hin j hj).1 (hin j hj).2
  rw [← hz] at hin'
  have hz1 : |z| ≤ 1 := abs_le.2 hin'
  -- the value
  have hv : (recTable (fun z => z) 1 (fun _ z f1 f2 => 2 * z * f1 - f2) (fun d _ z e f1 f2 => (2 + 2 * (d : Fl rnd)) * e + 2 * z * f1 - f2) 0
      ((⟨xs j⟩ - (CP.new ⟨x0⟩ ⟨xf⟩ nC m : BasisFunc (Fl rnd)).x0) * (CP.new ⟨x0⟩ ⟨xf⟩ nC m : BasisFunc (Fl rnd)).c +
        (CP.new ⟨x0⟩ ⟨xf⟩ nC m : BasisFunc (Fl rnd)).z0) k * (CP.new ⟨x0⟩ ⟨xf⟩ nC m : BasisFunc (Fl rnd)).c ^ 0).val = rndCheb rnd z k := by
    show rnd (Fl.val (recTable _ _ _ _ 0 _ k) * rnd (_ ^ 0)) = _
    rw [recTable_rndCheb R, pow_zero, rnd_float R (isFloat_one p), mul_one]
    have : (((⟨xs j⟩ : Fl rnd) - (CP.new ⟨x0⟩ ⟨xf⟩ nC m : BasisFunc (Fl rnd)).x0) * (CP.new ⟨x0⟩ ⟨xf⟩ nC m : BasisFunc (Fl rnd)).c +
        (CP.new ⟨x0⟩ ⟨xf⟩ nC m : BasisFunc (Fl rnd)).z0).val = z := hz.symm
    rw [this, rnd_float R (rndCheb_float R hzf k)]
  rw [hv]
  -- the column
  have hkm : k < m := by
    have hmem : k ∈ outColumns m nC full := by
      rw [hk]
      exact List.getElem_mem _
    unfold outColumns at hmem
    split_ifs at hmem
    · exact List.mem_range.1 hmem
    · exact List.mem_range.1 (List.mem_of_mem_filter hmem)
  have hku : 8 * unit p * (k : ℝ) ^ 2 ≤ 1 := by
    have h1 : (k : ℝ) ^ 2 ≤ (m : ℝ) ^ 2 := pow_le_pow_left₀ (by positivity) (by exact_mod_cast hkm.le) 2
    have := mul_le_mul_of_nonneg_left h1 (show 0 ≤ 8 * unit p by linarith)
    linarith
  have e1 := rndCheb_error R hp hzf hz1 k hku
  have e2 := C86_error R hp (z0 := -1) (zf := 1) (by norm_num) (by
    have := isFloat_zpow p 1
    norm_num at this ⊢
    exact this) h01 (hin j hj).1 (hin j hj).2
  rw [← hz] at e2
  norm_num at e2
  have hw : |-1 + (xs j - x0) * (2 / (xf - x0))| ≤ 1 := by
    have hd : 0 < xf - x0 := by linarith
    have a1 : 0 ≤ (xs j - x0) * (2 / (xf - x0)) := mul_nonneg (by linarith [(hin j hj).1]) (by positivity)
    have a2 : (xs j - x0) * (2 / (xf - x0)) ≤ 2 := by
      rw [mul_div_assoc', div_le_iff₀ hd]
      linarith [(hin j hj).2]
    rw [abs_le]
    constructor <;> linarith
  have e3 := chebT_lipschitz k hz1 hw
  have e4 := mul_le_mul_of_nonneg_left e2 (show (0 : ℝ) ≤ (k : ℝ) ^ 2 by positivity)
  have e5 := abs_sub_le (rndCheb rnd z k) (chebT k z) (chebT k (-1 + (xs j - x0) * (2 / (xf - x0))))
  linarith

end

end Verif.Props
