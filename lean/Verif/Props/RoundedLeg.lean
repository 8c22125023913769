import Verif.Props.RoundedChebD

/-!
# C88: the compiled Legendre polynomials in floating point arithmetic
-/

namespace Verif.Props

open Verif Verif.Mem Verif.Spec Verif.Model.CC Verif.Model.Rounded Polynomial

/-! ## The recurrence of the Legendre polynomials with errors -/

/-- A point of the unit circle above `z`. -/
theorem circle_point {z : ℝ} (hz : |z| ≤ 1) : ∃ s : ℝ, z ^ 2 + s ^ 2 = 1 := by
  refine ⟨Real.sqrt (1 - z ^ 2), ?_⟩
  have : 0 ≤ 1 - z ^ 2 := by
    have := (sq_le_one_iff_abs_le_one z).2 hz
    linarith
  rw [Real.sq_sqrt this]
  ring

/-- One step of the recurrence: the energy grows at most by the forcing term. -/
theorem leg_energy {z s a b c η : ℝ} (hs : z ^ 2 + s ^ 2 = 1) (k : ℕ) (h : (k + 2) * c = (2 * k + 3) * z * b - (k + 1) * a + (k + 1) * η) :
    ‖(⟨c - z * b, -s * b⟩ : ℂ)‖ ≤ ‖(⟨b - z * a, -s * a⟩ : ℂ)‖ + |η| := by
  have hk : (0 : ℝ) < k + 1 := by positivity
  have e : (⟨((k : ℝ) + 2) / (k + 1) * (c - z * b), -s * b⟩ : ℂ) = ⟨z, -s⟩ * ⟨b - z * a, -s * a⟩ + (η : ℂ) := by
    apply Complex.ext
    · simp only [Complex.add_re, Complex.mul_re, Complex.ofReal_re]
      field_simp
      linear_combination h + (k + 1) * a * hs
    · simp only [Complex.add_im, Complex.mul_im, Complex.ofReal_im]
      ring
  have n1 : ‖(⟨z, -s⟩ : ℂ)‖ = 1 := by
    rw [← sq_eq_sq₀ (norm_nonneg _) (by norm_num), Complex.sq_norm, Complex.normSq_mk]
    linarith
  have n2 : ‖(⟨c - z * b, -s * b⟩ : ℂ)‖ ≤ ‖(⟨((k : ℝ) + 2) / (k + 1) * (c - z * b), -s * b⟩ : ℂ)‖ := by
    rw [← sq_le_sq₀ (norm_nonneg _) (norm_nonneg _), Complex.sq_norm, Complex.normSq_mk, Complex.sq_norm, Complex.normSq_mk]
    have h1 : 1 ≤ ((k : ℝ) + 2) / (k + 1) := by
      rw [le_div_iff₀ hk]
      linarith
    have h2 : 1 ≤ (((k : ℝ) + 2) / (k + 1)) ^ 2 := one_le_pow₀ h1
    have h3 : 0 ≤ (c - z * b) ^ 2 := sq_nonneg _
    nlinarith
  refine n2.trans ?_
  rw [e]
  refine (norm_add_le _ _).trans ?_
  rw [norm_mul, n1, one_mul, Complex.norm_real, Real.norm_eq_abs]

/-- Solutions of the recurrence with a forcing term of at most `h` grow at most quadratically. -/
theorem leg_growth {z : ℝ} (hz : |z| ≤ 1) {e η : ℕ → ℝ} {h : ℝ} {N : ℕ} (h0 : e 0 = 0)
    (hrec : ∀ k : ℕ, k + 2 ≤ N → (k + 2) * e (k + 2) = (2 * k + 3) * z * e (k + 1) - (k + 1) * e k + (k + 1) * η k) (hη : ∀ k, k + 2 ≤ N → |η k| ≤ h) :
    ∀ n ≤ N, |e n| ≤ n * |e 1| + h * (n * (n - 1) / 2) := by
  obtain ⟨s, hs⟩ := circle_point hz
  have n1 : ‖(⟨z, s⟩ : ℂ)‖ = 1 := by
    rw [← sq_eq_sq₀ (norm_nonneg _) (by norm_num), Complex.sq_norm, Complex.normSq_mk]
    linarith
  have step : ∀ k, k + 1 ≤ N → ‖(⟨e (k + 1) - z * e k, -s * e k⟩ : ℂ)‖ ≤ |e 1| + h * k := by
    intro k
    induction k with
    | zero =>
      intro _
      have : (⟨e (0 + 1) - z * e 0, -s * e 0⟩ : ℂ) = ((e 1 : ℝ) : ℂ) := by
        rw [h0]
        apply Complex.ext <;> simp
      rw [this, Complex.norm_real, Real.norm_eq_abs]
      simp
    | succ k ih =>
      intro hk
      have h1 := leg_energy hs k (hrec k hk)
      have h2 := ih (by omega)
      have h3 := hη k hk
      push_cast
      linarith
  intro n
  induction n with
  | zero =>
    intro _
    rw [h0]
    simp
  | succ n ih =>
    intro hn
    have h1 := step n hn
    have h2 : |e (n + 1)| ≤ ‖(⟨e (n + 1) - z * e n, -s * e n⟩ : ℂ)‖ + |e n| := by
      have : ((e (n + 1) : ℝ) : ℂ) = ⟨e (n + 1) - z * e n, -s * e n⟩ + ⟨z, s⟩ * (e n : ℂ) := by
        apply Complex.ext <;> simp
      have h3 := norm_add_le (⟨e (n + 1) - z * e n, -s * e n⟩ : ℂ) (⟨z, s⟩ * (e n : ℂ))
      rw [← this, norm_mul, n1, one_mul, Complex.norm_real, Complex.norm_real, Real.norm_eq_abs, Real.norm_eq_abs] at h3
      exact h3
    have h4 := ih (by omega)
    push_cast
    linarith

/-- The Legendre polynomial as a real function. -/
noncomputable def legP (n : ℕ) (z : ℝ) : ℝ := (classical ℝ .lep n).eval z

/-- The recurrences of the derivatives, without the division. -/
theorem legD_rec (d k : ℕ) (z : ℝ) : (k + 2) * polyD ℝ .lep (d + 1) z (k + 2) = (2 * k + 3) * z * polyD ℝ .lep (d + 1) z (k + 1) -
    (k + 1) * polyD ℝ .lep (d + 1) z k + (2 * k + 3) * (d + 1) * polyD ℝ .lep d z (k + 1) := by
  rw [(recSpec_lep (K := ℝ)).ds d z k]
  have : ((k + 1 : ℕ) : ℝ) + 1 ≠ 0 := by positivity
  have h2 : (k : ℝ) + 1 + 1 ≠ 0 := by positivity
  push_cast
  field_simp
  ring

theorem legP_rec (k : ℕ) (z : ℝ) : (k + 2) * legP (k + 2) z = (2 * k + 3) * z * legP (k + 1) z - (k + 1) * legP k z := by
  have h := (recSpec_lep (K := ℝ)).zs z k
  simp only [polyD, Function.iterate_zero, id] at h
  unfold legP
  rw [h]
  have h2 : (k : ℝ) + 1 + 1 ≠ 0 := by positivity
  push_cast
  field_simp
  ring

theorem legP_zero (z : ℝ) : legP 0 z = 1 := (recSpec_lep (K := ℝ)).z0 z

theorem legP_one (z : ℝ) : legP 1 z = z := (recSpec_lep (K := ℝ)).z1 z

/-- The Legendre polynomials are at most 1 on `[-1, 1]`. -/
theorem legP_le (n : ℕ) {z : ℝ} (hz : |z| ≤ 1) : |legP n z| ≤ 1 := by
  obtain ⟨s, hs⟩ := circle_point hz
  rcases eq_or_ne s 0 with hs0 | hs0
  · -- `z = ±1`
    rw [hs0] at hs
    have h1 : ∀ k, legP k z = z ^ k := by
      intro k
      induction k using Nat.twoStepInduction with
      | zero => rw [legP_zero, pow_zero]
      | one => rw [legP_one, pow_one]
      | more k a b =>
        have := legP_rec k z
        rw [a, b] at this
        have hk : (k : ℝ) + 2 ≠ 0 := by positivity
        refine mul_left_cancel₀ hk ?_
        rw [this]
        linear_combination z ^ k * (k + 1) * hs
    rw [h1, abs_pow]
    exact pow_le_one₀ (abs_nonneg z) hz
  · have step : ∀ k, ‖(⟨legP (k + 1) z - z * legP k z, -s * legP k z⟩ : ℂ)‖ ≤ |s| := by
      intro k
      induction k with
      | zero =>
        have : (⟨legP (0 + 1) z - z * legP 0 z, -s * legP 0 z⟩ : ℂ) = (s : ℂ) * (-Complex.I) := by
          rw [legP_one, legP_zero]
          apply Complex.ext <;> simp
        rw [this, norm_mul, norm_neg, Complex.norm_I, Complex.norm_real, Real.norm_eq_abs, mul_one]
      | succ k ih =>
        have h1 := leg_energy hs k (c := legP (k + 2) z) (b := legP (k + 1) z) (a := legP k z) (η := 0) (by
          rw [legP_rec]
          ring)
        rw [abs_zero, add_zero] at h1
        exact h1.trans ih
    have h1 := step n
    rw [← sq_le_sq₀ (norm_nonneg _) (abs_nonneg s), Complex.sq_norm, Complex.normSq_mk, sq_abs] at h1
    have h2 : s ^ 2 * (legP n z ^ 2) ≤ s ^ 2 * 1 := by nlinarith [sq_nonneg (legP (n + 1) z - z * legP n z)]
    have h3 := le_of_mul_le_mul_left h2 (by positivity)
    exact (sq_le_one_iff_abs_le_one _).1 h3

/-- The `d`-th derivative of the Legendre polynomial is at most `(3/2)^d d! n^(2 d)` on `[-1, 1]`. -/
theorem legD_le {z : ℝ} (hz : |z| ≤ 1) (d : ℕ) : ∀ n : ℕ, |polyD ℝ .lep d z n| ≤ (3 / 2) ^ d * d.factorial * (n : ℝ) ^ (2 * d) := by
  induction d with
  | zero =>
    intro n
    have := legP_le n hz
    simpa [polyD, legP] using this
  | succ d ih =>
    intro n
    have hg := leg_growth hz (e := fun k => polyD ℝ .lep (d + 1) z k) (η := fun k : ℕ => (2 * k + 3) / (k + 1) * (d + 1) * polyD ℝ .lep d z (k + 1))
      (h := 3 * (d + 1) * ((3 / 2) ^ d * d.factorial * (n : ℝ) ^ (2 * d))) (N := n) ((recSpec_lep (K := ℝ)).d0 d z) (fun k _ => by
        rw [legD_rec]
        have : (k : ℝ) + 1 ≠ 0 := by positivity
        field_simp) (fun k hk => by
        have hk0 : (0 : ℝ) ≤ k := by positivity
        have h1 : (2 * (k : ℝ) + 3) / (k + 1) ≤ 3 := by
          rw [div_le_iff₀ (by positivity)]
          linarith
        rw [abs_mul, abs_of_nonneg (by positivity : (0 : ℝ) ≤ (2 * k + 3) / (k + 1) * (d + 1))]
        refine mul_le_mul (mul_le_mul_of_nonneg_right h1 (by positivity)) ((ih (k + 1)).trans ?_) (abs_nonneg _) (by positivity)
        refine mul_le_mul_of_nonneg_left ?_ (by positivity)
        exact pow_le_pow_left₀ (by positivity) (by exact_mod_cast (by omega : k + 1 ≤ n)) _) n le_rfl
    beta_reduce at hg
    have hn : (0 : ℝ) ≤ n := by positivity
    have hN : (n : ℝ) ^ (2 * (d + 1)) = (n : ℝ) ^ (2 * d) * n ^ 2 := by rw [← pow_add, mul_add]
    have hf : ((d + 1).factorial : ℝ) = (d + 1) * d.factorial := by
      rw [Nat.factorial_succ]
      push_cast
      ring
    rw [hN, hf, pow_succ (3 / 2 : ℝ) d]
    cases d with
    | zero =>
      have h1 : polyD ℝ .lep 1 z 1 = 1 := (recSpec_lep (K := ℝ)).d1 z
      rw [h1] at hg
      simp at hg ⊢
      nlinarith
    | succ d =>
      have h1 : polyD ℝ .lep (d + 1 + 1) z 1 = 0 := (recSpec_lep (K := ℝ)).d2 d z
      rw [h1, abs_zero, mul_zero, zero_add] at hg
      refine hg.trans ?_
      have h3 : 0 ≤ (((d + 1 : ℕ) : ℝ) + 1) * ((3 / 2) ^ (d + 1) * ((d + 1).factorial : ℝ) * (n : ℝ) ^ (2 * (d + 1))) := by positivity
      nlinarith [mul_nonneg h3 hn]

theorem legD_hasDeriv (d n : ℕ) (z : ℝ) : HasDerivAt (fun z => polyD ℝ .lep d z n) (polyD ℝ .lep (d + 1) z n) z := by
  unfold polyD
  rw [Function.iterate_succ_apply']
  exact (derivative^[d] (classical ℝ .lep n)).hasDerivAt z

theorem legD_lipschitz (d n : ℕ) {z y : ℝ} (hz : |z| ≤ 1) (hy : |y| ≤ 1) :
    |polyD ℝ .lep d z n - polyD ℝ .lep d y n| ≤ (3 / 2) ^ (d + 1) * (d + 1).factorial * (n : ℝ) ^ (2 * (d + 1)) * |z - y| := by
  have h := (convex_Icc (-1 : ℝ) 1).norm_image_sub_le_of_norm_hasDerivWithin_le (f := fun z => polyD ℝ .lep d z n)
    (f' := fun z => polyD ℝ .lep (d + 1) z n) (C := (3 / 2) ^ (d + 1) * (d + 1).factorial * (n : ℝ) ^ (2 * (d + 1))) (x := y) (y := z)
    (fun x _ => (legD_hasDeriv d n x).hasDerivWithinAt) (fun x hx => legD_le (abs_le.2 hx) (d + 1) n) (abs_le.1 hy) (abs_le.1 hz)
  simpa only [Real.norm_eq_abs] using h

section
variable {p : ℕ} {rnd : ℝ → ℝ}

/-! ## The rounded recurrence -/

/-- Rounding a number that is near `x`. -/
theorem rnd_near (R : RoundsToNearest p rnd) (hp : 6 ≤ p) {x y M : ℝ} {a b c : ℝ} (h1 : |y - x| ≤ a * (unit p * M)) (h2 : |x| ≤ b * M)
    (hM : 0 ≤ M) (ha : 0 ≤ a) (hc : a + b + a / 64 ≤ c) : |rnd y - x| ≤ c * (unit p * M) := by
  have hu := unit_pos p
  have hu' := unit_le hp
  have e1 := rnd_error' R y
  have e2 : |y| ≤ b * M + a * (unit p * M) := by
    have := abs_sub_abs_le_abs_sub y x
    linarith
  have e3 := mul_le_mul_of_nonneg_left e2 hu.le
  have e4 := abs_sub_le (rnd y) y x
  have uM : 0 ≤ unit p * M := by positivity
  have e5 : unit p * (a * (unit p * M)) ≤ 1 / 64 * (a * (unit p * M)) := mul_le_mul_of_nonneg_right hu' (by positivity)
  have e6 := mul_le_mul_of_nonneg_right hc uM
  nlinarith

/-- The compiled recurrences with rounding: `((2. * k + 1.) * x * F1 - k * F2) / (k + 1.)` and
`((2. * k + 1.) * ((dCurr + 1.) * dark + x * F1) - k * F2) / (k + 1.)`. -/
noncomputable def rndLegD (rnd : ℝ → ℝ) (z : ℝ) : ℕ → ℕ → ℝ
  | 0, 0 => 1
  | 0, 1 => z
  | 0, k + 2 => rnd (rnd (rnd (rnd ((2 * (k + 1 : ℝ) + 1) * z) * rndLegD rnd z 0 (k + 1)) - rnd ((k + 1 : ℝ) * rndLegD rnd z 0 k)) / (k + 1 + 1))
  | _ + 1, 0 => 0
  | d + 1, 1 => if d = 0 then 1 else 0
  | d + 1, k + 2 => rnd (rnd (rnd ((2 * (k + 1 : ℝ) + 1) * rnd (rnd ((d + 1 : ℝ) * rndLegD rnd z d (k + 1)) + rnd (z * rndLegD rnd z (d + 1) (k + 1)))) -
      rnd ((k + 1 : ℝ) * rndLegD rnd z (d + 1) k)) / (k + 1 + 1))
termination_by d k => (d, k)

theorem rndLegD_float (R : RoundsToNearest p rnd) {z : ℝ} (hf : IsFloat p z) (d k : ℕ) : IsFloat p (rndLegD rnd z d k) := by
  match d, k with
  | 0, 0 =>
    rw [rndLegD]
    exact isFloat_one p
  | 0, 1 =>
    rw [rndLegD]
    exact hf
  | 0, k + 2 =>
    rw [rndLegD]
    exact R.float _
  | d + 1, 0 =>
    rw [rndLegD]
    exact ⟨0, 0, by simp, by simp⟩
  | d + 1, 1 =>
    rw [rndLegD]
    split_ifs
    · exact isFloat_one p
    · exact ⟨0, 0, by simp, by simp⟩
  | d + 1, k + 2 =>
    rw [rndLegD]
    exact R.float _

/-- The last two operations of a step. -/
theorem leg_finish (R : RoundsToNearest p rnd) (hp : 6 ≤ p) {κ A X f2 M a b c : ℝ} (hκ : 1 ≤ κ) (hM : 0 ≤ M) (ha : 0 ≤ a)
    (hA : |A - X| ≤ a * (unit p * (κ * M))) (hX : |X| ≤ b * (κ * M)) (hb : 0 ≤ b) (h2 : |f2| ≤ 3 / 2 * M) (hc : (a + 3 + b + (a + 3 / 2) / 64) * (65 / 64) + b + 3 / 2 ≤ c) :
    |(κ + 1) * rnd (rnd (A - rnd (κ * f2)) / (κ + 1)) - (X - κ * f2)| ≤ κ * (c * (unit p * M)) := by
  have hu := unit_pos p
  have hκM : 0 ≤ κ * M := by positivity
  have hB : |κ * f2| ≤ 3 / 2 * (κ * M) := by
    rw [abs_mul, abs_of_nonneg (by linarith)]
    nlinarith
  have b1 := rnd_near R hp (x := κ * f2) (y := κ * f2) (M := κ * M) (a := 0) (b := 3 / 2) (c := 3 / 2) (by simp) hB hκM le_rfl (by norm_num)
  have b2 : |A - rnd (κ * f2) - (X - κ * f2)| ≤ (a + 3 / 2) * (unit p * (κ * M)) := by
    have e : A - rnd (κ * f2) - (X - κ * f2) = (A - X) - (rnd (κ * f2) - κ * f2) := by ring
    rw [e]
    have := abs_sub (A - X) (rnd (κ * f2) - κ * f2)
    linarith
  have b3 : |X - κ * f2| ≤ (b + 3 / 2) * (κ * M) := by
    have := abs_sub X (κ * f2)
    linarith
  have b4 := rnd_near R hp b2 b3 hκM (by linarith) (c := a + 3 + b + (a + 3 / 2) / 64) (by linarith)
  obtain ⟨S, hS⟩ : ∃ S, S = rnd (A - rnd (κ * f2)) := ⟨_, rfl⟩
  obtain ⟨Y, hY⟩ : ∃ Y, Y = X - κ * f2 := ⟨_, rfl⟩
  rw [← hS, ← hY] at b4
  rw [← hY] at b3
  rw [← hS, ← hY]
  have hκ1 : 0 < κ + 1 := by linarith
  have b5 : |S / (κ + 1) - Y / (κ + 1)| ≤ (a + 3 + b + (a + 3 / 2) / 64) * (unit p * (κ * M / (κ + 1))) := by
    rw [← sub_div, abs_div, abs_of_pos hκ1, div_le_iff₀ hκ1]
    refine b4.trans (le_of_eq ?_)
    field_simp
  have b6 : |Y / (κ + 1)| ≤ (b + 3 / 2) * (κ * M / (κ + 1)) := by
    rw [abs_div, abs_of_pos hκ1, div_le_iff₀ hκ1]
    refine b3.trans (le_of_eq ?_)
    field_simp
  have b7 := rnd_near R hp b5 b6 (by positivity) (by linarith) (c := c) (by linarith)
  have e : (κ + 1) * rnd (S / (κ + 1)) - Y = (κ + 1) * (rnd (S / (κ + 1)) - Y / (κ + 1)) := by field_simp
  rw [e, abs_mul, abs_of_pos hκ1]
  have b8 := mul_le_mul_of_nonneg_left b7 hκ1.le
  refine b8.trans (le_of_eq ?_)
  field_simp

/-- One step of order 0. -/
theorem leg_step (R : RoundsToNearest p rnd) (hp : 6 ≤ p) {κ z f1 f2 M : ℝ} (hκ : 1 ≤ κ) (hz : |z| ≤ 1) (h1 : |f1| ≤ 3 / 2 * M) (h2 : |f2| ≤ 3 / 2 * M) :
    |(κ + 1) * rnd (rnd (rnd (rnd ((2 * κ + 1) * z) * f1) - rnd (κ * f2)) / (κ + 1)) - ((2 * κ + 1) * z * f1 - κ * f2)| ≤ κ * (24 * (unit p * M)) := by
  have hu := unit_pos p
  have hM : 0 ≤ M := by linarith [abs_nonneg f1]
  have c1 : |(2 * κ + 1) * z| ≤ 3 * κ := by
    rw [abs_mul, abs_of_nonneg (by linarith)]
    nlinarith [abs_nonneg z]
  have c2 : |rnd ((2 * κ + 1) * z) - (2 * κ + 1) * z| ≤ unit p * (3 * κ) := (rnd_error' R _).trans (mul_le_mul_of_nonneg_left c1 hu.le)
  have c3 : |rnd ((2 * κ + 1) * z) * f1 - (2 * κ + 1) * z * f1| ≤ 9 / 2 * (unit p * (κ * M)) := by
    rw [← sub_mul, abs_mul]
    refine (mul_le_mul c2 h1 (abs_nonneg _) (by positivity)).trans (le_of_eq ?_)
    ring
  have c4 : |(2 * κ + 1) * z * f1| ≤ 9 / 2 * (κ * M) := by
    rw [abs_mul]
    refine (mul_le_mul c1 h1 (abs_nonneg _) (by positivity)).trans (le_of_eq ?_)
    ring
  have c5 := rnd_near R hp c3 c4 (by positivity) (by norm_num) (c := 91 / 10) (by norm_num)
  exact leg_finish R hp hκ hM (by norm_num) c5 c4 (by norm_num) h2 (by norm_num)

/-- One step of a higher order. -/
theorem legD_step (R : RoundsToNearest p rnd) (hp : 6 ≤ p) {κ z E f1 f2 M : ℝ} (hκ : 1 ≤ κ) (hz : |z| ≤ 1) (hE : |E| ≤ 1 / 4 * M) (h1 : |f1| ≤ 3 / 2 * M)
    (h2 : |f2| ≤ 3 / 2 * M) :
    |(κ + 1) * rnd (rnd (rnd ((2 * κ + 1) * rnd (rnd E + rnd (z * f1))) - rnd (κ * f2)) / (κ + 1)) - ((2 * κ + 1) * (E + z * f1) - κ * f2)| ≤
      κ * (32 * (unit p * M)) := by
  have hu := unit_pos p
  have hM : 0 ≤ M := by linarith [abs_nonneg f1]
  have hZ : |z * f1| ≤ 3 / 2 * M := by
    rw [abs_mul]
    nlinarith [abs_nonneg z, abs_nonneg f1]
  have a1 := rnd_near R hp (x := E) (y := E) (M := M) (a := 0) (c := 1 / 4) (by simp) hE hM le_rfl (by norm_num)
  have a2 := rnd_near R hp (x := z * f1) (y := z * f1) (M := M) (a := 0) (c := 3 / 2) (by simp) hZ hM le_rfl (by norm_num)
  have a3 : |rnd E + rnd (z * f1) - (E + z * f1)| ≤ 7 / 4 * (unit p * M) := by
    have e : rnd E + rnd (z * f1) - (E + z * f1) = (rnd E - E) + (rnd (z * f1) - z * f1) := by ring
    rw [e]
    have := abs_add_le (rnd E - E) (rnd (z * f1) - z * f1)
    linarith
  have a4 : |E + z * f1| ≤ 7 / 4 * M := by
    have := abs_add_le E (z * f1)
    linarith
  have a5 := rnd_near R hp a3 a4 hM (by norm_num) (c := 353 / 100) (by norm_num)
  have hk3 : 2 * κ + 1 ≤ 3 * κ := by linarith
  have c3 : |(2 * κ + 1) * rnd (rnd E + rnd (z * f1)) - (2 * κ + 1) * (E + z * f1)| ≤ 1059 / 100 * (unit p * (κ * M)) := by
    rw [← mul_sub, abs_mul, abs_of_nonneg (by linarith)]
    refine (mul_le_mul hk3 a5 (abs_nonneg _) (by positivity)).trans (le_of_eq ?_)
    ring
  have c4 : |(2 * κ + 1) * (E + z * f1)| ≤ 21 / 4 * (κ * M) := by
    rw [abs_mul, abs_of_nonneg (by linarith)]
    refine (mul_le_mul hk3 a4 (abs_nonneg _) (by positivity)).trans (le_of_eq ?_)
    ring
  have c5 := rnd_near R hp c3 c4 (by positivity) (by norm_num) (c := 161 / 10) (by norm_num)
  exact leg_finish R hp hκ hM (by norm_num) c5 c4 (by norm_num) h2 (by norm_num)

/-- The bound of the derivatives. -/
noncomputable def legM (d : ℕ) (n : ℝ) : ℝ := (3 / 2) ^ d * d.factorial * n ^ (2 * d)

theorem legM_nonneg (d n : ℕ) : 0 ≤ legM d n := by
  unfold legM
  positivity

theorem legM_mono (d : ℕ) {k n : ℕ} (h : k ≤ n) : legM d k ≤ legM d n := by
  unfold legM
  refine mul_le_mul_of_nonneg_left (pow_le_pow_left₀ (by positivity) (by exact_mod_cast h) _) (by positivity)

theorem legM_succ (d : ℕ) (n : ℝ) : legM (d + 1) n = 3 / 2 * (d + 1) * legM d n * n ^ 2 := by
  unfold legM
  rw [Nat.factorial_succ, mul_add 2 d 1, pow_add, pow_succ]
  push_cast
  ring

theorem size_of_error {d k n : ℕ} {u D P : ℝ} {c : ℝ} (hk : k ≤ n) (h1 : |D - P| ≤ c * u * legM d k * (k : ℝ) ^ 2) (h2 : |P| ≤ legM d k)
    (h3 : 2 * c * u * (k : ℝ) ^ 2 ≤ 1) : |D| ≤ 3 / 2 * legM d n := by
  have h4 := abs_sub_abs_le_abs_sub D P
  have h5 := mul_le_mul_of_nonneg_left h3 (legM_nonneg d k)
  have h6 := legM_mono d hk
  nlinarith

/-- The rounded recurrence of order 0: at most `12 u n²` from the polynomial at the same point. -/
theorem rndLeg_error (R : RoundsToNearest p rnd) (hp : 6 ≤ p) {z : ℝ} (hz : |z| ≤ 1) :
    ∀ n : ℕ, 24 * unit p * n ^ 2 ≤ 1 → |rndLegD rnd z 0 n - polyD ℝ .lep 0 z n| ≤ 12 * unit p * legM 0 n * (n : ℝ) ^ 2 := by
  have hu := unit_pos p
  have hM0 : ∀ n : ℝ, legM 0 n = 1 := fun n => by simp [legM]
  intro n
  induction n using Nat.strong_induction_on with
  | _ n ih =>
  intro hn
  have small : ∀ k ≤ n, 24 * unit p * (k : ℝ) ^ 2 ≤ 1 := by
    intro k hk
    have h1 : (k : ℝ) ^ 2 ≤ (n : ℝ) ^ 2 := pow_le_pow_left₀ (by positivity) (by exact_mod_cast hk) 2
    have := mul_le_mul_of_nonneg_left h1 (show 0 ≤ 24 * unit p by positivity)
    linarith
  have size : ∀ k < n, |rndLegD rnd z 0 k| ≤ 3 / 2 * 1 := by
    intro k hk
    have := size_of_error hk.le (ih k hk (small k hk.le)) (legD_le hz 0 k) (by
      have := small k hk.le
      linarith)
    rwa [hM0] at this
  have hg := leg_growth hz (e := fun k => rndLegD rnd z 0 k - polyD ℝ .lep 0 z k)
    (η := fun k : ℕ => ((k + 2) * rndLegD rnd z 0 (k + 2) - ((2 * k + 3) * z * rndLegD rnd z 0 (k + 1) - (k + 1) * rndLegD rnd z 0 k)) / (k + 1))
    (h := 24 * unit p) (N := n) (by
      have := (recSpec_lep (K := ℝ)).z0 z
      rw [this, rndLegD, sub_self]) (fun k _ => by
      have h1 : (k : ℝ) + 1 ≠ 0 := by positivity
      have h2 := legP_rec k z
      have h3 : ∀ i, polyD ℝ .lep 0 z i = legP i z := fun _ => rfl
      beta_reduce
      rw [h3, h3, h3, mul_div_cancel₀ _ h1, mul_sub, h2]
      ring) (fun k hk => by
      have q := leg_step R hp (κ := k + 1) (z := z) (M := 1) (by linarith [show (0 : ℝ) ≤ k by positivity]) hz (size (k + 1) (by omega)) (size k (by omega))
      have hk0 : (0 : ℝ) < k + 1 := by positivity
      rw [abs_div, abs_of_pos hk0, div_le_iff₀ hk0, rndLegD]
      refine le_trans (le_of_eq ?_) (q.trans (le_of_eq (by ring)))
      congr 1
      ring) n le_rfl
  beta_reduce at hg
  have h1 : rndLegD rnd z 0 1 - polyD ℝ .lep 0 z 1 = 0 := by
    have := (recSpec_lep (K := ℝ)).z1 z
    rw [this, rndLegD, sub_self]
  rw [h1, abs_zero, mul_zero, zero_add] at hg
  refine hg.trans ?_
  rw [hM0]
  have : (0 : ℝ) ≤ n := by positivity
  nlinarith

/-- The rounded recurrence of order `d`: at most `(12 + 16 d) (3/2)^d d! u n^(2 d + 2)` from the derivative at the same point. -/
theorem rndLegD_error (R : RoundsToNearest p rnd) (hp : 6 ≤ p) {z : ℝ} (hz : |z| ≤ 1) (d : ℕ) :
    ∀ n : ℕ, (24 + 32 * d) * unit p * n ^ 2 ≤ 1 → |rndLegD rnd z d n - polyD ℝ .lep d z n| ≤ (12 + 16 * d) * unit p * legM d n * (n : ℝ) ^ 2 := by
  have hu := unit_pos p
  induction d with
  | zero =>
    intro n hn
    have := rndLeg_error R hp hz n (by simpa using hn)
    simpa using this
  | succ d ihd =>
  intro n
  induction n using Nat.strong_induction_on with
  | _ n ih =>
  intro hn
  have hd0 : (0 : ℝ) ≤ d := by positivity
  push_cast at hn
  have small : ∀ k ≤ n, (24 + 32 * ((d : ℝ) + 1)) * unit p * (k : ℝ) ^ 2 ≤ 1 := by
    intro k hk
    have h1 : (k : ℝ) ^ 2 ≤ (n : ℝ) ^ 2 := pow_le_pow_left₀ (by positivity) (by exact_mod_cast hk) 2
    have := mul_le_mul_of_nonneg_left h1 (show 0 ≤ (24 + 32 * ((d : ℝ) + 1)) * unit p by positivity)
    linarith
  have small' : ∀ k ≤ n, (24 + 32 * (d : ℝ)) * unit p * (k : ℝ) ^ 2 ≤ 1 := by
    intro k hk
    have h1 := small k hk
    have : 0 ≤ unit p * (k : ℝ) ^ 2 := by positivity
    nlinarith
  have size1 : ∀ k ≤ n, |rndLegD rnd z d k| ≤ 3 / 2 * legM d n := by
    intro k hk
    refine size_of_error hk (ihd k (small' k hk)) (legD_le hz d k) ?_
    have := small' k hk
    linarith
  obtain ⟨M, hM⟩ : ∃ M : ℝ, M = legM (d + 1) n := ⟨_, rfl⟩
  have size2 : ∀ k < n, |rndLegD rnd z (d + 1) k| ≤ 3 / 2 * M := by
    intro k hk
    rw [hM]
    refine size_of_error hk.le (ih k hk (by
      push_cast
      exact small k hk.le)) (legD_le hz (d + 1) k) ?_
    have := small k hk.le
    push_cast
    linarith
  have hM0 : 0 ≤ M := by
    rw [hM]
    exact legM_nonneg _ _
  have hMd := legM_nonneg d n
  have hMs := legM_succ d n
  rw [← hM] at hMs
  have hg := leg_growth hz (e := fun k => rndLegD rnd z (d + 1) k - polyD ℝ .lep (d + 1) z k)
    (η := fun k : ℕ => (2 * k + 3) / (k + 1) * ((d + 1) * (rndLegD rnd z d (k + 1) - polyD ℝ .lep d z (k + 1))) +
      ((k + 2) * rndLegD rnd z (d + 1) (k + 2) - ((2 * k + 3) * ((d + 1) * rndLegD rnd z d (k + 1) + z * rndLegD rnd z (d + 1) (k + 1)) -
        (k + 1) * rndLegD rnd z (d + 1) k)) / (k + 1))
    (h := (2 * (12 + 16 * (d : ℝ)) + 32) * unit p * M) (N := n)
    (by
      have := (recSpec_lep (K := ℝ)).d0 d z
      rw [this, rndLegD, sub_zero]) (fun k _ => by
      have h1 : (k : ℝ) + 1 ≠ 0 := by positivity
      have h2 := legD_rec d k z
      beta_reduce
      rw [mul_sub, h2]
      field_simp
      ring) (fun k hk => by
      have hn2 : (2 : ℝ) ≤ n := by exact_mod_cast (by omega : 2 ≤ n)
      have hn4 : (4 : ℝ) ≤ (n : ℝ) ^ 2 := by nlinarith
      have hk0 : (0 : ℝ) ≤ k := by positivity
      have hk1 : (0 : ℝ) < k + 1 := by positivity
      have q1 := ihd (k + 1) (small' (k + 1) (by omega))
      have q1' : |rndLegD rnd z d (k + 1) - polyD ℝ .lep d z (k + 1)| ≤ (12 + 16 * d) * unit p * legM d n * (n : ℝ) ^ 2 := by
        refine q1.trans ?_
        have q3 : ((k + 1 : ℕ) : ℝ) ^ 2 ≤ (n : ℝ) ^ 2 := pow_le_pow_left₀ (by positivity) (by exact_mod_cast (by omega : k + 1 ≤ n)) _
        exact mul_le_mul (mul_le_mul_of_nonneg_left (legM_mono d (by omega)) (by positivity)) q3 (by positivity) (by positivity)
      have q2 : |(2 * (k : ℝ) + 3) / (k + 1) * ((d + 1) * (rndLegD rnd z d (k + 1) - polyD ℝ .lep d z (k + 1)))| ≤ 2 * (12 + 16 * (d : ℝ)) * unit p * M := by
        have h1 : (2 * (k : ℝ) + 3) / (k + 1) ≤ 3 := by
          rw [div_le_iff₀ (by positivity)]
          linarith
        rw [abs_mul, abs_mul, abs_of_nonneg (by positivity : (0 : ℝ) ≤ (2 * k + 3) / (k + 1)), abs_of_nonneg (by positivity : (0 : ℝ) ≤ (d : ℝ) + 1)]
        refine (mul_le_mul h1 (mul_le_mul_of_nonneg_left q1' (by positivity)) (by positivity) (by norm_num)).trans (le_of_eq ?_)
        rw [hMs]
        ring
      have q6 := legD_step R hp (κ := k + 1) (z := z) (E := (d + 1) * rndLegD rnd z d (k + 1)) (M := M) (by linarith) hz (by
          rw [abs_mul, abs_of_nonneg (by positivity : (0 : ℝ) ≤ (d : ℝ) + 1)]
          have := mul_le_mul_of_nonneg_left (size1 (k + 1) (by omega)) (show 0 ≤ (d : ℝ) + 1 by positivity)
          refine this.trans ?_
          have e2 := mul_le_mul_of_nonneg_left hn4 (show 0 ≤ 3 / 2 * (d + 1) * legM d n by positivity)
          rw [← hMs] at e2
          linarith) (size2 (k + 1) (by omega)) (size2 k (by omega))
      have q8 : |((k + 2) * rndLegD rnd z (d + 1) (k + 2) - ((2 * k + 3) * ((d + 1) * rndLegD rnd z d (k + 1) + z * rndLegD rnd z (d + 1) (k + 1)) -
        (k + 1) * rndLegD rnd z (d + 1) k)) / (k + 1)| ≤ 32 * (unit p * M) := by
        rw [abs_div, abs_of_pos hk1, div_le_iff₀ hk1, rndLegD]
        refine le_trans (le_of_eq ?_) (q6.trans (le_of_eq (by ring)))
        congr 1
        ring
      refine (abs_add_le _ _).trans ?_
      linarith) n le_rfl
  beta_reduce at hg
  have h1 : rndLegD rnd z (d + 1) 1 - polyD ℝ .lep (d + 1) z 1 = 0 := by
    cases d with
    | zero =>
      have := (recSpec_lep (K := ℝ)).d1 z
      rw [this, rndLegD, if_pos rfl, sub_self]
    | succ d =>
      have := (recSpec_lep (K := ℝ)).d2 d z
      rw [this, rndLegD, if_neg (by omega), sub_self]
  rw [h1, abs_zero, mul_zero, zero_add] at hg
  refine hg.trans ?_
  rw [← hM]
  push_cast
  have hn0 : (0 : ℝ) ≤ n := by positivity
  have a1 : 0 ≤ unit p * M := by positivity
  have a2 : 0 ≤ unit p * M * n := by positivity
  have a3 : 0 ≤ unit p * M * n ^ 2 := by positivity
  have a4 : 0 ≤ (d : ℝ) * (unit p * M * n) := by positivity
  nlinarith

/-! ## The compiled code -/

theorem rnd_nat (R : RoundsToNearest p rnd) {n : ℕ} (h : n ≤ 2 ^ p) : rnd (n : ℝ) = n := by
  have : IsFloat p ((n : ℤ) : ℝ) := isFloat_int (by
    rw [abs_of_nonneg (by positivity)]
    exact_mod_cast h)
  exact rnd_float R (by exact_mod_cast this)

/-- `k`, `k + 1.` and `2. * k + 1.` are computed exactly. -/
theorem fl_nat (R : RoundsToNearest p rnd) {n : ℕ} (h : n ≤ 2 ^ p) : (n : Fl rnd).val = n := rnd_nat R h

theorem fl_nat_succ (R : RoundsToNearest p rnd) {n : ℕ} (h : n + 1 ≤ 2 ^ p) : ((n : Fl rnd) + 1).val = (n : ℝ) + 1 := by
  show rnd ((n : Fl rnd).val + 1) = _
  rw [fl_nat R (by omega)]
  exact_mod_cast rnd_nat R h

theorem fl_odd (R : RoundsToNearest p rnd) {n : ℕ} (h : 2 * n + 1 ≤ 2 ^ p) : (2 * (n : Fl rnd) + 1).val = 2 * (n : ℝ) + 1 := by
  show rnd (rnd ((2 : Fl rnd).val * (n : Fl rnd).val) + 1) = _
  rw [fl_nat R (by omega), fl_two R]
  have h1 := rnd_nat R (show 2 * n ≤ 2 ^ p by omega)
  have h2 := rnd_nat R h
  push_cast at h1 h2
  rw [h1, h2]

/-- The numbers of `LeP::Hint` and `LeP::RecurseDeriv`. -/
theorem recTable_rndLegD (R : RoundsToNearest p rnd) (z : Fl rnd) (d : ℕ) (hd : d ≤ 2 ^ p) (k : ℕ) (hk : 2 * k + 1 ≤ 2 ^ p) :
    (recTable (fun z => z) 1 (fun k z f1 f2 => ((2 * (k : Fl rnd) + 1) * z * f1 - (k : Fl rnd) * f2) / ((k : Fl rnd) + 1))
      (fun d k z e f1 f2 => ((2 * (k : Fl rnd) + 1) * (((d : Fl rnd) + 1) * e + z * f1) - (k : Fl rnd) * f2) / ((k : Fl rnd) + 1)) d z k).val =
      rndLegD rnd z.val d k := by
  induction d generalizing k with
  | zero =>
    induction k using Nat.twoStepInduction with
    | zero =>
      rw [recTable, rndLegD]
      rfl
    | one =>
      rw [recTable, rndLegD]
    | more k h0 h1 =>
      rw [recTable]
      show rnd (rnd (rnd (rnd (Fl.val (2 * ((k + 1 : ℕ) : Fl rnd) + 1) * z.val) * Fl.val _) - rnd (Fl.val ((k + 1 : ℕ) : Fl rnd) * Fl.val _)) /
        Fl.val (((k + 1 : ℕ) : Fl rnd) + 1)) = _
      rw [h0 (by omega), h1 (by omega), fl_odd R (by omega), fl_nat R (by omega), fl_nat_succ R (by omega), rndLegD]
      push_cast
      rfl
  | succ d ih =>
    induction k using Nat.twoStepInduction with
    | zero =>
      rw [recTable, rndLegD]
      rfl
    | one =>
      cases d with
      | zero =>
        rw [recTable, rndLegD, if_pos rfl]
        rfl
      | succ d =>
        rw [recTable, rndLegD, if_neg (by omega)]
        rfl
    | more k h0 h1 =>
      rw [recTable]
      show rnd (rnd (rnd (Fl.val (2 * ((k + 1 : ℕ) : Fl rnd) + 1) * rnd (rnd (Fl.val ((d : Fl rnd) + 1) * Fl.val _) + rnd (z.val * Fl.val _))) -
        rnd (Fl.val ((k + 1 : ℕ) : Fl rnd) * Fl.val _)) / Fl.val (((k + 1 : ℕ) : Fl rnd) + 1)) = _
      rw [h0 (by omega), h1 (by omega), ih (by omega) (k + 1) (by omega), fl_odd R (by omega), fl_nat R (by omega), fl_nat_succ R (by omega),
        fl_nat_succ R (by omega), rndLegD]
      push_cast
      rfl

/-- The error bounds put together. -/
theorem legD_total {d k : ℕ} {u κ D P P' ρ δ : ℝ} (hu : 0 < u) (hκ0 : 0 ≤ κ) (hk : 1 ≤ k) (hku : (24 + 32 * (d : ℝ)) * u * (k : ℝ) ^ 2 ≤ 1)
    (c1 : |P| ≤ legM d k) (e1 : |D - P| ≤ (12 + 16 * d) * u * legM d k * (k : ℝ) ^ 2)
    (e2 : δ ≤ 13 * u) (e3 : |P - P'| ≤ legM (d + 1) k * δ) (hρ1 : |ρ - 1| ≤ (4 * d + 5) * u) :
    |D * κ * ρ - κ * P'| ≤ (39 + 42 * d) * (3 / 2) ^ d * d.factorial * u * (k : ℝ) ^ (2 * (d + 1)) * κ := by
  have hd0 : (0 : ℝ) ≤ d := by positivity
  have hk1 : (1 : ℝ) ≤ k := by exact_mod_cast hk
  have b1 := size_of_error (le_refl k) e1 c1 (by linarith)
  have hMd := legM_nonneg d k
  obtain ⟨M, hM⟩ : ∃ M, M = legM d k := ⟨_, rfl⟩
  rw [← hM] at hMd b1 e1
  have b2 : |D * (ρ - 1)| ≤ 3 / 2 * M * ((4 * d + 5) * u) := by
    rw [abs_mul]
    exact mul_le_mul b1 hρ1 (abs_nonneg _) (by positivity)
  have b3 : legM (d + 1) k * δ ≤ 3 / 2 * (d + 1) * M * (k : ℝ) ^ 2 * (13 * u) := by
    rw [legM_succ, ← hM]
    exact mul_le_mul_of_nonneg_left e2 (by positivity)
  have b5 : (39 + 42 * (d : ℝ)) * (3 / 2) ^ d * d.factorial * u * (k : ℝ) ^ (2 * (d + 1)) * κ = (39 + 42 * d) * u * M * (k : ℝ) ^ 2 * κ := by
    rw [hM, legM, mul_add 2 d 1, pow_add]
    ring
  rw [b5]
  have b6 : D * κ * ρ - κ * P' = (D * (ρ - 1) + (D - P) + (P - P')) * κ := by ring
  rw [b6, abs_mul, abs_of_nonneg hκ0]
  refine mul_le_mul_of_nonneg_right ?_ hκ0
  have f1 := abs_add_le (D * (ρ - 1) + (D - P)) (P - P')
  have f2 := abs_add_le (D * (ρ - 1)) (D - P)
  have hk2 : 1 ≤ (k : ℝ) ^ 2 := one_le_pow₀ hk1
  have f3 : 0 ≤ u * M := by positivity
  have f4 := mul_le_mul_of_nonneg_left hk2 (show 0 ≤ 3 / 2 * ((4 * d + 5) * (u * M)) by positivity)
  have f5 : 0 ≤ u * M * (k : ℝ) ^ 2 := by positivity
  have f6 := mul_nonneg hd0 f5
  linarith

/-- **C88**: with every operation rounded to nearest, `BasisFunc::H(x, d)` of the Legendre polynomials gives in column `k` values that differ
from the `d`-th derivative of `P k` of the exactly mapped point by at most `(39 + 42 d) (3/2)^d d! u k^(2 d + 2) c^d`. -/
theorem C88_legendre (R : RoundsToNearest p rnd) (hp : 6 ≤ p) {x0 xf : ℝ} (h01 : x0 < xf) {nC : List ℤ} {m : ℕ} (hm : 1 ≤ m) (d : ℕ)
    (hmu : (24 + 32 * d) * unit p * m ^ 2 ≤ 1) (full : Bool) (hC : full = true ∨ ValidRemoval m nC) {x : Buf (Fl rnd)} {n : ℕ} {xs : ℕ → ℝ}
    (hx : ∀ j < n, x.read j = .ok ⟨xs j⟩) (hin : ∀ j < n, x0 ≤ xs j ∧ xs j ≤ xf) :
    ∃ F, (LeP.new ⟨x0⟩ ⟨xf⟩ nC m : BasisFunc (Fl rnd)).H x n d full = .ok (n, (outColumns m nC full).length, F) ∧
      ∀ j < n, ∀ (i : ℕ) (hi : i < (outColumns m nC full).length), ∃ v : Fl rnd, F.read ((outColumns m nC full).length * j + i) = .ok v ∧
        |v.val - iteratedDeriv d (fun x => legP (outColumns m nC full)[i] (-1 + (x - x0) * (2 / (xf - x0)))) (xs j)| ≤
          (39 + 42 * d) * (3 / 2) ^ d * d.factorial * unit p * ((outColumns m nC full)[i] : ℝ) ^ (2 * (d + 1)) * (2 / (xf - x0)) ^ d := by
  have hu := unit_pos p
  have hL : 0 < xf - x0 := by linarith
  have hd0 : (0 : ℝ) ≤ d := by positivity
  have hdu' : (24 + 32 * (d : ℝ)) * unit p ≤ 1 := by
    have h1 : (1 : ℝ) ≤ (m : ℝ) ^ 2 := one_le_pow₀ (by exact_mod_cast hm)
    have := mul_le_mul_of_nonneg_left h1 (show 0 ≤ (24 + 32 * (d : ℝ)) * unit p by positivity)
    linarith
  have hdu : (8 + 14 * (d : ℝ)) * unit p ≤ 1 := by
    have : 0 ≤ (16 + 18 * (d : ℝ)) * unit p := by positivity
    linarith
  have up : unit p * 2 ^ p = 1 := by
    unfold unit
    rw [zpow_neg, zpow_natCast]
    field_simp
  have hdp : d ≤ 2 ^ p := by
    have h2 : (d : ℝ) ≤ 2 ^ p := by
      have h3 : (24 + 32 * (d : ℝ)) * unit p * 2 ^ p ≤ 1 * 2 ^ p := mul_le_mul_of_nonneg_right hdu' (by positivity)
      rw [mul_assoc, up] at h3
      linarith
    exact_mod_cast h2
  have hmp : 2 * m + 1 ≤ 2 ^ p := by
    have hm1 : (1 : ℝ) ≤ m := by exact_mod_cast hm
    have h2 : (2 * m + 1 : ℝ) ≤ 2 ^ p := by
      have h3 : (24 + 32 * (d : ℝ)) * unit p * m ^ 2 * 2 ^ p ≤ 1 * 2 ^ p := mul_le_mul_of_nonneg_right hmu (by positivity)
      have h4 : (24 + 32 * (d : ℝ)) * unit p * m ^ 2 * 2 ^ p = (24 + 32 * (d : ℝ)) * m ^ 2 := by
        linear_combination ((24 + 32 * (d : ℝ)) * m ^ 2) * up
      rw [h4] at h3
      nlinarith
    exact_mod_cast h2
  have hE : HintSpec (LeP.new ⟨x0⟩ ⟨xf⟩ nC m : BasisFunc (Fl rnd)).hint m d
      (recTable (fun z => z) 1 (fun k z f1 f2 => ((2 * (k : Fl rnd) + 1) * z * f1 - (k : Fl rnd) * f2) / ((k : Fl rnd) + 1))
        (fun d k z e f1 f2 => ((2 * (k : Fl rnd) + 1) * (((d : Fl rnd) + 1) * e + z * f1) - (k : Fl rnd) * f2) / ((k : Fl rnd) + 1)) d) := by
    intro n z zs dark M h1 h2
    show Runs (LeP.hint m d z n dark) _
    rw [lep_hint_eq m d n z dark]
    exact skelHint_spec hm h1 (recTable_spec _ _ _ _) h2
  obtain ⟨⟨a, b, F⟩, h1, h2, h3, h4⟩ := H_spec (LeP.new ⟨x0⟩ ⟨xf⟩ nC m : BasisFunc (Fl rnd)) (d := d) hE (xs := fun j => ⟨xs j⟩) hx full hC
  dsimp only at h2 h3 h4
  subst h2
  subst h3
  refine ⟨F, h1, fun j hj i hi => ?_⟩
  have hi' : i < (outColumns (LeP.new ⟨x0⟩ ⟨xf⟩ nC m : BasisFunc (Fl rnd)).m (LeP.new ⟨x0⟩ ⟨xf⟩ nC m : BasisFunc (Fl rnd)).nC full).length := hi
  refine ⟨_, h4.read hj hi' (by rw [List.getElem?_eq_getElem hi']; rfl), ?_⟩
  obtain ⟨k, hk⟩ : ∃ k, k = (outColumns m nC full)[i]'hi := ⟨_, rfl⟩
  have hk' : (outColumns (LeP.new ⟨x0⟩ ⟨xf⟩ nC m : BasisFunc (Fl rnd)).m (LeP.new ⟨x0⟩ ⟨xf⟩ nC m : BasisFunc (Fl rnd)).nC full)[i] = k := hk.symm
  rw [hk']
  show |_ - iteratedDeriv d (fun x => legP ((outColumns m nC full)[i]'hi) _) _| ≤
    (39 + 42 * d) * (3 / 2) ^ d * d.factorial * unit p * (((outColumns m nC full)[i]'hi : ℕ) : ℝ) ^ (2 * (d + 1)) * _
  rw [← hk]
  -- the column
  have hkm : k < m := by
    have hmem : k ∈ outColumns m nC full := by
      rw [hk]
      exact List.getElem_mem _
    unfold outColumns at hmem
    split_ifs at hmem
    · exact List.mem_range.1 hmem
    · exact List.mem_range.1 (List.mem_of_mem_filter hmem)
  obtain ⟨z, hz⟩ : ∃ z, z = rndToZ rnd (-1) 1 x0 xf (xs j) := ⟨_, rfl⟩
  have hzf : IsFloat p z := by
    rw [hz]
    exact R.float _
  have hin' := C86_inside_partial R (show 0 < p by omega) (isFloat_neg (isFloat_one p)) (isFloat_one p) (k := 1) (by norm_num) h01 (hin j hj).1 (hin j hj).2
  rw [← hz] at hin'
  have hz1 : |z| ≤ 1 := abs_le.2 hin'
  -- the value
  have hv : (recTable (fun z => z) 1 (fun k z f1 f2 => ((2 * (k : Fl rnd) + 1) * z * f1 - (k : Fl rnd) * f2) / ((k : Fl rnd) + 1))
        (fun d k z e f1 f2 => ((2 * (k : Fl rnd) + 1) * (((d : Fl rnd) + 1) * e + z * f1) - (k : Fl rnd) * f2) / ((k : Fl rnd) + 1)) d
      ((⟨xs j⟩ - (LeP.new ⟨x0⟩ ⟨xf⟩ nC m : BasisFunc (Fl rnd)).x0) * (LeP.new ⟨x0⟩ ⟨xf⟩ nC m : BasisFunc (Fl rnd)).c +
        (LeP.new ⟨x0⟩ ⟨xf⟩ nC m : BasisFunc (Fl rnd)).z0) k * (LeP.new ⟨x0⟩ ⟨xf⟩ nC m : BasisFunc (Fl rnd)).c ^ d).val =
      rnd (rndLegD rnd z d k * rnd (rndSlope rnd (-1) 1 x0 xf ^ d)) := by
    show rnd (Fl.val (recTable _ _ _ _ d _ k) * rnd (rndSlope rnd (-1) 1 x0 xf ^ d)) = _
    have : (((⟨xs j⟩ : Fl rnd) - (LeP.new ⟨x0⟩ ⟨xf⟩ nC m : BasisFunc (Fl rnd)).x0) * (LeP.new ⟨x0⟩ ⟨xf⟩ nC m : BasisFunc (Fl rnd)).c +
        (LeP.new ⟨x0⟩ ⟨xf⟩ nC m : BasisFunc (Fl rnd)).z0).val = z := hz.symm
    rw [recTable_rndLegD R _ d hdp k (by omega), this]
  rw [hv]
  -- the derivative
  obtain ⟨w, hw⟩ : ∃ w, w = -1 + (xs j - x0) * (2 / (xf - x0)) := ⟨_, rfl⟩
  have hder : iteratedDeriv d (fun x => legP k (-1 + (x - x0) * (2 / (xf - x0)))) (xs j) = (2 / (xf - x0)) ^ d * polyD ℝ .lep d w k := by
    have := iteratedDeriv_polynomial (classical ℝ .lep k) (2 / (xf - x0)) (-1 - x0 * (2 / (xf - x0))) d
    have e : ∀ x, 2 / (xf - x0) * x + (-1 - x0 * (2 / (xf - x0))) = -1 + (x - x0) * (2 / (xf - x0)) := fun x => by ring
    simp only [e] at this
    unfold legP polyD
    rw [this, hw]
  rw [hder]
  have hw1 : |w| ≤ 1 := by
    have a1 : 0 ≤ (xs j - x0) * (2 / (xf - x0)) := mul_nonneg (by linarith [(hin j hj).1]) (by positivity)
    have a2 : (xs j - x0) * (2 / (xf - x0)) ≤ 2 := by
      rw [mul_div_assoc', div_le_iff₀ hL]
      linarith [(hin j hj).2]
    rw [hw, abs_le]
    constructor <;> linarith
  -- column 0
  rcases Nat.eq_zero_or_pos k with rfl | hkpos
  · cases d with
    | zero =>
      have e1 : rndLegD rnd z 0 0 = 1 := by rw [rndLegD]
      have e2 : polyD ℝ .lep 0 w 0 = 1 := (recSpec_lep (K := ℝ)).z0 w
      rw [e1, e2, pow_zero, rnd_float R (isFloat_one p), pow_zero, mul_one, rnd_float R (isFloat_one p)]
      simp
    | succ d =>
      have e1 : rndLegD rnd z (d + 1) 0 = 0 := by rw [rndLegD]
      have e2 : polyD ℝ .lep (d + 1) w 0 = 0 := (recSpec_lep (K := ℝ)).d0 d w
      rw [e1, e2, zero_mul, rnd_zero R]
      simp
  have hku : (24 + 32 * (d : ℝ)) * unit p * (k : ℝ) ^ 2 ≤ 1 := by
    have h1 : (k : ℝ) ^ 2 ≤ (m : ℝ) ^ 2 := pow_le_pow_left₀ (by positivity) (by exact_mod_cast hkm.le) 2
    have := mul_le_mul_of_nonneg_left h1 (show 0 ≤ (24 + 32 * (d : ℝ)) * unit p by positivity)
    linarith
  have e1 := rndLegD_error R hp hz1 d k hku
  have e2 := C86_error R hp (z0 := -1) (zf := 1) (by norm_num) (by
    have := isFloat_zpow p 1
    norm_num at this ⊢
    exact this) h01 (hin j hj).1 (hin j hj).2
  rw [← hz] at e2
  norm_num at e2
  rw [← hw] at e2
  have e3 := legD_lipschitz d k hz1 hw1
  obtain ⟨ρ, hρ, hρ1⟩ := slope_factor R hp h01 d hdu (rndLegD rnd z d k)
  rw [hρ]
  exact legD_total hu (by positivity) hkpos hku (legD_le hz1 d k) e1 (by linarith) e3 hρ1

/-- A concrete case: doubles, 60 functions on `[0, 49]` of which the first two are removed, second derivatives at the points 0, 7, ..., 49. -/
example (R : RoundsToNearest 53 rnd) : ∃ F, (LeP.new ⟨0⟩ ⟨49⟩ [0, 1] 60 : BasisFunc (Fl rnd)).H (Buf.ofFn 8 fun j => ⟨7 * j⟩) 8 2 false =
      .ok (8, (outColumns 60 [0, 1] false).length, F) ∧
    ∀ j < 8, ∀ (i : ℕ) (hi : i < (outColumns 60 [0, 1] false).length), ∃ v : Fl rnd, F.read ((outColumns 60 [0, 1] false).length * j + i) = .ok v ∧
      |v.val - iteratedDeriv 2 (fun x => legP (outColumns 60 [0, 1] false)[i] (-1 + (x - 0) * (2 / (49 - 0)))) (7 * (j : ℝ))| ≤
        (39 + 42 * (2 : ℕ)) * (3 / 2) ^ 2 * Nat.factorial 2 * unit 53 * ((outColumns 60 [0, 1] false)[i] : ℝ) ^ 6 * (2 / (49 - 0)) ^ 2 :=
  C88_legendre R (by norm_num) (by norm_num) (by norm_num) 2 (by unfold unit; norm_num) false
    (Or.inr ⟨by decide, by decide⟩) (xs := fun j => 7 * j) (fun j hj => Buf.ofFn_read hj)
    (fun j hj => ⟨by positivity, by
      have : (j : ℝ) ≤ 7 := by exact_mod_cast (by omega : j ≤ 7)
      linarith⟩)

end

end Verif.Props
