import Verif.Props.RoundedCheb
import Verif.Lemmas.Calculus

/-!
# C87: the derivatives of the Chebyshev polynomials in floating point arithmetic
-/

namespace Verif.Props

open Verif Verif.Mem Verif.Spec Verif.Model.CC Verif.Model.Rounded Polynomial

/-! ## The exact derivatives -/

/-- The `d`-th derivative of `T n` is at most `d! n^(2 d)` on `[-1, 1]`. -/
theorem chebD_le {z : ℝ} (hz : |z| ≤ 1) (d : ℕ) : ∀ n : ℕ, |polyD ℝ .cp d z n| ≤ d.factorial * (n : ℝ) ^ (2 * d) := by
  induction d with
  | zero =>
    intro n
    have := chebT_le n hz
    simpa [polyD, classical, chebT] using this
  | succ d ih =>
    intro n
    have hg := cheb_growth hz (e := fun k => polyD ℝ .cp (d + 1) z k) (η := fun k => (2 + 2 * (d : ℝ)) * polyD ℝ .cp d z (k + 1))
      (h := (2 + 2 * (d : ℝ)) * (d.factorial * (n : ℝ) ^ (2 * d))) (N := n) ((recSpec_cp (K := ℝ)).d0 d z) (fun k _ => by
        have := (recSpec_cp (K := ℝ)).ds d z k
        beta_reduce
        rw [this]
        ring) (fun k hk => by
        rw [abs_mul, abs_of_nonneg (by positivity : (0 : ℝ) ≤ 2 + 2 * d)]
        refine mul_le_mul_of_nonneg_left ((ih (k + 1)).trans ?_) (by positivity)
        refine mul_le_mul_of_nonneg_left ?_ (by positivity)
        exact pow_le_pow_left₀ (by positivity) (by exact_mod_cast (by omega : k + 1 ≤ n)) _) n le_rfl
    beta_reduce at hg
    have hn : (0 : ℝ) ≤ n := by positivity
    have hN : (n : ℝ) ^ (2 * (d + 1)) = (n : ℝ) ^ (2 * d) * n ^ 2 := by rw [← pow_add, mul_add]
    have hf : ((d + 1).factorial : ℝ) = (d + 1) * d.factorial := by
      rw [Nat.factorial_succ]
      push_cast
      ring
    rw [hN, hf]
    cases d with
    | zero =>
      have h1 : polyD ℝ .cp 1 z 1 = 1 := (recSpec_cp (K := ℝ)).d1 z
      rw [h1] at hg
      simp at hg ⊢
      nlinarith
    | succ d =>
      have h1 : polyD ℝ .cp (d + 1 + 1) z 1 = 0 := (recSpec_cp (K := ℝ)).d2 d z
      rw [h1, abs_zero, mul_zero, zero_add] at hg
      refine hg.trans ?_
      have h2 : 0 ≤ ((d + 1 : ℕ) : ℝ) + 1 := by positivity
      have h3 : 0 ≤ (((d + 1 : ℕ) : ℝ) + 1) * (((d + 1).factorial : ℝ) * (n : ℝ) ^ (2 * (d + 1))) := by positivity
      nlinarith [mul_nonneg h3 hn]

theorem chebD_hasDeriv (d n : ℕ) (z : ℝ) : HasDerivAt (fun z => polyD ℝ .cp d z n) (polyD ℝ .cp (d + 1) z n) z := by
  unfold polyD
  rw [Function.iterate_succ_apply']
  exact (derivative^[d] (classical ℝ .cp n)).hasDerivAt z

/-- The `d`-th derivative of `T n` is Lipschitz with constant `(d+1)! n^(2 d + 2)` on `[-1, 1]`. -/
theorem chebD_lipschitz (d n : ℕ) {z y : ℝ} (hz : |z| ≤ 1) (hy : |y| ≤ 1) :
    |polyD ℝ .cp d z n - polyD ℝ .cp d y n| ≤ (d + 1).factorial * (n : ℝ) ^ (2 * (d + 1)) * |z - y| := by
  have h := (convex_Icc (-1 : ℝ) 1).norm_image_sub_le_of_norm_hasDerivWithin_le (f := fun z => polyD ℝ .cp d z n)
    (f' := fun z => polyD ℝ .cp (d + 1) z n) (C := (d + 1).factorial * (n : ℝ) ^ (2 * (d + 1))) (x := y) (y := z)
    (fun x _ => (chebD_hasDeriv d n x).hasDerivWithinAt) (fun x hx => chebD_le (abs_le.2 hx) (d + 1) n) (abs_le.1 hy) (abs_le.1 hz)
  simpa only [Real.norm_eq_abs] using h

section
variable {p : ℕ} {rnd : ℝ → ℝ}

/-! ## The rounded recurrence -/

/-- The compiled recurrences with rounding: `(2. + 2. * dCurr) * dark + 2. * x * F1 - F2`. -/
noncomputable def rndChebD (rnd : ℝ → ℝ) (z : ℝ) : ℕ → ℕ → ℝ
  | 0, k => rndCheb rnd z k
  | _ + 1, 0 => 0
  | d + 1, 1 => if d = 0 then 1 else 0
  | d + 1, k + 2 => rnd (rnd (rnd ((2 + 2 * (d : ℝ)) * rndChebD rnd z d (k + 1)) + rnd (2 * z * rndChebD rnd z (d + 1) (k + 1))) -
      rndChebD rnd z (d + 1) k)
termination_by d k => (d, k)

theorem rndChebD_float (R : RoundsToNearest p rnd) {z : ℝ} (hf : IsFloat p z) (d k : ℕ) : IsFloat p (rndChebD rnd z d k) := by
  match d, k with
  | 0, k =>
    rw [rndChebD]
    exact rndCheb_float R hf k
  | d + 1, 0 =>
    rw [rndChebD]
    exact ⟨0, 0, by simp, by simp⟩
  | d + 1, 1 =>
    rw [rndChebD]
    split_ifs
    · exact isFloat_one p
    · exact ⟨0, 0, by simp, by simp⟩
  | d + 1, k + 2 =>
    rw [rndChebD]
    exact R.float _

/-- One step of the recurrence. -/
theorem chebD_step (R : RoundsToNearest p rnd) (hp : 6 ≤ p) {A B C M : ℝ} (hA : |A| ≤ 3 / 4 * M) (hB : |B| ≤ 3 * M) (hC : |C| ≤ 3 / 2 * M) :
    |rnd (rnd (rnd A + rnd B) - C) - (A + B - C)| ≤ 13 * unit p * M := by
  have hu := unit_pos p
  have hu' := unit_le hp
  have hM : 0 ≤ M := by linarith [abs_nonneg B]
  obtain ⟨u, hud⟩ : ∃ u, u = unit p := ⟨_, rfl⟩
  rw [← hud] at hu hu' ⊢
  have a1 : |rnd A - A| ≤ u * (3 / 4 * M) := by
    rw [hud]
    exact (rnd_error' R A).trans (mul_le_mul_of_nonneg_left hA (hud ▸ hu.le))
  have a2 : |rnd B - B| ≤ u * (3 * M) := by
    rw [hud]
    exact (rnd_error' R B).trans (mul_le_mul_of_nonneg_left hB (hud ▸ hu.le))
  have uM : u * M ≤ 1 / 64 * M := mul_le_mul_of_nonneg_right hu' hM
  have b1 : |rnd A + rnd B| ≤ (15 / 4 + 15 / 256) * M := by
    have c1 := abs_add_le (rnd A) (rnd B)
    have c2 := abs_sub_abs_le_abs_sub (rnd A) A
    have c3 := abs_sub_abs_le_abs_sub (rnd B) B
    linarith
  have b2 : |rnd (rnd A + rnd B) - (rnd A + rnd B)| ≤ u * ((15 / 4 + 15 / 256) * M) := by
    rw [hud]
    exact (rnd_error' R _).trans (mul_le_mul_of_nonneg_left b1 (hud ▸ hu.le))
  obtain ⟨S, hS⟩ : ∃ S, S = rnd (rnd A + rnd B) := ⟨_, rfl⟩
  rw [← hS] at b2 ⊢
  have b3 : |S - C| ≤ (15 / 4 + 15 / 256 + 1 / 16 + 3 / 2) * M := by
    have c1 := abs_sub S C
    have c2 := abs_sub_abs_le_abs_sub S (rnd A + rnd B)
    linarith
  have b4 : |rnd (S - C) - (S - C)| ≤ u * ((15 / 4 + 15 / 256 + 1 / 16 + 3 / 2) * M) := by
    rw [hud]
    exact (rnd_error' R _).trans (mul_le_mul_of_nonneg_left b3 (hud ▸ hu.le))
  have e : rnd (S - C) - (A + B - C) = (rnd (S - C) - (S - C)) + (S - (rnd A + rnd B)) + (rnd A - A) + (rnd B - B) := by ring
  rw [e]
  have d1 := abs_add_le ((rnd (S - C) - (S - C)) + (S - (rnd A + rnd B)) + (rnd A - A)) (rnd B - B)
  have d2 := abs_add_le ((rnd (S - C) - (S - C)) + (S - (rnd A + rnd B))) (rnd A - A)
  have d3 := abs_add_le (rnd (S - C) - (S - C)) (S - (rnd A + rnd B))
  have : 0 ≤ u * M := by positivity
  linarith

/-- The rounded recurrence of order `d`: at most `(4 + 7 d) d! u n^(2 d + 2)` from the derivative at the same point. -/
theorem rndChebD_error (R : RoundsToNearest p rnd) (hp : 6 ≤ p) {z : ℝ} (hf : IsFloat p z) (hz : |z| ≤ 1) (d : ℕ) :
    ∀ n : ℕ, (8 + 14 * d) * unit p * n ^ 2 ≤ 1 → |rndChebD rnd z d n - polyD ℝ .cp d z n| ≤ (4 + 7 * d) * d.factorial * unit p * (n : ℝ) ^ (2 * (d + 1)) := by
  have hu := unit_pos p
  induction d with
  | zero =>
    intro n hn
    have := rndCheb_error R hp hf hz n (by simpa using hn)
    rw [rndChebD]
    simpa [polyD, classical, chebT] using this
  | succ d ihd =>
  intro n
  induction n using Nat.strong_induction_on with
  | _ n ih =>
  intro hn
  have hf1 : ((d + 1).factorial : ℝ) = (d + 1) * d.factorial := by
    rw [Nat.factorial_succ]
    push_cast
    ring
  have hd0 : (0 : ℝ) ≤ d := by positivity
  have hfd : (0 : ℝ) < d.factorial := by exact_mod_cast Nat.factorial_pos d
  push_cast at hn
  have small : ∀ k ≤ n, (8 + 14 * ((d : ℝ) + 1)) * unit p * (k : ℝ) ^ 2 ≤ 1 := by
    intro k hk
    have h1 : (k : ℝ) ^ 2 ≤ (n : ℝ) ^ 2 := pow_le_pow_left₀ (by positivity) (by exact_mod_cast hk) 2
    have := mul_le_mul_of_nonneg_left h1 (show 0 ≤ (8 + 14 * ((d : ℝ) + 1)) * unit p by positivity)
    linarith
  have small' : ∀ k ≤ n, (8 + 14 * (d : ℝ)) * unit p * (k : ℝ) ^ 2 ≤ 1 := by
    intro k hk
    have h1 := small k hk
    have : 0 ≤ unit p * (k : ℝ) ^ 2 := by positivity
    nlinarith
  -- sizes
  have size1 : ∀ k ≤ n, |rndChebD rnd z d k| ≤ 3 / 2 * (d.factorial * (n : ℝ) ^ (2 * d)) := by
    intro k hk
    have h1 := ihd k (small' k hk)
    have h2 := chebD_le hz d k
    have h3 := small' k hk
    have h4 := abs_sub_abs_le_abs_sub (rndChebD rnd z d k) (polyD ℝ .cp d z k)
    have h5 : (4 + 7 * (d : ℝ)) * d.factorial * unit p * (k : ℝ) ^ (2 * (d + 1)) =
        (d.factorial * (k : ℝ) ^ (2 * d)) * (1 / 2 * ((8 + 14 * (d : ℝ)) * unit p * (k : ℝ) ^ 2)) := by
      rw [mul_add 2 d 1, pow_add]
      ring
    have h6 : (d.factorial * (k : ℝ) ^ (2 * d)) * (1 / 2 * ((8 + 14 * (d : ℝ)) * unit p * (k : ℝ) ^ 2)) ≤ (d.factorial * (k : ℝ) ^ (2 * d)) * (1 / 2) :=
      mul_le_mul_of_nonneg_left (by linarith) (by positivity)
    have h7 : d.factorial * (k : ℝ) ^ (2 * d) ≤ d.factorial * (n : ℝ) ^ (2 * d) :=
      mul_le_mul_of_nonneg_left (pow_le_pow_left₀ (by positivity) (by exact_mod_cast hk) _) (by positivity)
    linarith
  have size2 : ∀ k < n, |rndChebD rnd z (d + 1) k| ≤ 3 / 2 * ((d + 1).factorial * (n : ℝ) ^ (2 * (d + 1))) := by
    intro k hk
    have h1 := ih k hk (by
      push_cast
      exact small k hk.le)
    have h2 := chebD_le hz (d + 1) k
    have h3 := small k hk.le
    have h4 := abs_sub_abs_le_abs_sub (rndChebD rnd z (d + 1) k) (polyD ℝ .cp (d + 1) z k)
    have h5 : (4 + 7 * ((d + 1 : ℕ) : ℝ)) * (d + 1).factorial * unit p * (k : ℝ) ^ (2 * (d + 1 + 1)) =
        ((d + 1).factorial * (k : ℝ) ^ (2 * (d + 1))) * (1 / 2 * ((8 + 14 * ((d : ℝ) + 1)) * unit p * (k : ℝ) ^ 2)) := by
      rw [mul_add 2 (d + 1) 1, pow_add]
      push_cast
      ring
    have h6 : ((d + 1).factorial * (k : ℝ) ^ (2 * (d + 1))) * (1 / 2 * ((8 + 14 * ((d : ℝ) + 1)) * unit p * (k : ℝ) ^ 2)) ≤
        ((d + 1).factorial * (k : ℝ) ^ (2 * (d + 1))) * (1 / 2) :=
      mul_le_mul_of_nonneg_left (by linarith) (by positivity)
    have h7 : (d + 1).factorial * (k : ℝ) ^ (2 * (d + 1)) ≤ (d + 1).factorial * (n : ℝ) ^ (2 * (d + 1)) :=
      mul_le_mul_of_nonneg_left (pow_le_pow_left₀ (by positivity) (by exact_mod_cast hk.le) _) (by positivity)
    linarith
  obtain ⟨M, hM⟩ : ∃ M : ℝ, M = (d + 1).factorial * (n : ℝ) ^ (2 * (d + 1)) := ⟨_, rfl⟩
  have hM0 : 0 ≤ M := by
    rw [hM]
    positivity
  rw [← hM] at size2
  have hg := cheb_growth hz (e := fun k => rndChebD rnd z (d + 1) k - polyD ℝ .cp (d + 1) z k)
    (η := fun k => (2 + 2 * (d : ℝ)) * (rndChebD rnd z d (k + 1) - polyD ℝ .cp d z (k + 1)) +
      (rndChebD rnd z (d + 1) (k + 2) - ((2 + 2 * (d : ℝ)) * rndChebD rnd z d (k + 1) + 2 * z * rndChebD rnd z (d + 1) (k + 1) - rndChebD rnd z (d + 1) k)))
    (h := (2 * (4 + 7 * (d : ℝ)) + 13) * unit p * M) (N := n)
    (by
      have := (recSpec_cp (K := ℝ)).d0 d z
      rw [this, rndChebD, sub_zero]) (fun k _ => by
      have := (recSpec_cp (K := ℝ)).ds d z k
      beta_reduce
      rw [this]
      ring) (fun k hk => by
      have hn2 : (2 : ℝ) ≤ n := by exact_mod_cast (by omega : 2 ≤ n)
      have hn4 : (4 : ℝ) ≤ (n : ℝ) ^ 2 := by nlinarith
      have q1 := ihd (k + 1) (small' (k + 1) (by omega))
      have q2 : |(2 + 2 * (d : ℝ)) * (rndChebD rnd z d (k + 1) - polyD ℝ .cp d z (k + 1))| ≤ 2 * (4 + 7 * (d : ℝ)) * unit p * M := by
        rw [abs_mul, abs_of_nonneg (by positivity : (0 : ℝ) ≤ 2 + 2 * d)]
        have q3 : ((k + 1 : ℕ) : ℝ) ^ (2 * (d + 1)) ≤ (n : ℝ) ^ (2 * (d + 1)) := pow_le_pow_left₀ (by positivity) (by exact_mod_cast (by omega : k + 1 ≤ n)) _
        have q4 := mul_le_mul_of_nonneg_left q3 (show 0 ≤ (2 + 2 * (d : ℝ)) * ((4 + 7 * d) * d.factorial * unit p) by positivity)
        have q5 := mul_le_mul_of_nonneg_left q1 (show 0 ≤ 2 + 2 * (d : ℝ) by positivity)
        refine q5.trans ?_
        rw [← mul_assoc]
        refine q4.trans (le_of_eq ?_)
        rw [hM, hf1]
        ring
      have q6 := chebD_step R hp (A := (2 + 2 * (d : ℝ)) * rndChebD rnd z d (k + 1)) (B := 2 * z * rndChebD rnd z (d + 1) (k + 1))
        (C := rndChebD rnd z (d + 1) k) (M := M) (by
          rw [abs_mul, abs_of_nonneg (by positivity : (0 : ℝ) ≤ 2 + 2 * d)]
          have := mul_le_mul_of_nonneg_left (size1 (k + 1) (by omega)) (show 0 ≤ 2 + 2 * (d : ℝ) by positivity)
          refine this.trans ?_
          have e : M = ((d + 1) * d.factorial * (n : ℝ) ^ (2 * d)) * (n : ℝ) ^ 2 := by
            rw [hM, hf1, mul_add 2 d 1, pow_add]
            ring
          have e2 := mul_le_mul_of_nonneg_left hn4 (show 0 ≤ (d + 1) * d.factorial * (n : ℝ) ^ (2 * d) by positivity)
          rw [← e] at e2
          nlinarith) (by
          have := size2 (k + 1) (by omega)
          rw [abs_mul, abs_mul, abs_of_pos (by norm_num : (0 : ℝ) < 2)]
          have := abs_nonneg (rndChebD rnd z (d + 1) (k + 1))
          nlinarith [abs_nonneg z]) (size2 k (by omega))
      have q7 : rndChebD rnd z (d + 1) (k + 2) = rnd (rnd (rnd ((2 + 2 * (d : ℝ)) * rndChebD rnd z d (k + 1)) + rnd (2 * z * rndChebD rnd z (d + 1) (k + 1))) -
          rndChebD rnd z (d + 1) k) := by rw [rndChebD]
      rw [← q7] at q6
      refine (abs_add_le _ _).trans ?_
      linarith) n le_rfl
  beta_reduce at hg
  have h1 : rndChebD rnd z (d + 1) 1 - polyD ℝ .cp (d + 1) z 1 = 0 := by
    cases d with
    | zero =>
      have := (recSpec_cp (K := ℝ)).d1 z
      rw [this, rndChebD, if_pos rfl, sub_self]
    | succ d =>
      have := (recSpec_cp (K := ℝ)).d2 d z
      rw [this, rndChebD, if_neg (by omega), sub_self]
  rw [h1, abs_zero, mul_zero, zero_add] at hg
  refine hg.trans ?_
  have e : (4 + 7 * ((d + 1 : ℕ) : ℝ)) * (d + 1).factorial * unit p * (n : ℝ) ^ (2 * (d + 1 + 1)) = (11 + 7 * d) * unit p * M * (n : ℝ) ^ 2 := by
    rw [hM, mul_add 2 (d + 1) 1, pow_add]
    push_cast
    ring
  rw [e]
  have hn0 : (0 : ℝ) ≤ n := by positivity
  have a1 : 0 ≤ unit p * M := by positivity
  have a2 : 0 ≤ unit p * M * n := by positivity
  have a3 : 0 ≤ unit p * M * n ^ 2 := by positivity
  have a4 : 0 ≤ (d : ℝ) * (unit p * M * n) := by positivity
  nlinarith

/-! ## The compiled code -/

/-- `2. + 2. * dCurr` is computed exactly. -/
theorem fl_coeff (R : RoundsToNearest p rnd) {d : ℕ} (h : 2 + 2 * d ≤ 2 ^ p) : (2 + 2 * (d : Fl rnd) : Fl rnd).val = 2 + 2 * (d : ℝ) := by
  have nat : ∀ n : ℕ, n ≤ 2 + 2 * d → rnd (n : ℝ) = n := by
    intro n hn
    have : IsFloat p ((n : ℤ) : ℝ) := isFloat_int (by
      rw [abs_of_nonneg (by positivity)]
      exact_mod_cast hn.trans h)
    exact rnd_float R (by exact_mod_cast this)
  show rnd ((2 : Fl rnd).val + rnd ((2 : Fl rnd).val * rnd (d : ℝ))) = _
  rw [fl_two R, nat d (by omega)]
  have h1 := nat (2 * d) (by omega)
  have h2 := nat (2 + 2 * d) le_rfl
  push_cast at h1 h2
  rw [h1, h2]

/-- The numbers of `CP::Hint` and `CP::RecurseDeriv`. -/
theorem recTable_rndChebD (R : RoundsToNearest p rnd) {z : Fl rnd} (hz : IsFloat p z.val) (d : ℕ) (h : 2 * d ≤ 2 ^ p) (k : ℕ) :
    (recTable (fun z => z) 1 (fun _ z f1 f2 => 2 * z * f1 - f2) (fun d _ z e f1 f2 => (2 + 2 * (d : Fl rnd)) * e + 2 * z * f1 - f2) d z k).val =
      rndChebD rnd z.val d k := by
  induction d generalizing k with
  | zero =>
    rw [recTable_rndCheb R, rndChebD]
  | succ d ih =>
    induction k using Nat.twoStepInduction with
    | zero =>
      rw [recTable, rndChebD]
      rfl
    | one =>
      cases d with
      | zero =>
        rw [recTable, rndChebD, if_pos rfl]
        rfl
      | succ d =>
        rw [recTable, rndChebD, if_neg (by omega)]
        rfl
    | more k h0 h1 =>
      have e1 : rnd (2 * z.val) = 2 * z.val := rnd_float R (isFloat_two_mul hz)
      rw [recTable]
      show rnd (rnd (rnd (Fl.val (2 + 2 * (d : Fl rnd)) * Fl.val _) + rnd (rnd ((2 : Fl rnd).val * z.val) * Fl.val _)) - Fl.val _) = _
      rw [h0, h1, ih (by omega), fl_two R, fl_coeff R (by omega), e1, rndChebD]

/-- Products of factors near 1. -/
theorem pow_factor {u t : ℝ} (hu : 0 ≤ u) (hu1 : u < 1) (h1 : 1 - u ≤ t) (h2 : t ≤ 1 / (1 - u)) (n : ℕ) (hn : n * u ≤ 1 / 2) :
    |t ^ n - 1| ≤ 2 * n * u := by
  have ht : 0 < 1 - u := by linarith
  have b1 : 1 - n * u ≤ (1 - u) ^ n := by
    have := one_add_mul_le_pow (show (-2 : ℝ) ≤ -u by linarith) n
    have e : (1 + -u) = 1 - u := by ring
    rw [e] at this
    linarith
  have b2 : (1 - u) ^ n ≤ t ^ n := pow_le_pow_left₀ ht.le h1 n
  have b3 : t ^ n ≤ (1 / (1 - u)) ^ n := pow_le_pow_left₀ (by linarith) h2 n
  have b4 : (1 / (1 - u)) ^ n ≤ 1 + 2 * (n * u) := by
    rw [one_div, inv_pow, inv_le_comm₀ (by positivity) (by positivity)]
    refine le_trans ?_ b1
    rw [inv_le_iff_one_le_mul₀ (by positivity)]
    have : 0 ≤ n * u := by positivity
    nlinarith
  have : 0 ≤ n * u := by positivity
  rw [abs_le]
  constructor <;> linarith

/-- The errors of `pow(c, d)` and of the last multiplication. -/
theorem slope_factor (R : RoundsToNearest p rnd) (hp : 6 ≤ p) {x0 xf : ℝ} (h01 : x0 < xf) (d : ℕ) (hdu : (8 + 14 * (d : ℝ)) * unit p ≤ 1) (D : ℝ) :
    ∃ ρ, rnd (D * rnd (rndSlope rnd (-1) 1 x0 xf ^ d)) = D * (2 / (xf - x0)) ^ d * ρ ∧ |ρ - 1| ≤ (4 * d + 5) * unit p := by
  have hu := unit_pos p
  have hu' := unit_le hp
  have hL : 0 < xf - x0 := by linarith
  have hd0 : (0 : ℝ) ≤ d := by positivity
  have two : rnd (1 - -1) = 2 := by
    have : IsFloat p ((1 : ℝ) - -1) := by
      have := isFloat_zpow p 1
      norm_num at this ⊢
      exact this
    rw [rnd_float R this]
    norm_num
  obtain ⟨t2, g2, g2a, g2b⟩ := rnd_factor R (xf - x0)
  have ht2 : 0 < t2 := by linarith
  obtain ⟨t3, g3, g3a, g3b⟩ := rnd_factor R (2 / ((xf - x0) * t2))
  obtain ⟨t4, g4, g4a, g4b⟩ := rnd_factor R (rndSlope rnd (-1) 1 x0 xf ^ d)
  obtain ⟨t5, g5, g5a, g5b⟩ := rnd_factor R (D * rnd (rndSlope rnd (-1) 1 x0 xf ^ d))
  have hc : rndSlope rnd (-1) 1 x0 xf = 2 / (xf - x0) * (t3 / t2) := by
    unfold rndSlope
    rw [two, g2, g3]
    field_simp
  refine ⟨(t3 / t2) ^ d * (t4 * t5), ?_, ?_⟩
  · rw [g5, g4, hc, mul_pow]
    ring
  · have q1 : 1 - 2 * unit p ≤ t3 / t2 := by
      rw [le_div_iff₀ ht2]
      nlinarith
    have q2 : t3 / t2 ≤ 1 / (1 - 2 * unit p) := by
      rw [div_le_div_iff₀ ht2 (by linarith)]
      nlinarith
    have q3 := pow_factor (u := 2 * unit p) (by linarith) (by linarith) q1 q2 d (by nlinarith)
    have q4 : |t4 * t5 - 1| ≤ 5 / 2 * unit p := by
      have : t4 * t5 - 1 = (t4 - 1) * (t5 - 1) + (t4 - 1) + (t5 - 1) := by ring
      rw [this]
      have r1 : |t4 - 1| ≤ unit p := abs_le.2 ⟨by linarith, by linarith⟩
      have r2 : |t5 - 1| ≤ unit p := abs_le.2 ⟨by linarith, by linarith⟩
      have r3 : |(t4 - 1) * (t5 - 1)| ≤ unit p * (1 / 64) := by
        rw [abs_mul]
        exact mul_le_mul r1 (r2.trans hu') (abs_nonneg _) hu.le
      have r4 := abs_add_le ((t4 - 1) * (t5 - 1) + (t4 - 1)) (t5 - 1)
      have r5 := abs_add_le ((t4 - 1) * (t5 - 1)) (t4 - 1)
      linarith
    have e : (t3 / t2) ^ d * (t4 * t5) - 1 = ((t3 / t2) ^ d - 1) * (t4 * t5 - 1) + ((t3 / t2) ^ d - 1) + (t4 * t5 - 1) := by ring
    rw [e]
    have s1 := abs_add_le (((t3 / t2) ^ d - 1) * (t4 * t5 - 1) + ((t3 / t2) ^ d - 1)) (t4 * t5 - 1)
    have s2 := abs_add_le (((t3 / t2) ^ d - 1) * (t4 * t5 - 1)) ((t3 / t2) ^ d - 1)
    have s3 : |((t3 / t2) ^ d - 1) * (t4 * t5 - 1)| ≤ 1 * (5 / 2 * unit p) := by
      rw [abs_mul]
      exact mul_le_mul (q3.trans (by nlinarith)) q4 (abs_nonneg _) (by norm_num)
    linarith

/-- The error bounds put together. -/
theorem chebD_total {d k : ℕ} {u κ D P P' ρ δ : ℝ} (hu : 0 < u) (hκ0 : 0 ≤ κ) (hk : 1 ≤ k) (hku : (8 + 14 * (d : ℝ)) * u * (k : ℝ) ^ 2 ≤ 1)
    (c1 : |P| ≤ d.factorial * (k : ℝ) ^ (2 * d)) (e1 : |D - P| ≤ (4 + 7 * d) * d.factorial * u * (k : ℝ) ^ (2 * (d + 1)))
    (e2 : δ ≤ 13 * u) (e3 : |P - P'| ≤ (d + 1).factorial * (k : ℝ) ^ (2 * (d + 1)) * δ) (hρ1 : |ρ - 1| ≤ (4 * d + 5) * u) :
    |D * κ * ρ - κ * P'| ≤ (25 + 26 * d) * d.factorial * u * (k : ℝ) ^ (2 * (d + 1)) * κ := by
  have hd0 : (0 : ℝ) ≤ d := by positivity
  obtain ⟨M, hM⟩ : ∃ M : ℝ, M = d.factorial * (k : ℝ) ^ (2 * (d + 1)) := ⟨_, rfl⟩
  have hM0 : 0 ≤ M := by
    rw [hM]
    positivity
  have hk1 : (1 : ℝ) ≤ k := by exact_mod_cast hk
  have b0 : d.factorial * (k : ℝ) ^ (2 * d) ≤ M := by
    rw [hM]
    exact mul_le_mul_of_nonneg_left (pow_le_pow_right₀ hk1 (by omega)) (by positivity)
  have b1 : |D| ≤ 3 / 2 * M := by
    have c2 := abs_sub_abs_le_abs_sub (D) (P)
    have c3 : (4 + 7 * (d : ℝ)) * d.factorial * u * (k : ℝ) ^ (2 * (d + 1)) =
        (d.factorial * (k : ℝ) ^ (2 * d)) * (1 / 2 * ((8 + 14 * (d : ℝ)) * u * (k : ℝ) ^ 2)) := by
      rw [mul_add 2 d 1, pow_add]
      ring
    have c4 : (d.factorial * (k : ℝ) ^ (2 * d)) * (1 / 2 * ((8 + 14 * (d : ℝ)) * u * (k : ℝ) ^ 2)) ≤ (d.factorial * (k : ℝ) ^ (2 * d)) * (1 / 2) :=
      mul_le_mul_of_nonneg_left (by linarith) (by positivity)
    linarith
  have b2 : |D * (ρ - 1)| ≤ 3 / 2 * M * ((4 * d + 5) * u) := by
    rw [abs_mul]
    exact mul_le_mul b1 hρ1 (abs_nonneg _) (by positivity)
  have b3 : (d + 1).factorial * (k : ℝ) ^ (2 * (d + 1)) * δ ≤ (d + 1) * M * (13 * u) := by
    have : ((d + 1).factorial : ℝ) * (k : ℝ) ^ (2 * (d + 1)) = (d + 1) * M := by
      rw [hM, Nat.factorial_succ]
      push_cast
      ring
    rw [this]
    exact mul_le_mul_of_nonneg_left (by linarith) (by positivity)
  have b4 : (4 + 7 * (d : ℝ)) * d.factorial * u * (k : ℝ) ^ (2 * (d + 1)) = (4 + 7 * d) * u * M := by
    rw [hM]
    ring
  rw [b4] at e1
  have b5 : (25 + 26 * (d : ℝ)) * d.factorial * u * (k : ℝ) ^ (2 * (d + 1)) * κ = (25 + 26 * d) * u * M * κ := by
    rw [hM]
    ring
  rw [b5]
  have b6 : D * κ * ρ - κ * P' = (D * (ρ - 1) + (D - P) +
      (P - P')) * κ := by ring
  rw [b6, abs_mul, abs_of_nonneg hκ0]
  refine mul_le_mul_of_nonneg_right ?_ hκ0
  have f1 := abs_add_le (D * (ρ - 1) + (D - P)) (P - P')
  have f2 := abs_add_le (D * (ρ - 1)) (D - P)
  have f3 : 0 ≤ u * M := by positivity
  have f4 := mul_nonneg hd0 f3
  linarith

/-- **C87**, every order: with every operation rounded to nearest, `BasisFunc::H(x, d)` of the Chebyshev polynomials gives in column `k` values
that differ from the `d`-th derivative of `T k` of the exactly mapped point by at most `(25 + 26 d) d! u k^(2 d + 2) c^d`. -/
theorem C87_derivatives (R : RoundsToNearest p rnd) (hp : 6 ≤ p) {x0 xf : ℝ} (h01 : x0 < xf) {nC : List ℤ} {m : ℕ} (hm : 1 ≤ m) (d : ℕ)
    (hmu : (8 + 14 * d) * unit p * m ^ 2 ≤ 1) (full : Bool) (hC : full = true ∨ ValidRemoval m nC) {x : Buf (Fl rnd)} {n : ℕ} {xs : ℕ → ℝ}
    (hx : ∀ j < n, x.read j = .ok ⟨xs j⟩) (hin : ∀ j < n, x0 ≤ xs j ∧ xs j ≤ xf) :
    ∃ F, (CP.new ⟨x0⟩ ⟨xf⟩ nC m : BasisFunc (Fl rnd)).H x n d full = .ok (n, (outColumns m nC full).length, F) ∧
      ∀ j < n, ∀ (i : ℕ) (hi : i < (outColumns m nC full).length), ∃ v : Fl rnd, F.read ((outColumns m nC full).length * j + i) = .ok v ∧
        |v.val - iteratedDeriv d (fun x => chebT (outColumns m nC full)[i] (-1 + (x - x0) * (2 / (xf - x0)))) (xs j)| ≤
          (25 + 26 * d) * d.factorial * unit p * ((outColumns m nC full)[i] : ℝ) ^ (2 * (d + 1)) * (2 / (xf - x0)) ^ d := by
  have hu := unit_pos p
  have hu' := unit_le hp
  have hL : 0 < xf - x0 := by linarith
  have hd0 : (0 : ℝ) ≤ d := by positivity
  -- the order
  have hdu : (8 + 14 * (d : ℝ)) * unit p ≤ 1 := by
    have h1 : (1 : ℝ) ≤ (m : ℝ) ^ 2 := one_le_pow₀ (by exact_mod_cast hm)
    have := mul_le_mul_of_nonneg_left h1 (show 0 ≤ (8 + 14 * (d : ℝ)) * unit p by positivity)
    linarith
  have hdp : 2 * d ≤ 2 ^ p := by
    have h1 : unit p * 2 ^ p = 1 := by
      unfold unit
      rw [zpow_neg, zpow_natCast]
      field_simp
    have h2 : (2 * d : ℝ) ≤ 2 ^ p := by
      have h3 : (8 + 14 * (d : ℝ)) * unit p * 2 ^ p ≤ 1 * 2 ^ p := mul_le_mul_of_nonneg_right hdu (by positivity)
      rw [mul_assoc, h1] at h3
      linarith
    exact_mod_cast h2
  have hE : HintSpec (CP.new ⟨x0⟩ ⟨xf⟩ nC m : BasisFunc (Fl rnd)).hint m d
      (recTable (fun z => z) 1 (fun _ z f1 f2 => 2 * z * f1 - f2) (fun d _ z e f1 f2 => (2 + 2 * (d : Fl rnd)) * e + 2 * z * f1 - f2) d) := by
    intro n z zs dark M h1 h2
    show Runs (CP.hint m d z n dark) _
    rw [cp_hint_eq m d n z dark hm]
    exact skelHint_spec hm h1 (recTable_spec _ _ _ _) h2
  obtain ⟨⟨a, b, F⟩, h1, h2, h3, h4⟩ := H_spec (CP.new ⟨x0⟩ ⟨xf⟩ nC m : BasisFunc (Fl rnd)) (d := d) hE (xs := fun j => ⟨xs j⟩) hx full hC
  dsimp only at h2 h3 h4
  subst h2
  subst h3
  refine ⟨F, h1, fun j hj i hi => ?_⟩
  have hi' : i < (outColumns (CP.new ⟨x0⟩ ⟨xf⟩ nC m : BasisFunc (Fl rnd)).m (CP.new ⟨x0⟩ ⟨xf⟩ nC m : BasisFunc (Fl rnd)).nC full).length := hi
  refine ⟨_, h4.read hj hi' (by rw [List.getElem?_eq_getElem hi']; rfl), ?_⟩
  obtain ⟨k, hk⟩ : ∃ k, k = (outColumns m nC full)[i]'hi := ⟨_, rfl⟩
  have hk' : (outColumns (CP.new ⟨x0⟩ ⟨xf⟩ nC m : BasisFunc (Fl rnd)).m (CP.new ⟨x0⟩ ⟨xf⟩ nC m : BasisFunc (Fl rnd)).nC full)[i] = k := hk.symm
  rw [hk']
  show |_ - iteratedDeriv d (fun x => chebT ((outColumns m nC full)[i]'hi) _) _| ≤
    (25 + 26 * d) * d.factorial * unit p * (((outColumns m nC full)[i]'hi : ℕ) : ℝ) ^ (2 * (d + 1)) * _
  rw [← hk]
  obtain ⟨z, hz⟩ : ∃ z, z = rndToZ rnd (-1) 1 x0 xf (xs j) := ⟨_, rfl⟩
  have hzf : IsFloat p z := by
    rw [hz]
    exact R.float _
  have hin' := C86_inside_partial R (show 0 < p by omega) (isFloat_neg (isFloat_one p)) (isFloat_one p) (k := 1) (by norm_num) h01 (hin j hj).1 (hin j hj).2
  rw [← hz] at hin'
  have hz1 : |z| ≤ 1 := abs_le.2 hin'
  -- the value
  have hv : (recTable (fun z => z) 1 (fun _ z f1 f2 => 2 * z * f1 - f2) (fun d _ z e f1 f2 => (2 + 2 * (d : Fl rnd)) * e + 2 * z * f1 - f2) d
      ((⟨xs j⟩ - (CP.new ⟨x0⟩ ⟨xf⟩ nC m : BasisFunc (Fl rnd)).x0) * (CP.new ⟨x0⟩ ⟨xf⟩ nC m : BasisFunc (Fl rnd)).c +
        (CP.new ⟨x0⟩ ⟨xf⟩ nC m : BasisFunc (Fl rnd)).z0) k * (CP.new ⟨x0⟩ ⟨xf⟩ nC m : BasisFunc (Fl rnd)).c ^ d).val =
      rnd (rndChebD rnd z d k * rnd (rndSlope rnd (-1) 1 x0 xf ^ d)) := by
    show rnd (Fl.val (recTable _ _ _ _ d _ k) * rnd (rndSlope rnd (-1) 1 x0 xf ^ d)) = _
    have : (((⟨xs j⟩ : Fl rnd) - (CP.new ⟨x0⟩ ⟨xf⟩ nC m : BasisFunc (Fl rnd)).x0) * (CP.new ⟨x0⟩ ⟨xf⟩ nC m : BasisFunc (Fl rnd)).c +
        (CP.new ⟨x0⟩ ⟨xf⟩ nC m : BasisFunc (Fl rnd)).z0).val = z := hz.symm
    rw [recTable_rndChebD R (by rw [this]; exact hzf) d hdp, this]
  rw [hv]
  -- the derivative
  obtain ⟨w, hw⟩ : ∃ w, w = -1 + (xs j - x0) * (2 / (xf - x0)) := ⟨_, rfl⟩
  have hder : iteratedDeriv d (fun x => chebT k (-1 + (x - x0) * (2 / (xf - x0)))) (xs j) = (2 / (xf - x0)) ^ d * polyD ℝ .cp d w k := by
    have := iteratedDeriv_polynomial (Chebyshev.T ℝ k) (2 / (xf - x0)) (-1 - x0 * (2 / (xf - x0))) d
    have e : ∀ x, 2 / (xf - x0) * x + (-1 - x0 * (2 / (xf - x0))) = -1 + (x - x0) * (2 / (xf - x0)) := fun x => by ring
    simp only [e] at this
    unfold chebT polyD
    rw [this, hw]
    rfl
  rw [hder]
  have hw1 : |w| ≤ 1 := by
    have a1 : 0 ≤ (xs j - x0) * (2 / (xf - x0)) := mul_nonneg (by linarith [(hin j hj).1]) (by positivity)
    have a2 : (xs j - x0) * (2 / (xf - x0)) ≤ 2 := by
      rw [mul_div_assoc', div_le_iff₀ hL]
      linarith [(hin j hj).2]
    rw [hw, abs_le]
    constructor <;> linarith
  -- column 0
  rcases Nat.eq_zero_or_pos k with rfl | hkpos
  · cases d with
    | zero =>
      have e1 : rndChebD rnd z 0 0 = 1 := by rw [rndChebD, rndCheb]
      have e2 : polyD ℝ .cp 0 w 0 = 1 := (recSpec_cp (K := ℝ)).z0 w
      rw [e1, e2, pow_zero, rnd_float R (isFloat_one p), pow_zero, mul_one, rnd_float R (isFloat_one p)]
      simp
    | succ d =>
      have e1 : rndChebD rnd z (d + 1) 0 = 0 := by rw [rndChebD]
      have e2 : polyD ℝ .cp (d + 1) w 0 = 0 := (recSpec_cp (K := ℝ)).d0 d w
      rw [e1, e2, zero_mul, rnd_zero R]
      simp
  -- the column
  have hkm : k < m := by
    have hmem : k ∈ outColumns m nC full := by
      rw [hk]
      exact List.getElem_mem _
    unfold outColumns at hmem
    split_ifs at hmem
    · exact List.mem_range.1 hmem
    · exact List.mem_range.1 (List.mem_of_mem_filter hmem)
  have hku : (8 + 14 * (d : ℝ)) * unit p * (k : ℝ) ^ 2 ≤ 1 := by
    have h1 : (k : ℝ) ^ 2 ≤ (m : ℝ) ^ 2 := pow_le_pow_left₀ (by positivity) (by exact_mod_cast hkm.le) 2
    have := mul_le_mul_of_nonneg_left h1 (show 0 ≤ (8 + 14 * (d : ℝ)) * unit p by positivity)
    linarith
  have e1 := rndChebD_error R hp hzf hz1 d k hku
  have e2 := C86_error R hp (z0 := -1) (zf := 1) (by norm_num) (by
    have := isFloat_zpow p 1
    norm_num at this ⊢
    exact this) h01 (hin j hj).1 (hin j hj).2
  rw [← hz] at e2
  norm_num at e2
  rw [← hw] at e2
  have e3 := chebD_lipschitz d k hz1 hw1
  -- the factors
  obtain ⟨ρ, hρ, hρ1⟩ : ∃ ρ, rnd (rndChebD rnd z d k * rnd (rndSlope rnd (-1) 1 x0 xf ^ d)) = rndChebD rnd z d k * (2 / (xf - x0)) ^ d * ρ ∧
      |ρ - 1| ≤ (4 * d + 5) * unit p :=
    slope_factor R hp h01 d hdu _
  rw [hρ]
  exact chebD_total hu (by positivity) hkpos hku (chebD_le hz1 d k) e1 (by linarith) e3 hρ1

/-- A concrete case: doubles, 60 functions on `[0, 49]` of which the first two are removed, second derivatives at the points 0, 7, ..., 49. -/
example (R : RoundsToNearest 53 rnd) : ∃ F, (CP.new ⟨0⟩ ⟨49⟩ [0, 1] 60 : BasisFunc (Fl rnd)).H (Buf.ofFn 8 fun j => ⟨7 * j⟩) 8 2 false =
      .ok (8, (outColumns 60 [0, 1] false).length, F) ∧
    ∀ j < 8, ∀ (i : ℕ) (hi : i < (outColumns 60 [0, 1] false).length), ∃ v : Fl rnd, F.read ((outColumns 60 [0, 1] false).length * j + i) = .ok v ∧
      |v.val - iteratedDeriv 2 (fun x => chebT (outColumns 60 [0, 1] false)[i] (-1 + (x - 0) * (2 / (49 - 0)))) (7 * (j : ℝ))| ≤
        (25 + 26 * (2 : ℕ)) * Nat.factorial 2 * unit 53 * ((outColumns 60 [0, 1] false)[i] : ℝ) ^ 6 * (2 / (49 - 0)) ^ 2 :=
  C87_derivatives R (by norm_num) (by norm_num) (by norm_num) 2 (by unfold unit; norm_num) false
    (Or.inr ⟨by decide, by decide⟩) (xs := fun j => 7 * j) (fun j hj => Buf.ofFn_read hj)
    (fun j hj => ⟨by positivity, by
      have : (j : ℝ) ≤ 7 := by exact_mod_cast (by omega : j ≤ 7)
      linarith⟩)

end

end Verif.Props
