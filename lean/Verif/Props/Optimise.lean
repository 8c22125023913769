import Verif.Model.Optimise
import Mathlib.Analysis.SpecificLimits.Basic
import Mathlib.Analysis.Calculus.Deriv.Pow
import Mathlib.Analysis.Calculus.Deriv.Add
import Mathlib.Analysis.Calculus.Deriv.Mul

/-! # C84: the constrained minimisation of TfcBook/Chapter_4/Example_4_2.py -/

namespace Verif.Props

open Verif.Model.Opt

/-! ## The functions J and H are what automatic differentiation computes -/

/-- `J` is the vector of partial derivatives of `f`. -/
theorem grad_is_derivative (X : Fin 3 → ℝ) (i : Fin 3) : HasDerivAt (fun t => f (Function.update X i t)) (J X i) (X i) := by
  have id' := fun x : ℝ => hasDerivAt_id' x
  fin_cases i
  · have h : (fun t => f (Function.update X 0 t)) = fun t =>
        t ^ 2 * (X 1 ^ 2 - 8 * X 1 + 16) + t * (6 * X 1 ^ 2 - 48 * X 1 + 96) + (X 2 ^ 2 - 8 * X 2 + 9 * X 1 ^ 2 - 72 * X 1 + 160) := by
      funext t
      simp only [f, Function.update_self, Function.update_of_ne (show (1 : Fin 3) ≠ 0 by decide), Function.update_of_ne (show (2 : Fin 3) ≠ 0 by decide)]
      ring
    show HasDerivAt (fun t => f (Function.update X 0 t)) (J X 0) (X 0)
    rw [h]
    refine HasDerivAt.congr_deriv ((((hasDerivAt_pow 2 (X 0)).mul_const _).add ((id' (X 0)).mul_const _)).add_const _) ?_
    simp only [J, Matrix.cons_val_zero]
    push_cast
    ring
  · have h : (fun t => f (Function.update X 1 t)) = fun t =>
        t ^ 2 * (X 0 ^ 2 + 6 * X 0 + 9) + t * (-8 * X 0 ^ 2 - 48 * X 0 - 72) + (X 2 ^ 2 - 8 * X 2 + 16 * X 0 ^ 2 + 96 * X 0 + 160) := by
      funext t
      simp only [f, Function.update_self, Function.update_of_ne (show (0 : Fin 3) ≠ 1 by decide), Function.update_of_ne (show (2 : Fin 3) ≠ 1 by decide)]
      ring
    show HasDerivAt (fun t => f (Function.update X 1 t)) (J X 1) (X 1)
    rw [h]
    refine HasDerivAt.congr_deriv ((((hasDerivAt_pow 2 (X 1)).mul_const _).add ((id' (X 1)).mul_const _)).add_const _) ?_
    simp only [J, Matrix.cons_val_one, Matrix.cons_val_zero]
    push_cast
    ring
  · have h : (fun t => f (Function.update X 2 t)) = fun t =>
        t ^ 2 + t * (-8) + (X 0 * X 1 * (X 0 * X 1 + 6 * X 1 - 8 * X 0 - 48) + 9 * X 1 ^ 2 - 72 * X 1 + 16 * X 0 ^ 2 + 96 * X 0 + 160) := by
      funext t
      simp only [f, Function.update_self, Function.update_of_ne (show (0 : Fin 3) ≠ 2 by decide), Function.update_of_ne (show (1 : Fin 3) ≠ 2 by decide)]
      ring
    show HasDerivAt (fun t => f (Function.update X 2 t)) (J X 2) (X 2)
    rw [h]
    refine HasDerivAt.congr_deriv (((hasDerivAt_pow 2 (X 2)).add ((id' (X 2)).mul_const _)).add_const _) ?_
    have : J X 2 = 2 * X 2 - 8 := rfl
    rw [this]
    push_cast
    ring

/-- `H` is the matrix of partial derivatives of `J`. -/
theorem hess_is_derivative (X : Fin 3 → ℝ) (i j : Fin 3) : HasDerivAt (fun t => J (Function.update X j t) i) (H X i j) (X j) := by
  have lin : ∀ (a c x : ℝ), HasDerivAt (fun t => a * t + c) a x := fun a c x => by
    simpa using ((hasDerivAt_id' x).const_mul a).add_const c
  have quad : ∀ (q a c x : ℝ), HasDerivAt (fun t => q * t ^ 2 + (a * t + c)) (q * (2 * x) + a) x := fun q a c x => by
    refine HasDerivAt.congr_deriv (((hasDerivAt_pow 2 x).const_mul q).add (lin a c x)) ?_
    push_cast
    ring
  have e01 : (0 : Fin 3) ≠ 1 := by decide
  have e02 : (0 : Fin 3) ≠ 2 := by decide
  have e12 : (1 : Fin 3) ≠ 2 := by decide
  have j0 : ∀ X : Fin 3 → ℝ, J X 0 = 2 * X 0 * X 1 ^ 2 + 6 * X 1 ^ 2 - 16 * X 0 * X 1 - 48 * X 1 + 32 * X 0 + 96 := fun _ => rfl
  have j1 : ∀ X : Fin 3 → ℝ, J X 1 = 2 * X 0 ^ 2 * X 1 + 12 * X 0 * X 1 - 8 * X 0 ^ 2 - 48 * X 0 + 18 * X 1 - 72 := fun _ => rfl
  have j2 : ∀ X : Fin 3 → ℝ, J X 2 = 2 * X 2 - 8 := fun _ => rfl
  have key : ∀ {g : ℝ → ℝ} {d : ℝ} (q a c : ℝ), (∀ t, g t = q * t ^ 2 + (a * t + c)) → q * (2 * X j) + a = d → HasDerivAt g d (X j) := by
    intro g d q a c hg hd
    rw [show g = fun t => q * t ^ 2 + (a * t + c) from funext hg, ← hd]
    exact quad q a c (X j)
  fin_cases i <;> fin_cases j
  · refine key 0 (2 * X 1 ^ 2 - 16 * X 1 + 32) (6 * X 1 ^ 2 - 48 * X 1 + 96) (fun t => ?_) ?_
    · show J (Function.update X 0 t) 0 = _
      rw [j0, Function.update_self, Function.update_of_ne e01.symm]; ring
    · show _ = 2 * X 1 ^ 2 - 16 * X 1 + 32
      ring
  · refine key (2 * X 0 + 6) (-16 * X 0 - 48) (32 * X 0 + 96) (fun t => ?_) ?_
    · show J (Function.update X 1 t) 0 = _
      rw [j0, Function.update_self, Function.update_of_ne e01]; ring
    · show (2 * X 0 + 6) * (2 * X 1) + _ = 4 * X 0 * X 1 + 12 * X 1 - 16 * X 0 - 48
      ring
  · refine key 0 0 (J X 0) (fun t => ?_) ?_
    · show J (Function.update X 2 t) 0 = _
      rw [j0, j0, Function.update_of_ne e02, Function.update_of_ne e12]; ring
    · show _ = (0 : ℝ)
      ring
  · refine key (2 * X 1 - 8) (12 * X 1 - 48) (18 * X 1 - 72) (fun t => ?_) ?_
    · show J (Function.update X 0 t) 1 = _
      rw [j1, Function.update_self, Function.update_of_ne e01.symm]; ring
    · show (2 * X 1 - 8) * (2 * X 0) + _ = 4 * X 0 * X 1 + 12 * X 1 - 16 * X 0 - 48
      ring
  · refine key 0 (2 * X 0 ^ 2 + 12 * X 0 + 18) (-8 * X 0 ^ 2 - 48 * X 0 - 72) (fun t => ?_) ?_
    · show J (Function.update X 1 t) 1 = _
      rw [j1, Function.update_self, Function.update_of_ne e01]; ring
    · show _ = 2 * X 0 ^ 2 + 12 * X 0 + 18
      ring
  · refine key 0 0 (J X 1) (fun t => ?_) ?_
    · show J (Function.update X 2 t) 1 = _
      rw [j1, j1, Function.update_of_ne e02, Function.update_of_ne e12]; ring
    · show _ = (0 : ℝ)
      ring
  · refine key 0 0 (J X 2) (fun t => ?_) ?_
    · show J (Function.update X 0 t) 2 = _
      rw [j2, j2, Function.update_of_ne e02.symm]; ring
    · show _ = (0 : ℝ)
      ring
  · refine key 0 0 (J X 2) (fun t => ?_) ?_
    · show J (Function.update X 1 t) 2 = _
      rw [j2, j2, Function.update_of_ne e12.symm]; ring
    · show _ = (0 : ℝ)
      ring
  · refine key 0 2 (-8) (fun t => ?_) ?_
    · show J (Function.update X 2 t) 2 = _
      rw [j2, Function.update_self]; ring
    · show _ = (2 : ℝ)
      ring

/-! ## The constraint -/

/-- **C84**: with any vector that `A` sends to 0 and any starting point that meets the constraint, every iterate meets the constraint `A X = b`. -/
theorem C84_constraint (X0 N : Fin 3 → ℝ) (h0 : A.mulVec X0 = b) (hN : A.mulVec N = 0) (n : ℕ) : A.mulVec (run X0 N n).X = b := by
  cases n with
  | zero => exact h0
  | succ n =>
    obtain ⟨s, hs⟩ : ∃ s, (run X0 N (n + 1)).X = fun i => X0 i - N i * s := by
      unfold run
      rw [Function.iterate_succ_apply']
      exact ⟨_, rfl⟩
    rw [hs, show (fun i => X0 i - N i * s) = X0 - s • N from funext fun i => by simp [mul_comm], Matrix.mulVec_sub, Matrix.mulVec_smul,
      h0, hN, smul_zero, sub_zero]

/-- The starting point of the program meets the constraint. -/
theorem C84_start : A.mulVec start = b := by
  funext i
  fin_cases i
  · simp [A, b, start, Matrix.mulVec, dotProduct, Fin.sum_univ_three]; norm_num
  · simp [A, b, start, Matrix.mulVec, dotProduct, Fin.sum_univ_three]; norm_num

/-! ## The minimum -/

/-- The points that meet the constraint. -/
noncomputable def optLine (e : ℝ) : Fin 3 → ℝ := ![-3 + e, 4 - e, 4 - e]

theorem optA_apply (X : Fin 3 → ℝ) : A.mulVec X = ![X 0 + 2 * X 1 - X 2, X 0 + X 2] := by
  funext i
  fin_cases i
  · simp [A, Matrix.mulVec, dotProduct, Fin.sum_univ_three]; ring
  · simp [A, Matrix.mulVec, dotProduct, Fin.sum_univ_three]

theorem optLine_iff (X : Fin 3 → ℝ) : A.mulVec X = b ↔ X = optLine (X 0 + 3) := by
  rw [optA_apply]
  constructor
  · intro h
    have h0 : X 0 + 2 * X 1 - X 2 = 1 := congrFun h 0
    have h1 : X 0 + X 2 = 1 := congrFun h 1
    funext i
    fin_cases i
    · show X 0 = -3 + (X 0 + 3)
      ring
    · show X 1 = 4 - (X 0 + 3)
      linarith
    · show X 2 = 4 - (X 0 + 3)
      linarith
  · intro h
    have h1 : X 1 = 4 - (X 0 + 3) := congrFun h 1
    have h2 : X 2 = 4 - (X 0 + 3) := congrFun h 2
    rw [h1, h2]
    funext i
    fin_cases i
    · show X 0 + 2 * (4 - (X 0 + 3)) - (4 - (X 0 + 3)) = 1
      ring
    · show X 0 + (4 - (X 0 + 3)) = 1
      ring

theorem f_square (X : Fin 3 → ℝ) : f X = ((X 0 + 3) * (X 1 - 4)) ^ 2 + (X 2 - 4) ^ 2 := by
  unfold f
  ring

/-- **C84**: `(-3, 4, 4)` meets the constraint, and is the only point at which `f` attains its minimum over the points that meet it. -/
theorem C84_minimum : A.mulVec ![-3, 4, 4] = b ∧
    ∀ X, A.mulVec X = b → f ![-3, 4, 4] ≤ f X ∧ (f X = f ![-3, 4, 4] → X = ![-3, 4, 4]) := by
  refine ⟨?_, fun X hX => ?_⟩
  · rw [optLine_iff]
    funext i
    fin_cases i <;> simp [optLine]
  · have hf : f ![-3, 4, 4] = 0 := by
      rw [f_square]
      simp
    rw [hf, f_square]
    refine ⟨by positivity, fun h => ?_⟩
    have h2 : X 2 - 4 = 0 := by
      have p1 := sq_nonneg ((X 0 + 3) * (X 1 - 4))
      have p2 := sq_nonneg (X 2 - 4)
      exact pow_eq_zero_iff (by norm_num) |>.mp (by linarith : (X 2 - 4) ^ 2 = 0)
    have hl := (optLine_iff X).mp hX
    have e : X 0 + 3 = 0 := by
      have : X 2 = 4 - (X 0 + 3) := congrFun hl 2
      linarith
    rw [hl, e]
    funext i
    fin_cases i <;> simp [optLine]

/-! ## The iteration -/

/-- The Newton step in the one free coordinate. -/
noncomputable def optNext (e : ℝ) : ℝ := 8 * e ^ 3 / (12 * e ^ 2 + 2)

theorem opt_null (N : Fin 3 → ℝ) (hN : A.mulVec N = 0) : N = ![N 0, -N 0, -N 0] := by
  rw [optA_apply] at hN
  have h0 : N 0 + 2 * N 1 - N 2 = 0 := congrFun hN 0
  have h1 : N 0 + N 2 = 0 := congrFun hN 1
  funext i
  fin_cases i
  · rfl
  · show N 1 = -N 0
    linarith
  · show N 2 = -N 0
    linarith

theorem run_eq (e c : ℝ) (hc : c ≠ 0) (n : ℕ) :
    (run (optLine e) ![c, -c, -c] n).X = optLine (optNext^[n] e) ∧ (run (optLine e) ![c, -c, -c] n).s = (e - optNext^[n] e) / c := by
  induction n with
  | zero => simp [run]
  | succ n ih =>
    obtain ⟨ihX, ihs⟩ := ih
    obtain ⟨d, hd⟩ : ∃ d, d = optNext^[n] e := ⟨_, rfl⟩
    have hpos : 12 * d ^ 2 + 2 ≠ 0 := by positivity
    have hs : (run (optLine e) ![c, -c, -c] (n + 1)).s = (e - optNext d) / c := by
      have hstep : ∀ v : Val, (body (optLine e) ![c, -c, -c] v).s = v.s + (∑ i, ![c, -c, -c] i * ∑ j, H v.X i j * ![c, -c, -c] j)⁻¹ *
          ∑ i, ![c, -c, -c] i * J v.X i := fun _ => rfl
      unfold run at ihX ihs ⊢
      rw [Function.iterate_succ_apply', hstep]
      rw [ihX, ihs, ← hd]
      have q : ∑ i, ![c, -c, -c] i * ∑ j, H (optLine d) i j * ![c, -c, -c] j = c ^ 2 * (12 * d ^ 2 + 2) := by
        simp only [Fin.sum_univ_three, H, optLine]
        simp
        ring
      have g : ∑ i, ![c, -c, -c] i * J (optLine d) i = c * (4 * d ^ 3 + 2 * d) := by
        simp only [Fin.sum_univ_three, J, optLine]
        simp
        ring
      rw [q, g]
      unfold optNext
      field_simp
      ring
    rw [Function.iterate_succ_apply', ← hd]
    refine ⟨?_, hs⟩
    have hX : (run (optLine e) ![c, -c, -c] (n + 1)).X = fun i => optLine e i - ![c, -c, -c] i * (run (optLine e) ![c, -c, -c] (n + 1)).s := by
      unfold run
      rw [Function.iterate_succ_apply']
      rfl
    rw [hX, hs]
    funext i
    fin_cases i
    · show -3 + e - c * ((e - optNext d) / c) = -3 + optNext d
      field_simp
      ring
    · show 4 - e - -c * ((e - optNext d) / c) = 4 - optNext d
      field_simp
      ring
    · show 4 - e - -c * ((e - optNext d) / c) = 4 - optNext d
      field_simp
      ring

theorem optNext_abs (e : ℝ) : |optNext e| ≤ 2 / 3 * |e| := by
  unfold optNext
  rw [abs_div, abs_of_pos (show (0 : ℝ) < 12 * e ^ 2 + 2 by positivity), div_le_iff₀ (by positivity), abs_mul, abs_pow, ← sq_abs e]
  rw [abs_of_pos (show (0 : ℝ) < 8 by norm_num)]
  nlinarith [abs_nonneg e]

theorem optNext_cube (e : ℝ) : |optNext e| ≤ 4 * |e| ^ 3 := by
  unfold optNext
  rw [abs_div, abs_of_pos (show (0 : ℝ) < 12 * e ^ 2 + 2 by positivity), div_le_iff₀ (by positivity), abs_mul, abs_pow, ← sq_abs e]
  rw [abs_of_pos (show (0 : ℝ) < 8 by norm_num)]
  have h3 : 0 ≤ |e| ^ 3 := by positivity
  have h2 : 0 ≤ |e| ^ 2 := by positivity
  nlinarith [mul_nonneg h3 h2]

theorem optNext_iter (e : ℝ) (n : ℕ) : |optNext^[n] e| ≤ (2 / 3) ^ n * |e| := by
  induction n with
  | zero => simp
  | succ n ih =>
    rw [Function.iterate_succ_apply', pow_succ]
    refine (optNext_abs _).trans ?_
    nlinarith

/-- **C84**, the iteration: for every starting point that meets the constraint and every non-zero vector that `A` sends to 0 (the unit vector
of `null_space` among them, whichever of the two it returns), the error of the first coordinate, which is that of the others up to sign, shrinks
by one third in each step, and to at most four times its cube; the iterates tend to the minimiser. -/
theorem C84_newton (X0 N : Fin 3 → ℝ) (h0 : A.mulVec X0 = b) (hN : A.mulVec N = 0) (hz : N ≠ 0) :
    (∀ n i, |(run X0 N n).X i - ![-3, 4, 4] i| = |(run X0 N n).X 0 + 3|) ∧
    (∀ n, |(run X0 N (n + 1)).X 0 + 3| ≤ 2 / 3 * |(run X0 N n).X 0 + 3|) ∧
    (∀ n, |(run X0 N (n + 1)).X 0 + 3| ≤ 4 * |(run X0 N n).X 0 + 3| ^ 3) ∧
    Filter.Tendsto (fun n => (run X0 N n).X) Filter.atTop (nhds ![-3, 4, 4]) := by
  have hl := (optLine_iff X0).mp h0
  have hn := opt_null N hN
  obtain ⟨e, he⟩ : ∃ e, e = X0 0 + 3 := ⟨_, rfl⟩
  obtain ⟨c, hc⟩ : ∃ c, c = N 0 := ⟨_, rfl⟩
  rw [← he] at hl
  rw [← hc] at hn
  have hc0 : c ≠ 0 := by
    intro h
    apply hz
    rw [hn, h]
    funext i
    fin_cases i <;> simp
  subst hl
  subst hn
  have hX : ∀ n, (run (optLine e) ![c, -c, -c] n).X = optLine (optNext^[n] e) := fun n => (run_eq e c hc0 n).1
  have h3 : ∀ d, optLine d 0 + 3 = d := fun d => by
    show -3 + d + 3 = d
    ring
  refine ⟨fun n i => ?_, fun n => ?_, fun n => ?_, ?_⟩
  · rw [hX, h3]
    fin_cases i
    · show |-3 + optNext^[n] e - -3| = _
      congr 1
      ring
    · show |4 - optNext^[n] e - 4| = _
      rw [← abs_neg]
      congr 1
      ring
    · show |4 - optNext^[n] e - 4| = _
      rw [← abs_neg]
      congr 1
      ring
  · rw [hX, hX, h3, h3, Function.iterate_succ_apply']
    exact optNext_abs _
  · rw [hX, hX, h3, h3, Function.iterate_succ_apply']
    exact optNext_cube _
  · have lim : Filter.Tendsto (fun n => optNext^[n] e) Filter.atTop (nhds 0) := by
      rw [tendsto_zero_iff_abs_tendsto_zero]
      refine squeeze_zero (fun n => abs_nonneg _) (optNext_iter e) ?_
      have := (tendsto_pow_atTop_nhds_zero_of_lt_one (show (0 : ℝ) ≤ 2 / 3 by norm_num) (by norm_num)).mul_const |e|
      rwa [zero_mul] at this
    rw [tendsto_pi_nhds]
    intro i
    simp only [hX]
    fin_cases i
    · have := lim.const_add (-3)
      rw [add_zero] at this
      exact this
    · have := lim.const_sub 4
      rw [sub_zero] at this
      exact this
    · have := lim.const_sub 4
      rw [sub_zero] at this
      exact this

theorem optNext_mono {d e : ℝ} (hd : 0 ≤ d) (h : d ≤ e) : optNext d ≤ optNext e := by
  unfold optNext
  have he : 0 ≤ e := hd.trans h
  rw [div_le_div_iff₀ (by positivity) (by positivity)]
  have h1 : 0 ≤ e ^ 3 - d ^ 3 := by
    have : d ^ 3 ≤ e ^ 3 := pow_le_pow_left₀ hd h 3
    linarith
  have h2 : 0 ≤ d ^ 2 * e ^ 2 * (e - d) := mul_nonneg (by positivity) (by linarith)
  nlinarith

theorem optNext_nonneg {d : ℝ} (hd : 0 ≤ d) : 0 ≤ optNext d := by
  unfold optNext
  positivity

/-- **C84**, the program: after its 8 steps every coordinate is within `1e-10` of the minimiser. -/
theorem C84_eight (N : Fin 3 → ℝ) (hN : A.mulVec N = 0) (hz : N ≠ 0) (i : Fin 3) :
    |(run start N 8).X i - ![-3, 4, 4] i| ≤ 1 / 10 ^ 10 := by
  rw [(C84_newton start N C84_start hN hz).1 8 i]
  have hn := opt_null N hN
  have hc0 : N 0 ≠ 0 := by
    intro h
    apply hz
    rw [hn, h]
    funext i
    fin_cases i <;> simp
  have hs : start = optLine (11 / 3) := by
    funext i
    fin_cases i
    · show (2 : ℝ) / 3 = -3 + 11 / 3
      norm_num
    · show (1 : ℝ) / 3 = 4 - 11 / 3
      norm_num
    · show (1 : ℝ) / 3 = 4 - 11 / 3
      norm_num
  rw [hs, hn, (run_eq (11 / 3) (N 0) hc0 8).1]
  rw [show optLine (optNext^[8] (11 / 3)) 0 + 3 = optNext^[8] (11 / 3) from by show -3 + _ + 3 = _; ring]
  have step : ∀ {d e : ℝ} (n : ℕ), 0 ≤ optNext^[n] (11 / 3) ∧ optNext^[n] (11 / 3) ≤ d → optNext d ≤ e →
      0 ≤ optNext^[n + 1] (11 / 3) ∧ optNext^[n + 1] (11 / 3) ≤ e := by
    intro d e n h he
    rw [Function.iterate_succ_apply']
    exact ⟨optNext_nonneg h.1, (optNext_mono h.1 h.2).trans he⟩
  have s0 : 0 ≤ optNext^[0] (11 / 3) ∧ optNext^[0] (11 / 3) ≤ 11 / 3 := ⟨by simp; norm_num, by simp⟩
  have s1 := step (e := 2414513 / 1000000) 0 s0 (by unfold optNext; norm_num)
  have s2 := step (e := 1564937 / 1000000) 1 s1 (by unfold optNext; norm_num)
  have s3 := step (e := 195363 / 200000) 2 s2 (by unfold optNext; norm_num)
  have s4 := step (e := 69297 / 125000) 3 s3 (by unfold optNext; norm_num)
  have s5 := step (e := 14977 / 62500) 4 s4 (by unfold optNext; norm_num)
  have s6 := step (e := 20469 / 500000) 5 s5 (by unfold optNext; norm_num)
  have s7 := step (e := 17 / 62500) 6 s6 (by unfold optNext; norm_num)
  have s8 := step (e := 1 / 10 ^ 10) 7 s7 (by unfold optNext; norm_num)
  rw [abs_of_nonneg s8.1]
  exact s8.2

/-- A vector that meets the hypotheses: `null_space` returns this one divided by its length, or its negative. -/
example : A.mulVec ![1, -1, -1] = 0 ∧ (![1, -1, -1] : Fin 3 → ℝ) ≠ 0 := by
  refine ⟨?_, fun h => one_ne_zero (congrFun h 0)⟩
  rw [optA_apply]
  funext i
  fin_cases i
  · simp; norm_num
  · simp

end Verif.Props
