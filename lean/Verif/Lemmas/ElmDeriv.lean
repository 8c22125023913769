import Verif.Lemmas.ElmCC
import Mathlib.Analysis.SpecialFunctions.Trigonometric.DerivHyp
import Mathlib.Analysis.Calculus.IteratedDeriv.Lemmas

/-! # The derivative tables of the ELM classes -/

set_option linter.unusedSimpArgs false

namespace Verif

open Verif.Mem Verif.Model.CC Verif.Spec Polynomial

/-- Derivatives of a solution of `f' = Q(f)`: `f^(d) = (odeP Q d)(f)`. -/
noncomputable def odeP (Q : ℝ[X]) : ℕ → ℝ[X]
  | 0 => X
  | d + 1 => derivative (odeP Q d) * Q

theorem odeP_hasDeriv {Q : ℝ[X]} {f : ℝ → ℝ} (hf : ∀ t, HasDerivAt f (Q.eval (f t)) t) (d : ℕ) (t : ℝ) :
    HasDerivAt (fun t => (odeP Q d).eval (f t)) ((odeP Q (d + 1)).eval (f t)) t := by
  have := ((odeP Q d).hasDerivAt (f t)).comp t (hf t)
  refine this.congr_deriv ?_
  simp [odeP]

theorem sigmoid_hasDeriv (t : ℝ) : HasDerivAt sigmoid ((X - X ^ 2 : ℝ[X]).eval (sigmoid t)) t := by
  have h1 : HasDerivAt (fun t : ℝ => 1 + Real.exp (-t)) (-Real.exp (-t)) t := by
    simpa using ((hasDerivAt_neg t).exp).const_add 1
  have hpos : (1 + Real.exp (-t)) ≠ 0 := by positivity
  have h2 := h1.inv hpos
  have e : sigmoid = fun t : ℝ => (1 + Real.exp (-t))⁻¹ := by
    ext t; simp [sigmoid]
  rw [e]
  refine h2.congr_deriv ?_
  simp only [eval_sub, eval_X, eval_pow]
  field_simp
  ring

theorem tanh_hasDeriv (t : ℝ) : HasDerivAt Real.tanh ((1 - X ^ 2 : ℝ[X]).eval (Real.tanh t)) t := by
  have e : Real.tanh = fun t : ℝ => Real.sinh t / Real.cosh t := by
    ext t; exact Real.tanh_eq_sinh_div_cosh t
  have hpos : Real.cosh t ≠ 0 := (Real.cosh_pos t).ne'
  rw [e]
  refine ((Real.hasDerivAt_sinh t).div (Real.hasDerivAt_cosh t) hpos).congr_deriv ?_
  simp only [eval_sub, eval_X, eval_pow, eval_one]
  field_simp

private theorem C2 : (C (2 : ℝ) : ℝ[X]) = 2 := rfl
private theorem C3 : (C (3 : ℝ) : ℝ[X]) = 3 := rfl
private theorem C4 : (C (4 : ℝ) : ℝ[X]) = 4 := rfl
private theorem C5 : (C (5 : ℝ) : ℝ[X]) = 5 := rfl
private theorem C6 : (C (6 : ℝ) : ℝ[X]) = 6 := rfl
private theorem C7 : (C (7 : ℝ) : ℝ[X]) = 7 := rfl
private theorem C8 : (C (8 : ℝ) : ℝ[X]) = 8 := rfl
private theorem C9 : (C (9 : ℝ) : ℝ[X]) = 9 := rfl

theorem sigP1 : odeP (X - X ^ 2) 1 = X - X ^ 2 := by
  simp [odeP]

theorem sigP2 : odeP (X - X ^ 2) 2 = X - 3 * X ^ 2 + 2 * X ^ 3 := by
  rw [odeP, sigP1]; simp [C2, C3, C4, C5, C6, C7, C8, C9]; ring

theorem sigP3 : odeP (X - X ^ 2) 3 = X - 7 * X ^ 2 + 12 * X ^ 3 - 6 * X ^ 4 := by
  rw [odeP, sigP2]; simp [C2, C3, C4, C5, C6, C7, C8, C9]; ring

theorem sigP4 : odeP (X - X ^ 2) 4 = X - 15 * X ^ 2 + 50 * X ^ 3 - 60 * X ^ 4 + 24 * X ^ 5 := by
  rw [odeP, sigP3]; simp [C2, C3, C4, C5, C6, C7, C8, C9]; ring

theorem sigP5 : odeP (X - X ^ 2) 5 = X - 31 * X ^ 2 + 180 * X ^ 3 - 390 * X ^ 4 + 360 * X ^ 5 - 120 * X ^ 6 := by
  rw [odeP, sigP4]; simp [C2, C3, C4, C5, C6, C7, C8, C9]; ring

theorem sigP6 : odeP (X - X ^ 2) 6 = X - 63 * X ^ 2 + 602 * X ^ 3 - 2100 * X ^ 4 + 3360 * X ^ 5 - 2520 * X ^ 6 + 720 * X ^ 7 := by
  rw [odeP, sigP5]; simp [C2, C3, C4, C5, C6, C7, C8, C9]; ring

theorem sigP7 : odeP (X - X ^ 2) 7 = X - 127 * X ^ 2 + 1932 * X ^ 3 - 10206 * X ^ 4 + 25200 * X ^ 5 - 31920 * X ^ 6 + 20160 * X ^ 7 - 5040 * X ^ 8 := by
  rw [odeP, sigP6]; simp [C2, C3, C4, C5, C6, C7, C8, C9]; ring

theorem sigP8 : odeP (X - X ^ 2) 8 = X - 255 * X ^ 2 + 6050 * X ^ 3 - 46620 * X ^ 4 + 166824 * X ^ 5 - 317520 * X ^ 6 + 332640 * X ^ 7 - 181440 * X ^ 8 + 40320 * X ^ 9 := by
  rw [odeP, sigP7]; simp [C2, C3, C4, C5, C6, C7, C8, C9]; ring

theorem tanhP1 : odeP (1 - X ^ 2) 1 = 1 - X ^ 2 := by
  simp [odeP]

theorem tanhP2 : odeP (1 - X ^ 2) 2 = -2 * X + 2 * X ^ 3 := by
  rw [odeP, tanhP1]; simp [C2, C3, C4, C5, C6, C7, C8, C9]; ring

theorem tanhP3 : odeP (1 - X ^ 2) 3 = -2 + 8 * X ^ 2 - 6 * X ^ 4 := by
  rw [odeP, tanhP2]; simp [C2, C3, C4, C5, C6, C7, C8, C9]; ring

theorem tanhP4 : odeP (1 - X ^ 2) 4 = 16 * X - 40 * X ^ 3 + 24 * X ^ 5 := by
  rw [odeP, tanhP3]; simp [C2, C3, C4, C5, C6, C7, C8, C9]; ring

theorem tanhP5 : odeP (1 - X ^ 2) 5 = 16 - 136 * X ^ 2 + 240 * X ^ 4 - 120 * X ^ 6 := by
  rw [odeP, tanhP4]; simp [C2, C3, C4, C5, C6, C7, C8, C9]; ring

theorem tanhP6 : odeP (1 - X ^ 2) 6 = -272 * X + 1232 * X ^ 3 - 1680 * X ^ 5 + 720 * X ^ 7 := by
  rw [odeP, tanhP5]; simp [C2, C3, C4, C5, C6, C7, C8, C9]; ring

theorem tanhP7 : odeP (1 - X ^ 2) 7 = -272 + 3968 * X ^ 2 - 12096 * X ^ 4 + 13440 * X ^ 6 - 5040 * X ^ 8 := by
  rw [odeP, tanhP6]; simp [C2, C3, C4, C5, C6, C7, C8, C9]; ring

theorem tanhP8 : odeP (1 - X ^ 2) 8 = 7936 * X - 56320 * X ^ 3 + 129024 * X ^ 5 - 120960 * X ^ 7 + 40320 * X ^ 9 := by
  rw [odeP, tanhP7]; simp [C2, C3, C4, C5, C6, C7, C8, C9]; ring

theorem elmD_sigmoid {d : ℕ} (hd : d ≤ 8) (w b z : ℝ) :
    elmD .sigmoid d w b z = w ^ d * (odeP (X - X ^ 2) d).eval (sigmoid (w * z + b)) := by
  interval_cases d
  · simp [elmD, ELMSigmoid.switch, odeP]
  all_goals simp [elmD, ELMSigmoid.switch, sigP1, sigP2, sigP3, sigP4, sigP5, sigP6, sigP7, sigP8]

theorem elmD_tanh {d : ℕ} (hd : d ≤ 8) (w b z : ℝ) :
    elmD .tanh d w b z = w ^ d * (odeP (1 - X ^ 2) d).eval (Real.tanh (w * z + b)) := by
  interval_cases d
  · simp [elmD, ELMTanh.switch, odeP]
  all_goals simp [elmD, ELMTanh.switch, tanhP1, tanhP2, tanhP3, tanhP4, tanhP5, tanhP6, tanhP7, tanhP8]

/-- Derivatives of swish. -/
noncomputable def swishG (d : ℕ) (t : ℝ) : ℝ :=
  t * (odeP (X - X ^ 2) d).eval (sigmoid t) + d * (odeP (X - X ^ 2) (d - 1)).eval (sigmoid t)

theorem swishG_hasDeriv (d : ℕ) (t : ℝ) : HasDerivAt (swishG d) (swishG (d + 1) t) t := by
  have h1 := (hasDerivAt_id t).mul (odeP_hasDeriv sigmoid_hasDeriv d t)
  rcases d with _ | d
  · have h2 : swishG 0 = fun t => id t * (odeP (X - X ^ 2) 0).eval (sigmoid t) := by
      ext t; simp [swishG]
    rw [h2]
    refine h1.congr_deriv ?_
    simp [swishG]; ring
  · have h2 := h1.add ((odeP_hasDeriv sigmoid_hasDeriv d t).const_mul ((d + 1 : ℕ) : ℝ))
    refine h2.congr_deriv ?_
    simp [swishG]; ring

theorem elmD_swish {d : ℕ} (hd : d ≤ 8) (w b z : ℝ) :
    elmD .swish d w b z = w ^ d * swishG d (w * z + b) := by
  interval_cases d
  · simp [elmD, ELMSwish.switch, swishG, swish, odeP]
  · simp [elmD, ELMSwish.switch, swishG, sigP1, odeP]; left; ring
  all_goals
    simp [elmD, ELMSwish.switch, swishG, sigP1, sigP2, sigP3, sigP4, sigP5, sigP6, sigP7, sigP8]; left; ring

/-- Derivatives of sine. -/
noncomputable def sinG (d : ℕ) (t : ℝ) : ℝ :=
  if d % 4 = 0 then Real.sin t else if d % 4 = 1 then Real.cos t
  else if d % 4 = 2 then -Real.sin t else -Real.cos t

theorem sinG_hasDeriv (d : ℕ) (t : ℝ) : HasDerivAt (sinG d) (sinG (d + 1) t) t := by
  have h4 : d % 4 = 0 ∨ d % 4 = 1 ∨ d % 4 = 2 ∨ d % 4 = 3 := by omega
  unfold sinG
  rcases h4 with h | h | h | h
  · have h' : (d + 1) % 4 = 1 := by omega
    simpa [h, h'] using Real.hasDerivAt_sin t
  · have h' : (d + 1) % 4 = 2 := by omega
    simpa [h, h'] using Real.hasDerivAt_cos t
  · have h' : (d + 1) % 4 = 3 := by omega
    simpa [h, h'] using (Real.hasDerivAt_sin t).fun_neg
  · have h' : (d + 1) % 4 = 0 := by omega
    simpa [h, h'] using (Real.hasDerivAt_cos t).fun_neg

theorem iteratedDeriv_affine (a b x : ℝ) (d : ℕ) :
    iteratedDeriv d (fun x => a * x + b) x = if d = 0 then a * x + b else if d = 1 then a else 0 := by
  have := iteratedDeriv_chain
    (fun i t => if i = 0 then t else if i = 1 then 1 else 0) d (fun i _ t => ?_) a b (le_refl d)
  · rw [show (fun x => a * x + b) = (fun x => (fun (i : ℕ) (t : ℝ) => if i = 0 then t else if i = 1 then 1 else 0) 0
      (a * x + b)) from rfl, this]
    rcases d with _ | _ | d <;> simp
  · rcases i with _ | _ | i
    · simpa using hasDerivAt_id' t
    · simpa using hasDerivAt_const t (1 : ℝ)
    · simpa using hasDerivAt_const t (0 : ℝ)

theorem relu_iteratedDeriv (a b x : ℝ) (d : ℕ) (hx : a * x + b ≠ 0) :
    iteratedDeriv d (fun x => relu (a * x + b)) x =
      if d = 0 then relu (a * x + b) else if d = 1 then (if a * x + b ≤ 0 then 0 else a) else 0 := by
  have hcont : Continuous fun x => a * x + b := by fun_prop
  rcases lt_or_gt_of_ne hx with h | h
  · have he : (fun x => relu (a * x + b)) =ᶠ[nhds x] fun x => (0 : ℝ) * x + 0 := by
      filter_upwards [hcont.continuousAt.eventually_lt continuousAt_const h] with y hy
      simp [relu, hy.le]
    rw [he.iteratedDeriv_eq]
    have e0 : relu (a * x + b) = 0 := by simp [relu, h.le]
    rw [iteratedDeriv_affine]
    simp [e0, h.le]
  · have he : (fun x => relu (a * x + b)) =ᶠ[nhds x] fun x => a * x + b := by
      filter_upwards [continuousAt_const.eventually_lt hcont.continuousAt h] with y hy
      simp [relu, hy.le]
    rw [he.iteratedDeriv_eq, iteratedDeriv_affine]
    have e0 : relu (a * x + b) = a * x + b := by simp [relu, h.le]
    simp [e0, not_le.mpr h]

/-- The orders for which the compiled ELM class `a` has a formula. -/
def orderOk (a : Activation) (d : ℕ) : Prop :=
  match a with
  | .sigmoid => d ≤ 8
  | .tanh => d ≤ 8
  | .swish => d ≤ 8
  | _ => True

theorem elm_iteratedDeriv (a : Activation) {d : ℕ} (hd : orderOk a d) (w b c x0 z0 x : ℝ)
    (hk : a = .relu → d ≠ 0 → w * ((x - x0) * c + z0) + b ≠ 0) :
    iteratedDeriv d (fun x => act a (w * ((x - x0) * c + z0) + b)) x =
      elmD a d w b ((x - x0) * c + z0) * c ^ d := by
  have e : ∀ x, w * ((x - x0) * c + z0) + b = (w * c) * x + (w * (z0 - x0 * c) + b) := fun x => by ring
  have key : ∀ G : ℕ → ℝ → ℝ, (∀ i t, HasDerivAt (G i) (G (i + 1) t) t) → act a = G 0 →
      elmD a d w b ((x - x0) * c + z0) = w ^ d * G d (w * ((x - x0) * c + z0) + b) →
      iteratedDeriv d (fun x => act a (w * ((x - x0) * c + z0) + b)) x =
      elmD a d w b ((x - x0) * c + z0) * c ^ d := by
    intro G hG h0 h1
    rw [h0, h1]
    simp only [e]
    rw [iteratedDeriv_chain G d (fun i _ t => hG i t) _ _ le_rfl]
    rw [mul_pow]; ring
  cases a with
  | relu =>
    rcases Nat.eq_zero_or_pos d with rfl | h0
    · simp [act, elmD]
    have hk := hk rfl (by omega)
    simp only [act, elmD]
    simp only [e] at hk ⊢
    rw [relu_iteratedDeriv _ _ _ _ hk]
    rcases d with _ | _ | d
    · simp
    · simp only [zero_add, one_ne_zero, if_false, if_true, pow_one]
      split_ifs <;> simp
    · simp
  | sigmoid =>
    exact key (fun d t => (odeP (X - X ^ 2) d).eval (sigmoid t)) (odeP_hasDeriv sigmoid_hasDeriv)
      (by ext t; simp [act, odeP]) (elmD_sigmoid hd _ _ _)
  | tanh =>
    exact key (fun d t => (odeP (1 - X ^ 2) d).eval (Real.tanh t)) (odeP_hasDeriv tanh_hasDeriv)
      (by ext t; simp [act, odeP]) (elmD_tanh hd _ _ _)
  | sin =>
    exact key sinG sinG_hasDeriv (by ext t; simp [act, sinG]) (by simp [elmD, sinG])
  | swish =>
    exact key swishG swishG_hasDeriv (by ext t; simp [act, swishG, swish, odeP]) (elmD_swish hd _ _ _)

end Verif
