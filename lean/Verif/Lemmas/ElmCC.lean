import Verif.Model.ElmCC
import Verif.Lemmas.BasisFuncCC
import Verif.Lemmas.Calculus
import Verif.Spec.Trig

/-! # Refinement of the `Hint`s of the Fourier and ELM classes -/

namespace Verif

open Verif.Mem Verif.Model.CC Verif.Spec

/-! ## FS -/

/-- What `FS::Hint` computes. -/
noncomputable def fsD (d : ℕ) (z : ℝ) (j : ℕ) : ℝ :=
  if j = 0 then (if d = 0 then 1 else 0)
  else
    let g : ℝ := ((j + 1) / 2 : ℕ)
    if j % 2 = 0 then
      g ^ d * (if d % 4 = 0 then Real.cos (g * z) else if d % 4 = 1 then -Real.sin (g * z)
        else if d % 4 = 2 then -Real.cos (g * z) else Real.sin (g * z))
    else
      g ^ d * (if d % 4 = 0 then Real.sin (g * z) else if d % 4 = 1 then Real.cos (g * z)
        else if d % 4 = 2 then -Real.sin (g * z) else -Real.cos (g * z))

section
variable {K : Type} [Zero K] [One K] [Add K] [Sub K] [Mul K] [Div K] [Neg K] [NatCast K] [Pow K ℕ] [Libm K]

/-- The operations `FS::Hint` and `FS._Hint` carry out. -/
def fsOp (d : ℕ) (z : K) (j : ℕ) : K :=
  if j = 0 then (if d = 0 then 1 else 0)
  else
    let g : K := (((j + 1) / 2 : ℕ) : K)
    if d = 0 then (if j % 2 = 0 then Libm.cos (g * z) else Libm.sin (g * z))
    else if d % 4 = 0 then (if j % 2 = 0 then g ^ d * Libm.cos (g * z) else g ^ d * Libm.sin (g * z))
    else if d % 4 = 1 then (if j % 2 = 0 then -g ^ d * Libm.sin (g * z) else g ^ d * Libm.cos (g * z))
    else if d % 4 = 2 then (if j % 2 = 0 then -g ^ d * Libm.cos (g * z) else -g ^ d * Libm.sin (g * z))
    else (if j % 2 = 0 then g ^ d * Libm.sin (g * z) else -g ^ d * Libm.cos (g * z))

theorem fs_fill_spec {m n : ℕ} {x dark : Buf K} {xs : ℕ → K} (hm : 1 ≤ m)
    (hx : ∀ j < n, x.read j = .ok (xs j)) (even odd : ℕ → K → K) {v0 : K} {M : ℕ → ℕ → Option K}
    (hd : View dark n m M) (h0 : ∀ j < n, M j 0 = some v0) :
    Runs (FS.fill m x n even odd dark) (fun b => View b n m (fun r j => some (
      if j = 0 then v0 else if j % 2 = 0 then even ((j + 1) / 2) (xs r) else odd ((j + 1) / 2) (xs r)))) := by
  unfold FS.fill
  refine (hd.fillCols (lo := 1) (hi := m) (fun r j => if j % 2 = 0 then even ((j + 1) / 2) (xs r)
    else odd ((j + 1) / 2) (xs r)) hm ?_).mono fun b hb => hb.congr ?_
  · intro k _ hk b' hb'
    refine (hb'.fillCol hk (fun r => if k % 2 = 0 then even ((k + 1) / 2) (xs r)
      else odd ((k + 1) / 2) (xs r)) ?_).mono fun b'' hb'' => hb''.congr ?_
    · intro j hj b'' M'' _ _
      rw [hx j hj, ok_bind]
      split <;> rfl
    · intro r _ c _
      by_cases hc : c = k
      · subst hc; simp
      · simp [hc]
  · intro r hr c hc
    by_cases h : c = 0
    · subst h; simp [h0 r hr]
    · have : 1 ≤ c ∧ c < m := by omega
      simp [h, this]

theorem fs_col0 {m n : ℕ} {dark : Buf K} {M : ℕ → ℕ → Option K} (hm : 1 ≤ m) (hd : View dark n m M) (v : K) :
    Runs (loop 0 n (fun k dark => dark.write (m * k) v) dark)
      (fun b => View b n m (fun r c => if c = 0 then some v else M r c)) := by
  refine (hd.fillCol (k := 0) (by omega) (fun _ => v) ?_)
  intro j _ b' M' _ _
  simp

theorem fsOp_hintSpec {m : ℕ} (hm : 1 ≤ m) (d : ℕ) : HintSpec (FS.hint (K := K)) m d (fsOp d) := by
  intro n z zs dark M hz hd
  unfold FS.hint
  by_cases h0 : d = 0
  · subst h0
    rw [if_pos rfl]
    refine (fs_col0 hm hd 1).bind fun b hb => ?_
    refine (fs_fill_spec hm hz _ _ hb (v0 := 1) (by simp)).mono fun b hb => hb.congr ?_
    intro r _ c _
    simp [fsOp]
  · rw [if_neg h0]
    refine (fs_col0 hm hd 0).bind fun b hb => ?_
    split_ifs with h1 h2 h3
    all_goals
      refine (fs_fill_spec hm hz _ _ hb (v0 := 0) (by simp)).mono fun b hb => hb.congr ?_
      intro r _ c _
      simp only [fsOp, h0, if_false]
      simp only [*]
      by_cases hc : c = 0
      · simp [hc]
      · by_cases hc2 : c % 2 = 0 <;> simp [hc, hc2]

end

theorem fsOp_real (d : ℕ) (z : ℝ) (j : ℕ) : fsOp d z j = fsD d z j := by
  have hs : (Libm.sin : ℝ → ℝ) = Real.sin := rfl
  have hc : (Libm.cos : ℝ → ℝ) = Real.cos := rfl
  unfold fsOp fsD
  rw [hs, hc]
  by_cases hj : j = 0
  · simp [hj]
  by_cases h0 : d = 0
  · subst h0
    simp [hj]
  simp only [hj, h0, if_false]
  split_ifs <;> ring

theorem fs_hintSpec {m : ℕ} (hm : 1 ≤ m) (d : ℕ) : HintSpec FS.hint m d (fsD d) := by
  have h : fsOp d = fsD d := by
    funext z j
    exact fsOp_real d z j
  rw [← h]
  exact fsOp_hintSpec hm d

theorem fsD_hasDeriv (d j : ℕ) (t : ℝ) : HasDerivAt (fun t => fsD d t j) (fsD (d + 1) t j) t := by
  by_cases hj : j = 0
  · subst hj
    simp only [fsD]
    simpa using hasDerivAt_const t _
  · have key : ∀ g : ℝ, HasDerivAt (fun t => Real.cos (g * t)) (-Real.sin (g * t) * g) t ∧
        HasDerivAt (fun t => Real.sin (g * t)) (Real.cos (g * t) * g) t := by
      intro g
      have h1 : HasDerivAt (fun t => g * t) g t := by
        simpa using (hasDerivAt_id t).const_mul g
      exact ⟨h1.cos, h1.sin⟩
    obtain ⟨hc, hs⟩ := key (((j + 1) / 2 : ℕ) : ℝ)
    have h4 : d % 4 = 0 ∨ d % 4 = 1 ∨ d % 4 = 2 ∨ d % 4 = 3 := by omega
    simp only [fsD, hj, if_false]
    by_cases hj2 : j % 2 = 0
    · simp only [hj2, if_true]
      rcases h4 with h | h | h | h
      · have h' : (d + 1) % 4 = 1 := by omega
        simp only [h, h']
        exact (hc.const_mul _).congr_deriv (by simp; ring)
      · have h' : (d + 1) % 4 = 2 := by omega
        simp only [h, h']
        exact (hs.neg.const_mul _).congr_deriv (by simp; ring)
      · have h' : (d + 1) % 4 = 3 := by omega
        simp only [h, h']
        exact (hc.neg.const_mul _).congr_deriv (by simp; ring)
      · have h' : (d + 1) % 4 = 0 := by omega
        simp only [h, h']
        exact (hs.const_mul _).congr_deriv (by simp; ring)
    · simp only [hj2, if_false]
      rcases h4 with h | h | h | h
      · have h' : (d + 1) % 4 = 1 := by omega
        simp only [h, h']
        exact (hs.const_mul _).congr_deriv (by simp; ring)
      · have h' : (d + 1) % 4 = 2 := by omega
        simp only [h, h']
        exact (hc.const_mul _).congr_deriv (by simp; ring)
      · have h' : (d + 1) % 4 = 3 := by omega
        simp only [h, h']
        exact (hs.neg.const_mul _).congr_deriv (by simp; ring)
      · have h' : (d + 1) % 4 = 0 := by omega
        simp only [h, h']
        exact (hc.neg.const_mul _).congr_deriv (by simp; ring)

theorem fsD_zero (z : ℝ) (j : ℕ) : fsD 0 z j = fourier j z := by
  unfold fsD fourier
  by_cases hj : j = 0
  · simp [hj]
  · by_cases h : j % 2 = 0
    · have h' : ¬ j % 2 = 1 := by omega
      have e : (j + 1) / 2 = j / 2 := by omega
      simp [hj, h, e]
    · have h' : j % 2 = 1 := by omega
      simp [hj, h']

/-! ## ELM -/

section
variable {K : Type} [Zero K] [One K] [Add K] [Sub K] [Mul K] [Div K] [Neg K] [NatCast K] [Pow K ℕ] [Libm K] [LibmExp K] [Max K] [LE K] [DecidableLE K]

omit [Zero K] [One K] [Add K] [Sub K] [Mul K] [Div K] [Neg K] [NatCast K] [Pow K ℕ] [Libm K] [LibmExp K] [Max K] [LE K] [DecidableLE K] in
theorem cells_spec {n m : ℕ} {f : ℕ → ℕ → Buf K → Except Fault K} {dark : Buf K}
    {M : ℕ → ℕ → Option K} (v : ℕ → ℕ → K) (hd : View dark n m M)
    (hf : ∀ j < n, ∀ k < m, ∀ D M', View D n m M' → M' j k = M j k → f j k D = .ok (v j k)) :
    Runs (cells n m f dark) (fun b => View b n m (fun j k => some (v j k))) := by
  unfold cells
  refine (loop_spec (fun r b => View b n m (fun j k => if j < r then some (v j k) else M j k))
    (Nat.zero_le _) (hd.congr (by simp)) ?_).mono fun b hb => hb.congr (by intro j hj c _; simp [hj])
  intro j b _ hj hb
  refine (loop_spec (fun r b => View b n m (fun j' k => if j' < j ∨ (j' = j ∧ k < r) then some (v j' k)
    else M j' k)) (Nat.zero_le _) (hb.congr (by simp)) ?_).mono fun b hb => hb.congr ?_
  · intro k b _ hk hb
    rw [hf j hj k hk b _ hb (by simp), ok_bind]
    refine (hb.write hj hk (v j k)).mono fun b' hb' => hb'.congr ?_
    intro j' _ k' _
    by_cases h : j' = j ∧ k' = k
    · obtain ⟨rfl, rfl⟩ := h; simp
    · rw [if_neg h]
      have : (j' < j ∨ j' = j ∧ k' < k + 1) ↔ (j' < j ∨ j' = j ∧ k' < k) := by omega
      simp only [this]
  · intro j' _ k hk
    have : (j' < j ∨ j' = j ∧ k < m) ↔ j' < j + 1 := by omega
    simp only [this]

/-- What the ELM `Hint`s compute, operation by operation. -/
def elmOp (a : Activation) (d : ℕ) (w b z : K) : K :=
  match a with
  | .relu => if d = 0 then max 0 (w * z + b) else if d = 1 then (if w * z + b ≤ 0 then 0 else w) else 0
  | .sigmoid => match ELMSigmoid.switch d with
    | none => 1 / (1 + LibmExp.exp (-w * z - b))
    | some f => f w (1 / (1 + LibmExp.exp (-w * z - b)))
  | .tanh => match ELMTanh.switch d with
    | none => LibmExp.tanh (w * z + b)
    | some f => f w (LibmExp.tanh (w * z + b))
  | .sin => if d % 4 = 0 then w ^ d * Libm.sin (w * z + b) else if d % 4 = 1 then w ^ d * Libm.cos (w * z + b)
      else if d % 4 = 2 then -w ^ d * Libm.sin (w * z + b) else -w ^ d * Libm.cos (w * z + b)
  | .swish => if d = 0 then (w * z + b) * 1 / (1 + LibmExp.exp (-w * z - b)) else match ELMSwish.switch d with
    | none => 0
    | some f => f w (1 / (1 + LibmExp.exp (-(w * z + b)))) (w * z + b)

theorem elmOp_hintSpec (a : Activation) {w b : Buf K} {ws bs : ℕ → K} {m : ℕ}
    (hw : ∀ k < m, w.read k = .ok (ws k)) (hb : ∀ k < m, b.read k = .ok (bs k)) (d : ℕ)
    (hd : a = .swish → d ≤ 8) :
    HintSpec (elmHint a w b) m d (fun z k => elmOp a d (ws k) (bs k) z) := by
  intro n z zs dark M hz hdark
  cases a with
  | relu =>
    simp only [elmHint, ELMReLU.hint, elmOp]
    split_ifs with h0 h1
    · refine cells_spec _ hdark ?_
      intro j hj k hk D M' _ _
      simp only [hw k hk, hb k hk, hz j hj, ok_bind]
    · refine cells_spec _ hdark ?_
      intro j hj k hk D M' _ _
      simp only [hw k hk, hb k hk, hz j hj, ok_bind]
      split <;> rfl
    · refine cells_spec _ hdark ?_
      intro j hj k hk D M' _ _
      rfl
  | sigmoid =>
    simp only [elmHint, ELMSigmoid.hint, elmOp]
    refine (cells_spec (fun j k => 1 / (1 + LibmExp.exp (-ws k * zs j - bs k))) hdark ?_).bind fun D hD => ?_
    · intro j hj k hk D M' _ _
      simp only [hw k hk, hb k hk, hz j hj, ok_bind]
    · cases ELMSigmoid.switch (K := K) d with
      | none => exact Runs.ok hD
      | some f =>
        refine cells_spec _ hD ?_
        intro j hj k hk D M' hv hM
        rw [hw k hk, hv.read hj hk hM]
        rfl
  | tanh =>
    simp only [elmHint, ELMTanh.hint, elmOp]
    refine (cells_spec (fun j k => LibmExp.tanh (ws k * zs j + bs k)) hdark ?_).bind fun D hD => ?_
    · intro j hj k hk D M' _ _
      simp only [hw k hk, hb k hk, hz j hj, ok_bind]
    · cases ELMTanh.switch (K := K) d with
      | none => exact Runs.ok hD
      | some f =>
        refine cells_spec _ hD ?_
        intro j hj k hk D M' hv hM
        rw [hw k hk, hv.read hj hk hM]
        rfl
  | sin =>
    simp only [elmHint, ELMSin.hint, elmOp]
    split_ifs with h0 h1 h2
    all_goals
      refine cells_spec _ hdark ?_
      intro j hj k hk D M' _ _
      simp only [hw k hk, hb k hk, hz j hj, ok_bind]
  | swish =>
    simp only [elmHint, ELMSwish.hint, elmOp]
    have hd8 := hd rfl
    by_cases h0 : d = 0
    · subst h0
      rw [if_pos rfl]
      simp only [if_true]
      refine cells_spec _ hdark ?_
      intro j hj k hk D M' _ _
      simp only [hw k hk, hb k hk, hz j hj, ok_bind]
    · rw [if_neg h0]
      simp only [if_neg h0]
      refine (cells_spec (fun j k => ws k * zs j + bs k) (View.alloc n m) ?_).bind fun zi hzi => ?_
      · intro j hj k hk D M' _ _
        simp only [hw k hk, hb k hk, hz j hj, ok_bind]
      refine (cells_spec (fun j k => 1 / (1 + LibmExp.exp (-(ws k * zs j + bs k)))) (View.alloc n m) ?_).bind fun si hsi => ?_
      · intro j hj k hk D M' _ _
        rw [hzi.read hj hk rfl, ok_bind]
      have hs : ∃ f, ELMSwish.switch (K := K) d = some f := by
        interval_cases d
        · exact absurd rfl h0
        all_goals exact ⟨_, rfl⟩
      obtain ⟨f, hf⟩ := hs
      rw [hf]
      refine cells_spec _ hdark ?_
      intro j hj k hk D M' _ _
      simp only [hw k hk, hsi.read hj hk rfl, hzi.read hj hk rfl, ok_bind]

end

/-- What the ELM `Hint`s compute. -/
noncomputable def elmD (a : Activation) (d : ℕ) (w b z : ℝ) : ℝ :=
  match a with
  | .relu => if d = 0 then relu (w * z + b) else if d = 1 then (if w * z + b ≤ 0 then 0 else w) else 0
  | .sigmoid => match ELMSigmoid.switch d with
    | none => sigmoid (w * z + b)
    | some f => f w (sigmoid (w * z + b))
  | .tanh => match ELMTanh.switch d with
    | none => Real.tanh (w * z + b)
    | some f => f w (Real.tanh (w * z + b))
  | .sin => w ^ d * (if d % 4 = 0 then Real.sin (w * z + b) else if d % 4 = 1 then Real.cos (w * z + b)
      else if d % 4 = 2 then -Real.sin (w * z + b) else -Real.cos (w * z + b))
  | .swish => match ELMSwish.switch d with
    | none => swish (w * z + b)
    | some f => f w (sigmoid (w * z + b)) (w * z + b)

theorem sigmoid_form (w x b : ℝ) : 1 / (1 + Real.exp (-w * x - b)) = sigmoid (w * x + b) := by
  unfold sigmoid; ring_nf

theorem elmOp_real (a : Activation) (d : ℕ) (hd : a = .swish → d ≤ 8) (w b z : ℝ) : elmOp a d w b z = elmD a d w b z := by
  cases a with
  | relu => rfl
  | sigmoid =>
    simp only [elmOp, elmD, LibmExp.exp_real, sigmoid_form]
    cases ELMSigmoid.switch (K := ℝ) d <;> rfl
  | tanh =>
    simp only [elmOp, elmD, LibmExp.tanh_real]
    cases ELMTanh.switch (K := ℝ) d <;> rfl
  | sin =>
    simp only [elmOp, elmD, Libm.sin_real, Libm.cos_real]
    split_ifs <;> ring
  | swish =>
    have hd8 := hd rfl
    by_cases h0 : d = 0
    · subst h0
      simp only [elmOp, elmD, if_true, ELMSwish.switch, swish, LibmExp.exp_real]
      rw [mul_div_assoc, sigmoid_form]
    · simp only [elmOp, elmD, if_neg h0, LibmExp.exp_real]
      have hs : ∃ f, ELMSwish.switch (K := ℝ) d = some f := by
        interval_cases d
        · exact absurd rfl h0
        all_goals exact ⟨_, rfl⟩
      obtain ⟨f, hf⟩ := hs
      rw [hf]
      rfl

theorem elm_hintSpec (a : Activation) {w b : Buf ℝ} {ws bs : ℕ → ℝ} {m : ℕ}
    (hw : ∀ k < m, w.read k = .ok (ws k)) (hb : ∀ k < m, b.read k = .ok (bs k)) (d : ℕ)
    (hd : a = .swish → d ≤ 8) :
    HintSpec (elmHint a w b) m d (fun z k => elmD a d (ws k) (bs k) z) := by
  have h := elmOp_hintSpec a hw hb d hd
  have e : (fun (z : ℝ) (k : ℕ) => elmOp a d (ws k) (bs k) z) = fun z k => elmD a d (ws k) (bs k) z := by
    funext z k
    exact elmOp_real a d hd _ _ _
  rwa [e] at h

end Verif
