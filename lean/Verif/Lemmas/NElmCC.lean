import Verif.Model.NElmCC
import Verif.Lemmas.NBasisCC
import Verif.Lemmas.MultiAffine

/-! # Refinement of the compiled n-dimensional ELM classes -/

set_option linter.unusedSimpArgs false

namespace Verif

open Verif.Mem Verif.Model.CC Verif.Spec

/-- What an `nElmHint` computes in one cell: total order `D`, factor `A` (powers of the weights and scalings), argument
`t`. -/
noncomputable def nelmV (a : Activation) (D : ℕ) (A t : ℝ) : ℝ :=
  match a with
  | .relu => A * reluG D t
  | .sigmoid => match nELMSigmoid.switch D with
    | none => sigmoid t
    | some f => A * f (sigmoid t)
  | .tanh => match nELMTanh.switch D with
    | none => Real.tanh t
    | some f => A * f (Real.tanh t)
  | .sin => A * sinG D t
  | .swish => match nELMSwish.switch D with
    | none => swish t
    | some f => A * f (sigmoid t) t

theorem nelmV_eq (a : Activation) {D : ℕ} (hD : orderOk a D) {A : ℝ} (hA : D = 0 → A = 1) (t : ℝ) :
    nelmV a D A t = A * actG a D t := by
  cases a with
  | relu => rfl
  | sin => rfl
  | sigmoid =>
    have hD : D ≤ 8 := hD
    interval_cases D
    · simp [nelmV, nELMSigmoid.switch, actG, odeP, hA rfl]
    all_goals simp [nelmV, nELMSigmoid.switch, actG, sigP1, sigP2, sigP3, sigP4, sigP5, sigP6, sigP7, sigP8]
  | tanh =>
    have hD : D ≤ 8 := hD
    interval_cases D
    · simp [nelmV, nELMTanh.switch, actG, odeP, hA rfl]
    all_goals simp [nelmV, nELMTanh.switch, actG, tanhP1, tanhP2, tanhP3, tanhP4, tanhP5, tanhP6, tanhP7, tanhP8]
  | swish =>
    have hD : D ≤ 8 := hD
    interval_cases D
    · simp [nelmV, nELMSwish.switch, actG, swishG, swish, odeP, hA rfl]
    · simp [nelmV, nELMSwish.switch, actG, swishG, sigP1, odeP]; left; ring
    all_goals
      simp [nelmV, nELMSwish.switch, actG, swishG, sigP1, sigP2, sigP3, sigP4, sigP5, sigP6, sigP7, sigP8]; left; ring

section
variable {K : Type} [Zero K] [One K] [Add K] [Sub K] [Mul K] [Div K] [Neg K] [NatCast K] [Pow K ℕ] [Libm K] [LibmExp K] [Max K] [DecidableEq K]

/-- `s = 1.; for i < q: s *= g(i)`. -/
def accProd (g : ℕ → K) : ℕ → K
  | 0 => 1
  | i + 1 => accProd g i * g i

/-- `s = 0.; for i < q: s += g(i)`. -/
def accSum (g : ℕ → K) : ℕ → K
  | 0 => 0
  | i + 1 => accSum g i + g i

/-- What an `nElmHint` computes in one cell, operation by operation: total order `D`, `sl` the slope for ReLU, `c2` the powers of the scalings, `wp` the
powers of the weights, `s` the sum of the weighted points, `b` the bias. -/
def nelmOp (a : Activation) (D : ℕ) (sl c2 wp s b : K) : K :=
  match a with
  | .relu => if D = 0 then max 0 (s + b) else if D = 1 then (if max 0 (s + b) ≠ 0 then sl else max 0 (s + b)) else 0
  | .sigmoid => match nELMSigmoid.switch D with
    | none => 1 / (1 + LibmExp.exp (-s - b))
    | some f => c2 * wp * f (1 / (1 + LibmExp.exp (-s - b)))
  | .tanh => match nELMTanh.switch D with
    | none => LibmExp.tanh (s + b)
    | some f => c2 * wp * f (LibmExp.tanh (s + b))
  | .sin => if D % 4 = 0 then c2 * wp * Libm.sin (s + b) else if D % 4 = 1 then c2 * wp * Libm.cos (s + b)
      else if D % 4 = 2 then -c2 * wp * Libm.sin (s + b) else -c2 * wp * Libm.cos (s + b)
  | .swish => if D = 0 then (s + b) * 1 / (1 + LibmExp.exp (-s - b)) else match nELMSwish.switch D with
    | none => 0
    | some f => c2 * wp * f (1 / (1 + LibmExp.exp (-(s + b)))) (s + b)

omit [One K] [Add K] [Sub K] [Mul K] [Div K] [Neg K] [NatCast K] [Pow K ℕ] [Libm K] [LibmExp K] [Max K] [DecidableEq K] in
/-- The object `e` holds the given data. -/
structure EGood (e : NElm K) (a : Activation) (dim m : ℕ) (x0s cs : ℕ → K) (ws : ℕ → ℕ → K) (bs : ℕ → K) : Prop where
  act_ : e.act = a
  dim_ : e.dim = dim
  m_ : e.m = m
  z0_ : e.z0 = 0
  x0_ : ∀ l < dim, e.x0.read l = .ok (x0s l)
  c_ : ∀ l < dim, e.c.read l = .ok (cs l)
  w_ : ∀ l < dim, ∀ k < m, e.w.read (l * m + k) = .ok (ws l k)
  b_ : ∀ k < m, e.b.read k = .ok (bs k)

variable {e : NElm K} {a : Activation} {dim m : ℕ} {x0s cs : ℕ → K} {ws : ℕ → ℕ → K} {bs : ℕ → K}

theorem orders_op (h : EGood e a dim m x0s cs ws bs) {d : Buf ℕ} {q : ℕ} {ds : ℕ → ℕ}
    (hd : ∀ i < q, d.read i = .ok (ds i)) (hq : q ≤ dim) :
    e.orders d q = .ok (∑ i ∈ Finset.range q, ds i, accProd (fun i => cs i ^ ds i) q) := by
  have : Runs (e.orders d q) (fun s => s = (∑ i ∈ Finset.range q, ds i, accProd (fun i => cs i ^ ds i) q)) := by
    unfold NElm.orders
    refine loop_spec (fun i (s : ℕ × K) => s = (∑ i ∈ Finset.range i, ds i, accProd (fun i => cs i ^ ds i) i))
      (Nat.zero_le _) (by simp [accProd]) ?_
    rintro i s _ hi rfl
    rw [hd i hi, ok_bind, h.c_ i (by omega), ok_bind]
    refine Runs.ok ?_
    rw [Finset.sum_range_succ]
    rfl
  obtain ⟨s, hs, rfl⟩ := this
  exact hs

theorem wPow_op (h : EGood e a dim m x0s cs ws bs) {d : Buf ℕ} {q : ℕ} {ds : ℕ → ℕ}
    (hd : ∀ i < q, d.read i = .ok (ds i)) (hq : q ≤ dim) {k : ℕ} (hk : k < m) :
    e.wPow d q k = .ok (accProd (fun i => ws i k ^ ds i) q) := by
  have : Runs (e.wPow d q k) (fun s => s = accProd (fun i => ws i k ^ ds i) q) := by
    unfold NElm.wPow
    refine loop_spec (fun i s => s = accProd (fun i => ws i k ^ ds i) i) (Nat.zero_le _) rfl ?_
    rintro i s _ hi rfl
    rw [h.m_, h.w_ i (by omega) k hk, ok_bind, hd i hi, ok_bind]
    exact Runs.ok rfl
  obtain ⟨s, hs, rfl⟩ := this
  exact hs

theorem dot_op (h : EGood e a dim m x0s cs ws bs) {x : Buf K} {n : ℕ} {zs : ℕ → ℕ → K}
    (hx : View x dim n (fun l k => some (zs l k))) {j k : ℕ} (hj : j < n) (hk : k < m) :
    e.dot x n j k = .ok (accSum (fun i => ws i k * zs i j) dim) := by
  have : Runs (e.dot x n j k) (fun s => s = accSum (fun i => ws i k * zs i j) dim) := by
    unfold NElm.dot
    rw [h.dim_]
    refine loop_spec (fun i s => s = accSum (fun i => ws i k * zs i j) i) (Nat.zero_le _) rfl ?_
    rintro i s _ hi rfl
    rw [h.m_, h.w_ i (by omega) k hk, ok_bind, Nat.mul_comm i n, hx.read hi hj rfl, ok_bind]
    exact Runs.ok rfl
  obtain ⟨s, hs, rfl⟩ := this
  exact hs

/-- What the scan of the orders by `nELMReLU::nElmHint` finds. -/
theorem scan_spec (h : EGood e a dim m x0s cs ws bs) {d : Buf ℕ} {q : ℕ} {ds : ℕ → ℕ}
    (hd : ∀ i < q, d.read i = .ok (ds i)) (hq : q ≤ dim) :
    Runs (nELMReLU.scan e d q) (fun s =>
      (s.2 = true ∧ 2 ≤ ∑ i ∈ Finset.range q, ds i ∧ ∀ p c, s.1 = some (p, c) → p < dim) ∨
      (s = (none, false) ∧ ∑ i ∈ Finset.range q, ds i = 0) ∨
      (∃ p < q, s = (some (p, cs p), false) ∧ ∑ i ∈ Finset.range q, ds i = 1 ∧ ds p = 1)) := by
  unfold nELMReLU.scan
  refine loop_spec (fun q (s : Option (ℕ × K) × Bool) =>
      (s.2 = true ∧ 2 ≤ ∑ i ∈ Finset.range q, ds i ∧ ∀ p c, s.1 = some (p, c) → p < dim) ∨
      (s = (none, false) ∧ ∑ i ∈ Finset.range q, ds i = 0) ∨
      (∃ p < q, s = (some (p, cs p), false) ∧ ∑ i ∈ Finset.range q, ds i = 1 ∧ ds p = 1))
    (Nat.zero_le _) (by simp) ?_
  rintro i s _ hi (⟨h1, h2, h3⟩ | ⟨rfl, h2⟩ | ⟨p, hp, rfl, h2, h3⟩)
  · rw [if_pos h1]
    refine Runs.ok (Or.inl ⟨h1, ?_, h3⟩)
    rw [Finset.sum_range_succ]; omega
  · simp only [Bool.false_eq_true, if_false, Option.isSome_none, and_false, or_false]
    rw [hd i hi, ok_bind]
    split_ifs with g1 g2
    · refine Runs.ok (Or.inl ⟨rfl, ?_, by simp⟩)
      rw [Finset.sum_range_succ]; omega
    · rw [h.c_ i (by omega), ok_bind]
      refine Runs.ok (Or.inr (Or.inr ⟨i, by omega, rfl, ?_, g2⟩))
      rw [Finset.sum_range_succ]; omega
    · refine Runs.ok (Or.inr (Or.inl ⟨rfl, ?_⟩))
      rw [Finset.sum_range_succ]; omega
  · simp only [Bool.false_eq_true, if_false, Option.isSome_some, and_true]
    rw [hd i hi, ok_bind]
    split_ifs with g1 g2
    · refine Runs.ok (Or.inl ⟨rfl, ?_, ?_⟩)
      · rw [Finset.sum_range_succ]; omega
      · intro p' c hpc
        simp only [Option.some.injEq, Prod.mk.injEq] at hpc
        omega
    · exact absurd (Or.inr g2) g1
    · refine Runs.ok (Or.inr (Or.inr ⟨p, by omega, rfl, ?_, h3⟩))
      rw [Finset.sum_range_succ]; omega

/-- The contract of `nElmHint`, operation by operation; `p` is the position of the only derivative of total order 1. -/
theorem elmHint_op (h : EGood e a dim m x0s cs ws bs) {d : Buf ℕ} {q : ℕ} {ds : ℕ → ℕ}
    (hd : ∀ i < q, d.read i = .ok (ds i)) (hq : q ≤ dim) {x : Buf K} {n : ℕ} {zs : ℕ → ℕ → K}
    (hx : View x dim n (fun l k => some (zs l k))) (hsw : a = .swish → ∑ i ∈ Finset.range q, ds i ≤ 8)
    {p : ℕ} (hp : ∑ i ∈ Finset.range q, ds i = 1 → p < q ∧ ds p = 1)
    {F : Buf K} {M : ℕ → ℕ → Option K} (hF : View F n m M) :
    Runs (e.elmHint d q x n F) (fun b => View b n m (fun j k => some (nelmOp a (∑ i ∈ Finset.range q, ds i) (cs p * ws p k)
      (accProd (fun i => cs i ^ ds i) q) (accProd (fun i => ws i k ^ ds i) q) (accSum (fun i => ws i k * zs i j) dim) (bs k)))) := by
  have hm := h.m_
  unfold NElm.elmHint
  rw [h.act_]
  cases a with
  | sigmoid =>
    simp only [nELMSigmoid.hint, nelmOp, hm]
    refine (cells_spec (fun j k => 1 / (1 + LibmExp.exp (-accSum (fun i => ws i k * zs i j) dim - bs k))) hF ?_).bind fun D hD => ?_
    · intro j hj k hk D M' _ _
      rw [dot_op h hx hj hk, ok_bind, h.b_ k hk, ok_bind]
    · rw [orders_op h hd hq, ok_bind]
      cases nELMSigmoid.switch (K := K) (∑ i ∈ Finset.range q, ds i) with
      | none => exact Runs.ok hD
      | some f =>
        refine cells_spec _ hD ?_
        intro j hj k hk D M' hv hM
        rw [wPow_op h hd hq hk, ok_bind, hv.read hj hk hM]
        rfl
  | tanh =>
    simp only [nELMTanh.hint, nelmOp, hm]
    refine (cells_spec (fun j k => LibmExp.tanh (accSum (fun i => ws i k * zs i j) dim + bs k)) hF ?_).bind fun D hD => ?_
    · intro j hj k hk D M' _ _
      rw [dot_op h hx hj hk, ok_bind, h.b_ k hk, ok_bind]
    · rw [orders_op h hd hq, ok_bind]
      cases nELMTanh.switch (K := K) (∑ i ∈ Finset.range q, ds i) with
      | none => exact Runs.ok hD
      | some f =>
        refine cells_spec _ hD ?_
        intro j hj k hk D M' hv hM
        rw [wPow_op h hd hq hk, ok_bind, hv.read hj hk hM]
        rfl
  | sin =>
    simp only [nELMSin.hint, nelmOp, hm]
    rw [orders_op h hd hq, ok_bind]
    simp only
    split_ifs with h0 h1 h2
    all_goals
      refine cells_spec _ hF ?_
      intro j hj k hk D M' _ _
      rw [wPow_op h hd hq hk, ok_bind, dot_op h hx hj hk, ok_bind, h.b_ k hk, ok_bind]
  | swish =>
    simp only [nELMSwish.hint, nelmOp, hm]
    rw [orders_op h hd hq, ok_bind]
    simp only
    have hd8 := hsw rfl
    generalize hS : (∑ i ∈ Finset.range q, ds i) = S at hd8
    by_cases h0 : S = 0
    · subst h0
      simp only [if_true]
      refine cells_spec _ hF ?_
      intro j hj k hk D M' _ _
      rw [dot_op h hx hj hk, ok_bind, h.b_ k hk, ok_bind]
    · simp only [if_neg h0]
      refine (cells_spec (fun j k => accSum (fun i => ws i k * zs i j) dim + bs k) (View.alloc n m) ?_).bind
        fun zi hzi => ?_
      · intro j hj k hk D M' _ _
        rw [dot_op h hx hj hk, ok_bind, h.b_ k hk, ok_bind]
      refine (cells_spec (fun j k => 1 / (1 + LibmExp.exp (-(accSum (fun i => ws i k * zs i j) dim + bs k)))) (View.alloc n m) ?_).bind
        fun si hsi => ?_
      · intro j hj k hk D M' _ _
        rw [hzi.read hj hk rfl, ok_bind]
      have hs : ∃ f, nELMSwish.switch (K := K) S = some f := by
        clear hS
        interval_cases S
        · exact absurd rfl h0
        all_goals exact ⟨_, rfl⟩
      obtain ⟨f, hf⟩ := hs
      rw [hf]
      refine cells_spec _ hF ?_
      intro j hj k hk D M' _ _
      rw [wPow_op h hd hq hk, ok_bind, hsi.read hj hk rfl, ok_bind, hzi.read hj hk rfl, ok_bind]
  | relu =>
    simp only [nELMReLU.hint, nelmOp]
    refine (scan_spec h hd hq).bind fun s hs => ?_
    obtain ⟨hh, zf⟩ := s
    have hval : Runs (nELMReLU.value e false x n F) (fun b => View b n m (fun j k =>
        some (max 0 (accSum (fun i => ws i k * zs i j) dim + bs k)))) := by
      unfold nELMReLU.value
      rw [if_neg (by simp), hm]
      refine cells_spec _ hF ?_
      intro j hj k hk D M' _ _
      rw [dot_op h hx hj hk, ok_bind, h.b_ k hk, ok_bind]
    rcases hs with ⟨h1, h2, h3⟩ | ⟨h1, h2⟩ | ⟨p', hp', h1, h2, h3⟩
    · simp only at h1 h3
      subst h1
      simp only [if_neg (show ¬ ∑ i ∈ Finset.range q, ds i = 0 by omega), if_neg (show ¬ ∑ i ∈ Finset.range q, ds i = 1 by omega)]
      have hval : Runs (nELMReLU.value e true x n F) (fun b => View b n m (fun j k => some 0)) := by
        unfold nELMReLU.value
        rw [if_pos rfl, hm]
        exact cells_spec (fun _ _ => 0) hF (fun _ _ _ _ _ _ _ _ => rfl)
      refine hval.bind fun D hD => ?_
      unfold nELMReLU.slope
      cases hh with
      | none => exact Runs.ok hD
      | some pc =>
        obtain ⟨p, c⟩ := pc
        simp only [hm]
        refine cells_spec _ hD ?_
        intro j hj k hk D' M' hv hM
        rw [hv.read hj hk hM, ok_bind]
        simp
    · cases h1
      simp only [h2, if_true]
      exact hval.bind fun D hD => Runs.ok hD
    · cases h1
      have hpp : p' = p := by
        obtain ⟨g1, g2⟩ := hp h2
        by_contra hne
        have := Finset.sum_le_sum_of_subset (f := ds) (show {p', p} ⊆ Finset.range q by
          intro i hi
          rcases Finset.mem_insert.1 hi with rfl | hi
          · exact Finset.mem_range.2 hp'
          · rw [Finset.mem_singleton.1 hi]
            exact Finset.mem_range.2 g1)
        rw [Finset.sum_pair hne] at this
        omega
      subst hpp
      simp only [h2, if_neg one_ne_zero, if_true]
      refine hval.bind fun D hD => ?_
      unfold nELMReLU.slope
      simp only [hm]
      refine cells_spec _ hD ?_
      intro j hj k hk D' M' hv hM
      rw [hv.read hj hk hM, ok_bind, h.w_ p' (by omega) k hk, ok_bind]
      split <;> rfl

end

/-- The columns `nELM` keeps. -/
theorem copyN_spec {K : Type} (e : NElm K) {n numBasis : ℕ} {dark F : Buf K} {V : ℕ → ℕ → K} {M : ℕ → ℕ → Option K}
    (hC : e.numC = e.nC.length) (hd : View dark n e.m (fun j c => some (V j c))) (hF : View F n numBasis M)
    (hlen : (keptColumns e.m e.nC).length ≤ numBasis) :
    Runs (loop 0 e.m (fun j (s : ℕ × Buf K) =>
      if e.removed j then .ok s
      else do
        let i := s.1
        let F ← loop 0 n (fun k F => do
          let v ← dark.read (e.m * k + j)
          F.write (numBasis * k + i) v) s.2
        .ok (i + 1, F)) (0, F)) (fun s => View s.2 n numBasis (fun r i =>
          ((keptColumns e.m e.nC)[i]?).elim (M r i) (fun j => some (V r j)))) := by
  have hrem : ∀ j : ℕ, e.removed j = true ↔ (j : ℤ) ∈ e.nC := by
    intro j
    simp [NElm.removed, hC]
  refine (loop_spec (fun j (s : ℕ × Buf K) => s.1 = (keptColumns j e.nC).length ∧
      View s.2 n numBasis (fun r i =>
        ((keptColumns j e.nC)[i]?).elim (M r i) (fun j => some (V r j))))
    (Nat.zero_le _) ⟨rfl, by simpa [keptColumns] using hF⟩ ?_).mono fun s hs => hs.2
  rintro j ⟨i, F⟩ _ hj ⟨hi, hv⟩
  simp only at hi hv
  subst hi
  by_cases hr : e.removed j = true
  · have hmem := (hrem j).mp hr
    have hk : keptColumns (j + 1) e.nC = keptColumns j e.nC := by
      rw [keptColumns_succ]; simp [hmem]
    simp only [hr, if_true]
    exact Runs.ok ⟨by rw [hk], by rw [hk]; exact hv⟩
  · have hmem : (j : ℤ) ∉ e.nC := fun h => hr ((hrem j).mpr h)
    have hk : keptColumns (j + 1) e.nC = keptColumns j e.nC ++ [j] := by
      rw [keptColumns_succ]; simp [hmem]
    have hlt : (keptColumns j e.nC).length < numBasis := by
      have := keptColumns_length_mono e.nC (Nat.succ_le_of_lt hj)
      rw [Nat.succ_eq_add_one, hk, List.length_append] at this
      simp only [List.length_singleton] at this
      omega
    simp only [hr]
    refine Runs.bind (hv.fillCol hlt (fun k => V k j) ?_) (fun F' hF' => Runs.ok ⟨?_, ?_⟩)
    · intro k hk b' M' _ _
      rw [hd.read hk hj rfl, ok_bind]
    · simp [hk]
    · refine hF'.congr fun r _ i _ => ?_
      simp only [hk]
      rcases lt_trichotomy i (keptColumns j e.nC).length with h | h | h
      · rw [if_neg (by omega), List.getElem?_append_left h]
      · subst h; simp
      · rw [if_neg (by omega), List.getElem?_eq_none (by omega),
          List.getElem?_eq_none (by simp; omega)]

/-- `nC` is acceptable for an ELM class: distinct existing functions, or only `-1` (nothing removed). -/
def NElmRemoval (m : ℕ) (nC : List ℤ) : Prop := ValidRemoval m nC ∨ ∀ r ∈ nC, r = -1

theorem kept_of_neg {m : ℕ} {nC : List ℤ} (h : ∀ r ∈ nC, r = -1) : keptColumns m nC = List.range m := by
  unfold keptColumns
  rw [List.filter_eq_self]
  intro j _
  simp only [decide_eq_true_eq]
  intro hj
  have := h _ hj
  omega

/-- `nHint` of the ELM classes, operation by operation. -/
theorem elmNHint_op {K : Type} [Zero K] [One K] [Add K] [Sub K] [Mul K] [Div K] [Neg K] [NatCast K] [Pow K ℕ] [Libm K] [LibmExp K] [Max K] [DecidableEq K]
    {e : NElm K} {a : Activation} {dim m : ℕ} {x0s cs : ℕ → K} {ws : ℕ → ℕ → K} {bs : ℕ → K}
    (h : EGood e a dim m x0s cs ws bs) {nC : List ℤ} (hnC : e.nC = nC)
    (hnum : e.numC = if nC.all (fun r => r == -1) then 0 else nC.length)
    {d : Buf ℕ} {q : ℕ} {ds : ℕ → ℕ} (hd : ∀ i < q, d.read i = .ok (ds i)) (hq : q ≤ dim) {x : Buf K} {n : ℕ}
    {xs : ℕ → ℕ → K} (hx : ∀ l < dim, ∀ k < n, x.read (l * n + k) = .ok (xs l k))
    (hsw : a = .swish → ∑ i ∈ Finset.range q, ds i ≤ 8) {p : ℕ} (hp : ∑ i ∈ Finset.range q, ds i = 1 → p < q ∧ ds p = 1)
    (full : Bool) {F : Buf K} {M : ℕ → ℕ → Option K} (hF : View F n (outColumns m nC full).length M) :
    Runs (e.nHint x n d q (outColumns m nC full).length F full) (fun b =>
      View b n (outColumns m nC full).length (fun j i => ((outColumns m nC full)[i]?).map fun k =>
        nelmOp a (∑ i ∈ Finset.range q, ds i) (cs p * ws p k) (accProd (fun i => cs i ^ ds i) q) (accProd (fun i => ws i k ^ ds i) q)
          (accSum (fun i => ws i k * ((xs i j - x0s i) * cs i + 0)) dim) (bs k))) := by
  unfold NElm.nHint
  rw [h.dim_, h.z0_]
  refine (mapPointsN_spec 0 h.x0_ h.c_ hx).bind fun z hz => ?_
  by_cases hall : (∀ r ∈ nC, r = -1) ∨ full = true
  · have hcols : outColumns m nC full = List.range m := by
      rcases hall with hall | hfull
      · cases full
        · exact kept_of_neg hall
        · rfl
      · subst hfull; rfl
    have hcond : e.numC = 0 ∨ full = true := by
      rcases hall with hall | hfull
      · left
        rw [hnum, if_pos (by simpa using hall)]
      · exact Or.inr hfull
    rw [if_pos hcond]
    rw [hcols, List.length_range] at hF ⊢
    refine (elmHint_op h hd hq hz hsw hp hF).mono fun b hb => hb.congr ?_
    intro j _ i hi
    simp [hi]
  · rw [not_or] at hall
    obtain ⟨hne, hfull⟩ := hall
    have hfull : full = false := by simpa using hfull
    subst hfull
    have hall' : nC.all (fun r => r == -1) = false := by
      rw [Bool.eq_false_iff]
      intro hh
      exact hne (by simpa using hh)
    rw [hall', if_neg (by simp)] at hnum
    have hpos : nC ≠ [] := by rintro rfl; exact hne (by simp)
    rw [if_neg (by simp [hnum, hpos])]
    have hA := View.alloc (α := K) n m
    rw [Nat.mul_comm] at hA
    rw [h.m_]
    refine (elmHint_op h hd hq hz hsw hp hA).bind fun dark hdark => ?_
    have hc := copyN_spec e (n := n) (by rw [hnum, hnC]) (by rw [h.m_]; exact hdark) hF
      (by rw [h.m_, hnC]; exact le_rfl)
    rw [h.m_] at hc
    refine hc.bind fun s hs => Runs.ok (hs.congr ?_)
    intro j _ i hi
    simp only [hnC, outColumns, Bool.false_eq_true, if_false] at hi ⊢
    rw [List.getElem?_eq_getElem hi]
    rfl

/-! ## Real numbers -/

theorem accProd_real (g : ℕ → ℝ) (q : ℕ) : accProd g q = ∏ i ∈ Finset.range q, g i := by
  induction q with
  | zero => simp [accProd]
  | succ q ih => rw [accProd, ih, Finset.prod_range_succ]

theorem accSum_real (g : ℕ → ℝ) (q : ℕ) : accSum g q = ∑ i ∈ Finset.range q, g i := by
  induction q with
  | zero => simp [accSum]
  | succ q ih => rw [accSum, ih, Finset.sum_range_succ]

theorem nsigmoid_form (t b : ℝ) : 1 / (1 + Real.exp (-t - b)) = sigmoid (t + b) := by
  unfold sigmoid; ring_nf

/-- If the orders add up to 1, one of them is 1. -/
theorem exists_one (ds : ℕ → ℕ) (q : ℕ) : ∃ p, ∑ i ∈ Finset.range q, ds i = 1 → p < q ∧ ds p = 1 := by
  by_cases h : ∑ i ∈ Finset.range q, ds i = 1
  · have : ∃ i ∈ Finset.range q, ds i ≠ 0 := by
      by_contra hc
      push Not at hc
      rw [Finset.sum_eq_zero hc] at h
      omega
    obtain ⟨i, hi, h0⟩ := this
    have := Finset.single_le_sum (f := ds) (fun _ _ => Nat.zero_le _) hi
    exact ⟨i, fun _ => ⟨Finset.mem_range.1 hi, by omega⟩⟩
  · exact ⟨0, fun h' => absurd h' h⟩

theorem nelmOp_real (a : Activation) {q : ℕ} (ds : ℕ → ℕ) (hsw : a = .swish → ∑ i ∈ Finset.range q, ds i ≤ 8) {p : ℕ}
    (hp : ∑ i ∈ Finset.range q, ds i = 1 → p < q ∧ ds p = 1) (cs ws : ℕ → ℝ) (s b : ℝ) :
    nelmOp a (∑ i ∈ Finset.range q, ds i) (cs p * ws p) (accProd (fun i => cs i ^ ds i) q) (accProd (fun i => ws i ^ ds i) q) s b =
      nelmV a (∑ i ∈ Finset.range q, ds i) ((∏ i ∈ Finset.range q, cs i ^ ds i) * ∏ i ∈ Finset.range q, ws i ^ ds i) (s + b) := by
  rw [accProd_real, accProd_real]
  cases a with
  | sigmoid =>
    simp only [nelmOp, nelmV, LibmExp.exp_real, nsigmoid_form]
    cases nELMSigmoid.switch (K := ℝ) (∑ i ∈ Finset.range q, ds i) <;> rfl
  | tanh =>
    simp only [nelmOp, nelmV, LibmExp.tanh_real]
    cases nELMTanh.switch (K := ℝ) (∑ i ∈ Finset.range q, ds i) <;> rfl
  | sin =>
    simp only [nelmOp, nelmV, sinG, Libm.sin_real, Libm.cos_real]
    split_ifs <;> ring
  | swish =>
    simp only [nelmOp, nelmV, LibmExp.exp_real]
    have hd8 := hsw rfl
    generalize hS : (∑ i ∈ Finset.range q, ds i) = S at hd8
    by_cases h0 : S = 0
    · subst h0
      simp only [if_true, nELMSwish.switch]
      rw [mul_div_assoc, nsigmoid_form]
      rfl
    · have hs : ∃ f, nELMSwish.switch (K := ℝ) S = some f := by
        clear hS
        interval_cases S
        · exact absurd rfl h0
        all_goals exact ⟨_, rfl⟩
      obtain ⟨f, hf⟩ := hs
      rw [if_neg h0, hf]
      rfl
  | relu =>
    simp only [nelmOp, nelmV]
    split_ifs with h0 h1 h2
    · have hz : ∀ i ∈ Finset.range q, ds i = 0 := fun i hi => (Finset.sum_eq_zero_iff.mp h0) i hi
      have hprod : ∀ g : ℕ → ℝ, ∏ i ∈ Finset.range q, g i ^ ds i = 1 := fun g =>
        Finset.prod_eq_one fun i hi => by rw [hz i hi, pow_zero]
      rw [h0, hprod, hprod]
      simp [reluG, relu]
    · have hprod : ∀ g : ℕ → ℝ, ∏ i ∈ Finset.range q, g i ^ ds i = g p := by
        intro g
        obtain ⟨g1, g2⟩ := hp h1
        have hp' : p ∈ Finset.range q := Finset.mem_range.mpr g1
        have hz : ∀ i ∈ (Finset.range q).erase p, ds i = 0 := by
          have := h1
          rw [← Finset.add_sum_erase _ _ hp', g2] at this
          intro i hi
          exact (Finset.sum_eq_zero_iff.mp (by omega)) i hi
        rw [← Finset.mul_prod_erase _ _ hp', g2, pow_one,
          Finset.prod_congr (g := fun _ => (1 : ℝ)) rfl fun i hi => by rw [hz i hi, pow_zero]]
        simp
      have ht : 0 < s + b := by
        by_contra hc
        exact h2 (max_eq_left (not_lt.1 hc))
      rw [h1, hprod, hprod]
      simp [reluG, ht]
    · have ht : ¬ 0 < s + b := by
        intro hc
        exact h2 (by rw [max_eq_right hc.le]; exact hc.ne')
      rw [h1]
      rw [not_not] at h2
      rw [h2]
      simp [reluG, ht]
    · obtain ⟨r, hr⟩ := Nat.exists_eq_add_of_le (show 2 ≤ ∑ i ∈ Finset.range q, ds i by omega)
      rw [hr, Nat.add_comm]
      simp [reluG]

theorem elmNHint_spec {e : NElm ℝ} {a : Activation} {dim m : ℕ} {x0s cs : ℕ → ℝ} {ws : ℕ → ℕ → ℝ} {bs : ℕ → ℝ}
    (h : EGood e a dim m x0s cs ws bs) {nC : List ℤ} (hnC : e.nC = nC)
    (hnum : e.numC = if nC.all (fun r => r == -1) then 0 else nC.length)
    {d : Buf ℕ} {q : ℕ} {ds : ℕ → ℕ} (hd : ∀ i < q, d.read i = .ok (ds i)) (hq : q ≤ dim) {x : Buf ℝ} {n : ℕ}
    {xs : ℕ → ℕ → ℝ} (hx : ∀ l < dim, ∀ k < n, x.read (l * n + k) = .ok (xs l k))
    (hsw : a = .swish → ∑ i ∈ Finset.range q, ds i ≤ 8) (full : Bool) {F : Buf ℝ} {M : ℕ → ℕ → Option ℝ}
    (hF : View F n (outColumns m nC full).length M) :
    Runs (e.nHint x n d q (outColumns m nC full).length F full) (fun b =>
      View b n (outColumns m nC full).length (fun j i => ((outColumns m nC full)[i]?).map fun k =>
        nelmV a (∑ i ∈ Finset.range q, ds i)
          ((∏ i ∈ Finset.range q, cs i ^ ds i) * ∏ i ∈ Finset.range q, ws i k ^ ds i)
          (∑ i ∈ Finset.range dim, ws i k * ((xs i j - x0s i) * cs i + 0) + bs k))) := by
  obtain ⟨p, hp⟩ := exists_one ds q
  refine (elmNHint_op h hnC hnum hd hq hx hsw hp full hF).mono fun b hb => hb.congr ?_
  intro j _ i _
  cases (outColumns m nC full)[i]? with
  | none => rfl
  | some k =>
    simp only [Option.map_some]
    rw [nelmOp_real a ds hsw hp cs (fun i => ws i k), accSum_real]

end Verif
