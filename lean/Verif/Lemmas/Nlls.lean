import Verif.Lemmas.LsArgs

/-! # The loop of NLLS -/

namespace Verif.Lemmas.LSq

open Verif.Py Verif.Np Verif.Spec Verif.Model Verif.Model.Dict Verif.Model.LSq Verif.Lemmas.LinAlg Verif.Lemmas.Dict

variable {Key : Type} [DecidableEq Key]

/-- A loop whose condition bounds a counter that each iteration increases ends; `tr` lists the states. -/
theorem whileLoop_trace {σ : Type} {cond : σ → Except Err Bool} {body : σ → Except Err σ} {P : σ → Prop} {it : σ → ℤ} {M : ℤ}
    (hc : ∀ s, P s → ∃ c, cond s = .ok c ∧ (c = true → it s < M))
    (hb : ∀ s, P s → ∃ s', body s = .ok s' ∧ P s' ∧ it s' = it s + 1) (fuel : ℕ) (s : σ) (hs : P s) (h0 : 0 < fuel)
    (hf : M - it s < fuel) :
    ∃ (n : ℕ) (tr : ℕ → σ), tr 0 = s ∧ (∀ k < n, cond (tr k) = .ok true ∧ body (tr k) = .ok (tr (k + 1))) ∧
      cond (tr n) = .ok false ∧ (∀ k ≤ n, P (tr k) ∧ it (tr k) = it s + k) ∧ whileLoop cond body fuel s = .ok (some (tr n)) := by
  induction fuel generalizing s with
  | zero => exact absurd h0 (by simp)
  | succ fuel ih =>
    obtain ⟨c, hc1, hc2⟩ := hc s hs
    cases c with
    | false =>
      refine ⟨0, fun _ => s, rfl, fun k hk => absurd hk (by simp), hc1, fun k hk => ?_, ?_⟩
      · have : k = 0 := by omega
        subst this
        exact ⟨hs, by simp⟩
      · unfold whileLoop
        rw [hc1]
        rfl
    | true =>
      have hlt := hc2 rfl
      obtain ⟨s', hb1, hb2, hb3⟩ := hb s hs
      obtain ⟨n, tr, t1, t2, t3, t4, t5⟩ := ih s' hb2 (by push_cast at hf; omega) (by push_cast at hf; omega)
      refine ⟨n + 1, fun k => Nat.casesOn k s tr, rfl, ?_, t3, ?_, ?_⟩
      · intro k hk
        cases k with
        | zero => exact ⟨hc1, by show body s = .ok (tr 0); rw [t1]; exact hb1⟩
        | succ k => exact t2 k (by omega)
      · intro k hk
        cases k with
        | zero => exact ⟨hs, by simp⟩
        | succ k =>
          obtain ⟨u1, u2⟩ := t4 k (by omega)
          refine ⟨u1, ?_⟩
          show it (tr k) = _
          rw [u2, hb3]
          push_cast
          ring
      · unfold whileLoop
        rw [hc1]
        show (body s >>= fun s => whileLoop cond body fuel s) = _
        rw [hb1]
        exact t5

theorem foldl_max (l : List ℝ) (m tol : ℝ) : l.foldl (fun m x => max m |x|) m > tol ↔ m > tol ∨ ∃ x ∈ l, |x| > tol := by
  induction l generalizing m with
  | nil => simp
  | cons a l ih =>
    rw [List.foldl_cons, ih]
    simp only [gt_iff_lt, lt_max_iff, List.mem_cons, exists_eq_or_imp]
    tauto

theorem maxAbs_ok {l : List ℝ} (hl : l ≠ []) : ∃ m, maxAbs l = .ok m ∧ ∀ tol, m > tol ↔ ¬ Within tol l := by
  cases l with
  | nil => exact absurd rfl hl
  | cons a l =>
    refine ⟨_, rfl, fun tol => ?_⟩
    rw [foldl_max]
    unfold Within
    push Not
    simp

theorem defaultCond_ok {res : List (View Key) → Except Err (List ℝ)} {tol : ℝ} {maxIter : ℕ} {s : NState Key} {r : List ℝ}
    (hr : res (s.xi :: s.args) = .ok r) (hr0 : r ≠ []) (hd : s.dxi ≠ []) :
    ∃ c, defaultCond res tol maxIter s = .ok c ∧ (c = true ↔ ¬ Within tol r ∧ s.it < maxIter ∧ ¬ Within tol s.dxi) := by
  obtain ⟨m, h1, h2⟩ := maxAbs_ok hr0
  obtain ⟨m', h3, h4⟩ := maxAbs_ok hd
  unfold defaultCond
  rw [hr]
  simp only [bind, Except.bind, h1, h3]
  refine ⟨_, rfl, ?_⟩
  simp only [Bool.and_eq_true, decide_eq_true_eq, h2, h4, and_assoc]

theorem onesFor_ok {z : View Key} (hp : ProperUnknowns z) : onesFor z = .ok (List.replicate (entries z).length 1) := by
  cases z with
  | arr l => rfl
  | dict cls kvs =>
    obtain ⟨d, hd, F, hi⟩ := rebuild cls hp
    have hc : contents noHeap d.items = kvs := by rw [hi, contents_jax]
    have hf : flat noHeap d.items = entries (.dict cls kvs) := by rw [← entries_content cls, hc]
    have hne : d.items ≠ [] := by
      intro e
      rw [e] at hc
      exact hp.1 hc.symm
    unfold onesFor
    simp only
    rw [hd]
    simp only [bind, Except.bind]
    rw [toArray_ok F.suits hne, hf]

/-- The step of the default body. -/
theorem defaultBody_ok {LS : List (View Key) → Except Err (List ℝ)} {s : NState Key} (hp : ProperUnknowns s.xi) {dx : List ℝ}
    (hdx : LS (s.xi :: s.args) = .ok dx) (hl : dx.length = (entries s.xi).length) :
    defaultBody LS s = .ok ⟨refill s.xi (List.zipWith (· - ·) (entries s.xi) dx), dx, s.it + 1, s.args⟩ := by
  obtain ⟨v', h1, h2, h3⟩ := View.iop_ok (· - ·) hp hl
  have h4 := refill_entries h2
  rw [h3] at h4
  unfold defaultBody
  rw [hdx]
  simp only [bind, Except.bind]
  rw [h1, h4]

end Verif.Lemmas.LSq
