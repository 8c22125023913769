import Verif.Model.PolyPy
import Verif.Lemmas.PolyFamilies

/-! # The Python polynomial `_Hint`s compute derivatives of the classical polynomials -/

namespace Verif

open Verif.Py Verif.Np Verif.Model.PyBF Verif.Spec

variable {K : Type} [Zero K] [One K]

theorem pfor_spec {σ : Type} {lo hi : ℕ} {body : ℕ → σ → σ} {s : σ} (I : ℕ → σ → Prop) (hle : lo ≤ hi)
    (h0 : I lo s) (hs : ∀ k s, lo ≤ k → k < hi → I k s → I (k + 1) (body k s)) : I hi (pfor lo hi body s) := by
  obtain ⟨n, rfl⟩ := Nat.exists_eq_add_of_le hle
  unfold pfor
  rw [Nat.add_sub_cancel_left]
  clear hle
  induction n generalizing lo s with
  | zero => simpa using h0
  | succ n ih =>
    rw [List.range'_succ, List.foldl_cons]
    have := ih (lo := lo + 1) (s := body lo s) (hs _ _ le_rfl (by omega) h0)
      (fun k s h1 h2 h3 => hs k s (by omega) (by omega) h3)
    rwa [show lo + 1 + n = lo + (n + 1) by omega] at this

theorem pfor_shift {σ : Type} (lo hi : ℕ) (body : ℕ → σ → σ) (s : σ) :
    pfor (lo + 1) (hi + 1) body s = pfor lo hi (fun k => body (k + 1)) s := by
  simp only [pfor, Nat.add_sub_add_right]
  rw [show List.range' (lo + 1) (hi - lo) = (List.range' lo (hi - lo)).map (· + 1) by
    rw [Nat.add_comm lo 1, ← List.map_add_range']; simp [Nat.add_comm]]
  rw [List.foldl_map]

/-- An `n × m` array with given entries. -/
structure IsArr (A : Mat K) (n m : ℕ) (V : ℕ → ℕ → K) : Prop where
  rows : A.rows = n
  cols : A.cols = m
  at_ : ∀ j < n, ∀ c < m, A.at_ j c = V j c

/-- Common shape of the inner functions `Recurse`. -/
def pySkelDeriv (dconst : K) (drec : ℕ → ℕ → K → K → K → K → K) (m N : ℕ) (z : ℕ → K) :
    (left dCurr : ℕ) → Mat K → Except Err (Mat K)
  | 0, _, dark => .ok dark
  | left + 1, dCurr, dark => do
    let dark2 ←
      (if dCurr = 0 then do
        let a ← Mat.hstack (Mat.column N fun _ => 0) (Mat.column N fun _ => dconst)
        let b ← Mat.zeros N ((m : ℤ) - 2)
        Mat.hstack a b
      else Mat.zeros N m)
    let dark2 := pfor 1 (m - 1) (fun k dark2 => dark2.setCol (k + 1) fun i =>
      drec dCurr k (z i) (dark.at_ i k) (dark2.at_ i k) (dark2.at_ i (k - 1))) dark2
    pySkelDeriv dconst drec m N z left (dCurr + 1) dark2

/-- Common shape of the `_Hint`s. -/
def pySkelHint (init1 : K → K) (dconst : K) (rec : ℕ → K → K → K → K)
    (drec : ℕ → ℕ → K → K → K → K → K) (m N : ℕ) (z : ℕ → K) (d : ℕ) : Except Err (Mat K) :=
  if m = 1 then
    if d > 0 then .ok (Mat.column N fun _ => 0) else .ok (Mat.column N fun _ => 1)
  else if m = 2 then
    if d > 1 then Mat.hstack (Mat.column N fun _ => 0) (Mat.column N fun _ => 0)
    else if d > 0 then Mat.hstack (Mat.column N fun _ => 0) (Mat.column N fun _ => dconst)
    else Mat.hstack (Mat.column N fun _ => 1) (Mat.column N fun i => init1 (z i))
  else do
    let a ← Mat.hstack (Mat.column N fun _ => 1) (Mat.column N fun i => init1 (z i))
    let b ← Mat.zeros N ((m : ℤ) - 2)
    let F ← Mat.hstack a b
    let F := pfor 1 (m - 1) (fun k F => F.setCol (k + 1) fun i =>
      rec k (z i) (F.at_ i k) (F.at_ i (k - 1))) F
    pySkelDeriv dconst drec m N z d 0 F

variable {init1 : K → K} {dconst : K} {rec : ℕ → K → K → K → K}
  {drec : ℕ → ℕ → K → K → K → K → K} {D : ℕ → K → ℕ → K}

/-- The three-term loops. -/
theorem pyCols_spec {A : Mat K} {n m : ℕ} (hm : 3 ≤ m) {V W : ℕ → ℕ → K} (hA : IsArr A n m V)
    (h0 : ∀ j < n, V j 0 = W j 0) (h1 : ∀ j < n, V j 1 = W j 1) {body : ℕ → Mat K → Mat K} {R : ℕ → ℕ → K → K → K}
    (hb : ∀ k A, body k A = A.setCol (k + 1) fun i => R k i (A.at_ i k) (A.at_ i (k - 1)))
    (hR : ∀ k, k + 2 < m → ∀ j < n, R (k + 1) j (W j (k + 1)) (W j k) = W j (k + 2)) :
    IsArr (pfor 1 (m - 1) body A) n m W := by
  have := pfor_spec (lo := 1) (hi := m - 1) (body := body) (s := A)
    (fun k A => IsArr A n m (fun j c => if c ≤ k then W j c else V j c)) (by omega) ?_ ?_
  · refine ⟨this.rows, this.cols, fun j hj c hc => ?_⟩
    rw [this.at_ j hj c hc, if_pos (by omega)]
  · refine ⟨hA.rows, hA.cols, fun j hj c hc => ?_⟩
    rw [hA.at_ j hj c hc]
    rcases c with _ | _ | c
    · simp [h0 j hj]
    · simp [h1 j hj]
    · simp
  · intro k A hk1 hk2 hA
    rw [hb]
    refine ⟨hA.rows, hA.cols, fun j hj c hc => ?_⟩
    simp only [Mat.setCol]
    by_cases hck : c = k + 1
    · subst hck
      rw [if_pos rfl, if_pos le_rfl, hA.at_ j hj k (by omega), hA.at_ j hj (k - 1) (by omega), if_pos le_rfl,
        if_pos (by omega)]
      obtain ⟨k, rfl⟩ : ∃ e, k = e + 1 := ⟨k - 1, by omega⟩
      exact hR k (by omega) j hj
    · rw [if_neg hck, hA.at_ j hj c hc]
      have : c ≤ k + 1 ↔ c ≤ k := by omega
      simp only [this]

theorem py_two {n : ℕ} (u v : ℕ → K) :
    ∃ A, Mat.hstack (Mat.column n u) (Mat.column n v) = .ok A ∧
      IsArr A n 2 (fun j c => if c = 0 then u j else v j) := by
  refine ⟨⟨n, 2, fun i j => if j < 1 then u i else v i⟩, ?_, rfl, rfl, fun j _ c hc => ?_⟩
  · simp [Mat.hstack, Mat.column]
  · rcases c with _ | c <;> simp

theorem py_start {n m : ℕ} (hm : 3 ≤ m) (u v : ℕ → K) :
    ∃ A, (do
      let a ← Mat.hstack (Mat.column n u) (Mat.column n v)
      let b ← Mat.zeros n ((m : ℤ) - 2)
      Mat.hstack a b) = .ok A ∧
      IsArr A n m (fun j c => if c = 0 then u j else if c = 1 then v j else 0) := by
  obtain ⟨A, hA, hA'⟩ := py_two (n := n) u v
  have hz : (Mat.zeros n ((m : ℤ) - 2) : Except Err (Mat K)) = .ok ⟨n, m - 2, fun _ _ => 0⟩ := by
    unfold Mat.zeros
    rw [if_neg (by omega), show ((m : ℤ) - 2).toNat = m - 2 by omega]
  have hs : Mat.hstack A (⟨n, m - 2, fun _ _ => 0⟩ : Mat K) = .ok
      ⟨A.rows, A.cols + (m - 2), fun i j => if j < A.cols then A.at_ i j else 0⟩ := by
    simp [Mat.hstack, hA'.rows]
  refine ⟨⟨A.rows, A.cols + (m - 2), fun i j => if j < A.cols then A.at_ i j else 0⟩, by rw [hA, hz]; exact hs,
    hA'.rows, by simp [hA'.cols]; omega, fun j hj c _ => ?_⟩
  simp only [hA'.cols]
  by_cases hc : c < 2
  · rw [if_pos hc, hA'.at_ j hj c hc]
    rcases c with _ | _ | c
    · simp
    · simp
    · omega
  · have h0 : c ≠ 0 := by omega
    have h1 : c ≠ 1 := by omega
    simp [hc, h0, h1]

theorem pySkelDeriv_spec {n m : ℕ} (hm : 3 ≤ m) (S : RecSpec init1 dconst rec drec D) (z : ℕ → K) (left d : ℕ)
    {A : Mat K} (hA : IsArr A n m (fun j c => D d (z j) c)) :
    ∃ B, pySkelDeriv dconst drec m n z left d A = .ok B ∧ IsArr B n m (fun j c => D (d + left) (z j) c) := by
  induction left generalizing d A with
  | zero => exact ⟨A, rfl, hA⟩
  | succ left ih =>
    have hstart : ∃ B, (if d = 0 then do
        let a ← Mat.hstack (Mat.column n fun _ => (0 : K)) (Mat.column n fun _ => dconst)
        let b ← Mat.zeros n ((m : ℤ) - 2)
        Mat.hstack a b
      else Mat.zeros n m) = .ok B ∧
        IsArr B n m (fun j c => if c = 0 then 0 else if c = 1 then (if d = 0 then dconst else 0) else 0) := by
      by_cases h : d = 0
      · obtain ⟨B, hB, hB'⟩ := py_start (n := n) hm (fun _ => (0 : K)) (fun _ => dconst)
        exact ⟨B, by rw [if_pos h, hB], hB'.rows, hB'.cols, fun j hj c hc => by rw [hB'.at_ j hj c hc, if_pos h]⟩
      · refine ⟨⟨n, m, fun _ _ => 0⟩, ?_, rfl, rfl, fun j hj c hc => by simp [h]⟩
        rw [if_neg h, Mat.zeros, if_neg (by omega)]
        simp
    obtain ⟨B, hB, hB'⟩ := hstart
    have step := pyCols_spec hm hB' (W := fun j c => D (d + 1) (z j) c)
      (fun j _ => by simp [S.d0]) (fun j _ => by
        rcases d with _ | d
        · simp [S.d1]
        · simp [S.d2])
      (body := fun k dark2 => dark2.setCol (k + 1) fun i =>
        drec d k (z i) (A.at_ i k) (dark2.at_ i k) (dark2.at_ i (k - 1)))
      (R := fun k i f1 f2 => drec d k (z i) (A.at_ i k) f1 f2) (fun _ _ => rfl) (fun k hk j hj => by
        rw [hA.at_ j hj (k + 1) (by omega), S.ds])
    obtain ⟨B2, hB2, hB2'⟩ := ih (d + 1) step
    refine ⟨B2, ?_, ?_⟩
    · rw [pySkelDeriv, hB]
      exact hB2
    · rwa [show d + (left + 1) = d + 1 + left by omega]

theorem pySkelHint_spec {n m : ℕ} (hm : 1 ≤ m) (S : RecSpec init1 dconst rec drec D) (z : ℕ → K) (d : ℕ) :
    ∃ B, pySkelHint init1 dconst rec drec m n z d = .ok B ∧ IsArr B n m (fun j c => D d (z j) c) := by
  unfold pySkelHint
  by_cases h1 : m = 1
  · subst h1
    rw [if_pos rfl]
    rcases d with _ | d
    · refine ⟨_, by rw [if_neg (by omega)], rfl, rfl, fun j _ c hc => ?_⟩
      obtain rfl : c = 0 := by omega
      simp [Mat.column, S.z0]
    · refine ⟨_, by rw [if_pos (by omega)], rfl, rfl, fun j _ c hc => ?_⟩
      obtain rfl : c = 0 := by omega
      simp [Mat.column, S.d0]
  · by_cases h2 : m = 2
    · subst h2
      rw [if_neg h1, if_pos rfl]
      have two : ∀ {c : ℕ}, c < 2 → c = 0 ∨ c = 1 := by intro c hc; omega
      rcases d with _ | _ | d
      · obtain ⟨A, hA, hA'⟩ := py_two (n := n) (fun _ => (1 : K)) (fun i => init1 (z i))
        refine ⟨A, by rw [if_neg (by omega), if_neg (by omega), hA], hA'.rows, hA'.cols, fun j hj c hc => ?_⟩
        rw [hA'.at_ j hj c hc]
        rcases two hc with rfl | rfl <;> simp [S.z0, S.z1]
      · obtain ⟨A, hA, hA'⟩ := py_two (n := n) (fun _ => (0 : K)) (fun i => dconst)
        refine ⟨A, by rw [if_neg (by omega), if_pos (by omega), hA], hA'.rows, hA'.cols, fun j hj c hc => ?_⟩
        rw [hA'.at_ j hj c hc]
        rcases two hc with rfl | rfl <;> simp [S.d0, S.d1]
      · obtain ⟨A, hA, hA'⟩ := py_two (n := n) (fun _ => (0 : K)) (fun i => (0 : K))
        refine ⟨A, by rw [if_pos (by omega), hA], hA'.rows, hA'.cols, fun j hj c hc => ?_⟩
        rw [hA'.at_ j hj c hc]
        rcases two hc with rfl | rfl
        · simp [S.d0]
        · simp [S.d2]
    · rw [if_neg h1, if_neg h2]
      have hm3 : 3 ≤ m := by omega
      obtain ⟨A, hA, hA'⟩ := py_start (n := n) hm3 (fun _ => (1 : K)) (fun i => init1 (z i))
      have step := pyCols_spec hm3 hA' (W := fun j c => D 0 (z j) c)
        (fun j _ => by simp [S.z0]) (fun j _ => by simp [S.z1])
        (body := fun k F => F.setCol (k + 1) fun i => rec k (z i) (F.at_ i k) (F.at_ i (k - 1)))
        (R := fun k i f1 f2 => rec k (z i) f1 f2) (fun _ _ => rfl) (fun k hk j hj => by
          rw [S.zs])
      obtain ⟨B, hB, hB'⟩ := pySkelDeriv_spec hm3 S z d 0 step
      refine ⟨B, ?_, by simpa using hB'⟩
      obtain ⟨a, ha⟩ : ∃ a, Mat.hstack (Mat.column n fun _ => (1 : K)) (Mat.column n fun i => init1 (z i)) = .ok a :=
        ⟨_, (py_two _ _).choose_spec.1⟩
      rw [ha] at hA ⊢
      simp only [bind, Except.bind] at hA ⊢
      cases hz : (Mat.zeros n ((m : ℤ) - 2) : Except Err (Mat K)) with
      | error e => rw [hz] at hA; cases hA
      | ok b =>
        rw [hz] at hA
        simp only at hA ⊢
        rw [hA]
        exact hB

/-! ## The models are instances of the common shape -/

section Ops
variable {K : Type} [Zero K] [One K] [Add K] [Sub K] [Mul K] [Div K] [Neg K] [NatCast K]

theorem cpPy_deriv_eq (m n : ℕ) (z : ℕ → K) (left d : ℕ) (F : Mat K) (hm : 1 ≤ m) :
    Model.PyBF.CP.recurse m n z left d F =
      pySkelDeriv 1 (fun d _ z e f1 f2 => (2 + 2 * (d : K)) * e + 2 * z * f1 - f2) m n z left d F := by
  induction left generalizing d F with
  | zero => rfl
  | succ left ih =>
    obtain ⟨m, rfl⟩ : ∃ e, m = e + 1 := ⟨m - 1, by omega⟩
    simp only [CP.recurse, pySkelDeriv, ih, pfor_shift 1 m]
    rfl

theorem cpPy_hint_eq (m n : ℕ) (z : ℕ → K) (d : ℕ) (hm : 1 ≤ m) :
    Model.PyBF.CP.hint m n z d = pySkelHint (fun z => z) 1 (fun _ z f1 f2 => 2 * z * f1 - f2)
      (fun d _ z e f1 f2 => (2 + 2 * (d : K)) * e + 2 * z * f1 - f2) m n z d := by
  unfold CP.hint pySkelHint
  simp only [cpPy_deriv_eq (K := K) _ _ _ _ _ _ hm]
  obtain ⟨m, rfl⟩ : ∃ e, m = e + 1 := ⟨m - 1, by omega⟩
  simp only [pfor_shift 1 m]
  rfl

theorem lepPy_deriv_eq (m n : ℕ) (z : ℕ → K) (left d : ℕ) (F : Mat K) : Model.PyBF.LeP.recurse m n z left d F =
    pySkelDeriv 1 (fun d k z e f1 f2 => ((2 * (k : K) + 1) * (((d : K) + 1) * e + z * f1) - (k : K) * f2) / ((k : K) + 1)) m n z left d F := by
  induction left generalizing d F with
  | zero => rfl
  | succ left ih => simp only [LeP.recurse, pySkelDeriv, ih]

theorem lepPy_hint_eq (m n : ℕ) (z : ℕ → K) (d : ℕ) : Model.PyBF.LeP.hint m n z d = pySkelHint (fun z => z) 1
    (fun k z f1 f2 => ((2 * (k : K) + 1) * z * f1 - (k : K) * f2) / ((k : K) + 1))
    (fun d k z e f1 f2 => ((2 * (k : K) + 1) * (((d : K) + 1) * e + z * f1) - (k : K) * f2) / ((k : K) + 1)) m n z d := by
  simp only [LeP.hint, pySkelHint, lepPy_deriv_eq]

theorem lapPy_deriv_eq (m n : ℕ) (z : ℕ → K) (left d : ℕ) (F : Mat K) : Model.PyBF.LaP.recurse m n z left d F =
    pySkelDeriv (-1) (fun d k z e f1 f2 => ((2 * (k : K) + 1 - z) * f1 - ((d : K) + 1) * e - (k : K) * f2) / ((k : K) + 1)) m n z left d F := by
  induction left generalizing d F with
  | zero => rfl
  | succ left ih => simp only [LaP.recurse, pySkelDeriv, ih]

theorem lapPy_hint_eq (m n : ℕ) (z : ℕ → K) (d : ℕ) : Model.PyBF.LaP.hint m n z d = pySkelHint (fun z => 1 - z) (-1)
    (fun k z f1 f2 => ((2 * (k : K) + 1 - z) * f1 - (k : K) * f2) / ((k : K) + 1))
    (fun d k z e f1 f2 => ((2 * (k : K) + 1 - z) * f1 - ((d : K) + 1) * e - (k : K) * f2) / ((k : K) + 1)) m n z d := by
  simp only [LaP.hint, pySkelHint, lapPy_deriv_eq]

theorem hopProPy_deriv_eq (m n : ℕ) (z : ℕ → K) (left d : ℕ) (F : Mat K) : Model.PyBF.HoPpro.recurse m n z left d F =
    pySkelDeriv 1 (fun d k z e f1 f2 => ((d : K) + 1) * e + z * f1 - (k : K) * f2) m n z left d F := by
  induction left generalizing d F with
  | zero => rfl
  | succ left ih => simp only [HoPpro.recurse, pySkelDeriv, ih]

theorem hopProPy_hint_eq (m n : ℕ) (z : ℕ → K) (d : ℕ) : Model.PyBF.HoPpro.hint m n z d = pySkelHint (fun z => z) 1
    (fun k z f1 f2 => z * f1 - (k : K) * f2)
    (fun d k z e f1 f2 => ((d : K) + 1) * e + z * f1 - (k : K) * f2) m n z d := by
  simp only [HoPpro.hint, pySkelHint, hopProPy_deriv_eq]

theorem hopPhyPy_deriv_eq (m n : ℕ) (z : ℕ → K) (left d : ℕ) (F : Mat K) : Model.PyBF.HoPphy.recurse m n z left d F =
    pySkelDeriv (2 * 1) (fun d k z e f1 f2 => 2 * ((d : K) + 1) * e + 2 * z * f1 - 2 * (k : K) * f2) m n z left d F := by
  induction left generalizing d F with
  | zero => rfl
  | succ left ih => simp only [HoPphy.recurse, pySkelDeriv, ih]

theorem hopPhyPy_hint_eq (m n : ℕ) (z : ℕ → K) (d : ℕ) : Model.PyBF.HoPphy.hint m n z d = pySkelHint (fun z => 2 * z) (2 * 1)
    (fun k z f1 f2 => 2 * z * f1 - 2 * (k : K) * f2)
    (fun d k z e f1 f2 => 2 * ((d : K) + 1) * e + 2 * z * f1 - 2 * (k : K) * f2) m n z d := by
  simp only [HoPphy.hint, pySkelHint, hopPhyPy_deriv_eq]

end Ops

section Exact
variable {K : Type} [Field K]

/-- Dispatch to the `_Hint` of a class. -/
def polyPyHint (f : PolyFamily) : (m N : ℕ) → (ℕ → K) → ℕ → Except Err (Mat K) :=
  match f with
  | .cp => CP.hint
  | .lep => LeP.hint
  | .lap => LaP.hint
  | .hopPro => HoPpro.hint
  | .hopPhy => HoPphy.hint

theorem polyPyHint_spec [CharZero K] (f : PolyFamily) {m n : ℕ} (hm : 1 ≤ m) (z : ℕ → K) (d : ℕ) :
    ∃ B, polyPyHint f m n z d = .ok B ∧ IsArr B n m (fun j c => polyD K f d (z j) c) := by
  cases f with
  | cp =>
    rw [show polyPyHint .cp m n z d = CP.hint m n z d from rfl, cpPy_hint_eq _ _ _ _ hm]
    exact pySkelHint_spec hm recSpec_cp z d
  | lep =>
    rw [show polyPyHint .lep m n z d = LeP.hint m n z d from rfl, lepPy_hint_eq]
    exact pySkelHint_spec hm recSpec_lep z d
  | lap =>
    rw [show polyPyHint .lap m n z d = LaP.hint m n z d from rfl, lapPy_hint_eq]
    exact pySkelHint_spec hm recSpec_lap z d
  | hopPro =>
    rw [show polyPyHint .hopPro m n z d = HoPpro.hint m n z d from rfl, hopProPy_hint_eq]
    exact pySkelHint_spec hm recSpec_hopPro z d
  | hopPhy =>
    rw [show polyPyHint .hopPhy m n z d = HoPphy.hint m n z d from rfl, hopPhyPy_hint_eq, mul_one]
    exact pySkelHint_spec hm recSpec_hopPhy z d

end Exact

end Verif
