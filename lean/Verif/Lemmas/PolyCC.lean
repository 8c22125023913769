import Verif.Model.PolyCC
import Verif.Lemmas.Poly

/-! # Refinement: the compiled polynomial `Hint` functions compute derivatives of the classical polynomials -/

namespace Verif

open Verif.Mem Verif.Model.CC Polynomial Verif.Spec

variable {K : Type} [Zero K] [One K]

theorem loop_shift {σ ε : Type} (lo hi : ℕ) (body : ℕ → σ → Except ε σ) (s : σ) :
    loop (lo + 1) (hi + 1) body s = loop lo hi (fun k => body (k + 1)) s := by
  simp only [loop, Nat.add_sub_add_right]
  rw [show List.range' (lo + 1) (hi - lo) = (List.range' lo (hi - lo)).map (· + 1) by
    rw [Nat.add_comm lo 1, ← List.map_add_range']; simp [Nat.add_comm]]
  rw [List.foldlM_map]

/-- Common shape of the `RecurseDeriv` functions. -/
def skelDeriv (dconst : K) (drec : ℕ → ℕ → K → K → K → K → K) (m : ℕ) (x : Buf K) (nOut : ℕ) :
    (left dCurr : ℕ) → Buf K → Except Fault (Buf K)
  | 0, _, F => .ok F
  | left + 1, dCurr, F => do
    let dark := F
    let F ←
      (if dCurr = 0 then
        loop 0 nOut (fun k F => do
          let F ← F.write (m * k) 0
          F.write (m * k + 1) dconst) F
      else if dCurr = 1 then
        loop 0 nOut (fun k F => F.write (m * k + 1) 0) F
      else .ok F)
    let F ← loop 1 (m - 1) (fun k F =>
      loop 0 nOut (fun j F => do
        let xj ← x.read j
        let e ← dark.read (m * j + k)
        let f1 ← F.read (m * j + k)
        let f2 ← F.read (m * j + k - 1)
        F.write (m * j + k + 1) (drec dCurr k xj e f1 f2)) F) F
    skelDeriv dconst drec m x nOut left (dCurr + 1) F

/-- Common shape of the `Hint` functions. -/
def skelHint (init1 : K → K) (dconst : K) (rec : ℕ → K → K → K → K)
    (drec : ℕ → ℕ → K → K → K → K → K) (m d : ℕ) (x : Buf K) (nOut : ℕ) (dark : Buf K) :
    Except Fault (Buf K) :=
  if m = 1 then
    if d > 0 then loop 0 nOut (fun k dark => dark.write k 0) dark
    else loop 0 nOut (fun k dark => dark.write k 1) dark
  else if m = 2 then
    if d > 1 then loop 0 (m * nOut) (fun k dark => dark.write k 0) dark
    else if d > 0 then
      loop 0 nOut (fun k dark => do
        let dark ← dark.write (m * k) 0
        dark.write (m * k + 1) dconst) dark
    else
      loop 0 nOut (fun k dark => do
        let dark ← dark.write (m * k) 1
        let xk ← x.read k
        dark.write (m * k + 1) (init1 xk)) dark
  else do
    let dark ← loop 0 nOut (fun k dark => do
      let dark ← dark.write (m * k) 1
      let xk ← x.read k
      dark.write (m * k + 1) (init1 xk)) dark
    let dark ← loop 1 (m - 1) (fun k dark =>
      loop 0 nOut (fun j dark => do
        let xj ← x.read j
        let f1 ← dark.read (m * j + k)
        let f2 ← dark.read (m * j + k - 1)
        dark.write (m * j + k + 1) (rec k xj f1 f2)) dark) dark
    skelDeriv dconst drec m x nOut d 0 dark

/-- What the recurrences must produce: `D d z k` is the wanted value of order `d`, column `k` at `z`. -/
structure RecSpec (init1 : K → K) (dconst : K) (rec : ℕ → K → K → K → K)
    (drec : ℕ → ℕ → K → K → K → K → K) (D : ℕ → K → ℕ → K) : Prop where
  z0 : ∀ z, D 0 z 0 = 1
  z1 : ∀ z, D 0 z 1 = init1 z
  zs : ∀ z k, D 0 z (k + 2) = rec (k + 1) z (D 0 z (k + 1)) (D 0 z k)
  d0 : ∀ d z, D (d + 1) z 0 = 0
  d1 : ∀ z, D 1 z 1 = dconst
  d2 : ∀ d z, D (d + 2) z 1 = 0
  ds : ∀ d z k, D (d + 1) z (k + 2) =
    drec d (k + 1) z (D d z (k + 1)) (D (d + 1) z (k + 1)) (D (d + 1) z k)

variable {init1 : K → K} {dconst : K} {rec : ℕ → K → K → K → K}
  {drec : ℕ → ℕ → K → K → K → K → K} {D : ℕ → K → ℕ → K}

omit [Zero K] [One K] in
/-- `for k: b[m*k] = u k; b[m*k+1] = v k`. -/
theorem View.fillTwo {b : Buf K} {n m : ℕ} {M : ℕ → ℕ → Option K} (h : View b n m M) (hm : 2 ≤ m)
    (u v : ℕ → K) {body : ℕ → Buf K → Except Fault (Buf K)}
    (hbody : ∀ j < n, ∀ b', body j b' = b'.write (m * j) (u j) >>= fun b'' =>
      b''.write (m * j + 1) (v j)) :
    Runs (loop 0 n body b)
      (fun b' => View b' n m (fun j c => if c = 0 then some (u j) else
        if c = 1 then some (v j) else M j c)) := by
  have key := loop_spec (body := body) (s := b) (lo := 0) (hi := n)
    (fun i b' => View b' n m (fun j c => if j < i then (if c = 0 then some (u j) else
        if c = 1 then some (v j) else M j c) else M j c))
    (Nat.zero_le _) (h.congr (by intros; simp)) ?_
  · refine key.mono fun b' hb' => hb'.congr ?_
    intro j hj c _
    simp [hj]
  · intro j b' _ hj hb'
    rw [hbody j hj b']
    have h0 : (0 : ℕ) < m := by omega
    have h1 : (1 : ℕ) < m := by omega
    refine (hb'.write hj h0 (u j)).bind fun b1 hb1 => ?_
    refine (hb1.write hj h1 (v j)).mono fun b2 hb2 => hb2.congr ?_
    intro j' _ c' _
    by_cases hjj : j' = j
    · subst hjj
      by_cases hc0 : c' = 0
      · subst hc0; simp
      · by_cases hc1 : c' = 1
        · subst hc1; simp
        · simp [hc0, hc1]
    · have : (j' < j + 1) = (j' < j) := by apply propext; omega
      simp [hjj, this]

theorem skelDeriv_step {m n d : ℕ} {x : Buf K} {xs : ℕ → K} (hm : 3 ≤ m)
    (hx : ∀ j < n, x.read j = .ok (xs j)) (S : RecSpec init1 dconst rec drec D) {F : Buf K}
    (hF : View F n m (fun j c => some (D d (xs j) c))) :
    Runs (do
      let F1 ←
        (if d = 0 then
          loop 0 n (fun k F => do
            let F ← F.write (m * k) 0
            F.write (m * k + 1) dconst) F
        else if d = 1 then
          loop 0 n (fun k F => F.write (m * k + 1) 0) F
        else .ok F)
      loop 1 (m - 1) (fun k F2 =>
        loop 0 n (fun j F2 => do
          let xj ← x.read j
          let e ← F.read (m * j + k)
          let f1 ← F2.read (m * j + k)
          let f2 ← F2.read (m * j + k - 1)
          F2.write (m * j + k + 1) (drec d k xj e f1 f2)) F2) F1)
      (fun b => View b n m (fun j c => some (D (d + 1) (xs j) c))) := by
  have first : Runs (if d = 0 then
          loop 0 n (fun k F => do
            let F ← F.write (m * k) 0
            F.write (m * k + 1) dconst) F
        else if d = 1 then
          loop 0 n (fun k F => F.write (m * k + 1) 0) F
        else .ok F)
      (fun b => View b n m (fun j c => if c < 2 then some (D (d + 1) (xs j) c)
        else some (D d (xs j) c))) := by
    split_ifs with h0 h1
    · subst h0
      refine (View.fillTwo hF (by omega) (fun _ => 0) (fun _ => dconst) (fun _ _ _ => rfl)).mono
        fun b hb => hb.congr ?_
      intro j _ c _
      by_cases hc0 : c = 0
      · subst hc0; simp [S.d0]
      · by_cases hc1 : c = 1
        · subst hc1; simp [S.d1]
        · have : ¬ c < 2 := by omega
          simp [hc0, hc1, this]
    · subst h1
      refine (hF.fillCol (k := 1) (by omega) (fun _ => 0) (fun _ _ _ _ _ _ => rfl)).mono
        fun b hb => hb.congr ?_
      intro j _ c _
      by_cases hc0 : c = 0
      · subst hc0; simp [S.d0]
      · by_cases hc1 : c = 1
        · subst hc1; simp [S.d2]
        · have : ¬ c < 2 := by omega
          simp [hc1, this]
    · refine Runs.ok (hF.congr ?_)
      intro j _ c _
      obtain ⟨d, rfl⟩ : ∃ e, d = e + 2 := ⟨d - 2, by omega⟩
      by_cases hc0 : c = 0
      · subst hc0; simp [S.d0]
      · by_cases hc1 : c = 1
        · subst hc1; simp [S.d2]
        · have : ¬ c < 2 := by omega
          simp [this]
  refine first.bind fun F1 hF1 => ?_
  have second := loop_spec (lo := 1) (hi := m - 1) (s := F1) (body := fun k F2 =>
        loop 0 n (fun j F2 => do
          let xj ← x.read j
          let e ← F.read (m * j + k)
          let f1 ← F2.read (m * j + k)
          let f2 ← F2.read (m * j + k - 1)
          F2.write (m * j + k + 1) (drec d k xj e f1 f2)) F2)
    (fun k b => View b n m (fun j c => if c < k + 1 then some (D (d + 1) (xs j) c)
        else some (D d (xs j) c))) (by omega) hF1 ?_
  · refine second.mono fun b hb => hb.congr ?_
    intro j _ c hc
    have : c < m - 1 + 1 := by omega
    simp [this]
  · intro k F2 hk1 hk2 hF2
    obtain ⟨k, rfl⟩ : ∃ e, k = e + 1 := ⟨k - 1, by omega⟩
    refine (hF2.fillCol (k := k + 2) (by omega)
      (fun j => D (d + 1) (xs j) (k + 2)) ?_).mono fun b hb => hb.congr ?_
    · intro j hj b' M' hb' hM'
      rw [hx j hj, ok_bind]
      have r1 : F.read (m * j + (k + 1)) = .ok (D d (xs j) (k + 1)) :=
        hF.read hj (by omega) rfl
      have r2 : b'.read (m * j + (k + 1)) = .ok (D (d + 1) (xs j) (k + 1)) := by
        refine hb'.read hj (by omega) ?_
        rw [hM' _ (by omega) (by omega)]; simp
      have r3 : b'.read (m * j + (k + 1) - 1) = .ok (D (d + 1) (xs j) k) := by
        refine hb'.read (c := k) hj (by omega) ?_
        rw [hM' _ (by omega) (by omega)]
        have : k < k + 1 + 1 := by omega
        simp [this]
      rw [r1, ok_bind, r2, ok_bind, r3, ok_bind, S.ds]
      rfl
    · intro j _ c _
      by_cases hc : c = k + 2
      · subst hc; simp
      · have : (c < k + 1 + 1 + 1) = (c < k + 1 + 1) := by apply propext; omega
        simp [hc, this]

theorem skelDeriv_spec {m n : ℕ} {x : Buf K} {xs : ℕ → K} (hm : 3 ≤ m)
    (hx : ∀ j < n, x.read j = .ok (xs j)) (S : RecSpec init1 dconst rec drec D)
    (left d : ℕ) {F : Buf K} (hF : View F n m (fun j c => some (D d (xs j) c))) :
    Runs (skelDeriv dconst drec m x n left d F)
      (fun b => View b n m (fun j c => some (D (d + left) (xs j) c))) := by
  induction left generalizing d F with
  | zero => exact Runs.ok hF
  | succ left ih =>
    have hs := skelDeriv_step hm hx S hF
    rw [skelDeriv]
    have := hs.bind (f := skelDeriv dconst drec m x n left (d + 1)) (fun b hb => ih (d + 1) hb)
    rw [show d + (left + 1) = d + 1 + left by omega]
    rw [bind_assoc] at this
    exact this

theorem skelHint_spec {m n d : ℕ} {x : Buf K} {xs : ℕ → K} (hm : 1 ≤ m)
    (hx : ∀ j < n, x.read j = .ok (xs j)) (S : RecSpec init1 dconst rec drec D)
    {M : ℕ → ℕ → Option K} {dark : Buf K} (hdark : View dark n m M) :
    Runs (skelHint init1 dconst rec drec m d x n dark)
      (fun b => View b n m (fun j c => some (D d (xs j) c))) := by
  unfold skelHint
  split_ifs with h1 hd h2 hd2 hd1
  · subst h1
    refine (hdark.fillCol (k := 0) (by omega) (fun _ => 0) (by intros; simp)).mono
      fun b hb => hb.congr ?_
    intro j _ c hc
    obtain rfl : c = 0 := by omega
    obtain ⟨d, rfl⟩ : ∃ e, d = e + 1 := ⟨d - 1, by omega⟩
    simp [S.d0]
  · subst h1
    refine (hdark.fillCol (k := 0) (by omega) (fun _ => 1) (by intros; simp)).mono
      fun b hb => hb.congr ?_
    intro j _ c hc
    obtain rfl : c = 0 := by omega
    obtain rfl : d = 0 := by omega
    simp [S.z0]
  · subst h2
    have key := loop_spec (lo := 0) (hi := 2 * n) (s := dark)
      (body := fun k (dark : Buf K) => dark.write k 0)
      (fun i b => b.size = n * 2 ∧ ∀ k < i, b.cell k = some 0) (Nat.zero_le _)
      ⟨hdark.size, by intro k hk; omega⟩ ?_
    · refine key.mono fun b hb => ⟨hb.1, ?_⟩
      intro j hj c hc
      rw [hb.2 _ (by omega)]
      obtain ⟨d, rfl⟩ : ∃ e, d = e + 2 := ⟨d - 2, by omega⟩
      rcases (by omega : c = 0 ∨ c = 1) with rfl | rfl
      · simp [S.d0]
      · simp [S.d2]
    · intro k b _ hk ⟨hb1, hb2⟩
      refine ⟨⟨b.size, Function.update b.cell k (some 0)⟩, ?_, hb1, ?_⟩
      · have : k < b.size := by rw [hb1]; omega
        simp [Buf.write, this]
      · intro k' hk'
        by_cases h : k' = k
        · subst h; simp
        · simp [Function.update_of_ne h, hb2 k' (by omega)]
  · subst h2
    obtain rfl : d = 1 := by omega
    refine (View.fillTwo hdark (by omega) (fun _ => 0) (fun _ => dconst) (fun _ _ _ => rfl)).mono
      fun b hb => hb.congr ?_
    intro j _ c hc
    rcases (by omega : c = 0 ∨ c = 1) with rfl | rfl
    · simp [S.d0]
    · simp [S.d1]
  · subst h2
    obtain rfl : d = 0 := by omega
    refine (View.fillTwo hdark (by omega) (fun _ => 1) (fun j => init1 (xs j)) ?_).mono
      fun b hb => hb.congr ?_
    · intro j hj b'
      rw [hx j hj]; rfl
    intro j _ c hc
    rcases (by omega : c = 0 ∨ c = 1) with rfl | rfl
    · simp [S.z0]
    · simp [S.z1]
  · have hm3 : 3 ≤ m := by omega
    refine (View.fillTwo hdark (by omega) (fun _ => 1) (fun j => init1 (xs j)) ?_).bind
      fun b hb => ?_
    · intro j hj b'
      rw [hx j hj]; rfl
    have second := loop_spec (lo := 1) (hi := m - 1) (s := b) (body := fun k F2 =>
          loop 0 n (fun j F2 => do
            let xj ← x.read j
            let f1 ← F2.read (m * j + k)
            let f2 ← F2.read (m * j + k - 1)
            F2.write (m * j + k + 1) (rec k xj f1 f2)) F2)
      (fun k b => View b n m (fun j c => if c < k + 1 then some (D 0 (xs j) c)
          else M j c)) (by omega) (hb.congr ?_) ?_
    · refine second.bind fun b1 hb1 => ?_
      have := skelDeriv_spec hm3 hx S d 0 (F := b1) (hb1.congr ?_)
      · simpa using this
      · intro j _ c hc
        have : c < m - 1 + 1 := by omega
        simp [this]
    · intro j _ c _
      by_cases hc0 : c = 0
      · subst hc0; simp [S.z0]
      · by_cases hc1 : c = 1
        · subst hc1; simp [S.z1]
        · have : ¬ c < 2 := by omega
          simp [hc0, hc1, this]
    · intro k F2 hk1 hk2 hF2
      obtain ⟨k, rfl⟩ : ∃ e, k = e + 1 := ⟨k - 1, by omega⟩
      refine (hF2.fillCol (k := k + 2) (by omega)
        (fun j => D 0 (xs j) (k + 2)) ?_).mono fun b hb => hb.congr ?_
      · intro j hj b' M' hb' hM'
        rw [hx j hj, ok_bind]
        have r2 : b'.read (m * j + (k + 1)) = .ok (D 0 (xs j) (k + 1)) := by
          refine hb'.read hj (by omega) ?_
          rw [hM' _ (by omega) (by omega)]; simp
        have r3 : b'.read (m * j + (k + 1) - 1) = .ok (D 0 (xs j) k) := by
          refine hb'.read (c := k) hj (by omega) ?_
          rw [hM' _ (by omega) (by omega)]
          have : k < k + 1 + 1 := by omega
          simp [this]
        rw [r2, ok_bind, r3, ok_bind, S.zs]
        rfl
      · intro j _ c _
        by_cases hc : c = k + 2
        · subst hc; simp
        · have : (c < k + 1 + 1 + 1) = (c < k + 1 + 1) := by apply propext; omega
          simp [hc, this]

end Verif
