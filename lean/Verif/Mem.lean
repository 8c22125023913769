import Mathlib.Logic.Function.Basic
import Mathlib.Data.List.Range
import Mathlib.Tactic.Linarith
import Mathlib.Tactic.Ring
import Mathlib.Tactic.Common

/-!
# A memory machine for transliterating the C++ code of /repo/src/tfc/utils/BF.cc

`Buf` is a heap block (`new double[size]`, `malloc`): a size and cells that are `none` until written.
Out-of-range accesses and reads of unwritten cells are faults, so "the program returns `ok`" means
"no memory error happened".  `loop` is `for (k = lo; k < hi; k++)`.
-/

namespace Verif.Mem

/-- What can go wrong when the modelled C++ code touches memory. -/
inductive Fault
  | oobRead
  | oobWrite
  | uninit
  | badAlloc
  deriving DecidableEq, Repr

/-- A heap block. `cell i = none`: cell `i` has not been written yet. -/
structure Buf (α : Type) where
  size : ℕ
  cell : ℕ → Option α

variable {α β σ τ ε : Type}

/-- `new double[n]` / `malloc`: all cells uninitialised. -/
def alloc (n : ℕ) : Buf α := ⟨n, fun _ => none⟩

/-- A block holding the `n` values `f 0, …, f (n-1)` (an array handed in by the caller). -/
def Buf.ofFn (n : ℕ) (f : ℕ → α) : Buf α := ⟨n, fun i => if i < n then some (f i) else none⟩

/-- `b[i]` used as an rvalue. -/
def Buf.read (b : Buf α) (i : ℕ) : Except Fault α :=
  if i < b.size then
    match b.cell i with
    | some v => .ok v
    | none => .error .uninit
  else .error .oobRead

/-- `b[i] = v`. -/
def Buf.write (b : Buf α) (i : ℕ) (v : α) : Except Fault (Buf α) :=
  if i < b.size then .ok ⟨b.size, Function.update b.cell i (some v)⟩ else .error .oobWrite

/-- Pointer arithmetic `b + k`. -/
def Buf.drop (b : Buf α) (k : ℕ) : Buf α := ⟨b.size - k, fun i => b.cell (i + k)⟩

/-- `for (k = lo; k < hi; k++) s = body(k, s)`. -/
def loop (lo hi : ℕ) (body : ℕ → σ → Except ε σ) (s : σ) : Except ε σ :=
  (List.range' lo (hi - lo)).foldlM (fun s k => body k s) s

/-- Total correctness: the program returns normally, in a state satisfying `Q`. -/
def Runs (p : Except ε σ) (Q : σ → Prop) : Prop := ∃ s, p = .ok s ∧ Q s

theorem Runs.bind {p : Except ε σ} {f : σ → Except ε τ} {Q : σ → Prop} {R : τ → Prop}
    (h : Runs p Q) (hf : ∀ s, Q s → Runs (f s) R) : Runs (p >>= f) R := by
  obtain ⟨s, rfl, hs⟩ := h
  exact hf s hs

theorem Runs.mono {p : Except ε σ} {Q R : σ → Prop} (h : Runs p Q) (hq : ∀ s, Q s → R s) :
    Runs p R := by
  obtain ⟨s, hp, hs⟩ := h
  exact ⟨s, hp, hq s hs⟩

theorem Runs.ok {s : σ} {Q : σ → Prop} (h : Q s) : Runs (.ok s : Except ε σ) Q := ⟨s, rfl, h⟩

theorem Runs.pure {s : σ} {Q : σ → Prop} (h : Q s) : Runs (Pure.pure s : Except ε σ) Q := ⟨s, rfl, h⟩

theorem ok_bind (a : σ) (f : σ → Except ε τ) : (Except.ok a >>= f) = f a := rfl

@[simp] theorem loop_self (lo : ℕ) (body : ℕ → σ → Except ε σ) (s : σ) :
    loop lo lo body s = .ok s := by
  simp [loop, Pure.pure, Except.pure]

theorem loop_empty {lo hi : ℕ} (h : hi ≤ lo) (body : ℕ → σ → Except ε σ) (s : σ) :
    loop lo hi body s = .ok s := by
  have : hi - lo = 0 := by omega
  simp [loop, this, Pure.pure, Except.pure]

theorem loop_succ {lo hi : ℕ} (h : lo < hi) (body : ℕ → σ → Except ε σ) (s : σ) :
    loop lo hi body s = body lo s >>= fun s' => loop (lo + 1) hi body s' := by
  have h1 : hi - lo = (hi - (lo + 1)) + 1 := by omega
  simp only [loop, h1, List.range'_succ, List.foldlM_cons]

/-- The invariant rule for loops. -/
theorem loop_spec {lo hi : ℕ} {body : ℕ → σ → Except ε σ} (I : ℕ → σ → Prop) {s : σ}
    (hle : lo ≤ hi) (h0 : I lo s)
    (step : ∀ k s, lo ≤ k → k < hi → I k s → Runs (body k s) (I (k + 1))) :
    Runs (loop lo hi body s) (I hi) := by
  obtain ⟨n, rfl⟩ := Nat.exists_eq_add_of_le hle
  induction n generalizing lo s with
  | zero => exact ⟨s, by simp, h0⟩
  | succ n ih =>
    rw [loop_succ (by omega)]
    refine (step lo s le_rfl (by omega) h0).bind fun s' hs' => ?_
    have := ih (lo := lo + 1) (s := s') hs' (by omega)
      (fun k s hk hk' hI => step k s (by omega) (by omega) hI)
    rwa [show lo + 1 + n = lo + (n + 1) by omega] at this

/-! ### Matrix view of a block: row-major `n × m`, row `j` column `c` at index `m*j + c` -/

/-- The block has exactly `n*m` cells and cell `(j,c)` is `M j c`. -/
structure View (b : Buf α) (n m : ℕ) (M : ℕ → ℕ → Option α) : Prop where
  size : b.size = n * m
  cell : ∀ j < n, ∀ c < m, b.cell (m * j + c) = M j c

theorem idx_lt {n m j c : ℕ} (hj : j < n) (hc : c < m) : m * j + c < n * m := by
  calc m * j + c < m * j + m := by omega
    _ = m * (j + 1) := by ring
    _ ≤ m * n := Nat.mul_le_mul_left _ hj
    _ = n * m := Nat.mul_comm _ _

theorem idx_inj {m j c j' c' : ℕ} (hc : c < m) (hc' : c' < m) (h : m * j + c = m * j' + c') :
    j = j' ∧ c = c' := by
  have hm : 0 < m := by omega
  have h1 : (m * j + c) / m = j := by
    rw [Nat.mul_add_div hm, Nat.div_eq_of_lt hc, Nat.add_zero]
  have h2 : (m * j' + c') / m = j' := by
    rw [Nat.mul_add_div hm, Nat.div_eq_of_lt hc', Nat.add_zero]
  have hj : j = j' := by rw [← h1, ← h2, h]
  subst hj
  exact ⟨rfl, by omega⟩

theorem View.read {b : Buf α} {n m : ℕ} {M : ℕ → ℕ → Option α} (h : View b n m M) {j c : ℕ}
    (hj : j < n) (hc : c < m) {v : α} (hv : M j c = some v) : b.read (m * j + c) = .ok v := by
  have := h.cell j hj c hc
  simp [Buf.read, h.size, idx_lt hj hc, this, hv]

theorem View.congr {b : Buf α} {n m : ℕ} {M M' : ℕ → ℕ → Option α} (h : View b n m M)
    (hM : ∀ j < n, ∀ c < m, M j c = M' j c) : View b n m M' :=
  ⟨h.size, fun j hj c hc => by rw [h.cell j hj c hc, hM j hj c hc]⟩

theorem View.write {b : Buf α} {n m : ℕ} {M : ℕ → ℕ → Option α} (h : View b n m M) {j c : ℕ}
    (hj : j < n) (hc : c < m) (v : α) :
    Runs (b.write (m * j + c) v)
      (fun b' => View b' n m (fun j' c' => if j' = j ∧ c' = c then some v else M j' c')) := by
  refine ⟨⟨b.size, Function.update b.cell (m * j + c) (some v)⟩, ?_, ?_⟩
  · simp [Buf.write, h.size, idx_lt hj hc]
  · refine ⟨h.size, fun j' hj' c' hc' => ?_⟩
    by_cases hjc : j' = j ∧ c' = c
    · obtain ⟨rfl, rfl⟩ := hjc
      simp
    · have hne : m * j' + c' ≠ m * j + c := fun he => hjc (idx_inj hc' hc he)
      simp [Function.update_of_ne hne, hjc, h.cell j' hj' c' hc']

/-- Filling one column: `for (j = 0; j < n; j++) b[m*j+k] = v j`, where the value may be computed from
the other columns of row `j`. -/
theorem View.fillCol {b : Buf α} {n m : ℕ} {M : ℕ → ℕ → Option α} (h : View b n m M) {k : ℕ}
    (hk : k < m) (v : ℕ → α) {body : ℕ → Buf α → Except Fault (Buf α)}
    (hbody : ∀ j < n, ∀ b' M', View b' n m M' → (∀ c < m, c ≠ k → M' j c = M j c) →
      body j b' = b'.write (m * j + k) (v j)) :
    Runs (loop 0 n body b)
      (fun b' => View b' n m (fun j c => if c = k then some (v j) else M j c)) := by
  have key := loop_spec (body := body) (s := b) (lo := 0) (hi := n)
    (fun i b' => View b' n m (fun j c => if c = k ∧ j < i then some (v j) else M j c))
    (Nat.zero_le _) (h.congr (by intros; simp)) ?_
  · refine key.mono fun b' hb' => hb'.congr ?_
    intro j hj c _
    simp [hj]
  · intro j b' _ hj hb'
    rw [hbody j hj b' _ hb' (by intro c _ hc; simp [hc])]
    refine (hb'.write hj hk (v j)).mono fun b'' hb'' => hb''.congr ?_
    intro j' _ c' _
    by_cases h1 : j' = j ∧ c' = k
    · obtain ⟨rfl, rfl⟩ := h1; simp
    · by_cases hck : c' = k
      · subst hck
        have hjj : j' ≠ j := fun he => h1 ⟨he, rfl⟩
        have : (j' < j + 1) = (j' < j) := by
          apply propext; omega
        simp [hjj, this]
      · simp [hck]

/-- Filling columns `lo, …, hi-1` one after the other. -/
theorem View.fillCols {b : Buf α} {n m lo hi : ℕ} {M : ℕ → ℕ → Option α}
    (h : View b n m M) (P : ℕ → ℕ → α) (hlo : lo ≤ hi)
    {body : ℕ → Buf α → Except Fault (Buf α)}
    (hbody : ∀ k, lo ≤ k → k < hi → ∀ b',
      View b' n m (fun j c => if lo ≤ c ∧ c < k then some (P j c) else M j c) →
      Runs (body k b') (fun b'' => View b'' n m (fun j c => if c = k then some (P j c) else
        if lo ≤ c ∧ c < k then some (P j c) else M j c))) :
    Runs (loop lo hi body b)
      (fun b' => View b' n m (fun j c => if lo ≤ c ∧ c < hi then some (P j c) else M j c)) := by
  refine loop_spec
    (fun i b' => View b' n m (fun j c => if lo ≤ c ∧ c < i then some (P j c) else M j c))
    hlo (h.congr ?_) ?_
  · intro j _ c _
    have : ¬ (lo ≤ c ∧ c < lo) := by omega
    simp [this]
  · intro k b' hk hk' hb'
    refine (hbody k hk hk' b' hb').mono fun b'' hb'' => hb''.congr ?_
    intro j _ c _
    by_cases hck : c = k
    · subst hck; simp [hk]
    · have : (lo ≤ c ∧ c < k + 1) ↔ (lo ≤ c ∧ c < k) := by omega
      simp [hck, this]

theorem Buf.ofFn_read {n : ℕ} {f : ℕ → α} {i : ℕ} (h : i < n) :
    (Buf.ofFn n f).read i = .ok (f i) := by
  simp [Buf.ofFn, Buf.read, h]

theorem View.alloc (n m : ℕ) : View (alloc (n * m) : Buf α) n m (fun _ _ => none) :=
  ⟨rfl, fun _ _ _ _ => rfl⟩

end Verif.Mem
