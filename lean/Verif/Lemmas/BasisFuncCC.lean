import Verif.Model.BasisFuncCC
import Verif.Lemmas.Columns

/-! # Refinement of `BasisFunc::H` and `BasisFunc::xla` -/

namespace Verif.Mem

variable {α σ τ ε : Type}

/-- Partial correctness of a program: if it returns normally the result satisfies `Q`. -/
def Post (p : Except ε σ) (Q : σ → Prop) : Prop := ∀ s, p = .ok s → Q s

theorem Post.bind {p : Except ε σ} {f : σ → Except ε τ} {Q : σ → Prop} {R : τ → Prop}
    (h : Post p Q) (hf : ∀ s, Q s → Post (f s) R) : Post (p >>= f) R := by
  intro t ht
  cases p with
  | error e => exact absurd ht (by intro h; cases h)
  | ok s => exact hf s (h s rfl) t ht

theorem Post.mono {p : Except ε σ} {Q R : σ → Prop} (h : Post p Q) (hq : ∀ s, Q s → R s) :
    Post p R := fun s hs => hq s (h s hs)

theorem loop_post {lo hi : ℕ} {body : ℕ → σ → Except ε σ} (I : ℕ → σ → Prop) {s : σ}
    (hle : lo ≤ hi) (h0 : I lo s)
    (step : ∀ k s, lo ≤ k → k < hi → I k s → Post (body k s) (I (k + 1))) :
    Post (loop lo hi body s) (I hi) := by
  obtain ⟨n, rfl⟩ := Nat.exists_eq_add_of_le hle
  induction n generalizing lo s with
  | zero =>
    intro t ht
    simp at ht
    subst ht; exact h0
  | succ n ih =>
    rw [loop_succ (by omega)]
    refine (step lo s le_rfl (by omega) h0).bind fun s' hs' => ?_
    have := ih (lo := lo + 1) (s := s') hs' (by omega)
      (fun k s hk hk' hI => step k s (by omega) (by omega) hI)
    rwa [show lo + 1 + n = lo + (n + 1) by omega] at this

theorem write_post (b : Buf α) (i : ℕ) (v : α) :
    Post (b.write i v) (fun b' => b'.size = b.size ∧ i < b.size) := by
  intro b' hb'
  unfold Buf.write at hb'
  split at hb'
  · cases hb'; exact ⟨rfl, by assumption⟩
  · cases hb'

theorem not_runs_of_post {p : Except ε σ} (h : Post p (fun _ => False)) : ∃ e, p = .error e := by
  cases p with
  | error e => exact ⟨e, rfl⟩
  | ok s => exact (h s rfl).elim

end Verif.Mem

set_option linter.unusedSectionVars false

namespace Verif

open Verif.Mem Verif.Model.CC Verif.Spec

variable {K : Type} [Zero K] [One K] [Add K] [Sub K] [Mul K] [Div K] [Neg K] [NatCast K] [Pow K ℕ]

/-- The contract of a `Hint`: given points `zs` it fills the `n × m` block with `E d (zs j) c`. -/
def HintSpec (hint : ℕ → ℕ → Buf K → ℕ → Buf K → Except Fault (Buf K)) (m d : ℕ)
    (E : K → ℕ → K) : Prop :=
  ∀ (n : ℕ) (z : Buf K) (zs : ℕ → K) (dark : Buf K) (M : ℕ → ℕ → Option K),
    (∀ j < n, z.read j = .ok (zs j)) → View dark n m M →
    Runs (hint m d z n dark) (fun b => View b n m (fun j c => some (E (zs j) c)))

theorem removed_iff (bf : BasisFunc K) (j : ℕ) : bf.removed j = true ↔ (j : ℤ) ∈ bf.nC := by
  simp [BasisFunc.removed]

theorem mapPoints_spec (bf : BasisFunc K) {x : Buf K} {n : ℕ} {xs : ℕ → K}
    (hx : ∀ j < n, x.read j = .ok (xs j)) :
    Runs (bf.mapPoints x n) (fun z => ∀ j < n, z.read j = .ok ((xs j - bf.x0) * bf.c + bf.z0)) := by
  have hv : View (alloc n : Buf K) n 1 (fun _ _ => none) := by
    have := View.alloc (α := K) n 1
    rwa [Nat.mul_one] at this
  refine (hv.fillCol (k := 0) (by omega)
    (fun j => (xs j - bf.x0) * bf.c + bf.z0) ?_).mono fun z hz j hj => ?_
  · intro j hj b' M' _ _
    rw [hx j hj, ok_bind]
    simp
  · have := hz.read hj (c := 0) (by omega) (v := (xs j - bf.x0) * bf.c + bf.z0) (by simp)
    simpa using this

/-- Copying with column removal. -/
theorem copyOut_removed (bf : BasisFunc K) {n mOut : ℕ} {dMult : K} {dark F : Buf K}
    {V : ℕ → ℕ → K} {M : ℕ → ℕ → Option K}
    (hd : View dark n bf.m (fun j c => some (V j c))) (hF : View F n mOut M)
    (hlen : (keptColumns bf.m bf.nC).length ≤ mOut) :
    Runs (bf.copyOut n mOut false dMult dark F) (fun b => View b n mOut (fun r i =>
      ((keptColumns bf.m bf.nC)[i]?).elim (M r i) (fun j => some (V r j * dMult)))) := by
  unfold BasisFunc.copyOut
  rw [if_pos rfl]
  refine Runs.bind (Q := fun s => View s.2 n mOut (fun r i =>
      ((keptColumns bf.m bf.nC)[i]?).elim (M r i) (fun j => some (V r j * dMult)))) ?_
    (fun s hs => Runs.ok hs)
  refine (loop_spec (fun j (s : ℕ × Buf K) => s.1 = (keptColumns j bf.nC).length ∧
      View s.2 n mOut (fun r i =>
        ((keptColumns j bf.nC)[i]?).elim (M r i) (fun j => some (V r j * dMult))))
    (Nat.zero_le _) ⟨rfl, by simpa [keptColumns] using hF⟩ ?_).mono fun s hs => hs.2
  rintro j ⟨i, F⟩ _ hj ⟨hi, hv⟩
  simp only at hi hv
  subst hi
  by_cases hr : bf.removed j = true
  · have hmem := (removed_iff bf j).mp hr
    have hk : keptColumns (j + 1) bf.nC = keptColumns j bf.nC := by
      rw [keptColumns_succ]; simp [hmem]
    simp only [hr, if_true]
    exact Runs.ok ⟨by rw [hk], by rw [hk]; exact hv⟩
  · have hmem : (j : ℤ) ∉ bf.nC := fun h => hr ((removed_iff bf j).mpr h)
    have hk : keptColumns (j + 1) bf.nC = keptColumns j bf.nC ++ [j] := by
      rw [keptColumns_succ]; simp [hmem]
    have hlt : (keptColumns j bf.nC).length < mOut := by
      have := keptColumns_length_mono bf.nC (Nat.succ_le_of_lt hj)
      rw [Nat.succ_eq_add_one, hk, List.length_append] at this
      simp only [List.length_singleton] at this
      omega
    simp only [hr]
    refine Runs.bind (hv.fillCol hlt (fun k => V k j * dMult) ?_) (fun F' hF' => Runs.ok ⟨?_, ?_⟩)
    · intro k hk b' M' _ _
      rw [hd.read hk hj rfl, ok_bind]
    · simp [hk]
    · refine hF'.congr fun r _ i _ => ?_
      simp only [hk]
      rcases lt_trichotomy i (keptColumns j bf.nC).length with h | h | h
      · rw [if_neg (by omega), List.getElem?_append_left h]
      · subst h; simp
      · rw [if_neg (by omega), List.getElem?_eq_none (by omega),
          List.getElem?_eq_none (by simp; omega)]

theorem copyOut_full (bf : BasisFunc K) {n mOut : ℕ} {dMult : K} {dark F : Buf K}
    {V : ℕ → ℕ → K} {M : ℕ → ℕ → Option K}
    (hd : View dark n bf.m (fun j c => some (V j c))) (hF : View F n bf.m M) :
    Runs (bf.copyOut n mOut true dMult dark F) (fun b => View b n bf.m (fun r j =>
      some (V r j * dMult))) := by
  unfold BasisFunc.copyOut
  rw [if_neg (by simp)]
  refine (hF.fillCols (fun r j => V r j * dMult) (Nat.zero_le bf.m) ?_).mono fun b hb =>
    hb.congr fun r _ c hc => ?_
  · intro j _ hj b' hb'
    refine (hb'.fillCol hj (fun k => V k j * dMult) ?_).mono fun b'' hb'' => hb''.congr ?_
    · intro k hk b'' M'' _ _
      rw [hd.read hk hj rfl, ok_bind]
    · intro r _ c _
      by_cases hc : c = j
      · subst hc; simp
      · simp [hc]
  · simp [hc]

/-- If more columns are kept than fit, the copy loop runs past the end of the block. -/
theorem copyOut_overrun (bf : BasisFunc K) {n mOut : ℕ} {dMult : K} {dark F : Buf K}
    (hn : 0 < n) (hF : F.size = mOut * n) (hlen : mOut < (keptColumns bf.m bf.nC).length) :
    ∃ e, bf.copyOut n mOut false dMult dark F = .error e := by
  apply not_runs_of_post
  unfold BasisFunc.copyOut
  rw [if_pos rfl]
  refine Post.bind (Q := fun _ => False) ?_ (fun s hs => hs.elim)
  refine (loop_post (fun j (s : ℕ × Buf K) => s.1 = (keptColumns j bf.nC).length ∧
      s.2.size = mOut * n ∧ s.1 ≤ mOut) (Nat.zero_le _) ⟨rfl, hF, by simp⟩ ?_).mono fun s hs => by
    omega
  rintro j ⟨i, F⟩ _ hj ⟨hi, hsz, hle⟩
  simp only at hi hsz hle
  subst hi
  by_cases hr : bf.removed j = true
  · have hmem := (removed_iff bf j).mp hr
    have hk : keptColumns (j + 1) bf.nC = keptColumns j bf.nC := by
      rw [keptColumns_succ]; simp [hmem]
    simp only [hr, if_true]
    intro s hs
    cases hs
    exact ⟨by rw [hk], hsz, hle⟩
  · have hmem : (j : ℤ) ∉ bf.nC := fun h => hr ((removed_iff bf j).mpr h)
    have hk : keptColumns (j + 1) bf.nC = keptColumns j bf.nC ++ [j] := by
      rw [keptColumns_succ]; simp [hmem]
    simp only [hr]
    refine Post.bind (Q := fun F' => F'.size = mOut * n ∧ (keptColumns j bf.nC).length < mOut) ?_ ?_
    · refine (loop_post (fun k (F' : Buf K) => F'.size = mOut * n ∧
        (0 < k → mOut * (k - 1) + (keptColumns j bf.nC).length < mOut * n))
        (Nat.zero_le _) ⟨hsz, by simp⟩ ?_).mono fun F' hF' => ⟨hF'.1, ?_⟩
      · intro k F' _ hk ⟨hs', _⟩
        refine Post.bind (Q := fun _ => True) (fun _ _ => trivial) fun v _ => ?_
        refine (write_post _ _ _).mono fun b hb => ⟨by omega, fun _ => ?_⟩
        rw [Nat.add_sub_cancel]
        omega
      · have := hF'.2 hn
        obtain ⟨p, rfl⟩ : ∃ p, n = p + 1 := ⟨n - 1, by omega⟩
        rw [Nat.add_sub_cancel, Nat.mul_succ] at this
        omega
    · intro F' hF' s hs
      cases hs
      exact ⟨by simp [hk], hF'.1, by simp only; omega⟩

/-- `BasisFunc::H` computes the advertised matrix when `nC` names distinct existing columns (or when all columns are
asked for). -/
theorem H_spec (bf : BasisFunc K) {d : ℕ} {E : K → ℕ → K} (hE : HintSpec bf.hint bf.m d E)
    {x : Buf K} {n : ℕ} {xs : ℕ → K} (hx : ∀ j < n, x.read j = .ok (xs j)) (full : Bool)
    (hC : full = true ∨ ValidRemoval bf.m bf.nC) :
    Runs (bf.H x n d full) (fun r => r.1 = n ∧ r.2.1 = (outColumns bf.m bf.nC full).length ∧
      View r.2.2 n (outColumns bf.m bf.nC full).length (fun j i =>
        ((outColumns bf.m bf.nC full)[i]?).map
          (fun k => E ((xs j - bf.x0) * bf.c + bf.z0) k * bf.c ^ d))) := by
  unfold BasisFunc.H
  refine (mapPoints_spec bf hx).bind fun z hz => ?_
  have hmo : (if full = true then (bf.m : ℤ) else (bf.m : ℤ) - (bf.nC.length : ℤ)) =
      ((outColumns bf.m bf.nC full).length : ℤ) := by
    cases full with
    | true => simp [outColumns]
    | false =>
      have hC' := (keptColumns_length_iff _ _).mpr (hC.resolve_left (by simp))
      simp only [outColumns, Bool.false_eq_true, if_false]
      omega
  simp only [hmo]
  rw [if_neg (by omega)]
  simp only [Int.toNat_natCast]
  refine (hE n z _ (alloc (n * bf.m)) _ hz (View.alloc n bf.m)).bind fun dark hdark => ?_
  have hF := View.alloc (α := K) n (outColumns bf.m bf.nC full).length
  rw [Nat.mul_comm] at hF
  cases full with
  | true =>
    have hl : (outColumns bf.m bf.nC true).length = bf.m := by simp [outColumns]
    rw [hl] at hF ⊢
    refine (copyOut_full bf (dMult := bf.c ^ d) hdark hF).bind fun F hF' => Runs.ok ⟨rfl, ?_, ?_⟩
    · rfl
    · refine hF'.congr fun j _ i hi => ?_
      simp [outColumns, hi]
  | false =>
    refine (copyOut_removed bf (dMult := bf.c ^ d) hdark hF (by simp [outColumns])).bind
      fun F hF' => Runs.ok ⟨rfl, rfl, ?_⟩
    refine hF'.congr fun j _ i hi => ?_
    simp only [outColumns, Bool.false_eq_true, if_false] at hi ⊢
    rw [List.getElem?_eq_getElem hi]
    rfl

/-- `BasisFunc::H` runs out of its block when `nC` repeats an index or names a column that does not exist. -/
theorem H_overrun (bf : BasisFunc K) (x : Buf K) {n : ℕ} (d : ℕ) (hn : 0 < n)
    (hC : ¬ ValidRemoval bf.m bf.nC) : ∃ e, bf.H x n d false = .error e := by
  unfold BasisFunc.H
  have hne := (not_congr (keptColumns_length_iff bf.m bf.nC)).mpr hC
  have hge := keptColumns_length_ge bf.m bf.nC
  simp only [Bool.false_eq_true, if_false]
  cases hz : bf.mapPoints x n with
  | error e => exact ⟨e, rfl⟩
  | ok z =>
    rw [ok_bind]
    by_cases hneg : (bf.m : ℤ) - (bf.nC.length : ℤ) < 0
    · exact ⟨.badAlloc, by rw [if_pos hneg]⟩
    · rw [if_neg hneg]
      cases hd : bf.hint bf.m d z n (alloc (n * bf.m)) with
      | error e => exact ⟨e, rfl⟩
      | ok dark =>
        rw [ok_bind]
        have hlt : ((bf.m : ℤ) - (bf.nC.length : ℤ)).toNat < (keptColumns bf.m bf.nC).length := by
          omega
        obtain ⟨e, he⟩ := copyOut_overrun bf (dMult := bf.c ^ d) (dark := dark)
          (F := alloc (((bf.m : ℤ) - (bf.nC.length : ℤ)).toNat * n)) hn rfl hlt
        rw [he]
        exact ⟨e, rfl⟩

/-- `BasisFunc::xla` into a block of the announced shape. -/
theorem xla_spec (bf : BasisFunc K) {d : ℕ} {E : K → ℕ → K} (hE : HintSpec bf.hint bf.m d E)
    {x : Buf K} {n : ℕ} {xs : ℕ → K} (hx : ∀ j < n, x.read j = .ok (xs j)) (full : Bool)
    {out : Buf K} {M : ℕ → ℕ → Option K}
    (hout : View out n (outColumns bf.m bf.nC full).length M) :
    Runs (bf.xla out x d full n (outColumns bf.m bf.nC full).length) (fun b =>
      View b n (outColumns bf.m bf.nC full).length (fun j i =>
        ((outColumns bf.m bf.nC full)[i]?).map
          (fun k => E ((xs j - bf.x0) * bf.c + bf.z0) k * bf.c ^ d))) := by
  unfold BasisFunc.xla
  refine (mapPoints_spec bf hx).bind fun z hz => ?_
  refine (hE n z _ (alloc (n * bf.m)) _ hz (View.alloc n bf.m)).bind fun dark hdark => ?_
  cases full with
  | true =>
    have hl : (outColumns bf.m bf.nC true).length = bf.m := by simp [outColumns]
    rw [hl] at hout ⊢
    refine (copyOut_full bf (dMult := bf.c ^ d) hdark hout).mono fun F hF' => ?_
    refine hF'.congr fun j _ i hi => ?_
    simp [outColumns, hi]
  | false =>
    refine (copyOut_removed bf (dMult := bf.c ^ d) hdark hout (by simp [outColumns])).mono
      fun F hF' => ?_
    refine hF'.congr fun j _ i hi => ?_
    simp only [outColumns, Bool.false_eq_true, if_false] at hi ⊢
    rw [List.getElem?_eq_getElem hi]
    rfl

end Verif
