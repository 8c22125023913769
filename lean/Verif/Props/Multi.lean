import Verif.Lemmas.NBasisCC
import Mathlib.Data.Set.Card

/-!
# The compiled n-dimensional tensor-product bases (C21–C24)

`nNew f` is the constructor of `nCP`, `nLeP`, `nFS`; the arrays `x0`, `xf` (length `dim`), `nC` (shape `dim × numC`), the
points (shape `dim × n`) and the derivative orders are handed over as C blocks.
-/

namespace Verif.Props

open Verif Verif.Mem Verif.Model.CC Verif.Spec

/-- C21. The object announces as many columns as there are multi-indices of total degree at most `m - 1` with at least one
coordinate that is not a removed function of its dimension; without removal the number is `binom(m-1+dim, dim)`. -/
theorem C21_count_cc (f : NFamily) {dim m numC : ℕ} (hdim : 1 ≤ dim) (hm : 1 ≤ m) (x0 xf : Fin dim → ℝ)
    (nC : Fin dim → Fin numC → ℤ) :
    ∃ bf, nNew f (Buf.ofVec x0) dim (Buf.ofVec xf) (Buf.ofMat nC) dim numC m = .ok bf ∧
      bf.numBasisFunc = Set.ncard {α : Fin dim → ℕ | ∑ k, α k ≤ m - 1 ∧ ¬ ∀ k, ∃ g, nC k g = α k} ∧
      bf.numBasisFuncFull = Set.ncard {α : Fin dim → ℕ | ∑ k, α k ≤ m - 1} ∧
      bf.numBasisFuncFull = (m - 1 + dim).choose dim := by
  obtain ⟨bf, hbf, hg⟩ := nNew_good f (m := m) hdim x0 xf nC
  have hcol : (fun l : Fin dim => tabRow numC (tabOf nC) l) = fun l => List.ofFn (nC l) := by
    funext l; exact tabRow_tabOf nC l
  have key : ∀ full (S : Set (Fin dim → ℕ)), (∀ α, α ∈ S ↔ Admissible m (fun l => List.ofFn (nC l)) full α) →
      (multiColumns m (fun l => List.ofFn (nC l)) full).length = S.ncard := by
    intro full S hS
    have ho := multiColumns_order m (fun l => List.ofFn (nC l)) full
    have : S = ((multiColumns m (fun l => List.ofFn (nC l)) full).toFinset : Set (Fin dim → ℕ)) := by
      ext α
      rw [hS, ← ho.mem]
      simp
    rw [this, Set.ncard_coe_finset, List.toFinset_card_of_nodup ho.nodup]
  refine ⟨bf, hbf, ?_, ?_, ?_⟩
  · rw [hg.num_, hcol]
    refine key false _ fun α => ?_
    simp only [Set.mem_setOf_eq, Admissible, Bool.false_eq_true, false_or, not_forall, List.mem_ofFn]
    exact and_congr (by omega) Iff.rfl
  · rw [hg.numFull_, hcol]
    refine key true _ fun α => ?_
    simp only [Set.mem_setOf_eq, Admissible, true_or, and_true]
    omega
  · rw [hg.numFull_, multiColumns_full_length hm]

/-- A concrete case: two dimensions, degree 2, the constant removed in the first and nothing in the second. -/
example : ∃ bf, nNew .cp (Buf.ofVec ![0, 0]) 2 (Buf.ofVec ![1, 2]) (Buf.ofMat ![![0], ![-1]]) 2 1 3 = .ok bf ∧
    bf.numBasisFuncFull = 6 := by
  obtain ⟨bf, h, _, _, h3⟩ := C21_count_cc .cp (m := 3) (by omega) (by omega) ![0, 0] ![1, 2] ![![0], ![-1]]
  exact ⟨bf, h, h3⟩

/-- C23 (compiled). The matrix returned for the orders `ds` (read as zero beyond their end) has as its columns the mixed
partial derivatives of the tensor-product functions, at the given points; the column list `L` is the same for all points and
orders. This includes C22 (`ds = []` or all zero) and, since the call returns normally with exactly the cells of the
matrix written, C24. -/
theorem C23_mixed_partials_cc (f : NFamily) {dim m numC : ℕ} (hdim : 1 ≤ dim) (hm : 1 ≤ m) (x0 xf : Fin dim → ℝ)
    (nC : Fin dim → Fin numC → ℤ) (full : Bool) :
    ∃ bf L, nNew f (Buf.ofVec x0) dim (Buf.ofVec xf) (Buf.ofMat nC) dim numC m = .ok bf ∧
      IsColumnOrder m (fun k => List.ofFn (nC k)) full L ∧
      ∀ (n : ℕ) (xs : ℕ → Fin dim → ℝ) (ds : List ℕ),
        ReturnsMatrix (bf.H (Buf.ofMat fun k (j : Fin n) => xs j k) n (Buf.ofList ds) ds.length full) n L
          (fun j α => mixedPartial (fun k => ds.getD k 0) (f.cls.tensor x0 xf α) (xs j)) := by
  obtain ⟨bf, hbf, hg⟩ := nNew_good f (m := m) hdim x0 xf nC
  refine ⟨bf, multiColumns m (fun l => List.ofFn (nC l)) full, hbf, multiColumns_order _ _ _, fun n xs ds => ?_⟩
  have hcol : (fun l : Fin dim => tabRow numC (tabOf nC) l) = fun l => List.ofFn (nC l) := by
    funext l; exact tabRow_tabOf nC l
  have hnum : (if full = true then bf.numBasisFuncFull else bf.numBasisFunc) =
      (multiColumns m (fun l => List.ofFn (nC l)) full).length := by
    cases full
    · simp only [Bool.false_eq_true, if_false]; rw [hg.num_, hcol]
    · simp only [if_true]; rw [hg.numFull_, hcol]
  obtain ⟨F, h1, h2, h3⟩ := nHint_mixed f hdim hm x0 xf nC hg n xs ds full
    (F := alloc ((multiColumns m (fun l => List.ofFn (nC l)) full).length * n)) (Nat.mul_comm _ _)
  refine ⟨F, ?_, h2, h3⟩
  unfold NBasisFunc.H
  simp only [hnum]
  rw [h1, ok_bind]

/-- C22 (compiled). At order zero the columns are the tensor products of the univariate functions chosen by the admissible
multi-indices, each once, in an order that is the same for all points. -/
theorem C22_columns_cc (f : NFamily) {dim m numC : ℕ} (hdim : 1 ≤ dim) (hm : 1 ≤ m) (x0 xf : Fin dim → ℝ)
    (nC : Fin dim → Fin numC → ℤ) (full : Bool) :
    ∃ bf L, nNew f (Buf.ofVec x0) dim (Buf.ofVec xf) (Buf.ofMat nC) dim numC m = .ok bf ∧
      IsColumnOrder m (fun k => List.ofFn (nC k)) full L ∧
      ∀ (n : ℕ) (xs : ℕ → Fin dim → ℝ),
        ReturnsMatrix (bf.H (Buf.ofMat fun k (j : Fin n) => xs j k) n (Buf.ofList (List.replicate dim 0)) dim full) n L
          (fun j α => ∏ k, f.cls.basis (x0 k) (xf k) (α k) (xs j k)) := by
  obtain ⟨bf, L, h1, h2, h3⟩ := C23_mixed_partials_cc f hdim hm x0 xf nC full
  refine ⟨bf, L, h1, h2, fun n xs => ?_⟩
  have := h3 n xs (List.replicate dim 0)
  rw [List.length_replicate] at this
  refine Verif.ReturnsMatrix.congr this fun j _ α _ => ?_
  have ht : f.cls.tensor x0 xf α = fun x => ∏ l, f.cls.basis (x0 l) (xf l) (α l) (x l) := rfl
  rw [ht, mixedPartial_tensor]
  refine Finset.prod_congr rfl fun k _ => ?_
  have : (List.replicate dim 0).getD (k : ℕ) 0 = 0 := by simp
  rw [this, iteratedDeriv_zero]

/-- The column order is determined by `IsColumnOrder`. -/
theorem C22_order_unique {dim m : ℕ} {nC : Fin dim → List ℤ} {full : Bool} {L L' : List (Fin dim → ℕ)}
    (h : IsColumnOrder m nC full L) (h' : IsColumnOrder m nC full L') : L = L' := Verif.IsColumnOrder.unique h h'

/-- The compiled (JIT) entry point writes the same matrix into the block handed over by XLA, whatever it contained. -/
theorem C24_xla_cc (f : NFamily) {dim m numC : ℕ} (hdim : 1 ≤ dim) (hm : 1 ≤ m) (x0 xf : Fin dim → ℝ)
    (nC : Fin dim → Fin numC → ℤ) (full : Bool) :
    ∃ bf L, nNew f (Buf.ofVec x0) dim (Buf.ofVec xf) (Buf.ofMat nC) dim numC m = .ok bf ∧
      IsColumnOrder m (fun k => List.ofFn (nC k)) full L ∧
      L.length = (if full then bf.numBasisFuncFull else bf.numBasisFunc) ∧
      ∀ (n : ℕ) (xs : ℕ → Fin dim → ℝ) (ds : List ℕ) (out : Buf ℝ), ds.length = dim → out.size = n * L.length →
        FillsMatrix (bf.xla out (Buf.ofMat fun k (j : Fin n) => xs j k) (Buf.ofList ds) dim full n L.length) n L
          (fun j α => mixedPartial (fun k => ds.getD k 0) (f.cls.tensor x0 xf α) (xs j)) := by
  obtain ⟨bf, hbf, hg⟩ := nNew_good f (m := m) hdim x0 xf nC
  have hcol : (fun l : Fin dim => tabRow numC (tabOf nC) l) = fun l => List.ofFn (nC l) := by
    funext l; exact tabRow_tabOf nC l
  refine ⟨bf, multiColumns m (fun l => List.ofFn (nC l)) full, hbf, multiColumns_order _ _ _, ?_,
    fun n xs ds out hd hout => ?_⟩
  · cases full
    · simp only [Bool.false_eq_true, if_false]; rw [hg.num_, hcol]
    · simp only [if_true]; rw [hg.numFull_, hcol]
  · have := nHint_mixed f hdim hm x0 xf nC hg n xs ds full (F := out) hout
    rw [hd] at this
    exact this

end Verif.Props
