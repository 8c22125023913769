import Verif.Lemmas.NElmCC

/-!
# The compiled n-dimensional ELM bases (C25, and C24 for these classes)

`NElm.new a w b` is the constructor of the class with activation `a`, followed by setting the weights (`dim × m`, row-major)
and biases.
-/

namespace Verif.Props

open Verif Verif.Mem Verif.Model.CC Verif.Spec

section
variable {K : Type} [Zero K] [One K] [Add K] [Sub K] [Mul K] [Div K] [Neg K] [NatCast K] [Pow K ℕ] [Libm K] [LibmExp K] [Max K] [DecidableEq K]

/-- The object built by the constructor. -/
abbrev nElmObj (a : Activation) {dim : ℕ} (x0 xf : Fin dim → K) (w : Fin dim → ℕ → K) (b : ℕ → K)
    (nC : List ℤ) (m : ℕ) : Except Fault (NElm K) :=
  NElm.new a (Buf.ofMat fun i (k : Fin m) => w i k) (Buf.ofFn m b) (Buf.ofVec x0) dim (Buf.ofVec xf) nC m

/-- A tuple continued by zeros. -/
def padZero {dim : ℕ} (v : Fin dim → K) (l : ℕ) : K := if h : l < dim then v ⟨l, h⟩ else 0

omit [Add K] [Mul K] [Neg K] [NatCast K] [Pow K ℕ] [Libm K] [LibmExp K] [Max K] [DecidableEq K] in
theorem nElmObj_op (a : Activation) {dim : ℕ} (x0 xf : Fin dim → K) (w : Fin dim → ℕ → K) (b : ℕ → K)
    (nC : List ℤ) (m : ℕ) : ∃ e, nElmObj a x0 xf w b nC m = .ok e ∧ e.nC = nC ∧
      e.numC = (if nC.all (fun r => r == -1) then 0 else nC.length) ∧
      e.numBasisFunc = (m : ℤ) - e.numC ∧ e.numBasisFuncFull = m ∧
      EGood e a dim m (padZero x0) (padZero fun l => (1 - 0) / (xf l - x0 l)) (fun l k => padZero (fun l => w l k) l) b := by
  have key : Runs (nElmObj a x0 xf w b nC m) (fun e => e.nC = nC ∧
      e.numC = (if nC.all (fun r => r == -1) then 0 else nC.length) ∧
      e.numBasisFunc = (m : ℤ) - e.numC ∧ e.numBasisFuncFull = m ∧
      EGood e a dim m (padZero x0) (padZero fun l => (1 - 0) / (xf l - x0 l)) (fun l k => padZero (fun l => w l k) l) b) := by
    unfold nElmObj NElm.new
    refine (memcpy_spec (v := padZero x0) rfl fun i hi => ?_).bind fun x0' hx0' => ?_
    · have hi : i < dim := hi
      rw [Buf.ofVec_read _ hi]; simp [padZero, hi]
    refine (fill_spec (n := dim) rfl (padZero fun l => (1 - 0) / (xf l - x0 l))
      fun i hi b' => ?_).bind fun c hc => ?_
    · rw [Buf.ofVec_read _ hi, ok_bind, hx0'.read hi, ok_bind]
      simp [padZero, hi]
    refine Runs.ok ⟨rfl, rfl, rfl, rfl, rfl, rfl, rfl, rfl, fun l hl => hx0'.read hl, fun l hl => hc.read hl, ?_,
      fun k hk => Buf.ofFn_read hk⟩
    intro l hl k hk
    simp only
    rw [Buf.ofMat_read _ hl hk]
    simp [padZero, hl]
  exact key

end

theorem nElmObj_good (a : Activation) {dim : ℕ} (x0 xf : Fin dim → ℝ) (w : Fin dim → ℕ → ℝ) (b : ℕ → ℝ)
    (nC : List ℤ) (m : ℕ) : ∃ e, nElmObj a x0 xf w b nC m = .ok e ∧ e.nC = nC ∧
      e.numC = (if nC.all (fun r => r == -1) then 0 else nC.length) ∧
      e.numBasisFunc = (m : ℤ) - e.numC ∧ e.numBasisFuncFull = m ∧
      EGood e a dim m (fun l => if h : l < dim then x0 ⟨l, h⟩ else 0)
        (fun l => if h : l < dim then 1 / (xf ⟨l, h⟩ - x0 ⟨l, h⟩) else 0)
        (fun l k => if h : l < dim then w ⟨l, h⟩ k else 0) b := by
  obtain ⟨e, he, h1, h2, h3, h4, h5⟩ := nElmObj_op a x0 xf w b nC m
  rw [sub_zero] at h5
  exact ⟨e, he, h1, h2, h3, h4, h5⟩

/-- The entry a call computes, in terms of the specified function. -/
theorem nElm_entry (a : Activation) {dim : ℕ} (x0 xf : Fin dim → ℝ) (w : Fin dim → ℕ → ℝ) (b : ℕ → ℝ)
    (ds : List ℕ) (hds : ds.length ≤ dim) (hord : orderOk a ds.sum) (x : Fin dim → ℝ) (k : ℕ)
    (hk : a = .relu → ds.sum ≠ 0 → ∑ i, w i k * toBasis (x0 i) (xf i) 0 1 (x i) + b k ≠ 0) :
    nelmV a (∑ i ∈ Finset.range ds.length, ds.getD i 0)
      ((∏ i ∈ Finset.range ds.length, (if h : i < dim then 1 / (xf ⟨i, h⟩ - x0 ⟨i, h⟩) else 0) ^ ds.getD i 0) *
        ∏ i ∈ Finset.range ds.length, (if h : i < dim then w ⟨i, h⟩ k else 0) ^ ds.getD i 0)
      (∑ i ∈ Finset.range dim, (if h : i < dim then w ⟨i, h⟩ k else 0) *
        (((if h : i < dim then x ⟨i, h⟩ else 0) - (if h : i < dim then x0 ⟨i, h⟩ else 0)) *
          (if h : i < dim then 1 / (xf ⟨i, h⟩ - x0 ⟨i, h⟩) else 0) + 0) + b k) =
      mixedPartial (fun i => ds.getD i 0) (nElmBasis a x0 xf w b k) x := by
  have hz : ∀ i ∉ Finset.range ds.length, ds.getD i 0 = 0 := by
    intro i hi
    have : ds.length ≤ i := by simpa using hi
    simp [List.getD, List.getElem?_eq_none this]
  have hsub : Finset.range ds.length ⊆ Finset.range dim := Finset.range_subset_range.mpr hds
  have hsum : ∑ i ∈ Finset.range ds.length, ds.getD i 0 = ∑ i : Fin dim, ds.getD i 0 := by
    rw [Finset.sum_subset hsub fun i _ hi => hz i hi, Finset.sum_range]
  have hprod : ∀ g : ℕ → ℝ, ∏ i ∈ Finset.range ds.length, g i ^ ds.getD i 0 =
      ∏ i : Fin dim, g i ^ ds.getD i 0 := by
    intro g
    rw [Finset.prod_subset hsub fun i _ hi => by rw [hz i hi, pow_zero], Finset.prod_range]
  have hdsum : ds.sum = ∑ i ∈ Finset.range ds.length, ds.getD i 0 := by
    rw [Finset.sum_range, ← List.sum_ofFn]
    congr 1
    refine List.ext_getElem (by simp) fun i h1 h2 => ?_
    simp
  have hfun : nElmBasis a x0 xf w b k = fun x => act a (∑ i, (w i k * (1 / (xf i - x0 i))) * x i +
      (∑ i, -(w i k * (1 / (xf i - x0 i)) * x0 i) + b k)) := by
    funext y
    unfold nElmBasis
    congr 1
    rw [← add_assoc, ← Finset.sum_add_distrib]
    congr 1
    refine Finset.sum_congr rfl fun i _ => ?_
    unfold toBasis
    ring
  have harg : ∑ i ∈ Finset.range dim, (if h : i < dim then w ⟨i, h⟩ k else 0) *
        (((if h : i < dim then x ⟨i, h⟩ else 0) - (if h : i < dim then x0 ⟨i, h⟩ else 0)) *
          (if h : i < dim then 1 / (xf ⟨i, h⟩ - x0 ⟨i, h⟩) else 0) + 0) + b k =
      ∑ i, (w i k * (1 / (xf i - x0 i))) * x i + (∑ i, -(w i k * (1 / (xf i - x0 i)) * x0 i) + b k) := by
    rw [Finset.sum_range, ← add_assoc, ← Finset.sum_add_distrib]
    congr 1
    refine Finset.sum_congr rfl fun i _ => ?_
    simp only [i.2, dif_pos]
    ring
  have hker : a = .relu → ∑ i : Fin dim, ds.getD i 0 ≠ 0 → ∑ i, (w i k * (1 / (xf i - x0 i))) * x i +
      (∑ i, -(w i k * (1 / (xf i - x0 i)) * x0 i) + b k) ≠ 0 := by
    intro ha h0
    have := hk ha (by rw [hdsum, hsum]; exact h0)
    rw [← add_assoc, ← Finset.sum_add_distrib]
    convert this using 4
    unfold toBasis
    ring
  rw [harg, hfun, mixedPartial_act a _ _ _ _ hker, nelmV_eq a (by rw [← hdsum]; exact hord), hsum, hprod, hprod,
    ← Finset.prod_mul_distrib]
  · congr 1
    refine Finset.prod_congr rfl fun i _ => ?_
    simp only [i.2, dif_pos]
    rw [mul_pow, mul_comm]
  · intro h0
    rw [Finset.sum_eq_zero_iff] at h0
    rw [Finset.prod_eq_one fun i hi => by rw [h0 i hi, pow_zero],
      Finset.prod_eq_one fun i hi => by rw [h0 i hi, pow_zero], one_mul]

/-- What C25 claims of an activation and a tuple of orders (shorter tuples mean zeros): on every domain, for all weights,
biases, points and accepted removals, the matrix has as its columns the mixed partial derivatives of the basis functions
(for ReLU at points where no argument of the kept functions vanishes). -/
def NElmExact (a : Activation) (ds : List ℕ) : Prop :=
  ∀ {dim : ℕ} (x0 xf : Fin dim → ℝ) (w : Fin dim → ℕ → ℝ) (b : ℕ → ℝ) (nC : List ℤ) (m : ℕ) (full : Bool) (n : ℕ)
    (xs : ℕ → Fin dim → ℝ), ds.length ≤ dim → (∀ i, x0 i ≠ xf i) → full = true ∨ NElmRemoval m nC →
    (a = .relu → ds.sum ≠ 0 → ∀ j < n, ∀ k ∈ outColumns m nC full, ∑ i, w i k * toBasis (x0 i) (xf i) 0 1 (xs j i) + b k ≠ 0) →
    ∃ e, nElmObj a x0 xf w b nC m = .ok e ∧
      ReturnsMatrix (e.H (Buf.ofMat fun i (j : Fin n) => xs j i) n (Buf.ofList ds) ds.length full) n
        (outColumns m nC full) (fun j k => mixedPartial (fun i => ds.getD i 0) (nElmBasis a x0 xf w b k) (xs j)) ∧
      ∀ out : Buf ℝ, out.size = n * (outColumns m nC full).length →
        FillsMatrix (e.xla out (Buf.ofMat fun i (j : Fin n) => xs j i) (Buf.ofList ds) ds.length full n
          (outColumns m nC full).length) n
        (outColumns m nC full) (fun j k => mixedPartial (fun i => ds.getD i 0) (nElmBasis a x0 xf w b k) (xs j))

theorem nElm_numBasis {m : ℕ} {nC : List ℤ} {full : Bool} (hC : full = true ∨ NElmRemoval m nC) {K : Type} {e : NElm K}
    (h1 : e.numC = (if nC.all (fun r => r == -1) then 0 else nC.length))
    (h2 : e.numBasisFunc = (m : ℤ) - e.numC) (h3 : e.numBasisFuncFull = m) :
    (if full then e.numBasisFuncFull else e.numBasisFunc) = ((outColumns m nC full).length : ℤ) := by
  cases full with
  | true => simp [outColumns, h3]
  | false =>
    have hC : NElmRemoval m nC := hC.resolve_left (by simp)
    simp only [Bool.false_eq_true, if_false, outColumns]
    rw [h2, h1]
    by_cases hall : ∀ r ∈ nC, r = -1
    · rw [if_pos (by simpa using hall), kept_of_neg hall]
      simp
    · rw [if_neg (by simpa using hall)]
      have := (keptColumns_length_iff m nC).mpr (hC.resolve_right hall)
      omega

/-- The computation of both entry points, whatever the order (used for C24 and C25). -/
theorem nElm_runs (a : Activation) {dim : ℕ} (x0 xf : Fin dim → ℝ) (w : Fin dim → ℕ → ℝ) (b : ℕ → ℝ) (nC : List ℤ)
    (m : ℕ) (full : Bool) (n : ℕ) (xs : ℕ → Fin dim → ℝ) (ds : List ℕ) (hds : ds.length ≤ dim)
    (hsw : a = .swish → ds.sum ≤ 8) (hC : full = true ∨ NElmRemoval m nC) :
    ∃ e, nElmObj a x0 xf w b nC m = .ok e ∧
      let V := fun (j : ℕ) (k : ℕ) => nelmV a (∑ i ∈ Finset.range ds.length, ds.getD i 0)
        ((∏ i ∈ Finset.range ds.length, (if h : i < dim then 1 / (xf ⟨i, h⟩ - x0 ⟨i, h⟩) else 0) ^ ds.getD i 0) *
          ∏ i ∈ Finset.range ds.length, (if h : i < dim then w ⟨i, h⟩ k else 0) ^ ds.getD i 0)
        (∑ i ∈ Finset.range dim, (if h : i < dim then w ⟨i, h⟩ k else 0) *
          (((if h : i < dim then xs j ⟨i, h⟩ else 0) - (if h : i < dim then x0 ⟨i, h⟩ else 0)) *
            (if h : i < dim then 1 / (xf ⟨i, h⟩ - x0 ⟨i, h⟩) else 0) + 0) + b k)
      ReturnsMatrix (e.H (Buf.ofMat fun i (j : Fin n) => xs j i) n (Buf.ofList ds) ds.length full) n
        (outColumns m nC full) V ∧
      ∀ out : Buf ℝ, out.size = n * (outColumns m nC full).length →
        FillsMatrix (e.xla out (Buf.ofMat fun i (j : Fin n) => xs j i) (Buf.ofList ds) ds.length full n
          (outColumns m nC full).length) n (outColumns m nC full) V := by
  obtain ⟨e, he, h1, h2, h3, h4, h5⟩ := nElmObj_good a x0 xf w b nC m
  have hdsum : ds.sum = ∑ i ∈ Finset.range ds.length, ds.getD i 0 := by
    rw [Finset.sum_range, ← List.sum_ofFn]
    congr 1
    refine List.ext_getElem (by simp) fun i h1 h2 => ?_
    simp
  refine ⟨e, he, ?_⟩
  intro V
  have run : ∀ (F : Buf ℝ) (M : ℕ → ℕ → Option ℝ), View F n (outColumns m nC full).length M → _ :=
    fun F M hF => elmNHint_spec h5 h1 h2 (d := Buf.ofList ds) (q := ds.length) (ds := fun i => ds.getD i 0)
      (fun i hi => by rw [Buf.ofList_read _ hi]; simp [hi]) hds
      (x := Buf.ofMat fun i (j : Fin n) => xs j i) (n := n) (xs := fun l j => if h : l < dim then xs j ⟨l, h⟩ else 0)
      (fun l hl k hk => by rw [Buf.ofMat_read _ hl hk]; simp [hl])
      (fun ha => by rw [← hdsum]; exact hsw ha) full hF
  constructor
  · apply returns_of_runs
    unfold NElm.H
    simp only [nElm_numBasis hC h2 h3 h4]
    rw [if_neg (by omega)]
    simp only [Int.toNat_natCast]
    have hF := View.alloc (α := ℝ) n (outColumns m nC full).length
    rw [Nat.mul_comm] at hF
    exact (run _ _ hF).bind fun F hF => Runs.ok ⟨rfl, rfl, hF⟩
  · intro out hout
    apply fills_of_runs
    exact run out (fun j c => out.cell ((outColumns m nC full).length * j + c)) ⟨hout, fun _ _ _ _ => rfl⟩

/-- The same in any arithmetic, operation by operation; `p` is the position of the only derivative of total order 1. -/
theorem nElm_runs_op {K : Type} [Zero K] [One K] [Add K] [Sub K] [Mul K] [Div K] [Neg K] [NatCast K] [Pow K ℕ] [Libm K] [LibmExp K] [Max K] [DecidableEq K]
    (a : Activation) {dim : ℕ} (x0 xf : Fin dim → K) (w : Fin dim → ℕ → K) (b : ℕ → K) (nC : List ℤ)
    (m : ℕ) (full : Bool) (n : ℕ) (xs : ℕ → Fin dim → K) (ds : List ℕ) (hds : ds.length ≤ dim)
    (hsw : a = .swish → ds.sum ≤ 8) (hC : full = true ∨ NElmRemoval m nC) :
    ∃ e p, nElmObj a x0 xf w b nC m = .ok e ∧ (ds.sum = 1 → p < ds.length ∧ ds.getD p 0 = 1) ∧
      let V := fun (j : ℕ) (k : ℕ) => nelmOp a ds.sum ((padZero fun l => (1 - 0) / (xf l - x0 l)) p * padZero (fun l => w l k) p)
        (accProd (fun i => (padZero fun l => (1 - 0) / (xf l - x0 l)) i ^ ds.getD i 0) ds.length)
        (accProd (fun i => (padZero fun l => w l k) i ^ ds.getD i 0) ds.length)
        (accSum (fun i => (padZero fun l => w l k) i * ((padZero (xs j) i - padZero x0 i) * (padZero fun l => (1 - 0) / (xf l - x0 l)) i + 0)) dim) (b k)
      ReturnsMatrix (e.H (Buf.ofMat fun i (j : Fin n) => xs j i) n (Buf.ofList ds) ds.length full) n
        (outColumns m nC full) V ∧
      ∀ out : Buf K, out.size = n * (outColumns m nC full).length →
        FillsMatrix (e.xla out (Buf.ofMat fun i (j : Fin n) => xs j i) (Buf.ofList ds) ds.length full n
          (outColumns m nC full).length) n (outColumns m nC full) V := by
  obtain ⟨e, he, h1, h2, h3, h4, h5⟩ := nElmObj_op a x0 xf w b nC m
  have hdsum : ds.sum = ∑ i ∈ Finset.range ds.length, ds.getD i 0 := by
    rw [Finset.sum_range, ← List.sum_ofFn]
    congr 1
    refine List.ext_getElem (by simp) fun i h1 h2 => ?_
    simp
  obtain ⟨p, hp⟩ := exists_one (fun i => ds.getD i 0) ds.length
  refine ⟨e, p, he, by rw [hdsum]; exact hp, ?_⟩
  intro V
  have run : ∀ (F : Buf K) (M : ℕ → ℕ → Option K), View F n (outColumns m nC full).length M → _ :=
    fun F M hF => elmNHint_op h5 h1 h2 (d := Buf.ofList ds) (q := ds.length) (ds := fun i => ds.getD i 0)
      (fun i hi => by rw [Buf.ofList_read _ hi]; simp [hi]) hds
      (x := Buf.ofMat fun i (j : Fin n) => xs j i) (n := n) (xs := fun l j => padZero (xs j) l)
      (fun l hl k hk => by rw [Buf.ofMat_read _ hl hk]; simp [padZero, hl])
      (fun ha => by rw [← hdsum]; exact hsw ha) hp full hF
  rw [← hdsum] at run
  constructor
  · apply returns_of_runs
    unfold NElm.H
    simp only [nElm_numBasis hC h2 h3 h4]
    rw [if_neg (by omega)]
    simp only [Int.toNat_natCast]
    have hF := View.alloc (α := K) n (outColumns m nC full).length
    rw [Nat.mul_comm] at hF
    exact (run _ _ hF).bind fun F hF => Runs.ok ⟨rfl, rfl, hF⟩
  · intro out hout
    apply fills_of_runs
    exact run out (fun j c => out.cell ((outColumns m nC full).length * j + c)) ⟨hout, fun _ _ _ _ => rfl⟩

/-- C25 for total order at most 8 (sine and ReLU: all orders). Missing: sigmoid, tanh and swish beyond total order 8, where
the claim is false (`C25_sigmoid_fails`, `C25_tanh_fails`, `C25_swish_fails`). -/
theorem C25_nelm_cc_partial (a : Activation) (ds : List ℕ)
    (hord : a = .sigmoid ∨ a = .tanh ∨ a = .swish → ds.sum ≤ 8) : NElmExact a ds := by
  intro dim x0 xf w b nC m full n xs hds _ hC hk
  have hord' : orderOk a ds.sum := by
    cases a <;> first | trivial | exact hord (by simp)
  obtain ⟨e, he, h1, h2⟩ := nElm_runs a x0 xf w b nC m full n xs ds hds
    (fun ha => hord (Or.inr (Or.inr ha))) hC
  refine ⟨e, he, Verif.ReturnsMatrix.congr h1 fun j hj k hkm => ?_, fun out hout => ?_⟩
  · exact nElm_entry a x0 xf w b ds hds hord' (xs j) k fun ha h0 => hk ha h0 j hj k hkm
  · obtain ⟨F, f1, f2, f3⟩ := h2 out hout
    refine ⟨F, f1, f2, fun j hj i hi => ?_⟩
    rw [f3 j hj i hi]
    congr 1
    exact nElm_entry a x0 xf w b ds hds hord' (xs j) _ fun ha h0 => hk ha h0 j hj _ (List.getElem_mem hi)

/-- A case meeting the hypotheses: tanh, orders `(1, 2)`, two dimensions, function 0 of four removed. -/
example : (Activation.tanh = .sigmoid ∨ Activation.tanh = .tanh ∨ Activation.tanh = .swish → [1, 2].sum ≤ 8) ∧
    [1, 2].length ≤ 2 ∧ NElmRemoval 4 [0] ∧ outColumns 4 [0] false = [1, 2, 3] := by
  refine ⟨by simp, by simp, Or.inl ⟨by simp, by simp⟩, by decide⟩

/-- Two descriptions of one returned matrix have the same entries. -/
theorem entry_unique' {K ι : Type} {r : Except Fault (ℕ × ℕ × Buf K)} {n : ℕ} {cols : List ι} {V V' : ℕ → ι → K}
    (h : ReturnsMatrix r n cols V) (h' : ReturnsMatrix r n cols V') {j i : ℕ} (hj : j < n) (hi : i < cols.length) :
    V j cols[i] = V' j cols[i] := by
  obtain ⟨F, h1, _, h3⟩ := h
  obtain ⟨F', h1', _, h3'⟩ := h'
  rw [h1] at h1'
  cases h1'
  have := h3 j hj i hi
  rw [h3' j hj i hi] at this
  exact (Option.some.inj this).symm

/-- With zero weights every derivative of positive order vanishes. -/
theorem mixedPartial_zero_weights (a : Activation) (ha : a ≠ .relu) (b : ℕ → ℝ) (ds : List ℕ) (hs : 1 ≤ ds.sum)
    (x0 xf x : Fin ds.length → ℝ) (k : ℕ) :
    mixedPartial (fun i : Fin ds.length => ds.getD i 0) (nElmBasis a x0 xf (fun _ _ => 0) b k) x = 0 := by
  have hfun : nElmBasis a x0 xf (fun _ _ => 0) b k = fun x => act a (∑ l : Fin ds.length, (fun _ => (0 : ℝ)) l * x l + b k) := by
    funext y
    simp [nElmBasis]
  rw [hfun, mixedPartial_act a _ _ _ _ (fun h _ => absurd h ha)]
  have : ∃ i : Fin ds.length, ds.getD i 0 ≠ 0 := by
    by_contra hcon
    simp only [not_exists, not_not] at hcon
    have : ds.sum = 0 := by
      rw [List.sum_eq_zero_iff]
      intro y hy
      obtain ⟨i, hi, rfl⟩ := List.getElem_of_mem hy
      have := hcon ⟨i, hi⟩
      simpa [hi] using this
    omega
  obtain ⟨i, hi⟩ := this
  rw [Finset.prod_eq_zero (Finset.mem_univ i) (zero_pow hi), zero_mul]

theorem nElm_fails (a : Activation) (ha : a = .sigmoid ∨ a = .tanh) {ds : List ℕ} (hs : 9 ≤ ds.sum) :
    ¬ NElmExact a ds := by
  intro h
  have hr : a ≠ .relu := by rintro rfl; simp at ha
  have hsw : a ≠ .swish := by rintro rfl; simp at ha
  obtain ⟨e, he, h1, _⟩ := h (fun _ => 0) (fun _ => 1) (fun _ _ => 0) (fun _ => 1) [] 1 true 1 (fun _ _ => 0) le_rfl
    (by simp) (Or.inl rfl) (fun hh => absurd hh hr)
  obtain ⟨e', he', h1', _⟩ := nElm_runs a (fun _ => 0) (fun _ => 1) (fun _ _ => 0) (fun _ => 1) [] 1 true 1
    (fun _ _ => 0) ds le_rfl (fun hh => absurd hh hsw) (Or.inl rfl)
  rw [he] at he'
  cases he'
  have := entry_unique' h1 h1' (j := 0) (i := 0) (by omega) (by simp [outColumns])
  rw [mixedPartial_zero_weights a hr _ ds (by omega)] at this
  have hdsum : ds.sum = ∑ i ∈ Finset.range ds.length, ds.getD i 0 := by
    rw [Finset.sum_range, ← List.sum_ofFn]
    congr 1
    refine List.ext_getElem (by simp) fun i h1 h2 => ?_
    simp
  obtain ⟨r, hr9⟩ := Nat.exists_eq_add_of_le hs
  rw [← hdsum, hr9, Nat.add_comm] at this
  rcases ha with rfl | rfl
  · have hn : nELMSigmoid.switch (K := ℝ) (r + 9) = none := rfl
    simp only [nelmV, hn] at this
    have hpos : ∀ t, 0 < sigmoid t := fun t => by unfold sigmoid; positivity
    exact absurd this (hpos _).ne
  · have hn : nELMTanh.switch (K := ℝ) (r + 9) = none := rfl
    simp only [nelmV, hn] at this
    have hne : Real.tanh 1 ≠ 0 := by
      rw [Real.tanh_eq_sinh_div_cosh]
      exact div_ne_zero (by rw [Ne, Real.sinh_eq_zero]; norm_num) (Real.cosh_pos 1).ne'
    simp at this
    exact hne this.symm

/-- C25 is false for `nELMSigmoid` and every tuple of orders of sum 9 or more: the code returns the undifferentiated
values. -/
theorem C25_sigmoid_fails {ds : List ℕ} (hs : 9 ≤ ds.sum) : ¬ NElmExact .sigmoid ds :=
  nElm_fails .sigmoid (Or.inl rfl) hs

/-- The same for `nELMTanh`. -/
theorem C25_tanh_fails {ds : List ℕ} (hs : 9 ≤ ds.sum) : ¬ NElmExact .tanh ds :=
  nElm_fails .tanh (Or.inr rfl) hs

/-- `nELMSwish` at total order 9 or more returns a block in which nothing has been written. -/
theorem nSwish_uninit {ds : List ℕ} (hs : 9 ≤ ds.sum) {dim : ℕ} (hds : ds.length ≤ dim) (x0 xf : Fin dim → ℝ)
    (w : Fin dim → ℕ → ℝ) (b : ℕ → ℝ) (nC : List ℤ) (m n : ℕ) (xs : ℕ → Fin dim → ℝ) :
    ∃ e, nElmObj .swish x0 xf w b nC m = .ok e ∧
      e.H (Buf.ofMat fun i (j : Fin n) => xs j i) n (Buf.ofList ds) ds.length true = .ok (n, m, alloc (m * n)) := by
  obtain ⟨e, he, h1, h2, h3, h4, h5⟩ := nElmObj_good .swish x0 xf w b nC m
  refine ⟨e, he, ?_⟩
  have hdsum : ds.sum = ∑ i ∈ Finset.range ds.length, ds.getD i 0 := by
    rw [Finset.sum_range, ← List.sum_ofFn]
    congr 1
    refine List.ext_getElem (by simp) fun i h1 h2 => ?_
    simp
  unfold NElm.H
  simp only [if_true, h4]
  rw [if_neg (by omega)]
  simp only [Int.toNat_natCast]
  unfold NElm.nHint
  rw [h5.dim_, h5.z0_]
  obtain ⟨z, hz, hzv⟩ := mapPointsN_spec 0 h5.x0_ h5.c_ (x := Buf.ofMat fun i (j : Fin n) => xs j i) (n := n)
    (xs := fun l j => if h : l < dim then xs j ⟨l, h⟩ else 0)
    (fun l hl k hk => by rw [Buf.ofMat_read _ hl hk]; simp [hl])
  rw [hz, ok_bind, if_pos (Or.inr rfl)]
  unfold NElm.elmHint
  rw [h5.act_]
  simp only [nELMSwish.hint, h5.m_]
  rw [orders_op h5 (d := Buf.ofList ds) (q := ds.length) (ds := fun i => ds.getD i 0)
    (fun i hi => by rw [Buf.ofList_read _ hi]; simp [hi]) hds, ok_bind]
  simp only
  rw [← hdsum, if_neg (by omega)]
  obtain ⟨zi, hzi, hziv⟩ := cells_spec (f := fun j k _ => do
      let dark ← e.dot z n j k
      let bk ← e.b.read k
      .ok (dark + bk)) _ (View.alloc n m) (fun j hj k hk D M' _ _ => by
        rw [dot_op h5 hzv hj hk, ok_bind, h5.b_ k hk, ok_bind])
  obtain ⟨si, hsi, _⟩ := cells_spec (f := fun j k _ => do
      let z ← zi.read (m * j + k)
      .ok (1 / (1 + LibmExp.exp (-z)))) _ (View.alloc n m) (fun j hj k hk D M' _ _ => by
        rw [hziv.read hj hk rfl, ok_bind])
  obtain ⟨r, hr9⟩ := Nat.exists_eq_add_of_le hs
  rw [hzi, ok_bind, hsi, ok_bind, hr9, Nat.add_comm]
  rfl

/-- C25 is false for `nELMSwish` beyond total order 8. -/
theorem C25_swish_fails {ds : List ℕ} (hs : 9 ≤ ds.sum) : ¬ NElmExact .swish ds := by
  intro h
  obtain ⟨e, he, h1, _⟩ := h (fun _ => 0) (fun _ => 1) (fun _ _ => 0) (fun _ => 1) [] 1 true 1 (fun _ _ => 0) le_rfl
    (by simp) (Or.inl rfl) (fun hh => by simp at hh)
  obtain ⟨e', he', h1'⟩ := nSwish_uninit hs (dim := ds.length) le_rfl (fun _ => 0) (fun _ => 1) (fun _ _ => 0)
    (fun _ => 1) [] 1 1 (fun _ _ => 0)
  rw [he] at he'
  cases he'
  obtain ⟨F, f1, _, f3⟩ := h1
  rw [h1'] at f1
  cases f1
  have := f3 0 (by omega) 0 (by simp [outColumns])
  simp [alloc] at this

/-- C24 for the n-dimensional ELM classes: every entry point call returns normally and with every cell of the announced
matrix written, for all orders (swish: total order at most 8, see `nSwish_uninit`), at most one order per dimension, and
removals that name distinct existing functions or are all `-1`. -/
theorem C24_nelm_partial (a : Activation) {dim : ℕ} (x0 xf : Fin dim → ℝ) (w : Fin dim → ℕ → ℝ) (b : ℕ → ℝ)
    (nC : List ℤ) (m : ℕ) (full : Bool) (n : ℕ) (xs : ℕ → Fin dim → ℝ) (ds : List ℕ) (hds : ds.length ≤ dim)
    (hsw : a = .swish → ds.sum ≤ 8) (hC : full = true ∨ NElmRemoval m nC) :
    ∃ e V, nElmObj a x0 xf w b nC m = .ok e ∧
      ReturnsMatrix (e.H (Buf.ofMat fun i (j : Fin n) => xs j i) n (Buf.ofList ds) ds.length full) n
        (outColumns m nC full) V ∧
      ∀ out : Buf ℝ, out.size = n * (outColumns m nC full).length →
        FillsMatrix (e.xla out (Buf.ofMat fun i (j : Fin n) => xs j i) (Buf.ofList ds) ds.length full n
          (outColumns m nC full).length) n (outColumns m nC full) V := by
  obtain ⟨e, he, h1, h2⟩ := nElm_runs a x0 xf w b nC m full n xs ds hds hsw hC
  exact ⟨e, _, he, h1, h2⟩

example : (Activation.sin = .swish → [7, 9].sum ≤ 8) ∧ NElmRemoval 3 [-1, -1] ∧ NElmRemoval 3 [2, 0] := by
  refine ⟨by simp, Or.inr (by simp), Or.inl ⟨by simp, by simp⟩⟩

end Verif.Props
