import Verif.Lemmas.NBasisPy
import Verif.Props.Multi

/-!
# The Python n-dimensional tensor-product bases, and both backends together (C21–C23)

Arrays are handed over as functions of the indices; only the entries inside the shape (`dim`, `dim × numC`, `dim × n`)
are used.
-/

namespace Verif.Props

open Verif Verif.Mem Verif.Np Verif.Py Verif.Spec

/-- C21 (Python). -/
theorem C21_count_py (f : NFamily) {dim m numC : ℕ} (hdim : 1 ≤ dim) (hm : 1 ≤ m) (x0 xf : ℕ → ℝ) (nC : ℕ → ℕ → ℤ) :
    ∃ bf, Model.PyBF.nInit f x0 xf nC dim numC m = .ok bf ∧
      bf.numBasisFunc = Set.ncard {α : Fin dim → ℕ | ∑ k, α k ≤ m - 1 ∧ ¬ ∀ k : Fin dim, ∃ g < numC, nC k g = α k} ∧
      bf.numBasisFuncFull = Set.ncard {α : Fin dim → ℕ | ∑ k, α k ≤ m - 1} ∧
      bf.numBasisFuncFull = (m - 1 + dim).choose dim := by
  obtain ⟨bf, hbf, -, -, -, -, -, -, -, -, h1, h2⟩ := nInit_good f (m := m) (numC := numC) hdim x0 xf nC
  have key : ∀ full (S : Set (Fin dim → ℕ)),
      (∀ α, α ∈ S ↔ Admissible m (fun l : Fin dim => tabRow numC nC l) full α) →
      (multiColumns m (fun l : Fin dim => tabRow numC nC l) full).length = S.ncard := by
    intro full S hS
    have ho := multiColumns_order m (fun l : Fin dim => tabRow numC nC l) full
    have : S = ((multiColumns m (fun l : Fin dim => tabRow numC nC l) full).toFinset : Set (Fin dim → ℕ)) := by
      ext α
      rw [hS, ← ho.mem]
      simp
    rw [this, Set.ncard_coe_finset, List.toFinset_card_of_nodup ho.nodup]
  refine ⟨bf, hbf, ?_, ?_, ?_⟩
  · rw [h1]
    refine key false _ fun α => ?_
    simp only [Set.mem_setOf_eq, Admissible, Bool.false_eq_true, false_or, not_forall, tabRow, List.mem_map,
      List.mem_range]
    constructor
    · rintro ⟨h1, h2⟩
      exact ⟨by omega, h2⟩
    · rintro ⟨h1, h2⟩
      exact ⟨by omega, h2⟩
  · rw [h2]
    refine key true _ fun α => ?_
    simp only [Set.mem_setOf_eq, Admissible, true_or, and_true]
    omega
  · rw [h2, multiColumns_full_length hm]

/-- C23 (Python): like the compiled theorem, for orders `ds` that give a value for every dimension. Missing: a shorter `ds`
(`C23_short_py_fails`). -/
theorem C23_mixed_partials_py_partial (f : NFamily) {dim m numC : ℕ} (hdim : 1 ≤ dim) (hm : 1 ≤ m) (x0 xf : ℕ → ℝ)
    (nC : ℕ → ℕ → ℤ) (full : Bool) :
    ∃ bf L, Model.PyBF.nInit f x0 xf nC dim numC m = .ok bf ∧
      IsColumnOrder m (fun k : Fin dim => (List.range numC).map (nC k)) full L ∧
      ∀ (n : ℕ) (xs : ℕ → ℕ → ℝ) (ds : List ℕ), dim ≤ ds.length →
        ReturnsArray (bf.H dim n (fun k j => xs j k) ds full) n L
          (fun j α => mixedPartial (fun k => ds.getD k 0) (f.cls.tensor (fun k : Fin dim => x0 k) (fun k => xf k) α)
            (fun k => xs j k)) := by
  obtain ⟨bf, hbf, em, enC, edim, enumC, ez0, ex0, ec, ehint, h1, h2⟩ :=
    nInit_good f (m := m) (numC := numC) hdim x0 xf nC
  refine ⟨bf, multiColumns m (fun l : Fin dim => tabRow numC nC l) full, hbf, multiColumns_order _ _ _,
    fun n xs ds hds => ?_⟩
  obtain ⟨T, hT, hT'⟩ := fillT_py_spec bf (N := n)
    (z := fun k j => (xs j k - bf.x0 k) * bf.c k + bf.z0) (d := ds) (E := uniE f.cls) (by rw [edim]; exact hds)
    (fun dk z => by rw [ehint, em]; exact NFamily.pyHintSpec f hm n dk z)
  have hnum : (if full = true then (bf.numBasisFuncFull : ℤ) else (bf.numBasisFunc : ℤ)) =
      (multiColumns m (fun l : Fin dim => tabRow numC nC l) full).length := by
    cases full
    · simp only [Bool.false_eq_true, if_false]; rw [h1]
    · simp only [if_true]; rw [h2]
  have hH : bf.H dim n (fun k j => xs j k) ds full = .ok (Model.PyBF.recurse m dim numC nC full T (dim - 1)
      (fun _ => 0, ⟨n, (multiColumns m (fun l : Fin dim => tabRow numC nC l) full).length, fun _ _ => 0⟩, 0)).2.1 := by
    unfold Model.PyBF.NBasisFunc.H
    rw [edim, if_neg (by simp)]
    simp only [hT, bind, Except.bind, hnum]
    rw [Mat.zeros, if_neg (by omega), em, enumC, enC, Int.toNat_natCast]
  rw [hH]
  obtain ⟨A, hA, hr, hc, hA'⟩ := recurse_spec (n := n) nC full hdim T
    (A := ⟨n, (multiColumns m (fun l : Fin dim => tabRow numC nC l) full).length, fun _ _ => (0 : ℝ)⟩) rfl rfl
  refine ⟨A, hA, hr, hc, fun j hj i hi => ?_⟩
  rw [hA' j hj i hi]
  set α := (multiColumns m (fun l : Fin dim => tabRow numC nC l) full)[i] with hα
  have hmem : Admissible m (fun l : Fin dim => tabRow numC nC l) full α :=
    ((multiColumns_order m (fun l : Fin dim => tabRow numC nC l) full).mem α).mp (List.getElem_mem hi)
  have ht : f.cls.tensor (fun k : Fin dim => x0 k) (fun k => xf k) α =
      fun x => ∏ l : Fin dim, f.cls.basis (x0 l) (xf l) (α l) (x l) := rfl
  beta_reduce
  rw [ht, mixedPartial_tensor, opProd_eq]
  refine Finset.prod_congr rfl fun l _ => ?_
  rw [NFamily.deriv, hT' j hj _ (by rw [em]; exact admissible_lt hmem l) l (by rw [edim]; exact l.2), ex0, ec, ez0]

/-- C22 (Python). -/
theorem C22_columns_py (f : NFamily) {dim m numC : ℕ} (hdim : 1 ≤ dim) (hm : 1 ≤ m) (x0 xf : ℕ → ℝ) (nC : ℕ → ℕ → ℤ)
    (full : Bool) :
    ∃ bf L, Model.PyBF.nInit f x0 xf nC dim numC m = .ok bf ∧
      IsColumnOrder m (fun k : Fin dim => (List.range numC).map (nC k)) full L ∧
      ∀ (n : ℕ) (xs : ℕ → ℕ → ℝ),
        ReturnsArray (bf.H dim n (fun k j => xs j k) (List.replicate dim 0) full) n L
          (fun j α => ∏ k : Fin dim, f.cls.basis (x0 k) (xf k) (α k) (xs j k)) := by
  obtain ⟨bf, L, h1, h2, h3⟩ := C23_mixed_partials_py_partial f (numC := numC) hdim hm x0 xf nC full
  refine ⟨bf, L, h1, h2, fun n xs => ?_⟩
  refine Verif.ReturnsArray.congr (h3 n xs (List.replicate dim 0) (by simp)) fun j _ α _ => ?_
  have ht : f.cls.tensor (fun k : Fin dim => x0 k) (fun k => xf k) α =
      fun x => ∏ l : Fin dim, f.cls.basis (x0 l) (xf l) (α l) (x l) := rfl
  rw [ht, mixedPartial_tensor]
  refine Finset.prod_congr rfl fun k _ => ?_
  have : (List.replicate dim 0).getD (k : ℕ) 0 = 0 := by simp
  rw [this, iteratedDeriv_zero]

/-- C22: both backends, built from the same data, return the same matrix for the same points and orders: same column list,
same entries. -/
theorem C22_backends_agree (f : NFamily) {dim m numC : ℕ} (hdim : 1 ≤ dim) (hm : 1 ≤ m) (x0 xf : ℕ → ℝ)
    (nC : ℕ → ℕ → ℤ) (full : Bool) :
    ∃ bc bp L,
      Model.CC.nNew f (Buf.ofVec fun k : Fin dim => x0 k) dim (Buf.ofVec fun k : Fin dim => xf k)
        (Buf.ofMat fun (k : Fin dim) (g : Fin numC) => nC k g) dim numC m = .ok bc ∧
      Model.PyBF.nInit f x0 xf nC dim numC m = .ok bp ∧
      IsColumnOrder m (fun k : Fin dim => (List.range numC).map (nC k)) full L ∧
      ∀ (n : ℕ) (xs : ℕ → ℕ → ℝ) (ds : List ℕ), dim ≤ ds.length → ∃ V : ℕ → (Fin dim → ℕ) → ℝ,
        ReturnsMatrix (bc.H (Buf.ofMat fun (k : Fin dim) (j : Fin n) => xs j k) n (Buf.ofList ds) ds.length full) n L V ∧
        ReturnsArray (bp.H dim n (fun k j => xs j k) ds full) n L V := by
  obtain ⟨bc, Lc, c1, c2, c3⟩ := C23_mixed_partials_cc f (numC := numC) hdim hm (fun k => x0 k) (fun k => xf k)
    (fun k g => nC k g) full
  obtain ⟨bp, Lp, p1, p2, p3⟩ := C23_mixed_partials_py_partial f (numC := numC) hdim hm x0 xf nC full
  have hrow : (fun k : Fin dim => List.ofFn fun g : Fin numC => nC k g) =
      fun k : Fin dim => (List.range numC).map (nC k) := by
    funext k
    refine List.ext_getElem (by simp) fun i h1 h2 => ?_
    simp
  rw [hrow] at c2
  obtain rfl := Verif.IsColumnOrder.unique c2 p2
  refine ⟨bc, bp, Lc, c1, p1, c2, fun n xs ds hds => ⟨_, c3 n (fun j k => xs j k) ds, p3 n xs ds hds⟩⟩

/-- A concrete case: two dimensions, three functions each, the constant removed in the first dimension and the constant and
the linear function in the second, a first derivative in the second variable. -/
example : ∃ bc bp L,
    Model.CC.nNew .cp (Buf.ofVec fun _ : Fin 2 => (0 : ℝ)) 2 (Buf.ofVec fun _ : Fin 2 => 2)
      (Buf.ofMat fun (k g : Fin 2) => if (k : ℕ) = 0 ∧ (g : ℕ) = 1 then -1 else ((g : ℕ) : ℤ)) 2 2 3 = .ok bc ∧
    Model.PyBF.nInit .cp (fun _ => 0) (fun _ => 2) (fun k g => if k = 0 ∧ g = 1 then -1 else (g : ℤ)) 2 2 3 = .ok bp ∧
    ∃ V : ℕ → (Fin 2 → ℕ) → ℝ, ReturnsMatrix (bc.H (Buf.ofMat fun (k : Fin 2) (j : Fin 5) => (j : ℕ) + (k : ℕ)) 5
        (Buf.ofList [0, 1]) 2 false) 5 L V ∧
      ReturnsArray (bp.H 2 5 (fun k j => (j : ℝ) + k) [0, 1] false) 5 L V := by
  obtain ⟨bc, bp, L, h1, h2, _, h4⟩ := C22_backends_agree .cp (dim := 2) (m := 3) (numC := 2) (by omega) (by omega)
    (fun _ => 0) (fun _ => 2) (fun k g => if k = 0 ∧ g = 1 then -1 else (g : ℤ)) false
  exact ⟨bc, bp, L, h1, h2, h4 5 (fun j k => (j : ℝ) + k) [0, 1] (by simp)⟩

/-- C23 is false for the Python backend when `ds` is shorter than the number of dimensions: the call raises `IndexError`,
whereas the compiled backend reads the missing orders as zero (`C23_mixed_partials_cc`). -/
theorem C23_short_py_fails (f : NFamily) {dim m numC : ℕ} (hdim : 1 ≤ dim) (hm : 1 ≤ m) (x0 xf : ℕ → ℝ)
    (nC : ℕ → ℕ → ℤ) (full : Bool) (n : ℕ) (xs : ℕ → ℕ → ℝ) (ds : List ℕ) (hds : ds.length < dim) :
    ∃ bf, Model.PyBF.nInit f x0 xf nC dim numC m = .ok bf ∧
      bf.H dim n (fun k j => xs j k) ds full = .error .indexError := by
  obtain ⟨bf, hbf, em, enC, edim, enumC, ez0, ex0, ec, ehint, h1, h2⟩ :=
    nInit_good f (m := m) (numC := numC) hdim x0 xf nC
  refine ⟨bf, hbf, ?_⟩
  have hfill : bf.fillT n (fun k j => (xs j k - bf.x0 k) * bf.c k + bf.z0) ds = .error .indexError := by
    unfold Model.PyBF.NBasisFunc.fillT
    rw [edim]
    obtain ⟨q, hq⟩ := Nat.exists_eq_add_of_lt hds
    rw [hq, show ds.length + q + 1 = ds.length + (q + 1) by omega, List.range_add, List.foldlM_append]
    obtain ⟨T, hT, -⟩ := fillT_py_spec { bf with dim := ds.length } (N := n)
      (z := fun k j => (xs j k - bf.x0 k) * bf.c k + bf.z0) (d := ds) (E := uniE f.cls) le_rfl
      (fun dk z => by simp only [ehint, em]; exact NFamily.pyHintSpec f hm n dk z)
    have hT' : (List.range ds.length).foldlM (bf.stepT n (fun k j => (xs j k - bf.x0 k) * bf.c k + bf.z0) ds)
        (fun _ _ _ => 0) = .ok T := hT
    rw [hT']
    simp only [bind, Except.bind]
    rw [List.range_succ_eq_map, List.map_cons, List.foldlM_cons]
    have hs : bf.stepT n (fun k j => (xs j k - bf.x0 k) * bf.c k + bf.z0) ds T (ds.length + 0) =
        .error .indexError := by
      simp [Model.PyBF.NBasisFunc.stepT]
    rw [hs]
    rfl
  unfold Model.PyBF.NBasisFunc.H
  rw [edim, if_neg (by simp)]
  simp only [hfill, bind, Except.bind]

end Verif.Props
