import Verif.Props.MultiPy
import Verif.Model.Bind
import Verif.Props.ElmSet
import Verif.Props.Multi
import Verif.Props.NElm

/-! # C73, C74: the arrays handed to the constructors and to `H` -/

namespace Verif.Props

open Verif Verif.Mem Verif.Py Verif.Np Verif.Spec Verif.Model Verif.Model.Bind Verif.Model.Py

/-! ## Blocks -/

theorem ofFn_eq_ofVec {α : Type} {n : ℕ} (v : ℕ → α) : Buf.ofFn n v = Buf.ofVec fun i : Fin n => v i := by
  simp only [Buf.ofFn, Buf.ofVec, Buf.mk.injEq, true_and]
  funext i
  by_cases h : i < n <;> simp [h]

theorem ofFn_eq_ofMat {α : Type} {r c : ℕ} (v : ℕ → α) :
    Buf.ofFn (r * c) v = Buf.ofMat fun (i : Fin r) (j : Fin c) => v (i * c + j) := by
  simp only [Buf.ofFn, Buf.ofMat, Buf.mk.injEq, true_and]
  funext i
  by_cases h : i < r * c
  · simp only [h, if_true, dif_pos]
    rw [Nat.div_add_mod']
  · simp [h]

theorem ofFn_eq_ofList {α : Type} {n : ℕ} (v : ℕ → α) : Buf.ofFn n v = Buf.ofList ((List.range n).map v) := by
  simp only [Buf.ofFn, Buf.ofList, List.length_map, List.length_range, Buf.mk.injEq, true_and]
  funext i
  by_cases h : i < n <;> simp [h]

theorem ints_ok {p : Buf ℤ} {n : ℕ} {v : ℕ → ℤ} (h : ∀ k < n, p.read k = .ok (v k)) :
    ints p n = .ok ((List.range n).map v) := by
  obtain ⟨l, h1, h2⟩ : Runs (ints p n) (fun l => l = (List.range n).map v) := by
    unfold ints
    refine loop_spec (fun i (l : List ℤ) => l = (List.range i).map v) (Nat.zero_le n) rfl ?_
    rintro i l - hi rfl
    rw [h i hi]
    exact ⟨_, rfl, by rw [List.range_succ]; simp⟩
  rw [h1, h2]

theorem loop_congr {σ ε : Type} {lo hi : ℕ} {f g : ℕ → σ → Except ε σ} (h : ∀ k s, lo ≤ k → k < hi → f k s = g k s) (s : σ) :
    loop lo hi f s = loop lo hi g s := by
  unfold loop
  have : ∀ L : List ℕ, (∀ k ∈ L, lo ≤ k ∧ k < hi) → ∀ s,
      L.foldlM (fun s k => f k s) s = L.foldlM (fun s k => g k s) s := by
    intro L
    induction L with
    | nil => intros; rfl
    | cons k L ih =>
      intro hL s
      simp only [List.foldlM_cons]
      rw [h k s (hL k (by simp)).1 (hL k (by simp)).2]
      congr 1
      funext s'
      exact ih (fun k hk => hL k (by simp [hk])) s'
  exact this _ (fun k hk => by have := List.mem_range'_1.1 hk; omega) s

theorem newC_congr {dim : ℕ} (z0 zf : ℝ) (x0 : Buf ℝ) {xf xf' : Buf ℝ} (h : ∀ k < dim, xf.read k = xf'.read k) :
    CC.newC dim z0 zf x0 xf = CC.newC dim z0 zf x0 xf' := by
  unfold CC.newC
  exact loop_congr (fun k s _ hk => by rw [h k hk]) _

theorem memcpy_congr {α : Type} (dst : Buf α) {src src' : Buf α} {n : ℕ} (h : ∀ k < n, src.read k = src'.read k) :
    CC.memcpy dst src n = CC.memcpy dst src' n := by
  unfold CC.memcpy
  exact loop_congr (fun k s _ hk => by rw [h k hk]) _

theorem nNew_congr (f : NFamily) {dim : ℕ} {x0 x0' xf xf' : Buf ℝ} {nC nC' : Buf ℤ} {r c : ℕ} (m : ℕ)
    (h0 : ∀ k < dim, x0.read k = x0'.read k) (hf : ∀ k < dim, xf.read k = xf'.read k)
    (hC : ∀ k < r * c, nC.read k = nC'.read k) :
    CC.nNew f x0 dim xf nC r c m = CC.nNew f x0' dim xf' nC' r c m := by
  cases f <;>
  · simp only [CC.nNew, CC.nCP.new, CC.nLeP.new, CC.nFS.new, CC.NBasisFunc.new]
    rw [memcpy_congr _ h0, memcpy_congr _ hC]
    simp only [newC_congr _ _ _ hf]

theorem NElm_new_congr (a : Activation) (w b : Buf ℝ) {dim : ℕ} {x0 x0' xf xf' : Buf ℝ} (nC : List ℤ) (m : ℕ)
    (h0 : ∀ k < dim, x0.read k = x0'.read k) (hf : ∀ k < dim, xf.read k = xf'.read k) :
    CC.NElm.new a w b x0 dim xf nC m = CC.NElm.new a w b x0' dim xf' nC m := by
  simp only [CC.NElm.new]
  rw [memcpy_congr _ h0]
  simp only [newC_congr _ _ _ hf]

theorem ReturnsMatrix.lift {K ι : Type} {r : Except Fault (ℕ × ℕ × Buf K)} {n : ℕ} {cols : List ι} {V : ℕ → ι → K}
    (h : ReturnsMatrix r n cols V) : ReturnsMatrix (liftCC r) n cols V := by
  obtain ⟨F, h1, h2⟩ := h
  exact ⟨F, by rw [h1]; rfl, h2⟩

/-! ## C73 -/

/-- The elements of an array, in C order. -/
def elements {α : Type} [Zero α] (a : NdArr α) : List α := (List.range a.size).map (NdArr.val a)

/-- What C73 claims of the univariate compiled classes, for removed indices `nC` in a given layout: the object is built, and
for points in an array of any layout `H` returns the derivatives of the basis functions that are not listed in `nC`. -/
def UniSees (nC : NdArr ℤ) : Prop :=
  ∀ (cls : UniClass) (x0 xf : ℝ) (m : ℕ), 1 ≤ m → (∃ k, nC.shape = [k]) →
    ∃ bf, newUni cls x0 xf nC m = .ok bf ∧
      ∀ (x : NdArr) (n d : ℕ) (full : Bool), NdArr.Full x → x.shape = [n] → full = true ∨ ValidRemoval m (elements nC) →
        UniClass.hasCode cls d → UniClass.orderOk cls d →
        (d ≠ 0 → ∀ w b, cls = .elm .relu w b → ∀ j < n, ∀ k ∈ outColumns m (elements nC) full,
          w k * cls.arg x0 xf (NdArr.val x j) + b k ≠ 0) →
        ReturnsMatrix (callUni bf x d full) n (outColumns m (elements nC) full)
          (fun j k => iteratedDeriv d (cls.basis x0 xf k) (NdArr.val x j))

theorem callUni_ok (bf : CC.BasisFunc ℝ) {x : NdArr} {n : ℕ} (hx : NdArr.Full x) (hs : x.shape = [n]) (d : ℕ) (full : Bool) :
    callUni bf x d full = liftCC (bf.H (Buf.ofFn n (NdArr.val x)) n d full) := by
  have hn : x.size = n := by simp [NdArr.size, hs]
  unfold callUni
  rw [if_neg (by simp [hs]), cStyle_ok hx, hn]
  rfl

/-- **C73**, univariate compiled classes, for removed indices in a contiguous array; the points may have any layout.
Missing: removed indices in an array of `int32` that is not contiguous, see `C73_strided_fails`. -/
theorem C73_uni_partial {nC : NdArr ℤ} (hC : NdArr.Full nC) (hc : NdArr.Contiguous nC) : UniSees nC := by
  rintro cls x0 xf m hm ⟨k, hk⟩
  have hn : newUni cls x0 xf nC m = .ok (CC.uniNew cls x0 xf (elements nC) m) := by
    unfold newUni
    rw [if_neg (by simp [hk]), ints_ok fun k hk => data_read hC hc hk]
    rfl
  refine ⟨_, hn, fun x n d full hx hs hv hcode hord hkink => ?_⟩
  rw [callUni_ok _ hx hs]
  refine ReturnsMatrix.lift (Verif.ReturnsMatrix.congr (uni_H cls x0 xf (elements nC) hm hcode full hv n (NdArr.val x))
    fun j hj k hk => ?_)
  exact (uni_iteratedDeriv cls x0 xf (elements nC) m hord k (NdArr.val x j)
    fun hd w b hcls => hkink hd w b hcls j hj k hk).symm

/-- The array `np.array([0, 2], dtype="int32")`. -/
def listed : NdArr ℤ := ⟨Buf.ofList [0, 2], 0, [2], [1]⟩

/-- The same numbers as a view: `np.array([0, 1, 2], dtype="int32")[::2]`. -/
def listedView : NdArr ℤ := ⟨Buf.ofList [0, 1, 2], 0, [2], [2]⟩

theorem listed_full : NdArr.Full listed := by
  intro k hk
  have hk : k < 2 := hk
  interval_cases k <;> simp [NdArr.entry, listed, strideOffset, Buf.ofList]

theorem listed_contiguous : NdArr.Contiguous listed := by
  intro k hk
  have hk : k < 2 := hk
  interval_cases k <;> simp [listed, strideOffset]

theorem listed_elements : elements listed = [0, 2] := by
  simp [elements, listed, NdArr.size, NdArr.val, NdArr.entry, strideOffset, Buf.ofList, List.range_succ]

theorem listedView_elements : elements listedView = [0, 2] := by
  simp [elements, listedView, NdArr.size, NdArr.val, NdArr.entry, strideOffset, Buf.ofList, List.range_succ]

theorem valid_zero_two : ValidRemoval 3 [0, 2] := ⟨by decide, by intro r hr; fin_cases hr <;> decide⟩

/-- The points `[0.0, 9.0, 1.0][::2]`, i.e. 0 and 1. -/
def pointsView : NdArr := ⟨Buf.ofList [0, 9, 1], 0, [2], [2]⟩

theorem pointsView_full : NdArr.Full pointsView := by
  intro k hk
  have hk : k < 2 := hk
  interval_cases k <;> simp [NdArr.entry, pointsView, strideOffset, Buf.ofList]

/-- Concrete case: Chebyshev polynomials on `[-1, 1]`, functions 0 and 2 of three removed, at points given as a view. -/
example : ∃ bf, newUni (.poly .cp) (-1) 1 listed 3 = .ok bf ∧ ReturnsMatrix (callUni bf pointsView 1 false) 2
    (outColumns 3 [0, 2] false) (fun j k => iteratedDeriv 1 (UniClass.basis (.poly .cp) (-1) 1 k) (NdArr.val pointsView j)) := by
  obtain ⟨bf, h1, h2⟩ := C73_uni_partial listed_full listed_contiguous (.poly .cp) (-1) 1 3 (by norm_num) ⟨2, rfl⟩
  have := h2 pointsView 2 1 false pointsView_full rfl
  rw [listed_elements] at this
  exact ⟨bf, h1, this (Or.inr valid_zero_two) trivial trivial (by intro _ w b h; cases h)⟩

/-- C73 is false for views: `BF.CP(-1., 1., np.array([0, 1, 2], dtype="int32")[::2], 3)` removes the functions 0 and 1 instead of
0 and 2, because the constructor (BF_Py.cc 13) copies from the first element on, ignoring the strides. -/
theorem C73_strided_fails : NdArr.Full listedView ∧ ¬ UniSees listedView := by
  constructor
  · intro k hk
    have hk : k < 2 := hk
    interval_cases k <;> simp [NdArr.entry, listedView, strideOffset, Buf.ofList]
  · intro h
    obtain ⟨bf, h1, h2⟩ := h (.poly .cp) (-1) 1 3 (by norm_num) ⟨2, rfl⟩
    have hn : newUni (.poly .cp) (-1) 1 listedView 3 = .ok (CC.uniNew (.poly .cp) (-1) 1 [0, 1] 3) := by
      unfold newUni
      rw [if_neg (by simp [listedView]), show listedView.size = 2 from rfl,
        ints_ok (v := fun k => (k : ℤ)) fun k hk => ?_]
      · rfl
      · interval_cases k <;> simp [NdArr.data, listedView, Buf.drop, Buf.read, Buf.ofList]
    rw [hn] at h1
    cases h1
    have h3 := h2 pointsView 2 0 false pointsView_full rfl (Or.inr (by rw [listedView_elements]; exact valid_zero_two))
      trivial trivial (by simp)
    rw [listedView_elements, callUni_ok _ pointsView_full rfl] at h3
    have h4 : ReturnsMatrix _ _ _ (fun j k => iteratedDeriv 0 (UniClass.basis (.poly .cp) (-1) 1 k) (NdArr.val pointsView j)) :=
      Verif.ReturnsMatrix.congr (ReturnsMatrix.lift (uni_H (.poly .cp) (-1) 1 [0, 1] (m := 3) (by norm_num) (d := 0) trivial
        false (Or.inr ⟨by decide, by intro r hr; fin_cases hr <;> decide⟩) 2 (NdArr.val pointsView))) fun j _ k _ =>
        (uni_iteratedDeriv (.poly .cp) (-1) 1 [0, 1] 3 (d := 0) trivial k (NdArr.val pointsView j)
          (by intro _ w b h; cases h)).symm
    obtain ⟨F, e1, -, e2⟩ := h3
    obtain ⟨G, f1, -, f2⟩ := h4
    rw [e1] at f1
    have hFG : F = G := congrArg (fun p : ℕ × ℕ × Buf ℝ => p.2.2) (Except.ok.inj f1)
    subst hFG
    have a1 : F.cell 0 = some (iteratedDeriv 0 (UniClass.basis (.poly .cp) (-1) 1 1) (NdArr.val pointsView 0)) :=
      e2 0 (by norm_num) 0 (by decide)
    have a2 : F.cell 0 = some (iteratedDeriv 0 (UniClass.basis (.poly .cp) (-1) 1 2) (NdArr.val pointsView 0)) :=
      f2 0 (by norm_num) 0 (by decide)
    rw [a1] at a2
    have a3 := Option.some.inj a2
    have hz : NdArr.val pointsView 0 = 0 := by
      simp [NdArr.val, NdArr.entry, pointsView, strideOffset, Buf.ofList]
    rw [hz, iteratedDeriv_zero, iteratedDeriv_zero] at a3
    simp [UniClass.basis, UniClass.fn, UniClass.arg, PolyFamily.arg, classical, toBasis] at a3

theorem callNd_ok (h : Buf ℝ → ℕ → Buf ℕ → ℕ → Bool → Except Fault (ℕ × ℕ × Buf ℝ)) {x : NdArr} {d : NdArr ℕ} {r n q : ℕ}
    (hx : NdArr.Full x) (hxs : x.shape = [r, n]) (hd : NdArr.Full d) (hds : d.shape = [q]) (full : Bool) :
    callNd h x d full = liftCC (h (Buf.ofMat fun (i : Fin r) (j : Fin n) => NdArr.val x (i * n + j)) n
      (Buf.ofList (elements d)) (elements d).length full) := by
  have hq : d.size = q := by simp [NdArr.size, hds]
  have hr : x.size = r * n := by simp [NdArr.size, hxs]
  have hl : (elements d).length = q := by simp [elements, hq]
  unfold callNd
  rw [hxs, hds]
  simp only
  rw [cStyle_ok hx, cStyle_ok hd, hr, ofFn_eq_ofMat, ofFn_eq_ofList, hl]
  rfl

/-- What C73 claims of the n-dimensional tensor-product classes, for constructor arguments in given layouts: the object is
built, and for points and orders in arrays of any layout `H` returns the mixed partial derivatives of the tensor-product
functions that are not removed (orders beyond the end of `d` are zero). -/
def NdSees (x0 xf : NdArr) (nC : NdArr ℤ) : Prop :=
  ∀ (f : NFamily) (dim numC m : ℕ) (full : Bool), 1 ≤ dim → 1 ≤ m → x0.shape = [dim] → xf.shape = [dim] → nC.shape = [dim, numC] →
    ∃ bf L, newNd f x0 xf nC m = .ok bf ∧
      IsColumnOrder m (fun k : Fin dim => List.ofFn fun g : Fin numC => NdArr.val nC (k * numC + g)) full L ∧
      ∀ (x : NdArr) (d : NdArr ℕ) (n q : ℕ), NdArr.Full x → x.shape = [dim, n] → NdArr.Full d → d.shape = [q] →
        ReturnsMatrix (callNd bf.H x d full) n L (fun j α => mixedPartial (fun k => (elements d).getD k 0)
          (f.cls.tensor (fun k => NdArr.val x0 k) (fun k => NdArr.val xf k) α) (fun k => NdArr.val x (k * n + j)))

theorem newNd_ok (f : NFamily) {x0 xf : NdArr} {nC : NdArr ℤ} {dim numC : ℕ} (m : ℕ)
    (h0 : NdArr.Full x0) (c0 : NdArr.Contiguous x0) (s0 : x0.shape = [dim])
    (hf : NdArr.Full xf) (cf : NdArr.Contiguous xf) (sf : xf.shape = [dim])
    (hC : NdArr.Full nC) (cC : NdArr.Contiguous nC) (sC : nC.shape = [dim, numC]) :
    newNd f x0 xf nC m = liftCC (CC.nNew f (Buf.ofVec fun k : Fin dim => NdArr.val x0 k) dim
      (Buf.ofVec fun k : Fin dim => NdArr.val xf k)
      (Buf.ofMat fun (k : Fin dim) (g : Fin numC) => NdArr.val nC (k * numC + g)) dim numC m) := by
  have z0 : x0.size = dim := by simp [NdArr.size, s0]
  have zf : xf.size = dim := by simp [NdArr.size, sf]
  have zC : nC.size = dim * numC := by simp [NdArr.size, sC]
  unfold newNd
  rw [if_neg (by simp [s0]), if_neg (by simp [sf]), sC]
  simp only
  rw [z0, ← ofFn_eq_ofVec, ← ofFn_eq_ofVec, ← ofFn_eq_ofMat]
  refine congrArg liftCC (nNew_congr f m (fun k hk => ?_) (fun k hk => ?_) (fun k hk => ?_))
  · rw [data_read h0 c0 (z0.symm ▸ hk), Buf.ofFn_read hk]
  · rw [data_read hf cf (zf.symm ▸ hk), Buf.ofFn_read hk]
  · rw [data_read hC cC (zC.symm ▸ hk), Buf.ofFn_read hk]

/-- **C73**, n-dimensional tensor-product classes, for constructor arguments in contiguous arrays; points and orders may have
any layout. Missing: constructor arguments that are not contiguous, see `C73_fortran_fails`. -/
theorem C73_nd_partial {x0 xf : NdArr} {nC : NdArr ℤ} (h0 : NdArr.Full x0) (c0 : NdArr.Contiguous x0)
    (hf : NdArr.Full xf) (cf : NdArr.Contiguous xf) (hC : NdArr.Full nC) (cC : NdArr.Contiguous nC) : NdSees x0 xf nC := by
  intro f dim numC m full hdim hm s0 sf sC
  obtain ⟨bf, L, h1, h2, h3⟩ := C23_mixed_partials_cc f hdim hm (fun k => NdArr.val x0 k) (fun k => NdArr.val xf k)
    (fun (k : Fin dim) (g : Fin numC) => NdArr.val nC (k * numC + g)) full
  refine ⟨bf, L, ?_, h2, fun x d n q hx hxs hd hds => ?_⟩
  · rw [newNd_ok f m h0 c0 s0 hf cf sf hC cC sC, h1]
    rfl
  · rw [callNd_ok bf.H hx hxs hd hds]
    exact ReturnsMatrix.lift (h3 n (fun j k => NdArr.val x (k * n + j)) (elements d))

/-- The table `[[0, 1], [0, 2]]` in C order. -/
def table : NdArr ℤ := ⟨Buf.ofList [0, 1, 0, 2], 0, [2, 2], [2, 1]⟩

/-- The same table in Fortran order, as `np.array([[0, 0], [1, 2]], dtype="int32").T`. -/
def tableT : NdArr ℤ := ⟨Buf.ofList [0, 0, 1, 2], 0, [2, 2], [1, 2]⟩

/-- `np.array([0., 0.])`. -/
def zeros2 : NdArr := ⟨Buf.ofList [0, 0], 0, [2], [1]⟩

/-- `np.array([1., 1.])`. -/
def ones2 : NdArr := ⟨Buf.ofList [1, 1], 0, [2], [1]⟩

theorem two_full {a b : ℝ} : NdArr.Full (⟨Buf.ofList [a, b], 0, [2], [1]⟩ : NdArr) := by
  intro k hk
  have hk : k < 2 := hk
  interval_cases k <;> simp [NdArr.entry, strideOffset, Buf.ofList]

theorem two_contiguous {a b : ℝ} : NdArr.Contiguous (⟨Buf.ofList [a, b], 0, [2], [1]⟩ : NdArr) := by
  intro k hk
  have hk : k < 2 := hk
  interval_cases k <;> simp [strideOffset]

theorem table_full : NdArr.Full table := by
  intro k hk
  have hk : k < 4 := hk
  interval_cases k <;> simp [NdArr.entry, table, strideOffset, Buf.ofList]

theorem table_contiguous : NdArr.Contiguous table := by
  intro k hk
  have hk : k < 4 := hk
  interval_cases k <;> simp [table, strideOffset]

theorem tableT_full : NdArr.Full tableT := by
  intro k hk
  have hk : k < 4 := hk
  interval_cases k <;> simp [NdArr.entry, tableT, strideOffset, Buf.ofList]

/-- The two arrays hold the same numbers. -/
theorem tableT_elements : elements tableT = elements table ∧ elements table = [0, 1, 0, 2] := by
  simp [elements, table, tableT, NdArr.size, NdArr.val, NdArr.entry, strideOffset, Buf.ofList, List.range_succ]

/-- Concrete case: two-dimensional Chebyshev functions of degree at most 1 with the table in C order. -/
example : ∃ bf L, newNd .cp zeros2 ones2 table 2 = .ok bf ∧ IsColumnOrder 2 (![[0, 1], [0, 2]] : Fin 2 → List ℤ) false L := by
  obtain ⟨bf, L, h1, h2, _⟩ := C73_nd_partial two_full two_contiguous two_full two_contiguous table_full table_contiguous
    .cp 2 2 2 false (by norm_num) (by norm_num) rfl rfl rfl
  have ht : (fun k : Fin 2 => List.ofFn fun g : Fin 2 => NdArr.val table (k * 2 + g)) = ![[0, 1], [0, 2]] := by
    funext k
    fin_cases k <;> simp [NdArr.val, NdArr.entry, table, strideOffset, Buf.ofList]
  exact ⟨bf, L, h1, ht ▸ h2⟩

/-- C73 is false for a table of removed functions in Fortran order (for example a transposed array): of the three products of
degree at most 1 the table removes two, but the compiled object, which reads the block row by row, removes one. -/
theorem C73_fortran_fails : NdArr.Full tableT ∧ ¬ NdSees zeros2 ones2 tableT := by
  refine ⟨tableT_full, fun h => ?_⟩
  obtain ⟨bf, L, h1, h2, h3⟩ := h .cp 2 2 2 false (by norm_num) (by norm_num) rfl rfl rfl
  have hread : ∀ k < 2 * 2, tableT.data.read k =
      (Buf.ofMat fun (k : Fin 2) (g : Fin 2) => (![![0, 0], ![1, 2]] : Fin 2 → Fin 2 → ℤ) k g).read k := by
    intro k hk
    interval_cases k <;> simp [NdArr.data, tableT, Buf.drop, Buf.read, Buf.ofList, Buf.ofMat]
  have hn : newNd .cp zeros2 ones2 tableT 2 = liftCC (CC.nNew .cp (Buf.ofVec fun k : Fin 2 => NdArr.val zeros2 k) 2
      (Buf.ofVec fun k : Fin 2 => NdArr.val ones2 k) (Buf.ofMat fun (k : Fin 2) (g : Fin 2) =>
        (![![0, 0], ![1, 2]] : Fin 2 → Fin 2 → ℤ) k g) 2 2 2) := by
    show liftCC (CC.nNew .cp zeros2.data 2 ones2.data tableT.data 2 2 2) = _
    rw [← ofFn_eq_ofVec, ← ofFn_eq_ofVec]
    refine congrArg liftCC (nNew_congr .cp 2 (fun k hk => ?_) (fun k hk => ?_) hread)
    · rw [data_read (a := zeros2) two_full two_contiguous hk, Buf.ofFn_read hk]
    · rw [data_read (a := ones2) two_full two_contiguous hk, Buf.ofFn_read hk]
  obtain ⟨bf', L', g1, g2, g3⟩ := C23_mixed_partials_cc .cp (dim := 2) (m := 2) (by norm_num) (by norm_num)
    (fun k => NdArr.val zeros2 k) (fun k => NdArr.val ones2 k) ![![0, 0], ![1, 2]] false
  rw [hn, g1] at h1
  cases h1
  obtain ⟨F, e1, -⟩ := h3 ⟨alloc 0, 0, [2, 0], [0, 0]⟩ ⟨alloc 0, 0, [0], [0]⟩ 0 0
    (by intro k hk; simp [NdArr.size] at hk) rfl (by intro k hk; simp [NdArr.size] at hk) rfl
  rw [callNd_ok _ (r := 2) (n := 0) (q := 0) (by intro k hk; simp [NdArr.size] at hk) rfl
    (by intro k hk; simp [NdArr.size] at hk) rfl] at e1
  obtain ⟨G, f1, -⟩ := ReturnsMatrix.lift (g3 0 (fun _ _ => 0) (elements ⟨alloc 0, 0, [0], [0]⟩))
  have hx : (Buf.ofMat fun (i : Fin 2) (j : Fin 0) => NdArr.val (⟨alloc 0, 0, [2, 0], [0, 0]⟩ : NdArr) (i * 0 + j)) =
      Buf.ofMat fun (i : Fin 2) (j : Fin 0) => (0 : ℝ) := by
    congr 1
  rw [hx] at e1
  rw [e1] at f1
  have hlen : L.length = L'.length := congrArg (fun p : ℕ × ℕ × Buf ℝ => p.2.1) (Except.ok.inj f1)
  rw [C22_order_unique h2 (multiColumns_order _ _ _), C22_order_unique g2 (multiColumns_order _ _ _)] at hlen
  revert hlen
  have ht : (fun k : Fin 2 => List.ofFn fun g : Fin 2 => NdArr.val tableT (k * 2 + g)) = ![[0, 1], [0, 2]] := by
    funext k
    fin_cases k <;> simp [NdArr.val, NdArr.entry, tableT, strideOffset, Buf.ofList]
  have ht' : (fun k : Fin 2 => List.ofFn ((![![0, 0], ![1, 2]] : Fin 2 → Fin 2 → ℤ) k)) = ![[0, 0], [1, 2]] := by
    funext k
    fin_cases k <;> simp
  rw [ht, ht']
  decide

/-- **C73**, n-dimensional ELM classes (whose weights and biases are drawn by the constructor), for constructor arguments in
contiguous arrays; points and orders may have any layout. Total orders above 8 and the kinks of ReLU are those of C25.
Missing: constructor arguments that are not contiguous (`C73_strided_fails` shows the effect). -/
theorem C73_nelm_partial (a : Activation) {x0 xf : NdArr} {nC : NdArr ℤ} (h0 : NdArr.Full x0) (c0 : NdArr.Contiguous x0)
    (hf : NdArr.Full xf) (cf : NdArr.Contiguous xf) (hC : NdArr.Full nC) (cC : NdArr.Contiguous nC) {dim numC : ℕ}
    (hdim : 1 ≤ dim) (s0 : x0.shape = [dim]) (sf : xf.shape = [dim]) (sC : nC.shape = [numC])
    (hne : ∀ k < dim, NdArr.val x0 k ≠ NdArr.val xf k) (w : Fin dim → ℕ → ℝ) (b : ℕ → ℝ) (m : ℕ) :
    ∃ e, newNElm a (Buf.ofMat fun i (k : Fin m) => w i k) (Buf.ofFn m b) x0 xf nC m = .ok e ∧
      ∀ (x : NdArr) (d : NdArr ℕ) (n q : ℕ) (full : Bool), NdArr.Full x → x.shape = [dim, n] → NdArr.Full d → d.shape = [q] →
        q ≤ dim → full = true ∨ NElmRemoval m (elements nC) →
        (a = .sigmoid ∨ a = .tanh ∨ a = .swish → (elements d).sum ≤ 8) →
        (a = .relu → (elements d).sum ≠ 0 → ∀ j < n, ∀ k ∈ outColumns m (elements nC) full,
          ∑ i : Fin dim, w i k * toBasis (NdArr.val x0 i) (NdArr.val xf i) 0 1 (NdArr.val x (i * n + j)) + b k ≠ 0) →
        ReturnsMatrix (callNd e.H x d full) n (outColumns m (elements nC) full)
          (fun j k => mixedPartial (fun i => (elements d).getD i 0)
            (nElmBasis a (fun i : Fin dim => NdArr.val x0 i) (fun i => NdArr.val xf i) w b k)
            (fun i => NdArr.val x (i * n + j))) := by
  have z0 : x0.size = dim := by simp [NdArr.size, s0]
  have zf : xf.size = dim := by simp [NdArr.size, sf]
  have hn : newNElm a (Buf.ofMat fun i (k : Fin m) => w i k) (Buf.ofFn m b) x0 xf nC m =
      liftCC (nElmObj a (fun i : Fin dim => NdArr.val x0 i) (fun i => NdArr.val xf i) w b (elements nC) m) := by
    unfold newNElm
    rw [if_neg (by simp [s0]), if_neg (by simp [sf]), if_neg (by simp [sC]), ints_ok fun k hk => data_read hC cC hk]
    show (if x0.size * nC.size < nC.size then _ else _) = _
    rw [if_neg (by rw [z0]; have := Nat.le_mul_of_pos_left nC.size hdim; omega), z0]
    unfold nElmObj
    rw [← ofFn_eq_ofVec, ← ofFn_eq_ofVec]
    refine congrArg liftCC (NElm_new_congr a _ _ _ m (fun k hk => ?_) (fun k hk => ?_))
    · rw [data_read h0 c0 (z0.symm ▸ hk), Buf.ofFn_read hk]
    · rw [data_read hf cf (zf.symm ▸ hk), Buf.ofFn_read hk]
  obtain ⟨e, he, -⟩ := nElmObj_good a (fun i : Fin dim => NdArr.val x0 i) (fun i => NdArr.val xf i) w b (elements nC) m
  refine ⟨e, by rw [hn, he]; rfl, fun x d n q full hx hxs hd hds hq hrem hord hkink => ?_⟩
  have hl : (elements d).length = q := by simp [elements, NdArr.size, hds]
  obtain ⟨e', he', h1, -⟩ := C25_nelm_cc_partial a (elements d) hord (fun i : Fin dim => NdArr.val x0 i)
    (fun i => NdArr.val xf i) w b (elements nC) m full n (fun j i => NdArr.val x (i * n + j)) (by omega)
    (fun i => hne i i.2) hrem hkink
  rw [he] at he'
  cases he'
  rw [callNd_ok e.H hx hxs hd hds]
  exact ReturnsMatrix.lift h1

/-- Concrete case: a two-dimensional sine ELM with two functions, none removed, order one in each variable. -/
example (w : Fin 2 → ℕ → ℝ) (b : ℕ → ℝ) : ∃ e, newNElm .sin (Buf.ofMat fun i (k : Fin 2) => w i k) (Buf.ofFn 2 b) zeros2 ones2
    ⟨Buf.ofList [-1], 0, [1], [1]⟩ 2 = .ok e := by
  obtain ⟨e, h, -⟩ := C73_nelm_partial .sin (x0 := zeros2) (xf := ones2) (nC := ⟨Buf.ofList [-1], 0, [1], [1]⟩) two_full
    two_contiguous two_full two_contiguous (by intro k hk; have hk : k < 1 := hk; interval_cases k; simp [NdArr.entry, strideOffset, Buf.ofList])
    (by intro k hk; have hk : k < 1 := hk; interval_cases k; simp [strideOffset]) (dim := 2) (numC := 1) (by norm_num) rfl rfl rfl
    (by intro k hk; interval_cases k <;> simp [NdArr.val, NdArr.entry, zeros2, ones2, strideOffset, Buf.ofList]) w b 2
  exact ⟨e, h⟩

/-! ## C74 -/

theorem fails_loop {σ ε : Type} {lo hi k : ℕ} {body : ℕ → σ → Except ε σ} (h1 : lo ≤ k) (h2 : k < hi)
    (h : ∀ s, Post (body k s) fun _ => False) (s : σ) : Post (loop lo hi body s) fun _ => False := by
  refine Post.mono (loop_post (fun i _ => i ≤ k) (by omega) h1 ?_) fun _ h => by omega
  intro i s _ hi hik
  by_cases hk : i = k
  · subst hk
    exact Post.mono (h s) fun _ h => h.elim
  · intro _ _
    omega

theorem fails_bind {σ τ ε : Type} {p : Except ε σ} {f : σ → Except ε τ} (h : Post p fun _ => False) :
    Post (p >>= f) fun _ => False := by
  intro t ht
  cases hp : p with
  | error e => rw [hp] at ht; cases ht
  | ok s => exact h s hp

theorem fails_then {σ τ ε : Type} {p : Except ε σ} {f : σ → Except ε τ} (h : ∀ s, p = .ok s → Post (f s) fun _ => False) :
    Post (p >>= f) fun _ => False := by
  intro t ht
  cases hp : p with
  | error e => rw [hp] at ht; cases ht
  | ok s => rw [hp] at ht; exact h s hp t ht

theorem crash_of_fails {α : Type} {p : Except Fault α} (h : Post p fun _ => False) : liftCC p = .error .crash := by
  cases hp : p with
  | error e => rfl
  | ok s => exact (h s hp).elim

theorem read_oob {α : Type} {b : Buf α} {i : ℕ} (h : b.size ≤ i) : Post (b.read i) fun _ => False := by
  intro v hv
  unfold Buf.read at hv
  rw [if_neg (by omega)] at hv
  cases hv

theorem read_none {α : Type} {b : Buf α} {i : ℕ} (h : b.cell i = none) : Post (b.read i) fun _ => False := by
  intro v hv
  unfold Buf.read at hv
  rw [h] at hv
  split at hv <;> cases hv

/-- A copy leaves the size and the cells beyond the copied part alone, and fits. -/
theorem memcpy_post {α : Type} (dst src : Buf α) (n : ℕ) : Post (CC.memcpy dst src n) fun b =>
    b.size = dst.size ∧ n ≤ dst.size ∧ ∀ j, n ≤ j → b.cell j = dst.cell j := by
  unfold CC.memcpy
  refine Post.mono (loop_post (fun i (b : Buf α) => b.size = dst.size ∧ i ≤ dst.size ∧ ∀ j, i ≤ j → b.cell j = dst.cell j)
    (Nat.zero_le n) ⟨rfl, Nat.zero_le _, fun _ _ => rfl⟩ ?_) fun _ h => h
  rintro i b - - ⟨h1, h2, h3⟩
  refine Post.bind (Q := fun _ => True) (fun _ _ => trivial) fun v _ b' hb' => ?_
  unfold Buf.write at hb'
  split at hb'
  · cases hb'
    refine ⟨h1, by omega, fun j hj => ?_⟩
    simp only
    rw [Function.update_of_ne (by omega)]
    exact h3 j (by omega)
  · cases hb'

theorem newC_size (dim : ℕ) (z0 zf : ℝ) (x0 xf : Buf ℝ) : Post (CC.newC dim z0 zf x0 xf) fun c => c.size = dim := by
  unfold CC.newC
  refine loop_post (fun _ (c : Buf ℝ) => c.size = dim) (Nat.zero_le _) rfl ?_
  rintro i c - - hc
  refine Post.bind (Q := fun _ => True) (fun _ _ => trivial) fun _ _ => ?_
  refine Post.bind (Q := fun _ => True) (fun _ _ => trivial) fun _ _ => ?_
  exact Post.mono (write_post _ _ _) fun c' h => h.1.trans hc

theorem freeDim_fails {numC : ℕ} (hC : 1 ≤ numC) {nC : Buf ℤ} (vec : Buf ℕ) {j : ℕ} (h : nC.cell (j * numC) = none) :
    Post (CC.freeDim numC nC vec j) fun _ => False := by
  unfold CC.freeDim
  rw [loop_succ (by omega)]
  refine fails_bind ?_
  rw [if_neg (by simp)]
  refine fails_then fun v _ => fails_bind ?_
  exact read_none (by simpa using h)

theorem anyFree_fails {dim numC : ℕ} (hC : 1 ≤ numC) {nC : Buf ℤ} (vec : Buf ℕ) {j : ℕ} (hj : j < dim)
    (h : nC.cell (j * numC) = none) : Post (CC.anyFree dim numC nC vec) fun _ => False := by
  unfold CC.anyFree
  exact fails_loop (Nat.zero_le j) hj (fun s => fails_bind (freeDim_fails hC vec h)) _

theorem NumBasisFunc_fails {dim m numC : ℕ} (hC : 1 ≤ numC) (hm : 1 ≤ m) {nC : Buf ℤ} {j : ℕ} (hj : j < dim)
    (h : nC.cell (j * numC) = none) (q : ℕ) (s : Buf ℕ × ℕ) :
    Post (CC.NumBasisFunc dim m numC nC false q s) fun _ => False := by
  induction q generalizing s with
  | zero =>
    unfold CC.NumBasisFunc
    refine fails_loop (le_refl 0) hm (fun s => fails_then fun vec _ => ?_) _
    rw [if_neg (by simp)]
    exact fails_bind (anyFree_fails hC vec hj h)
  | succ q ih =>
    unfold CC.NumBasisFunc
    exact fails_loop (le_refl 0) hm (fun s => fails_then fun vec _ => ih _) _

/-- **C74** is false for the table of removed functions of a compiled n-dimensional object: a table whose number of rows is
not the number of dimensions is not refused. With more rows the copy runs over the end of its block (BF.cc 1034–1035), with
fewer the missing rows are read uninitialised (BF.cc 1173–1180): in both cases the behaviour is undefined. -/
theorem C74_table_fails (f : NFamily) (x0 xf : NdArr) (nC : NdArr ℤ) {dim r numC m : ℕ} (s0 : x0.shape = [dim])
    (sf : xf.shape.length = 1) (sC : nC.shape = [r, numC]) (hr : r ≠ dim) (hC : 1 ≤ numC) (hm : 1 ≤ m) :
    newNd f x0 xf nC m = .error .crash := by
  have z0 : x0.size = dim := by simp [NdArr.size, s0]
  unfold newNd
  rw [if_neg (by simp [s0]), if_neg (by simp [sf]), sC]
  refine crash_of_fails ?_
  rw [z0]
  have key : ∀ hint (a b : ℝ), Post (CC.NBasisFunc.new hint x0.data dim xf.data nC.data r numC m a b) fun _ => False := by
    intro hint a b
    unfold CC.NBasisFunc.new
    refine fails_then fun x0' _ => fails_then fun tab htab => fails_then fun c _ => ?_
    obtain ⟨h1, h2, h3⟩ := memcpy_post _ _ _ _ htab
    have h2 : r * numC ≤ dim * numC := h2
    have hlt : r < dim := lt_of_le_of_ne (Nat.le_of_mul_le_mul_right h2 hC) hr
    rw [if_neg (by omega)]
    exact fails_bind (NumBasisFunc_fails hC hm hlt (h3 _ le_rfl) _ _)
  cases f <;> exact key _ _ _

/-- **C74** is false for the end points of a compiled n-dimensional object: an array `xf` with fewer elements than `x0` is not
refused; elements beyond its end are read (BF.cc 1039–1040, 1297–1298). Here `xf` ends where its memory block ends. -/
theorem C74_ends_fails (f : NFamily) (x0 xf : NdArr) (nC : NdArr ℤ) {dim q r numC m : ℕ} (s0 : x0.shape = [dim])
    (sf : xf.shape = [q]) (hend : xf.mem.size = xf.off + q) (sC : nC.shape = [r, numC]) (hq : q < dim) :
    newNd f x0 xf nC m = .error .crash := by
  have z0 : x0.size = dim := by simp [NdArr.size, s0]
  unfold newNd
  rw [if_neg (by simp [s0]), if_neg (by simp [sf]), sC]
  refine crash_of_fails ?_
  rw [z0]
  have key : ∀ hint (a b : ℝ), Post (CC.NBasisFunc.new hint x0.data dim xf.data nC.data r numC m a b) fun _ => False := by
    intro hint a b
    unfold CC.NBasisFunc.new
    refine fails_then fun x0' _ => fails_then fun tab _ => fails_bind ?_
    unfold CC.newC
    refine fails_loop (Nat.zero_le q) hq (fun s => fails_bind (read_oob ?_)) _
    show xf.mem.size - xf.off ≤ q
    omega
  cases f <;> exact key _ _ _

theorem mapPointsN_fails {dim r n : ℕ} (hr : r < dim) (hn : 1 ≤ n) (x0 c : Buf ℝ) (z0 : ℝ) {x : Buf ℝ} (hx : x.size = r * n) :
    Post (CC.mapPointsN dim x0 c z0 x n) fun _ => False := by
  unfold CC.mapPointsN
  refine fails_loop (Nat.zero_le r) hr (fun s => fails_loop (le_refl 0) hn (fun z => fails_bind (read_oob ?_)) _) _
  omega

theorem callNd_fails {h : Buf ℝ → ℕ → Buf ℕ → ℕ → Bool → Except Fault (ℕ × ℕ × Buf ℝ)} {x : NdArr} {d : NdArr ℕ} {r n q : ℕ}
    (hx : NdArr.Full x) (hxs : x.shape = [r, n]) (hd : NdArr.Full d) (hds : d.shape = [q]) (full : Bool)
    (hh : ∀ xb db, xb.size = r * n → Post (h xb n db q full) fun _ => False) : callNd h x d full = .error .crash := by
  have hr : x.size = r * n := by simp [NdArr.size, hxs]
  unfold callNd
  rw [hxs, hds]
  simp only
  rw [cStyle_ok hx, cStyle_ok hd]
  show liftCC (h _ n _ q full) = _
  exact crash_of_fails (hh _ _ hr)

/-- **C74** is false for the points of a compiled n-dimensional object: points with fewer coordinates than dimensions are not
refused; the missing rows are read beyond the end of the array (BF.cc 1115–1118). -/
theorem C74_points_fails (bf : CC.NBasisFunc ℝ) {x : NdArr} {d : NdArr ℕ} {r n q : ℕ} (hx : NdArr.Full x) (hxs : x.shape = [r, n])
    (hd : NdArr.Full d) (hds : d.shape = [q]) (full : Bool) (hr : r < bf.dim) (hn : 1 ≤ n) :
    callNd bf.H x d full = .error .crash := by
  refine callNd_fails hx hxs hd hds full fun xb db hxb => ?_
  unfold CC.NBasisFunc.H CC.NBasisFunc.nHint
  exact fails_bind (fails_bind (mapPointsN_fails hr hn _ _ _ hxb))

theorem NElm_H_fails {e : CC.NElm ℝ} {x : Buf ℝ} {n : ℕ} {d : Buf ℕ} {q : ℕ} {full : Bool}
    (h : ∀ nb F, Post (e.nHint x n d q nb F full) fun _ => False) : Post (e.H x n d q full) fun _ => False := by
  unfold CC.NElm.H
  generalize (if full = true then e.numBasisFuncFull else e.numBasisFunc) = nb
  by_cases hnb : nb < 0
  · simp only [hnb, if_true]
    intro _ h
    cases h
  · simp only [hnb, if_false]
    exact fails_bind (h _ _)

/-- The same for the n-dimensional ELM objects (BF.cc 1375–1378). -/
theorem C74_points_elm_fails (e : CC.NElm ℝ) {x : NdArr} {d : NdArr ℕ} {r n q : ℕ} (hx : NdArr.Full x) (hxs : x.shape = [r, n])
    (hd : NdArr.Full d) (hds : d.shape = [q]) (full : Bool) (hr : r < e.dim) (hn : 1 ≤ n) :
    callNd e.H x d full = .error .crash := by
  refine callNd_fails hx hxs hd hds full fun xb db hxb => ?_
  refine NElm_H_fails fun nb F => ?_
  unfold CC.NElm.nHint
  exact fails_bind (mapPointsN_fails hr hn _ _ _ hxb)

theorem strideOffset_head (r r' n : ℕ) (st : List ℤ) (k : ℕ) : strideOffset [r, n] st k = strideOffset [r', n] st k := by
  cases st <;> rfl

/-- Points with more coordinates than dimensions are not refused either: the extra rows are ignored, the result is that of the
first `dim` rows. -/
theorem C74_extra_rows (bf : CC.NBasisFunc ℝ) {x : NdArr} {d : NdArr ℕ} {r n q : ℕ} (hx : NdArr.Full x) (hxs : x.shape = [r, n])
    (hd : NdArr.Full d) (hds : d.shape = [q]) (full : Bool) (hr : bf.dim ≤ r) :
    callNd bf.H x d full = callNd bf.H { x with shape := [bf.dim, n] } d full := by
  have hle : bf.dim * n ≤ r * n := Nat.mul_le_mul_right n hr
  have hval : ∀ k, NdArr.entry { x with shape := [bf.dim, n] } k = NdArr.entry x k := by
    intro k
    unfold NdArr.entry
    simp only
    rw [hxs, strideOffset_head bf.dim r]
  have hx' : NdArr.Full { x with shape := [bf.dim, n] } := by
    intro k hk
    rw [hval]
    refine hx k ?_
    have : k < bf.dim * n := by simpa [NdArr.size] using hk
    simp only [NdArr.size, hxs, List.prod_cons, List.prod_nil, mul_one]
    omega
  rw [callNd_ok bf.H hx hxs hd hds, callNd_ok bf.H (r := bf.dim) (n := n) hx' rfl hd hds]
  refine congrArg liftCC ?_
  have hm : CC.mapPointsN bf.dim bf.x0 bf.c bf.z0 (Buf.ofMat fun (i : Fin r) (j : Fin n) => NdArr.val x (i * n + j)) n =
      CC.mapPointsN bf.dim bf.x0 bf.c bf.z0
        (Buf.ofMat fun (i : Fin bf.dim) (j : Fin n) => NdArr.val { x with shape := [bf.dim, n] } (i * n + j)) n := by
    unfold CC.mapPointsN
    refine loop_congr (fun j z _ hj => loop_congr (fun k z _ hk => ?_) _) _
    rw [Buf.ofMat_read _ (lt_of_lt_of_le hj hr) hk, Buf.ofMat_read _ hj hk]
    simp only [NdArr.val, hval]
  unfold CC.NBasisFunc.H CC.NBasisFunc.nHint
  rw [hm]

theorem orders_fails {e : CC.NElm ℝ} {d : Buf ℕ} {q : ℕ} (hc : e.c.size < q) : Post (e.orders d q) fun _ => False := by
  unfold CC.NElm.orders
  exact fails_loop (Nat.zero_le e.c.size) hc (fun s => fails_then fun di _ => fails_bind (read_oob le_rfl)) _

theorem elmHint_fails {e : CC.NElm ℝ} (ha : e.act ≠ .relu) {d : Buf ℕ} {q : ℕ} (hc : e.c.size < q) (x : Buf ℝ) (n : ℕ) (F : Buf ℝ) :
    Post (e.elmHint d q x n F) fun _ => False := by
  unfold CC.NElm.elmHint
  cases h : e.act with
  | relu => exact absurd h ha
  | sigmoid => exact fails_then fun _ _ => fails_bind (orders_fails hc)
  | tanh => exact fails_then fun _ _ => fails_bind (orders_fails hc)
  | sin => exact fails_bind (orders_fails hc)
  | swish => exact fails_bind (orders_fails hc)

/-- **C74** is false for the orders of a compiled n-dimensional ELM object: more orders than dimensions are not refused; the
factors of the missing dimensions are read beyond the end of `c` (BF.cc 1425–1428, for ReLU only if such an order is one). -/
theorem C74_orders_fails {a : Activation} (ha : a ≠ .relu) {w b : Buf ℝ} {x0 xf : NdArr} {nC : NdArr ℤ} {m dim : ℕ} {e : CC.NElm ℝ}
    (s0 : x0.shape = [dim]) (he : newNElm a w b x0 xf nC m = .ok e) {x : NdArr} {d : NdArr ℕ} {r n q : ℕ} (hx : NdArr.Full x)
    (hxs : x.shape = [r, n]) (hd : NdArr.Full d) (hds : d.shape = [q]) (full : Bool) (hq : dim < q) :
    callNd e.H x d full = .error .crash := by
  have z0 : x0.size = dim := by simp [NdArr.size, s0]
  have hobj : e.c.size = dim ∧ e.act = a := by
    unfold newNElm at he
    cases hl : ints nC.data nC.size with
    | error g => rw [hl] at he; split_ifs at he <;> cases he
    | ok l =>
      rw [hl] at he
      split_ifs at he
      · cases he
      have he : liftCC (CC.NElm.new a w b x0.data x0.size xf.data l m) = .ok e := he
      rw [z0] at he
      have key : Post (CC.NElm.new a w b x0.data dim xf.data l m) fun e => e.c.size = dim ∧ e.act = a := by
        unfold CC.NElm.new
        refine Post.bind (Q := fun _ => True) (fun _ _ => trivial) fun _ _ => ?_
        refine Post.bind (newC_size _ _ _ _ _) fun c hc => ?_
        intro e' h
        cases h
        exact ⟨hc, rfl⟩
      cases hn : CC.NElm.new a w b x0.data dim xf.data l m with
      | error g => rw [hn] at he; cases he
      | ok e' =>
        rw [hn] at he
        cases he
        exact key _ hn
  refine callNd_fails hx hxs hd hds full fun xb db _ => ?_
  have hc : e.c.size < q := by omega
  have hact : e.act ≠ .relu := by rw [hobj.2]; exact ha
  refine NElm_H_fails fun nb F => ?_
  unfold CC.NElm.nHint
  refine fails_then fun z _ => ?_
  split
  · exact elmHint_fails hact hc _ _ _
  · exact fails_bind (elmHint_fails hact hc _ _ _)

/-- What the compiled classes do refuse (with a `ValueError`): arrays with the wrong number of axes. -/
theorem C74_axes_partial :
    (∀ cls x0 xf (nC : NdArr ℤ) m, nC.shape.length ≠ 1 → newUni cls x0 xf nC m = .error .valueError) ∧
    (∀ f (x0 xf : NdArr) (nC : NdArr ℤ) m, x0.shape.length ≠ 1 ∨ xf.shape.length ≠ 1 ∨ nC.shape.length ≠ 2 →
      newNd f x0 xf nC m = .error .valueError) ∧
    (∀ a w b (x0 xf : NdArr) (nC : NdArr ℤ) m, x0.shape.length ≠ 1 ∨ xf.shape.length ≠ 1 ∨ nC.shape.length ≠ 1 →
      newNElm a w b x0 xf nC m = .error .valueError) ∧
    (∀ bf (x : NdArr) d full, x.shape.length ≠ 1 → callUni bf x d full = .error .valueError) ∧
    (∀ h (x : NdArr) (d : NdArr ℕ) full, x.shape.length ≠ 2 ∨ d.shape.length ≠ 1 → callNd h x d full = .error .valueError) := by
  refine ⟨fun cls x0 xf nC m h => if_pos h, fun f x0 xf nC m h => ?_, fun a w b x0 xf nC m h => ?_,
    fun bf x d full h => if_pos h, fun h x d full hh => ?_⟩
  · unfold newNd
    split_ifs with h1 h2
    · rfl
    · rfl
    · split
      · rename_i p q hs
        rw [hs] at h
        simp [h1, h2] at h
      · rfl
  · unfold newNElm
    split_ifs with h1 h2 h3
    · rfl
    · rfl
    · rfl
    all_goals tauto
  · unfold callNd
    split
    · rename_i p q hs
      split
      · rename_i r hd
        rw [hs, hd] at hh
        simp at hh
      · rfl
    · rfl

/-- **C74**, Python backend: a constructor of the n-dimensional tensor-product classes that returns has been given a table with
two axes and as many end points as the table has rows, and `H` that returns has been given points with as many coordinates. So
arguments that do not fit raise an exception. -/
theorem C74_python (f : NFamily) (x0 xf : NdArr) (nC : NdArr ℤ) (m : ℕ) (bf : PyBF.NBasisFunc ℝ)
    (h : newNdPy f x0 xf nC m = .ok bf) :
    nC.shape = [bf.dim, bf.numC] ∧ x0.size = bf.dim ∧ xf.size = bf.dim ∧
      ∀ (x : NdArr) (d : NdArr ℕ) (full : Bool) (A : Mat ℝ), callNdPy bf x d full = .ok A →
        ∃ n q, x.shape = [bf.dim, n] ∧ d.shape = [q] := by
  have key : nC.shape = [bf.dim, bf.numC] ∧ x0.size = bf.dim ∧ xf.size = bf.dim := by
    unfold newNdPy at h
    split at h
    · cases h
    · cases h
    · rename_i dim numC hs
      split_ifs at h with h1 h2
      have : bf.dim = dim ∧ bf.numC = numC := by
        unfold PyBF.nInit at h
        cases f <;>
        · simp only [PyBF.nCP.init, PyBF.nLeP.init, PyBF.nFS.init, PyBF.NBasisFunc.init] at h
          split_ifs at h
          cases h
          exact ⟨rfl, rfl⟩
      obtain ⟨rfl, rfl⟩ := this
      exact ⟨hs, not_not.1 h1, not_not.1 h2⟩
    · cases h
  refine ⟨key.1, key.2.1, key.2.2, fun x d full A hA => ?_⟩
  unfold callNdPy at hA
  split at hA
  · cases hA
  · cases hA
  · rename_i r n hs
    split at hA
    · rename_i q hq
      unfold PyBF.NBasisFunc.H at hA
      by_cases hr : r = bf.dim
      · exact ⟨n, q, by rw [hs, hr], hq⟩
      · rw [if_pos hr] at hA
        cases hA
    · cases hA
  · cases hA

/-- **C73**, Python backend, n-dimensional tensor-product classes: whatever the layout of any array argument, and with an order for every
dimension (fewer orders raise, see `C23_short_py_fails`). -/
theorem C73_python_partial (f : NFamily) {dim numC m : ℕ} (hdim : 1 ≤ dim) (hm : 1 ≤ m) (x0 xf : NdArr) (nC : NdArr ℤ) (full : Bool)
    (s0 : x0.shape = [dim]) (sf : xf.shape = [dim]) (sC : nC.shape = [dim, numC]) :
    ∃ bf L, newNdPy f x0 xf nC m = .ok bf ∧
      IsColumnOrder m (fun k : Fin dim => List.ofFn fun g : Fin numC => NdArr.val nC (k * numC + g)) full L ∧
      ∀ (x : NdArr) (d : NdArr ℕ) (n q : ℕ), x.shape = [dim, n] → d.shape = [q] → dim ≤ q →
        ReturnsArray (callNdPy bf x d full) n L (fun j α => mixedPartial (fun k => (elements d).getD k 0)
          (f.cls.tensor (fun k => NdArr.val x0 k) (fun k => NdArr.val xf k) α) (fun k => NdArr.val x (k * n + j))) := by
  obtain ⟨bf, L, h1, h2, h3⟩ := C23_mixed_partials_py_partial f hdim hm (fun k => NdArr.val x0 k) (fun k => NdArr.val xf k)
    (fun k g => NdArr.val nC (k * numC + g)) (numC := numC) full
  refine ⟨bf, L, ?_, ?_, fun x d n q hx hd hq => ?_⟩
  · unfold newNdPy
    rw [sC]
    simp only
    rw [if_neg (by simp [NdArr.size, s0]), if_neg (by simp [NdArr.size, sf])]
    exact h1
  · have : (fun k : Fin dim => List.ofFn fun g : Fin numC => NdArr.val nC (k * numC + g)) =
        fun k : Fin dim => (List.range numC).map fun g => NdArr.val nC (k * numC + g) := by
      funext k
      apply List.ext_getElem
      · simp
      · intro i h1 h2
        simp
    rw [this]
    exact h2
  · have hsz : d.size = q := by simp [NdArr.size, hd]
    have := h3 n (fun j k => NdArr.val x (k * n + j)) (elements d) (by simpa [elements, hsz] using hq)
    unfold callNdPy
    rw [hx, hd]
    simp only
    unfold elements at this ⊢
    rw [hsz] at this ⊢
    exact this

/-- Concrete cases: a table with three rows or with one row for two dimensions; one end point for two dimensions. -/
example : newNd .lep zeros2 ones2 ⟨Buf.ofList [0, 0, 0], 0, [3, 1], [1, 1]⟩ 4 = .error .crash ∧
    newNd .lep zeros2 ones2 ⟨Buf.ofList [0], 0, [1, 1], [1, 1]⟩ 4 = .error .crash ∧
    newNd .lep zeros2 ⟨Buf.ofList [1], 0, [1], [1]⟩ ⟨Buf.ofList [0, 0], 0, [2, 1], [1, 1]⟩ 4 = .error .crash :=
  ⟨C74_table_fails .lep _ _ _ (dim := 2) (r := 3) (numC := 1) rfl rfl rfl (by norm_num) (by norm_num) (by norm_num),
    C74_table_fails .lep _ _ _ (dim := 2) (r := 1) (numC := 1) rfl rfl rfl (by norm_num) (by norm_num) (by norm_num),
    C74_ends_fails .lep _ _ _ (dim := 2) (q := 1) (r := 2) (numC := 1) rfl rfl rfl rfl (by norm_num)⟩

/-- Concrete case: the two-dimensional object of the example above, called with points that have one coordinate. -/
example : ∃ bf, newNd .cp zeros2 ones2 table 2 = .ok bf ∧
    callNd bf.H ⟨Buf.ofList [0, 1], 0, [1, 2], [2, 1]⟩ ⟨Buf.ofList [0, 0], 0, [2], [1]⟩ true = .error .crash := by
  obtain ⟨bf, hbf, hg⟩ := nNew_good .cp (m := 2) (by norm_num : 1 ≤ 2) (fun k : Fin 2 => NdArr.val zeros2 k)
    (fun k => NdArr.val ones2 k) (fun (k : Fin 2) (g : Fin 2) => NdArr.val table (k * 2 + g))
  refine ⟨bf, ?_, C74_points_fails bf (r := 1) (n := 2) (q := 2) ?_ rfl ?_ rfl true ?_ (by norm_num)⟩
  · rw [newNd_ok .cp (x0 := zeros2) (xf := ones2) 2 two_full two_contiguous rfl two_full two_contiguous rfl table_full
      table_contiguous rfl, hbf]
    rfl
  · intro k hk
    have hk : k < 2 := hk
    interval_cases k <;> simp [NdArr.entry, strideOffset, Buf.ofList]
  · intro k hk
    have hk : k < 2 := hk
    interval_cases k <;> simp [NdArr.entry, strideOffset, Buf.ofList]
  · rw [hg.dim_]
    norm_num

/-! ## C75 -/

/-- What C75 claims: assigning an array of the right size to the attribute `c` stores its elements. -/
def AssignsC : Prop :=
  ∀ (bf : CC.NBasisFunc ℝ) (c : NdArr), NdArr.Full c → c.shape = [bf.dim] →
    ∃ bf', setC bf c = .ok bf' ∧ ∀ k < bf.dim, bf'.c.read k = .ok (NdArr.val c k)

/-- An array with two axes. -/
def table2 : NdArr := ⟨Buf.ofList [1, 2], 0, [1, 2], [2, 1]⟩

/-- **C75** is false: the assignment is accepted and has no effect, for every object and every array. -/
theorem C75_assign_fails : (∀ (bf bf' : CC.NBasisFunc ℝ) (c : NdArr), setC bf c = .ok bf' → bf' = bf) ∧ ¬ AssignsC := by
  have key : ∀ (bf bf' : CC.NBasisFunc ℝ) (c : NdArr), setC bf c = .ok bf' → bf' = bf := by
    intro bf bf' c h
    unfold setC at h
    split at h
    · split_ifs at h
      cases h
      rfl
    · cases h
  refine ⟨key, fun h => ?_⟩
  obtain ⟨bf', h1, h2⟩ := h ⟨1, 1, 0, 0, Buf.ofFn 1 fun _ => 0, Buf.ofFn 0 fun _ => 0, Buf.ofFn 1 fun _ => 1, 1, 1,
    CC.CP.hint⟩ ⟨Buf.ofList [2], 0, [1], [1]⟩ (by
      intro k hk
      have hk : k < 1 := hk
      interval_cases k
      simp [NdArr.entry, strideOffset, Buf.ofList]) rfl
  have h3 := h2 0 (by norm_num)
  rw [key _ _ _ h1, Buf.ofFn_read (by norm_num)] at h3
  have h4 := Except.ok.inj h3
  simp [NdArr.val, NdArr.entry, strideOffset, Buf.ofList] at h4

/-- What is left of C75: an array of another size or with another number of axes is refused with a `ValueError`. -/
theorem C75_refused_partial (bf : CC.NBasisFunc ℝ) (c : NdArr) (h : c.shape ≠ [bf.dim]) : setC bf c = .error .valueError := by
  unfold setC
  split
  · rename_i k hs
    rw [if_pos (by rintro rfl; exact h hs)]
  · rfl

example (bf : CC.NBasisFunc ℝ) : setC bf table2 = .error .valueError := C75_refused_partial bf _ (by simp [table2])

end Verif.Props
