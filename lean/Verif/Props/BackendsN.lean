import Verif.Props.Backends
import Verif.Props.MultiPy

/-!
# C90: the two backends carry out the same floating point operations, several variables
-/

namespace Verif.Props

open Verif Verif.Mem Verif.Py Verif.Np Verif.Spec Verif.Model.Rounded

section
variable {K : Type} [Zero K] [One K] [Add K] [Sub K] [Mul K] [Div K] [Neg K] [NatCast K] [Pow K ℕ]

/-- The entry of column `α` at the point `x`: the factors of all variables, multiplied from the left beginning with 1. -/
def opEntry (E : ℕ → K → ℕ → K) {dim : ℕ} (z0 zf : K) (x0 xf : ℕ → K) (ds : List ℕ) (x : ℕ → K) (α : Fin dim → ℕ) : K :=
  opProd dim fun l : Fin dim => E (ds.getD l 0) ((x l - x0 l) * ((zf - z0) / (xf l - x0 l)) + z0) (α l) *
    ((zf - z0) / (xf l - x0 l)) ^ ds.getD l 0

theorem cpPy_op {m : ℕ} (hm : 1 ≤ m) (n d : ℕ) (z : ℕ → K) :
    ∃ B, Model.PyBF.CP.hint m n z d = .ok B ∧ IsArr B n m (fun j c => opTable .cp d (z j) c) := by
  rw [cpPy_hint_eq _ _ _ _ hm]
  exact pySkelHint_spec hm (recTable_spec _ _ _ _) z d

theorem lepPy_op {m : ℕ} (hm : 1 ≤ m) (n d : ℕ) (z : ℕ → K) :
    ∃ B, Model.PyBF.LeP.hint m n z d = .ok B ∧ IsArr B n m (fun j c => opTable .lep d (z j) c) := by
  rw [lepPy_hint_eq]
  exact pySkelHint_spec hm (recTable_spec _ _ _ _) z d

theorem nSame_cc {hc : ℕ → ℕ → Buf K → ℕ → Buf K → Except Fault (Buf K)} {E : ℕ → K → ℕ → K} {dim m numC : ℕ} (hdim : 1 ≤ dim)
    (hE : ∀ d, HintSpec hc m d (E d)) (z0 zf : K) (x0 xf : ℕ → K) (nC : ℕ → ℕ → ℤ) :
    ∃ bc, Model.CC.NBasisFunc.new hc (Buf.ofVec fun k : Fin dim => x0 k) dim (Buf.ofVec fun k : Fin dim => xf k)
        (Buf.ofMat fun (k : Fin dim) (g : Fin numC) => nC k g) dim numC m z0 zf = .ok bc ∧
      ∀ (full : Bool) (n : ℕ) (xs : ℕ → ℕ → K) (ds : List ℕ) (out : Buf K), dim ≤ ds.length →
        out.size = n * (multiColumns m (fun l : Fin dim => tabRow numC nC l) full).length →
        ReturnsMatrix (bc.H (Buf.ofMat fun (k : Fin dim) (j : Fin n) => xs j k) n (Buf.ofList ds) ds.length full) n
          (multiColumns m (fun l : Fin dim => tabRow numC nC l) full) (fun j α => opEntry E z0 zf x0 xf ds (xs j) α) ∧
        FillsMatrix (bc.xla out (Buf.ofMat fun (k : Fin dim) (j : Fin n) => xs j k) (Buf.ofList ds) ds.length full n
          (multiColumns m (fun l : Fin dim => tabRow numC nC l) full).length) n
          (multiColumns m (fun l : Fin dim => tabRow numC nC l) full) (fun j α => opEntry E z0 zf x0 xf ds (xs j) α) := by
  obtain ⟨bc, h1, hg⟩ := nNew_spec hc (m := m) (numC := numC) hdim (x0 := Buf.ofVec fun k : Fin dim => x0 k)
    (xf := Buf.ofVec fun k : Fin dim => xf k) (x0s := x0) (xfs := xf) (fun l hl => Buf.ofVec_read _ hl) (fun l hl => Buf.ofVec_read _ hl)
    (nCin := Buf.ofMat fun (k : Fin dim) (g : Fin numC) => nC k g) (tab := nC) (fun l hl g hg => Buf.ofMat_read _ hl hg) z0 zf
  refine ⟨bc, h1, fun full n xs ds out hds hout => ?_⟩
  have key : ∀ F : Buf K, F.size = n * (multiColumns m (fun l : Fin dim => tabRow numC nC l) full).length →
      FillsMatrix (bc.nHint (Buf.ofMat fun (k : Fin dim) (j : Fin n) => xs j k) n (Buf.ofList ds) ds.length
        (multiColumns m (fun l : Fin dim => tabRow numC nC l) full).length F full) n
        (multiColumns m (fun l : Fin dim => tabRow numC nC l) full) (fun j α => opEntry E z0 zf x0 xf ds (xs j) α) := by
    intro F hF
    have h := nHint_spec (n := n) (dDim0 := ds.length) hg hdim (Or.inl hds) (E := E) (ds := fun k => ds.getD k 0) (fun k _ => hE _)
      (x := Buf.ofMat fun (k : Fin dim) (j : Fin n) => xs j k) (xs := fun l j => xs j l) (fun l hl k hk => Buf.ofMat_read _ hl hk)
      (d := Buf.ofList ds) (fun k hk _ => by rw [Buf.ofList_read _ hk]; simp [hk]) full (F := F)
      (numBasis := (multiColumns m (fun l : Fin dim => tabRow numC nC l) full).length) hF rfl
    obtain ⟨G, g1, g2, g3⟩ := h
    refine ⟨G, g1, g2, fun j hj i hi => ?_⟩
    rw [g3 j hj i hi]
    have hp : ∀ l : Fin dim, padOrd ds.length (fun k => ds.getD k 0) (l : ℕ) = ds.getD l 0 := fun l => by
      unfold padOrd
      rw [if_pos (lt_of_lt_of_le l.2 hds)]
    simp only [hp]
    rfl
  refine ⟨?_, key out hout⟩
  have hnum : (if full = true then bc.numBasisFuncFull else bc.numBasisFunc) =
      (multiColumns m (fun l : Fin dim => tabRow numC nC l) full).length := by
    cases full
    · simp only [Bool.false_eq_true, if_false]; rw [hg.num_]
    · simp only [if_true]; rw [hg.numFull_]
  obtain ⟨G, g1, g2, g3⟩ := key (alloc ((multiColumns m (fun l : Fin dim => tabRow numC nC l) full).length * n)) (Nat.mul_comm _ _)
  refine ⟨G, ?_, g2, g3⟩
  unfold Model.CC.NBasisFunc.H
  rw [hnum]
  dsimp only
  rw [g1]
  rfl

theorem nSame_py {hp : ℕ → ℕ → (ℕ → K) → ℕ → Except Err (Mat K)} {E : ℕ → K → ℕ → K} {dim m numC : ℕ} (hdim : 1 ≤ dim)
    (hE : ∀ N dk z, ∃ B, hp m N z dk = .ok B ∧ IsArr B N m (fun j c => E dk (z j) c)) (z0 zf : K) (x0 xf : ℕ → K) (nC : ℕ → ℕ → ℤ) :
    ∃ bp, Model.PyBF.NBasisFunc.init hp x0 xf nC dim numC m z0 zf = .ok bp ∧
      ∀ (full : Bool) (n : ℕ) (xs : ℕ → ℕ → K) (ds : List ℕ), dim ≤ ds.length →
        ReturnsArray (bp.H dim n (fun k j => xs j k) ds full) n
          (multiColumns m (fun l : Fin dim => tabRow numC nC l) full) (fun j α => opEntry E z0 zf x0 xf ds (xs j) α) := by
  refine ⟨_, by rw [Model.PyBF.NBasisFunc.init, if_neg (by omega)], fun full n xs ds hds => ?_⟩
  obtain ⟨bf, hbf⟩ : ∃ bf : Model.PyBF.NBasisFunc K, bf =
    { m := m, nC := nC, dim := dim, numC := numC, z0 := z0, x0 := x0, c := fun k => (zf - z0) / (xf k - x0 k), hint := hp,
      numBasisFunc := (Model.PyBF.numBasis m dim numC nC false (dim - 1) (fun _ => 0, 0)).2,
      numBasisFuncFull := (Model.PyBF.numBasis m dim numC nC true (dim - 1)
        ((Model.PyBF.numBasis m dim numC nC false (dim - 1) (fun _ => 0, 0)).1, 0)).2 } := ⟨_, rfl⟩
  rw [← hbf]
  have em : bf.m = m := by rw [hbf]
  have edim : bf.dim = dim := by rw [hbf]
  obtain ⟨T, hT, hT'⟩ := fillT_py_spec bf (N := n) (z := fun k j => (xs j k - bf.x0 k) * bf.c k + bf.z0) (d := ds) (E := E)
    (by rw [edim]; exact hds) (fun dk z => by rw [hbf]; exact hE n dk z)
  have hnum : (if full = true then (bf.numBasisFuncFull : ℤ) else (bf.numBasisFunc : ℤ)) =
      (multiColumns m (fun l : Fin dim => tabRow numC nC l) full).length := by
    cases full
    · simp only [Bool.false_eq_true, if_false]; rw [hbf]; exact congrArg _ (numBasis_spec nC false hdim _).1
    · simp only [if_true]; rw [hbf]; exact congrArg _ (numBasis_spec nC true hdim _).1
  have hH : bf.H dim n (fun k j => xs j k) ds full = .ok (Model.PyBF.recurse m dim numC nC full T (dim - 1)
      (fun _ => 0, ⟨n, (multiColumns m (fun l : Fin dim => tabRow numC nC l) full).length, fun _ _ => 0⟩, 0)).2.1 := by
    unfold Model.PyBF.NBasisFunc.H
    rw [edim, if_neg (by simp)]
    simp only [hT, bind, Except.bind, hnum]
    rw [Mat.zeros, if_neg (by omega), em, Int.toNat_natCast, hbf]
  rw [hH]
  obtain ⟨A, hA, hr, hc, hA'⟩ := recurse_spec (n := n) nC full hdim T
    (A := ⟨n, (multiColumns m (fun l : Fin dim => tabRow numC nC l) full).length, fun _ _ => (0 : K)⟩) rfl rfl
  refine ⟨A, hA, hr, hc, fun j hj i hi => ?_⟩
  rw [hA' j hj i hi]
  obtain ⟨α, hα⟩ : ∃ α, α = (multiColumns m (fun l : Fin dim => tabRow numC nC l) full)[i] := ⟨_, rfl⟩
  have hmem : Admissible m (fun l : Fin dim => tabRow numC nC l) full α := by
    rw [hα]
    exact ((multiColumns_order m (fun l : Fin dim => tabRow numC nC l) full).mem _).mp (List.getElem_mem hi)
  rw [← hα]
  unfold opEntry
  beta_reduce
  congr 1
  funext l
  rw [hT' j hj _ (by rw [em]; exact admissible_lt hmem l) l (by rw [edim]; exact l.2), hbf]

/-- **C90**, Chebyshev: in any arithmetic, the eager function of the compiled class `nCP`, the function it registers for compiled computations,
and the Python class give the same matrix, for every number of variables, domain, removed functions and orders. -/
theorem C90_chebyshev {dim m numC : ℕ} (hdim : 1 ≤ dim) (hm : 1 ≤ m) (x0 xf : ℕ → K) (nC : ℕ → ℕ → ℤ) :
    ∃ bc bp, Model.CC.nCP.new (Buf.ofVec fun k : Fin dim => x0 k) dim (Buf.ofVec fun k : Fin dim => xf k)
        (Buf.ofMat fun (k : Fin dim) (g : Fin numC) => nC k g) dim numC m = .ok bc ∧
      Model.PyBF.nCP.init x0 xf nC dim numC m = .ok bp ∧ ∀ full, ∃ L,
        IsColumnOrder m (fun k : Fin dim => (List.range numC).map (nC k)) full L ∧
        ∀ (n : ℕ) (xs : ℕ → ℕ → K) (ds : List ℕ) (out : Buf K), dim ≤ ds.length → out.size = n * L.length → ∃ V : ℕ → (Fin dim → ℕ) → K,
          ReturnsMatrix (bc.H (Buf.ofMat fun (k : Fin dim) (j : Fin n) => xs j k) n (Buf.ofList ds) ds.length full) n L V ∧
          FillsMatrix (bc.xla out (Buf.ofMat fun (k : Fin dim) (j : Fin n) => xs j k) (Buf.ofList ds) ds.length full n L.length) n L V ∧
          ReturnsArray (bp.H dim n (fun k j => xs j k) ds full) n L V := by
  obtain ⟨bc, b1, b2⟩ := nSame_cc (hc := Model.CC.CP.hint) (E := opTable .cp) (numC := numC) hdim (fun d => polyNew_hint .cp (0 : K) 1 [] hm d)
    (-1) 1 x0 xf nC
  obtain ⟨bp, p1, p2⟩ := nSame_py (hp := Model.PyBF.CP.hint) (E := opTable .cp) (numC := numC) hdim
    (fun N dk z => cpPy_op hm N dk z) (-1) 1 x0 xf nC
  refine ⟨bc, bp, b1, p1, fun full => ⟨_, multiColumns_order _ _ _, fun n xs ds out hds hout => ⟨_, (b2 full n xs ds out hds hout).1,
    (b2 full n xs ds out hds hout).2, p2 full n xs ds hds⟩⟩⟩

/-- **C90**, Legendre. -/
theorem C90_legendre {dim m numC : ℕ} (hdim : 1 ≤ dim) (hm : 1 ≤ m) (x0 xf : ℕ → K) (nC : ℕ → ℕ → ℤ) :
    ∃ bc bp, Model.CC.nLeP.new (Buf.ofVec fun k : Fin dim => x0 k) dim (Buf.ofVec fun k : Fin dim => xf k)
        (Buf.ofMat fun (k : Fin dim) (g : Fin numC) => nC k g) dim numC m = .ok bc ∧
      Model.PyBF.nLeP.init x0 xf nC dim numC m = .ok bp ∧ ∀ full, ∃ L,
        IsColumnOrder m (fun k : Fin dim => (List.range numC).map (nC k)) full L ∧
        ∀ (n : ℕ) (xs : ℕ → ℕ → K) (ds : List ℕ) (out : Buf K), dim ≤ ds.length → out.size = n * L.length → ∃ V : ℕ → (Fin dim → ℕ) → K,
          ReturnsMatrix (bc.H (Buf.ofMat fun (k : Fin dim) (j : Fin n) => xs j k) n (Buf.ofList ds) ds.length full) n L V ∧
          FillsMatrix (bc.xla out (Buf.ofMat fun (k : Fin dim) (j : Fin n) => xs j k) (Buf.ofList ds) ds.length full n L.length) n L V ∧
          ReturnsArray (bp.H dim n (fun k j => xs j k) ds full) n L V := by
  obtain ⟨bc, b1, b2⟩ := nSame_cc (hc := Model.CC.LeP.hint) (E := opTable .lep) (numC := numC) hdim (fun d => polyNew_hint .lep (0 : K) 1 [] hm d)
    (-1) 1 x0 xf nC
  obtain ⟨bp, p1, p2⟩ := nSame_py (hp := Model.PyBF.LeP.hint) (E := opTable .lep) (numC := numC) hdim
    (fun N dk z => lepPy_op hm N dk z) (-1) 1 x0 xf nC
  refine ⟨bc, bp, b1, p1, fun full => ⟨_, multiColumns_order _ _ _, fun n xs ds out hds hout => ⟨_, (b2 full n xs ds out hds hout).1,
    (b2 full n xs ds out hds hout).2, p2 full n xs ds hds⟩⟩⟩

end

section
variable {rnd : ℝ → ℝ}

/-- A concrete case: three variables, Legendre polynomials of total degree at most 4 in rounded arithmetic, the mixed derivative of orders 1, 0, 2. -/
example : ∃ bc bp,
    Model.CC.nLeP.new (Buf.ofVec fun _ : Fin 3 => (0 : Fl rnd)) 3 (Buf.ofVec fun _ : Fin 3 => ⟨7⟩)
        (Buf.ofMat fun (k : Fin 3) (g : Fin 1) => ((k : ℕ) : ℤ) + ((g : ℕ) : ℤ)) 3 1 5 = .ok bc ∧
      Model.PyBF.nLeP.init (fun _ => (0 : Fl rnd)) (fun _ => ⟨7⟩) (fun k g => (k : ℤ) + (g : ℤ)) 3 1 5 = .ok bp ∧
      ∃ (L : List (Fin 3 → ℕ)) (V : ℕ → (Fin 3 → ℕ) → Fl rnd), ReturnsMatrix (bc.H (Buf.ofMat fun (k : Fin 3) (j : Fin 10) => (((j : ℕ) + (k : ℕ) : ℕ) : Fl rnd)) 10 (Buf.ofList [1, 0, 2]) 3 false) 10 L V ∧
        ReturnsArray (bp.H 3 10 (fun k j => ((j + k : ℕ) : Fl rnd)) [1, 0, 2] false) 10 L V := by
  obtain ⟨bc, bp, h1, h2, h3⟩ := C90_legendre (dim := 3) (m := 5) (numC := 1) (by omega) (by omega) (fun _ => (0 : Fl rnd)) (fun _ => ⟨7⟩)
    (fun k g => (k : ℤ) + (g : ℤ))
  obtain ⟨L, _, h4⟩ := h3 false
  obtain ⟨V, h5, _, h6⟩ := h4 10 (fun j k => ((j + k : ℕ) : Fl rnd)) [1, 0, 2] (alloc (10 * L.length)) (by simp) rfl
  exact ⟨bc, bp, h1, h2, L, V, h5, h6⟩

end

end Verif.Props
