import Verif.Props.Domain
import Verif.Props.MtfcGrid

/-! # The domain maps of the Python classes and of `mtfc` (C12) -/

namespace Verif.Props

open Verif Verif.Mem Verif.Py Verif.Np Verif.Spec Verif.Model Verif.Model.Py

/-- **C12 for the Python classes**: an object whose `_Hint` is replaced by one that returns its points shows the points at which the
basis is evaluated: `H(x, 0, True)` returns `toBasis x0 xf z0 zf x`. -/
theorem C12_python (cls : UniClass) (z0 zf : ℝ) (hz : FiniteDomain cls z0 zf) (x0 xf : ℝ) (nC : List ℤ) (m n : ℕ)
    (xs : ℕ → ℝ) :
    ∃ A, ({ PyBF.uniInit cls x0 xf nC m with hint := fun _ n z _ => .ok ⟨n, 1, fun j _ => z j⟩ } : PyBF.BasisFunc ℝ).H n xs 0 true = .ok A ∧
      A.rows = n ∧ A.cols = 1 ∧ ∀ j, A.at_ j 0 = toBasis x0 xf z0 zf (xs j) := by
  refine ⟨_, rfl, rfl, rfl, fun j => ?_⟩
  rw [← hz.arg, ← uniPy_arg cls x0 xf nC m]
  simp [Mat.map]

/-- The basis domain of a basis. -/
noncomputable def basisDomain : BasisName → ℝ × ℝ
  | .cp => (-1, 1)
  | .lep => (-1, 1)
  | .fs => (-Real.pi, Real.pi)
  | .elm _ => (0, 1)

/-- Coordinate `k` of the point of the basis domain at which the object of an `mtfc` evaluates its functions for the point `pt`. -/
noncomputable def mapM (o : MObj) (dim : ℕ) (pt : ℕ → ℝ) (k : ℕ) : Option ℝ :=
  let x := Buf.ofMat fun (k : Fin dim) (_ : Fin 1) => pt k
  match o with
  | .cppTensor bf => match CC.mapPointsN bf.dim bf.x0 bf.c bf.z0 x 1 with
    | .ok b => b.cell k
    | .error _ => none
  | .cppElm e => match CC.mapPointsN e.dim e.x0 e.c e.z0 x 1 with
    | .ok b => b.cell k
    | .error _ => none
  | .pyTensor bf => some ((pt k - bf.x0 k) * bf.c k + bf.z0)
  | .pyElm e => some ((pt k - e.x0 k) * e.c k + e.z0)

theorem mapPointsN_cell {dim : ℕ} {x0 c : Buf ℝ} {x0s cs : ℕ → ℝ} (z0 : ℝ) (hx0 : ∀ l < dim, x0.read l = .ok (x0s l))
    (hc : ∀ l < dim, c.read l = .ok (cs l)) (pt : ℕ → ℝ) {k : ℕ} (hk : k < dim) :
    (match CC.mapPointsN dim x0 c z0 (Buf.ofMat fun (k : Fin dim) (_ : Fin 1) => pt k) 1 with
      | .ok b => b.cell k
      | .error _ => none) = some ((pt k - x0s k) * cs k + z0) := by
  obtain ⟨b, hb, hv⟩ := mapPointsN_spec (n := 1) (xs := fun l _ => pt l) z0 hx0 hc
    (x := Buf.ofMat fun (k : Fin dim) (_ : Fin 1) => pt k) (fun l hl j hj => Buf.ofMat_read _ hl hj)
  rw [hb]
  have := hv.cell k hk 0 (by omega)
  simpa using this

/-- **C12 for `mtfc`**: for every object built by the constructor of `mtfc`, of either backend, with `x0 k ≠ xf k`, coordinate `k`
of a point is evaluated at its image under the affine map of `[x0 k, xf k]` onto the domain of the basis, and the expression by
which the constructor computes the points from `z` is the inverse of that map. -/
theorem C12_mtfc {n : List ℕ} {nC : MNCArg} {deg dim : ℕ} {basis : String} {x0 xf : Option (List ℝ)} {backend : String}
    {w : ℕ → ℕ → ℝ} {b : ℕ → ℝ} {u : Mtfc} (hu : mtfcInit n nC deg dim basis x0 xf backend w b = .ok u) (k : ℕ) (hk : k < dim)
    (hx : u.x0 k ≠ u.xf k) :
    let φ := toBasis (u.x0 k) (u.xf k) (basisDomain u.basis).1 (basisDomain u.basis).2
    let ψ := fun z => (z - u.basis.zRange.1) / u.obj.c k + u.x0 k
    (∀ pt : ℕ → ℝ, mapM u.obj dim pt k = some (φ (pt k))) ∧ φ (u.x0 k) = (basisDomain u.basis).1 ∧
      φ (u.xf k) = (basisDomain u.basis).2 ∧ (∀ x, ψ (φ x) = x) ∧ ∀ z, φ (ψ z) = z := by
  obtain ⟨-, -, -, -, -, -, -, -, -, ⟨be, -, hobj⟩, -, -⟩ := mtfcInit_ok hu
  have hdim : 1 ≤ dim := by omega
  have hne : u.xf k - u.x0 k ≠ 0 := sub_ne_zero.mpr (Ne.symm hx)
  have hpi := Real.pi_pos
  have hdz : (basisDomain u.basis).2 - (basisDomain u.basis).1 ≠ 0 := by
    cases u.basis <;> simp only [basisDomain] <;> [norm_num; norm_num; (exact ne_of_gt (by linarith)); norm_num]
  have key : (∀ pt : ℕ → ℝ, mapM u.obj dim pt k = some ((pt k - u.x0 k) *
        (((basisDomain u.basis).2 - (basisDomain u.basis).1) / (u.xf k - u.x0 k)) + (basisDomain u.basis).1)) ∧
      u.obj.c k = ((basisDomain u.basis).2 - (basisDomain u.basis).1) / (u.xf k - u.x0 k) := by
    generalize u.basis = bn at hobj ⊢
    have tensor : ∀ f : NFamily, MObj.new be (.tensor f) dim u.x0 u.xf u.numC u.tab u.nCl (deg + 1) = .ok u.obj →
        (∀ pt : ℕ → ℝ, mapM u.obj dim pt k = some ((pt k - u.x0 k) *
          (((NFamily.dom f).2 - (NFamily.dom f).1) / (u.xf k - u.x0 k)) + (NFamily.dom f).1)) ∧
        u.obj.c k = ((NFamily.dom f).2 - (NFamily.dom f).1) / (u.xf k - u.x0 k) := by
      intro f hf
      obtain ⟨o, ho, hoc, -⟩ := MObj.new_tensor be f hdim (Nat.succ_pos deg) u.x0 u.xf u.numC u.tab u.nCl
      rw [ho] at hf
      cases hf
      refine ⟨fun pt => ?_, hoc k hk⟩
      cases be with
      | cpp =>
        obtain ⟨bf, hbf, hg⟩ := nNew_good f (m := deg + 1) hdim (fun k : Fin dim => u.x0 k) (fun k => u.xf k)
          (fun (k : Fin dim) (g : Fin u.numC) => u.tab k g)
        simp only [MObj.new, hbf] at ho
        have ho : MObj.cppTensor bf = u.obj := Except.ok.inj ho
        rw [← ho]
        have := mapPointsN_cell bf.z0 hg.x0_ hg.c_ pt hk
        simp only [hk, dif_pos, hg.z0_] at this
        simpa only [mapM, hg.dim_, hg.z0_] using this
      | python =>
        obtain ⟨bf, hbf, -, -, -, -, hz0, hx0, hc, -, -, -⟩ := nInit_good f (m := deg + 1) (numC := u.numC) hdim u.x0 u.xf u.tab
        simp only [MObj.new, hbf] at ho
        have ho : MObj.pyTensor bf = u.obj := Except.ok.inj ho
        rw [← ho]
        simp only [mapM, hz0, hx0, hc]
    cases bn with
    | cp => exact tensor .cp hobj
    | lep => exact tensor .lep hobj
    | fs => exact tensor .fs hobj
    | elm a =>
      simp only [BasisName.mcls] at hobj
      obtain ⟨o, ho, hoc, -⟩ := MObj.new_elm be a w b dim (deg + 1) u.x0 u.xf u.numC u.tab u.nCl
      rw [ho] at hobj
      cases hobj
      refine ⟨fun pt => ?_, by rw [hoc k hk]; simp [basisDomain]⟩
      cases be with
      | cpp =>
        obtain ⟨e, he, -, -, -, -, hg⟩ := nElmObj_good a (fun k : Fin dim => u.x0 k) (fun k => u.xf k) (fun i : Fin dim => w i) b
          u.nCl (deg + 1)
        have ho' : (liftCC (nElmObj a (fun k : Fin dim => u.x0 k) (fun k => u.xf k) (fun i : Fin dim => w i) b u.nCl
          (deg + 1))).map MObj.cppElm = .ok u.obj := ho
        rw [he] at ho'
        have ho : MObj.cppElm e = u.obj := Except.ok.inj ho'
        rw [← ho]
        have := mapPointsN_cell e.z0 hg.x0_ hg.c_ pt hk
        simp only [hk, dif_pos, hg.z0_] at this
        simp only [mapM, hg.dim_, hg.z0_, basisDomain, sub_zero]
        exact this
      | python =>
        have ho : MObj.pyElm (PyBF.NElm.init a w b u.x0 u.xf dim u.nCl (deg + 1)) = u.obj := Except.ok.inj ho
        rw [← ho]
        simp [mapM, PyBF.NElm.init, basisDomain]
  obtain ⟨hm, hc⟩ := key
  have hz : u.basis.zRange.1 = (basisDomain u.basis).1 := by cases u.basis <;> rfl
  refine ⟨fun pt => ?_, by simp [toBasis], ?_, fun x => ?_, fun z => ?_⟩
  · rw [hm]
    simp only [toBasis]
    congr 1
    ring
  · simp only [toBasis]
    field_simp
    ring
  · simp only [toBasis, hz, hc]
    field_simp
    ring
  · simp only [toBasis, hz, hc]
    field_simp
    ring

/-- Two dimensions, `[0,1] × [0,2]`, the Python backend. -/
example (w : ℕ → ℕ → ℝ) (b : ℕ → ℝ) : ∃ u : Mtfc,
    mtfcInit [2, 3] (.list [.int 1, .int 1]) 4 2 "CP" (some [0, 0]) (some [1, 2]) "Python" w b = .ok u ∧
    ∀ k < 2, u.x0 k ≠ u.xf k := by
  obtain ⟨u, hu, h0, hf⟩ := mtfcInit_succeeds [2, 3] (.list [.int 1, .int 1]) 4 2 (by omega) "CP" "Python" [0, 0] [1, 2] w b
    rfl rfl rfl (by simp) .cp rfl .python rfl (1, [[0], [0]], []) (by decide)
  refine ⟨u, hu, fun k hk => ?_⟩
  rw [h0, hf]
  interval_cases k <;> simp [vecOf]

end Verif.Props
