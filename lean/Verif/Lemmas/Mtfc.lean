import Verif.Lemmas.Grid
import Verif.Lemmas.UtfcJax
import Verif.Props.Multi
import Verif.Props.MultiPy
import Verif.Props.NElm
import Verif.Props.NElmPy
import Verif.Props.Domain

/-! # Lemmas about the class `mtfc` -/

namespace Verif

open Verif.Mem Verif.Py Verif.Np Verif.Spec Verif.Model Verif.Model.Py Verif.Props

theorem Buf.cell_of_read {α : Type} {b : Buf α} {i : ℕ} {v : α} (h : b.read i = .ok v) : b.cell i = some v := by
  unfold Buf.read at h
  split_ifs at h
  cases hc : b.cell i with
  | none => rw [hc] at h; cases h
  | some w => rw [hc] at h; cases h; rfl

/-- A tensor-product basis object of either backend. -/
theorem MObj.new_tensor (be : Backend) (f : NFamily) {dim m : ℕ} (hdim : 1 ≤ dim) (hm : 1 ≤ m) (x0 xf : ℕ → ℝ)
    (numC : ℕ) (tab : ℕ → ℕ → ℤ) (nCl : List ℤ) :
    ∃ o, MObj.new be (.tensor f) dim x0 xf numC tab nCl m = .ok o ∧
      (∀ k < dim, o.c k = ((NFamily.dom f).2 - (NFamily.dom f).1) / (xf k - x0 k)) ∧
      ∀ full, ∃ L, IsColumnOrder m (fun k : Fin dim => (List.range numC).map (tab k)) full L ∧
        o.numBasis full = L.length ∧
        ∀ (n : ℕ) (xs : ℕ → ℕ → ℝ) (ds : List ℕ), dim ≤ ds.length →
          ReturnsArray (o.H dim n xs ds full) n L
            (fun j α => mixedPartial (fun k : Fin dim => ds.getD k 0)
              (f.cls.tensor (fun k : Fin dim => x0 k) (fun k => xf k) α) (fun k => xs j k)) := by
  cases be with
  | cpp =>
    have htab : ∀ k : Fin dim, List.ofFn (fun g : Fin numC => tab k g) = (List.range numC).map (tab k) := by
      intro k
      refine List.ext_getElem (by simp) fun i h1 h2 => ?_
      simp
    obtain ⟨bf, hbf, hg⟩ := nNew_good f (m := m) hdim (fun k : Fin dim => x0 k) (fun k => xf k)
      (fun (k : Fin dim) (g : Fin numC) => tab k g)
    refine ⟨.cppTensor bf, by simp only [MObj.new, hbf]; rfl, fun k hk => ?_, fun full => ?_⟩
    · have := Buf.cell_of_read (hg.c_ k hk)
      simp only [hk, dif_pos] at this
      simp [MObj.c, this]
    · obtain ⟨bf', L, h1, h2, h3⟩ := C23_mixed_partials_cc f hdim hm (fun k : Fin dim => x0 k) (fun k => xf k)
        (fun (k : Fin dim) (g : Fin numC) => tab k g) full
      rw [hbf] at h1
      cases h1
      simp only [htab] at h2
      refine ⟨L, h2, ?_, fun n xs ds hds => fromCC_of_returns (h3 n (fun j k => xs j k) ds)⟩
      have hcol : (fun l : Fin dim => tabRow numC (tabOf fun (k : Fin dim) (g : Fin numC) => tab k g) l) =
          fun k : Fin dim => (List.range numC).map (tab k) := by
        funext l; rw [tabRow_tabOf, htab]
      have hL := Verif.IsColumnOrder.unique h2 (multiColumns_order m _ full)
      cases full
      · simp only [MObj.numBasis, hg.num_, hcol, Bool.false_eq_true, if_false]; rw [hL]
      · simp only [MObj.numBasis, hg.numFull_, hcol, if_true]; rw [hL]
  | python =>
    obtain ⟨bf, hbf, -, -, -, -, -, -, hc, -, h1, h2⟩ := nInit_good f (m := m) (numC := numC) hdim x0 xf tab
    refine ⟨.pyTensor bf, by simp only [MObj.new, hbf]; rfl, fun k hk => ?_, fun full => ?_⟩
    · simp [MObj.c, hc]
    · obtain ⟨bf', L, h3, h4, h5⟩ := C23_mixed_partials_py_partial f (numC := numC) hdim hm x0 xf tab full
      rw [hbf] at h3
      cases h3
      refine ⟨L, h4, ?_, h5⟩
      have hL := Verif.IsColumnOrder.unique h4 (multiColumns_order m _ full)
      cases full
      · simp only [MObj.numBasis, Bool.false_eq_true, if_false]; rw [h1, hL]; rfl
      · simp only [MObj.numBasis, if_true]; rw [h2, hL]; rfl

/-- The orders for which the class has code computing the derivative: the compiled sigmoid, tanh and swish stop at total
order 8, the Python ReLU raises an exception at total order 1. -/
def MExact (be : Backend) (a : Activation) (ds : List ℕ) : Prop :=
  match be with
  | .cpp => a = .sigmoid ∨ a = .tanh ∨ a = .swish → ds.sum ≤ 8
  | .python => a = .relu → ds.sum ≠ 1

/-- An n-dimensional ELM object of either backend. -/
theorem MObj.new_elm (be : Backend) (a : Activation) (w : ℕ → ℕ → ℝ) (b : ℕ → ℝ) (dim m : ℕ) (x0 xf : ℕ → ℝ)
    (numC : ℕ) (tab : ℕ → ℕ → ℤ) (nCl : List ℤ) :
    ∃ o, MObj.new be (.elm a w b) dim x0 xf numC tab nCl m = .ok o ∧
      (∀ k < dim, o.c k = 1 / (xf k - x0 k)) ∧
      ((be = .python → a = .relu → ∀ d n xs full, d.sum = 1 → o.H dim n xs d full = .error .indexError)) ∧
      ∀ full, full = true ∨ ValidRemoval m nCl → (∀ k < dim, x0 k ≠ xf k) →
        o.numBasis full = (outColumns m nCl full).length ∧
        ∀ (n : ℕ) (xs : ℕ → ℕ → ℝ) (ds : List ℕ), ds.length ≤ dim → MExact be a ds →
          (a = .relu → ds.sum ≠ 0 → ∀ j < n, ∀ k, ∑ i : Fin dim, w i k * toBasis (x0 i) (xf i) 0 1 (xs j i) + b k ≠ 0) →
          ReturnsArray (o.H dim n xs ds full) n (outColumns m nCl full)
            (fun j k => mixedPartial (fun i : Fin dim => ds.getD i 0)
              (nElmBasis a (fun i => x0 i) (fun i => xf i) (fun i => w i) b k) (fun i => xs j i)) := by
  cases be with
  | cpp =>
    obtain ⟨e, he, h1, h2, h3, h4, h5⟩ := nElmObj_good a (fun k : Fin dim => x0 k) (fun k => xf k) (fun i : Fin dim => w i) b nCl m
    refine ⟨.cppElm e, by
      show (liftCC (nElmObj a (fun k : Fin dim => x0 k) (fun k => xf k) (fun i : Fin dim => w i) b nCl m)).map MObj.cppElm = _
      rw [he]; rfl, fun k hk => ?_, fun h => (by cases h),
      fun full hC hx => ⟨nElm_numBasis (hC.imp_right Or.inl) h2 h3 h4, fun n xs ds hds hex hk => ?_⟩⟩
    · have := Buf.cell_of_read (h5.c_ k hk)
      simp only [hk, dif_pos] at this
      simp [MObj.c, this]
    · obtain ⟨e', he', h6, -⟩ := C25_nelm_cc_partial a ds hex (fun k : Fin dim => x0 k) (fun k => xf k) (fun i : Fin dim => w i) b
        nCl m full n (fun j k => xs j k) hds (fun i => hx i i.2) (hC.imp_right Or.inl) (fun ha h0 j hj k _ => hk ha h0 j hj k)
      rw [he] at he'
      cases he'
      exact fromCC_of_returns h6
  | python =>
    refine ⟨_, rfl, fun k hk => by simp [MObj.c, PyBF.NElm.init], fun _ ha d n xs full hd => ?_,
      fun full hC hx => ⟨?_, fun n xs ds hds hex hk => ?_⟩⟩
    · subst ha
      exact C56_relu_tuple_fails d hd dim x0 xf w b nCl m full n xs
    · cases full with
      | true => simp [MObj.numBasis, PyBF.NElm.init, outColumns]
      | false =>
        have hC : ValidRemoval m nCl := hC.resolve_left (by simp)
        have h := (keptColumns_length_iff m nCl).mpr hC
        have hn : (nCl.any fun r => r != -1) = true ∨ nCl = [] := by
          cases nCl with
          | nil => exact Or.inr rfl
          | cons r l =>
            left
            rw [List.any_eq_true]
            have := hC.2 r (by simp)
            exact ⟨r, by simp, by simp; omega⟩
        simp only [MObj.numBasis, PyBF.NElm.init, outColumns, Bool.false_eq_true, if_false]
        rcases hn with hn | rfl
        · rw [if_pos hn]; omega
        · simp at h ⊢; omega
    · have hC' : full = true ∨ (∀ r ∈ nCl, 0 ≤ r ∧ r < (m : ℤ)) ∨ ∀ r ∈ nCl, r = -1 :=
        hC.imp_right fun h => Or.inl h.2
      by_cases ha : a = .relu
      · subst ha
        exact C56_nelm_py_relu_partial (.tuple ds) (Or.inl (hex rfl)) dim x0 xf w b nCl m full n xs hds hC' hk
      · exact C56_nelm_py_smooth a ha (.tuple ds) dim x0 xf w b nCl m full n xs hds hC' hk

/-- What a successful constructor call has done. -/
theorem mtfcInit_ok {n : List ℕ} {nC : MNCArg} {deg dim : ℕ} {basis : String} {x0 xf : Option (List ℝ)}
    {backend : String} {w : ℕ → ℕ → ℝ} {b : ℕ → ℝ} {u : Mtfc}
    (hu : mtfcInit n nC deg dim basis x0 xf backend w b = .ok u) :
    n.length = dim ∧ u.n = n ∧ u.dim = dim ∧ u.deg = deg ∧ u.N = n.prod ∧ BasisName.parse basis = some u.basis ∧
    (∃ l, mtfcEnd dim x0 = .ok l ∧ u.x0 = vecOf l) ∧ (∃ l, mtfcEnd dim xf = .ok l ∧ u.xf = vecOf l) ∧
    (∃ rows, mtfcRemoved deg dim u.basis nC = .ok (u.numC, rows, u.nCl) ∧ u.tab = fun k g => (rows.getD k []).getD g 0) ∧
    (∃ be, Backend.parse backend = some be ∧
      MObj.new be (u.basis.mcls w b) dim u.x0 u.xf u.numC u.tab u.nCl (deg + 1) = .ok u.obj) ∧
    (∃ x00, mtfcZ u.basis x00 n = .ok u.z) ∧
    u.x = (List.range dim).map fun k => (u.z.getD k []).map fun z => (z - u.basis.zRange.1) / u.obj.c k + u.x0 k := by
  unfold mtfcInit at hu
  split_ifs at hu with hn
  cases h1 : mtfcEnd dim x0 with
  | error e => rw [h1] at hu; cases hu
  | ok x0l =>
  cases h2 : mtfcEnd dim xf with
  | error e => rw [h1, h2] at hu; cases hu
  | ok xfl =>
  rw [h1, h2] at hu
  simp only [bind, Except.bind] at hu
  cases h3 : BasisName.parse basis with
  | none => rw [h3] at hu; cases hu
  | some bn =>
  cases h4 : Backend.parse backend with
  | none => rw [h3, h4] at hu; cases hu
  | some be =>
  rw [h3, h4] at hu
  simp only at hu
  cases h5 : mtfcRemoved deg dim bn nC with
  | error e => rw [h5] at hu; cases hu
  | ok r =>
  rw [h5] at hu
  simp only at hu
  cases h6 : MObj.new be (bn.mcls w b) dim (vecOf x0l) (vecOf xfl) r.1 (fun k g => (r.2.1.getD k []).getD g 0) r.2.2 (deg + 1) with
  | error e => rw [h6] at hu; cases hu
  | ok o =>
  rw [h6] at hu
  simp only at hu
  cases h7 : x0First bn dim x0 with
  | error e => rw [h7] at hu; cases hu
  | ok x00 =>
  rw [h7] at hu
  simp only at hu
  cases h8 : mtfcZ bn x00 n with
  | error e => rw [h8] at hu; cases hu
  | ok z =>
  rw [h8] at hu
  cases hu
  exact ⟨by omega, rfl, rfl, rfl, rfl, rfl, ⟨_, rfl, rfl⟩, ⟨_, rfl, rfl⟩, ⟨_, h5, rfl⟩, ⟨_, rfl, h6⟩, ⟨_, h8⟩, rfl⟩

end Verif
