import Verif.Spec.Rows
import Verif.Lemmas.Mtfc
import Verif.Props.Utfc

/-!
# Evaluation is row by row (C58)
-/

namespace Verif

open Verif.Mem Verif.Py Verif.Np Verif.Spec Verif.Model Verif.Model.Py Verif.Model.CC

theorem rowByRow_of_returns {P ι : Type} {H : ℕ → (ℕ → P) → Except Err (Mat ℝ)} {ok : P → Prop} {cols : List ι}
    {V : P → ι → ℝ} (h : ∀ n xs, (∀ j < n, ok (xs j)) → ReturnsArray (H n xs) n cols (fun j k => V (xs j) k)) :
    RowByRow H ok := by
  intro n xs n' p hok hp
  obtain ⟨A, hA, hAr, hAc, hA'⟩ := h n xs hok
  obtain ⟨B, hB, hBr, hBc, hB'⟩ := h n' (fun j => xs (p j)) (fun j hj => hok _ (hp j hj))
  refine ⟨A, B, hA, hB, hAr, hBr, by rw [hAc, hBc], fun j hj i hi => ?_⟩
  have hi : i < cols.length := by rw [← hAc]; exact hi
  rw [hB' j hj i hi, hA' (p j) (hp j hj) i hi]

end Verif

namespace Verif.Props

open Verif Verif.Mem Verif.Py Verif.Np Verif.Spec Verif.Model Verif.Model.Py Verif.Model.CC

/-- **C58 for `utfc`**, both backends: every class, order for which the class has code, removal list and flag. Missing: the
compiled swish class beyond order 8 (`C58_swish_fails`) and the Python ReLU class beyond order 1 (`C58_relu_fails`). -/
theorem C58_utfc_partial (u : Utfc) (d : ℕ) (full : Bool) (hC : full = true ∨ ValidRemoval (u.deg + 1) u.nC)
    (hd : Evaluable u.backend u.cls d) : RowByRow (fun n xs => u.Hjax n xs d full) (fun _ => True) := by
  refine rowByRow_of_returns (cols := outColumns (u.deg + 1) u.nC full)
    (V := fun x k => match u.backend with
        | .cpp => uniE u.cls d (u.cls.arg u.x0 u.xf x) k * (uniNew u.cls u.x0 u.xf u.nC (u.deg + 1)).c ^ d
        | .python => uniPyE u.cls d (u.cls.arg u.x0 u.xf x) k *
            (PyBF.uniInit u.cls u.x0 u.xf u.nC (u.deg + 1)).c ^ d) fun n xs _ => ?_
  obtain ⟨V, hV, -, rfl⟩ := utfc_Hjax u hd full hC n xs
  exact hV

/-- **C58 for the tensor-product bases of `mtfc`**, both backends, all orders. -/
theorem C58_mtfc_tensor (n : List ℕ) (nC : MNCArg) (deg dim : ℕ) (hdim : 1 ≤ dim) (basis backend : String)
    (x0 xf : Option (List ℝ)) (w : ℕ → ℕ → ℝ) (b : ℕ → ℝ) (u : Mtfc)
    (hu : mtfcInit n nC deg dim basis x0 xf backend w b = .ok u) (f : NFamily)
    (hf : u.basis.mcls w b = .tensor f) (full : Bool) (ds : List ℕ) (hds : ds.length = dim) :
    RowByRow (fun n xs => u.Hjax n xs ds full) (fun _ => True) := by
  obtain ⟨-, -, hud, -, -, -, -, -, -, ⟨be, -, hobj⟩, -, -⟩ := mtfcInit_ok hu
  rw [hf] at hobj
  obtain ⟨o, g1, -, g2⟩ := MObj.new_tensor be f (m := deg + 1) hdim (by omega) u.x0 u.xf u.numC u.tab u.nCl
  rw [g1] at hobj
  cases hobj
  obtain ⟨L, hL, hnum, hret⟩ := g2 full
  refine rowByRow_of_returns (cols := L)
    (V := fun x α => mixedPartial (fun k : Fin dim => ds.getD k 0)
            (f.cls.tensor (fun k : Fin dim => u.x0 k) (fun k => u.xf k) α) (fun k => x k)) fun n xs _ => ?_
  unfold Mtfc.Hjax
  rw [hud]
  exact hret n xs ds hds.ge

/-- The orders for which the n-dimensional ELM classes have code: the compiled swish stops at total order 8, the Python ReLU
raises an exception at total order 1. -/
def MEvaluable (be : Backend) (a : Activation) (ds : List ℕ) : Prop :=
  match be with
  | .cpp => a = .swish → ds.sum ≤ 8
  | .python => a = .relu → ds.sum ≠ 1

/-- **C58 for the ELM bases of `mtfc`**, both backends, including the kinks of ReLU and the orders beyond 8 (where the values
themselves may be wrong, `C25_sigmoid_fails`). Missing: orders without code. -/
theorem C58_mtfc_elm_partial (n : List ℕ) (nC : MNCArg) (deg dim : ℕ) (basis backend : String)
    (x0 xf : Option (List ℝ)) (w : ℕ → ℕ → ℝ) (b : ℕ → ℝ) (u : Mtfc)
    (hu : mtfcInit n nC deg dim basis x0 xf backend w b = .ok u) (a : Activation) (ha : u.basis = .elm a)
    (full : Bool) (hC : full = true ∨ ValidRemoval (deg + 1) u.nCl)
    (be : Backend) (hbe : Backend.parse backend = some be) (ds : List ℕ) (hds : ds.length = dim)
    (hex : MEvaluable be a ds) : RowByRow (fun n xs => u.Hjax n xs ds full) (fun _ => True) := by
  obtain ⟨-, -, hud, -, -, -, -, -, -, ⟨be', hbe', hobj⟩, -, -⟩ := mtfcInit_ok hu
  rw [hbe] at hbe'
  cases hbe'
  rw [ha] at hobj
  simp only [BasisName.mcls] at hobj
  cases be with
  | cpp =>
    obtain ⟨e, he, -⟩ := nElmObj_good a (fun k : Fin dim => u.x0 k) (fun k => u.xf k) (fun i : Fin dim => w i) b u.nCl (deg + 1)
    have hobj' : (liftCC (nElmObj a (fun k : Fin dim => u.x0 k) (fun k => u.xf k) (fun i : Fin dim => w i) b u.nCl
        (deg + 1))).map MObj.cppElm = .ok u.obj := hobj
    rw [he] at hobj'
    have hobj' : MObj.cppElm e = u.obj := Except.ok.inj hobj'
    refine rowByRow_of_returns (cols := outColumns (deg + 1) u.nCl full)
      (V := fun x k => nelmV a (∑ i ∈ Finset.range ds.length, ds.getD i 0)
        ((∏ i ∈ Finset.range ds.length, (if h : i < dim then 1 / (u.xf i - u.x0 i) else 0) ^ ds.getD i 0) *
          ∏ i ∈ Finset.range ds.length, (if h : i < dim then w i k else 0) ^ ds.getD i 0)
        (∑ i ∈ Finset.range dim, (if h : i < dim then w i k else 0) *
          (((if h : i < dim then x i else 0) - (if h : i < dim then u.x0 i else 0)) *
            (if h : i < dim then 1 / (u.xf i - u.x0 i) else 0) + 0) + b k)) fun n xs _ => ?_
    unfold Mtfc.Hjax
    rw [hud, ← hobj']
    obtain ⟨e', he', h1, -⟩ := nElm_runs a (fun k : Fin dim => u.x0 k) (fun k => u.xf k) (fun i : Fin dim => w i) b u.nCl
      (deg + 1) full n (fun j k => xs j k) ds hds.le hex (hC.imp_right Or.inl)
    rw [he] at he'
    cases he'
    exact fromCC_of_returns h1
  | python =>
    have hobj' : MObj.pyElm (PyBF.NElm.init a w b u.x0 u.xf dim u.nCl (deg + 1)) = u.obj := Except.ok.inj hobj
    have hC' : full = true ∨ (∀ r ∈ u.nCl, 0 ≤ r ∧ r < ((deg + 1 : ℕ) : ℤ)) ∨ ∀ r ∈ u.nCl, r = -1 :=
      hC.imp_right fun h => Or.inl h.2
    by_cases har : a = .relu
    · subst har
      have h1 : ds.sum ≠ 1 := hex rfl
      by_cases h2 : 1 < ds.sum
      · refine rowByRow_of_returns (cols := outColumns (deg + 1) u.nCl full) (V := fun x k => 0) fun n xs _ => ?_
        unfold Mtfc.Hjax
        rw [hud, ← hobj']
        refine nElmPy_finish .relu (.tuple ds) dim u.x0 u.xf w b u.nCl (deg + 1) full n xs _ hC'
          ⟨n, deg + 1, fun _ _ => 0⟩ ⟨rfl, rfl, fun j hj k hkm => rfl⟩ ?_
        change PyBF.nReluHint _ n _ (.tuple ds) = _
        unfold PyBF.nReluHint
        simp only
        rw [if_pos (show (PyBF.Orders.tuple ds).list.sum > 1 from h2)]
        rfl
      · refine rowByRow_of_returns (cols := outColumns (deg + 1) u.nCl full) (V := fun x k => max 0
          (PyBF.npDot dim (fun l => (x l - u.x0 l) * ((1 - 0) / (u.xf l - u.x0 l)) + 0) w k + b k)) fun n xs _ => ?_
        unfold Mtfc.Hjax
        rw [hud, ← hobj']
        refine nElmPy_finish .relu (.tuple ds) dim u.x0 u.xf w b u.nCl (deg + 1) full n xs _ hC'
          ⟨n, deg + 1, fun j k => max 0
            (PyBF.npDot dim (fun l => (xs j l - u.x0 l) * ((1 - 0) / (u.xf l - u.x0 l)) + 0) w k + b k)⟩
          ⟨rfl, rfl, fun j hj k hkm => rfl⟩ ?_
        change PyBF.nReluHint _ n _ (.tuple ds) = _
        unfold PyBF.nReluHint
        simp only
        rw [if_neg (show ¬ (PyBF.Orders.tuple ds).list.sum > 1 from h2), if_neg (show ¬ (PyBF.Orders.tuple ds).list.sum = 1 from h1)]
        rfl
    · refine rowByRow_of_returns (cols := outColumns (deg + 1) u.nCl full)
        (V := fun x k => mixedPartial (fun i : Fin dim => ds.getD i 0)
              (nElmBasis a (fun i => u.x0 i) (fun i => u.xf i) (fun i => w i) b k) (fun i => x i)) fun n xs _ => ?_
      unfold Mtfc.Hjax
      rw [hud, ← hobj']
      exact C56_nelm_py_smooth a har (.tuple ds) dim u.x0 u.xf w b u.nCl (deg + 1) full n xs hds.le hC'
        (fun h => absurd h har)

/-- **C58 is false for the Python ReLU class from order 2 on**: the matrix of `n` points does not have `n` rows (unless `n` is
the number of basis functions); not even one point of several basis functions gives one row. -/
theorem C58_relu_fails (u : Utfc) (hb : u.backend = .python) (w b : ℕ → ℝ) (hcls : u.cls = .elm .relu w b)
    (hdeg : 1 ≤ u.deg) (d : ℕ) (hd : 2 ≤ d) : ¬ RowByRow (fun n xs => u.Hjax n xs d true) (fun _ => True) := by
  intro h
  obtain ⟨A, -, hA, -, hr, -⟩ := h 1 (fun _ => 0) 1 (fun j => j) (fun _ _ => trivial) (fun j hj => hj)
  unfold Utfc.Hjax at hA
  rw [hb, hcls] at hA
  have : (PyBF.uniInit (.elm .relu w b) u.x0 u.xf u.nC (u.deg + 1)).H 1 (fun _ => 0) d true =
      .ok ⟨u.deg + 1, 1, fun _ _ => 0 * (PyBF.uniInit (.elm .relu w b) u.x0 u.xf u.nC (u.deg + 1)).c ^ d⟩ := by
    unfold PyBF.BasisFunc.H
    have hh : (PyBF.uniInit (.elm .relu w b) u.x0 u.xf u.nC (u.deg + 1)).hint =
        PyBF.elmHint .relu w b := rfl
    rw [hh]
    simp only [PyBF.elmHint, PyBF.ELMReLU.hint]
    rw [if_neg (by omega), if_neg (by omega)]
    rfl
  simp only [this] at hA
  cases hA
  simp only at hr
  omega

/-- **C58 is false for the compiled swish class beyond order 8**: the call returns memory that was never written, for every
object and every single point. -/
theorem C58_swish_fails (u : Utfc) (hb : u.backend = .cpp) (w b : ℕ → ℝ) (hcls : u.cls = .elm .swish w b)
    (d : ℕ) (hd : 9 ≤ d) : ¬ RowByRow (fun n xs => u.Hjax n xs d true) (fun _ => True) := by
  intro h
  obtain ⟨A, -, hA, -⟩ := h 1 (fun _ => 0) 1 (fun j => j) (fun _ _ => trivial) (fun j hj => hj)
  unfold Utfc.Hjax at hA
  rw [hb, hcls] at hA
  have h1 := fromCC_error (swish_uninit w b u.x0 u.xf u.nC (m := u.deg + 1) (n := 1) (by omega) (by omega) hd (fun _ => 0))
  have h2 : fromCC ((uniNew (.elm .swish w b) u.x0 u.xf u.nC (u.deg + 1)).H (Buf.ofFn 1 (fun _ => 0)) 1 d true) =
      .error .crash := h1
  simp only [h2] at hA
  cases hA

/-- The hypotheses of `C58_utfc_partial` hold for a compiled Legendre object with two functions removed: evaluating the first
and last of three points gives the first and last row. -/
example (xs : ℕ → ℝ) :
    let u : Utfc := ⟨10, 5, [0, 1], .lep, .cpp, 0, 3, .poly .lep, 2 / 3, [], []⟩
    ∃ A B, u.Hjax 3 xs 2 false = .ok A ∧ u.Hjax 2 (fun j => xs (2 * j)) 2 false = .ok B ∧ A.rows = 3 ∧ B.rows = 2 ∧
      B.cols = A.cols ∧ ∀ j < 2, ∀ i < A.cols, B.at_ j i = A.at_ (2 * j) i := by
  intro u
  exact C58_utfc_partial u 2 false (Or.inr (by constructor <;> decide)) (by intro w b h; cases h) 3 xs 2 (fun j => 2 * j)
    (fun _ _ => trivial) (fun j hj => by omega)

end Verif.Props
