import Verif.Props.Mtfc
import Verif.Props.Utfc

/-! # Property theorems: the named derivative methods of `utfc` and `mtfc` (C57) -/

namespace Verif.Props

open Verif Verif.Mem Verif.Py Verif.Np Verif.Spec Verif.Model Verif.Model.Py

theorem mixedPartial_single {dim : ℕ} (p : Fin dim) (a : ℕ) (f : (Fin dim → ℝ) → ℝ) :
    mixedPartial (fun k => if k = p then a else 0) f = (partialDeriv p)^[a] f := by
  unfold mixedPartial
  have key : ∀ L : List (Fin dim), L.Nodup → L.foldr (fun k g => (partialDeriv k)^[if k = p then a else 0] g) f =
      if p ∈ L then (partialDeriv p)^[a] f else f := by
    intro L
    induction L with
    | nil => simp
    | cons k L ih =>
      intro hL
      rw [List.foldr_cons, ih (List.nodup_cons.mp hL).2]
      by_cases hk : k = p
      · subst hk
        rw [if_pos rfl, if_neg (List.nodup_cons.mp hL).1, if_pos (by simp)]
      · rw [if_neg hk]
        simp [Ne.symm hk]
  rw [key _ (List.nodup_finRange dim), if_pos (List.mem_finRange p)]

theorem mixedPartial_pair {dim : ℕ} (hdim : 2 ≤ dim) (a b : ℕ) (f : (Fin dim → ℝ) → ℝ) :
    mixedPartial (fun k : Fin dim => if (k : ℕ) = 0 then a else if (k : ℕ) = 1 then b else 0) f =
      (partialDeriv ⟨0, by omega⟩)^[a] ((partialDeriv ⟨1, by omega⟩)^[b] f) := by
  obtain ⟨q, rfl⟩ : ∃ q, dim = q + 2 := ⟨dim - 2, by omega⟩
  unfold mixedPartial
  rw [List.finRange_succ, List.foldr_cons, List.finRange_succ, List.map_cons, List.foldr_cons, List.map_map]
  have key : ∀ L : List (Fin q), (L.map (Fin.succ ∘ Fin.succ)).foldr
      (fun (k : Fin (q + 2)) g => (partialDeriv k)^[if (k : ℕ) = 0 then a else if (k : ℕ) = 1 then b else 0] g) f = f := by
    intro L
    induction L with
    | nil => rfl
    | cons k L ih => rw [List.map_cons, List.foldr_cons, ih]; simp
  rw [key]
  simp

/-- The values the methods of `mtfc` should return at the points `xs`, for basis functions `φ` in the order `cols`. Each method
is considered for the numbers of variables for which its name makes sense. -/
structure NamedDerivatives {ι : Type} (u : Mtfc) (dim N : ℕ) (xs : ℕ → ℕ → ℝ) (full : Bool) (cols : List ι)
    (φ : ι → (Fin dim → ℝ) → ℝ) : Prop where
  H : ReturnsArray (u.H N xs full) N cols fun j c => φ c fun k => xs j k
  Hx : ∀ h : 0 < dim, ReturnsArray (u.Hx N xs full) N cols fun j c => partialDeriv ⟨0, h⟩ (φ c) fun k => xs j k
  Hy : ∀ h : 1 < dim, ReturnsArray (u.Hy N xs full) N cols fun j c => partialDeriv ⟨1, h⟩ (φ c) fun k => xs j k
  Hz : ∀ h : 2 < dim, ReturnsArray (u.Hz N xs full) N cols fun j c => partialDeriv ⟨2, h⟩ (φ c) fun k => xs j k
  Hx2 : ∀ h : 0 < dim, ReturnsArray (u.Hx2 N xs full) N cols fun j c =>
    partialDeriv ⟨0, h⟩ (partialDeriv ⟨0, h⟩ (φ c)) fun k => xs j k
  Hy2 : ∀ h : 1 < dim, ReturnsArray (u.Hy2 N xs full) N cols fun j c =>
    partialDeriv ⟨1, h⟩ (partialDeriv ⟨1, h⟩ (φ c)) fun k => xs j k
  Hxy : ∀ h : 1 < dim, ReturnsArray (u.Hxy N xs full) N cols fun j c =>
    partialDeriv ⟨0, by omega⟩ (partialDeriv ⟨1, h⟩ (φ c)) fun k => xs j k
  Hx2y : ∀ h : 1 < dim, ReturnsArray (u.Hx2y N xs full) N cols fun j c =>
    partialDeriv ⟨0, by omega⟩ (partialDeriv ⟨0, by omega⟩ (partialDeriv ⟨1, h⟩ (φ c))) fun k => xs j k

theorem named_core {ι : Type} (u : Mtfc) {dim : ℕ} (hdim : u.dim = dim) (N : ℕ) (xs : ℕ → ℕ → ℝ) (full : Bool)
    (cols : List ι) (φ : ι → (Fin dim → ℝ) → ℝ)
    (h : ∀ ds : List ℕ, ds.length = dim → ds.sum ≤ 3 → ReturnsArray (u.Hjax N xs ds full) N cols
      (fun j c => mixedPartial (fun k : Fin dim => ds.getD k 0) (φ c) fun k => xs j k)) :
    NamedDerivatives u dim N xs full cols φ := by
  have single : ∀ a p, a ≤ 3 → ∀ hp : p < dim, ReturnsArray (u.Hjax N xs (unitTuple u.dim a p) full) N cols
      fun j c => (partialDeriv ⟨p, hp⟩)^[a] (φ c) fun k => xs j k := by
    intro a p ha hp
    rw [hdim]
    have hl : (unitTuple dim a p).length = dim := by simp [unitTuple]
    have hg : ∀ k : Fin dim, (unitTuple dim a p).getD k 0 = if k = ⟨p, hp⟩ then a else 0 := by
      intro k
      simp [unitTuple, Fin.ext_iff]
    have hs : (unitTuple dim a p).sum ≤ 3 := by
      rw [← getD_sum _ hl.le]
      simp only [hg]
      simp [ha]
    refine Verif.ReturnsArray.congr (h _ hl hs) fun j _ c _ => ?_
    rw [show (fun k : Fin dim => (unitTuple dim a p).getD k 0) = fun k => if k = ⟨p, hp⟩ then a else 0 from funext hg,
      mixedPartial_single]
  have pair : ∀ a b, a + b ≤ 3 → ∀ hp : 1 < dim, ReturnsArray (do let d ← pairTuple u.dim a b; u.Hjax N xs d full) N cols
      fun j c => (partialDeriv ⟨0, by omega⟩)^[a] ((partialDeriv ⟨1, hp⟩)^[b] (φ c)) fun k => xs j k := by
    intro a b hab hp
    have he : pairTuple u.dim a b = .ok (((List.replicate dim 0).set 0 a).set 1 b) := by
      rw [pairTuple, hdim, if_neg (by omega)]
    rw [he]
    have hl : (((List.replicate dim 0).set 0 a).set 1 b).length = dim := by simp
    have hg : ∀ k : Fin dim, (((List.replicate dim 0).set 0 a).set 1 b).getD k 0 =
        if (k : ℕ) = 0 then a else if (k : ℕ) = 1 then b else 0 := by
      intro k
      rw [List.getD_eq_getElem?_getD, List.getElem?_set, List.getElem?_set]
      have := k.2
      by_cases h1 : (k : ℕ) = 1
      · simp [h1, hp]
      · by_cases h0 : (k : ℕ) = 0
        · have : 0 < dim := by omega
          simp [h0, this]
        · rw [if_neg (Ne.symm h1), if_neg (Ne.symm h0), if_neg h0, if_neg h1]
          simp
    have hs : (((List.replicate dim 0).set 0 a).set 1 b).sum ≤ 3 := by
      obtain ⟨q, rfl⟩ : ∃ q, dim = q + 2 := ⟨dim - 2, by omega⟩
      simp [List.replicate_succ]
      omega
    refine Verif.ReturnsArray.congr (h _ hl hs) fun j _ c _ => ?_
    rw [show (fun k : Fin dim => (((List.replicate dim 0).set 0 a).set 1 b).getD k 0) =
      fun k : Fin dim => if (k : ℕ) = 0 then a else if (k : ℕ) = 1 then b else 0 from funext hg, mixedPartial_pair hp]
  refine ⟨?_, fun hp => single 1 0 (by omega) hp, fun hp => single 1 1 (by omega) hp, fun hp => single 1 2 (by omega) hp,
    fun hp => single 2 0 (by omega) hp, fun hp => single 2 1 (by omega) hp, fun hp => pair 1 1 (by omega) hp,
    fun hp => pair 2 1 (by omega) hp⟩
  unfold Mtfc.H
  rw [hdim]
  refine Verif.ReturnsArray.congr (h (List.replicate dim 0) (by simp) (by simp)) fun j _ c _ => ?_
  have hz : (fun k : Fin dim => (List.replicate dim 0).getD k 0) = fun _ => 0 := by funext k; simp
  rw [hz]
  unfold mixedPartial
  have : ∀ L : List (Fin dim), L.foldr (fun k g => (partialDeriv k)^[0] g) (φ c) = φ c := by
    intro L
    induction L with
    | nil => rfl
    | cons k L ih => rw [List.foldr_cons, ih]; rfl
  rw [this]

/-- **C57** for the tensor-product bases of `mtfc`, both backends. -/
theorem C57_mtfc_tensor (n : List ℕ) (nC : MNCArg) (deg dim : ℕ) (hdim : 1 ≤ dim) (basis backend : String)
    (x0 xf : Option (List ℝ)) (w : ℕ → ℕ → ℝ) (b : ℕ → ℝ) (u : Mtfc)
    (hu : mtfcInit n nC deg dim basis x0 xf backend w b = .ok u) (f : NFamily)
    (hf : u.basis.mcls w b = .tensor f) (full : Bool) :
    ∃ L : List (Fin dim → ℕ), IsColumnOrder (deg + 1) (fun k : Fin dim => (List.range u.numC).map (u.tab k)) full L ∧
      ∀ (N : ℕ) (xs : ℕ → ℕ → ℝ), NamedDerivatives u dim N xs full L
          (fun α => f.cls.tensor (fun k : Fin dim => u.x0 k) (fun k => u.xf k) α) := by
  obtain ⟨-, -, hud, -, -, -, -, -, -, ⟨be, -, hobj⟩, -, -⟩ := mtfcInit_ok hu
  rw [hf] at hobj
  obtain ⟨o, g1, -, g2⟩ := MObj.new_tensor be f (m := deg + 1) hdim (by omega) u.x0 u.xf u.numC u.tab u.nCl
  rw [g1] at hobj
  cases hobj
  obtain ⟨L, hL, hnum, hret⟩ := g2 full
  exact ⟨L, hL, fun N xs => named_core u hud N xs full L _ fun ds hds _ => by
    unfold Mtfc.Hjax; rw [hud]; exact hret N xs ds hds.ge⟩

/-- **C57** for the ELM bases of `mtfc`: all compiled classes (ReLU away from the kinks) and the Python classes except ReLU.
(Missing: the Python ReLU, whose first derivatives raise an exception, `C57_mtfc_relu_fails`.) -/
theorem C57_mtfc_elm_partial (n : List ℕ) (nC : MNCArg) (deg dim : ℕ) (basis backend : String)
    (x0 xf : Option (List ℝ)) (w : ℕ → ℕ → ℝ) (b : ℕ → ℝ) (u : Mtfc)
    (hu : mtfcInit n nC deg dim basis x0 xf backend w b = .ok u) (a : Activation) (ha : u.basis = .elm a)
    (hpy : backend = "Python" → a ≠ .relu) (hx : ∀ k < dim, u.x0 k ≠ u.xf k) (full : Bool)
    (hC : full = true ∨ ValidRemoval (deg + 1) u.nCl) (N : ℕ) (xs : ℕ → ℕ → ℝ)
    (hk : a = .relu → ∀ j < N, ∀ k, ∑ i : Fin dim, w i k * toBasis (u.x0 i) (u.xf i) 0 1 (xs j i) + b k ≠ 0) :
    NamedDerivatives u dim N xs full (outColumns (deg + 1) u.nCl full)
      (fun k => nElmBasis a (fun i : Fin dim => u.x0 i) (fun i => u.xf i) (fun i => w i) b k) := by
  obtain ⟨-, -, hud, -, -, -, -, -, -, ⟨be, hbe, hobj⟩, -, -⟩ := mtfcInit_ok hu
  rw [ha] at hobj
  simp only [BasisName.mcls] at hobj
  obtain ⟨o, g1, -, -, g2⟩ := MObj.new_elm be a w b dim (deg + 1) u.x0 u.xf u.numC u.tab u.nCl
  rw [g1] at hobj
  cases hobj
  obtain ⟨hnum, hret⟩ := g2 full hC hx
  refine named_core u hud N xs full _ _ fun ds hds hs => ?_
  unfold Mtfc.Hjax
  rw [hud]
  refine hret N xs ds hds.le ?_ fun ha _ => hk ha
  cases be with
  | cpp => intro _; omega
  | python =>
    intro hr
    refine absurd hr (hpy ?_)
    by_contra hne
    unfold Backend.parse at hbe
    rw [if_neg hne] at hbe
    by_cases h1 : backend = "C++"
    · rw [if_pos h1] at hbe; cases hbe
    · rw [if_neg h1] at hbe; cases hbe

/-- Concrete case of the hypotheses: `mtfc([2, 3], [1, 1], 4, dim=2, basis="FS", x0=[0, 0], xf=[1, 2], backend="Python")`. -/
example (w : ℕ → ℕ → ℝ) (b : ℕ → ℝ) : ∃ u : Mtfc,
    mtfcInit [2, 3] (.list [.int 1, .int 1]) 4 2 "FS" (some [0, 0]) (some [1, 2]) "Python" w b = .ok u ∧
    u.basis.mcls w b = .tensor .fs := by
  obtain ⟨u, hu, -, -⟩ := mtfcInit_succeeds [2, 3] (.list [.int 1, .int 1]) 4 2 (by omega) "FS" "Python" [0, 0] [1, 2] w b
    rfl rfl rfl (by simp) .fs rfl .python rfl (1, [[0], [0]], []) (by decide)
  refine ⟨u, hu, ?_⟩
  obtain ⟨-, -, -, -, -, hb, -⟩ := mtfcInit_ok hu
  have hb : some BasisName.fs = some u.basis := hb
  rw [← Option.some.inj hb]
  rfl

/-- The same with a ReLU basis: the hypotheses of `C57_mtfc_elm_partial` and (for a nonzero tangent) of `C27_elm_partial`. -/
example (w : ℕ → ℕ → ℝ) (b : ℕ → ℝ) : ∃ u : Mtfc,
    mtfcInit [2, 3] (.int 1) 4 2 "ELMReLU" (some [0, 0]) (some [1, 2]) "C++" w b = .ok u ∧ u.basis = .elm .relu ∧
    (∀ k < 2, u.x0 k ≠ u.xf k) ∧ ValidRemoval 5 u.nCl ∧ MExact .cpp .relu [0, 0] ∧ MExact .cpp .relu [1, 0] ∧
    Active 3 (.arr fun j => j) := by
  obtain ⟨u, hu, h0, hf⟩ := mtfcInit_succeeds [2, 3] (.int 1) 4 2 (by omega) "ELMReLU" "C++" [0, 0] [1, 2] w b
    rfl rfl rfl (by simp) (.elm .relu) rfl .cpp rfl (0, [], [0]) (by decide)
  obtain ⟨-, -, -, -, -, hb, -, -, ⟨rows, hr, -⟩, -⟩ := mtfcInit_ok hu
  have hb : some (BasisName.elm .relu) = some u.basis := hb
  have hb := Option.some.inj hb
  have hl : u.nCl = [0] := by
    rw [← hb] at hr
    have hr' : mtfcRemoved 4 2 (.elm .relu) (.int 1) = .ok (0, [], [0]) := by decide
    rw [hr'] at hr
    have := Except.ok.inj hr
    simp only [Prod.mk.injEq] at this
    exact this.2.2.symm
  refine ⟨u, hu, hb.symm, fun k hk => ?_, ?_, by simp [MExact], by simp [MExact], ⟨1, by omega, ?_⟩⟩
  · rw [h0, hf]
    interval_cases k <;> simp [vecOf]
  · rw [hl]; exact ⟨by simp, by simp⟩
  · simp [Tangent.val]

/-- With fewer variables than the name of the method suggests, `Hy`, `Hz` and `Hy2` silently return undifferentiated values,
while `Hxy` and `Hx2y` raise an `IndexError`. -/
theorem C57_one_variable (u : Mtfc) (h : u.dim = 1) (N : ℕ) (xs : ℕ → ℕ → ℝ) (full : Bool) :
    u.Hy N xs full = u.H N xs full ∧ u.Hz N xs full = u.H N xs full ∧ u.Hy2 N xs full = u.H N xs full ∧
    u.Hxy N xs full = .error .indexError ∧ u.Hx2y N xs full = .error .indexError := by
  simp [Mtfc.Hy, Mtfc.Hz, Mtfc.Hy2, Mtfc.H, Mtfc.Hxy, Mtfc.Hx2y, unitTuple, pairTuple, h, bind, Except.bind]

/-- **C57** for `utfc`: `H`, `dH`, `d2H`, `d4H`, `d8H` return the derivatives of orders 0, 1, 2, 4, 8 of the basis functions
(ReLU: the derivatives away from the kinks), whenever the class has code for that order. (Missing: the Python ReLU class from order 2 on, `C57_utfc_relu_fails`.) -/
theorem C57_utfc_partial (u : Utfc) (full : Bool) (hC : full = true ∨ ValidRemoval (u.deg + 1) u.nC) (n : ℕ) (xs : ℕ → ℝ) :
    ∀ d (M : Utfc → ℕ → (ℕ → ℝ) → Bool → Except Err (Mat ℝ)),
      (d, M) ∈ [(0, Utfc.H), (1, Utfc.dH), (2, Utfc.d2H), (4, Utfc.d4H), (8, Utfc.d8H)] →
      (∀ w b, u.backend = .python → u.cls = .elm .relu w b → d ≤ 1) →
      ∃ V, ReturnsArray (M u n xs full) n (outColumns (u.deg + 1) u.nC full) V ∧
        ∀ j k, (d ≠ 0 → OffKink u.cls u.x0 u.xf k (xs j)) → V j k = iteratedDeriv d (u.cls.basis u.x0 u.xf k) (xs j) := by
  intro d M hM hd
  have hd8 : d ≤ 8 := by
    simp only [List.mem_cons, Prod.mk.injEq, List.not_mem_nil, or_false] at hM
    omega
  have hev : Evaluable u.backend u.cls d := by
    cases hb : u.backend with
    | cpp => intro w b _; exact hd8
    | python => intro w b h; exact hd w b hb h
  have hex : Exact u.backend u.cls d := by
    cases hb : u.backend with
    | cpp => intro a w b _ _; exact hd8
    | python => trivial
  obtain ⟨V, hV, hVx, _⟩ := utfc_Hjax u hev full hC n xs
  have : M u n xs full = u.Hjax n xs d full := by
    simp only [List.mem_cons, Prod.mk.injEq, List.not_mem_nil, or_false] at hM
    rcases hM with ⟨rfl, rfl⟩ | ⟨rfl, rfl⟩ | ⟨rfl, rfl⟩ | ⟨rfl, rfl⟩ | ⟨rfl, rfl⟩ <;> rfl
  rw [this]
  exact ⟨V, hV, hVx hex⟩

/-- **C57 is false for `d2H`, `d4H`, `d8H` of the Python ReLU class**: the array does not have one row per point, for every
object and every number of points that differs from the number of basis functions. -/
theorem C57_utfc_relu_fails (u : Utfc) (hb : u.backend = .python) (w b : ℕ → ℝ) (hcls : u.cls = .elm .relu w b)
    (n : ℕ) (hn : n ≠ u.deg + 1) (xs : ℕ → ℝ)
    (M : Utfc → ℕ → (ℕ → ℝ) → Bool → Except Err (Mat ℝ)) (hM : M = Utfc.d2H ∨ M = Utfc.d4H ∨ M = Utfc.d8H) (cols : List ℕ)
    (V : ℕ → ℕ → ℝ) : ¬ ReturnsArray (M u n xs true) n cols V := by
  have key : ∀ d, 2 ≤ d → ¬ ReturnsArray (u.Hjax n xs d true) n cols V := by
    rintro d hd ⟨A, hA, hr, -⟩
    unfold Utfc.Hjax at hA
    rw [hb, hcls] at hA
    have : (PyBF.uniInit (.elm .relu w b) u.x0 u.xf u.nC (u.deg + 1)).H n xs d true =
        .ok ⟨u.deg + 1, n, fun _ _ => 0 * (PyBF.uniInit (.elm .relu w b) u.x0 u.xf u.nC (u.deg + 1)).c ^ d⟩ := by
      unfold PyBF.BasisFunc.H
      have hh : (PyBF.uniInit (.elm .relu w b) u.x0 u.xf u.nC (u.deg + 1)).hint =
          PyBF.elmHint .relu w b := rfl
      rw [hh]
      simp only [PyBF.elmHint, PyBF.ELMReLU.hint]
      rw [if_neg (by omega), if_neg (by omega)]
      rfl
    simp only [this] at hA
    cases hA
    exact hn hr.symm
  rcases hM with rfl | rfl | rfl
  · exact key 2 (by omega)
  · exact key 4 (by omega)
  · exact key 8 (by omega)

/-- **C57 is false for the Python ReLU basis of `mtfc`**: `Hx` raises an `IndexError`, for every object with at least one
variable and all points. -/
theorem C57_mtfc_relu_fails (n : List ℕ) (nC : MNCArg) (deg dim : ℕ) (hdim : 1 ≤ dim) (basis : String)
    (x0 xf : Option (List ℝ)) (w : ℕ → ℕ → ℝ) (b : ℕ → ℝ) (u : Mtfc)
    (hu : mtfcInit n nC deg dim basis x0 xf "Python" w b = .ok u) (ha : u.basis = .elm .relu) (full : Bool)
    (N : ℕ) (xs : ℕ → ℕ → ℝ) : u.Hx N xs full = .error .indexError := by
  obtain ⟨-, -, hud, -, -, -, -, -, -, ⟨be', hbe', hobj⟩, -, -⟩ := mtfcInit_ok hu
  have : be' = .python := by
    have : Backend.parse "Python" = some .python := rfl
    rw [this] at hbe'; cases hbe'; rfl
  subst this
  rw [ha] at hobj
  simp only [BasisName.mcls] at hobj
  obtain ⟨o, g1, -, g3, -⟩ := MObj.new_elm .python .relu w b dim (deg + 1) u.x0 u.xf u.numC u.tab u.nCl
  rw [g1] at hobj
  cases hobj
  unfold Mtfc.Hx Mtfc.Hjax
  rw [hud]
  refine g3 rfl rfl _ _ _ _ ?_
  have hl : (unitTuple dim 1 0).length ≤ dim := by simp [unitTuple]
  rw [← getD_sum _ hl]
  have hg : ∀ k : Fin dim, (unitTuple dim 1 0).getD k 0 = if k = ⟨0, hdim⟩ then 1 else 0 := by
    intro k
    simp [unitTuple, Fin.ext_iff]
  simp only [hg]
  simp

end Verif.Props
