import Verif.Spec.Names
import Verif.Lemmas.Mtfc

/-! # C72: the argument `basis` selects the family it names -/

namespace Verif.Props

open Verif Verif.Mem Verif.Py Verif.Np Verif.Spec Verif.Model Verif.Model.Py

/-- What the recognised name stands for. -/
theorem named_parse (w b : ℕ → ℝ) (s : String) :
    match BasisName.parse s with
    | none => namedFamily s = none ∧ namedActivation s = none
    | some (.elm a) => namedFamily s = none ∧ namedActivation s = some (act a)
    | some bn => namedFamily s = some (fun k z => (bn.cls w b).fn k z, bn.zRange.1, bn.zRange.2) := by
  unfold BasisName.parse
  by_cases h1 : s = "CP"
  · subst h1; simp [namedFamily, BasisName.cls, UniClass.fn, classical, BasisName.zRange]
  by_cases h2 : s = "LeP"
  · subst h2; simp [namedFamily, BasisName.cls, UniClass.fn, classical, BasisName.zRange]
  by_cases h3 : s = "FS"
  · subst h3
    simp [namedFamily, BasisName.cls, UniClass.fn, BasisName.zRange, fourier]
  have hf : namedFamily s = none := by simp [namedFamily, h1, h2, h3]
  by_cases h4 : s = "ELMReLU"
  · subst h4; simp [hf, namedActivation]; rfl
  by_cases h5 : s = "ELMSigmoid"
  · subst h5; refine ⟨hf, ?_⟩; simp [namedActivation]; funext t; simp [act, sigmoid, swish]
  by_cases h6 : s = "ELMTanh"
  · subst h6; simp [hf, namedActivation]; rfl
  by_cases h7 : s = "ELMSin"
  · subst h7; simp [hf, namedActivation]; rfl
  by_cases h8 : s = "ELMSwish"
  · subst h8; refine ⟨hf, ?_⟩; simp [namedActivation]; funext t; simp [act, sigmoid, swish]
  simp [h1, h2, h3, h4, h5, h6, h7, h8, hf, namedActivation]

theorem parse_none_iff (w b : ℕ → ℝ) (s : String) : BasisName.parse s = none ↔ namedBasis w b s = none := by
  have h := named_parse w b s
  unfold namedBasis
  cases hp : BasisName.parse s with
  | none => rw [hp] at h; simp [h.1, h.2]
  | some bn =>
    rw [hp] at h
    cases bn with
    | elm a => simp [h.1, h.2]
    | cp => simp only at h; simp [h]
    | lep => simp only at h; simp [h]
    | fs => simp only at h; simp [h]

theorem named_of_parse (w b : ℕ → ℝ) {s : String} {bn : BasisName} (hp : BasisName.parse s = some bn) :
    ∃ g z0 zf, namedBasis w b s = some (g, z0, zf) ∧
      ∀ x0 xf k x, (bn.cls w b).basis x0 xf k x = g k (toBasis x0 xf z0 zf x) := by
  have h := named_parse w b s
  rw [hp] at h
  unfold namedBasis
  cases bn with
  | elm a =>
    rw [h.1, h.2]
    exact ⟨_, _, _, rfl, fun _ _ _ _ => rfl⟩
  | cp => simp only at h; rw [h]; exact ⟨_, _, _, rfl, fun _ _ _ _ => rfl⟩
  | lep => simp only at h; rw [h]; exact ⟨_, _, _, rfl, fun _ _ _ _ => rfl⟩
  | fs => simp only at h; rw [h]; exact ⟨_, _, _, rfl, fun _ _ _ _ => rfl⟩

/-- What a successful constructor call of `utfc` has done. -/
theorem utfcInit_ok {N : ℕ} {nC : NCArg} {deg : ℕ} {basis : String} {x0 xf : Option ℝ} {backend : String} {w b : ℕ → ℝ}
    {u : Utfc} (hu : utfcInit N nC deg basis x0 xf backend w b = .ok u) :
    utfcNC deg nC = .ok u.nC ∧ u.deg = deg ∧ u.x0 = x0.getD 0 ∧ u.xf = xf.getD 0 ∧
    Backend.parse backend = some u.backend ∧ BasisName.parse basis = some u.basis ∧ u.cls = u.basis.cls w b := by
  unfold utfcInit at hu
  cases h1 : utfcNC deg nC with
  | error e => rw [h1] at hu; cases hu
  | ok l =>
  rw [h1] at hu
  simp only [bind, Except.bind] at hu
  cases h2 : Backend.parse backend with
  | none => rw [h2] at hu; cases hu
  | some be =>
  rw [h2] at hu
  simp only at hu
  cases h3 : BasisName.parse basis with
  | none => rw [h3] at hu; cases hu
  | some bn =>
  rw [h3] at hu
  simp only at hu
  cases hu
  exact ⟨rfl, rfl, rfl, rfl, rfl, rfl, rfl⟩

/-- **C72** for `utfc`: whatever name is accepted, `H` returns the values of the functions that name stands for, of the points
mapped linearly onto the domain of these functions (both backends, including the kinks of ReLU). -/
theorem C72_utfc (N : ℕ) (nC : NCArg) (deg : ℕ) (basis : String) (x0 xf : Option ℝ) (backend : String) (w b : ℕ → ℝ)
    (u : Utfc) (hu : utfcInit N nC deg basis x0 xf backend w b = .ok u) :
    ∃ g z0 zf, namedBasis w b basis = some (g, z0, zf) ∧
      ∀ (full : Bool) (n : ℕ) (xs : ℕ → ℝ), full = true ∨ ValidRemoval (deg + 1) u.nC →
        ReturnsArray (u.H n xs full) n (outColumns (deg + 1) u.nC full)
          (fun j k => g k (toBasis (x0.getD 0) (xf.getD 0) z0 zf (xs j))) := by
  obtain ⟨-, hdeg, h0, hf, -, hp, hcls⟩ := utfcInit_ok hu
  obtain ⟨g, z0, zf, hn, hg⟩ := named_of_parse w b hp
  refine ⟨g, z0, zf, hn, fun full n xs hC => ?_⟩
  have hev : Evaluable u.backend u.cls 0 := by
    cases u.backend <;> intro _ _ _ <;> omega
  have hex : Exact u.backend u.cls 0 := by
    cases u.backend
    · intro _ _ _ _ _; omega
    · trivial
  subst hdeg
  obtain ⟨V, hV, hVx, -⟩ := utfc_Hjax u hev full hC n xs
  refine Verif.ReturnsArray.congr hV fun j _ k _ => ?_
  rw [hVx hex j k (fun h => absurd rfl h), iteratedDeriv_zero, hcls, hg, h0, hf]

/-- **C72**: the constructor of `utfc` accepts exactly the eight names, together with the two backends and the accepted forms of
`nC`; everything else ends the process (or raises the exception the check of `nC` raises). -/
theorem C72_utfc_accept (N : ℕ) (nC : NCArg) (deg : ℕ) (basis : String) (x0 xf : Option ℝ) (backend : String)
    (w b : ℕ → ℝ) :
    (∃ u, utfcInit N nC deg basis x0 xf backend w b = .ok u) ↔
      basis ∈ ["CP", "LeP", "FS", "ELMReLU", "ELMSigmoid", "ELMTanh", "ELMSin", "ELMSwish"] ∧
      backend ∈ ["C++", "Python"] ∧ ∃ l, utfcNC deg nC = .ok l := by
  have hb : BasisName.parse basis = none ↔
      basis ∉ ["CP", "LeP", "FS", "ELMReLU", "ELMSigmoid", "ELMTanh", "ELMSin", "ELMSwish"] := by
    unfold BasisName.parse
    simp only [List.mem_cons, List.not_mem_nil, or_false, not_or]
    split_ifs <;> simp_all
  have hk : Backend.parse backend = none ↔ backend ∉ ["C++", "Python"] := by
    unfold Backend.parse
    simp only [List.mem_cons, List.not_mem_nil, or_false, not_or]
    split_ifs <;> simp_all
  constructor
  · rintro ⟨u, hu⟩
    obtain ⟨h1, -, -, -, h2, h3, -⟩ := utfcInit_ok hu
    refine ⟨?_, ?_, _, h1⟩
    · by_contra h
      rw [hb.mpr h] at h3
      cases h3
    · by_contra h
      rw [hk.mpr h] at h2
      cases h2
  · rintro ⟨h1, h2, l, hl⟩
    unfold utfcInit
    rw [hl]
    simp only [bind, Except.bind]
    cases h3 : Backend.parse backend with
    | none => exact absurd h2 (hk.mp h3)
    | some be =>
      cases h4 : BasisName.parse basis with
      | none => exact absurd h1 (hb.mp h4)
      | some bn => exact ⟨_, rfl⟩

theorem mtfcEnd_ok {dim : ℕ} {x0 : Option (List ℝ)} {l : List ℝ} (h : mtfcEnd dim x0 = .ok l) :
    l = x0.getD (List.replicate dim 0) := by
  cases x0 with
  | none => cases h; rfl
  | some l' =>
    unfold mtfcEnd at h
    simp only at h
    split at h
    · cases h; rfl
    · cases h

/-- **C72** for the tensor-product bases of `mtfc`: the columns are the products over the dimensions of the functions the name
stands for. The column for the exponents `α` is the one `IsColumnOrder` (C21, C22) fixes. -/
theorem C72_mtfc_tensor (n : List ℕ) (nC : MNCArg) (deg dim : ℕ) (hdim : 1 ≤ dim) (basis backend : String)
    (x0 xf : Option (List ℝ)) (w : ℕ → ℕ → ℝ) (b : ℕ → ℝ) (u : Mtfc)
    (hu : mtfcInit n nC deg dim basis x0 xf backend w b = .ok u) (g : ℕ → ℝ → ℝ) (z0 zf : ℝ)
    (hg : namedFamily basis = some (g, z0, zf)) (full : Bool) :
    ∃ L : List (Fin dim → ℕ), IsColumnOrder (deg + 1) (fun k : Fin dim => (List.range u.numC).map (u.tab k)) full L ∧
      ∀ (N : ℕ) (xs : ℕ → ℕ → ℝ), ReturnsArray (u.H N xs full) N L (fun j α => ∏ k : Fin dim,
        g (α k) (toBasis ((x0.getD (List.replicate dim 0)).getD k 0) ((xf.getD (List.replicate dim 0)).getD k 0) z0 zf
          (xs j k))) := by
  obtain ⟨-, -, hud, -, -, hp, ⟨l0, e0, e0'⟩, ⟨lf, ef, ef'⟩, -, ⟨be, -, hobj⟩, -, -⟩ := mtfcInit_ok hu
  have hnp := named_parse (fun _ => 0) b basis
  rw [hp] at hnp
  have key : ∀ f : NFamily, u.basis.mcls w b = .tensor f →
      (∀ x0 xf k x, f.cls.basis x0 xf k x = g k (toBasis x0 xf z0 zf x)) →
      ∃ L : List (Fin dim → ℕ), IsColumnOrder (deg + 1) (fun k : Fin dim => (List.range u.numC).map (u.tab k)) full L ∧
      ∀ (N : ℕ) (xs : ℕ → ℕ → ℝ), ReturnsArray (u.H N xs full) N L (fun j α => ∏ k : Fin dim,
        g (α k) (toBasis ((x0.getD (List.replicate dim 0)).getD k 0) ((xf.getD (List.replicate dim 0)).getD k 0) z0 zf
          (xs j k))) := by
    intro f hf hfg
    rw [hf] at hobj
    obtain ⟨o, g1, -, g2⟩ := MObj.new_tensor be f (m := deg + 1) hdim (by omega) u.x0 u.xf u.numC u.tab u.nCl
    rw [g1] at hobj
    cases hobj
    obtain ⟨L, hL, -, hret⟩ := g2 full
    refine ⟨L, hL, fun N xs => ?_⟩
    unfold Mtfc.H Mtfc.Hjax
    rw [hud]
    refine Verif.ReturnsArray.congr (hret N xs (List.replicate dim 0) (by simp)) fun j _ α _ => ?_
    have hz : (fun k : Fin dim => (List.replicate dim 0).getD k 0) = fun _ => 0 := by
      funext k; simp
    rw [hz, mixedPartial_zero]
    unfold UniClass.tensor
    refine Finset.prod_congr rfl fun k _ => ?_
    rw [hfg, e0', ef', ← mtfcEnd_ok e0, ← mtfcEnd_ok ef]
    rfl
  cases hb : u.basis with
  | elm a =>
    rw [hb] at hnp
    simp only at hnp
    rw [hnp.1] at hg
    cases hg
  | cp =>
    rw [hb] at hnp
    simp only at hnp
    rw [hnp] at hg
    cases hg
    exact key .cp (by rw [hb]; rfl) fun _ _ _ _ => rfl
  | lep =>
    rw [hb] at hnp
    simp only at hnp
    rw [hnp] at hg
    cases hg
    exact key .lep (by rw [hb]; rfl) fun _ _ _ _ => rfl
  | fs =>
    rw [hb] at hnp
    simp only at hnp
    rw [hnp] at hg
    cases hg
    exact key .fs (by rw [hb]; rfl) fun _ _ _ _ => rfl

/-- **C72** for the ELM bases of `mtfc`: the columns are the named activation of the affine combinations of the coordinates,
each mapped onto `[0, 1]` (both backends, including the kinks of ReLU). -/
theorem C72_mtfc_elm (n : List ℕ) (nC : MNCArg) (deg dim : ℕ) (basis backend : String)
    (x0 xf : Option (List ℝ)) (w : ℕ → ℕ → ℝ) (b : ℕ → ℝ) (u : Mtfc)
    (hu : mtfcInit n nC deg dim basis x0 xf backend w b = .ok u) (σ : ℝ → ℝ) (hσ : namedActivation basis = some σ)
    (hx : ∀ k < dim, u.x0 k ≠ u.xf k) (full : Bool) (hC : full = true ∨ ValidRemoval (deg + 1) u.nCl) (N : ℕ)
    (xs : ℕ → ℕ → ℝ) :
    ReturnsArray (u.H N xs full) N (outColumns (deg + 1) u.nCl full) (fun j k => σ (∑ i : Fin dim, w i k *
      toBasis ((x0.getD (List.replicate dim 0)).getD i 0) ((xf.getD (List.replicate dim 0)).getD i 0) 0 1 (xs j i) +
      b k)) := by
  obtain ⟨-, -, hud, -, -, hp, ⟨l0, e0, e0'⟩, ⟨lf, ef, ef'⟩, -, ⟨be, -, hobj⟩, -, -⟩ := mtfcInit_ok hu
  have hnp := named_parse (fun _ => 0) b basis
  rw [hp] at hnp
  obtain ⟨a, ha, rfl⟩ : ∃ a, u.basis = .elm a ∧ σ = act a := by
    have hno : ∀ r, namedFamily basis = some r → namedActivation basis = none := by
      intro r hr
      unfold namedFamily at hr
      split_ifs at hr with h1 h2 h3
      · subst h1; simp [namedActivation]
      · subst h2; simp [namedActivation]
      · subst h3; simp [namedActivation]
    cases hb : u.basis with
    | elm a =>
      rw [hb] at hnp
      simp only at hnp
      rw [hnp.2] at hσ
      cases hσ
      exact ⟨a, rfl, rfl⟩
    | cp => rw [hb] at hnp; rw [hno _ hnp] at hσ; cases hσ
    | lep => rw [hb] at hnp; rw [hno _ hnp] at hσ; cases hσ
    | fs => rw [hb] at hnp; rw [hno _ hnp] at hσ; cases hσ
  rw [ha] at hobj
  simp only [BasisName.mcls] at hobj
  obtain ⟨o, g1, -, -, g2⟩ := MObj.new_elm be a w b dim (deg + 1) u.x0 u.xf u.numC u.tab u.nCl
  rw [g1] at hobj
  cases hobj
  obtain ⟨-, hret⟩ := g2 full hC hx
  have hs : (List.replicate dim 0 : List ℕ).sum = 0 := by simp
  unfold Mtfc.H Mtfc.Hjax
  rw [hud]
  refine Verif.ReturnsArray.congr (hret N xs (List.replicate dim 0) (by simp) ?_ fun _ h => absurd hs h)
    fun j _ k _ => ?_
  · cases be
    · intro _; rw [hs]; omega
    · intro _; rw [hs]; omega
  · have hz : (fun k : Fin dim => (List.replicate dim 0).getD k 0) = fun _ => 0 := by
      funext k; simp
    rw [hz, mixedPartial_zero]
    unfold nElmBasis
    rw [e0', ef', ← mtfcEnd_ok e0, ← mtfcEnd_ok ef]
    rfl

/-- **C72**: `mtfc` constructs nothing for a name that is not one of the eight. -/
theorem C72_mtfc_refused (n : List ℕ) (nC : MNCArg) (deg dim : ℕ) (basis backend : String)
    (x0 xf : Option (List ℝ)) (w : ℕ → ℕ → ℝ) (b : ℕ → ℝ) (hf : namedFamily basis = none)
    (ha : namedActivation basis = none) (u : Mtfc) : mtfcInit n nC deg dim basis x0 xf backend w b ≠ .ok u := by
  intro hu
  obtain ⟨-, -, -, -, -, hp, -⟩ := mtfcInit_ok hu
  have : BasisName.parse basis = none := (parse_none_iff (fun _ => 0) b basis).mpr (by simp [namedBasis, hf, ha])
  rw [this] at hp
  cases hp

/-- Cases meeting the hypotheses: constructors that succeed, and what the names stand for. -/
example (w b : ℕ → ℝ) : (∃ u, utfcInit 10 (.int 2) 5 "LeP" (some 0) (some 3) "Python" w b = .ok u ∧
      ValidRemoval 6 u.nC) ∧
    namedBasis w b "LeP" = some (fun k z => (legendre ℝ k).eval z, -1, 1) ∧ namedBasis w b "Legendre" = none := by
  refine ⟨⟨_, rfl, ?_⟩, by simp [namedBasis, namedFamily], by simp [namedBasis, namedFamily, namedActivation]⟩
  show ValidRemoval 6 [0, 1]
  constructor <;> simp

end Verif.Props
