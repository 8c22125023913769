import Verif.Lemmas.Expr
import Verif.Props.Names
import Verif.Props.MSpan

/-! # The free function of a constrained expression (C76) -/

namespace Verif.Props

open Verif Verif.Mem Verif.Py Verif.Np Verif.Spec Verif.Model Verif.Model.Py
open scoped ContDiff

/-- The linear combination of the kept basis functions. -/
noncomputable def freeFn (u : Utfc) (xi : List ℝ) (t : ℝ) : ℝ :=
  ∑ i : Fin (outColumns (u.deg + 1) u.nC false).length,
    xi.getD i 0 * u.cls.basis u.x0 u.xf (outColumns (u.deg + 1) u.nC false)[i] t

theorem freeFn_contDiff (u : Utfc) (hu : Ready u) (xi : List ℝ) : ContDiff ℝ ∞ (freeFn u xi) := by
  unfold freeFn
  exact ContDiff.sum fun i _ => contDiff_const.mul (basis_contDiff _ hu.smooth _ _ _)

theorem evaluates_freeFn (u : Utfc) (hu : Ready u) (xi : List ℝ) : Evaluates u xi (fun d => iteratedDeriv d (freeFn u xi)) := by
  intro d hd n ts
  have h1 : Evaluable u.backend u.cls d := by
    cases u.backend with
    | cpp => exact fun _ _ _ => hd
    | python => exact fun w b h => absurd h (hu.smooth w b)
  have h2 : Exact u.backend u.cls d := by
    cases u.backend with
    | cpp => exact fun _ _ _ _ _ => hd
    | python => trivial
  have hgd : ∀ t, iteratedDeriv d (freeFn u xi) t = ∑ i : Fin (outColumns (u.deg + 1) u.nC false).length,
      xi.getD i 0 * iteratedDeriv d (u.cls.basis u.x0 u.xf (outColumns (u.deg + 1) u.nC false)[i]) t := by
    intro t
    have hd : ∀ i : Fin (outColumns (u.deg + 1) u.nC false).length,
        ContDiffAt ℝ d (u.cls.basis u.x0 u.xf (outColumns (u.deg + 1) u.nC false)[i]) t := fun i =>
      ((basis_contDiff _ hu.smooth _ _ _).of_le (by exact_mod_cast le_top)).contDiffAt
    unfold freeFn
    rw [iteratedDeriv_fun_sum fun i _ => contDiffAt_const.mul (hd i)]
    refine Finset.sum_congr rfl fun i _ => ?_
    rw [iteratedDeriv_const_mul_field]
  obtain ⟨V, ⟨A, hA, hr, hc, hv⟩, hV, -⟩ := utfc_Hjax u h1 false (Or.inr hu.removal) n ts
  refine ⟨A, hA, hr, fun j hj => ?_⟩
  beta_reduce
  rw [hgd]
  unfold npDot
  rw [hc, Finset.sum_range]
  refine Finset.sum_congr rfl fun i _ => ?_
  rw [hv j hj i i.2, mul_comm, hV h2 j _ (fun _ w b h => absurd h (hu.smooth w b))]
  rfl

/-- The products determine `h`. -/
theorem evaluates_unique {u : Utfc} {xi : List ℝ} {h h' : ℕ → ℝ → ℝ} (hh : Evaluates u xi h) (hh' : Evaluates u xi h') :
    ∀ d ≤ 8, h' d = h d := by
  intro d hd
  funext t
  obtain ⟨A, hA, -, hv⟩ := hh d hd 1 fun _ => t
  obtain ⟨B, hB, -, hw⟩ := hh' d hd 1 fun _ => t
  rw [hA] at hB
  cases hB
  exact (hw 0 Nat.one_pos).symm.trans (hv 0 Nat.one_pos)

theorem evaluates_eq {u : Utfc} (hu : Ready u) {xi : List ℝ} {h : ℕ → ℝ → ℝ} (hh : Evaluates u xi h) :
    h 0 = freeFn u xi ∧ h 1 = deriv (freeFn u xi) := by
  have h0 := evaluates_unique (evaluates_freeFn u hu xi) hh 0 (by omega)
  have h1 := evaluates_unique (evaluates_freeFn u hu xi) hh 1 (by omega)
  rw [iteratedDeriv_zero] at h0
  rw [iteratedDeriv_one] at h1
  exact ⟨h0, h1⟩

/-- **C76, one variable.** For every usable `utfc` object (both backends, every basis with derivatives, every removed set) and every
coefficient vector: the products of `xi` with `H(t)`, `dH(t)`, …, `d8H(t)` are, in every call and for every array of points, the values and
the successive derivatives of one infinitely differentiable function, which is determined by the products. -/
theorem C76_utfc (u : Utfc) (hu : Ready u) (xi : List ℝ) :
    ∃ h, Evaluates u xi h ∧ ContDiff ℝ ∞ (h 0) ∧ (∀ d, h d = iteratedDeriv d (h 0)) ∧
      ∀ h', Evaluates u xi h' → ∀ d ≤ 8, h' d = h d := by
  refine ⟨fun d => iteratedDeriv d (freeFn u xi), evaluates_freeFn u hu xi, ?_, fun d => ?_,
    fun h' hh => evaluates_unique (evaluates_freeFn u hu xi) hh⟩
  · beta_reduce
    rw [iteratedDeriv_zero]
    exact freeFn_contDiff u hu xi
  · beta_reduce
    rw [iteratedDeriv_zero]

/-- Which constructor calls give a usable object: an integer `nC`, or distinct listed functions that exist; different ends; any basis but
ReLU. -/
theorem C76_ready (N : ℕ) (nC : NCArg) (deg : ℕ) (basis : String) (hb : basis ≠ "ELMReLU") (x0 xf : Option ℝ)
    (hx : x0.getD 0 ≠ xf.getD 0) (backend : String) (w b : ℕ → ℝ) (u : Utfc)
    (hu : utfcInit N nC deg basis x0 xf backend w b = .ok u)
    (hn : ∀ l, nC = .list l ∨ nC = .jaxArray l → l.Nodup ∧ ∀ j ∈ l, j ≤ (deg : ℤ)) : Ready u := by
  obtain ⟨hnC, hdeg, h0, hf, -, hp, hcls⟩ := utfcInit_ok hu
  refine ⟨by rw [h0, hf]; exact hx, ?_, fun w' b' h => ?_⟩
  · have hneg : ∀ {l : List ℤ}, utfcNC deg nC = .ok l → ∀ r ∈ l, 0 ≤ r := by
      intro l hl r hr
      cases nC <;> simp only [utfcNC, bind, Except.bind] at hl
      case other => cases hl
      all_goals
        split_ifs at hl with h1 h2
        cases hl
        simp only [List.any_eq_true, not_exists, not_and] at h2
        have := h2 r hr
        simpa using this
    cases nC with
    | int k =>
      have hk : k ≤ deg := by
        by_contra hk
        rw [(C19_int deg k).2 (by omega)] at hnC
        cases hnC
      obtain ⟨r, hr, hs, hm⟩ := (C19_int deg k).1 hk
      rw [hnC] at hr
      cases hr
      refine ⟨hs.imp (fun h => ne_of_lt h), fun r hr => ?_⟩
      have := (hm r).mp hr
      rw [hdeg]
      push_cast
      omega
    | list l =>
      have hl := hn l (Or.inl rfl)
      have h2 := hneg hnC
      have he : u.nC = l := by
        unfold utfcNC at hnC
        simp only [bind, Except.bind] at hnC
        split_ifs at hnC
        exact (Except.ok.inj hnC).symm
      rw [he] at h2 ⊢
      refine ⟨hl.1, fun r hr => ⟨h2 r hr, ?_⟩⟩
      have := hl.2 r hr
      rw [hdeg]; push_cast; omega
    | jaxArray l =>
      have hl := hn l (Or.inr rfl)
      have h2 := hneg hnC
      have he : u.nC = l := by
        unfold utfcNC at hnC
        simp only [bind, Except.bind] at hnC
        split_ifs at hnC
        exact (Except.ok.inj hnC).symm
      rw [he] at h2 ⊢
      refine ⟨hl.1, fun r hr => ⟨h2 r hr, ?_⟩⟩
      have := hl.2 r hr
      rw [hdeg]; push_cast; omega
    | other => cases hnC
  · rw [hcls] at h
    apply hb
    have hbe : u.basis = .elm .relu := by
      cases hub : u.basis with
      | elm a2 => rw [hub] at h; simp only [BasisName.cls, UniClass.elm.injEq] at h; rw [h.1]
      | _ => rw [hub] at h; cases h
    rw [hbe] at hp
    unfold BasisName.parse at hp
    by_contra h
    simp only [h, if_false] at hp
    split_ifs at hp <;> simp at hp

/-- A concrete object: the one of TfcBook/Chapter_3/section_3_5_2.py 27 (`utfc(N, nC, int(m), basis = basis, x0=xspan[0], xf=xspan[1])`). -/
example : ∃ u, utfcInit 100 (.int 2) 90 "CP" (some 0) (some Real.pi) "C++" (fun _ => 0) (fun _ => 0) = .ok u ∧ Ready u := by
  refine ⟨_, rfl, C76_ready 100 (.int 2) 90 "CP" (by decide) (some 0) (some Real.pi) ?_ "C++" (fun _ => 0) (fun _ => 0) _ rfl ?_⟩
  · simpa using Real.pi_ne_zero.symm
  · rintro l (h | h) <;> cases h

/-- The columns of `H`, numbered: smooth functions `φ 0, …, φ (m - 1)` and their partial derivatives up to total order 8. -/
def ColumnFns (dim : ℕ) (u : Mtfc) (m : ℕ) (φ : ℕ → (Fin dim → ℝ) → ℝ) : Prop :=
  (∀ i, ContDiff ℝ ∞ (φ i)) ∧ ∀ (n : ℕ) (xs : ℕ → ℕ → ℝ) (ds : List ℕ), ds.length = dim → ds.sum ≤ 8 → ∃ A, u.Hjax n xs ds false = .ok A ∧
    A.rows = n ∧ A.cols = m ∧ ∀ j < n, ∀ i < m, A.at_ j i = mixedPartial (fun k : Fin dim => ds.getD k 0) (φ i) (fun k => xs j k)

theorem number_columns {ι : Type} {dim : ℕ} {u : Mtfc} {L : List ι} {φ : ι → (Fin dim → ℝ) → ℝ}
    (hφ : ∀ α, ContDiff ℝ ∞ (φ α))
    (hL : ∀ (n : ℕ) (xs : ℕ → ℕ → ℝ) (ds : List ℕ), ds.length = dim → ds.sum ≤ 8 → ReturnsArray (u.Hjax n xs ds false) n L
      (fun j α => mixedPartial (fun k : Fin dim => ds.getD k 0) (φ α) (fun k => xs j k))) :
    ∃ m φ, ColumnFns dim u m φ := by
  refine ⟨L.length, fun i => if h : i < L.length then φ L[i] else fun _ => 0, fun i => ?_, fun n xs ds hds hsum => ?_⟩
  · by_cases h : i < L.length
    · simp only [h, dite_true]
      exact hφ _
    · simp only [h, dite_false]
      exact contDiff_const
  · obtain ⟨A, hA, hr, hc, hv⟩ := hL n xs ds hds hsum
    refine ⟨A, hA, hr, hc, fun j hj i hi => ?_⟩
    rw [hv j hj i hi]
    simp only [hi, dite_true]

/-- The columns of `H` for the objects the constructor returns. -/
theorem mtfc_columns {n : List ℕ} {nC : MNCArg} {deg dim : ℕ} (hdim : 1 ≤ dim) {basis backend : String}
    {x0 xf : Option (List ℝ)} {w : ℕ → ℕ → ℝ} {b : ℕ → ℝ} {u : Mtfc}
    (hu : mtfcInit n nC deg dim basis x0 xf backend w b = .ok u)
    (hb : basis = "CP" ∨ basis = "LeP" ∨ basis = "FS" ∨
      (basis ≠ "ELMReLU" ∧ ValidRemoval (deg + 1) u.nCl ∧ ∀ k < dim, u.x0 k ≠ u.xf k)) : ∃ m φ, ColumnFns dim u m φ := by
  have hbn : BasisName.parse basis = some u.basis := (mtfcInit_ok hu).2.2.2.2.2.1
  cases hm : u.basis.mcls w b with
  | tensor f =>
    obtain ⟨L, -, hL⟩ := mtfc_tensor_H hdim hu hm false
    exact number_columns (fun α => tensor_contDiff f _ _ α) fun n xs ds hds _ => hL n xs ds hds.ge
  | elm a w' b' =>
    have hn : basis ≠ "CP" ∧ basis ≠ "LeP" ∧ basis ≠ "FS" := by
      refine ⟨?_, ?_, ?_⟩ <;> rintro rfl
      · rw [show BasisName.parse "CP" = some .cp by decide] at hbn
        rw [← Option.some.inj hbn] at hm; cases hm
      · rw [show BasisName.parse "LeP" = some .lep by decide] at hbn
        rw [← Option.some.inj hbn] at hm; cases hm
      · rw [show BasisName.parse "FS" = some .fs by decide] at hbn
        rw [← Option.some.inj hbn] at hm; cases hm
    obtain ⟨hne, hval, hx⟩ : basis ≠ "ELMReLU" ∧ ValidRemoval (deg + 1) u.nCl ∧ ∀ k < dim, u.x0 k ≠ u.xf k := by
      rcases hb with h | h | h | h
      · exact absurd h hn.1
      · exact absurd h hn.2.1
      · exact absurd h hn.2.2
      · exact h
    have ha : a ≠ .relu := by
      rintro rfl
      apply hne
      have hbe : u.basis = .elm .relu := by
        cases hub : u.basis with
        | elm a2 => rw [hub] at hm; simp only [BasisName.mcls, MClass.elm.injEq] at hm; rw [hm.1]
        | _ => rw [hub] at hm; cases hm
      rw [hbe] at hbn
      unfold BasisName.parse at hbn
      by_contra h
      simp only [h, if_false] at hbn
      split_ifs at hbn <;> simp at hbn
    obtain ⟨-, -, hud, -, -, -, -, -, -, ⟨be, -, hobj⟩, -, -⟩ := mtfcInit_ok hu
    rw [hm] at hobj
    obtain ⟨o, g1, -, -, g2⟩ := MObj.new_elm be a w' b' dim (deg + 1) u.x0 u.xf u.numC u.tab u.nCl
    rw [g1] at hobj
    cases hobj
    obtain ⟨-, g3⟩ := g2 false (Or.inr hval) hx
    refine number_columns (L := outColumns (deg + 1) u.nCl false)
      (fun k => nElmBasis_contDiff a ha (fun i => u.x0 i) (fun i => u.xf i) (fun i => w' i) b' k) fun n xs ds hds hsum => ?_
    unfold Mtfc.Hjax
    rw [hud]
    refine g3 n xs ds hds.le ?_ (fun h => absurd h ha)
    cases be with
    | cpp => exact fun _ => hsum
    | python => exact fun h => absurd h ha

/-- A column sum as a function. -/
theorem mEvaluates_of_columns {dim : ℕ} {u : Mtfc} {m : ℕ} {φ : ℕ → (Fin dim → ℝ) → ℝ} (h : ColumnFns dim u m φ) (xi : List ℝ) :
    MEvaluates dim u xi (fun x => ∑ i ∈ Finset.range m, xi.getD i 0 * φ i x) ∧ ContDiff ℝ ∞ fun x => ∑ i ∈ Finset.range m, xi.getD i 0 * φ i x := by
  refine ⟨fun ds hds hsum n xs => ?_, ContDiff.sum fun i _ => contDiff_const.mul (h.1 _)⟩
  obtain ⟨A, hA, hr, hc, hv⟩ := h.2 n xs ds hds hsum
  refine ⟨A, hA, hr, fun j hj => ?_⟩
  rw [mixedPartial_sum (Finset.range m) (fun i : ℕ => xi.getD i 0) _ (f := fun i => φ i) fun i => h.1 _]
  unfold npDot
  rw [hc]
  refine Finset.sum_congr rfl fun i hi => ?_
  rw [hv j hj i (Finset.mem_range.mp hi), mul_comm]

/-- **C76, several variables.** For every `mtfc` object the constructor returns (both backends, Chebyshev, Legendre, Fourier, and the
smooth activations with existing removed functions and proper intervals) and every coefficient vector: the products of `xi` with `H` and
with its partial derivatives up to total order 8 are the values and the partial derivatives of one infinitely differentiable function,
which is determined by the products. -/
theorem C76_mtfc {n : List ℕ} {nC : MNCArg} {deg dim : ℕ} (hdim : 1 ≤ dim) {basis backend : String}
    {x0 xf : Option (List ℝ)} {w : ℕ → ℕ → ℝ} {b : ℕ → ℝ} {u : Mtfc}
    (hu : mtfcInit n nC deg dim basis x0 xf backend w b = .ok u)
    (hb : basis = "CP" ∨ basis = "LeP" ∨ basis = "FS" ∨
      (basis ≠ "ELMReLU" ∧ ValidRemoval (deg + 1) u.nCl ∧ ∀ k < dim, u.x0 k ≠ u.xf k)) (xi : List ℝ) :
    ∃ g, MEvaluates dim u xi g ∧ ContDiff ℝ ∞ g ∧ ∀ g', MEvaluates dim u xi g' → g' = g := by
  have huniq : ∀ g g', MEvaluates dim u xi g → MEvaluates dim u xi g' → g' = g := by
    intro g g' hg hg'
    funext x
    obtain ⟨A, hA, -, hv⟩ := hg (List.replicate dim 0) (by simp) (by simp) 1 fun _ k => if hk : k < dim then x ⟨k, hk⟩ else 0
    obtain ⟨B, hB, -, hw⟩ := hg' (List.replicate dim 0) (by simp) (by simp) 1 fun _ k => if hk : k < dim then x ⟨k, hk⟩ else 0
    rw [hA] at hB
    cases hB
    have h := (hw 0 Nat.one_pos).symm.trans (hv 0 Nat.one_pos)
    have hz : (fun k : Fin dim => (List.replicate dim 0).getD (k : ℕ) 0) = fun _ => 0 := by
      funext k
      simp
    rw [hz, mixedPartial_zero, mixedPartial_zero] at h
    simpa using h
  obtain ⟨m, φ, h⟩ := mtfc_columns hdim hu hb
  obtain ⟨hg, hs⟩ := mEvaluates_of_columns h xi
  exact ⟨_, hg, hs, fun g' hg' => huniq _ g' hg hg'⟩

end Verif.Props
