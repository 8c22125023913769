import Verif.Lemmas.TensorSpan
import Verif.Props.Span
import Verif.Props.MtfcGrid

/-!
# What the tensor-product bases of `mtfc` can represent, and uniqueness of the coefficients (C61)
-/

namespace Verif

open Verif.Mem Verif.Py Verif.Np Verif.Spec Verif.Model Verif.Model.Py

/-- `A @ ξ` for a matrix whose columns are labelled without repetition. -/
theorem rowTimes_labels {ι : Type} [DecidableEq ι] {r : Except Err (Mat ℝ)} {n : ℕ} {L : List ι} {V : ℕ → ι → ℝ} {A : Mat ℝ}
    (hA : r = .ok A) (hr : ReturnsArray r n L V) (hL : L.Nodup) (ζ : ι → ℝ) (ξ : ℕ → ℝ)
    (hξ : ∀ i, ∀ hi : i < L.length, ξ i = ζ L[i]) {j : ℕ} (hj : j < n) :
    rowTimes A ξ j = ∑ α ∈ L.toFinset, V j α * ζ α := by
  obtain ⟨A', hA', -, hc, hv⟩ := hr
  rw [hA] at hA'
  cases hA'
  have hinj : Function.Injective (fun i : Fin L.length => L[i]) := by
    intro i j hij
    exact Fin.ext ((hL.getElem_inj_iff).mp hij)
  have himg : L.toFinset = Finset.univ.image (fun i : Fin L.length => L[i]) := by
    ext α
    simp only [List.mem_toFinset, Finset.mem_image, Finset.mem_univ, true_and]
    constructor
    · intro h
      obtain ⟨i, hi, rfl⟩ := List.getElem_of_mem h
      exact ⟨⟨i, hi⟩, rfl⟩
    · rintro ⟨i, rfl⟩
      exact List.getElem_mem i.2
  rw [himg, Finset.sum_image (fun i _ j _ h => hinj h), rowTimes, hc, Finset.sum_range]
  refine Finset.sum_congr rfl fun i _ => ?_
  rw [hv j hj i i.2, hξ i i.2]
  rfl

end Verif

namespace Verif.Props

open Verif Verif.Mem Verif.Py Verif.Np Verif.Spec Verif.Model Verif.Model.Py

/-- The matrix of an `mtfc` object with a tensor-product basis. -/
theorem mtfc_tensor_H {n : List ℕ} {nC : MNCArg} {deg dim : ℕ} (hdim : 1 ≤ dim) {basis backend : String}
    {x0 xf : Option (List ℝ)} {w : ℕ → ℕ → ℝ} {b : ℕ → ℝ} {u : Mtfc}
    (hu : mtfcInit n nC deg dim basis x0 xf backend w b = .ok u) {f : NFamily}
    (hf : u.basis.mcls w b = .tensor f) (full : Bool) :
    ∃ L, IsColumnOrder (deg + 1) (fun k : Fin dim => (List.range u.numC).map (u.tab k)) full L ∧
      ∀ (n : ℕ) (xs : ℕ → ℕ → ℝ) (ds : List ℕ), dim ≤ ds.length → ReturnsArray (u.Hjax n xs ds full) n L
        (fun j α => mixedPartial (fun k : Fin dim => ds.getD k 0)
          (f.cls.tensor (fun k : Fin dim => u.x0 k) (fun k => u.xf k) α) (fun k => xs j k)) := by
  obtain ⟨-, -, hud, -, -, -, -, -, -, ⟨be, -, hobj⟩, -, -⟩ := mtfcInit_ok hu
  rw [hf] at hobj
  obtain ⟨o, g1, -, g2⟩ := MObj.new_tensor be f (m := deg + 1) hdim (by omega) u.x0 u.xf u.numC u.tab u.nCl
  rw [g1] at hobj
  cases hobj
  obtain ⟨L, hL, -, hret⟩ := g2 full
  refine ⟨L, hL, fun n xs ds hds => ?_⟩
  unfold Mtfc.Hjax
  rw [hud]
  exact hret n xs ds hds

/-- **C61, representation**: for the Chebyshev and Legendre bases of `mtfc` (both backends, every number of variables, every
`nC`), every polynomial of total degree at most `deg` in the user's variables is `H(x) @ ξ` for one vector `ξ`, at all points
at once, and the same `ξ` gives all its mixed partial derivatives. -/
theorem C61_represent (n : List ℕ) (nC : MNCArg) (deg dim : ℕ) (hdim : 1 ≤ dim) (basis backend : String)
    (hb : basis = "CP" ∨ basis = "LeP") (x0 xf : Option (List ℝ)) (w : ℕ → ℕ → ℝ) (b : ℕ → ℝ) (u : Mtfc)
    (hu : mtfcInit n nC deg dim basis x0 xf backend w b = .ok u) (hx : ∀ k < dim, u.x0 k ≠ u.xf k)
    (P : MvPolynomial (Fin dim) ℝ) (hP : P.totalDegree ≤ deg) :
    ∃ ξ : ℕ → ℝ, ∀ (ds : List ℕ) (N : ℕ) (xs : ℕ → ℕ → ℝ), ds.length = dim →
      ∃ A, u.Hjax N xs ds true = .ok A ∧ A.rows = N ∧
        ∀ j < N, rowTimes A ξ j =
          mixedPartial (fun k : Fin dim => ds.getD k 0) (fun x => MvPolynomial.eval x P) (fun k => xs j k) := by
  have hbn : BasisName.parse basis = some u.basis := (mtfcInit_ok hu).2.2.2.2.2.1
  obtain ⟨f, fp, hf, hfp⟩ : ∃ (f : NFamily) (fp : PolyFamily), u.basis.mcls w b = .tensor f ∧ f.cls = .poly fp := by
    rcases hb with rfl | rfl
    · have h6 : BasisName.parse "CP" = some .cp := by decide
      rw [h6] at hbn
      rw [← Option.some.inj hbn]
      exact ⟨.cp, .cp, rfl, rfl⟩
    · have h6 : BasisName.parse "LeP" = some .lep := by decide
      rw [h6] at hbn
      rw [← Option.some.inj hbn]
      exact ⟨.lep, .lep, rfl, rfl⟩
  obtain ⟨L, hL, hH⟩ := mtfc_tensor_H hdim hu hf true
  obtain ⟨ζ, hζ⟩ := tensor_represent (m := deg + 1) fp (fun k : Fin dim => u.x0 k) (fun k => u.xf k) (fun l => hx l l.2)
    L.toFinset (fun α => by rw [List.mem_toFinset, hL.mem]; simp [Admissible]) P (by omega)
  refine ⟨fun i => if h : i < L.length then ζ L[i] else 0, fun ds N xs hds => ?_⟩
  have hret := hH N xs ds hds.ge
  obtain ⟨A, hA, hr, -, -⟩ := id hret
  refine ⟨A, hA, hr, fun j hj => ?_⟩
  rw [rowTimes_labels hA hret hL.nodup ζ _ (fun i hi => by rw [dif_pos hi]) hj]
  have hfun : (fun x => MvPolynomial.eval x P) = fun x : Fin dim → ℝ => ∑ α ∈ L.toFinset,
      (∏ l, (fun t => (classical ℝ fp (α l)).eval (fp.arg (u.x0 l) (u.xf l) t)) (x l)) * ζ α := funext hζ
  have hsm : ∀ (α : Fin dim → ℕ) (l : Fin dim) (m : ℕ),
      ContDiff ℝ m (fun t => (classical ℝ fp (α l)).eval (fp.arg (u.x0 l) (u.xf l) t)) := by
    intro α l m
    obtain ⟨a, b, -, harg⟩ := arg_affine fp (u.x0 l) (u.xf l) (hx l l.2)
    simp only [harg]
    have h1 : ContDiff ℝ m (fun x : ℝ => (classical ℝ fp (α l)).eval x) := by
      simpa using Polynomial.contDiff_aeval (𝕜 := ℝ) (classical ℝ fp (α l)) (m : WithTop ℕ∞)
    exact h1.comp ((contDiff_const.mul contDiff_id).add contDiff_const)
  rw [hfun, mixedPartial_tensor_sum _ _ (fun α l t => (classical ℝ fp (α l)).eval (fp.arg (u.x0 l) (u.xf l) t)) hsm]
  refine Finset.sum_congr rfl fun α _ => ?_
  congr 2
  funext x
  simp only [UniClass.tensor, hfp]
  rfl

/-- How many points per dimension determine the coefficients: `deg + 1` for Chebyshev and Legendre, `2 ⌊(deg+1)/2⌋ + 2` for
Fourier (whose first and last point coincide up to a period). -/
def pointsNeeded (basis : String) (deg : ℕ) : ℕ :=
  if basis = "FS" then 2 * ((deg + 1) / 2) + 2 else max 2 (deg + 1)

/-- The univariate functions on the basis-domain points of one dimension. -/
theorem uni_grid_unisolvent (bn : BasisName) (f : NFamily) (w : ℕ → ℕ → ℝ) (b : ℕ → ℝ) (hf : bn.mcls w b = .tensor f) {deg n : ℕ}
    (hn : (if bn = .fs then 2 * ((deg + 1) / 2) + 2 else max 2 (deg + 1)) ≤ n) (ξ : ℕ → ℝ)
    (h : ∀ j < n, ∑ k ∈ Finset.range (deg + 1), f.cls.fn k (zPoint bn n j) * ξ k = 0) : ∀ k < deg + 1, ξ k = 0 := by
  have hinj : ∀ i < n, ∀ j < n, zPoint bn n i = zPoint bn n j → i = j := by
    intro i hi j hj hij
    rcases lt_trichotomy i j with h1 | h1 | h1
    · exact absurd hij (zPoint_lt bn h1 hj).ne
    · exact h1
    · exact absurd hij (zPoint_lt bn h1 hi).ne'
  cases bn with
  | cp =>
    have : f = .cp := by simpa [BasisName.mcls] using hf.symm
    subst this
    exact classical_unisolvent .cp (le_trans (le_max_right _ _) hn) ξ _ hinj h
  | lep =>
    have : f = .lep := by simpa [BasisName.mcls] using hf.symm
    subst this
    exact classical_unisolvent .lep (le_trans (le_max_right _ _) hn) ξ _ hinj h
  | fs =>
    have : f = .fs := by simpa [BasisName.mcls] using hf.symm
    subst this
    rw [if_pos rfl] at hn
    have hfirst := zPoint_first .fs (N := n) (by omega)
    have hlast := zPoint_last .fs (N := n) (by omega)
    refine fourier_unisolvent (n := n - 1) (by omega) ξ (fun j => zPoint .fs n (j + 1)) ?_ ?_ ?_
    · intro i hi
      constructor
      · have := zPoint_lt .fs (N := n) (i := 0) (j := i + 1) (by omega) (by omega)
        rw [hfirst] at this
        exact this
      · rcases Nat.lt_or_ge (i + 1) (n - 1) with h1 | h1
        · have := zPoint_lt .fs (N := n) h1 (by omega)
          rw [hlast] at this
          exact this.le
        · have : i + 1 = n - 1 := by omega
          simp only [this, hlast]
          exact le_rfl
    · intro i hi j hj hij
      have := hinj (i + 1) (by omega) (j + 1) (by omega) hij
      omega
    · intro j hj
      exact h (j + 1) (by omega)
  | elm a => simp [BasisName.mcls] at hf

/-- **C61, uniqueness on the object's own grid**: for the tensor-product bases of `mtfc` (both backends, every number of
variables, every `nC`, with or without the removed functions) with `pointsNeeded` points in every dimension, the columns of
`H` at the collocation points are independent. -/
theorem C61_own_points (n : List ℕ) (nC : MNCArg) (deg dim : ℕ) (hdim : 1 ≤ dim) (basis backend : String)
    (hb : basis = "CP" ∨ basis = "LeP" ∨ basis = "FS") (x0 xf : Option (List ℝ)) (w : ℕ → ℕ → ℝ) (b : ℕ → ℝ) (u : Mtfc)
    (hu : mtfcInit n nC deg dim basis x0 xf backend w b = .ok u) (hn : ∀ v ∈ n, pointsNeeded basis deg ≤ v)
    (hx : ∀ k < dim, u.x0 k ≠ u.xf k) (full : Bool) :
    IndependentColumns (u.Hjax u.N (fun p k => (u.x.getD k []).getD p 0) (List.replicate dim 0) full) := by
  obtain ⟨hlen, -, -, -, hN, hbn, -⟩ := mtfcInit_ok hu
  have hgrid := C14_grid n nC deg dim hdim basis backend x0 xf w b u hu (fun v hv => by
    have := hn v hv
    unfold pointsNeeded at this
    split_ifs at this <;> omega) hx
  obtain ⟨-, -, -, -, hpt, -, hmap⟩ := hgrid
  obtain ⟨f, hf, hfs, hdom⟩ : ∃ f : NFamily, u.basis.mcls w b = .tensor f ∧ (basis = "FS" ↔ u.basis = .fs) ∧
      ∀ a c x, f.cls.arg a c x = toBasis a c u.basis.zRange.1 u.basis.zRange.2 x := by
    rcases hb with rfl | rfl | rfl
    · have h6 : BasisName.parse "CP" = some .cp := by decide
      rw [h6] at hbn
      rw [← Option.some.inj hbn]
      exact ⟨.cp, rfl, by decide, fun _ _ _ => rfl⟩
    · have h6 : BasisName.parse "LeP" = some .lep := by decide
      rw [h6] at hbn
      rw [← Option.some.inj hbn]
      exact ⟨.lep, rfl, by decide, fun _ _ _ => rfl⟩
    · have h6 : BasisName.parse "FS" = some .fs := by decide
      rw [h6] at hbn
      rw [← Option.some.inj hbn]
      exact ⟨.fs, rfl, by decide, fun _ _ _ => rfl⟩
  obtain ⟨L, hL, hH⟩ := mtfc_tensor_H hdim hu hf full
  have hret := hH u.N (fun p k => (u.x.getD k []).getD p 0) (List.replicate dim 0) (by simp)
  obtain ⟨A, hA, hr, hc, -⟩ := id hret
  refine ⟨A, hA, fun ξ h i hi => ?_⟩
  rw [hc] at hi
  classical
  set ζ : (Fin dim → ℕ) → ℝ := fun α => ξ (L.idxOf α) with hζ
  have hξ : ∀ i, ∀ hi : i < L.length, ξ i = ζ L[i] := fun i hi => by
    rw [hζ]; beta_reduce; rw [hL.nodup.idxOf_getElem i hi]
  rw [hξ i hi]
  refine tensor_unisolvent (m := deg + 1) (fun l : Fin dim => n.getD l 0)
    (fun l j k => f.cls.fn k (zPoint u.basis (n.getD l 0) j)) (fun l ζ' hζ' => ?_) L.toFinset (fun α hα l => ?_) ζ
    (fun ι hι => ?_) L[i] (List.mem_toFinset.mpr (List.getElem_mem hi))
  · refine uni_grid_unisolvent u.basis f w b hf ?_ ζ' hζ'
    have hl : (l : ℕ) < n.length := by rw [hlen]; exact l.2
    have hmem : n.getD l 0 ∈ n := by
      have : n.getD l 0 = n[(l : ℕ)] := by simp [List.getD, hl]
      rw [this]; exact List.getElem_mem hl
    have := hn _ hmem
    unfold pointsNeeded at this
    by_cases hq : basis = "FS"
    · rw [if_pos hq] at this
      rw [if_pos (hfs.mp hq)]
      exact this
    · rw [if_neg hq] at this
      rw [if_neg (fun h => hq (hfs.mpr h))]
      exact this
  · have h1 := (hL.mem α).mp (List.mem_toFinset.mp hα)
    exact lt_of_le_of_lt (Finset.single_le_sum (fun _ _ => Nat.zero_le _) (Finset.mem_univ l)) h1.1
  · obtain ⟨p, ⟨hp, hpz⟩, -⟩ := hpt (fun k => if hk : k < dim then ι ⟨k, hk⟩ else 0) (fun k hk => by
      simp only [hk, dif_pos]; exact hι ⟨k, hk⟩)
    have h1 := h p (by rw [hr, hN]; exact hp)
    rw [rowTimes_labels hA hret hL.nodup ζ ξ hξ (by rw [hN]; exact hp)] at h1
    rw [← h1]
    refine Finset.sum_congr rfl fun α _ => ?_
    congr 1
    have ht : f.cls.tensor (fun k : Fin dim => u.x0 k) (fun k => u.xf k) α =
      fun x => ∏ l : Fin dim, f.cls.basis (u.x0 l) (u.xf l) (α l) (x l) := rfl
    rw [ht, mixedPartial_tensor]
    refine Finset.prod_congr rfl fun l _ => ?_
    have h0 : (List.replicate dim 0).getD (l : ℕ) 0 = 0 := by simp
    rw [h0, iteratedDeriv_zero]
    simp only [UniClass.basis]
    rw [hdom, hmap l l.2 p hp, hpz l l.2]
    simp

/-- Concrete case: Chebyshev basis of degree 2 in two variables on a 3 × 4 grid, one function removed per dimension. The
columns at the grid points are independent, and `x y` is represented exactly. -/
example (w : ℕ → ℕ → ℝ) (b : ℕ → ℝ) : ∃ u : Mtfc,
    mtfcInit [3, 4] (.list [.int 1, .int 1]) 2 2 "CP" (some [0, 0]) (some [1, 2]) "C++" w b = .ok u ∧
    IndependentColumns (u.Hjax u.N (fun p k => (u.x.getD k []).getD p 0) (List.replicate 2 0) false) ∧
    ∃ ξ : ℕ → ℝ, ∀ (ds : List ℕ) (N : ℕ) (xs : ℕ → ℕ → ℝ), ds.length = 2 →
      ∃ A, u.Hjax N xs ds true = .ok A ∧ A.rows = N ∧
        ∀ j < N, rowTimes A ξ j = mixedPartial (fun k : Fin 2 => ds.getD k 0)
          (fun x => MvPolynomial.eval x (MvPolynomial.X 0 * MvPolynomial.X 1)) (fun k => xs j k) := by
  obtain ⟨u, hu, h0, hf⟩ := mtfcInit_succeeds [3, 4] (.list [.int 1, .int 1]) 2 2 (by omega) "CP" "C++" [0, 0] [1, 2] w b
    rfl rfl rfl (by simp) .cp rfl .cpp rfl (1, [[0], [0]], []) (by decide)
  have hx : ∀ k < 2, u.x0 k ≠ u.xf k := by
    intro k hk
    rw [h0, hf]
    interval_cases k <;> simp [vecOf]
  refine ⟨u, hu, C61_own_points _ _ _ _ (by omega) _ _ (Or.inl rfl) _ _ w b u hu (by simp [pointsNeeded]) hx false,
    C61_represent _ _ _ _ (by omega) _ _ (Or.inl rfl) _ _ w b u hu hx _ ?_⟩
  refine (MvPolynomial.totalDegree_mul _ _).trans ?_
  simp [MvPolynomial.totalDegree_X]

end Verif.Props
