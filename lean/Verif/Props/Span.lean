import Verif.Lemmas.PolySpan
import Verif.Lemmas.TrigSpan
import Verif.Spec.Span
import Verif.Props.Domain
import Verif.Props.Utfc
import Mathlib.LinearAlgebra.Matrix.ToLinearEquiv
import Mathlib.Analysis.Calculus.ContDiff.Polynomial

/-!
# What the polynomial and Fourier bases can represent, and uniqueness of the coefficients (C60)
-/

namespace Verif

open Polynomial Verif.Mem Verif.Py Verif.Np Verif.Spec Verif.Model Verif.Model.Py

theorem outColumns_nodup (m : ℕ) (nC : List ℤ) (full : Bool) : (outColumns m nC full).Nodup := by
  unfold outColumns keptColumns
  split
  · exact List.nodup_range
  · exact List.nodup_range.filter _

theorem outColumns_lt {m : ℕ} {nC : List ℤ} {full : Bool} {k : ℕ} (h : k ∈ outColumns m nC full) : k < m := by
  unfold outColumns keptColumns at h
  split at h
  · exact List.mem_range.mp h
  · exact List.mem_range.mp (List.mem_filter.mp h).1

/-- A sum over the entries of a list without repetitions of numbers below `m`, as a sum over all numbers below `m`. -/
theorem sum_columns {cols : List ℕ} {m : ℕ} (hn : cols.Nodup) (hm : ∀ k ∈ cols, k < m) (V : ℕ → ℝ) (ξ : ℕ → ℝ) :
    ∃ ζ : ℕ → ℝ, (∀ i, ∀ hi : i < cols.length, ζ cols[i] = ξ i) ∧
      ∀ V : ℕ → ℝ, ∑ i : Fin cols.length, V cols[i] * ξ i = ∑ k ∈ Finset.range m, V k * ζ k := by
  classical
  refine ⟨fun k => if k ∈ cols then ξ (cols.idxOf k) else 0, fun i hi => ?_, fun V => ?_⟩
  · beta_reduce
    rw [if_pos (List.getElem_mem hi), hn.idxOf_getElem i hi]
  · have hinj : Function.Injective (fun i : Fin cols.length => cols[i]) := by
      intro i j hij
      exact Fin.ext ((hn.getElem_inj_iff).mp hij)
    have h1 : ∑ i : Fin cols.length, V cols[i] * ξ i =
        ∑ k ∈ Finset.univ.image (fun i : Fin cols.length => cols[i]), V k * (if k ∈ cols then ξ (cols.idxOf k) else 0) := by
      rw [Finset.sum_image (fun i _ j _ h => hinj h)]
      refine Finset.sum_congr rfl fun i _ => ?_
      rw [if_pos (show cols[i] ∈ cols from List.getElem_mem i.2)]
      congr 2
      exact (hn.idxOf_getElem i i.2).symm
    rw [h1]
    refine Finset.sum_subset ?_ ?_
    · intro k hk
      obtain ⟨i, -, rfl⟩ := Finset.mem_image.mp hk
      exact Finset.mem_range.mpr (hm _ (List.getElem_mem i.2))
    · intro k _ hk
      rw [if_neg, mul_zero]
      intro hmem
      obtain ⟨i, hi, rfl⟩ := List.getElem_of_mem hmem
      exact hk (Finset.mem_image.mpr ⟨⟨i, hi⟩, Finset.mem_univ _, rfl⟩)

/-- From the unisolvence of the basis functions to the matrix. -/
theorem independent_of_unisolvent {r : Except Err (Mat ℝ)} {n m : ℕ} {cols : List ℕ} {V : ℕ → ℕ → ℝ}
    (hr : ReturnsArray r n cols V) (hn : cols.Nodup) (hm : ∀ k ∈ cols, k < m)
    (huni : ∀ ζ : ℕ → ℝ, (∀ j < n, ∑ k ∈ Finset.range m, V j k * ζ k = 0) → ∀ k < m, ζ k = 0) :
    IndependentColumns r := by
  obtain ⟨A, hA, hrows, hcols, hval⟩ := hr
  refine ⟨A, hA, fun ξ h i hi => ?_⟩
  obtain ⟨ζ, hζ, hsum⟩ := sum_columns hn hm (fun _ => 0) ξ
  rw [hcols] at hi
  rw [← hζ i hi]
  refine huni ζ (fun j hj => ?_) _ (hm _ (List.getElem_mem hi))
  rw [← hsum, ← h j (by omega), rowTimes, hcols, Finset.sum_range]
  refine Finset.sum_congr rfl fun i _ => ?_
  rw [hval j hj i i.2]
  rfl

end Verif

namespace Verif.Props

open Polynomial Verif Verif.Mem Verif.Py Verif.Np Verif.Spec Verif.Model Verif.Model.Py

theorem evaluable_poly {be : Backend} {f : PolyFamily} {d : ℕ} : Evaluable be (.poly f) d := by
  cases be <;> (intro w b h; cases h)

theorem evaluable_fs {be : Backend} {d : ℕ} : Evaluable be .fs d := by
  cases be <;> (intro w b h; cases h)

theorem Hjax_poly (u : Utfc) (f : PolyFamily) (hcls : u.cls = .poly f) (d : ℕ) (full : Bool)
    (hC : full = true ∨ ValidRemoval (u.deg + 1) u.nC) (n : ℕ) (xs : ℕ → ℝ) :
    ReturnsArray (u.Hjax n xs d full) n (outColumns (u.deg + 1) u.nC full)
      (fun j k => iteratedDeriv d (fun x => (classical ℝ f k).eval (f.arg u.x0 u.xf x)) (xs j)) := by
  obtain ⟨V, hV, hex, -⟩ := utfc_Hjax u (d := d) (by rw [hcls]; exact evaluable_poly) full hC n xs
  refine ReturnsArray.congr hV fun j _ k _ => ?_
  rw [hex (by rw [hcls]; cases u.backend <;> [(intro a w b h; cases h); trivial]) j k
    (by rw [hcls]; intro _ w b h; cases h), hcls]
  rfl

/-- **C02 for `utfc`**: the matrix a `utfc` object of a polynomial class returns for order 0 holds the classical polynomials of the
kept degrees at the mapped points; both backends. -/
theorem C02_matrix (u : Utfc) (f : PolyFamily) (hcls : u.cls = .poly f) (full : Bool)
    (hC : full = true ∨ ValidRemoval (u.deg + 1) u.nC) (n : ℕ) (xs : ℕ → ℝ) :
    ReturnsArray (u.Hjax n xs 0 full) n (outColumns (u.deg + 1) u.nC full)
      (fun j k => (classical ℝ f k).eval (f.arg u.x0 u.xf (xs j))) := by
  refine ReturnsArray.congr (Hjax_poly u f hcls 0 full hC n xs) fun j _ k _ => ?_
  simp only [iteratedDeriv_zero]

theorem Hjax_fs (u : Utfc) (hcls : u.cls = .fs) (full : Bool)
    (hC : full = true ∨ ValidRemoval (u.deg + 1) u.nC) (n : ℕ) (xs : ℕ → ℝ) :
    ReturnsArray (u.Hjax n xs 0 full) n (outColumns (u.deg + 1) u.nC full)
      (fun j k => fourier k (u.cls.arg u.x0 u.xf (xs j))) := by
  obtain ⟨V, hV, hex, -⟩ := utfc_Hjax u (d := 0) (by rw [hcls]; exact evaluable_fs) full hC n xs
  refine ReturnsArray.congr hV fun j _ k _ => ?_
  rw [hex (by rw [hcls]; cases u.backend <;> [(intro a w b h; cases h); trivial]) j k
    (by rw [hcls]; intro _ w b h; cases h), hcls]
  rfl

/-- **C60, representation**: for every polynomial class (five families, both backends), every polynomial of degree at most
`deg` in the user's variable is `H(x) @ ξ` for one coefficient vector `ξ`, at all points at once; and the same `ξ` gives its
derivatives of every order from `H(x, d)`. -/
theorem C60_represent (u : Utfc) (f : PolyFamily) (hcls : u.cls = .poly f) (hx : u.x0 ≠ u.xf) (p : ℝ[X])
    (hp : p.degree < (u.deg + 1 : ℕ)) :
    ∃ ξ : ℕ → ℝ, ∀ (d n : ℕ) (xs : ℕ → ℝ), ∃ A, u.Hjax n xs d true = .ok A ∧ A.rows = n ∧
      ∀ j < n, rowTimes A ξ j = iteratedDeriv d (fun x => p.eval x) (xs j) := by
  obtain ⟨ξ, hξ⟩ := classical_represent f u.x0 u.xf hx (u.deg + 1) p hp
  refine ⟨ξ, fun d n xs => ?_⟩
  obtain ⟨A, hA, hr, hc, hv⟩ := Hjax_poly u f hcls d true (Or.inl rfl) n xs
  refine ⟨A, hA, hr, fun j hj => ?_⟩
  obtain ⟨a, b, -, harg⟩ := arg_affine f u.x0 u.xf hx
  have hsm : ∀ k, ContDiff ℝ d (fun x => (classical ℝ f k).eval (f.arg u.x0 u.xf x)) := by
    intro k
    simp only [harg]
    have h1 : ContDiff ℝ d (fun x : ℝ => (classical ℝ f k).eval x) := by
      simpa using Polynomial.contDiff_aeval (𝕜 := ℝ) (classical ℝ f k) (d : WithTop ℕ∞)
    exact h1.comp ((contDiff_const.mul contDiff_id).add contDiff_const)
  have hfun : (fun x => p.eval x) =
      fun x => ∑ k ∈ Finset.range (u.deg + 1), (classical ℝ f k).eval (f.arg u.x0 u.xf x) * ξ k := funext hξ
  rw [hfun]
  have hD : iteratedDeriv d (fun x => ∑ k ∈ Finset.range (u.deg + 1), (classical ℝ f k).eval (f.arg u.x0 u.xf x) * ξ k)
      (xs j) = ∑ k ∈ Finset.range (u.deg + 1),
        iteratedDeriv d (fun x => (classical ℝ f k).eval (f.arg u.x0 u.xf x)) (xs j) * ξ k := by
    have h1 := iteratedDeriv_fun_sum (n := d) (x := xs j) (I := Finset.range (u.deg + 1))
      (f := fun k x => (classical ℝ f k).eval (f.arg u.x0 u.xf x) * ξ k)
      (fun k _ => ((hsm k).mul contDiff_const).contDiffAt)
    rw [h1]
    refine Finset.sum_congr rfl fun k _ => ?_
    simp only [mul_comm _ (ξ k)]
    rw [iteratedDeriv_const_mul_field]
  rw [hD, rowTimes]
  have hlen : (outColumns (u.deg + 1) u.nC true).length = u.deg + 1 := by simp [outColumns]
  rw [hc, hlen]
  refine Finset.sum_congr rfl fun k hk => ?_
  have hk := Finset.mem_range.mp hk
  rw [hv j hj k (by rw [hlen]; exact hk)]
  simp [outColumns]

/-- **C60, uniqueness, any points**: at any `n ≥ deg + 1` distinct points the columns of `H(x)` are independent, for every
polynomial class, both backends, with or without removed functions. -/
theorem C60_points (u : Utfc) (f : PolyFamily) (hcls : u.cls = .poly f) (hx : u.x0 ≠ u.xf) (full : Bool)
    (hC : full = true ∨ ValidRemoval (u.deg + 1) u.nC) (n : ℕ) (hn : u.deg + 1 ≤ n) (xs : ℕ → ℝ)
    (hxs : ∀ i < n, ∀ j < n, xs i = xs j → i = j) : IndependentColumns (u.Hjax n xs 0 full) := by
  refine independent_of_unisolvent (m := u.deg + 1) (Hjax_poly u f hcls 0 full hC n xs) (outColumns_nodup _ _ _)
    (fun k hk => outColumns_lt hk) fun ζ h => ?_
  obtain ⟨a, b, ha, harg⟩ := arg_affine f u.x0 u.xf hx
  refine classical_unisolvent f hn ζ (fun j => f.arg u.x0 u.xf (xs j)) (fun i hi j hj hij => hxs i hi j hj ?_) fun j hj => ?_
  · simp only [harg] at hij
    exact mul_left_cancel₀ ha (add_right_cancel hij)
  · have := h j hj
    simpa only [iteratedDeriv_zero] using this

/-- The points and fields of a constructed object. -/
theorem init_fields {N : ℕ} {nC : NCArg} {deg : ℕ} {basis backend : String} {x0 xf : ℝ} {w b : ℕ → ℝ} {u : Utfc}
    (hu : utfcInit N nC deg basis (some x0) (some xf) backend w b = .ok u) :
    u.deg = deg ∧ u.x0 = x0 ∧ u.xf = xf ∧ BasisName.parse basis = some u.basis ∧ u.cls = u.basis.cls w b := by
  unfold utfcInit at hu
  cases hnc : utfcNC deg nC with
  | error e => rw [hnc] at hu; cases hu
  | ok l =>
    rw [hnc] at hu
    simp only [bind, Except.bind, Option.getD_some] at hu
    cases hbe : Backend.parse backend with
    | none => rw [hbe] at hu; cases hu
    | some be =>
      cases hbn : BasisName.parse basis with
      | none => rw [hbe, hbn] at hu; cases hu
      | some bn =>
        rw [hbe, hbn] at hu
        simp only at hu
        cases hu
        exact ⟨rfl, rfl, rfl, rfl, rfl⟩

theorem pairwise_getD {l : List ℝ} (h : l.Pairwise (· < ·)) : ∀ i < l.length, ∀ j < l.length, i < j →
    l.getD i 0 < l.getD j 0 := by
  intro i hi j hj hij
  have e : ∀ i, ∀ hi : i < l.length, l.getD i 0 = l[i] := fun i hi => by simp [List.getD, hi]
  rw [e i hi, e j hj]
  exact List.pairwise_iff_getElem.mp h i j hi hj hij

theorem pairwise_inj {l : List ℝ} (h : l.Pairwise (· < ·)) : ∀ i < l.length, ∀ j < l.length,
    l.getD i 0 = l.getD j 0 → i = j := by
  intro i hi j hj hij
  rcases lt_trichotomy i j with h1 | h1 | h1
  · exact absurd hij (pairwise_getD h i hi j hj h1).ne
  · exact h1
  · exact absurd hij (pairwise_getD h j hj i hi h1).ne'

/-- **C60, uniqueness on the object's own collocation points**, Chebyshev and Legendre bases: with `N ≥ deg + 1` points (and
`N ≥ 2`) a function on the points has at most one vector of coefficients. -/
theorem C60_own_points (N : ℕ) (hN : 2 ≤ N) (nC : NCArg) (deg : ℕ) (hdeg : deg + 1 ≤ N) (basis backend : String)
    (hb : basis = "CP" ∨ basis = "LeP") (x0 xf : ℝ) (hx : x0 < xf) (w b : ℕ → ℝ) (u : Utfc)
    (hu : utfcInit N nC deg basis (some x0) (some xf) backend w b = .ok u) (full : Bool)
    (hC : full = true ∨ ValidRemoval (deg + 1) u.nC) :
    IndependentColumns (u.Hjax N (fun j => u.x.getD j 0) 0 full) := by
  obtain ⟨h1, h2, h3, h4, h5⟩ := init_fields hu
  obtain ⟨hl, -, hp, -⟩ := C13_points N hN nC deg basis backend x0 xf hx w b u hu
  obtain ⟨f, hf⟩ : ∃ f, u.cls = .poly f := by
    rw [h5]
    rcases hb with rfl | rfl
    · have : u.basis = .cp := by
        have h6 : BasisName.parse "CP" = some .cp := by decide
        rw [h6] at h4; exact (Option.some.inj h4).symm
      rw [this]; exact ⟨_, rfl⟩
    · have : u.basis = .lep := by
        have h6 : BasisName.parse "LeP" = some .lep := by decide
        rw [h6] at h4; exact (Option.some.inj h4).symm
      rw [this]; exact ⟨_, rfl⟩
  refine C60_points u f hf (by rw [h2, h3]; exact hx.ne) full (by rw [h1]; exact hC) N (by omega) _ ?_
  intro i hi j hj hij
  exact pairwise_inj hp i (by omega) j (by omega) hij

/-- The points of a Fourier object on the basis domain: increasing from `-π` to `π`. -/
theorem fs_points {N : ℕ} (hN : 2 ≤ N) {nC : NCArg} {deg : ℕ} {backend : String} {x0 xf : ℝ} (hx : x0 < xf)
    {w b : ℕ → ℝ} {u : Utfc} (hu : utfcInit N nC deg "FS" (some x0) (some xf) backend w b = .ok u) :
    u.cls = .fs ∧ u.deg = deg ∧ u.x.length = N ∧ (∀ i < N, ∀ j < N, i < j →
      u.cls.arg u.x0 u.xf (u.x.getD i 0) < u.cls.arg u.x0 u.xf (u.x.getD j 0)) ∧
      u.cls.arg u.x0 u.xf (u.x.getD 0 0) = -Real.pi ∧ u.cls.arg u.x0 u.xf (u.x.getD (N - 1) 0) = Real.pi := by
  obtain ⟨h1, h2, h3, h4, h5⟩ := init_fields hu
  obtain ⟨hl, -, hp, h0, hlast, -⟩ := C13_points N hN nC deg "FS" backend x0 xf hx w b u hu
  have hb : u.basis = .fs := by
    have h6 : BasisName.parse "FS" = some .fs := by decide
    rw [h6] at h4; exact (Option.some.inj h4).symm
  have hcls : u.cls = .fs := by rw [h5, hb]; rfl
  have hpos : 0 < xf - x0 := by linarith
  have e0 : u.x.getD 0 0 = x0 := by
    rw [List.head?_eq_getElem?] at h0
    simp [List.getD, h0]
  have eN : u.x.getD (N - 1) 0 = xf := by
    rw [List.getLast?_eq_getElem?, hl] at hlast
    simp [List.getD, hlast]
  refine ⟨hcls, h1, hl, fun i hi j hj hij => ?_, ?_, ?_⟩
  · have := pairwise_getD hp i (by omega) j (by omega) hij
    rw [hcls, h2, h3]
    simp only [UniClass.arg, toBasis]
    have hpi := Real.pi_pos
    have : (Real.pi - -Real.pi) * (u.x.getD i 0 - x0) / (xf - x0) < (Real.pi - -Real.pi) * (u.x.getD j 0 - x0) / (xf - x0) :=
      div_lt_div_of_pos_right (mul_lt_mul_of_pos_left (by linarith) (by linarith)) hpos
    linarith
  · rw [hcls, h2, h3, e0]; simp [UniClass.arg, toBasis]
  · rw [hcls, h2, h3, eN]
    simp only [UniClass.arg, toBasis]
    field_simp
    ring

/-- **C60 for the Fourier basis**: on the object's own points the columns are independent as soon as there are
`2 ⌊(deg+1)/2⌋ + 2` points. Missing: fewer points (`C60_fourier_fails`: `deg + 1` points are never enough). -/
theorem C60_fourier_partial (N : ℕ) (nC : NCArg) (deg : ℕ) (hN : 2 * ((deg + 1) / 2) + 2 ≤ N) (backend : String)
    (x0 xf : ℝ) (hx : x0 < xf) (w b : ℕ → ℝ) (u : Utfc)
    (hu : utfcInit N nC deg "FS" (some x0) (some xf) backend w b = .ok u) (full : Bool)
    (hC : full = true ∨ ValidRemoval (deg + 1) u.nC) :
    IndependentColumns (u.Hjax N (fun j => u.x.getD j 0) 0 full) := by
  obtain ⟨hcls, hdeg, hl, hmono, h0, hlast⟩ := fs_points (by omega) hx hu
  refine independent_of_unisolvent (m := deg + 1) (Hjax_fs u hcls full (by rw [hdeg]; exact hC) N _)
    (outColumns_nodup _ _ _) (fun k hk => by have := outColumns_lt hk; omega) fun ζ h => ?_
  refine fourier_unisolvent (n := N - 1) (by omega) ζ (fun j => u.cls.arg u.x0 u.xf (u.x.getD (j + 1) 0)) ?_ ?_ ?_
  · intro i hi
    refine ⟨?_, ?_⟩
    · rw [← h0]; exact hmono 0 (by omega) (i + 1) (by omega) (by omega)
    · rcases Nat.lt_or_ge (i + 1) (N - 1) with h1 | h1
      · rw [← hlast]; exact (hmono (i + 1) (by omega) (N - 1) (by omega) h1).le
      · have : i + 1 = N - 1 := by omega
        simp only [this, hlast]; exact le_rfl
  · intro i hi j hj hij
    rcases lt_trichotomy i j with h1 | h1 | h1
    · exact absurd hij (hmono (i + 1) (by omega) (j + 1) (by omega) (by omega)).ne
    · exact h1
    · exact absurd hij (hmono (j + 1) (by omega) (i + 1) (by omega) (by omega)).ne'
  · intro j hj
    exact h (j + 1) (by omega)

/-- The Fourier functions take the same value at the two ends of the basis domain. -/
theorem fourier_ends (k : ℕ) : fourier k (-Real.pi) = fourier k Real.pi := by
  unfold fourier
  split_ifs
  · rfl
  · rw [mul_neg, Real.sin_neg, Real.sin_nat_mul_pi, neg_zero]
  · rw [mul_neg, Real.cos_neg]

/-- **C60 is false for the Fourier basis with `deg + 1` points**, every degree, domain and backend: the first and the last
point carry the same row, so the square matrix is singular. -/
theorem C60_fourier_fails (nC : NCArg) (deg : ℕ) (hdeg : 1 ≤ deg) (backend : String) (x0 xf : ℝ) (hx : x0 < xf)
    (w b : ℕ → ℝ) (u : Utfc) (hu : utfcInit (deg + 1) nC deg "FS" (some x0) (some xf) backend w b = .ok u) :
    ¬ IndependentColumns (u.Hjax (deg + 1) (fun j => u.x.getD j 0) 0 true) := by
  obtain ⟨hcls, hd, hl, -, h0, hlast⟩ := fs_points (by omega) hx hu
  obtain ⟨A, hA, hr, hc, hv⟩ := Hjax_fs u hcls true (Or.inl rfl) (deg + 1) (fun j => u.x.getD j 0)
  have hlen : (outColumns (u.deg + 1) u.nC true).length = deg + 1 := by simp [outColumns, hd]
  rw [hlen] at hc
  rintro ⟨A', hA', hind⟩
  rw [hA] at hA'
  cases hA'
  let M : Matrix (Fin (deg + 1)) (Fin (deg + 1)) ℝ := fun j i => A.at_ j i
  have hrow : M 0 = M (Fin.last deg) := by
    funext i
    have e1 := hv 0 (by omega) i (by rw [hlen]; exact i.2)
    have e2 := hv deg (by omega) i (by rw [hlen]; exact i.2)
    simp only [h0] at e1
    simp only [Nat.add_sub_cancel] at hlast
    simp only [hlast] at e2
    show A.at_ 0 i = A.at_ deg i
    rw [e1, e2, fourier_ends]
  have hdet : M.det = 0 := Matrix.det_zero_of_row_eq (by
    intro h
    have := congrArg Fin.val h
    simp at this
    omega) hrow
  obtain ⟨v, hv0, hMv⟩ := Matrix.exists_mulVec_eq_zero_iff.mpr hdet
  apply hv0
  funext i
  have := hind (fun k => if h : k < deg + 1 then v ⟨k, h⟩ else 0) ?_ i (by rw [hc]; exact i.2)
  · rw [dif_pos i.2] at this
    exact this
  · intro j hj
    have hj : j < deg + 1 := by omega
    have h1 := congrFun hMv ⟨j, hj⟩
    simp only [Matrix.mulVec, dotProduct, Pi.zero_apply] at h1
    rw [rowTimes, hc, Finset.sum_range, ← h1]
    refine Finset.sum_congr rfl fun i _ => ?_
    rw [dif_pos i.2]

/-- The values `z` of a Fourier object: equally spaced from `-π` to `π`. -/
theorem fs_z {N : ℕ} {nC : NCArg} {deg : ℕ} {backend : String} {x0 xf : ℝ} {w b : ℕ → ℝ} {u : Utfc}
    (hu : utfcInit N nC deg "FS" (some x0) (some xf) backend w b = .ok u) : u.z = linspace (-Real.pi) Real.pi N := by
  unfold utfcInit at hu
  cases hnc : utfcNC deg nC with
  | error e => rw [hnc] at hu; cases hu
  | ok l =>
    rw [hnc] at hu
    simp only [bind, Except.bind, Option.getD_some] at hu
    cases hbe : Backend.parse backend with
    | none => rw [hbe] at hu; cases hu
    | some be =>
      have hbn : BasisName.parse "FS" = some .fs := by decide
      rw [hbe, hbn] at hu
      simp only at hu
      cases hu
      rfl

/-- On `2 M + 1` equally spaced points from `-π` to `π` the function `sin (M z)` vanishes. -/
theorem sin_on_grid (M j : ℕ) (hM : 1 ≤ M) :
    Real.sin ((M : ℝ) * (-Real.pi + (j : ℝ) * ((Real.pi - -Real.pi) / (((2 * M + 1 : ℕ) : ℝ) - 1)))) = 0 := by
  have hM' : (M : ℝ) ≠ 0 := by positivity
  have : (M : ℝ) * (-Real.pi + (j : ℝ) * ((Real.pi - -Real.pi) / (((2 * M + 1 : ℕ) : ℝ) - 1))) =
      (((j : ℤ) - (M : ℤ) : ℤ) : ℝ) * Real.pi := by
    push_cast
    rw [show (2 * (M : ℝ) + 1 - 1) = 2 * M by ring]
    field_simp
    ring
  rw [this]
  exact Real.sin_int_mul_pi _

/-- **C60 is false for the Fourier basis of odd degree with `deg + 2` points**: the last function `sin ((deg+1)/2 z)` is zero
at every one of the object's own points, so its coefficient is not determined. With `C60_fourier_fails` this shows that the
number of points in `C60_fourier_partial` cannot be lowered. -/
theorem C60_fourier_odd_fails (nC : NCArg) (deg : ℕ) (hdeg : deg % 2 = 1) (backend : String) (x0 xf : ℝ) (hx : x0 < xf)
    (w b : ℕ → ℝ) (u : Utfc) (hu : utfcInit (deg + 2) nC deg "FS" (some x0) (some xf) backend w b = .ok u) :
    ¬ IndependentColumns (u.Hjax (deg + 2) (fun j => u.x.getD j 0) 0 true) := by
  obtain ⟨hcls, hd, hl, -⟩ := fs_points (by omega) hx hu
  obtain ⟨-, h2, h3, -⟩ := init_fields hu
  obtain ⟨-, -, -, -, -, -, hz⟩ := C13_points (deg + 2) (by omega) nC deg "FS" backend x0 xf hx w b u hu
  obtain ⟨A, hA, hr, hc, hv⟩ := Hjax_fs u hcls true (Or.inl rfl) (deg + 2) (fun j => u.x.getD j 0)
  have hlen : (outColumns (u.deg + 1) u.nC true).length = deg + 1 := by simp [outColumns, hd]
  rw [hlen] at hc
  rintro ⟨A', hA', hind⟩
  rw [hA] at hA'
  cases hA'
  have h0 : ∀ j < deg + 2, A.at_ j deg = 0 := by
    intro j hj
    have e1 := hv j hj deg (by rw [hlen]; omega)
    have e2 : (outColumns (u.deg + 1) u.nC true)[deg]'(by rw [hlen]; omega) = deg := by simp [outColumns, hd]
    have e3 : u.cls.arg u.x0 u.xf (u.x.getD j 0) = -Real.pi + (j : ℝ) * ((Real.pi - -Real.pi) / (((deg + 2 : ℕ) : ℝ) - 1)) := by
      have := congrArg (fun l => l.getD j 0) hz
      rw [fs_z hu] at this
      simp only [linspace] at this
      rw [h2, h3]
      have hj' : j < u.x.length := by omega
      simpa [List.getD, hj, hj'] using this
    rw [e1]
    beta_reduce
    rw [e3, e2]
    obtain ⟨M, hM⟩ : ∃ M, deg = 2 * M + 1 := ⟨deg / 2, by omega⟩
    have e4 : fourier deg = fun z => Real.sin (((M + 1 : ℕ) : ℝ) * z) := by
      funext z
      unfold fourier
      rw [if_neg (by omega), if_pos hdeg]
      congr 3
      omega
    have := sin_on_grid (M + 1) j (by omega)
    rw [show 2 * (M + 1) + 1 = deg + 2 by omega] at this
    rw [e4]
    exact this
  have := hind (fun k => if k = deg then 1 else 0) (fun j hj => by
    rw [rowTimes, hc]
    refine Finset.sum_eq_zero fun i hi => ?_
    by_cases h : i = deg
    · subst h; rw [h0 j (by omega)]; simp
    · simp [h]) deg (by rw [hc]; omega)
  simp at this

/-- Concrete case: the two Fourier functions of degree at most 1, three points on `[0, 1]`: the column
`sin z` is zero at `-π`, `0`, `π`. -/
example : ∃ u, utfcInit 3 (.int 0) 1 "FS" (some 0) (some 1) "C++" (fun _ => 0) (fun _ => 0) = .ok u ∧
    ¬ IndependentColumns (u.Hjax 3 (fun j => u.x.getD j 0) 0 true) := by
  cases h : utfcInit 3 (.int 0) 1 "FS" (some 0) (some 1) "C++" (fun _ => 0) (fun _ => 0) with
  | ok u => exact ⟨u, rfl, C60_fourier_odd_fails _ 1 rfl _ 0 1 one_pos _ _ u h⟩
  | error e =>
    unfold utfcInit at h
    have h1 : utfcNC 1 (.int 0) = .ok [] := by rfl
    have h2 : Backend.parse "C++" = some .cpp := by decide
    have h3 : BasisName.parse "FS" = some .fs := by decide
    rw [h1, h2, h3] at h
    cases h

/-- Concrete case: five Legendre functions on `[0, 3]`, the third removed; at 0, 1, 2, 3, 4 the columns are independent, and
`x⁴` is represented exactly together with its derivatives. -/
example : let u : Utfc := ⟨10, 4, [2], .lep, .cpp, 0, 3, .poly .lep, 2 / 3, [], []⟩
    IndependentColumns (u.Hjax 5 (fun j => (j : ℝ)) 0 false) ∧
    ∃ ξ : ℕ → ℝ, ∀ (d n : ℕ) (xs : ℕ → ℝ), ∃ A, u.Hjax n xs d true = .ok A ∧ A.rows = n ∧
      ∀ j < n, rowTimes A ξ j = iteratedDeriv d (fun x => (X ^ 4 : ℝ[X]).eval x) (xs j) := by
  intro u
  refine ⟨C60_points u .lep rfl (by norm_num [u]) false (Or.inr (by constructor <;> simp [u])) 5 (by simp [u]) _
    fun i _ j _ h => by exact_mod_cast h, ?_⟩
  refine C60_represent u .lep rfl (by norm_num [u]) (X ^ 4) ?_
  rw [degree_X_pow]
  norm_num [u]

end Verif.Props
