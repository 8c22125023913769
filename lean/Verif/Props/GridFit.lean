import Verif.Lemmas.TensorFrame
import Verif.Props.MSpan
import Verif.Props.RoundedFit

/-! # The Chebyshev and Fourier matrices of an `mtfc` object on its own grid (C123) -/

namespace Verif.Props

open Verif Verif.Mem Verif.Py Verif.Np Verif.Spec Verif.Model Verif.Model.Py Verif.Lemmas

/-- **C123**, several variables: on the grid of an `mtfc` object with Chebyshev polynomials or Fourier functions, with enough points in each of the `dim` directions, the matrix
stretches every vector of coefficients by a factor between the root of the product of the `(nₖ - 1)/2` and that of the product of the `2 (nₖ - 1)`: its condition number is
at most `2 ^ dim`, whatever the degree and the functions removed. -/
theorem C123_grid (basis : String) (hb : basis = "CP" ∨ basis = "FS") (n : List ℕ) (nC : MNCArg) (deg dim : ℕ) (hdim : 1 ≤ dim) (backend : String) (x0 xf : Option (List ℝ)) (w : ℕ → ℕ → ℝ) (b : ℕ → ℝ)
    (u : Mtfc) (hu : mtfcInit n nC deg dim basis x0 xf backend w b = .ok u) (hn : ∀ v ∈ n, pointsNeeded basis deg ≤ v) (hx : ∀ k < dim, u.x0 k ≠ u.xf k) (full : Bool) :
    ∃ A, u.Hjax u.N (fun p k => (u.x.getD k []).getD p 0) (List.replicate dim 0) full = .ok A ∧ A.rows = n.prod ∧ ∀ ξ : ℕ → ℝ,
      (n.map fun v : ℕ => ((v : ℝ) - 1) / 2).prod * ∑ i ∈ Finset.range A.cols, ξ i ^ 2 ≤ ∑ j ∈ Finset.range n.prod, rowTimes A ξ j ^ 2 ∧
      ∑ j ∈ Finset.range n.prod, rowTimes A ξ j ^ 2 ≤ (n.map fun v : ℕ => 2 * ((v : ℝ) - 1)).prod * ∑ i ∈ Finset.range A.cols, ξ i ^ 2 := by
  obtain ⟨hlen, -, -, -, hN, hbn, -⟩ := mtfcInit_ok hu
  have hn2 : ∀ v ∈ n, 2 ≤ v := fun v hv => by
    have := hn v hv
    unfold pointsNeeded at this
    split_ifs at this with h
    · omega
    · exact (le_max_left _ _).trans this
  obtain ⟨-, -, -, -, hpt, -, hmap⟩ := C14_grid n nC deg dim hdim basis backend x0 xf w b u hu (fun v hv => ⟨by have := hn2 v hv; omega, fun _ => hn2 v hv⟩) hx
  obtain ⟨f, hbf, hf, hdom, hnf⟩ : ∃ f : NFamily, (u.basis = .cp ∧ f = .cp ∨ u.basis = .fs ∧ f = .fs) ∧ u.basis.mcls w b = .tensor f ∧
      (∀ a c x, f.cls.arg a c x = toBasis a c u.basis.zRange.1 u.basis.zRange.2 x) ∧
      (if u.basis = .fs then 2 * ((deg + 1) / 2) + 2 else max 2 (deg + 1)) = pointsNeeded basis deg := by
    rcases hb with rfl | rfl
    · have h6 : BasisName.parse "CP" = some .cp := by decide
      rw [h6] at hbn
      rw [← Option.some.inj hbn]
      refine ⟨.cp, Or.inl ⟨rfl, rfl⟩, rfl, fun _ _ _ => rfl, ?_⟩
      rw [pointsNeeded, if_neg (by decide), if_neg (by decide)]
    · have h6 : BasisName.parse "FS" = some .fs := by decide
      rw [h6] at hbn
      rw [← Option.some.inj hbn]
      refine ⟨.fs, Or.inr ⟨rfl, rfl⟩, rfl, fun _ _ _ => rfl, ?_⟩
      rw [pointsNeeded, if_pos rfl, if_pos rfl]
  obtain ⟨L, hL, hH⟩ := mtfc_tensor_H hdim hu hf full
  have hret := hH u.N (fun p k => (u.x.getD k []).getD p 0) (List.replicate dim 0) (by simp)
  obtain ⟨A, hA, hr, hc, -⟩ := id hret
  refine ⟨A, hA, by rw [hr, hN], fun ξ => ?_⟩
  classical
  subst hlen
  have hget : ∀ l : Fin n.length, n.getD l 0 = n[(l : ℕ)] := fun l => by simp [List.getD]
  have hnl : ∀ l : Fin n.length, 2 ≤ n.getD l 0 ∧ pointsNeeded basis deg ≤ n.getD l 0 := fun l => by
    rw [hget]; exact ⟨hn2 _ (List.getElem_mem l.2), hn _ (List.getElem_mem l.2)⟩
  -- the coefficients as a function of the multi-index
  obtain ⟨ζ, hζ⟩ : ∃ ζ : (Fin n.length → ℕ) → ℝ, ζ = fun α => if α ∈ L then ξ (L.idxOf α) else 0 := ⟨_, rfl⟩
  have hξ : ∀ i, ∀ hi : i < L.length, ξ i = ζ L[i] := fun i hi => by
    rw [hζ]; beta_reduce; rw [if_pos (List.getElem_mem hi), hL.nodup.idxOf_getElem i hi]
  have hlt : ∀ α ∈ L, ∀ l, α l < deg + 1 := fun α hα l => by
    have h1 := (hL.mem α).mp hα
    exact lt_of_le_of_lt (Finset.single_le_sum (fun _ _ => Nat.zero_le _) (Finset.mem_univ l)) h1.1
  -- sums over the columns are sums over all multi-indices
  have hbox : ∀ g : (Fin n.length → ℕ) → ℝ, (∀ α, α ∉ L → g α = 0) → ∑ α ∈ L.toFinset, g α = ∑ β : Fin n.length → Fin (deg + 1), g fun l => β l := by
    intro g hg
    have hinj : Function.Injective fun (β : Fin n.length → Fin (deg + 1)) (l : Fin n.length) => (β l : ℕ) := fun β γ h => by
      funext l
      exact Fin.ext (congrFun h l)
    rw [← Finset.sum_image (s := Finset.univ) (f := g) fun i _ j _ h => hinj h]
    refine Finset.sum_subset (fun α hα => ?_) fun α _ hα => hg α fun h => hα (List.mem_toFinset.mpr h)
    rw [Finset.mem_image]
    exact ⟨fun l => ⟨α l, hlt α (List.mem_toFinset.mp hα) l⟩, Finset.mem_univ _, rfl⟩
  have hnorm : ∑ i ∈ Finset.range A.cols, ξ i ^ 2 = ∑ β : Fin n.length → Fin (deg + 1), ζ (fun l => β l) ^ 2 := by
    rw [← hbox (fun α => ζ α ^ 2) fun α hα => by rw [hζ]; beta_reduce; rw [if_neg hα]; ring, hc, Finset.sum_range, List.sum_toFinset _ hL.nodup,
      ← Fin.sum_univ_fun_getElem]
    exact Finset.sum_congr rfl fun i _ => by rw [hξ i i.2]
  -- the points are the grid
  have hp : ∀ ι : (l : Fin n.length) → Fin (n.getD l 0), ∃ p, p < n.prod ∧ ∀ l : Fin n.length, (u.z.getD l []).getD p 0 = zPoint u.basis (n.getD l 0) (ι l) := by
    intro ι
    obtain ⟨p, ⟨hp, hpz⟩, -⟩ := hpt (fun k => if hk : k < n.length then ι ⟨k, hk⟩ else 0) (fun k hk => by
      simp only [hk, dif_pos]; exact (ι ⟨k, hk⟩).2)
    refine ⟨p, hp, fun l => ?_⟩
    have := hpz l l.2
    simpa using this
  choose P hP1 hP2 using hp
  have hPinj : Function.Injective P := by
    intro ι κ h
    funext l
    have h1 := hP2 ι l
    rw [h, hP2 κ l] at h1
    rcases lt_trichotomy (ι l : ℕ) (κ l) with h2 | h2 | h2
    · exact absurd h1 (zPoint_lt u.basis h2 (κ l).2).ne'
    · exact Fin.ext h2
    · exact absurd h1 (zPoint_lt u.basis h2 (ι l).2).ne
  have himg : Finset.univ.image P = Finset.range n.prod := by
    refine Finset.eq_of_subset_of_card_le (fun p hp => ?_) ?_
    · obtain ⟨ι, -, rfl⟩ := Finset.mem_image.mp hp
      exact Finset.mem_range.mpr (hP1 ι)
    · rw [Finset.card_range, Finset.card_image_of_injective _ hPinj, Finset.card_univ, Fintype.card_pi]
      simp only [Fintype.card_fin, hget]
      rw [Fin.prod_univ_getElem]
  have hrows : ∑ j ∈ Finset.range n.prod, rowTimes A ξ j ^ 2 = ∑ ι : (l : Fin n.length) → Fin (n.getD l 0),
      (∑ β : Fin n.length → Fin (deg + 1), (∏ l, f.cls.fn (β l) (zPoint u.basis (n.getD l 0) (ι l))) * ζ fun l => β l) ^ 2 := by
    rw [← himg, Finset.sum_image fun i _ j _ h => hPinj h]
    refine Finset.sum_congr rfl fun ι _ => ?_
    congr 1
    rw [rowTimes_labels hA hret hL.nodup ζ ξ hξ (by rw [hN]; exact hP1 ι)]
    rw [← hbox (fun α => (∏ l, f.cls.fn (α l) (zPoint u.basis (n.getD l 0) (ι l))) * ζ α) fun α hα => by
      rw [hζ]; beta_reduce; rw [if_neg hα, mul_zero]]
    refine Finset.sum_congr rfl fun α _ => ?_
    congr 1
    have ht : f.cls.tensor (fun k : Fin n.length => u.x0 k) (fun k => u.xf k) α =
      fun x => ∏ l : Fin n.length, f.cls.basis (u.x0 l) (u.xf l) (α l) (x l) := rfl
    rw [ht, mixedPartial_tensor]
    refine Finset.prod_congr rfl fun l _ => ?_
    have h0 : (List.replicate n.length 0).getD (l : ℕ) 0 = 0 := by simp
    rw [h0, iteratedDeriv_zero]
    simp only [UniClass.basis]
    rw [hdom, hmap l l.2 (P ι) (hP1 ι), hP2 ι l]
  have key := tensor_frame (deg + 1) n.length (fun l => n.getD l 0) (fun l j k => f.cls.fn k (zPoint u.basis (n.getD l 0) j))
    (fun l => ((n.getD l 0 : ℕ) - 1 : ℝ) / 2) (fun l => 2 * ((n.getD l 0 : ℕ) - 1 : ℝ))
    (fun l => by have : (2 : ℝ) ≤ (n.getD l 0 : ℕ) := by exact_mod_cast (hnl l).1
                 linarith)
    (fun l => by have : (2 : ℝ) ≤ (n.getD l 0 : ℕ) := by exact_mod_cast (hnl l).1
                 linarith)
    (fun l ξ => uni_frame u.basis f hbf (by rw [hnf]; exact (hnl l).2) (fun i : Fin (deg + 1) => (i : ℕ)) (fun i => i.2) (fun i j h => Fin.ext h) ξ) fun β => ζ fun l => β l
  rw [hrows, hnorm, ← Fin.prod_univ_fun_getElem, ← Fin.prod_univ_fun_getElem]
  simp only [hget] at key ⊢
  exact key

/-- Concrete case: degree 2 in two variables on a 3 × 4 grid, one function removed per dimension. -/
example (w : ℕ → ℕ → ℝ) (b : ℕ → ℝ) : ∃ u : Mtfc,
    mtfcInit [3, 4] (.list [.int 1, .int 1]) 2 2 "CP" (some [0, 0]) (some [1, 2]) "C++" w b = .ok u ∧
    ∃ A, u.Hjax u.N (fun p k => (u.x.getD k []).getD p 0) (List.replicate 2 0) false = .ok A ∧ A.rows = 12 ∧ ∀ ξ : ℕ → ℝ,
      3 / 2 * ∑ i ∈ Finset.range A.cols, ξ i ^ 2 ≤ ∑ j ∈ Finset.range 12, rowTimes A ξ j ^ 2 ∧
      ∑ j ∈ Finset.range 12, rowTimes A ξ j ^ 2 ≤ 24 * ∑ i ∈ Finset.range A.cols, ξ i ^ 2 := by
  obtain ⟨u, hu, h0, hf⟩ := mtfcInit_succeeds [3, 4] (.list [.int 1, .int 1]) 2 2 (by omega) "CP" "C++" [0, 0] [1, 2] w b
    rfl rfl rfl (by simp) .cp rfl .cpp rfl (1, [[0], [0]], []) (by decide)
  have hx : ∀ k < 2, u.x0 k ≠ u.xf k := by
    intro k hk
    rw [h0, hf]
    interval_cases k <;> simp [vecOf]
  obtain ⟨A, h1, h2, h3⟩ := C123_grid "CP" (Or.inl rfl) _ _ _ _ (by omega) _ _ _ w b u hu (by simp [pointsNeeded]) hx false
  refine ⟨u, hu, A, h1, h2, fun ξ => ?_⟩
  have h4 := h3 ξ
  have e : ([3, 4] : List ℕ).prod = 12 := by rfl
  have e1 : (([3, 4] : List ℕ).map fun v : ℕ => ((v : ℝ) - 1) / 2).prod = 3 / 2 := by norm_num
  have e2 : (([3, 4] : List ℕ).map fun v : ℕ => 2 * ((v : ℝ) - 1)).prod = 24 := by norm_num
  rw [e, e1, e2] at h4
  exact h4

end Verif.Props
