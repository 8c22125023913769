import Verif.Props.PdeExample
import Verif.Props.PdeError

/-!
# C100: which functions the programs reach with polynomials
-/

namespace Verif.Props

open Polynomial Verif Verif.Mem Verif.Py Verif.Np Verif.Spec Verif.Model Verif.Model.Py Verif.Model.LSq Verif.Model.Prog
open scoped ContDiff

theorem eval_smooth (p : ℝ[X]) : ContDiff ℝ ∞ fun x : ℝ => p.eval x := by
  simpa using p.contDiff_aeval (𝕜 := ℝ) ∞

theorem iteratedDeriv_eval (p : ℝ[X]) (d : ℕ) (x : ℝ) : iteratedDeriv d (fun x : ℝ => p.eval x) x = (derivative^[d] p).eval x := by
  rw [iteratedDeriv_poly]

/-- Nothing of a product remains when the weights of the first step reproduce its first factor. -/
theorem hom1_product_zero {xs : List SideCond} {a : ℕ} (h : Reproduces xs a) {p q : ℝ[X]} (hp : p.natDegree ≤ a) :
    hom1 xs (fun x y => p.eval x * q.eval y) = fun _ _ => 0 := by
  funext x y
  have e : ∀ c : SideCond, seenX c (fun x y => p.eval x * q.eval y) y =
      (c.terms.map fun t => t.1 * (derivative^[t.2.1] p).eval t.2.2).sum * q.eval y := by
    intro c
    unfold seenX
    rw [← List.sum_map_mul_right]
    refine congrArg List.sum (List.map_congr_left fun t _ => ?_)
    rw [← iter_dx_apply]
    simp only [mul_comm (eval _ p)]
    rw [iteratedDeriv_const_mul_field, iteratedDeriv_eval]
    ring
  unfold hom1
  simp only [e, ← mul_assoc]
  rw [List.sum_map_mul_right, ← h p hp x, sub_self]

/-- The same for the second step and the second factor. -/
theorem homP_product_zero {P : TwoStep} (hx : SmoothSides P.xs) {a : ℕ} (h : Reproduces P.ys a) {p q : ℝ[X]} (hq : q.natDegree ≤ a) :
    homP P (fun x y => p.eval x * q.eval y) = fun _ _ => 0 := by
  obtain ⟨A, hA⟩ : ∃ A : ℝ → ℝ, A = fun x => p.eval x - (P.xs.map fun c => c.weight x *
      (c.terms.map fun t => t.1 * (derivative^[t.2.1] p).eval t.2.2).sum).sum := ⟨_, rfl⟩
  have e1 : hom1 P.xs (fun x y => p.eval x * q.eval y) = fun x y => A x * q.eval y := by
    funext x y
    have e : ∀ c : SideCond, seenX c (fun x y => p.eval x * q.eval y) y =
        (c.terms.map fun t => t.1 * (derivative^[t.2.1] p).eval t.2.2).sum * q.eval y := by
      intro c
      unfold seenX
      rw [← List.sum_map_mul_right]
      refine congrArg List.sum (List.map_congr_left fun t _ => ?_)
      rw [← iter_dx_apply]
      simp only [mul_comm (eval _ p)]
      rw [iteratedDeriv_const_mul_field, iteratedDeriv_eval]
      ring
    unfold hom1
    simp only [e, ← mul_assoc]
    rw [List.sum_map_mul_right, hA]
    ring
  funext x y
  have e : ∀ c : SideCond, seenY c (fun x y => A x * q.eval y) x =
      A x * (c.terms.map fun t => t.1 * (derivative^[t.2.1] q).eval t.2.2).sum := by
    intro c
    unfold seenY
    rw [← List.sum_map_mul_left]
    refine congrArg List.sum (List.map_congr_left fun t _ => ?_)
    rw [iter_dy_sep]
    beta_reduce
    rw [iteratedDeriv_eval]
    ring
  unfold homP
  rw [e1]
  simp only [e, mul_left_comm _ (A x)]
  rw [List.sum_map_mul_left, ← h q hq y, sub_self]

theorem homP_of_hom1_zero {P : TwoStep} {g : ℝ → ℝ → ℝ} (h : hom1 P.xs g = fun _ _ => 0) : homP P g = fun _ _ => 0 := by
  funext x y
  unfold homP
  rw [h]
  have : ∀ c : SideCond, seenY c (fun _ _ => 0) x = 0 := fun c => congrFun (congrFun (seenY_linOp c).zero x) 0
  simp [this]

/-- **C100, what the programs reach.** Chebyshev or Legendre polynomials in two variables, both backends, any removed functions (given as numbers or
lists, one for each variable), any domain. The free functions of the object are polynomials of total degree at most `deg`. If the weights of one of
the two steps reproduce the removed functions of that variable, then for every such polynomial there are coefficients that give the
same expression: by removing functions nothing is lost. -/
theorem C100_reach (n : List ℕ) (e0 e1 : NCEntry) (hone : ∀ e ∈ [e0, e1], ∀ v, e ≠ .arr [v]) (deg : ℕ) (basis backend : String)
    (hb : basis = "CP" ∨ basis = "LeP") (x0 xf : Option (List ℝ)) (w : ℕ → ℕ → ℝ) (b : ℕ → ℝ) (u : Mtfc)
    (hu : mtfcInit n (.list [e0, e1]) deg 2 basis x0 xf backend w b = .ok u) (hx : ∀ k < 2, u.x0 k ≠ u.xf k) (P : TwoStep)
    (hPx : SmoothSides P.xs) (hPy : SmoothSides P.ys) :
    (∀ xi, ∃ R : MvPolynomial (Fin 2) ℝ, R.totalDegree ≤ deg ∧ Free u xi (evalXY R)) ∧
      ((∀ a, Asks e0 a → Reproduces P.xs a) ∨ (∀ a, Asks e1 a → Reproduces P.ys a) →
        ∀ R : MvPolynomial (Fin 2) ℝ, R.totalDegree ≤ deg → ∃ xi g, Free u xi g ∧ full P g = full P (evalXY R)) := by
  obtain ⟨-, -, -, hdeg, -, hbn, -, -, ⟨rows, hrem, -⟩, -⟩ := mtfcInit_ok hu
  obtain ⟨f, fp, hf, hfp⟩ : ∃ (f : NFamily) (fp : PolyFamily), u.basis.mcls w b = .tensor f ∧ f.cls = .poly fp := by
    rcases hb with rfl | rfl
    · have h6 : BasisName.parse "CP" = some .cp := by decide
      rw [h6] at hbn
      rw [← Option.some.inj hbn]
      exact ⟨.cp, .cp, rfl, rfl⟩
    · have h6 : BasisName.parse "LeP" = some .lep := by decide
      rw [h6] at hbn
      rw [← Option.some.inj hbn]
      exact ⟨.lep, .lep, rfl, rfl⟩
  obtain ⟨L, hnd, hmem, hH⟩ := C20_columns_partial n [e0, e1] hone deg 2 (by omega) basis backend x0 xf w b u hu f hf
  obtain ⟨φ, hφ, hφd⟩ := basis_poly fp (u.x0 0) (u.xf 0) (hx 0 (by omega))
  obtain ⟨ψ, hψ, hψd⟩ := basis_poly fp (u.x0 1) (u.xf 1) (hx 1 (by omega))
  have hnat : ∀ {r : ℝ[X]} {k : ℕ}, r.degree < (k + 1 : ℕ) → r.natDegree ≤ k := by
    intro r k h
    by_cases h0 : r = 0
    · simp [h0]
    · have := (natDegree_lt_iff_degree_lt h0).mpr h
      omega
  have htens : ∀ α : Fin 2 → ℕ, f.cls.tensor (fun k : Fin 2 => u.x0 k) (fun k => u.xf k) α =
      fun v => ∏ k : Fin 2, (fun t => (![φ (α 0), ψ (α 1)] k).eval t) (v k) := by
    intro α
    funext v
    simp [UniClass.tensor, hfp, Fin.prod_univ_two, hφ, hψ, UniClass.basis, UniClass.fn, UniClass.arg]
  have hfree : ∀ xi : List ℝ, Free u xi fun x y => ∑ i ∈ Finset.range L.length,
      coef xi i * ((φ (L.getD i 0 0)).eval x * (ψ (L.getD i 0 1)).eval y) := by
    intro xi N X Y
    obtain ⟨A, hA, -, hcols, hv⟩ := hH N (points2 X Y) [0, 0] (by simp)
    refine ⟨A, hA, fun j hj => ?_⟩
    unfold npDot
    rw [hcols]
    refine Finset.sum_congr rfl fun i hi => ?_
    have hi := Finset.mem_range.mp hi
    rw [hv j hj i hi, mul_comm]
    congr 1
    beta_reduce
    have e1 : L.getD i 0 = L[i] := by simp [List.getD, hi]
    rw [htens, e1]
    have hz : (fun k : Fin 2 => [0, 0].getD (k : ℕ) 0) = fun _ => 0 := by
      funext k
      fin_cases k <;> rfl
    rw [hz, mixedPartial_zero]
    simp [points2, Fin.prod_univ_two]
  refine ⟨fun xi => ⟨sumXY (Finset.range L.length) (coef xi) (fun i => φ (L.getD i 0 0)) fun i => ψ (L.getD i 0 1),
    totalDegree_sumXY fun i hi => ?_, ?_⟩, fun hrep R hR => ?_⟩
  · have hi := Finset.mem_range.mp hi
    have h1 := (hmem (L.getD i 0)).mp (by simp [List.getD, hi])
    rw [Fin.sum_univ_two] at h1
    exact (Nat.add_le_add (hnat (hφd _)) (hnat (hψd _))).trans h1.1
  · rw [evalXY_sumXY]
    exact hfree xi
  · obtain ⟨S, hS⟩ : ∃ S : Finset (Fin 2 → ℕ), ∀ α, α ∈ S ↔ ∑ l, α l < deg + 1 := by
      refine ⟨(multiColumns (deg + 1) (fun _ : Fin 2 => ([] : List ℤ)) true).toFinset, fun α => ?_⟩
      rw [List.mem_toFinset, (multiColumns_order (deg + 1) (fun _ : Fin 2 => ([] : List ℤ)) true).mem]
      simp [Admissible]
    obtain ⟨ζ, hζ⟩ := tensor_represent (m := deg + 1) fp (fun k : Fin 2 => u.x0 k) (fun k => u.xf k) (fun l => hx l l.2) S hS R (by omega)
    have hsub : L.toFinset ⊆ S := by
      intro α hα
      rw [hS]
      have := ((hmem α).mp (List.mem_toFinset.mp hα)).1
      omega
    have hsm : ∀ α : Fin 2 → ℕ, Smooth2 fun x y => ζ α * ((φ (α 0)).eval x * (ψ (α 1)).eval y) :=
      fun α => ((Smooth2.of_left (eval_smooth _)).mul (.of_right (eval_smooth _))).smul _
    have hfun : evalXY R = fun x y => (∑ α ∈ L.toFinset, ζ α * ((φ (α 0)).eval x * (ψ (α 1)).eval y)) +
        ∑ α ∈ S \ L.toFinset, ζ α * ((φ (α 0)).eval x * (ψ (α 1)).eval y) := by
      funext x y
      rw [add_comm, Finset.sum_sdiff hsub, evalXY, hζ]
      refine Finset.sum_congr rfl fun α _ => ?_
      rw [mul_comm]
      simp [Fin.prod_univ_two, hφ, hψ]
    obtain ⟨xi, hl, hxi⟩ := exists_list L.length fun i => ζ (L.getD i 0)
    refine ⟨xi, _, hfree xi, ?_⟩
    have hkept : (fun x y => ∑ i ∈ Finset.range L.length, coef xi i * ((φ (L.getD i 0 0)).eval x * (ψ (L.getD i 0 1)).eval y)) =
        fun x y => ∑ α ∈ L.toFinset, ζ α * ((φ (α 0)).eval x * (ψ (α 1)).eval y) := by
      funext x y
      have hinj : Function.Injective (fun i : Fin L.length => L[i]) := by
        intro i j hij
        exact Fin.ext ((hnd.getElem_inj_iff).mp hij)
      have himg : L.toFinset = Finset.univ.image (fun i : Fin L.length => L[i]) := by
        ext α
        simp only [List.mem_toFinset, Finset.mem_image, Finset.mem_univ, true_and]
        constructor
        · intro h
          obtain ⟨i, hi, rfl⟩ := List.getElem_of_mem h
          exact ⟨⟨i, hi⟩, rfl⟩
        · rintro ⟨i, rfl⟩
          exact List.getElem_mem i.2
      rw [himg, Finset.sum_image (fun i _ j _ h => hinj h), Finset.sum_range]
      refine Finset.sum_congr rfl fun i _ => ?_
      have e1 : L.getD i 0 = L[i] := by simp [List.getD]
      rw [hxi i i.2, e1]
    rw [hkept, hfun, full_add hPx (.sum _ fun α _ => hsm α) (.sum _ fun α _ => hsm α), (homP_linOp hPx hPy).sum _ fun α _ => hsm α]
    funext x y
    beta_reduce
    rw [Finset.sum_eq_zero (s := S \ L.toFinset), add_zero]
    intro α hα
    obtain ⟨hαS, hαL⟩ := Finset.mem_sdiff.mp hα
    have h1 : ¬ ∃ k : Fin 2, ¬ Asks ([e0, e1].getD k (.int 0)) (α k) := by
      intro h
      refine hαL (List.mem_toFinset.mpr ((hmem α).mpr ⟨?_, h⟩))
      have := (hS α).mp hαS
      omega
    push Not at h1
    have a0 : Asks e0 (α 0) := h1 0
    have a1 : Asks e1 (α 1) := h1 1
    rw [(homP_linOp hPx hPy).smul ((Smooth2.of_left (eval_smooth _)).mul (.of_right (eval_smooth _)))]
    have : homP P (fun x y => (φ (α 0)).eval x * (ψ (α 1)).eval y) = fun _ _ => 0 := by
      rcases hrep with h | h
      · exact homP_of_hom1_zero (hom1_product_zero (h _ a0) (hnat (hφd _)))
      · exact homP_product_zero hPx (h _ a1) (hnat (hψd _))
    rw [this]
    exact mul_zero _

end Verif.Props
