import Verif.Lemmas.PdeProgram
import Verif.Props.QuadNewton
import Verif.Props.Mtfc
import Verif.Props.Pde

/-!
# C99: the nonlinear partial differential equation of the tests, from the constructor to the solution
-/

namespace Verif.Props

open Polynomial Verif Verif.Mem Verif.Py Verif.Np Verif.Spec Verif.Model Verif.Model.Py Verif.Model.LSq Verif.Model.Prog

/-- A one-dimensional array of integers as `nC` is treated like the list of its entries. -/
theorem mtfcInit_array1 {n : List ℕ} {l : List ℤ} {deg dim : ℕ} {basis : String} (hb : basis = "CP" ∨ basis = "LeP")
    {x0 xf : Option (List ℝ)} {backend : String} {w : ℕ → ℕ → ℝ} {b : ℕ → ℝ} :
    mtfcInit n (.array1 l) deg dim basis x0 xf backend w b = mtfcInit n (.list (l.map .int)) deg dim basis x0 xf backend w b := by
  have h : ∀ bn : BasisName, (bn = .cp ∨ bn = .lep) → mtfcRemoved deg dim bn (.array1 l) = mtfcRemoved deg dim bn (.list (l.map .int)) := by
    rintro bn (rfl | rfl) <;> rfl
  have h1 : BasisName.parse "CP" = some .cp := by decide
  have h2 : BasisName.parse "LeP" = some .lep := by decide
  unfold mtfcInit
  rcases hb with rfl | rfl
  · rw [h1]
    cases Backend.parse backend with
    | none => rfl
    | some be => simp only [h _ (Or.inl rfl)]
  · rw [h2]
    cases Backend.parse backend with
    | none => rfl
    | some be => simp only [h _ (Or.inr rfl)]

/-- The basis functions of the object as products `p i (x) q i (y)`. -/
structure PdeBasis (u : Mtfc) (m : ℕ) (p q : ℕ → ℝ[X]) : Prop where
  pos : m ≠ 0
  degree : ∀ i < m, (p i).natDegree + (q i).natDegree ≤ u.deg
  H : ∀ d e n X Y, ∃ A, u.Hjax n (points2 X Y) [d, e] false = .ok A ∧ A.cols = m ∧ ∀ xi, ∀ j < n, npDot A xi j =
    ∑ i ∈ Finset.range m, coef xi i * ((derivative^[d] (p i)).eval (X j) * (derivative^[e] (q i)).eval (Y j))
  represent : ∀ P : MvPolynomial (Fin 2) ℝ, P.totalDegree ≤ u.deg → ∃ y : ℕ → ℝ, ∀ k,
    meets k (evalXY P) = tz k (fun y => y) (Finset.range m) y (fun i => sideX (p i)) fun i => sideY (q i)

theorem pdeBasis {n : List ℕ} {c0 c1 : ℤ} (hc : c0 ≤ 2 ∨ c1 ≤ 2) {deg : ℕ} {basis backend : String} (hb : basis = "CP" ∨ basis = "LeP")
    {x0 xf : Option (List ℝ)} {w : ℕ → ℕ → ℝ} {b : ℕ → ℝ} {u : Mtfc}
    (hu : mtfcInit n (.array1 [c0, c1]) deg 2 basis x0 xf backend w b = .ok u) (hx : ∀ k < 2, u.x0 k ≠ u.xf k) :
    ∃ m p q, PdeBasis u m p q := by
  have hone : ∀ e ∈ [NCEntry.int c0, .int c1], ∀ v, e ≠ .arr [v] := by simp
  rw [mtfcInit_array1 hb] at hu
  have hu : mtfcInit n (.list [.int c0, .int c1]) deg 2 basis x0 xf backend w b = .ok u := hu
  obtain ⟨-, -, -, hdeg, -, hbn, -, -, ⟨rows, hrem, -⟩, -⟩ := mtfcInit_ok hu
  obtain ⟨f, fp, hf, hfp, hbn'⟩ : ∃ (f : NFamily) (fp : PolyFamily), u.basis.mcls w b = .tensor f ∧ f.cls = .poly fp ∧
      (u.basis = .cp ∨ u.basis = .lep) := by
    rcases hb with rfl | rfl
    · have h6 : BasisName.parse "CP" = some .cp := by decide
      rw [h6] at hbn
      rw [← Option.some.inj hbn]
      exact ⟨.cp, .cp, rfl, rfl, Or.inl rfl⟩
    · have h6 : BasisName.parse "LeP" = some .lep := by decide
      rw [h6] at hbn
      rw [← Option.some.inj hbn]
      exact ⟨.lep, .lep, rfl, rfl, Or.inr rfl⟩
  obtain ⟨L, hnd, hmem, hH⟩ := C20_columns_partial n [.int c0, .int c1] hone deg 2 (by omega) basis backend x0 xf w b u hu f hf
  have hc0 : c0 ≤ deg := by
    by_contra h
    have h2 := (C20_list_partial deg 2 [.int c0, .int c1] hone).2.1 ⟨.int c0, by simp, by simpa [count] using h⟩
    rcases hbn' with e | e <;> (rw [e] at hrem; simp only [mtfcRemoved, h2] at hrem; cases hrem)
  obtain ⟨φ, hφ, hφd⟩ := basis_poly fp (u.x0 0) (u.xf 0) (hx 0 (by omega))
  obtain ⟨ψ, hψ, hψd⟩ := basis_poly fp (u.x0 1) (u.xf 1) (hx 1 (by omega))
  have hnat : ∀ {r : ℝ[X]} {k : ℕ}, r.degree < (k + 1 : ℕ) → r.natDegree ≤ k := by
    intro r k h
    by_cases h0 : r = 0
    · simp [h0]
    · have := (natDegree_lt_iff_degree_lt h0).mpr h
      omega
  have htens : ∀ α : Fin 2 → ℕ, f.cls.tensor (fun k : Fin 2 => u.x0 k) (fun k => u.xf k) α =
      fun v => ∏ k : Fin 2, (fun t => (![φ (α 0), ψ (α 1)] k).eval t) (v k) := by
    intro α
    funext v
    simp [UniClass.tensor, hfp, Fin.prod_univ_two, hφ, hψ, UniClass.basis, UniClass.fn, UniClass.arg]
  refine ⟨L.length, fun i => φ (L.getD i 0 0), fun i => ψ (L.getD i 0 1), ?_, ?_, ?_, ?_⟩
  · have : (![deg, 0] : Fin 2 → ℕ) ∈ L := by
      rw [hmem]
      refine ⟨by simp [Fin.sum_univ_two], 0, ?_⟩
      simpa [Asks] using hc0
    exact (List.length_pos_of_mem this).ne'
  · intro i hi
    have h1 := (hmem (L.getD i 0)).mp (by simp [List.getD, hi])
    rw [Fin.sum_univ_two] at h1
    rw [hdeg]
    exact (Nat.add_le_add (hnat (hφd _)) (hnat (hψd _))).trans h1.1
  · intro d e N X Y
    obtain ⟨A, hA, -, hcols, hv⟩ := hH N (points2 X Y) [d, e] (by simp)
    refine ⟨A, hA, hcols, fun xi j hj => ?_⟩
    unfold npDot
    rw [hcols]
    refine Finset.sum_congr rfl fun i hi => ?_
    have hi := Finset.mem_range.mp hi
    rw [hv j hj i hi, mul_comm]
    congr 1
    have e1 : L.getD i 0 = L[i] := by simp [List.getD, hi]
    beta_reduce
    rw [htens, mixedPartial_tensor _ fun (k : Fin 2) t => (![φ (L[i] 0), ψ (L[i] 1)] k).eval t, e1]
    simp [points2, Fin.prod_univ_two, iteratedDeriv_poly]
  · intro P hP
    obtain ⟨S, hS⟩ : ∃ S : Finset (Fin 2 → ℕ), ∀ α, α ∈ S ↔ ∑ l, α l < deg + 1 := by
      refine ⟨(multiColumns (deg + 1) (fun _ : Fin 2 => ([] : List ℤ)) true).toFinset, fun α => ?_⟩
      rw [List.mem_toFinset, (multiColumns_order (deg + 1) (fun _ : Fin 2 => ([] : List ℤ)) true).mem]
      simp [Admissible]
    obtain ⟨ζ, hζ⟩ := tensor_represent (m := deg + 1) fp (fun k : Fin 2 => u.x0 k) (fun k => u.xf k) (fun l => hx l l.2) S hS P
      (by omega)
    have hfun : evalXY P = fun x y => ∑ α ∈ S, ζ α * ((φ (α 0)).eval x * (ψ (α 1)).eval y) := by
      funext x y
      rw [evalXY, hζ]
      refine Finset.sum_congr rfl fun α _ => ?_
      rw [mul_comm]
      simp [Fin.prod_univ_two, hφ, hψ]
    refine ⟨fun i => ζ (L.getD i 0), fun k => ?_⟩
    rw [hfun, meets_sum]
    funext x y
    unfold tz
    refine congrArg _ ?_
    have hsub : L.toFinset ⊆ S := by
      intro α hα
      rw [hS]
      have := ((hmem α).mp (List.mem_toFinset.mp hα)).1
      omega
    rw [← Finset.sum_subset hsub, Finset.sum_range]
    · have hinj : Function.Injective (fun i : Fin L.length => L[i]) := by
        intro i j hij
        exact Fin.ext ((hnd.getElem_inj_iff).mp hij)
      have himg : L.toFinset = Finset.univ.image (fun i : Fin L.length => L[i]) := by
        ext α
        simp only [List.mem_toFinset, Finset.mem_image, Finset.mem_univ, true_and]
        constructor
        · intro h
          obtain ⟨i, hi, rfl⟩ := List.getElem_of_mem h
          exact ⟨⟨i, hi⟩, rfl⟩
        · rintro ⟨i, rfl⟩
          exact List.getElem_mem i.2
      rw [himg, Finset.sum_image (fun i _ j _ h => hinj h)]
      refine Finset.sum_congr rfl fun i _ => ?_
      have e1 : L.getD i 0 = L[i] := by simp [List.getD]
      beta_reduce
      rw [e1]
    · intro α hα hnot
      have h1 : ¬ ∃ k : Fin 2, ¬ Asks ([NCEntry.int c0, .int c1].getD k (.int 0)) (α k) := by
        intro h
        refine hnot (List.mem_toFinset.mpr ((hmem α).mpr ⟨?_, h⟩))
        have := (hS α).mp hα
        omega
      push Not at h1
      have a0 : (α 0 : ℤ) < c0 := by simpa [Asks] using h1 0
      have a1 : (α 1 : ℤ) < c1 := by simpa [Asks] using h1 1
      beta_reduce
      rcases hc with h | h
      · rw [sideX_affine ((hφd _).trans_le (by exact_mod_cast (by omega : α 0 + 1 ≤ 2)))]
        simp
      · rw [sideY_affine ((hψd _).trans_le (by exact_mod_cast (by omega : α 1 + 1 ≤ 2)))]
        simp

variable {u : Mtfc} {m : ℕ} {p q : ℕ → ℝ[X]}

theorem z1D_ok (B : PdeBasis u m p q) (xi : List ℝ) (d e n : ℕ) (X Y : ℕ → ℝ) : ∃ v, z1D u xi d e n X Y = .ok v ∧ ∀ j < n, v j =
    ∑ i ∈ Finset.range m, coef xi i * ((derivative^[d] (sideX (p i))).eval (X j) * (derivative^[e] (q i)).eval (Y j)) := by
  obtain ⟨A, hA, -, vA⟩ := B.H d e n X Y
  obtain ⟨A0, hA0, -, vA0⟩ := B.H 0 e n (fun _ => 0) Y
  obtain ⟨A1, hA1, -, vA1⟩ := B.H 0 e n (fun _ => 1) Y
  refine ⟨_, by unfold z1D; rw [hA, hA0, hA1]; rfl, fun j hj => ?_⟩
  rw [vA xi j hj, vA0 xi j hj, vA1 xi j hj, Finset.mul_sum, Finset.mul_sum, ← Finset.sum_sub_distrib, ← Finset.sum_sub_distrib]
  refine Finset.sum_congr rfl fun i _ => ?_
  rw [sideX_deriv]
  simp only [Function.iterate_zero, id]
  ring

/-- The factor of the boundary function in `y` and its derivatives. -/
noncomputable def etaD (e : ℕ) (y : ℝ) : ℝ :=
  match e with
  | 0 => y
  | 1 => 1
  | _ => 0

theorem zD_ok (B : PdeBasis u m p q) (k : ℝ → ℝ) (xi : List ℝ) (d e n : ℕ) (X Y : ℕ → ℝ) : ∃ v, zD u k xi d e n X Y = .ok v ∧
    ∀ j < n, v j = tz (iteratedDeriv d k) (etaD e) (Finset.range m) (coef xi) (fun i => derivative^[d] (sideX (p i)))
      (fun i => derivative^[e] (sideY (q i))) (X j) (Y j) := by
  match e with
  | 0 =>
    obtain ⟨a, ha, va⟩ := z1D_ok B xi d 0 n X Y
    obtain ⟨a0, ha0, va0⟩ := z1D_ok B xi d 0 n X (fun _ => 0)
    obtain ⟨a1, ha1, va1⟩ := z1D_ok B xi d 1 n X (fun _ => 1)
    refine ⟨_, by unfold zD; rw [ha, ha0, ha1]; rfl, fun j hj => ?_⟩
    rw [va j hj, va0 j hj, va1 j hj]
    unfold tz
    rw [mul_sub, Finset.mul_sum, ← Finset.sum_sub_distrib, ← add_sub_assoc, add_comm, add_sub_assoc, ← Finset.sum_sub_distrib]
    refine congrArg _ (Finset.sum_congr rfl fun i _ => ?_)
    simp [sideY]
    ring
  | 1 =>
    obtain ⟨a, ha, va⟩ := z1D_ok B xi d 1 n X Y
    obtain ⟨a1, ha1, va1⟩ := z1D_ok B xi d 1 n X (fun _ => 1)
    refine ⟨_, by unfold zD; rw [ha, ha1]; rfl, fun j hj => ?_⟩
    rw [va j hj, va1 j hj]
    unfold tz
    rw [← add_sub_assoc, add_comm, add_sub_assoc, ← Finset.sum_sub_distrib]
    simp only [etaD, one_mul]
    refine congrArg _ (Finset.sum_congr rfl fun i _ => ?_)
    simp [sideY]
    ring
  | e + 2 =>
    obtain ⟨a, ha, va⟩ := z1D_ok B xi d (e + 2) n X Y
    refine ⟨a, ha, fun j hj => ?_⟩
    rw [va j hj]
    unfold tz
    simp only [etaD, zero_mul, zero_add]
    refine Finset.sum_congr rfl fun i _ => ?_
    simp [sideY, Function.iterate_succ_apply]

/-- The function with the coefficients `y`. -/
noncomputable def pdeFun (k : ℝ → ℝ) (m : ℕ) (p q : ℕ → ℝ[X]) (y : ℕ → ℝ) : ℝ → ℝ → ℝ :=
  tz k (fun y => y) (Finset.range m) y (fun i => sideX (p i)) fun i => sideY (q i)

theorem pdeFun_dxx {k : ℝ → ℝ} (hk : ContDiff ℝ 2 k) (y : ℕ → ℝ) : dx (dx (pdeFun k m p q y)) =
    tz (iteratedDeriv 2 k) (fun y => y) (Finset.range m) y (fun i => derivative (derivative (sideX (p i)))) fun i => sideY (q i) := by
  have h1 : Differentiable ℝ k := hk.differentiable (by norm_num)
  have h2 : Differentiable ℝ (deriv k) := by
    have := hk.differentiable_iteratedDeriv 1 (by norm_num)
    rwa [iteratedDeriv_one] at this
  unfold pdeFun
  rw [dx_tz h1, dx_tz h2, iteratedDeriv_succ, iteratedDeriv_one]

theorem pdeFun_dy {k : ℝ → ℝ} (y : ℕ → ℝ) : dy (pdeFun k m p q y) =
    tz k (fun _ => 1) (Finset.range m) y (fun i => sideX (p i)) fun i => derivative (sideY (q i)) := by
  have e : deriv (fun y : ℝ => y) = fun _ => 1 := by funext y; simp
  unfold pdeFun
  rw [dy_tz (η := fun y => y) differentiable_id, e]

theorem pdeFun_dyy {k : ℝ → ℝ} (y : ℕ → ℝ) : dy (dy (pdeFun k m p q y)) =
    tz k (fun _ => 0) (Finset.range m) y (fun i => sideX (p i)) fun i => derivative (derivative (sideY (q i))) := by
  have e : deriv (fun _ : ℝ => (1 : ℝ)) = fun _ => 0 := by funext y; simp
  rw [pdeFun_dy, dy_tz (differentiable_const _), e]

/-- The residual as a quadratic function of the coefficients. -/
noncomputable def pdeQuad (k : ℝ → ℝ) (s : ℝ → ℝ → ℝ) (m : ℕ) (p q : ℕ → ℝ[X]) : Quad (ℝ × ℝ) where
  m := m
  D0 t := t.2 * iteratedDeriv 2 k t.1
  E0 t := t.2 * k t.1
  F0 t := k t.1
  c t := s t.1 t.2
  D i t := (derivative (derivative (sideX (p i)))).eval t.1 * (sideY (q i)).eval t.2 +
    (sideX (p i)).eval t.1 * (derivative (derivative (sideY (q i)))).eval t.2
  E i t := (sideX (p i)).eval t.1 * (sideY (q i)).eval t.2
  F i t := (sideX (p i)).eval t.1 * (derivative (sideY (q i))).eval t.2

theorem pdeQuad_D {k : ℝ → ℝ} (hk : ContDiff ℝ 2 k) (s : ℝ → ℝ → ℝ) (y : ℕ → ℝ) (t : ℝ × ℝ) :
    aff m ((pdeQuad k s m p q).D0 t) ((pdeQuad k s m p q).D · t) y =
      dx (dx (pdeFun k m p q y)) t.1 t.2 + dy (dy (pdeFun k m p q y)) t.1 t.2 := by
  rw [pdeFun_dxx hk, pdeFun_dyy]
  unfold aff tz pdeQuad
  simp only [mul_add, Finset.sum_add_distrib, zero_mul, zero_add]
  ring

theorem pdeQuad_E (k : ℝ → ℝ) (s : ℝ → ℝ → ℝ) (y : ℕ → ℝ) (t : ℝ × ℝ) :
    aff m ((pdeQuad k s m p q).E0 t) ((pdeQuad k s m p q).E · t) y = pdeFun k m p q y t.1 t.2 := rfl

theorem pdeQuad_F (k : ℝ → ℝ) (s : ℝ → ℝ → ℝ) (y : ℕ → ℝ) (t : ℝ × ℝ) :
    aff m ((pdeQuad k s m p q).F0 t) ((pdeQuad k s m p q).F · t) y = dy (pdeFun k m p q y) t.1 t.2 := by
  rw [pdeFun_dy]
  unfold aff tz pdeQuad
  simp only [one_mul]

theorem pdeQuad_miss {k : ℝ → ℝ} (hk : ContDiff ℝ 2 k) (s : ℝ → ℝ → ℝ) (y : ℕ → ℝ) (t : ℝ × ℝ) :
    (pdeQuad k s m p q).miss y t = pdeMiss s (pdeFun k m p q y) t.1 t.2 := by
  have h1 := pdeQuad_D (m := m) (p := p) (q := q) hk s y t
  have h2 := pdeQuad_E (m := m) (p := p) (q := q) k s y t
  have h3 := pdeQuad_F (m := m) (p := p) (q := q) k s y t
  unfold Quad.miss pdeMiss
  rw [← h1, ← h2, ← h3]
  rfl

theorem pdeQuad_lin {k : ℝ → ℝ} (hk : ContDiff ℝ 2 k) (s : ℝ → ℝ → ℝ) (y z : ℕ → ℝ) (t : ℝ × ℝ) :
    (pdeQuad k s m p q).lin y z t = pdeLin s (pdeFun k m p q y) (pdeFun k m p q z) t.1 t.2 := by
  have h1 := pdeQuad_D (m := m) (p := p) (q := q) hk s z t
  have h2 := fun y => pdeQuad_E (m := m) (p := p) (q := q) k s y t
  have h3 := fun y => pdeQuad_F (m := m) (p := p) (q := q) k s y t
  unfold Quad.lin pdeLin
  rw [← h1, ← h2 y, ← h2 z, ← h3 y, ← h3 z]
  rfl

/-- The points as pairs. -/
def pairs (X Y : List ℝ) : List (ℝ × ℝ) := (List.range X.length).map fun j => (X.getD j 0, Y.getD j 0)

theorem pdeRes_ok (B : PdeBasis u m p q) {k : ℝ → ℝ} (hk : ContDiff ℝ 2 k) (s : ℝ → ℝ → ℝ) (X Y xi : List ℝ) :
    pdeRes u k s X Y xi = .ok ((pairs X Y).map ((pdeQuad k s m p q).miss (coef xi))) := by
  obtain ⟨v1, h1, e1⟩ := zD_ok B k xi 2 0 X.length (fun j => X.getD j 0) fun j => Y.getD j 0
  obtain ⟨v2, h2, e2⟩ := zD_ok B k xi 0 2 X.length (fun j => X.getD j 0) fun j => Y.getD j 0
  obtain ⟨v3, h3, e3⟩ := zD_ok B k xi 0 0 X.length (fun j => X.getD j 0) fun j => Y.getD j 0
  obtain ⟨v4, h4, e4⟩ := zD_ok B k xi 0 1 X.length (fun j => X.getD j 0) fun j => Y.getD j 0
  unfold pdeRes
  simp only [h1, h2, h3, h4, bind, Except.bind, pure, Except.pure]
  refine congrArg Except.ok ?_
  unfold pairs
  rw [List.map_map]
  refine List.map_congr_left fun j hj => ?_
  have hj := List.mem_range.mp hj
  rw [e1 j hj, e2 j hj, e3 j hj, e4 j hj]
  simp only [Function.comp]
  rw [pdeQuad_miss hk]
  unfold pdeMiss
  rw [pdeFun_dxx hk, pdeFun_dyy, pdeFun_dy]
  simp only [iteratedDeriv_zero]
  rfl

/-- What the run of the program means: `it` Newton steps from the polynomial 0 in the functions that meet the boundary conditions, and the
reason for the stop. The last one is `z(xi, ·, ·)`. -/
structure PdeRun (u : Mtfc) (k : ℝ → ℝ) (s : ℝ → ℝ → ℝ) (tol : ℝ) (maxIter : ℕ) (xi : List ℝ) (it : ℕ)
    (Ps : ℕ → MvPolynomial (Fin 2) ℝ) : Prop where
  count : it ≤ maxIter
  start : Ps 0 = 0
  degree : ∀ j ≤ it, (Ps j).totalDegree ≤ u.deg
  steps : ∀ j < it, PdeNewtonStep u.deg k s (pairs (u.x.getD 0 []) (u.x.getD 1 [])) (meets k (evalXY (Ps j))) (meets k (evalXY (Ps (j + 1))))
  result : ∀ n X Y, zEval u k xi n X Y = .ok ((List.range n).map fun j => meets k (evalXY (Ps it)) (X j) (Y j))
  stop : (∀ t ∈ pairs (u.x.getD 0 []) (u.x.getD 1 []), |pdeMiss s (meets k (evalXY (Ps it))) t.1 t.2| ≤ tol) ∨ it = maxIter ∨
    ∃ j, it = j + 1 ∧ ∃ xi' : List ℝ, xi'.length = xi.length ∧ (∀ i, |xi.getD i 0 - xi'.getD i 0| ≤ tol) ∧
      ∀ n X Y, zEval u k xi' n X Y = .ok ((List.range n).map fun i => meets k (evalXY (Ps j)) (X i) (Y i))

/-- The program evaluates `z` itself like its derivatives of order 0. -/
theorem zEval_zD (u : Mtfc) (k : ℝ → ℝ) (xi : List ℝ) (n : ℕ) (X Y : ℕ → ℝ) :
    zEval u k xi n X Y = (zD u k xi 0 0 n X Y).map fun v => (List.range n).map v := by
  have h : ∀ e X Y, z1 u xi e n X Y = z1D u xi 0 e n X Y := fun e X Y => rfl
  unfold zEval zD
  simp only [h, iteratedDeriv_zero]
  cases z1D u xi 0 0 n X Y <;> cases z1D u xi 0 0 n X (fun _ => 0) <;> cases z1D u xi 0 1 n X (fun _ => 1) <;> rfl

/-- **C99.** For every equation `z_xx + z_yy + z z_y = s` and every twice differentiable `k` for the derivative on `y = 1`, both polynomial
classes of `mtfc`, both backends, the first `c0` and `c1` functions removed with `c0 ≤ 2` or `c1 ≤ 2`, every domain of the object, every
numbers of points, both ways of passing the points, any number of iterations and a tolerance below 1: the program of tests/test_PDE.py returns
without an error. It computes Newton's method for the boundary value problem: from the polynomial 0, each step comes from a polynomial
of total degree at most `deg` and minimises the linearised equation at the collocation points over all functions that come from such
polynomials, and the run stops because the equation holds at all points within the tolerance, the coefficients did not change by more than
the tolerance, or the iterations are used up. The contracts of the linear algebra functions are assumed. -/
theorem C99_program (lib : LinAlg) (hlib : LinAlgCorrect lib) (method : Method) (hm : method ≠ .other) (n : List ℕ)
    (hn : ∀ v ∈ n, 2 ≤ v) (c0 c1 : ℤ) (hc : c0 ≤ 2 ∨ c1 ≤ 2) (deg : ℕ) (basis backend : String) (hb : basis = "CP" ∨ basis = "LeP")
    (x0 xf : Option (List ℝ)) (w : ℕ → ℕ → ℝ) (b : ℕ → ℝ) (u : Mtfc)
    (hu : mtfcInit n (.array1 [c0, c1]) deg 2 basis x0 xf backend w b = .ok u) (hx : ∀ k < 2, u.x0 k ≠ u.xf k)
    (k : ℝ → ℝ) (hk : ContDiff ℝ 2 k) (s : ℝ → ℝ → ℝ) (tol : ℝ) (htol : tol < 1) (maxIter : ℕ) (timer pass_x : Bool) (fuel : ℕ)
    (hf : maxIter + 2 ≤ fuel) :
    ∃ xi it Ps, solvePde lib method tol maxIter timer pass_x u k s fuel = .ok (some (.arr xi, ((it : ℕ) : ℤ))) ∧
      PdeRun u k s tol maxIter xi it Ps := by
  obtain ⟨m, p, q, B⟩ := pdeBasis hc hb hu hx
  obtain ⟨-, -, -, hlen, -⟩ := C14_grid n _ deg 2 (by omega) basis backend x0 xf w b u hu
    (fun v hv => ⟨by have := hn v hv; omega, fun _ => hn v hv⟩) hx
  have hX := (hlen 0 (by omega)).2
  have hpts : pairs (u.x.getD 0 []) (u.x.getD 1 []) ≠ [] := by
    unfold pairs
    have : 0 < n.prod := List.prod_pos fun v hv => by have := hn v hv; omega
    rw [Ne, List.map_eq_nil_iff, List.range_eq_nil]
    omega
  have hres := fun X Y xi => pdeRes_ok B hk s X Y xi
  obtain ⟨A, hA, hAc, -⟩ := B.H 0 0 (u.x.getD 0 []).length (fun j => (u.x.getD 0 []).getD j 0) fun j => (u.x.getD 1 []).getD j 0
  have run : ∀ (args : List (View Unit)) (K : List ℕ), GoodConstants K args →
      (∀ xi, pdeResidual u k s (.arr xi :: args) =
        (pairs (u.x.getD 0 []) (u.x.getD 1 [])).map ((pdeQuad k s m p q).miss (coef xi))) →
      ∃ xi it Ps, (NLLS lib method none none none tol maxIter timer (pdeResidual u k s) (.arr (List.replicate m 0)) args K fuel).1 =
        .ok (some (.arr xi, ((it : ℕ) : ℤ))) ∧ PdeRun u k s tol maxIter xi it Ps := by
    intro args K hK hval
    obtain ⟨it, ξ, h1, hit, h0, hl, hst, hstop⟩ := quad_run hlib hm (q := pdeQuad k s m p q) B.pos hpts hK hval tol htol maxIter timer
      fuel hf
    have hmeet : ∀ xi, meets k (evalXY (sumXY (Finset.range m) (coef xi) p q)) = pdeFun k m p q (coef xi) := by
      intro xi
      rw [evalXY_sumXY, meets_sum]
      rfl
    have hev : ∀ xi N X Y, zEval u k xi N X Y =
        .ok ((List.range N).map fun j => meets k (evalXY (sumXY (Finset.range m) (coef xi) p q)) (X j) (Y j)) := by
      intro xi N X Y
      obtain ⟨v, hv, e⟩ := zD_ok B k xi 0 0 N X Y
      rw [zEval_zD, hv]
      refine congrArg Except.ok (List.map_congr_left fun j hj => ?_)
      rw [e j (List.mem_range.mp hj), hmeet, iteratedDeriv_zero]
      rfl
    refine ⟨ξ it, it, fun j => sumXY (Finset.range m) (coef (ξ j)) p q, h1, hit, ?_, ?_, ?_, hev _, ?_⟩
    · show sumXY (Finset.range m) (coef (ξ 0)) p q = 0
      refine Finset.sum_eq_zero fun i hi => ?_
      have hi := Finset.mem_range.mp hi
      have : coef (ξ 0) i = 0 := by
        rw [h0]
        show (List.replicate m (0 : ℝ)).getD i 0 = 0
        simp [List.getD, hi]
      rw [this, map_zero, zero_mul]
    · intro j _
      exact totalDegree_sumXY fun i hi => B.degree i (Finset.mem_range.mp hi)
    · intro j hj P hP
      obtain ⟨y, hy⟩ := B.represent P hP
      have := hst j hj y
      simp only [pdeQuad_lin hk] at this
      rw [hy k, hmeet, hmeet]
      exact this
    · rcases hstop with h | h | ⟨j, rfl, h⟩
      · left
        intro t ht
        have := h t ht
        rw [pdeQuad_miss hk] at this
        rwa [hmeet]
      · exact Or.inr (Or.inl h)
      · exact Or.inr (Or.inr ⟨j, rfl, ξ j, by rw [hl j (by omega), hl (j + 1) le_rfl], h, hev _⟩)
  cases pass_x with
  | false =>
    obtain ⟨xi, it, Ps, h1, h2⟩ := run [] [] (by simp [GoodConstants]) fun xi => by simp only [pdeResidual, hres, orEmpty]
    refine ⟨xi, it, Ps, ?_, h2⟩
    unfold solvePde
    simp only [hA, hres, bind, Except.bind, hAc]
    exact h1
  | true =>
    obtain ⟨xi, it, Ps, h1, h2⟩ := run [.arr (u.x.getD 0 []), .arr (u.x.getD 1 [])] [1, 2] (by simp [GoodConstants])
      fun xi => by simp only [pdeResidual, hres, orEmpty]
    refine ⟨xi, it, Ps, ?_, h2⟩
    unfold solvePde
    simp only [hA, hres, bind, Except.bind, hAc]
    exact h1

end Verif.Props
