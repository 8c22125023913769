import Verif.Props.PdeProgram
import Verif.Props.OdeError
import Verif.Props.Residual

/-! # C99: the error of the partial differential equation of the tests -/

namespace Verif.Props

open Set Verif Verif.Mem Verif.Py Verif.Np Verif.Spec Verif.Model Verif.Model.Py Verif.Model.LSq Verif.Model.Prog
open scoped ContDiff

/-- **C99, the grid.** For every name of a basis and at least two points in each dimension: every point of the domain of an `mtfc` object has a
collocation point of the object that is near it in all coordinates, no farther than `π/4` of the mean distance of the points. -/
theorem C99_points (n : List ℕ) (hn : ∀ v ∈ n, 2 ≤ v) (nC : MNCArg) (deg dim : ℕ) (hdim : 1 ≤ dim) (basis backend : String)
    (x0 xf : Option (List ℝ)) (w : ℕ → ℕ → ℝ) (b : ℕ → ℝ) (u : Mtfc) (hu : mtfcInit n nC deg dim basis x0 xf backend w b = .ok u)
    (hx : ∀ k < dim, u.x0 k < u.xf k) (t : ℕ → ℝ) (ht : ∀ k < dim, t k ∈ Icc (u.x0 k) (u.xf k)) :
    ∃ p < n.prod, ∀ k < dim, (u.x.getD k []).getD p 0 ∈ Icc (u.x0 k) (u.xf k) ∧
      |t k - (u.x.getD k []).getD p 0| ≤ (u.xf k - u.x0 k) * (Real.pi / (4 * ((n.getD k 0 - 1 : ℕ) : ℝ))) := by
  obtain ⟨hlen, -, -, -, hall, -, hback⟩ := C14_grid n nC deg dim hdim basis backend x0 xf w b u hu
    (fun v hv => ⟨by have := hn v hv; omega, fun _ => hn v hv⟩) fun k hk => (hx k hk).ne
  have hzlt := zRange_lt u.basis
  have hn2 : ∀ k < dim, 2 ≤ n.getD k 0 := by
    intro k hk
    refine hn _ ?_
    rw [List.getD, List.getElem?_eq_getElem (by omega)]
    exact List.getElem_mem _
  have hmap : ∀ k < dim, ∀ s s', toBasis (u.x0 k) (u.xf k) u.basis.zRange.1 u.basis.zRange.2 s -
      toBasis (u.x0 k) (u.xf k) u.basis.zRange.1 u.basis.zRange.2 s' = (u.basis.zRange.2 - u.basis.zRange.1) * ((s - s') / (u.xf k - u.x0 k)) := by
    intro k hk s s'
    unfold toBasis
    ring
  have h0 : ∀ k < dim, toBasis (u.x0 k) (u.xf k) u.basis.zRange.1 u.basis.zRange.2 (u.x0 k) = u.basis.zRange.1 := by
    intro k hk
    unfold toBasis
    simp
  have hf : ∀ k < dim, toBasis (u.x0 k) (u.xf k) u.basis.zRange.1 u.basis.zRange.2 (u.xf k) = u.basis.zRange.2 := by
    intro k hk
    have := hmap k hk (u.xf k) (u.x0 k)
    rw [h0 k hk, div_self (sub_pos.2 (hx k hk)).ne'] at this
    linarith
  -- the map is monotone in both directions
  have hle : ∀ k < dim, ∀ s s', toBasis (u.x0 k) (u.xf k) u.basis.zRange.1 u.basis.zRange.2 s' ≤
      toBasis (u.x0 k) (u.xf k) u.basis.zRange.1 u.basis.zRange.2 s ↔ s' ≤ s := by
    intro k hk s s'
    rw [← sub_nonneg, hmap k hk, mul_nonneg_iff_of_pos_left (sub_pos.2 hzlt), le_div_iff₀ (sub_pos.2 (hx k hk)), zero_mul, sub_nonneg]
  have hnear : ∀ k, ∃ i, k < dim → i < n.getD k 0 ∧ |toBasis (u.x0 k) (u.xf k) u.basis.zRange.1 u.basis.zRange.2 (t k) -
      zPoint u.basis (n.getD k 0) i| ≤ (u.basis.zRange.2 - u.basis.zRange.1) * (Real.pi / (4 * ((n.getD k 0 - 1 : ℕ) : ℝ))) := by
    intro k
    by_cases hk : k < dim
    · have a := (hle k hk (t k) (u.x0 k)).2 (ht k hk).1
      have b := (hle k hk (u.xf k) (t k)).2 (ht k hk).2
      rw [h0 k hk] at a
      rw [hf k hk] at b
      obtain ⟨i, hi, hd⟩ := zPoint_dense u.basis (hn2 k hk) a b
      exact ⟨i, fun _ => ⟨hi, hd⟩⟩
    · exact ⟨0, fun h => absurd h hk⟩
  choose i hi using hnear
  obtain ⟨p, ⟨hp, hpz⟩, -⟩ := hall i fun k hk => (hi k hk).1
  refine ⟨p, hp, fun k hk => ?_⟩
  have e := hback k hk p hp
  rw [hpz k hk] at e
  obtain ⟨hik, hd⟩ := hi k hk
  have hzb : u.basis.zRange.1 ≤ zPoint u.basis (n.getD k 0) (i k) ∧ zPoint u.basis (n.getD k 0) (i k) ≤ u.basis.zRange.2 := by
    constructor
    · rw [← zPoint_first u.basis (hn2 k hk)]
      rcases Nat.eq_zero_or_pos (i k) with h | h
      · rw [h]
      · exact (zPoint_lt u.basis h hik).le
    · rw [← zPoint_last u.basis (hn2 k hk)]
      rcases Nat.lt_or_ge (i k) (n.getD k 0 - 1) with h | h
      · exact (zPoint_lt u.basis h (by omega)).le
      · rw [show i k = n.getD k 0 - 1 by omega]
  refine ⟨⟨?_, ?_⟩, ?_⟩
  · rw [← hle k hk, h0 k hk, e]
    exact hzb.1
  · rw [← hle k hk, hf k hk, e]
    exact hzb.2
  · have hxx := sub_pos.2 (hx k hk)
    rw [← e, hmap k hk, abs_mul, abs_of_pos (sub_pos.2 hzlt), abs_div, abs_of_pos hxx] at hd
    have hd := le_of_mul_le_mul_left hd (sub_pos.2 hzlt)
    rwa [div_le_iff₀ hxx, mul_comm] at hd

/-- The residual at a point between the collocation points, two variables. -/
theorem between2 {R : ℝ → ℝ → ℝ} (hR : Smooth2 R) {L1 L2 ε h1 h2 : ℝ} (hx : ∀ x ∈ Icc (0 : ℝ) 1, ∀ y ∈ Icc (0 : ℝ) 1, |dx R x y| ≤ L1)
    (hy : ∀ x ∈ Icc (0 : ℝ) 1, ∀ y ∈ Icc (0 : ℝ) 1, |dy R x y| ≤ L2) {x y p q : ℝ} (a : x ∈ Icc (0 : ℝ) 1) (b : y ∈ Icc (0 : ℝ) 1)
    (c : p ∈ Icc (0 : ℝ) 1) (d : q ∈ Icc (0 : ℝ) 1) (hp : |x - p| ≤ h1) (hq : |y - q| ≤ h2) (hε : |R p q| ≤ ε) :
    |R x y| ≤ ε + L1 * h1 + L2 * h2 := by
  have m1 := (convex_Icc (0 : ℝ) 1).norm_image_sub_le_of_norm_deriv_le (f := fun s => R s y) (C := L1)
    (fun s _ => (hR.left y).differentiable (by simp) s) (fun s hs => hx s hs y b) c a
  have m2 := (convex_Icc (0 : ℝ) 1).norm_image_sub_le_of_norm_deriv_le (f := fun s => R p s) (C := L2)
    (fun s _ => (hR.right p).differentiable (by simp) s) (fun s hs => hy p c s hs) d b
  rw [Real.norm_eq_abs, Real.norm_eq_abs] at m1 m2
  have l1 : 0 ≤ L1 := (abs_nonneg _).trans (hx x a y b)
  have l2 : 0 ≤ L2 := (abs_nonneg _).trans (hy x a y b)
  calc |R x y| = |(R x y - R p y) + (R p y - R p q) + R p q| := by ring_nf
    _ ≤ |R x y - R p y| + |R p y - R p q| + |R p q| := abs_add_three _ _ _
    _ ≤ ε + L1 * h1 + L2 * h2 := by linarith [mul_le_mul_of_nonneg_left hp l1, mul_le_mul_of_nonneg_left hq l2]

/-- `k` of tests/test_PDE.py 35. -/
noncomputable def testK (x : ℝ) : ℝ := 2 * Real.sin (Real.pi * x)

/-- `s` of tests/test_PDE.py 42. -/
noncomputable def testS (x y : ℝ) : ℝ :=
  Real.sin (Real.pi * x) * (2 - Real.pi ^ 2 * y ^ 2 + 2 * y ^ 3 * Real.sin (Real.pi * x))

theorem testK_smooth (n : WithTop ℕ∞) : ContDiff ℝ n testK := by
  unfold testK
  fun_prop

theorem evalXY_smooth (P : MvPolynomial (Fin 2) ℝ) : Smooth2 (evalXY P) := by
  induction P using MvPolynomial.induction_on with
  | C a =>
    unfold Smooth2 evalXY
    simp only [MvPolynomial.eval_C]
    exact contDiff_const
  | add P Q hP hQ =>
    have := hP.add hQ
    unfold Smooth2 evalXY at *
    simpa using this
  | mul_X P i hP =>
    have hi : Smooth2 fun x y => (![x, y] : Fin 2 → ℝ) i := by
      fin_cases i
      · exact Smooth2.of_left contDiff_id
      · exact Smooth2.of_right contDiff_id
    have := hP.mul hi
    unfold Smooth2 evalXY at *
    simpa using this

theorem meets_testK (g : ℝ → ℝ → ℝ) : meets testK g = pdeU g := rfl

theorem pdeMiss_testS (z : ℝ → ℝ → ℝ) : pdeMiss testS z = pdeResid z := rfl

theorem pdeResid_smooth {z : ℝ → ℝ → ℝ} (hz : Smooth2 z) : Smooth2 (pdeResid z) := by
  have h1 := hz.dx.dx
  have h2 := hz.dy.dy
  have h3 := hz.dy
  unfold Smooth2 pdeResid at *
  fun_prop

/-- **C99, the test.** The program of tests/test_PDE.py with any numbers `n0, n1 ≥ 2` of points and degree `≥ 2`, both basis names, both
backends, both ways of passing the points: the object is built and the program returns Newton iterates as in `C99_program`. The returned `z` meets
the boundary conditions exactly, on the whole boundary. If the residual is at most `ε` at the collocation points, then `z` differs from the
true solution `y² sin(π x)`, at every point of the square, by at most the stated bound, where `L1` and `L2` bound the derivatives of
the residual. -/
theorem C99_test (lib : LinAlg) (hlib : LinAlgCorrect lib) (method : Method) (hm : method ≠ .other) (n0 n1 : ℕ) (hn0 : 2 ≤ n0)
    (hn1 : 2 ≤ n1) (deg : ℕ) (hdeg : 2 ≤ deg) (basis backend : String) (hb : basis = "CP" ∨ basis = "LeP")
    (hbe : backend = "C++" ∨ backend = "Python") (w : ℕ → ℕ → ℝ) (b : ℕ → ℝ) (tol : ℝ) (htol : tol < 1) (maxIter : ℕ)
    (timer pass_x : Bool) (fuel : ℕ) (hf : maxIter + 2 ≤ fuel) :
    ∃ u xi it Ps, mtfcInit [n0, n1] (.array1 [2, 2]) deg 2 basis (some [0, 0]) (some [1, 1]) backend w b = .ok u ∧
      solvePde lib method tol maxIter timer pass_x u testK testS fuel = .ok (some (.arr xi, ((it : ℕ) : ℤ))) ∧
      PdeRun u testK testS tol maxIter xi it Ps ∧ ∃ z : ℝ → ℝ → ℝ,
      (∀ N X Y, zEval u testK xi N X Y = .ok ((List.range N).map fun j => z (X j) (Y j))) ∧
      (∀ y, z 0 y = 0 ∧ z 1 y = 0) ∧ (∀ x, z x 0 = 0 ∧ deriv (z x) 1 = 2 * Real.sin (Real.pi * x)) ∧
      ∀ ε L1 L2 : ℝ, (∀ t ∈ pairs (u.x.getD 0 []) (u.x.getD 1 []), |pdeMiss testS z t.1 t.2| ≤ ε) →
        (∀ x ∈ Icc (0 : ℝ) 1, ∀ y ∈ Icc (0 : ℝ) 1, |dx (pdeMiss testS z) x y| ≤ L1 ∧ |dy (pdeMiss testS z) x y| ≤ L2) →
        ∀ x ∈ Icc (0 : ℝ) 1, ∀ y ∈ Icc (0 : ℝ) 1, |z x y - y ^ 2 * Real.sin (Real.pi * x)| ≤
          (ε + L1 * (Real.pi / (4 * ((n0 - 1 : ℕ) : ℝ))) + L2 * (Real.pi / (4 * ((n1 - 1 : ℕ) : ℝ)))) / 2 := by
  obtain ⟨bn, hbn, hbn'⟩ : ∃ bn, BasisName.parse basis = some bn ∧ (bn = .cp ∨ bn = .lep) := by
    rcases hb with rfl | rfl
    · exact ⟨.cp, by decide, Or.inl rfl⟩
    · exact ⟨.lep, by decide, Or.inr rfl⟩
  obtain ⟨be, hbe'⟩ : ∃ be, Backend.parse backend = some be := by
    rcases hbe with rfl | rfl
    · exact ⟨.cpp, by decide⟩
    · exact ⟨.python, by decide⟩
  obtain ⟨r, hr⟩ : ∃ r, mtfcRemoved deg 2 bn (.array1 [2, 2]) = .ok r := by
    obtain ⟨c, rows, h, -⟩ := (C20_list_partial deg 2 [.int 2, .int 2] (by simp)).1 rfl (by simpa [count] using hdeg)
    have h : mtfcNC deg 2 (.array1 [2, 2]) = .ok (c, rows) := h
    rcases hbn' with rfl | rfl <;> exact ⟨_, by simp only [mtfcRemoved, h]; rfl⟩
  have hn : ∀ v ∈ [n0, n1], 2 ≤ v := by simp [hn0, hn1]
  obtain ⟨u, hu, h0, h1⟩ := mtfcInit_succeeds [n0, n1] (.array1 [2, 2]) deg 2 (by omega) basis backend [0, 0] [1, 1] w b rfl rfl rfl
    (fun v hv => by have := hn v hv; omega) bn hbn be hbe' r hr
  have u0 : ∀ k < 2, u.x0 k = 0 := by
    intro k hk
    rw [h0]
    interval_cases k <;> simp [vecOf]
  have u1 : ∀ k < 2, u.xf k = 1 := by
    intro k hk
    rw [h1]
    interval_cases k <;> simp [vecOf]
  obtain ⟨xi, it, Ps, hs, hrun⟩ := C99_program lib hlib method hm [n0, n1] hn 2 2 (Or.inl le_rfl) deg basis backend hb (some [0, 0]) (some [1, 1])
    w b u hu (fun k hk => by rw [u0 k hk, u1 k hk]; exact zero_ne_one) testK (testK_smooth 2) testS tol htol maxIter timer pass_x fuel hf
  obtain ⟨c1, c2⟩ := pdeU_conditions (evalXY (Ps it)) (evalXY_smooth _)
  refine ⟨u, xi, it, Ps, hu, hs, hrun, meets testK (evalXY (Ps it)), hrun.result, c1, c2, ?_⟩
  intro ε L1 L2 hε hL x hx y hy
  rw [meets_testK] at hε hL ⊢
  rw [pdeMiss_testS] at hε hL
  have hsm := pdeResid_smooth (pdeU_smooth (evalXY_smooth (Ps it)))
  refine C96_pde_program _ (evalXY_smooth _) (fun x hx y hy => ?_) x hx y hy
  obtain ⟨p, hp, hpk⟩ := C99_points [n0, n1] hn (.array1 [2, 2]) deg 2 (by omega) basis backend (some [0, 0]) (some [1, 1]) w b u hu
    (fun k hk => by rw [u0 k hk, u1 k hk]; exact zero_lt_one) (fun k => if k = 0 then x else y) (fun k hk => by
      rw [u0 k hk, u1 k hk]
      by_cases h : k = 0
      · simpa [h] using hx
      · simpa [h] using hy)
  obtain ⟨p1, p2⟩ := hpk 0 (by omega)
  obtain ⟨q1, q2⟩ := hpk 1 (by omega)
  rw [u0 0 (by omega), u1 0 (by omega)] at p1 p2
  rw [u0 1 (by omega), u1 1 (by omega)] at q1 q2
  have hlen := (C14_grid [n0, n1] (.array1 [2, 2]) deg 2 (by omega) basis backend (some [0, 0]) (some [1, 1]) w b u hu
    (fun v hv => ⟨by have := hn v hv; omega, fun _ => hn v hv⟩) fun k hk => by rw [u0 k hk, u1 k hk]; exact zero_ne_one).2.2.2.1
  refine between2 hsm (fun x hx y hy => (hL x hx y hy).1) (fun x hx y hy => (hL x hx y hy).2) hx hy p1 q1 (by simpa using p2)
    (by simpa using q2) ?_
  refine hε (_, _) (List.mem_map.2 ⟨p, List.mem_range.2 ?_, rfl⟩)
  rw [(hlen 0 (by omega)).2]
  exact hp

/-- The bounds `L1` and `L2` exist for every polynomial, so the statement applies to every run. -/
example (P : MvPolynomial (Fin 2) ℝ) : ∃ L1 L2 : ℝ, ∀ x ∈ Icc (0 : ℝ) 1, ∀ y ∈ Icc (0 : ℝ) 1,
    |dx (pdeMiss testS (meets testK (evalXY P))) x y| ≤ L1 ∧ |dy (pdeMiss testS (meets testK (evalXY P))) x y| ≤ L2 := by
  have hsm := pdeResid_smooth (pdeU_smooth (evalXY_smooth P))
  have hK : IsCompact (Icc (0 : ℝ) 1 ×ˢ Icc (0 : ℝ) 1) := isCompact_Icc.prod isCompact_Icc
  obtain ⟨L1, h1⟩ := hK.exists_bound_of_continuousOn hsm.dx.continuous.continuousOn
  obtain ⟨L2, h2⟩ := hK.exists_bound_of_continuousOn hsm.dy.continuous.continuousOn
  exact ⟨L1, L2, fun x hx y hy => ⟨h1 (x, y) ⟨hx, hy⟩, h2 (x, y) ⟨hx, hy⟩⟩⟩

/-- The call of the test: 20 by 20 points, degree 20, Chebyshev polynomials, compiled backend, 50 iterations, tolerance 10⁻¹³. -/
example : ∃ lib : LinAlg, LinAlgCorrect lib ∧ ∃ u xi it Ps,
    mtfcInit [20, 20] (.array1 [2, 2]) 20 2 "CP" (some [0, 0]) (some [1, 1]) "C++" (fun _ _ => 0) (fun _ => 0) = .ok u ∧
      solvePde lib .pinv 1e-13 50 false false u testK testS 52 = .ok (some (.arr xi, ((it : ℕ) : ℤ))) ∧
      PdeRun u testK testS 1e-13 50 xi it Ps := by
  obtain ⟨lib, hlib⟩ := Verif.Lemmas.LinAlg.linAlg_exists
  obtain ⟨u, xi, it, Ps, h1, h2, h3, -⟩ := C99_test lib hlib .pinv (by decide) 20 20 (by omega) (by omega) 20 (by omega) "CP" "C++"
    (Or.inl rfl) (Or.inl rfl) (fun _ _ => 0) (fun _ => 0) 1e-13 (by norm_num) 50 false false 52 (by omega)
  exact ⟨lib, hlib, u, xi, it, Ps, h1, h2, h3⟩

end Verif.Props
