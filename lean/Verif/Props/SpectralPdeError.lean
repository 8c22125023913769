import Verif.Props.SpectralPde
import Verif.Props.ResidualCases
import Verif.Lemmas.Pinv
import Mathlib.Analysis.SpecialFunctions.ExpDeriv

/-!
# C119: the error of the program without a constrained expression
-/

namespace Verif.Props

open Set Verif Verif.Mem Verif.Py Verif.Np Verif.Spec Verif.Model Verif.Model.Py Verif.Model.LSq Verif.Model.Prog
open scoped ContDiff Polynomial

/-- The grid reaches the sides: as `C99_points`, with the coordinates that lie on a side kept. -/
theorem points_sides (n : List ℕ) (hn : ∀ v ∈ n, 2 ≤ v) (nC : MNCArg) (deg dim : ℕ) (hdim : 1 ≤ dim) (basis backend : String)
    (x0 xf : Option (List ℝ)) (w : ℕ → ℕ → ℝ) (b : ℕ → ℝ) (u : Mtfc) (hu : mtfcInit n nC deg dim basis x0 xf backend w b = .ok u)
    (hx : ∀ k < dim, u.x0 k < u.xf k) (t : ℕ → ℝ) (ht : ∀ k < dim, t k ∈ Icc (u.x0 k) (u.xf k)) :
    ∃ p < n.prod, ∀ k < dim, (u.x.getD k []).getD p 0 ∈ Icc (u.x0 k) (u.xf k) ∧
      |t k - (u.x.getD k []).getD p 0| ≤ (u.xf k - u.x0 k) * (Real.pi / (4 * ((n.getD k 0 - 1 : ℕ) : ℝ))) ∧
      (t k = u.x0 k → (u.x.getD k []).getD p 0 = u.x0 k) ∧ (t k = u.xf k → (u.x.getD k []).getD p 0 = u.xf k) := by
  obtain ⟨hlen, -, -, -, hall, -, hback⟩ := C14_grid n nC deg dim hdim basis backend x0 xf w b u hu
    (fun v hv => ⟨by have := hn v hv; omega, fun _ => hn v hv⟩) fun k hk => (hx k hk).ne
  have hzlt := zRange_lt u.basis
  have hn2 : ∀ k < dim, 2 ≤ n.getD k 0 := by
    intro k hk
    refine hn _ ?_
    rw [List.getD, List.getElem?_eq_getElem (by omega)]
    exact List.getElem_mem _
  have hmap : ∀ k < dim, ∀ s s', toBasis (u.x0 k) (u.xf k) u.basis.zRange.1 u.basis.zRange.2 s -
      toBasis (u.x0 k) (u.xf k) u.basis.zRange.1 u.basis.zRange.2 s' = (u.basis.zRange.2 - u.basis.zRange.1) * ((s - s') / (u.xf k - u.x0 k)) := by
    intro k hk s s'
    unfold toBasis
    ring
  have h0 : ∀ k < dim, toBasis (u.x0 k) (u.xf k) u.basis.zRange.1 u.basis.zRange.2 (u.x0 k) = u.basis.zRange.1 := by
    intro k hk
    unfold toBasis
    simp
  have hf : ∀ k < dim, toBasis (u.x0 k) (u.xf k) u.basis.zRange.1 u.basis.zRange.2 (u.xf k) = u.basis.zRange.2 := by
    intro k hk
    have := hmap k hk (u.xf k) (u.x0 k)
    rw [h0 k hk, div_self (sub_pos.2 (hx k hk)).ne'] at this
    linarith
  -- the map is monotone in both directions
  have hle : ∀ k < dim, ∀ s s', toBasis (u.x0 k) (u.xf k) u.basis.zRange.1 u.basis.zRange.2 s' ≤
      toBasis (u.x0 k) (u.xf k) u.basis.zRange.1 u.basis.zRange.2 s ↔ s' ≤ s := by
    intro k hk s s'
    rw [← sub_nonneg, hmap k hk, mul_nonneg_iff_of_pos_left (sub_pos.2 hzlt), le_div_iff₀ (sub_pos.2 (hx k hk)), zero_mul, sub_nonneg]
  have hnear : ∀ k, ∃ i, k < dim → i < n.getD k 0 ∧ |toBasis (u.x0 k) (u.xf k) u.basis.zRange.1 u.basis.zRange.2 (t k) -
      zPoint u.basis (n.getD k 0) i| ≤ (u.basis.zRange.2 - u.basis.zRange.1) * (Real.pi / (4 * ((n.getD k 0 - 1 : ℕ) : ℝ))) ∧
      (t k = u.x0 k → zPoint u.basis (n.getD k 0) i = u.basis.zRange.1) ∧ (t k = u.xf k → zPoint u.basis (n.getD k 0) i = u.basis.zRange.2) := by
    have hg : ∀ k < dim, 0 ≤ (u.basis.zRange.2 - u.basis.zRange.1) * (Real.pi / (4 * ((n.getD k 0 - 1 : ℕ) : ℝ))) := fun k _ =>
      mul_nonneg (sub_nonneg.2 hzlt.le) (div_nonneg Real.pi_pos.le (by positivity))
    intro k
    by_cases hk : k < dim
    · have a := (hle k hk (t k) (u.x0 k)).2 (ht k hk).1
      have b := (hle k hk (u.xf k) (t k)).2 (ht k hk).2
      rw [h0 k hk] at a
      rw [hf k hk] at b
      by_cases hl : t k = u.x0 k
      · refine ⟨0, fun _ => ⟨by have := hn2 k hk; omega, ?_, fun _ => zPoint_first u.basis (hn2 k hk), fun h => ?_⟩⟩
        · rw [hl, h0 k hk, zPoint_first u.basis (hn2 k hk), sub_self, abs_zero]
          exact hg k hk
        · exact absurd (hl.symm.trans h) (hx k hk).ne
      by_cases hr : t k = u.xf k
      · refine ⟨n.getD k 0 - 1, fun _ => ⟨by have := hn2 k hk; omega, ?_, fun h => absurd h hl, fun _ => zPoint_last u.basis (hn2 k hk)⟩⟩
        rw [hr, hf k hk, zPoint_last u.basis (hn2 k hk), sub_self, abs_zero]
        exact hg k hk
      obtain ⟨i, hi, hd⟩ := zPoint_dense u.basis (hn2 k hk) a b
      exact ⟨i, fun _ => ⟨hi, hd, fun h => absurd h hl, fun h => absurd h hr⟩⟩
    · exact ⟨0, fun h => absurd h hk⟩
  choose i hi using hnear
  obtain ⟨p, ⟨hp, hpz⟩, -⟩ := hall i fun k hk => (hi k hk).1
  refine ⟨p, hp, fun k hk => ?_⟩
  have e := hback k hk p hp
  rw [hpz k hk] at e
  obtain ⟨hik, hd, hl, hr⟩ := hi k hk
  have hzb : u.basis.zRange.1 ≤ zPoint u.basis (n.getD k 0) (i k) ∧ zPoint u.basis (n.getD k 0) (i k) ≤ u.basis.zRange.2 := by
    constructor
    · rw [← zPoint_first u.basis (hn2 k hk)]
      rcases Nat.eq_zero_or_pos (i k) with h | h
      · rw [h]
      · exact (zPoint_lt u.basis h hik).le
    · rw [← zPoint_last u.basis (hn2 k hk)]
      rcases Nat.lt_or_ge (i k) (n.getD k 0 - 1) with h | h
      · exact (zPoint_lt u.basis h (by omega)).le
      · rw [show i k = n.getD k 0 - 1 by omega]
  refine ⟨⟨?_, ?_⟩, ?_, fun h => ?_, fun h => ?_⟩
  · rw [← hle k hk, h0 k hk, e]
    exact hzb.1
  · rw [← hle k hk, hf k hk, e]
    exact hzb.2
  · have hxx := sub_pos.2 (hx k hk)
    rw [← e, hmap k hk, abs_mul, abs_of_pos (sub_pos.2 hzlt), abs_div, abs_of_pos hxx] at hd
    have hd := le_of_mul_le_mul_left hd (sub_pos.2 hzlt)
    rwa [div_le_iff₀ hxx, mul_comm] at hd
  · have e := e.trans ((hl h).trans (h0 k hk).symm)
    exact le_antisymm ((hle k hk _ _).1 e.le) ((hle k hk _ _).1 e.ge)
  · have e := e.trans ((hr h).trans (hf k hk).symm)
    exact le_antisymm ((hle k hk _ _).1 e.le) ((hle k hk _ _).1 e.ge)

/-- The Laplace operator on the unit square, boundary values at most 0. -/
theorem laplace_upper_le {w : ℝ → ℝ → ℝ} (hw : Smooth2 w) {R : ℝ} (hR0 : 0 ≤ R)
    (hx : ∀ y ∈ Icc (0 : ℝ) 1, w 0 y ≤ 0 ∧ w 1 y ≤ 0) (hy : ∀ x ∈ Icc (0 : ℝ) 1, w x 0 ≤ 0 ∧ w x 1 ≤ 0)
    (hR : ∀ x ∈ Icc (0 : ℝ) 1, ∀ y ∈ Icc (0 : ℝ) 1, -R ≤ dx (dx w) x y + dy (dy w) x y) :
    ∀ x ∈ Icc (0 : ℝ) 1, ∀ y ∈ Icc (0 : ℝ) 1, w x y ≤ R * (x * (1 - x) / 2) := by
  have key : ∀ ε > 0, ∀ P ∈ Icc (0 : ℝ) 1 ×ˢ Icc (0 : ℝ) 1, w P.1 P.2 ≤ R * (P.1 * (1 - P.1) / 2 + ε) := by
    intro ε hε
    have hpos : ∀ P ∈ Icc (0 : ℝ) 1 ×ˢ Icc (0 : ℝ) 1, 0 < P.1 * (1 - P.1) / 2 + ε := by
      rintro ⟨x, y⟩ ⟨h1, -⟩
      have : 0 ≤ x * (1 - x) := mul_nonneg h1.1 (by linarith [h1.2])
      simp only
      linarith
    refine le_of_no_touch (isCompact_Icc.prod isCompact_Icc) (w := fun P => w P.1 P.2) (φ := fun P => P.1 * (1 - P.1) / 2 + ε)
      hw.continuous.continuousOn (by fun_prop) hpos ?_
    rintro M hM ⟨x, y⟩ hP he hle
    have hMp : 0 < M := lt_of_le_of_lt hR0 hM
    have hpp := mul_pos hMp (hpos _ hP)
    obtain ⟨hpx, hpy⟩ := hP
    simp only at hpx hpy he hpp
    have hne : ¬ w x y ≤ 0 := by rw [he]; exact not_le.mpr hpp
    have x0 : 0 < x := lt_of_le_of_ne hpx.1 fun h => hne (h ▸ (hx y hpy).1)
    have x1 : x < 1 := lt_of_le_of_ne hpx.2 fun h => hne (h ▸ (hx y hpy).2)
    have y0 : 0 < y := lt_of_le_of_ne hpy.1 fun h => hne (h ▸ (hy x hpx).1)
    have y1 : y < 1 := lt_of_le_of_ne hpy.2 fun h => hne (h ▸ (hy x hpx).2)
    have t1 := touch x0 x1 (f := fun s => w s y - M * (s * (1 - s) / 2 + ε)) (fun s _ => bump_deriv M ε (hw.hasDx s y))
      (bump_deriv2 M (hw.dx.hasDx x y)) fun s hs => by
        have := hle (s, y) ⟨hs, hpy⟩
        simp only at this ⊢
        linarith
    have t2 := touch y0 y1 (f := fun s => w x s) (fun s _ => hw.hasDy x s) (hw.dy.hasDy x y) fun s hs => by
        have := hle (x, s) ⟨hpx, hs⟩
        simp only at this ⊢
        linarith
    linarith [hR x hpx y hpy, t1.2, t2.2]
  intro x hx y hy
  refine le_of_forall_pos_le_add fun δ hδ => ?_
  have := key (δ / (R + 1)) (by positivity) (x, y) ⟨hx, hy⟩
  have h2 : R * (δ / (R + 1)) ≤ δ := by
    rw [mul_div_assoc', div_le_iff₀ (by linarith)]
    nlinarith
  simp only at this
  linarith

/-- The Laplace operator on the unit square with boundary values of at most `β`. -/
theorem laplace_bound_sides {w : ℝ → ℝ → ℝ} (hw : Smooth2 w) {R β : ℝ}
    (hx : ∀ y ∈ Icc (0 : ℝ) 1, |w 0 y| ≤ β ∧ |w 1 y| ≤ β) (hy : ∀ x ∈ Icc (0 : ℝ) 1, |w x 0| ≤ β ∧ |w x 1| ≤ β)
    (hR : ∀ x ∈ Icc (0 : ℝ) 1, ∀ y ∈ Icc (0 : ℝ) 1, |dx (dx w) x y + dy (dy w) x y| ≤ R) :
    ∀ x ∈ Icc (0 : ℝ) 1, ∀ y ∈ Icc (0 : ℝ) 1, |w x y| ≤ β + R * (x * (1 - x) / 2) := by
  have hR0 : 0 ≤ R := (abs_nonneg _).trans (hR 0 ⟨le_rfl, zero_le_one⟩ 0 ⟨le_rfl, zero_le_one⟩)
  have hc : ∀ {v : ℝ → ℝ → ℝ}, dx (fun x y => v x y - β) = dx v ∧ dy (fun x y => v x y - β) = dy v := fun {v} =>
    ⟨by funext x y; exact deriv_sub_const _, by funext x y; exact deriv_sub_const _⟩
  have hs : ∀ {v : ℝ → ℝ → ℝ}, Smooth2 v → Smooth2 fun x y => v x y - β := fun h => ContDiff.sub h contDiff_const
  intro x h1 y h2
  refine abs_le.2 ⟨?_, ?_⟩
  · have := laplace_upper_le (hs hw.neg) hR0
      (fun y hy => ⟨by linarith [(abs_le.1 (hx y hy).1).1], by linarith [(abs_le.1 (hx y hy).2).1]⟩)
      (fun x hx => ⟨by linarith [(abs_le.1 (hy x hx).1).1], by linarith [(abs_le.1 (hy x hx).2).1]⟩)
      (fun x hx y hy => by
        rw [hc.1, hc.2, dx_neg, dy_neg, dx_neg, dy_neg]
        linarith [(abs_le.1 (hR x hx y hy)).2]) x h1 y h2
    linarith
  · have := laplace_upper_le (hs hw) hR0
      (fun y hy => ⟨by linarith [(abs_le.1 (hx y hy).1).2], by linarith [(abs_le.1 (hx y hy).2).2]⟩)
      (fun x hx => ⟨by linarith [(abs_le.1 (hy x hx).1).2], by linarith [(abs_le.1 (hy x hx).2).2]⟩)
      (fun x hx y hy => by
        rw [hc.1, hc.2]
        linarith [(abs_le.1 (hR x hx y hy)).1]) x h1 y h2
    linarith

/-- The error of any smooth function against the solution: what the residual and the boundary conditions are missed by. -/
theorem poisson_sides {z : ℝ → ℝ → ℝ} (hz : Smooth2 z) {R β : ℝ}
    (hx : ∀ y ∈ Icc (0 : ℝ) 1, |z 0 y - y ^ 3| ≤ β ∧ |z 1 y - (1 + y ^ 3) * Real.exp (-1)| ≤ β)
    (hy : ∀ x ∈ Icc (0 : ℝ) 1, |z x 0 - x * Real.exp (-x)| ≤ β ∧ |z x 1 - (x + 1) * Real.exp (-x)| ≤ β)
    (hR : ∀ x ∈ Icc (0 : ℝ) 1, ∀ y ∈ Icc (0 : ℝ) 1, |poiResid z x y| ≤ R) :
    ∀ x ∈ Icc (0 : ℝ) 1, ∀ y ∈ Icc (0 : ℝ) 1, |z x y - poiReal x y| ≤ β + R / 8 := by
  have hv := poiReal_smooth
  have hR0 : 0 ≤ R := (abs_nonneg _).trans (hR 0 ⟨le_rfl, zero_le_one⟩ 0 ⟨le_rfl, zero_le_one⟩)
  have := laplace_bound_sides (hz.sub hv) (R := R) (β := β) (fun y h => ?_) (fun x h => ?_) fun x h1 y h2 => ?_
  · intro x h1 y h2
    have p := parab_le (x := x)
    exact (this x h1 y h2).trans (by nlinarith)
  · have e0 : poiReal 0 y = y ^ 3 := by simp [poiReal]
    have e1 : poiReal 1 y = (1 + y ^ 3) * Real.exp (-1) := by unfold poiReal; ring
    rw [e0, e1]
    exact hx y h
  · have e0 : poiReal x 0 = x * Real.exp (-x) := by unfold poiReal; ring
    have e1 : poiReal x 1 = (x + 1) * Real.exp (-x) := by unfold poiReal; ring
    rw [e0, e1]
    exact hy x h
  · rw [hz.dx_sub hv, hz.dy_sub hv, hz.dx.dx_sub hv.dx, hz.dy.dy_sub hv.dy]
    have e := C83_poisson.2 x y
    have r := hR x h1 y h2
    unfold poiResid at e r
    convert r using 2
    linear_combination -e

/-! ## The number of basis functions -/

/-- The number of columns of `H` is the attribute `numBasisFunc`. -/
theorem numBasis_cols {n : List ℕ} {nC : MNCArg} {deg dim : ℕ} (hdim : 1 ≤ dim) {basis backend : String} {x0 xf : Option (List ℝ)}
    {w : ℕ → ℕ → ℝ} {b : ℕ → ℝ} {u : Mtfc} (hu : mtfcInit n nC deg dim basis x0 xf backend w b = .ok u) {f : NFamily}
    (hf : u.basis.mcls w b = .tensor f) {N : ℕ} {xs : ℕ → ℕ → ℝ} {ds : List ℕ} (hds : dim ≤ ds.length) {A : Mat ℝ}
    (hA : u.Hjax N xs ds false = .ok A) : u.obj.numBasis false = A.cols := by
  obtain ⟨-, -, hud, -, -, -, -, -, -, ⟨be, -, hobj⟩, -, -⟩ := mtfcInit_ok hu
  rw [hf] at hobj
  obtain ⟨o, g1, -, g2⟩ := MObj.new_tensor be f (m := deg + 1) hdim (by omega) u.x0 u.xf u.numC u.tab u.nCl
  rw [g1] at hobj
  cases hobj
  obtain ⟨L, -, hnum, hret⟩ := g2 false
  obtain ⟨B, hB, -, hc, -⟩ := hret N xs ds hds
  unfold Mtfc.Hjax at hA
  rw [hud, hB] at hA
  cases hA
  rw [hnum, hc]

/-- The pairs of exponents of total degree at most `d`. -/
theorem pairs_count {d : ℕ} {L : List (Fin 2 → ℕ)} (hL : L.Nodup) (hm : ∀ α, α ∈ L ↔ ∑ k, α k ≤ d) : L.length = (d + 1) * (d + 2) / 2 := by
  classical
  have e : L.toFinset = ((Finset.range (d + 1)).sigma fun s => Finset.antidiagonal s).image fun p => ![p.2.1, p.2.2] := by
    ext α
    simp only [List.mem_toFinset, hm, Fin.sum_univ_two, Finset.mem_image, Finset.mem_sigma, Finset.mem_range, Finset.mem_antidiagonal]
    constructor
    · intro h
      refine ⟨⟨α 0 + α 1, α 0, α 1⟩, ⟨Nat.lt_succ_of_le h, rfl⟩, ?_⟩
      funext k
      fin_cases k <;> rfl
    · rintro ⟨⟨s, a, b⟩, ⟨h1, h2⟩, rfl⟩
      simp only [Matrix.cons_val_zero, Matrix.cons_val_one] at h1 h2 ⊢
      omega
  rw [← List.toFinset_card_of_nodup hL, e, Finset.card_image_of_injOn, Finset.card_sigma]
  · simp only [Finset.Nat.card_antidiagonal]
    have := Finset.sum_range_id_mul_two (d + 2)
    rw [Finset.sum_range_succ'] at this
    simp only [add_zero] at this
    rw [show d + 2 - 1 = d + 1 by omega, mul_comm (d + 2)] at this
    omega
  · rintro ⟨s, a, b⟩ h1 ⟨s', a', b'⟩ h2 h
    simp only [Finset.coe_sigma, Set.mem_sigma_iff, Finset.mem_coe, Finset.mem_range, Finset.mem_antidiagonal] at h1 h2
    have ha := congrFun h 0
    have hb := congrFun h 1
    simp only [Matrix.cons_val_zero, Matrix.cons_val_one] at ha hb
    obtain rfl := ha
    obtain rfl := hb
    obtain rfl : s = s' := by omega
    rfl

/-- The object of the program, for any number of points and degree, both backends. -/
theorem spectral_object (n : ℕ) (hn : 2 ≤ n) (deg : ℕ) (backend : String) (hbe : backend = "C++" ∨ backend = "Python")
    (w : ℕ → ℕ → ℝ) (b : ℕ → ℝ) :
    ∃ u, mtfcInit [n, n] (.list [.int (-1), .int (-1)]) deg 2 "CP" (some [0, 0]) (some [1, 1]) backend w b = .ok u ∧
      (u.x0 0 = 0 ∧ u.x0 1 = 0 ∧ u.xf 0 = 1 ∧ u.xf 1 = 1) ∧ u.obj.numBasis false = (((deg + 1) * (deg + 2) / 2 : ℕ) : ℤ) ∧
      (u.x.getD 1 []).length = (u.x.getD 0 []).length ∧ ∃ φ, ColumnFns 2 u ((deg + 1) * (deg + 2) / 2) φ := by
  obtain ⟨u, hu, hd⟩ := build_poly n n (by omega) (by omega) (.int (-1)) (.int (-1)) (by simp) deg (by simp [count]) "CP" backend
    (Or.inl rfl) hbe 0 0 1 1 w b
  have hx : ∀ k < 2, u.x0 k ≠ u.xf k := fun k hk => (x_lt hd zero_lt_one zero_lt_one k hk).ne
  obtain ⟨m, φ, h⟩ := mtfc_columns (by norm_num) hu (Or.inl rfl)
  have hbn := (mtfcInit_ok hu).2.2.2.2.2.1
  have hf : u.basis.mcls w b = .tensor .cp := by
    rw [show BasisName.parse "CP" = some .cp by decide] at hbn
    rw [← Option.some.inj hbn]
    rfl
  obtain ⟨L, hL, hmem, hret⟩ := C20_columns_partial [n, n] [.int (-1), .int (-1)] (by simp) deg 2 (by omega) "CP" backend _ _ w b u hu .cp hf
  have hlen : L.length = (deg + 1) * (deg + 2) / 2 := by
    refine pairs_count hL fun α => (hmem α).trans ⟨fun h => h.1, fun h => ⟨h, 0, ?_⟩⟩
    simp only [Asks, List.getD]
    simp
  obtain ⟨A, hA, -, hc, -⟩ := h.2 0 (fun _ _ => 0) [0, 0] rfl (by simp)
  obtain ⟨B, hB, -, hc', -⟩ := hret 0 (fun _ _ => 0) [0, 0] (by simp)
  rw [hA] at hB
  cases hB
  have hm : m = (deg + 1) * (deg + 2) / 2 := by rw [← hlen, ← hc', hc]
  have hg := (C14_grid _ _ deg 2 (by omega) "CP" backend _ _ w b u hu (by simp; omega) hx).2.2.2.1
  refine ⟨u, hu, hd, ?_, (hg 1 (by omega)).2.trans (hg 0 (by omega)).2.symm, φ, hm ▸ h⟩
  rw [numBasis_cols (by omega) hu hf (by simp) hA, hc, hm]

/-! ## The program -/

/-- **C119, the points on the sides.** `np.where(x[0]==0.)` and the three others are not empty: each side of the square has collocation points, no two
neighbours farther apart than twice `gap n`. -/
theorem C119_points (n : ℕ) (hn : 2 ≤ n) (deg : ℕ) (backend : String) (w : ℕ → ℕ → ℝ) (b : ℕ → ℝ) (u : Mtfc)
    (hu : mtfcInit [n, n] (.list [.int (-1), .int (-1)]) deg 2 "CP" (some [0, 0]) (some [1, 1]) backend w b = .ok u)
    (hd : u.x0 0 = 0 ∧ u.x0 1 = 0 ∧ u.xf 0 = 1 ∧ u.xf 1 = 1) (s : ℝ) (hs : s ∈ Icc (0 : ℝ) 1) :
    (∀ a, a = 0 ∨ a = 1 → ∃ t ∈ points u, t.1 = a ∧ t.2 ∈ Icc (0 : ℝ) 1 ∧ |s - t.2| ≤ gap n) ∧
      ∀ a, a = 0 ∨ a = 1 → ∃ t ∈ points u, t.2 = a ∧ t.1 ∈ Icc (0 : ℝ) 1 ∧ |s - t.1| ≤ gap n := by
  have hx := x_lt hd zero_lt_one zero_lt_one
  have hn2 : ∀ v ∈ [n, n], 2 ≤ v := by simp [hn]
  have key := points_sides [n, n] hn2 _ deg 2 (by omega) "CP" backend _ _ w b u hu hx
  have hmem : ∀ p, p < [n, n].prod → ((u.x.getD 0 []).getD p 0, (u.x.getD 1 []).getD p 0) ∈ points u := by
    intro p hp
    refine List.mem_map.2 ⟨p, List.mem_range.2 ?_, rfl⟩
    rw [(points_length hn2 hu fun k hk => (hx k hk).ne).1]
    exact hp
  constructor
  · intro a ha
    have ha' : a ∈ Icc (0 : ℝ) 1 := by rcases ha with rfl | rfl <;> simp
    obtain ⟨p, hp, h⟩ := key (fun k => if k = 0 then a else s) fun k hk => by
      interval_cases k
      · simpa [hd.1, hd.2.2.1] using ha'
      · simpa [hd.2.1, hd.2.2.2] using hs
    obtain ⟨-, -, l, r⟩ := h 0 (by omega)
    obtain ⟨m, g, -, -⟩ := h 1 (by omega)
    refine ⟨_, hmem p hp, ?_, ?_, ?_⟩
    · rcases ha with rfl | rfl
      · exact (l hd.1.symm).trans hd.1
      · exact (r hd.2.2.1.symm).trans hd.2.2.1
    · simpa [hd.2.1, hd.2.2.2] using m
    · simpa [hd.2.1, hd.2.2.2, gap] using g
  · intro a ha
    have ha' : a ∈ Icc (0 : ℝ) 1 := by rcases ha with rfl | rfl <;> simp
    obtain ⟨p, hp, h⟩ := key (fun k => if k = 0 then s else a) fun k hk => by
      interval_cases k
      · simpa [hd.1, hd.2.2.1] using hs
      · simpa [hd.2.1, hd.2.2.2] using ha'
    obtain ⟨-, -, l, r⟩ := h 1 (by omega)
    obtain ⟨m, g, -, -⟩ := h 0 (by omega)
    refine ⟨_, hmem p hp, ?_, ?_, ?_⟩
    · rcases ha with rfl | rfl
      · exact (l hd.2.1.symm).trans hd.2.1
      · exact (r hd.2.2.2.symm).trans hd.2.2.2
    · simpa [hd.1, hd.2.2.1] using m
    · simpa [hd.1, hd.2.2.1, gap] using g

/-- **C119, the cases left out.** Where `H` has more columns than there are points the program notes `nan`. There are `(m+1)(m+2)/2` columns. -/
theorem C119_nan (lib : LinAlg) (n : ℕ) (hn : 2 ≤ n) (deg : ℕ) (hmany : n ^ 2 < (deg + 1) * (deg + 2) / 2) (backend : String)
    (hbe : backend = "C++" ∨ backend = "Python") (w : ℕ → ℕ → ℝ) (b : ℕ → ℝ) :
    ∃ u, mtfcInit [n, n] (.list [.int (-1), .int (-1)]) deg 2 "CP" (some [0, 0]) (some [1, 1]) backend w b = .ok u ∧
      solveSpectral lib n u = .ok none := by
  obtain ⟨u, hu, -, hnum, -⟩ := spectral_object n hn deg backend hbe w b
  refine ⟨u, hu, ?_⟩
  unfold solveSpectral
  rw [hnum, if_pos (by exact_mod_cast hmany)]

/-- Concrete cases: of the entries of the table, `n = 5` with `m = 10` is left out and `n = 5` with `m = 5` is not. -/
example : 5 ^ 2 < (10 + 1) * (10 + 2) / 2 ∧ (5 + 1) * (5 + 2) / 2 ≤ 5 ^ 2 := by decide

/-- **C119.** For any number of points from 2 on, any degree with no more columns than points, both backends: the program returns coefficients; the
values of `u(xi,*x)` are those of a polynomial of total degree at most `deg`; and among all these polynomials it has the least sum of squares of the
residual at the points and of the four boundary conditions at the points on the sides. -/
theorem C119_spectral (lib : LinAlg) (hlib : LinAlgCorrect lib) (n : ℕ) (hn : 2 ≤ n) (deg : ℕ) (hfew : (deg + 1) * (deg + 2) / 2 ≤ n ^ 2)
    (backend : String) (hbe : backend = "C++" ∨ backend = "Python") (w : ℕ → ℕ → ℝ) (b : ℕ → ℝ) :
    ∃ u xi, ∃ Z : MvPolynomial (Fin 2) ℝ,
      mtfcInit [n, n] (.list [.int (-1), .int (-1)]) deg 2 "CP" (some [0, 0]) (some [1, 1]) backend w b = .ok u ∧
      solveSpectral lib n u = .ok (some xi) ∧ Z.totalDegree ≤ deg ∧
      (∀ N X Y, exprEval u noExpr xi N X Y = .ok ((List.range N).map fun j => evalXY Z (X j) (Y j))) ∧
      (u.x0 0 = 0 ∧ u.x0 1 = 0 ∧ u.xf 0 = 1 ∧ u.xf 1 = 1) ∧
      ∀ R : MvPolynomial (Fin 2) ℝ, R.totalDegree ≤ deg → boundarySq (points u) (evalXY Z) ≤ boundarySq (points u) (evalXY R) := by
  obtain ⟨u, hu, hd, hnum, hlen, φ, h⟩ := spectral_object n hn deg backend hbe w b
  have hx : ∀ k < 2, u.x0 k ≠ u.xf k := fun k hk => (x_lt hd zero_lt_one zero_lt_one k hk).ne
  obtain ⟨xi, hs, hmin⟩ := spectral_run h hlen hnum hfew hlib
  have G := noExpr_good h
  obtain ⟨hr1, hr2⟩ := C100_reach [n, n] (.int (-1)) (.int (-1)) (by simp) deg "CP" backend (Or.inl rfl) _ _ w b u hu hx noExpr G.xs G.ys
  obtain ⟨Z, hZ, hfree⟩ := hr1 xi
  have eZ := free_unique hfree (G.cols.free xi)
  refine ⟨u, xi, Z, hu, hs, hZ, fun N X Y => ?_, hd, fun R hR => ?_⟩
  · rw [G.eval, full_noExpr, eZ]
  · obtain ⟨xi', g, hg, e⟩ := hr2 (Or.inl fun a ha => by simp [Asks] at ha; omega) R hR
    rw [full_noExpr, full_noExpr] at e
    rw [eZ, ← e, free_unique hg (G.cols.free xi')]
    exact hmin _

theorem sumSq2_nonneg (pts : List (ℝ × ℝ)) (f : ℝ → ℝ → ℝ) : 0 ≤ sumSq2 pts f :=
  List.sum_nonneg fun x hx => by
    obtain ⟨t, -, rfl⟩ := List.mem_map.1 hx
    positivity

theorem le_sumSq2 {pts : List (ℝ × ℝ)} {f : ℝ → ℝ → ℝ} {t : ℝ × ℝ} (ht : t ∈ pts) : f t.1 t.2 ^ 2 ≤ sumSq2 pts f :=
  List.single_le_sum (fun x hx => by
    obtain ⟨t, -, rfl⟩ := List.mem_map.1 hx
    positivity) _ (List.mem_map.2 ⟨t, ht, rfl⟩)

theorem boundarySq_nonneg (pts : List (ℝ × ℝ)) (z : ℝ → ℝ → ℝ) : 0 ≤ boundarySq pts z :=
  add_nonneg (add_nonneg (add_nonneg (add_nonneg (sumSq2_nonneg _ _) (sumSq2_nonneg _ _)) (sumSq2_nonneg _ _)) (sumSq2_nonneg _ _))
    (sumSq2_nonneg _ _)

theorem boundarySq_parts {pts : List (ℝ × ℝ)} {z : ℝ → ℝ → ℝ} {δ : ℝ} (hδ : 0 ≤ δ) (h : boundarySq pts z ≤ δ ^ 2) :
    ∀ t ∈ pts, |poiResid z t.1 t.2| ≤ δ ∧ (t.1 = 0 → |z t.1 t.2 - t.2 ^ 3| ≤ δ) ∧
      (t.1 = 1 → |z t.1 t.2 - (1 + t.2 ^ 3) * Real.exp (-1)| ≤ δ) ∧ (t.2 = 0 → |z t.1 t.2 - t.1 * Real.exp (-t.1)| ≤ δ) ∧
      (t.2 = 1 → |z t.1 t.2 - (t.1 + 1) * Real.exp (-t.1)| ≤ δ) := by
  classical
  intro t ht
  unfold boundarySq at h
  have n0 := sumSq2_nonneg pts (poiResid z)
  have n1 := sumSq2_nonneg (pts.filter fun t => t.1 = 0) (fun x y => z x y - y ^ 3)
  have n2 := sumSq2_nonneg (pts.filter fun t => t.1 = 1) (fun x y => z x y - (1 + y ^ 3) * Real.exp (-1))
  have n3 := sumSq2_nonneg (pts.filter fun t => t.2 = 0) (fun x y => z x y - x * Real.exp (-x))
  have n4 := sumSq2_nonneg (pts.filter fun t => t.2 = 1) (fun x y => z x y - (x + 1) * Real.exp (-x))
  refine ⟨abs_le_of_sq_le_sq ?_ hδ, fun e => abs_le_of_sq_le_sq ?_ hδ, fun e => abs_le_of_sq_le_sq ?_ hδ, fun e => abs_le_of_sq_le_sq ?_ hδ,
    fun e => abs_le_of_sq_le_sq ?_ hδ⟩
  · have := le_sumSq2 (f := poiResid z) ht
    linarith
  · have := le_sumSq2 (f := fun x y => z x y - y ^ 3) (pts := pts.filter fun t => t.1 = 0) (t := t) (by simp [ht, e])
    linarith
  · have := le_sumSq2 (f := fun x y => z x y - (1 + y ^ 3) * Real.exp (-1)) (pts := pts.filter fun t => t.1 = 1) (t := t) (by simp [ht, e])
    linarith
  · have := le_sumSq2 (f := fun x y => z x y - x * Real.exp (-x)) (pts := pts.filter fun t => t.2 = 0) (t := t) (by simp [ht, e])
    linarith
  · have := le_sumSq2 (f := fun x y => z x y - (x + 1) * Real.exp (-x)) (pts := pts.filter fun t => t.2 = 1) (t := t) (by simp [ht, e])
    linarith

/-- One side: from the points to the whole side. -/
theorem between_side {F : ℝ → ℝ} (hF : Differentiable ℝ F) {M δ g s q : ℝ} (hM : ∀ s ∈ Icc (0 : ℝ) 1, |deriv F s| ≤ M) (hs : s ∈ Icc (0 : ℝ) 1)
    (hq : q ∈ Icc (0 : ℝ) 1) (hg : |s - q| ≤ g) (hδ : |F q| ≤ δ) : |F s| ≤ δ + M * g := by
  have m1 := (convex_Icc (0 : ℝ) 1).norm_image_sub_le_of_norm_deriv_le (f := F) (C := M) (fun s _ => hF s) (fun s hs => hM s hs) hq hs
  rw [Real.norm_eq_abs, Real.norm_eq_abs] at m1
  have hM0 : 0 ≤ M := (abs_nonneg _).trans (hM s hs)
  have := mul_le_mul_of_nonneg_left hg hM0
  calc |F s| = |F q + (F s - F q)| := by ring_nf
    _ ≤ |F q| + |F s - F q| := abs_add_le _ _
    _ ≤ δ + M * g := by linarith

/-- By how much the four boundary conditions are missed changes no faster than `M` along the sides. -/
def SlowSides (z : ℝ → ℝ → ℝ) (M : ℝ) : Prop := ∀ s ∈ Icc (0 : ℝ) 1,
  |deriv (fun y => z 0 y - y ^ 3) s| ≤ M ∧ |deriv (fun y => z 1 y - (1 + y ^ 3) * Real.exp (-1)) s| ≤ M ∧
    |deriv (fun x => z x 0 - x * Real.exp (-x)) s| ≤ M ∧ |deriv (fun x => z x 1 - (x + 1) * Real.exp (-x)) s| ≤ M

/-- **C119, the error.** If the least sum of squares is at most `δ²`, the error of the returned function on the whole square is at most
`δ + δ/8`, and what the residual and the boundary conditions can change between the points. -/
theorem C119_error (n : ℕ) (hn : 2 ≤ n) (deg : ℕ) (backend : String) (w : ℕ → ℕ → ℝ) (b : ℕ → ℝ) (u : Mtfc)
    (hu : mtfcInit [n, n] (.list [.int (-1), .int (-1)]) deg 2 "CP" (some [0, 0]) (some [1, 1]) backend w b = .ok u)
    (hd : u.x0 0 = 0 ∧ u.x0 1 = 0 ∧ u.xf 0 = 1 ∧ u.xf 1 = 1) (z : ℝ → ℝ → ℝ) (hz : Smooth2 z) (δ : ℝ) (hδ : 0 ≤ δ)
    (h : boundarySq (points u) z ≤ δ ^ 2) (L M : ℝ)
    (hL : ∀ x ∈ Icc (0 : ℝ) 1, ∀ y ∈ Icc (0 : ℝ) 1, |dx (poiResid z) x y| ≤ L ∧ |dy (poiResid z) x y| ≤ L) (hM : SlowSides z M) :
    ∀ x ∈ Icc (0 : ℝ) 1, ∀ y ∈ Icc (0 : ℝ) 1, |z x y - poiReal x y| ≤ δ + M * gap n + (δ + 2 * L * gap n) / 8 := by
  have hp := boundarySq_parts hδ h
  have hin := C100_between n n hn hn _ deg "CP" backend _ _ w b u hu (x_lt hd zero_lt_one zero_lt_one) (poiResid z)
    (fun x _ y _ => smooth_slices (poiResid_smooth hz) x y) δ L L (fun t ht => (hp t ht).1) (by rw [hd.1, hd.2.1, hd.2.2.1, hd.2.2.2]; exact hL)
  rw [hd.1, hd.2.1, hd.2.2.1, hd.2.2.2, sub_zero, one_mul] at hin
  have hP := C119_points n hn deg backend w b u hu hd
  have dfx : ∀ y, Differentiable ℝ fun s => z s y := fun y => (hz.left y).differentiable (by simp)
  have dfy : ∀ x, Differentiable ℝ fun s => z x s := fun x => (hz.right x).differentiable (by simp)
  have hs := poisson_sides hz (R := δ + L * gap n + L * gap n) (β := δ + M * gap n) (fun s hs => ⟨?_, ?_⟩) (fun s hs => ⟨?_, ?_⟩) hin
  · intro x hx y hy
    exact (hs x hx y hy).trans (by linarith)
  · obtain ⟨t, ht, e, hq, hg⟩ := (hP s hs).1 0 (Or.inl rfl)
    have := (hp t ht).2.1 e
    rw [e] at this
    exact between_side (F := fun y => z 0 y - y ^ 3) ((dfy 0).sub (by fun_prop)) (fun s hs => (hM s hs).1) hs hq hg this
  · obtain ⟨t, ht, e, hq, hg⟩ := (hP s hs).1 1 (Or.inr rfl)
    have := (hp t ht).2.2.1 e
    rw [e] at this
    exact between_side (F := fun y => z 1 y - (1 + y ^ 3) * Real.exp (-1)) ((dfy 1).sub (by fun_prop)) (fun s hs => (hM s hs).2.1) hs hq hg this
  · obtain ⟨t, ht, e, hq, hg⟩ := (hP s hs).2 0 (Or.inl rfl)
    have := (hp t ht).2.2.2.1 e
    rw [e] at this
    exact between_side (F := fun x => z x 0 - x * Real.exp (-x)) ((dfx 0).sub (by fun_prop)) (fun s hs => (hM s hs).2.2.1) hs hq hg this
  · obtain ⟨t, ht, e, hq, hg⟩ := (hP s hs).2 1 (Or.inr rfl)
    have := (hp t ht).2.2.2.2 e
    rw [e] at this
    exact between_side (F := fun x => z x 1 - (x + 1) * Real.exp (-x)) ((dfx 1).sub (by fun_prop)) (fun s hs => (hM s hs).2.2.2) hs hq hg this

theorem interval_bounded {F : ℝ → ℝ} (hF : Continuous F) : ∃ R, ∀ s ∈ Icc (0 : ℝ) 1, |F s| ≤ R := by
  obtain ⟨R, hR⟩ := isCompact_Icc.exists_bound_of_continuousOn (f := F) hF.continuousOn
  exact ⟨R, fun s hs => by simpa using hR s hs⟩

/-- Every smooth function meets the hypotheses of `C119_error` for some bounds. -/
theorem slow_exists {z : ℝ → ℝ → ℝ} (hz : Smooth2 z) : (∃ M, SlowSides z M) ∧
    ∃ L, ∀ x ∈ Icc (0 : ℝ) 1, ∀ y ∈ Icc (0 : ℝ) 1, |dx (poiResid z) x y| ≤ L ∧ |dy (poiResid z) x y| ≤ L := by
  have hr := poiResid_smooth hz
  have hc : ∀ {F : ℝ → ℝ}, ContDiff ℝ ∞ F → Continuous (deriv F) := fun h => h.continuous_deriv (by simp)
  have k0 : ContDiff ℝ ∞ fun y => z 0 y - y ^ 3 := (hz.right 0).sub (by fun_prop)
  have k1 : ContDiff ℝ ∞ fun y => z 1 y - (1 + y ^ 3) * Real.exp (-1) := (hz.right 1).sub (by fun_prop)
  have k2 : ContDiff ℝ ∞ fun x => z x 0 - x * Real.exp (-x) := (hz.left 0).sub (by fun_prop)
  have k3 : ContDiff ℝ ∞ fun x => z x 1 - (x + 1) * Real.exp (-x) := (hz.left 1).sub (by fun_prop)
  obtain ⟨M0, h0⟩ := interval_bounded (hc k0)
  obtain ⟨M1, h1⟩ := interval_bounded (hc k1)
  obtain ⟨M2, h2⟩ := interval_bounded (hc k2)
  obtain ⟨M3, h3⟩ := interval_bounded (hc k3)
  obtain ⟨L1, l1⟩ := rect_bounded (F := dx (poiResid z)) (a := 0) (b := 1) (c := 0) (d := 1) hr.dx.continuous.continuousOn
  obtain ⟨L2, l2⟩ := rect_bounded (F := dy (poiResid z)) (a := 0) (b := 1) (c := 0) (d := 1) hr.dy.continuous.continuousOn
  refine ⟨⟨max (max M0 M1) (max M2 M3), fun s hs => ⟨?_, ?_, ?_, ?_⟩⟩, max L1 L2, fun x hx y hy => ⟨?_, ?_⟩⟩
  · exact (h0 s hs).trans (by simp)
  · exact (h1 s hs).trans (by simp)
  · exact (h2 s hs).trans (by simp)
  · exact (h3 s hs).trans (by simp)
  · exact (l1 x hx y hy).trans (by simp)
  · exact (l2 x hx y hy).trans (by simp)

/-- Concrete case of `C119_spectral` and `C119_error`: the entry `n = 5`, `m = 5` of the table. -/
example (w : ℕ → ℕ → ℝ) (b : ℕ → ℝ) : ∃ lib u xi, ∃ Z : MvPolynomial (Fin 2) ℝ, solveSpectral lib 5 u = .ok (some xi) ∧
    ∃ δ L M, ∀ x ∈ Icc (0 : ℝ) 1, ∀ y ∈ Icc (0 : ℝ) 1, |evalXY Z x y - poiReal x y| ≤ δ + M * gap 5 + (δ + 2 * L * gap 5) / 8 := by
  obtain ⟨lib, hlib⟩ := Verif.Lemmas.LinAlg.linAlg_exists
  obtain ⟨u, xi, Z, hu, hs, -, -, hd, -⟩ := C119_spectral lib hlib 5 (by norm_num) 5 (by norm_num) "C++" (Or.inl rfl) w b
  have hz : Smooth2 (evalXY Z) := evalXY_smooth Z
  obtain ⟨⟨M, hM⟩, L, hL⟩ := slow_exists hz
  exact ⟨lib, u, xi, Z, hs, √(boundarySq (points u) (evalXY Z)), L, M, C119_error 5 (by norm_num) 5 "C++" w b u hu hd _ hz _ (Real.sqrt_nonneg _)
    (Real.sq_sqrt (boundarySq_nonneg _ _)).ge L M hL hM⟩

/-- **C119, what the constrained expression adds.** No polynomial meets the boundary condition `z(x, 0) = x e⁻ˣ` on the whole side, so the function of this
program never does; that of Example_3_2_tfc.py always does (`C100_poisson`). -/
theorem C119_sides (Z : MvPolynomial (Fin 2) ℝ) : ∃ x ∈ Icc (0 : ℝ) 1, evalXY Z x 0 ≠ x * Real.exp (-x) := by
  by_contra hcon
  push Not at hcon
  obtain ⟨p, hp⟩ : ∃ p : ℝ[X], ∀ x, p.eval x = evalXY Z x 0 := by
    refine ⟨MvPolynomial.aeval ![Polynomial.X, 0] Z, fun x => ?_⟩
    have := MvPolynomial.map_aeval (![Polynomial.X, 0] : Fin 2 → ℝ[X]) (Polynomial.evalRingHom x) Z
    rw [Polynomial.coe_evalRingHom] at this
    rw [this]
    unfold evalXY
    rw [MvPolynomial.eval, MvPolynomial.coe_eval₂Hom, MvPolynomial.coe_eval₂Hom]
    congr 1
    · ext r; simp
    · funext k
      fin_cases k <;> simp
  have hv : ∀ x ∈ Icc (0 : ℝ) 1, p.eval x = x * Real.exp (-x) := fun x hx => (hp x).trans (hcon x hx)
  have hder : ∀ x ∈ Ioo (0 : ℝ) 1, p.derivative.eval x = (1 - x) * Real.exp (-x) := by
    intro x hx
    have h1 : HasDerivAt (fun s => p.eval s) (p.derivative.eval x) x := p.hasDerivAt x
    have h2 : HasDerivAt (fun s : ℝ => s * Real.exp (-s)) ((1 - x) * Real.exp (-x)) x := by
      refine ((hasDerivAt_id x).mul ((hasDerivAt_neg x).exp)).congr_deriv ?_
      simp
      ring
    refine h1.unique (h2.congr_of_eventuallyEq ?_)
    filter_upwards [Ioo_mem_nhds hx.1 hx.2] with s hs using hv s ⟨hs.1.le, hs.2.le⟩
  have hid : Polynomial.X * p.derivative = (1 - Polynomial.X) * p := by
    refine Polynomial.eq_of_infinite_eval_eq _ _ ((Ioo_infinite (zero_lt_one (α := ℝ))).mono fun x hx => ?_)
    simp only [mem_ofPred_eq, Polynomial.eval_mul, Polynomial.eval_X, Polynomial.eval_sub, Polynomial.eval_one]
    rw [hder x hx, hv x ⟨hx.1.le, hx.2.le⟩]
    ring
  have h1 := hv 1 (by simp)
  have hp0 : p ≠ 0 := by
    rintro rfl
    simp at h1
    exact (Real.exp_pos _).ne h1
  have hdeg := congrArg Polynomial.natDegree hid
  have hq : (1 - Polynomial.X : ℝ[X]) = -(Polynomial.X - Polynomial.C 1) := by simp
  have hne : (1 - Polynomial.X : ℝ[X]) ≠ 0 := by rw [hq]; exact neg_ne_zero.2 (Polynomial.X_sub_C_ne_zero 1)
  rw [Polynomial.natDegree_mul hne hp0, hq, Polynomial.natDegree_neg, Polynomial.natDegree_X_sub_C] at hdeg
  by_cases hd0 : p.derivative = 0
  · rw [hd0, mul_zero, Polynomial.natDegree_zero] at hdeg
    omega
  · rw [Polynomial.natDegree_mul Polynomial.X_ne_zero hd0, Polynomial.natDegree_X] at hdeg
    have hl := Polynomial.natDegree_derivative_le p
    have : p.natDegree ≠ 0 := by
      intro h0
      exact hd0 (Polynomial.derivative_of_natDegree_zero h0)
    omega

end Verif.Props
