import Verif.Lemmas.MaxPrinciple
import Verif.Props.ReferencePde
import Verif.Props.Pdes

/-!
# A small residual means a small error (C96)

The programs print the residual or the difference from the reference solution at the points they evaluate. Here: if a function meets the
conditions of the problem and its residual is at most `R` at all points of the domain, then it differs from the reference solution by at
most a constant times `R`, at all points. With `R = 0` the reference solution is the only solution.
-/

namespace Verif.Props

open Verif Verif.Model.Prog Set
open scoped ContDiff

theorem parab_le {x : ℝ} : x * (1 - x) / 2 ≤ 1 / 8 := by nlinarith [sq_nonneg (x - 1 / 2)]

/-! ## The Poisson equation -/

theorem poiReal_smooth : Smooth2 poiReal := by
  unfold Smooth2 poiReal
  fun_prop

theorem poiU_smooth {g : ℝ → ℝ → ℝ} (hg : Smooth2 g) : Smooth2 (poiU g) := by
  have h0 := hg.at_left 0
  have h1 := hg.at_left 1
  have k : Smooth2 (poiU1 g) := by
    unfold Smooth2 poiU1 at *
    fun_prop
  have k0 := k.at_right 0
  have k1 := k.at_right 1
  unfold Smooth2 poiU at *
  fun_prop

/-- **C96**, the Poisson problem (D/Chapter_3/Example_3_2_tfc.py, Example_3_5.py): a smooth function with the four boundary values and
`|residual| ≤ R` on the square differs from the reference solution by at most `R x (1 - x) / 2`. -/
theorem C96_poisson (u : ℝ → ℝ → ℝ) (hu : Smooth2 u)
    (hx : ∀ y ∈ Icc (0 : ℝ) 1, u 0 y = y ^ 3 ∧ u 1 y = (1 + y ^ 3) * Real.exp (-1))
    (hy : ∀ x ∈ Icc (0 : ℝ) 1, u x 0 = x * Real.exp (-x) ∧ u x 1 = Real.exp (-x) * (x + 1)) {R : ℝ}
    (hR : ∀ x ∈ Icc (0 : ℝ) 1, ∀ y ∈ Icc (0 : ℝ) 1, |poiResid u x y| ≤ R) :
    ∀ x ∈ Icc (0 : ℝ) 1, ∀ y ∈ Icc (0 : ℝ) 1, |u x y - poiReal x y| ≤ R * (x * (1 - x) / 2) := by
  have hv := poiReal_smooth
  refine laplace_bound (hu.sub hv) (fun y h => ?_) (fun x h => ?_) fun x h1 y h2 => ?_
  · rw [(hx y h).1, (hx y h).2]
    unfold poiReal
    simp
    ring
  · rw [(hy x h).1, (hy x h).2]
    unfold poiReal
    constructor <;> ring
  · rw [hu.dx_sub hv, hu.dy_sub hv, hu.dx.dx_sub hv.dx, hu.dy.dy_sub hv.dy]
    have e := C83_poisson.2 x y
    have r := hR x h1 y h2
    unfold poiResid at e r
    convert r using 2
    linear_combination -e

/-- **C96**, the expression of the program: for all smooth free functions. -/
theorem C96_poisson_program (g : ℝ → ℝ → ℝ) (hg : Smooth2 g) {R : ℝ}
    (hR : ∀ x ∈ Icc (0 : ℝ) 1, ∀ y ∈ Icc (0 : ℝ) 1, |poiResid (poiU g) x y| ≤ R) :
    ∀ x ∈ Icc (0 : ℝ) 1, ∀ y ∈ Icc (0 : ℝ) 1, |poiU g x y - poiReal x y| ≤ R / 8 := by
  have hR0 : 0 ≤ R := (abs_nonneg _).trans (hR 0 ⟨le_rfl, zero_le_one⟩ 0 ⟨le_rfl, zero_le_one⟩)
  obtain ⟨c1, c2, c3, c4⟩ := C79_poisson g
  intro x h1 y h2
  have := C96_poisson (poiU g) (poiU_smooth hg) (fun y _ => ⟨c1 y, c2 y⟩) (fun x _ => ⟨c3 x, c4 x⟩) hR x h1 y h2
  nlinarith [parab_le (x := x)]

/-! ## The biharmonic equation -/

theorem bihReal_smooth : Smooth2 bihReal := by
  unfold Smooth2 bihReal
  fun_prop

theorem bihU_smooth {g : ℝ → ℝ → ℝ} (hg : Smooth2 g) : Smooth2 (bihU g) := by
  have k := bihU1_smooth hg
  have k0 := k.at_right 0
  have k1 := k.at_right 1
  have k2 := k.dy.dy.at_right 0
  have k3 := k.dy.dy.at_right 1
  unfold Smooth2 bihU at *
  fun_prop

/-- A function that vanishes on a side has vanishing derivatives along it. -/
theorem dy_side {F : ℝ → ℝ → ℝ} (hF : Smooth2 F) {a b c : ℝ} (hbc : b < c) (h : ∀ y ∈ Icc b c, F a y = 0) : ∀ y ∈ Icc b c, dy F a y = 0 :=
  fun y hy => deriv_zero_of_zero hbc (hF.hasDy a y) h hy

theorem dx_side {F : ℝ → ℝ → ℝ} (hF : Smooth2 F) {a b c : ℝ} (hbc : b < c) (h : ∀ x ∈ Icc b c, F x a = 0) : ∀ x ∈ Icc b c, dx F x a = 0 :=
  fun x hx => deriv_zero_of_zero (f := fun s => F s a) hbc (hF.hasDx x a) h hx

theorem dy_dy_side {F : ℝ → ℝ → ℝ} (hF : Smooth2 F) {a b c : ℝ} (hbc : b < c) (h : ∀ y ∈ Icc b c, F a y = 0) :
    ∀ y ∈ Icc b c, dy (dy F) a y = 0 := dy_side hF.dy hbc (dy_side hF hbc h)

theorem dx_dx_side {F : ℝ → ℝ → ℝ} (hF : Smooth2 F) {a b c : ℝ} (hbc : b < c) (h : ∀ x ∈ Icc b c, F x a = 0) :
    ∀ x ∈ Icc b c, dx (dx F) x a = 0 := dx_side hF.dx hbc (dx_side hF hbc h)

/-- **C96**, the biharmonic problem (D/Chapter_4/BiharmonicEquation/BiharmonicCartesianCoordinates.py): the solution and its second normal
derivative vanish on the four sides. -/
theorem C96_biharmonic (u : ℝ → ℝ → ℝ) (hu : Smooth2 u)
    (hx : ∀ y ∈ Icc (0 : ℝ) 1, u 0 y = 0 ∧ u 1 y = 0 ∧ dx (dx u) 0 y = 0 ∧ dx (dx u) 1 y = 0)
    (hy : ∀ x ∈ Icc (0 : ℝ) 1, u x 0 = 0 ∧ u x 1 = 0 ∧ dy (dy u) x 0 = 0 ∧ dy (dy u) x 1 = 0) {R : ℝ}
    (hR : ∀ x ∈ Icc (0 : ℝ) 1, ∀ y ∈ Icc (0 : ℝ) 1, |bihResid u x y| ≤ R) :
    ∀ x ∈ Icc (0 : ℝ) 1, ∀ y ∈ Icc (0 : ℝ) 1, |u x y - bihReal x y| ≤ R / 8 * (x * (1 - x) / 2) := by
  have hv := bihReal_smooth
  obtain ⟨v1, v2⟩ := C79_biharmonic bihReal hv
  rw [C83_biharmonic.1] at v1 v2
  obtain ⟨w, hwd⟩ : ∃ w, w = fun x y => u x y - bihReal x y := ⟨_, rfl⟩
  have hw : Smooth2 w := hwd ▸ hu.sub hv
  have x0 : ∀ y ∈ Icc (0 : ℝ) 1, w 0 y = 0 := fun y h => by rw [hwd]; simp [(hx y h).1, (v1 y).1]
  have x1 : ∀ y ∈ Icc (0 : ℝ) 1, w 1 y = 0 := fun y h => by rw [hwd]; simp [(hx y h).2.1, (v1 y).2.1]
  have y0 : ∀ x ∈ Icc (0 : ℝ) 1, w x 0 = 0 := fun x h => by rw [hwd]; simp [(hy x h).1, (v2 x).1]
  have y1 : ∀ x ∈ Icc (0 : ℝ) 1, w x 1 = 0 := fun x h => by rw [hwd]; simp [(hy x h).2.1, (v2 x).2.1]
  have wxx : dx (dx w) = fun x y => dx (dx u) x y - dx (dx bihReal) x y := by rw [hwd, hu.dx_sub hv, hu.dx.dx_sub hv.dx]
  have wyy : dy (dy w) = fun x y => dy (dy u) x y - dy (dy bihReal) x y := by rw [hwd, hu.dy_sub hv, hu.dy.dy_sub hv.dy]
  obtain ⟨s, hsd⟩ : ∃ s, s = fun x y => dx (dx w) x y + dy (dy w) x y := ⟨_, rfl⟩
  have hs : Smooth2 s := hsd ▸ hw.dx.dx.add hw.dy.dy
  have hS := laplace_bound hs (R := R) (fun y h => ?_) (fun x h => ?_) fun x h1 y h2 => ?_
  · have := laplace_bound hw (R := R / 8) (fun y h => ⟨x0 y h, x1 y h⟩) (fun x h => ⟨y0 x h, y1 x h⟩) fun x h1 y h2 => by
      have hR0 : 0 ≤ R := (abs_nonneg _).trans (hR 0 ⟨le_rfl, zero_le_one⟩ 0 ⟨le_rfl, zero_le_one⟩)
      have := hS x h1 y h2
      rw [hsd] at this
      refine this.trans ?_
      nlinarith [parab_le (x := x)]
    rw [hwd] at this
    exact this
  · rw [hsd]
    simp only [dy_dy_side hw one_pos x0 y h, dy_dy_side hw one_pos x1 y h, wxx, (hx y h).2.2.1, (hx y h).2.2.2, (v1 y).2.2.1, (v1 y).2.2.2]
    norm_num
  · rw [hsd]
    simp only [dx_dx_side hw one_pos y0 x h, dx_dx_side hw one_pos y1 x h, wyy, (hy x h).2.2.1, (hy x h).2.2.2, (v2 x).2.2.1, (v2 x).2.2.2]
    norm_num
  · have e := C83_biharmonic.2 x y
    have r := hR x h1 y h2
    have comm : ∀ {g : ℝ → ℝ → ℝ}, Smooth2 g → dx (dx (dy (dy g))) = dy (dy (dx (dx g))) := fun {g} hg => by
      rw [dx_dy hg.dy, dx_dy hg, dx_dy hg.dx.dy, dx_dy hg.dx]
    have d4 : dx (dx s) x y + dy (dy s) x y = dx (dx (dx (dx u))) x y + dy (dy (dy (dy u))) x y + 2 * dy (dy (dx (dx u))) x y
        - (dx (dx (dx (dx bihReal))) x y + dy (dy (dy (dy bihReal))) x y + 2 * dy (dy (dx (dx bihReal))) x y) := by
      have su := hu.dx.dx.sub hv.dx.dx
      have tu := hu.dy.dy.sub hv.dy.dy
      rw [hsd, wxx, wyy, su.dx_add tu, su.dy_add tu, su.dx.dx_add tu.dx, su.dy.dy_add tu.dy,
        hu.dx.dx.dx_sub hv.dx.dx, hu.dx.dx.dx.dx_sub hv.dx.dx.dx, hu.dy.dy.dx_sub hv.dy.dy, hu.dy.dy.dx.dx_sub hv.dy.dy.dx,
        hu.dx.dx.dy_sub hv.dx.dx, hu.dx.dx.dy.dy_sub hv.dx.dx.dy, hu.dy.dy.dy_sub hv.dy.dy, hu.dy.dy.dy.dy_sub hv.dy.dy.dy,
        comm hu, comm hv]
      ring
    rw [d4]
    unfold bihResid at e r
    convert r using 2
    linear_combination -e

/-- **C96**, the expression of the program: for all smooth free functions. -/
theorem C96_biharmonic_program (g : ℝ → ℝ → ℝ) (hg : Smooth2 g) {R : ℝ}
    (hR : ∀ x ∈ Icc (0 : ℝ) 1, ∀ y ∈ Icc (0 : ℝ) 1, |bihResid (bihU g) x y| ≤ R) :
    ∀ x ∈ Icc (0 : ℝ) 1, ∀ y ∈ Icc (0 : ℝ) 1, |bihU g x y - bihReal x y| ≤ R / 64 := by
  have hR0 : 0 ≤ R := (abs_nonneg _).trans (hR 0 ⟨le_rfl, zero_le_one⟩ 0 ⟨le_rfl, zero_le_one⟩)
  obtain ⟨c1, c2⟩ := C79_biharmonic g hg
  intro x h1 y h2
  have := C96_biharmonic (bihU g) (bihU_smooth hg) (fun y _ => c1 y) (fun x _ => c2 x) hR x h1 y h2
  nlinarith [parab_le (x := x)]

/-! ## tests/test_PDE.py -/

theorem quad_le {x : ℝ} : 1 / 4 + x * (1 - x) ≤ 1 / 2 := by nlinarith [sq_nonneg (x - 1 / 2)]

theorem quad_deriv {f : ℝ → ℝ} {d : ℝ} (M : ℝ) {x : ℝ} (hf : HasDerivAt f d x) :
    HasDerivAt (fun x => f x - M * (1 / 4 + x * (1 - x))) (d - M * (1 - 2 * x)) x := by
  have h : HasDerivAt (fun x : ℝ => 1 / 4 + x * (1 - x)) (1 - 2 * x) x := by
    refine HasDerivAt.congr_deriv (((hasDerivAt_id x).mul ((hasDerivAt_id x).const_sub 1)).const_add (1 / 4)) ?_
    simp
    ring
  exact hf.sub (h.const_mul M)

theorem quad_deriv2 {f : ℝ → ℝ} {d : ℝ} (M : ℝ) {x : ℝ} (hf : HasDerivAt f d x) :
    HasDerivAt (fun x => f x - M * (1 - 2 * x)) (d + 2 * M) x := by
  refine HasDerivAt.congr_deriv (hf.sub ((((hasDerivAt_id x).const_mul 2).const_sub 1).const_mul M)) ?_
  ring

/-- Boundary values 0 on three sides, derivative 0 on the fourth, any first-order term in `y`, a zero-order term with a factor up to 2. -/
theorem mixed_upper {w b c : ℝ → ℝ → ℝ} (hw : Smooth2 w) {R : ℝ} (hR0 : 0 ≤ R)
    (hx : ∀ y ∈ Icc (0 : ℝ) 1, w 0 y = 0 ∧ w 1 y = 0) (hy : ∀ x ∈ Icc (0 : ℝ) 1, w x 0 = 0 ∧ dy w x 1 = 0)
    (hc : ∀ x ∈ Icc (0 : ℝ) 1, ∀ y ∈ Icc (0 : ℝ) 1, c x y ≤ 2)
    (hR : ∀ x ∈ Icc (0 : ℝ) 1, ∀ y ∈ Icc (0 : ℝ) 1, -R ≤ dx (dx w) x y + dy (dy w) x y + b x y * dy w x y + c x y * w x y) :
    ∀ x ∈ Icc (0 : ℝ) 1, ∀ y ∈ Icc (0 : ℝ) 1, w x y ≤ R * (1 / 4 + x * (1 - x)) := by
  have hpos : ∀ P ∈ Icc (0 : ℝ) 1 ×ˢ Icc (0 : ℝ) 1, 0 < 1 / 4 + P.1 * (1 - P.1) := by
    rintro ⟨x, y⟩ ⟨h1, -⟩
    have : 0 ≤ x * (1 - x) := mul_nonneg h1.1 (by linarith [h1.2])
    simp only
    linarith
  intro x h1 y h2
  refine le_of_no_touch (isCompact_Icc.prod isCompact_Icc) (w := fun P : ℝ × ℝ => w P.1 P.2) (φ := fun P => 1 / 4 + P.1 * (1 - P.1))
    hw.continuous.continuousOn (by fun_prop) hpos ?_ (x, y) ⟨h1, h2⟩
  clear h1 h2 x y
  rintro M hM ⟨x, y⟩ hP he hle
  have hMp : 0 < M := lt_of_le_of_lt hR0 hM
  have hpp := mul_pos hMp (hpos _ hP)
  obtain ⟨hpx, hpy⟩ := hP
  simp only at hpx hpy he hpp
  have hne : w x y ≠ 0 := by rw [he]; exact hpp.ne'
  have x0 : 0 < x := lt_of_le_of_ne hpx.1 fun h => hne (h ▸ (hx y hpy).1)
  have x1 : x < 1 := lt_of_le_of_ne hpx.2 fun h => hne (h ▸ (hx y hpy).2)
  have y0 : 0 < y := lt_of_le_of_ne hpy.1 fun h => hne (h ▸ (hy x hpx).1)
  have t1 := touch x0 x1 (f := fun s => w s y - M * (1 / 4 + s * (1 - s))) (fun s _ => quad_deriv M (hw.hasDx s y))
    (quad_deriv2 M (hw.dx.hasDx x y)) fun s hs => by
      have := hle (s, y) ⟨hs, hpy⟩
      simp only at this ⊢
      linarith
  have hm : ∀ s ∈ Icc (0 : ℝ) 1, w x s ≤ w x y := fun s hs => by
    have := hle (x, s) ⟨hpx, hs⟩
    simp only at this ⊢
    linarith
  have d1 : dy w x y = 0 := by
    rcases eq_or_lt_of_le hpy.2 with h | h
    · rw [h]; exact (hy x hpx).2
    · exact (touch y0 h (f := fun s => w x s) (fun s _ => hw.hasDy x s) (hw.dy.hasDy x y) hm).1
  have d2 : dy (dy w) x y ≤ 0 := second_nonpos_of_max_left y0 (f := fun s => w x s) (fun s _ => hw.hasDy x s) (hw.dy.hasDy x y) d1
    fun s hs => hm s ⟨hs.1, hs.2.trans hpy.2⟩
  have hr := hR x hpx y hpy
  have hcw : c x y * w x y ≤ 2 * w x y := mul_le_mul_of_nonneg_right (hc x hpx y hpy) (by rw [he]; exact hpp.le)
  rw [d1, mul_zero, add_zero] at hr
  have := quad_le (x := x)
  nlinarith [t1.2]

theorem pdeReal_smooth : Smooth2 pdeReal := by
  unfold Smooth2 pdeReal
  fun_prop

theorem pde_dy (x y : ℝ) : dy pdeReal x y = 2 * y * Real.sin (Real.pi * x) := by
  have := ((hasDerivAt_pow 2 y).mul_const (Real.sin (Real.pi * x))).deriv
  push_cast at this
  rw [pow_one] at this
  exact this

/-- **C96**, tests/test_PDE.py: the equation has the nonlinear term `z z_y`, one side has a condition on the derivative. -/
theorem C96_pde (z : ℝ → ℝ → ℝ) (hz : Smooth2 z) (hx : ∀ y ∈ Icc (0 : ℝ) 1, z 0 y = 0 ∧ z 1 y = 0)
    (hy : ∀ x ∈ Icc (0 : ℝ) 1, z x 0 = 0 ∧ dy z x 1 = 2 * Real.sin (Real.pi * x)) {R : ℝ}
    (hR : ∀ x ∈ Icc (0 : ℝ) 1, ∀ y ∈ Icc (0 : ℝ) 1, |pdeResid z x y| ≤ R) :
    ∀ x ∈ Icc (0 : ℝ) 1, ∀ y ∈ Icc (0 : ℝ) 1, |z x y - pdeReal x y| ≤ R * (1 / 4 + x * (1 - x)) := by
  have hR0 : 0 ≤ R := (abs_nonneg _).trans (hR 0 ⟨le_rfl, zero_le_one⟩ 0 ⟨le_rfl, zero_le_one⟩)
  have hv := pdeReal_smooth
  obtain ⟨v1, v2, v3⟩ := C83_pde
  have hc : ∀ x ∈ Icc (0 : ℝ) 1, ∀ y ∈ Icc (0 : ℝ) 1, dy pdeReal x y ≤ 2 := fun x h1 y h2 => by
    rw [pde_dy]
    have := Real.sin_le_one (Real.pi * x)
    nlinarith [h2.1, h2.2]
  have eq : ∀ x y, dx (dx fun x y => z x y - pdeReal x y) x y + dy (dy fun x y => z x y - pdeReal x y) x y
      + z x y * dy (fun x y => z x y - pdeReal x y) x y + dy pdeReal x y * (z x y - pdeReal x y) = pdeResid z x y := by
    intro x y
    rw [hz.dx_sub hv, hz.dy_sub hv, hz.dx.dx_sub hv.dx, hz.dy.dy_sub hv.dy]
    have e := v3 x y
    unfold pdeResid at e ⊢
    linear_combination -e
  have bx : ∀ y ∈ Icc (0 : ℝ) 1, z 0 y - pdeReal 0 y = 0 ∧ z 1 y - pdeReal 1 y = 0 := fun y h => by
    rw [(hx y h).1, (hx y h).2, (v1 y).1, (v1 y).2]
    norm_num
  have hs := hz.sub hv
  have by' : ∀ x ∈ Icc (0 : ℝ) 1, z x 0 - pdeReal x 0 = 0 ∧ dy (fun x y => z x y - pdeReal x y) x 1 = 0 := fun x h => by
    rw [hz.dy_sub hv]
    beta_reduce
    rw [(hy x h).1, (hy x h).2, (v2 x).1, (v2 x).2]
    norm_num
  intro x h1 y h2
  refine abs_le.2 ⟨?_, mixed_upper (b := z) (c := dy pdeReal) hs hR0 bx by' hc
    (fun x h1 y h2 => by rw [eq]; exact (abs_le.1 (hR x h1 y h2)).1) x h1 y h2⟩
  have := mixed_upper (b := z) (c := dy pdeReal) hs.neg hR0 (fun y h => by simp [bx y h])
    (fun x h => by rw [dy_neg]; simp [by' x h]) hc
    (fun x h1 y h2 => by
      have e := eq x y
      simp only [dx_neg, dy_neg]
      linarith [(abs_le.1 (hR x h1 y h2)).2]) x h1 y h2
  linarith

theorem pdeU_smooth {g : ℝ → ℝ → ℝ} (hg : Smooth2 g) : Smooth2 (pdeU g) := by
  have h0 := hg.at_left 0
  have h1 := hg.at_left 1
  have k : Smooth2 (pdeU1 g) := by
    unfold Smooth2 pdeU1 at *
    fun_prop
  have k0 := k.at_right 0
  have k1 := k.dy.at_right 1
  unfold Smooth2 pdeU at *
  fun_prop

/-- The expression of the test meets the four conditions. -/
theorem pdeU_conditions (g : ℝ → ℝ → ℝ) (hg : Smooth2 g) :
    (∀ y, pdeU g 0 y = 0 ∧ pdeU g 1 y = 0) ∧ ∀ x, pdeU g x 0 = 0 ∧ dy (pdeU g) x 1 = 2 * Real.sin (Real.pi * x) := by
  have z0 : ∀ y, pdeU1 g 0 y = 0 := fun y => by unfold pdeU1; ring
  have z1 : ∀ y, pdeU1 g 1 y = 0 := fun y => by unfold pdeU1; ring
  have h0 := hg.at_left 0
  have h1 := hg.at_left 1
  have k : Smooth2 (pdeU1 g) := by
    unfold Smooth2 pdeU1 at *
    fun_prop
  refine ⟨fun y => ⟨?_, ?_⟩, fun x => ⟨?_, ?_⟩⟩
  · unfold pdeU dy
    simp [z0]
  · unfold pdeU dy
    simp [z1, sin_pi_one]
  · unfold pdeU
    ring
  · have := ((k.hasDy x 1).sub_const (pdeU1 g x 0)).add ((hasDerivAt_id (1 : ℝ)).mul_const (2 * Real.sin (Real.pi * x) - dy (pdeU1 g) x 1))
    refine this.deriv.trans ?_
    ring

/-- **C96**, the expression of the test: for all smooth free functions. -/
theorem C96_pde_program (g : ℝ → ℝ → ℝ) (hg : Smooth2 g) {R : ℝ}
    (hR : ∀ x ∈ Icc (0 : ℝ) 1, ∀ y ∈ Icc (0 : ℝ) 1, |pdeResid (pdeU g) x y| ≤ R) :
    ∀ x ∈ Icc (0 : ℝ) 1, ∀ y ∈ Icc (0 : ℝ) 1, |pdeU g x y - pdeReal x y| ≤ R / 2 := by
  have hR0 : 0 ≤ R := (abs_nonneg _).trans (hR 0 ⟨le_rfl, zero_le_one⟩ 0 ⟨le_rfl, zero_le_one⟩)
  obtain ⟨c1, c2⟩ := pdeU_conditions g hg
  intro x h1 y h2
  have := C96_pde (pdeU g) (pdeU_smooth hg) (fun y _ => c1 y) (fun x _ => c2 x) hR x h1 y h2
  nlinarith [quad_le (x := x)]

/-! ## The Laplace equation on an annulus -/

theorem ring_deriv {f : ℝ → ℝ} {d : ℝ} (M ε : ℝ) {r : ℝ} (hf : HasDerivAt f d r) :
    HasDerivAt (fun r => f r - M * ((16 - r ^ 2) / 4 + ε)) (d + M * r / 2) r := by
  have h : HasDerivAt (fun r : ℝ => (16 - r ^ 2) / 4 + ε) (-r / 2) r := by
    refine HasDerivAt.congr_deriv ((((hasDerivAt_pow 2 r).const_sub 16).div_const 4).add_const ε) ?_
    simp
    ring
  refine HasDerivAt.congr_deriv (hf.sub (h.const_mul M)) ?_
  ring

theorem ring_deriv2 {f : ℝ → ℝ} {d : ℝ} (M : ℝ) {r : ℝ} (hf : HasDerivAt f d r) :
    HasDerivAt (fun r => f r + M * r / 2) (d + M / 2) r := by
  refine HasDerivAt.congr_deriv (hf.add (((hasDerivAt_id r).const_mul M).div_const 2)) ?_
  ring

/-- The Laplace operator in polar coordinates, boundary values 0 at both radii, periodic with its derivative: one side. -/
theorem annulus_upper {w w1 w2 t1 t2 : ℝ → ℝ → ℝ}
    (hc : ContinuousOn (fun P : ℝ × ℝ => w P.1 P.2) (Icc 2 4 ×ˢ Icc 0 (2 * Real.pi)))
    (hw1 : ∀ r ∈ Icc (2 : ℝ) 4, ∀ th, HasDerivAt (fun s => w s th) (w1 r th) r)
    (hw2 : ∀ r ∈ Icc (2 : ℝ) 4, ∀ th, HasDerivAt (fun s => w1 s th) (w2 r th) r)
    (ht1 : ∀ r th, HasDerivAt (w r) (t1 r th) th) (ht2 : ∀ r th, HasDerivAt (t1 r) (t2 r th) th) {R : ℝ} (hR0 : 0 ≤ R)
    (hr : ∀ th ∈ Icc (0 : ℝ) (2 * Real.pi), w 2 th = 0 ∧ w 4 th = 0)
    (hper : ∀ r ∈ Icc (2 : ℝ) 4, w r 0 = w r (2 * Real.pi) ∧ t1 r 0 = t1 r (2 * Real.pi))
    (hR : ∀ r ∈ Icc (2 : ℝ) 4, ∀ th ∈ Icc (0 : ℝ) (2 * Real.pi), -R ≤ w2 r th + 1 / r * w1 r th + 1 / r ^ 2 * t2 r th) :
    ∀ r ∈ Icc (2 : ℝ) 4, ∀ th ∈ Icc (0 : ℝ) (2 * Real.pi), w r th ≤ R * ((16 - r ^ 2) / 4) := by
  have hpi := Real.two_pi_pos
  have key : ∀ ε > 0, ∀ P ∈ Icc (2 : ℝ) 4 ×ˢ Icc (0 : ℝ) (2 * Real.pi), w P.1 P.2 ≤ R * ((16 - P.1 ^ 2) / 4 + ε) := by
    intro ε hε
    have hpos : ∀ P ∈ Icc (2 : ℝ) 4 ×ˢ Icc (0 : ℝ) (2 * Real.pi), 0 < (16 - P.1 ^ 2) / 4 + ε := by
      rintro ⟨r, th⟩ ⟨h1, -⟩
      have : r ^ 2 ≤ 16 := by nlinarith [h1.1, h1.2]
      simp only
      linarith
    refine le_of_no_touch (isCompact_Icc.prod isCompact_Icc) (w := fun P => w P.1 P.2) (φ := fun P => (16 - P.1 ^ 2) / 4 + ε)
      hc (by fun_prop) hpos ?_
    rintro M hM ⟨r, th⟩ hP he hle
    have hMp : 0 < M := lt_of_le_of_lt hR0 hM
    have hpp := mul_pos hMp (hpos _ hP)
    obtain ⟨hpr, hpt⟩ := hP
    simp only at hpr hpt he hpp
    have hne : w r th ≠ 0 := by rw [he]; exact hpp.ne'
    have r2 : 2 < r := lt_of_le_of_ne hpr.1 fun h => hne (h ▸ (hr th hpt).1)
    have r4 : r < 4 := lt_of_le_of_ne hpr.2 fun h => hne (h ▸ (hr th hpt).2)
    have q1 := touch r2 r4 (f := fun s => w s th - M * ((16 - s ^ 2) / 4 + ε)) (fun s hs => ring_deriv M ε (hw1 s hs th))
      (ring_deriv2 M (hw2 r hpr th)) fun s hs => by
        have := hle (s, th) ⟨hs, hpt⟩
        simp only at this ⊢
        linarith
    have hm : ∀ s ∈ Icc (0 : ℝ) (2 * Real.pi), w r s ≤ w r th := fun s hs => by
      have := hle (r, s) ⟨hpr, hs⟩
      simp only at this ⊢
      linarith
    obtain ⟨p1, p2⟩ := hper r hpr
    have q2 : t2 r th ≤ 0 := by
      rcases eq_or_lt_of_le hpt.1 with e | h0
      · subst e
        have a1 := deriv_nonpos_of_max_right hpi (ht1 r 0) hm
        have a2 := deriv_nonneg_of_max_left hpi (ht1 r (2 * Real.pi)) fun s hs => (hm s hs).trans p1.le
        exact second_nonpos_of_max_right hpi (fun s _ => ht1 r s) (ht2 r 0) (le_antisymm a1 (p2 ▸ a2)) hm
      · rcases eq_or_lt_of_le hpt.2 with e | h1
        · subst e
          have a1 := deriv_nonpos_of_max_right hpi (ht1 r 0) fun s hs => (hm s hs).trans p1.ge
          have a2 := deriv_nonneg_of_max_left hpi (ht1 r (2 * Real.pi)) hm
          exact second_nonpos_of_max_left hpi (fun s _ => ht1 r s) (ht2 r _) (le_antisymm (p2 ▸ a1) a2) hm
        · exact (touch h0 h1 (fun s _ => ht1 r s) (ht2 r th) hm).2
    have rp : 0 < r := by linarith
    have h1 : 1 / r * w1 r th = -(M / 2) := by
      rw [show w1 r th = -(M * r / 2) by linarith [q1.1]]
      field_simp
    have h2 : 1 / r ^ 2 * t2 r th ≤ 0 := mul_nonpos_of_nonneg_of_nonpos (by positivity) q2
    linarith [hR r hpr th hpt, q1.2]
  intro r h1 th h2
  refine le_of_forall_pos_le_add fun δ hδ => ?_
  have := key (δ / (R + 1)) (by positivity) (r, th) ⟨h1, h2⟩
  have h2 : R * (δ / (R + 1)) ≤ δ := by
    rw [mul_div_assoc', div_le_iff₀ (by linarith)]
    nlinarith
  simp only at this
  linarith

/-- The radial factor of the reference solution with its derivatives. -/
theorem ann_radial {r : ℝ} (hr : r ≠ 0) :
    HasDerivAt (fun r => 4 / 1023 * r ^ 5 + -4096 / 1023 / r ^ 5) (20 / 1023 * r ^ 4 + 20480 / 1023 / r ^ 6) r ∧
    HasDerivAt (fun r => 20 / 1023 * r ^ 4 + 20480 / 1023 / r ^ 6) (80 / 1023 * r ^ 3 + -122880 / 1023 / r ^ 7) r := by
  constructor
  · refine HasDerivAt.congr_deriv ((mono_deriv (4 / 1023) 4 r).add (inv_pow_deriv (-4096 / 1023) 5 r hr)) ?_
    push_cast
    ring
  · refine HasDerivAt.congr_deriv ((mono_deriv (20 / 1023) 3 r).add (inv_pow_deriv (20480 / 1023) 6 r hr)) ?_
    push_cast
    ring

theorem ann_eq {r : ℝ} (hr : r ≠ 0) (th : ℝ) : annReal r th = (4 / 1023 * r ^ 5 + -4096 / 1023 / r ^ 5) * Real.sin (5 * th) := by
  unfold annReal
  field_simp
  ring

theorem sin_ten_pi : Real.sin (5 * (2 * Real.pi)) = Real.sin (5 * 0) := by
  have := Real.sin_add_nat_mul_two_pi 0 5
  push_cast at this
  rw [zero_add] at this
  rw [this, mul_zero]

theorem cos_ten_pi : Real.cos (5 * (2 * Real.pi)) = Real.cos (5 * 0) := by
  have := Real.cos_add_nat_mul_two_pi 0 5
  push_cast at this
  rw [zero_add] at this
  rw [this, mul_zero]

/-- **C96**, the Laplace equation on the annulus (B/Chapter_3/Problem_8.py). -/
theorem C96_annulus (u : ℝ → ℝ → ℝ) (hu : Smooth2 u)
    (hr : ∀ th ∈ Icc (0 : ℝ) (2 * Real.pi), u 2 th = 0 ∧ u 4 th = 4 * Real.sin (5 * th))
    (hper : ∀ r ∈ Icc (2 : ℝ) 4, u r 0 = u r (2 * Real.pi) ∧ dy u r 0 = dy u r (2 * Real.pi)) {R : ℝ}
    (hR : ∀ r ∈ Icc (2 : ℝ) 4, ∀ th ∈ Icc (0 : ℝ) (2 * Real.pi), |annResid u r th| ≤ R) :
    ∀ r ∈ Icc (2 : ℝ) 4, ∀ th ∈ Icc (0 : ℝ) (2 * Real.pi), |u r th - annReal r th| ≤ R * ((16 - r ^ 2) / 4) := by
  have hpi := Real.two_pi_pos
  have hR0 : 0 ≤ R := (abs_nonneg _).trans (hR 2 ⟨le_rfl, by norm_num⟩ 0 ⟨le_rfl, hpi.le⟩)
  -- all radii of the domain are positive
  have pos : ∀ {r : ℝ}, r ∈ Icc (2 : ℝ) 4 → r ≠ 0 := fun {r} h => by linarith [h.1] |> fun h : 0 < r => h.ne'
  obtain ⟨A, hA⟩ : ∃ A : ℝ → ℝ, A = fun r => 4 / 1023 * r ^ 5 + -4096 / 1023 / r ^ 5 := ⟨_, rfl⟩
  obtain ⟨A1, hA1⟩ : ∃ A : ℝ → ℝ, A = fun r => 20 / 1023 * r ^ 4 + 20480 / 1023 / r ^ 6 := ⟨_, rfl⟩
  obtain ⟨A2, hA2⟩ : ∃ A : ℝ → ℝ, A = fun r => 80 / 1023 * r ^ 3 + -122880 / 1023 / r ^ 7 := ⟨_, rfl⟩
  have dA : ∀ {r : ℝ}, r ≠ 0 → HasDerivAt A (A1 r) r := fun {r} h => by rw [hA, hA1]; exact (ann_radial h).1
  have dA1 : ∀ {r : ℝ}, r ≠ 0 → HasDerivAt A1 (A2 r) r := fun {r} h => by rw [hA1, hA2]; exact (ann_radial h).2
  have hz : ∀ {r : ℝ}, r ≠ 0 → A2 r + 1 / r * A1 r - 25 * (1 / r ^ 2 * A r) = 0 := fun {r} h => by
    rw [hA, hA1, hA2]
    field_simp
    ring
  have s1 : ∀ th, HasDerivAt (fun th => Real.sin (5 * th)) (5 * Real.cos (5 * th)) th := sin_mul 5
  have s2 : ∀ th, HasDerivAt (fun th => 5 * Real.cos (5 * th)) (-25 * Real.sin (5 * th)) th := fun th => by
    refine HasDerivAt.congr_deriv ((cos_mul 5 th).const_mul 5) ?_
    ring
  have hcA : ContinuousOn (fun P : ℝ × ℝ => A P.1 * Real.sin (5 * P.2)) (Icc 2 4 ×ˢ Icc 0 (2 * Real.pi)) := by
    refine ContinuousOn.mul (ContinuousOn.comp (t := Icc (2 : ℝ) 4) (f := fun P : ℝ × ℝ => P.1)
      (fun r h => (dA (pos h)).continuousAt.continuousWithinAt) continuous_fst.continuousOn fun P h => h.1) (by fun_prop)
  have bd : ∀ th ∈ Icc (0 : ℝ) (2 * Real.pi), u 2 th - A 2 * Real.sin (5 * th) = 0 ∧ u 4 th - A 4 * Real.sin (5 * th) = 0 := fun th h => by
    rw [(hr th h).1, (hr th h).2, hA]
    constructor <;> norm_num
  have per : ∀ r ∈ Icc (2 : ℝ) 4, u r 0 - A r * Real.sin (5 * 0) = u r (2 * Real.pi) - A r * Real.sin (5 * (2 * Real.pi)) ∧
      dy u r 0 - A r * (5 * Real.cos (5 * 0)) = dy u r (2 * Real.pi) - A r * (5 * Real.cos (5 * (2 * Real.pi))) := fun r h => by
    rw [(hper r h).1, (hper r h).2, sin_ten_pi, cos_ten_pi]
    exact ⟨rfl, rfl⟩
  have res : ∀ r ∈ Icc (2 : ℝ) 4, ∀ th, (dx (dx u) r th - A2 r * Real.sin (5 * th)) + 1 / r * (dx u r th - A1 r * Real.sin (5 * th))
      + 1 / r ^ 2 * (dy (dy u) r th - A r * (-25 * Real.sin (5 * th))) = annResid u r th := fun r h th => by
    have := hz (pos h)
    unfold annResid
    linear_combination -(Real.sin (5 * th)) * this
  intro r h1 th h2
  rw [ann_eq (pos h1), show 4 / 1023 * r ^ 5 + -4096 / 1023 / r ^ 5 = A r by rw [hA]]
  refine abs_le.2 ⟨?_, annulus_upper (w := fun r th => u r th - A r * Real.sin (5 * th))
    (w1 := fun r th => dx u r th - A1 r * Real.sin (5 * th)) (w2 := fun r th => dx (dx u) r th - A2 r * Real.sin (5 * th))
    (t1 := fun r th => dy u r th - A r * (5 * Real.cos (5 * th))) (t2 := fun r th => dy (dy u) r th - A r * (-25 * Real.sin (5 * th)))
    (hu.continuous.continuousOn.sub hcA) (fun r h th => (hu.hasDx r th).sub ((dA (pos h)).mul_const _))
    (fun r h th => (hu.dx.hasDx r th).sub ((dA1 (pos h)).mul_const _)) (fun r th => (hu.hasDy r th).sub ((s1 th).const_mul _))
    (fun r th => (hu.dy.hasDy r th).sub ((s2 th).const_mul _)) hR0 bd per
    (fun r h1 th h2 => by rw [res r h1]; exact (abs_le.1 (hR r h1 th h2)).1) r h1 th h2⟩
  have := annulus_upper (w := fun r th => -(u r th - A r * Real.sin (5 * th)))
    (w1 := fun r th => -(dx u r th - A1 r * Real.sin (5 * th))) (w2 := fun r th => -(dx (dx u) r th - A2 r * Real.sin (5 * th)))
    (t1 := fun r th => -(dy u r th - A r * (5 * Real.cos (5 * th)))) (t2 := fun r th => -(dy (dy u) r th - A r * (-25 * Real.sin (5 * th))))
    (hu.continuous.continuousOn.sub hcA).neg (fun r h th => ((hu.hasDx r th).sub ((dA (pos h)).mul_const _)).neg)
    (fun r h th => ((hu.dx.hasDx r th).sub ((dA1 (pos h)).mul_const _)).neg)
    (fun r th => ((hu.hasDy r th).sub ((s1 th).const_mul _)).neg)
    (fun r th => ((hu.dy.hasDy r th).sub ((s2 th).const_mul _)).neg) hR0 (fun th h => by simp [bd th h])
    (fun r h => ⟨congrArg _ (per r h).1, congrArg _ (per r h).2⟩)
    (fun r h1 th h2 => by
      have e := res r h1 th
      linarith [(abs_le.1 (hR r h1 th h2)).2]) r h1 th h2
  linarith

theorem annU_smooth {g : ℝ → ℝ → ℝ} (hg : Smooth2 g) : Smooth2 (annU g) := by
  have h0 := hg.at_left 2
  have h1 := hg.at_left 4
  have k : Smooth2 (annU1 g) := by
    unfold Smooth2 annU1 at *
    fun_prop
  have k0 := k.at_right 0
  have k1 := k.at_right (2 * Real.pi)
  have k2 := k.dy.at_right 0
  have k3 := k.dy.at_right (2 * Real.pi)
  unfold Smooth2 annU at *
  fun_prop

/-- **C96**, the expression of the program: for all smooth free functions. -/
theorem C96_annulus_program (g : ℝ → ℝ → ℝ) (hg : Smooth2 g) {R : ℝ}
    (hR : ∀ r ∈ Icc (2 : ℝ) 4, ∀ th ∈ Icc (0 : ℝ) (2 * Real.pi), |annResid (annU g) r th| ≤ R) :
    ∀ r ∈ Icc (2 : ℝ) 4, ∀ th ∈ Icc (0 : ℝ) (2 * Real.pi), |annU g r th - annReal r th| ≤ 3 * R := by
  have hR0 : 0 ≤ R := (abs_nonneg _).trans (hR 2 ⟨le_rfl, by norm_num⟩ 0 ⟨le_rfl, Real.two_pi_pos.le⟩)
  obtain ⟨c1, c2, c3⟩ := C79_annulus g fun r => (hg.right r).differentiable (by simp)
  intro r h1 th h2
  have := C96_annulus (annU g) (annU_smooth hg) (fun th _ => ⟨c1 th, c2 th⟩) (fun r _ => c3 r) hR r h1 th h2
  have h4 : 4 ≤ r ^ 2 := by nlinarith [h1.1]
  nlinarith

/-! ## Burgers' equation -/

theorem heat_deriv {f : ℝ → ℝ} {d : ℝ} (M L ε : ℝ) {t : ℝ} (hf : HasDerivAt f d t) :
    HasDerivAt (fun t => f t - M * ((t + ε) * Real.exp (L * t))) (d - M * (Real.exp (L * t) * (1 + L * (t + ε)))) t := by
  have h : HasDerivAt (fun t : ℝ => (t + ε) * Real.exp (L * t)) (Real.exp (L * t) * (1 + L * (t + ε))) t := by
    refine HasDerivAt.congr_deriv (((hasDerivAt_id t).add_const ε).mul (exp_mul' L t)) ?_
    simp
    ring
  exact hf.sub (h.const_mul M)

/-- Diffusion in `x`, any first-order term in `x`, a zero-order term bounded below: one side. -/
theorem parabolic_upper {w B C : ℝ → ℝ → ℝ} (hw : Smooth2 w) {a b T nu L R : ℝ} (hn : 0 ≤ nu) (hL : 0 ≤ L) (hR0 : 0 ≤ R)
    (hx : ∀ t ∈ Icc 0 T, w a t = 0 ∧ w b t = 0) (h0 : ∀ x ∈ Icc a b, w x 0 = 0) (hC : ∀ x ∈ Icc a b, ∀ t ∈ Icc 0 T, -L ≤ C x t)
    (hR : ∀ x ∈ Icc a b, ∀ t ∈ Icc 0 T, dy w x t + B x t * dx w x t + C x t * w x t - nu * dx (dx w) x t ≤ R) :
    ∀ x ∈ Icc a b, ∀ t ∈ Icc 0 T, w x t ≤ R * (t * Real.exp (L * t)) := by
  have key : ∀ ε > 0, ∀ P ∈ Icc a b ×ˢ Icc 0 T, w P.1 P.2 ≤ R * ((P.2 + ε) * Real.exp (L * P.2)) := by
    intro ε hε
    have hpos : ∀ P ∈ Icc a b ×ˢ Icc 0 T, 0 < (P.2 + ε) * Real.exp (L * P.2) := by
      rintro ⟨x, t⟩ ⟨-, h2⟩
      have : 0 < t + ε := add_pos_of_nonneg_of_pos h2.1 hε
      positivity
    refine le_of_no_touch (isCompact_Icc.prod isCompact_Icc) (w := fun P => w P.1 P.2) (φ := fun P => (P.2 + ε) * Real.exp (L * P.2))
      hw.continuous.continuousOn (by fun_prop) hpos ?_
    rintro M hM ⟨x, t⟩ hP he hle
    have hMp : 0 < M := lt_of_le_of_lt hR0 hM
    have hpp := mul_pos hMp (hpos _ hP)
    obtain ⟨hpx, hpt⟩ := hP
    simp only at hpx hpt he hpp
    have hne : w x t ≠ 0 := by rw [he]; exact hpp.ne'
    have xa : a < x := lt_of_le_of_ne hpx.1 fun h => hne (h ▸ (hx t hpt).1)
    have xb : x < b := lt_of_le_of_ne hpx.2 fun h => hne (h ▸ (hx t hpt).2)
    have t0 : 0 < t := lt_of_le_of_ne hpt.1 fun h => hne (h ▸ h0 x hpx)
    have q1 := touch xa xb (f := fun s => w s t) (fun s _ => hw.hasDx s t) (hw.dx.hasDx x t) fun s hs => by
      have := hle (s, t) ⟨hs, hpt⟩
      simp only at this ⊢
      linarith
    have q2 := deriv_nonneg_of_max_left t0 (heat_deriv M L ε (hw.hasDy x t)) fun s hs => by
      have := hle (x, s) ⟨hpx, hs.1, hs.2.trans hpt.2⟩
      simp only at this ⊢
      linarith
    have hr := hR x hpx t hpt
    have hcw : -L * w x t ≤ C x t * w x t := mul_le_mul_of_nonneg_right (hC x hpx t hpt) (by rw [he]; exact hpp.le)
    have he1 : 1 ≤ Real.exp (L * t) := Real.one_le_exp (mul_nonneg hL hpt.1)
    have hnx : nu * dx (dx w) x t ≤ 0 := mul_nonpos_of_nonneg_of_nonpos hn q1.2
    have hM1 : M ≤ M * Real.exp (L * t) := le_mul_of_one_le_right hMp.le he1
    rw [q1.1, mul_zero, add_zero] at hr
    rw [he] at hcw hr
    have : M * (Real.exp (L * t) * (1 + L * (t + ε))) = M * Real.exp (L * t) + L * (M * ((t + ε) * Real.exp (L * t))) := by ring
    linarith
  intro x h1 t h2
  refine le_of_forall_pos_le_add fun δ hδ => ?_
  have he := Real.exp_pos (L * t)
  have := key (δ / ((R + 1) * Real.exp (L * t))) (by positivity) (x, t) ⟨h1, h2⟩
  simp only at this
  have h3 : R * (δ / ((R + 1) * Real.exp (L * t)) * Real.exp (L * t)) ≤ δ := by
    rw [show R * (δ / ((R + 1) * Real.exp (L * t)) * Real.exp (L * t)) = R * δ / (R + 1) by field_simp, div_le_iff₀ (by linarith)]
    nlinarith
  linarith

theorem tanh_smooth : ContDiff ℝ ∞ Real.tanh := by
  have : Real.tanh = fun x => Real.sinh x / Real.cosh x := funext Real.tanh_eq_sinh_div_cosh
  rw [this]
  exact Real.contDiff_sinh.div Real.contDiff_cosh fun x => (Real.cosh_pos x).ne'

theorem burReal_smooth (p : BurgersPar) : Smooth2 (burReal p) := by
  have h := tanh_smooth
  unfold Smooth2 burReal
  exact contDiff_const.sub (contDiff_const.mul (h.comp (by fun_prop)))

theorem burReal_dx (p : BurgersPar) (x t : ℝ) : dx (burReal p) x t =
    -(p.c / p.alpha * ((1 - Real.tanh (p.c * (x - p.c * t) / (2 * p.nu)) ^ 2) * (p.c / (2 * p.nu)))) := by
  have e : ∀ s, -(p.c * (p.c * t)) / (2 * p.nu) + p.c / (2 * p.nu) * s = p.c * (s - p.c * t) / (2 * p.nu) := fun s => by ring
  have h := ((tanh_lin (-(p.c * (p.c * t)) / (2 * p.nu)) (p.c / (2 * p.nu)) x).const_mul (p.c / p.alpha)).const_sub (p.c / p.alpha)
  simp only [e] at h
  exact h.deriv

/-- **C96**, Burgers' equation (E/PDE/Burgers1D.py), for all constants with `nu > 0` and `alpha ≠ 0` and all final times. -/
theorem C96_burgers (p : BurgersPar) (hn : 0 < p.nu) (ha : p.alpha ≠ 0) {T : ℝ} (u : ℝ → ℝ → ℝ) (hu : Smooth2 u)
    (hx : ∀ t ∈ Icc 0 T, u p.xInit t = burReal p p.xInit t ∧ u p.xFinal t = burReal p p.xFinal t)
    (h0 : ∀ x ∈ Icc p.xInit p.xFinal, u x 0 = burReal p x 0) {R : ℝ}
    (hR : ∀ x ∈ Icc p.xInit p.xFinal, ∀ t ∈ Icc 0 T, |burResid p u x t| ≤ R) :
    ∀ x ∈ Icc p.xInit p.xFinal, ∀ t ∈ Icc 0 T, |u x t - burReal p x t| ≤ R * (t * Real.exp (p.c ^ 2 / (2 * p.nu) * t)) := by
  have hv := burReal_smooth p
  intro x h1 t h2
  have hR0 : 0 ≤ R := (abs_nonneg _).trans (hR x h1 t h2)
  have hL : 0 ≤ p.c ^ 2 / (2 * p.nu) := by positivity
  have hC : ∀ x ∈ Icc p.xInit p.xFinal, ∀ t ∈ Icc 0 T, -(p.c ^ 2 / (2 * p.nu)) ≤ p.alpha * dx (burReal p) x t := fun x _ t _ => by
    rw [burReal_dx, show p.alpha * -(p.c / p.alpha * ((1 - Real.tanh (p.c * (x - p.c * t) / (2 * p.nu)) ^ 2) * (p.c / (2 * p.nu))))
      = -(p.c ^ 2 / (2 * p.nu)) + p.c ^ 2 / (2 * p.nu) * Real.tanh (p.c * (x - p.c * t) / (2 * p.nu)) ^ 2 by field_simp; ring]
    have := mul_nonneg hL (sq_nonneg (Real.tanh (p.c * (x - p.c * t) / (2 * p.nu))))
    linarith
  have eq : ∀ x t, dy (fun x t => u x t - burReal p x t) x t + p.alpha * u x t * dx (fun x t => u x t - burReal p x t) x t
      + p.alpha * dx (burReal p) x t * (u x t - burReal p x t) - p.nu * dx (dx fun x t => u x t - burReal p x t) x t = burResid p u x t := by
    intro x t
    rw [hu.dx_sub hv, hu.dy_sub hv, hu.dx.dx_sub hv.dx]
    have e := (C83_burgers p hn.ne' ha).2 x t
    unfold burResid at e ⊢
    linear_combination -e
  have hs := hu.sub hv
  refine abs_le.2 ⟨?_, parabolic_upper (B := fun x t => p.alpha * u x t) (C := fun x t => p.alpha * dx (burReal p) x t) hs hn.le hL hR0
    (fun t h => by simp [hx t h]) (fun x h => by simp [h0 x h]) hC
    (fun x h1 t h2 => by rw [eq]; exact (abs_le.1 (hR x h1 t h2)).2) x h1 t h2⟩
  have := parabolic_upper (B := fun x t => p.alpha * u x t) (C := fun x t => p.alpha * dx (burReal p) x t) hs.neg hn.le hL hR0
    (fun t h => by simp [hx t h]) (fun x h => by simp [h0 x h]) hC
    (fun x h1 t h2 => by
      have e := eq x t
      simp only [dx_neg, dy_neg]
      linarith [(abs_le.1 (hR x h1 t h2)).1]) x h1 t h2
  linarith

theorem burU_smooth (p : BurgersPar) {g : ℝ → ℝ → ℝ} (hg : Smooth2 g) : Smooth2 (burU p g) := by
  have h := tanh_smooth
  have h0 := hg.at_left p.xInit
  have h1 := hg.at_left p.xFinal
  have k : Smooth2 (burU1 p g) := by
    have e0 : ContDiff ℝ ∞ fun P : ℝ × ℝ => Real.tanh (p.c * (p.xInit - p.c * P.2) / (2 * p.nu)) := h.comp (by fun_prop)
    have e1 : ContDiff ℝ ∞ fun P : ℝ × ℝ => Real.tanh (p.c * (p.xFinal - p.c * P.2) / (2 * p.nu)) := h.comp (by fun_prop)
    unfold Smooth2 burU1 at *
    fun_prop
  have k0 := k.at_right 0
  have e : ContDiff ℝ ∞ fun P : ℝ × ℝ => Real.tanh (p.c * P.1 / (2 * p.nu)) := h.comp (by fun_prop)
  unfold Smooth2 burU at *
  fun_prop

/-- **C96**, the expression of the program: for all smooth free functions. -/
theorem C96_burgers_program (p : BurgersPar) (hn : 0 < p.nu) (ha : p.alpha ≠ 0) (hx : p.xInit ≠ p.xFinal) {T : ℝ} (g : ℝ → ℝ → ℝ)
    (hg : Smooth2 g) {R : ℝ} (hR : ∀ x ∈ Icc p.xInit p.xFinal, ∀ t ∈ Icc 0 T, |burResid p (burU p g) x t| ≤ R) :
    ∀ x ∈ Icc p.xInit p.xFinal, ∀ t ∈ Icc 0 T, |burU p g x t - burReal p x t| ≤ R * (t * Real.exp (p.c ^ 2 / (2 * p.nu) * t)) := by
  obtain ⟨c1, c2⟩ := C79_burgers p hx g
  exact C96_burgers p hn ha (burU p g) (burU_smooth p hg) (fun t _ => c1 t) (fun x _ => c2 x) hR

end Verif.Props
