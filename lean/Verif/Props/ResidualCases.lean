import Verif.Props.ResidualWave

/-! # Concrete cases for C96 -/

namespace Verif.Props

open Verif Verif.Model.Prog Set
open scoped ContDiff

/-- A function that is continuous on a rectangle is bounded there. -/
theorem rect_bounded {F : ℝ → ℝ → ℝ} {a b c d : ℝ} (hF : ContinuousOn (fun P : ℝ × ℝ => F P.1 P.2) (Icc a b ×ˢ Icc c d)) :
    ∃ R, ∀ x ∈ Icc a b, ∀ y ∈ Icc c d, |F x y| ≤ R := by
  obtain ⟨R, hR⟩ := (isCompact_Icc.prod isCompact_Icc).exists_bound_of_continuousOn hF
  exact ⟨R, fun x hx y hy => by simpa using hR (x, y) ⟨hx, hy⟩⟩

/-! Each smooth free function meets the hypothesis of its theorem for some `R`: the residual of the expression is bounded on the domain. -/

example (g : ℝ → ℝ → ℝ) (hg : Smooth2 g) : ∃ R, ∀ x ∈ Icc (0 : ℝ) 1, ∀ y ∈ Icc (0 : ℝ) 1, |poiU g x y - poiReal x y| ≤ R / 8 := by
  have k := poiU_smooth hg
  have a := k.dx.dx.continuous
  have b := k.dy.dy.continuous
  obtain ⟨R, hR⟩ := rect_bounded (F := poiResid (poiU g)) (a := 0) (b := 1) (c := 0) (d := 1) (by unfold poiResid; fun_prop)
  exact ⟨R, C96_poisson_program g hg hR⟩

example (g : ℝ → ℝ → ℝ) (hg : Smooth2 g) : ∃ R, ∀ x ∈ Icc (0 : ℝ) 1, ∀ y ∈ Icc (0 : ℝ) 1, |bihU g x y - bihReal x y| ≤ R / 64 := by
  have k := bihU_smooth hg
  have a := k.dx.dx.dx.dx.continuous
  have b := k.dy.dy.dy.dy.continuous
  have c := k.dx.dx.dy.dy.continuous
  obtain ⟨R, hR⟩ := rect_bounded (F := bihResid (bihU g)) (a := 0) (b := 1) (c := 0) (d := 1) (by unfold bihResid; fun_prop)
  exact ⟨R, C96_biharmonic_program g hg hR⟩

example (g : ℝ → ℝ → ℝ) (hg : Smooth2 g) : ∃ R, ∀ x ∈ Icc (0 : ℝ) 1, ∀ y ∈ Icc (0 : ℝ) 1, |pdeU g x y - pdeReal x y| ≤ R / 2 := by
  have k := pdeU_smooth hg
  have a := k.dx.dx.continuous
  have b := k.dy.dy.continuous
  have c := k.dy.continuous
  have d := k.continuous
  obtain ⟨R, hR⟩ := rect_bounded (F := pdeResid (pdeU g)) (a := 0) (b := 1) (c := 0) (d := 1) (by unfold pdeResid; fun_prop)
  exact ⟨R, C96_pde_program g hg hR⟩

example (g : ℝ → ℝ → ℝ) (hg : Smooth2 g) :
    ∃ R, ∀ r ∈ Icc (2 : ℝ) 4, ∀ th ∈ Icc (0 : ℝ) (2 * Real.pi), |annU g r th - annReal r th| ≤ 3 * R := by
  have k := annU_smooth hg
  have a := k.dx.dx.continuous
  have b := k.dy.dy.continuous
  have c := k.dx.continuous
  have i : ContinuousOn (fun P : ℝ × ℝ => P.1⁻¹) (Icc 2 4 ×ˢ Icc 0 (2 * Real.pi)) :=
    continuousOn_fst.inv₀ fun P h => by linarith [h.1.1] |> fun h : 0 < P.1 => h.ne'
  obtain ⟨R, hR⟩ := rect_bounded (F := annResid (annU g)) (a := 2) (b := 4) (c := 0) (d := 2 * Real.pi) (by
    unfold annResid
    simp only [one_div, ← inv_pow]
    fun_prop)
  exact ⟨R, C96_annulus_program g hg hR⟩

/-- The constants of Burgers1D.py 10–14 (`c = 1`, `nu = 0.5`, `alpha = 1`, from -3 to 3), final time 1. -/
example (g : ℝ → ℝ → ℝ) (hg : Smooth2 g) :
    ∃ R, ∀ x ∈ Icc (-3 : ℝ) 3, ∀ t ∈ Icc (0 : ℝ) 1, |burU ⟨1, 1 / 2, 1, -3, 3⟩ g x t - burReal ⟨1, 1 / 2, 1, -3, 3⟩ x t|
      ≤ R * (t * Real.exp ((1 : ℝ) ^ 2 / (2 * (1 / 2)) * t)) := by
  have k := burU_smooth ⟨1, 1 / 2, 1, -3, 3⟩ hg
  have a := k.dx.dx.continuous
  have b := k.dy.continuous
  have c := k.dx.continuous
  have d := k.continuous
  obtain ⟨R, hR⟩ := rect_bounded (F := burResid ⟨1, 1 / 2, 1, -3, 3⟩ (burU ⟨1, 1 / 2, 1, -3, 3⟩ g)) (a := -3) (b := 3) (c := 0) (d := 1) (by
    unfold burResid
    fun_prop)
  exact ⟨R, C96_burgers_program ⟨1, 1 / 2, 1, -3, 3⟩ (by norm_num) (by norm_num) (by norm_num) g hg hR⟩

example (g : ℝ → ℝ → ℝ) (hg : Smooth2 g) :
    ∃ R, ∀ x ∈ Icc (0 : ℝ) 1, ∀ t ∈ Icc (0 : ℝ) 1, |wavU g x t - wavReal x t| ≤ R * t ^ 2 / 2 := by
  have k := wavU_smooth hg
  have a := k.dx.dx.continuous
  have b := k.dy.dy.continuous
  obtain ⟨R, hR⟩ := rect_bounded (F := wavResid (wavU g)) (a := 0) (b := 1) (c := 0) (d := 1) (by unfold wavResid; fun_prop)
  exact ⟨R, C96_wave_program g hg one_pos hR⟩

/-- A candidate other than the reference solution: `poiReal + x (1 - x) y (1 - y) / 100` has residual at most 1/100. -/
theorem C96_poisson_case : ∀ x ∈ Icc (0 : ℝ) 1, ∀ y ∈ Icc (0 : ℝ) 1,
    |poiResid (fun x y => poiReal x y + x * (1 - x) * (y * (1 - y)) / 100) x y| ≤ 1 / 100 := by
  have q1 : ∀ k s : ℝ, HasDerivAt (fun s => s * (1 - s) * k / 100) ((1 - 2 * s) * k / 100) s := fun k s => by
    refine HasDerivAt.congr_deriv ((((hasDerivAt_id s).mul ((hasDerivAt_id s).const_sub 1)).mul_const k).div_const 100) ?_
    simp only [id_eq]
    ring
  have q2 : ∀ k s : ℝ, HasDerivAt (fun s => (1 - 2 * s) * k / 100) (-2 * k / 100) s := fun k s => by
    refine HasDerivAt.congr_deriv (((((hasDerivAt_id s).const_mul 2).const_sub 1).mul_const k).div_const 100) ?_
    ring
  obtain ⟨h, hh⟩ : ∃ h : ℝ → ℝ → ℝ, h = fun x y => x * (1 - x) * (y * (1 - y)) / 100 := ⟨_, rfl⟩
  have sh : Smooth2 h := by
    rw [hh]
    unfold Smooth2
    fun_prop
  have hx : dx h = fun x y => (1 - 2 * x) * (y * (1 - y)) / 100 := by
    rw [hh]
    funext x y
    exact (q1 _ x).deriv
  have hy : dy h = fun x y => (1 - 2 * y) * (x * (1 - x)) / 100 := by
    rw [hh]
    funext x y
    have := (q1 (x * (1 - x)) y).deriv
    rw [← this]
    unfold dy
    congr 1
    funext s
    ring
  have hxx : ∀ x y, dx (dx h) x y = -2 * (y * (1 - y)) / 100 := fun x y => by
    rw [hx]
    exact (q2 _ x).deriv
  have hyy : ∀ x y, dy (dy h) x y = -2 * (x * (1 - x)) / 100 := fun x y => by
    rw [hy]
    exact (q2 _ y).deriv
  intro x h1 y h2
  have sv := poiReal_smooth
  have e := C83_poisson.2 x y
  have : poiResid (fun x y => poiReal x y + h x y) x y = -2 * (y * (1 - y)) / 100 + -2 * (x * (1 - x)) / 100 := by
    unfold poiResid at e ⊢
    rw [sv.dx_add sh, sv.dy_add sh, sv.dx.dx_add sh.dx, sv.dy.dy_add sh.dy]
    beta_reduce
    rw [hxx, hyy]
    linear_combination e
  rw [hh] at this
  rw [this, abs_le]
  constructor <;> nlinarith [parab_le (x := x), parab_le (x := y), mul_nonneg h1.1 (sub_nonneg.2 h1.2), mul_nonneg h2.1 (sub_nonneg.2 h2.2)]

example : ∀ x ∈ Icc (0 : ℝ) 1, ∀ y ∈ Icc (0 : ℝ) 1,
    |poiReal x y + x * (1 - x) * (y * (1 - y)) / 100 - poiReal x y| ≤ 1 / 100 * (x * (1 - x) / 2) := by
  refine C96_poisson _ ?_ (fun y _ => ?_) (fun x _ => ?_) C96_poisson_case
  · have := poiReal_smooth
    unfold Smooth2 at *
    fun_prop
  · unfold poiReal
    constructor <;> ring_nf
    simp
  · unfold poiReal
    constructor <;> ring

/-- The oscillator and the convection problem: the reference solutions themselves have residual 0. -/
example : ∀ x ∈ Icc (0 : ℝ) 2, |oscReal (2 * Real.pi) 1 0 x - oscReal (2 * Real.pi) 1 0 x| ≤ 0 * x / |2 * Real.pi| := by
  have h := C83_oscillator_partial (2 * Real.pi) 1 0 (by positivity) one_pos
  refine C96_oscillator_partial (2 * Real.pi) 1 0 (by positivity) one_pos (oscReal (2 * Real.pi) 1 0) ?_ h.1 h.2.1 fun x _ => by rw [h.2.2.1]; simp
  unfold oscReal
  fun_prop

example : ∀ x ∈ Icc (0 : ℝ) 1, |(1 - x) - convReal 1 x| ≤ 1 / |(1 : ℝ)| := by
  have d : deriv (fun x : ℝ => 1 - x) = fun _ => -1 := by
    funext x
    simp
  refine C96_convection 1 one_ne_zero (fun x => 1 - x) (by fun_prop) (by norm_num) (by norm_num) fun x _ => ?_
  unfold convResid
  rw [d]
  simp

end Verif.Props
