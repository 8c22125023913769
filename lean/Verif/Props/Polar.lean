import Verif.Props.Pdes

/-! # The biharmonic equation in polar coordinates (C79) -/

namespace Verif.Props

open Verif Verif.Py Verif.Np Verif.Spec Verif.Model Verif.Model.Py Verif.Model.Prog
open scoped ContDiff

/-! ## Polar coordinates -/

theorem smooth_step {f : ℝ → ℝ} (hf : ContDiff ℝ ∞ f) : Differentiable ℝ f ∧ ContDiff ℝ ∞ (deriv f) :=
  ⟨hf.differentiable (by simp), (contDiff_infty_iff_deriv.mp hf).2⟩

theorem quartic_first {f : ℝ → ℝ} (hf : ContDiff ℝ ∞ f) (a b c d : ℝ) :
    deriv (fun t => f t - t / (2 * Real.pi) * a + (-t ^ 2 + 2 * Real.pi * t) / (4 * Real.pi) * b
      + (-t ^ 3 + 3 * Real.pi * t ^ 2 - 2 * Real.pi ^ 2 * t) / (12 * Real.pi) * c
      + (-t ^ 4 + 4 * Real.pi * t ^ 3 - 4 * Real.pi ^ 2 * t ^ 2) / (48 * Real.pi) * d)
    = fun t => deriv f t - a / (2 * Real.pi) + (-2 * t + 2 * Real.pi) / (4 * Real.pi) * b
      + (-3 * t ^ 2 + 6 * Real.pi * t - 2 * Real.pi ^ 2) / (12 * Real.pi) * c
      + (-4 * t ^ 3 + 12 * Real.pi * t ^ 2 - 8 * Real.pi ^ 2 * t) / (48 * Real.pi) * d := by
  have hp := Real.pi_ne_zero
  have h1 := (smooth_step hf).1
  funext t
  deriv_expr
  push_cast
  field_simp
  ring

theorem quartic_second {f : ℝ → ℝ} (hf : ContDiff ℝ ∞ f) (a b c d : ℝ) :
    deriv (fun t => f t - a / (2 * Real.pi) + (-2 * t + 2 * Real.pi) / (4 * Real.pi) * b
      + (-3 * t ^ 2 + 6 * Real.pi * t - 2 * Real.pi ^ 2) / (12 * Real.pi) * c
      + (-4 * t ^ 3 + 12 * Real.pi * t ^ 2 - 8 * Real.pi ^ 2 * t) / (48 * Real.pi) * d)
    = fun t => deriv f t - b / (2 * Real.pi) + (-6 * t + 6 * Real.pi) / (12 * Real.pi) * c
      + (-12 * t ^ 2 + 24 * Real.pi * t - 8 * Real.pi ^ 2) / (48 * Real.pi) * d := by
  have hp := Real.pi_ne_zero
  have h1 := (smooth_step hf).1
  funext t
  deriv_expr
  push_cast
  field_simp
  ring

theorem quartic_third {f : ℝ → ℝ} (hf : ContDiff ℝ ∞ f) (b c d : ℝ) :
    deriv (fun t => f t - b / (2 * Real.pi) + (-6 * t + 6 * Real.pi) / (12 * Real.pi) * c
      + (-12 * t ^ 2 + 24 * Real.pi * t - 8 * Real.pi ^ 2) / (48 * Real.pi) * d)
    = fun t => deriv f t - c / (2 * Real.pi) + (-24 * t + 24 * Real.pi) / (48 * Real.pi) * d := by
  have hp := Real.pi_ne_zero
  have h1 := (smooth_step hf).1
  funext t
  deriv_expr
  push_cast
  field_simp
  ring

theorem radial_second {f : ℝ → ℝ} (hf : ContDiff ℝ ∞ f) (a b c d : ℝ) :
    deriv (fun s => deriv (fun r => f r + (-r + 4) / 3 * a + (r - 1) / 3 * b + (-r ^ 3 + 12 * r ^ 2 - 39 * r + 28) / 18 * c
      + (r ^ 3 - 3 * r ^ 2 - 6 * r + 8) / 18 * d) s)
    = fun r => deriv (fun s => deriv f s) r + (-6 * r + 24) / 18 * c + (6 * r - 6) / 18 * d := by
  have h1 := (smooth_step hf).1
  have h2 := (smooth_step (smooth_step hf).2).1
  have e : (fun s => deriv (fun r => f r + (-r + 4) / 3 * a + (r - 1) / 3 * b + (-r ^ 3 + 12 * r ^ 2 - 39 * r + 28) / 18 * c
      + (r ^ 3 - 3 * r ^ 2 - 6 * r + 8) / 18 * d) s)
      = fun s => deriv f s - a / 3 + b / 3 + (-3 * s ^ 2 + 24 * s - 39) / 18 * c + (3 * s ^ 2 - 6 * s - 6) / 18 * d := by
    funext s
    deriv_expr
    try simp only [deriv_neg']
    push_cast
    ring
  rw [e]
  funext r
  deriv_expr
  push_cast
  ring

theorem sub_second {f h : ℝ → ℝ} (hf : ContDiff ℝ ∞ f) (hh : ContDiff ℝ ∞ h) (x : ℝ) :
    deriv (fun s => deriv (fun r => f r - h r) s) x = deriv (fun s => deriv f s) x - deriv (fun s => deriv h s) x := by
  have a1 := (smooth_step hf).1
  have a2 := (smooth_step (smooth_step hf).2).1
  have b1 := (smooth_step hh).1
  have b2 := (smooth_step (smooth_step hh).2).1
  have e : (fun s => deriv (fun r => f r - h r) s) = fun s => deriv f s - deriv h s := by
    funext s
    deriv_expr
  rw [e]
  deriv_expr

theorem periodic_deriv {f : ℝ → ℝ} {c : ℝ} (h : Function.Periodic f c) : Function.Periodic (deriv f) c := by
  intro x
  have e : (fun x => f (x + c)) = f := funext h
  have := deriv_comp_add_const f c x
  rw [e] at this
  exact this.symm

theorem polReal_rr {r : ℝ} (hr : 0 < r) (th : ℝ) :
    dx (dx polReal) r th = 1 / 4 + 2 * Real.pi * Real.cos th / r ^ 3 + Real.sin (2 * th) / 2 + 3 * r / 8 * Real.sin (3 * th) := by
  have h1 : ∀ s : ℝ, 0 < s → dx polReal s th = s / 4 - Real.pi * Real.cos th / s ^ 2 + s / 2 * Real.sin (2 * th)
      + 3 * s ^ 2 / 16 * Real.sin (3 * th) := by
    intro s hs
    have hinv : HasDerivAt (fun r : ℝ => Real.pi * Real.cos th / r) (-(Real.pi * Real.cos th) / s ^ 2) s := by
      have := (hasDerivAt_inv hs.ne').const_mul (Real.pi * Real.cos th)
      refine this.congr_deriv ?_
      ring
    have := ((((hasDerivAt_pow 2 s).div_const 8).add hinv).add (((hasDerivAt_pow 2 s).div_const 4).mul_const (Real.sin (2 * th)))).add
      (((hasDerivAt_pow 3 s).div_const 16).mul_const (Real.sin (3 * th)))
    refine (this.congr_deriv ?_).deriv
    push_cast
    ring
  have ev : (fun s => dx polReal s th) =ᶠ[nhds r] fun s => s / 4 - Real.pi * Real.cos th / s ^ 2 + s / 2 * Real.sin (2 * th)
      + 3 * s ^ 2 / 16 * Real.sin (3 * th) :=
    Filter.eventually_of_mem (Ioi_mem_nhds hr) fun s hs => h1 s hs
  have hinv : HasDerivAt (fun s : ℝ => Real.pi * Real.cos th / s ^ 2) (-2 * (Real.pi * Real.cos th) / r ^ 3) r := by
    have := (((hasDerivAt_pow 2 r).inv (by positivity)).const_mul (Real.pi * Real.cos th))
    refine this.congr_deriv ?_
    push_cast
    field_simp
  have := ((((hasDerivAt_id r).div_const 4).sub hinv).add (((hasDerivAt_id r).div_const 2).mul_const (Real.sin (2 * th)))).add
    ((((hasDerivAt_pow 2 r).const_mul 3).div_const 16).mul_const (Real.sin (3 * th)))
  show deriv (fun s => dx polReal s th) r = _
  rw [ev.deriv_eq]
  refine (this.congr_deriv ?_).deriv
  push_cast
  ring

theorem polReal_smooth (r : ℝ) : ContDiff ℝ ∞ (polReal r) := by
  unfold polReal
  have := Real.contDiff_sin (n := ∞)
  have := Real.contDiff_cos (n := ∞)
  fun_prop

theorem polReal_rr_smooth {r : ℝ} (hr : 0 < r) : ContDiff ℝ ∞ (dx (dx polReal) r) := by
  rw [show dx (dx polReal) r = _ from funext fun th => polReal_rr hr th]
  have := Real.contDiff_sin (n := ∞)
  have := Real.contDiff_cos (n := ∞)
  fun_prop

theorem sin_two_periodic (t : ℝ) : Real.sin (2 * (t + 2 * Real.pi)) = Real.sin (2 * t) := by
  have := Real.sin_add_nat_mul_two_pi (2 * t) 2
  push_cast at this
  rw [← this]
  congr 1
  ring

theorem sin_three_periodic (t : ℝ) : Real.sin (3 * (t + 2 * Real.pi)) = Real.sin (3 * t) := by
  have := Real.sin_add_nat_mul_two_pi (3 * t) 3
  push_cast at this
  rw [← this]
  congr 1
  ring

theorem polReal_periodic (r : ℝ) : Function.Periodic (polReal r) (2 * Real.pi) := by
  intro t
  unfold polReal
  rw [Real.cos_add_two_pi, sin_two_periodic, sin_three_periodic]

theorem polReal_rr_periodic {r : ℝ} (hr : 0 < r) : Function.Periodic (dx (dx polReal) r) (2 * Real.pi) := by
  intro t
  rw [polReal_rr hr, polReal_rr hr, Real.cos_add_two_pi, sin_two_periodic, sin_three_periodic]

theorem polU1_smooth {g : ℝ → ℝ → ℝ} (hg : Smooth2 g) : Smooth2 (polU1 g) := by
  unfold polU1
  refine ((((hg.add ?_).add ?_).add ?_).add ?_)
  · exact (Smooth2.of_left (f := fun r => (-r + 4) / 3) (by fun_prop)).mul ((Smooth2.of_right (polReal_smooth 1)).sub (hg.at_left 1))
  · exact (Smooth2.of_left (f := fun r => (r - 1) / 3) (by fun_prop)).mul ((Smooth2.of_right (polReal_smooth 4)).sub (hg.at_left 4))
  · exact (Smooth2.of_left (f := fun r => (-r ^ 3 + 12 * r ^ 2 - 39 * r + 28) / 18) (by fun_prop)).mul
      ((Smooth2.of_right (polReal_rr_smooth one_pos)).sub (hg.dx.dx.at_left 1))
  · exact (Smooth2.of_left (f := fun r => (r ^ 3 - 3 * r ^ 2 - 6 * r + 8) / 18) (by fun_prop)).mul
      ((Smooth2.of_right (polReal_rr_smooth (by norm_num : (0 : ℝ) < 4))).sub (hg.dx.dx.at_left 4))

theorem dx2_dy {F : ℝ → ℝ → ℝ} (hF : Smooth2 F) : dx (dx (dy F)) = dy (dx (dx F)) := by
  rw [dx_dy hF, dx_dy hF.dx]

/-- **C79**, D/Chapter_4/BiharmonicEquation/BiharmonicPolarCoordinates.py: on the circles `r = 1` and `r = 4` the expression and its second
derivative in `r` are those of the reference solution, and the expression and its first three derivatives in `θ` agree at `θ = 0` and
`θ = 2π`; for every smooth free function. -/
theorem C79_polar (g : ℝ → ℝ → ℝ) (hg : Smooth2 g) :
    (∀ th, polU g 1 th = polReal 1 th ∧ polU g 4 th = polReal 4 th ∧ dx (dx (polU g)) 1 th = dx (dx polReal) 1 th ∧
      dx (dx (polU g)) 4 th = dx (dx polReal) 4 th) ∧
    ∀ r, polU g r 0 = polU g r (2 * Real.pi) ∧ dy (polU g) r 0 = dy (polU g) r (2 * Real.pi) ∧
      dy (dy (polU g)) r 0 = dy (dy (polU g)) r (2 * Real.pi) ∧
      dy (dy (dy (polU g))) r 0 = dy (dy (dy (polU g))) r (2 * Real.pi) := by
  have hp := Real.pi_ne_zero
  have hs := polU1_smooth hg
  have v1 : polU1 g 1 = polReal 1 := by funext th; unfold polU1; ring
  have v4 : polU1 g 4 = polReal 4 := by funext th; unfold polU1; ring
  have w : ∀ r th, dx (dx (polU1 g)) r th = dx (dx g) r th + (-6 * r + 24) / 18 * (dx (dx polReal) 1 th - dx (dx g) 1 th)
      + (6 * r - 6) / 18 * (dx (dx polReal) 4 th - dx (dx g) 4 th) := fun r th =>
    congrFun (radial_second (hg.left th) _ _ _ _) r
  have w1 : dx (dx (polU1 g)) 1 = dx (dx polReal) 1 := by funext th; rw [w]; ring
  have w4 : dx (dx (polU1 g)) 4 = dx (dx polReal) 4 := by funext th; rw [w]; ring
  -- the differences between 0 and 2π of a periodic function and its derivatives
  have per : ∀ (F : ℝ → ℝ → ℝ) (r : ℝ), Function.Periodic (F r) (2 * Real.pi) → F r (2 * Real.pi) = F r 0 ∧
      Function.Periodic (dy F r) (2 * Real.pi) := by
    intro F r h
    refine ⟨?_, periodic_deriv h⟩
    have := h 0
    rwa [zero_add] at this
  have val : ∀ r, Function.Periodic (polU1 g r) (2 * Real.pi) → ∀ th, polU g r th = polU1 g r th := by
    intro r h th
    obtain ⟨a0, h1⟩ := per _ r h
    obtain ⟨a1, h2⟩ := per _ r h1
    obtain ⟨a2, h3⟩ := per _ r h2
    obtain ⟨a3, -⟩ := per _ r h3
    unfold polU
    rw [a0, a1, a2, a3]
    ring
  have sec : ∀ r, Function.Periodic (dx (dx (polU1 g)) r) (2 * Real.pi) → ∀ th, dx (dx (polU g)) r th = dx (dx (polU1 g)) r th := by
    intro r h th
    obtain ⟨a0, h1⟩ := per _ r h
    obtain ⟨a1, h2⟩ := per _ r h1
    obtain ⟨a2, h3⟩ := per _ r h2
    obtain ⟨a3, -⟩ := per _ r h3
    have c1 := dx2_dy hs
    have c2 : dx (dx (dy (dy (polU1 g)))) = dy (dy (dx (dx (polU1 g)))) := by rw [dx2_dy hs.dy, c1]
    have c3 : dx (dx (dy (dy (dy (polU1 g))))) = dy (dy (dy (dx (dx (polU1 g))))) := by rw [dx2_dy hs.dy.dy, c2]
    rw [← c1] at a1
    rw [← c2] at a2
    rw [← c3] at a3
    have hf : (fun s => polU g s th) = fun s => polU1 g s th - th / (2 * Real.pi) * (polU1 g s (2 * Real.pi) - polU1 g s 0)
        - (-((-th ^ 2 + 2 * Real.pi * th) / (4 * Real.pi))) * (dy (polU1 g) s (2 * Real.pi) - dy (polU1 g) s 0)
        - (-((-th ^ 3 + 3 * Real.pi * th ^ 2 - 2 * Real.pi ^ 2 * th) / (12 * Real.pi))) *
          (dy (dy (polU1 g)) s (2 * Real.pi) - dy (dy (polU1 g)) s 0)
        - (-((-th ^ 4 + 4 * Real.pi * th ^ 3 - 4 * Real.pi ^ 2 * th ^ 2) / (48 * Real.pi))) *
          (dy (dy (dy (polU1 g))) s (2 * Real.pi) - dy (dy (dy (polU1 g))) s 0) := by
      funext s
      unfold polU
      ring
    have := congrFun (lin4_second (hs.left th) ((hs.left (2 * Real.pi)).sub (hs.left 0)) ((hs.dy.left (2 * Real.pi)).sub (hs.dy.left 0))
      ((hs.dy.dy.left (2 * Real.pi)).sub (hs.dy.dy.left 0)) ((hs.dy.dy.dy.left (2 * Real.pi)).sub (hs.dy.dy.dy.left 0))
      (th / (2 * Real.pi)) (-((-th ^ 2 + 2 * Real.pi * th) / (4 * Real.pi)))
      (-((-th ^ 3 + 3 * Real.pi * th ^ 2 - 2 * Real.pi ^ 2 * th) / (12 * Real.pi)))
      (-((-th ^ 4 + 4 * Real.pi * th ^ 3 - 4 * Real.pi ^ 2 * th ^ 2) / (48 * Real.pi)))) r
    show deriv (fun s => deriv (fun q => polU g q th) s) r = deriv (fun s => deriv (fun q => polU1 g q th) s) r
    rw [hf]
    refine this.trans ?_
    rw [sub_second (hs.left (2 * Real.pi)) (hs.left 0), sub_second (hs.dy.left (2 * Real.pi)) (hs.dy.left 0),
      sub_second (hs.dy.dy.left (2 * Real.pi)) (hs.dy.dy.left 0), sub_second (hs.dy.dy.dy.left (2 * Real.pi)) (hs.dy.dy.dy.left 0)]
    have b0 : deriv (fun s => deriv (fun q => polU1 g q (2 * Real.pi)) s) r = deriv (fun s => deriv (fun q => polU1 g q 0) s) r := a0
    have b1 : deriv (fun s => deriv (fun q => dy (polU1 g) q (2 * Real.pi)) s) r = deriv (fun s => deriv (fun q => dy (polU1 g) q 0) s) r := a1
    have b2 : deriv (fun s => deriv (fun q => dy (dy (polU1 g)) q (2 * Real.pi)) s) r
      = deriv (fun s => deriv (fun q => dy (dy (polU1 g)) q 0) s) r := a2
    have b3 : deriv (fun s => deriv (fun q => dy (dy (dy (polU1 g))) q (2 * Real.pi)) s) r
      = deriv (fun s => deriv (fun q => dy (dy (dy (polU1 g))) q 0) s) r := a3
    rw [b0, b1, b2, b3]
    ring
  have four : (0 : ℝ) < 4 := by norm_num
  refine ⟨fun th => ⟨?_, ?_, ?_, ?_⟩, fun r => ?_⟩
  · rw [val 1 (v1 ▸ polReal_periodic 1), v1]
  · rw [val 4 (v4 ▸ polReal_periodic 4), v4]
  · rw [sec 1 (w1 ▸ polReal_rr_periodic one_pos), w1]
  · rw [sec 4 (w4 ▸ polReal_rr_periodic four), w4]
  · obtain ⟨a, ha⟩ : ∃ a, a = polU1 g r (2 * Real.pi) - polU1 g r 0 := ⟨_, rfl⟩
    obtain ⟨b, hb⟩ : ∃ b, b = dy (polU1 g) r (2 * Real.pi) - dy (polU1 g) r 0 := ⟨_, rfl⟩
    obtain ⟨c, hc⟩ : ∃ c, c = dy (dy (polU1 g)) r (2 * Real.pi) - dy (dy (polU1 g)) r 0 := ⟨_, rfl⟩
    obtain ⟨d, hd⟩ : ∃ d, d = dy (dy (dy (polU1 g))) r (2 * Real.pi) - dy (dy (dy (polU1 g))) r 0 := ⟨_, rfl⟩
    have e0 : polU g r = _ := rfl
    have e1 : dy (polU g) r = _ := quartic_first (hs.right r) (polU1 g r (2 * Real.pi) - polU1 g r 0)
      (dy (polU1 g) r (2 * Real.pi) - dy (polU1 g) r 0) (dy (dy (polU1 g)) r (2 * Real.pi) - dy (dy (polU1 g)) r 0)
      (dy (dy (dy (polU1 g))) r (2 * Real.pi) - dy (dy (dy (polU1 g))) r 0)
    rw [← ha, ← hb, ← hc, ← hd] at e1
    have e2 : dy (dy (polU g)) r = _ := (congrArg deriv e1).trans (quartic_second (hs.dy.right r) a b c d)
    have e3 : dy (dy (dy (polU g))) r = _ := (congrArg deriv e2).trans (quartic_third (hs.dy.dy.right r) b c d)
    have ea : polU1 g r (2 * Real.pi) = polU1 g r 0 + a := by rw [ha]; ring
    have eb : deriv (fun t => polU1 g r t) (2 * Real.pi) = deriv (fun t => polU1 g r t) 0 + b := by rw [hb]; unfold dy; ring
    have ec : deriv (fun t => dy (polU1 g) r t) (2 * Real.pi) = deriv (fun t => dy (polU1 g) r t) 0 + c := by
      have : c = deriv (fun t => dy (polU1 g) r t) (2 * Real.pi) - deriv (fun t => dy (polU1 g) r t) 0 := hc
      rw [this]
      ring
    have ed : deriv (fun t => dy (dy (polU1 g)) r t) (2 * Real.pi) = deriv (fun t => dy (dy (polU1 g)) r t) 0 + d := by
      have : d = deriv (fun t => dy (dy (polU1 g)) r t) (2 * Real.pi) - deriv (fun t => dy (dy (polU1 g)) r t) 0 := hd
      rw [this]
      ring
    refine ⟨?_, ?_, ?_, ?_⟩
    · unfold polU
      rw [← ha, ← hb, ← hc, ← hd, ea]
      field_simp
      ring
    · rw [e1]
      simp only
      rw [eb]
      field_simp
      ring
    · rw [e2]
      simp only
      rw [ec]
      field_simp
      ring
    · rw [e3]
      simp only
      rw [ed]
      field_simp
      ring

end Verif.Props
