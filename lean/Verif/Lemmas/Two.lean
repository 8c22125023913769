import Verif.Model.Pdes
import Mathlib.Analysis.Calculus.FDeriv.Symmetric
import Mathlib.Analysis.Calculus.ContDiff.Operations
import Mathlib.Analysis.Calculus.ContDiff.FTaylorSeries

/-! # Smooth functions of two variables: partial derivatives in curried form -/

namespace Verif

open Verif.Model.Prog
open scoped ContDiff

theorem deriv_sub_left (c z : ℝ) : deriv (HSub.hSub c) z = -1 := by
  have : deriv (fun x : ℝ => c - x) z = -1 := by simp
  exact this

/-- A smooth function of two variables. -/
def Smooth2 (g : ℝ → ℝ → ℝ) : Prop := ContDiff ℝ ∞ fun p : ℝ × ℝ => g p.1 p.2

theorem dx_eq {g : ℝ → ℝ → ℝ} (hg : Smooth2 g) (x y : ℝ) : dx g x y = fderiv ℝ (fun p : ℝ × ℝ => g p.1 p.2) (x, y) (1, 0) := by
  have h := (hg.differentiable (by simp) (x, y)).hasFDerivAt
  have h2 : HasDerivAt (fun s : ℝ => ((s, y) : ℝ × ℝ)) (1, 0) x := (hasDerivAt_id x).prodMk (hasDerivAt_const x y)
  exact (h.comp_hasDerivAt x h2).deriv

theorem dy_eq {g : ℝ → ℝ → ℝ} (hg : Smooth2 g) (x y : ℝ) : dy g x y = fderiv ℝ (fun p : ℝ × ℝ => g p.1 p.2) (x, y) (0, 1) := by
  have h := (hg.differentiable (by simp) (x, y)).hasFDerivAt
  have h2 : HasDerivAt (fun s : ℝ => ((x, s) : ℝ × ℝ)) (0, 1) y := (hasDerivAt_const y x).prodMk (hasDerivAt_id y)
  exact (h.comp_hasDerivAt y h2).deriv

theorem Smooth2.dx {g : ℝ → ℝ → ℝ} (hg : Smooth2 g) : Smooth2 (dx g) := by
  have h : ContDiff ℝ ∞ (fderiv ℝ (fun p : ℝ × ℝ => g p.1 p.2)) := hg.fderiv_right (by simp)
  have h2 := h.clm_apply (contDiff_const (c := ((1, 0) : ℝ × ℝ)))
  unfold Smooth2
  convert h2 using 1
  funext p
  exact dx_eq hg p.1 p.2

theorem Smooth2.dy {g : ℝ → ℝ → ℝ} (hg : Smooth2 g) : Smooth2 (dy g) := by
  have h : ContDiff ℝ ∞ (fderiv ℝ (fun p : ℝ × ℝ => g p.1 p.2)) := hg.fderiv_right (by simp)
  have h2 := h.clm_apply (contDiff_const (c := ((0, 1) : ℝ × ℝ)))
  unfold Smooth2
  convert h2 using 1
  funext p
  exact dy_eq hg p.1 p.2

theorem dx_dy {g : ℝ → ℝ → ℝ} (hg : Smooth2 g) : dx (dy g) = dy (dx g) := by
  funext x y
  obtain ⟨G, hG⟩ : ∃ G : ℝ × ℝ → ℝ, G = fun p => g p.1 p.2 := ⟨_, rfl⟩
  have hs : ContDiff ℝ ∞ G := by rw [hG]; exact hg
  have hf : ContDiff ℝ ∞ (fderiv ℝ G) := hs.fderiv_right (by simp)
  have hd := (hf.differentiable (by simp) (x, y)).hasFDerivAt
  have key : ∀ v w : ℝ × ℝ, fderiv ℝ (fun p => fderiv ℝ G p v) (x, y) w = fderiv ℝ (fderiv ℝ G) (x, y) w v := by
    intro v w
    have := hd.clm_apply (hasFDerivAt_const v (x, y))
    rw [this.fderiv]
    simp
  rw [dx_eq hg.dy, dy_eq hg.dx]
  have e1 : (fun p : ℝ × ℝ => Model.Prog.dy g p.1 p.2) = fun p => fderiv ℝ G p (0, 1) := by
    funext p
    rw [dy_eq hg, hG]
  have e2 : (fun p : ℝ × ℝ => Model.Prog.dx g p.1 p.2) = fun p => fderiv ℝ G p (1, 0) := by
    funext p
    rw [dx_eq hg, hG]
  rw [e1, e2, key, key]
  have hsym : IsSymmSndFDerivAt ℝ G (x, y) := hs.contDiffAt.isSymmSndFDerivAt (by simp; exact WithTop.coe_le_coe.mpr (le_top : (2 : ℕ∞) ≤ ⊤))
  exact hsym _ _

theorem Smooth2.left {g : ℝ → ℝ → ℝ} (hg : Smooth2 g) (y : ℝ) : ContDiff ℝ ∞ fun x => g x y :=
  ContDiff.comp (g := fun p : ℝ × ℝ => g p.1 p.2) hg (contDiff_id.prodMk contDiff_const)

theorem Smooth2.right {g : ℝ → ℝ → ℝ} (hg : Smooth2 g) (x : ℝ) : ContDiff ℝ ∞ fun y => g x y :=
  ContDiff.comp (g := fun p : ℝ × ℝ => g p.1 p.2) hg (contDiff_const.prodMk contDiff_id)

theorem Smooth2.of_left {f : ℝ → ℝ} (hf : ContDiff ℝ ∞ f) : Smooth2 fun x _ => f x := hf.comp contDiff_fst

theorem Smooth2.of_right {f : ℝ → ℝ} (hf : ContDiff ℝ ∞ f) : Smooth2 fun _ y => f y := hf.comp contDiff_snd

theorem Smooth2.add {g h : ℝ → ℝ → ℝ} (hg : Smooth2 g) (hh : Smooth2 h) : Smooth2 fun x y => g x y + h x y := ContDiff.add hg hh

theorem Smooth2.sub {g h : ℝ → ℝ → ℝ} (hg : Smooth2 g) (hh : Smooth2 h) : Smooth2 fun x y => g x y - h x y := ContDiff.sub hg hh

theorem Smooth2.mul {g h : ℝ → ℝ → ℝ} (hg : Smooth2 g) (hh : Smooth2 h) : Smooth2 fun x y => g x y * h x y := ContDiff.mul hg hh

theorem Smooth2.at_left {g : ℝ → ℝ → ℝ} (hg : Smooth2 g) (a : ℝ) : Smooth2 fun _ y => g a y := .of_right (hg.right a)

theorem Smooth2.at_right {g : ℝ → ℝ → ℝ} (hg : Smooth2 g) (a : ℝ) : Smooth2 fun x _ => g x a := .of_left (hg.left a)

end Verif
