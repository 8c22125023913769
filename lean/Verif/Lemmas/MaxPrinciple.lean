import Verif.Lemmas.Two
import Mathlib.Analysis.Calculus.Deriv.MeanValue
import Mathlib.Topology.Order.Compact

/-! # Touching functions: the argument behind maximum principles -/

namespace Verif

open Set Filter Topology

/-- If `w` lies below `M φ` and touches it only for `M ≤ K`, then `w ≤ K φ`. -/
theorem le_of_no_touch {X : Type} [TopologicalSpace X] {S : Set X} (hS : IsCompact S) {w φ : X → ℝ}
    (hw : ContinuousOn w S) (hφ : ContinuousOn φ S) (hpos : ∀ P ∈ S, 0 < φ P) {K : ℝ}
    (h : ∀ M, K < M → ∀ P ∈ S, w P = M * φ P → (∀ Q ∈ S, w Q ≤ M * φ Q) → False) : ∀ P ∈ S, w P ≤ K * φ P := by
  intro P hP
  obtain ⟨Q, hQ, hmax⟩ := hS.exists_isMaxOn ⟨P, hP⟩ (hw.div hφ fun P hP => (hpos P hP).ne')
  have key : ∀ P ∈ S, w P ≤ w Q / φ Q * φ P := by
    intro P hP
    have : w P / φ P ≤ w Q / φ Q := hmax hP
    rwa [div_le_iff₀ (hpos P hP)] at this
  by_cases hK : w Q / φ Q ≤ K
  · exact (key P hP).trans (mul_le_mul_of_nonneg_right hK (hpos P hP).le)
  · exact (h _ (lt_of_not_ge hK) Q hQ (div_mul_cancel₀ _ (hpos Q hQ).ne').symm key).elim

/-- A maximum at the right end: the derivative there is not negative. -/
theorem deriv_nonneg_of_max_left {f : ℝ → ℝ} {a b d : ℝ} (hb : b < a) (hf : HasDerivAt f d a)
    (hmax : ∀ t ∈ Icc b a, f t ≤ f a) : 0 ≤ d := by
  by_contra hd
  have hd : d < 0 := lt_of_not_ge hd
  have ht : Tendsto (slope f a) (𝓝[<] a) (𝓝 d) :=
    (hasDerivAt_iff_tendsto_slope.1 hf).mono_left (nhdsWithin_mono _ fun x hx => ne_of_lt hx)
  have h1 : ∀ᶠ t in 𝓝[<] a, slope f a t < 0 := ht.eventually_lt_const hd
  have h2 : ∀ᶠ t in 𝓝[<] a, t ∈ Ico b a := Ico_mem_nhdsLT hb
  obtain ⟨t, h3, h4⟩ := (h1.and h2).exists
  have h5 := hmax t ⟨h4.1, h4.2.le⟩
  rw [slope_def_field] at h3
  have : 0 ≤ (f t - f a) / (t - a) := div_nonneg_of_nonpos (by linarith) (by linarith [h4.2])
  linarith

/-- A maximum at the left end: the derivative there is not positive. -/
theorem deriv_nonpos_of_max_right {f : ℝ → ℝ} {a b d : ℝ} (hb : a < b) (hf : HasDerivAt f d a)
    (hmax : ∀ t ∈ Icc a b, f t ≤ f a) : d ≤ 0 := by
  have hg : HasDerivAt (fun t => f (-t)) (-d) (-a) := by
    have := HasDerivAt.comp (-a) (by simpa using hf : HasDerivAt f d (-(-a))) (hasDerivAt_neg (-a))
    rw [mul_neg_one] at this
    exact this
  have := deriv_nonneg_of_max_left (b := -b) (a := -a) (by linarith) hg fun t ht => by
    simp only [neg_neg]
    exact hmax (-t) ⟨by linarith [ht.2], by linarith [ht.1]⟩
  linarith

/-- A maximum inside: the derivative vanishes. -/
theorem deriv_zero_of_max {f : ℝ → ℝ} {a b c d : ℝ} (hb : b < a) (hc : a < c) (hf : HasDerivAt f d a)
    (hmax : ∀ t ∈ Icc b c, f t ≤ f a) : d = 0 :=
  le_antisymm (deriv_nonpos_of_max_right hc hf fun t ht => hmax t ⟨by linarith [ht.1], ht.2⟩)
    (deriv_nonneg_of_max_left hb hf fun t ht => hmax t ⟨ht.1, by linarith [ht.2]⟩)

/-- A function that vanishes on an interval has derivative 0 there, also at the ends. -/
theorem deriv_zero_of_zero {f : ℝ → ℝ} {a b c d : ℝ} (hbc : b < c) (hf : HasDerivAt f d a) (h : ∀ t ∈ Icc b c, f t = 0) (ha : a ∈ Icc b c) :
    d = 0 := by
  have hn : HasDerivAt (fun t => -f t) (-d) a := hf.neg
  rcases eq_or_lt_of_le ha.1 with e | hl
  · have hc : a < c := e ▸ hbc
    have h1 := deriv_nonpos_of_max_right hc hf fun t ht => by rw [h t ⟨ha.1.trans ht.1, ht.2⟩, h a ha]
    have h2 := deriv_nonpos_of_max_right hc hn fun t ht => by rw [h t ⟨ha.1.trans ht.1, ht.2⟩, h a ha]
    linarith
  · have h1 := deriv_nonneg_of_max_left hl hf fun t ht => by rw [h t ⟨ht.1, ht.2.trans ha.2⟩, h a ha]
    have h2 := deriv_nonneg_of_max_left hl hn fun t ht => by rw [h t ⟨ht.1, ht.2.trans ha.2⟩, h a ha]
    linarith

/-- A maximum at the right end with derivative 0: the second derivative there is not positive. -/
theorem second_nonpos_of_max_left {f f' : ℝ → ℝ} {a b d : ℝ} (hb : b < a) (hf : ∀ t ∈ Icc b a, HasDerivAt f (f' t) t)
    (h2 : HasDerivAt f' d a) (h1 : f' a = 0) (hmax : ∀ t ∈ Icc b a, f t ≤ f a) : d ≤ 0 := by
  by_contra hd
  have hd : 0 < d := lt_of_not_ge hd
  have ht : Tendsto (slope f' a) (𝓝[<] a) (𝓝 d) :=
    (hasDerivAt_iff_tendsto_slope.1 h2).mono_left (nhdsWithin_mono _ fun x hx => ne_of_lt hx)
  have e1 : ∀ᶠ t in 𝓝[<] a, 0 < slope f' a t := ht.eventually_const_lt hd
  have e2 : ∀ᶠ t in 𝓝[<] a, t ∈ Ico b a := Ico_mem_nhdsLT hb
  obtain ⟨c, hc, hcs⟩ := (mem_nhdsLT_iff_exists_Ico_subset.1 (e1.and e2))
  have hcb : b ≤ c := (hcs ⟨le_rfl, hc⟩).2.1
  have hanti : StrictAntiOn f (Icc c a) := by
    refine strictAntiOn_of_deriv_neg (convex_Icc c a) (fun t ht => ?_) fun t ht => ?_
    · exact (hf t ⟨hcb.trans ht.1, ht.2⟩).continuousAt.continuousWithinAt
    · rw [interior_Icc] at ht
      rw [(hf t ⟨hcb.trans ht.1.le, ht.2.le⟩).deriv]
      have h3 := (hcs ⟨ht.1.le, ht.2⟩).1
      rw [slope_def_field, h1, sub_zero] at h3
      by_contra hn
      have : f' t / (t - a) ≤ 0 := div_nonpos_of_nonneg_of_nonpos (le_of_not_gt hn) (by linarith [ht.2])
      linarith
  have := hanti ⟨le_rfl, hc.le⟩ ⟨hc.le, le_rfl⟩ hc
  exact absurd (hmax c ⟨hcb, hc.le⟩) (not_le.2 this)

/-- A maximum at the left end with derivative 0: the second derivative there is not positive. -/
theorem second_nonpos_of_max_right {f f' : ℝ → ℝ} {a b d : ℝ} (hb : a < b) (hf : ∀ t ∈ Icc a b, HasDerivAt f (f' t) t)
    (h2 : HasDerivAt f' d a) (h1 : f' a = 0) (hmax : ∀ t ∈ Icc a b, f t ≤ f a) : d ≤ 0 := by
  have hneg : ∀ {g : ℝ → ℝ} {e t : ℝ}, HasDerivAt g e (-t) → HasDerivAt (fun t => g (-t)) (-e) t := by
    intro g e t hg
    have := HasDerivAt.comp t hg (hasDerivAt_neg t)
    rw [mul_neg_one] at this
    exact this
  refine second_nonpos_of_max_left (f := fun t => f (-t)) (f' := fun t => -f' (-t)) (a := -a) (b := -b) (by linarith)
    (fun t ht => hneg (hf (-t) ⟨by linarith [ht.2], by linarith [ht.1]⟩)) ?_ (by simp [h1]) fun t ht => ?_
  · have := (hneg (t := -a) (by simpa using h2)).neg
    rw [neg_neg] at this
    exact this
  · simp only [neg_neg]
    exact hmax (-t) ⟨by linarith [ht.2], by linarith [ht.1]⟩

/-! ## Two variables -/

open Verif.Model.Prog
open scoped ContDiff

theorem Smooth2.continuous {g : ℝ → ℝ → ℝ} (hg : Smooth2 g) : Continuous fun p : ℝ × ℝ => g p.1 p.2 := ContDiff.continuous hg

theorem Smooth2.hasDx {g : ℝ → ℝ → ℝ} (hg : Smooth2 g) (x y : ℝ) : HasDerivAt (fun s => g s y) (Model.Prog.dx g x y) x :=
  ((hg.left y).differentiable (by simp) x).hasDerivAt

theorem Smooth2.hasDy {g : ℝ → ℝ → ℝ} (hg : Smooth2 g) (x y : ℝ) : HasDerivAt (fun s => g x s) (Model.Prog.dy g x y) y :=
  ((hg.right x).differentiable (by simp) y).hasDerivAt

theorem Smooth2.dx_sub {g h : ℝ → ℝ → ℝ} (hg : Smooth2 g) (hh : Smooth2 h) :
    Model.Prog.dx (fun x y => g x y - h x y) = fun x y => Model.Prog.dx g x y - Model.Prog.dx h x y := by
  funext x y
  exact ((hg.hasDx x y).sub (hh.hasDx x y)).deriv

theorem Smooth2.dy_sub {g h : ℝ → ℝ → ℝ} (hg : Smooth2 g) (hh : Smooth2 h) :
    Model.Prog.dy (fun x y => g x y - h x y) = fun x y => Model.Prog.dy g x y - Model.Prog.dy h x y := by
  funext x y
  exact ((hg.hasDy x y).sub (hh.hasDy x y)).deriv

theorem Smooth2.dx_add {g h : ℝ → ℝ → ℝ} (hg : Smooth2 g) (hh : Smooth2 h) :
    Model.Prog.dx (fun x y => g x y + h x y) = fun x y => Model.Prog.dx g x y + Model.Prog.dx h x y := by
  funext x y
  exact ((hg.hasDx x y).add (hh.hasDx x y)).deriv

theorem Smooth2.dy_add {g h : ℝ → ℝ → ℝ} (hg : Smooth2 g) (hh : Smooth2 h) :
    Model.Prog.dy (fun x y => g x y + h x y) = fun x y => Model.Prog.dy g x y + Model.Prog.dy h x y := by
  funext x y
  exact ((hg.hasDy x y).add (hh.hasDy x y)).deriv

/-- A maximum inside an interval: first derivative 0, second derivative not positive. -/
theorem touch {f f' : ℝ → ℝ} {a b c d : ℝ} (hb : b < a) (hc : a < c) (hf : ∀ t ∈ Icc b c, HasDerivAt f (f' t) t) (h2 : HasDerivAt f' d a)
    (hmax : ∀ t ∈ Icc b c, f t ≤ f a) : f' a = 0 ∧ d ≤ 0 := by
  have h1 : f' a = 0 := deriv_zero_of_max hb hc (hf a ⟨hb.le, hc.le⟩) hmax
  exact ⟨h1, second_nonpos_of_max_left hb (fun t ht => hf t ⟨ht.1, by linarith [ht.2]⟩) h2 h1 fun t ht => hmax t ⟨ht.1, by linarith [ht.2]⟩⟩

/-- The derivatives of `w - M φ` with `φ = x (1 - x) / 2 + ε`. -/
theorem bump_deriv {f : ℝ → ℝ} {d : ℝ} (M ε : ℝ) {x : ℝ} (hf : HasDerivAt f d x) :
    HasDerivAt (fun x => f x - M * (x * (1 - x) / 2 + ε)) (d - M * (1 / 2 - x)) x := by
  have h : HasDerivAt (fun x : ℝ => x * (1 - x) / 2 + ε) (1 / 2 - x) x := by
    refine HasDerivAt.congr_deriv ((((hasDerivAt_id x).mul ((hasDerivAt_id x).const_sub 1)).div_const 2).add_const ε) ?_
    simp
    ring
  exact hf.sub (h.const_mul M)

theorem bump_deriv2 {f : ℝ → ℝ} {d : ℝ} (M : ℝ) {x : ℝ} (hf : HasDerivAt f d x) :
    HasDerivAt (fun x => f x - M * (1 / 2 - x)) (d + M) x := by
  refine HasDerivAt.congr_deriv (hf.sub (((hasDerivAt_id x).const_sub (1 / 2)).const_mul M)) ?_
  ring

/-- Laplace operator on the unit square: one side. -/
theorem laplace_upper {w : ℝ → ℝ → ℝ} (hw : Smooth2 w) {R : ℝ} (hR0 : 0 ≤ R)
    (hx : ∀ y ∈ Icc (0 : ℝ) 1, w 0 y = 0 ∧ w 1 y = 0) (hy : ∀ x ∈ Icc (0 : ℝ) 1, w x 0 = 0 ∧ w x 1 = 0)
    (hR : ∀ x ∈ Icc (0 : ℝ) 1, ∀ y ∈ Icc (0 : ℝ) 1, -R ≤ dx (dx w) x y + dy (dy w) x y) :
    ∀ x ∈ Icc (0 : ℝ) 1, ∀ y ∈ Icc (0 : ℝ) 1, w x y ≤ R * (x * (1 - x) / 2) := by
  have key : ∀ ε > 0, ∀ P ∈ Icc (0 : ℝ) 1 ×ˢ Icc (0 : ℝ) 1, w P.1 P.2 ≤ R * (P.1 * (1 - P.1) / 2 + ε) := by
    intro ε hε
    have hpos : ∀ P ∈ Icc (0 : ℝ) 1 ×ˢ Icc (0 : ℝ) 1, 0 < P.1 * (1 - P.1) / 2 + ε := by
      rintro ⟨x, y⟩ ⟨h1, -⟩
      have : 0 ≤ x * (1 - x) := mul_nonneg h1.1 (by linarith [h1.2])
      simp only
      linarith
    refine le_of_no_touch (isCompact_Icc.prod isCompact_Icc) (w := fun P => w P.1 P.2) (φ := fun P => P.1 * (1 - P.1) / 2 + ε)
      hw.continuous.continuousOn (by fun_prop) hpos ?_
    rintro M hM ⟨x, y⟩ hP he hle
    have hMp : 0 < M := lt_of_le_of_lt hR0 hM
    have hpp := mul_pos hMp (hpos _ hP)
    obtain ⟨hpx, hpy⟩ := hP
    simp only at hpx hpy he hpp
    have hne : w x y ≠ 0 := by rw [he]; exact hpp.ne'
    have x0 : 0 < x := lt_of_le_of_ne hpx.1 fun h => hne (h ▸ (hx y hpy).1)
    have x1 : x < 1 := lt_of_le_of_ne hpx.2 fun h => hne (h ▸ (hx y hpy).2)
    have y0 : 0 < y := lt_of_le_of_ne hpy.1 fun h => hne (h ▸ (hy x hpx).1)
    have y1 : y < 1 := lt_of_le_of_ne hpy.2 fun h => hne (h ▸ (hy x hpx).2)
    have t1 := touch x0 x1 (f := fun s => w s y - M * (s * (1 - s) / 2 + ε)) (fun s _ => bump_deriv M ε (hw.hasDx s y))
      (bump_deriv2 M (hw.dx.hasDx x y)) fun s hs => by
        have := hle (s, y) ⟨hs, hpy⟩
        simp only at this ⊢
        linarith
    have t2 := touch y0 y1 (f := fun s => w x s) (fun s _ => hw.hasDy x s) (hw.dy.hasDy x y) fun s hs => by
        have := hle (x, s) ⟨hpx, hs⟩
        simp only at this ⊢
        linarith
    linarith [hR x hpx y hpy, t1.2, t2.2]
  intro x hx y hy
  refine le_of_forall_pos_le_add fun δ hδ => ?_
  have := key (δ / (R + 1)) (by positivity) (x, y) ⟨hx, hy⟩
  have h2 : R * (δ / (R + 1)) ≤ δ := by
    rw [mul_div_assoc', div_le_iff₀ (by linarith)]
    nlinarith
  simp only at this
  linarith

theorem dx_neg (g : ℝ → ℝ → ℝ) : dx (fun x y => -g x y) = fun x y => -dx g x y := by
  funext x y
  exact deriv.fun_neg

theorem dy_neg (g : ℝ → ℝ → ℝ) : dy (fun x y => -g x y) = fun x y => -dy g x y := by
  funext x y
  exact deriv.fun_neg

theorem Smooth2.neg {g : ℝ → ℝ → ℝ} (hg : Smooth2 g) : Smooth2 fun x y => -g x y := ContDiff.neg hg

/-- **The Laplace operator on the unit square with boundary values 0**: the function is bounded by the largest value of the operator. -/
theorem laplace_bound {w : ℝ → ℝ → ℝ} (hw : Smooth2 w) {R : ℝ}
    (hx : ∀ y ∈ Icc (0 : ℝ) 1, w 0 y = 0 ∧ w 1 y = 0) (hy : ∀ x ∈ Icc (0 : ℝ) 1, w x 0 = 0 ∧ w x 1 = 0)
    (hR : ∀ x ∈ Icc (0 : ℝ) 1, ∀ y ∈ Icc (0 : ℝ) 1, |dx (dx w) x y + dy (dy w) x y| ≤ R) :
    ∀ x ∈ Icc (0 : ℝ) 1, ∀ y ∈ Icc (0 : ℝ) 1, |w x y| ≤ R * (x * (1 - x) / 2) := by
  have hR0 : 0 ≤ R := (abs_nonneg _).trans (hR 0 ⟨le_rfl, zero_le_one⟩ 0 ⟨le_rfl, zero_le_one⟩)
  intro x h1 y h2
  refine abs_le.2 ⟨?_, laplace_upper hw hR0 hx hy (fun x hx y hy => (abs_le.1 (hR x hx y hy)).1) x h1 y h2⟩
  have := laplace_upper hw.neg hR0 (fun y hy => by simp [hx y hy]) (fun x hx => by simp [hy x hx])
    (fun x hx y hy => by
      simp only [dx_neg, dy_neg]
      linarith [(abs_le.1 (hR x hx y hy)).2]) x h1 y h2
  linarith

end Verif
