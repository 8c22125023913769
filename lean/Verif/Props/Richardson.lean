import Verif.Props.RichardsonOrder
import Verif.Props.Libration
import Verif.Spec.Richardson
import Mathlib.Analysis.SpecialFunctions.Trigonometric.Deriv
import Mathlib.Analysis.Calculus.Deriv.Comp

/-!
# Richardson's approximation of the periodic orbits
-/

namespace Verif.Props

open Set Verif Verif.Py Verif.Spec Verif.Model.Py Verif.Lemmas
open scoped ContDiff

/-! ## The point and the coefficients of the force -/

/-- What the first lines of the two functions compute: a point of equilibrium on the axis, the unit of length, and the coefficients of the force there. -/
structure RichPlace (μ g L D1 D2 c2 c3 c4 : ℝ) : Prop where
  g0 : 0 < g
  d1 : D1 ≠ 0
  d2 : D2 ≠ 0
  b1 : -μ = L + g * D1
  b2 : 1 - μ = L + g * D2
  rest : Equilibrium μ ![L, 0, 0]
  e : L + g * ((1 - μ) / |g * D1| ^ 3 * D1 + μ / |g * D2| ^ 3 * D2) = 0
  k2 : c2 = (1 - μ) / |g * D1| ^ 3 + μ / |g * D2| ^ 3
  k3 : c3 = (1 - μ) / |g * D1| ^ 3 / D1 + μ / |g * D2| ^ 3 / D2
  k4 : c4 = (1 - μ) / |g * D1| ^ 3 / D1 ^ 2 + μ / |g * D2| ^ 3 / D2 ^ 2
  big : 1 < c2

theorem place_e {μ g L D1 D2 : ℝ} (b1 : -μ = L + g * D1) (b2 : 1 - μ = L + g * D2) (h : Equilibrium μ ![L, 0, 0]) :
    L + g * ((1 - μ) / |g * D1| ^ 3 * D1 + μ / |g * D2| ^ 3 * D2) = 0 := by
  obtain ⟨-, -, h⟩ := (axis_equilibrium L).1 h
  rw [show L + μ = -(g * D1) by linarith, show L - (1 - μ) = -(g * D2) by linarith, abs_neg, abs_neg] at h
  linear_combination h

theorem inv_cube_lt {a b : ℝ} (ha : 0 < a) (h : a < b) : 1 / b ^ 3 < 1 / a ^ 3 :=
  one_div_lt_one_div_of_lt (by positivity) (pow_lt_pow_left₀ h ha.le (by norm_num))

theorem place1 {μ g : ℝ} (h0 : 0 < μ) (h1 : μ < 1) (hg : q1 μ g = 0) (he : Equilibrium μ ![1 - μ - g, 0, 0]) :
    RichPlace μ g (1 - μ - g) (-(1 - g) / g) 1 (richC μ g 1 2) (richC μ g 1 3) (richC μ g 1 4) := by
  obtain ⟨a, b⟩ := q1_range h0 h1 hg
  have b1 : -μ = 1 - μ - g + g * (-(1 - g) / g) := by field_simp; ring
  have b2 : 1 - μ = 1 - μ - g + g * 1 := by ring
  have r1 : |g * (-(1 - g) / g)| = 1 - g := by
    rw [show g * (-(1 - g) / g) = -(1 - g) by field_simp, abs_neg, abs_of_pos (by linarith)]
  have r2 : |g * 1| = g := by rw [mul_one, abs_of_pos a]
  have hn : (1 - g) ≠ 0 := by linarith
  have hn' : (1 + -1 * g) = 1 - g := by ring
  have c2 : richC μ g 1 2 = (1 - μ) / |g * (-(1 - g) / g)| ^ 3 + μ / |g * 1| ^ 3 := by
    rw [r1, r2]; simp only [richC, richSide, if_true, show (1 : ℤ) ≠ 3 by decide, if_false, hn']; field_simp; ring
  refine ⟨a, div_ne_zero (by linarith) a.ne', one_ne_zero, b1, b2, he, place_e b1 b2 he, c2, ?_, ?_, ?_⟩
  · rw [r1, r2]; simp only [richC, richSide, if_true, show (1 : ℤ) ≠ 3 by decide, if_false, hn']; field_simp; ring
  · rw [r1, r2]; simp only [richC, richSide, if_true, show (1 : ℤ) ≠ 3 by decide, if_false, hn']; field_simp; ring
  · rw [c2, r1, r2]
    have k1 : 1 < 1 / (1 - g) ^ 3 := by simpa using inv_cube_lt (a := 1 - g) (b := 1) (by linarith) (by linarith)
    have k2 : 1 < 1 / g ^ 3 := by simpa using inv_cube_lt a b
    have e : (1 - μ) / (1 - g) ^ 3 + μ / g ^ 3 = (1 - μ) * (1 / (1 - g) ^ 3) + μ * (1 / g ^ 3) := by ring
    rw [e]
    nlinarith

theorem big_of {μ L c2 r1 r2 : ℝ} (h0 : 0 < μ) (h1 : μ < 1) 
    (h : L * (c2 - 1) = μ * (1 - μ) * (1 / r2 ^ 3 - 1 / r1 ^ 3)) (hs : (0 < L ∧ 0 < r2 ∧ r2 < r1) ∨ (L < 0 ∧ 0 < r1 ∧ r1 < r2)) : 1 < c2 := by
  have hm : 0 < μ * (1 - μ) := mul_pos h0 (by linarith)
  rcases hs with ⟨a, b, c⟩ | ⟨a, b, c⟩
  · have := mul_pos hm (sub_pos.2 (inv_cube_lt b c))
    rw [← h] at this
    linarith [(pos_iff_pos_of_mul_pos this).1 a]
  · have := mul_neg_of_pos_of_neg hm (sub_neg.2 (inv_cube_lt b c))
    rw [← h] at this
    by_contra hn
    nlinarith

theorem place2 {μ g : ℝ} (h0 : 0 < μ) (h1 : μ < 1) (hg : q2 μ g = 0) (he : Equilibrium μ ![1 - μ + g, 0, 0]) :
    RichPlace μ g (1 - μ + g) (-(1 + g) / g) (-1) (richC μ g 2 2) (richC μ g 2 3) (richC μ g 2 4) := by
  have a := q2_range h0 h1 hg
  have b1 : -μ = 1 - μ + g + g * (-(1 + g) / g) := by field_simp; ring
  have b2 : 1 - μ = 1 - μ + g + g * (-1) := by ring
  have r1 : |g * (-(1 + g) / g)| = 1 + g := by
    rw [show g * (-(1 + g) / g) = -(1 + g) by field_simp, abs_neg, abs_of_pos (by linarith)]
  have r2 : |g * (-1)| = g := by rw [mul_neg_one, abs_neg, abs_of_pos a]
  have hn : (1 + g) ≠ 0 := by linarith
  have hn' : (1 + - -1 * g) = 1 + g := by ring
  have c2 : richC μ g 2 2 = (1 - μ) / |g * (-(1 + g) / g)| ^ 3 + μ / |g * (-1)| ^ 3 := by
    rw [r1, r2]; simp only [richC, richSide, if_true, show (2 : ℤ) ≠ 3 by decide, show (2 : ℤ) ≠ 1 by decide, if_false, hn']; field_simp; ring
  have e := place_e b1 b2 he
  refine ⟨a, div_ne_zero (by linarith) a.ne', by norm_num, b1, b2, he, e, c2, ?_, ?_, ?_⟩
  · rw [r1, r2]; simp only [richC, richSide, if_true, show (2 : ℤ) ≠ 3 by decide, show (2 : ℤ) ≠ 1 by decide, if_false, hn']; field_simp; ring
  · rw [r1, r2]; simp only [richC, richSide, if_true, show (2 : ℤ) ≠ 3 by decide, show (2 : ℤ) ≠ 1 by decide, if_false, hn']; field_simp; ring
  · rw [r1, r2] at c2 e
    refine big_of (L := 1 - μ + g) (r1 := 1 + g) (r2 := g) h0 h1 ?_ (Or.inl ⟨by linarith, a, by linarith⟩)
    rw [c2]
    have e' : 1 - μ + g + ((1 - μ) / (1 + g) ^ 3 * (-(1 + g)) + μ / g ^ 3 * (-g)) = 0 := by
      rw [← e]; field_simp
    linear_combination -e'

theorem place3 {μ g : ℝ} (h0 : 0 < μ) (h1 : μ < 1) (hg : q3 μ g = 0) (he : Equilibrium μ ![-μ - g, 0, 0]) :
    RichPlace μ g (-μ - g) 1 ((1 + g) / g) (richC μ g 3 2) (richC μ g 3 3) (richC μ g 3 4) := by
  have a := q3_range h0 h1 hg
  have b1 : -μ = -μ - g + g * 1 := by ring
  have b2 : 1 - μ = -μ - g + g * ((1 + g) / g) := by field_simp; ring
  have r2 : |g * ((1 + g) / g)| = 1 + g := by
    rw [show g * ((1 + g) / g) = 1 + g by field_simp, abs_of_pos (by linarith)]
  have r1 : |g * 1| = g := by rw [mul_one, abs_of_pos a]
  have hn : (1 + g) ≠ 0 := by linarith
  have c2 : richC μ g 3 2 = (1 - μ) / |g * 1| ^ 3 + μ / |g * ((1 + g) / g)| ^ 3 := by
    rw [r1, r2]; simp only [richC, richSide, if_true, show (3 : ℤ) ≠ 2 by decide, show (3 : ℤ) ≠ 1 by decide, if_false]; field_simp; ring
  have e := place_e b1 b2 he
  refine ⟨a, one_ne_zero, div_ne_zero (by linarith) a.ne', b1, b2, he, e, c2, ?_, ?_, ?_⟩
  · rw [r1, r2]; simp only [richC, richSide, if_true, show (3 : ℤ) ≠ 2 by decide, show (3 : ℤ) ≠ 1 by decide, if_false]; field_simp; ring
  · rw [r1, r2]; simp only [richC, richSide, if_true, show (3 : ℤ) ≠ 2 by decide, show (3 : ℤ) ≠ 1 by decide, if_false]; field_simp; ring
  · rw [r1, r2] at c2 e
    refine big_of (L := -μ - g) (r1 := g) (r2 := 1 + g) h0 h1 ?_ (Or.inr ⟨by linarith, a, by linarith⟩)
    rw [c2]
    have e' : -μ - g + ((1 - μ) / g ^ 3 * g + μ / (1 + g) ^ 3 * (1 + g)) = 0 := by
      rw [← e]; field_simp
    linear_combination -e'

/-- The place for each of the three numbers of points. -/
theorem rich_place {roots : List ℝ → List ℂ} (hR : RootsCorrect roots) {mu : ℝ} (h0 : 0 < mu) (h1 : mu < 1) {Lpt : ℤ} (hL : Lpt = 1 ∨ Lpt = 2 ∨ Lpt = 3) {g : ℝ}
    (hg : gammaL roots mu Lpt = .ok g) : ∃ D1 D2 : ℝ,
      RichPlace mu g ((richSide mu Lpt).2 + g * -(richSide mu Lpt).1) D1 D2 (richC mu g Lpt 2) (richC mu g Lpt 3) (richC mu g Lpt 4) := by
  obtain ⟨g1, g2, g3, hg1, hg2, hg3, h⟩ := gammaL_value hR h0 h1
  have hp := axis_points h0 h1 hg1 hg2 hg3
  rcases hL with rfl | rfl | rfl
  · obtain rfl : g1 = g := Except.ok.inj ((h 1).symm.trans hg)
    have := place1 h0 h1 hg1 ((hp _).2 (Or.inl rfl))
    refine ⟨-(1 - g1) / g1, 1, ?_⟩
    simp only [richSide, if_true, show 1 - mu + g1 * -1 = 1 - mu - g1 by ring]
    exact this
  · obtain rfl : g2 = g := Except.ok.inj ((h 2).symm.trans hg)
    have := place2 h0 h1 hg2 ((hp _).2 (Or.inr (Or.inl rfl)))
    refine ⟨-(1 + g2) / g2, -1, ?_⟩
    simp only [richSide, if_true, show (2 : ℤ) ≠ 1 by decide, if_false, show 1 - mu + g2 * - -1 = 1 - mu + g2 by ring]
    exact this
  · obtain rfl : g3 = g := Except.ok.inj ((h 3).symm.trans hg)
    have := place3 h0 h1 hg3 ((hp _).2 (Or.inr (Or.inr rfl)))
    refine ⟨1, (1 + g3) / g3, ?_⟩
    simp only [richSide, show (3 : ℤ) ≠ 2 by decide, show (3 : ℤ) ≠ 1 by decide, if_false, show -mu + g3 * -1 = -mu - g3 by ring]
    exact this

/-! ## The curves -/

/-- The curve of which the functions return points. -/
noncomputable def richCurve (g L : ℝ) (R : Rich) (δ A Z : ℝ) : Fin 3 → ℝ → ℝ :=
  ![fun t => L + g * richX R A Z (richFreq R A Z * t), fun t => g * richY R A Z (richFreq R A Z * t), fun t => g * richZ R δ A Z (richFreq R A Z * t)]

theorem cos_mul_deriv (n f t : ℝ) : HasDerivAt (fun t => Real.cos (n * (f * t))) (-(n * f) * Real.sin (n * (f * t))) t := by
  have := (Real.hasDerivAt_cos (n * (f * t))).comp t (((hasDerivAt_id t).const_mul f).const_mul n)
  exact this.congr_deriv (by ring)

theorem sin_mul_deriv (n f t : ℝ) : HasDerivAt (fun t => Real.sin (n * (f * t))) (n * f * Real.cos (n * (f * t))) t := by
  have := (Real.hasDerivAt_sin (n * (f * t))).comp t (((hasDerivAt_id t).const_mul f).const_mul n)
  exact this.congr_deriv (by ring)

theorem cos_one_deriv (f t : ℝ) : HasDerivAt (fun t => Real.cos (f * t)) (-f * Real.sin (f * t)) t := by
  simpa using cos_mul_deriv 1 f t

theorem sin_one_deriv (f t : ℝ) : HasDerivAt (fun t => Real.sin (f * t)) (f * Real.cos (f * t)) t := by
  simpa using sin_mul_deriv 1 f t

/-- A sum of cosines of the multiples. -/
theorem cosines_deriv (p0 p1 p2 p3 f t : ℝ) :
    HasDerivAt (fun t => p0 + p1 * Real.cos (f * t) + p2 * Real.cos (2 * (f * t)) + p3 * Real.cos (3 * (f * t)))
      (f * (-p1 * Real.sin (f * t) - 2 * p2 * Real.sin (2 * (f * t)) - 3 * p3 * Real.sin (3 * (f * t)))) t := by
  have := (((hasDerivAt_const t p0).add ((cos_one_deriv f t).const_mul p1)).add ((cos_mul_deriv 2 f t).const_mul p2)).add ((cos_mul_deriv 3 f t).const_mul p3)
  exact this.congr_deriv (by ring)

/-- A sum of sines of the multiples. -/
theorem sines_deriv (p1 p2 p3 f t : ℝ) :
    HasDerivAt (fun t => p1 * Real.sin (f * t) + p2 * Real.sin (2 * (f * t)) + p3 * Real.sin (3 * (f * t)))
      (f * (p1 * Real.cos (f * t) + 2 * p2 * Real.cos (2 * (f * t)) + 3 * p3 * Real.cos (3 * (f * t)))) t := by
  have := (((sin_one_deriv f t).const_mul p1).add ((sin_mul_deriv 2 f t).const_mul p2)).add ((sin_mul_deriv 3 f t).const_mul p3)
  exact this.congr_deriv (by ring)

section
variable (g L : ℝ) (R : Rich) (δ A Z : ℝ)

/-- The velocities of the code are the derivatives of its positions. -/
theorem curve_velocity (t : ℝ) :
    HasDerivAt (richCurve g L R δ A Z 0) (g * richXdot R A Z (richFreq R A Z * t)) t ∧ HasDerivAt (richCurve g L R δ A Z 1) (g * richYdot R A Z (richFreq R A Z * t)) t ∧
    HasDerivAt (richCurve g L R δ A Z 2) (g * richZdot R δ A Z (richFreq R A Z * t)) t := by
  simp only [richCurve, Matrix.cons_val_zero, Matrix.cons_val_one, Matrix.cons_val]
  set f := richFreq R A Z with hf
  refine ⟨?_, ?_, ?_⟩
  · have := cosines_deriv (L + g * (R.a21 * A ^ 2 + R.a22 * Z ^ 2)) (g * -A) (g * (R.a23 * A ^ 2 - R.a24 * Z ^ 2)) (g * (R.a31 * A ^ 3 - R.a32 * A * Z ^ 2)) f t
    refine (this.congr_of_eventuallyEq (Filter.Eventually.of_forall fun t => ?_)).congr_deriv ?_
    · simp only [richX]; ring
    · simp only [richXdot, ← hf]; ring
  · have := sines_deriv (g * (R.k * A + (R.b33 * A ^ 3 + R.b34 * A * Z ^ 2 - R.b35 * A * Z ^ 2))) (g * (R.b21 * A ^ 2 - R.b22 * Z ^ 2))
      (g * (R.b31 * A ^ 3 - R.b32 * A * Z ^ 2)) f t
    refine (this.congr_of_eventuallyEq (Filter.Eventually.of_forall fun t => ?_)).congr_deriv ?_
    · simp only [richY]; ring
    · simp only [richYdot, ← hf]; ring
  · have := cosines_deriv (g * (δ * R.d21 * A * Z * -3)) (g * (δ * Z)) (g * (δ * R.d21 * A * Z)) (g * (δ * (R.d32 * Z * A ^ 2 - R.d31 * Z ^ 3))) f t
    refine (this.congr_of_eventuallyEq (Filter.Eventually.of_forall fun t => ?_)).congr_deriv ?_
    · simp only [richZ]; ring
    · simp only [richZdot, ← hf]; ring

/-- The second derivatives. -/
theorem curve_acceleration (t : ℝ) :
    HasDerivAt (fun t => g * richXdot R A Z (richFreq R A Z * t)) (g * (richFreq R A Z ^ 2 * (A * Real.cos (richFreq R A Z * t)
      - 4 * (R.a23 * A ^ 2 - R.a24 * Z ^ 2) * Real.cos (2 * (richFreq R A Z * t)) - 9 * (R.a31 * A ^ 3 - R.a32 * A * Z ^ 2) * Real.cos (3 * (richFreq R A Z * t))))) t ∧
    HasDerivAt (fun t => g * richYdot R A Z (richFreq R A Z * t)) (g * (richFreq R A Z ^ 2 * (-(R.k * A + (R.b33 * A ^ 3 + R.b34 * A * Z ^ 2 - R.b35 * A * Z ^ 2)) * Real.sin (richFreq R A Z * t)
      - 4 * (R.b21 * A ^ 2 - R.b22 * Z ^ 2) * Real.sin (2 * (richFreq R A Z * t)) - 9 * (R.b31 * A ^ 3 - R.b32 * A * Z ^ 2) * Real.sin (3 * (richFreq R A Z * t))))) t ∧
    HasDerivAt (fun t => g * richZdot R δ A Z (richFreq R A Z * t)) (g * (richFreq R A Z ^ 2 * (-(δ * Z) * Real.cos (richFreq R A Z * t)
      - 4 * (δ * R.d21 * A * Z) * Real.cos (2 * (richFreq R A Z * t)) - 9 * (δ * (R.d32 * Z * A ^ 2 - R.d31 * Z ^ 3)) * Real.cos (3 * (richFreq R A Z * t))))) t := by
  set f := richFreq R A Z with hf
  refine ⟨?_, ?_, ?_⟩
  · have := sines_deriv (g * f * A) (g * f * (-2 * (R.a23 * A ^ 2 - R.a24 * Z ^ 2))) (g * f * (-3 * (R.a31 * A ^ 3 - R.a32 * A * Z ^ 2))) f t
    refine (this.congr_of_eventuallyEq (Filter.Eventually.of_forall fun t => ?_)).congr_deriv ?_
    · simp only [richXdot, ← hf]; ring
    · ring
  · have := cosines_deriv 0 (g * f * (R.k * A + (R.b33 * A ^ 3 + R.b34 * A * Z ^ 2 - R.b35 * A * Z ^ 2))) (g * f * (2 * (R.b21 * A ^ 2 - R.b22 * Z ^ 2)))
      (g * f * (3 * (R.b31 * A ^ 3 - R.b32 * A * Z ^ 2))) f t
    refine (this.congr_of_eventuallyEq (Filter.Eventually.of_forall fun t => ?_)).congr_deriv ?_
    · simp only [richYdot, ← hf]; ring
    · ring
  · have := sines_deriv (g * f * (-(δ * Z))) (g * f * (-2 * (δ * R.d21 * A * Z))) (g * f * (-3 * (δ * (R.d32 * Z * A ^ 2 - R.d31 * Z ^ 3)))) f t
    refine (this.congr_of_eventuallyEq (Filter.Eventually.of_forall fun t => ?_)).congr_deriv ?_
    · simp only [richZdot, ← hf]; ring
    · ring

theorem curve_smooth (i : Fin 3) : ContDiff ℝ 2 (richCurve g L R δ A Z i) := by
  fin_cases i
  · show ContDiff ℝ 2 fun t => L + g * richX R A Z (richFreq R A Z * t)
    unfold richX; fun_prop
  · show ContDiff ℝ 2 fun t => g * richY R A Z (richFreq R A Z * t)
    unfold richY; fun_prop
  · show ContDiff ℝ 2 fun t => g * richZ R δ A Z (richFreq R A Z * t)
    unfold richZ; fun_prop

end

/-! ## The defect -/

theorem sin_three' (x : ℝ) : Real.sin (3 * x) = Real.sin x * (4 * Real.cos x ^ 2 - 1) := by
  rw [Real.sin_three_mul]
  linear_combination -4 * Real.sin x * Real.sin_sq_add_cos_sq x

theorem scale_pair (A Z : ℝ) : ∃ ε α β : ℝ, ε = max |A| |Z| ∧ |α| ≤ 1 ∧ |β| ≤ 1 ∧ A = ε * α ∧ Z = ε * β := by
  have h0 : 0 ≤ max |A| |Z| := (abs_nonneg A).trans (le_max_left _ _)
  rcases h0.eq_or_lt with h | h
  · have hA : A = 0 := abs_nonpos_iff.1 ((le_max_left _ _).trans h.symm.le)
    have hZ : Z = 0 := abs_nonpos_iff.1 ((le_max_right _ _).trans h.symm.le)
    exact ⟨_, 0, 0, rfl, by simp, by simp, by simp [hA], by simp [hZ]⟩
  · refine ⟨_, A / max |A| |Z|, Z / max |A| |Z|, rfl, ?_, ?_, by field_simp, by field_simp⟩
    · rw [abs_div, abs_of_pos h]; exact (div_le_one h).2 (le_max_left _ _)
    · rw [abs_div, abs_of_pos h]; exact (div_le_one h).2 (le_max_right _ _)

theorem positions_bounded (R : Rich) (δ : ℝ) : ∃ C : ℝ, 0 ≤ C ∧ ∀ ε α β c s : ℝ, |ε| ≤ 1 → |α| ≤ 1 → |β| ≤ 1 → |c| ≤ 1 → |s| ≤ 1 →
    |ser ε (tx1 α c) (tx2 R α β c) (tx3 R α β c)| ≤ C * |ε| ∧ |ser ε (ty1 R α s) (ty2 R α β c s) (ty3 R α β c s)| ≤ C * |ε| ∧
    |ser ε (tz1 δ β c) (tz2 R δ α β c) (tz3 R δ α β c)| ≤ C * |ε| ∧
    |ser ε (tx1 α c) (tx2 R α β c) (tx3 R α β c) - ε * tx1 α c| ≤ C * |ε| ^ 2 ∧ |ser ε (ty1 R α s) (ty2 R α β c s) (ty3 R α β c s) - ε * ty1 R α s| ≤ C * |ε| ^ 2 ∧
    |ser ε (tz1 δ β c) (tz2 R δ α β c) (tz3 R δ α β c) - ε * tz1 δ β c| ≤ C * |ε| ^ 2 := by
  obtain ⟨C1, h1, H1⟩ := bounded_on_box5 (fun q => tx1 q.2.1 q.2.2.2.1) (by unfold tx1; fun_prop)
  obtain ⟨C2, h2, H2⟩ := bounded_on_box5 (fun q => ty1 R q.2.1 q.2.2.2.2) (by unfold ty1; fun_prop)
  obtain ⟨C3, h3, H3⟩ := bounded_on_box5 (fun q => tz1 δ q.2.2.1 q.2.2.2.1) (by unfold tz1; fun_prop)
  obtain ⟨C4, h4, H4⟩ := bounded_on_box5 (fun q => tx2 R q.2.1 q.2.2.1 q.2.2.2.1 + q.1 * tx3 R q.2.1 q.2.2.1 q.2.2.2.1) (by unfold tx2 tx3; fun_prop)
  obtain ⟨C5, h5, H5⟩ := bounded_on_box5 (fun q => ty2 R q.2.1 q.2.2.1 q.2.2.2.1 q.2.2.2.2 + q.1 * ty3 R q.2.1 q.2.2.1 q.2.2.2.1 q.2.2.2.2) (by unfold ty2 ty3; fun_prop)
  obtain ⟨C6, h6, H6⟩ := bounded_on_box5 (fun q => tz2 R δ q.2.1 q.2.2.1 q.2.2.2.1 + q.1 * tz3 R δ q.2.1 q.2.2.1 q.2.2.2.1) (by unfold tz2 tz3; fun_prop)
  refine ⟨C1 + C2 + C3 + C4 + C5 + C6, by positivity, fun ε α β c s a1 a2 a3 a4 a5 => ?_⟩
  have k1 := H1 ε α β c s a1 a2 a3 a4 a5
  have k2 := H2 ε α β c s a1 a2 a3 a4 a5
  have k3 := H3 ε α β c s a1 a2 a3 a4 a5
  have k4 := H4 ε α β c s a1 a2 a3 a4 a5
  have k5 := H5 ε α β c s a1 a2 a3 a4 a5
  have k6 := H6 ε α β c s a1 a2 a3 a4 a5
  have low : ∀ u1 u2 u3 K1 K2 : ℝ, |u1| ≤ K1 → |u2 + ε * u3| ≤ K2 → K1 + K2 ≤ C1 + C2 + C3 + C4 + C5 + C6 → |ser ε u1 u2 u3| ≤ (C1 + C2 + C3 + C4 + C5 + C6) * |ε| := by
    intro u1 u2 u3 K1 K2 b1 b2 b3
    rw [show ser ε u1 u2 u3 = ε * (u1 + ε * (u2 + ε * u3)) by unfold ser; ring, abs_mul, mul_comm]
    refine mul_le_mul_of_nonneg_right ((abs_add_le _ _).trans ?_) (abs_nonneg _)
    rw [abs_mul]
    have := mul_le_mul a1 b2 (abs_nonneg _) zero_le_one
    linarith
  have high : ∀ u1 u2 u3 K2 : ℝ, |u2 + ε * u3| ≤ K2 → K2 ≤ C1 + C2 + C3 + C4 + C5 + C6 → |ser ε u1 u2 u3 - ε * u1| ≤ (C1 + C2 + C3 + C4 + C5 + C6) * |ε| ^ 2 := by
    intro u1 u2 u3 K2 b2 b3
    rw [show ser ε u1 u2 u3 - ε * u1 = (u2 + ε * u3) * ε ^ 2 by unfold ser; ring, abs_mul, abs_pow]
    exact mul_le_mul_of_nonneg_right (b2.trans b3) (by positivity)
  exact ⟨low _ _ _ _ _ k1 k4 (by linarith), low _ _ _ _ _ k2 k5 (by linarith), low _ _ _ _ _ k3 k6 (by linarith), high _ _ _ _ k4 (by linarith), high _ _ _ _ k5 (by linarith),
    high _ _ _ _ k6 (by linarith)⟩

/-- The series at a time. -/
theorem curve_series (R : Rich) (δ ε α β τ : ℝ) :
    richX R (ε * α) (ε * β) τ = ser ε (tx1 α (Real.cos τ)) (tx2 R α β (Real.cos τ)) (tx3 R α β (Real.cos τ)) ∧
    richY R (ε * α) (ε * β) τ = ser ε (ty1 R α (Real.sin τ)) (ty2 R α β (Real.cos τ) (Real.sin τ)) (ty3 R α β (Real.cos τ) (Real.sin τ)) ∧
    richZ R δ (ε * α) (ε * β) τ = ser ε (tz1 δ β (Real.cos τ)) (tz2 R δ α β (Real.cos τ)) (tz3 R δ α β (Real.cos τ)) := by
  refine ⟨?_, ?_, ?_⟩
  · unfold richX ser tx1 tx2 tx3; rw [Real.cos_two_mul, Real.cos_three_mul]; ring
  · unfold richY ser ty1 ty2 ty3; rw [Real.sin_two_mul, sin_three']; ring
  · unfold richZ ser tz1 tz2 tz3; rw [Real.cos_two_mul, Real.cos_three_mul]; ring

theorem freq_series (R : Rich) (ε α β : ℝ) : richFreq R (ε * α) (ε * β) = R.lam * (1 + tσ R α β * ε ^ 2) := by
  unfold richFreq tσ; ring

/-- **C108**: the curves satisfy the equations of motion up to the fourth order, with the force that the amplitudes have to balance. -/
theorem rich_defect {μ g L D1 D2 δ : ℝ} {R : Rich} (h0 : 0 < μ) (h1 : μ < 1) (hp : RichPlace μ g L D1 D2 R.c2 R.c3 R.c4) (h : RichRel R) (hδ : δ ^ 2 - 1 = 0) :
    ThirdOrderForced μ (fun A Z => -(R.lam ^ 2 - R.c2) - R.l1 * A ^ 2 - R.l2 * Z ^ 2) (fun A Z => richCurve g L R δ A Z) := by
  refine ⟨fun A Z i => curve_smooth g L R δ A Z i, ?_⟩
  obtain ⟨Ca, δa, hCa, hδa, Ha⟩ := acc_expand h0 h1 hp.g0 hp.d1 hp.d2 hp.b1 hp.b2 hp.e hp.k2 hp.k3 hp.k4
  obtain ⟨Ct, hCt, Ht⟩ := tails_bounded R δ
  obtain ⟨Cp, hCp, Hp⟩ := positions_bounded R δ
  have hg := hp.g0
  refine ⟨g * Ct + Ca * (Cp + 1) ^ 4, min 1 (δa / (Cp + 1)), lt_min one_pos (by positivity), fun A Z hA hZ i t => ?_⟩
  obtain ⟨ε, α, β, hε, hα, hβ, rfl, rfl⟩ := scale_pair A Z
  have hε0 : 0 ≤ ε := by rw [hε]; exact (abs_nonneg _).trans (le_max_left _ _)
  have hεd : ε ≤ min 1 (δa / (Cp + 1)) := by rw [hε]; exact max_le hA hZ
  rw [← hε]
  have hε1 : |ε| ≤ 1 := by rw [abs_of_nonneg hε0]; exact hεd.trans (min_le_left _ _)
  set f := richFreq R (ε * α) (ε * β) with hf
  set τ := f * t with hτ
  have hcs : Real.sin τ ^ 2 + Real.cos τ ^ 2 - 1 = 0 := by rw [Real.sin_sq_add_cos_sq]; ring
  obtain ⟨p1, p2, p3, -, -, -⟩ := Hp ε α β (Real.cos τ) (Real.sin τ) hε1 hα hβ (Real.abs_cos_le_one τ) (Real.abs_sin_le_one τ)
  obtain ⟨t1, t2, t3⟩ := Ht ε α β (Real.cos τ) (Real.sin τ) hε1 hα hβ (Real.abs_cos_le_one τ) (Real.abs_sin_le_one τ)
  obtain ⟨ex, ey, ez⟩ := curve_series R δ ε α β τ
  have sx := series_x α β ε h hcs hδ
  have sy := series_y α β ε h hcs hδ
  have sz := series_z α β ε h hcs hδ
  rw [← freq_series, ← hf] at sx sy sz
  rw [← ex, abs_of_nonneg hε0] at p1
  rw [← ey, abs_of_nonneg hε0] at p2
  rw [← ez, abs_of_nonneg hε0] at p3
  rw [← ex, ← ey, ← ez] at sx sy sz
  have vel : ∀ k : Fin 3, deriv (richCurve g L R δ (ε * α) (ε * β) k) = ![fun t => g * richXdot R (ε * α) (ε * β) (f * t), fun t => g * richYdot R (ε * α) (ε * β) (f * t),
      fun t => g * richZdot R δ (ε * α) (ε * β) (f * t)] k := by
    intro k
    funext t
    obtain ⟨v1, v2, v3⟩ := curve_velocity g L R δ (ε * α) (ε * β) t
    fin_cases k
    · exact v1.deriv
    · exact v2.deriv
    · exact v3.deriv
  obtain ⟨w1, w2, w3⟩ := curve_acceleration g R δ (ε * α) (ε * β) t
  rw [← hf, ← hτ] at w1 w2 w3
  have pos : (fun k => richCurve g L R δ (ε * α) (ε * β) k t) = ![L + g * richX R (ε * α) (ε * β) τ, g * richY R (ε * α) (ε * β) τ, g * richZ R δ (ε * α) (ε * β) τ] := by
    funext k
    fin_cases k <;> rfl
  have hle : Cp * ε ≤ (Cp + 1) * ε := by nlinarith
  have hsm : (Cp + 1) * ε ≤ δa := by
    have := hεd.trans (min_le_right _ _)
    rwa [le_div_iff₀ (by positivity), mul_comm] at this
  obtain ⟨n1, n2, n3⟩ := Ha ((Cp + 1) * ε) (richX R (ε * α) (ε * β) τ) (richY R (ε * α) (ε * β) τ) (richZ R δ (ε * α) (ε * β) τ) hsm (p1.trans hle) (p2.trans hle)
    (p3.trans hle) (fun k => deriv (richCurve g L R δ (ε * α) (ε * β) k) t)
  rw [pos]
  have v0 : deriv (richCurve g L R δ (ε * α) (ε * β) 0) t = g * richXdot R (ε * α) (ε * β) τ := by rw [vel]; rfl
  have v1 : deriv (richCurve g L R δ (ε * α) (ε * β) 1) t = g * richYdot R (ε * α) (ε * β) τ := by rw [vel]; rfl
  have dx : richXdot R (ε * α) (ε * β) τ = f * ser ε (tx1' α (Real.sin τ)) (tx2' R α β (Real.cos τ) (Real.sin τ)) (tx3' R α β (Real.cos τ) (Real.sin τ)) := by
    unfold richXdot ser tx1' tx2' tx3'; rw [Real.sin_two_mul, sin_three', ← hf]; ring
  have dy : richYdot R (ε * α) (ε * β) τ = f * ser ε (ty1' R α (Real.cos τ)) (ty2' R α β (Real.cos τ)) (ty3' R α β (Real.cos τ)) := by
    unfold richYdot ser ty1' ty2' ty3'; rw [Real.cos_two_mul, Real.cos_three_mul, ← hf]; ring
  have fin : ∀ q a b T : ℝ, |a - b| ≤ Ca * ((Cp + 1) * ε) ^ 4 → |T| ≤ Ct → q - b = g * (ε ^ 4 * T) → |q - a| ≤ (g * Ct + Ca * (Cp + 1) ^ 4) * ε ^ 4 := by
    intro q a b T ha hT hq
    have : q - a = g * (ε ^ 4 * T) - (a - b) := by rw [← hq]; ring
    rw [this]
    refine (abs_sub _ _).trans ?_
    rw [abs_mul, abs_mul, abs_of_pos hg, abs_of_nonneg (by positivity : 0 ≤ ε ^ 4)]
    have : g * (ε ^ 4 * |T|) ≤ g * (ε ^ 4 * Ct) := by gcongr
    calc _ ≤ g * (ε ^ 4 * Ct) + Ca * ((Cp + 1) * ε) ^ 4 := add_le_add this ha
      _ = _ := by ring
  fin_cases i
  · refine fin _ _ _ _ (by simpa using n1) t1 ?_
    show deriv (deriv (richCurve g L R δ (ε * α) (ε * β) 0)) t - _ = _
    rw [vel 0, show deriv (![fun t => g * richXdot R (ε * α) (ε * β) (f * t), fun t => g * richYdot R (ε * α) (ε * β) (f * t),
      fun t => g * richZdot R δ (ε * α) (ε * β) (f * t)] 0) t = _ from w1.deriv, v1, dy, ← sx]
    unfold ser tx1'' tx2'' tx3''
    rw [Real.cos_two_mul, Real.cos_three_mul]
    ring
  · refine fin _ _ _ _ (by simpa using n2) t2 ?_
    show deriv (deriv (richCurve g L R δ (ε * α) (ε * β) 1)) t - _ = _
    rw [vel 1, show deriv (![fun t => g * richXdot R (ε * α) (ε * β) (f * t), fun t => g * richYdot R (ε * α) (ε * β) (f * t),
      fun t => g * richZdot R δ (ε * α) (ε * β) (f * t)] 1) t = _ from w2.deriv, v0, dx, ← sy]
    unfold ser ty1'' ty2'' ty3''
    rw [Real.sin_two_mul, sin_three']
    ring
  · refine fin _ _ (g * (-(R.c2 * richZ R δ (ε * α) (ε * β) τ) - 3 * R.c3 * richX R (ε * α) (ε * β) τ * richZ R δ (ε * α) (ε * β) τ
      - 3 / 2 * R.c4 * richZ R δ (ε * α) (ε * β) τ * (4 * richX R (ε * α) (ε * β) τ ^ 2 - richY R (ε * α) (ε * β) τ ^ 2 - richZ R δ (ε * α) (ε * β) τ ^ 2))
      + (-(R.lam ^ 2 - R.c2) - R.l1 * (ε * α) ^ 2 - R.l2 * (ε * β) ^ 2) * (g * richZ R δ (ε * α) (ε * β) τ)) _ ?_ t3 ?_
    · refine le_trans (le_of_eq ?_) n3
      congr 1
      show _ + (if (2 : Fin 3) = 2 then _ * (g * richZ R δ (ε * α) (ε * β) τ) else 0) - _ = _
      rw [if_pos rfl]
      simp only [Fin.reduceFinMk]
      ring
    · show deriv (deriv (richCurve g L R δ (ε * α) (ε * β) 2)) t - _ = _
      rw [vel 2, show deriv (![fun t => g * richXdot R (ε * α) (ε * β) (f * t), fun t => g * richYdot R (ε * α) (ε * β) (f * t),
        fun t => g * richZdot R δ (ε * α) (ε * β) (f * t)] 2) t = _ from w3.deriv, ← sz]
      unfold ser tz1'' tz2'' tz3''
      rw [Real.cos_two_mul, Real.cos_three_mul]
      ring

end Verif.Props
