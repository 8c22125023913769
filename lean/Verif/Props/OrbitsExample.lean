import Verif.Props.OrbitsRun
import Mathlib.Analysis.SpecialFunctions.Trigonometric.Deriv

/-!
# Two periodic orbits that meet the hypotheses
-/

namespace Verif.Props

open Set Polynomial Verif Verif.Mem Verif.Py Verif.Np Verif.Spec Verif.Model Verif.Model.Py Verif.Model.LSq Verif.Model.Prog Verif.Model.Dict
  Verif.Lemmas.LSq
open scoped ContDiff

variable {N : ℕ} {basis : String} {u : Utfc}

/-- The third corner of the equilateral triangle over the two bodies. -/
noncomputable def corner (mu : ℝ) : PState 2 5 := ⟨fun _ _ => 0, ![1 / 2 - mu, Real.sqrt 3 / 2, 0, 0, 1]⟩

theorem corner_path (hN : 2 ≤ N) (hb : basis = "CP" ∨ basis = "LeP") (hu : Built N basis (-1) 1 u) (mu C : ℝ) :
    sysFn (planarSys u mu C) (corner mu) 0 = (fun _ => 1 / 2 - mu) ∧ sysFn (planarSys u mu C) (corner mu) 1 = fun _ => Real.sqrt 3 / 2 := by
  constructor
  · rw [orb_formula (S := planarSys u mu C) hN hb hu rfl]
    funext t
    simp only [corner, planarR0, planarV0, deriv_const]
    simp only [Fin.val_zero, Matrix.cons_val, Fin.mk_zero, add_zero, Fin.reduceFinMk, Matrix.cons_val_zero]
    ring
  · rw [orb_formula (S := planarSys u mu C) hN hb hu rfl]
    funext t
    simp only [corner, planarR0, planarV0, deriv_const]
    simp only [Fin.val_one, Matrix.cons_val, Fin.mk_one, Fin.reduceFinMk, Matrix.cons_val_one, Nat.reduceAdd]
    ring

theorem sq3 : (Real.sqrt 3 / 2) ^ 2 = 3 / 4 := by
  rw [div_pow, Real.sq_sqrt (by norm_num)]
  norm_num

theorem corner_dist (mu : ℝ) : planarR1 mu (1 / 2 - mu) (Real.sqrt 3 / 2) = 1 ∧ planarR2 mu (1 / 2 - mu) (Real.sqrt 3 / 2) = 1 := by
  unfold planarR1 planarR2
  rw [sq3]
  constructor
  · rw [show (1 / 2 - mu + mu) ^ 2 + 3 / 4 = 1 by ring, Real.sqrt_one]
  · rw [show (1 / 2 - mu + mu - 1) ^ 2 + 3 / 4 = 1 by ring, Real.sqrt_one]

/-- The hypotheses of `C106_planar_orbit` are met: rest at the corner of the equilateral triangle, where the constant is 3, with the period 2. -/
example (hN : 2 ≤ N) (hb : basis = "CP" ∨ basis = "LeP") (hu : Built N basis (-1) 1 u) (mu : ℝ) :
    ∃ (P : ℝ) (X : Fin 3 → ℝ → ℝ), P = 2 ∧ ThreeBody mu X ∧ PeriodicMotion P X ∧ X 0 0 = 1 / 2 - mu ∧ X 1 0 = Real.sqrt 3 / 2 := by
  obtain ⟨p0, p1⟩ := corner_path hN hb hu mu 3
  obtain ⟨r1, r2⟩ := corner_dist mu
  have e1 : ∀ z, dist1 mu (fun k => planarPath (planarSys u mu 3) (corner mu) k z) = 1 := by
    intro z
    rw [← planarR1_eq mu _ (by simp [planarPath])]
    simp only [planarPath, Matrix.cons_val_zero, Matrix.cons_val_one, p0, p1, r1]
  have e2 : ∀ z, dist2 mu (fun k => planarPath (planarSys u mu 3) (corner mu) k z) = 1 := by
    intro z
    rw [← planarR2_eq mu _ (by simp [planarPath])]
    simp only [planarPath, Matrix.cons_val_zero, Matrix.cons_val_one, p0, p1, r2]
  have hn4 : (corner mu).num 4 = 1 := by simp [corner]
  obtain ⟨P, X, hP, -, h1, h2, -, -, ⟨h3, h4, -, -⟩, -⟩ := C106_planar_orbit hN hb hu (mu := mu) (C := 3) (st := corner mu) (fun q => contDiff_const)
    (by rw [hn4]; norm_num) rfl (fun z _ => by rw [e1]; norm_num) (fun z _ => by rw [e2]; norm_num) (by
      intro E hE z _ o
      simp only [planarSys, List.mem_cons, List.not_mem_nil, or_false] at hE
      rcases hE with rfl | rfl
      · simp only [sysMiss, sysJet, here, planarTerms, Matrix.cons_val_zero, Matrix.cons_val_one, Matrix.cons_val, iteratedDeriv_succ, iteratedDeriv_zero,
          p0, p1, deriv_const', deriv_const]
        change Fin 2 at o
        unfold planarLs planarA planarDv planarV
        rw [r1, r2]
        fin_cases o
        · simp only [Fin.zero_eta, Matrix.cons_val_zero]
          ring
        · simp only [Fin.mk_one, Matrix.cons_val_one]
          ring_nf
          rfl
      · simp only [sysMiss, sysJet, here, planarTerms, Matrix.cons_val_zero, Matrix.cons_val_one, Matrix.cons_val, iteratedDeriv_succ, iteratedDeriv_zero,
          p0, p1, deriv_const', deriv_const]
        unfold planarJc planarV
        rw [r1, r2, sq3]
        ring)
  refine ⟨P, X, ?_, h1, h2, by rw [h3]; simp [corner], by rw [h4]; simp [corner]⟩
  rw [hP]
  simp only [e2, hn4]
  norm_num

/-- The circle of radius 1/4 about the only body of a system with `μ = 0`, once around in the turning frame in the time `2π/7`. -/
noncomputable def circleState : PState 3 7 :=
  ⟨![fun z => Real.cos (Real.pi * z) / 4, fun z => Real.sin (Real.pi * z) / 4, fun _ => 0],
    ![-(1 / 4), 0, 0, 0, -(7 / 4), 0, Real.sqrt (7 / Real.pi)]⟩

theorem circle_derivs (z : ℝ) : HasDerivAt (fun z => Real.cos (Real.pi * z) / 4) (-(Real.pi * Real.sin (Real.pi * z) / 4)) z ∧
    HasDerivAt (fun z => Real.sin (Real.pi * z) / 4) (Real.pi * Real.cos (Real.pi * z) / 4) z := by
  have h : HasDerivAt (fun z : ℝ => Real.pi * z) Real.pi z := by simpa using (hasDerivAt_id z).const_mul Real.pi
  constructor
  · refine (((Real.hasDerivAt_cos _).comp z h).div_const 4).congr_deriv (by ring)
  · refine (((Real.hasDerivAt_sin _).comp z h).div_const 4).congr_deriv (by ring)

theorem circle_path (hN : 2 ≤ N) (hb : basis = "CP" ∨ basis = "LeP") (hu : Built N basis (-1) 1 u) (C : ℝ) (q : Fin 3) :
    sysFn (spatialSys u 0 C) circleState q = circleState.free q := by
  have hb2 : circleState.num 6 ^ 2 = 7 / Real.pi := by
    simp only [circleState, Matrix.cons_val]
    exact Real.sq_sqrt (by positivity)
  have hpi := Real.pi_pos
  rw [orb_formula (S := spatialSys u 0 C) hN hb hu rfl]
  funext t
  have key : ∀ f a b c d : ℝ, a = 0 → b = 0 → c = 0 → d = 0 → f + (2 - 3 * t + t ^ 3) / 4 * a + (2 + 3 * t - t ^ 3) / 4 * b +
      (1 - t - t ^ 2 + t ^ 3) / 4 * c + (-1 - t + t ^ 2 + t ^ 3) / 4 * d = f := by
    rintro f _ _ _ _ rfl rfl rfl rfl
    ring
  apply key
  all_goals
    simp only [spatialV0, spatialR0, hb2]
    fin_cases q
    all_goals
      simp only [circleState, Fin.zero_eta, Fin.mk_one, Fin.reduceFinMk, Matrix.cons_val_zero, Matrix.cons_val_one, Matrix.cons_val,
        (circle_derivs _).1.deriv, (circle_derivs _).2.deriv, deriv_const', mul_neg, mul_one, Real.cos_neg, Real.sin_neg, Real.cos_pi, Real.sin_pi]
      try field_simp
      try norm_num

/-- The hypotheses of `C106_spatial_orbit` are met: a circle about the first body, with the period `2π/7`. -/
example (hN : 2 ≤ N) (hb : basis = "CP" ∨ basis = "LeP") (hu : Built N basis (-1) 1 u) :
    ∃ X : Fin 3 → ℝ → ℝ, ThreeBody 0 X ∧ PeriodicMotion (2 * Real.pi / 7) X ∧ ∀ z ∈ Icc (-1 : ℝ) 1, X 0 ((z + 1) * Real.pi / 7) = Real.cos (Real.pi * z) / 4 := by
  have hpi := Real.pi_pos
  have hb2 : circleState.num 6 ^ 2 = 7 / Real.pi := by
    simp only [circleState, Matrix.cons_val]
    exact Real.sq_sqrt (by positivity)
  have hp := circle_path hN hb hu 5
  have f0 : circleState.free 0 = fun z => Real.cos (Real.pi * z) / 4 := rfl
  have f1 : circleState.free 1 = fun z => Real.sin (Real.pi * z) / 4 := rfl
  have f2 : circleState.free 2 = fun _ => 0 := rfl
  have hsq : ∀ z, (Real.cos (Real.pi * z) / 4) ^ 2 + (Real.sin (Real.pi * z) / 4) ^ 2 = 1 / 16 := by
    intro z
    have := Real.sin_sq_add_cos_sq (Real.pi * z)
    linarith [this, div_pow (Real.cos (Real.pi * z)) 4 2, div_pow (Real.sin (Real.pi * z)) 4 2]
  have e1 : ∀ z, dist1 0 (fun k => circleState.free k z) = 1 / 4 := by
    intro z
    unfold dist1
    beta_reduce
    rw [f0, f1, f2, add_zero, hsq, show (1 / 16 + 0 ^ 2 : ℝ) = (1 / 4) ^ 2 by norm_num, Real.sqrt_sq (by norm_num)]
  have e2 : ∀ z, dist2 0 (fun k => circleState.free k z) ≠ 0 := by
    intro z
    unfold dist2
    beta_reduce
    rw [f0, f1, f2]
    refine (Real.sqrt_pos.2 ?_).ne'
    have := Real.cos_le_one (Real.pi * z)
    nlinarith [sq_nonneg (Real.sin (Real.pi * z) / 4), sq_nonneg (Real.cos (Real.pi * z) / 4)]
  have d0 : deriv (circleState.free 0) = fun z => -(Real.pi * Real.sin (Real.pi * z) / 4) := funext fun z => (circle_derivs z).1.deriv
  have d1 : deriv (circleState.free 1) = fun z => Real.pi * Real.cos (Real.pi * z) / 4 := funext fun z => (circle_derivs z).2.deriv
  have d00 : ∀ z, deriv (deriv (circleState.free 0)) z = -(Real.pi ^ 2 * (Real.cos (Real.pi * z) / 4)) := by
    intro z
    rw [d0]
    have := ((circle_derivs z).2.const_mul (-Real.pi)).deriv
    rw [show (fun z => -(Real.pi * Real.sin (Real.pi * z) / 4)) = fun z => -Real.pi * (Real.sin (Real.pi * z) / 4) by funext z; ring]
    rw [this]
    ring
  have d11 : ∀ z, deriv (deriv (circleState.free 1)) z = -(Real.pi ^ 2 * (Real.sin (Real.pi * z) / 4)) := by
    intro z
    rw [d1]
    have := ((circle_derivs z).1.const_mul Real.pi).deriv
    rw [show (fun z => Real.pi * Real.cos (Real.pi * z) / 4) = fun z => Real.pi * (Real.cos (Real.pi * z) / 4) by funext z; ring]
    rw [this]
    ring
  have hsm : ∀ q, ContDiff ℝ ∞ (circleState.free q) := by
    intro q
    fin_cases q
    · change ContDiff ℝ ∞ fun z => Real.cos (Real.pi * z) / 4
      fun_prop
    · change ContDiff ℝ ∞ fun z => Real.sin (Real.pi * z) / 4
      fun_prop
    · exact contDiff_const
  obtain ⟨X, h1, h2, -, -, h3⟩ := C106_spatial_orbit hN hb hu (mu := 0) (C := 5) (st := circleState) hsm
    (fun h => by
      rw [h] at hb2
      have : 0 < 7 / Real.pi := by positivity
      norm_num at hb2
      linarith) rfl (fun z _ => by simp only [hp]; rw [e1]; norm_num) (fun z _ => by simp only [hp]; exact e2 z) (by
      intro E hE z _ o
      have hv : ∀ a : ℝ, 7 / Real.pi * (7 / Real.pi * (-(Real.pi ^ 2 * a))) = -(49 * a) := by
        intro a; field_simp; ring
      have hw : ∀ a : ℝ, 7 / Real.pi * (Real.pi * a / 4) = 7 * (a / 4) := by
        intro a; field_simp
      have hr := spatialR1_eq 0 fun k => circleState.free k z
      rw [e1] at hr
      beta_reduce at hr
      simp only [spatialSys, List.mem_cons, List.not_mem_nil, or_false] at hE
      rcases hE with rfl | rfl
      · simp only [sysMiss, sysJet, here, spatialTerms, Matrix.cons_val_zero, Matrix.cons_val_one, Matrix.cons_val, iteratedDeriv_succ, iteratedDeriv_zero,
          hp]
        change Fin 3 at o
        unfold spatialLs
        rw [hr, hb2, d00, d11, d0, d1, f2, hv, hv]
        fin_cases o
        · simp only [Fin.zero_eta, Matrix.cons_val_zero, hw, f0]
          ring
        · simp only [Fin.mk_one, Matrix.cons_val_one, mul_neg, hw, f1]
          ring_nf
          rfl
        · simp
      · simp only [sysMiss, sysJet, here, spatialTerms, Matrix.cons_val_zero, Matrix.cons_val_one, Matrix.cons_val, iteratedDeriv_succ, iteratedDeriv_zero,
          hp]
        unfold spatialJc
        rw [hr, hb2, d0, d1, f2, f0, f1]
        beta_reduce
        rw [mul_neg, hw, hw, hsq]
        rw [deriv_const]
        linear_combination (-49) * hsq z)
  refine ⟨X, h1, ?_, fun z hz => ?_⟩
  · rw [hb2] at h2
    rwa [show 2 * Real.pi / 7 = 2 / (7 / Real.pi) by field_simp]
  · have := h3 z hz 0
    rw [hb2, hp, f0] at this
    rwa [show (z + 1) * Real.pi / 7 = (z + 1) / (7 / Real.pi) by field_simp]

end Verif.Props
