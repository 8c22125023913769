import Verif.Props.Orbits

/-!
# The program for periodic orbits of the restricted three-body problem in space
-/

namespace Verif.Props

open Set Polynomial Verif Verif.Mem Verif.Py Verif.Np Verif.Spec Verif.Model Verif.Model.Py Verif.Model.LSq Verif.Model.Prog Verif.Model.Dict
  Verif.Lemmas.LSq
open scoped ContDiff

variable {N : ℕ} {basis : String} {u : Utfc}

theorem spatialR1_eq (mu : ℝ) (p : Fin 3 → ℝ) : spatialR1 mu (p 0) (p 1) (p 2) = dist1 mu p := rfl

theorem spatialR2_eq (mu : ℝ) (p : Fin 3 → ℝ) : spatialR2 mu (p 0) (p 1) (p 2) = dist2 mu p := by
  unfold spatialR2 dist2
  congr 1
  ring

theorem spatial_smooth (u : Utfc) (mu C : ℝ) : SmoothSys (spatialSys u mu C) := by
  refine ⟨fun q => orb_smooth_conds u spatialR0 spatialV0 q, ?_⟩
  intro E hE i
  unfold spatialSys at hE
  simp only [List.mem_cons, List.not_mem_nil, or_false] at hE
  rcases hE with rfl | rfl
  all_goals
    change Fin 9 at i
    fin_cases i <;> simp [spatialTerms]

/-- The velocity of the curve in physical time. -/
noncomputable def spatialVel (S : PSys 3 7) (st : PState 3 7) (i : Fin 3) (z : ℝ) : ℝ := st.num 6 ^ 2 * deriv (sysFn S st i) z

/-- The equations of motion of the program. -/
noncomputable abbrev spatialEq1 (u : Utfc) (mu : ℝ) : PEqn 3 7 :=
  ⟨u.z, 9, spatialTerms, here, 3, fun _ J s => spatialLs mu (s 6) (J 0) (J 1) (J 2) (J 3) (J 4) (J 6) (J 7) (J 8)⟩

/-- The equation of the program for the constant of Jacobi. -/
noncomputable abbrev spatialEq2 (u : Utfc) (mu C : ℝ) : PEqn 3 7 :=
  ⟨u.z, 9, spatialTerms, here, 1, fun _ J s _ => spatialJc mu (s 6) (J 0) (J 1) (J 2) (J 3) (J 4) (J 5) - C⟩

theorem spatial_miss2 (S : PSys 3 7) (mu C : ℝ) (st : PState 3 7) (z : ℝ) : sysMiss S st (spatialEq2 u mu C) z (0 : Fin 1) =
    jacobi mu (fun k => sysFn S st k z) (fun k => spatialVel S st k z) - C := by
  simp only [sysMiss, sysJet, here, spatialTerms, Matrix.cons_val_zero, Matrix.cons_val_one, Matrix.cons_val, iteratedDeriv_succ, iteratedDeriv_zero]
  unfold spatialJc jacobi spatialVel
  rw [← spatialR1_eq mu fun k => sysFn S st k z, ← spatialR2_eq mu fun k => sysFn S st k z]
  ring

/-- What the equations say: position and velocity as functions of `z`. -/
theorem spatial_motion (hN : 2 ≤ N) (hb : basis = "CP" ∨ basis = "LeP") (hu : Built N basis (-1) 1 u) {mu C : ℝ} {st : PState 3 7}
    (hst : ∀ q, ContDiff ℝ ∞ (st.free q)) (hb0 : st.num 6 ≠ 0) {S : PSys 3 7} (hS : S = spatialSys u mu C) (z : ℝ) (i : Fin 3) :
    HasDerivAt (sysFn S st i) (1 / st.num 6 ^ 2 * spatialVel S st i z) z ∧
    HasDerivAt (spatialVel S st i) (1 / st.num 6 ^ 2 * (acceleration mu (fun k => sysFn S st k z) (fun k => spatialVel S st k z) i -
      sysMiss S st (spatialEq1 u mu) z i)) z := by
  have hsm : ∀ i, ContDiff ℝ ∞ (sysFn S st i) := fun i => by
    rw [hS]
    exact (orb_ends hN hb hu (S := spatialSys u mu C) rfl hst i).1
  have hdiff : ∀ i, HasDerivAt (sysFn S st i) (deriv (sysFn S st i) z) z := fun i => ((hsm i).differentiable (by simp) z).hasDerivAt
  have hdiff2 : HasDerivAt (deriv (sysFn S st i)) (deriv (deriv (sysFn S st i)) z) z :=
    ((first_smooth (contDiff_infty.1 (hsm i) 2)).differentiable (by simp) z).hasDerivAt
  refine ⟨(hdiff i).congr_deriv ?_, (hdiff2.const_mul (st.num 6 ^ 2)).congr_deriv ?_⟩
  · unfold spatialVel
    field_simp
  · simp only [sysMiss, sysJet, here, spatialTerms, Matrix.cons_val_zero, Matrix.cons_val_one, Matrix.cons_val, iteratedDeriv_succ, iteratedDeriv_zero]
    unfold spatialLs acceleration
    rw [spatialR1_eq mu fun k => sysFn S st k z, spatialR2_eq mu fun k => sysFn S st k z]
    generalize dist2 mu (fun k => sysFn S st k z) = r2
    generalize dist1 mu (fun k => sysFn S st k z) = r1
    unfold spatialVel
    fin_cases i
    all_goals
      simp only [Fin.zero_eta, Fin.mk_one, Fin.reduceFinMk, Matrix.cons_val_zero, Matrix.cons_val_one, Matrix.cons_val]
      generalize r1 ^ 3 = q1
      generalize r2 ^ 3 = q2
      have h6 : st.num 6 ^ 2 ≠ 0 := pow_ne_zero 2 hb0
      rw [one_div, eq_inv_mul_iff_mul_eq₀ h6]
      ring

/-- **C106, the ends in space.** Whatever the unknowns, the curve closes up: position `(X, Y, Z)` and, unless `b` is 0, velocity `(dX, dY, dZ)` at
both ends. -/
theorem C106_spatial_ends (hN : 2 ≤ N) (hb : basis = "CP" ∨ basis = "LeP") (hu : Built N basis (-1) 1 u) {mu C : ℝ} {st : PState 3 7}
    (hst : ∀ q, ContDiff ℝ ∞ (st.free q)) {S : PSys 3 7} (hS : S = spatialSys u mu C) {e : ℝ} (he : e = -1 ∨ e = 1) :
    (∀ i, sysFn S st i e = (![st.num 0, st.num 1, st.num 2] : Fin 3 → ℝ) i) ∧
    (st.num 6 ≠ 0 → ∀ i, spatialVel S st i e = (![st.num 3, st.num 4, st.num 5] : Fin 3 → ℝ) i) := by
  subst hS
  refine ⟨fun i => ?_, fun hb0 i => ?_⟩
  all_goals obtain ⟨-, a1, a2, a3, a4⟩ := orb_ends (S := spatialSys u mu C) hN hb hu rfl hst i
  · have x : sysFn (spatialSys u mu C) st i e = spatialR0 i st.num := by
      rcases he with rfl | rfl
      · exact a1
      · exact a2
    rw [x]
    fin_cases i <;> rfl
  · have x : deriv (sysFn (spatialSys u mu C) st i) e = spatialV0 i st.num := by
      rcases he with rfl | rfl
      · exact a3
      · exact a4
    unfold spatialVel
    rw [x, spatialV0, mul_div_cancel₀ _ (pow_ne_zero 2 hb0)]
    fin_cases i <;> rfl

/-- **C106, the drift in space.** Along the curve of any dictionary the constant of Jacobi changes exactly by twice the product of the velocity and the
defect of the equations of motion. -/
theorem C106_spatial_drift (hN : 2 ≤ N) (hb : basis = "CP" ∨ basis = "LeP") (hu : Built N basis (-1) 1 u) {mu C : ℝ} {st : PState 3 7}
    (hst : ∀ q, ContDiff ℝ ∞ (st.free q)) (hb0 : st.num 6 ≠ 0) {S : PSys 3 7} (hS : S = spatialSys u mu C) {z : ℝ}
    (h1 : dist1 mu (fun k => sysFn S st k z) ≠ 0) (h2 : dist2 mu (fun k => sysFn S st k z) ≠ 0) :
    HasDerivAt (fun z => jacobi mu (fun k => sysFn S st k z) fun k => spatialVel S st k z)
      (2 / st.num 6 ^ 2 * ∑ i : Fin 3, spatialVel S st i z * sysMiss S st (spatialEq1 u mu) z i) z := by
  have hm := fun i => spatial_motion hN hb hu (mu := mu) (C := C) hst hb0 hS z i
  refine (jacobi_deriv (μ := mu) (fun i => (hm i).1) (fun i => (hm i).2) h1 h2).congr_deriv ?_
  ring

/-- **C106, periodic orbits in space.** If the residual of the program vanishes on all of `[-1, 1]` and the curve meets neither body, then the
curve is a periodic motion with the constant of Jacobi `C` and the period `2/b²`, and the motion starts at `(X, Y, Z)` with the velocity `(dX, dY, dZ)`. -/
theorem C106_spatial_orbit (hN : 2 ≤ N) (hb : basis = "CP" ∨ basis = "LeP") (hu : Built N basis (-1) 1 u) {mu C : ℝ} {st : PState 3 7}
    (hst : ∀ q, ContDiff ℝ ∞ (st.free q)) (hb0 : st.num 6 ≠ 0) {S : PSys 3 7} (hS : S = spatialSys u mu C)
    (h1 : ∀ z ∈ Icc (-1 : ℝ) 1, dist1 mu (fun k => sysFn S st k z) ≠ 0) (h2 : ∀ z ∈ Icc (-1 : ℝ) 1, dist2 mu (fun k => sysFn S st k z) ≠ 0)
    (hL : ∀ E ∈ S.eqs, ∀ z ∈ Icc (-1 : ℝ) 1, ∀ o, sysMiss S st E z o = 0) :
    ∃ X : Fin 3 → ℝ → ℝ, ThreeBody mu X ∧ PeriodicMotion (2 / st.num 6 ^ 2) X ∧
      (∀ t, jacobi mu (fun i => X i t) (fun i => deriv (X i) t) = C) ∧
      (∀ i, X i 0 = (![st.num 0, st.num 1, st.num 2] : Fin 3 → ℝ) i ∧ deriv (X i) 0 = (![st.num 3, st.num 4, st.num 5] : Fin 3 → ℝ) i) ∧
      ∀ z ∈ Icc (-1 : ℝ) 1, ∀ i, X i ((z + 1) / st.num 6 ^ 2) = sysFn S st i z := by
  have hE1 : spatialEq1 u mu ∈ S.eqs := by rw [hS]; exact List.mem_cons_self
  have hE2 : spatialEq2 u mu C ∈ S.eqs := by rw [hS]; exact List.mem_cons_of_mem _ List.mem_cons_self
  have hm := fun z i => spatial_motion hN hb hu (mu := mu) (C := C) hst hb0 hS z i
  have hl : (-1 : ℝ) ∈ Icc (-1 : ℝ) 1 := ⟨le_rfl, by norm_num⟩
  obtain ⟨e1, e2⟩ := C106_spatial_ends hN hb hu hst hS (e := -1) (Or.inl rfl)
  obtain ⟨e3, e4⟩ := C106_spatial_ends hN hb hu hst hS (e := 1) (Or.inr rfl)
  obtain ⟨-, X, hX, hper, hon, hall⟩ := periodic_motion (μ := mu) (r := sysFn S st) (v := spatialVel S st)
    (ρ := fun _ => 1 / st.num 6 ^ 2) continuous_const (fun i z _ => (hm z i).1)
    (fun i z hz => by
      have := (hm z i).2
      rwa [hL _ hE1 z hz i, sub_zero] at this)
    (fun i => by rw [e1, e3]) (fun i => by rw [e2 hb0, e4 hb0])
    (fun z _ => by positivity) h1 h2
  have hint : ∀ z : ℝ, (∫ _ in (-1 : ℝ)..z, 1 / st.num 6 ^ 2) = (z + 1) / st.num 6 ^ 2 := by
    intro z
    rw [intervalIntegral.integral_const, smul_eq_mul]
    ring
  rw [hint] at hper
  simp only [hint] at hon
  have h0 := hon (-1) hl
  rw [show ((-1 : ℝ) + 1) / st.num 6 ^ 2 = 0 by norm_num] at h0
  rw [show ((1 : ℝ) + 1) = 2 by norm_num] at hper
  refine ⟨X, hX, hper, fun t => ?_, fun i => ⟨?_, ?_⟩, fun z hz i => (hon z hz i).1⟩
  · obtain ⟨z, hz, e⟩ := hall t
    have := hL _ hE2 z hz 0
    rw [spatial_miss2] at this
    rw [show (fun i => X i t) = fun k => sysFn S st k z from funext fun i => (e i).1,
      show (fun i => deriv (X i) t) = fun k => spatialVel S st k z from funext fun i => (e i).2]
    linarith
  · rw [(h0 i).1, e1]
  · rw [(h0 i).2, e2 hb0]

end Verif.Props
