import Verif.Model.Orbits
import Verif.Props.OdeSystemFrom
import Verif.Props.ThreeBody

/-!
# The programs for periodic orbits of the restricted three-body problem
-/

namespace Verif.Props

open Set Polynomial Verif Verif.Mem Verif.Py Verif.Np Verif.Spec Verif.Model Verif.Model.Py Verif.Model.LSq Verif.Model.Prog Verif.Model.Dict
  Verif.Lemmas.LSq
open scoped ContDiff

/-! ## The expressions -/

theorem orb_smooth_conds {n m : ℕ} (u : Utfc) (R0 V0 : Fin n → (Fin m → ℝ) → ℝ) (q : Fin n) :
    ∀ c ∈ (orbFuns u R0 V0 q).conds, ContDiff ℝ ∞ c.weight ∧ c.order ≤ 8 := by
  intro c hc
  simp only [orbFuns, List.mem_cons, List.not_mem_nil, or_false] at hc
  rcases hc with rfl | rfl | rfl | rfl
  · exact ⟨by unfold hphi1; fun_prop, by norm_num⟩
  · exact ⟨by unfold hphi2; fun_prop, by norm_num⟩
  · exact ⟨by unfold hphi3; fun_prop, by norm_num⟩
  · exact ⟨by unfold hphi4; fun_prop, by norm_num⟩

theorem orb_formula {N : ℕ} (hN : 2 ≤ N) {basis : String} (hb : basis = "CP" ∨ basis = "LeP") {u : Utfc} (hu : Built N basis (-1) 1 u) {n m : ℕ}
    {S : PSys n m} {R0 V0 : Fin n → (Fin m → ℝ) → ℝ} (hS : S.funs = orbFuns u R0 V0) (st : PState n m) (q : Fin n) :
    sysFn S st q = fun t => st.free q t + (2 - 3 * t + t ^ 3) / 4 * (R0 q st.num - st.free q (-1)) +
      (2 + 3 * t - t ^ 3) / 4 * (R0 q st.num - st.free q 1) + (1 - t - t ^ 2 + t ^ 3) / 4 * (V0 q st.num - deriv (st.free q) (-1)) +
      (-1 - t + t ^ 2 + t ^ 3) / 4 * (V0 q st.num - deriv (st.free q) 1) := by
  obtain ⟨p1, p2⟩ := built_points hN (by norm_num) hu
  have hz := built_z hN hb hu
  funext t
  unfold sysFn curve PFun.ends
  rw [hS]
  simp only [orbFuns, List.map_cons, List.map_nil, List.sum_cons, List.sum_nil, iteratedDeriv_zero, iteratedDeriv_one, hz, p1, p2,
    hphi1, hphi2, hphi3, hphi4]
  ring

theorem orb_ends {N : ℕ} (hN : 2 ≤ N) {basis : String} (hb : basis = "CP" ∨ basis = "LeP") {u : Utfc} (hu : Built N basis (-1) 1 u) {n m : ℕ}
    {S : PSys n m} {R0 V0 : Fin n → (Fin m → ℝ) → ℝ} (hS : S.funs = orbFuns u R0 V0) {st : PState n m} (hst : ∀ q, ContDiff ℝ ∞ (st.free q))
    (q : Fin n) : ContDiff ℝ ∞ (sysFn S st q) ∧ sysFn S st q (-1) = R0 q st.num ∧ sysFn S st q 1 = R0 q st.num ∧
      deriv (sysFn S st q) (-1) = V0 q st.num ∧ deriv (sysFn S st q) 1 = V0 q st.num := by
  have hsm : SmoothEnds ((S.funs q).ends st.num) := by
    intro c hc
    obtain ⟨c', hc', rfl⟩ := List.mem_map.1 hc
    rw [hS] at hc'
    exact orb_smooth_conds u R0 V0 q c' hc'
  have hx := orb_formula hN hb hu hS st q
  have hd : ∀ t, deriv (sysFn S st q) t = deriv (st.free q) t + (-3 + 3 * t ^ 2) / 4 * (R0 q st.num - st.free q (-1)) +
      (3 - 3 * t ^ 2) / 4 * (R0 q st.num - st.free q 1) + (-1 - 2 * t + 3 * t ^ 2) / 4 * (V0 q st.num - deriv (st.free q) (-1)) +
      (-1 + 2 * t + 3 * t ^ 2) / 4 * (V0 q st.num - deriv (st.free q) 1) := by
    intro t
    have h1 : HasDerivAt (st.free q) (deriv (st.free q) t) t := ((hst q).differentiable (by simp) t).hasDerivAt
    have a1 : HasDerivAt (fun t : ℝ => (2 - 3 * t + t ^ 3) / 4) ((-3 + 3 * t ^ 2) / 4) t := by
      refine (((((hasDerivAt_id t).const_mul 3).const_sub 2).add (hasDerivAt_pow 3 t)).div_const 4).congr_deriv ?_
      push_cast; ring
    have a2 : HasDerivAt (fun t : ℝ => (2 + 3 * t - t ^ 3) / 4) ((3 - 3 * t ^ 2) / 4) t := by
      refine (((((hasDerivAt_id t).const_mul 3).const_add 2).sub (hasDerivAt_pow 3 t)).div_const 4).congr_deriv ?_
      push_cast; ring
    have a3 : HasDerivAt (fun t : ℝ => (1 - t - t ^ 2 + t ^ 3) / 4) ((-1 - 2 * t + 3 * t ^ 2) / 4) t := by
      refine (((((hasDerivAt_id t).const_sub 1).sub (hasDerivAt_pow 2 t)).add (hasDerivAt_pow 3 t)).div_const 4).congr_deriv ?_
      push_cast; ring
    have a4 : HasDerivAt (fun t : ℝ => (-1 - t + t ^ 2 + t ^ 3) / 4) ((-1 + 2 * t + 3 * t ^ 2) / 4) t := by
      refine (((((hasDerivAt_id t).const_sub (-1)).add (hasDerivAt_pow 2 t)).add (hasDerivAt_pow 3 t)).div_const 4).congr_deriv ?_
      push_cast; ring
    rw [hx]
    exact ((((h1.add (a1.mul_const _)).add (a2.mul_const _)).add (a3.mul_const _)).add (a4.mul_const _)).deriv
  refine ⟨curve_contDiff hsm (hst q), ?_, ?_, ?_, ?_⟩
  · rw [hx]; ring
  · rw [hx]; ring
  · rw [hd]; ring
  · rw [hd]; ring

/-! ## Orbits in the plane -/

/-- The curve in the plane, as a curve in space. -/
noncomputable def planarPath (S : PSys 2 5) (st : PState 2 5) : Fin 3 → ℝ → ℝ := ![sysFn S st 0, sysFn S st 1, fun _ => 0]

theorem planarR1_eq (mu : ℝ) (p : Fin 3 → ℝ) (h : p 2 = 0) : planarR1 mu (p 0) (p 1) = dist1 mu p := by
  unfold planarR1 dist1
  rw [h]
  congr 1
  ring

theorem planarR2_eq (mu : ℝ) (p : Fin 3 → ℝ) (h : p 2 = 0) : planarR2 mu (p 0) (p 1) = dist2 mu p := by
  unfold planarR2 dist2
  rw [h]
  congr 1
  ring

/-- **C106**: the formula for the derivative of the velocity is the derivative of the velocity. -/
theorem C106_planar_dv {x y f : ℝ → ℝ} {mu b z : ℝ} (hx : DifferentiableAt ℝ x z) (hy : DifferentiableAt ℝ y z) (hf : DifferentiableAt ℝ (deriv f) z)
    (h2 : planarR2 mu (x z) (y z) ≠ 0) :
    HasDerivAt (fun z => planarV mu b (x z) (y z) (deriv f z))
      (planarDv mu b (x z) (y z) (deriv x z) (deriv y z) (deriv f z) (deriv (deriv f) z)) z := by
  have hd : HasDerivAt (fun z => planarR2 mu (x z) (y z)) (((x z + mu - 1) * deriv x z + y z * deriv y z) / planarR2 mu (x z) (y z)) z := by
    have := dist2_deriv (μ := mu) (p := ![x, y, fun _ => 0]) (dp := ![deriv x z, deriv y z, 0]) (t := z) (fun i => by
      fin_cases i
      · exact hx.hasDerivAt
      · exact hy.hasDerivAt
      · exact hasDerivAt_const z (0 : ℝ)) (by
        rw [← planarR2_eq mu _ (by simp)]
        exact h2)
    have e : (fun z => planarR2 mu (x z) (y z)) = fun t => dist2 mu fun i => (![x, y, fun _ => 0] : Fin 3 → ℝ → ℝ) i t := by
      funext t
      exact planarR2_eq mu (fun i => (![x, y, fun _ => 0] : Fin 3 → ℝ → ℝ) i t) (by simp)
    rw [e]
    refine this.congr_deriv ?_
    rw [congrFun e z]
    simp only [Matrix.cons_val_zero, Matrix.cons_val_one, Matrix.cons_val]
    ring
  unfold planarV planarDv
  refine ((((hasDerivAt_const z (1 : ℝ)).div hd h2).mul_const (b ^ 2)).mul hf.hasDerivAt).congr_deriv ?_
  simp only [Pi.div_apply]
  generalize planarR2 mu (x z) (y z) = r at *
  field_simp
  ring

theorem planar_smooth (u : Utfc) (mu C : ℝ) : SmoothSys (planarSys u mu C) := by
  refine ⟨fun q => orb_smooth_conds u planarR0 (planarV0 mu) q, ?_⟩
  intro E hE i
  unfold planarSys at hE
  simp only [List.mem_cons, List.not_mem_nil, or_false] at hE
  rcases hE with rfl | rfl
  all_goals
    change Fin 6 at i
    fin_cases i <;> simp [planarTerms]

variable {N : ℕ} {basis : String} {u : Utfc}

/-- The velocity of the curve in physical time, component by component. -/
noncomputable def planarVel (mu : ℝ) (S : PSys 2 5) (st : PState 2 5) (i : Fin 3) (z : ℝ) : ℝ :=
  planarV mu (st.num 4) (sysFn S st 0 z) (sysFn S st 1 z) (deriv (planarPath S st i) z)

/-- By how much a dictionary misses the equations of motion, as a vector in space. -/
noncomputable def planarMiss (mu : ℝ) (S : PSys 2 5) (st : PState 2 5) (z : ℝ) : Fin 3 → ℝ :=
  let L := planarLs mu (st.num 4) (sysFn S st 0 z) (sysFn S st 1 z) (deriv (sysFn S st 0) z) (deriv (sysFn S st 1) z)
    (deriv (deriv (sysFn S st 0)) z) (deriv (deriv (sysFn S st 1)) z)
  ![L 0, L 1, 0]

theorem planarPath_smooth (hN : 2 ≤ N) (hb : basis = "CP" ∨ basis = "LeP") (hu : Built N basis (-1) 1 u) {mu C : ℝ} {st : PState 2 5}
    (hst : ∀ q, ContDiff ℝ ∞ (st.free q)) (i : Fin 3) : ContDiff ℝ ∞ (planarPath (planarSys u mu C) st i) := by
  fin_cases i
  · exact (orb_ends hN hb hu rfl hst 0).1
  · exact (orb_ends hN hb hu rfl hst 1).1
  · exact contDiff_const

/-- What the equations say: position and velocity as functions of `z`. -/
theorem planar_motion (hN : 2 ≤ N) (hb : basis = "CP" ∨ basis = "LeP") (hu : Built N basis (-1) 1 u) {mu C : ℝ} {st : PState 2 5}
    (hst : ∀ q, ContDiff ℝ ∞ (st.free q)) (hb0 : st.num 4 ≠ 0) {z : ℝ} (h2 : dist2 mu (fun k => planarPath (planarSys u mu C) st k z) ≠ 0) (i : Fin 3) :
    HasDerivAt (planarPath (planarSys u mu C) st i)
      (dist2 mu (fun k => planarPath (planarSys u mu C) st k z) / st.num 4 ^ 2 * planarVel mu (planarSys u mu C) st i z) z ∧
    HasDerivAt (planarVel mu (planarSys u mu C) st i)
      (dist2 mu (fun k => planarPath (planarSys u mu C) st k z) / st.num 4 ^ 2 *
        (acceleration mu (fun k => planarPath (planarSys u mu C) st k z) (fun k => planarVel mu (planarSys u mu C) st k z) i -
          planarMiss mu (planarSys u mu C) st z i)) z := by
  obtain ⟨S, hS⟩ : ∃ S, S = planarSys u mu C := ⟨_, rfl⟩
  have hsm := fun i => planarPath_smooth hN hb hu (mu := mu) (C := C) hst i
  rw [← hS] at h2 hsm ⊢
  have e1 : planarR1 mu (sysFn S st 0 z) (sysFn S st 1 z) = dist1 mu fun k => planarPath S st k z :=
    planarR1_eq mu (fun k => planarPath S st k z) (by simp [planarPath])
  have e2 : planarR2 mu (sysFn S st 0 z) (sysFn S st 1 z) = dist2 mu fun k => planarPath S st k z :=
    planarR2_eq mu (fun k => planarPath S st k z) (by simp [planarPath])
  have hdiff : ∀ i, HasDerivAt (planarPath S st i) (deriv (planarPath S st i) z) z := fun i => ((hsm i).differentiable (by simp) z).hasDerivAt
  have hdiff2 : ∀ i, DifferentiableAt ℝ (deriv (planarPath S st i)) z := fun i => (first_smooth (contDiff_infty.1 (hsm i) 2)).differentiable (by simp) z
  refine ⟨(hdiff i).congr_deriv ?_, ?_⟩
  · unfold planarVel planarV
    rw [e2]
    field_simp
  · refine (C106_planar_dv (mu := mu) (b := st.num 4) (f := planarPath S st i) (hdiff 0).differentiableAt (hdiff 1).differentiableAt (hdiff2 i)
      (by rw [← e2] at h2; exact h2)).congr_deriv ?_
    have p0 : planarPath S st 0 = sysFn S st 0 := rfl
    have p1 : planarPath S st 1 = sysFn S st 1 := rfl
    have p2 : planarPath S st 2 = fun _ => 0 := rfl
    have q : ∀ k, deriv (planarPath S st k) z = dist2 mu (fun k => planarPath S st k z) / st.num 4 ^ 2 * planarVel mu S st k z := by
      intro k
      unfold planarVel planarV
      rw [e2]
      field_simp
    unfold planarMiss planarLs acceleration planarA
    rw [p0, p1, e1, e2]
    have d2 : planarVel mu S st 2 z = 0 := by
      unfold planarVel planarV
      rw [p2]
      simp
    fin_cases i
    all_goals
      simp only [Fin.zero_eta, Fin.mk_one, Fin.reduceFinMk, p0, p1, p2, Matrix.cons_val_zero, Matrix.cons_val_one, Matrix.cons_val]
      try simp only [show planarV mu (st.num 4) (sysFn S st 0 z) (sysFn S st 1 z) (deriv (sysFn S st 0) z) = planarVel mu S st 0 z from rfl,
        show planarV mu (st.num 4) (sysFn S st 0 z) (sysFn S st 1 z) (deriv (sysFn S st 1) z) = planarVel mu S st 1 z from rfl]
      try simp only [planarDv, e2, deriv_const']
      generalize dist2 mu (fun k => planarPath S st k z) = r2 at h2 ⊢
      generalize dist1 mu (fun k => planarPath S st k z) = r1 at ⊢
      try field_simp
      try ring

/-- The equations of motion of the planar programs. -/
noncomputable abbrev planarEq1 (u : Utfc) (mu : ℝ) : PEqn 2 5 :=
  ⟨u.z, 6, planarTerms, here, 2, fun _ J s => planarLs mu (s 4) (J 0) (J 1) (J 2) (J 3) (J 4) (J 5)⟩

/-- The equation of the planar programs for the constant of Jacobi. -/
noncomputable abbrev planarEq2 (u : Utfc) (mu C : ℝ) : PEqn 2 5 :=
  ⟨u.z, 6, planarTerms, here, 1, fun _ J s _ => planarJc mu (s 4) (J 0) (J 1) (J 2) (J 3) - C⟩

theorem planar_miss1 (S : PSys 2 5) (mu : ℝ) (st : PState 2 5) (z : ℝ) :
    planarMiss mu S st z = ![sysMiss S st (planarEq1 u mu) z (0 : Fin 2), sysMiss S st (planarEq1 u mu) z (1 : Fin 2), 0] := by
  unfold planarMiss
  simp only [sysMiss, sysJet, here, planarTerms, Matrix.cons_val_zero, Matrix.cons_val_one, Matrix.cons_val, iteratedDeriv_succ, iteratedDeriv_zero]

theorem planar_jacobi (S : PSys 2 5) (mu : ℝ) (st : PState 2 5) (z : ℝ) :
    planarJc mu (st.num 4) (sysFn S st 0 z) (sysFn S st 1 z) (deriv (sysFn S st 0) z) (deriv (sysFn S st 1) z) =
      jacobi mu (fun k => planarPath S st k z) fun k => planarVel mu S st k z := by
  unfold planarJc jacobi
  rw [← planarR1_eq mu (fun k => planarPath S st k z) (by simp [planarPath]), ← planarR2_eq mu (fun k => planarPath S st k z) (by simp [planarPath])]
  have d2 : planarVel mu S st 2 z = 0 := by
    unfold planarVel planarV
    rw [show planarPath S st 2 = fun _ => 0 from rfl]
    simp
  beta_reduce
  rw [d2]
  simp only [show planarPath S st 0 = sysFn S st 0 from rfl, show planarPath S st 1 = sysFn S st 1 from rfl, planarVel]
  ring

theorem planar_miss2 (S : PSys 2 5) (mu C : ℝ) (st : PState 2 5) (z : ℝ) : sysMiss S st (planarEq2 u mu C) z (0 : Fin 1) =
    jacobi mu (fun k => planarPath S st k z) (fun k => planarVel mu S st k z) - C := by
  rw [← planar_jacobi]
  simp only [sysMiss, sysJet, here, planarTerms, Matrix.cons_val_zero, Matrix.cons_val_one, Matrix.cons_val, iteratedDeriv_succ, iteratedDeriv_zero]

/-- **C106, the ends.** Whatever the unknowns, the curve closes up: the position at both ends is `(X, Y)`, and unless `b` is 0 or `(X, Y)` is the second
body, the velocity at both ends is `(dX, dY)`. -/
theorem C106_planar_ends (hN : 2 ≤ N) (hb : basis = "CP" ∨ basis = "LeP") (hu : Built N basis (-1) 1 u) {mu C : ℝ} {st : PState 2 5}
    (hst : ∀ q, ContDiff ℝ ∞ (st.free q)) {S : PSys 2 5} (hS : S = planarSys u mu C) {e : ℝ} (he : e = -1 ∨ e = 1) :
    (∀ i, planarPath S st i e = (![st.num 0, st.num 1, 0] : Fin 3 → ℝ) i) ∧
    (st.num 4 ≠ 0 → dist2 mu ![st.num 0, st.num 1, 0] ≠ 0 → ∀ i, planarVel mu S st i e = (![st.num 2, st.num 3, 0] : Fin 3 → ℝ) i) := by
  subst hS
  obtain ⟨-, a1, a2, a3, a4⟩ := orb_ends (S := planarSys u mu C) hN hb hu rfl hst 0
  obtain ⟨-, b1, b2, b3, b4⟩ := orb_ends (S := planarSys u mu C) hN hb hu rfl hst 1
  have x : sysFn (planarSys u mu C) st 0 e = st.num 0 := by
    rcases he with rfl | rfl
    · exact a1
    · exact a2
  have y : sysFn (planarSys u mu C) st 1 e = st.num 1 := by
    rcases he with rfl | rfl
    · exact b1
    · exact b2
  have dx : deriv (sysFn (planarSys u mu C) st 0) e = st.num 2 / st.num 4 ^ 2 / (1 / lyapD0 mu (st.num 0) (st.num 1)) := by
    rcases he with rfl | rfl
    · exact a3
    · exact a4
  have dy : deriv (sysFn (planarSys u mu C) st 1) e = st.num 3 / st.num 4 ^ 2 / (1 / lyapD0 mu (st.num 0) (st.num 1)) := by
    rcases he with rfl | rfl
    · exact b3
    · exact b4
  refine ⟨fun i => ?_, fun hb0 h2 i => ?_⟩
  · fin_cases i
    · exact x
    · exact y
    · rfl
  · have hD : lyapD0 mu (st.num 0) (st.num 1) = planarR2 mu (st.num 0) (st.num 1) := rfl
    rw [← planarR2_eq mu _ (by simp)] at h2
    simp only [Matrix.cons_val_zero, Matrix.cons_val_one] at h2
    unfold planarVel planarV
    rw [x, y]
    fin_cases i
    · show _ * deriv (sysFn (planarSys u mu C) st 0) e = st.num 2
      rw [dx, hD]
      field_simp
    · show _ * deriv (sysFn (planarSys u mu C) st 1) e = st.num 3
      rw [dy, hD]
      field_simp
    · show _ * deriv (fun _ => 0) e = 0
      simp

/-- **C106, the drift.** Along the curve of any dictionary the constant of Jacobi changes exactly by twice the product of the velocity and the defect of the
equations of motion. -/
theorem C106_planar_drift (hN : 2 ≤ N) (hb : basis = "CP" ∨ basis = "LeP") (hu : Built N basis (-1) 1 u) {mu C : ℝ} {st : PState 2 5}
    (hst : ∀ q, ContDiff ℝ ∞ (st.free q)) (hb0 : st.num 4 ≠ 0) {S : PSys 2 5} (hS : S = planarSys u mu C) {z : ℝ}
    (h1 : dist1 mu (fun k => planarPath S st k z) ≠ 0) (h2 : dist2 mu (fun k => planarPath S st k z) ≠ 0) :
    HasDerivAt (fun z => jacobi mu (fun k => planarPath S st k z) fun k => planarVel mu S st k z)
      (2 * (dist2 mu (fun k => planarPath S st k z) / st.num 4 ^ 2) *
        (planarVel mu S st 0 z * sysMiss S st (planarEq1 u mu) z (0 : Fin 2) + planarVel mu S st 1 z * sysMiss S st (planarEq1 u mu) z (1 : Fin 2))) z := by
  subst hS
  have hm := fun i => planar_motion hN hb hu (mu := mu) (C := C) hst hb0 h2 i
  refine (jacobi_deriv (μ := mu) (fun i => (hm i).1) (fun i => (hm i).2) h1 h2).congr_deriv ?_
  rw [planar_miss1 (u := u), Fin.sum_univ_three]
  simp only [Matrix.cons_val_zero, Matrix.cons_val_one, Matrix.cons_val]
  ring

/-- **C106, periodic orbits in the plane.** If the residual of the program vanishes on all of `[-1, 1]` and the curve meets neither body, then the
curve is a periodic motion with the constant of Jacobi `C`, the period is the integral of `r2/b²`, and the motion starts at `(X, Y)` with the velocity
`(dX, dY)`. -/
theorem C106_planar_orbit (hN : 2 ≤ N) (hb : basis = "CP" ∨ basis = "LeP") (hu : Built N basis (-1) 1 u) {mu C : ℝ} {st : PState 2 5}
    (hst : ∀ q, ContDiff ℝ ∞ (st.free q)) (hb0 : st.num 4 ≠ 0) {S : PSys 2 5} (hS : S = planarSys u mu C)
    (h1 : ∀ z ∈ Icc (-1 : ℝ) 1, dist1 mu (fun k => planarPath S st k z) ≠ 0) (h2 : ∀ z ∈ Icc (-1 : ℝ) 1, dist2 mu (fun k => planarPath S st k z) ≠ 0)
    (hL : ∀ E ∈ S.eqs, ∀ z ∈ Icc (-1 : ℝ) 1, ∀ o, sysMiss S st E z o = 0) :
    ∃ (P : ℝ) (X : Fin 3 → ℝ → ℝ), P = ∫ z in (-1 : ℝ)..1, dist2 mu (fun k => planarPath S st k z) / st.num 4 ^ 2 ∧ 0 < P ∧
      ThreeBody mu X ∧ PeriodicMotion P X ∧ (∀ t, jacobi mu (fun i => X i t) (fun i => deriv (X i) t) = C) ∧ (∀ t, X 2 t = 0) ∧
      (X 0 0 = st.num 0 ∧ X 1 0 = st.num 1 ∧ deriv (X 0) 0 = st.num 2 ∧ deriv (X 1) 0 = st.num 3) ∧
      ∀ z ∈ Icc (-1 : ℝ) 1, ∀ i, X i (∫ y in (-1 : ℝ)..z, dist2 mu (fun k => planarPath S st k y) / st.num 4 ^ 2) = planarPath S st i z := by
  have hE1 : planarEq1 u mu ∈ S.eqs := by rw [hS]; exact List.mem_cons_self
  have hE2 : planarEq2 u mu C ∈ S.eqs := by rw [hS]; exact List.mem_cons_of_mem _ List.mem_cons_self
  have hmiss : ∀ z ∈ Icc (-1 : ℝ) 1, ∀ i, planarMiss mu S st z i = 0 := by
    intro z hz i
    rw [planar_miss1 (u := u), hL _ hE1 z hz, hL _ hE1 z hz]
    fin_cases i <;> rfl
  have hm : ∀ z ∈ Icc (-1 : ℝ) 1, ∀ i, _ := fun z hz i => planar_motion hN hb hu (mu := mu) (C := C) hst hb0 (hS ▸ h2 z hz) i
  rw [← hS] at hm
  have hl : (-1 : ℝ) ∈ Icc (-1 : ℝ) 1 := ⟨le_rfl, by norm_num⟩
  have hd0 : dist2 mu ![st.num 0, st.num 1, 0] ≠ 0 := by
    have := h2 (-1) hl
    rwa [show (fun k => planarPath S st k (-1)) = ![st.num 0, st.num 1, 0] from
      funext (C106_planar_ends hN hb hu hst hS (e := -1) (Or.inl rfl)).1] at this
  obtain ⟨e1, e2⟩ := C106_planar_ends hN hb hu hst hS (e := -1) (Or.inl rfl)
  obtain ⟨e3, e4⟩ := C106_planar_ends hN hb hu hst hS (e := 1) (Or.inr rfl)
  obtain ⟨hP, X, hX, hper, hon, hall⟩ := periodic_motion (μ := mu) (r := planarPath S st) (v := planarVel mu S st)
    (ρ := fun p => dist2 mu p / st.num 4 ^ 2) ((dist2_cont mu).div_const _) (fun i z hz => (hm z hz i).1)
    (fun i z hz => by
      have := (hm z hz i).2
      rwa [hmiss z hz i, sub_zero] at this)
    (fun i => by rw [e1, e3]) (fun i => by rw [e2 hb0 hd0, e4 hb0 hd0])
    (fun z hz => div_pos (lt_of_le_of_ne (Real.sqrt_nonneg _) (h2 z hz).symm) (by positivity)) h1 h2
  have h0 := hon (-1) hl
  rw [intervalIntegral.integral_same] at h0
  refine ⟨_, X, rfl, hP, hX, hper, fun t => ?_, fun t => ?_, ⟨?_, ?_, ?_, ?_⟩, fun z hz i => (hon z hz i).1⟩
  · obtain ⟨z, hz, e⟩ := hall t
    have := hL _ hE2 z hz 0
    rw [planar_miss2] at this
    have a : (fun i => X i t) = fun k => planarPath S st k z := funext fun i => (e i).1
    have b : (fun i => deriv (X i) t) = fun k => planarVel mu S st k z := funext fun i => (e i).2
    rw [a, b]
    linarith
  · obtain ⟨z, hz, e⟩ := hall t
    exact (e 2).1
  · rw [(h0 0).1, e1]; rfl
  · rw [(h0 1).1, e1]; rfl
  · rw [(h0 0).2, e2 hb0 hd0]; rfl
  · rw [(h0 1).2, e2 hb0 hd0]; rfl

end Verif.Props
