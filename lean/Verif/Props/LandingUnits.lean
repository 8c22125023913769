import Verif.Props.LandingSingle

/-!
# The landing with least energy: the scaling of the programs, and what they print
-/

namespace Verif.Props

open Set Polynomial Verif Verif.Mem Verif.Py Verif.Np Verif.Spec Verif.Model Verif.Model.Py Verif.Model.LSq Verif.Model.Prog Verif.Model.Dict
  Verif.Lemmas.LSq
open scoped ContDiff

/-! ## Other units -/

theorem unit_deriv {f : ℝ → ℝ} (hf : ContDiff ℝ 2 f) (a c : ℝ) :
    deriv (fun t => a * f (c * t)) = (fun t => a * c * deriv f (c * t)) ∧
      deriv (deriv fun t => a * f (c * t)) = fun t => a * c ^ 2 * deriv (deriv f) (c * t) := by
  have hd : ∀ {g : ℝ → ℝ}, Differentiable ℝ g → ∀ e : ℝ, deriv (fun t => e * g (c * t)) = fun t => e * c * deriv g (c * t) := by
    intro g hg e
    funext t
    have h1 : HasDerivAt (fun t : ℝ => c * t) c t := ((hasDerivAt_id t).const_mul c).congr_deriv (by simp)
    refine (((hg (c * t)).hasDerivAt.comp t h1).const_mul e).deriv.trans ?_
    ring
  have e1 := hd (hf.differentiable (by simp)) a
  refine ⟨e1, ?_⟩
  rw [e1, hd ((first_smooth hf).differentiable (by simp)) (a * c)]
  funext t
  ring

theorem unit_trajectory {R0 V0 : Fin 3 → ℝ} {T : ℝ} {X : Fin 3 → ℝ → ℝ} (h : Trajectory R0 V0 T X) (a : ℝ) {c : ℝ} (hc : c ≠ 0) :
    Trajectory (fun i => a * R0 i) (fun i => a * c * V0 i) (T / c) fun i t => a * X i (c * t) := by
  have e : c * (T / c) = T := by field_simp
  refine ⟨fun i => ?_, fun i => ?_, fun i => ?_, fun i => ?_, fun i => ?_⟩
  · exact contDiff_const.mul ((h.smooth i).comp (contDiff_const.mul contDiff_id))
  · rw [mul_zero, h.start]
  · rw [(unit_deriv (h.smooth i) a c).1]
    beta_reduce
    rw [mul_zero, h.speed]
  · rw [e, h.goal, mul_zero]
  · rw [(unit_deriv (h.smooth i) a c).1]
    beta_reduce
    rw [e, h.rest, mul_zero]

theorem unit_energy (ag : Fin 3 → ℝ) {T : ℝ} {X : Fin 3 → ℝ → ℝ} (hX : ∀ i, ContDiff ℝ 2 (X i)) (a : ℝ) {c : ℝ} (hc : c ≠ 0) :
    energy (fun i => a * c ^ 2 * ag i) (T / c) (fun i t => a * X i (c * t)) = a ^ 2 * c ^ 3 * energy ag T X := by
  unfold energy
  have e : ∀ t, ∑ i, (deriv (deriv fun t => a * X i (c * t)) t - a * c ^ 2 * ag i) ^ 2 =
      a ^ 2 * c ^ 4 * ∑ i, (deriv (deriv (X i)) (c * t) - ag i) ^ 2 := by
    intro t
    rw [Finset.mul_sum]
    refine Finset.sum_congr rfl fun i _ => ?_
    rw [(unit_deriv (hX i) a c).2]
    ring
  simp only [e]
  rw [intervalIntegral.integral_const_mul]
  have h := intervalIntegral.mul_integral_comp_mul_left (a := 0) (b := T / c) (f := fun t => ∑ i, (deriv (deriv (X i)) t - ag i) ^ 2) c
  rw [mul_zero, show c * (T / c) = T by field_simp] at h
  rw [← h]
  ring

/-- **C105, other units.** In other units of length and time the motion with least energy is the same motion, and the least cost is multiplied by a
constant. -/
theorem C105_units {R0 V0 ag : Fin 3 → ℝ} {Gam T a c : ℝ} (ha : 0 < a) (hc : 0 < c) (hT : 0 < T) :
    (∀ X, LeastEnergy R0 V0 ag T X →
      LeastEnergy (fun i => a * R0 i) (fun i => a * c * V0 i) (fun i => a * c ^ 2 * ag i) (T / c) fun i t => a * X i (c * t)) ∧
      leastCost (fun i => a * R0 i) (fun i => a * c * V0 i) (fun i => a * c ^ 2 * ag i) (a ^ 2 * c ^ 4 * Gam) (T / c) =
        a ^ 2 * c ^ 3 * leastCost R0 V0 ag Gam T := by
  constructor
  · intro X h
    have hk : 0 < a ^ 2 * c ^ 3 := by positivity
    have hinv : ∀ Y, Trajectory (fun i => a * R0 i) (fun i => a * c * V0 i) (T / c) Y → Trajectory R0 V0 T (fun i t => a⁻¹ * Y i (c⁻¹ * t)) ∧
        energy (fun i => a * c ^ 2 * ag i) (T / c) Y = a ^ 2 * c ^ 3 * energy ag T fun i t => a⁻¹ * Y i (c⁻¹ * t) := by
      intro Y hY
      have h1 := unit_trajectory hY a⁻¹ (c := c⁻¹) (by positivity)
      have e1 : (fun i => a⁻¹ * (a * R0 i)) = R0 := by funext i; field_simp
      have e2 : (fun i => a⁻¹ * c⁻¹ * (a * c * V0 i)) = V0 := by funext i; field_simp
      have e3 : T / c / c⁻¹ = T := by field_simp
      rw [e1, e2, e3] at h1
      refine ⟨h1, ?_⟩
      have h2 := unit_energy ag (T := T) h1.smooth a hc.ne'
      rw [← h2]
      congr 1
      funext i t
      have e4 : c⁻¹ * (c * t) = t := by field_simp
      rw [e4]
      field_simp
    refine ⟨unit_trajectory h.motion a hc.ne', fun Y hY => ?_, fun Y hY he i t ht => ?_⟩
    · obtain ⟨h1, h2⟩ := hinv Y hY
      rw [unit_energy ag h.motion.smooth a hc.ne', h2]
      exact mul_le_mul_of_nonneg_left (h.least _ h1) hk.le
    · obtain ⟨h1, h2⟩ := hinv Y hY
      rw [unit_energy ag h.motion.smooth a hc.ne', h2] at he
      have := h.only _ h1 (mul_left_cancel₀ hk.ne' he) i (c * t) ⟨mul_nonneg hc.le ht.1, by
        have := (le_div_iff₀ hc).1 ht.2
        linarith⟩
      rw [← this]
      have e4 : c⁻¹ * (c * t) = t := by field_simp
      rw [e4]
      field_simp
  · rw [leastCost_eq _ _ _ _ (by positivity), leastCost_eq _ _ _ _ hT]
    unfold landEnergy
    simp only [Fin.sum_univ_three]
    field_simp

theorem maxAbs3_pos {v : Fin 3 → ℝ} (h : ∃ i, v i ≠ 0) : 0 < maxAbs3 v := by
  obtain ⟨i, hi⟩ := h
  have : 0 < |v i| := abs_pos.2 hi
  unfold maxAbs3
  fin_cases i
  · exact lt_of_lt_of_le this ((le_max_left _ _).trans (le_max_left _ _))
  · exact lt_of_lt_of_le this ((le_max_right _ _).trans (le_max_left _ _))
  · exact lt_of_lt_of_le this (le_max_right _ _)

/-- **C105, the printed motion.** With the scaling of the programs, for every start away from the goal with a velocity: as long as no earlier step met
`b = 0` or a vanishing slope of `Htf`, the printed times and positions of an iterate with `b ≠ 0` are those of the motion with the least energy, from the
given position and velocity and with the given gravity, of all motions of the printed final time. -/
theorem C105_physical {lib : LinAlg} (hlib : LinAlgCorrect lib) {N ms : ℕ} (hN : 2 ≤ N) (h4 : 4 ≤ ms) (hms : ms ≤ N + 1) (wt bt wt' bt' : ℕ → ℝ)
    {tol : ℝ} (htol : tol < 1) (maxIter : ℕ) (b : ℝ) {R0 V0 : Fin 3 → ℝ} (hR : ∃ i, R0 i ≠ 0) (hV : ∃ i, V0 i ≠ 0) (ag : Fin 3 → ℝ) (Gam : ℝ)
    {fuel : ℕ} (hfuel : maxIter + 2 ≤ fuel) :
    ∃ (stfc ctfc : Utfc) (p τ : ℝ) (S : PSys 6 1) (v : View String) (it : ℕ) (vs : ℕ → View String) (sts : ℕ → PState 6 1),
      utfcInit N (.int 4) ms "CP" (some (-1)) (some 1) "C++" wt bt = .ok stfc ∧
      utfcInit N (.int 0) 1 "CP" (some (-1)) (some 1) "C++" wt' bt' = .ok ctfc ∧ p = maxAbs3 R0 ∧ τ = p / maxAbs3 V0 ∧ 0 < p ∧ 0 < τ ∧
      S = landSys stfc ctfc (fun i => R0 i / p) (fun i => V0 i * τ / p) (fun i => ag i * τ ^ 2 / p) (Gam * τ ^ 4 / p ^ 2) ∧
      runLanding lib N ms tol maxIter b R0 V0 ag Gam wt bt wt' bt' fuel = .ok (some (v, (it : ℤ))) ∧ SysRun S (landStart stfc ctfc b) tol maxIter v it vs sts ∧
      ∀ k ≤ it, (∀ j < k, (sts j).num 0 ≠ 0 ∧ landSlope (fun i => R0 i / p) (fun i => V0 i * τ / p) (fun i => ag i * τ ^ 2 / p) ((sts j).num 0)
          (fun i => (sts j).free (lamIx i) 1) ≠ 0) → (sts k).num 0 ≠ 0 →
        ∃ X, (∀ i x, p * sysFn S (sts k) (posIx i) x = X i (landTime (-1) ((sts k).num 0 ^ 2) τ x)) ∧
          LeastEnergy R0 V0 ag (landTime (-1) ((sts k).num 0 ^ 2) τ 1) X := by
  have hp := maxAbs3_pos hR
  have hv := maxAbs3_pos hV
  obtain ⟨p, hpe⟩ : ∃ p, p = maxAbs3 R0 := ⟨_, rfl⟩
  obtain ⟨τ, hτe⟩ : ∃ τ, τ = p / maxAbs3 V0 := ⟨_, rfl⟩
  have hp0 : 0 < p := by rw [hpe]; exact hp
  have hτ0 : 0 < τ := by rw [hτe]; exact div_pos hp0 hv
  obtain ⟨stfc, ctfc, v, it, vs, sts, hu1, hu2, hrun, hsr, -, -, hall⟩ := C105_single hlib hN h4 hms wt bt wt' bt' htol maxIter b (fun i => R0 i / p)
    (fun i => V0 i * τ / p) (fun i => ag i * τ ^ 2 / p) (Gam * τ ^ 4 / p ^ 2) hfuel
  refine ⟨stfc, ctfc, p, τ, _, v, it, vs, sts, hu1, hu2, hpe, hτe, hp0, hτ0, rfl, ?_, hsr, fun k hk hs hb => ?_⟩
  · rw [← hrun]
    unfold runLanding
    simp only [← hpe, ← hτe]
  · obtain ⟨X, hX, hle, -⟩ := (hall k hk hs).1 hb
    have hb2 : 0 < (sts k).num 0 ^ 2 := by positivity
    refine ⟨fun i t => p * X i (1 / τ * t), fun i x => ?_, ?_⟩
    · have := hX i ((x + 1) / (sts k).num 0 ^ 2)
      rw [show (sts k).num 0 ^ 2 * ((x + 1) / (sts k).num 0 ^ 2) - 1 = x by field_simp; ring] at this
      rw [this]
      congr 2
      unfold landTime
      field_simp
      ring
    · have := (C105_units (Gam := Gam) hp0 (one_div_pos.2 hτ0) (by positivity : 0 < 2 / (sts k).num 0 ^ 2)).1 X hle
      have e1 : (fun i => p * (R0 i / p)) = R0 := by funext i; field_simp
      have e2 : (fun i => p * (1 / τ) * (V0 i * τ / p)) = V0 := by funext i; field_simp
      have e3 : (fun i => p * (1 / τ) ^ 2 * (ag i * τ ^ 2 / p)) = ag := by funext i; field_simp
      have e4 : 2 / (sts k).num 0 ^ 2 / (1 / τ) = landTime (-1) ((sts k).num 0 ^ 2) τ 1 := by
        unfold landTime
        field_simp
        ring
      rw [e1, e2, e3, e4] at this
      exact this

/-- A case: the data of the program. The slope is not zero at the start, so the first step leads to a motion with least energy again. -/
example : landSlope ![1, 1 / 5, 1 / 10] ![-1, 0, 0] ![0, 0, -1 / 4] 2 (fun _ => 0) ≠ 0 := by
  unfold landSlope
  simp [Fin.sum_univ_three]

/-! ## What the programs print besides -/

/-- **C105, the printed velocity.** If the position is that of the motion `X`, the printed velocity is the velocity divided by `c`. -/
theorem C105_velocity_partial {X : ℝ → ℝ} (hX : ContDiff ℝ 2 X) {p τ c : ℝ} (hp : p ≠ 0) (hτ : τ ≠ 0) (hc : c ≠ 0) {r : ℝ → ℝ}
    (hr : ∀ z, p * r z = X (landTime (-1) c τ z)) (z : ℝ) : landV p τ r z = deriv X (landTime (-1) c τ z) / c := by
  have e : r = fun z => p⁻¹ * X (landTime (-1) c τ z) := by
    funext z
    rw [← hr]
    field_simp
  have h1 : HasDerivAt (fun z : ℝ => landTime (-1) c τ z) (1 / c * τ) z := by
    unfold landTime
    exact (((hasDerivAt_id z).sub_const (-1)).div_const c).mul_const τ
  have h2 : deriv (fun z => p⁻¹ * X (landTime (-1) c τ z)) z = p⁻¹ * (deriv X (landTime (-1) c τ z) * (1 / c * τ)) :=
    (((hX.differentiable (by simp) _).hasDerivAt.comp z h1).const_mul p⁻¹).deriv
  unfold landV
  rw [e, h2]
  field_simp

/-- The energy function along a motion with least energy, with its own velocity, is constant, and without the price of the time it is `Htf`. -/
theorem C105_hamiltonian (R0 V0 ag : Fin 3 → ℝ) {T : ℝ} (hT : 0 < T) (t : ℝ) :
    landHam ag (fun i => deriv (deriv (deriv (landPath (R0 i) (V0 i) T))) t) (fun i => ag i - deriv (deriv (landPath (R0 i) (V0 i) T)) t)
      (fun i => deriv (landPath (R0 i) (V0 i) T) t) = landHtf ag 0 fun i => ag i - deriv (deriv (landPath (R0 i) (V0 i) T)) T := by
  have h3 : ∀ i, deriv (deriv (deriv (landPath (R0 i) (V0 i) T))) t = 6 * (2 * R0 i / T ^ 3 + V0 i / T ^ 2) := by
    intro i
    rw [landPath_deriv2]
    exact (((hasDerivAt_id t).const_mul (6 * (2 * R0 i / T ^ 3 + V0 i / T ^ 2))).const_add _).deriv.trans (by ring)
  have h2 : ∀ i t, deriv (deriv (landPath (R0 i) (V0 i) T)) t = -(2 * (3 * R0 i / T ^ 2 + 2 * V0 i / T)) + 6 * (2 * R0 i / T ^ 3 + V0 i / T ^ 2) * t :=
    fun i t => by rw [landPath_deriv2]
  have h1 : ∀ i, deriv (landPath (R0 i) (V0 i) T) t =
      V0 i - (3 * R0 i / T ^ 2 + 2 * V0 i / T) * (2 * t) + (2 * R0 i / T ^ 3 + V0 i / T ^ 2) * (3 * t ^ 2) := fun i => by rw [landPath_deriv]
  simp only [h3]
  simp only [h2]
  simp only [h1]
  unfold landHam landHtf
  simp only [Fin.sum_univ_three]
  field_simp
  ring

/-- **The printed velocity and energy function are not those of the motion.** For `R0 = (1,0,0)`, `V0 = (-1,0,0)`, no gravity and `Gam = 8` the scales are 1, the
time 1 (`b² = 2`) is stationary and the position and the costate are exact; the printed velocity at the start is `-1/2` instead of `-1`, and the printed
`Ham` is -5 at the start and -8 at the end. -/
theorem C105_printed_fails : ∃ (R0 V0 ag : Fin 3 → ℝ) (Gam c : ℝ) (r l : Fin 3 → ℝ → ℝ), maxAbs3 R0 = 1 ∧ maxAbs3 V0 = 1 ∧
    deriv (leastCost R0 V0 ag Gam) (2 / c) = 0 ∧ LeastEnergy R0 V0 ag (2 / c) (fun i t => r i (c * t - 1)) ∧
    (∀ i t, l i (c * t - 1) = ag i - deriv (deriv fun t => r i (c * t - 1)) t) ∧ landV 1 1 (r 0) (-1) = -1 / 2 ∧ V0 0 = -1 ∧
    landHam ag (fun i => landLamR c 1 1 (l i) (-1)) (fun i => landLamV 1 1 (l i) (-1)) (fun i => landV 1 1 (r i) (-1)) = -5 ∧
    landHam ag (fun i => landLamR c 1 1 (l i) 1) (fun i => landLamV 1 1 (l i) 1) (fun i => landV 1 1 (r i) 1) = -8 := by
  obtain ⟨X, hX⟩ : ∃ X : Fin 3 → ℝ → ℝ, X = fun i => landPath ((![1, 0, 0] : Fin 3 → ℝ) i) ((![-1, 0, 0] : Fin 3 → ℝ) i) 1 := ⟨_, rfl⟩
  have hx0 : X 0 = fun t => 1 - t - t ^ 2 + t ^ 3 := by
    rw [hX]; funext t; simp [landPath]; ring
  have hx1 : X 1 = fun _ => 0 := by
    rw [hX]; funext t; simp [landPath]
  have hx2 : X 2 = fun _ => 0 := by
    rw [hX]; funext t; simp [landPath]
  have hle : LeastEnergy ![1, 0, 0] ![-1, 0, 0] (fun _ => 0) 1 X := hX ▸ C105_least _ _ _ one_pos
  obtain ⟨r, hr⟩ : ∃ r : Fin 3 → ℝ → ℝ, r = fun i z => X i ((z + 1) / 2) := ⟨_, rfl⟩
  have hback : (fun i t => r i (2 * t - 1)) = X := by
    rw [hr]; funext i t; congr 1; ring
  have hback' : ∀ i, (fun t => r i (2 * t - 1)) = X i := fun i => congrFun hback i
  have d1 : ∀ z : ℝ, deriv (r 0) z = 3 / 8 * z ^ 2 + z / 4 - 5 / 8 := by
    intro z
    have h1 : HasDerivAt (fun x : ℝ => (x + 1) / 2) (1 / 2) z := ((hasDerivAt_id z).add_const 1).div_const 2
    have e : r 0 = fun z => 1 - (z + 1) / 2 - ((z + 1) / 2) ^ 2 + ((z + 1) / 2) ^ 3 := by
      rw [hr]; funext z; beta_reduce; rw [hx0]
    rw [e]
    exact (((h1.const_sub 1).sub (h1.pow 2)).add (h1.pow 3)).deriv.trans (by simp; ring)
  have r1 : r 1 = fun _ => 0 := by rw [hr]; funext z; beta_reduce; rw [hx1]
  have r2 : r 2 = fun _ => 0 := by rw [hr]; funext z; beta_reduce; rw [hx2]
  have s0 : ∀ t, deriv (deriv (X 0)) t = -2 + 6 * t := by
    intro t
    rw [hX]
    beta_reduce
    rw [landPath_deriv2]
    simp
    ring
  obtain ⟨l, hl⟩ : ∃ l : Fin 3 → ℝ → ℝ, l = ![fun z => -1 - 3 * z, fun _ => 0, fun _ => 0] := ⟨_, rfl⟩
  have l0 : l 0 = fun z => -1 - 3 * z := by rw [hl]; rfl
  have l1 : l 1 = fun _ => 0 := by rw [hl]; rfl
  have l2 : l 2 = fun _ => 0 := by rw [hl]; rfl
  refine ⟨![1, 0, 0], ![-1, 0, 0], fun _ => 0, 8, 2, r, l, ?_, ?_, ?_, ?_, ?_, ?_, rfl, ?_, ?_⟩
  · simp [maxAbs3]
  · simp [maxAbs3]
  · rw [div_self two_ne_zero, (C105_time _ _ _ _ one_pos).2.deriv]
    have : ∀ i, landPath ((![1, 0, 0] : Fin 3 → ℝ) i) ((![-1, 0, 0] : Fin 3 → ℝ) i) 1 = X i := fun i => by rw [hX]
    simp only [this]
    unfold landHtf
    simp only [Fin.sum_univ_three, s0, hx1, hx2]
    simp
    norm_num
  · rw [hback, div_self two_ne_zero]
    exact hle
  · intro i t
    rw [hback']
    fin_cases i
    · show l 0 _ = 0 - deriv (deriv (X 0)) t
      rw [l0, s0]
      ring
    · show l 1 _ = 0 - deriv (deriv (X 1)) t
      rw [l1, hx1]
      simp
    · show l 2 _ = 0 - deriv (deriv (X 2)) t
      rw [l2, hx2]
      simp
  · unfold landV
    rw [d1]
    norm_num
  · unfold landHam landLamR landLamV landV
    simp only [Fin.sum_univ_three, d1, r1, r2, l1, l2, l0]
    simp
    norm_num
  · unfold landHam landLamR landLamV landV
    simp only [Fin.sum_univ_three, d1, r1, r2, l1, l2, l0]
    simp
    norm_num

end Verif.Props
