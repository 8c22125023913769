import Verif.Spec.Landing
import Verif.Model.Landing
import Mathlib.MeasureTheory.Integral.IntervalIntegral.FundThmCalculus
import Mathlib.Analysis.Calculus.MeanValue
import Mathlib.Analysis.SpecialFunctions.Integrals.Basic

/-!
# The landing with least energy: the motion that needs the least energy, the cost as a function of the duration
-/

namespace Verif.Props

open Set Verif Verif.Spec Verif.Model.Py

/-- The cubic through the four conditions. -/
noncomputable def landPath (R0 V0 T t : ℝ) : ℝ := R0 + V0 * t - (3 * R0 / T ^ 2 + 2 * V0 / T) * t ^ 2 + (2 * R0 / T ^ 3 + V0 / T ^ 2) * t ^ 3

theorem landPath_deriv (R0 V0 T : ℝ) : deriv (landPath R0 V0 T) =
    fun t => V0 - (3 * R0 / T ^ 2 + 2 * V0 / T) * (2 * t) + (2 * R0 / T ^ 3 + V0 / T ^ 2) * (3 * t ^ 2) := by
  funext t
  generalize ha : 3 * R0 / T ^ 2 + 2 * V0 / T = a
  generalize hb : 2 * R0 / T ^ 3 + V0 / T ^ 2 = b
  have h1 : landPath R0 V0 T = fun t => R0 + V0 * t - a * t ^ 2 + b * t ^ 3 := by
    funext t; rw [landPath, ha, hb]
  rw [h1]
  have h2 : HasDerivAt (fun t => R0 + V0 * t - a * t ^ 2 + b * t ^ 3) (0 + V0 * 1 - a * (2 * t ^ 1 * 1) + b * (3 * t ^ 2 * 1)) t :=
    ((((hasDerivAt_const t R0).add ((hasDerivAt_id t).const_mul V0)).sub (((hasDerivAt_id t).pow 2).const_mul a))).add
      (((hasDerivAt_id t).pow 3).const_mul b)
  rw [h2.deriv]
  ring

theorem landPath_deriv2 (R0 V0 T : ℝ) : deriv (deriv (landPath R0 V0 T)) =
    fun t => -(2 * (3 * R0 / T ^ 2 + 2 * V0 / T)) + 6 * (2 * R0 / T ^ 3 + V0 / T ^ 2) * t := by
  rw [landPath_deriv]
  funext t
  generalize 3 * R0 / T ^ 2 + 2 * V0 / T = a
  generalize 2 * R0 / T ^ 3 + V0 / T ^ 2 = b
  have h2 : HasDerivAt (fun t => V0 - a * (2 * t) + b * (3 * t ^ 2)) (0 - a * (2 * 1) + b * (3 * (2 * t ^ 1 * 1))) t :=
    (((hasDerivAt_const t V0).sub (((hasDerivAt_id t).const_mul 2).const_mul a))).add ((((hasDerivAt_id t).pow 2).const_mul 3).const_mul b)
  rw [h2.deriv]
  ring

theorem landPath_smooth (R0 V0 T : ℝ) : ContDiff ℝ 2 (landPath R0 V0 T) := by
  unfold landPath
  fun_prop

theorem landPath_trajectory (R0 V0 : Fin 3 → ℝ) {T : ℝ} (hT : T ≠ 0) : Trajectory R0 V0 T fun i => landPath (R0 i) (V0 i) T := by
  refine ⟨fun i => landPath_smooth _ _ _, fun i => ?_, fun i => ?_, fun i => ?_, fun i => ?_⟩
  · simp [landPath]
  · rw [landPath_deriv]; simp
  · unfold landPath; field_simp; ring
  · rw [landPath_deriv]; field_simp; ring

/-! ## The least energy -/

theorem first_smooth {f : ℝ → ℝ} (hf : ContDiff ℝ 2 f) : ContDiff ℝ 1 (deriv f) :=
  ((contDiff_succ_iff_deriv (n := 1)).1 (by rw [one_add_one_eq_two]; exact hf)).2.2

theorem line_against {h : ℝ → ℝ} (hh : ContDiff ℝ 2 h) {T : ℝ} (h0 : h 0 = 0) (h1 : deriv h 0 = 0) (hT : h T = 0) (hT1 : deriv h T = 0) (p q : ℝ) :
    ∫ t in (0 : ℝ)..T, (p + q * t) * deriv (deriv h) t = 0 := by
  have d0 : ContDiff ℝ 1 (deriv h) := first_smooth hh
  have d1 : Continuous (deriv (deriv h)) := ((contDiff_succ_iff_deriv (n := 0)).1 (by simpa using d0)).2.2.continuous
  have hd : ∀ t, HasDerivAt (fun t => (p + q * t) * deriv h t - q * h t) ((p + q * t) * deriv (deriv h) t) t := by
    intro t
    have a1 := (hh.differentiable (by simp) t).hasDerivAt
    have a2 := (d0.differentiable (by simp) t).hasDerivAt
    have a3 : HasDerivAt (fun t : ℝ => p + q * t) q t := by simpa using ((hasDerivAt_id t).const_mul q).const_add p
    exact ((a3.mul a2).sub (a1.const_mul q)).congr_deriv (by ring)
  rw [intervalIntegral.integral_eq_sub_of_hasDerivAt (fun t _ => hd t) (by
    refine Continuous.intervalIntegrable ?_ _ _
    fun_prop)]
  rw [h0, h1, hT, hT1]
  ring

theorem second_continuous {f : ℝ → ℝ} (hf : ContDiff ℝ 2 f) : Continuous (deriv (deriv f)) := by
  have d0 : ContDiff ℝ 1 (deriv f) := first_smooth hf
  exact ((contDiff_succ_iff_deriv (n := 0)).1 (by simpa using d0)).2.2.continuous

theorem second_sub {f g : ℝ → ℝ} (hf : ContDiff ℝ 2 f) (hg : ContDiff ℝ 2 g) :
    deriv (fun t => f t - g t) = (fun t => deriv f t - deriv g t) ∧
      deriv (deriv fun t => f t - g t) = fun t => deriv (deriv f) t - deriv (deriv g) t := by
  have df : ContDiff ℝ 1 (deriv f) := first_smooth hf
  have dg : ContDiff ℝ 1 (deriv g) := first_smooth hg
  have e : deriv (fun t => f t - g t) = fun t => deriv f t - deriv g t :=
    funext fun t => deriv_fun_sub (hf.differentiable (by simp) t) (hg.differentiable (by simp) t)
  refine ⟨e, ?_⟩
  rw [e]
  exact funext fun t => deriv_fun_sub (df.differentiable (by simp) t) (dg.differentiable (by simp) t)

/-- A motion needs the energy of the cubic and that of the difference. -/
theorem energy_split {R0 V0 : Fin 3 → ℝ} (ag : Fin 3 → ℝ) {T : ℝ} (hT : T ≠ 0) {Y : Fin 3 → ℝ → ℝ} (hY : Trajectory R0 V0 T Y) :
    energy ag T Y = energy ag T (fun i => landPath (R0 i) (V0 i) T) +
      1 / 2 * ∫ t in (0 : ℝ)..T, ∑ i, (deriv (deriv (Y i)) t - deriv (deriv (landPath (R0 i) (V0 i) T)) t) ^ 2 := by
  have hX := landPath_trajectory R0 V0 hT
  obtain ⟨X, hXe⟩ : ∃ X : Fin 3 → ℝ → ℝ, X = fun i => landPath (R0 i) (V0 i) T := ⟨_, rfl⟩
  rw [← hXe] at hX ⊢
  have hXi : ∀ i, landPath (R0 i) (V0 i) T = X i := fun i => by rw [hXe]
  simp only [hXi]
  have cX := fun i => second_continuous (hX.smooth i)
  have cY := fun i => second_continuous (hY.smooth i)
  have hcross : ∀ i, ∫ t in (0 : ℝ)..T, (deriv (deriv (X i)) t - ag i) * (deriv (deriv (Y i)) t - deriv (deriv (X i)) t) = 0 := by
    intro i
    obtain ⟨e1, e2⟩ := second_sub (hY.smooth i) (hX.smooth i)
    have := line_against ((hY.smooth i).sub (hX.smooth i)) (T := T) (by simp [hY.start i, hX.start i]) (by rw [e1]; simp [hY.speed i, hX.speed i])
      (by simp [hY.goal i, hX.goal i]) (by rw [e1]; simp [hY.rest i, hX.rest i])
      (-(2 * (3 * R0 i / T ^ 2 + 2 * V0 i / T)) - ag i) (6 * (2 * R0 i / T ^ 3 + V0 i / T ^ 2))
    rw [e2] at this
    refine Eq.trans (intervalIntegral.integral_congr fun t _ => ?_) this
    beta_reduce
    congr 1
    rw [← hXi i, landPath_deriv2]
    ring
  have hsum : ∫ t in (0 : ℝ)..T, ∑ i, (deriv (deriv (X i)) t - ag i) * (deriv (deriv (Y i)) t - deriv (deriv (X i)) t) = 0 := by
    rw [intervalIntegral.integral_finsetSum]
    · exact Finset.sum_eq_zero fun i _ => hcross i
    · exact fun i _ => Continuous.intervalIntegrable (by have := cX i; have := cY i; fun_prop) _ _
  have hexp : ∀ t, ∑ i, (deriv (deriv (Y i)) t - ag i) ^ 2 = (∑ i, (deriv (deriv (X i)) t - ag i) ^ 2) +
      2 * (∑ i, (deriv (deriv (X i)) t - ag i) * (deriv (deriv (Y i)) t - deriv (deriv (X i)) t)) +
      ∑ i, (deriv (deriv (Y i)) t - deriv (deriv (X i)) t) ^ 2 := by
    intro t
    rw [Finset.mul_sum, ← Finset.sum_add_distrib, ← Finset.sum_add_distrib]
    exact Finset.sum_congr rfl fun i _ => by ring
  unfold energy
  simp only [hexp]
  have i1 : IntervalIntegrable (fun t => ∑ i, (deriv (deriv (X i)) t - ag i) ^ 2) MeasureTheory.volume 0 T :=
    Continuous.intervalIntegrable (by fun_prop) _ _
  have i2 : IntervalIntegrable (fun t => 2 * ∑ i, (deriv (deriv (X i)) t - ag i) * (deriv (deriv (Y i)) t - deriv (deriv (X i)) t))
    MeasureTheory.volume 0 T := Continuous.intervalIntegrable (by fun_prop) _ _
  have i3 : IntervalIntegrable (fun t => ∑ i, (deriv (deriv (Y i)) t - deriv (deriv (X i)) t) ^ 2) MeasureTheory.volume 0 T :=
    Continuous.intervalIntegrable (by fun_prop) _ _
  rw [intervalIntegral.integral_add (i1.add i2) i3, intervalIntegral.integral_add i1 i2, intervalIntegral.integral_const_mul, hsum]
  ring

theorem zero_of_second {h : ℝ → ℝ} (hh : ContDiff ℝ 2 h) {T : ℝ} (h0 : h 0 = 0) (h1 : deriv h 0 = 0) (h2 : ∀ t ∈ Icc 0 T, deriv (deriv h) t = 0) :
    ∀ t ∈ Icc 0 T, h t = 0 := by
  have d0 : ContDiff ℝ 1 (deriv h) := first_smooth hh
  have e1 : ∀ t ∈ Icc 0 T, deriv h t = deriv h 0 := constant_of_has_deriv_right_zero d0.continuous.continuousOn fun x hx => by
    have := (d0.differentiable (by simp) x).hasDerivAt
    rw [h2 x ⟨hx.1, hx.2.le⟩] at this
    exact this.hasDerivWithinAt
  have e2 : ∀ t ∈ Icc 0 T, h t = h 0 := constant_of_has_deriv_right_zero hh.continuous.continuousOn fun x hx => by
    have := (hh.differentiable (by simp) x).hasDerivAt
    rw [e1 x ⟨hx.1, hx.2.le⟩, h1] at this
    exact this.hasDerivWithinAt
  intro t ht
  rw [e2 t ht, h0]

/-- **C105, least energy.** For every duration, position, velocity and gravity: the cubic needs the least energy of all motions, and it is the only
one. -/
theorem C105_least (R0 V0 ag : Fin 3 → ℝ) {T : ℝ} (hT : 0 < T) : LeastEnergy R0 V0 ag T fun i => landPath (R0 i) (V0 i) T := by
  refine ⟨landPath_trajectory R0 V0 hT.ne', fun Y hY => ?_, fun Y hY he => ?_⟩
  · rw [energy_split ag hT.ne' hY]
    have : 0 ≤ ∫ t in (0 : ℝ)..T, ∑ i, (deriv (deriv (Y i)) t - deriv (deriv (landPath (R0 i) (V0 i) T)) t) ^ 2 :=
      intervalIntegral.integral_nonneg hT.le fun t _ => Finset.sum_nonneg fun i _ => sq_nonneg _
    linarith
  · have hX := landPath_trajectory R0 V0 hT.ne'
    rw [energy_split ag hT.ne' hY] at he
    have hz : ∫ t in (0 : ℝ)..T, ∑ i, (deriv (deriv (Y i)) t - deriv (deriv (landPath (R0 i) (V0 i) T)) t) ^ 2 = 0 := by linarith
    have cX := fun i => second_continuous (hX.smooth i)
    have cY := fun i => second_continuous (hY.smooth i)
    beta_reduce at cX
    have hall : ∀ t ∈ Icc 0 T, ∀ i, deriv (deriv (Y i)) t - deriv (deriv (landPath (R0 i) (V0 i) T)) t = 0 := by
      intro t ht i
      by_contra hne
      refine absurd hz (ne_of_gt (intervalIntegral.integral_pos hT (Continuous.continuousOn (by fun_prop))
        (fun s _ => Finset.sum_nonneg fun i _ => sq_nonneg _) ⟨t, ht, ?_⟩))
      exact lt_of_lt_of_le (by positivity : 0 < (deriv (deriv (Y i)) t - deriv (deriv (landPath (R0 i) (V0 i) T)) t) ^ 2)
        (Finset.single_le_sum (f := fun i => (deriv (deriv (Y i)) t - deriv (deriv (landPath (R0 i) (V0 i) T)) t) ^ 2) (fun i _ => sq_nonneg _)
          (Finset.mem_univ i))
    intro i t ht
    obtain ⟨e1, e2⟩ := second_sub (hY.smooth i) (hX.smooth i)
    have := zero_of_second ((hY.smooth i).sub (hX.smooth i)) (T := T) (by simp [hY.start i, hX.start i])
      (by rw [e1]; simp [hY.speed i, hX.speed i]) (fun s hs => by rw [e2]; exact hall s hs i) t ht
    linarith

/-! ## The cost as a function of the duration -/

/-- The energy of the cubic. -/
noncomputable def landEnergy (R0 V0 ag : Fin 3 → ℝ) (T : ℝ) : ℝ :=
  ∑ i, (6 * R0 i ^ 2 / T ^ 3 + 6 * R0 i * V0 i / T ^ 2 + 2 * V0 i ^ 2 / T + V0 i * ag i + ag i ^ 2 / 2 * T)

theorem int_line_sq (p q T : ℝ) : ∫ t in (0 : ℝ)..T, (p + q * t) ^ 2 = p ^ 2 * T + p * q * T ^ 2 + q ^ 2 * T ^ 3 / 3 := by
  have hd : ∀ t, HasDerivAt (fun t : ℝ => p ^ 2 * t + p * q * t ^ 2 + q ^ 2 / 3 * t ^ 3) ((p + q * t) ^ 2) t := by
    intro t
    exact ((((hasDerivAt_id t).const_mul (p ^ 2)).add (((hasDerivAt_id t).pow 2).const_mul (p * q))).add
      (((hasDerivAt_id t).pow 3).const_mul (q ^ 2 / 3))).congr_deriv (by simp only [id]; ring)
  rw [intervalIntegral.integral_eq_sub_of_hasDerivAt (fun t _ => hd t) (Continuous.intervalIntegrable (by fun_prop) _ _)]
  ring

theorem energy_path (R0 V0 ag : Fin 3 → ℝ) {T : ℝ} (hT : T ≠ 0) : energy ag T (fun i => landPath (R0 i) (V0 i) T) = landEnergy R0 V0 ag T := by
  unfold energy landEnergy
  have : ∀ t, ∑ i, (deriv (deriv (landPath (R0 i) (V0 i) T)) t - ag i) ^ 2 =
      ∑ i, ((-(2 * (3 * R0 i / T ^ 2 + 2 * V0 i / T)) - ag i) + 6 * (2 * R0 i / T ^ 3 + V0 i / T ^ 2) * t) ^ 2 := by
    intro t
    refine Finset.sum_congr rfl fun i _ => ?_
    rw [landPath_deriv2]
    ring
  simp only [this]
  rw [intervalIntegral.integral_finsetSum fun i _ => Continuous.intervalIntegrable (by fun_prop) _ _, Finset.mul_sum]
  refine Finset.sum_congr rfl fun i _ => ?_
  rw [int_line_sq]
  field_simp
  ring

/-- The costate `ag - X''` of the cubic at its end. -/
noncomputable def landEnd (R0 V0 ag : Fin 3 → ℝ) (T : ℝ) (i : Fin 3) : ℝ := ag i - (6 * R0 i / T ^ 2 + 2 * V0 i / T)

theorem landEnd_eq (R0 V0 ag : Fin 3 → ℝ) {T : ℝ} (hT : T ≠ 0) (i : Fin 3) :
    landEnd R0 V0 ag T i = ag i - deriv (deriv (landPath (R0 i) (V0 i) T)) T := by
  rw [landPath_deriv2, landEnd]
  field_simp
  ring

theorem leastCost_isLeast (R0 V0 ag : Fin 3 → ℝ) (Gam : ℝ) {T : ℝ} (hT : 0 < T) :
    IsLeast {c | ∃ X, Trajectory R0 V0 T X ∧ c = Gam * T + energy ag T X} (Gam * T + landEnergy R0 V0 ag T) := by
  refine ⟨⟨_, landPath_trajectory R0 V0 hT.ne', ?_⟩, ?_⟩
  · rw [energy_path _ _ _ hT.ne']
  · rintro c ⟨X, hX, rfl⟩
    have := (C105_least R0 V0 ag hT).least X hX
    rw [energy_path _ _ _ hT.ne'] at this
    linarith

theorem leastCost_eq (R0 V0 ag : Fin 3 → ℝ) (Gam : ℝ) {T : ℝ} (hT : 0 < T) :
    leastCost R0 V0 ag Gam T = Gam * T + landEnergy R0 V0 ag T := (leastCost_isLeast R0 V0 ag Gam hT).csInf_eq

/-- **C105, the time.** For every position, velocity, gravity and price `Gam` of the time: the least cost of a landing of duration `T` is attained and
differentiable in `T`, and its derivative is the quantity `Htf` the programs set to zero, at the costate of the motion with least energy. -/
theorem C105_time (R0 V0 ag : Fin 3 → ℝ) (Gam : ℝ) {T : ℝ} (hT : 0 < T) :
    IsLeast {c | ∃ X, Trajectory R0 V0 T X ∧ c = Gam * T + energy ag T X} (leastCost R0 V0 ag Gam T) ∧
      HasDerivAt (leastCost R0 V0 ag Gam) (landHtf ag Gam fun i => ag i - deriv (deriv (landPath (R0 i) (V0 i) T)) T) T := by
  refine ⟨leastCost_eq R0 V0 ag Gam hT ▸ leastCost_isLeast R0 V0 ag Gam hT, ?_⟩
  have hev : leastCost R0 V0 ag Gam =ᶠ[nhds T] fun T => Gam * T + landEnergy R0 V0 ag T :=
    Filter.eventually_of_mem (Ioi_mem_nhds hT) fun T hT => leastCost_eq R0 V0 ag Gam hT
  have hend : (fun i => ag i - deriv (deriv (landPath (R0 i) (V0 i) T)) T) = landEnd R0 V0 ag T := funext fun i => (landEnd_eq R0 V0 ag hT.ne' i).symm
  rw [hend]
  refine HasDerivAt.congr_of_eventuallyEq ?_ hev
  · have hne := hT.ne'
    have h1 : HasDerivAt (fun T : ℝ => 1 / T ^ 3) (-3 / T ^ 4) T :=
      ((hasDerivAt_const T (1 : ℝ)).div ((hasDerivAt_id T).pow 3) (by simpa using hne)).congr_deriv (by simp only [id]; field_simp; simp; try ring)
    have h2 : HasDerivAt (fun T : ℝ => 1 / T ^ 2) (-2 / T ^ 3) T :=
      ((hasDerivAt_const T (1 : ℝ)).div ((hasDerivAt_id T).pow 2) (by simpa using hne)).congr_deriv (by simp only [id]; field_simp; simp; try ring)
    have h3 : HasDerivAt (fun T : ℝ => 1 / T) (-1 / T ^ 2) T :=
      ((hasDerivAt_const T (1 : ℝ)).div (hasDerivAt_id T) hne).congr_deriv (by simp only [id]; field_simp; simp)
    have hs : HasDerivAt (fun T : ℝ => Gam * T + ∑ i, (6 * R0 i ^ 2 * (1 / T ^ 3) + 6 * R0 i * V0 i * (1 / T ^ 2) + 2 * V0 i ^ 2 * (1 / T) +
        V0 i * ag i + ag i ^ 2 / 2 * T))
        (Gam * 1 + ∑ i, (6 * R0 i ^ 2 * (-3 / T ^ 4) + 6 * R0 i * V0 i * (-2 / T ^ 3) + 2 * V0 i ^ 2 * (-1 / T ^ 2) + ag i ^ 2 / 2 * 1)) T :=
      ((hasDerivAt_id T).const_mul Gam).add (HasDerivAt.fun_sum fun i _ =>
        ((((h1.const_mul _).add (h2.const_mul _)).add (h3.const_mul _)).add_const _).add ((hasDerivAt_id T).const_mul _))
    have e : (fun T => Gam * T + landEnergy R0 V0 ag T) = fun T : ℝ => Gam * T + ∑ i, (6 * R0 i ^ 2 * (1 / T ^ 3) + 6 * R0 i * V0 i * (1 / T ^ 2) +
        2 * V0 i ^ 2 * (1 / T) + V0 i * ag i + ag i ^ 2 / 2 * T) := by
      funext T
      unfold landEnergy
      congr 1
      exact Finset.sum_congr rfl fun i _ => by ring
    rw [e]
    refine hs.congr_deriv ?_
    unfold landHtf landEnd
    rw [add_comm, mul_one]
    congr 1
    refine Finset.sum_congr rfl fun i _ => ?_
    field_simp
    ring

/-- **C105, the best time.** If the start is not the goal and time or hovering costs something, there is a best time: no landing, however long it
takes, costs less than the best landing of that time; and there `Htf` is zero. -/
theorem C105_best (R0 V0 ag : Fin 3 → ℝ) (Gam : ℝ) (hR : ∃ i, R0 i ≠ 0) (hk : 0 < Gam + ∑ i, ag i ^ 2 / 2) :
    ∃ T, 0 < T ∧ (∀ T' X, 0 < T' → Trajectory R0 V0 T' X → leastCost R0 V0 ag Gam T ≤ Gam * T' + energy ag T' X) ∧
      landHtf ag Gam (fun i => ag i - deriv (deriv (landPath (R0 i) (V0 i) T)) T) = 0 := by
  obtain ⟨J, hJ⟩ : ∃ J, J = leastCost R0 V0 ag Gam := ⟨_, rfl⟩
  obtain ⟨k, hke⟩ : ∃ k, k = Gam + ∑ i, ag i ^ 2 / 2 := ⟨_, rfl⟩
  obtain ⟨D, hD⟩ : ∃ D, D = ∑ i, V0 i * ag i := ⟨_, rfl⟩
  obtain ⟨S, hS⟩ : ∃ S, S = 3 / 2 * ∑ i, R0 i ^ 2 := ⟨_, rfl⟩
  rw [← hke] at hk
  have hS0 : 0 < S := by
    obtain ⟨i, hi⟩ := hR
    have : 0 < ∑ i, R0 i ^ 2 := Finset.sum_pos' (fun i _ => sq_nonneg _) ⟨i, Finset.mem_univ i, by positivity⟩
    rw [hS]; linarith
  have hlow : ∀ T, 0 < T → S / T ^ 3 + D + k * T ≤ J T := by
    intro T hT
    rw [hJ, leastCost_eq _ _ _ _ hT, landEnergy]
    have h1 : S / T ^ 3 + D + k * T = Gam * T + ∑ i, (3 / 2 * R0 i ^ 2 / T ^ 3 + V0 i * ag i + ag i ^ 2 / 2 * T) := by
      rw [hS, hD, hke]
      simp only [Fin.sum_univ_three]
      ring
    rw [h1]
    refine add_le_add le_rfl (Finset.sum_le_sum fun i _ => ?_)
    have h2 : 6 * R0 i ^ 2 / T ^ 3 + 6 * R0 i * V0 i / T ^ 2 + 2 * V0 i ^ 2 / T - 3 / 2 * R0 i ^ 2 / T ^ 3 =
        (3 * R0 i + 2 * V0 i * T) ^ 2 / (2 * T ^ 3) := by
      field_simp
      ring
    have h3 : 0 ≤ (3 * R0 i + 2 * V0 i * T) ^ 2 / (2 * T ^ 3) := by positivity
    linarith
  obtain ⟨M, hM⟩ : ∃ M, M = |J 1 - D| + 1 := ⟨_, rfl⟩
  have hM0 : 0 < M := by rw [hM]; positivity
  have hM1 : J 1 - D < M := by rw [hM]; linarith [le_abs_self (J 1 - D)]
  obtain ⟨a, ha⟩ : ∃ a, a = min 1 (S / M) := ⟨_, rfl⟩
  obtain ⟨b, hb⟩ : ∃ b, b = max 1 (M / k) := ⟨_, rfl⟩
  have ha0 : 0 < a := by rw [ha]; exact lt_min one_pos (div_pos hS0 hM0)
  have ha1 : a ≤ 1 := by rw [ha]; exact min_le_left _ _
  have hb1 : 1 ≤ b := by rw [hb]; exact le_max_left _ _
  have hder : ∀ T, 0 < T → HasDerivAt J (landHtf ag Gam fun i => ag i - deriv (deriv (landPath (R0 i) (V0 i) T)) T) T := fun T hT => by
    rw [hJ]; exact (C105_time R0 V0 ag Gam hT).2
  obtain ⟨T, hT, hmin⟩ := isCompact_Icc.exists_isMinOn (nonempty_Icc.2 (ha1.trans hb1)) (f := J) fun T hT =>
    (hder T (lt_of_lt_of_le ha0 hT.1)).continuousAt.continuousWithinAt
  have hT0 : 0 < T := lt_of_lt_of_le ha0 hT.1
  have hJ1 : J T ≤ J 1 := hmin ⟨ha1, hb1⟩
  have hall : ∀ T', 0 < T' → J T ≤ J T' := by
    intro T' hT'
    have hl := hlow T' hT'
    by_cases h1 : T' < a
    · have h2 : T' < 1 := lt_of_lt_of_le h1 ha1
      have h3 : T' < S / M := lt_of_lt_of_le h1 (by rw [ha]; exact min_le_right _ _)
      have h4 : M < S / T' := by
        rw [lt_div_iff₀ hT']
        rw [lt_div_iff₀ hM0] at h3
        linarith
      have h5 : S / T' ≤ S / T' ^ 3 := by
        refine div_le_div_of_nonneg_left hS0.le (by positivity) ?_
        calc T' ^ 3 ≤ T' ^ 1 := pow_le_pow_of_le_one hT'.le h2.le (by norm_num)
          _ = T' := pow_one _
      have h6 : 0 < k * T' := mul_pos hk hT'
      linarith
    · by_cases h2 : b < T'
      · have h3 : M / k < T' := lt_of_le_of_lt (by rw [hb]; exact le_max_right _ _) h2
        have h4 : M < k * T' := by
          rw [div_lt_iff₀ hk] at h3
          linarith
        have h5 : 0 < S / T' ^ 3 := by positivity
        linarith
      · exact hmin ⟨not_lt.1 h1, not_lt.1 h2⟩
  refine ⟨T, hT0, fun T' X hT' hX => ?_, ?_⟩
  · rw [← hJ]
    refine (hall T' hT').trans ?_
    rw [hJ]
    exact (C105_time R0 V0 ag Gam hT').1.2 ⟨X, hX, rfl⟩
  · have hloc : IsLocalMin J T := Filter.eventually_of_mem (Ioi_mem_nhds hT0) fun T' hT' => hall T' hT'
    exact hloc.hasDerivAt_eq_zero (hder T hT0)

/-- A case: from height 1 at rest, without gravity, with a price for the time. -/
example : ∃ T, 0 < T ∧ landHtf (fun _ => 0) 1 (fun i => 0 - deriv (deriv (landPath (![0, 0, 1] i) 0 T)) T) = 0 := by
  obtain ⟨T, h1, -, h2⟩ := C105_best ![0, 0, 1] (fun _ => 0) (fun _ => 0) 1 ⟨2, by simp⟩ (by simp)
  exact ⟨T, h1, h2⟩

end Verif.Props
