import Mathlib.Analysis.ODE.ExistUnique
import Mathlib.Analysis.ODE.Gronwall
import Mathlib.Analysis.Calculus.ContDiff.RCLike
import Mathlib.Analysis.Calculus.MeanValue
import Mathlib.Analysis.Calculus.Deriv.Inverse
import Mathlib.Analysis.Calculus.Deriv.MeanValue
import Mathlib.Order.Hom.Set
import Mathlib.Topology.Order.ProjIcc
import Mathlib.Geometry.Manifold.PartitionOfUnity

/-! # How the solutions of an autonomous equation depend on their start -/

namespace Verif.Lemmas

open Set Filter Topology Metric Manifold
open scoped ContDiff NNReal

variable {E : Type*} [NormedAddCommGroup E] [NormedSpace ℝ E]

/-- A remainder of the second order. -/
theorem hasFDerivAt_of_sq {F G : Type*} [NormedAddCommGroup F] [NormedSpace ℝ F] [NormedAddCommGroup G] [NormedSpace ℝ G] {f : F → G} {L : F →L[ℝ] G} {x : F} {C : ℝ}
    (h : ∀ᶠ y in 𝓝 x, ‖f y - f x - L (y - x)‖ ≤ C * ‖y - x‖ ^ 2) : HasFDerivAt f L x := by
  rw [hasFDerivAt_iff_isLittleO]
  have h1 : (fun y => f y - f x - L (y - x)) =O[𝓝 x] fun y => ‖y - x‖ ^ 2 := by
    refine Asymptotics.IsBigO.of_bound C ?_
    filter_upwards [h] with y hy
    rwa [Real.norm_of_nonneg (by positivity)]
  refine h1.trans_isLittleO ?_
  have h2 : (fun y : F => ‖y - x‖ ^ 2) = fun y => ‖y - x‖ * ‖y - x‖ := by funext y; ring
  rw [h2]
  have h3 : (fun y : F => ‖y - x‖) =o[𝓝 x] fun _ => (1 : ℝ) := by
    rw [Asymptotics.isLittleO_one_iff]
    have : Tendsto (fun y : F => ‖y - x‖) (𝓝 x) (𝓝 ‖x - x‖) := (by fun_prop : Continuous fun y : F => ‖y - x‖).tendsto x
    simpa using this
  have h4 : (fun y : F => ‖y - x‖) =O[𝓝 x] fun y => y - x := (Asymptotics.isBigO_refl _ _).norm_left
  simpa using h3.mul_isBigO h4.norm_right

section Cutoff

variable [FiniteDimensional ℝ E]

/-- A field that is smooth near a compact set agrees there with one that has compact support. -/
theorem cutoff {U : Set E} (hU : IsOpen U) {f : E → E} (hf : ContDiffOn ℝ 2 f U) {K : Set E} (hK : IsCompact K) (hKU : K ⊆ U) :
    ∃ (g : E → E) (V : Set E), ContDiff ℝ 2 g ∧ HasCompactSupport g ∧ IsOpen V ∧ K ⊆ V ∧ V ⊆ U ∧ ∀ x ∈ V, g x = f x := by
  obtain ⟨L, hL, hKL, hLU⟩ := exists_compact_between hK hU hKU
  obtain ⟨χ, h1, h0, -⟩ := exists_contMDiffMap_one_nhds_of_subset_interior (n := (⊤ : ℕ∞)) (I := 𝓘(ℝ, E)) hK.isClosed hKL
  have hχ : ContDiff ℝ 2 χ := (contMDiff_iff_contDiff.1 χ.contMDiff).of_le (by norm_cast)
  obtain ⟨V, hV, hKV, hV1⟩ := mem_nhdsSet_iff_exists.1 h1
  refine ⟨fun x => χ x • f x, V ∩ U, contDiff_iff_contDiffAt.2 fun x => ?_, ?_, hV.inter hU, subset_inter hKV hKU, inter_subset_right, fun x hx => ?_⟩
  · by_cases hx : x ∈ U
    · exact hχ.contDiffAt.smul (hf.contDiffAt (hU.mem_nhds hx))
    · have hxL : x ∉ L := fun h => hx (hLU h)
      refine (contDiffAt_const (c := (0 : E))).congr_of_eventuallyEq ?_
      filter_upwards [hL.isClosed.isOpen_compl.mem_nhds hxL] with y hy
      rw [h0 y hy, zero_smul]
  · refine HasCompactSupport.intro hL fun x hx => ?_
    rw [h0 x hx, zero_smul]
  · have : χ x = 1 := hV1 hx.1
    simp only [this, one_smul]

end Cutoff

variable [FiniteDimensional ℝ E]

/-- The solutions on a given interval. -/
theorem global_flow {g : E → E} (hg : ContDiff ℝ 2 g) (hc : HasCompactSupport g) {R : ℝ} (hR : 0 < R) :
    ∃ ψ : E → ℝ → E, ∀ s, ψ s 0 = s ∧ ∀ t ∈ Ioo (-R) R, HasDerivAt (ψ s) (g (ψ s t)) t := by
  obtain ⟨M, hM⟩ := hc.exists_bound_of_continuous hg.continuous
  obtain ⟨K, hK⟩ := ContDiff.lipschitzWith_of_hasCompactSupport hc hg (by norm_num)
  have hs : ∀ s : E, ∃ α : ℝ → E, α 0 = s ∧ ∀ t ∈ Ioo (-R) R, HasDerivAt α (g (α t)) t := by
    intro s
    have pl : IsPicardLindelof (fun _ => g) (tmin := -R) (tmax := R) ⟨0, by constructor <;> linarith⟩ s (Real.toNNReal (max M 0 * R)) 0 (Real.toNNReal (max M 0)) K := by
      refine IsPicardLindelof.of_time_independent (fun x _ => ?_) hK.lipschitzOnWith ?_
      · rw [Real.coe_toNNReal _ (le_max_right _ _)]
        exact (hM x).trans (le_max_left _ _)
      · rw [Real.coe_toNNReal _ (le_max_right _ _), Real.coe_toNNReal _ (by positivity)]
        simp
    obtain ⟨α, h0, h⟩ := pl.exists_eq_forall_mem_Icc_hasDerivWithinAt₀
    exact ⟨α, h0, fun t ht => (h t (Ioo_subset_Icc_self ht)).hasDerivAt (Icc_mem_nhds ht.1 ht.2)⟩
  choose ψ hψ using hs
  exact ⟨ψ, hψ⟩

omit [FiniteDimensional ℝ E] in
theorem flow_lip {g : E → E} {K : ℝ≥0} (hL : LipschitzWith K g) {R : ℝ} {ψ : E → ℝ → E} (h : ∀ s, ψ s 0 = s ∧ ∀ t ∈ Ioo (-R) R, HasDerivAt (ψ s) (g (ψ s t)) t)
    {T : ℝ} (hTR : T < R) (s s' : E) {t : ℝ} (ht : t ∈ Icc 0 T) : ‖ψ s t - ψ s' t‖ ≤ ‖s - s'‖ * Real.exp (K * T) := by
  have hR : 0 < R := lt_of_le_of_lt (ht.1.trans ht.2) hTR
  have hm : ∀ r ∈ Icc 0 T, r ∈ Ioo (-R) R := fun r hr => ⟨by linarith [hr.1], lt_of_le_of_lt hr.2 hTR⟩
  have := dist_le_of_trajectories_ODE (v := fun _ => g) (K := K) (δ := dist s s') (fun _ => hL)
    (fun r hr => ((h s).2 r (hm r hr)).continuousAt.continuousWithinAt) (fun r hr => ((h s).2 r (hm r ⟨hr.1, hr.2.le⟩)).hasDerivWithinAt)
    (fun r hr => ((h s').2 r (hm r hr)).continuousAt.continuousWithinAt) (fun r hr => ((h s').2 r (hm r ⟨hr.1, hr.2.le⟩)).hasDerivWithinAt)
    (by rw [(h s).1, (h s').1]) t ht
  rw [dist_eq_norm, dist_eq_norm] at this
  refine this.trans (mul_le_mul_of_nonneg_left (Real.exp_le_exp.2 (mul_le_mul_of_nonneg_left (by linarith [ht.2]) K.2)) (norm_nonneg _))

omit [FiniteDimensional ℝ E] in
/-- Taylor's formula for a field with compact support. -/
theorem taylor_two {g : E → E} (hg : ContDiff ℝ 2 g) (hc : HasCompactSupport g) : ∃ C : ℝ, 0 ≤ C ∧ ∀ x y, ‖g y - g x - fderiv ℝ g x (y - x)‖ ≤ C * ‖y - x‖ ^ 2 := by
  have hd : ContDiff ℝ 1 (fderiv ℝ g) := hg.fderiv_right (by norm_num)
  obtain ⟨C, hC⟩ := ContDiff.lipschitzWith_of_hasCompactSupport (hc.fderiv ℝ) hd (by norm_num)
  refine ⟨C, C.2, fun x y => ?_⟩
  have := Convex.norm_image_sub_le_of_norm_fderiv_le' (𝕜 := ℝ) (f := g) (s := closedBall x ‖y - x‖) (φ := fderiv ℝ g x) (C := C * ‖y - x‖) (x := x) (y := y)
    (fun z _ => (hg.differentiable (by norm_num)) z) (fun z hz => by
      have := hC.dist_le_mul z x
      rw [dist_eq_norm] at this
      refine this.trans (mul_le_mul_of_nonneg_left ?_ C.2)
      exact hz) (convex_closedBall _ _) (by simp) (by simp [dist_eq_norm])
  calc _ ≤ C * ‖y - x‖ * ‖y - x‖ := this
    _ = _ := by ring

omit [FiniteDimensional ℝ E] in
/-- The derivative with respect to the start satisfies the linearised equation. -/
theorem flow_deriv {g : E → E} (hg : ContDiff ℝ 2 g) (hc : HasCompactSupport g) {R : ℝ} {ψ : E → ℝ → E}
    (h : ∀ s, ψ s 0 = s ∧ ∀ t ∈ Ioo (-R) R, HasDerivAt (ψ s) (g (ψ s t)) t) {T : ℝ} (hT : 0 ≤ T) (hTR : T < R) {s₀ : E} {A : ℝ → E →L[ℝ] E} (hA0 : A 0 = ContinuousLinearMap.id ℝ E)
    (hA : ∀ t ∈ Icc 0 T, HasDerivWithinAt A ((fderiv ℝ g (ψ s₀ t)).comp (A t)) (Icc 0 T) t) :
    ∃ C, ∀ s, ‖ψ s T - ψ s₀ T - A T (s - s₀)‖ ≤ C * ‖s - s₀‖ ^ 2 := by
  obtain ⟨K, hK⟩ := ContDiff.lipschitzWith_of_hasCompactSupport hc hg (by norm_num)
  obtain ⟨C, hC, hC2⟩ := taylor_two hg hc
  obtain ⟨M, hM⟩ := (hc.fderiv ℝ).exists_bound_of_continuous (hg.continuous_fderiv (by norm_num))
  have hM1 : 0 < max M 1 := lt_of_lt_of_le one_pos (le_max_right _ _)
  have hm : ∀ r ∈ Icc 0 T, r ∈ Ioo (-R) R := fun r hr => ⟨by linarith [hr.1, lt_of_le_of_lt hT hTR], lt_of_le_of_lt hr.2 hTR⟩
  refine ⟨C * Real.exp (K * T) ^ 2 / max M 1 * (Real.exp (max M 1 * T) - 1), fun s => ?_⟩
  have hAc : ContinuousOn A (Icc 0 T) := fun r hr => (hA r hr).continuousWithinAt
  have key := norm_le_gronwallBound_of_norm_deriv_right_le (f := fun t => ψ s t - ψ s₀ t - A t (s - s₀))
    (f' := fun t => g (ψ s t) - g (ψ s₀ t) - ((fderiv ℝ g (ψ s₀ t)).comp (A t)) (s - s₀)) (δ := 0) (K := max M 1) (ε := C * (‖s - s₀‖ * Real.exp (K * T)) ^ 2) (a := 0) (b := T)
    (ContinuousOn.sub (ContinuousOn.sub (fun r hr => ((h s).2 r (hm r hr)).continuousAt.continuousWithinAt) (fun r hr => ((h s₀).2 r (hm r hr)).continuousAt.continuousWithinAt))
      (hAc.clm_apply continuousOn_const))
    (fun t ht => by
      have ht' : t ∈ Icc 0 T := ⟨ht.1, ht.2.le⟩
      have a1 := ((h s).2 t (hm t ht')).hasDerivWithinAt (s := Ici t)
      have a2 := ((h s₀).2 t (hm t ht')).hasDerivWithinAt (s := Ici t)
      have a3 : HasDerivWithinAt A ((fderiv ℝ g (ψ s₀ t)).comp (A t)) (Ici t) t := by
        refine (hA t ht').mono_of_mem_nhdsWithin ?_
        filter_upwards [Icc_mem_nhdsGE ht.2] with y hy using ⟨ht.1.trans hy.1, hy.2⟩
      have a4 := a3.clm_apply (hasDerivWithinAt_const t (Ici t) (s - s₀))
      simp only [map_zero, add_zero] at a4
      exact (a1.sub a2).sub a4)
    (by
      simp only [(h s).1, (h s₀).1, hA0]
      simp)
    (fun t ht => by
      have ht' : t ∈ Icc 0 T := ⟨ht.1, ht.2.le⟩
      have e : g (ψ s t) - g (ψ s₀ t) - ((fderiv ℝ g (ψ s₀ t)).comp (A t)) (s - s₀) = (g (ψ s t) - g (ψ s₀ t) - fderiv ℝ g (ψ s₀ t) (ψ s t - ψ s₀ t)) +
          fderiv ℝ g (ψ s₀ t) (ψ s t - ψ s₀ t - A t (s - s₀)) := by
        rw [map_sub (fderiv ℝ g (ψ s₀ t)) (ψ s t - ψ s₀ t) _]
        simp only [ContinuousLinearMap.comp_apply]
        abel
      rw [e]
      refine (norm_add_le _ _).trans ?_
      rw [add_comm]
      refine add_le_add ?_ ?_
      · refine (ContinuousLinearMap.le_opNorm _ _).trans (mul_le_mul_of_nonneg_right ((hM _).trans (le_max_left _ _)) (norm_nonneg _))
      · refine (hC2 _ _).trans (mul_le_mul_of_nonneg_left ?_ hC)
        exact pow_le_pow_left₀ (norm_nonneg _) (flow_lip hK h hTR s s₀ ht') 2)
    T ⟨hT, le_rfl⟩
  refine key.trans (le_of_eq ?_)
  rw [gronwallBound_of_K_ne_0 hM1.ne']
  simp only [sub_zero, zero_mul, zero_add]
  ring

omit [FiniteDimensional ℝ E] in
/-- The same for start and time together. -/
theorem flow_deriv_joint {g : E → E} (hg : ContDiff ℝ 2 g) (hc : HasCompactSupport g) {R : ℝ} {ψ : E → ℝ → E}
    (h : ∀ s, ψ s 0 = s ∧ ∀ t ∈ Ioo (-R) R, HasDerivAt (ψ s) (g (ψ s t)) t) {T : ℝ} (hT : 0 ≤ T) (hTR : T < R) {s₀ : E} {A : ℝ → E →L[ℝ] E} (hA0 : A 0 = ContinuousLinearMap.id ℝ E)
    (hA : ∀ t ∈ Icc 0 T, HasDerivWithinAt A ((fderiv ℝ g (ψ s₀ t)).comp (A t)) (Icc 0 T) t) :
    ∃ C, 0 ≤ C ∧ ∀ s, ∀ t ∈ Ioo (-R) R, ‖ψ s t - ψ s₀ T - (A T (s - s₀) + (t - T) • g (ψ s₀ T))‖ ≤ C * (‖s - s₀‖ + |t - T|) ^ 2 := by
  obtain ⟨C, hC⟩ := flow_deriv hg hc h hT hTR hA0 hA
  obtain ⟨K, hK⟩ := ContDiff.lipschitzWith_of_hasCompactSupport hc hg (by norm_num)
  obtain ⟨M, hM⟩ := hc.exists_bound_of_continuous hg.continuous
  have hM0 : 0 ≤ max M 0 := le_max_right _ _
  have hTm : T ∈ Ioo (-R) R := ⟨by linarith [lt_of_le_of_lt hT hTR], hTR⟩
  refine ⟨max C 0 + K * (max M 0 + Real.exp (K * T)), by positivity, fun s t ht => ?_⟩
  have move : ∀ r ∈ Ioo (-R) R, ‖ψ s r - ψ s T‖ ≤ max M 0 * |r - T| := fun r hr =>
    Convex.norm_image_sub_le_of_norm_hasDerivWithin_le (f := ψ s) (f' := fun r => g (ψ s r)) (s := Ioo (-R) R) (fun z hz => ((h s).2 z hz).hasDerivWithinAt)
      (fun z _ => (hM _).trans (le_max_left _ _)) (convex_Ioo _ _) hTm hr
  have hsub : uIcc T t ⊆ Ioo (-R) R := by
    intro z hz
    rcases le_total T t with hle | hle
    · rw [uIcc_of_le hle] at hz; exact ⟨lt_of_lt_of_le hTm.1 hz.1, lt_of_le_of_lt hz.2 ht.2⟩
    · rw [uIcc_of_ge hle] at hz; exact ⟨lt_of_lt_of_le ht.1 hz.1, lt_of_le_of_lt hz.2 hTR⟩
  have step : ‖(ψ s t - t • g (ψ s₀ T)) - (ψ s T - T • g (ψ s₀ T))‖ ≤ K * (max M 0 * |t - T| + ‖s - s₀‖ * Real.exp (K * T)) * |t - T| := by
    refine Convex.norm_image_sub_le_of_norm_hasDerivWithin_le (f := fun r => ψ s r - r • g (ψ s₀ T)) (f' := fun r => g (ψ s r) - g (ψ s₀ T)) (s := uIcc T t)
      (fun z hz => ?_) (fun z hz => ?_) (convex_uIcc _ _) left_mem_uIcc right_mem_uIcc
    · have := ((h s).2 z (hsub hz)).sub ((hasDerivAt_id z).smul_const (g (ψ s₀ T)))
      simp only [one_smul] at this
      exact this.hasDerivWithinAt
    · have hz' : |z - T| ≤ |t - T| := abs_sub_left_of_mem_uIcc hz
      have := hK.dist_le_mul (ψ s z) (ψ s₀ T)
      rw [dist_eq_norm, dist_eq_norm] at this
      refine this.trans (mul_le_mul_of_nonneg_left ?_ K.2)
      have e : ψ s z - ψ s₀ T = (ψ s z - ψ s T) + (ψ s T - ψ s₀ T) := by abel
      rw [e]
      exact (norm_add_le _ _).trans (add_le_add ((move z (hsub hz)).trans (mul_le_mul_of_nonneg_left hz' hM0)) (flow_lip hK h hTR s s₀ ⟨hT, le_rfl⟩))
  have e : ψ s t - ψ s₀ T - (A T (s - s₀) + (t - T) • g (ψ s₀ T)) = (ψ s T - ψ s₀ T - A T (s - s₀)) + ((ψ s t - t • g (ψ s₀ T)) - (ψ s T - T • g (ψ s₀ T))) := by
    rw [sub_smul]; abel
  rw [e]
  refine (norm_add_le _ _).trans ?_
  have hK0 : (0 : ℝ) ≤ K := K.2
  set p := ‖s - s₀‖
  set q := |t - T|
  have hp : 0 ≤ p := norm_nonneg _
  have hq : 0 ≤ q := abs_nonneg _
  have hx : 0 ≤ Real.exp (K * T) := (Real.exp_pos _).le
  have b1 : ‖ψ s T - ψ s₀ T - A T (s - s₀)‖ ≤ max C 0 * (p + q) ^ 2 := (hC s).trans (by
    refine mul_le_mul (le_max_left _ _) (pow_le_pow_left₀ hp (by linarith) 2) (by positivity) (le_max_right _ _))
  have b2 : K * (max M 0 * q + p * Real.exp (K * T)) * q ≤ K * (max M 0 + Real.exp (K * T)) * (p + q) ^ 2 := by
    have c1 : max M 0 * q + p * Real.exp (K * T) ≤ (max M 0 + Real.exp (K * T)) * (p + q) := by nlinarith [mul_nonneg hM0 hp, mul_nonneg hx hq]
    calc K * (max M 0 * q + p * Real.exp (K * T)) * q ≤ K * ((max M 0 + Real.exp (K * T)) * (p + q)) * (p + q) :=
          mul_le_mul (mul_le_mul_of_nonneg_left c1 hK0) (by linarith) hq (by positivity)
      _ = _ := by ring
  calc _ ≤ max C 0 * (p + q) ^ 2 + K * (max M 0 + Real.exp (K * T)) * (p + q) ^ 2 := add_le_add b1 (step.trans b2)
    _ = _ := by ring

omit [FiniteDimensional ℝ E] in
/-- A change of the time: `T` is the new time, and `ρ > 0` its rate. -/
theorem time_change {w : ℝ → E} {T ρ : ℝ → ℝ} {F : ℝ → E} {b : ℝ} (hb : 0 < b) (hw : ∀ z ∈ Icc 0 b, HasDerivWithinAt w (ρ z • F z) (Icc 0 b) z)
    (hT : ∀ z ∈ Icc 0 b, HasDerivWithinAt T (ρ z) (Icc 0 b) z) (hρ : ∀ z ∈ Icc 0 b, 0 < ρ z) (h0 : T 0 = 0) :
    0 < T b ∧ ∃ σ : ℝ → ℝ, (∀ t ∈ Icc 0 (T b), σ t ∈ Icc 0 b ∧ T (σ t) = t) ∧ (∀ z ∈ Icc 0 b, T z ∈ Icc 0 (T b) ∧ σ (T z) = z) ∧
      ∀ t ∈ Icc 0 (T b), HasDerivWithinAt (fun t => w (σ t)) (F (σ t)) (Icc 0 (T b)) t := by
  have hcont : ContinuousOn T (Icc 0 b) := fun z hz => (hT z hz).continuousWithinAt
  have hmono : StrictMonoOn T (Icc 0 b) := by
    refine strictMonoOn_of_deriv_pos (convex_Icc _ _) hcont fun z hz => ?_
    rw [interior_Icc] at hz
    rw [((hT z (Ioo_subset_Icc_self hz)).hasDerivAt (Icc_mem_nhds hz.1 hz.2)).deriv]
    exact hρ z (Ioo_subset_Icc_self hz)
  have m0 : (0 : ℝ) ∈ Icc 0 b := ⟨le_rfl, hb.le⟩
  have mb : b ∈ Icc 0 b := ⟨hb.le, le_rfl⟩
  have hP : 0 < T b := by rw [← h0]; exact hmono m0 mb hb
  have hmaps : ∀ z ∈ Icc 0 b, T z ∈ Icc 0 (T b) := fun z hz => by
    refine ⟨?_, hmono.monotoneOn hz mb hz.2⟩
    rw [← h0]
    exact hmono.monotoneOn m0 hz hz.1
  have hsurj : ∀ t ∈ Icc 0 (T b), ∃ z ∈ Icc 0 b, T z = t := fun t ht => by
    have := intermediate_value_Icc hb.le hcont
    rw [h0] at this
    exact this ht
  let f : Icc 0 b → Icc 0 (T b) := fun z => ⟨T z, hmaps z z.2⟩
  have hf : StrictMono f := fun x y hxy => hmono x.2 y.2 hxy
  have hfs : Function.Surjective f := fun t => by
    obtain ⟨z, hz, e⟩ := hsurj t t.2
    exact ⟨⟨z, hz⟩, Subtype.ext e⟩
  let e := hf.orderIsoOfSurjective f hfs
  have hσc : Continuous (IccExtend hP.le fun t => ((e.symm t : Icc 0 b) : ℝ)) := (continuous_subtype_val.comp e.symm.continuous).Icc_extend'
  have hσ1 : ∀ t ∈ Icc 0 (T b), IccExtend hP.le (fun t => ((e.symm t : Icc 0 b) : ℝ)) t ∈ Icc 0 b ∧ T (IccExtend hP.le (fun t => ((e.symm t : Icc 0 b) : ℝ)) t) = t := by
    intro t ht
    rw [IccExtend_of_mem _ _ ht]
    refine ⟨(e.symm ⟨t, ht⟩).2, ?_⟩
    have := e.apply_symm_apply ⟨t, ht⟩
    exact congrArg Subtype.val this
  generalize IccExtend hP.le (fun t => ((e.symm t : Icc 0 b) : ℝ)) = σ at hσc hσ1
  refine ⟨hP, σ, hσ1, fun z hz => ⟨hmaps z hz, ?_⟩, fun t ht => ?_⟩
  · obtain ⟨a1, a2⟩ := hσ1 (T z) (hmaps z hz)
    exact hmono.injOn a1 hz a2
  · have ho := hσ1 t ht
    have hpos := hρ _ ho.1
    have hmap : MapsTo σ (Icc 0 (T b)) (Icc 0 b) := fun r hr => (hσ1 r hr).1
    have hd : HasDerivWithinAt σ (ρ (σ t))⁻¹ (Icc 0 (T b)) t := by
      have hfd : HasFDerivWithinAt T ((ContinuousLinearEquiv.unitsEquivAut ℝ (Units.mk0 (ρ (σ t)) hpos.ne') : ℝ ≃L[ℝ] ℝ) : ℝ →L[ℝ] ℝ) (Icc 0 b) (σ t) := by
        refine (hT (σ t) ho.1).hasFDerivWithinAt.congr_fderiv ?_
        ext
        simp
      have := HasFDerivWithinAt.of_local_left_inverse (g := σ) (s := Icc 0 (T b)) (a := t) (tendsto_nhdsWithin_of_tendsto_nhds_of_eventually_within _ (hσc.continuousAt.continuousWithinAt)
        (eventually_nhdsWithin_of_forall hmap)) hfd ht (eventually_nhdsWithin_of_forall fun r hr => (hσ1 r hr).2)
      have h2 := this.hasDerivWithinAt
      simpa using h2
    have := (hw (σ t) ho.1).scomp t hd hmap
    rw [smul_smul, inv_mul_cancel₀ hpos.ne', one_smul] at this
    exact this

omit [FiniteDimensional ℝ E] in
/-- A curve that is differentiable on a closed interval continues beyond its ends. -/
theorem extend_curve {w w' : ℝ → E} {a b : ℝ} (hab : a < b) (hw : ∀ z ∈ Icc a b, HasDerivWithinAt w (w' z) (Icc a b) z) :
    ∃ W : ℝ → E, (∀ z ∈ Icc a b, W z = w z) ∧ ∀ z ∈ Icc a b, HasDerivAt W (w' z) z := by
  obtain ⟨W, hW⟩ : ∃ W : ℝ → E, W = fun z => if z < a then w a + (z - a) • w' a else if b < z then w b + (z - b) • w' b else w z := ⟨_, rfl⟩
  have hin : ∀ z ∈ Icc a b, W z = w z := fun z hz => by rw [hW]; simp [not_lt.2 hz.1, not_lt.2 hz.2]
  refine ⟨W, hin, fun z hz => ?_⟩
  have hwW : HasDerivWithinAt W (w' z) (Icc a b) z := (hw z hz).congr hin (hin z hz)
  have line : ∀ c, HasDerivAt (fun z => w c + (z - c) • w' c) (w' c) c := fun c => by
    have := (((hasDerivAt_id c).sub_const c).smul_const (w' c)).const_add (w c)
    simpa using this
  rcases eq_or_lt_of_le hz.1 with h1 | h1
  · subst h1
    have hr : HasDerivWithinAt W (w' a) (Ici a) a := hwW.mono_of_mem_nhdsWithin (Icc_mem_nhdsGE hab)
    have hl : HasDerivWithinAt W (w' a) (Iic a) a := by
      refine (line a).hasDerivWithinAt.congr (fun y hy => ?_) ?_
      · rcases eq_or_lt_of_le (by simpa using hy) with h | h
        · rw [h, hin a hz]; simp
        · rw [hW]; simp [h]
      · rw [hin a hz]; simp
    have := hl.union hr
    rwa [Iic_union_Ici, hasDerivWithinAt_univ] at this
  · rcases eq_or_lt_of_le hz.2 with h2 | h2
    · subst h2
      have hl : HasDerivWithinAt W (w' z) (Iic z) z := hwW.mono_of_mem_nhdsWithin (Icc_mem_nhdsLE hab)
      have hr : HasDerivWithinAt W (w' z) (Ici z) z := by
        refine (line z).hasDerivWithinAt.congr (fun y hy => ?_) ?_
        · rcases eq_or_lt_of_le (by simpa using hy) with h | h
          · rw [← h, hin z hz]; simp
          · rw [hW]; simp [h, not_lt.2 (hab.trans h).le]
        · rw [hin z hz]; simp
      have := hl.union hr
      rwa [Iic_union_Ici, hasDerivWithinAt_univ] at this
    · exact hwW.hasDerivAt (Icc_mem_nhds h1 h2)

section Crossing

omit [FiniteDimensional ℝ E]

variable {P : Type*} [NormedAddCommGroup P] [NormedSpace ℝ P] {Ψ : P → ℝ → E} {L : P →L[ℝ] E} {v : E} {p₀ : P} {T R C : ℝ}

/-- Nearby curves cross the plane `ℓ = 0` as well, at nearly the same time. -/
theorem crossing_exists (hT : T ∈ Ioo (-R) R)
    (hΨ : ∀ p, ∀ t ∈ Ioo (-R) R, ‖Ψ p t - Ψ p₀ T - (L (p - p₀) + (t - T) • v)‖ ≤ C * (‖p - p₀‖ + |t - T|) ^ 2) (hcont : ∀ p, ContinuousOn (Ψ p) (Ioo (-R) R))
    {ℓ : E →L[ℝ] ℝ} (h0 : ℓ (Ψ p₀ T) = 0) (hv : ℓ v = 1) :
    ∃ θ : P → ℝ, θ p₀ = T ∧ ContinuousAt θ p₀ ∧ ∀ᶠ p in 𝓝 p₀, θ p ∈ Ioo (-R) R ∧ ℓ (Ψ p (θ p)) = 0 := by
  classical
  have hL : 0 ≤ ‖ℓ‖ * ‖L‖ := by positivity
  obtain ⟨D, hD⟩ : ∃ D, D = ‖ℓ‖ * ‖L‖ + 1 := ⟨_, rfl⟩
  have hD1 : 0 < D := by rw [hD]; positivity
  have small : Tendsto (fun p : P => ‖p - p₀‖) (𝓝 p₀) (𝓝 0) := by
    have : Tendsto (fun p : P => ‖p - p₀‖) (𝓝 p₀) (𝓝 ‖p₀ - p₀‖) := (by fun_prop : Continuous fun p : P => ‖p - p₀‖).tendsto p₀
    simpa using this
  have smallD : ∀ c : ℝ, Tendsto (fun p : P => c * ‖p - p₀‖) (𝓝 p₀) (𝓝 0) := fun c => by simpa using small.const_mul c
  have ev : ∀ᶠ p in 𝓝 p₀, ∃ t, |t - T| ≤ D * ‖p - p₀‖ ∧ t ∈ Ioo (-R) R ∧ ℓ (Ψ p t) = 0 := by
    have e1 := (smallD (‖ℓ‖ * C * (1 + D) ^ 2)).eventually_le_const (show (0 : ℝ) < 1 by norm_num)
    have e2 := (smallD D).eventually_lt_const (show (0 : ℝ) < min (R - T) (T + R) by rw [lt_min_iff]; constructor <;> linarith [hT.1, hT.2])
    filter_upwards [e1, e2] with p h1 h2
    obtain ⟨h, hh⟩ : ∃ h, h = ‖p - p₀‖ := ⟨_, rfl⟩
    rw [← hh] at h1 h2
    have hn : 0 ≤ h := hh ▸ norm_nonneg _
    have h3 := h2.trans_le (min_le_left _ _)
    have h4 := h2.trans_le (min_le_right _ _)
    have hDh : 0 ≤ D * h := by positivity
    have val : ∀ t ∈ Ioo (-R) R, |t - T| = D * h → |ℓ (Ψ p t) - (t - T)| ≤ D * h := by
      intro t ht hab
      have a1 : |ℓ (Ψ p t - Ψ p₀ T - (L (p - p₀) + (t - T) • v))| ≤ ‖ℓ‖ * (C * (h + D * h) ^ 2) := by
        refine (ℓ.le_opNorm _).trans (mul_le_mul_of_nonneg_left ?_ (norm_nonneg _))
        have := hΨ p t ht
        rwa [hab, ← hh] at this
      have a2 : |ℓ (L (p - p₀))| ≤ ‖ℓ‖ * ‖L‖ * h := by
        refine (ℓ.le_opNorm _).trans ?_
        rw [mul_assoc, hh]
        exact mul_le_mul_of_nonneg_left (L.le_opNorm _) (norm_nonneg _)
      have e : ℓ (Ψ p t) - (t - T) = ℓ (Ψ p t - Ψ p₀ T - (L (p - p₀) + (t - T) • v)) + ℓ (L (p - p₀)) := by
        simp only [map_sub, map_add, map_smul, h0, hv, smul_eq_mul]
        ring
      rw [e]
      refine (abs_add_le _ _).trans ((add_le_add a1 a2).trans ?_)
      have : ‖ℓ‖ * (C * (h + D * h) ^ 2) = (‖ℓ‖ * C * (1 + D) ^ 2 * h) * h := by ring
      rw [this]
      have f1 := mul_le_mul_of_nonneg_right h1 hn
      have f2 : D * h = ‖ℓ‖ * ‖L‖ * h + h := by rw [hD]; ring
      linarith
    have hsub : Icc (T - D * h) (T + D * h) ⊆ Ioo (-R) R := fun z hz => ⟨by linarith [hz.1], by linarith [hz.2]⟩
    have hc : ContinuousOn (fun t => ℓ (Ψ p t)) (Icc (T - D * h) (T + D * h)) := ℓ.continuous.comp_continuousOn ((hcont p).mono hsub)
    have lo : ℓ (Ψ p (T - D * h)) ≤ 0 := by
      have := (abs_le.1 (val (T - D * h) (hsub ⟨le_rfl, by linarith⟩) (by rw [show T - D * h - T = -(D * h) by ring, abs_neg, abs_of_nonneg hDh]))).2
      linarith
    have hi : 0 ≤ ℓ (Ψ p (T + D * h)) := by
      have := (abs_le.1 (val (T + D * h) (hsub ⟨by linarith, le_rfl⟩) (by rw [show T + D * h - T = D * h by ring, abs_of_nonneg hDh]))).1
      linarith
    obtain ⟨t, ht, e⟩ := intermediate_value_Icc (by linarith) hc ⟨lo, hi⟩
    refine ⟨t, ?_, hsub ht, e⟩
    rw [← hh, abs_le]
    constructor <;> linarith [ht.1, ht.2]
  obtain ⟨θ, hθ⟩ : ∃ θ : P → ℝ, θ = fun p => if h : ∃ t, |t - T| ≤ D * ‖p - p₀‖ ∧ t ∈ Ioo (-R) R ∧ ℓ (Ψ p t) = 0 then h.choose else T := ⟨_, rfl⟩
  have hb : ∀ p, |θ p - T| ≤ D * ‖p - p₀‖ := by
    intro p
    rw [hθ]
    dsimp only
    split
    · next h => exact h.choose_spec.1
    · simp only [sub_self, abs_zero]; positivity
  refine ⟨θ, ?_, ?_, ?_⟩
  · have := hb p₀
    simp only [sub_self, norm_zero, mul_zero, abs_nonpos_iff] at this
    linarith
  · have h2 : θ p₀ = T := by
      have := hb p₀
      simp only [sub_self, norm_zero, mul_zero, abs_nonpos_iff] at this
      linarith
    rw [ContinuousAt, h2, tendsto_iff_dist_tendsto_zero]
    exact squeeze_zero (fun _ => dist_nonneg) (fun p => by rw [Real.dist_eq]; exact hb p) (smallD D)
  · filter_upwards [ev] with p hp
    rw [hθ]
    dsimp only
    rw [dif_pos hp]
    exact hp.choose_spec.2

/-- The point of crossing depends differentiably on the parameter, for every choice of a continuous time of crossing. -/
theorem crossing_deriv (hT : T ∈ Ioo (-R) R) (hC : 0 ≤ C)
    (hΨ : ∀ p, ∀ t ∈ Ioo (-R) R, ‖Ψ p t - Ψ p₀ T - (L (p - p₀) + (t - T) • v)‖ ≤ C * (‖p - p₀‖ + |t - T|) ^ 2)
    {ℓ : E →L[ℝ] ℝ} (h0 : ℓ (Ψ p₀ T) = 0) (hv : ℓ v = 1) {θ : P → ℝ} (hθ : ContinuousAt θ p₀) (hθT : θ p₀ = T) (hz : ∀ᶠ p in 𝓝 p₀, ℓ (Ψ p (θ p)) = 0) :
    HasFDerivAt (fun p => Ψ p (θ p)) (L - (ℓ.comp L).smulRight v) p₀ := by
  have small : Tendsto (fun p : P => ‖p - p₀‖) (𝓝 p₀) (𝓝 0) := by
    have : Tendsto (fun p : P => ‖p - p₀‖) (𝓝 p₀) (𝓝 ‖p₀ - p₀‖) := (by fun_prop : Continuous fun p : P => ‖p - p₀‖).tendsto p₀
    simpa using this
  have smallθ : Tendsto (fun p : P => |θ p - T|) (𝓝 p₀) (𝓝 0) := by
    have := (hθ.sub_const T).abs
    rw [hθT] at this
    simpa using this
  have hin : ∀ᶠ p in 𝓝 p₀, θ p ∈ Ioo (-R) R := hθ.eventually (by rw [hθT]; exact isOpen_Ioo.mem_nhds hT)
  have hs : ∀ᶠ p in 𝓝 p₀, ‖ℓ‖ * C * (‖p - p₀‖ + |θ p - T|) ≤ 1 / 2 := by
    have := (small.add smallθ).const_mul (‖ℓ‖ * C)
    simp only [add_zero, mul_zero] at this
    exact this.eventually_le_const (by norm_num)
  obtain ⟨D, hD⟩ : ∃ D, D = 2 * (‖ℓ‖ * ‖L‖) + 1 := ⟨_, rfl⟩
  have hD0 : 0 ≤ D := by rw [hD]; positivity
  refine hasFDerivAt_of_sq (C := C * (1 + D) ^ 2 + ‖ℓ‖ * (C * (1 + D) ^ 2) * ‖v‖) ?_
  filter_upwards [hin, hs, hz] with p h1 h2 h3
  rw [hθT]
  obtain ⟨h, hh⟩ : ∃ h, h = ‖p - p₀‖ := ⟨_, rfl⟩
  obtain ⟨q, hq⟩ : ∃ q, q = θ p - T := ⟨_, rfl⟩
  have hn : 0 ≤ h := hh ▸ norm_nonneg _
  have hq0 : 0 ≤ |q| := abs_nonneg _
  have a1 := hΨ p (θ p) h1
  rw [← hh, ← hq] at a1 h2
  have a2 : |ℓ (Ψ p (θ p) - Ψ p₀ T - (L (p - p₀) + q • v))| ≤ ‖ℓ‖ * (C * (h + |q|) ^ 2) :=
    (ℓ.le_opNorm _).trans (mul_le_mul_of_nonneg_left a1 (norm_nonneg _))
  have e : ℓ (Ψ p (θ p) - Ψ p₀ T - (L (p - p₀) + q • v)) = -(ℓ (L (p - p₀)) + q) := by
    simp only [map_sub, map_add, map_smul, h0, h3, hv, smul_eq_mul]
    ring
  rw [e, abs_neg] at a2
  have a3 : |ℓ (L (p - p₀))| ≤ ‖ℓ‖ * ‖L‖ * h := by
    refine (ℓ.le_opNorm _).trans ?_
    rw [mul_assoc, hh]
    exact mul_le_mul_of_nonneg_left (L.le_opNorm _) (norm_nonneg _)
  have a4 : |q| ≤ D * h := by
    have b1 : |q| ≤ |ℓ (L (p - p₀)) + q| + |ℓ (L (p - p₀))| := by
      have := abs_sub (ℓ (L (p - p₀)) + q) (ℓ (L (p - p₀)))
      rwa [add_sub_cancel_left] at this
    have b2 : ‖ℓ‖ * (C * (h + |q|) ^ 2) = (‖ℓ‖ * C * (h + |q|)) * (h + |q|) := by ring
    rw [b2] at a2
    have b3 := mul_le_mul_of_nonneg_right h2 (show 0 ≤ h + |q| by positivity)
    rw [hD]
    nlinarith
  have a5 : C * (h + |q|) ^ 2 ≤ C * (1 + D) ^ 2 * h ^ 2 := by
    rw [mul_assoc, ← mul_pow]
    refine mul_le_mul_of_nonneg_left (pow_le_pow_left₀ (by positivity) ?_ 2) hC
    linarith
  have e2 : Ψ p (θ p) - Ψ p₀ T - (L - (ℓ.comp L).smulRight v) (p - p₀) = (Ψ p (θ p) - Ψ p₀ T - (L (p - p₀) + q • v)) + (ℓ (L (p - p₀)) + q) • v := by
    simp only [_root_.sub_apply, ContinuousLinearMap.smulRight_apply, ContinuousLinearMap.comp_apply, add_smul]
    abel
  rw [e2]
  refine (norm_add_le _ _).trans ?_
  rw [norm_smul, Real.norm_eq_abs]
  have c1 := a1.trans a5
  have c2 := mul_le_mul_of_nonneg_right (a2.trans (mul_le_mul_of_nonneg_left a5 (norm_nonneg ℓ))) (norm_nonneg v)
  calc _ ≤ C * (1 + D) ^ 2 * h ^ 2 + ‖ℓ‖ * (C * (1 + D) ^ 2 * h ^ 2) * ‖v‖ := add_le_add c1 c2
    _ = _ := by rw [← hh]; ring

end Crossing

/-- Near a solution on a closed interval there are the solutions from the nearby starts, and they differ from it, up to the second order, by the solution of the
linearised equation. -/
theorem local_flow {U : Set E} (hU : IsOpen U) {f : E → E} (hf : ContDiffOn ℝ 2 f U) {x : ℝ → E} {T : ℝ} (hT : 0 < T)
    (hx : ∀ t ∈ Icc 0 T, HasDerivWithinAt x (f (x t)) (Icc 0 T) t) (hxU : ∀ t ∈ Icc 0 T, x t ∈ U) {A : ℝ → E →L[ℝ] E} (hA0 : A 0 = ContinuousLinearMap.id ℝ E)
    (hA : ∀ t ∈ Icc 0 T, HasDerivWithinAt A ((fderiv ℝ f (x t)).comp (A t)) (Icc 0 T) t) :
    ∃ (R C : ℝ) (ψ : E → ℝ → E), T < R ∧ 0 ≤ C ∧ (∀ s, ψ s 0 = s) ∧ (∀ s, ContinuousOn (ψ s) (Ioo (-R) R)) ∧ (∀ t ∈ Icc 0 T, ψ (x 0) t = x t) ∧
      (∃ ε > 0, ∀ᶠ s in 𝓝 (x 0), ∀ t ∈ Icc 0 (T + ε), ψ s t ∈ U ∧ HasDerivAt (ψ s) (f (ψ s t)) t) ∧
      ∀ s, ∀ t ∈ Ioo (-R) R, ‖ψ s t - ψ (x 0) T - (A T (s - x 0) + (t - T) • f (x T))‖ ≤ C * (‖s - x 0‖ + |t - T|) ^ 2 := by
  have hxc : ContinuousOn x (Icc 0 T) := fun t ht => (hx t ht).continuousWithinAt
  have hK : IsCompact (x '' Icc 0 T) := isCompact_Icc.image_of_continuousOn hxc
  obtain ⟨g, V, hg, hgc, hV, hKV, hVU, hgf⟩ := cutoff hU hf hK (by rintro _ ⟨t, ht, rfl⟩; exact hxU t ht)
  have hxV : ∀ t ∈ Icc 0 T, x t ∈ V := fun t ht => hKV ⟨t, ht, rfl⟩
  obtain ⟨Kc, hLip⟩ := ContDiff.lipschitzWith_of_hasCompactSupport hgc hg (by norm_num)
  obtain ⟨ψ, hψ⟩ := global_flow hg hgc (show (0 : ℝ) < T + 1 by linarith)
  have hm : ∀ t ∈ Icc 0 T, t ∈ Ioo (-(T + 1)) (T + 1) := fun t ht => ⟨by linarith [ht.1], by linarith [ht.2]⟩
  have heq : ∀ t ∈ Icc 0 T, ψ (x 0) t = x t := by
    refine ODE_solution_unique (v := fun _ => g) (K := Kc) (fun _ => hLip) (fun t ht => ((hψ _).2 t (hm t ht)).continuousAt.continuousWithinAt)
      (fun t ht => ((hψ _).2 t (hm t ⟨ht.1, ht.2.le⟩)).hasDerivWithinAt) hxc (fun t ht => ?_) (hψ _).1
    have ht' : t ∈ Icc 0 T := ⟨ht.1, ht.2.le⟩
    rw [hgf _ (hxV t ht')]
    refine (hx t ht').mono_of_mem_nhdsWithin ?_
    filter_upwards [Icc_mem_nhdsGE ht.2] with y hy using ⟨ht.1.trans hy.1, hy.2⟩
  have hfd : ∀ t ∈ Icc 0 T, fderiv ℝ g (ψ (x 0) t) = fderiv ℝ f (x t) := by
    intro t ht
    rw [heq t ht]
    refine Filter.EventuallyEq.fderiv_eq ?_
    filter_upwards [hV.mem_nhds (hxV t ht)] with y hy using hgf y hy
  obtain ⟨C, hC, hbound⟩ := flow_deriv_joint hg hgc hψ hT.le (by linarith) hA0 (fun t ht => by rw [hfd t ht]; exact hA t ht)
  refine ⟨T + 1, C, ψ, by linarith, hC, fun s => (hψ s).1, fun s t ht => ((hψ s).2 t ht).continuousAt.continuousWithinAt, heq, ?_, fun s t ht => ?_⟩
  · obtain ⟨δ, hδ, hthick⟩ := hK.exists_thickening_subset_open hV hKV
    have mT : T ∈ Icc 0 T := ⟨hT.le, le_rfl⟩
    have hcT : ContinuousAt (ψ (x 0)) T := ((hψ (x 0)).2 T (hm T mT)).continuousAt
    obtain ⟨η, hη, hη2⟩ := Metric.continuousAt_iff.1 hcT (δ / 2) (by linarith)
    obtain ⟨ε, hε⟩ : ∃ ε, ε = min (η / 2) (1 / 2) := ⟨_, rfl⟩
    have hε0 : 0 < ε := by rw [hε]; positivity
    have hε1 : ε ≤ η / 2 := hε ▸ min_le_left _ _
    have hε2 : ε ≤ 1 / 2 := hε ▸ min_le_right _ _
    refine ⟨ε, hε0, ?_⟩
    have hs : ∀ᶠ s in 𝓝 (x 0), ‖s - x 0‖ * Real.exp (Kc * (T + ε)) < δ / 2 := by
      have : Tendsto (fun s : E => ‖s - x 0‖ * Real.exp (Kc * (T + ε))) (𝓝 (x 0)) (𝓝 (‖x 0 - x 0‖ * Real.exp (Kc * (T + ε)))) :=
        (by fun_prop : Continuous fun s : E => ‖s - x 0‖ * Real.exp (Kc * (T + ε))).tendsto _
      rw [sub_self, norm_zero, zero_mul] at this
      exact this.eventually_lt_const (by linarith)
    filter_upwards [hs] with s hs t ht
    have hin : ψ s t ∈ V := by
      refine hthick ?_
      rw [Metric.mem_thickening_iff]
      have l1 : dist (ψ s t) (ψ (x 0) t) < δ / 2 := by
        rw [dist_eq_norm]
        exact (flow_lip hLip hψ (show T + ε < T + 1 by linarith) s (x 0) ht).trans_lt hs
      rcases le_total t T with h | h
      · refine ⟨x t, ⟨t, ⟨ht.1, h⟩, rfl⟩, ?_⟩
        rw [heq t ⟨ht.1, h⟩] at l1
        linarith
      · refine ⟨x T, ⟨T, mT, rfl⟩, ?_⟩
        have l2 := hη2 (x := t) (by rw [Real.dist_eq, abs_of_nonneg (by linarith)]; linarith [ht.2])
        rw [heq T mT] at l2
        linarith [dist_triangle (ψ s t) (ψ (x 0) t) (x T)]
    refine ⟨hVU hin, ?_⟩
    rw [← hgf _ hin]
    exact (hψ s).2 t ⟨by linarith [ht.1], by linarith [ht.2]⟩
  · rw [← hgf _ (hxV T ⟨hT.le, le_rfl⟩), ← heq T ⟨hT.le, le_rfl⟩]
    exact hbound s t ht

end Verif.Lemmas
