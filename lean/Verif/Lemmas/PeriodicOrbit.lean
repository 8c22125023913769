import Mathlib.Analysis.Calculus.Deriv.Inverse
import Mathlib.Analysis.Calculus.Deriv.MeanValue
import Mathlib.Analysis.Calculus.Deriv.Shift
import Mathlib.Algebra.Order.ToIntervalMod
import Mathlib.MeasureTheory.Integral.IntervalIntegral.FundThmCalculus
import Mathlib.MeasureTheory.Integral.IntervalIntegral.Periodic
import Mathlib.Topology.Order.MonotoneContinuity

/-! # A curve that closes up is a periodic solution, after a change of the time -/

namespace Verif.Lemmas

open Set Function Filter Topology

variable {E : Type*} [NormedAddCommGroup E] [NormedSpace ℝ E]

/-- A solution of an autonomous equation on `[-1, 1]` with the same value at both ends extends to a periodic solution. -/
theorem periodic_extension {w : ℝ → E} {G : E → E} (h : ∀ z ∈ Icc (-1 : ℝ) 1, HasDerivAt w (G (w z)) z) (he : w (-1) = w 1) :
    ∃ W : ℝ → E, Periodic W 2 ∧ (∀ z ∈ Icc (-1 : ℝ) 1, W z = w z) ∧ ∀ z, HasDerivAt W (G (W z)) z := by
  have h2 : (0 : ℝ) < 2 := by norm_num
  obtain ⟨W, hW⟩ : ∃ W : ℝ → E, W = fun z => w (toIcoMod h2 (-1) z) := ⟨_, rfl⟩
  have hper : Periodic W 2 := by
    intro z
    rw [hW]
    simp only [toIcoMod_add_right]
  have hIco : ∀ z ∈ Ico (-1 : ℝ) 1, W z = w z := by
    intro z hz
    rw [hW]
    have : toIcoMod h2 (-1) z = z := (toIcoMod_eq_self h2).2 ⟨hz.1, by linarith [hz.2]⟩
    simp only [this]
  have hone : W 1 = w 1 := by
    have := hper (-1)
    rw [hIco (-1) ⟨le_rfl, by norm_num⟩, he] at this
    rw [← this]
    norm_num
  have hIcc : ∀ z ∈ Icc (-1 : ℝ) 1, W z = w z := by
    intro z hz
    rcases eq_or_lt_of_le hz.2 with h1 | h1
    · rw [h1]; exact hone
    · exact hIco z ⟨hz.1, h1⟩
  have hdIco : ∀ z ∈ Ico (-1 : ℝ) 1, HasDerivAt W (G (W z)) z := by
    intro z hz
    rcases eq_or_lt_of_le hz.1 with h1 | h1
    · subst h1
      rw [hIco _ hz]
      have hr : HasDerivWithinAt W (G (w (-1))) (Ici (-1)) (-1) := by
        refine ((h (-1) ⟨le_rfl, by norm_num⟩).hasDerivWithinAt).congr_of_eventuallyEq ?_ (hIco _ hz)
        filter_upwards [Ico_mem_nhdsGE (show (-1 : ℝ) < 1 by norm_num)] with y hy using hIco y hy
      have hl : HasDerivWithinAt W (G (w (-1))) (Iic (-1)) (-1) := by
        have hs : HasDerivAt (fun z => w (z + 2)) (G (w (-1))) (-1) := by
          have h1 := h 1 ⟨by norm_num, le_rfl⟩
          rw [← he] at h1
          refine HasDerivAt.comp_add_const (-1) 2 ?_
          rw [show (-1 : ℝ) + 2 = 1 by norm_num]
          exact h1
        refine hs.hasDerivWithinAt.congr_of_eventuallyEq ?_ ?_
        · filter_upwards [Ioc_mem_nhdsLE (show (-3 : ℝ) < -1 by norm_num)] with y hy
          rw [← hper y]
          exact hIcc _ ⟨by linarith [hy.1], by linarith [hy.2]⟩
        · rw [hIco _ hz]
          norm_num
          exact he
      have := hl.union hr
      rw [Iic_union_Ici] at this
      exact this.hasDerivAt univ_mem
    · rw [hIco z hz]
      refine (h z ⟨hz.1, hz.2.le⟩).congr_of_eventuallyEq ?_
      filter_upwards [Ioo_mem_nhds h1 hz.2] with y hy using hIco y ⟨hy.1.le, hy.2⟩
  refine ⟨W, hper, hIcc, fun z => ?_⟩
  have hm := toIcoMod_mem_Ico h2 (-1) z
  have hz : z - toIcoDiv h2 (-1) z • (2 : ℝ) = toIcoMod h2 (-1) z := rfl
  have hz1 : toIcoMod h2 (-1) z ∈ Ico (-1 : ℝ) 1 := ⟨hm.1, by have := hm.2; linarith⟩
  have hd := hdIco _ hz1
  rw [← hz] at hd
  have hs := hd.comp_sub_const z (toIcoDiv h2 (-1) z • (2 : ℝ))
  have e : ∀ y, W (y - toIcoDiv h2 (-1) z • (2 : ℝ)) = W y := fun y => hper.sub_zsmul_eq _
  simp only [e] at hs
  exact hs

/-- A curve with `w' = ρ(w) F(w)`, `ρ(w) > 0` on `[-1, 1]` and the same value at both ends is, in the time `∫ ρ(w)`, a periodic solution of `X' = F(X)`. -/
theorem periodic_orbit {w : ℝ → E} {F : E → E} {ρ : E → ℝ} (h : ∀ z ∈ Icc (-1 : ℝ) 1, HasDerivAt w (ρ (w z) • F (w z)) z) (he : w (-1) = w 1)
    (hpos : ∀ z ∈ Icc (-1 : ℝ) 1, 0 < ρ (w z)) (hc : ∀ z ∈ Icc (-1 : ℝ) 1, ContinuousAt ρ (w z)) :
    0 < ∫ z in (-1 : ℝ)..1, ρ (w z) ∧ ∃ X : ℝ → E, Periodic X (∫ z in (-1 : ℝ)..1, ρ (w z)) ∧ (∀ t, HasDerivAt X (F (X t)) t) ∧
      (∀ z ∈ Icc (-1 : ℝ) 1, X (∫ y in (-1 : ℝ)..z, ρ (w y)) = w z) ∧ ∀ t, ∃ z ∈ Icc (-1 : ℝ) 1, X t = w z := by
  obtain ⟨W, hper, hIcc, hW⟩ := periodic_extension (G := fun p => ρ p • F p) h he
  have hrange : ∀ z, ∃ y ∈ Icc (-1 : ℝ) 1, W z = w y := by
    intro z
    have hm := toIcoMod_mem_Ico (show (0 : ℝ) < 2 by norm_num) (-1) z
    refine ⟨toIcoMod (show (0 : ℝ) < 2 by norm_num) (-1) z, ⟨hm.1, by have := hm.2; linarith⟩, ?_⟩
    rw [← hIcc _ ⟨hm.1, by have := hm.2; linarith⟩]
    exact (hper.sub_zsmul_eq (toIcoDiv (show (0 : ℝ) < 2 by norm_num) (-1) z)).symm
  have hWc : Continuous W := continuous_iff_continuousAt.2 fun z => (hW z).continuousAt
  have hρc : Continuous fun z => ρ (W z) := by
    refine continuous_iff_continuousAt.2 fun z => ?_
    obtain ⟨y, hy, e⟩ := hrange z
    exact ContinuousAt.comp (f := W) (by rw [e]; exact hc y hy) hWc.continuousAt
  have hρpos : ∀ z, 0 < ρ (W z) := by
    intro z
    obtain ⟨y, hy, e⟩ := hrange z
    rw [e]
    exact hpos y hy
  have hρper : Periodic (fun z => ρ (W z)) 2 := fun z => by
    show ρ (W (z + 2)) = ρ (W z)
    rw [hper z]
  obtain ⟨T, hT⟩ : ∃ T : ℝ → ℝ, T = fun z => ∫ y in (-1 : ℝ)..z, ρ (W y) := ⟨_, rfl⟩
  have hTd : ∀ z, HasDerivAt T (ρ (W z)) z := by
    intro z
    rw [hT]
    exact (hρc.integral_hasStrictDerivAt (-1) z).hasDerivAt
  have hTc : Continuous T := continuous_iff_continuousAt.2 fun z => (hTd z).continuousAt
  have hTm : StrictMono T := strictMono_of_deriv_pos fun z => by rw [(hTd z).deriv]; exact hρpos z
  have hT0 : T (-1) = 0 := by rw [hT]; simp
  have hagree : ∀ z ∈ Icc (-1 : ℝ) 1, T z = ∫ y in (-1 : ℝ)..z, ρ (w y) := by
    intro z hz
    rw [hT]
    refine intervalIntegral.integral_congr fun y hy => ?_
    rw [uIcc_of_le hz.1] at hy
    show ρ (W y) = _
    rw [hIcc y ⟨hy.1, hy.2.trans hz.2⟩]
  have hP : T 1 = ∫ z in (-1 : ℝ)..1, ρ (w z) := hagree 1 ⟨by norm_num, le_rfl⟩
  have hPpos : 0 < T 1 := by rw [← hT0]; exact hTm (by norm_num)
  have hstep : ∀ z, T (z + 2) = T z + T 1 := by
    intro z
    have h1 : T (z + 2) = T z + ∫ y in z..(z + 2), ρ (W y) := by
      rw [hT]
      exact (intervalIntegral.integral_add_adjacent_intervals (hρc.intervalIntegrable _ _) (hρc.intervalIntegrable _ _)).symm
    rw [h1, hρper.intervalIntegral_add_eq z (-1), hT]
    norm_num
  have hsurj : Surjective T := by
    refine hTc.surjective ?_ ?_
    · refine tendsto_atTop_atTop.2 fun b => ?_
      obtain ⟨n, hn⟩ := exists_nat_ge (b / T 1)
      have hk : ∀ n : ℕ, T (-1 + n * 2) = n * T 1 := by
        intro n
        induction n with
        | zero => simp [hT0]
        | succ n ih =>
          have : (-1 : ℝ) + (n + 1 : ℕ) * 2 = (-1 + n * 2) + 2 := by push_cast; ring
          rw [this, hstep, ih]
          push_cast
          ring
      refine ⟨-1 + n * 2, fun a ha => ?_⟩
      calc b ≤ n * T 1 := (div_le_iff₀ hPpos).1 hn
        _ = T (-1 + n * 2) := (hk n).symm
        _ ≤ T a := hTm.monotone ha
    · refine tendsto_atBot_atBot.2 fun b => ?_
      obtain ⟨n, hn⟩ := exists_nat_ge (-b / T 1)
      have hk : ∀ n : ℕ, T (-1 - n * 2) = -(n * T 1) := by
        intro n
        induction n with
        | zero => simp [hT0]
        | succ n ih =>
          have h1 := hstep (-1 - (n + 1 : ℕ) * 2)
          have : (-1 : ℝ) - (n + 1 : ℕ) * 2 + 2 = -1 - n * 2 := by push_cast; ring
          rw [this, ih] at h1
          push_cast at h1 ⊢
          linarith
      refine ⟨-1 - n * 2, fun a ha => ?_⟩
      calc T a ≤ T (-1 - n * 2) := hTm.monotone ha
        _ = -(n * T 1) := hk n
        _ ≤ b := by have := (div_le_iff₀ hPpos).1 hn; linarith
  let Z := (hTm.orderIsoOfSurjective T hsurj).symm
  have hTZ : ∀ t, T (Z t) = t := fun t => (hTm.orderIsoOfSurjective T hsurj).apply_symm_apply t
  have hZT : ∀ z, Z (T z) = z := fun z => (hTm.orderIsoOfSurjective T hsurj).symm_apply_apply z
  have hZc : Continuous Z := Z.continuous
  have hZd : ∀ t, HasDerivAt Z (ρ (W (Z t)))⁻¹ t := fun t =>
    HasDerivAt.of_local_left_inverse (f := T) hZc.continuousAt (hTd (Z t)) (hρpos _).ne' (Eventually.of_forall hTZ)
  rw [← hP]
  refine ⟨hPpos, fun t => W (Z t), ?_, ?_, ?_, ?_⟩
  · intro t
    have : Z (t + T 1) = Z t + 2 := by
      rw [← hTZ t, ← hstep, hZT, hTZ]
    show W (Z (t + T 1)) = W (Z t)
    rw [this, hper]
  · intro t
    have := (hW (Z t)).scomp t (hZd t)
    rw [smul_smul, inv_mul_cancel₀ (hρpos _).ne', one_smul] at this
    exact this
  · intro z hz
    show W (Z _) = _
    rw [← hagree z hz, hZT, hIcc z hz]
  · intro t
    exact hrange (Z t)

end Verif.Lemmas
