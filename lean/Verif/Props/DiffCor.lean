import Verif.Lemmas.Planar
import Verif.Model.DiffCor
import Verif.Props.Orbits

/-! # C109: the differential corrector -/

namespace Verif.Props

open Set Filter Topology Verif.Spec Verif.Model.Py Verif.Lemmas
open scoped ContDiff

/-- The first four entries: position and velocity in the plane. -/
def first4 (y : ℕ → ℝ) : Fin 4 → ℝ := fun i => y i

/-- `Y` satisfies the equations `PCR3BP` exactly, on `[0, τe]`. -/
def ExactPcr (τe : ℝ) (Y : ℝ → ℕ → ℝ) : Prop := ∀ k < 21, ∀ τ ∈ Icc 0 τe, HasDerivWithinAt (fun τ => Y τ k) (pcr3bp (Y τ) k) (Icc 0 τe) τ

theorem pcr_dist1 (y : ℕ → ℝ) : Real.sqrt ((y 0 + earthMoon) ^ 2 + y 1 ^ 2) = dist1 earthMoon ![first4 y 0, first4 y 1, 0] := by
  unfold dist1 first4
  congr 1
  simp

theorem pcr_dist2 (μ : ℝ) (y : ℕ → ℝ) : Real.sqrt ((y 0 - 1 + μ) ^ 2 + y 1 ^ 2) = dist2 μ ![first4 y 0, first4 y 1, 0] := by
  unfold dist2 first4
  congr 1
  simp
  ring

theorem pcr_field (y : ℕ → ℝ) (i : Fin 4) :
    pcr3bp y i = dist2 earthMoon ![first4 y 0, first4 y 1, 0] * planarField earthMoon (first4 y) i := by
  unfold pcr3bp
  simp only [pcr_dist1, pcr_dist2]
  generalize h1 : dist1 earthMoon ![first4 y 0, first4 y 1, 0] = r1
  generalize h2 : dist2 earthMoon ![first4 y 0, first4 y 1, 0] = r2
  fin_cases i
  · simp [planarField, first4]
  · simp [planarField, first4]
  · simp only [planarField, acceleration, h1, h2]
    simp [first4]
    left
    ring
  · simp only [planarField, acceleration, h1, h2]
    simp [first4]
    left
    ring

theorem pcr_jac (y : ℕ → ℝ) (i j : Fin 4) :
    pcr3bp y (4 + 4 * i + j) = dist2 earthMoon ![first4 y 0, first4 y 1, 0] * ∑ l : Fin 4, planarJac earthMoon (first4 y) i l * y (4 + 4 * l + j) := by
  have a1 : ¬ 4 + 4 * (i : ℕ) + j = 0 := by omega
  have a2 : ¬ 4 + 4 * (i : ℕ) + j = 1 := by omega
  have a3 : ¬ 4 + 4 * (i : ℕ) + j = 2 := by omega
  have a4 : ¬ 4 + 4 * (i : ℕ) + j = 3 := by omega
  have a5 : 4 + 4 * (i : ℕ) + j < 20 := by omega
  have b1 : (4 + 4 * (i : ℕ) + j - 4) / 4 = i := by omega
  have b2 : (4 + 4 * (i : ℕ) + j - 4) % 4 = j := by omega
  have b3 : Fin.ofNat 4 (i : ℕ) = i := by apply Fin.ext; simp [Fin.ofNat]
  unfold pcr3bp
  simp only [a1, a2, a3, a4, a5, if_false, if_true, b1, b2, b3, pcr_dist1, pcr_dist2]
  generalize h1 : dist1 earthMoon ![first4 y 0, first4 y 1, 0] = r1
  generalize h2 : dist2 earthMoon ![first4 y 0, first4 y 1, 0] = r2
  congr 1
  refine Finset.sum_congr rfl fun l _ => ?_
  congr 1
  simp only [planarJac, h1, h2]
  have f0 : first4 y 0 = y 0 := rfl
  have f1 : first4 y 1 = y 1 := rfl
  have e : y 0 - (1 - earthMoon) = y 0 - 1 + earthMoon := by ring
  rw [f0, f1, e]

theorem pcr_time (y : ℕ → ℝ) : pcr3bp y 20 = dist2 earthMoon ![first4 y 0, first4 y 1, 0] := by
  unfold pcr3bp
  simp only [pcr_dist1, pcr_dist2]
  norm_num

theorem dist2_pos {μ : ℝ} {s : Fin 4 → ℝ} (h : Apart μ s) : 0 < dist2 μ ![s 0, s 1, 0] := lt_of_le_of_ne (Real.sqrt_nonneg _) (Ne.symm h.2)

/-- **C109, the equations.** Whatever satisfies `PCR3BP` exactly is, in the time that its last entry counts, a motion of the third body with its linearised equations. -/
theorem C109_time {Y : ℝ → ℕ → ℝ} {τe : ℝ} (hτ : 0 < τe) (hY : ExactPcr τe Y) (hap : ∀ τ ∈ Icc 0 τe, Apart earthMoon (first4 (Y τ))) (h20 : Y 0 20 = 0) :
    0 < Y τe 20 ∧ ∃ (X : ℝ → Fin 4 → ℝ) (Φ : ℝ → Fin 4 → Fin 4 → ℝ), PlanarMotion earthMoon 0 (Y τe 20) X ∧
      (∀ t ∈ Icc 0 (Y τe 20), ∀ j, HasDerivWithinAt (fun t i => Φ t i j) (fderiv ℝ (planarField earthMoon) (X t) fun i => Φ t i j) (Icc 0 (Y τe 20)) t) ∧
      ∀ τ ∈ Icc 0 τe, Y τ 20 ∈ Icc 0 (Y τe 20) ∧ X (Y τ 20) = first4 (Y τ) ∧ ∀ i j : Fin 4, Φ (Y τ 20) i j = Y τ (4 + 4 * i + j) := by
  have hw : ∀ τ ∈ Icc 0 τe, HasDerivWithinAt (fun τ => ((first4 (Y τ), fun i j : Fin 4 => Y τ (4 + 4 * i + j)) : (Fin 4 → ℝ) × (Fin 4 → Fin 4 → ℝ)))
      (dist2 earthMoon ![first4 (Y τ) 0, first4 (Y τ) 1, 0] •
        (planarField earthMoon (first4 (Y τ)), fun (i j : Fin 4) => ∑ l : Fin 4, planarJac earthMoon (first4 (Y τ)) i l * Y τ (4 + 4 * l + j))) (Icc 0 τe) τ := by
    intro τ hτ
    rw [Prod.smul_mk]
    refine HasDerivWithinAt.prodMk (hasDerivWithinAt_pi.2 fun i => ?_) (hasDerivWithinAt_pi.2 fun i => hasDerivWithinAt_pi.2 fun j => ?_)
    · have := hY i (by omega) τ hτ
      rw [pcr_field] at this
      exact this
    · have := hY (4 + 4 * i + j) (by omega) τ hτ
      rw [pcr_jac] at this
      exact this
  have hT : ∀ τ ∈ Icc 0 τe, HasDerivWithinAt (fun τ => Y τ 20) (dist2 earthMoon ![first4 (Y τ) 0, first4 (Y τ) 1, 0]) (Icc 0 τe) τ := by
    intro τ hτ
    have := hY 20 (by norm_num) τ hτ
    rwa [pcr_time] at this
  obtain ⟨hP, σ, h1, h2, h3⟩ := time_change hτ hw hT (fun τ hτ => dist2_pos (hap τ hτ)) h20
  refine ⟨hP, fun t => first4 (Y (σ t)), fun t i j => Y (σ t) (4 + 4 * i + j), fun t ht => ⟨hap _ (h1 t ht).1, (h3 t ht).fst⟩, fun t ht j => ?_, fun τ hτ => ⟨(h2 τ hτ).1, ?_, fun i j => ?_⟩⟩
  · rw [planar_fderiv (hap _ (h1 t ht).1)]
    exact hasDerivWithinAt_pi.2 fun i => hasDerivWithinAt_pi.1 (hasDerivWithinAt_pi.1 (h3 t ht).snd i) j
  · beta_reduce
    rw [(h2 τ hτ).2]
  · beta_reduce
    rw [(h2 τ hτ).2]

/-! ## Symmetric orbits -/

variable {μ : ℝ}

theorem mirrored_apart {s : Fin 4 → ℝ} (h : Apart μ s) : Apart μ (mirrored s) := by
  obtain ⟨h1, h2⟩ := h
  unfold dist1 at h1
  unfold dist2 at h2
  unfold Apart dist1 dist2 mirrored
  simpa using And.intro h1 h2

theorem mirrored_field (s : Fin 4 → ℝ) : planarField μ (mirrored s) = -mirrored (planarField μ s) := by
  have h1 : dist1 μ ![mirrored s 0, mirrored s 1, 0] = dist1 μ ![s 0, s 1, 0] := by simp [dist1, mirrored]
  have h2 : dist2 μ ![mirrored s 0, mirrored s 1, 0] = dist2 μ ![s 0, s 1, 0] := by simp [dist2, mirrored]
  unfold planarField acceleration
  rw [h1, h2]
  generalize dist1 μ ![s 0, s 1, 0] = r1
  generalize dist2 μ ![s 0, s 1, 0] = r2
  funext i
  fin_cases i
  · simp [mirrored]
  · simp [mirrored]
  · simp [mirrored]
  · simp [mirrored]; ring

theorem mirrored_deriv {X : ℝ → Fin 4 → ℝ} {d : Fin 4 → ℝ} {S : Set ℝ} {t : ℝ} (h : HasDerivWithinAt X d S t) : HasDerivWithinAt (fun t => mirrored (X t)) (mirrored d) S t := by
  have hc := hasDerivWithinAt_pi.1 h
  refine hasDerivWithinAt_pi.2 fun i => ?_
  fin_cases i
  · exact hc 0
  · exact (hc 1).neg
  · exact (hc 2).neg
  · exact hc 3

/-- The mirror image of a motion, with the time reversed, is a motion. -/
theorem mirrored_motion {X : ℝ → Fin 4 → ℝ} {P : ℝ} (h : PlanarMotion μ 0 P X) : PlanarMotion μ P (2 * P) fun t => mirrored (X (2 * P - t)) := by
  intro t ht
  have ht' : 2 * P - t ∈ Icc 0 P := ⟨by linarith [ht.2], by linarith [ht.1]⟩
  obtain ⟨h1, h2⟩ := h _ ht'
  refine ⟨mirrored_apart h1, ?_⟩
  rw [mirrored_field]
  have hin : HasDerivWithinAt (fun t => 2 * P - t) (-1) (Icc P (2 * P)) t := ((hasDerivAt_id t).const_sub (2 * P)).hasDerivWithinAt
  have := (mirrored_deriv h2).scomp t hin (fun r hr => ⟨by linarith [hr.2], by linarith [hr.1]⟩)
  rw [neg_one_smul] at this
  exact this

theorem planar_threeBody {Z : ℝ → Fin 4 → ℝ} (h : ∀ t, HasDerivAt Z (planarField μ (Z t)) t) (ha : ∀ t, Apart μ (Z t)) :
    ThreeBody μ (fun i t => (![Z t 0, Z t 1, 0] : Fin 3 → ℝ) i) ∧ ∀ i t, deriv (fun t => (![Z t 0, Z t 1, 0] : Fin 3 → ℝ) i) t = (![Z t 2, Z t 3, 0] : Fin 3 → ℝ) i := by
  have hc := fun t => hasDerivAt_pi.1 (h t)
  have hv : ∀ (i : Fin 3) t, HasDerivAt (fun t => (![Z t 0, Z t 1, 0] : Fin 3 → ℝ) i) ((![Z t 2, Z t 3, 0] : Fin 3 → ℝ) i) t := by
    intro i t
    fin_cases i
    · exact hc t 0
    · exact hc t 1
    · exact hasDerivAt_const _ _
  have hd : ∀ i : Fin 3, deriv (fun t => (![Z t 0, Z t 1, 0] : Fin 3 → ℝ) i) = fun t => (![Z t 2, Z t 3, 0] : Fin 3 → ℝ) i := fun i => funext fun t => (hv i t).deriv
  refine ⟨⟨fun t => (ha t).1, fun t => (ha t).2, fun i t => ?_, fun i t => ?_⟩, fun i t => by rw [hd]⟩
  · rw [hd]
    exact hv i t
  · simp only [hd]
    fin_cases i
    · exact hc t 2
    · exact hc t 3
    · refine (hasDerivAt_const t (0 : ℝ)).congr_deriv ?_
      simp [acceleration]

/-- **C109, symmetric orbits.** A motion in the plane that leaves the line through the two bodies at a right angle, and meets it again at a right angle after the time `P`,
is part of a periodic motion with the period `2 P`. -/
theorem C109_symmetric {X : ℝ → Fin 4 → ℝ} {P : ℝ} (hP : 0 < P) (h : PlanarMotion μ 0 P X) (h01 : X 0 1 = 0) (h02 : X 0 2 = 0) (hP1 : X P 1 = 0) (hP2 : X P 2 = 0) :
    ∃ Z, ThreeBody μ Z ∧ PeriodicMotion (2 * P) Z ∧ ∀ t ∈ Icc 0 P, (∀ i, Z i t = (![X t 0, X t 1, 0] : Fin 3 → ℝ) i) ∧ ∀ i, deriv (Z i) t = (![X t 2, X t 3, 0] : Fin 3 → ℝ) i := by
  have hm0 : mirrored (X 0) = X 0 := by funext i; fin_cases i <;> simp [mirrored, h01, h02]
  have hmP : mirrored (X P) = X P := by funext i; fin_cases i <;> simp [mirrored, hP1, hP2]
  have hM := mirrored_motion h
  obtain ⟨w, hw⟩ : ∃ w : ℝ → Fin 4 → ℝ, w = fun z => if z ≤ 0 then X (P * (z + 1)) else mirrored (X (2 * P - P * (z + 1))) := ⟨_, rfl⟩
  have wl : ∀ z ∈ Icc (-1 : ℝ) 0, w z = X (P * (z + 1)) := fun z hz => by rw [hw]; simp [hz.2]
  have wr : ∀ z ∈ Icc (0 : ℝ) 1, w z = mirrored (X (2 * P - P * (z + 1))) := fun z hz => by
    rcases eq_or_lt_of_le hz.1 with h | h
    · rw [← h, wl 0 ⟨by norm_num, le_rfl⟩]
      simp only [zero_add, mul_one]
      rw [show 2 * P - P = P by ring, hmP]
    · rw [hw]; simp [not_le.2 h]
  have inner : ∀ z, HasDerivAt (fun z : ℝ => P * (z + 1)) P z := fun z => by
    have := ((hasDerivAt_id z).add_const (1 : ℝ)).const_mul P
    simpa using this
  have dl : ∀ z ∈ Icc (-1 : ℝ) 0, Apart μ (w z) ∧ HasDerivWithinAt w (P • planarField μ (w z)) (Icc (-1) 0) z := fun z hz => by
    have hmap : MapsTo (fun z : ℝ => P * (z + 1)) (Icc (-1) 0) (Icc 0 P) := fun y hy => ⟨by have := hy.1; have : 0 ≤ y + 1 := by linarith
                                                                                            positivity, by nlinarith [hy.2]⟩
    obtain ⟨a, b⟩ := h _ (hmap hz)
    rw [wl z hz]
    exact ⟨a, (b.scomp z (inner z).hasDerivWithinAt hmap).congr wl (wl z hz)⟩
  have dr : ∀ z ∈ Icc (0 : ℝ) 1, Apart μ (w z) ∧ HasDerivWithinAt w (P • planarField μ (w z)) (Icc 0 1) z := fun z hz => by
    have hmap : MapsTo (fun z : ℝ => P * (z + 1)) (Icc 0 1) (Icc P (2 * P)) := fun y hy => ⟨by nlinarith [hy.1], by nlinarith [hy.2]⟩
    obtain ⟨a, b⟩ := hM _ (hmap hz)
    rw [wr z hz]
    exact ⟨a, (HasDerivWithinAt.scomp (g₁ := fun t => mirrored (X (2 * P - t))) z b (inner z).hasDerivWithinAt hmap).congr wr (wr z hz)⟩
  have dw : ∀ z ∈ Icc (-1 : ℝ) 1, Apart μ (w z) ∧ HasDerivWithinAt w (P • planarField μ (w z)) (Icc (-1) 1) z := fun z hz => by
    rcases lt_trichotomy z 0 with hz0 | hz0 | hz0
    · obtain ⟨a, b⟩ := dl z ⟨hz.1, hz0.le⟩
      refine ⟨a, b.mono_of_mem_nhdsWithin ?_⟩
      filter_upwards [mem_nhdsWithin_of_mem_nhds (Iio_mem_nhds hz0), self_mem_nhdsWithin] with y hy hy2 using ⟨hy2.1, (mem_Iio.1 hy).le⟩
    · subst hz0
      refine ⟨(dl 0 ⟨by norm_num, le_rfl⟩).1, ?_⟩
      have := (dl 0 ⟨by norm_num, le_rfl⟩).2.union (dr 0 ⟨le_rfl, by norm_num⟩).2
      rwa [Icc_union_Icc_eq_Icc (by norm_num) (by norm_num)] at this
    · obtain ⟨a, b⟩ := dr z ⟨hz0.le, hz.2⟩
      refine ⟨a, b.mono_of_mem_nhdsWithin ?_⟩
      filter_upwards [mem_nhdsWithin_of_mem_nhds (Ioi_mem_nhds hz0), self_mem_nhdsWithin] with y hy hy2 using ⟨(mem_Ioi.1 hy).le, hy2.2⟩
  obtain ⟨W, hWw, hWd⟩ := extend_curve (show (-1 : ℝ) < 1 by norm_num) fun z hz => (dw z hz).2
  have ends : W (-1) = W 1 := by
    rw [hWw _ ⟨le_rfl, by norm_num⟩, hWw _ ⟨by norm_num, le_rfl⟩, wl _ ⟨le_rfl, by norm_num⟩, wr _ ⟨by norm_num, le_rfl⟩]
    rw [show P * (-1 + 1 : ℝ) = 0 by ring, show 2 * P - P * (1 + 1) = 0 by ring, hm0]
  obtain ⟨-, Z, hZ1, hZ2, hZ3, hZ4⟩ := periodic_orbit (w := W) (F := planarField μ) (ρ := fun _ => P) (fun z hz => by rw [hWw z hz]; exact hWd z hz) ends (fun _ _ => hP)
    fun _ _ => continuousAt_const
  simp only [intervalIntegral.integral_const, smul_eq_mul] at hZ1 hZ3
  have hZa : ∀ t, Apart μ (Z t) := fun t => by
    obtain ⟨z, hz, e⟩ := hZ4 t
    rw [e, hWw z hz]
    exact (dw z hz).1
  obtain ⟨hT, hvel⟩ := planar_threeBody hZ2 hZa
  refine ⟨_, hT, fun i t => ?_, fun t ht => ?_⟩
  · have := hZ1 t
    rw [show (1 - -1 : ℝ) * P = 2 * P by ring] at this
    beta_reduce
    rw [this]
  · have hz : t / P - 1 ∈ Icc (-1 : ℝ) 0 := ⟨by have := div_nonneg ht.1 hP.le; linarith, by have := (div_le_one hP).2 ht.2; linarith⟩
    have hz' : t / P - 1 ∈ Icc (-1 : ℝ) 1 := ⟨hz.1, hz.2.trans (by norm_num)⟩
    have e := hZ3 _ hz'
    rw [hWw _ hz', wl _ hz, show (t / P - 1 - -1) * P = t by field_simp; ring, show P * (t / P - 1 + 1) = t by field_simp; ring] at e
    refine ⟨fun i => ?_, fun i => ?_⟩
    · beta_reduce
      rw [e]
    · rw [hvel, e]

/-- The same for what satisfies `PCR3BP` exactly: the period is twice the last entry. -/
theorem C109_mirror {Y : ℝ → ℕ → ℝ} {τe : ℝ} (hτ : 0 < τe) (hY : ExactPcr τe Y) (hap : ∀ τ ∈ Icc 0 τe, Apart earthMoon (first4 (Y τ))) (h20 : Y 0 20 = 0)
    (h01 : Y 0 1 = 0) (h02 : Y 0 2 = 0) (he1 : Y τe 1 = 0) (he2 : Y τe 2 = 0) :
    ∃ Z, ThreeBody earthMoon Z ∧ PeriodicMotion (2 * Y τe 20) Z ∧ (∀ i, Z i 0 = (![Y 0 0, 0, 0] : Fin 3 → ℝ) i) ∧ (∀ i, deriv (Z i) 0 = (![0, Y 0 3, 0] : Fin 3 → ℝ) i) ∧
      ∀ τ ∈ Icc 0 τe, (∀ i, Z i (Y τ 20) = (![Y τ 0, Y τ 1, 0] : Fin 3 → ℝ) i) ∧ ∀ i, deriv (Z i) (Y τ 20) = (![Y τ 2, Y τ 3, 0] : Fin 3 → ℝ) i := by
  obtain ⟨hP, X, Φ, hX, -, hXY⟩ := C109_time hτ hY hap h20
  have m0 : (0 : ℝ) ∈ Icc 0 τe := ⟨le_rfl, hτ.le⟩
  have me : τe ∈ Icc 0 τe := ⟨hτ.le, le_rfl⟩
  have s0 := (hXY 0 m0).2.1
  have se := (hXY τe me).2.1
  rw [h20] at s0
  obtain ⟨Z, h1, h2, h3⟩ := C109_symmetric hP hX (by rw [s0]; exact h01) (by rw [s0]; exact h02) (by rw [se]; exact he1) (by rw [se]; exact he2)
  have h4 : ∀ τ ∈ Icc 0 τe, (∀ i, Z i (Y τ 20) = (![Y τ 0, Y τ 1, 0] : Fin 3 → ℝ) i) ∧ ∀ i, deriv (Z i) (Y τ 20) = (![Y τ 2, Y τ 3, 0] : Fin 3 → ℝ) i := by
    intro τ hτ
    obtain ⟨a, b, -⟩ := hXY τ hτ
    have := h3 _ a
    rw [b] at this
    exact this
  refine ⟨Z, h1, h2, ?_, ?_, h4⟩
  · have := (h4 0 m0).1
    rwa [h20, h01] at this
  · have := (h4 0 m0).2
    rwa [h20, h02] at this

/-! ## The correction is a step of Newton's method -/

/-- A matrix as a linear map. -/
noncomputable def matMap : (Fin 4 → Fin 4 → ℝ) →ₗ[ℝ] ((Fin 4 → ℝ) →L[ℝ] (Fin 4 → ℝ)) where
  toFun m := LinearMap.toContinuousLinearMap (Matrix.toLin' (Matrix.of m))
  map_add' m m' := by
    ext v i
    simp [Matrix.add_mulVec, ← Matrix.of_add_of]
  map_smul' c m := by
    ext v i
    simp [← Matrix.smul_of, Matrix.smul_mulVec]

theorem matMap_apply (m : Fin 4 → Fin 4 → ℝ) (v : Fin 4 → ℝ) (i : Fin 4) : matMap m v i = ∑ j, m i j * v j := by
  simp [matMap, Matrix.mulVec, dotProduct]

theorem matMap_cols (m : Fin 4 → Fin 4 → ℝ) (v : Fin 4 → ℝ) : matMap m v = ∑ j, v j • fun i => m i j := by
  funext i
  rw [matMap_apply, Finset.sum_apply]
  refine Finset.sum_congr rfl fun j _ => ?_
  simp [mul_comm]

theorem planarJacobi_const {X : ℝ → Fin 4 → ℝ} {b : ℝ} (h : ∀ t ∈ Icc 0 b, Apart μ (X t) ∧ HasDerivAt X (planarField μ (X t)) t) {t : ℝ} (ht : t ∈ Icc 0 b) :
    planarJacobi μ (X t) = planarJacobi μ (X 0) := by
  have hd : ∀ t ∈ Icc 0 b, HasDerivAt (fun t => planarJacobi μ (X t)) 0 t := by
    intro t ht
    obtain ⟨ha, hX⟩ := h t ht
    have hc := hasDerivAt_pi.1 hX
    have e : ∀ t, planarJacobi μ (X t) = jacobi μ (fun i => (![fun t => X t 0, fun t => X t 1, fun _ => 0] : Fin 3 → ℝ → ℝ) i t)
        fun i => (![fun t => X t 2, fun t => X t 3, fun _ => 0] : Fin 3 → ℝ → ℝ) i t := by
      intro t
      unfold planarJacobi
      congr 1 <;> (funext i; fin_cases i <;> rfl)
    have e1 : ∀ t, (fun i => (![fun t => X t 0, fun t => X t 1, fun _ => 0] : Fin 3 → ℝ → ℝ) i t) = ![X t 0, X t 1, 0] := by intro t; funext i; fin_cases i <;> rfl
    have e2 : ∀ t, (fun i => (![fun t => X t 2, fun t => X t 3, fun _ => 0] : Fin 3 → ℝ → ℝ) i t) = ![X t 2, X t 3, 0] := by intro t; funext i; fin_cases i <;> rfl
    simp only [e]
    have := jacobi_deriv (μ := μ) (p := ![fun t => X t 0, fun t => X t 1, fun _ => 0]) (v := ![fun t => X t 2, fun t => X t 3, fun _ => 0]) (e := fun _ => 0) (c := 1) (t := t)
      (fun i => by
        rw [one_mul]
        fin_cases i
        · exact hc 0
        · exact hc 1
        · exact hasDerivAt_const _ _)
      (fun i => by
        rw [one_mul, sub_zero, e1, e2]
        fin_cases i
        · exact hc 2
        · exact hc 3
        · refine (hasDerivAt_const t (0 : ℝ)).congr_deriv ?_
          simp [acceleration])
      (by rw [e1]; exact ha.1) (by rw [e1]; exact ha.2)
    simpa using this
  have := constant_of_has_deriv_right_zero (f := fun t => planarJacobi μ (X t)) (a := 0) (b := b) (fun t ht => (hd t ht).continuousAt.continuousWithinAt)
    (fun t ht => (hd t ⟨ht.1, ht.2.le⟩).hasDerivWithinAt) t ht
  exact this

theorem rpow_three_half {a : ℝ} (ha : 0 ≤ a) : a ^ (1.5 : ℝ) = Real.sqrt a ^ 3 := by
  rw [Real.sqrt_eq_rpow, ← Real.rpow_natCast, ← Real.rpow_mul ha]
  norm_num

/-- The constant of Jacobi as a function of the start. -/
theorem startJacobi_deriv {p : Fin 2 → ℝ} {y c : ℝ} (h : Apart μ ![p 0, y, c, p 1]) :
    HasFDerivAt (fun p : Fin 2 → ℝ => planarJacobi μ ![p 0, y, c, p 1])
      ((2 * p 0 - 2 * μ * (p 0 - (1 - μ)) / dist2 μ ![p 0, y, 0] ^ 3 - 2 * (1 - μ) * (p 0 + μ) / dist1 μ ![p 0, y, 0] ^ 3) •
        (ContinuousLinearMap.proj 0 : (Fin 2 → ℝ) →L[ℝ] ℝ) + (-2 * p 1) • (ContinuousLinearMap.proj 1 : (Fin 2 → ℝ) →L[ℝ] ℝ)) p := by
  obtain ⟨h1, h2⟩ := h
  simp only [Matrix.cons_val_zero, Matrix.cons_val_one] at h1 h2
  have hp : ∀ i, HasDerivAt ((![fun x : ℝ => x, fun _ => y, fun _ => 0] : Fin 3 → ℝ → ℝ) i) ((![1, 0, 0] : Fin 3 → ℝ) i) (p 0) := fun i => by
    fin_cases i
    · exact hasDerivAt_id _
    · exact hasDerivAt_const _ _
    · exact hasDerivAt_const _ _
  have ev : ∀ x : ℝ, (fun i => (![fun x : ℝ => x, fun _ => y, fun _ => 0] : Fin 3 → ℝ → ℝ) i x) = ![x, y, 0] := by intro t; funext i; fin_cases i <;> rfl
  have d1 := dist1_deriv (μ := μ) hp (by rw [ev]; exact h1)
  have d2 := dist2_deriv (μ := μ) hp (by rw [ev]; exact h2)
  simp only [ev] at d1 d2
  have hx := (((((hasDerivAt_id (p 0)).pow 2).add_const (y ^ 2)).add ((hasDerivAt_const (p 0) (2 * (1 - μ))).div d1 h1)).add ((hasDerivAt_const (p 0) (2 * μ)).div d2 h2)).add_const (μ * (1 - μ))
  have pr0 : HasFDerivAt (fun p : Fin 2 → ℝ => p 0) (ContinuousLinearMap.proj 0 : (Fin 2 → ℝ) →L[ℝ] ℝ) p := (ContinuousLinearMap.proj 0 : (Fin 2 → ℝ) →L[ℝ] ℝ).hasFDerivAt
  have pr1 : HasFDerivAt (fun p : Fin 2 → ℝ => p 1) (ContinuousLinearMap.proj 1 : (Fin 2 → ℝ) →L[ℝ] ℝ) p := (ContinuousLinearMap.proj 1 : (Fin 2 → ℝ) →L[ℝ] ℝ).hasFDerivAt
  have hv := ((hasDerivAt_id (p 1)).pow 2).const_add (c ^ 2)
  have := (HasDerivAt.comp_hasFDerivAt (f := fun p : Fin 2 → ℝ => p 0) p hx pr0).sub (HasDerivAt.comp_hasFDerivAt (f := fun p : Fin 2 → ℝ => p 1) p hv pr1)
  refine (this.congr_of_eventuallyEq (Filter.Eventually.of_forall fun q => ?_)).congr_fderiv ?_
  · simp [planarJacobi, jacobi]
  · simp only [Matrix.cons_val_zero, Matrix.cons_val_one, Matrix.cons_val]
    generalize dist1 μ ![p 0, y, 0] = r1 at h1
    generalize dist2 μ ![p 0, y, 0] = r2 at h2
    ext v
    simp
    field_simp
    ring

/-- **C109, the correction.** The starts near `(x, y, ẋ, ẏ)` with the same `y` and `ẋ` (both 0 in the program) have motions that come back to the line through the two bodies, and the matrix of the corrector is the derivative,
with respect to `x` and `ẏ`, of what it wants to correct: the velocity `ẋ` where the motion comes back, and the constant of Jacobi. -/
theorem C109_newton {Y : ℝ → ℕ → ℝ} {τe : ℝ} (hτ : 0 < τe) (hY : ExactPcr τe Y) (hap : ∀ τ ∈ Icc 0 τe, Apart earthMoon (first4 (Y τ)))
    {x0 : ℕ → ℝ} (h0 : Y 0 = corInit x0) (he1 : Y τe 1 = 0) (he3 : Y τe 3 ≠ 0) :
    ∃ (ψ : (Fin 2 → ℝ) → ℝ → Fin 4 → ℝ) (ε : ℝ), 0 < ε ∧ (∀ p, ψ p 0 = ![p 0, x0 1, x0 2, p 1]) ∧ ψ ![x0 0, x0 3] (Y τe 20) = first4 (Y τe) ∧
      (∀ᶠ p in 𝓝 ![x0 0, x0 3], ∀ t ∈ Icc 0 (Y τe 20 + ε), Apart earthMoon (ψ p t) ∧ HasDerivAt (ψ p) (planarField earthMoon (ψ p t)) t) ∧
      (∃ θ : (Fin 2 → ℝ) → ℝ, θ ![x0 0, x0 3] = Y τe 20 ∧ ContinuousAt θ ![x0 0, x0 3] ∧ ∀ᶠ p in 𝓝 ![x0 0, x0 3], ψ p (θ p) 1 = 0) ∧
      ∀ θ : (Fin 2 → ℝ) → ℝ, θ ![x0 0, x0 3] = Y τe 20 → ContinuousAt θ ![x0 0, x0 3] → (∀ᶠ p in 𝓝 ![x0 0, x0 3], ψ p (θ p) 1 = 0) →
        HasFDerivAt (fun p => (![ψ p (θ p) 2, planarJacobi earthMoon (ψ p (θ p))] : Fin 2 → ℝ))
          (LinearMap.toContinuousLinearMap (Matrix.toLin' (corMatrix earthMoon (Y 0) (Y τe)))) ![x0 0, x0 3] := by
  have h20 : Y 0 20 = 0 := by rw [h0]; simp [corInit]
  have m0 : (0 : ℝ) ∈ Icc 0 τe := ⟨le_rfl, hτ.le⟩
  have me : τe ∈ Icc 0 τe := ⟨hτ.le, le_rfl⟩
  have hstart : first4 (Y 0) = ![x0 0, x0 1, x0 2, x0 3] := by
    rw [h0]; funext i; fin_cases i
    · simp [first4, corInit]
    · simp [first4, corInit]
    · simp [first4, corInit]
    · simp [first4, corInit]
  obtain ⟨hP, X, Φ, hX, hΦ, hXY⟩ := C109_time hτ hY hap h20
  obtain ⟨-, hX0, hΦ0⟩ := hXY 0 m0
  obtain ⟨-, hXe, hΦe⟩ := hXY τe me
  rw [h20] at hX0 hΦ0
  rw [hstart] at hX0
  have hA0 : matMap (Φ 0) = ContinuousLinearMap.id ℝ (Fin 4 → ℝ) := by
    ext v i
    rw [matMap_apply]
    have : ∀ j : Fin 4, Φ 0 i j = if i = j then 1 else 0 := by
      intro j
      rw [hΦ0, h0]
      have a5 : 4 + 4 * (i : ℕ) + j < 20 := by omega
      have b1 : (4 + 4 * (i : ℕ) + j - 4) / 4 = i := by omega
      have b2 : (4 + 4 * (i : ℕ) + j - 4) % 4 = j := by omega
      have b3 : ¬ 4 + 4 * (i : ℕ) + j < 4 := by omega
      simp only [corInit, a5, b1, b2, b3, if_true, if_false, Fin.ext_iff]
    simp [this]
  have hA : ∀ t ∈ Icc 0 (Y τe 20), HasDerivWithinAt (fun t => matMap (Φ t)) ((fderiv ℝ (planarField earthMoon) (X t)).comp (matMap (Φ t))) (Icc 0 (Y τe 20)) t := by
    intro t ht
    have hm : HasDerivWithinAt Φ (fun i j => fderiv ℝ (planarField earthMoon) (X t) (fun i => Φ t i j) i) (Icc 0 (Y τe 20)) t :=
      hasDerivWithinAt_pi.2 fun i => hasDerivWithinAt_pi.2 fun j => hasDerivWithinAt_pi.1 (hΦ t ht j) i
    have := (LinearMap.toContinuousLinearMap matMap).hasFDerivAt.comp_hasDerivWithinAt t hm
    refine this.congr_deriv ?_
    ext1 v
    show matMap _ v = fderiv ℝ (planarField earthMoon) (X t) (matMap (Φ t) v)
    rw [matMap_cols, matMap_cols, map_sum]
    refine Finset.sum_congr rfl fun j _ => ?_
    rw [map_smul]
  obtain ⟨R, C, ψ, hR, hC, hψ0, hψc, hψX, ⟨ε, hε, hψd⟩, hbound⟩ := local_flow (apart_open earthMoon) (planar_contDiff earthMoon) hP (fun t ht => (hX t ht).2)
    (fun t ht => (hX t ht).1) hA0 hA
  rw [hX0] at hψX hψd hbound
  let B : (Fin 2 → ℝ) →L[ℝ] (Fin 4 → ℝ) := LinearMap.toContinuousLinearMap
    { toFun := fun p => ![p 0, 0, 0, p 1]
      map_add' := fun p q => by funext i; fin_cases i <;> simp
      map_smul' := fun c p => by funext i; fin_cases i <;> simp }
  have hB : ∀ p : Fin 2 → ℝ, B p = ![p 0, 0, 0, p 1] := fun p => rfl
  obtain ⟨ι, hι⟩ : ∃ ι : (Fin 2 → ℝ) → Fin 4 → ℝ, ι = fun p => ![p 0, x0 1, x0 2, p 1] := ⟨_, rfl⟩
  have hιB : ∀ p q, ι p - ι q = B (p - q) := fun p q => by rw [hι, hB]; funext i; fin_cases i <;> simp
  have hB0 : ι ![x0 0, x0 3] = ![x0 0, x0 1, x0 2, x0 3] := by rw [hι]; simp
  have mP : Y τe 20 ∈ Icc 0 (Y τe 20) := ⟨hP.le, le_rfl⟩
  have hPR : Y τe 20 ∈ Ioo (-R) R := ⟨by linarith, hR⟩
  have hend : ψ (ι ![x0 0, x0 3]) (Y τe 20) = first4 (Y τe) := by rw [hB0, hψX _ mP, hXe]
  have hv : planarField earthMoon (X (Y τe 20)) 1 = Y τe 3 := by rw [hXe]; rfl
  have hΨ : ∀ p, ∀ t ∈ Ioo (-R) R, ‖ψ (ι p) t - ψ (ι ![x0 0, x0 3]) (Y τe 20) - (((matMap (Φ (Y τe 20))).comp B) (p - ![x0 0, x0 3]) +
      (t - Y τe 20) • planarField earthMoon (X (Y τe 20)))‖ ≤ C * (‖B‖ + 1) ^ 2 * (‖p - ![x0 0, x0 3]‖ + |t - Y τe 20|) ^ 2 := by
    intro p t ht
    have := hbound (ι p) t ht
    rw [← hB0, hιB] at this
    refine this.trans ?_
    rw [mul_assoc, ← mul_pow]
    refine mul_le_mul_of_nonneg_left (pow_le_pow_left₀ (by positivity) ?_ 2) hC
    have b1 := B.le_opNorm (p - ![x0 0, x0 3])
    nlinarith [norm_nonneg B, norm_nonneg (p - ![x0 0, x0 3]), abs_nonneg (t - Y τe 20), mul_nonneg (norm_nonneg B) (abs_nonneg (t - Y τe 20))]
  have hℓ0 : ((Y τe 3)⁻¹ • (ContinuousLinearMap.proj 1 : (Fin 4 → ℝ) →L[ℝ] ℝ)) (ψ (ι ![x0 0, x0 3]) (Y τe 20)) = 0 := by
    rw [hend]
    simp [first4, he1]
  have hℓv : ((Y τe 3)⁻¹ • (ContinuousLinearMap.proj 1 : (Fin 4 → ℝ) →L[ℝ] ℝ)) (planarField earthMoon (X (Y τe 20))) = 1 := by
    simp [hv, he3]
  have hBc : Tendsto ι (𝓝 ![x0 0, x0 3]) (𝓝 ![x0 0, x0 1, x0 2, x0 3]) := by
    rw [← hB0, hι]
    refine Continuous.tendsto (continuous_pi fun i => ?_) _
    fin_cases i
    · exact continuous_apply 0
    · exact continuous_const
    · exact continuous_const
    · exact continuous_apply 1
  have hev : ∀ᶠ p in 𝓝 ![x0 0, x0 3], ∀ t ∈ Icc 0 (Y τe 20 + ε), Apart earthMoon (ψ (ι p) t) ∧ HasDerivAt (ψ (ι p)) (planarField earthMoon (ψ (ι p) t)) t := hBc.eventually hψd
  refine ⟨fun p => ψ (ι p), ε, hε, fun p => (hψ0 _).trans (by rw [hι]), hend, hev, ?_, fun θ hθ hθc hz => ?_⟩
  · obtain ⟨θ, a1, a2, a3⟩ := crossing_exists (Ψ := fun p => ψ (ι p)) hPR hΨ (fun p => hψc _) hℓ0 hℓv
    refine ⟨θ, a1, a2, ?_⟩
    filter_upwards [a3] with p hp
    have := hp.2
    simpa [he3] using this
  · have hd := crossing_deriv (Ψ := fun p => ψ (ι p)) hPR (by positivity) hΨ hℓ0 hℓv hθc hθ (by
      filter_upwards [hz] with p hp
      simp [hp])
    have hd2 : HasFDerivAt (fun p => ψ (ι p) (θ p) 2) _ ![x0 0, x0 3] := hasFDerivAt_pi'.1 hd 2
    have hap0 : Apart earthMoon ![x0 0, x0 1, x0 2, x0 3] := by rw [← hstart]; exact hap 0 m0
    have hJe : (fun p => planarJacobi earthMoon (ψ (ι p) (θ p))) =ᶠ[𝓝 ![x0 0, x0 3]] fun p => planarJacobi earthMoon ![p 0, x0 1, x0 2, p 1] := by
      have hmem : ∀ᶠ p in 𝓝 ![x0 0, x0 3], θ p ∈ Icc 0 (Y τe 20 + ε) := hθc.eventually (by rw [hθ]; exact Icc_mem_nhds hP (by linarith))
      filter_upwards [hev, hmem] with p hp hm
      rw [planarJacobi_const hp hm, hψ0, hι]
    have hJ := (startJacobi_deriv (μ := earthMoon) (p := ![x0 0, x0 3]) (y := x0 1) (c := x0 2) (by simpa using hap0)).congr_of_eventuallyEq hJe
    refine hasFDerivAt_pi'' fun i => ?_
    have r1 : ((Y 0 0 + earthMoon) ^ 2 + Y 0 1 ^ 2) ^ (1.5 : ℝ) = dist1 earthMoon ![x0 0, x0 1, 0] ^ 3 := by
      rw [rpow_three_half (by positivity), pcr_dist1, hstart]; simp
    have r2 : ((Y 0 0 - (1 - earthMoon)) ^ 2 + Y 0 1 ^ 2) ^ (1.5 : ℝ) = dist2 earthMoon ![x0 0, x0 1, 0] ^ 3 := by
      rw [rpow_three_half (by positivity), show Y 0 0 - (1 - earthMoon) = Y 0 0 - 1 + earthMoon by ring, pcr_dist2, hstart]; simp
    have y00 : Y 0 0 = x0 0 := by have := congrFun hstart 0; exact this
    have y03 : Y 0 3 = x0 3 := by have := congrFun hstart 3; exact this
    fin_cases i
    · refine hd2.congr_fderiv ?_
      ext1 h
      have hacc : planarField earthMoon (X (Y τe 20)) 2 = 2 * Y τe 3 + (Y τe 0 - (1 - earthMoon) * (Y τe 0 + earthMoon) / Real.sqrt ((Y τe 0 + earthMoon) ^ 2 + Y τe 1 ^ 2) ^ 3 -
          earthMoon * (Y τe 0 - 1 + earthMoon) / Real.sqrt ((Y τe 0 - 1 + earthMoon) ^ 2 + Y τe 1 ^ 2) ^ 3) := by
        rw [hXe, pcr_dist1, pcr_dist2]
        simp only [planarField, acceleration]
        simp [first4]
        ring
      simp only [ContinuousLinearMap.comp_apply, _root_.sub_apply, ContinuousLinearMap.smulRight_apply, ContinuousLinearMap.proj_apply, Pi.sub_apply, Pi.smul_apply,
        smul_eq_mul, hacc, ContinuousLinearMap.smul_apply, matMap_apply, hB, hΦe, LinearMap.coe_toContinuousLinearMap', Matrix.toLin'_apply]
      simp [Fin.sum_univ_four, corMatrix, Matrix.mulVec, dotProduct, Fin.sum_univ_two]
      field_simp
      ring
    · refine hJ.congr_fderiv ?_
      ext1 h
      simp only [LinearMap.coe_toContinuousLinearMap', Matrix.toLin'_apply]
      simp only [corMatrix, r1, r2]
      simp [Matrix.mulVec, dotProduct, Fin.sum_univ_two, y00, y03]

end Verif.Props
