import Verif.Props.DiffCorRun
import Verif.Props.Libration
import Mathlib.Analysis.SpecialFunctions.Trigonometric.Deriv
import Mathlib.LinearAlgebra.Matrix.NonsingularInverse

/-! # C109: cases that meet the hypotheses -/

namespace Verif.Props

open Set Filter Topology Verif.Spec Verif.Model.Py Verif.Lemmas
open scoped ContDiff

/-! ## An orbit that is symmetric -/

/-- For `μ = 0` the equations are those of one body in a turning frame, and circles around it are motions. -/
theorem circle_motion : PlanarMotion 0 0 (Real.pi / 7)
    fun t => ![1 / 4 * Real.cos (7 * t), 1 / 4 * Real.sin (7 * t), -(7 / 4 * Real.sin (7 * t)), 7 / 4 * Real.cos (7 * t)] := by
  intro t _
  have hcs : Real.cos (7 * t) ^ 2 + Real.sin (7 * t) ^ 2 = 1 := by rw [add_comm]; exact Real.sin_sq_add_cos_sq _
  have d1 : dist1 0 ![1 / 4 * Real.cos (7 * t), 1 / 4 * Real.sin (7 * t), 0] = 1 / 4 := by
    unfold dist1
    simp only [Matrix.cons_val_zero, Matrix.cons_val_one, Matrix.cons_val]
    rw [show (1 / 4 * Real.cos (7 * t) + 0) ^ 2 + (1 / 4 * Real.sin (7 * t)) ^ 2 + 0 ^ 2 = (1 / 4) ^ 2 * (Real.cos (7 * t) ^ 2 + Real.sin (7 * t) ^ 2) by ring, hcs, mul_one]
    exact Real.sqrt_sq (by norm_num)
  refine ⟨⟨?_, ?_⟩, ?_⟩
  · show dist1 0 ![1 / 4 * Real.cos (7 * t), 1 / 4 * Real.sin (7 * t), 0] ≠ 0
    rw [d1]; norm_num
  · show dist2 0 ![1 / 4 * Real.cos (7 * t), 1 / 4 * Real.sin (7 * t), 0] ≠ 0
    unfold dist2
    simp only [Matrix.cons_val_zero, Matrix.cons_val_one, Matrix.cons_val]
    refine Real.sqrt_ne_zero'.2 ?_
    have := Real.cos_le_one (7 * t)
    nlinarith [sq_nonneg (Real.sin (7 * t))]
  · have hi : HasDerivAt (fun t : ℝ => 7 * t) 7 t := by simpa using (hasDerivAt_id t).const_mul 7
    have hc := hi.cos
    have hs := hi.sin
    refine (hasDerivAt_pi.2 fun i => ?_).hasDerivWithinAt
    fin_cases i
    · refine (hc.const_mul (1 / 4)).congr_deriv ?_
      simp [planarField]; ring
    · refine (hs.const_mul (1 / 4)).congr_deriv ?_
      simp [planarField]; ring
    · refine ((hs.const_mul (7 / 4)).neg).congr_deriv ?_
      simp only [planarField, acceleration]
      simp only [Fin.reduceFinMk, Matrix.cons_val, Matrix.cons_val_zero, Matrix.cons_val_one, Fin.isValue, d1]
      ring
    · refine (hc.const_mul (7 / 4)).congr_deriv ?_
      simp only [planarField, acceleration]
      simp only [Fin.reduceFinMk, Matrix.cons_val, Matrix.cons_val_zero, Matrix.cons_val_one, Fin.isValue, d1]
      ring

example : ∃ Z, ThreeBody 0 Z ∧ PeriodicMotion (2 * (Real.pi / 7)) Z ∧ Z 0 0 = 1 / 4 ∧ Z 0 (Real.pi / 7) = -1 / 4 := by
  have hp : 0 < Real.pi / 7 := by positivity
  have h7 : 7 * (Real.pi / 7) = Real.pi := by ring
  obtain ⟨Z, h1, h2, h3⟩ := C109_symmetric hp circle_motion (by simp) (by simp) (by simp [h7]) (by simp [h7])
  refine ⟨Z, h1, h2, ?_, ?_⟩
  · rw [(h3 0 ⟨le_rfl, hp.le⟩).1]; simp
  · rw [(h3 _ ⟨hp.le, le_rfl⟩).1]; simp [h7]; norm_num

/-! ## Exact solutions of `PCR3BP` -/

/-- The 21 numbers. -/
def packed (s : Fin 4 → ℝ) (m : Fin 4 → Fin 4 → ℝ) (t : ℝ) : ℕ → ℝ := fun k =>
  if h : k < 4 then s ⟨k, h⟩ else if k < 20 then m (Fin.ofNat 4 ((k - 4) / 4)) (Fin.ofNat 4 ((k - 4) % 4)) else t

theorem packed_first4 (s : Fin 4 → ℝ) (m : Fin 4 → Fin 4 → ℝ) (t : ℝ) : first4 (packed s m t) = s := by
  funext i
  simp [first4, packed, i.2]

theorem packed_mat (s : Fin 4 → ℝ) (m : Fin 4 → Fin 4 → ℝ) (t : ℝ) (i j : Fin 4) : packed s m t (4 + 4 * i + j) = m i j := by
  have a5 : 4 + 4 * (i : ℕ) + j < 20 := by omega
  have b1 : (4 + 4 * (i : ℕ) + j - 4) / 4 = i := by omega
  have b2 : (4 + 4 * (i : ℕ) + j - 4) % 4 = j := by omega
  have b3 : ¬ 4 + 4 * (i : ℕ) + j < 4 := by omega
  have c1 : Fin.ofNat 4 (i : ℕ) = i := by apply Fin.ext; simp [Fin.ofNat]
  have c2 : Fin.ofNat 4 (j : ℕ) = j := by apply Fin.ext; simp [Fin.ofNat]
  simp only [packed, a5, b1, b2, b3, dif_neg, not_false_eq_true, if_true, c1, c2]

theorem packed_time (s : Fin 4 → ℝ) (m : Fin 4 → Fin 4 → ℝ) (t : ℝ) : packed s m t 20 = t := by simp [packed]

theorem packed_init (s : Fin 4 → ℝ) : packed s (fun i j => if i = j then 1 else 0) 0 = corInit (packed s (fun i j => if i = j then 1 else 0) 0) := by
  funext k
  unfold corInit
  by_cases h4 : k < 4
  · simp [h4]
  · by_cases h20 : k < 20
    · have d : (k - 4) / 4 < 4 := by omega
      have e : (k - 4) % 4 < 4 := by omega
      simp only [packed, h4, h20, if_false, if_true, dif_neg, not_false_eq_true]
      simp [Fin.ext_iff, Fin.ofNat, Nat.mod_eq_of_lt d]
    · simp [packed, h4, h20]

theorem packed_exact {s : ℝ → Fin 4 → ℝ} {m : ℝ → Fin 4 → Fin 4 → ℝ} {T : ℝ → ℝ} {τe : ℝ}
    (hs : ∀ τ ∈ Icc 0 τe, HasDerivAt s (dist2 earthMoon ![s τ 0, s τ 1, 0] • planarField earthMoon (s τ)) τ)
    (hm : ∀ τ ∈ Icc 0 τe, HasDerivAt m (dist2 earthMoon ![s τ 0, s τ 1, 0] • fun i j => ∑ l, planarJac earthMoon (s τ) i l * m τ l j) τ)
    (hT : ∀ τ ∈ Icc 0 τe, HasDerivAt T (dist2 earthMoon ![s τ 0, s τ 1, 0]) τ) : ExactPcr τe fun τ => packed (s τ) (m τ) (T τ) := by
  intro k hk τ hτ
  by_cases h4 : k < 4
  · have e : ∀ τ, packed (s τ) (m τ) (T τ) k = s τ ⟨k, h4⟩ := fun τ => by simp [packed, h4]
    simp only [e]
    have := pcr_field (packed (s τ) (m τ) (T τ)) ⟨k, h4⟩
    rw [packed_first4] at this
    rw [show pcr3bp (packed (s τ) (m τ) (T τ)) k = _ from this]
    exact (hasDerivAt_pi.1 (hs τ hτ) ⟨k, h4⟩).hasDerivWithinAt
  · by_cases h20 : k < 20
    · obtain ⟨i, j, rfl⟩ : ∃ i j : Fin 4, k = 4 + 4 * i + j := ⟨⟨(k - 4) / 4, by omega⟩, ⟨(k - 4) % 4, by omega⟩, by simp only; omega⟩
      simp only [packed_mat]
      have := pcr_jac (packed (s τ) (m τ) (T τ)) i j
      rw [packed_first4] at this
      simp only [packed_mat] at this
      rw [this]
      exact (hasDerivAt_pi.1 (hasDerivAt_pi.1 (hm τ hτ) i) j).hasDerivWithinAt
    · have hk20 : k = 20 := by omega
      subst hk20
      simp only [packed_time]
      have := pcr_time (packed (s τ) (m τ) (T τ))
      rw [packed_first4] at this
      rw [this]
      exact (hT τ hτ).hasDerivWithinAt

theorem planarJac_contDiff {μ : ℝ} {s : Fin 4 → ℝ} (h : Apart μ s) (i l : Fin 4) : ContDiffAt ℝ 1 (fun s => planarJac μ s i l) s := by
  obtain ⟨h1, h2⟩ := h
  have c1 : ContDiffAt ℝ 1 (fun s : Fin 4 → ℝ => dist1 μ ![s 0, s 1, 0]) s := (dist1_contDiff h1).of_le (by norm_num)
  have c2 : ContDiffAt ℝ 1 (fun s : Fin 4 → ℝ => dist2 μ ![s 0, s 1, 0]) s := (dist2_contDiff h2).of_le (by norm_num)
  have n13 := pow_ne_zero 3 h1
  have n15 := pow_ne_zero 5 h1
  have n23 := pow_ne_zero 3 h2
  have n25 := pow_ne_zero 5 h2
  have p0 : ContDiffAt ℝ 1 (fun s : Fin 4 → ℝ => s 0 + μ) s := by fun_prop
  have p1 : ContDiffAt ℝ 1 (fun s : Fin 4 → ℝ => s 0 - (1 - μ)) s := by fun_prop
  have p2 : ContDiffAt ℝ 1 (fun s : Fin 4 → ℝ => s 1) s := by fun_prop
  have k : ∀ c : ℝ, ContDiffAt ℝ 1 (fun _ : Fin 4 → ℝ => c) s := fun c => contDiffAt_const
  have uxx := (((k 1).sub ((k (1 - μ)).mul (((k 1).div (c1.pow 3) n13).sub (((k 3).mul (p0.pow 2)).div (c1.pow 5) n15)))).sub
    ((k μ).mul (((k 1).div (c2.pow 3) n23).sub (((k 3).mul (p1.pow 2)).div (c2.pow 5) n25))))
  have uyy := (((k 1).sub ((k (1 - μ)).mul (((k 1).div (c1.pow 3) n13).sub (((k 3).mul (p2.pow 2)).div (c1.pow 5) n15)))).sub
    ((k μ).mul (((k 1).div (c2.pow 3) n23).sub (((k 3).mul (p2.pow 2)).div (c2.pow 5) n25))))
  have uxy := (((((k (1 - μ)).mul (k 3)).mul p2).mul p0).div (c1.pow 5) n15).add (((((k μ).mul (k 3)).mul p2).mul p1).div (c2.pow 5) n25)
  fin_cases i <;> fin_cases l
  · exact k 0
  · exact k 0
  · exact k 1
  · exact k 0
  · exact k 0
  · exact k 0
  · exact k 0
  · exact k 1
  · exact uxx
  · exact uxy
  · exact k 0
  · exact k 2
  · exact uxy
  · exact uyy
  · exact k (-2)
  · exact k 0

/-- The right side as a function of state, matrix and time. -/
noncomputable def fullField (x : (Fin 4 → ℝ) × (Fin 4 → Fin 4 → ℝ) × ℝ) : (Fin 4 → ℝ) × (Fin 4 → Fin 4 → ℝ) × ℝ :=
  dist2 earthMoon ![x.1 0, x.1 1, 0] • (planarField earthMoon x.1, (fun i j => ∑ l, planarJac earthMoon x.1 i l * x.2.1 l j, 1))

theorem fullField_contDiff {x : (Fin 4 → ℝ) × (Fin 4 → Fin 4 → ℝ) × ℝ} (h : Apart earthMoon x.1) : ContDiffAt ℝ 1 fullField x := by
  have c2 : ContDiffAt ℝ 1 (fun s : Fin 4 → ℝ => dist2 earthMoon ![s 0, s 1, 0]) x.1 := (dist2_contDiff h.2).of_le (by norm_num)
  have c3 : ContDiffAt ℝ 1 (planarField earthMoon) x.1 := ((planar_contDiff earthMoon).contDiffAt ((apart_open earthMoon).mem_nhds h)).of_le (by norm_num)
  refine ContDiffAt.smul (c2.comp x contDiffAt_fst) (ContDiffAt.prodMk (c3.comp x contDiffAt_fst) (ContDiffAt.prodMk ?_ contDiffAt_const))
  refine contDiffAt_pi.2 fun i => contDiffAt_pi.2 fun j => ContDiffAt.sum fun l _ => ?_
  refine ContDiffAt.mul ((planarJac_contDiff h i l).comp x contDiffAt_fst) ?_
  have : ContDiff ℝ 1 fun x : (Fin 4 → ℝ) × (Fin 4 → Fin 4 → ℝ) × ℝ => x.2.1 l j := by fun_prop
  exact this.contDiffAt

/-- A start from which the exact solution meets the line through the two bodies, and not at a right angle. -/
theorem crossing_case : ∃ (Y : ℝ → ℕ → ℝ) (τe : ℝ) (x0 : ℕ → ℝ), 0 < τe ∧ ExactPcr τe Y ∧ (∀ τ ∈ Icc 0 τe, Apart earthMoon (first4 (Y τ))) ∧ Y 0 = corInit x0 ∧
    Y τe 1 = 0 ∧ Y τe 3 ≠ 0 := by
  have ha : Apart earthMoon ![1 / 2, 0, 0, 1] := by
    constructor
    · simp [dist1, earthMoon_eq]; norm_num
    · simp [dist2, earthMoon_eq]; norm_num
  obtain ⟨α, hα0, ε, hε, hα⟩ := (fullField_contDiff (x := (![1 / 2, 0, 0, 1], fun i j => if i = j then 1 else 0, 0)) ha).exists_forall_mem_closedBall_exists_eq_forall_mem_Ioo_hasDerivAt₀ 0
  have hc0 : ContinuousAt α 0 := (hα 0 ⟨by linarith, by linarith⟩).continuousAt
  have hcs : ContinuousAt (fun τ => (α τ).1) 0 := hc0.fst
  have ev1 : ∀ᶠ τ in 𝓝 (0 : ℝ), Apart earthMoon (α τ).1 := hcs.eventually ((apart_open earthMoon).mem_nhds (by show Apart earthMoon (α 0).1; rw [hα0]; exact ha))
  have hcm : ContinuousAt (fun τ => (Matrix.of (α τ).2.1).det) 0 := by
    have h1 : Continuous fun m : Fin 4 → Fin 4 → ℝ => (Matrix.of m).det := Continuous.matrix_det (by exact continuous_id)
    exact h1.continuousAt.comp hc0.snd.fst
  have ev2 : ∀ᶠ τ in 𝓝 (0 : ℝ), (Matrix.of (α τ).2.1).det ≠ 0 := hcm.eventually_ne (by
    rw [hα0]
    have : (Matrix.of fun i j : Fin 4 => if i = j then (1 : ℝ) else 0) = 1 := by ext i j; simp [Matrix.one_apply]
    rw [this, Matrix.det_one]
    exact one_ne_zero)
  obtain ⟨η, hη, hball⟩ := Metric.eventually_nhds_iff.1 (ev1.and ev2)
  obtain ⟨δ, hδ⟩ : ∃ δ, δ = min η ε / 2 := ⟨_, rfl⟩
  have hm : 0 < min η ε := lt_min hη hε
  have hδ0 : 0 < δ := by rw [hδ]; linarith
  have hδη : δ < η := by rw [hδ]; linarith [min_le_left η ε]
  have hδε : δ < ε := by rw [hδ]; linarith [min_le_right η ε]
  have hdet : (Matrix.of (α (-δ)).2.1).det ≠ 0 := (hball (by rw [Real.dist_eq, sub_zero, abs_neg, abs_of_pos hδ0]; exact hδη)).2
  obtain ⟨N, hN⟩ : ∃ N : Matrix (Fin 4) (Fin 4) ℝ, Matrix.of (α (-δ)).2.1 * N = 1 :=
    ⟨(Matrix.of (α (-δ)).2.1)⁻¹, Matrix.mul_nonsing_inv _ hdet.isUnit⟩
  have hin : ∀ τ ∈ Icc 0 δ, HasDerivAt (fun τ => α (τ - δ)) (fullField (α (τ - δ))) τ := fun τ hτ => by
    have := hα (τ - δ) ⟨by linarith [hτ.1], by linarith [hτ.2]⟩
    exact this.comp_sub_const τ δ
  refine ⟨fun τ => packed (α (τ - δ)).1 (fun i j => ∑ k, (α (τ - δ)).2.1 i k * N k j) ((α (τ - δ)).2.2 - (α (-δ)).2.2), δ,
    packed (α (-δ)).1 (fun i j => if i = j then 1 else 0) 0, hδ0, packed_exact (fun τ hτ => (hin τ hτ).fst) (fun τ hτ => ?_) (fun τ hτ => ?_), fun τ hτ => ?_, ?_, ?_, ?_⟩
  · have h1 := hasDerivAt_pi.1 (hin τ hτ).snd.fst
    refine hasDerivAt_pi.2 fun i => hasDerivAt_pi.2 fun j => ?_
    have h2 := fun k => hasDerivAt_pi.1 (h1 i) k
    refine (HasDerivAt.fun_sum (u := Finset.univ) fun k _ => (h2 k).mul_const (N k j)).congr_deriv ?_
    simp only [fullField, Prod.smul_mk, Pi.smul_apply, smul_eq_mul, Finset.mul_sum, Finset.sum_mul]
    rw [Finset.sum_comm]
    refine Finset.sum_congr rfl fun l _ => Finset.sum_congr rfl fun k _ => ?_
    ring
  · have h1 : HasDerivAt (fun τ => (α (τ - δ)).2.2) (fullField (α (τ - δ))).2.2 τ := (hin τ hτ).snd.snd
    refine (h1.sub_const ((α (-δ)).2.2)).congr_deriv ?_
    simp [fullField]
  · rw [packed_first4]
    refine (hball ?_).1
    rw [Real.dist_eq, sub_zero, abs_of_nonpos (by linarith [hτ.2])]
    linarith [hτ.1]
  · beta_reduce
    rw [← packed_init, zero_sub, sub_self]
    refine congrArg (fun m => packed (α (-δ)).1 m 0) ?_
    funext i j
    have := congrFun (congrFun hN i) j
    rw [Matrix.mul_apply, Matrix.one_apply] at this
    exact this
  · beta_reduce
    rw [sub_self, hα0]
    simp [packed]
  · beta_reduce
    rw [sub_self, hα0]
    simp [packed]

/-- The hypotheses of `C109_newton` can be met. -/
example : ∃ (Y : ℝ → ℕ → ℝ) (τe : ℝ) (x0 : ℕ → ℝ), 0 < τe ∧ ExactPcr τe Y ∧ ∃ (ψ : (Fin 2 → ℝ) → ℝ → Fin 4 → ℝ) (θ : (Fin 2 → ℝ) → ℝ),
    HasFDerivAt (fun p => (![ψ p (θ p) 2, planarJacobi earthMoon (ψ p (θ p))] : Fin 2 → ℝ))
      (LinearMap.toContinuousLinearMap (Matrix.toLin' (corMatrix earthMoon (Y 0) (Y τe)))) ![x0 0, x0 3] := by
  obtain ⟨Y, τe, x0, h1, h2, h3, h4, h5, h6⟩ := crossing_case
  obtain ⟨ψ, ε, -, -, -, -, ⟨θ, t1, t2, t3⟩, h7⟩ := C109_newton h1 h2 h3 h4 h5 h6
  exact ⟨Y, τe, x0, h1, h2, ψ, θ, h7 θ t1 t2 t3⟩

/-- The exact solution from a libration point on the axis. -/
theorem rest_case : ∃ (Y : ℝ → ℕ → ℝ) (τe : ℝ) (x : ℝ), 0 < τe ∧ ExactPcr τe Y ∧ (∀ τ ∈ Icc 0 τe, Apart earthMoon (first4 (Y τ))) ∧
    (∀ τ, first4 (Y τ) = ![x, 0, 0, 0]) ∧ Y 0 = corInit (Y 0) ∧ 0 < Y τe 20 := by
  have hμ0 : 0 < earthMoon := by rw [earthMoon_eq]; norm_num
  have hμ1 : earthMoon < 1 := by rw [earthMoon_eq]; norm_num
  obtain ⟨g1, hg1⟩ := q1_exists hμ0 hμ1
  obtain ⟨g2, hg2⟩ := q2_exists hμ0 hμ1
  obtain ⟨g3, hg3⟩ := q3_exists hμ0 hμ1
  obtain ⟨x, hx⟩ : ∃ x, x = 1 - earthMoon + g2 := ⟨_, rfl⟩
  obtain ⟨a1, a2, a3⟩ := (axis_points hμ0 hμ1 hg1 hg2 hg3 x).2 (Or.inr (Or.inl hx))
  have hap : Apart earthMoon ![x, 0, 0, 0] := ⟨a1, a2⟩
  have hfield : planarField earthMoon ![x, 0, 0, 0] = 0 := by
    have e0 : (![(0 : ℝ), 0, 0] : Fin 3 → ℝ) = fun _ => 0 := by funext i; fin_cases i <;> rfl
    funext i
    fin_cases i
    · rfl
    · rfl
    · show acceleration earthMoon ![x, 0, 0] ![0, 0, 0] 0 = 0
      rw [e0]; exact a3 0
    · show acceleration earthMoon ![x, 0, 0] ![0, 0, 0] 1 = 0
      rw [e0]; exact a3 1
  obtain ⟨L, hL⟩ : ∃ L : (Fin 4 → Fin 4 → ℝ) →ₗ[ℝ] (Fin 4 → Fin 4 → ℝ), ∀ m i j, L m i j = dist2 earthMoon ![x, 0, 0] * ∑ l, planarJac earthMoon ![x, 0, 0, 0] i l * m l j :=
    ⟨{ toFun := fun m i j => dist2 earthMoon ![x, 0, 0] * ∑ l, planarJac earthMoon ![x, 0, 0, 0] i l * m l j
       map_add' := fun m m' => by funext i j; simp only [Pi.add_apply, mul_add, Finset.sum_add_distrib]
       map_smul' := fun c m => by funext i j; simp only [Pi.smul_apply, smul_eq_mul, RingHom.id_apply, Finset.mul_sum]; exact Finset.sum_congr rfl fun l _ => by ring }, fun _ _ _ => rfl⟩
  have hLc : ContDiff ℝ 1 fun m => L m := (LinearMap.toContinuousLinearMap L).contDiff
  obtain ⟨m, hm0, ε, hε, hm⟩ := (hLc.contDiffAt (x := fun i j => if i = j then 1 else 0)).exists_forall_mem_closedBall_exists_eq_forall_mem_Ioo_hasDerivAt₀ 0
  refine ⟨fun τ => packed ![x, 0, 0, 0] (m τ) (dist2 earthMoon ![x, 0, 0] * τ), ε / 2, x, by linarith, packed_exact (fun τ hτ => ?_) (fun τ hτ => ?_) (fun τ hτ => ?_), fun τ hτ => ?_,
    fun τ => packed_first4 _ _ _, ?_, ?_⟩
  · rw [hfield, smul_zero]
    exact hasDerivAt_const _ _
  · refine (hm τ ⟨by linarith [hτ.1], by linarith [hτ.2]⟩).congr_deriv ?_
    funext i j
    rw [hL]
    rfl
  · have := (hasDerivAt_id τ).const_mul (dist2 earthMoon ![x, 0, 0])
    simpa using this
  · rw [packed_first4]
    exact hap
  · beta_reduce
    rw [hm0, mul_zero]
    exact packed_init _
  · beta_reduce
    rw [packed_time]
    exact mul_pos (dist2_pos hap) (by linarith)

/-- The hypotheses of `C109_mirror` and of `C109_return_partial` can be met. -/
example : ∃ (ivp : (ℕ → ℝ) → ℝ → IvpEnd) (pinv : Matrix (Fin 2) (Fin 2) ℝ → Matrix (Fin 2) (Fin 2) ℝ) (solve : (ℝ → ℝ) → ℝ → ℝ) (x0 : ℕ → ℝ) (c : Cor),
    diffCor ivp pinv solve 1 earthMoon 1 x0 1 (planarJacobi earthMoon (first4 x0)) = some c ∧ c.said = [] ∧ x0 1 = 0 ∧ x0 2 = 0 ∧
      ExactCall ivp c.x0 (2 * 1 / Real.sqrt ((x0 0 - 1 + earthMoon) ^ 2 + x0 1 ^ 2)) := by
  have hμ1 : earthMoon < 1 := by rw [earthMoon_eq]; norm_num
  obtain ⟨Y, τe, x, h1, h2, h3, h4, h5, h6⟩ := rest_case
  have y0 : ∀ τ, Y τ 0 = x := fun τ => congrFun (h4 τ) 0
  have y1 : ∀ τ, Y τ 1 = 0 := fun τ => congrFun (h4 τ) 1
  have y2 : ∀ τ, Y τ 2 = 0 := fun τ => congrFun (h4 τ) 2
  have hJ : stateJacobi earthMoon (Y τe) - planarJacobi earthMoon (first4 (Y 0)) = 0 := by rw [stateJacobi_eq, h4, h4, sub_self]
  have tol : (0 : ℝ) < corTol := by unfold corTol; norm_num
  have n1 : ¬ (1e-3 : ℝ) ≤ |Y τe 1| := by rw [y1]; norm_num
  have n2 : ¬ 100 * 1 * (1 - earthMoon - ((lagrange (fun _ _ => 0) earthMoon).getD 0 (0, 0)).1) ≤ Real.sqrt ((Y 0 0 - Y τe 0) ^ 2 + (Y 0 1 - Y τe 1) ^ 2) := by
    rw [y0, y0, y1, y1]
    simp [lagrange]
    exact hμ1
  have n3 : ¬ |2 * Y τe 20| = 0 := by
    rw [abs_eq_zero]
    have : 0 < 2 * Y τe 20 := by linarith
    exact this.ne'
  refine ⟨fun _ _ => ⟨τe, Y τe⟩, fun M => M⁻¹, fun _ _ => 0, Y 0, ⟨Y 0, 2 * Y τe 20, 2 * τe, 1, []⟩, ?_, rfl, y1 0, y2 0, Y, h1.le, h2, rfl, rfl, h3⟩
  have hd : |Y τe 2| < corTol ∧ |stateJacobi earthMoon (Y τe) - planarJacobi earthMoon (first4 (Y 0))| < corTol := by
    rw [y2, hJ, abs_zero]
    exact ⟨tol, tol⟩
  rw [diffCor, ← h5]
  rw [corLoop]
  simp only [n1, n2, n3, if_false, hd, or_true, if_true, List.append_nil, and_self]

theorem target_some {cor : (ℕ → ℝ) → ℝ → ℝ → Option Cor} (h : ∀ x p C, ∃ c, cor x p C = some c) (mu Cstar : ℝ) (x0 : ℕ → ℝ) (period : ℝ) (n : ℕ) :
    ∃ o, targetLyap cor mu Cstar x0 period n = some o := by
  have loop : ∀ dC0 mF k x p C f, ∃ o, targetLoop cor mu Cstar dC0 mF k x p C f = some o := by
    intro dC0 mF k
    induction k with
    | zero =>
      intro x p C f
      obtain ⟨c, hc⟩ := h x p (C + if |Cstar - C| < |f * dC0| then Cstar - C else f * dC0)
      rw [targetLoop]
      dsimp only
      rw [hc]
      exact ⟨_, rfl⟩
    | succ k ih =>
      intro x p C f
      obtain ⟨c, hc⟩ := h x p (C + if |Cstar - C| < |f * dC0| then Cstar - C else f * dC0)
      rw [targetLoop]
      dsimp only
      rw [hc]
      simp only [Option.bind_eq_bind, Option.bind_some]
      split
      · exact ⟨_, rfl⟩
      · exact ih _ _ _ _
  obtain ⟨c, hc⟩ := h x0 period (stateJacobi mu x0)
  rw [targetLyap]
  dsimp only
  rw [hc]
  exact loop _ _ _ _ _ _ _

/-- A corrector that gives what it is asked for: near the first body, with the velocity that makes up for the difference. -/
noncomputable def goodCor (_ : (ℕ → ℝ)) (_ C : ℝ) : Option Cor :=
  some ⟨fun k => if k = 0 then (1 + |C|)⁻¹ else if k = 3 then Real.sqrt (((1 + |C|)⁻¹) ^ 2 + 2 * (1 + |C|) - C) else 0, 1, 1, 3, []⟩

theorem goodCor_exact (x : ℕ → ℝ) (p C : ℝ) (c : Cor) (h : goodCor x p C = some c) : planarJacobi 0 (first4 c.x0) = C := by
  obtain rfl := Option.some.inj h
  have hC : 0 < 1 + |C| := by positivity
  have hs : 0 ≤ ((1 + |C|)⁻¹) ^ 2 + 2 * (1 + |C|) - C := by
    have := le_abs_self C
    have := abs_nonneg C
    have := sq_nonneg (1 + |C|)⁻¹
    linarith
  have d1 : dist1 0 ![(1 + |C|)⁻¹, 0, 0] = (1 + |C|)⁻¹ := by
    simp only [dist1, Matrix.cons_val_zero, Matrix.cons_val_one, Matrix.cons_val]
    rw [show ((1 + |C|)⁻¹ + 0) ^ 2 + 0 ^ 2 + 0 ^ 2 = ((1 + |C|)⁻¹) ^ 2 by ring]
    exact Real.sqrt_sq (by positivity)
  have e : planarJacobi 0 (first4 fun k => if k = 0 then (1 + |C|)⁻¹ else if k = 3 then Real.sqrt (((1 + |C|)⁻¹) ^ 2 + 2 * (1 + |C|) - C) else 0) =
      jacobi 0 ![(1 + |C|)⁻¹, 0, 0] ![0, Real.sqrt (((1 + |C|)⁻¹) ^ 2 + 2 * (1 + |C|) - C), 0] := by simp [planarJacobi, first4]
  rw [e, jacobi, d1]
  simp only [Matrix.cons_val_zero, Matrix.cons_val_one, Matrix.cons_val, Real.sq_sqrt hs]
  rw [sub_zero, div_inv_eq_mul]
  ring

example (n : ℕ) (x0 : ℕ → ℝ) (period : ℝ) : ∃ o, targetLyap goodCor 0 3 x0 period n = some o ∧ o.found := by
  obtain ⟨o, ho⟩ := target_some (fun x p C => ⟨_, rfl⟩ : ∀ x p C, ∃ c, goodCor x p C = some c) 0 3 x0 period n
  exact ⟨o, ho, ((C109_target goodCor 0 3 x0 period n).2 o ho).2.2.2 fun x p C c hc => by rw [goodCor_exact x p C c hc, sub_self, abs_zero]; norm_num⟩

end Verif.Props
