import Verif.Spec.ScaledQr
import Verif.Lemmas.Pinv

/-! # Scaled QR least squares: matrices over `Fin` -/

namespace Verif.Lemmas.ScaledQr

open Verif.Np Verif.Spec Verif.Model.ScaledQr Verif.Lemmas.LinAlg Matrix

/-- The matrix of an array. -/
abbrev mat (M : Mat ℝ) : Matrix (Fin M.rows) (Fin M.cols) ℝ := corner M.rows M.cols M.at_

/-- The first entries. -/
abbrev fin (n : ℕ) (x : ℕ → ℝ) : Fin n → ℝ := fun i => x i

/-- A vector continued by zeros. -/
def pad {n : ℕ} (v : Fin n → ℝ) : ℕ → ℝ := fun i => if h : i < n then v ⟨i, h⟩ else 0

theorem fin_pad {n : ℕ} (v : Fin n → ℝ) : fin n (pad v) = v := by
  funext i
  simp [fin, pad]

/-- An array of a matrix. -/
def arr {n m : ℕ} (X : Matrix (Fin n) (Fin m) ℝ) : Mat ℝ := ⟨n, m, fun i j => if h : i < n ∧ j < m then X ⟨i, h.1⟩ ⟨j, h.2⟩ else 0⟩

theorem mat_arr {n m : ℕ} (X : Matrix (Fin n) (Fin m) ℝ) : mat (arr X) = X := by
  ext i j
  exact dif_pos ⟨i.2, j.2⟩

theorem arr_at {n m : ℕ} (X : Matrix (Fin n) (Fin m) ℝ) {i j : ℕ} (hi : i < n) (hj : j < m) : (arr X).at_ i j = X ⟨i, hi⟩ ⟨j, hj⟩ :=
  dif_pos ⟨hi, hj⟩

theorem times_fin (M : Mat ℝ) (x : ℕ → ℝ) (i : Fin M.rows) : times M x i = (mat M *ᵥ fin M.cols x) i := by
  unfold times
  rw [Finset.sum_range]
  rfl

theorem fin_times (M : Mat ℝ) (x : ℕ → ℝ) : fin M.rows (times M x) = mat M *ᵥ fin M.cols x := funext fun i => times_fin M x i

theorem fin_timesT (M : Mat ℝ) (y : ℕ → ℝ) : fin M.cols (timesT M y) = (mat M)ᵀ *ᵥ fin M.rows y := by
  funext j
  change timesT M y j = _
  unfold timesT
  rw [Finset.sum_range]
  rfl

theorem sumSq_fin (n : ℕ) (x : ℕ → ℝ) : sumSq n x = fin n x ⬝ᵥ fin n x := by
  unfold sumSq
  rw [Finset.sum_range]
  exact Finset.sum_congr rfl fun i _ => pow_two _

theorem sumSq_times (M : Mat ℝ) (x : ℕ → ℝ) : sumSq M.rows (times M x) = (mat M *ᵥ fin M.cols x) ⬝ᵥ (mat M *ᵥ fin M.cols x) := by
  rw [sumSq_fin, fin_times]

theorem forall_fin {n : ℕ} {x y : ℕ → ℝ} : (∀ i < n, x i = y i) ↔ fin n x = fin n y :=
  ⟨fun h => funext fun i => h i i.2, fun h i hi => congrFun h ⟨i, hi⟩⟩

theorem forall_fin_zero {n : ℕ} {x : ℕ → ℝ} : (∀ i < n, x i = 0) ↔ fin n x = 0 :=
  ⟨fun h => funext fun i => h i i.2, fun h i hi => congrFun h ⟨i, hi⟩⟩

theorem rank_fin (M : Mat ℝ) : FullColumnRank M ↔ ∀ v, mat M *ᵥ v = 0 → v = 0 := by
  unfold FullColumnRank
  simp only [forall_fin_zero, fin_times]
  refine ⟨fun h v hv => ?_, fun h x hx => h _ hx⟩
  have := h (pad v) (by rwa [fin_pad])
  rwa [fin_pad] at this

variable {n m : ℕ}

/-- The singular values and right singular vectors of a matrix. -/
theorem singular (M : Matrix (Fin n) (Fin m) ℝ) : ∃ (V : Matrix (Fin m) (Fin m) ℝ) (d : Fin m → ℝ),
    Vᵀ * V = 1 ∧ V * Vᵀ = 1 ∧ Mᵀ * M = V * diagonal d * Vᵀ ∧ ∀ i, 0 ≤ d i := by
  have hG : (Mᵀ * M).IsHermitian := by
    rw [← conjTranspose_eq_transpose_of_trivial]
    exact isHermitian_conjTranspose_mul_self M
  set V : Matrix (Fin m) (Fin m) ℝ := (hG.eigenvectorUnitary : Matrix (Fin m) (Fin m) ℝ) with hV
  have h1 : Vᵀ * V = 1 := by
    rw [← conjTranspose_eq_transpose_of_trivial, ← star_eq_conjTranspose]
    exact Unitary.coe_star_mul_self _
  have h2 : V * Vᵀ = 1 := mul_eq_one_comm.1 h1
  have h3 : Mᵀ * M = V * diagonal hG.eigenvalues * Vᵀ := by
    have := hG.spectral_theorem
    rw [Unitary.conjStarAlgAut_apply] at this
    rw [← conjTranspose_eq_transpose_of_trivial V, ← star_eq_conjTranspose]
    exact this
  generalize hG.eigenvalues = d at h3
  refine ⟨V, d, h1, h2, h3, fun i => ?_⟩
  have h4 : Vᵀ * (Mᵀ * M) * V = diagonal d := by
    rw [h3]
    calc Vᵀ * (V * diagonal d * Vᵀ) * V = (Vᵀ * V) * diagonal d * (Vᵀ * V) := by
          simp only [Matrix.mul_assoc]
      _ = _ := by rw [h1, Matrix.one_mul, Matrix.mul_one]
  have h5 : (M * V)ᵀ * (M * V) = diagonal d := by
    rw [transpose_mul, ← h4]
    simp only [Matrix.mul_assoc]
  have h6 := congrFun (congrFun h5 i) i
  rw [diagonal_apply_eq] at h6
  rw [← h6, mul_apply]
  exact Finset.sum_nonneg fun k _ => mul_self_nonneg _

theorem norm_of_gram {M : Matrix (Fin n) (Fin m) ℝ} {V : Matrix (Fin m) (Fin m) ℝ} {d : Fin m → ℝ} (h : Mᵀ * M = V * diagonal d * Vᵀ)
    (x : Fin m → ℝ) : (M *ᵥ x) ⬝ᵥ (M *ᵥ x) = ∑ i, d i * (Vᵀ *ᵥ x) i ^ 2 := by
  have h1 : (M *ᵥ x) ⬝ᵥ (M *ᵥ x) = x ⬝ᵥ ((Mᵀ * M) *ᵥ x) := by
    rw [← mulVec_mulVec, dotProduct_mulVec x, vecMul_transpose]
  have h2 : x ⬝ᵥ ((V * diagonal d * Vᵀ) *ᵥ x) = (Vᵀ *ᵥ x) ⬝ᵥ (diagonal d *ᵥ (Vᵀ *ᵥ x)) := by
    rw [← mulVec_mulVec, ← mulVec_mulVec, dotProduct_mulVec x V, ← mulVec_transpose]
  rw [h1, h, h2]
  unfold dotProduct
  refine Finset.sum_congr rfl fun i _ => ?_
  rw [mulVec_diagonal]
  ring

theorem norm_rotate {V : Matrix (Fin m) (Fin m) ℝ} (h : V * Vᵀ = 1) (x : Fin m → ℝ) : x ⬝ᵥ x = ∑ i, (Vᵀ *ᵥ x) i ^ 2 := by
  have h1 : (Vᵀ *ᵥ x) ⬝ᵥ (Vᵀ *ᵥ x) = x ⬝ᵥ x := by
    rw [dotProduct_mulVec, vecMul_transpose, mulVec_mulVec, h, one_mulVec]
  rw [← h1]
  exact Finset.sum_congr rfl fun i _ => (pow_two _).symm

theorem sumSq_pad (v : Fin n → ℝ) : sumSq n (pad v) = v ⬝ᵥ v := by rw [sumSq_fin, fin_pad]

theorem axis_gram {V : Matrix (Fin m) (Fin m) ℝ} (h : Vᵀ * V = 1) (i : Fin m) (j : Fin m) :
    (Vᵀ *ᵥ (V *ᵥ Pi.single i 1)) j = if j = i then 1 else 0 := by
  rw [mulVec_mulVec, h, one_mulVec, Pi.single_apply]

theorem sum_axis {V : Matrix (Fin m) (Fin m) ℝ} (h : Vᵀ * V = 1) (d : Fin m → ℝ) (i : Fin m) :
    ∑ j, d j * (Vᵀ *ᵥ (V *ᵥ Pi.single i 1)) j ^ 2 = d i := by
  simp only [axis_gram h]
  rw [Finset.sum_eq_single i]
  · simp
  · intro j _ hj
    simp [hj]
  · simp

/-- There is a largest singular value. -/
theorem largest_exists (M : Mat ℝ) (hm : 0 < M.cols) : ∃ s, IsLargest M s := by
  obtain ⟨V, d, h1, h2, h3, h4⟩ := singular (mat M)
  obtain ⟨i, -, hi⟩ := Finset.exists_max_image Finset.univ d ⟨⟨0, hm⟩, Finset.mem_univ _⟩
  refine ⟨Real.sqrt (d i), Real.sqrt_nonneg _, fun x => ?_, pad (V *ᵥ Pi.single i 1), ?_, ?_⟩
  · rw [Real.sq_sqrt (h4 i), sumSq_times, sumSq_fin, norm_of_gram h3, norm_rotate h2, Finset.mul_sum]
    exact Finset.sum_le_sum fun j hj => mul_le_mul_of_nonneg_right (hi j hj) (sq_nonneg _)
  · rw [sumSq_pad, norm_rotate h2]
    have := sum_axis h1 (fun _ => 1) i
    simp only [one_mul] at this
    rw [this]
    exact one_ne_zero
  · rw [Real.sq_sqrt (h4 i), sumSq_times, sumSq_pad, fin_pad, norm_of_gram h3, norm_rotate h2, sum_axis h1 d i]
    have := sum_axis h1 (fun _ => 1) i
    simp only [one_mul] at this
    rw [this, mul_one]

/-- There is a smallest singular value. -/
theorem smallest_exists (M : Mat ℝ) (hm : 0 < M.cols) : ∃ s, IsSmallest M s := by
  obtain ⟨V, d, h1, h2, h3, h4⟩ := singular (mat M)
  obtain ⟨i, -, hi⟩ := Finset.exists_min_image Finset.univ d ⟨⟨0, hm⟩, Finset.mem_univ _⟩
  refine ⟨Real.sqrt (d i), Real.sqrt_nonneg _, fun x => ?_, pad (V *ᵥ Pi.single i 1), ?_, ?_⟩
  · rw [Real.sq_sqrt (h4 i), sumSq_times, sumSq_fin, norm_of_gram h3, norm_rotate h2, Finset.mul_sum]
    exact Finset.sum_le_sum fun j hj => mul_le_mul_of_nonneg_right (hi j hj) (sq_nonneg _)
  · rw [sumSq_pad, norm_rotate h2]
    have := sum_axis h1 (fun _ => 1) i
    simp only [one_mul] at this
    rw [this]
    exact one_ne_zero
  · rw [Real.sq_sqrt (h4 i), sumSq_times, sumSq_pad, fin_pad, norm_of_gram h3, norm_rotate h2, sum_axis h1 d i]
    have := sum_axis h1 (fun _ => 1) i
    simp only [one_mul] at this
    rw [this, mul_one]

theorem sumSq_nonneg (n : ℕ) (x : ℕ → ℝ) : 0 ≤ sumSq n x := Finset.sum_nonneg fun _ _ => sq_nonneg _

theorem largest_unique {M : Mat ℝ} {s t : ℝ} (hs : IsLargest M s) (ht : IsLargest M t) : s = t := by
  have key : ∀ {s t : ℝ}, IsLargest M s → IsLargest M t → s ≤ t := by
    intro s t hs ht
    obtain ⟨x, hx, hxs⟩ := hs.2.2
    have h1 := ht.2.1 x
    rw [hxs] at h1
    have h2 : 0 < sumSq M.cols x := lt_of_le_of_ne (sumSq_nonneg _ _) (Ne.symm hx)
    exact abs_le_of_sq_le_sq' (le_of_mul_le_mul_right h1 h2) ht.1 |>.2
  exact le_antisymm (key hs ht) (key ht hs)

theorem smallest_unique {M : Mat ℝ} {s t : ℝ} (hs : IsSmallest M s) (ht : IsSmallest M t) : s = t := by
  have key : ∀ {s t : ℝ}, IsSmallest M s → IsSmallest M t → s ≤ t := by
    intro s t hs ht
    obtain ⟨x, hx, hxs⟩ := ht.2.2
    have h1 := hs.2.1 x
    rw [hxs] at h1
    have h2 : 0 < sumSq M.cols x := lt_of_le_of_ne (sumSq_nonneg _ _) (Ne.symm hx)
    exact abs_le_of_sq_le_sq' (le_of_mul_le_mul_right h1 h2) ht.1 |>.2
  exact le_antisymm (key hs ht) (key ht hs)

/-- A matrix with independent columns has an orthonormal factorisation. -/
theorem qr_exists (M : Mat ℝ) (hM : FullColumnRank M) : ∃ qr : Mat ℝ × Mat ℝ, ReducedQr M qr.1 qr.2 := by
  obtain ⟨V, d, h1, h2, h3, h4⟩ := singular (mat M)
  have hpos : ∀ i, 0 < d i := by
    intro i
    refine lt_of_le_of_ne (h4 i) fun h0 => ?_
    have h5 : mat M *ᵥ (V *ᵥ Pi.single i 1) = 0 := by
      refine dot_self_zero ?_
      rw [norm_of_gram h3, sum_axis h1 d i, ← h0]
    have h6 := (rank_fin M).1 hM _ h5
    have h7 := axis_gram h1 i i
    rw [h6, mulVec_zero] at h7
    simp at h7
  set e : Fin M.cols → ℝ := fun i => Real.sqrt (d i) with he
  set f : Fin M.cols → ℝ := fun i => (Real.sqrt (d i))⁻¹ with hf
  have hsq : ∀ i, Real.sqrt (d i) ≠ 0 := fun i => (Real.sqrt_pos.2 (hpos i)).ne'
  have hfe : diagonal f * diagonal e = 1 := by
    rw [diagonal_mul_diagonal, ← diagonal_one]
    congr 1
    funext i
    exact inv_mul_cancel₀ (hsq i)
  have hfdf : diagonal f * diagonal d * diagonal f = 1 := by
    rw [diagonal_mul_diagonal, diagonal_mul_diagonal, ← diagonal_one]
    congr 1
    funext i
    have : d i = Real.sqrt (d i) * Real.sqrt (d i) := (Real.mul_self_sqrt (h4 i)).symm
    simp only [hf]
    rw [this, Real.sqrt_mul_self (Real.sqrt_nonneg _)]
    field_simp [hsq i]
  set q := mat M * V * diagonal f with hq
  set r := diagonal e * Vᵀ with hr
  have hqr : q * r = mat M := by
    rw [hq, hr]
    calc mat M * V * diagonal f * (diagonal e * Vᵀ) = mat M * (V * (diagonal f * diagonal e) * Vᵀ) := by simp only [Matrix.mul_assoc]
      _ = mat M := by rw [hfe, Matrix.mul_one, h2, Matrix.mul_one]
  have hqq : qᵀ * q = 1 := by
    rw [hq, transpose_mul, transpose_mul, diagonal_transpose]
    calc diagonal f * (Vᵀ * (mat M)ᵀ) * (mat M * V * diagonal f) = diagonal f * (Vᵀ * ((mat M)ᵀ * mat M) * V) * diagonal f := by
          simp only [Matrix.mul_assoc]
      _ = diagonal f * ((Vᵀ * V) * diagonal d * (Vᵀ * V)) * diagonal f := by rw [h3]; simp only [Matrix.mul_assoc]
      _ = 1 := by rw [h1, Matrix.one_mul, Matrix.mul_one, hfdf]
  refine ⟨(arr q, arr r), rfl, rfl, rfl, rfl, fun i hi j hj => ?_, fun j hj k hk => ?_⟩
  · have := congrFun (congrFun hqr ⟨i, hi⟩) ⟨j, hj⟩
    rw [mul_apply] at this
    rw [Finset.sum_range]
    refine Eq.trans (Finset.sum_congr rfl fun k _ => ?_) this
    exact congrArg₂ (· * ·) (arr_at q hi k.2) (arr_at r k.2 hj)
  · have := congrFun (congrFun hqq ⟨j, hj⟩) ⟨k, hk⟩
    rw [mul_apply, one_apply] at this
    rw [Finset.sum_range]
    refine Eq.trans (Finset.sum_congr rfl fun i _ => ?_) (this.trans ?_)
    · exact congrArg₂ (· * ·) (arr_at q i.2 hj) (arr_at q i.2 hk)
    · simp [Fin.ext_iff]

/-- The pseudo-inverse with cut-off exists. -/
theorem cutPinv_exists (M : Mat ℝ) (c : ℝ) (hc : 0 ≤ c) : ∃ P, CutPinv M c P := by
  classical
  obtain ⟨V, d, h1, h2, h3, h4⟩ := singular (mat M)
  -- the coefficient of a right singular vector
  let g : ℝ → ℝ := fun x => if ∃ t, IsLargest M t ∧ c * t < Real.sqrt x then x⁻¹ else 0
  set Q := V * diagonal (fun i => g (d i)) * Vᵀ * (mat M)ᵀ with hQ
  have key : ∀ (v : Fin M.cols → ℝ) (x : ℝ), (mat M)ᵀ *ᵥ (mat M *ᵥ v) = x • v → Q *ᵥ (mat M *ᵥ v) = (x * g x) • v := by
    intro v x hv
    have h5 : diagonal d *ᵥ (Vᵀ *ᵥ v) = x • (Vᵀ *ᵥ v) := by
      rw [mulVec_mulVec, h3] at hv
      have h6 : Vᵀ *ᵥ ((V * diagonal d * Vᵀ) *ᵥ v) = Vᵀ *ᵥ (x • v) := by rw [hv]
      rw [mulVec_smul, mulVec_mulVec] at h6
      rw [← h6, mulVec_mulVec]
      congr 1
      calc diagonal d * Vᵀ = (Vᵀ * V) * diagonal d * Vᵀ := by rw [h1, Matrix.one_mul]
        _ = _ := by simp only [Matrix.mul_assoc]
    have h7 : diagonal (fun i => g (d i)) *ᵥ (Vᵀ *ᵥ v) = g x • (Vᵀ *ᵥ v) := by
      funext i
      have h8 := congrFun h5 i
      rw [mulVec_diagonal, Pi.smul_apply, smul_eq_mul] at h8
      rw [mulVec_diagonal, Pi.smul_apply, smul_eq_mul]
      by_cases hw : (Vᵀ *ᵥ v) i = 0
      · rw [hw, mul_zero, mul_zero]
      · rw [mul_right_cancel₀ hw h8]
    rw [hQ, ← mulVec_mulVec, hv, mulVec_smul, ← mulVec_mulVec, ← mulVec_mulVec, h7, mulVec_smul, mulVec_mulVec, h2, one_mulVec, smul_smul]
  have hcond : ∀ (s : ℝ) (v : ℕ → ℝ), (∀ j < M.cols, timesT M (times M v) j = s ^ 2 * v j) →
      (mat M)ᵀ *ᵥ (mat M *ᵥ fin M.cols v) = s ^ 2 • fin M.cols v := by
    intro s v hv
    have h5 : fin M.cols (timesT M (times M v)) = s ^ 2 • fin M.cols v := funext fun j => hv j j.2
    rwa [fin_timesT, fin_times] at h5
  have hres : ∀ w : ℕ → ℝ, fin M.cols (times (arr Q) w) = Q *ᵥ fin M.rows w := by
    intro w
    have := fin_times (arr Q) w
    rw [mat_arr] at this
    exact this
  refine ⟨arr Q, rfl, rfl, fun s t v ht hs hv hlt => ?_, fun s t v ht hs hv hle => ?_, fun w hw => ?_⟩
  · rw [forall_fin, hres, fin_times, key _ _ (hcond s v hv)]
    have hg : g (s ^ 2) = (s ^ 2)⁻¹ := if_pos ⟨t, ht, by rwa [Real.sqrt_sq hs]⟩
    have hs0 : s ≠ 0 := by
      have := mul_nonneg hc ht.1
      intro h
      rw [h] at hlt
      linarith
    rw [hg, mul_inv_cancel₀ (pow_ne_zero 2 hs0), one_smul]
  · rw [forall_fin_zero, hres, fin_times, key _ _ (hcond s v hv)]
    have hg : g (s ^ 2) = 0 := by
      refine if_neg ?_
      rintro ⟨t', ht', hlt⟩
      rw [Real.sqrt_sq hs, largest_unique ht' ht] at hlt
      linarith
    rw [hg, mul_zero, zero_smul]
  · rw [forall_fin_zero, hres, hQ, ← mulVec_mulVec]
    have h5 : fin M.cols (timesT M w) = 0 := forall_fin_zero.1 hw
    rw [fin_timesT] at h5
    rw [h5, mulVec_zero]

/-- There are library functions meeting the contracts, with any spacing. -/
theorem scaledLib_exists (spacing : ℝ → ℝ) (hs : ∀ x, 0 ≤ x → 0 < spacing x) : ∃ lib : Lib, ScaledLib lib ∧ lib.spacing = spacing := by
  classical
  have hqr : ∀ M, ∃ qr : Mat ℝ × Mat ℝ, FullColumnRank M → ReducedQr M qr.1 qr.2 := by
    intro M
    by_cases h : FullColumnRank M
    · exact (qr_exists M h).imp fun _ hq _ => hq
    · exact ⟨(M, M), fun h' => absurd h' h⟩
  have hpinv : ∀ M c, ∃ P, 0 ≤ c → CutPinv M c P := by
    intro M c
    by_cases h : 0 ≤ c
    · exact (cutPinv_exists M c h).imp fun _ hq _ => hq
    · exact ⟨M, fun h' => absurd h' h⟩
  have hnorm : ∀ M : Mat ℝ, ∃ s, 0 < M.cols → IsLargest M s := by
    intro M
    by_cases h : 0 < M.cols
    · exact (largest_exists M h).imp fun _ hq _ => hq
    · exact ⟨0, fun h' => absurd h' h⟩
  have hcond : ∀ M : Mat ℝ, ∃ s, 0 < M.cols → FullColumnRank M → IsCondition M s := by
    intro M
    by_cases h : 0 < M.cols
    · obtain ⟨s, hs⟩ := largest_exists M h
      obtain ⟨t, ht⟩ := smallest_exists M h
      exact ⟨s / t, fun _ _ => ⟨s, t, hs, ht, rfl⟩⟩
    · exact ⟨0, fun h' => absurd h' h⟩
  choose qr hqr using hqr
  choose pinv hpinv using hpinv
  choose norm2 hnorm using hnorm
  choose cond hcond using hcond
  exact ⟨⟨qr, pinv, cond, norm2, spacing⟩, ⟨hqr, hpinv, hcond, hnorm, hs⟩, rfl⟩

end Verif.Lemmas.ScaledQr
