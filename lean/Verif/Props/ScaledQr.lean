import Verif.Lemmas.ScaledQr

/-!
# C53: least squares by a scaled QR decomposition

Python: /repo/src/tfc/utils/TFCUtils.py 1687–1728.
-/

namespace Verif.Props

open Verif.Py Verif.Np Verif.Spec Verif.Model.ScaledQr Verif.Lemmas.LinAlg Verif.Lemmas.ScaledQr Matrix

variable {n m : ℕ}

theorem largest_iff {M : Mat ℝ} (hn : M.rows = n) (hm : M.cols = m) (s : ℝ) : IsLargest M s ↔ 0 ≤ s ∧
    (∀ v : Fin m → ℝ, (corner n m M.at_ *ᵥ v) ⬝ᵥ (corner n m M.at_ *ᵥ v) ≤ s ^ 2 * (v ⬝ᵥ v)) ∧
    ∃ v : Fin m → ℝ, v ⬝ᵥ v ≠ 0 ∧ (corner n m M.at_ *ᵥ v) ⬝ᵥ (corner n m M.at_ *ᵥ v) = s ^ 2 * (v ⬝ᵥ v) := by
  subst hn hm
  unfold IsLargest
  refine and_congr_right fun _ => and_congr ⟨fun h v => ?_, fun h x => ?_⟩ ⟨?_, ?_⟩
  · have := h (pad v)
    rwa [sumSq_times, sumSq_pad, fin_pad] at this
  · rw [sumSq_times, sumSq_fin]
    exact h _
  · rintro ⟨x, h1, h2⟩
    rw [sumSq_times, sumSq_fin] at h2
    rw [sumSq_fin] at h1
    exact ⟨_, h1, h2⟩
  · rintro ⟨v, h1, h2⟩
    refine ⟨pad v, by rwa [sumSq_pad], by rwa [sumSq_times, sumSq_pad, fin_pad]⟩

theorem smallest_iff {M : Mat ℝ} (hn : M.rows = n) (hm : M.cols = m) (s : ℝ) : IsSmallest M s ↔ 0 ≤ s ∧
    (∀ v : Fin m → ℝ, s ^ 2 * (v ⬝ᵥ v) ≤ (corner n m M.at_ *ᵥ v) ⬝ᵥ (corner n m M.at_ *ᵥ v)) ∧
    ∃ v : Fin m → ℝ, v ⬝ᵥ v ≠ 0 ∧ (corner n m M.at_ *ᵥ v) ⬝ᵥ (corner n m M.at_ *ᵥ v) = s ^ 2 * (v ⬝ᵥ v) := by
  subst hn hm
  unfold IsSmallest
  refine and_congr_right fun _ => and_congr ⟨fun h v => ?_, fun h x => ?_⟩ ⟨?_, ?_⟩
  · have := h (pad v)
    rwa [sumSq_times, sumSq_pad, fin_pad] at this
  · rw [sumSq_times, sumSq_fin]
    exact h _
  · rintro ⟨x, h1, h2⟩
    rw [sumSq_times, sumSq_fin] at h2
    rw [sumSq_fin] at h1
    exact ⟨_, h1, h2⟩
  · rintro ⟨v, h1, h2⟩
    refine ⟨pad v, by rwa [sumSq_pad], by rwa [sumSq_times, sumSq_pad, fin_pad]⟩

theorem rank_iff {M : Mat ℝ} (hn : M.rows = n) (hm : M.cols = m) :
    FullColumnRank M ↔ ∀ v : Fin m → ℝ, corner n m M.at_ *ᵥ v = 0 → v = 0 := by
  subst hn hm
  exact rank_fin M

/-- The contract of QR in matrices. -/
theorem qr_fin {M q r : Mat ℝ} (h : ReducedQr M q r) :
    corner M.rows M.cols q.at_ * corner M.cols M.cols r.at_ = mat M ∧
      (corner M.rows M.cols q.at_)ᵀ * corner M.rows M.cols q.at_ = 1 := by
  constructor
  · ext i j
    have := h.product i i.2 j j.2
    rw [Finset.sum_range] at this
    exact this
  · ext j k
    have := h.orthonormal j j.2 k k.2
    rw [Finset.sum_range] at this
    rw [one_apply]
    refine Eq.trans this ?_
    simp [Fin.ext_iff]

theorem qr_norm {q : Matrix (Fin n) (Fin m) ℝ} (h : qᵀ * q = 1) (u : Fin m → ℝ) : (q *ᵥ u) ⬝ᵥ (q *ᵥ u) = u ⬝ᵥ u := by
  rw [dotProduct_mulVec, ← mulVec_transpose, mulVec_mulVec, h, one_mulVec]

/-- `r` has the singular values of `M`. -/
theorem qr_largest {M q r : Mat ℝ} (h : ReducedQr M q r) (s : ℝ) : IsLargest r s ↔ IsLargest M s := by
  obtain ⟨h1, h2⟩ := qr_fin h
  rw [largest_iff h.r_rows h.r_cols, largest_iff (M := M) rfl rfl]
  have h3 : ∀ v, (mat M *ᵥ v) ⬝ᵥ (mat M *ᵥ v) = (corner M.cols M.cols r.at_ *ᵥ v) ⬝ᵥ (corner M.cols M.cols r.at_ *ᵥ v) := by
    intro v
    rw [← h1, ← mulVec_mulVec, qr_norm h2]
  simp only [h3]

theorem qr_smallest {M q r : Mat ℝ} (h : ReducedQr M q r) (s : ℝ) : IsSmallest r s ↔ IsSmallest M s := by
  obtain ⟨h1, h2⟩ := qr_fin h
  rw [smallest_iff h.r_rows h.r_cols, smallest_iff (M := M) rfl rfl]
  have h3 : ∀ v, (mat M *ᵥ v) ⬝ᵥ (mat M *ᵥ v) = (corner M.cols M.cols r.at_ *ᵥ v) ⬝ᵥ (corner M.cols M.cols r.at_ *ᵥ v) := by
    intro v
    rw [← h1, ← mulVec_mulVec, qr_norm h2]
  simp only [h3]

theorem qr_rank {M q r : Mat ℝ} (h : ReducedQr M q r) (hM : FullColumnRank M) : FullColumnRank r := by
  obtain ⟨h1, h2⟩ := qr_fin h
  rw [rank_iff h.r_rows h.r_cols]
  intro v hv
  refine (rank_fin M).1 hM v ?_
  rw [← h1, ← mulVec_mulVec, hv, mulVec_zero]

/-- A matrix that vanishes on the right singular vectors is zero. -/
theorem zero_of_singular (R : Matrix (Fin n) (Fin m) ℝ) (X : Matrix (Fin m) (Fin m) ℝ)
    (h : ∀ (v : Fin m → ℝ) (x : ℝ), 0 ≤ x → v ≠ 0 → Rᵀ *ᵥ (R *ᵥ v) = x • v → X *ᵥ v = 0) : X = 0 := by
  obtain ⟨V, d, h1, h2, h3, h4⟩ := singular R
  have h5 : X * V = 0 := by
    ext i j
    have h6 : V *ᵥ Pi.single j 1 ≠ 0 := by
      intro h0
      have := axis_gram h1 j j
      rw [h0, mulVec_zero] at this
      simp at this
    have h7 : Rᵀ *ᵥ (R *ᵥ (V *ᵥ Pi.single j 1)) = d j • (V *ᵥ Pi.single j 1) := by
      rw [mulVec_mulVec, h3, ← mulVec_mulVec, ← mulVec_mulVec, mulVec_mulVec _ Vᵀ, h1, one_mulVec, diagonal_mulVec_single, mul_one,
        ← mulVec_smul, ← Pi.single_smul, smul_eq_mul, mul_one]
    have h8 := h _ _ (h4 j) h6 h7
    rw [mulVec_mulVec] at h8
    have := congrFun h8 i
    rwa [mulVec_single_one] at this
  calc X = X * V * Vᵀ := by rw [Matrix.mul_assoc, h2, Matrix.mul_one]
    _ = 0 := by rw [h5, Matrix.zero_mul]

/-- If no singular value is cut off, the pseudo-inverse of a matrix with independent columns is a left inverse. -/
theorem cutPinv_left {R P : Mat ℝ} {c : ℝ} (h : CutPinv R c P) {s t : ℝ} (hs : IsLargest R s) (ht : IsSmallest R t) (hcut : c * s < t) :
    corner R.cols R.rows P.at_ * mat R = 1 := by
  rw [← sub_eq_zero]
  refine zero_of_singular (mat R) _ fun v x hx hv hsing => ?_
  have h1 : ∀ j < R.cols, timesT R (times R (pad v)) j = Real.sqrt x ^ 2 * pad v j := by
    have : fin R.cols (timesT R (times R (pad v))) = fin R.cols fun j => Real.sqrt x ^ 2 * pad v j := by
      rw [fin_timesT, fin_times, fin_pad, hsing, Real.sq_sqrt hx]
      funext j
      rw [Pi.smul_apply, smul_eq_mul]
      congr 1
      exact (congrFun (fin_pad v) j).symm
    exact forall_fin.2 this
  have hvv : 0 < v ⬝ᵥ v := lt_of_le_of_ne (dot_self_nonneg v) fun h => hv (dot_self_zero h.symm)
  have h2 : t ≤ Real.sqrt x := by
    refine Real.le_sqrt_of_sq_le ?_
    have h3 := ((smallest_iff rfl rfl t).1 ht).2.1 v
    have h4 : (mat R *ᵥ v) ⬝ᵥ (mat R *ᵥ v) = x * (v ⬝ᵥ v) := by
      rw [dotProduct_mulVec, ← mulVec_transpose, hsing, smul_dotProduct, smul_eq_mul]
    rw [h4] at h3
    exact le_of_mul_le_mul_right h3 hvv
  have h3 := h.large (Real.sqrt x) s (pad v) hs (Real.sqrt_nonneg _) h1 (lt_of_lt_of_le hcut h2)
  rw [sub_mulVec, one_mulVec, sub_eq_zero, ← mulVec_mulVec]
  funext j
  have h4 := h3 j j.2
  have h5 : times P (times R (pad v)) j = (corner R.cols R.rows P.at_ *ᵥ (mat R *ᵥ v)) j := by
    unfold times
    rw [h.cols, Finset.sum_range]
    have h6 : ∀ k : Fin R.rows, times R (pad v) k = (mat R *ᵥ v) k := by
      intro k
      rw [times_fin, fin_pad]
    change ∑ k : Fin R.rows, P.at_ j k * times R (pad v) k = _
    simp only [h6]
    rfl
  rw [← h5, h4]
  exact congrFun (fin_pad v) j

/-! ### The model -/

/-- The scaled matrix as computed. -/
noncomputable def scaledM (A : Mat ℝ) : Mat ℝ :=
  ⟨A.rows, A.cols, fun i j => ∑ k ∈ Finset.range A.cols, A.at_ i k * (diag A.cols (colScale A)).at_ k j⟩

theorem scaledM_eq (A : Mat ℝ) : mul A (diag A.cols (colScale A)) = .ok (scaledM A) := if_pos rfl

theorem scaledM_at (A : Mat ℝ) (i : ℕ) {j : ℕ} (hj : j < A.cols) : (scaledM A).at_ i j = A.at_ i j * colScale A j := by
  change ∑ k ∈ Finset.range A.cols, A.at_ i k * (if k = j then colScale A k else 0) = _
  rw [Finset.sum_eq_single j]
  · rw [if_pos rfl]
  · intro k _ hk
    rw [if_neg hk, mul_zero]
  · intro h
    exact absurd (Finset.mem_range.2 hj) h

theorem scaledM_mat (A : Mat ℝ) : corner A.rows A.cols (scaledM A).at_ = mat A * diagonal (fin A.cols (colScale A)) := by
  ext i j
  rw [mul_diagonal]
  exact scaledM_at A i j.2

theorem scaledM_unit (A : Mat ℝ) : corner A.rows A.cols (scaledM A).at_ = corner A.rows A.cols (unitColumns A).at_ := by
  ext i j
  refine (scaledM_at A i j.2).trans ?_
  change _ = A.at_ i j / Real.sqrt (sumSq A.rows fun k => A.at_ k j)
  unfold colScale sumSq
  simp only [← pow_two]
  rw [mul_one_div]

theorem colScale_ne_zero {A : Mat ℝ} (hA : FullColumnRank A) {j : ℕ} (hj : j < A.cols) : colScale A j ≠ 0 := by
  unfold colScale
  refine one_div_ne_zero ((Real.sqrt_pos.2 ?_).ne')
  refine lt_of_le_of_ne (Finset.sum_nonneg fun i _ => mul_self_nonneg _) fun h0 => ?_
  have h1 := (Finset.sum_eq_zero_iff_of_nonneg fun i _ => mul_self_nonneg _).1 h0.symm
  have h2 := hA (fun k => if k = j then 1 else 0) (fun i hi => ?_) j hj
  · simp at h2
  · unfold times
    rw [Finset.sum_eq_single j]
    · beta_reduce
      rw [if_pos rfl, mul_one]
      exact mul_self_eq_zero.1 (h1 i (Finset.mem_range.2 hi))
    · intro k _ hk
      beta_reduce
      rw [if_neg hk, mul_zero]
    · intro h
      exact absurd (Finset.mem_range.2 hj) h

theorem scaledM_rank {A : Mat ℝ} (hA : FullColumnRank A) : FullColumnRank (scaledM A) := by
  rw [rank_iff (M := scaledM A) (n := A.rows) (m := A.cols) rfl rfl]
  intro v hv
  rw [scaledM_mat, ← mulVec_mulVec] at hv
  have h1 := (rank_fin A).1 hA _ hv
  funext j
  have h2 := congrFun h1 j
  rw [mulVec_diagonal] at h2
  exact (mul_eq_zero.1 h2).resolve_left (colScale_ne_zero hA j.2)

theorem mulVec_ok {M : Mat ℝ} {b : List ℝ} (hn : M.rows = n) (hm : M.cols = m) (hb : b.length = m) :
    ∃ y, mulVec M b = .ok y ∧ y.length = n ∧ fin n (vec y) = corner n m M.at_ *ᵥ fin m (vec b) := by
  subst hn hm
  refine ⟨_, if_pos hb.symm, by simp, ?_⟩
  funext i
  change ((List.range M.rows).map _).getD i 0 = _
  rw [List.getD_eq_getElem?_getD, List.getElem?_map, List.getElem?_range i.2]
  simp only [Option.map_some, Option.getD_some]
  rw [Finset.sum_range]
  rfl

/-- What `ScaledQrLs` computes, in matrices. -/
theorem scaled_run {lib : Lib} (hlib : ScaledLib lib) {A : Mat ℝ} (hA : FullColumnRank A) {b : List ℝ} (hb : b.length = A.rows) :
    ∃ x, scaledQrLs lib A (.d1 b) = .ok (.d1 x, lib.cond (lib.qr (scaledM A)).2) ∧ x.length = A.cols ∧
      fin A.cols (vec x) = diagonal (fin A.cols (colScale A)) *ᵥ (corner A.cols A.cols (matPinv lib (lib.qr (scaledM A)).2).at_ *ᵥ
        ((corner A.rows A.cols (lib.qr (scaledM A)).1.at_)ᵀ *ᵥ fin A.rows (vec b))) := by
  have hqr := hlib.qr _ (scaledM_rank hA)
  have hr1 : (lib.qr (scaledM A)).2.rows = A.cols := hqr.r_rows
  have hr2 : (lib.qr (scaledM A)).2.cols = A.cols := hqr.r_cols
  have hP : (matPinv lib (lib.qr (scaledM A)).2).rows = A.cols ∧ (matPinv lib (lib.qr (scaledM A)).2).cols = A.cols := by
    unfold matPinv
    have hc : 0 ≤ (max (lib.qr (scaledM A)).2.rows (lib.qr (scaledM A)).2.cols : ℕ) * lib.spacing (lib.norm2 (lib.qr (scaledM A)).2) := by
      by_cases h0 : 0 < A.cols
      · exact mul_nonneg (Nat.cast_nonneg _) (hlib.spacing _ (hlib.norm2 _ (by rw [hr2]; exact h0)).1).le
      · have h0 : A.cols = 0 := by omega
        rw [hr1, hr2, h0]
        simp
    have := hlib.pinv (lib.qr (scaledM A)).2 _ hc
    exact ⟨this.rows.trans hr2, this.cols.trans hr1⟩
  obtain ⟨y, hy1, hy2, hy3⟩ := mulVec_ok (M := transpose (lib.qr (scaledM A)).1) (n := A.cols) (m := A.rows) hqr.q_cols hqr.q_rows hb
  obtain ⟨z, hz1, hz2, hz3⟩ := mulVec_ok (M := matPinv lib (lib.qr (scaledM A)).2) hP.1 hP.2 hy2
  refine ⟨(List.range A.cols).map fun j => colScale A j * z.getD j 0, ?_, by simp, ?_⟩
  · unfold scaledQrLs
    rw [scaledM_eq]
    simp only [bind, Except.bind, multiDot, hy1, hz1, scale, scaleList]
    rw [if_pos hz2]
  · funext j
    change ((List.range A.cols).map _).getD j 0 = _
    rw [List.getD_eq_getElem?_getD, List.getElem?_map, List.getElem?_range j.2]
    simp only [Option.map_some, Option.getD_some]
    rw [mulVec_diagonal]
    congr 1
    have h1 := congrFun hz3 j
    rw [hy3] at h1
    exact h1

/-- The pseudo-inverse computed is a left inverse if nothing is cut off. -/
theorem matPinv_left {lib : Lib} (hlib : ScaledLib lib) {A : Mat ℝ} (hA : FullColumnRank A) (hm : 0 < A.cols)
    (hcut : ∀ s t, IsLargest (unitColumns A) s → IsSmallest (unitColumns A) t → A.cols * lib.spacing s * s < t) :
    corner A.cols A.cols (matPinv lib (lib.qr (scaledM A)).2).at_ * corner A.cols A.cols (lib.qr (scaledM A)).2.at_ = 1 := by
  have hqr := hlib.qr _ (scaledM_rank hA)
  obtain ⟨t, ht⟩ := smallest_exists (unitColumns A) hm
  have hs := hlib.norm2 (lib.qr (scaledM A)).2 (by rw [hqr.r_cols]; exact hm)
  have hs' : IsLargest (unitColumns A) (lib.norm2 (lib.qr (scaledM A)).2) := by
    rw [qr_largest hqr, largest_iff (M := scaledM A) (n := A.rows) (m := A.cols) rfl rfl, scaledM_unit] at hs
    exact (largest_iff (M := unitColumns A) (n := A.rows) (m := A.cols) rfl rfl _).2 hs
  have ht' : IsSmallest (lib.qr (scaledM A)).2 t := by
    rw [qr_smallest hqr, smallest_iff (M := scaledM A) (n := A.rows) (m := A.cols) rfl rfl, scaledM_unit]
    exact (smallest_iff (M := unitColumns A) (n := A.rows) (m := A.cols) rfl rfl _).1 ht
  have hc := hcut _ _ hs' ht
  have hsp := (hlib.spacing _ hs.1).le
  have hpinv := hlib.pinv (lib.qr (scaledM A)).2 (A.cols * lib.spacing (lib.norm2 (lib.qr (scaledM A)).2))
    (mul_nonneg (Nat.cast_nonneg _) hsp)
  have hmax : (max (lib.qr (scaledM A)).2.rows (lib.qr (scaledM A)).2.cols) = A.cols := by
    rw [hqr.r_rows, hqr.r_cols]
    exact max_self _
  have hleft := cutPinv_left hpinv hs ht' hc
  unfold matPinv
  rw [hmax]
  have hr1 : (lib.qr (scaledM A)).2.rows = A.cols := hqr.r_rows
  have hr2 : (lib.qr (scaledM A)).2.cols = A.cols := hqr.r_cols
  have cast : ∀ {k l : ℕ} (X Y : ℕ → ℕ → ℝ), k = A.cols → l = A.cols → corner l k X * corner k l Y = 1 →
      corner A.cols A.cols X * corner A.cols A.cols Y = 1 := by
    intro k l X Y hk hl h
    subst hk
    subst hl
    exact h
  exact cast _ _ hr1 hr2 hleft

/-- **C53**, partly: for a matrix with independent columns and a one-dimensional right-hand side, if no singular value of the scaled matrix falls
below the cut-off `m · spacing(s) · s` of `_MatPinv` (`s` the largest one), `ScaledQrLs` returns the minimiser of `|A x - b|` and the condition number
of the scaled matrix. Missing: nearly dependent columns (`C53_cutoff_fails`) and a two-dimensional `B` (`C53_column_fails`). -/
theorem C53_partial {lib : Lib} (hlib : ScaledLib lib) {A : Mat ℝ} (hA : FullColumnRank A) (hm : 0 < A.cols) {b : List ℝ} (hb : b.length = A.rows)
    (hcut : ∀ s t, IsLargest (unitColumns A) s → IsSmallest (unitColumns A) t → A.cols * lib.spacing s * s < t) :
    ∃ x cn, scaledQrLs lib A (.d1 b) = .ok (.d1 x, cn) ∧ x.length = A.cols ∧
      (∀ y, missSq A.rows A.cols A.at_ (vec x) (vec b) ≤ missSq A.rows A.cols A.at_ y (vec b)) ∧ IsCondition (unitColumns A) cn := by
  obtain ⟨x, h1, h2, h3⟩ := scaled_run hlib hA hb
  have hqr := hlib.qr _ (scaledM_rank hA)
  have hleft := matPinv_left hlib hA hm hcut
  obtain ⟨hq1, hq2⟩ := qr_fin hqr
  change corner A.rows A.cols _ * corner A.cols A.cols _ = corner A.rows A.cols (scaledM A).at_ at hq1
  change (corner A.rows A.cols _)ᵀ * corner A.rows A.cols _ = 1 at hq2
  rw [scaledM_mat] at hq1
  refine ⟨x, _, h1, h2, fun y => ?_, ?_⟩
  · generalize corner A.cols A.cols (matPinv lib (lib.qr (scaledM A)).2).at_ = P at h3 hleft
    generalize corner A.cols A.cols (lib.qr (scaledM A)).2.at_ = r at hleft hq1
    generalize corner A.rows A.cols (lib.qr (scaledM A)).1.at_ = q at hq1 hq2 h3
    have hright : r * P = 1 := mul_eq_one_comm.1 hleft
    set S := diagonal (fin A.cols (colScale A)) with hS
    set T := diagonal (fun j => (fin A.cols (colScale A) j)⁻¹) with hT
    have hST : S * T = 1 := by
      rw [hS, hT, diagonal_mul_diagonal, ← diagonal_one]
      congr 1
      funext j
      exact mul_inv_cancel₀ (colScale_ne_zero hA j.2)
    have hA' : mat A = q * r * T := by
      rw [hq1, Matrix.mul_assoc, hST, Matrix.mul_one]
    have hTS : T * S = 1 := mul_eq_one_comm.1 hST
    have hAP : mat A * (S * P * qᵀ) = q * qᵀ := by
      rw [hA']
      calc q * r * T * (S * P * qᵀ) = q * (r * ((T * S) * P)) * qᵀ := by simp only [Matrix.mul_assoc]
        _ = q * qᵀ := by rw [hTS, Matrix.one_mul, hright, Matrix.mul_one]
    have hPA : (S * P * qᵀ) * mat A = 1 := by
      rw [hA']
      calc (S * P * qᵀ) * (q * r * T) = S * (P * ((qᵀ * q) * r)) * T := by simp only [Matrix.mul_assoc]
        _ = 1 := by rw [hq2, Matrix.one_mul, hleft, Matrix.mul_one, hST]
    have hMP : MoorePenrose (mat A) (S * P * qᵀ) :=
      ⟨by rw [Matrix.mul_assoc, hPA, Matrix.mul_one], by rw [hPA, Matrix.one_mul], by rw [hAP, transpose_mul, transpose_transpose],
        by rw [hPA, transpose_one]⟩
    have hx : fin A.cols (vec x) = (S * P * qᵀ) *ᵥ fin A.rows (vec b) := by
      rw [h3, mulVec_mulVec, mulVec_mulVec, Matrix.mul_assoc]
    rw [missSq_fin, missSq_fin]
    change (mat A *ᵥ fin A.cols (vec x) - fin A.rows (vec b)) ⬝ᵥ (mat A *ᵥ fin A.cols (vec x) - fin A.rows (vec b)) ≤ _
    rw [hx]
    exact pinv_min hMP _ _
  · obtain ⟨s, t, hs, ht, hst⟩ := hlib.cond (lib.qr (scaledM A)).2 (by rw [hqr.r_cols]; exact hm) (qr_rank hqr (scaledM_rank hA))
    refine ⟨s, t, ?_, ?_, hst⟩
    · rw [qr_largest hqr, largest_iff (M := scaledM A) (n := A.rows) (m := A.cols) rfl rfl, scaledM_unit] at hs
      exact (largest_iff (M := unitColumns A) (n := A.rows) (m := A.cols) rfl rfl _).2 hs
    · rw [qr_smallest hqr, smallest_iff (M := scaledM A) (n := A.rows) (m := A.cols) rfl rfl, scaledM_unit] at ht
      exact (smallest_iff (M := unitColumns A) (n := A.rows) (m := A.cols) rfl rfl _).2 ht

/-! ### Where the claim fails -/

/-- The matrix with the columns `(c, t)` and `(c, -t)`. -/
def nearlyParallel (c t : ℝ) : Mat ℝ := ⟨2, 2, fun i j => if i = 0 then c else if j = 0 then t else -t⟩

theorem nearlyParallel_times (c t : ℝ) (x : ℕ → ℝ) :
    times (nearlyParallel c t) x 0 = c * x 0 + c * x 1 ∧ times (nearlyParallel c t) x 1 = t * x 0 - t * x 1 := by
  unfold times nearlyParallel
  constructor
  · simp [Finset.sum_range_succ]
  · simp [Finset.sum_range_succ]
    ring

theorem nearlyParallel_rank {c t : ℝ} (hc : c ≠ 0) (ht : t ≠ 0) : FullColumnRank (nearlyParallel c t) := by
  intro x hx
  have h0 := hx 0 (Nat.zero_lt_two)
  have h1 := hx 1 (Nat.one_lt_two)
  rw [(nearlyParallel_times c t x).1, ← mul_add] at h0
  rw [(nearlyParallel_times c t x).2, ← mul_sub] at h1
  have h2 := (mul_eq_zero.1 h0).resolve_left hc
  have h3 := (mul_eq_zero.1 h1).resolve_left ht
  intro j hj
  have hj : j < 2 := hj
  interval_cases j <;> linarith

theorem qr_gram {M q r : Mat ℝ} (h : ReducedQr M q r) (v : ℕ → ℝ) : ∀ j < r.cols, timesT r (times r v) j = timesT M (times M v) j := by
  obtain ⟨h1, h2⟩ := qr_fin h
  rw [h.r_cols, forall_fin, fin_timesT, fin_times]
  have h3 : fin M.cols (timesT r (times r v)) = (corner M.cols M.cols r.at_)ᵀ *ᵥ (corner M.cols M.cols r.at_ *ᵥ fin M.cols v) := by
    funext j
    change timesT r (times r v) j = _
    unfold timesT times
    rw [h.r_rows, h.r_cols, Finset.sum_range]
    simp only [Finset.sum_range (n := M.cols)]
    rfl
  rw [h3, ← h1, transpose_mul, mulVec_mulVec, mulVec_mulVec]
  congr 1
  calc (corner M.cols M.cols r.at_)ᵀ * corner M.cols M.cols r.at_ =
        (corner M.cols M.cols r.at_)ᵀ * ((corner M.rows M.cols q.at_)ᵀ * corner M.rows M.cols q.at_) * corner M.cols M.cols r.at_ := by
        rw [h2, Matrix.mul_one]
    _ = _ := by simp only [Matrix.mul_assoc]

theorem nearlyParallel_scale {c t : ℝ} (h : c ^ 2 + t ^ 2 = 1) {j : ℕ} (hj : j < 2) : colScale (nearlyParallel c t) j = 1 := by
  unfold colScale nearlyParallel
  have : ∑ i ∈ Finset.range 2, (if i = 0 then c else if j = 0 then t else -t) * (if i = 0 then c else if j = 0 then t else -t) = 1 := by
    rw [Finset.sum_range_succ, Finset.sum_range_one]
    interval_cases j
    · simp
      linarith
    · simp
      linarith
  simp only [this]
  norm_num

/-- The claim fails when the columns are nearly dependent, whatever the spacing (at least `δ > 0` between 1 and 2): there are matrices with independent
columns for which what is returned is not a minimiser, although the equation has an exact solution. -/
theorem C53_cutoff_fails {lib : Lib} (hlib : ScaledLib lib) {δ : ℝ} (hδ : 0 < δ) (hsp : ∀ x, 1 ≤ x → x ≤ 2 → δ ≤ lib.spacing x) :
    ∃ (A : Mat ℝ) (b : List ℝ) (x : List ℝ) (cn : ℝ), FullColumnRank A ∧ 0 < A.cols ∧ b.length = A.rows ∧
      scaledQrLs lib A (.d1 b) = .ok (.d1 x, cn) ∧
      ∃ y, missSq A.rows A.cols A.at_ y (vec b) = 0 ∧ 0 < missSq A.rows A.cols A.at_ (vec x) (vec b) := by
  -- a point of the circle near (1, 0)
  obtain ⟨c, t, hct, hc, ht0, htδ⟩ : ∃ c t : ℝ, c ^ 2 + t ^ 2 = 1 ∧ 1 / 2 ≤ c ^ 2 ∧ 0 < t ∧ t ≤ δ := by
    refine ⟨Real.sqrt (1 - (min δ (1 / 2)) ^ 2), min δ (1 / 2), ?_, ?_, lt_min hδ (by norm_num), min_le_left _ _⟩
    all_goals
      have h1 : 0 < min δ (1 / 2) := lt_min hδ (by norm_num)
      have h2 : min δ (1 / 2) ≤ 1 / 2 := min_le_right _ _
      have h3 : (min δ (1 / 2)) ^ 2 ≤ 1 / 4 := by nlinarith
      rw [Real.sq_sqrt (by linarith)]
      linarith
  have hc0 : c ≠ 0 := by
    rintro rfl
    norm_num at hc
  set A := nearlyParallel c t with hA
  have hrank : FullColumnRank A := nearlyParallel_rank hc0 ht0.ne'
  set v : ℕ → ℝ := fun j => if j = 0 then 1 else -1 with hv
  have hAv0 : times A v 0 = 0 := by
    rw [(nearlyParallel_times c t v).1, hv]
    simp
  have hAv1 : times A v 1 = 2 * t := by
    rw [(nearlyParallel_times c t v).2, hv]
    simp
    ring
  set b : List ℝ := [0, 2 * t] with hb
  obtain ⟨x, h1, h2, h3⟩ := scaled_run hlib hrank (b := b) rfl
  refine ⟨A, b, x, _, hrank, Nat.zero_lt_two, rfl, h1, v, ?_, ?_⟩
  · change ∑ i ∈ Finset.range 2, (times A v i - vec b i) ^ 2 = 0
    rw [Finset.sum_range_succ, Finset.sum_range_one, hAv0, hAv1]
    simp [vec, hb]
  -- what is computed is zero
  have hqr := hlib.qr _ (scaledM_rank hrank)
  set M := scaledM A with hM
  have hMA : corner 2 2 M.at_ = corner 2 2 A.at_ := by
    ext i j
    refine (scaledM_at A i (j := j) j.2).trans ?_
    rw [nearlyParallel_scale hct j.2, mul_one]
    rfl
  have htimes : ∀ w, ∀ i < 2, times M w i = times A w i := by
    intro w
    have : fin 2 (times M w) = fin 2 (times A w) := (fin_times M w).trans ((congrArg (· *ᵥ fin 2 w) hMA).trans (fin_times A w).symm)
    exact forall_fin.2 this
  obtain ⟨hq1, hq2⟩ := qr_fin hqr
  change corner 2 2 _ * corner 2 2 _ = corner 2 2 M.at_ at hq1
  change (corner 2 2 _)ᵀ * corner 2 2 _ = 1 at hq2
  have hs := hlib.norm2 (lib.qr M).2 (by rw [hqr.r_cols]; exact Nat.zero_lt_two)
  set s := lib.norm2 (lib.qr M).2 with hsdef
  have hsM : IsLargest M s := (qr_largest hqr s).1 hs
  have hsum : ∀ w, sumSq M.rows (times M w) = (c * (w 0 + w 1)) ^ 2 + (t * (w 0 - w 1)) ^ 2 := by
    intro w
    change ∑ i ∈ Finset.range 2, times M w i ^ 2 = _
    rw [Finset.sum_range_succ, Finset.sum_range_one, htimes w 0 (by norm_num), htimes w 1 (by norm_num), (nearlyParallel_times c t w).1,
      (nearlyParallel_times c t w).2]
    ring
  have hsum' : ∀ w, sumSq M.cols w = w 0 ^ 2 + w 1 ^ 2 := by
    intro w
    change ∑ i ∈ Finset.range 2, w i ^ 2 = _
    rw [Finset.sum_range_succ, Finset.sum_range_one]
  have hs1 : 1 ≤ s := by
    have := hsM.2.1 fun _ => 1
    rw [hsum, hsum'] at this
    by_contra hlt
    push Not at hlt
    have := hsM.1
    nlinarith
  have hs2 : s ≤ 2 := by
    obtain ⟨w, hw0, hw⟩ := hsM.2.2
    rw [hsum, hsum'] at hw
    rw [hsum'] at hw0
    have hw1 : 0 < w 0 ^ 2 + w 1 ^ 2 := lt_of_le_of_ne (by positivity) (Ne.symm hw0)
    have hle : (c * (w 0 + w 1)) ^ 2 + (t * (w 0 - w 1)) ^ 2 ≤ 2 * (w 0 ^ 2 + w 1 ^ 2) := by
      have hc1 : c ^ 2 ≤ 1 := by nlinarith
      have ht1 : t ^ 2 ≤ 1 := by nlinarith
      have e1 : (c * (w 0 + w 1)) ^ 2 ≤ (w 0 + w 1) ^ 2 := by
        rw [mul_pow]
        exact mul_le_of_le_one_left (sq_nonneg _) hc1
      have e2 : (t * (w 0 - w 1)) ^ 2 ≤ (w 0 - w 1) ^ 2 := by
        rw [mul_pow]
        exact mul_le_of_le_one_left (sq_nonneg _) ht1
      nlinarith
    rw [hw] at hle
    have := le_of_mul_le_mul_right hle hw1
    nlinarith [hsM.1]
  have hδs := hsp s hs1 hs2
  have hrr : (lib.qr M).2.rows = 2 := hqr.r_rows
  have hrc : (lib.qr M).2.cols = 2 := hqr.r_cols
  have hpinv := hlib.pinv (lib.qr M).2 (2 * lib.spacing s) (by linarith)
  have hPdef : matPinv lib (lib.qr M).2 = lib.pinv (lib.qr M).2 (2 * lib.spacing s) := by
    unfold matPinv
    rw [hrr, hrc, max_self]
    norm_num
    rfl
  have hzero := hpinv.small (Real.sqrt 2 * t) s v hs (by positivity) (fun j hj => ?_) ?_
  · have hPr : corner 2 2 (matPinv lib (lib.qr M).2).at_ *ᵥ (corner 2 2 (lib.qr M).2.at_ *ᵥ fin 2 v) = 0 := by
      rw [hPdef]
      funext j
      have := hzero j (by rw [hrc]; exact j.2)
      rw [Pi.zero_apply, ← this]
      unfold times
      rw [hpinv.cols, hrr, hrc, Finset.sum_range]
      simp only [Finset.sum_range (n := 2)]
      rfl
    have hfb : fin 2 (vec b) = corner 2 2 (lib.qr M).1.at_ *ᵥ (corner 2 2 (lib.qr M).2.at_ *ᵥ fin 2 v) := by
      rw [mulVec_mulVec, hq1, hMA]
      refine Eq.trans ?_ (fin_times A v)
      funext i
      match i with
      | 0 => exact hAv0.symm
      | 1 => exact hAv1.symm
    have hx0 : fin 2 (vec x) = 0 := by
      refine h3.trans ?_
      change _ *ᵥ (corner 2 2 _ *ᵥ ((corner 2 2 _)ᵀ *ᵥ fin 2 (vec b))) = 0
      rw [hfb, mulVec_mulVec _ _ᵀ, hq2, one_mulVec, hPr]
      exact mulVec_zero _
    have e0 : vec x 0 = 0 := congrFun hx0 0
    have e1 : vec x 1 = 0 := congrFun hx0 1
    change 0 < ∑ i ∈ Finset.range 2, (times A (vec x) i - vec b i) ^ 2
    rw [Finset.sum_range_succ, Finset.sum_range_one, (nearlyParallel_times c t _).1, (nearlyParallel_times c t _).2, e0, e1]
    simp [vec, hb]
    positivity
  · rw [qr_gram hqr v j hj]
    rw [hrc] at hj
    change ∑ i ∈ Finset.range 2, M.at_ i j * times M v i = _
    rw [Finset.sum_range_succ, Finset.sum_range_one, htimes v 0 (by norm_num), htimes v 1 (by norm_num), hAv0, hAv1, mul_pow,
      Real.sq_sqrt (by norm_num), hM, scaledM_at A 1 hj, nearlyParallel_scale hct hj]
    interval_cases j
    · simp [hA, nearlyParallel, hv]
      ring
    · simp [hA, nearlyParallel, hv]
      ring
  · have hsq : Real.sqrt 2 ≤ 2 := by
      rw [Real.sqrt_le_left (by norm_num)]
      norm_num
    calc Real.sqrt 2 * t ≤ 2 * δ := mul_le_mul hsq htδ ht0.le (by norm_num)
      _ ≤ 2 * lib.spacing s := by linarith
      _ ≤ 2 * lib.spacing s * s := le_mul_of_one_le_right (by linarith) hs1

theorem mul_ok {M N : Mat ℝ} (h : M.cols = N.rows) : ∃ Y, mul M N = .ok Y ∧ Y.rows = M.rows ∧ Y.cols = N.cols := ⟨_, if_pos h, rfl, rfl⟩

/-- The claim fails for every right-hand side of shape `(n, 1)` and every matrix with two or more columns: the scaling is broadcast to all columns, so that an `m × m` array
is returned. -/
theorem C53_column_fails {lib : Lib} (hlib : ScaledLib lib) {A : Mat ℝ} (hA : FullColumnRank A) (hm : 2 ≤ A.cols) {B : Mat ℝ} (hB : B.rows = A.rows)
    (hB1 : B.cols = 1) : ∃ X cn, scaledQrLs lib A (.d2 B) = .ok (.d2 X, cn) ∧ X.rows = A.cols ∧ X.cols = A.cols := by
  have hqr := hlib.qr _ (scaledM_rank hA)
  have hr1 : (lib.qr (scaledM A)).2.rows = A.cols := hqr.r_rows
  have hr2 : (lib.qr (scaledM A)).2.cols = A.cols := hqr.r_cols
  have hP : (matPinv lib (lib.qr (scaledM A)).2).rows = A.cols ∧ (matPinv lib (lib.qr (scaledM A)).2).cols = A.cols := by
    unfold matPinv
    have := hlib.pinv (lib.qr (scaledM A)).2 _ (mul_nonneg (Nat.cast_nonneg (max (lib.qr (scaledM A)).2.rows (lib.qr (scaledM A)).2.cols))
      (hlib.spacing _ (hlib.norm2 (lib.qr (scaledM A)).2 (by rw [hr2]; omega)).1).le)
    exact ⟨this.rows.trans hr2, this.cols.trans hr1⟩
  obtain ⟨Y, hY1, hY2, hY3⟩ := mul_ok (M := transpose (lib.qr (scaledM A)).1) (N := B) (hqr.q_rows.trans hB.symm)
  obtain ⟨Z, hZ1, hZ2, hZ3⟩ := mul_ok (M := matPinv lib (lib.qr (scaledM A)).2) (N := Y) (hP.2.trans (hY2.trans hqr.q_cols).symm)
  refine ⟨⟨Z.rows, A.cols, fun i j => colScale A j * Z.at_ i 0⟩, lib.cond (lib.qr (scaledM A)).2, ?_, hZ2.trans hP.1, rfl⟩
  unfold scaledQrLs
  rw [scaledM_eq]
  simp only [bind, Except.bind, multiDot, hY1, hZ1, scale, scaleMat]
  have hZc : Z.cols = 1 := hZ3.trans (hY3.trans hB1)
  rw [if_neg (by rw [hZc]; omega), if_pos hZc]

/-- Non-vacuity of `C53_partial`: some library meets the contracts, and for the matrix with columns `(3/5, 4/5)` and `(3/5, -4/5)` (largest and smallest singular value:
`√32/5` and `√18/5`) with spacing 1/1000 nothing is cut off. -/
example : ∃ lib : Lib, ScaledLib lib ∧ FullColumnRank (nearlyParallel (3 / 5) (4 / 5)) ∧
    ∀ s t, IsLargest (unitColumns (nearlyParallel (3 / 5) (4 / 5))) s → IsSmallest (unitColumns (nearlyParallel (3 / 5) (4 / 5))) t →
      (nearlyParallel (3 / 5) (4 / 5)).cols * lib.spacing s * s < t := by
  obtain ⟨lib, hlib, hsp⟩ := scaledLib_exists (fun _ => 1 / 1000) fun _ _ => by norm_num
  refine ⟨lib, hlib, nearlyParallel_rank (by norm_num) (by norm_num), fun s t hs ht => ?_⟩
  have hct : (3 / 5 : ℝ) ^ 2 + (4 / 5) ^ 2 = 1 := by norm_num
  have hat : ∀ w, ∀ i < 2, times (unitColumns (nearlyParallel (3 / 5) (4 / 5))) w i = times (nearlyParallel (3 / 5) (4 / 5)) w i := by
    intro w i _
    have key : ∀ j ∈ Finset.range 2, (unitColumns (nearlyParallel (3 / 5) (4 / 5))).at_ i j * w j = (nearlyParallel (3 / 5) (4 / 5)).at_ i j * w j := by
      intro j hj
      have h1 := scaledM_at (nearlyParallel (3 / 5) (4 / 5)) i (j := j) (Finset.mem_range.1 hj)
      rw [nearlyParallel_scale hct (Finset.mem_range.1 hj), mul_one] at h1
      unfold unitColumns
      have h2 := nearlyParallel_scale hct (Finset.mem_range.1 hj)
      unfold colScale at h2
      simp only [sumSq, pow_two]
      rw [div_eq_mul_one_div, h2, mul_one]
    exact Finset.sum_congr rfl key
  have hsum : ∀ w, sumSq (unitColumns (nearlyParallel (3 / 5) (4 / 5))).rows (times (unitColumns (nearlyParallel (3 / 5) (4 / 5))) w) =
      (3 / 5 * (w 0 + w 1)) ^ 2 + (4 / 5 * (w 0 - w 1)) ^ 2 := by
    intro w
    change ∑ i ∈ Finset.range 2, times _ w i ^ 2 = _
    rw [Finset.sum_range_succ, Finset.sum_range_one, hat w 0 (by norm_num), hat w 1 (by norm_num), (nearlyParallel_times _ _ w).1,
      (nearlyParallel_times _ _ w).2]
    ring
  have hsum' : ∀ w, sumSq (unitColumns (nearlyParallel (3 / 5) (4 / 5))).cols w = w 0 ^ 2 + w 1 ^ 2 := by
    intro w
    change ∑ i ∈ Finset.range 2, w i ^ 2 = _
    rw [Finset.sum_range_succ, Finset.sum_range_one]
  obtain ⟨w, hw0, hw⟩ := hs.2.2
  obtain ⟨u, hu0, hu⟩ := ht.2.2
  rw [hsum, hsum'] at hw hu
  rw [hsum'] at hw0 hu0
  have hs2 : s ^ 2 ≤ 2 := by
    by_contra hlt
    push Not at hlt
    have : 0 < w 0 ^ 2 + w 1 ^ 2 := lt_of_le_of_ne (by positivity) (Ne.symm hw0)
    nlinarith [sq_nonneg (w 0 + w 1), sq_nonneg (w 0 - w 1)]
  have ht2 : 1 / 2 ≤ t ^ 2 := by
    by_contra hlt
    push Not at hlt
    have : 0 < u 0 ^ 2 + u 1 ^ 2 := lt_of_le_of_ne (by positivity) (Ne.symm hu0)
    nlinarith [sq_nonneg (u 0 + u 1), sq_nonneg (u 0 - u 1)]
  rw [hsp]
  change ((2 : ℕ) : ℝ) * (1 / 1000) * s < t
  have hs3 : s ≤ 2 := by nlinarith [hs.1]
  have ht3 : 1 / 2 ≤ t := by nlinarith [ht.1]
  norm_num
  linarith

end Verif.Props
