import Verif.Lemmas.NearMinimum

/-! # Least squares with a perturbed matrix and right-hand side -/

namespace Verif.Lemmas

open scoped RealInnerProductSpace

/-- The minimisers of two nearby least-squares problems. -/
theorem minimiser_near {V F : Type} [SeminormedAddCommGroup V] [Module ℝ V] [NormedAddCommGroup F] [InnerProductSpace ℝ F]
    (A A' : V →ₗ[ℝ] F) (c c' : F) (x x' : V) {σ ε η : ℝ} (hε : 0 ≤ ε) (hεσ : ε < σ) (hη : 0 ≤ η) (hA : ∀ d, σ * ‖d‖ ≤ ‖A d‖)
    (hA' : ∀ d, ‖A' d - A d‖ ≤ ε * ‖d‖) (hc : ‖c' - c‖ ≤ η) (hx : ∀ y, ‖A x - c‖ ^ 2 ≤ ‖A y - c‖ ^ 2)
    (hx' : ∀ y, ‖A' x' - c'‖ ^ 2 ≤ ‖A' y - c'‖ ^ 2) :
    ‖x' - x‖ ≤ (η + ε * ‖x‖ + ε / (σ - ε) * ‖A x - c‖) / (σ - ε) := by
  obtain ⟨d, hd⟩ : ∃ d, d = x' - x := ⟨_, rfl⟩
  have hs : 0 < σ - ε := by linarith
  have h1 := min_orthogonal A c x hx d
  have h2 := min_orthogonal A' c' x' hx' d
  have e1 : A' d = (A' x' - c') - (A' x - c') := by rw [hd, map_sub]; abel
  have e2 : A' x - c' = (A' x - A x) + (A x - c) - (c' - c) := by abel
  have key : ‖A' d‖ ^ 2 = -⟪A' x - A x, A' d⟫ - ⟪A x - c, A' d - A d⟫ + ⟪c' - c, A' d⟫ := by
    rw [← real_inner_self_eq_norm_sq]
    nth_rw 1 [e1]
    rw [inner_sub_left, h2, e2, inner_sub_left, inner_add_left, inner_sub_right (A x - c), h1]
    ring
  have b1 : -⟪A' x - A x, A' d⟫ ≤ ε * ‖x‖ * ‖A' d‖ := by
    have := neg_abs_le ⟪A' x - A x, A' d⟫
    have h3 := abs_real_inner_le_norm (A' x - A x) (A' d)
    have h4 := mul_le_mul_of_nonneg_right (hA' x) (norm_nonneg (A' d))
    linarith
  have b2 : -⟪A x - c, A' d - A d⟫ ≤ ‖A x - c‖ * (ε * ‖d‖) := by
    have := neg_abs_le ⟪A x - c, A' d - A d⟫
    have h3 := abs_real_inner_le_norm (A x - c) (A' d - A d)
    have h4 := mul_le_mul_of_nonneg_left (hA' d) (norm_nonneg (A x - c))
    linarith
  have b3 : ⟪c' - c, A' d⟫ ≤ η * ‖A' d‖ := by
    have h3 := real_inner_le_norm (c' - c) (A' d)
    have h4 := mul_le_mul_of_nonneg_right hc (norm_nonneg (A' d))
    linarith
  have b4 : (σ - ε) * ‖d‖ ≤ ‖A' d‖ := by
    have h3 := hA d
    have h4 := hA' d
    have h5 : ‖A d‖ ≤ ‖A' d‖ + ‖A' d - A d‖ := by
      have := norm_sub_le (A' d) (A' d - A d)
      rwa [sub_sub_cancel] at this
    linarith
  have b5 : ‖d‖ ≤ ‖A' d‖ / (σ - ε) := by
    rw [le_div_iff₀ hs]
    linarith
  have b6 : ‖A' d‖ ^ 2 ≤ (η + ε * ‖x‖ + ε / (σ - ε) * ‖A x - c‖) * ‖A' d‖ := by
    have h3 : ‖A x - c‖ * (ε * ‖d‖) ≤ ‖A x - c‖ * (ε * (‖A' d‖ / (σ - ε))) := by gcongr
    have h4 : ‖A x - c‖ * (ε * (‖A' d‖ / (σ - ε))) = ε / (σ - ε) * ‖A x - c‖ * ‖A' d‖ := by ring
    have h5 : (η + ε * ‖x‖ + ε / (σ - ε) * ‖A x - c‖) * ‖A' d‖ = η * ‖A' d‖ + ε * ‖x‖ * ‖A' d‖ + ε / (σ - ε) * ‖A x - c‖ * ‖A' d‖ := by ring
    rw [h5]
    linarith
  have hx0 : 0 ≤ ‖x‖ := norm_nonneg x
  have hr0 : 0 ≤ ‖A x - c‖ := norm_nonneg _
  have b7 : ‖A' d‖ ≤ η + ε * ‖x‖ + ε / (σ - ε) * ‖A x - c‖ := by
    rcases (norm_nonneg (A' d)).eq_or_lt with h0 | h0
    · rw [← h0]
      have := div_nonneg hε hs.le
      positivity
    · rw [pow_two] at b6
      exact le_of_mul_le_mul_right b6 h0
  rw [← hd]
  exact b5.trans (div_le_div_of_nonneg_right b7 hs.le)

end Verif.Lemmas
