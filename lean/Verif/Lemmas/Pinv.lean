import Verif.Lemmas.LinAlg
import Mathlib.Analysis.Matrix.Spectrum
import Mathlib.Algebra.Order.Star.Real
import Mathlib.LinearAlgebra.Matrix.DotProduct

/-! # The contracts of `pinv` and `lstsq` can be met -/

namespace Verif.Lemmas.LinAlg

open Verif.Py Verif.Np Verif.Spec Verif.Model.LSq Matrix

theorem inverse_of_diag {n : ℕ} {G : Matrix (Fin n) (Fin n) ℝ}
    (φ : Matrix (Fin n) (Fin n) ℝ ≃⋆ₐ[ℝ] Matrix (Fin n) (Fin n) ℝ) (D E : Matrix (Fin n) (Fin n) ℝ) (hDE : D * E * D = D)
    (hED : E * D * E = E) (hsE : star E = E) (hsED : star (E * D) = E * D) (hG : G = φ D) :
    ∃ Q : Matrix (Fin n) (Fin n) ℝ, G * Q * G = G ∧ Q * G * Q = Q ∧ star Q = Q ∧ star (Q * G) = Q * G := by
  subst hG
  refine ⟨φ E, ?_, ?_, ?_, ?_⟩
  · rw [← map_mul, ← map_mul, hDE]
  · rw [← map_mul, ← map_mul, hED]
  · rw [← map_star, hsE]
  · rw [← map_mul, ← map_star, hsED]

/-- A symmetric matrix has a symmetric generalised inverse that commutes with it. -/
theorem symmetric_inverse {n : ℕ} (G : Matrix (Fin n) (Fin n) ℝ) (hG : G.IsHermitian) :
    ∃ Q : Matrix (Fin n) (Fin n) ℝ, G * Q * G = G ∧ Q * G * Q = Q ∧ star Q = Q ∧ star (Q * G) = Q * G := by
  set D : Matrix (Fin n) (Fin n) ℝ := diagonal (RCLike.ofReal ∘ hG.eigenvalues) with hD
  set E : Matrix (Fin n) (Fin n) ℝ := diagonal fun i => (hG.eigenvalues i)⁻¹ with hE
  have hDE : D * E * D = D := by
    rw [hD, hE, diagonal_mul_diagonal, diagonal_mul_diagonal]
    congr 1
    funext i
    by_cases h : hG.eigenvalues i = 0
    · simp [h]
    · simp [h]
  have hED : E * D * E = E := by
    rw [hD, hE, diagonal_mul_diagonal, diagonal_mul_diagonal]
    congr 1
    funext i
    by_cases h : hG.eigenvalues i = 0
    · simp [h]
    · simp [h]
  have hsE : star E = E := by
    rw [hE, star_eq_conjTranspose, diagonal_conjTranspose]
    congr 1
  have hsED : star (E * D) = E * D := by
    rw [hD, hE, diagonal_mul_diagonal, star_eq_conjTranspose, diagonal_conjTranspose]
    congr 1
  have hspec := hG.spectral_theorem
  rw [← hD] at hspec
  exact inverse_of_diag _ D E hDE hED hsE hsED hspec

/-- Every real matrix has a Moore–Penrose inverse. -/
theorem moorePenrose_exists {m n : ℕ} (A : Matrix (Fin m) (Fin n) ℝ) : ∃ P, MoorePenrose A P := by
  have hG : (Aᵀ * A).IsHermitian := by
    rw [← conjTranspose_eq_transpose_of_trivial]
    exact isHermitian_conjTranspose_mul_self A
  obtain ⟨Q, h1, h2, h3, h4⟩ := symmetric_inverse (Aᵀ * A) hG
  rw [star_eq_conjTranspose, conjTranspose_eq_transpose_of_trivial] at h3 h4
  have hA : A * (Q * (Aᵀ * A)) = A := by
    have h5 : (A * (Q * (Aᵀ * A)) - A)ᵀ * (A * (Q * (Aᵀ * A)) - A) = 0 := by
      have h6 : Aᵀ * (A * (Q * (Aᵀ * A)) - A) = 0 := by
        rw [Matrix.mul_sub, ← Matrix.mul_assoc, ← Matrix.mul_assoc, h1, sub_self]
      have h7 : A * (Q * (Aᵀ * A)) - A = A * (Q * (Aᵀ * A) - 1) := by rw [Matrix.mul_sub, Matrix.mul_one]
      conv_lhs => lhs; rw [h7]
      rw [transpose_mul, Matrix.mul_assoc, h6, Matrix.mul_zero]
    rw [← conjTranspose_eq_transpose_of_trivial, conjTranspose_mul_self_eq_zero] at h5
    exact sub_eq_zero.1 h5
  refine ⟨Q * Aᵀ, ?_, ?_, ?_, ?_⟩
  · rw [Matrix.mul_assoc, Matrix.mul_assoc]
    exact hA
  · calc Q * Aᵀ * A * (Q * Aᵀ) = (Q * (Aᵀ * A) * Q) * Aᵀ := by simp only [Matrix.mul_assoc]
      _ = Q * Aᵀ := by rw [h2]
  · rw [transpose_mul, transpose_mul, transpose_transpose, h3, Matrix.mul_assoc]
  · rw [Matrix.mul_assoc]
    exact h4

/-- There are functions meeting the contracts. -/
theorem linAlg_exists : ∃ lib : LinAlg, LinAlgCorrect lib := by
  have hP : ∀ J : Mat ℝ, ∃ P, MoorePenrose (corner J.rows J.cols J.at_) P := fun J => moorePenrose_exists _
  choose P hP using hP
  let pinv : Mat ℝ → Mat ℝ := fun J => ⟨J.cols, J.rows, fun i j =>
    if h : i < J.cols ∧ j < J.rows then P J ⟨i, h.1⟩ ⟨j, h.2⟩ else 0⟩
  let lstsq : Mat ℝ → List ℝ → List ℝ := fun J c => List.ofFn (P J *ᵥ fun i : Fin J.rows => vec c i)
  have hc : ∀ J : Mat ℝ, corner J.cols J.rows (pinv J).at_ = P J := by
    intro J
    ext i j
    show (if h : (i : ℕ) < J.cols ∧ (j : ℕ) < J.rows then P J ⟨i, h.1⟩ ⟨j, h.2⟩ else 0) = _
    rw [dif_pos ⟨i.2, j.2⟩]
  have hv : ∀ (J : Mat ℝ) (c : List ℝ), (fun j : Fin J.cols => vec (lstsq J c) j) = P J *ᵥ fun i : Fin J.rows => vec c i := by
    intro J c
    funext j
    simp [lstsq, vec]
  refine ⟨⟨pinv, lstsq⟩, fun J => rfl, fun J => rfl, fun J => ?_, fun J c _ => ?_, fun J c _ y => ?_, fun J c _ y hy h => ?_⟩
  · show MoorePenrose _ (corner J.cols J.rows (pinv J).at_)
    rw [hc]
    exact hP J
  · simp [lstsq]
  · show missSq _ _ _ (vec (lstsq J c)) _ ≤ _
    rw [missSq_fin, missSq_fin, hv]
    exact pinv_min (hP J) _ _
  · have h : missSq _ _ _ _ _ ≤ missSq _ _ _ (vec (lstsq J c)) _ := h
    show normSq (lstsq J c) ≤ _
    rw [missSq_fin, missSq_fin, hv] at h
    rw [normSq_fin (lstsq J c) J.cols (by simp [lstsq]), normSq_fin y J.cols hy, hv]
    exact pinv_norm (hP J) _ _ h

end Verif.Lemmas.LinAlg
