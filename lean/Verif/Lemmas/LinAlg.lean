import Verif.Spec.LeastSquares
import Mathlib.Algebra.BigOperators.Fin
import Mathlib.Algebra.Order.BigOperators.Ring.Finset
import Mathlib.Tactic.Linarith

/-! # Linear least squares with a Moore–Penrose inverse or `lstsq` -/

namespace Verif.Lemmas.LinAlg

open Verif.Py Verif.Np Verif.Spec Verif.Model.LSq Matrix

/-! ### Vectors over `Fin` -/

theorem dot_self_nonneg {m : ℕ} (v : Fin m → ℝ) : 0 ≤ v ⬝ᵥ v := by
  unfold dotProduct
  exact Finset.sum_nonneg fun i _ => mul_self_nonneg _

theorem dot_self_zero {m : ℕ} {v : Fin m → ℝ} (h : v ⬝ᵥ v = 0) : v = 0 := by
  unfold dotProduct at h
  rw [Finset.sum_eq_zero_iff_of_nonneg fun i _ => mul_self_nonneg _] at h
  funext i
  simpa using h i (Finset.mem_univ i)

variable {m n : ℕ} {A : Matrix (Fin m) (Fin n) ℝ} {P : Matrix (Fin n) (Fin m) ℝ}

theorem residual_orthogonal (h : MoorePenrose A P) (c : Fin m → ℝ) : (A *ᵥ (P *ᵥ c) - c) ᵥ* A = 0 := by
  rw [sub_vecMul, mulVec_mulVec, ← vecMul_transpose (A * P), vecMul_vecMul, h.ap, h.apa, sub_self]

theorem pythagoras (h : MoorePenrose A P) (c : Fin m → ℝ) (y : Fin n → ℝ) :
    (A *ᵥ y - c) ⬝ᵥ (A *ᵥ y - c) = (A *ᵥ (P *ᵥ c) - c) ⬝ᵥ (A *ᵥ (P *ᵥ c) - c) +
      (A *ᵥ (y - P *ᵥ c)) ⬝ᵥ (A *ᵥ (y - P *ᵥ c)) := by
  have h1 : A *ᵥ y - c = (A *ᵥ (P *ᵥ c) - c) + A *ᵥ (y - P *ᵥ c) := by
    rw [mulVec_sub]
    abel
  have h2 : (A *ᵥ (P *ᵥ c) - c) ⬝ᵥ (A *ᵥ (y - P *ᵥ c)) = 0 := by
    rw [dotProduct_mulVec, residual_orthogonal h c, zero_dotProduct]
  rw [h1, add_dotProduct, dotProduct_add, dotProduct_add, h2, dotProduct_comm (A *ᵥ (y - P *ᵥ c)) (A *ᵥ (P *ᵥ c) - c), h2]
  ring

theorem pinv_min (h : MoorePenrose A P) (c : Fin m → ℝ) (y : Fin n → ℝ) :
    (A *ᵥ (P *ᵥ c) - c) ⬝ᵥ (A *ᵥ (P *ᵥ c) - c) ≤ (A *ᵥ y - c) ⬝ᵥ (A *ᵥ y - c) := by
  rw [pythagoras h c y]
  have := dot_self_nonneg (A *ᵥ (y - P *ᵥ c))
  linarith

theorem pinv_zero (h : MoorePenrose A P) (c : Fin m → ℝ)
    (h0 : c ⬝ᵥ c ≤ (A *ᵥ (P *ᵥ c) - c) ⬝ᵥ (A *ᵥ (P *ᵥ c) - c)) : P *ᵥ c = 0 := by
  have h1 := pythagoras h c 0
  rw [mulVec_zero, zero_sub, neg_dotProduct_neg] at h1
  have h2 : (A *ᵥ (-(P *ᵥ c))) ⬝ᵥ (A *ᵥ (-(P *ᵥ c))) = 0 := by
    have := dot_self_nonneg (A *ᵥ (0 - P *ᵥ c))
    rw [zero_sub] at this h1
    linarith
  have h3 := dot_self_zero h2
  rw [mulVec_neg, neg_eq_zero] at h3
  calc P *ᵥ c = (P * A * P) *ᵥ c := by rw [h.pap]
    _ = P *ᵥ (A *ᵥ (P *ᵥ c)) := by rw [mulVec_mulVec, mulVec_mulVec, Matrix.mul_assoc]
    _ = 0 := by rw [h3, mulVec_zero]

/-! ### Lists -/

theorem missSq_fin (m n : ℕ) (A : ℕ → ℕ → ℝ) (x c : ℕ → ℝ) :
    missSq m n A x c = (corner m n A *ᵥ (fun j : Fin n => x j) - fun i : Fin m => c i) ⬝ᵥ
      (corner m n A *ᵥ (fun j : Fin n => x j) - fun i : Fin m => c i) := by
  unfold missSq dotProduct
  rw [Finset.sum_range]
  refine Finset.sum_congr rfl fun i _ => ?_
  rw [Finset.sum_range, pow_two]
  rfl

theorem normSq_range (l : List ℝ) : normSq l = ∑ i ∈ Finset.range l.length, (vec l i) ^ 2 := by
  unfold normSq
  induction l with
  | nil => rfl
  | cons a l ih =>
    rw [List.map_cons, List.sum_cons, ih, List.length_cons, Finset.sum_range_succ', add_comm]
    rfl

theorem normSq_zero {l : List ℝ} (h : normSq l ≤ 0) : l = List.replicate l.length 0 := by
  rw [normSq_range] at h
  have h1 : ∑ i ∈ Finset.range l.length, (vec l i) ^ 2 = 0 :=
    le_antisymm h (Finset.sum_nonneg fun i _ => sq_nonneg _)
  rw [Finset.sum_eq_zero_iff_of_nonneg fun i _ => sq_nonneg _] at h1
  rw [List.eq_replicate_iff]
  refine ⟨rfl, fun x hx => ?_⟩
  obtain ⟨i, hi, rfl⟩ := List.getElem_of_mem hx
  have := h1 i (Finset.mem_range.2 hi)
  simpa [vec, hi] using this

/-- The minimiser `P c` has the least norm of all minimisers. -/
theorem pinv_norm {m n : ℕ} {A : Matrix (Fin m) (Fin n) ℝ} {P : Matrix (Fin n) (Fin m) ℝ} (h : MoorePenrose A P)
    (c : Fin m → ℝ) (y : Fin n → ℝ) (hy : (A *ᵥ y - c) ⬝ᵥ (A *ᵥ y - c) ≤ (A *ᵥ (P *ᵥ c) - c) ⬝ᵥ (A *ᵥ (P *ᵥ c) - c)) :
    (P *ᵥ c) ⬝ᵥ (P *ᵥ c) ≤ y ⬝ᵥ y := by
  have h1 := pythagoras h c y
  have h2 : (A *ᵥ (y - P *ᵥ c)) ⬝ᵥ (A *ᵥ (y - P *ᵥ c)) = 0 := by
    have := dot_self_nonneg (A *ᵥ (y - P *ᵥ c))
    linarith
  have h3 := dot_self_zero h2
  -- `y - P c` is orthogonal to `P c`
  have h4 : (P *ᵥ c) ⬝ᵥ (y - P *ᵥ c) = 0 := by
    have h5 : P *ᵥ c = (P * A) *ᵥ (P *ᵥ c) := by
      rw [mulVec_mulVec, h.pap]
    have h6 : ∀ w, (P *ᵥ c) ⬝ᵥ w = ((P * A) *ᵥ (P *ᵥ c)) ⬝ᵥ w := fun w => by rw [← h5]
    rw [h6, ← vecMul_transpose (P * A), h.pa, ← dotProduct_mulVec, ← mulVec_mulVec, h3, mulVec_zero, dotProduct_zero]
  have h6 : y = P *ᵥ c + (y - P *ᵥ c) := by abel
  rw [h6, add_dotProduct, dotProduct_add, dotProduct_add, h4, dotProduct_comm (y - P *ᵥ c) (P *ᵥ c), h4]
  have := dot_self_nonneg (y - P *ᵥ c)
  linarith

theorem normSq_fin (l : List ℝ) (n : ℕ) (hl : l.length = n) :
    normSq l = (fun j : Fin n => vec l j) ⬝ᵥ fun j : Fin n => vec l j := by
  subst hl
  rw [normSq_range, Finset.sum_range]
  unfold dotProduct
  exact Finset.sum_congr rfl fun i _ => pow_two _

theorem missSq_congr {m n : ℕ} {A A' : ℕ → ℕ → ℝ} (hA : ∀ i < m, ∀ j < n, A i j = A' i j) {x x' c c' : ℕ → ℝ}
    (hx : ∀ j < n, x j = x' j) (hc : ∀ i < m, c i = c' i) : missSq m n A x c = missSq m n A' x' c' := by
  unfold missSq
  refine Finset.sum_congr rfl fun i hi => ?_
  have hi := Finset.mem_range.1 hi
  rw [hc i hi]
  congr 2
  refine Finset.sum_congr rfl fun j hj => ?_
  have hj := Finset.mem_range.1 hj
  rw [hA i hi j hj, hx j hj]

theorem solves_congr {m n : ℕ} {A A' : ℕ → ℕ → ℝ} (hA : ∀ i < m, ∀ j < n, A i j = A' i j) {c x : List ℝ}
    (h : LeastNormSolution m n A c x) : LeastNormSolution m n A' c x := by
  have e : ∀ y, missSq m n A' y (vec c) = missSq m n A y (vec c) := fun y =>
    missSq_congr (fun i hi j hj => (hA i hi j hj).symm) (fun _ _ => rfl) fun _ _ => rfl
  exact ⟨h.length, fun y => by rw [e, e]; exact h.min y, fun y hy hz => h.norm y hy (by rw [e, e] at hz; exact hz)⟩

theorem missSq_zero_vec (m n : ℕ) (A : ℕ → ℕ → ℝ) (c : ℕ → ℝ) :
    missSq m n A (fun _ => 0) c = missSq m n A (vec (List.replicate n 0)) c := by
  refine missSq_congr (fun _ _ _ _ => rfl) (fun j hj => ?_) fun _ _ => rfl
  simp [vec, hj]

/-- If 0 solves the problem it is the solution of least norm. -/
theorem solves_zero {m n : ℕ} {A : ℕ → ℕ → ℝ} {c x : List ℝ} (h : LeastNormSolution m n A c x)
    (hz : missSq m n A (fun _ => 0) (vec c) ≤ missSq m n A (vec x) (vec c)) : x = List.replicate n 0 := by
  have := h.norm (List.replicate n 0) (by simp) (by rw [← missSq_zero_vec]; exact hz)
  have h0 : normSq (List.replicate n 0) = 0 := by simp [normSq]
  rw [h0] at this
  have := normSq_zero this
  rwa [h.length] at this

/-- Both methods return the minimiser of least norm. -/
theorem solve_spec {lib : LinAlg} (hlib : LinAlgCorrect lib) {method : Method} (hm : method ≠ .other) (J : Mat ℝ) {c : List ℝ}
    (hc : c.length = J.rows) : ∃ x, solve lib method J c = .ok x ∧ LeastNormSolution J.rows J.cols J.at_ c x := by
  cases method with
  | other => exact absurd rfl hm
  | lstsq => exact ⟨_, rfl, hlib.lstsq_length J c hc, hlib.lstsq_min J c hc, hlib.lstsq_norm J c hc⟩
  | pinv =>
    have hP := hlib.pinv J
    set P := corner J.cols J.rows (lib.pinv J).at_ with hPdef
    set A := corner J.rows J.cols J.at_ with hAdef
    set x := (List.range (lib.pinv J).rows).map fun i =>
        ∑ j ∈ Finset.range (lib.pinv J).cols, (lib.pinv J).at_ i j * c.getD j 0 with hxdef
    have hx : ∀ j : Fin J.cols, vec x j = (P *ᵥ fun i : Fin J.rows => vec c i) j := by
      intro j
      unfold vec
      rw [hxdef, List.getD_eq_getElem?_getD, List.getElem?_map, List.getElem?_range (by rw [hlib.pinv_rows]; exact j.2)]
      simp only [Option.map_some, Option.getD_some]
      rw [hlib.pinv_cols, Finset.sum_range]
      rfl
    have hfun : (fun j : Fin J.cols => vec x j) = P *ᵥ fun i : Fin J.rows => vec c i := funext hx
    have hlen : x.length = J.cols := by simp [hxdef, hlib.pinv_rows]
    refine ⟨x, by unfold solve dot; simp only; rw [if_pos (by rw [hlib.pinv_cols, hc])], hlen, fun y => ?_, fun y hy hz => ?_⟩
    · rw [missSq_fin, missSq_fin, hfun]
      exact pinv_min hP _ _
    · rw [missSq_fin, missSq_fin, hfun] at hz
      rw [normSq_fin x J.cols hlen, normSq_fin y J.cols hy, hfun]
      exact pinv_norm hP _ _ hz

end Verif.Lemmas.LinAlg
