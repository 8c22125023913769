import Verif.Lemmas.PolySpan
import Verif.Lemmas.Multi
import Mathlib.Algebra.MvPolynomial.Eval
import Mathlib.Algebra.MvPolynomial.Degrees
import Mathlib.LinearAlgebra.Basis.VectorSpace
import Mathlib.LinearAlgebra.Matrix.ToLin
import Mathlib.Analysis.Calculus.ContDiff.Polynomial
import Mathlib.Analysis.Calculus.IteratedDeriv.Lemmas

/-! # Tensor products of unisolvent systems; polynomials of several variables -/

namespace Verif

open Verif.Spec

/-- Dual weights of an injective matrix. -/
theorem left_inverse {m n : ℕ} (φ : ℕ → ℕ → ℝ)
    (h : ∀ ξ : ℕ → ℝ, (∀ j < n, ∑ k ∈ Finset.range m, φ j k * ξ k = 0) → ∀ k < m, ξ k = 0) :
    ∃ lam : ℕ → ℕ → ℝ, ∀ k < m, ∀ k' < m, ∑ j ∈ Finset.range n, lam k j * φ j k' = if k = k' then 1 else 0 := by
  let M : Matrix (Fin n) (Fin m) ℝ := fun j k => φ j k
  have hker : LinearMap.ker M.mulVecLin = ⊥ := by
    rw [LinearMap.ker_eq_bot']
    intro v hv
    funext k
    have := h (fun k => if hk : k < m then v ⟨k, hk⟩ else 0) (fun j hj => ?_) k k.2
    · rw [dif_pos k.2] at this
      exact this
    · have h1 := congrFun hv ⟨j, hj⟩
      simp only [Matrix.mulVecLin_apply, Matrix.mulVec, dotProduct, Pi.zero_apply] at h1
      rw [Finset.sum_range, ← h1]
      refine Finset.sum_congr rfl fun i _ => ?_
      rw [dif_pos i.2]
  obtain ⟨g, hg⟩ := M.mulVecLin.exists_leftInverse_of_injective hker
  refine ⟨fun k j => if hj : j < n then if hk : k < m then g (Pi.single ⟨j, hj⟩ 1) ⟨k, hk⟩ else 0 else 0,
    fun k hk k' hk' => ?_⟩
  have h1 := congrFun (LinearMap.congr_fun hg (Pi.single ⟨k', hk'⟩ 1)) ⟨k, hk⟩
  simp only [LinearMap.comp_apply, LinearMap.id_apply, Matrix.mulVecLin_apply, Matrix.mulVec_single_one] at h1
  have h2 : M.col ⟨k', hk'⟩ = ∑ j : Fin n, φ j k' • (Pi.single j 1 : Fin n → ℝ) := by
    funext i
    simp only [Finset.sum_apply, Pi.smul_apply, Pi.single_apply, smul_eq_mul, mul_ite, mul_one, mul_zero]
    rw [Finset.sum_ite_eq Finset.univ i, if_pos (Finset.mem_univ i)]
    rfl
  rw [h2, map_sum, Finset.sum_apply] at h1
  rw [Finset.sum_range]
  have h3 : (Pi.single (⟨k', hk'⟩ : Fin m) (1 : ℝ) : Fin m → ℝ) ⟨k, hk⟩ = if k = k' then 1 else 0 := by
    rw [Pi.single_apply]
    simp
  rw [← h3, ← h1]
  refine Finset.sum_congr rfl fun j _ => ?_
  beta_reduce
  rw [dif_pos j.2, dif_pos hk, map_smul]
  simp [mul_comm]

/-- Tensor products of unisolvent systems are unisolvent on the product grid. -/
theorem tensor_unisolvent {dim m : ℕ} (n : Fin dim → ℕ) (φ : Fin dim → ℕ → ℕ → ℝ)
    (h : ∀ l, ∀ ξ : ℕ → ℝ, (∀ j < n l, ∑ k ∈ Finset.range m, φ l j k * ξ k = 0) → ∀ k < m, ξ k = 0)
    (S : Finset (Fin dim → ℕ)) (hS : ∀ α ∈ S, ∀ l, α l < m) (ξ : (Fin dim → ℕ) → ℝ)
    (hz : ∀ i : Fin dim → ℕ, (∀ l, i l < n l) → ∑ α ∈ S, (∏ l, φ l (i l) (α l)) * ξ α = 0) : ∀ α ∈ S, ξ α = 0 := by
  intro α hα
  choose lam hlam using fun l => left_inverse (φ l) (h l)
  have h0 : ∑ i ∈ Fintype.piFinset (fun l => Finset.range (n l)),
      (∏ l, lam l (α l) (i l)) * ∑ β ∈ S, (∏ l, φ l (i l) (β l)) * ξ β = 0 := by
    refine Finset.sum_eq_zero fun i hi => ?_
    rw [hz i (fun l => Finset.mem_range.mp (Fintype.mem_piFinset.mp hi l)), mul_zero]
  simp only [Finset.mul_sum] at h0
  rw [Finset.sum_comm] at h0
  have h1 : ∀ β ∈ S, ∑ i ∈ Fintype.piFinset (fun l => Finset.range (n l)),
      (∏ l, lam l (α l) (i l)) * ((∏ l, φ l (i l) (β l)) * ξ β) = if β = α then ξ α else 0 := by
    intro β hβ
    have h2 : ∑ i ∈ Fintype.piFinset (fun l => Finset.range (n l)),
        (∏ l, lam l (α l) (i l)) * ((∏ l, φ l (i l) (β l)) * ξ β) =
        (∏ l, ∑ j ∈ Finset.range (n l), lam l (α l) j * φ l j (β l)) * ξ β := by
      rw [Finset.prod_univ_sum, Finset.sum_mul]
      refine Finset.sum_congr rfl fun i _ => ?_
      rw [Finset.prod_mul_distrib]
      ring
    rw [h2]
    have h3 : ∀ l, ∑ j ∈ Finset.range (n l), lam l (α l) j * φ l j (β l) = if α l = β l then 1 else 0 :=
      fun l => hlam l (α l) (hS α hα l) (β l) (hS β hβ l)
    simp only [h3]
    by_cases hab : β = α
    · subst hab; simp
    · rw [if_neg hab]
      obtain ⟨l, hl⟩ := Function.ne_iff.mp hab
      rw [Finset.prod_eq_zero (Finset.mem_univ l) (by rw [if_neg (fun h => hl h.symm)]), zero_mul]
  rw [Finset.sum_congr rfl h1, Finset.sum_ite_eq' S α, if_pos hα] at h0
  exact h0

/-! ## Mixed partial derivatives of sums of products -/

theorem partialDeriv_tensor_sum {dim : ℕ} (k : Fin dim) (S : Finset (Fin dim → ℕ)) (g : (Fin dim → ℕ) → Fin dim → ℝ → ℝ)
    (hg : ∀ α l (n : ℕ), ContDiff ℝ n (g α l)) (ξ : (Fin dim → ℕ) → ℝ) (e : Fin dim → ℕ) :
    partialDeriv k (fun x => ∑ α ∈ S, (∏ l, iteratedDeriv (e l) (g α l) (x l)) * ξ α) =
      fun x => ∑ α ∈ S, (∏ l, iteratedDeriv (Function.update e k (e k + 1) l) (g α l) (x l)) * ξ α := by
  funext x
  have h1 : ∀ α, partialDeriv k (fun x => ∏ l, iteratedDeriv (e l) (g α l) (x l)) x =
      ∏ l, iteratedDeriv (Function.update e k (e k + 1) l) (g α l) (x l) := fun α => by rw [partialDeriv_tensor]
  have h2 : ∀ α, DifferentiableAt ℝ (fun t => ∏ l, iteratedDeriv (e l) (g α l) (Function.update x k t l)) (x k) := by
    intro α
    refine DifferentiableAt.fun_finsetProd fun l _ => ?_
    have h3 : Differentiable ℝ (iteratedDeriv (e l) (g α l)) :=
      (hg α l (e l + 1)).differentiable_iteratedDeriv (e l) (by norm_cast; omega)
    by_cases hl : l = k
    · subst hl
      simp only [Function.update_self]
      exact h3 _
    · simp only [Function.update_of_ne hl]
      exact differentiableAt_const _
  unfold partialDeriv
  rw [deriv_fun_sum (fun α _ => (h2 α).mul_const (ξ α))]
  refine Finset.sum_congr rfl fun α _ => ?_
  rw [deriv_mul_const (h2 α), ← h1 α]
  rfl

theorem partialDeriv_iterate_tensor_sum {dim : ℕ} (k : Fin dim) (S : Finset (Fin dim → ℕ))
    (g : (Fin dim → ℕ) → Fin dim → ℝ → ℝ) (hg : ∀ α l (n : ℕ), ContDiff ℝ n (g α l)) (ξ : (Fin dim → ℕ) → ℝ) (n : ℕ)
    (e : Fin dim → ℕ) :
    (partialDeriv k)^[n] (fun x => ∑ α ∈ S, (∏ l, iteratedDeriv (e l) (g α l) (x l)) * ξ α) =
      fun x => ∑ α ∈ S, (∏ l, iteratedDeriv (Function.update e k (e k + n) l) (g α l) (x l)) * ξ α := by
  induction n generalizing e with
  | zero => simp
  | succ n ih =>
    rw [Function.iterate_succ_apply, partialDeriv_tensor_sum k S g hg, ih]
    simp only [Function.update_self, Function.update_idem]
    rw [show e k + 1 + n = e k + (n + 1) by omega]

theorem mixedPartial_tensor_sum {dim : ℕ} (d : Fin dim → ℕ) (S : Finset (Fin dim → ℕ))
    (g : (Fin dim → ℕ) → Fin dim → ℝ → ℝ) (hg : ∀ α l (n : ℕ), ContDiff ℝ n (g α l)) (ξ : (Fin dim → ℕ) → ℝ) :
    mixedPartial d (fun x => ∑ α ∈ S, (∏ l, g α l (x l)) * ξ α) =
      fun x => ∑ α ∈ S, mixedPartial d (fun x => ∏ l, g α l (x l)) x * ξ α := by
  have key : ∀ L : List (Fin dim), L.Nodup → L.foldr (fun k g => (partialDeriv k)^[d k] g)
      (fun x => ∑ α ∈ S, (∏ l, g α l (x l)) * ξ α) =
        fun x => ∑ α ∈ S, (∏ l, iteratedDeriv (if l ∈ L then d l else 0) (g α l) (x l)) * ξ α := by
    intro L
    induction L with
    | nil => intro _; simp
    | cons k L ih =>
      intro hL
      rw [List.foldr_cons, ih (List.nodup_cons.mp hL).2, partialDeriv_iterate_tensor_sum k S g hg]
      have hk := (List.nodup_cons.mp hL).1
      funext x
      refine Finset.sum_congr rfl fun α _ => ?_
      congr 1
      refine Finset.prod_congr rfl fun l _ => ?_
      congr 1
      by_cases hl : l = k
      · subst hl; simp [hk]
      · simp [Function.update_of_ne hl, hl]
  have h1 : mixedPartial d (fun x => ∑ α ∈ S, (∏ l, g α l (x l)) * ξ α) =
      fun x => ∑ α ∈ S, (∏ l, iteratedDeriv (d l) (g α l) (x l)) * ξ α := by
    unfold mixedPartial
    rw [key _ (List.nodup_finRange dim)]
    simp
  rw [h1]
  funext x
  refine Finset.sum_congr rfl fun α _ => ?_
  rw [mixedPartial_tensor]

/-! ## Polynomials of several variables -/

/-- Every polynomial of total degree below `m` is a combination of the tensor products of total degree below `m`. -/
theorem tensor_represent {dim m : ℕ} (f : PolyFamily) (x0 xf : Fin dim → ℝ) (hx : ∀ l, x0 l ≠ xf l)
    (S : Finset (Fin dim → ℕ)) (hS : ∀ α, α ∈ S ↔ ∑ l, α l < m) (P : MvPolynomial (Fin dim) ℝ) (hP : P.totalDegree < m) :
    ∃ ξ : (Fin dim → ℕ) → ℝ, ∀ x : Fin dim → ℝ, MvPolynomial.eval x P =
      ∑ α ∈ S, (∏ l, (classical ℝ f (α l)).eval (f.arg (x0 l) (xf l) (x l))) * ξ α := by
  set T : (Fin dim → ℕ) → (Fin dim → ℝ) → ℝ := fun α x => ∏ l, (classical ℝ f (α l)).eval (f.arg (x0 l) (xf l) (x l)) with hT
  have hsum : ∀ {ι : Type} (J : Finset ι) (F : ι → (Fin dim → ℝ) → ℝ),
      (∀ j ∈ J, ∃ ξ : (Fin dim → ℕ) → ℝ, ∀ x, F j x = ∑ α ∈ S, T α x * ξ α) →
      ∃ ξ : (Fin dim → ℕ) → ℝ, ∀ x, ∑ j ∈ J, F j x = ∑ α ∈ S, T α x * ξ α := by
    intro ι J F h
    classical
    have h' : ∀ j, ∃ ξ : (Fin dim → ℕ) → ℝ, j ∈ J → ∀ x, F j x = ∑ α ∈ S, T α x * ξ α := by
      intro j
      by_cases hj : j ∈ J
      · obtain ⟨ξ, hξ⟩ := h j hj
        exact ⟨ξ, fun _ => hξ⟩
      · exact ⟨fun _ => 0, fun hj' => absurd hj' hj⟩
    choose ξ hξ using h'
    refine ⟨fun α => ∑ j ∈ J, ξ j α, fun x => ?_⟩
    rw [Finset.sum_congr rfl fun j hj => hξ j hj x, Finset.sum_comm]
    exact Finset.sum_congr rfl fun α _ => by rw [Finset.mul_sum]
  have hmono : ∀ (l : Fin dim) (a : ℕ), ∃ c : ℕ → ℝ, ∀ x : ℝ, x ^ a =
      ∑ k ∈ Finset.range (a + 1), (classical ℝ f k).eval (f.arg (x0 l) (xf l) x) * c k := by
    intro l a
    obtain ⟨c, hc⟩ := classical_represent f (x0 l) (xf l) (hx l) (a + 1) (Polynomial.X ^ a)
      (by rw [Polynomial.degree_X_pow]; norm_cast; omega)
    exact ⟨c, fun x => by rw [← hc]; simp⟩
  choose c hc using hmono
  have hE : ∀ x, MvPolynomial.eval x P = ∑ μ ∈ P.support, P.coeff μ * ∏ l, x l ^ μ l := by
    intro x
    rw [MvPolynomial.eval_eq']
  simp only [hE]
  refine hsum P.support _ fun μ hμ => ?_
  have hdeg : ∑ l, μ l < m := by
    have h1 := MvPolynomial.le_totalDegree hμ
    rw [Finsupp.sum_fintype _ _ (fun _ => rfl)] at h1
    omega
  have hexp : ∀ x : Fin dim → ℝ, P.coeff μ * ∏ l, x l ^ μ l =
      ∑ α ∈ Fintype.piFinset (fun l => Finset.range (μ l + 1)), T α x * (P.coeff μ * ∏ l, c l (μ l) (α l)) := by
    intro x
    rw [Finset.prod_congr rfl fun l _ => hc l (μ l) (x l), Finset.prod_univ_sum, Finset.mul_sum]
    refine Finset.sum_congr rfl fun α _ => ?_
    rw [Finset.prod_mul_distrib]
    ring
  simp only [hexp]
  refine hsum _ _ fun α hα => ?_
  have hαS : α ∈ S := by
    rw [hS]
    refine lt_of_le_of_lt (Finset.sum_le_sum fun l _ => ?_) hdeg
    have := Finset.mem_range.mp (Fintype.mem_piFinset.mp hα l)
    omega
  refine ⟨fun β => if β = α then P.coeff μ * ∏ l, c l (μ l) (α l) else 0, fun x => ?_⟩
  rw [Finset.sum_eq_single α]
  · beta_reduce; rw [if_pos rfl]
  · intro β _ hβ
    beta_reduce; rw [if_neg hβ, mul_zero]
  · intro h; exact absurd hαS h

end Verif
