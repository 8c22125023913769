import Verif.Spec.Expr
import Verif.Lemmas.UtfcJax
import Mathlib.Analysis.Calculus.ContDiff.Polynomial
import Mathlib.Analysis.SpecialFunctions.Trigonometric.Deriv
import Mathlib.Analysis.SpecialFunctions.ExpDeriv
import Mathlib.Analysis.SpecialFunctions.Trigonometric.DerivHyp
import Mathlib.Analysis.Calculus.IteratedDeriv.Lemmas
import Mathlib.Analysis.Calculus.Deriv.Pi

/-! # Smoothness of the basis functions -/

namespace Verif

open Verif.Py Verif.Np Verif.Spec Verif.Model Verif.Model.Py
open scoped ContDiff

theorem act_contDiff (a : Activation) (ha : a ≠ .relu) : ContDiff ℝ ∞ (act a) := by
  have hs : ContDiff ℝ ∞ sigmoid := by
    unfold sigmoid
    refine ContDiff.div contDiff_const (by fun_prop) fun x => by positivity
  cases a with
  | sigmoid => exact hs
  | tanh =>
    show ContDiff ℝ ∞ Real.tanh
    have : Real.tanh = fun x => Real.sinh x / Real.cosh x := funext Real.tanh_eq_sinh_div_cosh
    rw [this]
    exact Real.contDiff_sinh.div Real.contDiff_cosh fun x => (Real.cosh_pos x).ne'
  | sin => exact Real.contDiff_sin
  | swish => exact contDiff_id.mul hs
  | relu => exact absurd rfl ha

theorem fourier_contDiff (k : ℕ) : ContDiff ℝ ∞ (fourier k) := by
  unfold fourier
  split_ifs
  · exact contDiff_const
  · exact Real.contDiff_sin.comp (by fun_prop)
  · exact Real.contDiff_cos.comp (by fun_prop)

theorem basis_contDiff (cls : UniClass) (hc : ∀ w b, cls ≠ .elm .relu w b) (x0 xf : ℝ) (k : ℕ) :
    ContDiff ℝ ∞ (cls.basis x0 xf k) := by
  have ht : ∀ z0 zf, ContDiff ℝ ∞ fun x => toBasis x0 xf z0 zf x := by
    intro z0 zf
    unfold toBasis
    fun_prop
  cases cls with
  | poly f =>
    have h1 : ContDiff ℝ ∞ fun x : ℝ => (classical ℝ f k).eval x := by
      simpa [Polynomial.aeval_def] using Polynomial.contDiff_aeval (classical ℝ f k) (n := ∞) (𝕜 := ℝ)
    refine h1.comp ?_
    show ContDiff ℝ ∞ fun x => f.arg x0 xf x
    cases f <;> first | exact ht _ _ | exact contDiff_id
  | fs => exact (fourier_contDiff k).comp (ht _ _)
  | elm a w b =>
    have ha : a ≠ .relu := fun h => hc w b (by rw [h])
    exact (act_contDiff a ha).comp ((contDiff_const.mul (ht _ _)).add contDiff_const)

/-! ## Partial derivatives -/

theorem partialDeriv_eq {dim : ℕ} {f : (Fin dim → ℝ) → ℝ} (hf : Differentiable ℝ f) (k : Fin dim) (x : Fin dim → ℝ) :
    partialDeriv k f x = fderiv ℝ f x (Pi.single k 1) := by
  unfold partialDeriv
  have h1 : HasDerivAt (fun t : ℝ => Function.update x k t) (Pi.single k 1) (x k) := hasDerivAt_update x k (x k)
  have h2 : HasFDerivAt f (fderiv ℝ f x) (Function.update x k (x k)) := by
    rw [Function.update_eq_self]
    exact (hf x).hasFDerivAt
  exact (h2.comp_hasDerivAt (x k) h1).deriv

theorem partialDeriv_contDiff {dim : ℕ} {f : (Fin dim → ℝ) → ℝ} (hf : ContDiff ℝ ∞ f) (k : Fin dim) :
    ContDiff ℝ ∞ (partialDeriv k f) := by
  rw [show partialDeriv k f = fun x => fderiv ℝ f x (Pi.single k 1) from
    funext fun x => partialDeriv_eq (hf.differentiable (by simp)) k x]
  exact (hf.fderiv_right (m := ∞) (by simp)).clm_apply contDiff_const

theorem partialDeriv_sum {dim : ℕ} {ι : Type} (s : Finset ι) (a : ι → ℝ) {f : ι → (Fin dim → ℝ) → ℝ}
    (hf : ∀ i, ContDiff ℝ ∞ (f i)) (k : Fin dim) :
    partialDeriv k (fun x => ∑ i ∈ s, a i * f i x) = fun x => ∑ i ∈ s, a i * partialDeriv k (f i) x := by
  funext x
  have hd : ∀ i, Differentiable ℝ (f i) := fun i => (hf i).differentiable (by simp)
  have hs : Differentiable ℝ fun x => ∑ i ∈ s, a i * f i x := Differentiable.fun_sum fun i _ => (hd i).const_mul (a i)
  rw [partialDeriv_eq hs, fderiv_fun_sum fun i _ => ((hd i).const_mul (a i)) x]
  simp only [sum_apply]
  refine Finset.sum_congr rfl fun i _ => ?_
  rw [fderiv_const_mul (hd i x), partialDeriv_eq (hd i)]
  rfl

theorem iter_partialDeriv_contDiff {dim : ℕ} (k : Fin dim) (m : ℕ) {f : (Fin dim → ℝ) → ℝ} (hf : ContDiff ℝ ∞ f) :
    ContDiff ℝ ∞ ((partialDeriv k)^[m] f) := by
  induction m generalizing f with
  | zero => exact hf
  | succ m ih => exact ih (partialDeriv_contDiff hf k)

theorem iter_partialDeriv_sum {dim : ℕ} {ι : Type} (s : Finset ι) (a : ι → ℝ) (k : Fin dim) (m : ℕ)
    {f : ι → (Fin dim → ℝ) → ℝ} (hf : ∀ i, ContDiff ℝ ∞ (f i)) :
    (partialDeriv k)^[m] (fun x => ∑ i ∈ s, a i * f i x) = fun x => ∑ i ∈ s, a i * (partialDeriv k)^[m] (f i) x := by
  induction m generalizing f with
  | zero => rfl
  | succ m ih =>
    rw [Function.iterate_succ_apply, partialDeriv_sum s a hf, ih fun i => partialDeriv_contDiff (hf i) k]
    rfl

/-- Partial derivatives of a linear combination of smooth functions. -/
theorem mixedPartial_sum {dim : ℕ} {ι : Type} (s : Finset ι) (a : ι → ℝ) (d : Fin dim → ℕ)
    {f : ι → (Fin dim → ℝ) → ℝ} (hf : ∀ i, ContDiff ℝ ∞ (f i)) :
    mixedPartial d (fun x => ∑ i ∈ s, a i * f i x) = fun x => ∑ i ∈ s, a i * mixedPartial d (f i) x := by
  unfold mixedPartial
  have key : ∀ l : List (Fin dim), (∀ i, ContDiff ℝ ∞ (l.foldr (fun k g => (partialDeriv k)^[d k] g) (f i))) ∧
      l.foldr (fun k g => (partialDeriv k)^[d k] g) (fun x => ∑ i ∈ s, a i * f i x) =
        fun x => ∑ i ∈ s, a i * l.foldr (fun k g => (partialDeriv k)^[d k] g) (f i) x := by
    intro l
    induction l with
    | nil => exact ⟨hf, rfl⟩
    | cons k l ih =>
      simp only [List.foldr_cons]
      refine ⟨fun i => iter_partialDeriv_contDiff k _ (ih.1 i), ?_⟩
      rw [ih.2, iter_partialDeriv_sum s a k (d k) ih.1]
  exact (key _).2

theorem tensor_contDiff {dim : ℕ} (f : NFamily) (x0 xf : Fin dim → ℝ) (α : Fin dim → ℕ) :
    ContDiff ℝ ∞ (f.cls.tensor x0 xf α) := by
  unfold UniClass.tensor
  refine contDiff_prod fun k _ => ?_
  refine (basis_contDiff f.cls (by cases f <;> intro w b h <;> cases h) _ _ _).comp (contDiff_apply ℝ ℝ k)

theorem nElmBasis_contDiff {dim : ℕ} (a : Activation) (ha : a ≠ .relu) (x0 xf : Fin dim → ℝ) (w : Fin dim → ℕ → ℝ) (b : ℕ → ℝ)
    (k : ℕ) : ContDiff ℝ ∞ (nElmBasis a x0 xf w b k) := by
  unfold nElmBasis
  refine (act_contDiff a ha).comp ((ContDiff.sum fun i _ => contDiff_const.mul ?_).add contDiff_const)
  unfold toBasis
  have := contDiff_apply ℝ ℝ (n := ∞) i
  fun_prop

end Verif
