import Verif.Lemmas.Expr
import Verif.Lemmas.MultiAffine
import Mathlib.Analysis.Calculus.FDeriv.Symmetric
import Mathlib.Analysis.Calculus.IteratedDeriv.Defs

/-! # Partial derivatives of smooth functions of several variables -/

namespace Verif

open Verif.Spec
open scoped ContDiff

variable {dim : ℕ}

theorem partialDeriv_comm {f : (Fin dim → ℝ) → ℝ} (hf : ContDiff ℝ ∞ f) (i j : Fin dim) :
    partialDeriv i (partialDeriv j f) = partialDeriv j (partialDeriv i f) := by
  have e : ∀ k, partialDeriv k f = fun P => fderiv ℝ f P (Pi.single k 1) := fun k =>
    funext fun x => partialDeriv_eq (hf.differentiable (by simp)) k x
  funext P
  have h2 : ContDiff ℝ ∞ (fderiv ℝ f) := hf.fderiv_right (by simp)
  have hd := (h2.differentiable (by simp) P).hasFDerivAt
  have key : ∀ v w : Fin dim → ℝ, fderiv ℝ (fun P => fderiv ℝ f P v) P w = fderiv ℝ (fderiv ℝ f) P w v := by
    intro v w
    have := hd.clm_apply (hasFDerivAt_const v P)
    rw [this.fderiv]
    simp
  have hsym : IsSymmSndFDerivAt ℝ f P := hf.contDiffAt.isSymmSndFDerivAt (by simp; exact WithTop.coe_le_coe.mpr (le_top : (2 : ℕ∞) ≤ ⊤))
  rw [partialDeriv_eq ((partialDeriv_contDiff hf j).differentiable (by simp)), partialDeriv_eq ((partialDeriv_contDiff hf i).differentiable (by simp)),
    e, e, key, key]
  exact hsym _ _

/-- The derivatives in the variables of a list. -/
noncomputable def along (L : List (Fin dim)) (d : Fin dim → ℕ) (f : (Fin dim → ℝ) → ℝ) : (Fin dim → ℝ) → ℝ :=
  L.foldr (fun k g => (partialDeriv k)^[d k] g) f

theorem mixedPartial_eq_along (d : Fin dim → ℕ) (f : (Fin dim → ℝ) → ℝ) : mixedPartial d f = along (List.finRange dim) d f := rfl

theorem along_cons (k : Fin dim) (L : List (Fin dim)) (d : Fin dim → ℕ) (f : (Fin dim → ℝ) → ℝ) :
    along (k :: L) d f = (partialDeriv k)^[d k] (along L d f) := rfl

theorem along_smooth (L : List (Fin dim)) (d : Fin dim → ℕ) {f : (Fin dim → ℝ) → ℝ} (hf : ContDiff ℝ ∞ f) : ContDiff ℝ ∞ (along L d f) := by
  induction L with
  | nil => exact hf
  | cons k L ih => exact iter_partialDeriv_contDiff k _ ih

theorem mixed_smooth (d : Fin dim → ℕ) {f : (Fin dim → ℝ) → ℝ} (hf : ContDiff ℝ ∞ f) : ContDiff ℝ ∞ (mixedPartial d f) := along_smooth _ d hf

theorem partialDeriv_iter_comm {f : (Fin dim → ℝ) → ℝ} (hf : ContDiff ℝ ∞ f) (i j : Fin dim) (n : ℕ) :
    partialDeriv i ((partialDeriv j)^[n] f) = (partialDeriv j)^[n] (partialDeriv i f) := by
  induction n with
  | zero => rfl
  | succ n ih =>
    rw [Function.iterate_succ_apply', Function.iterate_succ_apply', partialDeriv_comm (iter_partialDeriv_contDiff j n hf), ih]

theorem along_partial (L : List (Fin dim)) (d : Fin dim → ℕ) {f : (Fin dim → ℝ) → ℝ} (hf : ContDiff ℝ ∞ f) (k : Fin dim) :
    partialDeriv k (along L d f) = along L d (partialDeriv k f) := by
  induction L with
  | nil => rfl
  | cons i L ih => rw [along_cons, along_cons, partialDeriv_iter_comm (along_smooth L d hf), ih]

theorem along_iter (L : List (Fin dim)) (d : Fin dim → ℕ) {f : (Fin dim → ℝ) → ℝ} (hf : ContDiff ℝ ∞ f) (k : Fin dim) (n : ℕ) :
    (partialDeriv k)^[n] (along L d f) = along L d ((partialDeriv k)^[n] f) := by
  induction n with
  | zero => rfl
  | succ n ih =>
    rw [Function.iterate_succ_apply', ih, along_partial L d (iter_partialDeriv_contDiff k n hf), ← Function.iterate_succ_apply' (partialDeriv k)]

theorem along_congr (L : List (Fin dim)) {d e : Fin dim → ℕ} (f : (Fin dim → ℝ) → ℝ) (h : ∀ k ∈ L, d k = e k) : along L d f = along L e f := by
  induction L with
  | nil => rfl
  | cons i L ih => rw [along_cons, along_cons, ih fun k hk => h k (by simp [hk]), h i (by simp)]

theorem along_inner {L : List (Fin dim)} (hL : L.Nodup) (d : Fin dim → ℕ) {f : (Fin dim → ℝ) → ℝ} (hf : ContDiff ℝ ∞ f) {k : Fin dim} (hk : k ∈ L) :
    along L d f = along L (Function.update d k 0) ((partialDeriv k)^[d k] f) := by
  induction L with
  | nil => simp at hk
  | cons i L ih =>
    obtain ⟨hi, hL⟩ := List.nodup_cons.1 hL
    rw [along_cons, along_cons]
    by_cases h : i = k
    · subst h
      rw [Function.update_self, Function.iterate_zero, id, along_iter L d hf]
      exact along_congr L _ fun j hj => (Function.update_of_ne (fun h : j = i => hi (h ▸ hj)) _ _).symm
    · rw [Function.update_of_ne h, ih hL (by simpa [Ne.symm h] using hk)]

/-- The derivatives in one variable may be taken first. -/
theorem mixed_inner (d : Fin dim → ℕ) {f : (Fin dim → ℝ) → ℝ} (hf : ContDiff ℝ ∞ f) (k : Fin dim) :
    mixedPartial d f = mixedPartial (Function.update d k 0) ((partialDeriv k)^[d k] f) :=
  along_inner (List.nodup_finRange dim) d hf (List.mem_finRange k)

/-! ## Substitution of a value for one variable -/

theorem partialDeriv_subst {i k : Fin dim} (h : i ≠ k) (f : (Fin dim → ℝ) → ℝ) (p : ℝ) :
    partialDeriv i (fun P => f (Function.update P k p)) = fun P => partialDeriv i f (Function.update P k p) := by
  funext P
  unfold partialDeriv
  rw [Function.update_of_ne h]
  simp only [Function.update_comm h]

theorem iter_partialDeriv_subst {i k : Fin dim} (h : i ≠ k) (f : (Fin dim → ℝ) → ℝ) (p : ℝ) (n : ℕ) :
    (partialDeriv i)^[n] (fun P => f (Function.update P k p)) = fun P => (partialDeriv i)^[n] f (Function.update P k p) := by
  induction n with
  | zero => rfl
  | succ n ih => rw [Function.iterate_succ_apply', ih, partialDeriv_subst h, Function.iterate_succ_apply']

theorem along_subst (L : List (Fin dim)) (k : Fin dim) {d : Fin dim → ℕ} (hd : d k = 0) (f : (Fin dim → ℝ) → ℝ) (p : ℝ) :
    along L d (fun P => f (Function.update P k p)) = fun P => along L d f (Function.update P k p) := by
  induction L with
  | nil => rfl
  | cons i L ih =>
    rw [along_cons, along_cons, ih]
    by_cases h : i = k
    · rw [h, hd]
      rfl
    · exact iter_partialDeriv_subst h _ p _

theorem mixed_subst (k : Fin dim) {d : Fin dim → ℕ} (hd : d k = 0) (f : (Fin dim → ℝ) → ℝ) (p : ℝ) :
    mixedPartial d (fun P => f (Function.update P k p)) = fun P => mixedPartial d f (Function.update P k p) := along_subst _ k hd f p

/-! ## Factors that depend on one variable -/

theorem partialDeriv_weight {i k : Fin dim} (h : i ≠ k) (w : ℝ → ℝ) (f : (Fin dim → ℝ) → ℝ) :
    partialDeriv i (fun P => w (P k) * f P) = fun P => w (P k) * partialDeriv i f P := by
  funext P
  unfold partialDeriv
  simp only [Function.update_of_ne (Ne.symm h)]
  rw [deriv_const_mul_field]

theorem iter_partialDeriv_weight {i k : Fin dim} (h : i ≠ k) (w : ℝ → ℝ) (f : (Fin dim → ℝ) → ℝ) (n : ℕ) :
    (partialDeriv i)^[n] (fun P => w (P k) * f P) = fun P => w (P k) * (partialDeriv i)^[n] f P := by
  induction n with
  | zero => rfl
  | succ n ih => rw [Function.iterate_succ_apply', ih, partialDeriv_weight h, Function.iterate_succ_apply']

theorem along_weight (L : List (Fin dim)) (k : Fin dim) {d : Fin dim → ℕ} (hd : d k = 0) (w : ℝ → ℝ) (f : (Fin dim → ℝ) → ℝ) :
    along L d (fun P => w (P k) * f P) = fun P => w (P k) * along L d f P := by
  induction L with
  | nil => rfl
  | cons i L ih =>
    rw [along_cons, along_cons, ih]
    by_cases h : i = k
    · rw [h, hd]
      rfl
    · exact iter_partialDeriv_weight h w _ _

/-- A function that does not depend on variable `k`. -/
def NoVar (k : Fin dim) (f : (Fin dim → ℝ) → ℝ) : Prop := ∀ P s, f (Function.update P k s) = f P

theorem iter_weight_own (k : Fin dim) (w : ℝ → ℝ) {f : (Fin dim → ℝ) → ℝ} (hf : NoVar k f) (n : ℕ) :
    (partialDeriv k)^[n] (fun P => w (P k) * f P) = fun P => iteratedDeriv n w (P k) * f P := by
  induction n with
  | zero => rfl
  | succ n ih =>
    rw [Function.iterate_succ_apply', ih]
    funext P
    unfold partialDeriv
    simp only [hf P, Function.update_self]
    rw [deriv_mul_const_field, iteratedDeriv_succ]

/-- The derivative of a summand of a constrained expression: the weight takes the derivatives in its own variable. -/
theorem mixed_weight (k : Fin dim) (d : Fin dim → ℕ) {w : ℝ → ℝ} (hw : ContDiff ℝ ∞ w) {f : (Fin dim → ℝ) → ℝ} (hf : ContDiff ℝ ∞ f)
    (hn : NoVar k f) :
    mixedPartial d (fun P => w (P k) * f P) = fun P => iteratedDeriv (d k) w (P k) * mixedPartial (Function.update d k 0) f P := by
  have hs : ContDiff ℝ ∞ fun P : Fin dim → ℝ => w (P k) * f P := (hw.comp (contDiff_apply ℝ ℝ k)).mul hf
  rw [mixed_inner d hs k, iter_weight_own k w hn]
  exact along_weight _ k (Function.update_self ..) (iteratedDeriv (d k) w) f

/-- The derivative of what a condition sees of a function. -/
theorem mixed_seen (k : Fin dim) (d : Fin dim → ℕ) (r : ℕ) (p : ℝ) {f : (Fin dim → ℝ) → ℝ} (hf : ContDiff ℝ ∞ f) :
    mixedPartial (Function.update d k 0) (fun P => (partialDeriv k)^[r] f (Function.update P k p)) =
      fun P => mixedPartial (Function.update d k r) f (Function.update P k p) := by
  rw [mixed_subst k (Function.update_self ..)]
  have := mixed_inner (Function.update d k r) hf k
  rw [Function.update_self, Function.update_idem] at this
  rw [this]

theorem subst_smooth {f : (Fin dim → ℝ) → ℝ} (hf : ContDiff ℝ ∞ f) (k : Fin dim) (p : ℝ) : ContDiff ℝ ∞ fun P => f (Function.update P k p) := by
  refine hf.comp (contDiff_pi.2 fun i => ?_)
  by_cases h : i = k
  · subst h
    simp only [Function.update_self]
    exact contDiff_const
  · simp only [Function.update_of_ne h]
    exact contDiff_apply ℝ ℝ i

/-! ## Sums -/

theorem mixed_add (d : Fin dim → ℕ) {f g : (Fin dim → ℝ) → ℝ} (hf : ContDiff ℝ ∞ f) (hg : ContDiff ℝ ∞ g) :
    mixedPartial d (fun P => f P + g P) = fun P => mixedPartial d f P + mixedPartial d g P := by
  have := mixedPartial_sum (Finset.univ : Finset (Fin 2)) (fun _ => 1) d (f := ![f, g]) fun i => by fin_cases i <;> assumption
  simpa [Fin.sum_univ_two] using this

theorem mixed_const_mul (d : Fin dim → ℕ) (c : ℝ) {f : (Fin dim → ℝ) → ℝ} (hf : ContDiff ℝ ∞ f) :
    mixedPartial d (fun P => c * f P) = fun P => c * mixedPartial d f P := by
  have := mixedPartial_sum (Finset.univ : Finset (Fin 1)) (fun _ => c) d (f := fun _ => f) fun i => hf
  simpa using this

theorem mixed_sub (d : Fin dim → ℕ) {f g : (Fin dim → ℝ) → ℝ} (hf : ContDiff ℝ ∞ f) (hg : ContDiff ℝ ∞ g) :
    mixedPartial d (fun P => f P - g P) = fun P => mixedPartial d f P - mixedPartial d g P := by
  have h : (fun P => f P - g P) = fun P => f P + (-1) * g P := funext fun P => by ring
  rw [h, mixed_add d hf (contDiff_const.mul hg), mixed_const_mul d (-1) hg]
  funext P
  ring

theorem list_sum_smooth {ι : Type} (l : List ι) {f : ι → (Fin dim → ℝ) → ℝ} (hf : ∀ i ∈ l, ContDiff ℝ ∞ (f i)) :
    ContDiff ℝ ∞ fun P => (l.map fun i => f i P).sum := by
  induction l with
  | nil => exact contDiff_const
  | cons i l ih =>
    simp only [List.map_cons, List.sum_cons]
    exact (hf i (by simp)).add (ih fun j hj => hf j (by simp [hj]))

theorem mixed_const_zero (d : Fin dim → ℕ) : mixedPartial d (fun _ => (0 : ℝ)) = fun _ => 0 := by
  have := mixed_const_mul d 0 (f := fun _ => (0 : ℝ)) contDiff_const
  simpa using this

theorem mixed_list_sum {ι : Type} (d : Fin dim → ℕ) (l : List ι) {f : ι → (Fin dim → ℝ) → ℝ} (hf : ∀ i ∈ l, ContDiff ℝ ∞ (f i)) :
    mixedPartial d (fun P => (l.map fun i => f i P).sum) = fun P => (l.map fun i => mixedPartial d (f i) P).sum := by
  induction l with
  | nil => exact mixed_const_zero d
  | cons i l ih =>
    simp only [List.map_cons, List.sum_cons]
    rw [mixed_add d (hf i (by simp)) (list_sum_smooth l fun j hj => hf j (by simp [hj])), ih fun j hj => hf j (by simp [hj])]

theorem list_sum_noVar {ι : Type} (k : Fin dim) (l : List ι) {f : ι → (Fin dim → ℝ) → ℝ} (hf : ∀ i ∈ l, NoVar k (f i)) :
    NoVar k fun P => (l.map fun i => f i P).sum := fun P s => by
  refine congrArg List.sum (List.map_congr_left fun i hi => hf i hi P s)

end Verif
