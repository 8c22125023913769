import Verif.Props.Nlls
import Verif.Lemmas.GaussNewton
import Mathlib.Analysis.InnerProductSpace.Calculus

/-!
# C85: near a regular zero of the residual, nonlinear least squares converges quadratically
-/

set_option linter.unusedSectionVars false

namespace Verif.Props

open Verif.Py Verif.Np Verif.Spec Verif.Model Verif.Model.Dict Verif.Model.LSq Verif.Lemmas.LinAlg Verif.Lemmas.LSq
  Verif.Lemmas.Pe

variable {Key : Type} [DecidableEq Key]

/-- The first `n` entries of a list as a vector. -/
noncomputable def point (n : ℕ) (l : List ℝ) : EuclideanSpace ℝ (Fin n) := WithLp.toLp 2 fun j => l.getD j 0

/-- The Euclidean distance of the entries of two arguments. -/
noncomputable def distance (v w : View Key) : ℝ := ‖point (entries w).length (entries v) - point (entries w).length (entries w)‖

/-- `s` is a regular zero of the residual: near `s` the residual is a twice continuously differentiable function `F` of the entries of
the unknowns, it is 0 at `s`, and its derivative there is injective (the Jacobian has full column rank). -/
structure RegularZero (res : Residual Key) (args : List (View Key)) (s : View Key) (m : ℕ)
    (F : EuclideanSpace ℝ (Fin (entries s).length) → EuclideanSpace ℝ (Fin m)) : Prop where
  eq : ∀ v, SameForm s v → res (v :: args) = List.ofFn (F (point _ (entries v))).ofLp
  smooth : ContDiffAt ℝ 2 F (point _ (entries s))
  zero : F (point _ (entries s)) = 0
  regular : Function.Injective (fderiv ℝ F (point _ (entries s)))

theorem point_sub {n : ℕ} {l d : List ℝ} (hl : l.length = n) (hd : d.length = n) :
    point n (List.zipWith (· - ·) l d) = point n l - point n d := by
  ext j
  have h1 : (j : ℕ) < l.length := by omega
  have h2 : (j : ℕ) < d.length := by omega
  have h3 : (j : ℕ) < (List.zipWith (· - ·) l d).length := by
    rw [List.length_zipWith]
    omega
  show (List.zipWith (· - ·) l d).getD j 0 = l.getD j 0 - d.getD j 0
  simp only [List.getD_eq_getElem?_getD, List.getElem?_eq_getElem, h1, h2, h3, Option.getD_some, List.getElem_zipWith]

theorem point_modify {n : ℕ} {l : List ℝ} (hl : l.length = n) (j : Fin n) (t : ℝ) :
    point n (l.modify j (· + t)) = point n l + t • EuclideanSpace.single j 1 := by
  ext i
  have h1 : (i : ℕ) < l.length := by omega
  have h3 : (i : ℕ) < (l.modify j (· + t)).length := by
    rw [List.length_modify]
    omega
  show (l.modify j (· + t)).getD i 0 = l.getD i 0 + t * (EuclideanSpace.single j (1 : ℝ)) i
  simp only [List.getD_eq_getElem?_getD, List.getElem?_eq_getElem, h1, h3, Option.getD_some, List.getElem_modify]
  by_cases h : (j : ℕ) = i
  · have : i = j := Fin.ext h.symm
    subst this
    simp
  · have : i ≠ j := fun e => h (by rw [e])
    rw [if_neg h]
    simp [this]

theorem ofFn_entry {m : ℕ} (g : Fin m → ℝ) (i : Fin m) : (List.ofFn g).getD i 0 = g i := by
  simp [List.getD_eq_getElem?_getD]

variable {res : Residual Key} {args : List (View Key)} {s : View Key} {m : ℕ}
  {F : EuclideanSpace ℝ (Fin (entries s).length) → EuclideanSpace ℝ (Fin m)}

/-- The matrix of the partial derivatives is that of the derivative of `F`. -/
theorem resPartial_fderiv (hF : ∀ v, SameForm s v → res (v :: args) = List.ofFn (F (point _ (entries v))).ofLp) {v : View Key} (hv : SameForm s v)
    (hd : DifferentiableAt ℝ F (point _ (entries v))) (i : Fin m) (j : Fin (entries s).length) :
    resPartial res args v i j = fderiv ℝ F (point _ (entries v)) (EuclideanSpace.single j 1) i := by
  have hl : (entries v).length = (entries s).length := (SameForm.length hv).symm
  unfold resPartial
  have e1 : ∀ t : ℝ, (res (refill v ((entries v).modify j (· + t)) :: args)).getD i 0 =
      F (point _ (entries v) + t • EuclideanSpace.single j 1) i := by
    intro t
    have hlen : ((entries v).modify j (· + t)).length = (entries v).length := List.length_modify ..
    rw [hF _ (SameForm.trans hv (refill_form v hlen)), entries_refill v hlen, ofFn_entry, point_modify hl]
  rw [funext e1]
  have h1 : HasDerivAt (fun t : ℝ => point _ (entries v) + t • EuclideanSpace.single j (1 : ℝ)) (EuclideanSpace.single j 1) 0 := by
    simpa using ((hasDerivAt_id (0 : ℝ)).smul_const (EuclideanSpace.single j (1 : ℝ))).const_add (point _ (entries v))
  have h2 : HasFDerivAt F (fderiv ℝ F (point _ (entries v))) (point _ (entries v) + (0 : ℝ) • EuclideanSpace.single j (1 : ℝ)) := by
    rw [zero_smul, add_zero]
    exact hd.hasFDerivAt
  have h3 := h2.comp_hasDerivAt (0 : ℝ) h1
  have h4 := (EuclideanSpace.proj i : EuclideanSpace ℝ (Fin m) →L[ℝ] ℝ).hasFDerivAt.comp_hasDerivAt (0 : ℝ) h3
  exact h4.deriv

theorem fderiv_apply_sum (A : EuclideanSpace ℝ (Fin (entries s).length) →L[ℝ] EuclideanSpace ℝ (Fin m)) (y : EuclideanSpace ℝ (Fin (entries s).length))
    (i : Fin m) : A y i = ∑ j, A (EuclideanSpace.single j 1) i * y j := by
  have h : y = ∑ j, y j • EuclideanSpace.single j (1 : ℝ) := by
    ext k
    simp [Pi.single_apply]
  conv_lhs => rw [h]
  rw [map_sum]
  simp only [map_smul]
  show (EuclideanSpace.proj i : EuclideanSpace ℝ (Fin m) →L[ℝ] ℝ) (∑ j, y j • A (EuclideanSpace.single j 1)) = _
  rw [map_sum]
  exact Finset.sum_congr rfl fun j _ => by
    rw [map_smul, smul_eq_mul, mul_comm]
    rfl

theorem missSq_eq (hF : ∀ v, SameForm s v → res (v :: args) = List.ofFn (F (point _ (entries v))).ofLp) {v : View Key} (hv : SameForm s v)
    (hd : DifferentiableAt ℝ F (point _ (entries v))) (y : ℕ → ℝ) :
    missSq (res (v :: args)).length (entries v).length (resPartial res args v) y (vec (res (v :: args))) =
      ‖fderiv ℝ F (point _ (entries v)) (WithLp.toLp 2 fun j => y j) - F (point _ (entries v))‖ ^ 2 := by
  rw [EuclideanSpace.norm_sq_eq, hF v hv, List.length_ofFn]
  unfold missSq
  rw [Finset.sum_range]
  refine Finset.sum_congr rfl fun i _ => ?_
  rw [Real.norm_eq_abs, sq_abs]
  congr 1
  show _ = fderiv ℝ F (point _ (entries v)) (WithLp.toLp 2 fun j => y j) i - F (point _ (entries v)) i
  unfold vec
  rw [ofFn_entry, fderiv_apply_sum, ← SameForm.length hv, Finset.sum_range]
  congr 1
  exact Finset.sum_congr rfl fun j _ => by rw [resPartial_fderiv hF hv hd]

/-- A Gauss–Newton step minimises the linearisation of `F`, and subtracts. -/
theorem step_minimises (hF : ∀ v, SameForm s v → res (v :: args) = List.ofFn (F (point _ (entries v))).ofLp) {v v' : View Key} {dx : List ℝ}
    (hv : SameForm s v) (hd : DifferentiableAt ℝ F (point _ (entries v))) (hs : GaussNewtonStep res args v dx v') :
    (∀ y, ‖fderiv ℝ F (point _ (entries v)) (point _ dx) - F (point _ (entries v))‖ ≤
      ‖fderiv ℝ F (point _ (entries v)) y - F (point _ (entries v))‖) ∧
    SameForm s v' ∧ point (entries s).length (entries v') = point _ (entries v) - point _ dx := by
  have hl : (entries v).length = (entries s).length := (SameForm.length hv).symm
  have hdx : dx.length = (entries v).length := hs.solves.length
  refine ⟨fun y => ?_, ?_, ?_⟩
  · have h := hs.solves.min fun j => if hj : j < (entries s).length then y ⟨j, hj⟩ else 0
    rw [missSq_eq hF hv hd, missSq_eq hF hv hd] at h
    have e : (WithLp.toLp 2 fun j : Fin (entries s).length => if hj : (j : ℕ) < (entries s).length then y ⟨j, hj⟩ else 0) = y := by
      ext j
      simp
    rw [e] at h
    exact (sq_le_sq₀ (norm_nonneg _) (norm_nonneg _)).1 h
  · rw [hs.next]
    exact SameForm.trans hv (refill_form _ (by rw [List.length_zipWith]; omega))
  · rw [hs.next, entries_refill _ (by rw [List.length_zipWith]; omega), point_sub hl (by omega)]

/-- **C85**, one step: there are `δ > 0` and `C` such that a Gauss–Newton step from any point at a distance less than `δ` from a
regular zero `s` leads to a point at a distance of at most `C` times the square of the distance before, and of at most half of it. -/
theorem C85_step (R : RegularZero res args s m F) : ∃ δ > 0, ∃ C : ℝ, 0 ≤ C ∧ ∀ (v v' : View Key) (dx : List ℝ), SameForm s v →
    distance v s < δ → GaussNewtonStep res args v dx v' → SameForm s v' ∧ distance v' s ≤ C * distance v s ^ 2 ∧
      distance v' s ≤ 1 / 2 * distance v s := by
  obtain ⟨δ, h1, C, h2, h3⟩ := gauss_newton_local R.smooth R.zero R.regular
  refine ⟨δ, h1, C, h2, fun v v' dx hv hd hs => ?_⟩
  obtain ⟨h4, h5⟩ := h3 _ hd
  obtain ⟨h6, h7, h8⟩ := step_minimises R.eq hv h4 hs
  have h9 := h5 _ h6
  unfold distance
  rw [h8]
  exact ⟨h7, h9⟩

/-- What C85 asks of the run from `v`: the distances of the iterates to `s` shrink quadratically, and the last iterate is the result. -/
def ConvergesTo (C : ℝ) (v s x : View Key) (n : ℕ) : Prop :=
  ∃ xs : ℕ → View Key, xs 0 = v ∧ xs n = x ∧
    (∀ k < n, distance (xs (k + 1)) s ≤ C * distance (xs k) s ^ 2) ∧ ∀ k ≤ n, distance (xs k) s ≤ (1 / 2) ^ k * distance v s

theorem within_of_norm {m : ℕ} {y : EuclideanSpace ℝ (Fin m)} {tol : ℝ} (h : ‖y‖ ≤ tol) : Within tol (List.ofFn y.ofLp) := by
  intro x hx
  rw [List.mem_ofFn] at hx
  obtain ⟨i, rfl⟩ := hx
  have := PiLp.norm_apply_le y i
  rw [Real.norm_eq_abs] at this
  exact this.trans h

/-- The runs of the loop near a regular zero. -/
theorem runs_converge (R : RegularZero res args s m F) : ∃ δ > 0, ∃ C : ℝ, 0 ≤ C ∧ ∀ tol > 0, ∃ N : ℕ,
    ∀ (v x : View Key) (maxIter n : ℕ), SameForm s v → distance v s < δ → RunsTo res args tol maxIter v x n →
      n ≤ N ∧ SameForm s x ∧ ConvergesTo C v s x n := by
  obtain ⟨δ, h1, C, h2, h3⟩ := C85_step R
  refine ⟨δ, h1, C, h2, fun tol ht => ?_⟩
  -- where the residual is within the tolerance
  have hcont : ContinuousAt F (point _ (entries s)) := R.smooth.continuousAt
  obtain ⟨η, hη, hnear⟩ := Metric.continuousAt_iff.1 hcont tol ht
  obtain ⟨N, hN⟩ : ∃ N : ℕ, (1 / 2 : ℝ) ^ N * δ < η := by
    obtain ⟨N, hN⟩ := exists_pow_lt_of_lt_one (show 0 < η / δ by positivity) (show (1 / 2 : ℝ) < 1 by norm_num)
    exact ⟨N, by rwa [lt_div_iff₀ h1] at hN⟩
  refine ⟨N, fun v x maxIter n hv hd hr => ?_⟩
  obtain ⟨-, xs, dxs, r1, r2, r3, -⟩ := hr
  have hall : ∀ k ≤ n, SameForm s (xs k) ∧ distance (xs k) s ≤ (1 / 2) ^ k * distance v s := by
    intro k
    induction k with
    | zero => exact fun _ => ⟨by rw [r1]; exact hv, by rw [r1]; simp⟩
    | succ k ih =>
      intro hk
      obtain ⟨i1, i2⟩ := ih (by omega)
      have i3 : distance (xs k) s ≤ distance v s := by
        refine i2.trans ?_
        have : (1 / 2 : ℝ) ^ k ≤ 1 := pow_le_one₀ (by norm_num) (by norm_num)
        have h0 : 0 ≤ distance v s := norm_nonneg _
        nlinarith
      obtain ⟨s1, -, s3⟩ := h3 _ _ _ i1 (lt_of_le_of_lt i3 hd) (r3 k (by omega)).1
      refine ⟨s1, s3.trans ?_⟩
      rw [pow_succ]
      linarith
  have hδ : ∀ k ≤ n, distance (xs k) s < δ := by
    intro k hk
    refine lt_of_le_of_lt (hall k hk).2 (lt_of_le_of_lt ?_ hd)
    have : (1 / 2 : ℝ) ^ k ≤ 1 := pow_le_one₀ (by norm_num) (by norm_num)
    have h0 : 0 ≤ distance v s := norm_nonneg _
    nlinarith
  refine ⟨?_, ?_, xs, r1, r2, fun k hk => ?_, fun k hk => (hall k hk).2⟩
  · by_contra hlt
    push Not at hlt
    obtain ⟨a1, a2⟩ := hall N (by omega)
    apply (r3 N hlt).2.2
    rw [R.eq _ a1]
    apply within_of_norm
    have h4 : dist (point (entries s).length (entries (xs N))) (point _ (entries s)) < η := by
      rw [dist_eq_norm]
      refine lt_of_le_of_lt a2 (lt_of_le_of_lt ?_ hN)
      exact mul_le_mul_of_nonneg_left hd.le (by positivity)
    have h5 := hnear h4
    rw [R.zero, dist_zero_right] at h5
    exact h5.le
  · rw [← r2]
    exact (hall n le_rfl).1
  · exact (h3 _ _ _ (hall k hk.le).1 (hδ k hk.le) (r3 k hk).1).2.1

theorem GoodProblem.of_form {lib : LinAlg} {method : Method} {J : Option (List (View Key) → Mat ℝ)} {z v : View Key} {L : List ℕ}
    (G : GoodProblem lib method J res z args L) (h : SameForm z v) : GoodProblem lib method J res v args L := by
  refine ⟨G.lib, G.method, ?_, G.consts, proper_of_form h G.proper, entries_ne h G.unknowns, fun w hw => G.residual w (SameForm.trans h hw)⟩
  rcases G.jac with e | ⟨f, e, hf⟩
  · exact Or.inl e
  · exact Or.inr ⟨f, e, fun w hw => hf w (SameForm.trans h hw)⟩

/-- **C85** for `NLLS`. Around every regular zero `s` of the residual there is a ball, of radius `δ`, such that from every start value in
it, whatever the tolerance, `maxIter`, method, timer flag, constants and (correct) Jacobian, the distances of the iterates to `s`
are at least halved by each step and shrink quadratically; and for every positive tolerance the number of iterations made is at most an
`N` which depends neither on the start value nor on `maxIter`: with `maxIter > N`, it is never `maxIter` that ends the iteration. -/
theorem C85_nlls (R : RegularZero res args s m F) : ∃ δ > 0, ∃ C : ℝ, 0 ≤ C ∧ ∀ tol > 0, ∃ N : ℕ,
    ∀ (lib : LinAlg) (method : Method) (J : Option (List (View Key) → Mat ℝ)) (L : List ℕ), GoodProblem lib method J res s args L →
    ∀ (cond : Option (NState Key → Except Err Bool)) (maxIter : ℕ) (timer : Bool) (fuel : ℕ), maxIter + 2 ≤ fuel →
    ∀ v, SameForm s v → distance v s < δ → ∃ (x : View Key) (n : ℕ),
      (NLLS lib method J cond none tol maxIter timer res v args L fuel).1 = .ok (some (x, (n : ℤ))) ∧
      n ≤ N ∧ SameForm s x ∧ ConvergesTo C v s x n := by
  obtain ⟨δ, h1, C, h2, h3⟩ := runs_converge R
  refine ⟨δ, h1, C, h2, fun tol ht => ?_⟩
  obtain ⟨N, hN⟩ := h3 tol ht
  refine ⟨N, fun lib method J L G cond maxIter timer fuel hf v hv hd => ?_⟩
  obtain ⟨ls, rE, args', a1, a2, -, a3, -⟩ := nlls_reduce (G.of_form hv)
  obtain ⟨x, n, a4, a5⟩ := loop_runs (G.of_form hv) a1 a2 tol maxIter (SameForm.refl v) fuel hf
  exact ⟨x, n, by rw [a3]; exact a5 timer, hN v x maxIter n hv hd a4⟩

/-- **C85** for `NllsClass`: the same for every call of `run`, however the object was made and whether or not it has been run before. -/
theorem C85_nllsClass (R : RegularZero res args s m F) : ∃ δ > 0, ∃ C : ℝ, 0 ≤ C ∧ ∀ tol > 0, ∃ N : ℕ,
    ∀ (lib : LinAlg) (method : Method) (J : Option (List (View Key) → Mat ℝ)) (L : List ℕ) (z : View Key), SameForm s z →
    GoodProblem lib method J res z args L →
    ∀ (cond : Option (NState Key → Except Err Bool)) (maxIter : ℕ) (timer : Bool) (fuel : ℕ), maxIter + 2 ≤ fuel →
    ∃ o args', (NllsObj.init lib method J cond none tol maxIter timer res z args L).1 = .ok o ∧
      remaining L (z :: args) = z :: args' ∧
      ∀ (c : Bool) (v : View Key), SameForm s v → distance v s < δ → ∃ (x : View Key) (n : ℕ),
        NllsObj.run { o with compiled := c } v args' fuel = (.ok (some (x, (n : ℤ))), { o with compiled := true }) ∧
        n ≤ N ∧ SameForm s x ∧ ConvergesTo C v s x n := by
  obtain ⟨δ, h1, C, h2, h3⟩ := runs_converge R
  refine ⟨δ, h1, C, h2, fun tol ht => ?_⟩
  obtain ⟨N, hN⟩ := h3 tol ht
  refine ⟨N, fun lib method J L z hz G cond maxIter timer fuel hf => ?_⟩
  obtain ⟨ls, rE, args', a1, a2, a2', -, a3⟩ := nlls_reduce G
  refine ⟨_, args', a3 cond tol maxIter timer, a2', fun c v hv hd => ?_⟩
  obtain ⟨x, n, a4, a5⟩ := loop_runs G a1 a2 tol maxIter (SameForm.trans (SameForm.symm hz) hv) fuel hf
  refine ⟨x, n, ?_, hN v x maxIter n hv hd a4⟩
  unfold NllsObj.run
  simp only
  rw [a5]

/-- `x² - 2` as a function of vectors with one entry. -/
noncomputable def squareVec (y : EuclideanSpace ℝ (Fin 1)) : EuclideanSpace ℝ (Fin 1) := WithLp.toLp 2 fun _ => y 0 ^ 2 - 2

theorem squareVec_fderiv (y : EuclideanSpace ℝ (Fin 1)) :
    HasFDerivAt squareVec ((2 * y 0) • ContinuousLinearMap.id ℝ (EuclideanSpace ℝ (Fin 1))) y := by
  rw [← hasFDerivWithinAt_univ, hasFDerivWithinAt_euclidean]
  intro i
  rw [hasFDerivWithinAt_univ]
  have h1 : HasFDerivAt (fun y : EuclideanSpace ℝ (Fin 1) => y 0) (EuclideanSpace.proj 0 : EuclideanSpace ℝ (Fin 1) →L[ℝ] ℝ) y :=
    (EuclideanSpace.proj 0 : EuclideanSpace ℝ (Fin 1) →L[ℝ] ℝ).hasFDerivAt
  refine ((h1.pow 2).sub_const 2).congr_fderiv ?_
  ext w
  have : i = 0 := Subsingleton.elim _ _
  subst this
  simp

theorem squareVec_smooth : ContDiff ℝ 2 squareVec := by
  rw [contDiff_euclidean]
  intro i
  exact ((EuclideanSpace.proj 0 : EuclideanSpace ℝ (Fin 1) →L[ℝ] ℝ).contDiff.pow 2).sub contDiff_const

theorem squareVec_injective (y : EuclideanSpace ℝ (Fin 1)) (hy : 2 * y 0 ≠ 0) : Function.Injective (fderiv ℝ squareVec y) := by
  rw [(squareVec_fderiv y).fderiv]
  intro a b hab
  exact smul_right_injective _ hy hab

/-- The hypotheses are met: `√2` is a regular zero of `x² - 2`. -/
theorem squareRes_regular : RegularZero (squareRes : Residual Key) [] (.arr [Real.sqrt 2]) 1 squareVec := by
  refine ⟨?_, squareVec_smooth.contDiffAt, ?_, ?_⟩
  · intro v hv
    cases v with
    | dict c kvs => exact hv.elim
    | arr l =>
      have hl : l.length = 1 := by
        have : [Real.sqrt 2].length = l.length := hv
        simpa using this.symm
      obtain ⟨y, rfl⟩ := List.length_eq_one_iff.1 hl
      rfl
  · ext i
    show Real.sqrt 2 ^ 2 - 2 = 0
    rw [Real.sq_sqrt (by norm_num)]
    norm_num
  · exact squareVec_injective (point 1 [Real.sqrt 2]) (show 2 * Real.sqrt 2 ≠ 0 by positivity)

example : ∃ δ > 0, ∃ N : ℕ, ∃ lib : LinAlg, ∀ v : View ℕ, SameForm (.arr [Real.sqrt 2]) v → distance v (.arr [Real.sqrt 2]) < δ →
    ∃ x n, (NLLS lib .pinv none none none (1 / 10 ^ 13) 50 true squareRes v [] [] 52).1 = .ok (some (x, ((n : ℕ) : ℤ))) ∧ n ≤ N := by
  obtain ⟨δ, h1, C, -, h3⟩ := C85_nlls (squareRes_regular (Key := ℕ))
  obtain ⟨N, hN⟩ := h3 (1 / 10 ^ 13) (by norm_num)
  obtain ⟨lib, G⟩ := squareRes_good (Key := ℕ)
  refine ⟨δ, h1, N, lib, fun v hv hd => ?_⟩
  obtain ⟨x, n, a1, a2, -⟩ := hN lib .pinv none [] (G.of_form (by rfl)) none 50 true 52 (by norm_num) v hv hd
  exact ⟨x, n, a1, a2⟩

/-- The residual `x²` of an array with one entry: 0 is a zero, but not a regular one. -/
def doubleRes : Residual Key
  | [.arr [x]] => [x ^ 2]
  | _ => [0]

theorem doubleRes_step {x : ℝ} (hx : x ≠ 0) {dx : List ℝ} {v' : View Key} (h : GaussNewtonStep (doubleRes : Residual Key) [] (.arr [x]) dx v') :
    v' = .arr [x / 2] := by
  have hl : dx.length = 1 := h.solves.length
  obtain ⟨d, rfl⟩ := List.length_eq_one_iff.1 hl
  have hp : resPartial (doubleRes : Residual Key) [] (.arr [x]) 0 0 = 2 * x := by
    show deriv (fun t => (x + t) ^ 2) 0 = 2 * x
    have h1 : HasDerivAt (fun t : ℝ => (x + t) ^ 2) (2 * x) 0 := by
      have := ((hasDerivAt_id (0 : ℝ)).const_add x).pow 2
      refine this.congr_deriv ?_
      simp
    exact h1.deriv
  have hm := h.solves.min fun _ => x / 2
  have e : ∀ y : ℕ → ℝ, missSq ((doubleRes : Residual Key) [.arr [x]]).length (entries (.arr [x] : View Key)).length
      (resPartial (doubleRes : Residual Key) [] (.arr [x])) y (vec ((doubleRes : Residual Key) [.arr [x]])) = (2 * x * y 0 - x ^ 2) ^ 2 := by
    intro y
    show ∑ i ∈ Finset.range 1, ((∑ j ∈ Finset.range 1, resPartial (doubleRes : Residual Key) [] (.arr [x]) i j * y j) - vec [x ^ 2] i) ^ 2 = _
    rw [Finset.sum_range_one, Finset.sum_range_one, hp]
    rfl
  rw [e, e] at hm
  have hv : vec [d] 0 = d := rfl
  rw [hv] at hm
  have h0 : (2 * x * d - x ^ 2) ^ 2 = 0 := le_antisymm (hm.trans (le_of_eq (by ring))) (sq_nonneg _)
  have h1 : 2 * x * d - x ^ 2 = 0 := by simpa using h0
  have h2 : d = x / 2 := by
    have : x * (2 * d - x) = 0 := by linear_combination h1
    rcases mul_eq_zero.1 this with h | h
    · exact absurd h hx
    · linarith
  rw [h.next, h2]
  show View.arr [x - x / 2] = _
  congr 2
  ring

theorem distance_one (x y : ℝ) : distance (.arr [x] : View Key) (.arr [y]) = |x - y| := by
  unfold distance
  show ‖point 1 [x] - point 1 [y]‖ = |x - y|
  rw [EuclideanSpace.norm_eq]
  simp [point, Real.sqrt_sq_eq_abs]

/-- That the zero is regular is needed: at the double zero 0 of `x²` each step exactly halves the distance, so there is no `C` for which
it shrinks quadratically, in any ball. -/
theorem C85_double_fails : ¬ ∃ δ > 0, ∃ C : ℝ, ∀ (v v' : View Key) (dx : List ℝ), SameForm (.arr [0]) v → distance v (.arr [0]) < δ →
    GaussNewtonStep (doubleRes : Residual Key) [] v dx v' → distance v' (.arr [0]) ≤ C * distance v (.arr [0]) ^ 2 := by
  rintro ⟨δ, hδ, C, h⟩
  obtain ⟨lib, hlib⟩ := linAlg_exists
  obtain ⟨x, hx0, hx1, hx2⟩ : ∃ x : ℝ, 0 < x ∧ x < δ ∧ C * x < 1 / 2 := by
    refine ⟨min (δ / 2) (1 / (4 * (|C| + 1))), by positivity, lt_of_le_of_lt (min_le_left _ _) (by linarith), ?_⟩
    obtain ⟨y, hy⟩ : ∃ y, y = min (δ / 2) (1 / (4 * (|C| + 1))) := ⟨_, rfl⟩
    have h1 : y ≤ 1 / (4 * (|C| + 1)) := hy ▸ min_le_right _ _
    have h0 : 0 < y := hy ▸ (by positivity)
    rw [le_div_iff₀ (by positivity)] at h1
    rw [← hy]
    have := mul_le_mul_of_nonneg_right (le_abs_self C) h0.le
    nlinarith
  obtain ⟨dx, -, h2⟩ := nllsFun_ok (J := none) (res := (doubleRes : Residual Key)) (z := .arr [x]) (args := []) hlib (method := .pinv)
    (by simp) (Or.inl rfl) (v := .arr [x]) rfl trivial
  have hs : GaussNewtonStep (doubleRes : Residual Key) [] (.arr [x]) dx _ := ⟨h2, rfl⟩
  have h3 := h (.arr [x]) _ dx rfl (by rw [distance_one, sub_zero, abs_of_pos hx0]; exact hx1) hs
  rw [doubleRes_step hx0.ne' hs, distance_one, distance_one, sub_zero, sub_zero, abs_of_pos hx0, abs_of_pos (by positivity)] at h3
  nlinarith

end Verif.Props
