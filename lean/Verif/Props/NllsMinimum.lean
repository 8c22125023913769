import Verif.Props.Nlls
import Verif.Lemmas.NearMinimum
import Mathlib.Analysis.InnerProductSpace.PiL2
import Mathlib.Analysis.Calculus.Deriv.Prod

/-! # C97: near a minimum with a small residual the nonlinear least squares find it, near one with a large residual they need not -/

set_option linter.unusedSectionVars false

namespace Verif.Props

open Verif.Py Verif.Np Verif.Spec Verif.Model Verif.Model.Dict Verif.Model.LSq Verif.Lemmas Verif.Lemmas.LinAlg Verif.Lemmas.LSq Verif.Lemmas.Pe
open scoped RealInnerProductSpace

variable {Key : Type} [DecidableEq Key]

/-- All unknowns of `x` and `y` differ by at most `b`. -/
def EntriesWithin (b : ℝ) (x y : View Key) : Prop := ∀ j < (entries y).length, |vec (entries x) j - vec (entries y) j| ≤ b

/-- The residual as a function on `ℝⁿ`: `res` has the components of `r` for all unknowns of the form of `s`. -/
def GivenBy {n N : ℕ} (res : Residual Key) (s : View Key) (args : List (View Key)) (r : (Fin n → ℝ) → Fin N → ℝ) : Prop :=
  (entries s).length = n ∧ ∀ v, SameForm s v → res (v :: args) = List.ofFn (r fun j => vec (entries v) j)

/-- The columns of the Jacobian at `s` are linearly independent. -/
def FullRank (res : Residual Key) (s : View Key) (args : List (View Key)) : Prop :=
  ∀ h : ℕ → ℝ, (∀ i < (res (s :: args)).length, ∑ j ∈ Finset.range (entries s).length, resPartial res args s i j * h j = 0) →
    ∀ j < (entries s).length, h j = 0

/-- The gradient of the sum of the squares of the residual vanishes at `s`. -/
def Stationary (res : Residual Key) (s : View Key) (args : List (View Key)) : Prop :=
  ∀ j < (entries s).length, ∑ i ∈ Finset.range (res (s :: args)).length, vec (res (s :: args)) i * resPartial res args s i j = 0

/-- The Euclidean norm. -/
noncomputable def euclid {N : ℕ} (v : Fin N → ℝ) : ℝ := Real.sqrt (∑ i, v i ^ 2)

/-- The residual is small compared with the curvature of the components of the residual: the second-order part of the Hessian of half the sum of squares,
which a Gauss–Newton step leaves out, is at most `θ` times the first-order part, which it keeps. -/
def SmallCurvature {n N : ℕ} (r : (Fin n → ℝ) → Fin N → ℝ) (p : Fin n → ℝ) (θ : ℝ) : Prop :=
  ∀ h k, |∑ i, r p i * fderiv ℝ (fderiv ℝ r) p h k i| ≤ θ * euclid (fderiv ℝ r p h) * euclid (fderiv ℝ r p k)

section
variable {n N : ℕ} {res : Residual Key} {s : View Key} {args : List (View Key)} {r : (Fin n → ℝ) → Fin N → ℝ}

theorem coords_modify (l : List ℝ) (hl : l.length = n) (j : Fin n) (t : ℝ) :
    (fun k : Fin n => vec (l.modify j (· + t)) k) = (fun k : Fin n => vec l k) + t • Pi.single j 1 := by
  funext k
  have hk : (k : ℕ) < l.length := by rw [hl]; exact k.2
  simp only [vec, Pi.add_apply, Pi.smul_apply, smul_eq_mul]
  rw [List.getD_eq_getElem?_getD, List.getElem?_modify, List.getD_eq_getElem?_getD, List.getElem?_eq_getElem hk]
  by_cases h : j = k
  · subst h
    simp
  · have h' : (j : ℕ) ≠ k := fun e => h (Fin.ext e)
    simp [h', Pi.single_apply, Ne.symm h]

theorem ofFn_vec {N : ℕ} (f : Fin N → ℝ) (i : Fin N) : (List.ofFn f).getD i 0 = f i := by
  rw [List.getD_eq_getElem?_getD]
  simp

theorem partial_fderiv (hr : GivenBy res s args r) {v : View Key} (hv : SameForm s v) (hd : DifferentiableAt ℝ r fun j => vec (entries v) j)
    (i : Fin N) (j : Fin n) : resPartial res args v i j = fderiv ℝ r (fun j => vec (entries v) j) (Pi.single j 1) i := by
  have hl : (entries v).length = n := by rw [← SameForm.length hv]; exact hr.1
  have e : (fun t => (res (refill v ((entries v).modify j (· + t)) :: args)).getD i 0)
      = fun t : ℝ => r ((fun k : Fin n => vec (entries v) k) + t • Pi.single j 1) i := by
    funext t
    have hm : ((entries v).modify j (· + t)).length = (entries v).length := by simp
    rw [hr.2 _ (SameForm.trans hv (refill_form v hm)), entries_refill v hm, coords_modify _ hl, ofFn_vec]
  unfold resPartial
  rw [e]
  have h1 : HasDerivAt (fun t : ℝ => (fun k : Fin n => vec (entries v) k) + t • (Pi.single j 1 : Fin n → ℝ)) (Pi.single j 1) 0 := by
    have := ((hasDerivAt_id (0 : ℝ)).smul_const (Pi.single j 1 : Fin n → ℝ)).const_add (fun k : Fin n => vec (entries v) k)
    rw [one_smul] at this
    exact this
  have h2 : HasFDerivAt r (fderiv ℝ r (fun j => vec (entries v) j)) ((fun k : Fin n => vec (entries v) k) + (0 : ℝ) • (Pi.single j 1 : Fin n → ℝ)) := by
    rw [zero_smul, add_zero]
    exact hd.hasFDerivAt
  have h3 := h2.comp_hasDerivAt (0 : ℝ) h1
  exact ((hasDerivAt_pi.1 h3) i).deriv

theorem sum_partial (hr : GivenBy res s args r) {v : View Key} (hv : SameForm s v) (hd : DifferentiableAt ℝ r fun j => vec (entries v) j)
    (i : Fin N) (h : ℕ → ℝ) : ∑ j ∈ Finset.range n, resPartial res args v i j * h j = fderiv ℝ r (fun j => vec (entries v) j) (fun j => h j) i := by
  rw [Finset.sum_range]
  have e : (fun j : Fin n => h j) = ∑ j : Fin n, h j • (Pi.single j 1 : Fin n → ℝ) := by
    funext k
    simp [Finset.sum_apply, Pi.single_apply]
  rw [e, map_sum, Finset.sum_apply]
  refine Finset.sum_congr rfl fun j _ => ?_
  rw [partial_fderiv hr hv hd, map_smul, Pi.smul_apply, smul_eq_mul, mul_comm]

theorem within_nonneg {tol : ℝ} {l : List ℝ} (hl : l ≠ []) (h : Within tol l) : 0 ≤ tol := by
  obtain ⟨a, l, rfl⟩ := List.exists_cons_of_ne_nil hl
  exact (abs_nonneg a).trans (h a (by simp))

/-- The vector with the Euclidean norm. -/
noncomputable def toE (N : ℕ) : (Fin N → ℝ) →L[ℝ] EuclideanSpace ℝ (Fin N) := (EuclideanSpace.equiv (Fin N) ℝ).symm.toContinuousLinearMap

theorem toE_apply (v : Fin N → ℝ) (i : Fin N) : toE N v i = v i := rfl

theorem toE_norm (v : Fin N → ℝ) : ‖toE N v‖ = euclid v := by
  rw [EuclideanSpace.norm_eq]
  unfold euclid
  congr 1
  refine Finset.sum_congr rfl fun i _ => ?_
  rw [toE_apply, Real.norm_eq_abs, sq_abs]

theorem toE_inner (v w : Fin N → ℝ) : ⟪toE N v, toE N w⟫ = ∑ i, v i * w i := by
  rw [PiLp.inner_apply]
  refine Finset.sum_congr rfl fun i _ => ?_
  rw [toE_apply, toE_apply]
  simp [mul_comm]

theorem fderiv_toE {p : Fin n → ℝ} (hd : DifferentiableAt ℝ r p) : fderiv ℝ (fun p => toE N (r p)) p = (toE N).comp (fderiv ℝ r p) :=
  ((toE N).hasFDerivAt.comp p hd.hasFDerivAt).fderiv

theorem fderiv2_toE {p : Fin n → ℝ} (hr : ContDiffAt ℝ 2 r p) (h k : Fin n → ℝ) :
    fderiv ℝ (fderiv ℝ fun p => toE N (r p)) p h k = toE N (fderiv ℝ (fderiv ℝ r) p h k) := by
  have e : (fderiv ℝ fun p => toE N (r p)) =ᶠ[nhds p] fun q => (ContinuousLinearMap.compL ℝ (Fin n → ℝ) (Fin N → ℝ) (EuclideanSpace ℝ (Fin N)) (toE N)) (fderiv ℝ r q) := by
    filter_upwards [hr.eventually (by simp)] with q hq
    rw [fderiv_toE (hq.differentiableAt (by norm_num))]
    rfl
  rw [e.fderiv_eq]
  have hd : DifferentiableAt ℝ (fderiv ℝ r) p := (hr.fderiv_right (m := 1) (by norm_num)).differentiableAt (by norm_num)
  have := (ContinuousLinearMap.compL ℝ (Fin n → ℝ) (Fin N → ℝ) (EuclideanSpace ℝ (Fin N)) (toE N)).hasFDerivAt.comp p hd.hasFDerivAt
  have e2 := this.fderiv
  rw [Function.comp_def] at e2
  rw [e2]
  rfl

/-- The step of `GaussNewtonStep` leaves a rest that is orthogonal to the range of the Jacobian. -/
theorem step_orthogonal (hr : GivenBy res s args r) {v v' : View Key} (hv : SameForm s v) {dx : List ℝ} (hstep : GaussNewtonStep res args v dx v')
    (hd : DifferentiableAt ℝ r fun j => vec (entries v) j) :
    SameForm s v' ∧ (∀ j < n, vec (entries v') j = vec (entries v) j - vec dx j) ∧
      ∀ k, ⟪toE N (fderiv ℝ r (fun j => vec (entries v) j) fun j => vec dx j) - toE N (r fun j => vec (entries v) j),
        toE N (fderiv ℝ r (fun j => vec (entries v) j) k)⟫ = 0 := by
  have hl := hstep.solves.length
  have hn : (entries v).length = n := by rw [← SameForm.length hv]; exact hr.1
  have hzl : (List.zipWith (· - ·) (entries v) dx).length = (entries v).length := by rw [List.length_zipWith]; omega
  have hf : SameForm v v' := by rw [hstep.next]; exact refill_form v hzl
  have he : entries v' = List.zipWith (· - ·) (entries v) dx := by rw [hstep.next]; exact entries_refill v hzl
  refine ⟨SameForm.trans hv hf, fun j hj => ?_, fun k => ?_⟩
  · rw [he]
    unfold vec
    rw [List.getD_eq_getElem?_getD, List.getD_eq_getElem?_getD, List.getD_eq_getElem?_getD, List.getElem?_zipWith,
      List.getElem?_eq_getElem (by omega : j < (entries v).length), List.getElem?_eq_getElem (by omega : j < dx.length)]
    simp
  · have hres := hr.2 v hv
    have hlen : (res (v :: args)).length = N := by rw [hres]; simp
    have hc : ∀ i : Fin N, vec (res (v :: args)) i = r (fun j => vec (entries v) j) i := fun i => by
      rw [hres]
      exact ofFn_vec _ i
    have miss : ∀ y : ℕ → ℝ, missSq N n (resPartial res args v) y (vec (res (v :: args)))
        = ‖toE N (fderiv ℝ r (fun j => vec (entries v) j) fun j => y j) - toE N (r fun j => vec (entries v) j)‖ ^ 2 := by
      intro y
      rw [← map_sub, toE_norm, euclid, Real.sq_sqrt (Finset.sum_nonneg fun _ _ => sq_nonneg _)]
      unfold missSq
      rw [Finset.sum_range]
      refine Finset.sum_congr rfl fun i _ => ?_
      rw [sum_partial hr hv hd i y, hc, Pi.sub_apply]
    have hmin := hstep.solves.min
    rw [hlen, hn] at hmin
    refine min_orthogonal ((toE N).comp (fderiv ℝ r fun j => vec (entries v) j)).toLinearMap _ _ (fun y => ?_) k
    have hy := hmin fun j => if hj : j < n then y ⟨j, hj⟩ else 0
    rw [miss, miss] at hy
    have ey : (fun j : Fin n => if hj : (j : ℕ) < n then y ⟨j, hj⟩ else 0) = y := by
      funext j
      simp
    rw [ey] at hy
    exact hy

/-- The constants near a minimum. -/
theorem basin_linear (hr : GivenBy res s args r) (hs : ContDiffAt ℝ 2 r fun j => vec (entries s) j) (h0 : Stationary res s args)
    (hfull : FullRank res s args) {θ q : ℝ} (hθ0 : 0 ≤ θ) (hq : θ < q) (hq1 : q ≤ 1) (hcurv : SmallCurvature r (fun j => vec (entries s) j) θ) :
    ∃ ρ > 0, ∃ β > 0, ∃ A : (Fin n → ℝ) →L[ℝ] EuclideanSpace ℝ (Fin N), (∀ h, β * ‖h‖ ≤ ‖A h‖) ∧
      ∀ v, SameForm s v → ‖fun j : Fin n => vec (entries v) j - vec (entries s) j‖ ≤ ρ →
      (∀ dx v', GaussNewtonStep res args v dx v' → SameForm s v' ∧ (∀ j < n, vec (entries v') j = vec (entries v) j - vec dx j) ∧
        ‖A fun j : Fin n => vec (entries v') j - vec (entries s) j‖ ≤ q * ‖A fun j : Fin n => vec (entries v) j - vec (entries s) j‖) ∧
      ‖A fun j : Fin n => vec (entries v) j - vec (entries s) j‖ ≤ 2 * euclid (r fun j => vec (entries v) j) := by
  have hsz := hr.2 s (SameForm.refl s)
  have hlen : (res (s :: args)).length = N := by rw [hsz]; simp
  have hds := hs.differentiableAt (by norm_num)
  have hc : ∀ i : Fin N, vec (res (s :: args)) i = r (fun j => vec (entries s) j) i := fun i => by
    rw [hsz]
    exact ofFn_vec _ i
  have ext : ∀ h : Fin n → ℝ, ∃ h' : ℕ → ℝ, h = fun j : Fin n => h' j := fun h =>
    ⟨fun j => if hj : j < n then h ⟨j, hj⟩ else 0, by funext j; simp⟩
  have hE : ContDiffAt ℝ 2 (fun p => toE N (r p)) fun j : Fin n => vec (entries s) j := (toE N).contDiff.contDiffAt.comp _ hs
  obtain ⟨ρ, hρ, β, hβ, hlow, H⟩ := near_min (fun p => toE N (r p)) (fun j => vec (entries s) j) hE (fun h hh => by
      obtain ⟨h', e⟩ := ext h
      rw [fderiv_toE hds] at hh
      have key := hfull h' fun i hi => by
        rw [hlen] at hi
        rw [hr.1, sum_partial hr (SameForm.refl s) hds ⟨i, hi⟩ h', ← e]
        exact congrFun (congrArg WithLp.ofLp hh) ⟨i, hi⟩
      funext j
      rw [e]
      exact key j (by rw [hr.1]; exact j.2))
    (fun h => by
      obtain ⟨h', e⟩ := ext h
      rw [fderiv_toE hds, ContinuousLinearMap.comp_apply, toE_inner, e]
      have : ∀ i : Fin N, r (fun j => vec (entries s) j) i * fderiv ℝ r (fun j => vec (entries s) j) (fun j : Fin n => h' j) i
          = ∑ j ∈ Finset.range n, vec (res (s :: args)) i * resPartial res args s i j * h' j := fun i => by
        rw [← sum_partial hr (SameForm.refl s) hds i h', Finset.mul_sum, hc]
        exact Finset.sum_congr rfl fun j _ => (mul_assoc _ _ _).symm
      rw [Finset.sum_congr rfl fun i _ => this i, Finset.sum_comm]
      refine Finset.sum_eq_zero fun j hj => ?_
      rw [← Finset.sum_mul]
      have hj' := h0 j (by rw [hr.1]; exact Finset.mem_range.1 hj)
      rw [hlen, Finset.sum_range] at hj'
      rw [hj', zero_mul])
    hθ0 hq hq1 (fun h k => by
      rw [fderiv2_toE hs, toE_inner, fderiv_toE hds, ContinuousLinearMap.comp_apply, ContinuousLinearMap.comp_apply, toE_norm, toE_norm]
      exact hcurv h k)
  refine ⟨ρ, hρ, β, hβ, _, hlow, fun v hv hd => ?_⟩
  obtain ⟨q1, q2, q3⟩ := H (fun j => vec (entries v) j) hd
  have hdr : DifferentiableAt ℝ r fun j => vec (entries v) j := by
    have := ((EuclideanSpace.equiv (Fin N) ℝ).toContinuousLinearMap.differentiableAt).comp (fun j : Fin n => vec (entries v) j) q1
    exact this
  refine ⟨fun dx v' hstep => ?_, ?_⟩
  · obtain ⟨a, b, c⟩ := step_orthogonal hr hv hstep hdr
    refine ⟨a, b, ?_⟩
    have := q2 (fun j => vec dx j) fun k => by
      rw [fderiv_toE hdr]
      exact c k
    have e : (fun j : Fin n => vec (entries v') j - vec (entries s) j)
        = (fun j : Fin n => vec (entries v) j) - (fun j : Fin n => vec dx j) - fun j : Fin n => vec (entries s) j := by
      funext j
      simp only [Pi.sub_apply]
      rw [b j j.2]
    rw [e]
    exact this
  · rw [← toE_norm]
    exact q3

theorem euclid_le {b : ℝ} (hb : 0 ≤ b) {v : Fin N → ℝ} (h : ∀ i, |v i| ≤ b) : euclid v ≤ Real.sqrt N * b := by
  unfold euclid
  refine Real.sqrt_le_iff.2 ⟨by positivity, ?_⟩
  rw [mul_pow, Real.sq_sqrt (by positivity)]
  have : ∀ i ∈ (Finset.univ : Finset (Fin N)), v i ^ 2 ≤ b ^ 2 := fun i _ => by
    rw [← sq_abs]
    exact pow_le_pow_left₀ (abs_nonneg _) (h i) 2
  refine (Finset.sum_le_sum this).trans (le_of_eq ?_)
  simp

/-- A run of the loop that starts near the minimum. -/
theorem run_near_min (hr : GivenBy res s args r) (hs : ContDiffAt ℝ 2 r fun j => vec (entries s) j) (h0 : Stationary res s args)
    (hfull : FullRank res s args) {θ q : ℝ} (hθ0 : 0 ≤ θ) (hq : θ < q) (hq1 : q < 1) (hcurv : SmallCurvature r (fun j => vec (entries s) j) θ)
    (hne : ∀ v, SameForm s v → res (v :: args) ≠ []) (hne' : entries s ≠ []) :
    ∃ ρ > 0, ∃ K ≥ 0, ∀ z, SameForm s z → ∀ δ ≤ ρ, EntriesWithin δ z s → ∀ (tol : ℝ) (maxIter : ℕ) (x : View Key) (k : ℕ),
      StopsWithReason res args tol maxIter z x k →
      SameForm s x ∧ EntriesWithin (K * q ^ k * δ) x s ∧ (EntriesWithin (K * tol) x s ∨ k = maxIter) := by
  obtain ⟨ρ, hρ, β, hβ, A, hlow, H⟩ := basin_linear hr hs h0 hfull hθ0 hq hq1.le hcurv
  have hq0 : 0 < q := by linarith
  obtain ⟨a, ha⟩ : ∃ a, a = ‖A‖ + β := ⟨_, rfl⟩
  have ha0 : 0 < a := by rw [ha]; positivity
  have hup : ∀ h, ‖A h‖ ≤ a * ‖h‖ := fun h => by
    refine (A.le_opNorm h).trans (mul_le_mul_of_nonneg_right ?_ (norm_nonneg _))
    rw [ha]
    linarith
  obtain ⟨K, hK⟩ : ∃ K, K = a / β + 2 * Real.sqrt N / β + a / (β * (1 - q)) := ⟨_, rfl⟩
  have h1q : 0 < 1 - q := by linarith
  have k1 : 0 ≤ a / β := by positivity
  have k2 : 0 ≤ 2 * Real.sqrt N / β := by positivity
  have k3 : 0 ≤ a / (β * (1 - q)) := by positivity
  refine ⟨ρ * β / a, by positivity, K, by linarith, fun z hz δ hδ hzs tol maxIter x k ⟨_, xs, dxs, hx0, hxk, hst, hstop⟩ => ?_⟩
  have toW : ∀ {b : ℝ} {v : View Key}, ‖fun j : Fin n => vec (entries v) j - vec (entries s) j‖ ≤ b → EntriesWithin b v s := by
    intro b v h j hj
    rw [hr.1] at hj
    exact (norm_le_pi_norm (fun j : Fin n => vec (entries v) j - vec (entries s) j) ⟨j, hj⟩).trans h
  have hδ0 : 0 ≤ δ := by
    have := hzs 0 (List.length_pos_iff.2 hne')
    exact (abs_nonneg _).trans this
  obtain ⟨e, he⟩ : ∃ e : ℕ → ℝ, ∀ i, e i = ‖A fun j : Fin n => vec (entries (xs i)) j - vec (entries s) j‖ := ⟨_, fun _ => rfl⟩
  have he0 : ∀ i, 0 ≤ e i := fun i => by rw [he]; exact norm_nonneg _
  have nrm : ∀ i, β * ‖fun j : Fin n => vec (entries (xs i)) j - vec (entries s) j‖ ≤ e i := fun i => by rw [he]; exact hlow _
  have start : e 0 ≤ a * δ := by
    rw [he, hx0]
    exact (hup _).trans (mul_le_mul_of_nonneg_left ((pi_norm_le_iff_of_nonneg hδ0).2 fun j => hzs j (by rw [hr.1]; exact j.2)) ha0.le)
  have hmax : a * δ ≤ β * ρ := by
    have := mul_le_mul_of_nonneg_left hδ ha0.le
    rwa [mul_div_cancel₀ _ ha0.ne', mul_comm ρ β] at this
  have both : ∀ i ≤ k, SameForm s (xs i) ∧ e i ≤ q ^ i * (a * δ) ∧ ‖fun j : Fin n => vec (entries (xs i)) j - vec (entries s) j‖ ≤ ρ := by
    have small : ∀ i, e i ≤ q ^ i * (a * δ) → ‖fun j : Fin n => vec (entries (xs i)) j - vec (entries s) j‖ ≤ ρ := by
      intro i hi
      have hp : q ^ i ≤ 1 := pow_le_one₀ hq0.le hq1.le
      have hp0 : 0 ≤ a * δ := by positivity
      refine le_of_mul_le_mul_left ((nrm i).trans (hi.trans (le_trans ?_ hmax))) hβ
      nlinarith
    intro i
    induction i with
    | zero =>
      have h0 : e 0 ≤ q ^ 0 * (a * δ) := by rw [pow_zero, one_mul]; exact start
      exact fun _ => ⟨by rw [hx0]; exact hz, h0, small 0 h0⟩
    | succ i ih =>
      intro hi
      obtain ⟨c1, c2, c3⟩ := ih (by omega)
      obtain ⟨d1, -, d2⟩ := (H (xs i) c1 c3).1 _ _ (hst i (by omega))
      rw [← he, ← he] at d2
      have d3 : e (i + 1) ≤ q ^ (i + 1) * (a * δ) := by
        rw [pow_succ, mul_comm (q ^ i), mul_assoc]
        exact d2.trans (mul_le_mul_of_nonneg_left c2 hq0.le)
      exact ⟨d1, d3, small _ d3⟩
  obtain ⟨f1, f2, f3⟩ := both k le_rfl
  refine ⟨by rw [← hxk]; exact f1, ?_, ?_⟩
  · refine toW ?_
    rw [← hxk]
    have := (nrm k).trans f2
    have h1 : ‖fun j : Fin n => vec (entries (xs k)) j - vec (entries s) j‖ ≤ a / β * q ^ k * δ := by
      refine le_of_mul_le_mul_left (this.trans (le_of_eq ?_)) hβ
      field_simp
    refine h1.trans ?_
    have hp : 0 ≤ q ^ k * δ := by positivity
    rw [mul_assoc, mul_assoc]
    refine mul_le_mul_of_nonneg_right ?_ hp
    linarith
  rcases hstop with h | ⟨i, hi, h⟩ | h
  · left
    have ht := within_nonneg (hne x (by rw [← hxk]; exact f1)) h
    refine toW ?_
    rw [← hxk]
    have g1 := (H (xs k) f1 f3).2
    have g2 : euclid (r fun j => vec (entries (xs k)) j) ≤ Real.sqrt N * tol := euclid_le ht fun i => h _ (by
      rw [← hxk, hr.2 _ f1, List.mem_ofFn]
      exact ⟨i, rfl⟩)
    rw [← he] at g1
    have h1 : ‖fun j : Fin n => vec (entries (xs k)) j - vec (entries s) j‖ ≤ 2 * Real.sqrt N / β * tol := by
      have h2 : β * ‖fun j : Fin n => vec (entries (xs k)) j - vec (entries s) j‖ ≤ 2 * (Real.sqrt N * tol) := by
        have := nrm k
        linarith
      refine le_of_mul_le_mul_left (h2.trans (le_of_eq ?_)) hβ
      field_simp
    refine h1.trans (mul_le_mul_of_nonneg_right ?_ ht)
    linarith
  · left
    subst hi
    obtain ⟨b1, b2, b3⟩ := both i (by omega)
    have hlen := (hst i (by omega)).solves.length
    have hni : (entries (xs i)).length = n := by rw [← SameForm.length b1]; exact hr.1
    have hd : dxs i ≠ [] := by
      intro e0
      rw [e0] at hlen
      have : n = 0 := by rw [← hni]; simpa using hlen.symm
      rw [← hr.1] at this
      exact hne' (List.eq_nil_of_length_eq_zero this)
    have ht := within_nonneg hd h
    obtain ⟨-, c1, c2⟩ := (H (xs i) b1 b3).1 _ _ (hst i (by omega))
    have hdx : ‖fun j : Fin n => vec (dxs i) j‖ ≤ tol := (pi_norm_le_iff_of_nonneg ht).2 fun j => h _ (by
      unfold vec
      rw [List.getD_eq_getElem?_getD, List.getElem?_eq_getElem (by rw [hlen, hni]; exact j.2)]
      exact List.getElem_mem _)
    have hsum : e i ≤ e (i + 1) + a * tol := by
      rw [he, he]
      have : (fun j : Fin n => vec (entries (xs i)) j - vec (entries s) j)
          = (fun j : Fin n => vec (entries (xs (i + 1))) j - vec (entries s) j) + fun j : Fin n => vec (dxs i) j := by
        funext j
        simp only [Pi.add_apply]
        rw [c1 j j.2]
        ring
      rw [this, map_add]
      exact (norm_add_le _ _).trans (add_le_add le_rfl ((hup _).trans (mul_le_mul_of_nonneg_left hdx ha0.le)))
    rw [← he, ← he] at c2
    have h3 : (1 - q) * e (i + 1) ≤ a * tol := by
      have h4 : (1 - q) * e i ≤ a * tol := by linarith
      have h5 : e (i + 1) ≤ e i := by
        have := he0 i
        nlinarith
      exact (mul_le_mul_of_nonneg_left h5 h1q.le).trans h4
    refine toW ?_
    rw [← hxk]
    have h1 : ‖fun j : Fin n => vec (entries (xs (i + 1))) j - vec (entries s) j‖ ≤ a / (β * (1 - q)) * tol := by
      refine le_of_mul_le_mul_left ?_ (mul_pos h1q hβ)
      have := mul_le_mul_of_nonneg_left (nrm (i + 1)) h1q.le
      rw [mul_assoc]
      refine this.trans (h3.trans (le_of_eq ?_))
      field_simp
    refine h1.trans (mul_le_mul_of_nonneg_right ?_ ht)
    linarith
  · exact Or.inr h

/-- **C97**, when the residual does not vanish. Let the residual be twice continuously differentiable near a stationary point `s` of the sum of squares, let
the columns of the Jacobian there be linearly independent and let the part of the Hessian that the method leaves out be at most `θ < 1` times the part that
it keeps. Then for every `q` between `θ` and 1 there are a radius and a constant such that from every start within that radius `NLLS` returns a
point within `K tol` of `s`, unless it stops because of `maxIter`; and after `k` iterations the error is at most `K q^k` times the error of the start. -/
theorem C97_small_residual (hr : GivenBy res s args r) (hs : ContDiffAt ℝ 2 r fun j => vec (entries s) j) (h0 : Stationary res s args)
    (hfull : FullRank res s args) {θ q : ℝ} (hθ0 : 0 ≤ θ) (hq : θ < q) (hq1 : q < 1) (hcurv : SmallCurvature r (fun j => vec (entries s) j) θ)
    (hne : ∀ v, SameForm s v → res (v :: args) ≠ []) (hne' : entries s ≠ []) :
    ∃ ρ > 0, ∃ K ≥ 0, ∀ (lib : LinAlg) (method : Method) (J : Option (List (View Key) → Mat ℝ)) (z : View Key) (L : List ℕ),
      GoodProblem lib method J res z args L → SameForm s z → ∀ δ ≤ ρ, EntriesWithin δ z s →
      ∀ (cond : Option (NState Key → Except Err Bool)) (tol : ℝ), tol < 1 → ∀ (maxIter : ℕ) (timer : Bool) (fuel : ℕ), maxIter + 2 ≤ fuel →
        ∃ (x : View Key) (k : ℕ), (NLLS lib method J cond none tol maxIter timer res z args L fuel).1 = .ok (some (x, (k : ℤ))) ∧
          SameForm s x ∧ EntriesWithin (K * q ^ k * δ) x s ∧ (EntriesWithin (K * tol) x s ∨ k = maxIter) := by
  obtain ⟨ρ, hρ, K, hK, H⟩ := run_near_min hr hs h0 hfull hθ0 hq hq1 hcurv hne hne'
  refine ⟨ρ, hρ, K, hK, fun lib method J z L G hz δ hδ hzs cond tol ht maxIter timer fuel hf => ?_⟩
  obtain ⟨x, k, h1, h2⟩ := C37_nlls_partial G cond tol ht maxIter timer fuel hf
  exact ⟨x, k, h1, H z hz δ hδ hzs tol maxIter x k h2⟩

/-- The same for `NllsClass`: every call of `run` from a start near the minimum. -/
theorem C97_small_residual_class (hr : GivenBy res s args r) (hs : ContDiffAt ℝ 2 r fun j => vec (entries s) j) (h0 : Stationary res s args)
    (hfull : FullRank res s args) {θ q : ℝ} (hθ0 : 0 ≤ θ) (hq : θ < q) (hq1 : q < 1) (hcurv : SmallCurvature r (fun j => vec (entries s) j) θ)
    (hne : ∀ v, SameForm s v → res (v :: args) ≠ []) (hne' : entries s ≠ []) :
    ∃ ρ > 0, ∃ K ≥ 0, ∀ (lib : LinAlg) (method : Method) (J : Option (List (View Key) → Mat ℝ)) (z : View Key) (L : List ℕ),
      GoodProblem lib method J res z args L → SameForm s z →
      ∀ (cond : Option (NState Key → Except Err Bool)) (tol : ℝ), tol < 1 → ∀ (maxIter : ℕ) (timer : Bool) (fuel : ℕ), maxIter + 2 ≤ fuel →
        ∃ o args', (NllsObj.init lib method J cond none tol maxIter timer res z args L).1 = .ok o ∧ remaining L (z :: args) = z :: args' ∧
          ∀ (c : Bool) (v : View Key), SameForm s v → ∀ δ ≤ ρ, EntriesWithin δ v s → ∃ (x : View Key) (k : ℕ),
            (NllsObj.run { o with compiled := c } v args' fuel).1 = .ok (some (x, (k : ℤ))) ∧
            SameForm s x ∧ EntriesWithin (K * q ^ k * δ) x s ∧ (EntriesWithin (K * tol) x s ∨ k = maxIter) := by
  obtain ⟨ρ, hρ, K, hK, H⟩ := run_near_min hr hs h0 hfull hθ0 hq hq1 hcurv hne hne'
  refine ⟨ρ, hρ, K, hK, fun lib method J z L G hz cond tol ht maxIter timer fuel hf => ?_⟩
  obtain ⟨o, args', h1, h2, h3⟩ := C37_nllsClass_partial G cond tol ht maxIter timer fuel hf
  refine ⟨o, args', h1, h2, fun c v hv δ hδ hvs => ?_⟩
  obtain ⟨x, k, h4, h5⟩ := h3 c v (SameForm.trans (SameForm.symm hz) hv)
  exact ⟨x, k, by rw [h4], H v hv δ hδ hvs tol maxIter x k h5⟩

end

/-! ### A problem with one unknown and two residuals -/

theorem squareRes_form {x : ℝ} {v : View Key} (hv : SameForm (.arr [x]) v) : ∃ y, v = .arr [y] := by
  cases v with
  | dict c kvs => exact hv.elim
  | arr l =>
    have hl : l.length = 1 := by
      have : [x].length = l.length := hv
      simpa using this.symm
    obtain ⟨y, rfl⟩ := List.length_eq_one_iff.1 hl
    exact ⟨y, rfl⟩


/-- The residual `(x + 1, l x² + x - 1)`. For `l = -2` the sum of squares is `4 x⁴ - 4 x³ + 6 x² + 2`, which has its only minimum at 0. -/
def twoRes (l : ℝ) : Residual Key
  | [.arr [x]] => [x + 1, l * x ^ 2 + x - 1]
  | _ => [0]

theorem twoRes_ok (l : ℝ) {lib : LinAlg} (hlib : LinAlgCorrect lib) {method : Method} (hm : method ≠ .other) (x : ℝ) :
    GoodProblem lib method none (twoRes l : Residual Key) (.arr [x]) [] [] := by
  refine ⟨hlib, hm, Or.inl rfl, ⟨by simp, by simp⟩, trivial, by simp [entries], fun v hv => ?_⟩
  obtain ⟨y, rfl⟩ := squareRes_form hv
  simp [twoRes]

theorem twoRes_partial0 (l x : ℝ) : resPartial (twoRes l : Residual Key) [] (.arr [x]) 0 0 = 1 := by
  have h : HasDerivAt (fun t : ℝ => (x + t) + 1) 1 0 := ((hasDerivAt_id (0 : ℝ)).const_add x).add_const 1
  exact h.deriv

theorem twoRes_partial1 (l x : ℝ) : resPartial (twoRes l : Residual Key) [] (.arr [x]) 1 0 = 2 * l * x + 1 := by
  have h1 := (hasDerivAt_id (0 : ℝ)).const_add x
  have h : HasDerivAt (fun t : ℝ => l * (x + t) ^ 2 + (x + t) - 1) (2 * l * x + 1) 0 := by
    have := (((h1.pow 2).const_mul l).add h1).sub_const 1
    refine HasDerivAt.congr_deriv this ?_
    simp
    ring
  exact h.deriv

/-- The residual as a function. -/
def twoFun (l : ℝ) (p : Fin 1 → ℝ) : Fin 2 → ℝ := ![p 0 + 1, l * p 0 ^ 2 + p 0 - 1]

theorem twoRes_given (l : ℝ) : GivenBy (n := 1) (N := 2) (twoRes l : Residual Key) (.arr [0]) [] (twoFun l) := by
  refine ⟨rfl, fun v hv => ?_⟩
  obtain ⟨y, rfl⟩ := squareRes_form hv
  simp [twoRes, twoFun, vec, entries]

/-- The unknown. -/
def pr : (Fin 1 → ℝ) →L[ℝ] ℝ := ContinuousLinearMap.proj 0

def lin1 : (Fin 1 → ℝ) →L[ℝ] Fin 2 → ℝ := ContinuousLinearMap.pi ![pr, pr]

def lin2 (l : ℝ) : (Fin 1 → ℝ) →L[ℝ] Fin 2 → ℝ := ContinuousLinearMap.pi ![0, (2 * l) • pr]

theorem twoFun_deriv (l : ℝ) (p : Fin 1 → ℝ) : HasFDerivAt (twoFun l) (lin1 + pr p • lin2 l) p := by
  rw [hasFDerivAt_pi']
  have h0 : HasFDerivAt (fun p : Fin 1 → ℝ => p 0) pr p := pr.hasFDerivAt
  intro i
  fin_cases i
  · refine (h0.add_const 1).congr_fderiv ?_
    ext h
    simp [lin1, lin2]
  · have := (((h0.pow 2).const_mul l).add h0).sub_const 1
    refine this.congr_fderiv ?_
    ext h
    simp [lin1, lin2, pr]
    ring

theorem twoFun_deriv2 (l : ℝ) (p h k : Fin 1 → ℝ) : fderiv ℝ (fderiv ℝ (twoFun l)) p h k = pr h • lin2 l k := by
  have e : fderiv ℝ (twoFun l) = fun p => lin1 + pr p • lin2 l := funext fun p => (twoFun_deriv l p).fderiv
  rw [e]
  have := (pr.hasFDerivAt (x := p)).smul_const (lin2 l)
  rw [(this.const_add lin1).fderiv]
  rfl

theorem twoFun_contDiff (l : ℝ) : ContDiff ℝ 2 (twoFun l) := by
  rw [contDiff_pi]
  intro i
  fin_cases i
  · change ContDiff ℝ 2 fun p : Fin 1 → ℝ => p 0 + 1
    fun_prop
  · change ContDiff ℝ 2 fun p : Fin 1 → ℝ => l * p 0 ^ 2 + p 0 - 1
    fun_prop

theorem two_curvature (l : ℝ) : SmallCurvature (twoFun l) (fun j => vec (entries (.arr [0] : View Key)) j) |l| := by
  intro h k
  obtain ⟨p, hp⟩ : ∃ p : Fin 1 → ℝ, p = fun j : Fin 1 => vec (entries (.arr [0] : View Key)) j := ⟨_, rfl⟩
  have hp0 : p 0 = 0 := by rw [hp]; rfl
  have hpr : pr p = 0 := hp0
  rw [← hp, twoFun_deriv2, (twoFun_deriv l p).fderiv, hpr, zero_smul, add_zero]
  have e : ∀ h, euclid (lin1 h) = Real.sqrt 2 * |h 0| := fun h => by
    unfold euclid
    rw [Fin.sum_univ_two]
    have : lin1 h 0 ^ 2 + lin1 h 1 ^ 2 = 2 * h 0 ^ 2 := by
      simp [lin1, pr]
      ring
    rw [this, Real.sqrt_mul (by norm_num), Real.sqrt_sq_eq_abs]
  rw [e, e, Fin.sum_univ_two]
  have h2 : Real.sqrt 2 * Real.sqrt 2 = 2 := Real.mul_self_sqrt (by norm_num)
  have e2 : twoFun l p 0 * (pr h • lin2 l k) 0 + twoFun l p 1 * (pr h • lin2 l k) 1 = -(2 * l * h 0 * k 0) := by
    simp [twoFun, lin2, pr, hp0]
    ring
  rw [e2, abs_neg, abs_mul, abs_mul, abs_mul, abs_of_pos (by norm_num : (0 : ℝ) < 2)]
  have : |l| * (Real.sqrt 2 * |h 0|) * (Real.sqrt 2 * |k 0|) = Real.sqrt 2 * Real.sqrt 2 * (|l| * |h 0| * |k 0|) := by ring
  rw [this, h2]
  linarith

theorem lt_one {j : ℕ} (h : j < 1) : j = 0 := by omega

/-- The hypotheses are met: the residual `(x + 1, l x² + x - 1)` at 0, where it is `(1, -1)`, for `|l| < 1`. -/
theorem C97_two_residuals (l q : ℝ) (hl : |l| < q) (hq : q < 1) : ∃ ρ > 0, ∃ K ≥ 0, ∀ (lib : LinAlg), LinAlgCorrect lib → ∀ x0 : ℝ, |x0| ≤ ρ →
    ∀ tol < 1, ∀ maxIter : ℕ, ∃ (x : ℝ) (k : ℕ),
      (NLLS lib .pinv none none none tol maxIter false (twoRes l : Residual Key) (.arr [x0]) [] [] (maxIter + 2)).1 = .ok (some (.arr [x], (k : ℤ))) ∧
      |x| ≤ K * q ^ k * |x0| ∧ (|x| ≤ K * tol ∨ k = maxIter) := by
  obtain ⟨ρ, hρ, K, hK, H⟩ := C97_small_residual (Key := Key) (twoRes_given l) (twoFun_contDiff l).contDiffAt (fun j hj => by
      rw [lt_one hj]
      have e : (twoRes l [(.arr [0] : View Key)]).length = 2 := rfl
      rw [e, Finset.sum_range_succ, Finset.sum_range_one, twoRes_partial0, twoRes_partial1]
      simp [twoRes, vec])
    (fun h hh j hj => by
      rw [lt_one hj]
      have := hh 0 (by simp [twoRes])
      have e : (entries (.arr [0] : View Key)).length = 1 := rfl
      rw [e, Finset.sum_range_one, twoRes_partial0, one_mul] at this
      exact this) (abs_nonneg l) hl hq (two_curvature l) (fun v hv => by
      obtain ⟨y, rfl⟩ := squareRes_form hv
      simp [twoRes]) (by simp [entries])
  refine ⟨ρ, hρ, K, hK, fun lib hlib x0 hx0 tol ht maxIter => ?_⟩
  obtain ⟨x, k, a, b, c, d⟩ := H lib .pinv none (.arr [x0]) [] (twoRes_ok l hlib (by simp) x0) rfl |x0| hx0 (fun j hj => by
    rw [lt_one hj]
    simp [vec, entries]) none tol ht maxIter false (maxIter + 2) le_rfl
  obtain ⟨y, rfl⟩ := squareRes_form b
  refine ⟨y, k, a, ?_, ?_⟩
  · simpa [vec, entries] using c 0 one_pos
  · rcases d with d | d
    · exact Or.inl (by simpa [vec, entries] using d 0 one_pos)
    · exact Or.inr d

/-- A step for one unknown and two residuals. -/
theorem two_step (l x : ℝ) {v' : View Key} {dx : List ℝ} (h : GaussNewtonStep (twoRes l) [] (.arr [x]) dx v') :
    ∃ d, dx = [d] ∧ v' = .arr [x - d] ∧ (1 + (2 * l * x + 1) ^ 2) * d = (x + 1) + (2 * l * x + 1) * (l * x ^ 2 + x - 1) := by
  have hl : dx.length = 1 := h.solves.length
  obtain ⟨d, rfl⟩ := List.length_eq_one_iff.1 hl
  refine ⟨d, rfl, by rw [h.next]; rfl, ?_⟩
  have hmin := h.solves.min
  have e : (twoRes l [(.arr [x] : View Key)]).length = 2 := rfl
  have e1 : (entries (.arr [x] : View Key)).length = 1 := rfl
  rw [e, e1] at hmin
  have miss : ∀ y : ℕ → ℝ, missSq 2 1 (resPartial (twoRes l : Residual Key) [] (.arr [x])) y (vec (twoRes l [(.arr [x] : View Key)]))
      = (y 0 - (x + 1)) ^ 2 + ((2 * l * x + 1) * y 0 - (l * x ^ 2 + x - 1)) ^ 2 := by
    intro y
    unfold missSq
    rw [Finset.sum_range_succ, Finset.sum_range_one, Finset.sum_range_one, Finset.sum_range_one, twoRes_partial0, twoRes_partial1]
    simp [twoRes, vec]
  obtain ⟨m, hm⟩ : ∃ m, m = 2 * l * x + 1 := ⟨_, rfl⟩
  obtain ⟨c, hc⟩ : ∃ c, c = l * x ^ 2 + x - 1 := ⟨_, rfl⟩
  rw [← hm, ← hc] at miss ⊢
  have hd := hmin fun _ => ((x + 1) + m * c) / (1 + m ^ 2)
  rw [miss, miss] at hd
  have hpos : 0 < 1 + m ^ 2 := by positivity
  have hv : vec [d] 0 = d := rfl
  rw [hv] at hd
  have key : (d - (x + 1)) ^ 2 + (m * d - c) ^ 2 - ((((x + 1) + m * c) / (1 + m ^ 2) - (x + 1)) ^ 2 + (m * (((x + 1) + m * c) / (1 + m ^ 2)) - c) ^ 2)
      = ((1 + m ^ 2) * d - ((x + 1) + m * c)) ^ 2 / (1 + m ^ 2) := by
    field_simp
    ring
  have h0 : ((1 + m ^ 2) * d - ((x + 1) + m * c)) ^ 2 / (1 + m ^ 2) ≤ 0 := by
    rw [← key]
    linarith
  have h1 : ((1 + m ^ 2) * d - ((x + 1) + m * c)) ^ 2 ≤ 0 := by
    rw [div_le_iff₀ hpos, zero_mul] at h0
    exact h0
  have h2 := pow_eq_zero_iff (two_ne_zero) |>.1 (le_antisymm h1 (sq_nonneg _))
  linarith

/-- For `l = -2` a step from near the minimum increases the error by half at least, and is longer than twice the error. -/
theorem two_grows {x d : ℝ} (hx : |x| ≤ 1 / 100) (hd : (1 + (2 * (-2) * x + 1) ^ 2) * d = (x + 1) + (2 * (-2) * x + 1) * (-2 * x ^ 2 + x - 1)) :
    3 / 2 * |x| ≤ |x - d| ∧ 2 * |x| ≤ |d| := by
  obtain ⟨h1, h2⟩ := abs_le.1 hx
  have hp : 0 < 2 - 8 * x + 16 * x ^ 2 := by nlinarith
  have e1 : (2 - 8 * x + 16 * x ^ 2) * d = x * (6 - 6 * x + 8 * x ^ 2) := by linear_combination hd
  have e2 : (2 - 8 * x + 16 * x ^ 2) * (x - d) = x * (-4 - 2 * x + 8 * x ^ 2) := by linear_combination -hd
  have a1 := congrArg abs e1
  have a2 := congrArg abs e2
  rw [abs_mul, abs_mul, abs_of_pos hp, abs_of_pos (by nlinarith : 0 < 6 - 6 * x + 8 * x ^ 2)] at a1
  rw [abs_mul, abs_mul, abs_of_pos hp, abs_of_neg (by nlinarith : -4 - 2 * x + 8 * x ^ 2 < 0)] at a2
  have hx0 := abs_nonneg x
  constructor
  · refine le_of_mul_le_mul_left ?_ hp
    rw [a2]
    have : 0 ≤ -(-4 - 2 * x + 8 * x ^ 2) - 3 / 2 * (2 - 8 * x + 16 * x ^ 2) := by nlinarith
    nlinarith
  · refine le_of_mul_le_mul_left ?_ hp
    rw [a1]
    have : 0 ≤ (6 - 6 * x + 8 * x ^ 2) - 2 * (2 - 8 * x + 16 * x ^ 2) := by nlinarith
    nlinarith

/-- When the residual at the minimum is large the claim is false. The sum of squares of `(x + 1, -2 x² + x - 1)` has its only minimum at 0, the Jacobian
there is of full rank, and the point is stationary; but from every start other than 0, however near, with every tolerance that is not larger than
the error of the start, and some limit on the number of iterations, `NLLS` returns a point that is more than 1/100 away. -/
theorem C97_large_residual_fails : (∀ x : ℝ, x ≠ 0 → (0 + 1) ^ 2 + (-2 * 0 ^ 2 + 0 - 1 : ℝ) ^ 2 < (x + 1) ^ 2 + (-2 * x ^ 2 + x - 1) ^ 2) ∧
    ∀ (lib : LinAlg), LinAlgCorrect lib → ∀ (method : Method), method ≠ .other → ∀ x0 : ℝ, x0 ≠ 0 → |x0| ≤ 1 / 100 → ∀ tol ≤ |x0|,
      ∃ (maxIter : ℕ) (x : ℝ), (NLLS lib method none none none tol maxIter false (twoRes (-2) : Residual Key) (.arr [x0]) [] [] (maxIter + 2)).1
        = .ok (some (.arr [x], (maxIter : ℤ))) ∧ 1 / 100 < |x| := by
  refine ⟨fun x hx => ?_, fun lib hlib method hm x0 h0 hx0 tol ht => ?_⟩
  · have h1 : 0 < x ^ 2 := by positivity
    have h2 : (x + 1) ^ 2 + (-2 * x ^ 2 + x - 1) ^ 2 = x ^ 2 * ((2 * x - 1) ^ 2 + 5) + 2 := by ring
    rw [h2]
    have := mul_pos h1 (by positivity : 0 < (2 * x - 1) ^ 2 + 5)
    linarith
  have hpos : 0 < |x0| := abs_pos.2 h0
  have ht1 : tol < 1 := by linarith
  -- the iterates
  obtain ⟨g, hg⟩ : ∃ g : ℝ → ℝ, ∀ x d, (1 + (2 * (-2) * x + 1) ^ 2) * d = (x + 1) + (2 * (-2) * x + 1) * (-2 * x ^ 2 + x - 1) → x - d = g x :=
    ⟨fun x => x - ((x + 1) + (2 * (-2) * x + 1) * (-2 * x ^ 2 + x - 1)) / (1 + (2 * (-2) * x + 1) ^ 2), fun x d h => by
      beta_reduce
      rw [← h]
      field_simp⟩
  have grow : ∀ x, |x| ≤ 1 / 100 → 3 / 2 * |x| ≤ |g x| := fun x hx => by
    have e : (1 + (2 * (-2) * x + 1) ^ 2) * (((x + 1) + (2 * (-2) * x + 1) * (-2 * x ^ 2 + x - 1)) / (1 + (2 * (-2) * x + 1) ^ 2))
        = (x + 1) + (2 * (-2) * x + 1) * (-2 * x ^ 2 + x - 1) := by
      field_simp
    rw [← hg x _ e]
    exact (two_grows hx e).1
  have leave : ∃ m, 1 / 100 < |g^[m] x0| := by
    by_contra hcon
    push Not at hcon
    have : ∀ m, (3 / 2) ^ m * |x0| ≤ |g^[m] x0| := by
      intro m
      induction m with
      | zero => simp
      | succ m ih =>
        rw [Function.iterate_succ_apply', pow_succ]
        have := grow _ (hcon m)
        nlinarith
    obtain ⟨m, hm'⟩ := pow_unbounded_of_one_lt (1 / 100 / |x0|) (by norm_num : (1 : ℝ) < 3 / 2)
    rw [div_lt_iff₀ hpos] at hm'
    linarith [this m, hcon m]
  obtain ⟨m, hm1, hm2⟩ : ∃ m, 1 / 100 < |g^[m] x0| ∧ ∀ i < m, |g^[i] x0| ≤ 1 / 100 := by
    classical
    exact ⟨Nat.find leave, Nat.find_spec leave, fun i hi => not_lt.1 (Nat.find_min leave hi)⟩
  have large : ∀ i ≤ m, |x0| ≤ |g^[i] x0| := by
    intro i
    induction i with
    | zero => simp
    | succ i ih =>
      intro hi
      rw [Function.iterate_succ_apply']
      have := grow _ (hm2 i (by omega))
      have := ih (by omega)
      have := abs_nonneg (g^[i] x0)
      linarith
  obtain ⟨x, k, h1, hk, xs, dxs, h2, h3, h4, h5⟩ :=
    C37_nlls_partial (twoRes_ok (Key := Key) (-2) hlib hm x0) none tol ht1 m false (m + 2) le_rfl
  have key : ∀ i ≤ k, xs i = .arr [g^[i] x0] := by
    intro i
    induction i with
    | zero => exact fun _ => h2
    | succ i ih =>
      intro hi
      have hs := h4 i (by omega)
      rw [ih (by omega)] at hs
      obtain ⟨d, -, e, hd⟩ := two_step (-2) _ hs
      rw [e, hg _ _ hd, Function.iterate_succ_apply']
  have hkm : k = m := by
    by_contra hne
    have hkm : k < m := by omega
    rcases h5 with h5 | ⟨i, hi, h5⟩ | h5
    · rw [← h3, key k le_rfl] at h5
      have := h5 (g^[k] x0 + 1) (by simp [twoRes])
      have h6 := abs_le.1 (hm2 k hkm)
      have := (abs_le.1 this).2
      linarith [h6.1]
    · have hs := h4 i (by omega)
      rw [key i (by omega)] at hs
      obtain ⟨d, e, -, hd⟩ := two_step (-2) _ hs
      rw [e] at h5
      have h6 := h5 d (by simp)
      have h7 := (two_grows (hm2 i (by omega)) hd).2
      have := large i (by omega)
      linarith
    · exact hne h5
  refine ⟨m, g^[m] x0, ?_, hm1⟩
  rw [h1, ← h3, key k le_rfl, hkm]

/-! ### Far from a solution -/

theorem squareRes_ok {lib : LinAlg} (hlib : LinAlgCorrect lib) {method : Method} (hm : method ≠ .other) (x : ℝ) :
    GoodProblem lib method none (squareRes : Residual Key) (.arr [x]) [] [] := by
  refine ⟨hlib, hm, Or.inl rfl, ⟨by simp, by simp⟩, trivial, by simp [entries], fun v hv => ?_⟩
  obtain ⟨y, rfl⟩ := squareRes_form hv
  simp [squareRes]

theorem squareRes_partial (x : ℝ) : resPartial (squareRes : Residual Key) [] (.arr [x]) 0 0 = 2 * x := by
  have h : HasDerivAt (fun t : ℝ => (x + t) ^ 2 - 2) (2 * x) 0 := by
    have := (((hasDerivAt_id (0 : ℝ)).const_add x).pow 2).sub_const 2
    refine HasDerivAt.congr_deriv this ?_
    simp
  exact h.deriv

/-- A step from unknowns where the Jacobian vanishes goes nowhere. -/
theorem step_stationary {res : Residual Key} {args : List (View Key)} {v v' : View Key} {dx : List ℝ}
    (h : GaussNewtonStep res args v dx v') (h0 : ∀ i < (res (v :: args)).length, ∀ j < (entries v).length, resPartial res args v i j = 0) : v' = v := by
  have hz : dx = List.replicate (entries v).length 0 := by
    refine solves_zero h.solves (le_of_eq ?_)
    unfold missSq
    refine Finset.sum_congr rfl fun i hi => ?_
    have : ∀ y : ℕ → ℝ, ∑ j ∈ Finset.range (entries v).length, resPartial res args v i j * y j = 0 := fun y =>
      Finset.sum_eq_zero fun j hj => by rw [h0 i (Finset.mem_range.1 hi) j (Finset.mem_range.1 hj), zero_mul]
    rw [this, this]
  have hsub : List.zipWith (· - ·) (entries v) (List.replicate (entries v).length 0) = entries v := by
    generalize entries v = l
    induction l with
    | nil => rfl
    | cons a l ih => simp [List.replicate_succ, ih]
  rw [h.next, hz, hsub]
  exact refill_entries (SameForm.refl v)

/-- Far from a solution the claim is false: from 0 the search for the square root of 2 returns 0, with residual -2, for all tolerances below 1 and all limits
on the number of iterations. -/
theorem C97_far_fails (lib : LinAlg) (hlib : LinAlgCorrect lib) (method : Method) (hm : method ≠ .other) (tol : ℝ) (ht : tol < 1) (maxIter : ℕ) :
    ∃ k : ℕ, (NLLS lib method none none none tol maxIter false (squareRes : Residual Key) (.arr [0]) [] [] (maxIter + 2)).1
      = .ok (some (.arr [0], (k : ℤ))) ∧ squareRes [(.arr [0] : View Key)] = [-2] := by
  obtain ⟨x, k, h1, -, xs, dxs, h2, h3, h4, -⟩ := C37_nlls_partial (squareRes_ok (Key := Key) hlib hm 0) none tol ht maxIter false (maxIter + 2) le_rfl
  have key : ∀ i ≤ k, xs i = .arr [0] := by
    intro i
    induction i with
    | zero => exact fun _ => h2
    | succ i ih =>
      intro hi
      have hs := h4 i (by omega)
      rw [ih (by omega)] at hs
      refine step_stationary hs fun a ha b hb => ?_
      have ha0 : a = 0 := by
        have : a < 1 := ha
        omega
      have hb0 : b = 0 := by
        have : b < 1 := hb
        omega
      subst ha0 hb0
      rw [squareRes_partial, mul_zero]
  refine ⟨k, ?_, by simp [squareRes]⟩
  rw [h1, ← h3, key k le_rfl]

end Verif.Props
