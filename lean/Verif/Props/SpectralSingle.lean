import Verif.Props.SpectralInner

/-!
# The programs for the landing with least energy by the spectral method that solve for the motion and the time at once
-/

namespace Verif.Props

open Set Polynomial Verif Verif.Mem Verif.Py Verif.Np Verif.Spec Verif.Model Verif.Model.Py Verif.Model.LSq Verif.Model.Prog Verif.Model.Dict
  Verif.Lemmas.LSq
open scoped ContDiff

variable {stfc ctfc : Utfc} {R0 V0 ag : Fin 3 → ℝ} {Gam : ℝ}

/-- The equation for the time of the programs. -/
noncomputable abbrev specClock (z : List ℝ) (ag : Fin 3 → ℝ) (Gam : ℝ) : PEqn 6 1 :=
  ⟨[last z], 9, specTerms, here, 1, fun _ J s _ =>
    specHtf ag Gam (s 0 ^ 2) (fun i => J ⟨i, by omega⟩) (fun i => J ⟨3 + i, by omega⟩) fun i => J ⟨6 + i, by omega⟩⟩

theorem specSys_eqs : (specSys stfc ctfc R0 V0 ag Gam).eqs = specEqs stfc.z R0 V0 ag (fun s => s 0 ^ 2) ++ [specClock stfc.z ag Gam] := rfl

theorem specSys_funs : (specSys stfc ctfc R0 V0 ag Gam).funs = specFuns stfc ctfc := rfl

theorem specTerms_lam (i : Fin 3) : specTerms ⟨i, by omega⟩ = (lamIx i, 0) := by fin_cases i <;> rfl

theorem specTerms_lamr (i : Fin 3) : specTerms ⟨3 + i, by omega⟩ = (lamIx i, 1) := by fin_cases i <;> rfl

theorem specTerms_v (i : Fin 3) : specTerms ⟨6 + i, by omega⟩ = (posIx i, 1) := by fin_cases i <;> rfl

theorem specClock_miss (st : PState 6 1) (x : ℝ) (o : Fin 1) :
    sysMiss (specSys stfc ctfc R0 V0 ag Gam) st (specClock stfc.z ag Gam) x o = specHtf ag Gam (st.num 0 ^ 2) (fun i => st.free (lamIx i) x)
      (fun i => iteratedDeriv 1 (st.free (lamIx i)) x) fun i => iteratedDeriv 1 (st.free (posIx i)) x := by
  show specHtf ag Gam (st.num 0 ^ 2) (fun i => sysJet (specSys stfc ctfc R0 V0 ag Gam) st (specClock stfc.z ag Gam) x (⟨i, by omega⟩ : Fin 9))
    (fun i => sysJet (specSys stfc ctfc R0 V0 ag Gam) st (specClock stfc.z ag Gam) x (⟨3 + i, by omega⟩ : Fin 9))
    (fun i => sysJet (specSys stfc ctfc R0 V0 ag Gam) st (specClock stfc.z ag Gam) x (⟨6 + i, by omega⟩ : Fin 9)) = _
  congr 1
  · funext i
    simp only [sysJet, specClock, here]
    rw [specTerms_lam, iteratedDeriv_zero, spec_fn specSys_funs]
  · funext i
    simp only [sysJet, specClock, here]
    rw [specTerms_lamr, spec_fn specSys_funs]
  · funext i
    simp only [sysJet, specClock, here]
    rw [specTerms_v, spec_fn specSys_funs]

theorem specSys_smooth : SmoothSys (specSys stfc ctfc R0 V0 ag Gam) := by
  refine specLand_smooth (stfc := stfc) (ctfc := ctfc) rfl fun E hE i => ?_
  rw [specSys_eqs] at hE
  rcases List.mem_append.1 hE with hE | hE
  · exact specEqs_terms hE i
  · have : E = specClock stfc.z ag Gam := by simpa using hE
    subst this
    change Fin 9 at i
    show (specTerms i).2 ≤ 8
    unfold specTerms
    split
    · simp
    · split <;> simp

theorem specSys_regular (st : PState 6 1) : Regular (specSys stfc ctfc R0 V0 ag Gam) st := by
  refine ⟨?_, ?_⟩
  · intro q d hd
    rw [specSys_funs] at hd
    rcases six_cases q with ⟨i, rfl⟩ | ⟨i, rfl⟩
    · rw [specFuns_pos] at hd
      simp at hd
    · rw [specFuns_lam] at hd
      simp at hd
  · intro E hE x _ o
    rw [specSys_eqs, specEqs_eq] at hE
    simp only [List.cons_append, List.nil_append, List.mem_cons, List.not_mem_nil, or_false] at hE
    rcases hE with rfl | rfl | rfl | rfl | rfl | rfl
    all_goals
      simp only [specHtf]
      fun_prop

theorem specSys_fits {N ms : ℕ} (F : SpecFit N ms stfc ctfc) (b : ℝ) :
    FitsSys (specSys stfc ctfc R0 V0 ag Gam) (landUnknowns stfc ctfc [entry1 "b" [b]]) := by
  refine spec_fits F specSys_funs (by simp [landUnknowns, entry3, entry1]) (fun i => ?_) fun i => ?_
  · fin_cases i
    simp [specSys, landUnknowns, entry3, entry1]
  · fin_cases i
    simp [specSys, landUnknowns, entry3, entry1, sizeOfKey]

theorem specSys_offset {N ms : ℕ} (F : SpecFit N ms stfc ctfc) (b : ℝ) (i : Fin 1) :
    offsetOf (landUnknowns stfc ctfc [entry1 "b" [b]]) ((specSys stfc ctfc R0 V0 ag Gam).names i) = cols1 stfc * 3 + (6 + 0) := by
  fin_cases i
  simp [specSys, landUnknowns, entry3, entry1, offsetOf, F.cols2]

/-! ## The linearised rows -/

theorem line_deriv (u w : ℝ) : HasDerivAt (fun r : ℝ => u + r * w) w 0 :=
  (((hasDerivAt_id (0 : ℝ)).mul_const w).const_add u).congr_deriv (by simp)

variable {st st' : PState 6 1}

theorem specMotion_lin (hst : ∀ q, ContDiff ℝ ∞ (st.free q)) (hst' : ∀ q, ContDiff ℝ ∞ (st'.free q)) (x : ℝ) (i : Fin 3) :
    sysLin (specSys stfc ctfc R0 V0 ag Gam) st st' (specMotion stfc.z ag fun s => s 0 ^ 2) x i =
      st.num 0 ^ 4 * iteratedDeriv 2 (st'.free (posIx i)) x + 4 * st.num 0 ^ 3 * (st'.num 0 - st.num 0) * iteratedDeriv 2 (st.free (posIx i)) x - ag i +
        st'.free (lamIx i) x := by
  unfold sysLin
  have e : (fun r : ℝ => sysMiss (specSys stfc ctfc R0 V0 ag Gam) (st.toward st' r) (specMotion stfc.z ag fun s => s 0 ^ 2) x i) = fun r : ℝ =>
      (st.num 0 + r * (st'.num 0 - st.num 0)) ^ 4 * (iteratedDeriv 2 (st.free (posIx i)) x +
        r * (iteratedDeriv 2 (st'.free (posIx i)) x - iteratedDeriv 2 (st.free (posIx i)) x)) - ag i +
      (st.free (lamIx i) x + r * (st'.free (lamIx i) x - st.free (lamIx i) x)) := by
    funext r
    rw [specMotion_miss specSys_funs, toward_iter hst hst']
    simp only [PState.toward]
    ring
  rw [e, specMotion_miss specSys_funs]
  have h := (((((line_deriv (st.num 0) (st'.num 0 - st.num 0)).pow 4).mul (line_deriv (iteratedDeriv 2 (st.free (posIx i)) x)
    (iteratedDeriv 2 (st'.free (posIx i)) x - iteratedDeriv 2 (st.free (posIx i)) x))).sub_const (ag i)).add
    (line_deriv (st.free (lamIx i) x) (st'.free (lamIx i) x - st.free (lamIx i) x))).deriv
  refine Eq.trans (congrArg (fun t => _ + t) h) ?_
  simp
  ring

theorem specStart_lin (x : ℝ) (i : Fin 3) :
    sysLin (specSys stfc ctfc R0 V0 ag Gam) st st' (specStart stfc.z R0) x i = st'.free (posIx i) x - R0 i := by
  unfold sysLin
  have e : (fun r : ℝ => sysMiss (specSys stfc ctfc R0 V0 ag Gam) (st.toward st' r) (specStart stfc.z R0) x i) = fun r : ℝ =>
      (st.free (posIx i) x - R0 i) + r * (st'.free (posIx i) x - st.free (posIx i) x) := by
    funext r
    rw [specStart_miss specSys_funs]
    simp only [PState.toward]
    ring
  rw [e, specStart_miss specSys_funs, (line_deriv _ _).deriv]
  ring

theorem specGoal_lin (x : ℝ) (i : Fin 3) :
    sysLin (specSys stfc ctfc R0 V0 ag Gam) st st' (specGoal stfc.z) x i = st'.free (posIx i) x := by
  unfold sysLin
  have e : (fun r : ℝ => sysMiss (specSys stfc ctfc R0 V0 ag Gam) (st.toward st' r) (specGoal stfc.z) x i) = fun r : ℝ =>
      st.free (posIx i) x + r * (st'.free (posIx i) x - st.free (posIx i) x) := by
    funext r
    rw [specGoal_miss specSys_funs]
    simp only [PState.toward]
  rw [e, specGoal_miss specSys_funs, (line_deriv _ _).deriv]
  ring

theorem rate_deriv (b d u u' : ℝ) : deriv (fun r : ℝ => (b + r * d) ^ 2 * (u + r * (u' - u))) 0 = 2 * b * d * u + b ^ 2 * (u' - u) := by
  have h := (((line_deriv b d).pow 2).mul (line_deriv u (u' - u))).deriv
  refine Eq.trans h ?_
  simp

theorem specSpeed_lin (hst : ∀ q, ContDiff ℝ ∞ (st.free q)) (hst' : ∀ q, ContDiff ℝ ∞ (st'.free q)) (x : ℝ) (i : Fin 3) :
    sysLin (specSys stfc ctfc R0 V0 ag Gam) st st' (specSpeed stfc.z V0 fun s => s 0 ^ 2) x i =
      st.num 0 ^ 2 * iteratedDeriv 1 (st'.free (posIx i)) x + 2 * st.num 0 * (st'.num 0 - st.num 0) * iteratedDeriv 1 (st.free (posIx i)) x - V0 i := by
  unfold sysLin
  have e : (fun r : ℝ => sysMiss (specSys stfc ctfc R0 V0 ag Gam) (st.toward st' r) (specSpeed stfc.z V0 fun s => s 0 ^ 2) x i) = fun r : ℝ =>
      (st.num 0 + r * (st'.num 0 - st.num 0)) ^ 2 * (iteratedDeriv 1 (st.free (posIx i)) x +
        r * (iteratedDeriv 1 (st'.free (posIx i)) x - iteratedDeriv 1 (st.free (posIx i)) x)) - V0 i := by
    funext r
    rw [specSpeed_miss specSys_funs, toward_iter hst hst']
    simp only [PState.toward]
  rw [e, specSpeed_miss specSys_funs, deriv_sub_const, rate_deriv]
  ring

theorem specRest_lin (hst : ∀ q, ContDiff ℝ ∞ (st.free q)) (hst' : ∀ q, ContDiff ℝ ∞ (st'.free q)) (x : ℝ) (i : Fin 3) :
    sysLin (specSys stfc ctfc R0 V0 ag Gam) st st' (specRest stfc.z fun s => s 0 ^ 2) x i =
      st.num 0 ^ 2 * iteratedDeriv 1 (st'.free (posIx i)) x + 2 * st.num 0 * (st'.num 0 - st.num 0) * iteratedDeriv 1 (st.free (posIx i)) x := by
  unfold sysLin
  have e : (fun r : ℝ => sysMiss (specSys stfc ctfc R0 V0 ag Gam) (st.toward st' r) (specRest stfc.z fun s => s 0 ^ 2) x i) = fun r : ℝ =>
      (st.num 0 + r * (st'.num 0 - st.num 0)) ^ 2 * (iteratedDeriv 1 (st.free (posIx i)) x +
        r * (iteratedDeriv 1 (st'.free (posIx i)) x - iteratedDeriv 1 (st.free (posIx i)) x)) := by
    funext r
    rw [specRest_miss specSys_funs, toward_iter hst hst']
    simp only [PState.toward]
  rw [e, specRest_miss specSys_funs, rate_deriv]
  ring

theorem specClock_lin (hst : ∀ q, ContDiff ℝ ∞ (st.free q)) (hst' : ∀ q, ContDiff ℝ ∞ (st'.free q)) (x : ℝ) (o : Fin 1) :
    sysLin (specSys stfc ctfc R0 V0 ag Gam) st st' (specClock stfc.z ag Gam) x o =
      sysMiss (specSys stfc ctfc R0 V0 ag Gam) st (specClock stfc.z ag Gam) x o + ∑ i, ((ag i - st.free (lamIx i) x) * (st'.free (lamIx i) x - st.free (lamIx i) x) -
        4 * st.num 0 ^ 3 * (st'.num 0 - st.num 0) * (iteratedDeriv 1 (st.free (lamIx i)) x * iteratedDeriv 1 (st.free (posIx i)) x) -
        st.num 0 ^ 4 * ((iteratedDeriv 1 (st'.free (lamIx i)) x - iteratedDeriv 1 (st.free (lamIx i)) x) * iteratedDeriv 1 (st.free (posIx i)) x +
          iteratedDeriv 1 (st.free (lamIx i)) x * (iteratedDeriv 1 (st'.free (posIx i)) x - iteratedDeriv 1 (st.free (posIx i)) x))) := by
  unfold sysLin
  congr 1
  have e : (fun r : ℝ => sysMiss (specSys stfc ctfc R0 V0 ag Gam) (st.toward st' r) (specClock stfc.z ag Gam) x o) = fun r : ℝ =>
      (∑ i, ((st.free (lamIx i) x + r * (st'.free (lamIx i) x - st.free (lamIx i) x)) *
        (-1 / 2 * (st.free (lamIx i) x + r * (st'.free (lamIx i) x - st.free (lamIx i) x)) + ag i) -
        (st.num 0 + r * (st'.num 0 - st.num 0)) ^ 4 *
          ((iteratedDeriv 1 (st.free (lamIx i)) x + r * (iteratedDeriv 1 (st'.free (lamIx i)) x - iteratedDeriv 1 (st.free (lamIx i)) x)) *
            (iteratedDeriv 1 (st.free (posIx i)) x + r * (iteratedDeriv 1 (st'.free (posIx i)) x - iteratedDeriv 1 (st.free (posIx i)) x))))) + Gam := by
    funext r
    rw [specClock_miss]
    simp only [toward_iter hst hst', specHtf]
    simp only [PState.toward]
    rw [← Finset.sum_add_distrib]
    congr 1
    refine Finset.sum_congr rfl fun i _ => ?_
    ring
  rw [e]
  refine ((HasDerivAt.fun_sum fun i _ => ((line_deriv (st.free (lamIx i) x) (st'.free (lamIx i) x - st.free (lamIx i) x)).mul
    (((line_deriv (st.free (lamIx i) x) (st'.free (lamIx i) x - st.free (lamIx i) x)).const_mul (-1 / 2)).add_const (ag i))).sub
    (((line_deriv (st.num 0) (st'.num 0 - st.num 0)).pow 4).mul ((line_deriv (iteratedDeriv 1 (st.free (lamIx i)) x)
      (iteratedDeriv 1 (st'.free (lamIx i)) x - iteratedDeriv 1 (st.free (lamIx i)) x)).mul (line_deriv (iteratedDeriv 1 (st.free (posIx i)) x)
      (iteratedDeriv 1 (st'.free (posIx i)) x - iteratedDeriv 1 (st.free (posIx i)) x))))).add_const Gam).deriv.trans ?_
  refine Finset.sum_congr rfl fun i _ => ?_
  simp
  ring

/-! ## The steps -/

/-- The derivative of the linearised equation for the time with respect to the change of `b`, when the position and the costate are changed so that all
other linearised equations hold: from the costate `l` and its derivative `lr` at the end, the positions `g0`, `g1` and the derivatives `s0`, `s1` of the position
at both ends. -/
noncomputable def specSlope (ag : Fin 3 → ℝ) (b : ℝ) (l lr g0 g1 s0 s1 : Fin 3 → ℝ) : ℝ :=
  ∑ i, (-(ag i - l i) * b ^ 3 * (6 * (g0 i - g1 i) + 2 * s0 i + 4 * s1 i) + b ^ 7 * (6 * (g0 i - g1 i) + 3 * s0 i + 3 * s1 i) * s1 i -
    2 * b ^ 3 * lr i * s1 i)

/-- The same for a state. -/
noncomputable def slopeOf (ag : Fin 3 → ℝ) (st : PState 6 1) : ℝ :=
  specSlope ag (st.num 0) (fun i => st.free (lamIx i) 1) (fun i => deriv (st.free (lamIx i)) 1) (fun i => st.free (posIx i) (-1))
    (fun i => st.free (posIx i) 1) (fun i => deriv (st.free (posIx i)) (-1)) fun i => deriv (st.free (posIx i)) 1

/-- One step of the solver, from any iterate with `b ≠ 0` and a slope that is not zero: all linearised equations hold. -/
theorem spec_step {N ms : ℕ} (F : SpecFit N ms stfc ctfc) (h3 : 3 ≤ ms) {cls : DictClass} {b0 : ℝ} {z v : View String} {tol : ℝ}
    (hz : SameForm (.dict cls (landUnknowns stfc ctfc [entry1 "b" [b0]])) z) {maxIter it : ℕ} {vs : ℕ → View String} {sts : ℕ → PState 6 1}
    (h : SysRun (specSys stfc ctfc R0 V0 ag Gam) z tol maxIter v it vs sts) {j : ℕ} (hj : j < it) (hb : (sts j).num 0 ≠ 0)
    (hK : slopeOf ag (sts j) ≠ 0) :
    ∀ E ∈ (specSys stfc ctfc R0 V0 ag Gam).eqs, ∀ x ∈ E.pts, ∀ o, sysLin (specSys stfc ctfc R0 V0 ag Gam) (sts j) (sts (j + 1)) E x o = 0 := by
  have hfit := specSys_fits (R0 := R0) (V0 := V0) (ag := ag) (Gam := Gam) F b0
  have hs1 := (h.means j hj.le).smooth
  obtain ⟨hp, -⟩ := spec_state F specSys_funs hfit (SameForm.trans hz (h.form j hj.le)) (h.means j hj.le)
  choose p hpd hpe using hp
  obtain ⟨b, hbe⟩ : ∃ b, b = (sts j).num 0 := ⟨_, rfl⟩
  obtain ⟨l, hl⟩ : ∃ l : Fin 3 → ℝ, l = fun i => (sts j).free (lamIx i) 1 := ⟨_, rfl⟩
  obtain ⟨lr, hlr⟩ : ∃ lr : Fin 3 → ℝ, lr = fun i => iteratedDeriv 1 ((sts j).free (lamIx i)) 1 := ⟨_, rfl⟩
  obtain ⟨g0, hg0⟩ : ∃ g0 : Fin 3 → ℝ, g0 = fun i => (p i).eval (-1) := ⟨_, rfl⟩
  obtain ⟨g1, hg1⟩ : ∃ g1 : Fin 3 → ℝ, g1 = fun i => (p i).eval 1 := ⟨_, rfl⟩
  obtain ⟨s0, hs0⟩ : ∃ s0 : Fin 3 → ℝ, s0 = fun i => (derivative (p i)).eval (-1) := ⟨_, rfl⟩
  obtain ⟨s1, hs1'⟩ : ∃ s1 : Fin 3 → ℝ, s1 = fun i => (derivative (p i)).eval 1 := ⟨_, rfl⟩
  have hK' : specSlope ag b l lr g0 g1 s0 s1 ≠ 0 := by
    have e : slopeOf ag (sts j) = specSlope ag b l lr g0 g1 s0 s1 := by
      unfold slopeOf
      rw [hbe, hl, hlr, hg0, hg1, hs0, hs1']
      simp only [hpe, iteratedDeriv_one, Polynomial.deriv]
    rwa [e] at hK
  rw [← hbe] at hb
  obtain ⟨H, hH⟩ : ∃ H : ℝ, H = sysMiss (specSys stfc ctfc R0 V0 ag Gam) (sts j) (specClock stfc.z ag Gam) 1 (0 : Fin 1) := ⟨_, rfl⟩
  obtain ⟨T, hT⟩ : ∃ T : ℝ → Fin 3 → ℝ, T = fun d i =>
      (ag i - l i) * (ag i - b ^ 4 * (3 / 2 * (R0 i + 4 * d / b * g0 i) - 3 / 2 * (4 * d / b * g1 i) + (V0 i / b ^ 2 + 2 * d / b * s0 i) + 2 * (2 * d / b * s1 i)) - l i) -
        4 * b ^ 3 * d * (lr i * s1 i) -
        b ^ 4 * ((-b ^ 4 * (3 / 2 * (R0 i + 4 * d / b * g0 i) - 3 / 2 * (4 * d / b * g1 i) + 3 / 2 * (V0 i / b ^ 2 + 2 * d / b * s0 i) + 3 / 2 * (2 * d / b * s1 i)) - lr i) * s1 i +
          lr i * ((2 * d / b * s1 i - 4 * d / b * s1 i) - s1 i)) := ⟨_, rfl⟩
  have hTs : ∀ d, ∑ i, T d i = ∑ i, T 0 i + d * specSlope ag b l lr g0 g1 s0 s1 := by
    intro d
    rw [specSlope, Finset.mul_sum, ← Finset.sum_add_distrib]
    refine Finset.sum_congr rfl fun i _ => ?_
    rw [hT]
    dsimp only
    field_simp
    ring
  obtain ⟨d, hd⟩ : ∃ d, H + ∑ i, T d i = 0 := by
    refine ⟨-(H + ∑ i, T 0 i) / specSlope ag b l lr g0 g1 s0 s1, ?_⟩
    rw [hTs, div_mul_cancel₀ _ hK']
    ring
  obtain ⟨v', st', hv', hm', p1, p2, p3⟩ := spec_reach F specSys_funs hfit cls
    (p := fun i => hermite (R0 i + 4 * d / b * g0 i) (4 * d / b * g1 i) (V0 i / b ^ 2 + 2 * d / b * s0 i) (2 * d / b * s1 i) - C (4 * d / b) * p i)
    (fun i => lt_of_le_of_lt (degree_sub_le _ _) (max_lt (hermite_degree _ _ _ _ h3)
      (lt_of_le_of_lt ((degree_mul_le _ _).trans (add_le_of_nonpos_left degree_C_le)) (hpd i))))
    (fun i => ag i - b ^ 4 * (1 / 2 * (2 * d / b * s1 i) - 1 / 2 * (V0 i / b ^ 2 + 2 * d / b * s0 i)))
    (fun i => -b ^ 4 * (3 / 2 * (R0 i + 4 * d / b * g0 i) - 3 / 2 * (4 * d / b * g1 i) + 3 / 2 * (V0 i / b ^ 2 + 2 * d / b * s0 i) + 3 / 2 * (2 * d / b * s1 i)))
    [b + d] (by simp [entries, entry1])
  have hnum : st'.num 0 = b + d := by
    rw [p3 0 0 (specSys_offset F b0 0)]
    rfl
  have hsub : st'.num 0 - (sts j).num 0 = d := by rw [hnum, ← hbe]; ring
  refine step_exact h hj (specSys_regular _) (SameForm.trans (SameForm.symm hz) hv') hm' fun E hE x hx o => ?_
  rw [specSys_eqs, specEqs_eq] at hE
  simp only [List.cons_append, List.nil_append, List.mem_cons, List.not_mem_nil, or_false] at hE
  rcases hE with rfl | rfl | rfl | rfl | rfl | rfl
  · change Fin 3 at o
    rw [specMotion_lin hs1 hm'.smooth, hsub, ← hbe, p1, p2, hpe, poly_iter2, poly_iter2, derivative_sub, derivative_sub, eval_sub, hermite_deriv2,
      derivative_C_mul, derivative_C_mul, eval_mul, eval_C]
    field_simp
    ring
  · change Fin 3 at o
    have hx : x = -1 := by simpa [F.left] using hx
    rw [specStart_lin, p1, hx]
    show eval _ _ - _ = _
    rw [eval_sub, hermite_eval, eval_mul, eval_C]
    have : (p o).eval (-1) = g0 o := by rw [hg0]
    rw [this]
    ring
  · change Fin 3 at o
    have hx : x = -1 := by simpa [F.left] using hx
    rw [specSpeed_lin hs1 hm'.smooth, hsub, ← hbe, p1, hpe, poly_iter1, poly_iter1, hx, derivative_sub, eval_sub, hermite_deriv, derivative_C_mul, eval_mul, eval_C]
    have : (derivative (p o)).eval (-1) = s0 o := by rw [hs0]
    rw [this]
    field_simp
    ring
  · change Fin 3 at o
    have hx : x = 1 := by simpa [F.right] using hx
    rw [specGoal_lin, p1, hx]
    show eval _ _ = _
    rw [eval_sub, hermite_eval, eval_mul, eval_C]
    have : (p o).eval 1 = g1 o := by rw [hg1]
    rw [this]
    ring
  · change Fin 3 at o
    have hx : x = 1 := by simpa [F.right] using hx
    rw [specRest_lin hs1 hm'.smooth, hsub, ← hbe, p1, hpe, poly_iter1, poly_iter1, hx, derivative_sub, eval_sub, hermite_deriv, derivative_C_mul, eval_mul, eval_C]
    have : (derivative (p o)).eval 1 = s1 o := by rw [hs1']
    rw [this]
    field_simp
    ring
  · have hx : x = 1 := by simpa [F.right] using hx
    change Fin 1 at o
    obtain rfl : o = 0 := Subsingleton.elim _ _
    rw [specClock_lin hs1 hm'.smooth, hsub, ← hbe, hx, ← hH, ← hd]
    congr 1
    refine Finset.sum_congr rfl fun i _ => ?_
    have e1 : iteratedDeriv 1 (st'.free (posIx i)) 1 = 2 * d / b * s1 i - 4 * d / b * s1 i := by
      rw [p1, poly_iter1, derivative_sub, eval_sub, hermite_deriv, derivative_C_mul, eval_mul, eval_C]
      have : (derivative (p i)).eval 1 = s1 i := by rw [hs1']
      rw [this]
      ring
    have e2 : iteratedDeriv 1 ((sts j).free (posIx i)) 1 = s1 i := by rw [hpe, poly_iter1, hs1']
    have e3 : ∀ α β : ℝ, iteratedDeriv 1 (fun x => α + β * x) 1 = β := by
      intro α β
      rw [iteratedDeriv_one]
      have := (((hasDerivAt_id (1 : ℝ)).const_mul β).const_add α).deriv
      simpa using this
    have e4 : (sts j).free (lamIx i) 1 = l i := by rw [hl]
    have e5 : iteratedDeriv 1 ((sts j).free (lamIx i)) 1 = lr i := by rw [hlr]
    rw [e1, e2, p2, e3, e4, e5, hT]
    ring

/-! ## The motion -/

theorem clock_deriv {g : ℝ → ℝ} (hg : ContDiff ℝ ∞ g) (k : ℝ) : deriv (fun t => g (k * t - 1)) = (fun t => k * deriv g (k * t - 1)) ∧
    deriv (deriv fun t => g (k * t - 1)) = fun t => k ^ 2 * iteratedDeriv 2 g (k * t - 1) := by
  have g2 : ContDiff ℝ 2 g := contDiff_infty.1 hg 2
  have hin : ∀ t, HasDerivAt (fun t : ℝ => k * t - 1) k t := fun t => (((hasDerivAt_id t).const_mul k).sub_const 1).congr_deriv (by simp)
  have e1 : deriv (fun t => g (k * t - 1)) = fun t => k * deriv g (k * t - 1) := by
    funext t
    refine ((g2.differentiable (by simp) (k * t - 1)).hasDerivAt.comp t (hin t)).deriv.trans ?_
    ring
  refine ⟨e1, ?_⟩
  rw [e1]
  funext t
  refine ((((first_smooth g2).differentiable (by simp) (k * t - 1)).hasDerivAt.comp t (hin t)).const_mul k).deriv.trans ?_
  rw [iteratedDeriv_succ, iteratedDeriv_one]
  ring

/-- The motion in time that a state stands for. -/
noncomputable def specPath (st : PState 6 1) (i : Fin 3) (t : ℝ) : ℝ := st.free (posIx i) (st.num 0 ^ 2 * t - 1)

/-- All equations hold exactly for the motion with the least energy of its own duration, its costate, and a duration at which the derivative of the least
cost vanishes. -/
theorem spec_single_solved {N ms : ℕ} (F : SpecFit N ms stfc ctfc) (h3 : 3 ≤ ms) (hms : ms < N) {st : PState 6 1} (hst : ∀ q, ContDiff ℝ ∞ (st.free q))
    (hp : ∀ i, ∃ p : ℝ[X], p.degree < (ms + 1 : ℕ) ∧ st.free (posIx i) = fun x => p.eval x)
    (hl : ∀ i, ∃ α β : ℝ, st.free (lamIx i) = fun x => α + β * x) (hb : st.num 0 ≠ 0) :
    (∀ E ∈ (specSys stfc ctfc R0 V0 ag Gam).eqs, ∀ x ∈ E.pts, ∀ o, sysMiss (specSys stfc ctfc R0 V0 ag Gam) st E x o = 0) ↔
      LeastEnergy R0 V0 ag (2 / st.num 0 ^ 2) (specPath st) ∧
      (∀ i t, st.free (lamIx i) (st.num 0 ^ 2 * t - 1) = ag i - deriv (deriv (specPath st i)) t) ∧
      deriv (leastCost R0 V0 ag Gam) (2 / st.num 0 ^ 2) = 0 := by
  obtain ⟨k, hk⟩ : ∃ k, k = st.num 0 ^ 2 := ⟨_, rfl⟩
  have hk0 : k ≠ 0 := by rw [hk]; exact pow_ne_zero 2 hb
  have hkp : 0 < k := by rw [hk]; positivity
  have hT : 0 < 2 / k := by positivity
  have hsol := spec_solved F h3 hms (S := specSys stfc ctfc R0 V0 ag Gam) (R0 := R0) (V0 := V0) (ag := ag) specSys_funs hp hl (c := fun s => s 0 ^ 2)
    (k := k) hk.symm hk0
  have hback : ∀ t, (k * t - 1 + 1) / k = t := fun t => by field_simp; ring
  have hpe : specPath st = fun i t => st.free (posIx i) (k * t - 1) := by unfold specPath; rw [hk]
  have hval : (∀ E ∈ specEqs stfc.z R0 V0 ag (fun s => s 0 ^ 2), ∀ x ∈ E.pts, ∀ o, sysMiss (specSys stfc ctfc R0 V0 ag Gam) st E x o = 0) →
      sysMiss (specSys stfc ctfc R0 V0 ag Gam) st (specClock stfc.z ag Gam) 1 (0 : Fin 1) = deriv (leastCost R0 V0 ag Gam) (2 / k) := by
    intro h
    have hfin := hsol.1 h
    have hv1 : ∀ i, iteratedDeriv 1 (st.free (posIx i)) 1 = 0 := by
      intro i
      have := h (specRest stfc.z fun s => s 0 ^ 2) (by rw [specEqs_eq]; simp) 1 (by simp [F.right]) i
      rw [specRest_miss specSys_funs, ← hk] at this
      exact (mul_eq_zero.1 this).resolve_left hk0
    have he : ∀ i, st.free (lamIx i) 1 = ag i - deriv (deriv (landPath (R0 i) (V0 i) (2 / k))) (2 / k) := by
      intro i
      rw [(hfin i).2]
      congr 2
      norm_num
    rw [specClock_miss, (C105_time R0 V0 ag Gam hT).2.deriv]
    unfold specHtf landHtf
    simp [he, hv1]
  rw [← hk]
  constructor
  · intro h
    have h5 : ∀ E ∈ specEqs stfc.z R0 V0 ag (fun s => s 0 ^ 2), ∀ x ∈ E.pts, ∀ o, sysMiss (specSys stfc ctfc R0 V0 ag Gam) st E x o = 0 :=
      fun E hE => h E (by rw [specSys_eqs]; exact List.mem_append_left _ hE)
    have hfin := hsol.1 h5
    have hX : specPath st = fun i => landPath (R0 i) (V0 i) (2 / k) := by
      rw [hpe]
      funext i t
      rw [(hfin i).1, hback]
    refine ⟨by rw [hX]; exact C105_least R0 V0 ag hT, fun i t => by rw [hX, (hfin i).2, hback], ?_⟩
    rw [← hval h5]
    exact h (specClock stfc.z ag Gam) (by rw [specSys_eqs]; simp) 1 (by simp [F.right]) (0 : Fin 1)
  · rintro ⟨hle, hla, hdl⟩
    have hm := hle.motion
    rw [hpe] at hm hla
    have h5 : ∀ E ∈ specEqs stfc.z R0 V0 ag (fun s => s 0 ^ 2), ∀ x ∈ E.pts, ∀ o, sysMiss (specSys stfc ctfc R0 V0 ag Gam) st E x o = 0 := by
      intro E hE x hx o
      have e0 : k * 0 - 1 = -1 := by ring
      have e1 : k * (2 / k) - 1 = 1 := by field_simp; norm_num
      rw [specEqs_eq] at hE
      simp only [List.mem_cons, List.not_mem_nil, or_false] at hE
      rcases hE with rfl | rfl | rfl | rfl | rfl
      · change Fin 3 at o
        rw [specMotion_miss specSys_funs, ← hk]
        have := hla o ((x + 1) / k)
        rw [(clock_deriv (hst (posIx o)) k).2] at this
        have ex : k * ((x + 1) / k) - 1 = x := by field_simp; ring
        simp only [ex] at this
        rw [this]
        ring
      · change Fin 3 at o
        have hx : x = -1 := by simpa [F.left] using hx
        have := hm.start o
        rw [e0] at this
        rw [specStart_miss specSys_funs, hx, this]
        ring
      · change Fin 3 at o
        have hx : x = -1 := by simpa [F.left] using hx
        have := hm.speed o
        rw [(clock_deriv (hst (posIx o)) k).1] at this
        dsimp only at this
        rw [e0] at this
        rw [specSpeed_miss specSys_funs, ← hk, iteratedDeriv_one, hx, this]
        ring
      · change Fin 3 at o
        have hx : x = 1 := by simpa [F.right] using hx
        have := hm.goal o
        rw [e1] at this
        rw [specGoal_miss specSys_funs, hx, this]
      · change Fin 3 at o
        have hx : x = 1 := by simpa [F.right] using hx
        have := hm.rest o
        rw [(clock_deriv (hst (posIx o)) k).1] at this
        dsimp only at this
        rw [e1] at this
        rw [specRest_miss specSys_funs, ← hk, iteratedDeriv_one, hx, this]
    intro E hE x hx o
    rw [specSys_eqs] at hE
    rcases List.mem_append.1 hE with hE | hE
    · exact h5 E hE x hx o
    · have : E = specClock stfc.z ag Gam := by simpa using hE
      subst this
      have hx : x = 1 := by simpa [F.right] using hx
      change Fin 1 at o
      obtain rfl : o = 0 := Subsingleton.elim _ _
      rw [hx, hval h5, hdl]

/-- The unknowns at the start of the programs. -/
noncomputable def specXi (stfc ctfc : Utfc) (xic0 : Option (List ℝ)) (b : ℝ) : View String :=
  .dict .robust [entry3 "xis" (List.replicate (cols1 stfc * 3) 0), entry3 "xic" (xic0.getD (List.replicate (cols1 ctfc * 3) 0)), entry1 "b" [b]]

/-- **C110, motion and time at once.** For every number of points and degree with `3 ≤ ms < N`, every tolerance below 1, all data and every start of the
costate and `b`: the programs return the result of a Gauss–Newton iteration for the rows of the residual. For every iterate with `b ≠ 0`:

* all rows vanish if and only if the iterate stands for the motion with the least energy of all motions of its own duration `2 / b²`, with its costate, and the
derivative of the least cost with respect to the duration vanishes there,
* if all rows are at most `tol`, the motion starts and ends within `tol` of the given positions and velocities,
* if the slope of the linearised `Htf` is not zero, the step from it meets all linearised equations.

The equations linearised at the start do not contain `b`. -/
theorem C110_single {lib : LinAlg} (hlib : LinAlgCorrect lib) {N ms : ℕ} (h3 : 3 ≤ ms) (hms : ms < N) (wt bt wt' bt' : ℕ → ℝ)
    {tol : ℝ} (htol : tol < 1) (maxIter : ℕ) (b0 b : ℝ) {xic0 : Option (List ℝ)} (hxic : ∀ l ∈ xic0, l.length = 6) (R0 V0 ag : Fin 3 → ℝ) (Gam : ℝ)
    {fuel : ℕ} (hfuel : maxIter + 2 ≤ fuel) :
    ∃ (stfc ctfc : Utfc) (v : View String) (it : ℕ) (vs : ℕ → View String) (sts : ℕ → PState 6 1),
      utfcInit N (.int 0) ms "CP" (some (-1)) (some 1) "C++" wt bt = .ok stfc ∧
      utfcInit N (.int 0) 1 "CP" (some (-1)) (some 1) "C++" wt' bt' = .ok ctfc ∧
      runSpecScaled lib N ms tol maxIter b0 b xic0 R0 V0 ag Gam wt bt wt' bt' fuel = .ok (some (v, (it : ℤ))) ∧
      SysRun (specSys stfc ctfc R0 V0 ag Gam) (specXi stfc ctfc xic0 b) tol maxIter v it vs sts ∧
      ((sts 0).num 0 = b ∧ (∀ i x, (sts 0).free (posIx i) x = 0) ∧
        ∀ (i : Fin 3) x, (sts 0).free (lamIx i) x = (xic0.getD []).getD i 0 + (xic0.getD []).getD (3 + i) 0 * x) ∧
      (∀ k ≤ it, (sts k).num 0 ≠ 0 →
        ((∀ E ∈ (specSys stfc ctfc R0 V0 ag Gam).eqs, ∀ x ∈ E.pts, ∀ o, sysMiss (specSys stfc ctfc R0 V0 ag Gam) (sts k) E x o = 0) ↔
          LeastEnergy R0 V0 ag (2 / (sts k).num 0 ^ 2) (specPath (sts k)) ∧
          (∀ i t, (sts k).free (lamIx i) ((sts k).num 0 ^ 2 * t - 1) = ag i - deriv (deriv (specPath (sts k) i)) t) ∧
          deriv (leastCost R0 V0 ag Gam) (2 / (sts k).num 0 ^ 2) = 0) ∧
        ((∀ E ∈ (specSys stfc ctfc R0 V0 ag Gam).eqs, ∀ x ∈ E.pts, ∀ o, |sysMiss (specSys stfc ctfc R0 V0 ag Gam) (sts k) E x o| ≤ tol) →
          ∀ i, |specPath (sts k) i 0 - R0 i| ≤ tol ∧ |deriv (specPath (sts k) i) 0 - V0 i| ≤ tol ∧ |specPath (sts k) i (2 / (sts k).num 0 ^ 2)| ≤ tol ∧
            |deriv (specPath (sts k) i) (2 / (sts k).num 0 ^ 2)| ≤ tol) ∧
        (k < it → slopeOf ag (sts k) ≠ 0 → ∀ E ∈ (specSys stfc ctfc R0 V0 ag Gam).eqs, ∀ x ∈ E.pts, ∀ o,
          sysLin (specSys stfc ctfc R0 V0 ag Gam) (sts k) (sts (k + 1)) E x o = 0)) ∧
      ∀ st st' : PState 6 1, (∀ q, ContDiff ℝ ∞ (st.free q)) → st.free = st'.free → ∀ E ∈ (specSys stfc ctfc R0 V0 ag Gam).eqs, ∀ x o,
        sysLin (specSys stfc ctfc R0 V0 ag Gam) (sts 0) st E x o = sysLin (specSys stfc ctfc R0 V0 ag Gam) (sts 0) st' E x o := by
  have hN : 2 ≤ N := by omega
  obtain ⟨stfc, ctfc, hu1, hu2, F⟩ := spec_objects ms hN wt bt wt' bt'
  obtain ⟨kvs, hk⟩ : ∃ kvs, kvs = landUnknowns stfc ctfc [entry1 "b" [b0]] := ⟨_, rfl⟩
  have hprop : ProperUnknowns (.dict .robust kvs) := by
    subst hk
    refine ⟨by simp [landUnknowns], by simp [landUnknowns, entry3, entry1], fun p hp => ?_⟩
    simp only [landUnknowns, List.mem_cons, List.not_mem_nil, or_false] at hp
    rcases hp with rfl | rfl | rfl <;> simp [entry3, entry1]
  have hpos : entries (View.dict .robust kvs) ≠ [] := by
    subst hk
    simp [entries, landUnknowns, entry3, F.cols2]
  have hcl : ∀ l, xic0 = some l → l.length = 6 := fun l hl => hxic l (by rw [hl]; rfl)
  have hgl : (xic0.getD (List.replicate (cols1 ctfc * 3) 0)).length = 6 := by
    cases hx : xic0 with
    | none => simp [F.cols2]
    | some l => simpa using hcl l hx
  have hsame : SameForm (.dict .robust kvs) (specXi stfc ctfc xic0 b) := by
    rw [hk]
    unfold specXi
    generalize xic0.getD (List.replicate (cols1 ctfc * 3) 0) = lc at hgl ⊢
    refine ⟨rfl, ?_⟩
    simp [landUnknowns, entry3, entry1, hgl, F.cols2]
  obtain ⟨nlls, hn1, hn2⟩ := C104_newton_class_from hlib (method := .pinv) (by simp) (specSysIC stfc ctfc) hprop hpos
    [landIC (fun _ => 0) (fun _ => 0) (fun _ => 0) 0] tol htol maxIter true fuel hfuel
  obtain ⟨i1, i2, i3, i4⟩ := ic_single (R0 := R0) (V0 := V0) (ag := ag) Gam
  have hsys : specSysIC stfc ctfc [landIC R0 V0 ag Gam] = specSys stfc ctfc R0 V0 ag Gam := by
    unfold specSysIC
    rw [i1, i2, i3, i4]
  have hne : places (specSys stfc ctfc R0 V0 ag Gam).eqs ≠ [] :=
    List.ne_nil_of_mem (a := (⟨specGoal stfc.z, last stfc.z, (0 : Fin 3)⟩ : Place 6 1)) (mem_places.2 ⟨by rw [specSys_eqs, specEqs_eq]; simp, by simp⟩)
  have hfit : FitsSys (specSys stfc ctfc R0 V0 ag Gam) kvs := by rw [hk]; exact specSys_fits F b0
  obtain ⟨v, it, vs, sts, hrun, hsr⟩ := hn2 [landIC R0 V0 ag Gam] rfl (by rw [hsys]; exact specSys_smooth) (by rw [hsys]; exact hfit)
    (by rw [hsys]; exact hne) nlls.compiled _ hsame
  rw [hsys] at hsr
  have h0 := means_unique hfit (SameForm.trans hsame (hsr.form 0 (by omega))) (hsr.means 0 (by omega))
  rw [hsr.start] at h0
  obtain ⟨lc, hlc⟩ : ∃ lc, lc = xic0.getD (List.replicate (cols1 ctfc * 3) 0) := ⟨_, rfl⟩
  rw [← hlc] at hgl
  have he : entries (specXi stfc ctfc xic0 b) = List.replicate (cols1 stfc * 3) 0 ++ (lc ++ [b]) := by
    rw [hlc]
    simp [specXi, entries, entry3, entry1]
  have hg0 : ∀ i, (sts 0).free (posIx i) = fun _ => 0 := by
    intro i
    rw [h0, he]
    show freeOf ((specSys stfc ctfc R0 V0 ag Gam).funs (posIx i)).obj _ = _
    rw [specSys_funs, specFuns_pos]
    rw [← freeOf_zero stfc]
    refine freeOf_congr _ fun k hk' => ?_
    have hoff : offsetOf kvs "xis" = 0 := by
      simp [hk, landUnknowns, entry3, offsetOf]
    dsimp only
    rw [hoff, zero_add]
    have hi := i.2
    have hk' : k < cols1 stfc := hk'
    rw [coef_append_left, coef_zeros]
    rw [List.length_replicate]
    omega
  refine ⟨stfc, ctfc, v, it, vs, sts, hu1, hu2, ?_, hsr, ⟨?_, fun i x => by rw [hg0], ?_⟩, ?_, ?_⟩
  · unfold runSpecScaled
    rw [hu1, hu2]
    simp only [bind, Except.bind, zerosOf_value F.ready1, zerosOf_value F.ready2, mul_one]
    rw [hk] at hn1
    simp only [landUnknowns] at hn1
    rw [hn1]
    dsimp only
    show (nlls.run (specXi stfc ctfc xic0 b) _ fuel).1 = _
    rw [hrun]
  · rw [h0, he]
    show coef _ (offsetOf _ ((specSys stfc ctfc R0 V0 ag Gam).names 0)) = b
    rw [hk, specSys_offset F b0 0]
    have h1 := coef_append_right (List.replicate (cols1 stfc * 3) (0 : ℝ)) (lc ++ [b]) (6 + 0)
    have h2 := coef_append_right lc [b] 0
    rw [List.length_replicate] at h1
    rw [hgl] at h2
    rw [h1, h2]
    rfl
  · intro i x
    rw [h0, he]
    show freeOf ((specSys stfc ctfc R0 V0 ag Gam).funs (lamIx i)).obj _ x = _
    rw [specSys_funs, specFuns_lam]
    have hoff : offsetOf kvs "xic" = cols1 stfc * 3 := by
      simp [hk, landUnknowns, entry3, entry1, offsetOf]
    dsimp only
    rw [F.line, hoff]
    dsimp only
    have h1 := fun k => coef_append_right (List.replicate (cols1 stfc * 3) (0 : ℝ)) (lc ++ [b]) k
    rw [List.length_replicate] at h1
    have hi := i.2
    rw [h1, h1, coef_append_left (by omega), coef_append_left (by omega)]
    have hco : ∀ k < 6, coef lc k = (xic0.getD []).getD k 0 := by
      intro k hk
      rw [hlc]
      cases xic0 with
      | none => simp [coef_replicate]
      | some l => rfl
    rw [hco _ (by omega), hco _ (by omega)]
    simp
  · intro k hki hb
    have hmeans := hsr.means k hki
    obtain ⟨g1, g2⟩ := spec_state F specSys_funs (hk ▸ hfit) (hk ▸ SameForm.trans hsame (hsr.form k hki)) hmeans
    refine ⟨spec_single_solved F h3 hms hmeans.smooth g1 g2 hb, fun hd i => ?_, fun hlt hK => spec_step F h3 (hk ▸ hsame) hsr hlt hb hK⟩
    rw [specSys_eqs, specEqs_eq] at hd
    have a2 := hd (specStart stfc.z R0) (by simp) (-1) (by simp [F.left]) i
    have a3 := hd (specSpeed stfc.z V0 fun s => s 0 ^ 2) (by simp) (-1) (by simp [F.left]) i
    have a4 := hd (specGoal stfc.z) (by simp) 1 (by simp [F.right]) i
    have a5 := hd (specRest stfc.z fun s => s 0 ^ 2) (by simp) 1 (by simp [F.right]) i
    rw [specStart_miss specSys_funs] at a2
    rw [specSpeed_miss specSys_funs, iteratedDeriv_one] at a3
    rw [specGoal_miss specSys_funs] at a4
    rw [specRest_miss specSys_funs, iteratedDeriv_one] at a5
    have hd1 : deriv (specPath (sts k) i) = fun t => (sts k).num 0 ^ 2 * deriv ((sts k).free (posIx i)) ((sts k).num 0 ^ 2 * t - 1) :=
      (clock_deriv (hmeans.smooth (posIx i)) _).1
    have e0 : (sts k).num 0 ^ 2 * 0 - 1 = -1 := by ring
    have e1 : (sts k).num 0 ^ 2 * (2 / (sts k).num 0 ^ 2) - 1 = 1 := by field_simp; norm_num
    rw [hd1]
    unfold specPath
    dsimp only
    rw [e0, e1]
    exact ⟨a2, a3, a4, a5⟩
  · intro st st' hs hff E hE x o
    have hs' : ∀ q, ContDiff ℝ ∞ (st'.free q) := by rw [← hff]; exact hs
    have hs0 := (hsr.means 0 (by omega)).smooth
    have z1 : ∀ i x, iteratedDeriv 1 ((sts 0).free (posIx i)) x = 0 := fun i x => by rw [hg0, iteratedDeriv_one]; simp
    have z2 : ∀ i x, iteratedDeriv 2 ((sts 0).free (posIx i)) x = 0 := fun i x => by rw [hg0, iteratedDeriv_succ, iteratedDeriv_one]; simp
    rw [specSys_eqs, specEqs_eq] at hE
    simp only [List.cons_append, List.nil_append, List.mem_cons, List.not_mem_nil, or_false] at hE
    rcases hE with rfl | rfl | rfl | rfl | rfl | rfl
    · change Fin 3 at o
      rw [specMotion_lin hs0 hs, specMotion_lin hs0 hs', z2, hff]
      ring
    · change Fin 3 at o
      rw [specStart_lin, specStart_lin, hff]
    · change Fin 3 at o
      rw [specSpeed_lin hs0 hs, specSpeed_lin hs0 hs', z1, hff]
      ring
    · change Fin 3 at o
      rw [specGoal_lin, specGoal_lin, hff]
    · change Fin 3 at o
      rw [specRest_lin hs0 hs, specRest_lin hs0 hs', z1, hff]
      ring
    · change Fin 1 at o
      rw [specClock_lin hs0 hs, specClock_lin hs0 hs']
      simp only [z1, hff, mul_zero, sub_zero]

/-- **C110, the solution is among the dictionaries.** For every duration at which the derivative of the least cost vanishes there is a dictionary of the form of the
programs' unknowns for which all rows vanish. -/
theorem C110_single_reach {N ms : ℕ} (h3 : 3 ≤ ms) (hms : ms < N) {wt bt wt' bt' : ℕ → ℝ} {stfc ctfc : Utfc}
    (hu1 : utfcInit N (.int 0) ms "CP" (some (-1)) (some 1) "C++" wt bt = .ok stfc)
    (hu2 : utfcInit N (.int 0) 1 "CP" (some (-1)) (some 1) "C++" wt' bt' = .ok ctfc) (R0 V0 ag : Fin 3 → ℝ) (Gam b : ℝ) {T : ℝ} (hT : 0 < T)
    (hd : deriv (leastCost R0 V0 ag Gam) T = 0) :
    ∃ v st, SameForm (specXi stfc ctfc none b) v ∧ Means (specSys stfc ctfc R0 V0 ag Gam) v st ∧ 2 / st.num 0 ^ 2 = T ∧
      ∀ E ∈ (specSys stfc ctfc R0 V0 ag Gam).eqs, ∀ x ∈ E.pts, ∀ o, sysMiss (specSys stfc ctfc R0 V0 ag Gam) st E x o = 0 := by
  have hN : 2 ≤ N := by omega
  obtain ⟨stfc', ctfc', hu1', hu2', F⟩ := spec_objects ms hN wt bt wt' bt'
  obtain rfl : stfc' = stfc := by rw [hu1] at hu1'; exact (Except.ok.inj hu1').symm
  obtain rfl : ctfc' = ctfc := by rw [hu2] at hu2'; exact (Except.ok.inj hu2').symm
  have hfit := specSys_fits (R0 := R0) (V0 := V0) (ag := ag) (Gam := Gam) F b
  have hk0 : 2 / T ≠ 0 := by positivity
  obtain ⟨v, st, h1, h2, h4, h5⟩ := spec_dict F h3 (S := specSys stfc' ctfc' R0 V0 ag Gam) specSys_funs hfit .robust R0 V0 ag hk0 [Real.sqrt (2 / T)]
    (by simp [entries, entry1])
  have hnum : st.num 0 ^ 2 = 2 / T := by
    rw [h5 0 0 (specSys_offset F b 0)]
    show Real.sqrt (2 / T) ^ 2 = _
    exact Real.sq_sqrt (by positivity)
  have hb : st.num 0 ≠ 0 := by
    intro h
    rw [h] at hnum
    norm_num at hnum
    exact hk0 hnum.symm
  have hTT : 2 / (2 / T) = T := two_div hT
  obtain ⟨g1, g2⟩ := spec_state F specSys_funs hfit h1 h2
  refine ⟨v, st, h1, h2, by rw [hnum, hTT], (spec_single_solved F h3 hms h2.smooth g1 g2 hb).2 ?_⟩
  have hback : ∀ t, (2 / T * t - 1 + 1) / (2 / T) = t := fun t => cubic_back hT t
  rw [hTT] at h4
  have hX : specPath st = fun i => landPath (R0 i) (V0 i) T := by
    funext i t
    unfold specPath
    rw [hnum, (h4 i).1, hback]
  rw [hX, hnum, hTT]
  exact ⟨C105_least R0 V0 ag hT, fun i t => by rw [(h4 i).2, hback], hd⟩

/-- A case: for a landing from height 1 at rest with gravity 1 there is such a duration. -/
example : ∃ T, 0 < T ∧ deriv (leastCost ![0, 0, 1] (fun _ => 0) ![0, 0, -1] 0) T = 0 := by
  obtain ⟨T, hT, -, h⟩ := C105_best ![0, 0, 1] (fun _ => 0) ![0, 0, -1] 0 ⟨2, by simp⟩ (by simp [Fin.sum_univ_three])
  exact ⟨T, hT, by rw [(C105_time _ _ _ _ hT).2.deriv]; exact h⟩

end Verif.Props
