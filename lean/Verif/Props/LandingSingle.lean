import Verif.Props.LandingInner

/-!
# The programs for the landing with least energy that solve for the motion and the time at once
-/

namespace Verif.Props

open Set Polynomial Verif Verif.Mem Verif.Py Verif.Np Verif.Spec Verif.Model Verif.Model.Py Verif.Model.LSq Verif.Model.Prog Verif.Model.Dict
  Verif.Lemmas.LSq
open scoped ContDiff

variable {stfc ctfc : Utfc} {R0 V0 ag : Fin 3 → ℝ} {Gam : ℝ}

/-- The equation of motion of the programs. -/
noncomputable abbrev landMotion (stfc : Utfc) (ag : Fin 3 → ℝ) : PEqn 6 1 :=
  ⟨stfc.z, 6, landTerms, here, 3, fun _ J s i => s 0 ^ 4 * J (posIx i) - ag i + J (lamIx i)⟩

/-- The equation for the time of the programs. -/
noncomputable abbrev landClock (stfc : Utfc) (ag : Fin 3 → ℝ) (Gam : ℝ) : PEqn 6 1 :=
  ⟨[last stfc.z], 3, fun i => (lamIx i, 0), here, 1, fun _ J _ _ => landHtf ag Gam J⟩

theorem land_eqs (stfc ctfc : Utfc) (R0 V0 ag : Fin 3 → ℝ) (Gam : ℝ) :
    (landSys stfc ctfc R0 V0 ag Gam).eqs = [landMotion stfc ag, landClock stfc ag Gam] := rfl

theorem land_funs (stfc ctfc : Utfc) (R0 V0 ag : Fin 3 → ℝ) (Gam : ℝ) :
    (landSys stfc ctfc R0 V0 ag Gam).funs = landFuns stfc ctfc R0 fun i s => V0 i / s 0 ^ 2 := rfl

theorem motion_miss {N ms : ℕ} (F : LandFit N ms stfc ctfc) {st : PState 6 1} (hst : ∀ q, ContDiff ℝ ∞ (st.free q)) (x : ℝ) (i : Fin 3) :
    sysMiss (landSys stfc ctfc R0 V0 ag Gam) st (landMotion stfc ag) x i =
      st.num 0 ^ 4 * (landA (st.free (posIx i)) x + 3 / 2 * x * R0 i) + st.num 0 ^ 2 * ((3 * x - 1) / 2 * V0 i) - ag i + st.free (lamIx i) x := by
  show st.num 0 ^ 4 * sysJet _ _ _ _ _ - _ + sysJet _ _ _ _ _ = _
  simp only [sysJet, landMotion, here]
  rw [landTerms_pos, landTerms_lam, iteratedDeriv_zero, land_lam (land_funs _ _ _ _ _ _), land_pos2 F (land_funs _ _ _ _ _ _) hst]
  rcases eq_or_ne (st.num 0) 0 with h | h
  · rw [h]; simp
  · field_simp

theorem clock_miss {N ms : ℕ} (F : LandFit N ms stfc ctfc) (st : PState 6 1) (o : Fin 1) :
    sysMiss (landSys stfc ctfc R0 V0 ag Gam) st (landClock stfc ag Gam) 1 o = landHtf ag Gam fun i => st.free (lamIx i) 1 := by
  show landHtf ag Gam (sysJet (landSys stfc ctfc R0 V0 ag Gam) st (landClock stfc ag Gam) 1) = _
  congr 1
  funext i
  change Fin 3 at i
  simp only [sysJet, landClock, here]
  rw [iteratedDeriv_zero, land_lam (land_funs _ _ _ _ _ _)]

theorem motion_lin {N ms : ℕ} (F : LandFit N ms stfc ctfc) {st st' : PState 6 1} (hst : ∀ q, ContDiff ℝ ∞ (st.free q))
    (hst' : ∀ q, ContDiff ℝ ∞ (st'.free q)) (x : ℝ) (i : Fin 3) :
    sysLin (landSys stfc ctfc R0 V0 ag Gam) st st' (landMotion stfc ag) x i =
      st.num 0 ^ 4 * landA (st'.free (posIx i)) x + 4 * st.num 0 ^ 3 * (st'.num 0 - st.num 0) * landA (st.free (posIx i)) x +
        3 / 2 * x * R0 i * (st.num 0 ^ 4 + 4 * st.num 0 ^ 3 * (st'.num 0 - st.num 0)) +
        (3 * x - 1) / 2 * V0 i * (st.num 0 ^ 2 + 2 * st.num 0 * (st'.num 0 - st.num 0)) - ag i + st'.free (lamIx i) x := by
  unfold sysLin
  have e : (fun r : ℝ => sysMiss (landSys stfc ctfc R0 V0 ag Gam) (st.toward st' r) (landMotion stfc ag) x i) = fun r : ℝ =>
      (st.num 0 + r * (st'.num 0 - st.num 0)) ^ 4 *
        ((landA (st.free (posIx i)) x + 3 / 2 * x * R0 i) + r * (landA (st'.free (posIx i)) x - landA (st.free (posIx i)) x)) +
      (st.num 0 + r * (st'.num 0 - st.num 0)) ^ 2 * ((3 * x - 1) / 2 * V0 i) - ag i +
      (st.free (lamIx i) x + r * (st'.free (lamIx i) x - st.free (lamIx i) x)) := by
    funext r
    rw [motion_miss F (toward_smooth hst hst' r), landA_toward hst hst']
    simp only [PState.toward]
    ring
  rw [e, motion_miss F hst]
  generalize landA (st.free (posIx i)) x = a
  generalize landA (st'.free (posIx i)) x = a'
  generalize st.free (lamIx i) x = l
  generalize st'.free (lamIx i) x = l'
  generalize st.num 0 = b
  generalize st'.num 0 - b = d
  have hd : ∀ u w : ℝ, HasDerivAt (fun r : ℝ => u + r * w) w 0 := fun u w =>
    (((hasDerivAt_id (0 : ℝ)).mul_const w).const_add u).congr_deriv (by simp)
  have h := ((((((hd b d).pow 4).mul (hd (a + 3 / 2 * x * R0 i) (a' - a))).add (((hd b d).pow 2).mul_const ((3 * x - 1) / 2 * V0 i))).sub_const (ag i)).add
    (hd l (l' - l))).deriv
  refine Eq.trans (congrArg (fun t => _ + t) h) ?_
  simp
  ring

theorem clock_lin {N ms : ℕ} (F : LandFit N ms stfc ctfc) (st st' : PState 6 1) (o : Fin 1) :
    sysLin (landSys stfc ctfc R0 V0 ag Gam) st st' (landClock stfc ag Gam) 1 o =
      landHtf ag Gam (fun i => st.free (lamIx i) 1) + ∑ i, (ag i - st.free (lamIx i) 1) * (st'.free (lamIx i) 1 - st.free (lamIx i) 1) := by
  unfold sysLin
  rw [clock_miss F]
  congr 1
  have e : (fun r : ℝ => sysMiss (landSys stfc ctfc R0 V0 ag Gam) (st.toward st' r) (landClock stfc ag Gam) 1 o) = fun r : ℝ =>
      (∑ i, (st.free (lamIx i) 1 + r * (st'.free (lamIx i) 1 - st.free (lamIx i) 1)) *
        (-1 / 2 * (st.free (lamIx i) 1 + r * (st'.free (lamIx i) 1 - st.free (lamIx i) 1)) + ag i)) + Gam := by
    funext r
    rw [clock_miss F]
    rfl
  rw [e]
  have hd : ∀ u w : ℝ, HasDerivAt (fun r : ℝ => u + r * w) w 0 := fun u w =>
    (((hasDerivAt_id (0 : ℝ)).mul_const w).const_add u).congr_deriv (by simp)
  refine ((HasDerivAt.fun_sum fun i _ => (hd (st.free (lamIx i) 1) (st'.free (lamIx i) 1 - st.free (lamIx i) 1)).mul
    (((hd (st.free (lamIx i) 1) (st'.free (lamIx i) 1 - st.free (lamIx i) 1)).const_mul (-1 / 2)).add_const (ag i))).add_const Gam).deriv.trans ?_
  refine Finset.sum_congr rfl fun i _ => ?_
  simp
  ring

theorem single_regular {st : PState 6 1} (hb : st.num 0 ≠ 0) : Regular (landSys stfc ctfc R0 V0 ag Gam) st := by
  refine ⟨?_, ?_⟩
  · intro q d hd
    rw [land_funs] at hd
    rcases six_cases q with ⟨i, rfl⟩ | ⟨i, rfl⟩
    · rw [landFuns_pos] at hd
      simp only [List.mem_cons, List.not_mem_nil, or_false] at hd
      rcases hd with rfl | rfl | rfl | rfl
      · fun_prop
      · fun_prop
      · show DifferentiableAt ℝ (fun s : Fin 1 → ℝ => V0 i / s 0 ^ 2) st.num
        have h0 : st.num 0 ^ 2 ≠ 0 := pow_ne_zero 2 hb
        fun_prop (disch := exact h0)
      · fun_prop
    · rw [landFuns_lam] at hd
      simp at hd
  · intro E hE x _ o
    rw [land_eqs] at hE
    simp only [List.mem_cons, List.not_mem_nil, or_false] at hE
    rcases hE with rfl | rfl
    · simp only [landMotion]
      fun_prop
    · simp only [landClock, landHtf]
      fun_prop

theorem single_smooth : SmoothSys (landSys stfc ctfc R0 V0 ag Gam) := by
  refine land_smooth (land_funs _ _ _ _ _ _) fun E hE i => ?_
  rw [land_eqs] at hE
  simp only [List.mem_cons, List.not_mem_nil, or_false] at hE
  rcases hE with rfl | rfl
  · exact landTerms_le i
  · simp [landClock]

theorem single_fits {N ms : ℕ} (F : LandFit N ms stfc ctfc) (b : ℝ) :
    FitsSys (landSys stfc ctfc R0 V0 ag Gam) (landUnknowns stfc ctfc [entry1 "b" [b]]) := by
  refine land_fits F (land_funs _ _ _ _ _ _) (by simp [landUnknowns, entry3, entry1]) (fun i => ?_) fun i => ?_
  · fin_cases i
    simp [landSys, landUnknowns, entry3, entry1]
  · fin_cases i
    simp [landSys, landUnknowns, entry3, entry1, sizeOfKey]

theorem single_offset {N ms : ℕ} (F : LandFit N ms stfc ctfc) (b : ℝ) (i : Fin 1) :
    offsetOf (landUnknowns stfc ctfc [entry1 "b" [b]]) ((landSys stfc ctfc R0 V0 ag Gam).names i) = cols1 stfc * 3 + (6 + 0) := by
  fin_cases i
  simp [landSys, landUnknowns, entry3, entry1, offsetOf, F.cols2]

theorem landA_zero {g : ℝ → ℝ} (hg : ContDiff ℝ ∞ g) (h : ∀ x, landHom g x = 0) (x : ℝ) : landA g x = 0 := by
  have h1 := (landHom_deriv2 (contDiff_infty.1 hg 2) x).deriv
  have h2 : landHom g = fun _ => 0 := funext h
  rw [h2] at h1
  rw [← h1]
  simp

/-- One step from a cubic. -/
theorem single_step {N ms : ℕ} (F : LandFit N ms stfc ctfc) (hN : 2 ≤ N) (hms : ms ≤ N + 1) {cls : DictClass} {b0 : ℝ} {v : View String} {tol : ℝ}
    {maxIter it : ℕ} {vs : ℕ → View String} {sts : ℕ → PState 6 1} {z : View String}
    (hsame : SameForm (.dict cls (landUnknowns stfc ctfc [entry1 "b" [b0]])) z)
    (h : SysRun (landSys stfc ctfc R0 V0 ag Gam) z tol maxIter v it vs sts) {j : ℕ} (hj : j < it)
    {b : ℝ} (hbe : (sts j).num 0 = b) (hb : b ≠ 0) (hA : ∀ i x, landHom ((sts j).free (posIx i)) x = 0) {l : Fin 3 → ℝ}
    (hl : ∀ i, (sts j).free (lamIx i) 1 = l i) (hK : ∑ i, (ag i - l i) * (6 * b ^ 3 * R0 i + 2 * b * V0 i) ≠ 0) :
    ∃ d, (sts (j + 1)).num 0 = b + d ∧ (∀ i x, landHom ((sts (j + 1)).free (posIx i)) x = 0) ∧
      (∀ i x, (sts (j + 1)).free (lamIx i) x =
        ag i - (3 / 2 * x * R0 i * (b ^ 4 + 4 * b ^ 3 * d) + (3 * x - 1) / 2 * V0 i * (b ^ 2 + 2 * b * d))) ∧
      landHtf ag Gam l + ∑ i, (ag i - l i) * ((sts (j + 1)).free (lamIx i) 1 - l i) = 0 := by
  have hfit := single_fits (R0 := R0) (V0 := V0) (ag := ag) (Gam := Gam) F b0
  have hst : ∀ j ≤ it, sts j = stateOf (landSys stfc ctfc R0 V0 ag Gam) (landUnknowns stfc ctfc [entry1 "b" [b0]]) (coef (entries (vs j))) :=
    fun j hj => means_unique hfit (SameForm.trans hsame (h.form j hj)) (h.means j hj)
  have hs1 := (h.means j hj.le).smooth
  have hs2 := (h.means (j + 1) hj).smooth
  have hA' : ∀ i x, landA ((sts j).free (posIx i)) x = 0 := fun i x => landA_zero (hs1 _) (hA i) x
  obtain ⟨d0, hd0⟩ : ∃ d0, landHtf ag Gam l + ∑ i, (ag i - l i) * (ag i - (3 / 2 * R0 i * b ^ 4 + V0 i * b ^ 2) - l i) =
      d0 * ∑ i, (ag i - l i) * (6 * b ^ 3 * R0 i + 2 * b * V0 i) := ⟨_, (div_mul_cancel₀ _ hK).symm⟩
  obtain ⟨v', st', hv', hm', p1, p2, p3⟩ := land_reach F (land_funs stfc ctfc R0 V0 ag Gam) hfit cls
    (fun i => ag i + 1 / 2 * V0 i * (b ^ 2 + 2 * b * d0))
    (fun i => -(3 / 2 * R0 i * (b ^ 4 + 4 * b ^ 3 * d0) + 3 / 2 * V0 i * (b ^ 2 + 2 * b * d0))) [b + d0] (by simp [entries, entry1])
  have hnum : st'.num 0 = b + d0 := by
    rw [p3 0 0 (single_offset F b0 0)]
    rfl
  have hz : ∀ E ∈ (landSys stfc ctfc R0 V0 ag Gam).eqs, ∀ x ∈ E.pts, ∀ o, sysLin (landSys stfc ctfc R0 V0 ag Gam) (sts j) st' E x o = 0 := by
    intro E hE x hx o
    rw [land_eqs] at hE
    simp only [List.mem_cons, List.not_mem_nil, or_false] at hE
    rcases hE with rfl | rfl
    · change Fin 3 at o
      refine (motion_lin F hs1 hm'.smooth x o).trans ?_
      rw [p1, p2, hnum, hbe, hA']
      simp only [landA, deriv_const']
      ring
    · have hx1 : x = 1 := by
        have : x = last stfc.z := by simpa [landClock] using hx
        rw [this, F.right]
      subst hx1
      refine (clock_lin F (sts j) st' o).trans ?_
      simp only [hl, p2]
      have e : ∑ i, (ag i - l i) * (ag i + 1 / 2 * V0 i * (b ^ 2 + 2 * b * d0) +
          -(3 / 2 * R0 i * (b ^ 4 + 4 * b ^ 3 * d0) + 3 / 2 * V0 i * (b ^ 2 + 2 * b * d0)) * 1 - l i) =
          ∑ i, (ag i - l i) * (ag i - (3 / 2 * R0 i * b ^ 4 + V0 i * b ^ 2) - l i) - d0 * ∑ i, (ag i - l i) * (6 * b ^ 3 * R0 i + 2 * b * V0 i) := by
        rw [Finset.mul_sum, ← Finset.sum_sub_distrib]
        refine Finset.sum_congr rfl fun i _ => ?_
        ring
      rw [e]
      linarith
  have hex := step_exact h hj (single_regular (by rw [hbe]; exact hb)) (SameForm.trans (SameForm.symm hsame) hv') hm' hz
  refine ⟨(sts (j + 1)).num 0 - b, by ring, ?_⟩
  generalize hd : (sts (j + 1)).num 0 - b = d
  have hcl := hex (landClock stfc ag Gam) (by rw [land_eqs]; simp) 1 (by simp [landClock, F.right]) (0 : Fin 1)
  rw [clock_lin F] at hcl
  simp only [hl] at hcl
  have hmo : ∀ i, (∀ x, landHom ((sts (j + 1)).free (posIx i)) x = 0) ∧ ∀ x, (sts (j + 1)).free (lamIx i) x =
        ag i - (3 / 2 * x * R0 i * (b ^ 4 + 4 * b ^ 3 * d) + (3 * x - 1) / 2 * V0 i * (b ^ 2 + 2 * b * d)) := by
    intro i
    obtain ⟨l0, l1, hll⟩ : ∃ l0 l1 : ℝ, (sts (j + 1)).free (lamIx i) = fun x => l0 + l1 * x := by
      rw [hst (j + 1) hj]
      obtain ⟨cc, hcc⟩ := state_free (landSys stfc ctfc R0 V0 ag Gam) (landUnknowns stfc ctfc [entry1 "b" [b0]]) (coef (entries (vs (j + 1)))) (lamIx i)
      have ho : ((landSys stfc ctfc R0 V0 ag Gam).funs (lamIx i)).obj = ctfc := by rw [land_funs, landFuns_lam]
      rw [ho] at hcc
      exact ⟨_, _, hcc.trans (F.line cc)⟩
    have hpts : ∀ x ∈ stfc.z, landA ((sts (j + 1)).free (posIx i)) x + ((l0 - ag i - 1 / 2 * V0 i * (b ^ 2 + 2 * b * d)) / b ^ 4 +
        (l1 + 3 / 2 * R0 i * (b ^ 4 + 4 * b ^ 3 * d) + 3 / 2 * V0 i * (b ^ 2 + 2 * b * d)) / b ^ 4 * x) = 0 := by
      intro x hx
      have := hex (landMotion stfc ag) (by rw [land_eqs]; simp) x hx i
      rw [motion_lin F hs1 hs2, hA', hbe, hd, hll] at this
      have h2 : b ^ 4 * (landA ((sts (j + 1)).free (posIx i)) x + ((l0 - ag i - 1 / 2 * V0 i * (b ^ 2 + 2 * b * d)) / b ^ 4 +
        (l1 + 3 / 2 * R0 i * (b ^ 4 + 4 * b ^ 3 * d) + 3 / 2 * V0 i * (b ^ 2 + 2 * b * d)) / b ^ 4 * x)) = 0 := by
        rw [← this]
        field_simp
        ring
      exact (mul_eq_zero.1 h2).resolve_left (pow_ne_zero 4 hb)
    obtain ⟨r1, r2, r3⟩ := landHom_zero F hN hms (g := (sts (j + 1)).free (posIx i)) (by
      rw [hst (j + 1) hj]
      show freeOf ((landSys stfc ctfc R0 V0 ag Gam).funs (posIx i)).obj _ = _
      rw [land_funs, landFuns_pos]) hpts
    refine ⟨r1, fun x => ?_⟩
    have e0 := (div_eq_zero_iff.1 r2).resolve_right (pow_ne_zero 4 hb)
    have e1 := (div_eq_zero_iff.1 r3).resolve_right (pow_ne_zero 4 hb)
    rw [hll]
    have e0' : l0 = ag i + 1 / 2 * V0 i * (b ^ 2 + 2 * b * d) := by linarith
    have e1' : l1 = -(3 / 2 * R0 i * (b ^ 4 + 4 * b ^ 3 * d) + 3 / 2 * V0 i * (b ^ 2 + 2 * b * d)) := by linarith
    rw [e0', e1']
    ring
  exact ⟨fun i => (hmo i).1, fun i => (hmo i).2, hcl⟩

/-- The unknowns at the start of the programs. -/
def landStart (stfc ctfc : Utfc) (b : ℝ) : View String := .dict .robust (landUnknowns stfc ctfc [entry1 "b" [b]])

theorem ic_single (Gam : ℝ) : icVec [landIC R0 V0 ag Gam] "R0" = R0 ∧ icVec [landIC R0 V0 ag Gam] "V0" = V0 ∧
    icVec [landIC R0 V0 ag Gam] "ag" = ag ∧ icNum [landIC R0 V0 ag Gam] "Gam" = Gam := by
  refine ⟨?_, ?_, ?_, ?_⟩
  · funext i; fin_cases i <;> simp [icVec, landIC, lookUp, icEntry, entry1, orEmpty]
  · funext i; fin_cases i <;> simp [icVec, landIC, lookUp, icEntry, entry1, orEmpty]
  · funext i; fin_cases i <;> simp [icVec, landIC, lookUp, icEntry, entry1, orEmpty]
  · simp [icNum, landIC, lookUp, icEntry, entry1, orEmpty]

theorem single_run {lib : LinAlg} (hlib : LinAlgCorrect lib) {N ms : ℕ} (hN : 2 ≤ N) (h4 : 4 ≤ ms) (wt bt wt' bt' : ℕ → ℝ) {tol : ℝ} (htol : tol < 1)
    (maxIter : ℕ) (b : ℝ) (R0 V0 ag : Fin 3 → ℝ) (Gam : ℝ) {fuel : ℕ} (hfuel : maxIter + 2 ≤ fuel) :
    ∃ (stfc ctfc : Utfc) (v : View String) (it : ℕ) (vs : ℕ → View String) (sts : ℕ → PState 6 1), utfcInit N (.int 4) ms "CP" (some (-1)) (some 1) "C++" wt bt = .ok stfc ∧
      utfcInit N (.int 0) 1 "CP" (some (-1)) (some 1) "C++" wt' bt' = .ok ctfc ∧ LandFit N ms stfc ctfc ∧
      runLandingScaled lib N ms tol maxIter b R0 V0 ag Gam wt bt wt' bt' fuel = .ok (some (v, (it : ℤ))) ∧
      SysRun (landSys stfc ctfc R0 V0 ag Gam) (landStart stfc ctfc b) tol maxIter v it vs sts := by
  obtain ⟨stfc, ctfc, hu1, hu2, F⟩ := land_objects hN h4 wt bt wt' bt'
  obtain ⟨kvs, hk⟩ : ∃ kvs, kvs = landUnknowns stfc ctfc [entry1 "b" [b]] := ⟨_, rfl⟩
  have hprop : ProperUnknowns (.dict .robust kvs) := by
    subst hk
    refine ⟨by simp [landUnknowns], by simp [landUnknowns, entry3, entry1], fun p hp => ?_⟩
    simp only [landUnknowns, List.mem_cons, List.not_mem_nil, or_false] at hp
    rcases hp with rfl | rfl | rfl <;> simp [entry3, entry1]
  have hpos : entries (View.dict .robust kvs) ≠ [] := by
    subst hk
    simp [entries, landUnknowns, entry3, F.cols2]
  obtain ⟨nlls, hn1, hn2⟩ := C104_newton_class hlib (method := .pinv) (by simp) (landSysIC stfc ctfc) hprop hpos
    [landIC (fun _ => 0) (fun _ => 0) (fun _ => 0) 0] tol htol maxIter true fuel hfuel
  obtain ⟨i1, i2, i3, i4⟩ := ic_single (R0 := R0) (V0 := V0) (ag := ag) Gam
  have hsys : landSysIC stfc ctfc [landIC R0 V0 ag Gam] = landSys stfc ctfc R0 V0 ag Gam := by
    unfold landSysIC
    rw [i1, i2, i3, i4]
  have hne : places (landSys stfc ctfc R0 V0 ag Gam).eqs ≠ [] :=
    List.ne_nil_of_mem (a := (⟨landMotion stfc ag, (1 : ℝ), (0 : Fin 3)⟩ : Place 6 1)) (mem_places.2 ⟨by rw [land_eqs]; simp, F.ends⟩)
  obtain ⟨v, it, vs, sts, hrun, hsr⟩ := hn2 [landIC R0 V0 ag Gam] rfl (by rw [hsys]; exact single_smooth) (by rw [hsys, hk]; exact single_fits F b)
    (by rw [hsys]; exact hne) nlls.compiled
  rw [hsys] at hsr
  refine ⟨stfc, ctfc, v, it, vs, sts, hu1, hu2, F, ?_, by rw [landStart, ← hk]; exact hsr⟩
  unfold runLandingScaled
  rw [hu1, hu2]
  simp only [bind, Except.bind, zerosOf_value F.ready1, zerosOf_value F.ready2, mul_one]
  rw [hk] at hn1 hrun
  simp only [landUnknowns] at hn1 hrun
  rw [hn1]
  dsimp only
  rw [show nlls.run _ _ fuel = _ from hrun]

/-- The derivative, in the unknown `b`, of the equation for the time with the costate of the cubic, at the costate `l`: the programs can make their step if it is not
zero. -/
noncomputable def landSlope (R0 V0 ag : Fin 3 → ℝ) (b : ℝ) (l : Fin 3 → ℝ) : ℝ := ∑ i, (ag i - l i) * (6 * b ^ 3 * R0 i + 2 * b * V0 i)

theorem cubic_single {b : ℝ} (hb : b ≠ 0) (R V t : ℝ) : (2 - 3 * (b ^ 2 * t - 1) + (b ^ 2 * t - 1) ^ 3) / 4 * R +
    (1 - (b ^ 2 * t - 1) - (b ^ 2 * t - 1) ^ 2 + (b ^ 2 * t - 1) ^ 3) / 4 * (V / b ^ 2) = landPath R V (2 / b ^ 2) t := by
  rw [cubic_eq (pow_ne_zero 2 hb)]
  congr 1
  have : b ^ 2 ≠ 0 := pow_ne_zero 2 hb
  field_simp
  ring

theorem path_end {b : ℝ} (hb : b ≠ 0) (R V : ℝ) : deriv (deriv (landPath R V (2 / b ^ 2))) (2 / b ^ 2) = 3 / 2 * R * b ^ 4 + V * b ^ 2 := by
  rw [landPath_deriv2]
  field_simp
  ring

theorem htf_near {tol : ℝ} {l x : Fin 3 → ℝ} (hm : ∀ i, |l i - (ag i - x i)| ≤ tol) (hc : |landHtf ag Gam l| ≤ tol) :
    |landHtf ag Gam fun i => ag i - x i| ≤ tol * (1 + ∑ i, |x i|) + 3 / 2 * tol ^ 2 := by
  have e : landHtf ag Gam (fun i => ag i - x i) = landHtf ag Gam l - ∑ i, ((l i - (ag i - x i)) * x i - 1 / 2 * (l i - (ag i - x i)) ^ 2) := by
    unfold landHtf
    simp only [Fin.sum_univ_three]
    ring
  have h1 : |∑ i, ((l i - (ag i - x i)) * x i - 1 / 2 * (l i - (ag i - x i)) ^ 2)| ≤ ∑ i, (tol * |x i| + 1 / 2 * tol ^ 2) := by
    refine (Finset.abs_sum_le_sum_abs _ _).trans (Finset.sum_le_sum fun i _ => ?_)
    refine (abs_sub _ _).trans (add_le_add ?_ ?_)
    · rw [abs_mul]
      exact mul_le_mul_of_nonneg_right (hm i) (abs_nonneg _)
    · rw [abs_mul, abs_pow, abs_of_pos (by norm_num : (0 : ℝ) < 1 / 2)]
      exact mul_le_mul_of_nonneg_left (pow_le_pow_left₀ (abs_nonneg _) (hm i) 2) (by norm_num)
  rw [e]
  refine (abs_sub _ _).trans ((add_le_add hc h1).trans (le_of_eq ?_))
  simp only [Fin.sum_univ_three]
  ring

/-- The iterates from any start whose position is the cubic. -/
theorem single_core {N ms : ℕ} (F : LandFit N ms stfc ctfc) (hN : 2 ≤ N) (hms : ms ≤ N + 1) {cls : DictClass} {b0 : ℝ} {v : View String} {tol : ℝ}
    {maxIter it : ℕ} {vs : ℕ → View String} {sts : ℕ → PState 6 1} {z : View String}
    (hsame : SameForm (.dict cls (landUnknowns stfc ctfc [entry1 "b" [b0]])) z)
    (hsr : SysRun (landSys stfc ctfc R0 V0 ag Gam) z tol maxIter v it vs sts) (hg0 : ∀ i, (sts 0).free (posIx i) = fun _ => 0) :
      ∀ k ≤ it, (∀ j < k, (sts j).num 0 ≠ 0 ∧ landSlope R0 V0 ag ((sts j).num 0) (fun i => (sts j).free (lamIx i) 1) ≠ 0) →
        ((sts k).num 0 ≠ 0 → ∃ X, (∀ i t, sysFn (landSys stfc ctfc R0 V0 ag Gam) (sts k) (posIx i) ((sts k).num 0 ^ 2 * t - 1) = X i t) ∧
          LeastEnergy R0 V0 ag (2 / (sts k).num 0 ^ 2) X ∧
          (k = it → (∀ E ∈ (landSys stfc ctfc R0 V0 ag Gam).eqs, ∀ x ∈ E.pts, ∀ o, |sysMiss (landSys stfc ctfc R0 V0 ag Gam) (sts it) E x o| ≤ tol) →
            |deriv (leastCost R0 V0 ag Gam) (2 / (sts k).num 0 ^ 2)| ≤
              tol * (1 + ∑ i, |deriv (deriv (X i)) (2 / (sts k).num 0 ^ 2)|) + 3 / 2 * tol ^ 2)) ∧
        ∀ j < k, (∀ i, (sts (j + 1)).free (lamIx i) 1 = ag i - (3 / 2 * R0 i * (sts j).num 0 ^ 4 + V0 i * (sts j).num 0 ^ 2) -
            (6 * (sts j).num 0 ^ 3 * R0 i + 2 * (sts j).num 0 * V0 i) * ((sts (j + 1)).num 0 - (sts j).num 0)) ∧
          landHtf ag Gam (fun i => (sts j).free (lamIx i) 1) +
            ∑ i, (ag i - (sts j).free (lamIx i) 1) * ((sts (j + 1)).free (lamIx i) 1 - (sts j).free (lamIx i) 1) = 0 := by
  have hcub : ∀ k ≤ it, (∀ j < k, (sts j).num 0 ≠ 0 ∧ landSlope R0 V0 ag ((sts j).num 0) (fun i => (sts j).free (lamIx i) 1) ≠ 0) →
      ∀ i x, landHom ((sts k).free (posIx i)) x = 0 := by
    intro k
    induction k with
    | zero =>
      intro _ _ i x
      rw [hg0]
      simp [landHom]
    | succ k ih =>
      intro hk hall
      obtain ⟨hb, hK⟩ := hall k (by omega)
      obtain ⟨d, -, h2, -⟩ := single_step F hN hms hsame hsr (j := k) (by omega) rfl hb (ih (by omega) fun j hj => hall j (by omega)) (fun i => rfl) hK
      exact h2
  intro k hk hall
  refine ⟨fun hbk => ⟨fun i => landPath (R0 i) (V0 i) (2 / (sts k).num 0 ^ 2), fun i t => ?_, C105_least R0 V0 ag (by positivity), ?_⟩, ?_⟩
  · rw [land_pos F (land_funs _ _ _ _ _ _)]
    beta_reduce
    rw [← cubic_single hbk, hcub k hk hall i]
    ring
  · rintro rfl hdef
    have hT : 0 < 2 / (sts k).num 0 ^ 2 := by positivity
    rw [(C105_time R0 V0 ag Gam hT).2.deriv]
    have hm : ∀ i, |(sts k).free (lamIx i) 1 - (ag i - deriv (deriv (landPath (R0 i) (V0 i) (2 / (sts k).num 0 ^ 2))) (2 / (sts k).num 0 ^ 2))| ≤ tol := by
      intro i
      have := hdef (landMotion stfc ag) (by rw [land_eqs]; simp) 1 F.ends i
      rw [motion_miss F (hsr.means k le_rfl).smooth, landA_zero ((hsr.means k le_rfl).smooth _) (hcub k hk hall i)] at this
      rw [path_end hbk]
      refine le_of_eq_of_le ?_ this
      congr 1
      ring
    have hc := hdef (landClock stfc ag Gam) (by rw [land_eqs]; simp) 1 (by simp [F.right]) (0 : Fin 1)
    rw [clock_miss F] at hc
    exact htf_near hm hc
  · intro j hj
    obtain ⟨hb, hK⟩ := hall j hj
    obtain ⟨d, e1, -, e3, e4⟩ := single_step F hN hms hsame hsr (j := j) (by omega) rfl hb (hcub j (by omega) fun j' hj' => hall j' (by omega)) (fun i => rfl) hK
    refine ⟨fun i => ?_, e4⟩
    rw [e3, e1]
    ring

/-- **C105, motion and time at once.** For every number of points and degree with `4 ≤ ms ≤ N + 1`, every tolerance below 1 and all data: the program
returns the result of a Gauss–Newton iteration for the equation of motion and `Htf`. As long as no earlier step met `b = 0` or a vanishing slope of `Htf`,

* each iterate with `b ≠ 0` stands for the motion with the least energy of all motions of its own duration `2 / b²`,
* each step is Newton's for `b` and the costate at the end: the new costate is the one of the cubic, linearised in `b`, and the linearised `Htf` vanishes,
* if all defects of the last iterate are at most `tol`, the derivative of the least cost with respect to the duration is small at its duration. -/
theorem C105_single {lib : LinAlg} (hlib : LinAlgCorrect lib) {N ms : ℕ} (hN : 2 ≤ N) (h4 : 4 ≤ ms) (hms : ms ≤ N + 1) (wt bt wt' bt' : ℕ → ℝ)
    {tol : ℝ} (htol : tol < 1) (maxIter : ℕ) (b : ℝ) (R0 V0 ag : Fin 3 → ℝ) (Gam : ℝ) {fuel : ℕ} (hfuel : maxIter + 2 ≤ fuel) :
    ∃ (stfc ctfc : Utfc) (v : View String) (it : ℕ) (vs : ℕ → View String) (sts : ℕ → PState 6 1), utfcInit N (.int 4) ms "CP" (some (-1)) (some 1) "C++" wt bt = .ok stfc ∧
      utfcInit N (.int 0) 1 "CP" (some (-1)) (some 1) "C++" wt' bt' = .ok ctfc ∧
      runLandingScaled lib N ms tol maxIter b R0 V0 ag Gam wt bt wt' bt' fuel = .ok (some (v, (it : ℤ))) ∧
      SysRun (landSys stfc ctfc R0 V0 ag Gam) (landStart stfc ctfc b) tol maxIter v it vs sts ∧
      (sts 0).num 0 = b ∧ (∀ i x, (sts 0).free (lamIx i) x = 0) ∧
      ∀ k ≤ it, (∀ j < k, (sts j).num 0 ≠ 0 ∧ landSlope R0 V0 ag ((sts j).num 0) (fun i => (sts j).free (lamIx i) 1) ≠ 0) →
        ((sts k).num 0 ≠ 0 → ∃ X, (∀ i t, sysFn (landSys stfc ctfc R0 V0 ag Gam) (sts k) (posIx i) ((sts k).num 0 ^ 2 * t - 1) = X i t) ∧
          LeastEnergy R0 V0 ag (2 / (sts k).num 0 ^ 2) X ∧
          (k = it → (∀ E ∈ (landSys stfc ctfc R0 V0 ag Gam).eqs, ∀ x ∈ E.pts, ∀ o, |sysMiss (landSys stfc ctfc R0 V0 ag Gam) (sts it) E x o| ≤ tol) →
            |deriv (leastCost R0 V0 ag Gam) (2 / (sts k).num 0 ^ 2)| ≤
              tol * (1 + ∑ i, |deriv (deriv (X i)) (2 / (sts k).num 0 ^ 2)|) + 3 / 2 * tol ^ 2)) ∧
        ∀ j < k, (∀ i, (sts (j + 1)).free (lamIx i) 1 = ag i - (3 / 2 * R0 i * (sts j).num 0 ^ 4 + V0 i * (sts j).num 0 ^ 2) -
            (6 * (sts j).num 0 ^ 3 * R0 i + 2 * (sts j).num 0 * V0 i) * ((sts (j + 1)).num 0 - (sts j).num 0)) ∧
          landHtf ag Gam (fun i => (sts j).free (lamIx i) 1) +
            ∑ i, (ag i - (sts j).free (lamIx i) 1) * ((sts (j + 1)).free (lamIx i) 1 - (sts j).free (lamIx i) 1) = 0 := by
  obtain ⟨stfc, ctfc, v, it, vs, sts, hu1, hu2, F, hrun, hsr⟩ := single_run hlib hN h4 wt bt wt' bt' htol maxIter b R0 V0 ag Gam hfuel
  refine ⟨stfc, ctfc, v, it, vs, sts, hu1, hu2, hrun, hsr, ?_⟩
  have hfit := single_fits (R0 := R0) (V0 := V0) (ag := ag) (Gam := Gam) F b
  have h0 := means_unique hfit (hsr.form 0 (by omega)) (hsr.means 0 (by omega))
  rw [hsr.start] at h0
  have he : entries (landStart stfc ctfc b) = List.replicate (cols1 stfc * 3) 0 ++ (List.replicate 6 0 ++ [b]) := by
    simp [landStart, entries, landUnknowns, entry3, entry1, F.cols2]
  have hb0 : (sts 0).num 0 = b := by
    rw [h0, he]
    show coef _ (offsetOf _ ((landSys stfc ctfc R0 V0 ag Gam).names 0)) = b
    rw [single_offset F b 0]
    have := coef_append_right (List.replicate (cols1 stfc * 3) (0 : ℝ)) (List.replicate 6 0 ++ [b]) (6 + 0)
    rw [List.length_replicate] at this
    rw [this]
    rfl
  have hl0 : ∀ i, (sts 0).free (lamIx i) = fun _ => 0 := by
    intro i
    rw [h0, he]
    show freeOf ((landSys stfc ctfc R0 V0 ag Gam).funs (lamIx i)).obj _ = _
    rw [land_funs, landFuns_lam]
    rw [← freeOf_zero ctfc]
    refine freeOf_congr _ fun k hk => ?_
    have hoff : offsetOf (landUnknowns stfc ctfc [entry1 "b" [b]]) "xic" = cols1 stfc * 3 := by
      simp [landUnknowns, entry3, entry1, offsetOf]
    dsimp only
    rw [hoff]
    have := coef_append_right (List.replicate (cols1 stfc * 3) (0 : ℝ)) (List.replicate 6 0 ++ [b]) (k * 3 + i)
    rw [List.length_replicate] at this
    rw [this, coef_append_left, coef_zeros]
    have hi := i.2
    have hk : k < cols1 ctfc := hk
    rw [F.cols2] at hk
    simp only [List.length_replicate]
    omega
  have hg0 : ∀ i, (sts 0).free (posIx i) = fun _ => 0 := by
    intro i
    rw [h0, he]
    show freeOf ((landSys stfc ctfc R0 V0 ag Gam).funs (posIx i)).obj _ = _
    rw [land_funs, landFuns_pos]
    rw [← freeOf_zero stfc]
    refine freeOf_congr _ fun k hk => ?_
    have hoff : offsetOf (landUnknowns stfc ctfc [entry1 "b" [b]]) "xis" = 0 := by
      simp [landUnknowns, entry3, offsetOf]
    dsimp only
    rw [hoff, zero_add]
    have hi := i.2
    have hk : k < cols1 stfc := hk
    rw [coef_append_left, coef_zeros]
    rw [List.length_replicate]
    omega
  refine ⟨hb0, fun i x => by rw [hl0], ?_⟩
  exact single_core F hN hms (SameForm.refl _) hsr hg0

/-- A case: the numbers of the program, and data for which the slope at the start is not zero, so that the iterate after the first step (if any) is a motion with
least energy if its `b` is not zero. -/
example (wt bt wt' bt' : ℕ → ℝ) : ∃ (lib : LinAlg) (v : View String) (it : ℕ) (sts : ℕ → PState 6 1),
    runLandingScaled lib 100 30 1e-15 50 2 ![1, 0, 1] ![-1, 0, 0] ![0, 0, -1] 0 wt bt wt' bt' 52 = .ok (some (v, (it : ℤ))) ∧
      (1 ≤ it → (sts 1).num 0 ≠ 0 → ∃ X, LeastEnergy ![1, 0, 1] ![-1, 0, 0] ![0, 0, -1] (2 / (sts 1).num 0 ^ 2) X) := by
  obtain ⟨lib, hlib⟩ := Verif.Lemmas.LinAlg.linAlg_exists
  obtain ⟨stfc, ctfc, v, it, vs, sts, -, -, h1, -, h2, h3, h4⟩ := C105_single hlib (N := 100) (ms := 30) (by norm_num) (by norm_num) (by norm_num)
    wt bt wt' bt' (tol := 1e-15) (by norm_num) 50 2 ![1, 0, 1] ![-1, 0, 0] ![0, 0, -1] 0 (fuel := 52) le_rfl
  refine ⟨lib, v, it, sts, h1, fun hit hb => ?_⟩
  obtain ⟨X, -, hX, -⟩ := (h4 1 hit fun j hj => by
    obtain rfl : j = 0 := by omega
    rw [h2]
    refine ⟨two_ne_zero, ?_⟩
    simp only [h3]
    unfold landSlope
    simp [Fin.sum_univ_three]).1 hb
  exact ⟨X, hX⟩

end Verif.Props
