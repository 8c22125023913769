import Verif.Props.FreeSplit

/-!
# C113: the two programs where the point of the split is an unknown, end to end
-/

namespace Verif.Props

open Set Verif Verif.Py Verif.Np Verif.Spec Verif.Model Verif.Model.Py Verif.Model.LSq Verif.Model.Prog Verif.Model.Dict Verif.Lemmas.LSq
open scoped ContDiff Topology

/-! ## The point of the split as a function of its unknown -/

theorem xpBounds_order (Pe : ℝ) : 0 < (xpBounds Pe).1 ∧ (xpBounds Pe).1 < (xpBounds Pe).2 ∧ (xpBounds Pe).2 < 1 := by
  unfold xpBounds
  split_ifs <;> norm_num

theorem splitXp_between (Pe a : ℝ) : 0 < splitXp Pe a ∧ splitXp Pe a < 1 := by
  obtain ⟨b0, b1, b2⟩ := xpBounds_order Pe
  obtain ⟨c1, c2, -⟩ := C78_clamp _ _ a b1.le
  exact ⟨b0.trans_le c1, c2.trans_lt b2⟩

/-- Outside the bounds the point of the split does not depend on the unknown. -/
theorem splitXp_const {Pe a : ℝ} (h : a < (xpBounds Pe).1 ∨ (xpBounds Pe).2 < a) : ∀ᶠ a' in 𝓝 a, splitXp Pe a' = splitXp Pe a := by
  obtain ⟨b0, b1, b2⟩ := xpBounds_order Pe
  rcases h with h | h
  · filter_upwards [Iio_mem_nhds h] with a' ha'
    unfold splitXp
    rw [(C78_clamp _ _ a b1.le).2.2.2.1 h, (C78_clamp _ _ a' b1.le).2.2.2.1 ha']
  · filter_upwards [Ioi_mem_nhds h] with a' ha'
    unfold splitXp
    rw [(C78_clamp _ _ a b1.le).2.2.2.2 h, (C78_clamp _ _ a' b1.le).2.2.2.2 ha']

theorem splitXp_inside {Pe a : ℝ} (h0 : (xpBounds Pe).1 < a) (h1 : a < (xpBounds Pe).2) : DifferentiableAt ℝ (splitXp Pe) a := by
  obtain ⟨-, b1, -⟩ := xpBounds_order Pe
  refine differentiableAt_id.congr_of_eventuallyEq ?_
  filter_upwards [Ioo_mem_nhds h0 h1] with a' ha'
  unfold splitXp
  rw [(C78_clamp _ _ a' b1.le).2.2.1 ha'.1.le ha'.2.le]
  rfl

theorem nlsXp_between {b : ℝ} (hb : b ≠ 0) : 0 < nlsXp b ∧ nlsXp b < 1 := by
  have hpos : 0 < 2 / b ^ 2 := by positivity
  unfold nlsXp
  simp only [add_zero]
  rcases le_or_gt (2 / b ^ 2) (1 - 0.001) with h | h
  · rw [step_nonpos (by linarith)]
    norm_num at h ⊢
    exact ⟨by positivity, by linarith⟩
  · rw [step_pos (by linarith)]
    norm_num

theorem nlsXp_high {b : ℝ} (h : 0.999 < 2 / b ^ 2) : nlsXp b = 0.999 := by
  unfold nlsXp
  simp only [add_zero]
  rw [step_pos (by norm_num at h ⊢; linarith)]
  norm_num

theorem nlsXp_low {b : ℝ} (h : 2 / b ^ 2 < 0.999) : nlsXp b = 2 / b ^ 2 := by
  unfold nlsXp
  simp only [add_zero]
  rw [step_nonpos (by norm_num at h ⊢; linarith)]
  ring

theorem sq_tends {b : ℝ} (hb : b ≠ 0) : ContinuousAt (fun a : ℝ => 2 / a ^ 2) b :=
  continuousAt_const.div (by fun_prop) (pow_ne_zero 2 hb)

theorem nlsXp_const {b : ℝ} (hb : b ≠ 0) (h : 0.999 < 2 / b ^ 2) : ∀ᶠ a in 𝓝 b, nlsXp a = 0.999 := by
  filter_upwards [(sq_tends hb).eventually (Ioi_mem_nhds h)] with a ha
  exact nlsXp_high ha

theorem nlsXp_inside {b : ℝ} (hb : b ≠ 0) (h : 2 / b ^ 2 < 0.999) : DifferentiableAt ℝ nlsXp b := by
  have : DifferentiableAt ℝ (fun a : ℝ => 2 / a ^ 2) b := (differentiableAt_const _).div (by fun_prop) (pow_ne_zero 2 hb)
  refine this.congr_of_eventuallyEq ?_
  filter_upwards [(sq_tends hb).eventually (Iio_mem_nhds h)] with a ha
  exact nlsXp_low ha

/-! ## Once cut off, always cut off -/

/-- **C113, the rest of the run.** If the point of the split is cut off at one step, the unknown never moves again, and every later iterate is the best for
that point of the split. -/
theorem C113_stays {u : Utfc} {key : String} {xpOf : ℝ → ℝ} {Pe : ℝ} {S : PSys 2 3} (hSe : S = freeSplitSys u (-1) 1 key xpOf Pe) {cls : DictClass}
    {kvs : List (String × Arr ℝ)} (hS : FitsSys S kvs) {v : View String} {tol : ℝ} {maxIter it : ℕ} {vs : ℕ → View String} {sts : ℕ → PState 2 3}
    (h : SysRun S (.dict cls kvs) tol maxIter v it vs sts) (hi : offsetOf kvs key < (entries (View.dict cls kvs)).length)
    (hy : offsetOf kvs "y" ≠ offsetOf kvs key) (hyd : offsetOf kvs "yd" ≠ offsetOf kvs key)
    (hx1 : ∀ n < cols1 u, offsetOf kvs "xi1" + n ≠ offsetOf kvs key) (hx2 : ∀ n < cols1 u, offsetOf kvs "xi2" + n ≠ offsetOf kvs key)
    {j : ℕ} {xp : ℝ} (h0 : xp ≠ 0) (h1 : xp ≠ 1) (hc : ∀ᶠ a in 𝓝 ((sts j).num 2), xpOf a = xp) :
    ∀ k, j < k → k ≤ it → (sts k).num 2 = (sts j).num 2 ∧
      ∀ v' st', SameForm (.dict cls kvs) v' → Means S v' st' →
        segSum Pe xp u.z (piece1 (sts k) xp) (piece2 (sts k) xp) ≤ segSum Pe xp u.z (piece1 st' xp) (piece2 st' xp) := by
  intro k hjk
  induction k, hjk using Nat.le_induction with
  | base => exact fun hk => C113_stuck hSe hS h hi hy hyd hx1 hx2 hk h0 h1 hc
  | succ k hjk ih =>
    intro hk
    obtain ⟨e, -⟩ := ih (by omega)
    rw [← e] at hc ⊢
    exact C113_stuck hSe hS h hi hy hyd hx1 hx2 hk h0 h1 hc

/-- The two pieces with the split at `xp` make one function with a continuous derivative, from 1 to 0, and the error is at most the largest residual
divided by the Péclet number. -/
def Joint (Pe xp : ℝ) (y1 y2 : ℝ → ℝ) : Prop :=
  ∃ Y : ℝ → ℝ, Differentiable ℝ Y ∧ Continuous (deriv Y) ∧ Y 0 = 1 ∧ Y 1 = 0 ∧
    (∀ z ∈ Icc (-1 : ℝ) 1, Y (segX1 xp z) = y1 z ∧ Y (segX2 xp z) = y2 z) ∧
    ∀ R, Pe ≠ 0 → (∀ z ∈ Icc (-1 : ℝ) 1, |segResid Pe (segC1 xp) y1 z| ≤ R ∧ |segResid Pe (segC2 xp) y2 z| ≤ R) →
      ∀ x ∈ Icc (0 : ℝ) 1, |Y x - convReal Pe x| ≤ R / |Pe|

theorem joint_pieces {st : PState 2 3} (hst : ∀ q, ContDiff ℝ ∞ (st.free q)) (Pe : ℝ) {xp : ℝ} (h0 : 0 < xp) (h1 : xp < 1) :
    Joint Pe xp (piece1 st xp) (piece2 st xp) := by
  obtain ⟨k1, k2, q1, q2, q3, q4, q5, q6⟩ := piece_ends hst xp
  obtain ⟨Y, Y1, Y2, Y3, Y4, -, -, Y5, Y6⟩ := C112_pieces h0 h1 k1 k2 q1 q2 q3 q4 q5 q6
  exact ⟨Y, Y1, Y2, Y3, Y4, Y5, fun R hP => Y6 Pe R hP⟩

theorem holds_start {cls : DictClass} {kvs : List (String × Arr ℝ)} {S : PSys 2 3} {st : PState 2 3} (hm : Means S (.dict cls kvs) st) (i : Fin 3) {a : ℝ}
    (h : ∀ b : Arr ℝ, (S.names i, b) ∈ kvs → b.data = [a]) : st.num i = a := by
  obtain ⟨l, ⟨c, kv, hkv, b, hb, rfl⟩, e⟩ := hm.num i
  cases hkv
  rw [e, h b hb]
  rfl

/-- **C113, Appendix D end to end.** For all `N ≥ 2`, `m ≥ 3` and all Péclet numbers the program returns after at most 50 steps of the Gauss–Newton iteration,
started with the split parameter 0.99. A step from a parameter strictly between the bounds minimises the linearised residuals. From a parameter outside
the bounds the parameter never moves again, and every later iterate is the best for the split at the bound. Whatever the unknowns, the pieces make one
function with a continuous derivative from 1 to 0, which differs from the exact solution by at most the largest residual divided by the Péclet number. -/
theorem C113_appendix {lib : LinAlg} (hlib : LinAlgCorrect lib) {N m : ℕ} (hN : 2 ≤ N) (hm : 3 ≤ m) (Pe : ℝ) (w b : ℕ → ℝ) {fuel : ℕ} (hf : 52 ≤ fuel) :
    ∃ (u : Utfc) (xi v : View String) (it : ℕ) (vs : ℕ → View String) (sts : ℕ → PState 2 3) (S : PSys 2 3),
      appDInit N m w b = .ok (u, xi) ∧ Built N "LeP" (-1) 1 u ∧
      xi = .dict .plain [entry1 "xi1" (List.replicate (m - 2) 0), entry1 "xi2" (List.replicate (m - 2) 0), entry1 "xpHat" [0.99], entry1 "y" [0],
        entry1 "yd" [0]] ∧
      S = freeSplitSys u (-1) 1 "xpHat" (splitXp Pe) Pe ∧ appDRun lib N m Pe w b fuel = .ok (some (v, (it : ℤ))) ∧ SysRun S xi 1e-13 50 v it vs sts ∧
      (sts 0).num 2 = 0.99 ∧
      (∀ j, (xpBounds Pe).1 < (sts j).num 2 → (sts j).num 2 < (xpBounds Pe).2 → Regular S (sts j)) ∧
      (∀ j k xp, j < k → k ≤ it → ((sts j).num 2 < (xpBounds Pe).1 ∨ (xpBounds Pe).2 < (sts j).num 2) → xp = splitXp Pe ((sts j).num 2) →
        (sts k).num 2 = (sts j).num 2 ∧ ∀ v' st', SameForm xi v' → Means S v' st' →
          segSum Pe xp u.z (piece1 (sts k) xp) (piece2 (sts k) xp) ≤ segSum Pe xp u.z (piece1 st' xp) (piece2 st' xp)) ∧
      ∀ v' st' xp, Means S v' st' → xp = splitXp Pe (st'.num 2) →
        0 < xp ∧ xp < 1 ∧ sysFn S st' 0 = piece1 st' xp ∧ sysFn S st' 1 = piece2 st' xp ∧ Joint Pe xp (piece1 st' xp) (piece2 st' xp) := by
  have hcp : "LeP" ∈ smoothNames := by simp [smoothNames]
  obtain ⟨u, hu1, hB1, hr1, hl1, -, -, c1⟩ := objectK (k := 3) hN hm hcp (Or.inl rfl) (x0 := -1) (xf := 1) (by norm_num) w b
  obtain ⟨kvs, hk⟩ : ∃ kvs, kvs = [entry1 "xi1" (List.replicate (cols1 u * 1) 0), entry1 "xi2" (List.replicate (cols1 u * 1) 0), entry1 "xpHat" [0.99],
    entry1 "y" [0], entry1 "yd" [0]] := ⟨_, rfl⟩
  have hk' : View.dict .plain kvs = .dict .plain [entry1 "xi1" (List.replicate (m - 2) 0), entry1 "xi2" (List.replicate (m - 2) 0),
      entry1 "xpHat" [0.99], entry1 "y" [0], entry1 "yd" [0]] := by
    rw [hk, c1, show (m + 1 - 3) * 1 = m - 2 by omega]
  have hprop : ProperUnknowns (.dict .plain kvs) := by
    subst hk
    refine ⟨by simp, by simp [entry1], fun p hp => ?_⟩
    simp only [List.mem_cons, List.not_mem_nil, or_false] at hp
    rcases hp with rfl | rfl | rfl | rfl | rfl <;> rfl
  have hpos : entries (View.dict .plain kvs) ≠ [] := by
    rw [hk']
    simp [entries, entry1]
  have hinit : appDInit N m w b = .ok (u, .dict .plain kvs) := by
    unfold appDInit
    rw [show utfcInit N (.int 3) m "LeP" (some (-1)) (some 1) "C++" w b = .ok u from hu1]
    simp only [zerosOf_value hr1, bind, Except.bind]
    rw [hk]
    rfl
  obtain ⟨S, hS⟩ : ∃ S, S = freeSplitSys u (-1) 1 "xpHat" (splitXp Pe) Pe := ⟨_, rfl⟩
  have hfit : FitsSys S kvs := by
    subst hS hk
    refine ⟨by simp [entry1], ?_, ?_, ?_, ?_, ?_, ?_⟩
    all_goals
      intro q
      fin_cases q <;> simp [freeSplitSys, entry1, sizeOfKey, hr1]
  have hz : u.z ≠ [] := by
    rw [built_z hN (Or.inr rfl) hB1]
    intro h
    rw [h] at hl1
    simp at hl1
    omega
  obtain ⟨z0, hz0⟩ := List.exists_mem_of_ne_nil _ hz
  have hne : places S.eqs ≠ [] := List.ne_nil_of_mem (a := (⟨freeE1 u (splitXp Pe) Pe, z0, (0 : Fin 1)⟩ : Place 2 3))
    (mem_places.2 ⟨by rw [hS, free_eqs]; exact List.mem_cons_self, hz0⟩)
  obtain ⟨v, it, vs, sts, hrun, hsr⟩ := C104_newton hlib (method := .pinv) (by simp) (hS ▸ free_smooth u _ _ Pe) hfit hprop hne hpos 1e-13
    (by norm_num) 50 false fuel hf
  refine ⟨u, .dict .plain kvs, v, it, vs, sts, S, hinit, hB1, hk', hS, ?_, hsr, ?_, ?_, ?_, ?_⟩
  · unfold appDRun
    rw [hinit]
    simp only [bind, Except.bind]
    rw [← hS]
    exact hrun
  · have hm0 := hsr.means 0 (Nat.zero_le _)
    rw [hsr.start] at hm0
    refine holds_start hm0 2 fun c hc => ?_
    subst hS hk
    simp [freeSplitSys, entry1] at hc
    rw [hc]
  · intro j h0 h1
    rw [hS]
    obtain ⟨b0, b1⟩ := splitXp_between Pe ((sts j).num 2)
    exact free_regular u _ _ Pe (splitXp_inside h0 h1) b0.ne' b1.ne
  · intro j k xp hjk hk2 hout hxp
    obtain ⟨b0, b1⟩ := splitXp_between Pe ((sts j).num 2)
    rw [← hxp] at b0 b1
    refine C113_stays hS hfit hsr ?_ ?_ ?_ ?_ ?_ b0.ne' b1.ne (by rw [hxp]; exact splitXp_const hout) k hjk hk2
    all_goals subst hk
    · simp [offsetOf, entry1, entries]
    · simp [offsetOf, entry1]
    · simp [offsetOf, entry1]
    · intro n hn
      simp [offsetOf, entry1]
      omega
    · intro n hn
      simp [offsetOf, entry1]
      omega
  · intro v' st' xp hm' hxp
    obtain ⟨b0, b1⟩ := splitXp_between Pe (st'.num 2)
    rw [← hxp] at b0 b1
    obtain ⟨e1, e2⟩ := free_fn u "xpHat" (splitXp Pe) Pe st'
    rw [← hS, ← hxp] at e1 e2
    exact ⟨b0, b1, e1, e2, joint_pieces hm'.smooth Pe b0 b1⟩

/-- **C113, Appendix D for Péclet numbers up to 1000**, as with the 1 in the program's table: the parameter of the split is still 0.99 after the run, so the
pieces meet at 0.9: the split is not chosen by the solver. For this split the result is the best, unless zeros are within the tolerance already. -/
theorem C113_split_fixed {lib : LinAlg} (hlib : LinAlgCorrect lib) {N m : ℕ} (hN : 2 ≤ N) (hm : 3 ≤ m) {Pe : ℝ} (hP : Pe ≤ 10 ^ 3) (w b : ℕ → ℝ) {fuel : ℕ}
    (hf : 52 ≤ fuel) :
    ∃ (u : Utfc) (xi v : View String) (it : ℕ) (S : PSys 2 3) (st : PState 2 3),
      appDInit N m w b = .ok (u, xi) ∧ appDRun lib N m Pe w b fuel = .ok (some (v, (it : ℤ))) ∧ S = freeSplitSys u (-1) 1 "xpHat" (splitXp Pe) Pe ∧
      SameForm xi v ∧ Means S v st ∧ st.num 2 = 0.99 ∧ sysFn S st 0 = piece1 st 0.9 ∧ sysFn S st 1 = piece2 st 0.9 ∧
      Joint Pe 0.9 (piece1 st 0.9) (piece2 st 0.9) ∧
      ((∀ v' st', SameForm xi v' → Means S v' st' →
          segSum Pe 0.9 u.z (piece1 st 0.9) (piece2 st 0.9) ≤ segSum Pe 0.9 u.z (piece1 st' 0.9) (piece2 st' 0.9)) ∨
        ∀ z ∈ u.z, |segResid Pe (segC1 0.9) (piece1 st 0.9) z| ≤ 1e-13 ∧ |segResid Pe (segC2 0.9) (piece2 st 0.9) z| ≤ 1e-13) := by
  obtain ⟨u, xi, v, it, vs, sts, S, h1, -, -, h4, h5, h6, h7, -, h9, h10⟩ := C113_appendix hlib hN hm Pe w b hf
  have hb : (xpBounds Pe).2 = 0.9 := by
    unfold xpBounds
    rw [if_neg (not_lt.2 hP)]
    norm_num
  have hlt : (xpBounds Pe).2 < (0.99 : ℝ) := by rw [hb]; norm_num
  have hxp : splitXp Pe 0.99 = 0.9 := by
    have := (C78_clamp _ _ (0.99 : ℝ) (xpBounds_order Pe).2.1.le).2.2.2.2 hlt
    unfold splitXp
    rw [this, hb]
  have hfix : (sts it).num 2 = 0.99 := by
    rcases Nat.eq_zero_or_pos it with hit | hit
    · rw [hit, h7]
    · rw [(h9 0 it _ hit le_rfl (Or.inr (by rw [h7]; exact hlt)) rfl).1, h7]
  have hform := h6.form it le_rfl
  have hmeans := h6.means it le_rfl
  rw [h6.final] at hform hmeans
  obtain ⟨-, -, e1, e2, e3⟩ := h10 v (sts it) 0.9 hmeans (by rw [hfix, hxp])
  refine ⟨u, xi, v, it, S, sts it, h1, h5, h4, hform, hmeans, hfix, e1, e2, e3, ?_⟩
  rcases Nat.eq_zero_or_pos it with hit | hit
  · right
    rcases h6.stop with h | h | ⟨j, hj, -⟩
    · intro z hz
      have a1 := h (freeE1 u (splitXp Pe) Pe) (by rw [h4, free_eqs]; exact List.mem_cons_self) z hz (0 : Fin 1)
      have a2 := h (freeE2 u (splitXp Pe) Pe) (by rw [h4, free_eqs]; exact List.mem_cons_of_mem _ List.mem_cons_self) z hz (0 : Fin 1)
      rw [h4, (free_miss u _ _ Pe _ z).1, hfix, hxp] at a1
      rw [h4, (free_miss u _ _ Pe _ z).2, hfix, hxp] at a2
      exact ⟨a1, a2⟩
    · omega
    · omega
  · left
    have := (h9 0 it _ hit le_rfl (Or.inr (by rw [h7]; exact hlt)) rfl).2
    rw [h7, hxp] at this
    exact this

/-- **C113, convectionDiffusionNLS.py end to end.** For all `N ≥ 2`, `m ≥ 3` and all Péclet numbers the program returns after at most 50 steps of the
Gauss–Newton iteration, started with the split at 0.5. A step from a split strictly below 0.999 minimises the linearised residuals; the first step is one.
Once the split is cut off at 0.999 the unknown `b` never moves again, and every later iterate is the best for the split at 0.999. For every `b ≠ 0` the
pieces make one function with a continuous derivative from 1 to 0, which differs from the exact solution by at most the largest residual divided by the
Péclet number. -/
theorem C113_nls {lib : LinAlg} (hlib : LinAlgCorrect lib) {N m : ℕ} (hN : 2 ≤ N) (hm : 3 ≤ m) (Pe : ℝ) (w b : ℕ → ℝ) {fuel : ℕ} (hf : 52 ≤ fuel) :
    ∃ (u : Utfc) (xi v : View String) (it : ℕ) (vs : ℕ → View String) (sts : ℕ → PState 2 3) (S : PSys 2 3),
      nlsInit N m w b = .ok (u, xi) ∧ Built N "CP" (-1) 1 u ∧
      xi = .dict .plain [entry1 "xi1" (List.replicate (m - 2) 0), entry1 "xi2" (List.replicate (m - 2) 0), entry1 "y" [0], entry1 "yd" [0],
        entry1 "b" [2]] ∧
      S = freeSplitSys u (-1) 1 "b" nlsXp Pe ∧ nlsRun lib N m Pe w b fuel = .ok (some (v, (it : ℤ))) ∧ SysRun S xi 1e-13 50 v it vs sts ∧
      (sts 0).num 2 = 2 ∧ nlsXp ((sts 0).num 2) = 0.5 ∧
      (∀ j, (sts j).num 2 ≠ 0 → 2 / (sts j).num 2 ^ 2 < 0.999 → Regular S (sts j)) ∧
      (∀ j k, j < k → k ≤ it → (sts j).num 2 ≠ 0 → 0.999 < 2 / (sts j).num 2 ^ 2 →
        (sts k).num 2 = (sts j).num 2 ∧ ∀ v' st', SameForm xi v' → Means S v' st' →
          segSum Pe 0.999 u.z (piece1 (sts k) 0.999) (piece2 (sts k) 0.999) ≤ segSum Pe 0.999 u.z (piece1 st' 0.999) (piece2 st' 0.999)) ∧
      ∀ v' st' xp, Means S v' st' → st'.num 2 ≠ 0 → xp = nlsXp (st'.num 2) →
        0 < xp ∧ xp < 1 ∧ sysFn S st' 0 = piece1 st' xp ∧ sysFn S st' 1 = piece2 st' xp ∧ Joint Pe xp (piece1 st' xp) (piece2 st' xp) := by
  have hcp : "CP" ∈ smoothNames := by simp [smoothNames]
  obtain ⟨u, hu1, hB1, hr1, hl1, -, -, c1⟩ := objectK (k := 3) hN hm hcp (Or.inl rfl) (x0 := -1) (xf := 1) (by norm_num) w b
  have hsq : 1 * Real.sqrt (2 / 0.5) = 2 := by
    rw [show (2 : ℝ) / 0.5 = 2 ^ 2 by norm_num, Real.sqrt_sq (by norm_num), one_mul]
  obtain ⟨kvs, hk⟩ : ∃ kvs, kvs = [entry1 "xi1" (List.replicate (cols1 u * 1) 0), entry1 "xi2" (List.replicate (cols1 u * 1) 0), entry1 "y" [0],
    entry1 "yd" [0], entry1 "b" [2]] := ⟨_, rfl⟩
  have hk' : View.dict .plain kvs = .dict .plain [entry1 "xi1" (List.replicate (m - 2) 0), entry1 "xi2" (List.replicate (m - 2) 0),
      entry1 "y" [0], entry1 "yd" [0], entry1 "b" [2]] := by
    rw [hk, c1, show (m + 1 - 3) * 1 = m - 2 by omega]
  have hprop : ProperUnknowns (.dict .plain kvs) := by
    subst hk
    refine ⟨by simp, by simp [entry1], fun p hp => ?_⟩
    simp only [List.mem_cons, List.not_mem_nil, or_false] at hp
    rcases hp with rfl | rfl | rfl | rfl | rfl <;> rfl
  have hpos : entries (View.dict .plain kvs) ≠ [] := by
    rw [hk']
    simp [entries, entry1]
  have hinit : nlsInit N m w b = .ok (u, .dict .plain kvs) := by
    unfold nlsInit
    rw [show utfcInit N (.int 3) m "CP" (some (-1)) (some 1) "C++" w b = .ok u from hu1]
    simp only [zerosOf_value hr1, bind, Except.bind, hsq]
    rw [hk]
    rfl
  obtain ⟨p1, p2⟩ := built_points hN (by norm_num) hB1
  have hends : first u.z = -1 ∧ last u.z = 1 := by rw [built_z hN (Or.inl rfl) hB1, p1, p2]; exact ⟨rfl, rfl⟩
  obtain ⟨S, hS⟩ : ∃ S, S = freeSplitSys u (-1) 1 "b" nlsXp Pe := ⟨_, rfl⟩
  have hfit : FitsSys S kvs := by
    subst hS hk
    refine ⟨by simp [entry1], ?_, ?_, ?_, ?_, ?_, ?_⟩
    all_goals
      intro q
      fin_cases q <;> simp [freeSplitSys, entry1, sizeOfKey, hr1]
  have hz : u.z ≠ [] := by
    rw [built_z hN (Or.inl rfl) hB1]
    intro h
    rw [h] at hl1
    simp at hl1
    omega
  obtain ⟨z0, hz0⟩ := List.exists_mem_of_ne_nil _ hz
  have hne : places S.eqs ≠ [] := List.ne_nil_of_mem (a := (⟨freeE1 u nlsXp Pe, z0, (0 : Fin 1)⟩ : Place 2 3))
    (mem_places.2 ⟨by rw [hS, free_eqs]; exact List.mem_cons_self, hz0⟩)
  obtain ⟨v, it, vs, sts, hrun, hsr⟩ := C104_newton hlib (method := .pinv) (by simp) (hS ▸ free_smooth u _ _ Pe) hfit hprop hne hpos 1e-13
    (by norm_num) 50 true fuel hf
  have hstart : (sts 0).num 2 = 2 := by
    have hm0 := hsr.means 0 (Nat.zero_le _)
    rw [hsr.start] at hm0
    refine holds_start hm0 2 fun c hc => ?_
    subst hS hk
    simp [freeSplitSys, entry1] at hc
    rw [hc]
  refine ⟨u, .dict .plain kvs, v, it, vs, sts, S, hinit, hB1, hk', hS, ?_, hsr, hstart, ?_, ?_, ?_, ?_⟩
  · unfold nlsRun
    rw [hinit]
    simp only [bind, Except.bind, hends.1, hends.2]
    rw [← hS]
    exact hrun
  · rw [hstart, nlsXp_low (by norm_num)]
    norm_num
  · intro j h0 h1
    rw [hS]
    obtain ⟨b0, b1⟩ := nlsXp_between h0
    exact free_regular u _ _ Pe (nlsXp_inside h0 h1) b0.ne' b1.ne
  · intro j k hjk hk2 h0 hout
    refine C113_stays hS hfit hsr ?_ ?_ ?_ ?_ ?_ (by norm_num) (by norm_num) (nlsXp_const h0 hout) k hjk hk2
    all_goals subst hk
    · simp [offsetOf, entry1, entries]
    · simp [offsetOf, entry1]
    · simp [offsetOf, entry1]
    · intro n hn
      simp [offsetOf, entry1]
      omega
    · intro n hn
      simp [offsetOf, entry1]
      omega
  · intro v' st' xp hm' h0 hxp
    obtain ⟨b0, b1⟩ := nlsXp_between h0
    rw [← hxp] at b0 b1
    obtain ⟨e1, e2⟩ := free_fn u "b" nlsXp Pe st'
    rw [← hS, ← hxp] at e1 e2
    exact ⟨b0, b1, e1, e2, joint_pieces hm'.smooth Pe b0 b1⟩

/-- A case: the numbers of the first row of the program's table. -/
example (w b : ℕ → ℝ) : ∃ lib v it st S, appDRun lib 200 190 1 w b 52 = .ok (some (v, (it : ℤ))) ∧ Means (nf := 2) (m := 3) S v st ∧ st.num 2 = 0.99 := by
  obtain ⟨lib, hlib⟩ := Verif.Lemmas.LinAlg.linAlg_exists
  obtain ⟨u, xi, v, it, S, st, -, h1, -, -, h2, h3, -⟩ :=
    C113_split_fixed hlib (N := 200) (m := 190) (by norm_num) (by norm_num) (Pe := 1) (by norm_num) w b (fuel := 52) le_rfl
  exact ⟨lib, v, it, st, S, h1, h2, h3⟩

/-- A case: the numbers of the second row, where the start is inside the bounds. -/
example (w b : ℕ → ℝ) : ∃ lib v it, appDRun lib 200 190 (10 ^ 6) w b 52 = .ok (some (v, (it : ℤ))) ∧ (xpBounds (10 ^ 6)).1 < 0.99 ∧
    0.99 < (xpBounds (10 ^ 6)).2 := by
  obtain ⟨lib, hlib⟩ := Verif.Lemmas.LinAlg.linAlg_exists
  obtain ⟨u, xi, v, it, vs, sts, S, -, -, -, -, h1, -⟩ :=
    C113_appendix hlib (N := 200) (m := 190) (by norm_num) (by norm_num) (10 ^ 6) w b (fuel := 52) le_rfl
  refine ⟨lib, v, it, h1, ?_, ?_⟩ <;> norm_num [xpBounds]

/-- A case: the numbers of convectionDiffusionNLS.py. -/
example (w b : ℕ → ℝ) : ∃ lib v it, nlsRun lib 200 190 (10 ^ 6) w b 52 = .ok (some (v, (it : ℤ))) := by
  obtain ⟨lib, hlib⟩ := Verif.Lemmas.LinAlg.linAlg_exists
  obtain ⟨u, xi, v, it, vs, sts, S, -, -, -, -, h1, -⟩ :=
    C113_nls hlib (N := 200) (m := 190) (by norm_num) (by norm_num) (10 ^ 6) w b (fuel := 52) le_rfl
  exact ⟨lib, v, it, h1⟩

end Verif.Props
