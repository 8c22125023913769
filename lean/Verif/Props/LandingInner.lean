import Verif.Props.LandingRun

/-!
# The inner loop of the program for the landing with least energy
-/

namespace Verif.Props

open Set Polynomial Verif Verif.Mem Verif.Py Verif.Np Verif.Spec Verif.Model Verif.Model.Py Verif.Model.LSq Verif.Model.Prog Verif.Model.Dict
  Verif.Lemmas.LSq
open scoped ContDiff

theorem land_smoothSys_inner {stfc ctfc : Utfc} {R0 V0 ag : Fin 3 → ℝ} {c : ℝ} : SmoothSys (landInnerSys stfc ctfc R0 V0 ag c) := by
  refine land_smooth (stfc := stfc) (ctfc := ctfc) (R0 := R0) (V := fun i _ => V0 i / c) rfl fun E hE i => ?_
  have hE' : E = ⟨stfc.z, 6, landTerms, here, 3, fun _ J _ i => c ^ 2 * J (posIx i) - ag i + J (lamIx i)⟩ := by
    simpa [landInnerSys] using hE
  subst hE'
  exact landTerms_le i

theorem foldl_max_zero : ∀ (l : List ℝ), (∀ a ∈ l, a = 0) → l.foldl (fun m x => max m |x|) 0 = 0
  | [], _ => rfl
  | a :: l, h => by
    rw [List.foldl_cons, h a (by simp), abs_zero, max_self]
    exact foldl_max_zero l fun b hb => h b (by simp [hb])

theorem maxAbs_zero {l : List ℝ} (hl : l ≠ []) (h : ∀ a ∈ l, a = 0) : maxAbs l = .ok 0 := by
  cases l with
  | nil => exact absurd rfl hl
  | cons a l =>
    show Except.ok _ = _
    rw [h a (by simp), abs_zero, foldl_max_zero l fun b hb => h b (by simp [hb])]

/-- `Htf` of the dictionary. -/
theorem landHtfOf_value {stfc ctfc : Utfc} {R0 : Fin 3 → ℝ} {m : ℕ} {S : PSys 6 m}
    {V : Fin 3 → (Fin m → ℝ) → ℝ} (hS : S.funs = landFuns stfc ctfc R0 V) {rest : List (String × Arr ℝ)} {cls : DictClass}
    (hfit : FitsSys S (landUnknowns stfc ctfc rest)) {v : View String} (hv : SameForm (.dict cls (landUnknowns stfc ctfc rest)) v)
    {st : PState 6 m} (hm : Means S v st) (zf : ℝ) (args : List (View String)) :
    landHtfOf ctfc zf args v = .ok (landHtf (icVec args "ag") (icNum args "Gam") fun i => st.free (lamIx i) zf) := by
  obtain ⟨h1, -, h3⟩ := holds_arrayAt hfit.nodup hv (k := "xic") (by simp [landUnknowns, entry3])
  have hq : ∀ i : Fin 3, ∃ f, curveD ctfc [] (column 3 i (arrayAt (landUnknowns stfc ctfc rest) "xic" (coef (entries v)))) 0 1 (fun _ => zf) = .ok f ∧
      f 0 = st.free (lamIx i) zf := by
    intro i
    obtain ⟨l, hl, he⟩ := hm.free (lamIx i)
    rw [hS, landFuns_lam] at hl he
    rw [h3 l hl] at he
    obtain ⟨f, hf1, hf2⟩ := curveD_ok (cs := []) (by intro c hc; simp at hc) (hm.smooth (lamIx i)) he (d := 0) (by norm_num) 1 fun _ => zf
    refine ⟨f, hf1, ?_⟩
    rw [hf2 0 one_pos, iteratedDeriv_zero]
    simp [curve]
  choose f hf1 hf2 using hq
  unfold landHtfOf
  rw [h1]
  simp only [bind, Except.bind]
  rw [mapM_each (g := f) _ fun i _ => hf1 i]
  refine congrArg Except.ok ?_
  congr 1
  funext i
  have : ((List.finRange 3).map f).getD i (fun _ => 0) = f i := by
    simp [List.getD]
  rw [this, hf2]

theorem cubic_back {tf : ℝ} (htf : 0 < tf) (t : ℝ) : (2 / tf * t - 1 + 1) / (2 / tf) = t := by
  field_simp
  ring

theorem two_div {tf : ℝ} (htf : 0 < tf) : 2 / (2 / tf) = tf := by
  field_simp

/-- **C105, the inner loop.** For every number of points and degree with `4 ≤ ms ≤ N + 1`: the construction succeeds, and every call of the solver, for
every position, velocity, gravity and price of the time and every time `tf > 0`, whether the solver is compiled or not, returns a dictionary that stands
for the motion with the least energy of all motions of that duration. Unless the motion without control is within the tolerance, the costate is exactly
the negative control, and `Innerloop(tf,xi,IC)` returns exactly the absolute value of the derivative of the least cost with respect to the duration. -/
theorem C105_inner {lib : LinAlg} (hlib : LinAlgCorrect lib) {N ms : ℕ} (hN : 2 ≤ N) (h4 : 4 ≤ ms) (hms : ms ≤ N + 1) (wt bt wt' bt' : ℕ → ℝ)
    {fuel : ℕ} (hfuel : 4 ≤ fuel) :
    ∃ o, landInnerInit lib N ms wt bt wt' bt' = .ok o ∧ ∀ (R0 V0 ag : Fin 3 → ℝ) (Gam tf : ℝ), 0 < tf → ∀ comp : Bool,
      ∃ (v : View String) (it : ℕ) (vs : ℕ → View String) (sts : ℕ → PState 6 0) (X : Fin 3 → ℝ → ℝ),
        NllsObj.run { o.nlls with compiled := comp } o.xi [landInnerIC R0 V0 ag Gam (2 / tf)] fuel =
          (.ok (some (v, (it : ℤ))), { o.nlls with compiled := true }) ∧
        SysRun (landInnerSys o.stfc o.ctfc R0 V0 ag (2 / tf)) o.xi 1e-13 2 v it vs sts ∧
        (∀ i t, sysFn (landInnerSys o.stfc o.ctfc R0 V0 ag (2 / tf)) (sts it) (posIx i) (2 / tf * t - 1) = X i t) ∧
        LeastEnergy R0 V0 ag tf X ∧
        ((∀ i, ∀ t ∈ Icc 0 tf, |deriv (deriv (X i)) t - ag i| ≤ 1e-13) ∨
          ((∀ i t, sysFn (landInnerSys o.stfc o.ctfc R0 V0 ag (2 / tf)) (sts it) (lamIx i) (2 / tf * t - 1) = ag i - deriv (deriv (X i)) t) ∧
            landInnerloop { o with nlls := { o.nlls with compiled := comp } } R0 V0 ag Gam tf fuel =
              .ok (some |deriv (leastCost R0 V0 ag Gam) tf|, { o with nlls := { o.nlls with compiled := true } }))) := by
  obtain ⟨stfc, ctfc, hu1, hu2, F⟩ := land_objects hN h4 wt bt wt' bt'
  obtain ⟨kvs, hk⟩ : ∃ kvs, kvs = landUnknowns stfc ctfc [] := ⟨_, rfl⟩
  have hprop : ProperUnknowns (.dict .robust kvs) := by
    subst hk
    refine ⟨by simp [landUnknowns], by simp [landUnknowns, entry3], fun p hp => ?_⟩
    simp only [landUnknowns, List.mem_cons, List.not_mem_nil, or_false] at hp
    rcases hp with rfl | rfl <;> simp [entry3]
  have hpos : entries (View.dict .robust kvs) ≠ [] := by
    subst hk
    simp [entries, landUnknowns, entry3, F.cols2]
  obtain ⟨nlls, hn1, hn2⟩ := C104_newton_class hlib (method := .pinv) (by simp) (landInnerSysIC stfc ctfc) hprop hpos
    [landInnerIC (fun _ => 0) (fun _ => 0) (fun _ => 0) 0 2] 1e-13 (by norm_num) 2 true fuel hfuel
  refine ⟨⟨stfc, ctfc, .dict .robust kvs, nlls⟩, ?_, ?_⟩
  · unfold landInnerInit
    rw [hu1, hu2]
    simp only [bind, Except.bind, zerosOf_value F.ready1, zerosOf_value F.ready2]
    rw [hk] at hn1 ⊢
    simp only [landUnknowns] at hn1 ⊢
    rw [hn1]
    rfl
  intro R0 V0 ag Gam tf htf comp
  obtain ⟨c, hc⟩ : ∃ c, c = 2 / tf := ⟨_, rfl⟩
  have hc0 : c ≠ 0 := by rw [hc]; positivity
  dsimp only
  rw [← hc]
  obtain ⟨i1, i2, i3, i4, i5⟩ := ic_inner (R0 := R0) (V0 := V0) (ag := ag) Gam c
  have hsys : landInnerSysIC stfc ctfc [landInnerIC R0 V0 ag Gam c] = landInnerSys stfc ctfc R0 V0 ag c := by
    unfold landInnerSysIC
    rw [i1, i2, i3, i5]
  have hfit : FitsSys (landInnerSys stfc ctfc R0 V0 ag c) kvs := by
    subst hk
    exact land_fits F (R0 := R0) (V := fun i _ => V0 i / c) rfl (by simp [landUnknowns, entry3]) (fun i => i.elim0) fun i => i.elim0
  have hmem : (⟨stfc.z, 6, landTerms, here, 3, fun _ J _ i => c ^ 2 * J (posIx i) - ag i + J (lamIx i)⟩ : PEqn 6 0) ∈
      (landInnerSys stfc ctfc R0 V0 ag c).eqs := List.mem_cons_self
  have hne : places (landInnerSys stfc ctfc R0 V0 ag c).eqs ≠ [] :=
    List.ne_nil_of_mem (a := (⟨_, (1 : ℝ), (0 : Fin 3)⟩ : Place 6 0)) (mem_places.2 ⟨hmem, F.ends⟩)
  obtain ⟨v, it, vs, sts, hrun, hsr⟩ := hn2 [landInnerIC R0 V0 ag Gam c] rfl (by rw [hsys]; exact land_smoothSys_inner)
    (by rw [hsys]; exact hfit) (by rw [hsys]; exact hne) comp
  rw [hsys] at hsr
  obtain ⟨e1, e2, e3⟩ := inner_exact F hN hms hc0 (hk ▸ hsr)
  have hct : 2 / c = tf := by rw [hc]; exact two_div htf
  have hback : ∀ t, (c * t - 1 + 1) / c = t := fun t => by rw [hc]; exact cubic_back htf t
  rw [hct] at e1 e3
  have hlam : ∀ st i, sysFn (landInnerSys stfc ctfc R0 V0 ag c) st (lamIx i) = st.free (lamIx i) := fun st i =>
    land_lam (R0 := R0) (V := fun i _ => V0 i / c) rfl st i
  have hz1 : (-1 : ℝ) ∈ stfc.z := by
    have := F.left
    have hl := F.len
    cases hz : stfc.z with
    | nil => rw [hz] at hl; simp at hl; omega
    | cons a l =>
      rw [hz] at this
      have h2 : a = -1 := by simpa [first] using this
      rw [h2]
      exact List.mem_cons_self
  refine ⟨v, it, vs, sts, fun i => landPath (R0 i) (V0 i) tf, hrun, hsr, ?_, C105_least R0 V0 ag htf, ?_⟩
  · intro i t
    rw [e1 it le_rfl, hback]
  rcases Nat.eq_zero_or_pos it with hit | hit
  · left
    rcases hsr.stop with hst | hst | ⟨j, hj, -⟩
    · have hv : ∀ i, ∀ x ∈ stfc.z, |deriv (deriv (landPath (R0 i) (V0 i) tf)) ((x + 1) / c) - ag i| ≤ 1e-13 := by
        intro i x hx
        have h := hst _ hmem x hx i
        rw [inner_miss F (hsr.means it le_rfl).smooth, hit, e2] at h
        have e : ∀ i x, c ^ 2 * (landA (fun _ => 0) x + 3 / 2 * x * R0 i + (3 * x - 1) / 2 * (V0 i / c)) - ag i + 0 =
            deriv (deriv (landPath (R0 i) (V0 i) tf)) ((x + 1) / c) - ag i := by
          intro i x
          have := costate_eq hc0 (R0 i) (V0 i) (ag i) x
          rw [hct] at this
          have h2 : deriv (deriv (landPath (R0 i) (V0 i) tf)) ((x + 1) / c) = 3 / 2 * x * R0 i * c ^ 2 + (3 * x - 1) / 2 * V0 i * c := by linarith
          rw [h2]
          simp only [landA, deriv_const']
          field_simp
          ring
        rw [e] at h
        exact h
      intro i t ht
      have a0 := hv i (-1) hz1
      have a1 := hv i 1 F.ends
      have b0 : ((-1 : ℝ) + 1) / c = 0 := by norm_num
      have b1 : ((1 : ℝ) + 1) / c = tf := by rw [← hct]; norm_num
      rw [b0] at a0
      rw [b1] at a1
      rw [landPath_deriv2] at a0 a1 ⊢
      dsimp only at a0 a1 ⊢
      generalize -(2 * (3 * R0 i / tf ^ 2 + 2 * V0 i / tf)) = p at a0 a1 ⊢
      generalize 6 * (2 * R0 i / tf ^ 3 + V0 i / tf ^ 2) = q at a0 a1 ⊢
      rw [abs_le] at a0 a1 ⊢
      have hs0 : 0 ≤ t / tf := div_nonneg ht.1 htf.le
      have hs1 : t / tf ≤ 1 := (div_le_one htf).2 ht.2
      have ht' : t = t / tf * tf := by field_simp
      generalize t / tf = s at hs0 hs1 ht'
      subst ht'
      constructor
      · nlinarith [a0.1, a1.1]
      · nlinarith [a0.2, a1.2]
    · omega
    · omega
  · right
    obtain ⟨j, rfl⟩ : ∃ j, it = j + 1 := ⟨it - 1, by omega⟩
    have hl : ∀ i x, (sts (j + 1)).free (lamIx i) x = ag i - deriv (deriv (landPath (R0 i) (V0 i) tf)) ((x + 1) / c) := e3 j (by omega)
    refine ⟨fun i t => by rw [hlam, hl, hback], ?_⟩
    unfold landInnerloop
    dsimp only
    rw [← hc, hrun]
    simp only [bind, Except.bind]
    have hform := hsr.form (j + 1) le_rfl
    rw [hsr.final] at hform
    have hmeans := hsr.means (j + 1) le_rfl
    rw [hsr.final] at hmeans
    rw [hsys, psysRes_value land_smoothSys_inner hfit hform]
    dsimp only
    rw [maxAbs_zero (by simpa using hne)]
    · dsimp only
      rw [landHtfOf_value (R0 := R0) (V := fun i _ => V0 i / c) (S := landInnerSys stfc ctfc R0 V0 ag c) rfl (hk ▸ hfit) (hk ▸ hform) hmeans, i3, i4,
        F.right]
      have hval : landHtf ag Gam (fun i => (sts (j + 1)).free (lamIx i) 1) = deriv (leastCost R0 V0 ag Gam) tf := by
        rw [(C105_time R0 V0 ag Gam htf).2.deriv]
        congr 1
        funext i
        rw [hl]
        congr 2
        rw [← hct]
        norm_num
      simp only [hval]
      rw [max_eq_right (abs_nonneg _)]
      rfl
    · intro a ha
      obtain ⟨⟨E, x, o⟩, ht, rfl⟩ := List.mem_map.1 ha
      obtain ⟨hE, hx⟩ := mem_places.1 ht
      have hE' : E = ⟨stfc.z, 6, landTerms, here, 3, fun _ J _ i => c ^ 2 * J (posIx i) - ag i + J (lamIx i)⟩ := by
        simpa [landInnerSys] using hE
      subst hE'
      unfold placeMiss
      rw [← means_unique hfit hform hmeans]
      have hr := e1 (j + 1) le_rfl
      have hr' : ∀ i, sysFn (landInnerSys stfc ctfc R0 V0 ag c) (sts (j + 1)) (posIx i) = fun x => landPath (R0 i) (V0 i) tf ((x + 1) / c) :=
        fun i => funext fun x => hr i x
      have hA : ∀ i x, iteratedDeriv 2 (sysFn (landInnerSys stfc ctfc R0 V0 ag c) (sts (j + 1)) (posIx i)) x =
          deriv (deriv (landPath (R0 i) (V0 i) tf)) ((x + 1) / c) / c ^ 2 := by
        intro i x
        have hd1 : deriv (fun x => landPath (R0 i) (V0 i) tf ((x + 1) / c)) = fun x => deriv (landPath (R0 i) (V0 i) tf) ((x + 1) / c) / c := by
          funext x
          have h1 : HasDerivAt (fun x : ℝ => (x + 1) / c) (1 / c) x := ((hasDerivAt_id x).add_const 1).div_const c
          have h2 := (((landPath_smooth (R0 i) (V0 i) tf).differentiable (by simp) ((x + 1) / c)).hasDerivAt.comp x h1).deriv
          refine Eq.trans h2 ?_
          ring
        have hd2 : deriv (fun x => deriv (landPath (R0 i) (V0 i) tf) ((x + 1) / c) / c) x = deriv (deriv (landPath (R0 i) (V0 i) tf)) ((x + 1) / c) / c ^ 2 := by
          have h1 : HasDerivAt (fun x : ℝ => (x + 1) / c) (1 / c) x := ((hasDerivAt_id x).add_const 1).div_const c
          have h2 := ((((first_smooth (landPath_smooth (R0 i) (V0 i) tf)).differentiable (by simp) ((x + 1) / c)).hasDerivAt.comp x h1).div_const c).deriv
          refine Eq.trans h2 ?_
          field_simp
        rw [hr', iteratedDeriv_succ, iteratedDeriv_one, hd1, hd2]
      show c ^ 2 * sysJet _ _ _ _ _ - _ + sysJet _ _ _ _ _ = 0
      simp only [sysJet, here]
      rw [landTerms_pos, landTerms_lam, iteratedDeriv_zero, hA, hlam, hl]
      field_simp
      ring

/-- A case: the numbers of the program, and the time 100 for a landing from height 1 at rest. -/
example (wt bt wt' bt' : ℕ → ℝ) : ∃ lib o X, landInnerInit lib 100 30 wt bt wt' bt' = .ok o ∧ LeastEnergy ![0, 0, 1] (fun _ => 0) ![0, 0, -1] 100 X := by
  obtain ⟨lib, hlib⟩ := Verif.Lemmas.LinAlg.linAlg_exists
  obtain ⟨o, h1, h2⟩ := C105_inner hlib (N := 100) (ms := 30) (by norm_num) (by norm_num) (by norm_num) wt bt wt' bt' (fuel := 4) le_rfl
  obtain ⟨v, it, vs, sts, X, -, -, -, h3, -⟩ := h2 ![0, 0, 1] (fun _ => 0) ![0, 0, -1] 0 100 (by norm_num) false
  exact ⟨lib, o, X, h1, h3⟩

end Verif.Props
