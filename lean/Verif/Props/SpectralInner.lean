import Verif.Props.SpectralLanding

/-!
# The inner loop of the program for the landing with least energy by the spectral method
-/

namespace Verif.Props

open Set Polynomial Verif Verif.Mem Verif.Py Verif.Np Verif.Spec Verif.Model Verif.Model.Py Verif.Model.LSq Verif.Model.Prog Verif.Model.Dict
  Verif.Lemmas.LSq
open scoped ContDiff

variable {stfc ctfc : Utfc} {R0 V0 ag : Fin 3 → ℝ}

/-- `Htf` of the dictionary. -/
theorem specHtfOf_value {m : ℕ} {S : PSys 6 m} (hS : S.funs = specFuns stfc ctfc) {rest : List (String × Arr ℝ)} {cls : DictClass}
    (hfit : FitsSys S (landUnknowns stfc ctfc rest)) {v : View String} (hv : SameForm (.dict cls (landUnknowns stfc ctfc rest)) v)
    {st : PState 6 m} (hm : Means S v st) (zf : ℝ) (args : List (View String)) :
    specHtfOf stfc ctfc zf args v = .ok (specHtf (icVec args "ag") (icNum args "Gam") (icNum args "c") (fun i => st.free (lamIx i) zf)
      (fun i => deriv (st.free (lamIx i)) zf) fun i => deriv (st.free (posIx i)) zf) := by
  obtain ⟨h1, -, h3⟩ := holds_arrayAt hfit.nodup hv (k := "xic") (by simp [landUnknowns, entry3])
  obtain ⟨k1, -, k3⟩ := holds_arrayAt hfit.nodup hv (k := "xis") (by simp [landUnknowns, entry3])
  have hlam : ∀ d ≤ 8, ∀ i : Fin 3, ∃ f, curveD ctfc [] (column 3 i (arrayAt (landUnknowns stfc ctfc rest) "xic" (coef (entries v)))) d 1 (fun _ => zf) =
      .ok f ∧ f 0 = iteratedDeriv d (st.free (lamIx i)) zf := by
    intro d hd i
    obtain ⟨l, hl, he⟩ := hm.free (lamIx i)
    rw [hS, specFuns_lam] at hl he
    rw [h3 l hl] at he
    obtain ⟨f, hf1, hf2⟩ := curveD_ok (cs := []) (by intro c hc; simp at hc) (hm.smooth (lamIx i)) he (d := d) hd 1 fun _ => zf
    refine ⟨f, hf1, ?_⟩
    rw [hf2 0 one_pos]
    congr 1
    funext x
    simp [curve]
  have hpos : ∀ d ≤ 8, ∀ i : Fin 3, ∃ f, curveD stfc [] (column 3 i (arrayAt (landUnknowns stfc ctfc rest) "xis" (coef (entries v)))) d 1 (fun _ => zf) =
      .ok f ∧ f 0 = iteratedDeriv d (st.free (posIx i)) zf := by
    intro d hd i
    obtain ⟨l, hl, he⟩ := hm.free (posIx i)
    rw [hS, specFuns_pos] at hl he
    rw [k3 l hl] at he
    obtain ⟨f, hf1, hf2⟩ := curveD_ok (cs := []) (by intro c hc; simp at hc) (hm.smooth (posIx i)) he (d := d) hd 1 fun _ => zf
    refine ⟨f, hf1, ?_⟩
    rw [hf2 0 one_pos]
    congr 1
    funext x
    simp [curve]
  choose f hf1 hf2 using hlam 0 (by norm_num)
  choose g hg1 hg2 using hlam 1 (by norm_num)
  choose w hw1 hw2 using hpos 1 (by norm_num)
  have hget : ∀ (f : Fin 3 → ℕ → ℝ) (i : Fin 3), ((List.finRange 3).map f).getD i (fun _ => 0) = f i := fun f i => by simp [List.getD]
  unfold specHtfOf
  rw [h1, k1]
  simp only [bind, Except.bind]
  rw [mapM_each (g := f) _ fun i _ => hf1 i, mapM_each (g := g) _ fun i _ => hg1 i, mapM_each (g := w) _ fun i _ => hw1 i]
  refine congrArg Except.ok ?_
  congr 1
  · funext i
    rw [hget, hf2, iteratedDeriv_zero]
  · funext i
    rw [hget, hg2, iteratedDeriv_one]
  · funext i
    rw [hget, hw2, iteratedDeriv_one]

theorem specInner_smooth {k : ℝ} : SmoothSys (specInnerSys stfc ctfc R0 V0 ag k) :=
  specLand_smooth (stfc := stfc) (ctfc := ctfc) rfl fun _ hE i => specEqs_terms (E := _) hE i

/-- **C110, the inner loop.** For every number of points and degree with `3 ≤ ms < N`: the construction succeeds, and every call of the solver, for
every position, velocity, gravity and price of the time and every time `tf > 0`, whether the solver is compiled or not, returns a dictionary that stands
for the motion with the least energy of all motions of that duration and its costate — although no condition is built into the expression — unless all
data are within the tolerance of zero. And then `Innerloop(tf,xi,IC)` returns exactly the absolute value of the derivative of the least cost with respect
to the duration. -/
theorem C110_inner {lib : LinAlg} (hlib : LinAlgCorrect lib) {N ms : ℕ} (h3 : 3 ≤ ms) (hms : ms < N) (wt bt wt' bt' : ℕ → ℝ)
    {fuel : ℕ} (hfuel : 4 ≤ fuel) :
    ∃ o, specInnerInit lib N ms wt bt wt' bt' = .ok o ∧ ∀ (R0 V0 ag : Fin 3 → ℝ) (Gam tf : ℝ), 0 < tf → ∀ comp : Bool,
      ∃ (v : View String) (it : ℕ) (vs : ℕ → View String) (sts : ℕ → PState 6 0),
        NllsObj.run { o.nlls with compiled := comp } o.xi [landInnerIC R0 V0 ag Gam (2 / tf)] fuel =
          (.ok (some (v, (it : ℤ))), { o.nlls with compiled := true }) ∧
        SysRun (specInnerSys o.stfc o.ctfc R0 V0 ag (2 / tf)) o.xi 1e-13 2 v it vs sts ∧
        (((∀ i, |R0 i| ≤ 1e-13 ∧ |V0 i| ≤ 1e-13 ∧ |ag i| ≤ 1e-13) ∧ it = 0 ∧ v = o.xi) ∨
          ∃ X : Fin 3 → ℝ → ℝ, LeastEnergy R0 V0 ag tf X ∧
            (∀ i t, sysFn (specInnerSys o.stfc o.ctfc R0 V0 ag (2 / tf)) (sts it) (posIx i) (2 / tf * t - 1) = X i t) ∧
            (∀ i t, sysFn (specInnerSys o.stfc o.ctfc R0 V0 ag (2 / tf)) (sts it) (lamIx i) (2 / tf * t - 1) = ag i - deriv (deriv (X i)) t) ∧
            specInnerloop { o with nlls := { o.nlls with compiled := comp } } R0 V0 ag Gam tf fuel =
              .ok (some |deriv (leastCost R0 V0 ag Gam) tf|, { o with nlls := { o.nlls with compiled := true } })) := by
  have hN : 2 ≤ N := by omega
  obtain ⟨stfc, ctfc, hu1, hu2, F⟩ := spec_objects ms hN wt bt wt' bt'
  obtain ⟨kvs, hk⟩ : ∃ kvs, kvs = landUnknowns stfc ctfc [] := ⟨_, rfl⟩
  have hprop : ProperUnknowns (.dict .robust kvs) := by
    subst hk
    refine ⟨by simp [landUnknowns], by simp [landUnknowns, entry3], fun p hp => ?_⟩
    simp only [landUnknowns, List.mem_cons, List.not_mem_nil, or_false] at hp
    rcases hp with rfl | rfl <;> simp [entry3]
  have hpos : entries (View.dict .robust kvs) ≠ [] := by
    subst hk
    simp [entries, landUnknowns, entry3, F.cols2]
  obtain ⟨nlls, hn1, hn2⟩ := C104_newton_class hlib (method := .pinv) (by simp) (specInnerSysIC stfc ctfc) hprop hpos
    [landInnerIC (fun _ => 0) (fun _ => 0) (fun _ => 0) 0 2] 1e-13 (by norm_num) 2 true fuel hfuel
  refine ⟨⟨stfc, ctfc, .dict .robust kvs, nlls⟩, ?_, ?_⟩
  · unfold specInnerInit
    rw [hu1, hu2]
    simp only [bind, Except.bind, zerosOf_value F.ready1, zerosOf_value F.ready2]
    rw [hk] at hn1 ⊢
    simp only [landUnknowns] at hn1 ⊢
    rw [hn1]
    rfl
  intro R0 V0 ag Gam tf htf comp
  obtain ⟨k, hc⟩ : ∃ k, k = 2 / tf := ⟨_, rfl⟩
  have hc0 : k ≠ 0 := by rw [hc]; positivity
  dsimp only
  rw [← hc]
  obtain ⟨i1, i2, i3, i4, i5⟩ := ic_inner (R0 := R0) (V0 := V0) (ag := ag) Gam k
  have hsys : specInnerSysIC stfc ctfc [landInnerIC R0 V0 ag Gam k] = specInnerSys stfc ctfc R0 V0 ag k := by
    unfold specInnerSysIC
    rw [i1, i2, i3, i5]
  obtain ⟨S, hS⟩ : ∃ S, S = specInnerSys stfc ctfc R0 V0 ag k := ⟨_, rfl⟩
  have hf : S.funs = specFuns stfc ctfc := by rw [hS]; rfl
  have heqs : S.eqs = specEqs stfc.z R0 V0 ag fun _ => k := by rw [hS]; rfl
  have hfit : FitsSys S kvs := by
    subst hk
    exact spec_fits F hf (by simp [landUnknowns, entry3]) (fun i => i.elim0) fun i => i.elim0
  have hne : places S.eqs ≠ [] :=
    List.ne_nil_of_mem (a := (⟨specGoal stfc.z, last stfc.z, (0 : Fin 3)⟩ : Place 6 0)) (mem_places.2 ⟨by rw [heqs, specEqs_eq]; simp, by simp⟩)
  obtain ⟨v, it, vs, sts, hrun, hsr⟩ := hn2 [landInnerIC R0 V0 ag Gam k] rfl (by rw [hsys]; exact specInner_smooth)
    (by rw [hsys, ← hS]; exact hfit) (by rw [hsys, ← hS]; exact hne) comp
  rw [hsys] at hsr
  refine ⟨v, it, vs, sts, hrun, hsr, ?_⟩
  rw [← hS] at hsr ⊢
  have hct : 2 / k = tf := by rw [hc]; exact two_div htf
  have hback : ∀ t, (k * t - 1 + 1) / k = t := fun t => by rw [hc]; exact cubic_back htf t
  rcases Nat.eq_zero_or_pos it with hit | hit
  · left
    have h00 : ∀ q, (sts 0).free q = fun _ => 0 := by
      rw [means_unique hfit (hsr.form 0 (by omega)) (hsr.means 0 (by omega)), hsr.start]
      have e : coef (entries (View.dict .robust kvs)) = fun _ => 0 := by
        have e' : entries (View.dict .robust kvs) = List.replicate (cols1 stfc * 3 + cols1 ctfc * 3) 0 := by
          rw [List.replicate_add, hk]
          simp [entries, landUnknowns, entry3]
        rw [e', coef_replicate]
      rw [e]
      intro q
      exact freeOf_zero _
    subst hit
    refine ⟨?_, rfl, by rw [← hsr.final, hsr.start]⟩
    rcases hsr.stop with hst | hst | ⟨j, hj, -⟩
    · rw [heqs, specEqs_eq] at hst
      intro i
      have a1 := fun x hx => hst (specMotion stfc.z ag fun _ => k) (by simp) x hx i
      have a2 := hst (specStart stfc.z R0) (by simp) (-1) (by simp [F.left]) i
      have a3 := hst (specSpeed stfc.z V0 fun _ => k) (by simp) (-1) (by simp [F.left]) i
      rw [specStart_miss hf, h00] at a2
      rw [specSpeed_miss hf, h00, iteratedDeriv_one] at a3
      refine ⟨by simpa using a2, by simpa using a3, ?_⟩
      obtain ⟨x, hx⟩ : ∃ x, x ∈ stfc.z.tail.dropLast := by
        refine List.exists_mem_of_length_pos ?_
        rw [(inner_pts F.nodup).2, F.len]
        omega
      have := a1 x hx
      rw [specMotion_miss hf, h00, h00, iteratedDeriv_succ, iteratedDeriv_one] at this
      simpa using this
    · omega
    · omega
  · right
    obtain ⟨j, rfl⟩ : ∃ j, it = j + 1 := ⟨it - 1, by omega⟩
    obtain ⟨v', st', hv', hm', hsol, -⟩ := spec_dict F h3 hf (hk ▸ hfit) .robust R0 V0 ag hc0 [] (by simp [entries])
    obtain ⟨q1, q2⟩ := spec_state F hf (hk ▸ hfit) hv' hm'
    have hz : ∀ E ∈ S.eqs, ∀ x ∈ E.pts, ∀ o, sysMiss S st' E x o = 0 := by
      rw [heqs]
      exact (spec_solved F h3 hms hf q1 q2 (c := fun _ => k) rfl hc0).2 hsol
    have hex := step_exact hsr (j := j) (by omega) (hS ▸ specInner_regular k _) (hk ▸ hv') hm' fun E hE x hx o => by
      have := specInner_lin (hsr.means j (by omega)).smooth hm'.smooth (hS ▸ hE) x o
      rw [← hS] at this
      rw [this, hz E hE x hx]
    have hform := hsr.form (j + 1) le_rfl
    have hmeans := hsr.means (j + 1) le_rfl
    have hz1 : ∀ E ∈ S.eqs, ∀ x ∈ E.pts, ∀ o, sysMiss S (sts (j + 1)) E x o = 0 := fun E hE x hx o => by
      have := specInner_lin (hsr.means j (by omega)).smooth hmeans.smooth (hS ▸ hE) x o
      rw [← hS] at this
      rw [← this, hex E hE x hx]
    obtain ⟨g1, g2⟩ := spec_state F hf (hk ▸ hfit) (hk ▸ hform) hmeans
    have hfin := (spec_solved F h3 hms hf g1 g2 (c := fun _ => k) rfl hc0).1 (by rw [← heqs]; exact hz1)
    rw [hct] at hfin
    refine ⟨fun i => landPath (R0 i) (V0 i) tf, C105_least R0 V0 ag htf, fun i t => by rw [spec_fn hf, (hfin i).1, hback],
      fun i t => by rw [spec_fn hf, (hfin i).2, hback], ?_⟩
    unfold specInnerloop
    dsimp only
    rw [← hc, hrun]
    simp only [bind, Except.bind]
    rw [hsr.final] at hform hmeans
    rw [hsys, ← hS, psysRes_value (hS ▸ specInner_smooth) hfit hform]
    dsimp only
    rw [maxAbs_zero (by simpa using hne)]
    · dsimp only
      rw [specHtfOf_value hf (hk ▸ hfit) (hk ▸ hform) hmeans, i3, i4, i5, F.right]
      have hv1 : ∀ i, deriv ((sts (j + 1)).free (posIx i)) 1 = 0 := by
        intro i
        have := hz1 (specRest stfc.z fun _ => k) (by rw [heqs, specEqs_eq]; simp) 1 (by simp [F.right]) i
        rw [specRest_miss hf, iteratedDeriv_one] at this
        exact (mul_eq_zero.1 this).resolve_left hc0
      have hval : specHtf ag Gam k (fun i => (sts (j + 1)).free (lamIx i) 1) (fun i => deriv ((sts (j + 1)).free (lamIx i)) 1)
          (fun i => deriv ((sts (j + 1)).free (posIx i)) 1) = deriv (leastCost R0 V0 ag Gam) tf := by
        rw [(C105_time R0 V0 ag Gam htf).2.deriv]
        unfold specHtf landHtf
        have : ∀ i, (sts (j + 1)).free (lamIx i) 1 = ag i - deriv (deriv (landPath (R0 i) (V0 i) tf)) tf := by
          intro i
          rw [(hfin i).2]
          congr 2
          rw [← hct]
          norm_num
        simp [this, hv1]
      simp only [hval]
      rw [max_eq_right (abs_nonneg _)]
      rfl
    · intro a ha
      obtain ⟨⟨E, x, o⟩, ht, rfl⟩ := List.mem_map.1 ha
      obtain ⟨hE, hx⟩ := mem_places.1 ht
      unfold placeMiss
      rw [← means_unique hfit hform hmeans]
      exact hz1 E hE x hx o

/-- A case: the numbers of the program, and the time 100 for a landing from height 1 at rest. -/
example (wt bt wt' bt' : ℕ → ℝ) : ∃ lib o, specInnerInit lib 100 30 wt bt wt' bt' = .ok o ∧
    ∃ o', specInnerloop o ![0, 0, 1] (fun _ => 0) ![0, 0, -1] 0 100 4 = .ok (some |deriv (leastCost ![0, 0, 1] (fun _ => 0) ![0, 0, -1] 0) 100|, o') := by
  obtain ⟨lib, hlib⟩ := Verif.Lemmas.LinAlg.linAlg_exists
  obtain ⟨o, h1, h2⟩ := C110_inner hlib (N := 100) (ms := 30) (by norm_num) (by norm_num) wt bt wt' bt' (fuel := 4) le_rfl
  obtain ⟨v, it, vs, sts, -, -, h3⟩ := h2 ![0, 0, 1] (fun _ => 0) ![0, 0, -1] 0 100 (by norm_num) o.nlls.compiled
  refine ⟨lib, o, h1, ?_⟩
  rcases h3 with ⟨h3, -⟩ | ⟨X, -, -, -, h4⟩
  · have h5 : |(1 : ℝ)| ≤ 1e-13 := (h3 2).1
    rw [abs_one] at h5
    norm_num at h5
  · exact ⟨_, h4⟩

end Verif.Props
