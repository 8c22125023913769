import Verif.Props.OdeSystem
import Verif.Props.ResidualSegments
import Verif.Props.Segments
import Verif.Lemmas.LinAlg

/-!
# The programs tfc_linearNonlinear.py and UnknownTime.py, end to end
-/

namespace Verif.Props

open Set Polynomial Verif Verif.Mem Verif.Py Verif.Np Verif.Spec Verif.Model Verif.Model.Py Verif.Model.LSq Verif.Model.Prog Verif.Model.Dict
  Verif.Lemmas.LSq
open scoped ContDiff

theorem kept_arange (k n : ℕ) : (keptColumns (k + n) (arange (k : ℤ))).length = n := by
  have hm : ∀ j : ℕ, (j : ℤ) ∈ arange (k : ℤ) ↔ j < k := by
    intro j
    simp only [arange, List.mem_map, List.mem_range, Int.toNat_natCast]
    constructor
    · rintro ⟨i, hi, e⟩
      have : i = j := Int.ofNat.inj e
      omega
    · intro h
      exact ⟨j, h, rfl⟩
  unfold keptColumns
  rw [List.range_add, List.filter_append, List.filter_eq_nil_iff.2, List.filter_eq_self.2]
  · simp
  · intro a ha
    obtain ⟨i, -, rfl⟩ := List.mem_map.1 ha
    rw [decide_eq_true_eq, hm]
    omega
  · intro a ha
    rw [decide_eq_true_eq, not_not, hm]
    exact List.mem_range.1 ha

/-- The objects of the programs, for every number of removed functions. -/
theorem objectK {N m k : ℕ} (hN : 2 ≤ N) (hm : k ≤ m) {basis backend : String} (hb : basis ∈ smoothNames)
    (hbe : backend = "C++" ∨ backend = "Python") {x0 xf : ℝ} (hx : x0 < xf) (w b : ℕ → ℝ) :
    ∃ u, utfcInit N (.int (k : ℕ)) m basis (some x0) (some xf) backend w b = .ok u ∧ Built N basis x0 xf u ∧ Ready u ∧ u.x.length = N ∧
      first u.x = x0 ∧ last u.x = xf ∧ cols1 u = m + 1 - k := by
  have hnc : utfcNC m (.int k) = .ok (arange k) := by
    unfold utfcNC
    have h2 : ((arange (k : ℤ)).any (· < 0)) = false := by
      simp only [arange, List.any_eq_false, List.mem_map, List.mem_range, decide_eq_true_eq]
      rintro _ ⟨i, -, rfl⟩
      simp
    have h1 : ¬ m < (arange (k : ℤ)).length := by simpa [arange] using hm
    simp only [bind, Except.bind, gt_iff_lt, h1, if_false, h2]
    rfl
  obtain ⟨be, hbe'⟩ : ∃ be, Backend.parse backend = some be := by
    rcases hbe with rfl | rfl <;> exact ⟨_, rfl⟩
  obtain ⟨bn, hbn⟩ : ∃ bn, BasisName.parse basis = some bn := by
    simp only [smoothNames, List.mem_cons, List.not_mem_nil, or_false] at hb
    rcases hb with rfl | rfl | rfl | rfl | rfl | rfl | rfl <;> exact ⟨_, rfl⟩
  have hne : basis ≠ "ELMReLU" := by
    simp only [smoothNames, List.mem_cons, List.not_mem_nil, or_false] at hb
    rcases hb with rfl | rfl | rfl | rfl | rfl | rfl | rfl <;> decide
  have hu : ∃ u, utfcInit N (.int (k : ℕ)) m basis (some x0) (some xf) backend w b = .ok u ∧ u.nC = arange k := by
    unfold utfcInit
    simp only [hnc, hbe', hbn, bind, Except.bind]
    exact ⟨_, rfl, rfl⟩
  obtain ⟨u, hu, hnC⟩ := hu
  have hB : Built N basis x0 xf u := ⟨_, _, _, _, _, hu⟩
  obtain ⟨p1, p2⟩ := built_points hN hx hB
  exact ⟨u, hu, hB, C76_ready N (.int k) m basis hne (some x0) (some xf) hx.ne backend w b u hu (by simp),
    (C13_points N hN (.int k) m basis backend x0 xf hx w b u hu).1, p1, p2, by
      unfold cols1
      rw [(init_fields hu).1, hnC]
      obtain ⟨n, rfl⟩ : ∃ n, m = k + n := ⟨m - k, by omega⟩
      have := kept_arange k (n + 1)
      rw [← add_assoc] at this
      simp only [outColumns, Bool.false_eq_true, if_false, this]
      omega⟩

theorem zerosOf_value {u : Utfc} (hu : Ready u) (pts : List ℝ) (width : ℕ) : zerosOf u pts width = .ok (List.replicate (cols1 u * width) 0) := by
  have h1 : Evaluable u.backend u.cls 0 := by
    cases u.backend with
    | cpp => exact fun _ _ _ => by omega
    | python => exact fun w b h => absurd h (hu.smooth w b)
  obtain ⟨V, ⟨A, hA, -, hc, -⟩, -⟩ := utfc_Hjax u h1 false (Or.inr hu.removal) pts.length fun j => pts.getD j 0
  unfold zerosOf
  rw [hA]
  simp only [bind, Except.bind]
  rw [hc]
  rfl

/-! ## tfc_linearNonlinear.py -/

/-- The conditions of the problem: the values at both ends, and value and slope agree at the joint. -/
structure HybridPair (y1 y2 : ℝ → ℝ) : Prop where
  smooth1 : ContDiff ℝ ∞ y1
  smooth2 : ContDiff ℝ ∞ y2
  left : y1 0 = hybY0
  right : y2 Real.pi = hybYf
  value : y1 (Real.pi / 2) = y2 (Real.pi / 2)
  slope : deriv y1 (Real.pi / 2) = deriv y2 (Real.pi / 2)

theorem hyb_first {u1 u2 : Utfc} {x0 x1 xf y0 yf : ℝ} (st : PState 2 2) :
    sysFn (hybSys u1 u2 x0 x1 xf y0 yf) st 0 = hybridY1 (fun d => iteratedDeriv d (st.free 0)) u1.x x0 x1 y0 (st.num 0) (st.num 1) := by
  funext x
  unfold sysFn curve hybSys PFun.ends hybridY1
  simp only [Matrix.cons_val_zero, List.map_cons, List.map_nil, List.sum_cons, List.sum_nil, iteratedDeriv_zero]
  ring

theorem hyb_second {u1 u2 : Utfc} {x0 x1 xf y0 yf : ℝ} (st : PState 2 2) :
    sysFn (hybSys u1 u2 x0 x1 xf y0 yf) st 1 = hybridY2 (fun d => iteratedDeriv d (st.free 1)) u2.x x1 xf (st.num 0) (st.num 1) yf := by
  funext x
  unfold sysFn curve hybSys PFun.ends hybridY2
  simp only [Matrix.cons_val_one, Matrix.cons_val_zero, List.map_cons, List.map_nil, List.sum_cons, List.sum_nil, iteratedDeriv_zero]
  ring

theorem hyb_smooth (u1 u2 : Utfc) (x0 x1 xf y0 yf : ℝ) : SmoothSys (hybSys u1 u2 x0 x1 xf y0 yf) := by
  refine ⟨?_, ?_⟩
  · intro q c hc
    unfold hybSys at hc
    fin_cases q
    all_goals
      simp at hc
      rcases hc with rfl | rfl | rfl
    all_goals exact ⟨by fun_prop, by norm_num⟩
  · intro E hE i
    unfold hybSys at hE
    simp only [List.mem_cons, List.not_mem_nil, or_false] at hE
    rcases hE with rfl | rfl
    · fin_cases i <;> simp
    · fin_cases i <;> simp

theorem hyb_pair {N : ℕ} (hN : 2 ≤ N) {basis : String} {u1 u2 : Utfc} (h1 : Built N basis 0 (Real.pi / 2) u1)
    (h2 : Built N basis (Real.pi / 2) Real.pi u2) {st : PState 2 2} (hst : ∀ q, ContDiff ℝ ∞ (st.free q)) :
    HybridPair (sysFn (hybSys u1 u2 0 (Real.pi / 2) Real.pi hybY0 hybYf) st 0) (sysFn (hybSys u1 u2 0 (Real.pi / 2) Real.pi hybY0 hybYf) st 1) := by
  have hp := Real.pi_pos
  have hpn := Real.pi_ne_zero
  obtain ⟨p1, p2⟩ := built_points hN (by linarith) h1
  obtain ⟨q1, q2⟩ := built_points hN (by linarith) h2
  have D1 := hst 0
  have D2 := hst 1
  have D1' : Differentiable ℝ (st.free 0) := D1.differentiable (by simp)
  have D2' : Differentiable ℝ (st.free 1) := D2.differentiable (by simp)
  have hc := hyb_smooth u1 u2 0 (Real.pi / 2) Real.pi hybY0 hybYf
  have s1 := curve_contDiff (ends_smooth hc 0 st.num) D1
  have s2 := curve_contDiff (ends_smooth hc 1 st.num) D2
  have f1 : sysFn (hybSys u1 u2 0 (Real.pi / 2) Real.pi hybY0 hybYf) st 0 0 = hybY0 := by
    rw [hyb_first]; unfold hybridY1; rw [p1, p2]; simp only [iteratedDeriv_zero]; field_simp; ring
  have f2 : sysFn (hybSys u1 u2 0 (Real.pi / 2) Real.pi hybY0 hybYf) st 0 (Real.pi / 2) = st.num 0 := by
    rw [hyb_first]; unfold hybridY1; rw [p1, p2]; simp only [iteratedDeriv_zero]; field_simp; ring
  have f3 : deriv (sysFn (hybSys u1 u2 0 (Real.pi / 2) Real.pi hybY0 hybYf) st 0) (Real.pi / 2) = st.num 1 := by
    rw [hyb_first]; unfold hybridY1; rw [p1, p2]; simp only [iteratedDeriv_zero, iteratedDeriv_one]
    generalize st.free 0 = g at *
    deriv_expr
    field_simp
    ring
  have g1 : sysFn (hybSys u1 u2 0 (Real.pi / 2) Real.pi hybY0 hybYf) st 1 (Real.pi / 2) = st.num 0 := by
    rw [hyb_second]; unfold hybridY2; rw [q1, q2]; simp only [iteratedDeriv_zero]; field_simp; ring
  have g2 : sysFn (hybSys u1 u2 0 (Real.pi / 2) Real.pi hybY0 hybYf) st 1 Real.pi = hybYf := by
    rw [hyb_second]; unfold hybridY2; rw [q1, q2]; simp only [iteratedDeriv_zero]; field_simp; ring
  have g3 : deriv (sysFn (hybSys u1 u2 0 (Real.pi / 2) Real.pi hybY0 hybYf) st 1) (Real.pi / 2) = st.num 1 := by
    rw [hyb_second]; unfold hybridY2; rw [q1, q2]; simp only [iteratedDeriv_zero, iteratedDeriv_one]
    generalize st.free 1 = g at *
    deriv_expr
    field_simp
    ring
  exact ⟨s1, s2, f1, g2, f2.trans g1.symm, f3.trans g3.symm⟩

theorem hyb_regular (u1 u2 : Utfc) (x0 x1 xf y0 yf : ℝ) (st : PState 2 2) : Regular (hybSys u1 u2 x0 x1 xf y0 yf) st := by
  refine ⟨?_, ?_⟩
  · intro q c hc
    unfold hybSys at hc
    fin_cases q
    all_goals
      simp at hc
      rcases hc with rfl | rfl | rfl
    all_goals fun_prop
  · intro E hE x _ o
    unfold hybSys at hE
    simp only [List.mem_cons, List.not_mem_nil, or_false] at hE
    rcases hE with rfl | rfl
    all_goals
      dsimp only
      fun_prop

/-- **C104**, J/Chapter_4/Example_4_5/tfc_linearNonlinear.py, end to end: for every smooth basis, all `N ≥ 2` and `m ≥ 3`, the program returns after at
most 50 steps. Every step minimises the linearised equations; every iterate meets the conditions at both ends and at the joint; the defects are those
of the two equations. If they are small on the whole segments, the returned functions are close to the reference solution the program prints its
error against. -/
theorem C104_hybrid (lib : LinAlg) (hlib : LinAlgCorrect lib) (N m : ℕ) (hN : 2 ≤ N) (hm : 3 ≤ m) (basis : String) (hb : basis ∈ smoothNames)
    (w b w' b' : ℕ → ℝ) (fuel : ℕ) (hf : 52 ≤ fuel) :
    ∃ u1 u2 S v, ∃ (it : ℕ) (vs : ℕ → View String) (sts : ℕ → PState 2 2) (y1 y2 : ℕ → ℝ → ℝ),
      Built N basis 0 (Real.pi / 2) u1 ∧ Built N basis (Real.pi / 2) Real.pi u2 ∧ S = hybSys u1 u2 0 (Real.pi / 2) Real.pi hybY0 hybYf ∧
      runHybrid lib N m basis w b w' b' fuel = .ok (some (v, (it : ℤ))) ∧ SysRun S
        (.dict .plain [entry1 "xi1" (List.replicate (m - 2) 0), entry1 "xi2" (List.replicate (m - 2) 0),
          entry1 "y1" [hybY0 + (hybYf - hybY0) / Real.pi * (Real.pi / 2)], entry1 "y1d" [(hybYf - hybY0) / Real.pi]]) 1e-13 50 v it vs sts ∧
      (∀ j, Regular S (sts j)) ∧ (∀ j, y1 j = sysFn S (sts j) 0 ∧ y2 j = sysFn S (sts j) 1) ∧ (∀ j ≤ it, HybridPair (y1 j) (y2 j)) ∧
      ((∀ x ∈ u1.x, |hybResid1 (y1 it) x| ≤ 1e-13) ∧ (∀ x ∈ u2.x, |hybResid2 (y2 it) x| ≤ 1e-13) ∨ it = 50 ∨
        ∃ j, it = j + 1 ∧ ∀ i, |(entries (vs it)).getD i 0 - (entries (vs j)).getD i 0| ≤ 1e-13) ∧
      ∀ R1 R2 B : ℝ, (∀ t ∈ Icc 0 (Real.pi / 2), |hybResid1 (y1 it) t| ≤ R1) → (∀ t ∈ Icc (Real.pi / 2) Real.pi, |hybResid2 (y2 it) t| ≤ R2) →
        -1 ≤ y2 it (Real.pi / 2) → (∀ t ∈ Icc (Real.pi / 2) Real.pi, y2 it t ≤ B) →
        (∀ t ∈ Icc 0 (Real.pi / 2), |y1 it t - hybReal t| ≤ hybBound R1 R2 B + 2 * R1) ∧
          ∀ t ∈ Icc (Real.pi / 2) Real.pi, |y2 it t - hybReal t| ≤ hybBound R1 R2 B := by
  have hp := Real.pi_pos
  obtain ⟨u1, hu1, hB1, hr1, hl1, -, last1, c1⟩ := objectK (k := 3) hN hm hb (Or.inl rfl) (x0 := 0) (xf := Real.pi / 2) (by linarith) w b
  obtain ⟨u2, hu2, hB2, hr2, hl2, -, -, c2⟩ := objectK (k := 3) hN hm hb (Or.inl rfl) (x0 := Real.pi / 2) (xf := Real.pi) (by linarith) w' b'
  obtain ⟨S, hS⟩ : ∃ S, S = hybSys u1 u2 0 (Real.pi / 2) Real.pi hybY0 hybYf := ⟨_, rfl⟩
  obtain ⟨a, ha⟩ : ∃ a : ℝ, a = 1 * ((hybYf - hybY0) / (Real.pi - 0) * last u1.x + hybY0) := ⟨_, rfl⟩
  obtain ⟨a', ha'⟩ : ∃ a' : ℝ, a' = 1 * ((hybYf - hybY0) / (Real.pi - 0)) := ⟨_, rfl⟩
  obtain ⟨kvs, hk⟩ : ∃ kvs, kvs = [entry1 "xi1" (List.replicate (cols1 u1 * 1) 0), entry1 "xi2" (List.replicate (cols1 u2 * 1) 0),
    entry1 "y1" [a], entry1 "y1d" [a']] := ⟨_, rfl⟩
  have hfit : FitsSys S kvs := by
    subst hS hk
    refine ⟨by simp [entry1], ?_, ?_, ?_, ?_, ?_, ?_⟩
    all_goals
      intro q
      fin_cases q <;> simp [hybSys, entry1, sizeOfKey, hr1, hr2]
  have hprop : ProperUnknowns (.dict .plain kvs) := by
    subst hk
    refine ⟨by simp, by simp [entry1], fun p hp => ?_⟩
    simp only [List.mem_cons, List.not_mem_nil, or_false] at hp
    rcases hp with rfl | rfl | rfl | rfl <;> rfl
  have hne : places S.eqs ≠ [] := by
    have hx : u1.x ≠ [] := by
      intro h
      rw [h] at hl1
      simp at hl1
      omega
    obtain ⟨x, hx⟩ := List.exists_mem_of_ne_nil _ hx
    subst hS
    have : (⟨⟨u1.x, 2, ![(0, 2), (0, 0)], here, 1, fun x J _ _ => J 0 + J 1 - hybF x⟩, x, (0 : Fin 1)⟩ : Place 2 2) ∈
        places (hybSys u1 u2 0 (Real.pi / 2) Real.pi hybY0 hybYf).eqs := mem_places.2 ⟨List.mem_cons_self, hx⟩
    exact List.ne_nil_of_mem this
  have hpos : entries (View.dict .plain kvs) ≠ [] := by
    subst hk
    simp [entries, entry1]
  obtain ⟨v, it, vs, sts, hrun, hsys⟩ := C104_newton hlib (method := .pinv) (by simp) (hS ▸ hyb_smooth u1 u2 _ _ _ _ _) hfit hprop hne hpos 1e-13
    (by norm_num) 50 true fuel hf
  have hpair : ∀ j ≤ it, HybridPair (sysFn S (sts j) 0) (sysFn S (sts j) 1) := fun j hj => hS ▸ hyb_pair hN hB1 hB2 (hsys.means j hj).smooth
  refine ⟨u1, u2, S, v, it, vs, sts, fun j => sysFn S (sts j) 0, fun j => sysFn S (sts j) 1, hB1, hB2, hS, ?_, ?_,
    fun j => hS ▸ hyb_regular _ _ _ _ _ _ _ _, fun j => ⟨rfl, rfl⟩, hpair, ?_, ?_⟩
  · unfold runHybrid
    rw [show utfcInit N (.int 3) m basis (some 0) (some (Real.pi / 2)) "C++" w b = .ok u1 from hu1,
      show utfcInit N (.int 3) m basis (some (Real.pi / 2)) (some Real.pi) "C++" w' b' = .ok u2 from hu2]
    simp only [zerosOf_value hr1, zerosOf_value hr2, bind, Except.bind]
    rw [← hrun, hS, hk, ha, ha']
  · rw [hk, ha, ha', c1, c2, last1] at hsys
    convert hsys using 7 <;> first | omega | ring_nf
  · rcases hsys.stop with h | h
    · refine Or.inl ⟨fun x hx => ?_, fun x hx => ?_⟩
      · have := h ⟨u1.x, 2, ![(0, 2), (0, 0)], here, 1, fun x J _ _ => J 0 + J 1 - hybF x⟩ (by rw [hS]; exact List.mem_cons_self) x hx 0
        simpa [sysMiss, sysJet, here, hybResid1, iteratedDeriv_succ, iteratedDeriv_zero] using this
      · have := h ⟨u2.x, 3, ![(1, 2), (1, 0), (1, 1)], here, 1, fun x J _ _ => J 0 + J 1 * J 2 - hybF x⟩
          (by rw [hS]; exact List.mem_cons_of_mem _ List.mem_cons_self) x hx 0
        simpa [sysMiss, sysJet, here, hybResid2, iteratedDeriv_succ, iteratedDeriv_zero] using this
    · exact Or.inr h
  · intro R1 R2 B e1 e2 e3 e4
    have P := hpair it le_rfl
    exact C96_two_segments _ _ (contDiff_infty.1 P.smooth1 2) (contDiff_infty.1 P.smooth2 2) P.left P.right P.value P.slope
      e1 e2 e3 e4

/-! ## spectral_linearNonlinear.py -/

theorem spec_smooth (u1 u2 : Utfc) (y0 yf : ℝ) : SmoothSys (hybSpecSys u1 u2 y0 yf) := by
  refine ⟨?_, ?_⟩
  · intro q c hc
    unfold hybSpecSys at hc
    fin_cases q <;> simp at hc
  · intro E hE i
    unfold hybSpecSys at hE
    simp only [List.mem_cons, List.not_mem_nil, or_false] at hE
    rcases hE with rfl | rfl | rfl | rfl | rfl | rfl
    all_goals fin_cases i <;> simp

theorem spec_regular (u1 u2 : Utfc) (y0 yf : ℝ) (st : PState 2 0) : Regular (hybSpecSys u1 u2 y0 yf) st := by
  refine ⟨?_, ?_⟩
  · intro q c hc
    unfold hybSpecSys at hc
    fin_cases q <;> simp at hc
  · intro E hE x _ o
    unfold hybSpecSys at hE
    simp only [List.mem_cons, List.not_mem_nil, or_false] at hE
    rcases hE with rfl | rfl | rfl | rfl | rfl | rfl
    all_goals
      dsimp only
      fun_prop

/-- **C104**, J/Chapter_4/Example_4_5/spectral_linearNonlinear.py, end to end: for every smooth basis and all `N ≥ 2` and `m`, the program returns after at
most 50 steps. Every step minimises the linearised equations and conditions together; when the program ends because they are small, the functions miss
the values at both ends and the joining of value and slope by at most `1e-13`, and the equations at the inner points. -/
theorem C104_hybrid_spectral (lib : LinAlg) (hlib : LinAlgCorrect lib) (N m : ℕ) (hN : 2 ≤ N) (basis : String) (hb : basis ∈ smoothNames)
    (w b w' b' : ℕ → ℝ) (fuel : ℕ) (hf : 52 ≤ fuel) :
    ∃ u1 u2 S v, ∃ (it : ℕ) (vs : ℕ → View String) (sts : ℕ → PState 2 0) (y1 y2 : ℕ → ℝ → ℝ),
      Built N basis 0 (Real.pi / 2) u1 ∧ Built N basis (Real.pi / 2) Real.pi u2 ∧ S = hybSpecSys u1 u2 hybY0 hybYf ∧
      runHybridSpec lib N m basis w b w' b' fuel = .ok (some (v, (it : ℤ))) ∧ SysRun S
        (.dict .plain [entry1 "xi1" (List.replicate (m + 1) 0), entry1 "xi2" (List.replicate (m + 1) 0)]) 1e-13 50 v it vs sts ∧
      (∀ j, Regular S (sts j)) ∧ (∀ j, y1 j = (sts j).free 0 ∧ y2 j = (sts j).free 1) ∧
      (∀ j ≤ it, ContDiff ℝ ∞ (y1 j) ∧ ContDiff ℝ ∞ (y2 j)) ∧
      ((|y1 it 0 - hybY0| ≤ 1e-13 ∧ |y1 it (Real.pi / 2) - y2 it (Real.pi / 2)| ≤ 1e-13 ∧
          |deriv (y1 it) (Real.pi / 2) - deriv (y2 it) (Real.pi / 2)| ≤ 1e-13 ∧ |y2 it Real.pi - hybYf| ≤ 1e-13 ∧
          (∀ x ∈ u1.x.tail.dropLast, |hybResid1 (y1 it) x| ≤ 1e-13) ∧ ∀ x ∈ u2.x.tail.dropLast, |hybResid2 (y2 it) x| ≤ 1e-13) ∨ it = 50 ∨
        ∃ j, it = j + 1 ∧ ∀ i, |(entries (vs it)).getD i 0 - (entries (vs j)).getD i 0| ≤ 1e-13) := by
  have hp := Real.pi_pos
  obtain ⟨u1, hu1, hB1, hr1, hl1, first1, last1, c1⟩ := objectK (k := 0) hN (by omega) hb (Or.inl rfl) (m := m) (x0 := 0) (xf := Real.pi / 2)
    (by linarith) w b
  obtain ⟨u2, hu2, hB2, hr2, hl2, first2, last2, c2⟩ := objectK (k := 0) hN (by omega) hb (Or.inl rfl) (m := m) (x0 := Real.pi / 2) (xf := Real.pi)
    (by linarith) w' b'
  obtain ⟨S, hS⟩ : ∃ S, S = hybSpecSys u1 u2 hybY0 hybYf := ⟨_, rfl⟩
  obtain ⟨kvs, hk⟩ : ∃ kvs, kvs = [entry1 "xi1" (List.replicate (cols1 u1 * 1) 0), entry1 "xi2" (List.replicate (cols1 u2 * 1) 0)] := ⟨_, rfl⟩
  have hfit : FitsSys S kvs := by
    subst hS hk
    refine ⟨by simp [entry1], ?_, ?_, ?_, ?_, fun i => i.elim0, fun i => i.elim0⟩
    all_goals
      intro q
      fin_cases q <;> simp [hybSpecSys, entry1, sizeOfKey, hr1, hr2]
  have hprop : ProperUnknowns (.dict .plain kvs) := by
    subst hk
    refine ⟨by simp, by simp [entry1], fun p hp => ?_⟩
    simp only [List.mem_cons, List.not_mem_nil, or_false] at hp
    rcases hp with rfl | rfl <;> rfl
  have hne : places S.eqs ≠ [] := by
    subst hS
    have : (⟨⟨[first u1.x], 1, ![(0, 0)], here, 1, fun _ J _ _ => J 0 - hybY0⟩, first u1.x, (0 : Fin 1)⟩ : Place 2 0) ∈
        places (hybSpecSys u1 u2 hybY0 hybYf).eqs := mem_places.2 ⟨List.mem_cons_self, List.mem_cons_self⟩
    exact List.ne_nil_of_mem this
  have hpos : entries (View.dict .plain kvs) ≠ [] := by
    subst hk
    simp [entries, entry1, c1]
  obtain ⟨v, it, vs, sts, hrun, hsys⟩ := C104_newton hlib (method := .pinv) (by simp) (hS ▸ spec_smooth u1 u2 _ _) hfit hprop hne hpos 1e-13
    (by norm_num) 50 true fuel hf
  have hfn : ∀ st q, sysFn S st q = st.free q := by
    intro st q
    subst hS
    funext x
    fin_cases q <;> simp [sysFn, curve, hybSpecSys, PFun.ends]
  refine ⟨u1, u2, S, v, it, vs, sts, fun j => (sts j).free 0, fun j => (sts j).free 1, hB1, hB2, hS, ?_, ?_,
    fun j => hS ▸ spec_regular _ _ _ _ _, fun j => ⟨rfl, rfl⟩, fun j hj => ⟨(hsys.means j hj).smooth 0, (hsys.means j hj).smooth 1⟩, ?_⟩
  · unfold runHybridSpec
    rw [show utfcInit N (.int 0) m basis (some 0) (some (Real.pi / 2)) "C++" w b = .ok u1 from hu1,
      show utfcInit N (.int 0) m basis (some (Real.pi / 2)) (some Real.pi) "C++" w' b' = .ok u2 from hu2]
    simp only [zerosOf_value hr1, zerosOf_value hr2, bind, Except.bind]
    rw [← hrun, hS, hk]
  · rw [hk, c1, c2] at hsys
    convert hsys using 7 <;> omega
  · rcases hsys.stop with h | h
    · left
      have hE : S.eqs = [
          ⟨[first u1.x], 1, ![(0, 0)], here, 1, fun _ J _ _ => J 0 - hybY0⟩,
          ⟨u1.x.tail.dropLast, 2, ![(0, 2), (0, 0)], here, 1, fun x J _ _ => J 0 + J 1 - hybF x⟩,
          ⟨[last u1.x], 2, ![(0, 0), (1, 0)], ![id, fun _ => first u2.x], 1, fun _ J _ _ => J 0 - J 1⟩,
          ⟨[last u1.x], 2, ![(0, 1), (1, 1)], ![id, fun _ => first u2.x], 1, fun _ J _ _ => J 0 - J 1⟩,
          ⟨u2.x.tail.dropLast, 3, ![(1, 2), (1, 0), (1, 1)], here, 1, fun x J _ _ => J 0 + J 1 * J 2 - hybF x⟩,
          ⟨[last u2.x], 1, ![(1, 0)], here, 1, fun _ J _ _ => J 0 - hybYf⟩] := by
        subst hS
        rfl
      rw [hE] at h
      simp only [List.forall_mem_cons] at h
      obtain ⟨h1, h2, h3, h4, h5, h6, -⟩ := h
      have a1 := h1.1 0
      have a3 := h3.1 0
      have a4 := h4.1 0
      have a6 := h6.1 0
      have a2 := fun x hx => h2 x hx 0
      have a5 := fun x hx => h5 x hx 0
      simp only [sysMiss, sysJet, here, id, hfn, Matrix.cons_val, iteratedDeriv_zero, iteratedDeriv_succ,
        first1, last1, first2, last2] at a1 a2 a3 a4 a5 a6
      exact ⟨a1, a3, a4, a6, a2, a5⟩
    · exact Or.inr h

/-! ## UnknownTime.py -/

theorem unk_smooth (xtfc utfc : Utfc) (x0 xf alfa beta : ℝ) : SmoothSys (unkSys xtfc utfc x0 xf alfa beta) := by
  refine ⟨?_, ?_⟩
  · intro q c hc
    unfold unkSys at hc
    fin_cases q
    · simp at hc
      rcases hc with rfl | rfl
      all_goals exact ⟨by fun_prop, by norm_num⟩
    · simp at hc
  · intro E hE i
    unfold unkSys at hE
    simp only [List.mem_cons, List.not_mem_nil, or_false] at hE
    rcases hE with rfl | rfl | rfl
    all_goals fin_cases i <;> simp

theorem unk_regular (xtfc utfc : Utfc) (x0 xf alfa beta : ℝ) (st : PState 2 1) : Regular (unkSys xtfc utfc x0 xf alfa beta) st := by
  refine ⟨?_, ?_⟩
  · intro q c hc
    unfold unkSys at hc
    fin_cases q
    · simp at hc
      rcases hc with rfl | rfl
      all_goals fun_prop
    · simp at hc
  · intro E hE x _ o
    unfold unkSys at hE
    simp only [List.mem_cons, List.not_mem_nil, or_false] at hE
    rcases hE with rfl | rfl | rfl
    all_goals
      dsimp only
      fun_prop

/-- The defects of the equations of UnknownTime.py: of the state, of the control, and of the condition on the Hamiltonian. -/
noncomputable def unkDefects (alfa beta b : ℝ) (x u : ℝ → ℝ) (z : ℝ) : List ℝ :=
  [b ^ 2 * deriv x z + alfa * x z + beta * u z, b ^ 2 * deriv u z + beta * x z - alfa * u z, (x z ^ 2 - u z ^ 2) / 2 - alfa / beta * x z * u z]

/-- **C104**, the equations of UnknownTime.py: if they hold on the whole interval, then `x` and `u` as functions of the time `t = (z + 1)/b²` the program
plots them against satisfy the differential equations without `b`, on the interval of length `2/b²`. -/
theorem C104_unknown_time (alfa beta b : ℝ) (hb : b ≠ 0) (x u : ℝ → ℝ) (hx : Differentiable ℝ x) (hu : Differentiable ℝ u)
    (h : ∀ z ∈ Icc (-1 : ℝ) 1, ∀ d ∈ unkDefects alfa beta b x u z, d = 0) (X U : ℝ → ℝ) (hX : ∀ z, X ((z - -1) / b ^ 2) = x z)
    (hU : ∀ z, U ((z - -1) / b ^ 2) = u z) :
    X 0 = x (-1) ∧ X (2 / b ^ 2) = x 1 ∧ ∀ t ∈ Icc 0 (2 / b ^ 2), deriv X t = -alfa * X t - beta * U t ∧ deriv U t = -beta * X t + alfa * U t := by
  have hb2 : (0 : ℝ) < b ^ 2 := by positivity
  have eX : X = fun t => x (b ^ 2 * t - 1) := funext fun t => by
    rw [← hX]
    congr 1
    field_simp
    ring
  have eU : U = fun t => u (b ^ 2 * t - 1) := funext fun t => by
    rw [← hU]
    congr 1
    field_simp
    ring
  have hin : ∀ t : ℝ, HasDerivAt (fun t => b ^ 2 * t - 1) (b ^ 2) t := fun t => by
    have := ((hasDerivAt_id t).const_mul (b ^ 2)).sub_const 1
    exact this.congr_deriv (by simp)
  refine ⟨by rw [← hX]; simp, by rw [← hX]; norm_num, fun t ht => ?_⟩
  have hz : b ^ 2 * t - 1 ∈ Icc (-1 : ℝ) 1 := by
    have h1 := mul_le_mul_of_nonneg_left ht.2 hb2.le
    rw [mul_div_cancel₀ _ hb2.ne'] at h1
    have h2 := mul_nonneg hb2.le ht.1
    constructor <;> linarith
  have h1 := h _ hz
  simp only [unkDefects, List.mem_cons, List.not_mem_nil, or_false, forall_eq_or_imp, forall_eq] at h1
  obtain ⟨e1, e2, -⟩ := h1
  have d1 : deriv X t = deriv x (b ^ 2 * t - 1) * b ^ 2 := by
    rw [eX]
    exact ((hx _).hasDerivAt.comp t (hin t)).deriv
  have d2 : deriv U t = deriv u (b ^ 2 * t - 1) * b ^ 2 := by
    rw [eU]
    exact ((hu _).hasDerivAt.comp t (hin t)).deriv
  rw [d1, d2, eX, eU]
  constructor <;> linarith

/-- **C104**, the equations of UnknownTime.py cannot be solved: the program starts at `x = 0`, where the condition on the Hamiltonian gives `u = 0` as
well; from there the differential equations never leave 0, whatever the time. So no functions and no `b` satisfy all equations and the condition
`x = xf` at the end, and the defects are never all zero. -/
theorem C104_unknown_fails (alfa beta xf b : ℝ) (hbeta : beta ≠ 0) (hxf : xf ≠ 0) (x u : ℝ → ℝ) (hx : Differentiable ℝ x) (hu : Differentiable ℝ u)
    (h0 : x (-1) = 0) (h1 : x 1 = xf) : ∃ z ∈ Icc (-1 : ℝ) 1, ∃ d ∈ unkDefects alfa beta b x u z, d ≠ 0 := by
  by_contra hcon
  push Not at hcon
  have heq : ∀ z ∈ Icc (-1 : ℝ) 1, b ^ 2 * deriv x z + alfa * x z + beta * u z = 0 ∧ b ^ 2 * deriv u z + beta * x z - alfa * u z = 0 ∧
      (x z ^ 2 - u z ^ 2) / 2 - alfa / beta * x z * u z = 0 := by
    intro z hz
    have := hcon z hz
    simpa only [unkDefects, List.mem_cons, List.not_mem_nil, or_false, forall_eq_or_imp, forall_eq] using this
  have hu0 : u (-1) = 0 := by
    obtain ⟨-, -, e⟩ := heq (-1) (by norm_num)
    rw [h0] at e
    have : u (-1) ^ 2 = 0 := by linarith
    exact pow_eq_zero_iff (two_ne_zero) |>.1 this
  by_cases hb : b = 0
  · obtain ⟨e1, e2, -⟩ := heq 1 (by norm_num)
    rw [hb, h1] at e1 e2
    have : (alfa ^ 2 + beta ^ 2) * xf = 0 := by linear_combination alfa * e1 + beta * e2
    have hp : 0 < alfa ^ 2 + beta ^ 2 := by positivity
    exact hxf ((mul_eq_zero.1 this).resolve_left hp.ne')
  · have hb2 : (0 : ℝ) < b ^ 2 := by positivity
    obtain ⟨K, hK⟩ : ∃ K, K = 2 * (|alfa| + |beta|) / b ^ 2 := ⟨_, rfl⟩
    have hE : ∀ z, HasDerivAt (fun z => (x z ^ 2 + u z ^ 2) * Real.exp (-K * z))
        ((2 * x z * deriv x z + 2 * u z * deriv u z - K * (x z ^ 2 + u z ^ 2)) * Real.exp (-K * z)) z := by
      intro z
      have a1 := ((hx z).hasDerivAt.pow 2).add ((hu z).hasDerivAt.pow 2)
      have a2 : HasDerivAt (fun z => Real.exp (-K * z)) (Real.exp (-K * z) * -K) z :=
        ((hasDerivAt_id z).const_mul (-K)).exp.congr_deriv (by simp)
      refine (a1.mul a2).congr_deriv ?_
      simp only [Pi.add_apply, Pi.pow_apply]
      push_cast
      ring
    have hanti : AntitoneOn (fun z => (x z ^ 2 + u z ^ 2) * Real.exp (-K * z)) (Icc (-1) 1) := by
      refine antitoneOn_of_deriv_nonpos (convex_Icc _ _) (fun z _ => (hE z).continuousAt.continuousWithinAt)
        (fun z _ => (hE z).differentiableAt.differentiableWithinAt) fun z hz => ?_
      rw [(hE z).deriv]
      refine mul_nonpos_of_nonpos_of_nonneg ?_ (Real.exp_pos _).le
      obtain ⟨e1, e2, -⟩ := heq z (interior_subset hz)
      have : b ^ 2 * (2 * x z * deriv x z + 2 * u z * deriv u z) ≤ 2 * (|alfa| + |beta|) * (x z ^ 2 + u z ^ 2) := by
        have e : b ^ 2 * (2 * x z * deriv x z + 2 * u z * deriv u z) =
            2 * (-alfa * x z ^ 2 + alfa * u z ^ 2 - beta * (2 * x z * u z)) := by linear_combination 2 * x z * e1 + 2 * u z * e2
        rw [e]
        have k1 : -alfa * x z ^ 2 ≤ |alfa| * x z ^ 2 := mul_le_mul_of_nonneg_right (neg_le_abs alfa) (sq_nonneg _)
        have k2 : alfa * u z ^ 2 ≤ |alfa| * u z ^ 2 := mul_le_mul_of_nonneg_right (le_abs_self alfa) (sq_nonneg _)
        have k3 : -(beta * (2 * x z * u z)) ≤ |beta| * (x z ^ 2 + u z ^ 2) := by
          refine (neg_le_abs _).trans ?_
          rw [abs_mul]
          refine mul_le_mul_of_nonneg_left ?_ (abs_nonneg _)
          rw [abs_le]
          constructor <;> nlinarith [sq_nonneg (x z + u z), sq_nonneg (x z - u z)]
        nlinarith
      rw [hK, sub_nonpos, div_mul_eq_mul_div, le_div_iff₀ hb2]
      linarith
    have := hanti (left_mem_Icc.2 (by norm_num)) (right_mem_Icc.2 (by norm_num)) (by norm_num : (-1 : ℝ) ≤ 1)
    simp only [h0, hu0, h1] at this
    have hp : 0 < xf ^ 2 := by positivity
    have he := Real.exp_pos (-K * 1)
    nlinarith [sq_nonneg (u 1), mul_pos hp he, mul_nonneg (sq_nonneg (u 1)) he.le]

theorem unk_ends {N : ℕ} (hN : 2 ≤ N) {xtfc utfc : Utfc} (h : Built N "CP" (-1) 1 xtfc) (x0 xf alfa beta : ℝ) {st : PState 2 1}
    (hst : ∀ q, ContDiff ℝ ∞ (st.free q)) :
    ContDiff ℝ ∞ (sysFn (unkSys xtfc utfc x0 xf alfa beta) st 0) ∧ ContDiff ℝ ∞ (sysFn (unkSys xtfc utfc x0 xf alfa beta) st 1) ∧
      sysFn (unkSys xtfc utfc x0 xf alfa beta) st 0 (-1) = x0 ∧ sysFn (unkSys xtfc utfc x0 xf alfa beta) st 0 1 = xf := by
  obtain ⟨p1, p2⟩ := built_points hN (by norm_num) h
  have hc := unk_smooth xtfc utfc x0 xf alfa beta
  have hx : ∀ t, sysFn (unkSys xtfc utfc x0 xf alfa beta) st 0 t = st.free 0 t + (1 - t) / (1 - -1) * (x0 - st.free 0 (-1)) +
      (t - -1) / (1 - -1) * (xf - st.free 0 1) := by
    intro t
    unfold sysFn curve unkSys PFun.ends
    simp only [Matrix.cons_val_zero, List.map_cons, List.map_nil, List.sum_cons, List.sum_nil, iteratedDeriv_zero,
      built_z hN (Or.inl rfl) h, p1, p2]
    ring
  refine ⟨curve_contDiff (ends_smooth hc 0 st.num) (hst 0), curve_contDiff (ends_smooth hc 1 st.num) (hst 1), ?_, ?_⟩
  · rw [hx]
    norm_num
  · rw [hx]
    norm_num

/-- **C104**, J/Chapter_4/Example_4_7/UnknownTime.py, end to end: for all `N ≥ 2`, `m ≥ 2` and all constants with `beta ≠ 0`, the program returns after at
most 50 steps. Every step minimises the linearised equations; every iterate meets the conditions at both ends. With the start at 0 and another end, as in
the program, no iterate satisfies the equations on the whole interval. -/
theorem C104_unknown (lib : LinAlg) (hlib : LinAlgCorrect lib) (N m : ℕ) (hN : 2 ≤ N) (hm : 2 ≤ m) (x0 xf alfa beta tol : ℝ) (htol : tol < 1)
    (w b w' b' : ℕ → ℝ) (fuel : ℕ) (hf : 52 ≤ fuel) :
    ∃ xtfc utfc S v, ∃ (it : ℕ) (vs : ℕ → View String) (sts : ℕ → PState 2 1) (x u : ℕ → ℝ → ℝ),
      Built N "CP" (-1) 1 xtfc ∧ Built N "CP" (-1) 1 utfc ∧ S = unkSys xtfc utfc x0 xf alfa beta ∧
      runUnknownTime lib N m x0 xf alfa beta tol w b w' b' fuel = .ok (some (v, (it : ℤ))) ∧
      SysRun S (.dict .plain [entry1 "xi_x" (List.replicate (m - 1) 0), entry1 "xi_u" (List.replicate (m + 1) 0), entry1 "b" [Real.sqrt 2]])
        tol 50 v it vs sts ∧
      (∀ j, Regular S (sts j)) ∧ (∀ j, x j = sysFn S (sts j) 0 ∧ u j = sysFn S (sts j) 1) ∧
      (∀ j ≤ it, ContDiff ℝ ∞ (x j) ∧ ContDiff ℝ ∞ (u j) ∧ x j (-1) = x0 ∧ x j 1 = xf) ∧
      ((∀ z ∈ xtfc.z, ∀ d ∈ unkDefects alfa beta ((sts it).num 0) (x it) (u it) z, |d| ≤ tol) ∨ it = 50 ∨
        ∃ j, it = j + 1 ∧ ∀ i, |(entries (vs it)).getD i 0 - (entries (vs j)).getD i 0| ≤ tol) ∧
      (x0 = 0 → xf ≠ 0 → beta ≠ 0 → ∀ j ≤ it, ∃ z ∈ Icc (-1 : ℝ) 1, ∃ d ∈ unkDefects alfa beta ((sts j).num 0) (x j) (u j) z, d ≠ 0) := by
  have hcp : "CP" ∈ smoothNames := by simp [smoothNames]
  obtain ⟨xtfc, hu1, hB1, hr1, hl1, -, -, c1⟩ := objectK (k := 2) hN hm hcp (Or.inl rfl) (x0 := -1) (xf := 1) (by norm_num) w b
  obtain ⟨utfc, hu2, hB2, hr2, hl2, -, -, c2⟩ := objectK (k := 0) hN (by omega) hcp (Or.inl rfl) (m := m) (x0 := -1) (xf := 1) (by norm_num) w' b'
  obtain ⟨S, hS⟩ : ∃ S, S = unkSys xtfc utfc x0 xf alfa beta := ⟨_, rfl⟩
  obtain ⟨kvs, hk⟩ : ∃ kvs, kvs = [entry1 "xi_x" (List.replicate (cols1 xtfc * 1) 0), entry1 "xi_u" (List.replicate (cols1 utfc * 1) 0),
    entry1 "b" [1 * Real.sqrt 2]] := ⟨_, rfl⟩
  have hfit : FitsSys S kvs := by
    subst hS hk
    refine ⟨by simp [entry1], ?_, ?_, ?_, ?_, ?_, ?_⟩
    all_goals
      intro q
      fin_cases q <;> simp [unkSys, entry1, sizeOfKey, hr1, hr2]
  have hprop : ProperUnknowns (.dict .plain kvs) := by
    subst hk
    refine ⟨by simp, by simp [entry1], fun p hp => ?_⟩
    simp only [List.mem_cons, List.not_mem_nil, or_false] at hp
    rcases hp with rfl | rfl | rfl <;> rfl
  have hne : places S.eqs ≠ [] := by
    have hx : xtfc.z ≠ [] := by
      rw [built_z hN (Or.inl rfl) hB1]
      intro h
      rw [h] at hl1
      simp at hl1
      omega
    obtain ⟨x, hx⟩ := List.exists_mem_of_ne_nil _ hx
    subst hS
    have : (⟨⟨xtfc.z, 3, ![(0, 1), (0, 0), (1, 0)], here, 1, fun _ J s _ => -s 0 ^ 2 * J 0 - alfa * J 1 - beta * J 2⟩, x, (0 : Fin 1)⟩ : Place 2 1) ∈
        places (unkSys xtfc utfc x0 xf alfa beta).eqs := mem_places.2 ⟨List.mem_cons_self, hx⟩
    exact List.ne_nil_of_mem this
  have hpos : entries (View.dict .plain kvs) ≠ [] := by
    subst hk
    simp [entries, entry1]
  obtain ⟨v, it, vs, sts, hrun, hsys⟩ := C104_newton hlib (method := .pinv) (by simp) (hS ▸ unk_smooth xtfc utfc x0 xf alfa beta) hfit hprop hne hpos tol
    htol 50 true fuel hf
  have hends : ∀ j ≤ it, ContDiff ℝ ∞ (sysFn S (sts j) 0) ∧ ContDiff ℝ ∞ (sysFn S (sts j) 1) ∧ sysFn S (sts j) 0 (-1) = x0 ∧ sysFn S (sts j) 0 1 = xf :=
    fun j hj => hS ▸ unk_ends hN hB1 x0 xf alfa beta (hsys.means j hj).smooth
  refine ⟨xtfc, utfc, S, v, it, vs, sts, fun j => sysFn S (sts j) 0, fun j => sysFn S (sts j) 1, hB1, hB2, hS, ?_, ?_,
    fun j => hS ▸ unk_regular _ _ _ _ _ _ _, fun j => ⟨rfl, rfl⟩, hends, ?_, ?_⟩
  · unfold runUnknownTime
    rw [show utfcInit N (.int 2) m "CP" (some (-1)) (some 1) "C++" w b = .ok xtfc from hu1,
      show utfcInit N (.int 0) m "CP" (some (-1)) (some 1) "C++" w' b' = .ok utfc from hu2]
    simp only [zerosOf_value hr1, zerosOf_value hr2, bind, Except.bind]
    rw [← hrun, hS, hk]
  · rw [hk, c1, c2, one_mul] at hsys
    convert hsys using 7 <;> omega
  · rcases hsys.stop with h | h
    · refine Or.inl fun z hz => ?_
      have a1 := h ⟨xtfc.z, 3, ![(0, 1), (0, 0), (1, 0)], here, 1, fun _ J s _ => -s 0 ^ 2 * J 0 - alfa * J 1 - beta * J 2⟩
        (by rw [hS]; exact List.mem_cons_self) z hz 0
      have a2 := h ⟨xtfc.z, 3, ![(1, 1), (0, 0), (1, 0)], here, 1, fun _ J s _ => -s 0 ^ 2 * J 0 - beta * J 1 + alfa * J 2⟩
        (by rw [hS]; exact List.mem_cons_of_mem _ List.mem_cons_self) z hz 0
      have a3 := h ⟨xtfc.z, 2, ![(0, 0), (1, 0)], here, 1, fun _ J _ _ => 0.5 * J 0 ^ 2 - 0.5 * J 1 ^ 2 - alfa / beta * J 0 * J 1⟩
        (by rw [hS]; exact List.mem_cons_of_mem _ (List.mem_cons_of_mem _ List.mem_cons_self)) z hz 0
      simp only [sysMiss, sysJet, here, Matrix.cons_val_zero, Matrix.cons_val_one, Matrix.cons_val, iteratedDeriv_zero,
        iteratedDeriv_one] at a1 a2 a3
      simp only [unkDefects, List.mem_cons, List.not_mem_nil, or_false, forall_eq_or_imp, forall_eq]
      refine ⟨?_, ?_, ?_⟩
      · rw [← abs_neg]
        convert a1 using 2
        ring
      · rw [← abs_neg]
        convert a2 using 2
        ring
      · convert a3 using 2
        ring
    · exact Or.inr h
  · intro e0 ef eb j hj
    obtain ⟨s1, s2, k0, k1⟩ := hends j hj
    exact C104_unknown_fails alfa beta xf _ eb ef _ _ (s1.differentiable (by simp)) (s2.differentiable (by simp)) (k0.trans e0) k1

/-- The Hamiltonian the program prints (UnknownTime.py 89, 90) is the one in its equations. -/
theorem C104_hamiltonian (alfa beta b : ℝ) (hb : beta ≠ 0) (x u : ℝ → ℝ) (z : ℝ) :
    (unkDefects alfa beta b x u z)[2]? = some (unkHam alfa beta (x z) (u z)) := by
  simp only [unkDefects, unkHam, List.getElem?_cons_succ, List.getElem?_cons_zero]
  congr 1
  field_simp
  ring

/-! ## Concrete cases -/

/-- The run of tfc_linearNonlinear.py as it is, with its `N` and `m`. -/
example : ∃ lib v, ∃ it : ℕ, runHybrid lib 100 20 "CP" (fun _ => 0) (fun _ => 0) (fun _ => 0) (fun _ => 0) 52 = .ok (some (v, (it : ℤ))) ∧ it ≤ 50 := by
  obtain ⟨lib, hlib⟩ := Verif.Lemmas.LinAlg.linAlg_exists
  obtain ⟨_, _, _, v, it, _, _, _, _, _, _, _, h, hr, _⟩ := C104_hybrid lib hlib 100 20 (by norm_num) (by norm_num) "CP" (by simp [smoothNames])
    (fun _ => 0) (fun _ => 0) (fun _ => 0) (fun _ => 0) 52 le_rfl
  exact ⟨lib, v, it, h, hr.bound⟩

/-- The run of UnknownTime.py as it is; the machine epsilon is `2^(-52)`. -/
example : ∃ lib v, ∃ it : ℕ, runUnknownTime lib 35 30 0 1 1 1 (2 ^ (-52 : ℤ)) (fun _ => 0) (fun _ => 0) (fun _ => 0) (fun _ => 0) 52 =
    .ok (some (v, (it : ℤ))) ∧ it ≤ 50 := by
  obtain ⟨lib, hlib⟩ := Verif.Lemmas.LinAlg.linAlg_exists
  obtain ⟨_, _, _, v, it, _, _, _, _, _, _, _, h, hr, _⟩ := C104_unknown lib hlib 35 30 (by norm_num) (by norm_num) 0 1 1 1 (2 ^ (-52 : ℤ)) (by norm_num)
    (fun _ => 0) (fun _ => 0) (fun _ => 0) (fun _ => 0) 52 le_rfl
  exact ⟨lib, v, it, h, hr.bound⟩

/-- The conditions of the two segments can be met: by the reference solution. -/
example : HybridPair hybReal1 hybReal2 := by
  obtain ⟨v0, vf, -, ⟨j1, j2, j3, j4⟩, -⟩ := C83_hybrid
  have hpi := Real.pi_pos
  refine ⟨by unfold hybReal1; fun_prop, by unfold hybReal2; fun_prop, ?_, ?_, ?_, ?_⟩
  · rw [← v0]; exact (if_pos (by positivity)).symm
  · rw [← vf]; exact (if_neg (by linarith)).symm
  · rw [j1, j2]
  · rw [j3, j4]

/-- The equations of UnknownTime.py hold for `x = u = 0`. -/
example : ∀ d ∈ unkDefects 1 1 2 (fun _ => 0) (fun _ => 0) 0, d = 0 := by
  simp [unkDefects]

end Verif.Props
