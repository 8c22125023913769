import Verif.Props.LandingUnits
import Verif.Props.SpectralSingle

/-!
# The landing program started from another costate

The program of Example 6.2 differs from the one of C105 in its start: the costate is not zero and `b` is not the one the solver was made for.
-/

open Set Polynomial Verif Verif.Mem Verif.Py Verif.Np Verif.Spec Verif.Model Verif.Model.Py Verif.Model.LSq Verif.Model.Prog Verif.Model.Dict Verif.Lemmas.LSq

open scoped ContDiff

namespace Verif.Props

/-- **C110, other starts.** For every number of points and degree with `4 ≤ ms ≤ N + 1`, every tolerance below 1, all data and all starts of the costate
and `b`, the conclusions of `C105_single` hold for the run from that start. -/
theorem C110_lunar_scaled {lib : LinAlg} (hlib : LinAlgCorrect lib) {N ms : ℕ} (hN : 2 ≤ N) (h4 : 4 ≤ ms) (hms : ms ≤ N + 1) (wt bt wt' bt' : ℕ → ℝ)
    {tol : ℝ} (htol : tol < 1) (maxIter : ℕ) (b0 b : ℝ) {xic0 : List ℝ} (hxic : xic0.length = 6) (R0 V0 ag : Fin 3 → ℝ) (Gam : ℝ) {fuel : ℕ}
    (hfuel : maxIter + 2 ≤ fuel) :
    ∃ (stfc ctfc : Utfc) (v : View String) (it : ℕ) (vs : ℕ → View String) (sts : ℕ → PState 6 1), utfcInit N (.int 4) ms "CP" (some (-1)) (some 1) "C++" wt bt = .ok stfc ∧
      utfcInit N (.int 0) 1 "CP" (some (-1)) (some 1) "C++" wt' bt' = .ok ctfc ∧
      runLunarScaled lib N ms tol maxIter b0 b xic0 R0 V0 ag Gam wt bt wt' bt' fuel = .ok (some (v, (it : ℤ))) ∧
      SysRun (landSys stfc ctfc R0 V0 ag Gam) (specXi stfc ctfc (some xic0) b) tol maxIter v it vs sts ∧
      ((sts 0).num 0 = b ∧ (∀ i x, (sts 0).free (posIx i) x = 0) ∧
        ∀ (i : Fin 3) x, (sts 0).free (lamIx i) x = xic0.getD i 0 + xic0.getD (3 + i) 0 * x) ∧
      ∀ k ≤ it, (∀ j < k, (sts j).num 0 ≠ 0 ∧ landSlope R0 V0 ag ((sts j).num 0) (fun i => (sts j).free (lamIx i) 1) ≠ 0) →
        ((sts k).num 0 ≠ 0 → ∃ X, (∀ i t, sysFn (landSys stfc ctfc R0 V0 ag Gam) (sts k) (posIx i) ((sts k).num 0 ^ 2 * t - 1) = X i t) ∧
          LeastEnergy R0 V0 ag (2 / (sts k).num 0 ^ 2) X ∧
          (k = it → (∀ E ∈ (landSys stfc ctfc R0 V0 ag Gam).eqs, ∀ x ∈ E.pts, ∀ o, |sysMiss (landSys stfc ctfc R0 V0 ag Gam) (sts it) E x o| ≤ tol) →
            |deriv (leastCost R0 V0 ag Gam) (2 / (sts k).num 0 ^ 2)| ≤
              tol * (1 + ∑ i, |deriv (deriv (X i)) (2 / (sts k).num 0 ^ 2)|) + 3 / 2 * tol ^ 2)) ∧
        ∀ j < k, (∀ i, (sts (j + 1)).free (lamIx i) 1 = ag i - (3 / 2 * R0 i * (sts j).num 0 ^ 4 + V0 i * (sts j).num 0 ^ 2) -
            (6 * (sts j).num 0 ^ 3 * R0 i + 2 * (sts j).num 0 * V0 i) * ((sts (j + 1)).num 0 - (sts j).num 0)) ∧
          landHtf ag Gam (fun i => (sts j).free (lamIx i) 1) +
            ∑ i, (ag i - (sts j).free (lamIx i) 1) * ((sts (j + 1)).free (lamIx i) 1 - (sts j).free (lamIx i) 1) = 0 := by
  obtain ⟨stfc, ctfc, hu1, hu2, F⟩ := land_objects hN h4 wt bt wt' bt'
  obtain ⟨kvs, hk⟩ : ∃ kvs, kvs = landUnknowns stfc ctfc [entry1 "b" [b0]] := ⟨_, rfl⟩
  have hprop : ProperUnknowns (.dict .robust kvs) := by
    subst hk
    refine ⟨by simp [landUnknowns], by simp [landUnknowns, entry3, entry1], fun p hp => ?_⟩
    simp only [landUnknowns, List.mem_cons, List.not_mem_nil, or_false] at hp
    rcases hp with rfl | rfl | rfl <;> simp [entry3, entry1]
  have hpos : entries (View.dict .robust kvs) ≠ [] := by
    subst hk
    simp [entries, landUnknowns, entry3, F.cols2]
  have hsame : SameForm (.dict .robust kvs) (specXi stfc ctfc (some xic0) b) := by
    rw [hk]
    unfold specXi
    refine ⟨rfl, ?_⟩
    simp [landUnknowns, entry3, entry1, hxic, F.cols2]
  obtain ⟨nlls, hn1, hn2⟩ := C104_newton_class_from hlib (method := .pinv) (by simp) (landSysIC stfc ctfc) hprop hpos
    [landIC (fun _ => 0) (fun _ => 0) (fun _ => 0) 0] tol htol maxIter true fuel hfuel
  obtain ⟨i1, i2, i3, i4⟩ := ic_single (R0 := R0) (V0 := V0) (ag := ag) Gam
  have hsys : landSysIC stfc ctfc [landIC R0 V0 ag Gam] = landSys stfc ctfc R0 V0 ag Gam := by
    unfold landSysIC
    rw [i1, i2, i3, i4]
  have hne : places (landSys stfc ctfc R0 V0 ag Gam).eqs ≠ [] :=
    List.ne_nil_of_mem (a := (⟨landMotion stfc ag, (1 : ℝ), (0 : Fin 3)⟩ : Place 6 1)) (mem_places.2 ⟨by rw [land_eqs]; simp, F.ends⟩)
  have hfit : FitsSys (landSys stfc ctfc R0 V0 ag Gam) kvs := by rw [hk]; exact single_fits F b0
  obtain ⟨v, it, vs, sts, hrun, hsr⟩ := hn2 [landIC R0 V0 ag Gam] rfl (by rw [hsys]; exact single_smooth) (by rw [hsys]; exact hfit)
    (by rw [hsys]; exact hne) nlls.compiled _ hsame
  rw [hsys] at hsr
  have h0 := means_unique hfit (SameForm.trans hsame (hsr.form 0 (by omega))) (hsr.means 0 (by omega))
  rw [hsr.start] at h0
  have he : entries (specXi stfc ctfc (some xic0) b) = List.replicate (cols1 stfc * 3) 0 ++ (xic0 ++ [b]) := by
    simp [specXi, entries, entry3, entry1]
  have hg0 : ∀ i, (sts 0).free (posIx i) = fun _ => 0 := by
    intro i
    rw [h0, he]
    show freeOf ((landSys stfc ctfc R0 V0 ag Gam).funs (posIx i)).obj _ = _
    rw [land_funs, landFuns_pos]
    rw [← freeOf_zero stfc]
    refine freeOf_congr _ fun k hk' => ?_
    have hoff : offsetOf kvs "xis" = 0 := by
      simp [hk, landUnknowns, entry3, offsetOf]
    dsimp only
    rw [hoff, zero_add]
    have hi := i.2
    have hk' : k < cols1 stfc := hk'
    rw [coef_append_left, coef_zeros]
    rw [List.length_replicate]
    omega
  refine ⟨stfc, ctfc, v, it, vs, sts, hu1, hu2, ?_, hsr, ⟨?_, fun i x => by rw [hg0], ?_⟩, single_core F hN hms (hk ▸ hsame) hsr hg0⟩
  · unfold runLunarScaled
    rw [hu1, hu2]
    simp only [bind, Except.bind, zerosOf_value F.ready1, zerosOf_value F.ready2, mul_one]
    rw [hk] at hn1
    simp only [landUnknowns] at hn1
    rw [hn1]
    dsimp only
    show (nlls.run (specXi stfc ctfc (some xic0) b) _ fuel).1 = _
    rw [hrun]
  · rw [h0, he]
    show coef _ (offsetOf _ ((landSys stfc ctfc R0 V0 ag Gam).names 0)) = b
    rw [hk, single_offset F b0 0]
    have h1 := coef_append_right (List.replicate (cols1 stfc * 3) (0 : ℝ)) (xic0 ++ [b]) (6 + 0)
    have h2 := coef_append_right xic0 [b] 0
    rw [List.length_replicate] at h1
    rw [hxic] at h2
    rw [h1, h2]
    rfl
  · intro i x
    rw [h0, he]
    show freeOf ((landSys stfc ctfc R0 V0 ag Gam).funs (lamIx i)).obj _ x = _
    rw [land_funs, landFuns_lam]
    have hoff : offsetOf kvs "xic" = cols1 stfc * 3 := by
      simp [hk, landUnknowns, entry3, entry1, offsetOf]
    dsimp only
    rw [F.line, hoff]
    dsimp only
    have h1 := fun k => coef_append_right (List.replicate (cols1 stfc * 3) (0 : ℝ)) (xic0 ++ [b]) k
    rw [List.length_replicate] at h1
    have hi := i.2
    rw [h1, h1, coef_append_left (by omega), coef_append_left (by omega)]
    simp [coef]

theorem lunarStart_length (R0 V0 : Fin 3 → ℝ) : (lunarStart R0 V0).length = 6 := by simp [lunarStart]

/-- **C110, the landings of Example 6.2.** For every start away from the goal with a velocity: as long as no earlier step met `b = 0` or a vanishing slope of
`Htf`, the times and positions of an iterate with `b ≠ 0`, in the units of the data, are those of the motion with the least energy, from the given position and
velocity and with the given gravity, of all motions of that duration. -/
theorem C110_lunar {lib : LinAlg} (hlib : LinAlgCorrect lib) {N ms : ℕ} (hN : 2 ≤ N) (h4 : 4 ≤ ms) (hms : ms ≤ N + 1) (wt bt wt' bt' : ℕ → ℝ)
    {tol : ℝ} (htol : tol < 1) (maxIter : ℕ) (b0 b : ℝ) {R0 V0 : Fin 3 → ℝ} (hR : ∃ i, R0 i ≠ 0) (hV : ∃ i, V0 i ≠ 0) (ag : Fin 3 → ℝ)
    {fuel : ℕ} (hfuel : maxIter + 2 ≤ fuel) :
    ∃ (stfc ctfc : Utfc) (p τ : ℝ) (S : PSys 6 1) (v : View String) (it : ℕ) (vs : ℕ → View String) (sts : ℕ → PState 6 1),
      utfcInit N (.int 4) ms "CP" (some (-1)) (some 1) "C++" wt bt = .ok stfc ∧
      utfcInit N (.int 0) 1 "CP" (some (-1)) (some 1) "C++" wt' bt' = .ok ctfc ∧ p = maxAbs3 R0 ∧ τ = p / maxAbs3 V0 ∧ 0 < p ∧ 0 < τ ∧
      S = landSys stfc ctfc (fun i => R0 i / p) (fun i => V0 i * τ / p) (fun i => ag i * τ ^ 2 / p) 0 ∧
      runLunar lib N ms tol maxIter b0 b R0 V0 ag wt bt wt' bt' fuel = .ok (some (v, (it : ℤ))) ∧
      SysRun S (specXi stfc ctfc (some (lunarStart R0 V0)) b) tol maxIter v it vs sts ∧
      ((sts 0).num 0 = b ∧ ∀ i x, (sts 0).free (lamIx i) x = (V0 i - R0 i) / 2 - (V0 i + R0 i) / 2 * x) ∧
      ∀ k ≤ it, (∀ j < k, (sts j).num 0 ≠ 0 ∧ landSlope (fun i => R0 i / p) (fun i => V0 i * τ / p) (fun i => ag i * τ ^ 2 / p) ((sts j).num 0)
          (fun i => (sts j).free (lamIx i) 1) ≠ 0) → (sts k).num 0 ≠ 0 →
        ∃ X, (∀ i x, p * sysFn S (sts k) (posIx i) x = X i (landTime (-1) ((sts k).num 0 ^ 2) τ x)) ∧
          LeastEnergy R0 V0 ag (landTime (-1) ((sts k).num 0 ^ 2) τ 1) X := by
  have hp := maxAbs3_pos hR
  have hv := maxAbs3_pos hV
  obtain ⟨p, hpe⟩ : ∃ p, p = maxAbs3 R0 := ⟨_, rfl⟩
  obtain ⟨τ, hτe⟩ : ∃ τ, τ = p / maxAbs3 V0 := ⟨_, rfl⟩
  have hp0 : 0 < p := by rw [hpe]; exact hp
  have hτ0 : 0 < τ := by rw [hτe]; exact div_pos hp0 hv
  obtain ⟨stfc, ctfc, v, it, vs, sts, hu1, hu2, hrun, hsr, ⟨hb0, -, hl0⟩, hall⟩ := C110_lunar_scaled hlib hN h4 hms wt bt wt' bt' htol maxIter b0 b
    (lunarStart_length R0 V0) (fun i => R0 i / p) (fun i => V0 i * τ / p) (fun i => ag i * τ ^ 2 / p) 0 hfuel
  refine ⟨stfc, ctfc, p, τ, _, v, it, vs, sts, hu1, hu2, hpe, hτe, hp0, hτ0, rfl, ?_, hsr, ⟨hb0, fun i x => ?_⟩, fun k hk hs hb => ?_⟩
  · rw [← hrun]
    unfold runLunar
    simp only [← hpe, ← hτe]
  · rw [hl0]
    fin_cases i <;> simp [lunarStart] <;> ring
  · obtain ⟨X, hX, hle, -⟩ := (hall k hk hs).1 hb
    have hb2 : 0 < (sts k).num 0 ^ 2 := by positivity
    refine ⟨fun i t => p * X i (1 / τ * t), fun i x => ?_, ?_⟩
    · have := hX i ((x + 1) / (sts k).num 0 ^ 2)
      rw [show (sts k).num 0 ^ 2 * ((x + 1) / (sts k).num 0 ^ 2) - 1 = x by field_simp; ring] at this
      rw [this]
      congr 2
      unfold landTime
      field_simp
      ring
    · have := (C105_units (Gam := 0) hp0 (one_div_pos.2 hτ0) (by positivity : 0 < 2 / (sts k).num 0 ^ 2)).1 X hle
      have e1 : (fun i => p * (R0 i / p)) = R0 := by funext i; field_simp
      have e2 : (fun i => p * (1 / τ) * (V0 i * τ / p)) = V0 := by funext i; field_simp
      have e3 : (fun i => p * (1 / τ) ^ 2 * (ag i * τ ^ 2 / p)) = ag := by funext i; field_simp
      have e4 : 2 / (sts k).num 0 ^ 2 / (1 / τ) = landTime (-1) ((sts k).num 0 ^ 2) τ 1 := by
        unfold landTime
        field_simp
        ring
      rw [e1, e2, e3, e4] at this
      exact this


/-- A case: a fall from height 2 at speed 1 with gravity 2. The scales are 2 and 2, and the slope at the start is not zero. -/
example (wt bt wt' bt' : ℕ → ℝ) : ∃ (lib : LinAlg) (v : View String) (it : ℕ) (sts : ℕ → PState 6 1),
    runLunar lib 100 60 1e-15 50 1 1 ![0, 0, 2] ![0, 0, -1] ![0, 0, -2] wt bt wt' bt' 52 = .ok (some (v, (it : ℤ))) ∧
      (1 ≤ it → (sts 1).num 0 ≠ 0 → ∃ X, LeastEnergy ![0, 0, 2] ![0, 0, -1] ![0, 0, -2] (landTime (-1) ((sts 1).num 0 ^ 2) 2 1) X) := by
  obtain ⟨lib, hlib⟩ := Verif.Lemmas.LinAlg.linAlg_exists
  obtain ⟨stfc, ctfc, p, τ, S, v, it, vs, sts, -, -, hp, hτ, -, -, -, h1, -, ⟨h2, h3⟩, h4⟩ := C110_lunar hlib (N := 100) (ms := 60) (by norm_num)
    (by norm_num) (by norm_num) wt bt wt' bt' (tol := 1e-15) (by norm_num) 50 1 1 (R0 := ![0, 0, 2]) (V0 := ![0, 0, -1]) ⟨2, by simp⟩ ⟨2, by simp⟩
    ![0, 0, -2] (fuel := 52) le_rfl
  obtain rfl : p = 2 := by rw [hp]; simp [maxAbs3]
  obtain rfl : τ = 2 := by rw [hτ]; simp [maxAbs3]
  refine ⟨lib, v, it, sts, h1, fun hit hb => ?_⟩
  obtain ⟨X, -, hX⟩ := h4 1 hit (fun j hj => by
    obtain rfl : j = 0 := by omega
    rw [h2]
    refine ⟨one_ne_zero, ?_⟩
    simp only [h3]
    unfold landSlope
    simp [Fin.sum_univ_three]
    norm_num) hb
  exact ⟨X, hX⟩

/-- **C110, the landings of Example 6.2 with the spectral method.** In the units of the data: an iterate with `b ≠ 0` whose rows all vanish stands for the
motion with the least energy, from the given position and velocity and with the given gravity, of all motions of its duration, and no motion of any other
duration near it costs less to first order; if its rows are at most `tol`, the motion starts and ends within `tol` units of length and velocity of the data. -/
theorem C110_lunar_spec {lib : LinAlg} (hlib : LinAlgCorrect lib) {N ms : ℕ} (h3 : 3 ≤ ms) (hms : ms < N) (wt bt wt' bt' : ℕ → ℝ)
    {tol : ℝ} (htol : tol < 1) (maxIter : ℕ) (b0 b : ℝ) {R0 V0 : Fin 3 → ℝ} (hR : ∃ i, R0 i ≠ 0) (hV : ∃ i, V0 i ≠ 0) (ag : Fin 3 → ℝ)
    {fuel : ℕ} (hfuel : maxIter + 2 ≤ fuel) :
    ∃ (stfc ctfc : Utfc) (p τ : ℝ) (S : PSys 6 1) (v : View String) (it : ℕ) (vs : ℕ → View String) (sts : ℕ → PState 6 1),
      utfcInit N (.int 0) ms "CP" (some (-1)) (some 1) "C++" wt bt = .ok stfc ∧
      utfcInit N (.int 0) 1 "CP" (some (-1)) (some 1) "C++" wt' bt' = .ok ctfc ∧ p = maxAbs3 R0 ∧ τ = p / maxAbs3 V0 ∧ 0 < p ∧ 0 < τ ∧
      S = specSys stfc ctfc (fun i => R0 i / p) (fun i => V0 i * τ / p) (fun i => ag i * τ ^ 2 / p) 0 ∧
      runLunarSpec lib N ms tol maxIter b0 b R0 V0 ag wt bt wt' bt' fuel = .ok (some (v, (it : ℤ))) ∧
      SysRun S (specXi stfc ctfc (some (lunarStart R0 V0)) b) tol maxIter v it vs sts ∧
      ∀ k ≤ it, (sts k).num 0 ≠ 0 → ∃ (T : ℝ) (X : Fin 3 → ℝ → ℝ), T = landTime (-1) ((sts k).num 0 ^ 2) τ 1 ∧
        (∀ i x, p * (sts k).free (posIx i) x = X i (landTime (-1) ((sts k).num 0 ^ 2) τ x)) ∧
        ((∀ E ∈ S.eqs, ∀ x ∈ E.pts, ∀ o, sysMiss S (sts k) E x o = 0) → LeastEnergy R0 V0 ag T X ∧ deriv (leastCost R0 V0 ag 0) T = 0) ∧
        ((∀ E ∈ S.eqs, ∀ x ∈ E.pts, ∀ o, |sysMiss S (sts k) E x o| ≤ tol) →
          ∀ i, |X i 0 - R0 i| ≤ p * tol ∧ |deriv (X i) 0 - V0 i| ≤ p / τ * tol ∧ |X i T| ≤ p * tol ∧ |deriv (X i) T| ≤ p / τ * tol) := by
  have hp := maxAbs3_pos hR
  have hv := maxAbs3_pos hV
  obtain ⟨p, hpe⟩ : ∃ p, p = maxAbs3 R0 := ⟨_, rfl⟩
  obtain ⟨τ, hτe⟩ : ∃ τ, τ = p / maxAbs3 V0 := ⟨_, rfl⟩
  have hp0 : 0 < p := by rw [hpe]; exact hp
  have hτ0 : 0 < τ := by rw [hτe]; exact div_pos hp0 hv
  obtain ⟨stfc, ctfc, v, it, vs, sts, hu1, hu2, hrun, hsr, -, hall, -⟩ := C110_single hlib h3 hms wt bt wt' bt' htol maxIter b0 b
    (xic0 := some (lunarStart R0 V0)) (by rintro l ⟨⟩; exact lunarStart_length R0 V0) (fun i => R0 i / p) (fun i => V0 i * τ / p)
    (fun i => ag i * τ ^ 2 / p) 0 hfuel
  refine ⟨stfc, ctfc, p, τ, _, v, it, vs, sts, hu1, hu2, hpe, hτe, hp0, hτ0, rfl, ?_, hsr, fun k hk hb => ?_⟩
  · rw [← hrun]
    unfold runLunarSpec
    simp only [← hpe, ← hτe]
  · obtain ⟨h1, h2, -⟩ := hall k hk hb
    have hb2 : 0 < (sts k).num 0 ^ 2 := by positivity
    have hT : 0 < 2 / (sts k).num 0 ^ 2 := by positivity
    have e1 : (fun i => p * (R0 i / p)) = R0 := by funext i; field_simp
    have e2 : (fun i => p * (1 / τ) * (V0 i * τ / p)) = V0 := by funext i; field_simp
    have e3 : (fun i => p * (1 / τ) ^ 2 * (ag i * τ ^ 2 / p)) = ag := by funext i; field_simp
    have e4 : 2 / (sts k).num 0 ^ 2 / (1 / τ) = landTime (-1) ((sts k).num 0 ^ 2) τ 1 := by
      unfold landTime
      field_simp
      ring
    have hsm : ∀ i, ContDiff ℝ 2 (specPath (sts k) i) := fun i =>
      (contDiff_infty.1 ((hsr.means k hk).smooth (posIx i)) 2).comp ((contDiff_const.mul contDiff_id).sub contDiff_const)
    refine ⟨_, fun i t => p * specPath (sts k) i (1 / τ * t), rfl, fun i x => ?_, fun hz => ⟨?_, ?_⟩, fun hz i => ?_⟩
    · unfold specPath landTime
      congr 2
      field_simp
      ring
    · have := (C105_units (Gam := 0) hp0 (one_div_pos.2 hτ0) hT).1 _ (h1.1 hz).1
      rwa [e1, e2, e3, e4] at this
    · have hd := (h1.1 hz).2.2
      have hlc : ∀ᶠ t in nhds (landTime (-1) ((sts k).num 0 ^ 2) τ 1), leastCost R0 V0 ag 0 t = p ^ 2 * (1 / τ) ^ 3 *
          leastCost (fun i => R0 i / p) (fun i => V0 i * τ / p) (fun i => ag i * τ ^ 2 / p) 0 (1 / τ * t) := by
        have hpos : 0 < landTime (-1) ((sts k).num 0 ^ 2) τ 1 := by rw [← e4]; positivity
        filter_upwards [lt_mem_nhds hpos] with t ht
        have := (C105_units (R0 := fun i => R0 i / p) (V0 := fun i => V0 i * τ / p) (ag := fun i => ag i * τ ^ 2 / p) (Gam := 0) hp0
          (one_div_pos.2 hτ0) (show 0 < 1 / τ * t by positivity)).2
        rw [e1, e2, e3, mul_zero, mul_div_cancel_left₀ _ (by positivity)] at this
        exact this
      rw [Filter.EventuallyEq.deriv_eq hlc]
      have e5 : 1 / τ * landTime (-1) ((sts k).num 0 ^ 2) τ 1 = 2 / (sts k).num 0 ^ 2 := by
        rw [← e4]
        field_simp
      have hder := (C105_time (fun i => R0 i / p) (fun i => V0 i * τ / p) (fun i => ag i * τ ^ 2 / p) 0 hT).2
      have hder0 : HasDerivAt (leastCost (fun i => R0 i / p) (fun i => V0 i * τ / p) (fun i => ag i * τ ^ 2 / p) 0) 0
          (1 / τ * landTime (-1) ((sts k).num 0 ^ 2) τ 1) := by
        rw [e5]
        rw [hder.deriv] at hd
        rw [hd] at hder
        exact hder
      have hin : HasDerivAt (fun t : ℝ => 1 / τ * t) (1 / τ) (landTime (-1) ((sts k).num 0 ^ 2) τ 1) :=
        ((hasDerivAt_id _).const_mul (1 / τ)).congr_deriv (by simp)
      refine ((hder0.comp _ hin).const_mul _).deriv.trans ?_
      ring
    · obtain ⟨a1, a2, a3, a4⟩ := h2 hz i
      have hde := (unit_deriv (hsm i) p (1 / τ)).1
      have e5 : 1 / τ * landTime (-1) ((sts k).num 0 ^ 2) τ 1 = 2 / (sts k).num 0 ^ 2 := by
        rw [← e4]
        field_simp
      rw [hde]
      dsimp only
      rw [e5, mul_zero]
      have q : p / τ = p * (1 / τ) := by ring
      have q0 : 0 ≤ p * (1 / τ) := by positivity
      refine ⟨?_, ?_, ?_, ?_⟩
      · rw [show p * specPath (sts k) i 0 - R0 i = p * (specPath (sts k) i 0 - R0 i / p) by field_simp, abs_mul, abs_of_pos hp0]
        exact mul_le_mul_of_nonneg_left a1 hp0.le
      · rw [show p * (1 / τ) * deriv (specPath (sts k) i) 0 - V0 i = p * (1 / τ) * (deriv (specPath (sts k) i) 0 - V0 i * τ / p) by field_simp, abs_mul,
          abs_of_nonneg q0, q]
        exact mul_le_mul_of_nonneg_left a2 q0
      · rw [abs_mul, abs_of_pos hp0]
        exact mul_le_mul_of_nonneg_left a3 hp0.le
      · rw [abs_mul, abs_of_nonneg q0, q]
        exact mul_le_mul_of_nonneg_left a4 q0

/-- A case: the numbers of the program and a fall from height 2 at speed 1 with gravity 2. -/
example (wt bt wt' bt' : ℕ → ℝ) : ∃ (lib : LinAlg) (v : View String) (it : ℕ),
    runLunarSpec lib 100 60 1e-15 50 1 1 ![0, 0, 2] ![0, 0, -1] ![0, 0, -2] wt bt wt' bt' 52 = .ok (some (v, (it : ℤ))) := by
  obtain ⟨lib, hlib⟩ := Verif.Lemmas.LinAlg.linAlg_exists
  obtain ⟨stfc, ctfc, p, τ, S, v, it, vs, sts, -, -, -, -, -, -, -, h1, -⟩ := C110_lunar_spec hlib (N := 100) (ms := 60) (by norm_num)
    (by norm_num) wt bt wt' bt' (tol := 1e-15) (by norm_num) 50 1 1 (R0 := ![0, 0, 2]) (V0 := ![0, 0, -1]) ⟨2, by simp⟩ ⟨2, by simp⟩
    ![0, 0, -2] (fuel := 52) le_rfl
  exact ⟨lib, v, it, h1⟩

end Verif.Props
