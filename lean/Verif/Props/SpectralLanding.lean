import Verif.Model.Spectral
import Verif.Props.LandingSingle
import Verif.Props.OdeSystemFrom

/-!
# The programs for the landing with least energy by the spectral method: the inner loop
-/

namespace Verif.Props

open Set Polynomial Verif Verif.Mem Verif.Py Verif.Np Verif.Spec Verif.Model Verif.Model.Py Verif.Model.LSq Verif.Model.Prog Verif.Model.Dict
  Verif.Lemmas.LSq
open scoped ContDiff

/-! ## Objects without removed functions -/

theorem outColumns_nil (n : ℕ) : outColumns n [] false = List.range n := by
  simp [outColumns, keptColumns]

theorem freeOf_full {u : Utfc} {f : PolyFamily} (hcls : u.cls = .poly f) (hnc : u.nC = []) (c : ℕ → ℝ) (x : ℝ) :
    freeOf u c x = ∑ k ∈ Finset.range (u.deg + 1), (classical ℝ f k).eval (f.arg u.x0 u.xf x) * c k := by
  unfold freeOf
  rw [hnc, outColumns_nil, List.length_range]
  refine Finset.sum_congr rfl fun k hk => ?_
  have hk := Finset.mem_range.1 hk
  have : (List.range (u.deg + 1)).getD k 0 = k := by simp [List.getD, hk]
  rw [this, mul_comm]
  congr 1
  unfold UniClass.basis
  rw [hcls]
  rfl

/-- Without removed functions every polynomial of degree at most `deg` is a free function. -/
theorem freeOf_reach {u : Utfc} {f : PolyFamily} (hcls : u.cls = .poly f) (hnc : u.nC = []) (hx : u.x0 ≠ u.xf) {p : ℝ[X]}
    (hp : p.degree < (u.deg + 1 : ℕ)) : ∃ c, freeOf u c = fun x => p.eval x := by
  obtain ⟨ξ, hξ⟩ := classical_represent f u.x0 u.xf hx (u.deg + 1) p hp
  exact ⟨ξ, funext fun x => by rw [freeOf_full hcls hnc, hξ]⟩

theorem init_nil {N deg : ℕ} {basis backend : String} {x0 xf : ℝ} {w b : ℕ → ℝ} {u : Utfc}
    (hu : utfcInit N (.int 0) deg basis (some x0) (some xf) backend w b = .ok u) : u.nC = [] := by
  have := (utfcInit_ok hu).1
  simp [utfcNC, arange, bind, Except.bind] at this
  exact this

/-- What the programs need of their two objects. -/
structure SpecFit (N ms : ℕ) (stfc ctfc : Utfc) : Prop where
  ready1 : Ready stfc
  ready2 : Ready ctfc
  len : stfc.z.length = N
  nodup : stfc.z.Nodup
  left : first stfc.z = -1
  right : last stfc.z = 1
  cols1 : cols1 stfc = ms + 1
  cols2 : Verif.Props.cols1 ctfc = 2
  poly : ∀ c, ∃ p : ℝ[X], p.degree < (ms + 1 : ℕ) ∧ freeOf stfc c = fun x => p.eval x
  reach : ∀ p : ℝ[X], p.degree < (ms + 1 : ℕ) → ∃ c, freeOf stfc c = fun x => p.eval x
  line : ∀ c : ℕ → ℝ, freeOf ctfc c = fun x => c 0 + c 1 * x

theorem spec_objects {N : ℕ} (ms : ℕ) (hN : 2 ≤ N) (wt bt wt' bt' : ℕ → ℝ) :
    ∃ stfc ctfc, utfcInit N (.int 0) ms "CP" (some (-1)) (some 1) "C++" wt bt = .ok stfc ∧
      utfcInit N (.int 0) 1 "CP" (some (-1)) (some 1) "C++" wt' bt' = .ok ctfc ∧ SpecFit N ms stfc ctfc := by
  have hcp : "CP" ∈ smoothNames := by simp [smoothNames]
  have hpc : BasisName.parse "CP" = some .cp := by decide
  obtain ⟨u1, hu1, hB1, hr1, hl1, f1, l1, c1⟩ := objectK (k := 0) (m := ms) hN (by omega) hcp (Or.inl rfl) (x0 := -1) (xf := 1) (by norm_num) wt bt
  obtain ⟨u2, hu2, hB2, hr2, hl2, -, -, c2⟩ := objectK (k := 0) (m := 1) hN (by norm_num) hcp (Or.inl rfl) (x0 := -1) (xf := 1) (by norm_num) wt' bt'
  have hz := built_z hN (Or.inl rfl) hB1
  obtain ⟨-, -, p3, -, p5, p6, -⟩ := C13_points N hN _ ms "CP" "C++" (-1) 1 (by norm_num) wt bt u1 hu1
  obtain ⟨d1, x1, xf1, b1, k1⟩ := init_fields hu1
  obtain ⟨d2, x2, xf2, b2, k2⟩ := init_fields hu2
  rw [hpc] at b1 b2
  rw [← Option.some.inj b1] at k1
  rw [← Option.some.inj b2] at k2
  have hcls1 : u1.cls = .poly .cp := k1
  have hcls2 : u2.cls = .poly .cp := k2
  have hx : u1.x0 ≠ u1.xf := by rw [x1, xf1]; norm_num
  refine ⟨u1, u2, hu1, hu2, hr1, hr2, by rw [hz, hl1], ?_, by rw [hz, f1], by rw [hz, l1], by rw [c1]; omega, by rw [c2], ?_, ?_, ?_⟩
  · rw [hz]; exact p3.imp fun h => h.ne
  · intro c
    have := freeOf_poly hcls1 hx c
    rwa [d1] at this
  · intro p hp
    exact freeOf_reach hcls1 (init_nil hu1) hx (by rw [d1]; exact hp)
  · intro c
    funext x
    rw [freeOf_full hcls2 (init_nil hu2), d2, x2, xf2]
    simp only [Finset.sum_range_succ, Finset.sum_range_zero]
    simp [PolyFamily.arg, toBasis, classical]
    ring

/-! ## Polynomials that meet the equations -/

/-- The inner points. -/
theorem inner_pts {z : List ℝ} (hz : z.Nodup) : z.tail.dropLast.Nodup ∧ z.tail.dropLast.length = z.length - 2 := by
  refine ⟨hz.sublist ((List.dropLast_sublist _).trans (List.tail_sublist _)), ?_⟩
  simp
  omega

/-- A polynomial of degree at most `ms` whose second derivative is a line at the inner points has that second derivative everywhere. -/
theorem poly_line {N ms : ℕ} {z : List ℝ} (hz : z.Nodup) (hl : z.length = N) (h3 : 3 ≤ ms) (hms : ms < N) {p : ℝ[X]} (hp : p.degree < (ms + 1 : ℕ))
    {α β : ℝ} (h : ∀ x ∈ z.tail.dropLast, (derivative (derivative p)).eval x = α + β * x) :
    ∀ x, (derivative (derivative p)).eval x = α + β * x := by
  obtain ⟨n1, n2⟩ := inner_pts hz
  have hq : derivative (derivative p) - (C β * X + C α) = 0 := by
    refine eq_zero_of_degree_lt_of_eval_finset_eq_zero z.tail.dropLast.toFinset ?_ fun t ht => ?_
    · rw [List.toFinset_card_of_nodup n1, n2, hl]
      refine lt_of_le_of_lt (degree_sub_le _ _) (max_lt ?_ ?_)
      · by_cases hp0 : derivative (derivative p) = 0
        · rw [hp0, degree_zero]; exact WithBot.bot_lt_coe _
        · have hpne : p ≠ 0 := by
            rintro rfl
            simp at hp0
          have n1 : p.natDegree < ms + 1 := (natDegree_lt_iff_degree_lt hpne).2 hp
          have n2 := natDegree_derivative_le p
          have n3 := natDegree_derivative_le (derivative p)
          rw [degree_eq_natDegree hp0]
          have : (derivative (derivative p)).natDegree < N - 2 := by omega
          exact_mod_cast this
      · refine lt_of_le_of_lt degree_linear_le ?_
        exact_mod_cast (by omega : 1 < N - 2)
    · have := h t (List.mem_toFinset.1 ht)
      simp only [eval_sub, eval_add, eval_mul, eval_C, eval_X, this]
      ring
  intro x
  have := congrArg (eval x) hq
  simp only [eval_sub, eval_add, eval_mul, eval_C, eval_X, eval_zero] at this
  linarith

/-- The cubic with given values and slopes at both ends. -/
noncomputable def hermite (r0 r1 s0 s1 : ℝ) : ℝ[X] :=
  C (1 / 4) * ((C 2 - C 3 * X + X ^ 3) * C r0 + (C 2 + C 3 * X - X ^ 3) * C r1 + (C 1 - X - X ^ 2 + X ^ 3) * C s0 + (C (-1) - X + X ^ 2 + X ^ 3) * C s1)

theorem hermite_eval (r0 r1 s0 s1 x : ℝ) : (hermite r0 r1 s0 s1).eval x = (2 - 3 * x + x ^ 3) / 4 * r0 + (2 + 3 * x - x ^ 3) / 4 * r1 +
    (1 - x - x ^ 2 + x ^ 3) / 4 * s0 + (-1 - x + x ^ 2 + x ^ 3) / 4 * s1 := by
  simp only [hermite, eval_add, eval_sub, eval_mul, eval_C, eval_X, eval_pow]
  ring

theorem hermite_deriv (r0 r1 s0 s1 x : ℝ) : (derivative (hermite r0 r1 s0 s1)).eval x = (-3 + 3 * x ^ 2) / 4 * r0 + (3 - 3 * x ^ 2) / 4 * r1 +
    (-1 - 2 * x + 3 * x ^ 2) / 4 * s0 + (-1 + 2 * x + 3 * x ^ 2) / 4 * s1 := by
  simp [hermite, derivative_mul]
  ring

theorem hermite_deriv2 (r0 r1 s0 s1 x : ℝ) : (derivative (derivative (hermite r0 r1 s0 s1))).eval x = 3 / 2 * x * r0 - 3 / 2 * x * r1 +
    (3 * x - 1) / 2 * s0 + (3 * x + 1) / 2 * s1 := by
  simp [hermite, derivative_mul]
  ring

theorem hermite_degree (r0 r1 s0 s1 : ℝ) {ms : ℕ} (h3 : 3 ≤ ms) : (hermite r0 r1 s0 s1).degree < (ms + 1 : ℕ) := by
  refine lt_of_le_of_lt (b := ((3 : ℕ) : WithBot ℕ)) ?_ (by exact_mod_cast (by omega : 3 < ms + 1))
  refine natDegree_le_iff_degree_le.1 ?_
  unfold hermite
  compute_degree

/-- A polynomial is determined by its second derivative, if that is a line, and its values and slopes at both ends; the line is determined too. -/
theorem hermite_unique {p : ℝ[X]} {α β : ℝ} (h2 : ∀ x, (derivative (derivative p)).eval x = α + β * x) {r0 r1 s0 s1 : ℝ} (e0 : p.eval (-1) = r0)
    (e1 : p.eval 1 = r1) (e2 : (derivative p).eval (-1) = s0) (e3 : (derivative p).eval 1 = s1) :
    (∀ x, p.eval x = (hermite r0 r1 s0 s1).eval x) ∧ ∀ x, α + β * x = (derivative (derivative (hermite r0 r1 s0 s1))).eval x := by
  obtain ⟨q, hq⟩ : ∃ q, q = p - hermite r0 r1 s0 s1 := ⟨_, rfl⟩
  have hd : deriv (fun x => q.eval x) = fun x => (derivative q).eval x := funext fun x => q.deriv
  have hq2 : ∀ x, (derivative (derivative q)).eval x = (α + (1 / 2 * s0 - 1 / 2 * s1)) + (β - (3 / 2 * r0 - 3 / 2 * r1 + 3 / 2 * s0 + 3 / 2 * s1)) * x := by
    intro x
    rw [hq, derivative_sub, derivative_sub, eval_sub, h2, hermite_deriv2]
    ring
  obtain ⟨r1', r2, r3⟩ := line_zero (h := fun x => q.eval x) (fun x => by rw [hd]; exact q.hasDerivAt x)
    (fun x => by rw [hd, ← hq2]; exact (derivative q).hasDerivAt x) (by rw [hq, eval_sub, e0, hermite_eval]; ring)
    (by rw [hq, eval_sub, e1, hermite_eval]; ring) (by rw [hd]; show eval _ _ = _; rw [hq, derivative_sub, eval_sub, e2, hermite_deriv]; ring)
    (by rw [hd]; show eval _ _ = _; rw [hq, derivative_sub, eval_sub, e3, hermite_deriv]; ring)
  refine ⟨fun x => ?_, fun x => ?_⟩
  · have := r1' x
    rw [hq, eval_sub] at this
    linarith
  · rw [hermite_deriv2]
    linear_combination r2 + x * r3

/-! ## What the unknowns stand for -/

variable {m : ℕ} {stfc ctfc : Utfc} {R0 V0 ag : Fin 3 → ℝ}

theorem specFuns_pos (i : Fin 3) : (specFuns stfc ctfc (posIx i) : PFun m) = ⟨stfc, "xis", 3, i, []⟩ := by
  unfold specFuns
  rw [if_pos (show (posIx i).val < 3 from i.2)]
  rfl

theorem specFuns_lam (i : Fin 3) : (specFuns stfc ctfc (lamIx i) : PFun m) = ⟨ctfc, "xic", 3, i, []⟩ := by
  unfold specFuns
  rw [if_neg (show ¬ (lamIx i).val < 3 by simp [lamIx])]
  simp [lamIx]

theorem spec_fn {S : PSys 6 m} (hS : S.funs = specFuns stfc ctfc) (st : PState 6 m) (q : Fin 6) : sysFn S st q = st.free q := by
  funext x
  unfold sysFn curve PFun.ends
  rw [hS]
  rcases six_cases q with ⟨i, rfl⟩ | ⟨i, rfl⟩
  · rw [specFuns_pos]; simp
  · rw [specFuns_lam]; simp

theorem spec_fits {N ms : ℕ} (F : SpecFit N ms stfc ctfc) {S : PSys 6 m} (hS : S.funs = specFuns stfc ctfc)
    {rest : List (String × Arr ℝ)} (hn : ((landUnknowns stfc ctfc rest).map (·.1)).Nodup)
    (hname : ∀ i, S.names i ∈ (landUnknowns stfc ctfc rest).map (·.1)) (hone : ∀ i, 0 < sizeOfKey (landUnknowns stfc ctfc rest) (S.names i)) :
    FitsSys S (landUnknowns stfc ctfc rest) := by
  refine ⟨hn, ?_, ?_, ?_, ?_, hname, hone⟩
  · intro q
    rw [hS]
    rcases six_cases q with ⟨i, rfl⟩ | ⟨i, rfl⟩
    · rw [specFuns_pos]; exact F.ready1
    · rw [specFuns_lam]; exact F.ready2
  · intro q
    rw [hS]
    rcases six_cases q with ⟨i, rfl⟩ | ⟨i, rfl⟩
    · rw [specFuns_pos]; simp [landUnknowns, entry3]
    · rw [specFuns_lam]; simp [landUnknowns, entry3]
  · intro q
    rw [hS]
    rcases six_cases q with ⟨i, rfl⟩ | ⟨i, rfl⟩
    · rw [specFuns_pos]; exact i.2
    · rw [specFuns_lam]; exact i.2
  · intro q
    rw [hS]
    rcases six_cases q with ⟨i, rfl⟩ | ⟨i, rfl⟩
    · rw [specFuns_pos]; simp [landUnknowns, entry3, sizeOfKey]
    · rw [specFuns_lam]; simp [landUnknowns, entry3, sizeOfKey]

/-- Dictionaries for every position of degree at most `ms` and every costate that is a line. -/
theorem spec_reach {N ms : ℕ} (F : SpecFit N ms stfc ctfc) {S : PSys 6 m} (hS : S.funs = specFuns stfc ctfc)
    {rest : List (String × Arr ℝ)} (hfit : FitsSys S (landUnknowns stfc ctfc rest)) (cls : DictClass) {p : Fin 3 → ℝ[X]}
    (hp : ∀ i, (p i).degree < (ms + 1 : ℕ)) (α β : Fin 3 → ℝ) (l' : List ℝ) (hl' : l'.length = (entries (View.dict cls rest)).length) :
    ∃ v' st', SameForm (.dict cls (landUnknowns stfc ctfc rest)) v' ∧ Means S v' st' ∧ (∀ i, st'.free (posIx i) = fun x => (p i).eval x) ∧
      (∀ i, st'.free (lamIx i) = fun x => α i + β i * x) ∧
      ∀ i k, offsetOf (landUnknowns stfc ctfc rest) (S.names i) = cols1 stfc * 3 + (6 + k) → st'.num i = coef l' k := by
  choose c hc using fun i => F.reach (p i) (hp i)
  obtain ⟨la, hla, hlc⟩ := exists_list (cols1 stfc * 3) fun k => c ⟨k % 3, Nat.mod_lt _ (by norm_num)⟩ (k / 3)
  obtain ⟨l, hl⟩ : ∃ l, l = la ++ (([α 0, α 1, α 2, β 0, β 1, β 2] : List ℝ) ++ l') := ⟨_, rfl⟩
  have hlen : l.length = (entries (View.dict cls (landUnknowns stfc ctfc rest))).length := by
    rw [hl]
    simp only [entries, landUnknowns, entry3, List.map_cons, List.flatten_cons, List.length_append, List.length_replicate, F.cols2, hla] at hl' ⊢
    simp [hl']
  have h1 := refill_form (View.dict cls (landUnknowns stfc ctfc rest)) hlen
  have h2 := means_stateOf (S := S) hfit h1
  rw [entries_refill _ hlen] at h2
  refine ⟨_, _, h1, h2, fun i => ?_, fun i => ?_, fun i k hk => ?_⟩
  · show freeOf (S.funs (posIx i)).obj _ = _
    rw [hS, specFuns_pos, ← hc i]
    refine freeOf_congr _ fun k hk => ?_
    have h0 : offsetOf (landUnknowns stfc ctfc rest) "xis" = 0 := by simp [landUnknowns, entry3, offsetOf]
    have hi := i.2
    change k < cols1 stfc at hk
    have hlt : 0 + (k * 3 + i) < la.length := by omega
    dsimp only
    rw [h0, hl, coef_append_left hlt, hlc _ (by omega)]
    have e1 : (0 + (k * 3 + i.val)) % 3 = i.val := by omega
    have e2 : (0 + (k * 3 + i.val)) / 3 = k := by omega
    simp only [e1, e2]
  · show freeOf (S.funs (lamIx i)).obj _ = _
    rw [hS, specFuns_lam]
    have h0 : offsetOf (landUnknowns stfc ctfc rest) "xic" = la.length := by
      simp [landUnknowns, entry3, offsetOf, hla]
    dsimp only
    rw [F.line]
    funext x
    rw [h0, hl, coef_append_right, coef_append_right]
    have hi := i.2
    rw [coef_append_left (by simp; omega), coef_append_left (by simp; omega)]
    fin_cases i <;> simp [coef]
  · show coef l _ = _
    rw [hk, hl]
    have := coef_append_right la (([α 0, α 1, α 2, β 0, β 1, β 2] : List ℝ) ++ l') (6 + k)
    rw [hla] at this
    rw [this]
    exact coef_append_right ([α 0, α 1, α 2, β 0, β 1, β 2] : List ℝ) l' k

/-- The iterates: positions of degree at most `ms`, costates that are lines. -/
theorem spec_state {N ms : ℕ} (F : SpecFit N ms stfc ctfc) {S : PSys 6 m} (hS : S.funs = specFuns stfc ctfc)
    {rest : List (String × Arr ℝ)} (hfit : FitsSys S (landUnknowns stfc ctfc rest)) {cls : DictClass} {v : View String}
    (hv : SameForm (.dict cls (landUnknowns stfc ctfc rest)) v) {st : PState 6 m} (hm : Means S v st) :
    (∀ i, ∃ p : ℝ[X], p.degree < (ms + 1 : ℕ) ∧ st.free (posIx i) = fun x => p.eval x) ∧
      ∀ i, ∃ α β : ℝ, st.free (lamIx i) = fun x => α + β * x := by
  rw [means_unique hfit hv hm]
  refine ⟨fun i => ?_, fun i => ?_⟩
  · obtain ⟨cc, hcc⟩ := state_free S (landUnknowns stfc ctfc rest) (coef (entries v)) (posIx i)
    rw [hS, specFuns_pos] at hcc
    obtain ⟨p, h1, h2⟩ := F.poly cc
    exact ⟨p, h1, hcc.trans h2⟩
  · obtain ⟨cc, hcc⟩ := state_free S (landUnknowns stfc ctfc rest) (coef (entries v)) (lamIx i)
    rw [hS, specFuns_lam] at hcc
    exact ⟨_, _, hcc.trans (F.line cc)⟩

theorem toward_iter {nf : ℕ} {st st' : PState nf m} (h : ∀ q, ContDiff ℝ ∞ (st.free q)) (h' : ∀ q, ContDiff ℝ ∞ (st'.free q)) (s : ℝ) (q : Fin nf)
    (d : ℕ) (x : ℝ) : iteratedDeriv d ((st.toward st' s).free q) x =
      iteratedDeriv d (st.free q) x + s * (iteratedDeriv d (st'.free q) x - iteratedDeriv d (st.free q) x) := by
  have g1 : ContDiffAt ℝ d (st.free q) x := (contDiff_infty.1 (h q) d).contDiffAt
  have g2 : ContDiffAt ℝ d (st'.free q) x := (contDiff_infty.1 (h' q) d).contDiffAt
  have e : (st.toward st' s).free q = st.free q + s • (st'.free q - st.free q) := rfl
  have g3 : ContDiffAt ℝ d (st'.free q - st.free q) x := g2.sub g1
  have g4 : ContDiffAt ℝ d (s • (st'.free q - st.free q)) x := g3.const_smul s
  rw [e, iteratedDeriv_add g1 g4, iteratedDeriv_const_smul g3 s, iteratedDeriv_sub g2 g1]
  rfl

theorem poly_iter1 (p : ℝ[X]) (x : ℝ) : iteratedDeriv 1 (fun x => p.eval x) x = (derivative p).eval x := by
  rw [iteratedDeriv_one]
  exact p.deriv

theorem poly_iter2 (p : ℝ[X]) (x : ℝ) : iteratedDeriv 2 (fun x => p.eval x) x = (derivative (derivative p)).eval x := by
  have hd : deriv (fun x => p.eval x) = fun x => (derivative p).eval x := funext fun x => p.deriv
  rw [iteratedDeriv_succ, iteratedDeriv_one, hd]
  exact (derivative p).deriv

/-! ## The rows -/

/-- The equation of motion of the programs. -/
noncomputable abbrev specMotion (z : List ℝ) (ag : Fin 3 → ℝ) (c : (Fin m → ℝ) → ℝ) : PEqn 6 m :=
  ⟨z.tail.dropLast, 6, landTerms, here, 3, fun _ J s i => c s ^ 2 * J (posIx i) - ag i + J (lamIx i)⟩

/-- The row of the position at the beginning. -/
noncomputable abbrev specStart (z : List ℝ) (R0 : Fin 3 → ℝ) : PEqn 6 m :=
  ⟨[first z], 3, fun i => (posIx i, 0), here, 3, fun _ J _ i => J i - R0 i⟩

/-- The row of the velocity at the beginning. -/
noncomputable abbrev specSpeed (z : List ℝ) (V0 : Fin 3 → ℝ) (c : (Fin m → ℝ) → ℝ) : PEqn 6 m :=
  ⟨[first z], 3, fun i => (posIx i, 1), here, 3, fun _ J s i => c s * J i - V0 i⟩

/-- The row of the position at the end. -/
noncomputable abbrev specGoal (z : List ℝ) : PEqn 6 m := ⟨[last z], 3, fun i => (posIx i, 0), here, 3, fun _ J _ i => J i⟩

/-- The row of the velocity at the end. -/
noncomputable abbrev specRest (z : List ℝ) (c : (Fin m → ℝ) → ℝ) : PEqn 6 m :=
  ⟨[last z], 3, fun i => (posIx i, 1), here, 3, fun _ J s i => c s * J i⟩

theorem specEqs_eq (z : List ℝ) (R0 V0 ag : Fin 3 → ℝ) (c : (Fin m → ℝ) → ℝ) :
    specEqs z R0 V0 ag c = [specMotion z ag c, specStart z R0, specSpeed z V0 c, specGoal z, specRest z c] := rfl

variable {S : PSys 6 m} {z : List ℝ} {c : (Fin m → ℝ) → ℝ}

theorem specMotion_miss (hS : S.funs = specFuns stfc ctfc) (st : PState 6 m) (x : ℝ) (i : Fin 3) :
    sysMiss S st (specMotion z ag c) x i = c st.num ^ 2 * iteratedDeriv 2 (st.free (posIx i)) x - ag i + st.free (lamIx i) x := by
  show c st.num ^ 2 * sysJet _ _ _ _ _ - _ + sysJet _ _ _ _ _ = _
  simp only [sysJet, specMotion, here]
  rw [landTerms_pos, landTerms_lam, iteratedDeriv_zero, spec_fn hS, spec_fn hS]

theorem specStart_miss (hS : S.funs = specFuns stfc ctfc) (st : PState 6 m) (x : ℝ) (i : Fin 3) :
    sysMiss S st (specStart z R0) x i = st.free (posIx i) x - R0 i := by
  show sysJet _ _ _ _ _ - _ = _
  simp only [sysJet, specStart, here]
  rw [iteratedDeriv_zero, spec_fn hS]

theorem specSpeed_miss (hS : S.funs = specFuns stfc ctfc) (st : PState 6 m) (x : ℝ) (i : Fin 3) :
    sysMiss S st (specSpeed z V0 c) x i = c st.num * iteratedDeriv 1 (st.free (posIx i)) x - V0 i := by
  show c st.num * sysJet _ _ _ _ _ - _ = _
  simp only [sysJet, specSpeed, here]
  rw [spec_fn hS]

theorem specGoal_miss (hS : S.funs = specFuns stfc ctfc) (st : PState 6 m) (x : ℝ) (i : Fin 3) :
    sysMiss S st (specGoal z) x i = st.free (posIx i) x := by
  show sysJet _ _ _ _ _ = _
  simp only [sysJet, specGoal, here]
  rw [iteratedDeriv_zero, spec_fn hS]

theorem specRest_miss (hS : S.funs = specFuns stfc ctfc) (st : PState 6 m) (x : ℝ) (i : Fin 3) :
    sysMiss S st (specRest z c) x i = c st.num * iteratedDeriv 1 (st.free (posIx i)) x := by
  show c st.num * sysJet _ _ _ _ _ = _
  simp only [sysJet, specRest, here]
  rw [spec_fn hS]

/-- The rows vanish exactly for the motion with the least energy and its costate. -/
theorem spec_solved {N ms : ℕ} (F : SpecFit N ms stfc ctfc) (h3 : 3 ≤ ms) (hms : ms < N) (hS : S.funs = specFuns stfc ctfc) {st : PState 6 m}
    (hp : ∀ i, ∃ p : ℝ[X], p.degree < (ms + 1 : ℕ) ∧ st.free (posIx i) = fun x => p.eval x)
    (hl : ∀ i, ∃ α β : ℝ, st.free (lamIx i) = fun x => α + β * x) {k : ℝ} (hk : c st.num = k) (hk0 : k ≠ 0) :
    (∀ E ∈ specEqs stfc.z R0 V0 ag c, ∀ x ∈ E.pts, ∀ o, sysMiss S st E x o = 0) ↔
      ∀ i, (∀ x, st.free (posIx i) x = landPath (R0 i) (V0 i) (2 / k) ((x + 1) / k)) ∧
        ∀ x, st.free (lamIx i) x = ag i - deriv (deriv (landPath (R0 i) (V0 i) (2 / k))) ((x + 1) / k) := by
  have hc1 : ∀ i x, (hermite (R0 i) 0 (V0 i / k) 0).eval x = landPath (R0 i) (V0 i) (2 / k) ((x + 1) / k) := by
    intro i x
    rw [hermite_eval, ← cubic_eq hk0]
    ring
  have hc2 : ∀ i x, k ^ 2 * (derivative (derivative (hermite (R0 i) 0 (V0 i / k) 0))).eval x =
      deriv (deriv (landPath (R0 i) (V0 i) (2 / k))) ((x + 1) / k) := by
    intro i x
    have := costate_eq hk0 (R0 i) (V0 i) 0 x
    have e : deriv (deriv (landPath (R0 i) (V0 i) (2 / k))) ((x + 1) / k) = 3 / 2 * x * R0 i * k ^ 2 + (3 * x - 1) / 2 * V0 i * k := by linarith
    rw [e, hermite_deriv2]
    field_simp
    ring
  constructor
  · intro h i
    rw [specEqs_eq] at h
    obtain ⟨p, hpd, hpe⟩ := hp i
    obtain ⟨α, β, hle⟩ := hl i
    have a1 := fun x hx => h (specMotion stfc.z ag c) (by simp) x hx i
    have a2 := h (specStart stfc.z R0) (by simp) (-1) (by simp [F.left]) i
    have a3 := h (specSpeed stfc.z V0 c) (by simp) (-1) (by simp [F.left]) i
    have a4 := h (specGoal stfc.z) (by simp) 1 (by simp [F.right]) i
    have a5 := h (specRest stfc.z c) (by simp) 1 (by simp [F.right]) i
    rw [specStart_miss hS, hpe] at a2
    rw [specSpeed_miss hS, hpe, poly_iter1, hk] at a3
    rw [specGoal_miss hS, hpe] at a4
    rw [specRest_miss hS, hpe, poly_iter1, hk] at a5
    have b2 : ∀ x, (derivative (derivative p)).eval x = (ag i - α) / k ^ 2 + -β / k ^ 2 * x := by
      refine poly_line F.nodup F.len h3 hms hpd fun x hx => ?_
      have := a1 x hx
      rw [specMotion_miss hS, hpe, poly_iter2, hk, hle] at this
      field_simp
      linarith
    obtain ⟨r1, r2⟩ := hermite_unique b2 (r0 := R0 i) (r1 := 0) (s0 := V0 i / k) (s1 := 0) (by linarith) a4 (by field_simp; linarith)
      ((mul_eq_zero.1 a5).resolve_left hk0)
    refine ⟨fun x => by rw [hpe, ← hc1]; exact r1 x, fun x => ?_⟩
    rw [hle, ← hc2, ← r2]
    field_simp
    ring
  · intro h E hE x hx o
    have hpe : ∀ i, st.free (posIx i) = fun x => (hermite (R0 i) 0 (V0 i / k) 0).eval x := fun i => funext fun x => by rw [(h i).1, hc1]
    rw [specEqs_eq] at hE
    simp only [List.mem_cons, List.not_mem_nil, or_false] at hE
    rcases hE with rfl | rfl | rfl | rfl | rfl
    · change Fin 3 at o
      rw [specMotion_miss hS, hpe, poly_iter2, hk, (h o).2, hc2]
      ring
    · change Fin 3 at o
      have hx : x = -1 := by simpa [F.left] using hx
      rw [specStart_miss hS, hpe, hx]
      show eval _ _ - _ = _
      rw [hermite_eval]
      ring
    · change Fin 3 at o
      have hx : x = -1 := by simpa [F.left] using hx
      rw [specSpeed_miss hS, hpe, poly_iter1, hk, hx, hermite_deriv]
      field_simp
      ring
    · change Fin 3 at o
      have hx : x = 1 := by simpa [F.right] using hx
      rw [specGoal_miss hS, hpe, hx]
      show eval _ _ = _
      rw [hermite_eval]
      ring
    · change Fin 3 at o
      have hx : x = 1 := by simpa [F.right] using hx
      rw [specRest_miss hS, hpe, poly_iter1, hk, hx, hermite_deriv]
      ring

/-- The dictionary for the motion with the least energy. -/
theorem spec_dict {N ms : ℕ} (F : SpecFit N ms stfc ctfc) (h3 : 3 ≤ ms) (hS : S.funs = specFuns stfc ctfc)
    {rest : List (String × Arr ℝ)} (hfit : FitsSys S (landUnknowns stfc ctfc rest)) (cls : DictClass) (R0 V0 ag : Fin 3 → ℝ) {k : ℝ} (hk0 : k ≠ 0)
    (l' : List ℝ) (hl' : l'.length = (entries (View.dict cls rest)).length) :
    ∃ v' st', SameForm (.dict cls (landUnknowns stfc ctfc rest)) v' ∧ Means S v' st' ∧
      (∀ i, (∀ x, st'.free (posIx i) x = landPath (R0 i) (V0 i) (2 / k) ((x + 1) / k)) ∧
        ∀ x, st'.free (lamIx i) x = ag i - deriv (deriv (landPath (R0 i) (V0 i) (2 / k))) ((x + 1) / k)) ∧
      ∀ i j, offsetOf (landUnknowns stfc ctfc rest) (S.names i) = cols1 stfc * 3 + (6 + j) → st'.num i = coef l' j := by
  obtain ⟨v', st', h1, h2, h3, h4, h5⟩ := spec_reach F hS hfit cls (p := fun i => hermite (R0 i) 0 (V0 i / k) 0) (fun i => hermite_degree _ _ _ _ h3)
    (fun i => ag i + 1 / 2 * V0 i * k) (fun i => -(3 / 2 * R0 i * k ^ 2 + 3 / 2 * V0 i * k)) l' hl'
  refine ⟨v', st', h1, h2, fun i => ⟨fun x => ?_, fun x => ?_⟩, h5⟩
  · rw [h3]
    show eval _ _ = _
    rw [hermite_eval, ← cubic_eq hk0]
    ring
  · rw [h4, ← costate_eq hk0]
    ring

theorem specLand_smooth (hS : S.funs = specFuns stfc ctfc) (ht : ∀ E ∈ S.eqs, ∀ i, (E.terms i).2 ≤ 8) : SmoothSys S := by
  refine ⟨?_, ht⟩
  intro q c hc
  rw [hS] at hc
  rcases six_cases q with ⟨i, rfl⟩ | ⟨i, rfl⟩
  · rw [specFuns_pos] at hc
    simp at hc
  · rw [specFuns_lam] at hc
    simp at hc

theorem specEqs_terms {E : PEqn 6 m} (hE : E ∈ specEqs z R0 V0 ag c) (i : Fin E.count) : (E.terms i).2 ≤ 8 := by
  rw [specEqs_eq] at hE
  simp only [List.mem_cons, List.not_mem_nil, or_false] at hE
  rcases hE with rfl | rfl | rfl | rfl | rfl
  · exact landTerms_le i
  all_goals simp

/-! ## outSpec_EOL.py: the inner loop -/

theorem specInner_lin {k : ℝ} {st st' : PState 6 0} (hst : ∀ q, ContDiff ℝ ∞ (st.free q)) (hst' : ∀ q, ContDiff ℝ ∞ (st'.free q)) {E : PEqn 6 0}
    (hE : E ∈ (specInnerSys stfc ctfc R0 V0 ag k).eqs) (x : ℝ) (o : Fin E.outs) :
    sysLin (specInnerSys stfc ctfc R0 V0 ag k) st st' E x o = sysMiss (specInnerSys stfc ctfc R0 V0 ag k) st' E x o := by
  have hS : (specInnerSys stfc ctfc R0 V0 ag k).funs = specFuns stfc ctfc := rfl
  have hd : ∀ a b : ℝ, deriv (fun r : ℝ => a + r * b) 0 = b := fun a b => by
    have := ((hasDerivAt_id (0 : ℝ)).mul_const b).const_add a
    simpa using this.deriv
  have key : ∀ a b : ℝ, (∀ r : ℝ, sysMiss (specInnerSys stfc ctfc R0 V0 ag k) (st.toward st' r) E x o = a + r * (b - a)) →
      sysMiss (specInnerSys stfc ctfc R0 V0 ag k) st E x o = a → b = sysMiss (specInnerSys stfc ctfc R0 V0 ag k) st' E x o →
      sysLin (specInnerSys stfc ctfc R0 V0 ag k) st st' E x o = sysMiss (specInnerSys stfc ctfc R0 V0 ag k) st' E x o := by
    intro a b h1 h2 h3
    unfold sysLin
    rw [funext h1, hd, h2, ← h3]
    ring
  have hE' : E ∈ specEqs stfc.z R0 V0 ag fun _ => k := hE
  rw [specEqs_eq] at hE'
  simp only [List.mem_cons, List.not_mem_nil, or_false] at hE'
  rcases hE' with rfl | rfl | rfl | rfl | rfl
  · change Fin 3 at o
    refine key _ _ (fun r => ?_) (specMotion_miss hS st x o) (specMotion_miss hS st' x o).symm
    rw [specMotion_miss hS, toward_iter hst hst']
    simp only [PState.toward]
    ring
  · change Fin 3 at o
    refine key _ _ (fun r => ?_) (specStart_miss hS st x o) (specStart_miss hS st' x o).symm
    rw [specStart_miss hS]
    simp only [PState.toward]
    ring
  · change Fin 3 at o
    refine key _ _ (fun r => ?_) (specSpeed_miss hS st x o) (specSpeed_miss hS st' x o).symm
    rw [specSpeed_miss hS, toward_iter hst hst']
    ring
  · change Fin 3 at o
    refine key _ _ (fun r => ?_) (specGoal_miss hS st x o) (specGoal_miss hS st' x o).symm
    rw [specGoal_miss hS]
    simp only [PState.toward]
  · change Fin 3 at o
    refine key _ _ (fun r => ?_) (specRest_miss hS st x o) (specRest_miss hS st' x o).symm
    rw [specRest_miss hS, toward_iter hst hst']
    ring

theorem specInner_regular (k : ℝ) (st : PState 6 0) : Regular (specInnerSys stfc ctfc R0 V0 ag k) st := by
  refine ⟨?_, ?_⟩
  · intro q d hd
    have hf : (specInnerSys stfc ctfc R0 V0 ag k).funs q = specFuns stfc ctfc q := rfl
    rw [hf] at hd
    rcases six_cases q with ⟨i, rfl⟩ | ⟨i, rfl⟩
    · rw [specFuns_pos] at hd
      simp at hd
    · rw [specFuns_lam] at hd
      simp at hd
  · intro E hE x _ o
    have hE' : E ∈ specEqs stfc.z R0 V0 ag fun _ => k := hE
    rw [specEqs_eq] at hE'
    simp only [List.mem_cons, List.not_mem_nil, or_false] at hE'
    rcases hE' with rfl | rfl | rfl | rfl | rfl
    all_goals
      dsimp only
      fun_prop

end Verif.Props
