import Verif.Props.OdeSystemPrograms
import Verif.Props.ClassArgs
import Verif.Props.Landing

/-!
# The programs for the landing with least energy, end to end
-/

namespace Verif.Props

open Set Polynomial Verif Verif.Mem Verif.Py Verif.Np Verif.Spec Verif.Model Verif.Model.Py Verif.Model.LSq Verif.Model.Prog Verif.Model.Dict
  Verif.Lemmas.LSq
open scoped ContDiff

/-! ## Solver objects for systems -/

variable {nf m : ℕ}

/-- **C104, with a solver object.** `NllsClass` on a system whose data come from the arguments: the construction succeeds, and every run, with any
arguments for which the system fits, computes a Gauss–Newton iteration for the equations. -/
theorem C104_newton_class {lib : LinAlg} (hlib : LinAlgCorrect lib) {method : Method} (hm : method ≠ .other) (Sf : List (View String) → PSys nf m)
    {cls : DictClass} {kvs : List (String × Arr ℝ)} (hp : ProperUnknowns (.dict cls kvs)) (hpos : entries (View.dict cls kvs) ≠ [])
    (args0 : List (View String)) (tol : ℝ) (htol : tol < 1) (maxIter : ℕ) (timer : Bool) (fuel : ℕ) (hf : maxIter + 2 ≤ fuel) :
    ∃ o, (NllsObj.init lib method none none none tol maxIter timer (psysResidual Sf) (.dict cls kvs) args0 []).1 = .ok o ∧
      ∀ args, args.length = args0.length → SmoothSys (Sf args) → FitsSys (Sf args) kvs → places (Sf args).eqs ≠ [] → ∀ c : Bool,
        ∃ (v : View String) (it : ℕ) (vs : ℕ → View String) (sts : ℕ → PState nf m),
          NllsObj.run { o with compiled := c } (.dict cls kvs) args fuel = (.ok (some (v, (it : ℤ))), { o with compiled := true }) ∧
          SysRun (Sf args) (.dict cls kvs) tol maxIter v it vs sts := by
  obtain ⟨o, h1, h2⟩ := C37_nllsClass_args_partial lib method hm none (psysResidual Sf) (.dict cls kvs) args0 [] ⟨by simp, by simp⟩ none tol htol
    maxIter timer fuel hf
  refine ⟨o, h1, fun args hlen hs hS hne c => ?_⟩
  obtain ⟨S, hSe⟩ : ∃ S, S = Sf args := ⟨_, rfl⟩
  rw [← hSe] at hs hS hne ⊢
  obtain ⟨n, hn⟩ : ∃ n, (entries (View.dict cls kvs)).length = n := ⟨_, rfl⟩
  have hn0 : n ≠ 0 := by
    intro h
    exact hpos (List.length_eq_zero_iff.1 (by rw [hn, h]))
  have hval : ∀ v, SameForm (.dict cls kvs) v → (psysResidual Sf) (v :: args) = (places S.eqs).map (placeMiss S kvs (coef (entries v))) := by
    intro v hv
    simp only [psysResidual, ← hSe, psysRes_value hs hS hv, orEmpty]
  obtain ⟨rest, h3, h4⟩ := h2 args ⟨hlen, by simp⟩
  have hrest : rest = args := by
    obtain ⟨r, e1, e2⟩ := popArgs_ok (L := []) (by simp) (View.dict cls kvs) args (by simp)
    cases e1
    rw [h3] at e2
    cases e2
    rfl
  subst hrest
  obtain ⟨x, k, h5, h6⟩ := h4 ⟨hlib, hm, Or.inl rfl, ⟨by simp, by simp⟩, hp, hpos, fun v hv => by rw [hval v hv]; simpa using hne⟩ c _
    (SameForm.refl _)
  obtain ⟨xs, h0, hx, h7⟩ := local_stops hn0 hn hval (fun t _ => placeMiss_first hS hn t) (SameForm.refl _) h6
  refine ⟨x, k, xs, fun j => stateOf S kvs (coef (entries (xs j))), h5, h7.bound, h0, hx, h7.form, fun j hj => means_stateOf hS (h7.form j hj), ?_, ?_, ?_⟩
  · intro j hj hr v' st' hv' hst'
    have := h7.step j hj (fun t ht => placeMiss_diff hs hS hn hr ht) (coef (entries v'))
    rw [means_unique hS hv' hst', ← sum_places, ← sum_places]
    simpa only [linAt_places] using this
  · intro j hj hr v' st' hv' hst' hle
    have := h7.shortest j hj (fun t ht => placeMiss_diff hs hS hn hr ht) (coef (entries v'))
    rw [means_unique hS hv' hst', ← sum_places, ← sum_places] at hle
    simp only [linAt_places] at this
    rw [hn]
    exact this hle
  · rcases h7.stop with h | h | h
    · exact Or.inl fun E hE x hx o => h ⟨E, x, o⟩ (mem_places.2 ⟨hE, hx⟩)
    · exact Or.inr (Or.inl h)
    · exact Or.inr (Or.inr h)

/-- If the linearised equations can be met exactly, the step meets them exactly. -/
theorem step_exact {S : PSys nf m} {z v : View String} {tol : ℝ} {maxIter it : ℕ} {vs : ℕ → View String} {sts : ℕ → PState nf m}
    (h : SysRun S z tol maxIter v it vs sts) {j : ℕ} (hj : j < it) (hr : Regular S (sts j)) {v' : View String} {st' : PState nf m}
    (hv' : SameForm z v') (hst' : Means S v' st') (hz : ∀ E ∈ S.eqs, ∀ x ∈ E.pts, ∀ o, sysLin S (sts j) st' E x o = 0) :
    ∀ E ∈ S.eqs, ∀ x ∈ E.pts, ∀ o, sysLin S (sts j) (sts (j + 1)) E x o = 0 := by
  have hle := h.step j hj hr v' st' hv' hst'
  rw [← sum_places, ← sum_places] at hle
  have h0 : ((places S.eqs).map fun t => sysLin S (sts j) st' t.1 t.2.1 t.2.2 ^ 2).sum = 0 := by
    refine List.sum_eq_zero fun a ha => ?_
    obtain ⟨t, ht, rfl⟩ := List.mem_map.1 ha
    obtain ⟨hE, hx⟩ := mem_places.1 ht
    rw [hz t.1 hE t.2.1 hx t.2.2]
    norm_num
  rw [h0] at hle
  have hnn : ∀ l : List (Place nf m), 0 ≤ (l.map fun t => sysLin S (sts j) (sts (j + 1)) t.1 t.2.1 t.2.2 ^ 2).sum := by
    intro l
    refine List.sum_nonneg fun a ha => ?_
    obtain ⟨t, -, rfl⟩ := List.mem_map.1 ha
    exact sq_nonneg _
  have key : ∀ l : List (Place nf m), (l.map fun t => sysLin S (sts j) (sts (j + 1)) t.1 t.2.1 t.2.2 ^ 2).sum ≤ 0 →
      ∀ t ∈ l, sysLin S (sts j) (sts (j + 1)) t.1 t.2.1 t.2.2 = 0 := by
    intro l
    induction l with
    | nil => simp
    | cons a l ih =>
      intro hl t ht
      rw [List.map_cons, List.sum_cons] at hl
      have h1 := hnn l
      have h2 := sq_nonneg (sysLin S (sts j) (sts (j + 1)) a.1 a.2.1 a.2.2)
      rcases List.mem_cons.1 ht with rfl | ht
      · exact pow_eq_zero_iff (n := 2) (by norm_num) |>.1 (by linarith)
      · exact ih (by linarith) t ht
  intro E hE x hx o
  exact key _ hle ⟨E, x, o⟩ (mem_places.2 ⟨hE, hx⟩)

/-! ## The objects -/

theorem freeOf_poly {u : Utfc} {f : PolyFamily} (hcls : u.cls = .poly f) (hx : u.x0 ≠ u.xf) (c : ℕ → ℝ) :
    ∃ p : ℝ[X], p.degree < (u.deg + 1 : ℕ) ∧ freeOf u c = fun x => p.eval x := by
  obtain ⟨φ, hφ, hφd⟩ := basis_poly f u.x0 u.xf hx
  refine ⟨∑ i ∈ Finset.range (outColumns (u.deg + 1) u.nC false).length, C (c i) * φ ((outColumns (u.deg + 1) u.nC false).getD i 0), ?_, ?_⟩
  · refine lt_of_le_of_lt (degree_sum_le _ _) ((Finset.sup_lt_iff (by exact_mod_cast WithBot.bot_lt_coe _)).2 fun i hi => ?_)
    have hi := Finset.mem_range.mp hi
    refine lt_of_le_of_lt ((degree_mul_le _ _).trans (add_le_of_nonpos_left degree_C_le)) (lt_of_lt_of_le (hφd _) ?_)
    have : (outColumns (u.deg + 1) u.nC false).getD i 0 < u.deg + 1 := by
      rw [List.getD, List.getElem?_eq_getElem hi]
      exact outColumns_lt (List.getElem_mem hi)
    exact_mod_cast this
  · funext x
    unfold freeOf
    rw [eval_finsetSum]
    refine Finset.sum_congr rfl fun i _ => ?_
    rw [eval_mul, eval_C, hφ]
    congr 1
    unfold UniClass.basis
    rw [hcls]
    rfl

/-- What the programs need of their two objects. -/
structure LandFit (N ms : ℕ) (stfc ctfc : Utfc) : Prop where
  ready1 : Ready stfc
  ready2 : Ready ctfc
  len : stfc.z.length = N
  nodup : stfc.z.Nodup
  left : first stfc.z = -1
  right : last stfc.z = 1
  mem : ∀ x ∈ stfc.z, -1 ≤ x ∧ x ≤ 1
  ends : (1 : ℝ) ∈ stfc.z
  cols1 : cols1 stfc = ms - 3
  cols2 : Verif.Props.cols1 ctfc = 2
  poly : ∀ c, ∃ p : ℝ[X], p.degree < (ms + 1 : ℕ) ∧ freeOf stfc c = fun x => p.eval x
  line : ∀ c : ℕ → ℝ, freeOf ctfc c = fun x => c 0 + c 1 * x

theorem land_objects {N ms : ℕ} (hN : 2 ≤ N) (hm : 4 ≤ ms) (wt bt wt' bt' : ℕ → ℝ) :
    ∃ stfc ctfc, utfcInit N (.int 4) ms "CP" (some (-1)) (some 1) "C++" wt bt = .ok stfc ∧
      utfcInit N (.int 0) 1 "CP" (some (-1)) (some 1) "C++" wt' bt' = .ok ctfc ∧ LandFit N ms stfc ctfc := by
  have hcp : "CP" ∈ smoothNames := by simp [smoothNames]
  have hpc : BasisName.parse "CP" = some .cp := by decide
  obtain ⟨u1, hu1, hB1, hr1, hl1, f1, l1, c1⟩ := objectK (k := 4) hN hm hcp (Or.inl rfl) (x0 := -1) (xf := 1) (by norm_num) wt bt
  obtain ⟨u2, hu2, hB2, hr2, hl2, -, -, c2⟩ := objectK (k := 0) (m := 1) hN (by norm_num) hcp (Or.inl rfl) (x0 := -1) (xf := 1) (by norm_num) wt' bt'
  have hz := built_z hN (Or.inl rfl) hB1
  obtain ⟨-, -, p3, -, p5, p6, -⟩ := C13_points N hN _ ms "CP" "C++" (-1) 1 (by norm_num) wt bt u1 hu1
  obtain ⟨d1, x1, xf1, b1, k1⟩ := init_fields hu1
  obtain ⟨d2, x2, xf2, b2, k2⟩ := init_fields hu2
  rw [hpc] at b1 b2
  rw [← Option.some.inj b1] at k1
  rw [← Option.some.inj b2] at k2
  have hcls1 : u1.cls = .poly .cp := k1
  have hcls2 : u2.cls = .poly .cp := k2
  refine ⟨u1, u2, hu1, hu2, hr1, hr2, by rw [hz, hl1], ?_, by rw [hz, f1], by rw [hz, l1], ?_, ?_, by rw [c1]; omega, by rw [c2], ?_, ?_⟩
  · rw [hz]; exact p3.imp fun h => h.ne
  · rw [hz]; exact p6
  · rw [hz]; exact List.mem_of_getLast? p5
  · intro c
    have := freeOf_poly hcls1 (by rw [x1, xf1]; norm_num) c
    rwa [d1] at this
  · intro c
    funext x
    have hnc : u2.nC = [] := by
      have := (utfcInit_ok hu2).1
      simp [utfcNC, arange, bind, Except.bind] at this
      exact this
    have hcol : outColumns (1 + 1) [] false = [0, 1] := by decide
    unfold freeOf
    rw [d2, hnc, hcol, hcls2, x2, xf2]
    simp only [List.length_cons, List.length_nil, Finset.sum_range_succ, Finset.sum_range_zero, UniClass.basis]
    simp [UniClass.fn, UniClass.arg, PolyFamily.arg, toBasis, classical]

/-! ## The expressions on `[-1, 1]` -/

/-- The part of the expression that contains the free function, differentiated twice. -/
noncomputable def landA (g : ℝ → ℝ) (x : ℝ) : ℝ :=
  deriv (deriv g) x - 3 / 2 * x * (g (-1) - g 1) - (3 * x - 1) / 2 * deriv g (-1) - (3 * x + 1) / 2 * deriv g 1

/-- The part of the expression that contains the free function. -/
noncomputable def landHom (g : ℝ → ℝ) (x : ℝ) : ℝ :=
  g x - (2 - 3 * x + x ^ 3) / 4 * g (-1) - (2 + 3 * x - x ^ 3) / 4 * g 1 - (1 - x - x ^ 2 + x ^ 3) / 4 * deriv g (-1) -
    (-1 - x + x ^ 2 + x ^ 3) / 4 * deriv g 1

theorem landHom_deriv {g : ℝ → ℝ} (hg : ContDiff ℝ 2 g) (x : ℝ) : HasDerivAt (landHom g) (deriv g x - (-3 + 3 * x ^ 2) / 4 * g (-1) -
    (3 - 3 * x ^ 2) / 4 * g 1 - (-1 - 2 * x + 3 * x ^ 2) / 4 * deriv g (-1) - (-1 + 2 * x + 3 * x ^ 2) / 4 * deriv g 1) x := by
  have h0 := (hg.differentiable (by simp) x).hasDerivAt
  have h1 : HasDerivAt (fun x : ℝ => (2 - 3 * x + x ^ 3) / 4 * g (-1)) ((-3 + 3 * x ^ 2) / 4 * g (-1)) x :=
    ((((((hasDerivAt_id x).const_mul 3).const_sub 2).add ((hasDerivAt_id x).pow 3)).div_const 4).mul_const _).congr_deriv (by simp only [id]; ring)
  have h2 : HasDerivAt (fun x : ℝ => (2 + 3 * x - x ^ 3) / 4 * g 1) ((3 - 3 * x ^ 2) / 4 * g 1) x :=
    ((((((hasDerivAt_id x).const_mul 3).const_add 2).sub ((hasDerivAt_id x).pow 3)).div_const 4).mul_const _).congr_deriv (by simp only [id]; ring)
  have h3 : HasDerivAt (fun x : ℝ => (1 - x - x ^ 2 + x ^ 3) / 4 * deriv g (-1)) ((-1 - 2 * x + 3 * x ^ 2) / 4 * deriv g (-1)) x :=
    ((((((hasDerivAt_id x).const_sub 1).sub ((hasDerivAt_id x).pow 2)).add ((hasDerivAt_id x).pow 3)).div_const 4).mul_const _).congr_deriv
      (by simp only [id]; ring)
  have h4 : HasDerivAt (fun x : ℝ => (-1 - x + x ^ 2 + x ^ 3) / 4 * deriv g 1) ((-1 + 2 * x + 3 * x ^ 2) / 4 * deriv g 1) x :=
    ((((((hasDerivAt_id x).const_sub (-1)).add ((hasDerivAt_id x).pow 2)).add ((hasDerivAt_id x).pow 3)).div_const 4).mul_const _).congr_deriv
      (by simp only [id]; ring)
  exact (((h0.sub h1).sub h2).sub h3).sub h4

theorem landHom_deriv2 {g : ℝ → ℝ} (hg : ContDiff ℝ 2 g) (x : ℝ) : HasDerivAt (deriv (landHom g)) (landA g x) x := by
  have e : deriv (landHom g) = fun x => deriv g x - (-3 + 3 * x ^ 2) / 4 * g (-1) -
    (3 - 3 * x ^ 2) / 4 * g 1 - (-1 - 2 * x + 3 * x ^ 2) / 4 * deriv g (-1) - (-1 + 2 * x + 3 * x ^ 2) / 4 * deriv g 1 :=
    funext fun x => (landHom_deriv hg x).deriv
  rw [e]
  have h0 := ((first_smooth hg).differentiable (by simp) x).hasDerivAt
  have h1 : HasDerivAt (fun x : ℝ => (-3 + 3 * x ^ 2) / 4 * g (-1)) (6 * x / 4 * g (-1)) x :=
    ((((((hasDerivAt_id x).pow 2).const_mul 3).const_add (-3)).div_const 4).mul_const _).congr_deriv (by simp only [id]; ring)
  have h2 : HasDerivAt (fun x : ℝ => (3 - 3 * x ^ 2) / 4 * g 1) (-6 * x / 4 * g 1) x :=
    ((((((hasDerivAt_id x).pow 2).const_mul 3).const_sub 3).div_const 4).mul_const _).congr_deriv (by simp only [id]; ring)
  have h3 : HasDerivAt (fun x : ℝ => (-1 - 2 * x + 3 * x ^ 2) / 4 * deriv g (-1)) ((-2 + 6 * x) / 4 * deriv g (-1)) x :=
    ((((((hasDerivAt_id x).const_mul 2).const_sub (-1)).add (((hasDerivAt_id x).pow 2).const_mul 3)).div_const 4).mul_const _).congr_deriv
      (by simp only [id]; ring)
  have h4 : HasDerivAt (fun x : ℝ => (-1 + 2 * x + 3 * x ^ 2) / 4 * deriv g 1) ((2 + 6 * x) / 4 * deriv g 1) x :=
    ((((((hasDerivAt_id x).const_mul 2).const_add (-1)).add (((hasDerivAt_id x).pow 2).const_mul 3)).div_const 4).mul_const _).congr_deriv
      (by simp only [id]; ring)
  exact ((((h0.sub h1).sub h2).sub h3).sub h4).congr_deriv (by unfold landA; ring)

/-- A function with zero values and slopes at both ends whose second derivative is a line vanishes. -/
theorem line_zero {h : ℝ → ℝ} {α β : ℝ} (d1 : ∀ x, HasDerivAt h (deriv h x) x) (d2 : ∀ x, HasDerivAt (deriv h) (α + β * x) x) (h1 : h (-1) = 0)
    (h2 : h 1 = 0) (h3 : deriv h (-1) = 0) (h4 : deriv h 1 = 0) : (∀ x, h x = 0) ∧ α = 0 ∧ β = 0 := by
  have e1 : ∀ x y, deriv h x - (α * x + β / 2 * x ^ 2) = deriv h y - (α * y + β / 2 * y ^ 2) := by
    have hd : ∀ x, HasDerivAt (fun x => deriv h x - (α * x + β / 2 * x ^ 2)) 0 x := fun x =>
      ((d2 x).sub (((hasDerivAt_id x).const_mul α).add (((hasDerivAt_id x).pow 2).const_mul (β / 2)))).congr_deriv (by simp only [id]; ring)
    exact is_const_of_deriv_eq_zero (fun x => (hd x).differentiableAt) fun x => (hd x).deriv
  obtain ⟨e, he⟩ : ∃ e, e = deriv h 1 - (α * 1 + β / 2 * 1 ^ 2) := ⟨_, rfl⟩
  have e2 : ∀ x, deriv h x = α * x + β / 2 * x ^ 2 + e := fun x => by have := e1 x 1; linarith
  have e3 : ∀ x y, h x - (α / 2 * x ^ 2 + β / 6 * x ^ 3 + e * x) = h y - (α / 2 * y ^ 2 + β / 6 * y ^ 3 + e * y) := by
    have hd : ∀ x, HasDerivAt (fun x => h x - (α / 2 * x ^ 2 + β / 6 * x ^ 3 + e * x)) 0 x := fun x =>
      ((d1 x).sub (((((hasDerivAt_id x).pow 2).const_mul (α / 2)).add (((hasDerivAt_id x).pow 3).const_mul (β / 6))).add
        ((hasDerivAt_id x).const_mul e))).congr_deriv (by rw [e2]; simp only [id]; ring)
    exact is_const_of_deriv_eq_zero (fun x => (hd x).differentiableAt) fun x => (hd x).deriv
  have a1 := e2 1
  have a2 := e2 (-1)
  have a3 := e3 1 (-1)
  rw [h4] at a1
  rw [h3] at a2
  rw [h1, h2] at a3
  have hα : α = 0 := by linarith
  have hβ : β = 0 := by linarith
  have hee : e = 0 := by linarith
  refine ⟨fun x => ?_, hα, hβ⟩
  have := e3 x 1
  rw [hα, hβ, hee, h2] at this
  simpa using this

/-- A free function of degree at most `ms` that cancels a line at enough points adds nothing to the expression. -/
theorem landHom_zero {N ms : ℕ} {stfc ctfc : Utfc} (F : LandFit N ms stfc ctfc) (hN : 2 ≤ N) (hms : ms ≤ N + 1) {g : ℝ → ℝ} {c : ℕ → ℝ}
    (hg : g = freeOf stfc c) {α β : ℝ} (h : ∀ x ∈ stfc.z, landA g x + (α + β * x) = 0) : (∀ x, landHom g x = 0) ∧ α = 0 ∧ β = 0 := by
  obtain ⟨p, hp, hgp⟩ := F.poly c
  have hs : ContDiff ℝ 2 g := by rw [hg]; exact contDiff_infty.1 (freeOf_contDiff F.ready1 c) 2
  have hge : g = fun x => p.eval x := hg.trans hgp
  have hd : deriv g = fun x => (derivative p).eval x := by rw [hge]; funext x; exact p.deriv
  have hd2 : deriv (deriv g) = fun x => (derivative (derivative p)).eval x := by rw [hd]; funext x; exact (derivative p).deriv
  obtain ⟨a, ha⟩ : ∃ a : ℝ, a = 1 / 2 * deriv g (-1) - 1 / 2 * deriv g 1 + α := ⟨_, rfl⟩
  obtain ⟨b, hb⟩ : ∃ b : ℝ, b = -(3 / 2) * (g (-1) - g 1) - 3 / 2 * deriv g (-1) - 3 / 2 * deriv g 1 + β := ⟨_, rfl⟩
  have hq : ∀ x, (derivative (derivative p) + (C b * X + C a)).eval x = landA g x + (α + β * x) := by
    intro x
    simp only [eval_add, eval_mul, eval_C, eval_X]
    rw [ha, hb, landA, hd2]
    ring
  have hz : derivative (derivative p) + (C b * X + C a) = 0 := by
    refine eq_zero_of_degree_lt_of_eval_finset_eq_zero stfc.z.toFinset ?_ fun t ht => ?_
    · rw [List.toFinset_card_of_nodup F.nodup, F.len]
      refine lt_of_le_of_lt (degree_add_le _ _) (max_lt ?_ ?_)
      · by_cases hp0 : derivative (derivative p) = 0
        · rw [hp0, degree_zero]; exact WithBot.bot_lt_coe _
        · have hpne : p ≠ 0 := by
            rintro rfl
            simp at hp0
          have n1 : p.natDegree < ms + 1 := (natDegree_lt_iff_degree_lt hpne).2 hp
          have n2 := natDegree_derivative_le p
          have n3 := natDegree_derivative_le (derivative p)
          rw [degree_eq_natDegree hp0]
          have : (derivative (derivative p)).natDegree < N := by omega
          exact_mod_cast this
      · refine lt_of_le_of_lt degree_linear_le ?_
        exact_mod_cast hN
    · rw [hq]; exact h t (List.mem_toFinset.1 ht)
  have hall : ∀ x, landA g x = -α + -β * x := by
    intro x
    have := hq x
    rw [hz, eval_zero] at this
    linarith
  obtain ⟨r1, r2, r3⟩ := line_zero (h := landHom g) (α := -α) (β := -β) (fun x => (landHom_deriv hs x).differentiableAt.hasDerivAt)
    (fun x => by rw [← hall]; exact landHom_deriv2 hs x) (by unfold landHom; ring) (by unfold landHom; ring)
    (by rw [(landHom_deriv hs (-1)).deriv]; ring) (by rw [(landHom_deriv hs 1).deriv]; ring)
  exact ⟨r1, by linarith, by linarith⟩

/-! ## The systems -/

variable {stfc ctfc : Utfc} {R0 V0 ag : Fin 3 → ℝ}

theorem landFuns_pos (V : Fin 3 → (Fin m → ℝ) → ℝ) (i : Fin 3) : landFuns stfc ctfc R0 V (posIx i) = ⟨stfc, "xis", 3, i, [
      ⟨landPhi1 (first stfc.z) (last stfc.z), 0, first stfc.z, fun _ => R0 i⟩,
      ⟨landPhi2 (first stfc.z) (last stfc.z), 0, last stfc.z, fun _ => 0⟩,
      ⟨landPhi3 (first stfc.z) (last stfc.z), 1, first stfc.z, V i⟩,
      ⟨landPhi4 (first stfc.z) (last stfc.z), 1, last stfc.z, fun _ => 0⟩]⟩ := by
  unfold landFuns
  rw [dif_pos (show (posIx i).val < 3 from i.2)]
  rfl

theorem landFuns_lam (V : Fin 3 → (Fin m → ℝ) → ℝ) (i : Fin 3) : landFuns stfc ctfc R0 V (lamIx i) = ⟨ctfc, "xic", 3, i, []⟩ := by
  unfold landFuns
  rw [dif_neg (show ¬ (lamIx i).val < 3 by simp [lamIx])]
  simp [lamIx]

theorem six_cases (q : Fin 6) : (∃ i, q = posIx i) ∨ ∃ i, q = lamIx i := by
  by_cases h : q.val < 3
  · exact Or.inl ⟨⟨q, h⟩, rfl⟩
  · refine Or.inr ⟨⟨q - 3, by omega⟩, Fin.ext ?_⟩
    simp only [lamIx]
    omega

theorem land_pos {N ms : ℕ} (F : LandFit N ms stfc ctfc) {S : PSys 6 m} {V : Fin 3 → (Fin m → ℝ) → ℝ} (hS : S.funs = landFuns stfc ctfc R0 V)
    (st : PState 6 m) (i : Fin 3) : sysFn S st (posIx i) = fun x => landHom (st.free (posIx i)) x + (2 - 3 * x + x ^ 3) / 4 * R0 i +
      (1 - x - x ^ 2 + x ^ 3) / 4 * V i st.num := by
  funext x
  unfold sysFn curve PFun.ends
  rw [hS, landFuns_pos, F.left, F.right]
  simp only [List.map_cons, List.map_nil, List.sum_cons, List.sum_nil, iteratedDeriv_zero, iteratedDeriv_one, landPhi1, landPhi2, landPhi3, landPhi4,
    landHom]
  ring

theorem land_lam {S : PSys 6 m} {V : Fin 3 → (Fin m → ℝ) → ℝ} (hS : S.funs = landFuns stfc ctfc R0 V) (st : PState 6 m) (i : Fin 3) :
    sysFn S st (lamIx i) = st.free (lamIx i) := by
  funext x
  unfold sysFn curve PFun.ends
  rw [hS, landFuns_lam]
  simp

theorem land_pos2 {N ms : ℕ} (F : LandFit N ms stfc ctfc) {S : PSys 6 m} {V : Fin 3 → (Fin m → ℝ) → ℝ} (hS : S.funs = landFuns stfc ctfc R0 V)
    {st : PState 6 m} (hst : ∀ q, ContDiff ℝ ∞ (st.free q)) (i : Fin 3) (x : ℝ) : iteratedDeriv 2 (sysFn S st (posIx i)) x =
      landA (st.free (posIx i)) x + 3 / 2 * x * R0 i + (3 * x - 1) / 2 * V i st.num := by
  have hg : ContDiff ℝ 2 (st.free (posIx i)) := contDiff_infty.1 (hst _) 2
  rw [land_pos F hS]
  generalize V i st.num = v
  generalize R0 i = r
  rw [iteratedDeriv_succ, iteratedDeriv_one]
  have p1 : ∀ x, HasDerivAt (fun x : ℝ => (2 - 3 * x + x ^ 3) / 4 * r) ((-3 + 3 * x ^ 2) / 4 * r) x := fun x =>
    ((((((hasDerivAt_id x).const_mul 3).const_sub 2).add ((hasDerivAt_id x).pow 3)).div_const 4).mul_const _).congr_deriv (by simp only [id]; ring)
  have p3 : ∀ x, HasDerivAt (fun x : ℝ => (1 - x - x ^ 2 + x ^ 3) / 4 * v) ((-1 - 2 * x + 3 * x ^ 2) / 4 * v) x := fun x =>
    ((((((hasDerivAt_id x).const_sub 1).sub ((hasDerivAt_id x).pow 2)).add ((hasDerivAt_id x).pow 3)).div_const 4).mul_const _).congr_deriv
      (by simp only [id]; ring)
  have e1 : deriv (fun x => landHom (st.free (posIx i)) x + (2 - 3 * x + x ^ 3) / 4 * r + (1 - x - x ^ 2 + x ^ 3) / 4 * v) =
      fun x => deriv (landHom (st.free (posIx i))) x + (-3 + 3 * x ^ 2) / 4 * r + (-1 - 2 * x + 3 * x ^ 2) / 4 * v := by
    funext x
    exact ((((landHom_deriv hg x).differentiableAt.hasDerivAt).add (p1 x)).add (p3 x)).deriv
  rw [e1]
  have q1 : HasDerivAt (fun x : ℝ => (-3 + 3 * x ^ 2) / 4 * r) (6 * x / 4 * r) x :=
    ((((((hasDerivAt_id x).pow 2).const_mul 3).const_add (-3)).div_const 4).mul_const _).congr_deriv (by simp only [id]; ring)
  have q3 : HasDerivAt (fun x : ℝ => (-1 - 2 * x + 3 * x ^ 2) / 4 * v) ((-2 + 6 * x) / 4 * v) x :=
    ((((((hasDerivAt_id x).const_mul 2).const_sub (-1)).add (((hasDerivAt_id x).pow 2).const_mul 3)).div_const 4).mul_const _).congr_deriv
      (by simp only [id]; ring)
  refine (((landHom_deriv2 hg x).add q1).add q3).deriv.trans ?_
  ring

theorem toward_smooth {nf : ℕ} {st st' : PState nf m} (h : ∀ q, ContDiff ℝ ∞ (st.free q)) (h' : ∀ q, ContDiff ℝ ∞ (st'.free q)) (s : ℝ) :
    ∀ q, ContDiff ℝ ∞ ((st.toward st' s).free q) := fun q => (h q).add (contDiff_const.mul ((h' q).sub (h q)))

theorem landA_toward {nf : ℕ} {st st' : PState nf m} (h : ∀ q, ContDiff ℝ ∞ (st.free q)) (h' : ∀ q, ContDiff ℝ ∞ (st'.free q)) (s : ℝ) (q : Fin nf)
    (x : ℝ) : landA ((st.toward st' s).free q) x = landA (st.free q) x + s * (landA (st'.free q) x - landA (st.free q) x) := by
  have g1 : ContDiff ℝ 2 (st.free q) := contDiff_infty.1 (h q) 2
  have g2 : ContDiff ℝ 2 (st'.free q) := contDiff_infty.1 (h' q) 2
  have e : (st.toward st' s).free q = fun x => st.free q x + s * (st'.free q x - st.free q x) := rfl
  have d1 : deriv ((st.toward st' s).free q) = fun x => deriv (st.free q) x + s * (deriv (st'.free q) x - deriv (st.free q) x) := by
    rw [e]
    funext x
    exact ((g1.differentiable (by simp) x).hasDerivAt.add
      (((g2.differentiable (by simp) x).hasDerivAt.sub (g1.differentiable (by simp) x).hasDerivAt).const_mul s)).deriv
  have d2 : deriv (deriv ((st.toward st' s).free q)) =
      fun x => deriv (deriv (st.free q)) x + s * (deriv (deriv (st'.free q)) x - deriv (deriv (st.free q)) x) := by
    rw [d1]
    funext x
    exact (((first_smooth g1).differentiable (by simp) x).hasDerivAt.add
      ((((first_smooth g2).differentiable (by simp) x).hasDerivAt.sub ((first_smooth g1).differentiable (by simp) x).hasDerivAt).const_mul s)).deriv
  unfold landA
  rw [d2, d1, e]
  ring

/-- The unknowns at the start. -/
def landUnknowns (stfc ctfc : Utfc) (rest : List (String × Arr ℝ)) : List (String × Arr ℝ) :=
  entry3 "xis" (List.replicate (cols1 stfc * 3) 0) :: entry3 "xic" (List.replicate (cols1 ctfc * 3) 0) :: rest

theorem land_fits {N ms : ℕ} (F : LandFit N ms stfc ctfc) {S : PSys 6 m} {V : Fin 3 → (Fin m → ℝ) → ℝ} (hS : S.funs = landFuns stfc ctfc R0 V)
    {rest : List (String × Arr ℝ)} (hn : ((landUnknowns stfc ctfc rest).map (·.1)).Nodup)
    (hname : ∀ i, S.names i ∈ (landUnknowns stfc ctfc rest).map (·.1)) (hone : ∀ i, 0 < sizeOfKey (landUnknowns stfc ctfc rest) (S.names i)) :
    FitsSys S (landUnknowns stfc ctfc rest) := by
  refine ⟨hn, ?_, ?_, ?_, ?_, hname, hone⟩
  · intro q
    rw [hS]
    rcases six_cases q with ⟨i, rfl⟩ | ⟨i, rfl⟩
    · rw [landFuns_pos]; exact F.ready1
    · rw [landFuns_lam]; exact F.ready2
  · intro q
    rw [hS]
    rcases six_cases q with ⟨i, rfl⟩ | ⟨i, rfl⟩
    · rw [landFuns_pos]; simp [landUnknowns, entry3]
    · rw [landFuns_lam]; simp [landUnknowns, entry3]
  · intro q
    rw [hS]
    rcases six_cases q with ⟨i, rfl⟩ | ⟨i, rfl⟩
    · rw [landFuns_pos]; exact i.2
    · rw [landFuns_lam]; exact i.2
  · intro q
    rw [hS]
    rcases six_cases q with ⟨i, rfl⟩ | ⟨i, rfl⟩
    · rw [landFuns_pos]; simp [landUnknowns, entry3, sizeOfKey]
    · rw [landFuns_lam]; simp [landUnknowns, entry3, sizeOfKey]

theorem coef_append_left {l l' : List ℝ} {i : ℕ} (h : i < l.length) : coef (l ++ l') i = coef l i := by
  unfold coef
  rw [List.getD, List.getD, List.getElem?_append_left h]

theorem coef_append_right (l l' : List ℝ) (i : ℕ) : coef (l ++ l') (l.length + i) = coef l' i := by
  unfold coef
  rw [List.getD, List.getD, List.getElem?_append_right (by omega)]
  congr 2
  omega

theorem coef_zeros (n i : ℕ) : coef (List.replicate n 0) i = 0 := by
  rw [coef_replicate]

/-- Dictionaries for every costate that is a line, without free part in the position. -/
theorem land_reach {N ms : ℕ} (F : LandFit N ms stfc ctfc) {S : PSys 6 m} {V : Fin 3 → (Fin m → ℝ) → ℝ} (hS : S.funs = landFuns stfc ctfc R0 V)
    {rest : List (String × Arr ℝ)} (hfit : FitsSys S (landUnknowns stfc ctfc rest)) (cls : DictClass) (α β : Fin 3 → ℝ) (l' : List ℝ)
    (hl' : l'.length = (entries (View.dict cls rest)).length) :
    ∃ v' st', SameForm (.dict cls (landUnknowns stfc ctfc rest)) v' ∧ Means S v' st' ∧ (∀ i, st'.free (posIx i) = fun _ => 0) ∧
      (∀ i, st'.free (lamIx i) = fun x => α i + β i * x) ∧
      ∀ i k, offsetOf (landUnknowns stfc ctfc rest) (S.names i) = cols1 stfc * 3 + (6 + k) → st'.num i = coef l' k := by
  obtain ⟨l, hl⟩ : ∃ l, l = List.replicate (cols1 stfc * 3) 0 ++ (([α 0, α 1, α 2, β 0, β 1, β 2] : List ℝ) ++ l') := ⟨_, rfl⟩
  have hlen : l.length = (entries (View.dict cls (landUnknowns stfc ctfc rest))).length := by
    rw [hl]
    simp only [entries, landUnknowns, entry3, List.map_cons, List.flatten_cons, List.length_append, List.length_replicate, F.cols2] at hl' ⊢
    simp [hl']
  have h1 := refill_form (View.dict cls (landUnknowns stfc ctfc rest)) hlen
  have h2 := means_stateOf (S := S) hfit h1
  rw [entries_refill _ hlen] at h2
  refine ⟨_, _, h1, h2, fun i => ?_, fun i => ?_, fun i k hk => ?_⟩
  · show freeOf (S.funs (posIx i)).obj _ = _
    rw [hS, landFuns_pos]
    refine (freeOf_congr _ fun k hk => ?_).trans (freeOf_zero stfc)
    have h0 : offsetOf (landUnknowns stfc ctfc rest) "xis" = 0 := by simp [landUnknowns, entry3, offsetOf]
    have hi := i.2
    change k < cols1 stfc at hk
    dsimp only
    rw [h0, hl, coef_append_left (by simp; omega), coef_zeros]
  · show freeOf (S.funs (lamIx i)).obj _ = _
    rw [hS, landFuns_lam]
    have h0 : offsetOf (landUnknowns stfc ctfc rest) "xic" = (List.replicate (cols1 stfc * 3) (0 : ℝ)).length := by
      simp [landUnknowns, entry3, offsetOf]
    dsimp only
    rw [F.line]
    funext x
    rw [h0, hl, coef_append_right, coef_append_right]
    have hi := i.2
    rw [coef_append_left (by simp; omega), coef_append_left (by simp; omega)]
    fin_cases i <;> simp [coef]
  · show coef l _ = _
    rw [hk, hl]
    have := coef_append_right (List.replicate (cols1 stfc * 3) 0) (([α 0, α 1, α 2, β 0, β 1, β 2] : List ℝ) ++ l') (6 + k)
    rw [List.length_replicate] at this
    rw [this]
    exact coef_append_right ([α 0, α 1, α 2, β 0, β 1, β 2] : List ℝ) l' k

theorem land_smooth {S : PSys 6 m} {V : Fin 3 → (Fin m → ℝ) → ℝ} (hS : S.funs = landFuns stfc ctfc R0 V) (ht : ∀ E ∈ S.eqs, ∀ i, (E.terms i).2 ≤ 8) :
    SmoothSys S := by
  refine ⟨?_, ht⟩
  intro q c hc
  rw [hS] at hc
  rcases six_cases q with ⟨i, rfl⟩ | ⟨i, rfl⟩
  · rw [landFuns_pos] at hc
    simp only [List.mem_cons, List.not_mem_nil, or_false] at hc
    rcases hc with rfl | rfl | rfl | rfl
    · exact ⟨by unfold landPhi1; fun_prop, by norm_num⟩
    · exact ⟨by unfold landPhi2; fun_prop, by norm_num⟩
    · exact ⟨by unfold landPhi3; fun_prop, by norm_num⟩
    · exact ⟨by unfold landPhi4; fun_prop, by norm_num⟩
  · rw [landFuns_lam] at hc
    simp at hc

theorem landTerms_le (q : Fin 6) : (landTerms q).2 ≤ 8 := by
  unfold landTerms
  split <;> simp

theorem landTerms_pos (i : Fin 3) : landTerms (posIx i) = (posIx i, 2) := by
  unfold landTerms
  rw [if_pos (show (posIx i).val < 3 from i.2)]

theorem landTerms_lam (i : Fin 3) : landTerms (lamIx i) = (lamIx i, 0) := by
  unfold landTerms
  rw [if_neg (show ¬ (lamIx i).val < 3 by simp [lamIx])]

/-! ## outTFC_EOL.py: the inner loop -/

theorem inner_miss {N ms : ℕ} (F : LandFit N ms stfc ctfc) {c : ℝ} {st : PState 6 0} (hst : ∀ q, ContDiff ℝ ∞ (st.free q))
    (x : ℝ) (i : Fin 3) :
    sysMiss (landInnerSys stfc ctfc R0 V0 ag c) st ⟨stfc.z, 6, landTerms, here, 3, fun _ J _ i => c ^ 2 * J (posIx i) - ag i + J (lamIx i)⟩ x i =
      c ^ 2 * (landA (st.free (posIx i)) x + 3 / 2 * x * R0 i + (3 * x - 1) / 2 * (V0 i / c)) - ag i + st.free (lamIx i) x := by
  have hf : (landInnerSys stfc ctfc R0 V0 ag c).funs = landFuns stfc ctfc R0 fun i _ => V0 i / c := rfl
  unfold sysMiss sysJet
  dsimp only [here]
  rw [landTerms_pos, landTerms_lam, iteratedDeriv_zero, land_lam hf, land_pos2 F hf hst]

theorem inner_lin {N ms : ℕ} (F : LandFit N ms stfc ctfc) {c : ℝ} {st st' : PState 6 0} (hst : ∀ q, ContDiff ℝ ∞ (st.free q))
    (hst' : ∀ q, ContDiff ℝ ∞ (st'.free q)) {E : PEqn 6 0} (hE : E ∈ (landInnerSys stfc ctfc R0 V0 ag c).eqs) (x : ℝ) (o : Fin E.outs) :
    sysLin (landInnerSys stfc ctfc R0 V0 ag c) st st' E x o = sysMiss (landInnerSys stfc ctfc R0 V0 ag c) st' E x o := by
  have hE' : E = ⟨stfc.z, 6, landTerms, here, 3, fun _ J _ i => c ^ 2 * J (posIx i) - ag i + J (lamIx i)⟩ := by
    simpa [landInnerSys] using hE
  subst hE'
  unfold sysLin
  have e : (fun r : ℝ => sysMiss (landInnerSys stfc ctfc R0 V0 ag c) (st.toward st' r)
      ⟨stfc.z, 6, landTerms, here, 3, fun _ J _ i => c ^ 2 * J (posIx i) - ag i + J (lamIx i)⟩ x o) = fun r : ℝ =>
      (c ^ 2 * (landA (st.free (posIx o)) x + 3 / 2 * x * R0 o + (3 * x - 1) / 2 * (V0 o / c)) - ag o + st.free (lamIx o) x) +
        (c ^ 2 * (landA (st'.free (posIx o)) x - landA (st.free (posIx o)) x) + (st'.free (lamIx o) x - st.free (lamIx o) x)) * r := by
    funext r
    rw [inner_miss F (toward_smooth hst hst' r), landA_toward hst hst']
    simp only [PState.toward]
    ring
  rw [e, inner_miss F hst, inner_miss F hst']
  have hd : ∀ a b : ℝ, deriv (fun r : ℝ => a + b * r) 0 = b := fun a b => by
    have := ((hasDerivAt_id (0 : ℝ)).const_mul b).const_add a
    simpa using this.deriv
  rw [hd]
  ring

theorem inner_regular (c : ℝ) (st : PState 6 0) : Regular (landInnerSys stfc ctfc R0 V0 ag c) st := by
  refine ⟨?_, ?_⟩
  · intro q d hd
    have hf : (landInnerSys stfc ctfc R0 V0 ag c).funs q = landFuns stfc ctfc R0 (fun i _ => V0 i / c) q := rfl
    rw [hf] at hd
    rcases six_cases q with ⟨i, rfl⟩ | ⟨i, rfl⟩
    · rw [landFuns_pos] at hd
      simp only [List.mem_cons, List.not_mem_nil, or_false] at hd
      rcases hd with rfl | rfl | rfl | rfl
      all_goals fun_prop
    · rw [landFuns_lam] at hd
      simp at hd
  · intro E hE x _ o
    have hE' : E = ⟨stfc.z, 6, landTerms, here, 3, fun _ J _ i => c ^ 2 * J (posIx i) - ag i + J (lamIx i)⟩ := by
      simpa [landInnerSys] using hE
    subst hE'
    dsimp only
    fun_prop

/-- The cubic in the variable of the program. -/
theorem cubic_eq {c : ℝ} (hc : c ≠ 0) (R V x : ℝ) : (2 - 3 * x + x ^ 3) / 4 * R + (1 - x - x ^ 2 + x ^ 3) / 4 * (V / c) =
    landPath R V (2 / c) ((x + 1) / c) := by
  unfold landPath
  field_simp
  ring

/-- The costate of the cubic in the variable of the program. -/
theorem costate_eq {c : ℝ} (hc : c ≠ 0) (R V a x : ℝ) : a - (3 / 2 * x * R * c ^ 2 + (3 * x - 1) / 2 * V * c) =
    a - deriv (deriv (landPath R V (2 / c))) ((x + 1) / c) := by
  rw [landPath_deriv2]
  field_simp
  ring

theorem ic_inner (Gam c : ℝ) : icVec [landInnerIC R0 V0 ag Gam c] "R0" = R0 ∧ icVec [landInnerIC R0 V0 ag Gam c] "V0" = V0 ∧
    icVec [landInnerIC R0 V0 ag Gam c] "ag" = ag ∧ icNum [landInnerIC R0 V0 ag Gam c] "Gam" = Gam ∧ icNum [landInnerIC R0 V0 ag Gam c] "c" = c := by
  refine ⟨?_, ?_, ?_, ?_, ?_⟩
  · funext i; fin_cases i <;> simp [icVec, landInnerIC, lookUp, icEntry, entry1, orEmpty]
  · funext i; fin_cases i <;> simp [icVec, landInnerIC, lookUp, icEntry, entry1, orEmpty]
  · funext i; fin_cases i <;> simp [icVec, landInnerIC, lookUp, icEntry, entry1, orEmpty]
  · simp [icNum, landInnerIC, lookUp, icEntry, entry1, orEmpty]
  · simp [icNum, landInnerIC, lookUp, icEntry, entry1, orEmpty]

theorem state_free (S : PSys nf m) (kvs : List (String × Arr ℝ)) (c : ℕ → ℝ) (q : Fin nf) :
    ∃ cc, (stateOf S kvs c).free q = freeOf (S.funs q).obj cc := ⟨_, rfl⟩

/-- What every run of the inner loop gives: the position is the cubic, and after at least one step the costate is that of the cubic. -/
theorem inner_exact {N ms : ℕ} (F : LandFit N ms stfc ctfc) (hN : 2 ≤ N) (hms : ms ≤ N + 1) {c : ℝ} (hc : c ≠ 0) {cls : DictClass}
    {v : View String} {tol : ℝ} {maxIter it : ℕ} {vs : ℕ → View String} {sts : ℕ → PState 6 0}
    (h : SysRun (landInnerSys stfc ctfc R0 V0 ag c) (.dict cls (landUnknowns stfc ctfc [])) tol maxIter v it vs sts) :
    (∀ j ≤ it, ∀ i x, sysFn (landInnerSys stfc ctfc R0 V0 ag c) (sts j) (posIx i) x = landPath (R0 i) (V0 i) (2 / c) ((x + 1) / c)) ∧
      ((sts 0).free = fun _ _ => 0) ∧
      ∀ j < it, ∀ i x, (sts (j + 1)).free (lamIx i) x = ag i - deriv (deriv (landPath (R0 i) (V0 i) (2 / c))) ((x + 1) / c) := by
  obtain ⟨S, hS⟩ : ∃ S, S = landInnerSys stfc ctfc R0 V0 ag c := ⟨_, rfl⟩
  have hf : S.funs = landFuns stfc ctfc R0 fun i _ => V0 i / c := by rw [hS]; rfl
  rw [← hS] at h ⊢
  have hfit : FitsSys S (landUnknowns stfc ctfc []) := land_fits F hf (by simp [landUnknowns, entry3]) (fun i => i.elim0) fun i => i.elim0
  have hst : ∀ j ≤ it, sts j = stateOf S (landUnknowns stfc ctfc []) (coef (entries (vs j))) := fun j hj =>
    means_unique hfit (h.form j hj) (h.means j hj)
  have h00 : (sts 0).free = fun _ _ => 0 := by
    rw [hst 0 (by omega), h.start]
    have : coef (entries (View.dict cls (landUnknowns stfc ctfc []))) = fun _ => 0 := by
      have : entries (View.dict cls (landUnknowns stfc ctfc [])) = List.replicate (cols1 stfc * 3 + cols1 ctfc * 3) 0 := by
        rw [List.replicate_add]
        simp [entries, landUnknowns, entry3]
      rw [this, coef_replicate]
    rw [this]
    funext q
    show freeOf _ _ = _
    exact freeOf_zero _
  have hstep : ∀ j < it, ∀ i, (∀ x, landHom ((sts (j + 1)).free (posIx i)) x = 0) ∧
      ∀ x, (sts (j + 1)).free (lamIx i) x = ag i - deriv (deriv (landPath (R0 i) (V0 i) (2 / c))) ((x + 1) / c) := by
    intro j hj i
    obtain ⟨v', st', hv', hm', p1, p2, -⟩ := land_reach F hf hfit cls (fun i => ag i + 1 / 2 * V0 i * c)
      (fun i => -(3 / 2 * R0 i * c ^ 2 + 3 / 2 * V0 i * c)) [] (by simp [entries])
    have hz : ∀ E ∈ S.eqs, ∀ x ∈ E.pts, ∀ o, sysLin S (sts j) st' E x o = 0 := by
      intro E hE x _ o
      rw [hS] at hE ⊢
      rw [inner_lin F (h.means j hj.le).smooth hm'.smooth hE]
      have hE' : E = ⟨stfc.z, 6, landTerms, here, 3, fun _ J _ i => c ^ 2 * J (posIx i) - ag i + J (lamIx i)⟩ := by
        simpa [landInnerSys] using hE
      subst hE'
      rw [inner_miss F hm'.smooth, p1, p2]
      simp only [landA, deriv_const']
      field_simp
      ring
    have hex := step_exact h hj (hS ▸ inner_regular c _) hv' hm' hz
    have hsm := (h.means (j + 1) hj).smooth
    obtain ⟨l0, l1, hl⟩ : ∃ l0 l1 : ℝ, (sts (j + 1)).free (lamIx i) = fun x => l0 + l1 * x := by
      rw [hst (j + 1) hj]
      obtain ⟨cc, hcc⟩ := state_free S (landUnknowns stfc ctfc []) (coef (entries (vs (j + 1)))) (lamIx i)
      have ho : (S.funs (lamIx i)).obj = ctfc := by rw [hf, landFuns_lam]
      rw [ho] at hcc
      exact ⟨_, _, hcc.trans (F.line cc)⟩
    have hpts : ∀ x ∈ stfc.z, landA ((sts (j + 1)).free (posIx i)) x + (((l0 - ag i) / c ^ 2 - 1 / 2 * (V0 i / c)) +
        (l1 / c ^ 2 + 3 / 2 * R0 i + 3 / 2 * (V0 i / c)) * x) = 0 := by
      intro x hx
      have := hex ⟨stfc.z, 6, landTerms, here, 3, fun _ J _ i => c ^ 2 * J (posIx i) - ag i + J (lamIx i)⟩ (by rw [hS]; exact List.mem_cons_self) x hx i
      rw [hS, inner_lin F (h.means j hj.le).smooth hsm (by exact List.mem_cons_self), inner_miss F hsm, hl] at this
      have h2 : c ^ 2 * (landA ((sts (j + 1)).free (posIx i)) x + (((l0 - ag i) / c ^ 2 - 1 / 2 * (V0 i / c)) +
        (l1 / c ^ 2 + 3 / 2 * R0 i + 3 / 2 * (V0 i / c)) * x)) = 0 := by
        rw [← this]
        field_simp
        ring
      exact (mul_eq_zero.1 h2).resolve_left (pow_ne_zero 2 hc)
    obtain ⟨r1, r2, r3⟩ := landHom_zero F hN hms (g := (sts (j + 1)).free (posIx i)) (by
      rw [hst (j + 1) hj]
      show freeOf (S.funs (posIx i)).obj _ = _
      rw [hf, landFuns_pos]) hpts
    refine ⟨r1, fun x => ?_⟩
    rw [hl, ← costate_eq hc]
    have e0 : l0 = ag i + 1 / 2 * V0 i * c := by
      field_simp at r2
      linarith
    have e1 : l1 = -(3 / 2 * R0 i * c ^ 2 + 3 / 2 * V0 i * c) := by
      field_simp at r3
      linarith
    rw [e0, e1]
    ring
  refine ⟨fun j hj i x => ?_, h00, fun j hj i => (hstep j hj i).2⟩
  rw [land_pos F hf, ← cubic_eq hc]
  beta_reduce
  have : landHom ((sts j).free (posIx i)) x = 0 := by
    cases j with
    | zero => rw [h00]; simp [landHom]
    | succ j => exact (hstep j hj i).1 x
  rw [this]
  ring

end Verif.Props
