import Verif.Model.FreeSplit
import Verif.Props.NumberStays
import Verif.Props.OuterSplit

/-!
# C113: the programs where the point of the split is an unknown of the solver
-/

namespace Verif.Props

open Set Verif Verif.Py Verif.Np Verif.Spec Verif.Model Verif.Model.Py Verif.Model.LSq Verif.Model.Prog Verif.Model.Dict Verif.Lemmas.LSq
open scoped ContDiff Topology

/-- The first piece for the free functions and the numbers of `st`, with the split at `xp`. -/
noncomputable def piece1 (st : PState 2 3) (xp : ℝ) : ℝ → ℝ := segY1 (fun d => iteratedDeriv d (st.free 0)) (-1) 1 xp (st.num 0) (st.num 1)

/-- The second piece. -/
noncomputable def piece2 (st : PState 2 3) (xp : ℝ) : ℝ → ℝ := segY2 (fun d => iteratedDeriv d (st.free 1)) (-1) 1 xp (st.num 0) (st.num 1)

section

variable (u : Utfc) (key : String) (xpOf : ℝ → ℝ) (Pe : ℝ)

theorem free_fn (st : PState 2 3) :
    sysFn (freeSplitSys u (-1) 1 key xpOf Pe) st 0 = piece1 st (xpOf (st.num 2)) ∧
      sysFn (freeSplitSys u (-1) 1 key xpOf Pe) st 1 = piece2 st (xpOf (st.num 2)) := by
  constructor
  · funext t
    unfold sysFn curve freeSplitSys PFun.ends piece1 segY1
    simp only [Matrix.cons_val_zero, List.map_cons, List.map_nil, List.sum_cons, List.sum_nil, iteratedDeriv_zero, iteratedDeriv_one]
    ring
  · funext t
    unfold sysFn curve freeSplitSys PFun.ends piece2 segY2
    simp only [Matrix.cons_val_one, Matrix.cons_val_zero, List.map_cons, List.map_nil, List.sum_cons, List.sum_nil, iteratedDeriv_zero, iteratedDeriv_one]
    ring

theorem free_smooth : SmoothSys (freeSplitSys u (-1) 1 key xpOf Pe) := by
  refine ⟨?_, ?_⟩
  · intro q d hd
    unfold freeSplitSys at hd
    fin_cases q
    all_goals
      simp at hd
      rcases hd with rfl | rfl | rfl
      all_goals exact ⟨by fun_prop, by norm_num⟩
  · intro E hE i
    unfold freeSplitSys at hE
    simp only [List.mem_cons, List.not_mem_nil, or_false] at hE
    rcases hE with rfl | rfl
    all_goals fin_cases i <;> simp

theorem segC_diff {xp : ℝ} (h0 : xp ≠ 0) (h1 : xp ≠ 1) :
    DifferentiableAt ℝ segC1 xp ∧ DifferentiableAt ℝ segC2 xp ∧ segC1 xp ≠ 0 ∧ segC2 xp ≠ 0 := by
  have h2 : (1 : ℝ) - xp ≠ 0 := sub_ne_zero.2 (Ne.symm h1)
  have h3 : xp - 0 ≠ 0 := by simpa using h0
  refine ⟨?_, ?_, ?_, ?_⟩
  · unfold segC1
    exact (differentiableAt_const _).div (by fun_prop) h3
  · unfold segC2
    exact (differentiableAt_const _).div (by fun_prop) h2
  · exact div_ne_zero two_ne_zero h3
  · exact div_ne_zero two_ne_zero h2

theorem free_regular {st : PState 2 3} (hd : DifferentiableAt ℝ xpOf (st.num 2)) (h0 : xpOf (st.num 2) ≠ 0) (h1 : xpOf (st.num 2) ≠ 1) :
    Regular (freeSplitSys u (-1) 1 key xpOf Pe) st := by
  obtain ⟨d1, d2, n1, n2⟩ := segC_diff h0 h1
  have p : ∀ i : Fin 3, DifferentiableAt ℝ (fun s : Fin 3 → ℝ => s i) st.num := fun i => by fun_prop
  have c1 : DifferentiableAt ℝ (fun s : Fin 3 → ℝ => segC1 (xpOf (s 2))) st.num := d1.fun_comp' st.num (hd.fun_comp' st.num (p 2))
  have c2 : DifferentiableAt ℝ (fun s : Fin 3 → ℝ => segC2 (xpOf (s 2))) st.num := d2.fun_comp' st.num (hd.fun_comp' st.num (p 2))
  refine ⟨?_, ?_⟩
  · intro q d hd
    unfold freeSplitSys at hd
    fin_cases q
    · simp at hd
      rcases hd with rfl | rfl | rfl
      · exact differentiableAt_const _
      · exact p 0
      · simp only [div_eq_mul_inv]
        exact (p 1).mul (c1.inv n1)
    · simp at hd
      rcases hd with rfl | rfl | rfl
      · exact p 0
      · simp only [div_eq_mul_inv]
        exact (p 1).mul (c2.inv n2)
      · exact differentiableAt_const _
  · intro E hE x _ o
    unfold freeSplitSys at hE
    simp only [List.mem_cons, List.not_mem_nil, or_false] at hE
    rcases hE with rfl | rfl
    · dsimp only
      have c : ∀ J : Fin 2 → ℝ, DifferentiableAt ℝ (fun q : (Fin 2 → ℝ) × (Fin 3 → ℝ) => segC1 (xpOf (q.2 2))) (J, st.num) := fun J =>
        DifferentiableAt.fun_comp' (g := fun s : Fin 3 → ℝ => segC1 (xpOf (s 2))) (J, st.num) c1 differentiableAt_snd
      have j : ∀ (J : Fin 2 → ℝ) (i : Fin 2), DifferentiableAt ℝ (fun q : (Fin 2 → ℝ) × (Fin 3 → ℝ) => q.1 i) (J, st.num) := fun J i => by fun_prop
      exact ((j _ 0).mul ((c _).pow 2)).sub (((j _ 1).mul (c _)).const_mul Pe)
    · dsimp only
      have c : ∀ J : Fin 2 → ℝ, DifferentiableAt ℝ (fun q : (Fin 2 → ℝ) × (Fin 3 → ℝ) => segC2 (xpOf (q.2 2))) (J, st.num) := fun J =>
        DifferentiableAt.fun_comp' (g := fun s : Fin 3 → ℝ => segC2 (xpOf (s 2))) (J, st.num) c2 differentiableAt_snd
      have j : ∀ (J : Fin 2 → ℝ) (i : Fin 2), DifferentiableAt ℝ (fun q : (Fin 2 → ℝ) × (Fin 3 → ℝ) => q.1 i) (J, st.num) := fun J i => by fun_prop
      exact ((j _ 0).mul ((c _).pow 2)).sub (((j _ 1).mul (c _)).const_mul Pe)

/-- The two equations. -/
noncomputable def freeE1 : PEqn 2 3 :=
  ⟨u.z, 2, ![(0, 2), (0, 1)], here, 1, fun _ J s _ => J 0 * segC1 (xpOf (s 2)) ^ 2 - Pe * (J 1 * segC1 (xpOf (s 2)))⟩

/-- The two equations. -/
noncomputable def freeE2 : PEqn 2 3 :=
  ⟨u.z, 2, ![(1, 2), (1, 1)], here, 1, fun _ J s _ => J 0 * segC2 (xpOf (s 2)) ^ 2 - Pe * (J 1 * segC2 (xpOf (s 2)))⟩

theorem free_eqs : (freeSplitSys u (-1) 1 key xpOf Pe).eqs = [freeE1 u xpOf Pe, freeE2 u xpOf Pe] := rfl

theorem free_miss (st : PState 2 3) (z : ℝ) :
    sysMiss (freeSplitSys u (-1) 1 key xpOf Pe) st (freeE1 u xpOf Pe) z (0 : Fin 1) =
        segResid Pe (segC1 (xpOf (st.num 2))) (piece1 st (xpOf (st.num 2))) z ∧
      sysMiss (freeSplitSys u (-1) 1 key xpOf Pe) st (freeE2 u xpOf Pe) z (0 : Fin 1) =
        segResid Pe (segC2 (xpOf (st.num 2))) (piece2 st (xpOf (st.num 2))) z := by
  rw [← (free_fn u key xpOf Pe st).1, ← (free_fn u key xpOf Pe st).2]
  obtain ⟨S, hS⟩ : ∃ S, S = freeSplitSys u (-1) 1 key xpOf Pe := ⟨_, rfl⟩
  rw [← hS]
  simp only [sysMiss, sysJet, here, freeE1, freeE2, Matrix.cons_val_zero, Matrix.cons_val_one, segResid, iteratedDeriv_succ, iteratedDeriv_zero]
  exact ⟨trivial, trivial⟩

theorem free_sumAll (f : (E : PEqn 2 3) → ℝ → Fin E.outs → ℝ) :
    sumAll (freeSplitSys u (-1) 1 key xpOf Pe).eqs f =
      (u.z.map fun z => f (freeE1 u xpOf Pe) z (0 : Fin 1)).sum + (u.z.map fun z => f (freeE2 u xpOf Pe) z (0 : Fin 1)).sum := by
  rw [free_eqs]
  unfold sumAll
  simp only [List.map_cons, List.map_nil, List.sum_cons, List.sum_nil, add_zero]
  congr 2
  · exact List.map_congr_left fun z _ => Fin.sum_univ_one (f := f (freeE1 u xpOf Pe) z)
  · exact List.map_congr_left fun z _ => Fin.sum_univ_one (f := f (freeE2 u xpOf Pe) z)

theorem free_sum (st : PState 2 3) :
    sumAll (freeSplitSys u (-1) 1 key xpOf Pe).eqs (fun E x o => sysMiss (freeSplitSys u (-1) 1 key xpOf Pe) st E x o ^ 2) =
      segSum Pe (xpOf (st.num 2)) u.z (piece1 st (xpOf (st.num 2))) (piece2 st (xpOf (st.num 2))) := by
  rw [free_sumAll]
  unfold segSum
  congr 2
  · exact List.map_congr_left fun z _ => by rw [(free_miss u key xpOf Pe st z).1]
  · exact List.map_congr_left fun z _ => by rw [(free_miss u key xpOf Pe st z).2]

theorem free_const_affine (xp : ℝ) : AffineSys (freeSplitSys u (-1) 1 key (fun _ => xp) Pe) := by
  refine ⟨?_, ?_⟩
  · intro q d hd s s' r
    unfold freeSplitSys at hd
    fin_cases q
    all_goals
      simp at hd
      rcases hd with rfl | rfl | rfl
      all_goals ring
  · intro E hE x J J' s s' r o
    unfold freeSplitSys at hE
    simp only [List.mem_cons, List.not_mem_nil, or_false] at hE
    rcases hE with rfl | rfl
    all_goals
      dsimp only
      ring

variable {xpOf}

/-- Where the split does not depend on its unknown, the linearised equations are the equations with the split fixed. -/
theorem free_lin {st st' : PState 2 3} {xp : ℝ} (hc : ∀ᶠ a in 𝓝 (st.num 2), xpOf a = xp) (h : ∀ q, ContDiff ℝ ∞ (st.free q))
    (h' : ∀ q, ContDiff ℝ ∞ (st'.free q)) (z : ℝ) :
    sysLin (freeSplitSys u (-1) 1 key xpOf Pe) st st' (freeE1 u xpOf Pe) z (0 : Fin 1) = segResid Pe (segC1 xp) (piece1 st' xp) z ∧
      sysLin (freeSplitSys u (-1) 1 key xpOf Pe) st st' (freeE2 u xpOf Pe) z (0 : Fin 1) = segResid Pe (segC2 xp) (piece2 st' xp) z := by
  have hline : ∀ᶠ r in 𝓝 (0 : ℝ), xpOf ((st.toward st' r).num 2) = xp := by
    have ht : Filter.Tendsto (fun r : ℝ => (st.toward st' r).num 2) (𝓝 0) (𝓝 (st.num 2)) := by
      have : Continuous fun r : ℝ => (st.toward st' r).num 2 := by
        unfold PState.toward
        dsimp only
        fun_prop
      have h0 := this.tendsto 0
      simpa [PState.toward] using h0
    exact ht.eventually hc
  have hx : xpOf (st.num 2) = xp := hc.self_of_nhds
  have s0 := free_smooth u key (fun _ => xp) Pe
  have a0 := free_const_affine u key Pe xp
  have k1 := affine_lin s0 a0 h h' (E := freeE1 u (fun _ => xp) Pe) (by rw [free_eqs]; exact List.mem_cons_self) z (0 : Fin 1)
  have k2 := affine_lin s0 a0 h h' (E := freeE2 u (fun _ => xp) Pe) (by rw [free_eqs]; exact List.mem_cons_of_mem _ List.mem_cons_self) z (0 : Fin 1)
  rw [(free_miss u key (fun _ => xp) Pe st' z).1] at k1
  rw [(free_miss u key (fun _ => xp) Pe st' z).2] at k2
  rw [← k1, ← k2]
  unfold sysLin
  rw [(free_miss u key xpOf Pe st z).1, (free_miss u key xpOf Pe st z).2, (free_miss u key (fun _ => xp) Pe st z).1,
    (free_miss u key (fun _ => xp) Pe st z).2, hx]
  constructor
  · congr 1
    refine Filter.EventuallyEq.deriv_eq ?_
    filter_upwards [hline] with r hr
    rw [(free_miss u key xpOf Pe _ z).1, (free_miss u key (fun _ => xp) Pe _ z).1, hr]
  · congr 1
    refine Filter.EventuallyEq.deriv_eq ?_
    filter_upwards [hline] with r hr
    rw [(free_miss u key xpOf Pe _ z).2, (free_miss u key (fun _ => xp) Pe _ z).2, hr]

theorem free_lin_sum {st st' : PState 2 3} {xp : ℝ} (hc : ∀ᶠ a in 𝓝 (st.num 2), xpOf a = xp) (h : ∀ q, ContDiff ℝ ∞ (st.free q))
    (h' : ∀ q, ContDiff ℝ ∞ (st'.free q)) :
    sumAll (freeSplitSys u (-1) 1 key xpOf Pe).eqs (fun E x o => sysLin (freeSplitSys u (-1) 1 key xpOf Pe) st st' E x o ^ 2) =
      segSum Pe xp u.z (piece1 st' xp) (piece2 st' xp) := by
  rw [free_sumAll]
  unfold segSum
  congr 2
  · exact List.map_congr_left fun z _ => by rw [(free_lin u key Pe hc h h' z).1]
  · exact List.map_congr_left fun z _ => by rw [(free_lin u key Pe hc h h' z).2]

end

/-- The pieces have the right values at their ends, whatever the unknowns. -/
theorem piece_ends {st : PState 2 3} (hst : ∀ q, ContDiff ℝ ∞ (st.free q)) (xp : ℝ) :
    ContDiff ℝ ∞ (piece1 st xp) ∧ ContDiff ℝ ∞ (piece2 st xp) ∧ piece1 st xp (-1) = 1 ∧ piece1 st xp 1 = st.num 0 ∧
      deriv (piece1 st xp) 1 = st.num 1 / segC1 xp ∧ piece2 st xp (-1) = st.num 0 ∧ deriv (piece2 st xp) (-1) = st.num 1 / segC2 xp ∧
      piece2 st xp 1 = 0 := by
  have e0 : ∀ q z, iteratedDeriv 0 (st.free q) z = st.free q z := fun q z => by rw [iteratedDeriv_zero]
  have e1 : ∀ q z, iteratedDeriv 1 (st.free q) z = deriv (st.free q) z := fun q z => by rw [iteratedDeriv_one]
  have f1 : piece1 st xp = fun t => st.free 0 t + ((1 / 4 * (1 - st.free 0 (-1)) + 3 / 4 * (st.num 0 - st.free 0 1) - 1 / 2 * (st.num 1 / segC1 xp - deriv (st.free 0) 1)) +
      (-(1 / 2) * (1 - st.free 0 (-1)) + 1 / 2 * (st.num 0 - st.free 0 1)) * t +
      (1 / 4 * (1 - st.free 0 (-1)) - 1 / 4 * (st.num 0 - st.free 0 1) + 1 / 2 * (st.num 1 / segC1 xp - deriv (st.free 0) 1)) * t ^ 2) := by
    funext t
    unfold piece1 segY1
    simp only [e0, e1]
    ring
  have f2 : piece2 st xp = fun t => st.free 1 t + ((3 / 4 * (st.num 0 - st.free 1 (-1)) + 1 / 2 * (st.num 1 / segC2 xp - deriv (st.free 1) (-1)) + 1 / 4 * (0 - st.free 1 1)) +
      (-(1 / 2) * (st.num 0 - st.free 1 (-1)) + 1 / 2 * (0 - st.free 1 1)) * t +
      (-(1 / 4) * (st.num 0 - st.free 1 (-1)) - 1 / 2 * (st.num 1 / segC2 xp - deriv (st.free 1) (-1)) + 1 / 4 * (0 - st.free 1 1)) * t ^ 2) := by
    funext t
    unfold piece2 segY2
    simp only [e0, e1]
    ring
  have q : ∀ (a b c t : ℝ), HasDerivAt (fun t : ℝ => (a + b * t + c * t ^ 2)) (b + 2 * c * t) t := fun a b c t => by
    have := (((hasDerivAt_id t).const_mul b).const_add a).add (((hasDerivAt_id t).pow 2).const_mul c)
    refine this.congr_deriv ?_
    simp
    ring
  have g1 := (((hst 0).differentiable (by simp)) 1).hasDerivAt
  have g2 := (((hst 1).differentiable (by simp)) (-1)).hasDerivAt
  refine ⟨?_, ?_, ?_, ?_, ?_, ?_, ?_, ?_⟩
  · rw [f1]; exact (hst 0).add (by fun_prop)
  · rw [f2]; exact (hst 1).add (by fun_prop)
  · rw [f1]; ring
  · rw [f1]; ring
  · rw [f1, (g1.fun_add (q _ _ _ 1)).deriv]; ring
  · rw [f2]; ring
  · rw [f2, (g2.fun_add (q _ _ _ (-1))).deriv]; ring
  · rw [f2]; ring

/-- **C113, a step where the split is cut off.** If the point of the split does not depend on its unknown near the present value, then the step leaves
that unknown as it is, and afterwards the sum of the squares of the residuals is the least possible for this point of the split. -/
theorem C113_stuck {u : Utfc} {key : String} {xpOf : ℝ → ℝ} {Pe : ℝ} {S : PSys 2 3} (hSe : S = freeSplitSys u (-1) 1 key xpOf Pe) {cls : DictClass}
    {kvs : List (String × Arr ℝ)} (hS : FitsSys S kvs) {v : View String} {tol : ℝ} {maxIter it : ℕ} {vs : ℕ → View String} {sts : ℕ → PState 2 3}
    (h : SysRun S (.dict cls kvs) tol maxIter v it vs sts) (hi : offsetOf kvs key < (entries (View.dict cls kvs)).length)
    (hy : offsetOf kvs "y" ≠ offsetOf kvs key) (hyd : offsetOf kvs "yd" ≠ offsetOf kvs key)
    (hx1 : ∀ n < cols1 u, offsetOf kvs "xi1" + n ≠ offsetOf kvs key) (hx2 : ∀ n < cols1 u, offsetOf kvs "xi2" + n ≠ offsetOf kvs key)
    {j : ℕ} (hj : j < it) {xp : ℝ} (h0 : xp ≠ 0) (h1 : xp ≠ 1) (hc : ∀ᶠ a in 𝓝 ((sts j).num 2), xpOf a = xp) :
    (sts (j + 1)).num 2 = (sts j).num 2 ∧
      ∀ v' st', SameForm (.dict cls kvs) v' → Means S v' st' →
        segSum Pe xp u.z (piece1 (sts (j + 1)) xp) (piece2 (sts (j + 1)) xp) ≤ segSum Pe xp u.z (piece1 st' xp) (piece2 st' xp) := by
  have hx : xpOf ((sts j).num 2) = xp := hc.self_of_nhds
  have hd : DifferentiableAt ℝ xpOf ((sts j).num 2) := (differentiableAt_const xp).congr_of_eventuallyEq hc
  have hr : Regular S (sts j) := hSe ▸ free_regular u key xpOf Pe hd (hx ▸ h0) (hx ▸ h1)
  have m0 := (h.means j hj.le).smooth
  have m1 := (h.means (j + 1) hj).smooth
  constructor
  · refine number_stays hS h hj hr 2 ?_ ?_ ?_ fun a => ?_
    · subst hSe; exact hi
    · subst hSe
      intro k hk
      fin_cases k
      · exact hy
      · exact hyd
      · exact absurd rfl hk
    · subst hSe
      intro q n hn
      fin_cases q
      · have := hx1 n hn
        simpa [freeSplitSys] using this
      · have := hx2 n hn
        simpa [freeSplitSys] using this
    · rw [hSe, free_lin_sum u key Pe hc m0 m1, free_lin_sum u key Pe hc m0 (st' := PState.setNum (sts (j + 1)) 2 a) m1]
      rfl
  · intro v' st' hv' hm'
    have := h.step j hj hr v' st' hv' hm'
    rw [hSe, free_lin_sum u key Pe hc m0 m1, free_lin_sum u key Pe hc m0 hm'.smooth] at this
    exact this

end Verif.Props
