import Verif.Props.OrbitsSpace
import Verif.Props.Domain
import Mathlib.Analysis.SpecialFunctions.Sqrt

/-!
# The programs for periodic orbits of the restricted three-body problem, end to end
-/

namespace Verif.Props

open Set Polynomial Verif Verif.Mem Verif.Py Verif.Np Verif.Spec Verif.Model Verif.Model.Py Verif.Model.LSq Verif.Model.Prog Verif.Model.Dict
  Verif.Lemmas.LSq
open scoped ContDiff

/-- `getJacobi` of util.py is the constant of Jacobi. -/
theorem C106_getJacobi (S : Fin 6 → ℝ) (mu : ℝ) : getJacobi S mu = jacobi mu ![S 0, S 1, S 2] ![S 3, S 4, S 5] := by
  unfold getJacobi jacobi
  rw [← spatialR1_eq, ← spatialR2_eq]
  simp only [spatialR1, spatialR2, Matrix.cons_val_zero, Matrix.cons_val_one, Matrix.cons_val]
  ring

/-! ## Where the equations can be linearised -/

theorem diff_div {E : Type*} [NormedAddCommGroup E] [NormedSpace ℝ E] (f g : E → ℝ) (x : E) (hf : DifferentiableAt ℝ f x) (hg : DifferentiableAt ℝ g x)
    (h : g x ≠ 0) : DifferentiableAt ℝ (fun y => f y / g y) x := by
  simp only [div_eq_mul_inv]
  exact hf.mul ((differentiableAt_inv h).comp x hg)

/-- **C106**: the planar equations can be linearised at every dictionary with `b ≠ 0`, whose ends are not at the second body and whose points are at
neither body. -/
theorem C106_planar_regular (u : Utfc) (mu C : ℝ) (st : PState 2 5) (hb0 : st.num 4 ≠ 0) (hD : dist2 mu ![st.num 0, st.num 1, 0] ≠ 0)
    {S : PSys 2 5} (hS : S = planarSys u mu C)
    (h : ∀ z ∈ u.z, dist1 mu (fun k => planarPath S st k z) ≠ 0 ∧ dist2 mu (fun k => planarPath S st k z) ≠ 0) : Regular S st := by
  subst hS
  have hD' : (st.num 0 + mu - 1) ^ 2 + st.num 1 ^ 2 ≠ 0 := by
    intro h0
    apply hD
    rw [← planarR2_eq mu _ (by simp)]
    simp [planarR2, h0]
  have hs : Real.sqrt ((st.num 0 + mu - 1) ^ 2 + st.num 1 ^ 2) ≠ 0 := by
    rw [← planarR2_eq mu _ (by simp)] at hD
    simpa [planarR2] using hD
  refine ⟨?_, ?_⟩
  · intro q c hc
    change c ∈ (orbFuns u planarR0 (planarV0 mu) q).conds at hc
    simp only [orbFuns, List.mem_cons, List.not_mem_nil, or_false] at hc
    have d1 : DifferentiableAt ℝ (planarR0 q) st.num := by
      unfold planarR0
      fun_prop
    have d2 : DifferentiableAt ℝ (planarV0 mu q) st.num := by
      unfold planarV0 lyapD0
      have e : DifferentiableAt ℝ (fun s : Fin 5 → ℝ => Real.sqrt ((s 0 + mu - 1) ^ 2 + s 1 ^ 2)) st.num :=
        DifferentiableAt.sqrt (by fun_prop) hD'
      have e4 : DifferentiableAt ℝ (fun s : Fin 5 → ℝ => s ⟨2 + q, by omega⟩ / s 4 ^ 2) st.num :=
        diff_div _ (fun s : Fin 5 → ℝ => s 4 ^ 2) _ (by fun_prop) (by fun_prop) (pow_ne_zero 2 hb0)
      exact diff_div _ (fun s : Fin 5 → ℝ => 1 / Real.sqrt ((s 0 + mu - 1) ^ 2 + s 1 ^ 2)) _ e4
        (diff_div (fun _ => 1) _ _ (by fun_prop) e hs) (div_ne_zero one_ne_zero hs)
    rcases hc with rfl | rfl | rfl | rfl
    · exact d1
    · exact d1
    · exact d2
    · exact d2
  · intro E hE z hz o
    have hz' : z ∈ u.z := by
      simp only [planarSys, List.mem_cons, List.not_mem_nil, or_false] at hE
      rcases hE with rfl | rfl <;> exact hz
    obtain ⟨n1, n2⟩ := h z hz'
    rw [← planarR1_eq mu _ (by simp [planarPath])] at n1
    rw [← planarR2_eq mu _ (by simp [planarPath])] at n2
    change planarR1 mu (sysFn (planarSys u mu C) st 0 z) (sysFn (planarSys u mu C) st 1 z) ≠ 0 at n1
    change planarR2 mu (sysFn (planarSys u mu C) st 0 z) (sysFn (planarSys u mu C) st 1 z) ≠ 0 at n2
    have m1 : (sysFn (planarSys u mu C) st 0 z + mu) ^ 2 + sysFn (planarSys u mu C) st 1 z ^ 2 ≠ 0 := fun h0 => n1 (by simp [planarR1, h0])
    have m2 : (sysFn (planarSys u mu C) st 0 z + mu - 1) ^ 2 + sysFn (planarSys u mu C) st 1 z ^ 2 ≠ 0 := fun h0 => n2 (by simp [planarR2, h0])
    have j0 : sysJet (planarSys u mu C) st (planarEq1 u mu) z (0 : Fin 6) = sysFn (planarSys u mu C) st 0 z := by
      simp [sysJet, here, planarTerms]
    have j1 : sysJet (planarSys u mu C) st (planarEq1 u mu) z (1 : Fin 6) = sysFn (planarSys u mu C) st 1 z := by
      simp [sysJet, here, planarTerms]
    obtain ⟨J, hJ⟩ : ∃ J : Fin 6 → ℝ, J = sysJet (planarSys u mu C) st (planarEq1 u mu) z := ⟨_, rfl⟩
    rw [← hJ] at j0 j1
    rw [← j0, ← j1] at n1 n2 m1 m2
    have D1 : DifferentiableAt ℝ (fun p : (Fin 6 → ℝ) × (Fin 5 → ℝ) => planarR1 mu (p.1 0) (p.1 1)) (J, st.num) := by
      unfold planarR1
      exact DifferentiableAt.sqrt (by fun_prop) m1
    have D2 : DifferentiableAt ℝ (fun p : (Fin 6 → ℝ) × (Fin 5 → ℝ) => planarR2 mu (p.1 0) (p.1 1)) (J, st.num) := by
      unfold planarR2
      exact DifferentiableAt.sqrt (by fun_prop) m2
    have I2 : DifferentiableAt ℝ (fun p : (Fin 6 → ℝ) × (Fin 5 → ℝ) => 1 / planarR2 mu (p.1 0) (p.1 1)) (J, st.num) :=
      diff_div (fun _ => 1) _ _ (by fun_prop) D2 n2
    have V : ∀ k : Fin 6, DifferentiableAt ℝ (fun p : (Fin 6 → ℝ) × (Fin 5 → ℝ) => planarV mu (p.2 4) (p.1 0) (p.1 1) (p.1 k)) (J, st.num) := by
      intro k
      unfold planarV
      exact (I2.mul (by fun_prop)).mul (by fun_prop)
    have A : ∀ k l : Fin 6, DifferentiableAt ℝ (fun p : (Fin 6 → ℝ) × (Fin 5 → ℝ) =>
        planarA mu (p.2 4) (p.1 0) (p.1 1) (p.1 2) (p.1 3) (p.1 k) (p.1 l)) (J, st.num) := by
      intro k l
      unfold planarA planarDv
      refine (I2.mul (by fun_prop)).mul (DifferentiableAt.mul (by fun_prop) (DifferentiableAt.add (DifferentiableAt.mul ?_ (by fun_prop))
        (I2.mul (by fun_prop))))
      exact diff_div _ _ _ (DifferentiableAt.neg (diff_div (fun p : (Fin 6 → ℝ) × (Fin 5 → ℝ) => (p.1 0 + mu - 1) * p.1 2 + p.1 1 * p.1 3) _ _
        (by fun_prop) D2 n2)) (D2.pow 2) (pow_ne_zero 2 n2)
    have G1 : DifferentiableAt ℝ (fun p : (Fin 6 → ℝ) × (Fin 5 → ℝ) => (1 - mu) / planarR1 mu (p.1 0) (p.1 1) ^ 3) (J, st.num) :=
      diff_div (fun _ => 1 - mu) _ _ (by fun_prop) (D1.pow 3) (pow_ne_zero 3 n1)
    have G2 : DifferentiableAt ℝ (fun p : (Fin 6 → ℝ) × (Fin 5 → ℝ) => mu / planarR2 mu (p.1 0) (p.1 1) ^ 3) (J, st.num) :=
      diff_div (fun _ => mu) _ _ (by fun_prop) (D2.pow 3) (pow_ne_zero 3 n2)
    simp only [planarSys, List.mem_cons, List.not_mem_nil, or_false] at hE
    rcases hE with rfl | rfl
    · change DifferentiableAt ℝ (fun p : (Fin 6 → ℝ) × (Fin 5 → ℝ) => planarLs mu (p.2 4) (p.1 0) (p.1 1) (p.1 2) (p.1 3) (p.1 4) (p.1 5) o)
        (sysJet (planarSys u mu C) st (planarEq1 u mu) z, st.num)
      rw [← hJ]
      change Fin 2 at o
      unfold planarLs
      fin_cases o
      · simp only [Fin.zero_eta, Matrix.cons_val_zero]
        exact (((A 2 4).neg.add (((V 3).const_mul 2).add (by fun_prop))).sub (G1.mul (by fun_prop))).sub (G2.mul (by fun_prop))
      · simp only [Fin.mk_one, Matrix.cons_val_one]
        exact (((A 3 5).neg.add (((V 2).const_mul (-2)).add (by fun_prop))).sub (G1.mul (by fun_prop))).sub (G2.mul (by fun_prop))
    · change DifferentiableAt ℝ (fun p : (Fin 6 → ℝ) × (Fin 5 → ℝ) => planarJc mu (p.2 4) (p.1 0) (p.1 1) (p.1 2) (p.1 3) - C)
        (sysJet (planarSys u mu C) st (planarEq1 u mu) z, st.num)
      rw [← hJ]
      unfold planarJc
      refine DifferentiableAt.sub (DifferentiableAt.sub ?_ (((V 2).pow 2).add ((V 3).pow 2))) (by fun_prop)
      exact ((DifferentiableAt.add (by fun_prop) (diff_div (fun _ => 2 * (1 - mu)) _ _ (by fun_prop) D1 n1)).add (diff_div (fun _ => 2 * mu) _ _ (by fun_prop) D2 n2)).add
        (by fun_prop)

/-- **C106**: the equations in space can be linearised at every dictionary with `b ≠ 0` whose points are at neither body. -/
theorem C106_spatial_regular (u : Utfc) (mu C : ℝ) (st : PState 3 7) (hb0 : st.num 6 ≠ 0) {S : PSys 3 7} (hS : S = spatialSys u mu C)
    (h : ∀ z ∈ u.z, dist1 mu (fun k => sysFn S st k z) ≠ 0 ∧ dist2 mu (fun k => sysFn S st k z) ≠ 0) : Regular S st := by
  subst hS
  refine ⟨?_, ?_⟩
  · intro q c hc
    change c ∈ (orbFuns u spatialR0 spatialV0 q).conds at hc
    simp only [orbFuns, List.mem_cons, List.not_mem_nil, or_false] at hc
    have d1 : DifferentiableAt ℝ (spatialR0 q) st.num := by
      unfold spatialR0
      fun_prop
    have d2 : DifferentiableAt ℝ (spatialV0 q) st.num := by
      unfold spatialV0
      exact diff_div _ (fun s : Fin 7 → ℝ => s 6 ^ 2) _ (by fun_prop) (by fun_prop) (pow_ne_zero 2 hb0)
    rcases hc with rfl | rfl | rfl | rfl
    · exact d1
    · exact d1
    · exact d2
    · exact d2
  · intro E hE z hz o
    have hz' : z ∈ u.z := by
      simp only [spatialSys, List.mem_cons, List.not_mem_nil, or_false] at hE
      rcases hE with rfl | rfl <;> exact hz
    obtain ⟨n1, n2⟩ := h z hz'
    rw [← spatialR1_eq mu] at n1
    rw [← spatialR2_eq mu] at n2
    obtain ⟨J, hJ⟩ : ∃ J : Fin 9 → ℝ, J = sysJet (spatialSys u mu C) st (spatialEq1 u mu) z := ⟨_, rfl⟩
    have j0 : J 0 = sysFn (spatialSys u mu C) st 0 z := by simp [hJ, sysJet, here, spatialTerms]
    have j1 : J 1 = sysFn (spatialSys u mu C) st 1 z := by simp [hJ, sysJet, here, spatialTerms]
    have j2 : J 2 = sysFn (spatialSys u mu C) st 2 z := by simp [hJ, sysJet, here, spatialTerms]
    rw [← j0, ← j1, ← j2] at n1 n2
    have m1 : (J 0 + mu) ^ 2 + J 1 ^ 2 + J 2 ^ 2 ≠ 0 := fun h0 => n1 (by simp [spatialR1, h0])
    have m2 : (J 0 + mu - 1) ^ 2 + J 1 ^ 2 + J 2 ^ 2 ≠ 0 := fun h0 => n2 (by simp [spatialR2, h0])
    have D1 : DifferentiableAt ℝ (fun p : (Fin 9 → ℝ) × (Fin 7 → ℝ) => spatialR1 mu (p.1 0) (p.1 1) (p.1 2)) (J, st.num) := by
      unfold spatialR1
      exact DifferentiableAt.sqrt (by fun_prop) m1
    have D2 : DifferentiableAt ℝ (fun p : (Fin 9 → ℝ) × (Fin 7 → ℝ) => spatialR2 mu (p.1 0) (p.1 1) (p.1 2)) (J, st.num) := by
      unfold spatialR2
      exact DifferentiableAt.sqrt (by fun_prop) m2
    have G1 : DifferentiableAt ℝ (fun p : (Fin 9 → ℝ) × (Fin 7 → ℝ) => (1 - mu) / spatialR1 mu (p.1 0) (p.1 1) (p.1 2) ^ 3) (J, st.num) :=
      diff_div (fun _ => 1 - mu) _ _ (by fun_prop) (D1.pow 3) (pow_ne_zero 3 n1)
    have G2 : DifferentiableAt ℝ (fun p : (Fin 9 → ℝ) × (Fin 7 → ℝ) => mu / spatialR2 mu (p.1 0) (p.1 1) (p.1 2) ^ 3) (J, st.num) :=
      diff_div (fun _ => mu) _ _ (by fun_prop) (D2.pow 3) (pow_ne_zero 3 n2)
    simp only [spatialSys, List.mem_cons, List.not_mem_nil, or_false] at hE
    rcases hE with rfl | rfl
    · change DifferentiableAt ℝ (fun p : (Fin 9 → ℝ) × (Fin 7 → ℝ) =>
        spatialLs mu (p.2 6) (p.1 0) (p.1 1) (p.1 2) (p.1 3) (p.1 4) (p.1 6) (p.1 7) (p.1 8) o) (sysJet (spatialSys u mu C) st (spatialEq1 u mu) z, st.num)
      rw [← hJ]
      change Fin 3 at o
      unfold spatialLs
      fin_cases o
      all_goals
        simp only [Fin.zero_eta, Fin.mk_one, Fin.reduceFinMk, Matrix.cons_val_zero, Matrix.cons_val_one, Matrix.cons_val]
        exact (DifferentiableAt.sub (by fun_prop) (G1.mul (by fun_prop))).sub (G2.mul (by fun_prop))
    · change DifferentiableAt ℝ (fun p : (Fin 9 → ℝ) × (Fin 7 → ℝ) => spatialJc mu (p.2 6) (p.1 0) (p.1 1) (p.1 2) (p.1 3) (p.1 4) (p.1 5) - C)
        (sysJet (spatialSys u mu C) st (spatialEq1 u mu) z, st.num)
      rw [← hJ]
      unfold spatialJc
      refine DifferentiableAt.sub (DifferentiableAt.sub ?_ (by fun_prop)) (by fun_prop)
      exact ((DifferentiableAt.add (by fun_prop) (diff_div (fun _ => 2 * (1 - mu)) _ _ (by fun_prop) D1 n1)).add (diff_div (fun _ => 2 * mu) _ _ (by fun_prop) D2 n2)).add
        (by fun_prop)

/-! ## The loop over the values of the constant -/

theorem follow_ok {nf m : ℕ} {z : View String} {o : NllsObj String} {S : ℝ → PSys nf m} {tol : ℝ} {maxIter fuel : ℕ}
    (h : ∀ (C : ℝ) (c : Bool) (xi : View String), SameForm z xi → ∃ (v : View String) (it : ℕ) (vs : ℕ → View String) (sts : ℕ → PState nf m),
      NllsObj.run { o with compiled := c } xi [.arr [C]] fuel = (.ok (some (v, (it : ℤ))), { o with compiled := true }) ∧
      SysRun (S C) xi tol maxIter v it vs sts) :
    ∀ (Cs : List ℝ) (c : Bool) (xi : View String), SameForm z xi →
      ∃ rs, followLevels fuel { o with compiled := c } Cs xi = .ok (some rs) ∧ Follows S tol maxIter Cs xi rs
  | [], c, xi, _ => ⟨[], rfl, trivial⟩
  | C :: Cs, c, xi, hxi => by
    obtain ⟨v, it, vs, sts, h1, h2⟩ := h C c xi hxi
    have hv : SameForm z v := SameForm.trans hxi (h2.final ▸ h2.form it le_rfl)
    obtain ⟨rs, h3, h4⟩ := follow_ok h Cs true v hv
    refine ⟨(v, (it : ℤ)) :: rs, ?_, ⟨it, vs, sts, rfl, h2⟩, h4⟩
    unfold followLevels
    rw [h1]
    simp only [bind, Except.bind, h3]
    rfl

/-- The entries of the dictionary of the planar programs. -/
def planarKvs (xis : List ℝ) (x y dx dy b : ℝ) : List (String × Arr ℝ) :=
  [entryW 2 "xis" xis, entry1 "X" [x], entry1 "Y" [y], entry1 "dX" [dx], entry1 "dY" [dy], entry1 "b" [b]]

theorem planar_fits {u : Utfc} (hr : Ready u) (mu C : ℝ) {xis : List ℝ} (hl : xis.length = cols1 u * 2) (x y dx dy b : ℝ) :
    FitsSys (planarSys u mu C) (planarKvs xis x y dx dy b) ∧ ProperUnknowns (.dict .robust (planarKvs xis x y dx dy b)) ∧
      entries (View.dict .robust (planarKvs xis x y dx dy b)) ≠ [] := by
  refine ⟨⟨by simp [planarKvs, entry1, entryW], ?_, ?_, ?_, ?_, ?_, ?_⟩, ⟨by simp [planarKvs], by simp [planarKvs, entry1, entryW], fun p hp => ?_⟩,
    by simp [entries, planarKvs, entry1]⟩
  · exact fun q => hr
  · intro q; simp [planarKvs, planarSys, orbFuns, entryW]
  · intro q; exact q.2
  · intro q; simp [planarKvs, planarSys, orbFuns, entryW, sizeOfKey, hl]
  · intro i; fin_cases i <;> simp [planarKvs, planarSys, entryW, entry1]
  · intro i; fin_cases i <;> simp [planarKvs, planarSys, entryW, entry1, sizeOfKey]
  · simp only [planarKvs, List.mem_cons, List.not_mem_nil, or_false] at hp
    rcases hp with rfl | rfl | rfl | rfl | rfl | rfl
    · simp [entryW, hl]
    all_goals simp [entry1]

theorem planar_places {N : ℕ} (hN : 2 ≤ N) {basis : String} (hb : basis = "CP" ∨ basis = "LeP") {u : Utfc} (hB : Built N basis (-1) 1 u)
    (hl : u.x.length = N) (mu C : ℝ) : places (planarSys u mu C).eqs ≠ [] := by
  have hx : u.z ≠ [] := by
    rw [built_z hN hb hB]
    intro h
    rw [h] at hl
    simp at hl
    omega
  obtain ⟨x, hx⟩ := List.exists_mem_of_ne_nil _ hx
  exact List.ne_nil_of_mem (a := (⟨planarEq1 u mu, x, (0 : Fin 2)⟩ : Place 2 5)) (mem_places.2 ⟨List.mem_cons_self, hx⟩)

/-- The values of the constant of Jacobi, in equal steps. -/
theorem levels_list (C Cend : ℝ) (n : ℕ) : linspace C Cend n = (List.range n).map fun i : ℕ => C + i * ((Cend - C) / (n - 1)) := rfl

/-- **C106, Lyap.py end to end.** The program runs, and makes one run of the solver for each of `nStep` values of the constant of Jacobi, equally spaced
from that of the starting state to `Cend`; the first run starts from the starting state with all coefficients 0, and each other from what the run before
has left. -/
theorem C106_lyap (lib : LinAlg) (hlib : LinAlgCorrect lib) (N m : ℕ) (hN : 2 ≤ N) (hm : 4 ≤ m) (basis : String) (hb : basis = "CP" ∨ basis = "LeP")
    (nStep maxIter : ℕ) (mu tol Cend : ℝ) (htol : tol < 1) (rvi : Fin 6 → ℝ) (period : ℝ) (w b : ℕ → ℝ) (fuel : ℕ) (hf : maxIter + 2 ≤ fuel) :
    ∃ u rs, Built N basis (-1) 1 u ∧ runLyap lib N m basis nStep maxIter mu tol Cend rvi period w b fuel = .ok (some rs) ∧
      Follows (planarSys u mu) tol maxIter ((List.range nStep).map fun i : ℕ => jacobi mu ![rvi 0, rvi 1, rvi 2] ![rvi 3, rvi 4, rvi 5] +
          i * ((Cend - jacobi mu ![rvi 0, rvi 1, rvi 2] ![rvi 3, rvi 4, rvi 5]) / (nStep - 1)))
        (planarUnknowns (List.replicate ((m - 3) * 2) 0) (rvi 0) (rvi 1) (rvi 3) (rvi 4) (Real.sqrt (2 / period))) rs := by
  have hbs : basis ∈ smoothNames := by rcases hb with rfl | rfl <;> simp [smoothNames]
  obtain ⟨u, hu, hB, hr, hl, -, -, hc⟩ := objectK (k := 4) hN hm hbs (Or.inl rfl) (x0 := -1) (xf := 1) (by norm_num) w b
  have hc' : m - 3 = cols1 u := by rw [hc]; omega
  rw [hc']
  obtain ⟨f1, f2, f3⟩ := planar_fits hr mu 0 (xis := List.replicate (cols1 u * 2) 0) (by simp) 1 1 1 1 1
  obtain ⟨o, ho, hrun⟩ := C104_newton_class_from hlib (method := .pinv) (by simp) (fun args => planarSys u mu (levelOf args)) f2 f3
    [.arr [getJacobi rvi mu]] tol htol maxIter true fuel hf
  obtain ⟨rs, h1, h2⟩ := follow_ok (S := planarSys u mu) (o := o) (fun C c xi hxi => hrun [.arr [C]] rfl (planar_smooth u mu C)
    (planar_fits hr mu C (by simp) 1 1 1 1 1).1 (planar_places hN hb hB hl mu C) c xi hxi) (linspace (getJacobi rvi mu) Cend nStep) o.compiled
    (planarUnknowns (List.replicate (cols1 u * 2) 0) (rvi 0) (rvi 1) (rvi 3) (rvi 4) (1 * Real.sqrt (2 / period)))
    ⟨rfl, by simp [planarKvs, entryW, entry1]⟩
  refine ⟨u, rs, hB, ?_, ?_⟩
  · unfold runLyap
    rw [show utfcInit N (.int 4) m basis (some (-1)) (some 1) "C++" w b = .ok u from hu]
    simp only [bind, Except.bind, zerosOf_value hr]
    have := ho
    unfold planarKvs at this
    simp only [planarUnknowns]
    rw [this]
    exact h1
  · rw [levels_list, C106_getJacobi, one_mul] at h2
    exact h2

/-- **C106, Problem_7.py end to end.** The program runs, and its run of the solver starts from the two orders of coefficients given there and the given
numbers. -/
theorem C106_problem7 (lib : LinAlg) (hlib : LinAlgCorrect lib) (N m : ℕ) (hN : 2 ≤ N) (hm : 5 ≤ m) (basis : String) (hb : basis = "CP" ∨ basis = "LeP")
    (mu C : ℝ) (r_init v_init : Fin 2 → ℝ) (T_init : ℝ) (w b : ℕ → ℝ) (fuel : ℕ) (hf : 52 ≤ fuel) :
    ∃ u v, ∃ (it : ℕ) (vs : ℕ → View String) (sts : ℕ → PState 2 5), Built N basis (-1) 1 u ∧
      runProblem7 lib N m basis mu C r_init v_init T_init w b fuel = .ok (some (v, (it : ℤ))) ∧
      SysRun (planarSys u mu C) (planarUnknowns ([-0.003, 2e-12, 9e-12, 0.01] ++ List.replicate ((m - 5) * 2) 0) (r_init 0) (r_init 1) (v_init 0) (v_init 1)
        (Real.sqrt (2 / T_init))) 1e-13 50 v it vs sts := by
  have hbs : basis ∈ smoothNames := by rcases hb with rfl | rfl <;> simp [smoothNames]
  obtain ⟨u, hu, hB, hr, hl, -, -, hc⟩ := objectK (k := 4) hN (by omega) hbs (Or.inl rfl) (m := m) (x0 := -1) (xf := 1) (by norm_num) w b
  have hs : startXis (List.replicate (cols1 u * 2) 0) = .ok ([-0.003, 2e-12, 9e-12, 0.01] ++ List.replicate ((m - 5) * 2) 0) := by
    unfold startXis
    rw [if_neg (by simp [hc]; omega), List.drop_replicate]
    congr 4
    rw [hc]
    omega
  obtain ⟨f1, f2, f3⟩ := planar_fits hr mu C (xis := [-0.003, 2e-12, 9e-12, 0.01] ++ List.replicate ((m - 5) * 2) 0)
    (by simp [hc]; omega) (1 * r_init 0) (1 * r_init 1) (1 * v_init 0) (1 * v_init 1) (1 * Real.sqrt (2 / T_init))
  obtain ⟨v, it, vs, sts, hrun, hsys⟩ := C104_newton hlib (method := .pinv) (by simp) (planar_smooth u mu C) f1 f2 (planar_places hN hb hB hl mu C) f3 1e-13
    (by norm_num) 50 true fuel hf
  refine ⟨u, v, it, vs, sts, hB, ?_, ?_⟩
  · unfold runProblem7
    rw [show utfcInit N (.int 4) m basis (some (-1)) (some 1) "C++" w b = .ok u from hu]
    simp only [bind, Except.bind, zerosOf_value hr, hs]
    exact hrun
  · simp only [one_mul] at hsys
    exact hsys

/-- With fewer than five orders Problem_7.py stops with an error: the two rows of the start do not fit. -/
theorem C106_problem7_fails (lib : LinAlg) (N : ℕ) (hN : 2 ≤ N) (basis : String) (hb : basis = "CP" ∨ basis = "LeP")
    (mu C : ℝ) (r_init v_init : Fin 2 → ℝ) (T_init : ℝ) (w b : ℕ → ℝ) (fuel : ℕ) :
    runProblem7 lib N 4 basis mu C r_init v_init T_init w b fuel = .error .valueError := by
  have hbs : basis ∈ smoothNames := by rcases hb with rfl | rfl <;> simp [smoothNames]
  obtain ⟨u, hu, hB, hr, hl, -, -, hc⟩ := objectK (k := 4) hN le_rfl hbs (Or.inl rfl) (m := 4) (x0 := -1) (xf := 1) (by norm_num) w b
  unfold runProblem7
  rw [show utfcInit N (.int 4) 4 basis (some (-1)) (some 1) "C++" w b = .ok u from hu]
  simp [bind, Except.bind, zerosOf_value hr, startXis, hc]

/-- The entries of the dictionary of the program in space. -/
def spatialKvs (xis : List ℝ) (rvi : Fin 6 → ℝ) (b : ℝ) : List (String × Arr ℝ) :=
  [entryW 3 "xis" xis, entry1 "X" [rvi 0], entry1 "Y" [rvi 1], entry1 "Z" [rvi 2], entry1 "dX" [rvi 3], entry1 "dY" [rvi 4], entry1 "dZ" [rvi 5],
    entry1 "b" [b]]

theorem spatial_fits {u : Utfc} (hr : Ready u) (mu C : ℝ) {xis : List ℝ} (hl : xis.length = cols1 u * 3) (rvi : Fin 6 → ℝ) (b : ℝ) :
    FitsSys (spatialSys u mu C) (spatialKvs xis rvi b) ∧ ProperUnknowns (.dict .robust (spatialKvs xis rvi b)) ∧
      entries (View.dict .robust (spatialKvs xis rvi b)) ≠ [] := by
  refine ⟨⟨by simp [spatialKvs, entry1, entryW], ?_, ?_, ?_, ?_, ?_, ?_⟩, ⟨by simp [spatialKvs], by simp [spatialKvs, entry1, entryW], fun p hp => ?_⟩,
    by simp [entries, spatialKvs, entry1]⟩
  · exact fun q => hr
  · intro q; simp [spatialKvs, spatialSys, orbFuns, entryW]
  · intro q; exact q.2
  · intro q; simp [spatialKvs, spatialSys, orbFuns, entryW, sizeOfKey, hl]
  · intro i; fin_cases i <;> simp [spatialKvs, spatialSys, entryW, entry1]
  · intro i; fin_cases i <;> simp [spatialKvs, spatialSys, entryW, entry1, sizeOfKey]
  · simp only [spatialKvs, List.mem_cons, List.not_mem_nil, or_false] at hp
    rcases hp with rfl | rfl | rfl | rfl | rfl | rfl | rfl | rfl
    · simp [entryW, hl]
    all_goals simp [entry1]

theorem spatial_places {N : ℕ} (hN : 2 ≤ N) {basis : String} (hb : basis = "CP" ∨ basis = "LeP") {u : Utfc} (hB : Built N basis (-1) 1 u)
    (hl : u.x.length = N) (mu C : ℝ) : places (spatialSys u mu C).eqs ≠ [] := by
  have hx : u.z ≠ [] := by
    rw [built_z hN hb hB]
    intro h
    rw [h] at hl
    simp at hl
    omega
  obtain ⟨x, hx⟩ := List.exists_mem_of_ne_nil _ hx
  exact List.ne_nil_of_mem (a := (⟨spatialEq1 u mu, x, (0 : Fin 3)⟩ : Place 3 7)) (mem_places.2 ⟨List.mem_cons_self, hx⟩)

/-- **C106, Halo.py end to end.** As `C106_lyap`, in space. -/
theorem C106_halo (lib : LinAlg) (hlib : LinAlgCorrect lib) (N m : ℕ) (hN : 2 ≤ N) (hm : 4 ≤ m) (basis : String) (hb : basis = "CP" ∨ basis = "LeP")
    (nTraj maxIter : ℕ) (mu tol Cend : ℝ) (htol : tol < 1) (rvi : Fin 6 → ℝ) (period : ℝ) (w b : ℕ → ℝ) (fuel : ℕ) (hf : maxIter + 2 ≤ fuel) :
    ∃ u rs, Built N basis (-1) 1 u ∧ runHalo lib N m basis nTraj maxIter mu tol Cend rvi period w b fuel = .ok (some rs) ∧
      Follows (spatialSys u mu) tol maxIter ((List.range nTraj).map fun i : ℕ => jacobi mu ![rvi 0, rvi 1, rvi 2] ![rvi 3, rvi 4, rvi 5] +
          i * ((Cend - jacobi mu ![rvi 0, rvi 1, rvi 2] ![rvi 3, rvi 4, rvi 5]) / (nTraj - 1)))
        (spatialUnknowns (List.replicate ((m - 3) * 3) 0) rvi (Real.sqrt (2 / period))) rs := by
  have hbs : basis ∈ smoothNames := by rcases hb with rfl | rfl <;> simp [smoothNames]
  obtain ⟨u, hu, hB, hr, hl, -, -, hc⟩ := objectK (k := 4) hN hm hbs (Or.inl rfl) (x0 := -1) (xf := 1) (by norm_num) w b
  have hc' : m - 3 = cols1 u := by rw [hc]; omega
  rw [hc']
  obtain ⟨f1, f2, f3⟩ := spatial_fits hr mu 0 (xis := List.replicate (cols1 u * 3) 0) (by simp) rvi (1 * Real.sqrt (2 / period))
  obtain ⟨o, ho, hrun⟩ := C104_newton_class_from hlib (method := .pinv) (by simp) (fun args => spatialSys u mu (levelOf args)) f2 f3
    [.arr [1]] tol htol maxIter true fuel hf
  obtain ⟨rs, h1, h2⟩ := follow_ok (S := spatialSys u mu) (o := o) (fun C c xi hxi => hrun [.arr [C]] rfl (spatial_smooth u mu C)
    (spatial_fits hr mu C (by simp) rvi _).1 (spatial_places hN hb hB hl mu C) c xi hxi) (linspace (getJacobi rvi mu) Cend nTraj) o.compiled
    (spatialUnknowns (List.replicate (cols1 u * 3) 0) rvi (1 * Real.sqrt (2 / period))) ⟨rfl, rfl⟩
  refine ⟨u, rs, hB, ?_, ?_⟩
  · unfold runHalo
    rw [show utfcInit N (.int 4) m basis (some (-1)) (some 1) "C++" w b = .ok u from hu]
    simp only [bind, Except.bind, zerosOf_value hr]
    have := ho
    unfold spatialKvs at this
    simp only [spatialUnknowns]
    rw [this]
    exact h1
  · rw [levels_list, C106_getJacobi, one_mul] at h2
    exact h2

end Verif.Props
