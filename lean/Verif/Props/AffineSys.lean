import Verif.Props.OdeSystemFrom
import Verif.Props.SpectralLanding

/-!
# Systems whose equations and conditions are affine: every step of the solver minimises the sum of the squares of the defects themselves
-/

namespace Verif.Props

open Set Verif Verif.Py Verif.Np Verif.Spec Verif.Model Verif.Model.Py Verif.Model.LSq Verif.Model.Prog Verif.Model.Dict Verif.Lemmas.LSq
open scoped ContDiff

variable {nf m : ℕ}

/-- The values of the conditions are affine in the unknown numbers, and the equations are affine in the derivatives and the unknown numbers. -/
structure AffineSys (S : PSys nf m) : Prop where
  values : ∀ q, ∀ c ∈ (S.funs q).conds, ∀ (s s' : Fin m → ℝ) (r : ℝ),
    c.value (fun i => s i + r * (s' i - s i)) = c.value s + r * (c.value s' - c.value s)
  eqs : ∀ E ∈ S.eqs, ∀ x (J J' : Fin E.count → ℝ) (s s' : Fin m → ℝ) (r : ℝ) (o : Fin E.outs),
    E.F x (fun i => J i + r * (J' i - J i)) (fun i => s i + r * (s' i - s i)) o = E.F x J s o + r * (E.F x J' s' o - E.F x J s o)

theorem sysJet_toward {S : PSys nf m} (hs : SmoothSys S) (ha : AffineSys S) {st st' : PState nf m} (h : ∀ q, ContDiff ℝ ∞ (st.free q))
    (h' : ∀ q, ContDiff ℝ ∞ (st'.free q)) (r : ℝ) (E : PEqn nf m) (x : ℝ) :
    sysJet S (st.toward st' r) E x = fun i => sysJet S st E x i + r * (sysJet S st' E x i - sysJet S st E x i) := by
  funext i
  unfold sysJet sysFn
  obtain ⟨q, hq⟩ : ∃ q, q = (E.terms i).1 := ⟨_, rfl⟩
  obtain ⟨d, hd⟩ : ∃ d, d = (E.terms i).2 := ⟨_, rfl⟩
  rw [← hq, ← hd, iteratedDeriv_curve (ends_smooth hs q _) (toward_smooth h h' r q), iteratedDeriv_curve (ends_smooth hs q _) (h q),
    iteratedDeriv_curve (ends_smooth hs q _) (h' q), toward_iter h h']
  unfold PFun.ends
  simp only [List.map_map, Function.comp_def, toward_iter h h']
  have hv := ha.values q
  obtain ⟨cs, hcs⟩ : ∃ cs, cs = (S.funs q).conds := ⟨_, rfl⟩
  rw [← hcs] at hv ⊢
  clear hcs
  have key : (cs.map fun c => iteratedDeriv d c.weight (E.arg i x) * (c.value (st.toward st' r).num -
      (iteratedDeriv c.order (st.free q) c.point + r * (iteratedDeriv c.order (st'.free q) c.point - iteratedDeriv c.order (st.free q) c.point)))).sum =
      (cs.map fun c => iteratedDeriv d c.weight (E.arg i x) * (c.value st.num - iteratedDeriv c.order (st.free q) c.point)).sum +
        r * ((cs.map fun c => iteratedDeriv d c.weight (E.arg i x) * (c.value st'.num - iteratedDeriv c.order (st'.free q) c.point)).sum -
          (cs.map fun c => iteratedDeriv d c.weight (E.arg i x) * (c.value st.num - iteratedDeriv c.order (st.free q) c.point)).sum) := by
    induction cs with
    | nil => simp
    | cons c cs ih =>
      have e : c.value (st.toward st' r).num = c.value st.num + r * (c.value st'.num - c.value st.num) := hv c List.mem_cons_self _ _ _
      simp only [List.map_cons, List.sum_cons]
      rw [ih fun c hc => hv c (List.mem_cons_of_mem _ hc), e]
      ring
  rw [key]
  ring

/-- For an affine system the linearised equations are the equations. -/
theorem affine_lin {S : PSys nf m} (hs : SmoothSys S) (ha : AffineSys S) {st st' : PState nf m} (h : ∀ q, ContDiff ℝ ∞ (st.free q))
    (h' : ∀ q, ContDiff ℝ ∞ (st'.free q)) {E : PEqn nf m} (hE : E ∈ S.eqs) (x : ℝ) (o : Fin E.outs) :
    sysLin S st st' E x o = sysMiss S st' E x o := by
  have e : (fun r : ℝ => sysMiss S (st.toward st' r) E x o) = fun r : ℝ => sysMiss S st E x o + (sysMiss S st' E x o - sysMiss S st E x o) * r := by
    funext r
    unfold sysMiss
    rw [sysJet_toward hs ha h h']
    have := ha.eqs E hE x (sysJet S st E x) (sysJet S st' E x) st.num st'.num r o
    rw [show (st.toward st' r).num = fun i => st.num i + r * (st'.num i - st.num i) from rfl, this]
    ring
  unfold sysLin
  rw [e]
  have hd : ∀ a b : ℝ, deriv (fun r : ℝ => a + b * r) 0 = b := fun a b => by
    have := ((hasDerivAt_id (0 : ℝ)).const_mul b).const_add a
    simpa using this.deriv
  rw [hd]
  ring

theorem sumAll_congr {eqs : List (PEqn nf m)} {f g : (E : PEqn nf m) → ℝ → Fin E.outs → ℝ} (h : ∀ E ∈ eqs, ∀ x ∈ E.pts, ∀ o, f E x o = g E x o) :
    sumAll eqs f = sumAll eqs g := by
  unfold sumAll
  congr 1
  refine List.map_congr_left fun E hE => ?_
  congr 1
  refine List.map_congr_left fun x hx => ?_
  exact Finset.sum_congr rfl fun o _ => h E hE x hx o

/-- After every step of a run for an affine system the sum of the squares of the defects is the least possible. -/
theorem affine_least {S : PSys nf m} (hs : SmoothSys S) (ha : AffineSys S) (hr : ∀ st, Regular S st) {z v : View String} {tol : ℝ} {maxIter it : ℕ}
    {vs : ℕ → View String} {sts : ℕ → PState nf m} (h : SysRun S z tol maxIter v it vs sts) {j : ℕ} (hj : j < it) {v' : View String}
    {st' : PState nf m} (hv' : SameForm z v') (hm' : Means S v' st') :
    sumAll S.eqs (fun E x o => sysMiss S (sts (j + 1)) E x o ^ 2) ≤ sumAll S.eqs fun E x o => sysMiss S st' E x o ^ 2 := by
  have e1 : sumAll S.eqs (fun E x o => sysLin S (sts j) (sts (j + 1)) E x o ^ 2) = sumAll S.eqs fun E x o => sysMiss S (sts (j + 1)) E x o ^ 2 :=
    sumAll_congr fun E hE x _ o => by rw [affine_lin hs ha (h.means j hj.le).smooth (h.means (j + 1) hj).smooth hE]
  have e2 : sumAll S.eqs (fun E x o => sysLin S (sts j) st' E x o ^ 2) = sumAll S.eqs fun E x o => sysMiss S st' E x o ^ 2 :=
    sumAll_congr fun E hE x _ o => by rw [affine_lin hs ha (h.means j hj.le).smooth hm'.smooth hE]
  rw [← e1, ← e2]
  exact h.step j hj (hr _) v' st' hv' hm'

end Verif.Props
