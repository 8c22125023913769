import Verif.Props.AffineSys

/-!
# An unknown number on which the linearised equations do not depend: the step leaves it as it is
-/

namespace Verif.Props

open Set Verif Verif.Py Verif.Np Verif.Spec Verif.Model Verif.Model.Py Verif.Model.LSq Verif.Model.Prog Verif.Model.Dict Verif.Lemmas.LSq
open scoped ContDiff

variable {nf m : ℕ}

/-- The state with another value of one number. -/
def PState.setNum (st : PState nf m) (i : Fin m) (a : ℝ) : PState nf m := ⟨st.free, Function.update st.num i a⟩

/-- The dictionary with another value of one number. -/
theorem setNum_means {S : PSys nf m} {cls : DictClass} {kvs : List (String × Arr ℝ)} (hS : FitsSys S kvs) {v : View String}
    (hv : SameForm (.dict cls kvs) v) {st : PState nf m} (hm : Means S v st) (i : Fin m) (hi : offsetOf kvs (S.names i) < (entries v).length)
    (h1 : ∀ k, k ≠ i → offsetOf kvs (S.names k) ≠ offsetOf kvs (S.names i))
    (h2 : ∀ q, ∀ n < cols1 (S.funs q).obj, offsetOf kvs (S.funs q).key + (n * (S.funs q).width + (S.funs q).col) ≠ offsetOf kvs (S.names i)) (a : ℝ) :
    ∃ v', SameForm (.dict cls kvs) v' ∧ Means S v' (PState.setNum st i a) ∧ entries v' = (entries v).set (offsetOf kvs (S.names i)) a := by
  obtain ⟨l, hl⟩ : ∃ l, l = (entries v).set (offsetOf kvs (S.names i)) a := ⟨_, rfl⟩
  have hlen : l.length = (entries (View.dict cls kvs)).length := by rw [hl, List.length_set, SameForm.length hv]
  have hf := refill_form (View.dict cls kvs) hlen
  have he := entries_refill (View.dict cls kvs) hlen
  refine ⟨refill (.dict cls kvs) l, hf, ?_, by rw [he, hl]⟩
  have hst := means_stateOf hS hf
  have hne : ∀ n, n ≠ offsetOf kvs (S.names i) → coef l n = coef (entries v) n := fun n hn => by
    rw [hl]
    simp only [coef, List.getD, List.getElem?_set, if_neg hn.symm]
  have heq : coef l (offsetOf kvs (S.names i)) = a := by
    rw [hl]
    simp [coef, List.getD, List.getElem?_set, hi]
  have : stateOf S kvs (coef (entries (refill (View.dict cls kvs) l))) = PState.setNum st i a := by
    rw [he, means_unique hS hv hm]
    unfold stateOf PState.setNum
    congr 1
    · funext q t
      unfold freeOf
      refine Finset.sum_congr rfl fun n hn => ?_
      beta_reduce
      rw [hne _ (h2 q n (Finset.mem_range.1 hn))]
    · funext k
      rcases eq_or_ne k i with rfl | hk
      · rw [Function.update_self, heq]
      · rw [Function.update_of_ne hk, hne _ (h1 k hk)]
  rw [← this]
  exact hst

/-- A number on which the linearised equations do not depend keeps its value in the step. -/
theorem number_stays {S : PSys nf m} {cls : DictClass} {kvs : List (String × Arr ℝ)} (hS : FitsSys S kvs) {v : View String} {tol : ℝ} {maxIter it : ℕ}
    {vs : ℕ → View String} {sts : ℕ → PState nf m} (h : SysRun S (.dict cls kvs) tol maxIter v it vs sts) {j : ℕ} (hj : j < it)
    (hr : Regular S (sts j)) (i : Fin m) (hi : offsetOf kvs (S.names i) < (entries (View.dict cls kvs)).length)
    (h1 : ∀ k, k ≠ i → offsetOf kvs (S.names k) ≠ offsetOf kvs (S.names i))
    (h2 : ∀ q, ∀ n < cols1 (S.funs q).obj, offsetOf kvs (S.funs q).key + (n * (S.funs q).width + (S.funs q).col) ≠ offsetOf kvs (S.names i))
    (hflat : ∀ a, sumAll S.eqs (fun E x o => sysLin S (sts j) (PState.setNum (sts (j + 1)) i a) E x o ^ 2) =
      sumAll S.eqs (fun E x o => sysLin S (sts j) (sts (j + 1)) E x o ^ 2)) :
    (sts (j + 1)).num i = (sts j).num i := by
  have hfj := h.form j hj.le
  have hfj' := h.form (j + 1) hj
  have hl := SameForm.length hfj
  have hl' := SameForm.length hfj'
  obtain ⟨v', f1, f2, f3⟩ := setNum_means hS hfj' (h.means (j + 1) hj) i (by rw [← hl']; exact hi) h1 h2 ((sts j).num i)
  have hle := h.shortest j hj hr v' _ f1 f2 (hflat _).le
  obtain ⟨o, ho⟩ : ∃ o, o = offsetOf kvs (S.names i) := ⟨_, rfl⟩
  have n0 : (sts j).num i = (entries (vs j)).getD o 0 := by rw [means_unique hS hfj (h.means j hj.le), ho]; rfl
  have n1 : (sts (j + 1)).num i = (entries (vs (j + 1))).getD o 0 := by rw [means_unique hS hfj' (h.means (j + 1) hj), ho]; rfl
  rw [← ho] at hi
  have hmem : o ∈ Finset.range (entries (View.dict cls kvs)).length := Finset.mem_range.2 hi
  rw [f3, ← ho, ← Finset.add_sum_erase _ _ hmem, ← Finset.add_sum_erase _ _ hmem] at hle
  have e1 : ∑ x ∈ (Finset.range (entries (View.dict cls kvs)).length).erase o,
      (((entries (vs (j + 1))).set o ((sts j).num i)).getD x 0 - (entries (vs j)).getD x 0) ^ 2 =
      ∑ x ∈ (Finset.range (entries (View.dict cls kvs)).length).erase o, ((entries (vs (j + 1))).getD x 0 - (entries (vs j)).getD x 0) ^ 2 :=
    Finset.sum_congr rfl fun x hx => by
      have := (Finset.mem_erase.1 hx).1
      simp only [List.getD, List.getElem?_set, if_neg this.symm]
  have e2 : ((entries (vs (j + 1))).set o ((sts j).num i)).getD o 0 = (entries (vs j)).getD o 0 := by
    rw [← n0]
    simp [List.getD, List.getElem?_set, ← hl', hi]
  rw [e1, e2, sub_self] at hle
  rw [n0, n1]
  nlinarith [hle]

end Verif.Props
