import Verif.Props.LsMore
import Verif.Props.Nlls

/-!
# C36, C37: `LsClass` and `NllsClass` run with other arguments than they were built with

The arguments at the constant positions are fixed when the object is built; the others are given to each call of `run`.
-/

namespace Verif.Props

open Verif.Py Verif.Np Verif.Spec Verif.Model Verif.Model.Dict Verif.Model.LSq Verif.Lemmas.LinAlg Verif.Lemmas.LSq
  Verif.Lemmas.Pe Verif.Lemmas.Dict

variable {Key : Type} [DecidableEq Key]

/-- `args₂` can take the place of `args`: as many, and the same at the constant positions (position 0 is the unknowns). -/
def SameConstants (L : List ℕ) (args args₂ : List (View Key)) : Prop :=
  args₂.length = args.length ∧ ∀ k, k + 1 ∈ L → args₂[k]? = args[k]?

theorem pe_other {R : Type} {L : List ℕ} {z : View Key} {args : List (View Key)} (hL : GoodConstants L args) (f : List (View Key) → Except Err R) :
    ∃ g, pe (z :: args) L f = .ok g ∧ ∀ args₂, SameConstants L args args₂ → ∀ rest, remaining L (z :: args₂) = z :: rest →
      ∀ v, g (v :: rest) = f (v :: args₂) := by
  obtain ⟨g, h1, h2⟩ := pe_good (z :: args) hL.1 (fun k hk => by have := (hL.2 k hk).2; simp; omega) f
  refine ⟨g, h1, fun args₂ h rest hr v => ?_⟩
  have hL₂ : ∀ k ∈ L, 1 ≤ k ∧ k ≤ args₂.length := fun k hk => by rw [h.1]; exact hL.2 k hk
  have hv : remaining L (v :: args₂) = v :: rest := by
    obtain ⟨r1, e1, e2⟩ := popArgs_ok hL.1 v args₂ hL₂
    obtain ⟨r2, e3, e4⟩ := popArgs_ok hL.1 z args₂ hL₂
    rw [e1] at e3
    cases e3
    rw [hr] at e4
    cases e4
    exact e2
  rw [← hv]
  refine h2 (v :: args₂) (by simp [h.1]) fun k hk => ?_
  obtain ⟨j, rfl⟩ : ∃ j, k = j + 1 := ⟨k - 1, by have := (hL.2 k hk).1; omega⟩
  simpa using h.2 j hk

/-- **C36**, new arguments, with the timer. An `LsClass` object built with the arguments `args` returns a least-squares solution for `args₂` when it is run with
`args₂` (without the constant ones), in the first call and in later ones. Missing: as in `C36_lsClass_partial`. -/
theorem C36_lsClass_args_partial (lib : LinAlg) (hlib : LinAlgCorrect lib) (method : Method) (hm : method ≠ .other)
    (J : Option (List (View Key) → Mat ℝ)) (res : Residual Key) (z : View Key) (args : List (View Key)) (L : List ℕ) (hL : GoodConstants L args)
    (hp : ProperUnknowns z) :
    ∃ o, (LsObj.init lib method J true res z args L).1 = .ok o ∧
      ∀ args₂, SameConstants L args args₂ → ∃ rest, remaining L (z :: args₂) = z :: rest ∧
        ∀ N A b, AffineIn res z args₂ N A b → JacobianGiven J z args₂ N A → ∀ (c : Bool) (h : Heap ℝ) (u : Unk Key), GoodUnknowns h u →
          SameForm z (u.view h) → ∃ h' u', LsObj.run { o with compiled := c } h u rest = .ok (h', u', { o with compiled := true }) ∧
            IsLeastSquares res z args₂ (u'.view h') := by
  have hobj : ∃ ls, (LsObj.init lib method J true res z args L).1 = .ok ⟨ls, true, false⟩ ∧ ∀ args₂, SameConstants L args args₂ →
      ∀ rest, remaining L (z :: args₂) = z :: rest → ∀ v, ls (v :: rest) = lsFun lib method J res (v :: args₂) := by
    by_cases h0 : L = []
    · subst h0
      refine ⟨lsFun lib method J res, ?_, fun args₂ _ rest hr v => ?_⟩
      · unfold LsObj.init
        simp only
        rw [if_neg hm, if_pos trivial]
      · obtain ⟨r, e1, e2⟩ := popArgs_ok (L := []) (by simp) z args₂ (by simp)
        cases e1
        rw [hr] at e2
        cases e2
        rfl
    · obtain ⟨g, h1, h2⟩ := pe_other (z := z) hL (lsFun lib method J res)
      obtain ⟨r, e1, -⟩ := popArgs_ok hL.1 z args hL.2
      refine ⟨g, ?_, h2⟩
      unfold LsObj.init
      simp only
      rw [if_neg hm, if_neg h0, h1]
      simp only
      rw [sortReverse_ascending hL.1, e1]
  obtain ⟨ls, h1, h2⟩ := hobj
  refine ⟨_, h1, fun args₂ hs => ?_⟩
  obtain ⟨rest, -, hr⟩ := popArgs_ok hL.1 z args₂ (fun k hk => by rw [hs.1]; exact hL.2 k hk)
  refine ⟨rest, hr, fun N A b hA hJ c h u hu hv => ?_⟩
  obtain ⟨dx, d1, d2⟩ := lsFun_affine hlib hm hA hJ hv (proper_of_form hv hp)
  obtain ⟨h', u', h3, h4, h5⟩ := iadd_ok hu d2.length
  refine ⟨h', u', ?_, ls_min hA hv (SameForm.trans hv h4) d2 fun j hj => ?_⟩
  · unfold LsObj.run
    simp only [if_true]
    rw [h2 args₂ hs rest hr, d1]
    simp only [bind, Except.bind, h3]
    cases c <;> rfl
  · rw [h5]
    unfold vec
    have hd : j < dx.length := by rw [d2.length]; exact hj
    rw [List.getD_eq_getElem?_getD, List.getD_eq_getElem?_getD, List.getD_eq_getElem?_getD, List.getElem?_zipWith,
      List.getElem?_eq_getElem hj, List.getElem?_eq_getElem hd]
    rfl

/-- **C37**, new arguments, for tolerances below 1. An `NllsClass` object built with `args` behaves on `args₂` as `NLLS` called with `args₂`: it ends
for one of the documented reasons. -/
theorem C37_nllsClass_args_partial (lib : LinAlg) (method : Method) (hm : method ≠ .other) (J : Option (List (View Key) → Mat ℝ)) (res : Residual Key)
    (z : View Key) (args : List (View Key)) (L : List ℕ) (hL : GoodConstants L args) (cond : Option (NState Key → Except Err Bool)) (tol : ℝ) (ht : tol < 1)
    (maxIter : ℕ) (timer : Bool) (fuel : ℕ) (hf : maxIter + 2 ≤ fuel) :
    ∃ o, (NllsObj.init lib method J cond none tol maxIter timer res z args L).1 = .ok o ∧
      ∀ args₂, SameConstants L args args₂ → ∃ rest, remaining L (z :: args₂) = z :: rest ∧
        (GoodProblem lib method J res z args₂ L → ∀ (c : Bool) (v : View Key), SameForm z v → ∃ (x : View Key) (n : ℕ),
          NllsObj.run { o with compiled := c } v rest fuel = (.ok (some (x, (n : ℤ))), { o with compiled := true }) ∧
          StopsWithReason res args₂ tol maxIter v x n) := by
  have hobj : ∃ ls rE, (NllsObj.init lib method J cond none tol maxIter timer res z args L).1 =
      .ok ⟨defaultCond rE tol maxIter, defaultBody ls, timer, maxIter, false⟩ ∧ ∀ args₂, SameConstants L args args₂ →
      ∀ rest, remaining L (z :: args₂) = z :: rest → (∀ v, ls (v :: rest) = nllsFun lib method J res (v :: args₂)) ∧
        ∀ v, rE (v :: rest) = .ok (res (v :: args₂)) := by
    by_cases h0 : L = []
    · subst h0
      refine ⟨nllsFun lib method J res, fun all => .ok (res all), ?_, fun args₂ _ rest hr => ?_⟩
      · unfold NllsObj.init
        simp only
        rw [if_neg hm, if_pos trivial]
        rfl
      · obtain ⟨r, e1, e2⟩ := popArgs_ok (L := []) (by simp) z args₂ (by simp)
        cases e1
        rw [hr] at e2
        cases e2
        exact ⟨fun v => rfl, fun v => rfl⟩
    · obtain ⟨g, h1, h2⟩ := pe_other (z := z) hL (nllsFun lib method J res)
      obtain ⟨g', h1', h2'⟩ := pe_other (z := z) hL (fun all => .ok (res all))
      obtain ⟨r, e1, -⟩ := popArgs_ok hL.1 z args hL.2
      refine ⟨g, g', ?_, fun args₂ hs rest hr => ⟨h2 args₂ hs rest hr, h2' args₂ hs rest hr⟩⟩
      unfold NllsObj.init
      simp only
      rw [if_neg hm, if_neg h0, h1]
      simp only
      rw [h1']
      simp only
      rw [sortReverse_ascending hL.1, e1]
      rfl
  obtain ⟨ls, rE, h1, h2⟩ := hobj
  refine ⟨_, h1, fun args₂ hs => ?_⟩
  obtain ⟨rest, -, hr⟩ := popArgs_ok hL.1 z args₂ (fun k hk => by rw [hs.1]; exact hL.2 k hk)
  refine ⟨rest, hr, fun G c v hv => ?_⟩
  obtain ⟨x, n, h4, h5⟩ := loop_runs G (h2 args₂ hs rest hr).1 (h2 args₂ hs rest hr).2 tol maxIter hv fuel hf
  refine ⟨x, n, ?_, h4.stops ht (entries_ne hv G.unknowns)⟩
  unfold NllsObj.run
  simp only
  rw [h5]

/-- A case: an object for `2 xi - 3`, with 2 constant, run with 5 in the place of 3. -/
example : ∃ lib : LinAlg, LinAlgCorrect lib ∧
    ∃ o, (LsObj.init lib .lstsq none true (lineRes : Residual ℕ) (.arr [9]) [.arr [2], .arr [3]] [1]).1 = .ok o ∧
      ∃ h u, LsObj.run o noHeap (.arr [4]) [.arr [5]] = .ok (h, u, { o with compiled := true }) ∧
        IsLeastSquares lineRes (.arr [9]) [.arr [2], .arr [5]] (u.view h) := by
  obtain ⟨lib, hlib⟩ := linAlg_exists
  refine ⟨lib, hlib, ?_⟩
  obtain ⟨o, h1, h2⟩ := C36_lsClass_args_partial lib hlib .lstsq (by simp) none (lineRes : Residual ℕ) (.arr [9]) [.arr [2], .arr [3]] [1]
    ⟨by simp, by simp⟩ trivial
  obtain ⟨rest, h3, h4⟩ := h2 [.arr [2], .arr [5]] ⟨rfl, by simp⟩
  obtain ⟨h, u, h5, h6⟩ := h4 1 _ _ (lineRes_affine 9 2 5) (Or.inl rfl) o.compiled noHeap (.arr [4]) trivial rfl
  have : rest = [.arr [5]] := by
    have e : remaining [1] [(.arr [9] : View ℕ), .arr [2], .arr [5]] = [.arr [9], .arr [5]] := rfl
    rw [e] at h3
    cases h3
    rfl
  subst this
  exact ⟨o, h1, h, u, h5, h6⟩

end Verif.Props
