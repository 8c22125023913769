import Verif.Props.Ls
import Verif.Lemmas.Pinv

/-!
# C34–C36: where the claims fail, and `LsClass`
-/

namespace Verif.Props

open Verif.Py Verif.Np Verif.Spec Verif.Model Verif.Model.Dict Verif.Model.LSq Verif.Lemmas.LinAlg Verif.Lemmas.LSq
  Verif.Lemmas.Pe Verif.Lemmas.Dict

variable {Key : Type} [DecidableEq Key]

/-! ## C34: the negations -/

/-- `res(xi, a, b) = a * xi - b` for arrays with one entry. -/
def lineRes : Residual Key
  | [.arr [x], .arr [a], .arr [b]] => [a * x - b]
  | _ => [0]

theorem lineRes_affine (x a b : ℝ) :
    AffineIn (lineRes : Residual Key) (.arr [x]) [.arr [a], .arr [b]] 1 (fun _ _ => a) fun _ => - b := by
  intro v hv
  cases v with
  | dict c kvs => exact hv.elim
  | arr l =>
    have hl : l.length = 1 := by
      have : [x].length = l.length := hv
      simpa using this.symm
    obtain ⟨y, rfl⟩ := List.length_eq_one_iff.1 hl
    simp [lineRes, entries, sub_eq_add_neg]

theorem sortReverse_12 : sortReverse [1, 2] = [2, 1] := by
  rw [sortReverse_ascending (by simp)]
  rfl

theorem line_first (lib : LinAlg) (method : Method) (hm : method ≠ .other) :
    (LS lib method none false (lineRes : Residual Key) (.arr [0]) [.arr [1], .arr [1]] [1, 2]).2 = [2, 1] := by
  unfold LS
  simp only
  rw [if_neg hm, if_neg (by simp)]
  obtain ⟨g, args', h1, h2, h3, -⟩ := pe_pop (L := [1, 2]) (by simp) (.arr [0]) [.arr [1], .arr [1]] (by simp)
    (lsFun lib method none (lineRes : Residual Key))
  rw [h1]
  simp only
  rw [h2]
  exact sortReverse_12

/-- C34 is false: after a call of `LS` with `constant_arg_nums=[1, 2]` the caller's list is `[2, 1]`. -/
theorem C34_fails (lib : LinAlg) (method : Method) (hm : method ≠ .other) :
    ∃ (res : Residual Key) (z : View Key) (args : List (View Key)) (L : List ℕ), GoodConstants L args ∧
      (LS lib method none false res z args L).2 ≠ L :=
  ⟨lineRes, .arr [0], [.arr [1], .arr [1]], [1, 2], ⟨by simp, by simp⟩, by rw [line_first lib method hm]; simp⟩

/-- C34 is false in its second part too: for the residual `a·xi - b` with `a = b = 1`, the first call of `LS` returns a
least-squares solution and the second call, with the list as the first one left it, returns something else. -/
theorem C34_second_call_fails (lib : LinAlg) (hlib : LinAlgCorrect lib) (method : Method) (hm : method ≠ .other) :
    ∃ (res : Residual Key) (z : View Key) (args : List (View Key)) (L L' : List ℕ) (x x' : View Key),
      LS lib method none false res z args L = (.ok x, L') ∧ IsLeastSquares res z args x ∧
      (LS lib method none false res z args L').1 = .ok x' ∧ ¬ IsLeastSquares res z args x' := by
  have hA := lineRes_affine (Key := Key) 0 1 1
  obtain ⟨x, h1, h2, -⟩ := C35_ls_partial lib hlib method hm none false (lineRes : Residual Key) (.arr [0]) [.arr [1], .arr [1]]
    [1, 2] ⟨by simp, by simp⟩ trivial trivial 1 (fun _ _ => 1) (fun _ => - 1) hA (Or.inl rfl)
  refine ⟨lineRes, .arr [0], [.arr [1], .arr [1]], [1, 2], [2, 1], x, .arr [0],
    Prod.ext h1 (line_first lib method hm), h2, ?_, ?_⟩
  · -- the second call freezes the unknowns and `b`
    have hB := lineRes_affine (Key := Key) 0 0 1
    obtain ⟨dx, h3, h4⟩ := lsFun_affine (J := none) hlib hm hB (Or.inl rfl) (v := .arr [0]) (by rfl) trivial
    have hdx : dx = [0] := by
      refine solves_zero h4 (le_of_eq ?_)
      unfold missSq
      simp [entries]
    subst hdx
    have hpe : pe [View.arr [0], .arr [1], .arr [1]] [2, 1] (lsFun lib method none (lineRes : Residual Key)) =
        .ok (fRemoved 3 2 [0, 2, 1] [.arr [0], .arr [1], .arr [1]] (lsFun lib method none lineRes)) := rfl
    have hs : sortReverse [2, 1] = [2, 1] := sortReverse_of_descending (by simp)
    have hpop : popArgs [(View.arr [1] : View Key), .arr [1]] [2, 1] = .ok [] := rfl
    have hf : fRemoved 3 2 [0, 2, 1] [View.arr [0], .arr [1], .arr [1]] (lsFun lib method none (lineRes : Residual Key))
        [.arr [0]] = .ok [0] := h3
    unfold LS
    simp only
    rw [if_neg hm, if_neg (by simp), hpe]
    simp only
    rw [hs, hpop]
    unfold addStep
    simp only [List.length_cons, List.length_nil, List.replicate_succ, List.replicate_zero]
    rw [hf]
    simp [bind, Except.bind, arrOp, Except.map]
  · intro h
    have := h.2 (.arr [1]) rfl
    simp [lineRes, normSq] at this
    linarith

/-! ## C35: an example and the negation -/

/-- The contracts can be met, and the hypotheses of `C35_ls_partial` hold for the residual `[2 x₀ - 1, 2 x₀ + x₁]` of a TFCDict with two
keys and an additional constant argument. -/
example : ∃ lib : LinAlg, LinAlgCorrect lib ∧
    let z : View Bool := .dict .plain [(true, ⟨[1], [5]⟩), (false, ⟨[1], [7]⟩)]
    let res : Residual Bool := fun all => (List.range 2).map fun i =>
      (∑ j ∈ Finset.range (entries (all.getD 0 z)).length, (if i = 0 ∧ j = 1 then 0 else if j = 0 then 2 else 1) *
        (entries (all.getD 0 z)).getD j 0) + if i = 0 then -1 else 0
    ∃ x, (LS lib .pinv none true res z [.arr [3]] [1]).1 = .ok x ∧ IsLeastSquares res z [.arr [3]] x := by
  obtain ⟨lib, hlib⟩ := linAlg_exists
  refine ⟨lib, hlib, ?_⟩
  intro z res
  obtain ⟨x, h1, h2, -⟩ := C35_ls_partial lib hlib .pinv (by simp) none true res z [.arr [3]] [1] ⟨by simp, by simp⟩
    ⟨by simp, by simp, by simp⟩ trivial 2 (fun i j => if i = 0 ∧ j = 1 then 0 else if j = 0 then 2 else 1)
    (fun i => if i = 0 then -1 else 0) (fun v _ => rfl) (Or.inl rfl)
  exact ⟨x, h1, h2⟩

/-- C35 is false for a TFCDictRobust with two keys: whatever the residual is, `LS` raises as soon as the linear solve succeeds. -/
theorem C35_robust_fails (lib : LinAlg) (hlib : LinAlgCorrect lib) (method : Method) (hm : method ≠ .other) (k₁ k₂ : Key)
    (hk : k₁ ≠ k₂) : ∃ (res : Residual Key) (z : View Key) (N : ℕ) (A : ℕ → ℕ → ℝ) (b : ℕ → ℝ),
      ProperUnknowns z ∧ AffineIn res z [] N A b ∧ (LS lib method none false res z [] []).1 = .error .typeError := by
  set z : View Key := .dict .robust [(k₁, ⟨[1], [0]⟩), (k₂, ⟨[1], [0]⟩)] with hz
  set res : Residual Key := fun all => (List.range 1).map fun i =>
    (∑ j ∈ Finset.range (entries (all.getD 0 z)).length, (1 : ℝ) * (entries (all.getD 0 z)).getD j 0) + 0 with hres
  have hp : ProperUnknowns z := ⟨by simp, by simpa using hk, by simp⟩
  have hA : AffineIn res z [] 1 (fun _ _ => 1) (fun _ => 0) := fun v _ => rfl
  refine ⟨res, z, 1, fun _ _ => 1, fun _ => 0, hp, hA, ?_⟩
  obtain ⟨dx, h1, h2⟩ := lsFun_affine (J := none) hlib hm hA (Or.inl rfl) (zeroView_form z) (proper_of_form (zeroView_form z) hp)
  have hlen : dx.length = 2 := by rw [h2.length, ← SameForm.length (zeroView_form z)]; simp [hz, entries]
  unfold LS
  simp only
  rw [if_neg hm, if_pos trivial]
  have hd : zerosDict .robust [(k₁, (⟨[1], [0]⟩ : Arr ℝ)), (k₂, ⟨[1], [0]⟩)] =
      .ok ⟨[(k₁, .np 0), (k₂, .np 1)], [k₁, k₂], [none, none]⟩ := by
    have : k₂ ≠ k₁ := fun h => hk h.symm
    simp [zerosDict, treeUnflatten, TDict.init, odUpdate, odSet, refresh, getSlices, isArray, hk, List.range_succ, bind,
      Except.bind]
  have hc : View.dict .robust (contents (zerosHeap [(k₁, (⟨[1], [0]⟩ : Arr ℝ)), (k₂, ⟨[1], [0]⟩)])
      [(k₁, .np 0), (k₂, .np 1)]) = zeroView z := rfl
  have hpiece : piece .robust (zerosHeap [(k₁, (⟨[1], [0]⟩ : Arr ℝ)), (k₂, ⟨[1], [0]⟩)])
      (⟨[(k₁, .np 0), (k₂, .np 1)], [k₁, k₂], [none, none]⟩ : TDict Key ℝ) dx k₁ none = .error .typeError := by
    have hlook : lookup [(k₁, (Val.np 0 : Val ℝ)), (k₂, .np 1)] k₁ = .ok (.np 0) := by simp [lookup]
    unfold piece
    simp only
    rw [hlook]
    show Arr.reshape ⟨[1, dx.length], dx⟩ [1] = _
    unfold Arr.reshape
    rw [if_neg (by simp [hlen])]
  rw [hz]
  unfold addStep
  simp only
  rw [hd]
  simp only [bind, Except.bind]
  rw [hc, h1]
  simp only [Bool.false_eq_true, if_false]
  unfold TDict.iop combine
  simp only [Arr.flatten]
  unfold loopFlat
  rw [hpiece]
  rfl

/-! ## C36 -/

/-- Unknowns as the caller may pass them: an array, or a dictionary object as built from arrays that suit its class. -/
def GoodUnknowns (h : Heap ℝ) : Unk Key → Prop
  | .arr _ => True
  | .dict cls d => Fresh cls h d

theorem iadd_ok {h : Heap ℝ} {u : Unk Key} (hu : GoodUnknowns h u) {dx : List ℝ} (hl : dx.length = (entries (u.view h)).length) :
    ∃ h' u', u.iadd h dx = .ok (h', u') ∧ SameForm (u.view h) (u'.view h') ∧
      entries (u'.view h') = List.zipWith (· + ·) (entries (u.view h)) dx := by
  cases u with
  | arr l =>
    have hl : dx.length = l.length := hl
    refine ⟨h, .arr (List.zipWith (· + ·) l dx), ?_, ?_, rfl⟩
    · unfold Unk.iadd arrOp
      simp only
      rw [if_pos hl.symm]
      rfl
    · show l.length = _
      rw [List.length_zipWith]
      omega
  | dict cls d =>
    have F : Fresh cls h d := hu
    have hl' : dx.length = (flat h d.items).length := by
      rw [← entries_content cls]
      exact hl
    refine ⟨h, .dict cls { d with items := combineFlat (· + ·) h d.items dx }, ?_, ?_, ?_⟩
    · unfold Unk.iadd
      simp only
      rw [iop_flat (· + ·) F dx hl']
      rfl
    · exact combineFlat_form cls (· + ·) h h d.items dx hl'
    · show entries (.dict cls (contents h _)) = List.zipWith _ (entries (.dict cls (contents h _))) _
      rw [entries_content, entries_content]
      exact combineFlat_flat (· + ·) h h d.items dx hl'

/-- **C36**, with the timer. An `LsClass` object built for an affine residual returns a least-squares solution from every call of
`run`, the first as well as later ones (`c` says whether the object has been run before), from every start value of the same form.
Missing: without the timer every call raises, see `C36_fails`; constant positions not in ascending order. -/
theorem C36_lsClass_partial (lib : LinAlg) (hlib : LinAlgCorrect lib) (method : Method) (hm : method ≠ .other)
    (J : Option (List (View Key) → Mat ℝ)) (res : Residual Key) (z : View Key) (args : List (View Key))
    (L : List ℕ) (hL : GoodConstants L args) (hp : ProperUnknowns z) (N : ℕ) (A : ℕ → ℕ → ℝ)
    (b : ℕ → ℝ) (hA : AffineIn res z args N A b) (hJ : JacobianGiven J z args N A) :
    ∃ o args', (LsObj.init lib method J true res z args L).1 = .ok o ∧ remaining L (z :: args) = z :: args' ∧
      ∀ (c : Bool) (h : Heap ℝ) (u : Unk Key), GoodUnknowns h u → SameForm z (u.view h) →
        ∃ h' u', LsObj.run { o with compiled := c } h u args' = .ok (h', u', { o with compiled := true }) ∧
          IsLeastSquares res z args (u'.view h') := by
  have key : ∀ (ls : List (View Key) → Except Err (List ℝ)) (args' : List (View Key)),
      (∀ v, ls (v :: args') = lsFun lib method J res (v :: args)) → ∀ (c : Bool) (h : Heap ℝ) (u : Unk Key),
      GoodUnknowns h u → SameForm z (u.view h) →
        ∃ h' u', LsObj.run ⟨ls, true, c⟩ h u args' = .ok (h', u', ⟨ls, true, true⟩) ∧
          IsLeastSquares res z args (u'.view h') := by
    intro ls args' hls c h u hu hv
    obtain ⟨dx, h1, h2⟩ := lsFun_affine hlib hm hA hJ hv (proper_of_form hv hp)
    obtain ⟨h', u', h3, h4, h5⟩ := iadd_ok hu h2.length
    refine ⟨h', u', ?_, ls_min hA hv (SameForm.trans hv h4) h2 fun j hj => ?_⟩
    · unfold LsObj.run
      simp only [if_true]
      rw [hls, h1]
      simp only [bind, Except.bind, h3]
      cases c <;> rfl
    · rw [h5]
      unfold vec
      have hd : j < dx.length := by rw [h2.length]; exact hj
      rw [List.getD_eq_getElem?_getD, List.getD_eq_getElem?_getD, List.getD_eq_getElem?_getD, List.getElem?_zipWith,
        List.getElem?_eq_getElem hj, List.getElem?_eq_getElem hd]
      rfl
  by_cases h0 : L = []
  · subst h0
    refine ⟨⟨lsFun lib method J res, true, false⟩, args, ?_, ?_, key _ args fun v => rfl⟩
    · unfold LsObj.init
      simp only
      rw [if_neg hm, if_pos trivial]
    · obtain ⟨args', e1, e2⟩ := popArgs_ok (L := []) (by simp) z args (by simp)
      cases e1
      exact e2
  · obtain ⟨g, args', h1, h2, h3, -⟩ := pe_pop hL.1 z args hL.2 (lsFun lib method J res)
    refine ⟨⟨g, true, false⟩, args', ?_, ?_, key g args' h3⟩
    · unfold LsObj.init
      simp only
      rw [if_neg hm, if_neg h0, h1]
      simp only
      rw [h2]
    · obtain ⟨args'', e1, e2⟩ := popArgs_ok hL.1 z args hL.2
      rw [sortReverse_ascending hL.1, e1] at h2
      cases h2
      exact e2

/-- The hypotheses are met by the residual `2 xi - 3` of an array with one entry. -/
example : ∃ lib : LinAlg, LinAlgCorrect lib ∧
    ∃ o args', (LsObj.init lib .lstsq none true (lineRes : Residual ℕ) (.arr [9]) [.arr [2], .arr [3]] [1, 2]).1 = .ok o ∧
      ∃ h u, LsObj.run o noHeap (.arr [4]) args' = .ok (h, u, { o with compiled := true }) ∧
        IsLeastSquares lineRes (.arr [9]) [.arr [2], .arr [3]] (u.view h) := by
  obtain ⟨lib, hlib⟩ := linAlg_exists
  refine ⟨lib, hlib, ?_⟩
  obtain ⟨o, args', h1, -, h3⟩ := C36_lsClass_partial lib hlib .lstsq (by simp) none (lineRes : Residual ℕ) (.arr [9])
    [.arr [2], .arr [3]] [1, 2] ⟨by simp, by simp⟩ trivial 1 _ _ (lineRes_affine 9 2 3) (Or.inl rfl)
  obtain ⟨h, u, h4, h5⟩ := h3 o.compiled noHeap (.arr [4]) trivial rfl
  exact ⟨o, args', h1, h, u, h4, h5⟩

/-- C36 is false: without the timer every call of `run` raises a NameError. -/
theorem C36_fails (lib : LinAlg) (method : Method) (J : Option (List (View Key) → Mat ℝ)) (res : Residual Key) (z : View Key)
    (args : List (View Key)) (L : List ℕ) (o : LsObj Key) (ho : (LsObj.init lib method J false res z args L).1 = .ok o)
    (h : Heap ℝ) (u : Unk Key) (args' : List (View Key)) : o.run h u args' = .error .nameError := by
  have ht : o.timer = false := by
    unfold LsObj.init at ho
    simp only at ho
    split at ho
    · cases ho
    · split at ho
      · cases ho; rfl
      · split at ho
        · cases ho
        · split at ho
          · cases ho
          · cases ho; rfl
  unfold LsObj.run
  rw [ht]
  rfl

end Verif.Props
