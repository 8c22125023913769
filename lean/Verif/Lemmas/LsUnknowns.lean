import Verif.Lemmas.LeastSquares

/-! # Adding a flat array to the unknowns -/

set_option linter.unusedSectionVars false

namespace Verif.Lemmas.LSq

open Verif.Py Verif.Np Verif.Spec Verif.Model Verif.Model.Dict Verif.Model.LSq Verif.Lemmas.LinAlg Verif.Lemmas.Dict

variable {Key : Type} [DecidableEq Key]

theorem contents_eq (h : Heap ℝ) (items : List (Key × Val ℝ)) : contents h items = content h items := rfl

theorem entries_content (cls : DictClass) (h : Heap ℝ) (items : List (Key × Val ℝ)) :
    entries (.dict cls (contents h items)) = flat h items := by
  simp [entries, contents, flat, Function.comp_def]

theorem combineFlat_form (cls : DictClass) (f : ℝ → ℝ → ℝ) (h h' : Heap ℝ) (items : List (Key × Val ℝ)) (l : List ℝ)
    (hl : l.length = (flat h items).length) :
    SameForm (.dict cls (contents h items)) (.dict cls (contents h' (combineFlat f h items l))) := by
  refine ⟨rfl, ?_⟩
  induction items generalizing l with
  | nil => rfl
  | cons p items ih =>
    rw [flat_cons, List.length_append] at hl
    have := ih (l.drop (p.2.arr h).data.length) (by rw [List.length_drop]; omega)
    conv_rhs => unfold combineFlat
    unfold contents at this ⊢
    simp only [List.map_cons]
    rw [this]
    congr 1
    simp only [arr_jax, zipArr, Prod.mk.injEq, true_and]
    rw [List.length_zipWith, List.length_take]
    omega

theorem proper_of_form {v w : View Key} (h : SameForm v w) (hp : ProperUnknowns v) : ProperUnknowns w := by
  cases v with
  | arr l =>
    cases w with
    | arr l' => trivial
    | dict c kvs => exact h.elim
  | dict c kvs =>
    cases w with
    | arr l' => exact h.elim
    | dict c' kvs' =>
      obtain ⟨hc, hm⟩ := h
      subst hc
      obtain ⟨h1, h2, h3⟩ := hp
      have hk : kvs.map (·.1) = kvs'.map (·.1) := by
        have := congrArg (List.map (fun q : Key × List ℕ × ℕ => q.1)) hm
        simpa [Function.comp_def] using this
      refine ⟨?_, hk ▸ h2, ?_⟩
      · intro e
        rw [e] at hk
        exact h1 (by simpa using hk)
      · intro p hp
        have : (p.1, p.2.shape, p.2.data.length) ∈ kvs.map fun p => (p.1, p.2.shape, p.2.data.length) := by
          rw [hm]
          exact List.mem_map.2 ⟨p, hp, rfl⟩
        obtain ⟨q, hq, e⟩ := List.mem_map.1 this
        simp only [Prod.mk.injEq] at e
        have := h3 q hq
        rw [e.2.1, e.2.2] at this
        exact this

/-- A dictionary of JAX arrays is rebuilt from its leaves. -/
theorem rebuild (cls : DictClass) {kvs : List (Key × Arr ℝ)} (hp : ProperUnknowns (.dict cls kvs)) :
    ∃ d, treeUnflatten cls noHeap (kvs.map (·.1)) (kvs.map fun p => Val.jax p.2) = .ok d ∧ Fresh cls noHeap d ∧
      d.items = jaxItems kvs := by
  obtain ⟨h1, h2, h3⟩ := hp
  have hz : (kvs.map (·.1)).zip (kvs.map fun p => Val.jax p.2) = jaxItems kvs := by
    rw [List.zip_map']
    rfl
  have hk : (jaxItems kvs).map (·.1) = kvs.map (·.1) := by simp [jaxItems, Function.comp_def]
  have hs : ∀ p ∈ jaxItems kvs, Suits cls noHeap p.2 := by
    intro p hp
    obtain ⟨q, hq, rfl⟩ := List.mem_map.1 hp
    have := h3 q hq
    cases cls with
    | plain =>
      rw [if_pos rfl] at this
      exact this
    | robust =>
      refine ⟨?_, q.2, rfl⟩
      simpa using this
  obtain ⟨d, hd, hi, F⟩ := Verif.Props.init_fresh (cls := cls) hs
  refine ⟨d, ?_, F, ?_⟩
  · unfold treeUnflatten
    rw [hz]
    exact hd
  · rw [hi, odUpdate_self (hk ▸ h2)]

theorem contents_jax (h : Heap ℝ) (kvs : List (Key × Arr ℝ)) : contents h (jaxItems kvs) = kvs := by
  unfold contents jaxItems
  rw [List.map_map]
  conv_rhs => rw [← List.map_id kvs]
  exact List.map_congr_left fun p _ => rfl

/-- Adding (or subtracting) a JAX array to a dictionary in place. -/
theorem iop_flat {cls : DictClass} (f : ℝ → ℝ → ℝ) {h : Heap ℝ} {d : TDict Key ℝ} (F : Fresh cls h d) (dx : List ℝ)
    (hl : dx.length = (flat h d.items).length) :
    d.iop cls f h (.jaxArr ⟨[dx.length], dx⟩) = .ok (h, { d with items := combineFlat f h d.items dx }) := by
  have g := loopFlat_ok f F dx d.items (fun p hp => hp) [] (by simpa using F.nodup) 0 (by simpa using hl)
  simp only [List.nil_append, List.drop_zero] at g
  unfold TDict.iop combine
  simp only [Arr.flatten]
  rw [F.keys, F.slices, g]
  rfl

theorem View.iop_ok (f : ℝ → ℝ → ℝ) {v : View Key} (hp : ProperUnknowns v) {dx : List ℝ}
    (hl : dx.length = (entries v).length) :
    ∃ v', v.iop f dx = .ok v' ∧ SameForm v v' ∧ entries v' = List.zipWith f (entries v) dx := by
  cases v with
  | arr l =>
    have hl : dx.length = l.length := hl
    refine ⟨.arr (List.zipWith f l dx), ?_, ?_, rfl⟩
    · unfold View.iop arrOp
      simp only
      rw [if_pos hl.symm]
      rfl
    · show l.length = _
      rw [List.length_zipWith]
      omega
  | dict cls kvs =>
    obtain ⟨d, hd, F, hi⟩ := rebuild cls hp
    have hc : contents noHeap d.items = kvs := by rw [hi, contents_jax]
    have hf : flat noHeap d.items = entries (.dict cls kvs) := by rw [← entries_content cls, hc]
    have hl' : dx.length = (flat noHeap d.items).length := by rw [hf]; exact hl
    refine ⟨.dict cls (contents noHeap (combineFlat f noHeap d.items dx)), ?_, ?_, ?_⟩
    · unfold View.iop
      simp only
      rw [hd]
      show (d.iop cls f noHeap (.jaxArr ⟨[dx.length], dx⟩) >>= _) = _
      rw [iop_flat f F dx hl']
      rfl
    · have := combineFlat_form cls f noHeap noHeap d.items dx hl'
      rwa [hc] at this
    · rw [entries_content, combineFlat_flat f noHeap noHeap d.items dx hl', hf]

/-! ### The zeros -/

/-- The unknowns with all entries 0. -/
def zeroView : View Key → View Key
  | .arr l => .arr (List.replicate l.length 0)
  | .dict cls kvs => .dict cls (kvs.map fun p => (p.1, ⟨p.2.shape, List.replicate p.2.data.length 0⟩))

theorem zeroView_form (v : View Key) : SameForm v (zeroView v) := by
  cases v with
  | arr l => show l.length = _; simp
  | dict cls kvs =>
    refine ⟨rfl, ?_⟩
    rw [List.map_map]
    exact List.map_congr_left fun p _ => by simp

theorem zeroView_entries (v : View Key) : entries (zeroView v) = List.replicate (entries v).length 0 := by
  cases v with
  | arr l => rfl
  | dict cls kvs =>
    unfold zeroView entries
    simp only
    induction kvs with
    | nil => rfl
    | cons p kvs ih =>
      simp only [List.map_cons, List.flatten_cons, List.length_append, List.replicate_add]
      rw [ih]

def npItems (kvs : List (Key × Arr ℝ)) : List (Key × Val ℝ) := (kvs.map (·.1)).zip ((List.range kvs.length).map .np)

theorem npItems_keys (kvs : List (Key × Arr ℝ)) : (npItems kvs).map (·.1) = kvs.map (·.1) := by
  unfold npItems
  exact List.map_fst_zip (by simp)

theorem npItems_contents (kvs : List (Key × Arr ℝ)) :
    contents (zerosHeap kvs) (npItems kvs) = kvs.map fun p => (p.1, ⟨p.2.shape, List.replicate p.2.data.length 0⟩) := by
  refine List.ext_getElem (by simp [contents, npItems]) fun i h1 h2 => ?_
  have hi : i < kvs.length := by simpa using h2
  simp only [contents, npItems, List.getElem_map, List.getElem_zip, List.getElem_range, arr_np, zerosHeap]
  rw [List.getElem?_eq_getElem hi]

theorem zerosDict_plain {kvs : List (Key × Arr ℝ)} (hp : ProperUnknowns (.dict .plain kvs)) :
    ∃ d, zerosDict .plain kvs = .ok d ∧ Fresh .plain (zerosHeap kvs) d ∧ d.items = npItems kvs := by
  obtain ⟨h1, h2, h3⟩ := hp
  have hs : ∀ p ∈ npItems kvs, Suits .plain (zerosHeap kvs) p.2 := by
    intro p hp
    have hm : (p.1, p.2.arr (zerosHeap kvs)) ∈ contents (zerosHeap kvs) (npItems kvs) := List.mem_map.2 ⟨p, hp, rfl⟩
    rw [npItems_contents] at hm
    obtain ⟨q, hq, e⟩ := List.mem_map.1 hm
    simp only [Prod.mk.injEq] at e
    have := h3 q hq
    rw [if_pos rfl] at this
    show (p.2.arr (zerosHeap kvs)).shape = [(p.2.arr (zerosHeap kvs)).data.length]
    rw [← e.2, this]
    simp
  obtain ⟨d, hd, hi, F⟩ := Verif.Props.init_fresh (cls := .plain) hs
  exact ⟨d, hd, F, by rw [hi, odUpdate_self (npItems_keys kvs ▸ h2)]⟩

/-- The last lines of `LS` for arrays and TFCDicts. -/
theorem addStep_ok (timer : Bool) {ls : List (View Key) → Except Err (List ℝ)} {z : View Key} (hp : ProperUnknowns z)
    (hz : ∀ kvs, z ≠ .dict .robust kvs) {args : List (View Key)} {dx : List ℝ} (hls : ls (zeroView z :: args) = .ok dx)
    (hl : dx.length = (entries z).length) :
    ∃ x, addStep timer ls z args = .ok x ∧ SameForm z x ∧ entries x = dx := by
  have hzip : ∀ l : List ℝ, List.zipWith (· + ·) (List.replicate l.length 0) l = l := by
    intro l
    induction l with
    | nil => rfl
    | cons a l ih => simp [List.replicate_succ, ih]
  cases z with
  | arr l =>
    have hl : dx.length = l.length := hl
    refine ⟨.arr dx, ?_, hl.symm, rfl⟩
    have hls : ls (.arr (List.replicate l.length 0) :: args) = .ok dx := hls
    unfold addStep
    simp only
    have hop : arrOp (· + ·) (List.replicate l.length 0) dx = .ok dx := by
      unfold arrOp
      rw [if_pos (by simp [hl]), ← hl, hzip]
    cases timer <;> (simp only [hls, hop, bind, Except.bind]; rfl)
  | dict cls kvs =>
    cases cls with
    | robust => exact absurd rfl (hz kvs)
    | plain =>
      obtain ⟨d, hd, F, hi⟩ := zerosDict_plain hp
      have hc : View.dict .plain (contents (zerosHeap kvs) d.items) = zeroView (.dict .plain kvs) := by
        rw [hi, npItems_contents]
        rfl
      have hf : flat (zerosHeap kvs) d.items = List.replicate (entries (.dict .plain kvs)).length 0 := by
        rw [← entries_content .plain, hc, zeroView_entries]
      have hl' : dx.length = (flat (zerosHeap kvs) d.items).length := by rw [hf]; simpa using hl
      have hls : ls (.dict .plain (contents (zerosHeap kvs) d.items) :: args) = .ok dx := by rw [hc]; exact hls
      have hiop := iop_flat (· + ·) F dx hl'
      refine ⟨.dict .plain (contents (zerosHeap kvs) (combineFlat (· + ·) (zerosHeap kvs) d.items dx)), ?_, ?_, ?_⟩
      · unfold addStep
        simp only
        rw [hd]
        cases timer <;> (simp only [hls, hiop, bind, Except.bind]; rfl)
      · have := combineFlat_form .plain (· + ·) (zerosHeap kvs) (zerosHeap kvs) d.items dx hl'
        rw [hc] at this
        exact SameForm.trans (zeroView_form _) this
      · rw [entries_content, combineFlat_flat _ _ _ _ _ hl', hf, ← hl, hzip]

end Verif.Lemmas.LSq
