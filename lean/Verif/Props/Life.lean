import Verif.Lemmas.Life

/-!
# C71: memory management of the compiled objects

A Python program is a list of operations (`Op`). `C71_safe`: no program makes the compiled code give back a block twice, give it
back in the wrong way, or touch a block that is gone; and the live blocks are exactly the fields of live objects, the data of
arrays that have not been dropped, and the field `x0` of every n-dimensional object that was destroyed. The last part is a
leak (`C71_leak_fails`); without n-dimensional objects there is none (`C71_no_leak_partial`).
-/

namespace Verif.Props

open Verif.Model.Life

/-- `p` is a field of an object that has not been destroyed, or the data of an array that has not been dropped. -/
def InUse (w : World) (p : ℕ) : Prop :=
  (∃ i o ref, w.objs i = some ⟨o, ref, true⟩ ∧ p ∈ o.fields) ∨ ∃ r, w.res r = some (.owns p)

/-- `p` is the field `x0` of an n-dimensional object that has been destroyed. -/
def LostX0 (w : World) (p : ℕ) : Prop := ∃ i o ref, w.objs i = some ⟨.multi o, ref, false⟩ ∧ p = o.x0

/-- The blocks that belong to object `i` or array `r`. -/
def Own (w : World) : ℕ ⊕ ℕ → ℕ → Kind → Prop
  | .inl i, p, k => ∃ e, w.objs i = some e ∧ k = .newArr ∧ p ∈ (if e.alive then e.obj.fields else e.obj.leak)
  | .inr r, p, k => w.res r = some (.owns p) ∧ k = .malloc

/-- The invariant. -/
structure Inv (w : World) (owner : ℕ → Option (ℕ ⊕ ℕ)) : Prop where
  good : Good w.heap
  own : ∀ s p k, Own w s p k → owner p = some s ∧ w.heap.live p = some k
  live : ∀ p k, w.heap.live p = some k → ∃ s, Own w s p k
  nodup : ∀ i e, w.objs i = some e → e.obj.fields.Nodup
  view : ∀ r i, w.res r = some (.view i) → ∃ o ref, w.objs i = some ⟨.multi o, ref, true⟩
  objs : ∀ i, w.nObj ≤ i → w.objs i = none
  res : ∀ r, w.nRes ≤ r → w.res r = none

theorem Inv.below {w : World} {owner} (h : Inv w owner) {s p k} (ho : Own w s p k) : p < w.heap.next := by
  by_contra hp
  have := h.good p (by omega)
  rw [(h.own s p k ho).2] at this
  cases this

theorem inv_start : ∃ owner, Inv World.start owner := by
  refine ⟨fun _ => none, ⟨fun _ _ => rfl, ?_, ?_, ?_, ?_, fun _ _ => rfl, fun _ _ => rfl⟩⟩
  · rintro (i | r) p k h
    · obtain ⟨e, he, -⟩ := h; cases he
    · cases h.1
  · intro p k h; cases h
  · intro i e h; cases h
  · intro r i h; cases h

theorem inv_same {w : World} {owner} (h : Inv w owner) {h' : Heap} (s : Same w.heap h') : Inv { w with heap := h' } owner where
  good := s.1
  own := fun t p k ho => by
    have := h.own t p k ho
    exact ⟨this.1, by rw [show ({ w with heap := h' } : World).heap.live = w.heap.live from s.2.1]; exact this.2⟩
  live := fun p k hl => by
    rw [show ({ w with heap := h' } : World).heap.live = w.heap.live from s.2.1] at hl
    exact h.live p k hl
  nodup := h.nodup
  view := h.view
  objs := h.objs
  res := h.res

theorem inv_addObj {w : World} {owner} (h : Inv w owner) {h' : Heap} {o : Obj} (c : Constructs w.heap o.fields h') :
    ∃ owner', Inv (w.addObj h' o) owner' := by
  obtain ⟨g, hn, hge, hl⟩ := c
  have hne : ∀ {s p k}, Own w s p k → p ∉ o.fields := fun ho hp => by
    have := h.below ho; have := hge _ hp; omega
  have hold : ∀ i, i ≠ w.nObj → (w.addObj h' o).objs i = w.objs i := fun i hi => by
    simp [World.addObj, Function.update_of_ne hi]
  have hnew : (w.addObj h' o).objs w.nObj = some ⟨o, true, true⟩ := by simp [World.addObj]
  refine ⟨fun p => if p ∈ o.fields then some (.inl w.nObj) else owner p, ⟨g, ?_, ?_, ?_, ?_, ?_, h.res⟩⟩
  · rintro (i | r) p k ho
    · obtain ⟨e, he, hk, hp⟩ := ho
      by_cases hi : i = w.nObj
      · subst hi
        rw [hnew] at he
        cases he
        have hp : p ∈ o.fields := hp
        refine ⟨by simp [hp], ?_⟩
        show h'.live p = _
        rw [hl, if_pos hp, hk]
      · rw [hold i hi] at he
        have ho : Own w (.inl i) p k := ⟨e, he, hk, hp⟩
        refine ⟨by simp [hne ho, (h.own _ _ _ ho).1], ?_⟩
        show h'.live p = _
        rw [hl, if_neg (hne ho)]
        exact (h.own _ _ _ ho).2
    · have ho : Own w (.inr r) p k := ho
      refine ⟨by simp [hne ho, (h.own _ _ _ ho).1], ?_⟩
      show h'.live p = _
      rw [hl, if_neg (hne ho)]
      exact (h.own _ _ _ ho).2
  · intro p k hp
    have hp : h'.live p = some k := hp
    rw [hl] at hp
    split_ifs at hp with hm
    · cases hp
      exact ⟨.inl w.nObj, _, hnew, rfl, hm⟩
    · obtain ⟨s, hs⟩ := h.live p k hp
      refine ⟨s, ?_⟩
      cases s with
      | inl i =>
        obtain ⟨e, he, hk, hpe⟩ := hs
        have : i ≠ w.nObj := fun hi => by rw [h.objs i (by omega)] at he; cases he
        exact ⟨e, by rw [hold i this]; exact he, hk, hpe⟩
      | inr r => exact hs
  · intro i e he
    by_cases hi : i = w.nObj
    · subst hi
      rw [hnew] at he
      cases he
      exact hn
    · rw [hold i hi] at he
      exact h.nodup i e he
  · intro r i hr
    obtain ⟨o', ref, ho'⟩ := h.view r i hr
    have : i ≠ w.nObj := fun hi => by rw [h.objs i (by omega)] at ho'; cases ho'
    exact ⟨o', ref, by rw [hold i this]; exact ho'⟩
  · intro i hi
    have hi : w.nObj + 1 ≤ i := hi
    rw [hold i (by omega)]
    exact h.objs i (by omega)

theorem inv_addRes {w : World} {owner} (h : Inv w owner) {h' : Heap} {F : ℕ} (c : Returns w.heap F h') :
    ∃ owner', Inv (w.addRes h' (.owns F)) owner' := by
  obtain ⟨g, hF, -, hl⟩ := c
  have hne : ∀ {s p k}, Own w s p k → p ≠ F := fun ho hp => by
    have := h.below ho; omega
  have hold : ∀ r, r ≠ w.nRes → (w.addRes h' (.owns F)).res r = w.res r := fun i hi => by
    simp [World.addRes, Function.update_of_ne hi]
  have hnew : (w.addRes h' (.owns F)).res w.nRes = some (.owns F) := by simp [World.addRes]
  refine ⟨Function.update owner F (some (.inr w.nRes)), ⟨g, ?_, ?_, h.nodup, ?_, h.objs, ?_⟩⟩
  · rintro (i | r) p k ho
    · have ho : Own w (.inl i) p k := ho
      refine ⟨by rw [Function.update_of_ne (hne ho)]; exact (h.own _ _ _ ho).1, ?_⟩
      show h'.live p = _
      rw [hl, Function.update_of_ne (hne ho)]
      exact (h.own _ _ _ ho).2
    · by_cases hr : r = w.nRes
      · subst hr
        obtain ⟨e, rfl⟩ := ho
        rw [hnew] at e
        cases e
        refine ⟨by simp, ?_⟩
        show h'.live F = _
        rw [hl, Function.update_self]
      · obtain ⟨e, rfl⟩ := ho
        rw [hold r hr] at e
        have ho : Own w (.inr r) p .malloc := ⟨e, rfl⟩
        refine ⟨by rw [Function.update_of_ne (hne ho)]; exact (h.own _ _ _ ho).1, ?_⟩
        show h'.live p = _
        rw [hl, Function.update_of_ne (hne ho)]
        exact (h.own _ _ _ ho).2
  · intro p k hp
    have hp : h'.live p = some k := hp
    rw [hl] at hp
    by_cases hpF : p = F
    · subst hpF
      rw [Function.update_self] at hp
      cases hp
      exact ⟨.inr w.nRes, hnew, rfl⟩
    · rw [Function.update_of_ne hpF] at hp
      obtain ⟨s, hs⟩ := h.live p k hp
      refine ⟨s, ?_⟩
      cases s with
      | inl i => exact hs
      | inr r =>
        obtain ⟨e, hk⟩ := hs
        have : r ≠ w.nRes := fun hi => by rw [h.res r (by omega)] at e; cases e
        exact ⟨by rw [hold r this]; exact e, hk⟩
  · intro r i hr
    by_cases hi : r = w.nRes
    · subst hi
      rw [hnew] at hr
      cases hr
    · rw [hold r hi] at hr
      exact h.view r i hr
  · intro i hi
    have hi : w.nRes + 1 ≤ i := hi
    rw [hold i (by omega)]
    exact h.res i (by omega)

theorem inv_addView {w : World} {owner} (h : Inv w owner) {i : ℕ} {o : ObjN} {ref : Bool}
    (hi : w.objs i = some ⟨.multi o, ref, true⟩) : Inv (w.addRes w.heap (.view i)) owner := by
  have hold : ∀ r, r ≠ w.nRes → (w.addRes w.heap (.view i)).res r = w.res r := fun i hi => by
    simp [World.addRes, Function.update_of_ne hi]
  have hnew : (w.addRes w.heap (.view i)).res w.nRes = some (.view i) := by simp [World.addRes]
  refine ⟨h.good, ?_, ?_, h.nodup, ?_, h.objs, ?_⟩
  · rintro (j | r) p k ho
    · exact h.own (.inl j) p k ho
    · obtain ⟨e, rfl⟩ := ho
      by_cases hr : r = w.nRes
      · subst hr; rw [hnew] at e; cases e
      · rw [hold r hr] at e
        exact h.own (.inr r) p _ ⟨e, rfl⟩
  · intro p k hp
    obtain ⟨s, hs⟩ := h.live p k hp
    refine ⟨s, ?_⟩
    cases s with
    | inl i => exact hs
    | inr r =>
      obtain ⟨e, hk⟩ := hs
      have : r ≠ w.nRes := fun hi => by rw [h.res r (by omega)] at e; cases e
      exact ⟨by rw [hold r this]; exact e, hk⟩
  · intro r j hr
    by_cases hri : r = w.nRes
    · subst hri
      rw [hnew] at hr
      cases hr
      exact ⟨o, ref, hi⟩
    · rw [hold r hri] at hr
      exact h.view r j hr
  · intro r hr
    have hr : w.nRes + 1 ≤ r := hr
    rw [hold r (by omega)]
    exact h.res r (by omega)

/-- Dropping a view. -/
theorem inv_dropView {w : World} {owner} (h : Inv w owner) {r i : ℕ} (hr : w.res r = some (.view i)) :
    Inv { w with res := Function.update w.res r none } owner := by
  have hold : ∀ s, s ≠ r → Function.update w.res r none s = w.res s := fun s hs => Function.update_of_ne hs _ _
  refine ⟨h.good, ?_, ?_, h.nodup, ?_, h.objs, ?_⟩
  · rintro (j | s) p k ho
    · exact h.own (.inl j) p k ho
    · obtain ⟨e, rfl⟩ := ho
      have e : Function.update w.res r none s = some (.owns p) := e
      by_cases hs : s = r
      · subst hs; rw [Function.update_self] at e; cases e
      · rw [hold s hs] at e
        exact h.own (.inr s) p _ ⟨e, rfl⟩
  · intro p k hp
    obtain ⟨s, hs⟩ := h.live p k hp
    refine ⟨s, ?_⟩
    cases s with
    | inl i => exact hs
    | inr s =>
      obtain ⟨e, hk⟩ := hs
      have : s ≠ r := fun hi => by subst hi; rw [hr] at e; cases e
      exact ⟨by rw [← hold s this] at e; exact e, hk⟩
  · intro s j hs
    have hs : Function.update w.res r none s = some (.view j) := hs
    by_cases hsr : s = r
    · subst hsr; rw [Function.update_self] at hs; cases hs
    · rw [hold s hsr] at hs
      exact h.view s j hs
  · intro s hs
    show Function.update w.res r none s = none
    by_cases hsr : s = r
    · subst hsr; rw [Function.update_self]
    · rw [hold s hsr]; exact h.res s hs

/-- Dropping an array that owns its block. -/
theorem inv_dropOwned {w : World} {owner} (h : Inv w owner) {r p : ℕ} (hr : w.res r = some (.owns p)) :
    Inv { w with heap := ⟨w.heap.next, Function.update w.heap.live p none⟩, res := Function.update w.res r none } owner := by
  have hold : ∀ s, s ≠ r → Function.update w.res r none s = w.res s := fun s hs => Function.update_of_ne hs _ _
  have hp := h.own (.inr r) p .malloc ⟨hr, rfl⟩
  have hne : ∀ {s q k}, Own w s q k → s ≠ .inr r → q ≠ p := by
    rintro s q k ho hs rfl
    have := (h.own s q k ho).1
    rw [hp.1] at this
    exact hs (Option.some.inj this).symm
  refine ⟨h.good.giveBack p, ?_, ?_, h.nodup, ?_, h.objs, ?_⟩
  · rintro (j | s) q k ho
    · have ho : Own w (.inl j) q k := ho
      refine ⟨(h.own _ _ _ ho).1, ?_⟩
      show Function.update w.heap.live p none q = _
      rw [Function.update_of_ne (hne ho (by simp))]
      exact (h.own _ _ _ ho).2
    · obtain ⟨e, rfl⟩ := ho
      have e : Function.update w.res r none s = some (.owns q) := e
      by_cases hs : s = r
      · subst hs; rw [Function.update_self] at e; cases e
      · rw [hold s hs] at e
        have ho : Own w (.inr s) q .malloc := ⟨e, rfl⟩
        refine ⟨(h.own _ _ _ ho).1, ?_⟩
        show Function.update w.heap.live p none q = _
        rw [Function.update_of_ne (hne ho (by simpa using hs))]
        exact (h.own _ _ _ ho).2
  · intro q k hq
    have hq : Function.update w.heap.live p none q = some k := hq
    by_cases hqp : q = p
    · subst hqp; rw [Function.update_self] at hq; cases hq
    · rw [Function.update_of_ne hqp] at hq
      obtain ⟨s, hs⟩ := h.live q k hq
      refine ⟨s, ?_⟩
      cases s with
      | inl i => exact hs
      | inr s =>
        obtain ⟨e, hk⟩ := hs
        have : s ≠ r := fun hi => by
          subst hi; rw [hr] at e
          simp only [Option.some.injEq, Res.owns.injEq] at e
          exact hqp e.symm
        exact ⟨by rw [← hold s this] at e; exact e, hk⟩
  · intro s j hs
    have hs : Function.update w.res r none s = some (.view j) := hs
    by_cases hsr : s = r
    · subst hsr; rw [Function.update_self] at hs; cases hs
    · rw [hold s hsr] at hs
      exact h.view s j hs
  · intro s hs
    show Function.update w.res r none s = none
    by_cases hsr : s = r
    · subst hsr; rw [Function.update_self]
    · rw [hold s hsr]; exact h.res s hs

/-- Forgetting the program's reference to an object. -/
theorem inv_unref {w : World} {owner} (h : Inv w owner) {i : ℕ} {o : Obj} {ref : Bool} (hi : w.objs i = some ⟨o, ref, true⟩) :
    Inv { w with objs := Function.update w.objs i (some ⟨o, false, true⟩) } owner := by
  have hold : ∀ j, j ≠ i → Function.update w.objs i (some ⟨o, false, true⟩) j = w.objs j := fun j hj => Function.update_of_ne hj _ _
  refine ⟨h.good, ?_, ?_, ?_, ?_, ?_, h.res⟩
  · rintro (j | r) p k ho
    · obtain ⟨e, he, hk, hp⟩ := ho
      have he : Function.update w.objs i (some ⟨o, false, true⟩) j = some e := he
      by_cases hj : j = i
      · subst hj
        rw [Function.update_self] at he
        cases he
        exact h.own (.inl j) p k ⟨_, hi, hk, hp⟩
      · rw [hold j hj] at he
        exact h.own (.inl j) p k ⟨e, he, hk, hp⟩
    · exact h.own (.inr r) p k ho
  · intro p k hp
    obtain ⟨s, hs⟩ := h.live p k hp
    refine ⟨s, ?_⟩
    cases s with
    | inl j =>
      obtain ⟨e, he, hk, hpe⟩ := hs
      by_cases hj : j = i
      · subst hj
        rw [hi] at he
        cases he
        exact ⟨⟨o, false, true⟩, Function.update_self _ _ _, hk, hpe⟩
      · exact ⟨e, by rw [← hold j hj] at he; exact he, hk, hpe⟩
    | inr r => exact hs
  · intro j e he
    have he : Function.update w.objs i (some ⟨o, false, true⟩) j = some e := he
    by_cases hj : j = i
    · subst hj
      rw [Function.update_self] at he
      cases he
      exact h.nodup j ⟨o, ref, true⟩ hi
    · rw [hold j hj] at he
      exact h.nodup j e he
  · intro r j hr
    obtain ⟨o', ref', ho'⟩ := h.view r j hr
    by_cases hj : j = i
    · subst hj
      rw [hi] at ho'
      cases ho'
      exact ⟨o', false, Function.update_self _ _ _⟩
    · exact ⟨o', ref', by rw [← hold j hj] at ho'; exact ho'⟩
  · intro j hj
    show Function.update w.objs i (some ⟨o, false, true⟩) j = none
    have : j ≠ i := fun e => by subst e; rw [h.objs j hj] at hi; cases hi
    rw [hold j this]
    exact h.objs j hj

/-- The destructor. -/
theorem inv_delete {w : World} {owner} (h : Inv w owner) {i : ℕ} {o : Obj} {ref : Bool} (hi : w.objs i = some ⟨o, ref, true⟩)
    (hv : ¬ ∃ r, w.res r = some (.view i)) {h' : Heap} (g : Good h')
    (hl : ∀ p, h'.live p = if p ∈ o.fields ∧ p ∉ o.leak then none else w.heap.live p) :
    Inv { w with heap := h', objs := Function.update w.objs i (some ⟨o, false, false⟩) } owner := by
  have hold : ∀ j, j ≠ i → Function.update w.objs i (some ⟨o, false, false⟩) j = w.objs j := fun j hj => Function.update_of_ne hj _ _
  have hleak : ∀ p ∈ o.leak, p ∈ o.fields := by
    cases o with
    | uni o => intro p hp; cases hp
    | multi o => intro p hp; rw [List.mem_singleton.mp hp]; exact o.x0_mem
  have hmine : ∀ p ∈ o.fields, Own w (.inl i) p .newArr := fun p hp => ⟨_, hi, rfl, hp⟩
  have hne : ∀ {s q k}, Own w s q k → s ≠ .inl i → q ∉ o.fields := by
    rintro s q k ho hs hq
    have h1 := (h.own s q k ho).1
    rw [(h.own _ _ _ (hmine q hq)).1] at h1
    exact hs (Option.some.inj h1).symm
  refine ⟨g, ?_, ?_, ?_, ?_, ?_, h.res⟩
  · rintro (j | r) p k ho
    · obtain ⟨e, he, hk, hp⟩ := ho
      have he : Function.update w.objs i (some ⟨o, false, false⟩) j = some e := he
      by_cases hj : j = i
      · subst hj
        rw [Function.update_self] at he
        cases he
        have hp : p ∈ o.leak := hp
        have := h.own _ _ _ (hmine p (hleak p hp))
        refine ⟨this.1, ?_⟩
        show h'.live p = _
        rw [hl, if_neg (fun q => q.2 hp), hk]
        exact this.2
      · rw [hold j hj] at he
        have ho : Own w (.inl j) p k := ⟨e, he, hk, hp⟩
        refine ⟨(h.own _ _ _ ho).1, ?_⟩
        show h'.live p = _
        rw [hl, if_neg (fun q => hne ho (by simpa using hj) q.1)]
        exact (h.own _ _ _ ho).2
    · have ho : Own w (.inr r) p k := ho
      refine ⟨(h.own _ _ _ ho).1, ?_⟩
      show h'.live p = _
      rw [hl, if_neg (fun q => hne ho (by simp) q.1)]
      exact (h.own _ _ _ ho).2
  · intro p k hp
    have hp : h'.live p = some k := hp
    rw [hl] at hp
    split_ifs at hp with hm
    obtain ⟨s, hs⟩ := h.live p k hp
    refine ⟨s, ?_⟩
    cases s with
    | inl j =>
      obtain ⟨e, he, hk, hpe⟩ := hs
      by_cases hj : j = i
      · subst hj
        rw [hi] at he
        cases he
        have hpe : p ∈ o.fields := hpe
        refine ⟨⟨o, false, false⟩, Function.update_self _ _ _, hk, ?_⟩
        show p ∈ o.leak
        by_contra hc
        exact hm ⟨hpe, hc⟩
      · exact ⟨e, by rw [← hold j hj] at he; exact he, hk, hpe⟩
    | inr r => exact hs
  · intro j e he
    have he : Function.update w.objs i (some ⟨o, false, false⟩) j = some e := he
    by_cases hj : j = i
    · subst hj
      rw [Function.update_self] at he
      cases he
      exact h.nodup j ⟨o, ref, true⟩ hi
    · rw [hold j hj] at he
      exact h.nodup j e he
  · intro r j hr
    have hr : w.res r = some (.view j) := hr
    obtain ⟨o', ref', ho'⟩ := h.view r j hr
    have hj : j ≠ i := fun e => by subst e; exact hv ⟨r, hr⟩
    exact ⟨o', ref', by rw [← hold j hj] at ho'; exact ho'⟩
  · intro j hj
    show Function.update w.objs i (some ⟨o, false, false⟩) j = none
    have : j ≠ i := fun e => by subst e; rw [h.objs j hj] at hi; cases hi
    rw [hold j this]
    exact h.objs j hj

theorem inv_fields {w : World} {owner} (h : Inv w owner) {i : ℕ} {o : Obj} {ref : Bool} (hi : w.objs i = some ⟨o, ref, true⟩) :
    ∀ p ∈ o.fields, w.heap.live p = some .newArr := fun p hp =>
  (h.own (.inl i) p .newArr ⟨_, hi, rfl, hp⟩).2

theorem inv_collect {w : World} {owner} (h : Inv w owner) (i : ℕ) : ∃ w', w.collect i = .ok w' ∧ Inv w' owner := by
  unfold World.collect
  cases hi : w.objs i with
  | none => exact ⟨w, rfl, h⟩
  | some e =>
    obtain ⟨o, ref, alive⟩ := e
    cases ref
    · cases alive
      · exact ⟨w, rfl, h⟩
      · by_cases hv : ∃ r, w.res r = some (.view i)
        · exact ⟨w, by simp only [if_pos hv], h⟩
        · obtain ⟨_, h', e, g, hl⟩ := o.delete_does h.good (h.nodup i _ hi) (inv_fields h hi)
          exact ⟨_, by simp only [if_neg hv, e], inv_delete h hi hv g hl⟩
    · exact ⟨w, rfl, h⟩

theorem inv_onObj {w : World} {owner} (h : Inv w owner) (i : ℕ) (f : Obj → Except MemError World)
    (hf : ∀ o, w.objs i = some ⟨o, true, true⟩ → ∃ w' owner', f o = .ok w' ∧ Inv w' owner') :
    ∃ w' owner', w.onObj i f = .ok w' ∧ Inv w' owner' := by
  unfold World.onObj World.get
  cases hi : w.objs i with
  | none => exact ⟨w, owner, rfl, h⟩
  | some e =>
    obtain ⟨o, ref, alive⟩ := e
    cases ref
    · exact ⟨w, owner, rfl, h⟩
    · cases alive
      · exact ⟨w, owner, rfl, h⟩
      · exact hf o hi

theorem inv_returning {w : World} {owner} (h : Inv w owner) {p : HeapM ℕ} (hp : Does p w.heap (Returns w.heap)) :
    ∃ w' owner', w.returning p = .ok w' ∧ Inv w' owner' := by
  obtain ⟨F, h', e, r⟩ := hp
  obtain ⟨owner', hi⟩ := inv_addRes h r
  exact ⟨_, owner', by simp only [World.returning, e], hi⟩

theorem inv_running {w : World} {owner} (h : Inv w owner) {p : HeapM Unit} (hp : Does p w.heap fun _ h' => Same w.heap h') :
    ∃ w' owner', w.running p = .ok w' ∧ Inv w' owner' := by
  obtain ⟨F, h', e, r⟩ := hp
  exact ⟨_, owner, by simp only [World.running, e], inv_same h r⟩

theorem inv_step {w : World} {owner} (h : Inv w owner) (op : Op)
    (hx : ∀ i d full, op = .callXla i d full → ∃ o ref, w.objs i = some ⟨o, ref, true⟩) :
    ∃ w' owner', w.step op = .ok w' ∧ Inv w' owner' := by
  cases op with
  | newUni cls m =>
    obtain ⟨o, h', e, c⟩ := Obj1.new_does cls m h.good
    obtain ⟨owner', hi⟩ := inv_addObj h (o := .uni o) c
    exact ⟨_, owner', by simp only [World.step, e], hi⟩
  | newMulti cls m dim numC =>
    obtain ⟨o, h', e, c⟩ := ObjN.new_does cls m dim numC h.good
    obtain ⟨owner', hi⟩ := inv_addObj h (o := .multi o) c
    exact ⟨_, owner', by simp only [World.step, e], hi⟩
  | callH i d full =>
    exact inv_onObj h i _ fun o ho => inv_returning h (o.H_does d full h.good fun p hp => ⟨_, inv_fields h ho p hp⟩)
  | callXla i d full =>
    obtain ⟨o, ref, ho⟩ := hx i d full rfl
    obtain ⟨w', owner', e, hi⟩ := inv_running h (o.xla_does d full h.good fun p hp => ⟨_, inv_fields h ho p hp⟩)
    exact ⟨w', owner', by simp only [World.step, World.xlaWrapper, ho, e], hi⟩
  | getW i =>
    refine inv_onObj h i _ fun o ho => ?_
    cases hw : o.wBlock with
    | none => exact ⟨w, owner, rfl, h⟩
    | some p => exact inv_returning h (copyField_does p h.good ⟨_, inv_fields h ho p (Obj.wBlock_mem hw)⟩)
  | getB i =>
    refine inv_onObj h i _ fun o ho => ?_
    cases hw : o.bBlock with
    | none => exact ⟨w, owner, rfl, h⟩
    | some p => exact inv_returning h (copyField_does p h.good ⟨_, inv_fields h ho p (Obj.bBlock_mem hw)⟩)
  | setW i =>
    refine inv_onObj h i _ fun o ho => ?_
    cases hw : o.wBlock with
    | none => exact ⟨w, owner, rfl, h⟩
    | some p => exact inv_running h (.use ⟨_, inv_fields h ho p (Obj.wBlock_mem hw)⟩ (.refl h.good))
  | setB i =>
    refine inv_onObj h i _ fun o ho => ?_
    cases hw : o.bBlock with
    | none => exact ⟨w, owner, rfl, h⟩
    | some p => exact inv_running h (.use ⟨_, inv_fields h ho p (Obj.bBlock_mem hw)⟩ (.refl h.good))
  | getC i =>
    refine inv_onObj h i _ fun o ho => ?_
    cases o with
    | uni o => exact ⟨w, owner, rfl, h⟩
    | multi o => exact ⟨_, owner, rfl, inv_addView h ho⟩
  | useArr r =>
    simp only [World.step]
    cases hr : w.res r with
    | none => exact ⟨w, owner, rfl, h⟩
    | some x =>
      cases x with
      | owns p => exact inv_running h (.use ⟨_, (h.own (.inr r) p .malloc ⟨hr, rfl⟩).2⟩ (.refl h.good))
      | view i =>
        obtain ⟨o, ref, ho⟩ := h.view r i hr
        simp only [World.readRes, ho]
        exact inv_running h (.use ⟨_, inv_fields h ho o.c o.c_mem⟩ (.refl h.good))
  | dropArr r =>
    simp only [World.step]
    cases hr : w.res r with
    | none => exact ⟨w, owner, rfl, h⟩
    | some x =>
      cases x with
      | owns p =>
        have hp := (h.own (.inr r) p .malloc ⟨hr, rfl⟩).2
        exact ⟨_, owner, by simp only [World.dropRes, giveBack, hp, if_true], inv_dropOwned h hr⟩
      | view i =>
        obtain ⟨w', e, hi⟩ := inv_collect (inv_dropView h hr) i
        exact ⟨w', owner, e, hi⟩
  | dropObj i =>
    refine inv_onObj h i _ fun o ho => ?_
    obtain ⟨w', e, hi⟩ := inv_collect (inv_unref h ho) i
    exact ⟨w', owner, e, hi⟩

/-- A program runs to its end, or up to the first call of a compiled computation whose object is gone. -/
theorem inv_run (ops : List Op) : ∀ {w : World} {owner}, Inv w owner →
    (∃ w' owner', w.run ops = .ok w' ∧ Inv w' owner') ∨
    ∃ pre i d full post w', ops = pre ++ .callXla i d full :: post ∧ w.run pre = .ok w' ∧
      (¬ ∃ o ref, w'.objs i = some ⟨o, ref, true⟩) ∧ w.run ops = .error .useAfterFree := by
  induction ops with
  | nil => intro w owner h; exact Or.inl ⟨w, owner, rfl, h⟩
  | cons op ops ih =>
    intro w owner h
    by_cases hx : ∀ i d full, op = .callXla i d full → ∃ o ref, w.objs i = some ⟨o, ref, true⟩
    · obtain ⟨w1, o1, e1, h1⟩ := inv_step h op hx
      rcases ih h1 with ⟨w2, o2, e2, h2⟩ | ⟨pre, i, d, full, post, w2, rfl, e2, hn, e3⟩
      · exact Or.inl ⟨w2, o2, by simp only [World.run, e1, e2], h2⟩
      · exact Or.inr ⟨op :: pre, i, d, full, post, w2, rfl, by simp only [World.run, e1, e2], hn,
          by simp only [World.run, e1, e3]⟩
    · push Not at hx
      obtain ⟨i, d, full, rfl, hi⟩ := hx
      refine Or.inr ⟨[], i, d, full, ops, w, rfl, rfl, fun ⟨o, ref, e⟩ => hi o ref e, ?_⟩
      have : w.xlaWrapper i d full = .error .useAfterFree := by
        unfold World.xlaWrapper
        cases he : w.objs i with
        | none => rfl
        | some e =>
          obtain ⟨o, ref, alive⟩ := e
          cases alive
          · rfl
          · exact absurd he (hi o ref)
      simp only [World.run, World.step, this]

theorem inv_blocks {w : World} {owner} (h : Inv w owner) (p : ℕ) :
    (∃ k, w.heap.live p = some k) ↔ InUse w p ∨ LostX0 w p := by
  constructor
  · rintro ⟨k, hk⟩
    obtain ⟨s, hs⟩ := h.live p k hk
    cases s with
    | inl i =>
      obtain ⟨⟨o, ref, alive⟩, he, -, hp⟩ := hs
      cases alive
      · cases o with
        | uni o => cases hp
        | multi o => exact Or.inr ⟨i, o, ref, he, List.mem_singleton.mp hp⟩
      · exact Or.inl (Or.inl ⟨i, o, ref, he, hp⟩)
    | inr r => exact Or.inl (Or.inr ⟨r, hs.1⟩)
  · rintro ((⟨i, o, ref, he, hp⟩ | ⟨r, hr⟩) | ⟨i, o, ref, he, rfl⟩)
    · exact ⟨_, (h.own (.inl i) p .newArr ⟨_, he, rfl, hp⟩).2⟩
    · exact ⟨_, (h.own (.inr r) p .malloc ⟨hr, rfl⟩).2⟩
    · exact ⟨_, (h.own (.inl i) o.x0 .newArr ⟨_, he, rfl, by simp [Obj.leak]⟩).2⟩

/-- **C71**: every program runs without an error of memory management, unless it runs a compiled computation whose object has
been destroyed; and afterwards the live blocks are exactly the fields of live objects, the data of the arrays not yet dropped, and
the fields `x0` of destroyed n-dimensional objects. -/
theorem C71_safe_partial (ops : List Op) :
    (∃ w, World.start.run ops = .ok w ∧ ∀ p, (∃ k, w.heap.live p = some k) ↔ InUse w p ∨ LostX0 w p) ∨
    ∃ pre i d full post w, ops = pre ++ .callXla i d full :: post ∧ World.start.run pre = .ok w ∧
      ¬ ∃ o ref, w.objs i = some ⟨o, ref, true⟩ := by
  obtain ⟨o, hs⟩ := inv_start
  rcases inv_run ops hs with ⟨w, owner, e, h⟩ | ⟨pre, i, d, full, post, w, e, e1, hn, -⟩
  · exact Or.inl ⟨w, e, inv_blocks h⟩
  · exact Or.inr ⟨pre, i, d, full, post, w, e, e1, hn⟩

/-- A view of `c` outlives the program's reference to its object: reading it is safe. -/
example : ∃ w, World.start.run [.newMulti .swish 5 2 3, .callH 0 [1, 2] false, .getW 0, .getC 0, .dropObj 0, .useArr 2, .dropArr 2,
    .useArr 0, .dropArr 0] = .ok w ∧ ∀ p, (∃ k, w.heap.live p = some k) ↔ InUse w p ∨ LostX0 w p := by
  refine (C71_safe_partial _).resolve_right ?_
  rintro ⟨pre, i, d, full, post, w, e, -⟩
  have : Op.callXla i d full ∈ pre ++ Op.callXla i d full :: post := by simp
  rw [← e] at this
  simp at this

/-! ## Reachability -/

/-- Every object that has not been destroyed is referred to by the program or by an array. -/
def Reach (w : World) : Prop := ∀ i o, w.objs i = some ⟨o, false, true⟩ → ∃ r, w.res r = some (.view i)

/-- What an operation can do to the objects. `uni` says that it creates no n-dimensional object. -/
inductive Change (w w' : World) (multi : Prop) : Prop
  | none (objs : w'.objs = w.objs) (views : ∀ r i, w.res r = some (.view i) → w'.res r = some (.view i))
  | new (o : Obj) (objs : w'.objs = Function.update w.objs w.nObj (some ⟨o, true, true⟩)) (res : w'.res = w.res)
      (kind : (∃ u, o = .uni u) ∨ multi)
  | collect (i : ℕ) (objs : ∀ j, j ≠ i → w'.objs j = w.objs j)
      (obj : ∀ e', w'.objs i = some e' → ∃ e, w.objs i = some e ∧ e'.obj = e.obj)
      (views : ∀ r j, j ≠ i → w.res r = some (.view j) → w'.res r = some (.view j))
      (reach : ∀ o, w'.objs i = some ⟨o, false, true⟩ → ∃ r, w'.res r = some (.view i))

theorem collect_change {w w' : World} {i : ℕ} (e : w.collect i = .ok w') :
    (∀ j, j ≠ i → w'.objs j = w.objs j) ∧ (∀ e', w'.objs i = some e' → ∃ e, w.objs i = some e ∧ e'.obj = e.obj) ∧
    w'.res = w.res ∧ ∀ o, w'.objs i = some ⟨o, false, true⟩ → ∃ r, w'.res r = some (.view i) := by
  unfold World.collect at e
  cases hi : w.objs i with
  | none =>
    simp only [hi] at e
    cases e
    exact ⟨fun _ _ => rfl, fun e' h => ⟨e', hi.symm.trans h, rfl⟩, rfl, fun o h => by rw [hi] at h; cases h⟩
  | some x =>
    obtain ⟨o, ref, alive⟩ := x
    cases ref
    · cases alive
      · simp only [hi] at e
        cases e
        exact ⟨fun _ _ => rfl, fun e' h => ⟨e', hi.symm.trans h, rfl⟩, rfl, fun o h => by rw [hi] at h; cases h⟩
      · simp only [hi] at e
        by_cases hv : ∃ r, w.res r = some (.view i)
        · rw [if_pos hv] at e
          cases e
          exact ⟨fun _ _ => rfl, fun e' h => ⟨e', hi.symm.trans h, rfl⟩, rfl, fun _ _ => hv⟩
        · rw [if_neg hv] at e
          cases hd : o.delete w.heap with
          | error x => rw [hd] at e; cases e
          | ok x =>
            obtain ⟨u, h'⟩ := x
            rw [hd] at e
            cases e
            refine ⟨fun j hj => Function.update_of_ne hj _ _, fun e' h => ⟨_, rfl, ?_⟩, rfl, fun o' h => ?_⟩
            · have h : Function.update w.objs i (some ⟨o, false, false⟩) i = some e' := h
              rw [Function.update_self] at h
              cases h
              rfl
            · have h : Function.update w.objs i (some ⟨o, false, false⟩) i = some ⟨o', false, true⟩ := h
              rw [Function.update_self] at h
              cases h
    · simp only [hi] at e
      cases e
      exact ⟨fun _ _ => rfl, fun e' h => ⟨e', hi.symm.trans h, rfl⟩, rfl, fun o h => by rw [hi] at h; cases h⟩

theorem returning_change {w w' : World} {p : HeapM ℕ} {P : Prop} {owner} (h : Inv w owner) (e : w.returning p = .ok w') :
    Change w w' P := by
  unfold World.returning at e
  cases hp : p w.heap with
  | error x => rw [hp] at e; cases e
  | ok x =>
    obtain ⟨F, h'⟩ := x
    rw [hp] at e
    cases e
    refine .none rfl fun r i hr => ?_
    have : r ≠ w.nRes := fun hi => by rw [h.res r (by omega)] at hr; cases hr
    show Function.update w.res w.nRes _ r = _
    rw [Function.update_of_ne this]
    exact hr

theorem running_change {w w' : World} {p : HeapM Unit} {P : Prop} (e : w.running p = .ok w') : Change w w' P := by
  unfold World.running at e
  cases hp : p w.heap with
  | error x => rw [hp] at e; cases e
  | ok x =>
    rw [hp] at e
    cases e
    exact .none rfl fun _ _ hr => hr

theorem onObj_change {w w' : World} {i : ℕ} {f : Obj → Except MemError World} {P : Prop} (e : w.onObj i f = .ok w')
    (hf : ∀ o, w.objs i = some ⟨o, true, true⟩ → f o = .ok w' → Change w w' P) : Change w w' P := by
  unfold World.onObj World.get at e
  cases hi : w.objs i with
  | none => rw [hi] at e; cases e; exact .none rfl fun _ _ hr => hr
  | some x =>
    obtain ⟨o, ref, alive⟩ := x
    rw [hi] at e
    cases ref
    · cases e; exact .none rfl fun _ _ hr => hr
    · cases alive
      · cases e; exact .none rfl fun _ _ hr => hr
      · exact hf o hi e

theorem step_change {w w' : World} {owner} (h : Inv w owner) (op : Op) (e : w.step op = .ok w') :
    Change w w' (∃ cls m dim numC, op = .newMulti cls m dim numC) := by
  cases op with
  | newUni cls m =>
    obtain ⟨o, h', e1, -⟩ := Obj1.new_does cls m h.good
    simp only [World.step, e1] at e
    cases e
    exact .new (.uni o) rfl rfl (Or.inl ⟨o, rfl⟩)
  | newMulti cls m dim numC =>
    obtain ⟨o, h', e1, -⟩ := ObjN.new_does cls m dim numC h.good
    simp only [World.step, e1] at e
    cases e
    exact .new (.multi o) rfl rfl (Or.inr ⟨cls, m, dim, numC, rfl⟩)
  | callH i d full => exact onObj_change e fun o _ e => returning_change h e
  | callXla i d full =>
    have e : w.xlaWrapper i d full = .ok w' := e
    unfold World.xlaWrapper at e
    cases hi : w.objs i with
    | none => rw [hi] at e; cases e
    | some x =>
      obtain ⟨o, ref, alive⟩ := x
      rw [hi] at e
      cases alive
      · cases e
      · exact running_change e
  | getW i =>
    refine onObj_change e fun o _ e => ?_
    cases hw : o.wBlock with
    | none => rw [hw] at e; cases e; exact .none rfl fun _ _ hr => hr
    | some p => rw [hw] at e; exact returning_change h e
  | getB i =>
    refine onObj_change e fun o _ e => ?_
    cases hw : o.bBlock with
    | none => rw [hw] at e; cases e; exact .none rfl fun _ _ hr => hr
    | some p => rw [hw] at e; exact returning_change h e
  | setW i =>
    refine onObj_change e fun o _ e => ?_
    cases hw : o.wBlock with
    | none => rw [hw] at e; cases e; exact .none rfl fun _ _ hr => hr
    | some p => rw [hw] at e; exact running_change e
  | setB i =>
    refine onObj_change e fun o _ e => ?_
    cases hw : o.bBlock with
    | none => rw [hw] at e; cases e; exact .none rfl fun _ _ hr => hr
    | some p => rw [hw] at e; exact running_change e
  | getC i =>
    refine onObj_change e fun o _ e => ?_
    cases o with
    | uni o => cases e; exact .none rfl fun _ _ hr => hr
    | multi o =>
      cases e
      refine .none rfl fun r j hr => ?_
      have : r ≠ w.nRes := fun hi => by rw [h.res r (by omega)] at hr; cases hr
      show Function.update w.res w.nRes _ r = _
      rw [Function.update_of_ne this]
      exact hr
  | useArr r =>
    simp only [World.step] at e
    cases hr : w.res r with
    | none => rw [hr] at e; cases e; exact .none rfl fun _ _ hr => hr
    | some x =>
      rw [hr] at e
      cases x with
      | owns p => exact running_change e
      | view i =>
        obtain ⟨o, ref, ho⟩ := h.view r i hr
        simp only [World.readRes, ho] at e
        exact running_change e
  | dropArr r =>
    simp only [World.step] at e
    cases hr : w.res r with
    | none => rw [hr] at e; cases e; exact .none rfl fun _ _ hr => hr
    | some x =>
      rw [hr] at e
      cases x with
      | owns p =>
        have hp := (h.own (.inr r) p .malloc ⟨hr, rfl⟩).2
        simp only [World.dropRes, giveBack, hp, if_true] at e
        cases e
        refine .none rfl fun s i hs => ?_
        have : s ≠ r := fun hi => by subst hi; rw [hr] at hs; cases hs
        show Function.update w.res r none s = _
        rw [Function.update_of_ne this]
        exact hs
      | view i =>
        obtain ⟨h1, h2, h3, h4⟩ := collect_change e
        refine .collect i h1 h2 (fun s j hj hs => ?_) h4
        rw [h3]
        have : s ≠ r := fun hi => by
          subst hi; rw [hr] at hs
          simp only [Option.some.injEq, Res.view.injEq] at hs
          exact hj hs.symm
        show Function.update w.res r none s = _
        rw [Function.update_of_ne this]
        exact hs
  | dropObj i =>
    refine onObj_change e fun o ho e => ?_
    obtain ⟨h1, h2, h3, h4⟩ := collect_change e
    refine .collect i (fun j hj => ?_) (fun e' he => ?_) (fun s j hj hs => by rw [h3]; exact hs) h4
    · rw [h1 j hj]
      exact Function.update_of_ne hj _ _
    · obtain ⟨x, hx, hxe⟩ := h2 e' he
      have hx : Function.update w.objs i (some ⟨o, false, true⟩) i = some x := hx
      rw [Function.update_self] at hx
      cases hx
      exact ⟨_, ho, hxe⟩

theorem reach_step {w w' : World} {P : Prop} (h : Reach w) (c : Change w w' P) : Reach w' := by
  intro j o hj
  cases c with
  | none objs views =>
    rw [objs] at hj
    obtain ⟨r, hr⟩ := h j o hj
    exact ⟨r, views r j hr⟩
  | new o' objs res _ =>
    rw [objs] at hj
    by_cases hn : j = w.nObj
    · subst hn
      rw [Function.update_self] at hj
      cases hj
    · rw [Function.update_of_ne hn] at hj
      rw [res]
      exact h j o hj
  | collect i objs obj views reach =>
    by_cases hn : j = i
    · subst hn
      exact reach o hj
    · rw [objs j hn] at hj
      obtain ⟨r, hr⟩ := h j o hj
      exact ⟨r, views r j hn hr⟩

/-- There are only one-dimensional objects. -/
def OnlyUni (w : World) : Prop := ∀ i e, w.objs i = some e → ∃ u, e.obj = .uni u

theorem onlyUni_step {w w' : World} {P : Prop} (h : OnlyUni w) (hP : ¬ P) (c : Change w w' P) : OnlyUni w' := by
  intro j e hj
  cases c with
  | none objs views => rw [objs] at hj; exact h j e hj
  | new o' objs res kind =>
    rw [objs] at hj
    by_cases hn : j = w.nObj
    · subst hn
      rw [Function.update_self] at hj
      cases hj
      exact kind.resolve_right hP
    · rw [Function.update_of_ne hn] at hj
      exact h j e hj
  | collect i objs obj views reach =>
    by_cases hn : j = i
    · subst hn
      obtain ⟨x, hx, hxe⟩ := obj e hj
      rw [hxe]
      exact h j x hx
    · rw [objs j hn] at hj
      exact h j e hj

theorem run_invariants (ops : List Op) : ∀ {w w' : World} {owner}, Inv w owner → Reach w → w.run ops = .ok w' →
    (∃ owner', Inv w' owner') ∧ Reach w' ∧
    ((∀ cls m dim numC, Op.newMulti cls m dim numC ∉ ops) → OnlyUni w → OnlyUni w') := by
  induction ops with
  | nil =>
    intro w w' owner h hr e
    cases e
    exact ⟨⟨owner, h⟩, hr, fun _ h => h⟩
  | cons op ops ih =>
    intro w w' owner h hr e
    simp only [World.run] at e
    cases e1 : w.step op with
    | error x => rw [e1] at e; cases e
    | ok w1 =>
      rw [e1] at e
      have hx : ∀ i d full, op = .callXla i d full → ∃ o ref, w.objs i = some ⟨o, ref, true⟩ := by
        rintro i d full rfl
        have e1 : w.xlaWrapper i d full = .ok w1 := e1
        unfold World.xlaWrapper at e1
        cases hi : w.objs i with
        | none => rw [hi] at e1; cases e1
        | some x =>
          obtain ⟨o, ref, alive⟩ := x
          rw [hi] at e1
          cases alive
          · cases e1
          · exact ⟨o, ref, rfl⟩
      obtain ⟨w2, owner2, e2, h2⟩ := inv_step h op hx
      rw [e1] at e2
      cases e2
      have c := step_change h op e1
      obtain ⟨i1, i2, i3⟩ := ih h2 (reach_step hr c) e
      refine ⟨i1, i2, fun hm hu => i3 (fun cls m dim numC hin => hm cls m dim numC (List.mem_cons_of_mem _ hin))
        (onlyUni_step hu (fun ⟨cls, m, dim, numC, he⟩ => hm cls m dim numC (by rw [he]; exact List.mem_cons_self)) c)⟩

/-- **C71, no leak**: after a program that creates only one-dimensional objects and has given up all objects and all arrays, no
block is live. -/
theorem C71_no_leak_partial (ops : List Op) (hm : ∀ cls m dim numC, Op.newMulti cls m dim numC ∉ ops) (w : World)
    (e : World.start.run ops = .ok w) (ho : ∀ i x, w.objs i = some x → x.ref = false) (hr : ∀ r, w.res r = none) :
    ∀ p, w.heap.live p = none := by
  obtain ⟨owner, hs⟩ := inv_start
  obtain ⟨⟨owner', h⟩, hreach, hu⟩ := run_invariants ops hs (fun i o h => by cases h) e
  have hu := hu hm (fun i x h => by cases h)
  intro p
  cases hp : w.heap.live p with
  | none => rfl
  | some k =>
    exfalso
    rcases (inv_blocks h p).1 ⟨k, hp⟩ with (⟨i, o, ref, he, -⟩ | ⟨r, hr'⟩) | ⟨i, o, ref, he, -⟩
    · have := ho i _ he
      dsimp only at this
      subst this
      obtain ⟨r, hr'⟩ := hreach i o he
      rw [hr r] at hr'
      cases hr'
    · rw [hr r] at hr'
      cases hr'
    · obtain ⟨u, hu⟩ := hu i _ he
      cases hu

/-! ## The failures -/

theorem drop_step {w : World} {owner} (h : Inv w owner) {i : ℕ} {o : Obj} (hi : w.objs i = some ⟨o, true, true⟩)
    (hv : ¬ ∃ r, w.res r = some (.view i)) :
    ∃ w', w.step (.dropObj i) = .ok w' ∧ Inv w' owner ∧ w'.nObj = w.nObj ∧ w'.res = w.res ∧
      w'.objs i = some ⟨o, false, false⟩ ∧ ∀ j, j ≠ i → w'.objs j = w.objs j := by
  have h1 := inv_unref h hi
  have hi' : Function.update w.objs i (some ⟨o, false, true⟩) i = some ⟨o, false, true⟩ := Function.update_self _ _ _
  obtain ⟨_, h', e, g, hl⟩ := o.delete_does h1.good (h1.nodup i _ hi') (inv_fields h1 hi')
  refine ⟨_, ?_, inv_delete h1 hi' hv g hl, rfl, rfl, Function.update_self _ _ _, fun j hj => ?_⟩
  · simp only [World.step, World.onObj, World.get, hi, World.collect, hi', if_neg hv]
    rw [e]
  · show Function.update (Function.update w.objs i _) i _ j = _
    rw [Function.update_of_ne hj, Function.update_of_ne hj]

/-- **C71, the first failure**: the table of pointers is not updated when an object is destroyed, so that a computation compiled
with the object then reads memory that has been given back. -/
theorem C71_stale_fails (cls : Uni) (m d : ℕ) (full : Bool) :
    World.start.run [.newUni cls m, .dropObj 0, .callXla 0 [d] full] = .error .useAfterFree := by
  obtain ⟨owner, hs⟩ := inv_start
  obtain ⟨o, h', e, c⟩ := Obj1.new_does cls m hs.good
  obtain ⟨owner', h1⟩ := inv_addObj hs (o := .uni o) c
  have h0 : (World.start.addObj h' (.uni o)).objs 0 = some ⟨.uni o, true, true⟩ := by simp [World.addObj, World.start]
  obtain ⟨w', e2, -, -, -, h3, -⟩ := drop_step h1 h0 (by rintro ⟨r, hr⟩; cases hr)
  have e1 : World.start.step (.newUni cls m) = .ok (World.start.addObj h' (.uni o)) := by simp only [World.step, e]
  simp only [World.run, e1, e2]
  simp only [World.step, World.xlaWrapper, h3]

/-- The hypotheses of `C71_no_leak_partial` can be met: an object is created, used and destroyed. -/
example : ∃ w, World.start.run [.newUni .swish 5, .callXla 0 [3] false, .dropObj 0] = .ok w ∧
    (∀ i x, w.objs i = some x → x.ref = false) ∧ ∀ r, w.res r = none := by
  obtain ⟨owner, hs⟩ := inv_start
  obtain ⟨o, h', e, c⟩ := Obj1.new_does .swish 5 hs.good
  obtain ⟨owner', h1⟩ := inv_addObj hs (o := .uni o) c
  have h0 : (World.start.addObj h' (.uni o)).objs 0 = some ⟨.uni o, true, true⟩ := by simp [World.addObj, World.start]
  have e1 : World.start.step (.newUni .swish 5) = .ok (World.start.addObj h' (.uni o)) := by simp only [World.step, e]
  obtain ⟨u, h2, ex, sx⟩ := (Obj.uni o).xla_does [3] false h1.good fun p hp => ⟨_, inv_fields h1 h0 p hp⟩
  have e2 : (World.start.addObj h' (.uni o)).step (.callXla 0 [3] false) =
      .ok { World.start.addObj h' (.uni o) with heap := h2 } := by
    simp only [World.step, World.xlaWrapper, h0, World.running, ex]
  obtain ⟨w', e3, -, -, hr, h3, hj⟩ := drop_step (i := 0) (o := .uni o) (inv_same h1 sx) h0 (by rintro ⟨r, hr⟩; cases hr)
  refine ⟨w', by simp only [World.run, e1, e2, e3], fun i x hx => ?_, fun r => by rw [hr]; rfl⟩
  by_cases hi : i = 0
  · subst hi
    rw [h3] at hx
    cases hx
    rfl
  · rw [hj i hi] at hx
    have hx : Function.update (fun _ => none) 0 (some ⟨.uni o, true, true⟩) i = some x := hx
    rw [Function.update_of_ne hi] at hx
    cases hx

/-- Create and give up `n` n-dimensional objects, one after the other, starting with number `k`. -/
def createAndDrop (cls : Multi) (m dim numC : ℕ) : ℕ → ℕ → List Op
  | _, 0 => []
  | k, n + 1 => .newMulti cls m dim numC :: .dropObj k :: createAndDrop cls m dim numC (k + 1) n

/-- Only destroyed n-dimensional objects, no arrays. -/
def AllLost (w : World) : Prop :=
  (∀ r, w.res r = none) ∧ ∀ i, i < w.nObj → ∃ o, w.objs i = some ⟨.multi o, false, false⟩

theorem createAndDrop_run (cls : Multi) (m dim numC n : ℕ) : ∀ {w : World} {owner}, Inv w owner → AllLost w →
    ∃ w' owner', w.run (createAndDrop cls m dim numC w.nObj n) = .ok w' ∧ Inv w' owner' ∧ AllLost w' ∧ w'.nObj = w.nObj + n := by
  induction n with
  | zero => intro w owner h hl; exact ⟨w, owner, rfl, h, hl, rfl⟩
  | succ n ih =>
    intro w owner h hl
    obtain ⟨o, h', e, c⟩ := ObjN.new_does cls m dim numC h.good
    obtain ⟨owner1, h1⟩ := inv_addObj h (o := .multi o) c
    have h0 : (w.addObj h' (.multi o)).objs w.nObj = some ⟨.multi o, true, true⟩ := Function.update_self _ _ _
    have e1 : w.step (.newMulti cls m dim numC) = .ok (w.addObj h' (.multi o)) := by simp only [World.step, e]
    obtain ⟨w2, e2, h2, hn, hr, hi, hj⟩ := drop_step h1 h0 (by rintro ⟨r, hr⟩; rw [show (w.addObj h' (.multi o)).res r = none from hl.1 r] at hr; cases hr)
    have hn : w2.nObj = w.nObj + 1 := hn
    have hl2 : AllLost w2 := by
      refine ⟨fun r => by rw [hr]; exact hl.1 r, fun i hlt => ?_⟩
      by_cases hin : i = w.nObj
      · subst hin; exact ⟨o, hi⟩
      · rw [hj i hin]
        show ∃ o', Function.update w.objs w.nObj _ i = _
        rw [Function.update_of_ne hin]
        exact hl.2 i (by omega)
    obtain ⟨w3, owner3, e3, h3, hl3, hn3⟩ := ih h2 hl2
    refine ⟨w3, owner3, ?_, h3, hl3, by omega⟩
    rw [hn] at e3
    simp only [createAndDrop, World.run, e1, e2, e3]

/-- **C71, the second failure**: a program that creates and gives up `n` n-dimensional objects, one after the other, ends with `n`
live blocks, although it refers to no object and no array any more. -/
theorem C71_leak_fails (cls : Multi) (m dim numC n : ℕ) :
    ∃ w, World.start.run (createAndDrop cls m dim numC 0 n) = .ok w ∧ (∀ p, ¬ InUse w p) ∧
      ∃ f : ℕ → ℕ, (∀ i < n, ∃ k, w.heap.live (f i) = some k) ∧ ∀ i < n, ∀ j < n, f i = f j → i = j := by
  obtain ⟨owner, hs⟩ := inv_start
  obtain ⟨w, owner', e, h, ⟨hr, ho⟩, hn⟩ := createAndDrop_run cls m dim numC n hs ⟨fun _ => rfl, fun i hi => absurd hi (Nat.not_lt_zero i)⟩
  have hn : w.nObj = n := by rw [hn]; exact Nat.zero_add n
  have hc : ∀ i, ∃ p, i < n → Own w (.inl i) p .newArr := fun i => by
    by_cases hi : i < n
    · obtain ⟨o, h1⟩ := ho i (by omega)
      exact ⟨o.x0, fun _ => ⟨_, h1, rfl, by simp [Obj.leak]⟩⟩
    · exact ⟨0, fun h => absurd h hi⟩
  choose f hf using hc
  refine ⟨w, e, ?_, f, fun i hi => ⟨_, (h.own _ _ _ (hf i hi)).2⟩, fun i hi j hj hij => ?_⟩
  · rintro p (⟨i, o, ref, he, -⟩ | ⟨r, hr'⟩)
    · by_cases hi : i < w.nObj
      · obtain ⟨o', h1⟩ := ho i hi
        rw [he] at h1
        cases h1
      · rw [h.objs i (by omega)] at he
        cases he
    · rw [hr r] at hr'
      cases hr'
  · have h1 := (h.own _ _ _ (hf i hi)).1
    have h2 := (h.own _ _ _ (hf j hj)).1
    rw [hij, h2] at h1
    simpa using h1.symm

end Verif.Props
