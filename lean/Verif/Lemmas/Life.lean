import Verif.Model.Life
import Mathlib.Tactic.Common
import Mathlib.Data.List.Nodup

/-! # What the functions of Model/Life do to the heap -/

namespace Verif.Model.Life

/-- The program returns, in a state satisfying `Q`. -/
def Does {α : Type} (p : HeapM α) (h : Heap) (Q : α → Heap → Prop) : Prop := ∃ a h', p h = .ok (a, h') ∧ Q a h'

theorem Does.imp {α : Type} {p : HeapM α} {h : Heap} {Q R : α → Heap → Prop} (H : Does p h Q)
    (hQR : ∀ a h', Q a h' → R a h') : Does p h R := by
  obtain ⟨a, h', e, q⟩ := H
  exact ⟨a, h', e, hQR a h' q⟩

theorem Does.seq {α β : Type} {p : HeapM α} {q : α → HeapM β} {h : Heap} {Q : β → Heap → Prop}
    (H : Does p h fun a h' => Does (q a) h' Q) : Does (seq p q) h Q := by
  obtain ⟨a, h', e, b, h'', e', r⟩ := H
  exact ⟨b, h'', by simp only [Life.seq, e, e'], r⟩

theorem seq_assoc {α β γ : Type} (p : HeapM α) (q : α → HeapM β) (r : β → HeapM γ) :
    Life.seq (Life.seq p q) r = Life.seq p fun a => Life.seq (q a) r := by
  funext h
  simp only [Life.seq]
  cases p h <;> rfl

theorem Does.ret {α : Type} {a : α} {h : Heap} {Q : α → Heap → Prop} (H : Q a h) : Does (ret a) h Q := ⟨a, h, rfl, H⟩

theorem Does.obtain_ {k : Kind} {h : Heap} {Q : ℕ → Heap → Prop}
    (H : Q h.next ⟨h.next + 1, Function.update h.live h.next (some k)⟩) : Does (obtain_ k) h Q := ⟨_, _, rfl, H⟩

theorem Does.use {p : ℕ} {h : Heap} {Q : Unit → Heap → Prop} (hp : ∃ k, h.live p = some k) (H : Q () h) :
    Does (use p) h Q := by
  obtain ⟨k, hp⟩ := hp
  exact ⟨(), h, by simp only [Life.use, hp], H⟩

theorem Does.giveBack {k : Kind} {p : ℕ} {h : Heap} {Q : Unit → Heap → Prop} (hp : h.live p = some k)
    (H : Q () ⟨h.next, Function.update h.live p none⟩) : Does (giveBack k p) h Q := by
  exact ⟨(), _, by simp only [Life.giveBack, hp, if_true], H⟩

/-- Names that have not been handed out are not live. -/
def Good (h : Heap) : Prop := ∀ p, h.next ≤ p → h.live p = none

/-- The same blocks are live. -/
def Same (h h' : Heap) : Prop := Good h' ∧ h'.live = h.live ∧ h.next ≤ h'.next

theorem Same.refl {h : Heap} (g : Good h) : Same h h := ⟨g, rfl, Nat.le_refl _⟩

theorem Same.trans {h h' h'' : Heap} (a : Same h h') (b : Same h' h'') : Same h h'' :=
  ⟨b.1, b.2.1.trans a.2.1, Nat.le_trans a.2.2 b.2.2⟩

theorem Good.obtain_ {h : Heap} (g : Good h) (k : Kind) : Good ⟨h.next + 1, Function.update h.live h.next (some k)⟩ := by
  intro p hp
  have hp : h.next + 1 ≤ p := hp
  show Function.update h.live h.next (some k) p = none
  rw [Function.update_of_ne (by omega)]
  exact g p (by omega)

theorem Good.giveBack {h : Heap} (g : Good h) (p : ℕ) : Good ⟨h.next, Function.update h.live p none⟩ := by
  intro q hq
  show Function.update h.live p none q = none
  by_cases hpq : q = p
  · subst hpq; simp
  · rw [Function.update_of_ne hpq]; exact g q hq

/-- A block stays live when others are added. -/
theorem live_update {l : ℕ → Option Kind} {p q : ℕ} {k : Kind} (h : ∃ k, l p = some k) :
    ∃ k', Function.update l q (some k) p = some k' := by
  by_cases e : p = q
  · subst e; exact ⟨k, by simp⟩
  · rw [Function.update_of_ne e]; exact h

theorem live_self {l : ℕ → Option Kind} {q : ℕ} {k : Kind} : ∃ k', Function.update l q (some k) q = some k' := ⟨k, by simp⟩

theorem recurseDeriv_does (x F k : ℕ) : ∀ {h : Heap}, Good h → (∃ k, h.live x = some k) → (∃ k, h.live F = some k) →
    Does (recurseDeriv x F k) h fun _ h' => Same h h' := by
  induction k with
  | zero => intro h g _ _; exact .ret (.refl g)
  | succ k ih =>
    intro h g hx hF
    refine .seq (.obtain_ (.seq (.use (live_update hF) (.seq (.use live_self (.seq (.use (live_update hx)
      (.seq (.giveBack (by simp) ?_)))))))))
    have e : Function.update (Function.update h.live h.next (some Kind.newArr)) h.next none = h.live := by
      rw [Function.update_idem]
      funext p
      by_cases hp : p = h.next
      · subst hp; rw [Function.update_self, g _ (Nat.le_refl _)]
      · rw [Function.update_of_ne hp]
    rw [e]
    have g' : Good ⟨h.next + 1, h.live⟩ := fun p hp => g p (Nat.le_trans (Nat.le_succ _) hp)
    exact (ih g' hx hF).imp fun _ h' s => Same.trans ⟨g', rfl, Nat.le_succ _⟩ s

theorem polyHint_does (m d x dark : ℕ) {h : Heap} (g : Good h) (hx : ∃ k, h.live x = some k) (hd : ∃ k, h.live dark = some k) :
    Does (polyHint m d x dark) h fun _ h' => Same h h' := by
  unfold polyHint
  split_ifs
  · exact .seq (.use hx (.use hd (.refl g)))
  · exact .seq (.use hx (.seq (.use hd (recurseDeriv_does x dark d g hx hd))))

theorem fsHint_does (x dark : ℕ) {h : Heap} (g : Good h) (hx : ∃ k, h.live x = some k) (hd : ∃ k, h.live dark = some k) :
    Does (fsHint x dark) h fun _ h' => Same h h' := .seq (.use hx (.use hd (.refl g)))

theorem elmHint_does (w b x dark : ℕ) {h : Heap} (g : Good h) (hw : ∃ k, h.live w = some k) (hb : ∃ k, h.live b = some k)
    (hx : ∃ k, h.live x = some k) (hd : ∃ k, h.live dark = some k) :
    Does (elmHint w b x dark) h fun _ h' => Same h h' :=
  .seq (.use hw (.seq (.use hb (.seq (.use hx (.use hd (.refl g)))))))

/-- Two temporaries around a program that leaves the heap alone. -/
theorem two_temporaries {h : Heap} (g : Good h) (body : ℕ → ℕ → HeapM Unit)
    (hb : ∀ h₂ : Heap, Good h₂ → (∀ p, (∃ k, h.live p = some k) → ∃ k, h₂.live p = some k) →
      h₂.live h.next = some .newArr → h₂.live (h.next + 1) = some .newArr →
      Does (body h.next (h.next + 1)) h₂ fun _ h' => Same h₂ h') :
    Does (obtain_ .newArr >>>= fun s => obtain_ .newArr >>>= fun z => body s z ;; giveBack .newArr s ;; giveBack .newArr z) h
      fun _ h' => Same h h' := by
  refine .seq (.obtain_ (.seq (.obtain_ (.seq ?_))))
  have g2 := (g.obtain_ .newArr).obtain_ .newArr
  refine (hb _ g2 (fun p hp => live_update (live_update hp)) ?_ ?_).imp ?_
  · show Function.update (Function.update h.live h.next (some Kind.newArr)) (h.next + 1) (some Kind.newArr) h.next = _
    rw [Function.update_of_ne (by omega)]; simp
  · simp
  · rintro _ h' ⟨g', hl, hn⟩
    refine .seq (.giveBack ?_ (.giveBack ?_ ?_))
    · rw [hl]
      show Function.update (Function.update h.live h.next (some Kind.newArr)) (h.next + 1) (some Kind.newArr) h.next = _
      rw [Function.update_of_ne (by omega)]; simp
    · rw [hl]
      dsimp only
      rw [Function.update_of_ne (by omega)]; simp
    · have hn : h.next + 1 + 1 ≤ h'.next := hn
      refine ⟨(g'.giveBack _).giveBack _, ?_, by show h.next ≤ h'.next; omega⟩
      funext p
      simp only [hl]
      by_cases h1 : p = h.next + 1
      · subst h1; rw [Function.update_self, g _ (by omega)]
      · rw [Function.update_of_ne h1]
        by_cases h2 : p = h.next
        · subst h2; rw [Function.update_self, g _ (by omega)]
        · rw [Function.update_of_ne h2, Function.update_of_ne h1, Function.update_of_ne h2]

theorem swishHint_does (d w b x dark : ℕ) {h : Heap} (g : Good h) (hw : ∃ k, h.live w = some k) (hb : ∃ k, h.live b = some k)
    (hx : ∃ k, h.live x = some k) (hd : ∃ k, h.live dark = some k) :
    Does (swishHint d w b x dark) h fun _ h' => Same h h' := by
  refine two_temporaries g (fun sig zint => if d = 0 then elmHint w b x dark else
    use w ;; use b ;; use x ;; use zint ;; use sig ;; use dark) fun h₂ g₂ hsub h1 h2 => ?_
  split_ifs
  · exact elmHint_does w b x dark g₂ (hsub _ hw) (hsub _ hb) (hsub _ hx) (hsub _ hd)
  · exact .seq (.use (hsub _ hw) (.seq (.use (hsub _ hb) (.seq (.use (hsub _ hx) (.seq (.use ⟨_, h2⟩
      (.seq (.use ⟨_, h1⟩ (.use (hsub _ hd) (.refl g₂)))))))))))

/-- The blocks of a one-dimensional object. -/
def Obj1.fields (o : Obj1) : List ℕ := if o.cls.isElm then [o.nC, o.w, o.b] else [o.nC]

theorem Obj1.hint_does (o : Obj1) (d x dark : ℕ) {h : Heap} (g : Good h) (ho : ∀ p ∈ o.fields, ∃ k, h.live p = some k)
    (hx : ∃ k, h.live x = some k) (hd : ∃ k, h.live dark = some k) :
    Does (o.hint d x dark) h fun _ h' => Same h h' := by
  unfold Obj1.hint
  unfold Obj1.fields at ho
  cases hc : o.cls <;> simp only [hc, Uni.isElm] at ho ⊢
  · exact polyHint_does _ _ _ _ g hx hd
  · exact fsHint_does _ _ g hx hd
  · exact elmHint_does _ _ _ _ g (ho _ (by simp)) (ho _ (by simp)) hx hd
  · exact swishHint_does _ _ _ _ _ g (ho _ (by simp)) (ho _ (by simp)) hx hd

theorem Obj1.nC_mem (o : Obj1) : o.nC ∈ o.fields := by
  unfold Obj1.fields; split_ifs <;> simp

theorem Obj1.copyOut_does (o : Obj1) (full : Bool) (dark : ℕ) {h : Heap} (g : Good h)
    (ho : ∀ p ∈ o.fields, ∃ k, h.live p = some k) (hd : ∃ k, h.live dark = some k) :
    Does (o.copyOut full dark) h fun _ h' => Same h h' := by
  unfold Obj1.copyOut
  split_ifs
  · exact .use hd (.refl g)
  · exact .seq (.use (ho _ o.nC_mem) (.use hd (.refl g)))

/-- `xla` leaves the set of live blocks unchanged. -/
theorem Obj1.xla_does (o : Obj1) (d : ℕ) (full : Bool) {h : Heap} (g : Good h) (ho : ∀ p ∈ o.fields, ∃ k, h.live p = some k) :
    Does (o.xla d full) h fun _ h' => Same h h' := by
  have key := two_temporaries g (fun dark z => use z ;; o.hint d z dark ;; o.copyOut full dark) fun h₂ g₂ hsub h1 h2 =>
    .seq (.use ⟨_, h2⟩ (.seq ((o.hint_does d _ _ g₂ (fun p hp => hsub p (ho p hp)) ⟨_, h2⟩ ⟨_, h1⟩).imp fun _ h₃ s =>
      (o.copyOut_does full _ s.1 (fun p hp => by rw [s.2.1]; exact hsub p (ho p hp)) ⟨_, by rw [s.2.1]; exact h1⟩).imp
        fun _ h₄ s' => s.trans s')))
  simp only [seq_assoc] at key
  exact key

/-- The effect of a function that returns a new block. -/
def Returns (h : Heap) (F : ℕ) (h' : Heap) : Prop :=
  Good h' ∧ h.next ≤ F ∧ F < h'.next ∧ h'.live = Function.update h.live F (some .malloc)

/-- `H` adds exactly the returned block. -/
theorem Obj1.H_does (o : Obj1) (d : ℕ) (full : Bool) {h : Heap} (g : Good h) (ho : ∀ p ∈ o.fields, ∃ k, h.live p = some k) :
    Does (o.H d full) h (Returns h) := by
  unfold Obj1.H
  refine .seq (.obtain_ (.seq (.obtain_ (.seq (.use live_self (.seq (.obtain_ (.seq ?_))))))))
  have g3 := ((g.obtain_ .newArr).obtain_ .newArr).obtain_ .malloc
  have sub : ∀ p, (∃ k, h.live p = some k) → ∃ k, Function.update (Function.update (Function.update h.live h.next (some Kind.newArr))
      (h.next + 1) (some Kind.newArr)) (h.next + 1 + 1) (some Kind.malloc) p = some k :=
    fun p hp => live_update (live_update (live_update hp))
  refine (o.hint_does d _ _ g3 (fun p hp => sub p (ho p hp)) ?_ ?_).imp fun _ h₄ s4 => .seq ?_
  · exact live_update live_self
  · exact live_update (live_update live_self)
  refine (o.copyOut_does full _ s4.1 (fun p hp => by rw [s4.2.1]; exact sub p (ho p hp)) ?_).imp fun _ h₅ s5 => ?_
  · rw [s4.2.1]; exact live_update (live_update live_self)
  have s := s4.trans s5
  obtain ⟨g5, hl, hn⟩ := s
  have hn : h.next + 1 + 1 + 1 ≤ h₅.next := hn
  have hl : h₅.live = Function.update (Function.update (Function.update h.live h.next (some Kind.newArr))
      (h.next + 1) (some Kind.newArr)) (h.next + 1 + 1) (some Kind.malloc) := hl
  refine .seq (.use (by rw [hl]; exact live_self) (.seq (.giveBack ?_ (.seq (.giveBack ?_ (.ret ?_))))))
  · rw [hl]
    show Function.update _ (h.next + 1 + 1) _ h.next = _
    rw [Function.update_of_ne (by omega), Function.update_of_ne (by omega)]; simp
  · dsimp only
    rw [Function.update_of_ne (by omega), hl, Function.update_of_ne (by omega)]; simp
  · refine ⟨(g5.giveBack _).giveBack _, by show h.next ≤ h.next + 1 + 1; omega, by show h.next + 1 + 1 < h₅.next; omega, ?_⟩
    funext p
    simp only [hl]
    by_cases h1 : p = h.next + 1
    · subst h1
      rw [Function.update_self, Function.update_of_ne (by omega), g _ (by omega)]
    · rw [Function.update_of_ne h1]
      by_cases h2 : p = h.next
      · subst h2
        rw [Function.update_self, Function.update_of_ne (by omega), g _ (by omega)]
      · rw [Function.update_of_ne h2]
        by_cases h3 : p = h.next + 1 + 1
        · subst h3; rw [Function.update_self, Function.update_self]
        · rw [Function.update_of_ne h3, Function.update_of_ne h1, Function.update_of_ne h2, Function.update_of_ne h3]

/-- The getters add exactly the returned block. -/
theorem copyField_does (p : ℕ) {h : Heap} (g : Good h) (hp : ∃ k, h.live p = some k) : Does (copyField p) h (Returns h) := by
  refine .seq (.obtain_ (.seq (.use (live_update hp) (.seq (.use live_self (.ret ?_))))))
  exact ⟨g.obtain_ _, Nat.le_refl _, Nat.lt_succ_self _, rfl⟩

/-- The effect of a constructor: exactly the blocks of the new object are added. -/
def Constructs (h : Heap) (fields : List ℕ) (h' : Heap) : Prop :=
  Good h' ∧ fields.Nodup ∧ (∀ p ∈ fields, h.next ≤ p) ∧ ∀ p, h'.live p = if p ∈ fields then some .newArr else h.live p

theorem Obj1.new_does (cls : Uni) (m : ℕ) {h : Heap} (g : Good h) :
    Does (Obj1.new cls m) h fun o h' => Constructs h o.fields h' := by
  unfold Obj1.new
  refine .seq (.obtain_ (.seq (.use live_self ?_)))
  by_cases hc : cls.isElm = true
  · rw [if_pos hc]
    refine .seq (.obtain_ (.seq (.obtain_ (.seq (.use (live_update live_self) (.seq (.use live_self (.ret ?_))))))))
    refine ⟨((g.obtain_ _).obtain_ _).obtain_ _, ?_, ?_, fun p => ?_⟩
    · simp [Obj1.fields, hc]; omega
    · simp only [Obj1.fields, hc, if_true, List.mem_cons, List.not_mem_nil, or_false]
      rintro p (rfl | rfl | rfl) <;> omega
    · simp only [Obj1.fields, hc, if_true, List.mem_cons, List.not_mem_nil, or_false]
      by_cases h1 : p = h.next + 1 + 1
      · subst h1; simp
      · rw [Function.update_of_ne h1]
        by_cases h2 : p = h.next + 1
        · subst h2; simp
        · rw [Function.update_of_ne h2]
          by_cases h3 : p = h.next
          · subst h3; simp
          · rw [Function.update_of_ne h3]; simp [h1, h2, h3]
  · rw [if_neg hc]
    refine .ret ⟨g.obtain_ _, ?_, ?_, fun p => ?_⟩
    · simp [Obj1.fields, hc]
    · simp only [Obj1.fields, hc]
      simp
    · simp only [Obj1.fields, hc]
      by_cases h3 : p = h.next
      · subst h3; simp
      · rw [Function.update_of_ne h3]; simp [h3]

/-- The effect of a destructor: the blocks `gone` are not live any more, the others as before. -/
def Destroys (h : Heap) (gone : List ℕ) (h' : Heap) : Prop :=
  Good h' ∧ ∀ p, h'.live p = if p ∈ gone then none else h.live p

theorem giveBack_list {h : Heap} {p : ℕ} {gone : List ℕ} {h' : Heap} (hd : Destroys h gone h') :
    Destroys h (p :: gone) ⟨h'.next, Function.update h'.live p none⟩ := by
  refine ⟨hd.1.giveBack _, fun q => ?_⟩
  show Function.update h'.live p none q = _
  by_cases e : q = p
  · subst e; simp
  · rw [Function.update_of_ne e, hd.2]; simp [e]

theorem Destroys.nil {h : Heap} (g : Good h) : Destroys h [] h := ⟨g, fun p => by simp⟩

theorem Obj1.delete_does (o : Obj1) {h : Heap} (g : Good h) (hn : o.fields.Nodup)
    (ho : ∀ p ∈ o.fields, h.live p = some .newArr) : Does o.delete h fun _ h' => Destroys h o.fields h' := by
  unfold Obj1.delete
  by_cases hc : o.cls.isElm = true
  · rw [if_pos hc]
    unfold Obj1.fields at hn ho
    rw [if_pos hc] at hn ho
    simp only [List.nodup_cons, List.mem_cons, List.not_mem_nil, or_false, not_or] at hn
    refine .seq (.seq (.giveBack (ho _ (by simp)) (.giveBack ?_ (.giveBack ?_ ?_))))
    · dsimp only
      rw [Function.update_of_ne hn.2.1]; exact ho _ (by simp)
    · dsimp only
      rw [Function.update_of_ne hn.1.1, Function.update_of_ne hn.1.2]; exact ho _ (by simp)
    · have := giveBack_list (p := o.nC) (giveBack_list (p := o.w) (giveBack_list (p := o.b) (.nil g)))
      unfold Obj1.fields
      rw [if_pos hc]
      exact this
  · rw [if_neg hc]
    unfold Obj1.fields at hn ho ⊢
    rw [if_neg hc] at hn ho ⊢
    exact .seq (.ret (.giveBack (ho _ (by simp)) (giveBack_list (.nil g))))

/-- The blocks of an n-dimensional object. -/
def ObjN.fields (o : ObjN) : List ℕ := if o.cls.isElm then [o.nC, o.c, o.w, o.b, o.x0] else [o.nC, o.c, o.x0]

theorem ObjN.nC_mem (o : ObjN) : o.nC ∈ o.fields := by unfold ObjN.fields; split_ifs <;> simp
theorem ObjN.c_mem (o : ObjN) : o.c ∈ o.fields := by unfold ObjN.fields; split_ifs <;> simp
theorem ObjN.x0_mem (o : ObjN) : o.x0 ∈ o.fields := by unfold ObjN.fields; split_ifs <;> simp
theorem ObjN.w_mem (o : ObjN) (h : o.cls.isElm = true) : o.w ∈ o.fields := by unfold ObjN.fields; rw [if_pos h]; simp
theorem ObjN.b_mem (o : ObjN) (h : o.cls.isElm = true) : o.b ∈ o.fields := by unfold ObjN.fields; rw [if_pos h]; simp

theorem ObjN.hint_does (o : ObjN) (d x dark : ℕ) {h : Heap} (g : Good h)
    (hx : ∃ k, h.live x = some k) (hd : ∃ k, h.live dark = some k) : Does (o.hint d x dark) h fun _ h' => Same h h' := by
  unfold ObjN.hint
  cases o.cls <;> simp only
  · exact polyHint_does _ _ _ _ g hx hd
  · exact fsHint_does _ _ g hx hd
  · exact fsHint_does _ _ g hx hd
  · exact fsHint_does _ _ g hx hd

theorem ObjN.dims_does (o : ObjN) (d : List ℕ) (z dark T r : ℕ) : ∀ (k : ℕ) {h : Heap}, Good h → (∃ k, h.live o.c = some k) →
    (∃ k, h.live z = some k) → (∃ k, h.live dark = some k) → (∃ k, h.live T = some k) →
    Does (o.dims d z dark T k r) h fun _ h' => Same h h' := by
  induction r with
  | zero => intro k h g _ _ _ _; exact .ret (.refl g)
  | succ r ih =>
    intro k h g hc hz hd hT
    refine .seq ((o.hint_does _ _ _ g hz hd).imp fun _ h₂ s => ?_)
    refine .seq (.use (by rw [s.2.1]; exact hc) (.seq (.use (by rw [s.2.1]; exact hd) (.seq (.use (by rw [s.2.1]; exact hT) ?_)))))
    exact (ih (k + 1) s.1 (by rw [s.2.1]; exact hc) (by rw [s.2.1]; exact hz) (by rw [s.2.1]; exact hd)
      (by rw [s.2.1]; exact hT)).imp fun _ h₃ s' => s.trans s'

theorem useOut_does {F : Option ℕ} {h : Heap} {Q : Unit → Heap → Prop} (hF : ∀ p, F = some p → ∃ k, h.live p = some k)
    (H : Q () h) : Does (useOut F) h Q := by
  cases F with
  | none => exact .ret H
  | some p => exact .use (hF p rfl) H

/-- Close a goal about a chain of updates at distinct names. -/
macro "upd" : tactic => `(tactic| (repeat (first | rw [Function.update_self] | rw [Function.update_of_ne (by omega)])))

theorem ObjN.tensorHint_does (o : ObjN) (d : List ℕ) (full : Bool) (F : Option ℕ) {h : Heap} (g : Good h)
    (ho : ∀ p ∈ o.fields, ∃ k, h.live p = some k) (hF : ∀ p, F = some p → ∃ k, h.live p = some k) :
    Does (o.tensorHint d full F) h fun _ h' => Same h h' := by
  unfold ObjN.tensorHint
  refine .seq (.obtain_ (.seq (.obtain_ (.seq (.obtain_ ?_)))))
  have g3 := ((g.obtain_ .newArr).obtain_ .newArr).obtain_ .newArr
  obtain ⟨h₃, e₃⟩ : ∃ h₃ : Heap, h₃ = ⟨h.next + 1 + 1 + 1, Function.update (Function.update (Function.update h.live h.next
    (some Kind.newArr)) (h.next + 1) (some Kind.newArr)) (h.next + 1 + 1) (some Kind.newArr)⟩ := ⟨_, rfl⟩
  have l3 : h₃.live = Function.update (Function.update (Function.update h.live h.next
    (some Kind.newArr)) (h.next + 1) (some Kind.newArr)) (h.next + 1 + 1) (some Kind.newArr) := by rw [e₃]
  have n3 : h₃.next = h.next + 1 + 1 + 1 := by rw [e₃]
  have g3 : Good h₃ := by rw [e₃]; exact g3
  have sub : ∀ p, (∃ k, h.live p = some k) → ∃ k, h₃.live p = some k :=
    fun p hp => by rw [l3]; exact live_update (live_update (live_update hp))
  have hz : ∃ k, h₃.live (h.next + 1 + 1) = some k := by rw [l3]; exact live_self
  have hT : ∃ k, h₃.live (h.next + 1) = some k := by rw [l3]; exact live_update live_self
  have hdk : ∃ k, h₃.live h.next = some k := by rw [l3]; exact live_update (live_update live_self)
  show Does _ _ _
  rw [← e₃]
  show Does (use o.x0 ;; use o.c ;; use (h.next + 1 + 1) ;; o.dims d (h.next + 1 + 1) h.next (h.next + 1) 0 o.dim ;; _) h₃ _
  refine .seq (.use (sub _ (ho _ o.x0_mem)) (.seq (.use (sub _ (ho _ o.c_mem)) (.seq (.use hz (.seq ?_))))))
  refine (o.dims_does d _ _ _ _ 0 g3 (sub _ (ho _ o.c_mem)) hz hdk hT).imp fun _ h₄ s4 => ?_
  have l4 : h₄.live = h₃.live := s4.2.1
  refine .seq (useOut_does (fun p hp => by rw [l4]; exact sub p (hF p hp)) ?_)
  refine .seq (.obtain_ (.seq (.use live_self (.seq ?_))))
  have hcond : Does (if full = true then ret () else use o.nC)
      ⟨h₄.next + 1, Function.update h₄.live h₄.next (some Kind.newArr)⟩ fun _ h' => h' =
        ⟨h₄.next + 1, Function.update h₄.live h₄.next (some Kind.newArr)⟩ := by
    split_ifs
    · exact .ret rfl
    · exact .use (live_update (by rw [l4]; exact sub _ (ho _ o.nC_mem))) rfl
  refine hcond.imp fun _ h₅ e5 => ?_
  subst e5
  have n4 : h₃.next ≤ h₄.next := s4.2.2
  rw [n3] at n4
  refine .seq (.use (live_update (by rw [l4]; exact hT)) (.seq (useOut_does (fun p hp => live_update (by
    rw [l4]; exact sub p (hF p hp))) (.seq (.giveBack (Function.update_self _ _ _) (.seq (.giveBack ?_ (.seq (.giveBack ?_ (.giveBack ?_ ?_))))))))))
  · dsimp only
    rw [l4, l3]; upd
  · dsimp only
    rw [l4, l3]; upd
  · dsimp only
    rw [l4, l3]; upd
  · refine ⟨((((s4.1.obtain_ .newArr).giveBack _).giveBack _).giveBack _).giveBack _, ?_, by
      show h.next ≤ h₄.next + 1; omega⟩
    funext p
    simp only [l4, l3]
    by_cases h1 : p = h.next + 1 + 1
    · subst h1; rw [Function.update_self, g _ (by omega)]
    rw [Function.update_of_ne h1]
    by_cases h2 : p = h.next + 1
    · subst h2; rw [Function.update_self, g _ (by omega)]
    rw [Function.update_of_ne h2]
    by_cases h3 : p = h.next
    · subst h3; rw [Function.update_self, g _ (by omega)]
    rw [Function.update_of_ne h3]
    by_cases h4 : p = h₄.next
    · subst h4; rw [Function.update_self, g _ (by omega)]
    rw [Function.update_of_ne h4, Function.update_of_ne h4, Function.update_of_ne h1, Function.update_of_ne h2,
      Function.update_of_ne h3]

theorem ObjN.elmHint_does (o : ObjN) (hc : o.cls.isElm = true) (z : ℕ) (F : Option ℕ) {h : Heap} (g : Good h)
    (ho : ∀ p ∈ o.fields, ∃ k, h.live p = some k) (hz : ∃ k, h.live z = some k)
    (hF : ∀ p, F = some p → ∃ k, h.live p = some k) : Does (o.elmHint z F) h fun _ h' => Same h h' := by
  have plain : Does (use o.c ;; use o.w ;; use o.b ;; use z ;; useOut F) h fun _ h' => Same h h' :=
    .seq (.use (ho _ o.c_mem) (.seq (.use (ho _ (o.w_mem hc)) (.seq (.use (ho _ (o.b_mem hc)) (.seq (.use hz
      (useOut_does hF (.refl g)))))))))
  unfold ObjN.elmHint
  cases hcl : o.cls <;> simp only
  · exact plain
  · exact plain
  · exact plain
  · have key := two_temporaries g (fun sig zint => use o.c ;; use o.w ;; use o.b ;; use z ;; use zint ;; use sig ;; useOut F)
      fun h₂ g₂ sub h1 h2 => .seq (.use (sub _ (ho _ o.c_mem)) (.seq (.use (sub _ (ho _ (o.w_mem hc))) (.seq (.use
        (sub _ (ho _ (o.b_mem hc))) (.seq (.use (sub _ hz) (.seq (.use ⟨_, h2⟩ (.seq (.use ⟨_, h1⟩ (useOut_does
        (fun p hp => sub p (hF p hp)) (.refl g₂)))))))))))))
    simp only [seq_assoc] at key
    exact key

/-- One temporary around a program that leaves the heap alone. -/
theorem one_temporary {h : Heap} (g : Good h) (body : ℕ → HeapM Unit)
    (hb : ∀ h₂ : Heap, Good h₂ → (∀ p, (∃ k, h.live p = some k) → ∃ k, h₂.live p = some k) →
      h₂.live h.next = some .newArr → Does (body h.next) h₂ fun _ h' => Same h₂ h') :
    Does (obtain_ .newArr >>>= fun s => body s ;; giveBack .newArr s) h fun _ h' => Same h h' := by
  refine .seq (.obtain_ (.seq ?_))
  refine (hb _ (g.obtain_ _) (fun p hp => live_update hp) (Function.update_self _ _ _)).imp ?_
  rintro _ h' ⟨g', hl, hn⟩
  have hn : h.next + 1 ≤ h'.next := hn
  refine .giveBack (by rw [hl]; exact Function.update_self _ _ _) ⟨g'.giveBack _, ?_, by show h.next ≤ h'.next; omega⟩
  funext p
  simp only [hl]
  by_cases h2 : p = h.next
  · subst h2; rw [Function.update_self, g _ (by omega)]
  · rw [Function.update_of_ne h2, Function.update_of_ne h2]

theorem ObjN.elmNHint_does (o : ObjN) (hc : o.cls.isElm = true) (full : Bool) (F : Option ℕ) {h : Heap} (g : Good h)
    (ho : ∀ p ∈ o.fields, ∃ k, h.live p = some k) (hF : ∀ p, F = some p → ∃ k, h.live p = some k) :
    Does (o.elmNHint full F) h fun _ h' => Same h h' := by
  have key := one_temporary g (fun z => use o.x0 ;; use o.c ;; use z ;;
    (if o.numC = 0 ∨ full = true then o.elmHint z F
     else
      obtain_ .newArr >>>= fun dark =>
      o.elmHint z (some dark) ;; use o.nC ;; use dark ;; useOut F ;; giveBack .newArr dark))
    (fun h₂ g₂ sub hz => by
      refine .seq (.use (sub _ (ho _ o.x0_mem)) (.seq (.use (sub _ (ho _ o.c_mem)) (.seq (.use ⟨_, hz⟩ ?_)))))
      split_ifs
      · exact o.elmHint_does hc _ _ g₂ (fun p hp => sub p (ho p hp)) ⟨_, hz⟩ (fun p hp => sub p (hF p hp))
      · have k2 := one_temporary g₂ (fun dark => o.elmHint h.next (some dark) ;; use o.nC ;; use dark ;; useOut F)
          fun h₃ g₃ sub₃ hd => .seq ((o.elmHint_does hc _ _ g₃ (fun p hp => sub₃ p (sub p (ho p hp))) (sub₃ _ ⟨_, hz⟩)
            (fun p hp => by cases hp; exact ⟨_, hd⟩)).imp fun _ h₄ s4 =>
              .seq (.use (by rw [s4.2.1]; exact sub₃ _ (sub _ (ho _ o.nC_mem))) (.seq (.use ⟨_, by rw [s4.2.1]; exact hd⟩
                (useOut_does (fun p hp => by rw [s4.2.1]; exact sub₃ _ (sub _ (hF p hp))) s4)))))
        simp only [seq_assoc] at k2
        exact k2)
  simp only [seq_assoc] at key
  exact key

theorem ObjN.nHint_does (o : ObjN) (d : List ℕ) (full : Bool) (F : Option ℕ) {h : Heap} (g : Good h)
    (ho : ∀ p ∈ o.fields, ∃ k, h.live p = some k) (hF : ∀ p, F = some p → ∃ k, h.live p = some k) :
    Does (o.nHint d full F) h fun _ h' => Same h h' := by
  unfold ObjN.nHint
  split_ifs with hc
  · exact o.elmNHint_does hc full F g ho hF
  · exact o.tensorHint_does d full F g ho hF

theorem ObjN.H_does (o : ObjN) (d : List ℕ) (full : Bool) {h : Heap} (g : Good h)
    (ho : ∀ p ∈ o.fields, ∃ k, h.live p = some k) : Does (o.H d full) h (Returns h) := by
  refine .seq (.obtain_ (.seq ?_))
  refine (o.nHint_does d full _ (g.obtain_ .malloc) (fun p hp => live_update (ho p hp))
    (fun p hp => by cases hp; exact live_self)).imp fun _ h' s => .ret ?_
  have hn : h.next + 1 ≤ h'.next := s.2.2
  exact ⟨s.1, Nat.le_refl _, hn, s.2.1⟩

theorem ObjN.new_does (cls : Multi) (m dim numC : ℕ) {h : Heap} (g : Good h) :
    Does (ObjN.new cls m dim numC) h fun o h' => Constructs h o.fields h' := by
  unfold ObjN.new
  refine .seq (.obtain_ (.seq (.use live_self (.seq (.obtain_ (.seq (.use live_self (.seq (.obtain_ (.seq (.use
    (live_update (live_update live_self)) (.seq (.use live_self ?_)))))))))))))
  by_cases hc : cls.isElm = true
  · rw [if_pos hc]
    refine .seq (.use (live_update live_self) (.seq (.obtain_ (.seq (.obtain_ (.seq (.use (live_update live_self) (.seq
      (.use live_self (.ret ?_))))))))))
    refine ⟨((((g.obtain_ _).obtain_ _).obtain_ _).obtain_ _).obtain_ _, ?_, ?_, fun p => ?_⟩
    · simp [ObjN.fields, hc]; omega
    · simp only [ObjN.fields, hc, if_true, List.mem_cons, List.not_mem_nil, or_false]
      rintro p (rfl | rfl | rfl | rfl | rfl) <;> omega
    · simp only [ObjN.fields, hc, if_true, List.mem_cons, List.not_mem_nil, or_false]
      by_cases h5 : p = h.next + 1 + 1 + 1 + 1
      · subst h5; simp
      rw [Function.update_of_ne h5]
      by_cases h4 : p = h.next + 1 + 1 + 1
      · subst h4; simp
      rw [Function.update_of_ne h4]
      by_cases h1 : p = h.next + 1 + 1
      · subst h1; simp
      rw [Function.update_of_ne h1]
      by_cases h2 : p = h.next + 1
      · subst h2; simp
      rw [Function.update_of_ne h2]
      by_cases h3 : p = h.next
      · subst h3; simp
      rw [Function.update_of_ne h3]; simp [h1, h2, h3, h4, h5]
  · rw [if_neg hc]
    refine .seq (.obtain_ (.seq (.use live_self (.seq (.use (live_update (live_update live_self)) (.seq (.giveBack
      (Function.update_self _ _ _) (.ret ?_))))))))
    refine ⟨((((g.obtain_ _).obtain_ _).obtain_ _).obtain_ _).giveBack _, ?_, ?_, fun p => ?_⟩
    · simp [ObjN.fields, hc]; omega
    · simp only [ObjN.fields, hc, Bool.false_eq_true, if_false, List.mem_cons, List.not_mem_nil, or_false]
      rintro p (rfl | rfl | rfl) <;> omega
    · simp only [ObjN.fields, hc, Bool.false_eq_true, if_false, List.mem_cons, List.not_mem_nil, or_false]
      by_cases h4 : p = h.next + 1 + 1 + 1
      · subst h4
        rw [Function.update_self, if_neg (by omega), g _ (by omega)]
      rw [Function.update_of_ne h4, Function.update_of_ne h4]
      by_cases h1 : p = h.next + 1 + 1
      · subst h1; simp
      rw [Function.update_of_ne h1]
      by_cases h2 : p = h.next + 1
      · subst h2; simp
      rw [Function.update_of_ne h2]
      by_cases h3 : p = h.next
      · subst h3; simp
      rw [Function.update_of_ne h3]; simp [h1, h2, h3]

/-- The blocks the destructors of an n-dimensional object give back: all but `x0`. -/
def ObjN.released (o : ObjN) : List ℕ := if o.cls.isElm then [o.nC, o.c, o.w, o.b] else [o.nC, o.c]

theorem ObjN.fields_eq (o : ObjN) : o.fields = o.released ++ [o.x0] := by
  unfold ObjN.fields ObjN.released; split_ifs <;> rfl

theorem ObjN.delete_does (o : ObjN) {h : Heap} (g : Good h) (hn : o.fields.Nodup)
    (ho : ∀ p ∈ o.fields, h.live p = some .newArr) : Does o.delete h fun _ h' => Destroys h o.released h' := by
  unfold ObjN.delete
  by_cases hc : o.cls.isElm = true
  · rw [if_pos hc]
    unfold ObjN.fields at hn ho
    rw [if_pos hc] at hn ho
    simp only [List.nodup_cons, List.mem_cons, List.not_mem_nil, or_false, not_or] at hn
    obtain ⟨⟨a1, a2, a3, -⟩, ⟨b1, b2, -⟩, ⟨c1, -⟩, -⟩ := hn
    refine .seq (.seq (.giveBack (ho _ (by simp)) (.giveBack ?_ (.seq (.giveBack ?_ (.giveBack ?_ ?_))))))
    · dsimp only
      rw [Function.update_of_ne c1]; exact ho _ (by simp)
    · dsimp only
      rw [Function.update_of_ne b1, Function.update_of_ne b2]; exact ho _ (by simp)
    · dsimp only
      rw [Function.update_of_ne a1, Function.update_of_ne a2, Function.update_of_ne a3]; exact ho _ (by simp)
    · have := giveBack_list (p := o.nC) (giveBack_list (p := o.c) (giveBack_list (p := o.w) (giveBack_list (p := o.b) (.nil g))))
      unfold ObjN.released
      rw [if_pos hc]
      exact this
  · rw [if_neg hc]
    unfold ObjN.fields at hn ho
    rw [if_neg hc] at hn ho
    simp only [List.nodup_cons, List.mem_cons, List.not_mem_nil, or_false, not_or] at hn
    obtain ⟨⟨a1, -⟩, -⟩ := hn
    refine .seq (.ret (.seq (.giveBack (ho _ (by simp)) (.giveBack ?_ ?_))))
    · dsimp only
      rw [Function.update_of_ne a1]; exact ho _ (by simp)
    · have := giveBack_list (p := o.nC) (giveBack_list (p := o.c) (.nil g))
      unfold ObjN.released
      rw [if_neg hc]
      exact this

/-- The blocks of an object. -/
def Obj.fields : Obj → List ℕ
  | .uni o => o.fields
  | .multi o => o.fields

/-- The blocks that stay when the object is destroyed. -/
def Obj.leak : Obj → List ℕ
  | .uni _ => []
  | .multi o => [o.x0]

theorem Obj.H_does (o : Obj) (d : List ℕ) (full : Bool) {h : Heap} (g : Good h) (ho : ∀ p ∈ o.fields, ∃ k, h.live p = some k) :
    Does (o.H d full) h (Returns h) := by
  cases o with
  | uni o => exact o.H_does _ full g ho
  | multi o => exact o.H_does d full g ho

theorem Obj.xla_does (o : Obj) (d : List ℕ) (full : Bool) {h : Heap} (g : Good h) (ho : ∀ p ∈ o.fields, ∃ k, h.live p = some k) :
    Does (o.xla d full) h fun _ h' => Same h h' := by
  cases o with
  | uni o => exact o.xla_does _ full g ho
  | multi o => exact o.nHint_does d full none g ho (fun p hp => by cases hp)

theorem Obj.delete_does (o : Obj) {h : Heap} (g : Good h) (hn : o.fields.Nodup)
    (ho : ∀ p ∈ o.fields, h.live p = some .newArr) :
    Does o.delete h fun _ h' => Good h' ∧
      ∀ p, h'.live p = if p ∈ o.fields ∧ p ∉ o.leak then none else h.live p := by
  cases o with
  | uni o =>
    refine (o.delete_does g hn ho).imp fun _ h' hd => ⟨hd.1, fun p => ?_⟩
    rw [hd.2]
    simp [Obj.fields, Obj.leak]
  | multi o =>
    refine (o.delete_does g hn ho).imp fun _ h' hd => ⟨hd.1, fun p => ?_⟩
    rw [hd.2]
    have hn : o.fields.Nodup := hn
    rw [o.fields_eq, List.nodup_append] at hn
    have : p ∈ o.released ↔ (p ∈ (Obj.multi o).fields ∧ p ∉ (Obj.multi o).leak) := by
      simp only [Obj.fields, Obj.leak, o.fields_eq, List.mem_append, List.mem_singleton]
      constructor
      · intro hp
        exact ⟨Or.inl hp, fun e => hn.2.2 p hp o.x0 (by simp) e⟩
      · rintro ⟨hp | hp, h2⟩
        · exact hp
        · exact absurd hp h2
    simp only [this]

theorem Obj.wBlock_mem {o : Obj} {p : ℕ} (h : o.wBlock = some p) : p ∈ o.fields := by
  cases o with
  | uni o =>
    simp only [Obj.wBlock] at h
    split_ifs at h with hc
    cases h
    simp [Obj.fields, Obj1.fields, hc]
  | multi o =>
    simp only [Obj.wBlock] at h
    split_ifs at h with hc
    cases h
    exact o.w_mem hc

theorem Obj.bBlock_mem {o : Obj} {p : ℕ} (h : o.bBlock = some p) : p ∈ o.fields := by
  cases o with
  | uni o =>
    simp only [Obj.bBlock] at h
    split_ifs at h with hc
    cases h
    simp [Obj.fields, Obj1.fields, hc]
  | multi o =>
    simp only [Obj.bBlock] at h
    split_ifs at h with hc
    cases h
    exact o.b_mem hc

end Verif.Model.Life
