import Verif.Spec.Registry

/-! # C18: identifiers and the registry -/

namespace Verif.Props

open Verif.Mem Verif.Py Verif.Spec Verif.Model Verif.Model.CC

/-- The invariant: see `C18_registry`. -/
structure RegInv (ops : List Op) (p : Proc) (objs : List CObj) : Prop where
  nId : p.nIdentifier = objs.length
  cont : p.container.length = objs.length
  wrap : p.wrappers.length = objs.length
  dead : ∀ h, p.wrappers[h]? = some none ↔ Op.destroy h ∈ ops
  live : ∀ h a, p.wrappers[h]? = some (some a) →
    p.container[h]? = some a ∧ ∃ o, objs[h]? = some o ∧ p.heap a = some ⟨h, o⟩

theorem RegInv.inj {ops : List Op} {p : Proc} {objs : List CObj} (I : RegInv ops p objs) {h h' a : ℕ}
    (h1 : p.wrappers[h]? = some (some a)) (h2 : p.wrappers[h']? = some (some a)) : h = h' := by
  obtain ⟨_, o, _, e1⟩ := I.live h a h1
  obtain ⟨_, o', _, e2⟩ := I.live h' a h2
  rw [e1] at e2
  simp only [Option.some.injEq, Cell.mk.injEq] at e2
  exact e2.1

theorem deref_ok {p : Proc} {h a : ℕ} {cell : Cell} (hd : p.deref h = .ok (a, cell)) :
    p.wrappers[h]? = some (some a) ∧ p.heap a = some cell := by
  unfold Proc.deref at hd
  split at hd
  · rename_i a' hw
    split at hd
    · rename_i c hc
      cases hd
      exact ⟨hw, hc⟩
    · cases hd
  · cases hd

theorem bind_ok {α β ε : Type} {x : Except ε α} {f : α → Except ε β} {b : β} (h : (x >>= f) = .ok b) :
    ∃ a, x = .ok a ∧ f a = .ok b := by
  cases x with
  | error e => cases h
  | ok a => exact ⟨a, rfl, h⟩

/-- Storing a changed object keeps the invariant. -/
theorem RegInv.assign {ops : List Op} {p : Proc} {objs : List CObj} (I : RegInv ops p objs) {h a : ℕ} {cell : Cell}
    (hd : p.deref h = .ok (a, cell)) {f : CObj → Except Err CObj} {o : CObj} (hf : f cell.obj = .ok o) (op : Op)
    (hop : ∀ k, op ≠ Op.destroy k) :
    ∃ objs', modifyAt objs h f = .ok objs' ∧
      RegInv (ops ++ [op]) (p.store a (some { cell with obj := o })) objs' := by
  obtain ⟨hw, hh⟩ := deref_ok hd
  obtain ⟨hc, o0, ho, he⟩ := I.live h a hw
  rw [hh] at he
  cases he
  refine ⟨objs.set h o, ?_, ?_, ?_, ?_, ?_, ?_⟩
  · unfold modifyAt
    rw [ho]
    show (f o0 >>= fun o => .ok (objs.set h o)) = _
    rw [hf]
    rfl
  · simpa [Proc.store] using I.nId
  · simpa [Proc.store] using I.cont
  · simpa [Proc.store] using I.wrap
  · intro k
    have := I.dead k
    have hne : ∀ k, ¬ (Op.destroy k = op) := fun k e => hop k e.symm
    simpa [Proc.store, hne] using this
  · intro k b hk
    have hk' : p.wrappers[k]? = some (some b) := hk
    obtain ⟨c1, o1, c2, c3⟩ := I.live k b hk'
    refine ⟨c1, ?_⟩
    by_cases hkh : k = h
    · subst hkh
      rw [hw] at hk'
      cases hk'
      refine ⟨o, ?_, ?_⟩
      · have := List.getElem?_eq_some_iff.1 ho
        rw [List.getElem?_set_self this.1]
      · simp [Proc.store]
    · have hab : b ≠ a := fun e => hkh (I.inj (e ▸ hk') hw)
      refine ⟨o1, ?_, ?_⟩
      · rw [List.getElem?_set_ne (Ne.symm hkh)]
        exact c2
      · simp [Proc.store, Function.update_of_ne hab, c3]

theorem RegInv.step {ops : List Op} {p p' : Proc} {objs : List CObj} (I : RegInv ops p objs) {op : Op}
    (hid : ¬ AssignsIdentifier op) (hs : p.step op = .ok p') :
    ∃ objs', objStep objs op = .ok objs' ∧ RegInv (ops ++ [op]) p' objs' := by
  cases op with
  | create addr c =>
    have hs' : p.create addr c = .ok p' := hs
    unfold Proc.create at hs'
    by_cases hl : (p.heap addr).isSome = true
    · rw [if_pos hl] at hs'
      cases hs'
    · rw [if_neg hl] at hs'
      obtain ⟨o, ho, hs'⟩ := bind_ok hs'
      cases hs'
      have hnone : p.heap addr = none := by simpa using hl
      refine ⟨objs ++ [o], ?_, ?_, ?_, ?_, ?_, ?_⟩
      · show (Model.Py.liftCC c.build >>= fun o => .ok (objs ++ [o])) = _
        rw [ho]
        rfl
      · simp [I.nId]
      · simp [I.cont]
      · simp [I.wrap]
      · intro h
        have hd := I.dead h
        have hne : ¬ (Op.destroy h = Op.create addr c) := by simp
        simp only [List.mem_append, List.mem_singleton, hne, or_false]
        rw [← hd]
        rcases lt_or_ge h p.wrappers.length with hlt | hge
        · rw [List.getElem?_append_left hlt]
        · rw [List.getElem?_append_right hge, List.getElem?_eq_none hge]
          rcases Nat.eq_zero_or_pos (h - p.wrappers.length) with h0 | h0
          · rw [h0]
            simp
          · rw [List.getElem?_eq_none (by simp; omega)]
      · intro h a ha
        have ha : (p.wrappers ++ [some addr])[h]? = some (some a) := ha
        rcases lt_or_ge h p.wrappers.length with hlt | hge
        · rw [List.getElem?_append_left hlt] at ha
          obtain ⟨c1, o1, c2, c3⟩ := I.live h a ha
          have hb := I.wrap
          have hc := I.cont
          refine ⟨?_, o1, ?_, ?_⟩
          · show (p.container ++ [addr])[h]? = _
            rw [List.getElem?_append_left (by omega)]
            exact c1
          · rw [List.getElem?_append_left (by omega)]
            exact c2
          · have : a ≠ addr := by
              rintro rfl
              rw [hnone] at c3
              cases c3
            show Function.update p.heap addr _ a = _
            rw [Function.update_of_ne this]
            exact c3
        · rw [List.getElem?_append_right hge] at ha
          have h0 : h = p.wrappers.length := by
            by_contra hne
            rw [List.getElem?_eq_none (by simp; omega)] at ha
            cases ha
          have hb := I.wrap
          have hc := I.cont
          have hn := I.nId
          rw [h0] at ha
          simp at ha
          subst ha
          refine ⟨?_, o, ?_, ?_⟩
          · show (p.container ++ [addr])[h]? = _
            rw [List.getElem?_append_right (by omega), show h - p.container.length = 0 by omega]
            rfl
          · rw [List.getElem?_append_right (by omega), show h - objs.length = 0 by omega]
            rfl
          · show Function.update p.heap addr _ addr = _
            rw [Function.update_self, hn, h0, hb]
  | destroy h =>
    have hs : (do let (a, _) ← p.deref h
                  .ok { p.store a none with wrappers := p.wrappers.set h none }) = .ok p' := hs
    obtain ⟨⟨a, cell⟩, hd, hs⟩ := bind_ok hs
    cases hs
    obtain ⟨hw, hh⟩ := deref_ok hd
    have hlt : h < p.wrappers.length := (List.getElem?_eq_some_iff.1 hw).1
    refine ⟨objs, rfl, ?_, ?_, ?_, ?_, ?_⟩
    · simpa [Proc.store] using I.nId
    · simpa [Proc.store] using I.cont
    · simpa [Proc.store] using I.wrap
    · intro k
      simp only [List.mem_append, List.mem_singleton, Op.destroy.injEq]
      by_cases hk : k = h
      · subst hk
        rw [List.getElem?_set_self hlt]
        simp
      · rw [List.getElem?_set_ne (Ne.symm hk), I.dead k]
        simp [hk]
    · intro k b hk
      have hkh : k ≠ h := by
        rintro rfl
        rw [List.getElem?_set_self hlt] at hk
        cases hk
      rw [List.getElem?_set_ne (Ne.symm hkh)] at hk
      obtain ⟨c1, o1, c2, c3⟩ := I.live k b hk
      have hab : b ≠ a := fun e => hkh (I.inj (e ▸ hk) hw)
      refine ⟨c1, o1, c2, ?_⟩
      show Function.update p.heap a none b = _
      rw [Function.update_of_ne hab]
      exact c3
  | assignW h arr =>
    have hs : (do let (a, cell) ← p.deref h
                  let obj ← cell.obj.assignW arr
                  .ok (p.store a (some { cell with obj := obj }))) = .ok p' := hs
    obtain ⟨⟨a, cell⟩, hd, hs⟩ := bind_ok hs
    obtain ⟨o, ho, hs⟩ := bind_ok hs
    cases hs
    exact I.assign hd (f := (·.assignW arr)) ho _ (fun k => by simp)
  | assignB h arr =>
    have hs : (do let (a, cell) ← p.deref h
                  let obj ← cell.obj.assignB arr
                  .ok (p.store a (some { cell with obj := obj }))) = .ok p' := hs
    obtain ⟨⟨a, cell⟩, hd, hs⟩ := bind_ok hs
    obtain ⟨o, ho, hs⟩ := bind_ok hs
    cases hs
    exact I.assign hd (f := (·.assignB arr)) ho _ (fun k => by simp)
  | assignIdentifier h v => exact absurd trivial hid

theorem RegInv.init : RegInv [] Proc.init [] := by
  refine ⟨rfl, rfl, rfl, ?_, ?_⟩ <;> simp [Proc.init]

theorem foldlM_concat {σ α ε : Type} (f : σ → α → Except ε σ) (s : σ) (l : List α) (a : α) :
    (l ++ [a]).foldlM f s = (l.foldlM f s >>= fun s => f s a) := by
  rw [List.foldlM_append]
  congr 1
  funext s
  simp

theorem RegInv.run (ops : List Op) (hid : ∀ op ∈ ops, ¬ AssignsIdentifier op) {p : Proc}
    (hr : Proc.init.run ops = .ok p) : ∃ objs, objStates ops = .ok objs ∧ RegInv ops p objs := by
  induction ops using List.reverseRecOn generalizing p with
  | nil =>
    cases hr
    exact ⟨[], rfl, RegInv.init⟩
  | append_singleton ops op ih =>
    unfold Proc.run at hr
    rw [foldlM_concat] at hr
    obtain ⟨q, hq, hs⟩ := bind_ok hr
    obtain ⟨objs, ho, I⟩ := ih (fun o h => hid o (by simp [h])) hq
    obtain ⟨objs', ho', I'⟩ := I.step (hid op (by simp)) hs
    refine ⟨objs', ?_, I'⟩
    unfold objStates at ho ⊢
    rw [foldlM_concat, ho]
    exact ho'

/-- **C18.** After any history of creating, changing and destroying basis objects, with any behaviour of the allocator
(addresses of destroyed objects may be reused), as long as no Python code assigns to the attribute `identifier`:
* different live objects have different identifiers (also different from those of all destroyed objects);
* a compiled call carrying the identifier of a live object is executed by that object, in the state in which the
  operations on it so far have left it (`objStates`, which knows nothing of identifiers, addresses or other objects).

Calls do not change the state of the process, so they may be interleaved anywhere. -/
theorem C18_registry (ops : List Op) (hid : ∀ op ∈ ops, ¬ AssignsIdentifier op) {p : Proc}
    (hr : Proc.init.run ops = .ok p) :
    ∃ objs, objStates ops = .ok objs ∧
      (∀ h, (identifierOf p h).isSome ↔ h < objs.length ∧ Op.destroy h ∉ ops) ∧
      (∀ h h' i, identifierOf p h = some i → identifierOf p h' = some i → h = h') ∧
      (∀ h i, identifierOf p h = some i → ∃ o, objs[h]? = some o ∧ ∀ args, p.call i args = o.xla args) := by
  obtain ⟨objs, ho, I⟩ := RegInv.run ops hid hr
  have key : ∀ h i, identifierOf p h = some i → ∃ a, p.wrappers[h]? = some (some a) ∧ i = h := by
    intro h i hi
    unfold identifierOf at hi
    split at hi
    · rename_i a cell hd
      obtain ⟨hw, hh⟩ := deref_ok hd
      obtain ⟨_, o, _, he⟩ := I.live h a hw
      rw [hh] at he
      cases he
      cases hi
      exact ⟨a, hw, rfl⟩
    · cases hi
  refine ⟨objs, ho, ?_, ?_, ?_⟩
  · intro h
    have hw := I.wrap
    constructor
    · intro hs
      obtain ⟨i, hi⟩ := Option.isSome_iff_exists.1 hs
      obtain ⟨a, ha, _⟩ := key h i hi
      refine ⟨?_, fun hmem => ?_⟩
      · have := (List.getElem?_eq_some_iff.1 ha).1
        omega
      · rw [(I.dead h).2 hmem] at ha
        cases ha
    · rintro ⟨hlt, hmem⟩
      have : ∃ a, p.wrappers[h]? = some (some a) := by
        rcases hx : p.wrappers[h]? with _ | _ | a
        · rw [List.getElem?_eq_none_iff] at hx
          omega
        · exact absurd ((I.dead h).1 hx) hmem
        · exact ⟨a, rfl⟩
      obtain ⟨a, ha⟩ := this
      obtain ⟨_, o, _, he⟩ := I.live h a ha
      simp [identifierOf, Proc.deref, ha, he]
  · intro h h' i h1 h2
    obtain ⟨_, _, e1⟩ := key h i h1
    obtain ⟨_, _, e2⟩ := key h' i h2
    omega
  · intro h i hi
    obtain ⟨a, ha, rfl⟩ := key h i hi
    obtain ⟨hc, o, ho, he⟩ := I.live i a ha
    refine ⟨o, ho, fun args => ?_⟩
    unfold Proc.call
    rw [hc]
    simp only [he]

/-- A one-weight ELM object with weight `w`. -/
def demoElm (w : ℝ) : Ctor := .elm .tanh (fun _ => w) (fun _ => 0) 0 1 [] 1

/-- The one-element array `[v]`. -/
def demoArr (v : ℝ) : NdArr := ⟨Buf.ofFn 1 fun _ => v, 0, [1], [1]⟩

/-- A history to which `C18_registry` applies: three objects, one destroyed, its address reused, weights set. -/
def demoHistory : List Op :=
  [.create 10 (demoElm 1), .create 20 (demoElm 2), .destroy 0, .create 10 (demoElm 3), .assignW 1 (demoArr 7)]

example : (∀ op ∈ demoHistory, ¬ AssignsIdentifier op) ∧
    ∃ p, Proc.init.run demoHistory = .ok p ∧ identifierOf p 1 = some 1 ∧ identifierOf p 2 = some 2 := by
  refine ⟨by simp [demoHistory, AssignsIdentifier], _, rfl, rfl, rfl⟩

/-- Outside C18: a compiled call can outlive its object (XLA code keeps only the number). The container keeps the dangling
pointer, and if the address has been given to another object the call is silently executed by that one. -/
theorem registry_dangling :
    (∃ p, Proc.init.run [.create 10 (demoElm 1), .destroy 0] = .ok p ∧ ∀ args, p.call 0 args = .error .uninit) ∧
    (∃ p, Proc.init.run [.create 10 (demoElm 1), .destroy 0, .create 10 (demoElm 3)] = .ok p ∧
      ∀ args, p.call 0 args = p.call 1 args) :=
  ⟨⟨_, rfl, fun _ => rfl⟩, ⟨_, rfl, fun _ => rfl⟩⟩

/-- Without the condition on `identifier`: the attribute is writable from Python (BF_Py.cc 95), and after
`first.identifier = 1` the compiled calls made through `first` are executed by the second object. -/
theorem registry_identifier_assigned :
    ∃ p, Proc.init.run [.create 10 (demoElm 1), .create 20 (demoElm 2), .assignIdentifier 0 1] = .ok p ∧
      identifierOf p 0 = some 1 ∧ identifierOf p 1 = some 1 ∧
      ∀ args, p.call 1 args = (CObj.elm ⟨.tanh, 0, 1, [], 1, Buf.ofFn 1 fun _ => 2, Buf.ofFn 1 fun _ => 0⟩).xla args :=
  ⟨_, rfl, rfl, rfl, fun _ => rfl⟩

end Verif.Props
