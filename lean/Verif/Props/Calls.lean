import Verif.Props.Registry
import Verif.Props.UniCC
import Verif.Lemmas.BasisFuncCC

/-! # C17 and C18 together: compiled calls in a running process -/

namespace Verif.Props

open Verif Verif.Mem Verif.Py Verif.Spec Verif.Model Verif.Model.CC

/-- A univariate object as it can occur in a process: built by a constructor, the weights and biases (ELM) since replaced
by others. -/
def UniReachable : CObj → Prop
  | .uni bf => ∃ cls x0 xf nC m, bf = uniNew cls x0 xf nC m
  | .elm e => ∃ w b, e.w = Buf.ofFn e.m w ∧ e.b = Buf.ofFn e.m b
  | _ => True

theorem memcpy_full {m : ℕ} {w : ℕ → ℝ} {src b : Buf ℝ} (h : memcpy (Buf.ofFn m w) src m = .ok b) :
    ∃ w', b = Buf.ofFn m w' := by
  have hp : Post (memcpy (Buf.ofFn m w) src m) (fun b => ∃ w', b = Buf.ofFn m w') := by
    refine loop_post (fun _ b => ∃ w', b = Buf.ofFn m w') (Nat.zero_le _) ⟨w, rfl⟩ ?_
    rintro k _ - hk ⟨w', rfl⟩
    cases hr : src.read k with
    | error e => intro s hs; cases hs
    | ok v =>
      have hw : (Buf.ofFn m w').write k v = .ok (Buf.ofFn m (Function.update w' k v)) := by
        unfold Buf.write
        rw [if_pos (show k < (Buf.ofFn m w').size from hk)]
        congr 1
        simp only [Buf.ofFn, Buf.mk.injEq, true_and]
        funext i
        by_cases hi : i = k
        · subst hi; simp [hk]
        · simp [Function.update_of_ne hi]
      intro s hs
      change (Buf.ofFn m w').write k v = .ok s at hs
      rw [hw] at hs
      cases hs
      exact ⟨_, rfl⟩
  exact hp _ h

theorem UniReachable.assignW {o o' : CObj} {a : NdArr} (h : UniReachable o) (ho : o.assignW a = .ok o') :
    UniReachable o' := by
  cases o with
  | uni bf => cases ho
  | nd bf => cases ho
  | elm e =>
    obtain ⟨e', he, hs⟩ := bind_ok (show (e.assignW a >>= fun e => .ok (.elm e)) = .ok o' from ho)
    cases hs
    obtain ⟨w, b, hw, hb⟩ := h
    have he : e.setW a.data a.size = .ok e' := he
    unfold Elm.setW at he
    split at he
    · cases he
    · rw [hw] at he
      cases hm : memcpy (Buf.ofFn e.m w) a.data e.m with
      | error f => rw [hm] at he; cases he
      | ok c =>
        rw [hm] at he
        cases he
        obtain ⟨w', rfl⟩ := memcpy_full hm
        exact ⟨w', b, rfl, hb⟩
  | nelm e =>
    obtain ⟨e', he, hs⟩ := bind_ok (show (e.assignW a >>= fun e => .ok (.nelm e)) = .ok o' from ho)
    cases hs
    trivial

theorem UniReachable.assignB {o o' : CObj} {a : NdArr} (h : UniReachable o) (ho : o.assignB a = .ok o') :
    UniReachable o' := by
  cases o with
  | uni bf => cases ho
  | nd bf => cases ho
  | elm e =>
    obtain ⟨e', he, hs⟩ := bind_ok (show (e.assignB a >>= fun e => .ok (.elm e)) = .ok o' from ho)
    cases hs
    obtain ⟨w, b, hw, hb⟩ := h
    have he : e.setB a.data a.size = .ok e' := he
    unfold Elm.setB at he
    split at he
    · cases he
    · rw [hb] at he
      cases hm : memcpy (Buf.ofFn e.m b) a.data e.m with
      | error f => rw [hm] at he; cases he
      | ok c =>
        rw [hm] at he
        cases he
        obtain ⟨b', rfl⟩ := memcpy_full hm
        exact ⟨w, b', hw, rfl⟩
  | nelm e =>
    obtain ⟨e', he, hs⟩ := bind_ok (show (e.assignB a >>= fun e => .ok (.nelm e)) = .ok o' from ho)
    cases hs
    trivial

theorem modifyAt_all {P : CObj → Prop} {objs objs' : List CObj} {h : ℕ} {f : CObj → Except Err CObj}
    (hf : ∀ o o', P o → f o = .ok o' → P o') (hP : ∀ o ∈ objs, P o) (hs : modifyAt objs h f = .ok objs') :
    ∀ o ∈ objs', P o := by
  unfold modifyAt at hs
  split at hs
  · cases hs
  · rename_i o ho
    obtain ⟨o', ho', hs⟩ := bind_ok hs
    cases hs
    intro x hx
    rcases List.mem_or_eq_of_mem_set hx with hx | rfl
    · exact hP x hx
    · exact hf o _ (hP o (List.mem_of_getElem? ho)) ho'

theorem build_reachable {c : Ctor} {o : CObj} (h : Model.Py.liftCC c.build = .ok o) : UniReachable o := by
  cases c with
  | uni cls x0 xf nC m => cases h; exact ⟨cls, x0, xf, nC, m, rfl⟩
  | elm a w b x0 xf nC m => cases h; exact ⟨w, b, rfl, rfl⟩
  | nd f x0 d xf nC p q m =>
    have h : Model.Py.liftCC (nNew f x0 d xf nC p q m >>= fun bf => .ok (.nd bf)) = .ok o := h
    cases hx : nNew f x0 d xf nC p q m with
    | error e => rw [hx] at h; cases h
    | ok bf => rw [hx] at h; cases h; trivial
  | nelm a w b x0 d xf nC m =>
    have h : Model.Py.liftCC (NElm.new a w b x0 d xf nC m >>= fun e => .ok (.nelm e)) = .ok o := h
    cases hx : NElm.new a w b x0 d xf nC m with
    | error e => rw [hx] at h; cases h
    | ok bf => rw [hx] at h; cases h; trivial

theorem objStates_reachable (ops : List Op) {objs : List CObj} (h : objStates ops = .ok objs) :
    ∀ o ∈ objs, UniReachable o := by
  induction ops using List.reverseRecOn generalizing objs with
  | nil => cases h; simp
  | append_singleton ops op ih =>
    unfold objStates at h
    rw [foldlM_concat] at h
    obtain ⟨os, h1, h2⟩ := bind_ok h
    have ih := ih h1
    cases op with
    | create addr c =>
      obtain ⟨o, ho, hs⟩ := bind_ok (show (Model.Py.liftCC c.build >>= fun o => .ok (os ++ [o])) = .ok objs from h2)
      cases hs
      intro x hx
      rcases List.mem_append.mp hx with hx | hx
      · exact ih x hx
      · rw [List.mem_singleton.mp hx]; exact build_reachable ho
    | destroy k => cases h2; exact ih
    | assignIdentifier k v => cases h2; exact ih
    | assignW k a => exact modifyAt_all (fun o o' h1 h2 => UniReachable.assignW h1 h2) ih h2
    | assignB k a => exact modifyAt_all (fun o o' h1 h2 => UniReachable.assignB h1 h2) ih h2

/-- **C18**, what "executed by that object" means: after any history, the call carrying the identifier of a live object runs
the object's own method on the object's current state with exactly the operands of the call, for all four kinds of object. -/
theorem C18_call (ops : List Op) (hid : ∀ op ∈ ops, ¬ AssignsIdentifier op) {p : Proc}
    (hr : Proc.init.run ops = .ok p) {objs : List CObj} (ho : objStates ops = .ok objs) {h i : ℕ}
    (hi : identifierOf p h = some i) :
    (∀ bf, objs[h]? = some (.uni bf) → ∀ out x d full n k,
      p.call i (.uni out x d full n k) = bf.xla out x d full n k) ∧
    (∀ e, objs[h]? = some (.elm e) → ∀ out x d full n k,
      p.call i (.uni out x d full n k) = e.base.xla out x d full n k) ∧
    (∀ bf, objs[h]? = some (.nd bf) → ∀ out x d q full n k,
      p.call i (.nd out x d q full n k) = bf.xla out x d q full n k) ∧
    (∀ e, objs[h]? = some (.nelm e) → ∀ out x d q full n k,
      p.call i (.nd out x d q full n k) = e.xla out x d q full n k) := by
  obtain ⟨objs', ho', -, -, hc⟩ := C18_registry ops hid hr
  rw [ho] at ho'
  cases ho'
  obtain ⟨o, h1, h2⟩ := hc h i hi
  refine ⟨fun bf hb => ?_, fun bf hb => ?_, fun bf hb => ?_, fun bf hb => ?_⟩ <;>
  · rw [h1] at hb
    cases hb
    intros
    rw [h2]
    rfl

/-- **C17** in a running process: after any history of creating, changing and destroying objects, the compiled call carrying
the identifier of a live univariate object fills its output block with exactly what the eager method of that object, in its
current state, returns for the same points, order and flag — or both read uninitialised memory (swish above order 8). -/
theorem C17_process (ops : List Op) (hid : ∀ op ∈ ops, ¬ AssignsIdentifier op) {p : Proc}
    (hr : Proc.init.run ops = .ok p) {objs : List CObj} (ho : objStates ops = .ok objs) {h i : ℕ}
    (hi : identifierOf p h = some i) {bf : BasisFunc ℝ}
    (hbf : objs[h]? = some (.uni bf) ∨ ∃ e, objs[h]? = some (.elm e) ∧ e.base = bf)
    (hm : 1 ≤ bf.m) (hC : ValidRemoval bf.m bf.nC) (d : ℕ) (full : Bool) (n : ℕ) (hn : 1 ≤ n) (xs : ℕ → ℝ)
    (out : Buf ℝ) (dim1 : ℕ) (hdim : dim1 = if full then bf.m else bf.m - bf.nC.length) (hout : out.size = n * dim1) :
    (∃ (cols : List ℕ) (V : ℕ → ℕ → ℝ), cols.length = dim1 ∧
      ReturnsMatrix (bf.H (Buf.ofFn n xs) n d full) n cols V ∧
      FillsMatrix (p.call i (.uni out (Buf.ofFn n xs) d full n dim1)) n cols V) ∨
    (9 ≤ d ∧ bf.H (Buf.ofFn n xs) n d full = .error .uninit ∧
      p.call i (.uni out (Buf.ofFn n xs) d full n dim1) = .error .uninit) := by
  obtain ⟨c1, c2, -, -⟩ := C18_call ops hid hr ho hi
  have hall := objStates_reachable ops ho
  have hcall : p.call i (.uni out (Buf.ofFn n xs) d full n dim1) = bf.xla out (Buf.ofFn n xs) d full n dim1 := by
    rcases hbf with hb | ⟨e, he, rfl⟩
    · exact c1 bf hb ..
    · exact c2 e he ..
  rw [hcall]
  obtain ⟨cls, x0, xf, nC, m, rfl⟩ : ∃ cls x0 xf nC m, bf = uniNew cls x0 xf nC m := by
    rcases hbf with hb | ⟨e, he, rfl⟩
    · exact hall _ (List.mem_of_getElem? hb)
    · obtain ⟨w, b, hw, hb⟩ := hall _ (List.mem_of_getElem? he)
      refine ⟨.elm e.act w b, e.x0, e.xf, e.nC, e.m, ?_⟩
      unfold Elm.base
      rw [hw, hb]
      rfl
  have e1 : (uniNew cls x0 xf nC m).m = m := by rcases cls with f | _ | ⟨a, w, b⟩ <;> first | rfl | (cases f <;> rfl)
  have e2 : (uniNew cls x0 xf nC m).nC = nC := by rcases cls with f | _ | ⟨a, w, b⟩ <;> first | rfl | (cases f <;> rfl)
  rw [e1] at hm hC hdim
  rw [e2] at hC hdim
  rcases C17_xla_eq_eager cls x0 xf nC m hm hC d full n hn xs out dim1 hdim hout with hok | ⟨-, h9, h1, h2⟩
  · exact Or.inl hok
  · exact Or.inr ⟨h9, h1, h2⟩

/-- A history meeting the hypotheses (`demoHistory`: three objects, one destroyed, its address reused, weights of another
set): wrapper 1 is live and univariate. -/
example : ∃ p objs e, Proc.init.run demoHistory = .ok p ∧ objStates demoHistory = .ok objs ∧
    identifierOf p 1 = some 1 ∧ objs[1]? = some (.elm e) ∧ e.base.m = 1 ∧ ValidRemoval e.base.m e.base.nC := by
  refine ⟨_, _, _, rfl, rfl, rfl, rfl, rfl, ?_⟩
  show ValidRemoval 1 []
  constructor <;> simp

end Verif.Props
