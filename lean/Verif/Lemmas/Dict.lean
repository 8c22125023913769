import Verif.Spec.Dict
import Mathlib.Data.List.Nodup

set_option linter.unusedSectionVars false

/-! # Lemmas about the model of `TFCDict` -/

namespace Verif.Lemmas.Dict

open Verif.Py Verif.Spec Verif.Model.Dict

variable {Key K : Type} [DecidableEq Key]

@[simp] theorem arr_jax (h : Heap K) (a : Arr K) : (Val.jax a).arr h = a := rfl

@[simp] theorem arr_np (h : Heap K) (r : ℕ) : (Val.np r).arr h = h r := rfl

theorem lookup_mem {items : List (Key × Val K)} (hn : (items.map (·.1)).Nodup) {p : Key × Val K} (hp : p ∈ items) :
    lookup items p.1 = .ok p.2 := by
  unfold lookup
  induction items with
  | nil => cases hp
  | cons q items ih =>
    rw [List.map_cons, List.nodup_cons] at hn
    rw [List.find?_cons]
    by_cases hq : q.1 = p.1
    · have : q = p := by
        rcases List.mem_cons.1 hp with e | hp
        · exact e.symm
        · exact absurd (List.mem_map.2 ⟨p, hp, hq.symm⟩) hn.1
      simp [this]
    · simp only [hq, decide_false]
      rcases List.mem_cons.1 hp with e | hp
      · exact absurd (e ▸ rfl) hq
      · exact ih hn.2 hp

theorem lookup_none {items : List (Key × Val K)} {k : Key} (hk : k ∉ items.map (·.1)) :
    lookup items k = .error .keyError := by
  unfold lookup
  rw [List.find?_eq_none.2]
  intro p hp
  simp only [decide_eq_true_eq]
  rintro rfl
  exact hk (List.mem_map.2 ⟨p, hp, rfl⟩)

theorem odSet_keys_mem (items : List (Key × Val K)) {k : Key} (v : Val K) (hk : k ∈ items.map (·.1)) :
    (odSet items k v).map (·.1) = items.map (·.1) := by
  induction items with
  | nil => cases hk
  | cons p items ih =>
    unfold odSet
    by_cases h : p.1 = k
    · rw [if_pos h]
      simp [h]
    · rw [if_neg h, List.map_cons, List.map_cons, ih]
      rcases List.mem_cons.1 hk with e | e
      · exact absurd e.symm h
      · exact e

theorem odSet_new (items : List (Key × Val K)) {k : Key} (v : Val K) (hk : k ∉ items.map (·.1)) :
    odSet items k v = items ++ [(k, v)] := by
  induction items with
  | nil => rfl
  | cons p items ih =>
    unfold odSet
    rw [List.map_cons, List.mem_cons, not_or] at hk
    rw [if_neg (fun e => hk.1 e.symm), ih hk.2]
    rfl

theorem odSet_nodup {items : List (Key × Val K)} (hn : (items.map (·.1)).Nodup) (k : Key) (v : Val K) :
    ((odSet items k v).map (·.1)).Nodup := by
  by_cases hk : k ∈ items.map (·.1)
  · rwa [odSet_keys_mem items v hk]
  · rw [odSet_new items v hk, List.map_append, List.nodup_append]
    refine ⟨hn, by simp, ?_⟩
    rintro a ha b hb rfl
    simp at hb
    exact hk (hb ▸ ha)

theorem odUpdate_nodup {items : List (Key × Val K)} (hn : (items.map (·.1)).Nodup) (kvs : List (Key × Val K)) :
    ((odUpdate items kvs).map (·.1)).Nodup := by
  unfold odUpdate
  induction kvs generalizing items with
  | nil => exact hn
  | cons p kvs ih => exact ih (odSet_nodup hn _ _)

theorem odUpdate_append (items kvs : List (Key × Val K)) (hn : ((items ++ kvs).map (·.1)).Nodup) :
    odUpdate items kvs = items ++ kvs := by
  unfold odUpdate
  induction kvs generalizing items with
  | nil => simp
  | cons p kvs ih =>
    have hp : p.1 ∉ items.map (·.1) := by
      rw [List.map_append, List.nodup_append] at hn
      intro h
      exact hn.2.2 _ h _ (by simp) rfl
    rw [List.foldl_cons, odSet_new items p.2 hp, ih]
    · simp
    · simpa using hn

theorem odUpdate_self {kvs : List (Key × Val K)} (hn : (kvs.map (·.1)).Nodup) : odUpdate [] kvs = kvs :=
  odUpdate_append [] kvs (by simpa using hn)

/-- Every value of `odUpdate` comes from one of the two lists. -/
theorem odSet_mem {items : List (Key × Val K)} {k : Key} {v : Val K} {p : Key × Val K} (hp : p ∈ odSet items k v) :
    p ∈ items ∨ p = (k, v) := by
  induction items with
  | nil => exact Or.inr (by simpa [odSet] using hp)
  | cons q items ih =>
    unfold odSet at hp
    by_cases h : q.1 = k
    · rw [if_pos h] at hp
      rcases List.mem_cons.1 hp with e | e
      · exact Or.inr e
      · exact Or.inl (by simp [e])
    · rw [if_neg h] at hp
      rcases List.mem_cons.1 hp with e | e
      · exact Or.inl (by simp [e])
      · rcases ih e with e | e
        · exact Or.inl (by simp [e])
        · exact Or.inr e

theorem odUpdate_mem {items kvs : List (Key × Val K)} {p : Key × Val K} (hp : p ∈ odUpdate items kvs) :
    p ∈ items ∨ p ∈ kvs := by
  unfold odUpdate at hp
  induction kvs generalizing items with
  | nil => exact Or.inl hp
  | cons q kvs ih =>
    rcases ih hp with e | e
    · rcases odSet_mem e with e | e
      · exact Or.inl e
      · exact Or.inr (by simp [e])
    · exact Or.inr (by simp [e])

/-- The slices a dictionary should have. -/
def offsets (h : Heap K) : ℕ → List (Key × Val K) → List (Option (ℕ × ℕ))
  | _, [] => []
  | start, p :: items =>
    some (start, start + (p.2.arr h).data.length) :: offsets h (start + (p.2.arr h).data.length) items

theorem suits_len {cls : DictClass} {h : Heap K} {v : Val K} (hv : Suits cls h v) :
    arrLen cls (v.arr h) = .ok (v.arr h).data.length := by
  cases cls with
  | plain =>
    unfold arrLen
    simp only
    rw [show (v.arr h).shape = _ from hv]
  | robust => rfl

theorem suits_isArray {cls : DictClass} {h : Heap K} {v : Val K} (hv : Suits cls h v) : isArray cls v = true := by
  cases cls with
  | plain => rfl
  | robust =>
    obtain ⟨_, a, rfl⟩ := hv
    rfl

theorem slicesFrom_ok {cls : DictClass} {h : Heap K} {items : List (Key × Val K)} (hn : (items.map (·.1)).Nodup)
    (hs : ∀ p ∈ items, Suits cls h p.2) (sub : List (Key × Val K)) (hsub : ∀ p ∈ sub, p ∈ items) (start : ℕ) :
    slicesFrom cls h items start (sub.map (·.1)) = .ok (offsets h start sub) := by
  induction sub generalizing start with
  | nil => rfl
  | cons p sub ih =>
    have hp := hsub p (by simp)
    rw [List.map_cons]
    unfold slicesFrom
    rw [lookup_mem hn hp]
    show (arrLen cls (p.2.arr h) >>= _) = _
    rw [suits_len (hs p hp)]
    show (slicesFrom cls h items (start + (p.2.arr h).data.length) (sub.map (·.1)) >>= _) = _
    rw [ih (fun q hq => hsub q (by simp [hq]))]
    rfl

theorem refresh_ok {cls : DictClass} {h : Heap K} {items : List (Key × Val K)} (hn : (items.map (·.1)).Nodup)
    (hs : ∀ p ∈ items, Suits cls h p.2) :
    refresh cls h items = .ok ⟨items, items.map (·.1), offsets h 0 items⟩ := by
  unfold refresh getSlices
  simp only
  rw [if_pos (List.all_eq_true.2 fun p hp => suits_isArray (hs p hp)), slicesFrom_ok hn hs items (fun p hp => hp)]
  rfl

/-- Cut a flat list into pieces as long as the arrays of `items`, with their keys and shapes. -/
def fillWith (h : Heap K) : List (Key × Val K) → List K → List (Key × Val K)
  | [], _ => []
  | p :: items, l => (p.1, .jax ⟨(p.2.arr h).shape, l.take (p.2.arr h).data.length⟩) ::
      fillWith h items (l.drop (p.2.arr h).data.length)

theorem flat_cons (h : Heap K) (p : Key × Val K) (items : List (Key × Val K)) :
    flat h (p :: items) = (p.2.arr h).data ++ flat h items := by
  simp [flat]

theorem piece_ok {cls : DictClass} {h : Heap K} {d : TDict Key K} (hn : (d.items.map (·.1)).Nodup)
    (hs : ∀ p ∈ d.items, Suits cls h p.2) {p : Key × Val K} (hp : p ∈ d.items) {l : List K} {start : ℕ}
    (hl : (p.2.arr h).data.length ≤ (l.drop start).length) :
    piece cls h d l p.1 (some (start, start + (p.2.arr h).data.length)) =
      .ok ⟨(p.2.arr h).shape, (l.drop start).take (p.2.arr h).data.length⟩ := by
  have hlen : ((l.drop start).take (p.2.arr h).data.length).length = (p.2.arr h).data.length := by
    rw [List.length_take]
    omega
  have hsl : sliceOf l (some (start, start + (p.2.arr h).data.length)) =
      ⟨[(p.2.arr h).data.length], (l.drop start).take (p.2.arr h).data.length⟩ := by
    unfold sliceOf
    simp only
    rw [Nat.add_sub_cancel_left, hlen]
  cases cls with
  | plain =>
    unfold piece
    simp only
    rw [hsl, show (p.2.arr h).shape = _ from hs p hp]
  | robust =>
    unfold piece
    simp only
    rw [lookup_mem hn hp, hsl]
    show Arr.reshape _ (p.2.arr h).shape = _
    unfold Arr.reshape
    rw [if_pos]
    rw [(hs p hp).1]
    exact hlen.symm

theorem pieces_ok {cls : DictClass} {h : Heap K} {d : TDict Key K} (hn : (d.items.map (·.1)).Nodup)
    (hs : ∀ p ∈ d.items, Suits cls h p.2) (l : List K) (sub : List (Key × Val K)) (hsub : ∀ p ∈ sub, p ∈ d.items)
    (start : ℕ) (hl : (l.drop start).length = (flat h sub).length) :
    pieces cls h d l (sub.map (·.1)) (offsets h start sub) = .ok (fillWith h sub (l.drop start)) := by
  induction sub generalizing start with
  | nil => rfl
  | cons p sub ih =>
    have hp := hsub p (by simp)
    rw [flat_cons, List.length_append] at hl
    rw [List.map_cons]
    unfold offsets pieces
    rw [piece_ok hn hs hp (by omega)]
    show (pieces cls h d l (sub.map (·.1)) (offsets h (start + (p.2.arr h).data.length) sub) >>= _) = _
    rw [ih (fun q hq => hsub q (by simp [hq])) (start + (p.2.arr h).data.length)
      (by simp only [List.length_drop] at hl ⊢; omega)]
    show Except.ok _ = _
    conv_rhs => unfold fillWith
    rw [List.drop_drop]

theorem fillWith_keys (h : Heap K) (items : List (Key × Val K)) (l : List K) :
    (fillWith h items l).map (·.1) = items.map (·.1) := by
  induction items generalizing l with
  | nil => rfl
  | cons p items ih => simp [fillWith, ih]

theorem fillWith_outline (h h' : Heap K) (items : List (Key × Val K)) (l : List K) :
    outline h' (fillWith h items l) = outline h items := by
  induction items generalizing l with
  | nil => rfl
  | cons p items ih =>
    have := ih (l.drop (p.2.arr h).data.length)
    simp only [outline] at this ⊢
    simp [fillWith, this]

theorem fillWith_flat (h h' : Heap K) (items : List (Key × Val K)) (l : List K) (hl : l.length = (flat h items).length) :
    flat h' (fillWith h items l) = l := by
  induction items generalizing l with
  | nil =>
    have : l = [] := List.eq_nil_of_length_eq_zero hl
    simp [fillWith, flat, this]
  | cons p items ih =>
    rw [flat_cons, List.length_append] at hl
    unfold fillWith
    rw [flat_cons, ih _ (by rw [List.length_drop]; omega)]
    exact List.take_append_drop _ _

theorem fillWith_self (h h' : Heap K) (items : List (Key × Val K)) :
    content h' (fillWith h items (flat h items)) = content h items := by
  induction items with
  | nil => rfl
  | cons p items ih =>
    rw [flat_cons]
    unfold fillWith
    rw [List.take_left, List.drop_left]
    simp only [content, List.map_cons] at ih ⊢
    rw [ih]
    rfl

theorem fillWith_suits {cls : DictClass} {h h' : Heap K} {items : List (Key × Val K)} {l : List K}
    (hs : ∀ p ∈ items, Suits cls h p.2) (hl : l.length = (flat h items).length) :
    ∀ p ∈ fillWith h items l, Suits cls h' p.2 := by
  induction items generalizing l with
  | nil => intro p hp; cases hp
  | cons q items ih =>
    rw [flat_cons, List.length_append] at hl
    intro p hp
    unfold fillWith at hp
    rcases List.mem_cons.1 hp with rfl | hp
    · have hlen : (l.take (q.2.arr h).data.length).length = (q.2.arr h).data.length := by
        rw [List.length_take]
        omega
      have hq := hs q (by simp)
      cases cls with
      | plain =>
        show (q.2.arr h).shape = [(l.take (q.2.arr h).data.length).length]
        rw [hlen]
        exact hq
      | robust =>
        refine ⟨?_, _, rfl⟩
        show (q.2.arr h).shape.prod = (l.take (q.2.arr h).data.length).length
        rw [hlen]
        exact hq.1
    · exact ih (fun p hp => hs p (by simp [hp])) (by rw [List.length_drop]; omega) p hp

theorem fillWith_lengths (h h' : Heap K) (items : List (Key × Val K)) (l : List K)
    (hl : l.length = (flat h items).length) (start : ℕ) :
    offsets h' start (fillWith h items l) = offsets h start items := by
  induction items generalizing l start with
  | nil => rfl
  | cons p items ih =>
    rw [flat_cons, List.length_append] at hl
    unfold fillWith offsets
    have hlen : (l.take (p.2.arr h).data.length).length = (p.2.arr h).data.length := by
      rw [List.length_take]
      omega
    simp only [arr_jax, hlen]
    rw [ih _ (by rw [List.length_drop]; omega)]

theorem toArray_ok {cls : DictClass} {h : Heap K} {d : TDict Key K} (hs : ∀ p ∈ d.items, Suits cls h p.2)
    (hne : d.items ≠ []) : d.toArray cls h = .ok ⟨[(flat h d.items).length], flat h d.items⟩ := by
  have hf : ∀ (g : Key × Val K → Arr K), (∀ p ∈ d.items, (g p).shape = [(g p).data.length] ∧ (g p).data = (p.2.arr h).data) →
      hstack (d.items.map g) = .ok ⟨[(flat h d.items).length], flat h d.items⟩ := by
    intro g hg
    unfold hstack
    rw [if_neg (by simpa using hne), if_pos]
    · have : (List.map (fun a => a.data) (List.map g d.items)) = d.items.map fun p => (p.2.arr h).data := by
        rw [List.map_map]
        exact List.map_congr_left fun p hp => (hg p hp).2
      rw [this]
      rfl
    · rw [List.all_eq_true]
      intro a ha
      obtain ⟨p, hp, rfl⟩ := List.mem_map.1 ha
      simpa using (hg p hp).1
  cases cls with
  | plain => exact hf _ fun p hp => ⟨hs p hp, rfl⟩
  | robust => exact hf _ fun p hp => ⟨rfl, rfl⟩

/-- The state of an object right after `__init__` or `update`. -/
structure Fresh (cls : DictClass) (h : Heap K) (d : TDict Key K) : Prop where
  nodup : (d.items.map (·.1)).Nodup
  suits : ∀ p ∈ d.items, Suits cls h p.2
  keys : d.keys = d.items.map (·.1)
  slices : d.slices = offsets h 0 d.items

theorem refresh_fresh {cls : DictClass} {h : Heap K} {items : List (Key × Val K)} (hn : (items.map (·.1)).Nodup)
    (hs : ∀ p ∈ items, Suits cls h p.2) : ∃ d, refresh cls h items = .ok d ∧ d.items = items ∧ Fresh cls h d :=
  ⟨_, refresh_ok hn hs, rfl, hn, hs, rfl, rfl⟩

theorem Fresh.toDict {cls : DictClass} {h : Heap K} {d : TDict Key K} (F : Fresh cls h d) (arr : Arr K)
    (hl : arr.data.length = (flat h d.items).length) :
    ∃ d', d.toDict cls h arr = .ok d' ∧ d'.items = fillWith h d.items arr.data ∧ d'.keys = d.keys ∧
      d'.slices = d.slices ∧ Fresh cls h d' := by
  have hkeys := fillWith_keys h d.items arr.data
  have hn : ((fillWith h d.items arr.data).map (·.1)).Nodup := by
    rw [hkeys]
    exact F.nodup
  have hsuit := fillWith_suits (h' := h) F.suits hl
  refine ⟨⟨fillWith h d.items arr.data, (fillWith h d.items arr.data).map (·.1), offsets h 0 (fillWith h d.items arr.data)⟩,
    ?_, rfl, ?_, ?_, hn, hsuit, rfl, rfl⟩
  · unfold TDict.toDict
    rw [F.keys, F.slices]
    have := pieces_ok F.nodup F.suits arr.data d.items (fun p hp => hp) 0 (by simpa using hl)
    show (pieces cls h d arr.data (d.items.map (·.1)) (offsets h 0 d.items) >>= _) = _
    rw [this]
    show TDict.init cls h (fillWith h d.items arr.data) = _
    unfold TDict.init
    rw [odUpdate_self hn, refresh_ok hn hsuit]
  · exact hkeys.trans F.keys.symm
  · rw [F.slices]
    exact fillWith_lengths h h d.items arr.data hl 0

/-! ### Arithmetic -/

/-- The entrywise operation on arrays of the same shape. -/
def zipArr (f : K → K → K) (a b : Arr K) : Arr K := ⟨a.shape, List.zipWith f a.data b.data⟩

theorem odSet_mid (done rest : List (Key × Val K)) (k : Key) (x v : Val K) (hk : k ∉ done.map (·.1)) :
    odSet (done ++ (k, x) :: rest) k v = done ++ (k, v) :: rest := by
  induction done with
  | nil => simp [odSet]
  | cons p done ih =>
    rw [List.map_cons, List.mem_cons, not_or] at hk
    rw [List.cons_append]
    unfold odSet
    rw [if_neg (fun e => hk.1 e.symm), ih hk.2]
    rfl

/-- Both operands are numpy arrays, so that `x += y` works in place. -/
def BothNp (x y : Val K) : Prop := (∃ r, x = .np r) ∧ ∃ s, y = .np s

/-- Reading other array objects is not affected by changing array `r`. -/
theorem arr_update {h : Heap K} {r : ℕ} {c : Arr K} {v : Val K} (hv : v ≠ .np r) :
    v.arr (Function.update h r c) = v.arr h := by
  cases v with
  | jax a => rfl
  | np s =>
    have : s ≠ r := fun e => hv (by rw [e])
    simp [this]

theorem content_congr {h h' : Heap K} {items : List (Key × Val K)} (he : ∀ p ∈ items, p.2.arr h = p.2.arr h') :
    content h items = content h' items := by
  unfold content
  exact List.map_congr_left fun p hp => by rw [he p hp]

theorem loopDict_ok (f : K → K → K) (o : List (Key × Val K)) (oy : Key → Val K) (sub : List (Key × Val K))
    (done : List (Key × Val K)) (h : Heap K) (hn : ((done ++ sub).map (·.1)).Nodup)
    (ho : ∀ p ∈ sub, lookup o p.1 = .ok (oy p.1))
    (hsh : ∀ p ∈ sub, (p.2.arr h).shape = ((oy p.1).arr h).shape)
    (hdone : ∀ p ∈ sub, BothNp p.2 (oy p.1) → ∀ q ∈ done, q.2 ≠ p.2)
    (hsep : ∀ p ∈ sub, BothNp p.2 (oy p.1) → ∀ q ∈ sub, q.1 ≠ p.1 → q.2 ≠ p.2 ∧ oy q.1 ≠ p.2) :
    ∃ h' sub', loopDict f o (sub.map (·.1)) (h, done ++ sub) = .ok (h', done ++ sub') ∧
      content h' done = content h done ∧
      content h' sub' = sub.map (fun p => (p.1, zipArr f (p.2.arr h) ((oy p.1).arr h))) ∧
      (∀ r, (∀ p ∈ sub, BothNp p.2 (oy p.1) → p.2 ≠ .np r) → h' r = h r) := by
  induction sub generalizing done h with
  | nil => exact ⟨h, [], rfl, rfl, rfl, fun _ _ => rfl⟩
  | cons p sub ih =>
    obtain ⟨k, x⟩ := p
    have hkd : k ∉ done.map (·.1) := by
      intro hk
      rw [List.map_append, List.nodup_append] at hn
      exact hn.2.2 _ hk _ (by simp) rfl
    have hks : k ∉ sub.map (·.1) := by
      rw [List.map_append, List.nodup_append, List.map_cons, List.nodup_cons] at hn
      exact hn.2.1.1
    have hlook : lookup (done ++ (k, x) :: sub) k = .ok x :=
      lookup_mem (p := (k, x)) hn (by simp)
    have hshape := hsh (k, x) (by simp)
    have hne : ∀ q ∈ sub, q.1 ≠ k := fun q hq e => hks (e ▸ List.mem_map.2 ⟨q, hq, rfl⟩)
    -- one step
    have hstep : ∃ h1 v, stepKey f h (done ++ (k, x) :: sub) k (oy k) = .ok (h1, done ++ (k, v) :: sub) ∧
        v.arr h1 = zipArr f (x.arr h) ((oy k).arr h) ∧
        ((h1 = h ∧ ∃ a, v = .jax a) ∨ (BothNp x (oy k) ∧ v = x ∧ ∃ r, x = .np r ∧
          h1 = Function.update h r (zipArr f (x.arr h) ((oy k).arr h)))) := by
      unfold stepKey
      rw [hlook]
      unfold inplace
      simp only [bind, Except.bind]
      rw [if_pos hshape]
      cases x with
      | jax a =>
        exact ⟨h, _, by simp only [odSet_mid _ _ _ _ _ hkd], rfl, Or.inl ⟨rfl, _, rfl⟩⟩
      | np r =>
        cases hy : oy k with
        | jax b => exact ⟨h, _, by simp only [odSet_mid _ _ _ _ _ hkd], rfl, Or.inl ⟨rfl, _, rfl⟩⟩
        | np s =>
          refine ⟨Function.update h r (zipArr f (h r) (h s)), .np r, ?_, ?_, Or.inr ⟨⟨⟨r, rfl⟩, s, rfl⟩, rfl, r, rfl, rfl⟩⟩
          · simp only [odSet_mid _ _ _ _ _ hkd]
            rfl
          · simp
    obtain ⟨h1, v, e1, e2, e3⟩ := hstep
    have hrun : loopDict f o (((k, x) :: sub).map (·.1)) (h, done ++ (k, x) :: sub) =
        loopDict f o (sub.map (·.1)) (h1, (done ++ [(k, v)]) ++ sub) := by
      rw [List.map_cons]
      conv_lhs => unfold loopDict
      rw [ho (k, x) (by simp)]
      show (stepKey f h (done ++ (k, x) :: sub) k (oy k) >>= _) = _
      rw [e1]
      show loopDict f o (sub.map (·.1)) (h1, done ++ (k, v) :: sub) = _
      simp
    have hkeep : ∀ w : Val K, (BothNp x (oy k) → w ≠ x) → w.arr h1 = w.arr h := by
      intro w hw
      rcases e3 with ⟨rfl, _⟩ | ⟨hb, _, r, hr, rfl⟩
      · rfl
      · exact arr_update (hr ▸ hw hb)
    have hsub1 : ∀ q ∈ sub, q.2.arr h1 = q.2.arr h ∧ (oy q.1).arr h1 = (oy q.1).arr h := fun q hq =>
      ⟨hkeep _ fun hb => (hsep (k, x) (by simp) hb q (by simp [hq]) (hne q hq)).1,
        hkeep _ fun hb => (hsep (k, x) (by simp) hb q (by simp [hq]) (hne q hq)).2⟩
    obtain ⟨h', sub', g1, g2, g3, g4⟩ := ih (done ++ [(k, v)]) h1
      (by
        have : ((done ++ [(k, v)] ++ sub).map (·.1)) = ((done ++ (k, x) :: sub).map (·.1)) := by simp
        rw [this]
        exact hn)
      (fun q hq => ho q (by simp [hq]))
      (fun q hq => by rw [(hsub1 q hq).1, (hsub1 q hq).2]; exact hsh q (by simp [hq]))
      (fun q hq hb w hw => by
        rcases List.mem_append.1 hw with hw | hw
        · exact hdone q (by simp [hq]) hb w hw
        · rw [List.mem_singleton] at hw
          subst hw
          rcases e3 with ⟨_, a, rfl⟩ | ⟨_, rfl, _⟩
          · obtain ⟨⟨r, hr⟩, _⟩ := hb
            rw [hr]
            exact fun e => by cases e
          · exact (hsep q (by simp [hq]) hb (k, v) (by simp) (Ne.symm (hne q hq))).1)
      (fun q hq hb w hw hwq => hsep q (by simp [hq]) hb w (by simp [hw]) hwq)
    refine ⟨h', (k, v) :: sub', ?_, ?_, ?_, ?_⟩
    · rw [hrun, g1]
      simp
    · have hd : content h' done ++ content h' [(k, v)] = content h1 done ++ content h1 [(k, v)] := by
        simpa [content] using g2
      have hd' := (List.append_inj hd (by simp [content])).1
      rw [hd']
      exact content_congr fun q hq => hkeep _ fun hb => hdone (k, x) (by simp) hb q hq
    · have hd : content h' done ++ content h' [(k, v)] = content h1 done ++ content h1 [(k, v)] := by
        simpa [content] using g2
      have hv := (List.append_inj hd (by simp [content])).2
      have hv : v.arr h' = v.arr h1 := by simpa [content] using hv
      simp only [content, List.map_cons] at g3 ⊢
      rw [g3, hv, e2]
      congr 1
      exact List.map_congr_left fun q hq => by rw [(hsub1 q hq).1, (hsub1 q hq).2]
    · intro r hr
      rw [g4 r fun q hq => hr q (by simp [hq])]
      rcases e3 with ⟨rfl, _⟩ | ⟨hb, _, r', hr', rfl⟩
      · rfl
      · have : r ≠ r' := fun e => hr (k, x) (by simp) hb (by rw [e]; exact hr')
        exact Function.update_of_ne this _ _

/-- The values the loop over the slices of a flat array leaves behind. -/
def combineFlat (f : K → K → K) (h : Heap K) : List (Key × Val K) → List K → List (Key × Val K)
  | [], _ => []
  | p :: items, l => (p.1, .jax (zipArr f (p.2.arr h) ⟨(p.2.arr h).shape, l.take (p.2.arr h).data.length⟩)) ::
      combineFlat f h items (l.drop (p.2.arr h).data.length)

theorem loopFlat_ok {cls : DictClass} (f : K → K → K) {h : Heap K} {d : TDict Key K} (F : Fresh cls h d) (l : List K)
    (sub : List (Key × Val K)) (hsub : ∀ p ∈ sub, p ∈ d.items) (done : List (Key × Val K))
    (hn : ((done ++ sub).map (·.1)).Nodup) (start : ℕ) (hl : (l.drop start).length = (flat h sub).length) :
    loopFlat cls f d l (sub.map (·.1)) (offsets h start sub) (h, done ++ sub) =
      .ok (h, done ++ combineFlat f h sub (l.drop start)) := by
  induction sub generalizing done start with
  | nil => rfl
  | cons p sub ih =>
    obtain ⟨k, x⟩ := p
    have hp := hsub (k, x) (by simp)
    have hkd : k ∉ done.map (·.1) := by
      intro hk
      rw [List.map_append, List.nodup_append] at hn
      exact hn.2.2 _ hk _ (by simp) rfl
    rw [flat_cons, List.length_append] at hl
    have hlook : lookup (done ++ (k, x) :: sub) k = .ok x := lookup_mem (p := (k, x)) hn (by simp)
    rw [List.map_cons]
    unfold offsets loopFlat
    have hpiece := piece_ok F.nodup F.suits hp (l := l) (start := start) (by omega)
    simp only at hpiece
    rw [hpiece]
    have hstep : stepKey f h (done ++ (k, x) :: sub) k
        (.jax ⟨(x.arr h).shape, (l.drop start).take (x.arr h).data.length⟩) =
        .ok (h, done ++ (k, .jax (zipArr f (x.arr h) ⟨(x.arr h).shape, (l.drop start).take (x.arr h).data.length⟩)) :: sub) := by
      unfold stepKey
      rw [hlook]
      unfold inplace
      simp only [bind, Except.bind, arr_jax, if_true]
      cases x <;> (simp only [odSet_mid _ _ _ _ _ hkd] <;> rfl)
    show (stepKey f h (done ++ (k, x) :: sub) k _ >>= _) = _
    rw [hstep]
    have := ih (fun q hq => hsub q (by simp [hq]))
      (done ++ [(k, .jax (zipArr f (x.arr h) ⟨(x.arr h).shape, (l.drop start).take (x.arr h).data.length⟩))])
      (by
        have : ((done ++ [(k, Val.jax (zipArr f (x.arr h) ⟨(x.arr h).shape, (l.drop start).take (x.arr h).data.length⟩))]
          ++ sub).map (·.1)) = ((done ++ (k, x) :: sub).map (·.1)) := by simp
        rw [this]
        exact hn)
      (start + (x.arr h).data.length) (by simp only [List.length_drop] at hl ⊢; omega)
    rw [List.append_assoc, List.singleton_append] at this
    show loopFlat cls f d l (sub.map (·.1)) (offsets h (start + (x.arr h).data.length) sub) _ = _
    rw [this]
    conv_rhs => unfold combineFlat
    simp [List.drop_drop]

theorem combineFlat_keys (f : K → K → K) (h : Heap K) (items : List (Key × Val K)) (l : List K) :
    (combineFlat f h items l).map (·.1) = items.map (·.1) := by
  induction items generalizing l with
  | nil => rfl
  | cons p items ih => simp [combineFlat, ih]

theorem combineFlat_outline (f : K → K → K) (h h' : Heap K) (items : List (Key × Val K)) (l : List K) :
    outline h' (combineFlat f h items l) = outline h items := by
  induction items generalizing l with
  | nil => rfl
  | cons p items ih =>
    have := ih (l.drop (p.2.arr h).data.length)
    simp only [outline] at this ⊢
    simp [combineFlat, zipArr, this]

theorem combineFlat_flat (f : K → K → K) (h h' : Heap K) (items : List (Key × Val K)) (l : List K)
    (hl : l.length = (flat h items).length) :
    flat h' (combineFlat f h items l) = List.zipWith f (flat h items) l := by
  induction items generalizing l with
  | nil => simp [combineFlat, flat]
  | cons p items ih =>
    rw [flat_cons, List.length_append] at hl
    unfold combineFlat
    rw [flat_cons, flat_cons, ih _ (by rw [List.length_drop]; omega)]
    conv_rhs => rw [← List.take_append_drop (p.2.arr h).data.length l]
    rw [List.zipWith_append (by rw [List.length_take]; omega)]
    rfl

end Verif.Lemmas.Dict
