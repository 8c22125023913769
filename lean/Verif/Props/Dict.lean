import Verif.Lemmas.Dict
import Mathlib.Algebra.Ring.Int.Defs

/-!
# C29–C32: the dictionaries of arrays

`cls = .plain` is `TFCDict`, `cls = .robust` is `TFCDictRobust`. `Suits` says what kind of arrays each is for. `h` is the heap of
numpy arrays.
-/

set_option linter.unusedSectionVars false

namespace Verif.Props

open Verif.Py Verif.Spec Verif.Model.Dict Verif.Lemmas.Dict

variable {Key K : Type} [DecidableEq Key]

/-! ## Round trips -/

/-- `toDict(toArray())` gives back the dictionary, and `toArray` lists its entries. -/
def RoundTrips (cls : DictClass) (h : Heap K) (d : TDict Key K) : Prop :=
  ∃ arr d', d.toArray cls h = .ok arr ∧ arr.shape = [arr.data.length] ∧ arr.data = flat h d.items ∧
    d.toDict cls h arr = .ok d' ∧ content h d'.items = content h d.items ∧ d'.keys = d'.items.map (·.1)

/-- Every flat array of the right length is unflattened to a dictionary with the same keys and shapes and the given entries. -/
def Unflattens (cls : DictClass) (h : Heap K) (d : TDict Key K) : Prop :=
  ∀ l : List K, l.length = (flat h d.items).length →
    ∃ d', d.toDict cls h ⟨[l.length], l⟩ = .ok d' ∧ outline h d'.items = outline h d.items ∧
      d'.toArray cls h = .ok ⟨[l.length], l⟩

theorem fresh_roundTrips {cls : DictClass} {h : Heap K} {d : TDict Key K} (F : Fresh cls h d) (hne : d.items ≠ []) :
    RoundTrips cls h d := by
  obtain ⟨d', h1, h2, _, _, F'⟩ := F.toDict ⟨[(flat h d.items).length], flat h d.items⟩ rfl
  refine ⟨_, d', toArray_ok F.suits hne, rfl, rfl, h1, ?_, F'.keys⟩
  rw [h2]
  exact fillWith_self h h d.items

theorem fresh_unflattens {cls : DictClass} {h : Heap K} {d : TDict Key K} (F : Fresh cls h d) (hne : d.items ≠ []) :
    Unflattens cls h d := by
  intro l hl
  obtain ⟨d', h1, h2, _, _, F'⟩ := F.toDict ⟨[l.length], l⟩ hl
  refine ⟨d', h1, ?_, ?_⟩
  · rw [h2]
    exact fillWith_outline h h d.items l
  · have hf : flat h d'.items = l := by
      rw [h2]
      exact fillWith_flat h h d.items l hl
    rw [toArray_ok F'.suits, hf]
    rw [h2]
    intro e
    have := congrArg (List.map (·.1)) e
    rw [fillWith_keys] at this
    exact hne (by simpa using this)

theorem init_fresh {cls : DictClass} {h : Heap K} {kvs : List (Key × Val K)} (hs : ∀ p ∈ kvs, Suits cls h p.2) :
    ∃ d, TDict.init cls h kvs = .ok d ∧ d.items = odUpdate [] kvs ∧ Fresh cls h d :=
  refresh_fresh (odUpdate_nodup (by simp) kvs) fun p hp =>
    (odUpdate_mem hp).elim (fun e => by cases e) (hs p)

theorem odSet_ne_nil (items : List (Key × Val K)) (k : Key) (v : Val K) : odSet items k v ≠ [] := by
  cases items with
  | nil => simp [odSet]
  | cons p items =>
    unfold odSet
    split <;> simp

theorem odUpdate_ne_nil (items : List (Key × Val K)) {kvs : List (Key × Val K)} (hne : kvs ≠ []) :
    odUpdate items kvs ≠ [] := by
  unfold odUpdate
  induction kvs generalizing items with
  | nil => exact absurd rfl hne
  | cons p kvs ih =>
    rw [List.foldl_cons]
    by_cases hk : kvs = []
    · rw [hk]
      exact odSet_ne_nil _ _ _
    · exact ih _ hk

/-- **C29.** Let `d = TFCDict(kvs)` with at least one key, all values one-dimensional arrays. Then `d.toDict(d.toArray())` has the
same keys in the same order with the same arrays, `d.toDict(l).toArray()` is `l` for every flat array `l` of the right
length, and flattening and unflattening `d` as a JAX pytree gives `d`.
Missing: the empty dictionary, see `C29_empty_fails`. -/
theorem C29_roundtrip_partial (h : Heap K) (kvs : List (Key × Val K)) (hne : kvs ≠ [])
    (hs : ∀ p ∈ kvs, (p.2.arr h).shape = [(p.2.arr h).data.length]) :
    ∃ d, TDict.init .plain h kvs = .ok d ∧ RoundTrips .plain h d ∧ Unflattens .plain h d ∧
      treeUnflatten .plain h (treeFlatten d).2 (treeFlatten d).1 = .ok d := by
  obtain ⟨d, h1, h2, F⟩ := init_fresh (cls := .plain) hs
  have hd : d.items ≠ [] := h2 ▸ odUpdate_ne_nil [] hne
  refine ⟨d, h1, fresh_roundTrips F hd, fresh_unflattens F hd, ?_⟩
  unfold treeUnflatten treeFlatten TDict.init
  simp only
  have hz : (d.items.map (·.1)).zip (d.items.map (·.2)) = d.items := by
    rw [List.zip_map']
    simp
  rw [hz, odUpdate_self F.nodup, refresh_ok F.nodup F.suits, ← F.keys, ← F.slices]

/-- Two keys, one JAX array and one numpy array, in the second position a repeated key. -/
example : ∀ p ∈ ([("a", .jax ⟨[2], [1, 2]⟩), ("b", .np 0), ("a", .jax ⟨[1], [5]⟩)] : List (String × Val ℤ)),
    (p.2.arr (fun _ => ⟨[3], [7, 8, 9]⟩)).shape = [(p.2.arr (fun _ => ⟨[3], [7, 8, 9]⟩)).data.length] := by
  simp

/-- C29 is false for the dictionary without keys: `toArray` raises (`np.hstack` of an empty list). -/
theorem C29_empty_fails (h : Heap K) :
    ∃ d : TDict Key K, TDict.init .plain h [] = .ok d ∧ ¬ RoundTrips .plain h d := by
  refine ⟨_, rfl, ?_⟩
  rintro ⟨arr, d', e, _⟩
  cases e

/-- The pytree part of C29 alone holds for every dictionary of one-dimensional arrays, also the empty one. -/
theorem C29_pytree (h : Heap K) (kvs : List (Key × Val K))
    (hs : ∀ p ∈ kvs, (p.2.arr h).shape = [(p.2.arr h).data.length]) :
    ∃ d, TDict.init .plain h kvs = .ok d ∧
      treeUnflatten .plain h (treeFlatten d).2 (treeFlatten d).1 = .ok d := by
  obtain ⟨d, h1, h2, F⟩ := init_fresh (cls := .plain) hs
  refine ⟨d, h1, ?_⟩
  unfold treeUnflatten treeFlatten TDict.init
  simp only
  have hz : (d.items.map (·.1)).zip (d.items.map (·.2)) = d.items := by
    rw [List.zip_map']
    simp
  rw [hz, odUpdate_self F.nodup, refresh_ok F.nodup F.suits, ← F.keys, ← F.slices]

/-! ## Arithmetic -/

/-- The operand has the same keys as `d`, in any order, with arrays of the same shapes; `oy` are its arrays. -/
def SameKeys (h : Heap K) (d : TDict Key K) (o : List (Key × Val K)) (oy : Key → Val K) : Prop :=
  ∀ p ∈ d.items, lookup o p.1 = .ok (oy p.1) ∧ (p.2.arr h).shape = ((oy p.1).arr h).shape

/-- Where both arrays of a key are numpy arrays (so that the operation works in place), the array changed is not used under
another key. -/
def NoSharing (d : TDict Key K) (oy : Key → Val K) : Prop :=
  ∀ p ∈ d.items, BothNp p.2 (oy p.1) → ∀ q ∈ d.items, q.1 ≠ p.1 → q.2 ≠ p.2 ∧ oy q.1 ≠ p.2

/-- Every key of `d` with the arrays of `d` and `o` combined entrywise. -/
def combined (f : K → K → K) (h : Heap K) (d : TDict Key K) (oy : Key → Val K) : List (Key × Arr K) :=
  d.items.map fun p => (p.1, ⟨(p.2.arr h).shape, List.zipWith f (p.2.arr h).data ((oy p.1).arr h).data⟩)

/-- `d += o` and `d -= o` (`f` is `+` or `-`) with a dictionary `o` with the same keys change the array of each key by the array of
`o` under that key; keys and order stay. For both classes. -/
theorem iop_dict (cls : DictClass) (f : K → K → K) (h : Heap K) (d : TDict Key K) (F : Fresh cls h d)
    (o : List (Key × Val K)) (oy : Key → Val K) (ho : SameKeys h d o oy) (hsep : NoSharing d oy) :
    ∃ h' d', d.iop cls f h (.dict o) = .ok (h', d') ∧ content h' d'.items = combined f h d oy ∧
      d'.keys = d.keys ∧ d'.slices = d.slices := by
  obtain ⟨h', sub', g1, -, g3, -⟩ := loopDict_ok f o oy d.items [] h (by simpa using F.nodup) (fun p hp => (ho p hp).1)
    (fun p hp => (ho p hp).2) (fun p hp hb q hq => by cases hq) hsep
  refine ⟨h', { d with items := sub' }, ?_, g3, rfl, rfl⟩
  unfold TDict.iop combine
  simp only
  rw [F.keys]
  simp only [List.nil_append] at g1
  rw [g1]
  rfl

/-- `d + o` and `d - o` with a dictionary: the result has the combined arrays. If no key has numpy arrays on both sides, nothing
else changes, in particular not `d`. For both classes. -/
theorem op_dict (cls : DictClass) (f : K → K → K) (h : Heap K) (d : TDict Key K) (F : Fresh cls h d)
    (o : List (Key × Val K)) (oy : Key → Val K) (ho : SameKeys h d o oy) (hsep : NoSharing d oy) :
    ∃ h' d', d.op cls f h (.dict o) = .ok (h', d') ∧ content h' d'.items = combined f h d oy ∧
      d'.keys = d.keys ∧ d'.slices = d.slices ∧ ((∀ p ∈ d.items, ¬ BothNp p.2 (oy p.1)) → h' = h) := by
  obtain ⟨h', sub', g1, -, g3, g4⟩ := loopDict_ok f o oy d.items [] h (by simpa using F.nodup) (fun p hp => (ho p hp).1)
    (fun p hp => (ho p hp).2) (fun p hp hb q hq => by cases hq) hsep
  refine ⟨h', { d with items := sub' }, ?_, g3, rfl, rfl, fun hno => ?_⟩
  · unfold TDict.op TDict.init
    rw [odUpdate_self F.nodup, refresh_ok F.nodup F.suits, ← F.keys, ← F.slices]
    show (combine cls f h d d.items (.dict o) >>= _) = _
    unfold combine
    simp only
    rw [F.keys]
    simp only [List.nil_append] at g1
    rw [g1, ← F.keys]
    rfl
  · funext r
    exact g4 r fun p hp hb => absurd hb (hno p hp)

/-- `d += l`, `d -= l`, `d + l`, `d - l` with a flat JAX array of the right length: the flat vector changes by the array; keys, order
and shapes stay; no numpy array changes. For both classes. -/
theorem op_flat (cls : DictClass) (f : K → K → K) (h : Heap K) (d : TDict Key K) (F : Fresh cls h d) (l : List K)
    (shape : List ℕ) (hl : l.length = (flat h d.items).length) :
    ∃ d', d.iop cls f h (.jaxArr ⟨shape, l⟩) = .ok (h, d') ∧ d.op cls f h (.jaxArr ⟨shape, l⟩) = .ok (h, d') ∧
      flat h d'.items = List.zipWith f (flat h d.items) l ∧ outline h d'.items = outline h d.items ∧
      d'.keys = d.keys ∧ d'.slices = d.slices := by
  have g := loopFlat_ok f F l d.items (fun p hp => hp) [] (by simpa using F.nodup) 0 (by simpa using hl)
  simp only [List.nil_append, List.drop_zero] at g
  have hc : combine cls f h d d.items (.jaxArr ⟨shape, l⟩) = .ok (h, combineFlat f h d.items l) := by
    unfold combine
    simp only
    rw [F.keys, F.slices]
    exact g
  refine ⟨{ d with items := combineFlat f h d.items l }, ?_, ?_, combineFlat_flat f h h d.items l hl,
    combineFlat_outline f h h d.items l, rfl, rfl⟩
  · unfold TDict.iop
    rw [hc]
    rfl
  · unfold TDict.op TDict.init
    rw [odUpdate_self F.nodup, refresh_ok F.nodup F.suits, ← F.keys, ← F.slices]
    show (combine cls f h d d.items (.jaxArr ⟨shape, l⟩) >>= _) = _
    rw [hc]
    rfl

/-- The flat vector of the combined dictionary, when `o` has its keys in the same order. -/
theorem flat_combined (f : K → K → K) (h h' : Heap K) (d : TDict Key K) (F : Fresh .plain h d) (items o : List (Key × Val K))
    (oy : Key → Val K) (ho : SameKeys h d o oy) (hos : ∀ p ∈ o, Suits .plain h p.2)
    (hkeys : o.map (·.1) = d.items.map (·.1)) (hc : content h' items = combined f h d oy) :
    flat h' items = List.zipWith f (flat h d.items) (flat h o) := by
  have hflat : flat h' items = ((content h' items).map fun p => p.2.data).flatten := by
    simp [flat, content, Function.comp_def]
  have hflato : flat h o = (d.items.map fun p => ((oy p.1).arr h).data).flatten := by
    have hno : (o.map (·.1)).Nodup := hkeys ▸ F.nodup
    have h1 : (o.map fun p => (p.2.arr h).data) = (o.map (·.1)).map fun k => ((oy k).arr h).data := by
      rw [List.map_map]
      refine List.map_congr_left fun p hp => ?_
      have hk : p.1 ∈ d.items.map (·.1) := hkeys ▸ List.mem_map.2 ⟨p, hp, rfl⟩
      obtain ⟨q, hq, e⟩ := List.mem_map.1 hk
      have := (ho q hq).1
      have e : q.1 = p.1 := e
      rw [e, lookup_mem hno hp] at this
      have := Except.ok.inj this
      simp [← this]
    unfold flat
    rw [h1, hkeys, List.map_map]
    rfl
  rw [hflat, hc, hflato]
  have hlen : ∀ p ∈ d.items, (p.2.arr h).data.length = ((oy p.1).arr h).data.length := by
    intro p hp
    have h1 : (p.2.arr h).shape = _ := F.suits p hp
    have hk : p.1 ∈ o.map (·.1) := hkeys ▸ List.mem_map.2 ⟨p, hp, rfl⟩
    obtain ⟨q, hq, e⟩ := List.mem_map.1 hk
    have e : q.1 = p.1 := e
    have h2 := (ho p hp).1
    rw [← e, lookup_mem (hkeys ▸ F.nodup) hq] at h2
    have h2 := Except.ok.inj h2
    have h3 : (q.2.arr h).shape = _ := hos q hq
    have h4 := (ho p hp).2
    rw [h1, ← e, ← h2, h3] at h4
    rw [← e, ← h2]
    simpa using h4
  unfold combined flat
  rw [List.map_map]
  clear hc hflat hflato hkeys hos ho
  have : ∀ sub : List (Key × Val K), (∀ p ∈ sub, (p.2.arr h).data.length = ((oy p.1).arr h).data.length) →
      (sub.map ((fun p : Key × Arr K => p.2.data) ∘ fun p : Key × Val K =>
        (p.1, (⟨(p.2.arr h).shape, List.zipWith f (p.2.arr h).data ((oy p.1).arr h).data⟩ : Arr K)))).flatten =
      List.zipWith f (sub.map fun p => (p.2.arr h).data).flatten (sub.map fun p => ((oy p.1).arr h).data).flatten := by
    intro sub
    induction sub with
    | nil => intro _; rfl
    | cons p sub ih =>
      intro hsub
      simp only [List.map_cons, List.flatten_cons]
      rw [ih fun q hq => hsub q (by simp [hq]), List.zipWith_append (hsub p (by simp))]
      rfl
  exact this d.items hlen

/-- **C30.** For a `TFCDict` `d` of one-dimensional arrays and `f` either `+` or `-`:
* with a dictionary `o` with the same keys in the same order and arrays of the same lengths, the flat vector of `d f= o` and of
  `d f o` is that of `d` combined entrywise with that of `o`; if no key has numpy arrays on both sides, `d f o` changes no
  array;
* with a flat JAX array of the right length the same holds, and no array is changed;
* keys and order stay.

Missing: numpy arrays on both sides of `+` and `-` (`C30_numpy_fails`); flat numpy arrays (`C30_flat_numpy_fails`); arrays used
under several keys. -/
theorem C30_arithmetic_partial (f : K → K → K) (h : Heap K) (kvs : List (Key × Val K))
    (hs : ∀ p ∈ kvs, (p.2.arr h).shape = [(p.2.arr h).data.length]) :
    ∃ d, TDict.init .plain h kvs = .ok d ∧
      (∀ (o : List (Key × Val K)) (oy : Key → Val K), (∀ p ∈ o, Suits .plain h p.2) → o.map (·.1) = d.items.map (·.1) →
        SameKeys h d o oy → NoSharing d oy →
        (∃ h' d', d.iop .plain f h (.dict o) = .ok (h', d') ∧
          flat h' d'.items = List.zipWith f (flat h d.items) (flat h o) ∧ d'.keys = d.keys ∧
          content h' d'.items = combined f h d oy) ∧
        (∃ h' d', d.op .plain f h (.dict o) = .ok (h', d') ∧
          flat h' d'.items = List.zipWith f (flat h d.items) (flat h o) ∧ d'.keys = d.keys ∧
          content h' d'.items = combined f h d oy ∧
          ((∀ p ∈ d.items, ¬ BothNp p.2 (oy p.1)) → h' = h))) ∧
      (∀ (l : List K) (shape : List ℕ), l.length = (flat h d.items).length →
        ∃ d', d.iop .plain f h (.jaxArr ⟨shape, l⟩) = .ok (h, d') ∧ d.op .plain f h (.jaxArr ⟨shape, l⟩) = .ok (h, d') ∧
          flat h d'.items = List.zipWith f (flat h d.items) l ∧ outline h d'.items = outline h d.items ∧
          d'.keys = d.keys) := by
  obtain ⟨d, h1, h2, F⟩ := init_fresh (cls := .plain) hs
  refine ⟨d, h1, fun o oy hos hk ho hsep => ⟨?_, ?_⟩, fun l shape hl => ?_⟩
  · obtain ⟨h', d', g1, g2, g3, g4⟩ := iop_dict .plain f h d F o oy ho hsep
    exact ⟨h', d', g1, flat_combined f h h' d F d'.items o oy ho hos hk g2, g3, g2⟩
  · obtain ⟨h', d', g1, g2, g3, g4, g5⟩ := op_dict .plain f h d F o oy ho hsep
    exact ⟨h', d', g1, flat_combined f h h' d F d'.items o oy ho hos hk g2, g3, g2, g5⟩
  · obtain ⟨d', g1, g2, g3, g4, g5, _⟩ := op_flat .plain f h d F l shape hl
    exact ⟨d', g1, g2, g3, g4, g5⟩

/-- C30 is false for numpy arrays: with `d = TFCDict({'a': onp.array([1])})` the expression `d + d` changes `d` (`d['a']` becomes 2),
because `out = TFCDict(self)` holds the same numpy arrays and `out[key] += o[key]` works in place. -/
theorem C30_numpy_fails :
    ∃ (h : Heap ℤ) (d : TDict String ℤ), TDict.init .plain h [("a", .np 0)] = .ok d ∧
      ∃ h' d', d.op .plain (· + ·) h (.dict d.items) = .ok (h', d') ∧
        content h d.items = [("a", ⟨[1], [1]⟩)] ∧ content h' d.items = [("a", ⟨[1], [2]⟩)] :=
  ⟨fun _ => ⟨[1], [1]⟩, _, rfl, _, _, rfl, rfl, rfl⟩

/-- C30 is false for flat numpy arrays: they are ignored, in both classes and for all four operators. -/
theorem C30_flat_numpy_fails (cls : DictClass) (f : K → K → K) (h : Heap K) (d : TDict Key K) (F : Fresh cls h d) (r : ℕ) :
    d.iop cls f h (.npArr r) = .ok (h, d) ∧ d.op cls f h (.npArr r) = .ok (h, d) := by
  refine ⟨rfl, ?_⟩
  unfold TDict.op TDict.init
  rw [odUpdate_self F.nodup, refresh_ok F.nodup F.suits, ← F.keys, ← F.slices]
  rfl

/-! ## Histories -/

/-- The mutating operations considered. -/
inductive DictOp (Key K : Type)
  | update (kvs : List (Key × Val K))
  | setItem (k : Key) (v : Val K)
  | delItem (k : Key)

/-- One operation on a `TFCDict`. -/
def dictStep (h : Heap K) (d : TDict Key K) : DictOp Key K → Except Err (TDict Key K)
  | .update kvs => d.update .plain h kvs
  | .setItem k v => .ok (d.setItem k v)
  | .delItem k => d.delItem k

/-- Only array-valued arguments of one dimension. -/
def OneDim (h : Heap K) : DictOp Key K → Prop
  | .update kvs => ∀ p ∈ kvs, Suits .plain h p.2
  | .setItem _ v => Suits .plain h v
  | .delItem _ => True

/-- The operation replaces the array of an existing key by one of the same shape. -/
def Harmless (h : Heap K) (ol : List (Key × List ℕ)) : DictOp Key K → Prop
  | .setItem k v => (k, (v.arr h).shape) ∈ ol
  | _ => False

/-- The claim of C31 for one history. -/
def StaysConsistent (h : Heap K) (kvs : List (Key × Val K)) (ops : List (DictOp Key K)) : Prop :=
  ∀ d0 d, TDict.init .plain h kvs = .ok d0 → ops.foldlM (dictStep h) d0 = .ok d → d.items ≠ [] → RoundTrips .plain h d

theorem odSet_outline_mem {h : Heap K} {items : List (Key × Val K)} (hn : (items.map (·.1)).Nodup) {k : Key} {v : Val K}
    (hm : (k, (v.arr h).shape) ∈ outline h items) : outline h (odSet items k v) = outline h items := by
  induction items with
  | nil => cases hm
  | cons p items ih =>
    rw [List.map_cons, List.nodup_cons] at hn
    unfold odSet
    by_cases hp : p.1 = k
    · rw [if_pos hp]
      rcases List.mem_cons.1 hm with e | e
      · have e : (k, (v.arr h).shape) = (p.1, (p.2.arr h).shape) := e
        simp only [outline, List.map_cons]
        rw [← e]
      · obtain ⟨q, hq, e⟩ := List.mem_map.1 e
        simp only [Prod.mk.injEq] at e
        exact absurd (List.mem_map.2 ⟨q, hq, e.1⟩) (hp ▸ hn.1)
    · rw [if_neg hp]
      rcases List.mem_cons.1 hm with e | e
      · simp only [Prod.mk.injEq] at e
        exact absurd e.1.symm hp
      · have := ih hn.2 e
        simp only [outline, List.map_cons] at this ⊢
        rw [this]

theorem outline_keys (h : Heap K) (items : List (Key × Val K)) : (outline h items).map (·.1) = items.map (·.1) := by
  simp [outline, Function.comp_def]

theorem offsets_outline {h : Heap K} {items items' : List (Key × Val K)} (hs : ∀ p ∈ items, Suits .plain h p.2)
    (hs' : ∀ p ∈ items', Suits .plain h p.2) (ho : outline h items = outline h items') (start : ℕ) :
    offsets h start items = offsets h start items' := by
  induction items generalizing items' start with
  | nil =>
    have : items' = [] := by simpa [outline] using ho.symm
    rw [this]
  | cons p items ih =>
    cases items' with
    | nil => simp [outline] at ho
    | cons q items' =>
      simp only [outline, List.map_cons, List.cons.injEq, Prod.mk.injEq] at ho
      have h1 : (p.2.arr h).shape = [_] := hs p (by simp)
      have h2 : (q.2.arr h).shape = [_] := hs' q (by simp)
      have h3 := ho.1.2
      rw [h1, h2] at h3
      have h3 : (p.2.arr h).data.length = (q.2.arr h).data.length := by simpa using h3
      unfold offsets
      rw [h3, ih (fun x hx => hs x (by simp [hx])) (fun x hx => hs' x (by simp [hx])) ho.2]

theorem fresh_setItem {h : Heap K} {d : TDict Key K} (F : Fresh .plain h d) {k : Key} {v : Val K} (hv : Suits .plain h v)
    (hm : (k, (v.arr h).shape) ∈ outline h d.items) :
    Fresh .plain h (d.setItem k v) ∧ outline h (d.setItem k v).items = outline h d.items := by
  have ho := odSet_outline_mem F.nodup hm
  have hs : ∀ p ∈ odSet d.items k v, Suits .plain h p.2 := by
    intro p hp
    rcases odSet_mem hp with e | e
    · exact F.suits p e
    · rw [e]
      exact hv
  refine ⟨⟨odSet_nodup F.nodup k v, hs, ?_, ?_⟩, ho⟩
  · show d.keys = (odSet d.items k v).map (·.1)
    rw [F.keys, ← outline_keys h, ← outline_keys h, ho]
  · show d.slices = offsets h 0 (odSet d.items k v)
    rw [F.slices]
    exact offsets_outline F.suits hs ho.symm 0

/-- **C31**, the histories for which it holds: whatever happened before, after an `update` (or after construction) and any
number of assignments replacing the array of a key by one of the same length, `toArray` lists the current entries and
`toDict(toArray())` is the current dictionary.
Missing: item assignments with a new key or another length, and deletions, which are not followed by an `update`: the claim
is false for them, see `C31_new_key_fails`, `C31_length_fails`, `C31_delete_fails`. -/
theorem C31_histories_partial (h : Heap K) (d0 : TDict Key K) (hn : (d0.items.map (·.1)).Nodup)
    (hs : ∀ p ∈ d0.items, Suits .plain h p.2) (pre : List (DictOp Key K)) (kvs : List (Key × Val K))
    (post : List (DictOp Key K)) (hops : ∀ op ∈ pre ++ DictOp.update kvs :: post, OneDim h op) (d1 d2 : TDict Key K)
    (h1 : (pre ++ [DictOp.update kvs]).foldlM (dictStep h) d0 = .ok d1)
    (hpost : ∀ op ∈ post, Harmless h (outline h d1.items) op) (h2 : post.foldlM (dictStep h) d1 = .ok d2)
    (hne : d2.items ≠ []) : RoundTrips .plain h d2 := by
  -- what is preserved by every operation
  have step : ∀ (d d' : TDict Key K) (op : DictOp Key K), OneDim h op → dictStep h d op = .ok d' →
      ((d.items.map (·.1)).Nodup ∧ ∀ p ∈ d.items, Suits .plain h p.2) →
      ((d'.items.map (·.1)).Nodup ∧ ∀ p ∈ d'.items, Suits .plain h p.2) := by
    rintro d d' op hop hd ⟨hn, hs⟩
    cases op with
    | update kvs =>
      have hn' := odUpdate_nodup hn kvs
      have hs' : ∀ p ∈ odUpdate d.items kvs, Suits .plain h p.2 := fun p hp =>
        (odUpdate_mem hp).elim (hs p) (hop p)
      have hd : refresh .plain h (odUpdate d.items kvs) = .ok d' := hd
      rw [refresh_ok hn' hs'] at hd
      cases hd
      exact ⟨hn', hs'⟩
    | setItem k v =>
      cases hd
      refine ⟨odSet_nodup hn k v, fun p hp => ?_⟩
      rcases odSet_mem hp with e | e
      · exact hs p e
      · rw [e]
        exact hop
    | delItem k =>
      have hd : (lookup d.items k >>= fun _ => .ok { d with items := d.items.filter fun p => ¬ p.1 = k }) = .ok d' := hd
      cases hl : lookup d.items k with
      | error e =>
        rw [hl] at hd
        cases hd
      | ok v =>
        rw [hl] at hd
        cases hd
        refine ⟨hn.sublist (List.Sublist.map _ List.filter_sublist), fun p hp => hs p (List.mem_of_mem_filter hp)⟩
  have run : ∀ (ops : List (DictOp Key K)) (d d' : TDict Key K), (∀ op ∈ ops, OneDim h op) →
      ops.foldlM (dictStep h) d = .ok d' → ((d.items.map (·.1)).Nodup ∧ ∀ p ∈ d.items, Suits .plain h p.2) →
      ((d'.items.map (·.1)).Nodup ∧ ∀ p ∈ d'.items, Suits .plain h p.2) := by
    intro ops
    induction ops with
    | nil =>
      intro d d' _ hd hI
      cases hd
      exact hI
    | cons op ops ih =>
      intro d d' hop hd hI
      rw [List.foldlM_cons] at hd
      cases hx : dictStep h d op with
      | error e =>
        rw [hx] at hd
        cases hd
      | ok e =>
        rw [hx] at hd
        exact ih e d' (fun o ho => hop o (by simp [ho])) hd (step d e op (hop op (by simp)) hx hI)
  -- the state after the update is fresh
  have F1 : Fresh .plain h d1 := by
    rw [List.foldlM_append] at h1
    cases hx : pre.foldlM (dictStep h) d0 with
    | error e =>
      rw [hx] at h1
      cases h1
    | ok e =>
      rw [hx] at h1
      obtain ⟨hn', hs'⟩ := run pre d0 e (fun o ho => hops o (by simp [ho])) hx ⟨hn, hs⟩
      have h1 : (dictStep h e (.update kvs) >>= fun d => (pure d : Except Err _)) = .ok d1 := h1
      have hu : OneDim h (DictOp.update kvs) := hops _ (by simp)
      obtain ⟨d, g1, g2, F⟩ := refresh_fresh (cls := .plain) (h := h) (odUpdate_nodup hn' kvs)
        (fun p hp => (odUpdate_mem hp).elim (hs' p) (hu p))
      have : dictStep h e (.update kvs) = .ok d := g1
      rw [this] at h1
      cases h1
      exact F
  -- harmless assignments keep it fresh
  have F2 : Fresh .plain h d2 := by
    have : ∀ (ops : List (DictOp Key K)) (d d' : TDict Key K), (∀ op ∈ ops, OneDim h op) →
        (∀ op ∈ ops, Harmless h (outline h d.items) op) → Fresh .plain h d → ops.foldlM (dictStep h) d = .ok d' →
        Fresh .plain h d' := by
      intro ops
      induction ops with
      | nil =>
        intro d d' _ _ F hd
        cases hd
        exact F
      | cons op ops ih =>
        intro d d' hop hha F hd
        rw [List.foldlM_cons] at hd
        cases op with
        | update kvs => exact (hha (.update kvs) (by simp)).elim
        | delItem k => exact (hha (.delItem k) (by simp)).elim
        | setItem k v =>
          obtain ⟨F', ho⟩ := fresh_setItem F (hop (.setItem k v) (by simp)) (hha (.setItem k v) (by simp))
          refine ih (d.setItem k v) d' (fun o hm => hop o (by simp [hm])) (fun o hm => ?_) F' hd
          rw [ho]
          exact hha o (by simp [hm])
    exact this post d1 d2 (fun o ho => hops o (by simp [ho])) hpost F1 h2
  exact fresh_roundTrips F2 hne

/-- A history to which it applies: `d = TFCDict(a=[1]); d['z'] = [9]; d.update(b=[2, 3]); d['b'] = [4, 5]`. -/
example (h : Heap ℤ) : ∃ d : TDict String ℤ, content h d.items = [("a", ⟨[1], [1]⟩), ("z", ⟨[1], [9]⟩), ("b", ⟨[2], [4, 5]⟩)] ∧
    RoundTrips .plain h d :=
  ⟨_, rfl, C31_histories_partial h ⟨[("a", .jax ⟨[1], [1]⟩)], ["a"], [(0, 1)]⟩ (by simp) (by simp [Suits])
    [.setItem "z" (.jax ⟨[1], [9]⟩)] [("b", .jax ⟨[2], [2, 3]⟩)] [.setItem "b" (.jax ⟨[2], [4, 5]⟩)]
    (by simp [OneDim, Suits]) _ ⟨[("a", .jax ⟨[1], [1]⟩), ("z", .jax ⟨[1], [9]⟩), ("b", .jax ⟨[2], [4, 5]⟩)], _, _⟩ rfl
    (by simp [Harmless, outline, odUpdate, odSet, TDict.setItem]) rfl (by simp)⟩

/-- C31 is false: after `d['b'] = …` with a new key, `toDict(toArray())` lacks `'b'`. -/
theorem C31_new_key_fails (h : Heap ℤ) :
    ¬ StaysConsistent h [("a", .jax ⟨[1], [1]⟩)] [.setItem "b" (.jax ⟨[1], [2]⟩)] := by
  intro hc
  obtain ⟨arr, d', h1, -, -, h2, h3, -⟩ := hc _ _ rfl rfl (by simp [TDict.setItem, odSet, odUpdate])
  cases h1
  cases h2
  have h3 := congrArg List.length h3
  cases h3

/-- C31 is false: after `d['a'] = …` with a longer array, `toDict(toArray())` has only the first entry of it. -/
theorem C31_length_fails (h : Heap ℤ) :
    ¬ StaysConsistent h [("a", .jax ⟨[1], [1]⟩)] [.setItem "a" (.jax ⟨[2], [1, 2]⟩)] := by
  intro hc
  obtain ⟨arr, d', h1, -, -, h2, h3, -⟩ := hc _ _ rfl rfl (by simp [TDict.setItem, odSet, odUpdate])
  cases h1
  cases h2
  have h3 := congrArg (fun l : List (String × Arr ℤ) => l.map fun p => p.2.data.length) h3
  cases h3

/-- C31 is false: after `del d['a']` the deleted key comes back, holding the entries of the other one. -/
theorem C31_delete_fails (h : Heap ℤ) :
    ¬ StaysConsistent h [("a", .jax ⟨[1], [1]⟩), ("b", .jax ⟨[1], [2]⟩)] [.delItem "a"] := by
  intro hc
  obtain ⟨arr, d', h1, -, -, h2, h3, -⟩ := hc _ _ rfl rfl (by simp [odSet, odUpdate])
  cases h1
  cases h2
  have h3 := congrArg List.length h3
  cases h3

/-! ## TFCDictRobust -/

/-- **C32.** For `d = TFCDictRobust(kvs)`, at least one key, JAX arrays of any shape: `toDict(toArray())` restores every array with
its shape, every flat array of the right length round-trips, and `+`, `-`, `+=`, `-=` with a dictionary with the same keys or
with a flat array act entrywise (nothing else changes, JAX arrays being immutable).
Missing: numpy arrays, see `C32_numpy_fails`; the empty dictionary as in `C29_empty_fails`. -/
theorem C32_robust_partial (f : K → K → K) (h : Heap K) (kvs : List (Key × Val K)) (hne : kvs ≠ [])
    (hs : ∀ p ∈ kvs, ∃ a : Arr K, p.2 = .jax a ∧ a.shape.prod = a.data.length) :
    ∃ d, TDict.init .robust h kvs = .ok d ∧ RoundTrips .robust h d ∧ Unflattens .robust h d ∧
      (∀ (o : List (Key × Val K)) (oy : Key → Val K), SameKeys h d o oy →
        (∃ d', d.iop .robust f h (.dict o) = .ok (h, d') ∧ content h d'.items = combined f h d oy) ∧
        (∃ d', d.op .robust f h (.dict o) = .ok (h, d') ∧ content h d'.items = combined f h d oy)) ∧
      (∀ (l : List K) (shape : List ℕ), l.length = (flat h d.items).length →
        ∃ d', d.iop .robust f h (.jaxArr ⟨shape, l⟩) = .ok (h, d') ∧ d.op .robust f h (.jaxArr ⟨shape, l⟩) = .ok (h, d') ∧
          flat h d'.items = List.zipWith f (flat h d.items) l ∧ outline h d'.items = outline h d.items) := by
  have hs' : ∀ p ∈ kvs, Suits .robust h p.2 := by
    intro p hp
    obtain ⟨a, ha, hp⟩ := hs p hp
    rw [ha]
    exact ⟨hp, a, rfl⟩
  obtain ⟨d, h1, h2, F⟩ := init_fresh (cls := .robust) hs'
  have hd : d.items ≠ [] := h2 ▸ odUpdate_ne_nil [] hne
  have hno : ∀ (oy : Key → Val K), ∀ p ∈ d.items, ¬ BothNp p.2 (oy p.1) := by
    rintro oy p hp ⟨⟨r, hr⟩, _⟩
    obtain ⟨_, a, ha⟩ := F.suits p hp
    rw [ha] at hr
    cases hr
  refine ⟨d, h1, fresh_roundTrips F hd, fresh_unflattens F hd, fun o oy ho => ⟨?_, ?_⟩, fun l shape hl => ?_⟩
  · obtain ⟨h', sub', g1, -, g3, g4⟩ := loopDict_ok f o oy d.items [] h (by simpa using F.nodup) (fun p hp => (ho p hp).1)
      (fun p hp => (ho p hp).2) (fun p hp hb => absurd hb (hno oy p hp)) (fun p hp hb => absurd hb (hno oy p hp))
    have hh : h' = h := funext fun r => g4 r fun p hp hb => absurd hb (hno oy p hp)
    subst hh
    refine ⟨{ d with items := sub' }, ?_, g3⟩
    unfold TDict.iop combine
    simp only
    rw [F.keys]
    simp only [List.nil_append] at g1
    rw [g1]
    rfl
  · obtain ⟨h', d', g1, g2, -, -, g5⟩ := op_dict .robust f h d F o oy ho fun p hp hb => absurd hb (hno oy p hp)
    rw [g5 (hno oy)] at g1 g2
    exact ⟨d', g1, g2⟩
  · obtain ⟨d', g1, g2, g3, g4, _, _⟩ := op_flat .robust f h d F l shape hl
    exact ⟨d', g1, g2, g3, g4⟩

/-- C32 is false for numpy arrays: `TFCDictRobust` does not recognise them as arrays, and with two keys `toDict` raises. -/
theorem C32_numpy_fails :
    ∃ (h : Heap ℤ) (d : TDict String ℤ), TDict.init .robust h [("a", .np 0), ("b", .np 0)] = .ok d ∧
      d.toArray .robust h = .ok ⟨[2], [1, 1]⟩ ∧ d.toDict .robust h ⟨[2], [1, 1]⟩ = .error .typeError :=
  ⟨fun _ => ⟨[1], [1]⟩, _, rfl, rfl, rfl⟩

/-- The hypotheses of `C32_robust_partial` are met by a 2×2 matrix and a scalar array. -/
example : ∀ p ∈ ([("A", .jax ⟨[2, 2], [1, 2, 3, 4]⟩), ("s", .jax ⟨[], [5]⟩)] : List (String × Val ℤ)),
    ∃ a : Arr ℤ, p.2 = .jax a ∧ a.shape.prod = a.data.length := by
  simp

/-- The hypotheses on the operand in `C30_arithmetic_partial`, for `d = {'a': [1, 2], 'b': np [3]}` and `o = {'a': [5, 6], 'b': [7]}`. -/
example : SameKeys (fun _ => ⟨[1], [3]⟩) ⟨[("a", .jax ⟨[2], [1, 2]⟩), ("b", .np 0)], [], []⟩
      [("a", .jax ⟨[2], [5, 6]⟩), ("b", .jax ⟨[1], [7]⟩)]
      (fun k => if k = "a" then .jax ⟨[2], [(5 : ℤ), 6]⟩ else .jax ⟨[1], [7]⟩) ∧
    NoSharing (⟨[("a", .jax ⟨[2], [1, 2]⟩), ("b", .np 0)], [], []⟩ : TDict String ℤ)
      (fun k => if k = "a" then .jax ⟨[2], [(5 : ℤ), 6]⟩ else .jax ⟨[1], [7]⟩) := by
  constructor
  · intro p hp
    simp only [List.mem_cons, List.not_mem_nil, or_false] at hp
    rcases hp with rfl | rfl
    · exact ⟨rfl, rfl⟩
    · exact ⟨rfl, rfl⟩
  · rintro p hp ⟨_, s, hs⟩
    simp only at hs
    split at hs <;> cases hs

end Verif.Props
