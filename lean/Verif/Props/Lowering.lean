import Verif.Model.Lowering
import Verif.Props.Calls
import Verif.Props.Multi
import Verif.Props.NElm
import Mathlib.Data.List.GetD

/-! # C95: compiled computations receive their arguments as they were meant -/

namespace Verif.Props

open Verif Verif.Mem Verif.Py Verif.Spec Verif.Model Verif.Model.CC

/-! ### Bytes -/

theorem toBytes_length (w v : ℕ) : (toBytes w v).length = w := by
  induction w generalizing v with
  | zero => rfl
  | succ w ih => simp [toBytes, ih]

theorem ofBytes_toBytes (w v : ℕ) (h : v < 256 ^ w) : ofBytes (toBytes w v) = v := by
  induction w generalizing v with
  | zero => simp only [pow_zero] at h; simp only [toBytes, ofBytes]; omega
  | succ w ih =>
    have : v / 256 < 256 ^ w := by
      rw [Nat.div_lt_iff_lt_mul (by norm_num)]
      rwa [pow_succ] at h
    simp only [toBytes, ofBytes, ih _ this]
    omega

theorem flatMap_toBytes_length (w : ℕ) (l : List ℕ) : (l.flatMap (toBytes w)).length = w * l.length := by
  induction l with
  | nil => simp
  | cons a l ih => simp only [List.flatMap_cons, List.length_append, toBytes_length, ih, List.length_cons]; ring

theorem flatMap_toBytes_chunk (w : ℕ) (l : List ℕ) (j : ℕ) (hj : j < l.length) :
    ((l.flatMap (toBytes w)).drop (w * j)).take w = toBytes w (l.getD j 0) := by
  induction l generalizing j with
  | nil => simp at hj
  | cons a l ih =>
    have hl : (toBytes w a).length = w := toBytes_length w a
    cases j with
    | zero =>
      simp only [List.flatMap_cons, Nat.mul_zero, List.drop_zero, List.getD_cons_zero]
      rw [List.take_append_of_le_length (by omega), List.take_of_length_le (by omega)]
    | succ j =>
      have : w * (j + 1) = (toBytes w a).length + w * j := by rw [hl]; ring
      simp only [List.flatMap_cons, this, List.drop_length_add_append, List.getD_cons_succ]
      exact ih j (by simpa using hj)

theorem int32_some {v : ℕ} {b : List ℕ} (h : int32 v = some b) : b = toBytes 4 v ∧ v < 2 ^ 31 := by
  unfold int32 at h
  split_ifs at h with hv
  exact ⟨(Option.some.inj h).symm, hv⟩

theorem signed_small {v : ℕ} (h : v < 2 ^ 31) : (signed 4 v).toNat = v := by
  unfold signed
  rw [if_pos (by simpa using h)]
  simp

theorem readInt_const {ins : List (List ℕ)} {k v : ℕ} (h : ins[k]? = some (toBytes 4 v)) (hv : v < 2 ^ 31) :
    readInt ins k = .ok v := by
  unfold readInt operand
  rw [h]
  simp only [ok_bind]
  unfold readBytes
  rw [if_pos (by rw [toBytes_length]), List.drop_zero, List.take_of_length_le (by rw [toBytes_length]),
    ofBytes_toBytes _ _ (by omega), ok_bind, signed_small hv]

theorem readBool_const {ins : List (List ℕ)} {k : ℕ} {v : Bool} (h : ins[k]? = some (boolByte v)) :
    readBool ins k = .ok v := by
  unfold readBool operand
  rw [h]
  cases v <;> rfl

theorem ofFn_congr {α : Type} {n n' : ℕ} (hn : n = n') {f g : ℕ → α} (h : ∀ j < n, f j = g j) :
    Buf.ofFn n f = Buf.ofFn n' g := by
  subst hn
  simp only [Buf.ofFn, Buf.mk.injEq, true_and]
  funext i
  by_cases hi : i < n
  · simp [hi, h i hi]
  · simp [hi]

theorem getD_mem {l : List ℕ} {j : ℕ} (hj : j < l.length) : l.getD j 0 ∈ l := by
  rw [List.getD_eq_getElem _ _ hj]
  exact List.getElem_mem _

/-- Words of 8 bytes read as `double`. -/
theorem asDoubles_words (l : List ℕ) (h : ∀ b ∈ l, b < 256 ^ 8) :
    asDoubles (l.flatMap (toBytes 8)) = Buf.ofFn l.length fun j => float64 (l.getD j 0) := by
  refine ofFn_congr (by rw [flatMap_toBytes_length]; omega) fun j hj => ?_
  rw [flatMap_toBytes_length] at hj
  have hj : j < l.length := by omega
  rw [flatMap_toBytes_chunk _ _ _ hj, ofBytes_toBytes]
  exact h _ (getD_mem hj)

theorem asInts_words (l : List ℕ) (h : ∀ b ∈ l, b < 2 ^ 31) : asInts (l.flatMap (toBytes 4)) = Buf.ofList l := by
  have : asInts (l.flatMap (toBytes 4)) = Buf.ofFn l.length fun j => l.getD j 0 := by
    refine ofFn_congr (by rw [flatMap_toBytes_length]; omega) fun j hj => ?_
    rw [flatMap_toBytes_length] at hj
    have hj : j < l.length := by omega
    have hb : l.getD j 0 < 2 ^ 31 := h _ (getD_mem hj)
    rw [flatMap_toBytes_chunk _ _ _ hj, ofBytes_toBytes _ _ (by omega), signed_small hb]
  rw [this]
  simp only [Buf.ofFn, Buf.ofList, Buf.mk.injEq, true_and]
  funext i
  by_cases hi : i < l.length
  · simp [hi]
  · simp [hi]

theorem mapM_int32 {d : List ℕ} {l : List (List ℕ)} (h : d.mapM int32 = some l) :
    l.flatten = d.flatMap (toBytes 4) ∧ ∀ v ∈ d, v < 2 ^ 31 := by
  induction d generalizing l with
  | nil =>
    simp only [List.mapM_nil, Option.pure_def, Option.some.injEq] at h
    subst h
    simp
  | cons a d ih =>
    simp only [List.mapM_cons, Option.bind_eq_bind, Option.bind_eq_some_iff, Option.pure_def, Option.some.injEq] at h
    obtain ⟨b, hb, t, ht, rfl⟩ := h
    obtain ⟨h1, h2⟩ := ih ht
    obtain ⟨rfl, h3⟩ := int32_some hb
    refine ⟨by simp [h1], ?_⟩
    intro v hv
    rcases List.mem_cons.1 hv with rfl | hv
    · exact h3
    · exact h2 v hv

/-! ### What the C++ code unpacks -/

theorem lowerUni_some {i dim1 : ℕ} {x : TypedArray} {d : ℕ} {full : Bool} {c : CustomCall}
    (h : lowerUni i dim1 x d full = some c) :
    i < 2 ^ 31 ∧ readInt c.operands 0 = .ok i ∧
      unpackUni c = .ok (.uni (alloc (x.size * dim1 * x.ty.width / 8)) (asDoubles (arrayBytes x)) d full x.size dim1) := by
  unfold lowerUni at h
  simp only [Option.bind_eq_bind, Option.bind_eq_some_iff, Option.some.injEq] at h
  obtain ⟨a0, h0, a2, h2, a4, h4, a5, h5, rfl⟩ := h
  obtain ⟨rfl, g0⟩ := int32_some h0
  obtain ⟨rfl, g2⟩ := int32_some h2
  obtain ⟨rfl, g4⟩ := int32_some h4
  obtain ⟨rfl, g5⟩ := int32_some h5
  refine ⟨g0, readInt_const rfl g0, ?_⟩
  unfold unpackUni
  dsimp only
  rw [readInt_const (k := 2) rfl g2, readBool_const (k := 3) (v := full) rfl, readInt_const (k := 4) rfl g4,
    readInt_const (k := 5) rfl g5]
  rfl

theorem lowerMulti_some {i dim dim1 : ℕ} {x0 : TypedArray} {xs : List TypedArray} {d : List ℕ} {full : Bool}
    {c : CustomCall} (h : lowerMulti i dim dim1 (x0 :: xs) d full = some c) :
    i < 2 ^ 31 ∧ readInt c.operands 0 = .ok i ∧ (∀ y ∈ x0 :: xs, y.ty = x0.ty) ∧
      unpackMulti c = .ok (.nd (alloc (x0.size * dim1 * x0.ty.width / 8)) (asDoubles ((x0 :: xs).flatMap arrayBytes))
        (Buf.ofList d) dim full x0.size dim1) := by
  unfold lowerMulti at h
  dsimp only at h
  split_ifs at h with hty
  simp only [Option.bind_eq_bind, Option.bind_eq_some_iff, Option.some.injEq] at h
  obtain ⟨a0, h0, a2, h2, a3, h3, a5, h5, a6, h6, rfl⟩ := h
  obtain ⟨rfl, g0⟩ := int32_some h0
  obtain ⟨e2, g2⟩ := mapM_int32 h2
  obtain ⟨rfl, g3⟩ := int32_some h3
  obtain ⟨rfl, g5⟩ := int32_some h5
  obtain ⟨rfl, g6⟩ := int32_some h6
  refine ⟨g0, readInt_const rfl g0, ?_, ?_⟩
  · intro y hy
    simpa using List.all_eq_true.1 hty y hy
  unfold unpackMulti
  dsimp only
  rw [readInt_const (k := 3) rfl g3, readBool_const (k := 4) (v := full) rfl, readInt_const (k := 5) rfl g5,
    readInt_const (k := 6) rfl g6, e2]
  show Except.ok (XlaArgs.nd _ _ (asInts _) _ _ _ _) = _
  rw [asInts_words d g2]

/-- The object a compiled call reaches. -/
theorem registry_lookup (ops : List Op) (hid : ∀ op ∈ ops, ¬ AssignsIdentifier op) {p : Proc}
    (hr : Proc.init.run ops = .ok p) {objs : List CObj} (ho : objStates ops = .ok objs) {h i : ℕ}
    (hi : identifierOf p h = some i) :
    ∃ a cell, p.container[i]? = some a ∧ p.heap a = some cell ∧ objs[h]? = some cell.obj := by
  obtain ⟨objs', ho', I⟩ := RegInv.run ops hid hr
  rw [ho] at ho'
  cases ho'
  unfold identifierOf at hi
  split at hi
  · rename_i a cell hd
    obtain ⟨hw, hh⟩ := deref_ok hd
    obtain ⟨hc, o, ho, he⟩ := I.live h a hw
    rw [hh] at he
    cases he
    cases hi
    exact ⟨a, _, hc, hh, ho⟩
  · cases hi

theorem rawCall_obj {p : Proc} {i a : ℕ} {cell : Cell} (h1 : p.container[i]? = some a) (h2 : p.heap a = some cell)
    {c : CustomCall} (hc : readInt c.operands 0 = .ok i) : p.rawCall c = cell.obj.rawXla c := by
  unfold Proc.rawCall
  rw [hc, ok_bind, h1]
  simp only [h2]


theorem rawXla_uni {o : CObj} (ho : (∃ bf, o = .uni bf) ∨ ∃ e, o = .elm e) {c : CustomCall} {a : XlaArgs}
    (hc : unpackUni c = .ok a) : o.rawXla c = o.xla a := by
  rcases ho with ⟨bf, rfl⟩ | ⟨e, rfl⟩ <;>
  · unfold CObj.rawXla
    dsimp only
    rw [hc]
    rfl

theorem rawXla_multi {o : CObj} (ho : (∃ bf, o = .nd bf) ∨ ∃ e, o = .nelm e) {c : CustomCall} {a : XlaArgs}
    (hc : unpackMulti c = .ok a) : o.rawXla c = o.xla a := by
  rcases ho with ⟨bf, rfl⟩ | ⟨e, rfl⟩ <;>
  · unfold CObj.rawXla
    dsimp only
    rw [hc]
    rfl

/-- A compiled call of a univariate object, with the operands as the C++ code sees them. -/
theorem rawCall_uni (ops : List Op) (hid : ∀ op ∈ ops, ¬ AssignsIdentifier op) {p : Proc}
    (hr : Proc.init.run ops = .ok p) {objs : List CObj} (ho : objStates ops = .ok objs) {h i : ℕ}
    (hi : identifierOf p h = some i) (hu : (∃ bf, objs[h]? = some (.uni bf)) ∨ ∃ e, objs[h]? = some (.elm e))
    {x : TypedArray} {d dim1 : ℕ} {full : Bool} {c : CustomCall} (hc : lowerUni i dim1 x d full = some c) :
    p.rawCall c = p.call i (.uni (alloc (x.size * dim1 * x.ty.width / 8)) (asDoubles (arrayBytes x)) d full x.size dim1) := by
  obtain ⟨a, cell, h1, h2, h3⟩ := registry_lookup ops hid hr ho hi
  obtain ⟨-, h4, h5⟩ := lowerUni_some hc
  have hk : (∃ bf, cell.obj = .uni bf) ∨ ∃ e, cell.obj = .elm e := by
    rcases hu with ⟨b, hb⟩ | ⟨b, hb⟩
    · rw [h3] at hb; exact Or.inl ⟨b, Option.some.inj hb⟩
    · rw [h3] at hb; exact Or.inr ⟨b, Option.some.inj hb⟩
  rw [rawCall_obj h1 h2 h4, rawXla_uni hk h5]
  unfold Proc.call
  rw [h1]
  simp only [h2]

theorem rawCall_multi (ops : List Op) (hid : ∀ op ∈ ops, ¬ AssignsIdentifier op) {p : Proc}
    (hr : Proc.init.run ops = .ok p) {objs : List CObj} (ho : objStates ops = .ok objs) {h i : ℕ}
    (hi : identifierOf p h = some i) {o : CObj} (hu : objs[h]? = some o)
    (hk : (∃ bf, o = .nd bf) ∨ ∃ e, o = .nelm e) {x0 : TypedArray} {xs : List TypedArray} {d : List ℕ}
    {dim dim1 : ℕ} {full : Bool} {c : CustomCall} (hc : lowerMulti i dim dim1 (x0 :: xs) d full = some c) :
    p.rawCall c = o.xla (.nd (alloc (x0.size * dim1 * x0.ty.width / 8)) (asDoubles ((x0 :: xs).flatMap arrayBytes))
        (Buf.ofList d) dim full x0.size dim1) := by
  obtain ⟨a, cell, h1, h2, h3⟩ := registry_lookup ops hid hr ho hi
  obtain ⟨-, h4, -, h5⟩ := lowerMulti_some hc
  rw [h3] at hu
  cases hu
  rw [rawCall_obj h1 h2 h4, rawXla_multi hk h5]

/-! ### One variable -/

/-- The description exists for every call whose numbers fit into 32 bits (so for every call that fits into memory). -/
theorem C95_describes_uni (i dim1 : ℕ) (x : TypedArray) (d : ℕ) (full : Bool) (h1 : i < 2 ^ 31) (h2 : dim1 < 2 ^ 31)
    (h3 : x.size < 2 ^ 31) (h4 : d < 2 ^ 31) : ∃ c, lowerUni i dim1 x d full = some c := by
  unfold lowerUni int32
  dsimp only
  rw [if_pos h1, if_pos h4, if_pos h3, if_pos h2]
  exact ⟨_, rfl⟩

/-- **C95**, points of type `float64`. After any history of creating, changing and destroying objects, the compiled
computation described by `utfc` for a live univariate object, executed byte by byte, fills the block of the result with
exactly what the eager method of that object returns for the numbers in the array of points — or both read uninitialised memory
(swish above order 8). -/
theorem C95_float64_uni (ops : List Op) (hid : ∀ op ∈ ops, ¬ AssignsIdentifier op) {p : Proc}
    (hr : Proc.init.run ops = .ok p) {objs : List CObj} (ho : objStates ops = .ok objs) {h i : ℕ}
    (hi : identifierOf p h = some i) {bf : BasisFunc ℝ}
    (hbf : objs[h]? = some (.uni bf) ∨ ∃ e, objs[h]? = some (.elm e) ∧ e.base = bf)
    (hm : 1 ≤ bf.m) (hC : ValidRemoval bf.m bf.nC) (d : ℕ) (full : Bool) (x : TypedArray) (hx : x.ty = .f64)
    (hn : 1 ≤ x.size) (dim1 : ℕ) (hdim : dim1 = if full then bf.m else bf.m - bf.nC.length)
    {c : CustomCall} (hc : lowerUni i dim1 x d full = some c) :
    (∃ (cols : List ℕ) (V : ℕ → ℕ → ℝ), cols.length = dim1 ∧
      ReturnsMatrix (bf.H (Buf.ofFn x.size x.val) x.size d full) x.size cols V ∧
      FillsMatrix (p.rawCall c) x.size cols V) ∨
    (9 ≤ d ∧ bf.H (Buf.ofFn x.size x.val) x.size d full = .error .uninit ∧ p.rawCall c = .error .uninit) := by
  have hu : (∃ bf, objs[h]? = some (.uni bf)) ∨ ∃ e, objs[h]? = some (.elm e) := by
    rcases hbf with hb | ⟨e, he, -⟩
    · exact Or.inl ⟨_, hb⟩
    · exact Or.inr ⟨_, he⟩
  obtain ⟨ty, bits, fits⟩ := x
  cases hx
  have e := rawCall_uni ops hid hr ho hi hu hc
  have ex : asDoubles (arrayBytes ⟨.f64, bits, fits⟩) =
      Buf.ofFn (TypedArray.size ⟨.f64, bits, fits⟩) (TypedArray.val ⟨.f64, bits, fits⟩) := asDoubles_words bits fits
  rw [e, ex]
  exact C17_process ops hid hr ho hi hbf hm hC d full _ hn _ _ dim1 hdim (Nat.mul_div_cancel _ (show 0 < 8 by norm_num))

/-- Element types of 4 bytes (`float32`, `int32`): the C++ code reads 8 bytes for each point, so beyond the end of the array of
points, for every univariate object, order and flag. -/
theorem C95_four_bytes_fails (ops : List Op) (hid : ∀ op ∈ ops, ¬ AssignsIdentifier op) {p : Proc}
    (hr : Proc.init.run ops = .ok p) {objs : List CObj} (ho : objStates ops = .ok objs) {h i : ℕ}
    (hi : identifierOf p h = some i) (hu : (∃ bf, objs[h]? = some (.uni bf)) ∨ ∃ e, objs[h]? = some (.elm e))
    {x : TypedArray} (hx : x.ty.width = 4) (hn : 1 ≤ x.size) {d dim1 : ℕ} {full : Bool} {c : CustomCall}
    (hc : lowerUni i dim1 x d full = some c) : p.rawCall c = .error .oobRead := by
  have e := rawCall_uni ops hid hr ho hi hu hc
  have key : ∀ (bf : BasisFunc ℝ) (X : Buf ℝ) (n : ℕ), X.size < n → (∀ j < X.size, ∃ v, X.read j = .ok v) →
      bf.mapPoints X n = .error .oobRead := by
    intro bf X n hX hr
    have step : ∀ k, k ≤ X.size → ∀ z : Buf ℝ, z.size = n →
        loop (X.size - k) n (fun k z => do
          let xk ← X.read k
          z.write k ((xk - bf.x0) * bf.c + bf.z0)) z = .error .oobRead := by
      intro k
      induction k with
      | zero =>
        intro _ z _
        rw [loop_succ (by omega)]
        simp [Buf.read, bind, Except.bind]
      | succ k ih =>
        intro hk z hz
        rw [loop_succ (by omega)]
        obtain ⟨v, hv⟩ := hr (X.size - (k + 1)) (by omega)
        rw [hv, ok_bind]
        unfold Buf.write
        rw [if_pos (by omega), ok_bind]
        have : X.size - (k + 1) + 1 = X.size - k := by omega
        rw [this]
        exact ih (by omega) _ hz
    have := step X.size le_rfl (alloc n) rfl
    rwa [Nat.sub_self] at this
  have hsz : (asDoubles (arrayBytes x)).size < x.size := by
    show (arrayBytes x).length / 8 < x.size
    unfold arrayBytes
    rw [flatMap_toBytes_length, hx]
    unfold TypedArray.size at *
    omega
  have hrd : ∀ j < (asDoubles (arrayBytes x)).size, ∃ v, (asDoubles (arrayBytes x)).read j = .ok v :=
    fun j hj => ⟨_, Buf.ofFn_read hj⟩
  have hxla : ∀ (bf : BasisFunc ℝ) (out : Buf ℝ), bf.xla out (asDoubles (arrayBytes x)) d full x.size dim1 = .error .oobRead := by
    intro bf out
    unfold BasisFunc.xla
    rw [key bf _ _ hsz hrd]
    rfl
  obtain ⟨c1, c2, -, -⟩ := C18_call ops hid hr ho hi
  rw [e]
  rcases hu with ⟨b, hb⟩ | ⟨b, hb⟩
  · rw [c1 b hb]; exact hxla _ _
  · rw [c2 b hb]; exact hxla _ _

/-- The bits of a small natural number, read as a `double`, are a tiny (subnormal) number. -/
theorem float64_subnormal {b : ℕ} (h : b < 2 ^ 52) : float64 b = b / 2 ^ 1074 := by
  unfold float64 ieee
  have h1 : b / 2 ^ (11 + 52) % 2 = 0 := by rw [Nat.div_eq_of_lt (by omega)]
  have h2 : b / 2 ^ 52 % 2 ^ 11 = 0 := by rw [Nat.div_eq_of_lt h]; rfl
  have h3 : b % 2 ^ 52 = b := Nat.mod_eq_of_lt h
  have e1 : (1 - (2 ^ (11 - 1) - 1) : ℤ) = -(1022 : ℕ) := by norm_num
  have e2 : (2 : ℝ) ^ 1074 = 2 ^ 52 * 2 ^ 1022 := by rw [← pow_add]
  simp only [h1, h2, h3, e1]
  rw [if_neg (by norm_num), if_pos trivial, if_neg (by norm_num), zpow_neg, zpow_natCast, e2]
  field_simp

/-- Points of type `int64`: the C++ code takes the bits of the integers for those of `double`s. For integers from 0 to `2 ^ 52 - 1`
it sees the points divided by `2 ^ 1074`. (XLA then takes the bits of the result for those of integers.) -/
theorem C95_int64_seen (ops : List Op) (hid : ∀ op ∈ ops, ¬ AssignsIdentifier op) {p : Proc}
    (hr : Proc.init.run ops = .ok p) {objs : List CObj} (ho : objStates ops = .ok objs) {h i : ℕ}
    (hi : identifierOf p h = some i) (hu : (∃ bf, objs[h]? = some (.uni bf)) ∨ ∃ e, objs[h]? = some (.elm e))
    {x : TypedArray} (hx : x.ty = .i64) (hb : ∀ b ∈ x.bits, b < 2 ^ 52) {d dim1 : ℕ} {full : Bool} {c : CustomCall}
    (hc : lowerUni i dim1 x d full = some c) :
    p.rawCall c = p.call i (.uni (alloc (x.size * dim1)) (Buf.ofFn x.size fun j => x.val j / 2 ^ 1074) d full x.size dim1) := by
  rw [rawCall_uni ops hid hr ho hi hu hc]
  obtain ⟨ty, bits, fits⟩ := x
  cases hx
  have e1 : TypedArray.size ⟨.i64, bits, fits⟩ * dim1 * ElemType.width .i64 / 8 = TypedArray.size ⟨.i64, bits, fits⟩ * dim1 :=
    Nat.mul_div_cancel _ (show 0 < 8 by norm_num)
  have e2 : asDoubles (arrayBytes ⟨.i64, bits, fits⟩) = Buf.ofFn (TypedArray.size ⟨.i64, bits, fits⟩)
      fun j => TypedArray.val ⟨.i64, bits, fits⟩ j / 2 ^ 1074 := by
    refine (asDoubles_words bits fits).trans (ofFn_congr rfl fun j hj => ?_)
    have hlt : bits.getD j 0 < 2 ^ 52 := hb _ (getD_mem hj)
    rw [float64_subnormal hlt]
    have : signed 8 (bits.getD j 0) = (bits.getD j 0 : ℤ) := if_pos (by omega)
    show _ = ((signed 8 (bits.getD j 0) : ℤ) : ℝ) / 2 ^ 1074
    rw [this]
    rfl
  simp only [e1, e2]

/-- A Chebyshev object on `[0, 1]` with two functions. -/
def demoCheb : List Op := [.create 10 (.uni (.poly .cp) 0 1 [] 2)]

/-- The array `[1]` of type `int64`. -/
def demoOne : TypedArray := ⟨.i64, [1], by simp [ElemType.width]⟩

/-- Without the condition on the element type: for the point 1 of type `int64` the eager method returns `T₀(1) = 1` and `T₁(1) = 1`; the
compiled call stores a number close to -1 in place of the second. -/
theorem C95_int64_fails : ∃ p bf c, Proc.init.run demoCheb = .ok p ∧ objStates demoCheb = .ok [.uni bf] ∧
    identifierOf p 0 = some 0 ∧ lowerUni 0 2 demoOne 0 true = some c ∧
    ReturnsMatrix (bf.H (Buf.ofFn 1 demoOne.val) 1 0 true) 1 [0, 1] (fun _ _ => 1) ∧
    FillsMatrix (p.rawCall c) 1 [0, 1] (fun _ k => if k = 0 then 1 else -1 + 1 / 2 ^ 1073) := by
  have hrun : Proc.init.run demoCheb = .ok _ := rfl
  have hobj : objStates demoCheb = .ok [CObj.uni (uniNew (.poly .cp) 0 1 [] 2)] := rfl
  obtain ⟨c, hc⟩ := C95_describes_uni 0 2 demoOne 0 true (by norm_num) (by norm_num)
    (show 1 < 2 ^ 31 by norm_num) (by norm_num)
  have hval : ∀ j < 1, demoOne.val j = 1 := by
    intro j hj
    obtain rfl : j = 0 := by omega
    show ((signed 8 1 : ℤ) : ℝ) = 1
    norm_num [signed]
  have e := C95_int64_seen demoCheb (by simp [demoCheb, AssignsIdentifier]) hrun hobj (h := 0) (i := 0) rfl (Or.inl ⟨_, rfl⟩)
    (x := demoOne) rfl (by simp [demoOne]) hc
  have hE : ∀ z : ℝ, ∀ k ∈ [0, 1], uniE (.poly .cp) 0 z k = if k = 0 then 1 else z := by
    intro z k hk
    have : k = 0 ∨ k = 1 := by simpa using hk
    rcases this with rfl | rfl <;> simp [uniE, polyD, classical]
  have harg : ∀ x : ℝ, (UniClass.poly .cp).arg 0 1 x = -1 + 2 * x := by
    intro x
    simp only [UniClass.arg, PolyFamily.arg, toBasis]
    ring
  refine ⟨_, _, c, hrun, hobj, rfl, hc, ?_, ?_⟩
  · have h := uni_H (.poly .cp) 0 1 [] (m := 2) (by norm_num) (d := 0) trivial true (Or.inl rfl) 1 demoOne.val
    refine Verif.ReturnsMatrix.congr h fun j hj k hk => ?_
    rw [hE _ k hk, harg, hval j hj]
    norm_num
  · rw [e]
    obtain ⟨F, h1, h2, h3⟩ := uni_xla (.poly .cp) 0 1 [] (m := 2) (by norm_num) (d := 0) trivial true 1
      (fun j => demoOne.val j / 2 ^ 1074) (alloc (1 * 2)) rfl
    refine ⟨F, h1, h2, fun j hj i hi => ?_⟩
    refine (h3 j hj i hi).trans ?_
    have hk : [0, 1][i] ∈ [0, 1] := List.getElem_mem _
    show some (uniE (.poly .cp) 0 _ [0, 1][i] * _) = _
    rw [hE _ _ hk, harg, hval j hj]
    have e3 : (2 : ℝ) ^ 1074 = 2 ^ 1073 * 2 := pow_succ _ _
    have e4 : (-1 : ℝ) + 2 * (1 / 2 ^ 1074) = -1 + 1 / 2 ^ 1073 := by
      rw [e3]; field_simp
    rw [e4]
    simp

/-! ### Several variables -/

/-- All numbers of the arrays of coordinates, one array after the other. -/
noncomputable def joined (xs : List TypedArray) : List ℝ := xs.flatMap fun a => a.bits.map a.ty.value

theorem joined_length (xs : List TypedArray) : (joined xs).length = (xs.map TypedArray.size).sum := by
  induction xs with
  | nil => rfl
  | cons a xs ih =>
    have : joined (a :: xs) = a.bits.map a.ty.value ++ joined xs := rfl
    rw [this, List.length_append, ih, List.map_cons, List.sum_cons, List.length_map]
    rfl

theorem joined_bits (xs : List TypedArray) (h : ∀ y ∈ xs, y.ty = .f64) :
    xs.flatMap arrayBytes = (xs.flatMap TypedArray.bits).flatMap (toBytes 8) ∧
      joined xs = (xs.flatMap TypedArray.bits).map float64 ∧ ∀ b ∈ xs.flatMap TypedArray.bits, b < 256 ^ 8 := by
  induction xs with
  | nil => refine ⟨rfl, rfl, by simp⟩
  | cons a xs ih =>
    obtain ⟨h1, h2, h3⟩ := ih fun y hy => h y (List.mem_cons_of_mem _ hy)
    obtain ⟨ty, bits, fits⟩ := a
    have ht : ty = .f64 := h _ List.mem_cons_self
    subst ht
    refine ⟨?_, ?_, ?_⟩
    · simp only [List.flatMap_cons, List.flatMap_append]
      rw [← h1]
      rfl
    · have : joined (⟨.f64, bits, fits⟩ :: xs) = bits.map float64 ++ joined xs := rfl
      rw [this, h2, List.flatMap_cons, List.map_append]
    · intro b hb
      rw [List.flatMap_cons, List.mem_append] at hb
      rcases hb with hb | hb
      · exact fits b hb
      · exact h3 b hb

/-- What the C++ code sees of arrays of type `float64`. -/
theorem asDoubles_joined (xs : List TypedArray) (h : ∀ y ∈ xs, y.ty = .f64) :
    asDoubles (xs.flatMap arrayBytes) = Buf.ofFn (joined xs).length fun j => (joined xs).getD j 0 := by
  obtain ⟨h1, h2, h3⟩ := joined_bits xs h
  rw [h1, asDoubles_words _ h3, h2]
  refine ofFn_congr (by simp) fun j hj => ?_
  rw [List.getD_eq_getElem _ _ hj, List.getD_eq_getElem _ _ (by simpa using hj), List.getElem_map]

theorem ofFn_ofMat {dim n : ℕ} (f : ℕ → ℝ) (M : Fin dim → Fin n → ℝ)
    (h : ∀ (k : Fin dim) (j : Fin n), f (k * n + j) = M k j) : Buf.ofFn (dim * n) f = Buf.ofMat M := by
  simp only [Buf.ofFn, Buf.ofMat, Buf.mk.injEq, true_and]
  funext i
  by_cases hi : i < dim * n
  · have hn : 0 < n := Nat.pos_of_ne_zero (by rintro rfl; simp at hi)
    simp only [hi, if_true, dif_pos]
    rw [← h]
    congr 2
    show i = i / n * n + i % n
    rw [Nat.mul_comm, Nat.div_add_mod]
  · simp [hi]

/-- With coordinates of equal length, coordinate `k` of point `j` is where the C++ code looks for it. -/
theorem joined_equal {n : ℕ} (xs : List TypedArray) (hn : ∀ y ∈ xs, y.size = n) (k j : ℕ) (hk : k < xs.length) (hj : j < n) :
    (joined xs).getD (k * n + j) 0 = xs[k].val j := by
  induction xs generalizing k with
  | nil => simp at hk
  | cons a xs ih =>
    have e : joined (a :: xs) = a.bits.map a.ty.value ++ joined xs := rfl
    have ha : (a.bits.map a.ty.value).length = n := by rw [List.length_map]; exact hn a List.mem_cons_self
    have ha' : a.bits.length = n := by simpa using ha
    cases k with
    | zero =>
      rw [e, Nat.zero_mul, Nat.zero_add, List.getD_append _ _ _ _ (by omega)]
      rw [List.getD_eq_getElem _ _ (by omega), List.getElem_map]
      show _ = a.ty.value (a.bits.getD j 0)
      rw [List.getD_eq_getElem _ _ (by omega)]
    | succ k =>
      rw [e, List.getD_append_right _ _ _ _ (by rw [ha]; nlinarith)]
      have : (k + 1) * n + j - (a.bits.map a.ty.value).length = k * n + j := by
        rw [ha, Nat.succ_mul]; omega
      rw [this]
      exact ih (fun y hy => hn y (List.mem_cons_of_mem _ hy)) k (by simpa using hk)

/-- A compiled call of an object in several variables, with `float64` coordinates `dim * n` in number: as coordinate `k` of point `j` the C++
code sees the number at position `k * n + j` of the joined arrays. -/
theorem rawCall_joined (ops : List Op) (hid : ∀ op ∈ ops, ¬ AssignsIdentifier op) {p : Proc}
    (hr : Proc.init.run ops = .ok p) {objs : List CObj} (ho : objStates ops = .ok objs) {h i : ℕ}
    (hi : identifierOf p h = some i) {o : CObj} (hu : objs[h]? = some o)
    (hk : (∃ bf, o = .nd bf) ∨ ∃ e, o = .nelm e) {x0 : TypedArray} {xs : List TypedArray} {d : List ℕ}
    (hx : ∀ y ∈ x0 :: xs, y.ty = .f64) {dim dim1 : ℕ} (hlen : (joined (x0 :: xs)).length = dim * x0.size)
    {full : Bool} {c : CustomCall} (hc : lowerMulti i dim dim1 (x0 :: xs) d full = some c) :
    p.rawCall c = o.xla (.nd (alloc (x0.size * dim1))
        (Buf.ofMat fun (k : Fin dim) (j : Fin x0.size) => (joined (x0 :: xs)).getD (k * x0.size + j) 0)
        (Buf.ofList d) dim full x0.size dim1) := by
  rw [rawCall_multi ops hid hr ho hi hu hk hc, asDoubles_joined _ hx, hlen, ofFn_ofMat _ _ fun k j => rfl]
  have e1 : x0.size * dim1 * x0.ty.width / 8 = x0.size * dim1 := by
    rw [hx x0 List.mem_cons_self]
    exact Nat.mul_div_cancel _ (show 0 < 8 by norm_num)
  rw [e1]

/-- The description exists for coordinates of one type and numbers that fit into 32 bits. -/
theorem C95_describes_multi (i dim dim1 : ℕ) (x0 : TypedArray) (xs : List TypedArray) (d : List ℕ) (full : Bool)
    (hty : ∀ y ∈ xs, y.ty = x0.ty) (h1 : i < 2 ^ 31) (h2 : dim1 < 2 ^ 31) (h3 : x0.size < 2 ^ 31) (h4 : ∀ v ∈ d, v < 2 ^ 31)
    (h5 : dim < 2 ^ 31) : ∃ c, lowerMulti i dim dim1 (x0 :: xs) d full = some c := by
  unfold lowerMulti
  dsimp only
  rw [if_pos (by simpa using hty)]
  obtain ⟨l, hl⟩ : ∃ l, d.mapM int32 = some l := by
    induction d with
    | nil => exact ⟨[], rfl⟩
    | cons a d ih =>
      obtain ⟨l, hl⟩ := ih fun v hv => h4 v (List.mem_cons_of_mem _ hv)
      have ha : int32 a = some (toBytes 4 a) := if_pos (h4 a List.mem_cons_self)
      refine ⟨toBytes 4 a :: l, ?_⟩
      rw [List.mapM_cons, ha, hl]
      rfl
  rw [hl]
  unfold int32
  rw [if_pos h1, if_pos h5, if_pos h3, if_pos h2]
  exact ⟨_, rfl⟩

/-- The same for coordinates of equal length: the C++ code sees them as they were meant. -/
theorem rawCall_points (ops : List Op) (hid : ∀ op ∈ ops, ¬ AssignsIdentifier op) {p : Proc}
    (hr : Proc.init.run ops = .ok p) {objs : List CObj} (ho : objStates ops = .ok objs) {h i : ℕ}
    (hi : identifierOf p h = some i) {o : CObj} (hu : objs[h]? = some o)
    (hk : (∃ bf, o = .nd bf) ∨ ∃ e, o = .nelm e) {dim n : ℕ} (x : Fin (dim + 1) → TypedArray)
    (hx : ∀ k, (x k).ty = .f64) (hn : ∀ k, (x k).size = n) {d : List ℕ} {dim1 : ℕ} {full : Bool} {c : CustomCall}
    (hc : lowerMulti i (dim + 1) dim1 (List.ofFn x) d full = some c) :
    p.rawCall c = o.xla (.nd (alloc (n * dim1)) (Buf.ofMat fun k (j : Fin n) => (x k).val j) (Buf.ofList d) (dim + 1) full n dim1) := by
  rw [List.ofFn_succ] at hc
  have hall : ∀ y ∈ x 0 :: List.ofFn fun k => x (Fin.succ k), ∃ k, y = x k := by
    intro y hy
    rw [← List.ofFn_succ] at hy
    obtain ⟨k, hk⟩ := List.mem_ofFn.1 hy
    exact ⟨k, hk.symm⟩
  have hsz : ∀ y ∈ x 0 :: List.ofFn fun k => x (Fin.succ k), y.size = n := by
    intro y hy
    obtain ⟨k, rfl⟩ := hall y hy
    exact hn k
  have hjl : (joined (x 0 :: List.ofFn fun k => x (Fin.succ k))).length = (dim + 1) * (x 0).size := by
    rw [joined_length, hn 0]
    have : (x 0 :: List.ofFn fun k => x (Fin.succ k)).map TypedArray.size = List.replicate (dim + 1) n := by
      rw [List.eq_replicate_iff]
      refine ⟨by simp, fun b hb => ?_⟩
      obtain ⟨y, hy, rfl⟩ := List.mem_map.1 hb
      exact hsz y hy
    rw [this, List.sum_replicate, smul_eq_mul]
  have hraw := rawCall_joined ops hid hr ho hi hu hk
    (fun y hy => by obtain ⟨k, rfl⟩ := hall y hy; exact hx k) hjl hc
  rw [hraw, hn 0]
  have hpts : (fun (k : Fin (dim + 1)) (j : Fin n) => (joined (x 0 :: List.ofFn fun k => x (Fin.succ k))).getD (k * n + j) 0) =
      fun (k : Fin (dim + 1)) (j : Fin n) => (x k).val j := by
    funext k j
    rw [joined_equal _ hsz k j (by simp only [List.length_cons, List.length_ofFn]; exact k.2) j.2]
    have : (x 0 :: List.ofFn fun k => x (Fin.succ k)) = List.ofFn x := List.ofFn_succ.symm
    simp only [this, List.getElem_ofFn]
  rw [hpts]

/-- **C95**, several variables, coordinates of type `float64` (tensor-product classes): the compiled computation described by `mtfc`,
executed byte by byte, fills the block of the result with exactly what the eager method returns for the numbers in the arrays of coordinates. -/
theorem C95_float64_multi (ops : List Op) (hid : ∀ op ∈ ops, ¬ AssignsIdentifier op) {p : Proc}
    (hr : Proc.init.run ops = .ok p) {objs : List CObj} (ho : objStates ops = .ok objs) {h i : ℕ}
    (hi : identifierOf p h = some i) (f : NFamily) {dim m numC : ℕ} (hm : 1 ≤ m) (x0 xf : Fin (dim + 1) → ℝ)
    (nC : Fin (dim + 1) → Fin numC → ℤ) {bf : NBasisFunc ℝ}
    (hnew : nNew f (Buf.ofVec x0) (dim + 1) (Buf.ofVec xf) (Buf.ofMat nC) (dim + 1) numC m = .ok bf)
    (hbf : objs[h]? = some (.nd bf)) (full : Bool) (ds : List ℕ) (hds : ds.length = dim + 1) {n : ℕ}
    (x : Fin (dim + 1) → TypedArray) (hx : ∀ k, (x k).ty = .f64) (hn : ∀ k, (x k).size = n)
    {c : CustomCall} (hc : lowerMulti i (dim + 1) (if full then bf.numBasisFuncFull else bf.numBasisFunc) (List.ofFn x) ds full = some c) :
    ∃ (L : List (Fin (dim + 1) → ℕ)) (V : ℕ → (Fin (dim + 1) → ℕ) → ℝ),
      ReturnsMatrix (bf.H (Buf.ofMat fun k (j : Fin n) => (x k).val j) n (Buf.ofList ds) (dim + 1) full) n L V ∧
      FillsMatrix (p.rawCall c) n L V := by
  obtain ⟨bf', L, e1, hL, hlen, hxla⟩ := C24_xla_cc f (Nat.succ_pos dim) hm x0 xf nC full
  obtain ⟨bf'', L', e2, hL', hH⟩ := C23_mixed_partials_cc f (Nat.succ_pos dim) hm x0 xf nC full
  rw [hnew] at e1 e2
  cases e1
  cases e2
  obtain rfl := C22_order_unique hL hL'
  have hH := hH n (fun j k => (x k).val j) ds
  rw [hds] at hH
  refine ⟨L, _, hH, ?_⟩
  rw [rawCall_points ops hid hr ho hi hbf (Or.inl ⟨_, rfl⟩) x hx hn hc, ← hlen]
  exact hxla n (fun j k => (x k).val j) ds _ hds rfl

/-- **C95**, several variables, coordinates of type `float64` (extreme learning machines; orders and removed columns as in C24). -/
theorem C95_float64_nelm (ops : List Op) (hid : ∀ op ∈ ops, ¬ AssignsIdentifier op) {p : Proc}
    (hr : Proc.init.run ops = .ok p) {objs : List CObj} (ho : objStates ops = .ok objs) {h i : ℕ}
    (hi : identifierOf p h = some i) (a : Activation) {dim m : ℕ} (x0 xf : Fin (dim + 1) → ℝ) (w : Fin (dim + 1) → ℕ → ℝ)
    (b : ℕ → ℝ) (nC : List ℤ) {e : NElm ℝ} (hnew : nElmObj a x0 xf w b nC m = .ok e) (hbf : objs[h]? = some (.nelm e))
    (full : Bool) (ds : List ℕ) (hds : ds.length = dim + 1) (hsw : a = .swish → ds.sum ≤ 8)
    (hC : full = true ∨ NElmRemoval m nC) {n : ℕ}
    (x : Fin (dim + 1) → TypedArray) (hx : ∀ k, (x k).ty = .f64) (hn : ∀ k, (x k).size = n)
    {c : CustomCall}
    (hc : lowerMulti i (dim + 1) (if full then e.numBasisFuncFull else e.numBasisFunc).toNat (List.ofFn x) ds full = some c) :
    ∃ (L : List ℕ) (V : ℕ → ℕ → ℝ),
      ReturnsMatrix (e.H (Buf.ofMat fun k (j : Fin n) => (x k).val j) n (Buf.ofList ds) (dim + 1) full) n L V ∧
      FillsMatrix (p.rawCall c) n L V := by
  obtain ⟨e', V, e1, hH, hxla⟩ := C24_nelm_partial a x0 xf w b nC m full n (fun j k => (x k).val j) ds hds.le hsw hC
  rw [hnew] at e1
  cases e1
  rw [hds] at hH hxla
  refine ⟨outColumns m nC full, V, hH, ?_⟩
  have hlen : (if full then e.numBasisFuncFull else e.numBasisFunc).toNat = (outColumns m nC full).length := by
    obtain ⟨F, h1, -, -⟩ := hH
    unfold NElm.H at h1
    dsimp only at h1
    split_ifs at h1 <;>
    · obtain ⟨F', -, h2⟩ := bind_ok h1
      simp only [Except.ok.injEq, Prod.mk.injEq] at h2
      simp_all
  rw [rawCall_points ops hid hr ho hi hbf (Or.inr ⟨_, rfl⟩) x hx hn hc, hlen]
  exact hxla _ rfl

/-! ### Too few bytes -/

theorem loop_ok_each {σ ε : Type} {body : ℕ → σ → Except ε σ} {hi : ℕ} (m : ℕ) {s t : σ}
    (h : loop (hi - m) hi body s = .ok t) (hm : m ≤ hi) : ∀ k, hi - m ≤ k → k < hi → ∃ s' t', body k s' = .ok t' := by
  induction m generalizing s with
  | zero => intro k h1 h2; omega
  | succ m ih =>
    rw [loop_succ (by omega)] at h
    obtain ⟨s', h1, h2⟩ := bind_ok h
    have e : hi - (m + 1) + 1 = hi - m := by omega
    rw [e] at h2
    intro k hk1 hk2
    rcases Nat.eq_or_lt_of_le hk1 with rfl | hlt
    · exact ⟨s, s', h1⟩
    · exact ih h2 (by omega) k (by omega) hk2

theorem loop_ok {σ ε : Type} {body : ℕ → σ → Except ε σ} {hi : ℕ} {s t : σ} (h : loop 0 hi body s = .ok t) (k : ℕ) (hk : k < hi) :
    ∃ s' t', body k s' = .ok t' := by
  have := loop_ok_each hi (s := s) (t := t) (body := body) (hi := hi) (by rwa [Nat.sub_self]) le_rfl k (by omega) hk
  exact this

/-- Mapping the points of all coordinates needs `dim * n` numbers. -/
theorem mapPointsN_needs {dim n : ℕ} {x0 c x z : Buf ℝ} {z0 : ℝ} (h : mapPointsN dim x0 c z0 x n = .ok z) : dim * n ≤ x.size := by
  by_contra hlt
  have hlt : x.size < dim * n := by omega
  have hn : 0 < n := Nat.pos_of_ne_zero (by rintro rfl; simp at hlt)
  have hj : x.size / n < dim := Nat.div_lt_of_lt_mul (by rwa [Nat.mul_comm])
  unfold mapPointsN at h
  obtain ⟨s, t, h1⟩ := loop_ok h _ hj
  obtain ⟨s', t', h2⟩ := loop_ok h1 (x.size % n) (Nat.mod_lt _ hn)
  obtain ⟨v, h3, -⟩ := bind_ok h2
  have : x.size / n * n + x.size % n = x.size := by rw [Nat.mul_comm]; exact Nat.div_add_mod _ _
  rw [this] at h3
  simp [Buf.read] at h3

/-- Number of variables of an object. -/
def varsOf : CObj → ℕ
  | .nd bf => bf.dim
  | .nelm e => e.dim
  | _ => 1

/-- Without the conditions on the element type and on the lengths: whenever the arrays of coordinates together have fewer than 8 bytes for each
coordinate of each point — coordinates of type `float32` or `int32`, a second coordinate shorter than the first — the compiled call of any object
in several variables accesses memory it must not access, for all orders and flags. -/
theorem C95_short_fails (ops : List Op) (hid : ∀ op ∈ ops, ¬ AssignsIdentifier op) {p : Proc}
    (hr : Proc.init.run ops = .ok p) {objs : List CObj} (ho : objStates ops = .ok objs) {h i : ℕ}
    (hi : identifierOf p h = some i) {o : CObj} (hu : objs[h]? = some o)
    (hk : (∃ bf, o = .nd bf) ∨ ∃ e, o = .nelm e) {x0 : TypedArray} {xs : List TypedArray} {d : List ℕ}
    {dim1 : ℕ} {full : Bool} {c : CustomCall} (hc : lowerMulti i (varsOf o) dim1 (x0 :: xs) d full = some c)
    (hshort : ((x0 :: xs).map fun y => y.size * y.ty.width).sum < varsOf o * x0.size * 8) :
    ∃ e, p.rawCall c = .error e := by
  rw [rawCall_multi ops hid hr ho hi hu hk hc]
  have hb : ∀ l : List TypedArray, (l.flatMap arrayBytes).length = (l.map fun y => y.size * y.ty.width).sum := by
    intro l
    induction l with
    | nil => rfl
    | cons a l ih =>
      rw [List.flatMap_cons, List.length_append, ih, List.map_cons, List.sum_cons]
      unfold arrayBytes
      rw [flatMap_toBytes_length, Nat.mul_comm]
      rfl
  have hsz : ¬ varsOf o * x0.size ≤ (asDoubles ((x0 :: xs).flatMap arrayBytes)).size := by
    show ¬ _ ≤ _ / 8
    rw [hb]
    omega
  rcases hk with ⟨bf, rfl⟩ | ⟨e, rfl⟩
  · cases hz : mapPointsN bf.dim bf.x0 bf.c bf.z0 (asDoubles ((x0 :: xs).flatMap arrayBytes)) x0.size with
    | ok z => exact absurd (mapPointsN_needs hz) hsz
    | error e =>
      refine ⟨e, ?_⟩
      show NBasisFunc.nHint _ _ _ _ _ _ _ _ = _
      unfold NBasisFunc.nHint
      rw [hz]
      rfl
  · cases hz : mapPointsN e.dim e.x0 e.c e.z0 (asDoubles ((x0 :: xs).flatMap arrayBytes)) x0.size with
    | ok z => exact absurd (mapPointsN_needs hz) hsz
    | error e' =>
      refine ⟨e', ?_⟩
      show NElm.nHint _ _ _ _ _ _ _ _ = _
      unfold NElm.nHint
      rw [hz]
      rfl

/-- Coordinates of different lengths which together have the right number of elements: the eager method refuses them, the compiled call returns
normally, with the values at other points than meant (`joined`). -/
theorem C95_lengths_fails (ops : List Op) (hid : ∀ op ∈ ops, ¬ AssignsIdentifier op) {p : Proc}
    (hr : Proc.init.run ops = .ok p) {objs : List CObj} (ho : objStates ops = .ok objs) {h i : ℕ}
    (hi : identifierOf p h = some i) (f : NFamily) {dim m numC : ℕ} (hdim : 1 ≤ dim) (hm : 1 ≤ m) (x0 xf : Fin dim → ℝ)
    (nC : Fin dim → Fin numC → ℤ) {bf : NBasisFunc ℝ}
    (hnew : nNew f (Buf.ofVec x0) dim (Buf.ofVec xf) (Buf.ofMat nC) dim numC m = .ok bf)
    (hbf : objs[h]? = some (.nd bf)) (full : Bool) (ds : List ℕ) (hds : ds.length = dim)
    (y : TypedArray) (ys : List TypedArray) (hx : ∀ a ∈ y :: ys, a.ty = .f64)
    (hsum : ((y :: ys).map TypedArray.size).sum = dim * y.size) (hne : ∃ a ∈ ys, a.size ≠ y.size)
    {c : CustomCall} (hc : lowerMulti i dim (if full then bf.numBasisFuncFull else bf.numBasisFunc) (y :: ys) ds full = some c) :
    stackPoints (y :: ys) = .error .valueError ∧
    ∃ L, IsColumnOrder m (fun k => List.ofFn (nC k)) full L ∧
      FillsMatrix (p.rawCall c) y.size L (fun j α => mixedPartial (fun k => ds.getD k 0) (f.cls.tensor x0 xf α)
        (fun k => (joined (y :: ys)).getD (k * y.size + j) 0)) := by
  obtain ⟨bf', L, e1, hL, hlen, hxla⟩ := C24_xla_cc f hdim hm x0 xf nC full
  rw [hnew] at e1
  cases e1
  refine ⟨?_, L, hL, ?_⟩
  · obtain ⟨a, ha, hs⟩ := hne
    unfold stackPoints
    rw [if_neg]
    intro hall
    have := List.all_eq_true.1 hall a (List.mem_cons_of_mem _ ha)
    simp only [List.headD_cons, beq_iff_eq] at this
    exact hs this
  · rw [rawCall_joined ops hid hr ho hi hbf (Or.inl ⟨_, rfl⟩) hx (by rw [joined_length, hsum]) hc, ← hlen]
    exact hxla y.size (fun j k => (joined (y :: ys)).getD (k * y.size + j) 0) ds _ hds rfl

/-! ### Cases meeting the hypotheses -/

/-- The array with `n` elements 1.5 of type `float64`. -/
def demoF64 (n : ℕ) : TypedArray := ⟨.f64, List.replicate n 0x3FF8000000000000, by
  intro b hb
  rw [List.eq_of_mem_replicate hb]
  norm_num [ElemType.width]⟩

/-- The array with `n` elements 1.5 of type `float32`. -/
def demoF32 (n : ℕ) : TypedArray := ⟨.f32, List.replicate n 0x3FC00000, by
  intro b hb
  rw [List.eq_of_mem_replicate hb]
  norm_num [ElemType.width]⟩

/-- These bits are the number 1.5. -/
theorem demo_value : float64 0x3FF8000000000000 = 3 / 2 ∧ float32 0x3FC00000 = 3 / 2 := by
  constructor
  · norm_num [float64, ieee]
  · norm_num [float32, ieee]

/-- One variable: `C95_float64_uni` and `C95_four_bytes_fails` apply to the live object 1 of `demoHistory`. -/
example : ∃ p objs e, Proc.init.run demoHistory = .ok p ∧ objStates demoHistory = .ok objs ∧
    identifierOf p 1 = some 1 ∧ objs[1]? = some (.elm e) ∧ ValidRemoval e.base.m e.base.nC ∧
    (∃ c, lowerUni 1 1 (demoF64 3) 2 true = some c ∧ 1 ≤ (demoF64 3).size) ∧
    ∃ c, lowerUni 1 1 (demoF32 3) 2 true = some c ∧ p.rawCall c = .error .oobRead := by
  obtain ⟨c1, h1⟩ := C95_describes_uni 1 1 (demoF64 3) 2 true (by norm_num) (by norm_num)
    (show 3 < 2 ^ 31 by norm_num) (by norm_num)
  obtain ⟨c2, h2⟩ := C95_describes_uni 1 1 (demoF32 3) 2 true (by norm_num) (by norm_num)
    (show 3 < 2 ^ 31 by norm_num) (by norm_num)
  have hr : Proc.init.run demoHistory = .ok _ := rfl
  have ho : objStates demoHistory = .ok _ := rfl
  refine ⟨_, _, _, hr, ho, rfl, rfl, ?_, ⟨c1, h1, show 1 ≤ 3 by norm_num⟩, c2, h2, ?_⟩
  · show ValidRemoval 1 []
    constructor <;> simp
  · exact C95_four_bytes_fails demoHistory (by simp [demoHistory, AssignsIdentifier]) hr ho (h := 1) rfl (Or.inr ⟨_, rfl⟩)
      (x := demoF32 3) rfl (show 1 ≤ 3 by norm_num) h2

/-- Several variables: an object of three variables, coordinates of lengths 2, 2, 2, coordinates of lengths 2, 3, 1, and coordinates of lengths 2, 2, 1. -/
example : ∃ p bf, Proc.init.run [.create 10 (.nd .cp (Buf.ofVec ![0, 0, 0]) 3 (Buf.ofVec ![1, 1, 1])
      (Buf.ofMat ![![0], ![0], ![-1]]) 3 1 4)] = .ok p ∧
    nNew .cp (Buf.ofVec ![0, 0, 0]) 3 (Buf.ofVec ![1, 1, 1]) (Buf.ofMat ![![0], ![0], ![-1]]) 3 1 4 = .ok bf ∧
    objStates [.create 10 (.nd .cp (Buf.ofVec ![0, 0, 0]) 3 (Buf.ofVec ![1, 1, 1])
      (Buf.ofMat ![![0], ![0], ![-1]]) 3 1 4)] = .ok [.nd bf] ∧ identifierOf p 0 = some 0 ∧
    ((∀ k, (![demoF64 2, demoF64 2, demoF64 2] k).ty = .f64) ∧ ∀ k, (![demoF64 2, demoF64 2, demoF64 2] k).size = 2) ∧
    (([demoF64 2, demoF64 3, demoF64 1].map TypedArray.size).sum = 3 * (demoF64 2).size ∧
      ∃ a ∈ [demoF64 3, demoF64 1], a.size ≠ (demoF64 2).size) ∧
    ([demoF64 2, demoF64 2, demoF64 1].map fun y => y.size * y.ty.width).sum < varsOf (.nd bf) * (demoF64 2).size * 8 := by
  obtain ⟨bf, hbf, hg⟩ := nNew_good .cp (m := 4) (numC := 1) (by norm_num) ![0, 0, 0] ![1, 1, 1] ![![0], ![0], ![-1]]
  have hd : bf.dim = 3 := hg.dim_
  have hb : Ctor.build (.nd .cp (Buf.ofVec ![0, 0, 0]) 3 (Buf.ofVec ![1, 1, 1]) (Buf.ofMat ![![0], ![0], ![-1]]) 3 1 4) =
      .ok (.nd bf) := by
    unfold Ctor.build
    dsimp only
    rw [hbf]
    rfl
  refine ⟨⟨1, [10], Function.update (fun _ => none) 10 (some ⟨0, .nd bf⟩), [some 10]⟩, bf, ?_, hbf, ?_, ?_, ⟨?_, ?_⟩, ⟨?_, ?_⟩, ?_⟩
  · show (Proc.create Proc.init 10 _ >>= fun p => .ok p) = _
    unfold Proc.create
    rw [hb]
    rfl
  · show (objStep [] _ >>= fun p => .ok p) = _
    unfold objStep
    dsimp only
    rw [hb]
    rfl
  · simp [identifierOf, Proc.deref]
  · intro k; fin_cases k <;> rfl
  · intro k; fin_cases k <;> rfl
  · rfl
  · exact ⟨demoF64 3, by simp, by show 3 ≠ 2; norm_num⟩
  · show 2 * 8 + (2 * 8 + (1 * 8 + 0)) < bf.dim * 2 * 8
    rw [hd]
    norm_num

end Verif.Props
