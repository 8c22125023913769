import Verif.Spec.ElmSet
import Verif.Model.UniCC
import Verif.Props.Registry
import Mathlib.Tactic.IntervalCases

/-! # C28: setting and reading weights and biases -/

namespace Verif.Props

open Verif.Mem Verif.Py Verif.Spec Verif.Model

theorem memcpy_ofFn {α : Type} {n : ℕ} {dst src : Buf α} {g : ℕ → α} (hd : dst.size = n)
    (hn : ∀ i, n ≤ i → dst.cell i = none) (h : ∀ k < n, src.read k = .ok (g k)) :
    CC.memcpy dst src n = .ok (Buf.ofFn n g) := by
  have key : Runs (CC.memcpy dst src n) (fun b => b.size = n ∧ ∀ i, b.cell i = if i < n then some (g i) else dst.cell i) := by
    unfold CC.memcpy
    refine loop_spec (fun i (b : Buf α) => b.size = n ∧ ∀ j, b.cell j = if j < i then some (g j) else dst.cell j)
      (Nat.zero_le n) ⟨hd, by simp⟩ ?_
    rintro i b - hi ⟨hb, hc⟩
    rw [h i hi]
    refine ⟨⟨b.size, Function.update b.cell i (some (g i))⟩, ?_, hb, fun j => ?_⟩
    · show b.write i (g i) = _
      simp [Buf.write, hb, hi]
    · by_cases hj : j = i
      · subst hj
        show Function.update b.cell j (some (g j)) j = _
        simp
      · show Function.update b.cell i (some (g i)) j = _
        rw [Function.update_of_ne hj, hc j]
        by_cases hji : j < i
        · rw [if_pos hji, if_pos (by omega)]
        · rw [if_neg hji, if_neg (by omega)]
  obtain ⟨⟨sz, cell⟩, hb, hs, hc⟩ := key
  rw [hb]
  simp only at hs hc
  subst hs
  simp only [Buf.ofFn, Except.ok.injEq, Buf.mk.injEq, true_and]
  funext i
  rw [hc i]
  by_cases hi : i < sz
  · simp [hi]
  · simp [hi, hn i (by omega)]

theorem data_read {α : Type} [Zero α] {a : NdArr α} (hf : NdArr.Full a) (hc : NdArr.Contiguous a) {k : ℕ} (hk : k < a.size) :
    a.data.read k = .ok (NdArr.val a k) := by
  have h1 := hf k hk
  have h2 := hc k hk
  unfold NdArr.entry at h1
  simp only [h2] at h1
  have hin : (0 : ℤ) ≤ (a.off : ℤ) + k ∧ (a.off : ℤ) + k < a.mem.size := by
    by_contra hn
    rw [if_neg hn] at h1
    cases h1
  rw [if_pos hin] at h1
  have ht : ((a.off : ℤ) + (k : ℤ)).toNat = k + a.off := by omega
  rw [ht] at h1
  obtain ⟨v, hv⟩ := Option.isSome_iff_exists.1 h1
  have hval : NdArr.val a k = v := by
    unfold NdArr.val NdArr.entry
    simp only [h2]
    rw [if_pos hin, ht, hv]
    rfl
  rw [hval]
  unfold NdArr.data Buf.drop Buf.read
  simp only [hv]
  rw [if_pos (by omega)]

theorem cStyle_ok {α : Type} [Zero α] {a : NdArr α} (hf : NdArr.Full a) : a.cStyle = .ok (Buf.ofFn a.size (NdArr.val a)) := by
  have := memcpy_ofFn (n := a.size) (dst := alloc a.size) (src := Buf.ofFn a.size (NdArr.val a)) (g := NdArr.val a) rfl (fun _ _ => rfl)
    (fun k hk => Buf.ofFn_read hk)
  rw [← this]
  unfold NdArr.cStyle CC.memcpy loop
  have hl : ∀ (l : List ℕ) (s : Buf α), (∀ k ∈ l, k < a.size) →
      l.foldlM (fun s k => do
        let v ← a.get k
        s.write k v) s = l.foldlM (fun s k => do
        let v ← (Buf.ofFn a.size (NdArr.val a)).read k
        s.write k v) s := by
    intro l
    induction l with
    | nil => intros; rfl
    | cons k l ih =>
      intro s hl
      have hk := hl k (by simp)
      have e1 : a.get k = .ok (NdArr.val a k) := by
        obtain ⟨v, hv⟩ := Option.isSome_iff_exists.1 (hf k hk)
        simp [NdArr.get, NdArr.val, hv]
      simp only [List.foldlM_cons, e1, Buf.ofFn_read hk]
      congr 1
      funext s
      exact ih s fun k h => hl k (by simp [h])
  exact hl _ _ fun k hk => by
    have := List.mem_range'_1.1 hk
    omega

theorem memcpy_self {m : ℕ} (f : ℕ → ℝ) : CC.memcpy (alloc m) (Buf.ofFn m f) m = .ok (Buf.ofFn m f) :=
  memcpy_ofFn rfl (fun _ _ => rfl) fun _ hk => Buf.ofFn_read hk

/-- A compiled univariate ELM object with given weights and biases. -/
def elmObj (a : Activation) (x0 xf : ℝ) (nC : List ℤ) (m : ℕ) (w b : ℕ → ℝ) : CC.Elm :=
  ⟨a, x0, xf, nC, m, Buf.ofFn m w, Buf.ofFn m b⟩

/-- **C28**, compiled univariate ELM classes, for arrays laid out contiguously: after any history of assignments with arrays
of the right size, `obj.w` and `obj.b` are the last ones assigned (or the initial ones), and the object is the one
that would have been built with these weights and biases, so every evaluation uses them.
Missing: arrays of doubles in any other layout, see `C28_strided_fails`. -/
theorem C28_elm_cc_partial (a : Activation) (x0 xf : ℝ) (nC : List ℤ) (m : ℕ) (w0 b0 : ℕ → ℝ) (ops : List (SetOp NdArr))
    (hops : ∀ op ∈ ops, NdArr.Full (SetOp.arr op) ∧ NdArr.Contiguous (SetOp.arr op) ∧ (SetOp.arr op).size = m) :
    ∃ e, ops.foldlM CC.Elm.assign (elmObj a x0 xf nC m w0 b0) = .ok e ∧
      e.getW = .ok (m, Buf.ofFn m (lastW NdArr.val w0 ops)) ∧
      e.getB = .ok (m, Buf.ofFn m (lastB NdArr.val b0 ops)) ∧
      e.base = CC.uniNew (.elm a (lastW NdArr.val w0 ops) (lastB NdArr.val b0 ops)) x0 xf nC m := by
  refine ⟨elmObj a x0 xf nC m (lastW NdArr.val w0 ops) (lastB NdArr.val b0 ops), ?_, ?_, ?_, rfl⟩
  · induction ops generalizing w0 b0 with
    | nil => rfl
    | cons op ops ih =>
      obtain ⟨hf, hc, hs⟩ := hops op (by simp)
      rw [List.foldlM_cons]
      cases op with
      | w arr =>
        have hs : arr.size = m := hs
        have : (elmObj a x0 xf nC m w0 b0).assign (.w arr) = .ok (elmObj a x0 xf nC m (NdArr.val arr) b0) := by
          show (elmObj a x0 xf nC m w0 b0).setW arr.data arr.size = _
          unfold CC.Elm.setW
          rw [if_neg (by simpa [elmObj] using hs)]
          show (Model.Py.liftCC (CC.memcpy (Buf.ofFn m w0) arr.data m) >>= _) = _
          rw [memcpy_ofFn (n := m) (dst := Buf.ofFn m w0) (src := arr.data) (g := NdArr.val arr) rfl
            (fun i hi => by simp [Buf.ofFn, not_lt.2 hi]) fun k hk => data_read hf hc (hs.symm ▸ hk)]
          rfl
        rw [this]
        exact ih _ _ fun op h => hops op (by simp [h])
      | b arr =>
        have hs : arr.size = m := hs
        have : (elmObj a x0 xf nC m w0 b0).assign (.b arr) = .ok (elmObj a x0 xf nC m w0 (NdArr.val arr)) := by
          show (elmObj a x0 xf nC m w0 b0).setB arr.data arr.size = _
          unfold CC.Elm.setB
          rw [if_neg (by simpa [elmObj] using hs)]
          show (Model.Py.liftCC (CC.memcpy (Buf.ofFn m b0) arr.data m) >>= _) = _
          rw [memcpy_ofFn (n := m) (dst := Buf.ofFn m b0) (src := arr.data) (g := NdArr.val arr) rfl
            (fun i hi => by simp [Buf.ofFn, not_lt.2 hi]) fun k hk => data_read hf hc (hs.symm ▸ hk)]
          rfl
        rw [this]
        exact ih _ _ fun op h => hops op (by simp [h])
  · unfold CC.Elm.getW elmObj
    simp only [memcpy_self]
    rfl
  · unfold CC.Elm.getB elmObj
    simp only [memcpy_self]
    rfl

/-- **C28**, refusal: assigning an array of the wrong size to a compiled ELM object ends the process. -/
theorem C28_elm_cc_refused (e : CC.Elm) (arr : NdArr) (h : arr.size ≠ e.m) :
    e.assign (.w arr) = .error .exit ∧ e.assign (.b arr) = .error .exit := by
  constructor
  · show e.setW arr.data arr.size = _
    unfold CC.Elm.setW
    rw [if_pos h]
  · show e.setB arr.data arr.size = _
    unfold CC.Elm.setB
    rw [if_pos h]

/-- The array `[1, 2, 3][::2]`, i.e. `[1, 3]`. -/
def strided : NdArr := ⟨Buf.ofFn 3 fun k => k + 1, 0, [2], [2]⟩

/-- The claim of C28 for one assignment to `obj.w` of an array of any layout. -/
def SettingWorks : Prop :=
  ∀ (a : Activation) (x0 xf : ℝ) (nC : List ℤ) (m : ℕ) (w0 b0 : ℕ → ℝ) (arr : NdArr), NdArr.Full arr → arr.size = m →
    ∃ e, (elmObj a x0 xf nC m w0 b0).assignW arr = .ok e ∧ e.getW = .ok (m, Buf.ofFn m (NdArr.val arr))

/-- C28 is false for compiled objects and arrays that are not contiguous: `elm.w = np.array([1., 2., 3.])[::2]` makes
`elm.w` equal to `[1, 2]`, because the property setter (BF_Py.cc 192) takes the array as it is and copies from its first
element on, ignoring the strides. -/
theorem C28_strided_fails : ¬ SettingWorks := by
  intro h
  have hfull : NdArr.Full strided := by
    intro k hk
    have hk : k < 2 := hk
    interval_cases k <;> simp [NdArr.entry, strided, strideOffset, Buf.ofFn]
  obtain ⟨e, he, hg⟩ := h .tanh 0 1 [] 2 (fun _ => 0) (fun _ => 0) strided hfull rfl
  have he' : (elmObj .tanh 0 1 [] 2 (fun _ => 0) (fun _ => 0)).assignW strided =
      .ok (elmObj .tanh 0 1 [] 2 (fun k => k + 1) (fun _ => 0)) := by
    show (elmObj .tanh 0 1 [] 2 (fun _ => 0) (fun _ => 0)).setW strided.data strided.size = _
    unfold CC.Elm.setW
    rw [if_neg (by simp [elmObj, strided, NdArr.size])]
    show (Model.Py.liftCC (CC.memcpy (Buf.ofFn 2 fun _ => 0) strided.data 2) >>= _) = _
    rw [memcpy_ofFn (n := 2) (dst := Buf.ofFn 2 fun _ => 0) (src := strided.data) (g := fun k => (k : ℝ) + 1) rfl (fun i hi => by simp [Buf.ofFn]; omega)
      fun k hk => by
        interval_cases k <;> simp [NdArr.data, strided, Buf.drop, Buf.read, Buf.ofFn]]
    rfl
  rw [he'] at he
  cases he
  unfold CC.Elm.getW elmObj at hg
  simp only [memcpy_self] at hg
  have hg : (Except.ok (2, Buf.ofFn 2 fun k => (k : ℝ) + 1) : Except Fault _) = .ok (2, Buf.ofFn 2 (NdArr.val strided)) := hg
  have h2 : (2, Buf.ofFn 2 fun k => (k : ℝ) + 1) = (2, Buf.ofFn 2 (NdArr.val strided)) := Except.ok.inj hg
  have h3 := congrArg (fun p : ℕ × Buf ℝ => p.2.cell 1) h2
  simp [Buf.ofFn, NdArr.val, NdArr.entry, strided, strideOffset] at h3

/-- A compiled n-dimensional ELM object `e` with weights and biases replaced. -/
def nElmWith (e : CC.NElm ℝ) (w b : ℕ → ℝ) : CC.NElm ℝ := { e with w := Buf.ofFn (e.m * e.dim) w, b := Buf.ofFn e.m b }

/-- An array of the shape the n-dimensional setters ask for (`(dim, m)` for the weights, `m` entries for the biases); only the
biases have to be contiguous. -/
def NOpOk (dim m : ℕ) : SetOp NdArr → Prop
  | .w arr => NdArr.Full arr ∧ arr.shape = [dim, m]
  | .b arr => NdArr.Full arr ∧ NdArr.Contiguous arr ∧ arr.size = m

/-- **C28**, compiled n-dimensional ELM classes: after any history of assignments with arrays of the right shape, `obj.w` and
`obj.b` are the last ones assigned, and nothing else of the object has changed (`CC.NElm.H` and `CC.NElm.xla` read the members
`w` and `b` of the object). Element `(l, k)` of the weights has number `l * m + k`.
Missing: biases in an array which is not contiguous (as in `C28_strided_fails`). -/
theorem C28_nelm_cc_partial (e0 : CC.NElm ℝ) (w0 b0 : ℕ → ℝ) (ops : List (SetOp NdArr))
    (hops : ∀ op ∈ ops, NOpOk e0.dim e0.m op) :
    ∃ e, ops.foldlM CC.NElm.assign (nElmWith e0 w0 b0) = .ok e ∧
      e.getW = .ok (e0.dim, e0.m, Buf.ofFn (e0.m * e0.dim) (lastW NdArr.val w0 ops)) ∧
      e.getB = .ok (e0.m, Buf.ofFn e0.m (lastB NdArr.val b0 ops)) ∧
      e = nElmWith e0 (lastW NdArr.val w0 ops) (lastB NdArr.val b0 ops) := by
  refine ⟨nElmWith e0 (lastW NdArr.val w0 ops) (lastB NdArr.val b0 ops), ?_, ?_, ?_, rfl⟩
  · induction ops generalizing w0 b0 with
    | nil => rfl
    | cons op ops ih =>
      rw [List.foldlM_cons]
      cases op with
      | w arr =>
        obtain ⟨hf, hs⟩ : NdArr.Full arr ∧ arr.shape = [e0.dim, e0.m] := hops (.w arr) (by simp)
        have hsz : arr.size = e0.m * e0.dim := by
          unfold NdArr.size
          rw [hs]
          simp [Nat.mul_comm]
        have : (nElmWith e0 w0 b0).assign (.w arr) = .ok (nElmWith e0 (NdArr.val arr) b0) := by
          show (nElmWith e0 w0 b0).assignW arr = _
          unfold CC.NElm.assignW
          rw [hs]
          simp only
          rw [cStyle_ok hf, hsz]
          show (nElmWith e0 w0 b0).setW (Buf.ofFn (e0.m * e0.dim) (NdArr.val arr)) e0.dim e0.m = _
          unfold CC.NElm.setW
          rw [if_neg (by simp [nElmWith])]
          show (Model.Py.liftCC (CC.memcpy (Buf.ofFn (e0.m * e0.dim) w0) (Buf.ofFn (e0.m * e0.dim) (NdArr.val arr))
            (e0.m * e0.dim)) >>= _) = _
          rw [memcpy_ofFn (n := e0.m * e0.dim) (dst := Buf.ofFn (e0.m * e0.dim) w0) (g := NdArr.val arr) rfl
            (fun i hi => by simp [Buf.ofFn, not_lt.2 hi]) fun k hk => Buf.ofFn_read hk]
          rfl
        rw [this]
        exact ih _ _ fun op h => hops op (by simp [h])
      | b arr =>
        obtain ⟨hf, hc, hs⟩ : NdArr.Full arr ∧ NdArr.Contiguous arr ∧ arr.size = e0.m := hops (.b arr) (by simp)
        have : (nElmWith e0 w0 b0).assign (.b arr) = .ok (nElmWith e0 w0 (NdArr.val arr)) := by
          show (nElmWith e0 w0 b0).setB arr.data arr.size = _
          unfold CC.NElm.setB
          rw [if_neg (by simpa [nElmWith] using hs)]
          show (Model.Py.liftCC (CC.memcpy (Buf.ofFn e0.m b0) arr.data e0.m) >>= _) = _
          rw [memcpy_ofFn (n := e0.m) (dst := Buf.ofFn e0.m b0) (src := arr.data) (g := NdArr.val arr) rfl
            (fun i hi => by simp [Buf.ofFn, not_lt.2 hi]) fun k hk => data_read hf hc (hs.symm ▸ hk)]
          rfl
        rw [this]
        exact ih _ _ fun op h => hops op (by simp [h])
  · unfold CC.NElm.getW nElmWith
    simp only [memcpy_self]
    rfl
  · unfold CC.NElm.getB nElmWith
    simp only [memcpy_self]
    rfl

/-- **C28**, refusal by the compiled n-dimensional classes: weights that are not a two-axis array raise `ValueError`, a
two-axis array of another shape, and biases of another size, end the process. -/
theorem C28_nelm_cc_refused (e : CC.NElm ℝ) (arr : NdArr) (hf : NdArr.Full arr) :
    (arr.shape.length ≠ 2 → e.assign (.w arr) = .error .valueError) ∧
    (arr.shape.length = 2 → arr.shape ≠ [e.dim, e.m] → e.assign (.w arr) = .error .exit) ∧
    (arr.size ≠ e.m → e.assign (.b arr) = .error .exit) := by
  refine ⟨fun h => ?_, fun h h' => ?_, fun h => ?_⟩
  · show e.assignW arr = _
    unfold CC.NElm.assignW
    split
    · rename_i r c hs
      rw [hs] at h
      exact absurd rfl h
    · rfl
  · show e.assignW arr = _
    unfold CC.NElm.assignW
    split
    · rename_i r c hs
      rw [cStyle_ok hf]
      show e.setW _ r c = _
      unfold CC.NElm.setW
      rw [if_pos]
      by_contra hn
      push Not at hn
      exact h' (by rw [hs, hn.1, hn.2])
    · rename_i hs
      exact absurd (List.length_eq_two.1 h) (by rintro ⟨r, c, e⟩; exact hs r c e)
  · show e.setB arr.data arr.size = _
    unfold CC.NElm.setB
    rw [if_pos h]

/-! ## Python backend -/

theorem toShape_ok {a : PyBF.Arr} {shape : List ℕ} (h : shape.prod = a.size) :
    a.toShape shape = .ok ⟨shape, a.vals⟩ := by
  unfold PyBF.Arr.toShape PyBF.Arr.reshape
  by_cases hs : a.shape = shape
  · rw [if_neg (by simpa using hs), ← hs]
  · rw [if_pos hs, if_pos h]

theorem py_assignW (e : PyBF.Elm) (a : PyBF.Arr) :
    e.assignW a = if a.size = e.m then .ok { e with w := ⟨[1, e.m], a.vals⟩ } else .error .valueError := by
  unfold PyBF.Elm.assignW
  by_cases h : a.size = e.m
  · rw [if_pos h, if_pos h, toShape_ok (by simp [h])]
    rfl
  · rw [if_neg h, if_neg h]

theorem py_assignB (e : PyBF.Elm) (a : PyBF.Arr) :
    e.assignB a = if a.size = e.m then .ok { e with b := ⟨[1, e.m], a.vals⟩ } else .error .valueError := by
  unfold PyBF.Elm.assignB
  by_cases h : a.size = e.m
  · rw [if_pos h, if_pos h, toShape_ok (by simp [h])]
    rfl
  · rw [if_neg h, if_neg h]

theorem py_tryW (e : PyBF.Elm) (a : PyBF.Arr) :
    e.tryAssign (.w a) = if a.size = e.m then { e with w := ⟨[1, e.m], a.vals⟩ } else e := by
  unfold PyBF.Elm.tryAssign
  simp only [py_assignW]
  by_cases h : a.size = e.m
  · simp only [if_pos h]
  · simp only [if_neg h]

theorem py_tryB (e : PyBF.Elm) (a : PyBF.Arr) :
    e.tryAssign (.b a) = if a.size = e.m then { e with b := ⟨[1, e.m], a.vals⟩ } else e := by
  unfold PyBF.Elm.tryAssign
  simp only [py_assignB]
  by_cases h : a.size = e.m
  · simp only [if_pos h]
  · simp only [if_neg h]

/-- **C28**, Python univariate ELM classes: after any history of assignments, in which those with an array of the wrong size
raised `ValueError` and changed nothing, `obj.w` and `obj.b` are the last ones assigned, as `(1, m)` arrays, and
the object is the one that would have been built with these weights and biases. -/
theorem C28_elm_py (a : Activation) (x0 xf : ℝ) (nC : List ℤ) (m : ℕ) (w0 b0 : ℕ → ℝ) (ops : List (SetOp PyBF.Arr)) :
    ∃ e, ops.foldl PyBF.Elm.tryAssign ⟨a, x0, xf, nC, m, ⟨[1, m], w0⟩, ⟨[1, m], b0⟩⟩ = e ∧
      e.w = ⟨[1, m], lastW PyBF.Arr.vals w0 (accepted m m PyBF.Arr.size ops)⟩ ∧
      e.b = ⟨[1, m], lastB PyBF.Arr.vals b0 (accepted m m PyBF.Arr.size ops)⟩ ∧
      e.base = PyBF.uniInit (.elm a (lastW PyBF.Arr.vals w0 (accepted m m PyBF.Arr.size ops))
        (lastB PyBF.Arr.vals b0 (accepted m m PyBF.Arr.size ops))) x0 xf nC m := by
  have key : ops.foldl PyBF.Elm.tryAssign ⟨a, x0, xf, nC, m, ⟨[1, m], w0⟩, ⟨[1, m], b0⟩⟩ =
      ⟨a, x0, xf, nC, m, ⟨[1, m], lastW PyBF.Arr.vals w0 (accepted m m PyBF.Arr.size ops)⟩,
        ⟨[1, m], lastB PyBF.Arr.vals b0 (accepted m m PyBF.Arr.size ops)⟩⟩ := by
    induction ops generalizing w0 b0 with
    | nil => rfl
    | cons op ops ih =>
      rw [List.foldl_cons]
      cases op with
      | w arr =>
        rw [py_tryW]
        by_cases h : arr.size = m
        · have : accepted m m PyBF.Arr.size (SetOp.w arr :: ops) = SetOp.w arr :: accepted m m PyBF.Arr.size ops := by
            simp [accepted, h]
          rw [if_pos h, this]
          exact ih _ _
        · have : accepted m m PyBF.Arr.size (SetOp.w arr :: ops) = accepted m m PyBF.Arr.size ops := by
            simp [accepted, h]
          rw [if_neg h, this]
          exact ih _ _
      | b arr =>
        rw [py_tryB]
        by_cases h : arr.size = m
        · have : accepted m m PyBF.Arr.size (SetOp.b arr :: ops) = SetOp.b arr :: accepted m m PyBF.Arr.size ops := by
            simp [accepted, h]
          rw [if_pos h, this]
          exact ih _ _
        · have : accepted m m PyBF.Arr.size (SetOp.b arr :: ops) = accepted m m PyBF.Arr.size ops := by
            simp [accepted, h]
          rw [if_neg h, this]
          exact ih _ _
  exact ⟨_, key, rfl, rfl, rfl⟩

/-- **C28**, refusal by the Python univariate classes: `ValueError` exactly for the wrong sizes. -/
theorem C28_elm_py_refused (e : PyBF.Elm) (arr : PyBF.Arr) :
    (e.assignW arr = .error .valueError ↔ arr.size ≠ e.m) ∧ (e.assignB arr = .error .valueError ↔ arr.size ≠ e.m) := by
  rw [py_assignW, py_assignB]
  by_cases h : arr.size = e.m <;> simp [h]

theorem py_nassignW (e : PyBF.NElmObj) (a : PyBF.Arr) :
    e.assignW a = if a.size = e.base.m * e.base.dim then .ok { e with w := ⟨[e.base.dim, e.base.m], a.vals⟩ }
      else .error .valueError := by
  unfold PyBF.NElmObj.assignW
  by_cases h : a.size = e.base.m * e.base.dim
  · rw [if_pos h, if_pos h, toShape_ok (by simp [h, Nat.mul_comm])]
    rfl
  · rw [if_neg h, if_neg h]

theorem py_nassignB (e : PyBF.NElmObj) (a : PyBF.Arr) :
    e.assignB a = if a.size = e.base.m then .ok { e with b := ⟨[1, e.base.m], a.vals⟩ } else .error .valueError := by
  unfold PyBF.NElmObj.assignB
  by_cases h : a.size = e.base.m
  · rw [if_pos h, if_pos h, toShape_ok (by simp [h])]
    rfl
  · rw [if_neg h, if_neg h]

theorem py_n_tryW (e : PyBF.NElmObj) (a : PyBF.Arr) :
    e.tryAssign (.w a) = if a.size = e.base.m * e.base.dim then { e with w := ⟨[e.base.dim, e.base.m], a.vals⟩ } else e := by
  unfold PyBF.NElmObj.tryAssign
  simp only [py_nassignW]
  by_cases h : a.size = e.base.m * e.base.dim
  · simp only [if_pos h]
  · simp only [if_neg h]

theorem py_n_tryB (e : PyBF.NElmObj) (a : PyBF.Arr) :
    e.tryAssign (.b a) = if a.size = e.base.m then { e with b := ⟨[1, e.base.m], a.vals⟩ } else e := by
  unfold PyBF.NElmObj.tryAssign
  simp only [py_nassignB]
  by_cases h : a.size = e.base.m
  · simp only [if_pos h]
  · simp only [if_neg h]

/-- **C28**, Python n-dimensional ELM classes: as `C28_elm_py`; `e.current` is the object every evaluation uses. -/
theorem C28_nelm_py (base : PyBF.NElm) (w0 b0 : ℕ → ℝ) (ops : List (SetOp PyBF.Arr)) :
    ∃ e, ops.foldl PyBF.NElmObj.tryAssign ⟨base, ⟨[base.dim, base.m], w0⟩, ⟨[1, base.m], b0⟩⟩ = e ∧
      e.w = ⟨[base.dim, base.m], lastW PyBF.Arr.vals w0 (accepted (base.m * base.dim) base.m PyBF.Arr.size ops)⟩ ∧
      e.b = ⟨[1, base.m], lastB PyBF.Arr.vals b0 (accepted (base.m * base.dim) base.m PyBF.Arr.size ops)⟩ ∧
      e.current = { base with
        w := fun l k => lastW PyBF.Arr.vals w0 (accepted (base.m * base.dim) base.m PyBF.Arr.size ops) (l * base.m + k)
        b := lastB PyBF.Arr.vals b0 (accepted (base.m * base.dim) base.m PyBF.Arr.size ops) } := by
  have key : ops.foldl PyBF.NElmObj.tryAssign ⟨base, ⟨[base.dim, base.m], w0⟩, ⟨[1, base.m], b0⟩⟩ =
      ⟨base, ⟨[base.dim, base.m], lastW PyBF.Arr.vals w0 (accepted (base.m * base.dim) base.m PyBF.Arr.size ops)⟩,
        ⟨[1, base.m], lastB PyBF.Arr.vals b0 (accepted (base.m * base.dim) base.m PyBF.Arr.size ops)⟩⟩ := by
    induction ops generalizing w0 b0 with
    | nil => rfl
    | cons op ops ih =>
      rw [List.foldl_cons]
      cases op with
      | w arr =>
        rw [py_n_tryW]
        by_cases h : arr.size = base.m * base.dim
        · have : accepted (base.m * base.dim) base.m PyBF.Arr.size (SetOp.w arr :: ops) =
              SetOp.w arr :: accepted (base.m * base.dim) base.m PyBF.Arr.size ops := by simp [accepted, h]
          rw [if_pos h, this]
          exact ih _ _
        · have : accepted (base.m * base.dim) base.m PyBF.Arr.size (SetOp.w arr :: ops) =
              accepted (base.m * base.dim) base.m PyBF.Arr.size ops := by simp [accepted, h]
          rw [if_neg h, this]
          exact ih _ _
      | b arr =>
        rw [py_n_tryB]
        by_cases h : arr.size = base.m
        · have : accepted (base.m * base.dim) base.m PyBF.Arr.size (SetOp.b arr :: ops) =
              SetOp.b arr :: accepted (base.m * base.dim) base.m PyBF.Arr.size ops := by simp [accepted, h]
          rw [if_pos h, this]
          exact ih _ _
        · have : accepted (base.m * base.dim) base.m PyBF.Arr.size (SetOp.b arr :: ops) =
              accepted (base.m * base.dim) base.m PyBF.Arr.size ops := by simp [accepted, h]
          rw [if_neg h, this]
          exact ih _ _
  exact ⟨_, key, rfl, rfl, rfl⟩

/-- **C28**, refusal by the Python n-dimensional classes. -/
theorem C28_nelm_py_refused (e : PyBF.NElmObj) (arr : PyBF.Arr) :
    (e.assignW arr = .error .valueError ↔ arr.size ≠ e.base.m * e.base.dim) ∧
    (e.assignB arr = .error .valueError ↔ arr.size ≠ e.base.m) := by
  rw [py_nassignW, py_nassignB]
  by_cases h : arr.size = e.base.m * e.base.dim <;> by_cases h' : arr.size = e.base.m <;> simp [h, h']

/-- The hypotheses of `C28_elm_cc_partial` are met by ordinary arrays, here `[1, 2, 3]` and `[[4, 5, 6]]`. -/
example : ∀ op ∈ ([.w ⟨Buf.ofFn 3 fun k => k + 1, 0, [3], [1]⟩, .b ⟨Buf.ofFn 9 fun k => k, 4, [1, 3], [3, 1]⟩] :
    List (SetOp NdArr)), NdArr.Full (SetOp.arr op) ∧ NdArr.Contiguous (SetOp.arr op) ∧ (SetOp.arr op).size = 3 := by
  intro op hop
  simp only [List.mem_cons, List.not_mem_nil, or_false] at hop
  rcases hop with rfl | rfl
  · refine ⟨fun k hk => ?_, fun k hk => ?_, rfl⟩
    all_goals
      have hk : k < 3 := hk
      interval_cases k <;> simp [NdArr.entry, SetOp.arr, strideOffset, Buf.ofFn]
  · refine ⟨fun k hk => ?_, fun k hk => ?_, rfl⟩
    all_goals
      have hk : k < 3 := hk
      interval_cases k <;> simp [NdArr.entry, SetOp.arr, strideOffset, Buf.ofFn]

end Verif.Props
