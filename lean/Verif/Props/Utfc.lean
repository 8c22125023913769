import Verif.Lemmas.UtfcJax
import Verif.Props.Domain
import Verif.Props.UniCC
import Verif.Props.UniPy

/-!
# Property theorems: the class `utfc` (C19, C26) and `HybridUtfc` (C48)

`u.Hjax n xs d full` is the eager call `u._Hjax(x, d=d, full=full)` at the points `xs 0, …, xs (n-1)`; `utfcInit` is the
constructor.
-/

namespace Verif.Props

open Verif.Mem Verif.Py Verif.Np Verif.Spec Verif.Model.Py

/-! ## C19 -/

/-- **C19**, integer argument: exactly when `k ≤ deg` the constructor accepts, and then it removes `0, …, k-1` (in order, each
once); otherwise it stops with an error. -/
theorem C19_int (deg : ℕ) (k : ℤ) :
    (k ≤ deg → ∃ r, utfcNC deg (.int k) = .ok r ∧ r.Pairwise (· < ·) ∧ ∀ j, j ∈ r ↔ 0 ≤ j ∧ j < k) ∧
    ((deg : ℤ) < k → utfcNC deg (.int k) = .error .exit) := by
  have hlen : (arange k).length = k.toNat := by simp [arange]
  have hneg : (arange k).any (· < 0) = false := by
    rw [List.any_eq_false]
    intro x hx
    simp only [arange, List.mem_map] at hx
    obtain ⟨a, _, rfl⟩ := hx
    simp
  constructor
  · intro hk
    refine ⟨arange k, ?_, ?_, ?_⟩
    · simp only [utfcNC, bind, Except.bind, hlen, hneg]
      rw [if_neg (by omega)]; rfl
    · rw [arange, List.pairwise_map]
      exact List.pairwise_lt_range.imp (by simp)
    · intro j
      simp only [arange, List.mem_map, List.mem_range]
      constructor
      · rintro ⟨a, ha, rfl⟩
        simp only [Int.ofNat_eq_natCast]
        omega
      · rintro ⟨h1, h2⟩
        exact ⟨j.toNat, by omega, by simp only [Int.ofNat_eq_natCast]; omega⟩
  · intro hk
    simp only [utfcNC, bind, Except.bind, hlen]
    rw [if_pos (by omega)]

/-- **C19**, list and array arguments: accepted exactly when there are at most `deg` entries and none is negative, and then
exactly the listed functions are removed; otherwise the constructor stops with an error. -/
theorem C19_list (deg : ℕ) (l : List ℤ) (arg : NCArg) (harg : arg = .list l ∨ arg = .jaxArray l) :
    (l.length ≤ deg ∧ (∀ j ∈ l, 0 ≤ j) → utfcNC deg arg = .ok l) ∧
    (deg < l.length ∨ (∃ j ∈ l, j < 0) → utfcNC deg arg = .error .exit) := by
  have h1 : utfcNC deg arg = if l.length > deg then .error .exit else if l.any (· < 0) then .error .exit else .ok l := by
    rcases harg with rfl | rfl <;> rfl
  rw [h1]
  constructor
  · rintro ⟨h2, h3⟩
    rw [if_neg (by omega), if_neg]
    simp only [Bool.not_eq_true, List.any_eq_false, decide_eq_true_eq, not_lt]
    exact h3
  · intro h2
    split_ifs with h3 h4
    · rfl
    · rfl
    · exfalso
      rcases h2 with h | ⟨j, hj, h⟩
      · exact h3 h
      · exact h4 (List.any_eq_true.mpr ⟨j, hj, by simpa using h⟩)

/-- The constructor passes its verdict on: an error of the `nC` handling is the result, and an accepted list is stored. -/
theorem utfcInit_nC (N : ℕ) (nC : NCArg) (deg : ℕ) (basis : String) (x0 xf : Option ℝ) (backend : String)
    (w b : ℕ → ℝ) :
    (∀ e, utfcNC deg nC = .error e → utfcInit N nC deg basis x0 xf backend w b = .error e) ∧
    (∀ u, utfcInit N nC deg basis x0 xf backend w b = .ok u → u.deg = deg ∧ utfcNC deg nC = .ok u.nC) := by
  unfold utfcInit
  cases h : utfcNC deg nC with
  | error e => exact ⟨fun e' he => (by cases he; rfl), fun u hu => by cases hu⟩
  | ok l =>
    refine ⟨fun e he => (by cases he), fun u hu => ?_⟩
    simp only [bind, Except.bind] at hu
    cases hbe : Backend.parse backend with
    | none => rw [hbe] at hu; cases hu
    | some be =>
      cases hbn : BasisName.parse basis with
      | none => rw [hbe, hbn] at hu; cases hu
      | some bn =>
        rw [hbe, hbn] at hu
        have hu := Except.ok.inj hu
        rw [← hu]
        exact ⟨rfl, rfl⟩

/-- **C19**, what "removes" means for `utfc(N, k, deg, …)` with an integer `k`: evaluation succeeds and `H(x, full=False)` and
its derivatives have exactly the columns `max(k,0), …, deg` of the full matrix, in order. -/
theorem C19_int_columns (N : ℕ) (k : ℤ) (deg : ℕ) (basis : String) (x0 xf : Option ℝ) (backend : String) (w b : ℕ → ℝ)
    (u : Utfc) (hu : utfcInit N (.int k) deg basis x0 xf backend w b = .ok u) (d : ℕ) (hd : Evaluable u.backend u.cls d)
    (n : ℕ) (xs : ℕ → ℝ) :
    ∃ V, ReturnsArray (u.Hjax n xs d true) n (List.range (deg + 1)) V ∧
      ∃ cols : List ℕ, ReturnsArray (u.Hjax n xs d false) n cols V ∧ cols.Pairwise (· < ·) ∧
        ∀ j : ℕ, j ∈ cols ↔ j ≤ deg ∧ k ≤ j := by
  obtain ⟨hdeg, hnC⟩ := (utfcInit_nC N _ deg basis x0 xf backend w b).2 u hu
  have hk : k ≤ deg := by
    by_contra hk
    rw [(C19_int deg k).2 (by omega)] at hnC
    cases hnC
  obtain ⟨r, hr, hs, hm⟩ := (C19_int deg k).1 hk
  rw [hnC] at hr
  cases hr
  have hval : ValidRemoval (u.deg + 1) u.nC := by
    refine ⟨hs.imp (fun h => ne_of_lt h), fun r hr => ?_⟩
    have := (hm r).mp hr
    rw [hdeg]
    push_cast
    omega
  obtain ⟨V, h1, _, rfl⟩ := utfc_Hjax u hd true (Or.inl rfl) n xs
  obtain ⟨V', h2, _, rfl⟩ := utfc_Hjax u hd false (Or.inr hval) n xs
  rw [hdeg] at h1 h2
  refine ⟨_, h1, _, h2, keptColumns_sorted _ _, fun j => ?_⟩
  show j ∈ keptColumns (deg + 1) u.nC ↔ _
  rw [mem_keptColumns, hm]
  omega

/-- **C19**, lists and arrays naming distinct functions below `deg + 1`: evaluation succeeds, and exactly the functions not
listed remain. (Missing: the constructor also accepts repeated and too large indices, see `C19_fails`.) -/
theorem C19_list_columns_partial (N : ℕ) (l : List ℤ) (arg : NCArg) (harg : arg = .list l ∨ arg = .jaxArray l)
    (deg : ℕ) (basis : String) (x0 xf : Option ℝ) (backend : String) (w b : ℕ → ℝ)
    (hl : l.Nodup) (hle : ∀ j ∈ l, j ≤ (deg : ℤ))
    (u : Utfc) (hu : utfcInit N arg deg basis x0 xf backend w b = .ok u) (d : ℕ) (hd : Evaluable u.backend u.cls d)
    (n : ℕ) (xs : ℕ → ℝ) :
    ∃ V, ReturnsArray (u.Hjax n xs d true) n (List.range (deg + 1)) V ∧
      ∃ cols : List ℕ, ReturnsArray (u.Hjax n xs d false) n cols V ∧ cols.Pairwise (· < ·) ∧
        cols.length + l.length = deg + 1 ∧ ∀ j : ℕ, j ∈ cols ↔ j ≤ deg ∧ (j : ℤ) ∉ l := by
  obtain ⟨hdeg, hnC⟩ := (utfcInit_nC N _ deg basis x0 xf backend w b).2 u hu
  have hacc : ∀ j ∈ l, 0 ≤ j := by
    by_contra hk
    push Not at hk
    rw [(C19_list deg l arg harg).2 (Or.inr hk)] at hnC
    cases hnC
  have hlen : l.length ≤ deg := by
    by_contra hk
    rw [(C19_list deg l arg harg).2 (Or.inl (by omega))] at hnC
    cases hnC
  rw [(C19_list deg l arg harg).1 ⟨hlen, hacc⟩] at hnC
  have hnC : u.nC = l := by cases hnC; rfl
  have hval : ValidRemoval (u.deg + 1) u.nC := by
    rw [hnC]
    refine ⟨hl, fun r hr => ?_⟩
    have := hle r hr
    have := hacc r hr
    rw [hdeg]
    push_cast
    omega
  obtain ⟨V, h1, _, rfl⟩ := utfc_Hjax u hd true (Or.inl rfl) n xs
  obtain ⟨V', h2, _, rfl⟩ := utfc_Hjax u hd false (Or.inr hval) n xs
  have hL := (keptColumns_length_iff (u.deg + 1) u.nC).mpr hval
  rw [hdeg] at h1 h2 hL
  rw [hnC] at hL
  refine ⟨_, h1, _, h2, keptColumns_sorted _ _, ?_, fun j => ?_⟩
  · show (keptColumns (deg + 1) u.nC).length + _ = _
    rw [hnC]
    omega
  · show j ∈ keptColumns (deg + 1) u.nC ↔ _
    rw [mem_keptColumns, hnC]
    constructor <;> rintro ⟨h1, h2⟩ <;> exact ⟨by omega, h2⟩

/-- **The last clause of C19 is false**: `utfc(N, [0, 0], 4)` and `utfc(N, [9], 4)` are accepted; evaluating any order with
`full=False` then writes outside the result block (compiled backend), and the second one raises `IndexError` in the Python
backend. -/
theorem C19_fails (N : ℕ) (w b : ℕ → ℝ) (basis : String) (bn : BasisName) (hb : BasisName.parse basis = some bn) :
    (∃ u, utfcInit N (.list [0, 0]) 4 basis (some 0) (some 1) "C++" w b = .ok u ∧
      ∀ d, u.Hjax 1 (fun _ => 0) d false = .error .crash) ∧
    (∃ u, utfcInit N (.list [9]) 4 basis (some 0) (some 1) "C++" w b = .ok u ∧
      ∀ d, u.Hjax 1 (fun _ => 0) d false = .error .crash) ∧
    (∃ u, utfcInit N (.list [9]) 4 basis (some 0) (some 1) "Python" w b = .ok u ∧
      ∀ d ≤ 1, u.Hjax 1 (fun _ => 0) d false = .error .indexError) := by
  have key : ∀ l : List ℤ, utfcNC 4 (.list l) = .ok l → ¬ ValidRemoval 5 l →
      ∃ u, utfcInit N (.list l) 4 basis (some 0) (some 1) "C++" w b = .ok u ∧
      ∀ d, u.Hjax 1 (fun _ => 0) d false = .error .crash := by
    intro l hl hv
    unfold utfcInit
    rw [hl, hb]
    refine ⟨_, rfl, fun d => ?_⟩
    unfold Utfc.Hjax
    simp only
    obtain ⟨e, he⟩ := H_overrun (Model.CC.uniNew (bn.cls w b) ((some (0:ℝ)).getD 0) ((some (1:ℝ)).getD 0) l (4 + 1))
      (Buf.ofFn 1 (fun _ => 0)) (n := 1) d (by norm_num) (by rw [uni_m, uni_nC]; exact hv)
    exact fromCC_error he
  refine ⟨key [0, 0] (by decide) ?_, key [9] (by decide) ?_, ?_⟩
  · rintro ⟨h, _⟩; simp at h
  · rintro ⟨_, h⟩; have := h 9 (by simp); omega
  · have hl : utfcNC 4 (.list [9]) = .ok [9] := by decide
    unfold utfcInit
    rw [hl, hb]
    refine ⟨_, rfl, fun d hd => ?_⟩
    unfold Utfc.Hjax
    exact (C15_columns_py_bad_indices (bn.cls w b) _ _ [9] 5 (by norm_num) d (fun _ _ _ => hd) 1 (fun _ => 0)
      (by simp)).2 ⟨9, by simp, by norm_num⟩

example : utfcNC 5 (.int 2) = .ok [0, 1] ∧ utfcNC 5 (.list [4, 1]) = .ok [4, 1] ∧
    utfcNC 5 (.jaxArray [-1]) = .error .exit ∧ utfcNC 1 (.int 2) = .error .exit := by decide

/-! ## C26 -/

/-- The claim of C26 for one object, order and flag: for every array of points and every tangent `t`, the rule returns `H(x, d)`
and the directional derivative of `H(x, d)` in direction `t` (ReLU neurons: away from the kink). -/
def JvpExact (u : Utfc) (d : ℕ) (full : Bool) (tangents : ℕ → (ℕ → ℝ) → Prop) : Prop :=
  ∀ (n : ℕ) (xs t : ℕ → ℝ), tangents n t →
    ∃ (P T : Mat ℝ) (V W : ℕ → ℕ → ℝ),
      u.H_jvp n xs t d full = .ok (P, T) ∧ u.Hjax n xs d full = .ok P ∧
      ReturnsArray (.ok P) n (outColumns (u.deg + 1) u.nC full) V ∧
      ReturnsArray (.ok T) n (outColumns (u.deg + 1) u.nC full) W ∧
      ∀ j k, OffKink u.cls u.x0 u.xf k (xs j) →
        V j k = iteratedDeriv d (u.cls.basis u.x0 u.xf k) (xs j) ∧
        W j k = deriv (fun s : ℝ => iteratedDeriv d (u.cls.basis u.x0 u.xf k) (xs j + s * t j)) 0

/-- The derivative along a line. -/
theorem deriv_along_line (f : ℝ → ℝ) (x t : ℝ) : deriv (fun s : ℝ => f (x + s * t)) 0 = deriv f x * t := by
  have h1 := deriv_comp_mul_left t (fun y => f (x + y)) 0
  simp only [smul_eq_mul] at h1
  have h2 : (fun s : ℝ => f (x + s * t)) = fun s => f (x + t * s) := by
    ext s; rw [mul_comm]
  rw [h2, h1, deriv_comp_const_add, mul_zero, add_zero, mul_comm]

/-- **C26, tangents that are not identically zero** (missing: the zero tangent, for which the rule fails, `C26_fails`; and the
orders for which the basis classes themselves are wrong, C07–C09 and C11). -/
theorem C26_jvp_partial (u : Utfc) (d : ℕ) (full : Bool) (hC : full = true ∨ ValidRemoval (u.deg + 1) u.nC)
    (hd : Evaluable u.backend u.cls (d + 1)) (hx : Exact u.backend u.cls (d + 1)) :
    JvpExact u d full (fun n t => ∃ j < n, t j ≠ 0) := by
  intro n xs t ht
  have hd0 : Evaluable u.backend u.cls d := by
    cases hb : u.backend <;> rw [hb] at hd <;> intro w b h <;> have := hd w b h <;> omega
  have hx0 : Exact u.backend u.cls d := by
    cases hb : u.backend <;> rw [hb] at hx
    · intro a w b h h'; have := hx a w b h h'; omega
    · trivial
  obtain ⟨V, hV, hVx, _⟩ := utfc_Hjax u hd0 full hC n xs
  obtain ⟨W, hW, hWx, _⟩ := utfc_Hjax u hd full hC n xs
  have hS := scaleRows_spec t hW
  obtain ⟨P, hP, hP'⟩ := hV
  obtain ⟨A, hA, hA'⟩ := hW
  obtain ⟨T, hT, hT'⟩ := hS
  refine ⟨P, T, V, fun j k => W j k * t j, ?_, hP, ⟨P, rfl, hP'⟩, ⟨T, rfl, hT'⟩, ?_⟩
  · rw [hA] at hT
    have hT : Mat.scaleRows A n t = .ok T := hT
    have ho : u.outTans n xs t d full = .ok (some T) := by
      unfold Utfc.outTans
      rw [if_pos ht, hA]
      simp only [bind, Except.bind, hT]
    unfold Utfc.H_jvp
    simp only [bind, Except.bind, ho, hP]
  · intro j k hk
    refine ⟨hVx hx0 j k (fun _ => hk), ?_⟩
    rw [deriv_along_line, ← iteratedDeriv_succ, ← hWx hx j k (fun _ => hk)]

/-- **C26 is false for the zero tangent**, for every object, order and flag: `out_tans` is never assigned. -/
theorem C26_fails (u : Utfc) (d : ℕ) (full : Bool) :
    (∀ n xs P, u.Hjax n xs d full = .ok P → u.H_jvp n xs (fun _ => 0) d full = .error .unboundLocal) ∧
    ¬ JvpExact u d full (fun _ _ => True) := by
  have ho : ∀ n xs, u.outTans n xs (fun _ => 0) d full = .ok none := by
    intro n xs
    unfold Utfc.outTans
    rw [if_neg (by simp)]
  constructor
  · intro n xs P hP
    unfold Utfc.H_jvp
    simp only [bind, Except.bind, ho, hP]
  · intro h
    obtain ⟨P, T, V, W, h1, h2, _⟩ := h 1 (fun _ => 0) (fun _ => 0) trivial
    unfold Utfc.H_jvp at h1
    simp only [bind, Except.bind, ho, h2] at h1
    cases h1

/-! ## C48 -/

/-- **C48.** Whatever arrays with `n` rows the classes return (`cols u` names the columns of class `u`, `V u` the entries), the
methods of `HybridUtfc` return the columns of the first class, then those of the second, and so on, unchanged. -/
theorem C48_concatenation (classes : List Utfc) (hne : classes ≠ []) (n : ℕ) (xs : ℕ → ℝ) (full : Bool) {ι : Type}
    (cols : Utfc → List ι) :
    let stacked := classes.flatMap fun u => (cols u).map fun k => (u, k)
    let claim := fun (r : Except Err (Mat ℝ)) (d : ℕ) => ∀ V : Utfc → ℕ → ι → ℝ,
      (∀ u ∈ classes, ReturnsArray (u.Hjax n xs d full) n (cols u) (V u)) →
      ReturnsArray r n stacked (fun j p => V p.1 j p.2)
    claim (hybridH classes n xs full) 0 ∧ claim (hybriddH classes n xs full) 1 ∧ claim (hybridd2H classes n xs full) 2 ∧
    claim (hybridd3H classes n xs full) 3 ∧ claim (hybridd4H classes n xs full) 4 ∧
    claim (hybridd8H classes n xs full) 8 := by
  have key : ∀ d (V : Utfc → ℕ → ι → ℝ), (∀ u ∈ classes, ReturnsArray (u.Hjax n xs d full) n (cols u) (V u)) →
      ReturnsArray (hybridBody classes n xs d full) n (classes.flatMap fun u => (cols u).map fun k => (u, k))
        (fun j p => V p.1 j p.2) :=
    fun d V h => hstackAll_mapM classes hne _ cols V h
  exact ⟨key 0, key 1, key 2, key 3, key 4, key 8⟩

/-- **C48**, the derivative clause: with accepted classes that all remove existing distinct functions, the `d`-th method is
the matrix of `d`-th derivatives of the functions whose values are in `H` (one function per column, fixed once for all
orders). -/
theorem C48_derivative (classes : List Utfc) (hne : classes ≠ []) (full : Bool)
    (hC : full = true ∨ ∀ u ∈ classes, ValidRemoval (u.deg + 1) u.nC) (n : ℕ) (xs : ℕ → ℝ) :
    let claim := fun (r : Except Err (Mat ℝ)) (d : ℕ) =>
      (∀ u ∈ classes, Evaluable u.backend u.cls d ∧ Exact u.backend u.cls d ∧
        (d ≠ 0 → ∀ j k, OffKink u.cls u.x0 u.xf k (xs j))) →
      ReturnsArray r n (classes.flatMap fun u => (outColumns (u.deg + 1) u.nC full).map fun k => (u, k))
        (fun j p => iteratedDeriv d (p.1.cls.basis p.1.x0 p.1.xf p.2) (xs j))
    claim (hybridH classes n xs full) 0 ∧ claim (hybriddH classes n xs full) 1 ∧ claim (hybridd2H classes n xs full) 2 ∧
    claim (hybridd3H classes n xs full) 3 ∧ claim (hybridd4H classes n xs full) 4 ∧
    claim (hybridd8H classes n xs full) 8 := by
  have hret : ∀ d, (∀ u ∈ classes, Evaluable u.backend u.cls d ∧ Exact u.backend u.cls d ∧
        (d ≠ 0 → ∀ j k, OffKink u.cls u.x0 u.xf k (xs j))) → ∀ u ∈ classes,
      ReturnsArray (u.Hjax n xs d full) n (outColumns (u.deg + 1) u.nC full)
        (fun j k => iteratedDeriv d (u.cls.basis u.x0 u.xf k) (xs j)) := by
    intro d h u hu
    obtain ⟨h1, h2, h3⟩ := h u hu
    obtain ⟨V, hV, hVx, _⟩ := utfc_Hjax u h1 full (hC.imp id fun h => h u hu) n xs
    exact Verif.ReturnsArray.congr hV fun j _ k _ => hVx h2 j k fun h0 => h3 h0 j k
  obtain ⟨k0, k1, k2, k3, k4, k8⟩ := C48_concatenation classes hne n xs full (fun u => outColumns (u.deg + 1) u.nC full)
  exact ⟨fun h => k0 (fun u j k => iteratedDeriv 0 (u.cls.basis u.x0 u.xf k) (xs j)) (hret 0 h),
    fun h => k1 (fun u j k => iteratedDeriv 1 (u.cls.basis u.x0 u.xf k) (xs j)) (hret 1 h),
    fun h => k2 (fun u j k => iteratedDeriv 2 (u.cls.basis u.x0 u.xf k) (xs j)) (hret 2 h),
    fun h => k3 (fun u j k => iteratedDeriv 3 (u.cls.basis u.x0 u.xf k) (xs j)) (hret 3 h),
    fun h => k4 (fun u j k => iteratedDeriv 4 (u.cls.basis u.x0 u.xf k) (xs j)) (hret 4 h),
    fun h => k8 (fun u j k => iteratedDeriv 8 (u.cls.basis u.x0 u.xf k) (xs j)) (hret 8 h)⟩

/-- **C48**, the refusal: the constructor accepts exactly the lists whose classes all have the same number of points. -/
theorem C48_refused (classes : List Utfc) :
    ((∀ u ∈ classes, ∀ v ∈ classes, u.N = v.N) → hybridInit classes = .ok classes) ∧
    ((∃ u ∈ classes, ∃ v ∈ classes, u.N ≠ v.N) → hybridInit classes = .error .exit) := by
  unfold hybridInit
  rcases classes with _ | ⟨a, l⟩
  · simp
  · constructor
    · intro h
      rw [if_pos]
      rw [List.all_eq_true]
      intro u hu
      simp [h u hu a (by simp)]
    · rintro ⟨u, hu, v, hv, huv⟩
      rw [if_neg]
      intro h
      rw [List.all_eq_true] at h
      have h1 := h u hu
      have h2 := h v hv
      simp only [List.head?_cons, Option.map_some, beq_iff_eq, Option.some.injEq] at h1 h2
      omega

/-- `HybridUtfc([])` is accepted, but its methods raise `ValueError`. -/
theorem C48_empty (n : ℕ) (xs : ℕ → ℝ) (full : Bool) :
    hybridInit [] = .ok [] ∧ hybridH [] n xs full = .error .valueError := ⟨rfl, rfl⟩

/-- Concrete case for the hypotheses of C26 and C48: a Chebyshev class of each backend removing two functions. -/
example (w b : ℕ → ℝ) : ∃ u v, utfcInit 10 (.list [0, 3]) 5 "CP" (some 0) (some 3) "C++" w b = .ok u ∧
    utfcInit 10 (.int 2) 4 "FS" (some 0) (some 3) "Python" w b = .ok v ∧
    hybridInit [u, v] = .ok [u, v] ∧
    ∀ x ∈ [u, v], ValidRemoval (x.deg + 1) x.nC ∧
      ∀ d, Evaluable x.backend x.cls d ∧ Exact x.backend x.cls d ∧ ∀ y k, OffKink x.cls x.x0 x.xf k y := by
  refine ⟨_, _, rfl, rfl, rfl, ?_⟩
  intro x hx
  simp only [List.mem_cons, List.not_mem_nil, or_false] at hx
  rcases hx with rfl | rfl
  · refine ⟨by constructor <;> simp, fun d => ⟨?_, ?_, ?_⟩⟩
    · rintro w b ⟨⟩
    · rintro a w b ⟨⟩
    · rintro y k w b ⟨⟩
  · refine ⟨?_, fun d => ⟨?_, trivial, ?_⟩⟩
    · show ValidRemoval 5 [0, 1]
      constructor <;> simp
    · rintro w b ⟨⟩
    · rintro y k w b ⟨⟩

end Verif.Props
