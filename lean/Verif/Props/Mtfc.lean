import Verif.Props.MtfcGrid
import Verif.Spec.Mtfc

/-!
# Property theorems: the class `mtfc` (C20, C27, C57)

`mtfcNC deg dim nC` is the handling of the argument `nC` for the polynomial and Fourier bases (number of columns and rows of
the table, filled up with `-1`); `u.Hjax n xs d full` is the eager call `u._Hjax(*x, d=d, full=full)`.
-/

namespace Verif.Props

open Verif Verif.Mem Verif.Py Verif.Np Verif.Spec Verif.Model Verif.Model.Py

/-! ## C20 -/

theorem nCmaxOf_spec (l : List NCEntry) :
    0 ≤ nCmaxOf l ∧ (∀ e ∈ l, maxk e.flat ≤ nCmaxOf l) ∧ (nCmaxOf l = 0 ∨ ∃ e ∈ l, nCmaxOf l = maxk e.flat) := by
  have key : ∀ (l : List NCEntry) (a : ℤ), 0 ≤ a →
      let r := l.foldl (fun nCmax e => if maxk e.flat > nCmax then maxk e.flat else nCmax) a
      a ≤ r ∧ (∀ e ∈ l, maxk e.flat ≤ r) ∧ (r = a ∨ ∃ e ∈ l, r = maxk e.flat) := by
    intro l
    induction l with
    | nil => intro a ha; simp
    | cons e l ih =>
      intro a ha r
      have hr : r = l.foldl (fun nCmax e => if maxk e.flat > nCmax then maxk e.flat else nCmax)
        (if maxk e.flat > a then maxk e.flat else a) := rfl
      obtain ⟨h1, h2, h3⟩ := ih (if maxk e.flat > a then maxk e.flat else a) (by split_ifs <;> omega)
      rw [← hr] at h1 h2 h3
      split_ifs at h1 h3 with hgt
      · refine ⟨by omega, fun e' he' => ?_, ?_⟩
        · rcases List.mem_cons.mp he' with rfl | he'
          · exact h1
          · exact h2 e' he'
        · rcases h3 with h3 | ⟨e', he', h3⟩
          · exact Or.inr ⟨e, by simp, h3⟩
          · exact Or.inr ⟨e', by simp [he'], h3⟩
      · refine ⟨h1, fun e' he' => ?_, ?_⟩
        · rcases List.mem_cons.mp he' with rfl | he'
          · omega
          · exact h2 e' he'
        · rcases h3 with h3 | ⟨e', he', h3⟩
          · exact Or.inl h3
          · exact Or.inr ⟨e', by simp [he'], h3⟩
  exact key l 0 le_rfl

theorem arange_mem (v : ℤ) (j : ℕ) : (j : ℤ) ∈ arange v ↔ (j : ℤ) < v := by
  simp only [arange, List.mem_map, List.mem_range]
  constructor
  · rintro ⟨a, ha, h⟩
    simp only [Int.ofNat_eq_natCast] at h
    omega
  · intro h
    exact ⟨j, by omega, rfl⟩

theorem maxk_count {e : NCEntry} (he : ∀ v, e ≠ .arr [v]) : maxk e.flat = count e := by
  match e with
  | .int v => rfl
  | .arr [] => rfl
  | .arr [v] => exact absurd rfl (he v)
  | .arr (v :: w :: l) => rfl

theorem expandOne_spec {e : NCEntry} (he : ∀ v, e ≠ .arr [v]) :
    ((expandOne e.flat).length : ℤ) = max (count e) 0 ∧ ∀ j : ℕ, (j : ℤ) ∈ expandOne e.flat ↔ Asks e j := by
  match e with
  | .int v => exact ⟨by simp [expandOne, NCEntry.flat, arange, count], fun j => arange_mem v j⟩
  | .arr [] => exact ⟨rfl, fun j => by simp [expandOne, NCEntry.flat, Asks]⟩
  | .arr [v] => exact absurd rfl (he v)
  | .arr (v :: w :: l) =>
    refine ⟨?_, fun j => Iff.rfl⟩
    simp only [expandOne, NCEntry.flat, count]
    omega

theorem padRow_spec (M : ℤ) (r : List ℤ) (hr : (r.length : ℤ) ≤ M) :
    (padRow M r).length = M.toNat ∧ ∀ j : ℕ, (j : ℤ) ∈ padRow M r ↔ (j : ℤ) ∈ r := by
  unfold padRow
  split_ifs with h1 h2
  · refine ⟨by simp, fun j => ?_⟩
    rw [List.length_eq_zero_iff.mp h2]
    simp only [List.mem_replicate, List.not_mem_nil, iff_false, not_and]
    omega
  · refine ⟨by simp; omega, fun j => ?_⟩
    simp only [List.mem_append, List.mem_replicate]
    constructor
    · rintro (h | ⟨_, h⟩)
      · exact h
      · omega
    · exact Or.inl
  · exact ⟨by omega, fun j => Iff.rfl⟩

theorem tableRow_spec (M : ℤ) (hM : 0 ≤ M) {e : NCEntry} (he : ∀ v, e ≠ .arr [v]) (hc : count e ≤ M) :
    ∃ r, tableRow M e = .ok r ∧ r.length = M.toNat ∧ ∀ j : ℕ, (j : ℤ) ∈ r ↔ Asks e j := by
  obtain ⟨h1, h2⟩ := expandOne_spec he
  obtain ⟨h3, h4⟩ := padRow_spec M (expandOne e.flat) (by omega)
  refine ⟨padRow M (expandOne e.flat), ?_, h3, fun j => (h4 j).trans (h2 j)⟩
  unfold tableRow
  simp only
  rw [if_pos h3]

/-- **C20** for a list of integers, lists and arrays, where no list or array has exactly one entry. If every entry names at
most `deg` functions, the result is a table with one row per dimension, all rows of the same length, and row `k` marks exactly
the functions asked for by entry `k` (`-1` marks nothing); if some entry names more, or the number of entries is not `dim`,
the constructor stops with an error.
(Missing: lists and arrays with one entry, and ready-made tables: see `C20_singleton_fails`, `C20_table_fails`.) -/
theorem C20_list_partial (deg dim : ℕ) (l : List NCEntry) (hone : ∀ e ∈ l, ∀ v, e ≠ .arr [v]) :
    (l.length = dim → (∀ e ∈ l, count e ≤ deg) →
      ∃ cols rows, mtfcNC deg dim (.list l) = .ok (cols, rows) ∧ rows.length = dim ∧
        (∀ k < dim, (rows.getD k []).length = cols) ∧
        ∀ k, ∀ hk : k < l.length, ∀ j : ℕ, (j : ℤ) ∈ rows.getD k [] ↔ Asks l[k] j) ∧
    ((∃ e ∈ l, (deg : ℤ) < count e) → mtfcNC deg dim (.list l) = .error .exit) ∧
    (l.length ≠ dim → mtfcNC deg dim (.list l) = .error .exit) := by
  obtain ⟨h0, hle, hmax⟩ := nCmaxOf_spec l
  refine ⟨fun hlen hdeg => ?_, fun ⟨e, he, hgt⟩ => ?_, fun h => ?_⟩
  · have hM : nCmaxOf l ≤ deg := by
      rcases hmax with h | ⟨e, he, h⟩
      · omega
      · rw [h, maxk_count (hone e he)]; exact hdeg e he
    have key : ∀ (M : ℤ), 0 ≤ M → ∀ L : List NCEntry, (∀ e ∈ L, ∀ v, e ≠ .arr [v]) → (∀ e ∈ L, count e ≤ M) →
        ∃ rows, L.mapM (tableRow M) = .ok rows ∧ rows.length = L.length ∧
          ∀ k, ∀ hk : k < L.length, (rows.getD k []).length = M.toNat ∧
            ∀ j : ℕ, (j : ℤ) ∈ rows.getD k [] ↔ Asks L[k] j := by
      intro M hM0 L
      induction L with
      | nil => intro _ _; exact ⟨[], rfl, rfl, by simp⟩
      | cons e L ih =>
        intro h1 h2
        obtain ⟨rows, g1, g2, g3⟩ := ih (fun e' he' => h1 e' (by simp [he'])) (fun e' he' => h2 e' (by simp [he']))
        obtain ⟨r, r1, r2, r3⟩ := tableRow_spec M hM0 (h1 e (by simp)) (h2 e (by simp))
        refine ⟨r :: rows, ?_, by simp [g2], fun k hk => ?_⟩
        · rw [List.mapM_cons, r1, g1]; rfl
        · cases k with
          | zero => exact ⟨by simpa using r2, by simpa using r3⟩
          | succ k => simpa using g3 k (by simpa using hk)
    obtain ⟨rows, g1, g2, g3⟩ := key (nCmaxOf l) h0 l hone fun e he => by
      rw [← maxk_count (hone e he)]; exact hle e he
    refine ⟨(nCmaxOf l).toNat, rows, ?_, by omega, fun k hk => (g3 k (by omega)).1, fun k hk => (g3 k hk).2⟩
    simp only [mtfcNC, tableOfList]
    rw [if_neg (by omega), if_neg (by omega), g1]
    rfl
  · have := hle e he
    rw [maxk_count (hone e he)] at this
    simp only [mtfcNC, tableOfList]
    by_cases hd : l.length ≠ dim
    · rw [if_pos hd]
    · rw [if_neg hd, if_pos (by omega)]
  · simp only [mtfcNC, tableOfList]
    rw [if_pos h]

/-- A one-dimensional array is treated like the list of its integers, so `C20_list_partial` applies without restriction. -/
theorem C20_array1 (deg dim : ℕ) (l : List ℤ) :
    mtfcNC deg dim (.array1 l) = mtfcNC deg dim (.list (l.map .int)) ∧
    ∀ e ∈ l.map NCEntry.int, ∀ v, e ≠ .arr [v] := by
  refine ⟨rfl, fun e he v => ?_⟩
  obtain ⟨i, _, rfl⟩ := List.mem_map.mp he
  simp

/-- A single integer is refused. -/
theorem C20_int (deg dim : ℕ) (k : ℤ) : mtfcNC deg dim (.int k) = .error .exit := rfl

/-- C20 fails for a list with one entry: `[v]` is taken for the integer `v`, so `[3]` removes `0, 1, 2` and not `3`. -/
theorem C20_singleton_fails (deg : ℕ) (hdeg : 3 ≤ deg) :
    mtfcNC deg 1 (.list [.arr [3]]) = .ok (3, [[0, 1, 2]]) ∧ Asks (.arr [3]) 3 ∧ ¬ Asks (.arr [3]) 0 := by
  refine ⟨?_, by simp [Asks], by simp [Asks]⟩
  have h : nCmaxOf [NCEntry.arr [3]] = 3 := by decide
  simp only [mtfcNC, tableOfList, h]
  rw [if_neg (by simp), if_neg (by omega)]
  decide

/-- C20 fails for ready-made tables (arrays with two axes): they are accepted whatever `deg` is. -/
theorem C20_table_fails (deg dim cols : ℕ) (rows : List (List ℤ)) (h : rows.length = dim) :
    mtfcNC deg dim (.array2 cols rows) = .ok (cols, rows) := by
  simp only [mtfcNC]
  rw [if_pos h]

/-- Concrete case of `C20_list_partial`: `nC = [2, [0, 3], 0]` with `deg = 4`. -/
example : mtfcNC 4 3 (.list [.int 2, .arr [0, 3], .int 0]) = .ok (2, [[0, 1], [0, 3], [-1, -1]]) ∧
    (∀ e ∈ [NCEntry.int 2, .arr [0, 3], .int 0], ∀ v, e ≠ .arr [v]) ∧
    ∀ e ∈ [NCEntry.int 2, .arr [0, 3], .int 0], count e ≤ (4 : ℕ) := by
  refine ⟨by decide, by simp, by simp [count]⟩

/-- **C20**, what the marks do: for a tensor-product basis built from an accepted list, the columns of `H` and of all its
derivatives (with `full=False`) are the products of total degree at most `deg` in which at least one factor is not asked for
in its dimension; both backends. -/
theorem C20_columns_partial (n : List ℕ) (l : List NCEntry) (hone : ∀ e ∈ l, ∀ v, e ≠ .arr [v]) (deg dim : ℕ)
    (hdim : 1 ≤ dim) (basis backend : String) (x0 xf : Option (List ℝ)) (w : ℕ → ℕ → ℝ) (b : ℕ → ℝ) (u : Mtfc)
    (hu : mtfcInit n (.list l) deg dim basis x0 xf backend w b = .ok u) (f : NFamily)
    (hf : u.basis.mcls w b = .tensor f) :
    ∃ L : List (Fin dim → ℕ), L.Nodup ∧
      (∀ α, α ∈ L ↔ ∑ k, α k ≤ deg ∧ ∃ k : Fin dim, ¬ Asks (l.getD k (.int 0)) (α k)) ∧
      ∀ (N : ℕ) (xs : ℕ → ℕ → ℝ) (ds : List ℕ), dim ≤ ds.length →
        ReturnsArray (u.Hjax N xs ds false) N L
          (fun j α => mixedPartial (fun k : Fin dim => ds.getD k 0)
            (f.cls.tensor (fun k : Fin dim => u.x0 k) (fun k => u.xf k) α) (fun k => xs j k)) := by
  obtain ⟨-, -, hud, -, -, -, -, -, ⟨rows, hrem, htab⟩, ⟨be, -, hobj⟩, -, -⟩ := mtfcInit_ok hu
  have hrem' : mtfcNC deg dim (.list l) = .ok (u.numC, rows) := by
    have hne : ∀ a, u.basis ≠ .elm a := by
      intro a ha; rw [ha] at hf; cases hf
    have : (do let t ← mtfcNC deg dim (.list l); .ok (t.1, t.2, []) : Except Err (ℕ × List (List ℤ) × List ℤ)) =
        .ok (u.numC, rows, u.nCl) := by
      rw [← hrem]
      cases hb : u.basis with
      | elm a => exact absurd hb (hne a)
      | cp => rfl
      | lep => rfl
      | fs => rfl
    cases ht : mtfcNC deg dim (.list l) with
    | error e => rw [ht] at this; cases this
    | ok t =>
      rw [ht] at this
      have this := Except.ok.inj this
      simp only [Prod.mk.injEq] at this
      rw [← this.1, ← this.2.1]
  obtain ⟨hA, hB, hC⟩ := C20_list_partial deg dim l hone
  have hlen : l.length = dim := by
    by_contra h
    rw [hC h] at hrem'; cases hrem'
  have hcnt : ∀ e ∈ l, count e ≤ deg := by
    intro e he
    by_contra h
    rw [hB ⟨e, he, by omega⟩] at hrem'; cases hrem'
  obtain ⟨cols, rows', h1, h2, h3, h4⟩ := hA hlen hcnt
  rw [hrem'] at h1
  cases h1
  rw [hf] at hobj
  obtain ⟨o, g1, -, g2⟩ := MObj.new_tensor be f (m := deg + 1) hdim (by omega) u.x0 u.xf u.numC u.tab u.nCl
  rw [g1] at hobj
  cases hobj
  obtain ⟨L, hL, -, hret⟩ := g2 false
  refine ⟨L, hL.nodup, fun α => ?_, fun N xs ds hds => ?_⟩
  · rw [hL.mem]
    have hrow : ∀ k : Fin dim, ∀ j : ℕ, (j : ℤ) ∈ (List.range u.numC).map (u.tab k) ↔ Asks (l.getD k (.int 0)) j := by
      intro k j
      have hk : (k : ℕ) < l.length := by omega
      have e : (List.range u.numC).map (u.tab k) = rows.getD k [] := by
        have hl := h3 k k.2
        have ht : u.tab k = fun g => (rows.getD k []).getD g 0 := by rw [htab]
        rw [ht]
        generalize rows.getD k [] = row at hl ⊢
        refine List.ext_getElem (by simp [hl]) fun i hi1 hi2 => ?_
        simp [hi2]
      rw [e, h4 k hk j]
      simp [hk]
    simp only [Admissible, Bool.false_eq_true, false_or, hrow]
    constructor
    · rintro ⟨a, c⟩; exact ⟨by omega, c⟩
    · rintro ⟨a, c⟩; exact ⟨by omega, c⟩
  · unfold Mtfc.Hjax
    rw [hud]
    exact hret N xs ds hds

/-! ## C27 -/

/-- The tangent is handed over as an array with a nonzero entry. -/
def Active (n : ℕ) (t : Tangent) : Prop := ∃ j < n, t.val j ≠ 0

theorem addMat_spec {ι : Type} {A B : Mat ℝ} {n : ℕ} {cols : List ι} {V W : ℕ → ι → ℝ}
    (hA : ReturnsArray (.ok A) n cols V) (hB : ReturnsArray (.ok B) n cols W) :
    ReturnsArray (addMat A B) n cols (fun j k => V j k + W j k) := by
  obtain ⟨A', hA, hr, hc, hA'⟩ := hA
  obtain ⟨B', hB, hr', hc', hB'⟩ := hB
  cases hA
  cases hB
  unfold addMat
  rw [if_pos ⟨by rw [hr, hr'], by rw [hc, hc']⟩]
  exact ⟨_, rfl, hr, hc, fun j hj i hi => by simp only [hA' j hj i hi, hB' j hj i hi]⟩

/-- The rule, given what the evaluations it performs return. -/
theorem jvp_core {ι : Type} (u : Mtfc) (n : ℕ) (xs : ℕ → ℕ → ℝ) (tans : ℕ → Tangent) (d : List ℕ) (full : Bool)
    (cols : List ι) (V : List ℕ → ℕ → ι → ℝ) (hnum : u.obj.numBasis full = cols.length)
    (h0 : ReturnsArray (u.Hjax n xs d full) n cols (V d))
    (hk : ∀ k < u.dim, Active n (tans k) → ReturnsArray (u.Hjax n xs (bump d k) full) n cols (V (bump d k))) :
    ∃ P T, u.H_jvp n xs tans d full = .ok (P, T) ∧ ReturnsArray (.ok P) n cols (V d) ∧
      ReturnsArray (.ok T) n cols (fun j c => ∑ k ∈ Finset.range u.dim, V (bump d k) j c * (tans k).val j) := by
  obtain ⟨P, hP, hP'⟩ := h0
  have key : ∀ q ≤ u.dim, ∀ out : Mat ℝ, ReturnsArray (.ok out) n cols (fun _ _ => (0 : ℝ)) →
      ∃ T, (List.range q).foldlM (u.jvpStep n xs tans d full) out = .ok T ∧
        ReturnsArray (.ok T) n cols (fun j c => ∑ k ∈ Finset.range q, V (bump d k) j c * (tans k).val j) := by
    intro q
    induction q with
    | zero => intro _ out hout; exact ⟨out, rfl, by simpa using hout⟩
    | succ q ih =>
      intro hq out hout
      obtain ⟨T, hT, hT'⟩ := ih (by omega) out hout
      have hstep : ∃ T', u.jvpStep n xs tans d full T q = .ok T' ∧
          ReturnsArray (.ok T') n cols
            (fun j c => ∑ k ∈ Finset.range q, V (bump d k) j c * (tans k).val j + V (bump d q) j c * (tans q).val j) := by
        have hzero : ¬ Active n (tans q) → ReturnsArray (.ok T) n cols
            (fun j c => ∑ k ∈ Finset.range q, V (bump d k) j c * (tans k).val j + V (bump d q) j c * (tans q).val j) := by
          intro hna
          refine Verif.ReturnsArray.congr hT' fun j hj c _ => ?_
          have : (tans q).val j = 0 := by
            by_contra hne
            exact hna ⟨j, hj, hne⟩
          rw [this, mul_zero, add_zero]
        unfold Mtfc.jvpStep
        cases ht : tans q with
        | zero =>
          simp only
          rw [← ht]
          exact ⟨T, rfl, hzero (by rw [ht]; rintro ⟨j, _, h⟩; exact h rfl)⟩
        | arr t =>
          simp only
          by_cases hact : ∃ j < n, t j ≠ 0
          · rw [if_pos hact]
            have hS := scaleRows_spec t (hk q (by omega) (by rw [ht]; exact hact))
            obtain ⟨B, hB, hB'⟩ := hS
            have hadd := addMat_spec (W := fun j c => V (bump d q) j c * t j) hT' ⟨B, rfl, hB'⟩
            obtain ⟨T', hT1, hT2⟩ := hadd
            refine ⟨T', ?_, ⟨T', rfl, hT2⟩⟩
            cases hA : u.Hjax n xs (bump d q) full with
            | error e => rw [hA] at hB; cases hB
            | ok A =>
              rw [hA] at hB
              have hB : Mat.scaleRows A n t = .ok B := hB
              simp only [bind, Except.bind, hB, hT1]
          · rw [if_neg hact, ← ht]
            exact ⟨T, rfl, hzero (by rw [ht]; exact hact)⟩
      obtain ⟨T', h1, h2⟩ := hstep
      refine ⟨T', ?_, by simpa only [Finset.sum_range_succ] using h2⟩
      rw [List.range_succ, List.foldlM_append, hT]
      simp only [bind, Except.bind, List.foldlM_cons, List.foldlM_nil, h1]
      rfl
  have hz : Mat.zeros n (u.obj.numBasis full) = .ok (⟨n, cols.length, fun _ _ => (0 : ℝ)⟩ : Mat ℝ) := by
    rw [Mat.zeros, if_neg (by omega), hnum, Int.toNat_natCast]
  obtain ⟨T, hT, hT'⟩ := key u.dim le_rfl ⟨n, cols.length, fun _ _ => 0⟩ ⟨_, rfl, rfl, rfl, fun _ _ _ _ => rfl⟩
  refine ⟨P, T, ?_, ⟨P, rfl, hP'⟩, hT'⟩
  unfold Mtfc.H_jvp
  simp only [bind, Except.bind, hz, hT, hP]

theorem bump_length (d : List ℕ) (k : ℕ) : (bump d k).length = d.length := by simp [bump]

theorem bump_getD {dim : ℕ} (d : List ℕ) (hd : d.length = dim) (k i : Fin dim) :
    (bump d k).getD i 0 = Function.update (fun i : Fin dim => d.getD i 0) k (d.getD k 0 + 1) i := by
  have hi : (i : ℕ) < d.length := by omega
  by_cases h : k = i
  · subst h; simp [bump, hi]
  · have h' : (k : ℕ) ≠ i := fun e => h (Fin.ext e)
    rw [Function.update_of_ne (Ne.symm h)]
    simp [bump, hi, h']

theorem partialDeriv_mixed_tensor {dim : ℕ} (cls : UniClass) (x0 xf : Fin dim → ℝ) (α : Fin dim → ℕ) (d : Fin dim → ℕ)
    (k : Fin dim) : partialDeriv k (mixedPartial d (cls.tensor x0 xf α)) =
      mixedPartial (Function.update d k (d k + 1)) (cls.tensor x0 xf α) := by
  have ht : cls.tensor x0 xf α = fun x => ∏ l : Fin dim, cls.basis (x0 l) (xf l) (α l) (x l) := rfl
  rw [ht, mixedPartial_tensor, mixedPartial_tensor, partialDeriv_tensor]

theorem partialDeriv_mixed_elm (a : Activation) {dim : ℕ} (x0 xf : Fin dim → ℝ) (w : Fin dim → ℕ → ℝ) (b : ℕ → ℝ) (c : ℕ)
    (d : Fin dim → ℕ) (k : Fin dim) (x : Fin dim → ℝ)
    (hk : a = .relu → ∑ i, w i c * toBasis (x0 i) (xf i) 0 1 (x i) + b c ≠ 0) :
    partialDeriv k (mixedPartial d (nElmBasis a x0 xf w b c)) x =
      mixedPartial (Function.update d k (d k + 1)) (nElmBasis a x0 xf w b c) x := by
  have harg : ∀ y : Fin dim → ℝ, ∑ i, w i c * toBasis (x0 i) (xf i) 0 1 (y i) + b c =
      ∑ i, (w i c * (1 / (xf i - x0 i))) * y i + (∑ i, -(w i c * (1 / (xf i - x0 i)) * x0 i) + b c) := by
    intro y
    rw [← add_assoc, ← Finset.sum_add_distrib]
    congr 1
    refine Finset.sum_congr rfl fun i _ => ?_
    unfold toBasis
    ring
  have hfun : nElmBasis a x0 xf w b c = fun x => act a (∑ i, (w i c * (1 / (xf i - x0 i))) * x i +
      (∑ i, -(w i c * (1 / (xf i - x0 i)) * x0 i) + b c)) := by
    funext y
    unfold nElmBasis
    rw [harg]
  rw [hfun]
  exact partialDeriv_mixed_act a _ _ d k x fun ha => by rw [← harg]; exact hk ha

/-- What C27 claims of an object, given its basis functions `φ c` (in the order `cols` of the columns): the rule returns the
matrix of the orders `d` and the sum over the dimensions of its partial derivatives times the tangents. -/
def GradientRule {ι : Type} (u : Mtfc) (dim n : ℕ) (xs : ℕ → ℕ → ℝ) (tans : ℕ → Tangent) (d : List ℕ) (full : Bool)
    (cols : List ι) (φ : ι → (Fin dim → ℝ) → ℝ) : Prop :=
  ∃ P T, u.H_jvp n xs tans d full = .ok (P, T) ∧
    ReturnsArray (.ok P) n cols (fun j c => mixedPartial (fun k : Fin dim => d.getD k 0) (φ c) fun k => xs j k) ∧
    ReturnsArray (.ok T) n cols (fun j c => ∑ k : Fin dim,
      partialDeriv k (mixedPartial (fun k : Fin dim => d.getD k 0) (φ c)) (fun k => xs j k) * (tans k).val j)

/-- **C27** for the tensor-product bases, both backends: every dimension, multi-order, point array and tuple of tangents
(including symbolic and numerical zeros). -/
theorem C27_tensor (n : List ℕ) (nC : MNCArg) (deg dim : ℕ) (hdim : 1 ≤ dim) (basis backend : String)
    (x0 xf : Option (List ℝ)) (w : ℕ → ℕ → ℝ) (b : ℕ → ℝ) (u : Mtfc)
    (hu : mtfcInit n nC deg dim basis x0 xf backend w b = .ok u) (f : NFamily)
    (hf : u.basis.mcls w b = .tensor f) (full : Bool) :
    ∃ L : List (Fin dim → ℕ), IsColumnOrder (deg + 1) (fun k : Fin dim => (List.range u.numC).map (u.tab k)) full L ∧
      ∀ (N : ℕ) (xs : ℕ → ℕ → ℝ) (tans : ℕ → Tangent) (d : List ℕ), d.length = dim →
        GradientRule u dim N xs tans d full L
          (fun α => f.cls.tensor (fun k : Fin dim => u.x0 k) (fun k => u.xf k) α) := by
  obtain ⟨-, -, hud, -, -, -, -, -, -, ⟨be, -, hobj⟩, -, -⟩ := mtfcInit_ok hu
  rw [hf] at hobj
  obtain ⟨o, g1, -, g2⟩ := MObj.new_tensor be f (m := deg + 1) hdim (by omega) u.x0 u.xf u.numC u.tab u.nCl
  rw [g1] at hobj
  cases hobj
  obtain ⟨L, hL, hnum, hret⟩ := g2 full
  refine ⟨L, hL, fun N xs tans d hd => ?_⟩
  obtain ⟨P, T, h1, h2, h3⟩ := jvp_core u N xs tans d full L
    (fun ds j α => mixedPartial (fun k : Fin dim => ds.getD k 0)
            (f.cls.tensor (fun k : Fin dim => u.x0 k) (fun k => u.xf k) α) (fun k => xs j k)) hnum
    (by unfold Mtfc.Hjax; rw [hud]; exact hret N xs d hd.ge)
    (fun k hk _ => by unfold Mtfc.Hjax; rw [hud]; exact hret N xs _ (by rw [bump_length]; exact hd.ge))
  refine ⟨P, T, h1, h2, Verif.ReturnsArray.congr h3 fun j hj α _ => ?_⟩
  rw [hud, Finset.sum_range]
  refine Finset.sum_congr rfl fun k _ => ?_
  rw [partialDeriv_mixed_tensor]
  simp only [bump_getD d hd k]

/-- **C27** for the ELM bases, both backends, for the orders at which the class has code for the derivatives the rule needs,
and (ReLU) away from the kinks. Missing: the orders at which the basis classes themselves are wrong
(`C25_sigmoid_fails`, …); for the Python ReLU the rule raises an exception (`C27_relu_fails`). -/
theorem C27_elm_partial (n : List ℕ) (nC : MNCArg) (deg dim : ℕ) (basis backend : String)
    (x0 xf : Option (List ℝ)) (w : ℕ → ℕ → ℝ) (b : ℕ → ℝ) (u : Mtfc)
    (hu : mtfcInit n nC deg dim basis x0 xf backend w b = .ok u) (a : Activation) (ha : u.basis = .elm a)
    (hx : ∀ k < dim, u.x0 k ≠ u.xf k) (full : Bool) (hC : full = true ∨ ValidRemoval (deg + 1) u.nCl)
    (be : Backend) (hbe : Backend.parse backend = some be)
    (N : ℕ) (xs : ℕ → ℕ → ℝ) (tans : ℕ → Tangent) (d : List ℕ) (hd : d.length = dim) (hex : MExact be a d)
    (hex' : (∃ k < dim, Active N (tans k)) → ∀ d' : List ℕ, d'.sum = d.sum + 1 → MExact be a d')
    (hk : a = .relu → ∀ j < N, ∀ k, ∑ i : Fin dim, w i k * toBasis (u.x0 i) (u.xf i) 0 1 (xs j i) + b k ≠ 0) :
    GradientRule u dim N xs tans d full (outColumns (deg + 1) u.nCl full)
      (fun k => nElmBasis a (fun i : Fin dim => u.x0 i) (fun i => u.xf i) (fun i => w i) b k) := by
  obtain ⟨-, -, hud, -, -, -, -, -, -, ⟨be', hbe', hobj⟩, -, -⟩ := mtfcInit_ok hu
  rw [hbe] at hbe'
  cases hbe'
  rw [ha] at hobj
  simp only [BasisName.mcls] at hobj
  obtain ⟨o, g1, -, -, g2⟩ := MObj.new_elm be a w b dim (deg + 1) u.x0 u.xf u.numC u.tab u.nCl
  rw [g1] at hobj
  cases hobj
  obtain ⟨hnum, hret⟩ := g2 full hC hx
  have hsum : ∀ k : Fin dim, (bump d k).sum = d.sum + 1 := by
    intro k
    rw [← getD_sum (bump d k) (dim := dim) (by rw [bump_length]; exact hd.le), ← getD_sum d (dim := dim) hd.le]
    simp only [bump_getD d hd k]
    rw [Finset.sum_update_of_mem (Finset.mem_univ k), ← Finset.add_sum_erase _ (fun i : Fin dim => d.getD i 0) (Finset.mem_univ k),
      ← Finset.erase_eq]
    ring
  obtain ⟨P, T, h1, h2, h3⟩ := jvp_core u N xs tans d full (outColumns (deg + 1) u.nCl full)
    (fun ds j k => mixedPartial (fun i : Fin dim => ds.getD i 0)
              (nElmBasis a (fun i => u.x0 i) (fun i => u.xf i) (fun i => w i) b k) (fun i => xs j i)) hnum
    (by unfold Mtfc.Hjax; rw [hud]; exact hret N xs d hd.le hex fun ha _ => hk ha)
    (fun k hk' hact => by
      unfold Mtfc.Hjax
      rw [hud] at hk' ⊢
      exact hret N xs _ (by rw [bump_length]; exact hd.le) (hex' ⟨k, hk', hact⟩ _ (hsum ⟨k, hk'⟩)) fun ha _ => hk ha)
  refine ⟨P, T, h1, h2, Verif.ReturnsArray.congr h3 fun j hj c _ => ?_⟩
  rw [hud, Finset.sum_range]
  refine Finset.sum_congr rfl fun k _ => ?_
  rw [partialDeriv_mixed_elm a _ _ _ _ _ _ _ _ (fun h => hk h j hj c)]
  simp only [bump_getD d hd k]

/-- **C27 is false for the Python ReLU basis**: from `H` itself (all orders zero), any nonzero tangent makes the rule raise an
`IndexError`, for every such object. -/
theorem C27_relu_fails (n : List ℕ) (nC : MNCArg) (deg dim : ℕ) (basis : String)
    (x0 xf : Option (List ℝ)) (w : ℕ → ℕ → ℝ) (b : ℕ → ℝ) (u : Mtfc)
    (hu : mtfcInit n nC deg dim basis x0 xf "Python" w b = .ok u) (ha : u.basis = .elm .relu) (full : Bool)
    (hC : full = true ∨ ValidRemoval (deg + 1) u.nCl)
    (hx : ∀ k < dim, u.x0 k ≠ u.xf k)
    (N : ℕ) (xs : ℕ → ℕ → ℝ) (tans : ℕ → Tangent) (hact : ∃ k < dim, Active N (tans k)) :
    u.H_jvp N xs tans (List.replicate dim 0) full = .error .indexError := by
  obtain ⟨-, -, hud, -, -, -, -, -, -, ⟨be', hbe', hobj⟩, -, -⟩ := mtfcInit_ok hu
  have : be' = .python := by
    have : Backend.parse "Python" = some .python := rfl
    rw [this] at hbe'; cases hbe'; rfl
  subst this
  rw [ha] at hobj
  simp only [BasisName.mcls] at hobj
  obtain ⟨o, g1, -, g3, g2⟩ := MObj.new_elm .python .relu w b dim (deg + 1) u.x0 u.xf u.numC u.tab u.nCl
  rw [g1] at hobj
  cases hobj
  obtain ⟨hnum, -⟩ := g2 full hC hx
  have hsum : ∀ k < dim, (bump (List.replicate dim 0) k).sum = 1 := by
    intro k hk
    have hl : (bump (List.replicate dim 0) k).length ≤ dim := by simp [bump_length]
    rw [← getD_sum _ hl]
    have : ∀ i : Fin dim, (bump (List.replicate dim 0) k).getD i 0 = if (⟨k, hk⟩ : Fin dim) = i then 1 else 0 := by
      intro i
      simp [bump, Fin.ext_iff]
    simp only [this]
    simp
  have herr : ∀ k < dim, u.Hjax N xs (bump (List.replicate dim 0) k) full = .error .indexError := by
    intro k hk
    unfold Mtfc.Hjax
    rw [hud]
    exact g3 rfl rfl _ _ _ _ (hsum k hk)
  have step : ∀ k < dim, ∀ out, (Active N (tans k) → u.jvpStep N xs tans (List.replicate dim 0) full out k = .error .indexError) ∧
      (¬ Active N (tans k) → u.jvpStep N xs tans (List.replicate dim 0) full out k = .ok out) := by
    intro k hk out
    unfold Mtfc.jvpStep
    cases ht : tans k with
    | zero => exact ⟨fun ⟨j, _, h⟩ => absurd rfl h, fun _ => rfl⟩
    | arr t =>
      refine ⟨fun h => ?_, fun h => ?_⟩
      · have h : ∃ j < N, t j ≠ 0 := h
        simp only
        rw [if_pos h, herr k hk]
        rfl
      · have h : ¬ ∃ j < N, t j ≠ 0 := h
        simp only
        rw [if_neg h]
  have fold : ∀ (L : List ℕ) (out : Mat ℝ), (∀ k ∈ L, k < dim) → (∃ k ∈ L, Active N (tans k)) →
      L.foldlM (u.jvpStep N xs tans (List.replicate dim 0) full) out = .error .indexError := by
    intro L
    induction L with
    | nil => rintro out _ ⟨k, hk, _⟩; simp at hk
    | cons k L ih =>
      intro out hL hex
      rw [List.foldlM_cons]
      by_cases hA : Active N (tans k)
      · rw [(step k (hL k (by simp)) out).1 hA]; rfl
      · rw [(step k (hL k (by simp)) out).2 hA]
        refine ih out (fun k' hk' => hL k' (by simp [hk'])) ?_
        obtain ⟨k', hk', hA'⟩ := hex
        rcases List.mem_cons.mp hk' with rfl | h
        · exact absurd hA' hA
        · exact ⟨k', h, hA'⟩
  have hz : Mat.zeros N (u.obj.numBasis full) = .ok (⟨N, (outColumns (deg + 1) u.nCl full).length, fun _ _ => (0 : ℝ)⟩ : Mat ℝ) := by
    rw [Mat.zeros, if_neg (by omega), hnum, Int.toNat_natCast]
  unfold Mtfc.H_jvp
  simp only [bind, Except.bind, hz, hud]
  have := fold (List.range dim) ⟨N, (outColumns (deg + 1) u.nCl full).length, fun _ _ => 0⟩ (by simp)
    (by obtain ⟨k, hk, h⟩ := hact; exact ⟨k, by simpa using hk, h⟩)
  rw [this]

end Verif.Props
