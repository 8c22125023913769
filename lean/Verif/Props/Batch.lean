import Verif.Model.Batch
import Verif.Spec.Batch
import Verif.Props.Rows

/-!
# Mapping `H` over a batch of points (C59)
-/

namespace Verif

open Verif.Mem Verif.Py Verif.Np Verif.Spec Verif.Model Verif.Model.Py Verif.Model.CC

theorem stacks_of_rows {P : Type} {H : ℕ → (ℕ → P) → Except Err (Mat ℝ)} (h : RowByRow H (fun _ => True)) (n : ℕ) (xs : ℕ → P) :
    ∃ A, H n xs = .ok A ∧ A.rows = n ∧
      Stacks (.ok (arrOfMat A, some 0)) n (fun b => (H 1 fun _ => xs b).map onlyRow) := by
  obtain ⟨A, -, hA, -, hr, -⟩ := h n xs 0 (fun j => j) (fun _ _ => trivial) (fun j hj => absurd hj (by omega))
  refine ⟨A, hA, hr, arrOfMat A, rfl, fun b hb => ?_⟩
  obtain ⟨A', B, hA', hB, -, hBr, hBc, hBv⟩ := h n xs 1 (fun _ => b) (fun _ _ => trivial) (fun _ _ => hb)
  rw [hA] at hA'
  cases hA'
  refine ⟨onlyRow B, ?_, ?_, fun i hi => ?_⟩
  · show (H 1 fun _ => xs b).map onlyRow = _
    rw [hB]; rfl
  · simp [arrOfMat, onlyRow, hr, hBc]
  · have hi : i < A.cols := by simpa [onlyRow, hBc] using hi
    simp only [arrOfMat, onlyRow, List.prod_cons, List.prod_nil, mul_one, hBc]
    rw [hBv 0 (by omega) i hi, Nat.mul_comm b, Nat.mul_add_div (by omega), Nat.div_eq_of_lt hi, Nat.mul_add_mod,
      Nat.mod_eq_of_lt hi, Nat.add_zero]

end Verif

namespace Verif.Props

open Verif Verif.Mem Verif.Py Verif.Np Verif.Spec Verif.Model Verif.Model.Py Verif.Model.CC

/-- **C59, scalar points, eager**: mapping `utfc`'s `H` over an array of scalar points stacks the rows of the separate points.
Missing: examples that are themselves arrays (`C59_arrays_fails`). -/
theorem C59_utfc_partial (u : Utfc) (d : ℕ) (full : Bool) (hC : full = true ∨ ValidRemoval (u.deg + 1) u.nC)
    (hd : Evaluable u.backend u.cls d) (n : ℕ) (xs : ℕ → ℝ) :
    Stacks (u.vmap false ⟨[n], xs⟩ 0 d full) n (fun b => (u.Hjax 1 (fun _ => xs b) d full).map onlyRow) := by
  obtain ⟨A, hA, -, hS⟩ := stacks_of_rows (C58_utfc_partial u d full hC hd) n xs
  have : u.vmap false ⟨[n], xs⟩ 0 d full = .ok (arrOfMat A, some 0) := by
    have h1 : u.implArr ⟨[n], xs⟩ d full = .ok (arrOfMat A) := by
      unfold Utfc.implArr
      cases u.backend <;> simp only [hA] <;> rfl
    simp only [Utfc.vmap, H_batch, Bool.false_eq_true, if_false, h1]
    rfl
  rw [this]
  exact hS

theorem dim1_eq (u : Utfc) (full : Bool) (hC : ValidRemoval (u.deg + 1) u.nC) :
    (outColumns (u.deg + 1) u.nC full).length = u.dim1 full := by
  unfold Utfc.dim1
  have := (keptColumns_length_iff (u.deg + 1) u.nC).mpr hC
  cases full
  · simp only [outColumns, Bool.false_eq_true, if_false]; omega
  · simp [outColumns]

theorem hasCode_of_evaluable {cls : UniClass} {d : ℕ} (hd : Evaluable .cpp cls d) : UniClass.hasCode cls d := by
  rcases hcls : cls with f | _ | ⟨a, w, b⟩
  · trivial
  · trivial
  · cases a <;> first | trivial | exact hd _ _ hcls

/-- What a compiled program gets for points in an array of any shape: as many points as the first axis is long, read from the
beginning of the array. -/
theorem jitArr_eq (u : Utfc) (d : ℕ) (full : Bool) (hC : ValidRemoval (u.deg + 1) u.nC) (hd : Evaluable .cpp u.cls d)
    (n : ℕ) (rest : List ℕ) (hrest : n ≤ n * rest.prod) (xs : ℕ → ℝ) :
    ∃ R : PyBF.Arr, u.jitArr ⟨n :: rest, xs⟩ d full = .ok R ∧ R.shape = [n, u.dim1 full] ∧
      ∀ j < n, ∀ i, ∀ hi : i < (outColumns (u.deg + 1) u.nC full).length, R.vals (u.dim1 full * j + i) =
        uniE u.cls d (u.cls.arg u.x0 u.xf (xs j)) (outColumns (u.deg + 1) u.nC full)[i] *
          (uniNew u.cls u.x0 u.xf u.nC (u.deg + 1)).c ^ d := by
  have hlen := dim1_eq u full hC
  have h := xla_spec (uniNew u.cls u.x0 u.xf u.nC (u.deg + 1)) (d := d) (E := uniE u.cls d)
    (by rw [uni_m]; exact uni_hintSpec u.cls u.x0 u.xf u.nC (by omega) (hasCode_of_evaluable hd))
    (x := Buf.ofFn (n * rest.prod) xs) (n := n) (xs := xs)
    (fun j hj => Buf.ofFn_read (by omega)) full (out := alloc (n * u.dim1 full))
    (M := fun j i => (alloc (n * u.dim1 full) : Buf ℝ).cell ((outColumns (u.deg + 1) u.nC full).length * j + i))
    (by rw [uni_m, uni_nC]; exact ⟨by rw [hlen]; rfl, fun _ _ _ _ => rfl⟩)
  rw [uni_m, uni_nC] at h
  simp only [uni_arg] at h
  obtain ⟨F, hF, hs, hv⟩ := fills_of_runs h
  rw [hlen] at hF
  have hall : (List.range ([n, u.dim1 full] : List ℕ).prod).all (fun i => (F.cell i).isSome) = true := by
    rw [List.all_eq_true]
    intro i hi
    have hi : i < n * u.dim1 full := by simpa using List.mem_range.mp hi
    have hpos : 0 < u.dim1 full := by
      rcases Nat.eq_zero_or_pos (u.dim1 full) with h | h
      · rw [h] at hi; omega
      · exact h
    have h1 := hv (i / u.dim1 full) ((Nat.div_lt_iff_lt_mul hpos).mpr hi) (i % u.dim1 full)
      (by rw [hlen]; exact Nat.mod_lt _ hpos)
    have h2 : (outColumns (u.deg + 1) u.nC full).length * (i / u.dim1 full) + i % u.dim1 full = i := by
      rw [hlen, Nat.div_add_mod]
    rw [← h2, h1]; rfl
  refine ⟨⟨[n, u.dim1 full], fun i => (F.cell i).getD 0⟩, ?_, rfl, fun j hj i hi => ?_⟩
  · simp only [Utfc.jitArr, PyBF.Arr.size, List.prod_cons]
    rw [hF]
    simp only [fromXla]
    rw [if_pos hall]
  · have h1 := hv j hj i hi
    have h2 : (outColumns (u.deg + 1) u.nC full).length * j + i = u.dim1 full * j + i := by rw [hlen]
    rw [h2] at h1
    simp only
    rw [h1]; rfl

/-- **C59, scalar points, compiled program**. -/
theorem C59_utfc_jit_partial (u : Utfc) (hb : u.backend = .cpp) (d : ℕ) (full : Bool)
    (hC : ValidRemoval (u.deg + 1) u.nC) (hd : Evaluable u.backend u.cls d) (n : ℕ) (xs : ℕ → ℝ) :
    Stacks (u.vmap true ⟨[n], xs⟩ 0 d full) n (fun b => (u.Hjax 1 (fun _ => xs b) d full).map onlyRow) := by
  have hd' := hd
  rw [hb] at hd'
  obtain ⟨R, hR, hRs, hRv⟩ := jitArr_eq u d full hC hd' n [] (by simp) xs
  refine ⟨R, by simp only [Utfc.vmap, H_batch, if_true, hR]; rfl, fun b hb' => ?_⟩
  obtain ⟨V, ⟨A, hA, hAr, hAc, hAv⟩, -, rfl⟩ := utfc_Hjax u hd full (Or.inr hC) 1 (fun _ => xs b)
  have hlen := dim1_eq u full hC
  refine ⟨onlyRow A, by beta_reduce; rw [hA]; rfl, by simp [onlyRow, hRs, hAc, hlen], fun i hi => ?_⟩
  have hi : i < (outColumns (u.deg + 1) u.nC full).length := by simpa [onlyRow, hAc] using hi
  simp only [onlyRow, List.prod_cons, List.prod_nil, mul_one, hAc, hlen]
  rw [Nat.mul_comm b, hRv b hb' i hi, hAv 0 (by omega) i hi]
  simp only [hb]

/-- **C59 is false when the examples are arrays**: for a batch of `B ≥ 1` arrays of `n ≥ 1` points each, and every compiled
class and order, the compiled program returns a matrix of the wrong shape (only `B` of the `B * n` points are evaluated, all
from the beginning of the array) and the eager call raises an exception. -/
theorem C59_arrays_fails (u : Utfc) (hb : u.backend = .cpp) (d : ℕ) (full : Bool)
    (hC : ValidRemoval (u.deg + 1) u.nC) (hd : Evaluable u.backend u.cls d) (B n : ℕ) (hB : 1 ≤ B) (hn : 1 ≤ n)
    (xs : ℕ → ℝ) :
    u.vmap false ⟨[B, n], xs⟩ 0 d full = .error .valueError ∧
    ∃ R, u.vmap true ⟨[B, n], xs⟩ 0 d full = .ok (R, some 0) ∧ R.shape = [B, u.dim1 full] ∧
      ¬ Stacks (u.vmap true ⟨[B, n], xs⟩ 0 d full) B
        (fun b => (u.Hjax n (slice0 ⟨[B, n], xs⟩ b).vals d full).map arrOfMat) := by
  constructor
  · have : u.implArr ⟨[B, n], xs⟩ d full = .error .valueError := by
      unfold Utfc.implArr
      rw [hb]
      split
      · next h => cases h
      · next h _ => cases h
      · rfl
    simp only [Utfc.vmap, H_batch, Bool.false_eq_true, if_false, this]
    rfl
  · have hd' := hd
    rw [hb] at hd'
    obtain ⟨R, hR, hRs, -⟩ := jitArr_eq u d full hC hd' B [n] (by simpa using Nat.le_mul_of_pos_right B hn) xs
    have hv : u.vmap true ⟨[B, n], xs⟩ 0 d full = .ok (R, some 0) := by
      simp only [Utfc.vmap, H_batch, if_true, hR]; rfl
    refine ⟨R, hv, hRs, ?_⟩
    rintro ⟨R', hR', h⟩
    rw [hv] at hR'
    cases hR'
    obtain ⟨A, hA, hAs, -⟩ := h 0 (by omega)
    beta_reduce at hA
    cases hH : u.Hjax n (slice0 ⟨[B, n], xs⟩ 0).vals d full with
    | error e => rw [hH] at hA; cases hA
    | ok M =>
      rw [hH] at hA
      cases hA
      rw [hRs] at hAs
      simp [arrOfMat] at hAs

/-- A single point without any axis is announced as one row (`H_abstract_eval`), but neither evaluation accepts it. -/
theorem C59_scalar_fails (u : Utfc) (hb : u.backend = .cpp) (d : ℕ) (full : Bool) (x : ℝ) :
    u.abstractShape [] full = [u.dim1 full] ∧ u.implArr ⟨[], fun _ => x⟩ d full = .error .valueError ∧
      u.jitArr ⟨[], fun _ => x⟩ d full = .error .indexError := by
  refine ⟨rfl, ?_, rfl⟩
  unfold Utfc.implArr
  rw [hb]

/-! ## mtfc -/

/-- **C59 for `mtfc`, all coordinates mapped**, eager, for every object that evaluates row by row (`C58_mtfc_tensor`,
`C58_mtfc_elm_partial`). Missing: coordinates that are not mapped (`C59_unmapped_fails`) and examples that are arrays. -/
theorem C59_mtfc_partial (u : Mtfc) (hdim : 1 ≤ u.dim) (ds : List ℕ) (full : Bool)
    (hrow : RowByRow (fun n xs => u.Hjax n xs ds full) (fun _ => True)) (n : ℕ) (xs : ℕ → ℕ → ℝ) :
    Stacks (u.vmap ((List.range u.dim).map fun k => ⟨[n], fun j => if k < u.dim then xs j k else 0⟩)
        ((List.range u.dim).map fun _ => some 0) ds full) n
      (fun b => (u.Hjax 1 (fun _ k => if k < u.dim then xs b k else 0) ds full).map onlyRow) := by
  obtain ⟨A, hA, -, hS⟩ := stacks_of_rows hrow n (fun j k => if k < u.dim then xs j k else 0)
  have h1 : u.implArr ((List.range u.dim).map fun k => ⟨[n], fun j => if k < u.dim then xs j k else 0⟩) ds full =
      .ok (arrOfMat A) := by
    have hv : (fun j k => (((List.range u.dim).map fun k => (⟨[n], fun j => if k < u.dim then xs j k else 0⟩ :
        PyBF.Arr)).getD k ⟨[], fun _ => 0⟩).vals j) = fun j k => if k < u.dim then xs j k else 0 := by
      funext j k
      by_cases hk : k < u.dim
      · simp [List.getD, hk]
      · simp [List.getD, hk]
    have hall : ((List.range u.dim).map fun k => (⟨[n], fun j => if k < u.dim then xs j k else 0⟩ : PyBF.Arr)).all
        (fun y => y.shape == [n]) = true := by simp
    obtain ⟨m, hm⟩ : ∃ m, u.dim = m + 1 := ⟨u.dim - 1, by omega⟩
    generalize hX : ((List.range u.dim).map fun k => (⟨[n], fun j => if k < u.dim then xs j k else 0⟩ : PyBF.Arr)) = X
      at hv hall
    cases X with
    | nil => rw [hm] at hX; simp at hX
    | cons x t =>
      have hx : x.shape = [n] := by
        have := List.all_eq_true.mp hall x (by simp)
        simpa using this
      unfold Mtfc.implArr
      simp only [hx]
      rw [if_pos hall, hv]
      beta_reduce at hA
      rw [hA]
      rfl
  have : u.vmap ((List.range u.dim).map fun k => ⟨[n], fun j => if k < u.dim then xs j k else 0⟩)
        ((List.range u.dim).map fun _ => some 0) ds full = .ok (arrOfMat A, some 0) := by
    obtain ⟨m, hm⟩ : ∃ m, u.dim = m + 1 := ⟨u.dim - 1, by omega⟩
    simp only [Mtfc.vmap, H_batch, h1]
    rw [hm, List.range_succ_eq_map]
    rfl
  rw [this]
  exact hS

/-- **C59 is false for `mtfc` when a coordinate is not mapped**: whenever two coordinates have different shapes — as they do
when one is mapped over a batch of `B` scalars and the other is the same for the whole batch — the rule raises an exception
(`np.array` of a ragged tuple), whatever the object. -/
theorem C59_unmapped_fails (u : Mtfc) (B : ℕ) (xs : ℕ → ℝ) (y : ℝ) (ds : List ℕ) (full : Bool) (each : ℕ → Except Err PyBF.Arr) :
    u.vmap [⟨[B], xs⟩, ⟨[], fun _ => y⟩] [some 0, none] ds full = .error .valueError ∧
      ¬ Stacks (u.vmap [⟨[B], xs⟩, ⟨[], fun _ => y⟩] [some 0, none] ds full) B each := by
  have : u.vmap [⟨[B], xs⟩, ⟨[], fun _ => y⟩] [some 0, none] ds full = .error .valueError := by
    simp [Mtfc.vmap, H_batch, Mtfc.implArr, Except.map]
  refine ⟨this, ?_⟩
  rw [this]
  rintro ⟨R, hR, -⟩
  cases hR

/-- The hypotheses of `C59_utfc_partial` and `C59_utfc_jit_partial` hold for a Legendre object with two functions removed:
mapping its second derivative over any array of points stacks the single rows. -/
example (n : ℕ) (xs : ℕ → ℝ) :
    let u : Utfc := ⟨10, 5, [0, 1], .lep, .cpp, 0, 3, .poly .lep, 2 / 3, [], []⟩
    Stacks (u.vmap true ⟨[n], xs⟩ 0 2 false) n (fun k => (u.Hjax 1 (fun _ => xs k) 2 false).map onlyRow) :=
  C59_utfc_jit_partial _ rfl 2 false (by constructor <;> decide) (by intro w b h; cases h) n xs

end Verif.Props
