import Verif.Model.RefPop
import Verif.Props.MultiPy
import Verif.Props.UniPy

/-!
# C115: the reference implementations kept with the tests
-/

namespace Verif.Props

open Verif Verif.Py Verif.Np Verif.Spec Verif.Model

section Same

variable {K : Type} [Zero K] [One K] [Add K] [Sub K] [Mul K] [Div K] [Neg K] [NatCast K]

theorem pop_int (deg : ℕ) : ((deg + 1 : ℕ) : ℤ) - 2 = (deg : ℤ) - 1 := by
  push_cast
  ring

theorem pop_int2 (deg : ℕ) : (deg : ℤ) + 1 - 2 = (deg : ℤ) - 1 := by ring

theorem pop_int' (deg : ℕ) : ((deg + 1 : ℕ) : ℤ) = (deg : ℤ) + 1 := by push_cast; ring

theorem pop_CP_recurse (deg N : ℕ) (x : ℕ → K) (left : ℕ) : ∀ (dCurr : ℕ) (dark : Mat K),
    Pop.CP.recurse deg N x left dCurr dark = PyBF.CP.recurse (deg + 1) N x left dCurr dark := by
  induction left with
  | zero => intro _ _; rfl
  | succ left ih => intro dCurr dark; simp only [Pop.CP.recurse, PyBF.CP.recurse, pop_int', pop_int2, ih]

theorem pop_LeP_recurse (deg N : ℕ) (x : ℕ → K) (left : ℕ) : ∀ (dCurr : ℕ) (dark : Mat K),
    Pop.LeP.recurse deg N x left dCurr dark = PyBF.LeP.recurse (deg + 1) N x left dCurr dark := by
  induction left with
  | zero => intro _ _; rfl
  | succ left ih => intro dCurr dark; simp only [Pop.LeP.recurse, PyBF.LeP.recurse, pop_int', pop_int2, ih, Nat.add_sub_cancel]

theorem pop_LaP_recurse (deg N : ℕ) (x : ℕ → K) (left : ℕ) : ∀ (dCurr : ℕ) (dark : Mat K),
    Pop.LaP.recurse deg N x left dCurr dark = PyBF.LaP.recurse (deg + 1) N x left dCurr dark := by
  induction left with
  | zero => intro _ _; rfl
  | succ left ih => intro dCurr dark; simp only [Pop.LaP.recurse, PyBF.LaP.recurse, pop_int', pop_int2, ih, Nat.add_sub_cancel]

theorem pop_HoPpro_recurse (deg N : ℕ) (x : ℕ → K) (left : ℕ) : ∀ (dCurr : ℕ) (dark : Mat K),
    Pop.HoPpro.recurse deg N x left dCurr dark = PyBF.HoPpro.recurse (deg + 1) N x left dCurr dark := by
  induction left with
  | zero => intro _ _; rfl
  | succ left ih => intro dCurr dark; simp only [Pop.HoPpro.recurse, PyBF.HoPpro.recurse, pop_int', pop_int2, ih, Nat.add_sub_cancel]

theorem pop_HoPphy_recurse (deg N : ℕ) (x : ℕ → K) (left : ℕ) : ∀ (dCurr : ℕ) (dark : Mat K),
    Pop.HoPphy.recurse deg N x left dCurr dark = PyBF.HoPphy.recurse (deg + 1) N x left dCurr dark := by
  induction left with
  | zero => intro _ _; rfl
  | succ left ih => intro dCurr dark; simp only [Pop.HoPphy.recurse, PyBF.HoPphy.recurse, pop_int', pop_int2, ih, Nat.add_sub_cancel]

/-- The reference implementation of a polynomial class. -/
def popHint : PolyFamily → ℕ → ℕ → (ℕ → K) → ℕ → Except Err (Mat K)
  | .cp => Pop.CP
  | .lep => Pop.LeP
  | .lap => Pop.LaP
  | .hopPro => Pop.HoPpro
  | .hopPhy => Pop.HoPphy

/-- The `_Hint` of a polynomial class. -/
def libHint : PolyFamily → ℕ → ℕ → (ℕ → K) → ℕ → Except Err (Mat K)
  | .cp => PyBF.CP.hint
  | .lep => PyBF.LeP.hint
  | .lap => PyBF.LaP.hint
  | .hopPro => PyBF.HoPpro.hint
  | .hopPhy => PyBF.HoPphy.hint

/-- **C115, one variable, polynomials.** The reference implementation for the degree `deg` performs the operations of the Python class with `deg + 1`
functions: the same array for every type of numbers, rounded ones included. -/
theorem C115_poly (f : PolyFamily) (deg N : ℕ) (x : ℕ → K) (d : ℕ) : popHint f deg N x d = libHint f (deg + 1) N x d := by
  cases f
  · show Pop.CP deg N x d = PyBF.CP.hint (deg + 1) N x d
    simp only [Pop.CP, PyBF.CP.hint, pop_int, pop_CP_recurse, Nat.add_eq_right, Nat.reduceEqDiff]
  · show Pop.LeP deg N x d = PyBF.LeP.hint (deg + 1) N x d
    simp only [Pop.LeP, PyBF.LeP.hint, pop_int, pop_LeP_recurse, Nat.add_eq_right, Nat.reduceEqDiff, Nat.add_sub_cancel]
  · show Pop.LaP deg N x d = PyBF.LaP.hint (deg + 1) N x d
    simp only [Pop.LaP, PyBF.LaP.hint, pop_int, pop_LaP_recurse, Nat.add_eq_right, Nat.reduceEqDiff, Nat.add_sub_cancel]
  · show Pop.HoPpro deg N x d = PyBF.HoPpro.hint (deg + 1) N x d
    simp only [Pop.HoPpro, PyBF.HoPpro.hint, pop_int, pop_HoPpro_recurse, Nat.add_eq_right, Nat.reduceEqDiff, Nat.add_sub_cancel]
  · show Pop.HoPphy deg N x d = PyBF.HoPphy.hint (deg + 1) N x d
    simp only [Pop.HoPphy, PyBF.HoPphy.hint, pop_int, pop_HoPphy_recurse, Nat.add_eq_right, Nat.reduceEqDiff, Nat.add_sub_cancel]

omit [Add K] [Sub K] [Div K] in
/-- **C115, one variable, Fourier series.** Likewise. -/
theorem C115_fourier [Pow K ℕ] [Libm K] (deg N : ℕ) (x : ℕ → K) (d : ℕ) : Pop.FS deg N x d = PyBF.FS.hint (deg + 1) N x d := by
  simp only [Pop.FS, PyBF.FS.hint, pop_int', Pop.FS.fill, PyBF.FS.fill, Nat.add_eq_zero_iff, one_ne_zero, and_false, if_false]

end Same

/-! ## The entries -/

/-- **C115, one variable, polynomials, the values.** Entry `(j, k)` is the `d`-th derivative of the `k`-th classical polynomial at `x_j`. -/
theorem C115_poly_values (f : PolyFamily) (deg N : ℕ) (x : ℕ → ℝ) (d : ℕ) :
    ReturnsArray (popHint f deg N x d) N (List.range (deg + 1)) (fun j k => iteratedDeriv d (fun t => (classical ℝ f k).eval t) (x j)) := by
  obtain ⟨B, h1, h2⟩ := polyPyHint_spec (K := ℝ) f (n := N) (Nat.le_add_left 1 deg) x d
  refine ⟨B, ?_, h2.rows, by rw [h2.cols, List.length_range], fun j hj i hi => ?_⟩
  · rw [C115_poly]
    cases f <;> exact h1
  · rw [List.length_range] at hi
    rw [h2.at_ j hj i hi, List.getElem_range]
    have h := iteratedDeriv_polynomial (classical ℝ f i) 1 0 d
    simp only [one_mul, add_zero, one_pow] at h
    exact (congrFun h (x j)).symm

/-- **C115, one variable, Fourier series, the values.** -/
theorem C115_fourier_values (deg N : ℕ) (x : ℕ → ℝ) (d : ℕ) :
    ReturnsArray (Pop.FS deg N x d) N (List.range (deg + 1)) (fun j k => iteratedDeriv d (fun t => fourier k t) (x j)) := by
  obtain ⟨B, h1, h2⟩ := fsPy_hint_spec (n := N) (Nat.le_add_left 1 deg) x d
  refine ⟨B, by rw [C115_fourier]; exact h1, h2.rows, by rw [h2.cols, List.length_range], fun j hj i hi => ?_⟩
  rw [List.length_range] at hi
  rw [h2.at_ j hj i hi, List.getElem_range]
  have h := iteratedDeriv_chain (fun a t => fsD a t i) d (fun a _ t => fsD_hasDeriv a i t) 1 0 le_rfl
  simp only [one_mul, add_zero, one_pow, fsD_zero] at h
  exact (congrFun h (x j)).symm

/-! ## Several variables -/

/-- The table of removed functions that belongs to the numbers `nC` of the reference implementations: `0, …, nC k - 1` in row `k`, filled up with `-1`. -/
def popTable (nC : ℕ → ℤ) (k g : ℕ) : ℤ := if (g : ℤ) < nC k then (g : ℤ) else -1

theorem anyGe_table {dim numC : ℕ} {nC : ℕ → ℤ} (hC : ∀ k < dim, nC k ≤ numC) (vec : ℕ → ℕ) :
    Pop.anyGe dim nC vec = !(PyBF.allRemoved dim numC (popTable nC) vec) := by
  rw [Bool.eq_iff_iff]
  simp only [Pop.anyGe, PyBF.allRemoved, List.any_eq_true, List.mem_range, decide_eq_true_eq, Bool.not_eq_true', Bool.eq_false_iff, ne_eq,
    List.all_eq_true, beq_iff_eq, not_forall, not_exists, not_and, exists_prop, popTable]
  refine exists_congr fun k => and_congr_right fun hk => ⟨fun h g hg => ?_, fun h => ?_⟩
  · split <;> omega
  · by_contra hlt
    have := hC k hk
    refine h (vec k) (by omega) ?_
    rw [if_pos (by omega)]

theorem pop_keep {deg dim numC : ℕ} {nC : ℕ → ℤ} (hC : ∀ k < dim, nC k ≤ numC) (vec : ℕ → ℕ) :
    (Pop.anyGe dim nC vec && decide (Pop.sumVec dim vec ≤ deg)) =
      (!(PyBF.allRemoved dim numC (popTable nC) vec) && decide ((PyBF.npSum dim vec : ℤ) ≤ ((deg + 1 : ℕ) : ℤ) - 1)) := by
  rw [anyGe_table hC]
  congr 1
  rw [decide_eq_decide]
  unfold Pop.sumVec PyBF.npSum
  omega

theorem pop_recurseBasis {deg ndim numC : ℕ} {nC : ℕ → ℤ} (hC : ∀ k < ndim, nC k ≤ numC) : ∀ dim s,
    Pop.recurseBasis deg ndim nC dim s = PyBF.numBasis (deg + 1) ndim numC (popTable nC) false dim s := by
  intro dim
  induction dim with
  | zero =>
    intro s
    simp only [Pop.recurseBasis, PyBF.numBasis, pop_keep hC, Bool.false_eq_true, if_false]
  | succ dim ih =>
    intro s
    simp only [Pop.recurseBasis, PyBF.numBasis, ih]

section Field

variable {K : Type} [Field K]

theorem pop_recurse {deg ndim numC : ℕ} {nC : ℕ → ℤ} (hC : ∀ k < ndim, nC k ≤ numC) (T : ℕ → ℕ → ℕ → K) : ∀ dim s,
    Pop.recurse deg ndim nC T dim s = PyBF.recurse (deg + 1) ndim numC (popTable nC) false T dim s := by
  intro dim
  induction dim with
  | zero =>
    intro s
    simp only [Pop.recurse, PyBF.recurse, pop_keep hC, Bool.false_eq_true, if_false]
    rfl
  | succ dim ih =>
    intro s
    simp only [Pop.recurse, PyBF.recurse, ih]

/-- **C115, several variables.** The reference implementation returns what the Python class returns that is built for the domain of the basis functions,
with the table of the functions below `nC`; also the exceptions are the same. -/
theorem C115_multi {uni hint : ℕ → ℕ → (ℕ → K) → ℕ → Except Err (Mat K)} (hu : ∀ deg N x d, uni deg N x d = hint (deg + 1) N x d) {z0 zf : K}
    (hz : zf ≠ z0) {N dim numC : ℕ} (X : ℕ → ℕ → K) (deg : ℕ) (d : List ℕ) {nC : ℕ → ℤ} (hC : ∀ k < dim, nC k ≤ numC) :
    Pop.nBasis uni N dim X deg d nC =
      (PyBF.NBasisFunc.init hint (fun _ => z0) (fun _ => zf) (popTable nC) dim numC (deg + 1) z0 zf).bind fun bf =>
        bf.H dim N (fun k j => X j k) d false := by
  have hc : (zf - z0) / (zf - z0) = 1 := div_self (sub_ne_zero.2 hz)
  rcases Nat.eq_zero_or_pos dim with rfl | hd
  · simp only [Pop.nBasis, PyBF.NBasisFunc.init, List.range_zero, List.foldlM_nil, if_true]
    rfl
  · simp only [Pop.nBasis, PyBF.NBasisFunc.init, if_neg hd.ne', Except.bind, PyBF.NBasisFunc.H, ne_eq, not_true, if_false, Bool.false_eq_true,
      PyBF.NBasisFunc.fillT, hc, mul_one, sub_add_cancel, pop_recurseBasis hC, pop_recurse hC]
    congr 1
    congr 1
    funext T k
    simp only [Pop.stepT, PyBF.NBasisFunc.stepT, hu, one_pow, mul_one]
    cases d[k]? <;> rfl

end Field

/-- The one dimensional reference implementation called by that of several variables. -/
noncomputable def popUni : NFamily → ℕ → ℕ → (ℕ → ℝ) → ℕ → Except Err (Mat ℝ)
  | .cp => Pop.CP
  | .lep => Pop.LeP
  | .fs => Pop.FS

/-- **C115, several variables, the values.** The columns are the multi-indices of sum at most `deg` with at least one `α_k ≥ nC_k`, each once, in the
order of the library; the entries are the mixed partial derivatives of the products of the basis functions. -/
theorem C115_multi_values (f : NFamily) {N dim : ℕ} (hdim : 1 ≤ dim) (deg : ℕ) (nC : ℕ → ℤ) :
    ∃ L : List (Fin dim → ℕ), L.Nodup ∧ L.Pairwise ColexLt ∧ (∀ α, α ∈ L ↔ ∑ k, α k ≤ deg ∧ ∃ k : Fin dim, nC k ≤ α k) ∧
      ∀ (X : ℕ → ℕ → ℝ) (ds : List ℕ), dim ≤ ds.length →
        ReturnsArray (Pop.nBasis (popUni f) N dim X deg ds nC) N L
          (fun j α => mixedPartial (fun k => ds.getD k 0) (fun x : Fin dim → ℝ => ∏ k, f.cls.fn (α k) (x k)) (fun k => X j k)) := by
  obtain ⟨numC, hC⟩ : ∃ numC : ℕ, ∀ k < dim, nC k ≤ numC := by
    refine ⟨∑ k ∈ Finset.range dim, (nC k).toNat, fun k hk => ?_⟩
    have h1 : (nC k).toNat ≤ ∑ k ∈ Finset.range dim, (nC k).toNat :=
      Finset.single_le_sum (f := fun k => (nC k).toNat) (fun _ _ => Nat.zero_le _) (Finset.mem_range.2 hk)
    have h2 := Int.self_le_toNat (nC k)
    omega
  have hz : (NFamily.dom f).2 ≠ (NFamily.dom f).1 := by
    cases f
    · norm_num [NFamily.dom]
    · norm_num [NFamily.dom]
    · have := Real.pi_pos
      simp only [NFamily.dom]
      exact (by linarith : -Real.pi < Real.pi).ne'
  obtain ⟨bf, L, h1, h2, h3⟩ := C23_mixed_partials_py_partial f (numC := numC) hdim (Nat.le_add_left 1 deg) (fun _ => (NFamily.dom f).1)
    (fun _ => (NFamily.dom f).2) (popTable nC) false
  refine ⟨L, h2.nodup, h2.sorted, fun α => ?_, fun X ds hds => ?_⟩
  · rw [h2.mem, Admissible, Nat.lt_succ_iff]
    refine and_congr_right fun _ => ?_
    simp only [Bool.false_eq_true, false_or, List.mem_map, List.mem_range, not_exists, not_and, popTable]
    refine exists_congr fun k => ⟨fun h => ?_, fun h g hg => ?_⟩
    · by_contra hlt
      have := hC k k.2
      refine h (α k) (by omega) ?_
      rw [if_pos (by omega)]
    · split <;> omega
  · have e := C115_multi (uni := popUni f) (hint := NFamily.pyHint f) (fun deg N x d => by
      cases f
      · exact C115_poly .cp deg N x d
      · exact C115_poly .lep deg N x d
      · exact C115_fourier deg N x d) hz X deg ds hC (N := N)
    rw [← nInit_eq, h1] at e
    have h4 := h3 N X ds hds
    rw [e]
    have ht : ∀ α : Fin dim → ℕ, f.cls.tensor (fun _ => (NFamily.dom f).1) (fun _ => (NFamily.dom f).2) α = fun x => ∏ k, f.cls.fn (α k) (x k) := by
      intro α
      funext x
      refine Finset.prod_congr rfl fun k _ => ?_
      rw [UniClass.basis]
      congr 1
      have hz' := sub_ne_zero.2 hz
      cases f <;> simp only [NFamily.dom] at hz' ⊢ <;> simp only [NFamily.cls, UniClass.arg, PolyFamily.arg, toBasis] <;> field_simp <;> ring
    simp only [ht] at h4
    exact h4

/-! ## Cases -/

/-- The second derivative of the third Chebyshev polynomial `4 t ^ 3 - 3 t`, in the column of degree three. -/
example : popHint .cp 3 1 (fun _ => (1 / 2 : ℝ)) 2 = libHint .cp 4 1 (fun _ => 1 / 2) 2 := C115_poly .cp 3 1 _ 2

example : ∃ A : Mat ℝ, popHint .cp 3 1 (fun _ => (1 / 2 : ℝ)) 2 = .ok A ∧
    A.at_ 0 3 = iteratedDeriv 2 (fun t => (classical ℝ .cp 3).eval t) (1 / 2) := by
  obtain ⟨A, h1, _, _, h2⟩ := C115_poly_values .cp 3 1 (fun _ => (1 / 2 : ℝ)) 2
  exact ⟨A, h1, h2 0 one_pos 3 (by simp)⟩

/-- Two variables, degree two, the constants removed in both: all products but the constant, and the class with the table `[[0], [0]]`. -/
example (X : ℕ → ℕ → ℝ) : Pop.nBasis Pop.CP 4 2 X 2 [1, 0] (fun _ => 1) =
    (PyBF.NBasisFunc.init PyBF.CP.hint (fun _ => -1) (fun _ => 1) (popTable fun _ => 1) 2 1 3 (-1) 1).bind fun bf =>
      bf.H 2 4 (fun k j => X j k) [1, 0] false :=
  C115_multi (fun deg N x d => C115_poly .cp deg N x d) (by norm_num) X 2 [1, 0] (fun _ _ => by norm_num)

example : ∃ L : List (Fin 2 → ℕ), L.Nodup ∧ ![0, 0] ∉ L ∧ ![1, 1] ∈ L ∧ ![2, 1] ∉ L ∧ ∀ X : ℕ → ℕ → ℝ,
    ReturnsArray (Pop.nBasis (popUni .fs) 4 2 X 2 [1, 0] (fun _ => 1)) 4 L
      (fun j α => mixedPartial (fun k => [1, 0].getD k 0) (fun x : Fin 2 → ℝ => ∏ k, fourier (α k) (x k)) (fun k => X j k)) := by
  obtain ⟨L, h1, _, h2, h3⟩ := C115_multi_values .fs (N := 4) (dim := 2) (by norm_num) 2 (fun _ => 1)
  refine ⟨L, h1, ?_, ?_, ?_, fun X => h3 X [1, 0] le_rfl⟩ <;> rw [h2] <;> simp [Fin.exists_fin_two]

end Verif.Props
