import Verif.Lemmas.BasisPy
import Verif.Lemmas.UniCC
import Verif.Lemmas.PolyDegree
import Mathlib.Tactic.FinCases

/-!
# Property theorems: univariate classes of the Python backend (C03–C06, C11, C15, C54, C55)

`uniInit cls x0 xf nC m` is the object `BF_Py.<cls>(x0, xf, nC, m)`; `.H n xs d full` is the call `obj.H(x, d, full)` with the
one-dimensional array of the points `xs 0, …, xs (n-1)`. `ReturnsArray r n cols V` says: no exception, an `n × cols.length`
array with entries `V j cols[i]`.
-/

namespace Verif.Props

open Verif.Mem Verif.Py Verif.Np Verif.Model.PyBF Verif.Spec

/-! ## C03 -/

/-- **C03.** Python backend: entry `(j,k)` of `H(x, d, full=True)` of a polynomial class is the `d`-th derivative at `x_j` of
the `k`-th classical polynomial of the mapped variable. -/
theorem C03_poly_derivative_py (f : PolyFamily) (x0 xf : ℝ) (_hx : x0 ≠ xf) (nC : List ℤ) (m : ℕ) (hm : 1 ≤ m)
    (d n : ℕ) (xs : ℕ → ℝ) :
    ReturnsArray ((polyInit f x0 xf nC m).H n xs d true) n (List.range m)
      (fun j k => iteratedDeriv d (fun x => (classical ℝ f k).eval (f.arg x0 xf x)) (xs j)) := by
  have h := uniPy_H (.poly f) x0 xf nC hm (d := d) trivial true (Or.inl rfl) n xs
  refine ReturnsArray.congr h fun j _ k _ => ?_
  exact (uniPy_iteratedDeriv (.poly f) x0 xf nC m d k (xs j) (by intro _ w b h; cases h)).symm

example : ReturnsArray ((polyInit .hopPhy (1 : ℝ) 4 [] 7).H 4 (fun j => (j : ℝ) + 1) 3 true) 4
    (List.range 7) (fun j k => iteratedDeriv 3
      (fun x => (classical ℝ .hopPhy k).eval (PolyFamily.hopPhy.arg 1 4 x)) ((j : ℝ) + 1)) :=
  C03_poly_derivative_py .hopPhy 1 4 (by norm_num) [] 7 (by norm_num) 3 4 _

/-! ## C04 -/

theorem polyPy_H {K : Type} [Field K] [CharZero K] (f : PolyFamily) (x0 xf : K) (nC : List ℤ) {m : ℕ} (hm : 1 ≤ m)
    (d : ℕ) (full : Bool) (hC : full = true ∨ ∀ r ∈ nC, 0 ≤ r ∧ r < (m : ℤ)) (n : ℕ) (xs : ℕ → K) :
    letI : Inhabited K := ⟨0⟩
    ReturnsArray ((polyInit f x0 xf nC m).H n xs d full) n (outColumns m nC full)
      (fun j k => polyD K f d ((xs j - (polyInit f x0 xf nC m).x0) * (polyInit f x0 xf nC m).c +
        (polyInit f x0 xf nC m).z0) k * (polyInit f x0 xf nC m).c ^ d) := by
  letI : Inhabited K := ⟨0⟩
  have hmm : (polyInit f x0 xf nC m).m = m := by cases f <;> rfl
  have hnn : (polyInit f x0 xf nC m).nC = nC := by cases f <;> rfl
  obtain ⟨B, hB, hB'⟩ := polyPyHint_spec (K := K) f (n := n) hm (fun j =>
    (xs j - (polyInit f x0 xf nC m).x0) * (polyInit f x0 xf nC m).c + (polyInit f x0 xf nC m).z0) d
  have h := pyH_spec (polyInit f x0 xf nC m) (n := n) (d := d) (xs := xs) (E := polyD K f d) (B := B)
    (by rw [hmm]; cases f <;> exact hB) (by rw [hmm]; exact hB') full (by rw [hmm, hnn]; exact hC)
  rw [hmm, hnn] at h
  exact h

/-- **C04**, polynomial classes, over every field of characteristic 0: the compiled backend's matrix and the Python
backend's array have the same shape and the same entries, for every order, point array, flag and valid list of removed
functions. -/
theorem C04_backends_agree_poly {K : Type} [Field K] [CharZero K] (f : PolyFamily) (x0 xf : K) (nC : List ℤ) (m : ℕ)
    (hm : 1 ≤ m) (full : Bool) (hC : full = true ∨ ValidRemoval m nC) (d n : ℕ) (xs : ℕ → K) :
    letI : Inhabited K := ⟨0⟩
    ∃ (cols : List ℕ) (V : ℕ → ℕ → K),
      ReturnsMatrix ((Model.CC.polyNew f x0 xf nC m).H (Buf.ofFn n xs) n d full) n cols V ∧
      ReturnsArray ((polyInit f x0 xf nC m).H n xs d full) n cols V := by
  have hmm : (Model.CC.polyNew f x0 xf nC m).m = m := by cases f <;> rfl
  have hnn : (Model.CC.polyNew f x0 xf nC m).nC = nC := by cases f <;> rfl
  have h := H_spec (Model.CC.polyNew f x0 xf nC m) (d := d) (E := polyD K f d)
    (by rw [hmm]; exact polyHint_spec_new f x0 xf nC hm d) (x := Buf.ofFn n xs) (n := n) (xs := xs)
    (fun j hj => Buf.ofFn_read hj) full (by rw [hmm, hnn]; exact hC)
  have h1 := returns_of_runs h
  rw [hmm, hnn] at h1
  have h2 := polyPy_H f x0 xf nC hm d full (hC.imp id fun h => h.2) n xs
  refine ⟨_, _, h1, ReturnsArray.congr h2 fun j _ k _ => ?_⟩
  have e1 : (polyInit f x0 xf nC m).x0 = (Model.CC.polyNew f x0 xf nC m).x0 := by cases f <;> rfl
  have e2 : (polyInit f x0 xf nC m).c = (Model.CC.polyNew f x0 xf nC m).c := by cases f <;> rfl
  have e3 : (polyInit f x0 xf nC m).z0 = (Model.CC.polyNew f x0 xf nC m).z0 := by cases f <;> rfl
  rw [e1, e2, e3]

/-- **C04**, Fourier series. -/
theorem C04_backends_agree_fs (x0 xf : ℝ) (nC : List ℤ) (m : ℕ) (hm : 1 ≤ m) (full : Bool)
    (hC : full = true ∨ ValidRemoval m nC) (d n : ℕ) (xs : ℕ → ℝ) :
    ∃ (cols : List ℕ) (V : ℕ → ℕ → ℝ),
      ReturnsMatrix ((Model.CC.FS.new x0 xf nC m).H (Buf.ofFn n xs) n d full) n cols V ∧
      ReturnsArray ((FS.init x0 xf nC m).H n xs d full) n cols V :=
  ⟨_, _, uni_H .fs x0 xf nC hm (d := d) trivial full hC n xs,
    uniPy_H .fs x0 xf nC hm (d := d) trivial full (hC.imp id fun h => h.2) n xs⟩

/-- Two results with the same description are entrywise equal; so C04 is equality of the returned matrices. -/
theorem C04_agree_means_equal {K : Type} {r : Except Fault (ℕ × ℕ × Buf K)} {s : Except Err (Mat K)} {n : ℕ}
    {cols : List ℕ} {V : ℕ → ℕ → K} (h1 : ReturnsMatrix r n cols V) (h2 : ReturnsArray s n cols V) :
    ∃ F A, r = .ok (n, cols.length, F) ∧ s = .ok A ∧ A.rows = n ∧ A.cols = cols.length ∧
      ∀ j < n, ∀ i < cols.length, F.cell (cols.length * j + i) = some (A.at_ j i) := by
  obtain ⟨F, hF, _, hF'⟩ := h1
  obtain ⟨A, hA, hr, hc, hA'⟩ := h2
  exact ⟨F, A, hF, hA, hr, hc, fun j hj i hi => by rw [hF' j hj i hi, hA' j hj i hi]⟩

example : ∃ (cols : List ℕ) (V : ℕ → ℕ → ℝ),
    ReturnsMatrix ((Model.CC.FS.new 0 2 [4, 1] 6).H (Buf.ofFn 3 (fun j => (j : ℝ))) 3 7 false) 3 cols V ∧
      ReturnsArray ((FS.init 0 2 [4, 1] 6).H 3 (fun j => (j : ℝ)) 7 false) 3 cols V :=
  C04_backends_agree_fs 0 2 [4, 1] 6 (by norm_num) false (Or.inr (by constructor <;> simp)) 7 3 _

/-! ## C05, C06 (Python backend) -/

/-- **C05** (Python backend). -/
theorem C05_vanish_py {K : Type} [Field K] [CharZero K] (f : PolyFamily) (x0 xf : K) (nC : List ℤ)
    (m : ℕ) (hm : 1 ≤ m) (full : Bool) (hC : full = true ∨ ValidRemoval m nC) (d n : ℕ) (xs : ℕ → K) :
    letI : Inhabited K := ⟨0⟩
    ∃ V : ℕ → ℕ → K,
      ReturnsArray ((polyInit f x0 xf nC m).H n xs d full) n (outColumns m nC full) V ∧
      ∀ j k, k < d → V j k = 0 :=
  ⟨_, polyPy_H f x0 xf nC hm d full (hC.imp id fun h => h.2) n xs,
    fun j k hk => by rw [polyD_eq_zero f hk]; simp⟩

/-- **C06** (Python backend). -/
theorem C06_fourier_py (x0 xf : ℝ) (_hx : x0 ≠ xf) (nC : List ℤ) (m : ℕ) (hm : 1 ≤ m) (d n : ℕ) (xs : ℕ → ℝ) :
    ReturnsArray ((FS.init x0 xf nC m).H n xs d true) n (List.range m)
      (fun j k => iteratedDeriv d (fun x => fourier k (toBasis x0 xf (-Real.pi) Real.pi x)) (xs j)) := by
  have h := uniPy_H .fs x0 xf nC hm (d := d) trivial true (Or.inl rfl) n xs
  refine ReturnsArray.congr h fun j _ k _ => ?_
  exact (uniPy_iteratedDeriv .fs x0 xf nC m d k (xs j) (by intro _ w b h; cases h)).symm

example : ReturnsArray ((FS.init 0 2 [0] 6).H 3 (fun j => (j : ℝ)) 7 true) 3
    (List.range 6) (fun j k => iteratedDeriv 7
      (fun x => fourier k (toBasis 0 2 (-Real.pi) Real.pi x)) (j : ℝ)) :=
  C06_fourier_py 0 2 (by norm_num) [0] 6 (by norm_num) 7 3 _

/-! ## C11 (Python backend) -/

/-- The claim of C11 for the Python backend and one order. -/
def ReluExactPy (d : ℕ) : Prop :=
  ∀ (x0 xf : ℝ), x0 ≠ xf → ∀ (nC : List ℤ) (m : ℕ), 1 ≤ m → ∀ (w b : ℕ → ℝ) (n : ℕ) (xs : ℕ → ℝ),
    ∃ V : ℕ → ℕ → ℝ, ReturnsArray ((elmInit .relu w b x0 xf nC m).H n xs d true) n (List.range m) V ∧
    ∀ j k, (d ≠ 0 → w k * toBasis x0 xf 0 1 (xs j) + b k ≠ 0) →
      V j k = iteratedDeriv d (fun x => relu (w k * toBasis x0 xf 0 1 x + b k)) (xs j)

/-- **C11, Python backend, orders 0 and 1** (the claim is false for every other order: `C11_relu_py_fails`). -/
theorem C11_relu_py_partial {d : ℕ} (hd : d ≤ 1) : ReluExactPy d := by
  intro x0 xf _ nC m hm w b n xs
  refine ⟨_, uniPy_H (.elm .relu w b) x0 xf nC hm (d := d) hd true (Or.inl rfl) n xs, ?_⟩
  intro j k hne
  refine (uniPy_iteratedDeriv (.elm .relu w b) x0 xf nC m d k (xs j) ?_).symm
  intro h0 w' b' he
  cases he
  exact hne h0

/-- For orders ≥ 2 the Python class returns an `m × n` array of zeros instead of an `n × m` one. -/
theorem C11_relu_py_shape (w b : ℕ → ℝ) (x0 xf : ℝ) (nC : List ℤ) (m n : ℕ) (xs : ℕ → ℝ) {d : ℕ} (hd : 2 ≤ d) :
    ReturnsArray ((elmInit .relu w b x0 xf nC m).H n xs d true) m (List.range n) (fun _ _ => 0) := by
  obtain ⟨d, rfl⟩ := Nat.exists_eq_add_of_le hd
  have h0 : 2 + d ≠ 0 := by omega
  have h1 : 2 + d ≠ 1 := by omega
  refine ⟨⟨m, n, fun _ _ => 0⟩, ?_, rfl, by simp, fun _ _ _ _ => rfl⟩
  simp [BasisFunc.H, elmInit, BasisFunc.init, elmHint, ELMReLU.hint, h0, h1, Mat.map, bind, Except.bind]

/-- **C11 is false in the Python backend for every order ≥ 2.** -/
theorem C11_relu_py_fails {d : ℕ} (hd : 2 ≤ d) : ¬ ReluExactPy d := by
  intro h
  obtain ⟨V, ⟨A, hA, hr, _⟩, _⟩ := h 0 1 (by norm_num) [] 2 (by norm_num) (fun _ => 1) (fun _ => 1) 1 (fun _ => 0)
  obtain ⟨B, hB, hr', _⟩ := C11_relu_py_shape (fun _ => 1) (fun _ => 1) 0 1 [] 2 1 (fun _ => 0) hd
  rw [hA] at hB
  cases hB
  omega

/-! ## C15 (Python backend) -/

/-- **C15** (Python backend). With `full=False` the result consists of the columns of the `full=True` result whose index is
not in `nC`, in increasing order, unchanged; there are `m - len(nC)` of them. Excluded: `ELMReLU` from order 2 on
(`C15_columns_py_relu_fails`). -/
theorem C15_columns_py_partial (cls : UniClass) (x0 xf : ℝ) (nC : List ℤ) (m : ℕ) (hm : 1 ≤ m)
    (hC : ValidRemoval m nC) (d : ℕ) (hd : ∀ w b, cls = .elm .relu w b → d ≤ 1) (n : ℕ) (xs : ℕ → ℝ) :
    ∃ V : ℕ → ℕ → ℝ,
      ReturnsArray ((uniInit cls x0 xf nC m).H n xs d true) n (List.range m) V ∧
      ReturnsArray ((uniInit cls x0 xf nC m).H n xs d false) n (keptColumns m nC) V ∧
      (keptColumns m nC).length = m - nC.length ∧ (keptColumns m nC).Pairwise (· < ·) ∧
      ∀ k, k ∈ keptColumns m nC ↔ k < m ∧ (k : ℤ) ∉ nC := by
  have hcode : UniClass.shapeOk cls d := by
    rcases cls with f | _ | ⟨a, w, b⟩
    · trivial
    · trivial
    · cases a <;> first | trivial | exact hd _ _ rfl
  refine ⟨_, uniPy_H cls x0 xf nC hm hcode true (Or.inl rfl) n xs,
    uniPy_H cls x0 xf nC hm hcode false (Or.inr hC.2) n xs, ?_, keptColumns_sorted m nC,
    fun k => mem_keptColumns⟩
  have := (keptColumns_length_iff m nC).mpr hC
  omega

/-- Unlike the compiled backend, the Python backend also handles repeated indices, and rejects too large ones. -/
theorem C15_columns_py_bad_indices (cls : UniClass) (x0 xf : ℝ) (nC : List ℤ) (m : ℕ) (hm : 1 ≤ m) (d : ℕ)
    (hd : ∀ w b, cls = .elm .relu w b → d ≤ 1) (n : ℕ) (xs : ℕ → ℝ) (hpos : ∀ r ∈ nC, 0 ≤ r) :
    ((∀ r ∈ nC, r < (m : ℤ)) → ∃ V, ReturnsArray ((uniInit cls x0 xf nC m).H n xs d false) n (keptColumns m nC) V) ∧
    ((∃ r ∈ nC, (m : ℤ) ≤ r) → (uniInit cls x0 xf nC m).H n xs d false = .error .indexError) := by
  have hcode : UniClass.shapeOk cls d := by
    rcases cls with f | _ | ⟨a, w, b⟩
    · trivial
    · trivial
    · cases a <;> first | trivial | exact hd _ _ rfl
  refine ⟨fun h => ⟨_, uniPy_H cls x0 xf nC hm hcode false (Or.inr fun r hr => ⟨hpos r hr, h r hr⟩) n xs⟩, ?_⟩
  rintro ⟨r, hr, hge⟩
  obtain ⟨B, hB, hB'⟩ := uniPy_hint cls x0 xf nC (n := n) hm hcode
    (fun j => (xs j - (uniInit cls x0 xf nC m).x0) * (uniInit cls x0 xf nC m).c + (uniInit cls x0 xf nC m).z0)
  unfold BasisFunc.H
  simp only [uniPy_m, uniPy_nC, hB, bind, Except.bind]
  have hl : nC.length > 0 := List.length_pos_of_mem hr
  simp only [Bool.not_false, Bool.true_and, hl, decide_true, if_true]
  refine delete_error hr ?_
  simp only [Mat.map, hB'.cols]
  exact hge

/-- C15 fails for the Python `ELMReLU` from order 2 on: a valid list of removed neurons is an `IndexError` when there are
fewer points than neurons. -/
theorem C15_columns_py_relu_fails {d : ℕ} (hd : 2 ≤ d) :
    ValidRemoval 5 [3] ∧
    (uniInit (.elm .relu (fun _ => 1) (fun _ => 1)) 0 1 [3] 5).H 1 (fun _ => 0) d false = .error .indexError := by
  obtain ⟨d, rfl⟩ := Nat.exists_eq_add_of_le hd
  have h0 : 2 + d ≠ 0 := by omega
  have h1 : 2 + d ≠ 1 := by omega
  refine ⟨by constructor <;> simp, ?_⟩
  simp [BasisFunc.H, uniInit, elmInit, BasisFunc.init, elmHint, ELMReLU.hint, h0, h1, Mat.map, bind, Except.bind,
    Mat.delete]

/-! ## C54 -/

/-- **C54.** `egrad(g, j)` of a function acting entry by entry (`g(args)[i] = φ(args[0][i], args[1][i], …)`) is the
entrywise partial derivative in argument `j`, and nesting it `n` times gives the `n`-th one. -/
theorem C54_egrad {ι : Type} (g : (ℕ → ι → ℝ) → ι → ℝ) (φ : (ℕ → ℝ) → ℝ)
    (hg : ∀ args i, g args i = φ (fun a => args a i)) (j n : ℕ) (args : ℕ → ι → ℝ) (i : ι) :
    ((fun h => Model.Jax.egrad h j)^[n] g) args i =
      iteratedDeriv n (fun t => φ (Function.update (fun a => args a i) j t)) (args j i) := by
  induction n generalizing g φ with
  | zero => simp [hg]
  | succ n ih =>
    rw [Function.iterate_succ_apply, iteratedDeriv_succ']
    rw [ih (Model.Jax.egrad g j) (fun v => deriv (fun t => φ (Function.update v j t)) (v j))]
    · congr 1
      ext t
      simp
    · intro args i
      simp only [Model.Jax.egrad, Model.Jax.jvp, hg]
      have : (fun s : ℝ => φ (fun a => args a i + s * (if a = j then 1 else 0))) =
          fun s => (fun t => φ (Function.update (fun a => args a i) j t)) (args j i + s) := by
        ext s
        congr 1
        ext a
        by_cases ha : a = j
        · subst ha; simp
        · simp [ha]
      rw [this, deriv_comp_const_add (f := fun t => φ (Function.update (fun a => args a i) j t))]
      simp

/-- Concrete case: `g(x, y) = sin(x) * y`, twice in `x`: the result is the array `-sin(x_i) y_i`. -/
example (args : ℕ → Fin 3 → ℝ) (i : Fin 3) :
    ((fun h => Model.Jax.egrad h 0)^[2] (fun (a : ℕ → Fin 3 → ℝ) i => Real.sin (a 0 i) * a 1 i)) args i =
      -Real.sin (args 0 i) * args 1 i := by
  rw [C54_egrad _ (fun v => Real.sin (v 0) * v 1) (fun _ _ => rfl)]
  simp [iteratedDeriv_succ]

/-! ## C55 -/

/-- **C55.** Python `ELMSigmoid`, `ELMTanh`, `ELMSin`, `ELMSwish`: for every order, `H(x, d)` holds the `d`-th derivatives of
`act (w_k z + b_k)`, in the right shape. -/
theorem C55_elm_py (a : Activation) (ha : a ≠ .relu) (x0 xf : ℝ) (_hx : x0 ≠ xf) (nC : List ℤ) (m : ℕ) (hm : 1 ≤ m)
    (w b : ℕ → ℝ) (d n : ℕ) (xs : ℕ → ℝ) :
    ReturnsArray ((elmInit a w b x0 xf nC m).H n xs d true) n (List.range m)
      (fun j k => iteratedDeriv d (fun x => act a (w k * toBasis x0 xf 0 1 x + b k)) (xs j)) := by
  have hs : UniClass.shapeOk (.elm a w b) d := by
    cases a <;> first | trivial | exact absurd rfl ha
  have h := uniPy_H (.elm a w b) x0 xf nC hm (d := d) hs true (Or.inl rfl) n xs
  refine ReturnsArray.congr h fun j _ k _ => ?_
  refine (uniPy_iteratedDeriv (.elm a w b) x0 xf nC m d k (xs j) ?_).symm
  intro _ w' b' he
  cases he
  exact absurd rfl ha

example : ReturnsArray ((elmInit .swish (fun k => (k : ℝ) - 1) (fun k => (k : ℝ)) 0 2 [1] 3).H 4 (fun j => (j : ℝ)) 12 true)
    4 (List.range 3)
    (fun j k => iteratedDeriv 12 (fun x => act .swish (((k : ℝ) - 1) * toBasis 0 2 0 1 x + k)) (j : ℝ)) :=
  C55_elm_py .swish (by simp) 0 2 (by norm_num) [1] 3 (by norm_num) _ _ 12 4 _

end Verif.Props
