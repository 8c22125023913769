import Verif.Lemmas.UniCC
import Verif.Lemmas.PolyDegree
import Verif.Lemmas.Hermite
import Verif.Model.Utfc
import Mathlib.Analysis.SpecialFunctions.Trigonometric.Chebyshev.Basic

/-!
# Property theorems: univariate classes of the compiled backend (C01, C02, C05–C11, C15–C17)

`uniNew cls x0 xf nC m` is the object `BF.<cls>(x0, xf, nC, m)`; `.H (Buf.ofFn n xs) n d full` is the call
`obj.H(x, d, full)` with the points `xs 0, …, xs (n-1)`. `ReturnsMatrix r n cols V` says: the call ends without memory
fault and returns the `n × cols.length` matrix with entries `V j cols[i]`, every cell written.
-/

namespace Verif.Props

open Verif.Mem Verif.Model.CC Verif.Spec

/-! ## C01 -/

/-- **C01.** Entry `(j,k)` of `H(x, d, full=True)` of a polynomial class is the `d`-th derivative with respect to `x`
at `x_j` of the `k`-th classical polynomial of the mapped variable (which is column `k` for `d = 0`, see C02). -/
theorem C01_poly_derivative (f : PolyFamily) (x0 xf : ℝ) (_hx : x0 ≠ xf) (nC : List ℤ) (m : ℕ) (hm : 1 ≤ m)
    (d n : ℕ) (xs : ℕ → ℝ) :
    ReturnsMatrix ((polyNew f x0 xf nC m).H (Buf.ofFn n xs) n d true) n (List.range m)
      (fun j k => iteratedDeriv d (fun x => (classical ℝ f k).eval (f.arg x0 xf x)) (xs j)) := by
  have h := uni_H (.poly f) x0 xf nC hm (d := d) trivial true (Or.inl rfl) n xs
  refine ReturnsMatrix.congr h fun j _ k _ => ?_
  exact (uni_iteratedDeriv (.poly f) x0 xf nC m (d := d) trivial k (xs j) (by intro _ w b h; cases h)).symm

/-- C01, said without naming the polynomials: one function `φ k` per column, whose `d`-th derivatives are the columns of
`H(x, d)`. -/
theorem C01_poly_columns (f : PolyFamily) (x0 xf : ℝ) (hx : x0 ≠ xf) (nC : List ℤ) (m : ℕ) (hm : 1 ≤ m) :
    ∃ φ : ℕ → ℝ → ℝ, ∀ (d n : ℕ) (xs : ℕ → ℝ),
      ReturnsMatrix ((polyNew f x0 xf nC m).H (Buf.ofFn n xs) n d true) n (List.range m)
        (fun j k => iteratedDeriv d (φ k) (xs j)) :=
  ⟨fun k x => (classical ℝ f k).eval (f.arg x0 xf x),
    fun d n xs => C01_poly_derivative f x0 xf hx nC m hm d n xs⟩

/-- Concrete case: Legendre, 7 functions on `[1, 4]`, third derivative at the points 1, 2, 3, 4. -/
example : ReturnsMatrix ((polyNew .lep (1 : ℝ) 4 [] 7).H (Buf.ofFn 4 (fun j => (j : ℝ) + 1)) 4 3 true) 4
    (List.range 7) (fun j k => iteratedDeriv 3
      (fun x => (classical ℝ .lep k).eval (PolyFamily.lep.arg 1 4 x)) ((j : ℝ) + 1)) :=
  C01_poly_derivative .lep 1 4 (by norm_num) [] 7 (by norm_num) 3 4 _

/-! ## C02 -/

/-- **C02.** Column `k` of the full order-0 matrix is the `k`-th classical polynomial at the mapped point, over every
field of characteristic 0. -/
theorem C02_classical {K : Type} [Field K] [CharZero K] (f : PolyFamily) (x0 xf : K) (_hx : x0 ≠ xf)
    (nC : List ℤ) (m : ℕ) (hm : 1 ≤ m) (n : ℕ) (xs : ℕ → K) :
    ReturnsMatrix ((polyNew f x0 xf nC m).H (Buf.ofFn n xs) n 0 true) n (List.range m)
      (fun j k => (classical K f k).eval (f.arg x0 xf (xs j))) := by
  have hmm : (polyNew f x0 xf nC m).m = m := by cases f <;> rfl
  have h := H_spec (polyNew f x0 xf nC m) (d := 0) (E := polyD K f 0)
    (by rw [hmm]; exact polyHint_spec_new f x0 xf nC hm 0) (x := Buf.ofFn n xs) (n := n) (xs := xs)
    (fun j hj => Buf.ofFn_read hj) true (Or.inl rfl)
  have h2 := returns_of_runs h
  simp only [hmm] at h2
  refine ReturnsMatrix.congr h2 fun j _ k _ => ?_
  have harg : (xs j - (polyNew f x0 xf nC m).x0) * (polyNew f x0 xf nC m).c + (polyNew f x0 xf nC m).z0 =
      f.arg x0 xf (xs j) := by
    cases f <;> simp [polyNew, CP.new, LeP.new, LaP.new, HoPpro.new, HoPphy.new, BasisFunc.new,
      PolyFamily.arg, toBasis] <;> ring
  simp [polyD, harg]

/-- The classical polynomials of the specification are the classical ones: `T_k(cos θ) = cos kθ`, Rodrigues' formulas for
Legendre (definition) and physicists' Hermite, the closed sum for Laguerre (definition), Mathlib's `hermite`. -/
theorem C02_spec_sanity (k : ℕ) (x : ℝ) :
    (classical ℝ .cp k).eval (Real.cos x) = Real.cos (k * x) ∧
    (classical ℝ .hopPhy k).eval x =
      (-1) ^ k * Real.exp (x ^ 2) * iteratedDeriv k (fun x : ℝ => Real.exp (-x ^ 2)) x :=
  ⟨by simpa [classical] using Polynomial.Chebyshev.T_real_cos x k, physHermite_rodrigues k x⟩

example : ReturnsMatrix ((polyNew .cp (0 : ℚ) 2 [0, 1] 5).H (Buf.ofFn 3 (fun j => (j : ℚ) / 2)) 3 0 true) 3
    (List.range 5) (fun j k => (classical ℚ .cp k).eval (PolyFamily.cp.arg 0 2 ((j : ℚ) / 2))) :=
  C02_classical .cp 0 2 (by norm_num) [0, 1] 5 (by norm_num) 3 _

/-! ## C05 (compiled backend) -/

/-- **C05** (compiled backend). Every column `k < d` of `H(x, d)` is zero, over every field of characteristic 0. -/
theorem C05_vanish_cc {K : Type} [Field K] [CharZero K] (f : PolyFamily) (x0 xf : K) (nC : List ℤ)
    (m : ℕ) (hm : 1 ≤ m) (full : Bool) (hC : full = true ∨ ValidRemoval m nC) (d n : ℕ) (xs : ℕ → K) :
    ∃ V : ℕ → ℕ → K,
      ReturnsMatrix ((polyNew f x0 xf nC m).H (Buf.ofFn n xs) n d full) n (outColumns m nC full) V ∧
      ∀ j k, k < d → V j k = 0 := by
  have hmm : (polyNew f x0 xf nC m).m = m := by cases f <;> rfl
  have hnn : (polyNew f x0 xf nC m).nC = nC := by cases f <;> rfl
  have h := H_spec (polyNew f x0 xf nC m) (d := d) (E := polyD K f d)
    (by rw [hmm]; exact polyHint_spec_new f x0 xf nC hm d) (x := Buf.ofFn n xs) (n := n) (xs := xs)
    (fun j hj => Buf.ofFn_read hj) full (by rw [hmm, hnn]; exact hC)
  have h2 := returns_of_runs h
  rw [hmm, hnn] at h2
  exact ⟨_, h2, fun j k hk => by rw [polyD_eq_zero f hk]; simp⟩

example : ∃ V : ℕ → ℕ → ℚ,
    ReturnsMatrix ((polyNew .lap (0 : ℚ) 2 [1, 3] 5).H (Buf.ofFn 3 (fun j => (j : ℚ))) 3 4 false) 3 [0, 2, 4] V ∧
      ∀ j k, k < 4 → V j k = 0 :=
  C05_vanish_cc .lap 0 2 [1, 3] 5 (by norm_num) false (Or.inr (by constructor <;> simp)) 4 3 _

/-! ## C06 (compiled backend) -/

/-- **C06** (compiled backend). `FS`: column 0 is 1, column `2g-1` is `sin (g z)`, column `2g` is `cos (g z)`
(`Spec.fourier`), and `H(x, d)` holds the `d`-th derivatives. -/
theorem C06_fourier_cc (x0 xf : ℝ) (_hx : x0 ≠ xf) (nC : List ℤ) (m : ℕ) (hm : 1 ≤ m) (d n : ℕ) (xs : ℕ → ℝ) :
    ReturnsMatrix ((FS.new x0 xf nC m).H (Buf.ofFn n xs) n d true) n (List.range m)
      (fun j k => iteratedDeriv d (fun x => fourier k (toBasis x0 xf (-Real.pi) Real.pi x)) (xs j)) := by
  have h := uni_H .fs x0 xf nC hm (d := d) trivial true (Or.inl rfl) n xs
  refine ReturnsMatrix.congr h fun j _ k _ => ?_
  exact (uni_iteratedDeriv .fs x0 xf nC m (d := d) trivial k (xs j) (by intro _ w b h; cases h)).symm

theorem C06_fourier_names (g : ℕ) (hg : 1 ≤ g) (z : ℝ) :
    fourier 0 z = 1 ∧ fourier (2 * g - 1) z = Real.sin (g * z) ∧ fourier (2 * g) z = Real.cos (g * z) := by
  have h1 : ¬ (2 * g - 1 = 0) := by omega
  have h2 : (2 * g - 1) % 2 = 1 := by omega
  have h3 : (2 * g - 1 + 1) / 2 = g := by omega
  have h4 : ¬ (2 * g = 0) := by omega
  refine ⟨by simp [fourier], ?_, ?_⟩
  · simp only [fourier, h1, h2, h3, if_true, if_false]
  · simp [fourier, h4]

example : ReturnsMatrix ((FS.new 0 2 [0] 6).H (Buf.ofFn 3 (fun j => (j : ℝ))) 3 7 true) 3
    (List.range 6) (fun j k => iteratedDeriv 7
      (fun x => fourier k (toBasis 0 2 (-Real.pi) Real.pi x)) (j : ℝ)) :=
  C06_fourier_cc 0 2 (by norm_num) [0] 6 (by norm_num) 7 3 _

/-! ## C07–C11: ELM classes of the compiled backend -/

/-- The claim of C07–C10 for an activation and an order: `H(x, d)` holds the `d`-th derivatives of `act (w_k z + b_k)`. -/
def ElmExact (a : Activation) (d : ℕ) : Prop :=
  ∀ (x0 xf : ℝ), x0 ≠ xf → ∀ (nC : List ℤ) (m : ℕ), 1 ≤ m → ∀ (w b : ℕ → ℝ) (n : ℕ) (xs : ℕ → ℝ),
    ReturnsMatrix ((elmNew a (Buf.ofFn m w) (Buf.ofFn m b) x0 xf nC m).H (Buf.ofFn n xs) n d true) n
      (List.range m)
      (fun j k => iteratedDeriv d (fun x => act a (w k * toBasis x0 xf 0 1 x + b k)) (xs j))

theorem elmExact_of_orderOk (a : Activation) (ha : a ≠ .relu) {d : ℕ} (hd : Verif.orderOk a d) :
    ElmExact a d := by
  intro x0 xf hx nC m hm w b n xs
  have hcode : UniClass.hasCode (.elm a w b) d := by cases a <;> first | exact trivial | exact hd
  have h := uni_H (.elm a w b) x0 xf nC hm (d := d) hcode true (Or.inl rfl) n xs
  refine ReturnsMatrix.congr h fun j _ k _ => ?_
  refine (uni_iteratedDeriv (.elm a w b) x0 xf nC m (d := d) hd k (xs j) ?_).symm
  intro _ w' b' he
  cases he
  exact absurd rfl ha

/-- **C07, orders up to 8** (the full claim, "for every order", is false: `C07_sigmoid_fails`). -/
theorem C07_sigmoid_partial {d : ℕ} (hd : d ≤ 8) : ElmExact .sigmoid d :=
  elmExact_of_orderOk .sigmoid (by simp) hd

/-- **C08, orders up to 8** (the full claim is false: `C08_tanh_fails`). -/
theorem C08_tanh_partial {d : ℕ} (hd : d ≤ 8) : ElmExact .tanh d :=
  elmExact_of_orderOk .tanh (by simp) hd

/-- **C09, orders up to 8** (the full claim is false: `C09_swish_fails`). -/
theorem C09_swish_partial {d : ℕ} (hd : d ≤ 8) : ElmExact .swish d :=
  elmExact_of_orderOk .swish (by simp) hd

/-- **C10.** Every order. -/
theorem C10_sin (d : ℕ) : ElmExact .sin d :=
  elmExact_of_orderOk .sin (by simp) trivial

example : ReturnsMatrix ((elmNew .tanh (Buf.ofFn 3 (fun k => (k : ℝ) - 1)) (Buf.ofFn 3 (fun k => (k : ℝ))) 0 2 [1] 3).H
    (Buf.ofFn 4 (fun j => (j : ℝ))) 4 5 true) 4 (List.range 3)
    (fun j k => iteratedDeriv 5 (fun x => act .tanh (((k : ℝ) - 1) * toBasis 0 2 0 1 x + k)) (j : ℝ)) :=
  C08_tanh_partial (by norm_num) 0 2 (by norm_num) [1] 3 (by norm_num) _ _ 4 _

theorem entry_unique {K : Type} {r : Except Fault (ℕ × ℕ × Buf K)} {n : ℕ} {cols : List ℕ}
    {V V' : ℕ → ℕ → K} (h : ReturnsMatrix r n cols V) (h' : ReturnsMatrix r n cols V') {j i : ℕ} (hj : j < n)
    (hi : i < cols.length) : V j cols[i] = V' j cols[i] := by
  obtain ⟨F, h1, _, h3⟩ := h
  obtain ⟨F', h1', _, h3'⟩ := h'
  rw [h1] at h1'
  cases h1'
  have := (h3 j hj i hi).symm.trans (h3' j hj i hi)
  exact Option.some.inj this

theorem elm_fails (a : Activation) (ha : a = .sigmoid ∨ a = .tanh) {d : ℕ} (hd : 9 ≤ d) : ¬ ElmExact a d := by
  intro h
  have h1 := h 0 1 (by norm_num) [] 1 le_rfl (fun _ => 0) (fun _ => 1) 1 (fun _ => 0)
  have hcode : UniClass.hasCode (.elm a (fun _ => 0) (fun _ => 1)) d := by
    rcases ha with rfl | rfl <;> exact trivial
  have h2 := uni_H (.elm a (fun _ => 0) (fun _ => 1)) 0 1 [] (le_refl 1) (d := d) hcode true (Or.inl rfl) 1
    (fun _ => 0)
  have e := entry_unique h1 h2 (j := 0) (i := 0) (by norm_num) (by simp)
  have hz : iteratedDeriv d (fun x => act a ((0 : ℝ) * toBasis 0 1 0 1 x + 1)) (0 : ℝ) = 0 := by
    have e0 : (fun x : ℝ => act a ((0 : ℝ) * toBasis 0 1 0 1 x + 1)) = fun x => (0 : ℝ) * x + act a 1 := by
      ext x; simp
    rw [e0, iteratedDeriv_affine]
    have h0 : d ≠ 0 := by omega
    have h1 : d ≠ 1 := by omega
    simp [h0, h1]
  simp only [List.getElem_range] at e
  rw [hz] at e
  have hc : (uniNew (.elm a (fun _ => 0) (fun _ => 1)) 0 1 [] 1).c = 1 := by
    simp [uniNew, elmNew, BasisFunc.new]
  rw [hc] at e
  rcases ha with rfl | rfl
  · have hs : ELMSigmoid.switch (K := ℝ) d = none := by
      obtain ⟨e, rfl⟩ := Nat.exists_eq_add_of_le hd
      rw [Nat.add_comm]; rfl
    simp only [uniE, elmD, hs, sigmoid] at e
    have : (0 : ℝ) < 1 / (1 + Real.exp (-(0 * UniClass.arg (.elm .sigmoid (fun _ => 0) (fun _ => 1)) 0 1 0 + 1))) *
      1 ^ d := by positivity
    linarith
  · have hs : ELMTanh.switch (K := ℝ) d = none := by
      obtain ⟨e, rfl⟩ := Nat.exists_eq_add_of_le hd
      rw [Nat.add_comm]; rfl
    simp only [uniE, elmD, hs] at e
    simp only [zero_mul, zero_add, one_pow, mul_one] at e
    have : 0 < Real.tanh 1 := by
      rw [Real.tanh_eq_sinh_div_cosh]
      exact div_pos (Real.sinh_pos_iff.mpr one_pos) (Real.cosh_pos 1)
    linarith

/-- **C07 is false for every order above 8**: the code returns the undifferentiated sigmoid (times `c^d`). -/
theorem C07_sigmoid_fails {d : ℕ} (hd : 9 ≤ d) : ¬ ElmExact .sigmoid d :=
  elm_fails .sigmoid (Or.inl rfl) hd

/-- **C08 is false for every order above 8.** -/
theorem C08_tanh_fails {d : ℕ} (hd : 9 ≤ d) : ¬ ElmExact .tanh d :=
  elm_fails .tanh (Or.inr rfl) hd

/-- For every order above 8 the compiled swish class returns a matrix read from uninitialised memory: the model faults. -/
theorem swish_uninit (w b : ℕ → ℝ) (x0 xf : ℝ) (nC : List ℤ) {m n d : ℕ} (hm : 1 ≤ m) (hn : 1 ≤ n) (hd : 9 ≤ d)
    (xs : ℕ → ℝ) :
    (elmNew .swish (Buf.ofFn m w) (Buf.ofFn m b) x0 xf nC m).H (Buf.ofFn n xs) n d true = .error .uninit := by
  set bf := elmNew .swish (Buf.ofFn m w) (Buf.ofFn m b) x0 xf nC m with hbf
  have hbm : bf.m = m := rfl
  obtain ⟨z, hz, hzs⟩ := mapPoints_spec bf (x := Buf.ofFn n xs) (n := n) (xs := xs)
    (fun j hj => Buf.ofFn_read hj)
  have hs : ELMSwish.switch (K := ℝ) d = none := by
    obtain ⟨e, rfl⟩ := Nat.exists_eq_add_of_le hd
    rw [Nat.add_comm]; rfl
  have hint : bf.hint bf.m d z n (alloc (n * bf.m)) = .ok (alloc (n * bf.m)) := by
    change ELMSwish.hint (Buf.ofFn m w) (Buf.ofFn m b) m d z n (alloc (n * m)) = _
    unfold ELMSwish.hint
    rw [if_neg (by omega), hs]
    obtain ⟨zi, hzi, hzv⟩ := cells_spec (n := n) (m := m)
      (f := fun j k _ => do
        let wk ← (Buf.ofFn m w).read k
        let xj ← z.read j
        let bk ← (Buf.ofFn m b).read k
        .ok (wk * xj + bk))
      (fun j k => w k * ((xs j - bf.x0) * bf.c + bf.z0) + b k) (View.alloc n m) (by
        intro j hj k hk D M' _ _
        simp only [Buf.ofFn_read hk, hzs j hj, ok_bind])
    rw [hzi, ok_bind]
    obtain ⟨si, hsi, hsv⟩ := cells_spec (n := n) (m := m)
      (f := fun j k _ => do
        let z ← zi.read (m * j + k)
        .ok (1 / (1 + LibmExp.exp (-z))))
      (fun j k => 1 / (1 + LibmExp.exp (-(w k * ((xs j - bf.x0) * bf.c + bf.z0) + b k)))) (View.alloc n m) (by
        intro j hj k hk D M' _ _
        rw [hzv.read hj hk rfl, ok_bind])
    rw [hsi, ok_bind, hbm]
  unfold BasisFunc.H
  rw [hz]
  simp only [if_true, ok_bind]
  rw [if_neg (by omega), hint, ok_bind]
  have hcopy : bf.copyOut n (bf.m : ℤ).toNat true (bf.c ^ d) (alloc (n * bf.m))
      (alloc ((bf.m : ℤ).toNat * n)) = .error .uninit := by
    unfold BasisFunc.copyOut
    rw [if_neg (by simp), hbm, loop_succ (by omega), loop_succ (by omega)]
    have hread : (alloc (n * m) : Buf ℝ).read (m * 0 + 0) = .error .uninit := by
      have : 0 < n * m := Nat.mul_pos (by omega) (by omega)
      simp [Buf.read, alloc, this]
    rw [hread]
    rfl
  rw [hcopy]
  rfl

/-- **C09 is false for every order above 8.** -/
theorem C09_swish_fails {d : ℕ} (hd : 9 ≤ d) : ¬ ElmExact .swish d := by
  intro h
  obtain ⟨F, hF, _⟩ := h 0 1 (by norm_num) [] 1 le_rfl (fun _ => 0) (fun _ => 1) 1 (fun _ => 0)
  rw [swish_uninit _ _ _ _ _ le_rfl le_rfl hd] at hF
  cases hF

/-- **C11** (compiled backend). `ELMReLU`: for every order the result is the `n × m` matrix (shape and all cells written),
and every entry, for `d ≥ 1` at which `w_k z + b_k ≠ 0`, is the `d`-th derivative of `max(0, w_k z + b_k)`. -/
theorem C11_relu_cc (x0 xf : ℝ) (_hx : x0 ≠ xf) (nC : List ℤ) (m : ℕ) (hm : 1 ≤ m) (w b : ℕ → ℝ) (d n : ℕ)
    (xs : ℕ → ℝ) : ∃ V : ℕ → ℕ → ℝ,
    ReturnsMatrix ((elmNew .relu (Buf.ofFn m w) (Buf.ofFn m b) x0 xf nC m).H (Buf.ofFn n xs) n d true) n
      (List.range m) V ∧
    ∀ j k, (d ≠ 0 → w k * toBasis x0 xf 0 1 (xs j) + b k ≠ 0) →
      V j k = iteratedDeriv d (fun x => relu (w k * toBasis x0 xf 0 1 x + b k)) (xs j) := by
  refine ⟨_, uni_H (.elm .relu w b) x0 xf nC hm (d := d) trivial true (Or.inl rfl) n xs, ?_⟩
  intro j k hne
  refine (uni_iteratedDeriv (.elm .relu w b) x0 xf nC m (d := d) trivial k (xs j) ?_).symm
  intro h0 w' b' he
  cases he
  exact hne h0

example : (2 : ℝ) * toBasis 0 2 0 1 1 + 1 ≠ 0 ∧ (-3 : ℝ) * toBasis 0 2 0 1 1 + 1 ≠ 0 := by
  simp only [toBasis]; norm_num

/-! ## C15 (compiled backend) -/

/-- **C15** (compiled backend). With `full=False` the result consists of the columns of the `full=True` result whose index
is not in `nC`, in increasing order and unchanged, and there are `m - len(nC)` of them. Missing: `ELMSwish` above order 8 (there `full=True` already faults: `swish_uninit`). -/
theorem C15_columns_cc_partial (cls : UniClass) (x0 xf : ℝ) (nC : List ℤ) (m : ℕ) (hm : 1 ≤ m)
    (hC : ValidRemoval m nC) (d : ℕ) (hd : ∀ w b, cls = .elm .swish w b → d ≤ 8) (n : ℕ) (xs : ℕ → ℝ) :
    ∃ V : ℕ → ℕ → ℝ,
      ReturnsMatrix ((uniNew cls x0 xf nC m).H (Buf.ofFn n xs) n d true) n (List.range m) V ∧
      ReturnsMatrix ((uniNew cls x0 xf nC m).H (Buf.ofFn n xs) n d false) n (keptColumns m nC) V ∧
      (keptColumns m nC).length = m - nC.length ∧ (keptColumns m nC).Pairwise (· < ·) ∧
      ∀ k, k ∈ keptColumns m nC ↔ k < m ∧ (k : ℤ) ∉ nC := by
  have hcode : UniClass.hasCode cls d := by
    rcases cls with f | _ | ⟨a, w, b⟩
    · trivial
    · trivial
    · cases a <;> first | trivial | exact hd _ _ rfl
  refine ⟨_, uni_H cls x0 xf nC hm hcode true (Or.inl rfl) n xs,
    uni_H cls x0 xf nC hm hcode false (Or.inr hC) n xs, ?_, keptColumns_sorted m nC,
    fun k => mem_keptColumns⟩
  have := (keptColumns_length_iff m nC).mpr hC
  omega

example : ValidRemoval 6 [4, 0, 2] ∧ keptColumns 6 [4, 0, 2] = [1, 3, 5] := by
  refine ⟨by constructor <;> simp, by decide⟩

/-! ## C16 -/

/-- The claim of C16 for one class and order: a call on an object that `utfc` accepts is free of memory errors and returns
a completely written matrix. -/
def EvalSafe (cls : UniClass) (d : ℕ) (deg : ℕ) (nCarg : Model.Py.NCArg) : Prop :=
  ∀ nC, Model.Py.utfcNC deg nCarg = .ok nC → ∀ (x0 xf : ℝ) (n : ℕ) (xs : ℕ → ℝ) (full : Bool),
    ∃ (cols : List ℕ) (V : ℕ → ℕ → ℝ), ReturnsMatrix ((uniNew cls x0 xf nC (deg + 1)).H (Buf.ofFn n xs) n d full) n cols V

/-- **C16, for arguments listing distinct existing functions** (what is missing: `utfc` also accepts repeated and too
large indices, and `ELMSwish` reads uninitialised memory above order 8; both are proved below). -/
theorem C16_memory_safe_partial (cls : UniClass) (d : ℕ) (hd : ∀ w b, cls = .elm .swish w b → d ≤ 8)
    (deg : ℕ) (nCarg : Model.Py.NCArg)
    (hC : ∀ nC, Model.Py.utfcNC deg nCarg = .ok nC → ValidRemoval (deg + 1) nC) :
    EvalSafe cls d deg nCarg := by
  intro nC hnC x0 xf n xs full
  have hcode : UniClass.hasCode cls d := by
    rcases cls with f | _ | ⟨a, w, b⟩
    · trivial
    · trivial
    · cases a <;> first | trivial | exact hd _ _ rfl
  exact ⟨_, _, uni_H cls x0 xf nC (by omega) hcode full (Or.inr (hC nC hnC)) n xs⟩

/-- Integer arguments are always fine: `nC = k` removes `0, …, k-1`. -/
theorem C16_memory_safe_int (cls : UniClass) (d : ℕ) (hd : ∀ w b, cls = .elm .swish w b → d ≤ 8)
    (deg : ℕ) (k : ℤ) : EvalSafe cls d deg (.int k) := by
  refine C16_memory_safe_partial cls d hd deg _ ?_
  intro nC h
  unfold Model.Py.utfcNC at h
  simp only [bind, Except.bind] at h
  split_ifs at h with h1 h2
  cases h
  constructor
  · exact List.Nodup.map (fun a b h => by simpa using h) List.nodup_range
  · intro r hr
    simp only [Model.Py.arange, List.length_map, List.length_range] at h1 hr
    simp only [List.mem_map, List.mem_range] at hr
    obtain ⟨a, ha, rfl⟩ := hr
    simp only [Int.ofNat_eq_natCast]
    omega

/-- **C16 fails for every class** whenever `utfc` accepts a list that repeats an index or names a function that does not
exist: evaluation with at least one point runs outside its buffer. -/
theorem C16_overrun (cls : UniClass) (d deg : ℕ) (nCarg : Model.Py.NCArg) (nC : List ℤ)
    (hacc : Model.Py.utfcNC deg nCarg = .ok nC) (hC : ¬ ValidRemoval (deg + 1) nC) : ¬ EvalSafe cls d deg nCarg := by
  intro h
  obtain ⟨cols, V, F, hF, _⟩ := h nC hacc 0 1 1 (fun _ => 0) false
  obtain ⟨e, he⟩ := H_overrun (uniNew cls 0 1 nC (deg + 1)) (Buf.ofFn 1 (fun _ => 0)) (n := 1) d (by norm_num)
    (by rw [uni_m, uni_nC]; exact hC)
  rw [he] at hF
  cases hF

/-- **C16 is false**: `utfc(N, [0, 0], 4)` and `utfc(N, [9], 4)` are accepted and overrun; `ELMSwish` reads uninitialised
memory for the 9th derivative. -/
theorem C16_fails (cls : UniClass) (d : ℕ) :
    ¬ EvalSafe cls d 4 (.list [0, 0]) ∧ ¬ EvalSafe cls d 4 (.jaxArray [9]) ∧
    ∀ w b, ¬ EvalSafe (.elm .swish w b) 9 4 (.int 2) := by
  refine ⟨C16_overrun cls d 4 _ [0, 0] (by decide) ?_, C16_overrun cls d 4 _ [9] (by decide) ?_, ?_⟩
  · rintro ⟨h, _⟩; simp at h
  · rintro ⟨_, h⟩; have := h 9 (by simp); omega
  · intro w b h
    obtain ⟨cols, V, F, hF, _⟩ := h [0, 1] (by decide) 0 1 1 (fun _ => 0) true
    have := swish_uninit w b 0 1 [0, 1] (m := 5) (n := 1) (d := 9) (by norm_num) le_rfl le_rfl (fun _ => 0)
    rw [show uniNew (.elm .swish w b) 0 1 [0, 1] (4 + 1) =
      elmNew .swish (Buf.ofFn 5 w) (Buf.ofFn 5 b) 0 1 [0, 1] 5 from rfl, this] at hF
    cases hF

/-! ## C17 -/

/-- C17 for the calls that have code (all but `ELMSwish` above order 8). The XLA entry point, given an output block of the announced shape (`n` rows, `m` or `m - numC` columns as in
`H_abstract_eval`/`H_xla`, utfc.py 304–352), fills it with exactly the matrix the eager call returns, whatever the block
held before. -/
theorem C17_xla_eq_eager_code (cls : UniClass) (x0 xf : ℝ) (nC : List ℤ) (m : ℕ) (hm : 1 ≤ m)
    (hC : ValidRemoval m nC) (d : ℕ) (hd : ∀ w b, cls = .elm .swish w b → d ≤ 8) (full : Bool) (n : ℕ)
    (xs : ℕ → ℝ) (out : Buf ℝ) (dim1 : ℕ) (hdim : dim1 = if full then m else m - nC.length)
    (hout : out.size = n * dim1) :
    ∃ (cols : List ℕ) (V : ℕ → ℕ → ℝ), cols.length = dim1 ∧
      ReturnsMatrix ((uniNew cls x0 xf nC m).H (Buf.ofFn n xs) n d full) n cols V ∧
      FillsMatrix ((uniNew cls x0 xf nC m).xla out (Buf.ofFn n xs) d full n dim1) n cols V := by
  have hcode : UniClass.hasCode cls d := by
    rcases cls with f | _ | ⟨a, w, b⟩
    · trivial
    · trivial
    · cases a <;> first | trivial | exact hd _ _ rfl
  have hlen : (outColumns m nC full).length = dim1 := by
    have := (keptColumns_length_iff m nC).mpr hC
    rw [hdim]
    cases full
    · simp [outColumns]; omega
    · simp [outColumns]
  refine ⟨outColumns m nC full, _, hlen, uni_H cls x0 xf nC hm hcode full (Or.inr hC) n xs, ?_⟩
  have := uni_xla cls x0 xf nC hm hcode full n xs out (by rw [hlen]; exact hout)
  rwa [hlen] at this

/-- A loop whose body either keeps the state or fails with `e`. -/
theorem loop_skip_or_fail {σ ε : Type} (lo n : ℕ) (P : ℕ → Prop) [DecidablePred P] (body : ℕ → σ → Except ε σ) (s : σ) (e : ε)
    (hb : ∀ k s, lo ≤ k → k < lo + n → body k s = if P k then .ok s else .error e) :
    loop lo (lo + n) body s = if ∀ k, lo ≤ k → k < lo + n → P k then .ok s else .error e := by
  induction n generalizing lo with
  | zero =>
    rw [if_pos (by intro k h1 h2; omega)]
    simp [loop]
    rfl
  | succ n ih =>
    rw [loop_succ (by omega), hb lo s le_rfl (by omega)]
    by_cases h : P lo
    · rw [if_pos h, ok_bind]
      have := ih (lo + 1) (fun k s h1 h2 => hb k s (by omega) (by omega))
      rw [show lo + 1 + n = lo + (n + 1) by omega] at this
      rw [this]
      congr 1
      apply propext
      constructor
      · intro h' k h1 h2
        rcases Nat.lt_or_ge lo k with hk | hk
        · exact h' k (by omega) h2
        · obtain rfl : k = lo := by omega
          exact h
      · intro h' k h1 h2
        exact h' k (by omega) h2
    · rw [if_neg h, if_neg (fun h' => h (h' lo le_rfl (by omega)))]
      rfl

/-- The copying loops on a block that was never written. -/
theorem copyOut_uninit {K : Type} [Field K] (bf : BasisFunc K) {n : ℕ} (hn : 1 ≤ n) (mOut : ℕ) (full : Bool) (c : K)
    (F : Buf K) :
    bf.copyOut n mOut full c (alloc (n * bf.m)) F =
      if outColumns bf.m bf.nC full = [] then .ok F else .error .uninit := by
  have hread : ∀ j < bf.m, (alloc (n * bf.m) : Buf K).read (bf.m * 0 + j) = .error .uninit := by
    intro j hj
    have : j < n * bf.m := by
      calc j < bf.m := hj
        _ = 1 * bf.m := by ring
        _ ≤ n * bf.m := Nat.mul_le_mul_right _ hn
    simp [Buf.read, alloc, this]
  unfold BasisFunc.copyOut
  cases full with
  | false =>
    rw [if_pos rfl]
    have h := loop_skip_or_fail 0 bf.m (fun j => bf.removed j = true)
      (fun j (s : ℕ × Buf K) =>
        if bf.removed j then .ok s
        else do
          let i := s.1
          let F ← loop 0 n (fun k F => do
            let v ← (alloc (n * bf.m) : Buf K).read (bf.m * k + j)
            F.write (mOut * k + i) (v * c)) s.2
          .ok (i + 1, F)) (0, F) Fault.uninit (by
        intro j s _ hj
        by_cases h : bf.removed j = true
        · simp [h]
        · simp only [h]
          rw [loop_succ (by omega), hread j (by omega)]
          rfl)
    rw [Nat.zero_add] at h
    rw [h]
    have hiff : (∀ k, 0 ≤ k → k < bf.m → bf.removed k = true) ↔ outColumns bf.m bf.nC false = [] := by
      simp [outColumns, keptColumns, BasisFunc.removed, List.filter_eq_nil_iff]
    by_cases hh : outColumns bf.m bf.nC false = []
    · rw [if_pos (hiff.mpr hh), if_pos hh]; rfl
    · rw [if_neg (fun h => hh (hiff.mp h)), if_neg hh]; rfl
  | true =>
    rw [if_neg (by simp)]
    have h := loop_skip_or_fail 0 bf.m (fun _ => False)
      (fun j F => loop 0 n (fun k F => do
        let v ← (alloc (n * bf.m) : Buf K).read (bf.m * k + j)
        F.write (bf.m * k + j) (v * c)) F) F Fault.uninit (by
        intro j s _ hj
        rw [loop_succ (by omega), hread j (by omega)]
        rfl)
    rw [Nat.zero_add] at h
    rw [h]
    by_cases hm : bf.m = 0
    · simp [outColumns, hm]
    · have : ¬ ∀ k, 0 ≤ k → k < bf.m → False := fun h => h 0 le_rfl (by omega)
      rw [if_neg this, if_neg (by simp [outColumns, hm])]

/-- `ELMSwish::Hint` above order 8 leaves the block as it was allocated. -/
theorem swish_hint_uninit (w b : ℕ → ℝ) (x0 xf : ℝ) (nC : List ℤ) {m n d : ℕ} (hd : 9 ≤ d) (xs : ℕ → ℝ) :
    ∃ z, (elmNew .swish (Buf.ofFn m w) (Buf.ofFn m b) x0 xf nC m).mapPoints (Buf.ofFn n xs) n = .ok z ∧
      (elmNew .swish (Buf.ofFn m w) (Buf.ofFn m b) x0 xf nC m).hint m d z n (alloc (n * m)) = .ok (alloc (n * m)) := by
  set bf := elmNew .swish (Buf.ofFn m w) (Buf.ofFn m b) x0 xf nC m with hbf
  obtain ⟨z, hz, hzs⟩ := mapPoints_spec bf (x := Buf.ofFn n xs) (n := n) (xs := xs)
    (fun j hj => Buf.ofFn_read hj)
  have hs : ELMSwish.switch (K := ℝ) d = none := by
    obtain ⟨e, rfl⟩ := Nat.exists_eq_add_of_le hd
    rw [Nat.add_comm]; rfl
  refine ⟨z, hz, ?_⟩
  change ELMSwish.hint (Buf.ofFn m w) (Buf.ofFn m b) m d z n (alloc (n * m)) = _
  unfold ELMSwish.hint
  rw [if_neg (by omega), hs]
  obtain ⟨zi, hzi, hzv⟩ := cells_spec (n := n) (m := m)
    (f := fun j k _ => do
      let wk ← (Buf.ofFn m w).read k
      let xj ← z.read j
      let bk ← (Buf.ofFn m b).read k
      .ok (wk * xj + bk))
    (fun j k => w k * ((xs j - bf.x0) * bf.c + bf.z0) + b k) (View.alloc n m) (by
      intro j hj k hk D M' _ _
      simp only [Buf.ofFn_read hk, hzs j hj, ok_bind])
  rw [hzi, ok_bind]
  obtain ⟨si, hsi, hsv⟩ := cells_spec (n := n) (m := m)
    (f := fun j k _ => do
      let z ← zi.read (m * j + k)
      .ok (1 / (1 + LibmExp.exp (-z))))
    (fun j k => 1 / (1 + LibmExp.exp (-(w k * ((xs j - bf.x0) * bf.c + bf.z0) + b k)))) (View.alloc n m) (by
      intro j hj k hk D M' _ _
      rw [hzv.read hj hk rfl, ok_bind])
  rw [hsi, ok_bind]

/-- **C17.** For every class, order, flag, point array and valid list of removed functions: the XLA entry point, given an
output block of the announced shape, fills it with exactly the matrix the eager call returns — or both read uninitialised
memory (only `ELMSwish` above order 8). -/
theorem C17_xla_eq_eager (cls : UniClass) (x0 xf : ℝ) (nC : List ℤ) (m : ℕ) (hm : 1 ≤ m)
    (hC : ValidRemoval m nC) (d : ℕ) (full : Bool) (n : ℕ) (hn : 1 ≤ n)
    (xs : ℕ → ℝ) (out : Buf ℝ) (dim1 : ℕ) (hdim : dim1 = if full then m else m - nC.length)
    (hout : out.size = n * dim1) :
    (∃ (cols : List ℕ) (V : ℕ → ℕ → ℝ), cols.length = dim1 ∧
      ReturnsMatrix ((uniNew cls x0 xf nC m).H (Buf.ofFn n xs) n d full) n cols V ∧
      FillsMatrix ((uniNew cls x0 xf nC m).xla out (Buf.ofFn n xs) d full n dim1) n cols V) ∨
    ((∃ w b, cls = .elm .swish w b) ∧ 9 ≤ d ∧
      (uniNew cls x0 xf nC m).H (Buf.ofFn n xs) n d full = .error .uninit ∧
      (uniNew cls x0 xf nC m).xla out (Buf.ofFn n xs) d full n dim1 = .error .uninit) := by
  by_cases hd : ∀ w b, cls = .elm .swish w b → d ≤ 8
  · exact Or.inl (C17_xla_eq_eager_code cls x0 xf nC m hm hC d hd full n xs out dim1 hdim hout)
  · simp only [not_forall] at hd
    obtain ⟨w, b, rfl, hd⟩ := hd
    obtain ⟨z, hz, hh⟩ := swish_hint_uninit w b x0 xf nC (m := m) (n := n) (d := d) (by omega) xs
    have hlen : (outColumns m nC full).length = dim1 := by
      have := (keptColumns_length_iff m nC).mpr hC
      rw [hdim]
      cases full
      · simp [outColumns]; omega
      · simp [outColumns]
    set bf := elmNew .swish (Buf.ofFn m w) (Buf.ofFn m b) x0 xf nC m with hbf
    have hbm : bf.m = m := rfl
    have hbn : bf.nC = nC := rfl
    have hneg : ¬ ((if full = true then (m : ℤ) else (m : ℤ) - (nC.length : ℤ)) < 0) := by
      have := (keptColumns_length_iff m nC).mpr hC
      split_ifs <;> omega
    have hmo : (if full = true then (m : ℤ) else (m : ℤ) - (nC.length : ℤ)).toNat = dim1 := by
      rw [hdim]
      have := (keptColumns_length_iff m nC).mpr hC
      split_ifs <;> omega
    have hH : bf.H (Buf.ofFn n xs) n d full =
        if outColumns m nC full = [] then .ok (n, dim1, alloc (dim1 * n)) else .error .uninit := by
      unfold BasisFunc.H
      rw [hz]
      simp only [ok_bind]
      rw [hbm, hbn, if_neg hneg, hh, ok_bind, hmo]
      have := copyOut_uninit bf hn dim1 full (bf.c ^ d) (alloc (dim1 * n))
      rw [hbm, hbn] at this
      rw [this]
      split_ifs <;> rfl
    have hX : bf.xla out (Buf.ofFn n xs) d full n dim1 =
        if outColumns m nC full = [] then .ok out else .error .uninit := by
      unfold BasisFunc.xla
      rw [hz]
      simp only [ok_bind]
      rw [hbm, hh, ok_bind]
      have := copyOut_uninit bf hn dim1 full (bf.c ^ d) out
      rw [hbm, hbn] at this
      rw [this]
    by_cases he : outColumns m nC full = []
    · left
      have hd0 : dim1 = 0 := by rw [← hlen, he]; rfl
      refine ⟨[], fun _ _ => 0, by simp [hd0], ⟨alloc (dim1 * n), ?_, ?_, ?_⟩, ⟨out, ?_, ?_, ?_⟩⟩
      · change bf.H _ _ _ _ = _
        rw [hH, if_pos he, hd0]; rfl
      · simp [alloc, hd0]
      · intro j _ i hi; simp at hi
      · change bf.xla _ _ _ _ _ _ = _
        rw [hX, if_pos he]
      · simp [hout, hd0]
      · intro j _ i hi; simp at hi
    · right
      refine ⟨⟨w, b, rfl⟩, by omega, ?_, ?_⟩
      · change bf.H _ _ _ _ = _
        rw [hH, if_neg he]
      · change bf.xla _ _ _ _ _ _ = _
        rw [hX, if_neg he]

example : ∃ (cols : List ℕ) (V : ℕ → ℕ → ℝ), cols.length = 4 ∧
    ReturnsMatrix ((uniNew (.poly .lep) 0 1 [3, 0] 6).H (Buf.ofFn 5 (fun j => (j : ℝ))) 5 2 false) 5 cols V ∧
    FillsMatrix ((uniNew (.poly .lep) 0 1 [3, 0] 6).xla (alloc 20) (Buf.ofFn 5 (fun j => (j : ℝ))) 2 false 5 4)
      5 cols V :=
  C17_xla_eq_eager_code (.poly .lep) 0 1 [3, 0] 6 (by norm_num) (by constructor <;> simp) 2 (by intro w b h; cases h)
    false 5 _ (alloc 20) 4 (by simp) (by simp [alloc])

end Verif.Props
