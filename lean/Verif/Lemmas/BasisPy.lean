import Verif.Model.BasisPy
import Verif.Lemmas.PolyPy
import Verif.Lemmas.ElmDeriv
import Verif.Lemmas.Columns
import Verif.Spec.Result
import Mathlib.Analysis.Calculus.Deriv.Shift

/-! # All univariate classes of the Python backend -/

namespace Verif

open Verif.Py Verif.Np Verif.Model.PyBF Verif.Spec Polynomial

theorem ReturnsArray.congr {K ι : Type} {r : Except Err (Mat K)} {n : ℕ} {cols : List ι}
    {V V' : ℕ → ι → K} (h : ReturnsArray r n cols V) (hV : ∀ j < n, ∀ k ∈ cols, V j k = V' j k) :
    ReturnsArray r n cols V' := by
  obtain ⟨F, h1, h2, h3, h4⟩ := h
  exact ⟨F, h1, h2, h3, fun j hj i hi => by rw [h4 j hj i hi, hV j hj _ (List.getElem_mem hi)]⟩

/-- In-range, non-negative indices: `np.delete` keeps the columns that are not listed. -/
theorem keptByDelete_eq {m : ℕ} {nC : List ℤ} (h : ∀ r ∈ nC, 0 ≤ r ∧ r < (m : ℤ)) :
    Mat.keptByDelete m nC = keptColumns m nC := by
  unfold Mat.keptByDelete keptColumns
  refine List.filter_congr fun j hj => ?_
  have hj' : j < m := List.mem_range.mp hj
  have : (j : ℤ) - m ∉ nC := fun hmem => by have := (h _ hmem).1; omega
  simp [this]

variable {K : Type} [Zero K] [One K] [Add K] [Sub K] [Mul K] [Div K] [Neg K] [NatCast K] [Pow K ℕ]

omit [Zero K] [One K] [Add K] [Sub K] [Mul K] [Div K] [Neg K] [NatCast K] [Pow K ℕ] in
theorem delete_spec [Inhabited K] {A : Mat K} {n m : ℕ} {nC : List ℤ} {V : ℕ → ℕ → K} (hr : A.rows = n)
    (hc : A.cols = m) (hV : ∀ j < n, ∀ k < m, A.at_ j k = V j k) (h : ∀ r ∈ nC, 0 ≤ r ∧ r < (m : ℤ)) :
    ReturnsArray (A.delete nC) n (keptColumns m nC) V := by
  have hall : (nC.all fun r => decide (-(A.cols : ℤ) ≤ r ∧ r < A.cols)) = true := by
    rw [List.all_eq_true]
    intro r hr
    have := h r hr
    simp only [decide_eq_true_eq, hc]
    omega
  have hdel : A.delete nC = .ok ⟨A.rows, (Mat.keptByDelete A.cols nC).length, fun i j =>
      match (Mat.keptByDelete A.cols nC)[j]? with
      | some k => A.at_ i k
      | none => default⟩ := by rw [Mat.delete, if_pos hall]; rfl
  refine ⟨_, hdel, hr, ?_, ?_⟩
  · simp only [hc, keptByDelete_eq h]
  · intro j hj i hi
    simp only [hc, keptByDelete_eq h, List.getElem?_eq_getElem hi]
    exact hV j hj _ (mem_keptColumns.mp (List.getElem_mem hi)).1

omit [Zero K] [One K] [Add K] [Sub K] [Mul K] [Div K] [Neg K] [NatCast K] [Pow K ℕ] in
theorem delete_error [Inhabited K] {A : Mat K} {nC : List ℤ} {r : ℤ} (hr : r ∈ nC) (hc : (A.cols : ℤ) ≤ r) :
    A.delete nC = .error .indexError := by
  rw [Mat.delete, if_neg]
  rw [List.all_eq_true]
  intro h
  have := h r hr
  simp only [decide_eq_true_eq] at this
  omega

/-- `BasisFunc.H` of the Python backend, given what `_Hint` computes. -/
theorem pyH_spec [Inhabited K] (self : BasisFunc K) {n d : ℕ} {xs : ℕ → K} {E : K → ℕ → K} {B : Mat K}
    (hh : self.hint self.m n (fun j => (xs j - self.x0) * self.c + self.z0) d = .ok B)
    (hB : IsArr B n self.m (fun j k => E ((xs j - self.x0) * self.c + self.z0) k)) (full : Bool)
    (hC : full = true ∨ ∀ r ∈ self.nC, 0 ≤ r ∧ r < (self.m : ℤ)) :
    ReturnsArray (self.H n xs d full) n (outColumns self.m self.nC full)
      (fun j k => E ((xs j - self.x0) * self.c + self.z0) k * self.c ^ d) := by
  have hfull : ReturnsArray (.ok (B.map (· * self.c ^ d))) n (List.range self.m)
      (fun j k => E ((xs j - self.x0) * self.c + self.z0) k * self.c ^ d) := by
    refine ⟨_, rfl, hB.rows, by simp [Mat.map, hB.cols], fun j hj i hi => ?_⟩
    simp only [List.length_range] at hi
    simp only [Mat.map, List.getElem_range, hB.at_ j hj i hi]
  unfold BasisFunc.H
  simp only [hh, bind, Except.bind]
  cases full with
  | true => simpa [outColumns] using hfull
  | false =>
    rcases hC with h | h
    · cases h
    · by_cases hl : self.nC.length > 0
      · simp only [Bool.not_false, Bool.true_and, hl, decide_true, if_true, outColumns]
        exact delete_spec hB.rows hB.cols (fun j hj k hk => by simp only [Mat.map, hB.at_ j hj k hk]) h
      · have h0 : self.nC = [] := by
          rw [← List.length_eq_zero_iff]; omega
        have hk : outColumns self.m self.nC false = List.range self.m := by
          simp [outColumns, keptColumns, h0]
        rw [hk]
        simpa [h0] using hfull

/-! ## FS -/

section
variable {K : Type} [Zero K] [One K] [Add K] [Sub K] [Mul K] [Div K] [Neg K] [NatCast K] [Pow K ℕ] [Libm K]

theorem fsPy_fill_spec {m n : ℕ} {F : Mat K} {z : ℕ → K} (hm : 1 ≤ m) (even odd : K → K → K) {v0 : K}
    {M : ℕ → ℕ → K} (hF : IsArr F n m M) (h0 : ∀ j < n, M j 0 = v0) :
    IsArr (FS.fill m z even odd F) n m (fun r j => if j = 0 then v0 else
      if j % 2 = 0 then even ((j + 1) / 2 : ℕ) (z r) else odd ((j + 1) / 2 : ℕ) (z r)) := by
  have := pfor_spec (lo := 1) (hi := m) (body := fun k F =>
      let g : K := (((k + 1) / 2 : ℕ) : K)
      if k % 2 = 0 then F.setCol k (fun i => even g (z i)) else F.setCol k (fun i => odd g (z i))) (s := F)
    (fun k A => IsArr A n m (fun r j => if j = 0 then v0 else if j < k then
      (if j % 2 = 0 then even ((j + 1) / 2 : ℕ) (z r) else odd ((j + 1) / 2 : ℕ) (z r)) else M r j)) hm ?_ ?_
  · refine ⟨this.rows, this.cols, fun j hj c hc => ?_⟩
    unfold FS.fill
    rw [this.at_ j hj c hc]
    simp [hc]
  · refine ⟨hF.rows, hF.cols, fun j hj c hc => ?_⟩
    rw [hF.at_ j hj c hc]
    rcases c with _ | c
    · simp [h0 j hj]
    · simp
  · intro k A h1 h2 hA
    simp only
    have e : (if k % 2 = 0 then A.setCol k (fun i => even ((k + 1) / 2 : ℕ) (z i))
        else A.setCol k (fun i => odd ((k + 1) / 2 : ℕ) (z i))) =
        A.setCol k (fun i => if k % 2 = 0 then even ((k + 1) / 2 : ℕ) (z i) else odd ((k + 1) / 2 : ℕ) (z i)) := by
      split <;> rfl
    rw [e]
    refine ⟨hA.rows, hA.cols, fun j hj c hc => ?_⟩
    simp only [Mat.setCol]
    by_cases hck : c = k
    · subst hck
      have : c ≠ 0 := by omega
      simp [this]
    · rw [if_neg hck, hA.at_ j hj c hc]
      have : c < k + 1 ↔ c < k := by omega
      simp only [this]

theorem fsPy_hint_op {m n : ℕ} (hm : 1 ≤ m) (z : ℕ → K) (d : ℕ) :
    ∃ B, FS.hint (K := K) m n z d = .ok B ∧ IsArr B n m (fun j c => fsOp d (z j) c) := by
  unfold FS.hint
  have hz : (Mat.zeros n m : Except Err (Mat K)) = .ok ⟨n, m, fun _ _ => 0⟩ := by
    rw [Mat.zeros, if_neg (by omega)]; simp
  rw [hz]
  simp only [bind, Except.bind]
  rw [if_neg (by omega)]
  have start : ∀ v : K, IsArr ((⟨n, m, fun _ _ => 0⟩ : Mat K).setCol 0 fun _ => v) n m
      (fun _ j => if j = 0 then v else 0) := fun v => ⟨rfl, rfl, fun _ _ _ _ => rfl⟩
  by_cases h0 : d = 0
  · subst h0
    rw [if_pos rfl]
    refine ⟨_, rfl, ?_⟩
    have := fsPy_fill_spec (z := z) hm (fun g z => Libm.cos (g * z)) (fun g z => Libm.sin (g * z)) (start 1)
      (v0 := 1) (by simp)
    refine ⟨this.rows, this.cols, fun j hj c hc => ?_⟩
    rw [this.at_ j hj c hc]
    simp [fsOp]
  · rw [if_neg h0]
    split_ifs with h1 h2 h3
    all_goals
      have fin := fun even odd => fsPy_fill_spec (z := z) hm even odd (start 0) (v0 := 0) (by simp)
      refine ⟨_, rfl, (fin _ _).rows, (fin _ _).cols, fun j hj c hc => ?_⟩
      rw [(fin _ _).at_ j hj c hc]
      simp only [fsOp, h0, if_false]
      simp only [*]
      by_cases hc : c = 0
      · simp [hc]
      · by_cases hc2 : c % 2 = 0 <;> simp [hc, hc2]

end

theorem fsPy_hint_spec {m n : ℕ} (hm : 1 ≤ m) (z : ℕ → ℝ) (d : ℕ) :
    ∃ B, FS.hint m n z d = .ok B ∧ IsArr B n m (fun j c => fsD d (z j) c) := by
  obtain ⟨B, h1, h2⟩ := fsPy_hint_op (n := n) hm z d
  exact ⟨B, h1, h2.rows, h2.cols, fun j hj c hc => by rw [h2.at_ j hj c hc, fsOp_real]⟩

/-! ## ELM -/

/-- `egrad` of a function acting row by row is the derivative in each row. -/
theorem elmRecurse_spec (d : ℕ) (g : (ℕ → ℕ → ℝ) → ℕ × ℕ → ℝ) (φ : ℕ → ℝ → ℝ)
    (hg : ∀ args i k, g args (i, k) = φ k (args 0 i)) (args : ℕ → ℕ → ℝ) (i k : ℕ) :
    elmRecurse d g args (i, k) = iteratedDeriv d (φ k) (args 0 i) := by
  induction d generalizing g φ with
  | zero => simp [elmRecurse, hg]
  | succ d ih =>
    rw [elmRecurse, iteratedDeriv_succ']
    refine ih _ (fun k => deriv (φ k)) ?_
    intro args i k
    simp only [Model.Jax.egrad, Model.Jax.jvp, hg]
    simp only [if_true, mul_one]
    rw [deriv_comp_const_add]
    simp

/-- The smooth activations have derivatives of all orders. -/
theorem act_smooth (a : Activation) (ha : a ≠ .relu) :
    ∃ G : ℕ → ℝ → ℝ, act a = G 0 ∧ ∀ i t, HasDerivAt (G i) (G (i + 1) t) t := by
  cases a with
  | relu => exact absurd rfl ha
  | sigmoid => exact ⟨fun d t => (odeP (X - X ^ 2) d).eval (sigmoid t), by ext t; simp [act, odeP],
      odeP_hasDeriv sigmoid_hasDeriv⟩
  | tanh => exact ⟨fun d t => (odeP (1 - X ^ 2) d).eval (Real.tanh t), by ext t; simp [act, odeP],
      odeP_hasDeriv tanh_hasDeriv⟩
  | sin => exact ⟨sinG, by ext t; simp [act, sinG], sinG_hasDeriv⟩
  | swish => exact ⟨swishG, by ext t; simp [act, swishG, swish, odeP], swishG_hasDeriv⟩

theorem act_affine (a : Activation) (ha : a ≠ .relu) (d : ℕ) (w b c x0 z0 x : ℝ) :
    iteratedDeriv d (fun x => act a (w * ((x - x0) * c + z0) + b)) x =
      iteratedDeriv d (fun t => act a (w * t + b)) ((x - x0) * c + z0) * c ^ d := by
  obtain ⟨G, h0, hG⟩ := act_smooth a ha
  have e : ∀ x, w * ((x - x0) * c + z0) + b = (w * c) * x + (w * (z0 - x0 * c) + b) := fun x => by ring
  rw [h0]
  simp only [e]
  rw [iteratedDeriv_chain G d (fun i _ t => hG i t) _ _ le_rfl,
    iteratedDeriv_chain G d (fun i _ t => hG i t) _ _ le_rfl]
  simp only
  rw [← e, mul_pow]
  ring

theorem elmF_eq (a : Activation) (w b : ℕ → ℝ) (args : ℕ → ℕ → ℝ) (i k : ℕ) :
    elmF a w b args (i, k) = act a (w k * args 0 i + b k) := by
  have e : ∀ u v x : ℝ, -u * x - v = -(u * x + v) := fun u v x => by ring
  cases a with
  | relu => rfl
  | tanh => rfl
  | sin => rfl
  | sigmoid => simp only [elmF, act, sigmoid, e]
  | swish => simp only [elmF, act, swish, sigmoid, e]; rw [mul_one_div]

/-- What `_Hint` of a class computes. -/
noncomputable def uniPyE : UniClass → ℕ → ℝ → ℕ → ℝ
  | .poly f, d, z, k => polyD ℝ f d z k
  | .fs, d, z, k => fsD d z k
  | .elm .relu w b, d, z, k => if d = 0 then relu (w k * z + b k) else
      if d = 1 then (if w k * z + b k ≤ 0 then 0 else w k) else 0
  | .elm a w b, d, z, k => iteratedDeriv d (fun t => act a (w k * t + b k)) z

/-- The Python ReLU class returns a transposed array from order 2 on. -/
def UniClass.shapeOk : UniClass → ℕ → Prop
  | .elm .relu _ _, d => d ≤ 1
  | _, _ => True

theorem uniPy_m (cls : UniClass) (x0 xf : ℝ) (nC : List ℤ) (m : ℕ) : (uniInit cls x0 xf nC m).m = m := by
  rcases cls with f | _ | ⟨a, w, b⟩
  · cases f <;> rfl
  · rfl
  · rfl

theorem uniPy_nC (cls : UniClass) (x0 xf : ℝ) (nC : List ℤ) (m : ℕ) : (uniInit cls x0 xf nC m).nC = nC := by
  rcases cls with f | _ | ⟨a, w, b⟩
  · cases f <;> rfl
  · rfl
  · rfl

theorem uniPy_hint (cls : UniClass) (x0 xf : ℝ) (nC : List ℤ) {m n : ℕ} (hm : 1 ≤ m) {d : ℕ}
    (hd : UniClass.shapeOk cls d) (z : ℕ → ℝ) :
    ∃ B, (uniInit cls x0 xf nC m).hint m n z d = .ok B ∧ IsArr B n m (fun j k => uniPyE cls d (z j) k) := by
  rcases cls with f | _ | ⟨a, w, b⟩
  · have := polyPyHint_spec (K := ℝ) f (n := n) hm z d
    cases f <;> exact this
  · exact fsPy_hint_spec hm z d
  · by_cases ha : a = .relu
    · subst ha
      change d ≤ 1 at hd
      rcases d with _ | _ | d
      · exact ⟨_, rfl, rfl, rfl, fun j _ k _ => by simp [uniPyE, relu]⟩
      · refine ⟨_, rfl, rfl, rfl, fun j _ k _ => ?_⟩
        simp only [uniPyE, zero_add, one_ne_zero, if_false, if_true]
        by_cases h : w k * z j + b k ≤ 0
        · rw [if_pos h, if_neg (not_lt.mpr h), mul_zero]
        · rw [if_neg h, if_pos (not_le.mp h), mul_one]
      · omega
    · have hh : (uniInit (.elm a w b) x0 xf nC m).hint m n z d =
          .ok ⟨n, m, fun i k => elmRecurse d (elmF a w b) (fun _ => z) (i, k)⟩ := by
        cases a <;> first | rfl | exact absurd rfl ha
      refine ⟨_, hh, rfl, rfl, fun j _ k _ => ?_⟩
      simp only
      rw [elmRecurse_spec d _ (fun k t => act a (w k * t + b k)) (elmF_eq a w b)]
      cases a <;> first | rfl | exact absurd rfl ha

/-- The domain map used by the code is the specified one. -/
theorem uniPy_arg (cls : UniClass) (x0 xf : ℝ) (nC : List ℤ) (m : ℕ) (x : ℝ) :
    (x - (uniInit cls x0 xf nC m).x0) * (uniInit cls x0 xf nC m).c + (uniInit cls x0 xf nC m).z0 =
      cls.arg x0 xf x := by
  rcases cls with f | _ | ⟨a, w, b⟩
  · cases f <;> simp [uniInit, polyInit, BasisFunc.init, UniClass.arg, PolyFamily.arg, toBasis] <;> ring
  · simp [uniInit, FS.init, BasisFunc.init, UniClass.arg, toBasis]; ring
  · simp [uniInit, elmInit, BasisFunc.init, UniClass.arg, toBasis]; ring

theorem uniPy_H (cls : UniClass) (x0 xf : ℝ) (nC : List ℤ) {m : ℕ} (hm : 1 ≤ m) {d : ℕ}
    (hd : UniClass.shapeOk cls d) (full : Bool) (hC : full = true ∨ ∀ r ∈ nC, 0 ≤ r ∧ r < (m : ℤ)) (n : ℕ)
    (xs : ℕ → ℝ) :
    ReturnsArray ((uniInit cls x0 xf nC m).H n xs d full) n (outColumns m nC full)
      (fun j k => uniPyE cls d (cls.arg x0 xf (xs j)) k * (uniInit cls x0 xf nC m).c ^ d) := by
  obtain ⟨B, hB, hB'⟩ := uniPy_hint cls x0 xf nC (n := n) hm hd
    (fun j => (xs j - (uniInit cls x0 xf nC m).x0) * (uniInit cls x0 xf nC m).c + (uniInit cls x0 xf nC m).z0)
  have h := pyH_spec (uniInit cls x0 xf nC m) (n := n) (d := d) (xs := xs) (E := uniPyE cls d) (B := B)
    (by rw [uniPy_m]; exact hB) (by rw [uniPy_m]; exact hB') full (by rw [uniPy_m, uniPy_nC]; exact hC)
  rw [uniPy_m, uniPy_nC] at h
  simp only [uniPy_arg] at h
  exact h

theorem uniPy_iteratedDeriv (cls : UniClass) (x0 xf : ℝ) (nC : List ℤ) (m : ℕ) (d : ℕ) (k : ℕ) (x : ℝ)
    (hk : d ≠ 0 → ∀ w b, cls = .elm .relu w b → w k * cls.arg x0 xf x + b k ≠ 0) :
    iteratedDeriv d (cls.basis x0 xf k) x =
      uniPyE cls d (cls.arg x0 xf x) k * (uniInit cls x0 xf nC m).c ^ d := by
  set bf := uniInit cls x0 xf nC m with hbf
  have hfun : cls.basis x0 xf k = fun x => cls.fn k ((x - bf.x0) * bf.c + bf.z0) := by
    ext y
    rw [hbf, uniPy_arg, UniClass.basis]
  have harg : cls.arg x0 xf x = (x - bf.x0) * bf.c + bf.z0 := by rw [hbf, uniPy_arg]
  rw [hfun, harg]
  have e : ∀ x, (x - bf.x0) * bf.c + bf.z0 = bf.c * x + (bf.z0 - bf.x0 * bf.c) := fun x => by ring
  rcases cls with f | _ | ⟨a, w, b⟩
  · simp only [UniClass.fn, uniPyE, polyD, e]
    rw [iteratedDeriv_polynomial]
    ring
  · simp only [UniClass.fn, uniPyE, e, ← fsD_zero]
    rw [iteratedDeriv_chain (fun i t => fsD i t k) d (fun i _ t => fsD_hasDeriv i k t) _ _ le_rfl]
    ring
  · by_cases ha : a = .relu
    · subst ha
      have h2 := elm_iteratedDeriv .relu (d := d) trivial (w k) (b k) bf.c bf.x0 bf.z0 x
        (fun _ h0 => by have := hk h0 w b rfl; rwa [harg] at this)
      simp only [UniClass.fn]
      rw [h2]
      have e2 : ∀ (P : Prop) [Decidable P] (u v : ℝ), u = v → u * bf.c ^ d = v * bf.c ^ d := by
        intro P _ u v h; rw [h]
      refine e2 True _ _ ?_
      simp only [uniPyE, elmD, relu]
    · have h2 := act_affine a ha d (w k) (b k) bf.c bf.x0 bf.z0 x
      simp only [UniClass.fn]
      rw [h2]
      cases a <;> first | rfl | exact absurd rfl ha

end Verif
