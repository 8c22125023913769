import Verif.Lemmas.MultiAffine
import Verif.Lemmas.NBasisPy
import Verif.Lemmas.NElmCC

/-!
# The Python n-dimensional ELM bases (C56)
-/

namespace Verif

open Verif.Py Verif.Np Verif.Model Verif.Model.PyBF Verif.Spec

theorem nElmBasis_mixed (a : Activation) {dim : ℕ} (x0 xf : Fin dim → ℝ) (w : Fin dim → ℕ → ℝ) (b : ℕ → ℝ) (k : ℕ)
    (d : Fin dim → ℕ) (x : Fin dim → ℝ)
    (hk : a = .relu → ∑ i, d i ≠ 0 → ∑ i, w i k * toBasis (x0 i) (xf i) 0 1 (x i) + b k ≠ 0) :
    mixedPartial d (nElmBasis a x0 xf w b k) x = (∏ i, (w i k * (1 / (xf i - x0 i))) ^ d i) *
      actG a (∑ i, d i) (∑ i, w i k * toBasis (x0 i) (xf i) 0 1 (x i) + b k) := by
  have harg : ∀ y : Fin dim → ℝ, ∑ i, w i k * toBasis (x0 i) (xf i) 0 1 (y i) + b k =
      ∑ i, (w i k * (1 / (xf i - x0 i))) * y i + (∑ i, -(w i k * (1 / (xf i - x0 i)) * x0 i) + b k) := by
    intro y
    rw [← add_assoc, ← Finset.sum_add_distrib]
    congr 1
    refine Finset.sum_congr rfl fun i _ => ?_
    unfold toBasis
    ring
  have hfun : nElmBasis a x0 xf w b k = fun x => act a (∑ i, (w i k * (1 / (xf i - x0 i))) * x i +
      (∑ i, -(w i k * (1 / (xf i - x0 i)) * x0 i) + b k)) := by
    funext y
    unfold nElmBasis
    rw [harg]
  rw [hfun, mixedPartial_act a _ _ _ _ (fun ha h0 => by rw [← harg]; exact hk ha h0), harg]

theorem npDot_eq (dim : ℕ) (z : ℕ → ℝ) (w : ℕ → ℕ → ℝ) (k : ℕ) :
    npDot dim z w k = ∑ i : Fin dim, w i k * z i := by
  unfold npDot
  rw [← Finset.sum_range (f := fun i => w i k * z i)]
  induction dim with
  | zero => rfl
  | succ n ih =>
    rw [List.range_succ, List.map_append, List.sum_append, ih, Finset.sum_range_succ]
    simp [mul_comm]

theorem nElmF_eq (a : Activation) (dim : ℕ) (w : ℕ → ℕ → ℝ) (b : ℕ → ℝ) (args : ℕ → ℕ → ℝ) (i k : ℕ) :
    nElmF a dim w b args (i, k) = act a (npDot dim (fun l => args l i) w k + b k) := by
  have e : ∀ u v : ℝ, -u - v = -(u + v) := fun u v => by ring
  cases a with
  | relu => rfl
  | tanh => rfl
  | sin => rfl
  | sigmoid => simp only [nElmF, act, sigmoid, e]
  | swish => simp only [nElmF, act, swish, sigmoid]; rw [mul_one_div]

theorem egrad_affine {G : ℕ → ℝ → ℝ} (hG : ∀ i t, HasDerivAt (G i) (G (i + 1) t) t) (dim : ℕ) (w : ℕ → ℕ → ℝ)
    (b A : ℕ → ℝ) (p : ℕ) (g : (ℕ → ℕ → ℝ) → ℕ × ℕ → ℝ)
    (hg : ∀ args i k, g args (i, k) = A k * G p (npDot dim (fun l => args l i) w k + b k)) {j : ℕ} (hj : j < dim)
    (args : ℕ → ℕ → ℝ) (i k : ℕ) :
    Jax.egrad g j args (i, k) = A k * w j k * G (p + 1) (npDot dim (fun l => args l i) w k + b k) := by
  have hdot : ∀ s : ℝ, npDot dim (fun l => args l i + s * if l = j then 1 else 0) w k =
      npDot dim (fun l => args l i) w k + s * w j k := by
    intro s
    simp only [npDot_eq]
    have : ∀ l : Fin dim, w l k * (args l i + s * if (l : ℕ) = j then 1 else 0) =
        w l k * args l i + (if l = (⟨j, hj⟩ : Fin dim) then s * w j k else 0) := by
      intro l
      by_cases h : (l : ℕ) = j
      · have h' : l = ⟨j, hj⟩ := Fin.ext h
        rw [if_pos h, if_pos h', ← h]; ring
      · have h' : l ≠ ⟨j, hj⟩ := fun e => h (by rw [e])
        rw [if_neg h, if_neg h']; ring
    simp only [this, Finset.sum_add_distrib, Finset.sum_ite_eq', Finset.mem_univ, if_true]
  simp only [Jax.egrad, Jax.jvp, hg, hdot]
  have h1 : HasDerivAt (fun s : ℝ => npDot dim (fun l => args l i) w k + s * w j k + b k) (w j k) 0 := by
    have := ((hasDerivAt_id' (0 : ℝ)).mul_const (w j k)).const_add (npDot dim (fun l => args l i) w k)
    simpa using this.add_const (b k)
  have h2 := (HasDerivAt.comp (0 : ℝ) (hG p _) h1).const_mul (A k)
  have h3 := h2.deriv
  simp only [zero_mul, add_zero] at h3
  rw [show (fun s : ℝ => A k * G p (npDot dim (fun l => args l i) w k + s * w j k + b k)) = fun s => A k *
    (G p ∘ fun s : ℝ => npDot dim (fun l => args l i) w k + s * w j k + b k) s from rfl, h3]
  ring

theorem nElmRecurse_affine {G : ℕ → ℝ → ℝ} (hG : ∀ i t, HasDerivAt (G i) (G (i + 1) t) t) (dim : ℕ) (w : ℕ → ℕ → ℝ)
    (b : ℕ → ℝ) {j : ℕ} (hj : j < dim) (n : ℕ) : ∀ (A : ℕ → ℝ) (p : ℕ) (g : (ℕ → ℕ → ℝ) → ℕ × ℕ → ℝ)
    (_ : ∀ args i k, g args (i, k) = A k * G p (npDot dim (fun l => args l i) w k + b k))
    (args : ℕ → ℕ → ℝ) (i k : ℕ),
    nElmRecurse j n g args (i, k) = A k * w j k ^ n * G (p + n) (npDot dim (fun l => args l i) w k + b k) := by
  induction n with
  | zero => intro A p g hg args i k; simp [nElmRecurse, hg]
  | succ n ih =>
    intro A p g hg args i k
    rw [nElmRecurse, ih (fun k => A k * w j k) (p + 1) _ (egrad_affine hG dim w b A p g hg hj)]
    rw [show p + 1 + n = p + (n + 1) by omega, pow_succ]
    ring

theorem nElmLoop_affine (self : NElm) {G : ℕ → ℝ → ℝ} (hG : ∀ i t, HasDerivAt (G i) (G (i + 1) t) t) (d : List ℕ) :
    ∀ (q : ℕ) (A : ℕ → ℝ) (p : ℕ) (g : (ℕ → ℕ → ℝ) → ℕ × ℕ → ℝ) (f : ℝ), q + d.length ≤ self.dim →
    (∀ args i k, g args (i, k) = A k * G p (npDot self.dim (fun l => args l i) self.w k + self.b k)) →
    ∃ g' f', nElmLoop self q d g f = .ok (g', f') ∧ f' = f * ∏ i ∈ Finset.range d.length, self.c (q + i) ^ d.getD i 0 ∧
      ∀ args i k, g' args (i, k) = (A k * ∏ i ∈ Finset.range d.length, self.w (q + i) k ^ d.getD i 0) *
        G (p + d.sum) (npDot self.dim (fun l => args l i) self.w k + self.b k) := by
  induction d with
  | nil => intro q A p g f _ hg; exact ⟨g, f, rfl, by simp, fun args i k => by simp [hg]⟩
  | cons e d ih =>
    intro q A p g f hq hg
    rw [List.length_cons] at hq
    obtain ⟨g', f', h1, h2, h3⟩ := ih (q + 1) (fun k => A k * self.w q k ^ e) (p + e) (nElmRecurse q e g)
      (f * self.c q ^ e) (by omega)
      (nElmRecurse_affine hG self.dim self.w self.b (by omega) e A p g hg)
    refine ⟨g', f', ?_, ?_, fun args i k => ?_⟩
    · rw [nElmLoop, if_pos (by omega), h1]
    · rw [h2, List.length_cons, Finset.prod_range_succ']
      simp only [Nat.add_zero, List.getD_cons_zero, List.getD_cons_succ, Nat.add_assoc, Nat.add_comm 1]
      ring
    · rw [h3, List.length_cons, Finset.prod_range_succ', List.sum_cons, Nat.add_assoc p e]
      simp only [Nat.add_zero, List.getD_cons_zero, List.getD_cons_succ, Nat.add_assoc, Nat.add_comm 1]
      ring

theorem getD_sum (ds : List ℕ) {dim : ℕ} (h : ds.length ≤ dim) : ∑ i : Fin dim, ds.getD i 0 = ds.sum := by
  have hsub : Finset.range ds.length ⊆ Finset.range dim := Finset.range_subset_range.mpr h
  rw [← Finset.sum_range (f := fun i => ds.getD i 0), ← Finset.sum_subset hsub, Finset.sum_range, ← List.sum_ofFn]
  · congr 1
    refine List.ext_getElem (by simp) fun i h1 h2 => ?_
    simp
  · intro i _ hi
    have : ds.length ≤ i := by simpa using hi
    simp [List.getD, List.getElem?_eq_none this]

theorem getD_prod (ds : List ℕ) {dim : ℕ} (h : ds.length ≤ dim) (g : ℕ → ℝ) :
    ∏ i ∈ Finset.range ds.length, g i ^ ds.getD i 0 = ∏ i : Fin dim, g i ^ ds.getD i 0 := by
  have hsub : Finset.range ds.length ⊆ Finset.range dim := Finset.range_subset_range.mpr h
  rw [Finset.prod_subset hsub, Finset.prod_range]
  intro i _ hi
  have : ds.length ≤ i := by simpa using hi
  simp [List.getD, List.getElem?_eq_none this]

end Verif

namespace Verif.Props

open Verif Verif.Py Verif.Np Verif.Model Verif.Model.PyBF Verif.Spec

/-- What C56 claims of an activation and given orders: the array returned by `H` has as its columns the mixed partial
derivatives of the basis functions that are not removed. -/
def NElmPyExact (a : Activation) (d : Orders) : Prop :=
  ∀ (dim : ℕ) (x0 xf : ℕ → ℝ) (w : ℕ → ℕ → ℝ) (b : ℕ → ℝ) (nC : List ℤ) (m : ℕ) (full : Bool) (n : ℕ)
    (xs : ℕ → ℕ → ℝ), d.list.length ≤ dim →
    (full = true ∨ (∀ r ∈ nC, 0 ≤ r ∧ r < (m : ℤ)) ∨ ∀ r ∈ nC, r = -1) →
    (a = .relu → d.list.sum ≠ 0 → ∀ j < n, ∀ k, ∑ i : Fin dim, w i k * toBasis (x0 i) (xf i) 0 1 (xs j i) + b k ≠ 0) →
    ReturnsArray ((NElm.init a w b x0 xf dim nC m).H dim n (fun i j => xs j i) d full) n (outColumns m nC full)
      (fun j k => mixedPartial (fun i : Fin dim => d.list.getD i 0)
        (nElmBasis a (fun i => x0 i) (fun i => xf i) (fun i => w i) b k) (fun i => xs j i))

theorem nElmPy_finish (a : Activation) (d : Orders) (dim : ℕ) (x0 xf : ℕ → ℝ) (w : ℕ → ℕ → ℝ) (b : ℕ → ℝ)
    (nC : List ℤ) (m : ℕ) (full : Bool) (n : ℕ) (xs : ℕ → ℕ → ℝ) (V : ℕ → ℕ → ℝ)
    (hC : full = true ∨ (∀ r ∈ nC, 0 ≤ r ∧ r < (m : ℤ)) ∨ ∀ r ∈ nC, r = -1) (B : Mat ℝ) (hB : IsArr B n m V)
    (hF : (NElm.init a w b x0 xf dim nC m).nHint n
      (fun j k => (xs j k - x0 k) * ((1 - 0) / (xf k - x0 k)) + 0) d = .ok B) :
    ReturnsArray ((NElm.init a w b x0 xf dim nC m).H dim n (fun i j => xs j i) d full) n (outColumns m nC full) V := by
  have hH : (NElm.init a w b x0 xf dim nC m).H dim n (fun i j => xs j i) d full =
      (if !full && decide ((NElm.init a w b x0 xf dim nC m).numC > 0) then B.delete nC else .ok B) := by
    unfold NElm.H
    rw [if_neg (by simp [NElm.init])]
    have hF' : (NElm.init a w b x0 xf dim nC m).nHint n (fun j k => (xs j k - (NElm.init a w b x0 xf dim nC m).x0 k) *
        (NElm.init a w b x0 xf dim nC m).c k + (NElm.init a w b x0 xf dim nC m).z0) d = .ok B := hF
    simp only [hF', bind, Except.bind]
    rfl
  rw [hH]
  have hall : ReturnsArray (.ok B : Except Err (Mat ℝ)) n (List.range m) V :=
    ⟨B, rfl, hB.rows, by rw [hB.cols, List.length_range], fun j hj i hi => by
      rw [hB.at_ j hj i (by simpa using hi)]; simp⟩
  cases full with
  | true => simpa [outColumns] using hall
  | false =>
    simp only [Bool.not_false, Bool.true_and, decide_eq_true_eq, outColumns, Bool.false_eq_true, if_false]
    replace hC := hC.resolve_left (by simp)
    by_cases hneg : ∀ r ∈ nC, r = -1
    · have h0 : (NElm.init a w b x0 xf dim nC m).numC = 0 := by
        have : (nC.any fun r => r != -1) = false := by
          rw [List.any_eq_false]
          intro r hr
          simp [hneg r hr]
        simp [NElm.init, this]
      rw [h0, if_neg (by omega), kept_of_neg hneg]
      exact hall
    · have hC := hC.resolve_right hneg
      have h0 : (NElm.init a w b x0 xf dim nC m).numC > 0 := by
        push Not at hneg
        obtain ⟨r, hr, hr'⟩ := hneg
        have : (nC.any fun r => r != -1) = true := by
          rw [List.any_eq_true]
          exact ⟨r, hr, by simpa using hr'⟩
        simp only [NElm.init, this, if_true]
        exact List.length_pos_of_mem hr
      rw [if_pos h0]
      exact delete_spec hB.rows hB.cols hB.at_ hC

/-- C56 for the smooth activations, every order; the orders may be a tuple or an array. -/
theorem C56_nelm_py_smooth (a : Activation) (ha : a ≠ .relu) (d : Orders) : NElmPyExact a d := by
  intro dim x0 xf w b nC m full n xs hd hC hk
  set self := NElm.init a w b x0 xf dim nC m with hself
  set ds := d.list with hds
  obtain ⟨g', f', h1, h2, h3⟩ := nElmLoop_affine self (G := actG a) (actG_hasDeriv ha) ds 0 (fun _ => 1) 0
    (nElmF a self.dim self.w self.b) 1 (by simpa [hself, NElm.init] using hd)
    (fun args i k => by rw [nElmF_eq, actG_zero, one_mul])
  have hhint : nElmHint self n (fun j k => (xs j k - x0 k) * ((1 - 0) / (xf k - x0 k)) + 0) ds =
      .ok ⟨n, m, fun i k => g' (fun l i => (xs i l - x0 l) * ((1 - 0) / (xf l - x0 l)) + 0) (i, k) * f'⟩ := by
    unfold nElmHint
    rw [show self.act = a from rfl, h1]
    rfl
  refine nElmPy_finish a d dim x0 xf w b nC m full n xs _ hC _ ⟨rfl, rfl, fun j hj k hkm => ?_⟩
    (Eq.trans ?_ hhint)
  · simp only
    rw [h3, h2, nElmBasis_mixed a _ _ _ _ _ _ _ (fun h _ => absurd h ha), getD_sum ds hd, npDot_eq]
    simp only [Nat.zero_add, one_mul]
    rw [getD_prod ds hd (fun i => self.w i k), getD_prod ds hd self.c, mul_right_comm, ← Finset.prod_mul_distrib]
    refine congrArg₂ _ (Finset.prod_congr rfl fun i _ => ?_) (congrArg _ (congrArg₂ _ (Finset.sum_congr rfl fun i _ => ?_) rfl))
    · rw [← mul_pow]
      simp [hself, NElm.init]
    · simp only [hself, NElm.init, toBasis]
      ring
  · cases a <;> first | rfl | exact absurd rfl ha

/-- C56 for ReLU: total order 0 or at least 2, or orders given as a numpy array. Missing: order 1 given as a tuple, which is
how `mtfc` passes the orders (`C56_relu_tuple_fails`). -/
theorem C56_nelm_py_relu_partial (d : Orders) (hd1 : d.list.sum ≠ 1 ∨ ∃ l, d = .array l) :
    NElmPyExact .relu d := by
  intro dim x0 xf w b nC m full n xs hd hC hk
  set self := NElm.init .relu w b x0 xf dim nC m with hself
  set ds := d.list with hds
  have hdot : ∀ j k, npDot self.dim (fun l => (xs j l - x0 l) * ((1 - 0) / (xf l - x0 l)) + 0) self.w k + self.b k =
      ∑ i : Fin dim, w i k * toBasis (x0 i) (xf i) 0 1 (xs j i) + b k := by
    intro j k
    rw [npDot_eq]
    refine congrArg₂ _ (Finset.sum_congr rfl fun i _ => ?_) rfl
    simp only [hself, NElm.init, toBasis]
    ring
  by_cases h2 : 1 < ds.sum
  · refine nElmPy_finish .relu d dim x0 xf w b nC m full n xs _ hC ⟨n, m, fun _ _ => 0⟩
      ⟨rfl, rfl, fun j hj k hkm => ?_⟩ ?_
    · simp only
      rw [nElmBasis_mixed .relu _ _ _ _ _ _ _ (fun h _ => hk h (by omega) j hj k), getD_sum ds hd]
      obtain ⟨q, hq⟩ := Nat.exists_eq_add_of_le h2
      rw [hq, show 0 + 1 + 1 + q = q + 2 by omega]
      simp [actG, reluG]
    · change nReluHint self n _ d = _
      unfold nReluHint
      simp only
      rw [if_pos h2]
      rfl
  · by_cases h1 : ds.sum = 1
    · obtain ⟨l, rfl⟩ := hd1.resolve_left (fun h => h h1)
      have hl : ds = l := rfl
      clear_value ds
      subst hl
      have hlt : ds.idxOf 1 < ds.length := by
        rw [List.idxOf_lt_length_iff]
        by_contra hcon
        have : ∀ x ∈ ds, x = 0 := by
          intro x hx
          have := List.le_sum_of_mem hx
          rcases Nat.lt_or_ge x 1 with h | h
          · omega
          · obtain rfl : x = 1 := by omega
            exact absurd hx hcon
        have := List.sum_eq_zero this
        omega
      have hdim : ds.idxOf 1 < dim := lt_of_lt_of_le hlt hd
      have hget : ds.getD (ds.idxOf 1) 0 = 1 := by
        simp [List.getD, List.getElem?_eq_getElem hlt]
      have hother : ∀ i : Fin dim, i ≠ ⟨ds.idxOf 1, hdim⟩ → ds.getD i 0 = 0 := by
        intro i hi
        have hs := getD_sum ds hd
        rw [h1, ← Finset.add_sum_erase _ _ (Finset.mem_univ (⟨ds.idxOf 1, hdim⟩ : Fin dim))] at hs
        simp only [hget] at hs
        have h0 : ∑ x ∈ Finset.univ.erase (⟨ds.idxOf 1, hdim⟩ : Fin dim), ds.getD (x : ℕ) 0 = 0 := by omega
        rw [Finset.sum_eq_zero_iff] at h0
        exact h0 i (Finset.mem_erase.mpr ⟨hi, Finset.mem_univ _⟩)
      refine nElmPy_finish .relu (.array ds) dim x0 xf w b nC m full n xs _ hC
        ⟨n, m, fun j k => self.c (ds.idxOf 1) * self.w (ds.idxOf 1) k *
          (if npDot self.dim (fun l => (xs j l - x0 l) * ((1 - 0) / (xf l - x0 l)) + 0) self.w k + self.b k > 0
            then 1 else 0)⟩ ⟨rfl, rfl, fun j hj k hkm => ?_⟩ ?_
      · simp only
        rw [hdot, nElmBasis_mixed .relu _ _ _ _ _ _ _ (fun h _ => hk h (by change ds.sum ≠ 0; omega) j hj k)]
        change _ = _ * actG .relu (∑ i : Fin dim, ds.getD i 0) _
        rw [getD_sum ds hd, h1]
        congr 1
        rw [← Finset.mul_prod_erase _ _ (Finset.mem_univ (⟨ds.idxOf 1, hdim⟩ : Fin dim))]
        rw [Finset.prod_eq_one (s := Finset.univ.erase (⟨ds.idxOf 1, hdim⟩ : Fin dim))]
        · change _ = (_ : ℝ) ^ (ds.getD (ds.idxOf 1) 0) * 1
          rw [hget]
          simp only [hself, NElm.init]
          ring
        · intro i hi
          change (_ : ℝ) ^ (ds.getD (i : ℕ) 0) = 1
          rw [hother i (Finset.ne_of_mem_erase hi), pow_zero]
      · change nReluHint self n _ (.array ds) = _
        unfold nReluHint
        simp only [Orders.list]
        rw [if_neg (by omega), if_pos h1, if_pos (show ds.idxOf 1 < self.dim from hdim)]
        rfl
    · have h0 : ds.sum = 0 := by omega
      refine nElmPy_finish .relu d dim x0 xf w b nC m full n xs _ hC
        ⟨n, m, fun j k => max 0
          (npDot self.dim (fun l => (xs j l - x0 l) * ((1 - 0) / (xf l - x0 l)) + 0) self.w k + self.b k)⟩
        ⟨rfl, rfl, fun j hj k hkm => ?_⟩ ?_
      · simp only
        rw [hdot, nElmBasis_mixed .relu _ _ _ _ _ _ _ (fun _ h => absurd ((getD_sum ds hd).trans h0) h), getD_sum ds hd, h0]
        have hz : ∀ i : Fin dim, ds.getD i 0 = 0 := by
          intro i
          have hs := getD_sum ds hd
          rw [h0, Finset.sum_eq_zero_iff] at hs
          exact hs i (Finset.mem_univ _)
        rw [Finset.prod_eq_one fun i _ => by rw [hz i, pow_zero]]
        simp [actG, reluG, relu]
      · change nReluHint self n _ d = _
        unfold nReluHint
        simp only
        rw [if_neg (by omega), if_neg (by omega)]
        rfl

/-- C56 is false for ReLU when a first derivative is asked for with a tuple of orders: the call raises an exception, for every
object and all points. -/
theorem C56_relu_tuple_fails (d : List ℕ) (hd : d.sum = 1) (dim : ℕ) (x0 xf : ℕ → ℝ) (w : ℕ → ℕ → ℝ) (b : ℕ → ℝ)
    (nC : List ℤ) (m : ℕ) (full : Bool) (n : ℕ) (xs : ℕ → ℕ → ℝ) :
    (NElm.init .relu w b x0 xf dim nC m).H dim n (fun i j => xs j i) (.tuple d) full = .error .indexError := by
  unfold NElm.H
  rw [if_neg (by simp [NElm.init])]
  have : (NElm.init .relu w b x0 xf dim nC m).nHint n (fun j k => (xs j k - (NElm.init .relu w b x0 xf dim nC m).x0 k) *
        (NElm.init .relu w b x0 xf dim nC m).c k + (NElm.init .relu w b x0 xf dim nC m).z0) (.tuple d) =
      .error .indexError := by
    change nReluHint _ n _ (.tuple d) = _
    unfold nReluHint
    have hd' : (Orders.tuple d).list.sum = 1 := hd
    simp only
    rw [if_neg (by omega), if_pos hd']
  simp only [this, bind, Except.bind]

/-- In particular the claim does not hold for ReLU and the orders `(1, 0)`. -/
theorem C56_relu_fails : ¬ NElmPyExact .relu (.tuple [1, 0]) := by
  intro h
  obtain ⟨A, hA, -⟩ := h 2 (fun _ => 0) (fun _ => 1) (fun _ _ => 1) (fun _ => 1) [] 1 true 1 (fun _ _ => 1)
    (by simp [Orders.list]) (.inl rfl) (by intro _ j _ k; simp [toBasis]; norm_num)
  rw [C56_relu_tuple_fails [1, 0] rfl] at hA
  cases hA

/-- A concrete case: the derivative of order (1, 2) of two tanh neurons in two variables, first neuron removed. -/
example : ReturnsArray ((NElm.init .tanh (fun i k => (i : ℝ) + k) (fun k => k) (fun _ => 0) (fun _ => 2) 2 [0] 2).H 2 3
      (fun i j => (i : ℝ) * j) (.tuple [1, 2]) false) 3 [1]
      (fun j k => mixedPartial (fun i : Fin 2 => [1, 2].getD i 0)
        (nElmBasis .tanh (fun _ => 0) (fun _ => 2) (fun i k => (i : ℝ) + k) (fun k => k) k) (fun i => (i : ℝ) * j)) :=
  C56_nelm_py_smooth .tanh (by simp) (.tuple [1, 2]) 2 (fun _ => 0) (fun _ => 2) (fun i k => (i : ℝ) + k) (fun k => k) [0]
    2 false 3 (fun j i => (i : ℝ) * j) (by simp [Orders.list]) (.inr (.inl (by simp))) (by simp)

end Verif.Props
