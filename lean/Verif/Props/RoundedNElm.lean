import Verif.Props.RoundedElm
import Verif.Props.NElm

/-!
# C111: the ELM matrices of several variables in floating point arithmetic
-/

namespace Verif.Props

open Verif Verif.Mem Verif.Py Verif.Np Verif.Spec Verif.Model.CC Verif.Model.Rounded

/-- The size of the argument of the activation function at the point `x`: the sum of the absolute values. -/
noncomputable def argSizeN {dim : ℕ} (w : Fin dim → ℝ) (b : ℝ) (x0 xf x : Fin dim → ℝ) : ℝ := ∑ i, |w i| * |(x i - x0 i) / (xf i - x0 i)| + |b|

section
variable {K : Type} [Zero K] [One K] [Add K] [Sub K] [Mul K] [Neg K] [NatCast K] [Pow K ℕ]

theorem nsig_switch {d : ℕ} (h1 : 1 ≤ d) (h8 : d ≤ 8) : nELMSigmoid.switch (K := K) d = some (sigPoly d) := by
  interval_cases d <;> rfl

theorem ntanh_switch {d : ℕ} (h1 : 1 ≤ d) (h8 : d ≤ 8) : nELMTanh.switch (K := K) d = some (tanhPoly d) := by
  interval_cases d <;> rfl

theorem nswish_switch {d : ℕ} (h1 : 1 ≤ d) (h8 : d ≤ 8) :
    nELMSwish.switch (K := K) d = some fun s z => times d (sigPoly (d - 1) s) + z * sigPoly d s := by
  interval_cases d <;> rfl

end

section
variable {p : ℕ} {rnd : ℝ → ℝ}

theorem accSum_near (R : RoundsToNearest p rnd) {n : ℕ} {T t : ℕ → ℝ} {g : ℕ → Fl rnd} {q : ℕ} (h : ∀ i < q, Near (unit p) n (T i) (t i) (g i).val) :
    Near (unit p) (n + q) (∑ i ∈ Finset.range q, T i) (∑ i ∈ Finset.range q, t i) (accSum g q).val := by
  induction q with
  | zero =>
    rw [Finset.sum_range_zero, Finset.sum_range_zero]
    exact (near_exact (u := unit p) 0 le_rfl).mono (unit_pos p).le (Nat.zero_le _)
  | succ q ih =>
    rw [Finset.sum_range_succ, Finset.sum_range_succ]
    exact (ih fun i hi => h i (by omega)).add R (h q (by omega)) le_rfl (Nat.le_add_right _ _)

theorem accProd_near (R : RoundsToNearest p rnd) {n : ℕ → ℕ} {T t : ℕ → ℝ} {g : ℕ → Fl rnd} {q : ℕ} (h : ∀ i < q, Near (unit p) (n i) (T i) (t i) (g i).val) :
    Near (unit p) (∑ i ∈ Finset.range q, (n i + 1)) (∏ i ∈ Finset.range q, T i) (∏ i ∈ Finset.range q, t i) (accProd g q).val := by
  induction q with
  | zero =>
    rw [Finset.prod_range_zero, Finset.prod_range_zero]
    exact near_exact (u := unit p) 1 (by norm_num)
  | succ q ih =>
    rw [Finset.prod_range_succ, Finset.prod_range_succ, Finset.sum_range_succ]
    exact (ih fun i hi => h i (by omega)).mul R (h q (by omega))

variable [Libm (Fl rnd)] [LibmExp (Fl rnd)]

/-- All ELM classes of several variables: what the `nElmHint` computes. -/
theorem nelm_close (R : RoundsToNearest p rnd) {ε : ℝ} (h0 : 0 ≤ ε) (hε : ε ≤ 1 / 16) (hlib : ElmLibmAccurate rnd ε) (a : Activation) {D : ℕ}
    (hD : orderOk a D) {s b sl c2 wp Ms Mc Mw S : ℝ} {N nc nw : ℕ} {s' sl' c2' wp' : Fl rnd} (hN : 2 ≤ N) (hs : Near (unit p) N Ms s s'.val)
    (hc : Near (unit p) nc Mc c2 c2'.val) (hw : Near (unit p) nw Mw wp wp'.val) (hsl : D = 1 → Near (unit p) (nc + nw + 1) (Mc * Mw) sl sl'.val)
    (hM : D = 0 → Mc * Mw = 1) (hS : S = Ms + |b|) (hk : a = .relu → D ≠ 0 → ((1 + unit p) ^ (N + 1) - 1) * S < |s + b|) :
    Close (unit p) (elmDelta (unit p) ε (N + 1) S) (nc + nw + N + 16) (Mc * Mw * elmConst a D S) (Mc * Mw * elmConst a D S)
      (nelmOp a D sl c2 wp s b) (nelmOp a D sl' c2' wp' s' ⟨b⟩).val := by
  have hu := (unit_pos p).le
  have hMs := hs.nonneg
  have hS0 : 0 ≤ S := by
    rw [hS]
    have := abs_nonneg b
    linarith
  have hδ := elmDelta_nonneg (N := N + 1) hu h0 hS0
  have hA : Near (unit p) (N + 1) S (s + b) (s' + ⟨b⟩ : Fl rnd).val := by
    rw [hS]
    exact hs.add R (near_self _ b) le_rfl (Nat.zero_le _)
  have hNg : Near (unit p) (N + 1) S (-(s + b)) (-s' - ⟨b⟩ : Fl rnd).val := by
    rw [hS, neg_add, ← sub_eq_add_neg]
    exact hs.neg.sub R (near_self _ b) le_rfl (Nat.zero_le _)
  have hc0 := hc.nonneg
  have hw0 := hw.nonneg
  have hP : 0 ≤ Mc * Mw := mul_nonneg hc0 hw0
  have hcw : Close (unit p) (elmDelta (unit p) ε (N + 1) S) (nc + nw + 1) (Mc * Mw) 0 (c2 * wp) (c2' * wp').val := (hc.mul R hw).close
  obtain ⟨F, hF⟩ : ∃ F : ℝ, F = ((D + 1).factorial : ℕ) := ⟨_, rfl⟩
  have hF1 : 1 ≤ F := by
    rw [hF]
    exact_mod_cast Nat.one_le_iff_ne_zero.2 (Nat.factorial_ne_zero _)
  have h2 : (2 : ℝ) ≤ 2 ^ (D + 1) := by
    have := pow_le_pow_right₀ (show (1 : ℝ) ≤ 2 by norm_num) (show 1 ≤ D + 1 by omega)
    simpa using this
  have hK : 2 ≤ 2 ^ (D + 1) * F := by nlinarith
  cases a with
  | relu =>
    simp only [elmConst, nelmOp]
    rw [← hF]
    have hKS : 1 ≤ 2 ^ (D + 1) * F * (1 + S) := by nlinarith
    by_cases d0 : D = 0
    · rw [if_pos d0, if_pos d0, hM d0, one_mul]
      have hmax : |max 0 (s' + ⟨b⟩ : Fl rnd).val - max 0 (s + b)| ≤ ((1 + unit p) ^ (N + 1) - 1) * S := by
        refine le_trans ?_ hA.err
        have := abs_max_sub_max_le_abs (s' + ⟨b⟩ : Fl rnd).val (s + b) 0
        rwa [max_comm _ (0 : ℝ), max_comm _ (0 : ℝ)] at this
      have hle : |max 0 (s + b)| ≤ S := by
        rw [abs_of_nonneg (le_max_left _ _)]
        exact max_le hS0 ((le_abs_self _).trans hA.le)
      have hn : Near (unit p) (N + 1) S (max 0 (s + b)) (max 0 (s' + ⟨b⟩ : Fl rnd).val) := ⟨hle, hmax⟩
      refine ((hn.close (δ := elmDelta (unit p) ε (N + 1) S)).mono hu (by omega)).weak hu hδ ?_ (by linarith)
      nlinarith
    · rw [if_neg d0, if_neg d0]
      have hz : Close (unit p) (elmDelta (unit p) ε (N + 1) S) (nc + nw + N + 16) (Mc * Mw * (2 ^ (D + 1) * F * (1 + S)))
          (Mc * Mw * (2 ^ (D + 1) * F * (1 + S))) 0 (0 : Fl rnd).val :=
        (((near_exact (u := unit p) 0 le_rfl).close).mono hu (by omega)).weak hu hδ (by positivity) (by positivity)
      by_cases d1 : D = 1
      · rw [if_pos d1, if_pos d1]
        have h := hk rfl d0
        have e := abs_le.1 hA.err
        have hv : (max 0 (s' + ⟨b⟩) : Fl rnd).val = max 0 (s' + ⟨b⟩ : Fl rnd).val := rfl
        by_cases ht : 0 < s + b
        · rw [abs_of_pos ht] at h
          have ht' : 0 < (s' + ⟨b⟩ : Fl rnd).val := by linarith [e.1]
          have c1 : max 0 (s + b) ≠ 0 := by
            rw [max_eq_right ht.le]
            exact ht.ne'
          have c2 : (max 0 (s' + ⟨b⟩) : Fl rnd) ≠ 0 := by
            intro hc
            rw [hc] at hv
            rw [max_eq_right ht'.le] at hv
            exact ht'.ne' hv.symm
          rw [if_pos c1, if_pos c2]
          refine (((hsl d1).close).mono hu (by omega)).weak hu hδ ?_ (by positivity)
          nlinarith
        · rw [abs_of_nonpos (not_lt.1 ht)] at h
          have ht' : (s' + ⟨b⟩ : Fl rnd).val ≤ 0 := by linarith [e.2]
          have m1 : max 0 (s + b) = 0 := max_eq_left (not_lt.1 ht)
          have m2 : (max 0 (s' + ⟨b⟩) : Fl rnd) = 0 := by
            show (⟨max 0 (s' + ⟨b⟩ : Fl rnd).val⟩ : Fl rnd) = ⟨0⟩
            rw [max_eq_left ht']
          rw [m1, m2, if_neg (by simp), if_neg (by simp)]
          exact hz
      · rw [if_neg d1, if_neg d1]
        exact hz
  | sigmoid =>
    have hT := logistic_close R h0 hε hlib (by omega) hNg
    simp only [elmConst, nelmOp, mul_one]
    by_cases d0 : D = 0
    · subst d0
      show Close _ _ _ _ _ (1 / (1 + Real.exp (-s - b))) (1 / (1 + LibmExp.exp (-s' - ⟨b⟩)) : Fl rnd).val
      rw [nsigmoid_form, hM rfl, one_mul]
      exact (hT.mono hu (by omega)).weak hu hδ (by norm_num) (by norm_num)
    · rw [nsig_switch (by omega) hD, nsig_switch (by omega) hD]
      have h := hcw.mul R (sigPoly_close R hδ hT hD)
      show Close _ _ _ _ _ (c2 * wp * sigPoly D (1 / (1 + Real.exp (-s - b)))) (rnd _)
      rw [nsigmoid_form]
      refine (h.mono hu (by omega)).weak hu hδ ?_ ?_
      · exact mul_le_mul_of_nonneg_left (mul_le_mul_of_nonneg_left (factorial_le_real D) (by positivity)) hP
      · rw [mul_zero, add_zero]
  | tanh =>
    have hT := tanh_close h0 hε hlib hA
    simp only [elmConst, nelmOp, mul_one]
    by_cases d0 : D = 0
    · subst d0
      show Close _ _ _ _ _ (Real.tanh (s + b)) (LibmExp.tanh (s' + ⟨b⟩)).val
      rw [hM rfl, one_mul]
      exact (hT.mono hu (by omega)).weak hu hδ (by norm_num) (by norm_num)
    · rw [ntanh_switch (by omega) hD, ntanh_switch (by omega) hD]
      have h := hcw.mul R (tanhPoly_close R hδ hT hD)
      show Close _ _ _ _ _ (c2 * wp * tanhPoly D (Real.tanh (s + b))) (rnd _)
      refine (h.mono hu (by omega)).weak hu hδ ?_ ?_
      · exact mul_le_mul_of_nonneg_left (mul_le_mul_of_nonneg_left (factorial_le_real D) (by positivity)) hP
      · rw [mul_zero, add_zero]
  | sin =>
    have hsn := sin_close h0 hε hlib hA
    have hcs := cos_close h0 hε hlib hA
    have hcn : Close (unit p) (elmDelta (unit p) ε (N + 1) S) (nc + nw + 1) (Mc * Mw) 0 (-c2 * wp) (-c2' * wp').val := (hc.neg.mul R hw).close
    have hm : Mc * Mw * (17 / 16) ≤ Mc * Mw * (2 ^ (D + 1) * F) := mul_le_mul_of_nonneg_left (by linarith) hP
    have hl : Mc * Mw * 1 + 17 / 16 * 0 ≤ Mc * Mw * (2 ^ (D + 1) * F) := by
      rw [mul_zero, add_zero]
      exact mul_le_mul_of_nonneg_left (by linarith) hP
    simp only [elmConst, nelmOp, mul_one]
    rw [← hF]
    split_ifs
    · exact ((hcw.mul R hsn).mono hu (by omega)).weak hu hδ hm hl
    · exact ((hcw.mul R hcs).mono hu (by omega)).weak hu hδ hm hl
    · exact ((hcn.mul R hsn).mono hu (by omega)).weak hu hδ hm hl
    · exact ((hcn.mul R hcs).mono hu (by omega)).weak hu hδ hm hl
  | swish =>
    have hd8 : D ≤ 8 := hD
    simp only [elmConst, nelmOp]
    rw [← hF]
    by_cases d0 : D = 0
    · rw [if_pos d0, if_pos d0]
      obtain ⟨i1, i2⟩ := logistic_inv R h0 hε hlib hNg
      obtain ⟨Q, hQ⟩ : ∃ Q, Q = (1 + LibmExp.exp (-s' - ⟨b⟩) : Fl rnd).val := ⟨_, rfl⟩
      rw [← hQ] at i1 i2
      have hnum := hA.mul R (near_exact (u := unit p) 1 (by norm_num))
      rw [mul_one, mul_one] at hnum
      obtain ⟨v, hv⟩ : ∃ v, v = rnd ((s' + ⟨b⟩ : Fl rnd).val * 1) := ⟨_, rfl⟩
      rw [← hv] at hnum
      have hval : ((s' + ⟨b⟩) * 1 / (1 + LibmExp.exp (-s' - ⟨b⟩)) : Fl rnd).val = rnd (v / Q) := by
        rw [hv, hQ]
        rfl
      rw [hval]
      have hQ0 : 0 < Q := by linarith
      have j1 : |1 / Q| ≤ 1 := by
        rw [abs_of_pos (by positivity), div_le_one hQ0]
        exact i1
      have e1 : ((s + b) * 1 / (1 + LibmExp.exp (-s - b)) : ℝ) = (s + b) * sigmoid (s + b) := by
        rw [LibmExp.exp_real, mul_div_assoc, nsigmoid_form]
      rw [e1]
      have n1 : |(s + b) * (1 / Q)| ≤ S := by
        rw [abs_mul]
        have := mul_le_mul hA.le j1 (abs_nonneg _) hS0
        linarith
      have n2 : |v / Q - (s + b) * (1 / Q)| ≤ ((1 + unit p) ^ (N + 1 + 0 + 1) - 1) * S := by
        rw [show v / Q - (s + b) * (1 / Q) = (v - (s + b)) * (1 / Q) by ring, abs_mul]
        have := mul_le_mul hnum.err j1 (abs_nonneg _) ((abs_nonneg _).trans hnum.err)
        linarith
      have hn := near_round n1 n2 hu (rnd_error' R (v / Q))
      obtain ⟨s0, s1⟩ := sigmoid_mem (s + b)
      have hcl : Close (unit p) (elmDelta (unit p) ε (N + 1) S) (N + 1 + 0 + 1 + 1) S S ((s + b) * sigmoid (s + b)) (rnd (v / Q)) := by
        refine ⟨?_, _, hn, ?_⟩
        · rw [abs_mul, abs_of_pos s0]
          have := mul_le_mul hA.le s1.le s0.le hS0
          linarith
        · rw [← mul_sub, abs_mul]
          refine mul_le_mul hA.le (i2.trans ?_) (abs_nonneg _) hS0
          have h6 := two_unit_le hu (show 2 ≤ N + 1 by omega)
          unfold elmDelta
          nlinarith
      refine (hcl.mono hu (by omega)).weak hu hδ ?_ ?_
      all_goals
        rw [hM d0, one_mul]
        nlinarith
    · rw [if_neg d0, if_neg d0, nswish_switch (by omega) hd8, nswish_switch (by omega) hd8]
      have hgn : Near (unit p) (N + 1) S (-(s + b)) (-(s' + ⟨b⟩) : Fl rnd).val := hA.neg
      have hT := logistic_close R h0 hε hlib (by omega) hgn
      have hz := hA.close (δ := elmDelta (unit p) ε (N + 1) S)
      have hPd := sigPoly_close R hδ hT hd8
      have hQd := sigPoly_close R hδ hT (d := D - 1) (by omega)
      obtain ⟨T, hTdef⟩ : ∃ T : Fl rnd, T = 1 / (1 + LibmExp.exp (-(s' + ⟨b⟩))) := ⟨_, rfl⟩
      rw [← hTdef] at hT hPd hQd
      obtain ⟨e, he⟩ : ∃ e, e + 1 = D := ⟨D - 1, by omega⟩
      subst he
      rw [show e + 1 - 1 = e from rfl] at hQd
      have hL : Close (unit p) (elmDelta (unit p) ε (N + 1) S) 13 (2 ^ (e + 1) * (e + 1).factorial) (2 ^ (e + 1) * ((e + 1) * (e + 1).factorial))
          (times (e + 1) (sigPoly e (sigmoid (s + b)))) (times (e + 1) (sigPoly e T)).val := by
        unfold times
        split_ifs with h1
        · have : e = 0 := by omega
          subst this
          exact (hQd.mono hu (by norm_num)).weak hu hδ (by norm_num [Nat.factorial]) (by norm_num [Nat.factorial])
        · have hl : Near (unit p) 1 (((e + 1 : ℕ) : ℝ)) ((e + 1 : ℕ) : ℝ) ((e + 1 : ℕ) : Fl rnd).val :=
            near_round (n := 0) (by rw [abs_of_nonneg (Nat.cast_nonneg _)]) (by simp) hu (rnd_error' R _)
          refine ((hl.close.mul R hQd).mono hu (by norm_num)).weak hu hδ ?_ ?_
          · rw [Nat.factorial_succ e]
            push_cast
            exact le_of_eq (by ring)
          · rw [mul_zero, add_zero]
            push_cast
            exact le_of_eq (by ring)
      have h := hcw.mul R (hL.add R (hz.mul R hPd) (k := N + 13) (by omega) (by omega))
      show Close _ _ _ _ _ (c2 * wp * (times (e + 1) (sigPoly (e + 1 - 1) (1 / (1 + Real.exp (-(s + b))))) +
        (s + b) * sigPoly (e + 1) (1 / (1 + Real.exp (-(s + b)))))) (rnd _)
      rw [← hTdef]
      have hsg : 1 / (1 + Real.exp (-(s + b))) = sigmoid (s + b) := rfl
      rw [hsg]
      have g1 : (((e + 1).factorial : ℕ) : ℝ) ≤ F := by rw [hF]; exact factorial_le_real _
      have g0 : (0 : ℝ) ≤ ((e + 1).factorial : ℕ) := Nat.cast_nonneg _
      have g2 : ((e : ℝ) + 1) * ((e + 1).factorial : ℕ) ≤ F := by
        rw [hF, Nat.factorial_succ (e + 1)]
        push_cast
        nlinarith
      have q : (2 : ℝ) ^ (e + 1 + 1) = 2 * 2 ^ (e + 1) := by ring
      have q0 : (0 : ℝ) < 2 ^ (e + 1) := by positivity
      refine (h.mono hu (by omega)).weak hu hδ ?_ ?_
      · refine mul_le_mul_of_nonneg_left ?_ hP
        rw [q]
        have k1 := mul_le_mul_of_nonneg_left g1 q0.le
        have k2 := mul_le_mul_of_nonneg_left k1 hS0
        have k3 : 0 ≤ 2 ^ (e + 1) * F := by positivity
        linarith
      · rw [mul_zero, add_zero, mul_zero, add_zero, q, ← hF]
        refine mul_le_mul_of_nonneg_left ?_ hP
        have k1 := mul_le_mul_of_nonneg_left g2 q0.le
        have k3 : 0 ≤ 2 ^ (e + 1) * F := by positivity
        linarith

theorem padZero_lt {K : Type} [Zero K] {dim : ℕ} (v : Fin dim → K) {l : ℕ} (h : l < dim) : padZero v l = v ⟨l, h⟩ := dif_pos h

/-- **C111** in several variables: the compiled ELM classes give in column `k` values that differ from the mixed partial derivative of the activation
function of `Σ w_i z_i + b` at the exactly mapped point by at most `2^(D+1) (D+1)! ∏ |w_i c_i|^(d_i) (ε + ((1 + u)^(2 D + 4 q + dim + 22) - 1) (2 + S))`,
where `D` is the total order, `q` the length of the tuple of orders and `S` the size of the argument; with the further factor `1 + S` for the activation
functions that are not bounded. For the derivatives of the rectifier the argument must not be within `((1 + u)^(dim + 7) - 1) S` of the kink. -/
theorem C111_several (R : RoundsToNearest p rnd) {ε : ℝ} (h0 : 0 ≤ ε) (hε : ε ≤ 1 / 16) (hlib : ElmLibmAccurate rnd ε) (a : Activation) {dim : ℕ}
    (x0 xf : Fin dim → ℝ) (h01 : ∀ i, x0 i ≠ xf i) (w : Fin dim → ℕ → ℝ) (b : ℕ → ℝ) (nC : List ℤ) (m : ℕ) (full : Bool) (n : ℕ) (xs : ℕ → Fin dim → ℝ)
    (ds : List ℕ) (hds : ds.length ≤ dim) (hord : orderOk a ds.sum) (hC : full = true ∨ NElmRemoval m nC)
    (hk : a = .relu → ds.sum ≠ 0 → ∀ j < n, ∀ k ∈ outColumns m nC full, ((1 + unit p) ^ (dim + 7) - 1) * argSizeN (fun i => w i k) (b k) x0 xf (xs j) <
      |∑ i, w i k * toBasis (x0 i) (xf i) 0 1 (xs j i) + b k|) :
    ∃ (e : NElm (Fl rnd)) (V : ℕ → ℕ → Fl rnd),
      nElmObj a (fun i => (⟨x0 i⟩ : Fl rnd)) (fun i => ⟨xf i⟩) (fun i k => ⟨w i k⟩) (fun k => ⟨b k⟩) nC m = .ok e ∧
      ReturnsMatrix (e.H (Buf.ofMat fun i (j : Fin n) => ⟨xs j i⟩) n (Buf.ofList ds) ds.length full) n (outColumns m nC full) V ∧
      (∀ out : Buf (Fl rnd), out.size = n * (outColumns m nC full).length →
        FillsMatrix (e.xla out (Buf.ofMat fun i (j : Fin n) => ⟨xs j i⟩) (Buf.ofList ds) ds.length full n (outColumns m nC full).length) n
          (outColumns m nC full) V) ∧
      ∀ j < n, ∀ k ∈ outColumns m nC full,
        |(V j k).val - mixedPartial (fun i => ds.getD i 0) (nElmBasis a x0 xf w b k) (xs j)| ≤
          elmConst a ds.sum (argSizeN (fun i => w i k) (b k) x0 xf (xs j)) * (∏ i : Fin dim, |w i k / (xf i - x0 i)| ^ ds.getD i 0) *
            (ε + ((1 + unit p) ^ (2 * ds.sum + 4 * ds.length + dim + 22) - 1) * (2 + argSizeN (fun i => w i k) (b k) x0 xf (xs j))) := by
  have hu := (unit_pos p).le
  have hsw : a = .swish → ds.sum ≤ 8 := by
    rintro rfl
    exact hord
  obtain ⟨e, q, he, hq, h1, h2⟩ := nElm_runs_op a (fun i => (⟨x0 i⟩ : Fl rnd)) (fun i => ⟨xf i⟩) (fun i k => ⟨w i k⟩) (fun k => ⟨b k⟩) nC m full n
    (fun j i => ⟨xs j i⟩) ds hds hsw hC
  refine ⟨e, _, he, h1, h2, fun j hj k hkc => ?_⟩
  obtain ⟨S, hS⟩ : ∃ S, S = argSizeN (fun i => w i k) (b k) x0 xf (xs j) := ⟨_, rfl⟩
  have hk' := fun ha hd0 => hk ha hd0 j hj k hkc
  rw [← hS] at hk' ⊢
  have hdsum : ds.sum = ∑ i ∈ Finset.range ds.length, ds.getD i 0 := by
    rw [Finset.sum_range, ← List.sum_ofFn]
    congr 1
    refine List.ext_getElem (by simp) fun i h1 h2 => ?_
    simp
  -- the exact quantities
  obtain ⟨cs, hcs⟩ : ∃ cs : ℕ → ℝ, cs = padZero fun l => 1 / (xf l - x0 l) := ⟨_, rfl⟩
  obtain ⟨ws, hws⟩ : ∃ ws : ℕ → ℝ, ws = padZero fun l => w l k := ⟨_, rfl⟩
  obtain ⟨zs, hzs⟩ : ∃ zs : ℕ → ℝ, zs = fun i => (padZero (xs j) i - padZero x0 i) * cs i + 0 := ⟨_, rfl⟩
  have hslope : ∀ i < dim, Near (unit p) 2 |cs i| (cs i) ((padZero fun l => ((1 - 0) / (⟨xf l⟩ - ⟨x0 l⟩) : Fl rnd)) i).val := by
    intro i hi
    rw [padZero_lt _ hi, hcs, padZero_lt _ hi]
    exact unitSlope_near R (h01 _)
  have hwn : ∀ i < dim, Near (unit p) 0 |ws i| (ws i) ((padZero fun l => (⟨w l k⟩ : Fl rnd)) i).val := by
    intro i hi
    rw [padZero_lt _ hi, hws, padZero_lt _ hi]
    exact near_self _ _
  have hzn : ∀ i < dim, Near (unit p) 5 |zs i| (zs i)
      ((padZero (fun i => (⟨xs j i⟩ : Fl rnd)) i - padZero (fun i => (⟨x0 i⟩ : Fl rnd)) i) * (padZero fun l => ((1 - 0) / (⟨xf l⟩ - ⟨x0 l⟩) : Fl rnd)) i + 0).val := by
    intro i hi
    rw [hzs]
    simp only
    rw [padZero_lt _ hi, padZero_lt _ hi, padZero_lt _ hi, padZero_lt _ hi, padZero_lt _ hi, hcs, padZero_lt _ hi, add_zero, mul_one_div]
    exact unitZ_near R (h01 _) _
  have hs := accSum_near R (q := dim) (n := 6) fun i hi => (hwn i hi).mul R (hzn i hi)
  have hc := accProd_near R (q := ds.length) fun i hi => (hslope i (by omega)).pow R (ds.getD i 0)
  have hw := accProd_near R (q := ds.length) fun i hi => (hwn i (by omega)).pow R (ds.getD i 0)
  have hprod1 : ∀ g : ℕ → ℝ, ds.sum = 1 → ∏ i ∈ Finset.range ds.length, g i ^ ds.getD i 0 = g q := by
    intro g hs1
    obtain ⟨g1, g2⟩ := hq hs1
    have hp' : q ∈ Finset.range ds.length := Finset.mem_range.mpr g1
    have hz : ∀ i ∈ (Finset.range ds.length).erase q, ds.getD i 0 = 0 := by
      have := hs1
      rw [hdsum, ← Finset.add_sum_erase _ _ hp', g2] at this
      have h9 : ∑ i ∈ (Finset.range ds.length).erase q, ds.getD i 0 = 0 := by omega
      exact fun i hi => (Finset.sum_eq_zero_iff.mp h9) i hi
    rw [← Finset.mul_prod_erase _ _ hp', g2, pow_one, Finset.prod_congr (g := fun _ => (1 : ℝ)) rfl fun i hi => by rw [hz i hi, pow_zero]]
    simp
  have hprod0 : ∀ g : ℕ → ℝ, ds.sum = 0 → ∏ i ∈ Finset.range ds.length, g i ^ ds.getD i 0 = 1 := by
    intro g hs0
    rw [hdsum] at hs0
    exact Finset.prod_eq_one fun i hi => by rw [(Finset.sum_eq_zero_iff.mp hs0) i hi, pow_zero]
  have hSz : S = ∑ i ∈ Finset.range dim, |ws i| * |zs i| + |b k| := by
    rw [hS, Finset.sum_range]
    unfold argSizeN
    congr 1
    refine Finset.sum_congr rfl fun i _ => ?_
    rw [hzs]
    simp only
    rw [hws, hcs, padZero_lt _ i.2, padZero_lt _ i.2, padZero_lt _ i.2, padZero_lt _ i.2, add_zero, mul_one_div]
  have harg : ∑ i, w i k * toBasis (x0 i) (xf i) 0 1 (xs j i) + b k = ∑ i ∈ Finset.range dim, ws i * zs i + b k := by
    rw [Finset.sum_range]
    congr 1
    refine Finset.sum_congr rfl fun i _ => ?_
    rw [hzs]
    simp only
    rw [hws, hcs, padZero_lt _ i.2, padZero_lt _ i.2, padZero_lt _ i.2, padZero_lt _ i.2]
    unfold toBasis
    ring
  have hcl := nelm_close R h0 hε hlib a hord (N := 6 + dim) (sl := cs q * ws q) (sl' := (padZero fun l => ((1 - 0) / (⟨xf l⟩ - ⟨x0 l⟩) : Fl rnd)) q * (padZero fun l => (⟨w l k⟩ : Fl rnd)) q)
    (b := b k) (S := S) (by omega) hs hc hw (fun h => by
      obtain ⟨g1, g2⟩ := hq h
      rw [hprod1 _ h, hprod1 _ h]
      refine ((hslope q (by omega)).mul R (hwn q (by omega))).mono hu ?_
      have hle : ∀ f : ℕ → ℕ, f q ≤ ∑ i ∈ Finset.range ds.length, f i := fun f =>
        Finset.single_le_sum (fun _ _ => Nat.zero_le _) (Finset.mem_range.2 g1)
      have := hle fun i => 2 * ds.getD i 0 + 1 + 1
      simp only [g2] at this
      omega)
    (fun h => by rw [hprod0 _ h, hprod0 _ h, one_mul]) hSz
    (fun ha hd0 => by
      have := hk' ha hd0
      rw [harg] at this
      rwa [show 6 + dim + 1 = dim + 7 by ring])
  have herr := hcl.err
  have hS0 : 0 ≤ S := by
    rw [hSz]
    have := Finset.sum_nonneg (s := Finset.range dim) (f := fun i => |ws i| * |zs i|) fun i _ => by positivity
    have := abs_nonneg (b k)
    linarith
  -- the exact value
  have hex : mixedPartial (fun i => ds.getD i 0) (nElmBasis a x0 xf w b k) (xs j) =
      nelmOp a ds.sum (cs q * ws q) (∏ i ∈ Finset.range ds.length, cs i ^ ds.getD i 0) (∏ i ∈ Finset.range ds.length, ws i ^ ds.getD i 0)
        (∑ i ∈ Finset.range dim, ws i * zs i) (b k) := by
    have h := nElm_entry a x0 xf w b ds hds hord (xs j) k (fun ha hd0 h9 => by
      have := hk' ha hd0
      have h7 := one_le_pow₀ (n := dim + 7) (show 1 ≤ 1 + unit p by linarith)
      have h8 : 0 ≤ ((1 + unit p) ^ (dim + 7) - 1) * S := mul_nonneg (by linarith) hS0
      rw [h9, abs_zero] at this
      linarith)
    rw [← h]
    have h' := nelmOp_real a (q := ds.length) (fun i => ds.getD i 0) (fun ha => by rw [← hdsum]; exact hsw ha) (p := q) (by rw [← hdsum]; exact hq) cs ws
      (∑ i ∈ Finset.range dim, ws i * zs i) (b k)
    rw [accProd_real, accProd_real, ← hdsum] at h'
    rw [h', ← hdsum, hzs, hws, hcs]
    rfl
  rw [hex]
  refine herr.trans ?_
  obtain ⟨C, hCd⟩ : ∃ C, C = elmConst a ds.sum S := ⟨_, rfl⟩
  rw [← hCd]
  have hC0 : 0 ≤ C := by
    rw [hCd]
    unfold elmConst
    have : 0 ≤ 1 + S := by linarith
    cases a <;> positivity
  have hz : ∀ i ∉ Finset.range ds.length, ds.getD i 0 = 0 := by
    intro i hi
    have : ds.length ≤ i := by simpa using hi
    simp [List.getD, List.getElem?_eq_none this]
  have hmul : ∏ i : Fin dim, |w i k / (xf i - x0 i)| ^ ds.getD i 0 =
      (∏ i ∈ Finset.range ds.length, |cs i| ^ ds.getD i 0) * ∏ i ∈ Finset.range ds.length, |ws i| ^ ds.getD i 0 := by
    rw [← Finset.prod_mul_distrib, Finset.prod_subset (Finset.range_subset_range.mpr hds) fun i _ hi => by rw [hz i hi, pow_zero, pow_zero, one_mul],
      Finset.prod_range]
    refine Finset.prod_congr rfl fun i _ => ?_
    rw [← mul_pow, ← abs_mul, hcs, hws, padZero_lt _ i.2, padZero_lt _ i.2, one_div_mul_eq_div]
  have hexp : (∑ i ∈ Finset.range ds.length, (2 * ds.getD i 0 + 1 + 1)) + (∑ i ∈ Finset.range ds.length, (0 * ds.getD i 0 + 1 + 1)) + (6 + dim) + 16 =
      2 * ds.sum + 4 * ds.length + dim + 22 := by
    rw [hdsum, Finset.mul_sum]
    simp only [Finset.sum_add_distrib, zero_mul, Finset.sum_const, Finset.card_range, smul_eq_mul]
    ring
  rw [hmul, hexp]
  have hpw : (1 + unit p) ^ (6 + dim + 1) ≤ (1 + unit p) ^ (2 * ds.sum + 4 * ds.length + dim + 22) := pow_le_pow_right₀ (by linarith) (by omega)
  have hdl : (1 + unit p) ^ (2 * ds.sum + 4 * ds.length + dim + 22) - 1 + elmDelta (unit p) ε (6 + dim + 1) S ≤
      ε + ((1 + unit p) ^ (2 * ds.sum + 4 * ds.length + dim + 22) - 1) * (2 + S) := by
    unfold elmDelta
    have := mul_le_mul_of_nonneg_right (show (1 + unit p) ^ (6 + dim + 1) - 1 ≤ (1 + unit p) ^ (2 * ds.sum + 4 * ds.length + dim + 22) - 1 by linarith)
      (show 0 ≤ 1 + S by linarith)
    linarith
  obtain ⟨P, hP⟩ : ∃ P, P = (∏ i ∈ Finset.range ds.length, |cs i| ^ ds.getD i 0) * ∏ i ∈ Finset.range ds.length, |ws i| ^ ds.getD i 0 := ⟨_, rfl⟩
  rw [← hP]
  have hP0 : 0 ≤ P := by
    rw [hP]
    exact mul_nonneg (Finset.prod_nonneg fun _ _ => by positivity) (Finset.prod_nonneg fun _ _ => by positivity)
  have := mul_le_mul_of_nonneg_left hdl (mul_nonneg hC0 hP0)
  linarith

end

/-- A concrete case: doubles, two variables, ten sigmoid neurons, the first removed, the mixed second derivative at four points. -/
example {rnd : ℝ → ℝ} (R : RoundsToNearest 53 rnd) : letI := roundedLibm rnd; letI := roundedLibmExp rnd
    ∃ (e : NElm (Fl rnd)) (V : ℕ → ℕ → Fl rnd),
      nElmObj .sigmoid (fun _ : Fin 2 => (⟨0⟩ : Fl rnd)) (fun _ => ⟨2⟩) (fun i k => ⟨(i : ℝ) + k - 3⟩) (fun k => ⟨(k : ℝ) / 4⟩) [0] 10 = .ok e ∧
      ReturnsMatrix (e.H (Buf.ofMat fun (i : Fin 2) (j : Fin 4) => ⟨((j : ℕ) : ℝ) / 2 + (i : ℝ) / 4⟩) 4 (Buf.ofList [1, 1]) 2 false) 4 (outColumns 10 [0] false) V := by
  let _ := roundedLibm rnd
  let _ := roundedLibmExp rnd
  obtain ⟨e, V, h1, h2, _⟩ := C111_several R (unit_pos 53).le (by unfold unit; norm_num) (roundedLibmExp_accurate R) .sigmoid (fun _ : Fin 2 => 0) (fun _ => 2)
    (by simp) (fun i k => (i : ℝ) + k - 3) (fun k => (k : ℝ) / 4) [0] 10 false 4 (fun j i => (j : ℝ) / 2 + (i : ℝ) / 4) [1, 1] le_rfl (show 2 ≤ 8 by norm_num)
    (Or.inr (Or.inl ⟨by decide, by decide⟩)) (by simp)
  exact ⟨e, V, h1, h2⟩

end Verif.Props
