import Verif.Props.BackendsN

/-!
# C91: the matrices for several variables in rounded arithmetic
-/

namespace Verif.Props

open Verif Verif.Mem Verif.Py Verif.Np Verif.Spec Verif.Model.Rounded

variable {p : ℕ} {rnd : ℝ → ℝ}

/-- The error of a rounded product of approximate factors. -/
theorem opProd_error (R : RoundsToNearest p rnd) : ∀ (n : ℕ) (a : Fin n → Fl rnd) (A M e : Fin n → ℝ), (∀ l, 0 ≤ e l) → (∀ l, |A l| ≤ M l) →
    (∀ l, |(a l).val - A l| ≤ e l * M l) →
    |(opProd n a).val - ∏ l, A l| ≤ ((∏ l, ((1 + e l) * (1 + unit p))) - 1) * ∏ l, M l ∧ |∏ l, A l| ≤ ∏ l, M l ∧ 1 ≤ ∏ l, ((1 + e l) * (1 + unit p)) := by
  intro n
  have hu := unit_pos p
  induction n with
  | zero =>
    intro a A M e _ _ _
    have : (opProd 0 a).val = 1 := rfl
    simp [this]
  | succ n ih =>
    intro a A M e he hA hM
    obtain ⟨h1, h2, h3⟩ := ih (fun l => a l.castSucc) (fun l => A l.castSucc) (fun l => M l.castSucc) (fun l => e l.castSucc)
      (fun l => he _) (fun l => hA _) (fun l => hM _)
    simp only [Fin.prod_univ_castSucc]
    have hv : (opProd (n + 1) a).val = rnd ((opProd n fun l => a l.castSucc).val * (a (Fin.last n)).val) := rfl
    rw [hv]
    obtain ⟨P, hP⟩ : ∃ P, P = ∏ l : Fin n, A l.castSucc := ⟨_, rfl⟩
    obtain ⟨Q, hQ⟩ : ∃ Q, Q = ∏ l : Fin n, M l.castSucc := ⟨_, rfl⟩
    obtain ⟨G, hG⟩ : ∃ G, G = ∏ l : Fin n, ((1 + e l.castSucc) * (1 + unit p)) := ⟨_, rfl⟩
    obtain ⟨q, hq⟩ : ∃ q, q = (opProd n fun l => a l.castSucc).val := ⟨_, rfl⟩
    obtain ⟨b, hb⟩ : ∃ b, b = (a (Fin.last n)).val := ⟨_, rfl⟩
    have h4 := he (Fin.last n)
    have h5 := hA (Fin.last n)
    have h6 := hM (Fin.last n)
    rw [← hP, ← hQ, ← hG, ← hq] at h1
    rw [← hP, ← hQ] at h2
    rw [← hG] at h3
    rw [← hb] at h6
    rw [← hP, ← hQ, ← hG, ← hq, ← hb]
    obtain ⟨ε, hε⟩ : ∃ ε, ε = e (Fin.last n) := ⟨_, rfl⟩
    obtain ⟨B, hB⟩ : ∃ B, B = A (Fin.last n) := ⟨_, rfl⟩
    obtain ⟨N, hN⟩ : ∃ N, N = M (Fin.last n) := ⟨_, rfl⟩
    rw [← hε] at h4 h6 ⊢
    rw [← hB] at h5 h6 ⊢
    rw [← hN] at h5 h6 ⊢
    have hQ0 : 0 ≤ Q := (abs_nonneg P).trans h2
    have hN0 : 0 ≤ N := (abs_nonneg B).trans h5
    refine ⟨?_, ?_, ?_⟩
    · have q1 : |q| ≤ G * Q := by
        have := abs_sub_abs_le_abs_sub q P
        linarith
      have b1 : |b| ≤ (1 + ε) * N := by
        have := abs_sub_abs_le_abs_sub b B
        linarith
      have r1 := rnd_error' R (q * b)
      rw [abs_mul] at r1
      have r2 : |q| * |b| ≤ G * Q * ((1 + ε) * N) := mul_le_mul q1 b1 (abs_nonneg _) ((abs_nonneg _).trans q1)
      have r3 := mul_le_mul_of_nonneg_left r2 hu.le
      have s1 : q * b - P * B = q * (b - B) + (q - P) * B := by ring
      have s2 : |q * b - P * B| ≤ G * Q * (ε * N) + (G - 1) * Q * N := by
        rw [s1]
        refine (abs_add_le _ _).trans ?_
        rw [abs_mul, abs_mul]
        exact add_le_add (mul_le_mul q1 h6 (abs_nonneg _) ((abs_nonneg _).trans q1))
          (mul_le_mul h1 h5 (abs_nonneg _) ((abs_nonneg _).trans h1))
      have t := abs_add_le (rnd (q * b) - q * b) (q * b - P * B)
      rw [show rnd (q * b) - q * b + (q * b - P * B) = rnd (q * b) - P * B by ring] at t
      have : (G * ((1 + ε) * (1 + unit p)) - 1) * (Q * N) = unit p * (G * Q * ((1 + ε) * N)) + (G * Q * (ε * N) + (G - 1) * Q * N) := by ring
      rw [this]
      linarith
    · rw [abs_mul]
      exact mul_le_mul h2 h5 (abs_nonneg _) hQ0
    · have : 1 ≤ (1 + ε) * (1 + unit p) := by nlinarith
      exact one_le_mul_of_one_le_of_one_le h3 this

/-- A product of factors `1 + e` close to 1. -/
theorem prod_sub_one_le {n : ℕ} {u s : ℝ} (hu : 0 ≤ u) (e : Fin n → ℝ) (he : ∀ l, 0 ≤ e l) (hs : ∑ l, e l + n * u ≤ s) (h1 : s ≤ 1) :
    (∏ l, ((1 + e l) * (1 + u))) - 1 ≤ 2 * s := by
  have h : ∏ l, ((1 + e l) * (1 + u)) ≤ Real.exp s := by
    calc ∏ l, ((1 + e l) * (1 + u)) ≤ ∏ l, Real.exp (e l + u) := by
          refine Finset.prod_le_prod (fun l _ => by have := he l; positivity) fun l _ => ?_
          rw [Real.exp_add]
          refine mul_le_mul ?_ ?_ (by linarith) (Real.exp_pos _).le
          · have := Real.add_one_le_exp (e l)
            linarith
          · have := Real.add_one_le_exp u
            linarith
      _ = Real.exp (∑ l, (e l + u)) := (Real.exp_sum _ _).symm
      _ ≤ Real.exp s := by
          refine Real.exp_le_exp.2 ?_
          rw [Finset.sum_add_distrib]
          simpa using hs
  have hs0 : 0 ≤ s := le_trans (by have := Finset.sum_nonneg fun l (_ : l ∈ Finset.univ) => he l; positivity) hs
  have := Real.abs_exp_sub_one_le (x := s) (by rwa [abs_of_nonneg hs0])
  rw [abs_of_nonneg hs0] at this
  have := le_abs_self (Real.exp s - 1)
  linarith

/-- One factor of a Chebyshev product. -/
theorem cp_entry (R : RoundsToNearest p rnd) (hp : 6 ≤ p) {x0 xf x : ℝ} (h01 : x0 < xf) {m : ℕ} (d : ℕ) (hmu : (8 + 14 * d) * unit p * m ^ 2 ≤ 1) {k : ℕ}
    (hk : k < m) (hx : x0 ≤ x ∧ x ≤ xf) :
    |(opTable .cp d (((⟨x⟩ : Fl rnd) - ⟨x0⟩) * ((1 - -1) / (⟨xf⟩ - ⟨x0⟩)) + -1) k * ((1 - -1) / (⟨xf⟩ - ⟨x0⟩)) ^ d : Fl rnd).val -
      iteratedDeriv d (NFamily.cp.cls.basis x0 xf k) x| ≤ (25 + 26 * d) * unit p * (k : ℝ) ^ 2 * (d.factorial * (k : ℝ) ^ (2 * d) * (2 / (xf - x0)) ^ d) := by
  have hm : 1 ≤ m := by omega
  have hcol : outColumns m [] true = List.range m := by simp [outColumns]
  obtain ⟨F, h1, h3⟩ := C87_derivatives R hp h01 (nC := []) hm d hmu true (Or.inl rfl) (x := Buf.ofFn 1 fun _ => (⟨x⟩ : Fl rnd)) (n := 1) (xs := fun _ => x)
    (fun j hj => Buf.ofFn_read hj) (fun _ _ => hx)
  obtain ⟨⟨a, b, F'⟩, g1, g2, g3, g4⟩ := H_spec (Model.CC.polyNew .cp (⟨x0⟩ : Fl rnd) ⟨xf⟩ [] m) (d := d) (E := opTable .cp d)
      (by rw [polyNew_m]; exact polyNew_hint .cp _ _ [] hm d) (x := Buf.ofFn 1 fun _ => (⟨x⟩ : Fl rnd)) (n := 1) (xs := fun _ => ⟨x⟩)
      (fun j hj => Buf.ofFn_read hj) true (Or.inl rfl)
  have h1' : (Model.CC.polyNew .cp (⟨x0⟩ : Fl rnd) ⟨xf⟩ [] m).H (Buf.ofFn 1 fun _ => (⟨x⟩ : Fl rnd)) 1 d true = _ := h1
  rw [h1'] at g1
  injection g1 with g1
  injection g1 with _ g1
  injection g1 with _ g1
  subst g1
  have hk' : k < (outColumns m [] true).length := by rw [hcol, List.length_range]; exact hk
  obtain ⟨v, v1, v2⟩ := h3 0 (by omega) k hk'
  have hkk : (outColumns m [] true)[k] = k := by simp [hcol]
  have g5 := g4.read (j := 0) (c := k) (by omega) hk' (v := opTable .cp d (((⟨x⟩ : Fl rnd) - ⟨x0⟩) * ((1 - -1) / (⟨xf⟩ - ⟨x0⟩)) + -1) k *
      ((1 - -1) / (⟨xf⟩ - ⟨x0⟩)) ^ d) (by
    have : (outColumns (Model.CC.polyNew .cp (⟨x0⟩ : Fl rnd) ⟨xf⟩ [] m).m (Model.CC.polyNew .cp (⟨x0⟩ : Fl rnd) ⟨xf⟩ [] m).nC true)[k]? = some k := by
      show (outColumns m [] true)[k]? = some k
      rw [List.getElem?_eq_getElem hk', hkk]
    rw [this]
    rfl)
  have g6 : F.read ((outColumns m [] true).length * 0 + k) = .ok _ := g5
  rw [v1] at g6
  injection g6 with g6
  subst g6
  rw [hkk] at v2
  have hb : NFamily.cp.cls.basis x0 xf k = fun x => chebT k (-1 + (x - x0) * (2 / (xf - x0))) := by
    funext t
    show chebT k (-1 + (1 - -1) * (t - x0) / (xf - x0)) = _
    congr 2
    ring
  rw [hb]
  refine v2.trans (le_of_eq ?_)
  rw [mul_add 2 d 1, pow_add]
  ring

/-- The size of the exact factor. -/
theorem cp_entry_le {x0 xf x : ℝ} (h01 : x0 < xf) (d k : ℕ) (hx : x0 ≤ x ∧ x ≤ xf) :
    |iteratedDeriv d (NFamily.cp.cls.basis x0 xf k) x| ≤ d.factorial * (k : ℝ) ^ (2 * d) * (2 / (xf - x0)) ^ d := by
  have hL : 0 < xf - x0 := by linarith
  have h := NFamily.deriv .cp x0 xf d k x
  have hu : uniE NFamily.cp.cls d ((x - x0) * (((NFamily.dom .cp).2 - (NFamily.dom .cp).1) / (xf - x0)) + (NFamily.dom .cp).1) k =
    polyD ℝ .cp d ((x - x0) * ((1 - -1) / (xf - x0)) + -1) k := rfl
  rw [h, hu, abs_mul]
  have hc : ((NFamily.dom .cp).2 - (NFamily.dom .cp).1) / (xf - x0) = 2 / (xf - x0) := by
    show (1 - -1) / (xf - x0) = 2 / (xf - x0)
    norm_num
  rw [hc, abs_of_nonneg (show 0 ≤ (2 / (xf - x0)) ^ d by positivity)]
  refine mul_le_mul_of_nonneg_right (chebD_le ?_ d k) (by positivity)
  have a0 : (1 - -1 : ℝ) = 2 := by norm_num
  have a1 : 0 ≤ (x - x0) * (2 / (xf - x0)) := mul_nonneg (by linarith [hx.1]) (by positivity)
  have a2 : (x - x0) * (2 / (xf - x0)) ≤ 2 := by
    rw [mul_div_assoc', div_le_iff₀ hL]
    linarith [hx.2]
  rw [a0, abs_le]
  constructor <;> linarith

/-- One factor of a Legendre product. -/
theorem lep_entry (R : RoundsToNearest p rnd) (hp : 6 ≤ p) {x0 xf x : ℝ} (h01 : x0 < xf) {m : ℕ} (d : ℕ) (hmu : (24 + 32 * d) * unit p * m ^ 2 ≤ 1) {k : ℕ}
    (hk : k < m) (hx : x0 ≤ x ∧ x ≤ xf) :
    |(opTable .lep d (((⟨x⟩ : Fl rnd) - ⟨x0⟩) * ((1 - -1) / (⟨xf⟩ - ⟨x0⟩)) + -1) k * ((1 - -1) / (⟨xf⟩ - ⟨x0⟩)) ^ d : Fl rnd).val -
      iteratedDeriv d (NFamily.lep.cls.basis x0 xf k) x| ≤ (39 + 42 * d) * unit p * (k : ℝ) ^ 2 * (((3 / 2) ^ d * d.factorial) * (k : ℝ) ^ (2 * d) * (2 / (xf - x0)) ^ d) := by
  have hm : 1 ≤ m := by omega
  have hcol : outColumns m [] true = List.range m := by simp [outColumns]
  obtain ⟨F, h1, h3⟩ := C88_legendre R hp h01 (nC := []) hm d hmu true (Or.inl rfl) (x := Buf.ofFn 1 fun _ => (⟨x⟩ : Fl rnd)) (n := 1) (xs := fun _ => x)
    (fun j hj => Buf.ofFn_read hj) (fun _ _ => hx)
  obtain ⟨⟨a, b, F'⟩, g1, g2, g3, g4⟩ := H_spec (Model.CC.polyNew .lep (⟨x0⟩ : Fl rnd) ⟨xf⟩ [] m) (d := d) (E := opTable .lep d)
      (by rw [polyNew_m]; exact polyNew_hint .lep _ _ [] hm d) (x := Buf.ofFn 1 fun _ => (⟨x⟩ : Fl rnd)) (n := 1) (xs := fun _ => ⟨x⟩)
      (fun j hj => Buf.ofFn_read hj) true (Or.inl rfl)
  have h1' : (Model.CC.polyNew .lep (⟨x0⟩ : Fl rnd) ⟨xf⟩ [] m).H (Buf.ofFn 1 fun _ => (⟨x⟩ : Fl rnd)) 1 d true = _ := h1
  rw [h1'] at g1
  injection g1 with g1
  injection g1 with _ g1
  injection g1 with _ g1
  subst g1
  have hk' : k < (outColumns m [] true).length := by rw [hcol, List.length_range]; exact hk
  obtain ⟨v, v1, v2⟩ := h3 0 (by omega) k hk'
  have hkk : (outColumns m [] true)[k] = k := by simp [hcol]
  have g5 := g4.read (j := 0) (c := k) (by omega) hk' (v := opTable .lep d (((⟨x⟩ : Fl rnd) - ⟨x0⟩) * ((1 - -1) / (⟨xf⟩ - ⟨x0⟩)) + -1) k *
      ((1 - -1) / (⟨xf⟩ - ⟨x0⟩)) ^ d) (by
    have : (outColumns (Model.CC.polyNew .lep (⟨x0⟩ : Fl rnd) ⟨xf⟩ [] m).m (Model.CC.polyNew .lep (⟨x0⟩ : Fl rnd) ⟨xf⟩ [] m).nC true)[k]? = some k := by
      show (outColumns m [] true)[k]? = some k
      rw [List.getElem?_eq_getElem hk', hkk]
    rw [this]
    rfl)
  have g6 : F.read ((outColumns m [] true).length * 0 + k) = .ok _ := g5
  rw [v1] at g6
  injection g6 with g6
  subst g6
  rw [hkk] at v2
  have hb : NFamily.lep.cls.basis x0 xf k = fun x => legP k (-1 + (x - x0) * (2 / (xf - x0))) := by
    funext t
    show legP k (-1 + (1 - -1) * (t - x0) / (xf - x0)) = _
    congr 2
    ring
  rw [hb]
  refine v2.trans (le_of_eq ?_)
  rw [mul_add 2 d 1, pow_add]
  ring

/-- The size of the exact factor. -/
theorem lep_entry_le {x0 xf x : ℝ} (h01 : x0 < xf) (d k : ℕ) (hx : x0 ≤ x ∧ x ≤ xf) :
    |iteratedDeriv d (NFamily.lep.cls.basis x0 xf k) x| ≤ ((3 / 2) ^ d * d.factorial) * (k : ℝ) ^ (2 * d) * (2 / (xf - x0)) ^ d := by
  have hL : 0 < xf - x0 := by linarith
  have h := NFamily.deriv .lep x0 xf d k x
  have hu : uniE NFamily.lep.cls d ((x - x0) * (((NFamily.dom .lep).2 - (NFamily.dom .lep).1) / (xf - x0)) + (NFamily.dom .lep).1) k =
    polyD ℝ .lep d ((x - x0) * ((1 - -1) / (xf - x0)) + -1) k := rfl
  rw [h, hu, abs_mul]
  have hc : ((NFamily.dom .lep).2 - (NFamily.dom .lep).1) / (xf - x0) = 2 / (xf - x0) := by
    show (1 - -1) / (xf - x0) = 2 / (xf - x0)
    norm_num
  rw [hc, abs_of_nonneg (show 0 ≤ (2 / (xf - x0)) ^ d by positivity)]
  refine mul_le_mul_of_nonneg_right (legD_le ?_ d k) (by positivity)
  have a0 : (1 - -1 : ℝ) = 2 := by norm_num
  have a1 : 0 ≤ (x - x0) * (2 / (xf - x0)) := mul_nonneg (by linarith [hx.1]) (by positivity)
  have a2 : (x - x0) * (2 / (xf - x0)) ≤ 2 := by
    rw [mul_div_assoc', div_le_iff₀ hL]
    linarith [hx.2]
  rw [a0, abs_le]
  constructor <;> linarith

theorem nError (R : RoundsToNearest p rnd) (f : NFamily) (E : ℕ → Fl rnd → ℕ → Fl rnd) {dim m : ℕ} (x0 xf x : ℕ → ℝ) (ds : List ℕ) (α : Fin dim → ℕ)
    {C : ℝ} (hC : 0 ≤ C) (M : Fin dim → ℝ) (hα : ∑ l, α l < m) (hs : (C * m ^ 2 + dim) * unit p ≤ 1)
    (hE : ∀ l : Fin dim, |(E (ds.getD l 0) (((⟨x l⟩ : Fl rnd) - ⟨x0 l⟩) * ((1 - -1) / (⟨xf l⟩ - ⟨x0 l⟩)) + -1) (α l) *
      ((1 - -1) / (⟨xf l⟩ - ⟨x0 l⟩)) ^ ds.getD l 0 : Fl rnd).val - iteratedDeriv (ds.getD l 0) (f.cls.basis (x0 l) (xf l) (α l)) (x l)| ≤
        C * unit p * (α l : ℝ) ^ 2 * M l)
    (hA : ∀ l : Fin dim, |iteratedDeriv (ds.getD l 0) (f.cls.basis (x0 l) (xf l) (α l)) (x l)| ≤ M l) :
    |(opEntry E (-1) 1 (fun l => ⟨x0 l⟩) (fun l => ⟨xf l⟩) ds (fun l => ⟨x l⟩) α).val -
      mixedPartial (fun k : Fin dim => ds.getD k 0) (f.cls.tensor (fun k : Fin dim => x0 k) (fun k => xf k) α) (fun k => x k)| ≤
      2 * ((C * ∑ l, (α l : ℝ) ^ 2 + dim) * unit p) * ∏ l, M l := by
  have hu := unit_pos p
  have ht : f.cls.tensor (fun k : Fin dim => x0 k) (fun k => xf k) α =
      fun x => ∏ l : Fin dim, f.cls.basis (x0 l) (xf l) (α l) (x l) := rfl
  rw [ht, mixedPartial_tensor]
  have he : ∀ l : Fin dim, 0 ≤ C * unit p * (α l : ℝ) ^ 2 := fun l => by positivity
  obtain ⟨h1, _, _⟩ := opProd_error R dim (fun l : Fin dim => E (ds.getD l 0) (((⟨x l⟩ : Fl rnd) - ⟨x0 l⟩) * ((1 - -1) / (⟨xf l⟩ - ⟨x0 l⟩)) + -1) (α l) *
      ((1 - -1) / (⟨xf l⟩ - ⟨x0 l⟩)) ^ ds.getD l 0) (fun l => iteratedDeriv (ds.getD l 0) (f.cls.basis (x0 l) (xf l) (α l)) (x l)) M
      (fun l => C * unit p * (α l : ℝ) ^ 2) he hA hE
  have hsq : ∑ l, (α l : ℝ) ^ 2 ≤ (m : ℝ) ^ 2 := by
    have a1 : ∑ l, (α l : ℝ) ^ 2 ≤ (∑ l, (α l : ℝ)) ^ 2 := Finset.sum_sq_le_sq_sum_of_nonneg fun l _ => by positivity
    have a2 : (∑ l, (α l : ℝ)) ≤ m := by exact_mod_cast hα.le
    exact a1.trans (pow_le_pow_left₀ (Finset.sum_nonneg fun l _ => by positivity) a2 2)
  have hle : (C * ∑ l, (α l : ℝ) ^ 2 + dim) * unit p ≤ 1 := by
    refine le_trans (mul_le_mul_of_nonneg_right ?_ hu.le) hs
    have := mul_le_mul_of_nonneg_left hsq hC
    linarith
  have h2 := prod_sub_one_le hu.le (fun l => C * unit p * (α l : ℝ) ^ 2) he (s := (C * ∑ l, (α l : ℝ) ^ 2 + dim) * unit p) (by
    rw [← Finset.mul_sum]
    linarith) hle
  refine h1.trans (mul_le_mul_of_nonneg_right h2 (Finset.prod_nonneg fun l _ => (abs_nonneg _).trans (hA l)))

/-- **C91**, Chebyshev: with every operation rounded to nearest, both backends compute for the multi-index `α` and the orders `d l ≤ D` values that
differ from the mixed derivative of the product of the `T (α l)` of the exactly mapped coordinates by at most
`2 u (dim + (25 + 26 D) Σ (α l)²) ∏ d!  (α l)^(2 d l) c^(d l)`. -/
theorem C91_chebyshev (R : RoundsToNearest p rnd) (hp : 6 ≤ p) {dim m numC : ℕ} (hdim : 1 ≤ dim) (hm : 1 ≤ m) {x0 xf : ℕ → ℝ} (h01 : ∀ l < dim, x0 l < xf l)
    (nC : ℕ → ℕ → ℤ) (D : ℕ) (hmu : ((25 + 26 * (D : ℝ)) * m ^ 2 + dim) * unit p ≤ 1) :
    ∃ bc bp, Model.CC.nCP.new (Buf.ofVec fun k : Fin dim => (⟨x0 k⟩ : Fl rnd)) dim (Buf.ofVec fun k : Fin dim => ⟨xf k⟩)
        (Buf.ofMat fun (k : Fin dim) (g : Fin numC) => nC k g) dim numC m = .ok bc ∧
      Model.PyBF.nCP.init (fun l => (⟨x0 l⟩ : Fl rnd)) (fun l => ⟨xf l⟩) nC dim numC m = .ok bp ∧ ∀ full, ∃ L,
        IsColumnOrder m (fun k : Fin dim => (List.range numC).map (nC k)) full L ∧
        ∀ (n : ℕ) (xs : ℕ → ℕ → ℝ) (ds : List ℕ), (∀ j < n, ∀ l < dim, x0 l ≤ xs j l ∧ xs j l ≤ xf l) → dim ≤ ds.length →
          (∀ l < dim, ds.getD l 0 ≤ D) → ∃ V : ℕ → (Fin dim → ℕ) → Fl rnd,
          ReturnsMatrix (bc.H (Buf.ofMat fun (k : Fin dim) (j : Fin n) => (⟨xs j k⟩ : Fl rnd)) n (Buf.ofList ds) ds.length full) n L V ∧
          ReturnsArray (bp.H dim n (fun k j => ⟨xs j k⟩) ds full) n L V ∧
          ∀ j < n, ∀ α ∈ L, |(V j α).val -
            mixedPartial (fun k : Fin dim => ds.getD k 0) (NFamily.cp.cls.tensor (fun k : Fin dim => x0 k) (fun k => xf k) α) (fun k => xs j k)| ≤
            2 * (((25 + 26 * (D : ℝ)) * ∑ l, (α l : ℝ) ^ 2 + dim) * unit p) *
              ∏ l : Fin dim, ((ds.getD l 0).factorial * (α l : ℝ) ^ (2 * ds.getD l 0) * (2 / (xf l - x0 l)) ^ ds.getD l 0) := by
  have hu := unit_pos p
  obtain ⟨bc, b1, b2⟩ := nSame_cc (hc := Model.CC.CP.hint) (E := opTable .cp) (numC := numC) hdim
    (fun d => polyNew_hint .cp (0 : Fl rnd) 1 [] hm d) (-1) 1 (fun l => ⟨x0 l⟩) (fun l => ⟨xf l⟩) nC
  obtain ⟨bp, p1, p2⟩ := nSame_py (hp := Model.PyBF.CP.hint) (E := opTable .cp) (numC := numC) hdim
    (fun N dk z => cpPy_op hm N dk z) (-1) 1 (fun l => (⟨x0 l⟩ : Fl rnd)) (fun l => ⟨xf l⟩) nC
  refine ⟨bc, bp, b1, p1, fun full => ⟨_, multiColumns_order _ _ _, fun n xs ds hin hds hD => ⟨_,
    (b2 full n (fun j k => ⟨xs j k⟩) ds (alloc (n * _)) hds rfl).1, p2 full n (fun j k => ⟨xs j k⟩) ds hds, fun j hj α hα => ?_⟩⟩⟩
  have hα' := ((multiColumns_order m (fun l : Fin dim => tabRow numC nC l) full).mem α).mp hα
  have hk : ∀ l, α l < m := fun l => admissible_lt hα' l
  have hDl : ∀ l : Fin dim, (ds.getD l 0 : ℝ) ≤ D := fun l => by exact_mod_cast hD l l.2
  refine nError R .cp (opTable .cp) x0 xf (xs j) ds α (by positivity) _ hα'.1 hmu (fun l => ?_) (fun l => cp_entry_le (h01 l l.2) _ _ (hin j hj l l.2))
  refine (cp_entry R hp (h01 l l.2) (ds.getD l 0) ?_ (hk l) (hin j hj l l.2)).trans ?_
  · have a1 : (8 + 14 * ((ds.getD l 0 : ℕ) : ℝ)) ≤ (25 + 26 * (D : ℝ)) := by
      have := hDl l
      have h0 : (0 : ℝ) ≤ D := by positivity
      linarith
    have a2 := mul_le_mul_of_nonneg_right a1 (show 0 ≤ unit p * (m : ℝ) ^ 2 by positivity)
    have a3 : 0 ≤ (dim : ℝ) * unit p := by positivity
    have a4 : ((25 + 26 * (D : ℝ)) * (m : ℝ) ^ 2 + dim) * unit p = (25 + 26 * (D : ℝ)) * (unit p * (m : ℝ) ^ 2) + dim * unit p := by ring
    rw [a4] at hmu
    linarith
  · have hL : 0 < xf l - x0 l := by linarith [h01 l l.2]
    refine mul_le_mul_of_nonneg_right (mul_le_mul_of_nonneg_right (mul_le_mul_of_nonneg_right ?_ hu.le) (by positivity)) (by positivity)
    have := hDl l
    linarith

/-- **C91**, Legendre: with every operation rounded to nearest, both backends compute for the multi-index `α` and the orders `d l ≤ D` values that
differ from the mixed derivative of the product of the `P (α l)` of the exactly mapped coordinates by at most
`2 u (dim + (39 + 42 D) Σ (α l)²) ∏ (3/2)^d d! (α l)^(2 d l) c^(d l)`. -/
theorem C91_legendre (R : RoundsToNearest p rnd) (hp : 6 ≤ p) {dim m numC : ℕ} (hdim : 1 ≤ dim) (hm : 1 ≤ m) {x0 xf : ℕ → ℝ} (h01 : ∀ l < dim, x0 l < xf l)
    (nC : ℕ → ℕ → ℤ) (D : ℕ) (hmu : ((39 + 42 * (D : ℝ)) * m ^ 2 + dim) * unit p ≤ 1) :
    ∃ bc bp, Model.CC.nLeP.new (Buf.ofVec fun k : Fin dim => (⟨x0 k⟩ : Fl rnd)) dim (Buf.ofVec fun k : Fin dim => ⟨xf k⟩)
        (Buf.ofMat fun (k : Fin dim) (g : Fin numC) => nC k g) dim numC m = .ok bc ∧
      Model.PyBF.nLeP.init (fun l => (⟨x0 l⟩ : Fl rnd)) (fun l => ⟨xf l⟩) nC dim numC m = .ok bp ∧ ∀ full, ∃ L,
        IsColumnOrder m (fun k : Fin dim => (List.range numC).map (nC k)) full L ∧
        ∀ (n : ℕ) (xs : ℕ → ℕ → ℝ) (ds : List ℕ), (∀ j < n, ∀ l < dim, x0 l ≤ xs j l ∧ xs j l ≤ xf l) → dim ≤ ds.length →
          (∀ l < dim, ds.getD l 0 ≤ D) → ∃ V : ℕ → (Fin dim → ℕ) → Fl rnd,
          ReturnsMatrix (bc.H (Buf.ofMat fun (k : Fin dim) (j : Fin n) => (⟨xs j k⟩ : Fl rnd)) n (Buf.ofList ds) ds.length full) n L V ∧
          ReturnsArray (bp.H dim n (fun k j => ⟨xs j k⟩) ds full) n L V ∧
          ∀ j < n, ∀ α ∈ L, |(V j α).val -
            mixedPartial (fun k : Fin dim => ds.getD k 0) (NFamily.lep.cls.tensor (fun k : Fin dim => x0 k) (fun k => xf k) α) (fun k => xs j k)| ≤
            2 * (((39 + 42 * (D : ℝ)) * ∑ l, (α l : ℝ) ^ 2 + dim) * unit p) *
              ∏ l : Fin dim, (((3 / 2) ^ ds.getD l 0 * (ds.getD l 0).factorial) * (α l : ℝ) ^ (2 * ds.getD l 0) * (2 / (xf l - x0 l)) ^ ds.getD l 0) := by
  have hu := unit_pos p
  obtain ⟨bc, b1, b2⟩ := nSame_cc (hc := Model.CC.LeP.hint) (E := opTable .lep) (numC := numC) hdim
    (fun d => polyNew_hint .lep (0 : Fl rnd) 1 [] hm d) (-1) 1 (fun l => ⟨x0 l⟩) (fun l => ⟨xf l⟩) nC
  obtain ⟨bp, p1, p2⟩ := nSame_py (hp := Model.PyBF.LeP.hint) (E := opTable .lep) (numC := numC) hdim
    (fun N dk z => lepPy_op hm N dk z) (-1) 1 (fun l => (⟨x0 l⟩ : Fl rnd)) (fun l => ⟨xf l⟩) nC
  refine ⟨bc, bp, b1, p1, fun full => ⟨_, multiColumns_order _ _ _, fun n xs ds hin hds hD => ⟨_,
    (b2 full n (fun j k => ⟨xs j k⟩) ds (alloc (n * _)) hds rfl).1, p2 full n (fun j k => ⟨xs j k⟩) ds hds, fun j hj α hα => ?_⟩⟩⟩
  have hα' := ((multiColumns_order m (fun l : Fin dim => tabRow numC nC l) full).mem α).mp hα
  have hk : ∀ l, α l < m := fun l => admissible_lt hα' l
  have hDl : ∀ l : Fin dim, (ds.getD l 0 : ℝ) ≤ D := fun l => by exact_mod_cast hD l l.2
  refine nError R .lep (opTable .lep) x0 xf (xs j) ds α (by positivity) _ hα'.1 hmu (fun l => ?_) (fun l => lep_entry_le (h01 l l.2) _ _ (hin j hj l l.2))
  refine (lep_entry R hp (h01 l l.2) (ds.getD l 0) ?_ (hk l) (hin j hj l l.2)).trans ?_
  · have a1 : (24 + 32 * ((ds.getD l 0 : ℕ) : ℝ)) ≤ (39 + 42 * (D : ℝ)) := by
      have := hDl l
      have h0 : (0 : ℝ) ≤ D := by positivity
      linarith
    have a2 := mul_le_mul_of_nonneg_right a1 (show 0 ≤ unit p * (m : ℝ) ^ 2 by positivity)
    have a3 : 0 ≤ (dim : ℝ) * unit p := by positivity
    have a4 : ((39 + 42 * (D : ℝ)) * (m : ℝ) ^ 2 + dim) * unit p = (39 + 42 * (D : ℝ)) * (unit p * (m : ℝ) ^ 2) + dim * unit p := by ring
    rw [a4] at hmu
    linarith
  · have hL : 0 < xf l - x0 l := by linarith [h01 l l.2]
    refine mul_le_mul_of_nonneg_right (mul_le_mul_of_nonneg_right (mul_le_mul_of_nonneg_right ?_ hu.le) (by positivity)) (by positivity)
    have := hDl l
    linarith

/-- A concrete case: two variables, Chebyshev polynomials of total degree at most 29 in doubles on `[0,1] × [0,4]`, first derivative in the second
variable. -/
example (R : RoundsToNearest 53 rnd) : ∃ bc, Model.CC.nCP.new (Buf.ofVec fun _ : Fin 2 => (⟨0⟩ : Fl rnd)) 2 (Buf.ofVec fun k : Fin 2 => ⟨1 + 3 * (k : ℕ)⟩)
      (Buf.ofMat fun (_ : Fin 2) (g : Fin 1) => ((g : ℕ) : ℤ)) 2 1 30 = .ok bc ∧ ∃ (L : List (Fin 2 → ℕ)) (V : ℕ → (Fin 2 → ℕ) → Fl rnd),
      ReturnsMatrix (bc.H (Buf.ofMat fun (k : Fin 2) (j : Fin 10) => (⟨(j : ℕ) / 10⟩ : Fl rnd)) 10 (Buf.ofList [0, 1]) 2 false) 10 L V := by
  obtain ⟨bc, _, h1, _, h3⟩ := C91_chebyshev R (by norm_num) (dim := 2) (m := 30) (numC := 1) (by norm_num) (by norm_num) (x0 := fun _ => 0) (xf := fun k => 1 + 3 * k)
    (fun l _ => by positivity) (fun _ g => g) 1 (by unfold unit; norm_num)
  obtain ⟨L, _, h4⟩ := h3 false
  obtain ⟨V, h5, _, _⟩ := h4 10 (fun j _ => (j : ℝ) / 10) [0, 1] (fun j hj l _ => by
    have h0 : (0 : ℝ) ≤ l := by positivity
    have h1 : (j : ℝ) ≤ 10 := by exact_mod_cast hj.le
    constructor
    · positivity
    · linarith) (by simp) (by
      intro l hl
      interval_cases l <;> simp)
  exact ⟨bc, h1, L, V, h5⟩

end Verif.Props
