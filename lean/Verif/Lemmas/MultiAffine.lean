import Verif.Lemmas.Multi
import Verif.Lemmas.ElmDeriv

/-! # Mixed partial derivatives of a function of an affine combination of the variables -/

namespace Verif

open Verif.Spec Filter Topology

/-- Derivatives of `max(0, ·)` away from zero. -/
noncomputable def reluG : ℕ → ℝ → ℝ
  | 0, t => relu t
  | 1, t => if 0 < t then 1 else 0
  | _ + 2, _ => 0

/-- The `d`-th derivative of an activation function (for ReLU: away from zero). -/
noncomputable def actG : Activation → ℕ → ℝ → ℝ
  | .relu, d, t => reluG d t
  | .sigmoid, d, t => (odeP (Polynomial.X - Polynomial.X ^ 2) d).eval (sigmoid t)
  | .tanh, d, t => (odeP (1 - Polynomial.X ^ 2) d).eval (Real.tanh t)
  | .sin, d, t => sinG d t
  | .swish, d, t => swishG d t

theorem actG_zero (a : Activation) : actG a 0 = act a := by
  cases a
  · rfl
  · ext t; simp [actG, act, odeP]
  · ext t; simp [actG, act, odeP]
  · ext t; simp [actG, act, sinG]
  · ext t; simp [actG, act, swishG, swish, odeP]

theorem actG_hasDeriv {a : Activation} (ha : a ≠ .relu) (d : ℕ) (t : ℝ) :
    HasDerivAt (actG a d) (actG a (d + 1) t) t := by
  cases a
  · exact absurd rfl ha
  · exact odeP_hasDeriv sigmoid_hasDeriv d t
  · exact odeP_hasDeriv tanh_hasDeriv d t
  · exact sinG_hasDeriv d t
  · exact swishG_hasDeriv d t

variable {dim : ℕ}

theorem partialDeriv_affine (G : ℕ → ℝ → ℝ) (hG : ∀ i t, HasDerivAt (G i) (G (i + 1) t) t) (a : Fin dim → ℝ) (b C : ℝ)
    (k : Fin dim) (i : ℕ) :
    partialDeriv k (fun x => C * G i (∑ l, a l * x l + b)) = fun x => C * a k * G (i + 1) (∑ l, a l * x l + b) := by
  funext x
  unfold partialDeriv
  have hsum : ∀ t, ∑ l, a l * Function.update x k t l = a k * t + ∑ l ∈ Finset.univ.erase k, a l * x l := by
    intro t
    rw [← Finset.add_sum_erase _ _ (Finset.mem_univ k), Function.update_self]
    congr 1
    refine Finset.sum_congr rfl fun l hl => ?_
    rw [Function.update_of_ne (Finset.ne_of_mem_erase hl)]
  have hsx : ∑ l, a l * x l = a k * x k + ∑ l ∈ Finset.univ.erase k, a l * x l := by
    have := hsum (x k); rwa [Function.update_eq_self] at this
  simp only [hsum]
  rw [hsx]
  have h1 : HasDerivAt (fun t => a k * t + ∑ l ∈ Finset.univ.erase k, a l * x l + b) (a k) (x k) := by
    simpa using (((hasDerivAt_id (x k)).const_mul (a k)).add_const (∑ l ∈ Finset.univ.erase k, a l * x l)).add_const b
  have h2 := ((hG i (a k * x k + ∑ l ∈ Finset.univ.erase k, a l * x l + b)).comp (x k) h1).const_mul C
  have h3 := h2.deriv
  simp only [Function.comp_def] at h3
  rw [h3]
  ring

theorem partialDeriv_iterate_affine (G : ℕ → ℝ → ℝ) (hG : ∀ i t, HasDerivAt (G i) (G (i + 1) t) t) (a : Fin dim → ℝ)
    (b : ℝ) (k : Fin dim) (n : ℕ) : ∀ (C : ℝ) (i : ℕ),
    (partialDeriv k)^[n] (fun x => C * G i (∑ l, a l * x l + b)) =
      fun x => C * a k ^ n * G (i + n) (∑ l, a l * x l + b) := by
  induction n with
  | zero => intro C i; simp
  | succ n ih =>
    intro C i
    rw [Function.iterate_succ_apply, partialDeriv_affine G hG, ih]
    funext x
    rw [show i + 1 + n = i + (n + 1) by omega, pow_succ]
    ring

/-- The mixed partial derivative of `G₀(Σ a_l x_l + b)`. -/
theorem mixedPartial_affine (G : ℕ → ℝ → ℝ) (hG : ∀ i t, HasDerivAt (G i) (G (i + 1) t) t) (a : Fin dim → ℝ) (b : ℝ)
    (d : Fin dim → ℕ) :
    mixedPartial d (fun x => G 0 (∑ l, a l * x l + b)) =
      fun x => (∏ l, a l ^ d l) * G (∑ l, d l) (∑ l, a l * x l + b) := by
  have key : ∀ L : List (Fin dim), L.foldr (fun k g => (partialDeriv k)^[d k] g)
      (fun x => G 0 (∑ l, a l * x l + b)) =
      fun x => (L.map fun l => a l ^ d l).prod * G (L.map d).sum (∑ l, a l * x l + b) := by
    intro L
    induction L with
    | nil => simp
    | cons k L ih =>
      rw [List.foldr_cons, ih, partialDeriv_iterate_affine G hG]
      funext x
      simp only [List.map_cons, List.prod_cons, List.sum_cons]
      rw [Nat.add_comm (d k), mul_comm (a k ^ d k)]
  unfold mixedPartial
  rw [key]
  funext x
  rw [← List.ofFn_eq_map, ← List.ofFn_eq_map, List.prod_ofFn, List.sum_ofFn]

theorem partialDeriv_congr_nhds {f g : (Fin dim → ℝ) → ℝ} {x : Fin dim → ℝ} (h : f =ᶠ[𝓝 x] g) (k : Fin dim) :
    partialDeriv k f =ᶠ[𝓝 x] partialDeriv k g := by
  have h' : ∀ᶠ y in 𝓝 x, f =ᶠ[𝓝 y] g := eventually_eventually_nhds.mpr h
  filter_upwards [h'] with y hy
  unfold partialDeriv
  refine Filter.EventuallyEq.deriv_eq ?_
  have hc : Tendsto (fun t => Function.update y k t) (𝓝 (y k)) (𝓝 y) := by
    have : Continuous fun t => Function.update y k t := continuous_const.update k continuous_id
    have := this.tendsto (y k)
    rwa [Function.update_eq_self] at this
  exact hc.eventually hy

theorem mixedPartial_congr_nhds {f g : (Fin dim → ℝ) → ℝ} {x : Fin dim → ℝ} (h : f =ᶠ[𝓝 x] g) (d : Fin dim → ℕ) :
    mixedPartial d f x = mixedPartial d g x := by
  have it : ∀ (k : Fin dim) (n : ℕ) (f g : (Fin dim → ℝ) → ℝ), f =ᶠ[𝓝 x] g →
      (partialDeriv k)^[n] f =ᶠ[𝓝 x] (partialDeriv k)^[n] g := by
    intro k n
    induction n with
    | zero => intro f g h; exact h
    | succ n ih => intro f g h; exact ih _ _ (partialDeriv_congr_nhds h k)
  have key : ∀ L : List (Fin dim), L.foldr (fun k g => (partialDeriv k)^[d k] g) f =ᶠ[𝓝 x]
      L.foldr (fun k g => (partialDeriv k)^[d k] g) g := by
    intro L
    induction L with
    | nil => exact h
    | cons k L ih => exact it k _ _ _ ih
  exact (key _).eq_of_nhds

theorem mixedPartial_zero {dim : ℕ} (f : (Fin dim → ℝ) → ℝ) : mixedPartial (fun _ => 0) f = f := by
  unfold mixedPartial
  induction List.finRange dim with
  | nil => rfl
  | cons a l ih => simpa using ih

/-- Mixed partial derivatives of `act a (Σ a_l x_l + b)`, for ReLU away from the kink unless the order is zero. -/
theorem mixedPartial_act (a : Activation) (s : Fin dim → ℝ) (b : ℝ) (d : Fin dim → ℕ) (x : Fin dim → ℝ)
    (hx : a = .relu → ∑ l, d l ≠ 0 → ∑ l, s l * x l + b ≠ 0) :
    mixedPartial d (fun x => act a (∑ l, s l * x l + b)) x =
      (∏ l, s l ^ d l) * actG a (∑ l, d l) (∑ l, s l * x l + b) := by
  by_cases ha : a = .relu
  · by_cases h0 : ∑ l, d l = 0
    · have hd : ∀ l, d l = 0 := fun l => Finset.sum_eq_zero_iff.mp h0 l (Finset.mem_univ l)
      obtain rfl : d = fun _ => 0 := funext hd
      rw [h0, mixedPartial_zero, Finset.prod_eq_one fun l _ => pow_zero _, one_mul, actG_zero]
    replace hx := hx ha h0
    subst ha
    have hcont : Continuous fun x : Fin dim → ℝ => ∑ l, s l * x l + b := by fun_prop
    rcases lt_or_gt_of_ne hx with h | h
    · have he : (fun x : Fin dim → ℝ => act .relu (∑ l, s l * x l + b)) =ᶠ[𝓝 x]
          fun x => (fun (_ : ℕ) (_ : ℝ) => (0 : ℝ)) 0 (∑ l, s l * x l + b) := by
        filter_upwards [hcont.continuousAt.eventually_lt continuousAt_const h] with y hy
        simp [act, relu, hy.le]
      rw [mixedPartial_congr_nhds he, mixedPartial_affine (fun _ _ => (0 : ℝ)) (fun _ t => hasDerivAt_const t (0 : ℝ)) s b]
      have : actG .relu (∑ l, d l) (∑ l, s l * x l + b) = 0 := by
        rcases (∑ l, d l) with _ | _ | n
        · simp [actG, reluG, relu, h.le]
        · simp [actG, reluG, not_lt.mpr h.le]
        · rfl
      rw [this]
    · have he : (fun x : Fin dim → ℝ => act .relu (∑ l, s l * x l + b)) =ᶠ[𝓝 x]
          fun x => (fun (i : ℕ) (t : ℝ) => if i = 0 then t else if i = 1 then 1 else 0) 0 (∑ l, s l * x l + b) := by
        filter_upwards [continuousAt_const.eventually_lt hcont.continuousAt h] with y hy
        simp [act, relu, hy.le]
      rw [mixedPartial_congr_nhds he,
        mixedPartial_affine (fun (i : ℕ) (t : ℝ) => if i = 0 then t else if i = 1 then 1 else 0) ?_ s b]
      · congr 1
        rcases (∑ l, d l) with _ | _ | n
        · simp [actG, reluG, relu, h.le]
        · simp [actG, reluG, h]
        · simp [actG, reluG]
      · intro i t
        rcases i with _ | _ | i
        · simpa using hasDerivAt_id' t
        · simpa using hasDerivAt_const t (1 : ℝ)
        · simpa using hasDerivAt_const t (0 : ℝ)
  · rw [← actG_zero, mixedPartial_affine (actG a) (actG_hasDeriv ha)]

/-- Near a point that is not on a kink the activation of an affine combination is a smooth function of it. -/
theorem act_local (a : Activation) (s : Fin dim → ℝ) (b : ℝ) (x : Fin dim → ℝ) (hx : a = .relu → ∑ l, s l * x l + b ≠ 0) :
    ∃ G : ℕ → ℝ → ℝ, (∀ i t, HasDerivAt (G i) (G (i + 1) t) t) ∧
      (fun x => act a (∑ l, s l * x l + b)) =ᶠ[𝓝 x] fun x => G 0 (∑ l, s l * x l + b) := by
  by_cases ha : a = .relu
  · replace hx := hx ha
    subst ha
    have hcont : Continuous fun x : Fin dim → ℝ => ∑ l, s l * x l + b := by fun_prop
    rcases lt_or_gt_of_ne hx with h | h
    · refine ⟨fun _ _ => 0, fun _ t => hasDerivAt_const t (0 : ℝ), ?_⟩
      filter_upwards [hcont.continuousAt.eventually_lt continuousAt_const h] with y hy
      simp [act, relu, hy.le]
    · refine ⟨fun i t => if i = 0 then t else if i = 1 then 1 else 0, fun i t => ?_, ?_⟩
      · rcases i with _ | _ | i
        · simpa using hasDerivAt_id' t
        · simpa using hasDerivAt_const t (1 : ℝ)
        · simpa using hasDerivAt_const t (0 : ℝ)
      · filter_upwards [continuousAt_const.eventually_lt hcont.continuousAt h] with y hy
        simp [act, relu, hy.le]
  · exact ⟨actG a, actG_hasDeriv ha, by rw [actG_zero]⟩

/-- One more derivative of a mixed partial derivative. -/
theorem partialDeriv_mixed_act (a : Activation) (s : Fin dim → ℝ) (b : ℝ) (d : Fin dim → ℕ) (k : Fin dim)
    (x : Fin dim → ℝ) (hx : a = .relu → ∑ l, s l * x l + b ≠ 0) :
    partialDeriv k (mixedPartial d fun x => act a (∑ l, s l * x l + b)) x =
      mixedPartial (Function.update d k (d k + 1)) (fun x => act a (∑ l, s l * x l + b)) x := by
  obtain ⟨G, hG, h⟩ := act_local a s b x hx
  have h' : (mixedPartial d fun x => act a (∑ l, s l * x l + b)) =ᶠ[𝓝 x]
      mixedPartial d fun x => G 0 (∑ l, s l * x l + b) := by
    filter_upwards [eventually_eventually_nhds.mpr h] with y hy
    exact mixedPartial_congr_nhds hy d
  rw [(partialDeriv_congr_nhds h' k).eq_of_nhds, mixedPartial_congr_nhds h, mixedPartial_affine G hG,
    partialDeriv_affine G hG, mixedPartial_affine G hG]
  have h1 : ∑ l, Function.update d k (d k + 1) l = ∑ l, d l + 1 := by
    rw [Finset.sum_update_of_mem (Finset.mem_univ k), ← Finset.add_sum_erase _ d (Finset.mem_univ k),
      ← Finset.erase_eq]
    ring
  have h2 : ∏ l, s l ^ Function.update d k (d k + 1) l = (∏ l, s l ^ d l) * s k := by
    rw [← Finset.prod_erase_mul _ _ (Finset.mem_univ k), ← Finset.prod_erase_mul _ _ (Finset.mem_univ k),
      Function.update_self, pow_succ, mul_assoc]
    congr 1
    exact Finset.prod_congr rfl fun l hl => by rw [Function.update_of_ne (Finset.ne_of_mem_erase hl)]
  rw [h1, h2]

end Verif
