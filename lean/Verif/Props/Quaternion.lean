import Verif.Model.Quaternion
import Verif.Props.Sets

/-! # Paths of unit quaternions (C81) -/

namespace Verif.Props

open Verif Verif.Py Verif.Spec Verif.Model Verif.Model.Prog

/-- The sum of the squares of the components. -/
def quatSq (q : Quat) : ℝ := q.q0 ^ 2 + q.q1 ^ 2 + q.q2 ^ 2 + q.q3 ^ 2

/-- **C81**, u2q: every triple of angles gives a unit quaternion. -/
theorem C81_unit (u v w : ℝ) : quatSq (u2q u v w) = 1 := by
  unfold quatSq u2q
  have h1 := Real.sin_sq_add_cos_sq u
  have h2 := Real.sin_sq_add_cos_sq v
  have h3 := Real.sin_sq_add_cos_sq w
  simp only
  linear_combination h1 + Real.sin u ^ 2 * h2 + Real.sin u ^ 2 * Real.sin v ^ 2 * h3

/-- `x / sqrt(x² + t)` is a cosine, for `t ≥ 0`. -/
theorem div_sqrt_range {x t : ℝ} (ht : 0 ≤ t) (h : 0 < x ^ 2 + t) :
    -1 ≤ x / Real.sqrt (x ^ 2 + t) ∧ x / Real.sqrt (x ^ 2 + t) ≤ 1 := by
  have hs := Real.sqrt_pos.mpr h
  have hsq := Real.sq_sqrt h.le
  constructor
  · rw [le_div_iff₀ hs]
    nlinarith
  · rw [div_le_one hs]
    nlinarith

theorem sqrt_mul_sin {x t : ℝ} (ht : 0 ≤ t) (h : 0 < x ^ 2 + t) :
    Real.sqrt (x ^ 2 + t) * Real.sin (Real.arccos (x / Real.sqrt (x ^ 2 + t))) = Real.sqrt t := by
  have hs := Real.sqrt_pos.mpr h
  rw [Real.sin_arccos]
  have : Real.sqrt (x ^ 2 + t) = Real.sqrt (Real.sqrt (x ^ 2 + t) ^ 2) := (Real.sqrt_sq hs.le).symm
  conv_lhs => enter [1]; rw [this]
  rw [← Real.sqrt_mul (sq_nonneg _), div_pow, Real.sq_sqrt h.le]
  congr 1
  field_simp
  ring

theorem sqrt_mul_cos {x t : ℝ} (ht : 0 ≤ t) (h : 0 < x ^ 2 + t) :
    Real.sqrt (x ^ 2 + t) * Real.cos (Real.arccos (x / Real.sqrt (x ^ 2 + t))) = x := by
  have hs := Real.sqrt_pos.mpr h
  rw [Real.cos_arccos (div_sqrt_range ht h).1 (div_sqrt_range ht h).2]
  field_simp

/-- **C81**, the round trip: a unit quaternion is accepted by `q2u`, its angles lie in `[0, π]`, `[0, π]`, `[0, 2π]`, and `u2q` gives it
back. -/
theorem C81_round_trip (q : Quat) (hq : quatSq q = 1) :
    ∃ u v w, q2u q = .ok (u, v, w) ∧ u2q u v w = q ∧ 0 ≤ u ∧ u ≤ Real.pi ∧ 0 ≤ v ∧ v ≤ Real.pi ∧ 0 ≤ w ∧ w ≤ 2 * Real.pi := by
  have hpi := Real.pi_pos
  have hn : round15 q.norm = 1 := by
    unfold Quat.norm
    unfold quatSq at hq
    rw [hq, Real.sqrt_one]
    unfold round15
    have : round ((1 : ℝ) * 10 ^ 15) = 10 ^ 15 := by
      rw [one_mul]
      have := round_intCast (α := ℝ) (10 ^ 15)
      push_cast at this
      norm_num
    rw [this]
    norm_num
  refine ⟨Real.arccos q.q0, q2v q, q2w q, ?_, ?_, Real.arccos_nonneg _, Real.arccos_le_pi _, ?_, ?_, ?_, ?_⟩
  · unfold q2u
    rw [if_neg (not_not.mpr hn)]
  · obtain ⟨a, b, c, d⟩ := q
    unfold quatSq at hq
    simp only at hq
    have ha1 : -1 ≤ a := by nlinarith [sq_nonneg b, sq_nonneg c, sq_nonneg d]
    have ha2 : a ≤ 1 := by nlinarith [sq_nonneg b, sq_nonneg c, sq_nonneg d]
    have hsin : Real.sin (Real.arccos a) = Real.sqrt (b ^ 2 + (c ^ 2 + d ^ 2)) := by
      rw [Real.sin_arccos]
      congr 1
      linarith
    have hcd : 0 ≤ c ^ 2 + d ^ 2 := by positivity
    unfold u2q
    rw [Quat.mk.injEq]
    refine ⟨Real.cos_arccos ha1 ha2, ?_⟩
    simp only [hsin]
    unfold q2v
    simp only
    by_cases h0 : b = 0 ∧ c = 0 ∧ d = 0
    · obtain ⟨rfl, rfl, rfl⟩ := h0
      simp
    · rw [if_neg h0]
      have hpos : 0 < b ^ 2 + (c ^ 2 + d ^ 2) := by
        by_contra hle
        apply h0
        have e1 : b ^ 2 = 0 := by nlinarith [sq_nonneg b, sq_nonneg c, sq_nonneg d]
        have e2 : c ^ 2 = 0 := by nlinarith [sq_nonneg b, sq_nonneg c, sq_nonneg d]
        have e3 : d ^ 2 = 0 := by nlinarith [sq_nonneg b, sq_nonneg c, sq_nonneg d]
        exact ⟨pow_eq_zero_iff (two_ne_zero) |>.mp e1, pow_eq_zero_iff (two_ne_zero) |>.mp e2, pow_eq_zero_iff (two_ne_zero) |>.mp e3⟩
      rw [add_assoc (b ^ 2), sqrt_mul_cos hcd hpos, sqrt_mul_sin hcd hpos]
      refine ⟨rfl, ?_⟩
      unfold q2w
      simp only
      by_cases h1 : c = 0 ∧ d = 0
      · obtain ⟨rfl, rfl⟩ := h1
        simp
      · rw [if_neg h1]
        have hpos' : 0 < c ^ 2 + d ^ 2 := by
          by_contra hle
          apply h1
          have e2 : c ^ 2 = 0 := by nlinarith [sq_nonneg c, sq_nonneg d]
          have e3 : d ^ 2 = 0 := by nlinarith [sq_nonneg c, sq_nonneg d]
          exact ⟨pow_eq_zero_iff (two_ne_zero) |>.mp e2, pow_eq_zero_iff (two_ne_zero) |>.mp e3⟩
        split_ifs with h2
        · rw [sqrt_mul_cos (sq_nonneg d) hpos', sqrt_mul_sin (sq_nonneg d) hpos', Real.sqrt_sq h2]
          exact ⟨rfl, rfl⟩
        · rw [Real.cos_two_pi_sub, Real.sin_two_pi_sub, mul_neg, sqrt_mul_cos (sq_nonneg d) hpos', sqrt_mul_sin (sq_nonneg d) hpos']
          refine ⟨rfl, ?_⟩
          rw [Real.sqrt_sq_eq_abs, abs_of_neg (not_le.mp h2)]
          ring
  · unfold q2v
    split_ifs
    · exact le_rfl
    · exact Real.arccos_nonneg _
  · unfold q2v
    split_ifs
    · exact hpi.le
    · exact Real.arccos_le_pi _
  · unfold q2w
    split_ifs
    · exact le_rfl
    · exact Real.arccos_nonneg _
    · linarith [Real.arccos_le_pi (q.q2 / Real.sqrt (q.q2 ^ 2 + q.q3 ^ 2))]
  · unfold q2w
    split_ifs
    · linarith
    · linarith [Real.arccos_le_pi (q.q2 / Real.sqrt (q.q2 ^ 2 + q.q3 ^ 2))]
    · linarith [Real.arccos_nonneg (q.q2 / Real.sqrt (q.q2 ^ 2 + q.q3 ^ 2))]

/-- **C81**, the check: a quaternion whose norm is further than half of 1e-15 from 1 ends the program. -/
theorem C81_check (q : Quat) (h : 1 / 2 < |q.norm - 1| * 10 ^ 15) : q2u q = .error .exit := by
  unfold q2u
  rw [if_pos]
  intro hr
  unfold round15 at hr
  rw [div_eq_one_iff_eq (by positivity)] at hr
  have := abs_sub_round (q.norm * 10 ^ 15)
  rw [hr] at this
  have e : q.norm * 10 ^ 15 - 10 ^ 15 = (q.norm - 1) * 10 ^ 15 := by ring
  rw [e, abs_mul, abs_of_pos (show (0 : ℝ) < 10 ^ 15 by positivity)] at this
  linarith

theorem quatClamp_range (g : ℝ → ℝ) (a b t : ℝ) : 0 ≤ quatClamp g a b t ∧ quatClamp g a b t ≤ Real.pi := by
  have e : quatClamp g a b t = clamp 0 Real.pi (quatHat g a b t) := by
    unfold quatClamp clamp
    rw [zero_sub]
    ring
  rw [e]
  obtain ⟨h1, h2, -⟩ := C78_clamp 0 Real.pi (quatHat g a b t) Real.pi_pos.le
  exact ⟨h1, h2⟩

theorem quatClamp_ends (g : ℝ → ℝ) (a b : ℝ) (ha : 0 ≤ a) (ha' : a ≤ Real.pi) (hb : 0 ≤ b) (hb' : b ≤ Real.pi) :
    quatClamp g a b 0 = a ∧ quatClamp g a b 2 = b := by
  have e : ∀ t, quatClamp g a b t = clamp 0 Real.pi (quatHat g a b t) := by
    intro t
    unfold quatClamp clamp
    rw [zero_sub]
    ring
  have h0 : quatHat g a b 0 = a := by unfold quatHat; ring
  have h2 : quatHat g a b 2 = b := by unfold quatHat; ring
  rw [e, e, h0, h2]
  exact ⟨(C78_clamp 0 Real.pi a Real.pi_pos.le).2.2.1 ha ha', (C78_clamp 0 Real.pi b Real.pi_pos.le).2.2.1 hb hb'⟩

/-- **C81**: for every pair of unit quaternions and all free functions the path consists of unit quaternions and starts and ends in the given
ones. -/
theorem C81_path (qi qf : Quat) (hi : quatSq qi = 1) (hf : quatSq qf = 1) (gu gv gw : ℝ → ℝ) :
    (∀ t, ∃ q, quatPath qi qf gu gv gw t = .ok q ∧ quatSq q = 1) ∧
      quatPath qi qf gu gv gw 0 = .ok qi ∧ quatPath qi qf gu gv gw 2 = .ok qf := by
  obtain ⟨u, v, w, e, r, u0, u1, v0, v1, w0, w1⟩ := C81_round_trip qi hi
  obtain ⟨u', v', w', e', r', u0', u1', v0', v1', w0', w1'⟩ := C81_round_trip qf hf
  have hP : ∀ t, quatPath qi qf gu gv gw t = .ok (u2q (quatClamp gu u u' t) (quatClamp gv v v' t) (quatW gw w w' t)) := by
    intro t
    unfold quatPath
    rw [e, e']
    rfl
  refine ⟨fun t => ⟨_, hP t, C81_unit _ _ _⟩, ?_, ?_⟩
  · rw [hP, (quatClamp_ends gu u u' u0 u1 u0' u1').1, (quatClamp_ends gv v v' v0 v1 v0' v1').1]
    have : quatW gw w w' 0 = w := by unfold quatW; ring
    rw [this, r]
  · rw [hP, (quatClamp_ends gu u u' u0 u1 u0' u1').2, (quatClamp_ends gv v v' v0 v1 v0' v1').2]
    have : quatW gw w w' 2 = w' := by unfold quatW; ring
    rw [this, r']

/-- The quaternions of the program. -/
example (gu gv gw : ℝ → ℝ) : quatPath quatI quatF gu gv gw 0 = .ok quatI ∧ quatPath quatI quatF gu gv gw 2 = .ok quatF := by
  refine (C81_path quatI quatF ?_ ?_ gu gv gw).2
  · unfold quatSq quatI
    simp only
    linarith [Real.sin_sq_add_cos_sq (Real.pi / 3)]
  · unfold quatSq quatF
    norm_num

/-- Concrete case for the check: the quaternion `(2, 0, 0, 0)`. -/
example : q2u ⟨2, 0, 0, 0⟩ = .error .exit := by
  apply C81_check
  have : Quat.norm ⟨2, 0, 0, 0⟩ = 2 := by
    unfold Quat.norm
    have : ((2 : ℝ) ^ 2 + 0 ^ 2 + 0 ^ 2 + 0 ^ 2) = 2 ^ 2 := by norm_num
    rw [this]
    exact Real.sqrt_sq (by norm_num)
  rw [this]
  norm_num

end Verif.Props
