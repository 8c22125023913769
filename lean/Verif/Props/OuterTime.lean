import Verif.Model.OuterLoop
import Verif.Props.AffineSys
import Verif.Props.OdeSystemPrograms
import Mathlib.Analysis.SpecialFunctions.Trigonometric.DerivHyp

/-!
# C112: the programs with an outer search over one number: the final time
-/

namespace Verif.Props

open Set Verif Verif.Py Verif.Np Verif.Spec Verif.Model Verif.Model.Py Verif.Model.LSq Verif.Model.Prog Verif.Model.Dict Verif.Lemmas.LSq
open scoped ContDiff

/-! ## The exact problem -/

/-- State and control over the interval `[-1, 1]` of the program satisfy the differential equations, with `c = 2 / tf`. -/
def UnkExact (alfa beta c : ℝ) (x u : ℝ → ℝ) : Prop :=
  ∀ z ∈ Icc (-1 : ℝ) 1, HasDerivAt x ((-alfa * x z - beta * u z) / c) z ∧ HasDerivAt u ((-beta * x z + alfa * u z) / c) z

/-- The Hamiltonian in the loss. -/
noncomputable def unkH (alfa beta : ℝ) (x u : ℝ → ℝ) (z : ℝ) : ℝ := 1 / 2 * x z ^ 2 - 1 / 2 * u z ^ 2 - alfa / beta * x z * u z

theorem const_on {f : ℝ → ℝ} (h : ∀ z ∈ Icc (-1 : ℝ) 1, HasDerivAt f 0 z) {z : ℝ} (hz : z ∈ Icc (-1 : ℝ) 1) : f z = f (-1) := by
  have := constant_of_has_deriv_right_zero (f := f) (a := -1) (b := 1) (fun y hy => (h y hy).continuousAt.continuousWithinAt)
    fun y hy => (h y ⟨hy.1, hy.2.le⟩).hasDerivWithinAt
  exact this z hz

/-- From a state 0 at the start: the state and the control at every point in terms of the control at the start. -/
theorem unk_solution {alfa beta c w : ℝ} (hb : beta ≠ 0) (hc : c ≠ 0) (hw : 0 < w) (hww : w ^ 2 = alfa ^ 2 + beta ^ 2) {x u : ℝ → ℝ}
    (h : UnkExact alfa beta c x u) (h0 : x (-1) = 0) {z : ℝ} (hz : z ∈ Icc (-1 : ℝ) 1) :
    w * x z = -(beta * u (-1) * Real.sinh (w * (z + 1) / c)) ∧
      alfa * x z + beta * u z = beta * u (-1) * Real.cosh (w * (z + 1) / c) := by
  have hin : ∀ z : ℝ, HasDerivAt (fun z => w * (z + 1) / c) (w / c) z := fun z => by
    have := (((hasDerivAt_id z).add_const 1).const_mul w).div_const c
    exact this.congr_deriv (by ring)
  have hsin : ∀ z : ℝ, HasDerivAt (fun z => Real.sinh (w * (z + 1) / c)) (Real.cosh (w * (z + 1) / c) * (w / c)) z := fun z => (hin z).sinh
  have hcos : ∀ z : ℝ, HasDerivAt (fun z => Real.cosh (w * (z + 1) / c)) (Real.sinh (w * (z + 1) / c) * (w / c)) z := fun z => (hin z).cosh
  have hW : ∀ z ∈ Icc (-1 : ℝ) 1, HasDerivAt (fun z => w * x z * Real.cosh (w * (z + 1) / c) + (alfa * x z + beta * u z) * Real.sinh (w * (z + 1) / c)) 0 z := by
    intro z hz
    obtain ⟨hx, hu⟩ := h z hz
    refine (((hx.const_mul w).mul (hcos z)).add (((hx.const_mul alfa).add (hu.const_mul beta)).mul (hsin z))).congr_deriv ?_
    simp only [Pi.add_apply]
    field_simp
    linear_combination (x z * Real.sinh (w * (z + 1) / c)) * hww
  have hV : ∀ z ∈ Icc (-1 : ℝ) 1, HasDerivAt (fun z => w * x z * Real.sinh (w * (z + 1) / c) + (alfa * x z + beta * u z) * Real.cosh (w * (z + 1) / c)) 0 z := by
    intro z hz
    obtain ⟨hx, hu⟩ := h z hz
    refine (((hx.const_mul w).mul (hsin z)).add (((hx.const_mul alfa).add (hu.const_mul beta)).mul (hcos z))).congr_deriv ?_
    simp only [Pi.add_apply]
    field_simp
    linear_combination (x z * Real.cosh (w * (z + 1) / c)) * hww
  have eW := const_on hW hz
  have eV := const_on hV hz
  simp only [h0, neg_add_cancel, mul_zero, zero_div, Real.sinh_zero, Real.cosh_zero, mul_one, zero_add, add_zero] at eW eV
  have hcs := Real.cosh_sq_sub_sinh_sq (w * (z + 1) / c)
  constructor
  · linear_combination Real.cosh (w * (z + 1) / c) * eW - Real.sinh (w * (z + 1) / c) * eV - w * x z * hcs
  · linear_combination Real.cosh (w * (z + 1) / c) * eV - Real.sinh (w * (z + 1) / c) * eW - (alfa * x z + beta * u z) * hcs

/-- The rate of growth of the solutions. -/
noncomputable def unkRate (alfa beta : ℝ) : ℝ := Real.sqrt (alfa ^ 2 + beta ^ 2)

/-- The loss of the exact solution that goes from 0 to `xf` in the time `tf`. -/
noncomputable def unkExactLoss (alfa beta xf tf : ℝ) : ℝ := (unkRate alfa beta * xf / (beta * Real.sinh (unkRate alfa beta * tf))) ^ 2 / 2

/-- The cost of the exact solution: half of the integral of `x² + u²` over the time. -/
noncomputable def unkExactCost (alfa beta xf tf : ℝ) : ℝ :=
  xf ^ 2 * (unkRate alfa beta * (Real.cosh (unkRate alfa beta * tf) / Real.sinh (unkRate alfa beta * tf)) + alfa) / (2 * beta ^ 2)

theorem unkRate_pos {alfa beta : ℝ} (hb : beta ≠ 0) : 0 < unkRate alfa beta := Real.sqrt_pos.2 (by positivity)

theorem unkRate_sq (alfa beta : ℝ) : unkRate alfa beta ^ 2 = alfa ^ 2 + beta ^ 2 := Real.sq_sqrt (by positivity)

/-- **C112, the loss.** If state and control satisfy the differential equations on the whole interval, with the state 0 at the start and `xf` at the end,
then the Hamiltonian is the same at all points, and its absolute value, which the outer loop minimises or tries to make 0, is `unkExactLoss`. The
time integral the program reports as the cost has the value `unkExactCost`. -/
theorem C112_loss {alfa beta xf tf : ℝ} (hb : beta ≠ 0) (htf : 0 < tf) {x u : ℝ → ℝ} (h : UnkExact alfa beta (2 / tf) x u) (h0 : x (-1) = 0)
    (h1 : x 1 = xf) :
    (∀ z ∈ Icc (-1 : ℝ) 1, |unkH alfa beta x u z| = unkExactLoss alfa beta xf tf) ∧
      ∫ z in (-1 : ℝ)..1, 1 / 2 * (x z ^ 2 + u z ^ 2) * (tf / 2) = unkExactCost alfa beta xf tf := by
  obtain ⟨w, hw⟩ : ∃ w, w = unkRate alfa beta := ⟨_, rfl⟩
  have hwp : 0 < w := hw ▸ unkRate_pos hb
  have hww : w ^ 2 = alfa ^ 2 + beta ^ 2 := hw ▸ unkRate_sq alfa beta
  have hc : 2 / tf ≠ 0 := by positivity
  have hs : 0 < Real.sinh (w * tf) := Real.sinh_pos_iff.2 (by positivity)
  obtain ⟨e1, e2⟩ := unk_solution hb hc hwp hww h h0 (right_mem_Icc.2 (by norm_num))
  have ht : w * (1 + 1) / (2 / tf) = w * tf := by field_simp; ring
  rw [ht, h1] at e1 e2
  have hu0 : u (-1) = -(w * xf / (beta * Real.sinh (w * tf))) := by
    field_simp
    linarith
  have hH : ∀ z ∈ Icc (-1 : ℝ) 1, HasDerivAt (unkH alfa beta x u) 0 z := by
    intro z hz
    obtain ⟨hx, hu⟩ := h z hz
    have := (((hx.pow 2).const_mul (1 / 2)).sub ((hu.pow 2).const_mul (1 / 2))).sub ((hx.mul hu).const_mul (alfa / beta))
    refine (this.congr_deriv ?_).congr_of_eventuallyEq (Filter.Eventually.of_forall fun y => ?_)
    · field_simp
      push_cast
      ring
    · simp only [unkH, Pi.sub_apply, Pi.pow_apply, Pi.mul_apply]
      ring
  refine ⟨fun z hz => ?_, ?_⟩
  · rw [const_on hH hz]
    unfold unkH unkExactLoss
    rw [← hw, h0, hu0]
    rw [show ∀ a : ℝ, 1 / 2 * (0 : ℝ) ^ 2 - 1 / 2 * (-a) ^ 2 - alfa / beta * 0 * -a = -(a ^ 2 / 2) from fun a => by ring, abs_neg,
      abs_of_nonneg (by positivity)]
  · have hF : ∀ z ∈ uIcc (-1 : ℝ) 1, HasDerivAt (fun z => -(x z * u z) / (2 * beta)) (1 / 2 * (x z ^ 2 + u z ^ 2) * (tf / 2)) z := by
      intro z hz
      rw [uIcc_of_le (by norm_num)] at hz
      obtain ⟨hx, hu⟩ := h z hz
      refine (((hx.mul hu).neg).div_const (2 * beta)).congr_deriv ?_
      field_simp
      ring
    have hcont : ContinuousOn (fun z => 1 / 2 * (x z ^ 2 + u z ^ 2) * (tf / 2)) (uIcc (-1) 1) := by
      rw [uIcc_of_le (by norm_num)]
      have cx : ContinuousOn x (Icc (-1) 1) := fun z hz => (h z hz).1.continuousAt.continuousWithinAt
      have cu : ContinuousOn u (Icc (-1) 1) := fun z hz => (h z hz).2.continuousAt.continuousWithinAt
      exact ((((cx.pow 2).add (cu.pow 2)).const_smul (1 / 2 : ℝ)).mul continuousOn_const)
    rw [intervalIntegral.integral_eq_sub_of_hasDerivAt hF hcont.intervalIntegrable, h0, h1]
    unfold unkExactCost
    rw [← hw]
    have hu1 : u 1 = -(w * xf * (Real.cosh (w * tf) / Real.sinh (w * tf)) + alfa * xf) / beta := by
      rw [hu0] at e2
      field_simp at e2 ⊢
      linarith
    rw [hu1]
    field_simp
    ring

/-- The solution that goes from 0 to `xf` in the time `tf`. -/
noncomputable def unkX (w xf tf z : ℝ) : ℝ := xf / Real.sinh (w * tf) * Real.sinh (w * (z + 1) / (2 / tf))

/-- Its control. -/
noncomputable def unkU (alfa beta w xf tf z : ℝ) : ℝ :=
  -(xf / Real.sinh (w * tf) * (w * Real.cosh (w * (z + 1) / (2 / tf)) + alfa * Real.sinh (w * (z + 1) / (2 / tf)))) / beta

/-- **C112, there is a solution for every time.** -/
theorem C112_every_time (alfa beta xf tf : ℝ) (hb : beta ≠ 0) (htf : 0 < tf) :
    ∃ x u : ℝ → ℝ, UnkExact alfa beta (2 / tf) x u ∧ x (-1) = 0 ∧ x 1 = xf := by
  obtain ⟨w, hw⟩ : ∃ w, w = unkRate alfa beta := ⟨_, rfl⟩
  have hwp : 0 < w := hw ▸ unkRate_pos hb
  have hww : w ^ 2 = alfa ^ 2 + beta ^ 2 := hw ▸ unkRate_sq alfa beta
  have hs : 0 < Real.sinh (w * tf) := Real.sinh_pos_iff.2 (by positivity)
  have hin : ∀ z : ℝ, HasDerivAt (fun z => w * (z + 1) / (2 / tf)) (w / (2 / tf)) z := fun z => by
    have := (((hasDerivAt_id z).add_const 1).const_mul w).div_const (2 / tf)
    exact this.congr_deriv (by ring)
  refine ⟨unkX w xf tf, unkU alfa beta w xf tf, fun z _ => ⟨?_, ?_⟩, ?_, ?_⟩
  · refine ((hin z).sinh.const_mul (xf / Real.sinh (w * tf))).congr_deriv ?_
    unfold unkX unkU
    field_simp
    ring
  · refine (((((hin z).cosh.const_mul w).add ((hin z).sinh.const_mul alfa)).const_mul (xf / Real.sinh (w * tf))).neg.div_const beta).congr_deriv ?_
    unfold unkX unkU
    generalize Real.sinh (w * (z + 1) / (2 / tf)) = S
    generalize Real.cosh (w * (z + 1) / (2 / tf)) = C
    field_simp
    linear_combination (-xf * S) * hww
  · unfold unkX
    simp
  · unfold unkX
    have ht : w * (1 + 1) / (2 / tf) = w * tf := by field_simp; ring
    rw [ht]
    field_simp

/-- **C112, the search for the time cannot succeed.** The loss of the exact solution is positive for every time and falls strictly with the time: it has no
root for `fsolve`, and in every interval of times up to a bound its least value is at the bound. -/
theorem C112_time_fails (alfa beta xf : ℝ) (hb : beta ≠ 0) (hx : xf ≠ 0) :
    (∀ tf, 0 < tf → 0 < unkExactLoss alfa beta xf tf) ∧ StrictAntiOn (unkExactLoss alfa beta xf) (Ioi 0) := by
  have hwp : 0 < unkRate alfa beta := unkRate_pos hb
  have hs : ∀ tf, 0 < tf → 0 < Real.sinh (unkRate alfa beta * tf) := fun tf h => Real.sinh_pos_iff.2 (by positivity)
  refine ⟨fun tf htf => ?_, fun s hs0 t ht0 hst => ?_⟩
  · have := hs tf htf
    unfold unkExactLoss
    positivity
  · have a := hs s hs0
    have b := hs t ht0
    have hlt : Real.sinh (unkRate alfa beta * s) < Real.sinh (unkRate alfa beta * t) :=
      Real.sinh_lt_sinh.2 (mul_lt_mul_of_pos_left hst hwp)
    unfold unkExactLoss
    have e : ∀ S : ℝ, (unkRate alfa beta * xf / (beta * S)) ^ 2 / 2 = (unkRate alfa beta * xf) ^ 2 / beta ^ 2 / 2 * (1 / S ^ 2) := fun S => by
      rw [div_pow, mul_pow beta]
      ring
    rw [e, e]
    have hp : 0 < (unkRate alfa beta * xf) ^ 2 / beta ^ 2 / 2 := by positivity
    refine mul_lt_mul_of_pos_left ?_ hp
    exact one_div_lt_one_div_of_lt (by positivity) (pow_lt_pow_left₀ hlt a.le (by norm_num))

/-- **C112, there is no best time.** The least cost falls strictly with the time as well: every time is worse than all longer ones. -/
theorem C112_no_best_time (alfa beta xf : ℝ) (hb : beta ≠ 0) (hx : xf ≠ 0) : StrictAntiOn (unkExactCost alfa beta xf) (Ioi 0) := by
  have hwp : 0 < unkRate alfa beta := unkRate_pos hb
  intro s hs0 t ht0 hst
  obtain ⟨w, hw⟩ : ∃ w, w = unkRate alfa beta := ⟨_, rfl⟩
  have a : 0 < Real.sinh (w * s) := Real.sinh_pos_iff.2 (by rw [hw]; exact mul_pos hwp hs0)
  have b : 0 < Real.sinh (w * t) := Real.sinh_pos_iff.2 (by rw [hw]; exact mul_pos hwp ht0)
  have d : 0 < Real.sinh (w * t - w * s) := Real.sinh_pos_iff.2 (by rw [hw]; nlinarith)
  unfold unkExactCost
  rw [← hw]
  have hlt : Real.cosh (w * t) / Real.sinh (w * t) < Real.cosh (w * s) / Real.sinh (w * s) := by
    rw [div_lt_div_iff₀ b a]
    rw [Real.sinh_sub] at d
    linarith
  have hwp' : 0 < w := hw ▸ hwp
  have hx2 : 0 < xf ^ 2 := by positivity
  refine div_lt_div_of_pos_right ?_ (by positivity)
  refine mul_lt_mul_of_pos_left ?_ hx2
  have := mul_lt_mul_of_pos_left hlt hwp'
  linarith

/-! ## The runs of the inner loop -/

theorem foldl_max (l : List ℝ) (a : ℝ) : a ≤ l.foldl (fun m x => max m |x|) a ∧ (∀ b ∈ l, |b| ≤ l.foldl (fun m x => max m |x|) a) ∧
    (l.foldl (fun m x => max m |x|) a = a ∨ ∃ b ∈ l, l.foldl (fun m x => max m |x|) a = |b|) := by
  induction l generalizing a with
  | nil => simp
  | cons c l ih =>
    obtain ⟨h1, h2, h3⟩ := ih (max a |c|)
    simp only [List.foldl_cons]
    refine ⟨(le_max_left _ _).trans h1, fun b hb => ?_, ?_⟩
    · rcases List.mem_cons.1 hb with rfl | hb
      · exact (le_max_right _ _).trans h1
      · exact h2 b hb
    · rcases h3 with h | ⟨b, hb, h⟩
      · rw [h]
        rcases max_choice a |c| with h | h
        · exact Or.inl h
        · exact Or.inr ⟨c, List.mem_cons_self, h⟩
      · exact Or.inr ⟨b, List.mem_cons_of_mem _ hb, h⟩

/-- `np.max(np.abs(a))` is the largest absolute value. -/
theorem maxAbs_largest {l : List ℝ} (hl : l ≠ []) : ∃ r, maxAbs l = .ok r ∧ (∀ a ∈ l, |a| ≤ r) ∧ ∃ a ∈ l, r = |a| := by
  cases l with
  | nil => exact absurd rfl hl
  | cons a l =>
    obtain ⟨h1, h2, h3⟩ := foldl_max l |a|
    refine ⟨_, rfl, fun b hb => ?_, ?_⟩
    · rcases List.mem_cons.1 hb with rfl | hb
      · exact h1
      · exact h2 b hb
    · rcases h3 with h | ⟨b, hb, h⟩
      · exact ⟨a, List.mem_cons_self, h⟩
      · exact ⟨b, List.mem_cons_of_mem _ hb, h⟩

theorem unkF_smooth (xtfc utfc : Utfc) (x0 xf alfa beta c : ℝ) : SmoothSys (unkFixedSys xtfc utfc x0 xf alfa beta c) := by
  refine ⟨?_, ?_⟩
  · intro q d hd
    unfold unkFixedSys at hd
    fin_cases q
    · simp at hd
      rcases hd with rfl | rfl
      all_goals exact ⟨by fun_prop, by norm_num⟩
    · simp at hd
  · intro E hE i
    unfold unkFixedSys at hE
    simp only [List.mem_cons, List.not_mem_nil, or_false] at hE
    rcases hE with rfl | rfl
    all_goals fin_cases i <;> simp

theorem unkH_smooth (xtfc utfc : Utfc) (x0 xf alfa beta : ℝ) : SmoothSys (unkHamSys xtfc utfc x0 xf alfa beta) := by
  refine ⟨(unkF_smooth xtfc utfc x0 xf alfa beta 0).conds, ?_⟩
  intro E hE i
  unfold unkHamSys at hE
  simp only [List.mem_cons, List.not_mem_nil, or_false] at hE
  subst hE
  fin_cases i <;> simp

theorem unkF_regular (xtfc utfc : Utfc) (x0 xf alfa beta c : ℝ) (st : PState 2 0) : Regular (unkFixedSys xtfc utfc x0 xf alfa beta c) st := by
  refine ⟨?_, ?_⟩
  · intro q d hd
    unfold unkFixedSys at hd
    fin_cases q
    · simp at hd
      rcases hd with rfl | rfl
      all_goals fun_prop
    · simp at hd
  · intro E hE x _ o
    unfold unkFixedSys at hE
    simp only [List.mem_cons, List.not_mem_nil, or_false] at hE
    rcases hE with rfl | rfl
    all_goals
      dsimp only
      fun_prop

theorem unkF_affine (xtfc utfc : Utfc) (x0 xf alfa beta c : ℝ) : AffineSys (unkFixedSys xtfc utfc x0 xf alfa beta c) := by
  refine ⟨?_, ?_⟩
  · intro q d hd s s' r
    unfold unkFixedSys at hd
    fin_cases q
    · simp at hd
      rcases hd with rfl | rfl
      all_goals ring
    · simp at hd
  · intro E hE x J J' s s' r o
    unfold unkFixedSys at hE
    simp only [List.mem_cons, List.not_mem_nil, or_false] at hE
    rcases hE with rfl | rfl
    all_goals
      dsimp only
      ring

theorem unkF_ends {N : ℕ} (hN : 2 ≤ N) {xtfc utfc : Utfc} (h : Built N "CP" (-1) 1 xtfc) (x0 xf alfa beta c : ℝ) {st : PState 2 0}
    (hst : ∀ q, ContDiff ℝ ∞ (st.free q)) :
    ContDiff ℝ ∞ (sysFn (unkFixedSys xtfc utfc x0 xf alfa beta c) st 0) ∧ ContDiff ℝ ∞ (sysFn (unkFixedSys xtfc utfc x0 xf alfa beta c) st 1) ∧
      sysFn (unkFixedSys xtfc utfc x0 xf alfa beta c) st 0 (-1) = x0 ∧ sysFn (unkFixedSys xtfc utfc x0 xf alfa beta c) st 0 1 = xf := by
  obtain ⟨p1, p2⟩ := built_points hN (by norm_num) h
  have hc := unkF_smooth xtfc utfc x0 xf alfa beta c
  have hx : ∀ t, sysFn (unkFixedSys xtfc utfc x0 xf alfa beta c) st 0 t = st.free 0 t + (1 - t) / (1 - -1) * (x0 - st.free 0 (-1)) +
      (t - -1) / (1 - -1) * (xf - st.free 0 1) := by
    intro t
    unfold sysFn curve unkFixedSys PFun.ends
    simp only [Matrix.cons_val_zero, List.map_cons, List.map_nil, List.sum_cons, List.sum_nil, iteratedDeriv_zero,
      built_z hN (Or.inl rfl) h, p1, p2]
    ring
  refine ⟨curve_contDiff (ends_smooth hc 0 st.num) (hst 0), curve_contDiff (ends_smooth hc 1 st.num) (hst 1), ?_, ?_⟩
  · rw [hx]
    norm_num
  · rw [hx]
    norm_num

/-- The defects of the differential equations in the inner loop. -/
noncomputable def unkMiss (alfa beta c : ℝ) (x u : ℝ → ℝ) (z : ℝ) : ℝ × ℝ :=
  (-c * deriv x z - alfa * x z - beta * u z, -c * deriv u z - beta * x z + alfa * u z)

/-- The sum of the squares of the defects at the points. -/
noncomputable def unkSum (alfa beta c : ℝ) (pts : List ℝ) (x u : ℝ → ℝ) : ℝ :=
  (pts.map fun z => (unkMiss alfa beta c x u z).1 ^ 2).sum + (pts.map fun z => (unkMiss alfa beta c x u z).2 ^ 2).sum

theorem unk_sumAll (xtfc utfc : Utfc) (x0 xf alfa beta c : ℝ) (st : PState 2 0) :
    sumAll (unkFixedSys xtfc utfc x0 xf alfa beta c).eqs (fun E x o => sysMiss (unkFixedSys xtfc utfc x0 xf alfa beta c) st E x o ^ 2) =
      unkSum alfa beta c xtfc.z (sysFn (unkFixedSys xtfc utfc x0 xf alfa beta c) st 0) (sysFn (unkFixedSys xtfc utfc x0 xf alfa beta c) st 1) := by
  obtain ⟨S, hS⟩ : ∃ S, S = unkFixedSys xtfc utfc x0 xf alfa beta c := ⟨_, rfl⟩
  have he : S.eqs = [⟨xtfc.z, 3, ![(0, 1), (0, 0), (1, 0)], here, 1, fun _ J _ _ => -c * J 0 - alfa * J 1 - beta * J 2⟩,
    ⟨xtfc.z, 3, ![(1, 1), (0, 0), (1, 0)], here, 1, fun _ J _ _ => -c * J 0 - beta * J 1 + alfa * J 2⟩] := by rw [hS]; rfl
  rw [← hS]
  unfold sumAll unkSum unkMiss
  rw [he]
  simp only [List.map_cons, List.map_nil, List.sum_cons, List.sum_nil, Finset.univ_unique, Finset.sum_singleton, sysMiss, sysJet, here,
    Matrix.cons_val_zero, Matrix.cons_val_one, Matrix.cons_val, iteratedDeriv_zero, iteratedDeriv_one, add_zero]

/-- **C112, T and V end to end.** For all `N ≥ 2`, `m ≥ 2` and all constants the objects are built, and every call of the inner loop, for every time,
compiled or not, returns a loss: the largest absolute value of the Hamiltonian at the points, for a state and a control that meet the conditions at
both ends. Unless zero coefficients are within the tolerance already, the sum of the squares of the defects of the differential equations at the points
is the least that the coefficients can give. If the differential equations hold between the points as well, the loss is `unkExactLoss`. -/
theorem C112_time {lib : LinAlg} (hlib : LinAlgCorrect lib) {N m : ℕ} (hN : 2 ≤ N) (hm : 2 ≤ m) (x0 xf alfa beta tol : ℝ) (htol : tol < 1)
    (w b w' b' : ℕ → ℝ) {fuel : ℕ} (hf : 4 ≤ fuel) :
    ∃ o, unkInnerInit lib N m x0 xf alfa beta tol w b w' b' = .ok o ∧ Built N "CP" (-1) 1 o.xtfc ∧ Built N "CP" (-1) 1 o.utfc ∧
      o.xi = .dict .plain [entry1 "xi_x" (List.replicate (m - 1) 0), entry1 "xi_u" (List.replicate (m + 1) 0)] ∧
      ∀ (tf : ℝ) (comp : Bool), ∃ (S : PSys 2 0) (v : View String) (st : PState 2 0) (x u : ℝ → ℝ) (loss : ℝ),
        S = unkFixedSys o.xtfc o.utfc x0 xf alfa beta (2 / tf) ∧ SameForm o.xi v ∧ Means S v st ∧ x = sysFn S st 0 ∧ u = sysFn S st 1 ∧
        ContDiff ℝ ∞ x ∧ ContDiff ℝ ∞ u ∧ x (-1) = x0 ∧ x 1 = xf ∧
        ((∀ v' st', SameForm o.xi v' → Means S v' st' →
            unkSum alfa beta (2 / tf) o.xtfc.z x u ≤ unkSum alfa beta (2 / tf) o.xtfc.z (sysFn S st' 0) (sysFn S st' 1)) ∨
          ∀ z ∈ o.xtfc.z, |(unkMiss alfa beta (2 / tf) x u z).1| ≤ tol ∧ |(unkMiss alfa beta (2 / tf) x u z).2| ≤ tol) ∧
        unkInnerLoop { o with nlls := { o.nlls with compiled := comp } } x0 xf alfa beta tf fuel =
          .ok (some loss, { o with nlls := { o.nlls with compiled := true } }) ∧
        (∀ z ∈ o.xtfc.z, |unkH alfa beta x u z| ≤ loss) ∧ (∃ z ∈ o.xtfc.z, loss = |unkH alfa beta x u z|) ∧
        (x0 = 0 → beta ≠ 0 → 0 < tf → (∀ z ∈ Icc (-1 : ℝ) 1, unkMiss alfa beta (2 / tf) x u z = (0, 0)) → loss = unkExactLoss alfa beta xf tf) := by
  have hcp : "CP" ∈ smoothNames := by simp [smoothNames]
  obtain ⟨xtfc, hu1, hB1, hr1, hl1, -, -, c1⟩ := objectK (k := 2) hN hm hcp (Or.inl rfl) (x0 := -1) (xf := 1) (by norm_num) w b
  obtain ⟨utfc, hu2, hB2, hr2, hl2, -, -, c2⟩ := objectK (k := 0) hN (by omega) hcp (Or.inl rfl) (m := m) (x0 := -1) (xf := 1) (by norm_num) w' b'
  obtain ⟨kvs, hk⟩ : ∃ kvs, kvs = [entry1 "xi_x" (List.replicate (cols1 xtfc * 1) 0), entry1 "xi_u" (List.replicate (cols1 utfc * 1) 0)] := ⟨_, rfl⟩
  have hk' : View.dict .plain kvs = .dict .plain [entry1 "xi_x" (List.replicate (m - 1) 0), entry1 "xi_u" (List.replicate (m + 1) 0)] := by
    rw [hk, c1, c2]
    congr 5
    · omega
    · congr 1
      congr 1
      omega
  have hprop : ProperUnknowns (.dict .plain kvs) := by
    subst hk
    refine ⟨by simp, by simp [entry1], fun p hp => ?_⟩
    simp only [List.mem_cons, List.not_mem_nil, or_false] at hp
    rcases hp with rfl | rfl <;> rfl
  have hpos : entries (View.dict .plain kvs) ≠ [] := by
    rw [hk']
    simp [entries, entry1]
  obtain ⟨nlls, hn1, hn2⟩ := C104_newton_class_from hlib (method := .pinv) (by simp)
    (fun args => unkFixedSys xtfc utfc x0 xf alfa beta (argNum args)) hprop hpos [.arr [1]] tol htol 2 true fuel hf
  refine ⟨⟨xtfc, utfc, .dict .plain kvs, nlls⟩, ?_, hB1, hB2, hk', ?_⟩
  · unfold unkInnerInit
    rw [show utfcInit N (.int 2) m "CP" (some (-1)) (some 1) "C++" w b = .ok xtfc from hu1,
      show utfcInit N (.int 0) m "CP" (some (-1)) (some 1) "C++" w' b' = .ok utfc from hu2]
    simp only [zerosOf_value hr1, zerosOf_value hr2, bind, Except.bind]
    rw [hk] at hn1 ⊢
    rw [hn1]
    rfl
  intro tf comp
  dsimp only
  obtain ⟨c, hc⟩ : ∃ c, c = 2 / tf := ⟨_, rfl⟩
  rw [← hc]
  obtain ⟨S, hS⟩ : ∃ S, S = unkFixedSys xtfc utfc x0 xf alfa beta c := ⟨_, rfl⟩
  have hfit : FitsSys S kvs := by
    subst hS hk
    refine ⟨by simp [entry1], ?_, ?_, ?_, ?_, fun i => i.elim0, fun i => i.elim0⟩
    all_goals
      intro q
      fin_cases q <;> simp [unkFixedSys, entry1, sizeOfKey, hr1, hr2]
  have hfit' : FitsSys (unkHamSys xtfc utfc x0 xf alfa beta) kvs := by
    subst hS
    exact ⟨hfit.nodup, hfit.ready, hfit.key, hfit.col, hfit.size, fun i => i.elim0, fun i => i.elim0⟩
  have hz : xtfc.z ≠ [] := by
    rw [built_z hN (Or.inl rfl) hB1]
    intro h
    rw [h] at hl1
    simp at hl1
    omega
  obtain ⟨z0, hz0⟩ := List.exists_mem_of_ne_nil _ hz
  have m1 : (⟨xtfc.z, 3, ![(0, 1), (0, 0), (1, 0)], here, 1, fun _ J _ _ => -c * J 0 - alfa * J 1 - beta * J 2⟩ : PEqn 2 0) ∈ S.eqs := by
    rw [hS]; exact List.mem_cons_self
  have m2 : (⟨xtfc.z, 3, ![(1, 1), (0, 0), (1, 0)], here, 1, fun _ J _ _ => -c * J 0 - beta * J 1 + alfa * J 2⟩ : PEqn 2 0) ∈ S.eqs := by
    rw [hS]; exact List.mem_cons_of_mem _ List.mem_cons_self
  have hne : places S.eqs ≠ [] := List.ne_nil_of_mem (a := (⟨_, z0, (0 : Fin 1)⟩ : Place 2 0)) (mem_places.2 ⟨m1, hz0⟩)
  have hsys : unkFixedSys xtfc utfc x0 xf alfa beta (argNum [.arr [c]]) = S := by rw [hS]; rfl
  obtain ⟨v, it, vs, sts, hrun, hsr⟩ := hn2 [.arr [c]] rfl (unkF_smooth _ _ _ _ _ _ _) (by rw [hsys]; exact hfit) (by rw [hsys]; exact hne) comp
    (.dict .plain kvs) (SameForm.refl _)
  rw [hsys] at hsr
  have hform := hsr.form it le_rfl
  have hmeans := hsr.means it le_rfl
  rw [hsr.final] at hform hmeans
  obtain ⟨k1, k2, k3, k4⟩ := unkF_ends hN hB1 (utfc := utfc) x0 xf alfa beta c hmeans.smooth
  rw [← hS] at k1 k2 k3 k4
  -- the values of the Hamiltonian
  have hham : psysRes (unkHamSys xtfc utfc x0 xf alfa beta) v = .ok (xtfc.z.map (unkH alfa beta (sysFn S (sts it) 0) (sysFn S (sts it) 1))) := by
    rw [psysRes_value (unkH_smooth _ _ _ _ _ _) hfit' hform]
    have e : stateOf (unkHamSys xtfc utfc x0 xf alfa beta) kvs (coef (entries v)) = sts it := by
      rw [means_unique hfit hform hmeans, hS]
      rfl
    refine congrArg Except.ok ?_
    unfold places placeMiss
    rw [e]
    show (List.flatMap _ [_]).map _ = _
    rw [List.flatMap_singleton, List.map_flatMap, List.map_eq_flatMap]
    refine List.flatMap_congr fun x _ => ?_
    have e2 : ∀ q, sysFn (unkHamSys xtfc utfc x0 xf alfa beta) (sts it) q = sysFn S (sts it) q := fun q => by rw [hS]; rfl
    simp [sysMiss, sysJet, here, e2, unkH]
    norm_num
  obtain ⟨loss, hloss, hl1, hl2⟩ := maxAbs_largest (l := xtfc.z.map (unkH alfa beta (sysFn S (sts it) 0) (sysFn S (sts it) 1))) (by simpa using hz)
  have hb1 : ∀ z ∈ xtfc.z, |unkH alfa beta (sysFn S (sts it) 0) (sysFn S (sts it) 1) z| ≤ loss := fun z hz => hl1 _ (List.mem_map_of_mem hz)
  have hb2 : ∃ z ∈ xtfc.z, loss = |unkH alfa beta (sysFn S (sts it) 0) (sysFn S (sts it) 1) z| := by
    obtain ⟨a, ha, h⟩ := hl2
    obtain ⟨z, hz, rfl⟩ := List.mem_map.1 ha
    exact ⟨z, hz, h⟩
  refine ⟨S, v, sts it, sysFn S (sts it) 0, sysFn S (sts it) 1, loss, hS, hform, hmeans, rfl, rfl, k1, k2, k3, k4, ?_, ?_, hb1, hb2, ?_⟩
  · rcases Nat.eq_zero_or_pos it with hit | hit
    · right
      rcases hsr.stop with h | h | ⟨j, hj, -⟩
      · intro z hz
        have a1 := h _ m1 z hz 0
        have a2 := h _ m2 z hz 0
        simp only [sysMiss, sysJet, here, Matrix.cons_val_zero, Matrix.cons_val_one, Matrix.cons_val, iteratedDeriv_zero,
          iteratedDeriv_one] at a1 a2
        exact ⟨a1, a2⟩
      · omega
      · omega
    · left
      intro v' st' hv' hm'
      obtain ⟨j, rfl⟩ : ∃ j, it = j + 1 := ⟨it - 1, by omega⟩
      have := affine_least (hS ▸ unkF_smooth xtfc utfc x0 xf alfa beta c) (hS ▸ unkF_affine xtfc utfc x0 xf alfa beta c)
        (fun st => hS ▸ unkF_regular xtfc utfc x0 xf alfa beta c st) hsr (Nat.lt_succ_self j) hv' hm'
      rw [hS, unk_sumAll, unk_sumAll, ← hS] at this
      exact this
  · unfold unkInnerLoop
    dsimp only
    rw [← hc, hrun]
    simp only [bind, Except.bind, hham, hloss]
    rfl
  · intro e0 hbeta htf hall
    obtain ⟨z, hz, hzl⟩ := hb2
    have hzI : z ∈ Icc (-1 : ℝ) 1 := by
      rw [built_z hN (Or.inl rfl) hB1] at hz
      exact (C13_points N hN (.int 2) m "CP" "C++" (-1) 1 (by norm_num) w b xtfc hu1).2.2.2.2.2.1 z hz
    rw [hzl]
    have hex : UnkExact alfa beta (2 / tf) (sysFn S (sts it) 0) (sysFn S (sts it) 1) := by
      intro y hy
      have := hall y hy
      simp only [unkMiss, Prod.mk.injEq] at this
      rw [← hc]
      have hc0 : c ≠ 0 := by rw [hc]; positivity
      refine ⟨((k1.differentiable (by simp)) y).hasDerivAt.congr_deriv ?_, ((k2.differentiable (by simp)) y).hasDerivAt.congr_deriv ?_⟩
      · rw [eq_div_iff hc0]
        linarith [this.1]
      · rw [eq_div_iff hc0]
        linarith [this.2]
    exact (C112_loss hbeta htf hex (k3.trans e0) k4).1 z hzI

/-- **C112, how far a run is from the exact solution.** For every state and control that meet the conditions at both ends, the mean square error of state and
control is at most the mean square defect of the differential equations divided by `beta²`, whatever the time. -/
theorem C112_error {alfa beta tf : ℝ} (hb : beta ≠ 0) {x u X U : ℝ → ℝ} (hx : ContDiff ℝ ∞ x) (hu : ContDiff ℝ ∞ u)
    (hX : ContDiff ℝ ∞ X) (hU : ContDiff ℝ ∞ U) (he : ∀ z ∈ Icc (-1 : ℝ) 1, unkMiss alfa beta (2 / tf) X U z = (0, 0)) (h0 : x (-1) = X (-1))
    (h1 : x 1 = X 1) :
    ∫ z in (-1 : ℝ)..1, ((x z - X z) ^ 2 + (u z - U z) ^ 2) ≤
      (∫ z in (-1 : ℝ)..1, ((unkMiss alfa beta (2 / tf) x u z).1 ^ 2 + (unkMiss alfa beta (2 / tf) x u z).2 ^ 2)) / beta ^ 2 := by
  obtain ⟨c, hc⟩ : ∃ c, c = 2 / tf := ⟨_, rfl⟩
  rw [← hc] at he ⊢
  have hb2 : 0 < beta ^ 2 := by positivity
  have dx := fun z => ((hx.differentiable (by simp)) z).hasDerivAt
  have du := fun z => ((hu.differentiable (by simp)) z).hasDerivAt
  have dX := fun z => ((hX.differentiable (by simp)) z).hasDerivAt
  have dU := fun z => ((hU.differentiable (by simp)) z).hasDerivAt
  have cdx : Continuous (deriv x) := hx.continuous_deriv (by simp)
  have cdu : Continuous (deriv u) := hu.continuous_deriv (by simp)
  have cdX : Continuous (deriv X) := hX.continuous_deriv (by simp)
  have cdU : Continuous (deriv U) := hU.continuous_deriv (by simp)
  have cx := hx.continuous
  have cu := hu.continuous
  have cX := hX.continuous
  have cU := hU.continuous
  have hG : ∀ z, HasDerivAt (fun z => -(2 * beta * c * ((x z - X z) * (u z - U z))))
      (-(2 * beta * c * ((deriv x z - deriv X z) * (u z - U z) + (x z - X z) * (deriv u z - deriv U z)))) z := fun z =>
    ((((dx z).sub (dX z)).mul ((du z).sub (dU z))).const_mul (2 * beta * c)).neg
  have hint : ∫ z in (-1 : ℝ)..1, (-(2 * beta * c * ((deriv x z - deriv X z) * (u z - U z) + (x z - X z) * (deriv u z - deriv U z)))) = 0 := by
    rw [intervalIntegral.integral_eq_sub_of_hasDerivAt (fun z _ => hG z)
      (Continuous.intervalIntegrable (by fun_prop) _ _), h0, h1]
    ring
  have i1 : IntervalIntegrable (fun z => (x z - X z) ^ 2 + (u z - U z) ^ 2) MeasureTheory.volume (-1) 1 :=
    Continuous.intervalIntegrable (by fun_prop) _ _
  have i2 : IntervalIntegrable (fun z => (unkMiss alfa beta c x u z).1 ^ 2 + (unkMiss alfa beta c x u z).2 ^ 2) MeasureTheory.volume (-1) 1 :=
    Continuous.intervalIntegrable (by unfold unkMiss; fun_prop) _ _
  have hle : ∫ z in (-1 : ℝ)..1, (beta ^ 2 * ((x z - X z) ^ 2 + (u z - U z) ^ 2) -
      ((unkMiss alfa beta c x u z).1 ^ 2 + (unkMiss alfa beta c x u z).2 ^ 2)) ≤ 0 := by
    rw [← hint]
    refine intervalIntegral.integral_mono_on (by norm_num) ((i1.const_mul _).sub i2) (Continuous.intervalIntegrable (by fun_prop) _ _) fun z hz => ?_
    have := he z hz
    simp only [unkMiss, Prod.mk.injEq] at this ⊢
    obtain ⟨e1, e2⟩ := this
    generalize deriv x z = x' at *
    generalize deriv u z = u' at *
    generalize deriv X z = X' at *
    generalize deriv U z = U' at *
    obtain ⟨r, hr⟩ : ∃ r, r = -c * x' - alfa * x z - beta * u z := ⟨_, rfl⟩
    obtain ⟨q, hq⟩ : ∃ q, q = -c * u' - beta * x z + alfa * u z := ⟨_, rfl⟩
    rw [← hr, ← hq]
    have k1 : c * (x' - X') = -alfa * (x z - X z) - beta * (u z - U z) - r := by linear_combination hr + e1
    have k2 : c * (u' - U') = -beta * (x z - X z) + alfa * (u z - U z) - q := by linear_combination hq + e2
    have k3 : -(2 * beta * c * ((x' - X') * (u z - U z) + (x z - X z) * (u' - U'))) =
        2 * beta ^ 2 * ((x z - X z) ^ 2 + (u z - U z) ^ 2) + 2 * beta * (r * (u z - U z) + q * (x z - X z)) := by
      linear_combination (-2 * beta * (u z - U z)) * k1 + (-2 * beta * (x z - X z)) * k2
    rw [k3]
    nlinarith [sq_nonneg (beta * (u z - U z) + r), sq_nonneg (beta * (x z - X z) + q)]
  rw [intervalIntegral.integral_sub (i1.const_mul _) i2, intervalIntegral.integral_const_mul] at hle
  rw [le_div_iff₀ hb2]
  linarith

/-- A case: the numbers of the program. With the final time 15, the bound of the search, the exact loss is positive and less than for every shorter time, and
there are a state and a control with that loss. -/
example : (∀ tf, 0 < tf → tf < 15 → unkExactLoss 1 1 1 15 < unkExactLoss 1 1 1 tf) ∧ 0 < unkExactLoss 1 1 1 15 ∧
    ∃ x u : ℝ → ℝ, UnkExact 1 1 (2 / 15) x u ∧ x (-1) = 0 ∧ x 1 = 1 ∧ ∀ z ∈ Icc (-1 : ℝ) 1, |unkH 1 1 x u z| = unkExactLoss 1 1 1 15 := by
  obtain ⟨h1, h2⟩ := C112_time_fails 1 1 1 (by norm_num) (by norm_num)
  obtain ⟨x, u, h, a, b⟩ := C112_every_time 1 1 1 15 (by norm_num) (by norm_num)
  exact ⟨fun tf h0 h15 => h2 h0 (by norm_num : (0 : ℝ) < 15) h15, h1 15 (by norm_num), x, u, h, a, b, (C112_loss (by norm_num) (by norm_num) h a b).1⟩

/-- A case: the numbers of the program, for the start of `fsolve`. -/
example (w b w' b' : ℕ → ℝ) : ∃ lib o loss, unkInnerInit lib 35 30 0 1 1 1 (2 ^ (-52 : ℤ)) w b w' b' = .ok o ∧
    unkInnerLoop o 0 1 1 1 1 4 = .ok (some loss, { o with nlls := { o.nlls with compiled := true } }) := by
  obtain ⟨lib, hlib⟩ := Verif.Lemmas.LinAlg.linAlg_exists
  obtain ⟨o, h1, -, -, -, h2⟩ := C112_time hlib (N := 35) (m := 30) (by norm_num) (by norm_num) 0 1 1 1 (2 ^ (-52 : ℤ)) (by norm_num) w b w' b' (fuel := 4) le_rfl
  obtain ⟨S, v, st, x, u, loss, -, -, -, -, -, -, -, -, -, -, h3, -⟩ := h2 1 o.nlls.compiled
  exact ⟨lib, o, loss, h1, h3⟩

end Verif.Props
