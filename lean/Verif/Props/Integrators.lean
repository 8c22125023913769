import Verif.Model.Integrators
import Verif.Spec.Integrators
import Verif.Props.Reference
import Mathlib.Analysis.Calculus.FDeriv.Extend

/-!
# C114: the programs that call scipy's integrators for comparison
-/

namespace Verif.Props

open Set Verif.Spec Verif.Model.Prog
open scoped Topology

theorem const_ends {F : ℝ → ℝ} {a b : ℝ} (hab : a ≤ b) (hc : ContinuousOn F (Icc a b)) (hd : ∀ x ∈ Ioo a b, HasDerivAt F 0 x) : F b = F a := by
  rcases hab.eq_or_lt with rfl | h
  · rfl
  · obtain ⟨c, -, hcs⟩ := exists_hasDerivAt_eq_slope F (fun _ => 0) h hc hd
    have hba : b - a ≠ 0 := (sub_pos.2 h).ne'
    have : F b - F a = 0 := by
      rw [eq_div_iff hba] at hcs
      linarith
    linarith

/-- A solution of `w' + p w = C`: the end is a positive combination of the start and of `C`. -/
theorem first_order_ends {w p : ℝ → ℝ} {C a b : ℝ} (hab : a < b) (hp : ContinuousOn p (Icc a b)) (hc : ContinuousOn w (Icc a b))
    (hw : ∀ x ∈ Ioo a b, HasDerivAt w (C - p x * w x) x) : ∃ K > 0, ∃ M > 0, w b * K = w a + C * M := by
  obtain ⟨q, hq, hqp⟩ : ∃ q : ℝ → ℝ, Continuous q ∧ ∀ x ∈ Icc a b, q x = p x :=
    ⟨IccExtend hab.le ((Icc a b).restrict p), hp.restrict.Icc_extend', fun x hx => IccExtend_of_mem _ _ hx⟩
  obtain ⟨A, hA, hA0⟩ : ∃ A : ℝ → ℝ, (∀ x, HasDerivAt A (q x) x) ∧ A a = 0 :=
    ⟨fun x => ∫ t in a..x, q t, fun x => hq.integral_hasStrictDerivAt a x |>.hasDerivAt, by simp⟩
  have hAc : Continuous fun x => Real.exp (A x) := Real.continuous_exp.comp (continuous_iff_continuousAt.mpr fun x => (hA x).continuousAt)
  obtain ⟨E, hE, hE0⟩ : ∃ E : ℝ → ℝ, (∀ x, HasDerivAt E (Real.exp (A x)) x) ∧ E a = 0 :=
    ⟨fun x => ∫ t in a..x, Real.exp (A t), fun x => hAc.integral_hasStrictDerivAt a x |>.hasDerivAt, by simp⟩
  have hmono : StrictMono E := strictMono_of_deriv_pos fun x => by rw [(hE x).deriv]; exact Real.exp_pos _
  have hpos : 0 < E b := hE0 ▸ hmono hab
  refine ⟨Real.exp (A b), Real.exp_pos _, E b, hpos, ?_⟩
  have := const_ends (F := fun x => w x * Real.exp (A x) - C * E x) hab.le
    ((hc.mul hAc.continuousOn).sub (continuousOn_const.mul (continuous_iff_continuousAt.2 fun x => (hE x).continuousAt).continuousOn)) fun x hx => by
      refine (((hw x hx).mul (hA x).exp).sub ((hE x).const_mul C)).congr_deriv ?_
      rw [hqp x ⟨hx.1.le, hx.2.le⟩]
      ring
  rw [hA0, hE0, Real.exp_zero] at this
  linarith

section Parts

variable {f : ℝ → ℝ × ℝ → ℝ × ℝ} {a b : ℝ} {bad : Set ℝ} {Y : ℝ → ℝ × ℝ}

theorem _root_.Verif.Spec.Solves.c1 (h : Solves f a b bad Y) : ContinuousOn (fun x => (Y x).1) (Icc a b) := continuous_fst.comp_continuousOn h.cont

theorem _root_.Verif.Spec.Solves.c2 (h : Solves f a b bad Y) : ContinuousOn (fun x => (Y x).2) (Icc a b) := continuous_snd.comp_continuousOn h.cont

theorem _root_.Verif.Spec.Solves.d1 (h : Solves f a b bad Y) {x : ℝ} (hx : x ∈ Ioo a b) (hb : x ∉ bad) : HasDerivAt (fun x => (Y x).1) (f x (Y x)).1 x :=
  ((ContinuousLinearMap.fst ℝ ℝ ℝ).hasFDerivAt.comp_hasDerivAt x (h.deriv x hx hb))

theorem _root_.Verif.Spec.Solves.d2 (h : Solves f a b bad Y) {x : ℝ} (hx : x ∈ Ioo a b) (hb : x ∉ bad) : HasDerivAt (fun x => (Y x).2) (f x (Y x)).2 x :=
  ((ContinuousLinearMap.snd ℝ ℝ ℝ).hasFDerivAt.comp_hasDerivAt x (h.deriv x hx hb))

/-- A solution on an interval is a solution on a part of it. -/
theorem _root_.Verif.Spec.Solves.part (h : Solves f a b bad Y) {c d : ℝ} (hc : a ≤ c) (hd : d ≤ b) : Solves f c d bad Y :=
  ⟨h.cont.mono (Icc_subset_Icc hc hd), fun x hx => h.deriv x ⟨hc.trans_lt hx.1, hx.2.trans_le hd⟩⟩

end Parts

/-! ### Two solutions of `y'' = -y y' + g` -/

section Product

variable {f : ℝ → ℝ × ℝ → ℝ × ℝ} {g : ℝ → ℝ} {a b : ℝ} {bad : Set ℝ} {Y Z : ℝ → ℝ × ℝ}

/-- With `C` the difference at `a` of `y' + y²/2`, the difference of the values at `b` is a positive combination of the one at `a` and of `C`. -/
theorem product_ends (hab : a < b) (hf : ∀ x ∈ Ioo a b, ∀ y, f x y = (y.2, -y.1 * y.2 + g x)) (hbad : ∀ x ∈ Ioo a b, x ∉ bad)
    (hY : Solves f a b bad Y) (hZ : Solves f a b bad Z) :
    (∃ K > 0, ∃ M > 0, ((Y b).1 - (Z b).1) * K = ((Y a).1 - (Z a).1)
      + (((Y a).2 + (Y a).1 ^ 2 / 2) - ((Z a).2 + (Z a).1 ^ 2 / 2)) * M) ∧
    (Y b).2 + (Y b).1 ^ 2 / 2 - ((Z b).2 + (Z b).1 ^ 2 / 2) = (Y a).2 + (Y a).1 ^ 2 / 2 - ((Z a).2 + (Z a).1 ^ 2 / 2) := by
  have hq : ∀ x ∈ Icc a b, ((Y x).2 + (Y x).1 ^ 2 / 2) - ((Z x).2 + (Z x).1 ^ 2 / 2) = ((Y a).2 + (Y a).1 ^ 2 / 2) - ((Z a).2 + (Z a).1 ^ 2 / 2) := by
    intro x hx
    refine const_ends (F := fun x => ((Y x).2 + (Y x).1 ^ 2 / 2) - ((Z x).2 + (Z x).1 ^ 2 / 2)) hx.1 ?_ fun t ht => ?_
    · have hs : Icc a x ⊆ Icc a b := Icc_subset_Icc le_rfl hx.2
      exact ((hY.c2.mono hs).add (((hY.c1.mono hs).pow 2).div_const 2)).sub ((hZ.c2.mono hs).add (((hZ.c1.mono hs).pow 2).div_const 2))
    · have ht' : t ∈ Ioo a b := ⟨ht.1, ht.2.trans_le hx.2⟩
      have h := ((hY.d2 ht' (hbad t ht')).add (((hY.d1 ht' (hbad t ht')).pow 2).div_const 2)).sub
        ((hZ.d2 ht' (hbad t ht')).add (((hZ.d1 ht' (hbad t ht')).pow 2).div_const 2))
      refine h.congr_deriv ?_
      rw [hf t ht', hf t ht']
      push_cast
      ring
  refine ⟨?_, hq b ⟨hab.le, le_rfl⟩⟩
  refine first_order_ends (w := fun x => (Y x).1 - (Z x).1) (p := fun x => ((Y x).1 + (Z x).1) / 2) hab ((hY.c1.add hZ.c1).div_const 2)
    (hY.c1.sub hZ.c1) fun x hx => ?_
  refine ((hY.d1 hx (hbad x hx)).sub (hZ.d1 hx (hbad x hx))).congr_deriv ?_
  have e := hq x ⟨hx.1.le, hx.2.le⟩
  rw [hf x hx, hf x hx]
  dsimp only
  linear_combination e

end Product

/-! ### Lane–Emden -/

theorem sinc_slope_cont : ContinuousWithinAt (deriv Real.sinc) (Ici 0) 0 := by
  have d1 : ∀ s : ℝ, 0 < s → s < 1 → |deriv Real.sinc s| ≤ s := by
    intro s hs h1
    have ev : Real.sinc =ᶠ[nhds s] fun t => Real.sin t / t :=
      Filter.eventually_of_mem (isOpen_ne.mem_nhds hs.ne') fun t ht => Real.sinc_of_ne_zero ht
    have h := (Real.hasDerivAt_sin s).div (hasDerivAt_id s) hs.ne'
    have hd : deriv Real.sinc s = (Real.cos s * s - Real.sin s) / s ^ 2 := by
      rw [ev.deriv_eq]
      refine (HasDerivAt.congr_deriv (f := fun t => Real.sin t / t) h ?_).deriv
      simp
    have a := Real.sin_gt_sub_cube hs
    have b := Real.sin_le hs.le
    have c := Real.one_sub_sq_div_two_le_cos (x := s)
    have d := Real.cos_le_one s
    rw [hd, abs_div, abs_of_pos (by positivity : 0 < s ^ 2), div_le_iff₀ (by positivity), abs_le]
    have p3 := pow_pos hs 3
    constructor
    · nlinarith
    · nlinarith
  rw [ContinuousWithinAt, sinc_deriv_zero.deriv]
  refine squeeze_zero_norm' (a := fun x => x) ?_ (Filter.tendsto_id.mono_left nhdsWithin_le_nhds)
  have h1 : Iio (1 : ℝ) ∈ 𝓝[≥] (0 : ℝ) := mem_nhdsWithin_of_mem_nhds (Iio_mem_nhds one_pos)
  filter_upwards [h1, self_mem_nhdsWithin] with x hx hx0
  rcases (mem_Ici.1 hx0).eq_or_lt with rfl | h
  · rw [sinc_deriv_zero.deriv, norm_zero]
  · exact d1 x h hx

/-- **C114**, laneEmden_ode.py: for the three values of `type` with a known solution, that solution solves the equation given to the integrator on
every interval `[0, L]`, with the initial value given to it. -/
theorem C114_lane (k : ℕ) (hk : k = 0 ∨ k = 1 ∨ k = 5) (L : ℝ) :
    Solves (laneDe k) 0 L ∅ (fun x => (laneReal k x, deriv (laneReal k) x)) ∧ (laneReal k 0, deriv (laneReal k) 0) = laneStart := by
  obtain ⟨h0, h1, hr⟩ := C83_lane k hk
  refine ⟨?_, by rw [h0, h1.deriv]; rfl⟩
  have hsm : ∀ x > 0, ContDiffAt ℝ 2 (laneReal k) x := by
    rcases hk with rfl | rfl | rfl
    · rw [lane0_eq]
      fun_prop
    · intro x hx
      rw [lane1_eq]
      have h : ContDiffAt ℝ 2 (fun t : ℝ => Real.sin t / t) x := Real.contDiff_sin.contDiffAt.div contDiffAt_id hx.ne'
      exact h.congr_of_eventuallyEq (Filter.eventually_of_mem (isOpen_ne.mem_nhds hx.ne') fun t ht => Real.sinc_of_ne_zero ht)
    · intro x _
      rw [lane5_eq]
      exact (ContDiff.rpow_const_of_ne (by fun_prop) fun x => by positivity).contDiffAt
  have hd2 : ∀ x > 0, HasDerivAt (deriv (laneReal k)) (deriv (deriv (laneReal k)) x) x := by
    intro x hx
    have h := ((hsm x hx).fderiv_right (m := 1) (by norm_num)).differentiableAt (by norm_num)
    have h' := h.clm_apply (differentiableAt_const (1 : ℝ))
    simp only [fderiv_apply_one_eq_deriv] at h'
    exact h'.hasDerivAt
  have hz : ContinuousWithinAt (deriv (laneReal k)) (Icc 0 L) 0 := by
    rcases hk with rfl | rfl | rfl
    · have : deriv (laneReal 0) = fun x => -1 / 3 * x := by
        rw [lane0_eq]
        funext x
        have h := ((hasDerivAt_pow 2 x).const_mul (1 / 6)).const_sub 1
        refine (HasDerivAt.congr_deriv h ?_).deriv
        push_cast
        ring
      rw [this]
      fun_prop
    · rw [lane1_eq]
      refine (sinc_slope_cont).mono fun x hx => hx.1
    · rw [lane5_deriv]
      refine Continuous.continuousWithinAt ?_
      exact (by fun_prop : Continuous fun x : ℝ => -(x / 3)).mul
        (Continuous.rpow_const (by fun_prop) fun x => Or.inl (by positivity))
  refine ⟨fun x hx => ?_, fun x hx _ => ?_⟩
  · rcases hx.1.eq_or_lt with rfl | h
    · exact h1.continuousAt.continuousWithinAt.prodMk hz
    · exact ((hsm x h).continuousAt.prodMk (hd2 x h).continuousAt).continuousWithinAt
  · refine HasDerivAt.congr_deriv (((hsm x hx.1).differentiableAt (by norm_num)).hasDerivAt.prodMk (hd2 x hx.1)) (Prod.ext rfl ?_)
    have hx0 : x ≠ 0 := hx.1.ne'
    have e := hr x
    unfold laneResid at e
    simp only [laneDe, if_neg hx0]
    field_simp
    linear_combination e

/-- **C114**, laneEmden_ode.py: the equation and the initial value determine the solution. -/
theorem C114_lane_unique (k : ℕ) {L : ℝ} {Y Z : ℝ → ℝ × ℝ} (hY : Solves (laneDe k) 0 L ∅ Y) (hZ : Solves (laneDe k) 0 L ∅ Z)
    (h0 : Y 0 = Z 0) : ∀ x ∈ Icc 0 L, Y x = Z x := by
  intro x hx
  have hLx : 0 ≤ L := hx.1.trans hx.2
  -- the powers are Lipschitz on the values taken
  obtain ⟨B, hB⟩ : ∃ B, ∀ t ∈ Icc 0 L, |(Y t).1| ≤ B ∧ |(Z t).1| ≤ B := by
    obtain ⟨B1, h1⟩ := isCompact_Icc.exists_bound_of_continuousOn hY.c1
    obtain ⟨B2, h2⟩ := isCompact_Icc.exists_bound_of_continuousOn hZ.c1
    exact ⟨max B1 B2, fun t ht => ⟨(h1 t ht).trans (le_max_left _ _), (h2 t ht).trans (le_max_right _ _)⟩⟩
  obtain ⟨K, hK0, hK⟩ : ∃ K : ℝ, 0 ≤ K ∧ ∀ u v : ℝ, |u| ≤ B → |v| ≤ B → |u ^ k - v ^ k| ≤ K * |u - v| := by
    refine ⟨∑ i ∈ Finset.range k, B ^ (k - 1), ?_, fun u v hu hv => ?_⟩
    · have : 0 ≤ B := (abs_nonneg _).trans (hB 0 ⟨le_rfl, hLx⟩).1
      positivity
    · rw [← (Commute.all u v).mul_geom_sum₂, abs_mul, mul_comm]
      refine mul_le_mul_of_nonneg_right ((Finset.abs_sum_le_sum_abs _ _).trans (Finset.sum_le_sum fun i hi => ?_)) (abs_nonneg _)
      rw [abs_mul, abs_pow, abs_pow]
      have hb : 0 ≤ B := (abs_nonneg _).trans hu
      have hi' := Finset.mem_range.1 hi
      calc |u| ^ i * |v| ^ (k - 1 - i) ≤ B ^ i * B ^ (k - 1 - i) := by gcongr
        _ = B ^ (k - 1) := by rw [← pow_add]; congr 1; omega
  have hanti : AntitoneOn (fun t => (((Y t).1 - (Z t).1) ^ 2 + ((Y t).2 - (Z t).2) ^ 2) * Real.exp (-(1 + K) * t)) (Icc 0 L) := by
    have hd : ∀ t ∈ Ioo 0 L, HasDerivAt (fun t => (((Y t).1 - (Z t).1) ^ 2 + ((Y t).2 - (Z t).2) ^ 2) * Real.exp (-(1 + K) * t)) _ t := fun t ht =>
      ((((hY.d1 ht (by simp)).sub (hZ.d1 ht (by simp))).pow 2).add (((hY.d2 ht (by simp)).sub (hZ.d2 ht (by simp))).pow 2)).mul
        (((hasDerivAt_id t).const_mul (-(1 + K))).exp)
    refine antitoneOn_of_deriv_nonpos (convex_Icc 0 L) ?_ ?_ ?_
    · exact (((hY.c1.sub hZ.c1).pow 2).add ((hY.c2.sub hZ.c2).pow 2)).mul (by fun_prop)
    · rw [interior_Icc]
      exact fun t ht => (hd t ht).differentiableAt.differentiableWithinAt
    · rw [interior_Icc]
      intro t ht
      rw [(hd t ht).deriv]
      have ht0 : t ≠ 0 := ht.1.ne'
      simp only [laneDe, if_neg ht0, Pi.sub_apply, Pi.add_apply, Pi.pow_apply, id]
      obtain ⟨b1, b2⟩ := hB t ⟨ht.1.le, ht.2.le⟩
      have hk := hK _ _ b1 b2
      generalize (Y t).1 = y1 at *
      generalize (Z t).1 = z1 at *
      generalize (Y t).2 = y2 at *
      generalize (Z t).2 = z2 at *
      have he := Real.exp_pos (-(1 + K) * t)
      have hti : 0 < 1 / t := one_div_pos.2 ht.1
      have h1 : -((y1 ^ k - z1 ^ k) * (y2 - z2)) ≤ K * (((y1 - z1) ^ 2 + (y2 - z2) ^ 2) / 2) := by
        calc -((y1 ^ k - z1 ^ k) * (y2 - z2)) ≤ |y1 ^ k - z1 ^ k| * |y2 - z2| := by rw [← abs_mul]; exact neg_le_abs _
          _ ≤ K * |y1 - z1| * |y2 - z2| := by gcongr
          _ ≤ K * (((y1 - z1) ^ 2 + (y2 - z2) ^ 2) / 2) := by
            rw [mul_assoc]
            refine mul_le_mul_of_nonneg_left ?_ hK0
            nlinarith [sq_nonneg (|y1 - z1| - |y2 - z2|), sq_abs (y1 - z1), sq_abs (y2 - z2)]
      have h2 : 2 * ((y1 - z1) * (y2 - z2)) ≤ (y1 - z1) ^ 2 + (y2 - z2) ^ 2 := by nlinarith [sq_nonneg ((y1 - z1) - (y2 - z2))]
      have h3 : 0 ≤ 1 / t * (y2 - z2) ^ 2 := by positivity
      have : 2 * ((y1 - z1) * (y2 - z2)) + 2 * ((y2 - z2) * ((-2 / t * y2 - y1 ^ k) - (-2 / t * z2 - z1 ^ k)))
          - (1 + K) * ((y1 - z1) ^ 2 + (y2 - z2) ^ 2) ≤ 0 := by
        have e : (y2 - z2) * ((-2 / t * y2 - y1 ^ k) - (-2 / t * z2 - z1 ^ k)) = -2 * (1 / t * (y2 - z2) ^ 2) - (y1 ^ k - z1 ^ k) * (y2 - z2) := by ring
        rw [e]
        linarith
      have h4 := mul_nonpos_of_nonpos_of_nonneg this he.le
      push_cast
      refine le_trans (le_of_eq ?_) h4
      ring
  have h := hanti ⟨le_rfl, hLx⟩ hx hx.1
  simp only [h0, sub_self] at h
  have hz : ((Y x).1 - (Z x).1) ^ 2 + ((Y x).2 - (Z x).2) ^ 2 ≤ 0 := by
    by_contra hc
    have := mul_pos (not_le.1 hc) (Real.exp_pos (-(1 + K) * x))
    rw [zero_pow two_ne_zero, add_zero, zero_mul] at h
    linarith
  have s1 := sq_nonneg ((Y x).1 - (Z x).1)
  have s2 := sq_nonneg ((Y x).2 - (Z x).2)
  exact Prod.ext (sub_eq_zero.1 (pow_eq_zero_iff two_ne_zero |>.1 (by linarith))) (sub_eq_zero.1 (pow_eq_zero_iff two_ne_zero |>.1 (by linarith)))

/-- The right derivative at 0 of a solution, where it exists. -/
theorem lane_slope (k : ℕ) {L : ℝ} (hL : 0 < L) {Y : ℝ → ℝ × ℝ} (hY : Solves (laneDe k) 0 L ∅ Y) (h0 : Y 0 = laneStart) {d : ℝ × ℝ}
    (hd : HasDerivWithinAt Y d (Ici 0) 0) : d.2 = -1 / 3 := by
  have hd2 : HasDerivWithinAt (fun x => (Y x).2) d.2 (Ici 0) 0 := (ContinuousLinearMap.snd ℝ ℝ ℝ).hasFDerivAt.comp_hasDerivWithinAt 0 hd
  have hsl : Filter.Tendsto (fun x => (Y x).2 / x) (𝓝[>] 0) (𝓝 d.2) := by
    have h := (hasDerivWithinAt_iff_tendsto_slope' (s := Ioi 0) (by simp)).1 (hd2.mono Ioi_subset_Ici_self)
    refine h.congr fun x => ?_
    rw [slope_def_field, h0]
    simp [laneStart]
  have hc : ContinuousWithinAt (fun x => (Y x).1) (Ioi 0) 0 :=
    (continuous_fst.continuousAt.comp_continuousWithinAt hd.continuousWithinAt).mono Ioi_subset_Ici_self
  have h1 : Filter.Tendsto (fun x => (Y x).1) (𝓝[>] 0) (𝓝 1) := by
    have := hc.tendsto
    rwa [h0] at this
  have hlim : Filter.Tendsto (fun x => -2 * ((Y x).2 / x) - (Y x).1 ^ k) (𝓝[>] 0) (𝓝 (-2 * d.2 - 1 ^ k)) := (hsl.const_mul (-2)).sub (h1.pow k)
  have hnear : Ioo 0 L ∈ 𝓝[>] (0 : ℝ) := Ioo_mem_nhdsGT hL
  have h2 : HasDerivWithinAt (fun x => (Y x).2) (-2 * d.2 - 1 ^ k) (Ici 0) 0 := by
    refine hasDerivWithinAt_Ici_of_tendsto_deriv (s := Ioo 0 L) (fun x hx => (hY.d2 hx (by simp)).differentiableAt.differentiableWithinAt)
      ((hd2.continuousWithinAt).mono fun x hx => hx.1.le) hnear (hlim.congr' ?_)
    filter_upwards [hnear] with x hx
    rw [(hY.d2 hx (by simp)).deriv]
    simp only [laneDe, if_neg hx.1.ne']
    ring
  have := (uniqueDiffOn_Ici (0 : ℝ) 0 self_mem_Ici).eq_deriv _ hd2 h2
  rw [one_pow] at this
  linarith

/-- **C114** fails for laneEmden_ode.py, any `type`: the function given to the integrator returns the second derivative `0` at the starting point,
where every solution of the equation has `-1/3`, so no function at all satisfies the equation from the starting point on. -/
theorem C114_lane_fails (k : ℕ) {L : ℝ} (hL : 0 < L) :
    ¬ ∃ Y : ℝ → ℝ × ℝ, Y 0 = laneStart ∧ Solves (laneDe k) 0 L ∅ Y ∧ HasDerivWithinAt Y (laneDe k 0 (Y 0)) (Ici 0) 0 := by
  rintro ⟨Y, h0, hY, hd⟩
  have := lane_slope k hL hY h0 hd
  simp only [laneDe, if_pos] at this
  norm_num at this

/-! ### The boundary value problem -/

/-- **C114**, BVP_ode.py: the reference solution solves the equation and the conditions given to the integrator. -/
theorem C114_bvp : Solves bvpDe 0 Real.pi ∅ (fun x => (bvpReal x, deriv bvpReal x)) ∧
    bvpBc (bvpReal 0, deriv bvpReal 0) (bvpReal Real.pi, deriv bvpReal Real.pi) = 0 := by
  obtain ⟨h0, h1, hr⟩ := C83_bvp
  have hreal : ContDiff ℝ 2 bvpReal := by
    unfold bvpReal
    have := Real.contDiff_exp (n := 2)
    have := Real.contDiff_sin (n := 2)
    fun_prop
  have hd : ContDiff ℝ 1 (deriv bvpReal) := ((contDiff_succ_iff_deriv (n := 1)).mp hreal).2.2
  refine ⟨⟨(hreal.continuous.prodMk hd.continuous).continuousOn, fun x _ _ => ?_⟩, by rw [bvpBc, h0, h1]; rfl⟩
  refine HasDerivAt.congr_deriv ((hreal.differentiable (by norm_num) x).hasDerivAt.prodMk (hd.differentiable (by norm_num) x).hasDerivAt) (Prod.ext rfl ?_)
  have e := hr x
  unfold bvpResid bvpF at e
  simp only [bvpDe]
  linear_combination e

/-- **C114**, BVP_ode.py: and nothing else does. -/
theorem C114_bvp_unique {Y : ℝ → ℝ × ℝ} (hY : Solves bvpDe 0 Real.pi ∅ Y) (hb : bvpBc (Y 0) (Y Real.pi) = 0) :
    ∀ x ∈ Icc 0 Real.pi, Y x = (bvpReal x, deriv bvpReal x) := by
  obtain ⟨hZ, hz⟩ := C114_bvp
  obtain ⟨hb0, hb1⟩ : (Y 0).1 = 0 ∧ (Y Real.pi).1 = 0 := by simpa [bvpBc, Prod.ext_iff] using hb
  obtain ⟨hz0, hz1⟩ : bvpReal 0 = 0 ∧ bvpReal Real.pi = 0 := by simpa [bvpBc, Prod.ext_iff] using hz
  have hf : ∀ x : ℝ, ∀ y, bvpDe x y = (y.2, -y.1 * y.2 + (Real.exp (-2 * x) * Real.sin x * (Real.cos x - Real.sin x) - 2 * Real.exp (-x) * Real.cos x)) :=
    fun x y => rfl
  obtain ⟨⟨K, hK, M, hM, hKM⟩, -⟩ := product_ends Real.pi_pos (fun x _ => hf x) (by simp) hY hZ
  dsimp only at hKM
  rw [hb0, hb1, hz0, hz1, sub_self, zero_mul, zero_add] at hKM
  have hC := (mul_eq_zero.1 hKM.symm).resolve_right hM.ne'
  intro x hx
  rcases hx.1.eq_or_lt with rfl | h
  · refine Prod.ext (hb0.trans hz0.symm) ?_
    dsimp only
    linarith
  · obtain ⟨⟨K, hK, M, hM, hKM⟩, hq⟩ := product_ends h (fun x _ => hf x) (by simp) (hY.part le_rfl hx.2) (hZ.part le_rfl hx.2)
    dsimp only at hKM hq
    rw [hb0, hz0, hC, sub_self, zero_mul, zero_add] at hKM
    have hD := (mul_eq_zero.1 hKM).resolve_right hK.ne'
    rw [hb0, hz0, hC] at hq
    have e1 : (Y x).1 = bvpReal x := sub_eq_zero.1 hD
    refine Prod.ext e1 ?_
    dsimp only
    rw [e1] at hq
    linarith

/-! ### Shooting -/

/-- The derivative of the reference solution at each point is the one of the branch used there. -/
theorem hyb_deriv (x : ℝ) : deriv hybReal x = if x ≤ Real.pi / 2 then deriv hybReal1 x else deriv hybReal2 x := by
  obtain ⟨-, -, hd, -, -, -⟩ := C83_hybrid
  have hd1 : Differentiable ℝ hybReal1 := by
    unfold hybReal1
    fun_prop
  split
  · rename_i h
    have h1 : HasDerivWithinAt hybReal (deriv hybReal x) (Iic x) x := (hd x).hasDerivAt.hasDerivWithinAt
    have h2 : HasDerivWithinAt hybReal (deriv hybReal1 x) (Iic x) x :=
      (hd1 x).hasDerivAt.hasDerivWithinAt.congr (fun y hy => if_pos (le_trans hy h)) (if_pos h)
    exact (uniqueDiffOn_Iic x x self_mem_Iic).eq_deriv _ h1 h2
  · rename_i h
    exact Filter.EventuallyEq.deriv_eq (Filter.eventually_of_mem (Ioi_mem_nhds (not_le.1 h)) fun y hy => if_neg (not_le_of_gt hy))

/-- **C114**, shootingMethod_linearNonlnear.py: the reference solution solves the equation given to the integrator (its second derivative jumps at
`π/2`), starts at the given value, and has no miss; its initial slope is below the first guess `7.5` plus `0.8`. -/
theorem C114_shoot_exact : Solves shootDe 0 Real.pi {Real.pi / 2} (fun x => (hybReal x, deriv hybReal x)) ∧
    (hybReal 0, deriv hybReal 0) = shootStart (deriv hybReal 0) ∧ shootMiss (fun x => (hybReal x, deriv hybReal x)) = 0 ∧
    deriv hybReal 0 = 2 / 5 * Real.exp Real.pi - 1 / 2 * Real.exp (Real.pi / 2) + 7 / 10 ∧ deriv hybReal 0 < 83 / 10 := by
  obtain ⟨h0, h1, hd, ⟨v1, v2, v3, v4⟩, r1, r2⟩ := C83_hybrid
  have hpi := Real.pi_pos
  have hs : deriv hybReal 0 = 2 / 5 * Real.exp Real.pi - 1 / 2 * Real.exp (Real.pi / 2) + 7 / 10 := by
    rw [hyb_deriv, if_pos (by positivity), hyb1_deriv]
    norm_num
  have c1 : Continuous (deriv hybReal1) := by
    rw [hyb1_deriv]
    fun_prop
  have c2 : Continuous (deriv hybReal2) := by
    rw [hyb2_deriv]
    fun_prop
  have hc : Continuous (deriv hybReal) := by
    rw [show deriv hybReal = fun x => if x ≤ Real.pi / 2 then deriv hybReal1 x else deriv hybReal2 x from funext hyb_deriv]
    exact Continuous.if_le c1 c2 continuous_id continuous_const fun x hx => by rw [hx, v3, v4]
  have e1 : Differentiable ℝ (deriv hybReal1) := by
    rw [hyb1_deriv]
    fun_prop
  have e2 : Differentiable ℝ (deriv hybReal2) := by
    rw [hyb2_deriv]
    fun_prop
  have hdd : ∀ x, x ≠ Real.pi / 2 → HasDerivAt (deriv hybReal) (deriv (deriv hybReal) x) x := by
    intro x hx
    rcases lt_or_gt_of_ne hx with h | h
    · have ev : deriv hybReal =ᶠ[nhds x] deriv hybReal1 := Filter.eventually_of_mem (Iio_mem_nhds h) fun y hy => by
        rw [hyb_deriv, if_pos (le_of_lt hy)]
      exact ((e1 x).congr_of_eventuallyEq ev).hasDerivAt
    · have ev : deriv hybReal =ᶠ[nhds x] deriv hybReal2 := Filter.eventually_of_mem (Ioi_mem_nhds h) fun y hy => by
        rw [hyb_deriv, if_neg (not_le_of_gt hy)]
      exact ((e2 x).congr_of_eventuallyEq ev).hasDerivAt
  refine ⟨⟨(hd.continuous.prodMk hc).continuousOn, fun x _ hx => ?_⟩, ?_, ?_, hs, ?_⟩
  · have hx' : x ≠ Real.pi / 2 := hx
    refine HasDerivAt.congr_deriv ((hd x).hasDerivAt.prodMk (hdd x hx')) (Prod.ext rfl ?_)
    rcases lt_or_gt_of_ne hx' with h | h
    · have e := r1 x h
      unfold hybResid1 hybF at e
      simp only [shootDe, if_pos h.le, pow_zero]
      linear_combination e
    · have e := r2 x h
      unfold hybResid2 hybF at e
      simp only [shootDe, if_neg (not_le_of_gt h), pow_one]
      linear_combination e
  · rw [h0]
    rfl
  · simp only [shootMiss]
    rw [h1, hybYf, sub_self]
  · have hq : Real.exp (Real.pi / 2) < 5 := by
      have h5 : Real.exp (Real.pi / 2) ^ 5 < 5 ^ 5 := by
        rw [← Real.exp_nat_mul]
        have hlt : ((5 : ℕ) : ℝ) * (Real.pi / 2) < ((8 : ℕ) : ℝ) * 1 := by
          have := Real.pi_lt_d2
          push_cast
          linarith
        refine (Real.exp_lt_exp.2 hlt).trans ?_
        rw [Real.exp_nat_mul]
        calc Real.exp 1 ^ 8 < (2.7182818286 : ℝ) ^ 8 := pow_lt_pow_left₀ Real.exp_one_lt_d9 (Real.exp_pos 1).le (by norm_num)
          _ < 5 ^ 5 := by norm_num
      exact lt_of_pow_lt_pow_left₀ 5 (by norm_num) h5
    have hq2 : Real.exp Real.pi = Real.exp (Real.pi / 2) ^ 2 := by
      rw [← Real.exp_nat_mul]
      congr 1
      push_cast
      ring
    have hq1 : 1 < Real.exp (Real.pi / 2) := Real.one_lt_exp_iff.2 (by positivity)
    rw [hs, hq2]
    nlinarith

/-- Up to `π/2` the difference to the reference solution is `s` times the sine. -/
theorem shoot_first {Y : ℝ → ℝ × ℝ} {s : ℝ} (hY : Solves shootDe 0 Real.pi {Real.pi / 2} Y) (h0 : Y 0 = shootStart (deriv hybReal 0 + s)) :
    ∀ x ∈ Icc 0 (Real.pi / 2), (Y x).1 = hybReal x + s * Real.sin x ∧ (Y x).2 = deriv hybReal x + s * Real.cos x := by
  obtain ⟨hZ, hz0, -⟩ := C114_shoot_exact
  have hpi := Real.pi_pos
  intro x hx
  have hYx := hY.part le_rfl (by linarith [hx.2] : x ≤ Real.pi)
  have hZx := hZ.part le_rfl (by linarith [hx.2] : x ≤ Real.pi)
  have hb : ∀ t ∈ Ioo 0 x, t ∉ ({Real.pi / 2} : Set ℝ) := fun t ht he => by
    rw [mem_singleton_iff] at he
    linarith [ht.2, hx.2]
  have hf : ∀ t ∈ Ioo 0 x, ∀ y, shootDe t y = (y.2, -y.1 - Real.exp (Real.pi - 2 * t) + Real.exp (Real.pi / 2 - t)) := fun t ht y => by
    simp only [shootDe, if_pos (ht.2.le.trans hx.2), pow_zero, mul_one]
  have hA := const_ends (F := fun t => ((Y t).1 - hybReal t) * Real.cos t - ((Y t).2 - deriv hybReal t) * Real.sin t) hx.1
    (((hYx.c1.sub hZx.c1).mul Real.continuous_cos.continuousOn).sub ((hYx.c2.sub hZx.c2).mul Real.continuous_sin.continuousOn)) fun t ht => by
      have h := (((hYx.d1 ht (hb t ht)).sub (hZx.d1 ht (hb t ht))).mul (Real.hasDerivAt_cos t)).sub
        (((hYx.d2 ht (hb t ht)).sub (hZx.d2 ht (hb t ht))).mul (Real.hasDerivAt_sin t))
      refine h.congr_deriv ?_
      simp only [hf t ht, Pi.sub_apply]
      ring
  have hB := const_ends (F := fun t => ((Y t).1 - hybReal t) * Real.sin t + ((Y t).2 - deriv hybReal t) * Real.cos t) hx.1
    (((hYx.c1.sub hZx.c1).mul Real.continuous_sin.continuousOn).add ((hYx.c2.sub hZx.c2).mul Real.continuous_cos.continuousOn)) fun t ht => by
      have h := (((hYx.d1 ht (hb t ht)).sub (hZx.d1 ht (hb t ht))).mul (Real.hasDerivAt_sin t)).add
        (((hYx.d2 ht (hb t ht)).sub (hZx.d2 ht (hb t ht))).mul (Real.hasDerivAt_cos t))
      refine h.congr_deriv ?_
      simp only [hf t ht, Pi.sub_apply]
      ring
  have e1 : (Y 0).1 = hybReal 0 := by
    rw [h0]
    exact (congrArg Prod.fst hz0).symm
  have e2 : (Y 0).2 = deriv hybReal 0 + s := by rw [h0]; rfl
  rw [e1, e2, Real.cos_zero, Real.sin_zero] at hA hB
  have hsc := Real.sin_sq_add_cos_sq x
  constructor
  · linear_combination Real.cos x * hA + Real.sin x * hB - ((Y x).1 - hybReal x) * hsc
  · linear_combination -Real.sin x * hA + Real.cos x * hB - ((Y x).2 - deriv hybReal x) * hsc

theorem shoot_second {Y : ℝ → ℝ × ℝ} {s : ℝ} (hY : Solves shootDe 0 Real.pi {Real.pi / 2} Y) (h0 : Y 0 = shootStart (deriv hybReal 0 + s))
    {x : ℝ} (hx : Real.pi / 2 < x) (hx1 : x ≤ Real.pi) :
    (∃ K > 0, ∃ M > 0, ((Y x).1 - hybReal x) * K = s + s * (1 + s / 2) * M) ∧
    (Y x).2 + (Y x).1 ^ 2 / 2 - (deriv hybReal x + hybReal x ^ 2 / 2) = s * (1 + s / 2) := by
  obtain ⟨-, -, -, ⟨v1, -, v3, -⟩, -⟩ := C83_hybrid
  obtain ⟨hZ, -⟩ := C114_shoot_exact
  have hpi := Real.pi_pos
  obtain ⟨a1, a2⟩ := shoot_first hY h0 (Real.pi / 2) ⟨by positivity, le_rfl⟩
  have w1 : hybReal (Real.pi / 2) = 1 := (if_pos le_rfl).trans v1
  rw [w1, Real.sin_pi_div_two, mul_one] at a1
  rw [Real.cos_pi_div_two, mul_zero, add_zero] at a2
  have h := product_ends (g := fun t => -Real.exp (Real.pi - 2 * t) + Real.exp (Real.pi / 2 - t)) hx
    (fun t ht y => by
      simp only [shootDe, if_neg (not_le_of_gt ht.1), pow_one]
      refine Prod.ext rfl ?_
      dsimp only
      ring)
    (fun t ht he => by
      rw [mem_singleton_iff] at he
      linarith [ht.1])
    (hY.part (by positivity) hx1) (hZ.part (by positivity) hx1)
  dsimp only at h
  rw [a1, a2, w1] at h
  obtain ⟨⟨K, hK, M, hM, e⟩, e'⟩ := h
  refine ⟨⟨K, hK, M, hM, ?_⟩, ?_⟩
  · linear_combination e
  · linear_combination e'

/-- **C114**, shootingMethod_linearNonlnear.py: a solution of the equation started with the slope of the reference solution plus `s` misses the end
on the side of `s`, for every `s ≥ -2`; so on that side of `deriv hybReal 0 - 2`, where the first guess lies (`C114_shoot_exact`), the root
`fsolve` looks for is the slope of the reference solution. -/
theorem C114_shoot {Y : ℝ → ℝ × ℝ} {s : ℝ} (hs : -2 ≤ s) (hY : Solves shootDe 0 Real.pi {Real.pi / 2} Y)
    (h0 : Y 0 = shootStart (deriv hybReal 0 + s)) : (0 < s → 0 < shootMiss Y) ∧ (s < 0 → shootMiss Y < 0) ∧ (shootMiss Y = 0 ↔ s = 0) := by
  obtain ⟨-, h1, -⟩ := C83_hybrid
  have hpi := Real.pi_pos
  obtain ⟨⟨K, hK, M, hM, e⟩, -⟩ := shoot_second hY h0 (by linarith : Real.pi / 2 < Real.pi) le_rfl
  have hm : shootMiss Y * K = s * (1 + (1 + s / 2) * M) := by
    rw [h1, hybYf] at e
    unfold shootMiss
    linear_combination e
  have hq : 0 < 1 + (1 + s / 2) * M := by
    have : 0 ≤ (1 + s / 2) * M := mul_nonneg (by linarith) hM.le
    linarith
  have p : 0 < s → 0 < shootMiss Y := fun h => pos_of_mul_pos_left (by rw [hm]; exact mul_pos h hq) hK.le
  have n : s < 0 → shootMiss Y < 0 := fun h => by
    have := mul_neg_of_neg_of_pos h hq
    rw [← hm] at this
    by_contra hc
    have := mul_nonneg (not_lt.1 hc) hK.le
    linarith
  refine ⟨p, n, fun h => ?_, fun h => ?_⟩
  · rcases lt_trichotomy s 0 with h' | h' | h'
    · exact absurd h (n h').ne
    · exact h'
    · exact absurd h (p h').ne'
  · rw [h, zero_mul] at hm
    exact (mul_eq_zero.1 hm).resolve_right hK.ne'

/-- **C114**, shootingMethod_linearNonlnear.py: and the solution with that slope is the reference solution, at every point. -/
theorem C114_shoot_unique {Y : ℝ → ℝ × ℝ} (hY : Solves shootDe 0 Real.pi {Real.pi / 2} Y) (h0 : Y 0 = shootStart (deriv hybReal 0)) :
    ∀ x ∈ Icc 0 Real.pi, Y x = (hybReal x, deriv hybReal x) := by
  rw [← add_zero (deriv hybReal 0)] at h0
  intro x hx
  rcases le_or_gt x (Real.pi / 2) with h | h
  · obtain ⟨a, b⟩ := shoot_first hY h0 x ⟨hx.1, h⟩
    exact Prod.ext (by rw [a]; ring) (by rw [b]; ring)
  · obtain ⟨⟨K, hK, M, hM, e⟩, e'⟩ := shoot_second hY h0 h hx.2
    rw [zero_mul, zero_mul, add_zero] at e
    have hD : (Y x).1 = hybReal x := sub_eq_zero.1 ((mul_eq_zero.1 e).resolve_right hK.ne')
    refine Prod.ext hD ?_
    rw [hD] at e'
    dsimp only
    linarith

/-- The first guess of the program is in the range of `C114_shoot`. -/
example : ∃ s : ℝ, -2 ≤ s ∧ deriv hybReal 0 + s = 15 / 2 :=
  ⟨15 / 2 - deriv hybReal 0, by linarith [C114_shoot_exact.2.2.2.2], by ring⟩

/-- `C114_lane_unique` with the solution of the program for `type = 5`. -/
example (L : ℝ) {Y : ℝ → ℝ × ℝ} (hY : Solves (laneDe 5) 0 L ∅ Y) (h0 : Y 0 = laneStart) : ∀ x ∈ Icc 0 L, (Y x).1 = laneReal 5 x := fun x hx => by
  obtain ⟨h, h'⟩ := C114_lane 5 (by simp) L
  rw [C114_lane_unique 5 hY h (h0.trans h'.symm) x hx]

/-- `C114_bvp_unique`, `C114_shoot` and `C114_shoot_unique` apply to the reference solutions. -/
example : ∃ Y, Solves bvpDe 0 Real.pi ∅ Y ∧ bvpBc (Y 0) (Y Real.pi) = 0 := ⟨_, C114_bvp⟩

example : ∃ Y, Solves shootDe 0 Real.pi {Real.pi / 2} Y ∧ Y 0 = shootStart (deriv hybReal 0) := ⟨_, C114_shoot_exact.1, C114_shoot_exact.2.1⟩

end Verif.Props
