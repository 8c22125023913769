import Verif.Model.OuterLoop
import Verif.Props.AffineSys
import Verif.Props.OuterTime
import Verif.Props.Segments
import Verif.Props.ResidualWave

/-!
# C112: the programs with an outer search over one number: the point where the interval is split
-/

namespace Verif.Props

open Set Verif Verif.Py Verif.Np Verif.Spec Verif.Model Verif.Model.Py Verif.Model.LSq Verif.Model.Prog Verif.Model.Dict Verif.Lemmas.LSq
open scoped ContDiff

/-- One side for `y'' - Pe y'` with boundary values 0, for a function whose second derivative may jump at one point. -/
theorem conv_upper_split {w w1 w2 : ℝ → ℝ} {p Pe R : ℝ} (hp0 : 0 < p) (hp1 : p < 1) (h1 : ∀ x, HasDerivAt w (w1 x) x) (hc : Continuous w1)
    (h2 : ∀ x ∈ Ioo (0 : ℝ) 1, x ≠ p → HasDerivAt w1 (w2 x) x) (hP : Pe ≠ 0) (hR0 : 0 ≤ R) (b0 : w 0 = 0) (b1 : w 1 = 0)
    (hR : ∀ x ∈ Ioo (0 : ℝ) 1, x ≠ p → -R ≤ w2 x - Pe * w1 x) : ∀ x ∈ Icc (0 : ℝ) 1, w x ≤ R / |Pe| := by
  obtain ⟨ψ, hψ⟩ : ∃ ψ : ℝ → ℝ, ψ = fun x => Real.exp (-Pe * x) * (w1 x - R / Pe) := ⟨_, rfl⟩
  have hexp : ∀ x : ℝ, HasDerivAt (fun x => Real.exp (-Pe * x)) (Real.exp (-Pe * x) * -Pe) x := fun x =>
    ((hasDerivAt_id x).const_mul (-Pe)).exp.congr_deriv (by simp)
  have hcψ : Continuous ψ := by
    rw [hψ]
    fun_prop
  have hdψ : ∀ x ∈ Ioo (0 : ℝ) 1, x ≠ p → HasDerivAt ψ (Real.exp (-Pe * x) * (w2 x - Pe * w1 x + R)) x := by
    intro x hx hxp
    rw [hψ]
    refine ((hexp x).mul ((h2 x hx hxp).sub_const (R / Pe))).congr_deriv ?_
    field_simp
    ring
  have hmono : ∀ a b, 0 ≤ a → b ≤ 1 → (∀ x ∈ Ioo a b, x ≠ p) → MonotoneOn ψ (Icc a b) := by
    intro a b ha hb hab
    refine monotoneOn_of_deriv_nonneg (convex_Icc a b) hcψ.continuousOn ?_ ?_
    · intro x hx
      rw [interior_Icc] at hx
      exact (hdψ x ⟨lt_of_le_of_lt ha hx.1, lt_of_lt_of_le hx.2 hb⟩ (hab x hx)).differentiableAt.differentiableWithinAt
    · intro x hx
      rw [interior_Icc] at hx
      have hx' : x ∈ Ioo (0 : ℝ) 1 := ⟨lt_of_le_of_lt ha hx.1, lt_of_lt_of_le hx.2 hb⟩
      rw [(hdψ x hx' (hab x hx)).deriv]
      exact mul_nonneg (Real.exp_pos _).le (by linarith [hR x hx' (hab x hx)])
  have hm : MonotoneOn ψ (Icc 0 1) := by
    have m1 := hmono 0 p le_rfl hp1.le fun x hx => hx.2.ne
    have m2 := hmono p 1 hp0.le le_rfl fun x hx => hx.1.ne'
    have := m1.union_right m2 (isGreatest_Icc hp0.le) (isLeast_Icc hp1.le)
    rwa [Icc_union_Icc_eq_Icc hp0.le hp1.le] at this
  have hg : ∀ x, HasDerivAt (fun x => w x - R / Pe * x) (w1 x - R / Pe) x := fun x =>
    ((h1 x).sub ((hasDerivAt_id x).const_mul (R / Pe))).congr_deriv (by simp)
  have hsign : ∀ x, (0 ≤ ψ x ↔ 0 ≤ w1 x - R / Pe) ∧ (ψ x ≤ 0 ↔ w1 x - R / Pe ≤ 0) := by
    intro x
    rw [hψ]
    have := Real.exp_pos (-Pe * x)
    refine ⟨mul_nonneg_iff_of_pos_left this, fun h => ?_, fun h => mul_nonpos_of_nonneg_of_nonpos this.le h⟩
    by_contra hcon
    linarith [mul_pos this (not_le.1 hcon)]
  have hcg : Continuous fun x => w x - R / Pe * x := continuous_iff_continuousAt.2 fun x => (hg x).continuousAt
  intro x hx
  have key : w x - R / Pe * x ≤ 0 ∨ w x - R / Pe * x ≤ -(R / Pe) := by
    rcases le_total (ψ x) 0 with h | h
    · left
      have : AntitoneOn (fun x => w x - R / Pe * x) (Icc 0 x) := by
        refine antitoneOn_of_deriv_nonpos (convex_Icc 0 x) hcg.continuousOn (fun y _ => (hg y).differentiableAt.differentiableWithinAt) fun y hy => ?_
        rw [interior_Icc] at hy
        rw [(hg y).deriv]
        exact (hsign y).2.1 ((hm ⟨hy.1.le, hy.2.le.trans hx.2⟩ hx hy.2.le).trans h)
      have := this (left_mem_Icc.2 hx.1) (right_mem_Icc.2 hx.1) hx.1
      simpa [b0] using this
    · right
      have : MonotoneOn (fun x => w x - R / Pe * x) (Icc x 1) := by
        refine monotoneOn_of_deriv_nonneg (convex_Icc x 1) hcg.continuousOn (fun y _ => (hg y).differentiableAt.differentiableWithinAt) fun y hy => ?_
        rw [interior_Icc] at hy
        rw [(hg y).deriv]
        exact (hsign y).1.1 (h.trans (hm hx ⟨hx.1.trans hy.1.le, hy.2.le⟩ hy.1.le))
      have := this (left_mem_Icc.2 hx.2) (right_mem_Icc.2 hx.2) hx.2
      simpa [b1] using this
  rcases lt_or_gt_of_ne hP with hn | hn
  · rw [abs_of_neg hn, div_neg]
    have : R / Pe ≤ 0 := div_nonpos_of_nonneg_of_nonpos hR0 hn.le
    rcases key with k | k <;> nlinarith [hx.1, hx.2]
  · rw [abs_of_pos hn]
    have : 0 ≤ R / Pe := div_nonneg hR0 hn.le
    rcases key with k | k <;> nlinarith [hx.1, hx.2]

/-- The residual on one piece, as a function of `z`; `c` is the derivative of `z`. -/
noncomputable def segResid (Pe c : ℝ) (y : ℝ → ℝ) (z : ℝ) : ℝ := deriv (deriv y) z * c ^ 2 - Pe * (deriv y z * c)

/-- The sum of the squares of the residuals at the points. -/
noncomputable def segSum (Pe xp : ℝ) (pts : List ℝ) (y1 y2 : ℝ → ℝ) : ℝ :=
  (pts.map fun z => segResid Pe (segC1 xp) y1 z ^ 2).sum + (pts.map fun z => segResid Pe (segC2 xp) y2 z ^ 2).sum

/-- **C112, pieces that fit.** Two smooth pieces with the values and derivatives of the program at their ends make one function with a continuous derivative on
`[0, 1]`, from 1 to 0. If the residuals of both pieces are at most `R` between the points as well, then it differs from the solution the program
compares with by at most `R / |Pe|`. -/
theorem C112_pieces {xp s0 s1 : ℝ} (h0 : 0 < xp) (h1 : xp < 1) {y1 y2 : ℝ → ℝ} (d1 : ContDiff ℝ ∞ y1) (d2 : ContDiff ℝ ∞ y2) (a1 : y1 (-1) = 1)
    (a2 : y1 1 = s0) (a3 : deriv y1 1 = s1 / segC1 xp) (b1 : y2 (-1) = s0) (b2 : deriv y2 (-1) = s1 / segC2 xp) (b3 : y2 1 = 0) :
    ∃ Y : ℝ → ℝ, Differentiable ℝ Y ∧ Continuous (deriv Y) ∧ Y 0 = 1 ∧ Y 1 = 0 ∧ Y xp = s0 ∧ deriv Y xp = s1 ∧
      (∀ z ∈ Icc (-1 : ℝ) 1, Y (segX1 xp z) = y1 z ∧ Y (segX2 xp z) = y2 z) ∧
      ∀ Pe R, Pe ≠ 0 → (∀ z ∈ Icc (-1 : ℝ) 1, |segResid Pe (segC1 xp) y1 z| ≤ R ∧ |segResid Pe (segC2 xp) y2 z| ≤ R) →
        ∀ x ∈ Icc (0 : ℝ) 1, |Y x - convReal Pe x| ≤ R / |Pe| := by
  have hxp : 0 < 1 - xp := by linarith
  have c1 : 0 < segC1 xp := by unfold segC1; rw [sub_zero]; positivity
  have c2 : 0 < segC2 xp := by unfold segC2; positivity
  have e1 : segC1 xp * xp = 2 := by unfold segC1; rw [sub_zero]; field_simp
  have e2 : segC2 xp * (1 - xp) = 2 := by unfold segC2; field_simp
  obtain ⟨f1, hf1⟩ : ∃ f : ℝ → ℝ, f = fun x => y1 (segC1 xp * x - 1) := ⟨_, rfl⟩
  obtain ⟨f2, hf2⟩ : ∃ f : ℝ → ℝ, f = fun x => y2 (segC2 xp * (x - xp) - 1) := ⟨_, rfl⟩
  have i1 : ∀ x : ℝ, HasDerivAt (fun x => segC1 xp * x - 1) (segC1 xp) x := fun x =>
    (((hasDerivAt_id x).const_mul (segC1 xp)).sub_const 1).congr_deriv (by simp)
  have i2 : ∀ x : ℝ, HasDerivAt (fun x => segC2 xp * (x - xp) - 1) (segC2 xp) x := fun x =>
    ((((hasDerivAt_id x).sub_const xp).const_mul (segC2 xp)).sub_const 1).congr_deriv (by simp)
  have s1' : ContDiff ℝ ∞ (deriv y1) := (contDiff_infty_iff_deriv.1 d1).2
  have s2' : ContDiff ℝ ∞ (deriv y2) := (contDiff_infty_iff_deriv.1 d2).2
  have g1 : ∀ x, HasDerivAt f1 (deriv y1 (segC1 xp * x - 1) * segC1 xp) x := fun x => by
    rw [hf1]
    exact ((d1.differentiable (by simp)) _).hasDerivAt.comp x (i1 x)
  have g2 : ∀ x, HasDerivAt f2 (deriv y2 (segC2 xp * (x - xp) - 1) * segC2 xp) x := fun x => by
    rw [hf2]
    exact ((d2.differentiable (by simp)) _).hasDerivAt.comp x (i2 x)
  have k1 : ∀ x, HasDerivAt (fun x => deriv y1 (segC1 xp * x - 1) * segC1 xp) (deriv (deriv y1) (segC1 xp * x - 1) * segC1 xp ^ 2) x := fun x => by
    refine ((((s1'.differentiable (by simp)) _).hasDerivAt.comp x (i1 x)).mul_const (segC1 xp)).congr_deriv (by ring)
  have k2 : ∀ x, HasDerivAt (fun x => deriv y2 (segC2 xp * (x - xp) - 1) * segC2 xp)
      (deriv (deriv y2) (segC2 xp * (x - xp) - 1) * segC2 xp ^ 2) x := fun x => by
    refine ((((s2'.differentiable (by simp)) _).hasDerivAt.comp x (i2 x)).mul_const (segC2 xp)).congr_deriv (by ring)
  have z1 : segC1 xp * xp - 1 = 1 := by linarith
  have z2 : segC2 xp * (xp - xp) - 1 = -1 := by ring
  have v1 : f1 xp = s0 := by rw [hf1]; dsimp only; rw [z1, a2]
  have v2 : f2 xp = s0 := by rw [hf2]; dsimp only; rw [z2, b1]
  have w1 : deriv y1 (segC1 xp * xp - 1) * segC1 xp = s1 := by rw [z1, a3]; field_simp
  have w2 : deriv y2 (segC2 xp * (xp - xp) - 1) * segC2 xp = s1 := by rw [z2, b2]; field_simp
  have hd := glue_hasDerivAt (f := f1) (g := f2) (p := xp) (fun x => (g1 x).differentiableAt) (fun x => (g2 x).differentiableAt) (v1.trans v2.symm)
    (by rw [(g1 xp).deriv, (g2 xp).deriv, w1, w2])
  obtain ⟨D, hD⟩ : ∃ D : ℝ → ℝ, D = fun x => if x ≤ xp then deriv y1 (segC1 xp * x - 1) * segC1 xp else deriv y2 (segC2 xp * (x - xp) - 1) * segC2 xp :=
    ⟨_, rfl⟩
  have hYD : ∀ x, HasDerivAt (glue xp f1 f2) (D x) x := fun x => (hd x).congr_deriv (by rw [hD, (g1 x).deriv, (g2 x).deriv])
  have hcD : Continuous D := by
    rw [hD]
    refine Continuous.if_le ?_ ?_ continuous_id continuous_const ?_
    · exact continuous_iff_continuousAt.2 fun x => (k1 x).continuousAt
    · exact continuous_iff_continuousAt.2 fun x => (k2 x).continuousAt
    · intro x hx
      have hx : x = xp := hx
      rw [hx, w1, w2]
  have hderiv : deriv (glue xp f1 f2) = D := funext fun x => (hYD x).deriv
  have Y0 : glue xp f1 f2 0 = 1 := by rw [glue_left h0.le, hf1]; simpa using a1
  have Y1 : glue xp f1 f2 1 = 0 := by
    rw [glue_right (v1.trans v2.symm) h1.le, hf2]
    dsimp only
    rw [e2, show (2 : ℝ) - 1 = 1 by norm_num, b3]
  refine ⟨glue xp f1 f2, fun x => (hYD x).differentiableAt, hderiv ▸ hcD, Y0, Y1, ?_, ?_, ?_, ?_⟩
  · rw [glue_left le_rfl, v1]
  · rw [hderiv, hD]
    simp only [le_refl, if_true]
    exact w1
  · intro z hz
    constructor
    · have : segX1 xp z ≤ xp := by
        unfold segX1
        rw [add_zero, div_le_iff₀ c1]
        linarith [hz.2]
      rw [glue_left this, hf1]
      dsimp only
      congr 1
      unfold segX1
      field_simp
      ring
    · have : xp ≤ segX2 xp z := by
        unfold segX2
        have : 0 ≤ (z + 1) / segC2 xp := div_nonneg (by linarith [hz.1]) c2.le
        linarith
      rw [glue_right (v1.trans v2.symm) this, hf2]
      dsimp only
      congr 1
      unfold segX2
      field_simp
      ring
  · intro Pe R hP hR
    have hR0 : 0 ≤ R := (abs_nonneg _).trans (hR 1 (by norm_num)).1
    obtain ⟨r0, r1, r2, -⟩ := C83_convection Pe hP
    have hv : ContDiff ℝ 2 (convReal Pe) := by
      unfold convReal
      fun_prop
    obtain ⟨D2, hD2⟩ : ∃ D2 : ℝ → ℝ, D2 = fun x => if x < xp then deriv (deriv y1) (segC1 xp * x - 1) * segC1 xp ^ 2
      else deriv (deriv y2) (segC2 xp * (x - xp) - 1) * segC2 xp ^ 2 := ⟨_, rfl⟩
    have hDD : ∀ x ∈ Ioo (0 : ℝ) 1, x ≠ xp → HasDerivAt D (D2 x) x := by
      intro x _ hx
      rw [hD, hD2]
      rcases lt_or_gt_of_ne hx with h | h
      · dsimp only
        rw [if_pos h]
        refine (k1 x).congr_of_eventuallyEq ?_
        filter_upwards [Iio_mem_nhds h] with y hy
        rw [if_pos (le_of_lt hy)]
      · dsimp only
        rw [if_neg h.not_gt]
        refine (k2 x).congr_of_eventuallyEq ?_
        filter_upwards [Ioi_mem_nhds h] with y hy
        rw [if_neg (not_le.2 hy)]
    have hres : ∀ x ∈ Ioo (0 : ℝ) 1, x ≠ xp → |D2 x - Pe * D x| ≤ R := by
      intro x hx hne
      rw [hD, hD2]
      dsimp only
      rcases lt_or_gt_of_ne hne with h | h
      · rw [if_pos h, if_pos h.le]
        refine (hR (segC1 xp * x - 1) ⟨?_, ?_⟩).1
        · have := mul_pos c1 hx.1
          linarith
        · have := mul_lt_mul_of_pos_left h c1
          linarith
      · rw [if_neg h.not_gt, if_neg (not_le.2 h)]
        refine (hR (segC2 xp * (x - xp) - 1) ⟨?_, ?_⟩).2
        · have := mul_pos c2 (sub_pos.2 h)
          linarith
        · have := mul_lt_mul_of_pos_left (sub_lt_sub_right hx.2 xp) c2
          linarith
    have hcv : Continuous (deriv (convReal Pe)) := hv.continuous_deriv (by norm_num)
    have eq : ∀ x, D2 x - deriv (deriv (convReal Pe)) x - Pe * (D x - deriv (convReal Pe) x) = D2 x - Pe * D x := fun x => by
      have e := r2 x
      unfold convResid at e
      linear_combination -e
    intro x hx
    refine abs_le.2 ⟨?_, conv_upper_split (w := fun x => glue xp f1 f2 x - convReal Pe x) (w1 := fun x => D x - deriv (convReal Pe) x)
      (w2 := fun x => D2 x - deriv (deriv (convReal Pe)) x) h0 h1 (fun x => (hYD x).sub (hasDeriv1 hv x)) (hcD.sub hcv)
      (fun x hx hne => (hDD x hx hne).sub (hasDeriv2 hv x)) hP hR0 (by simp [Y0, r0]) (by simp [Y1, r1])
      (fun x hx hne => by rw [eq]; exact (abs_le.1 (hres x hx hne)).1) x hx⟩
    have := conv_upper_split (w := fun x => -(glue xp f1 f2 x - convReal Pe x)) (w1 := fun x => -(D x - deriv (convReal Pe) x))
      (w2 := fun x => -(D2 x - deriv (deriv (convReal Pe)) x)) h0 h1 (fun x => ((hYD x).sub (hasDeriv1 hv x)).neg) (hcD.sub hcv).neg
      (fun x hx hne => ((hDD x hx hne).sub (hasDeriv2 hv x)).neg) hP hR0 (by simp [Y0, r0]) (by simp [Y1, r1])
      (fun x hx hne => by linarith [eq x, (abs_le.1 (hres x hx hne)).2]) x hx
    linarith

/-! ## The runs -/

theorem split_smooth (u : Utfc) (Pe xp : ℝ) : SmoothSys (splitSys u Pe xp) := by
  refine ⟨?_, ?_⟩
  · intro q d hd
    unfold splitSys at hd
    fin_cases q
    all_goals
      simp at hd
      rcases hd with rfl | rfl | rfl
      all_goals exact ⟨by fun_prop, by norm_num⟩
  · intro E hE i
    unfold splitSys at hE
    simp only [List.mem_cons, List.not_mem_nil, or_false] at hE
    rcases hE with rfl | rfl
    all_goals fin_cases i <;> simp

theorem split_regular (u : Utfc) (Pe xp : ℝ) (st : PState 2 2) : Regular (splitSys u Pe xp) st := by
  refine ⟨?_, ?_⟩
  · intro q d hd
    unfold splitSys at hd
    fin_cases q
    all_goals
      simp at hd
      rcases hd with rfl | rfl | rfl
      all_goals fun_prop
  · intro E hE x _ o
    unfold splitSys at hE
    simp only [List.mem_cons, List.not_mem_nil, or_false] at hE
    rcases hE with rfl | rfl
    all_goals
      dsimp only
      fun_prop

theorem split_affine (u : Utfc) (Pe xp : ℝ) : AffineSys (splitSys u Pe xp) := by
  refine ⟨?_, ?_⟩
  · intro q d hd s s' r
    unfold splitSys at hd
    fin_cases q
    all_goals
      simp at hd
      rcases hd with rfl | rfl | rfl
      all_goals ring
  · intro E hE x J J' s s' r o
    unfold splitSys at hE
    simp only [List.mem_cons, List.not_mem_nil, or_false] at hE
    rcases hE with rfl | rfl
    all_goals
      dsimp only
      ring

theorem split_ends {N : ℕ} (hN : 2 ≤ N) {u : Utfc} (h : Built N "CP" (-1) 1 u) (Pe xp : ℝ) {st : PState 2 2} (hst : ∀ q, ContDiff ℝ ∞ (st.free q))
    {y1 y2 : ℝ → ℝ} (e1 : y1 = sysFn (splitSys u Pe xp) st 0) (e2 : y2 = sysFn (splitSys u Pe xp) st 1) :
    ContDiff ℝ ∞ y1 ∧ ContDiff ℝ ∞ y2 ∧ y1 (-1) = 1 ∧ y1 1 = st.num 0 ∧ deriv y1 1 = st.num 1 / segC1 xp ∧ y2 (-1) = st.num 0 ∧
      deriv y2 (-1) = st.num 1 / segC2 xp ∧ y2 1 = 0 := by
  obtain ⟨p1, p2⟩ := built_points hN (by norm_num) h
  have hc := split_smooth u Pe xp
  have f1 : y1 = fun t => st.free 0 t + ((1 - 2 * t + t ^ 2) / 4 * (1 - st.free 0 (-1)) + ((3 + 2 * t - t ^ 2) / 4 * (st.num 0 - st.free 0 1) +
      (-1 + t ^ 2) / 2 * (st.num 1 / segC1 xp - deriv (st.free 0) 1))) := by
    funext t
    rw [e1]
    unfold sysFn curve splitSys PFun.ends
    simp only [Matrix.cons_val_zero, List.map_cons, List.map_nil, List.sum_cons, List.sum_nil, iteratedDeriv_zero, iteratedDeriv_one,
      built_z hN (Or.inl rfl) h, p1, p2, add_zero]
  have f2 : y2 = fun t => st.free 1 t + ((3 - 2 * t - t ^ 2) / 4 * (st.num 0 - st.free 1 (-1)) + ((1 - t ^ 2) / 2 *
      (st.num 1 / segC2 xp - deriv (st.free 1) (-1)) + (1 + 2 * t + t ^ 2) / 4 * (0 - st.free 1 1))) := by
    funext t
    rw [e2]
    unfold sysFn curve splitSys PFun.ends
    simp only [Matrix.cons_val_one, Matrix.cons_val_zero, List.map_cons, List.map_nil, List.sum_cons, List.sum_nil, iteratedDeriv_zero,
      iteratedDeriv_one, built_z hN (Or.inl rfl) h, p1, p2, add_zero]
  have g1 := (((hst 0).differentiable (by simp)) 1).hasDerivAt
  have g2 := (((hst 1).differentiable (by simp)) (-1)).hasDerivAt
  have q : ∀ (a b c t : ℝ), HasDerivAt (fun t : ℝ => (a + b * t + c * t ^ 2)) (b + 2 * c * t) t := fun a b c t => by
    have := (((hasDerivAt_id t).const_mul b).const_add a).add (((hasDerivAt_id t).pow 2).const_mul c)
    refine this.congr_deriv ?_
    simp
    ring
  refine ⟨?_, ?_, ?_, ?_, ?_, ?_, ?_, ?_⟩
  · rw [e1]; exact curve_contDiff (ends_smooth hc 0 st.num) (hst 0)
  · rw [e2]; exact curve_contDiff (ends_smooth hc 1 st.num) (hst 1)
  · rw [f1]; norm_num
  · rw [f1]; norm_num
  · obtain ⟨A, hA⟩ : ∃ A, A = 1 - st.free 0 (-1) := ⟨_, rfl⟩
    obtain ⟨B, hB⟩ : ∃ B, B = st.num 0 - st.free 0 1 := ⟨_, rfl⟩
    obtain ⟨C, hC⟩ : ∃ C, C = st.num 1 / segC1 xp - deriv (st.free 0) 1 := ⟨_, rfl⟩
    rw [← hA, ← hB, ← hC] at f1
    have : y1 = fun t => st.free 0 t + ((1 / 4 * A + 3 / 4 * B - 1 / 2 * C) + (-(1 / 2) * A + 1 / 2 * B) * t + (1 / 4 * A - 1 / 4 * B + 1 / 2 * C) * t ^ 2) := by
      rw [f1]
      funext t
      ring
    rw [this, (g1.fun_add (q _ _ _ 1)).deriv, hC]
    ring
  · rw [f2]; norm_num
  · obtain ⟨A, hA⟩ : ∃ A, A = st.num 0 - st.free 1 (-1) := ⟨_, rfl⟩
    obtain ⟨B, hB⟩ : ∃ B, B = st.num 1 / segC2 xp - deriv (st.free 1) (-1) := ⟨_, rfl⟩
    obtain ⟨C, hC⟩ : ∃ C, C = 0 - st.free 1 1 := ⟨_, rfl⟩
    rw [← hA, ← hB, ← hC] at f2
    have : y2 = fun t => st.free 1 t + ((3 / 4 * A + 1 / 2 * B + 1 / 4 * C) + (-(1 / 2) * A + 1 / 2 * C) * t + (-(1 / 4) * A - 1 / 2 * B + 1 / 4 * C) * t ^ 2) := by
      rw [f2]
      funext t
      ring
    rw [this, (g2.fun_add (q _ _ _ (-1))).deriv, hB]
    ring
  · rw [f2]; norm_num

theorem split_miss {u : Utfc} {Pe xp : ℝ} {S : PSys 2 2} (st : PState 2 2) (z : ℝ) :
    sysMiss S st ⟨u.z, 2, ![(0, 2), (0, 1)], here, 1, fun _ J _ _ => J 0 * segC1 xp ^ 2 - Pe * (J 1 * segC1 xp)⟩ z 0 =
        segResid Pe (segC1 xp) (sysFn S st 0) z ∧
      sysMiss S st ⟨u.z, 2, ![(1, 2), (1, 1)], here, 1, fun _ J _ _ => J 0 * segC2 xp ^ 2 - Pe * (J 1 * segC2 xp)⟩ z 0 =
        segResid Pe (segC2 xp) (sysFn S st 1) z := by
  simp only [sysMiss, sysJet, here, Matrix.cons_val_zero, Matrix.cons_val_one, segResid, iteratedDeriv_succ, iteratedDeriv_zero]
  exact ⟨trivial, trivial⟩

theorem split_sumAll (u : Utfc) (Pe xp : ℝ) (st : PState 2 2) :
    sumAll (splitSys u Pe xp).eqs (fun E x o => sysMiss (splitSys u Pe xp) st E x o ^ 2) =
      segSum Pe xp u.z (sysFn (splitSys u Pe xp) st 0) (sysFn (splitSys u Pe xp) st 1) := by
  obtain ⟨S, hS⟩ : ∃ S, S = splitSys u Pe xp := ⟨_, rfl⟩
  have he : S.eqs = [⟨u.z, 2, ![(0, 2), (0, 1)], here, 1, fun _ J _ _ => J 0 * segC1 xp ^ 2 - Pe * (J 1 * segC1 xp)⟩,
    ⟨u.z, 2, ![(1, 2), (1, 1)], here, 1, fun _ J _ _ => J 0 * segC2 xp ^ 2 - Pe * (J 1 * segC2 xp)⟩] := by rw [hS]; rfl
  rw [← hS]
  unfold sumAll segSum
  rw [he]
  have h := fun z => split_miss (u := u) (Pe := Pe) (xp := xp) (S := S) st z
  simp only [List.map_cons, List.map_nil, List.sum_cons, List.sum_nil, Finset.univ_unique, Finset.sum_singleton, Fin.default_eq_zero, add_zero]
  congr 2
  · exact List.map_congr_left fun z _ => by rw [(h z).1]
  · exact List.map_congr_left fun z _ => by rw [(h z).2]

/-- **C112, G and F end to end.** For all `N ≥ 2`, `m ≥ 3`, all Péclet numbers and every point of the split strictly between 0 and 1, the run returns after at
most 30 steps. Unless zeros are within the tolerance already, the sum of the squares of the residuals at the points is the least that the unknowns can
give. The function the outer loop is given returns the largest residual at the points. The two pieces make one function with a continuous derivative
from 1 to 0 that differs from the exact solution by at most the largest residual divided by the Péclet number. -/
theorem C112_split {lib : LinAlg} (hlib : LinAlgCorrect lib) {N m : ℕ} (hN : 2 ≤ N) (hm : 3 ≤ m) (Pe tol : ℝ) (htol : tol < 1) (w b : ℕ → ℝ)
    {fuel : ℕ} (hf : 32 ≤ fuel) :
    ∃ u xi, splitInit N m w b = .ok (u, xi) ∧ Built N "CP" (-1) 1 u ∧
      xi = .dict .plain [entry1 "xi1" (List.replicate (m - 2) 0), entry1 "xi2" (List.replicate (m - 2) 0), entry1 "y" [0], entry1 "yd" [0]] ∧
      ∀ xp, 0 < xp → xp < 1 → ∃ (S : PSys 2 2) (v : View String) (it : ℕ) (st : PState 2 2) (y1 y2 Y : ℝ → ℝ) (loss : ℝ),
        S = splitSys u Pe xp ∧ splitRun lib u xi Pe tol xp fuel = .ok (some (v, (it : ℤ))) ∧ it ≤ 30 ∧ SameForm xi v ∧ Means S v st ∧
        y1 = sysFn S st 0 ∧ y2 = sysFn S st 1 ∧
        ((∀ v' st', SameForm xi v' → Means S v' st' → segSum Pe xp u.z y1 y2 ≤ segSum Pe xp u.z (sysFn S st' 0) (sysFn S st' 1)) ∨
          ∀ z ∈ u.z, |segResid Pe (segC1 xp) y1 z| ≤ tol ∧ |segResid Pe (segC2 xp) y2 z| ≤ tol) ∧
        splitLoss lib u xi Pe tol xp fuel = .ok (some loss) ∧
        (∀ z ∈ u.z, |segResid Pe (segC1 xp) y1 z| ≤ loss ∧ |segResid Pe (segC2 xp) y2 z| ≤ loss) ∧
        (∃ z ∈ u.z, loss = |segResid Pe (segC1 xp) y1 z| ∨ loss = |segResid Pe (segC2 xp) y2 z|) ∧
        Differentiable ℝ Y ∧ Continuous (deriv Y) ∧ Y 0 = 1 ∧ Y 1 = 0 ∧
        (∀ z ∈ Icc (-1 : ℝ) 1, Y (segX1 xp z) = y1 z ∧ Y (segX2 xp z) = y2 z) ∧
        ∀ R, Pe ≠ 0 → (∀ z ∈ Icc (-1 : ℝ) 1, |segResid Pe (segC1 xp) y1 z| ≤ R ∧ |segResid Pe (segC2 xp) y2 z| ≤ R) →
          ∀ x ∈ Icc (0 : ℝ) 1, |Y x - convReal Pe x| ≤ R / |Pe| := by
  have hcp : "CP" ∈ smoothNames := by simp [smoothNames]
  obtain ⟨u, hu1, hB1, hr1, hl1, -, -, c1⟩ := objectK (k := 3) hN hm hcp (Or.inl rfl) (x0 := -1) (xf := 1) (by norm_num) w b
  obtain ⟨kvs, hk⟩ : ∃ kvs, kvs = [entry1 "xi1" (List.replicate (cols1 u * 1) 0), entry1 "xi2" (List.replicate (cols1 u * 1) 0), entry1 "y" [0],
    entry1 "yd" [0]] := ⟨_, rfl⟩
  have hk' : View.dict .plain kvs = .dict .plain [entry1 "xi1" (List.replicate (m - 2) 0), entry1 "xi2" (List.replicate (m - 2) 0), entry1 "y" [0],
      entry1 "yd" [0]] := by
    rw [hk, c1, show (m + 1 - 3) * 1 = m - 2 by omega]
  have hprop : ProperUnknowns (.dict .plain kvs) := by
    subst hk
    refine ⟨by simp, by simp [entry1], fun p hp => ?_⟩
    simp only [List.mem_cons, List.not_mem_nil, or_false] at hp
    rcases hp with rfl | rfl | rfl | rfl <;> rfl
  have hpos : entries (View.dict .plain kvs) ≠ [] := by
    rw [hk']
    simp [entries, entry1]
  refine ⟨u, .dict .plain kvs, ?_, hB1, hk', ?_⟩
  · unfold splitInit
    rw [show utfcInit N (.int 3) m "CP" (some (-1)) (some 1) "C++" w b = .ok u from hu1]
    simp only [zerosOf_value hr1, bind, Except.bind]
    rw [hk]
    rfl
  intro xp h0 h1
  obtain ⟨S, hS⟩ : ∃ S, S = splitSys u Pe xp := ⟨_, rfl⟩
  have hfit : FitsSys S kvs := by
    subst hS hk
    refine ⟨by simp [entry1], ?_, ?_, ?_, ?_, ?_, ?_⟩
    all_goals
      intro q
      fin_cases q <;> simp [splitSys, entry1, sizeOfKey, hr1]
  have hz : u.z ≠ [] := by
    rw [built_z hN (Or.inl rfl) hB1]
    intro h
    rw [h] at hl1
    simp at hl1
    omega
  obtain ⟨z0, hz0⟩ := List.exists_mem_of_ne_nil _ hz
  have m1 : (⟨u.z, 2, ![(0, 2), (0, 1)], here, 1, fun _ J _ _ => J 0 * segC1 xp ^ 2 - Pe * (J 1 * segC1 xp)⟩ : PEqn 2 2) ∈ S.eqs := by
    rw [hS]; exact List.mem_cons_self
  have m2 : (⟨u.z, 2, ![(1, 2), (1, 1)], here, 1, fun _ J _ _ => J 0 * segC2 xp ^ 2 - Pe * (J 1 * segC2 xp)⟩ : PEqn 2 2) ∈ S.eqs := by
    rw [hS]; exact List.mem_cons_of_mem _ List.mem_cons_self
  have hne : places S.eqs ≠ [] := List.ne_nil_of_mem (a := (⟨_, z0, (0 : Fin 1)⟩ : Place 2 2)) (mem_places.2 ⟨m1, hz0⟩)
  obtain ⟨v, it, vs, sts, hrun, hsr⟩ := C104_newton hlib (method := .pinv) (by simp) (hS ▸ split_smooth u Pe xp) hfit hprop hne hpos tol htol 30 false
    fuel hf
  have hform := hsr.form it le_rfl
  have hmeans := hsr.means it le_rfl
  rw [hsr.final] at hform hmeans
  have hrun' : splitRun lib u (.dict .plain kvs) Pe tol xp fuel = .ok (some (v, (it : ℤ))) := by
    unfold splitRun
    rw [← hS]
    exact hrun
  obtain ⟨k1, k2, q1, q2, q3, q4, q5, q6⟩ := split_ends hN hB1 Pe xp hmeans.smooth (y1 := sysFn S (sts it) 0) (y2 := sysFn S (sts it) 1)
    (by rw [hS]) (by rw [hS])
  obtain ⟨Y, Y1, Y2, Y3, Y4, -, -, Y5, Y6⟩ := C112_pieces h0 h1 k1 k2 q1 q2 q3 q4 q5 q6
  have hval := psysRes_value (hS ▸ split_smooth u Pe xp) hfit hform
  obtain ⟨loss, hloss, hl1, hl2⟩ := maxAbs_largest (l := (places S.eqs).map (placeMiss S kvs (coef (entries v)))) (by simpa using hne)
  have hst : stateOf S kvs (coef (entries v)) = sts it := (means_unique hfit hform hmeans).symm
  have hm1 : ∀ z ∈ u.z, segResid Pe (segC1 xp) (sysFn S (sts it) 0) z ∈ (places S.eqs).map (placeMiss S kvs (coef (entries v))) := fun z hz => by
    refine List.mem_map.2 ⟨⟨_, z, (0 : Fin 1)⟩, mem_places.2 ⟨m1, hz⟩, ?_⟩
    unfold placeMiss
    rw [hst]
    exact (split_miss (u := u) _ _).1
  have hm2 : ∀ z ∈ u.z, segResid Pe (segC2 xp) (sysFn S (sts it) 1) z ∈ (places S.eqs).map (placeMiss S kvs (coef (entries v))) := fun z hz => by
    refine List.mem_map.2 ⟨⟨_, z, (0 : Fin 1)⟩, mem_places.2 ⟨m2, hz⟩, ?_⟩
    unfold placeMiss
    rw [hst]
    exact (split_miss (u := u) _ _).2
  refine ⟨S, v, it, sts it, sysFn S (sts it) 0, sysFn S (sts it) 1, Y, loss, hS, hrun', hsr.bound, hform, hmeans, rfl, rfl, ?_, ?_, ?_, ?_, Y1, Y2, Y3,
    Y4, Y5, fun R hP => Y6 Pe R hP⟩
  · rcases Nat.eq_zero_or_pos it with hit | hit
    · right
      rcases hsr.stop with h | h | ⟨j, hj, -⟩
      · intro z hz
        have a1 := h _ m1 z hz 0
        have a2 := h _ m2 z hz 0
        rw [(split_miss (u := u) _ _).1] at a1
        rw [(split_miss (u := u) _ _).2] at a2
        exact ⟨a1, a2⟩
      · omega
      · omega
    · left
      intro v' st' hv' hm'
      obtain ⟨j, rfl⟩ : ∃ j, it = j + 1 := ⟨it - 1, by omega⟩
      have := affine_least (hS ▸ split_smooth u Pe xp) (hS ▸ split_affine u Pe xp) (fun st => hS ▸ split_regular u Pe xp st) hsr (Nat.lt_succ_self j) hv' hm'
      rw [hS, split_sumAll, split_sumAll, ← hS] at this
      exact this
  · unfold splitLoss
    rw [hrun']
    simp only [bind, Except.bind]
    rw [← hS, hval]
    simp only [hloss]
    rfl
  · exact fun z hz => ⟨hl1 _ (hm1 z hz), hl1 _ (hm2 z hz)⟩
  · obtain ⟨a, ha, h⟩ := hl2
    obtain ⟨⟨E, z, o⟩, ht, rfl⟩ := List.mem_map.1 ha
    obtain ⟨hE, hz⟩ := mem_places.1 ht
    unfold placeMiss at h
    rw [hst] at h
    have hE' := hE
    rw [hS] at hE'
    unfold splitSys at hE'
    simp only [List.mem_cons, List.not_mem_nil, or_false] at hE'
    rcases hE' with rfl | rfl
    · obtain rfl : o = 0 := Subsingleton.elim (α := Fin 1) _ _
      exact ⟨z, hz, Or.inl (by rw [h]; exact congrArg abs (split_miss (u := u) _ _).1)⟩
    · obtain rfl : o = 0 := Subsingleton.elim (α := Fin 1) _ _
      exact ⟨z, hz, Or.inr (by rw [h]; exact congrArg abs (split_miss (u := u) _ _).2)⟩

/-- The point the program F uses is between 0 and 1 for every positive proposal of `fsolve`. -/
theorem C112_clip {xpBound xp : ℝ} (h0 : 0 < xpBound) (h1 : xpBound < 1) (h : 0 < xp) : 0 < splitClip xpBound xp ∧ splitClip xpBound xp < 1 := by
  unfold splitClip
  split_ifs with hx
  · exact ⟨h0, h1⟩
  · exact ⟨h, lt_of_le_of_lt (not_lt.1 hx) h1⟩

/-- A case: the numbers of the program, with the first split 0.75. -/
example (w b : ℕ → ℝ) : ∃ lib u xi loss, splitInit 200 190 w b = .ok (u, xi) ∧ splitLoss lib u xi (10 ^ 6) 1e-13 0.75 32 = .ok (some loss) := by
  obtain ⟨lib, hlib⟩ := Verif.Lemmas.LinAlg.linAlg_exists
  obtain ⟨u, xi, h1, -, -, h2⟩ := C112_split hlib (N := 200) (m := 190) (by norm_num) (by norm_num) (10 ^ 6) 1e-13 (by norm_num) w b (fuel := 32) le_rfl
  obtain ⟨S, v, it, st, y1, y2, Y, loss, -, -, -, -, -, -, -, -, h3, -⟩ := h2 0.75 (by norm_num) (by norm_num)
  exact ⟨lib, u, xi, loss, h1, h3⟩

end Verif.Props
