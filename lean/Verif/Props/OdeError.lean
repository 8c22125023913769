import Verif.Props.OdeProgram
import Verif.Props.ResidualOde
import Mathlib.Analysis.Calculus.MeanValue
import Mathlib.Analysis.Calculus.ContDiff.Polynomial

/-!
# C98: the error of the program of tests/test_ODE.py
-/

namespace Verif.Props

open Polynomial Set Verif Verif.Mem Verif.Py Verif.Np Verif.Spec Verif.Model Verif.Model.Py Verif.Model.LSq Verif.Model.Prog

theorem nearest_index {n : ℕ} {s : ℝ} (h0 : 0 ≤ s) (h1 : s ≤ n) : ∃ i ≤ n, |s - i| ≤ 1 / 2 := by
  refine ⟨⌊s + 1 / 2⌋₊, ?_, ?_⟩
  · have : ⌊s + 1 / 2⌋₊ < n + 1 := by
      rw [Nat.floor_lt (by linarith)]
      push_cast
      linarith
    omega
  · have a := Nat.floor_le (show 0 ≤ s + 1 / 2 by linarith)
    have b := Nat.lt_floor_add_one (s + 1 / 2)
    rw [abs_le]
    constructor <;> linarith

theorem zPoint_dense (basis : BasisName) {N : ℕ} (hN : 2 ≤ N) {z : ℝ} (h0 : basis.zRange.1 ≤ z) (h1 : z ≤ basis.zRange.2) :
    ∃ i < N, |z - zPoint basis N i| ≤ (basis.zRange.2 - basis.zRange.1) * (Real.pi / (4 * ((N - 1 : ℕ) : ℝ))) := by
  have hn : (0 : ℝ) < ((N - 1 : ℕ) : ℝ) := by exact_mod_cast (by omega : 0 < N - 1)
  have hc : (N : ℝ) - 1 = ((N - 1 : ℕ) : ℝ) := by rw [Nat.cast_sub (by omega)]; simp
  have hpi := Real.pi_gt_three
  have cosCase : -1 ≤ z → z ≤ 1 → ∃ i < N, |z - Real.cos (Real.pi * (((N - 1 : ℕ) : ℝ) - i) / ((N - 1 : ℕ) : ℝ))| ≤
      (1 - -1) * (Real.pi / (4 * ((N - 1 : ℕ) : ℝ))) := by
    intro a b
    obtain ⟨i, hi, hs⟩ := nearest_index (n := N - 1) (s := ((N - 1 : ℕ) : ℝ) * (1 - Real.arccos z / Real.pi))
      (mul_nonneg hn.le (by rw [sub_nonneg, div_le_one Real.pi_pos]; exact Real.arccos_le_pi z))
      (mul_le_of_le_one_right hn.le (by have := div_nonneg (Real.arccos_nonneg z) Real.pi_pos.le; linarith))
    refine ⟨i, by omega, ?_⟩
    have e := Real.abs_cos_sub_cos_le (Real.arccos z) (Real.pi * (((N - 1 : ℕ) : ℝ) - i) / ((N - 1 : ℕ) : ℝ))
    rw [Real.cos_arccos a b] at e
    refine e.trans ?_
    have e2 : Real.arccos z - Real.pi * (((N - 1 : ℕ) : ℝ) - i) / ((N - 1 : ℕ) : ℝ) =
        -(Real.pi / ((N - 1 : ℕ) : ℝ)) * (((N - 1 : ℕ) : ℝ) * (1 - Real.arccos z / Real.pi) - i) := by
      have := Real.pi_ne_zero
      have := hn.ne'
      field_simp
      ring
    rw [e2, abs_mul, abs_neg, abs_of_pos (div_pos Real.pi_pos hn)]
    calc Real.pi / ((N - 1 : ℕ) : ℝ) * |((N - 1 : ℕ) : ℝ) * (1 - Real.arccos z / Real.pi) - i|
        ≤ Real.pi / ((N - 1 : ℕ) : ℝ) * (1 / 2) := mul_le_mul_of_nonneg_left hs (div_pos Real.pi_pos hn).le
      _ = (1 - -1) * (Real.pi / (4 * ((N - 1 : ℕ) : ℝ))) := by field_simp; ring
  have linCase : ∀ a b : ℝ, a < b → a ≤ z → z ≤ b → ∃ i < N, |z - (a + (i : ℝ) * ((b - a) / ((N : ℝ) - 1)))| ≤
      (b - a) * (Real.pi / (4 * ((N - 1 : ℕ) : ℝ))) := by
    intro a b hab ha hb
    have hba : 0 < b - a := by linarith
    rw [hc]
    obtain ⟨i, hi, hs⟩ := nearest_index (n := N - 1) (s := ((N - 1 : ℕ) : ℝ) * ((z - a) / (b - a)))
      (mul_nonneg hn.le (div_nonneg (by linarith) hba.le))
      (mul_le_of_le_one_right hn.le (by rw [div_le_one hba]; linarith))
    refine ⟨i, by omega, ?_⟩
    have e2 : z - (a + (i : ℝ) * ((b - a) / ((N - 1 : ℕ) : ℝ))) =
        (b - a) / ((N - 1 : ℕ) : ℝ) * (((N - 1 : ℕ) : ℝ) * ((z - a) / (b - a)) - i) := by
      have := hn.ne'
      have := hba.ne'
      field_simp
      ring
    rw [e2, abs_mul, abs_of_pos (div_pos hba hn)]
    calc (b - a) / ((N - 1 : ℕ) : ℝ) * |((N - 1 : ℕ) : ℝ) * ((z - a) / (b - a)) - i|
        ≤ (b - a) / ((N - 1 : ℕ) : ℝ) * (1 / 2) := mul_le_mul_of_nonneg_left hs (div_pos hba hn).le
      _ ≤ (b - a) / ((N - 1 : ℕ) : ℝ) * (Real.pi / 4) := mul_le_mul_of_nonneg_left (by linarith) (div_pos hba hn).le
      _ = (b - a) * (Real.pi / (4 * ((N - 1 : ℕ) : ℝ))) := by field_simp
  have hlt := zRange_lt basis
  cases basis with
  | cp => exact cosCase h0 h1
  | lep => exact cosCase h0 h1
  | fs => exact linCase _ _ hlt h0 h1
  | elm a => exact linCase _ _ hlt h0 h1

/-- **C98, the points.** For all basis names: no place of the domain is further than `(xf - x0) π / (4 (N - 1))` from a collocation point. -/
theorem C98_points (N : ℕ) (hN : 2 ≤ N) (nC : NCArg) (deg : ℕ) (basis backend : String) (x0 xf : ℝ) (hx : x0 < xf)
    (w b : ℕ → ℝ) (u : Utfc) (hu : utfcInit N nC deg basis (some x0) (some xf) backend w b = .ok u) :
    ∀ t ∈ Icc x0 xf, ∃ p ∈ u.x, |t - p| ≤ (xf - x0) * (Real.pi / (4 * ((N - 1 : ℕ) : ℝ))) := by
  unfold utfcInit at hu
  cases hnc : utfcNC deg nC with
  | error e => rw [hnc] at hu; cases hu
  | ok l =>
    rw [hnc] at hu
    simp only [bind, Except.bind, Option.getD_some] at hu
    cases hbe : Backend.parse backend with
    | none => rw [hbe] at hu; cases hu
    | some be =>
      cases hbn : BasisName.parse basis with
      | none => rw [hbe, hbn] at hu; cases hu
      | some bn =>
        rw [hbe, hbn] at hu
        simp only at hu
        have hfd : FiniteDomain (bn.cls w b) bn.zRange.1 bn.zRange.2 := by
          cases bn <;> exact ⟨rfl, rfl⟩
        obtain ⟨_, hφ0, hφf, hψφ, hφψ, hmono, hcc⟩ := C12_domain_map _ _ _ hfd x0 xf hx.ne l (deg + 1)
        obtain ⟨hmono, himg⟩ := hmono hx
        have hc : be.c (bn.cls w b) x0 xf l (deg + 1) =
            (Model.CC.uniNew (bn.cls w b) x0 xf l (deg + 1)).c := by
          cases be
          · rfl
          · exact hcc
        rw [hc] at hu
        cases hu
        obtain ⟨hz, hxs⟩ := utfcPoints_z bn hN (Model.CC.uniNew (bn.cls w b) x0 xf l (deg + 1)).c x0
        simp only [hxs]
        intro t ht
        have hz0 : bn.zRange.1 ≤ toBasis x0 xf bn.zRange.1 bn.zRange.2 t := by
          have := hmono.monotone ht.1
          rwa [hφ0] at this
        have hzf : toBasis x0 xf bn.zRange.1 bn.zRange.2 t ≤ bn.zRange.2 := by
          have := hmono.monotone ht.2
          rwa [hφf] at this
        obtain ⟨i, hi, hd⟩ := zPoint_dense bn hN hz0 hzf
        refine ⟨_, List.mem_map.2 ⟨i, List.mem_range.2 hi, rfl⟩, ?_⟩
        obtain ⟨q, hq⟩ : ∃ q, q = (zPoint bn N i - bn.zRange.1) / (Model.CC.uniNew (bn.cls w b) x0 xf l (deg + 1)).c + x0 := ⟨_, rfl⟩
        rw [← hq]
        have e := hφψ (zPoint bn N i)
        beta_reduce at e
        rw [← hq] at e
        rw [← e] at hd
        have hzlt := zRange_lt bn
        have hxx : 0 < xf - x0 := by linarith
        have e3 : toBasis x0 xf bn.zRange.1 bn.zRange.2 t - toBasis x0 xf bn.zRange.1 bn.zRange.2 q =
            (bn.zRange.2 - bn.zRange.1) * ((t - q) / (xf - x0)) := by
          unfold toBasis
          ring
        rw [e3, abs_mul, abs_of_pos (sub_pos.2 hzlt), abs_div, abs_of_pos hxx] at hd
        have hd := le_of_mul_le_mul_left hd (sub_pos.2 hzlt)
        rwa [div_le_iff₀ hxx, mul_comm] at hd

/-- The residual at a point between the collocation points. -/
theorem miss_between {R : ℝ → ℝ} {x0 xf L ε h : ℝ} (hR : ∀ t ∈ Icc x0 xf, DifferentiableAt ℝ R t) (hL : ∀ t ∈ Icc x0 xf, |deriv R t| ≤ L) {pts : List ℝ}
    (hin : ∀ p ∈ pts, x0 ≤ p ∧ p ≤ xf) (hd : ∀ t ∈ Icc x0 xf, ∃ p ∈ pts, |t - p| ≤ h) (hε : ∀ p ∈ pts, |R p| ≤ ε) :
    ∀ t ∈ Icc x0 xf, |R t| ≤ ε + L * h := by
  intro t ht
  obtain ⟨p, hp, hpt⟩ := hd t ht
  have hm := (convex_Icc x0 xf).norm_image_sub_le_of_norm_deriv_le (f := R) (C := L) (fun s hs => hR s hs) (fun s hs => hL s hs) (hin p hp) ht
  rw [Real.norm_eq_abs, Real.norm_eq_abs] at hm
  have hL0 : 0 ≤ L := (abs_nonneg _).trans (hL t ht)
  calc |R t| = |(R t - R p) + R p| := by ring_nf
    _ ≤ |R t - R p| + |R p| := abs_add_le _ _
    _ ≤ L * |t - p| + ε := add_le_add hm (hε p hp)
    _ ≤ L * h + ε := by linarith [mul_le_mul_of_nonneg_left hpt hL0]
    _ = ε + L * h := by ring

theorem poly_contDiff (p : ℝ[X]) (n : WithTop ℕ∞) : ContDiff ℝ n fun x => p.eval x := by
  simpa using Polynomial.contDiff_aeval (𝕜 := ℝ) p n

theorem miss_contDiff (p : ℝ[X]) : ContDiff ℝ 1 (odeMiss (fun _ => 1) bvpF p) := by
  have h0 := poly_contDiff p 1
  have h1 := poly_contDiff (derivative p) 1
  have h2 := poly_contDiff (derivative (derivative p)) 1
  unfold odeMiss bvpF
  fun_prop

theorem bvpResid_poly (p : ℝ[X]) (t : ℝ) : bvpResid (fun x => p.eval x) t = odeMiss (fun _ => 1) bvpF p t := by
  have h : deriv (fun x => p.eval x) = fun x => (derivative p).eval x := funext fun x => p.deriv
  unfold bvpResid odeMiss
  rw [h, Polynomial.deriv]
  ring

/-- **C98, the test.** The program of tests/test_ODE.py with any number `N ≥ 2` of points and degree `≥ 2`, both basis names, both
backends, both ways of passing the points: it returns Newton iterates as in `C98_program`. If the residual at the collocation points is at most
`ε` (the assertion of the test, with `ε = 10⁻¹⁰`), then the returned `y` differs from the true solution `e^{-t} sin t`, at every `t` of the
domain, by at most the stated bound, where `B` bounds `y` and `L` the derivative of its residual. -/
theorem C98_test (lib : LinAlg) (hlib : LinAlgCorrect lib) (method : Method) (hm : method ≠ .other) (N : ℕ) (hN : 2 ≤ N) (deg : ℕ)
    (hdeg : 2 ≤ deg) (basis backend : String) (hb : basis = "CP" ∨ basis = "LeP") (hbe : backend = "C++" ∨ backend = "Python")
    (w b : ℕ → ℝ) (tol : ℝ) (htol : tol < 1) (maxIter : ℕ) (timer pass_t : Bool) (fuel : ℕ) (hf : maxIter + 2 ≤ fuel) :
    ∃ u xi k ps, utfcInit N (.int 2) deg basis (some 0) (some Real.pi) backend w b = .ok u ∧
      solveOde lib method tol maxIter timer pass_t u 0 Real.pi 0 0 (fun _ => 1) bvpF fuel = .ok (some (.arr xi, ((k : ℕ) : ℤ))) ∧
      NewtonRun u 0 Real.pi 0 0 (fun _ => 1) bvpF tol maxIter xi k ps ∧
      ∀ ε B L : ℝ, (∀ t ∈ u.x, |odeMiss (fun _ => 1) bvpF (ps k) t| ≤ ε) → (∀ t ∈ Icc 0 Real.pi, |(ps k).eval t| ≤ B) →
        (∀ t ∈ Icc 0 Real.pi, |deriv (odeMiss (fun _ => 1) bvpF (ps k)) t| ≤ L) →
        ∀ t ∈ Icc 0 Real.pi, |(ps k).eval t - Real.exp (-t) * Real.sin t| ≤
          (ε + L * (Real.pi ^ 2 / (4 * ((N - 1 : ℕ) : ℝ)))) * Real.pi / ((B + 1) / 2) * (Real.exp ((B + 1) / 2 * t) - 1) := by
  have hpi := Real.pi_pos
  obtain ⟨u, fam, hu, hc, hx, hd, hn, hl, -⟩ := C69_constructed N hN deg hdeg basis backend hb hbe 0 Real.pi hpi w b
  have hne : u.x ≠ [] := fun e => by rw [e] at hl; simp at hl; omega
  obtain ⟨xi, k, ps, h1, h2⟩ := C98_program lib hlib method hm u fam hc hx (by omega) hn hne 0 Real.pi 0 0 hpi.ne (fun _ => 1) bvpF tol htol
    maxIter timer pass_t fuel hf
  refine ⟨u, xi, k, ps, hu, h1, h2, fun ε B L hε hB hL t ht => ?_⟩
  have hin := (C13_points N hN (.int 2) deg basis backend 0 Real.pi hpi w b u hu).2.2.2.2.2.1
  have hdense := C98_points N hN (.int 2) deg basis backend 0 Real.pi hpi w b u hu
  have hdiff : Differentiable ℝ (odeMiss (fun _ => 1) bvpF (ps k)) := (miss_contDiff _).differentiable one_ne_zero
  have hR := miss_between (fun t _ => hdiff t) hL hin hdense hε
  have hends := h2.ends k le_rfl
  have := C96_bvp (fun x => (ps k).eval x) (poly_contDiff _ 2) hends.left hends.right hB (fun t ht => by
    rw [bvpResid_poly]; exact hR t ht) t ht
  refine this.trans (le_of_eq ?_)
  ring

/-- The bounds `B` and `L` exist for every polynomial, so the statement applies to every run. -/
example (p : ℝ[X]) : ∃ B L : ℝ, (∀ t ∈ Icc 0 Real.pi, |p.eval t| ≤ B) ∧ ∀ t ∈ Icc 0 Real.pi, |deriv (odeMiss (fun _ => 1) bvpF p) t| ≤ L := by
  have hc := miss_contDiff p
  obtain ⟨B, hB⟩ := isCompact_Icc.exists_bound_of_continuousOn ((poly_contDiff p 0).continuous.continuousOn (s := Icc 0 Real.pi))
  obtain ⟨L, hL⟩ := isCompact_Icc.exists_bound_of_continuousOn ((hc.continuous_deriv le_rfl).continuousOn (s := Icc 0 Real.pi))
  exact ⟨B, L, fun t ht => by simpa using hB t ht, fun t ht => by simpa using hL t ht⟩

/-- The call of the test: 100 points, degree 30, Legendre polynomials, compiled backend, 50 iterations, tolerance 10⁻¹³. -/
example : ∃ lib : LinAlg, LinAlgCorrect lib ∧ ∃ u xi k ps,
    utfcInit 100 (.int 2) 30 "LeP" (some 0) (some Real.pi) "C++" (fun _ => 0) (fun _ => 0) = .ok u ∧
      solveOde lib .pinv 1e-13 50 false false u 0 Real.pi 0 0 (fun _ => 1) bvpF 52 = .ok (some (.arr xi, ((k : ℕ) : ℤ))) ∧
      NewtonRun u 0 Real.pi 0 0 (fun _ => 1) bvpF 1e-13 50 xi k ps := by
  obtain ⟨lib, hlib⟩ := Verif.Lemmas.LinAlg.linAlg_exists
  obtain ⟨u, xi, k, ps, h1, h2, h3, -⟩ := C98_test lib hlib .pinv (by decide) 100 (by omega) 30 (by omega) "LeP" "C++" (Or.inr rfl) (Or.inl rfl)
    (fun _ => 0) (fun _ => 0) 1e-13 (by norm_num) 50 false false 52 (by omega)
  exact ⟨lib, hlib, u, xi, k, ps, h1, h2, h3⟩

end Verif.Props
