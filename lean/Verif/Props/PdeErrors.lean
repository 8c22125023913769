import Verif.Props.PdePrograms
import Verif.Props.ResidualPolar

/-!
# C100: the programs, with bounds of their errors
-/

namespace Verif.Props

open Set Polynomial Verif Verif.Mem Verif.Py Verif.Np Verif.Spec Verif.Model Verif.Model.Py Verif.Model.LSq Verif.Model.Prog
open scoped ContDiff

/-- `R` is at most `ε` at the collocation points of `u`, and its derivatives are bounded by `L1` and `L2` on the domain. -/
def SmallAt (u : Mtfc) (R : ℝ → ℝ → ℝ) (ε L1 L2 : ℝ) : Prop :=
  (∀ t ∈ points u, |R t.1 t.2| ≤ ε) ∧
    ∀ x ∈ Icc (u.x0 0) (u.xf 0), ∀ y ∈ Icc (u.x0 1) (u.xf 1), |dx R x y| ≤ L1 ∧ |dy R x y| ≤ L2

/-- The greatest distance of a point of `[0, 1]` to the next of `n` collocation points. -/
noncomputable def gap (n : ℕ) : ℝ := Real.pi / (4 * ((n - 1 : ℕ) : ℝ))

theorem smooth_slices {R : ℝ → ℝ → ℝ} (h : Smooth2 R) (x y : ℝ) : DifferentiableAt ℝ (fun s => R s y) x ∧ DifferentiableAt ℝ (R x) y :=
  ⟨(h.left y).differentiable (by simp) x, (h.right x).differentiable (by simp) y⟩

theorem poiResid_smooth {z : ℝ → ℝ → ℝ} (hz : Smooth2 z) : Smooth2 (poiResid z) := by
  have h1 := hz.dx.dx
  have h2 := hz.dy.dy
  unfold Smooth2 poiResid at *
  fun_prop

theorem wavResid_smooth {z : ℝ → ℝ → ℝ} (hz : Smooth2 z) : Smooth2 (wavResid z) := by
  have h1 := hz.dx.dx
  have h2 := hz.dy.dy
  unfold Smooth2 wavResid at *
  fun_prop

theorem bihResid_smooth {z : ℝ → ℝ → ℝ} (hz : Smooth2 z) : Smooth2 (bihResid z) := by
  have h1 := hz.dx.dx.dx.dx
  have h2 := hz.dy.dy.dy.dy
  have h3 := hz.dx.dx.dy.dy
  unfold Smooth2 bihResid at *
  fun_prop

theorem burResid_smooth (p : BurgersPar) {z : ℝ → ℝ → ℝ} (hz : Smooth2 z) : Smooth2 (burResid p z) := by
  have h1 := hz.dx.dx
  have h2 := hz.dy
  have h3 := hz.dx
  unfold Smooth2 burResid at *
  fun_prop

theorem annResid_slices {z : ℝ → ℝ → ℝ} (hz : Smooth2 z) {r : ℝ} (hr : r ≠ 0) (th : ℝ) :
    DifferentiableAt ℝ (fun s => annResid z s th) r ∧ DifferentiableAt ℝ (annResid z r) th := by
  obtain ⟨a1, a2⟩ := smooth_slices hz.dx.dx r th
  obtain ⟨b1, b2⟩ := smooth_slices hz.dx r th
  obtain ⟨c1, c2⟩ := smooth_slices hz.dy.dy r th
  unfold annResid
  constructor
  · have d1 : DifferentiableAt ℝ (fun s : ℝ => 1 / s) r := (differentiableAt_const _).div differentiableAt_id hr
    have d2 : DifferentiableAt ℝ (fun s : ℝ => 1 / s ^ 2) r := (differentiableAt_const _).div (differentiableAt_id.pow 2) (pow_ne_zero 2 hr)
    exact (a1.add (d1.mul b1)).add (d2.mul c1)
  · exact (a2.add (b2.const_mul _)).add (c2.const_mul _)

/-- Least squares among the polynomials, from least squares among the free functions. -/
theorem least_polynomials {n : List ℕ} {e0 e1 : NCEntry} (hone : ∀ e ∈ [e0, e1], ∀ v, e ≠ .arr [v]) {deg : ℕ} {basis backend : String}
    (hb : basis = "CP" ∨ basis = "LeP") {x0 xf : Option (List ℝ)} {w : ℕ → ℕ → ℝ} {b : ℕ → ℝ} {u : Mtfc}
    (hu : mtfcInit n (.list [e0, e1]) deg 2 basis x0 xf backend w b = .ok u) (hx : ∀ k < 2, u.x0 k ≠ u.xf k) {P : TwoStep}
    (hPx : SmoothSides P.xs) (hPy : SmoothSides P.ys) (hrep : ∀ a, Asks e0 a → Reproduces P.xs a) {S : (ℝ → ℝ → ℝ) → ℝ} {c : ℝ}
    (h : ∀ xi' g', Free u xi' g' → c ≤ S (full P g')) (R : MvPolynomial (Fin 2) ℝ) (hR : R.totalDegree ≤ deg) : c ≤ S (full P (evalXY R)) := by
  obtain ⟨xi, g, hg, e⟩ := (C100_reach n e0 e1 hone deg basis backend hb x0 xf w b u hu hx P hPx hPy).2 (Or.inl hrep) R hR
  rw [← e]
  exact h xi g hg

/-- The domain of an object. -/
theorem x_lt {u : Mtfc} {a0 a1 b0 b1 : ℝ} (h : u.x0 0 = a0 ∧ u.x0 1 = a1 ∧ u.xf 0 = b0 ∧ u.xf 1 = b1) (h0 : a0 < b0) (h1 : a1 < b1) :
    ∀ k < 2, u.x0 k < u.xf k := by
  intro k hk
  interval_cases k
  · rw [h.1, h.2.2.1]; exact h0
  · rw [h.2.1, h.2.2.2]; exact h1

/-! ## Poisson's equation -/

/-- The error of every function of the form of the program. -/
theorem poisson_error {n0 n1 : ℕ} (hn0 : 2 ≤ n0) (hn1 : 2 ≤ n1) {nC : MNCArg} {deg : ℕ} {basis backend : String} {w : ℕ → ℕ → ℝ} {b : ℕ → ℝ} {u : Mtfc}
    (hu : mtfcInit [n0, n1] nC deg 2 basis (some [0, 0]) (some [1, 1]) backend w b = .ok u)
    (hd : u.x0 0 = 0 ∧ u.x0 1 = 0 ∧ u.xf 0 = 1 ∧ u.xf 1 = 1) {g : ℝ → ℝ → ℝ} (hg : Smooth2 g) {ε L1 L2 : ℝ}
    (h : SmallAt u (poiResid (poiU g)) ε L1 L2) :
    ∀ x ∈ Icc (0 : ℝ) 1, ∀ y ∈ Icc (0 : ℝ) 1, |poiU g x y - poiReal x y| ≤ (ε + L1 * gap n0 + L2 * gap n1) / 8 := by
  have := C100_between n0 n1 hn0 hn1 nC deg basis backend _ _ w b u hu (x_lt hd zero_lt_one zero_lt_one) _
    (fun x _ y _ => smooth_slices (poiResid_smooth (poiU_smooth hg)) x y) ε L1 L2 h.1 h.2
  rw [hd.1, hd.2.1, hd.2.2.1, hd.2.2.2, sub_zero, one_mul, one_mul] at this
  exact C96_poisson_program g hg this

/-- **C100, Poisson's equation** (D/Chapter_3/Example_3_2_tfc.py), for any numbers of points from 2 on, degree from 2 on, both backends, Chebyshev or
Legendre polynomials: the program returns coefficients; the values of the returned expression are those of a function `z` that meets
the four boundary conditions exactly, everywhere; the squared residual, summed over the collocation points, is the least among all polynomials of
total degree at most `deg` put in the expression; and the error against the exact solution is bounded on the whole square by what
the residual is at the points. -/
theorem C100_poisson (lib : LinAlg) (hlib : LinAlgCorrect lib) (method : Method) (hm : method ≠ .other) (n0 n1 : ℕ) (hn0 : 2 ≤ n0)
    (hn1 : 2 ≤ n1) (deg : ℕ) (hdeg : 2 ≤ deg) (basis backend : String) (hb : basis = "CP" ∨ basis = "LeP")
    (hbe : backend = "C++" ∨ backend = "Python") (w : ℕ → ℕ → ℝ) (b : ℕ → ℝ) :
    ∃ u xi, ∃ z : ℝ → ℝ → ℝ, mtfcInit [n0, n1] (.list [.int 2, .int 2]) deg 2 basis (some [0, 0]) (some [1, 1]) backend w b = .ok u ∧
      solveDirect2 lib method u poiExpr poiEq = .ok xi ∧
      (∀ N X Y, exprEval u poiExpr xi N X Y = .ok ((List.range N).map fun j => z (X j) (Y j))) ∧
      ((∀ y, z 0 y = y ^ 3) ∧ (∀ y, z 1 y = (1 + y ^ 3) * Real.exp (-1)) ∧ (∀ x, z x 0 = x * Real.exp (-x)) ∧
        ∀ x, z x 1 = Real.exp (-x) * (x + 1)) ∧
      (∀ R : MvPolynomial (Fin 2) ℝ, R.totalDegree ≤ deg →
        sumSq2 (points u) (poiResid z) ≤ sumSq2 (points u) (poiResid (poiU (evalXY R)))) ∧
      ∀ ε L1 L2, SmallAt u (poiResid z) ε L1 L2 →
        ∀ x ∈ Icc (0 : ℝ) 1, ∀ y ∈ Icc (0 : ℝ) 1, |z x y - poiReal x y| ≤ (ε + L1 * gap n0 + L2 * gap n1) / 8 := by
  obtain ⟨u, hu, hd⟩ := build_poly n0 n1 (by omega) (by omega) (.int 2) (.int 2) (by simp) deg (by simpa [count] using hdeg) basis backend hb hbe
    0 0 1 1 w b
  have hx := x_lt hd zero_lt_one zero_lt_one
  obtain ⟨xi, g, hs, B⟩ := C100_direct lib hlib method hm _ _ deg basis backend _ _ w b u hu
    (hb.elim Or.inl fun h => Or.inr (Or.inl h)) poiExpr poiEq rfl poi_xs poi_ys 2 2 (by norm_num) poi_orders
  refine ⟨u, xi, poiU g, hu, hs, full_poi g ▸ B.values, C79_poisson g, fun R hR => ?_, fun ε L1 L2 => poisson_error hn0 hn1 hu hd B.smooth⟩
  have := least_polynomials (by simp) hb hu (fun k hk => (hx k hk).ne) poi_xs poi_ys
    (fun a ha => reproduces_mono poi_reproduces (by simp only [Asks] at ha; omega)) (S := fun z => sumSq2 (points u) (missOf poiEq z)) B.least R hR
  simpa only [full_poi, miss_poi] using this

/-- **C100, Poisson's equation with random features** (D/Chapter_3/Example_3_5.py): the same, the least among all coefficients. -/
theorem C100_poisson_features (lib : LinAlg) (hlib : LinAlgCorrect lib) (method : Method) (hm : method ≠ .other) (n0 n1 : ℕ) (hn0 : 2 ≤ n0)
    (hn1 : 2 ≤ n1) (deg : ℕ) (basis backend : String) (hb : basis = "ELMTanh" ∨ basis = "ELMSin" ∨ basis = "ELMSigmoid" ∨ basis = "ELMSwish")
    (hbe : backend = "C++" ∨ backend = "Python") (w : ℕ → ℕ → ℝ) (b : ℕ → ℝ) :
    ∃ u xi, ∃ z : ℝ → ℝ → ℝ, mtfcInit [n0, n1] (.int (-1)) deg 2 basis (some [0, 0]) (some [1, 1]) backend w b = .ok u ∧
      solveDirect2 lib method u poiExpr poiEq = .ok xi ∧
      (∀ N X Y, exprEval u poiExpr xi N X Y = .ok ((List.range N).map fun j => z (X j) (Y j))) ∧
      ((∀ y, z 0 y = y ^ 3) ∧ (∀ y, z 1 y = (1 + y ^ 3) * Real.exp (-1)) ∧ (∀ x, z x 0 = x * Real.exp (-x)) ∧
        ∀ x, z x 1 = Real.exp (-x) * (x + 1)) ∧
      (∀ xi' g', Free u xi' g' → sumSq2 (points u) (poiResid z) ≤ sumSq2 (points u) (poiResid (poiU g'))) ∧
      ∀ ε L1 L2, SmallAt u (poiResid z) ε L1 L2 →
        ∀ x ∈ Icc (0 : ℝ) 1, ∀ y ∈ Icc (0 : ℝ) 1, |z x y - poiReal x y| ≤ (ε + L1 * gap n0 + L2 * gap n1) / 8 := by
  obtain ⟨u, hu, h1, h2, h3, h4, hne, hv⟩ := build_elm n0 n1 (by omega) (by omega) deg basis backend hb hbe 0 0 1 1 w b
  have hd : u.x0 0 = 0 ∧ u.x0 1 = 0 ∧ u.xf 0 = 1 ∧ u.xf 1 = 1 := ⟨h1, h2, h3, h4⟩
  have hx := x_lt hd zero_lt_one zero_lt_one
  obtain ⟨xi, g, hs, B⟩ := C100_direct lib hlib method hm _ _ deg basis backend _ _ w b u hu
    (Or.inr (Or.inr (Or.inr ⟨hne, hv, fun k hk => (hx k hk).ne⟩))) poiExpr poiEq rfl poi_xs poi_ys 2 2 (by norm_num) poi_orders
  refine ⟨u, xi, poiU g, hu, hs, full_poi g ▸ B.values, C79_poisson g, fun xi' g' h => ?_, fun ε L1 L2 => poisson_error hn0 hn1 hu hd B.smooth⟩
  simpa only [full_poi, miss_poi] using B.least xi' g' h

/-! ## The wave equation -/

/-- **C100, the wave equation** (D/Chapter_4/WaveEquation/WaveEquation.py), as `C100_poisson`, with `LS` in both ways of passing the points. -/
theorem C100_wave (lib : LinAlg) (hlib : LinAlgCorrect lib) (method : Method) (hm : method ≠ .other) (n0 n1 : ℕ) (hn0 : 2 ≤ n0)
    (hn1 : 2 ≤ n1) (deg : ℕ) (hdeg : 2 ≤ deg) (basis backend : String) (hb : basis = "CP" ∨ basis = "LeP")
    (hbe : backend = "C++" ∨ backend = "Python") (w : ℕ → ℕ → ℝ) (b : ℕ → ℝ) (timer pass_x : Bool) :
    ∃ u xi, ∃ z : ℝ → ℝ → ℝ, mtfcInit [n0, n1] (.list [.int 2, .int 2]) deg 2 basis (some [0, 0]) (some [1, 1]) backend w b = .ok u ∧
      solveLS2 lib method timer pass_x u wavExpr wavEq = .ok (.arr xi) ∧
      (∀ N X Y, exprEval u wavExpr xi N X Y = .ok ((List.range N).map fun j => z (X j) (Y j))) ∧
      ((∀ t, z 0 t = 0 ∧ z 1 t = 0) ∧ (∀ x, z x 0 = Real.sin (Real.pi * x)) ∧ ∀ x, dy z x 0 = 0) ∧
      (∀ R : MvPolynomial (Fin 2) ℝ, R.totalDegree ≤ deg →
        sumSq2 (points u) (wavResid z) ≤ sumSq2 (points u) (wavResid (wavU (evalXY R)))) ∧
      ∀ ε L1 L2, SmallAt u (wavResid z) ε L1 L2 →
        ∀ x ∈ Icc (0 : ℝ) 1, ∀ t ∈ Icc (0 : ℝ) 1, |z x t - wavReal x t| ≤ (ε + L1 * gap n0 + L2 * gap n1) * t ^ 2 / 2 := by
  obtain ⟨u, hu, hd⟩ := build_poly n0 n1 (by omega) (by omega) (.int 2) (.int 2) (by simp) deg (by simpa [count] using hdeg) basis backend hb hbe
    0 0 1 1 w b
  have hx := x_lt hd zero_lt_one zero_lt_one
  obtain ⟨xi, g, hs, B⟩ := C100_linear lib hlib method hm _ _ deg basis backend _ _ w b u hu
    (hb.elim Or.inl fun h => Or.inr (Or.inl h)) wavExpr wavEq rfl wav_xs wav_ys 2 2 (by norm_num) wav_orders timer pass_x
  refine ⟨u, xi, wavU g, hu, hs, full_wav g ▸ B.values, C79_wave g fun x => (B.smooth.right x).differentiable (by simp), fun R hR => ?_,
    fun ε L1 L2 h => ?_⟩
  · have := least_polynomials (by simp) hb hu (fun k hk => (hx k hk).ne) wav_xs wav_ys
      (fun a ha => reproduces_mono wav_reproduces (by simp only [Asks] at ha; omega)) (S := fun z => sumSq2 (points u) (missOf wavEq z)) B.least R hR
    simpa only [full_wav, miss_wav] using this
  · have := C100_between n0 n1 hn0 hn1 _ deg basis backend _ _ w b u hu hx _
      (fun x _ y _ => smooth_slices (wavResid_smooth (wavU_smooth B.smooth)) x y) ε L1 L2 h.1 h.2
    rw [hd.1, hd.2.1, hd.2.2.1, hd.2.2.2, sub_zero, one_mul, one_mul] at this
    exact C96_wave_program g B.smooth one_pos this

/-! ## The biharmonic equation -/

/-- **C100, the biharmonic equation** (D/Chapter_4/BiharmonicEquation/BiharmonicCartesianCoordinates.py), as `C100_wave`; the degree from 4 on. -/
theorem C100_biharmonic (lib : LinAlg) (hlib : LinAlgCorrect lib) (method : Method) (hm : method ≠ .other) (n0 n1 : ℕ) (hn0 : 2 ≤ n0)
    (hn1 : 2 ≤ n1) (deg : ℕ) (hdeg : 4 ≤ deg) (basis backend : String) (hb : basis = "CP" ∨ basis = "LeP")
    (hbe : backend = "C++" ∨ backend = "Python") (w : ℕ → ℕ → ℝ) (b : ℕ → ℝ) (timer pass_x : Bool) :
    ∃ u xi, ∃ z : ℝ → ℝ → ℝ, mtfcInit [n0, n1] (.list [.int 4, .int 4]) deg 2 basis (some [0, 0]) (some [1, 1]) backend w b = .ok u ∧
      solveLS2 lib method timer pass_x u bihExpr bihEq = .ok (.arr xi) ∧
      (∀ N X Y, exprEval u bihExpr xi N X Y = .ok ((List.range N).map fun j => z (X j) (Y j))) ∧
      ((∀ y, z 0 y = 0 ∧ z 1 y = 0 ∧ dx (dx z) 0 y = 0 ∧ dx (dx z) 1 y = 0) ∧
        ∀ x, z x 0 = 0 ∧ z x 1 = 0 ∧ dy (dy z) x 0 = 0 ∧ dy (dy z) x 1 = 0) ∧
      (∀ R : MvPolynomial (Fin 2) ℝ, R.totalDegree ≤ deg →
        sumSq2 (points u) (bihResid z) ≤ sumSq2 (points u) (bihResid (bihU (evalXY R)))) ∧
      ∀ ε L1 L2, SmallAt u (bihResid z) ε L1 L2 →
        ∀ x ∈ Icc (0 : ℝ) 1, ∀ y ∈ Icc (0 : ℝ) 1, |z x y - bihReal x y| ≤ (ε + L1 * gap n0 + L2 * gap n1) / 64 := by
  obtain ⟨u, hu, hd⟩ := build_poly n0 n1 (by omega) (by omega) (.int 4) (.int 4) (by simp) deg (by simpa [count] using hdeg) basis backend hb hbe
    0 0 1 1 w b
  have hx := x_lt hd zero_lt_one zero_lt_one
  obtain ⟨xi, g, hs, B⟩ := C100_linear lib hlib method hm _ _ deg basis backend _ _ w b u hu
    (hb.elim Or.inl fun h => Or.inr (Or.inl h)) bihExpr bihEq rfl bih_xs bih_ys 4 4 (by norm_num) bih_orders timer pass_x
  refine ⟨u, xi, bihU g, hu, hs, full_bih g ▸ B.values, C79_biharmonic g B.smooth, fun R hR => ?_,
    fun ε L1 L2 h => ?_⟩
  · have := least_polynomials (by simp) hb hu (fun k hk => (hx k hk).ne) bih_xs bih_ys
      (fun a ha => reproduces_mono bih_reproduces (by simp only [Asks] at ha; omega)) (S := fun z => sumSq2 (points u) (missOf bihEq z)) B.least R hR
    simpa only [full_bih, miss_bih (bihU_smooth B.smooth), miss_bih (bihU_smooth (evalXY_smooth R))] using this
  · have := C100_between n0 n1 hn0 hn1 _ deg basis backend _ _ w b u hu hx _
      (fun x _ y _ => smooth_slices (bihResid_smooth (bihU_smooth B.smooth)) x y) ε L1 L2 h.1 h.2
    rw [hd.1, hd.2.1, hd.2.2.1, hd.2.2.2, sub_zero, one_mul, one_mul] at this
    exact C96_biharmonic_program g B.smooth this

theorem miss_pol {z : ℝ → ℝ → ℝ} (hz : Smooth2 z) : missOf polEq z = polResid z := by
  have c1 : dx (dy (dy z)) = dy (dy (dx z)) := by rw [dx_dy hz.dy, dx_dy hz]
  have c2 : dx (dy (dy (dx z))) = dy (dy (dx (dx z))) := by rw [dx_dy hz.dx.dy, dx_dy hz.dx]
  funext x y
  simp [missOf, opVal, polEq, polResid, c1, c2]
  ring

theorem polResid_slices {z : ℝ → ℝ → ℝ} (hz : Smooth2 z) {r : ℝ} (hr : r ≠ 0) (th : ℝ) :
    DifferentiableAt ℝ (fun s => polResid z s th) r ∧ DifferentiableAt ℝ (polResid z r) th := by
  obtain ⟨a1, a2⟩ := smooth_slices hz.dx.dx.dx.dx r th
  obtain ⟨b1, b2⟩ := smooth_slices hz.dx.dx.dy.dy r th
  obtain ⟨c1, c2⟩ := smooth_slices hz.dy.dy.dy.dy r th
  obtain ⟨d1, d2⟩ := smooth_slices hz.dx.dx.dx r th
  obtain ⟨e1, e2⟩ := smooth_slices hz.dx.dy.dy r th
  obtain ⟨f1, f2⟩ := smooth_slices hz.dx.dx r th
  obtain ⟨g1, g2⟩ := smooth_slices hz.dy.dy r th
  obtain ⟨h1, h2⟩ := smooth_slices hz.dx r th
  have k : ∀ (a : ℝ) (n : ℕ), DifferentiableAt ℝ (fun s : ℝ => a / s ^ n) r := fun a n =>
    (differentiableAt_const _).div (differentiableAt_id.pow n) (pow_ne_zero n hr)
  have k1 : DifferentiableAt ℝ (fun s : ℝ => 2 / s) r := (differentiableAt_const _).div differentiableAt_id hr
  unfold polResid
  constructor
  · exact (((((((a1.add ((k 2 2).mul b1)).add ((k 1 4).mul c1)).add (k1.mul d1)).sub ((k 2 3).mul e1)).sub ((k 1 2).mul f1)).add
      ((k 4 4).mul g1)).add ((k 1 3).mul h1))
  · exact (((((((a2.add (b2.const_mul _)).add (c2.const_mul _)).add (d2.const_mul _)).sub (e2.const_mul _)).sub (f2.const_mul _)).add
      (g2.const_mul _)).add (h2.const_mul _))

/-- **C100, the biharmonic equation in polar coordinates** (D/Chapter_4/BiharmonicEquation/BiharmonicPolarCoordinates.py), as `C100_biharmonic`. The
program removes the first four functions of both variables, though the periodic conditions of the angle do not
reproduce them; nothing is lost, since the conditions of the radius reproduce the cubic polynomials. -/
theorem C100_polar (lib : LinAlg) (hlib : LinAlgCorrect lib) (method : Method) (hm : method ≠ .other) (n0 n1 : ℕ) (hn0 : 2 ≤ n0)
    (hn1 : 2 ≤ n1) (deg : ℕ) (hdeg : 4 ≤ deg) (basis backend : String) (hb : basis = "CP" ∨ basis = "LeP")
    (hbe : backend = "C++" ∨ backend = "Python") (w : ℕ → ℕ → ℝ) (b : ℕ → ℝ) (timer pass_x : Bool) :
    ∃ u xi, ∃ z : ℝ → ℝ → ℝ,
      mtfcInit [n0, n1] (.list [.int 4, .int 4]) deg 2 basis (some [1, 0]) (some [4, 2 * Real.pi]) backend w b = .ok u ∧
      solveLS2 lib method timer pass_x u polExpr polEq = .ok (.arr xi) ∧
      (∀ N X Y, exprEval u polExpr xi N X Y = .ok ((List.range N).map fun j => z (X j) (Y j))) ∧
      ((∀ th, z 1 th = polReal 1 th ∧ z 4 th = polReal 4 th ∧ dx (dx z) 1 th = dx (dx polReal) 1 th ∧ dx (dx z) 4 th = dx (dx polReal) 4 th) ∧
        ∀ r, z r 0 = z r (2 * Real.pi) ∧ dy z r 0 = dy z r (2 * Real.pi) ∧ dy (dy z) r 0 = dy (dy z) r (2 * Real.pi) ∧
          dy (dy (dy z)) r 0 = dy (dy (dy z)) r (2 * Real.pi)) ∧
      (∀ R : MvPolynomial (Fin 2) ℝ, R.totalDegree ≤ deg →
        sumSq2 (points u) (polResid z) ≤ sumSq2 (points u) (polResid (polU (evalXY R)))) ∧
      ∀ ε L1 L2, SmallAt u (polResid z) ε L1 L2 →
        ∀ r ∈ Icc (1 : ℝ) 4, ∀ th ∈ Icc (0 : ℝ) (2 * Real.pi),
          |z r th - polReal r th| ≤ 285 * Real.pi ^ 2 * (ε + L1 * (3 * gap n0) + L2 * (2 * Real.pi * gap n1)) := by
  obtain ⟨u, hu, hd⟩ := build_poly n0 n1 (by omega) (by omega) (.int 4) (.int 4) (by simp) deg (by simpa [count] using hdeg) basis backend hb hbe
    1 0 4 (2 * Real.pi) w b
  have hx := x_lt hd (by norm_num) Real.two_pi_pos
  obtain ⟨xi, g, hs, B⟩ := C100_linear lib hlib method hm _ _ deg basis backend _ _ w b u hu
    (hb.elim Or.inl fun h => Or.inr (Or.inl h)) polExpr polEq rfl pol_xs pol_ys 4 4 (by norm_num) pol_orders timer pass_x
  refine ⟨u, xi, polU g, hu, hs, full_pol g ▸ B.values, C79_polar g B.smooth, fun R hR => ?_, fun ε L1 L2 h => ?_⟩
  · have := least_polynomials (by simp) hb hu (fun k hk => (hx k hk).ne) pol_xs pol_ys
      (fun a ha => reproduces_mono pol_reproduces (by simp only [Asks] at ha; omega)) (S := fun z => sumSq2 (points u) (missOf polEq z)) B.least R hR
    simpa only [full_pol, miss_pol (polU_smooth B.smooth), miss_pol (polU_smooth (evalXY_smooth R))] using this
  · have := C100_between n0 n1 hn0 hn1 _ deg basis backend _ _ w b u hu hx _
      (fun r hr th _ => polResid_slices (polU_smooth B.smooth) (by
        rw [hd.1] at hr
        linarith [hr.1] |> fun h : 0 < r => h.ne') th) ε L1 L2 h.1 h.2
    rw [hd.1, hd.2.1, hd.2.2.1, hd.2.2.2, sub_zero, show (4 : ℝ) - 1 = 3 by norm_num] at this
    exact C96_polar_program g B.smooth this

/-! ## Laplace's equation on the annulus -/

theorem miss_ann (z : ℝ → ℝ → ℝ) : missOf annEq z = annResid z := by
  funext x y
  simp [missOf, opVal, annEq, annResid]
  ring

/-- For a linear equation the linearised equation is the equation. -/
theorem linOf_linear {Q : Equation2} (h1 : Q.fac1 = []) (z w : ℝ → ℝ → ℝ) : linOf Q z w = missOf Q w := by
  funext x y
  simp [linOf, missOf, h1, opVal]

/-- An object with polynomials has a column if a function is left. -/
theorem poly_column {n : List ℕ} {e0 e1 : NCEntry} (hone : ∀ e ∈ [e0, e1], ∀ v, e ≠ .arr [v]) {deg : ℕ} {basis backend : String}
    (hb : basis = "CP" ∨ basis = "LeP") {x0 xf : Option (List ℝ)} {w : ℕ → ℕ → ℝ} {b : ℕ → ℝ} {u : Mtfc}
    (hu : mtfcInit n (.list [e0, e1]) deg 2 basis x0 xf backend w b = .ok u) (hk : ∃ a ≤ deg, ¬ Asks e0 a) :
    ∃ N X Y A, u.Hjax N (points2 X Y) [0, 0] false = .ok A ∧ A.cols ≠ 0 := by
  obtain ⟨-, -, -, -, -, hbn, -⟩ := mtfcInit_ok hu
  obtain ⟨f, hf⟩ : ∃ f : NFamily, u.basis.mcls w b = .tensor f := by
    rcases hb with rfl | rfl
    · rw [show BasisName.parse "CP" = some .cp by decide] at hbn
      rw [← Option.some.inj hbn]
      exact ⟨.cp, rfl⟩
    · rw [show BasisName.parse "LeP" = some .lep by decide] at hbn
      rw [← Option.some.inj hbn]
      exact ⟨.lep, rfl⟩
  obtain ⟨L, -, hmem, hH⟩ := C20_columns_partial n [e0, e1] hone deg 2 (by omega) basis backend x0 xf w b u hu f hf
  obtain ⟨A, hA, -, hc, -⟩ := hH 0 (points2 (fun _ => 0) fun _ => 0) [0, 0] (by simp)
  refine ⟨0, _, _, A, hA, fun h => ?_⟩
  obtain ⟨a, ha, hn⟩ := hk
  have : (![a, 0] : Fin 2 → ℕ) ∈ L := (hmem _).mpr ⟨by simpa [Fin.sum_univ_two] using ha, 0, by simpa using hn⟩
  rw [hc] at h
  rw [List.length_eq_zero_iff.mp h] at this
  exact absurd this (by simp)

/-- **C100, Laplace's equation on the annulus** (B/Chapter_3/Problem_8.py), with `NLLS`: the program returns after at most `maxIter` steps, the values
of the returned expression are those of a function that meets the conditions, every step gives the least squared residual at the
collocation points among all polynomials of total degree at most `deg` put in the expression, the run ends for one of the three
reasons, and the error on the whole annulus is bounded by what the residual is at the points. The removed functions are `[2, [1, 2]]`. -/
theorem C100_annulus (lib : LinAlg) (hlib : LinAlgCorrect lib) (method : Method) (hm : method ≠ .other) (n0 n1 : ℕ) (hn0 : 2 ≤ n0)
    (hn1 : 2 ≤ n1) (deg : ℕ) (hdeg : 2 ≤ deg) (basis backend : String) (hb : basis = "CP" ∨ basis = "LeP")
    (hbe : backend = "C++" ∨ backend = "Python") (w : ℕ → ℕ → ℝ) (b : ℕ → ℝ) (tol : ℝ) (htol : tol < 1) (maxIter : ℕ) (timer : Bool)
    (fuel : ℕ) (hf : maxIter + 2 ≤ fuel) :
    ∃ u xi it, ∃ gs : ℕ → ℝ → ℝ → ℝ,
      mtfcInit [n0, n1] (.list [.int 2, .arr [1, 2]]) deg 2 basis (some [2, 0]) (some [4, 2 * Real.pi]) backend w b = .ok u ∧
      solveNLLS2 lib method tol maxIter timer u annExpr annEq fuel = .ok (some (.arr xi, ((it : ℕ) : ℤ))) ∧
      Newton2 u annExpr annEq tol maxIter xi it gs ∧
      (∀ N X Y, exprEval u annExpr xi N X Y = .ok ((List.range N).map fun j => annU (gs it) (X j) (Y j))) ∧
      ((∀ th, annU (gs it) 2 th = 0) ∧ (∀ th, annU (gs it) 4 th = 4 * Real.sin (5 * th)) ∧
        ∀ r, annU (gs it) r 0 = annU (gs it) r (2 * Real.pi) ∧ dy (annU (gs it)) r 0 = dy (annU (gs it)) r (2 * Real.pi)) ∧
      (∀ j < it, ∀ R : MvPolynomial (Fin 2) ℝ, R.totalDegree ≤ deg →
        sumSq2 (points u) (annResid (annU (gs (j + 1)))) ≤ sumSq2 (points u) (annResid (annU (evalXY R)))) ∧
      ∀ ε L1 L2, SmallAt u (annResid (annU (gs it))) ε L1 L2 →
        ∀ r ∈ Icc (2 : ℝ) 4, ∀ th ∈ Icc (0 : ℝ) (2 * Real.pi),
          |annU (gs it) r th - annReal r th| ≤ 3 * (ε + L1 * (2 * gap n0) + L2 * (2 * Real.pi * gap n1)) := by
  obtain ⟨u, hu, hd⟩ := build_poly n0 n1 (by omega) (by omega) (.int 2) (.arr [1, 2]) (by simp) deg (by simpa [count] using hdeg) basis backend hb
    hbe 2 0 4 (2 * Real.pi) w b
  have hx := x_lt hd (by norm_num) Real.two_pi_pos
  have hb' : basis = "CP" ∨ basis = "LeP" ∨ basis = "FS" ∨ (basis ≠ "ELMReLU" ∧ ValidRemoval (deg + 1) u.nCl) :=
    hb.elim Or.inl fun h => Or.inr (Or.inl h)
  obtain ⟨xi, it, gs, hs, B⟩ := C100_newton lib hlib method hm _ (by simp [hn0, hn1]) _ deg basis backend _ _ w b u hu hb'
    (fun k hk => (hx k hk).ne) (poly_column (by simp) hb hu ⟨deg, le_rfl, by simp only [Asks]; omega⟩) annExpr annEq ann_xs ann_ys 2 2
    (by norm_num) ann_orders tol htol maxIter timer fuel hf
  refine ⟨u, xi, it, gs, hu, hs, B, full_ann (gs it) ▸ B.values, C79_annulus _ fun x => ((B.smooth it).right x).differentiable (by simp),
    fun j hj R hR => ?_, fun ε L1 L2 h => ?_⟩
  · have := least_polynomials (by simp) hb hu (fun k hk => (hx k hk).ne) ann_xs ann_ys
      (fun a ha => reproduces_mono ann_reproduces (by simp only [Asks] at ha; omega))
      (S := fun z => sumSq2 (points u) (linOf annEq (full annExpr (gs j)) z)) (B.steps j hj) R hR
    simpa only [full_ann, linOf_linear (Q := annEq) rfl, miss_ann] using this
  · have := C100_between n0 n1 hn0 hn1 _ deg basis backend _ _ w b u hu hx _
      (fun r hr th _ => annResid_slices (annU_smooth (B.smooth it)) (by
        rw [hd.1] at hr
        linarith [hr.1] |> fun h : 0 < r => h.ne') th) ε L1 L2 h.1 h.2
    rw [hd.1, hd.2.1, hd.2.2.1, hd.2.2.2, sub_zero, show (4 : ℝ) - 2 = 2 by norm_num] at this
    exact C96_annulus_program _ (B.smooth it) this

/-! ## Burgers' equation -/

theorem bur_xs (p : BurgersPar) : SmoothSides (burExpr p).xs := by
  intro c hc
  simp only [burExpr, List.mem_cons, List.not_mem_nil, or_false] at hc
  rcases hc with rfl | rfl
  · exact ⟨by fun_prop, contDiff_const.sub (contDiff_const.mul (tanh_smooth.comp (by fun_prop)))⟩
  · exact ⟨by fun_prop, contDiff_const.sub (contDiff_const.mul (tanh_smooth.comp (by fun_prop)))⟩

theorem bur_ys (p : BurgersPar) : SmoothSides (burExpr p).ys := by
  intro c hc
  simp only [burExpr, List.mem_cons, List.not_mem_nil, or_false] at hc
  subst hc
  exact ⟨by fun_prop, contDiff_const.sub (contDiff_const.mul (tanh_smooth.comp (by fun_prop)))⟩

/-- An object with random features and nothing removed has columns. -/
theorem elm_column {n : List ℕ} {deg : ℕ} {basis backend : String} {x0 xf : Option (List ℝ)} {w : ℕ → ℕ → ℝ} {b : ℕ → ℝ} {u : Mtfc}
    (hu : mtfcInit n (.int (-1)) deg 2 basis x0 xf backend w b = .ok u) {a : Activation} (hbn : BasisName.parse basis = some (.elm a))
    (hx : ∀ k < 2, u.x0 k ≠ u.xf k) : ∃ N X Y A, u.Hjax N (points2 X Y) [0, 0] false = .ok A ∧ A.cols ≠ 0 := by
  obtain ⟨-, -, hud, -, -, hbn2, -, -, ⟨rows, hrem, -⟩, ⟨be, -, hobj⟩, -, -⟩ := mtfcInit_ok hu
  rw [hbn] at hbn2
  have hbs := Option.some.inj hbn2
  rw [← hbs] at hrem hobj
  have hnc : u.nCl = [] := by
    have := Except.ok.inj hrem
    simp only [Prod.mk.injEq] at this
    exact this.2.2.symm
  have hobj : MObj.new be (.elm a w b) 2 u.x0 u.xf u.numC u.tab u.nCl (deg + 1) = .ok u.obj := hobj
  obtain ⟨o, g1, -, -, g2⟩ := MObj.new_elm be a w b 2 (deg + 1) u.x0 u.xf u.numC u.tab u.nCl
  rw [g1] at hobj
  cases hobj
  obtain ⟨-, g3⟩ := g2 false (Or.inr (by simp [hnc, ValidRemoval])) hx
  obtain ⟨A, hA, -, hc, -⟩ := g3 0 (points2 (fun _ => 0) fun _ => 0) [0, 0] (by simp) (by
    cases be with
    | cpp => exact fun _ => by simp
    | python => exact fun _ => by simp) (fun _ h => absurd (by simp) h)
  refine ⟨0, _, _, A, by unfold Mtfc.Hjax; rw [hud]; exact hA, ?_⟩
  rw [hc, hnc]
  simp [outColumns, keptColumns]

/-- **C100, Burgers' equation** (E/PDE/Burgers1D.py) with random features, for all constants `c`, `nu > 0`, `alpha ≠ 0`, `xInit < xFinal`, any
numbers of points from 2 on and of features, both backends: the program returns after at most `maxIter` Newton steps as in `C100_newton`, the values
of the returned expression are those of a function that meets the initial condition and both boundary conditions, and its error is bounded
on the whole domain by what the residual is at the collocation points. -/
theorem C100_burgers (lib : LinAlg) (hlib : LinAlgCorrect lib) (method : Method) (hm : method ≠ .other) (p : BurgersPar) (hnu : 0 < p.nu)
    (ha : p.alpha ≠ 0) (hlt : p.xInit < p.xFinal) (n0 n1 : ℕ) (hn0 : 2 ≤ n0)
    (hn1 : 2 ≤ n1) (deg : ℕ) (basis backend : String) (hb : basis = "ELMTanh" ∨ basis = "ELMSin" ∨ basis = "ELMSigmoid" ∨ basis = "ELMSwish")
    (hbe : backend = "C++" ∨ backend = "Python") (w : ℕ → ℕ → ℝ) (b : ℕ → ℝ) (tol : ℝ) (htol : tol < 1) (maxIter : ℕ) (timer : Bool)
    (fuel : ℕ) (hf : maxIter + 2 ≤ fuel) :
    ∃ u xi it, ∃ gs : ℕ → ℝ → ℝ → ℝ,
      mtfcInit [n0, n1] (.int (-1)) deg 2 basis (some [p.xInit, 0]) (some [p.xFinal, 1]) backend w b = .ok u ∧
      solveNLLS2 lib method tol maxIter timer u (burExpr p) (burEq p) fuel = .ok (some (.arr xi, ((it : ℕ) : ℤ))) ∧
      Newton2 u (burExpr p) (burEq p) tol maxIter xi it gs ∧
      (∀ N X Y, exprEval u (burExpr p) xi N X Y = .ok ((List.range N).map fun j => burU p (gs it) (X j) (Y j))) ∧
      ((∀ t, burU p (gs it) p.xInit t = burReal p p.xInit t ∧ burU p (gs it) p.xFinal t = burReal p p.xFinal t) ∧
        ∀ x, burU p (gs it) x 0 = burReal p x 0) ∧
      ∀ ε L1 L2, SmallAt u (burResid p (burU p (gs it))) ε L1 L2 →
        ∀ x ∈ Icc p.xInit p.xFinal, ∀ t ∈ Icc (0 : ℝ) 1, |burU p (gs it) x t - burReal p x t| ≤
          (ε + L1 * ((p.xFinal - p.xInit) * gap n0) + L2 * gap n1) * (t * Real.exp (p.c ^ 2 / (2 * p.nu) * t)) := by
  obtain ⟨u, hu, h1, h2, h3, h4, hne, hv⟩ := build_elm n0 n1 (by omega) (by omega) deg basis backend hb hbe p.xInit 0 p.xFinal 1 w b
  have hd : u.x0 0 = p.xInit ∧ u.x0 1 = 0 ∧ u.xf 0 = p.xFinal ∧ u.xf 1 = 1 := ⟨h1, h2, h3, h4⟩
  have hx := x_lt hd hlt zero_lt_one
  obtain ⟨a, hbn⟩ : ∃ a, BasisName.parse basis = some (.elm a) := by
    rcases hb with rfl | rfl | rfl | rfl
    · exact ⟨.tanh, by decide⟩
    · exact ⟨.sin, by decide⟩
    · exact ⟨.sigmoid, by decide⟩
    · exact ⟨.swish, by decide⟩
  obtain ⟨xi, it, gs, hs, B⟩ := C100_newton lib hlib method hm _ (by simp [hn0, hn1]) _ deg basis backend _ _ w b u hu
    (Or.inr (Or.inr (Or.inr ⟨hne, hv⟩))) (fun k hk => (hx k hk).ne) (elm_column hu hbn fun k hk => (hx k hk).ne) (burExpr p) (burEq p)
    (bur_xs p) (bur_ys p) 2 1 (by norm_num) (bur_orders p) tol htol maxIter timer fuel hf
  refine ⟨u, xi, it, gs, hu, hs, B, full_bur p (gs it) ▸ B.values, C79_burgers p hlt.ne _, fun ε L1 L2 h => ?_⟩
  have := C100_between n0 n1 hn0 hn1 _ deg basis backend _ _ w b u hu hx _
    (fun x _ y _ => smooth_slices (burResid_smooth p (burU_smooth p (B.smooth it))) x y) ε L1 L2 h.1 h.2
  rw [hd.1, hd.2.1, hd.2.2.1, hd.2.2.2, sub_zero, one_mul] at this
  exact C96_burgers_program p hnu ha hlt.ne _ (B.smooth it) this

/-! ## Cases -/

/-- The bounds `ε`, `L1` and `L2` exist for every smooth free function, so the bounds of the errors apply to every run. -/
theorem SmallAt_exists (u : Mtfc) {R : ℝ → ℝ → ℝ} (hR : Smooth2 R) : ∃ ε L1 L2, SmallAt u R ε L1 L2 := by
  have hK : IsCompact (Icc (u.x0 0) (u.xf 0) ×ˢ Icc (u.x0 1) (u.xf 1)) := isCompact_Icc.prod isCompact_Icc
  obtain ⟨L1, h1⟩ := hK.exists_bound_of_continuousOn hR.dx.continuous.continuousOn
  obtain ⟨L2, h2⟩ := hK.exists_bound_of_continuousOn hR.dy.continuous.continuousOn
  refine ⟨((points u).map fun t => |R t.1 t.2|).sum, L1, L2, fun t ht => ?_, fun x hx y hy => ⟨h1 (x, y) ⟨hx, hy⟩, h2 (x, y) ⟨hx, hy⟩⟩⟩
  refine List.single_le_sum ?_ _ (List.mem_map.mpr ⟨t, ht, rfl⟩)
  intro v hv
  obtain ⟨s, -, rfl⟩ := List.mem_map.mp hv
  exact abs_nonneg _

/-- The largest call of D/Chapter_3/Example_3_2_tfc.py: 30 by 30 points, degree 25. -/
example : ∃ lib : LinAlg, LinAlgCorrect lib ∧ ∃ u xi, mtfcInit [30, 30] (.list [.int 2, .int 2]) 25 2 "CP" (some [0, 0]) (some [1, 1]) "C++"
    (fun _ _ => 0) (fun _ => 0) = .ok u ∧ solveDirect2 lib .pinv u poiExpr poiEq = .ok xi ∧ ∃ B : ℝ, ∃ z : ℝ → ℝ → ℝ,
    (∀ N X Y, exprEval u poiExpr xi N X Y = .ok ((List.range N).map fun j => z (X j) (Y j))) ∧
    ∀ x ∈ Icc (0 : ℝ) 1, ∀ y ∈ Icc (0 : ℝ) 1, |z x y - poiReal x y| ≤ B := by
  obtain ⟨lib, hlib⟩ := Verif.Lemmas.LinAlg.linAlg_exists
  obtain ⟨u, hu, hd⟩ := build_poly 30 30 (by omega) (by omega) (.int 2) (.int 2) (by simp) 25 (by simp [count]) "CP" "C++" (Or.inl rfl) (Or.inl rfl)
    0 0 1 1 (fun _ _ => 0) (fun _ => 0)
  obtain ⟨xi, g, hs, B⟩ := C100_direct lib hlib .pinv (by decide) _ _ 25 "CP" "C++" _ _ _ _ u hu (Or.inl rfl) poiExpr poiEq rfl poi_xs poi_ys 2 2
    (by norm_num) poi_orders
  obtain ⟨ε, L1, L2, h⟩ := SmallAt_exists u (poiResid_smooth (poiU_smooth B.smooth))
  exact ⟨lib, hlib, u, xi, hu, hs, _, _, full_poi g ▸ B.values, poisson_error (by omega) (by omega) hu hd B.smooth h⟩

/-- The calls of WaveEquation.py (30 by 30 points, degree 20), BiharmonicCartesianCoordinates.py (20 by 20, degree 26) and
BiharmonicPolarCoordinates.py (30 by 30, degree 30). -/
example : ∃ lib : LinAlg, LinAlgCorrect lib ∧
    (∃ u xi, mtfcInit [30, 30] (.list [.int 2, .int 2]) 20 2 "LeP" (some [0, 0]) (some [1, 1]) "C++" (fun _ _ => 0) (fun _ => 0) = .ok u ∧
      solveLS2 lib .pinv true true u wavExpr wavEq = .ok (.arr xi)) ∧
    (∃ u xi, mtfcInit [20, 20] (.list [.int 4, .int 4]) 26 2 "CP" (some [0, 0]) (some [1, 1]) "C++" (fun _ _ => 0) (fun _ => 0) = .ok u ∧
      solveLS2 lib .pinv true false u bihExpr bihEq = .ok (.arr xi)) ∧
    ∃ u xi, mtfcInit [30, 30] (.list [.int 4, .int 4]) 30 2 "CP" (some [1, 0]) (some [4, 2 * Real.pi]) "C++" (fun _ _ => 0) (fun _ => 0) = .ok u ∧
      solveLS2 lib .pinv true false u polExpr polEq = .ok (.arr xi) := by
  obtain ⟨lib, hlib⟩ := Verif.Lemmas.LinAlg.linAlg_exists
  obtain ⟨u1, x1, -, a1, b1, -⟩ := C100_wave lib hlib .pinv (by decide) 30 30 (by omega) (by omega) 20 (by omega) "LeP" "C++" (Or.inr rfl)
    (Or.inl rfl) (fun _ _ => 0) (fun _ => 0) true true
  obtain ⟨u2, x2, -, a2, b2, -⟩ := C100_biharmonic lib hlib .pinv (by decide) 20 20 (by omega) (by omega) 26 (by omega) "CP" "C++" (Or.inl rfl)
    (Or.inl rfl) (fun _ _ => 0) (fun _ => 0) true false
  obtain ⟨u3, x3, -, a3, b3, -⟩ := C100_polar lib hlib .pinv (by decide) 30 30 (by omega) (by omega) 30 (by omega) "CP" "C++" (Or.inl rfl)
    (Or.inl rfl) (fun _ _ => 0) (fun _ => 0) true false
  exact ⟨lib, hlib, ⟨u1, x1, a1, b1⟩, ⟨u2, x2, a2, b2⟩, u3, x3, a3, b3⟩

/-- The calls of B/Chapter_3/Problem_8.py (40 by 40 points, degree 40) and E/PDE/Burgers1D.py (30 by 30 points, 601 features, all weights 1 here). -/
example : ∃ lib : LinAlg, LinAlgCorrect lib ∧
    (∃ u xi it, mtfcInit [40, 40] (.list [.int 2, .arr [1, 2]]) 40 2 "CP" (some [2, 0]) (some [4, 2 * Real.pi]) "C++" (fun _ _ => 0)
      (fun _ => 0) = .ok u ∧ solveNLLS2 lib .pinv 1e-13 50 true u annExpr annEq 52 = .ok (some (.arr xi, ((it : ℕ) : ℤ)))) ∧
    ∃ u xi it, mtfcInit [30, 30] (.int (-1)) 600 2 "ELMTanh" (some [-3, 0]) (some [3, 1]) "C++" (fun _ _ => 1) (fun _ => 0) = .ok u ∧
      solveNLLS2 lib .lstsq 1e-13 50 true u (burExpr ⟨1, 1 / 2, 1, -3, 3⟩) (burEq ⟨1, 1 / 2, 1, -3, 3⟩) 52 =
        .ok (some (.arr xi, ((it : ℕ) : ℤ))) := by
  obtain ⟨lib, hlib⟩ := Verif.Lemmas.LinAlg.linAlg_exists
  obtain ⟨u1, x1, i1, -, a1, b1, -⟩ := C100_annulus lib hlib .pinv (by decide) 40 40 (by omega) (by omega) 40 (by omega) "CP" "C++" (Or.inl rfl)
    (Or.inl rfl) (fun _ _ => 0) (fun _ => 0) 1e-13 (by norm_num) 50 true 52 (by omega)
  obtain ⟨u2, x2, i2, -, a2, b2, -⟩ := C100_burgers lib hlib .lstsq (by decide) ⟨1, 1 / 2, 1, -3, 3⟩ (by norm_num) (by norm_num) (by norm_num) 30 30
    (by omega) (by omega) 600 "ELMTanh" "C++" (Or.inl rfl) (Or.inl rfl) (fun _ _ => 1) (fun _ => 0) 1e-13 (by norm_num) 50 true 52 (by omega)
  exact ⟨lib, hlib, ⟨u1, x1, i1, a1, b1⟩, u2, x2, i2, a2, b2⟩

end Verif.Props
