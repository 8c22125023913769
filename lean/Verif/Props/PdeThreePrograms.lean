import Verif.Props.PdeThree
import Verif.Lemmas.LinAlg

/-!
# C103: the runs of the example programs in three variables
-/

namespace Verif.Props

open Set MeasureTheory Verif Verif.Mem Verif.Py Verif.Np Verif.Spec Verif.Model Verif.Model.Py Verif.Model.LSq Verif.Model.Prog Verif.Lemmas.LSq
open scoped ContDiff

/-- The two kinds of objects the programs make: polynomials with functions removed as in `E`, or random features with nothing removed. -/
def ProgramObject (E : List NCEntry) (least deg : ℕ) (nC : MNCArg) (basis : String) : Prop :=
  (nC = .list E ∧ least ≤ deg ∧ (basis = "CP" ∨ basis = "LeP")) ∨
    (nC = .int (-1) ∧ (basis = "ELMTanh" ∨ basis = "ELMSin" ∨ basis = "ELMSigmoid" ∨ basis = "ELMSwish"))

/-- What is known of such an object with the domain from `a` to `c`. -/
structure MadeN (dim : ℕ) (n : List ℕ) (nC : MNCArg) (deg : ℕ) (basis backend : String) (a c : List ℝ) (w : ℕ → ℕ → ℝ) (b : ℕ → ℝ) (u : Mtfc) :
    Prop where
  made : mtfcInit n nC deg dim basis (some a) (some c) backend w b = .ok u
  lower : u.x0 = vecOf a
  upper : u.xf = vecOf c
  kind : basis = "CP" ∨ basis = "LeP" ∨ basis = "FS" ∨ (basis ≠ "ELMReLU" ∧ ValidRemoval (deg + 1) u.nCl)

theorem programObject_made {dim : ℕ} (hdim : 1 ≤ dim) {n : List ℕ} (hn : ∀ v ∈ n, 1 ≤ v) {E : List NCEntry} (hone : ∀ e ∈ E, ∀ v, e ≠ .arr [v])
    {least : ℕ} (hc : ∀ e ∈ E, count e ≤ (least : ℤ)) {deg : ℕ} {nC : MNCArg} {basis : String} (h : ProgramObject E least deg nC basis) {backend : String}
    (hbe : backend = "C++" ∨ backend = "Python") {a c : List ℝ} (w : ℕ → ℕ → ℝ) (b : ℕ → ℝ) (l1 : n.length = dim) (l2 : E.length = dim)
    (l3 : a.length = dim) (l4 : c.length = dim) : ∃ u, MadeN dim n nC deg basis backend a c w b u := by
  rcases h with ⟨rfl, hd, hb⟩ | ⟨rfl, hb⟩
  · obtain ⟨u, hu, h0, h1⟩ := buildN_poly n hn E hone deg dim hdim (fun e he => (hc e he).trans (by exact_mod_cast hd)) basis backend hb hbe a c w b l1 l2 l3 l4
    exact ⟨u, hu, h0, h1, by tauto⟩
  · obtain ⟨u, hu, h0, h1, h2, h3⟩ := buildN_elm n hn deg dim hdim basis backend hb hbe a c w b l1 l3 l4
    exact ⟨u, hu, h0, h1, Or.inr (Or.inr (Or.inr ⟨h2, h3⟩))⟩

/-! ## The wave equation -/

theorem wav2Resid_smooth {u : ℝ → ℝ → ℝ → ℝ} (hu : Smooth3 u) : ContDiff ℝ ∞ fun P : Fin 3 → ℝ => wav2Resid u (P 0) (P 1) (P 2) := by
  simp only [wav2Resid_eq hu, vec3]
  exact ((pd_smooth (pd_smooth hu 0) 0).add (pd_smooth (pd_smooth hu 1) 1)).sub (contDiff_const.mul (pd_smooth (pd_smooth hu 2) 2))

/-- What the run of a program for the wave equation in two space variables gives, for the returned coefficients `xi` and the function `z` they stand
for. -/
structure Wave2Run (u : Mtfc) (n0 n1 n2 : ℕ) (xi : List ℝ) (z : ℝ → ℝ → ℝ → ℝ) : Prop where
  /-- The returned expression has the values of `z` at any points. -/
  values : ∀ N pts, evalN u wav2Expr xi N pts = .ok ((List.range N).map fun j => z (pts j 0) (pts j 1) (pts j 2))
  sides : (∀ y t, z 0 y t = 0 ∧ z 1 y t = 0) ∧ ∀ x t, z x 0 t = 0 ∧ z x 1 t = 0
  start : (∀ x y, z x y 0 = Real.sin (Real.pi * x) * Real.sin (Real.pi * y)) ∧ ∀ x y, deriv (z x y) 0 = 0
  /-- No other coefficients give a smaller sum of squared residuals at the collocation points. -/
  least : ∀ xi' z', (∀ N pts, evalN u wav2Expr xi' N pts = .ok ((List.range N).map fun j => z' (pts j 0) (pts j 1) (pts j 2))) →
    ((pointsN 3 u).map fun P => wav2Resid z (P 0) (P 1) (P 2) ^ 2).sum ≤ ((pointsN 3 u).map fun P => wav2Resid z' (P 0) (P 1) (P 2) ^ 2).sum
  smooth : Smooth3 z
  /-- The mean square of the error at each time, by the residual at the collocation points. -/
  error : ∀ ε L, SmallAtN 3 u (fun P => wav2Resid z (P 0) (P 1) (P 2)) ε L → ∀ τ, 0 < τ → τ ≤ 1 →
    ∫ x in (0 : ℝ)..1, ∫ y in (0 : ℝ)..1, (z x y τ - wav2Real x y τ) ^ 2 ≤
      Real.exp τ * (τ * (ε + (L 0 * gap n0 + L 1 * gap n1 + L 2 * gap n2)) ^ 2)

theorem sumSq_wav2 (pts : List (Fin 3 → ℝ)) (g : (Fin 3 → ℝ) → ℝ) : sumSqN wav2Eq pts (fun E => missN E fun _ => buildN wav2Expr g) =
    (pts.map fun P => wav2Resid (wav2U (curry3 g)) (P 0) (P 1) (P 2) ^ 2).sum := by
  have : ∀ E ∈ wav2Eq, ∀ P, missN E (fun _ => buildN wav2Expr g) P = wav2Resid (wav2U (curry3 g)) (P 0) (P 1) (P 2) := fun E hE P => by
    rw [miss_wav2 _ P E hE, build_wav2]
  rw [sumSqN_congr this]
  simp [sumSqN, wav2Eq]

theorem wave2_run {n0 n1 n2 : ℕ} (hn0 : 2 ≤ n0) (hn1 : 2 ≤ n1) (hn2 : 2 ≤ n2) {nC : MNCArg} {deg : ℕ} {basis backend : String} {w : ℕ → ℕ → ℝ}
    {b : ℕ → ℝ} {u : Mtfc} (M : MadeN 3 [n0, n1, n2] nC deg basis backend [0, 0, 0] [1, 1, 1] w b u) {xi : List ℝ} {g : (Fin 3 → ℝ) → ℝ}
    (B : BestN 3 u wav2Expr wav2Eq xi g) : Wave2Run u n0 n1 n2 xi (wav2U (curry3 g)) := by
  have hx : ∀ k < 3, u.x0 k < u.xf k := by
    intro k hk
    rw [M.lower, M.upper]
    interval_cases k <;> simp [vecOf]
  obtain ⟨m, φ, G⟩ := goodN_of_init (by norm_num) M.made (M.kind.imp_right (Or.imp_right (Or.imp_right fun h => ⟨h.1, h.2, fun k hk => (hx k hk).ne⟩)))
    wav2_smooth wav2_orders
  have val : ∀ P : Fin 3 → ℝ, buildN wav2Expr g P = wav2U (curry3 g) (P 0) (P 1) (P 2) := fun P => by rw [← build_wav2, curry3_vec]
  have sm : Smooth3 (curry3 g) := curry3_smooth B.smooth
  obtain ⟨c1, c2, c3, c4⟩ := C79_wave2 (curry3 g) fun x y t => (deriv_pd2 (U := g) B.smooth x y t).differentiableAt
  refine ⟨fun N pts => by simpa only [val] using B.values N pts, ⟨c1, c2⟩, ⟨c3, c4⟩, fun xi' z' h => ?_, wav2U_smooth sm, fun ε L h τ h0 h1 => ?_⟩
  · have hz : z' = wav2U (curry3 (combN m φ (coef xi'))) := by
      funext x y t
      have e := (G.eval xi' 1 fun _ => ![x, y, t]).symm.trans (h 1 fun _ => ![x, y, t])
      have e := Except.ok.inj e
      simp only [List.range_one, List.map_cons, List.map_nil, List.cons.injEq, and_true] at e
      rw [← build_wav2]
      exact e.symm
    rw [hz, ← sumSq_wav2, ← sumSq_wav2]
    exact B.least xi' _ (columns_free G.cols xi')
  · refine C96_wave2_program _ sm h0 fun x h1' y h2' t h3' => ?_
    have := C103_between [n0, n1, n2] (by simp [hn0, hn1, hn2]) nC deg 3 (by norm_num) basis backend _ _ w b u M.made hx _
      (wav2Resid_smooth (wav2U_smooth sm)) ε L h ![x, y, t] (by
        intro k
        rw [M.lower, M.upper]
        fin_cases k
        · exact h1'
        · exact h2'
        · exact ⟨h3'.1, h3'.2.trans h1⟩)
    rw [Fin.sum_univ_three, M.lower, M.upper] at this
    simpa [vecOf] using this

/-- **C103, the wave equation in two space variables** (D/Chapter_4/WaveEquation/WaveEquation2D.py), for every number of points from 2 on in each
direction, polynomials of every degree from 2 on with `nC = [2,2,2]` or any number of random features with any weights, both backends, both
ways to call `LS`, with and without timer: the program makes its object, `LS` returns coefficients, and they stand for a function as in `Wave2Run`. -/
theorem C103_wave2 (lib : LinAlg) (hlib : LinAlgCorrect lib) (method : Method) (hm : method ≠ .other) (n0 n1 n2 : ℕ) (hn0 : 2 ≤ n0) (hn1 : 2 ≤ n1)
    (hn2 : 2 ≤ n2) (nC : MNCArg) (deg : ℕ) (basis backend : String) (hb : ProgramObject [.int 2, .int 2, .int 2] 2 deg nC basis)
    (hbe : backend = "C++" ∨ backend = "Python") (w : ℕ → ℕ → ℝ) (b : ℕ → ℝ) (timer constants : Bool) :
    ∃ u xi z, mtfcInit [n0, n1, n2] nC deg 3 basis (some [0, 0, 0]) (some [1, 1, 1]) backend w b = .ok u ∧
      solveLSN lib method timer constants u wav2Expr wav2Eq = .ok (.arr xi) ∧ Wave2Run u n0 n1 n2 xi z := by
  obtain ⟨u, M⟩ := programObject_made (dim := 3) (by norm_num) (n := [n0, n1, n2]) (by simp; omega) (by simp) (by simp [count]) hb hbe
    (a := [0, 0, 0]) (c := [1, 1, 1]) w b rfl rfl rfl rfl
  obtain ⟨xi, g, hs, B⟩ := C103_linear lib hlib method hm _ nC deg 3 (by norm_num) basis backend _ _ w b u M.made
    (M.kind.imp_right (Or.imp_right (Or.imp_right fun h => ⟨h.1, h.2, fun k hk => by
      rw [M.lower, M.upper]
      interval_cases k <;> simp [vecOf]⟩)))
    wav2Expr wav2Eq wav2_smooth wav2_orders (fun E hE => (wav2_uses E hE).1) (fun E hE => (wav2_uses E hE).2) timer constants fun _ => le_rfl
  exact ⟨u, xi, _, M.made, hs, wave2_run hn0 hn1 hn2 M B⟩

/-- **C103, the comparison program** (D/Chapter_4/WaveEquation/WaveEquationComparison2D.py), which calls `jacfwd` and `pinv` or `lstsq` itself: the same. -/
theorem C103_wave2_direct (lib : LinAlg) (hlib : LinAlgCorrect lib) (method : Method) (hm : method ≠ .other) (n0 n1 n2 : ℕ) (hn0 : 2 ≤ n0)
    (hn1 : 2 ≤ n1) (hn2 : 2 ≤ n2) (nC : MNCArg) (deg : ℕ) (basis backend : String) (hb : ProgramObject [.int 2, .int 2, .int 2] 2 deg nC basis)
    (hbe : backend = "C++" ∨ backend = "Python") (w : ℕ → ℕ → ℝ) (b : ℕ → ℝ) :
    ∃ u xi z, mtfcInit [n0, n1, n2] nC deg 3 basis (some [0, 0, 0]) (some [1, 1, 1]) backend w b = .ok u ∧
      solveDirectN lib method u wav2Expr wav2Eq = .ok xi ∧ Wave2Run u n0 n1 n2 xi z := by
  obtain ⟨u, M⟩ := programObject_made (dim := 3) (by norm_num) (n := [n0, n1, n2]) (by simp; omega) (by simp) (by simp [count]) hb hbe
    (a := [0, 0, 0]) (c := [1, 1, 1]) w b rfl rfl rfl rfl
  obtain ⟨xi, g, hs, B⟩ := C103_direct lib hlib method hm _ nC deg 3 (by norm_num) basis backend _ _ w b u M.made
    (M.kind.imp_right (Or.imp_right (Or.imp_right fun h => ⟨h.1, h.2, fun k hk => by
      rw [M.lower, M.upper]
      interval_cases k <;> simp [vecOf]⟩)))
    wav2Expr wav2Eq wav2_smooth wav2_orders (fun E hE => (wav2_uses E hE).1) (fun E hE => (wav2_uses E hE).2)
  exact ⟨u, xi, _, M.made, hs, wave2_run hn0 hn1 hn2 M B⟩

/-- **C103, the numbers of functions in the comparison** (WaveEquationComparison2D.py 75–77): an object with polynomials has at least one function
left if the degree is at least 2, and an object with one feature less than that, as `Solve(int(basisFunc[k]-1),True)` makes it, has the same number of
functions, so the `assert` holds. -/
theorem C103_same_number (n : List ℕ) (deg : ℕ) (hdeg : 2 ≤ deg) (basis backend basis' backend' : String) (hb : basis = "CP" ∨ basis = "LeP")
    (hb' : basis' = "ELMTanh" ∨ basis' = "ELMSin" ∨ basis' = "ELMSigmoid" ∨ basis' = "ELMSwish") (w w' : ℕ → ℕ → ℝ) (b b' : ℕ → ℝ) (u : Mtfc)
    (hu : mtfcInit n (.list [.int 2, .int 2, .int 2]) deg 3 basis (some [0, 0, 0]) (some [1, 1, 1]) backend w b = .ok u) :
    1 ≤ u.obj.numBasis false ∧ ∀ u', mtfcInit n (.int (-1)) (u.obj.numBasis false - 1).toNat 3 basis' (some [0, 0, 0]) (some [1, 1, 1]) backend' w' b' = .ok u' →
      u'.obj.numBasis false = u.obj.numBasis false := by
  have h1 : 1 ≤ u.obj.numBasis false := by
    obtain ⟨N, pts, A, hA, hc⟩ := polyN_column (dim := 3) (by simp) (by norm_num) hb hu ⟨2, hdeg, by simp [Asks]⟩
    obtain ⟨-, -, hud, -, -, hbn, -, -, -, ⟨be, -, hobj⟩, -, -⟩ := mtfcInit_ok hu
    obtain ⟨f, hf⟩ : ∃ f : NFamily, u.basis.mcls w b = .tensor f := by
      rcases hb with rfl | rfl
      · rw [show BasisName.parse "CP" = some .cp by decide] at hbn
        rw [← Option.some.inj hbn]
        exact ⟨.cp, rfl⟩
      · rw [show BasisName.parse "LeP" = some .lep by decide] at hbn
        rw [← Option.some.inj hbn]
        exact ⟨.lep, rfl⟩
    rw [hf] at hobj
    obtain ⟨o, g1, -, g2⟩ := MObj.new_tensor be f (dim := 3) (m := deg + 1) (by norm_num) (by omega) u.x0 u.xf u.numC u.tab u.nCl
    rw [g1] at hobj
    cases hobj
    obtain ⟨L, -, e, hH⟩ := g2 false
    obtain ⟨A', hA', -, hc', -⟩ := hH N (coords pts) (List.ofFn fun _ : Fin 3 => 0) (by simp)
    unfold Mtfc.Hjax at hA
    rw [hud, hA'] at hA
    cases hA
    rw [e, ← hc']
    omega
  refine ⟨h1, fun u' hu' => ?_⟩
  obtain ⟨a, hbn⟩ : ∃ a, BasisName.parse basis' = some (.elm a) := by
    rcases hb' with rfl | rfl | rfl | rfl
    · exact ⟨.tanh, by decide⟩
    · exact ⟨.sin, by decide⟩
    · exact ⟨.sigmoid, by decide⟩
    · exact ⟨.swish, by decide⟩
  obtain ⟨-, -, hud, -, -, hbn2, ⟨x0, hx0, e0⟩, ⟨xf, hxf, e1⟩, ⟨rows, hrem, -⟩, ⟨be, -, hobj⟩, -, -⟩ := mtfcInit_ok hu'
  rw [hbn] at hbn2
  have hbs := Option.some.inj hbn2
  rw [← hbs] at hrem hobj
  have hnc : u'.nCl = [] := by
    have := Except.ok.inj hrem
    simp only [Prod.mk.injEq] at this
    exact this.2.2.symm
  have hobj : MObj.new be (.elm a w' b') 3 u'.x0 u'.xf u'.numC u'.tab u'.nCl ((u.obj.numBasis false - 1).toNat + 1) = .ok u'.obj := hobj
  obtain ⟨o, g1, -, -, g2⟩ := MObj.new_elm be a w' b' 3 ((u.obj.numBasis false - 1).toNat + 1) u'.x0 u'.xf u'.numC u'.tab u'.nCl
  rw [g1] at hobj
  cases hobj
  have hx : ∀ k < 3, u'.x0 k ≠ u'.xf k := by
    have := Except.ok.inj hx0
    have := Except.ok.inj hxf
    subst_vars
    intro k hk
    rw [e0, e1]
    interval_cases k <;> simp [vecOf]
  obtain ⟨g3, -⟩ := g2 false (Or.inr (by simp [hnc, ValidRemoval])) hx
  rw [g3, hnc]
  simp only [outColumns, keptColumns]
  simp
  omega

/-! ## The Navier–Stokes equations -/

/-- **C96, the Navier–Stokes equations.** Every function of the form `nsF` is 0 at the inlet, on both walls and at the start, so where the inlet or a wall
meets the start all derivatives in the residuals are 0 and the second residual is the pressure gradient, whatever the free functions are: no
functions of this form have a residual less than `|P|` there, let alone solve the equations. There is no bound of the error to prove. -/
theorem C96_navier_stokes_fails (Hb xend rho mu P : ℝ) (hH : Hb ≠ 0) (g h : ℝ → ℝ → ℝ → ℝ) :
    (∀ y, nsResid rho mu P (nsF Hb xend g) (nsF Hb xend h) 0 y 0 = (0, P, 0)) ∧
      ∀ x, nsResid rho mu P (nsF Hb xend g) (nsF Hb xend h) x (-Hb / 2) 0 = (0, P, 0) ∧
        nsResid rho mu P (nsF Hb xend g) (nsF Hb xend h) x (Hb / 2) 0 = (0, P, 0) := by
  have f0 : ∀ (g : ℝ → ℝ → ℝ → ℝ) y t, nsF Hb xend g 0 y t = 0 := by
    intro g y t
    unfold nsF nsF2 nsF1
    ring
  have fw : ∀ (g : ℝ → ℝ → ℝ → ℝ) x t, nsF Hb xend g x (-Hb / 2) t = 0 ∧ nsF Hb xend g x (Hb / 2) t = 0 := by
    intro g x t
    unfold nsF nsF2
    constructor
    · generalize nsF1 xend g x (-Hb / 2) t = a
      generalize nsF1 xend g x (Hb / 2) t = b
      generalize nsF1 xend g x (-Hb / 2) 0 = c
      generalize nsF1 xend g x (Hb / 2) 0 = d
      field_simp
      ring
    · generalize nsF1 xend g x (-Hb / 2) t = a
      generalize nsF1 xend g x (Hb / 2) t = b
      generalize nsF1 xend g x (-Hb / 2) 0 = c
      generalize nsF1 xend g x (Hb / 2) 0 = d
      field_simp
      ring
  have ft : ∀ (g : ℝ → ℝ → ℝ → ℝ) x y, nsF Hb xend g x y 0 = 0 := by
    intro g x y
    unfold nsF
    ring
  refine ⟨fun y => ?_, fun x => ⟨?_, ?_⟩⟩
  · simp [nsResid, f0, ft]
  · simp [nsResid, fw, ft]
  · simp [nsResid, fw, ft]

/-- What the run of the program for the Navier–Stokes equations gives, for the returned coefficients and the velocities `v1`, `v2` they stand for; `gs j`
are the free functions after iteration `j`. -/
structure FlowRun (Hb xend rho mu P tol : ℝ) (maxIter : ℕ) (u : Mtfc) (xiu xiv : List ℝ) (it : ℕ)
    (gs : ℕ → ℕ → (Fin 3 → ℝ) → ℝ) (v1 v2 : ℝ → ℝ → ℝ → ℝ) : Prop where
  /-- The returned expressions have the values of `v1` and `v2` at any points. -/
  values : ∀ N pts, evalN u (nsExpr Hb xend) xiu N pts = .ok ((List.range N).map fun j => v1 (pts j 0) (pts j 1) (pts j 2)) ∧
    evalN u (nsExpr Hb xend) xiv N pts = .ok ((List.range N).map fun j => v2 (pts j 0) (pts j 1) (pts j 2))
  inlet : ∀ y t, v1 0 y t = 0 ∧ v2 0 y t = 0
  outlet : ∀ y t, deriv (fun x => v1 x y t) xend = 0 ∧ deriv (fun x => v2 x y t) xend = 0
  walls : ∀ x t, v1 x (-Hb / 2) t = 0 ∧ v1 x (Hb / 2) t = 0 ∧ v2 x (-Hb / 2) t = 0 ∧ v2 x (Hb / 2) t = 0
  start : ∀ x y, v1 x y 0 = 0 ∧ v2 x y 0 = 0
  smooth : Smooth3 v1 ∧ Smooth3 v2
  /-- The residual at the corner, which is a collocation point, is the pressure gradient. -/
  corner : ![0, -Hb / 2, 0] ∈ pointsN 3 u ∧ nsResid rho mu P v1 v2 0 (-Hb / 2) 0 = (0, P, 0)
  count : it ≤ maxIter
  /-- The iteration does not end because the residual is small: it makes all iterations or ends with a step that changes no
  coefficient by more than the tolerance. -/
  stop : tol < |P| → it = maxIter ∨ ∃ j, it = j + 1 ∧ ∃ xiu' xiv' : List ℝ, FreeN u xiu' (gs j 0) ∧ FreeN u xiv' (gs j 1) ∧
    ∀ i, |xiu.getD i 0 - xiu'.getD i 0| ≤ tol ∧ |xiv.getD i 0 - xiv'.getD i 0| ≤ tol

theorem ns_view {m : ℕ} {v : View String} (h : SameForm (zeroN nsNames m) v) :
    ∃ xiu xiv : List ℝ, xiu.length = m ∧ xiv.length = m ∧ v = .dict .plain [("xiu", ⟨[m], xiu⟩), ("xiv", ⟨[m], xiv⟩)] ∧
      unknownsN nsNames v = [xiu, xiv] := by
  cases v with
  | arr l => simp [zeroN, nsNames, SameForm] at h
  | dict cls kvs =>
    simp only [zeroN, nsNames, List.cons_ne_nil, if_false, SameForm, List.map_cons, List.map_nil, List.length_replicate] at h
    obtain ⟨rfl, h⟩ := h
    match kvs, h with
    | [], h => simp at h
    | [_], h => simp at h
    | _ :: _ :: _ :: _, h => simp at h
    | [a, c], h =>
      obtain ⟨k1, s1, d1⟩ := a
      obtain ⟨k2, s2, d2⟩ := c
      simp only [List.map_cons, List.map_nil, List.cons.injEq, Prod.mk.injEq, and_true] at h
      obtain ⟨⟨rfl, rfl, h1⟩, rfl, rfl, h2⟩ := h
      exact ⟨d1, d2, h1.symm, h2.symm, rfl, by simp [unknownsN, nsNames]⟩

/-- **C103, the Navier–Stokes equations** (D/Chapter_3/Navier_Stokes_TFC_and_XTFC.py), for all constants with a channel of positive height and length and a
positive time, every number of points from 2 on in each direction, polynomials of every degree from 2 on with `nC = [2,2,1]` or any number of random
features with any weights, both backends, every tolerance less than 1 and every largest number of iterations: the program makes its object,
`NLLS` returns a TFCDict with the two arrays of coefficients after Newton steps as in `NewtonN`, and they stand for velocities as in `FlowRun`. -/
theorem C103_navier_stokes (lib : LinAlg) (hlib : LinAlgCorrect lib) (method : Method) (hm : method ≠ .other) (Hb xend tf rho mu P : ℝ) (hH : 0 < Hb)
    (hx : 0 < xend) (ht : 0 < tf) (n0 n1 n2 : ℕ) (hn0 : 2 ≤ n0) (hn1 : 2 ≤ n1) (hn2 : 2 ≤ n2) (nC : MNCArg) (deg : ℕ) (basis backend : String)
    (hb : ProgramObject [.int 2, .int 2, .int 1] 2 deg nC basis) (hbe : backend = "C++" ∨ backend = "Python") (w : ℕ → ℕ → ℝ) (b : ℕ → ℝ)
    (tol : ℝ) (htol : tol < 1) (maxIter : ℕ) (timer : Bool) (fuel : ℕ) (hf : maxIter + 2 ≤ fuel) :
    ∃ u m xiu xiv it, ∃ gs : ℕ → ℕ → (Fin 3 → ℝ) → ℝ,
      mtfcInit [n0, n1, n2] nC deg 3 basis (some [0, -Hb / 2, 0]) (some [xend, Hb / 2, tf]) backend w b = .ok u ∧
      solveNLLSN lib method tol maxIter timer nsNames u (nsExpr Hb xend) (nsEq rho mu P) fuel =
        .ok (some (.dict .plain [("xiu", ⟨[m], xiu⟩), ("xiv", ⟨[m], xiv⟩)], ((it : ℕ) : ℤ))) ∧
      NewtonN 3 u (nsExpr Hb xend) (nsEq rho mu P) 2 tol maxIter [xiu, xiv] it gs ∧
      FlowRun Hb xend rho mu P tol maxIter u xiu xiv it gs (nsF Hb xend (curry3 (gs it 0))) (nsF Hb xend (curry3 (gs it 1))) := by
  obtain ⟨u, M⟩ := programObject_made (dim := 3) (by norm_num) (n := [n0, n1, n2]) (by simp; omega) (by simp) (by simp [count]) hb hbe
    (a := [0, -Hb / 2, 0]) (c := [xend, Hb / 2, tf]) w b rfl rfl rfl rfl
  have hn : ∀ v ∈ [n0, n1, n2], 2 ≤ v := by simp [hn0, hn1, hn2]
  have hlt : ∀ k < 3, u.x0 k ≠ u.xf k := by
    intro k hk
    rw [M.lower, M.upper]
    interval_cases k
    · exact hx.ne
    · simp only [vecOf, List.getD_cons_succ, List.getD_cons_zero]
      intro h
      linarith
    · exact ht.ne
  have hc : ∃ N pts A, u.Hjax N (coords (dim := 3) pts) (List.ofFn fun _ : Fin 3 => 0) false = .ok A ∧ A.cols ≠ 0 := by
    rcases hb with ⟨rfl, hd, hb⟩ | ⟨rfl, hb⟩
    · exact polyN_column (by simp) (by norm_num) hb M.made ⟨2, hd, by simp [Asks]⟩
    · exact elmN_column M.made hb hlt
  obtain ⟨m, v, it, gs, hs, hv, B⟩ := C103_newton lib hlib method hm [n0, n1, n2] hn nC deg 3 (by norm_num) basis backend _ _ w b u M.made M.kind hlt hc
    (nsExpr Hb xend) (nsEq rho mu P) (ns_smooth Hb xend) (ns_orders Hb xend rho mu P) (by simp [nsEq]) nsNames (by decide) (ns_uses rho mu P)
    tol htol maxIter timer fuel hf
  obtain ⟨xiu, xiv, l1, l2, rfl, hun⟩ := ns_view hv
  rw [hun] at B
  have B : NewtonN 3 u (nsExpr Hb xend) (nsEq rho mu P) 2 tol maxIter [xiu, xiv] it gs := B
  have val : ∀ (g : (Fin 3 → ℝ) → ℝ) (Q : Fin 3 → ℝ), buildN (nsExpr Hb xend) g Q = nsF Hb xend (curry3 g) (Q 0) (Q 1) (Q 2) := fun g Q => by
    rw [← build_ns, curry3_vec]
  have sm : ∀ q < 2, Smooth3 (nsF Hb xend (curry3 (gs it q))) := fun q hq => by
    rw [← build_ns]
    exact curry3_smooth (buildN_smooth (ns_smooth Hb xend) (B.smooth it q hq))
  have cond : ∀ q < 2, _ := fun q hq => C79_navier_stokes Hb xend hH.ne' (curry3 (gs it q)) fun y t x =>
    (deriv_pd0 (U := gs it q) (B.smooth it q hq) x y t).differentiableAt
  obtain ⟨a1, a2, a3, a4⟩ := cond 0 (by norm_num)
  obtain ⟨b1, b2, b3, b4⟩ := cond 1 (by norm_num)
  have cor := C96_navier_stokes_fails Hb xend rho mu P hH.ne' (curry3 (gs it 0)) (curry3 (gs it 1))
  have mem : ![0, -Hb / 2, 0] ∈ pointsN 3 u := by
    have := corner_point hn (by norm_num) M.made hlt
    rw [M.lower] at this
    convert this using 1
    funext k
    fin_cases k <;> simp [vecOf]
  refine ⟨u, m, xiu, xiv, it, gs, M.made, hs, B, ⟨fun N pts => ⟨?_, ?_⟩, fun y t => ⟨a1 y t, b1 y t⟩, fun y t => ⟨a2 y t, b2 y t⟩,
    fun x t => ⟨(a3 x t).1, (a3 x t).2, b3 x t⟩, fun x y => ⟨a4 x y, b4 x y⟩, ⟨sm 0 (by norm_num), sm 1 (by norm_num)⟩, ⟨mem, cor.1 _⟩, B.count,
    fun hP => ?_⟩⟩
  · have := B.values 0 (by norm_num) N pts
    simp only [val] at this
    exact this
  · have := B.values 1 (by norm_num) N pts
    simp only [val] at this
    exact this
  · rcases B.stop with h | h | ⟨j, hj, xis', h⟩
    · exfalso
      have e := miss_ns rho mu P (fun q => buildN (nsExpr Hb xend) (gs it q)) ![0, -Hb / 2, 0]
      simp only [build_ns] at e
      have c := cor.1 (-Hb / 2)
      simp only [Matrix.cons_val_zero, Matrix.cons_val_one, Matrix.cons_val, c] at e
      have : P ∈ (nsEq rho mu P).map fun E => missN E (fun q => buildN (nsExpr Hb xend) (gs it q)) ![0, -Hb / 2, 0] := by
        rw [e]
        simp
      obtain ⟨E, hE, hEP⟩ := List.mem_map.mp this
      have := h E hE _ mem
      rw [hEP] at this
      linarith
    · exact Or.inl h
    · refine Or.inr ⟨j, hj, xis'.getD 0 [], xis'.getD 1 [], (h 0 (by norm_num)).1, (h 1 (by norm_num)).1, fun i => ⟨?_, ?_⟩⟩
      · exact (h 0 (by norm_num)).2 i
      · exact (h 1 (by norm_num)).2 i

/-! ## Cases -/

/-- The calls of WaveEquation2D.py: 11 points in each direction, 651 features (all weights 1 here) or degree 18. -/
example : ∃ lib : LinAlg, LinAlgCorrect lib ∧
    (∃ u xi, mtfcInit [11, 11, 11] (.int (-1)) 650 3 "ELMTanh" (some [0, 0, 0]) (some [1, 1, 1]) "C++" (fun _ _ => 1) (fun _ => 0) = .ok u ∧
      solveLSN lib .lstsq true true u wav2Expr wav2Eq = .ok (.arr xi)) ∧
    ∃ u xi, ∃ z : ℝ → ℝ → ℝ → ℝ, mtfcInit [11, 11, 11] (.list [.int 2, .int 2, .int 2]) 18 3 "CP" (some [0, 0, 0]) (some [1, 1, 1]) "C++" (fun _ _ => 0) (fun _ => 0) = .ok u ∧
      solveLSN lib .pinv true false u wav2Expr wav2Eq = .ok (.arr xi) ∧
      (∀ N pts, evalN u wav2Expr xi N pts = .ok ((List.range N).map fun j => z (pts j 0) (pts j 1) (pts j 2))) ∧
      ∃ B, ∫ x in (0 : ℝ)..1, ∫ y in (0 : ℝ)..1, (z x y 1 - wav2Real x y 1) ^ 2 ≤ B := by
  obtain ⟨lib, hlib⟩ := Verif.Lemmas.LinAlg.linAlg_exists
  obtain ⟨u1, x1, -, a1, b1, -⟩ := C103_wave2 lib hlib .lstsq (by decide) 11 11 11 (by omega) (by omega) (by omega) (.int (-1)) 650 "ELMTanh" "C++"
    (Or.inr ⟨rfl, Or.inl rfl⟩) (Or.inl rfl) (fun _ _ => 1) (fun _ => 0) true true
  obtain ⟨u2, x2, z, a2, b2, R⟩ := C103_wave2 lib hlib .pinv (by decide) 11 11 11 (by omega) (by omega) (by omega) _ 18 "CP" "C++"
    (Or.inl ⟨rfl, by omega, Or.inl rfl⟩) (Or.inl rfl) (fun _ _ => 0) (fun _ => 0) true false
  obtain ⟨ε, L, h⟩ := smallAtN_exists u2 (wav2Resid_smooth R.smooth)
  exact ⟨lib, hlib, ⟨u1, x1, a1, b1⟩, u2, x2, z, a2, b2, R.values, _, R.error ε L h 1 one_pos le_rfl⟩

/-- The calls of WaveEquationComparison2D.py, degree 3 here. -/
example : ∃ lib : LinAlg, LinAlgCorrect lib ∧ ∃ u xi u' xi', mtfcInit [11, 11, 11] (.list [.int 2, .int 2, .int 2]) 3 3 "CP" (some [0, 0, 0])
      (some [1, 1, 1]) "C++" (fun _ _ => 0) (fun _ => 0) = .ok u ∧ solveDirectN lib .pinv u wav2Expr wav2Eq = .ok xi ∧
    mtfcInit [11, 11, 11] (.int (-1)) (u.obj.numBasis false - 1).toNat 3 "ELMTanh" (some [0, 0, 0]) (some [1, 1, 1]) "C++" (fun _ _ => 1)
      (fun _ => 0) = .ok u' ∧ solveDirectN lib .lstsq u' wav2Expr wav2Eq = .ok xi' ∧ u'.obj.numBasis false = u.obj.numBasis false := by
  obtain ⟨lib, hlib⟩ := Verif.Lemmas.LinAlg.linAlg_exists
  obtain ⟨u, xi, -, a1, b1, -⟩ := C103_wave2_direct lib hlib .pinv (by decide) 11 11 11 (by omega) (by omega) (by omega) _ 3 "CP" "C++"
    (Or.inl ⟨rfl, by omega, Or.inl rfl⟩) (Or.inl rfl) (fun _ _ => 0) (fun _ => 0)
  obtain ⟨u', xi', -, a2, b2, -⟩ := C103_wave2_direct lib hlib .lstsq (by decide) 11 11 11 (by omega) (by omega) (by omega) (.int (-1))
    (u.obj.numBasis false - 1).toNat "ELMTanh" "C++" (Or.inr ⟨rfl, Or.inl rfl⟩) (Or.inl rfl) (fun _ _ => 1) (fun _ => 0)
  exact ⟨lib, hlib, u, xi, u', xi', a1, b1, a2, b2,
    (C103_same_number _ 3 (by omega) "CP" "C++" "ELMTanh" "C++" (Or.inl rfl) (Or.inl rfl) _ _ _ _ u a1).2 u' a2⟩

/-- The call of Navier_Stokes_TFC_and_XTFC.py, with all weights 1: it makes at least one iteration. -/
example : ∃ lib : LinAlg, LinAlgCorrect lib ∧ ∃ u m xiu xiv it, mtfcInit [10, 10, 10] (.int (-1)) 200 3 "ELMTanh" (some [0, -1 / 2, 0])
      (some [15, 1 / 2, 3]) "C++" (fun _ _ => 1) (fun _ => 0) = .ok u ∧
    solveNLLSN lib .lstsq 1e-13 50 true nsNames u (nsExpr 1 15) (nsEq 1 1 (-5)) 52 =
      .ok (some (.dict .plain [("xiu", ⟨[m], xiu⟩), ("xiv", ⟨[m], xiv⟩)], ((it : ℕ) : ℤ))) ∧
    1 ≤ it ∧ it ≤ 50 := by
  obtain ⟨lib, hlib⟩ := Verif.Lemmas.LinAlg.linAlg_exists
  obtain ⟨u, m, xiu, xiv, it, gs, h1, h2, -, R⟩ := C103_navier_stokes lib hlib .lstsq (by decide) 1 15 3 1 1 (-5) (by norm_num) (by norm_num)
    (by norm_num) 10 10 10 (by omega) (by omega) (by omega) (.int (-1)) 200 "ELMTanh" "C++" (Or.inr ⟨rfl, Or.inl rfl⟩) (Or.inl rfl) (fun _ _ => 1)
    (fun _ => 0) 1e-13 (by norm_num) 50 true 52 (by omega)
  refine ⟨lib, hlib, u, m, xiu, xiv, it, h1, h2, ?_, R.count⟩
  rcases R.stop (by norm_num [abs_of_neg]) with h | ⟨j, h, -⟩ <;> omega

end Verif.Props
