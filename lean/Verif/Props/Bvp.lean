import Verif.Lemmas.Bvp
import Verif.Props.Ls
import Verif.Lemmas.Pinv

/-!
# Solving a linear boundary value problem with the package, from the constructor to the solution (C69)
-/

namespace Verif.Props

open Polynomial Verif Verif.Mem Verif.Py Verif.Np Verif.Spec Verif.Model Verif.Model.Py Verif.Model.LSq

theorem ceMats_ok (u : Utfc) (f : PolyFamily) (hcls : u.cls = .poly f) (hx : u.x0 ≠ u.xf) (m : ℕ) (hdeg : u.deg = m + 1)
    (hnC : u.nC = [0, 1]) {φ : ℕ → ℝ[X]} (hφ : ∀ k x, (φ k).eval x = (classical ℝ f k).eval (f.arg u.x0 u.xf x))
    (ti tf : ℝ) (d n : ℕ) (ts : ℕ → ℝ) : ∃ M, ceMats u ti tf d n ts = .ok M ∧ M.H.cols = m ∧
      ∀ yi yf xi, ∀ j < n, ceAt ti tf yi yf d M ts xi j = (derivative^[d] (cePoly ti tf yi yf (freePart φ m xi))).eval (ts j) := by
  obtain ⟨A, hA, -, hc, hv⟩ := npDot_H u f hcls hx m hdeg hnC hφ d n ts
  obtain ⟨A0, hA0, -, -, hv0⟩ := npDot_H u f hcls hx m hdeg hnC hφ 0 n (fun _ => ti)
  obtain ⟨Af, hAf, -, -, hvf⟩ := npDot_H u f hcls hx m hdeg hnC hφ 0 n (fun _ => tf)
  refine ⟨⟨A, A0, Af⟩, ?_, hc, fun yi yf xi j hj => ?_⟩
  · unfold ceMats
    rw [hA, hA0, hAf]
    rfl
  · rw [cePoly_eval]
    unfold ceAt
    rw [hv xi j hj, hv0 xi j hj, hvf xi j hj]
    rfl

/-- **C69, the constrained expression.** For every polynomial class (five families, both backends) on any domain, with the
basis functions 0 and 1 removed, and any two distinct points `ti`, `tf`: the expressions `y(·, xi)` are the polynomials of degree at
most `deg` with the values `yi` at `ti` and `yf` at `tf`. Whatever `xi` is, `y(·, xi)` is such a polynomial (with its
derivatives, at any points), and each such polynomial comes from exactly one vector of coefficients. -/
theorem C69_expression (u : Utfc) (f : PolyFamily) (hcls : u.cls = .poly f) (hx : u.x0 ≠ u.xf) (hdeg : 1 ≤ u.deg)
    (hnC : u.nC = [0, 1]) (ti tf yi yf : ℝ) (ht : ti ≠ tf) :
    (∀ xi : List ℝ, ∃ p, MeetsEnds u.deg ti tf yi yf p ∧ ∀ d n ts,
      yEval u ti tf yi yf d n ts xi = .ok ((List.range n).map fun j => (derivative^[d] p).eval (ts j))) ∧
    ∀ p, MeetsEnds u.deg ti tf yi yf p → ∃! xi : List ℝ, xi.length = u.deg - 1 ∧ ∀ d n ts,
      yEval u ti tf yi yf d n ts xi = .ok ((List.range n).map fun j => (derivative^[d] p).eval (ts j)) := by
  obtain ⟨φ, hφ, hφd⟩ := basis_poly f u.x0 u.xf hx
  obtain ⟨m, hm⟩ : ∃ m, u.deg = m + 1 := ⟨u.deg - 1, by omega⟩
  have hev : ∀ xi d n ts, yEval u ti tf yi yf d n ts xi =
      .ok ((List.range n).map fun j => (derivative^[d] (cePoly ti tf yi yf (freePart φ m xi))).eval (ts j)) := by
    intro xi d n ts
    obtain ⟨M, hM, -, hv⟩ := ceMats_ok u f hcls hx m hm hnC hφ ti tf d n ts
    unfold yEval
    rw [hM]
    refine congrArg Except.ok (List.map_congr_left fun j hj => ?_)
    exact hv yi yf xi j (List.mem_range.mp hj)
  rw [hm]
  refine ⟨fun xi => ⟨_, cePoly_admissible ht (freePart_degree hφd m xi), hev xi⟩, fun p hp => ?_⟩
  obtain ⟨xi, hl, hxi⟩ := admissible_ce hx hφ hφd ht hp
  refine ⟨xi, ⟨by omega, fun d n ts => by rw [hev, hxi]⟩, fun xi' h' => ?_⟩
  obtain ⟨hl', h'⟩ := h'
  have hpoly : cePoly ti tf yi yf (freePart φ m xi') = cePoly ti tf yi yf (freePart φ m xi) := by
    rw [hxi]
    refine Polynomial.funext fun t => ?_
    have h1 := h' 0 1 (fun _ => t)
    rw [hev] at h1
    have h2 := Except.ok.inj h1
    simpa using h2
  have hinj := ce_inj hx hφ hpoly
  refine List.ext_getElem (by omega) fun i h1 h2 => ?_
  have := hinj i (by omega)
  simpa [List.getD, h1, h2] using this

theorem cePoly_sum (φ : ℕ → ℝ[X]) (m : ℕ) (ti tf yi yf : ℝ) (xi : List ℝ) :
    cePoly ti tf yi yf (freePart φ m xi) =
      cePoly ti tf yi yf 0 + ∑ i ∈ Finset.range m, C (xi.getD i 0) * cePoly ti tf 0 0 (φ (i + 2)) := by
  refine Polynomial.funext fun t => ?_
  simp only [cePoly, freePart, eval_add, eval_mul, eval_sub, eval_C, eval_X, eval_finsetSum, eval_zero, mul_add, Finset.sum_add_distrib]
  have h1 : ∀ (c d : ℝ) (g : ℕ → ℝ), ∑ i ∈ Finset.range m, xi.getD i 0 * (c * d * (0 - g i)) =
      -(c * d) * ∑ i ∈ Finset.range m, xi.getD i 0 * g i := by
    intro c d g
    rw [Finset.mul_sum]
    exact Finset.sum_congr rfl fun i _ => by ring
  rw [h1, h1]
  ring

theorem odeDefect_sum (a b f : ℝ → ℝ) (p : ℝ[X]) (m : ℕ) (c : ℕ → ℝ) (q : ℕ → ℝ[X]) (t : ℝ) :
    odeDefect a b f (p + ∑ i ∈ Finset.range m, C (c i) * q i) t =
      (∑ i ∈ Finset.range m, odeDefect a b (fun _ => 0) (q i) t * c i) + odeDefect a b f p t := by
  simp only [odeDefect, derivative_add, derivative_sum, derivative_C_mul, eval_add, eval_finsetSum, eval_mul, eval_C]
  have h : ∀ i, ((derivative (derivative (q i))).eval t + a t * (derivative (q i)).eval t + b t * (q i).eval t - 0) * c i =
      c i * (derivative (derivative (q i))).eval t + a t * (c i * (derivative (q i)).eval t) + b t * (c i * (q i).eval t) :=
    fun i => by ring
  simp only [h, Finset.sum_add_distrib, ← Finset.mul_sum]
  ring

theorem map_range_getD (l : List ℝ) (g : ℝ → ℝ) : (List.range l.length).map (fun j => g (l.getD j 0)) = l.map g := by
  refine List.ext_getElem (by simp) fun i h1 h2 => ?_
  have hi : i < l.length := by simpa using h1
  simp [List.getD, hi]

/-- **C69, the solution.** For a linear equation `y'' + a y' + b y = f` with any functions `a`, `b`, `f`, both methods of `LS`, any
polynomial class with the functions 0 and 1 removed and any collocation points: the program returns without an error a vector of
coefficients for which `y` meets both boundary conditions exactly and is, among all polynomials of degree at most `deg` that meet them, one
with the smallest sum of squares of the defects at the collocation points. The contracts of `np.linalg.pinv` and
`np.linalg.lstsq` are assumed. -/
theorem C69_best (lib : LinAlg) (hlib : LinAlgCorrect lib) (method : Method) (hm : method ≠ .other) (u : Utfc) (f : PolyFamily)
    (hcls : u.cls = .poly f) (hx : u.x0 ≠ u.xf) (hdeg : 1 ≤ u.deg) (hnC : u.nC = [0, 1]) (ti tf yi yf : ℝ) (ht : ti ≠ tf)
    (a b c : ℝ → ℝ) :
    ∃ xi p, solveBvp lib method u ti tf yi yf a b c = .ok (.arr xi) ∧ xi.length = u.deg - 1 ∧ MeetsEnds u.deg ti tf yi yf p ∧
      (∀ d n ts, yEval u ti tf yi yf d n ts xi = .ok ((List.range n).map fun j => (derivative^[d] p).eval (ts j))) ∧
      ∀ q, MeetsEnds u.deg ti tf yi yf q → defectSq a b c p u.x ≤ defectSq a b c q u.x := by
  obtain ⟨φ, hφ, hφd⟩ := basis_poly f u.x0 u.xf hx
  obtain ⟨m, hmd⟩ : ∃ m, u.deg = m + 1 := ⟨u.deg - 1, by omega⟩
  have hM := fun d => ceMats_ok u f hcls hx m hmd hnC hφ ti tf d u.x.length (fun j => u.x.getD j 0)
  obtain ⟨M, hM0, hMc, hMv⟩ := hM 0
  obtain ⟨M1, hM1, -, hM1v⟩ := hM 1
  obtain ⟨M2, hM2, -, hM2v⟩ := hM 2
  obtain ⟨res, hres⟩ : ∃ r, r = bvpResidual ti tf yi yf a b c u.x.length (fun j => u.x.getD j 0) M M1 M2 := ⟨_, rfl⟩
  have hval : ∀ xi, res [.arr xi] = u.x.map (odeDefect a b c (cePoly ti tf yi yf (freePart φ m xi))) := by
    intro xi
    rw [← map_range_getD, hres]
    refine List.map_congr_left fun j hj => ?_
    have hj := List.mem_range.mp hj
    rw [hMv yi yf xi j hj, hM1v yi yf xi j hj, hM2v yi yf xi j hj]
    rfl
  have haff : AffineIn res (.arr (List.replicate m 0)) [] u.x.length
      (fun i j => odeDefect a b (fun _ => 0) (cePoly ti tf 0 0 (φ (j + 2))) (u.x.getD i 0))
      (fun i => odeDefect a b c (cePoly ti tf yi yf 0) (u.x.getD i 0)) := by
    intro v hv
    cases v with
    | dict cls kvs => exact hv.elim
    | arr xi =>
      have hl : m = xi.length := by simpa [SameForm] using hv
      rw [hval, ← map_range_getD]
      refine List.map_congr_left fun j _ => ?_
      rw [cePoly_sum, odeDefect_sum]
      simp only [entries, ← hl]
  obtain ⟨x, hx1, hx2, -⟩ := C35_ls_partial lib hlib method hm none false res (.arr (List.replicate m 0)) [] []
    (by simp [GoodConstants]) trivial trivial u.x.length _ _ haff (Or.inl rfl)
  obtain ⟨hform, hmin⟩ := hx2
  cases x with
  | dict cls kvs => exact hform.elim
  | arr xi =>
    have hl : m = xi.length := by simpa [SameForm] using hform
    refine ⟨xi, cePoly ti tf yi yf (freePart φ m xi), ?_, by omega, ?_, fun d n ts => ?_, fun q hq => ?_⟩
    · unfold solveBvp
      simp only [hM0, hM1, hM2, bind, Except.bind, hMc, ← hres]
      exact hx1
    · rw [hmd]; exact cePoly_admissible ht (freePart_degree hφd m xi)
    · obtain ⟨M, hM, -, hv⟩ := ceMats_ok u f hcls hx m hmd hnC hφ ti tf d n ts
      unfold yEval
      rw [hM]
      exact congrArg Except.ok (List.map_congr_left fun j hj => hv yi yf xi j (List.mem_range.mp hj))
    · rw [hmd] at hq
      obtain ⟨xi', hl', rfl⟩ := admissible_ce hx hφ hφd ht hq
      have := hmin (.arr xi') (by simp [SameForm, hl'])
      rw [hval, hval] at this
      simpa [normSq, defectSq, List.map_map, Function.comp_def] using this

/-- The defect of a polynomial for polynomial coefficients, as a polynomial. -/
theorem defect_zero {a b c p : ℝ[X]} {N : ℕ} {pts : List ℝ} (hpts : pts.Nodup) (hN : N ≤ pts.length)
    (hd : (derivative (derivative p) + a * derivative p + b * p - c).degree < (N : ℕ))
    (h : ∀ t ∈ pts, odeDefect a.eval b.eval c.eval p t = 0) : ∀ t, odeDefect a.eval b.eval c.eval p t = 0 := by
  have hz : derivative (derivative p) + a * derivative p + b * p - c = 0 := by
    refine eq_zero_of_degree_lt_of_eval_finset_eq_zero pts.toFinset ?_ fun t ht => ?_
    · rw [List.toFinset_card_of_nodup hpts]
      exact lt_of_lt_of_le hd (by exact_mod_cast hN)
    · have := h t (List.mem_toFinset.mp ht)
      simpa [odeDefect] using this
  intro t
  have := congrArg (fun q => q.eval t) hz
  simpa [odeDefect] using this

theorem defectSq_zero {a b f : ℝ → ℝ} {p : ℝ[X]} {pts : List ℝ} (h : defectSq a b f p pts ≤ 0) :
    ∀ t ∈ pts, odeDefect a b f p t = 0 := by
  induction pts with
  | nil => simp
  | cons s pts ih =>
    have hnn : ∀ l : List ℝ, 0 ≤ defectSq a b f p l := by
      intro l
      refine List.sum_nonneg fun x hx => ?_
      obtain ⟨t, -, rfl⟩ := List.mem_map.mp hx
      exact sq_nonneg _
    have e : defectSq a b f p (s :: pts) = odeDefect a b f p s ^ 2 + defectSq a b f p pts := by simp [defectSq]
    rw [e] at h
    have h1 := hnn pts
    have h2 := sq_nonneg (odeDefect a b f p s)
    intro t ht
    rcases List.mem_cons.mp ht with rfl | ht
    · exact pow_eq_zero_iff (two_ne_zero) |>.mp (le_antisymm (by linarith) h2)
    · exact ih (by linarith) t ht

/-- **C69, exactness.** Let the coefficients be polynomials, `a` and `b` of degree at most `r`, and let the boundary value
problem have a solution that is a polynomial of degree at most `deg`. With at least `deg + r + 1` distinct collocation
points the returned `y` solves the differential equation at every real `t`, not only at the points; if the boundary value problem
has only one polynomial solution, `y` and its derivatives are the exact ones. -/
theorem C69_exact (lib : LinAlg) (hlib : LinAlgCorrect lib) (method : Method) (hm : method ≠ .other) (u : Utfc) (f : PolyFamily)
    (hcls : u.cls = .poly f) (hx : u.x0 ≠ u.xf) (hdeg : 1 ≤ u.deg) (hnC : u.nC = [0, 1]) (ti tf yi yf : ℝ) (ht : ti ≠ tf)
    (a b c : ℝ[X]) (r : ℕ) (ha : a.natDegree ≤ r) (hb : b.natDegree ≤ r) (hpts : u.x.Nodup) (hN : u.deg + r + 1 ≤ u.x.length)
    (s : ℝ[X]) (hs : MeetsEnds u.deg ti tf yi yf s) (hsol : ∀ t, odeDefect a.eval b.eval c.eval s t = 0) :
    ∃ xi p, solveBvp lib method u ti tf yi yf a.eval b.eval c.eval = .ok (.arr xi) ∧ MeetsEnds u.deg ti tf yi yf p ∧
      (∀ d n ts, yEval u ti tf yi yf d n ts xi = .ok ((List.range n).map fun j => (derivative^[d] p).eval (ts j))) ∧
      (∀ t, odeDefect a.eval b.eval c.eval p t = 0) ∧
      ((∀ q, MeetsEnds u.deg ti tf yi yf q → (∀ t, odeDefect a.eval b.eval c.eval q t = 0) → q = s) → p = s) := by
  obtain ⟨xi, p, h1, -, h2, h3, h4⟩ := C69_best lib hlib method hm u f hcls hx hdeg hnC ti tf yi yf ht a.eval b.eval c.eval
  have hle := h4 s hs
  have hs0 : defectSq a.eval b.eval c.eval s u.x = 0 := by
    unfold defectSq
    refine List.sum_eq_zero fun x hx => ?_
    obtain ⟨t, -, rfl⟩ := List.mem_map.mp hx
    rw [hsol t]
    norm_num
  have hzero := defectSq_zero (hs0 ▸ hle)
  have hode : ∀ t, odeDefect a.eval b.eval c.eval p t = 0 := by
    refine defect_zero (N := u.deg + r + 1) hpts hN ?_ hzero
    have hc : c = derivative (derivative s) + a * derivative s + b * s := by
      refine Polynomial.funext fun t => ?_
      have := hsol t
      simp only [odeDefect] at this
      simp only [eval_add, eval_mul]
      linarith
    have hnat : ∀ {q : ℝ[X]}, q.degree < (u.deg + 1 : ℕ) → q.natDegree ≤ u.deg := by
      intro q hq
      by_cases h0 : q = 0
      · simp [h0]
      · rw [degree_eq_natDegree h0] at hq
        have : q.natDegree < u.deg + 1 := by exact_mod_cast hq
        omega
    have hL : ∀ {q : ℝ[X]}, q.degree < (u.deg + 1 : ℕ) →
        (derivative (derivative q) + a * derivative q + b * q).degree < (u.deg + r + 1 : ℕ) := by
      intro q hq
      have hq := hnat hq
      have hq1 : (derivative q).natDegree ≤ u.deg := (natDegree_derivative_le q).trans (by omega)
      have hq2 : (derivative (derivative q)).natDegree ≤ u.deg := (natDegree_derivative_le _).trans (by omega)
      refine degree_add_lt' (degree_add_lt' ?_ ?_) ?_
      · exact degree_lt_of_natDegree (by omega)
      · exact degree_lt_of_natDegree (lt_of_le_of_lt natDegree_mul_le (by omega))
      · exact degree_lt_of_natDegree (lt_of_le_of_lt natDegree_mul_le (by omega))
    rw [hc]
    exact lt_of_le_of_lt (degree_sub_le _ _) (max_lt (hL h2.degree) (hL hs.degree))
  exact ⟨xi, p, h1, h2, h3, hode, fun h => h p h2 hode⟩

/-- **C69, from the constructor call of the test on**: the object of `utfc(N, 2, deg, x0=x0, xf=xf, basis='CP' or 'LeP')` meets the
hypotheses of `C69_expression`, `C69_best` and (with enough points) `C69_exact`. -/
theorem C69_constructed (N : ℕ) (hN : 2 ≤ N) (deg : ℕ) (hdeg : 2 ≤ deg) (basis backend : String)
    (hb : basis = "CP" ∨ basis = "LeP") (hbe : backend = "C++" ∨ backend = "Python") (x0 xf : ℝ) (hx : x0 < xf) (w b : ℕ → ℝ) :
    ∃ u f, utfcInit N (.int 2) deg basis (some x0) (some xf) backend w b = .ok u ∧ u.cls = .poly f ∧ u.x0 ≠ u.xf ∧
      u.deg = deg ∧ u.nC = [0, 1] ∧ u.x.length = N ∧ u.x.Nodup := by
  have hnc : utfcNC deg (.int 2) = .ok [0, 1] := by
    unfold utfcNC
    simp [arange, bind, Except.bind, List.range_succ]
    omega
  obtain ⟨be, hbe'⟩ : ∃ be, Backend.parse backend = some be := by
    rcases hbe with rfl | rfl <;> exact ⟨_, rfl⟩
  obtain ⟨bn, g, hbn, hg⟩ : ∃ bn g, BasisName.parse basis = some bn ∧ bn.cls w b = .poly g := by
    rcases hb with rfl | rfl
    · exact ⟨.cp, .cp, by decide, rfl⟩
    · exact ⟨.lep, .lep, by decide, rfl⟩
  have hu : ∃ u, utfcInit N (.int 2) deg basis (some x0) (some xf) backend w b = .ok u ∧ u.nC = [0, 1] ∧ u.cls = bn.cls w b := by
    unfold utfcInit
    simp only [hnc, hbe', hbn, bind, Except.bind]
    exact ⟨_, rfl, rfl, rfl⟩
  obtain ⟨u, hu, hn, hc⟩ := hu
  obtain ⟨h1, h2, h3, -, -⟩ := init_fields hu
  obtain ⟨hl, -, hp, -⟩ := C13_points N hN (.int 2) deg basis backend x0 xf hx w b u hu
  exact ⟨u, g, hu, hc.trans hg, by rw [h2, h3]; exact hx.ne, h1, hn, hl, hp.imp fun h => h.ne⟩

/-- Concrete case: `y'' + t y' - 3 y = 6 t` with `y(0) = 0`, `y(1) = 1`, solved by `t³`; degree 4, six points. -/
example : ∃ lib : LinAlg, LinAlgCorrect lib ∧
    ∃ u, utfcInit 6 (.int 2) 4 "LeP" (some 0) (some 1) "C++" (fun _ => 0) (fun _ => 0) = .ok u ∧
    ∃ xi p, solveBvp lib .pinv u 0 1 0 1 (X : ℝ[X]).eval (C (-3) : ℝ[X]).eval (C 6 * X : ℝ[X]).eval = .ok (.arr xi) ∧
      yEval u 0 1 0 1 0 1 (fun _ => 1) xi = .ok [1] ∧
      (∀ t, odeDefect (X : ℝ[X]).eval (C (-3) : ℝ[X]).eval (C 6 * X : ℝ[X]).eval p t = 0) := by
  obtain ⟨lib, hlib⟩ := Verif.Lemmas.LinAlg.linAlg_exists
  obtain ⟨u, f, hu, h1, h2, h3, h4, h5, h6⟩ := C69_constructed 6 (by omega) 4 (by omega) "LeP" "C++" (Or.inr rfl) (Or.inl rfl)
    0 1 one_pos (fun _ => 0) (fun _ => 0)
  obtain ⟨xi, p, e1, e2, e3, e4, -⟩ := C69_exact lib hlib .pinv (by decide) u f h1 h2 (by omega) h4 0 1 0 1 (by norm_num) X (C (-3))
    (C 6 * X) 1 natDegree_X_le (by simp) h6 (by omega) (X ^ 3)
    ⟨by rw [degree_X_pow, h3]; norm_num, by simp, by simp⟩ (fun t => by simp [odeDefect]; ring)
  refine ⟨lib, hlib, u, hu, xi, p, e1, ?_, e4⟩
  rw [e3]
  simp [e2.right]

end Verif.Props
