import Verif.Props.Multi
import Verif.Props.Named
import Verif.Props.Plotly
import Verif.Props.RoundedCheb
import Verif.Props.Pdes
import Verif.Props.Complex
import Verif.Props.LandingUnits
import Verif.Props.Reference
import Verif.Props.OdeSolve

/-! # Concrete cases of theorems stated elsewhere -/

namespace Verif.Props

open Verif.Model.LSq Verif.Model.Dict Verif.Lemmas Verif.Lemmas.LSq

open Verif Verif.Mem Verif.Py Verif.Np Verif.Spec Verif.Model Verif.Model.Py Verif.Model.CC Verif.Model.Rounded Verif.Model.Plotly Verif.Model.Prog

/-- **C22**: two variables, Chebyshev polynomials of degree at most 1 on `[0,4] × [0,10]`, the constant removed: two columns, the mapped
coordinates, in this order. -/
example : ∃ bf, nNew .cp (Buf.ofVec ![0, 0]) 2 (Buf.ofVec ![4, 10]) (Buf.ofMat fun (_ : Fin 2) (_ : Fin 1) => (0 : ℤ)) 2 1 2 = .ok bf ∧
    ∀ (n : ℕ) (xs : ℕ → Fin 2 → ℝ),
      ReturnsMatrix (bf.H (Buf.ofMat fun k (j : Fin n) => xs j k) n (Buf.ofList (List.replicate 2 0)) 2 false) n [![1, 0], ![0, 1]]
        (fun j α => ∏ k, NFamily.cp.cls.basis (![0, 0] k) (![4, 10] k) (α k) (xs j k)) := by
  obtain ⟨bf, L, h1, h2, h3⟩ := C22_columns_cc .cp (dim := 2) (m := 2) (by omega) (by omega) ![0, 0] ![4, 10] (fun (_ : Fin 2) (_ : Fin 1) => (0 : ℤ)) false
  have h4 : L = [![1, 0], ![0, 1]] := (C22_order_unique h2 (multiColumns_order _ _ _)).trans (by decide)
  subst h4
  exact ⟨bf, h1, h3⟩

/-- **C23**, **C24**: the same object, mixed derivative of orders `(1, 0)`, returned by `H` and written into the block of the compiled call. -/
example : ∃ bf, nNew .cp (Buf.ofVec ![0, 0]) 2 (Buf.ofVec ![4, 10]) (Buf.ofMat fun (_ : Fin 2) (_ : Fin 1) => (0 : ℤ)) 2 1 2 = .ok bf ∧
    ∀ (xs : ℕ → Fin 2 → ℝ),
      ReturnsMatrix (bf.H (Buf.ofMat fun k (j : Fin 3) => xs j k) 3 (Buf.ofList [1, 0]) 2 false) 3 [![1, 0], ![0, 1]]
        (fun j α => mixedPartial (fun k : Fin 2 => [1, 0].getD k 0) (NFamily.cp.cls.tensor ![0, 0] ![4, 10] α) (xs j)) ∧
      FillsMatrix (bf.xla (Buf.ofFn 6 fun i => i) (Buf.ofMat fun k (j : Fin 3) => xs j k) (Buf.ofList [1, 0]) 2 false 3 2) 3 [![1, 0], ![0, 1]]
        (fun j α => mixedPartial (fun k : Fin 2 => [1, 0].getD k 0) (NFamily.cp.cls.tensor ![0, 0] ![4, 10] α) (xs j)) := by
  obtain ⟨bf, L, h1, h2, h3⟩ := C23_mixed_partials_cc .cp (dim := 2) (m := 2) (by omega) (by omega) ![0, 0] ![4, 10] (fun (_ : Fin 2) (_ : Fin 1) => (0 : ℤ)) false
  obtain ⟨bf', L', g1, g2, -, g3⟩ := C24_xla_cc .cp (dim := 2) (m := 2) (by omega) (by omega) ![0, 0] ![4, 10] (fun (_ : Fin 2) (_ : Fin 1) => (0 : ℤ)) false
  have h4 : L = [![1, 0], ![0, 1]] := (C22_order_unique h2 (multiColumns_order _ _ _)).trans (by decide)
  have h5 : L' = [![1, 0], ![0, 1]] := (C22_order_unique g2 (multiColumns_order _ _ _)).trans (by decide)
  subst h4
  subst h5
  rw [h1] at g1
  cases g1
  exact ⟨bf, h1, fun xs => ⟨h3 3 xs [1, 0], g3 3 xs [1, 0] _ rfl rfl⟩⟩

/-- **C20**, **C27**: two variables, Fourier functions, the constant removed in each; the second tangent is a symbolic zero. -/
example (w : ℕ → ℕ → ℝ) (b : ℕ → ℝ) : ∃ u : Mtfc,
    mtfcInit [2, 3] (.list [.int 1, .int 1]) 4 2 "FS" (some [0, 0]) (some [1, 2]) "Python" w b = .ok u ∧
    (∃ L : List (Fin 2 → ℕ), ![2, 0] ∈ L ∧ ![0, 0] ∉ L ∧ ReturnsArray (u.Hjax 6 (fun p k => (u.x.getD k []).getD p 0) [1, 1] false) 6 L
      (fun j α => mixedPartial (fun k : Fin 2 => [1, 1].getD k 0) (NFamily.fs.cls.tensor (fun k : Fin 2 => u.x0 k) (fun k => u.xf k) α)
        fun k => (u.x.getD k []).getD j 0)) ∧
    ∃ L : List (Fin 2 → ℕ), GradientRule u 2 6 (fun p k => (u.x.getD k []).getD p 0) (fun k => if k = 0 then .arr fun j => j else .zero) [1, 1] true L
      (fun α => NFamily.fs.cls.tensor (fun k : Fin 2 => u.x0 k) (fun k => u.xf k) α) := by
  obtain ⟨u, hu, -, -⟩ := mtfcInit_succeeds [2, 3] (.list [.int 1, .int 1]) 4 2 (by omega) "FS" "Python" [0, 0] [1, 2] w b
    rfl rfl rfl (by simp) .fs rfl .python rfl (1, [[0], [0]], []) (by decide)
  have hf : u.basis.mcls w b = .tensor .fs := by
    obtain ⟨-, -, -, -, -, hb, -⟩ := mtfcInit_ok hu
    have hb : some BasisName.fs = some u.basis := hb
    rw [← Option.some.inj hb]
    rfl
  refine ⟨u, hu, ?_, ?_⟩
  · obtain ⟨L, -, h1, h2⟩ := C20_columns_partial _ _ (by simp) _ _ (by omega) _ _ _ _ w b u hu .fs hf
    refine ⟨L, (h1 _).mpr ⟨by decide, 0, ?_⟩, fun h => ?_, h2 6 _ [1, 1] (by simp)⟩
    · simp [Asks]
    · obtain ⟨-, k, hk⟩ := (h1 _).mp h
      fin_cases k <;> simp [Asks] at hk
  · obtain ⟨L, -, h2⟩ := C27_tensor _ _ _ _ (by omega) _ _ _ _ w b u hu .fs hf true
    exact ⟨L, h2 6 _ _ [1, 1] rfl⟩

/-- **C57**, one variable: the eighth derivative of the Chebyshev polynomials. -/
example : ∃ u : Utfc, utfcInit 12 (.int 1) 9 "CP" (some 0) (some 3) "Python" (fun _ => 0) (fun _ => 0) = .ok u ∧
    ∃ V, ReturnsArray (u.d8H 12 (fun j => j / 4) true) 12 (outColumns (u.deg + 1) u.nC true) V ∧
      ∀ j k, V j k = iteratedDeriv 8 (u.cls.basis u.x0 u.xf k) (j / 4) := by
  cases h : utfcInit 12 (.int 1) 9 "CP" (some 0) (some 3) "Python" (fun _ => 0) (fun _ => 0) with
  | ok u =>
    have hcls : u.cls = .poly .cp := by
      obtain ⟨-, -, -, h4, h5⟩ := init_fields h
      have h6 : BasisName.parse "CP" = some .cp := by decide
      rw [h6] at h4
      rw [h5, ← Option.some.inj h4]
      rfl
    obtain ⟨V, h1, h2⟩ := C57_utfc_partial u true (Or.inl rfl) 12 (fun j => j / 4) 8 Utfc.d8H (by simp) (fun w b _ hc => by rw [hcls] at hc; cases hc)
    refine ⟨u, rfl, V, h1, fun j k => h2 j k fun _ => ?_⟩
    rw [hcls]
    exact fun w b hc => by cases hc
  | error e =>
    have h1 : utfcNC 9 (.int 1) = .ok [0] := by rfl
    have h2 : Backend.parse "Python" = some .python := by decide
    have h3 : BasisName.parse "CP" = some .cp := by decide
    unfold utfcInit at h
    rw [h1, h2, h3] at h
    cases h

/-- **C66**: one row of three scenes; the camera of the second is moved. -/
example : ∃ fig' : Fig ℕ, view (⟨true, 2, 3, fun _ => ⟨none, some 7, none⟩, fun _ => none⟩ : Fig ℕ) 30 60 (some 1) (some 2) (some 5) = .ok fig' ∧
    fig'.eye 3 = none ∧ ∃ e : ℝ × ℝ × ℝ, fig'.eye 2 = some e ∧ e.1 ^ 2 + e.2.1 ^ 2 + e.2.2 ^ 2 = 5 ^ 2 := by
  obtain ⟨⟨fig', h1, -, h3, e, h4, h5, -⟩, -⟩ := C66_view_partial (⟨true, 2, 3, fun _ => ⟨none, some 7, none⟩, fun _ => none⟩ : Fig ℕ) 1 3 rfl rfl (Or.inl rfl)
    30 60 5 (by norm_num) 0 1 (by omega) (by omega)
  exact ⟨fig', h1, h3 3 (by decide), e, h4, h5⟩

/-- **C79**: free functions for which the constrained expressions of examples 1.30 and of the relative constraints are defined. -/
example : (dy (lines3 fun x y => x * y ^ 3 + y) 2 0 = 0) ∧ ∀ x, relU (fun x y => x ^ 2 * Real.exp y) x 0 = relU (fun x y => x ^ 2 * Real.exp y) x 1 :=
  ⟨(C79_lines3 _ 2 (by fun_prop)).2.1, (C79_relative _ fun x => by fun_prop).2.2.2⟩

/-- **C86**, **C87**: ten thousand Chebyshev polynomials in doubles on `[0,3]`, evaluated at 301 points. -/
example {rnd : ℝ → ℝ} (R : RoundsToNearest 53 rnd) :
    ∃ F, (CP.new ⟨0⟩ ⟨3⟩ [0, 1] 10000 : BasisFunc (Fl rnd)).H (Buf.ofFn 301 fun i => ⟨(i : ℕ) / 100⟩) 301 0 true =
      .ok (301, (outColumns 10000 [0, 1] true).length, F) := by
  obtain ⟨F, h, -⟩ := C87_chebyshev R (by norm_num) (x0 := 0) (xf := 3) (by norm_num) (nC := [0, 1]) (m := 10000) (by norm_num)
    (by unfold unit; norm_num) true (Or.inl rfl) (x := Buf.ofFn 301 fun i => ⟨(i : ℕ) / 100⟩) (n := 301) (xs := fun j => (j : ℝ) / 100)
    (fun j hj => Buf.ofFn_read hj) (fun j hj => ⟨by positivity, by
      have : (j : ℝ) ≤ 300 := by exact_mod_cast Nat.lt_succ_iff.mp hj
      linarith⟩)
  exact ⟨F, h⟩

/-- **C105**: a landing path and its velocity in the units of the program. -/
example (z : ℝ) : landV 2 3 (fun z => landTime (-1) 4 3 z ^ 2 / 2) z = 2 * landTime (-1) 4 3 z / 4 := by
  rw [C105_velocity_partial (X := fun t => t ^ 2) (by fun_prop) (p := 2) (τ := 3) (c := 4) (by norm_num) (by norm_num) (by norm_num) (fun z => by ring) z]
  simp

/-- **C83**: the hypotheses of the uniqueness are met by the function `sin x / x` of the case `k = 1`. -/
example : laneReal 1 0 = 1 ∧ HasDerivAt (laneReal 1) 0 0 ∧ ∀ x, laneResid 1 (laneReal 1) x = 0 := C83_lane 1 (by omega)

/-- **C101**: five points on `[0, 3]`, polynomials of degree at most 3, the equations `y'' + y = sin x` and `y'' + y ^ 3 = sin x`, `y 0 = 1`. -/
example (lib : LinAlg) (hlib : LinAlgCorrect lib) : ∃ u, utfcInit 5 (.int 1) 3 "CP" (some 0) (some 3) "Python" (fun _ => 0) (fun _ => 0) = .ok u ∧
    (∃ xi y, solveLS1 lib .pinv false u [⟨fun _ => 1, 0, 0, 1⟩] (fun x a _ c => c + a - Real.sin x) = .ok (.arr xi) ∧
      Best1 u [⟨fun _ => 1, 0, 0, 1⟩] (fun x a _ c => c + a - Real.sin x) xi y) ∧
    ∃ xi it ys, solveNLLS1 lib .pinv (1 / 1000) 20 false u [⟨fun _ => 1, 0, 0, 1⟩] (fun x a _ c => c + a ^ 3 - Real.sin x) 22 = .ok (some (.arr xi, ((it : ℕ) : ℤ))) ∧
      Newton1 u [⟨fun _ => 1, 0, 0, 1⟩] (fun x a _ c => c + a ^ 3 - Real.sin x) (1 / 1000) 20 xi it ys := by
  have h1 : utfcNC 3 (.int 1) = .ok [0] := by rfl
  have h2 : Backend.parse "Python" = some .python := by decide
  have h3 : BasisName.parse "CP" = some .cp := by decide
  cases h : utfcInit 5 (.int 1) 3 "CP" (some 0) (some 3) "Python" (fun _ => 0) (fun _ => 0) with
  | error e =>
    unfold utfcInit at h
    rw [h1, h2, h3] at h
    cases h
  | ok u =>
    obtain ⟨f1, f2, f3, f4, f5⟩ := init_fields h
    have hcls : u.cls = .poly .cp := by
      rw [h3] at f4
      rw [f5, ← Option.some.inj f4]
      rfl
    have hxl : u.x ≠ [] := fun h0 => by
      have := (C13_points 5 (by omega) _ _ _ _ 0 3 (by norm_num) _ _ u h).1
      simp [h0] at this
    have hnC : u.nC = [0] ∧ u.backend = .python := by
      unfold utfcInit at h
      rw [h1, h2, h3] at h
      cases h
      exact ⟨rfl, rfl⟩
    have hu : Ready u := ⟨by rw [f2, f3]; norm_num, by rw [f1, hnC.1]; constructor <;> simp, fun w b hc => by rw [hcls] at hc; cases hc⟩
    have hcs : SmoothEnds [⟨fun _ => 1, 0, 0, 1⟩] := fun c hc => by
      rw [List.mem_singleton] at hc
      subst hc
      exact ⟨contDiff_const, by decide⟩
    obtain ⟨V, ⟨A, hA, -, hc, -⟩, -⟩ := utfc_Hjax u (d := 0) (by rw [hcls, hnC.2]; exact fun w b hc => by cases hc) false (Or.inr hu.removal) 1 fun _ => 0
    refine ⟨u, rfl, C101_linear lib hlib .pinv (by decide) u hu _ hcs _ ?_ false,
      C101_newton lib hlib .pinv (by decide) u hu hxl ⟨_, _, A, hA, ?_⟩ _ hcs _ ?_ (1 / 1000) (by norm_num) 20 false 22 (by omega)⟩
    · exact ⟨fun _ => 1, fun _ => 0, fun _ => 1, fun x => -Real.sin x, fun x a b c => by ring⟩
    · rw [hc, f1, hnC.1]
      decide
    · intro x
      fun_prop

end Verif.Props
