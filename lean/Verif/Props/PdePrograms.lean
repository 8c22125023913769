import Verif.Props.PdeSolve
import Verif.Props.ResidualWave
import Verif.Props.Polar

/-!
# C100: the programs
-/

namespace Verif.Props

open Set Polynomial Verif Verif.Mem Verif.Py Verif.Np Verif.Spec Verif.Model Verif.Model.Py Verif.Model.LSq Verif.Model.Prog
open scoped ContDiff

/-! ## The expressions are those of C79 -/

theorem full_poi (g : ℝ → ℝ → ℝ) : full poiExpr g = poiU g := by
  have h : full1 poiExpr.xs g = poiU1 g := by
    funext x y
    simp [full1, poiExpr, poiU1]
    ring
  funext x y
  rw [full, h]
  simp [poiExpr, poiU]
  ring

theorem full_wav (g : ℝ → ℝ → ℝ) : full wavExpr g = wavU g := by
  have h : full1 wavExpr.xs g = wavU1 g := by
    funext x y
    simp [full1, wavExpr, wavU1]
    ring
  funext x y
  rw [full, h]
  simp [wavExpr, wavU]
  ring

theorem full_bih (g : ℝ → ℝ → ℝ) : full bihExpr g = bihU g := by
  have h : full1 bihExpr.xs g = bihU1 g := by
    funext x y
    simp [full1, bihExpr, bihU1]
    ring
  funext x y
  rw [full, h]
  simp [bihExpr, bihU]
  ring

theorem full_pol (g : ℝ → ℝ → ℝ) : full polExpr g = polU g := by
  have h : full1 polExpr.xs g = polU1 g := by
    funext x y
    simp [full1, polExpr, polU1]
    ring
  funext x y
  rw [full, h]
  simp [polExpr, polU]
  ring

theorem full_ann (g : ℝ → ℝ → ℝ) : full annExpr g = annU g := by
  have h : full1 annExpr.xs g = annU1 g := by
    funext x y
    simp [full1, annExpr, annU1]
    ring
  funext x y
  rw [full, h]
  simp [annExpr, annU]
  ring

theorem full_bur (p : BurgersPar) (g : ℝ → ℝ → ℝ) : full (burExpr p) g = burU p g := by
  have h : full1 (burExpr p).xs g = burU1 p g := by
    funext x y
    simp [full1, burExpr, burU1]
    ring
  funext x y
  rw [full, h]
  simp [burExpr, burU]
  ring

/-! ## The equations are those of C96 -/

theorem miss_poi (z : ℝ → ℝ → ℝ) : missOf poiEq z = poiResid z := by
  funext x y
  simp [missOf, opVal, poiEq, poiResid]

theorem miss_wav (z : ℝ → ℝ → ℝ) : missOf wavEq z = wavResid z := by
  funext x y
  simp [missOf, opVal, wavEq, wavResid]
  ring

theorem miss_bih {z : ℝ → ℝ → ℝ} (hz : Smooth2 z) : missOf bihEq z = bihResid z := by
  funext x y
  have : dx (dx (dy (dy z))) = dy (dy (dx (dx z))) := mixed_comm hz 2 2
  simp [missOf, opVal, bihEq, bihResid, this]
  ring

theorem miss_bur (p : BurgersPar) (z : ℝ → ℝ → ℝ) : missOf (burEq p) z = burResid p z := by
  funext x y
  simp [missOf, opVal, burEq, burResid]
  ring

/-! ## Smoothness and orders -/

theorem poi_xs : SmoothSides poiExpr.xs := by
  intro c hc
  simp only [poiExpr, List.mem_cons, List.not_mem_nil, or_false] at hc
  rcases hc with rfl | rfl <;> constructor <;> fun_prop

theorem poi_ys : SmoothSides poiExpr.ys := by
  intro c hc
  simp only [poiExpr, List.mem_cons, List.not_mem_nil, or_false] at hc
  rcases hc with rfl | rfl <;> constructor <;> fun_prop

theorem poi_orders : Orders poiExpr poiEq 2 2 := by
  constructor <;> simp [-Prod.forall, poiExpr, poiEq]

theorem wav_xs : SmoothSides wavExpr.xs := by
  intro c hc
  simp only [wavExpr, List.mem_cons, List.not_mem_nil, or_false] at hc
  rcases hc with rfl | rfl <;> constructor <;> fun_prop

theorem wav_ys : SmoothSides wavExpr.ys := by
  intro c hc
  simp only [wavExpr, List.mem_cons, List.not_mem_nil, or_false] at hc
  rcases hc with rfl | rfl <;> constructor <;> fun_prop

theorem wav_orders : Orders wavExpr wavEq 2 2 := by
  constructor <;> simp [-Prod.forall, wavExpr, wavEq]

theorem bih_xs : SmoothSides bihExpr.xs := by
  intro c hc
  simp only [bihExpr, List.mem_cons, List.not_mem_nil, or_false] at hc
  rcases hc with rfl | rfl | rfl | rfl <;> constructor <;> fun_prop

theorem bih_ys : SmoothSides bihExpr.ys := by
  intro c hc
  simp only [bihExpr, List.mem_cons, List.not_mem_nil, or_false] at hc
  rcases hc with rfl | rfl | rfl | rfl <;> constructor <;> fun_prop

theorem bih_orders : Orders bihExpr bihEq 4 4 := by
  constructor <;> simp [-Prod.forall, bihExpr, bihEq]

theorem pol_xs : SmoothSides polExpr.xs := by
  intro c hc
  simp only [polExpr, List.mem_cons, List.not_mem_nil, or_false] at hc
  rcases hc with rfl | rfl | rfl | rfl
  · exact ⟨by fun_prop, polReal_smooth 1⟩
  · exact ⟨by fun_prop, polReal_smooth 4⟩
  · exact ⟨by fun_prop, polReal_rr_smooth one_pos⟩
  · exact ⟨by fun_prop, polReal_rr_smooth (by norm_num : (0 : ℝ) < 4)⟩

theorem pol_ys : SmoothSides polExpr.ys := by
  intro c hc
  simp only [polExpr, List.mem_cons, List.not_mem_nil, or_false] at hc
  rcases hc with rfl | rfl | rfl | rfl <;> constructor <;> fun_prop

theorem pol_orders : Orders polExpr polEq 4 4 := by
  constructor <;> simp [-Prod.forall, polExpr, polEq]

theorem ann_xs : SmoothSides annExpr.xs := by
  intro c hc
  simp only [annExpr, List.mem_cons, List.not_mem_nil, or_false] at hc
  rcases hc with rfl | rfl <;> constructor <;> fun_prop

theorem ann_ys : SmoothSides annExpr.ys := by
  intro c hc
  simp only [annExpr, List.mem_cons, List.not_mem_nil, or_false] at hc
  rcases hc with rfl | rfl <;> constructor <;> fun_prop

theorem ann_orders : Orders annExpr annEq 2 2 := by
  constructor <;> simp [-Prod.forall, annExpr, annEq]

theorem bur_orders (p : BurgersPar) : Orders (burExpr p) (burEq p) 2 1 := by
  constructor <;> simp [-Prod.forall, burExpr, burEq]

/-! ## The weights reproduce polynomials -/

theorem linear_form {p : ℝ[X]} (h : p.natDegree ≤ 1) : ∃ a b : ℝ, p = C a + C b * X := by
  obtain ⟨b, a, rfl⟩ := exists_eq_X_add_C_of_natDegree_le_one h
  exact ⟨a, b, add_comm _ _⟩

theorem cubic_form {p : ℝ[X]} (h : p.natDegree ≤ 3) : ∃ a b c d : ℝ, p = C a + C b * X + C c * X ^ 2 + C d * X ^ 3 := by
  refine ⟨p.coeff 0, p.coeff 1, p.coeff 2, p.coeff 3, ?_⟩
  conv_lhs => rw [p.as_sum_range_C_mul_X_pow' (Nat.lt_succ_of_le h)]
  simp [Finset.sum_range_succ]

theorem poi_reproduces : Reproduces poiExpr.xs 1 := by
  intro p hp x
  obtain ⟨a, b, rfl⟩ := linear_form hp
  simp [poiExpr]
  ring

theorem wav_reproduces : Reproduces wavExpr.xs 1 := by
  intro p hp x
  obtain ⟨a, b, rfl⟩ := linear_form hp
  simp [wavExpr]
  ring

theorem ann_reproduces : Reproduces annExpr.xs 1 := by
  intro p hp x
  obtain ⟨a, b, rfl⟩ := linear_form hp
  simp [annExpr]
  ring

theorem bih_reproduces : Reproduces bihExpr.xs 3 := by
  intro p hp x
  obtain ⟨a, b, c, d, rfl⟩ := cubic_form hp
  simp [bihExpr]
  ring

theorem pol_reproduces : Reproduces polExpr.xs 3 := by
  intro p hp x
  obtain ⟨a, b, c, d, rfl⟩ := cubic_form hp
  simp [polExpr]
  ring

theorem reproduces_mono {cs : List SideCond} {a a' : ℕ} (h : Reproduces cs a) (ha : a' ≤ a) : Reproduces cs a' :=
  fun p hp => h p (hp.trans ha)

/-! ## The objects -/

/-- The objects of the programs with polynomials. -/
theorem build_poly (n0 n1 : ℕ) (hn0 : 1 ≤ n0) (hn1 : 1 ≤ n1) (e0 e1 : NCEntry) (hone : ∀ e ∈ [e0, e1], ∀ v, e ≠ .arr [v]) (deg : ℕ)
    (hc : ∀ e ∈ [e0, e1], count e ≤ deg) (basis backend : String) (hb : basis = "CP" ∨ basis = "LeP")
    (hbe : backend = "C++" ∨ backend = "Python") (a0 a1 b0 b1 : ℝ) (w : ℕ → ℕ → ℝ) (b : ℕ → ℝ) :
    ∃ u, mtfcInit [n0, n1] (.list [e0, e1]) deg 2 basis (some [a0, a1]) (some [b0, b1]) backend w b = .ok u ∧
      u.x0 0 = a0 ∧ u.x0 1 = a1 ∧ u.xf 0 = b0 ∧ u.xf 1 = b1 := by
  obtain ⟨bn, hbn, hbn'⟩ : ∃ bn, BasisName.parse basis = some bn ∧ (bn = .cp ∨ bn = .lep) := by
    rcases hb with rfl | rfl
    · exact ⟨.cp, by decide, Or.inl rfl⟩
    · exact ⟨.lep, by decide, Or.inr rfl⟩
  obtain ⟨be, hbe'⟩ : ∃ be, Backend.parse backend = some be := by
    rcases hbe with rfl | rfl
    · exact ⟨.cpp, by decide⟩
    · exact ⟨.python, by decide⟩
  obtain ⟨r, hr⟩ : ∃ r, mtfcRemoved deg 2 bn (.list [e0, e1]) = .ok r := by
    obtain ⟨c, rows, h, -⟩ := (C20_list_partial deg 2 [e0, e1] hone).1 rfl hc
    rcases hbn' with rfl | rfl <;> exact ⟨_, by simp only [mtfcRemoved, h]; rfl⟩
  obtain ⟨u, hu, h0, h1⟩ := mtfcInit_succeeds [n0, n1] (.list [e0, e1]) deg 2 (by omega) basis backend [a0, a1] [b0, b1] w b rfl rfl rfl
    (by simp [hn0, hn1]) bn hbn be hbe' r hr
  exact ⟨u, hu, by simp [h0, vecOf], by simp [h0, vecOf], by simp [h1, vecOf], by simp [h1, vecOf]⟩

/-- The objects of the programs with random features (`nC=-1`, nothing is removed). -/
theorem build_elm (n0 n1 : ℕ) (hn0 : 1 ≤ n0) (hn1 : 1 ≤ n1) (deg : ℕ) (basis backend : String)
    (hb : basis = "ELMTanh" ∨ basis = "ELMSin" ∨ basis = "ELMSigmoid" ∨ basis = "ELMSwish")
    (hbe : backend = "C++" ∨ backend = "Python") (a0 a1 b0 b1 : ℝ) (w : ℕ → ℕ → ℝ) (b : ℕ → ℝ) :
    ∃ u, mtfcInit [n0, n1] (.int (-1)) deg 2 basis (some [a0, a1]) (some [b0, b1]) backend w b = .ok u ∧
      u.x0 0 = a0 ∧ u.x0 1 = a1 ∧ u.xf 0 = b0 ∧ u.xf 1 = b1 ∧ basis ≠ "ELMReLU" ∧ ValidRemoval (deg + 1) u.nCl := by
  obtain ⟨a, hbn, hne⟩ : ∃ a, BasisName.parse basis = some (.elm a) ∧ basis ≠ "ELMReLU" := by
    rcases hb with rfl | rfl | rfl | rfl
    · exact ⟨.tanh, by decide, by decide⟩
    · exact ⟨.sin, by decide, by decide⟩
    · exact ⟨.sigmoid, by decide, by decide⟩
    · exact ⟨.swish, by decide, by decide⟩
  obtain ⟨be, hbe'⟩ : ∃ be, Backend.parse backend = some be := by
    rcases hbe with rfl | rfl
    · exact ⟨.cpp, by decide⟩
    · exact ⟨.python, by decide⟩
  have hr : mtfcRemoved deg 2 (.elm a) (.int (-1)) = .ok (0, [], []) := rfl
  obtain ⟨u, hu, h0, h1⟩ := mtfcInit_succeeds [n0, n1] (.int (-1)) deg 2 (by omega) basis backend [a0, a1] [b0, b1] w b rfl rfl rfl
    (by simp [hn0, hn1]) (.elm a) hbn be hbe' _ hr
  obtain ⟨-, -, -, -, -, hbn2, -, -, ⟨rows, hrem, -⟩, -⟩ := mtfcInit_ok hu
  rw [hbn] at hbn2
  rw [← Option.some.inj hbn2, hr] at hrem
  have hnc : u.nCl = [] := by
    have := Except.ok.inj hrem
    simp only [Prod.mk.injEq] at this
    exact this.2.2.symm
  exact ⟨u, hu, by simp [h0, vecOf], by simp [h0, vecOf], by simp [h1, vecOf], by simp [h1, vecOf], hne, by simp [hnc, ValidRemoval]⟩

end Verif.Props
