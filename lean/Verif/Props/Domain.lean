import Verif.Model.UtfcInit
import Verif.Lemmas.UniCC
import Verif.Lemmas.BasisPy
import Mathlib.Order.Monotone.Basic
import Mathlib.Topology.Order.IntermediateValue

/-! # Property theorems: domain map and collocation points of `utfc` (C12, C13) -/

namespace Verif.Props

open Verif.Mem Verif.Py Verif.Model.Py Verif.Spec

/-! ## C12 -/

/-- The basis domain of the classes with a finite one. -/
def FiniteDomain : UniClass → ℝ → ℝ → Prop
  | .poly .cp, z0, zf => z0 = -1 ∧ zf = 1
  | .poly .lep, z0, zf => z0 = -1 ∧ zf = 1
  | .fs, z0, zf => z0 = -Real.pi ∧ zf = Real.pi
  | .elm _ _ _, z0, zf => z0 = 0 ∧ zf = 1
  | _, _, _ => False

theorem FiniteDomain.lt {cls : UniClass} {z0 zf : ℝ} (h : FiniteDomain cls z0 zf) : z0 < zf := by
  rcases cls with f | _ | ⟨a, w, b⟩
  · cases f <;> obtain ⟨rfl, rfl⟩ := h <;> norm_num
  · obtain ⟨rfl, rfl⟩ := h
    have := Real.pi_pos
    linarith
  · obtain ⟨rfl, rfl⟩ := h; norm_num

theorem FiniteDomain.arg {cls : UniClass} {z0 zf : ℝ} (h : FiniteDomain cls z0 zf) (x0 xf x : ℝ) :
    cls.arg x0 xf x = toBasis x0 xf z0 zf x := by
  rcases cls with f | _ | ⟨a, w, b⟩
  · cases f <;> obtain ⟨rfl, rfl⟩ := h <;> rfl
  · obtain ⟨rfl, rfl⟩ := h; rfl
  · obtain ⟨rfl, rfl⟩ := h; rfl

/-- The map of the problem domain to the basis domain performed by the compiled object on a single point. -/
noncomputable def mapCC (cls : UniClass) (x0 xf : ℝ) (nC : List ℤ) (m : ℕ) (x : ℝ) : Option ℝ :=
  match (Model.CC.uniNew cls x0 xf nC m).mapPoints (Buf.ofFn 1 fun _ => x) 1 with
  | .ok b => b.cell 0
  | .error _ => none

theorem mapCC_eq (cls : UniClass) (x0 xf : ℝ) (nC : List ℤ) (m : ℕ) (x : ℝ) :
    mapCC cls x0 xf nC m x = some (cls.arg x0 xf x) := by
  obtain ⟨z, hz, hzs⟩ := mapPoints_spec (Model.CC.uniNew cls x0 xf nC m) (x := Buf.ofFn 1 fun _ => x) (n := 1)
    (xs := fun _ => x) (fun j hj => Buf.ofFn_read hj)
  unfold mapCC
  rw [hz]
  simp only
  have := hzs 0 (by norm_num)
  rw [← uni_arg cls x0 xf nC m x]
  unfold Buf.read at this
  split_ifs at this
  split at this
  · rename_i v hv
    rw [hv]
    cases this
    rfl
  · cases this

/-- **C12.** For every class with a finite basis domain `[z0, zf]` and every `x0 ≠ xf`: evaluation first sends `x` to
`toBasis x0 xf z0 zf x`; this sends the end points to the end points; the formula `utfc` uses to place the points,
`(z - z0)/c + x0`, is its two-sided inverse; for `x0 < xf` it is strictly increasing and maps `[x0, xf]` onto `[z0, zf]`. -/
theorem C12_domain_map (cls : UniClass) (z0 zf : ℝ) (hz : FiniteDomain cls z0 zf) (x0 xf : ℝ) (hx : x0 ≠ xf)
    (nC : List ℤ) (m : ℕ) :
    let φ := toBasis x0 xf z0 zf
    let ψ := fun z => (z - z0) / (Model.CC.uniNew cls x0 xf nC m).c + x0
    (∀ x, mapCC cls x0 xf nC m x = some (φ x)) ∧
    φ x0 = z0 ∧ φ xf = zf ∧ (∀ x, ψ (φ x) = x) ∧ (∀ z, φ (ψ z) = z) ∧
    (x0 < xf → StrictMono φ ∧ φ '' Set.Icc x0 xf = Set.Icc z0 zf) ∧
    (Model.PyBF.uniInit cls x0 xf nC m).c = (Model.CC.uniNew cls x0 xf nC m).c := by
  intro φ ψ
  have hne : xf - x0 ≠ 0 := sub_ne_zero.mpr (Ne.symm hx)
  have hzlt := hz.lt
  have hzne : zf - z0 ≠ 0 := by linarith [hzlt] |> fun h : 0 < zf - z0 => h.ne'
  have hc : (Model.CC.uniNew cls x0 xf nC m).c = (zf - z0) / (xf - x0) := by
    rcases cls with f | _ | ⟨a, w, b⟩
    · cases f <;> obtain ⟨rfl, rfl⟩ := hz <;> rfl
    · obtain ⟨rfl, rfl⟩ := hz; rfl
    · obtain ⟨rfl, rfl⟩ := hz; rfl
  have hc' : (Model.PyBF.uniInit cls x0 xf nC m).c = (zf - z0) / (xf - x0) := by
    rcases cls with f | _ | ⟨a, w, b⟩
    · cases f <;> obtain ⟨rfl, rfl⟩ := hz <;> rfl
    · obtain ⟨rfl, rfl⟩ := hz; rfl
    · obtain ⟨rfl, rfl⟩ := hz; rfl
  have h1 : φ x0 = z0 := by simp [φ, toBasis]
  have h2 : φ xf = zf := by simp only [φ, toBasis]; rw [mul_div_assoc, div_self hne]; ring
  have h3 : ∀ x, ψ (φ x) = x := by
    intro x
    simp only [φ, ψ, toBasis, hc]
    field_simp
    ring
  have h4 : ∀ z, φ (ψ z) = z := by
    intro z
    simp only [φ, ψ, toBasis, hc]
    field_simp
    ring
  refine ⟨fun x => by rw [mapCC_eq, hz.arg], h1, h2, h3, h4, ?_, by rw [hc, hc']⟩
  intro hlt
  have hpos : 0 < (zf - z0) / (xf - x0) := div_pos (by linarith) (by linarith)
  have hmono : StrictMono φ := by
    intro a b hab
    simp only [φ, toBasis]
    have e : ∀ t, (zf - z0) * (t - x0) / (xf - x0) = (zf - z0) / (xf - x0) * (t - x0) := fun t => by ring
    rw [e, e]
    have := mul_lt_mul_of_pos_left (show a - x0 < b - x0 by linarith) hpos
    linarith
  refine ⟨hmono, ?_⟩
  ext z
  constructor
  · rintro ⟨x, ⟨hx1, hx2⟩, rfl⟩
    exact ⟨h1 ▸ hmono.monotone hx1, h2 ▸ hmono.monotone hx2⟩
  · rintro ⟨hz1, hz2⟩
    refine ⟨ψ z, ⟨?_, ?_⟩, h4 z⟩
    · rw [← hmono.le_iff_le, h1, h4]; exact hz1
    · rw [← hmono.le_iff_le, h2, h4]; exact hz2

example : FiniteDomain .fs (-Real.pi) Real.pi ∧ (3 : ℝ) ≠ 5 := ⟨⟨rfl, rfl⟩, by norm_num⟩

/-! ## C13 -/

theorem linspace_getElem {a b : ℝ} {num : ℕ} {i : ℕ} (hi : i < (linspace a b num).length) :
    (linspace a b num)[i] = a + (i : ℝ) * ((b - a) / ((num : ℝ) - 1)) := by
  simp [linspace]

/-- Values of the basis-domain points. -/
noncomputable def zPoint (basis : BasisName) (N i : ℕ) : ℝ :=
  match basis with
  | .cp | .lep => Real.cos (Real.pi * (((N - 1 : ℕ) : ℝ) - i) / ((N - 1 : ℕ) : ℝ))
  | b => b.zRange.1 + (i : ℝ) * ((b.zRange.2 - b.zRange.1) / ((N : ℝ) - 1))

theorem utfcPoints_z (basis : BasisName) {N : ℕ} (hN : 2 ≤ N) (c x0 : ℝ) :
    (utfcPoints basis N basis.zRange.1 basis.zRange.2 c x0).1 = (List.range N).map (zPoint basis N) ∧
    (utfcPoints basis N basis.zRange.1 basis.zRange.2 c x0).2 =
      (List.range N).map (fun i => (zPoint basis N i - basis.zRange.1) / c + x0) := by
  have hn : (((N - 1 : ℕ) : ℝ)) ≠ 0 := by
    have : N - 1 ≠ 0 := by omega
    exact_mod_cast this
  have key : ∀ i : ℕ, (0 : ℝ) * x0 + (i : ℝ) * ((((N - 1 : ℕ) : ℝ) - 0 * x0) / (((N - 1 + 1 : ℕ) : ℝ) - 1)) = i := by
    intro i
    push_cast
    rw [zero_mul, sub_zero, add_sub_cancel_right, div_self hn]
    ring
  have hN1 : N - 1 + 1 = N := by omega
  cases basis with
  | cp =>
    simp only [utfcPoints, linspace, List.map_map, Function.comp_def, key, zPoint]
    rw [hN1]
    exact ⟨rfl, rfl⟩
  | lep =>
    simp only [utfcPoints, linspace, List.map_map, Function.comp_def, key, zPoint]
    rw [hN1]
    exact ⟨rfl, rfl⟩
  | fs => exact ⟨rfl, by simp only [utfcPoints, linspace, List.map_map, Function.comp_def, zPoint]⟩
  | elm a => exact ⟨rfl, by simp only [utfcPoints, linspace, List.map_map, Function.comp_def, zPoint]⟩

theorem zRange_lt (basis : BasisName) : basis.zRange.1 < basis.zRange.2 := by
  have := Real.pi_pos
  cases basis <;> simp only [BasisName.zRange] <;> linarith

theorem zPoint_first (basis : BasisName) {N : ℕ} (hN : 2 ≤ N) : zPoint basis N 0 = basis.zRange.1 := by
  have hn : (((N - 1 : ℕ) : ℝ)) ≠ 0 := by
    have : N - 1 ≠ 0 := by omega
    exact_mod_cast this
  cases basis <;> simp [zPoint, BasisName.zRange, hn]

theorem zPoint_last (basis : BasisName) {N : ℕ} (hN : 2 ≤ N) : zPoint basis N (N - 1) = basis.zRange.2 := by
  have hn : ((N : ℝ) - 1) ≠ 0 := by
    have : (2 : ℝ) ≤ N := by exact_mod_cast hN
    linarith
  have hc : ((N - 1 : ℕ) : ℝ) = (N : ℝ) - 1 := by rw [Nat.cast_sub (by omega)]; simp
  cases basis with
  | cp => simp [zPoint, BasisName.zRange]
  | lep => simp [zPoint, BasisName.zRange]
  | fs => simp only [zPoint, hc]; field_simp; ring
  | elm a => simp only [zPoint, hc]; field_simp; ring

theorem zPoint_lt (basis : BasisName) {N i j : ℕ} (hij : i < j) (hj : j < N) :
    zPoint basis N i < zPoint basis N j := by
  have hlt := zRange_lt basis
  have hn : (0 : ℝ) < ((N : ℝ) - 1) := by
    have : (2 : ℝ) ≤ N := by exact_mod_cast (by omega : 2 ≤ N)
    linarith
  have hijR : (i : ℝ) < j := by exact_mod_cast hij
  have cosCase : Real.cos (Real.pi * (((N - 1 : ℕ) : ℝ) - i) / ((N - 1 : ℕ) : ℝ)) <
      Real.cos (Real.pi * (((N - 1 : ℕ) : ℝ) - j) / ((N - 1 : ℕ) : ℝ)) := by
    have hn' : (0 : ℝ) < ((N - 1 : ℕ) : ℝ) := by exact_mod_cast (by omega : 0 < N - 1)
    have hjn : (j : ℝ) ≤ ((N - 1 : ℕ) : ℝ) := by exact_mod_cast (by omega : j ≤ N - 1)
    have hi0 : (0 : ℝ) ≤ i := Nat.cast_nonneg i
    refine Real.cos_lt_cos_of_nonneg_of_le_pi ?_ ?_ ?_
    · exact div_nonneg (mul_nonneg Real.pi_pos.le (by linarith)) hn'.le
    · rw [div_le_iff₀ hn']
      exact mul_le_mul_of_nonneg_left (by linarith) Real.pi_pos.le
    · refine div_lt_div_of_pos_right ?_ hn'
      exact mul_lt_mul_of_pos_left (by linarith) Real.pi_pos
  have linCase : ∀ a b : ℝ, a < b → a + (i : ℝ) * ((b - a) / ((N : ℝ) - 1)) < a + (j : ℝ) * ((b - a) / ((N : ℝ) - 1)) := by
    intro a b hab
    have : 0 < (b - a) / ((N : ℝ) - 1) := div_pos (by linarith) hn
    have := mul_lt_mul_of_pos_right hijR this
    linarith
  cases basis with
  | cp => exact cosCase
  | lep => exact cosCase
  | fs => exact linCase _ _ hlt
  | elm a => exact linCase _ _ hlt

/-- **C13.** Whenever `utfc(N, nC, deg, basis, x0, xf, backend)` succeeds with `N ≥ 2` and `x0 < xf`: there are `N`
collocation points, strictly increasing, the first is `x0`, the last is `xf` (so all lie in `[x0, xf]`), and the domain map
of the basis class sends `x_i` to `z_i`. -/
theorem C13_points (N : ℕ) (hN : 2 ≤ N) (nC : NCArg) (deg : ℕ) (basis backend : String) (x0 xf : ℝ) (hx : x0 < xf)
    (w b : ℕ → ℝ) (u : Utfc) (hu : utfcInit N nC deg basis (some x0) (some xf) backend w b = .ok u) :
    u.x.length = N ∧ u.z.length = N ∧ u.x.Pairwise (· < ·) ∧ u.x.head? = some x0 ∧ u.x.getLast? = some xf ∧
    (∀ p ∈ u.x, x0 ≤ p ∧ p ≤ xf) ∧ u.x.map (u.cls.arg x0 xf) = u.z := by
  unfold utfcInit at hu
  cases hnc : utfcNC deg nC with
  | error e => rw [hnc] at hu; cases hu
  | ok l =>
    rw [hnc] at hu
    simp only [bind, Except.bind, Option.getD_some] at hu
    cases hbe : Backend.parse backend with
    | none => rw [hbe] at hu; cases hu
    | some be =>
      cases hbn : BasisName.parse basis with
      | none => rw [hbe, hbn] at hu; cases hu
      | some bn =>
        rw [hbe, hbn] at hu
        simp only at hu
        have hfd : FiniteDomain (bn.cls w b) bn.zRange.1 bn.zRange.2 := by
          cases bn <;> exact ⟨rfl, rfl⟩
        obtain ⟨_, hφ0, hφf, hψφ, hφψ, hmono, hcc⟩ := C12_domain_map _ _ _ hfd x0 xf hx.ne l (deg + 1)
        obtain ⟨hmono, himg⟩ := hmono hx
        have hc : be.c (bn.cls w b) x0 xf l (deg + 1) =
            (Model.CC.uniNew (bn.cls w b) x0 xf l (deg + 1)).c := by
          cases be
          · rfl
          · exact hcc
        rw [hc] at hu
        cases hu
        obtain ⟨hz, hxs⟩ := utfcPoints_z bn hN (Model.CC.uniNew (bn.cls w b) x0 xf l (deg + 1)).c x0
        simp only [hz, hxs]
        set c := (Model.CC.uniNew (bn.cls w b) x0 xf l (deg + 1)).c with hcdef
        have hp : ∀ i, toBasis x0 xf bn.zRange.1 bn.zRange.2 ((zPoint bn N i - bn.zRange.1) / c + x0) = zPoint bn N i :=
          fun i => hφψ (zPoint bn N i)
        have hfirst : (zPoint bn N 0 - bn.zRange.1) / c + x0 = x0 := by
          rw [zPoint_first bn hN]; simp
        have hlast : (zPoint bn N (N - 1) - bn.zRange.1) / c + x0 = xf := by
          rw [zPoint_last bn hN, ← hφf]
          exact hψφ xf
        have hsorted : ((List.range N).map (fun i => (zPoint bn N i - bn.zRange.1) / c + x0)).Pairwise (· < ·) := by
          rw [List.pairwise_map]
          refine List.Pairwise.imp_of_mem ?_ List.pairwise_lt_range
          intro i j _ hj hij
          rw [← hmono.lt_iff_lt, hp, hp]
          exact zPoint_lt bn hij (List.mem_range.mp hj)
        refine ⟨by simp, by simp, hsorted, ?_, ?_, ?_, ?_⟩
        · obtain ⟨M, rfl⟩ : ∃ M, N = M + 1 := ⟨N - 1, by omega⟩
          rw [List.range_succ_eq_map]
          simpa using hfirst
        · obtain ⟨M, rfl⟩ : ∃ M, N = M + 1 := ⟨N - 1, by omega⟩
          rw [List.range_succ]
          simpa using hlast
        · intro p hp'
          obtain ⟨i, hi, rfl⟩ := List.mem_map.mp hp'
          have hi' := List.mem_range.mp hi
          constructor
          · rw [← hmono.le_iff_le, hp, hφ0, ← zPoint_first bn hN]
            rcases Nat.eq_zero_or_pos i with rfl | h
            · exact le_rfl
            · exact (zPoint_lt bn h hi').le
          · rw [← hmono.le_iff_le, hp, hφf, ← zPoint_last bn hN]
            rcases Nat.lt_or_ge i (N - 1) with h | h
            · exact (zPoint_lt bn h (by omega)).le
            · rw [show i = N - 1 by omega]
        · rw [List.map_map]
          refine List.map_congr_left fun i _ => ?_
          simp only [Function.comp_apply]
          rw [hfd.arg, hp]

/-- Concrete case: `utfc(10, 2, 5, basis="LeP", x0=0., xf=3.)` succeeds. -/
example (w b : ℕ → ℝ) : ∃ u, utfcInit 10 (.int 2) 5 "LeP" (some 0) (some 3) "C++" w b = .ok u :=
  ⟨_, rfl⟩

end Verif.Props
