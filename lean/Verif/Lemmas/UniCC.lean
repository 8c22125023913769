import Verif.Model.UniCC
import Verif.Lemmas.PolyFamilies
import Verif.Lemmas.ElmDeriv
import Verif.Spec.Result

/-! # All univariate classes of the compiled backend at once -/

namespace Verif

open Verif.Mem Verif.Model.CC Verif.Spec

theorem returns_of_runs {K ι : Type} {r : Except Fault (ℕ × ℕ × Buf K)} {n : ℕ} {cols : List ι}
    {V : ℕ → ι → K} (h : Runs r (fun r => r.1 = n ∧ r.2.1 = cols.length ∧
      View r.2.2 n cols.length (fun j i => (cols[i]?).map (V j)))) : ReturnsMatrix r n cols V := by
  obtain ⟨⟨a, b, F⟩, hr, h1, h2, h3⟩ := h
  simp only at h1 h2 h3
  subst h1 h2
  refine ⟨F, hr, h3.size, fun j hj i hi => ?_⟩
  rw [h3.cell j hj i hi, List.getElem?_eq_getElem hi]
  rfl

theorem fills_of_runs {K ι : Type} {r : Except Fault (Buf K)} {n : ℕ} {cols : List ι}
    {V : ℕ → ι → K} (h : Runs r (fun r => View r n cols.length (fun j i => (cols[i]?).map (V j)))) :
    FillsMatrix r n cols V := by
  obtain ⟨F, hr, h3⟩ := h
  refine ⟨F, hr, h3.size, fun j hj i hi => ?_⟩
  rw [h3.cell j hj i hi, List.getElem?_eq_getElem hi]
  rfl

theorem ReturnsMatrix.congr {K ι ε : Type} {r : Except ε (ℕ × ℕ × Buf K)} {n : ℕ} {cols : List ι}
    {V V' : ℕ → ι → K} (h : ReturnsMatrix r n cols V) (hV : ∀ j < n, ∀ k ∈ cols, V j k = V' j k) :
    ReturnsMatrix r n cols V' := by
  obtain ⟨F, h1, h2, h3⟩ := h
  exact ⟨F, h1, h2, fun j hj i hi => by rw [h3 j hj i hi, hV j hj _ (List.getElem_mem hi)]⟩

/-- What the `Hint` of a class computes. -/
noncomputable def uniE : UniClass → ℕ → ℝ → ℕ → ℝ
  | .poly f, d, z, k => polyD ℝ f d z k
  | .fs, d, z, k => fsD d z k
  | .elm a w b, d, z, k => elmD a d (w k) (b k) z

/-- The compiled swish class has no code for orders above 8. -/
def UniClass.hasCode : UniClass → ℕ → Prop
  | .elm .swish _ _, d => d ≤ 8
  | _, _ => True

/-- The orders for which the compiled class has a derivative formula. -/
def UniClass.orderOk : UniClass → ℕ → Prop
  | .elm a _ _, d => Verif.orderOk a d
  | _, _ => True

theorem polyHint_spec_new {K : Type} [Field K] [CharZero K] (f : PolyFamily) (x0 xf : K) (nC : List ℤ)
    {m : ℕ} (hm : 1 ≤ m) (d : ℕ) :
    HintSpec (polyNew f x0 xf nC m).hint m d (polyD K f d) := by
  intro n z zs dark M hz hd
  have h := polyHint_spec f (d := d) hm hz hd
  cases f <;> exact h

theorem uni_m (cls : UniClass) (x0 xf : ℝ) (nC : List ℤ) (m : ℕ) : (uniNew cls x0 xf nC m).m = m := by
  rcases cls with f | _ | ⟨a, w, b⟩
  · cases f <;> rfl
  · rfl
  · rfl

theorem uni_nC (cls : UniClass) (x0 xf : ℝ) (nC : List ℤ) (m : ℕ) : (uniNew cls x0 xf nC m).nC = nC := by
  rcases cls with f | _ | ⟨a, w, b⟩
  · cases f <;> rfl
  · rfl
  · rfl

theorem uni_hintSpec (cls : UniClass) (x0 xf : ℝ) (nC : List ℤ) {m : ℕ} (hm : 1 ≤ m) {d : ℕ}
    (hd : UniClass.hasCode cls d) :
    HintSpec (uniNew cls x0 xf nC m).hint m d (uniE cls d) := by
  rcases cls with f | _ | ⟨a, w, b⟩
  · exact polyHint_spec_new f x0 xf nC hm d
  · exact fs_hintSpec hm d
  · refine elm_hintSpec a (fun k hk => Buf.ofFn_read hk) (fun k hk => Buf.ofFn_read hk) d ?_
    rintro rfl
    exact hd

/-- The domain map used by the code is the specified one. -/
theorem uni_arg (cls : UniClass) (x0 xf : ℝ) (nC : List ℤ) (m : ℕ) (x : ℝ) :
    (x - (uniNew cls x0 xf nC m).x0) * (uniNew cls x0 xf nC m).c + (uniNew cls x0 xf nC m).z0 =
      cls.arg x0 xf x := by
  rcases cls with f | _ | ⟨a, w, b⟩
  · cases f <;> simp [uniNew, polyNew, CP.new, LeP.new, LaP.new, HoPpro.new, HoPphy.new, BasisFunc.new,
      UniClass.arg, PolyFamily.arg, toBasis] <;> ring
  · simp [uniNew, FS.new, BasisFunc.new, UniClass.arg, toBasis]; ring
  · simp [uniNew, elmNew, BasisFunc.new, UniClass.arg, toBasis]; ring

/-- The value computed by a class is the derivative of its basis function. -/
theorem uni_iteratedDeriv (cls : UniClass) (x0 xf : ℝ) (nC : List ℤ) (m : ℕ) {d : ℕ}
    (hd : UniClass.orderOk cls d) (k : ℕ) (x : ℝ)
    (hk : d ≠ 0 → ∀ w b, cls = .elm .relu w b → w k * cls.arg x0 xf x + b k ≠ 0) :
    iteratedDeriv d (cls.basis x0 xf k) x =
      uniE cls d (cls.arg x0 xf x) k * (uniNew cls x0 xf nC m).c ^ d := by
  set bf := uniNew cls x0 xf nC m with hbf
  have hfun : cls.basis x0 xf k = fun x => cls.fn k ((x - bf.x0) * bf.c + bf.z0) := by
    ext y
    rw [hbf, uni_arg, UniClass.basis]
  have harg : cls.arg x0 xf x = (x - bf.x0) * bf.c + bf.z0 := by rw [hbf, uni_arg]
  rw [hfun, harg]
  have e : ∀ x, (x - bf.x0) * bf.c + bf.z0 = bf.c * x + (bf.z0 - bf.x0 * bf.c) := fun x => by ring
  rcases cls with f | _ | ⟨a, w, b⟩
  · simp only [UniClass.fn, uniE, polyD, e]
    rw [iteratedDeriv_polynomial]
    ring
  · simp only [UniClass.fn, uniE, e, ← fsD_zero]
    rw [iteratedDeriv_chain (fun i t => fsD i t k) d (fun i _ t => fsD_hasDeriv i k t) _ _ le_rfl]
    ring
  · simp only [UniClass.fn, uniE]
    refine elm_iteratedDeriv a hd _ _ _ _ _ _ ?_
    rintro rfl h0
    have := hk h0 w b rfl
    rwa [harg] at this

theorem uni_H (cls : UniClass) (x0 xf : ℝ) (nC : List ℤ) {m : ℕ} (hm : 1 ≤ m) {d : ℕ}
    (hd : UniClass.hasCode cls d) (full : Bool) (hC : full = true ∨ ValidRemoval m nC) (n : ℕ) (xs : ℕ → ℝ) :
    ReturnsMatrix ((uniNew cls x0 xf nC m).H (Buf.ofFn n xs) n d full) n (outColumns m nC full)
      (fun j k => uniE cls d (cls.arg x0 xf (xs j)) k * (uniNew cls x0 xf nC m).c ^ d) := by
  have h := H_spec (uniNew cls x0 xf nC m) (d := d) (E := uniE cls d)
    (by rw [uni_m]; exact uni_hintSpec cls x0 xf nC hm hd) (x := Buf.ofFn n xs) (n := n) (xs := xs)
    (fun j hj => Buf.ofFn_read hj) full (by rw [uni_m, uni_nC]; exact hC)
  rw [uni_m, uni_nC] at h
  simp only [uni_arg] at h
  exact returns_of_runs h

theorem uni_xla (cls : UniClass) (x0 xf : ℝ) (nC : List ℤ) {m : ℕ} (hm : 1 ≤ m) {d : ℕ}
    (hd : UniClass.hasCode cls d) (full : Bool) (n : ℕ) (xs : ℕ → ℝ) (out : Buf ℝ)
    (hout : out.size = n * (outColumns m nC full).length) :
    FillsMatrix ((uniNew cls x0 xf nC m).xla out (Buf.ofFn n xs) d full n (outColumns m nC full).length)
      n (outColumns m nC full)
      (fun j k => uniE cls d (cls.arg x0 xf (xs j)) k * (uniNew cls x0 xf nC m).c ^ d) := by
  have h := xla_spec (uniNew cls x0 xf nC m) (d := d) (E := uniE cls d)
    (by rw [uni_m]; exact uni_hintSpec cls x0 xf nC hm hd) (x := Buf.ofFn n xs) (n := n) (xs := xs)
    (fun j hj => Buf.ofFn_read hj) full (out := out)
    (M := fun j i => out.cell ((outColumns m nC full).length * j + i))
    (by rw [uni_m, uni_nC]; exact ⟨hout, fun _ _ _ _ => rfl⟩)
  rw [uni_m, uni_nC] at h
  simp only [uni_arg] at h
  exact fills_of_runs h

end Verif
