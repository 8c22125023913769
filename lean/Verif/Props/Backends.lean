import Verif.Props.RoundedLeg
import Verif.Lemmas.UniCC
import Verif.Lemmas.BasisPy

/-!
# C89: the two backends carry out the same floating point operations

The models of the polynomial classes of both backends are run over an arbitrary number type, about which nothing is assumed but that it has the
operations (and that `2 * 1` is `2`): no law of arithmetic can be used, so equal results mean equal operations in equal order.
-/

namespace Verif.Props

open Verif Verif.Mem Verif.Py Verif.Np Verif.Spec Verif.Model.Rounded

section
variable {K : Type} [Zero K] [One K] [Add K] [Sub K] [Mul K] [Div K] [Neg K] [NatCast K]

/-- The numbers a polynomial class computes. -/
def opTable : PolyFamily → ℕ → K → ℕ → K
  | .cp => recTable (fun z => z) 1 (fun _ z f1 f2 => 2 * z * f1 - f2) (fun d _ z e f1 f2 => (2 + 2 * (d : K)) * e + 2 * z * f1 - f2)
  | .lep => recTable (fun z => z) 1 (fun k z f1 f2 => ((2 * (k : K) + 1) * z * f1 - (k : K) * f2) / ((k : K) + 1))
      (fun d k z e f1 f2 => ((2 * (k : K) + 1) * (((d : K) + 1) * e + z * f1) - (k : K) * f2) / ((k : K) + 1))
  | .lap => recTable (fun z => 1 - z) (-1) (fun k z f1 f2 => ((2 * (k : K) + 1 - z) * f1 - (k : K) * f2) / ((k : K) + 1))
      (fun d k z e f1 f2 => ((2 * (k : K) + 1 - z) * f1 - ((d : K) + 1) * e - (k : K) * f2) / ((k : K) + 1))
  | .hopPro => recTable (fun z => z) 1 (fun k z f1 f2 => z * f1 - (k : K) * f2) (fun d k z e f1 f2 => ((d : K) + 1) * e + z * f1 - (k : K) * f2)
  | .hopPhy => recTable (fun z => 2 * z) 2 (fun k z f1 f2 => 2 * z * f1 - 2 * (k : K) * f2)
      (fun d k z e f1 f2 => 2 * ((d : K) + 1) * e + 2 * z * f1 - 2 * (k : K) * f2)

variable [Pow K ℕ]

theorem polyNew_m (f : PolyFamily) (x0 xf : K) (nC : List ℤ) (m : ℕ) : (Model.CC.polyNew f x0 xf nC m).m = m := by cases f <;> rfl

theorem polyNew_nC (f : PolyFamily) (x0 xf : K) (nC : List ℤ) (m : ℕ) : (Model.CC.polyNew f x0 xf nC m).nC = nC := by cases f <;> rfl

theorem polyInit_m (f : PolyFamily) (x0 xf : K) (nC : List ℤ) (m : ℕ) : (Model.PyBF.polyInit f x0 xf nC m).m = m := by cases f <;> rfl

theorem polyInit_nC (f : PolyFamily) (x0 xf : K) (nC : List ℤ) (m : ℕ) : (Model.PyBF.polyInit f x0 xf nC m).nC = nC := by cases f <;> rfl

theorem same_x0 (f : PolyFamily) (x0 xf : K) (nC : List ℤ) (m : ℕ) : (Model.PyBF.polyInit f x0 xf nC m).x0 = (Model.CC.polyNew f x0 xf nC m).x0 := by
  cases f <;> rfl

theorem same_z0 (f : PolyFamily) (x0 xf : K) (nC : List ℤ) (m : ℕ) : (Model.PyBF.polyInit f x0 xf nC m).z0 = (Model.CC.polyNew f x0 xf nC m).z0 := by
  cases f <;> rfl

theorem same_c (f : PolyFamily) (x0 xf : K) (nC : List ℤ) (m : ℕ) : (Model.PyBF.polyInit f x0 xf nC m).c = (Model.CC.polyNew f x0 xf nC m).c := by
  cases f <;> rfl

theorem polyNew_hint (f : PolyFamily) (x0 xf : K) (nC : List ℤ) {m : ℕ} (hm : 1 ≤ m) (d : ℕ) :
    HintSpec (Model.CC.polyNew f x0 xf nC m).hint m d (opTable f d) := by
  intro n z zs dark M h1 h2
  cases f with
  | cp =>
    show Runs (Model.CC.CP.hint m d z n dark) _
    rw [cp_hint_eq m d n z dark hm]
    exact skelHint_spec hm h1 (recTable_spec _ _ _ _) h2
  | lep =>
    show Runs (Model.CC.LeP.hint m d z n dark) _
    rw [lep_hint_eq m d n z dark]
    exact skelHint_spec hm h1 (recTable_spec _ _ _ _) h2
  | lap =>
    show Runs (Model.CC.LaP.hint m d z n dark) _
    rw [lap_hint_eq m d n z dark]
    exact skelHint_spec hm h1 (recTable_spec _ _ _ _) h2
  | hopPro =>
    show Runs (Model.CC.HoPpro.hint m d z n dark) _
    rw [hopPro_hint_eq m d n z dark]
    exact skelHint_spec hm h1 (recTable_spec _ _ _ _) h2
  | hopPhy =>
    show Runs (Model.CC.HoPphy.hint m d z n dark) _
    rw [hopPhy_hint_eq m d n z dark]
    exact skelHint_spec hm h1 (recTable_spec _ _ _ _) h2

theorem polyInit_hint (two : (2 * 1 : K) = 2) (f : PolyFamily) (x0 xf : K) (nC : List ℤ) {m : ℕ} (hm : 1 ≤ m) (n d : ℕ) (z : ℕ → K) :
    ∃ B, (Model.PyBF.polyInit f x0 xf nC m).hint m n z d = .ok B ∧ IsArr B n m (fun j c => opTable f d (z j) c) := by
  cases f with
  | cp =>
    show ∃ B, Model.PyBF.CP.hint m n z d = .ok B ∧ _
    rw [cpPy_hint_eq _ _ _ _ hm]
    exact pySkelHint_spec hm (recTable_spec _ _ _ _) z d
  | lep =>
    show ∃ B, Model.PyBF.LeP.hint m n z d = .ok B ∧ _
    rw [lepPy_hint_eq]
    exact pySkelHint_spec hm (recTable_spec _ _ _ _) z d
  | lap =>
    show ∃ B, Model.PyBF.LaP.hint m n z d = .ok B ∧ _
    rw [lapPy_hint_eq]
    exact pySkelHint_spec hm (recTable_spec _ _ _ _) z d
  | hopPro =>
    show ∃ B, Model.PyBF.HoPpro.hint m n z d = .ok B ∧ _
    rw [hopProPy_hint_eq]
    exact pySkelHint_spec hm (recTable_spec _ _ _ _) z d
  | hopPhy =>
    show ∃ B, Model.PyBF.HoPphy.hint m n z d = .ok B ∧ _
    rw [hopPhyPy_hint_eq, two]
    exact pySkelHint_spec hm (recTable_spec _ _ _ _) z d

/-- The entries, in the operations of the number type. -/
theorem same_values [Inhabited K] (two : (2 * 1 : K) = 2) (f : PolyFamily) (x0 xf : K) {nC : List ℤ} {m : ℕ} (hm : 1 ≤ m) (d : ℕ) (full : Bool)
    (hC : full = true ∨ ValidRemoval m nC) (n : ℕ) (xs : ℕ → K) (out : Buf K) (hout : out.size = n * (outColumns m nC full).length) :
    ReturnsMatrix ((Model.CC.polyNew f x0 xf nC m).H (Buf.ofFn n xs) n d full) n (outColumns m nC full)
      (fun j k => opTable f d ((xs j - (Model.CC.polyNew f x0 xf nC m).x0) * (Model.CC.polyNew f x0 xf nC m).c + (Model.CC.polyNew f x0 xf nC m).z0) k *
        (Model.CC.polyNew f x0 xf nC m).c ^ d) ∧
    FillsMatrix ((Model.CC.polyNew f x0 xf nC m).xla out (Buf.ofFn n xs) d full n (outColumns m nC full).length) n (outColumns m nC full)
      (fun j k => opTable f d ((xs j - (Model.CC.polyNew f x0 xf nC m).x0) * (Model.CC.polyNew f x0 xf nC m).c + (Model.CC.polyNew f x0 xf nC m).z0) k *
        (Model.CC.polyNew f x0 xf nC m).c ^ d) ∧
    ReturnsArray ((Model.PyBF.polyInit f x0 xf nC m).H n xs d full) n (outColumns m nC full)
      (fun j k => opTable f d ((xs j - (Model.CC.polyNew f x0 xf nC m).x0) * (Model.CC.polyNew f x0 xf nC m).c + (Model.CC.polyNew f x0 xf nC m).z0) k *
        (Model.CC.polyNew f x0 xf nC m).c ^ d) := by
  refine ⟨?_, ?_, ?_⟩
  rotate_left 2
  · obtain ⟨B, h1, h2⟩ := polyInit_hint two f x0 xf nC hm n d
      (fun j => (xs j - (Model.PyBF.polyInit f x0 xf nC m).x0) * (Model.PyBF.polyInit f x0 xf nC m).c + (Model.PyBF.polyInit f x0 xf nC m).z0)
    have h := pyH_spec (Model.PyBF.polyInit f x0 xf nC m) (n := n) (d := d) (xs := xs) (E := opTable f d) (B := B)
      (by rw [polyInit_m]; exact h1) (by rw [polyInit_m]; exact h2) full (by
        rw [polyInit_m, polyInit_nC]
        exact hC.imp id fun h => h.2)
    rw [polyInit_m, polyInit_nC, same_x0, same_c, same_z0] at h
    exact h
  · have h := H_spec (Model.CC.polyNew f x0 xf nC m) (d := d) (E := opTable f d)
      (by rw [polyNew_m]; exact polyNew_hint f x0 xf nC hm d) (x := Buf.ofFn n xs) (n := n) (xs := xs)
      (fun j hj => Buf.ofFn_read hj) full (by rw [polyNew_m, polyNew_nC]; exact hC)
    rw [polyNew_m, polyNew_nC] at h
    exact returns_of_runs h
  · have h := xla_spec (Model.CC.polyNew f x0 xf nC m) (d := d) (E := opTable f d)
      (by rw [polyNew_m]; exact polyNew_hint f x0 xf nC hm d) (x := Buf.ofFn n xs) (n := n) (xs := xs)
      (fun j hj => Buf.ofFn_read hj) full (out := out)
      (M := fun j i => out.cell ((outColumns m nC full).length * j + i))
      (by rw [polyNew_m, polyNew_nC]; exact ⟨hout, fun _ _ _ _ => rfl⟩)
    rw [polyNew_m, polyNew_nC] at h
    exact fills_of_runs h

/-- **C89**: in any arithmetic in which `2 * 1` is `2`, the eager function of the compiled class, the function it registers for compiled
computations, and the Python class give the same matrix, for every polynomial class, order, interval and removed columns. -/
theorem C89_same [Inhabited K] (two : (2 * 1 : K) = 2) (f : PolyFamily) (x0 xf : K) {nC : List ℤ} {m : ℕ} (hm : 1 ≤ m) (d : ℕ) (full : Bool)
    (hC : full = true ∨ ValidRemoval m nC) (n : ℕ) (xs : ℕ → K) (out : Buf K) (hout : out.size = n * (outColumns m nC full).length) :
    ∃ V : ℕ → ℕ → K,
      ReturnsMatrix ((Model.CC.polyNew f x0 xf nC m).H (Buf.ofFn n xs) n d full) n (outColumns m nC full) V ∧
      FillsMatrix ((Model.CC.polyNew f x0 xf nC m).xla out (Buf.ofFn n xs) d full n (outColumns m nC full).length) n (outColumns m nC full) V ∧
      ReturnsArray ((Model.PyBF.polyInit f x0 xf nC m).H n xs d full) n (outColumns m nC full) V :=
  ⟨_, same_values two f x0 xf hm d full hC n xs out hout⟩

end

section
variable {p : ℕ} {rnd : ℝ → ℝ}

theorem fl_two_one (R : RoundsToNearest p rnd) : (2 * 1 : Fl rnd) = 2 := by
  have h : (2 * 1 : Fl rnd).val = (2 : Fl rnd).val := by
    show rnd ((2 : Fl rnd).val * 1) = _
    rw [fl_two R, mul_one, rnd_float R]
    have := isFloat_zpow p 1
    simpa using this
  cases h1 : (2 * 1 : Fl rnd)
  cases h2 : (2 : Fl rnd)
  rw [h1, h2] at h
  exact congrArg Fl.mk h

/-- The value of an uninitialised number is never read. -/
noncomputable instance : Inhabited (Fl rnd) := ⟨0⟩

/-- **C89**, in rounded arithmetic: the two backends agree in every digit. -/
theorem C89_digits (R : RoundsToNearest p rnd) (f : PolyFamily) (x0 xf : Fl rnd) {nC : List ℤ} {m : ℕ} (hm : 1 ≤ m) (d : ℕ) (full : Bool)
    (hC : full = true ∨ ValidRemoval m nC) (n : ℕ) (xs : ℕ → Fl rnd) :
    ∃ (F : Buf (Fl rnd)) (A : Mat (Fl rnd)), (Model.CC.polyNew f x0 xf nC m).H (Buf.ofFn n xs) n d full = .ok (A.rows, A.cols, F) ∧
      (Model.PyBF.polyInit f x0 xf nC m).H n xs d full = .ok A ∧ A.rows = n ∧ A.cols = (outColumns m nC full).length ∧
      ∀ j < A.rows, ∀ i < A.cols, F.read (A.cols * j + i) = .ok (A.at_ j i) := by
  obtain ⟨V, ⟨F, h1, hs, h3⟩, _, ⟨A, a1, a2, a3, a4⟩⟩ := C89_same (fl_two_one R) f x0 xf hm d full hC n xs (alloc (n * (outColumns m nC full).length)) rfl
  refine ⟨F, A, by rw [a2, a3]; exact h1, a1, a2, a3, fun j hj i hi => ?_⟩
  rw [a2] at hj
  rw [a3] at hi ⊢
  rw [a4 j hj i hi]
  have hlt : (outColumns m nC full).length * j + i < F.size := by
    rw [hs]
    calc (outColumns m nC full).length * j + i < (outColumns m nC full).length * j + (outColumns m nC full).length := by omega
      _ = (j + 1) * (outColumns m nC full).length := by ring
      _ ≤ n * (outColumns m nC full).length := Nat.mul_le_mul_right _ (by omega)
  unfold Buf.read
  rw [if_pos hlt, h3 j hj i hi]

/-- **C87**, Python backend. -/
theorem C87_python (R : RoundsToNearest p rnd) (hp : 6 ≤ p) {x0 xf : ℝ} (h01 : x0 < xf) {nC : List ℤ} {m : ℕ} (hm : 1 ≤ m) (d : ℕ)
    (hmu : (8 + 14 * d) * unit p * m ^ 2 ≤ 1) (full : Bool) (hC : full = true ∨ ValidRemoval m nC) {n : ℕ} {xs : ℕ → ℝ}
    (hin : ∀ j < n, x0 ≤ xs j ∧ xs j ≤ xf) :
    ∃ A : Mat (Fl rnd), (Model.PyBF.polyInit .cp ⟨x0⟩ ⟨xf⟩ nC m).H n (fun j => ⟨xs j⟩) d full = .ok A ∧ A.rows = n ∧
      A.cols = (outColumns m nC full).length ∧ ∀ j < n, ∀ (i : ℕ) (hi : i < (outColumns m nC full).length),
        |(A.at_ j i).val - iteratedDeriv d (fun x => chebT (outColumns m nC full)[i] (-1 + (x - x0) * (2 / (xf - x0)))) (xs j)| ≤
          (25 + 26 * d) * d.factorial * unit p * ((outColumns m nC full)[i] : ℝ) ^ (2 * (d + 1)) * (2 / (xf - x0)) ^ d := by
  obtain ⟨F, A, h1, a1, a2, a3, a4⟩ := C89_digits R .cp ⟨x0⟩ ⟨xf⟩ hm d full hC n (fun j => (⟨xs j⟩ : Fl rnd))
  obtain ⟨F', h2, h3⟩ := C87_derivatives R hp h01 hm d hmu full hC (x := Buf.ofFn n fun j => (⟨xs j⟩ : Fl rnd)) (fun j hj => Buf.ofFn_read hj) hin
  have e : F = F' := by
    have h2' : (Model.CC.polyNew .cp (⟨x0⟩ : Fl rnd) ⟨xf⟩ nC m).H (Buf.ofFn n fun j => ⟨xs j⟩) n d full = _ := h2
    rw [h2'] at h1
    injection h1 with h1
    injection h1 with _ h1
    injection h1 with _ h1
    exact h1.symm
  refine ⟨A, a1, a2, a3, fun j hj i hi => ?_⟩
  obtain ⟨v, hv, hb⟩ := h3 j hj i hi
  have := a4 j (by rw [a2]; exact hj) i (by rw [a3]; exact hi)
  rw [a3, e, hv] at this
  injection this with this
  rw [← this]
  exact hb

/-- **C88**, Python backend. -/
theorem C88_python (R : RoundsToNearest p rnd) (hp : 6 ≤ p) {x0 xf : ℝ} (h01 : x0 < xf) {nC : List ℤ} {m : ℕ} (hm : 1 ≤ m) (d : ℕ)
    (hmu : (24 + 32 * d) * unit p * m ^ 2 ≤ 1) (full : Bool) (hC : full = true ∨ ValidRemoval m nC) {n : ℕ} {xs : ℕ → ℝ}
    (hin : ∀ j < n, x0 ≤ xs j ∧ xs j ≤ xf) :
    ∃ A : Mat (Fl rnd), (Model.PyBF.polyInit .lep ⟨x0⟩ ⟨xf⟩ nC m).H n (fun j => ⟨xs j⟩) d full = .ok A ∧ A.rows = n ∧
      A.cols = (outColumns m nC full).length ∧ ∀ j < n, ∀ (i : ℕ) (hi : i < (outColumns m nC full).length),
        |(A.at_ j i).val - iteratedDeriv d (fun x => legP (outColumns m nC full)[i] (-1 + (x - x0) * (2 / (xf - x0)))) (xs j)| ≤
          (39 + 42 * d) * (3 / 2) ^ d * d.factorial * unit p * ((outColumns m nC full)[i] : ℝ) ^ (2 * (d + 1)) * (2 / (xf - x0)) ^ d := by
  obtain ⟨F, A, h1, a1, a2, a3, a4⟩ := C89_digits R .lep ⟨x0⟩ ⟨xf⟩ hm d full hC n (fun j => (⟨xs j⟩ : Fl rnd))
  obtain ⟨F', h2, h3⟩ := C88_legendre R hp h01 hm d hmu full hC (x := Buf.ofFn n fun j => (⟨xs j⟩ : Fl rnd)) (fun j hj => Buf.ofFn_read hj) hin
  have e : F = F' := by
    have h2' : (Model.CC.polyNew .lep (⟨x0⟩ : Fl rnd) ⟨xf⟩ nC m).H (Buf.ofFn n fun j => ⟨xs j⟩) n d full = _ := h2
    rw [h2'] at h1
    injection h1 with h1
    injection h1 with _ h1
    injection h1 with _ h1
    exact h1.symm
  refine ⟨A, a1, a2, a3, fun j hj i hi => ?_⟩
  obtain ⟨v, hv, hb⟩ := h3 j hj i hi
  have := a4 j (by rw [a2]; exact hj) i (by rw [a3]; exact hi)
  rw [a3, e, hv] at this
  injection this with this
  rw [← this]
  exact hb

/-- A concrete case: Hermite functions 0 to 6 with doubles, third derivatives at 10 points. -/
example (R : RoundsToNearest 53 rnd) : ∃ (F : Buf (Fl rnd)) (A : Mat (Fl rnd)),
    (Model.CC.polyNew .hopPhy (⟨0⟩ : Fl rnd) ⟨2⟩ [0] 7).H (Buf.ofFn 10 fun j => (j : Fl rnd)) 10 3 false = .ok (A.rows, A.cols, F) ∧
      (Model.PyBF.polyInit .hopPhy (⟨0⟩ : Fl rnd) ⟨2⟩ [0] 7).H 10 (fun j => (j : Fl rnd)) 3 false = .ok A ∧ A.rows = 10 ∧
      A.cols = (outColumns 7 [0] false).length ∧ ∀ j < A.rows, ∀ i < A.cols, F.read (A.cols * j + i) = .ok (A.at_ j i) :=
  C89_digits R .hopPhy _ _ (by norm_num) 3 false (Or.inr ⟨by decide, by decide⟩) 10 _

end

end Verif.Props
