import Verif.Lemmas.Perturb
import Verif.Lemmas.ChebGrid
import Verif.Lemmas.FourierGrid
import Verif.Props.MSpan
import Verif.Props.Ls
import Verif.Props.Backends
import Verif.Props.RoundedFS
import Verif.Props.NllsMinimum
import Mathlib.Algebra.Order.BigOperators.Ring.Finset

/-! # The least-squares fit with Chebyshev polynomials on the object's own points, with rounded matrices (C123) -/

namespace Verif.Props

open Verif Verif.Py Verif.Np Verif.Spec Verif.Model Verif.Model.Py Verif.Model.LSq Verif.Model.Dict Verif.Lemmas Verif.Lemmas.LSq Verif.Lemmas.LinAlg Verif.Model.Rounded

variable {Key : Type} [DecidableEq Key]

/-! ## Perturbation of a least-squares problem -/

/-- The Euclidean norm of a list. -/
noncomputable def norm2 (l : List ℝ) : ℝ := Real.sqrt (normSq l)

/-- A corner of a matrix as a linear map between Euclidean spaces. -/
noncomputable def cornerMap (N n : ℕ) (A : ℕ → ℕ → ℝ) : EuclideanSpace ℝ (Fin n) →ₗ[ℝ] EuclideanSpace ℝ (Fin N) where
  toFun v := toE N fun i => ∑ j : Fin n, A i j * v j
  map_add' v w := by
    rw [← map_add]
    congr 1
    funext i
    rw [Pi.add_apply, ← Finset.sum_add_distrib]
    exact Finset.sum_congr rfl fun j _ => by rw [PiLp.add_apply]; ring
  map_smul' c v := by
    rw [RingHom.id_apply, ← map_smul]
    congr 1
    funext i
    rw [Pi.smul_apply, smul_eq_mul, Finset.mul_sum]
    exact Finset.sum_congr rfl fun j _ => by rw [PiLp.smul_apply, smul_eq_mul]; ring

theorem cornerMap_apply (N n : ℕ) (A : ℕ → ℕ → ℝ) (v : EuclideanSpace ℝ (Fin n)) (i : Fin N) : cornerMap N n A v i = ∑ j : Fin n, A i j * v j := rfl

theorem normE_sq {N : ℕ} (v : EuclideanSpace ℝ (Fin N)) : ‖v‖ ^ 2 = ∑ i, v i ^ 2 := by
  rw [EuclideanSpace.norm_sq_eq]
  exact Finset.sum_congr rfl fun i _ => by rw [Real.norm_eq_abs, sq_abs]

theorem corner_missSq (N n : ℕ) (A : ℕ → ℕ → ℝ) (y : ℕ → ℝ) (c : ℕ → ℝ) :
    ‖cornerMap N n A (toE n fun j => y j) - toE N fun i => c i‖ ^ 2 = missSq N n A y c := by
  rw [normE_sq]
  unfold missSq
  rw [Finset.sum_range]
  refine Finset.sum_congr rfl fun i _ => ?_
  rw [PiLp.sub_apply, cornerMap_apply, toE_apply, Finset.sum_range]
  rfl

theorem norm2_eq (l : List ℝ) (n : ℕ) (hl : l.length = n) : norm2 l = ‖toE n fun j => vec l j‖ := by
  rw [← Real.sqrt_sq (norm_nonneg _), normE_sq, norm2, normSq_range, hl, Finset.sum_range]
  rfl

theorem getD_lt {l : List ℝ} {j : ℕ} (h : j < l.length) : l.getD j 0 = l[j] := by simp [List.getD, h]

/-- The rows of a matrix with small entries. -/
theorem corner_small (N n : ℕ) (A A' : ℕ → ℕ → ℝ) {ε : ℝ} (hε : 0 ≤ ε)
    (h : ∑ i ∈ Finset.range N, ∑ j ∈ Finset.range n, (A' i j - A i j) ^ 2 ≤ ε ^ 2) (d : EuclideanSpace ℝ (Fin n)) :
    ‖cornerMap N n A' d - cornerMap N n A d‖ ≤ ε * ‖d‖ := by
  refine abs_le_of_sq_le_sq' ?_ (by positivity) |>.2
  rw [mul_pow, normE_sq, normE_sq]
  have h1 : ∀ i : Fin N, (cornerMap N n A' d - cornerMap N n A d) i ^ 2 ≤ (∑ j : Fin n, (A' i j - A i j) ^ 2) * ∑ j, d j ^ 2 := by
    intro i
    have e : (cornerMap N n A' d - cornerMap N n A d) i = ∑ j : Fin n, (A' i j - A i j) * d j := by
      rw [PiLp.sub_apply, cornerMap_apply, cornerMap_apply, ← Finset.sum_sub_distrib]
      exact Finset.sum_congr rfl fun j _ => by ring
    rw [e]
    exact Finset.sum_mul_sq_le_sq_mul_sq _ _ _
  refine (Finset.sum_le_sum fun i _ => h1 i).trans ?_
  rw [← Finset.sum_mul]
  refine mul_le_mul_of_nonneg_right ?_ (Finset.sum_nonneg fun j _ => sq_nonneg _)
  rw [Finset.sum_range] at h
  simp only [Finset.sum_range] at h
  exact h

/-- The least-squares property, for vectors. -/
theorem least_vec {res : Residual Key} {z : View Key} {args : List (View Key)} {N n : ℕ} {A : ℕ → ℕ → ℝ} {b : ℕ → ℝ} (hn : (entries z).length = n)
    (hA : AffineIn res z args N A b) {x : View Key} (hx : IsLeastSquares res z args x) (y : EuclideanSpace ℝ (Fin n)) :
    ‖cornerMap N n A (toE n fun j => vec (entries x) j) - toE N fun i => -b i‖ ^ 2 ≤ ‖cornerMap N n A y - toE N fun i => -b i‖ ^ 2 := by
  have hl : (entries x).length = n := by rw [← SameForm.length hx.1, hn]
  have h0 : (List.ofFn fun j => y j).length = (entries z).length := by rw [List.length_ofFn, hn]
  have hf := refill_form z h0
  have h1 := hx.2 _ hf
  rw [normSq_res hA hx.1, normSq_res hA hf, entries_refill z h0, hl, List.length_ofFn] at h1
  rw [corner_missSq N n A (vec (entries x)) fun i => -b i]
  refine h1.trans (le_of_eq ?_)
  rw [← corner_missSq N n A _ fun i => -b i]
  congr 4
  ext j
  show vec (List.ofFn fun j => y j) j = y j
  unfold vec
  rw [getD_lt (by rw [List.length_ofFn]; exact j.2), List.getElem_ofFn]

/-- **C123**, any two nearby problems: let the residual be `A ξ + b`, and in a second program `A' ξ + b'`, where `A` stretches every vector at least by
`σ`, the matrices differ by at most `ε < σ` (root of the sum of squares of the entries) and `b'` from `b` by at most `η`. Then the coefficients that `LS` returns
for the second program differ from those for the first by at most `(η + ε ‖ξ‖ + ε ‖r‖ / (σ - ε)) / (σ - ε)`, where `r` is the residual that remains in the
first. -/
theorem C123_perturbation (lib : LinAlg) (hlib : LinAlgCorrect lib) (method : Method) (hm : method ≠ .other) (timer : Bool) (res res' : Residual Key)
    (z : View Key) (args : List (View Key)) (L : List ℕ) (hL : GoodConstants L args) (hp : ProperUnknowns z) (hz : NotRobustMany z) (N n : ℕ)
    (hn : (entries z).length = n) (A A' : ℕ → ℕ → ℝ) (b b' : ℕ → ℝ) (hA : AffineIn res z args N A b) (hA' : AffineIn res' z args N A' b')
    (σ ε η : ℝ) (hε : 0 ≤ ε) (hεσ : ε < σ) (hη : 0 ≤ η)
    (hσ : ∀ ξ : ℕ → ℝ, σ ^ 2 * ∑ j ∈ Finset.range n, ξ j ^ 2 ≤ ∑ i ∈ Finset.range N, (∑ j ∈ Finset.range n, A i j * ξ j) ^ 2)
    (hd : ∑ i ∈ Finset.range N, ∑ j ∈ Finset.range n, (A' i j - A i j) ^ 2 ≤ ε ^ 2) (hb : ∑ i ∈ Finset.range N, (b' i - b i) ^ 2 ≤ η ^ 2) :
    ∃ x x', (LS lib method none timer res z args L).1 = .ok x ∧ (LS lib method none timer res' z args L).1 = .ok x' ∧
      SameForm z x ∧ SameForm z x' ∧
      norm2 (List.zipWith (· - ·) (entries x') (entries x)) ≤
        (η + ε * norm2 (entries x) + ε / (σ - ε) * norm2 (res (x :: args))) / (σ - ε) := by
  obtain ⟨x, hx, hx1, -⟩ := C35_ls_partial lib hlib method hm none timer res z args L hL hp hz N A b hA (Or.inl rfl)
  obtain ⟨x', hx', hx1', -⟩ := C35_ls_partial lib hlib method hm none timer res' z args L hL hp hz N A' b' hA' (Or.inl rfl)
  refine ⟨x, x', hx, hx', hx1.1, hx1'.1, ?_⟩
  have hl : (entries x).length = n := by rw [← SameForm.length hx1.1, hn]
  have hl' : (entries x').length = n := by rw [← SameForm.length hx1'.1, hn]
  have key := minimiser_near (cornerMap N n A) (cornerMap N n A') (toE N fun i => -b i) (toE N fun i => -b' i) (toE n fun j => vec (entries x) j)
    (toE n fun j => vec (entries x') j) hε hεσ hη (fun d => ?_) (corner_small N n A A' hε hd) ?_ (least_vec hn hA hx1) (least_vec hn hA' hx1')
  · have e1 : norm2 (res (x :: args)) = ‖cornerMap N n A (toE n fun j => vec (entries x) j) - toE N fun i => -b i‖ := by
      rw [← Real.sqrt_sq (norm_nonneg _), corner_missSq N n A (vec (entries x)) fun i => -b i, norm2, normSq_res hA hx1.1, hl]
    have e2 : norm2 (List.zipWith (· - ·) (entries x') (entries x)) = ‖(toE n fun j => vec (entries x') j) - toE n fun j => vec (entries x) j‖ := by
      rw [norm2_eq _ n (by rw [List.length_zipWith, hl, hl', min_self]), ← map_sub]
      congr 2
      funext j
      have hj := j.2
      simp only [vec, Pi.sub_apply]
      rw [getD_lt (by rw [List.length_zipWith]; omega), List.getElem_zipWith, getD_lt (by omega), getD_lt (by omega)]
    rw [e1, e2, norm2_eq _ n hl]
    exact key
  · have h := hσ fun j => if h : j < n then d ⟨j, h⟩ else 0
    have hs : 0 ≤ σ := by linarith
    refine abs_le_of_sq_le_sq' ?_ (norm_nonneg _) |>.2
    rw [mul_pow, normE_sq, normE_sq]
    simp only [Finset.sum_range] at h
    simpa [cornerMap_apply] using h
  · refine abs_le_of_sq_le_sq' ?_ hη |>.2
    rw [normE_sq]
    refine le_trans (le_of_eq ?_) hb
    rw [Finset.sum_range]
    refine Finset.sum_congr rfl fun i _ => ?_
    rw [PiLp.sub_apply, toE_apply, toE_apply]
    ring

/-! ## The Chebyshev and Fourier matrices on the object's own points -/

/-- The points of a `utfc` object and their images on the basis domain. -/
theorem own_points {N : ℕ} (hN : 2 ≤ N) {nC : NCArg} {deg : ℕ} {basis backend : String} {x0 xf : ℝ} (hx : x0 < xf) {w b : ℕ → ℝ} {u : Utfc}
    (hu : utfcInit N nC deg basis (some x0) (some xf) backend w b = .ok u) :
    ∀ j < N, x0 ≤ u.x.getD j 0 ∧ u.x.getD j 0 ≤ xf ∧ u.cls.arg x0 xf (u.x.getD j 0) = zPoint u.basis N j := by
  obtain ⟨hl, hlz, -, -, -, hin, hmap⟩ := C13_points N hN nC deg basis backend x0 xf hx w b u hu
  have hz : u.z = (List.range N).map (zPoint u.basis N) := by
    have e : ∀ v, utfcInit N nC deg basis (some x0) (some xf) backend w b = .ok v → v.z = (List.range N).map (zPoint v.basis N) := by
      intro v hv
      unfold utfcInit at hv
      cases hnc : utfcNC deg nC with
      | error e => rw [hnc] at hv; cases hv
      | ok l =>
        rw [hnc] at hv
        simp only [bind, Except.bind, Option.getD_some] at hv
        cases hbe : Backend.parse backend with
        | none => rw [hbe] at hv; cases hv
        | some be =>
          cases hbn : BasisName.parse basis with
          | none => rw [hbe, hbn] at hv; cases hv
          | some bn =>
            rw [hbe, hbn] at hv
            simp only at hv
            cases hv
            exact (utfcPoints_z bn hN _ x0).1
    exact e u hu
  intro j hj
  have hj' : j < u.x.length := by omega
  rw [getD_lt hj']
  obtain ⟨a, b'⟩ := hin _ (List.getElem_mem hj')
  refine ⟨a, b', ?_⟩
  have e1 : (u.x.map (u.cls.arg x0 xf))[j]'(by rw [List.length_map]; exact hj') = u.z[j]'(by omega) := by simp only [hmap]
  rw [List.getElem_map] at e1
  rw [e1]
  simp [hz]

/-- The functions of one variable on the points of one direction. -/
theorem uni_frame (bn : BasisName) (f : NFamily) (hb : bn = .cp ∧ f = .cp ∨ bn = .fs ∧ f = .fs) {deg N : ℕ}
    (hN : (if bn = .fs then 2 * ((deg + 1) / 2) + 2 else max 2 (deg + 1)) ≤ N) {M : ℕ} (k : Fin M → ℕ) (hk : ∀ i, k i < deg + 1) (hinj : Function.Injective k)
    (ξ : Fin M → ℝ) :
    ((N : ℝ) - 1) / 2 * ∑ i, ξ i ^ 2 ≤ ∑ j : Fin N, (∑ i, f.cls.fn (k i) (zPoint bn N j) * ξ i) ^ 2 ∧
      ∑ j : Fin N, (∑ i, f.cls.fn (k i) (zPoint bn N j) * ξ i) ^ 2 ≤ 2 * ((N : ℝ) - 1) * ∑ i, ξ i ^ 2 := by
  have hN2 : 2 ≤ N := by
    split_ifs at hN with h
    · omega
    · exact (le_max_left _ _).trans hN
  obtain ⟨n, rfl⟩ : ∃ n, N = n + 1 := ⟨N - 1, by omega⟩
  have e4 : ((n + 1 : ℕ) : ℝ) - 1 = n := by push_cast; ring
  rw [e4]
  rcases hb with ⟨rfl, rfl⟩ | ⟨rfl, rfl⟩
  · rw [if_neg (by decide)] at hN
    have hN' := (le_max_right _ _).trans hN
    obtain ⟨g1, g2⟩ := cos_grid (n := n) (by omega) k (fun i => by have := hk i; omega) hinj ξ
    have e : ∑ j : Fin (n + 1), (∑ i, (NFamily.cls .cp).fn (k i) (zPoint .cp (n + 1) j) * ξ i) ^ 2 =
        ∑ j ∈ Finset.range (n + 1), (∑ i, Real.cos (k i * (Real.pi * j / n)) * ξ i) ^ 2 := by
      rw [← Finset.sum_range_reflect, Finset.sum_range]
      refine Finset.sum_congr rfl fun j _ => ?_
      congr 1
      refine Finset.sum_congr rfl fun i _ => ?_
      congr 1
      have hj := j.2
      have e1 : ((n + 1 - 1 - (j : ℕ) : ℕ) : ℝ) = (n : ℝ) - (j : ℕ) := by
        rw [Nat.add_sub_cancel, Nat.cast_sub (by omega)]
      show (classical ℝ .cp (k i)).eval (zPoint .cp (n + 1) j) = _
      simp only [zPoint, classical, Nat.add_sub_cancel]
      rw [Polynomial.Chebyshev.T_real_cos]
      congr 2
      rw [← e1, Nat.add_sub_cancel]
    rw [e]
    exact ⟨g1, g2⟩
  · rw [if_pos rfl] at hN
    obtain ⟨g1, g2⟩ := fourier_grid (n := n) (m := deg + 1) (by omega) k hk hinj ξ
    have e : ∑ j : Fin (n + 1), (∑ i, (NFamily.cls .fs).fn (k i) (zPoint .fs (n + 1) j) * ξ i) ^ 2 =
        ∑ j ∈ Finset.range (n + 1), (∑ i, fourier (k i) (theta n j) * ξ i) ^ 2 := by
      rw [Finset.sum_range]
      refine Finset.sum_congr rfl fun j _ => ?_
      congr 1
      refine Finset.sum_congr rfl fun i _ => ?_
      congr 1
      show fourier (k i) (zPoint .fs (n + 1) j) = _
      congr 1
      unfold theta
      simp only [zPoint, BasisName.zRange]
      rw [e4]
      ring
    rw [e]
    exact ⟨g1, g2⟩

/-- **C123**, conditioning: on the object's own points, with at least as many of them as needed, the matrix of the Chebyshev polynomials or of the Fourier functions
stretches every vector of coefficients by a factor between `√((N - 1)/2)` and `√(2 (N - 1))`, whatever the degree, with all columns or with some removed. Its condition
number is at most 2. -/
theorem C123_condition (basis : String) (hb : basis = "CP" ∨ basis = "FS") (N : ℕ) (nC : NCArg) (deg : ℕ) (hN : pointsNeeded basis deg ≤ N) (backend : String)
    (x0 xf : ℝ) (hx : x0 < xf) (w b : ℕ → ℝ) (u : Utfc) (hu : utfcInit N nC deg basis (some x0) (some xf) backend w b = .ok u) (full : Bool)
    (hC : full = true ∨ ValidRemoval (deg + 1) u.nC) :
    ∃ A, u.Hjax N (fun j => u.x.getD j 0) 0 full = .ok A ∧ A.rows = N ∧ ∀ ξ : ℕ → ℝ,
      ((N : ℝ) - 1) / 2 * ∑ i ∈ Finset.range A.cols, ξ i ^ 2 ≤ ∑ j ∈ Finset.range N, rowTimes A ξ j ^ 2 ∧
      ∑ j ∈ Finset.range N, rowTimes A ξ j ^ 2 ≤ 2 * ((N : ℝ) - 1) * ∑ i ∈ Finset.range A.cols, ξ i ^ 2 := by
  have hN2 : 2 ≤ N := by
    unfold pointsNeeded at hN
    split_ifs at hN with h
    · omega
    · exact (le_max_left _ _).trans hN
  obtain ⟨h1, h2, h3, h4, h5⟩ := init_fields hu
  have hpt := own_points hN2 hx hu
  obtain ⟨f, hbf, hret⟩ : ∃ f : NFamily, (u.basis = .cp ∧ f = .cp ∨ u.basis = .fs ∧ f = .fs) ∧
      ReturnsArray (u.Hjax N (fun j => u.x.getD j 0) 0 full) N (outColumns (u.deg + 1) u.nC full) (fun j k => f.cls.fn k (zPoint u.basis N j)) := by
    rcases hb with rfl | rfl
    · have h6 : BasisName.parse "CP" = some .cp := by decide
      rw [h6] at h4
      have hbb : u.basis = .cp := (Option.some.inj h4).symm
      have hcls : u.cls = .poly .cp := by rw [h5, hbb]; rfl
      refine ⟨.cp, Or.inl ⟨hbb, rfl⟩, ReturnsArray.congr (Hjax_poly u .cp hcls 0 full (by rw [h1]; exact hC) N _) fun j hj k _ => ?_⟩
      rw [iteratedDeriv_zero, h2, h3, ← (hpt j hj).2.2, hcls]
      rfl
    · have h6 : BasisName.parse "FS" = some .fs := by decide
      rw [h6] at h4
      have hbb : u.basis = .fs := (Option.some.inj h4).symm
      have hcls : u.cls = .fs := by rw [h5, hbb]; rfl
      refine ⟨.fs, Or.inr ⟨hbb, rfl⟩, ReturnsArray.congr (Hjax_fs u hcls full (by rw [h1]; exact hC) N _) fun j hj k _ => ?_⟩
      rw [h2, h3, (hpt j hj).2.2]
      rfl
  obtain ⟨A, hA, hr, hc, hv⟩ := hret
  refine ⟨A, hA, hr, fun ξ => ?_⟩
  have hinj : Function.Injective fun i : Fin A.cols => (outColumns (u.deg + 1) u.nC full)[(i : ℕ)]'(by have := i.2; omega) := by
    intro i j hij
    exact Fin.ext (((outColumns_nodup _ _ _).getElem_inj_iff).mp hij)
  have hN' : (if u.basis = .fs then 2 * ((deg + 1) / 2) + 2 else max 2 (deg + 1)) ≤ N := by
    unfold pointsNeeded at hN
    rcases hb with rfl | rfl
    · have h6 : BasisName.parse "CP" = some .cp := by decide
      rw [h6] at h4
      rw [← Option.some.inj h4, if_neg (by decide)]
      rwa [if_neg (by decide)] at hN
    · have h6 : BasisName.parse "FS" = some .fs := by decide
      rw [h6] at h4
      rw [← Option.some.inj h4, if_pos rfl]
      rwa [if_pos rfl] at hN
  have key := uni_frame u.basis f hbf hN' (fun i : Fin A.cols => (outColumns (u.deg + 1) u.nC full)[(i : ℕ)]'(by have := i.2; omega)) (fun i => by
    have := outColumns_lt (List.getElem_mem (l := outColumns (u.deg + 1) u.nC full) (by have := i.2; omega : (i : ℕ) < _))
    omega) hinj (fun i => ξ i)
  have e : ∑ j ∈ Finset.range N, rowTimes A ξ j ^ 2 = ∑ j : Fin N,
      (∑ i : Fin A.cols, f.cls.fn ((outColumns (u.deg + 1) u.nC full)[(i : ℕ)]'(by have := i.2; omega)) (zPoint u.basis N j) * ξ i) ^ 2 := by
    rw [Finset.sum_range]
    refine Finset.sum_congr rfl fun j _ => ?_
    congr 1
    unfold rowTimes
    rw [Finset.sum_range]
    refine Finset.sum_congr rfl fun i _ => ?_
    have hi := i.2
    rw [hv j j.2 i (by omega)]
  rw [e, Finset.sum_range (fun i => ξ i ^ 2)]
  exact key

/-- Five points on `[0, 3]`, polynomials up to degree 3, the first column removed. -/
example : ∃ u, utfcInit 5 (.int 1) 3 "CP" (some 0) (some 3) "Python" (fun _ => 0) (fun _ => 0) = .ok u ∧ ValidRemoval (3 + 1) u.nC ∧
    ∃ A, u.Hjax 5 (fun j => u.x.getD j 0) 0 false = .ok A ∧ A.rows = 5 ∧ ∀ ξ : ℕ → ℝ,
      2 * ∑ i ∈ Finset.range A.cols, ξ i ^ 2 ≤ ∑ j ∈ Finset.range 5, rowTimes A ξ j ^ 2 := by
  have h1 : utfcNC 3 (.int 1) = .ok [0] := by rfl
  have h2 : Backend.parse "Python" = some .python := by decide
  have h3 : BasisName.parse "CP" = some .cp := by decide
  cases h : utfcInit 5 (.int 1) 3 "CP" (some 0) (some 3) "Python" (fun _ => 0) (fun _ => 0) with
  | ok u =>
    have hnC : u.nC = [0] := by
      unfold utfcInit at h
      rw [h1, h2, h3] at h
      cases h
      rfl
    have hv : ValidRemoval (3 + 1) u.nC := by rw [hnC]; constructor <;> simp
    obtain ⟨A, a1, a2, a3⟩ := C123_condition "CP" (Or.inl rfl) 5 _ 3 (by decide) _ 0 3 (by norm_num) _ _ u h false (Or.inr hv)
    refine ⟨u, rfl, hv, A, a1, a2, fun ξ => ?_⟩
    have := (a3 ξ).1
    norm_num at this
    exact this
  | error e =>
    unfold utfcInit at h
    rw [h1, h2, h3] at h
    cases h

/-! ## The fit with a rounded matrix -/

theorem outColumns_length (m : ℕ) (nC : List ℤ) (full : Bool) : (outColumns m nC full).length ≤ m := by
  unfold outColumns keptColumns
  split
  · rw [List.length_range]
  · exact (List.length_filter_le _ _).trans (by rw [List.length_range])

/-- The numbers of the bound: with `σ² = (N - 1)/2`, the matrix error is at most `κ σ`, `κ = 50 u deg² √(deg + 1)`. -/
theorem fit_numbers {κ σ X r : ℝ} (hκ : 0 ≤ κ) (hκ' : 2 * κ ≤ 1) (hσ : 0 < σ) (hX : 0 ≤ X) (hr : 0 ≤ r) :
    (0 + κ * σ * X + κ * σ / (σ - κ * σ) * r) / (σ - κ * σ) ≤ 2 * κ * (X + 2 * r / σ) := by
  have h1 : σ - κ * σ = σ * (1 - κ) := by ring
  have h2 : 0 < 1 - κ := by linarith
  have h3 : 1 / (1 - κ) ≤ 2 := by
    rw [div_le_iff₀ h2]
    linarith
  have h4 : 0 ≤ 1 / (1 - κ) := by positivity
  have e : (0 + κ * σ * X + κ * σ / (σ - κ * σ) * r) / (σ - κ * σ) = κ * (X * (1 / (1 - κ)) + (1 / (1 - κ)) * (1 / (1 - κ)) * (r / σ)) := by
    rw [h1]
    field_simp
    ring
  rw [e]
  have h5 : X * (1 / (1 - κ)) ≤ X * 2 := mul_le_mul_of_nonneg_left h3 hX
  have h6 : (1 / (1 - κ)) * (1 / (1 - κ)) ≤ 2 * 2 := mul_le_mul h3 h3 h4 (by norm_num)
  have h7 : (1 / (1 - κ)) * (1 / (1 - κ)) * (r / σ) ≤ 2 * 2 * (r / σ) := mul_le_mul_of_nonneg_right h6 (by positivity)
  have h8 : 2 * κ * (X + 2 * r / σ) = κ * (X * 2 + 2 * 2 * (r / σ)) := by ring
  rw [h8]
  exact mul_le_mul_of_nonneg_left (by linarith) hκ

/-- A fit on `N` points with two matrices whose entries differ by at most `e`, the first one well conditioned. -/
theorem fit_core {N deg : ℕ} (hN : 2 ≤ N) (A : Mat ℝ) (B : ℕ → ℕ → ℝ) (hcols : A.cols ≤ deg + 1)
    (hcond : ∀ ξ : ℕ → ℝ, ((N : ℝ) - 1) / 2 * ∑ i ∈ Finset.range A.cols, ξ i ^ 2 ≤ ∑ j ∈ Finset.range N, rowTimes A ξ j ^ 2) {e : ℝ} (he : 0 ≤ e)
    (he1 : 4 * e * Real.sqrt (deg + 1) ≤ 1) (hent : ∀ j < N, ∀ i < A.cols, |B j i - A.at_ j i| ≤ e) (lib : LinAlg) (hlib : LinAlgCorrect lib)
    (method : Method) (hm : method ≠ .other) (timer : Bool) (res res' : Residual Key) (z : View Key) (args : List (View Key)) (L : List ℕ)
    (hL : GoodConstants L args) (hpz : ProperUnknowns z) (hz : NotRobustMany z) (hn : (entries z).length = A.cols) (y : ℕ → ℝ)
    (hR : AffineIn res z args N A.at_ fun j => -y j) (hR' : AffineIn res' z args N B fun j => -y j) :
    ∃ x x', (LS lib method none timer res z args L).1 = .ok x ∧ (LS lib method none timer res' z args L).1 = .ok x' ∧ SameForm z x ∧ SameForm z x' ∧
      norm2 (List.zipWith (· - ·) (entries x') (entries x)) ≤
        4 * e * Real.sqrt (deg + 1) * (norm2 (entries x) + 2 * norm2 (res (x :: args)) / Real.sqrt (((N : ℝ) - 1) / 2)) := by
  obtain ⟨σ, hσ⟩ : ∃ σ, σ = Real.sqrt (((N : ℝ) - 1) / 2) := ⟨_, rfl⟩
  have hN1 : (2 : ℝ) ≤ N := by exact_mod_cast hN
  have hσ2 : σ ^ 2 = ((N : ℝ) - 1) / 2 := by rw [hσ, Real.sq_sqrt (by linarith)]
  have hσ0 : 0 < σ := by rw [hσ]; exact Real.sqrt_pos.mpr (by linarith)
  obtain ⟨κ, hκ⟩ : ∃ κ, κ = 2 * e * Real.sqrt ((deg : ℝ) + 1) := ⟨_, rfl⟩
  have hκ0 : 0 ≤ κ := by rw [hκ]; positivity
  have hκ1 : 2 * κ ≤ 1 := by rw [hκ]; linarith
  have hd : ∑ j ∈ Finset.range N, ∑ i ∈ Finset.range A.cols, (B j i - A.at_ j i) ^ 2 ≤ (κ * σ) ^ 2 := by
    refine (Finset.sum_le_sum fun j hj => Finset.sum_le_sum fun i hi =>
      (sq_abs (B j i - A.at_ j i)).symm.le.trans (pow_le_pow_left₀ (abs_nonneg _) (hent j (Finset.mem_range.mp hj) i (Finset.mem_range.mp hi)) 2)).trans ?_
    rw [Finset.sum_const, Finset.sum_const, Finset.card_range, Finset.card_range, nsmul_eq_mul, nsmul_eq_mul]
    have hcols : (A.cols : ℝ) ≤ deg + 1 := by exact_mod_cast hcols
    have e1 : (κ * σ) ^ 2 = 2 * ((N : ℝ) - 1) * ((deg + 1) * e ^ 2) := by
      rw [mul_pow, hσ2, hκ, mul_pow _ (Real.sqrt _), Real.sq_sqrt (by positivity)]
      ring
    rw [e1]
    refine mul_le_mul (by linarith) (mul_le_mul_of_nonneg_right hcols (sq_nonneg _)) (by positivity) (by linarith)
  obtain ⟨x, x', g1, g2, g3, g4, g5⟩ := C123_perturbation lib hlib method hm timer res res' z args L hL hpz hz N A.cols hn A.at_
    B (fun j => -y j) (fun j => -y j) hR hR' σ (κ * σ) 0 (by positivity) (by nlinarith) le_rfl
    (fun ξ => by rw [hσ2]; exact hcond ξ) hd (by simp)
  refine ⟨x, x', g1, g2, g3, g4, g5.trans ((fit_numbers hκ0 hκ1 hσ0 (Real.sqrt_nonneg _) (Real.sqrt_nonneg _)).trans (le_of_eq ?_))⟩
  rw [hκ, ← hσ]
  unfold norm2
  ring

/-- **C123**: a fit with Chebyshev polynomials on the object's own points. `A` is the exact matrix, `B` the matrix computed with every operation rounded to
nearest (by either backend, C89). With `100 u deg² √(deg + 1) ≤ 1` (with doubles, for degrees up to some hundred thousand), the coefficients that `LS` finds with `B` differ from those it finds
with `A` by at most `100 u deg² √(deg + 1) (‖ξ‖ + 2 ‖r‖ / √((N - 1)/2))`, `r` being what remains of the data. The arithmetic inside the least-squares solver is exact here. -/
theorem C123_fit {p : ℕ} {rnd : ℝ → ℝ} (R : RoundsToNearest p rnd) (hp : 6 ≤ p) (N : ℕ) (hN : 2 ≤ N) (nC : NCArg) (deg : ℕ) (hdeg : deg + 1 ≤ N)
    (backend : String) (x0 xf : ℝ) (hx : x0 < xf) (w b : ℕ → ℝ) (u : Utfc) (hu : utfcInit N nC deg "CP" (some x0) (some xf) backend w b = .ok u)
    (full : Bool) (hC : full = true ∨ ValidRemoval (deg + 1) u.nC) (hprec : 100 * unit p * deg ^ 2 * Real.sqrt (deg + 1) ≤ 1) :
    ∃ (A : Mat ℝ) (B : Mat (Fl rnd)), u.Hjax N (fun j => u.x.getD j 0) 0 full = .ok A ∧
      (Model.PyBF.polyInit .cp ⟨x0⟩ ⟨xf⟩ u.nC (deg + 1)).H N (fun j => ⟨u.x.getD j 0⟩) 0 full = .ok B ∧ A.rows = N ∧ B.rows = N ∧ B.cols = A.cols ∧
      ∀ (lib : LinAlg) (_ : LinAlgCorrect lib) (method : Method) (_ : method ≠ .other) (timer : Bool) (res res' : Residual Key) (z : View Key)
        (args : List (View Key)) (L : List ℕ) (_ : GoodConstants L args) (_ : ProperUnknowns z) (_ : NotRobustMany z) (_ : (entries z).length = A.cols)
        (y : ℕ → ℝ) (_ : AffineIn res z args N A.at_ fun j => -y j) (_ : AffineIn res' z args N (fun j i => (B.at_ j i).val) fun j => -y j),
        ∃ x x', (LS lib method none timer res z args L).1 = .ok x ∧ (LS lib method none timer res' z args L).1 = .ok x' ∧ SameForm z x ∧ SameForm z x' ∧
          norm2 (List.zipWith (· - ·) (entries x') (entries x)) ≤
            100 * unit p * deg ^ 2 * Real.sqrt (deg + 1) * (norm2 (entries x) + 2 * norm2 (res (x :: args)) / Real.sqrt (((N : ℝ) - 1) / 2)) := by
  have hu0 := unit_pos p
  have hu1 := unit_le hp
  obtain ⟨h1, h2, h3, h4, h5⟩ := init_fields hu
  have hcls : u.cls = .poly .cp := by
    have h6 : BasisName.parse "CP" = some .cp := by decide
    rw [h6] at h4
    rw [h5, ← Option.some.inj h4]
    rfl
  have hpt := own_points hN hx hu
  obtain ⟨A, hA, hr, hcond⟩ := C123_condition "CP" (Or.inl rfl) N nC deg (by
    rw [pointsNeeded, if_neg (by decide)]
    exact max_le hN hdeg) backend x0 xf hx w b u hu full hC
  obtain ⟨A', hA', hr', hc, hv⟩ := Hjax_poly u .cp hcls 0 full (by rw [h1]; exact hC) N (fun j => u.x.getD j 0)
  have eA : A' = A := by rw [hA'] at hA; injection hA
  subst eA
  have hs1 : 1 ≤ Real.sqrt ((deg : ℝ) + 1) := by
    rw [Real.one_le_sqrt]
    have : (0 : ℝ) ≤ deg := by positivity
    linarith
  have hmu : (8 + 14 * ((0 : ℕ) : ℝ)) * unit p * ((deg + 1 : ℕ) : ℝ) ^ 2 ≤ 1 := by
    push_cast
    rcases Nat.eq_zero_or_pos deg with h0 | h0
    · subst h0
      norm_num
      linarith
    · have hd1 : (1 : ℝ) ≤ deg := by exact_mod_cast h0
      have h5 : ((deg : ℝ) + 1) ^ 2 ≤ 4 * (deg : ℝ) ^ 2 := by nlinarith
      have h6 : 100 * unit p * (deg : ℝ) ^ 2 * 1 ≤ 100 * unit p * (deg : ℝ) ^ 2 * Real.sqrt ((deg : ℝ) + 1) := mul_le_mul_of_nonneg_left hs1 (by positivity)
      have h7 := mul_le_mul_of_nonneg_left h5 hu0.le
      nlinarith
  obtain ⟨B, hB, hB1, hB2, hB3⟩ := C87_python R hp hx (nC := u.nC) (m := deg + 1) (by omega) 0 hmu full hC (n := N) (xs := fun j => u.x.getD j 0)
    fun j hj => ⟨(hpt j hj).1, (hpt j hj).2.1⟩
  rw [h1] at hc hv
  refine ⟨A', B, hA', hB, hr, hB1, by rw [hB2, hc], ?_⟩
  intro lib hlib method hm timer res res' z args L hL hpz hz hn y hR hR'
  have hcols : A'.cols ≤ deg + 1 := by rw [hc]; exact outColumns_length (deg + 1) u.nC full
  have key := fit_core hN A' (fun j i => (B.at_ j i).val) hcols (fun ξ => (hcond ξ).1) (e := 25 * unit p * (deg : ℝ) ^ 2) (by positivity)
    (by linarith) ?_ lib hlib method hm timer res res' z args L hL hpz hz hn y hR hR'
  · have e1 : 4 * (25 * unit p * (deg : ℝ) ^ 2) = 100 * unit p * deg ^ 2 := by ring
    rw [e1] at key
    exact key
  · intro j hj i hi
    have hi' : i < (outColumns (deg + 1) u.nC full).length := by omega
    have hb := hB3 j hj i hi'
    have hk := outColumns_lt (List.getElem_mem hi')
    have hk' : ((outColumns (deg + 1) u.nC full)[i] : ℝ) ≤ deg := by exact_mod_cast Nat.lt_succ_iff.mp hk
    have e : A'.at_ j i = iteratedDeriv 0 (fun x => chebT (outColumns (deg + 1) u.nC full)[i] (-1 + (x - x0) * (2 / (xf - x0)))) (u.x.getD j 0) := by
      rw [hv j hj i hi']
      beta_reduce
      rw [iteratedDeriv_zero, iteratedDeriv_zero, h2, h3]
      unfold chebT PolyFamily.arg toBasis
      simp only [classical]
      congr 1
      ring
    rw [← e] at hb
    refine hb.trans ?_
    simp only [Nat.cast_zero, mul_zero, add_zero, Nat.factorial_zero, Nat.cast_one, mul_one, pow_zero, zero_add]
    exact mul_le_mul_of_nonneg_left (pow_le_pow_left₀ (by positivity) hk' 2) (by positivity)

/-- **C123**, the same for the Fourier functions, with library functions of absolute error `ε`: with `e = 2 ε + 107 ⌊(deg + 1)/2⌋ u` and `4 e √(deg + 1) ≤ 1` the coefficients
differ by at most `4 e √(deg + 1) (‖ξ‖ + 2 ‖r‖ / √((N - 1)/2))`. -/
theorem C123_fit_fourier {p : ℕ} {rnd : ℝ → ℝ} [Libm (Fl rnd)] (R : RoundsToNearest p rnd) (hp : 6 ≤ p) {ε : ℝ} (hε : 0 ≤ ε) (hlm : LibmAccurate rnd ε) (N : ℕ)
    (nC : NCArg) (deg : ℕ) (hdeg : pointsNeeded "FS" deg ≤ N) (hmp : deg + 1 ≤ 2 ^ p) (backend : String) (x0 xf : ℝ) (hx : x0 < xf) (w b : ℕ → ℝ) (u : Utfc)
    (hu : utfcInit N nC deg "FS" (some x0) (some xf) backend w b = .ok u) (full : Bool) (hC : full = true ∨ ValidRemoval (deg + 1) u.nC) (e : ℝ)
    (he : e = 2 * ε + 107 * ((deg + 1) / 2 : ℕ) * unit p) (hprec : 4 * e * Real.sqrt (deg + 1) ≤ 1) :
    ∃ (A : Mat ℝ) (B : Mat (Fl rnd)), u.Hjax N (fun j => u.x.getD j 0) 0 full = .ok A ∧
      (Model.PyBF.FS.init (⟨x0⟩ : Fl rnd) ⟨xf⟩ u.nC (deg + 1)).H N (fun j => ⟨u.x.getD j 0⟩) 0 full = .ok B ∧ A.rows = N ∧ B.rows = N ∧ B.cols = A.cols ∧
      ∀ (lib : LinAlg) (_ : LinAlgCorrect lib) (method : Method) (_ : method ≠ .other) (timer : Bool) (res res' : Residual Key) (z : View Key)
        (args : List (View Key)) (L : List ℕ) (_ : GoodConstants L args) (_ : ProperUnknowns z) (_ : NotRobustMany z) (_ : (entries z).length = A.cols)
        (y : ℕ → ℝ) (_ : AffineIn res z args N A.at_ fun j => -y j) (_ : AffineIn res' z args N (fun j i => (B.at_ j i).val) fun j => -y j),
        ∃ x x', (LS lib method none timer res z args L).1 = .ok x ∧ (LS lib method none timer res' z args L).1 = .ok x' ∧ SameForm z x ∧ SameForm z x' ∧
          norm2 (List.zipWith (· - ·) (entries x') (entries x)) ≤
            4 * e * Real.sqrt (deg + 1) * (norm2 (entries x) + 2 * norm2 (res (x :: args)) / Real.sqrt (((N : ℝ) - 1) / 2)) := by
  have hu0 := unit_pos p
  have hu1 := unit_le hp
  have hN : 2 ≤ N := by
    rw [pointsNeeded, if_pos rfl] at hdeg
    omega
  obtain ⟨h1, h2, h3, h4, h5⟩ := init_fields hu
  have hcls : u.cls = .fs := by
    have h6 : BasisName.parse "FS" = some .fs := by decide
    rw [h6] at h4
    rw [h5, ← Option.some.inj h4]
    rfl
  have hpt := own_points hN hx hu
  obtain ⟨A, hA, hr, hcond⟩ := C123_condition "FS" (Or.inr rfl) N nC deg hdeg backend x0 xf hx w b u hu full hC
  obtain ⟨A', hA', hr', hc, hv⟩ := Hjax_fs u hcls full (by rw [h1]; exact hC) N (fun j => u.x.getD j 0)
  have eA : A' = A := by rw [hA'] at hA; injection hA
  subst eA
  obtain ⟨V, -, ⟨B, hB, hB1, hB2, hB3⟩, hV⟩ := C92_fourier R hp hlm hx (nC := u.nC) (m := deg + 1) (by omega) hmp 0 (by
    norm_num
    linarith) full hC N (xs := fun j => u.x.getD j 0) fun j hj => ⟨(hpt j hj).1, (hpt j hj).2.1⟩
  rw [h1] at hc hv
  refine ⟨A', B, hA', hB, hr, hB1, by rw [hB2, hc], ?_⟩
  intro lib hlib method hm timer res res' z args L hL hpz hz hn y hR hR'
  have hcols : A'.cols ≤ deg + 1 := by rw [hc]; exact outColumns_length (deg + 1) u.nC full
  refine fit_core hN A' (fun j i => (B.at_ j i).val) hcols (fun ξ => (hcond ξ).1) (e := e) (by rw [he]; positivity)
    hprec ?_ lib hlib method hm timer res res' z args L hL hpz hz hn y hR hR'
  intro j hj i hi
  have hi' : i < (outColumns (deg + 1) u.nC full).length := by omega
  have hb := hV j hj _ (List.getElem_mem hi')
  have hk := outColumns_lt (List.getElem_mem hi')
  have e1 : A'.at_ j i = iteratedDeriv 0 (fun x => fourier (outColumns (deg + 1) u.nC full)[i] (-Real.pi + (x - x0) * (2 * Real.pi / (xf - x0)))) (u.x.getD j 0) := by
    rw [hv j hj i hi', iteratedDeriv_zero, hcls, h2, h3]
    simp only [UniClass.arg, toBasis]
    congr 1
    ring
  rw [← e1, ← hB3 j hj i hi'] at hb
  refine hb.trans ?_
  have hk' : ((((outColumns (deg + 1) u.nC full)[i] + 1) / 2 : ℕ) : ℝ) ≤ ((deg + 1) / 2 : ℕ) := by
    have : ((outColumns (deg + 1) u.nC full)[i] + 1) / 2 ≤ (deg + 1) / 2 := by omega
    exact_mod_cast this
  rw [he, pow_zero, mul_one, Nat.cast_zero, mul_zero, add_zero]
  have := mul_le_mul_of_nonneg_right (mul_le_mul_of_nonneg_left hk' (show (0 : ℝ) ≤ 107 by norm_num)) hu0.le
  linarith

/-- Doubles and ten thousand Chebyshev polynomials: the precision hypothesis holds with room to spare. -/
example : 100 * unit 53 * (10000 : ℕ) ^ 2 * Real.sqrt ((10000 : ℕ) + 1) ≤ 1 := by
  have h : Real.sqrt ((10000 : ℕ) + 1) ≤ 101 := by
    rw [Real.sqrt_le_left (by norm_num)]
    norm_num
  have e : unit 53 = 1 / 9007199254740992 := by unfold unit; norm_num
  rw [e]
  have := mul_le_mul_of_nonneg_left h (show (0 : ℝ) ≤ 100 * (1 / 9007199254740992) * (10000 : ℕ) ^ 2 by positivity)
  refine this.trans ?_
  norm_num

end Verif.Props
