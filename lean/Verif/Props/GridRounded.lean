import Verif.Props.GridFit
import Verif.Props.RoundedN

/-! # Fits with rounded matrices on the grid of an `mtfc` object (C123) -/

namespace Verif.Props

open Verif Verif.Mem Verif.Py Verif.Np Verif.Spec Verif.Model Verif.Model.Py Verif.Model.LSq Verif.Model.Dict Verif.Lemmas Verif.Lemmas.LSq Verif.Lemmas.LinAlg Verif.Model.Rounded

variable {Key : Type} [DecidableEq Key]

/-- Orders that are all zero. -/
theorem zeros_getD (dim l : ℕ) : (List.replicate dim 0).getD l 0 = 0 := by
  rcases Nat.lt_or_ge l dim with h | h
  · simp [List.getD, h]
  · simp [List.getD, h]

/-- There are at most `m ^ dim` columns. -/
theorem columns_card {dim m : ℕ} {nC : Fin dim → List ℤ} {full : Bool} {L : List (Fin dim → ℕ)} (hL : IsColumnOrder m nC full L) : L.length ≤ m ^ dim := by
  rw [← List.toFinset_card_of_nodup hL.nodup]
  refine (Finset.card_le_card (t := Fintype.piFinset fun _ : Fin dim => Finset.range m) fun α hα => ?_).trans (by simp)
  rw [Fintype.mem_piFinset]
  exact fun k => Finset.mem_range.mpr (admissible_lt ((hL.mem α).mp (List.mem_toFinset.mp hα)) k)

/-- The points of an `mtfc` object lie in its domain. -/
theorem grid_inside {n : List ℕ} {nC : MNCArg} {deg dim : ℕ} (hdim : 1 ≤ dim) {basis backend : String} {x0 xf : Option (List ℝ)} {w : ℕ → ℕ → ℝ} {b : ℕ → ℝ} {u : Mtfc}
    (hu : mtfcInit n nC deg dim basis x0 xf backend w b = .ok u) (hn : ∀ v ∈ n, 2 ≤ v) (hx : ∀ k < dim, u.x0 k < u.xf k) :
    ∀ p < n.prod, ∀ k < dim, u.x0 k ≤ (u.x.getD k []).getD p 0 ∧ (u.x.getD k []).getD p 0 ≤ u.xf k := by
  obtain ⟨hlen, -, -, -, -, -, -, -, -, -, ⟨x00, hz⟩, -⟩ := mtfcInit_ok hu
  obtain ⟨-, -, -, -, -, -, hmap⟩ := C14_grid n nC deg dim hdim basis backend x0 xf w b u hu (fun v hv => ⟨by have := hn v hv; omega, fun _ => hn v hv⟩)
    fun k hk => (hx k hk).ne
  obtain ⟨-, hz2⟩ := mtfcZ_spec u.basis x00 n (fun v hv => ⟨by have := hn v hv; omega, fun _ => hn v hv⟩) u.z hz
  intro p hp k hk
  have hk' : k < n.length := by omega
  have h2 : 2 ≤ n.getD k 0 := by
    have : n.getD k 0 = n[k] := by simp [List.getD, hk']
    rw [this]
    exact hn _ (List.getElem_mem hk')
  have hd : digit n p k < n.getD k 0 := Nat.mod_lt _ (by omega)
  have h3 := hmap k hk p hp
  rw [(hz2 k hk').2 p hp] at h3
  have ha : u.basis.zRange.1 ≤ zPoint u.basis (n.getD k 0) (digit n p k) := by
    rw [← zPoint_first u.basis h2]
    rcases Nat.eq_zero_or_pos (digit n p k) with h | h
    · rw [h]
    · exact (zPoint_lt u.basis h hd).le
  have hb : zPoint u.basis (n.getD k 0) (digit n p k) ≤ u.basis.zRange.2 := by
    rw [← zPoint_last u.basis h2]
    rcases Nat.lt_or_ge (digit n p k) (n.getD k 0 - 1) with h | h
    · exact (zPoint_lt u.basis h (by omega)).le
    · rw [show digit n p k = n.getD k 0 - 1 by omega]
  have hL : 0 < u.xf k - u.x0 k := by linarith [hx k hk]
  have hr := zRange_lt u.basis
  rw [← h3] at ha hb
  unfold toBasis at ha hb
  obtain ⟨X, hX⟩ : ∃ X, X = (u.x.getD k []).getD p 0 := ⟨_, rfl⟩
  rw [← hX] at ha hb ⊢
  constructor
  · have h5 : 0 ≤ (u.basis.zRange.2 - u.basis.zRange.1) * (X - u.x0 k) / (u.xf k - u.x0 k) := by linarith
    have h6 : 0 ≤ (u.basis.zRange.2 - u.basis.zRange.1) * (X - u.x0 k) := by
      have := mul_nonneg h5 hL.le
      rwa [div_mul_cancel₀ _ hL.ne'] at this
    have := nonneg_of_mul_nonneg_right h6 (by linarith)
    linarith
  · have h5 : (u.basis.zRange.2 - u.basis.zRange.1) * (X - u.x0 k) / (u.xf k - u.x0 k) ≤ u.basis.zRange.2 - u.basis.zRange.1 := by linarith
    rw [div_le_iff₀ hL] at h5
    have := le_of_mul_le_mul_left h5 (by linarith)
    linarith

/-- A fit with a matrix `B` near a matrix `A` that stretches every vector by at least `√S`. -/
theorem fit_frame {N : ℕ} (A : Mat ℝ) (B : ℕ → ℕ → ℝ) {S κ : ℝ} (hS : 0 < S) (hκ0 : 0 ≤ κ) (hκ1 : 2 * κ ≤ 1)
    (hcond : ∀ ξ : ℕ → ℝ, S * ∑ i ∈ Finset.range A.cols, ξ i ^ 2 ≤ ∑ j ∈ Finset.range N, rowTimes A ξ j ^ 2)
    (hd : ∑ j ∈ Finset.range N, ∑ i ∈ Finset.range A.cols, (B j i - A.at_ j i) ^ 2 ≤ κ ^ 2 * S) (lib : LinAlg) (hlib : LinAlgCorrect lib)
    (method : Method) (hm : method ≠ .other) (timer : Bool) (res res' : Residual Key) (z : View Key) (args : List (View Key)) (L : List ℕ)
    (hL : GoodConstants L args) (hpz : ProperUnknowns z) (hz : NotRobustMany z) (hn : (entries z).length = A.cols) (y : ℕ → ℝ)
    (hR : AffineIn res z args N A.at_ fun j => -y j) (hR' : AffineIn res' z args N B fun j => -y j) :
    ∃ x x', (LS lib method none timer res z args L).1 = .ok x ∧ (LS lib method none timer res' z args L).1 = .ok x' ∧ SameForm z x ∧ SameForm z x' ∧
      norm2 (List.zipWith (· - ·) (entries x') (entries x)) ≤ 2 * κ * (norm2 (entries x) + 2 * norm2 (res (x :: args)) / Real.sqrt S) := by
  obtain ⟨σ, hσ⟩ : ∃ σ, σ = Real.sqrt S := ⟨_, rfl⟩
  have hσ2 : σ ^ 2 = S := by rw [hσ, Real.sq_sqrt hS.le]
  have hσ0 : 0 < σ := by rw [hσ]; exact Real.sqrt_pos.mpr hS
  obtain ⟨x, x', g1, g2, g3, g4, g5⟩ := C123_perturbation lib hlib method hm timer res res' z args L hL hpz hz N A.cols hn A.at_
    B (fun j => -y j) (fun j => -y j) hR hR' σ (κ * σ) 0 (by positivity) (by nlinarith) le_rfl
    (fun ξ => by rw [hσ2]; exact hcond ξ) (by rw [mul_pow, hσ2]; exact hd) (by simp)
  refine ⟨x, x', g1, g2, g3, g4, g5.trans ((fit_numbers hκ0 hκ1 hσ0 (Real.sqrt_nonneg _) (Real.sqrt_nonneg _)).trans (le_of_eq ?_))⟩
  rw [← hσ]
  rfl

/-- With at least two points in each direction, `n ≤ 2 (n - 1)` in each. -/
theorem grid_card (n : List ℕ) (hn : ∀ v ∈ n, 2 ≤ v) :
    (n.prod : ℝ) ≤ 4 ^ n.length * (n.map fun v : ℕ => ((v : ℝ) - 1) / 2).prod ∧ 0 < (n.map fun v : ℕ => ((v : ℝ) - 1) / 2).prod := by
  induction n with
  | nil => simp
  | cons v n ih =>
      obtain ⟨h1, h2⟩ := ih fun a ha => hn a (by simp [ha])
      have hv : (2 : ℝ) ≤ v := by exact_mod_cast hn v (by simp)
      constructor
      · rw [List.prod_cons, List.map_cons, List.prod_cons, List.length_cons, Nat.cast_mul, pow_succ]
        have h3 : (v : ℝ) ≤ 4 * (((v : ℝ) - 1) / 2) := by linarith
        calc (v : ℝ) * n.prod ≤ (4 * (((v : ℝ) - 1) / 2)) * (4 ^ n.length * (n.map fun v : ℕ => ((v : ℝ) - 1) / 2).prod) :=
              mul_le_mul h3 h1 (by positivity) (by linarith)
          _ = _ := by ring
      · rw [List.map_cons, List.prod_cons]
        exact mul_pos (by linarith) h2

/-- A fit on a grid with a matrix whose entries are within `e` of those of the exact one. -/
theorem grid_fit_core {n : List ℕ} (hn2 : ∀ v ∈ n, 2 ≤ v) (A : Mat ℝ) (B : ℕ → ℕ → ℝ) {e : ℝ} (he0 : 0 ≤ e) {dim : ℕ} (hlen : n.length = dim)
    (hcond : ∀ ξ : ℕ → ℝ, (n.map fun v : ℕ => ((v : ℝ) - 1) / 2).prod * ∑ i ∈ Finset.range A.cols, ξ i ^ 2 ≤ ∑ j ∈ Finset.range n.prod, rowTimes A ξ j ^ 2)
    (hent : ∀ j < n.prod, ∀ i < A.cols, |B j i - A.at_ j i| ≤ e) (hprec : 2 ^ (dim + 1) * e * Real.sqrt A.cols ≤ 1) (lib : LinAlg) (hlib : LinAlgCorrect lib)
    (method : Method) (hm : method ≠ .other) (timer : Bool) (res res' : Residual Key) (z : View Key) (args : List (View Key)) (L : List ℕ)
    (hL : GoodConstants L args) (hpz : ProperUnknowns z) (hz : NotRobustMany z) (hnz : (entries z).length = A.cols) (y : ℕ → ℝ)
    (hR : AffineIn res z args n.prod A.at_ fun j => -y j) (hR' : AffineIn res' z args n.prod B fun j => -y j) :
    ∃ x x', (LS lib method none timer res z args L).1 = .ok x ∧ (LS lib method none timer res' z args L).1 = .ok x' ∧ SameForm z x ∧ SameForm z x' ∧
      norm2 (List.zipWith (· - ·) (entries x') (entries x)) ≤ 2 ^ (dim + 1) * e * Real.sqrt A.cols *
        (norm2 (entries x) + 2 * norm2 (res (x :: args)) / Real.sqrt (n.map fun v : ℕ => ((v : ℝ) - 1) / 2).prod) := by
  obtain ⟨hcard, hS⟩ := grid_card n hn2
  obtain ⟨S, hSe⟩ : ∃ S, S = (n.map fun v : ℕ => ((v : ℝ) - 1) / 2).prod := ⟨_, rfl⟩
  rw [← hSe] at hcard hS ⊢
  obtain ⟨κ, hκ⟩ : ∃ κ, κ = 2 ^ dim * e * Real.sqrt A.cols := ⟨_, rfl⟩
  have h2κ : 2 ^ (dim + 1) * e * Real.sqrt A.cols = 2 * κ := by rw [hκ]; ring
  rw [h2κ] at hprec ⊢
  refine fit_frame A B hS (by rw [hκ]; positivity) hprec (fun ξ => by rw [hSe]; exact hcond ξ) ?_ lib hlib method hm timer res res' z args L
    hL hpz hz hnz y hR hR'
  refine (Finset.sum_le_sum fun j hj => Finset.sum_le_sum fun i hi =>
      (sq_abs (B j i - A.at_ j i)).symm.le.trans (pow_le_pow_left₀ (abs_nonneg _) (hent j (Finset.mem_range.mp hj) i (Finset.mem_range.mp hi)) 2)).trans ?_
  rw [Finset.sum_const, Finset.sum_const, Finset.card_range, Finset.card_range, nsmul_eq_mul, nsmul_eq_mul]
  have e1 : κ ^ 2 * S = 4 ^ dim * S * ((A.cols : ℝ) * e ^ 2) := by
    rw [hκ, mul_pow, mul_pow, Real.sq_sqrt (by positivity), ← pow_mul, mul_comm dim 2, pow_mul]
    norm_num
    ring
  rw [e1, ← hlen]
  exact mul_le_mul_of_nonneg_right hcard (by positivity)


/-- **C123**, several variables in rounded arithmetic: a fit on the grid of an `mtfc` object with Chebyshev polynomials. `A` is the exact matrix, `B` the one computed with every operation
rounded to nearest (by either backend, C90). With `e = 2 (25 deg² + dim) u`, `c` columns and `2 ^ (dim + 1) e √c ≤ 1`, the coefficients that `LS` finds with `B` differ from those it finds with `A` by
at most `2 ^ (dim + 1) e √c (‖ξ‖ + 2 ‖r‖ / √S)`, where `S` is the product of the `(nₖ - 1)/2` and `r` what remains of the data. -/
theorem C123_fit_grid {p : ℕ} {rnd : ℝ → ℝ} (R : RoundsToNearest p rnd) (hp : 6 ≤ p) (n : List ℕ) (nC : MNCArg) (deg dim : ℕ) (hdim : 1 ≤ dim) (backend : String)
    (x0 xf : Option (List ℝ)) (w : ℕ → ℕ → ℝ) (b : ℕ → ℝ) (u : Mtfc) (hu : mtfcInit n nC deg dim "CP" x0 xf backend w b = .ok u)
    (hn : ∀ v ∈ n, max 2 (deg + 1) ≤ v) (hx : ∀ k < dim, u.x0 k < u.xf k) (full : Bool) (hmu : (25 * ((deg + 1 : ℕ) : ℝ) ^ 2 + dim) * unit p ≤ 1) (e : ℝ)
    (he : e = 2 * ((25 * (deg : ℝ) ^ 2 + dim) * unit p)) :
    ∃ (A : Mat ℝ) (o : Model.PyBF.NBasisFunc (Fl rnd)) (B : Mat (Fl rnd)),
      u.Hjax n.prod (fun p k => (u.x.getD k []).getD p 0) (List.replicate dim 0) full = .ok A ∧
      Model.PyBF.nCP.init (fun l => (⟨u.x0 l⟩ : Fl rnd)) (fun l => ⟨u.xf l⟩) u.tab dim u.numC (deg + 1) = .ok o ∧
      o.H dim n.prod (fun k j => ⟨(u.x.getD k []).getD j 0⟩) (List.replicate dim 0) full = .ok B ∧ A.rows = n.prod ∧ B.rows = n.prod ∧ B.cols = A.cols ∧ A.cols ≤ (deg + 1) ^ dim ∧
      (2 ^ (dim + 1) * e * Real.sqrt A.cols ≤ 1 →
      ∀ (lib : LinAlg) (_ : LinAlgCorrect lib) (method : Method) (_ : method ≠ .other) (timer : Bool) (res res' : Residual Key) (z : View Key)
        (args : List (View Key)) (L : List ℕ) (_ : GoodConstants L args) (_ : ProperUnknowns z) (_ : NotRobustMany z) (_ : (entries z).length = A.cols)
        (y : ℕ → ℝ) (_ : AffineIn res z args n.prod A.at_ fun j => -y j) (_ : AffineIn res' z args n.prod (fun j i => (B.at_ j i).val) fun j => -y j),
        ∃ x x', (LS lib method none timer res z args L).1 = .ok x ∧ (LS lib method none timer res' z args L).1 = .ok x' ∧ SameForm z x ∧ SameForm z x' ∧
          norm2 (List.zipWith (· - ·) (entries x') (entries x)) ≤ 2 ^ (dim + 1) * e * Real.sqrt A.cols *
            (norm2 (entries x) + 2 * norm2 (res (x :: args)) / Real.sqrt (n.map fun v : ℕ => ((v : ℝ) - 1) / 2).prod)) := by
  have hu0 := unit_pos p
  have hn2 : ∀ v ∈ n, 2 ≤ v := fun v hv => (le_max_left _ _).trans (hn v hv)
  obtain ⟨hlen, -, -, -, hN, hbn, -⟩ := mtfcInit_ok hu
  have hf : u.basis.mcls w b = .tensor .cp := by
    have h6 : BasisName.parse "CP" = some .cp := by decide
    rw [h6] at hbn
    rw [← Option.some.inj hbn]
    rfl
  obtain ⟨A, hA, hr, hcond⟩ := C123_grid "CP" (Or.inl rfl) n nC deg dim hdim backend x0 xf w b u hu
    (fun v hv => by rw [pointsNeeded, if_neg (by decide)]; exact hn v hv) (fun k hk => (hx k hk).ne) full
  rw [hN] at hA
  obtain ⟨L0, hL0, hH⟩ := mtfc_tensor_H hdim hu hf full
  obtain ⟨A', hA', -, hc, hv⟩ := hH n.prod (fun p k => (u.x.getD k []).getD p 0) (List.replicate dim 0) (by simp)
  have eA : A' = A := by rw [hA'] at hA; injection hA
  subst eA
  obtain ⟨_, o, -, ho, hrest⟩ := C91_chebyshev R hp (numC := u.numC) hdim (by omega : 1 ≤ deg + 1) hx u.tab 0 (by
    rw [Nat.cast_zero, mul_zero, add_zero]; exact hmu)
  obtain ⟨L1, hL1, hV⟩ := hrest full
  obtain rfl := Verif.IsColumnOrder.unique hL0 hL1
  obtain ⟨V, -, ⟨B, hB, hB1, hB2, hB3⟩, hVe⟩ := hV n.prod (fun j k => (u.x.getD k []).getD j 0) (List.replicate dim 0)
    (grid_inside hdim hu hn2 hx) (by simp) (fun l _ => (zeros_getD dim l).le)
  refine ⟨A', o, B, hA', ho, hB, hr, hB1, by rw [hB2, hc], by rw [hc]; exact columns_card hL0, ?_⟩
  have he0 : 0 ≤ e := by rw [he]; positivity
  have hent : ∀ j < n.prod, ∀ i < A'.cols, |(B.at_ j i).val - A'.at_ j i| ≤ e := by
    intro j hj i hi
    rw [hc] at hi
    have h1 := hVe j hj _ (List.getElem_mem hi)
    rw [hB3 j hj i hi, hv j hj i hi]
    refine h1.trans ?_
    have hprod : ∏ l : Fin dim, ((((List.replicate dim 0).getD (l : ℕ) 0).factorial : ℝ) * ((L0[i] l : ℕ) : ℝ) ^ (2 * (List.replicate dim 0).getD (l : ℕ) 0) *
        (2 / (u.xf l - u.x0 l)) ^ (List.replicate dim 0).getD (l : ℕ) 0) = 1 := by
      refine Finset.prod_eq_one fun l _ => ?_
      have h0 := zeros_getD dim l
      rw [h0]
      simp
    rw [hprod, mul_one, he]
    refine mul_le_mul_of_nonneg_left (mul_le_mul_of_nonneg_right ?_ hu0.le) (by norm_num)
    have hα := ((hL0.mem _).mp (List.getElem_mem hi)).1
    have a1 : ∑ l, ((L0[i] l : ℕ) : ℝ) ^ 2 ≤ (∑ l, ((L0[i] l : ℕ) : ℝ)) ^ 2 := Finset.sum_sq_le_sq_sum_of_nonneg fun l _ => by positivity
    have a2 : (∑ l, ((L0[i] l : ℕ) : ℝ)) ≤ deg := by exact_mod_cast Nat.lt_succ_iff.mp hα
    have a3 := a1.trans (pow_le_pow_left₀ (Finset.sum_nonneg fun l _ => by positivity) a2 2)
    rw [Nat.cast_zero, mul_zero, add_zero]
    linarith
  refine fun hprec lib hlib method hm timer res res' z args L hL hpz hz hnz y hR hR' => grid_fit_core hn2 A' _ he0 hlen (fun ξ => (hcond ξ).1) hent hprec lib hlib method hm timer res res' z args L
    hL hpz hz hnz y hR hR'

/-- **C123**, the same with Fourier functions; `ε` is the accuracy of the library's sine and cosine, and `e = 2 (dim (2 ε + u) + 107 deg u)`. -/
theorem C123_fit_grid_fourier {p : ℕ} {rnd : ℝ → ℝ} [Libm (Fl rnd)] (R : RoundsToNearest p rnd) (hp : 6 ≤ p) {ε : ℝ} (hlm : LibmAccurate rnd ε) (n : List ℕ) (nC : MNCArg) (deg dim : ℕ) (hdim : 1 ≤ dim) (backend : String)
    (x0 xf : Option (List ℝ)) (w : ℕ → ℕ → ℝ) (b : ℕ → ℝ) (u : Mtfc) (hu : mtfcInit n nC deg dim "FS" x0 xf backend w b = .ok u)
    (hn : ∀ v ∈ n, 2 * ((deg + 1) / 2) + 2 ≤ v) (hx : ∀ k < dim, u.x0 k < u.xf k) (full : Bool) (hmp : deg + 1 ≤ 2 ^ p) (e : ℝ)
    (he : e = 2 * (dim * (2 * ε + unit p) + 107 * deg * unit p)) (he2 : e ≤ 2) :
    ∃ (A : Mat ℝ) (o : Model.PyBF.NBasisFunc (Fl rnd)) (B : Mat (Fl rnd)),
      u.Hjax n.prod (fun p k => (u.x.getD k []).getD p 0) (List.replicate dim 0) full = .ok A ∧
      Model.PyBF.nFS.init (fun l => (⟨u.x0 l⟩ : Fl rnd)) (fun l => ⟨u.xf l⟩) u.tab dim u.numC (deg + 1) = .ok o ∧
      o.H dim n.prod (fun k j => ⟨(u.x.getD k []).getD j 0⟩) (List.replicate dim 0) full = .ok B ∧ A.rows = n.prod ∧ B.rows = n.prod ∧ B.cols = A.cols ∧ A.cols ≤ (deg + 1) ^ dim ∧
      (2 ^ (dim + 1) * e * Real.sqrt A.cols ≤ 1 →
      ∀ (lib : LinAlg) (_ : LinAlgCorrect lib) (method : Method) (_ : method ≠ .other) (timer : Bool) (res res' : Residual Key) (z : View Key)
        (args : List (View Key)) (L : List ℕ) (_ : GoodConstants L args) (_ : ProperUnknowns z) (_ : NotRobustMany z) (_ : (entries z).length = A.cols)
        (y : ℕ → ℝ) (_ : AffineIn res z args n.prod A.at_ fun j => -y j) (_ : AffineIn res' z args n.prod (fun j i => (B.at_ j i).val) fun j => -y j),
        ∃ x x', (LS lib method none timer res z args L).1 = .ok x ∧ (LS lib method none timer res' z args L).1 = .ok x' ∧ SameForm z x ∧ SameForm z x' ∧
          norm2 (List.zipWith (· - ·) (entries x') (entries x)) ≤ 2 ^ (dim + 1) * e * Real.sqrt A.cols *
            (norm2 (entries x) + 2 * norm2 (res (x :: args)) / Real.sqrt (n.map fun v : ℕ => ((v : ℝ) - 1) / 2).prod)) := by
  have hu0 := unit_pos p
  have hn2 : ∀ v ∈ n, 2 ≤ v := fun v hv => by have := hn v hv; omega
  obtain ⟨hlen, -, -, -, hN, hbn, -⟩ := mtfcInit_ok hu
  have hf : u.basis.mcls w b = .tensor .fs := by
    have h6 : BasisName.parse "FS" = some .fs := by decide
    rw [h6] at hbn
    rw [← Option.some.inj hbn]
    rfl
  obtain ⟨A, hA, hr, hcond⟩ := C123_grid "FS" (Or.inr rfl) n nC deg dim hdim backend x0 xf w b u hu
    (fun v hv => by rw [pointsNeeded, if_pos (by decide)]; exact hn v hv) (fun k hk => (hx k hk).ne) full
  rw [hN] at hA
  obtain ⟨L0, hL0, hH⟩ := mtfc_tensor_H hdim hu hf full
  obtain ⟨A', hA', -, hc, hv⟩ := hH n.prod (fun p k => (u.x.getD k []).getD p 0) (List.replicate dim 0) (by simp)
  have eA : A' = A := by rw [hA'] at hA; injection hA
  subst eA
  obtain ⟨_, o, -, ho, hrest⟩ := C92_several R hp hlm (numC := u.numC) hdim (by omega : 1 ≤ deg + 1) hmp hx u.tab
  obtain ⟨L1, hL1, hV⟩ := hrest full
  obtain rfl := Verif.IsColumnOrder.unique hL0 hL1
  obtain ⟨V, -, ⟨B, hB, hB1, hB2, hB3⟩, hVe⟩ := hV n.prod (fun j k => (u.x.getD k []).getD j 0) (List.replicate dim 0)
    (grid_inside hdim hu hn2 hx) (by simp) (fun l _ => by
      rw [zeros_getD, Nat.cast_zero, mul_zero, zero_add]
      linarith [unit_le hp])
  refine ⟨A', o, B, hA', ho, hB, hr, hB1, by rw [hB2, hc], by rw [hc]; exact columns_card hL0, ?_⟩
  have hε : 0 ≤ ε := (abs_nonneg _).trans (hlm.sin 0)
  have he0 : 0 ≤ e := by rw [he]; positivity
  have hent : ∀ j < n.prod, ∀ i < A'.cols, |(B.at_ j i).val - A'.at_ j i| ≤ e := by
    intro j hj i hi
    rw [hc] at hi
    obtain ⟨s, hs⟩ : ∃ s : ℝ, s = ∑ l : Fin dim, (2 * ε + (107 * (((L0[i] l + 1) / 2 : ℕ) : ℝ) + 7 * (((List.replicate dim 0).getD (l : ℕ) 0 : ℕ) : ℝ) + 1) * unit p) := ⟨_, rfl⟩
    have hse : s ≤ dim * (2 * ε + unit p) + 107 * deg * unit p := by
      have hα := ((hL0.mem _).mp (List.getElem_mem hi)).1
      have a2 : (∑ l, ((L0[i] l : ℕ) : ℝ)) ≤ deg := by exact_mod_cast Nat.lt_succ_iff.mp hα
      have a3 : s ≤ ∑ l : Fin dim, ((2 * ε + unit p) + 107 * unit p * (L0[i] l : ℝ)) := by
        rw [hs]
        refine Finset.sum_le_sum fun l _ => ?_
        have h0 := zeros_getD dim l
        rw [h0, Nat.cast_zero, mul_zero, add_zero]
        have h1 : (((L0[i] l + 1) / 2 : ℕ) : ℝ) ≤ (L0[i] l : ℝ) := by exact_mod_cast (by omega : (L0[i] l + 1) / 2 ≤ L0[i] l)
        nlinarith
      rw [Finset.sum_add_distrib, ← Finset.mul_sum, Finset.sum_const, Finset.card_univ, Fintype.card_fin, nsmul_eq_mul] at a3
      nlinarith
    have h1 := hVe j hj _ (List.getElem_mem hi) s hs (by linarith)
    rw [hB3 j hj i hi, hv j hj i hi]
    refine h1.trans ?_
    have hprod : ∏ l : Fin dim, ((((L0[i] l + 1) / 2 : ℕ) : ℝ) * (2 * Real.pi / (u.xf l - u.x0 l))) ^ (List.replicate dim 0).getD (l : ℕ) 0 = 1 := by
      refine Finset.prod_eq_one fun l _ => ?_
      have h0 := zeros_getD dim l
      rw [h0, pow_zero]
    rw [hprod, mul_one, he]
    linarith
  refine fun hprec lib hlib method hm timer res res' z args L hL hpz hz hnz y hR hR' => grid_fit_core hn2 A' _ he0 hlen (fun ξ => (hcond ξ).1) hent hprec lib hlib method hm timer res res' z args L
    hL hpz hz hnz y hR hR'

/-- A concrete case: twelve points in two variables, degree 2, in doubles; the condition on the precision holds. -/
example {rnd : ℝ → ℝ} (R : RoundsToNearest 53 rnd) (w : ℕ → ℕ → ℝ) (b : ℕ → ℝ) : ∃ u : Mtfc,
    mtfcInit [3, 4] (.list [.int 1, .int 1]) 2 2 "CP" (some [0, 0]) (some [1, 2]) "C++" w b = .ok u ∧
    ∃ (A : Mat ℝ) (o : Model.PyBF.NBasisFunc (Fl rnd)) (B : Mat (Fl rnd)),
      u.Hjax 12 (fun p k => (u.x.getD k []).getD p 0) (List.replicate 2 0) false = .ok A ∧
      o.H 2 12 (fun k j => ⟨(u.x.getD k []).getD j 0⟩) (List.replicate 2 0) false = .ok B ∧ A.rows = 12 ∧ B.rows = 12 ∧
      2 ^ (2 + 1) * (2 * ((25 * ((2 : ℕ) : ℝ) ^ 2 + (2 : ℕ)) * unit 53)) * Real.sqrt A.cols ≤ 1 := by
  obtain ⟨u, hu, h0, hf⟩ := mtfcInit_succeeds [3, 4] (.list [.int 1, .int 1]) 2 2 (by omega) "CP" "C++" [0, 0] [1, 2] w b
    rfl rfl rfl (by simp) .cp rfl .cpp rfl (1, [[0], [0]], []) (by decide)
  have hx : ∀ k < 2, u.x0 k < u.xf k := by
    intro k hk
    rw [h0, hf]
    interval_cases k <;> simp [vecOf]
  obtain ⟨A, o, B, h1, -, h3, h4, h5, -, h7, -⟩ := C123_fit_grid (Key := ℕ) R (by norm_num) _ _ _ _ (by omega) _ _ _ w b u hu (by simp) hx false
    (by unfold unit; norm_num) _ rfl
  refine ⟨u, hu, A, o, B, h1, h3, h4, h5, ?_⟩
  have h8 : Real.sqrt A.cols ≤ 3 := by
    rw [Real.sqrt_le_left (by norm_num)]
    have : (A.cols : ℝ) ≤ 9 := by exact_mod_cast h7
    linarith
  have e : unit 53 = 1 / 9007199254740992 := by unfold unit; norm_num
  rw [e]
  refine (mul_le_mul_of_nonneg_left h8 (by positivity)).trans ?_
  norm_num

end Verif.Props
