import Verif.Lemmas.Mtfc

/-!
# Property theorem: the grid of `mtfc` (C14)

`u.z` and `u.x` are the arrays computed by the constructor: row `k` belongs to dimension `k`, the columns are the points.
`zPoint` (`Verif.Props.Domain`) gives the points of one dimension.
-/

namespace Verif.Props

open Verif Verif.Py Verif.Np Verif.Spec Verif.Model Verif.Model.Py

theorem dimPoints_eq (basis : BasisName) (x00 : ℝ) {N : ℕ} (hN : 1 ≤ N) (hcheb : basis = .cp ∨ basis = .lep → 2 ≤ N) :
    dimPoints basis x00 N = (List.range N).map (zPoint basis N) := by
  have cheb : 2 ≤ N → (linspace (0 * x00) ((N - 1 : ℕ) : ℝ) N).map
      (fun I => Real.cos (Real.pi * (((N - 1 : ℕ) : ℝ) - I) / ((N - 1 : ℕ) : ℝ))) =
      (List.range N).map fun i => Real.cos (Real.pi * (((N - 1 : ℕ) : ℝ) - (i : ℕ)) / ((N - 1 : ℕ) : ℝ)) := by
    intro h2
    have hn : (((N - 1 : ℕ) : ℝ)) ≠ 0 := by
      have : N - 1 ≠ 0 := by omega
      exact_mod_cast this
    have hc : ((N : ℝ) - 1) = ((N - 1 : ℕ) : ℝ) := by rw [Nat.cast_sub (by omega)]; simp
    have key : ∀ i : ℕ, (0 : ℝ) * x00 + (i : ℝ) * ((((N - 1 : ℕ) : ℝ) - 0 * x00) / ((N : ℝ) - 1)) = i := by
      intro i
      rw [hc, zero_mul, sub_zero, div_self hn]
      ring
    simp only [linspace, List.map_map, Function.comp_def, key]
  cases basis with
  | cp => exact cheb (hcheb (Or.inl rfl))
  | lep => exact cheb (hcheb (Or.inr rfl))
  | fs => rfl
  | elm a => rfl

theorem mtfcZ_spec (basis : BasisName) (x00 : ℝ) (n : List ℕ) (hn : ∀ v ∈ n, 1 ≤ v ∧ (basis = .cp ∨ basis = .lep → 2 ≤ v))
    (z : List (List ℝ)) (hz : mtfcZ basis x00 n = .ok z) :
    z.length = n.length ∧ ∀ k < n.length, (z.getD k []).length = n.prod ∧
      ∀ p < n.prod, (z.getD k []).getD p 0 = zPoint basis (n.getD k 0) (digit n p k) := by
  have key : ∀ (L : List ℕ) (z : List (List ℝ)),
      L.mapM (fun k => gridRow n k (dimPoints basis x00 (n.getD k 0))) = .ok z →
      z.length = L.length ∧ ∀ i (hi : i < L.length),
        gridRow n L[i] (dimPoints basis x00 (n.getD L[i] 0)) = .ok (z.getD i []) := by
    intro L
    induction L with
    | nil => intro z h; cases h; simp
    | cons a L ih =>
      intro z h
      rw [List.mapM_cons] at h
      cases h1 : gridRow n a (dimPoints basis x00 (n.getD a 0)) with
      | error e => rw [h1] at h; cases h
      | ok r =>
      rw [h1] at h
      simp only [bind, Except.bind] at h
      cases h2 : L.mapM (fun k => gridRow n k (dimPoints basis x00 (n.getD k 0))) with
      | error e => rw [h2] at h; cases h
      | ok z' =>
      rw [h2] at h
      cases h
      obtain ⟨h3, h4⟩ := ih z' h2
      refine ⟨by simp [h3], fun i hi => ?_⟩
      cases i with
      | zero => simpa using h1
      | succ i => simpa using h4 i (by simpa using hi)
  obtain ⟨h1, h2⟩ := key _ _ hz
  refine ⟨by simpa using h1, fun k hk => ?_⟩
  have h3 := h2 k (by simpa using hk)
  simp only [List.getElem_range] at h3
  have hnk : n.getD k 0 = n[k] := by simp [hk]
  obtain ⟨hv1, hv2⟩ := hn n[k] (List.getElem_mem hk)
  have hdp := dimPoints_eq basis x00 hv1 hv2
  rw [hnk, hdp] at h3
  obtain ⟨r, hr, hlen, hpt⟩ := gridRow_spec hk (pts := (List.range n[k]).map (zPoint basis n[k])) (by simp)
    (fun v hv => (hn v hv).1)
  rw [hr] at h3
  rw [← Except.ok.inj h3]
  refine ⟨hlen, fun p hp => ?_⟩
  rw [List.getD_eq_getElem?_getD, hpt p hp]
  have : p / (n.drop (k + 1)).prod % n[k] < n[k] := Nat.mod_lt _ (by omega)
  simp [this, digit, hk]

/-- **C14.** Whenever `mtfc(n, nC, deg, dim, basis, x0, xf, backend)` succeeds (at least one point per dimension, two for the
Chebyshev and Legendre grids, and a non-degenerate domain): the arrays `z` and `x` have one row per dimension and `prod(n)`
columns; every choice of one point index per dimension is the index tuple of exactly one column; the columns are sorted with
the first coordinate varying slowest; and `x` holds the points of the problem domain that the domain map sends to `z`. -/
theorem C14_grid (n : List ℕ) (nC : MNCArg) (deg dim : ℕ) (hdim : 1 ≤ dim) (basis backend : String)
    (x0 xf : Option (List ℝ)) (w : ℕ → ℕ → ℝ) (b : ℕ → ℝ) (u : Mtfc)
    (hu : mtfcInit n nC deg dim basis x0 xf backend w b = .ok u)
    (hn : ∀ v ∈ n, 1 ≤ v ∧ (basis = "CP" ∨ basis = "LeP" → 2 ≤ v)) (hx : ∀ k < dim, u.x0 k ≠ u.xf k) :
    n.length = dim ∧ u.z.length = dim ∧ u.x.length = dim ∧
    (∀ k < dim, (u.z.getD k []).length = n.prod ∧ (u.x.getD k []).length = n.prod) ∧
    (∀ i : ℕ → ℕ, (∀ k < dim, i k < n.getD k 0) →
      ∃! p, p < n.prod ∧ ∀ k < dim, (u.z.getD k []).getD p 0 = zPoint u.basis (n.getD k 0) (i k)) ∧
    (∀ p < n.prod, ∀ q < n.prod, p < q ↔ ∃ k < dim, (u.z.getD k []).getD p 0 < (u.z.getD k []).getD q 0 ∧
      ∀ l < k, (u.z.getD l []).getD p 0 = (u.z.getD l []).getD q 0) ∧
    (∀ k < dim, ∀ p < n.prod, toBasis (u.x0 k) (u.xf k) u.basis.zRange.1 u.basis.zRange.2 ((u.x.getD k []).getD p 0) =
      (u.z.getD k []).getD p 0) := by
  obtain ⟨hlen, -, -, -, -, hb, -, -, -, ⟨be, -, hobj⟩, ⟨x00, hz⟩, hxx⟩ := mtfcInit_ok hu
  have hn' : ∀ v ∈ n, 1 ≤ v ∧ (u.basis = .cp ∨ u.basis = .lep → 2 ≤ v) := by
    intro v hv
    refine ⟨(hn v hv).1, fun h => (hn v hv).2 ?_⟩
    unfold BasisName.parse at hb
    rcases h with h | h <;> rw [h] at hb <;> split_ifs at hb <;> simp_all
  obtain ⟨hz1, hz2⟩ := mtfcZ_spec u.basis x00 n hn' u.z hz
  rw [hlen] at hz1 hz2
  have hxl : u.x.length = dim := by rw [hxx]; simp
  have hxk : ∀ k < dim, u.x.getD k [] = (u.z.getD k []).map fun z => (z - u.basis.zRange.1) / u.obj.c k + u.x0 k := by
    intro k hk
    rw [hxx]
    simp [hk]
  have hc : ∀ k < dim, u.obj.c k = (u.basis.zRange.2 - u.basis.zRange.1) / (u.xf k - u.x0 k) := by
    intro k hk
    cases hbn : u.basis with
    | cp =>
      rw [hbn] at hobj
      obtain ⟨o, h1, h2, -⟩ := MObj.new_tensor be .cp (m := deg + 1) hdim (by omega) u.x0 u.xf u.numC u.tab u.nCl
      simp only [BasisName.mcls] at hobj
      rw [h1] at hobj; cases hobj
      rw [h2 k hk]; rfl
    | lep =>
      rw [hbn] at hobj
      obtain ⟨o, h1, h2, -⟩ := MObj.new_tensor be .lep (m := deg + 1) hdim (by omega) u.x0 u.xf u.numC u.tab u.nCl
      simp only [BasisName.mcls] at hobj
      rw [h1] at hobj; cases hobj
      rw [h2 k hk]; rfl
    | fs =>
      rw [hbn] at hobj
      obtain ⟨o, h1, h2, -⟩ := MObj.new_tensor be .fs (m := deg + 1) hdim (by omega) u.x0 u.xf u.numC u.tab u.nCl
      simp only [BasisName.mcls] at hobj
      rw [h1] at hobj; cases hobj
      rw [h2 k hk]; rfl
    | elm a =>
      rw [hbn] at hobj
      obtain ⟨o, h1, h2, -⟩ := MObj.new_elm be a w b dim (deg + 1) u.x0 u.xf u.numC u.tab u.nCl
      simp only [BasisName.mcls] at hobj
      rw [h1] at hobj; cases hobj
      rw [h2 k hk]; simp [BasisName.zRange]
  have hdl : ∀ p k, k < dim → digit n p k < n.getD k 0 := by
    intro p k hk
    have hk' : k < n.length := by omega
    refine Nat.mod_lt _ ?_
    have := (hn n[k] (List.getElem_mem hk')).1
    simp [hk']
    omega
  have hzinj : ∀ k < dim, ∀ i j, i < n.getD k 0 → j < n.getD k 0 →
      (zPoint u.basis (n.getD k 0) i < zPoint u.basis (n.getD k 0) j ↔ i < j) ∧
      (zPoint u.basis (n.getD k 0) i = zPoint u.basis (n.getD k 0) j ↔ i = j) := by
    intro k _ i j hi hj
    rcases Nat.lt_trichotomy i j with h | h | h
    · have := zPoint_lt u.basis h hj
      exact ⟨⟨fun _ => h, fun _ => this⟩, ⟨fun e => absurd e this.ne, fun e => by omega⟩⟩
    · subst h; simp
    · have := zPoint_lt u.basis h hi
      exact ⟨⟨fun e => absurd e this.not_gt, fun e => by omega⟩, ⟨fun e => absurd e this.ne', fun e => by omega⟩⟩
  refine ⟨hlen, hz1, hxl, fun k hk => ⟨(hz2 k hk).1, ?_⟩, fun i hi => ?_, fun p hp q hq => ?_, fun k hk p hp => ?_⟩
  · rw [hxk k hk, List.length_map, (hz2 k hk).1]
  · have hi' : ∀ k, k < n.length → i k < n.getD k 0 := fun k hk => hi k (by omega)
    refine ⟨encode n i, ⟨encode_lt hi', fun k hk => ?_⟩, fun q ⟨hq, hqz⟩ => ?_⟩
    · rw [(hz2 k hk).2 _ (encode_lt hi'), digit_encode hi' (by omega)]
    · rw [← encode_digit hq]
      have : ∀ k < dim, digit n q k = i k := fun k hk => by
        have h := hqz k hk
        rw [(hz2 k hk).2 q hq] at h
        exact (hzinj k hk _ _ (hdl q k hk) (hi k hk)).2.mp h
      have hcongr : ∀ (n' : List ℕ) (i j : ℕ → ℕ), (∀ k, k < n'.length → i k = j k) → encode n' i = encode n' j := by
        intro n'
        induction n' with
        | nil => intros; rfl
        | cons b n' ih' =>
          intro i j h
          rw [encode, encode, h 0 (by simp), ih' _ (fun k => j (k + 1)) fun k hk => h (k + 1) (by simpa using hk)]
      exact hcongr _ _ _ fun k hk => this k (by omega)
  · have hd : ∀ (a b : ℕ), a < n.prod → b < n.prod → (∃ k < dim, (u.z.getD k []).getD a 0 < (u.z.getD k []).getD b 0 ∧
      ∀ l < k, (u.z.getD l []).getD a 0 = (u.z.getD l []).getD b 0) → a < b := by
      rintro a b ha hb' ⟨k, hk, hlt, heq⟩
      rw [← encode_digit ha, ← encode_digit hb']
      refine encode_lt_encode (fun k hk => hdl a k (by omega)) (k := k) (by omega) (fun l hl => ?_) ?_
      · have h := heq l hl
        rw [(hz2 l (by omega)).2 a ha, (hz2 l (by omega)).2 b hb'] at h
        exact (hzinj l (by omega) _ _ (hdl a l (by omega)) (hdl b l (by omega))).2.mp h
      · rw [(hz2 k hk).2 a ha, (hz2 k hk).2 b hb'] at hlt
        exact (hzinj k hk _ _ (hdl a k hk) (hdl b k hk)).1.mp hlt
    refine ⟨fun hpq => ?_, hd p q hp hq⟩
    by_contra hno
    have hex : ∃ k, k < dim ∧ (u.z.getD k []).getD p 0 ≠ (u.z.getD k []).getD q 0 := by
      by_contra hall
      push Not at hall
      have he : ∀ k < dim, digit n p k = digit n q k := fun k hk => by
        have h := hall k hk
        rw [(hz2 k hk).2 p hp, (hz2 k hk).2 q hq] at h
        exact (hzinj k hk _ _ (hdl p k hk) (hdl q k hk)).2.mp h
      have hcongr : ∀ (n' : List ℕ) (i j : ℕ → ℕ), (∀ k, k < n'.length → i k = j k) → encode n' i = encode n' j := by
        intro n'
        induction n' with
        | nil => intros; rfl
        | cons b n' ih' =>
          intro i j h
          rw [encode, encode, h 0 (by simp), ih' _ (fun k => j (k + 1)) fun k hk => h (k + 1) (by simpa using hk)]
      have := hcongr n _ _ (fun k hk => he k (by omega))
      rw [encode_digit hp, encode_digit hq] at this
      omega
    classical
    obtain ⟨hk, hne⟩ := Nat.find_spec hex
    have hmin : ∀ l < Nat.find hex, (u.z.getD l []).getD p 0 = (u.z.getD l []).getD q 0 := by
      intro l hl
      by_contra h
      exact Nat.find_min hex hl ⟨by omega, h⟩
    rcases lt_or_gt_of_ne hne with h | h
    · exact hno ⟨_, hk, h, hmin⟩
    · have := hd q p hq hp ⟨_, hk, h, fun l hl => (hmin l hl).symm⟩
      omega
  · have hp' : p < (u.z.getD k []).length := by rw [(hz2 k hk).1]; exact hp
    have hzlt := zRange_lt u.basis
    have h1 : u.xf k - u.x0 k ≠ 0 := sub_ne_zero.mpr (hx k hk).symm
    have h2 : u.basis.zRange.2 - u.basis.zRange.1 ≠ 0 := sub_ne_zero.mpr hzlt.ne'
    have e : (u.x.getD k []).getD p 0 =
        ((u.z.getD k []).getD p 0 - u.basis.zRange.1) / u.obj.c k + u.x0 k := by
      rw [hxk k hk]
      generalize u.z.getD k [] = row at hp'
      simp [hp']
    rw [e, hc k hk]
    unfold toBasis
    field_simp
    ring

/-- The constructor succeeds whenever the lengths fit, there is a point in every dimension and the argument `nC` is accepted. -/
theorem mtfcInit_succeeds (n : List ℕ) (nC : MNCArg) (deg dim : ℕ) (hdim : 1 ≤ dim) (basis backend : String)
    (x0 xf : List ℝ) (w : ℕ → ℕ → ℝ) (b : ℕ → ℝ) (hn : n.length = dim) (h0 : x0.length = dim) (hf : xf.length = dim)
    (hpos : ∀ v ∈ n, 1 ≤ v) (bn : BasisName) (hbn : BasisName.parse basis = some bn) (be : Backend)
    (hbe : Backend.parse backend = some be) (r : ℕ × List (List ℤ) × List ℤ)
    (hr : mtfcRemoved deg dim bn nC = .ok r) :
    ∃ u, mtfcInit n nC deg dim basis (some x0) (some xf) backend w b = .ok u ∧ u.x0 = vecOf x0 ∧ u.xf = vecOf xf := by
  have hobj : ∃ o, MObj.new be (bn.mcls w b) dim (vecOf x0) (vecOf xf) r.1 (fun k g => (r.2.1.getD k []).getD g 0) r.2.2
      (deg + 1) = .ok o := by
    cases bn with
    | cp => exact (MObj.new_tensor be .cp hdim (by omega) _ _ _ _ _).imp fun o h => h.1
    | lep => exact (MObj.new_tensor be .lep hdim (by omega) _ _ _ _ _).imp fun o h => h.1
    | fs => exact (MObj.new_tensor be .fs hdim (by omega) _ _ _ _ _).imp fun o h => h.1
    | elm a => exact (MObj.new_elm be a w b dim (deg + 1) _ _ _ _ _).imp fun o h => h.1
  have hz : ∀ x00, ∃ z, mtfcZ bn x00 n = .ok z := by
    intro x00
    have : ∀ L : List ℕ, ∃ z, L.mapM (fun k => gridRow n k (dimPoints bn x00 (n.getD k 0))) = Except.ok z := by
      intro L
      induction L with
      | nil => exact ⟨[], rfl⟩
      | cons k L ih =>
        obtain ⟨z, hz⟩ := ih
        have hP : 0 < (n.drop (k + 1)).prod := List.prod_pos fun v hv => hpos v (List.mem_of_mem_drop hv)
        have h1 : ∃ r, gridRow n k (dimPoints bn x00 (n.getD k 0)) = .ok r := by
          unfold gridRow
          simp only
          rw [if_neg (by omega)]
          exact ⟨_, rfl⟩
        obtain ⟨r, h1⟩ := h1
        rw [List.mapM_cons, h1, hz]
        exact ⟨_, rfl⟩
    exact this _
  have hx00 : x0First bn dim (some x0) = .ok (x0.getD 0 0) := by cases bn <;> rfl
  obtain ⟨o, ho⟩ := hobj
  obtain ⟨z, hz⟩ := hz (x0.getD 0 0)
  unfold mtfcInit
  rw [if_neg (by omega)]
  have e0 : mtfcEnd dim (some x0) = .ok x0 := by simp [mtfcEnd, h0]
  have ef : mtfcEnd dim (some xf) = .ok xf := by simp [mtfcEnd, hf]
  simp only [e0, ef, hbn, hbe, bind, Except.bind, hr, ho, hx00, hz]
  exact ⟨_, rfl, rfl, rfl⟩

/-- Concrete case: `mtfc([2, 3], [1, 1], 4, dim=2, basis="CP", x0=[0, 0], xf=[1, 2])` satisfies the hypotheses of `C14_grid`. -/
example (w : ℕ → ℕ → ℝ) (b : ℕ → ℝ) : ∃ u : Mtfc,
    mtfcInit [2, 3] (.list [.int 1, .int 1]) 4 2 "CP" (some [0, 0]) (some [1, 2]) "C++" w b = .ok u ∧
    (∀ v ∈ [2, 3], 1 ≤ v ∧ (("CP" : String) = "CP" ∨ ("CP" : String) = "LeP" → 2 ≤ v)) ∧ ∀ k < 2, u.x0 k ≠ u.xf k := by
  obtain ⟨u, hu, h0, hf⟩ := mtfcInit_succeeds [2, 3] (.list [.int 1, .int 1]) 4 2 (by omega) "CP" "C++" [0, 0] [1, 2] w b
    rfl rfl rfl (by simp) .cp rfl .cpp rfl (1, [[0], [0]], []) (by decide)
  refine ⟨u, hu, by simp, fun k hk => ?_⟩
  rw [h0, hf]
  interval_cases k <;> simp [vecOf]

end Verif.Props
