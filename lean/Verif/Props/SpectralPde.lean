import Verif.Model.SpectralPde
import Verif.Props.PdeErrors

/-!
# C119: Poisson's equation with the boundary conditions as further rows
-/

namespace Verif.Props

open Set Verif Verif.Mem Verif.Py Verif.Np Verif.Spec Verif.Model Verif.Model.Py Verif.Model.LSq Verif.Model.Prog
open Verif.Lemmas.LSq Verif.Lemmas.LinAlg
open scoped ContDiff

open Classical in
/-- The sum of the squares that the program means to make small: of the residual at all points, and of the four boundary conditions at the points on
each side. A corner lies on two sides. -/
noncomputable def boundarySq (pts : List (ℝ × ℝ)) (z : ℝ → ℝ → ℝ) : ℝ :=
  sumSq2 pts (poiResid z) + sumSq2 (pts.filter fun t => t.1 = 0) (fun x y => z x y - y ^ 3) +
    sumSq2 (pts.filter fun t => t.1 = 1) (fun x y => z x y - (1 + y ^ 3) * Real.exp (-1)) +
    sumSq2 (pts.filter fun t => t.2 = 0) (fun x y => z x y - x * Real.exp (-x)) +
    sumSq2 (pts.filter fun t => t.2 = 1) (fun x y => z x y - (x + 1) * Real.exp (-x))

/-! ## Rows -/

theorem vec_append_left {a b : List ℝ} {i : ℕ} (h : i < a.length) : vec (a ++ b) i = vec a i := by
  rw [vec, vec, List.getD, List.getD, List.getElem?_append_left h]

theorem vec_append_right (a b : List ℝ) (i : ℕ) : vec (a ++ b) (a.length + i) = vec b i := by
  rw [vec, vec, List.getD, List.getD, List.getElem?_append_right (by omega), Nat.add_sub_cancel_left]

/-- Rows put under each other add to the sum of squares. -/
theorem vstack_missSq {A B : Mat ℝ} (hc : A.cols = B.cols) {a b : List ℝ} (ha : a.length = A.rows) :
    ∃ M, vstack A B = .ok M ∧ M.rows = A.rows + B.rows ∧ M.cols = A.cols ∧ ∀ y,
      missSq M.rows M.cols M.at_ y (vec (a ++ b)) = missSq A.rows A.cols A.at_ y (vec a) + missSq B.rows B.cols B.at_ y (vec b) := by
  refine ⟨_, if_pos hc, rfl, rfl, fun y => ?_⟩
  unfold missSq
  rw [Finset.sum_range_add]
  congr 1
  · refine Finset.sum_congr rfl fun i hi => ?_
    have hi := Finset.mem_range.mp hi
    simp only [if_pos hi]
    rw [vec_append_left (by omega)]
  · refine Finset.sum_congr rfl fun i _ => ?_
    have : ¬ A.rows + i < A.rows := by omega
    simp only [if_neg this, Nat.add_sub_cancel_left]
    rw [← ha, vec_append_right, hc]

/-- Rows that belong to points. -/
theorem missSq_points {m : ℕ} {A : ℕ → ℕ → ℝ} {pts : List (ℝ × ℝ)} {y : ℕ → ℝ} {F g : ℝ × ℝ → ℝ}
    (h : ∀ i < pts.length, ∑ j ∈ Finset.range m, A i j * y j = F (pts.getD i 0)) :
    missSq pts.length m A y (vec (pts.map g)) = (pts.map fun t => (F t - g t) ^ 2).sum := by
  rw [← sum_range_pts]
  unfold missSq
  refine Finset.sum_congr rfl fun i hi => ?_
  have hi := Finset.mem_range.mp hi
  rw [h i hi]
  simp [vec, List.getD, hi]

/-- The points with the given indices. -/
noncomputable def chosen (u : Mtfc) (ind : List ℕ) : List (ℝ × ℝ) := ind.map fun j => ((u.x.getD 0 []).getD j 0, (u.x.getD 1 []).getD j 0)

theorem chosen_fst (u : Mtfc) (ind : List ℕ) : take (u.x.getD 0 []) ind = (chosen u ind).map Prod.fst := by
  simp [take, chosen, Function.comp_def]

theorem chosen_snd (u : Mtfc) (ind : List ℕ) : take (u.x.getD 1 []) ind = (chosen u ind).map Prod.snd := by
  simp [take, chosen, Function.comp_def]

open Classical in
theorem chosen_x (u : Mtfc) (v : ℝ) : chosen u (whereEq (u.x.getD 0 []) v) = (points u).filter fun t => t.1 = v := by
  unfold chosen whereEq points pairs
  rw [List.filter_map]
  rfl

open Classical in
theorem chosen_y {u : Mtfc} (h : (u.x.getD 1 []).length = (u.x.getD 0 []).length) (v : ℝ) :
    chosen u (whereEq (u.x.getD 1 []) v) = (points u).filter fun t => t.2 = v := by
  unfold chosen whereEq points pairs
  rw [List.filter_map, h]
  rfl

variable {u : Mtfc} {m : ℕ} {φ : ℕ → (Fin 2 → ℝ) → ℝ}

/-- The rows of one side. -/
theorem sideH_ok (h : ColumnFns 2 u m φ) (ind : List ℕ) : ∃ A, sideH u ind = .ok A ∧ A.rows = (chosen u ind).length ∧ A.cols = m ∧
    ∀ y, ∀ i < (chosen u ind).length, ∑ j ∈ Finset.range m, A.at_ i j * y j =
      comb m (fun i x y => φ i ![x, y]) y ((chosen u ind).getD i 0).1 ((chosen u ind).getD i 0).2 := by
  obtain ⟨A, hA, hr, hc, hv⟩ := h.2 ind.length
    (points2 (fun j => (take (u.x.getD 0 []) ind).getD j 0) fun j => (take (u.x.getD 1 []) ind).getD j 0) [0, 0] rfl (by simp)
  refine ⟨A, hA, by rw [hr]; simp [chosen], hc, fun y i hi => ?_⟩
  have hi' : i < ind.length := by simpa [chosen] using hi
  unfold comb
  refine Finset.sum_congr rfl fun j hj => ?_
  rw [hv i hi' j (Finset.mem_range.mp hj), mul_comm]
  have hp : (fun k : Fin 2 => points2 (fun j => (take (u.x.getD 0 []) ind).getD j 0) (fun j => (take (u.x.getD 1 []) ind).getD j 0) i k) =
      ![((chosen u ind).getD i 0).1, ((chosen u ind).getD i 0).2] := by
    funext k
    fin_cases k <;> simp [points2, take, chosen, List.getD, hi']
  rw [hp]
  rfl

theorem full_noExpr (g : ℝ → ℝ → ℝ) : full noExpr g = g := by
  funext x y
  simp [full, full1, noExpr]

theorem noExpr_orders : Orders noExpr poiEq 2 2 := by
  constructor <;> simp [-Prod.forall, noExpr, poiEq]

theorem noExpr_good (h : ColumnFns 2 u m φ) : Good2 u noExpr poiEq m fun i x y => φ i ![x, y] :=
  ⟨cols2_of_columns h, fun _ h => by simp [noExpr] at h, fun _ h => by simp [noExpr] at h, 2, 2, by norm_num, noExpr_orders⟩

/-- The rows of the residual. -/
theorem residual_rows (h : ColumnFns 2 u m φ) : ∃ A, jacobian (eqResidual u noExpr poiEq) [.arr (List.replicate m 0), .arr (u.x.getD 0 []),
      .arr (u.x.getD 1 [])] = .ok A ∧ A.rows = (points u).length ∧ A.cols = m ∧ ∃ r, eqRes u noExpr poiEq (u.x.getD 0 []) (u.x.getD 1 [])
      (List.replicate m 0) = .ok r ∧ r.length = (points u).length ∧
    ∀ y, missSq A.rows m A.at_ y (vec (r.map (- ·))) = sumSq2 (points u) (poiResid (comb m (fun i x y => φ i ![x, y]) y)) := by
  have G := noExpr_good h
  obtain ⟨M, hM, hH⟩ := jacobian_affine (G.affine rfl true) (v := .arr (List.replicate m 0)) (by simp [SameForm]) trivial
  have hm : (entries (.arr (List.replicate m 0) : View Unit)).length = m := by simp [entries]
  rw [hm] at hH
  refine ⟨M, hM, hH.rows, hH.cols, _, G.res _ _ _, by simp [points, pairs], fun y => ?_⟩
  rw [hH.rows, ← points, List.map_map]
  rw [missSq_points (F := fun t => poiResid (comb m (fun i x y => φ i ![x, y]) y) t.1 t.2 - poiResid (fun _ _ => 0) t.1 t.2)]
  · unfold sumSq2
    refine congrArg List.sum (List.map_congr_left fun t _ => ?_)
    have z : comb m (fun i x y => φ i ![x, y]) (coef (List.replicate m 0)) = fun _ _ => 0 := by
      funext a b
      refine Finset.sum_eq_zero fun j hj => ?_
      have : coef (List.replicate m 0) j = 0 := by simp [coef, List.getD, Finset.mem_range.mp hj]
      rw [this, zero_mul]
    simp only [Function.comp, full_noExpr, miss_poi, z]
    ring
  · intro i hi
    have e := G.missLin rfl y i
    have e0 := G.missLin rfl (fun _ => 0) i
    have z : comb m (fun i x y => φ i ![x, y]) (fun _ => 0) = fun _ _ => 0 := by
      funext a b
      simp [comb]
    rw [full_noExpr, miss_poi] at e e0
    rw [z] at e0
    simp only [mul_zero, Finset.sum_const_zero, zero_add] at e0
    have : ∑ j ∈ Finset.range m, M.at_ i j * y j = ∑ j ∈ Finset.range m, matOf u noExpr poiEq (fun i x y => φ i ![x, y]) i j * y j :=
      Finset.sum_congr rfl fun j hj => by rw [hH.at_ i hi j (Finset.mem_range.mp hj)]
    rw [this, e, e0]
    ring

/-- The run of the program, for any object with smooth columns. -/
theorem spectral_run (h : ColumnFns 2 u m φ) (hlen : (u.x.getD 1 []).length = (u.x.getD 0 []).length) (hnum : u.obj.numBasis false = m) {n : ℕ}
    (hn : m ≤ n ^ 2) {lib : LinAlg} (hlib : LinAlgCorrect lib) : ∃ xi, solveSpectral lib n u = .ok (some xi) ∧ ∀ y,
      boundarySq (points u) (comb m (fun i x y => φ i ![x, y]) (coef xi)) ≤ boundarySq (points u) (comb m (fun i x y => φ i ![x, y]) y) := by
  obtain ⟨A0, hA0, r0, c0, r, hr, rl, s0⟩ := residual_rows h
  obtain ⟨A1, hA1, r1, c1, s1⟩ := sideH_ok h (whereEq (u.x.getD 0 []) 0)
  obtain ⟨A2, hA2, r2, c2, s2⟩ := sideH_ok h (whereEq (u.x.getD 0 []) 1)
  obtain ⟨A3, hA3, r3, c3, s3⟩ := sideH_ok h (whereEq (u.x.getD 1 []) 0)
  obtain ⟨A4, hA4, r4, c4, s4⟩ := sideH_ok h (whereEq (u.x.getD 1 []) 1)
  set b0 := r.map (- ·) with hb0
  set b1 := (take (u.x.getD 1 []) (whereEq (u.x.getD 0 []) 0)).map (fun y => y ^ 3) with hb1
  set b2 := (take (u.x.getD 1 []) (whereEq (u.x.getD 0 []) 1)).map (fun y => (1 + y ^ 3) * Real.exp (-1)) with hb2
  set b3 := (take (u.x.getD 0 []) (whereEq (u.x.getD 1 []) 0)).map (fun x => x * Real.exp (-x)) with hb3
  set b4 := (take (u.x.getD 0 []) (whereEq (u.x.getD 1 []) 1)).map (fun x => (x + 1) * Real.exp (-x)) with hb4
  have l0 : b0.length = A0.rows := by rw [hb0, r0, ← rl]; simp
  have l1 : b1.length = A1.rows := by rw [hb1, r1]; simp [take, chosen]
  have l2 : b2.length = A2.rows := by rw [hb2, r2]; simp [take, chosen]
  have l3 : b3.length = A3.rows := by rw [hb3, r3]; simp [take, chosen]
  have l4 : b4.length = A4.rows := by rw [hb4, r4]; simp [take, chosen]
  obtain ⟨M1, v1, e1, d1, q1⟩ := vstack_missSq (A := A0) (B := A1) (by rw [c0, c1]) (a := b0) (b := b1) l0
  obtain ⟨M2, v2, e2, d2, q2⟩ := vstack_missSq (A := M1) (B := A2) (by rw [d1, c0, c2]) (a := b0 ++ b1) (b := b2) (by simp [e1, l0, l1])
  obtain ⟨M3, v3, e3, d3, q3⟩ := vstack_missSq (A := M2) (B := A3) (by rw [d2, d1, c0, c3]) (a := b0 ++ b1 ++ b2) (b := b3)
    (by simp [e2, e1, l0, l1, l2, add_assoc])
  obtain ⟨M4, v4, e4, d4, q4⟩ := vstack_missSq (A := M3) (B := A4) (by rw [d3, d2, d1, c0, c4]) (a := b0 ++ b1 ++ b2 ++ b3) (b := b4)
    (by simp [e3, e2, e1, l0, l1, l2, l3, add_assoc])
  have hall : ∀ y, missSq M4.rows M4.cols M4.at_ y (vec (b0 ++ b1 ++ b2 ++ b3 ++ b4)) =
      boundarySq (points u) (comb m (fun i x y => φ i ![x, y]) y) := by
    intro y
    rw [q4, q3, q2, q1, c0, c1, c2, c3, c4, r1, r2, r3, r4, s0, hb1, hb2, hb3, hb4, chosen_snd, chosen_snd, chosen_fst, chosen_fst,
      List.map_map, List.map_map, List.map_map, List.map_map]
    have pt : ∀ {ind : List ℕ} {A : Mat ℝ} {g : ℝ × ℝ → ℝ}, (∀ i < (chosen u ind).length, ∑ j ∈ Finset.range m, A.at_ i j * y j =
        comb m (fun i x y => φ i ![x, y]) y ((chosen u ind).getD i 0).1 ((chosen u ind).getD i 0).2) →
        missSq (chosen u ind).length m A.at_ y (vec ((chosen u ind).map g)) =
          ((chosen u ind).map fun t => (comb m (fun i x y => φ i ![x, y]) y t.1 t.2 - g t) ^ 2).sum := fun h =>
      missSq_points (F := fun t => comb m (fun i x y => φ i ![x, y]) y t.1 t.2) h
    rw [pt (s1 y), pt (s2 y), pt (s3 y), pt (s4 y), chosen_x, chosen_x, chosen_y hlen, chosen_y hlen]
    rfl
  obtain ⟨xi, hs, hx⟩ := solve_spec hlib (method := .pinv) (by simp) M4 (c := b0 ++ b1 ++ b2 ++ b3 ++ b4)
    (by simp [e4, e3, e2, e1, l0, l1, l2, l3, l4, add_assoc])
  refine ⟨xi, ?_, fun y => ?_⟩
  · unfold solveSpectral
    rw [hnum, if_neg (by exact_mod_cast not_lt.mpr hn)]
    simp only [Int.toNat_natCast, hr, hA0, hA1, hA2, hA3, hA4, v1, v2, v3, v4, bind, Except.bind]
    have : dot (lib.pinv M4) (b0 ++ b1 ++ b2 ++ b3 ++ b4) = .ok xi := hs
    rw [this]
    rfl
  · have := hx.min y
    rw [hall, hall] at this
    exact this

end Verif.Props
