import Verif.Model.DeepTfc
import Verif.Props.Residual
import Mathlib.Analysis.SpecialFunctions.Artanh

/-!
# C117: the programs with neural networks
-/

namespace Verif.Props

open Set Verif Verif.Model Verif.Model.Prog Verif.Model.Deep
open scoped ContDiff

/-! ## Networks are smooth -/

theorem lin_smooth {E : Type} [NormedAddCommGroup E] [NormedSpace ℝ E] (d : Dense) (n : ℕ) {v : E → ℕ → ℝ} (hv : ∀ i, ContDiff ℝ ∞ fun e => v e i)
    (k : ℕ) : ContDiff ℝ ∞ fun e => d.lin n (v e) k := by
  unfold Dense.lin
  exact (ContDiff.sum fun i _ => (hv i).mul contDiff_const).add contDiff_const

theorem net_smooth {E : Type} [NormedAddCommGroup E] [NormedSpace ℝ E] (net : Net) (n : ℕ) {v : E → ℕ → ℝ} (hv : ∀ i, ContDiff ℝ ∞ fun e => v e i)
    (k : ℕ) : ContDiff ℝ ∞ fun e => net.out n (v e) k := by
  have key : ∀ (l : List Dense) (w : E → ℕ → ℝ), (∀ i, ContDiff ℝ ∞ fun e => w e i) →
      ∀ i, ContDiff ℝ ∞ fun e => l.foldl (fun v d k => Real.tanh (d.lin net.H v k)) (w e) i := by
    intro l
    induction l with
    | nil => intro w hw i; exact hw i
    | cons d l ih =>
      intro w hw i
      exact ih (fun e k => Real.tanh (d.lin net.H (w e) k)) (fun k => tanh_smooth.comp (lin_smooth d net.H hw k)) i
  unfold Net.out
  exact lin_smooth net.last net.H (key net.hidden _ fun k => tanh_smooth.comp (lin_smooth net.first n hv k)) k

theorem net_smooth2 (net : Net) : Smooth2 fun x y => net.out 2 (row2 x y) 0 := by
  refine net_smooth net 2 (E := ℝ × ℝ) (v := fun p => row2 p.1 p.2) (fun i => ?_) 0
  unfold row2
  split
  · exact contDiff_fst
  · exact contDiff_snd

/-! ## Poisson's equation -/

theorem poissonU_eq (net : Net) : poissonU net = poiU fun x y => net.out 2 (row2 x y) 0 := by
  funext x y
  unfold poissonU poissonU1 poiU poiU1
  ring

/-- **C117, Poisson's equation.** The four boundary values, for all weights. -/
theorem C117_poisson (net : Net) :
    (∀ y, poissonU net 0 y = y ^ 3) ∧ (∀ y, poissonU net 1 y = (1 + y ^ 3) * Real.exp (-1)) ∧ (∀ x, poissonU net x 0 = x * Real.exp (-x)) ∧
      ∀ x, poissonU net x 1 = (x + 1) * Real.exp (-x) := by
  obtain ⟨h1, h2, h3, h4⟩ := C79_poisson fun x y => net.out 2 (row2 x y) 0
  rw [poissonU_eq]
  exact ⟨h1, h2, h3, fun x => by rw [h4]; ring⟩

/-- **C117, Poisson's equation, the error.** If what the program trains to zero is at most `R` on the square, then the network is within `R / 8` of the
solution. -/
theorem C117_poisson_error (net : Net) {R : ℝ} (hR : ∀ x ∈ Icc (0 : ℝ) 1, ∀ y ∈ Icc (0 : ℝ) 1, |poissonTrain net x y| ≤ R) :
    ∀ x ∈ Icc (0 : ℝ) 1, ∀ y ∈ Icc (0 : ℝ) 1, |poissonU net x y - Real.exp (-x) * (x + y ^ 3)| ≤ R / 8 := by
  unfold poissonTrain at hR
  rw [poissonU_eq] at hR ⊢
  exact C96_poisson_program _ (net_smooth2 net) hR

/-! ## Burgers' equation -/

/-- **C117, Burgers' equation, the start.** For all weights and constants. -/
theorem C117_burgers_start (p : BurgersPar) (net : Net) (x : ℝ) : burgersU p net x 0 = burgersUa p x 0 := by
  unfold burgersU
  ring

/-- How far the network is from the solution on the right side. -/
noncomputable def rightGap (p : BurgersPar) (net : Net) (t : ℝ) : ℝ := burgersUa p p.xFinal t - net.out 2 (row2 p.xFinal t) 0

/-- **C117, Burgers' equation, the two sides.** The expression has the prescribed value on the left side exactly if `x0 = 0` or the gap of the network on the
right side is what it was at the start, and on the right side exactly if `xf = 1` or likewise. -/
theorem C117_burgers_sides (p : BurgersPar) (hx : p.xInit ≠ p.xFinal) (net : Net) (t : ℝ) :
    (burgersU p net p.xInit t = burgersUa p p.xInit t ↔ p.xInit = 0 ∨ rightGap p net t = rightGap p net 0) ∧
      (burgersU p net p.xFinal t = burgersUa p p.xFinal t ↔ p.xFinal = 1 ∨ rightGap p net t = rightGap p net 0) := by
  have h1 : p.xFinal - p.xInit ≠ 0 := sub_ne_zero.mpr hx.symm
  have eI : burgersU p net p.xInit t - burgersUa p p.xInit t = p.xInit * (rightGap p net t - rightGap p net 0) := by
    unfold burgersU burgersU1 rightGap
    rw [div_self h1]
    ring
  have eF : burgersU p net p.xFinal t - burgersUa p p.xFinal t = (p.xFinal - 1) * (rightGap p net t - rightGap p net 0) := by
    unfold burgersU burgersU1 rightGap
    rw [sub_self, zero_div]
    ring
  constructor
  · rw [← sub_eq_zero, eI, mul_eq_zero, sub_eq_zero (a := rightGap p net t)]
  · rw [← sub_eq_zero, eF, mul_eq_zero, sub_eq_zero (a := rightGap p net t), sub_eq_zero]

/-- **C117, Burgers' equation, the sides, as they should be.** On the interval from 0 to 1 both sides have the prescribed values, for all weights. Missing:
other intervals, that of the programs included (`C117_burgers_fails`). -/
theorem C117_burgers_partial (p : BurgersPar) (h0 : p.xInit = 0) (h1 : p.xFinal = 1) (net : Net) (t : ℝ) :
    burgersU p net p.xInit t = burgersUa p p.xInit t ∧ burgersU p net p.xFinal t = burgersUa p p.xFinal t := by
  obtain ⟨a, b⟩ := C117_burgers_sides p (by rw [h0, h1]; exact zero_ne_one) net t
  exact ⟨a.2 (Or.inl h0), b.2 (Or.inl h1)⟩

/-- A network whose last layer is zero. -/
noncomputable def zeroNet : Net := { H := 30, first := ⟨fun _ _ => 1, fun _ => 0⟩, hidden := [⟨fun _ _ => 1, fun _ => 0⟩], last := ⟨fun _ _ => 0, fun _ => 0⟩ }

theorem zeroNet_out (n : ℕ) (v : ℕ → ℝ) (k : ℕ) : zeroNet.out n v k = 0 := by
  unfold Net.out
  show Dense.lin ⟨fun _ _ => 0, fun _ => 0⟩ _ _ _ = 0
  unfold Dense.lin
  simp

/-- **C117, Burgers' equation, the sides, the programs.** With the constants of the programs the boundary conditions do not hold for all weights: with a last
layer of zeros both sides are wrong at all times but the start. The factor of the last term of `u1` is `x` in place of `(x-x0)/(xf-x0)`. -/
theorem C117_burgers_fails (t : ℝ) (ht : t ≠ 0) :
    burgersU burgersProg zeroNet (-3) t ≠ burgersUa burgersProg (-3) t ∧ burgersU burgersProg zeroNet 3 t ≠ burgersUa burgersProg 3 t := by
  obtain ⟨a, b⟩ := C117_burgers_sides burgersProg (by norm_num [burgersProg]) zeroNet t
  have hg : rightGap burgersProg zeroNet t ≠ rightGap burgersProg zeroNet 0 := by
    unfold rightGap burgersUa
    simp only [zeroNet_out, burgersProg]
    intro h
    have h2 : Real.tanh (1 * (3 - 1 * t) / (2 * (1 / 2))) = Real.tanh (1 * (3 - 1 * 0) / (2 * (1 / 2))) := by linarith
    have := Real.tanh_injective h2
    apply ht
    linarith
  constructor
  · intro h
    rcases a.1 h with h | h
    · norm_num [burgersProg] at h
    · exact hg h
  · intro h
    rcases b.1 h with h | h
    · norm_num [burgersProg] at h
    · exact hg h

/-! ## The equations of Navier and Stokes -/

theorem net3_diff (net : Net) (k : ℕ) (y t : ℝ) : Differentiable ℝ fun x => net.out 3 (row3 x y t) k := by
  refine (net_smooth net 3 (v := fun x : ℝ => row3 x y t) (fun i => ?_) k).differentiable (by simp)
  unfold row3
  split
  · exact contDiff_id
  · exact contDiff_const

/-- **C117, flow in a channel.** For all weights both components are zero at the start, at the inlet and on the two walls, and do not change along the channel
at its end. -/
theorem C117_navier (Hb L : ℝ) (hH : Hb ≠ 0) (net : Net) (k : ℕ) :
    (∀ x y, navierU Hb L net k x y 0 = 0) ∧ (∀ y t, navierU Hb L net k 0 y t = 0) ∧
      (∀ x t, navierU Hb L net k x (Hb / 2) t = 0 ∧ navierU Hb L net k x (-Hb / 2) t = 0) ∧
      ∀ y t, HasDerivAt (fun x => navierU Hb L net k x y t) 0 L := by
  refine ⟨fun x y => ?_, fun y t => ?_, fun x t => ⟨?_, ?_⟩, fun y t => ?_⟩
  · unfold navierU
    dsimp only
    ring
  · unfold navierU
    dsimp only
    ring
  · unfold navierU
    dsimp only
    field_simp
    ring
  · unfold navierU
    dsimp only
    field_simp
    ring
  · have hd : ∀ y t, HasDerivAt (fun x => net.out 3 (row3 x y t) k) (navierNx net k L y t) L := fun y t => (net3_diff net k y t L).hasDerivAt
    have hx : ∀ c : ℝ, HasDerivAt (fun x => x * c) c L := fun c => by simpa using (hasDerivAt_id L).mul_const c
    have wall : ∀ a : ℝ, HasDerivAt (fun x => net.out 3 (row3 0 a 0) k - net.out 3 (row3 x a 0) k + x * navierNx net k L a 0 - net.out 3 (row3 0 a t) k
        + net.out 3 (row3 x a t) k - x * navierNx net k L a t) (0 - navierNx net k L a 0 + navierNx net k L a 0 - 0 + navierNx net k L a t
        - navierNx net k L a t) L := fun a =>
      (((((hasDerivAt_const L _).fun_sub (hd a 0)).fun_add (hx _)).fun_sub (hasDerivAt_const L _)).fun_add (hd a t)).fun_sub (hx _)
    have inner := (((((hd y t).fun_sub (hd y 0)).fun_add (hasDerivAt_const L (net.out 3 (row3 0 y 0) k))).fun_sub
      (hasDerivAt_const L (net.out 3 (row3 0 y t) k))).fun_add (hx (navierNx net k L y 0))).fun_sub (hx (navierNx net k L y t))
    have all := inner.fun_add ((((wall (-Hb / 2)).const_mul (2 * y - Hb)).fun_sub ((wall (Hb / 2)).const_mul (Hb + 2 * y))).const_mul (1 / (2 * Hb)))
    refine all.congr_deriv ?_
    ring

/-! ## The losses -/

theorem sumSq_zero_iff (l : List ℝ) : (l.map fun r : ℝ => r ^ 2).sum = 0 ↔ ∀ r ∈ l, r = 0 := by
  induction l with
  | nil => simp
  | cons r l ih =>
    have h0 : 0 ≤ (l.map fun r : ℝ => r ^ 2).sum := by
      refine List.sum_nonneg ?_
      simp only [List.mem_map]
      rintro _ ⟨p, _, rfl⟩
      positivity
    rw [List.map_cons, List.sum_cons, add_eq_zero_iff_of_nonneg (sq_nonneg r) h0, ih, sq_eq_zero_iff, List.forall_mem_cons]

theorem meanSq_zero_iff (l : List ℝ) : meanSq l (List.replicate l.length 0) = 0 ↔ ∀ r ∈ l, r = 0 := by
  have e : ((l.zip (List.replicate l.length (0 : ℝ))).map fun p => (p.1 - p.2) ^ 2) = l.map fun r => r ^ 2 := by
    induction l with
    | nil => rfl
    | cons r l ih => rw [List.length_cons, List.replicate_succ, List.zip_cons_cons, List.map_cons, ih, sub_zero, List.map_cons]
  rw [meanSq, e, div_eq_zero_iff, sumSq_zero_iff]
  refine or_iff_left_of_imp fun h => ?_
  have : l = [] := List.length_eq_zero_iff.1 (by exact_mod_cast h)
  simp [this]

theorem meanSq_nonneg (a b : List ℝ) : 0 ≤ meanSq a b := by
  unfold meanSq
  refine div_nonneg (List.sum_nonneg ?_) (Nat.cast_nonneg _)
  simp only [List.mem_map]
  rintro _ ⟨p, _, rfl⟩
  positivity

/-- **C117, the losses.** Each is at least zero, and zero exactly if the equations hold at all points of training. -/
theorem C117_losses (net : Net) :
    (∀ pts, 0 ≤ poissonLoss net pts ∧ (poissonLoss net pts = 0 ↔ ∀ p ∈ pts, poiResid (poissonU net) p.1 p.2 = 0)) ∧
    (∀ par pts, 0 ≤ burgersLoss par net pts ∧ (burgersLoss par net pts = 0 ↔ ∀ p ∈ pts, burResid par (burgersU par net) p.1 p.2 = 0)) ∧
    (∀ rho mu P Hb L pts, 0 ≤ navierLoss rho mu P Hb L net pts ∧ (navierLoss rho mu P Hb L net pts = 0 ↔
      ∀ p ∈ pts, nsResid rho mu P (navierU Hb L net 0) (navierU Hb L net 1) p.1 p.2.1 p.2.2 = (0, 0, 0))) := by
  refine ⟨fun pts => ⟨meanSq_nonneg _ _, ?_⟩, fun par pts => ⟨meanSq_nonneg _ _, ?_⟩, fun rho mu P Hb L pts => ⟨meanSq_nonneg _ _, ?_⟩⟩
  · have h := meanSq_zero_iff (pts.map fun p => poissonTrain net p.1 p.2)
    rw [List.length_map] at h
    rw [poissonLoss, h]
    simp only [List.forall_mem_map]
    rfl
  · have h := meanSq_zero_iff (pts.map fun p => burgersTrain par net p.1 p.2)
    rw [List.length_map] at h
    rw [burgersLoss, h]
    simp only [List.forall_mem_map, burgersTrain, sq_eq_zero_iff]
    rfl
  · have h := meanSq_zero_iff (pts.map fun p => navierTrain rho mu P Hb L net p.1 p.2.1 p.2.2)
    rw [List.length_map] at h
    rw [navierLoss, h]
    simp only [List.forall_mem_map]
    refine forall₂_congr fun q _ => ?_
    have key : ∀ a b c : ℝ, a ^ 2 + b ^ 2 + c ^ 2 = 0 ↔ (a, b, c) = (0, 0, 0) := by
      intro a b c
      constructor
      · intro h
        have ha : a = 0 := by nlinarith [sq_nonneg a, sq_nonneg b, sq_nonneg c]
        have hb : b = 0 := by nlinarith [sq_nonneg a, sq_nonneg b, sq_nonneg c]
        have hc : c = 0 := by nlinarith [sq_nonneg a, sq_nonneg b, sq_nonneg c]
        rw [ha, hb, hc]
      · intro h
        simp only [Prod.mk.injEq] at h
        rw [h.1, h.2.1, h.2.2]
        norm_num
    exact key _ _ _

/-! ## The parameters as one vector -/

section Pack

variable {K : Type}

/-- The places of the entries of the variables, from place `c` on. -/
def idxFrom : ℕ → List ℕ → List (List ℕ)
  | _, [] => []
  | c, n :: ns => List.range' c n :: idxFrom (c + n) ns

/-- The number of the variable of every place, from variable `i` on. -/
def partFrom : ℕ → List ℕ → List ℕ
  | _, [] => []
  | i, n :: ns => List.replicate n i ++ partFrom (i + 1) ns

theorem factory_aux (ns : List ℕ) : ∀ (i : ℕ) (s : ℕ × List (List ℕ) × List ℕ),
    (ns.zipIdx i).foldl (fun s p => (s.1 + p.1, s.2.1 ++ [List.range' s.1 p.1], s.2.2 ++ List.replicate p.1 p.2)) s =
      (s.1 + ns.sum, s.2.1 ++ idxFrom s.1 ns, s.2.2 ++ partFrom i ns) := by
  induction ns with
  | nil => intro i s; simp [idxFrom, partFrom]
  | cons n ns ih =>
    intro i s
    rw [List.zipIdx_cons, List.foldl_cons, ih]
    simp only [idxFrom, partFrom, List.sum_cons, List.append_assoc, List.singleton_append, Nat.add_assoc]

theorem factory_eq (ns : List ℕ) : factory ns = (ns.sum, idxFrom 0 ns, partFrom 0 ns) := by
  rw [factory, factory_aux]
  simp

theorem updates_range (l : List K) : ∀ (c : ℕ) (f : ℕ → K) (k : ℕ), (((List.range' c l.length).zip l).foldl (fun f q => Function.update f q.1 q.2) f) k =
    if h : c ≤ k ∧ k < c + l.length then l[k - c] else f k := by
  induction l with
  | nil => intro c f k; simp
  | cons a l ih =>
    intro c f k
    have e : List.range' c (a :: l).length = c :: List.range' (c + 1) l.length := by rw [List.length_cons, List.range'_succ]
    rw [e, List.zip_cons_cons, List.foldl_cons, ih]
    by_cases h : c + 1 ≤ k ∧ k < c + 1 + l.length
    · rw [dif_pos h, dif_pos (by rw [List.length_cons]; omega)]
      have : k - c = (k - (c + 1)) + 1 := by omega
      simp only [this, List.getElem_cons_succ]
    · rw [dif_neg h]
      by_cases hk : k = c
      · subst hk
        simp
      · rw [Function.update_of_ne hk, dif_neg (by rw [List.length_cons]; omega)]

theorem stitch_updates (vars : List (List K)) : ∀ (c : ℕ) (f : ℕ → K) (k : ℕ),
    ((((idxFrom c (vars.map List.length)).zip vars).flatMap fun p => p.1.zip p.2).foldl (fun f q => Function.update f q.1 q.2) f) k =
      if h : c ≤ k ∧ k < c + vars.flatten.length then vars.flatten[k - c] else f k := by
  induction vars with
  | nil => intro c f k; simp [idxFrom]
  | cons v vars ih =>
    intro c f k
    rw [List.map_cons, idxFrom, List.zip_cons_cons, List.flatMap_cons, List.foldl_append, ih]
    simp only [List.flatten_cons, List.length_append]
    by_cases h : c + v.length ≤ k ∧ k < c + v.length + vars.flatten.length
    · rw [dif_pos h, dif_pos (by omega), List.getElem_append_right (by omega)]
      congr 1
      omega
    · rw [dif_neg h, updates_range]
      by_cases h2 : c ≤ k ∧ k < c + v.length
      · rw [dif_pos h2, dif_pos (by omega), List.getElem_append_left (by omega)]
      · rw [dif_neg h2, dif_neg (by omega)]

theorem idxFrom_flatten (ns : List ℕ) : ∀ c, (idxFrom c ns).flatten = List.range' c ns.sum := by
  induction ns with
  | nil => intro c; rfl
  | cons n ns ih =>
    intro c
    rw [idxFrom, List.flatten_cons, ih, List.sum_cons, List.range'_append_1]

theorem max_range (n : ℕ) : ∀ c m, m ≤ c → (List.range' c n).foldl (fun m i => max m (i + 1)) m = if n = 0 then m else c + n := by
  induction n with
  | zero => intro c m h; rfl
  | succ n ih =>
    intro c m h
    rw [List.range'_succ, List.foldl_cons, ih (c + 1) _ (by omega)]
    split
    · next h0 => subst h0; simp; omega
    · simp; omega

theorem pack_eq [Zero K] (vars : List (List K)) : pack (vars.map List.length) vars = vars.flatten := by
  have hl : (vars.map List.length).sum = vars.flatten.length := by rw [List.length_flatten]
  unfold pack stitch
  rw [factory_eq, idxFrom_flatten, max_range _ 0 0 le_rfl, hl]
  have e : (if vars.flatten.length = 0 then 0 else 0 + vars.flatten.length) = vars.flatten.length := by split <;> omega
  rw [e]
  refine List.ext_getElem (by simp) fun k h1 h2 => ?_
  rw [List.getElem_map, List.getElem_range, stitch_updates, dif_pos (by omega)]
  rfl

theorem partFrom_length (ns : List ℕ) : ∀ i, (partFrom i ns).length = ns.sum := by
  induction ns with
  | nil => intro i; rfl
  | cons n ns ih => intro i; simp [partFrom, ih]

theorem partition_from (vars : List (List K)) : ∀ i j,
    ((vars.flatten.zip (partFrom i (vars.map List.length))).filterMap fun q => if q.2 = j then some q.1 else none) =
      if h : i ≤ j ∧ j < i + vars.length then vars[j - i] else [] := by
  induction vars with
  | nil => intro i j; simp
  | cons v vars ih =>
    intro i j
    have hrep : ∀ v : List K, ((v.zip (List.replicate v.length i)).filterMap fun q => if q.2 = j then some q.1 else none) = if i = j then v else [] := by
      intro v
      induction v with
      | nil => simp
      | cons a v ihv =>
        rw [List.length_cons, List.replicate_succ, List.zip_cons_cons]
        by_cases hij : i = j
        · simp only [hij, if_true] at ihv ⊢
          rw [List.filterMap_cons_some (b := a) (by simp), ihv]
        · simp only [hij, if_false] at ihv ⊢
          rw [List.filterMap_cons_none (by simp [hij]), ihv]
    rw [List.flatten_cons, List.map_cons, partFrom, List.zip_append (by simp), List.filterMap_append, hrep, ih]
    by_cases hij : i = j
    · subst hij
      rw [if_pos rfl, dif_neg (by omega), dif_pos (by simp)]
      simp
    · rw [if_neg hij, List.nil_append]
      by_cases h : i + 1 ≤ j ∧ j < i + 1 + vars.length
      · rw [dif_pos h, dif_pos (by rw [List.length_cons]; omega)]
        have : j - i = (j - (i + 1)) + 1 := by omega
        simp only [this, List.getElem_cons_succ]
      · rw [dif_neg h, dif_neg (by rw [List.length_cons]; omega)]

theorem assign_flatten (vars : List (List K)) : assign (vars.map List.length) vars.flatten = vars := by
  unfold assign partition
  rw [factory_eq]
  refine List.ext_getElem (by simp) fun k h1 h2 => ?_
  rw [List.getElem_map, List.getElem_range, partition_from, dif_pos (by omega)]
  rfl

/-- **C117, the parameters.** Packing the variables into one vector and assigning it gives the variables back. -/
theorem C117_pack [Zero K] (vars : List (List K)) : assign (vars.map List.length) (pack (vars.map List.length) vars) = vars := by
  rw [pack_eq, assign_flatten]

/-- A vector cut into pieces of the given lengths. -/
theorem exists_pieces (ns : List ℕ) : ∀ params : List K, params.length = ns.sum → ∃ vars : List (List K), vars.map List.length = ns ∧ vars.flatten = params := by
  induction ns with
  | nil => intro params h; exact ⟨[], rfl, (List.length_eq_zero_iff.1 h).symm⟩
  | cons n ns ih =>
    intro params h
    rw [List.sum_cons] at h
    obtain ⟨vars, h1, h2⟩ := ih (params.drop n) (by rw [List.length_drop]; omega)
    exact ⟨params.take n :: vars, by simp [h1]; omega, by simp [h2]⟩

/-- **C117, the parameters, the other way.** Assigning a vector with as many entries as there are parameters gives variables of the given sizes, and packing
them gives the vector back: the optimiser sees every parameter once. -/
theorem C117_unpack [Zero K] (ns : List ℕ) (params : List K) (h : params.length = ns.sum) :
    (assign ns params).map List.length = ns ∧ pack ns (assign ns params) = params := by
  obtain ⟨vars, rfl, rfl⟩ := exists_pieces ns params h
  rw [assign_flatten]
  exact ⟨rfl, pack_eq vars⟩

end Pack

/-! ## Cases -/

example : assign [4, 2, 1] (pack [4, 2, 1] [[1, 2, 3, 4], [5, 6], [7]]) = [[1, 2, 3, 4], [5, 6], [(7 : ℤ)]] :=
  C117_pack [[1, 2, 3, 4], [5, 6], [7]]

example : pack [4, 2, 1] [[1, 2, 3, 4], [5, 6], [(7 : ℤ)]] = [1, 2, 3, 4, 5, 6, 7] := by decide

/-- The size of the programs, and any weights: the profile at the end of the channel of length 15. -/
example (net : Net) (y t : ℝ) : HasDerivAt (fun x => navierU 1 15 net 0 x y t) 0 15 := (C117_navier 1 15 one_ne_zero net 0).2.2.2 y t

/-- A network that is not zero. -/
example : Net.out ⟨1, ⟨fun _ _ => 1, fun _ => 0⟩, [], ⟨fun _ _ => 1, fun _ => 0⟩⟩ 2 (row2 1 0) 0 = Real.tanh 1 := by
  simp [Net.out, Dense.lin, row2]

end Verif.Props
