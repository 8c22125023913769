import Verif.Props.PdeManySolve
import Verif.Props.ResidualWave2

/-!
# C103: the example programs in three variables
-/

namespace Verif.Props

open Set Verif Verif.Mem Verif.Py Verif.Np Verif.Spec Verif.Model Verif.Model.Py Verif.Model.LSq Verif.Model.Prog Verif.Lemmas.LSq
open scoped ContDiff

/-! ## Functions of three variables -/

/-- A function of the points as a function of the coordinates. -/
def curry3 (F : (Fin 3 → ℝ) → ℝ) (x y t : ℝ) : ℝ := F ![x, y, t]

theorem update3_0 (P : Fin 3 → ℝ) (s : ℝ) : Function.update P 0 s = ![s, P 1, P 2] := by
  funext i
  fin_cases i <;> simp [Function.update]

theorem update3_1 (P : Fin 3 → ℝ) (s : ℝ) : Function.update P 1 s = ![P 0, s, P 2] := by
  funext i
  fin_cases i <;> simp [Function.update]

theorem update3_2 (P : Fin 3 → ℝ) (s : ℝ) : Function.update P 2 s = ![P 0, P 1, s] := by
  funext i
  fin_cases i <;> simp [Function.update]

theorem partial3_0 (F : (Fin 3 → ℝ) → ℝ) (P : Fin 3 → ℝ) : partialDeriv 0 F P = deriv (fun x => curry3 F x (P 1) (P 2)) (P 0) := by
  unfold partialDeriv
  simp only [update3_0]
  rfl

theorem partial3_1 (F : (Fin 3 → ℝ) → ℝ) (P : Fin 3 → ℝ) : partialDeriv 1 F P = deriv (fun y => curry3 F (P 0) y (P 2)) (P 1) := by
  unfold partialDeriv
  simp only [update3_1]
  rfl

theorem partial3_2 (F : (Fin 3 → ℝ) → ℝ) (P : Fin 3 → ℝ) : partialDeriv 2 F P = deriv (fun t => curry3 F (P 0) (P 1) t) (P 2) := by
  unfold partialDeriv
  simp only [update3_2]
  rfl

theorem mixed3 (a b c : ℕ) (F : (Fin 3 → ℝ) → ℝ) :
    mixedPartial ![a, b, c] F = (partialDeriv 0)^[a] ((partialDeriv 1)^[b] ((partialDeriv 2)^[c] F)) := rfl

theorem curry3_smooth {F : (Fin 3 → ℝ) → ℝ} (hF : ContDiff ℝ ∞ F) : Smooth3 (curry3 F) := by
  unfold Smooth3 curry3
  simp only [vec3]
  exact hF

theorem curry3_vec (F : (Fin 3 → ℝ) → ℝ) (P : Fin 3 → ℝ) : curry3 F (P 0) (P 1) (P 2) = F P := by
  unfold curry3
  rw [vec3]

/-! ## The wave equation -/

theorem wav2_smooth : SmoothSteps wav2Expr := by
  intro s hs c hc
  simp only [wav2Expr, List.mem_cons, List.not_mem_nil, or_false] at hs
  rcases hs with rfl | rfl | rfl <;> simp only [List.mem_cons, List.not_mem_nil, or_false] at hc <;> rcases hc with rfl | rfl
  · exact ⟨contDiff_const, by fun_prop, fun P x => by simp [Function.update]⟩
  · exact ⟨contDiff_id, contDiff_const, fun _ _ => rfl⟩
  · exact ⟨contDiff_const.sub contDiff_id, contDiff_const, fun _ _ => rfl⟩
  · exact ⟨contDiff_id, contDiff_const, fun _ _ => rfl⟩
  · exact ⟨contDiff_const.sub contDiff_id, contDiff_const, fun _ _ => rfl⟩
  · exact ⟨contDiff_id, contDiff_const, fun _ _ => rfl⟩

theorem ordersN_of_max {dim : ℕ} {K : Fin dim → ℕ} (hK : ∑ k, K k ≤ 8) {S : List (StepN dim)}
    (hS : ∀ s ∈ S, ∀ c ∈ s.conds, ∀ t ∈ c.terms, t.2.1 ≤ K s.var) {d : Fin dim → ℕ} (hd : ∀ k, d k ≤ K k) : OrdersN S d := by
  induction S generalizing d with
  | nil => exact (Finset.sum_le_sum fun k _ => hd k).trans hK
  | cons s S ih =>
    have hS' := fun s' hs' => hS s' (List.mem_cons_of_mem s hs')
    refine ⟨ih hS' hd, fun c hc t ht => ih hS' fun k => ?_⟩
    by_cases h : k = s.var
    · subst h
      simpa using hS s (by simp) c hc t ht
    · rw [Function.update_of_ne h]
      exact hd k

theorem wav2_orders : AllOrders wav2Expr wav2Eq := by
  have hS : ∀ s ∈ wav2Expr, ∀ c ∈ s.conds, ∀ t ∈ c.terms, t.2.1 ≤ (![2, 2, 2] : Fin 3 → ℕ) s.var := by
    intro s hs c hc t ht
    simp only [wav2Expr, List.mem_cons, List.not_mem_nil, or_false] at hs
    rcases hs with rfl | rfl | rfl <;> simp only [List.mem_cons, List.not_mem_nil, or_false] at hc <;> rcases hc with rfl | rfl <;>
      simp only [List.mem_cons, List.not_mem_nil, or_false] at ht <;> subst ht <;> simp
  have hK : ∑ k, (![2, 2, 2] : Fin 3 → ℕ) k ≤ 8 := by simp [Fin.sum_univ_three]
  have all : ∀ d : Fin 3 → ℕ, (∀ k, d k ≤ (![2, 2, 2] : Fin 3 → ℕ) k) → OrdersN wav2Expr d := fun d => ordersN_of_max hK hS
  refine ⟨all _ fun k => Nat.zero_le _, fun E hE => ?_⟩
  simp only [wav2Eq, List.mem_cons, List.not_mem_nil, or_false] at hE
  subst hE
  refine ⟨fun t ht => ?_, by simp⟩
  simp only [List.mem_cons, List.not_mem_nil, or_false] at ht
  rcases ht with rfl | rfl | rfl <;> refine all _ fun k => ?_ <;> fin_cases k <;> simp

theorem wav2_uses : ∀ E ∈ wav2Eq, E.prods = [] ∧ UsesN 1 E := by
  intro E hE
  simp only [wav2Eq, List.mem_cons, List.not_mem_nil, or_false] at hE
  subst hE
  simp [UsesN]

theorem build_wav2 (g : (Fin 3 → ℝ) → ℝ) : curry3 (buildN wav2Expr g) = wav2U (curry3 g) := by
  have h1 : ∀ P, buildN [⟨0, [⟨fun x => 1 - x, [(1, 0, 0)], fun _ => 0⟩, ⟨fun x => x, [(1, 0, 1)], fun _ => 0⟩]⟩] g P =
      wav2U1 (curry3 g) (P 0) (P 1) (P 2) := by
    intro P
    simp only [buildN, List.map_cons, List.map_nil, List.sum_cons, List.sum_nil, Function.iterate_zero, id_eq, update3_0, wav2U1, curry3_vec]
    simp only [curry3]
    ring
  have h2 : ∀ P, buildN [⟨1, [⟨fun y => 1 - y, [(1, 0, 0)], fun _ => 0⟩, ⟨fun y => y, [(1, 0, 1)], fun _ => 0⟩]⟩,
      ⟨0, [⟨fun x => 1 - x, [(1, 0, 0)], fun _ => 0⟩, ⟨fun x => x, [(1, 0, 1)], fun _ => 0⟩]⟩] g P = wav2U2 (curry3 g) (P 0) (P 1) (P 2) := by
    intro P
    rw [buildN]
    simp only [List.map_cons, List.map_nil, List.sum_cons, List.sum_nil, Function.iterate_zero, id_eq, update3_1, h1, wav2U2]
    simp
    ring
  funext x y t
  show buildN wav2Expr g ![x, y, t] = _
  unfold wav2Expr
  rw [buildN]
  simp only [List.map_cons, List.map_nil, List.sum_cons, List.sum_nil, Function.iterate_zero, id_eq, update3_2, h2, wav2U,
    Function.iterate_one, partial3_2]
  simp only [curry3, Matrix.cons_val_zero, Matrix.cons_val_one, Matrix.cons_val, h2]
  ring

theorem miss_wav2 (z : ℕ → (Fin 3 → ℝ) → ℝ) (P : Fin 3 → ℝ) (E : EqnN 3) (hE : E ∈ wav2Eq) :
    missN E z P = wav2Resid (curry3 (z 0)) (P 0) (P 1) (P 2) := by
  simp only [wav2Eq, List.mem_cons, List.not_mem_nil, or_false] at hE
  subst hE
  simp only [missN, termVal, List.map_cons, List.map_nil, List.sum_cons, List.sum_nil, mixed3, Function.iterate_succ, Function.iterate_zero,
    Function.comp_apply, id_eq, wav2Resid]
  rw [partial3_0, partial3_1, partial3_2]
  unfold curry3
  simp only [partial3_0, partial3_1, partial3_2]
  simp [curry3]
  ring

/-! ## The Navier–Stokes equations -/

theorem ns_smooth (Hb xend : ℝ) : SmoothSteps (nsExpr Hb xend) := by
  intro s hs c hc
  simp only [nsExpr, List.mem_cons, List.not_mem_nil, or_false] at hs
  rcases hs with rfl | rfl | rfl <;> simp only [List.mem_cons, List.not_mem_nil, or_false] at hc
  · subst hc
    exact ⟨contDiff_const, contDiff_const, fun _ _ => rfl⟩
  · rcases hc with rfl | rfl
    · exact ⟨by fun_prop, contDiff_const, fun _ _ => rfl⟩
    · exact ⟨by fun_prop, contDiff_const, fun _ _ => rfl⟩
  · rcases hc with rfl | rfl
    · exact ⟨contDiff_const, contDiff_const, fun _ _ => rfl⟩
    · exact ⟨contDiff_id, contDiff_const, fun _ _ => rfl⟩

theorem ns_orders (Hb xend rho mu P : ℝ) : AllOrders (nsExpr Hb xend) (nsEq rho mu P) := by
  have hS : ∀ s ∈ nsExpr Hb xend, ∀ c ∈ s.conds, ∀ t ∈ c.terms, t.2.1 ≤ (![2, 2, 2] : Fin 3 → ℕ) s.var := by
    intro s hs c hc t ht
    simp only [nsExpr, List.mem_cons, List.not_mem_nil, or_false] at hs
    rcases hs with rfl | rfl | rfl <;> simp only [List.mem_cons, List.not_mem_nil, or_false] at hc
    · subst hc
      simp only [List.mem_cons, List.not_mem_nil, or_false] at ht
      subst ht
      simp
    · rcases hc with rfl | rfl <;> simp only [List.mem_cons, List.not_mem_nil, or_false] at ht <;> subst ht <;> simp
    · rcases hc with rfl | rfl <;> simp only [List.mem_cons, List.not_mem_nil, or_false] at ht <;> subst ht <;> simp
  have hK : ∑ k, (![2, 2, 2] : Fin 3 → ℕ) k ≤ 8 := by simp [Fin.sum_univ_three]
  have all : ∀ d : Fin 3 → ℕ, (∀ k, d k ≤ (![2, 2, 2] : Fin 3 → ℕ) k) → OrdersN (nsExpr Hb xend) d := fun d => ordersN_of_max hK hS
  refine ⟨all _ fun k => Nat.zero_le _, fun E hE => ?_⟩
  simp only [nsEq, List.mem_cons, List.not_mem_nil, or_false] at hE
  rcases hE with rfl | rfl | rfl
  · refine ⟨fun t ht => ?_, by simp⟩
    simp only [List.mem_cons, List.not_mem_nil, or_false] at ht
    rcases ht with rfl | rfl <;> refine all _ fun k => ?_ <;> fin_cases k <;> simp
  · refine ⟨fun t ht => ?_, fun t ht => ?_⟩ <;> simp only [List.mem_cons, List.not_mem_nil, or_false] at ht
    · rcases ht with rfl | rfl | rfl <;> refine all _ fun k => ?_ <;> fin_cases k <;> simp
    · rcases ht with rfl | rfl <;> refine ⟨all _ fun k => ?_, all _ fun k => ?_⟩ <;> fin_cases k <;> simp
  · refine ⟨fun t ht => ?_, fun t ht => ?_⟩ <;> simp only [List.mem_cons, List.not_mem_nil, or_false] at ht
    · rcases ht with rfl | rfl | rfl <;> refine all _ fun k => ?_ <;> fin_cases k <;> simp
    · rcases ht with rfl | rfl <;> refine ⟨all _ fun k => ?_, all _ fun k => ?_⟩ <;> fin_cases k <;> simp

theorem ns_uses (rho mu P : ℝ) : ∀ E ∈ nsEq rho mu P, UsesN 2 E := by
  intro E hE
  simp only [nsEq, List.mem_cons, List.not_mem_nil, or_false] at hE
  rcases hE with rfl | rfl | rfl <;> simp [UsesN]

theorem build_ns (Hb xend : ℝ) (g : (Fin 3 → ℝ) → ℝ) : curry3 (buildN (nsExpr Hb xend) g) = nsF Hb xend (curry3 g) := by
  have h1 : ∀ P, buildN [⟨0, [⟨fun _ => 1, [(1, 0, 0)], fun _ => 0⟩, ⟨fun x => x, [(1, 1, xend)], fun _ => 0⟩]⟩] g P =
      nsF1 xend (curry3 g) (P 0) (P 1) (P 2) := by
    intro P
    simp only [buildN, List.map_cons, List.map_nil, List.sum_cons, List.sum_nil, Function.iterate_zero, Function.iterate_one, id_eq, update3_0,
      nsF1, curry3_vec, partial3_0]
    simp [curry3]
    ring
  have h2 : ∀ P, buildN [⟨1, [⟨fun y => (Hb - 2 * y) / (2 * Hb), [(1, 0, -Hb / 2)], fun _ => 0⟩,
      ⟨fun y => (Hb + 2 * y) / (2 * Hb), [(1, 0, Hb / 2)], fun _ => 0⟩]⟩,
      ⟨0, [⟨fun _ => 1, [(1, 0, 0)], fun _ => 0⟩, ⟨fun x => x, [(1, 1, xend)], fun _ => 0⟩]⟩] g P = nsF2 Hb xend (curry3 g) (P 0) (P 1) (P 2) := by
    intro P
    rw [buildN]
    simp only [List.map_cons, List.map_nil, List.sum_cons, List.sum_nil, Function.iterate_zero, id_eq, update3_1, h1, nsF2]
    simp
    ring
  funext x y t
  show buildN (nsExpr Hb xend) g ![x, y, t] = _
  unfold nsExpr
  rw [buildN]
  simp only [List.map_cons, List.map_nil, List.sum_cons, List.sum_nil, Function.iterate_zero, id_eq, update3_2, h2, nsF]
  simp
  ring

theorem miss_ns (rho mu P : ℝ) (z : ℕ → (Fin 3 → ℝ) → ℝ) (X : Fin 3 → ℝ) :
    ((nsEq rho mu P).map fun E => missN E z X) = [(nsResid rho mu P (curry3 (z 0)) (curry3 (z 1)) (X 0) (X 1) (X 2)).1,
      (nsResid rho mu P (curry3 (z 0)) (curry3 (z 1)) (X 0) (X 1) (X 2)).2.1,
      (nsResid rho mu P (curry3 (z 0)) (curry3 (z 1)) (X 0) (X 1) (X 2)).2.2] := by
  simp only [nsEq, missN, termVal, List.map_cons, List.map_nil, List.sum_cons, List.sum_nil, mixed3, Function.iterate_succ, Function.iterate_zero,
    Function.comp_apply, id_eq, nsResid]
  simp only [partial3_0 _ X, partial3_1 _ X, partial3_2 _ X]
  unfold curry3
  simp only [partial3_0, partial3_1, partial3_2]
  simp only [curry3, vec3, Matrix.cons_val_zero, Matrix.cons_val_one, Matrix.cons_val]
  refine List.cons_eq_cons.2 ⟨by ring, List.cons_eq_cons.2 ⟨by ring, List.cons_eq_cons.2 ⟨by ring, rfl⟩⟩⟩

end Verif.Props
