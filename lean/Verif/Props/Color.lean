import Verif.Spec.Color
import Mathlib.Data.List.Forall2
import Mathlib.Order.MinMax

/-! # C67: `NormalizeColorScale` -/

namespace Verif.Props

open Verif.Py Verif.Model.Color Verif.Spec

variable {S K : Type} [DecidableEq S] [LinearOrder K]

theorem updateOne_set (types : List S) (data : S) (cmax cmin : Option K) (t : Trace S K) :
    SetLimits types data cmax cmin t (updateOne types data (cmax.map .fin, cmin.map .fin) t) := by
  constructor
  · intro h
    rw [updateOne, if_pos h.1, if_pos h.2]
    cases cmax <;> cases cmin <;> rfl
  · intro h
    rw [updateOne]
    split
    · next h1 =>
        rw [if_neg (fun h2 => h ⟨h1, h2⟩)]
    · rfl

/-- **C67** (limits given). If one of the limits is given, or both, every plot of the listed types that has the property gets the given limits, and
nothing else changes. -/
theorem C67_given (traces : List (Trace S K)) (types : List S) (data : S) (cmax cmin : Option K) (h : cmax ≠ none ∨ cmin ≠ none) :
    ∃ traces', normalize traces types data cmax cmin = .ok traces' ∧ List.Forall₂ (SetLimits types data cmax cmin) traces traces' := by
  have hl : limits traces types data cmax cmin = .ok (cmax.map .fin, cmin.map .fin) := by
    cases cmax with
    | some a => rfl
    | none =>
        cases cmin with
        | some b => rfl
        | none => simp at h
  refine ⟨_, by rw [normalize, hl]; rfl, ?_⟩
  rw [List.forall₂_map_right_iff]
  exact List.forall₂_same.2 fun t _ => updateOne_set types data cmax cmin t

theorem foldl_max_mem (a : K) (l : List K) : l.foldl max a ∈ a :: l ∧ ∀ v ∈ a :: l, v ≤ l.foldl max a := by
  induction l generalizing a with
  | nil => simp
  | cons b l ih =>
      obtain ⟨h1, h2⟩ := ih (max a b)
      rw [List.foldl_cons]
      constructor
      · rcases List.mem_cons.1 h1 with h | h
        · rw [h]; rcases max_choice a b with h | h <;> simp [h]
        · simp [h]
      · intro v hv
        simp only [List.mem_cons] at hv
        rcases hv with rfl | rfl | hv
        · exact le_trans (le_max_left v b) (h2 _ List.mem_cons_self)
        · exact le_trans (le_max_right a v) (h2 _ List.mem_cons_self)
        · exact h2 v (by simp [hv])

theorem foldl_min_mem (a : K) (l : List K) : l.foldl min a ∈ a :: l ∧ ∀ v ∈ a :: l, l.foldl min a ≤ v := by
  induction l generalizing a with
  | nil => simp
  | cons b l ih =>
      obtain ⟨h1, h2⟩ := ih (min a b)
      rw [List.foldl_cons]
      constructor
      · rcases List.mem_cons.1 h1 with h | h
        · rw [h]; rcases min_choice a b with h | h <;> simp [h]
        · simp [h]
      · intro v hv
        simp only [List.mem_cons] at hv
        rcases hv with rfl | rfl | hv
        · exact le_trans (h2 _ List.mem_cons_self) (min_le_left v b)
        · exact le_trans (h2 _ List.mem_cons_self) (min_le_right a v)
        · exact h2 v (by simp [hv])

/-- The local variables hold the greatest and the least value of `V`; `kmax` and `kmin` are among the values seen. -/
def Good (V : Set K) (s : Locals K) : Prop :=
  ∃ hi lo a b, s = ⟨.fin hi, .fin lo, some (a, b)⟩ ∧ IsGreatest V hi ∧ IsLeast V lo ∧ a ∈ V ∧ b ∈ V

theorem compare_good {V W : Set K} {s : Locals K} {a b : K} (hW : ∀ v, v ∈ W ↔ v ∈ V ∨ v = a ∨ v = b ∨ (b ≤ v ∧ v ≤ a ∧ v ∈ W)) (hab : b ≤ a)
    (h : Good V s) : ∃ s', compareK s (some (a, b)) = .ok s' ∧ Good W s' := by
  obtain ⟨hi, lo, c, d, rfl, h1, h2, h3, h4⟩ := h
  refine ⟨_, rfl, max hi a, min lo b, a, b, ?_, ?_, ?_, (hW a).2 (by simp), (hW b).2 (by simp)⟩
  · simp only [gtLim, ltLim, decide_eq_true_eq]
    congr 1
    · split
      · next h => rw [max_eq_right h.le]
      · next h => rw [max_eq_left (not_lt.1 h)]
    · split
      · next h => rw [min_eq_right h.le]
      · next h => rw [min_eq_left (not_lt.1 h)]
  · refine ⟨?_, ?_⟩
    · rcases max_choice hi a with h | h <;> rw [h]
      · exact (hW hi).2 (.inl h1.1)
      · exact (hW a).2 (by simp)
    · intro v hv
      rcases (hW v).1 hv with h | rfl | rfl | ⟨_, h, _⟩
      · exact le_trans (h1.2 h) (le_max_left _ _)
      · exact le_max_right _ _
      · exact le_trans hab (le_max_right _ _)
      · exact le_trans h (le_max_right _ _)
  · refine ⟨?_, ?_⟩
    · rcases min_choice lo b with h | h <;> rw [h]
      · exact (hW lo).2 (.inl h2.1)
      · exact (hW b).2 (by simp)
    · intro v hv
      rcases (hW v).1 hv with h | rfl | rfl | ⟨h, _, _⟩
      · exact le_trans (min_le_left _ _) (h2.2 h)
      · exact le_trans (min_le_right _ _) hab
      · exact min_le_right _ _
      · exact le_trans (min_le_right _ _) h

theorem shown_append (types : List S) (data : S) (l : List (Trace S K)) (t : Trace S K) :
    ∀ v, v ∈ shownValues types data (l ++ [t]) ↔
      v ∈ shownValues types data l ∨ (Concerned types data t ∧ ∃ w, t.vals data = some w ∧ v ∈ w) := by
  intro v
  simp only [shownValues, Set.mem_ofPred_eq, List.mem_append, List.mem_singleton]
  constructor
  · rintro ⟨u, hu | rfl, h⟩
    · exact .inl ⟨u, hu, h⟩
    · exact .inr h
  · rintro (⟨u, hu, h⟩ | h)
    · exact ⟨u, .inl hu, h⟩
    · exact ⟨t, .inr rfl, h⟩

theorem maxmin_of (l : List K) (hl : l ≠ []) : ∃ a b, maxOf (some l) = .ok a ∧ minOf (some l) = .ok b ∧ a ∈ l ∧ b ∈ l ∧ ∀ v ∈ l, b ≤ v ∧ v ≤ a := by
  cases l with
  | nil => exact absurd rfl hl
  | cons c l =>
      exact ⟨_, _, rfl, rfl, (foldl_max_mem c l).1, (foldl_min_mem c l).1, fun v hv => ⟨(foldl_min_mem c l).2 v hv, (foldl_max_mem c l).2 v hv⟩⟩

/-- The loop after at least one plot with data. -/
theorem scan_good (types : List S) (data : S) (l pre : List (Trace S K)) (s : Locals K) (h : Good (shownValues types data pre) s)
    (hdata : ∀ t ∈ l, Concerned types data t → ∃ w, t.vals data = some w ∧ w ≠ []) :
    ∃ s', l.foldlM (scanStep types data) s = .ok s' ∧ Good (shownValues types data (pre ++ l)) s' := by
  induction l generalizing pre s with
  | nil => exact ⟨s, rfl, by simpa using h⟩
  | cons t l ih =>
      have step : ∃ s1, scanStep types data s t = .ok s1 ∧ Good (shownValues types data (pre ++ [t])) s1 := by
        have hsh := shown_append types data pre t
        by_cases hc : t.cls ∈ types
        · by_cases hd : data ∈ t.props
          · obtain ⟨w, hw, hne⟩ := hdata t (by simp) ⟨hc, hd⟩
            obtain ⟨a, b, ha, hb, ham, hbm, hab⟩ := maxmin_of w hne
            obtain ⟨s1, h1, h2⟩ := compare_good (W := shownValues types data (pre ++ [t])) (a := a) (b := b) (by
              intro v
              constructor
              · intro hv
                rcases (hsh v).1 hv with h' | ⟨_, w', hw', hvw⟩
                · exact .inl h'
                · rw [hw] at hw'; cases hw'
                  exact .inr (.inr (.inr ⟨(hab v hvw).1, (hab v hvw).2, hv⟩))
              · rintro (h' | rfl | rfl | ⟨_, _, h'⟩)
                · exact (hsh v).2 (.inl h')
                · exact (hsh v).2 (.inr ⟨⟨hc, hd⟩, w, hw, ham⟩)
                · exact (hsh v).2 (.inr ⟨⟨hc, hd⟩, w, hw, hbm⟩)
                · exact h') (hab a ham).1 h
            refine ⟨s1, ?_, h2⟩
            rw [scanStep, if_pos hc, bindK, if_pos hd, hw, ha, hb]
            exact h1
          · have hsame : shownValues types data (pre ++ [t]) = shownValues types data pre := by
              ext v
              rw [hsh v]
              exact ⟨fun h => h.resolve_right fun h => hd h.1.2, .inl⟩
            obtain ⟨hi, lo, a, b, rfl, h1, h2, h3, h4⟩ := h
            refine ⟨⟨.fin hi, .fin lo, some (a, b)⟩, ?_, ?_⟩
            · rw [scanStep, if_pos hc, bindK, if_neg hd]
              show compareK _ (some (a, b)) = _
              simp only [compareK, gtLim, ltLim, decide_eq_true_eq]
              rw [if_neg (not_lt.2 (h1.2 h3)), if_neg (not_lt.2 (h2.2 h4))]
            · rw [hsame]; exact ⟨hi, lo, a, b, rfl, h1, h2, h3, h4⟩
        · have hsame : shownValues types data (pre ++ [t]) = shownValues types data pre := by
            ext v
            rw [hsh v]
            exact ⟨fun h => h.resolve_right fun h => hc h.1.1, .inl⟩
          exact ⟨s, by rw [scanStep, if_neg hc], by rw [hsame]; exact h⟩
      obtain ⟨s1, h1, h2⟩ := step
      obtain ⟨s', h3, h4⟩ := ih (pre ++ [t]) s1 h2 (fun u hu => hdata u (by simp [hu]))
      exact ⟨s', by rw [List.foldlM_cons, h1]; exact h3, by simpa using h4⟩

/-- **C67** (limits of the data, where they are found). If the first plot of a listed type has the property, and the plots concerned have
data, then every plot of the listed types that has the property gets the greatest and the least of all the values they show as its limits, and nothing else
changes. Missing: a first plot of a listed type without the property, see `C67_unbound_fails`. -/
theorem C67_data_partial (pre rest : List (Trace S K)) (t : Trace S K) (types : List S) (data : S)
    (hpre : ∀ u ∈ pre, u.cls ∉ types) (ht : Concerned types data t)
    (hdata : ∀ u ∈ t :: rest, Concerned types data u → ∃ w, u.vals data = some w ∧ w ≠ []) :
    ∃ traces' hi lo, normalize (pre ++ t :: rest) types data none none = .ok traces' ∧
      IsGreatest (shownValues types data (pre ++ t :: rest)) hi ∧ IsLeast (shownValues types data (pre ++ t :: rest)) lo ∧
      List.Forall₂ (SetLimits types data (some hi) (some lo)) (pre ++ t :: rest) traces' := by
  have hskip : ∀ (l : List (Trace S K)) (s : Locals K), (∀ u ∈ l, u.cls ∉ types) → l.foldlM (scanStep types data) s = .ok s := by
    intro l s hl
    induction l with
    | nil => rfl
    | cons u l ih =>
        rw [List.foldlM_cons, scanStep, if_neg (hl u (by simp))]
        exact ih fun v hv => hl v (by simp [hv])
  obtain ⟨w, hw, hne⟩ := hdata t (by simp) ht
  obtain ⟨a, b, ha, hb, ham, hbm, hab⟩ := maxmin_of w hne
  have hsh : ∀ v, v ∈ shownValues types data (pre ++ [t]) ↔ v ∈ w := by
    intro v
    rw [shown_append]
    constructor
    · rintro (⟨u, hu, hc, _⟩ | ⟨_, w', hw', hv⟩)
      · exact absurd hc.1 (hpre u hu)
      · rw [hw] at hw'; cases hw'; exact hv
    · intro hv; exact .inr ⟨ht, w, hw, hv⟩
  have hfirst : scanStep types data ⟨.ninf, .pinf, none⟩ t = .ok ⟨.fin a, .fin b, some (a, b)⟩ := by
    rw [scanStep, if_pos ht.1, bindK, if_pos ht.2, hw, ha, hb]
    rfl
  obtain ⟨s', h1, hi, lo, c, d, rfl, h2, h3, -, -⟩ := scan_good types data rest (pre ++ [t]) ⟨.fin a, .fin b, some (a, b)⟩
    ⟨a, b, a, b, rfl, ⟨(hsh a).2 ham, fun v hv => (hab v ((hsh v).1 hv)).2⟩, ⟨(hsh b).2 hbm, fun v hv => (hab v ((hsh v).1 hv)).1⟩,
      (hsh a).2 ham, (hsh b).2 hbm⟩ (fun u hu => hdata u (by simp [hu]))
  have hl : limits (pre ++ t :: rest) types data none none = .ok (some (.fin hi), some (.fin lo)) := by
    rw [limits, List.foldlM_append, hskip pre _ hpre]
    show (List.foldlM (scanStep types data) ⟨.ninf, .pinf, none⟩ (t :: rest) >>= _) = _
    rw [List.foldlM_cons, hfirst]
    show (List.foldlM (scanStep types data) _ rest >>= _) = _
    rw [h1]
    rfl
  rw [show pre ++ [t] ++ rest = pre ++ t :: rest by simp] at h2 h3
  refine ⟨_, hi, lo, by rw [normalize, hl]; rfl, h2, h3, ?_⟩
  rw [List.forall₂_map_right_iff]
  exact List.forall₂_same.2 fun u _ => updateOne_set types data (some hi) (some lo) u

/-- Two surfaces and a curve between them; the property is `1`, the type of the surfaces is `0`. -/
example : ∃ (t : Trace ℕ ℕ) (rest : List (Trace ℕ ℕ)), Concerned [0] 1 t ∧
    (∀ u ∈ t :: rest, Concerned [0] 1 u → ∃ w, u.vals 1 = some w ∧ w ≠ []) ∧ rest.length = 2 :=
  ⟨⟨0, [1], fun _ => some [3, 5], none, none⟩, [⟨7, [], fun _ => none, none, none⟩, ⟨0, [1], fun _ => some [4], none, none⟩],
    ⟨by simp, by simp⟩, by simp [Concerned], rfl⟩

/-- If the first plot of a listed type does not have the property, the function fails with an `UnboundLocalError`, although others may have it. -/
theorem C67_unbound_fails (pre rest : List (Trace S K)) (t : Trace S K) (types : List S) (data : S)
    (hpre : ∀ u ∈ pre, u.cls ∉ types) (ht : t.cls ∈ types) (hd : data ∉ t.props) :
    normalize (pre ++ t :: rest) types data none none = .error .unboundLocal := by
  have hskip : ∀ (l : List (Trace S K)) (s : Locals K), (∀ u ∈ l, u.cls ∉ types) → l.foldlM (scanStep types data) s = .ok s := by
    intro l s hl
    induction l with
    | nil => rfl
    | cons u l ih =>
        rw [List.foldlM_cons, scanStep, if_neg (hl u (by simp))]
        exact ih fun v hv => hl v (by simp [hv])
  have hfirst : scanStep types data (⟨.ninf, .pinf, none⟩ : Locals K) t = .error .unboundLocal := by
    rw [scanStep, if_pos ht, bindK, if_neg hd]
    rfl
  rw [normalize, limits, List.foldlM_append, hskip pre _ hpre]
  show ((List.foldlM (scanStep types data) ⟨.ninf, .pinf, none⟩ (t :: rest) >>= _) >>= _) = _
  rw [List.foldlM_cons, hfirst]
  rfl

end Verif.Props
