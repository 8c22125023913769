import Verif.Model.PlotlyTrace
import Verif.Props.Plotly

/-! # C127, C128: colours and traces of Plotly figures -/

namespace Verif.Props

open Verif.Py Verif.Model.MakePlot Verif.Model.Plotly Verif.Spec

variable {C A : Type}

/-- What the loop over the scenes leaves. -/
theorem colorFold (grid back : C) (n0 n1 : ℕ) (l : List (ℕ × ℕ)) (hl : ∀ p ∈ l, p.1 < n0 ∧ p.2 < n1) (f : Colors C) (hc : f.count = n0 * n1) :
    ∃ f', l.foldlM (colorStep grid back) f = .ok f' ∧ f'.count = f.count ∧ f'.plotBg = f.plotBg ∧
      (∀ k, (∀ p ∈ l, p.1 + p.2 + 1 ≠ k) → ∀ i, f'.axis k i = f.axis k i) ∧
      ∀ k, (∃ p ∈ l, p.1 + p.2 + 1 = k) → ∀ i, (f'.axis k i).grid = some grid ∧ (f'.axis k i).back = some back ∧ (f'.axis k i).line = (f.axis k i).line ∧
        (f'.axis k i).zero = if k = 1 then (f.axis k i).zero else some grid := by
  induction l generalizing f with
  | nil => exact ⟨f, rfl, rfl, rfl, by simp, by simp⟩
  | cons p l ih =>
      have hp := hl p (by simp)
      have hk : 1 ≤ key p.1 p.2 ∧ key p.1 p.2 ≤ f.count := by
        rw [key_eq, hc]
        refine ⟨by omega, ?_⟩
        obtain ⟨a, ha⟩ := Nat.exists_eq_add_of_lt hp.1
        obtain ⟨b, hb⟩ := Nat.exists_eq_add_of_lt hp.2
        rw [ha, hb]
        nlinarith [Nat.zero_le (p.1 * p.2), Nat.zero_le (p.1 * b), Nat.zero_le (a * p.2), Nat.zero_le (a * b)]
      obtain ⟨g, hg⟩ : ∃ g : Colors C, g = { f with axis := fun k i => if k = p.1 + p.2 + 1 then sceneAxis grid back p (f.axis k i) else f.axis k i } := ⟨_, rfl⟩
      have hs : colorStep grid back f p = .ok g := by
        rw [colorStep, if_pos hk, hg]
        simp only [key_eq]
      obtain ⟨f', h1, h2, h3, h4, h5⟩ := ih (fun q hq => hl q (by simp [hq])) g (by rw [hg]; exact hc)
      refine ⟨f', by rw [List.foldlM_cons, hs]; exact h1, by rw [h2, hg], by rw [h3, hg], fun k hk' i => ?_, fun k hk' i => ?_⟩
      · rw [h4 k (fun q hq => hk' q (by simp [hq])), hg]
        exact if_neg (Ne.symm (hk' p (by simp)))
      · have hgk : (g.axis k i).line = (f.axis k i).line ∧ (k = 1 → (g.axis k i).zero = (f.axis k i).zero) := by
          rw [hg]
          dsimp only
          by_cases e : k = p.1 + p.2 + 1
          · rw [if_pos e]
            unfold sceneAxis
            split_ifs with h
            · exact ⟨rfl, fun _ => rfl⟩
            · exact ⟨rfl, fun h1 => absurd ⟨by omega, by omega⟩ h⟩
          · rw [if_neg e]
            exact ⟨rfl, fun _ => rfl⟩
        by_cases hex : ∃ q ∈ l, q.1 + q.2 + 1 = k
        · obtain ⟨e1, e2, e3, e4⟩ := h5 k hex i
          refine ⟨e1, e2, e3.trans hgk.1, e4.trans ?_⟩
          split_ifs with h
          · exact hgk.2 h
          · rfl
        · obtain ⟨q, hq, e⟩ := hk'
          have hqp : q = p := by
            rcases List.mem_cons.1 hq with h | h
            · exact h
            · exact absurd ⟨q, h, e⟩ hex
          subst hqp
          rw [h4 k (fun q' hq' e' => hex ⟨q', hq', e'⟩) i]
          have e0 : g.axis k i = sceneAxis grid back q (f.axis k i) := by rw [hg]; exact if_pos e.symm
          rw [e0]
          unfold sceneAxis
          by_cases h : q.1 = 0 ∧ q.2 = 0
          · rw [if_pos h, if_pos (by omega)]
            exact ⟨rfl, rfl, rfl, rfl⟩
          · rw [if_neg h, if_neg (by omega)]
            exact ⟨rfl, rfl, rfl, rfl⟩

/-- **C127** for scenes: exactly the subplots number 1 to `n0 + n1 - 1` get the colours of the grid and of the background, all but the first also that of the zero lines;
the others get none. -/
theorem C127_scenes (n0 n1 : ℕ) (h0 : 1 ≤ n0) (h1 : 1 ≤ n1) (grid back black : C) : ∃ f, setColors true n0 n1 grid back black = .ok f ∧ ∀ k i, 1 ≤ k →
    (k + 1 ≤ n0 + n1 → (f.axis k i).grid = some grid ∧ (f.axis k i).back = some back ∧ (f.axis k i).line = none ∧
      (f.axis k i).zero = if k = 1 then none else some grid) ∧
    (n0 + n1 ≤ k → f.axis k i = ⟨none, none, none, none⟩) := by
  obtain ⟨f, e1, -, -, e4, e5⟩ := colorFold grid back n0 n1 (cells n0 n1) (fun p hp => mem_cells hp) (noColors (n0 * n1)) rfl
  refine ⟨f, (if_pos rfl).trans e1, fun k i hk => ⟨fun hk2 => ?_, fun hk2 => ?_⟩⟩
  · refine e5 k ?_ i
    rcases Nat.lt_or_ge (k - 1) n0 with h | h
    · exact ⟨(k - 1, 0), mem_cells'.mpr ⟨h, h1⟩, by dsimp only; omega⟩
    · exact ⟨(n0 - 1, k - n0), mem_cells'.mpr ⟨by dsimp only; omega, by dsimp only; omega⟩, by dsimp only; omega⟩
  · exact e4 k (fun p hp => by have := mem_cells hp; omega) i

/-- **C127**, what holds of the claim that every subplot has the colours of the class: in a row or a column of scenes every axis has the colour of the grid and the one of
the background; in a plane figure every axis has those of the grid, the zero line and the black line, and the plotting area that of the background. (Missing: `C127_fails`, `C127_zero_fails`.) -/
theorem C127_partial (n0 n1 : ℕ) (h0 : 1 ≤ n0) (h1 : 1 ≤ n1) (grid back black : C) :
    (n0 = 1 ∨ n1 = 1 → ∃ f, setColors true n0 n1 grid back black = .ok f ∧ ∀ r < n0, ∀ c < n1, ∀ i,
      (f.axis (subplotNumber n1 r c) i).grid = some grid ∧ (f.axis (subplotNumber n1 r c) i).back = some back ∧
      (r + c ≠ 0 → (f.axis (subplotNumber n1 r c) i).zero = some grid)) ∧
    ∃ f, setColors false n0 n1 grid back black = .ok f ∧ f.plotBg = some back ∧ ∀ r < n0, ∀ c < n1, ∀ i : Fin 3, i ≠ 2 →
      (f.axis (subplotNumber n1 r c) i).grid = some grid ∧ (f.axis (subplotNumber n1 r c) i).zero = some grid ∧ (f.axis (subplotNumber n1 r c) i).line = some black := by
  refine ⟨fun hn => ?_, flatColors grid back black (noColors (n0 * n1)), rfl, rfl, fun r _ c _ i hi => ?_⟩
  · obtain ⟨f, e1, e2⟩ := C127_scenes n0 n1 h0 h1 grid back black
    refine ⟨f, e1, fun r hr c hc i => ?_⟩
    have hk : subplotNumber n1 r c = r + c + 1 := by
      rcases hn with rfl | rfl
      · obtain rfl : r = 0 := by omega
        simp [subplotNumber]
      · simp [subplotNumber]
    rw [hk]
    obtain ⟨a, b, -, d⟩ := (e2 (r + c + 1) i (by omega)).1 (by omega)
    exact ⟨a, b, fun h => by rw [d, if_neg (by omega)]⟩
  · unfold flatColors
    dsimp only
    rw [if_neg hi]
    exact ⟨rfl, rfl, rfl⟩

/-- With at least two rows and two columns of scenes the last one has no colours. -/
theorem C127_fails (n0 n1 : ℕ) (h0 : 2 ≤ n0) (h1 : 2 ≤ n1) (grid back black : C) : ∃ f, setColors true n0 n1 grid back black = .ok f ∧
    ∀ i, f.axis (subplotNumber n1 (n0 - 1) (n1 - 1)) i = ⟨none, none, none, none⟩ := by
  obtain ⟨f, e1, e2⟩ := C127_scenes n0 n1 (by omega) (by omega) grid back black
  refine ⟨f, e1, fun i => (e2 _ i (by simp [subplotNumber])).2 ?_⟩
  obtain ⟨a, rfl⟩ := Nat.exists_eq_add_of_le' h0
  obtain ⟨b, rfl⟩ := Nat.exists_eq_add_of_le' h1
  simp only [subplotNumber]
  rw [show a + 2 - 1 = a + 1 by omega, show b + 2 - 1 = b + 1 by omega]
  nlinarith [Nat.zero_le (a * b)]

/-- The zero lines of the first scene keep Plotly's colour, those of the second do not. -/
theorem C127_zero_fails (n0 n1 : ℕ) (h0 : 1 ≤ n0) (h1 : 1 ≤ n1) (h : 3 ≤ n0 + n1) (grid back black : C) : ∃ f, setColors true n0 n1 grid back black = .ok f ∧
    ∀ i, (f.axis 1 i).zero = none ∧ (f.axis 2 i).zero = some grid := by
  obtain ⟨f, e1, e2⟩ := C127_scenes n0 n1 h0 h1 grid back black
  exact ⟨f, e1, fun i => ⟨((e2 1 i (by omega)).1 (by omega)).2.2.2, ((e2 2 i (by omega)).1 (by omega)).2.2.2⟩⟩

/-- A row of three scenes. -/
example : ∃ f, setColors true 1 3 "rgb(176, 176, 176)" "rgba(0,0,0,0)" "black" = .ok f ∧ (f.axis 3 0).grid = some "rgb(176, 176, 176)" := by
  obtain ⟨f, h1, h2⟩ := (C127_partial 1 3 (by omega) (by omega) "rgb(176, 176, 176)" "rgba(0,0,0,0)" "black").1 (Or.inl rfl)
  exact ⟨f, h1, (h2 0 (by omega) 2 (by omega) 0).1⟩

/-- The class of `plotly.graph_objects` with the name of the method. -/
def kindOf : Method → Kind
  | .Surface => .surface
  | .Scatter3d => .scatter3d
  | .Scatter => .scatter
  | .Histogram => .histogram
  | .Contour => .contour
  | .Box => .box
  | .Violin => .violin
  | .Volume => .volume

theorem callMethod_eq (f : Canvas A) (m : Method) (row col : Option ℕ) (kwargs : A) : callMethod f m row col kwargs = addTrace f (kindOf m) kwargs row col := by
  cases m <;> rfl

/-- **C128**, where traces go: in a figure with several subplots, after any calls, a method called with row `r` and column `c` (counted from one) of an existing subplot, of the type that the trace needs,
adds to the traces one of the class of its name with the keyword arguments, in subplot number `(r - 1) cols + c`; it is the subplot that `make_subplots` has put in that row and column. Without
row and column the trace goes to the first subplot. Nothing else in the figure changes. (Missing: what is returned, `C128_returned_fails`.) -/
theorem C128_partial (f : Canvas A) (m : Method) (kwargs : A) :
    (∀ r c, f.hasSubplots = true → r < f.rows → c < f.cols → (kindOf m).spatial = f.is3d →
      ∃ ret, callMethod f m (some (r + 1)) (some (c + 1)) kwargs = .ok ({ f with traces := f.traces ++ [⟨kindOf m, kwargs, subplotNumber f.cols r c⟩] }, ret)) ∧
    (∃ ret, callMethod f m none none kwargs = .ok ({ f with traces := f.traces ++ [⟨kindOf m, kwargs, 1⟩] }, ret)) ∧
    ∀ row col, (∀ r c, row = some r → col = some c → f.hasSubplots = false ∨ r = 0 ∨ f.rows < r ∨ c = 0 ∨ f.cols < c ∨ (kindOf m).spatial ≠ f.is3d) →
      (row.isSome ∨ col.isSome) → ∃ e, callMethod f m row col kwargs = .error e := by
  simp only [callMethod_eq]
  refine ⟨fun r c hs hr hc hk => ⟨.figure { f with traces := f.traces ++ [⟨kindOf m, kwargs, subplotNumber f.cols r c⟩] }, ?_⟩, ⟨_, rfl⟩, fun row col h hrc => ?_⟩
  · unfold addTrace
    dsimp only
    rw [if_neg (by simp [hs]), if_neg (by omega), if_neg (by simp [hk])]
    rfl
  · unfold addTrace
    cases row with
    | none => cases col with
      | none => simp at hrc
      | some c => exact ⟨_, rfl⟩
    | some r => cases col with
      | none => exact ⟨_, rfl⟩
      | some c =>
          have := h r c rfl rfl
          dsimp only
          by_cases a : f.hasSubplots = false
          · rw [if_pos a]
            exact ⟨_, rfl⟩
          rw [if_neg a]
          by_cases b : ¬ (1 ≤ r ∧ r ≤ f.rows ∧ 1 ≤ c ∧ c ≤ f.cols)
          · rw [if_pos b]
            exact ⟨_, rfl⟩
          rw [if_neg b]
          by_cases d : (kindOf m).spatial ≠ f.is3d
          · rw [if_pos d]
            exact ⟨_, rfl⟩
          · exfalso
            rcases this with h | h | h | h | h | h
            · exact a h
            · omega
            · omega
            · omega
            · omega
            · exact d h

/-- **C128**, the documentation promises the trace, but the methods return the whole figure. -/
theorem C128_returned_fails (f f' : Canvas A) (m : Method) (row col : Option ℕ) (kwargs : A) (ret : Returned A)
    (h : callMethod f m row col kwargs = .ok (f', ret)) : ret = .figure f' := by
  rw [callMethod_eq] at h
  unfold addTrace at h
  split at h
  · cases h; rfl
  · split_ifs at h
    cases h
    rfl
  · cases h

/-- A volume in the second scene of a column of two. -/
example : ∃ ret, callMethod (canvas true 2 1 : Canvas ℕ) .Volume (some 2) (some 1) 7 =
    .ok ({ (canvas true 2 1 : Canvas ℕ) with traces := [⟨.volume, 7, 2⟩] }, ret) :=
  (C128_partial (canvas true 2 1 : Canvas ℕ) .Volume 7).1 1 0 rfl (by decide) (by decide) rfl

end Verif.Props
