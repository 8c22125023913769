import Verif.Spec.Plotly
import Verif.Props.MakePlot

/-! # C66: labels and views of Plotly subplots -/

namespace Verif.Props

open Verif.Py Verif.Model.MakePlot Verif.Model.Plotly Verif.Spec

variable {L : Type}

theorem key_eq (r c : ℕ) : key r c = r + c + 1 := by
  rw [key]; split
  · omega
  · rfl

/-- What the loop leaves: every number keeps the texts of the last position that has this number, or what it had before. -/
theorem labelFold (x y : Grid L) (z : Option (Grid L)) (fy fz : ℕ → ℕ → Option L)
    (hy : ∀ j k, j < x.rows → k < x.cols → y.get j k = .ok (fy j k))
    (hz : ∀ j k, j < x.rows → k < x.cols → getZ z j k = .ok (fz j k))
    (l : List (ℕ × ℕ)) (hl : ∀ p ∈ l, p.1 < x.rows ∧ p.2 < x.cols) (f : Verif.Model.Plotly.Fig L) (hc : f.count = x.rows * x.cols) :
    ∃ f', l.foldlM (labelStep x y z) f = .ok f' ∧ f'.count = f.count ∧ f'.is3d = f.is3d ∧
      (∀ k, (∀ p ∈ l, p.1 + p.2 + 1 ≠ k) → f'.text k = f.text k) ∧
      ∀ p ∈ l, ∃ q ∈ l, q.1 + q.2 = p.1 + p.2 ∧ f'.text (p.1 + p.2 + 1) = ⟨x.at_ q.1 q.2, fy q.1 q.2, fz q.1 q.2⟩ := by
  induction l generalizing f with
  | nil => exact ⟨f, rfl, rfl, rfl, by simp, by simp⟩
  | cons p l ih =>
      have hp := hl p (by simp)
      have hx : x.get p.1 p.2 = .ok (x.at_ p.1 p.2) := by simp [Grid.get, hp.1, hp.2]
      have hk : 1 ≤ key p.1 p.2 ∧ key p.1 p.2 ≤ f.count := by
        rw [key_eq, hc]
        refine ⟨by omega, ?_⟩
        obtain ⟨a, ha⟩ := Nat.exists_eq_add_of_lt hp.1
        obtain ⟨b, hb⟩ := Nat.exists_eq_add_of_lt hp.2
        rw [ha, hb]
        nlinarith [Nat.zero_le (p.1 * p.2), Nat.zero_le (p.1 * b), Nat.zero_le (a * p.2), Nat.zero_le (a * b)]
      have hs : labelStep x y z f p =
          .ok { f with text := fun k => if k = p.1 + p.2 + 1 then ⟨x.at_ p.1 p.2, fy p.1 p.2, fz p.1 p.2⟩ else f.text k } := by
        simp only [labelStep, hx, hy _ _ hp.1 hp.2, hz _ _ hp.1 hp.2, bind, Except.bind]
        rw [if_pos hk]
        simp only [key_eq]
      obtain ⟨f', h1, h2, h3, h4, h5⟩ := ih (fun q hq => hl q (by simp [hq]))
        { f with text := fun k => if k = p.1 + p.2 + 1 then ⟨x.at_ p.1 p.2, fy p.1 p.2, fz p.1 p.2⟩ else f.text k } hc
      refine ⟨f', ?_, h2, h3, ?_, ?_⟩
      · rw [List.foldlM_cons, hs]; exact h1
      · intro k hk'
        rw [h4 k (fun q hq => hk' q (by simp [hq]))]
        simp [Ne.symm (hk' p (by simp))]
      · intro q hq
        by_cases hex : ∃ q' ∈ l, q'.1 + q'.2 = q.1 + q.2
        · obtain ⟨q', hq', he⟩ := hex
          obtain ⟨w, hw, hw1, hw3⟩ := h5 q' hq'
          exact ⟨w, by simp [hw], by omega, by rw [← he]; exact hw3⟩
        · have hqp : q = p := by
            rcases List.mem_cons.1 hq with h | h
            · exact h
            · exact absurd ⟨q, h, rfl⟩ hex
          subst hqp
          refine ⟨q, by simp, rfl, ?_⟩
          rw [h4 _ (fun q' hq' e => hex ⟨q', hq', by omega⟩)]
          simp

theorem getZ_ok {zlabs : Option (LabArg L)} {n0 n1 : ℕ} {z : ℕ → ℕ → Option L} (hz : CoversOpt zlabs n0 n1 z) :
    ∃ g, consistifyOpt zlabs = .ok g ∧ g.isSome = zlabs.isSome ∧ ∀ j k, j < n0 → k < n1 → getZ g j k = .ok (z j k) := by
  obtain ⟨g, h1, h2, h3, h4⟩ := consistifyOpt_ok hz
  refine ⟨g, h1, h2, fun j k hj hk => ?_⟩
  cases g with
  | none => simp [getZ, h3 rfl j k]
  | some G => exact h4 G rfl j k hj hk

theorem mem_cells' {n0 n1 : ℕ} {p : ℕ × ℕ} : p ∈ cells n0 n1 ↔ p.1 < n0 ∧ p.2 < n1 := by
  refine ⟨mem_cells, fun h => ?_⟩
  simp only [cells, List.mem_flatMap, List.mem_map, List.mem_range]
  exact ⟨p.1, h.1, p.2, h.2, rfl⟩

/-- The constructor returns; what it leaves. -/
theorem plotly_init (xlabs ylabs : LabArg L) (zlabs : Option (LabArg L)) (n0 n1 : ℕ) (x y z : ℕ → ℕ → Option L)
    (hx : ReadsAs xlabs n0 n1 x) (hy : CoversOpt (some ylabs) n0 n1 y) (hz : CoversOpt zlabs n0 n1 z) :
    ∃ fig, Verif.Model.Plotly.init xlabs ylabs zlabs = .ok fig ∧ fig.count = n0 * n1 ∧ fig.is3d = zlabs.isSome ∧
      (∀ k, n0 + n1 ≤ k → fig.text k = ⟨none, none, none⟩) ∧
      ∀ r c, r < n0 → c < n1 → ∃ r' c', r' < n0 ∧ c' < n1 ∧ r' + c' = r + c ∧ fig.text (r + c + 1) = ⟨x r' c', y r' c', z r' c'⟩ := by
  have cx := consistify_ok hx
  obtain ⟨r, c, hr, hc, hy⟩ := hy
  have cy := consistify_ok hy
  obtain ⟨g, cz, sz, vz⟩ := getZ_ok hz
  obtain ⟨f', h1, h2, h3, h4, h5⟩ := labelFold (⟨n0, n1, x⟩ : Grid L) ⟨r, c, y⟩ g y z
    (fun j k hj hk => if_pos ⟨Nat.lt_of_lt_of_le hj hr, Nat.lt_of_lt_of_le hk hc⟩) vz (cells n0 n1) (fun p hp => mem_cells hp)
    (blank ⟨n0, n1, x⟩ g) rfl
  refine ⟨f', ?_, h2, ?_, ?_, ?_⟩
  · simp only [Verif.Model.Plotly.init, cx, cy, cz, bind, Except.bind]; exact h1
  · rw [h3, ← sz]; rfl
  · intro k hk
    rw [h4 k (fun p hp => by have := mem_cells hp; omega)]; rfl
  · intro r c hr hc
    obtain ⟨q, hq, e, ht⟩ := h5 (r, c) (mem_cells'.2 ⟨hr, hc⟩)
    exact ⟨q.1, q.2, (mem_cells hq).1, (mem_cells hq).2, e, ht⟩

/-- **C66** (labels, where they come out right). In a figure with a single row or a single column of subplots every subplot has the labels
given for it. Missing: figures with several rows and columns, see `C66_labels_fails`. -/
theorem C66_labels_partial (xlabs ylabs : LabArg L) (zlabs : Option (LabArg L)) (n0 n1 : ℕ) (x y z : ℕ → ℕ → Option L)
    (hx : ReadsAs xlabs n0 n1 x) (hy : CoversOpt (some ylabs) n0 n1 y) (hz : CoversOpt zlabs n0 n1 z) (hn : n0 = 1 ∨ n1 = 1) :
    ∃ fig, Verif.Model.Plotly.init xlabs ylabs zlabs = .ok fig ∧ fig.is3d = zlabs.isSome ∧ fig.count = n0 * n1 ∧
      ∀ r c, r < n0 → c < n1 → fig.text (subplotNumber n1 r c) = ⟨x r c, y r c, z r c⟩ := by
  obtain ⟨fig, h1, h2, h3, -, h5⟩ := plotly_init xlabs ylabs zlabs n0 n1 x y z hx hy hz
  refine ⟨fig, h1, h3, h2, fun r c hr hc => ?_⟩
  obtain ⟨r', c', hr', hc', e, ht⟩ := h5 r c hr hc
  have hnum : subplotNumber n1 r c = r + c + 1 := by
    rcases hn with rfl | rfl
    · obtain rfl : r = 0 := by omega
      simp [subplotNumber]
    · simp [subplotNumber]
  have h1 : r' = r ∧ c' = c := by rcases hn with rfl | rfl <;> omega
  rw [hnum, ht, h1.1, h1.2]

/-- A column of three subplots. -/
example (a b c d : L) : ReadsAs (.d1 [some a, some b, some c]) 3 1 (fun j _ => ([some a, some b, some c][j]?).getD none) ∧
    CoversOpt (some (.d2 ⟨3, 1, fun _ _ => some d⟩)) 3 1 (fun _ _ => some d) ∧ CoversOpt (none : Option (LabArg L)) 3 1 (fun _ _ => none) :=
  ⟨.d1 _, ⟨3, 1, le_refl _, le_refl _, .d2 _⟩, fun _ _ => rfl⟩

/-- In every figure with at least two rows and two columns the last subplot has no labels at all, whatever is given for it. -/
theorem C66_labels_fails (xlabs ylabs : LabArg L) (zlabs : Option (LabArg L)) (n0 n1 : ℕ) (x y z : ℕ → ℕ → Option L)
    (hx : ReadsAs xlabs n0 n1 x) (hy : CoversOpt (some ylabs) n0 n1 y) (hz : CoversOpt zlabs n0 n1 z) (h0 : 2 ≤ n0) (h1 : 2 ≤ n1) :
    ∃ fig, Verif.Model.Plotly.init xlabs ylabs zlabs = .ok fig ∧
      fig.text (subplotNumber n1 (n0 - 1) (n1 - 1)) = ⟨none, none, none⟩ := by
  obtain ⟨fig, h2, -, -, h4, -⟩ := plotly_init xlabs ylabs zlabs n0 n1 x y z hx hy hz
  refine ⟨fig, h2, h4 _ ?_⟩
  obtain ⟨a, rfl⟩ := Nat.exists_eq_add_of_le' h0
  obtain ⟨b, rfl⟩ := Nat.exists_eq_add_of_le' h1
  simp only [subplotNumber]
  rw [show a + 2 - 1 = a + 1 by omega, show b + 2 - 1 = b + 1 by omega]
  nlinarith [Nat.zero_le (a * b)]

/-- The distance of the camera from the centre of the plot. -/
theorem eyeOf_norm (d a e : ℝ) : (eyeOf d a e).1 ^ 2 + (eyeOf d a e).2.1 ^ 2 + (eyeOf d a e).2.2 ^ 2 = d ^ 2 := by
  simp only [eyeOf]
  have h1 := Real.sin_sq_add_cos_sq (a * (Real.pi / 180))
  have h2 := Real.sin_sq_add_cos_sq (e * (Real.pi / 180))
  generalize Real.sin (a * (Real.pi / 180)) = sa at *
  generalize Real.cos (a * (Real.pi / 180)) = ca at *
  generalize Real.sin (e * (Real.pi / 180)) = se at *
  generalize Real.cos (e * (Real.pi / 180)) = ce at *
  have : (d * (-sa * ce)) ^ 2 + (d * (-ca * ce)) ^ 2 + (d * se) ^ 2 = d ^ 2 * ((sa ^ 2 + ca ^ 2) * ce ^ 2 + se ^ 2) := by ring
  rw [this, h1, one_mul, add_comm, h2, mul_one]

theorem view_ok (fig : Verif.Model.Plotly.Fig L) (h3 : fig.is3d = true) (azimuth elevation : ℝ) (row col : Option ℕ) (d : Option ℝ) (n : ℕ)
    (hn : sceneNum row col = n) (h1 : 1 ≤ n) (h2 : n ≤ fig.count) :
    view fig azimuth elevation row col d = .ok { fig with
      viewDistance := newDistance fig d
      eye := fun k => if k = n then some (eyeOf (newDistance fig d) azimuth elevation) else fig.eye k } := by
  rw [view, if_neg (by simp [h3]), hn, if_pos ⟨h1, h2⟩]

/-- **C66** (`view`, where it works). On a 3D figure with a single row or a single column of subplots, `view` moves the camera of the subplot
at the given row and column (counted from one) to the requested direction and distance and leaves all other cameras and all texts alone; without row and column it
moves the camera of the first subplot. -/
theorem C66_view_partial (fig : Verif.Model.Plotly.Fig L) (n0 n1 : ℕ) (h3 : fig.is3d = true) (hcount : fig.count = n0 * n1) (hn : n0 = 1 ∨ n1 = 1)
    (azimuth elevation d : ℝ) (hd : d ≠ 0) (r c : ℕ) (hr : r < n0) (hc : c < n1) :
    (∃ fig', view fig azimuth elevation (some (r + 1)) (some (c + 1)) (some d) = .ok fig' ∧ fig'.text = fig.text ∧
      (∀ k, k ≠ subplotNumber n1 r c → fig'.eye k = fig.eye k) ∧
      ∃ e : ℝ × ℝ × ℝ, fig'.eye (subplotNumber n1 r c) = some e ∧ e.1 ^ 2 + e.2.1 ^ 2 + e.2.2 ^ 2 = d ^ 2 ∧
        e.2.2 = d * Real.sin (elevation * (Real.pi / 180)) ∧
        e.1 * Real.cos (azimuth * (Real.pi / 180)) = e.2.1 * Real.sin (azimuth * (Real.pi / 180))) ∧
    ∃ fig', view fig azimuth elevation none none (some d) = .ok fig' ∧ fig'.text = fig.text ∧
      ∀ k, k ≠ 1 → fig'.eye k = fig.eye k := by
  have hnum : sceneNum (some (r + 1)) (some (c + 1)) = subplotNumber n1 r c := by
    simp only [sceneNum, subplotNumber]
    rw [if_pos ⟨by omega, by omega⟩]
    rcases hn with rfl | rfl
    · obtain rfl : r = 0 := by omega
      omega
    · omega
  have hle : subplotNumber n1 r c ≤ n0 * n1 := by
    rcases hn with rfl | rfl <;> simp only [subplotNumber] <;> nlinarith
  have hdist : newDistance fig (some d) = d := by simp [newDistance, hd]
  refine ⟨⟨_, view_ok fig h3 _ _ _ _ _ _ hnum (by simp [subplotNumber]) (by rw [hcount]; exact hle), rfl, ?_, ?_⟩, ?_⟩
  · intro k hk
    exact if_neg hk
  · refine ⟨eyeOf d azimuth elevation, ?_, eyeOf_norm d _ _, rfl, ?_⟩
    · exact (if_pos rfl).trans (by rw [hdist])
    · simp only [eyeOf]; ring
  · refine ⟨_, view_ok fig h3 _ _ none none _ 1 rfl (le_refl _) (by rw [hcount]; simp only [subplotNumber] at hle; omega), rfl, ?_⟩
    intro k hk
    exact if_neg hk

/-- In a figure with two rows and two columns, `view` for the last subplot moves the camera of another one. -/
theorem C66_view_fails (fig : Verif.Model.Plotly.Fig L) (h3 : fig.is3d = true) (hcount : fig.count = 2 * 2) (azimuth elevation d : ℝ) (hd : d ≠ 0) :
    ∃ fig', view fig azimuth elevation (some 2) (some 2) (some d) = .ok fig' ∧
      fig'.eye (subplotNumber 2 1 1) = fig.eye (subplotNumber 2 1 1) ∧
      fig'.eye (subplotNumber 2 1 0) = some (eyeOf d azimuth elevation) := by
  have hdist : newDistance fig (some d) = d := by simp [newDistance, hd]
  refine ⟨_, view_ok fig h3 _ _ (some 2) (some 2) _ 3 rfl (by omega) (by omega), ?_, ?_⟩
  · simp [subplotNumber]
  · simp [subplotNumber, hdist]

end Verif.Props
