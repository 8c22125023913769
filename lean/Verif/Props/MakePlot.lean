import Verif.Spec.MakePlot

/-! # C62: every subplot of a matplotlib figure has the labels and the title given for it -/

namespace Verif.Props

open Verif.Py Verif.Model.MakePlot Verif.Spec

variable {L : Type}

theorem consistify_ok {a : LabArg L} {r c : ℕ} {f : ℕ → ℕ → Option L} (h : ReadsAs a r c f) : consistify a = .ok ⟨r, c, f⟩ := by
  cases h <;> rfl

theorem consistifyOpt_ok {a : Option (LabArg L)} {n0 n1 : ℕ} {f : ℕ → ℕ → Option L} (h : CoversOpt a n0 n1 f) :
    ∃ g, consistifyOpt a = .ok g ∧ g.isSome = a.isSome ∧ (g = none → ∀ j k, f j k = none) ∧
      ∀ G, g = some G → ∀ j k, j < n0 → k < n1 → G.get j k = .ok (f j k) := by
  cases a with
  | none => exact ⟨none, rfl, rfl, fun _ => h, by simp⟩
  | some a =>
      obtain ⟨r, c, hr, hc, ha⟩ := h
      refine ⟨some ⟨r, c, f⟩, by simp [consistifyOpt, consistify_ok ha, Except.map], rfl, by simp, ?_⟩
      rintro G hG j k hj hk
      cases hG
      simp [Grid.get, show j < r by omega, show k < c by omega]

theorem modify_mid {α : Type} (d r : List α) (a : α) (f : α → α) : (d ++ a :: r).modify d.length f = d ++ f a :: r := by
  induction d with
  | nil => rfl
  | cons b d ih => simpa using ih

theorem onAxes_last (ax : List (Axes L)) (a : Axes L) (f : Axes L → Axes L) :
    onAxes (ax ++ [a]) ax.length f = .ok (ax ++ [f a]) := by
  simp [onAxes, modify_mid]

theorem mem_cells {n0 n1 : ℕ} {p : ℕ × ℕ} (h : p ∈ cells n0 n1) : p.1 < n0 ∧ p.2 < n1 := by
  simp only [cells, List.mem_flatMap, List.mem_map, List.mem_range] at h
  obtain ⟨j, hj, k, hk, rfl⟩ := h
  exact ⟨hj, hk⟩

/-- The subplot without its title. -/
def bare (n0 n1 : ℕ) (is3d : Bool) (x y z : ℕ → ℕ → Option L) (p : ℕ × ℕ) : Axes L :=
  subplotAt n0 n1 is3d x y z (fun _ _ => none) p

theorem addStep_run (x y : Grid L) (z : Option (Grid L)) (fy fz : ℕ → ℕ → Option L)
    (hy : ∀ j k, j < x.rows → k < x.cols → y.get j k = .ok (fy j k))
    (hz0 : z = none → ∀ j k, fz j k = none)
    (hz : ∀ G, z = some G → ∀ j k, j < x.rows → k < x.cols → G.get j k = .ok (fz j k))
    (ax : List (Axes L)) (p : ℕ × ℕ) (hp : p.1 < x.rows ∧ p.2 < x.cols) :
    addStep x y z (ax, ax.length) p =
      .ok (if (x.at_ p.1 p.2).isSome then
          (ax ++ [bare x.rows x.cols z.isSome x.at_ fy fz p], ax.length + 1) else (ax, ax.length)) := by
  have hx : x.get p.1 p.2 = .ok (x.at_ p.1 p.2) := by simp [Grid.get, hp.1, hp.2]
  cases hl : x.at_ p.1 p.2 with
  | none => simp [addStep, hx, hl, bind, Except.bind]
  | some l =>
      cases z with
      | none =>
          simp only [addStep, hx, hl, bind, Except.bind, addOne, onAxes_last, hy _ _ hp.1 hp.2, setZ, newAxes]
          simp [bare, subplotAt, hl, hz0]
      | some G =>
          simp only [addStep, hx, hl, bind, Except.bind, addOne, onAxes_last, hy _ _ hp.1 hp.2, setZ, newAxes,
            hz G rfl _ _ hp.1 hp.2]
          simp [bare, subplotAt, hl]

theorem addFold (x y : Grid L) (z : Option (Grid L)) (fy fz : ℕ → ℕ → Option L)
    (hy : ∀ j k, j < x.rows → k < x.cols → y.get j k = .ok (fy j k))
    (hz0 : z = none → ∀ j k, fz j k = none)
    (hz : ∀ G, z = some G → ∀ j k, j < x.rows → k < x.cols → G.get j k = .ok (fz j k))
    (l : List (ℕ × ℕ)) (hl : ∀ p ∈ l, p.1 < x.rows ∧ p.2 < x.cols) (ax : List (Axes L)) :
    ∃ n, l.foldlM (addStep x y z) (ax, ax.length) =
      .ok (ax ++ (l.filter fun p => (x.at_ p.1 p.2).isSome).map (bare x.rows x.cols z.isSome x.at_ fy fz), n) := by
  induction l generalizing ax with
  | nil => exact ⟨ax.length, by simp [pure, Except.pure]⟩
  | cons p l ih =>
      have h := addStep_run x y z fy fz hy hz0 hz ax p (hl p (by simp))
      simp only [List.foldlM_cons, h, bind, Except.bind]
      cases hs : (x.at_ p.1 p.2).isSome with
      | false =>
          obtain ⟨n, hn⟩ := ih (fun q hq => hl q (by simp [hq])) ax
          exact ⟨n, by simp [hs, hn]⟩
      | true =>
          obtain ⟨n, hn⟩ := ih (fun q hq => hl q (by simp [hq])) (ax ++ [bare x.rows x.cols z.isSome x.at_ fy fz p])
          simp only [List.length_append, List.length_singleton] at hn
          exact ⟨n, by simp [hs, hn]⟩

theorem onAxes_mid (d r : List (Axes L)) (a : Axes L) (f : Axes L → Axes L) :
    onAxes (d ++ a :: r) d.length f = .ok (d ++ f a :: r) := by
  simp [onAxes, modify_mid]

theorem titleFold (x : Grid L) (t : Grid L) (ft : ℕ → ℕ → Option L) (b : Bool) (fy fz : ℕ → ℕ → Option L)
    (ht : ∀ j k, j < x.rows → k < x.cols → t.get j k = .ok (ft j k))
    (l : List (ℕ × ℕ)) (hl : ∀ p ∈ l, p.1 < x.rows ∧ p.2 < x.cols)
    (hpat : ∀ p ∈ l, (ft p.1 p.2).isSome = (x.at_ p.1 p.2).isSome) (d : List (Axes L)) :
    ∃ n, l.foldlM (titleStep t)
        (d ++ (l.filter fun p => (x.at_ p.1 p.2).isSome).map (bare x.rows x.cols b x.at_ fy fz), d.length) =
      .ok (d ++ (l.filter fun p => (x.at_ p.1 p.2).isSome).map (subplotAt x.rows x.cols b x.at_ fy fz ft), n) := by
  induction l generalizing d with
  | nil => exact ⟨d.length, by simp [pure, Except.pure]⟩
  | cons p l ih =>
      have hg := ht _ _ (hl p (by simp)).1 (hl p (by simp)).2
      have hp := hpat p (by simp)
      simp only [List.foldlM_cons, titleStep, hg, bind, Except.bind]
      cases hs : (x.at_ p.1 p.2).isSome with
      | false =>
          obtain ⟨n, hn⟩ := ih (fun q hq => hl q (by simp [hq])) (fun q hq => hpat q (by simp [hq])) d
          rw [hs] at hp
          have hnone : (ft p.1 p.2).isNone = true := by simpa [Option.isSome_iff_ne_none] using hp
          exact ⟨n, by simpa [hs, hnone, titleStep, bind, Except.bind] using hn⟩
      | true =>
          rw [hs] at hp
          have hnone : (ft p.1 p.2).isNone = false := by
            cases h : ft p.1 p.2 <;> simp_all
          obtain ⟨n, hn⟩ := ih (fun q hq => hl q (by simp [hq])) (fun q hq => hpat q (by simp [hq]))
            (d ++ [subplotAt x.rows x.cols b x.at_ fy fz ft p])
          simp only [List.length_append, List.length_singleton, List.append_assoc, List.singleton_append] at hn
          refine ⟨n, ?_⟩
          simp only [hs, List.filter_cons_of_pos, List.map_cons, hnone, onAxes_mid]
          exact hn

theorem twinFold (x t : Grid L) (ft : ℕ → ℕ → Option L) (ax : List (Axes L))
    (ht : ∀ j k, j < x.rows → k < x.cols → t.get j k = .ok (ft j k))
    (l : List (ℕ × ℕ)) (hl : ∀ p ∈ l, p.1 < x.rows ∧ p.2 < x.cols) (d : List (Twin L))
    (hax : d.length + (l.filter fun p => (x.at_ p.1 p.2).isSome).length ≤ ax.length) :
    ∃ n, l.foldlM (twinStep x t ax) (d, d.length) =
      .ok (d ++ ((l.filter fun p => (x.at_ p.1 p.2).isSome).zipIdx d.length).map (fun q => ⟨q.2, ft q.1.1 q.1.2⟩), n) := by
  induction l generalizing d with
  | nil => exact ⟨d.length, by simp [pure, Except.pure]⟩
  | cons p l ih =>
      have hg := ht _ _ (hl p (by simp)).1 (hl p (by simp)).2
      have hx : x.get p.1 p.2 = .ok (x.at_ p.1 p.2) := by simp [Grid.get, (hl p (by simp)).1, (hl p (by simp)).2]
      simp only [List.foldlM_cons, twinStep, hx, bind, Except.bind]
      cases hs : (x.at_ p.1 p.2).isSome with
      | false =>
          have hnone : (x.at_ p.1 p.2).isNone = true := by simpa [Option.isSome_iff_ne_none] using hs
          obtain ⟨n, hn⟩ := ih (fun q hq => hl q (by simp [hq])) d (by simpa [hs] using hax)
          exact ⟨n, by simpa [hs, hnone, twinStep, bind, Except.bind] using hn⟩
      | true =>
          have hnone : (x.at_ p.1 p.2).isNone = false := by
            cases h : x.at_ p.1 p.2 <;> simp_all
          have hlen : d.length < ax.length := by
            simp only [hs, List.filter_cons_of_pos, List.length_cons] at hax; omega
          obtain ⟨n, hn⟩ := ih (fun q hq => hl q (by simp [hq])) (d ++ [⟨d.length, ft p.1 p.2⟩])
            (by simp only [hs, List.filter_cons_of_pos, List.length_cons] at hax; simp; omega)
          simp only [List.length_append, List.length_singleton, List.append_assoc, List.singleton_append] at hn
          refine ⟨n, ?_⟩
          simp only [hs, List.filter_cons_of_pos, hnone, hlen, hg, modify_mid, List.zipIdx_cons, List.map_cons,
            Nat.lt_succ_self, if_true, Bool.false_eq_true, if_false]
          exact hn

/-- **C62** (subplots labelled as asked, where the code does so). If the tables of labels cover the shape of the x labels, and titles are
absent or given exactly where an x label is given, then the constructor makes one subplot for every x label that is not `None`, row by
row, at its own position of the figure, with the labels and the title given for that position, and its twin axes, if asked for, has the
twin label given for that position. Missing: titles that are `None` at other positions than the x labels, see `C62_title_fails`. -/
theorem C62_partial (xlabs ylabs : LabArg L) (titles twinYlabs zlabs : Option (LabArg L)) (n0 n1 : ℕ) (x y z t w : ℕ → ℕ → Option L)
    (hx : ReadsAs xlabs n0 n1 x) (hy : CoversOpt (some ylabs) n0 n1 y) (hz : CoversOpt zlabs n0 n1 z)
    (ht : CoversOpt titles n0 n1 t) (hw : CoversOpt twinYlabs n0 n1 w)
    (hpat : titles.isSome → ∀ j k, j < n0 → k < n1 → ((t j k).isSome ↔ (x j k).isSome)) :
    ∃ fig, init xlabs ylabs titles twinYlabs zlabs = .ok fig ∧
      fig.ax = (used n0 n1 x).map (subplotAt n0 n1 zlabs.isSome x y z t) ∧
      fig.twinAx = if twinYlabs.isSome then (used n0 n1 x).zipIdx.map (fun q => ⟨q.2, w q.1.1 q.1.2⟩) else [] := by
  have cx := consistify_ok hx
  obtain ⟨r, c, hr, hc, hy⟩ := hy
  have cy := consistify_ok hy
  obtain ⟨gz, cz, sz, nz, vz⟩ := consistifyOpt_ok hz
  obtain ⟨gt, ct, st, nt, vt⟩ := consistifyOpt_ok ht
  obtain ⟨gw, cw, sw, nw, vw⟩ := consistifyOpt_ok hw
  have hmem : ∀ p ∈ cells n0 n1, p.1 < n0 ∧ p.2 < n1 := fun p hp => mem_cells hp
  obtain ⟨n, ha⟩ := addFold (⟨n0, n1, x⟩ : Grid L) ⟨r, c, y⟩ gz y z
    (fun j k hj hk => if_pos ⟨Nat.lt_of_lt_of_le hj hr, Nat.lt_of_lt_of_le hk hc⟩) nz vz (cells n0 n1) hmem []
  simp only [List.length_nil, List.nil_append] at ha
  obtain ⟨A, hA⟩ : ∃ A, A = ((cells n0 n1).filter fun p => (x p.1 p.2).isSome).map (bare n0 n1 gz.isSome x y z) := ⟨_, rfl⟩
  rw [← hA] at ha
  have htw : twinAll ⟨n0, n1, x⟩ gw A =
      .ok (if twinYlabs.isSome then (used n0 n1 x).zipIdx.map (fun q => ⟨q.2, w q.1.1 q.1.2⟩) else []) := by
    cases gw with
    | none => simp [twinAll, ← sw]
    | some G =>
        obtain ⟨m, hm⟩ := twinFold (⟨n0, n1, x⟩ : Grid L) G w A (vw G rfl) (cells n0 n1) hmem [] (by simp [hA])
        simp only [List.length_nil, List.nil_append] at hm
        simp only [twinAll, hm, bind, Except.bind, ← sw]
        rfl
  have htt : titleAll ⟨n0, n1, x⟩ gt A = .ok ((used n0 n1 x).map (subplotAt n0 n1 zlabs.isSome x y z t)) := by
    cases gt with
    | none =>
        have : t = fun _ _ => none := by funext j k; exact nt rfl j k
        rw [hA, this, sz]
        rfl
    | some G =>
        have hp := hpat (by simp [← st])
        obtain ⟨m, hm⟩ := titleFold (⟨n0, n1, x⟩ : Grid L) G t gz.isSome y z (vt G rfl) (cells n0 n1) hmem
          (by intro p hp'; have := hp p.1 p.2 (hmem p hp').1 (hmem p hp').2; exact Bool.eq_iff_iff.2 this) []
        simp only [List.length_nil, List.nil_append] at hm
        simp only [titleAll, hA, hm, bind, Except.bind, ← sz]
        rfl
  refine ⟨⟨(used n0 n1 x).map (subplotAt n0 n1 zlabs.isSome x y z t), _⟩, ?_, rfl, rfl⟩
  simp only [init, cx, cy, cz, ct, cw, bind, Except.bind, addAll, ha, htw, htt]
  rfl

/-- Two rows of two subplots with the last one left out, and titles for the three others. -/
example : ∃ (x t : ℕ → ℕ → Option ℕ), ReadsAs (.d2 ⟨2, 2, x⟩) 2 2 x ∧ CoversOpt (some (.d2 ⟨2, 2, t⟩)) 2 2 t ∧
    (∀ j k, j < 2 → k < 2 → ((t j k).isSome ↔ (x j k).isSome)) ∧ used 2 2 x = [(0, 0), (0, 1), (1, 0)] :=
  ⟨fun j k => if j = 1 ∧ k = 1 then none else some (10 * j + k), fun j k => if j = 1 ∧ k = 1 then none else some 7,
    .d2 _, ⟨2, 2, Nat.le_refl _, Nat.le_refl _, .d2 _⟩, by intro j k _ _; dsimp only; split <;> simp, by decide⟩

/-- Two subplots side by side, of which only the second is to have a title: the constructor puts the title on the first one. -/
theorem C62_title_fails (a b t : L) :
    ∃ fig : Fig L, init (.d2 ⟨1, 2, fun _ k => if k = 0 then some a else some b⟩) (.d2 ⟨1, 2, fun _ _ => some a⟩)
        (some (.d2 ⟨1, 2, fun _ k => if k = 0 then none else some t⟩)) none none = .ok fig ∧
      (∃ s ∈ fig.ax, s.index = 1 ∧ s.title = some t) ∧ ∃ s ∈ fig.ax, s.index = 2 ∧ s.title = none :=
  ⟨_, rfl, ⟨_, List.mem_cons_self, rfl, rfl⟩, ⟨_, List.mem_cons_of_mem _ List.mem_cons_self, rfl, rfl⟩⟩

/-- A figure with one subplot left out, and titles at every position: the constructor fails with an `IndexError`. -/
theorem C62_titles_error_fails (a t : L) :
    init (.d2 ⟨1, 2, fun _ k => if k = 0 then some a else none⟩) (.d2 ⟨1, 2, fun _ _ => some a⟩)
      (some (.d2 ⟨1, 2, fun _ _ => some t⟩)) none none = .error .indexError := rfl

end Verif.Props
