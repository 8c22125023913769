import Verif.Lemmas.Graph

/-!
# C41, C42: the graph of component constraints

Python: /repo/src/tfc/utils/TFCUtils.py 1525–1684.
-/

namespace Verif.Props

open Verif.Py Verif.Spec Verif.Model.Graph Verif.Lemmas.Graph

/-- The arrows of a drawing, without their labels. -/
def DrawnArrow (D : Drawing) (u v : String) : Prop := ∃ l, (u, v, l) ∈ D.arrows

theorem drawn_false {N : List String} {E : List Edge} {G : Graph} (h : Graph.init N E = .ok G) :
    G.N = N ∧ G.E = E ∧ G.targets = productBits E.length ∧ (∀ e ∈ E, e.node0 ∈ N ∧ e.node1 ∈ N) ∧
      ∀ t, t ∈ G.drawn false ↔ t.length = E.length ∧ allEigvalsZero N.length (adjacency N E t) := by
  classical
  unfold Graph.init at h
  by_cases hE : E.any (fun e => !(decide (e.node0 ∈ N) && decide (e.node1 ∈ N))) = true
  · rw [if_pos hE] at h
    cases h
  · rw [if_neg hE] at h
    have hG := Except.ok.inj h
    subst hG
    refine ⟨rfl, rfl, rfl, ?_, ?_⟩
    · intro e he
      by_contra hc
      refine hE (List.any_eq_true.2 ⟨e, he, ?_⟩)
      by_cases h0 : e.node0 ∈ N
      · by_cases h1 : e.node1 ∈ N
        · exact absurd ⟨h0, h1⟩ hc
        · simp [h1]
      · simp [h0]
    · intro t
      simp only [Graph.drawn, Bool.false_eq_true, if_false, List.mem_map, List.mem_filter, List.mem_range, decide_eq_true_eq]
      constructor
      · rintro ⟨k, ⟨hk, hz⟩, rfl⟩
        refine ⟨?_, hz⟩
        rw [List.getD_eq_getElem?_getD, List.getElem?_eq_getElem hk]
        exact mem_productBits.1 (List.getElem_mem hk)
      · rintro ⟨hl, hz⟩
        obtain ⟨k, hk, hkt⟩ := List.getElem_of_mem (mem_productBits.2 hl)
        have h1 : (productBits E.length).getD k [] = t := by
          rw [List.getD_eq_getElem?_getD, List.getElem?_eq_getElem hk]
          exact hkt
        exact ⟨k, ⟨hk, by rw [h1]; exact hz⟩, h1⟩

theorem drawn_nodup {N : List String} {E : List Edge} {G : Graph} (h : Graph.init N E = .ok G) : (G.drawn false).Nodup := by
  classical
  unfold Graph.init at h
  by_cases hE : E.any (fun e => !(decide (e.node0 ∈ N) && decide (e.node1 ∈ N))) = true
  · rw [if_pos hE] at h
    cases h
  · rw [if_neg hE] at h
    have hG := Except.ok.inj h
    subst hG
    simp only [Graph.drawn, Bool.false_eq_true, if_false]
    refine List.Nodup.map_on ?_ (List.nodup_range.filter _)
    intro x hx y hy hxy
    have hx' := List.mem_range.1 (List.mem_filter.1 hx).1
    have hy' := List.mem_range.1 (List.mem_filter.1 hy).1
    rw [List.getD_eq_getElem?_getD, List.getD_eq_getElem?_getD, List.getElem?_eq_getElem hx', List.getElem?_eq_getElem hy'] at hxy
    exact (List.Nodup.getElem_inj_iff (nodup_productBits E.length)).1 hxy

theorem init_ok {N : List String} {E : List Edge} (hE : ∀ e ∈ E, e.node0 ∈ N ∧ e.node1 ∈ N) : ∃ G, Graph.init N E = .ok G := by
  unfold Graph.init
  rw [if_neg]
  · exact ⟨_, rfl⟩
  · intro hc
    obtain ⟨e, he, h⟩ := List.any_eq_true.1 hc
    have := hE e he
    simp [this.1, this.2] at h

open Classical in
/-- **C41.** For edges between two different nodes of the list, the constructor succeeds, and each choice of a target for every edge is among the good targets exactly once if its arrows have no cycle, and not at all otherwise. The good targets are listed in increasing order. -/
theorem C41 (N : List String) (E : List Edge) (hE : ∀ e ∈ E, e.node0 ∈ N ∧ e.node1 ∈ N ∧ e.node0 ≠ e.node1) :
    ∃ G, Graph.init N E = .ok G ∧
      (∀ t : List Bool, ((G.goodTargets.map fun k => G.targets.getD k []).count t =
        if t.length = E.length ∧ Acyclic (Arrow E t) then 1 else 0)) ∧
      G.goodTargets.Pairwise (· < ·) ∧ (∀ k ∈ G.goodTargets, k < G.targets.length) ∧
      ∀ t : List Bool, G.targets.count t = if t.length = E.length then 1 else 0 := by
  obtain ⟨G, hG⟩ := init_ok fun e he => ⟨(hE e he).1, (hE e he).2.1⟩
  have hd := drawn_false hG
  have hn := drawn_nodup hG
  refine ⟨G, hG, ?_, ?_, ?_, ?_⟩
  · intro t
    have hm : t ∈ G.drawn false ↔ t.length = E.length ∧ Acyclic (Arrow E t) := by
      rw [hd.2.2.2.2 t, good_iff hE]
    have hdr : (G.goodTargets.map fun k => G.targets.getD k []) = G.drawn false := by simp [Graph.drawn]
    rw [hdr]
    by_cases h : t ∈ G.drawn false
    · rw [List.count_eq_one_of_mem hn h, if_pos (hm.1 h)]
    · rw [List.count_eq_zero_of_not_mem h, if_neg fun hc => h (hm.2 hc)]
  · have h1 : G.goodTargets.Pairwise (· < ·) := by
      unfold Graph.init at hG
      split at hG
      · cases hG
      · have := Except.ok.inj hG
        subst this
        exact List.Pairwise.filter _ List.pairwise_lt_range
    exact h1
  · intro k hk
    unfold Graph.init at hG
    split at hG
    · cases hG
    · have := Except.ok.inj hG
      subst this
      exact List.mem_range.1 (List.mem_filter.1 hk).1
  · intro t
    rw [hd.2.2.1]
    by_cases h : t.length = E.length
    · rw [if_pos h, List.count_eq_one_of_mem (nodup_productBits _) (mem_productBits.2 h)]
    · rw [if_neg h, List.count_eq_zero_of_not_mem fun hc => h (mem_productBits.1 hc)]

/-- **C42**, bad edges: an edge naming a node outside the list is refused. -/
theorem C42_refused (N : List String) (E : List Edge) : Graph.init N E = .error .exit ↔ ∃ e ∈ E, e.node0 ∉ N ∨ e.node1 ∉ N := by
  constructor
  · intro h
    by_contra hc
    push Not at hc
    obtain ⟨G, hG⟩ := init_ok hc
    rw [hG] at h
    cases h
  · rintro ⟨e, he, h⟩
    unfold Graph.init
    rw [if_pos]
    refine List.any_eq_true.2 ⟨e, he, ?_⟩
    rcases h with h | h <;> simp [h]

theorem zip_arrows {E : List Edge} {t : List Bool} (h : t.length = E.length) (u v : String) :
    DrawnArrow ⟨[], (E.zip t).map fun p => arrow p.1 p.2⟩ u v ↔ Arrow E t u v := by
  unfold DrawnArrow Arrow
  simp only [List.mem_map, Prod.exists]
  constructor
  · rintro ⟨l, e, b, hm, ha⟩
    refine ⟨e, b, hm, ?_⟩
    cases b <;> simp [arrow] at ha ⊢ <;> exact ⟨ha.1.symm, ha.2.1.symm⟩
  · rintro ⟨e, b, hm, ha⟩
    refine ⟨e.name, e, b, hm, ?_⟩
    cases b <;> simp [arrow] at ha ⊢ <;> exact ⟨ha.1.symm, ha.2.symm⟩

/-- What a drawn tree must show: every node once per entry of the list; for the edge with number `j`, one arrow joining its two nodes and carrying its name; and no other arrow. -/
def Shows (N : List String) (E : List Edge) (D : Drawing) : Prop :=
  D.nodes = N ∧ D.arrows.length = E.length ∧
    ∀ (j : ℕ) (e : Edge), E[j]? = some e → D.arrows[j]? = some (e.node0, e.node1, e.name) ∨ D.arrows[j]? = some (e.node1, e.node0, e.name)

theorem tree_shows (N : List String) {E : List Edge} {t : List Bool} (h : t.length = E.length) :
    Shows N E ⟨N, (E.zip t).map fun p => arrow p.1 p.2⟩ := by
  refine ⟨rfl, by simp [h], ?_⟩
  intro j e hj
  have hjl : j < E.length := (List.getElem?_eq_some_iff.1 hj).1
  have hje : E[j] = e := (List.getElem?_eq_some_iff.1 hj).2
  have hz : j < ((E.zip t).map fun p => arrow p.1 p.2).length := by simp [h, hjl]
  change ((E.zip t).map fun p => arrow p.1 p.2)[j]? = _ ∨ ((E.zip t).map fun p => arrow p.1 p.2)[j]? = _
  rw [List.getElem?_eq_getElem hz, List.getElem_map, List.getElem_zip, hje]
  cases hb : t[j]
  · exact Or.inl (by simp [arrow])
  · exact Or.inr (by simp [arrow])

/-- **C42**, drawn trees, partly: for edges between two different nodes, every drawn tree has exactly one arrow per edge, its arrows are the non-zero entries of the matrix used by the check, and the trees drawn by default have no cycle; there is one tree for each acyclic choice. Missing: an edge from a node to itself, see `C42_self_loop_fails`. -/
theorem C42_drawn_partial (N : List String) (E : List Edge) (hE : ∀ e ∈ E, e.node0 ∈ N ∧ e.node1 ∈ N ∧ e.node0 ≠ e.node1) (G : Graph)
    (hG : Graph.init N E = .ok G) :
    (∀ (allGraphs : Bool) (k : ℕ) (D : Drawing), (G.trees allGraphs)[k]? = some D → ∃ t, (G.drawn allGraphs)[k]? = some t ∧ Shows N E D ∧
      ∀ u ∈ N, ∀ v ∈ N, DrawnArrow D u v ↔ adjacency N E t (N.idxOf u) (N.idxOf v) ≠ 0) ∧
    (∀ D ∈ G.trees false, Acyclic (DrawnArrow D)) := by
  classical
  obtain ⟨hN, hEE, hT, -, hd⟩ := drawn_false hG
  have hlen : ∀ b, ∀ t ∈ G.drawn b, t.length = E.length := by
    intro b t ht
    cases b with
    | false => exact ((hd t).1 ht).1
    | true =>
      have : t ∈ G.targets := by simpa [Graph.drawn] using ht
      rw [hT] at this
      exact mem_productBits.1 this
  constructor
  · intro b k D hD
    unfold Graph.trees at hD
    rw [List.getElem?_map, Option.map_eq_some_iff] at hD
    obtain ⟨t, ht, rfl⟩ := hD
    have htl := hlen b t (List.mem_of_getElem? ht)
    rw [hN, hEE]
    refine ⟨t, ht, tree_shows N htl, ?_⟩
    intro u hu v hv
    refine (zip_arrows htl u v).trans ?_
    rw [← adjacency_arrow hE t hu hv, adjacency_eq]
    constructor
    · intro h
      rw [if_pos h]
      exact one_ne_zero
    · intro h
      by_contra hc
      rw [if_neg hc] at h
      exact h rfl
  · intro D hD
    unfold Graph.trees at hD
    obtain ⟨t, ht, rfl⟩ := List.mem_map.1 hD
    have h1 := (hd t).1 ht
    have h2 := (good_iff hE t).1 h1.2
    rw [hN, hEE]
    intro v hv
    refine h2 v (Relation.TransGen.mono ?_ v v hv)
    intro a b hab
    exact (zip_arrows h1.1 a b).1 hab

/-- **C42** for every graph: one arrow per edge, joining its two nodes and carrying its name. -/
theorem C42_one_arrow (N : List String) (E : List Edge) (G : Graph) (hG : Graph.init N E = .ok G) (allGraphs : Bool) :
    ∀ D ∈ G.trees allGraphs, Shows N E D := by
  intro D hD
  obtain ⟨hN, hEE, hT, -, hd⟩ := drawn_false hG
  unfold Graph.trees at hD
  obtain ⟨t, ht, rfl⟩ := List.mem_map.1 hD
  rw [hN, hEE]
  refine tree_shows N ?_
  cases allGraphs with
  | false => exact ((hd t).1 ht).1
  | true =>
    have : t ∈ G.targets := by simpa [Graph.drawn] using ht
    rw [hT] at this
    exact mem_productBits.1 this

/-- The claim fails for an edge from a node to itself: one of its two choices is not seen by the check, so that a tree is reported whose drawing has a loop. -/
theorem C42_self_loop_fails : ∃ (N : List String) (E : List Edge) (G : Graph), Graph.init N E = .ok G ∧
    ∃ D ∈ G.trees false, ¬ Acyclic (DrawnArrow D) ∧ ∃ t ∈ G.drawn false, adjacency N E t = fun _ _ => 0 := by
  obtain ⟨G, hG⟩ := init_ok (N := ["a"]) (E := [⟨"l", "a", "a"⟩]) (by simp)
  obtain ⟨hN, hEE, hT, -, hd⟩ := drawn_false hG
  have hadj : adjacency ["a"] [⟨"l", "a", "a"⟩] [false] = fun _ _ => 0 := by
    simp [adjacency, adjStep]
  have hmem : [false] ∈ G.drawn false := by
    rw [hd]
    refine ⟨rfl, ?_⟩
    intro μ v hv h
    rw [hadj] at h
    have h0 : (Matrix.of fun i j : Fin ["a"].length => ((0 : ℝ) : ℂ)).mulVec v = 0 := by
      ext i
      simp [Matrix.mulVec, dotProduct]
    have h2 := h0.symm.trans h
    rcases smul_eq_zero.1 h2.symm with h3 | h3
    · exact h3
    · exact absurd h3 hv
  refine ⟨_, _, G, hG, _, List.mem_map.2 ⟨_, hmem, rfl⟩, ?_, _, hmem, hadj⟩
  intro h
  refine h "a" (Relation.TransGen.single ⟨"l", ?_⟩)
  rw [hEE]
  simp [arrow]

/-- **C42**, overview page: every tree appears once, in order, in rows of at most five. -/
theorem C42_overview (n : ℕ) : (mainRows n).flatten = List.range n ∧ ∀ r ∈ mainRows n, 0 < r.length ∧ r.length ≤ 5 := by
  constructor
  · have key : ∀ m, m ≤ (n + 4) / 5 →
        ((List.range m).map fun j => (List.range (min 5 (n - j * 5))).map (j * 5 + ·)).flatten = List.range (min n (m * 5)) := by
      intro m
      induction m with
      | zero => simp
      | succ m ih =>
        intro hm
        rw [List.range_succ, List.map_append, List.flatten_append, ih (by omega)]
        have h1 : min n (m * 5) = m * 5 := by omega
        have h2 : min n ((m + 1) * 5) = m * 5 + min 5 (n - m * 5) := by omega
        rw [h1, h2, List.range_add]
        simp
    have := key _ (le_refl _)
    unfold mainRows
    rw [this]
    congr 1
    omega
  · intro r hr
    obtain ⟨j, hj, rfl⟩ := List.mem_map.1 hr
    have := List.mem_range.1 hj
    simp only [List.length_map, List.length_range]
    omega

/-! ### A case: a triangle -/

/-- A triangle meets the hypotheses of `C41`. -/
example : ∀ e ∈ [Edge.mk "p" "x" "y", Edge.mk "q" "y" "z", Edge.mk "r" "z" "x"],
    e.node0 ∈ ["x", "y", "z"] ∧ e.node1 ∈ ["x", "y", "z"] ∧ e.node0 ≠ e.node1 := by simp

/-- Going round the triangle is a cycle. -/
example : ¬ Acyclic (Arrow [Edge.mk "p" "x" "y", Edge.mk "q" "y" "z", Edge.mk "r" "z" "x"] [false, false, false]) := by
  intro h
  refine h "x" ?_
  refine Relation.TransGen.tail (Relation.TransGen.tail (Relation.TransGen.single (b := "y") ?_) (c := "z") ?_) ?_
  · exact ⟨Edge.mk "p" "x" "y", false, by simp, by simp⟩
  · exact ⟨Edge.mk "q" "y" "z", false, by simp, by simp⟩
  · exact ⟨Edge.mk "r" "z" "x", false, by simp, by simp⟩

/-- Turning one edge round leaves no cycle. -/
example : Acyclic (Arrow [Edge.mk "p" "x" "y", Edge.mk "q" "y" "z", Edge.mk "r" "z" "x"] [false, false, true]) := by
  let rank : String → ℕ := fun s => if s = "x" then 0 else if s = "y" then 1 else 2
  have hlt : ∀ u v, Arrow [Edge.mk "p" "x" "y", Edge.mk "q" "y" "z", Edge.mk "r" "z" "x"] [false, false, true] u v → rank u < rank v := by
    rintro u v ⟨e, b, hm, h⟩
    simp only [List.zip_cons_cons, List.zip_nil_right, List.mem_cons, Prod.mk.injEq, List.not_mem_nil, or_false] at hm
    rcases hm with ⟨rfl, rfl⟩ | ⟨rfl, rfl⟩ | ⟨rfl, rfl⟩ <;> simp at h <;> rw [h.1, h.2] <;> simp [rank]
  intro v hv
  have : ∀ w, Relation.TransGen (Arrow [Edge.mk "p" "x" "y", Edge.mk "q" "y" "z", Edge.mk "r" "z" "x"] [false, false, true]) v w →
      rank v < rank w := by
    intro w hw
    induction hw with
    | single h => exact hlt _ _ h
    | tail _ h ih => exact ih.trans (hlt _ _ h)
  exact lt_irrefl _ (this v hv)

end Verif.Props
