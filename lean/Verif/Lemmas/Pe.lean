import Verif.Model.Pe
import Verif.Spec.Pe
import Mathlib.Data.List.Nodup
import Mathlib.Data.List.Sort
import Mathlib.Tactic.Ring

/-! # The permutation computed by `pe` -/

namespace Verif.Lemmas.Pe

open Verif.Py Verif.Model Verif.Spec

variable {α R : Type}

/-- The order `pe` aims at: the frozen positions first (last one in front), then the others. -/
def goodOrder (n : ℕ) (L : List ℕ) : List ℕ := L.reverse ++ (List.range n).filter (· ∉ L)

theorem filter_lt_length {P : List ℕ} (hn : P.Nodup) {k : ℕ} (hP : ∀ x ∈ P, x < k) :
    P.length + ((List.range k).filter (· ∉ P)).length = k := by
  have h1 : ((List.range k).filter (· ∈ P)).length = P.length := by
    apply List.Perm.length_eq
    rw [List.perm_ext_iff_of_nodup (List.nodup_range.filter _) hn]
    intro x
    simp only [List.mem_filter, List.mem_range, decide_eq_true_eq]
    exact ⟨fun h => h.2, fun h => ⟨hP x h, h⟩⟩
  have h2 := List.length_eq_length_filter_add (l := List.range k) (fun x => decide (x ∈ P))
  rw [List.length_range, h1] at h2
  simp only [decide_not]
  omega

theorem range_split {k n : ℕ} (hk : k < n) : List.range n = List.range k ++ k :: List.range' (k + 1) (n - k - 1) := by
  have h1 : List.range n = List.range k ++ List.range' k (n - k) := by
    rw [List.range_eq_range', List.range_eq_range']
    have := @List.range'_append_1 0 k (n - k)
    rw [Nat.zero_add] at this
    rw [this]
    congr 1
    omega
  rw [h1]
  congr 1
  obtain ⟨m, hm⟩ : ∃ m, n - k = m + 1 := ⟨n - k - 1, by omega⟩
  rw [hm, List.range'_succ]
  simp

theorem moveToFront_good {n : ℕ} {P : List ℕ} (hn : P.Nodup) {k : ℕ} (hP : ∀ x ∈ P, x < k) (hk : k < n) :
    moveToFront (goodOrder n P) k = .ok (goodOrder n (P ++ [k])) := by
  have hkP : k ∉ P := fun h => absurd (hP k h) (lt_irrefl k)
  have hlen := filter_lt_length hn hP
  have hsplit : goodOrder n P = (P.reverse ++ (List.range k).filter (· ∉ P)) ++
      k :: (List.range' (k + 1) (n - k - 1)).filter (· ∉ P) := by
    unfold goodOrder
    rw [range_split hk, List.filter_append, List.filter_cons_of_pos (by simpa using hkP), List.append_assoc]
  have hl : (P.reverse ++ (List.range k).filter (· ∉ P)).length = k := by
    rw [List.length_append, List.length_reverse]
    exact hlen
  have hget : (goodOrder n P)[k]? = some k := by
    rw [hsplit, List.getElem?_append_right (by omega), hl]
    simp
  have herase : (goodOrder n P).eraseIdx k = (P.reverse ++ (List.range k).filter (· ∉ P)) ++
      (List.range' (k + 1) (n - k - 1)).filter (· ∉ P) := by
    rw [hsplit, List.eraseIdx_append_of_length_le (by omega), hl]
    simp
  unfold moveToFront
  rw [hget, herase]
  simp only
  congr 1
  unfold goodOrder
  rw [range_split hk, List.filter_append, List.filter_cons_of_neg (by simp), List.reverse_append, List.append_assoc]
  simp only [List.reverse_cons, List.reverse_nil, List.nil_append, List.singleton_append, List.cons_append]
  congr 2
  congr 1
  · refine List.filter_congr fun x hx => ?_
    have := List.mem_range.1 hx
    simp only [List.mem_append, List.mem_singleton, not_or, decide_eq_decide]
    exact ⟨fun h => ⟨h, by omega⟩, fun h => h.1⟩
  · refine List.filter_congr fun x hx => ?_
    have := (List.mem_range'_1.1 hx).1
    simp only [List.mem_append, List.mem_singleton, not_or, decide_eq_decide]
    exact ⟨fun h => ⟨h, by omega⟩, fun h => h.1⟩

/-- For ascending positions the loop computes the order aimed at. -/
theorem peOrder_good {n : ℕ} {L : List ℕ} (hs : L.Pairwise (· < ·)) (hL : ∀ k ∈ L, k < n) :
    peOrder n L = .ok (goodOrder n L) := by
  unfold peOrder
  have : ∀ (Q P : List ℕ), (P ++ Q).Pairwise (· < ·) → (∀ k ∈ Q, k < n) →
      Q.foldlM moveToFront (goodOrder n P) = .ok (goodOrder n (P ++ Q)) := by
    intro Q
    induction Q with
    | nil =>
      intro P _ _
      rw [List.append_nil]
      rfl
    | cons k Q ih =>
      intro P hp hq
      have hp' : ((P ++ [k]) ++ Q).Pairwise (· < ·) := by simpa using hp
      rw [List.pairwise_append] at hp
      rw [List.foldlM_cons, moveToFront_good (hp.1.imp (fun h => ne_of_lt h)) (fun x hx => hp.2.2 x hx k (by simp))
        (hq k (by simp))]
      have := ih (P ++ [k]) hp' fun x hx => hq x (by simp [hx])
      rw [List.append_assoc] at this
      exact this
  have h0 : goodOrder n [] = List.range n := by simp [goodOrder]
  have := this L [] (by simpa using hs) hL
  rw [h0] at this
  simpa using this

theorem takeArgs_ok (l : List α) : ∀ (idx : List ℕ) (res : List α), idx.map (l[·]?) = res.map some → takeArgs l idx = .ok res
  | [], [], _ => rfl
  | [], _ :: _, h => by simp at h
  | _ :: _, [], h => by simp at h
  | k :: ks, a :: as, h => by
    simp only [List.map_cons, List.cons.injEq] at h
    unfold takeArgs
    rw [h.1]
    simp only
    rw [takeArgs_ok l ks as h.2]
    rfl

theorem map_getElem? (l : List α) : (List.range l.length).map (l[·]?) = l.map some := by
  refine List.ext_getElem? fun i => ?_
  rw [List.getElem?_map, List.getElem?_map]
  by_cases hi : i < l.length
  · rw [List.getElem?_range hi]
    simp [hi]
  · rw [List.getElem?_eq_none (by simpa using hi), List.getElem?_eq_none (by simpa using hi)]
    rfl

theorem filterMap_getElem? (l : List α) (idx : List ℕ) (h : ∀ k ∈ idx, k < l.length) :
    (idx.filterMap (l[·]?)).map some = idx.map (l[·]?) := by
  induction idx with
  | nil => rfl
  | cons k idx ih =>
    have hk := h k (by simp)
    rw [List.filterMap_cons_some (List.getElem?_eq_getElem hk), List.map_cons, List.map_cons,
      ih fun x hx => h x (by simp [hx]), List.getElem?_eq_getElem hk]

theorem takeArgs_total (l : List α) (idx : List ℕ) (h : ∀ k ∈ idx, k < l.length) :
    takeArgs l idx = .ok (idx.filterMap (l[·]?)) :=
  takeArgs_ok l idx _ (filterMap_getElem? l idx h).symm

/-- The length of the arguments that remain. -/
theorem remaining_length {n : ℕ} {L : List ℕ} (hn : L.Nodup) (hL : ∀ k ∈ L, k < n) (out : List α) (ho : out.length = n) :
    L.length + (remaining L out).length = n := by
  have h1 : (remaining L out).length = ((List.range n).filter (· ∉ L)).length := by
    have := congrArg List.length (filterMap_getElem? out ((List.range out.length).filter (· ∉ L))
      fun k hk => List.mem_range.1 (List.mem_of_mem_filter hk))
    simp only [List.length_map] at this
    unfold remaining
    rw [this, ho]
  rw [h1]
  exact filter_lt_length hn hL

/-- The function `pe` returns for ascending positions. -/
theorem pe_good (args : List α) {L : List ℕ} (hs : L.Pairwise (· < ·)) (hL : ∀ k ∈ L, k < args.length)
    (f : List α → Except Err R) :
    ∃ g, pe args L f = .ok g ∧ ∀ out : List α, out.length = args.length → (∀ k ∈ L, out[k]? = args[k]?) →
      g (remaining L out) = f out := by
  have hn : L.Nodup := hs.imp (fun h => ne_of_lt h)
  unfold pe
  rw [peOrder_good hs hL]
  have hord : ∀ k ∈ goodOrder args.length L, k < args.length := by
    intro k hk
    rcases List.mem_append.1 hk with h | h
    · exact hL k (List.mem_reverse.1 h)
    · exact List.mem_range.1 (List.mem_of_mem_filter h)
  show ∃ g, (takeArgs args (goodOrder args.length L) >>= _) = _ ∧ _
  rw [takeArgs_total args _ hord]
  by_cases h0 : L.length > 0
  · refine ⟨fRemoved args.length L.length (goodOrder args.length L) ((goodOrder args.length L).filterMap (args[·]?)) f,
      ?_, ?_⟩
    · show (if L.length > 0 then _ else _) = _
      rw [if_pos h0]
    intro out ho hout
    unfold fRemoved
    rw [if_pos (remaining_length hn hL out ho)]
    suffices takeArgs (((goodOrder args.length L).filterMap (args[·]?)).take L.length ++ remaining L out)
        (argsortPerm args.length (goodOrder args.length L)) = .ok out by
      rw [this]
      rfl
    set order := goodOrder args.length L with hodef
    set all := (order.filterMap (args[·]?)).take L.length ++ remaining L out with hall
    have hallmap : all.map some = order.map (out[·]?) := by
      rw [hall, List.map_append, List.map_take, filterMap_getElem? args order hord]
      have h2 : (remaining L out).map some = ((List.range args.length).filter (· ∉ L)).map (out[·]?) := by
        unfold remaining
        rw [ho]
        exact filterMap_getElem? out _ fun k hk => ho ▸ List.mem_range.1 (List.mem_of_mem_filter hk)
      have h3 : (order.map (args[·]?)).take L.length = L.reverse.map (out[·]?) := by
        rw [hodef]
        unfold goodOrder
        rw [List.map_append, List.take_append_of_le_length (by simp), List.take_of_length_le (by simp)]
        exact List.map_congr_left fun k hk => (hout k (List.mem_reverse.1 hk)).symm
      rw [h2, h3, hodef]
      unfold goodOrder
      rw [List.map_append]
    refine takeArgs_ok _ _ _ ?_
    unfold argsortPerm
    rw [List.map_map, ← map_getElem?, ho]
    refine List.map_congr_left fun i hi => ?_
    have hmem : i ∈ order := by
      rw [hodef]
      unfold goodOrder
      by_cases hiL : i ∈ L
      · exact List.mem_append.2 (Or.inl (List.mem_reverse.2 hiL))
      · exact List.mem_append.2 (Or.inr (List.mem_filter.2 ⟨hi, by simpa using hiL⟩))
    have hidx : order.idxOf i < order.length := List.idxOf_lt_length_of_mem hmem
    have h4 := congrArg (fun l : List (Option α) => l[order.idxOf i]?) hallmap
    simp only [List.getElem?_map] at h4
    rw [List.getElem?_eq_getElem hidx, List.getElem_idxOf] at h4
    have hlen : all.length = order.length := by simpa using congrArg List.length hallmap
    show all[order.idxOf i]? = out[i]?
    rw [List.getElem?_eq_getElem (by omega)] at h4 ⊢
    simpa using h4
  · have hL0 : L = [] := List.eq_nil_of_length_eq_zero (by omega)
    subst hL0
    refine ⟨f, rfl, fun out ho _ => ?_⟩
    have : remaining [] out = out := by
      have h5 := filterMap_getElem? out (List.range out.length) fun k hk => List.mem_range.1 hk
      rw [map_getElem?] at h5
      unfold remaining
      rw [List.filter_eq_self.2 (by simp)]
      exact (List.map_injective_iff.2 (Option.some_injective α)) h5
    rw [this]

end Verif.Lemmas.Pe
