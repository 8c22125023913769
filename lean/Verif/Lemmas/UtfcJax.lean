import Verif.Model.UtfcJax
import Verif.Lemmas.UniCC
import Verif.Lemmas.BasisPy
import Verif.Spec.Utfc

/-! # Lemmas about the methods of `utfc` -/

namespace Verif

open Verif.Mem Verif.Py Verif.Np Verif.Spec Verif.Model.Py

theorem fromCC_of_returns {ι : Type} {r : Except Fault (ℕ × ℕ × Buf ℝ)} {n : ℕ} {cols : List ι} {V : ℕ → ι → ℝ}
    (h : ReturnsMatrix r n cols V) : ReturnsArray (fromCC r) n cols V := by
  obtain ⟨F, hr, hs, hF⟩ := h
  subst hr
  have hall : (List.range (n * cols.length)).all (fun i => (F.cell i).isSome) = true := by
    rw [List.all_eq_true]
    intro i hi
    have hi := List.mem_range.mp hi
    have hpos : 0 < cols.length := by
      rcases Nat.eq_zero_or_pos cols.length with h | h
      · rw [h] at hi; omega
      · exact h
    have h1 := hF (i / cols.length) ((Nat.div_lt_iff_lt_mul hpos).mpr hi) (i % cols.length) (Nat.mod_lt _ hpos)
    rw [Nat.div_add_mod] at h1
    rw [h1]; rfl
  unfold fromCC
  simp only
  rw [if_pos hall]
  refine ⟨_, rfl, rfl, rfl, fun j hj i hi => ?_⟩
  simp only
  rw [hF j hj i hi]; rfl

theorem fromCC_error {r : Except Fault (ℕ × ℕ × Buf ℝ)} {e : Fault} (h : r = .error e) : fromCC r = .error .crash := by
  subst h; rfl

/-- The two backends, for orders at which the code of the class computes something of the right shape. -/
theorem utfc_Hjax (u : Utfc) {d : ℕ} (hd : Evaluable u.backend u.cls d) (full : Bool)
    (hC : full = true ∨ ValidRemoval (u.deg + 1) u.nC) (n : ℕ) (xs : ℕ → ℝ) :
    ∃ V : ℕ → ℕ → ℝ, ReturnsArray (u.Hjax n xs d full) n (outColumns (u.deg + 1) u.nC full) V ∧
      (Exact u.backend u.cls d → ∀ j k, (d ≠ 0 → OffKink u.cls u.x0 u.xf k (xs j)) →
        V j k = iteratedDeriv d (u.cls.basis u.x0 u.xf k) (xs j)) ∧
      V = fun j k => match u.backend with
        | .cpp => uniE u.cls d (u.cls.arg u.x0 u.xf (xs j)) k * (Model.CC.uniNew u.cls u.x0 u.xf u.nC (u.deg + 1)).c ^ d
        | .python => uniPyE u.cls d (u.cls.arg u.x0 u.xf (xs j)) k *
            (Model.PyBF.uniInit u.cls u.x0 u.xf u.nC (u.deg + 1)).c ^ d := by
  unfold Utfc.Hjax
  cases hb : u.backend with
  | cpp =>
    rw [hb] at hd
    have hcode : UniClass.hasCode u.cls d := by
      rcases hcls : u.cls with f | _ | ⟨a, w, b⟩
      · trivial
      · trivial
      · cases a <;> first | trivial | exact hd _ _ hcls
    refine ⟨_, fromCC_of_returns (uni_H u.cls u.x0 u.xf u.nC (by omega) hcode full hC n xs), ?_, rfl⟩
    intro hex j k hk
    have hok : UniClass.orderOk u.cls d := by
      rcases hcls : u.cls with f | _ | ⟨a, w, b⟩
      · trivial
      · trivial
      · cases a <;> first | trivial | exact hex _ _ _ hcls (by simp)
    exact (uni_iteratedDeriv u.cls u.x0 u.xf u.nC _ hok k (xs j) hk).symm
  | python =>
    rw [hb] at hd
    have hcode : UniClass.shapeOk u.cls d := by
      rcases hcls : u.cls with f | _ | ⟨a, w, b⟩
      · trivial
      · trivial
      · cases a <;> first | trivial | exact hd _ _ hcls
    refine ⟨_, uniPy_H u.cls u.x0 u.xf u.nC (by omega) hcode full (hC.imp id fun h => h.2) n xs, ?_, rfl⟩
    intro hex j k hk
    exact (uniPy_iteratedDeriv u.cls u.x0 u.xf u.nC _ d k (xs j) hk).symm

theorem scaleRows_spec {ι : Type} {r : Except Err (Mat ℝ)} {n : ℕ} {cols : List ι} {V : ℕ → ι → ℝ} (t : ℕ → ℝ)
    (h : ReturnsArray r n cols V) :
    ReturnsArray (r >>= fun A => Mat.scaleRows A n t) n cols (fun j k => V j k * t j) := by
  obtain ⟨A, rfl, hr, hc, hA⟩ := h
  refine ⟨⟨n, A.cols, fun j i => A.at_ j i * t j⟩, ?_, rfl, hc, fun j hj i hi => by simp only [hA j hj i hi]⟩
  show Mat.scaleRows A n t = _
  rw [Mat.scaleRows, if_pos hr]

theorem hstack_spec {ι : Type} {n : ℕ} {A B : Mat ℝ} {c₁ c₂ : List ι} {V : ℕ → ι → ℝ}
    (h1 : ReturnsArray (.ok A) n c₁ V) (h2 : ReturnsArray (.ok B) n c₂ V) :
    ReturnsArray (A.hstack B) n (c₁ ++ c₂) V := by
  obtain ⟨A', hA, hr, hc, hA'⟩ := h1
  obtain ⟨B', hB, hr', hc', hB'⟩ := h2
  cases hA
  cases hB
  unfold Mat.hstack
  rw [if_pos (by omega)]
  refine ⟨_, rfl, hr, by simp [hc, hc'], fun j hj i hi => ?_⟩
  simp only
  split_ifs with h
  · rw [hA' j hj i (by omega), List.getElem_append_left (by omega)]
  · rw [List.length_append] at hi
    rw [hB' j hj (i - A.cols) (by omega), List.getElem_append_right (by omega)]
    simp only [hc]

theorem hstackFrom_spec {ι : Type} {n : ℕ} {V : ℕ → ι → ℝ} (l : List (Mat ℝ)) :
    ∀ (A : Mat ℝ) (c : List ι) (cs : List (List ι)), ReturnsArray (.ok A) n c V → 
      List.Forall₂ (fun B c => ReturnsArray (.ok B) n c V) l cs →
      ReturnsArray (hstackFrom A l) n (c ++ cs.flatten) V := by
  induction l with
  | nil =>
    rintro A c cs hA h
    cases h
    simpa [hstackFrom] using hA
  | cons B l ih =>
    rintro A c cs hA h
    rcases cs with _ | ⟨c', cs⟩
    · cases h
    · rw [List.forall₂_cons] at h
      obtain ⟨C, hC, hC'⟩ := hstack_spec hA h.1
      have := ih C (c ++ c') cs ⟨C, rfl, hC'⟩ h.2
      simp only [hstackFrom, hC, bind, Except.bind]
      simpa using this

theorem ReturnsArray.tag {α ι : Type} {n : ℕ} {r : Except Err (Mat ℝ)} (a : α) {cols : List ι} {V : α → ℕ → ι → ℝ}
    (h : ReturnsArray r n cols (V a)) :
    ReturnsArray r n (cols.map fun k => (a, k)) (fun j (p : α × ι) => V p.1 j p.2) := by
  obtain ⟨A, hA, hr, hc, hA'⟩ := h
  refine ⟨A, hA, hr, by simpa using hc, fun j hj i hi => ?_⟩
  rw [List.length_map] at hi
  rw [hA' j hj i hi]
  simp

theorem mapM_forall₂ {α β : Type} (f : α → Except Err β) (Q : α → β → Prop) (l : List α)
    (h : ∀ a ∈ l, ∃ b, f a = .ok b ∧ Q a b) :
    ∃ bs, l.mapM f = .ok bs ∧ List.Forall₂ Q l bs := by
  induction l with
  | nil => exact ⟨[], rfl, .nil⟩
  | cons a l ih =>
    obtain ⟨bs, h1, h2⟩ := ih fun b hb => h b (by simp [hb])
    obtain ⟨b, hb, hq⟩ := h a (by simp)
    refine ⟨b :: bs, ?_, .cons hq h2⟩
    rw [List.mapM_cons, hb, h1]
    rfl

theorem hstackAll_mapM {α ι : Type} {n : ℕ} (l : List α) (hne : l ≠ []) (f : α → Except Err (Mat ℝ))
    (cols : α → List ι) (V : α → ℕ → ι → ℝ) (h : ∀ a ∈ l, ReturnsArray (f a) n (cols a) (V a)) :
    ReturnsArray (l.mapM f >>= hstackAll) n (l.flatMap fun a => (cols a).map fun k => (a, k))
      (fun j p => V p.1 j p.2) := by
  obtain ⟨bs, h1, h2⟩ := mapM_forall₂ f
    (fun a B => ReturnsArray (.ok B) n ((cols a).map fun k => (a, k)) (fun j (p : α × ι) => V p.1 j p.2)) l (by
      intro a ha
      obtain ⟨B, hB, hB'⟩ := ReturnsArray.tag a (V := V) (h a ha)
      exact ⟨B, hB, B, rfl, hB'⟩)
  rw [h1]
  show ReturnsArray (hstackAll bs) _ _ _
  rcases l with _ | ⟨a, l⟩
  · exact absurd rfl hne
  · rcases bs with _ | ⟨B, bs⟩
    · cases h2
    · rw [List.forall₂_cons] at h2
      have h3 : List.Forall₂ (fun B c => ReturnsArray (.ok B) n c (fun j (p : α × ι) => V p.1 j p.2)) bs
          (l.map fun a => (cols a).map fun k => (a, k)) := by
        rw [List.forall₂_map_right_iff]
        exact h2.2.flip
      have := hstackFrom_spec bs B _ _ h2.1 h3
      simpa [hstackAll, List.flatMap] using this

end Verif
