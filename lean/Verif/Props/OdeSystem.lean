import Verif.Props.LocalNewton
import Verif.Props.OdeSolve
import Verif.Spec.OdeSystem

/-!
# The example programs with several unknown functions and unknown numbers: what the residual computes, and what the solver makes of it
-/

namespace Verif.Props

open Set Polynomial Verif Verif.Mem Verif.Py Verif.Np Verif.Spec Verif.Model Verif.Model.Py Verif.Model.LSq Verif.Model.Prog Verif.Model.Dict
  Verif.Lemmas.LSq
open scoped ContDiff

/-! ## The entries of a dictionary -/

/-- Where the array of a key begins. -/
def offsetOf : List (String × Arr ℝ) → String → ℕ
  | [], _ => 0
  | p :: kvs, k => if p.1 = k then 0 else p.2.data.length + offsetOf kvs k

/-- The length of the array of a key. -/
def sizeOfKey : List (String × Arr ℝ) → String → ℕ
  | [], _ => 0
  | p :: kvs, k => if p.1 = k then p.2.data.length else sizeOfKey kvs k

theorem layout_congr : ∀ {kvs kvs' : List (String × Arr ℝ)},
    kvs.map (fun p => (p.1, p.2.shape, p.2.data.length)) = kvs'.map (fun p => (p.1, p.2.shape, p.2.data.length)) →
    (∀ k, offsetOf kvs' k = offsetOf kvs k ∧ sizeOfKey kvs' k = sizeOfKey kvs k) ∧ kvs'.map (·.1) = kvs.map (·.1)
  | [], [], _ => ⟨fun _ => ⟨rfl, rfl⟩, rfl⟩
  | [], _ :: _, h => by simp at h
  | _ :: _, [], h => by simp at h
  | p :: kvs, p' :: kvs', h => by
    simp only [List.map_cons, List.cons.injEq, Prod.mk.injEq] at h
    obtain ⟨⟨h1, -, h2⟩, h3⟩ := h
    obtain ⟨e1, e2⟩ := layout_congr h3
    refine ⟨fun k => ?_, by simp only [List.map_cons, h1, e2]⟩
    obtain ⟨a, b⟩ := e1 k
    simp only [offsetOf, sizeOfKey, h1, h2, a, b, and_self]

theorem lookUp_found : ∀ {kvs : List (String × Arr ℝ)}, (kvs.map (·.1)).Nodup → ∀ {k : String} {a : Arr ℝ}, (k, a) ∈ kvs →
    (kvs.find? fun p => p.1 = k) = some (k, a) ∧ sizeOfKey kvs k = a.data.length ∧
      ∀ i < a.data.length, a.data.getD i 0 = coef ((kvs.map (·.2.data)).flatten) (offsetOf kvs k + i)
  | [], _, _, _, h => by simp at h
  | p :: kvs, hn, k, a, h => by
    simp only [List.map_cons, List.nodup_cons] at hn
    rcases List.mem_cons.1 h with rfl | h
    · refine ⟨by simp, by simp [sizeOfKey], fun i hi => ?_⟩
      simp only [offsetOf, if_true, zero_add, List.map_cons, List.flatten_cons, coef]
      rw [List.getD, List.getD, List.getElem?_append_left hi]
    · have hk : p.1 ≠ k := fun e => hn.1 (by rw [e]; exact List.mem_map_of_mem (f := (·.1)) h)
      obtain ⟨e1, e2, e3⟩ := lookUp_found hn.2 h
      refine ⟨by simp [hk, e1], by simp [sizeOfKey, hk, e2], fun i hi => ?_⟩
      rw [e3 i hi]
      simp only [offsetOf, hk, if_false, List.map_cons, List.flatten_cons, coef]
      rw [List.getD, List.getD, List.getElem?_append_right (by omega)]
      congr 2
      omega

/-- The array of a key, from all entries. -/
def arrayAt (kvs : List (String × Arr ℝ)) (k : String) (c : ℕ → ℝ) : List ℝ :=
  (List.range (sizeOfKey kvs k)).map fun i => c (offsetOf kvs k + i)

theorem holds_arrayAt {cls : DictClass} {kvs : List (String × Arr ℝ)} (hn : (kvs.map (·.1)).Nodup) {v : View String}
    (hv : SameForm (.dict cls kvs) v) {k : String} (hk : k ∈ kvs.map (·.1)) :
    lookUp v k = .ok (arrayAt kvs k (coef (entries v))) ∧ Spec.Holds v k (arrayAt kvs k (coef (entries v))) ∧
      ∀ l, Spec.Holds v k l → l = arrayAt kvs k (coef (entries v)) := by
  cases v with
  | arr l => exact hv.elim
  | dict cls' kvs' =>
    obtain ⟨hc, hm⟩ := hv
    obtain ⟨e1, e2⟩ := layout_congr hm
    have hn' : (kvs'.map (·.1)).Nodup := by rw [e2]; exact hn
    have key : ∀ a, (k, a) ∈ kvs' → (kvs'.find? fun p => p.1 = k) = some (k, a) ∧
        a.data = arrayAt kvs k (coef (entries (.dict cls' kvs'))) := by
      intro a ha
      obtain ⟨f1, f2, f3⟩ := lookUp_found hn' ha
      refine ⟨f1, List.ext_getElem ?_ fun i h1 h2 => ?_⟩
      · simp [arrayAt, ← (e1 k).2, f2]
      · have := f3 i h1
        simp only [arrayAt, List.getElem_map, List.getElem_range]
        rw [← (e1 k).1]
        show _ = coef ((kvs'.map (·.2.data)).flatten) _
        rw [← this]
        simp [List.getD, h1]
    rw [← e2] at hk
    obtain ⟨⟨k', a⟩, ha, rfl⟩ := List.mem_map.1 hk
    obtain ⟨g1, g2⟩ := key a ha
    refine ⟨?_, ⟨cls', kvs', rfl, a, ha, g2⟩, ?_⟩
    · unfold lookUp
      simp only [g1, g2]
    · rintro l ⟨c, kv, hkv, b, hb, rfl⟩
      cases hkv
      exact (key b hb).2

/-! ## What the entries stand for -/

variable {nf m : ℕ}

/-- The state for given entries. -/
noncomputable def stateOf (S : PSys nf m) (kvs : List (String × Arr ℝ)) (c : ℕ → ℝ) : PState nf m where
  free := fun q => freeOf (S.funs q).obj fun i => c (offsetOf kvs (S.funs q).key + (i * (S.funs q).width + (S.funs q).col))
  num := fun i => c (offsetOf kvs (S.names i))

/-- The dictionary fits the system. -/
structure FitsSys (S : PSys nf m) (kvs : List (String × Arr ℝ)) : Prop where
  nodup : (kvs.map (·.1)).Nodup
  ready : ∀ q, Ready (S.funs q).obj
  key : ∀ q, (S.funs q).key ∈ kvs.map (·.1)
  col : ∀ q, (S.funs q).col < (S.funs q).width
  size : ∀ q, sizeOfKey kvs (S.funs q).key = cols1 (S.funs q).obj * (S.funs q).width
  name : ∀ i, S.names i ∈ kvs.map (·.1)
  one : ∀ i, 0 < sizeOfKey kvs (S.names i)

theorem coef_column {w col n : ℕ} (hcol : col < w) {l : List ℝ} (hl : l.length = n * w) {i : ℕ} (hi : i < n) :
    coef (column w col l) i = l.getD (i * w + col) 0 := by
  have h : l.length / w = n := by rw [hl]; exact Nat.mul_div_cancel n (by omega)
  unfold column coef
  rw [h]
  simp [List.getD, hi]

theorem arrayAt_getD (kvs : List (String × Arr ℝ)) (k : String) (c : ℕ → ℝ) {i : ℕ} (hi : i < sizeOfKey kvs k) :
    (arrayAt kvs k c).getD i 0 = c (offsetOf kvs k + i) := by
  simp [arrayAt, List.getD, hi]

theorem free_arrayAt {S : PSys nf m} {kvs : List (String × Arr ℝ)} (hS : FitsSys S kvs) (c : ℕ → ℝ) (q : Fin nf) :
    freeOf (S.funs q).obj (coef (column (S.funs q).width (S.funs q).col (arrayAt kvs (S.funs q).key c))) = (stateOf S kvs c).free q := by
  refine freeOf_congr _ fun i hi => ?_
  have hlt : i * (S.funs q).width + (S.funs q).col < cols1 (S.funs q).obj * (S.funs q).width := by
    have h1 : (i + 1) * (S.funs q).width ≤ cols1 (S.funs q).obj * (S.funs q).width := Nat.mul_le_mul_right _ hi
    have h2 := hS.col q
    have h3 : (i + 1) * (S.funs q).width = i * (S.funs q).width + (S.funs q).width := by ring
    omega
  rw [coef_column (hS.col q) (n := cols1 (S.funs q).obj) (by simp [arrayAt, hS.size q]) hi, arrayAt_getD _ _ _ (by rw [hS.size q]; exact hlt)]

theorem means_stateOf {S : PSys nf m} {cls : DictClass} {kvs : List (String × Arr ℝ)} (hS : FitsSys S kvs) {v : View String}
    (hv : SameForm (.dict cls kvs) v) : Means S v (stateOf S kvs (coef (entries v))) := by
  refine ⟨fun q => freeOf_contDiff (hS.ready q) _, fun q => ?_, fun i => ?_⟩
  · refine ⟨_, (holds_arrayAt hS.nodup hv (hS.key q)).2.1, ?_⟩
    rw [← free_arrayAt hS, ← freeFn_eq]
    exact evaluates_freeFn _ (hS.ready q) _
  · refine ⟨_, (holds_arrayAt hS.nodup hv (hS.name i)).2.1, ?_⟩
    rw [arrayAt_getD _ _ _ (hS.one i)]
    rfl

theorem means_unique {S : PSys nf m} {cls : DictClass} {kvs : List (String × Arr ℝ)} (hS : FitsSys S kvs) {v : View String}
    (hv : SameForm (.dict cls kvs) v) {st : PState nf m} (h : Means S v st) : st = stateOf S kvs (coef (entries v)) := by
  have h1 : st.free = (stateOf S kvs (coef (entries v))).free := by
    funext q
    obtain ⟨l, hl, he⟩ := h.free q
    rw [(holds_arrayAt hS.nodup hv (hS.key q)).2.2 l hl] at he
    have := (evaluates_eq (hS.ready q) he).1
    beta_reduce at this
    rw [iteratedDeriv_zero] at this
    rw [this, freeFn_eq, free_arrayAt hS]
  have h2 : st.num = (stateOf S kvs (coef (entries v))).num := by
    funext i
    obtain ⟨l, hl, he⟩ := h.num i
    rw [he, (holds_arrayAt hS.nodup hv (hS.name i)).2.2 l hl, arrayAt_getD _ _ _ (hS.one i)]
    rfl
  cases st
  simp only at h1 h2
  subst h1 h2
  rfl

theorem ends_smooth {S : PSys nf m} (hs : SmoothSys S) (q : Fin nf) (s : Fin m → ℝ) : SmoothEnds ((S.funs q).ends s) := by
  intro c hc
  obtain ⟨p, hp, rfl⟩ := List.mem_map.1 hc
  exact hs.conds q p hp

/-! ## The residual -/

theorem mapM_each {α β : Type} {f : α → Except Err β} {g : α → β} : ∀ (l : List α), (∀ a ∈ l, f a = .ok (g a)) → l.mapM f = .ok (l.map g)
  | [], _ => rfl
  | a :: l, h => by
    rw [List.mapM_cons, h a (by simp)]
    simp only [bind, Except.bind, mapM_each l fun b hb => h b (by simp [hb])]
    rfl

theorem numbers_value {S : PSys nf m} {cls : DictClass} {kvs : List (String × Arr ℝ)} (hS : FitsSys S kvs) {v : View String}
    (hv : SameForm (.dict cls kvs) v) : numbers S.names v = .ok (stateOf S kvs (coef (entries v))).num := by
  unfold numbers
  rw [mapM_each (g := fun k => arrayAt kvs k (coef (entries v))) (List.ofFn S.names) fun k hk => by
    obtain ⟨i, rfl⟩ := List.mem_ofFn.1 hk
    exact (holds_arrayAt hS.nodup hv (hS.name i)).1]
  simp only [bind, Except.bind]
  refine congrArg Except.ok (funext fun i => ?_)
  have : ((List.ofFn S.names).map fun k => arrayAt kvs k (coef (entries v))).getD i [] = arrayAt kvs (S.names i) (coef (entries v)) := by
    simp [List.getD]
  rw [this, arrayAt_getD _ _ _ (hS.one i)]
  rfl

/-- The places where the residual is evaluated. -/
abbrev Place (nf m : ℕ) := Σ E : PEqn nf m, ℝ × Fin E.outs

/-- All places, in the order of the residual. -/
def places (eqs : List (PEqn nf m)) : List (Place nf m) :=
  eqs.flatMap fun E => E.pts.flatMap fun x => List.ofFn fun o : Fin E.outs => ⟨E, x, o⟩

theorem mem_places {eqs : List (PEqn nf m)} {t : Place nf m} : t ∈ places eqs ↔ t.1 ∈ eqs ∧ t.2.1 ∈ t.1.pts := by
  obtain ⟨E, x, o⟩ := t
  simp only [places, List.mem_flatMap, List.mem_ofFn]
  constructor
  · rintro ⟨E', hE, x', hx, o', h⟩
    cases h
    exact ⟨hE, hx⟩
  · rintro ⟨hE, hx⟩
    exact ⟨E, hE, x, hx, o, rfl⟩

theorem sum_places (eqs : List (PEqn nf m)) (f : (E : PEqn nf m) → ℝ → Fin E.outs → ℝ) :
    ((places eqs).map fun t => f t.1 t.2.1 t.2.2).sum = sumAll eqs f := by
  unfold places sumAll
  induction eqs with
  | nil => rfl
  | cons E eqs ih =>
    rw [List.flatMap_cons, List.map_append, List.sum_append, ih, List.map_cons, List.sum_cons]
    congr 1
    induction E.pts with
    | nil => rfl
    | cons x pts ih2 =>
      rw [List.flatMap_cons, List.map_append, List.sum_append, ih2, List.map_cons, List.sum_cons]
      congr 1
      rw [List.map_ofFn, List.sum_ofFn]
      rfl

/-- The defect at a place, as a function of the entries. -/
noncomputable def placeMiss (S : PSys nf m) (kvs : List (String × Arr ℝ)) (c : ℕ → ℝ) (t : Place nf m) : ℝ :=
  sysMiss S (stateOf S kvs c) t.1 t.2.1 t.2.2

theorem map_range_getD' {α : Type} (l : List ℝ) (g : ℝ → α) : (List.range l.length).map (fun j => g (l.getD j 0)) = l.map g := by
  refine List.ext_getElem (by simp) fun i h1 h2 => ?_
  have hi : i < l.length := by simpa using h1
  simp [List.getD, hi]

theorem peqnRes_value {S : PSys nf m} (hs : SmoothSys S) {cls : DictClass} {kvs : List (String × Arr ℝ)} (hS : FitsSys S kvs) {v : View String}
    (hv : SameForm (.dict cls kvs) v) {E : PEqn nf m} (hE : E ∈ S.eqs) :
    peqnRes S v E = .ok (E.pts.flatMap fun x => List.ofFn fun o => sysMiss S (stateOf S kvs (coef (entries v))) E x o) := by
  obtain ⟨st, hst⟩ : ∃ st, st = stateOf S kvs (coef (entries v)) := ⟨_, rfl⟩
  have hm := means_stateOf (S := S) (cls := cls) hS hv
  rw [← hst] at hm ⊢
  obtain ⟨ts, hts, e⟩ := mapM_values (n := E.pts.length)
    (f := fun i : Fin E.count => pfunD (S.funs (E.terms i).1) v st.num (E.terms i).2 E.pts.length fun j => E.arg i (E.pts.getD j 0))
    (F := fun i j => sysJet S st E (E.pts.getD j 0) i) (List.finRange E.count) fun i _ => by
      obtain ⟨l, hl, he⟩ := hm.free (E.terms i).1
      have := (holds_arrayAt hS.nodup hv (hS.key (E.terms i).1))
      unfold pfunD
      rw [this.1, ← this.2.2 l hl]
      exact curveD_ok (ends_smooth hs _ _) (hm.smooth _) he (hs.terms E hE i) _ _
  unfold peqnRes
  rw [numbers_value (cls := cls) hS hv]
  simp only [bind, Except.bind] at hts ⊢
  rw [← hst, hts]
  refine congrArg Except.ok ?_
  have hrow : ∀ j < E.pts.length, (List.ofFn (E.F (E.pts.getD j 0) (fun i => (ts.getD i fun _ => 0) j) st.num)) =
      List.ofFn fun o => sysMiss S st E (E.pts.getD j 0) o := by
    intro j hj
    have hlen : ts.length = E.count := by simpa using congrArg List.length (e j hj)
    congr 1
    funext o
    unfold sysMiss
    congr 1
    funext i
    have := congrArg (fun l => l.getD i 0) (e j hj)
    beta_reduce at this
    have h1 : (List.map (fun v => v j) ts).getD (i : ℕ) 0 = (ts.getD i fun _ => 0) j := by
      simp [List.getD, hlen]
    have h2 : ((List.finRange E.count).map fun i => sysJet S st E (E.pts.getD j 0) i).getD (i : ℕ) 0 = sysJet S st E (E.pts.getD j 0) i := by
      simp [List.getD]
    rw [← h1, this, h2]
  rw [List.flatMap_def, List.flatMap_def, ← map_range_getD' E.pts]
  exact congrArg List.flatten (List.map_congr_left fun j hj => hrow j (List.mem_range.mp hj))

theorem psysRes_value {S : PSys nf m} (hs : SmoothSys S) {cls : DictClass} {kvs : List (String × Arr ℝ)} (hS : FitsSys S kvs) {v : View String}
    (hv : SameForm (.dict cls kvs) v) : psysRes S v = .ok ((places S.eqs).map (placeMiss S kvs (coef (entries v)))) := by
  unfold psysRes
  rw [mapM_each _ fun E hE => peqnRes_value hs hS hv hE]
  simp only [bind, Except.bind]
  refine congrArg Except.ok ?_
  unfold places
  rw [← List.flatMap_def, List.map_flatMap]
  refine List.flatMap_congr fun E _ => ?_
  rw [List.map_flatMap]
  refine List.flatMap_congr fun x _ => ?_
  rw [List.map_ofFn]
  rfl

/-! ## Differentiability -/

/-- The first `n` entries, continued by zeros. -/
def extendBy {n : ℕ} (y : Fin n → ℝ) (i : ℕ) : ℝ := if h : i < n then y ⟨i, h⟩ else 0

theorem diffAtCoef_of {T : Type} {n : ℕ} {miss : (ℕ → ℝ) → T → ℝ} {t : T} (hf : FirstOnly n miss t) {c : ℕ → ℝ}
    (h : DifferentiableAt ℝ (fun y : Fin n → ℝ => miss (extendBy y) t) fun i => c i) : DiffAtCoef n miss t c := by
  obtain ⟨L, hL⟩ : ∃ L, HasFDerivAt (fun y : Fin n → ℝ => miss (extendBy y) t) L fun i => c i := ⟨_, h.hasFDerivAt⟩
  refine ⟨fun j => if hj : j < n then L (Pi.single ⟨j, hj⟩ 1) else 0, fun z => ?_⟩
  have hfun : (fun s : ℝ => miss (fun i => c i + s * z i) t) = fun s : ℝ => miss (extendBy fun i : Fin n => c i + s * z i) t := by
    funext s
    exact hf _ _ fun i hi => by simp [extendBy, hi]
  rw [hfun]
  have hline : HasDerivAt (fun (s : ℝ) (i : Fin n) => c i + s * z i) (fun i : Fin n => z i) 0 := by
    rw [hasDerivAt_pi]
    intro i
    have := ((hasDerivAt_id (0 : ℝ)).mul_const (z i)).const_add (c i)
    simpa using this
  have hL' : HasFDerivAt (fun y : Fin n → ℝ => miss (extendBy y) t) L ((fun (s : ℝ) (i : Fin n) => c i + s * z i) 0) := by simpa using hL
  refine (hL'.comp_hasDerivAt (0 : ℝ) hline).congr_deriv ?_
  have e : (fun i : Fin n => z i) = ∑ i : Fin n, z i • (Pi.single i 1 : Fin n → ℝ) := by
    funext k
    simp [Finset.sum_apply, Pi.single_apply]
  rw [e, map_sum, Finset.sum_range]
  refine Finset.sum_congr rfl fun i _ => ?_
  rw [map_smul, smul_eq_mul]
  simp

theorem extendBy_diff {n : ℕ} (i : ℕ) (y : Fin n → ℝ) : DifferentiableAt ℝ (fun y : Fin n → ℝ => extendBy y i) y := by
  unfold extendBy
  by_cases h : i < n
  · simp only [h, dif_pos]
    fun_prop
  · simp only [h, dif_neg, not_false_eq_true]
    fun_prop

theorem sum_conds_diff {n : ℕ} {y : Fin n → ℝ} (l : List (PCond m)) {f : PCond m → (Fin n → ℝ) → ℝ}
    (h : ∀ c ∈ l, DifferentiableAt ℝ (f c) y) : DifferentiableAt ℝ (fun y => (l.map fun c => f c y).sum) y := by
  induction l with
  | nil => simp
  | cons c l ih =>
    simp only [List.map_cons, List.sum_cons]
    exact (h c (by simp)).add (ih fun c hc => h c (by simp [hc]))

theorem stateOf_first {S : PSys nf m} {kvs : List (String × Arr ℝ)} (hS : FitsSys S kvs) {n : ℕ} (hn : ((kvs.map (·.2.data)).flatten).length = n)
    {c c' : ℕ → ℝ} (h : ∀ i < n, c i = c' i) : stateOf S kvs c = stateOf S kvs c' := by
  have hoff : ∀ (kvs : List (String × Arr ℝ)) (k : String), k ∈ kvs.map (·.1) →
      offsetOf kvs k + sizeOfKey kvs k ≤ ((kvs.map (·.2.data)).flatten).length := by
    intro kvs k hk
    induction kvs with
    | nil => simp at hk
    | cons p kvs ih =>
      simp only [offsetOf, sizeOfKey, List.map_cons, List.flatten_cons, List.length_append]
      by_cases e : p.1 = k
      · simp [e]
      · simp only [e, if_false]
        have : k ∈ kvs.map (·.1) := by
          rw [List.map_cons, List.mem_cons] at hk
          exact hk.resolve_left fun h => e h.symm
        have := ih this
        omega
  unfold stateOf
  congr 1
  · funext q
    refine freeOf_congr _ fun i hi => h _ ?_
    have h0 := hoff kvs _ (hS.key q)
    have h1 : (i + 1) * (S.funs q).width ≤ cols1 (S.funs q).obj * (S.funs q).width := Nat.mul_le_mul_right _ hi
    have h2 := hS.col q
    have h3 : (i + 1) * (S.funs q).width = i * (S.funs q).width + (S.funs q).width := by ring
    have h4 := hS.size q
    omega
  · funext i
    refine h _ ?_
    have h1 := hoff kvs _ (hS.name i)
    have h2 := hS.one i
    omega

theorem placeMiss_first {S : PSys nf m} {kvs : List (String × Arr ℝ)} (hS : FitsSys S kvs) {n : ℕ} (hn : ((kvs.map (·.2.data)).flatten).length = n)
    (t : Place nf m) : FirstOnly n (placeMiss S kvs) t := by
  intro c c' h
  unfold placeMiss
  rw [stateOf_first hS hn h]

theorem free_diff {S : PSys nf m} {kvs : List (String × Arr ℝ)} (hS : FitsSys S kvs) {n : ℕ} (q : Fin nf) (d : ℕ) (t : ℝ) (y : Fin n → ℝ) :
    DifferentiableAt ℝ (fun y : Fin n → ℝ => iteratedDeriv d ((stateOf S kvs (extendBy y)).free q) t) y := by
  have : (fun y : Fin n → ℝ => iteratedDeriv d ((stateOf S kvs (extendBy y)).free q) t) = fun y => _ :=
    funext fun y => iteratedDeriv_freeOf (hS.ready q) _ d t
  rw [this]
  exact DifferentiableAt.fun_sum fun i _ => (extendBy_diff _ y).mul_const _

theorem num_diff (S : PSys nf m) (kvs : List (String × Arr ℝ)) {n : ℕ} (y : Fin n → ℝ) :
    DifferentiableAt ℝ (fun y : Fin n → ℝ => (stateOf S kvs (extendBy y)).num) y :=
  differentiableAt_pi.2 fun _ => extendBy_diff _ y

theorem placeMiss_diff {S : PSys nf m} (hs : SmoothSys S) {kvs : List (String × Arr ℝ)} (hS : FitsSys S kvs) {n : ℕ}
    (hn : ((kvs.map (·.2.data)).flatten).length = n) {c : ℕ → ℝ} (hr : Regular S (stateOf S kvs c)) {t : Place nf m} (ht : t ∈ places S.eqs) :
    DiffAtCoef n (placeMiss S kvs) t c := by
  refine diffAtCoef_of (placeMiss_first hS hn t) ?_
  obtain ⟨y, hy⟩ : ∃ y : Fin n → ℝ, y = fun i : Fin n => c i := ⟨_, rfl⟩
  have hst : stateOf S kvs (extendBy y) = stateOf S kvs c := stateOf_first hS hn fun i hi => by simp [extendBy, hi, hy]
  rw [← hst] at hr
  rw [← hy]
  obtain ⟨hE, hx⟩ := mem_places.1 ht
  have hjet : DifferentiableAt ℝ (fun y : Fin n → ℝ => sysJet S (stateOf S kvs (extendBy y)) t.1 t.2.1) y := by
    refine differentiableAt_pi.2 fun i => ?_
    have : (fun y : Fin n → ℝ => sysJet S (stateOf S kvs (extendBy y)) t.1 t.2.1 i) = fun y => _ :=
      funext fun y => iteratedDeriv_curve (ends_smooth hs _ _) (freeOf_contDiff (hS.ready _) _) _ _
    rw [this]
    refine (free_diff hS _ _ _ y).add ?_
    simp only [PFun.ends, List.map_map, Function.comp_def]
    refine sum_conds_diff _ (f := fun p y => iteratedDeriv _ p.weight (t.1.arg i t.2.1) *
      (p.value (stateOf S kvs (extendBy y)).num - iteratedDeriv p.order ((stateOf S kvs (extendBy y)).free (t.1.terms i).1) p.point)) fun p hp => ?_
    have hv : DifferentiableAt ℝ (fun y : Fin n → ℝ => p.value (stateOf S kvs (extendBy y)).num) y :=
      (hr.values _ p hp).comp y (num_diff S kvs y)
    exact (hv.sub (free_diff hS _ _ _ y)).const_mul _
  exact (hr.eqs t.1 hE t.2.1 hx t.2.2).comp y (hjet.prodMk (num_diff S kvs y))

theorem stateOf_toward {S : PSys nf m} (kvs : List (String × Arr ℝ)) (c z : ℕ → ℝ) (r : ℝ) :
    stateOf S kvs (fun i => c i + r * (z i - c i)) = (stateOf S kvs c).toward (stateOf S kvs z) r := by
  unfold stateOf PState.toward
  congr 1
  funext q t
  simp only [freeOf, ← Finset.sum_sub_distrib, Finset.mul_sum, ← Finset.sum_add_distrib]
  exact Finset.sum_congr rfl fun i _ => by ring

theorem linAt_places {S : PSys nf m} (kvs : List (String × Arr ℝ)) (c z : ℕ → ℝ) (t : Place nf m) :
    linAt (placeMiss S kvs) c z t = sysLin S (stateOf S kvs c) (stateOf S kvs z) t.1 t.2.1 t.2.2 := by
  unfold linAt sysLin placeMiss
  simp only [stateOf_toward]

/-- **C104, the run.** For every system of equations for several functions of one variable and several numbers, with smooth weights and
derivatives up to order 8, every dictionary that fits, both methods and all parameters: the program does not fail, and it computes a Gauss–Newton
iteration for the equations. -/
theorem C104_newton {lib : LinAlg} (hlib : LinAlgCorrect lib) {method : Method} (hm : method ≠ .other) {S : PSys nf m} (hs : SmoothSys S)
    {cls : DictClass} {kvs : List (String × Arr ℝ)} (hS : FitsSys S kvs) (hp : ProperUnknowns (.dict cls kvs)) (hne : places S.eqs ≠ [])
    (hpos : entries (View.dict cls kvs) ≠ []) (tol : ℝ) (htol : tol < 1) (maxIter : ℕ) (timer : Bool) (fuel : ℕ) (hf : maxIter + 2 ≤ fuel) :
    ∃ (v : View String) (it : ℕ) (vs : ℕ → View String) (sts : ℕ → PState nf m),
      solveSys lib method tol maxIter timer S (.dict cls kvs) fuel = .ok (some (v, (it : ℤ))) ∧
      SysRun S (.dict cls kvs) tol maxIter v it vs sts := by
  obtain ⟨n, hn⟩ : ∃ n, (entries (View.dict cls kvs)).length = n := ⟨_, rfl⟩
  have hn0 : n ≠ 0 := by
    intro h
    exact hpos (List.length_eq_zero_iff.1 (by rw [hn, h]))
  have hval : ∀ v, SameForm (.dict cls kvs) v → (psysResidual fun _ => S) (v :: []) =
      (places S.eqs).map (placeMiss S kvs (coef (entries v))) := by
    intro v hv
    simp only [psysResidual, psysRes_value hs hS hv, orEmpty]
  obtain ⟨k, xs, h1, h2, h3⟩ := local_run hlib hm hn0 (args := []) (L := []) (by simp [GoodConstants]) hp hne hn hval (fun t _ => placeMiss_first hS hn t) tol htol maxIter
    timer fuel hf
  refine ⟨xs k, k, xs, fun j => stateOf S kvs (coef (entries (xs j))), ?_, h3.bound, h2, rfl, h3.form, fun j hj => means_stateOf hS (h3.form j hj), ?_,
    ?_, ?_⟩
  · unfold solveSys
    rw [psysRes_value hs hS (SameForm.refl _)]
    exact h1
  · intro j hj hr v' st' hv' hst'
    have := h3.step j hj (fun t ht => placeMiss_diff hs hS hn hr ht) (coef (entries v'))
    rw [means_unique hS hv' hst', ← sum_places, ← sum_places]
    simpa only [linAt_places] using this
  · intro j hj hr v' st' hv' hst' hle
    have := h3.shortest j hj (fun t ht => placeMiss_diff hs hS hn hr ht) (coef (entries v'))
    rw [means_unique hS hv' hst', ← sum_places, ← sum_places] at hle
    simp only [linAt_places] at this
    rw [hn]
    exact this hle
  · rcases h3.stop with h | h | h
    · exact Or.inl fun E hE x hx o => h ⟨E, x, o⟩ (mem_places.2 ⟨hE, hx⟩)
    · exact Or.inr (Or.inl h)
    · exact Or.inr (Or.inr h)

end Verif.Props
