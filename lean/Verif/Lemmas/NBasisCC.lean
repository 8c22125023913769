import Verif.Model.NBasisCC
import Verif.Lemmas.Multi
import Verif.Lemmas.UniCC
import Verif.Spec.Arrays

/-! # Refinement of the compiled n-dimensional tensor-product bases -/

namespace Verif

open Verif.Mem Verif.Model.CC Verif.Spec

/-! ### Blocks holding values -/

/-- The block has `n` cells with values `v`. -/
def Holds {α : Type} (b : Buf α) (n : ℕ) (v : ℕ → α) : Prop := b.size = n ∧ ∀ l < n, b.cell l = some (v l)

theorem Holds.read {α : Type} {b : Buf α} {n : ℕ} {v : ℕ → α} (h : Holds b n v) {l : ℕ} (hl : l < n) :
    b.read l = .ok (v l) := by
  simp [Buf.read, h.1, hl, h.2 l hl]

theorem Holds.ofFn {α : Type} (n : ℕ) (v : ℕ → α) : Holds (Buf.ofFn n v) n v :=
  ⟨rfl, fun l hl => by simp [Buf.ofFn, hl]⟩

theorem Holds.congr {α : Type} {b : Buf α} {n : ℕ} {v v' : ℕ → α} (h : Holds b n v) (hv : ∀ l < n, v l = v' l) :
    Holds b n v' := ⟨h.1, fun l hl => by rw [h.2 l hl, hv l hl]⟩

/-- Filling a block from the start. -/
theorem fill_spec {α : Type} {b : Buf α} {n : ℕ} (hb : b.size = n) (v : ℕ → α)
    {body : ℕ → Buf α → Except Fault (Buf α)}
    (hbody : ∀ i < n, ∀ b' : Buf α, body i b' = b'.write i (v i)) :
    Runs (loop 0 n body b) (fun b' => Holds b' n v) := by
  refine (loop_spec (fun i (b' : Buf α) => b'.size = n ∧ ∀ l < i, b'.cell l = some (v l)) (Nat.zero_le _)
    ⟨hb, by simp⟩ ?_).mono fun b' hb' => hb'
  rintro i b' _ hi ⟨hs, hc⟩
  rw [hbody i hi]
  refine ⟨⟨b'.size, Function.update b'.cell i (some (v i))⟩, ?_, hs, fun l hl => ?_⟩
  · simp [Buf.write, hs, hi]
  · by_cases hli : l = i
    · subst hli; simp
    · simp only [Function.update_of_ne hli]
      exact hc l (by omega)

theorem memcpy_spec {α : Type} {dst src : Buf α} {n : ℕ} {v : ℕ → α} (hd : dst.size = n)
    (hs : ∀ i < n, src.read i = .ok (v i)) : Runs (memcpy dst src n) (fun b => Holds b n v) :=
  fill_spec hd v fun i hi b' => by rw [hs i hi, ok_bind]

theorem loop_pure {σ ε : Type} (f : ℕ → σ → σ) {lo hi : ℕ} {body : ℕ → σ → Except ε σ} (s : σ)
    (h : ∀ k s, lo ≤ k → k < hi → body k s = .ok (f k s)) :
    loop lo hi body s = .ok ((List.range' lo (hi - lo)).foldl (fun s k => f k s) s) := by
  unfold loop
  have : ∀ (L : List ℕ), (∀ k ∈ L, lo ≤ k ∧ k < hi) → ∀ s,
      L.foldlM (fun s k => body k s) s = (.ok (L.foldl (fun s k => f k s) s) : Except ε σ) := by
    intro L
    induction L with
    | nil => intro _ s; rfl
    | cons a L ih =>
      intro hL s
      rw [List.foldlM_cons, h a s (hL a (by simp)).1 (hL a (by simp)).2, ok_bind, List.foldl_cons,
        ih (fun k hk => hL k (by simp [hk]))]
  refine this _ (fun k hk => ?_) s
  rw [List.mem_range'_1] at hk
  omega

/-! ### The acceptance test -/

/-- The test the code performs at each multi-index. -/
def acc (dim m numC : ℕ) (tab : ℕ → ℕ → ℤ) (full : Bool) (v : ℕ → ℕ) : Bool :=
  decide (∑ l ∈ Finset.range dim, v l < m ∧
    (full = true ∨ ∃ l < dim, ∀ g < numC, (v l : ℤ) ≠ tab l g))

theorem sumVec_spec {dim : ℕ} {vec : Buf ℕ} {v : ℕ → ℕ} (h : Holds vec dim v) :
    sumVec dim vec = .ok (∑ l ∈ Finset.range dim, v l) := by
  unfold sumVec
  rw [loop_pure (fun j s => s + v j) 0 (fun k s _ hk => by rw [h.read hk, ok_bind])]
  congr 1
  simp only [Nat.sub_zero, ← List.range_eq_range']
  induction dim with
  | zero => rfl
  | succ n ih =>
    clear ih h
    generalize n + 1 = N
    induction N with
    | zero => rfl
    | succ N ih => rw [List.range_succ, List.foldl_append, ih, Finset.sum_range_succ]; rfl

theorem freeDim_spec {dim numC : ℕ} {nC : Buf ℤ} {tab : ℕ → ℕ → ℤ} {vec : Buf ℕ} {v : ℕ → ℕ} (h : Holds vec dim v)
    (hC : ∀ l < dim, ∀ g < numC, nC.read (l * numC + g) = .ok (tab l g)) {j : ℕ} (hj : j < dim) :
    freeDim numC nC vec j = .ok (decide (∀ g < numC, (v j : ℤ) ≠ tab j g)) := by
  have key : Runs (freeDim numC nC vec j) (fun b => b = decide (∀ g < numC, (v j : ℤ) ≠ tab j g)) := by
    refine loop_spec (fun i b => b = decide (∀ g < i, (v j : ℤ) ≠ tab j g)) (Nat.zero_le _) (by simp) ?_
    rintro g b _ hg rfl
    by_cases hall : ∀ g' < g, (v j : ℤ) ≠ tab j g'
    · rw [decide_eq_true hall, if_neg (by simp), h.read hj, ok_bind, hC j hj g hg, ok_bind]
      by_cases he : (v j : ℤ) = tab j g
      · rw [if_pos he]
        refine Runs.ok (Eq.symm (decide_eq_false fun hcon => hcon g (by omega) he))
      · rw [if_neg he]
        refine Runs.ok (Eq.symm (decide_eq_true fun g' hg' => ?_))
        rcases Nat.lt_succ_iff_lt_or_eq.mp hg' with h1 | rfl
        · exact hall g' h1
        · exact he
    · rw [decide_eq_false hall, if_pos rfl]
      exact Runs.ok (Eq.symm (decide_eq_false fun hcon => hall fun g' hg' => hcon g' (by omega)))
  obtain ⟨b, hb, rfl⟩ := key
  exact hb

theorem anyFree_spec {dim numC : ℕ} {nC : Buf ℤ} {tab : ℕ → ℕ → ℤ} {vec : Buf ℕ} {v : ℕ → ℕ} (h : Holds vec dim v)
    (hC : ∀ l < dim, ∀ g < numC, nC.read (l * numC + g) = .ok (tab l g)) :
    anyFree dim numC nC vec = .ok (decide (∃ l < dim, ∀ g < numC, (v l : ℤ) ≠ tab l g)) := by
  have key : Runs (anyFree dim numC nC vec)
      (fun b => b = decide (∃ l < dim, ∀ g < numC, (v l : ℤ) ≠ tab l g)) := by
    refine loop_spec (fun i b => b = decide (∃ l < i, ∀ g < numC, (v l : ℤ) ≠ tab l g)) (Nat.zero_le _)
      (by simp) ?_
    rintro j b _ hj rfl
    rw [freeDim_spec h hC hj, ok_bind]
    by_cases hf : ∀ g < numC, (v j : ℤ) ≠ tab j g
    · rw [decide_eq_true hf, if_pos rfl]
      exact Runs.ok (Eq.symm (decide_eq_true ⟨j, by omega, hf⟩))
    · rw [decide_eq_false hf, if_neg (by simp)]
      refine Runs.ok (decide_eq_decide.mpr ⟨fun ⟨l, hl, h'⟩ => ⟨l, by omega, h'⟩, fun ⟨l, hl, h'⟩ => ?_⟩)
      rcases Nat.lt_succ_iff_lt_or_eq.mp hl with h1 | rfl
      · exact ⟨l, h1, h'⟩
      · exact absurd h' hf
  obtain ⟨b, hb, rfl⟩ := key
  exact hb

/-! ### The recursion over the dimensions -/

/-- The common shape of `NumBasisFunc` and `RecurseBasis`. -/
def walk {σ : Type} (m : ℕ) (leaf : Buf ℕ → σ → Except Fault σ) : ℕ → Buf ℕ × σ → Except Fault (Buf ℕ × σ)
  | j + 1, s => loop 0 m (fun k s => do
      let vec ← s.1.write (j + 1) k
      walk m leaf j (vec, s.2)) s
  | 0, s => loop 0 m (fun k s => do
      let vec ← s.1.write 0 k
      let r ← leaf vec s.2
      .ok (vec, r)) s

/-- The multi-indices visited from level `j` on, with the coordinates above `j` as in `v`. -/
def ext (m : ℕ) : ℕ → (ℕ → ℕ) → List (ℕ → ℕ)
  | j + 1, v => (List.range m).flatMap fun k => ext m j (Function.update v (j + 1) k)
  | 0, v => (List.range m).map fun k => Function.update v 0 k

/-- The cells above `j` hold `v`. -/
def HoldsAbove (vec : Buf ℕ) (dim j : ℕ) (v : ℕ → ℕ) : Prop :=
  vec.size = dim ∧ ∀ l, j ≤ l → l < dim → vec.cell l = some (v l)

theorem HoldsAbove.write {vec : Buf ℕ} {dim j : ℕ} {v : ℕ → ℕ} (h : HoldsAbove vec dim (j + 1) v) (hj : j < dim)
    (k : ℕ) : Runs (vec.write j k) (fun vec' => HoldsAbove vec' dim j (Function.update v j k)) := by
  refine ⟨⟨vec.size, Function.update vec.cell j (some k)⟩, by simp [Buf.write, h.1, hj], h.1, fun l hl hl' => ?_⟩
  by_cases he : l = j
  · subst he; simp
  · simp only [Function.update_of_ne he]
    exact h.2 l (by omega) hl'

theorem HoldsAbove.weaken {vec : Buf ℕ} {dim j : ℕ} {v : ℕ → ℕ} {k : ℕ}
    (h : HoldsAbove vec dim j (Function.update v j k)) : HoldsAbove vec dim (j + 1) v :=
  ⟨h.1, fun l hl hl' => by
    rw [h.2 l (by omega) hl', Function.update_of_ne (by omega)]⟩

theorem range_prefix {i n : ℕ} (h : i ≤ n) : List.range i <+: List.range n := by
  obtain ⟨q, rfl⟩ := Nat.exists_eq_add_of_le h
  rw [List.range_add]
  exact List.prefix_append _ _

theorem flatMap_prefix {α β : Type} (f : α → List β) {l l' : List α} (h : l <+: l') :
    l.flatMap f <+: l'.flatMap f := by
  obtain ⟨t, rfl⟩ := h
  rw [List.flatMap_append]
  exact List.prefix_append _ _

theorem walk_spec {σ : Type} {dim m : ℕ} {leaf : Buf ℕ → σ → Except Fault σ} (total : List (ℕ → ℕ))
    (I : List (ℕ → ℕ) → σ → Prop)
    (hleaf : ∀ pre v vec s, Holds vec dim v → pre ++ [v] <+: total → I pre s → Runs (leaf vec s) (I (pre ++ [v]))) :
    ∀ (j : ℕ), j < dim → ∀ (v : ℕ → ℕ) (pre : List (ℕ → ℕ)) (s : Buf ℕ × σ), HoldsAbove s.1 dim (j + 1) v →
      pre ++ ext m j v <+: total → I pre s.2 →
      Runs (walk m leaf j s) (fun r => HoldsAbove r.1 dim (j + 1) v ∧ I (pre ++ ext m j v) r.2) := by
  intro j
  induction j with
  | zero =>
    intro hj v pre s hs hpre hI
    have hr : ext m 0 v = (List.range m).map fun k => Function.update v 0 k := rfl
    rw [walk, hr]
    rw [hr] at hpre
    refine loop_spec (fun i (r : Buf ℕ × σ) => HoldsAbove r.1 dim 1 v ∧
      I (pre ++ (List.range i).map fun k => Function.update v 0 k) r.2) (Nat.zero_le _) ⟨hs, by simpa using hI⟩ ?_
    rintro k ⟨vec, t⟩ _ hk ⟨hv, hIk⟩
    refine (hv.write hj k).bind fun vec' hvec' => ?_
    have hpre' : (pre ++ (List.range k).map fun k => Function.update v 0 k) ++ [Function.update v 0 k] <+: total := by
      refine List.IsPrefix.trans ?_ hpre
      rw [List.append_assoc, List.prefix_append_right_inj, show [Function.update v 0 k] =
        [k].map (fun k => Function.update v 0 k) from rfl, ← List.map_append, ← List.range_succ]
      exact List.IsPrefix.map _ (range_prefix (by omega))
    refine (hleaf _ _ vec' t ⟨hvec'.1, fun l hl => hvec'.2 l (Nat.zero_le _) hl⟩ hpre' hIk).bind fun r hr' => ?_
    refine Runs.ok ⟨hvec'.weaken, ?_⟩
    rw [List.range_succ, List.map_append, ← List.append_assoc]
    exact hr'
  | succ j ih =>
    intro hj v pre s hs hpre hI
    have hr : ext m (j + 1) v = (List.range m).flatMap fun k => ext m j (Function.update v (j + 1) k) := rfl
    rw [walk, hr]
    rw [hr] at hpre
    refine loop_spec (fun i (r : Buf ℕ × σ) => HoldsAbove r.1 dim (j + 1 + 1) v ∧
      I (pre ++ (List.range i).flatMap fun k => ext m j (Function.update v (j + 1) k)) r.2) (Nat.zero_le _)
      ⟨hs, by simpa using hI⟩ ?_
    rintro k ⟨vec, t⟩ _ hk ⟨hv, hIk⟩
    refine (hv.write hj k).bind fun vec' hvec' => ?_
    have e : ∀ i, (List.range (i + 1)).flatMap (fun k => ext m j (Function.update v (j + 1) k)) =
        (List.range i).flatMap (fun k => ext m j (Function.update v (j + 1) k)) ++
          ext m j (Function.update v (j + 1) i) := fun i => by
      rw [List.range_succ, List.flatMap_append]; simp
    refine (ih (by omega) (Function.update v (j + 1) k) _ (vec', t) hvec' ?_ hIk).mono fun r hr' => ?_
    · refine List.IsPrefix.trans ?_ hpre
      rw [List.append_assoc, List.prefix_append_right_inj, ← e]
      exact flatMap_prefix _ (range_prefix (by omega))
    · refine ⟨hr'.1.weaken, ?_⟩
      rw [e, ← List.append_assoc]
      exact hr'.2

/-! ### Counting -/

/-- The leaf of `NumBasisFunc`. -/
def numLeaf (dim m numC : ℕ) (nC : Buf ℤ) (full : Bool) (vec : Buf ℕ) (count : ℕ) : Except Fault ℕ :=
  if full then do
    let sum ← sumVec dim vec
    if (sum : ℤ) ≤ (m : ℤ) - 1 then .ok (count + 1) else .ok count
  else do
    let flag ← anyFree dim numC nC vec
    if flag then do
      let sum ← sumVec dim vec
      if (sum : ℤ) ≤ (m : ℤ) - 1 then .ok (count + 1) else .ok count
    else .ok count

theorem NumBasisFunc_eq_walk (dim m numC : ℕ) (nC : Buf ℤ) (full : Bool) (j : ℕ) (s : Buf ℕ × ℕ) :
    NumBasisFunc dim m numC nC full j s = walk m (numLeaf dim m numC nC full) j s := by
  induction j generalizing s with
  | zero =>
    rw [NumBasisFunc, walk]
    congr 1
    funext k s
    congr 1
    funext vec
    unfold numLeaf
    cases full with
    | true =>
      simp only [if_true]
      cases sumVec dim vec with
      | error e => rfl
      | ok sum =>
        simp only [ok_bind]
        split_ifs <;> rfl
    | false =>
      simp only [Bool.false_eq_true, if_false]
      cases anyFree dim numC nC vec with
      | error e => rfl
      | ok flag =>
        simp only [ok_bind]
        cases flag with
        | false => rfl
        | true =>
          simp only [if_true]
          cases sumVec dim vec with
          | error e => rfl
          | ok sum =>
            simp only [ok_bind]
            split_ifs <;> rfl
  | succ j ih =>
    rw [NumBasisFunc, walk]
    congr 1
    funext k s
    congr 1
    funext vec
    exact ih _

theorem acc_cases {dim m numC : ℕ} {tab : ℕ → ℕ → ℤ} {full : Bool} {v : ℕ → ℕ} {σ : Type} (s t : Except Fault σ) :
    (if full then
      (if ((∑ l ∈ Finset.range dim, v l : ℕ) : ℤ) ≤ (m : ℤ) - 1 then t else s)
    else
      if decide (∃ l < dim, ∀ g < numC, (v l : ℤ) ≠ tab l g) then
        (if ((∑ l ∈ Finset.range dim, v l : ℕ) : ℤ) ≤ (m : ℤ) - 1 then t else s)
      else s) = if acc dim m numC tab full v then t else s := by
  have hs : ((∑ l ∈ Finset.range dim, v l : ℕ) : ℤ) ≤ (m : ℤ) - 1 ↔ ∑ l ∈ Finset.range dim, v l < m := by omega
  simp only [hs, acc]
  cases full with
  | true => simp
  | false =>
    by_cases h1 : ∃ l < dim, ∀ g < numC, (v l : ℤ) ≠ tab l g
    · simp [h1]
    · simp [h1]

theorem numLeaf_spec {dim m numC : ℕ} {nC : Buf ℤ} {tab : ℕ → ℕ → ℤ} {full : Bool} {vec : Buf ℕ} {v : ℕ → ℕ}
    (h : Holds vec dim v) (hC : ∀ l < dim, ∀ g < numC, nC.read (l * numC + g) = .ok (tab l g)) (count : ℕ) :
    numLeaf dim m numC nC full vec count =
      if acc dim m numC tab full v then .ok (count + 1) else .ok count := by
  unfold numLeaf
  rw [sumVec_spec h, anyFree_spec h hC]
  simp only [ok_bind]
  exact acc_cases (.ok count) (.ok (count + 1))

/-- All multi-indices the recursion visits. -/
def visited (dim m : ℕ) : List (ℕ → ℕ) := ext m (dim - 1) (fun _ => 0)

theorem NumBasisFunc_spec {dim m numC : ℕ} {nC : Buf ℤ} {tab : ℕ → ℕ → ℤ} (full : Bool) (hdim : 1 ≤ dim)
    (hC : ∀ l < dim, ∀ g < numC, nC.read (l * numC + g) = .ok (tab l g)) {vec : Buf ℕ} (hv : vec.size = dim) :
    Runs (NumBasisFunc dim m numC nC full (dim - 1) (vec, 0)) (fun r => r.1.size = dim ∧
      r.2 = ((visited dim m).filter (acc dim m numC tab full)).length) := by
  rw [NumBasisFunc_eq_walk]
  refine (walk_spec (dim := dim) (visited dim m)
    (fun pre (s : ℕ) => s = (pre.filter (acc dim m numC tab full)).length) ?_ (dim - 1) (by omega) (fun _ => 0) []
    (vec, 0) ⟨hv, fun l hl hl' => by omega⟩ (by simp [visited]) (by simp)).mono fun r hr => ⟨hr.1.1, ?_⟩
  · rintro pre v vec s hvec _ rfl
    rw [numLeaf_spec hvec hC]
    by_cases ha : acc dim m numC tab full v = true
    · rw [if_pos ha]
      exact Runs.ok (by simp [List.filter_append, ha])
    · rw [if_neg ha]
      exact Runs.ok (by simp [List.filter_append, ha])
  · simpa [visited] using hr.2

/-! ### The products -/

variable {K : Type} [Zero K] [One K] [Add K] [Sub K] [Mul K] [Div K] [Neg K] [NatCast K] [Pow K ℕ]

/-- The product of `n` numbers, multiplied from the left beginning with 1. -/
def opProd : (n : ℕ) → (Fin n → K) → K
  | 0, _ => 1
  | n + 1, f => opProd n (fun l => f l.castSucc) * f (Fin.last n)

theorem opProd_eq {K : Type} [Field K] (n : ℕ) (f : Fin n → K) : opProd n f = ∏ l, f l := by
  induction n with
  | zero => simp [opProd]
  | succ n ih => rw [opProd, ih, Fin.prod_univ_castSucc]

theorem opProd_succ (f : ℕ → K) (n : ℕ) : opProd (n + 1) (fun l : Fin (n + 1) => f l) = opProd n (fun l : Fin n => f l) * f n := rfl

theorem multiplyColumn_spec {dim m n numBasis : ℕ} {T : Buf K} {Tv : ℕ → ℕ → ℕ → K} {vec : Buf ℕ} {v : ℕ → ℕ}
    (hvec : Holds vec dim v) (hv : ∀ l < dim, v l < m)
    (hT : ∀ l < dim, ∀ h < n, ∀ c < m, T.read (m * n * l + c + h * m) = .ok (Tv l h c))
    {out : Buf K} {M : ℕ → ℕ → Option K} (hout : View out n numBasis M) {count : ℕ} (hc : count < numBasis)
    (h1 : ∀ h < n, M h count = some 1) :
    Runs (multiplyColumn dim m n numBasis T vec count out) (fun b => View b n numBasis (fun h c =>
      if c = count then some (opProd dim fun l : Fin dim => Tv l h (v l)) else M h c)) := by
  refine (loop_spec (fun i b => View b n numBasis (fun h c =>
      if c = count ∧ h < i then some (opProd dim fun l : Fin dim => Tv l h (v l)) else M h c)) (Nat.zero_le _)
    (hout.congr (by intros; simp)) ?_).mono fun b hb => hb.congr (by intro h hh c _; simp [hh])
  intro h b _ hh hb
  refine (loop_spec (fun i b => View b n numBasis (fun h' c => if c = count ∧ h' = h then
      some (opProd i fun l : Fin i => Tv l h (v l)) else
      if c = count ∧ h' < h then some (opProd dim fun l : Fin dim => Tv l h' (v l)) else M h' c)) (Nat.zero_le _)
    (hb.congr ?_) ?_).mono fun b hb => hb.congr ?_
  · intro h' _ c _
    by_cases he : c = count ∧ h' = h
    · obtain ⟨rfl, rfl⟩ := he
      simp [h1 h' hh, opProd]
    · simp [he]
  · intro l b _ hl hb
    have hr := hb.read hh hc (v := opProd l fun l : Fin l => Tv l h (v l)) (by simp)
    rw [hvec.read hl, ok_bind, hT l hl h hh (v l) (hv l hl), ok_bind, Nat.mul_comm h numBasis, hr, ok_bind]
    refine (hb.write hh hc _).mono fun b' hb' => hb'.congr ?_
    intro h' _ c _
    by_cases he : c = count ∧ h' = h
    · obtain ⟨rfl, rfl⟩ := he
      simp only [and_self, if_true]
      rfl
    · have he' : ¬ (h' = h ∧ c = count) := fun h => he ⟨h.2, h.1⟩
      simp [he, he']
  · intro h' _ c _
    by_cases hcc : c = count
    · subst hcc
      rcases lt_trichotomy h' h with h1 | h1 | h1
      · have : h' ≠ h := by omega
        simp [this, h1, Nat.lt_succ_of_lt h1]
      · subst h1; simp
      · have h2 : h' ≠ h := by omega
        have h3 : ¬ h' < h := by omega
        have h4 : ¬ h' < h + 1 := by omega
        simp [h2, h3, h4]
    · simp [hcc]

/-- The leaf of `RecurseBasis`. -/
def recLeaf (dim m numC : ℕ) (nC : Buf ℤ) (full : Bool) (n numBasis : ℕ) (T : Buf K) (vec : Buf ℕ) (s : ℕ × Buf K) :
    Except Fault (ℕ × Buf K) :=
  if full then do
    let sum ← sumVec dim vec
    if (sum : ℤ) ≤ (m : ℤ) - 1 then do
      let out ← multiplyColumn dim m n numBasis T vec s.1 s.2
      .ok (s.1 + 1, out)
    else .ok s
  else do
    let flag ← anyFree dim numC nC vec
    if flag then do
      let sum ← sumVec dim vec
      if (sum : ℤ) ≤ (m : ℤ) - 1 then do
        let out ← multiplyColumn dim m n numBasis T vec s.1 s.2
        .ok (s.1 + 1, out)
      else .ok s
    else .ok s

theorem RecurseBasis_eq_walk (dim m numC : ℕ) (nC : Buf ℤ) (full : Bool) (n numBasis : ℕ) (T : Buf K) (j : ℕ)
    (s : Buf ℕ × ℕ × Buf K) :
    RecurseBasis dim m numC nC full n numBasis T j s = walk m (recLeaf dim m numC nC full n numBasis T) j s := by
  induction j generalizing s with
  | zero =>
    rw [RecurseBasis, walk]
    congr 1
    funext k s
    congr 1
    funext vec
    unfold recLeaf
    cases full with
    | true =>
      simp only [if_true]
      cases sumVec dim vec with
      | error e => rfl
      | ok sum =>
        simp only [ok_bind]
        split_ifs
        · cases multiplyColumn dim m n numBasis T vec s.2.1 s.2.2 <;> rfl
        · rfl
    | false =>
      simp only [Bool.false_eq_true, if_false]
      cases anyFree dim numC nC vec with
      | error e => rfl
      | ok flag =>
        simp only [ok_bind]
        cases flag with
        | false => rfl
        | true =>
          simp only [if_true]
          cases sumVec dim vec with
          | error e => rfl
          | ok sum =>
            simp only [ok_bind]
            split_ifs
            · cases multiplyColumn dim m n numBasis T vec s.2.1 s.2.2 <;> rfl
            · rfl
  | succ j ih =>
    rw [RecurseBasis, walk]
    congr 1
    funext k s
    congr 1
    funext vec
    exact ih _

theorem ext_lt {m j : ℕ} {v w : ℕ → ℕ} (hw : w ∈ ext m j v) : (∀ l ≤ j, w l < m) ∧ ∀ l, j < l → w l = v l := by
  induction j generalizing v with
  | zero =>
    simp only [ext, List.mem_map, List.mem_range] at hw
    obtain ⟨k, hk, rfl⟩ := hw
    refine ⟨fun l hl => ?_, fun l hl => Function.update_of_ne (by omega) _ _⟩
    obtain rfl : l = 0 := by omega
    simpa using hk
  | succ j ih =>
    simp only [ext, List.mem_flatMap, List.mem_range] at hw
    obtain ⟨k, hk, hw⟩ := hw
    obtain ⟨h1, h2⟩ := ih hw
    refine ⟨fun l hl => ?_, fun l hl => ?_⟩
    · by_cases he : l ≤ j
      · exact h1 l he
      · obtain rfl : l = j + 1 := by omega
        rw [h2 _ (by omega)]
        simpa using hk
    · rw [h2 l (by omega), Function.update_of_ne (by omega)]

theorem RecurseBasis_spec {dim m numC n numBasis : ℕ} {nC : Buf ℤ} {tab : ℕ → ℕ → ℤ} (full : Bool) (hdim : 1 ≤ dim)
    (hC : ∀ l < dim, ∀ g < numC, nC.read (l * numC + g) = .ok (tab l g)) {T : Buf K} {Tv : ℕ → ℕ → ℕ → K}
    (hT : ∀ l < dim, ∀ h < n, ∀ c < m, T.read (m * n * l + c + h * m) = .ok (Tv l h c))
    {F : Buf K} (hF : View F n numBasis (fun _ _ => some 1))
    (hlen : ((visited dim m).filter (acc dim m numC tab full)).length = numBasis) :
    Runs (RecurseBasis dim m numC nC full n numBasis T (dim - 1) (alloc dim, 0, F)) (fun r =>
      View r.2.2 n numBasis (fun h i => (((visited dim m).filter (acc dim m numC tab full))[i]?).map
        (fun v => opProd dim fun l : Fin dim => Tv l h (v l)))) := by
  rw [RecurseBasis_eq_walk]
  refine (walk_spec (dim := dim) (visited dim m) (fun pre (s : ℕ × Buf K) =>
      s.1 = (pre.filter (acc dim m numC tab full)).length ∧
      View s.2 n numBasis (fun h i => some (((pre.filter (acc dim m numC tab full))[i]?).elim 1
        (fun v => opProd dim fun l : Fin dim => Tv l h (v l))))) ?_ (dim - 1) (by omega) (fun _ => 0) []
    (alloc dim, 0, F) ⟨rfl, fun l hl hl' => by omega⟩ (by simp [visited]) ⟨rfl, by simpa using hF⟩).mono
    fun r hr => ?_
  · rintro pre v vec ⟨cnt, out⟩ hvec hpre ⟨hcnt, hout⟩
    simp only at hcnt hout
    have hleaf : recLeaf dim m numC nC full n numBasis T vec (cnt, out) =
        if acc dim m numC tab full v then (do
          let out ← multiplyColumn dim m n numBasis T vec cnt out
          .ok (cnt + 1, out)) else .ok (cnt, out) := by
      unfold recLeaf
      rw [sumVec_spec hvec, anyFree_spec hvec hC]
      simp only [ok_bind]
      exact acc_cases _ _
    rw [hleaf]
    by_cases ha : acc dim m numC tab full v = true
    · rw [if_pos ha]
      have hlt : cnt < numBasis := by
        have h1 : ((pre ++ [v]).filter (acc dim m numC tab full)).length ≤
            ((visited dim m).filter (acc dim m numC tab full)).length :=
          (List.IsPrefix.filter _ hpre).length_le
        rw [List.filter_append] at h1
        simp [ha] at h1
        omega
      have hvis : v ∈ ext m (dim - 1) (fun _ => 0) := hpre.subset (by simp)
      refine (multiplyColumn_spec hvec (fun l hl => (ext_lt hvis).1 l (by omega)) hT hout hlt ?_).bind
        fun b hb => Runs.ok ⟨by simp [List.filter_append, ha, hcnt], hb.congr fun h _ c _ => ?_⟩
      · intro h _
        rw [List.getElem?_eq_none (by omega)]
        rfl
      · subst hcnt
        simp only [List.filter_append, List.filter_cons, ha, if_true, List.filter_nil]
        rcases lt_trichotomy c (pre.filter (acc dim m numC tab full)).length with h1 | h1 | h1
        · rw [if_neg (by omega), List.getElem?_append_left h1]
        · subst h1; simp
        · rw [if_neg (by omega), List.getElem?_eq_none (by omega), List.getElem?_eq_none (by simp; omega)]
    · rw [if_neg ha]
      exact Runs.ok ⟨by simp [List.filter_append, ha, hcnt], by simpa [List.filter_append, ha] using hout⟩
  · refine hr.2.2.congr fun h _ i hi => ?_
    have e : ([] ++ ext m (dim - 1) (fun _ => 0)) = visited dim m := by simp [visited]
    rw [e, List.getElem?_eq_getElem (by omega)]
    rfl

/-! ### From the visited functions to multi-indices -/

theorem ext_map (m j : ℕ) (v : ℕ → ℕ) :
    (ext m j v).map (fun w (l : Fin (j + 1)) => w l) = boxTuples m (j + 1) := by
  induction j generalizing v with
  | zero =>
    simp only [ext, boxTuples, List.map_map, List.map_cons, List.map_nil]
    rw [← List.map_eq_flatMap]
    refine List.map_congr_left fun k _ => ?_
    funext l
    obtain rfl : l = 0 := Fin.ext (by omega)
    simp [Fin.snoc]
  | succ j ih =>
    rw [ext, boxTuples, List.map_flatMap]
    congr 1
    funext k
    rw [← ih (Function.update v (j + 1) k), List.map_map]
    refine List.map_congr_left fun w hw => ?_
    funext l
    refine Fin.lastCases ?_ (fun i => ?_) l
    · have := (ext_lt hw).2 (j + 1) (by omega)
      simp [this]
    · simp

/-- The rows of the table of removed functions. -/
def tabRow (numC : ℕ) (tab : ℕ → ℕ → ℤ) (l : ℕ) : List ℤ := (List.range numC).map (tab l)

theorem acc_eq (dim m numC : ℕ) (tab : ℕ → ℕ → ℤ) (full : Bool) (v : ℕ → ℕ) :
    acc dim m numC tab full v =
      decide (Admissible m (fun l : Fin dim => tabRow numC tab l) full (fun l : Fin dim => v l)) := by
  unfold acc Admissible
  refine decide_eq_decide.mpr ?_
  rw [Fin.sum_univ_eq_sum_range]
  refine and_congr Iff.rfl (or_congr Iff.rfl ?_)
  constructor
  · rintro ⟨l, hl, h⟩
    refine ⟨⟨l, hl⟩, ?_⟩
    simp only [tabRow, List.mem_map, List.mem_range]
    rintro ⟨g, hg, he⟩
    exact h g hg he.symm
  · rintro ⟨l, h⟩
    refine ⟨l, l.2, fun g hg he => h ?_⟩
    simp only [tabRow, List.mem_map, List.mem_range]
    exact ⟨g, hg, he.symm⟩

theorem visited_map {dim m : ℕ} (hdim : 1 ≤ dim) :
    (visited dim m).map (fun w (l : Fin dim) => w l) = boxTuples m dim := by
  obtain ⟨j, rfl⟩ : ∃ j, dim = j + 1 := ⟨dim - 1, by omega⟩
  exact ext_map m j _

theorem visited_columns {dim m : ℕ} (hdim : 1 ≤ dim) (numC : ℕ) (tab : ℕ → ℕ → ℤ) (full : Bool) :
    ((visited dim m).filter (acc dim m numC tab full)).map (fun w (l : Fin dim) => w l) =
      multiColumns m (fun l : Fin dim => tabRow numC tab l) full := by
  rw [multiColumns, ← visited_map hdim, List.filter_map]
  congr 2
  funext v
  simp [acc_eq]

theorem visited_length {dim m : ℕ} (hdim : 1 ≤ dim) (numC : ℕ) (tab : ℕ → ℕ → ℤ) (full : Bool) :
    ((visited dim m).filter (acc dim m numC tab full)).length =
      (multiColumns m (fun l : Fin dim => tabRow numC tab l) full).length := by
  rw [← visited_columns hdim, List.length_map]

/-! ### The constructor -/

/-- What the constructor leaves behind. -/
structure NGood (bf : NBasisFunc K) (hint : ℕ → ℕ → Buf K → ℕ → Buf K → Except Fault (Buf K)) (dim m numC : ℕ)
    (tab : ℕ → ℕ → ℤ) (x0s xfs : ℕ → K) (z0 zf : K) : Prop where
  hint_ : bf.hint = hint
  dim_ : bf.dim = dim
  m_ : bf.m = m
  numC_ : bf.numC = numC
  z0_ : bf.z0 = z0
  x0_ : ∀ l < dim, bf.x0.read l = .ok (x0s l)
  c_ : ∀ l < dim, bf.c.read l = .ok ((zf - z0) / (xfs l - x0s l))
  nC_ : ∀ l < dim, ∀ g < numC, bf.nC.read (l * numC + g) = .ok (tab l g)
  num_ : bf.numBasisFunc = (multiColumns m (fun l : Fin dim => tabRow numC tab l) false).length
  numFull_ : bf.numBasisFuncFull = (multiColumns m (fun l : Fin dim => tabRow numC tab l) true).length

theorem nNew_spec (hint : ℕ → ℕ → Buf K → ℕ → Buf K → Except Fault (Buf K)) {dim m numC : ℕ} (hdim : 1 ≤ dim)
    {x0 xf : Buf K} {x0s xfs : ℕ → K} (hx0 : ∀ l < dim, x0.read l = .ok (x0s l))
    (hxf : ∀ l < dim, xf.read l = .ok (xfs l)) {nCin : Buf ℤ} {tab : ℕ → ℕ → ℤ}
    (hC : ∀ l < dim, ∀ g < numC, nCin.read (l * numC + g) = .ok (tab l g)) (z0 zf : K) :
    Runs (NBasisFunc.new hint x0 dim xf nCin dim numC m z0 zf)
      (fun bf => NGood bf hint dim m numC tab x0s xfs z0 zf) := by
  unfold NBasisFunc.new
  refine (memcpy_spec (v := x0s) rfl hx0).bind fun x0' hx0' => ?_
  refine (memcpy_spec (v := fun i => tab (i / numC) (i % numC)) rfl fun i hi => ?_).bind fun nC' hnC' => ?_
  · have hpos : 0 < numC := Nat.pos_of_ne_zero (by rintro rfl; simp [alloc] at hi)
    have h1 : i / numC < dim := Nat.div_lt_of_lt_mul (by rwa [Nat.mul_comm])
    have := hC (i / numC) h1 (i % numC) (Nat.mod_lt _ hpos)
    rwa [Nat.mul_comm, Nat.div_add_mod] at this
  refine (fill_spec (n := dim) rfl (fun k => (zf - z0) / (xfs k - x0s k)) fun i hi b' => ?_).bind fun c hc => ?_
  · rw [hxf i hi, ok_bind, hx0'.read hi, ok_bind]
  rw [if_neg (by omega)]
  have hC' : ∀ l < dim, ∀ g < numC, nC'.read (l * numC + g) = .ok (tab l g) := by
    intro l hl g hg
    have hlt : l * numC + g < dim * numC := by
      have := idx_lt (n := dim) (m := numC) hl hg
      rwa [Nat.mul_comm numC l] at this
    rw [hnC'.read hlt]
    congr 1
    rw [Nat.mul_comm l, Nat.mul_add_div (by omega), Nat.div_eq_of_lt hg, Nat.mul_add_mod, Nat.mod_eq_of_lt hg,
      Nat.add_zero]
  refine (NumBasisFunc_spec (m := m) false hdim hC' (vec := alloc dim) rfl).bind fun r hr => ?_
  refine (NumBasisFunc_spec (m := m) true hdim hC' (vec := r.1) hr.1).bind fun r' hr' => ?_
  exact Runs.ok ⟨rfl, rfl, rfl, rfl, rfl, fun l hl => hx0'.read hl, fun l hl => hc.read hl, hC',
    by rw [hr.2, visited_length hdim], by rw [hr'.2, visited_length hdim]⟩

/-! ### Evaluation -/

theorem mapPointsN_spec {dim n : ℕ} {x0 c x : Buf K} {x0s cs : ℕ → K} {xs : ℕ → ℕ → K} (z0 : K)
    (hx0 : ∀ l < dim, x0.read l = .ok (x0s l)) (hc : ∀ l < dim, c.read l = .ok (cs l))
    (hx : ∀ l < dim, ∀ k < n, x.read (l * n + k) = .ok (xs l k)) :
    Runs (mapPointsN dim x0 c z0 x n) (fun z => View z dim n
      (fun l k => some ((xs l k - x0s l) * cs l + z0))) := by
  unfold mapPointsN
  have h0 : View (alloc (n * dim) : Buf K) dim n (fun _ _ => none) := by
    have := View.alloc (α := K) dim n
    rwa [Nat.mul_comm] at this
  refine (loop_spec (fun i b => View b dim n (fun l k =>
      if l < i then some ((xs l k - x0s l) * cs l + z0) else none)) (Nat.zero_le _) (h0.congr (by simp)) ?_).mono
    fun b hb => hb.congr (by intro l hl k _; simp [hl])
  intro j b _ hj hb
  refine (loop_spec (fun i b => View b dim n (fun l k =>
      if l < j ∨ (l = j ∧ k < i) then some ((xs l k - x0s l) * cs l + z0) else none)) (Nat.zero_le _)
      (hb.congr (by simp)) ?_).mono fun b hb => hb.congr fun l hl k hk => ?_
  · intro k b _ hk hb
    rw [hx j hj k hk, ok_bind, hx0 j hj, ok_bind, hc j hj, ok_bind, Nat.mul_comm j n]
    refine (hb.write hj hk _).mono fun b' hb' => hb'.congr fun l hl k' hk' => ?_
    by_cases he : l = j ∧ k' = k
    · obtain ⟨rfl, rfl⟩ := he; simp
    · have : (l < j ∨ l = j ∧ k' < k + 1) ↔ (l < j ∨ l = j ∧ k' < k) := by omega
      rw [if_neg he]
      simp only [this]
  · have : (l < j ∨ l = j ∧ k < n) ↔ l < j + 1 := by omega
    simp [this]

theorem View.drop_read {α : Type} {z : Buf α} {dim n : ℕ} {M : ℕ → ℕ → α}
    (h : View z dim n (fun l k => some (M l k))) {l k : ℕ} (hl : l < dim) (hk : k < n) :
    (z.drop (l * n)).read k = .ok (M l k) := by
  have h1 : k < z.size - l * n := by
    have := idx_lt hl hk
    rw [h.size]
    rw [Nat.mul_comm n l] at this
    omega
  have h2 := h.cell l hl k hk
  simp only [Buf.read, Buf.drop, h1, if_true]
  rw [Nat.add_comm k, Nat.mul_comm l, h2]

/-- The derivative orders after padding with zeros. -/
def padOrd (dDim0 : ℕ) (ds : ℕ → ℕ) (k : ℕ) : ℕ := if k < dDim0 then ds k else 0

theorem fillT_spec {bf : NBasisFunc K} {dim m n dDim0 : ℕ} (pow0 : dim ≤ dDim0 ∨ ∀ a : K, a ^ 0 = 1) {E : ℕ → K → ℕ → K} (hbd : bf.dim = dim) (hbm : bf.m = m)
    {ds : ℕ → ℕ} (hE : ∀ k < dim, HintSpec bf.hint m (padOrd dDim0 ds k) (E (padOrd dDim0 ds k)))
    {cs : ℕ → K} (hc : ∀ l < dim, bf.c.read l = .ok (cs l)) {z : Buf K} {zs : ℕ → ℕ → K}
    (hz : View z dim n (fun l k => some (zs l k))) {d : Buf ℕ}
    (hd : ∀ k, k < dDim0 → k < dim → d.read k = .ok (ds k)) :
    Runs (bf.fillT z n d dDim0) (fun s => ∀ l < dim, ∀ h < n, ∀ c < m, s.2.read (m * n * l + c + h * m) =
      .ok (E (padOrd dDim0 ds l) (zs l h) c * cs l ^ padOrd dDim0 ds l)) := by
  unfold NBasisFunc.fillT
  rw [hbd, hbm]
  have h0 : View (alloc (n * m * dim) : Buf K) dim (n * m) (fun _ _ => none) := by
    have := View.alloc (α := K) dim (n * m)
    rwa [Nat.mul_comm] at this
  let Tv : ℕ → ℕ → K := fun l i => E (padOrd dDim0 ds l) (zs l (i / m)) (i % m) * cs l ^ padOrd dDim0 ds l
  refine (loop_spec (fun i (s : Buf K × Buf K) => (∃ M, View s.1 n m M) ∧
    View s.2 dim (n * m) (fun l i' => if l < i then some (Tv l i') else none)) (Nat.zero_le _)
    ⟨⟨_, View.alloc n m⟩, h0.congr (by simp)⟩ ?_).mono fun s hs => ?_
  · rintro k ⟨dark, T⟩ _ hk ⟨⟨M, hM⟩, hT⟩
    simp only at hM hT
    have hstep : Runs (if k ≥ dDim0 then do
          let dark ← bf.hint m 0 (z.drop (k * n)) n dark
          .ok (dark, 1)
        else do
          let dk ← d.read k
          let dark ← bf.hint m dk (z.drop (k * n)) n dark
          let ck ← bf.c.read k
          .ok (dark, ck ^ dk) : Except Fault (Buf K × K))
        (fun r => View r.1 n m (fun j c => some (E (padOrd dDim0 ds k) (zs k j) c)) ∧
          r.2 = cs k ^ padOrd dDim0 ds k) := by
      have hh := hE k hk n (z.drop (k * n)) (zs k) dark M (fun j hj => View.drop_read hz hk hj) hM
      by_cases hkd : k ≥ dDim0
      · have hp : padOrd dDim0 ds k = 0 := by simp [padOrd, Nat.not_lt.mpr hkd]
        rw [if_pos hkd, ← hp]
        exact hh.bind fun b hb => Runs.ok ⟨hb, by rw [hp, pow0.resolve_left (by omega)]⟩
      · have hp : padOrd dDim0 ds k = ds k := by simp [padOrd, Nat.lt_of_not_ge hkd]
        rw [if_neg hkd, hd k (by omega) hk, ok_bind, ← hp]
        refine hh.bind fun b hb => ?_
        rw [hc k hk, ok_bind]
        exact Runs.ok ⟨hb, rfl⟩
    refine hstep.bind fun r hr => ?_
    obtain ⟨hr1, hr2⟩ := hr
    refine Runs.bind (Q := fun T => View T dim (n * m) (fun l i' => if l < k + 1 then some (Tv l i') else none)) ?_
      fun T' hT' => Runs.ok ⟨⟨_, hr1⟩, hT'⟩
    refine (loop_spec (fun i (T : Buf K) => View T dim (n * m) (fun l i' =>
      if l < k ∨ (l = k ∧ i' < i) then some (Tv l i') else none)) (Nat.zero_le _) (hT.congr (by simp)) ?_).mono
      fun T' hT' => hT'.congr fun l hl i hi => ?_
    · intro i T' _ hi hT'
      have hm : 0 < m := Nat.pos_of_ne_zero (by rintro rfl; simp at hi)
      have hin : i / m < n := Nat.div_lt_of_lt_mul (by rwa [Nat.mul_comm])
      have hread := hr1.read hin (Nat.mod_lt i hm) rfl
      rw [Nat.div_add_mod] at hread
      rw [hread, ok_bind, hr2, show i + k * m * n = n * m * k + i by ring]
      refine (hT'.write hk hi _).mono fun b' hb' => hb'.congr fun l _ i' _ => ?_
      by_cases he : l = k ∧ i' = i
      · obtain ⟨rfl, rfl⟩ := he; simp [Tv]
      · have : (l < k ∨ l = k ∧ i' < i + 1) ↔ (l < k ∨ l = k ∧ i' < i) := by omega
        rw [if_neg he]
        simp only [this]
    · have : (l < k ∨ l = k ∧ i < n * m) ↔ l < k + 1 := by omega
      simp [this]
  · intro l hl h hh c hc'
    have := hs.2.read hl (idx_lt hh hc') (v := Tv l (m * h + c)) (by simp [hl])
    rw [show m * n * l + c + h * m = n * m * l + (m * h + c) by ring, this]
    simp only [Tv]
    rw [Nat.mul_add_div (by omega), Nat.div_eq_of_lt hc', Nat.mul_add_mod, Nat.mod_eq_of_lt hc', Nat.add_zero]

theorem nHint_spec {bf : NBasisFunc K} {hint : ℕ → ℕ → Buf K → ℕ → Buf K → Except Fault (Buf K)} {dim m numC : ℕ}
    {tab : ℕ → ℕ → ℤ} {x0s xfs : ℕ → K} {z0 zf : K} (hb : NGood bf hint dim m numC tab x0s xfs z0 zf) (hdim : 1 ≤ dim)
    {n dDim0 : ℕ} (pow0 : dim ≤ dDim0 ∨ ∀ a : K, a ^ 0 = 1) {E : ℕ → K → ℕ → K} {ds : ℕ → ℕ}
    (hE : ∀ k < dim, HintSpec hint m (padOrd dDim0 ds k) (E (padOrd dDim0 ds k)))
    {x : Buf K} {xs : ℕ → ℕ → K} (hx : ∀ l < dim, ∀ k < n, x.read (l * n + k) = .ok (xs l k)) {d : Buf ℕ}
    (hd : ∀ k, k < dDim0 → k < dim → d.read k = .ok (ds k)) (full : Bool) {F : Buf K} {numBasis : ℕ}
    (hF : F.size = n * numBasis)
    (hnum : numBasis = (multiColumns m (fun l : Fin dim => tabRow numC tab l) full).length) :
    FillsMatrix (bf.nHint x n d dDim0 numBasis F full) n (multiColumns m (fun l : Fin dim => tabRow numC tab l) full)
      (fun h α => opProd dim fun l : Fin dim => E (padOrd dDim0 ds l)
        ((xs l h - x0s l) * ((zf - z0) / (xfs l - x0s l)) + z0) (α l) *
          ((zf - z0) / (xfs l - x0s l)) ^ padOrd dDim0 ds l) := by
  have key : Runs (bf.nHint x n d dDim0 numBasis F full) (fun b => View b n numBasis (fun h i =>
      ((multiColumns m (fun l : Fin dim => tabRow numC tab l) full)[i]?).map
      (fun α => opProd dim fun l : Fin dim => E (padOrd dDim0 ds l)
        ((xs l h - x0s l) * ((zf - z0) / (xfs l - x0s l)) + z0) (α l) *
          ((zf - z0) / (xfs l - x0s l)) ^ padOrd dDim0 ds l))) := by
    unfold NBasisFunc.nHint
    rw [hb.dim_, hb.m_, hb.numC_]
    refine (mapPointsN_spec bf.z0 hb.x0_ hb.c_ hx).bind fun z hz => ?_
    rw [hb.z0_] at hz
    refine (fillT_spec pow0 hb.dim_ hb.m_ (by rw [hb.hint_]; exact hE) hb.c_ hz hd).bind fun s hs => ?_
    refine (fill_spec hF (fun _ => (1 : K)) fun i hi b' => rfl).bind fun F' hF' => ?_
    have hv1 : View F' n numBasis (fun _ _ => some 1) :=
      ⟨hF'.1, fun j hj c hc => hF'.2 _ (idx_lt hj hc)⟩
    refine (RecurseBasis_spec full hdim hb.nC_ hs hv1 (by rw [visited_length hdim, hnum])).bind fun r hr => ?_
    refine Runs.ok (hr.congr fun h _ i _ => ?_)
    rw [← visited_columns hdim, List.getElem?_map]
    cases ((visited dim m).filter (acc dim m numC tab full))[i]? with
    | none => rfl
    | some v =>
      rfl
  have := fills_of_runs (cols := (multiColumns m (fun l : Fin dim => tabRow numC tab l) full)) (r := _) (n := n)
    (V := _) (by rw [← hnum]; exact key)
  exact this

end Verif

namespace Verif

open Verif.Mem Verif.Model.CC Verif.Spec

/-- Ends of the basis domain of a family. -/
noncomputable def NFamily.dom : NFamily → ℝ × ℝ
  | .cp => (-1, 1)
  | .lep => (-1, 1)
  | .fs => (-Real.pi, Real.pi)

/-- The `Hint` of a family. -/
noncomputable def NFamily.hint : NFamily → ℕ → ℕ → Buf ℝ → ℕ → Buf ℝ → Except Fault (Buf ℝ)
  | .cp => CP.hint
  | .lep => LeP.hint
  | .fs => FS.hint

theorem NFamily.hintSpec (f : NFamily) {m : ℕ} (hm : 1 ≤ m) (d : ℕ) :
    HintSpec (NFamily.hint f) m d (uniE f.cls d) := by
  cases f
  · exact polyHint_spec_new .cp (0 : ℝ) 1 [] hm d
  · exact polyHint_spec_new .lep (0 : ℝ) 1 [] hm d
  · exact fs_hintSpec hm d

theorem nNew_eq (f : NFamily) (x0 : Buf ℝ) (dim : ℕ) (xf : Buf ℝ) (nC : Buf ℤ) (a b m : ℕ) :
    nNew f x0 dim xf nC a b m =
      NBasisFunc.new (NFamily.hint f) x0 dim xf nC a b m (NFamily.dom f).1 (NFamily.dom f).2 := by
  cases f <;> rfl

theorem NFamily.deriv (f : NFamily) (x0 xf : ℝ) (d k : ℕ) (x : ℝ) :
    iteratedDeriv d (f.cls.basis x0 xf k) x =
      uniE f.cls d ((x - x0) * (((NFamily.dom f).2 - (NFamily.dom f).1) / (xf - x0)) + (NFamily.dom f).1) k *
        (((NFamily.dom f).2 - (NFamily.dom f).1) / (xf - x0)) ^ d := by
  have h := uni_iteratedDeriv f.cls x0 xf [] 1 (d := d) (by cases f <;> trivial) k x (by cases f <;> intro _ _ _ h <;> cases h)
  rw [h, ← uni_arg f.cls x0 xf [] 1 x]
  cases f <;> rfl

/-- A table as a function on the natural numbers. -/
def tabOf {dim numC : ℕ} (nC : Fin dim → Fin numC → ℤ) (l g : ℕ) : ℤ :=
  if h : l < dim ∧ g < numC then nC ⟨l, h.1⟩ ⟨g, h.2⟩ else 0

theorem tabRow_tabOf {dim numC : ℕ} (nC : Fin dim → Fin numC → ℤ) (l : Fin dim) :
    tabRow numC (tabOf nC) l = List.ofFn (nC l) := by
  refine List.ext_getElem (by simp [tabRow]) fun i h1 h2 => ?_
  have hi : i < numC := by simpa [tabRow] using h1
  simp [tabRow, tabOf, hi]

/-- The constructor of a family, on arrays as numpy hands them over. -/
theorem nNew_good (f : NFamily) {dim m numC : ℕ} (hdim : 1 ≤ dim) (x0 xf : Fin dim → ℝ) (nC : Fin dim → Fin numC → ℤ) :
    ∃ bf, nNew f (Buf.ofVec x0) dim (Buf.ofVec xf) (Buf.ofMat nC) dim numC m = .ok bf ∧
      NGood bf (NFamily.hint f) dim m numC (tabOf nC) (fun l => if h : l < dim then x0 ⟨l, h⟩ else 0)
        (fun l => if h : l < dim then xf ⟨l, h⟩ else 0) (NFamily.dom f).1 (NFamily.dom f).2 := by
  rw [nNew_eq]
  refine nNew_spec _ hdim (fun l hl => ?_) (fun l hl => ?_) (fun l hl g hg => ?_) _ _
  · rw [Buf.ofVec_read _ hl]; simp [hl]
  · rw [Buf.ofVec_read _ hl]; simp [hl]
  · rw [Buf.ofMat_read _ hl hg]; simp [tabOf, hl, hg]

/-- Any state left by the constructor evaluates to the mixed partial derivatives. -/
theorem nHint_mixed (f : NFamily) {dim m numC : ℕ} (hdim : 1 ≤ dim) (hm : 1 ≤ m) (x0 xf : Fin dim → ℝ)
    (nC : Fin dim → Fin numC → ℤ) {bf : NBasisFunc ℝ}
    (hb : NGood bf (NFamily.hint f) dim m numC (tabOf nC) (fun l => if h : l < dim then x0 ⟨l, h⟩ else 0)
        (fun l => if h : l < dim then xf ⟨l, h⟩ else 0) (NFamily.dom f).1 (NFamily.dom f).2)
    (n : ℕ) (xs : ℕ → Fin dim → ℝ) (ds : List ℕ) (full : Bool) {F : Buf ℝ}
    (hF : F.size = n * (multiColumns m (fun l => List.ofFn (nC l)) full).length) :
    FillsMatrix (bf.nHint (Buf.ofMat fun l (j : Fin n) => xs j l) n (Buf.ofList ds) ds.length
      (multiColumns m (fun l => List.ofFn (nC l)) full).length F full) n
      (multiColumns m (fun l => List.ofFn (nC l)) full)
      (fun j α => mixedPartial (fun l => ds.getD l 0) (f.cls.tensor x0 xf α) (xs j)) := by
  have hcol : (fun l : Fin dim => tabRow numC (tabOf nC) l) = fun l => List.ofFn (nC l) := by
    funext l; exact tabRow_tabOf nC l
  have h := nHint_spec (n := n) (dDim0 := ds.length) hb hdim (Or.inr pow_zero) (E := uniE f.cls) (ds := fun k => ds.getD k 0)
    (fun k _ => NFamily.hintSpec f hm _) (x := Buf.ofMat fun l (j : Fin n) => xs j l)
    (xs := fun l j => if h : l < dim then xs j ⟨l, h⟩ else 0)
    (fun l hl k hk => by rw [Buf.ofMat_read _ hl hk]; simp [hl])
    (d := Buf.ofList ds) (fun k hk _ => by rw [Buf.ofList_read _ hk]; simp [hk]) full (F := F)
    (numBasis := (multiColumns m (fun l => List.ofFn (nC l)) full).length) hF (by rw [hcol])
  rw [hcol] at h
  obtain ⟨G, h1, h2, h3⟩ := h
  refine ⟨G, h1, h2, fun j hj i hi => ?_⟩
  rw [h3 j hj i hi]
  congr 1
  beta_reduce
  have ht : f.cls.tensor x0 xf (multiColumns m (fun l => List.ofFn (nC l)) full)[i] =
      fun x => ∏ l, f.cls.basis (x0 l) (xf l) ((multiColumns m (fun l => List.ofFn (nC l)) full)[i] l) (x l) := rfl
  rw [ht, mixedPartial_tensor, opProd_eq]
  refine Finset.prod_congr rfl fun l _ => ?_
  rw [NFamily.deriv]
  have hp : padOrd ds.length (fun k => ds.getD k 0) (l : ℕ) = ds.getD l 0 := by
    unfold padOrd
    split_ifs with h
    · rfl
    · simp [List.getD, List.getElem?_eq_none (Nat.le_of_not_lt h)]
  rw [hp]
  simp

end Verif
