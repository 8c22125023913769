import Verif.Model.NBasisPy
import Verif.Lemmas.NBasisCC
import Verif.Lemmas.BasisPy

/-! # Refinement of the Python n-dimensional tensor-product bases -/

namespace Verif

open Verif.Py Verif.Np Verif.Model.PyBF Verif.Spec

/-- The common shape of `_NumBasisFunc` and `Recurse`. -/
def pwalk {σ : Type} (m : ℕ) (leaf : (ℕ → ℕ) → σ → σ) : ℕ → (ℕ → ℕ) × σ → (ℕ → ℕ) × σ
  | j + 1, s => pfor 0 m (fun x s => pwalk m leaf j (Function.update s.1 (j + 1) x, s.2)) s
  | 0, s => pfor 0 m (fun x s => (Function.update s.1 0 x, leaf (Function.update s.1 0 x) s.2)) s

theorem ext_congr (m : ℕ) : ∀ (j : ℕ) (v v' : ℕ → ℕ), (∀ l, j < l → v l = v' l) → ext m j v = ext m j v' := by
  intro j
  induction j with
  | zero =>
    intro v v' h
    refine List.map_congr_left fun k _ => ?_
    funext l
    by_cases hl : l = 0
    · subst hl; simp
    · rw [Function.update_of_ne hl, Function.update_of_ne hl, h l (by omega)]
  | succ j ih =>
    intro v v' h
    rw [ext, ext]
    congr 1
    funext k
    refine ih _ _ fun l hl => ?_
    by_cases he : l = j + 1
    · subst he; simp
    · rw [Function.update_of_ne he, Function.update_of_ne he, h l (by omega)]

theorem pfor_zero {σ : Type} (m : ℕ) (f : ℕ → σ → σ) (s : σ) :
    pfor 0 m f s = (List.range m).foldl (fun s k => f k s) s := by
  unfold pfor
  rw [Nat.sub_zero, List.range_eq_range']

theorem pwalk_spec {σ : Type} (m : ℕ) (leaf : (ℕ → ℕ) → σ → σ) : ∀ (j : ℕ) (s : (ℕ → ℕ) × σ),
    (∀ l, j < l → (pwalk m leaf j s).1 l = s.1 l) ∧
      (pwalk m leaf j s).2 = (ext m j s.1).foldl (fun t v => leaf v t) s.2 := by
  intro j
  induction j with
  | zero =>
    intro s
    have h := pfor_spec (lo := 0) (hi := m)
      (body := fun x (s : (ℕ → ℕ) × σ) => (Function.update s.1 0 x, leaf (Function.update s.1 0 x) s.2)) (s := s)
      (fun i r => (∀ l, 0 < l → r.1 l = s.1 l) ∧
        r.2 = ((List.range i).map fun k => Function.update s.1 0 k).foldl (fun t v => leaf v t) s.2) (Nat.zero_le _)
      ⟨fun _ _ => rfl, rfl⟩ ?_
    · exact h
    · rintro k r _ _ ⟨h1, h2⟩
      refine ⟨fun l hl => ?_, ?_⟩
      · simp only [Function.update_of_ne (Nat.ne_of_gt hl)]
        exact h1 l hl
      · rw [List.range_succ, List.map_append, List.foldl_append, ← h2]
        have : Function.update r.1 0 k = Function.update s.1 0 k := by
          funext l
          by_cases hl : l = 0
          · subst hl; simp
          · rw [Function.update_of_ne hl, Function.update_of_ne hl, h1 l (by omega)]
        simp [this]
  | succ j ih =>
    intro s
    have h := pfor_spec (lo := 0) (hi := m)
      (body := fun x (s : (ℕ → ℕ) × σ) => pwalk m leaf j (Function.update s.1 (j + 1) x, s.2)) (s := s)
      (fun i r => (∀ l, j + 1 < l → r.1 l = s.1 l) ∧
        r.2 = ((List.range i).flatMap fun k => ext m j (Function.update s.1 (j + 1) k)).foldl (fun t v => leaf v t) s.2)
      (Nat.zero_le _) ⟨fun _ _ => rfl, rfl⟩ ?_
    · exact h
    · rintro k r _ _ ⟨h1, h2⟩
      obtain ⟨i1, i2⟩ := ih (Function.update r.1 (j + 1) k, r.2)
      refine ⟨fun l hl => ?_, ?_⟩
      · rw [i1 l (by omega)]
        simp only [Function.update_of_ne (Nat.ne_of_gt hl)]
        exact h1 l hl
      · rw [i2, List.range_succ, List.flatMap_append, List.foldl_append, ← h2]
        have : ext m j (Function.update r.1 (j + 1) k) = ext m j (Function.update s.1 (j + 1) k) := by
          refine ext_congr m j _ _ fun l hl => ?_
          by_cases he : l = j + 1
          · subst he; simp
          · rw [Function.update_of_ne he, Function.update_of_ne he, h1 l (by omega)]
        simp [this]

/-! ### The acceptance test -/

theorem npSum_eq (dim : ℕ) (v : ℕ → ℕ) : npSum dim v = ∑ l ∈ Finset.range dim, v l := by
  unfold npSum
  induction dim with
  | zero => rfl
  | succ n ih => rw [List.range_succ, List.map_append, List.sum_append, ih, Finset.sum_range_succ]; simp

theorem allRemoved_eq (dim numC : ℕ) (tab : ℕ → ℕ → ℤ) (v : ℕ → ℕ) :
    (!(allRemoved dim numC tab v)) = decide (∃ l < dim, ∀ g < numC, (v l : ℤ) ≠ tab l g) := by
  rw [Bool.eq_iff_iff]
  simp [allRemoved]

theorem pyAcc_cases {dim m numC : ℕ} {tab : ℕ → ℕ → ℤ} {full : Bool} {v : ℕ → ℕ} {σ : Type} (s t : σ) :
    (if full then
      (if (npSum dim v : ℤ) ≤ (m : ℤ) - 1 then t else s)
    else
      if !(allRemoved dim numC tab v) && decide ((npSum dim v : ℤ) ≤ (m : ℤ) - 1) then t else s) =
      if acc dim m numC tab full v then t else s := by
  rw [npSum_eq, allRemoved_eq]
  have hs : ((∑ l ∈ Finset.range dim, v l : ℕ) : ℤ) ≤ (m : ℤ) - 1 ↔ ∑ l ∈ Finset.range dim, v l < m := by omega
  simp only [hs, acc]
  cases full with
  | true => simp
  | false =>
    by_cases h1 : ∃ l < dim, ∀ g < numC, (v l : ℤ) ≠ tab l g
    · simp [h1]
    · simp [h1]

/-! ### Counting -/

theorem numBasis_eq (m dim numC : ℕ) (tab : ℕ → ℕ → ℤ) (full : Bool) : ∀ (j : ℕ) (s : (ℕ → ℕ) × ℕ),
    numBasis m dim numC tab full j s = pwalk m (fun v n => if acc dim m numC tab full v then n + 1 else n) j s := by
  intro j
  induction j with
  | zero =>
    intro s
    rw [numBasis, pwalk]
    congr 1
    funext x s
    have := pyAcc_cases (dim := dim) (m := m) (numC := numC) (tab := tab) (full := full)
      (v := Function.update s.1 0 x) (Function.update s.1 0 x, s.2) (Function.update s.1 0 x, s.2 + 1)
    refine this.trans ?_
    split_ifs <;> rfl
  | succ j ih =>
    intro s
    rw [numBasis, pwalk]
    congr 1
    funext x s
    exact ih _

theorem foldl_count {α : Type} (p : α → Bool) (L : List α) (n : ℕ) :
    L.foldl (fun n v => if p v then n + 1 else n) n = n + (L.filter p).length := by
  induction L generalizing n with
  | nil => rfl
  | cons a L ih =>
    rw [List.foldl_cons, ih, List.filter_cons]
    split_ifs
    · rw [List.length_cons]; omega
    · rfl

theorem numBasis_spec {dim m numC : ℕ} (tab : ℕ → ℕ → ℤ) (full : Bool) (hdim : 1 ≤ dim) (v : ℕ → ℕ) :
    (numBasis m dim numC tab full (dim - 1) (v, 0)).2 =
      (multiColumns m (fun l : Fin dim => tabRow numC tab l) full).length ∧
    (∀ l, dim ≤ l → (numBasis m dim numC tab full (dim - 1) (v, 0)).1 l = v l) := by
  rw [numBasis_eq]
  obtain ⟨h1, h2⟩ := pwalk_spec m (fun v n => if acc dim m numC tab full v then n + 1 else n) (dim - 1) (v, 0)
  refine ⟨?_, fun l hl => h1 l (by omega)⟩
  rw [h2, foldl_count, Nat.zero_add]
  obtain ⟨j, rfl⟩ : ∃ j, dim = j + 1 := ⟨dim - 1, by omega⟩
  have hm : ((ext m j v).filter (acc (j + 1) m numC tab full)).map (fun w (l : Fin (j + 1)) => w l) =
      multiColumns m (fun l : Fin (j + 1) => tabRow numC tab l) full := by
    rw [multiColumns, ← ext_map m j v, List.filter_map]
    congr 2
    funext v
    simp [acc_eq]
  rw [← hm, List.length_map]
  rfl

/-! ### Filling the columns -/

variable {K : Type} [Zero K] [One K] [Add K] [Sub K] [Mul K] [Div K] [Neg K] [NatCast K] [Pow K ℕ]

theorem multT_eq (dim : ℕ) (T : ℕ → ℕ → ℕ → K) (v : ℕ → ℕ) (i : ℕ) :
    multT dim T v i = opProd dim fun l : Fin dim => T i (v l) l := by
  unfold multT
  refine pfor_spec (fun k (t : K) => t = opProd k fun l : Fin k => T i (v l) l) (Nat.zero_le _) rfl ?_
  rintro k s _ _ rfl
  rfl

theorem recurse_eq (m dim numC : ℕ) (tab : ℕ → ℕ → ℤ) (full : Bool) (T : ℕ → ℕ → ℕ → K) :
    ∀ (j : ℕ) (s : (ℕ → ℕ) × Mat K × ℕ),
    recurse m dim numC tab full T j s = pwalk m (fun v t => if acc dim m numC tab full v then
      (t.1.setCol t.2 (multT dim T v), t.2 + 1) else t) j s := by
  intro j
  induction j with
  | zero =>
    intro s
    rw [recurse, pwalk]
    congr 1
    funext x s
    have := pyAcc_cases (dim := dim) (m := m) (numC := numC) (tab := tab) (full := full)
      (v := Function.update s.1 0 x) (Function.update s.1 0 x, s.2) (Function.update s.1 0 x,
        s.2.1.setCol s.2.2 (multT dim T (Function.update s.1 0 x)), s.2.2 + 1)
    refine this.trans ?_
    split_ifs <;> rfl
  | succ j ih =>
    intro s
    rw [recurse, pwalk]
    congr 1
    funext x s
    exact ih _

omit [Zero K] [One K] [Add K] [Sub K] [Mul K] [Div K] [Neg K] [NatCast K] [Pow K ℕ] in
theorem foldl_setCol {α : Type} (p : α → Bool) (f : α → ℕ → K) (L : List α) (A : Mat K) (n : ℕ) :
    let r := L.foldl (fun (t : Mat K × ℕ) v => if p v then (t.1.setCol t.2 (f v), t.2 + 1) else t) (A, n)
    r.1.rows = A.rows ∧ r.1.cols = A.cols ∧ ∀ i c, r.1.at_ i c =
      if n ≤ c then (((L.filter p)[c - n]?).elim (A.at_ i c) fun v => f v i) else A.at_ i c := by
  induction L generalizing A n with
  | nil => simp
  | cons a L ih =>
    rw [List.foldl_cons, List.filter_cons]
    by_cases ha : p a = true
    · rw [if_pos ha, if_pos ha]
      obtain ⟨h1, h2, h3⟩ := ih (A.setCol n (f a)) (n + 1)
      refine ⟨h1, h2, fun i c => ?_⟩
      rw [h3]
      rcases lt_trichotomy c n with hc | hc | hc
      · rw [if_neg (by omega), if_neg (by omega)]
        simp [Mat.setCol, Nat.ne_of_lt hc]
      · subst hc
        simp [Mat.setCol]
      · rw [if_pos (by omega), if_pos (by omega)]
        rw [show c - n = (c - (n + 1)) + 1 by omega, List.getElem?_cons_succ]
        simp [Mat.setCol, Nat.ne_of_gt hc]
    · rw [if_neg ha, if_neg ha]
      exact ih A n

theorem recurse_spec {dim m numC n : ℕ} (tab : ℕ → ℕ → ℤ) (full : Bool) (hdim : 1 ≤ dim) (T : ℕ → ℕ → ℕ → K)
    {A : Mat K} (hr : A.rows = n) (hc : A.cols = (multiColumns m (fun l : Fin dim => tabRow numC tab l) full).length) :
    ReturnsArray (.ok (recurse m dim numC tab full T (dim - 1) (fun _ => 0, A, 0)).2.1) n
      (multiColumns m (fun l : Fin dim => tabRow numC tab l) full) (fun i α => opProd dim fun l : Fin dim => T i (α l) l) := by
  rw [recurse_eq]
  obtain ⟨-, h2⟩ := pwalk_spec m (fun v (t : Mat K × ℕ) => if acc dim m numC tab full v then
      (t.1.setCol t.2 (multT dim T v), t.2 + 1) else t) (dim - 1) ((fun _ => 0, A, 0) : (ℕ → ℕ) × Mat K × ℕ)
  obtain ⟨f1, f2, f3⟩ := foldl_setCol (acc dim m numC tab full) (fun v => multT dim T v) (ext m (dim - 1) fun _ => 0)
    A 0
  refine ⟨_, rfl, ?_, ?_, fun j hj i hi => ?_⟩
  · rw [h2, f1, hr]
  · rw [h2, f2, hc]
  · rw [h2, f3, if_pos (Nat.zero_le _), Nat.sub_zero]
    have hv : ((visited dim m).filter (acc dim m numC tab full))[i]?.map (fun w (l : Fin dim) => w l) =
        some (multiColumns m (fun l : Fin dim => tabRow numC tab l) full)[i] := by
      rw [← List.getElem?_map, visited_columns hdim, List.getElem?_eq_getElem hi]
    rw [show ext m (dim - 1) (fun _ => 0) = visited dim m from rfl]
    cases hw : ((visited dim m).filter (acc dim m numC tab full))[i]? with
    | none => rw [hw] at hv; simp at hv
    | some w =>
      rw [hw] at hv
      simp only [Option.map_some, Option.some.injEq] at hv
      rw [Option.elim_some, multT_eq, ← hv]

/-! ### Evaluation -/

theorem fillT_py_spec (self : Model.PyBF.NBasisFunc K) {N : ℕ} {z : ℕ → ℕ → K} {d : List ℕ} {E : ℕ → K → ℕ → K}
    (hd : self.dim ≤ d.length)
    (hE : ∀ dk (z : ℕ → K), ∃ B, self.hint self.m N z dk = .ok B ∧ IsArr B N self.m (fun j c => E dk (z j) c)) :
    ∃ T, self.fillT N z d = .ok T ∧ ∀ i < N, ∀ j < self.m, ∀ l < self.dim,
      T i j l = E (d.getD l 0) (z l i) j * self.c l ^ (d.getD l 0) := by
  unfold NBasisFunc.fillT
  have key : ∀ q ≤ self.dim, ∃ T, (List.range q).foldlM (self.stepT N z d) (fun _ _ _ => (0 : K)) = .ok T ∧
      ∀ i < N, ∀ j < self.m, ∀ l < q,
      T i j l = E (d.getD l 0) (z l i) j * self.c l ^ (d.getD l 0) := by
    intro q
    induction q with
    | zero => intro _; exact ⟨_, rfl, by simp⟩
    | succ q ih =>
      intro hq
      obtain ⟨T, hT, hT'⟩ := ih (by omega)
      obtain ⟨B, hB, hB'⟩ := hE (d.getD q 0) (z q)
      refine ⟨fun i j l => if l = q then B.at_ i j * self.c q ^ (d.getD q 0) else T i j l, ?_, fun i hi j hj l hl => ?_⟩
      · rw [List.range_succ, List.foldlM_append, hT]
        have hq' : q < d.length := by omega
        have hg : d.getD q 0 = d[q] := by simp [List.getD, List.getElem?_eq_getElem hq']
        rw [hg] at hB ⊢
        have : self.stepT N z d T q =
            .ok (fun i j l => if l = q then B.at_ i j * self.c q ^ d[q] else T i j l) := by
          simp only [NBasisFunc.stepT, List.getElem?_eq_getElem hq', hB, bind, Except.bind, hB'.rows, hB'.cols,
            and_self, if_true]
        simp only [bind, Except.bind, List.foldlM_cons, List.foldlM_nil, this]
        rfl
      · beta_reduce
        by_cases he : l = q
        · subst he
          rw [if_pos rfl, hB'.at_ i hi j hj]
        · rw [if_neg he, hT' i hi j hj l (by omega)]
  exact key self.dim le_rfl

/-- The Python `_Hint` of a family. -/
noncomputable def NFamily.pyHint : NFamily → ℕ → ℕ → (ℕ → ℝ) → ℕ → Except Err (Mat ℝ)
  | .cp => Model.PyBF.CP.hint
  | .lep => Model.PyBF.LeP.hint
  | .fs => Model.PyBF.FS.hint

theorem NFamily.pyHintSpec (f : NFamily) {m : ℕ} (hm : 1 ≤ m) (N d : ℕ) (z : ℕ → ℝ) :
    ∃ B, NFamily.pyHint f m N z d = .ok B ∧ IsArr B N m (fun j c => uniE f.cls d (z j) c) := by
  cases f
  · exact polyPyHint_spec (K := ℝ) .cp (n := N) hm z d
  · exact polyPyHint_spec (K := ℝ) .lep (n := N) hm z d
  · exact fsPy_hint_spec hm z d

theorem nInit_eq (f : NFamily) (x0 xf : ℕ → ℝ) (nC : ℕ → ℕ → ℤ) (dim numC m : ℕ) :
    nInit f x0 xf nC dim numC m =
      NBasisFunc.init (NFamily.pyHint f) x0 xf nC dim numC m (NFamily.dom f).1 (NFamily.dom f).2 := by
  cases f <;> rfl

/-- What the constructor leaves behind. -/
theorem nInit_good (f : NFamily) {dim m numC : ℕ} (hdim : 1 ≤ dim) (x0 xf : ℕ → ℝ) (nC : ℕ → ℕ → ℤ) :
    ∃ bf, nInit f x0 xf nC dim numC m = .ok bf ∧ bf.m = m ∧ bf.nC = nC ∧ bf.dim = dim ∧ bf.numC = numC ∧
      bf.z0 = (NFamily.dom f).1 ∧ bf.x0 = x0 ∧
      bf.c = (fun k => ((NFamily.dom f).2 - (NFamily.dom f).1) / (xf k - x0 k)) ∧ bf.hint = NFamily.pyHint f ∧
      bf.numBasisFunc = (multiColumns m (fun l : Fin dim => tabRow numC nC l) false).length ∧
      bf.numBasisFuncFull = (multiColumns m (fun l : Fin dim => tabRow numC nC l) true).length := by
  rw [nInit_eq, NBasisFunc.init, if_neg (by omega)]
  exact ⟨_, rfl, rfl, rfl, rfl, rfl, rfl, rfl, rfl, rfl, (numBasis_spec nC false hdim _).1,
    (numBasis_spec nC true hdim _).1⟩

end Verif
