import Verif.Model.Mtfc
import Mathlib.Tactic.Ring

/-! # Mixed-radix numbers and the rows of the multivariate grid -/

namespace Verif

open Verif.Py Verif.Model.Py

theorem flatMap_replicate_getElem? {α : Type} (m : ℕ) (hm : 0 < m) (l : List α) (i : ℕ) :
    (l.flatMap fun v => List.replicate m v)[i]? = l[i / m]? := by
  induction l generalizing i with
  | nil => simp
  | cons a l ih =>
    rw [List.flatMap_cons]
    rcases Nat.lt_or_ge i m with h | h
    · rw [List.getElem?_append_left (by simpa using h), Nat.div_eq_of_lt h]
      simp [h]
    · rw [List.getElem?_append_right (by simpa using h), List.length_replicate, ih]
      obtain ⟨q, rfl⟩ : ∃ q, i = m + q := ⟨i - m, by omega⟩
      rw [Nat.add_sub_cancel_left, Nat.add_div_left _ hm]
      rfl

theorem flatten_replicate_getElem? {α : Type} (s : ℕ) (l : List α) (i : ℕ) (hi : i < s * l.length) :
    (List.replicate s l).flatten[i]? = l[i % l.length]? := by
  induction s generalizing i with
  | zero => omega
  | succ s ih =>
    rw [List.replicate_succ, List.flatten_cons]
    rcases Nat.lt_or_ge i l.length with h | h
    · rw [List.getElem?_append_left h, Nat.mod_eq_of_lt h]
    · rw [List.getElem?_append_right h, ih _ (by rw [Nat.add_mul] at hi; omega), ← Nat.mod_eq_sub_mod h]

/-- The row `k` of the grid: point number `(p / nProd) % n_k` in column `p`. -/
theorem gridRow_spec {α : Type} {n : List ℕ} {k : ℕ} (hk : k < n.length) {pts : List α} (hp : pts.length = n[k])
    (hpos : ∀ v ∈ n, 0 < v) :
    ∃ r, gridRow n k pts = .ok r ∧ r.length = n.prod ∧
      ∀ p < n.prod, r[p]? = pts[p / (n.drop (k + 1)).prod % n[k]]? := by
  have hP : 0 < (n.drop (k + 1)).prod :=
    List.prod_pos fun v hv => hpos v (List.mem_of_mem_drop hv)
  have hprod : n.prod = (n.take k).prod * (n[k] * (n.drop (k + 1)).prod) := by
    conv_lhs => rw [← List.take_append_drop k n, List.prod_append, List.drop_eq_getElem_cons hk, List.prod_cons]
  have hlen : (pts.flatMap fun v => List.replicate (n.drop (k + 1)).prod v).length = n[k] * (n.drop (k + 1)).prod := by
    simp [List.length_flatMap, hp]
  refine ⟨_, by unfold gridRow; simp only; rw [if_neg (by omega)], ?_, fun p hpn => ?_⟩
  · rw [List.length_flatten, List.map_replicate, List.sum_replicate, hlen, hprod, smul_eq_mul]
  · rw [flatten_replicate_getElem? _ _ _ (by rw [hlen, ← hprod]; exact hpn), hlen, flatMap_replicate_getElem? _ hP]
    rw [Nat.mul_comm, Nat.mod_mul_right_div_self]

/-- The digits of `p` in the mixed-radix system with the radices `n`, most significant first. -/
def digit (n : List ℕ) (p k : ℕ) : ℕ := p / (n.drop (k + 1)).prod % n.getD k 0

/-- The number with the digits `i` (inverse of `digit`). -/
def encode : List ℕ → (ℕ → ℕ) → ℕ
  | [], _ => 0
  | _ :: ns, i => i 0 * ns.prod + encode ns fun k => i (k + 1)

theorem encode_lt {n : List ℕ} {i : ℕ → ℕ} (h : ∀ k, k < n.length → i k < n.getD k 0) : encode n i < n.prod := by
  induction n generalizing i with
  | nil => simp [encode]
  | cons a n ih =>
    have h0 : i 0 < a := by simpa using h 0 (by simp)
    have h1 := ih (i := fun k => i (k + 1)) fun k hk => by simpa using h (k + 1) (by simpa using hk)
    rw [encode, List.prod_cons]
    calc i 0 * n.prod + _ < i 0 * n.prod + n.prod := by omega
      _ = (i 0 + 1) * n.prod := by ring
      _ ≤ a * n.prod := Nat.mul_le_mul_right _ h0

theorem digit_encode {n : List ℕ} {i : ℕ → ℕ} (h : ∀ k, k < n.length → i k < n.getD k 0) {k : ℕ} (hk : k < n.length) :
    digit n (encode n i) k = i k := by
  induction n generalizing i k with
  | nil => simp at hk
  | cons a n ih =>
    have h0 : i 0 < a := by simpa using h 0 (by simp)
    have h' : ∀ k, k < n.length → i (k + 1) < n.getD k 0 := fun k hk => by simpa using h (k + 1) (by simpa using hk)
    have hlt := encode_lt (i := fun k => i (k + 1)) h'
    cases k with
    | zero =>
      simp only [digit, encode, List.drop_succ_cons, List.drop_zero, List.getD_cons_zero]
      rw [Nat.mul_comm, Nat.mul_add_div (by omega), Nat.div_eq_of_lt hlt, Nat.add_zero, Nat.mod_eq_of_lt h0]
    | succ k =>
      have hk' : k < n.length := by simpa using hk
      rw [← ih (i := fun k => i (k + 1)) h' hk']
      simp only [digit, encode, List.drop_succ_cons, List.getD_cons_succ]
      have hprod : n.prod = (n.take k).prod * (n.getD k 0 * (n.drop (k + 1)).prod) := by
        conv_lhs => rw [← List.take_append_drop k n, List.prod_append, List.drop_eq_getElem_cons hk', List.prod_cons]
        simp [hk']
      have hD : 0 < (n.drop (k + 1)).prod := by
        rcases Nat.eq_zero_or_pos (n.drop (k + 1)).prod with h | h
        · rw [h, Nat.mul_zero, Nat.mul_zero] at hprod; omega
        · exact h
      rw [hprod]
      have : i 0 * ((n.take k).prod * (n.getD k 0 * (n.drop (k + 1)).prod)) =
          (n.drop (k + 1)).prod * (n.getD k 0 * (i 0 * (n.take k).prod)) := by ring
      rw [this, Nat.mul_add_div hD, Nat.mul_add_mod]

theorem encode_digit {n : List ℕ} {p : ℕ} (hp : p < n.prod) : encode n (digit n p) = p := by
  induction n generalizing p with
  | nil => simp at hp; simp [encode, hp]
  | cons a n ih =>
    rw [List.prod_cons] at hp
    have hpos : 0 < n.prod := by
      rcases Nat.eq_zero_or_pos n.prod with h | h
      · rw [h] at hp; omega
      · exact h
    have h0 : digit (a :: n) p 0 = p / n.prod := by
      simp only [digit, List.drop_succ_cons, List.drop_zero, List.getD_cons_zero]
      exact Nat.mod_eq_of_lt ((Nat.div_lt_iff_lt_mul hpos).mpr hp)
    have h1 : encode n (fun k => digit (a :: n) p (k + 1)) = p % n.prod := by
      rw [← ih (Nat.mod_lt p hpos)]
      have : ∀ (n' : List ℕ) (i j : ℕ → ℕ), (∀ k, k < n'.length → i k = j k) → encode n' i = encode n' j := by
        intro n'
        induction n' with
        | nil => intros; rfl
        | cons b n' ih' =>
          intro i j h
          rw [encode, encode, h 0 (by simp), ih' _ (fun k => j (k + 1)) fun k hk => h (k + 1) (by simpa using hk)]
      refine this _ _ _ fun k hk => ?_
      simp only [digit, List.drop_succ_cons, List.getD_cons_succ]
      have hprod : n.prod = (n.take k).prod * (n.getD k 0 * (n.drop (k + 1)).prod) := by
        conv_lhs => rw [← List.take_append_drop k n, List.prod_append, List.drop_eq_getElem_cons hk, List.prod_cons]
        simp [hk]
      conv_lhs => rw [← Nat.div_add_mod p n.prod]
      have hD : 0 < (n.drop (k + 1)).prod := by
        rcases Nat.eq_zero_or_pos (n.drop (k + 1)).prod with h | h
        · rw [h, Nat.mul_zero, Nat.mul_zero] at hprod; omega
        · exact h
      have e : n.prod * (p / n.prod) = (n.drop (k + 1)).prod * (n.getD k 0 * ((n.take k).prod * (p / n.prod))) := by
        generalize p / n.prod = q
        rw [hprod]; ring
      rw [e, Nat.mul_add_div hD, Nat.mul_add_mod]
    rw [encode, h0, h1, Nat.mul_comm, Nat.div_add_mod]

/-- The numbers are ordered like their digits, the first digit deciding first. -/
theorem encode_lt_encode {n : List ℕ} {i j : ℕ → ℕ} (hi : ∀ k, k < n.length → i k < n.getD k 0)
    {k : ℕ} (hk : k < n.length) (heq : ∀ l < k, i l = j l) (hlt : i k < j k) : encode n i < encode n j := by
  induction n generalizing i j k with
  | nil => simp at hk
  | cons a n ih =>
    have h' : ∀ k, k < n.length → i (k + 1) < n.getD k 0 := fun k hk => by simpa using hi (k + 1) (by simpa using hk)
    cases k with
    | zero =>
      have hlt' := encode_lt (i := fun k => i (k + 1)) h'
      rw [encode, encode]
      calc _ < i 0 * n.prod + n.prod := by omega
        _ = (i 0 + 1) * n.prod := by ring
        _ ≤ j 0 * n.prod := Nat.mul_le_mul_right _ hlt
        _ ≤ _ := by omega
    | succ k =>
      have := ih (i := fun k => i (k + 1)) (j := fun k => j (k + 1)) h' (k := k) (by simpa using hk)
        (fun l hl => heq (l + 1) (by omega)) hlt
      rw [encode, encode, heq 0 (by omega)]
      omega

end Verif
