import Verif.Mem
import Mathlib.Data.List.OfFn

/-! # Arrays handed over by the caller, as C blocks -/

namespace Verif.Mem

variable {α : Type}

/-- A one-dimensional array. -/
def Buf.ofVec {n : ℕ} (v : Fin n → α) : Buf α := ⟨n, fun i => if h : i < n then some (v ⟨i, h⟩) else none⟩

/-- A two-dimensional array in row-major (C) order. -/
def Buf.ofMat {r c : ℕ} (M : Fin r → Fin c → α) : Buf α :=
  ⟨r * c, fun i => if h : i < r * c then
    some (M ⟨i / c, Nat.div_lt_of_lt_mul (by rwa [Nat.mul_comm])⟩
      ⟨i % c, Nat.mod_lt _ (Nat.pos_of_ne_zero (by rintro rfl; simp at h))⟩) else none⟩

/-- A Python list or tuple as an array. -/
def Buf.ofList (l : List α) : Buf α := ⟨l.length, fun i => l[i]?⟩

theorem Buf.ofVec_read {n : ℕ} (v : Fin n → α) {i : ℕ} (h : i < n) : (Buf.ofVec v).read i = .ok (v ⟨i, h⟩) := by
  simp [Buf.ofVec, Buf.read, h]

theorem Buf.ofList_read (l : List α) {i : ℕ} (h : i < l.length) : (Buf.ofList l).read i = .ok l[i] := by
  simp [Buf.ofList, Buf.read, h]

theorem Buf.ofMat_read {r c : ℕ} (M : Fin r → Fin c → α) {i j : ℕ} (hi : i < r) (hj : j < c) :
    (Buf.ofMat M).read (i * c + j) = .ok (M ⟨i, hi⟩ ⟨j, hj⟩) := by
  have hlt : i * c + j < r * c := by
    have := idx_lt hi hj
    rwa [Nat.mul_comm c i] at this
  have h1 : (i * c + j) / c = i := by
    rw [Nat.mul_comm i, Nat.mul_add_div (by omega), Nat.div_eq_of_lt hj, Nat.add_zero]
  have h2 : (i * c + j) % c = j := by
    rw [Nat.mul_comm i, Nat.mul_add_mod, Nat.mod_eq_of_lt hj]
  simp [Buf.ofMat, Buf.read, hlt, h1, h2]

end Verif.Mem
