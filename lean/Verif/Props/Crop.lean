import Verif.Spec.Crop
import Mathlib.Order.MinMax

/-! # C68: trimming the white space of a saved picture -/

namespace Verif.Props

open Verif.Py Verif.Model.Crop Verif.Spec

theorem mem_coords (a : Img) (p : ℕ × ℕ × ℕ) :
    p ∈ coords a ↔ p.1 < a.h ∧ p.2.1 < a.w ∧ p.2.2 < 4 ∧ a.px p.1 p.2.1 p.2.2 ≠ a.px 0 0 p.2.2 := by
  obtain ⟨i, j, c⟩ := p
  simp only [coords, List.mem_filter, List.mem_flatMap, List.mem_map, List.mem_range, decide_eq_true_eq, Prod.mk.injEq]
  constructor
  · rintro ⟨⟨i', hi, j', hj, c', hc, rfl, rfl, rfl⟩, h⟩
    exact ⟨hi, hj, hc, h⟩
  · rintro ⟨hi, hj, hc, h⟩
    exact ⟨⟨i, hi, j, hj, c, hc, rfl, rfl, rfl⟩, h⟩

theorem lowest_ok (l : List ℕ) (h : l ≠ []) : ∃ m, lowest l = .ok m ∧ m ∈ l ∧ ∀ v ∈ l, m ≤ v := by
  cases l with
  | nil => exact absurd rfl h
  | cons a l =>
      refine ⟨_, rfl, ?_⟩
      clear h
      induction l generalizing a with
      | nil => simp
      | cons b l ih =>
          obtain ⟨h1, h2⟩ := ih (min a b)
          rw [List.foldl_cons]
          constructor
          · rcases List.mem_cons.1 h1 with h | h
            · rw [h]; rcases min_choice a b with h | h <;> simp [h]
            · simp [h]
          · intro v hv
            have h3 := h2 (min a b) List.mem_cons_self
            simp only [List.mem_cons] at hv
            rcases hv with rfl | rfl | hv
            · omega
            · omega
            · exact h2 v (by simp [hv])

theorem beyond_ok (l : List ℕ) (h : l ≠ []) : ∃ m, beyond l = .ok (m + 1) ∧ m ∈ l ∧ ∀ v ∈ l, v ≤ m := by
  cases l with
  | nil => exact absurd rfl h
  | cons a l =>
      refine ⟨_, rfl, ?_⟩
      clear h
      induction l generalizing a with
      | nil => simp
      | cons b l ih =>
          obtain ⟨h1, h2⟩ := ih (max a b)
          rw [List.foldl_cons]
          constructor
          · rcases List.mem_cons.1 h1 with h | h
            · rw [h]; rcases max_choice a b with h | h <;> simp [h]
            · simp [h]
          · intro v hv
            have h3 := h2 (max a b) List.mem_cons_self
            simp only [List.mem_cons] at hv
            rcases hv with rfl | rfl | hv
            · omega
            · omega
            · exact h2 v (by simp [hv])

/-- What the code computes when some pixel differs from the corner. -/
theorem crop_run (a : Img) (i j : ℕ) (h : Ink a i j) :
    ∃ x0 y0 z0 x1 y1 z1, crop a = cut a x0 (x1 + 1) y0 (y1 + 1) z0 (z1 + 1) ∧
      (∃ p ∈ coords a, p.1 = x0) ∧ (∃ p ∈ coords a, p.2.1 = y0) ∧ (∃ p ∈ coords a, p.2.2 = z0) ∧
      (∃ p ∈ coords a, p.1 = x1) ∧ (∃ p ∈ coords a, p.2.1 = y1) ∧ (∃ p ∈ coords a, p.2.2 = z1) ∧
      ∀ p ∈ coords a, (x0 ≤ p.1 ∧ p.1 ≤ x1) ∧ (y0 ≤ p.2.1 ∧ p.2.1 ≤ y1) ∧ z0 ≤ p.2.2 ∧ p.2.2 ≤ z1 := by
  obtain ⟨hi, hj, c, hc, hne⟩ := h
  have hmem : (i, j, c) ∈ coords a := (mem_coords a _).2 ⟨hi, hj, hc, hne⟩
  have hn : ∀ f : ℕ × ℕ × ℕ → ℕ, (coords a).map f ≠ [] := by
    intro f e
    rw [List.map_eq_nil_iff] at e
    rw [e] at hmem
    exact absurd hmem (by simp)
  obtain ⟨x0, hx0, mx0, lx0⟩ := lowest_ok _ (hn fun p => p.1)
  obtain ⟨y0, hy0, my0, ly0⟩ := lowest_ok _ (hn fun p => p.2.1)
  obtain ⟨z0, hz0, mz0, lz0⟩ := lowest_ok _ (hn fun p => p.2.2)
  obtain ⟨x1, hx1, mx1, lx1⟩ := beyond_ok _ (hn fun p => p.1)
  obtain ⟨y1, hy1, my1, ly1⟩ := beyond_ok _ (hn fun p => p.2.1)
  obtain ⟨z1, hz1, mz1, lz1⟩ := beyond_ok _ (hn fun p => p.2.2)
  refine ⟨x0, y0, z0, x1, y1, z1, ?_, List.mem_map.1 mx0, List.mem_map.1 my0, List.mem_map.1 mz0, List.mem_map.1 mx1, List.mem_map.1 my1,
    List.mem_map.1 mz1, fun p hp => ⟨⟨lx0 _ (List.mem_map_of_mem hp), lx1 _ (List.mem_map_of_mem hp)⟩,
      ⟨ly0 _ (List.mem_map_of_mem hp), ly1 _ (List.mem_map_of_mem hp)⟩, lz0 _ (List.mem_map_of_mem hp), lz1 _ (List.mem_map_of_mem hp)⟩⟩
  rw [crop, if_neg (by omega), hx0, hy0, hz0, hx1, hy1, hz1]
  rfl

/-- **C68** (trimming, where it works). If some pixel differs from the corner in the first channel and some pixel differs from it in the last
channel, the saved picture is the smallest rectangle that contains every pixel different from the corner. Missing: all other
pictures, see `C68_opaque_fails` and `C68_empty_fails`. -/
theorem C68_partial (a : Img) (h0 : ∃ i j, i < a.h ∧ j < a.w ∧ a.px i j 0 ≠ a.px 0 0 0) (h3 : ∃ i j, i < a.h ∧ j < a.w ∧ a.px i j 3 ≠ a.px 0 0 3) :
    ∃ b, crop a = .ok b ∧ IsTrim a b := by
  obtain ⟨i, j, hi, hj, hne⟩ := h0
  obtain ⟨i', j', hi', hj', hne'⟩ := h3
  obtain ⟨x0, y0, z0, x1, y1, z1, hrun, ⟨p0, m0, e0⟩, ⟨p1, m1, e1⟩, ⟨p2, m2, e2⟩, ⟨p3, m3, e3⟩, ⟨p4, m4, e4⟩, ⟨p5, m5, e5⟩, hb⟩ :=
    crop_run a i j ⟨hi, hj, 0, by omega, hne⟩
  have hz0 := (hb (i, j, 0) ((mem_coords a _).2 ⟨hi, hj, (by decide : 0 < 4), hne⟩)).2.2.1
  have hz1 := (hb (i', j', 3) ((mem_coords a _).2 ⟨hi', hj', (by decide : 3 < 4), hne'⟩)).2.2.2
  have hz2 := ((mem_coords a _).1 m5).2.2.1
  have ez0 : z0 = 0 := by simpa using hz0
  have ez1 : z1 = 3 := by simp only at hz1; omega
  have hx := (hb p0 m0).1
  have hy := (hb p1 m1).2.1
  have ink : ∀ p ∈ coords a, Ink a p.1 p.2.1 := fun p hp => by
    obtain ⟨q1, q2, q3, q4⟩ := (mem_coords a p).1 hp
    exact ⟨q1, q2, p.2.2, q3, q4⟩
  refine ⟨_, by rw [hrun, cut, if_pos (by omega)], x0, y0, ?_, ?_, ?_, ?_, ⟨p0.2.1, ?_⟩, ⟨p1.1, ?_⟩, ⟨p3.2.1, ?_⟩, ⟨p4.1, ?_⟩⟩
  · have := ((mem_coords a _).1 m3).1
    simp only
    omega
  · have := ((mem_coords a _).1 m4).2.1
    simp only
    omega
  · intro i j c _ _ _
    simp only [ez0, Nat.zero_add]
  · rintro i j ⟨hi, hj, c, hc, hne⟩
    have := hb (i, j, c) ((mem_coords a _).2 ⟨hi, hj, hc, hne⟩)
    simp only at this ⊢
    omega
  · rw [← e0]; exact ink p0 m0
  · rw [← e1]; exact ink p1 m1
  · have : x0 + (x1 + 1 - x0) - 1 = p3.1 := by omega
    simp only
    rw [this]; exact ink p3 m3
  · have : y0 + (y1 + 1 - y0) - 1 = p4.2.1 := by omega
    simp only
    rw [this]; exact ink p4 m4

/-- One pixel of another colour and another opacity in the middle of a picture. -/
example : ∃ a : Img, a.h = 3 ∧ a.w = 5 ∧ (∃ i j, i < a.h ∧ j < a.w ∧ a.px i j 0 ≠ a.px 0 0 0) ∧ ∃ i j, i < a.h ∧ j < a.w ∧ a.px i j 3 ≠ a.px 0 0 3 :=
  ⟨⟨3, 5, fun i j _ => if i = 1 ∧ j = 2 then 200 else 0⟩, rfl, rfl, ⟨1, 2, by decide, by decide, by decide⟩, ⟨1, 2, by decide, by decide, by decide⟩⟩

/-- A picture of which all pixels are equally opaque, such as every picture on an opaque background, cannot be saved with `tight = True`: the code
cuts the last channel away. -/
theorem C68_opaque_fails (a : Img) (hink : ∃ i j, Ink a i j) (hopaque : ∀ i j, i < a.h → j < a.w → a.px i j 3 = a.px 0 0 3) :
    crop a = .error .valueError := by
  obtain ⟨i, j, h⟩ := hink
  obtain ⟨x0, y0, z0, x1, y1, z1, hrun, -, -, -, -, -, ⟨p5, m5, e5⟩, -⟩ := crop_run a i j h
  obtain ⟨q1, q2, q3, q4⟩ := (mem_coords a _).1 m5
  have hz : z1 ≠ 3 := by
    rintro rfl
    rw [e5] at q4
    exact q4 (hopaque _ _ q1 q2)
  rw [hrun, cut, if_neg (by omega)]

/-- An empty plot, all pixels alike, cannot be saved either. -/
theorem C68_empty_fails (a : Img) (hh : 0 < a.h) (hw : 0 < a.w) (hblank : ∀ i j, ¬ Ink a i j) : crop a = .error .valueError := by
  have hc : coords a = [] := by
    rw [List.eq_nil_iff_forall_not_mem]
    intro p hp
    obtain ⟨q1, q2, q3, q4⟩ := (mem_coords a p).1 hp
    exact hblank _ _ ⟨q1, q2, p.2.2, q3, q4⟩
  rw [crop, if_neg (by omega), hc]
  rfl

end Verif.Props
