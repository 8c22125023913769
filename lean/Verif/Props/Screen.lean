import Verif.Model.Screen
import Mathlib.Tactic.Linarith
import Mathlib.Tactic.FieldSimp
import Mathlib.Tactic.NormNum
import Mathlib.Tactic.Positivity

/-! # C124: the size of a figure is the one asked for -/

namespace Verif.Spec

/-- A row of `n` pixels on a screen of `px` pixels and `mm` millimetres fits into the length `len` (in millimetres), and one more pixel does not. -/
def FillsLength (px mm : ℕ) (len : ℚ) (n : ℤ) : Prop := (n : ℚ) * ((mm : ℚ) / px) ≤ len ∧ len < ((n : ℚ) + 1) * ((mm : ℚ) / px)

end Verif.Spec

namespace Verif.Props

open Verif.Py Verif.Model.Screen Verif.Spec

/-- **C124** (matplotlib). `FullScreen` makes the figure as many pixels wide and high as the screen, whatever its resolution, and `PartScreen` makes
it as many inches wide and high as asked; neither changes the resolution. -/
theorem C124_matplotlib (s : Display) (f : MplFig) (hd : 0 < f.dpi) (w h : ℚ) (hw : 0 ≤ w) (hh : 0 ≤ h) :
    (∃ g, mplFullScreen s f = .ok g ∧ g.w * g.dpi = s.pxW ∧ g.h * g.dpi = s.pxH ∧ g.dpi = f.dpi) ∧
    ∃ g, mplPartScreen f w h = .ok g ∧ g.w = w ∧ g.h = h ∧ g.dpi = f.dpi := by
  refine ⟨⟨{ f with w := s.pxW / f.dpi, h := s.pxH / f.dpi }, ?_, ?_, ?_, rfl⟩, ⟨{ f with w := w, h := h }, ?_, rfl, rfl, rfl⟩⟩
  · rw [mplFullScreen, if_neg hd.ne', MplFig.setSizeInches, if_pos ⟨by positivity, by positivity⟩]
  · exact div_mul_cancel₀ _ hd.ne'
  · exact div_mul_cancel₀ _ hd.ne'
  · rw [mplPartScreen, MplFig.setSizeInches, if_pos ⟨hw, hh⟩]

/-- A figure of 6.4 by 4.8 inches at 100 dots per inch, on a screen of 1920 by 1080 pixels: 19.2 by 10.8 inches. -/
example : ∃ g, mplFullScreen ⟨1920, 1080, 508, 286⟩ ⟨100, 6.4, 4.8⟩ = .ok g ∧ g.w = 19.2 ∧ g.h = 10.8 := by
  refine ⟨⟨100, 1920 / 100, 1080 / 100⟩, ?_, by norm_num, by norm_num⟩
  norm_num [mplFullScreen, MplFig.setSizeInches]

theorem toInt_fills {px mm : ℕ} (hp : 0 < px) (hm : 0 < mm) (len : ℚ) (h0 : 0 ≤ len) :
    FillsLength px mm len (toInt (len * ((px : ℚ) / mm))) := by
  have hp' : (0 : ℚ) < px := by exact_mod_cast hp
  have hm' : (0 : ℚ) < mm := by exact_mod_cast hm
  have h1 : (0 : ℚ) ≤ len * (px / mm) := by positivity
  rw [toInt, if_pos h1]
  have h2 := Int.floor_le (len * ((px : ℚ) / mm))
  have h3 := Int.lt_floor_add_one (len * ((px : ℚ) / mm))
  have h4 : len * ((px : ℚ) / mm) * ((mm : ℚ) / px) = len := by field_simp
  have h5 : (0 : ℚ) < (mm : ℚ) / px := by positivity
  have h6 := mul_le_mul_of_nonneg_right h2 h5.le
  have h7 := mul_lt_mul_of_pos_right h3 h5
  rw [h4] at h6 h7
  exact ⟨h6, h7⟩

theorem convert_in (px mm : ℕ) (x : ℚ) : x * convert ['i', 'n'] px mm = (x * 25.4) * ((px : ℚ) / mm) := by
  rw [convert, if_pos rfl, div_div_eq_mul_div]
  ring

/-- **C124** (the Plotly `PartScreen`). With lengths in inches or in millimetres, the call succeeds exactly when the figure would be at least ten
pixels wide and high, and then it has the largest numbers of pixels that fit into these lengths on this screen; with pixels it has the size given. -/
theorem C124_plotly_partial (s : Display) (hs : 0 < s.pxW ∧ 0 < s.pxH ∧ 0 < s.mmW ∧ 0 < s.mmH) (w h : ℚ) (hw : 0 ≤ w) (hh : 0 ≤ h)
    (units : List Char) (perUnit : ℚ) (hu : units = ['i', 'n'] ∧ perUnit = 25.4 ∨ units = ['m', 'm'] ∧ perUnit = 1) :
    (∃ m n : ℤ, FillsLength s.pxW s.mmW (w * perUnit) m ∧ FillsLength s.pxH s.mmH (h * perUnit) n ∧
      plotlyPartScreen s w h units = if 10 ≤ m ∧ 10 ≤ n then .ok (m, n) else .error .valueError) ∧
    plotlyPartScreen s w h ['p', 'x'] = if 10 ≤ w ∧ 10 ≤ h then .ok (w, h) else .error .valueError := by
  obtain ⟨p1, p2, p3, p4⟩ := hs
  constructor
  · refine ⟨toInt (w * perUnit * (s.pxW / s.mmW)), toInt (h * perUnit * (s.pxH / s.mmH)), ?_, ?_, ?_⟩
    · exact toInt_fills p1 p3 _ (by rcases hu with ⟨-, rfl⟩ | ⟨-, rfl⟩ <;> positivity)
    · exact toInt_fills p2 p4 _ (by rcases hu with ⟨-, rfl⟩ | ⟨-, rfl⟩ <;> positivity)
    · have key : ∀ m n : ℤ, setLayout (m : ℚ) (n : ℚ) = if 10 ≤ m ∧ 10 ≤ n then .ok ((m : ℚ), (n : ℚ)) else .error .valueError := by
        intro m n
        have : ((10 : ℚ) ≤ m ∧ (10 : ℚ) ≤ n) ↔ (10 ≤ m ∧ 10 ≤ n) := by
          constructor <;> rintro ⟨a, b⟩ <;> exact ⟨by exact_mod_cast a, by exact_mod_cast b⟩
        simp only [setLayout, this]
      rcases hu with ⟨rfl, rfl⟩ | ⟨rfl, rfl⟩
      · rw [plotlyPartScreen, if_pos (by decide), if_neg (by omega), convert_in, convert_in, key]
      · rw [plotlyPartScreen, if_pos (by decide), if_neg (by omega), key]
        simp only [convert, mul_one]
        rfl
  · rw [plotlyPartScreen, if_neg (by decide), setLayout]

/-- Eight by seven inches, as in the examples of the dissertation, on a screen of 1920 by 1080 pixels and 480 by 270 millimetres: 812 by 711 pixels. -/
example : plotlyPartScreen ⟨1920, 1080, 480, 270⟩ 8 7 ['i', 'n'] = .ok (812, 711) := by
  have h1 : ⌊(812.8 : ℚ)⌋ = 812 := by norm_num [Int.floor_eq_iff]
  have h2 : ⌊(711.2 : ℚ)⌋ = 711 := by norm_num [Int.floor_eq_iff]
  have e1 : (8 : ℚ) * convert ['i', 'n'] 1920 480 = 812.8 := by norm_num [convert]
  have e2 : (7 : ℚ) * convert ['i', 'n'] 1080 270 = 711.2 := by norm_num [convert]
  simp only [plotlyPartScreen, e1, e2, toInt]
  rw [if_pos (by decide)]
  norm_num [h1, h2, setLayout]

/-- **C124** (the Plotly `FullScreen`). It is `PartScreen` with the size of the screen, in any of the three units. -/
theorem C124_plotly_full (s : Display) (hs : 0 < s.pxW ∧ 0 < s.pxH ∧ 0 < s.mmW ∧ 0 < s.mmH) :
    plotlyFullScreen s = plotlyPartScreen s s.pxW s.pxH ['p', 'x'] ∧ plotlyFullScreen s = plotlyPartScreen s s.mmW s.mmH ['m', 'm'] ∧
    plotlyFullScreen s = plotlyPartScreen s (s.mmW / 25.4) (s.mmH / 25.4) ['i', 'n'] ∧
    (10 ≤ s.pxW → 10 ≤ s.pxH → plotlyFullScreen s = .ok (s.pxW, s.pxH)) := by
  obtain ⟨p1, p2, p3, p4⟩ := hs
  have q3 : (s.mmW : ℚ) ≠ 0 := by exact_mod_cast p3.ne'
  have q4 : (s.mmH : ℚ) ≠ 0 := by exact_mod_cast p4.ne'
  have ti : ∀ n : ℕ, ((toInt (n : ℚ) : ℤ) : ℚ) = n := by
    intro n
    rw [toInt, if_pos (Nat.cast_nonneg n), Int.floor_natCast]
    simp
  refine ⟨?_, ?_, ?_, ?_⟩
  · rw [plotlyPartScreen, if_neg (by decide), plotlyFullScreen]
  · rw [plotlyPartScreen, if_pos (by decide), if_neg (by omega), plotlyFullScreen]
    simp only [convert]
    rw [if_neg (by decide), if_neg (by decide), mul_div_cancel₀ _ q3, mul_div_cancel₀ _ q4, ti, ti]
  · rw [plotlyPartScreen, if_pos (by decide), if_neg (by omega), plotlyFullScreen, convert_in, convert_in,
      div_mul_cancel₀ _ (by norm_num), div_mul_cancel₀ _ (by norm_num), mul_div_cancel₀ _ q3, mul_div_cancel₀ _ q4, ti, ti]
  · intro a b
    rw [plotlyFullScreen, setLayout, if_pos ⟨by exact_mod_cast a, by exact_mod_cast b⟩]

/-- A unit that `PartScreen` does not know is not rejected: the lengths are taken as millimetres. Ten centimetres become ten millimetres. -/
theorem C124_units_fails (s : Display) (w h : ℚ) (units : List Char) (h1 : units ≠ ['p', 'x']) (h2 : units ≠ ['i', 'n']) :
    plotlyPartScreen s w h units = plotlyPartScreen s w h ['m', 'm'] := by
  simp [plotlyPartScreen, h1, convert, h2]

/-- Centimetres are such a unit. -/
example : (['c', 'm'] : List Char) ≠ ['p', 'x'] ∧ (['c', 'm'] : List Char) ≠ ['i', 'n'] := by decide

/-- The Mayavi class does not do what it says: `PartScreen` leaves the scene as it was, for every size, and `FullScreen` always fails. -/
theorem C124_mayavi_fails (s : Display) (f : Scene) (w h : ℚ) :
    mayaviPartScreen f w h = .ok f ∧ mayaviFullScreen s f = .error .attributeError := ⟨rfl, rfl⟩

end Verif.Props
