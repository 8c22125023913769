import Verif.Model.Colormap
import Mathlib.Algebra.Order.Floor.Ring
import Mathlib.Data.Rat.Floor
import Mathlib.Tactic.Linarith
import Mathlib.Tactic.FieldSimp
import Mathlib.Tactic.Ring
import Mathlib.Tactic.NormNum

/-!
# C116: colour tables and keyword arguments of the Mayavi plots
-/

namespace Verif.Props

open Verif.Py Verif.Model.Colormap

section Grad

variable {K : Type} [Field K] [LinearOrder K] [IsStrictOrderedRing K] [FloorRing K]

/-- The point of the way from `a` to `b` after `i` of `255` steps. -/
def between (a b : K) (i : ℕ) : K := (1 - (i : K) / 255) * a + (i : K) / 255 * b

theorem between_mem {a b : K} (ha : 0 ≤ a ∧ a ≤ 1) (hb : 0 ≤ b ∧ b ≤ 1) {i : ℕ} (hi : i < 256) : 0 ≤ between a b i ∧ between a b i ≤ 1 := by
  have h0 : (0 : K) ≤ (i : K) / 255 := by positivity
  have h1 : (i : K) / 255 ≤ 1 := by
    rw [div_le_one (by norm_num)]
    have : i ≤ 255 := by omega
    exact_mod_cast this
  unfold between
  generalize (i : K) / 255 = t at h0 h1 ⊢
  have p1 := mul_nonneg (sub_nonneg.2 h1) ha.1
  have p2 := mul_nonneg h0 hb.1
  have p3 := mul_nonneg (sub_nonneg.2 h1) (sub_nonneg.2 ha.2)
  have p4 := mul_nonneg h0 (sub_nonneg.2 hb.2)
  constructor <;> linarith

omit [IsStrictOrderedRing K] in
theorem linRow_between (z : Bool) (a b : K) {i : ℕ} (hi : i < 256) :
    linRow 256 z (a * ((255 : ℕ) : K), b * ((255 : ℕ) : K)) i = 255 * between a b i := by
  unfold linRow between
  by_cases h : i + 1 = 256
  · obtain rfl : i = 255 := by omega
    rw [if_pos h]
    norm_num
    ring
  · rw [if_neg h]
    cases z
    · simp only [Bool.false_eq_true, if_false]
      norm_num
      field_simp
      ring
    · simp only [if_true]
      norm_num
      field_simp
      ring

/-- **C116, the table.** Two colours with the same number of channels, all in `[0, 1]`: the table has 256 rows, and entry `k` of row `i` is the integer part of
`255` times the point `i/255` of the way from the first colour to the second. `cast` is the conversion to `uint8`, used only where it is defined. -/
theorem C116_gradient {cast : ℤ → ℕ} (hcast : ∀ n, 0 ≤ n → n ≤ 255 → (cast n : ℤ) = n) {rgba : String → Except Err (List K)} {c1 c2 : Color K}
    {v1 v2 : List K} (h1 : c1.array rgba = .ok v1) (h2 : c2.array rgba = .ok v2) (hl : v1.length = v2.length)
    (hv1 : ∀ x ∈ v1, 0 ≤ x ∧ x ≤ 1) (hv2 : ∀ x ∈ v2, 0 ≤ x ∧ x ≤ 1) :
    ∃ T, gradient Int.floor cast rgba c1 c2 = .ok T ∧ T.length = 256 ∧ ∀ i, (hi : i < T.length) → T[i].length = v1.length ∧
      ∀ k, (hk : k < T[i].length) → (ha : k < v1.length) → (hb : k < v2.length) → (T[i][k] : ℤ) = ⌊255 * between v1[k] v2[k] i⌋ ∧ T[i][k] ≤ 255 := by
  unfold gradient
  simp only [h1, h2, bind, Except.bind, broadcast, List.length_map, hl, if_true, pure, Except.pure]
  refine ⟨_, rfl, by simp, fun i hi => ?_⟩
  simp only [List.length_map, List.length_range] at hi
  refine ⟨by simp [hl], fun k hk ha hb => ?_⟩
  simp only [List.getElem_map, List.getElem_range, List.getElem_zip, linRow_between _ _ _ hi]
  have hm := between_mem (hv1 v1[k] (List.getElem_mem _)) (hv2 v2[k] (List.getElem_mem _)) hi
  have e := hcast ⌊255 * between v1[k] v2[k] i⌋ (Int.floor_nonneg.2 (by linarith [hm.1])) (by
    rw [← Int.lt_add_one_iff, Int.floor_lt]
    push_cast
    linarith [hm.2])
  refine ⟨e, ?_⟩
  have : ⌊255 * between v1[k] v2[k] i⌋ ≤ 255 := by
    rw [← Int.lt_add_one_iff, Int.floor_lt]
    push_cast
    linarith [hm.2]
  omega

/-- **C116, the ends, the error and the direction.** In each channel the first row is the integer part of `255` times the first colour and the last row that of
the second; an entry is below the exact gradient, by less than one step; and the channel rises if the second colour is larger, and falls if it is smaller. -/
theorem C116_shape (a b : K) : ⌊255 * between a b 0⌋ = ⌊255 * a⌋ ∧ ⌊255 * between a b 255⌋ = ⌊255 * b⌋ ∧
    (∀ i, (⌊255 * between a b i⌋ : K) ≤ 255 * between a b i ∧ 255 * between a b i < ⌊255 * between a b i⌋ + 1) ∧
    (a ≤ b → ∀ i j, i ≤ j → ⌊255 * between a b i⌋ ≤ ⌊255 * between a b j⌋) ∧ (b ≤ a → ∀ i j, i ≤ j → ⌊255 * between a b j⌋ ≤ ⌊255 * between a b i⌋) := by
  have e : ∀ i, 255 * between a b i = 255 * a + (i : K) * (b - a) := by
    intro i
    unfold between
    field_simp
    ring
  refine ⟨?_, ?_, fun i => ⟨Int.floor_le _, Int.lt_floor_add_one _⟩, fun h i j hij => Int.floor_le_floor ?_, fun h i j hij => Int.floor_le_floor ?_⟩
  · rw [e]; simp
  · rw [e]; congr 1; push_cast; ring
  · rw [e, e]
    have : (i : K) ≤ j := by exact_mod_cast hij
    nlinarith [mul_le_mul_of_nonneg_right this (sub_nonneg.2 h)]
  · rw [e, e]
    have : (i : K) ≤ j := by exact_mod_cast hij
    nlinarith [mul_le_mul_of_nonneg_right this (sub_nonneg.2 h)]

/-- **C116, the full range.** A channel that goes from `0` to `1` takes each of the values `0, …, 255` once, in order. -/
theorem C116_range (i : ℕ) : ⌊255 * between (0 : K) 1 i⌋ = i := by
  unfold between
  rw [show (255 : K) * ((1 - (i : K) / 255) * 0 + (i : K) / 255 * 1) = (i : K) by field_simp; ring, Int.floor_natCast]

omit [IsStrictOrderedRing K] in
/-- **C116, different numbers of channels.** A colour of three channels and one of four are refused. -/
theorem C116_lengths (cast : ℤ → ℕ) {rgba : String → Except Err (List K)} {c1 c2 : Color K} {v1 v2 : List K} (h1 : c1.array rgba = .ok v1)
    (h2 : c2.array rgba = .ok v2) (hl : v1.length ≠ v2.length) (ha : v1.length ≠ 1) (hb : v2.length ≠ 1) :
    gradient Int.floor cast rgba c1 c2 = .error .valueError := by
  unfold gradient
  simp only [h1, h2, bind, Except.bind, broadcast, List.length_map, hl, if_false]
  rcases v1 with _ | ⟨a, _ | ⟨a', v1⟩⟩ <;> rcases v2 with _ | ⟨b, _ | ⟨b', v2⟩⟩ <;> simp_all

end Grad

section Kwargs

variable {K V : Type}

/-- **C116, the keyword arguments.** The same keys in the same order; every value but that of `color` is unchanged, and so is that of `color` unless it is a
string, which is replaced by its channels. -/
theorem C116_kwargs (rgb : String → Except Err (List K)) (kwargs : List (String × Val K V)) :
    (∀ s e, kwargs.lookup "color" = some (.str s) → rgb s = .error e → processKwargs rgb kwargs = .error e) ∧
    ((∀ s, kwargs.lookup "color" ≠ some (.str s)) → processKwargs rgb kwargs = .ok kwargs) ∧
    (∀ s c, kwargs.lookup "color" = some (.str s) → rgb s = .ok c → ∃ kw, processKwargs rgb kwargs = .ok kw ∧ kw.map Prod.fst = kwargs.map Prod.fst ∧
      kw.lookup "color" = some (.rgb c) ∧ ∀ k, k ≠ "color" → kw.lookup k = kwargs.lookup k) := by
  refine ⟨fun s e h1 h2 => ?_, fun h => ?_, fun s c h1 h2 => ?_⟩
  · simp only [processKwargs, h1, h2]
    rfl
  · unfold processKwargs
    split
    · next s hs => exact absurd hs (h s)
    · rfl
  · simp only [processKwargs, h1, h2]
    refine ⟨_, rfl, ?_, ?_, fun k hk => ?_⟩
    · rw [List.map_map]
      refine List.map_congr_left fun kv _ => ?_
      simp only [Function.comp]
      split <;> rfl
    · clear h2
      induction kwargs with
      | nil => simp at h1
      | cons kv l ih =>
        rcases kv with ⟨k, v⟩
        by_cases hk : k = "color"
        · subst hk; simp
        · have hk' : ("color" == k) = false := by simpa using fun h => hk h.symm
          simp only [List.map_cons, hk, if_false, List.lookup_cons, hk'] at h1 ⊢
          exact ih h1
    · clear h1 h2
      induction kwargs with
      | nil => rfl
      | cons kv l ih =>
        rcases kv with ⟨k', v⟩
        by_cases hk' : k' = "color"
        · have : (k == k') = false := by subst hk'; simpa using hk
          simp only [List.map_cons, hk', if_true, List.lookup_cons] at ih ⊢
          subst hk'
          simp only [this]
          exact ih
        · simp only [List.map_cons, hk', if_false, List.lookup_cons, ih]

/-- **C116, the calls.** The function of `mlab` gets the positional arguments, the figure of the object, and the processed keyword arguments; a `figure` of
the user is refused. -/
theorem C116_calls {A : Type} (rgb : String → Except Err (List K)) (fig : V) (args : A) {kwargs kw : List (String × Val K V)}
    (h : processKwargs rgb kwargs = .ok kw) :
    (kwargs.lookup "figure" = none → ∃ kw', callArgs rgb fig args kwargs = .ok (args, kw') ∧ kw'.lookup "figure" = some (.other fig) ∧
      ∀ k, k ≠ "figure" → kw'.lookup k = kw.lookup k) ∧
    (kwargs.lookup "figure" ≠ none → callArgs rgb fig args kwargs = .error .typeError) := by
  have hf : kw.lookup "figure" = kwargs.lookup "figure" := by
    obtain ⟨h1, h2, h3⟩ := C116_kwargs rgb kwargs
    by_cases hs : ∃ s, kwargs.lookup "color" = some (.str s)
    · obtain ⟨s, hs⟩ := hs
      cases hr : rgb s with
      | error e => rw [h1 s e hs hr] at h; cases h
      | ok c =>
        obtain ⟨kw', e1, _, _, e2⟩ := h3 s c hs hr
        rw [e1] at h
        cases h
        exact e2 "figure" (by decide)
    · rw [h2 (by simpa using hs)] at h
      cases h
      rfl
  refine ⟨fun hn => ?_, fun hn => ?_⟩
  · simp only [callArgs, h, bind, Except.bind, hf, hn, Option.isSome_none, Bool.false_eq_true, if_false]
    refine ⟨_, rfl, by simp, fun k hk => ?_⟩
    have : (k == "figure") = false := by simpa using hk
    simp only [List.lookup_cons, this]
  · simp only [callArgs, h, bind, Except.bind, hf, Option.isSome_iff_ne_none.2 hn, if_true]

end Kwargs

/-! ## Cases -/

/-- From black to a half transparent orange. -/
example : ∃ T, gradient (K := ℚ) Int.floor Int.toNat (fun _ => .error .valueError) (.chans [0, 0, 0, 1]) (.chans [1, 1 / 2, 0, 1 / 2]) = .ok T ∧
    T.length = 256 := by
  obtain ⟨T, h1, h2, _⟩ := C116_gradient (K := ℚ) (cast := Int.toNat) (fun n h _ => Int.toNat_of_nonneg h) (rgba := fun _ => .error .valueError)
    (c1 := .chans [0, 0, 0, 1]) (c2 := .chans [1, 1 / 2, 0, 1 / 2]) rfl rfl rfl (by norm_num) (by norm_num)
  exact ⟨T, h1, h2⟩

example : ⌊255 * between (0 : ℚ) (1 / 2) 255⌋ = 127 := by norm_num [between]

example : gradient (K := ℚ) Int.floor Int.toNat (fun _ => .ok [1, 0, 0, 1]) (.name "red") (.chans [0, 0, 1]) = .error .valueError :=
  C116_lengths _ rfl rfl (by decide) (by decide) (by decide)

example : processKwargs (K := ℚ) (V := ℕ) (fun _ => .ok [1, 0, 0]) [("line_width", .other 3), ("color", .str "r")] =
    .ok [("line_width", .other 3), ("color", .rgb [1, 0, 0])] := by
  simp [processKwargs, List.lookup]

end Verif.Props
