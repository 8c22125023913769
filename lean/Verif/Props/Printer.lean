import Verif.Model.Printer
import Verif.Spec.Printer
import Mathlib.Algebra.BigOperators.Group.List.Basic
import Mathlib.Data.List.Chain
import Mathlib.Tactic.Ring

/-!
# C49, C50: the tfc printer

Python: /repo/src/tfc/utils/CeSolver.py 439–497.
-/

namespace Verif.Props

open Verif.Py Verif.Spec Verif.Model.Printer

/-! ### Derivatives -/

theorem natStr_digit {n : ℕ} {c : Char} (h : c ∈ natStr n) : c ≠ '(' ∧ c ≠ ')' := by
  have := Nat.isDigit_of_mem_toDigits (b := 10) (by decide) (by decide) h
  constructor <;> rintro rfl <;> simp at this

/-- The text has no round brackets. -/
def NoParen (s : List Char) : Prop := ∀ c ∈ s, c ≠ '(' ∧ c ≠ ')'

theorem parenDepth_cons {c : Char} (hc : c ≠ '(' ∧ c ≠ ')') (t : List Char) (d : ℕ) : parenDepth (c :: t) d = parenDepth t d := by
  rw [parenDepth]
  · exact hc.1
  · intro _ h
    exact hc.2 ‹_›
  · intro _ _ h
    exact hc.2 ‹_›

theorem parenDepth_noParen {s : List Char} (h : NoParen s) (t : List Char) (d : ℕ) : parenDepth (s ++ t) d = parenDepth t d := by
  induction s with
  | nil => rfl
  | cons c s ih =>
    have hc := h c (by simp)
    rw [List.cons_append, parenDepth_cons hc, ih fun x hx => h x (by simp [hx])]

theorem parenDepth_opening {name : List Char} (h : NoParen name) (p : ℕ) (t : List Char) (d : ℕ) :
    parenDepth (['e', 'g', 'r', 'a', 'd', '('] ++ name ++ [','] ++ natStr p ++ t) d = parenDepth t (d + 1) := by
  have h1 : parenDepth (['e', 'g', 'r', 'a', 'd', '('] ++ (name ++ ([','] ++ (natStr p ++ t)))) d = parenDepth (name ++ ([','] ++ (natStr p ++ t))) (d + 1) := by
    rw [List.cons_append, List.cons_append, List.cons_append, List.cons_append, List.cons_append, List.cons_append, List.nil_append,
      parenDepth_cons (by decide), parenDepth_cons (by decide), parenDepth_cons (by decide), parenDepth_cons (by decide),
      parenDepth_cons (by decide), parenDepth]
  simp only [List.append_assoc]
  rw [h1, parenDepth_noParen h]
  rw [List.cons_append, List.nil_append, parenDepth_cons (by decide), parenDepth_noParen fun c hc => natStr_digit hc]

theorem parenDepth_openings {o : List (List Char)} {name : List Char} (h : NoParen name)
    (ho : ∀ x ∈ o, ∃ p, x = ['e', 'g', 'r', 'a', 'd', '('] ++ name ++ [','] ++ natStr p) (t : List Char) (d : ℕ) :
    parenDepth (o.flatten ++ t) d = parenDepth t (d + o.length) := by
  induction o generalizing d with
  | nil => rfl
  | cons x o ih =>
    obtain ⟨p, rfl⟩ := ho x (by simp)
    rw [List.flatten_cons, List.append_assoc, parenDepth_opening h, ih fun y hy => ho y (by simp [hy])]
    congr 1
    simp only [List.length_cons]
    omega

theorem parenDepth_closings (k : ℕ) (t : List Char) (d : ℕ) :
    parenDepth ((List.replicate k [')']).flatten ++ t) (d + k) = parenDepth t d := by
  induction k with
  | zero => rfl
  | succ k ih =>
    rw [List.replicate_succ, List.flatten_cons, List.append_assoc]
    rw [List.cons_append, List.nil_append, ← Nat.add_assoc, parenDepth, ih]

theorem positions_ok (args : List (List Char)) (vars : List (List Char × ℕ)) (h : ∀ v ∈ vars, v.1 ∈ args) :
    positions args vars = .ok (vars.map fun v => (args.idxOf v.1, v.2)) := by
  induction vars with
  | nil => rfl
  | cons v vars ih =>
    obtain ⟨v, k⟩ := v
    unfold positions
    rw [if_pos (h (v, k) (by simp)), ih fun w hw => h w (by simp [hw])]
    rfl

theorem openings_form (name : List Char) (pos : List (ℕ × ℕ)) :
    ∀ x ∈ openings name pos, ∃ p, x = ['e', 'g', 'r', 'a', 'd', '('] ++ name ++ [','] ++ natStr p := by
  intro x hx
  obtain ⟨pv, -, hx⟩ := List.mem_flatMap.1 hx
  exact ⟨pv.1, List.eq_of_mem_replicate hx⟩

theorem openings_length (name : List Char) (pos : List (ℕ × ℕ)) : (openings name pos).length = (pos.map Prod.snd).sum := by
  simp [openings, List.length_flatMap]

/-- **C49**, what holds for every function name, argument list and multi-order: the text has balanced brackets, begins with one `egrad` call for each differentiation, in order, and then closes them all. -/
theorem C49_balanced (name : List Char) (args : List (List Char)) (vars : List (List Char × ℕ)) (hn : NoParen name)
    (hv : ∀ v ∈ vars, v.1 ∈ args ∧ NoParen v.1) :
    ∃ (t : List Char) (o : List ℕ), printDerivative name args vars = .ok t ∧ Balanced t ∧ o.length = (vars.map Prod.snd).sum ∧
      (o.map fun p => ['e', 'g', 'r', 'a', 'd', '('] ++ name ++ [','] ++ natStr p).flatten ++ List.replicate o.length ')' <+: t := by
  have hpos := positions_ok args vars fun v hv' => (hv v hv').1
  unfold printDerivative
  rw [hpos]
  refine ⟨_, (vars.map fun v => (args.idxOf v.1, v.2)).flatMap fun pv => List.replicate pv.2 pv.1, rfl, ?_, ?_, ?_⟩
  · unfold Balanced
    simp only [List.append_assoc]
    rw [parenDepth_openings hn (openings_form name _), parenDepth_closings]
    rw [List.cons_append, List.nil_append, parenDepth, parenDepth_noParen]
    · rfl
    · intro c hc
      obtain ⟨s, hs, hc⟩ := List.mem_flatten.1 hc
      obtain ⟨v, hv', rfl⟩ := List.mem_map.1 hs
      exact (hv v hv').2 c hc
  · simp [List.length_flatMap]
    rfl
  · have h1 : (((vars.map fun v => (args.idxOf v.1, v.2)).flatMap fun pv => List.replicate pv.2 pv.1).map
        fun p => ['e', 'g', 'r', 'a', 'd', '('] ++ name ++ [','] ++ natStr p) = openings name (vars.map fun v => (args.idxOf v.1, v.2)) := by
      unfold openings
      rw [List.map_flatMap]
      congr 1
      funext pv
      rw [List.map_replicate]
    rw [h1]
    have h2 : ((vars.map fun v => (args.idxOf v.1, v.2)).flatMap fun pv => List.replicate pv.2 pv.1).length =
        (openings name (vars.map fun v => (args.idxOf v.1, v.2))).length := by
      rw [← h1, List.length_map]
    rw [h2]
    have h3 : ∀ k, (List.replicate k [')']).flatten = List.replicate k ')' := by
      intro k
      change (List.replicate k [')']).flatten = _
      simp
    simp only [h3]
    exact ⟨_, by simp only [List.append_assoc]; rfl⟩

/-- **C49**, partly: the first derivative of a function of one variable is printed as one `egrad` call applied to the argument. Missing: higher orders and several arguments, see `C49_order_fails` and `C49_args_fails`. -/
theorem C49_partial (name x : List Char) :
    printDerivative name [x] [(x, 1)] = .ok (nestText name natStr [0] ++ ['('] ++ commaText [x] ++ [')']) := by
  unfold printDerivative
  rw [positions_ok _ _ (by simp)]
  simp [Except.map, openings, nestText, commaText]

theorem nestText_length (name : List Char) (k : ℕ) : (nestText name natStr (List.replicate k 0)).length = name.length + k * 9 := by
  induction k with
  | zero => simp [nestText]
  | succ k ih =>
    rw [List.replicate_succ, nestText]
    simp only [List.length_append, ih]
    simp [natStr]
    ring

/-- The claim fails for every derivative of order two or more of a function of one variable: the text is not the nest of `egrad` calls applied to the argument. -/
theorem C49_order_fails (name x : List Char) (hn : name ≠ []) (k : ℕ) (hk : 2 ≤ k) :
    ∃ t, printDerivative name [x] [(x, k)] = .ok t ∧
      t ≠ nestText name natStr (List.replicate k 0) ++ ['('] ++ commaText [x] ++ [')'] := by
  unfold printDerivative
  rw [positions_ok _ _ (by simp)]
  refine ⟨_, rfl, ?_⟩
  intro h
  have h2 := congrArg List.length h
  have hpos := List.length_pos_iff.2 hn
  simp [openings, nestText_length, commaText, natStr, List.length_flatten] at h2
  obtain ⟨m, rfl⟩ : ∃ m, k = m + 2 := ⟨k - 2, by omega⟩
  have h3 : (m + 2) * (name.length + 8) = m * name.length + 2 * name.length + 8 * m + 16 := by ring
  have h4 : m * name.length ≥ 0 := Nat.zero_le _
  rw [show name.length + 1 + 1 + 6 = name.length + 8 by omega] at h2
  omega

/-- The claim fails for every first derivative of a function of two or more arguments: the text is applied to the variable only. -/
theorem C49_args_fails (name : List Char) (args : List (List Char)) (v : List Char) (hv : v ∈ args) (ha : 2 ≤ args.length) :
    printDerivative name args [(v, 1)] = .ok (nestText name natStr [args.idxOf v] ++ ['('] ++ v ++ [')']) ∧
      nestText name natStr [args.idxOf v] ++ ['('] ++ v ++ [')'] ≠
        nestText name natStr [args.idxOf v] ++ ['('] ++ commaText args ++ [')'] := by
  constructor
  · unfold printDerivative
    rw [positions_ok _ _ (by simpa using hv)]
    simp [Except.map, openings, nestText]
  · intro h
    have h2 := congrArg List.length h
    simp only [List.length_append] at h2
    have key : ∀ l : List (List Char), v ∈ l → v.length + (l.length - 1) ≤ (commaText l).length := by
      intro l
      induction l with
      | nil => simp
      | cons a l ih =>
        intro hm
        cases l with
        | nil =>
          have : v = a := by simpa using hm
          subst this
          simp [commaText]
        | cons b l =>
          rw [commaText]
          · simp only [List.length_append]
            have hlen : ∀ l : List (List Char), l.length - 1 ≤ (commaText l).length := by
              intro l
              induction l with
              | nil => simp
              | cons a l ih =>
                cases l with
                | nil => simp
                | cons b l =>
                  rw [commaText]
                  · simp only [List.length_append, List.length_cons] at ih ⊢
                    have : [','].length = 1 := rfl
                    omega
                  · simp
            have h1 : [','].length = 1 := rfl
            rcases List.mem_cons.1 hm with rfl | hm
            · have := hlen (b :: l)
              simp only [List.length_cons] at this ⊢
              omega
            · have := ih hm
              simp only [List.length_cons] at this ⊢
              omega
          · simp
    have := key args hv
    omega

/-! ### Substitutions -/

theorem replace_nil (old new : List Char) : replace old new [] = [] := by
  rw [replace]
  split
  · rename_i h
    exact absurd (List.prefix_nil.1 h.2) h.1
  · rfl

theorem replace_hit {old : List Char} (h : old ≠ []) (new s : List Char) : replace old new (old ++ s) = new ++ replace old new s := by
  rw [replace, dif_pos ⟨h, List.prefix_append old s⟩, List.drop_left]

theorem replace_miss {old : List Char} (new : List Char) {c : Char} {s : List Char} (h : ¬ old <+: c :: s) :
    replace old new (c :: s) = c :: replace old new s := by
  rw [replace, dif_neg fun hc => h hc.2]

/-- A name: a non-empty text of name characters. -/
def IsName (s : List Char) : Prop := s ≠ [] ∧ ∀ c ∈ s, nameChar c = true

theorem replace_other {x : List Char} (hx : IsName x) (v : List Char) {s : List Char} (hs : ∀ c ∈ s, nameChar c = false) (r : List Char) :
    replace x v (s ++ r) = s ++ replace x v r := by
  induction s with
  | nil => rfl
  | cons c s ih =>
    rw [List.cons_append, replace_miss, ih fun c hc => hs c (by simp [hc])]
    · rfl
    · intro hp
      obtain ⟨a, x', rfl⟩ := List.exists_cons_of_ne_nil hx.1
      have h1 := (List.cons_prefix_cons.1 hp).1
      have h2 := hx.2 a (by simp)
      rw [h1, hs c (by simp)] at h2
      cases h2

/-- The text does not begin with a name character. -/
def Stops (r : List Char) : Prop := ∀ c r', r = c :: r' → nameChar c = false

theorem prefix_of_stops {x u r : List Char} (hx : ∀ c ∈ x, nameChar c = true) (hr : Stops r) (h : x <+: u ++ r) : x <+: u := by
  by_cases hl : x.length ≤ u.length
  · exact List.prefix_of_prefix_length_le h (List.prefix_append u r) hl
  · have h1 : u <+: x := List.prefix_of_prefix_length_le (List.prefix_append u r) h (by omega)
    obtain ⟨t, rfl⟩ := h1
    obtain ⟨w, hw⟩ := h
    rw [List.append_assoc] at hw
    have hw := List.append_cancel_left hw
    cases t with
    | nil => simp at hl
    | cons c t =>
      have h2 := hr c (t ++ w) (by rw [← hw]; rfl)
      have h3 := hx c (by simp)
      rw [h2] at h3
      cases h3

theorem replace_name {x : List Char} (hx : IsName x) (v : List Char) {u r : List Char} (hr : Stops r) (hu : ¬ x <:+: u) :
    replace x v (u ++ r) = u ++ replace x v r := by
  induction u with
  | nil => rfl
  | cons c u ih =>
    rw [List.cons_append, replace_miss, ih]
    · rfl
    · intro h
      exact hu (h.trans (List.suffix_cons c u).isInfix)
    · intro hp
      exact hu (prefix_of_stops hx.2 hr (u := c :: u) hp).isInfix

theorem stops_of_separated {s : List Char} {l : List Token} (h : Separated (.name s :: l)) (hl : ∀ t ∈ l, t.Ok) : Stops (textOf l) := by
  intro c r' hr
  cases l with
  | nil => simp [textOf] at hr
  | cons t l =>
    have h1 := (List.isChain_cons_cons.1 h).1
    cases t with
    | name s' => simp [Token.isName] at h1
    | other s' =>
      have h2 := hl (.other s') (by simp)
      obtain ⟨a, s'', rfl⟩ := List.exists_cons_of_ne_nil h2.1
      have h3 : a = c := by
        simp [textOf, Token.text] at hr
        exact hr.1
      subst h3
      exact h2.2 a (by simp)

/-- One replacement. -/
theorem replace_tokens {x : List Char} (hx : IsName x) (v : List Char) (l : List Token) (hl : ∀ t ∈ l, t.Ok) (hs : Separated l)
    (hno : ∀ s, Token.name s ∈ l → s ≠ x → ¬ x <:+: s) :
    replace x v (textOf l) = textOf (l.map (substToken [(x, v)])) := by
  induction l with
  | nil => exact replace_nil x v
  | cons t l ih =>
    have hl' : ∀ t ∈ l, t.Ok := fun t ht => hl t (by simp [ht])
    have hs' : Separated l := (List.IsChain.tail hs : Separated l)
    have ih := ih hl' hs' fun s hm => hno s (by simp [hm])
    have h0 : textOf (t :: l) = t.text ++ textOf l := rfl
    have h1 : textOf ((t :: l).map (substToken [(x, v)])) = (substToken [(x, v)] t).text ++ textOf (l.map (substToken [(x, v)])) := rfl
    rw [h0, h1, ← ih]
    cases t with
    | other s =>
      exact replace_other hx v (hl (.other s) (by simp)).2 _
    | name s =>
      by_cases hsx : s = x
      · subst hsx
        rw [Token.text, replace_hit hx.1]
        simp [substToken, Token.text]
      · have hst := stops_of_separated hs hl'
        rw [Token.text, replace_name hx v hst (hno s (by simp) hsx)]
        have : x ≠ s := fun h => hsx h.symm
        simp [substToken, Token.text, this]

theorem substToken_isName (subs : List (List Char × List Char)) (t : Token) : (substToken subs t).isName = t.isName := by
  cases t <;> rfl

theorem separated_subst (subs : List (List Char × List Char)) {l : List Token} (h : Separated l) : Separated (l.map (substToken subs)) := by
  unfold Separated at h ⊢
  rw [List.isChain_map]
  refine h.imp ?_
  intro a b hab
  rw [substToken_isName, substToken_isName]
  exact hab

/-- **C50**, partly: for an expression text made of names and other pieces, and substitutions of names by names or numbers, where no name of the text and no value contains a substituted variable unless it is that variable: the printed text is the text with the simultaneous substitution of whole names. Missing: see `C50_name_fails`, `C50_order_fails`, `C50_precedence_fails`. -/
theorem C50_partial (l : List Token) (subs : List (List Char × List Char)) (hl : ∀ t ∈ l, t.Ok) (hs : Separated l)
    (hsubs : ∀ p ∈ subs, IsName p.1 ∧ IsName p.2)
    (hno : ∀ p ∈ subs, ∀ s, Token.name s ∈ l → s ≠ p.1 → ¬ p.1 <:+: s)
    (hval : ∀ p ∈ subs, ∀ q ∈ subs, ¬ p.1 <:+: q.2) :
    printSubs (textOf l) subs = textOf (l.map (substToken subs)) := by
  induction subs generalizing l with
  | nil =>
    have : l.map (substToken []) = l := by
      refine (List.map_congr_left fun t _ => ?_).trans (List.map_id l)
      cases t <;> rfl
    rw [this]
    rfl
  | cons p subs ih =>
    obtain ⟨x, v⟩ := p
    have hxv := hsubs (x, v) (by simp)
    have h1 : printSubs (textOf l) ((x, v) :: subs) = printSubs (replace x v (textOf l)) subs := rfl
    rw [h1, replace_tokens hxv.1 v l hl hs (hno (x, v) (by simp)), ih]
    · rw [List.map_map]
      congr 1
      refine List.map_congr_left fun t ht => ?_
      cases t with
      | other s => rfl
      | name s =>
        simp only [Function.comp, substToken]
        by_cases hsx : x = s
        · subst hsx
          have hnone : subs.find? (fun p => decide (p.1 = v)) = none := by
            rw [List.find?_eq_none]
            intro q hq hc
            have hqv : q.1 = v := by simpa using hc
            refine hval q (by simp [hq]) (x, v) (by simp) ?_
            rw [hqv]
          simp [hnone]
        · simp [hsx]
    · intro t ht
      obtain ⟨t', ht', rfl⟩ := List.mem_map.1 ht
      cases t' with
      | other s => exact hl _ ht'
      | name s =>
        by_cases hsx : x = s
        · subst hsx
          simpa [substToken, Token.Ok] using (show v ≠ [] ∧ _ from hxv.2)
        · simpa [substToken, hsx] using hl _ ht'
    · exact separated_subst _ hs
    · exact fun p hp => hsubs p (by simp [hp])
    · intro p hp s hm hne
      obtain ⟨t', ht', hts⟩ := List.mem_map.1 hm
      cases t' with
      | other s => cases hts
      | name s' =>
        by_cases hsx : x = s'
        · subst hsx
          have : v = s := by simpa [substToken] using hts
          subst this
          exact hval p (by simp [hp]) (x, v) (by simp)
        · have : s' = s := by simpa [substToken, hsx] using hts
          subst this
          exact hno p (by simp [hp]) s' ht' hne
    · exact fun p hp q hq => hval p (by simp [hp]) q (by simp [hq])

/-- The claim fails inside names: substituting 0 for `x` in `exp(x)` prints `e0p(0)`. -/
theorem C50_name_fails : ∃ (l : List Token) (x v : List Char), (∀ t ∈ l, t.Ok) ∧ Separated l ∧ IsName x ∧ IsName v ∧
    printSubs (textOf l) [(x, v)] ≠ textOf (l.map (substToken [(x, v)])) := by
  refine ⟨[.name ['e', 'x', 'p'], .other ['('], .name ['x'], .other [')']], ['x'], ['0'], ?_, ?_, ?_, ?_, ?_⟩
  · intro t ht
    simp only [List.mem_cons, List.not_mem_nil, or_false] at ht
    rcases ht with rfl | rfl | rfl | rfl <;> simp [Token.Ok] <;> decide
  · simp [Separated, Token.isName]
  · exact ⟨by simp, by decide⟩
  · exact ⟨by simp, by decide⟩
  · have h : textOf [.name ['e', 'x', 'p'], .other ['('], .name ['x'], .other [')']] = ['e', 'x', 'p', '(', 'x', ')'] := rfl
    have h2 : printSubs ['e', 'x', 'p', '(', 'x', ')'] [(['x'], ['0'])] = ['e', '0', 'p', '(', '0', ')'] := by
      change replace ['x'] ['0'] ['e', 'x', 'p', '(', 'x', ')'] = _
      rw [replace_miss _ (by decide), show ['x', 'p', '(', 'x', ')'] = ['x'] ++ ['p', '(', 'x', ')'] from rfl, replace_hit (by simp),
        replace_miss _ (by decide), replace_miss _ (by decide), show ['x', ')'] = ['x'] ++ [')'] from rfl, replace_hit (by simp),
        replace_miss _ (by decide), replace_nil]
      rfl
    rw [h, h2]
    decide

/-- The claim fails for simultaneous substitutions: exchanging `x` and `y` in `g(x,y)` prints `g(x,x)`. -/
theorem C50_order_fails : ∃ (l : List Token) (subs : List (List Char × List Char)), (∀ t ∈ l, t.Ok) ∧ Separated l ∧
    (∀ p ∈ subs, IsName p.1 ∧ IsName p.2) ∧ (∀ p ∈ subs, ∀ s, Token.name s ∈ l → s ≠ p.1 → ¬ p.1 <:+: s) ∧
    printSubs (textOf l) subs ≠ textOf (l.map (substToken subs)) := by
  refine ⟨[.name ['g'], .other ['('], .name ['x'], .other [','], .name ['y'], .other [')']], [(['x'], ['y']), (['y'], ['x'])],
    ?_, ?_, ?_, ?_, ?_⟩
  · intro t ht
    simp only [List.mem_cons, List.not_mem_nil, or_false] at ht
    rcases ht with rfl | rfl | rfl | rfl | rfl | rfl <;> simp [Token.Ok] <;> decide
  · simp [Separated, Token.isName]
  · intro p hp
    simp only [List.mem_cons, List.not_mem_nil, or_false] at hp
    rcases hp with rfl | rfl <;> exact ⟨⟨by simp, by decide⟩, ⟨by simp, by decide⟩⟩
  · intro p hp s hs hne
    simp only [List.mem_cons, List.not_mem_nil, or_false, reduceCtorEq, Token.name.injEq, false_or] at hp hs
    rcases hp with rfl | rfl <;> rcases hs with rfl | rfl | rfl <;> first | exact absurd rfl hne | decide
  · have h2 : printSubs ['g', '(', 'x', ',', 'y', ')'] [(['x'], ['y']), (['y'], ['x'])] = ['g', '(', 'x', ',', 'x', ')'] := by
      change replace ['y'] ['x'] (replace ['x'] ['y'] ['g', '(', 'x', ',', 'y', ')']) = _
      have h3 : replace ['x'] ['y'] ['g', '(', 'x', ',', 'y', ')'] = ['g', '(', 'y', ',', 'y', ')'] := by
        rw [replace_miss _ (by decide), replace_miss _ (by decide), show ['x', ',', 'y', ')'] = ['x'] ++ [',', 'y', ')'] from rfl,
          replace_hit (by simp), replace_miss _ (by decide), replace_miss _ (by decide), replace_miss _ (by decide), replace_nil]
        rfl
      rw [h3, replace_miss _ (by decide), replace_miss _ (by decide), show ['y', ',', 'y', ')'] = ['y'] ++ [',', 'y', ')'] from rfl,
          replace_hit (by simp), replace_miss _ (by decide), show ['y', ')'] = ['y'] ++ [')'] from rfl, replace_hit (by simp),
          replace_miss _ (by decide), replace_nil]
      rfl
    change printSubs ['g', '(', 'x', ',', 'y', ')'] _ ≠ _
    rw [h2]
    decide

/-- The claim fails for values that are not single names: substituting `-1` for `x` in `x**2` prints `-1**2`, which is the text of another number. -/
theorem C50_precedence_fails : ∃ e v e' : Arith, printSubs e.text [(['x'], v.text)] = e'.text ∧ e'.eval 0 ≠ (Arith.subst v e).eval 0 := by
  refine ⟨.pow .var 2, .neg (.num 1), .neg (.pow (.num 1) 2), ?_, ?_⟩
  · have h1 : (Arith.pow .var 2).text = ['x', '*', '*', '2'] := by decide
    have h2 : (Arith.neg (.num 1)).text = ['-', '1'] := by decide
    have h3 : (Arith.neg (.pow (.num 1) 2)).text = ['-', '1', '*', '*', '2'] := by decide
    rw [h1, h2, h3]
    change replace ['x'] ['-', '1'] ['x', '*', '*', '2'] = _
    rw [show ['x', '*', '*', '2'] = ['x'] ++ ['*', '*', '2'] from rfl, replace_hit (by simp), replace_miss _ (by decide),
      replace_miss _ (by decide), replace_miss _ (by decide), replace_nil]
    rfl
  · change - ((1 : ℕ) : ℚ) ^ 2 ≠ (- ((1 : ℕ) : ℚ)) ^ 2
    decide

/-- Non-vacuity of `C50_partial`: `x` at 0 in `egrad(g,0)(x)`. -/
example : printSubs ['e', 'g', 'r', 'a', 'd', '(', 'g', ',', '0', ')', '(', 'x', ')'] [(['x'], ['0'])] = ['e', 'g', 'r', 'a', 'd', '(', 'g', ',', '0', ')', '(', '0', ')'] := by
  refine (C50_partial [.name ['e', 'g', 'r', 'a', 'd'], .other ['('], .name ['g'], .other [','], .name ['0'], .other [')', '('],
    .name ['x'], .other [')']] [(['x'], ['0'])] ?_ ?_ ?_ ?_ ?_).trans rfl
  · intro t ht
    simp only [List.mem_cons, List.not_mem_nil, or_false] at ht
    rcases ht with rfl | rfl | rfl | rfl | rfl | rfl | rfl | rfl <;> simp [Token.Ok] <;> decide
  · simp [Separated, Token.isName]
  · intro p hp
    simp only [List.mem_cons, List.not_mem_nil, or_false] at hp
    subst hp
    exact ⟨⟨by simp, by decide⟩, ⟨by simp, by decide⟩⟩
  · intro p hp s hs hne
    simp only [List.mem_cons, List.not_mem_nil, or_false, reduceCtorEq, Token.name.injEq, false_or] at hp hs
    subst hp
    rcases hs with rfl | rfl | rfl | rfl <;> first | exact absurd rfl hne | decide
  · intro p hp q hq
    simp only [List.mem_cons, List.not_mem_nil, or_false] at hp hq
    subst hp hq
    decide

/-- Non-vacuity of `C49_balanced`: the mixed derivative of `g(x,y)`; the text is balanced but is not a nest of calls. -/
example : printDerivative ['g'] [['x'], ['y']] [(['x'], 1), (['y'], 1)] = .ok ['e', 'g', 'r', 'a', 'd', '(', 'g', ',', '0', 'e', 'g', 'r', 'a', 'd', '(', 'g', ',', '1', ')', ')', '(', 'x', 'y', ')'] := by
  rfl

end Verif.Props
