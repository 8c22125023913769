import Verif.Spec.Files
import Verif.Lemmas.Files
import Mathlib.Data.List.Infix

/-! # C63, C64, C65: figures, frames and HTML files are written under the right names -/

namespace Verif.Props

open Verif.Py Verif.Model.Files Verif.Spec Verif.Lemmas.Files

variable {B : Type}

theorem write_ok {fs fs' : FS B} {p : Str} {f : File B} (h : fs.write p f = .ok fs') :
    OnlyWrote fs fs' p f ∧ basename p ≠ [] ∧ basename p ≠ ['.'] := by
  rw [FS.write] at h
  split at h
  · next hc =>
      cases h
      exact ⟨⟨rfl, by simp, fun q hq => by simp [hq]⟩, hc.2.2.1, hc.2.2.2.1⟩
  · cases h

theorem writeByName_ok {fs fs' : FS B} {p : Str} {fig : B} (h : fs.writeByName p fig = .ok fs') :
    OnlyWrote fs fs' p ⟨suffix p, fig⟩ ∧ EndsIn p (suffix p) ∧ basename p ≠ [] := by
  rw [FS.writeByName] at h
  split at h
  · cases h
  · next hs =>
      obtain ⟨h1, h2, h3⟩ := write_ok h
      exact ⟨h1, suffix_ends p h2 h3 hs, h2⟩

/-- Writing by a name to which a type was added. -/
theorem writeByName_add {fs : FS B} (n t : Str) (fig : B) (hn : basename n ≠ []) (ht : t ≠ []) (hd : '.' ∉ t) (hs : '/' ∉ t) :
    fs.writeByName (n ++ '.' :: t) fig = fs.write (n ++ '.' :: t) ⟨t, fig⟩ := by
  rw [FS.writeByName, suffix_add n t hn ht hd hs, if_neg ht]

theorem plain_types : ∀ t ∈ mplTypes ++ plotlyTypes ++ mayaviTypes, t ≠ [] ∧ '.' ∉ t ∧ '/' ∉ t := by decide

/-- A name `n ++ "." ++ t` of which the suffix is not empty: the name before the dot is not empty, and the suffix is `t`. -/
theorem suffix_of_add (n t : Str) (ht : t ≠ []) (hd : '.' ∉ t) (hs : '/' ∉ t) (h : suffix (n ++ '.' :: t) ≠ []) :
    suffix (n ++ '.' :: t) = t := by
  by_cases hn : basename n = []
  · exfalso
    have hb : basename (n ++ '.' :: t) = '.' :: t := by rw [basename_append n _ (by simp [hs]), hn]; rfl
    have hp : pathName (n ++ '.' :: t) = [] ++ '.' :: t := by rw [pathName_eq _ (by simp [hb]) (by simp [hb, ht]), hb]; rfl
    rw [suffix, hp, beforeDot_append _ _ hd] at h
    simp at h
  · exact suffix_add n t hn ht hd hs

/-- **C63** (the Plotly and the Mayavi `save`). When they return, exactly one file has been written; its name ends in a dot and its
format; it is the requested format, added to the requested name, if one was requested; else the name is kept if it ends in a known
format, and otherwise a format is added. -/
theorem C63_by_name (fs fs' : FS B) (fileName : Str) (fileType : Option Str) (fig : B)
    (htype : ∀ t, fileType = some t → t ∈ plotlyTypes ∨ t ∈ mayaviTypes)
    (h : plotlySave fs fileName fileType fig = .ok fs' ∨ mayaviSave fs fileName fileType fig = .ok fs') :
    ∃ p f, OnlyWrote fs fs' p ⟨f, fig⟩ ∧ EndsIn p f ∧
      (∀ t, fileType = some t → f = t ∧ p = fileName ++ '.' :: t) ∧
      (fileType = none → p = fileName ∨ p = fileName ++ '.' :: f) := by
  have key : ∀ t, (t ≠ [] ∧ '.' ∉ t ∧ '/' ∉ t) → ∀ fs', fs.writeByName (fileName ++ '.' :: t) fig = .ok fs' →
      OnlyWrote fs fs' (fileName ++ '.' :: t) ⟨t, fig⟩ := by
    intro t ht fs' h
    have h' := h
    rw [FS.writeByName] at h'
    split at h'
    · cases h'
    · next hne => rw [suffix_of_add _ t ht.1 ht.2.1 ht.2.2 hne] at h'; exact (write_ok h').1
  cases fileType with
  | some t =>
      have hpl : t ≠ [] ∧ '.' ∉ t ∧ '/' ∉ t := plain_types t (by
        rcases htype t rfl with h | h
        · simp [h]
        · simp [h])
      have hno : noType (some t) = false := by simp [noType, hpl.1]
      have hw : OnlyWrote fs fs' (fileName ++ '.' :: t) ⟨t, fig⟩ := by
        rcases h with h | h
        · rw [plotlySave, plotlyTarget, hno] at h
          simp only [Bool.false_eq_true, if_false, Option.getD_some] at h
          split at h
          · next e => rw [e]; rw [e] at h; exact (write_ok h).1
          · exact key t hpl fs' h
        · rw [mayaviSave, mayaviTarget, hno] at h
          exact key t hpl fs' h
      exact ⟨_, t, hw, ⟨fileName, rfl⟩, by rintro _ ⟨⟩; exact ⟨rfl, rfl⟩, by simp⟩
  | none =>
      have hno : noType (none : Option Str) = true := rfl
      rcases h with h | h
      · rw [plotlySave, plotlyTarget, hno] at h
        simp only [if_true] at h
        split at h
        · split at h
          · next e =>
              obtain ⟨h1, h2, h3⟩ := write_ok h
              have hs : suffix fileName = html := e
              have := suffix_ends fileName h2 h3 (by rw [hs]; decide)
              rw [hs] at this
              exact ⟨fileName, html, h1, this, by simp, by simp⟩
          · obtain ⟨h1, h2, _⟩ := writeByName_ok h
            exact ⟨_, _, h1, h2, by simp, by simp⟩
        · rw [if_neg (show ¬ png = html by decide)] at h
          exact ⟨_, png, key png (by decide) fs' h, ⟨fileName, rfl⟩, by simp, by simp⟩
      · rw [mayaviSave, mayaviTarget, hno] at h
        simp only [if_true] at h
        split at h
        · obtain ⟨h1, h2, _⟩ := writeByName_ok h
          exact ⟨_, _, h1, h2, by simp, by simp⟩
        · exact ⟨_, pdf, key pdf (by decide) fs' h, ⟨fileName, rfl⟩, by simp, by simp⟩

/-- **C63** (the matplotlib `save`, where it does so). The same, if a type is requested or the name ends in a known type. Missing: other
names, see `C63_matplotlib_fails`. -/
theorem C63_matplotlib_partial (fs fs' : FS B) (fileName : Str) (fileType : Option Str) (fig : B)
    (htype : ∀ t, fileType = some t → t ∈ mplTypes) (hname : fileType = none → ∃ t ∈ mplTypes, suffix fileName = t)
    (h : mplSave fs fileName fileType fig = .ok fs') :
    ∃ p f, OnlyWrote fs fs' p ⟨f, fig⟩ ∧ EndsIn p f ∧
      (∀ t, fileType = some t → f = t ∧ p = fileName ++ '.' :: t) ∧ (fileType = none → p = fileName) := by
  obtain ⟨h1, h2, h3⟩ := write_ok h
  cases fileType with
  | some t =>
      have hpl : t ≠ [] := (plain_types t (by simp [htype t rfl])).1
      have hno : noType (some t) = false := by simp [noType, hpl]
      rw [mplTarget, hno] at h1
      exact ⟨_, t, h1, ⟨fileName, rfl⟩, by rintro _ ⟨⟩; exact ⟨rfl, rfl⟩, by simp⟩
  | none =>
      obtain ⟨t, ht, hs⟩ := hname rfl
      have hno : noType (none : Option Str) = true := rfl
      rw [mplTarget, hno, if_pos rfl, hs, if_pos ht] at h1 h2 h3
      have := suffix_ends fileName h2 h3 (by rw [hs]; exact (plain_types t (by simp [ht])).1)
      rw [hs] at this
      exact ⟨fileName, t, h1, this, by simp, by simp⟩

/-- The three functions do write when the directory is there: a figure saved as `png` under the name `a` in the current directory. -/
example (fig : B) : ∃ fs', mplSave (⟨fun _ => false, fun _ => none⟩ : FS B) ['a'] (some png) fig = .ok fs' ∧
    mayaviSave (⟨fun _ => false, fun _ => none⟩ : FS B) ['a'] (some png) fig = .ok fs' ∧
    plotlySave (⟨fun _ => false, fun _ => none⟩ : FS B) ['a'] (some png) fig = .ok fs' := ⟨_, rfl, rfl, rfl⟩

/-- Without a type, the matplotlib `save` writes a PDF under a name that does not end in `.pdf`: `fig.txt`, or any other name whose suffix is not in
its list. -/
theorem C63_matplotlib_fails (fs fs' : FS B) (fileName : Str) (fig : B) (hn : suffix fileName ∉ mplTypes)
    (h : mplSave fs fileName none fig = .ok fs') : OnlyWrote fs fs' fileName ⟨pdf, fig⟩ ∧ (suffix fileName ≠ [] → ¬ EndsIn fileName pdf) := by
  obtain ⟨h1, h2, h3⟩ := write_ok h
  have hno : noType (none : Option Str) = true := rfl
  rw [mplTarget, hno, if_pos rfl, if_neg hn] at h1 h2 h3
  refine ⟨h1, ?_⟩
  rintro hs ⟨a, rfl⟩
  exact hn (by rw [suffix_of_add a pdf (by decide) (by decide) (by decide) hs]; decide)

/-- The name `f.txt` is such a name. -/
example (fig : B) : suffix ['f', '.', 't', 'x', 't'] = ['t', 'x', 't'] ∧ ['t', 'x', 't'] ∉ mplTypes ∧
    ∃ fs', mplSave (⟨fun _ => false, fun _ => none⟩ : FS B) ['f', '.', 't', 'x', 't'] none fig = .ok fs' := ⟨by decide, by decide, _, rfl⟩

/-! ## Frames -/

/-- The name of frame `k`. -/
def frameName (outDir fileName : Str) (k : ℕ) : Str := outDir ++ '/' :: (fileName ++ pad6 k ++ '.' :: png)

theorem framePath_eq (outDir fileName : Str) (k : ℕ) (h1 : outDir ≠ []) (h2 : outDir.getLast? ≠ some '/') (h3 : '/' ∉ fileName) :
    framePath outDir fileName k = outDir ++ '/' :: (fileName ++ pad6 k) := by
  have hh : (fileName ++ pad6 k).head? ≠ some '/' := by
    intro e
    have : '/' ∈ fileName ++ pad6 k := List.mem_of_head? e
    rcases List.mem_append.1 this with h | h
    · exact h3 h
    · exact slash_pad6 k h
  rw [framePath, join, if_neg hh, if_neg (by simp [h1, h2])]

theorem rstrip_dir (d : Str) (h2 : d.getLast? ≠ some '/') : rstripSlash (d ++ ['/']) = d := by
  rw [rstripSlash, List.reverse_append]
  simp only [List.reverse_cons, List.reverse_nil, List.nil_append, List.singleton_append]
  rw [List.dropWhile_cons_of_pos (by simp)]
  cases h : d.reverse with
  | nil => simp [List.reverse_eq_nil_iff.1 h]
  | cons c r =>
      have hd : d = r.reverse ++ [c] := by rw [← List.reverse_reverse d, h]; simp
      have hc : c ≠ '/' := by rintro rfl; exact h2 (by simp [hd])
      rw [List.dropWhile_cons_of_neg (by simpa using hc), ← h, List.reverse_reverse]

theorem dirname_slash (d b : Str) (h1 : d ≠ []) (h2 : d.getLast? ≠ some '/') (hb : '/' ∉ b) : dirname (d ++ '/' :: b) = d := by
  have : (d ++ '/' :: b).take ((d ++ '/' :: b).length - (basename (d ++ '/' :: b)).length) = d ++ ['/'] := by
    rw [basename_slash d b hb]
    have e : (d ++ '/' :: b).length - b.length = (d ++ ['/']).length := by simp; omega
    rw [e, show d ++ '/' :: b = (d ++ ['/']) ++ b by simp, List.take_left']
    rfl
  rw [dirname, this, rstrip_dir d h2, if_neg h1]

theorem frameName_inj {outDir fileName : Str} {j k : ℕ} (h : frameName outDir fileName j = frameName outDir fileName k) : j = k := by
  simp only [frameName, List.append_cancel_left_eq, List.cons.injEq, true_and, List.append_assoc] at h
  have h : pad6 j ++ '.' :: png = pad6 k ++ '.' :: png := h
  have h := List.append_cancel_right h
  rw [← val_pad6 j, h, val_pad6]

theorem frames_run (save : FS B → Str → Option Str → B → Except Err (FS B))
    (hsave : ∀ fs n fig, basename n ≠ [] → save fs n (some png) fig = fs.write (n ++ '.' :: png) ⟨png, fig⟩)
    (outDir fileName : Str) (h1 : outDir ≠ []) (h2 : outDir.getLast? ≠ some '/') (h3 : '/' ∉ fileName)
    (gen : List (Option ℤ × B)) (hgen : ∀ y ∈ gen, y.1 = none) (fs : FS B) (k : ℕ) (hd : fs.dirs outDir = true)
    (hfree : ∀ i, fs.dirs (frameName outDir fileName i) = false) :
    ∃ fs', frames save outDir fileName fs k gen = .ok fs' ∧ fs'.dirs = fs.dirs ∧
      (∀ i (h : i < gen.length), fs'.files (frameName outDir fileName (k + i)) = some ⟨png, gen[i].2⟩) ∧
      ∀ q, (∀ i, i < gen.length → q ≠ frameName outDir fileName (k + i)) → fs'.files q = fs.files q := by
  induction gen generalizing fs k with
  | nil => exact ⟨fs, rfl, rfl, by simp, by simp⟩
  | cons y gen ih =>
      obtain ⟨y, pic⟩ := y
      have hy : y = none := hgen (y, pic) (by simp)
      subst hy
      have hslash : '/' ∉ fileName ++ pad6 k := by simp [h3, slash_pad6]
      have hfp := framePath_eq outDir fileName k h1 h2 h3
      have hbn : basename (framePath outDir fileName k) = fileName ++ pad6 k := by rw [hfp, basename_slash _ _ hslash]
      have hne : fileName ++ pad6 k ≠ [] := by
        intro e
        have h6 := pad6_length k
        have := congrArg List.length e
        simp only [List.length_append, List.length_nil] at this
        omega
      have hfn : framePath outDir fileName k ++ '.' :: png = frameName outDir fileName k := by rw [hfp, frameName]; simp
      have hs2 : '/' ∉ fileName ++ pad6 k ++ '.' :: png := by
        intro h
        rcases List.mem_append.1 h with h | h
        · exact hslash h
        · revert h; decide
      have hdir : dirname (frameName outDir fileName k) = outDir := dirname_slash _ _ h1 h2 hs2
      have hbase : basename (frameName outDir fileName k) = fileName ++ pad6 k ++ '.' :: png := basename_slash _ _ hs2
      have hlen : 6 ≤ (fileName ++ pad6 k ++ '.' :: png).length := by
        have := pad6_length k
        simp; omega
      have hw : fs.write (frameName outDir fileName k) ⟨png, pic⟩ =
          .ok { fs with files := fun q => if q = frameName outDir fileName k then some ⟨png, pic⟩ else fs.files q } := by
        rw [FS.write, hdir, hbase, if_pos]
        refine ⟨.inr hd, hfree k, ?_, ?_, ?_⟩ <;>
        · intro e
          rw [e] at hlen
          simp at hlen
      obtain ⟨fs', hf, hdirs, hfiles, hother⟩ := ih (fun z hz => hgen z (by simp [hz]))
        { fs with files := fun q => if q = frameName outDir fileName k then some ⟨png, pic⟩ else fs.files q } (k + 1) hd hfree
      refine ⟨fs', ?_, hdirs, ?_, ?_⟩
      · rw [frames, if_neg (by simp), hsave _ _ _ (by rw [hbn]; exact hne), hfn, hw]
        exact hf
      · intro i hi
        cases i with
        | zero =>
            have : fs'.files (frameName outDir fileName k) = _ := hother _ (by
              intro i _ e
              have := frameName_inj e
              omega)
            simpa using this
        | succ i =>
            have := hfiles i (by simpa using hi)
            rw [show k + (i + 1) = k + 1 + i by omega]
            simpa using this
      · intro q hq
        have h0 : q ≠ frameName outDir fileName k := by simpa using hq 0 (by simp)
        rw [hother q (by
          intro i hi
          have := hq (i + 1) (by simpa using hi)
          rwa [show k + (i + 1) = k + 1 + i by omega] at this)]
        simp [h0]

/-- What the two classes do when asked to save a frame as `png`. -/
theorem save_png (fs : FS B) (n : Str) (fig : B) (hn : basename n ≠ []) :
    mplSave fs n (some png) fig = fs.write (n ++ '.' :: png) ⟨png, fig⟩ ∧
    mayaviSave fs n (some png) fig = fs.write (n ++ '.' :: png) ⟨png, fig⟩ := by
  have hno : noType (some png) = false := rfl
  refine ⟨by rw [mplSave, mplTarget, hno]; rfl, ?_⟩
  rw [mayaviSave, mayaviTarget, hno]
  exact writeByName_add n png fig hn (by decide) (by decide) (by decide)

theorem pad6_isFrameNumber (k : ℕ) : IsFrameNumber (pad6 k) k := by
  refine ⟨pad6_length k, isDigit_pad6 k, val_pad6 k, fun h => ?_⟩
  have : 6 - (digits k).length = 0 := by
    by_contra hc
    have : (pad6 k).length = 6 := by simp [pad6]; omega
    omega
  rw [pad6, this, List.replicate_zero, List.nil_append]
  exact head_digits k

/-- **C64** (the frames of an animation, where they come out right). For a generator that yields `None`, as its type says, and an output
directory that exists or can be made, `animate` of either class writes one `png` file for every step of the generator, showing the figure
at that step, named by the number of the step in six digits, and changes no other file; and if the name of the directory is relative,
the pattern in the printed command names exactly these files. Missing: `C64_absolute_fails`, `C64_stale_fails`. -/
theorem C64_partial (save : FS B → Str → Option Str → B → Except Err (FS B)) (hsave : save = mplSave ∨ save = mayaviSave)
    (fs : FS B) (outDir fileName : Str) (h1 : outDir ≠ []) (h2 : outDir.getLast? ≠ some '/') (h3 : '/' ∉ fileName)
    (hdir : fs.dirs outDir = true ∨ fs.exists_ outDir = false ∧ (dirname outDir = [] ∨ fs.dirs (dirname outDir) = true))
    (hfree : ∀ num : List Char, fs.dirs (outDir ++ '/' :: (fileName ++ num ++ ['.', 'p', 'n', 'g'])) = false)
    (gen : List (Option ℤ × B)) (hgen : ∀ y ∈ gen, y.1 = none) :
    ∃ (fs' : FS B) (name : ℕ → List Char), animate save fs outDir fileName gen = .ok fs' ∧
      (∀ k, ∃ num, IsFrameNumber num k ∧ name k = outDir ++ '/' :: (fileName ++ num ++ ['.', 'p', 'n', 'g'])) ∧
      (∀ k (h : k < gen.length), fs'.files (name k) = some ⟨['p', 'n', 'g'], gen[k].2⟩) ∧
      (∀ q, (∀ k, k < gen.length → q ≠ name k) → fs'.files q = fs.files q) ∧
      (outDir.head? ≠ some '/' → ∀ cwd k, SameFile cwd (printedFrame outDir fileName k) (name k)) := by
  have hs : ∀ fs n fig, basename n ≠ [] → save fs n (some png) fig = fs.write (n ++ '.' :: png) ⟨png, fig⟩ := by
    intro fs n fig hn
    rcases hsave with rfl | rfl
    · exact (save_png fs n fig hn).1
    · exact (save_png fs n fig hn).2
  have hpr : outDir.head? ≠ some '/' → ∀ cwd k, SameFile cwd (printedFrame outDir fileName k) (frameName outDir fileName k) := by
    intro hrel cwd k
    have e : printedFrame outDir fileName k = ['.'] ++ '/' :: frameName outDir fileName k := by simp [printedFrame, frameName]
    have hh : (frameName outDir fileName k).head? ≠ some '/' := by
      rw [frameName, List.head?_append_of_ne_nil _ h1]; exact hrel
    rw [SameFile, absolute, absolute, if_neg hh, e, if_neg (by simp), parts_append, parts_append, parts_append]
    rfl
  have hrs : rstripSlash outDir = outDir := by
    have := rstrip_dir outDir h2
    rw [rstripSlash] at this ⊢
    simpa using this
  have hstart : ∃ fs0 : FS B, fs.ensure outDir = .ok fs0 ∧ fs0.dirs outDir = true ∧
      fs0.files = fs.files ∧ ∀ q, q ≠ outDir → fs0.dirs q = fs.dirs q := by
    rcases hdir with hd | ⟨he, hp⟩
    · exact ⟨fs, by rw [FS.ensure, if_pos (by simp [FS.exists_, hd])], hd, rfl, fun _ _ => rfl⟩
    · refine ⟨{ fs with dirs := fun q => q = outDir || fs.dirs q }, ?_, by simp, rfl, fun q hq => by simp [hq]⟩
      rw [FS.ensure, if_neg (by simp [he]), FS.mkdir, hrs, if_pos ⟨h1, he, hp⟩]
  obtain ⟨fs0, hs0, hd0, hf0, hq0⟩ := hstart
  obtain ⟨fs', hf, _, hfiles, hother⟩ := frames_run save hs outDir fileName h1 h2 h3 gen hgen fs0 0 hd0 (by
    intro i
    rw [hq0 _ (by
      intro e
      have := congrArg List.length e
      simp [frameName] at this)]
    exact hfree (pad6 i))
  refine ⟨fs', frameName outDir fileName, ?_, fun k => ⟨pad6 k, pad6_isFrameNumber k, rfl⟩, ?_, ?_, hpr⟩
  · rw [animate, hs0]
    exact hf
  · intro k hk
    have := hfiles k hk
    rwa [Nat.zero_add] at this
  · intro q hq
    rw [hother q (by simpa using hq), hf0]

/-- A directory `M` in an empty file system, two frames. -/
example (a b : B) : ∃ (fs : FS B) (gen : List (Option ℤ × B)), fs.exists_ ['M'] = false ∧ dirname ['M'] = [] ∧ gen.length = 2 ∧
    (∀ y ∈ gen, y.1 = none) ∧ (∀ num : List Char, fs.dirs (['M'] ++ '/' :: (['i'] ++ num ++ ['.', 'p', 'n', 'g'])) = false) :=
  ⟨⟨fun _ => false, fun _ => none⟩, [(none, a), (none, b)], rfl, by decide, rfl, by simp, fun _ => rfl⟩

/-- With an absolute output directory the printed command names other files than those written: it puts `./` before the name. -/
theorem C64_absolute_fails (c : Char) (hc : c ≠ '/' ∧ c ≠ '.') (fileName : Str) (k : ℕ) (d : Str) :
    ¬ SameFile ['/', c] (printedFrame ('/' :: d) fileName k) ('/' :: d ++ '/' :: (fileName ++ pad6 k ++ '.' :: png)) := by
  intro h
  have e1 : absolute ['/', c] (printedFrame ('/' :: d) fileName k) =
      ['/', c] ++ '/' :: (['.'] ++ '/' :: ('/' :: d ++ '/' :: (fileName ++ pad6 k ++ '.' :: png))) := by
    rw [absolute, if_neg (by simp [printedFrame])]
    simp [printedFrame]
  have e2 : absolute ['/', c] ('/' :: d ++ '/' :: (fileName ++ pad6 k ++ '.' :: png)) =
      '/' :: d ++ '/' :: (fileName ++ pad6 k ++ '.' :: png) := by
    rw [absolute, if_pos (by simp)]
  rw [SameFile, e1, e2, parts_append, parts_append] at h
  have hl := congrArg List.length h
  have hp : parts ['/', c] = [[c]] := by simp [parts, split, hc.1, hc.2]
  rw [hp] at hl
  simp at hl
  omega

/-- A second, shorter animation into the same directory leaves the later frames of the first one in place, so that the printed command
makes a film of both: with three frames first and one frame after, frame 1 is still that of the first animation. -/
theorem C64_stale_fails (a b c d : B) :
    ∃ fs1 fs2 : FS B, animate mplSave ⟨fun _ => false, fun _ => none⟩ ['M'] ['i'] [(none, a), (none, b), (none, c)] = .ok fs1 ∧
      animate mplSave fs1 ['M'] ['i'] [(none, d)] = .ok fs2 ∧
      fs2.files (['M'] ++ '/' :: (['i'] ++ pad6 1 ++ '.' :: png)) = some ⟨png, b⟩ := by
  obtain ⟨fs1, hf1, hd1, hfiles, -⟩ := frames_run mplSave (fun fs n fig hn => (save_png fs n fig hn).1) ['M'] ['i'] (by simp) (by decide)
    (by decide) [(none, a), (none, b), (none, c)] (by simp) (⟨fun q => q = ['M'] || false, fun _ => none⟩ : FS B) 0 (by simp)
    (by intro i; simp [frameName])
  obtain ⟨fs2, hf2, hd2, -, hother⟩ := frames_run mplSave (fun fs n fig hn => (save_png fs n fig hn).1) ['M'] ['i'] (by simp) (by decide)
    (by decide) [(none, d)] (by simp) fs1 0 (by rw [hd1]; simp) (by intro i; rw [hd1]; simp [frameName])
  refine ⟨fs1, fs2, hf1, ?_, ?_⟩
  · rw [animate, FS.ensure, if_pos (by simp [FS.exists_, hd1])]
    exact hf2
  · have h1 := hfiles 1 (by simp)
    have h2 := hother (frameName ['M'] ['i'] 1) (by
      intro k hk e
      have := frameName_inj e
      simp at hk
      omega)
    have h3 : fs2.files (frameName ['M'] ['i'] 1) = some ⟨png, b⟩ := by
      rw [h2]; simpa using h1
    exact h3

/-! ## HTML files -/

theorem dirname_length (s : Str) : (dirname s).length ≤ s.length - (basename s).length := by
  have h : (s.take (s.length - (basename s).length)).length ≤ s.length - (basename s).length := by simp
  rw [dirname]
  split
  · exact h
  · refine Nat.le_trans ?_ h
    rw [rstripSlash, List.length_reverse]
    have := (List.dropWhile_suffix (· = '/') (l := (s.take (s.length - (basename s).length)).reverse)).length_le
    simpa using this

/-- **C65** (`HTML.WriteFile`, where it works). If the name has a directory part, which exists as a directory or can be made, then the
text is written under that name, it is what `ReadFile` returns, and no other file changes. Missing: names without a
directory part, see `C65_bare_fails`. -/
theorem C65_partial (fs : FS B) (outFile : Str) (text : B) (hd : dirname outFile ≠ [])
    (hdir : fs.dirs (dirname outFile) = true ∨
      fs.exists_ (dirname outFile) = false ∧ ∀ q ∈ ancestors (dirname outFile), fs.files q = none)
    (hname : fs.dirs outFile = false ∧ basename outFile ≠ [] ∧ basename outFile ≠ ['.'] ∧ basename outFile ≠ ['.', '.']) :
    ∃ fs', writeFile fs outFile text = .ok fs' ∧ readFile fs' outFile = .ok text ∧ ∀ q, q ≠ outFile → fs'.files q = fs.files q := by
  have hnew : outFile ∉ ancestors (dirname outFile) := by
    intro h
    have h1 := (List.mem_inits _ _).1 (List.mem_filter.1 h).1 |>.length_le
    have h2 := dirname_length outFile
    have h3 := List.length_pos_iff.2 hname.2.1
    obtain ⟨a, ha⟩ := basename_suffix outFile
    have h4 := congrArg List.length ha
    simp only [List.length_append] at h4
    omega
  obtain ⟨fs0, h0, hd0, hf0, hq0⟩ : ∃ fs0 : FS B,
      fs.ensureAll (dirname outFile) = .ok fs0 ∧
      fs0.dirs (dirname outFile) = true ∧ fs0.files = fs.files ∧ fs0.dirs outFile = false := by
    rcases hdir with h | ⟨he, ha⟩
    · exact ⟨fs, by rw [FS.ensureAll, if_pos (by simp [FS.exists_, h])], h, rfl, hname.1⟩
    · refine ⟨{ fs with dirs := fun q => (ancestors (dirname outFile)).contains q || fs.dirs q }, ?_, ?_, rfl, ?_⟩
      · rw [FS.ensureAll, if_neg (by simp [he]), FS.makedirs, if_pos]
        exact ⟨hd, by simpa using ha⟩
      · simp [ancestors, hd, List.mem_inits]
      · simp [hname.1, hnew]
  refine ⟨{ fs0 with files := fun q => if q = outFile then some ⟨html, text⟩ else fs0.files q }, ?_, by simp [readFile], ?_⟩
  · rw [writeFile, h0]
    show fs0.write outFile ⟨html, text⟩ = _
    rw [FS.write, if_pos ⟨.inr hd0, hq0, hname.2⟩]
  · intro q hq
    simp [hq, hf0]

/-- The name `d/f` in an empty file system. -/
example : dirname ['d', '/', 'f'] = ['d'] ∧ basename ['d', '/', 'f'] = ['f'] := by decide

/-- A name without a directory part is never written, although the current directory exists: the code asks for a directory with an empty name. -/
theorem C65_bare_fails (fs : FS B) (outFile : Str) (text : B) (hb : '/' ∉ outFile) (hno : fs.exists_ [] = false) :
    writeFile fs outFile text = .error .osError := by
  have hd : dirname outFile = [] := by
    rw [dirname, basename_noslash outFile hb]
    simp [rstripSlash]
  rw [writeFile, hd, FS.ensureAll, hno, if_neg (by simp), FS.makedirs, if_neg (by simp)]
  rfl

end Verif.Props
