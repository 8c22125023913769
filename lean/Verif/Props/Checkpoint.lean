import Verif.Model.Checkpoint
import Verif.Spec.Shell
import Verif.Spec.Files
import Verif.Lemmas.Files
import Verif.Props.Files

/-! # C125: the command that makes a checkpoint and the one that is printed for the restart. C126: `saveAll` and `Render` -/

namespace Verif.Props

open Verif.Py Verif.Model.Files Verif.Model.Checkpoint Verif.Spec Verif.Lemmas.Files

variable {B : Type}

/-! ## Words -/

theorem PlainChar_ne {c : Char} (h : PlainChar c) : c ≠ ' ' ∧ c ≠ '(' ∧ c ≠ ')' ∧ c ≠ '&' := by
  refine ⟨?_, ?_, ?_, ?_⟩ <;> rintro rfl <;> revert h <;> simp [PlainChar] <;> decide

theorem shellWords_plain (u s : Str) (hu : ∀ c ∈ u, PlainChar c) (w : Str) : shellWords w (u ++ s) = shellWords (w ++ u) s := by
  induction u generalizing w with
  | nil => simp
  | cons c u ih =>
      obtain ⟨h1, h2, h3, h4⟩ := PlainChar_ne (hu c (by simp))
      rw [List.cons_append, shellWords, if_neg h1, if_neg (by simp [h2, h3, h4]), ih (fun d hd => hu d (by simp [hd]))]
      simp

theorem shellWords_blank (w s : Str) (hw : w ≠ []) : shellWords w (' ' :: s) = w :: shellWords [] s := by
  rw [shellWords, if_pos rfl, emit, if_neg hw]
  rfl

theorem plain_digits (n : ℕ) : ∀ c ∈ digits n, PlainChar c := fun c hc => Or.inl (by
  have := isDigit_digits n c hc
  simp [Char.isAlphanum, this])

theorem digits_ne {n : ℕ} (h : 0 < n) : digits n ≠ [] := by
  rw [digits, dif_neg h.ne']
  simp

theorem split_plain (s : Str) : ∀ w ∈ split s, ∀ c ∈ w, c ∈ s := by
  induction s with
  | nil => simp [split]
  | cons a s ih =>
      rw [split]
      split
      · intro w hw c hc
        rcases List.mem_cons.1 hw with rfl | hw
        · simp at hc
        · exact List.mem_cons_of_mem _ (ih w hw c hc)
      · cases hs : split s with
        | nil =>
            intro w hw c hc
            simp at hw
            subst hw
            simp at hc
            simp [hc]
        | cons v vs =>
            rw [hs] at ih
            intro w hw c hc
            rcases List.mem_cons.1 hw with rfl | hw
            · rcases List.mem_cons.1 hc with rfl | hc
              · simp
              · exact List.mem_cons_of_mem _ (ih v (by simp) c hc)
            · exact List.mem_cons_of_mem _ (ih w (by simp [hw]) c hc)

theorem parts_plain (s : Str) : ∀ w ∈ parts s, ∀ c ∈ w, c ∈ s := fun w hw => split_plain s w (List.mem_of_mem_filter hw)

theorem split_noslash (s : Str) : ∀ w ∈ split s, '/' ∉ w := by
  induction s with
  | nil => simp [split]
  | cons a s ih =>
      rw [split]
      split
      · intro w hw
        rcases List.mem_cons.1 hw with rfl | hw
        · simp
        · exact ih w hw
      · next ha =>
          cases hs : split s with
          | nil =>
              intro w hw
              simp at hw
              subst hw
              simpa using Ne.symm ha
          | cons v vs =>
              rw [hs] at ih
              intro w hw
              rcases List.mem_cons.1 hw with rfl | hw
              · have := ih v (by simp)
                simp [this, Ne.symm ha]
              · exact ih w (by simp [hw])

theorem mem_intercalate {ws : List Str} {c : Char} (h : c ∈ ['/'].intercalate ws) : c = '/' ∨ ∃ w ∈ ws, c ∈ w := by
  induction ws with
  | nil => simp at h
  | cons w ws ih =>
      cases ws with
      | nil =>
          simp at h
          exact Or.inr ⟨w, by simp, h⟩
      | cons v vs =>
          have e : ['/'].intercalate (w :: v :: vs) = w ++ '/' :: ['/'].intercalate (v :: vs) := by simp [List.intercalate]
          rw [e, List.mem_append, List.mem_cons] at h
          rcases h with h | h | h
          · exact Or.inr ⟨w, by simp, h⟩
          · exact Or.inl h
          · rcases ih h with h | ⟨u, hu, h⟩
            · exact Or.inl h
            · exact Or.inr ⟨u, by simp at hu ⊢; tauto, h⟩

theorem join_last (ws : List Str) (x : Str) :
    ∃ X, '/' :: ['/'].intercalate (ws ++ [x]) = X ++ x ∧ X ≠ [] ∧ ∀ c ∈ X, c = '/' ∨ ∃ w ∈ ws, c ∈ w := by
  induction ws with
  | nil => exact ⟨['/'], by simp [List.intercalate], by simp, by simp⟩
  | cons w ws ih =>
      obtain ⟨X, h1, h2, h3⟩ := ih
      refine ⟨'/' :: (w ++ X), ?_, by simp, ?_⟩
      · have e : ['/'].intercalate (w :: (ws ++ [x])) = w ++ '/' :: ['/'].intercalate (ws ++ [x]) := by
          cases ws <;> simp [List.intercalate]
        rw [List.cons_append, e, h1]
        simp
      · intro c hc
        rcases List.mem_cons.1 hc with rfl | hc
        · exact Or.inl rfl
        · rcases List.mem_append.1 hc with hc | hc
          · exact Or.inr ⟨w, by simp, hc⟩
          · rcases h3 c hc with h | ⟨v, hv, h⟩
            · exact Or.inl h
            · exact Or.inr ⟨v, by simp [hv], h⟩

theorem absPath_plain (cwd dir : Str) (hc : ∀ c ∈ cwd, PlainChar c) (hd : ∀ c ∈ dir, PlainChar c) : ∀ c ∈ absPath cwd dir, PlainChar c := by
  intro c h
  rw [absPath] at h
  rcases List.mem_cons.1 h with rfl | h
  · exact Or.inr (Or.inl rfl)
  · rcases mem_intercalate h with rfl | ⟨w, hw, h⟩
    · exact Or.inr (Or.inl rfl)
    · split at hw
      · exact hd c (parts_plain dir w hw c h)
      · rcases List.mem_append.1 hw with hw | hw
        · exact hc c (parts_plain cwd w hw c h)
        · exact hd c (parts_plain dir w hw c h)

theorem split_ne (s : Str) : split s ≠ [] := by
  cases s with
  | nil => simp [split]
  | cons a s =>
      rw [split]
      split
      · simp
      · split <;> simp

theorem split_word (w s : Str) (hw : '/' ∉ w) : split (w ++ '/' :: s) = w :: split s := by
  induction w with
  | nil => simp [split]
  | cons a w ih =>
      rw [List.cons_append, split, if_neg (by rintro rfl; simp at hw), ih (fun h => hw (by simp [h]))]

theorem split_one (w : Str) (hw : '/' ∉ w) : split w = [w] := by
  induction w with
  | nil => simp [split]
  | cons a w ih =>
      rw [split, if_neg (by rintro rfl; simp at hw), ih (fun h => hw (by simp [h]))]

theorem split_join (ws : List Str) (h : ∀ w ∈ ws, '/' ∉ w) (hne : ws ≠ []) : split (['/'].intercalate ws) = ws := by
  induction ws with
  | nil => exact absurd rfl hne
  | cons w ws ih =>
      cases ws with
      | nil => simp [List.intercalate, split_one w (h w (by simp))]
      | cons v vs =>
          have e : ['/'].intercalate (w :: v :: vs) = w ++ '/' :: ['/'].intercalate (v :: vs) := by simp [List.intercalate]
          rw [e, split_word _ _ (h w (by simp)), ih (fun u hu => h u (List.mem_cons_of_mem _ hu)) (by simp)]

theorem parts_join (ws : List Str) (h : ∀ w ∈ ws, '/' ∉ w ∧ w ≠ [] ∧ w ≠ ['.']) : parts ('/' :: ['/'].intercalate ws) = ws := by
  have e : parts ('/' :: ['/'].intercalate ws) = parts (['/'].intercalate ws) := by simp [parts, split]
  rw [e]
  by_cases hne : ws = []
  · subst hne
    simp [parts, split]
  · rw [parts, split_join ws (fun w hw => (h w hw).1) hne]
    exact List.filter_eq_self.2 fun w hw => by simpa using (h w hw).2

theorem parts_good (s : Str) : ∀ w ∈ parts s, '/' ∉ w ∧ w ≠ [] ∧ w ≠ ['.'] := by
  intro w hw
  have h := List.mem_filter.1 hw
  exact ⟨split_noslash s w h.1, by simpa using h.2⟩

theorem split_append_slash (a b : Str) : split (a ++ '/' :: b) = split a ++ split b := by
  induction a with
  | nil => simp [split]
  | cons c a ih =>
      rw [List.cons_append, split, split]
      split
      · rw [ih]; rfl
      · rw [ih]
        cases hs : split a with
        | nil => exact absurd hs (split_ne a)
        | cons v vs => rfl

theorem absPath_same (cwd dir : Str) (hc : cwd.head? = some '/') : SameFile cwd (absPath cwd dir) dir := by
  rw [SameFile, absolute, absolute, if_pos (by rw [absPath]; rfl), absPath]
  split
  · exact parts_join _ (parts_good dir)
  · rw [parts_join _ (by
      intro w hw
      rcases List.mem_append.1 hw with hw | hw
      · exact parts_good cwd w hw
      · exact parts_good dir w hw)]
    rw [parts, parts, parts, split_append_slash, List.filter_append]

theorem parts_under (cwd p : Str) : parts (cwd ++ '/' :: p) = parts cwd ++ parts p := by
  rw [parts, parts, parts, split_append_slash, List.filter_append]

theorem pathStr_same (cwd dir : Str) : SameFile cwd (pathStr dir) dir := by
  rw [SameFile, pathStr]
  by_cases hd : dir.head? = some '/'
  · rw [if_pos hd, absolute, absolute, if_pos hd, if_pos (by rfl)]
    exact parts_join _ (parts_good dir)
  · rw [if_neg hd]
    have e : absolute cwd dir = cwd ++ '/' :: dir := by rw [absolute, if_neg hd]
    by_cases hn : parts dir = []
    · rw [if_pos hn, e, absolute, if_neg (by decide), parts_under, parts_under, hn]
      rfl
    · rw [if_neg hn, e]
      have hj : parts (['/'].intercalate (parts dir)) = parts dir := by
        have h1 := parts_join _ (parts_good dir)
        have h2 : ∀ s : Str, parts ('/' :: s) = parts s := fun s => by simp [parts, split]
        rwa [h2] at h1
      have hh : (['/'].intercalate (parts dir)).head? ≠ some '/' := by
        cases hp : parts dir with
        | nil => exact absurd hp hn
        | cons w ws =>
            obtain ⟨g1, g2, -⟩ := parts_good dir w (by rw [hp]; simp)
            cases w with
            | nil => exact absurd rfl g2
            | cons c w =>
                intro h
                have : c = '/' := by
                  cases ws <;> simpa [List.intercalate] using h
                exact g1 (by simp [this])
      rw [absolute, if_neg hh, parts_under, parts_under, hj]

theorem dump_words (pid : ℕ) (hp : 0 < pid) (abs : Str) (ha : ∀ c ∈ abs, PlainChar c) (hn : abs ≠ []) :
    shellWords [] (dumpCommand false pid abs) = ["(".toList, "sudo".toList, "criu".toList, "dump".toList, "-t".toList, digits pid, "-D".toList, abs,
      "--shell-job".toList, "--leave-running".toList, "&".toList, ")".toList, "&".toList] := by
  rw [dumpCommand, if_neg (by decide)]
  simp only [List.append_assoc]
  have h1 : ∀ s, shellWords [] ("(sudo criu dump -t ".toList ++ s) =
      ["(".toList, "sudo".toList, "criu".toList, "dump".toList, "-t".toList] ++ shellWords [] s := fun s => rfl
  have h2 : ∀ s, (" -D ".toList ++ s : Str) = ' ' :: ("-D ".toList ++ s) := fun s => rfl
  have h3 : ∀ s, shellWords [] ("-D ".toList ++ s) = "-D".toList :: shellWords [] s := fun s => rfl
  have h4 : " --shell-job --leave-running &) &".toList = ' ' :: "--shell-job --leave-running &) &".toList := rfl
  rw [h1, shellWords_plain _ _ (plain_digits pid), List.nil_append, h2, shellWords_blank _ _ (digits_ne hp), h3, shellWords_plain _ _ ha,
    List.nil_append, h4, shellWords_blank _ _ hn]
  rfl

theorem dump_words_user (pid : ℕ) (hp : 0 < pid) (abs : Str) (ha : ∀ c ∈ abs, PlainChar c) (hn : abs ≠ []) :
    shellWords [] (dumpCommand true pid abs) = ["(".toList, "criu".toList, "dump".toList, "--unpriviledged".toList, "-t".toList, digits pid, "-D".toList, abs,
      "--shell-job".toList, "--leave-running".toList, "&".toList, ")".toList, "&".toList] := by
  rw [dumpCommand, if_pos rfl]
  simp only [List.append_assoc]
  have h1 : ∀ s, shellWords [] ("(criu dump --unpriviledged -t ".toList ++ s) =
      ["(".toList, "criu".toList, "dump".toList, "--unpriviledged".toList, "-t".toList] ++ shellWords [] s := fun s => rfl
  have h2 : ∀ s, (" -D ".toList ++ s : Str) = ' ' :: ("-D ".toList ++ s) := fun s => rfl
  have h3 : ∀ s, shellWords [] ("-D ".toList ++ s) = "-D".toList :: shellWords [] s := fun s => rfl
  have h4 : " --shell-job --leave-running &) &".toList = ' ' :: "--shell-job --leave-running &) &".toList := rfl
  rw [h1, shellWords_plain _ _ (plain_digits pid), List.nil_append, h2, shellWords_blank _ _ (digits_ne hp), h3, shellWords_plain _ _ ha,
    List.nil_append, h4, shellWords_blank _ _ hn]
  rfl

theorem restore_words (abs : Str) (ha : ∀ c ∈ abs, PlainChar c) (hn : abs ≠ []) :
    shellWords [] (restoreCommand abs) = ["sudo".toList, "criu".toList, "restore".toList, "-D".toList, abs, "--shell-job".toList] := by
  have h0 : restoreCommand abs = "sudo criu restore -D ".toList ++ (abs ++ " --shell-job".toList) := List.append_assoc _ _ _
  have h1 : ∀ s, shellWords [] ("sudo criu restore -D ".toList ++ s) =
      ["sudo".toList, "criu".toList, "restore".toList, "-D".toList] ++ shellWords [] s := fun s => rfl
  have h4 : " --shell-job".toList = ' ' :: "--shell-job".toList := by decide
  have h5 : shellWords [] "--shell-job".toList = ["--shell-job".toList] := by decide
  rw [h0, h1, shellWords_plain _ _ ha, List.nil_append, h4, shellWords_blank _ _ hn, h5]
  rfl

theorem ensure_ok {fs fs' : FS B} {d : Str} (h : fs.ensure d = .ok fs') : fs'.exists_ d = true ∧ fs'.files = fs.files ∧ ∀ q, q ≠ d → fs'.dirs q = fs.dirs q := by
  rw [FS.ensure] at h
  split at h
  · next he =>
      cases h
      exact ⟨he, rfl, fun _ _ => rfl⟩
  · rw [FS.mkdir] at h
    split at h
    · cases h
      exact ⟨by simp [FS.exists_], rfl, fun q hq => by simp [hq]⟩
    · cases h

theorem criuCheckpoint_ok {fs fs' : FS B} {cwd dir cmd msg : Str} {pid : ℕ} {user : Bool}
    (h : criuCheckpoint fs cwd pid dir user = .ok (fs', cmd, msg)) :
    fs.ensure (pathStr dir) = .ok fs' ∧ cmd = dumpCommand user pid (absPath cwd dir) ∧ msg = restoreCommand (absPath cwd dir) := by
  rw [criuCheckpoint] at h
  cases he : fs.ensure (pathStr dir) with
  | error e => rw [he] at h; cases h
  | ok g => rw [he] at h; cases h; exact ⟨rfl, rfl, rfl⟩

/-- **C125** (as root). Let the names of the current directory and of the directory asked for consist of letters, digits and the characters
`/ . - _`. When `criuCheckpoint` returns, the directory is there, no file and no other directory has changed, and the command that was run is, for the shell and for `criu`, a dump as root of this process
into this directory, in the background, after which the process goes on; the command that is printed restores from the same directory. Missing: user mode
and other names, see `C125_user_fails` and `C125_blank_fails`. -/
theorem C125_partial (fs fs' : FS B) (cwd dir cmd msg : Str) (pid : ℕ) (hp : 0 < pid) (h0 : cwd.head? = some '/')
    (hc : ∀ c ∈ cwd, PlainChar c) (hd : ∀ c ∈ dir, PlainChar c) (h : criuCheckpoint fs cwd pid dir false = .ok (fs', cmd, msg)) :
    (∃ e, SameFile cwd e dir ∧ fs'.exists_ e = true ∧ fs'.files = fs.files ∧ ∀ q, q ≠ e → fs'.dirs q = fs.dirs q) ∧
    ∃ ws d n, SameFile cwd d dir ∧ n.foldl (fun a c => 10 * a + (c.toNat - 48)) 0 = pid ∧
      inBackground (shellWords [] cmd) = some ws ∧
      criuCall ws = some (true, "dump".toList, { pid := some n, dir := some d, shellJob := true, leaveRunning := true }) ∧
      criuCall (shellWords [] msg) = some (true, "restore".toList, { dir := some d, shellJob := true }) := by
  obtain ⟨h1, rfl, rfl⟩ := criuCheckpoint_ok h
  refine ⟨⟨pathStr dir, pathStr_same cwd dir, ensure_ok h1⟩, ?_⟩
  have ha := absPath_plain cwd dir hc hd
  have hn : absPath cwd dir ≠ [] := by rw [absPath]; simp
  refine ⟨["sudo".toList, "criu".toList, "dump".toList, "-t".toList, digits pid, "-D".toList, absPath cwd dir,
      "--shell-job".toList, "--leave-running".toList], absPath cwd dir, digits pid, absPath_same cwd dir h0, val_digits pid, ?_, ?_, ?_⟩
  · rw [dump_words pid hp _ ha hn]
    rfl
  · simp [criuCall, criuOptions]
  · rw [restore_words _ ha hn]
    simp [criuCall, criuOptions]

/-- The directory `ck`, seen from `/home/u`, by process 42. -/
example : (criuCheckpoint (⟨fun _ => false, fun _ => none⟩ : FS B) "/home/u".toList 42 "ck".toList false).map Prod.snd =
    .ok ("(sudo criu dump -t 42 -D /home/u/ck --shell-job --leave-running &) &".toList, "sudo criu restore -D /home/u/ck --shell-job".toList) := by
  have : digits 42 = "42".toList := by simp [digits]
  rw [criuCheckpoint, dumpCommand, this]
  rfl

/-- In user mode the dump never happens: the option is misspelt, and `criu` refuses the command. -/
theorem C125_user_fails (fs fs' : FS B) (cwd dir cmd msg : Str) (pid : ℕ) (hp : 0 < pid)
    (hc : ∀ c ∈ cwd, PlainChar c) (hd : ∀ c ∈ dir, PlainChar c) (h : criuCheckpoint fs cwd pid dir true = .ok (fs', cmd, msg)) :
    ∃ ws, inBackground (shellWords [] cmd) = some ws ∧ criuCall ws = none := by
  obtain ⟨h1, rfl, rfl⟩ := criuCheckpoint_ok h
  have ha := absPath_plain cwd dir hc hd
  have hn : absPath cwd dir ≠ [] := by rw [absPath]; simp
  refine ⟨["criu".toList, "dump".toList, "--unpriviledged".toList, "-t".toList, digits pid, "-D".toList, absPath cwd dir,
      "--shell-job".toList, "--leave-running".toList], ?_, ?_⟩
  · rw [dump_words_user pid hp _ ha hn]
    rfl
  · simp [criuCall, criuOptions]

/-- The call of the example in user mode. -/
example : ∃ r, criuCheckpoint (⟨fun _ => false, fun _ => none⟩ : FS B) "/home/u".toList 42 "ck".toList true = .ok r := ⟨_, rfl⟩

/-- A directory whose name contains a blank: the shell cuts the name in two, and `criu` refuses the command. The directory has been made, and the restart command is printed all the same. -/
theorem C125_blank_fails (fs fs' : FS B) (cwd a b cmd msg : Str) (pid : ℕ) (hp : 0 < pid) (hc : ∀ c ∈ cwd, PlainChar c)
    (ha : ∀ c ∈ a, PlainChar c ∧ c ≠ '/') (hb : ∀ c ∈ b, PlainChar c ∧ c ≠ '/' ∧ c ≠ '-') (hb0 : b ≠ [])
    (h : criuCheckpoint fs cwd pid (a ++ ' ' :: b) false = .ok (fs', cmd, msg)) :
    fs'.exists_ (a ++ ' ' :: b) = true ∧ ∃ ws, inBackground (shellWords [] cmd) = some ws ∧ criuCall ws = none := by
  obtain ⟨h1, rfl, rfl⟩ := criuCheckpoint_ok h
  have hslash : '/' ∉ a ++ ' ' :: b := by
    intro hm
    rcases List.mem_append.1 hm with hm | hm
    · exact (ha _ hm).2 rfl
    · rcases List.mem_cons.1 hm with hm | hm
      · exact absurd hm (by decide)
      · exact (hb _ hm).2.1 rfl
  have hhead : (a ++ ' ' :: b).head? ≠ some '/' := fun e => hslash (List.mem_of_mem_head? e)
  have hparts : parts (a ++ ' ' :: b) = [a ++ ' ' :: b] := by
    rw [parts, split_one _ hslash]
    refine List.filter_eq_self.2 fun w hw => ?_
    rw [List.mem_singleton.1 hw]
    have : a ++ ' ' :: b ≠ ['.'] := fun e => by
      have : ' ' ∈ ['.'] := e ▸ (by simp)
      exact absurd this (by decide)
    simpa using this
  have hps : pathStr (a ++ ' ' :: b) = a ++ ' ' :: b := by
    rw [pathStr, if_neg hhead, hparts, if_neg (by simp)]
    simp [List.intercalate]
  rw [hps] at h1
  refine ⟨(ensure_ok h1).1, ?_⟩
  obtain ⟨X, hX, hX0, hXc⟩ := join_last (parts cwd) (a ++ ' ' :: b)
  have hXp : ∀ c ∈ X ++ a, PlainChar c := by
    intro c hm
    rcases List.mem_append.1 hm with hm | hm
    · rcases hXc c hm with rfl | ⟨w, hw, hcw⟩
      · exact Or.inr (Or.inl rfl)
      · exact hc c (parts_plain cwd w hw c hcw)
    · exact (ha c hm).1
  have habs : absPath cwd (a ++ ' ' :: b) = (X ++ a) ++ ' ' :: b := by
    rw [absPath, if_neg hhead, hparts, hX]
    simp
  refine ⟨["sudo".toList, "criu".toList, "dump".toList, "-t".toList, digits pid, "-D".toList, X ++ a, b,
      "--shell-job".toList, "--leave-running".toList], ?_, ?_⟩
  · rw [habs, dumpCommand, if_neg (by decide)]
    simp only [List.append_assoc]
    have h1 : ∀ s, shellWords [] ("(sudo criu dump -t ".toList ++ s) =
        ["(".toList, "sudo".toList, "criu".toList, "dump".toList, "-t".toList] ++ shellWords [] s := fun s => rfl
    have h2 : ∀ s, (" -D ".toList ++ s : Str) = ' ' :: ("-D ".toList ++ s) := fun s => rfl
    have h3 : ∀ s, shellWords [] ("-D ".toList ++ s) = "-D".toList :: shellWords [] s := fun s => rfl
    have h4 : " --shell-job --leave-running &) &".toList = ' ' :: "--shell-job --leave-running &) &".toList := rfl
    have h5 : ∀ s : Str, X ++ (a ++ (' ' :: b ++ s)) = (X ++ a) ++ ' ' :: (b ++ s) := fun s => by simp
    rw [h1, shellWords_plain _ _ (plain_digits pid), List.nil_append, h2, shellWords_blank _ _ (digits_ne hp), h3, h5,
      shellWords_plain _ _ hXp, List.nil_append, shellWords_blank _ _ (by simp [hX0]), shellWords_plain _ _ (fun c hm => (hb c hm).1),
      List.nil_append, h4, shellWords_blank _ _ hb0]
    rfl
  · have hdash : ∀ s : Str, '-' ∈ s → b ≠ s := fun s hs e => (hb '-' (e ▸ hs)).2.2 rfl
    have e1 := hdash "-t".toList (by decide)
    have e2 := hdash "-D".toList (by decide)
    have e3 := hdash "--shell-job".toList (by decide)
    have e4 := hdash "--leave-running".toList (by decide)
    have e5 := hdash "--unprivileged".toList (by decide)
    simp only [criuCall, criuOptions, List.take, List.drop, e1, e2, e3, e4, e5, if_true, if_false]
    rfl

/-- The directory `my run`, seen from `/home/u`. -/
example : ∃ r, criuCheckpoint (⟨fun _ => false, fun _ => none⟩ : FS B) "/home/u".toList 42 ("my".toList ++ ' ' :: "run".toList) false = .ok r := ⟨_, rfl⟩

/-! ## `saveAll` and `Render` -/

/-- **C126** (`saveAll`). When it returns, two files have been written, the figure and the pickled object, both with the figure as it is; the
second is named after the first argument; no other file has changed, and the two do not overwrite each other. -/
theorem C126_saveAll (fs fs' : FS B) (fileName : Str) (fileType : Option Str) (fig : B) (htype : ∀ t, fileType = some t → t ∈ mplTypes)
    (h : saveAll fs fileName fileType fig = .ok fs') :
    ∃ p f, f ∈ mplTypes ∧ (∀ t, fileType = some t → f = t ∧ p = fileName ++ '.' :: t) ∧ (fileType = none → p = fileName) ∧
      fs'.files p = some ⟨f, fig⟩ ∧ fs'.files (fileName ++ ".pickle".toList) = some ⟨"pickle".toList, fig⟩ ∧
      p ≠ fileName ++ ".pickle".toList ∧ fs'.dirs = fs.dirs ∧
      ∀ q, q ≠ p → q ≠ fileName ++ ".pickle".toList → fs'.files q = fs.files q := by
  rw [saveAll] at h
  cases hm : mplSave fs fileName fileType fig with
  | error e => rw [hm] at h; cases h
  | ok g =>
      rw [hm] at h
      obtain ⟨⟨a1, a2, a3⟩, -⟩ := write_ok hm
      obtain ⟨⟨b1, b2, b3⟩, -⟩ := write_ok (show g.write (fileName ++ ".pickle".toList) ⟨"pickle".toList, fig⟩ = .ok fs' from h)
      have key : (mplTarget fileName fileType).2 ∈ mplTypes ∧
          (∀ t, fileType = some t → (mplTarget fileName fileType).2 = t ∧ (mplTarget fileName fileType).1 = fileName ++ '.' :: t) ∧
          (fileType = none → (mplTarget fileName fileType).1 = fileName) ∧ (mplTarget fileName fileType).1 ≠ fileName ++ ".pickle".toList := by
        cases fileType with
        | none =>
            have hno : noType (none : Option Str) = true := rfl
            rw [mplTarget, hno, if_pos rfl]
            refine ⟨?_, by simp, ?_, ?_⟩
            · split
              · next hs => exact hs
              · show pdf ∈ mplTypes
                decide
            · intro _; split <;> rfl
            · have : fileName ≠ fileName ++ ".pickle".toList := fun e => by
                have := congrArg List.length e
                simp at this
              split <;> exact this
        | some t =>
            have ht := htype t rfl
            have hno : noType (some t) = false := by simp [noType, (plain_types t (by simp [ht])).1]
            rw [mplTarget, hno]
            refine ⟨ht, by rintro _ ⟨⟩; exact ⟨rfl, rfl⟩, by simp, ?_⟩
            intro e
            have e := List.append_cancel_left e
            have : t = "pickle".toList := by simpa using e
            rw [this] at ht
            exact absurd ht (by decide)
      refine ⟨_, _, key.1, key.2.1, key.2.2.1, ?_, b2, key.2.2.2, b1.trans a1, fun q h1 h2 => ?_⟩
      · rw [b3 _ key.2.2.2, a2]
      · rw [b3 q h2, a3 q h1]

/-- A figure saved as `a.svg` and `a.pickle` in the current directory. -/
example (fig : B) : ∃ fs', saveAll (⟨fun _ => false, fun _ => none⟩ : FS B) ['a'] (some svg) fig = .ok fs' := ⟨_, rfl⟩

theorem renderOne_ok {fs fs' : FS B} {outFile f : Str} {graph : B} (h : renderOne fs outFile graph f = .ok fs') :
    fs'.files (outFile ++ '.' :: f) = some ⟨f, graph⟩ ∧ fs'.files outFile = none ∧
      ∀ q, q ≠ outFile → q ≠ outFile ++ '.' :: f → fs'.files q = fs.files q := by
  have hne : outFile ++ '.' :: f ≠ outFile := fun e => by
    have := congrArg List.length e
    simp at this
  rw [renderOne] at h
  obtain ⟨g0, h0, hf0⟩ : ∃ g0 : FS B, makeParents fs outFile = .ok g0 ∧ g0.files = fs.files := by
    cases hh : makeParents fs outFile with
    | error e => rw [hh] at h; cases h
    | ok g0 =>
        refine ⟨g0, rfl, ?_⟩
        rw [makeParents] at hh
        split at hh
        · cases hh; rfl
        · rw [FS.ensureAll] at hh
          split at hh
          · cases hh; rfl
          · rw [FS.makedirs] at hh
            split at hh
            · cases hh; rfl
            · cases hh
  rw [h0] at h
  cases h1 : g0.write outFile ⟨"gv".toList, graph⟩ with
  | error e => change (g0.write outFile ⟨"gv".toList, graph⟩ >>= _) = _ at h; rw [h1] at h; cases h
  | ok g1 =>
      change (g0.write outFile ⟨"gv".toList, graph⟩ >>= _) = _ at h
      rw [h1] at h
      cases h2 : g1.write (outFile ++ '.' :: f) ⟨f, graph⟩ with
      | error e => change (g1.write (outFile ++ '.' :: f) ⟨f, graph⟩ >>= _) = _ at h; rw [h2] at h; cases h
      | ok g2 =>
          change (g1.write (outFile ++ '.' :: f) ⟨f, graph⟩ >>= _) = _ at h
          rw [h2] at h
          cases h
          obtain ⟨⟨-, a2, a3⟩, -⟩ := write_ok h1
          obtain ⟨⟨-, b2, b3⟩, -⟩ := write_ok h2
          refine ⟨by simp [remove, b2], by simp [remove], fun q hq1 hq2 => ?_⟩
          simp only [remove, if_neg hq1]
          rw [b3 q hq2, a3 q hq1, hf0]

/-- **C126** (`Dot.Render`). When it returns, there is a file in every format asked for, named after the format; no other file has changed, except
that what was stored under the bare name is gone: the source of the graph is written there and removed. -/
theorem C126_render (fs fs' : FS B) (outFile : Str) (graph : B) (formats : List Str) (h : render fs outFile graph formats = .ok fs') :
    (∀ f ∈ formats, fs'.files (outFile ++ '.' :: f) = some ⟨f, graph⟩) ∧
    (∀ q, q ≠ outFile → (∀ f ∈ formats, q ≠ outFile ++ '.' :: f) → fs'.files q = fs.files q) ∧
    (formats ≠ [] → fs'.files outFile = none) := by
  induction formats generalizing fs with
  | nil => cases h; simp
  | cons f formats ih =>
      rw [render] at h
      cases h1 : renderOne fs outFile graph f with
      | error e => rw [h1] at h; cases h
      | ok g =>
          rw [h1] at h
          obtain ⟨i1, i2, i3⟩ := ih g h
          obtain ⟨r1, r2, r3⟩ := renderOne_ok h1
          have hne : outFile ++ '.' :: f ≠ outFile := fun e => by
            have := congrArg List.length e
            simp at this
          refine ⟨?_, ?_, ?_⟩
          · intro e he
            rcases List.mem_cons.1 he with rfl | he
            · by_cases hm : e ∈ formats
              · exact i1 e hm
              · rw [i2 _ hne (fun d hd hq => hm (by simpa using (List.cons.inj (List.append_cancel_left hq)).2 ▸ hd)), r1]
            · exact i1 e he
          · intro q hq hqf
            rw [i2 q hq (fun d hd => hqf d (by simp [hd])), r3 q hq (hqf f (by simp))]
          · intro _
            by_cases hm : formats = []
            · subst hm
              cases h
              exact r2
            · exact i3 hm

/-- The two formats of the default, in the current directory. -/
example (graph : B) : ∃ fs', render (⟨fun _ => false, fun _ => none⟩ : FS B) ['g'] graph ["cmapx".toList, svg] = .ok fs' := ⟨_, rfl⟩

end Verif.Props
