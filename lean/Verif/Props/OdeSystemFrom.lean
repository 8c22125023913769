import Verif.Props.LandingRun

/-! # Solver objects for systems, started from other unknowns than those of the construction -/

namespace Verif.Props

open Set Polynomial Verif Verif.Mem Verif.Py Verif.Np Verif.Spec Verif.Model Verif.Model.Py Verif.Model.LSq Verif.Model.Prog Verif.Model.Dict
  Verif.Lemmas.LSq
open scoped ContDiff

variable {nf m : ℕ}

/-- **C104, with a solver object.** As `C104_newton_class`, and every run may start from any unknowns of the same form. -/
theorem C104_newton_class_from {lib : LinAlg} (hlib : LinAlgCorrect lib) {method : Method} (hm : method ≠ .other) (Sf : List (View String) → PSys nf m)
    {cls : DictClass} {kvs : List (String × Arr ℝ)} (hp : ProperUnknowns (.dict cls kvs)) (hpos : entries (View.dict cls kvs) ≠ [])
    (args0 : List (View String)) (tol : ℝ) (htol : tol < 1) (maxIter : ℕ) (timer : Bool) (fuel : ℕ) (hf : maxIter + 2 ≤ fuel) :
    ∃ o, (NllsObj.init lib method none none none tol maxIter timer (psysResidual Sf) (.dict cls kvs) args0 []).1 = .ok o ∧
      ∀ args, args.length = args0.length → SmoothSys (Sf args) → FitsSys (Sf args) kvs → places (Sf args).eqs ≠ [] →
        ∀ (c : Bool) (xi : View String), SameForm (.dict cls kvs) xi →
          ∃ (v : View String) (it : ℕ) (vs : ℕ → View String) (sts : ℕ → PState nf m),
            NllsObj.run { o with compiled := c } xi args fuel = (.ok (some (v, (it : ℤ))), { o with compiled := true }) ∧
            SysRun (Sf args) xi tol maxIter v it vs sts := by
  obtain ⟨o, h1, h2⟩ := C37_nllsClass_args_partial lib method hm none (psysResidual Sf) (.dict cls kvs) args0 [] ⟨by simp, by simp⟩ none tol htol
    maxIter timer fuel hf
  refine ⟨o, h1, fun args hlen hs hS hne c xi hxi => ?_⟩
  obtain ⟨S, hSe⟩ : ∃ S, S = Sf args := ⟨_, rfl⟩
  rw [← hSe] at hs hS hne ⊢
  obtain ⟨n, hn⟩ : ∃ n, (entries (View.dict cls kvs)).length = n := ⟨_, rfl⟩
  have hn0 : n ≠ 0 := by
    intro h
    exact hpos (List.length_eq_zero_iff.1 (by rw [hn, h]))
  have hval : ∀ v, SameForm (.dict cls kvs) v → (psysResidual Sf) (v :: args) = (places S.eqs).map (placeMiss S kvs (coef (entries v))) := by
    intro v hv
    simp only [psysResidual, ← hSe, psysRes_value hs hS hv, orEmpty]
  obtain ⟨rest, h3, h4⟩ := h2 args ⟨hlen, by simp⟩
  have hrest : rest = args := by
    obtain ⟨r, e1, e2⟩ := popArgs_ok (L := []) (by simp) (View.dict cls kvs) args (by simp)
    cases e1
    rw [h3] at e2
    cases e2
    rfl
  subst hrest
  obtain ⟨x, k, h5, h6⟩ := h4 ⟨hlib, hm, Or.inl rfl, ⟨by simp, by simp⟩, hp, hpos, fun v hv => by rw [hval v hv]; simpa using hne⟩ c xi hxi
  obtain ⟨xs, h0, hx, h7⟩ := local_stops hn0 hn hval (fun t _ => placeMiss_first hS hn t) hxi h6
  refine ⟨x, k, xs, fun j => stateOf S kvs (coef (entries (xs j))), h5, h7.bound, h0, hx,
    fun j hj => SameForm.trans (SameForm.symm hxi) (h7.form j hj), fun j hj => means_stateOf hS (h7.form j hj), ?_, ?_, ?_⟩
  · intro j hj hr v' st' hv' hst'
    have := h7.step j hj (fun t ht => placeMiss_diff hs hS hn hr ht) (coef (entries v'))
    rw [means_unique hS (SameForm.trans hxi hv') hst', ← sum_places, ← sum_places]
    simpa only [linAt_places] using this
  · intro j hj hr v' st' hv' hst' hle
    have := h7.shortest j hj (fun t ht => placeMiss_diff hs hS hn hr ht) (coef (entries v'))
    rw [means_unique hS (SameForm.trans hxi hv') hst', ← sum_places, ← sum_places] at hle
    simp only [linAt_places] at this
    rw [(SameForm.length hxi).symm.trans hn]
    exact this hle
  · rcases h7.stop with h | h | h
    · exact Or.inl fun E hE x hx o => h ⟨E, x, o⟩ (mem_places.2 ⟨hE, hx⟩)
    · exact Or.inr (Or.inl h)
    · exact Or.inr (Or.inr h)

end Verif.Props
