import Verif.Props.DiffCor
import Verif.Props.OrbitsRun

/-! # C109: the runs of the differential corrector -/

namespace Verif.Props

open Set Filter Topology Verif.Spec Verif.Model.Py Verif.Lemmas

variable {μ : ℝ}

theorem stateJacobi_eq (mu : ℝ) (y : ℕ → ℝ) : stateJacobi mu y = planarJacobi mu (first4 y) := by
  unfold stateJacobi planarJacobi
  rw [C106_getJacobi]
  congr 1

/-- **C109, the correction solves the linear equations**: exactly if the matrix is regular, and otherwise in the sense of least squares. Only `x` and `ẏ` of the start change. -/
theorem C109_step {pinv : Matrix (Fin 2) (Fin 2) ℝ → Matrix (Fin 2) (Fin 2) ℝ} (hp : ∀ M, IsPinv M (pinv M)) (mu Cdes : ℝ) (yInit y : ℕ → ℝ) :
    let q : Fin 2 → ℝ := ![corUpdate pinv mu Cdes yInit y 0 - yInit 0, corUpdate pinv mu Cdes yInit y 3 - yInit 3]
    let b : Fin 2 → ℝ := ![-y 2, Cdes - planarJacobi mu (first4 y)]
    ((corMatrix mu yInit y).det ≠ 0 → (corMatrix mu yInit y).mulVec q = b) ∧
      (∀ v, ∑ i, ((corMatrix mu yInit y).mulVec q i - b i) ^ 2 ≤ ∑ i, ((corMatrix mu yInit y).mulVec v i - b i) ^ 2) ∧
      ∀ k, k ≠ 0 → k ≠ 3 → corUpdate pinv mu Cdes yInit y k = yInit k := by
  intro q b
  generalize hM : corMatrix mu yInit y = M
  obtain ⟨p1, p2, p3, p4⟩ := hp M
  generalize hP : pinv M = P at p1 p2 p3 p4
  have hq : q = P.mulVec b := by
    show ![_, _] = _
    unfold corUpdate
    simp only [hM, hP, stateJacobi_eq]
    have : (![-(y 2), -(-Cdes + planarJacobi mu (first4 y))] : Fin 2 → ℝ) = b := by
      funext i; fin_cases i
      · simp [b]
      · simp [b]
        ring
    rw [this]
    funext i
    fin_cases i <;> simp
  refine ⟨fun hdet => ?_, fun v => ?_, fun k h0 h3 => by simp [corUpdate, h0, h3]⟩
  · have hu : IsUnit M := (Matrix.isUnit_iff_isUnit_det M).2 hdet.isUnit
    have : M * P = 1 := by
      have h := p1
      exact hu.mul_right_cancel (by rw [h, one_mul])
    rw [hq, Matrix.mulVec_mulVec, this, Matrix.one_mulVec]
  · have horth : ∀ u : Fin 2 → ℝ, (M.mulVec q - b) ⬝ᵥ M.mulVec u = 0 := by
      intro u
      have e1 : M.mulVec q - b = (M * P - 1).mulVec b := by rw [hq, Matrix.mulVec_mulVec, Matrix.sub_mulVec, Matrix.one_mulVec]
      rw [e1, Matrix.dotProduct_mulVec, ← Matrix.mulVec_transpose, Matrix.mulVec_mulVec]
      have : M.transpose * (M * P - 1) = 0 := by
        have h : ((M * P - 1).transpose * M) = 0 := by
          rw [Matrix.transpose_sub, p3, Matrix.transpose_one, Matrix.sub_mul, p1, Matrix.one_mul, sub_self]
        have h2 := congrArg Matrix.transpose h
        rwa [Matrix.transpose_mul, Matrix.transpose_transpose, Matrix.transpose_zero] at h2
      rw [this, Matrix.zero_mulVec, zero_dotProduct]
    have h := horth (v - q)
    rw [Matrix.mulVec_sub] at h
    simp only [dotProduct, Fin.sum_univ_two, Pi.sub_apply] at h
    simp only [Fin.sum_univ_two]
    nlinarith [sq_nonneg (M.mulVec v 0 - M.mulVec q 0), sq_nonneg (M.mulVec v 1 - M.mulVec q 1)]

/-- The call of `solve_ivp` gives the end of an exact solution, without collision. -/
def ExactCall (ivp : (ℕ → ℝ) → ℝ → IvpEnd) (y : ℕ → ℝ) (tauMax : ℝ) : Prop :=
  ∃ Y : ℝ → ℕ → ℝ, 0 ≤ (ivp y tauMax).t ∧ ExactPcr (ivp y tauMax).t Y ∧ Y 0 = y ∧ Y (ivp y tauMax).t = (ivp y tauMax).y ∧
    ∀ τ ∈ Icc 0 (ivp y tauMax).t, Apart earthMoon (first4 (Y τ))

theorem corLoop_said {ivp : (ℕ → ℝ) → ℝ → IvpEnd} {pinv : Matrix (Fin 2) (Fin 2) ℝ → Matrix (Fin 2) (Fin 2) ℝ} {solve : (ℝ → ℝ) → ℝ → ℝ} {T Ax mu Cdes tauMax : ℝ} :
    ∀ {fuel : ℕ} {yInit : ℕ → ℝ} {count : ℕ} {said : List String} {c : Cor}, corLoop ivp pinv solve T Ax mu Cdes tauMax fuel yInit count said = some c → c.said = [] →
      (∀ k, k ≠ 0 → k ≠ 3 → c.x0 k = yInit k) ∧ |(ivp c.x0 tauMax).y 1| < 1e-3 ∧ |(ivp c.x0 tauMax).y 2| < corTol ∧ |stateJacobi mu (ivp c.x0 tauMax).y - Cdes| < corTol ∧
        (ivp c.x0 tauMax).y 20 ≠ 0 ∧ c.period = 2 * (ivp c.x0 tauMax).y 20 ∧ c.periodTau = 2 * (ivp c.x0 tauMax).t ∧ count < c.count
  | 0, _, _, _, _, h, _ => by simp [corLoop] at h
  | fuel + 1, yInit, count, said, c, h, hs => by
    rw [corLoop] at h
    split at h
    · next hstop =>
      obtain rfl := Option.some.inj h
      simp only [List.append_eq_nil_iff] at hs
      obtain ⟨⟨⟨-, h1⟩, h2⟩, h3⟩ := hs
      have n1 : ¬ 1e-3 ≤ |(ivp yInit tauMax).y 1| := by
        intro hc; rw [if_pos hc] at h1; simp at h1
      have n2 : ¬ 100 * Ax * (1 - mu - ((lagrange solve mu).getD 0 (0, 0)).1) ≤ Real.sqrt ((yInit 0 - (ivp yInit tauMax).y 0) ^ 2 + (yInit 1 - (ivp yInit tauMax).y 1) ^ 2) := by
        intro hc; rw [if_pos hc] at h2; simp at h2
      have n3 : ¬ |2 * (ivp yInit tauMax).y 20| = 0 := by
        intro hc; rw [if_pos hc] at h3; simp at h3
      have h4 := (hstop.resolve_left n1).resolve_left n2
      refine ⟨fun _ _ _ => rfl, not_le.1 n1, h4.1, h4.2, fun h0 => n3 (by rw [h0]; simp), ?_, rfl, Nat.lt_succ_self _⟩
      simp only [n3, if_false]
    · obtain ⟨a1, a2, a3, a4, a5, a6, a7, a8⟩ := corLoop_said h hs
      refine ⟨fun k h0 h3 => ?_, a2, a3, a4, a5, a6, a7, by omega⟩
      rw [a1 k h0 h3]
      simp [corUpdate, h0, h3]

theorem planarJacobi_motion {X : ℝ → Fin 4 → ℝ} {b : ℝ} (hb : 0 < b) (h : PlanarMotion μ 0 b X) {t : ℝ} (ht : t ∈ Icc 0 b) : planarJacobi μ (X t) = planarJacobi μ (X 0) := by
  obtain ⟨W, h1, h2⟩ := extend_curve hb fun z hz => (h z hz).2
  have := planarJacobi_const (μ := μ) (X := W) (b := b) (fun z hz => by rw [h1 z hz]; exact ⟨(h z hz).1, h2 z hz⟩) ht
  rwa [h1 t ht, h1 0 ⟨le_rfl, hb.le⟩] at this

/-- **C109, a run of the corrector.** If the run ends and has printed nothing, and the last call of `solve_ivp` was exact, the start it gives back leaves the line through the
bodies at a right angle, has the desired constant of Jacobi up to `tol_sym`, and after half of the period meets the line again, up to the two tolerances, at a right angle. The mirror
image takes the motion back to the start. If it meets the line exactly at a right angle, the motion is periodic with the period that is given back. -/
theorem C109_return_partial {ivp : (ℕ → ℝ) → ℝ → IvpEnd} {pinv : Matrix (Fin 2) (Fin 2) ℝ → Matrix (Fin 2) (Fin 2) ℝ} {solve : (ℝ → ℝ) → ℝ → ℝ} {fuel : ℕ} {Ax T Cdes : ℝ} {x0 : ℕ → ℝ}
    {c : Cor} (h : diffCor ivp pinv solve fuel earthMoon Ax x0 T Cdes = some c) (hs : c.said = []) (h01 : x0 1 = 0) (h02 : x0 2 = 0)
    (hex : ExactCall ivp c.x0 (2 * T / Real.sqrt ((x0 0 - 1 + earthMoon) ^ 2 + x0 1 ^ 2))) :
    0 < c.period ∧ 0 < c.count ∧ ∃ X : ℝ → Fin 4 → ℝ, PlanarMotion earthMoon 0 (c.period / 2) X ∧ X 0 = ![c.x0 0, 0, 0, c.x0 3] ∧
      |planarJacobi earthMoon (X 0) - Cdes| < 2.220446049250313e-14 ∧ |X (c.period / 2) 1| < 1e-3 ∧ |X (c.period / 2) 2| < 2.220446049250313e-14 ∧
      PlanarMotion earthMoon (c.period / 2) c.period (fun t => mirrored (X (c.period - t))) ∧ mirrored (X (c.period - c.period)) = X 0 ∧
      (X (c.period / 2) 1 = 0 → X (c.period / 2) 2 = 0 → ∃ Z, ThreeBody earthMoon Z ∧ PeriodicMotion c.period Z ∧
        (∀ i, Z i 0 = (![c.x0 0, 0, 0] : Fin 3 → ℝ) i) ∧ ∀ i, deriv (Z i) 0 = (![0, c.x0 3, 0] : Fin 3 → ℝ) i) := by
  obtain ⟨b1, b2, b3, b4, b5, b6, b7, b8⟩ := corLoop_said h hs
  obtain ⟨Y, e0, e1, e2, e3, e4⟩ := hex
  have c1 : c.x0 1 = 0 := by rw [b1 1 (by norm_num) (by norm_num)]; simp [corInit, h01]
  have c2 : c.x0 2 = 0 := by rw [b1 2 (by norm_num) (by norm_num)]; simp [corInit, h02]
  have c20 : c.x0 20 = 0 := by rw [b1 20 (by norm_num) (by norm_num)]; simp [corInit]
  have h20 : Y 0 20 = 0 := by rw [e2, c20]
  rcases eq_or_lt_of_le e0 with ht | ht
  · exfalso
    rw [← ht, e2] at e3
    rw [← e3] at b5
    exact b5 c20
  obtain ⟨hP, X, Φ, hX, -, hXY⟩ := C109_time ht e1 e4 h20
  have hX0 := (hXY 0 ⟨le_rfl, ht.le⟩).2.1
  have hXe := (hXY _ ⟨ht.le, le_rfl⟩).2.1
  rw [h20, e2] at hX0
  rw [e3] at hXe hP hX
  have hper : c.period / 2 = (ivp c.x0 (2 * T / Real.sqrt ((x0 0 - 1 + earthMoon) ^ 2 + x0 1 ^ 2))).y 20 := by rw [b6]; ring
  rw [← hper] at hXe hP hX
  have hs0 : X 0 = ![c.x0 0, 0, 0, c.x0 3] := by
    rw [hX0]; funext i; fin_cases i
    · rfl
    · exact c1
    · exact c2
    · rfl
  have hpos : 0 < c.period := by linarith
  have hmirror := mirrored_motion hX
  rw [show 2 * (c.period / 2) = c.period by ring] at hmirror
  refine ⟨hpos, by omega, X, hX, hs0, ?_, ?_, ?_, hmirror, ?_, fun h1 h2 => ?_⟩
  · rw [← planarJacobi_motion hP hX ⟨hP.le, le_rfl⟩, hXe, ← stateJacobi_eq]
    exact b4
  · rw [hXe]; exact b2
  · rw [hXe]; exact b3
  · rw [sub_self, hs0]
    funext i; fin_cases i <;> simp [mirrored]
  · obtain ⟨Z, z1, z2, z3⟩ := C109_symmetric hP hX (by rw [hs0]; rfl) (by rw [hs0]; rfl) h1 h2
    rw [show 2 * (c.period / 2) = c.period by ring] at z2
    have z0 := z3 0 ⟨le_rfl, hP.le⟩
    rw [hs0] at z0
    exact ⟨Z, z1, z2, z0.1, z0.2⟩

/-! ## The way to the desired constant -/

theorem adapt_ge (minF f : ℝ) (n : ℕ) : minF ≤ adaptFactor minF f n := by
  have key : ∀ f3 : ℝ, minF ≤ if f3 ≤ minF then minF else f3 := fun f3 => by
    split
    · exact le_rfl
    · next h => exact (not_le.1 h).le
  exact key _

/-- One step: what is left is a part of the whole, and less by the factor. -/
theorem target_step {Cstar Cdes dC0 f ρ : ℝ} (hf : 0 ≤ f) (hρ : 0 ≤ ρ) (hC : Cstar - Cdes = ρ * dC0) :
    ∃ ρ', 0 ≤ ρ' ∧ (ρ' = 0 ∨ ρ' ≤ ρ - f) ∧ Cstar - (Cdes + if |Cstar - Cdes| < |f * dC0| then Cstar - Cdes else f * dC0) = ρ' * dC0 := by
  split
  · exact ⟨0, le_rfl, Or.inl rfl, by ring⟩
  · next h =>
    rcases eq_or_ne dC0 0 with h0 | h0
    · exact ⟨0, le_rfl, Or.inl rfl, by rw [h0] at hC ⊢; linarith⟩
    · refine ⟨ρ - f, ?_, Or.inr le_rfl, by linear_combination hC⟩
      rw [hC, abs_mul, abs_mul, abs_of_nonneg hρ, abs_of_nonneg hf] at h
      have := le_of_mul_le_mul_right (not_lt.1 h) (abs_pos.2 h0)
      linarith

theorem targetLoop_spec {cor : (ℕ → ℝ) → ℝ → ℝ → Option Cor} {mu Cstar dC0 minF : ℝ} (hm : 0 < minF) :
    ∀ {more : ℕ} {x0 : ℕ → ℝ} {period Cdes f ρ : ℝ} {o : TargetOut}, minF ≤ f → 0 ≤ ρ → ρ ≤ ((more : ℝ) + 1) * minF → Cstar - Cdes = ρ * dC0 →
      targetLoop cor mu Cstar dC0 minF more x0 period Cdes f = some o →
      o.res = |Cstar - stateJacobi mu o.x0| ∧ (o.found ↔ o.res ≤ corTol) ∧
        (∃ x p C c, cor x p C = some c ∧ o.x0 = c.x0 ∧ o.period = c.period ∧ o.periodTau = c.periodTau ∧ (o.res ≤ corTol ∨ C = Cstar))
  | 0, x0, period, Cdes, f, ρ, o, hf, hρ, hρ2, hC, h => by
    rw [targetLoop] at h
    obtain ⟨ρ', h1, h2, h3⟩ := target_step (hm.le.trans hf) hρ hC
    generalize (Cdes + if |Cstar - Cdes| < |f * dC0| then Cstar - Cdes else f * dC0) = Cd at h h3
    cases hc : cor x0 period Cd with
    | none => rw [hc] at h; simp at h
    | some c =>
      rw [hc] at h
      simp only [Option.bind_eq_bind, Option.bind_some, Option.some.injEq] at h
      subst h
      refine ⟨rfl, not_lt, x0, period, Cd, c, hc, rfl, rfl, rfl, Or.inr ?_⟩
      have : ρ' = 0 := by
        rcases h2 with h2 | h2
        · exact h2
        · simp only [Nat.cast_zero, zero_add, one_mul] at hρ2
          linarith
      rw [this] at h3
      linarith
  | more + 1, x0, period, Cdes, f, ρ, o, hf, hρ, hρ2, hC, h => by
    rw [targetLoop] at h
    obtain ⟨ρ', h1, h2, h3⟩ := target_step (hm.le.trans hf) hρ hC
    generalize (Cdes + if |Cstar - Cdes| < |f * dC0| then Cstar - Cdes else f * dC0) = Cd at h h3
    cases hc : cor x0 period Cd with
    | none => rw [hc] at h; simp at h
    | some c =>
      rw [hc] at h
      simp only [Option.bind_eq_bind, Option.bind_some] at h
      split at h
      · next hres =>
        simp only [Option.some.injEq] at h
        subst h
        exact ⟨rfl, not_lt, x0, period, Cd, c, hc, rfl, rfl, rfl, Or.inl hres⟩
      · refine targetLoop_spec hm (adapt_ge _ _ _) h1 ?_ h3 h
        push_cast at hρ2
        rcases h2 with h2 | h2
        · rw [h2]; positivity
        · nlinarith

theorem targetLoop_congr {cor cor' : (ℕ → ℝ) → ℝ → ℝ → Option Cor} {mu Cstar dC0 minF : ℝ} (hm : 0 < minF)
    (hcor : ∀ x p C ρ, 0 ≤ ρ → ρ ≤ 1 → Cstar - C = ρ * dC0 → cor x p C = cor' x p C) :
    ∀ {more : ℕ} {x0 : ℕ → ℝ} {period Cdes f ρ : ℝ}, minF ≤ f → 0 ≤ ρ → ρ ≤ 1 → Cstar - Cdes = ρ * dC0 →
      targetLoop cor mu Cstar dC0 minF more x0 period Cdes f = targetLoop cor' mu Cstar dC0 minF more x0 period Cdes f := by
  intro more
  induction more with
  | zero =>
    intro x0 period Cdes f ρ hf hρ hρ1 hC
    rw [targetLoop, targetLoop]
    obtain ⟨ρ', h1, h2, h3⟩ := target_step (hm.le.trans hf) hρ hC
    generalize (Cdes + if |Cstar - Cdes| < |f * dC0| then Cstar - Cdes else f * dC0) = Cd at h3 ⊢
    rw [hcor x0 period Cd ρ' h1 (by rcases h2 with h2 | h2 <;> linarith) h3]
  | succ more ih =>
    intro x0 period Cdes f ρ hf hρ hρ1 hC
    rw [targetLoop, targetLoop]
    obtain ⟨ρ', h1, h2, h3⟩ := target_step (hm.le.trans hf) hρ hC
    generalize (Cdes + if |Cstar - Cdes| < |f * dC0| then Cstar - Cdes else f * dC0) = Cd at h3 ⊢
    have hρ' : ρ' ≤ 1 := by rcases h2 with h2 | h2 <;> linarith
    rw [hcor x0 period Cd ρ' h1 hρ' h3]
    cases cor' x0 period Cd with
    | none => rfl
    | some c =>
      simp only [Option.bind_eq_bind, Option.bind_some]
      rw [ih (adapt_ge _ _ _) h1 hρ' h3]

/-- **C109, the way to the desired constant.** Whatever the corrector does: it is asked only for constants between the first one and `Cstar` (two correctors that agree there
give the same run); the orbit given back comes from its last call; and if that orbit does not have the constant `Cstar` up to `tol_res`, the last call was for `Cstar` itself. So
`LYAP FOUND!` is printed, provided the corrector gives what it is asked for. -/
theorem C109_target (cor : (ℕ → ℝ) → ℝ → ℝ → Option Cor) (mu Cstar : ℝ) (x0 : ℕ → ℝ) (period : ℝ) (n : ℕ) :
    (∀ cor' : (ℕ → ℝ) → ℝ → ℝ → Option Cor, (∀ x p C, C ∈ uIcc (planarJacobi mu (first4 x0)) Cstar → cor x p C = cor' x p C) →
      targetLyap cor mu Cstar x0 period n = targetLyap cor' mu Cstar x0 period n) ∧
    ∀ o, targetLyap cor mu Cstar x0 period n = some o →
      o.res = |Cstar - planarJacobi mu (first4 o.x0)| ∧ (o.found ↔ o.res ≤ 2.220446049250313e-14) ∧
      (∃ x p C c, cor x p C = some c ∧ o.x0 = c.x0 ∧ o.period = c.period ∧ o.periodTau = c.periodTau ∧ (o.res ≤ 2.220446049250313e-14 ∨ C = Cstar)) ∧
      ((∀ x p C c, cor x p C = some c → |planarJacobi mu (first4 c.x0) - C| < 2.220446049250313e-14) → o.found) := by
  have hn : (0 : ℝ) < (n : ℝ) + 1 := by positivity
  have hm : 0 < 1 / ((n : ℝ) + 1) := by positivity
  have hf : 1 / ((n : ℝ) + 1) ≤ 1 / ((n : ℝ) + 1) * 2 := by linarith
  refine ⟨fun cor' hcor => ?_, fun o h => ?_⟩
  · rw [targetLyap, targetLyap]
    dsimp only
    rw [hcor x0 period (stateJacobi mu x0) (by rw [stateJacobi_eq]; exact left_mem_uIcc)]
    cases cor' x0 period (stateJacobi mu x0) with
    | none => rfl
    | some c =>
      simp only [Option.bind_eq_bind, Option.bind_some]
      refine targetLoop_congr (ρ := 1) hm (fun x p C ρ h0 h1 hC => hcor x p C ?_) hf (by norm_num) le_rfl (by ring)
      rw [stateJacobi_eq] at hC
      rw [show C = planarJacobi mu (first4 x0) + (1 - ρ) * (Cstar - planarJacobi mu (first4 x0)) by linarith, ← segment_eq_uIcc]
      exact ⟨ρ, 1 - ρ, h0, by linarith, by ring, by simp only [smul_eq_mul]; ring⟩
  · rw [targetLyap] at h
    dsimp only at h
    cases hc : cor x0 period (stateJacobi mu x0) with
    | none => rw [hc] at h; simp at h
    | some c =>
      rw [hc] at h
      simp only [Option.bind_eq_bind, Option.bind_some] at h
      obtain ⟨a1, a2, a3⟩ := targetLoop_spec (ρ := 1) hm hf (by norm_num) (by rw [mul_one_div_cancel hn.ne']) (by ring) h
      rw [stateJacobi_eq] at a1
      refine ⟨a1, a2, a3, fun hgood => a2.2 ?_⟩
      obtain ⟨x, p, C, c', b1, b2, -, -, b3⟩ := a3
      rcases b3 with b3 | b3
      · exact b3
      · have := hgood x p C c' b1
        rw [b3] at this
        rw [a1, b2, abs_sub_comm]
        exact this.le

theorem earthMoon_eq : earthMoon = 3673 / 302293 := by unfold earthMoon; norm_num

/-- **`PCR3BP` ignores the mass ratio** that `target_lyap` and `diff_cor_lyap_p` are called with: for another one its equations are not those of the third body, whatever the rate
of the time. -/
theorem C109_mass_fails : ∃ (mu : ℝ) (y : ℕ → ℝ), 0 < mu ∧ mu < 1 ∧ Apart mu (first4 y) ∧ ∀ rate : ℝ, ¬ ∀ i : Fin 4, pcr3bp y i = rate * planarField mu (first4 y) i := by
  refine ⟨1 / 10, fun k => if k = 0 then 1 / 2 else if k = 3 then 1 else 0, by norm_num, by norm_num, ⟨?_, ?_⟩, fun rate h => ?_⟩
  · simp [dist1, first4]
    norm_num
  · simp [dist2, first4]
    norm_num
  · have h1 := h 1
    have h2 := h 2
    have r1 : Real.sqrt 86993732809 = 294947 := by rw [show (86993732809 : ℝ) = 294947 ^ 2 by norm_num]; exact Real.sqrt_sq (by norm_num)
    have r2 : Real.sqrt 365524231396 = 604586 := by rw [show (365524231396 : ℝ) = 604586 ^ 2 by norm_num]; exact Real.sqrt_sq (by norm_num)
    have r3 : Real.sqrt 95876310321 = 309639 := by rw [show (95876310321 : ℝ) = 309639 ^ 2 by norm_num]; exact Real.sqrt_sq (by norm_num)
    have s1 : Real.sqrt 9 = 3 := by rw [show (9 : ℝ) = 3 ^ 2 by norm_num]; exact Real.sqrt_sq (by norm_num)
    have s2 : Real.sqrt 25 = 5 := by rw [show (25 : ℝ) = 5 ^ 2 by norm_num]; exact Real.sqrt_sq (by norm_num)
    have s3 : Real.sqrt 4 = 2 := by rw [show (4 : ℝ) = 2 ^ 2 by norm_num]; exact Real.sqrt_sq (by norm_num)
    simp only [pcr3bp, earthMoon_eq, planarField, acceleration, dist1, dist2, first4] at h1 h2
    simp only [Fin.val_one, Fin.val_two, one_ne_zero, if_true, if_false, Matrix.cons_val_zero, Matrix.cons_val_one, Matrix.cons_val, Fin.isValue, Fin.val_zero] at h1 h2
    norm_num at h1 h2
    rw [← h1, r1, r2, r3, s1, s2, s3] at h2
    norm_num at h2

end Verif.Props
