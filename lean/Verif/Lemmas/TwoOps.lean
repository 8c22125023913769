import Verif.Lemmas.Two
import Verif.Spec.PdeExample
import Mathlib.Analysis.Calculus.IteratedDeriv.Lemmas

/-! # Linear operators on smooth functions of two variables -/

namespace Verif

open Verif.Spec Verif.Model.Prog Verif.Model.Py
open scoped ContDiff

/-- A linear operator that keeps functions smooth. -/
structure LinOp (T : (ℝ → ℝ → ℝ) → ℝ → ℝ → ℝ) : Prop where
  smooth : ∀ {g}, Smooth2 g → Smooth2 (T g)
  lin : ∀ {f g}, Smooth2 f → Smooth2 g → ∀ a b : ℝ, T (fun x y => a * f x y + b * g x y) = fun x y => a * T f x y + b * T g x y

theorem Smooth2.const (a : ℝ) : Smooth2 fun _ _ => a := contDiff_const

theorem Smooth2.smul {g : ℝ → ℝ → ℝ} (hg : Smooth2 g) (a : ℝ) : Smooth2 fun x y => a * g x y := (Smooth2.const a).mul hg

theorem Smooth2.list_sum {ι : Type} {F : ι → ℝ → ℝ → ℝ} : ∀ (l : List ι), (∀ i ∈ l, Smooth2 (F i)) → Smooth2 fun x y => (l.map fun i => F i x y).sum
  | [], _ => by simpa using Smooth2.const 0
  | i :: l, h => by
    simp only [List.map_cons, List.sum_cons]
    exact (h i (by simp)).add (list_sum l fun k hk => h k (by simp [hk]))

theorem Smooth2.sum {ι : Type} {F : ι → ℝ → ℝ → ℝ} (s : Finset ι) (h : ∀ i ∈ s, Smooth2 (F i)) : Smooth2 fun x y => ∑ i ∈ s, F i x y := by
  unfold Smooth2 at *
  exact ContDiff.sum fun i hi => h i hi

namespace LinOp

variable {T U : (ℝ → ℝ → ℝ) → ℝ → ℝ → ℝ}

theorem id' : LinOp fun g => g := ⟨fun h => h, fun _ _ _ _ => rfl⟩

theorem comp (hT : LinOp T) (hU : LinOp U) : LinOp fun g => T (U g) :=
  ⟨fun h => hT.smooth (hU.smooth h), fun hf hg a b => by
    rw [hU.lin hf hg, hT.lin (hU.smooth hf) (hU.smooth hg)]⟩

theorem iter (hT : LinOp T) : ∀ d, LinOp T^[d]
  | 0 => id'
  | d + 1 => (iter hT d).comp hT

theorem dx : LinOp dx :=
  ⟨Smooth2.dx, fun {f g} hf hg a b => by
    funext x y
    have h1 := ((hf.left y).differentiable (by simp) x).const_mul a
    have h2 := ((hg.left y).differentiable (by simp) x).const_mul b
    unfold Model.Prog.dx
    rw [deriv_fun_add h1 h2, deriv_const_mul_field, deriv_const_mul_field]⟩

theorem dy : LinOp dy :=
  ⟨Smooth2.dy, fun {f g} hf hg a b => by
    funext x y
    have h1 := ((hf.right x).differentiable (by simp) y).const_mul a
    have h2 := ((hg.right x).differentiable (by simp) y).const_mul b
    unfold Model.Prog.dy
    rw [deriv_fun_add h1 h2, deriv_const_mul_field, deriv_const_mul_field]⟩

theorem mixed (d e : ℕ) : LinOp fun g => Model.Prog.dx^[d] (Model.Prog.dy^[e] g) := (dx.iter d).comp (dy.iter e)

theorem atX (p : ℝ) : LinOp fun g _ y => g p y := ⟨fun h => h.at_left p, fun _ _ _ _ => rfl⟩

theorem atY (p : ℝ) : LinOp fun g x _ => g x p := ⟨fun h => h.at_right p, fun _ _ _ _ => rfl⟩

theorem mul (hT : LinOp T) {w : ℝ → ℝ → ℝ} (hw : Smooth2 w) : LinOp fun g x y => w x y * T g x y :=
  ⟨fun h => hw.mul (hT.smooth h), fun hf hg a b => by
    funext x y
    rw [hT.lin hf hg]
    ring⟩

theorem sub (hT : LinOp T) (hU : LinOp U) : LinOp fun g x y => T g x y - U g x y :=
  ⟨fun h => (hT.smooth h).sub (hU.smooth h), fun hf hg a b => by
    funext x y
    rw [hT.lin hf hg, hU.lin hf hg]
    ring⟩

theorem list {ι : Type} {F : ι → (ℝ → ℝ → ℝ) → ℝ → ℝ → ℝ} (l : List ι) (h : ∀ i ∈ l, LinOp (F i)) :
    LinOp fun g x y => (l.map fun i => F i g x y).sum :=
  ⟨fun hg => .list_sum l fun i hi => (h i hi).smooth hg, fun {f g} hf hg a b => by
    funext x y
    induction l with
    | nil => simp
    | cons i l ih =>
      simp only [List.map_cons, List.sum_cons]
      rw [ih fun k hk => h k (by simp [hk]), (h i (by simp)).lin hf hg]
      ring⟩

theorem zero (hT : LinOp T) : T (fun _ _ => 0) = fun _ _ => 0 := by
  have := hT.lin (Smooth2.const 0) (Smooth2.const 0) 0 0
  simpa using this

theorem add (hT : LinOp T) {f g : ℝ → ℝ → ℝ} (hf : Smooth2 f) (hg : Smooth2 g) :
    T (fun x y => f x y + g x y) = fun x y => T f x y + T g x y := by
  have := hT.lin hf hg 1 1
  simpa using this

theorem smul (hT : LinOp T) {f : ℝ → ℝ → ℝ} (hf : Smooth2 f) (a : ℝ) : T (fun x y => a * f x y) = fun x y => a * T f x y := by
  have := hT.lin hf hf a 0
  simpa using this

theorem map_sub (hT : LinOp T) {f g : ℝ → ℝ → ℝ} (hf : Smooth2 f) (hg : Smooth2 g) :
    T (fun x y => f x y - g x y) = fun x y => T f x y - T g x y := by
  have := hT.lin hf hg 1 (-1)
  simpa [sub_eq_add_neg] using this

theorem list_sum (hT : LinOp T) {ι : Type} {F : ι → ℝ → ℝ → ℝ} : ∀ (l : List ι), (∀ i ∈ l, Smooth2 (F i)) →
    T (fun x y => (l.map fun i => F i x y).sum) = fun x y => (l.map fun i => T (F i) x y).sum
  | [], _ => by simpa using hT.zero
  | i :: l, h => by
    simp only [List.map_cons, List.sum_cons]
    rw [hT.add (h i (by simp)) (.list_sum l fun k hk => h k (by simp [hk])), list_sum hT l fun k hk => h k (by simp [hk])]

theorem sum (hT : LinOp T) {ι : Type} {F : ι → ℝ → ℝ → ℝ} (s : Finset ι) (h : ∀ i ∈ s, Smooth2 (F i)) :
    T (fun x y => ∑ i ∈ s, F i x y) = fun x y => ∑ i ∈ s, T (F i) x y := by
  classical
  induction s using Finset.induction_on with
  | empty => simpa using hT.zero
  | insert i s hi ih =>
    simp only [Finset.sum_insert hi]
    have hs : ∀ k ∈ s, Smooth2 (F k) := fun k hk => h k (by simp [hk])
    rw [hT.add (h i (by simp)) (.sum s hs), ih hs]

end LinOp

/-! ## Derivatives in one variable -/

theorem iter_dy_apply (g : ℝ → ℝ → ℝ) (e : ℕ) (p y : ℝ) : iteratedDeriv e (g p) y = dy^[e] g p y := by
  induction e generalizing g with
  | zero => simp
  | succ e ih =>
    rw [iteratedDeriv_succ', Function.iterate_succ_apply, ← ih]
    rfl

theorem iter_dx_apply (g : ℝ → ℝ → ℝ) (d : ℕ) (x q : ℝ) : iteratedDeriv d (fun s => g s q) x = dx^[d] g x q := by
  induction d generalizing g with
  | zero => simp
  | succ d ih =>
    rw [iteratedDeriv_succ', Function.iterate_succ_apply, ← ih]
    rfl

theorem iter_dy_atX (g : ℝ → ℝ → ℝ) (e : ℕ) (p : ℝ) : dy^[e] (fun _ y => g p y) = fun _ y => dy^[e] g p y := by
  funext x y
  rw [← iter_dy_apply, ← iter_dy_apply]

theorem iter_dx_atY (g : ℝ → ℝ → ℝ) (d : ℕ) (q : ℝ) : dx^[d] (fun x _ => g x q) = fun x _ => dx^[d] g x q := by
  funext x y
  rw [← iter_dx_apply, ← iter_dx_apply]

theorem iter_dy_sep (w h : ℝ → ℝ) (e : ℕ) : dy^[e] (fun x y => w x * h y) = fun x y => w x * iteratedDeriv e h y := by
  funext x y
  rw [← iter_dy_apply]
  exact iteratedDeriv_const_mul_field _ _

theorem mixed_sep (w h : ℝ → ℝ) (d e : ℕ) :
    dx^[d] (dy^[e] fun x y => w x * h y) = fun x y => iteratedDeriv d w x * iteratedDeriv e h y := by
  rw [iter_dy_sep]
  funext x y
  rw [← iter_dx_apply]
  simp only [mul_comm (w _)]
  rw [mul_comm]
  exact iteratedDeriv_const_mul_field _ _

theorem dx_iter_dy {g : ℝ → ℝ → ℝ} (hg : Smooth2 g) (e : ℕ) : dx (dy^[e] g) = dy^[e] (dx g) := by
  induction e generalizing g with
  | zero => rfl
  | succ e ih => rw [Function.iterate_succ_apply, Function.iterate_succ_apply, ih hg.dy, dx_dy hg]

theorem mixed_comm {g : ℝ → ℝ → ℝ} (hg : Smooth2 g) (d e : ℕ) : dx^[d] (dy^[e] g) = dy^[e] (dx^[d] g) := by
  induction d generalizing g with
  | zero => rfl
  | succ d ih => rw [Function.iterate_succ_apply, Function.iterate_succ_apply, dx_iter_dy hg, ih hg.dx]

/-! ## The steps of an expression -/

/-- What the conditions on lines `x = p` see of `g`. -/
noncomputable def seenX (c : SideCond) (g : ℝ → ℝ → ℝ) (y : ℝ) : ℝ := (c.terms.map fun t => t.1 * dx^[t.2.1] g t.2.2 y).sum

/-- What the conditions on lines `y = p` see of `g`. -/
noncomputable def seenY (c : SideCond) (g : ℝ → ℝ → ℝ) (x : ℝ) : ℝ := (c.terms.map fun t => t.1 * dy^[t.2.1] g x t.2.2).sum

theorem seenX_linOp (c : SideCond) : LinOp fun g _ y => seenX c g y :=
  LinOp.list c.terms (F := fun (t : ℝ × ℕ × ℝ) (g : ℝ → ℝ → ℝ) (_ y : ℝ) => t.1 * dx^[t.2.1] g t.2.2 y) fun t _ =>
    ((LinOp.atX t.2.2).comp (LinOp.dx.iter t.2.1)).mul (w := fun _ _ => t.1) (Smooth2.const _)

theorem seenY_linOp (c : SideCond) : LinOp fun g x _ => seenY c g x :=
  LinOp.list c.terms (F := fun (t : ℝ × ℕ × ℝ) (g : ℝ → ℝ → ℝ) (x _ : ℝ) => t.1 * dy^[t.2.1] g x t.2.2) fun t _ =>
    ((LinOp.atY t.2.2).comp (LinOp.dy.iter t.2.1)).mul (w := fun _ _ => t.1) (Smooth2.const _)

theorem seenX_deriv (c : SideCond) {g : ℝ → ℝ → ℝ} (hg : Smooth2 g) (e : ℕ) (y : ℝ) :
    iteratedDeriv e (seenX c g) y = (c.terms.map fun t => t.1 * dx^[t.2.1] (dy^[e] g) t.2.2 y).sum := by
  have h1 : ∀ t ∈ c.terms, Smooth2 fun (_ y : ℝ) => t.1 * dx^[t.2.1] g t.2.2 y :=
    fun t _ => (((LinOp.dx.iter t.2.1).smooth hg).at_left t.2.2).smul t.1
  rw [iter_dy_apply (fun _ => seenX c g) e 0 y]
  unfold seenX
  rw [(LinOp.dy.iter e).list_sum c.terms (F := fun t _ y => t.1 * dx^[t.2.1] g t.2.2 y) h1]
  refine congrArg List.sum (List.map_congr_left fun t _ => ?_)
  rw [(LinOp.dy.iter e).smul (((LinOp.dx.iter t.2.1).smooth hg).at_left t.2.2), iter_dy_atX, mixed_comm hg]

theorem seenY_deriv (c : SideCond) {g : ℝ → ℝ → ℝ} (hg : Smooth2 g) (d : ℕ) (x : ℝ) :
    iteratedDeriv d (seenY c g) x = (c.terms.map fun t => t.1 * dx^[d] (dy^[t.2.1] g) x t.2.2).sum := by
  have h1 : ∀ t ∈ c.terms, Smooth2 fun (x _ : ℝ) => t.1 * dy^[t.2.1] g x t.2.2 :=
    fun t _ => (((LinOp.dy.iter t.2.1).smooth hg).at_right t.2.2).smul t.1
  rw [iter_dx_apply (fun x _ => seenY c g x) d x 0]
  unfold seenY
  rw [(LinOp.dx.iter d).list_sum c.terms (F := fun t x _ => t.1 * dy^[t.2.1] g x t.2.2) h1]
  refine congrArg List.sum (List.map_congr_left fun t _ => ?_)
  rw [(LinOp.dx.iter d).smul (((LinOp.dy.iter t.2.1).smooth hg).at_right t.2.2), iter_dx_atY]

theorem seenX_smooth (c : SideCond) {g : ℝ → ℝ → ℝ} (hg : Smooth2 g) : ContDiff ℝ ∞ (seenX c g) := ((seenX_linOp c).smooth hg).right 0

theorem seenY_smooth (c : SideCond) {g : ℝ → ℝ → ℝ} (hg : Smooth2 g) : ContDiff ℝ ∞ (seenY c g) := ((seenY_linOp c).smooth hg).left 0

theorem iteratedDeriv_sub' {f g : ℝ → ℝ} (hf : ContDiff ℝ ∞ f) (hg : ContDiff ℝ ∞ g) (e : ℕ) (y : ℝ) :
    iteratedDeriv e (fun y => f y - g y) y = iteratedDeriv e f y - iteratedDeriv e g y := by
  rw [iter_dy_apply (fun _ y => f y - g y) e 0 y, (LinOp.dy.iter e).map_sub (.of_right hf) (.of_right hg), iter_dy_apply (fun _ => f) e 0 y,
    iter_dy_apply (fun _ => g) e 0 y]

theorem full1_smooth {xs : List SideCond} (hs : SmoothSides xs) {g : ℝ → ℝ → ℝ} (hg : Smooth2 g) : Smooth2 (full1 xs g) :=
  hg.add (.list_sum xs fun c hc => (Smooth2.of_left (hs c hc).1).mul (.of_right ((hs c hc).2.sub (seenX_smooth c hg))))

theorem full_smooth {P : TwoStep} (hx : SmoothSides P.xs) (hy : SmoothSides P.ys) {g : ℝ → ℝ → ℝ} (hg : Smooth2 g) : Smooth2 (full P g) :=
  (full1_smooth hx hg).add (.list_sum P.ys fun c hc => (Smooth2.of_right (hy c hc).1).mul
    (.of_left ((hy c hc).2.sub (seenY_smooth c (full1_smooth hx hg)))))

theorem full1_mixed {xs : List SideCond} (hs : SmoothSides xs) {g : ℝ → ℝ → ℝ} (hg : Smooth2 g) (d e : ℕ) (x y : ℝ) :
    dx^[d] (dy^[e] (full1 xs g)) x y = dx^[d] (dy^[e] g) x y + (xs.map fun c => iteratedDeriv d c.weight x *
      (iteratedDeriv e c.data y - (c.terms.map fun t => t.1 * dx^[t.2.1] (dy^[e] g) t.2.2 y).sum)).sum := by
  have h1 : ∀ c ∈ xs, Smooth2 fun x y => c.weight x * (c.data y - seenX c g y) :=
    fun c hc => (Smooth2.of_left (hs c hc).1).mul (.of_right ((hs c hc).2.sub (seenX_smooth c hg)))
  have e1 : full1 xs g = fun x y => g x y + (xs.map fun c => c.weight x * (c.data y - seenX c g y)).sum := rfl
  rw [e1, (LinOp.mixed d e).add hg (.list_sum xs h1), (LinOp.mixed d e).list_sum xs h1]
  refine congrArg (_ + ·) (congrArg List.sum (List.map_congr_left fun c hc => ?_))
  rw [mixed_sep c.weight fun y => c.data y - seenX c g y]
  beta_reduce
  rw [iteratedDeriv_sub' (hs c hc).2 (seenX_smooth c hg), seenX_deriv c hg]

theorem full_mixed {P : TwoStep} (hx : SmoothSides P.xs) (hy : SmoothSides P.ys) {g : ℝ → ℝ → ℝ} (hg : Smooth2 g) (d e : ℕ) (x y : ℝ) :
    dx^[d] (dy^[e] (full P g)) x y = dx^[d] (dy^[e] (full1 P.xs g)) x y + (P.ys.map fun c => iteratedDeriv e c.weight y *
      (iteratedDeriv d c.data x - (c.terms.map fun t => t.1 * dx^[d] (dy^[t.2.1] (full1 P.xs g)) x t.2.2).sum)).sum := by
  obtain ⟨U, hU⟩ : ∃ U, U = full1 P.xs g := ⟨_, rfl⟩
  have hs : Smooth2 U := hU ▸ full1_smooth hx hg
  have h1 : ∀ c ∈ P.ys, Smooth2 fun x y => (c.data x - seenY c U x) * c.weight y :=
    fun c hc => (Smooth2.of_left ((hy c hc).2.sub (seenY_smooth c hs))).mul (.of_right (hy c hc).1)
  have e1 : full P g = fun x y => U x y + (P.ys.map fun c => (c.data x - seenY c U x) * c.weight y).sum := by
    funext x y
    subst hU
    simp only [full, mul_comm]
    rfl
  rw [e1, ← hU, (LinOp.mixed d e).add hs (.list_sum P.ys h1), (LinOp.mixed d e).list_sum P.ys h1]
  refine congrArg (_ + ·) (congrArg List.sum (List.map_congr_left fun c hc => ?_))
  rw [mixed_sep (fun x => c.data x - seenY c U x) c.weight]
  beta_reduce
  rw [iteratedDeriv_sub' (hy c hc).2 (seenY_smooth c hs), seenY_deriv c hs, mul_comm]

/-! ## The part of an expression that is linear in the free function -/

/-- The first step without data. -/
noncomputable def hom1 (xs : List SideCond) (g : ℝ → ℝ → ℝ) (x y : ℝ) : ℝ := g x y - (xs.map fun c => c.weight x * seenX c g y).sum

/-- The expression without data. -/
noncomputable def homP (P : TwoStep) (g : ℝ → ℝ → ℝ) (x y : ℝ) : ℝ :=
  hom1 P.xs g x y - (P.ys.map fun c => c.weight y * seenY c (hom1 P.xs g) x).sum

theorem hom1_linOp {xs : List SideCond} (hs : SmoothSides xs) : LinOp (hom1 xs) :=
  LinOp.id'.sub (LinOp.list xs (F := fun c g x y => c.weight x * seenX c g y) fun c hc =>
    (seenX_linOp c).mul (w := fun x _ => c.weight x) (.of_left (hs c hc).1))

theorem homP_linOp {P : TwoStep} (hx : SmoothSides P.xs) (hy : SmoothSides P.ys) : LinOp (homP P) :=
  (hom1_linOp hx).sub (LinOp.list P.ys (F := fun c g x y => c.weight y * seenY c (hom1 P.xs g) x) fun c hc =>
    ((seenY_linOp c).comp (hom1_linOp hx)).mul (w := fun _ y => c.weight y) (.of_right (hy c hc).1))

theorem sum_map_sub' {ι : Type} (l : List ι) (f g : ι → ℝ) : (l.map fun i => f i - g i).sum = (l.map f).sum - (l.map g).sum := by
  induction l with
  | nil => simp
  | cons i l ih =>
    simp only [List.map_cons, List.sum_cons, ih]
    ring

theorem full1_add {xs : List SideCond} {f g : ℝ → ℝ → ℝ} (hf : Smooth2 f) (hg : Smooth2 g) :
    full1 xs (fun x y => f x y + g x y) = fun x y => full1 xs f x y + hom1 xs g x y := by
  funext x y
  have h : ∀ c : SideCond, seenX c (fun x y => f x y + g x y) y = seenX c f y + seenX c g y :=
    fun c => congrFun (congrFun ((seenX_linOp c).add hf hg) 0) y
  have e : full1 xs (fun x y => f x y + g x y) x y =
      f x y + g x y + (xs.map fun c => c.weight x * (c.data y - seenX c (fun x y => f x y + g x y) y)).sum := rfl
  have e2 : full1 xs f x y = f x y + (xs.map fun c => c.weight x * (c.data y - seenX c f y)).sum := rfl
  rw [e, e2, hom1]
  simp only [h]
  have : (xs.map fun c => c.weight x * (c.data y - (seenX c f y + seenX c g y))).sum =
      (xs.map fun c => c.weight x * (c.data y - seenX c f y)).sum - (xs.map fun c => c.weight x * seenX c g y).sum := by
    rw [← sum_map_sub']
    refine congrArg List.sum (List.map_congr_left fun c _ => by ring)
  rw [this]
  ring

theorem full_add {P : TwoStep} (hx : SmoothSides P.xs) {f g : ℝ → ℝ → ℝ} (hf : Smooth2 f) (hg : Smooth2 g) :
    full P (fun x y => f x y + g x y) = fun x y => full P f x y + homP P g x y := by
  funext x y
  obtain ⟨U, hU⟩ : ∃ U, U = full1 P.xs f := ⟨_, rfl⟩
  obtain ⟨V, hV⟩ : ∃ V, V = hom1 P.xs g := ⟨_, rfl⟩
  have hs : Smooth2 U := hU ▸ full1_smooth hx hf
  have hv : Smooth2 V := hV ▸ (hom1_linOp hx).smooth hg
  have h : ∀ c : SideCond, seenY c (fun x y => U x y + V x y) x = seenY c U x + seenY c V x :=
    fun c => congrFun (congrFun ((seenY_linOp c).add hs hv) x) 0
  have e : full P (fun x y => f x y + g x y) x y = full1 P.xs (fun x y => f x y + g x y) x y +
      (P.ys.map fun c => c.weight y * (c.data x - seenY c (full1 P.xs fun x y => f x y + g x y) x)).sum := rfl
  have e2 : full P f x y = U x y + (P.ys.map fun c => c.weight y * (c.data x - seenY c U x)).sum := by rw [hU]; rfl
  rw [e, e2, homP, full1_add hf hg, ← hU, ← hV]
  simp only [h]
  have : (P.ys.map fun c => c.weight y * (c.data x - (seenY c U x + seenY c V x))).sum =
      (P.ys.map fun c => c.weight y * (c.data x - seenY c U x)).sum - (P.ys.map fun c => c.weight y * seenY c V x).sum := by
    rw [← sum_map_sub']
    refine congrArg List.sum (List.map_congr_left fun c _ => by ring)
  rw [this]
  ring

end Verif
