import Verif.Model.Pdes
import Verif.Model.Reference

/-!
# The programs with neural networks

The `myModel` classes of D/Chapter_3/auxillary/Example_3_4_aux.py, E/PDE/DeepTFCBurgers1DClass.py and D/Chapter_3/auxillary/Navier_Stokes_DeepTFC_aux.py, where
D is /repo/examples/Carl_Leake_Dissertation and E is /repo/examples/Extra_Examples. B/Chapter_3/section_3_6_3_Burgers_Deep-TFC.py and section_3_6_4_Deep-TFC.py
(B is /repo/examples/TfcBook) use the last two.

Every function acts on the rows of its arguments one by one, so that one row is modelled. `GradientTape.gradient` is the derivative of mathematics. Not modelled:
the initial values of the weights, the optimiser, rounding.
-/

namespace Verif.Model.Deep

open Verif.Model.Prog

/-- A layer `Dense`: the weights (input, unit) and the biases. Example_3_4_aux.py 12–18, DeepTFCBurgers1DClass.py 13–19, Navier_Stokes_DeepTFC_aux.py 13–17. -/
structure Dense where
  W : ℕ → ℕ → ℝ
  b : ℕ → ℝ

/-- A layer with `n` inputs, before the activation. Example_3_4_aux.py 27–33, DeepTFCBurgers1DClass.py 32–38, Navier_Stokes_DeepTFC_aux.py 29–33. -/
noncomputable def Dense.lin (d : Dense) (n : ℕ) (v : ℕ → ℝ) (k : ℕ) : ℝ := ∑ i ∈ Finset.range n, v i * d.W i k + d.b k

/-- The layers that are called, each hidden one with `H` units. Example_3_4_aux.py 27–33, DeepTFCBurgers1DClass.py 32–38, Navier_Stokes_DeepTFC_aux.py 29–33. -/
structure Net where
  H : ℕ
  first : Dense
  hidden : List Dense
  last : Dense

/-- `nn` for `n` inputs: output `k` of the last layer, whose activation is the identity. Example_3_4_aux.py 26–33, DeepTFCBurgers1DClass.py 31–38,
Navier_Stokes_DeepTFC_aux.py 28–34. The number of hidden layers is 6, 4 and 4 in the programs and arbitrary here. -/
noncomputable def Net.out (net : Net) (n : ℕ) (v : ℕ → ℝ) (k : ℕ) : ℝ :=
  net.last.lin net.H (net.hidden.foldl (fun v d k => Real.tanh (d.lin net.H v k)) (fun k => Real.tanh (net.first.lin n v k))) k

/-- `tf.concat([x,y],1)`, one row. Example_3_4_aux.py 27, DeepTFCBurgers1DClass.py 32. -/
def row2 (x y : ℝ) (i : ℕ) : ℝ := if i = 0 then x else y

/-- `tf.concat([x,y,t],1)`, one row. Navier_Stokes_DeepTFC_aux.py 29. -/
def row3 (x y t : ℝ) (i : ℕ) : ℝ := if i = 0 then x else if i = 1 then y else t

/-- `MeanSquaredError()(y_true, y_pred)` for arrays of one column. Example_3_4_aux.py 58, 123, DeepTFCBurgers1DClass.py 71, 136, Navier_Stokes_DeepTFC_aux.py 140, 205. -/
noncomputable def meanSq (a b : List ℝ) : ℝ := ((a.zip b).map fun p => (p.1 - p.2) ^ 2).sum / a.length

/-! ## Poisson's equation -/

/-- `u1`, D/Chapter_3/auxillary/Example_3_4_aux.py 35, 36. -/
noncomputable def poissonU1 (net : Net) (x y : ℝ) : ℝ :=
  net.out 2 (row2 x y) 0 + (1 - x) * (y ^ 3 - net.out 2 (row2 0 y) 0) + x * ((1 + y ^ 3) * Real.exp (-1) - net.out 2 (row2 1 y) 0)

/-- `u`, D/Chapter_3/auxillary/Example_3_4_aux.py 37, 38. -/
noncomputable def poissonU (net : Net) (x y : ℝ) : ℝ :=
  poissonU1 net x y + (1 - y) * (x * Real.exp (-x) - poissonU1 net x 0) + y * ((x + 1) * Real.exp (-x) - poissonU1 net x 1)

/-- `call(inputs, training=True)`, D/Chapter_3/auxillary/Example_3_4_aux.py 40–51, one row. -/
noncomputable def poissonTrain (net : Net) (x y : ℝ) : ℝ :=
  dx (dx (poissonU net)) x y + dy (dy (poissonU net)) x y - Real.exp (-x) * (x - 2 + y ^ 3 + 6 * y)

/-- `loss_value`, D/Chapter_3/auxillary/Example_3_4_aux.py 123 with the outputs of Example_3_4.py 28. -/
noncomputable def poissonLoss (net : Net) (pts : List (ℝ × ℝ)) : ℝ :=
  meanSq (pts.map fun p => poissonTrain net p.1 p.2) (List.replicate pts.length 0)

/-! ## Burgers' equation -/

/-- `ua`, E/PDE/DeepTFCBurgers1DClass.py 40, 41; the constants are those of 24–28. -/
noncomputable def burgersUa (p : BurgersPar) (x t : ℝ) : ℝ :=
  p.c / p.alpha - p.c / p.alpha * Real.tanh (p.c * (x - p.c * t) / (2 * p.nu))

/-- `u1`, E/PDE/DeepTFCBurgers1DClass.py 43, 44. -/
noncomputable def burgersU1 (p : BurgersPar) (net : Net) (x t : ℝ) : ℝ :=
  net.out 2 (row2 x t) 0 + (p.xFinal - x) / (p.xFinal - p.xInit) * (burgersUa p p.xInit t - net.out 2 (row2 p.xInit t) 0)
    + x * (burgersUa p p.xFinal t - net.out 2 (row2 p.xFinal t) 0)

/-- `u`, E/PDE/DeepTFCBurgers1DClass.py 45, 46. -/
noncomputable def burgersU (p : BurgersPar) (net : Net) (x t : ℝ) : ℝ := burgersU1 p net x t + burgersUa p x 0 - burgersU1 p net x 0

/-- `call(inputs, training=True)`, E/PDE/DeepTFCBurgers1DClass.py 48–63, one row. -/
noncomputable def burgersTrain (p : BurgersPar) (net : Net) (x t : ℝ) : ℝ :=
  (dy (burgersU p net) x t + p.alpha * burgersU p net x t * dx (burgersU p net) x t - p.nu * dx (dx (burgersU p net)) x t) ^ 2

/-- `loss_value`, E/PDE/DeepTFCBurgers1DClass.py 136 with the outputs of Deep-TFCBurgers1D.py 61. -/
noncomputable def burgersLoss (p : BurgersPar) (net : Net) (pts : List (ℝ × ℝ)) : ℝ :=
  meanSq (pts.map fun q => burgersTrain p net q.1 q.2) (List.replicate pts.length 0)

/-- The constants of E/PDE/Deep-TFCBurgers1D.py 27–31. -/
noncomputable def burgersProg : BurgersPar := { c := 1, nu := 1 / 2, alpha := 1, xInit := -3, xFinal := 3 }

/-! ## The equations of Navier and Stokes -/

/-- `nx`, D/Chapter_3/auxillary/Navier_Stokes_DeepTFC_aux.py 36–47. -/
noncomputable def navierNx (net : Net) (k : ℕ) (x y t : ℝ) : ℝ := deriv (fun x => net.out 3 (row3 x y t) k) x

/-- `u` for output 0 and `v` for output 1 of the network, D/Chapter_3/auxillary/Navier_Stokes_DeepTFC_aux.py 65–90, 109–134. -/
noncomputable def navierU (Hb L : ℝ) (net : Net) (k : ℕ) (x y t : ℝ) : ℝ :=
  let n := fun x y t => net.out 3 (row3 x y t) k
  let nx := navierNx net k
  let m := -Hb / 2
  let p := Hb / 2
  n x y t - n x y 0 + n 0 y 0 - n 0 y t + x * nx L y 0 - x * nx L y t
    + 1 / (2 * Hb) * ((2 * y - Hb) * (n 0 m 0 - n x m 0 + x * nx L m 0 - n 0 m t + n x m t - x * nx L m t)
      - (Hb + 2 * y) * (n 0 p 0 - n x p 0 + x * nx L p 0 - n 0 p t + n x p t - x * nx L p t))

/-- `call(inputs, training=True)`, D/Chapter_3/auxillary/Navier_Stokes_DeepTFC_aux.py 92–106, one row. -/
noncomputable def navierTrain (rho mu P Hb L : ℝ) (net : Net) (x y t : ℝ) : ℝ :=
  let u := navierU Hb L net 0
  let v := navierU Hb L net 1
  (deriv (fun x => u x y t) x + deriv (fun y => v x y t) y) ^ 2
    + (rho * (deriv (fun t => u x y t) t + u x y t * deriv (fun x => u x y t) x + v x y t * deriv (fun y => u x y t) y) + P
        - mu * (deriv (fun x => deriv (fun x => u x y t) x) x + deriv (fun y => deriv (fun y => u x y t) y) y)) ^ 2
    + (rho * (deriv (fun t => v x y t) t + u x y t * deriv (fun x => v x y t) x + v x y t * deriv (fun y => v x y t) y)
        - mu * (deriv (fun x => deriv (fun x => v x y t) x) x + deriv (fun y => deriv (fun y => v x y t) y) y)) ^ 2

/-- `loss_value`, D/Chapter_3/auxillary/Navier_Stokes_DeepTFC_aux.py 205 with the outputs of Navier_Stokes_DeepTFC.py 32. -/
noncomputable def navierLoss (rho mu P Hb L : ℝ) (net : Net) (pts : List (ℝ × ℝ × ℝ)) : ℝ :=
  meanSq (pts.map fun q => navierTrain rho mu P Hb L net q.1 q.2.1 q.2.2) (List.replicate pts.length 0)

/-! ## The parameters as one vector

`function_factory`, Example_3_4_aux.py 66–143, DeepTFCBurgers1DClass.py 79–156, Navier_Stokes_DeepTFC_aux.py 148–225. A tensor is the list of its entries; reshaping
does not change it. -/

/-- The loop over the shapes: `count`, `idx`, `part`. `ns` are the products of the shapes. Example_3_4_aux.py 84–92, DeepTFCBurgers1DClass.py 97–105,
Navier_Stokes_DeepTFC_aux.py 166–174. -/
def factory (ns : List ℕ) : ℕ × List (List ℕ) × List ℕ :=
  ns.zipIdx.foldl (fun s p => (s.1 + p.1, s.2.1 ++ [List.range' s.1 p.1], s.2.2 ++ List.replicate p.1 p.2)) (0, [], [])

variable {K : Type}

/-- `tf.dynamic_stitch(idx, data)`: entry `i` of tensor `m` goes to place `idx[m][i]`, a later one over an earlier one; the length is the largest place plus one.
Example_3_4_aux.py 61, 128, DeepTFCBurgers1DClass.py 74, 141, Navier_Stokes_DeepTFC_aux.py 143, 210. Places that are not named, which TensorFlow leaves open, are zero here. -/
def stitch [Zero K] (idx : List (List ℕ)) (data : List (List K)) : List K :=
  let f := ((idx.zip data).flatMap fun p => p.1.zip p.2).foldl (fun f q => Function.update f q.1 q.2) (fun _ => 0)
  (List.range (idx.flatten.foldl (fun m i => max m (i + 1)) 0)).map f

/-- `tf.dynamic_partition(params, part, n)`. Example_3_4_aux.py 103, DeepTFCBurgers1DClass.py 116, Navier_Stokes_DeepTFC_aux.py 185. -/
def partition (params : List K) (part : List ℕ) (n : ℕ) : List (List K) :=
  (List.range n).map fun i => (params.zip part).filterMap fun q => if q.2 = i then some q.1 else none

/-- `assign_new_model_parameters`: the new values of the trainable variables. Example_3_4_aux.py 97–105, DeepTFCBurgers1DClass.py 110–118,
Navier_Stokes_DeepTFC_aux.py 179–187. -/
def assign (ns : List ℕ) (params : List K) : List (List K) := partition params (factory ns).2.2 ns.length

/-- The vector of the parameters of the given variables: the starting point of the optimiser, and the gradient. Example_3_4_aux.py 61, 128,
DeepTFCBurgers1DClass.py 74, 141, Navier_Stokes_DeepTFC_aux.py 143, 210. -/
def pack [Zero K] (ns : List ℕ) (vars : List (List K)) : List K := stitch (factory ns).2.1 vars

end Verif.Model.Deep
