# Design of the formal model of leakec/tfc

The properties are listed in `properties.jsonl` (C01, C02, …). This file says, for each, what part of `/repo` is modelled, how the
property is proved, what could not be proved because the code does not have the property, and what is trusted. `MANIFEST.json` names
the theorems.

## Layout

* `lean/Verif/Mem.lean` — a small memory machine (bounded, initialisation-tracking buffers; loops) used to transliterate the C++ code.
  Reading an uninitialised or out-of-range cell and writing out of range are faults.
* `lean/Verif/Py.lean`, `lean/Verif/Np.lean` — Python exceptions as values and the numpy operations the code uses (matrices with
  shape, `hstack`, column assignment, …).
* `lean/Verif/Spec/*.lean` — what the words in the properties mean (classical polynomials, derivatives, removed columns, constrained
  expressions, …). Spec files use data types of the model (names of classes, records of a result) but none of its functions.
* `lean/Verif/Model/*.lean` — the code, function by function; every definition cites file and lines and says where it simplifies.
* `lean/Verif/Lemmas/*.lean` — helper lemmas and refinement proofs.
* `lean/Verif/Props/*.lean` — the property theorems, named after the property (`C12_…`), with an `example` meeting the hypotheses beside
  them.
* `seeded/LOG.jsonl` — the wrong programs tried against the theorems (below).

Names: a theorem `…_partial` proves a property under a restriction that its comment states; a theorem `…_fails` proves that the
property is false for the code, with an explicit witness or for a whole class of inputs. A property that has both is recorded as
`partial`: the restriction and the witnesses together say where it holds and where it does not.

## Trusted base

* Lean 4.33.0's kernel, and the Mathlib definitions used in statements (`iteratedDeriv`, `Polynomial.Chebyshev.T`,
  `Polynomial.hermite`, `Matrix`, `Real.sin`, …).
* Axioms: every theorem named in `MANIFEST.json` depends on `propext`, `Classical.choice` and `Quot.sound` at most (checked with
  `#print axioms`). No axiom is added; there is no `sorry`, `admit`, `native_decide` or `bv_decide`.
* The correspondence of model and code is by reading: each model definition cites the lines it mirrors.
* Contracts of libraries, always explicit in a model file or a hypothesis, never an axiom:
  `jax.jvp`/`jacfwd` compute directional derivatives; a traced or jitted function computes what the function computes; `pinv` is a
  Moore–Penrose inverse and `lstsq` a least-squares solution (`LinAlg`, shown satisfiable in Lemmas/Pinv); `qr`, `cond`, `norm`
  (`ScaledQr`); sympy's matrix inverse and simplifier (`CeSolver`); numpy's printing rules (`Latex`); `os`, `os.path`, `pathlib`
  (`Files`); matplotlib and Plotly keep what the calls set.

## Global simplifications

* `double` is an exact field (a field of characteristic 0, or ℝ). Rounding is modelled only for the domain map, the collocation
  points (C86) and the polynomial and Fourier bases (C87–C92, C94), the compiled ELM bases of one and several variables (C111) and for the constraints of some expressions (C93); elsewhere, and overflow, NaN and infinities everywhere, are **not** modelled;
  `DBL_MAX`/`inf` as "no upper end" is an option value. No claim is made about degenerate domains (`x0 = xf`).
* C++ `int` is ℕ/ℤ without overflow (m, n, d below 2^31; the casts of JAX to int32 are the identity there).
* `rand()` weights are arbitrary values.
* Not modelled: CUDA branches, JAX/XLA internals, pybind11 argument conversion beyond what Model/ElmSet states, LAPACK, timing, the text of
  warnings, styles and colours of plots, the notebooks, and in most of the example programs of `examples/` everything but the constrained expressions, residuals and reference solutions.

## Modelled and unmodelled code

| file | modelled | not modelled |
|------|----------|--------------|
| `src/tfc/utils/BF.cc`, `BF.h` | all classes: constructors, `H`, `xla`, `Hint`, `RecurseDeriv`, `nHint`, `NumBasisFunc`, `RecurseBasis`, setters and getters, registry | CUDA branches, capsule creation |
| `src/tfc/utils/BF_Py.cc` | constructors and `H` with the layouts and shapes of their arrays, the setters and getters of weights and biases, `c` of n-dimensional objects; lifetime of objects and returned arrays | conversion of element types, the plain attributes |
| `src/tfc/utils/BF_Py.py` | all classes | – |
| `src/tfc/utfc.py` | `__init__`, named methods, JAX rules `impl`, `jvp`, `batch`, abstract evaluation, `HybridUtfc`, description of the compiled call (`H_xla`) | `processX`-style printing, what XLA does with the description |
| `src/tfc/mtfc.py` | `__init__`, named methods, JAX rules, description of the compiled call (`H_xla`) | what XLA does with the description |
| `src/tfc/utils/TFCUtils.py` | `egrad`, the element types in `egrad` and `egradRobust`, `pe`, `pejit`, `TFCDict`, `TFCDictRobust`, `LS`, `LsClass`, `NLLS`, `NllsClass`, `ComponentConstraintGraph`, `ScaledQrLs`, `step`, `TFCPrint`, the progress line of NLLS | when the progress line is flushed |
| `src/tfc/utils/CeSolver.py` | `CeSolver` (scalar constraints), `print_type`, `TfcPrinter.__init__`, `_print_Derivative`, `_print_Subs` | operators returning matrices, the other printer methods |
| `src/tfc/utils/Latex.py` | `table` | integer arrays |
| `src/tfc/utils/Html.py` | `ReadFile`, `WriteFile`, `Render` | `GenerateHtml`: what yattag and graphviz produce |
| `src/tfc/utils/MakePlot.py` | constructor, `save`, `savePickle`, `saveAll`, `animate`, `FullScreen`, `PartScreen` | `show`, `draw`, the content of a pickle |
| `src/tfc/utils/PlotlyMakePlot.py` | constructor labels and colours, trace methods, `save`, `view`, `NormalizeColorScale`, `FullScreen`, `PartScreen` | template, `show`, `UploadToPlotly` |
| `src/tfc/utils/MayaviMakePlot.py` | `save`, `animate`, `ColormapGradient`, `_ProcessKwargs`, the arguments of the `mlab` calls, `FullScreen`, `PartScreen` | what `mlab` draws |
| `tests/pOP.py` | all functions | – |
| `tests/test_ODE.py`, `tests/test_PDE.py` | the whole programs: the object, the constrained expression, its derivatives, the residual, the run of `NLLS` | the comparison with the true solution (the error is bounded instead) |
| `tests/test_ce_solver.py`, `docs/notebooks/CeSolver.ipynb` | `test_multivariate`, Example 2.9 of the notebook | printing |
| `tests/test_complex_ODE.py` | the constrained expression and the reference solution | the solver run |
| `examples/` | the constrained expressions of the programs with one independent variable (also with inequality constraints, sets of values, two segments, quaternions, a complex variable) and with several, the propagation loop; the residuals and reference solutions that have a closed form; seven programs in two variables from the constructor to the returned coefficients (C100); further programs end to end or function by function: IVPs and BVPs, Lane–Emden, systems, landing, periodic orbits, libration points, starting orbits, the differential corrector (C101–C114, C117, C118) | other residuals and solver runs, plots, the notebooks |

## Wrong programs tried against the theorems

For every line of `seeded/LOG.jsonl` one definition of the model was changed in a copy of the project, as a programming error would
change it, and the copy was rebuilt. `first_failing` lists the declarations whose proofs broke, `theorems_failed` the property theorems among
them and their dependents. An edit whose claim survived led to a new or stronger theorem (`theorems_tightened`). Edits that *repair* a defect must break
the corresponding `…_fails` theorem, and do.

## Per property

| id | property | model | proof | result |
|----|----------|-------|-------|--------|
| C01 | Polynomial basis derivatives are exact in the C++ backend | BF.cc 57–98, 170–520 (`BasisFunc::H`, `CP/LeP/LaP/HoPpro/HoPphy::Hint`, `RecurseDeriv`) as programs of the memory machine: Model/PolyCC, Model/BasisFuncCC | loop invariants: after `RecurseDeriv` at order d cell (j,k) holds the d-th derivative of polynomial k at z_j; the three-term recurrence differentiated d times; chain rule for the affine map | **proved**: all five classes, every m>=1, d, domain, points; exact real arithmetic |
| C02 | Order-0 columns are the classical orthogonal polynomials | same with d = 0, and `utfc.H` | recurrences of Mathlib's Chebyshev T and `hermite`; Legendre from Rodrigues' formula, Laguerre from the explicit sum, physicists' Hermite from `(-1)^n e^{x²} dⁿ e^{-x²}` | **proved**: over every field of characteristic 0; C02_matrix for the matrices utfc returns, over the reals |
| C03 | Polynomial basis derivatives are exact in the Python backend | BF_Py.py 124–502 as functional column updates: Model/PolyPy | same invariants as C01 | **proved**: all five classes, every m>=1, d, domain, points; exact real arithmetic |
| C04 | The two backends compute the same matrix | both models | both equal the same specification; equality of whole matrices including shape and removed columns | **proved**: polynomial classes over every field of characteristic 0, Fourier over the reals; full and reduced matrices |
| C05 | Derivatives beyond the degree vanish | both models | the d-th derivative of a polynomial of degree below d is 0 | **proved**: both backends |
| C06 | Fourier basis is the trigonometric system with exact derivatives | `FS::Hint` BF.cc 524–590, `FS._Hint` BF_Py.py 531–589 | period-4 induction for the derivatives of sin and cos of an affine map | **proved**: both backends |
| C07 | Sigmoid ELM derivatives are exact for every order | `ELMSigmoid::Hint` BF.cc 679–765: Model/ElmCC | each row of the table is the derivative of the previous one (σ' = σ − σ²); witness for orders ≥ 9 | **partial**: exact for orders 0..8; the claim is false for every order >= 9 (proved): the switch has no case and the undifferentiated value is returned |
| C08 | Tanh ELM derivatives are exact for every order | `ELMTanh::Hint` BF.cc 769–846 | tanh' = 1 − tanh²; witness for orders ≥ 9 | **partial**: exact for orders 0..8; false for every order >= 9 (proved) |
| C09 | Swish ELM derivatives are exact for every order | `ELMSwish::Hint` BF.cc 883–1010 | Leibniz rule for t·σ(t); the machine reports uninitialised cells for orders ≥ 9 | **partial**: exact for orders 0..8; for every order >= 9 the returned matrix is uninitialised memory (proved) |
| C10 | Sine ELM derivatives are exact for every order | `ELMSin::Hint` BF.cc 850–879 | period-4 induction | **proved**:  |
| C11 | ReLU ELM derivatives are exact away from the kink and have the right shape | `ELMReLU` both backends | local equality with an affine function or 0; the Python result for d ≥ 2 computed | **partial**: compiled backend: proved for every order; Python backend: orders 0 and 1; from order 2 on it returns a transposed m x n array (proved, claim false) |
| C12 | The domain map sends the problem domain onto the basis domain | constructors and domain maps of both backends and of `mtfc` | the maps run by the model (on the memory machine for the compiled classes) and field arithmetic | **proved**: compiled and Python univariate classes, and every object an mtfc constructs |
| C13 | Collocation points are inside the domain, ordered and include both ends | `utfc.__init__` points, utfc.py 92–187: Model/UtfcInit | cos is strictly decreasing on [0,π]; division with remainder | **proved**: utfcInit returns N points z that are cos(pi(n-i)/n) or equispaced, x is their affine image; endpoints and ordering included. |
| C14 | The multivariate grid is the full Cartesian product | `mtfc.__init__` grid, mtfc.py 330–360: Model/Mtfc | mixed-radix digits are a bijection | **proved**: every dimension, n, basis and backend; at least two points per dimension for the Chebyshev/Legendre grids (one point gives NaN in the code), exact reals |
| C15 | Removed columns are exactly the requested ones | `BasisFunc::H` copy loops, `np.delete` | loop invariant: the i-th kept column goes to place i | **partial**: both backends; excluded: compiled ELMSwish above order 8 (no full matrix either), Python ELMReLU from order 2 on (transposed array, IndexError proved) |
| C16 | Evaluation never touches memory outside its buffers | whole `H` on the machine and the argument checks of `utfc` | a run without fault writes every cell; overrun witness for repeated or too large indices | **partial**: safe for distinct in-range indices; utfc accepts repeated and out-of-range indices, which overrun the buffer (proved), and ELMSwish order >= 9 reads uninitialised memory (proved) |
| C17 | Compiled (JIT) and eager evaluation agree | `BasisFunc::xla` BF.cc 100–144, abstract evaluation of utfc.py | same refinement as `H` | **proved**: every class, order, flag and valid nC, also in a running process after any history of constructions, destructions and assignments; for ELMSwish above order 8 both entry points read uninitialised memory |
| C18 | Concurrent basis objects do not interfere | static members and constructors: Model/Registry | invariant by induction over histories of constructions, destructions and calls | **proved**: every history of creations, destructions, assignments of w and b, with any allocator; excluded: Python code assigning the writable attribute identifier. Calls that outlive their object are outside the claim; the dangling entry is exhibited |
| C19 | utfc normalises and validates the removed-function argument | utfc.py 92–109: Model/Utfc | case analysis; witness for an index above deg | **partial**: integers and lists accepted, refused and mapped to the removed columns as stated; the code does not reject a list index above deg (proved, claim false there) |
| C20 | mtfc normalises and validates the removed-function argument per dimension | mtfc.py nC handling: Model/Mtfc | case analysis and induction over the list; witness for a one-element list | **partial**: lists of integers and of lists/arrays whose length is not 1; proved false: a one-element list [v] is treated as the integer v; a two-axis array is accepted whatever deg is |
| C21 | The number of multivariate basis functions is the number of admissible multi-indices | `NumBasisFunc` both backends | recursion = filter of the product of ranges; cardinality of the simplex by stars and bars | **proved**: both backends |
| C22 | Multivariate columns are exactly the admissible tensor products, once each | `nHint`, `RecurseBasis` BF.cc 1106–1196 on the machine; `nBasisFunc.H` BF_Py.py 921–959 | the recursion enumerates the admissible multi-indices in one order, the same in both backends | **proved**: both backends; exact real arithmetic |
| C23 | Multivariate derivatives are exact mixed partials | same | product of univariate derivatives = iterated partial derivative | **partial**: compiled backend: proved in full; Python backend: proved for orders of full length, a shorter tuple raises IndexError (proved, claim false) |
| C24 | Multivariate evaluation stays inside its buffers | same, `nBasisFunc::xla`, `nELM` | success of the machine = no fault | **partial**: tensor-product and ELM classes, eager and xla; excluded and refuted: nELMSwish from total order 9 on returns uninitialised memory |
| C25 | Multivariate ELM derivatives are exact mixed partials | `nELM*::nElmHint` BF.cc 1411–1948: Model/NElmCC | chain rule in each coordinate; witnesses for total order ≥ 9 | **partial**: sigmoid, tanh, swish up to total order 8, sin every order, ReLU every order away from the kink; from total order 9 on the first three are wrong (proved) |
| C26 | Automatic differentiation of H is the derivative of H | `H_jvp`, utfc.py 320–345: Model/UtfcJax | derivative facts of C01–C11; witness for a zero tangent | **partial**: both backends, every class and order where the basis is exact; a tangent that is identically zero raises UnboundLocalError (proved, claim false there) |
| C27 | Automatic differentiation of multivariate H is the gradient rule | `H_jvp` of mtfc.py | partial derivatives of C23, C25, C56; sum over dimensions by induction | **partial**: tensor-product bases: proved in full for both backends; ELM bases: up to the orders at which the classes are exact; Python ReLU: the rule raises IndexError (proved) |
| C28 | ELM weights and biases can be read back after being set | setters and getters, both backends, arrays of any layout: Model/ElmSet | state machine; witness for a strided array | **partial**: Python backend in full (arrays as values); compiled backend for contiguous arrays; proved false: a strided array assigned to a compiled ELM (w, b) or nELM (b) is stored wrongly |
| C29 | TFCDict flattening and unflattening are inverse | `TFCDict`, TFCUtils.py 326–532: Model/Dict, with a heap for numpy arrays | induction over the list of keys | **partial**: every dictionary of one-dimensional arrays with at least one key; proved false: the empty dictionary, whose toArray raises |
| C30 | TFCDict arithmetic acts on the flat vector | same | induction over the list of keys; aliasing witnesses | **partial**: all dictionaries and JAX arrays; proved false: d + o with numpy arrays under the same key in both changes d; a flat numpy array on the right is ignored |
| C31 | TFCDict stays consistent under every history of dictionary operations | same | invariant of histories; witnesses | **partial**: histories whose assignments after the last update keep keys and lengths; proved false: assignments with a new key or another length, deletions |
| C32 | TFCDictRobust round trips arrays of any shape | `TFCDictRobust`, TFCUtils.py 535–739 | as C29 with shapes | **partial**: JAX arrays of any shape; proved false: numpy arrays with two or more keys make toDict raise |
| C33 | Partial evaluation freezes exactly the named arguments | `pe`, `pejit`, TFCUtils.py 206–323: Model/Pe | merge of two ascending lists; witness for other orders | **partial**: positions in ascending order, any number of arguments, relative to JAX tracing computing what the traced function computes; proved false: positions in another order freeze other arguments |
| C34 | LS and NLLS do not disturb the caller's arguments | list handling of `LS`, `NLLS`, `LsClass`, `NllsClass` | `sort; reverse` on the caller's list as state | **partial**: lists in descending order (in particular at most one constant); proved false: any other list is left sorted in descending order, and a second LS call with it solves another problem |
| C35 | LS returns a least-squares minimiser of an affine residual | `LS`, TFCUtils.py 766–886: Model/LeastSquares | normal equations from the Moore–Penrose contract | **partial**: every affine residual, array / TFCDict / one-key TFCDictRobust unknowns, both methods, relative to the contracts of pinv and lstsq (shown satisfiable); proved false: TFCDictRobust with two keys raises |
| C36 | LsClass gives the same answer as LS for every call | `LsClass`, TFCUtils.py 889–1043 | same program with a cached Jacobian; C36_lsClass_args_partial: an object built with other values of its arguments | **partial**: with the timer, every call; proved false: without the timer every call raises NameError |
| C37 | NLLS stops, within the iteration budget, for a stated reason | NLLS loop, TFCUtils.py 1086–1285 | loop invariant relating the state to the Gauss–Newton sequence; C37_nllsClass_args_partial: an object built with other values of its arguments | **partial**: every residual, start value, tol < 1 and maxIter, NLLS and NllsClass; proved false for tol = 1 (returns at once although no reason holds) |
| C38 | NLLS honours a user supplied stopping condition | same | the argument never reaches the loop | **partial**: conditions equal to the built-in one; proved false in general: the argument cond is ignored |
| C39 | NLLS is exact on affine residuals and fixes solutions | same | one step solves an affine problem, the loop then stops | **proved**: no rank hypothesis needed; relative to the contracts of pinv and lstsq; constant positions in ascending order, non-empty residual and unknowns |
| C40 | Timing a solve does not change its answer | `NLLS` with timer, `NllsClass` | the loops are the same function | **proved**: every residual, start value, tol, maxIter with the default body; constant positions in ascending order, non-empty residual and unknowns |
| C41 | ComponentConstraintGraph lists exactly the admissible trees | `ComponentConstraintGraph`, TFCUtils.py 1525–1684: Model/Graph | nilpotent adjacency matrix ⇔ all eigenvalues 0 ⇔ no directed cycle | **proved**: eigenvalues are exact complex eigenvalues; the test is shown equivalent to the absence of a cycle through nilpotency of the adjacency matrix |
| C42 | ComponentConstraintGraph rejects bad edges and draws what it found | same | case analysis of the drawing loop | **partial**: an edge from a node to itself is not seen by the check in one of its two choices, so a tree with a loop is reported |
| C43 | The constrained expression satisfies every constraint for every free function | CeSolver.py 10–369: Model/CeSolver | linear algebra with S⁻¹ over a commutative ring | **partial**: linear functionals over any commutative ring of coefficients, any history; proved false for linear operators whose values are not coefficients (u' = 0); sympy's inverse by contract |
| C44 | Every function satisfying the constraints is a constrained expression | same | same | **partial**: all operators, at least one constraint, any history; without constraints ce raises |
| C45 | CeSolver never returns a stale expression | same, as a state machine | cache invariant by induction over histories; witness for phi | **partial**: complete for assignments to C, kappa, s, g; phi assigned after ce was read is proved to be ignored |
| C46 | The switching functions are dual to the constraint operators | same | same | **partial**: S and alpha for all operators; duality for linear functionals over any ring of coefficients; proved false for linear operators whose values are not coefficients |
| C47 | checkCe reports exactly whether the constraints hold | same | cache invariant; simplifier by contract | **proved**: any history; constraints given as pairs; simplifier assumed to decide equality |
| C48 | HybridUtfc concatenates its classes | `HybridUtfc`, utfc.py 383–541 | column concatenation lemma | **proved**: every list of objects; an empty list raises ValueError |
| C49 | Printed derivatives are well-formed nested egrad calls | `_print_Derivative`, CeSolver.py 457–497: Model/Printer | string lemmas; witnesses for every order | **partial**: balance and one opening per differentiation for all derivatives; the nest of calls for the first derivative of a function of one variable; proved false: every higher order of one variable, every first derivative of two or more arguments |
| C50 | Printed substitutions replace the variable and nothing else | `_print_Subs`, CeSolver.py 439–455 | `str.replace` on strings of tokens; witnesses | **partial**: names replaced by names or numbers, no substituted variable inside another name or value; proved false: variables inside longer names, exchanged variables, negative values under a power |
| C51 | LaTeX tables have the shape of the data | Latex.py: Model/Latex, following numpy's `array2string` | string structure by induction | **partial**: two-dimensional arrays with 1 to 1000 columns, any headers, any format; proved false: one-dimensional arrays raise, rows of more than 1000 entries are abbreviated by numpy |
| C52 | step is the indicator of the positive half line with zero derivative | `step`: Model/Step | dual numbers of every depth; real analysis | **proved**: all arrays, all tangents, repeated differentiation; agrees with the true derivative away from zero, where there is none |
| C53 | Scaled QR least squares solves the unscaled problem | `ScaledQrLs`, `_MatPinv`: Model/ScaledQr | QR, SVD and norm contracts as hypotheses, shown satisfiable | **partial**: every full-rank matrix whose scaled singular values stay above the cut-off, one-dimensional b, relative to the contracts of qr, pinv, cond, norm (shown satisfiable); proved false: nearly dependent columns are cut off, and B of shape (n,1) gives an m x m array |
| C54 | egrad of an elementwise function is its elementwise derivative | `egrad`: Model/Egrad | derivative of functions acting entry by entry; induction over nesting | **proved**: relative to the contract of jax.jvp (directional derivative) |
| C55 | Python ELM derivatives by nested differentiation are exact for every order | Python ELM classes: Model/BasisPy | C54 and the chain rule | **proved**: every order; relative to the contract of jax.jvp |
| C56 | Python multivariate ELM derivatives are exact mixed partials | Python nELM classes: Model/NBasisPy | nested `egrad` in several arguments, mixed partials | **partial**: smooth activations: every order; ReLU: order 1 given as a tuple raises an exception (proved, claim false), all other cases proved; relative to the contract of jax.jvp |
| C57 | The named derivative methods return the derivatives they are named after | named methods of utfc and mtfc | C01–C11, C23, C25, C56 | **partial**: all classes except the Python ReLU classes beyond the orders they support; those are proved false: d2H, d4H, d8H of utfc have rows and columns exchanged, Hx of mtfc raises IndexError |
| C58 | H evaluates point by point | `H` of both classes | row formula of every class | **partial**: every class and backend for the orders at which the class has code; proved false: Python ReLU from order 2 on (rows and columns exchanged), compiled swish beyond order 8 (uninitialised memory) |
| C59 | Mapping H over a batch equals stacking the separate calls | batching rules utfc.py 298–356, mtfc.py 546–610: Model/Batch | C58 and the shapes the rule produces; witnesses | **partial**: batches of scalar points with all coordinates mapped; proved false: examples that are arrays (compiled program silently returns a matrix of another shape, eager call raises), coordinates that are not mapped (mtfc raises), points without axis |
| C60 | Univariate bases determine and represent functions | `utfc` objects | degree argument: a polynomial with more than deg zeros is 0; trigonometric polynomials as Laurent polynomials | **partial**: polynomial classes in full; Fourier on the object's own points when N >= 2*floor((deg+1)/2)+2; and this bound is sharp: proved false for Fourier with N = deg+1 (first and last point carry the same row) and, for odd deg, with N = deg+2 (the last column is zero) |
| C61 | Multivariate tensor-product bases determine and represent functions | `mtfc` objects | tensor products of C60 | **proved**: tensor-product bases, both backends, every number of variables |
| C62 | Every matplotlib subplot carries its own labels and title | MakePlot.py 20–187: Model/MakePlot | loop invariant over the places; witnesses | **partial**: labels and twin labels for every pattern of left-out subplots, titles when they are given exactly where subplots are; proved false otherwise: titles move to another subplot or the constructor raises |
| C63 | Saved figures are in the format their name says | `save` of the three plot classes: Model/Files | string case analysis | **partial**: Plotly and Mayavi in full, matplotlib with an explicit type or a known suffix; proved false: matplotlib writes PDF data under any name with another suffix |
| C64 | An animation writes one numbered frame per step | `animate` of MakePlot and MayaviMakePlot | induction over the frames, a file system as a map | **partial**: generators yielding None, directories that exist or can be made; proved false: the printed command for absolute directories, and frames of earlier runs stay |
| C65 | HTML.WriteFile writes the file it was given | Html.py 45–70 | case analysis of `os.path` functions | **partial**: names with a directory part; proved false: a bare file name always raises |
| C66 | Plotly subplots carry their own labels and views | PlotlyMakePlot.py 81–292, 565–617: Model/Plotly | arithmetic of subplot numbers; witness for every grid with two rows and columns | **partial**: figures with one row or one column; proved false for every grid with two rows and two columns: the last subplot never gets labels, view moves another camera |
| C67 | NormalizeColorScale gives all named plots the common range | PlotlyMakePlot.py 664–717: Model/Color | fold over the plots | **partial**: in full when limits are given; from data if the first plot of a listed type has the property; proved false otherwise (UnboundLocalError) |
| C68 | Tight png files are trimmed to the drawing | PlotlyMakePlot.py 520–536: Model/Crop | bounding box as minimum and maximum | **partial**: pictures with differences in the first and the last channel; proved false: opaque and blank pictures raise |
| C69 | A linear boundary value problem solved with utfc and LS gets the best admissible polynomial | tests/test_ODE.py (linear problem): Model/Bvp | C35, C60 and the constrained expression: LS minimises over all admissible polynomials | **proved**: the linear second-order problem of tests/test_ODE.py, under the contracts of pinv and lstsq, in exact arithmetic |
| C70 | The two-dimensional constrained expression meets its boundary conditions for all coefficients | tests/test_PDE.py: Model/Pde | the expression meets its four boundary conditions, using C23 | **proved**: CP, LeP and FS bases |
| C71 | The compiled objects manage their memory correctly | BF.cc, BF_Py.cc, heap behaviour only: Model/Life | invariant over all sequences of operations: every live block has exactly one owner; witnesses for the two defects | **partial**: safe for every program except calls of compiled computations whose object is gone, and no leak with one-dimensional objects; proved false: such a call uses freed memory (the pointer table is never cleaned), and every n-dimensional object leaks its x0 |
| C72 | The basis argument selects the family it names | `utfc.__init__`, `mtfc.__init__` and `H` of both backends: Model/UtfcInit, Model/Mtfc; separate table of names in Spec/Names | case analysis of the name chains, then the evaluation theorems at order zero | **proved**: every name and both backends, including the kinks of ReLU; the ELM bases of mtfc on non-degenerate domains |
| C73 | Compiled objects see the elements of the arrays they are given | BF_Py.cc constructors and `H`, arrays with offset, shape and strides: Model/Bind | the reads of a contiguous array are its elements, then C01–C25 for the evaluation; witnesses for strided and transposed arrays | **partial**: points and orders in any layout; constructor arguments in contiguous arrays; the Python tensor-product classes for arguments in any layout. Proved false for other constructor arguments of the compiled classes: strides are ignored, so a view or a transposed table of int32 removes other functions |
| C74 | Array arguments that do not fit are refused | as C73, and the shape checks of the Python classes: Model/Bind | the failing read or write is found by an invariant of the loops, for all objects and arrays; inversion of the checks for the Python classes | **partial**: holds for the Python tensor-product classes and, in the compiled classes, for the number of axes; proved false for the other mismatches, each of which makes the compiled code access memory out of bounds or uninitialised (or, for extra rows, ignores them) |
| C75 | Assigning c of an n-dimensional compiled object takes effect | the property setter: Model/Bind | case analysis | **partial**: arrays of another size are refused; proved false otherwise: the assignment is accepted and has no effect |
| C76 | H times the coefficients is a smooth function and H with d > 0 its derivatives | the objects of C19/C27 and np.dot: Spec/Expr | the columns are smooth functions (C19, C23, C24), finite sums of them, derivatives of sums | **proved**: every object except ELMReLU (kinks, see C72) and repeated or out-of-range removed indices; existence and uniqueness of the function |
| C77 | The constrained expressions of the one-dimensional example programs meet their constraints | the constrained expressions and the propagation loop of the programs: Model/Programs | end points by C13, derivatives by C76, algebra; induction over the propagation steps; counterexamples for the programs that miss a constraint | **partial**: all programs with one independent variable; proved false: laneEmden_tfc.py for a start other than 0, IVP2BVP.py with the Fourier basis or between the two problems, and the selection of the number of removed functions in three programs |
| C78 | Constrained expressions with inequality constraints and discrete sets of values stay in the admissible set | the expressions with step, table and sign choices, one entry: Model/Sets | case distinction on the steps, estimates of the bounds, trigonometric identities; intermediate value theorem for the counterexample | **partial**: all these programs; proved false: Figure_2_1.py and Figure_2_2.py when the two random bounds cross, and Problem_6.py, whose path passes through the centre of the box whenever both coordinates have the same coefficients |
| C80 | Two-segment expressions join with the same value and derivative | the expressions on the two segments and the joint: Model/Segments | boundary values by algebra; the function defined by cases is differentiable at the joint since values and derivatives agree | **proved**: the joined function is differentiable, with the boundary values and the unknown value and derivative at the joint; convectionDiffusionNLS.py for b other than 0 (at 0 the program divides by zero) |
| C81 | Paths of quaternions consist of unit quaternions between the given ones | q2u, u2q and the path: Model/Quaternion | arccos and square roots, case distinction on vanishing components; clamping (C78) | **proved**: round trip for quaternions of length exactly 1; the check refuses those further than half of 1e-15 from it |
| C82 | Constrained expressions of a complex variable | the expressions over the complex numbers, the element types of the tangents: Model/Complex | algebra with j*j = -1, complex derivatives, a function with vanishing derivative on a disk is constant; case distinction on element types | **partial**: the expressions are correct and a vanishing residual gives the reference solution; proved false, by the contract of jax.jvp on element types: egrad builds float64 tangents and ends in a TypeError for complex arguments (egradRobust does not) |
| C79 | Constrained expressions in several variables meet all their boundary, initial and periodicity conditions | the expressions in curried form, egrad as the derivative in one variable: Model/Pdes; smooth functions of two variables: Lemmas/Two | values by algebra; derivatives of the explicit polynomial combinations; commuting partial derivatives for the expressions that differentiate in both variables; C76 for the free function of an mtfc object | **partial**: all these programs; proved false: the expression of Figure_4_3.py, which lacks the term -g(1,y) and keeps the curve on x = 1 only for free functions that vanish there (the one of the program does) |
| C83 | The reference solutions of the tests and example programs solve the posed problems | the reference functions and the residuals in curried form: Model/Reference, with the expressions of Model/Pdes | derivatives of the closed forms, away from r = 0 in polar coordinates; uniqueness for the ordinary equations: an integrating factor for the difference (BVP, convection), a conserved energy (oscillator), a Gronwall estimate through the singular point (Lane-Emden) | **partial**: all these programs; uniqueness here for the ordinary differential equations, for most of the partial ones it follows from C96 with R = 0; proved false for example_3_1.py with a negative starting value, where the arctan phase starts the reference at -y0; the Navier-Stokes profile is the fully developed flow and not a solution with the program's inflow condition |
| C84 | The constrained minimisation example keeps its constraint and converges to the minimiser | f, its gradient and Hessian, the loop body and the loop over real vectors with three entries: Model/Optimise | gradient and Hessian proved to be the partial derivatives; the constraint by linearity; f as a sum of squares; the iteration reduced to e -> 8 e^3 / (12 e^2 + 2) by induction on the number of steps | **proved**: real numbers instead of doubles; null_space by its contract (a non-zero vector that A sends to 0) |
| C85 | Near a regular zero nonlinear least squares converges quadratically | the loop of C37-C40 (Model/LeastSquares.lean); the residual as a function of the vector of entries | the Gauss-Newton step minimises the linearisation, so with the zero's Taylor estimate (the derivative is Lipschitz near s) and the lower bound of the injective derivative the new distance is at most C times the square of the old; induction over the run. At the double zero of x^2 the distance is exactly halved (C85_double_fails): full rank is needed | **proved**: exact arithmetic, library routines by their contracts as in C37; C85_double_fails shows that the rank hypothesis is needed |
| C86 | In floating point arithmetic the domain map keeps order and stays in the domains | c, z and x with a rounding after every operation: Model/Rounded; formats of p binary digits and rounding to nearest with any tie-breaking: Spec/Rounding | rounding is monotone and exact on the format, its relative error is at most u/(1+u), and just above a power of two there is a gap of 2u: so D * rnd(2^k / D) rounds to at most 2^k. Error bounds by multiplying the factors. Counterexamples for doubles by exhibiting the roundings: [0,25] with the Fourier series leaves [-pi, pi]; on [0,49] the last collocation point is 49 + 2^-47 and the end is sent to 1 - 2^-52 | **partial**: staying inside proved for basis domains whose length is a power of two (polynomials, ELMs); proved false with doubles: the Fourier map on [0, 25] exceeds pi, the last collocation point on [0, 49] is larger than 49 |
| C87 | The Chebyshev matrices are accurate in floating point arithmetic | the transliteration of CP::Hint, RecurseDeriv and BasisFunc::H (Model/PolyCC, Model/BasisFuncCC), which is polymorphic in the number type, run with the numbers Fl of Model/Rounded: a rounding after every operation, pow correctly rounded | the loops fill the table of the recurrences in every arithmetic (recTable_spec). A solution of the Chebyshev recurrence with forcing at most h grows at most like h n²/2, via the complex root of modulus 1; applied to the derivatives (\|T_n^(d)\| ≤ d! n^(2d)), to their Lipschitz constants and to the rounding errors, by induction on the order and the degree | **proved**: rounding to nearest without overflow or underflow, pow correctly rounded, no fused multiply-add; constants 17 (order 0) and 25 + 26 d; needs (8 + 14 d) u m² ≤ 1 |
| C88 | The Legendre matrices are accurate in floating point arithmetic | as C87, with LeP::Hint and RecurseDeriv; the Python class via C89 | e_{n+1} - ω e_n is an energy of the Legendre recurrence that grows at most by the forcing term: the real part is divided by (k+2)/(k+1) ≥ 1. Hence \|P_n\| ≤ 1, \|P_n^(d)\| ≤ (3/2)^d d! n^(2d), and rounding errors grow quadratically; then as C87 | **proved**: rounding to nearest without overflow or underflow, pow correctly rounded, no fused multiply-add; constant 39 + 42 d; needs (24 + 32 d) u m² ≤ 1 |
| C89 | The two backends carry out the same operations for polynomials | Model/PolyCC, Model/BasisFuncCC, Model/PolyPy and Model/BasisPy, which only assume that the number type has the operations | both loops fill the table of the same recurrences (opTable); no law of arithmetic is available in the proof, except 2 * 1 = 2 | **proved**: the same pow is assumed for both backends, and no fused multiply-add; uses nothing about the arithmetic but 2 * 1 = 2 |
| C90 | The two backends carry out the same operations in several variables | Model/NBasisCC and Model/NBasisPy, which only assume that the number type has the operations | both recursions multiply the same univariate factors (C89) from the left beginning with 1; no law of arithmetic is available in the proof | **proved**: the orders are given for every variable (the Python class raises otherwise: C23_short_py_fails); the same pow is assumed for both backends, and no fused multiply-add |
| C91 | The multivariate matrices are accurate in floating point arithmetic | as C90, with the rounded arithmetic of Model/Rounded | the errors of the factors (C87, C88) and of the multiplications combine to the product of (1 + e_l)(1 + u), which is at most 1 + 2 times the sum | **proved**: rounding to nearest without overflow or underflow, pow correctly rounded, no fused multiply-add; C = 25 + 26 D or 39 + 42 D for orders up to D; needs (C m² + dim) u ≤ 1 |
| C92 | The Fourier matrices are accurate in floating point arithmetic | `FS` and `nFS` of both backends over any number type with the operations and a pair of library functions (class `Libm` of Verif/Libm.lean), with the rounded arithmetic of Model/Rounded | the same table of operations for both backends; error of the mapped point at most 45 u, of the argument 49 g u, Lipschitz bounds of sin and cos, relative errors of pow, slope and products | **proved**: relative to a bound ε of the absolute error of sin and cos and to π being the nearest number (shown satisfiable); rounding to nearest without overflow or underflow, pow correctly rounded, no fused multiply-add; needs (7 d + 9) u ≤ 1 and m ≤ 2^p; in several variables needs the sum of the relative errors to be at most 1 |
| C93 | In floating point arithmetic the constrained expressions meet their values up to rounding | the expressions of Model/Bvp and Model/Programs over any number type with the operations, with the rounded arithmetic of Model/Rounded; the free function is any function of the point | (b - a)/(b - a) rounds to 1 and (a - a)/(b - a) to 0, the cubic switching functions on [-1, 1] are computed with small integers and powers of two; what remains is a + (y - a) with two roundings: error bound, and exact by Sterbenz' lemma | **proved**: rounding to nearest without overflow or underflow; the product of a row of H with the coefficients is any function of the point; C93_bvp: if the last collocation point is not the rounded pi, the difference of the free function at the two is added; C93_one_point: the expression h + v - h(-1) adds first, its error is bounded by the size of that sum; derivatives computed by egrad are not treated |
| C94 | All polynomial classes are accurate in floating point arithmetic at all points, relative to the size of the terms | the same models of the polynomial classes of both backends, over the rounded arithmetic of Model/Rounded | a computed value carries a bound of its size and a number of roundings (Near); sums, products, quotients and powers add these; induction over both indices of the recurrences; the recurrences with positive signs are solved by the polynomials at an imaginary point (Spec/Magnitude) | **proved**: rounding to nearest without overflow or underflow, pow correctly rounded, no fused multiply-add; for the Hermite and Laguerre classes the points are floating point numbers |
| C95 | Compiled computations receive their arguments as they were meant | the operands of the custom calls as lists of bytes (Model/Lowering: H_xla of utfc and mtfc, xlaWrapper and the casts of both xla methods), element types and IEEE 754 numbers (Spec/Ieee), on top of the registry model | writing and reading back little-endian numbers; chunks of joined byte lists; then C17_process, C24; for other element types and lengths the faults and wrong values are proved (C95_four_bytes_fails, C95_int64_fails, C95_short_fails, C95_lengths_fails) | **partial**: proved for points of type float64 (several variables: of equal lengths). False otherwise, proved: with float32 or int32 points every compiled call reads beyond the array of points; with int64 points it uses the bits of the integers as floating point numbers; coordinates of different lengths are read beyond their end or silently mixed, where the eager method raises. mtfc itself makes float32 points when x0 is a float32 array (mtfc.py 156, 330) |
| C96 | A small residual means a small error | the residuals, reference solutions and expressions of Model/Reference and Model/Pdes; no new code | a maximum principle with explicit barriers for the elliptic and parabolic problems (Lemmas/MaxPrinciple), applied twice for the biharmonic one; integration along characteristics for the wave equation; an energy estimate with a weight for the wave equation in two dimensions (Lemmas/Energy); the variation of constants for the oscillator; Gronwall for the boundary value problem and Lane-Emden. The oscillator with y0 < 0 is proved false (C96_oscillator_fails). For the polar biharmonic problem the energy of the difference, by the divergence theorem, is the integral of the difference times the residual, and bounds the difference (Lemmas/Area). For Navier-Stokes the residual of every candidate is the pressure gradient where the inlet or a wall meets the start (C96_navier_stokes_fails). For the two-segment problem the linear part bounds the slope of the difference at the joint by the residual (quarter_bound), the nonlinear part is integrated once to a first-order equation with the value 0 at the right end (tail_bound) | **partial**: constants: Poisson R/8, biharmonic R/64, test_PDE R/2, annulus 3R, polar biharmonic 285 pi^2 R, Burgers R t exp(c^2 t/(2 nu)), wave R t^2/2, convection R/\|Pe\|, oscillator R x/\|w\|, boundary value problem and Lane-Emden with a bound on the candidate; the wave equation in two dimensions in the mean square only; the two-segment problem with bounds on the candidate; false for the oscillator with y0 < 0, where the reference is not the solution, and empty for Navier-Stokes, where the residual of every candidate is at least the pressure gradient at the edges of the start |
| C97 | Near a minimum of the sum of squares nonlinear least squares converge to it | NLLS and NllsClass of Model/LeastSquares; no new code | the steps of C37 leave a rest that is orthogonal to the range of the Jacobian; near a stationary point of the sum of squares this makes the step a contraction in the norm given by the Jacobian at that point (Lemmas/NearMinimum); then induction on the iterations, and the stopping conditions are turned into bounds of the error. The claim is false without the condition on the curvature (C97_large_residual_fails) and far from the solution (C97_far_fails). C85 is the case of a residual that vanishes at the minimum | **partial**: exact arithmetic, library routines by their contracts as in C37. Proved when the part of the Hessian that the method leaves out is less than the part it keeps (the error falls geometrically with every factor above their ratio). False otherwise, proved: for (x + 1, -2 x^2 + x - 1), whose sum of squares has its only minimum at 0, every start but 0 is driven away; and far from a solution: from 0 the search for the square root of 2 stays at 0 |
| C98 | The nonlinear program of the tests runs Newton's method and its error is bounded by its residual | tests/test_ODE.py, both programs: Model/Ode (residual and the call of NLLS), on Model/Bvp (constrained expression), Model/UtfcInit (constructor) and Model/LeastSquares (NLLS) | C37 gives the Gauss–Newton steps; the partial derivatives of the residual are the linearised operator applied to the directions of the constrained expression, which span the differences of admissible polynomials (C69), so each step is Newton's. The collocation points leave no gap wider than (xf - x0) π / (2 (N - 1)) (C98_points), so a residual that is small at the points is small everywhere up to its derivative, and C96_bvp turns it into an error | **proved**: exact arithmetic, linear algebra by the contracts of pinv and lstsq; the error bound contains a bound of y and of the derivative of its residual, which exist for every result and can be computed from the coefficients |
| C99 | The program for the partial differential equation of the tests runs Newton's method and its error is bounded by its residual | tests/test_PDE.py, both programs: Model/PdeProgram (the derivatives of the constrained expression, the residual and the call of NLLS), on Model/Pde (constrained expression), Model/Mtfc (constructor, H) and Model/LeastSquares (NLLS) | Every basis function is a product p(x) q(y) of polynomials; the constrained expression turns it into a product again, and into 0 if a factor is affine, so the removed functions lose nothing (C61 for the rest). The residual is then D + E F - c with D, E, F affine in the coefficients, for which Props/QuadNewton gives the meaning of a run of NLLS from C37 once for all. C14 and the gaps of the univariate points (C98) give a near grid point to every point of the domain (C99_points), and C96_pde turns the residual into an error | **proved**: exact arithmetic, linear algebra by the contracts of pinv and lstsq; the error bound contains bounds of the derivatives of the residual, which exist for every result and can be computed from the coefficients |
| C100 | The example programs for partial differential equations in two variables return the least squares solution or Newton iterates, with an error bounded by the residual | The seven example programs in two variables with mtfc: Model/PdeExample has the general form of such a program (an expression of two steps, each a sum of weight times (data - what the condition sees), its derivatives as egrad makes them, a residual linear or with one product, and the three ways the programs solve: LS, jacfwd with pinv or lstsq, NLLS) and the data of each program | Lemmas/TwoOps: the expression is an affine operator on smooth functions of two variables and commutes with derivation as the model of egrad says. With C76 (columns of H are smooth functions) the residual is affine, or a product of affine functions, in the coefficients; C35 and Props/QuadNewton (C37) give the meaning of a run. If the weights of one step reproduce the removed polynomials, a removed product p(x) q(y) changes nothing in the expression (C100_reach). C99_points and C96 turn the residual at the points into an error on the domain | **proved**: exact arithmetic, linear algebra by the contracts of pinv and lstsq. The error bounds contain bounds of the derivatives of the residual, which exist for every result (SmallAt_exists). The random feature branches of the wave and biharmonic programs are covered by C100_linear |
| C101 | The example programs for ordinary differential equations return the least squares solution or Gauss-Newton iterates that meet the conditions, with an error bounded by the residual | The example programs for ordinary differential equations of second order with utfc: Lane-Emden (book and dissertation), the nonlinear boundary value problem, convection and diffusion, the brachistochrone, the equation between initial and boundary values. Model/OdeExample has the general form (an expression with weights, its derivatives as egrad makes them, the residual at the points of the object, LS or NLLS from zero) and each program from the constructor call to the coefficients. The errors, residuals and plots made of them afterwards are not modelled | Props/GaussNewton: what a run of NLLS means for a residual that is differentiable along lines. C76 makes the expression a smooth function, affine in the coefficients, so a linear equation has an affine residual (C35, C39) and any other a differentiable one (C37). C101_reach: with the polynomial bases the functions an object gives are exactly the polynomials of degree at most deg that meet the conditions. C98_points and C96 turn the residual at the points into an error on the interval; for Lane-Emden with k = 0 the residual is a polynomial with more zeros than its degree, so the result is exact. Equations without a special form: Props/OdeGronwall, Grönwall's inequality for value and slope; the equation of the brachistochrone is identified with the Euler–Lagrange equation of the fastest descent, and its residual with the rate of change of the invariant of the cycloid. Props/OdeShoot: for IVP2BVP with other gamma the difference to a solution is split along the direction the conditions leave free, which gives a bound as long as the problem has one solution (and none can exist otherwise) | **partial**: exact arithmetic, linear algebra by the contracts of pinv and lstsq. For the brachistochrone the error is measured by the invariant of the cycloid, for IVP2BVP it is bounded for every gamma for which the problem has one solution. Missing: the conditions of IVP2BVP with other bases than CP and LeP (they fail, C77_ivp2bvp_fails), laneEmden_tfc on intervals that do not start at 0 (its conditions fail there, C77_ivp_fails), Lane-Emden with k that is not a natural number |
| C102 | The programs that march through time join their steps and, for the oscillator, stay near the solution of the whole problem | The loops of example_3_1.py, Problem_1.py and Problem_2.py from the constructor to the saved rows: IC is updated entry by entry (the slope is evaluated with the new IC["y0"]), the solver objects are reused with other start values. The plots and times are not modelled | Induction over the rounds with the state reached so far. C36 and C37 for objects whose arguments change from call to call. The error of the oscillator: multiply the difference by the solution of the adjoint equation, carry the value from step to step, C98_points. The forced oscillator: error by Grönwall's inequality, carried from step to step (C102_duffing_error, for the equation with the force of the step); its forcing uses the time since the start of the step, so from the second step on the equation solved is not the equation posed; proved for the constants of the program (C102_duffing_fails) | **partial**: exact arithmetic, linear algebra by the contracts of pinv and lstsq. Proved in full for the oscillator. For the forced oscillator the joining and the Gauss-Newton steps are proved; that the later steps solve the equation posed is false, proved for the constants of the program: the force gamma*cos(omega*x) restarts with every step |
| C103 | Example programs in three and more variables return the least squares or Gauss-Newton solution of their problem, and it meets all conditions | The steps of WaveEquation2D.py, WaveEquationComparison2D.py and Navier_Stokes_TFC_and_XTFC.py (and its copy section_3_6_4_TFC_and_X-TFC.py) from the constructor to the values of the returned expression, for any number of variables, steps, unknown functions and equations (Model/PdeMany). Derivatives of the expression as in the model's comment: egrad raises the orders of H; that these are the derivatives is proved. Plots, times and the table are not modelled | The expression and its derivatives by induction over the steps (exprN_ok); the Jacobian of the residual is the derivative because the residual is a polynomial of degree 2 in the coefficients; then the theorems on LS and NLLS (view_run, linear_run, direct_run). Between the points by the mean value theorem along the coordinates; the wave equation by C96_wave2. At the corner all derivatives of the velocities are 0 by the conditions, so the residual is P | **proved**: exact arithmetic, linear algebra by the contracts of pinv and lstsq. All bases but ELMReLU, orders of derivation up to 8 in total. The error bound of the wave equation contains bounds of the derivatives of the residual, which exist for every result (smallAtN_exists). For Navier-Stokes there is no error bound: no function of this form has a small residual at the corner (C96_navier_stokes_fails) |
| C104 | Example programs with several unknown functions and unknown numbers take Gauss-Newton steps for the system they pose and end with its conditions met | The steps of tfc_linearNonlinear.py, spectral_linearNonlinear.py and UnknownTime.py from the constructors to the dictionary that NLLS returns (Model/OdeSystem), for any number of functions, conditions with unknown numbers and equations. Derivatives as in C101. Plots, times and the integral of the cost are not modelled | The state (functions and numbers) belonging to a dictionary is affine in the entries; the residual is differentiable where the formulas are (Regular), so the Jacobian of jacfwd is its derivative (Props/LocalNewton, which asks for differentiability at the iterates only) and a step minimises the linearised equations over all states. Ends by the loop of NLLS (C37). The error of the two segments by C96_two_segments. If the equations of UnknownTime.py held exactly with x0 = 0, the Hamiltonian at the start would give u = 0 there and the linear system the zero solution | **proved**: exact arithmetic, linear algebra by the contracts of pinv and lstsq. The error bound of the two segments asks for bounds of the candidate (a value of at least -1 at the joint). The spectral version has no error bound, its conditions hold up to the tolerance only. UnknownTime.py poses a system without exact solution for its own values (C104_unknown_fails) |
| C105 | The landing programs compute motions of least energy, and the equation they pose for the time is the derivative of the least cost | The steps of singleTFC_EOL.py, Problem_6.py and outTFC_EOL.py from the constructors to the dictionary returned, the function Innerloop with the state of its solver object, the scaling, and the formulas of the printed times, velocities, costates and Hamiltonian (Model/Landing). fsolve, plots, times and the cost by Simpson's rule are not modelled | The difference of two motions is orthogonal to linear functions (integration by parts twice), so the cubic is the only motion of least energy; its energy is a rational function of T, whose derivative is Htf. The linearised equations can be met exactly, so a step of NLLS meets them exactly (step_exact); as the degree of the position is at most N+1 this forces the cubic and its costate. Units by substitution in the integral. C105_printed_fails: R0 = (1,0,0), V0 = (-1,0,0), Gam = 8 | **partial**: exact arithmetic, linear algebra by the contracts of pinv and lstsq. The motion, the time equation, the scaling and both programs are proved; for the single loop as long as no step meets b = 0 or a vanishing slope of Htf. False for the code: the printed velocity is the velocity divided by b squared, and with it the printed Hamiltonian is not constant (C105_printed_fails). The root finder fsolve, the cost by Simpson's rule and the convergence of the iteration are left out |
| C106 | The three-body programs search for periodic orbits: every candidate is a closed curve, and a vanishing residual is a periodic motion with the given Jacobi constant | The steps of Lyap.py, Halo.py and Problem_7.py from the constructors to the dictionaries returned, with getJacobi of util.py (Model/Orbits). The derivative of the velocity, got by egrad in the code, is written out and proved to be the derivative (C106_planar_dv). The starting values of rich3_lyap and rich are arguments; plots, times and printed lines are left out | The curve and its velocity solve a first order system with a time factor (r2/b^2 or 1/b^2); a closed solution of such a system gives a periodic solution for all times by inverting the time integral and periodic continuation (Lemmas/PeriodicOrbit). The drift by differentiating the constant of Jacobi. The loop over the constants by induction over the list with the state of the solver object as invariant. Examples: rest at the corner of the equilateral triangle, a circle about the first body for mu = 0 | **proved**: exact arithmetic, linear algebra by the contracts of pinv and lstsq, bases CP and LeP. The starting values of the functions rich and rich3_lyap are arguments. That the iteration converges is not claimed. Problem_7.py needs a degree of at least 5 (C106_problem7_fails) |
| C107 | gammaL and Lagrange give the five libration points, and no others | gammaL, getL1L2 and Lagrange of util.py (Model/Libration), over the reals and complex numbers; np.roots by its contract (the complex roots with multiplicity, in any order), fsolve by its contract (a zero if there is one) | Signs of the quintics outside the right interval, monotonicity of the force between, intermediate values; the loop by induction. Equilibria off the axis: the three equations force both distances to be 1. Existence of root functions: complex polynomials split. C107_getL1L2_fails: mu = 3/8 | **partial**: exact arithmetic, np.roots and fsolve by their contracts. Partial because getL1L2 does not return the libration points but an approximation for small masses (proved with an error bound). gammaL also accepts the numbers 0, -1 and -2, read as indices from the end (C107_index) |
| C108 | The starting orbits of util.py are third-order approximations of Lyapunov and halo orbits | rich3_lyap and rich of util.py (Model/Richardson): the coefficients, the rows, the loop, gammaL from Model/Libration; numbers that are not defined (quotients by 0, roots of negative numbers) as `none` | The acceleration around the libration point as a polynomial of degree three plus a remainder of the fourth order (Lemmas/Gravity); the relations of the coefficients that the three orders require (Props/RichardsonCoef), with c2 > 1 and the denominators not 0; the defect expanded in the amplitude with a bounded tail (Props/RichardsonOrder); the loop by induction. C108_order_fails: roots listed with the non-real ones first | **partial**: exact arithmetic, np.roots by its contract. Partial because both functions take the first root of np.roots for the frequency: if it is not a real one, its real part is 0 and every coefficient is a quotient by 0 (C108_order, C108_order_fails). Proved for a real root listed first: all coefficients, for all mass ratios and the three collinear points, with no assumption on denominators |
| C109 | The differential corrector of diffCor.py finds symmetric periodic orbits with a given Jacobi constant | PCR3BP, target_lyap and diff_cor_lyap_p of diffCor.py (Model/DiffCor), with getJacobi and Lagrange of util.py; scipy's solve_ivp by what it returns (the last time and state), np.linalg.pinv by the equations of Penrose, the while loop with fuel | Differentiable dependence of solutions on their start (Lemmas/Flow: Picard–Lindelöf for the field cut off to a global one, Gronwall for the difference quotient, the implicit function theorem for the time of the crossing); the linearised equations are the derivative of the field (Lemmas/Planar); time change between τ and t; the mirror image of a motion. The loops by induction. C109_mass_fails: PCR3BP has its own mass ratio | **partial**: exact arithmetic; solve_ivp by an exact solution of PCR3BP (C109_time, C109_newton, C109_mirror) or as any function (C109_target). Proved: what satisfies PCR3BP is a motion of the third body with its linearised equations, in the time its last entry counts; orbits that meet the axis twice at right angles are periodic; the matrix of the corrector is the derivative of what it corrects; the step solves the linear equations, or does so in the sense of least squares; target_lyap asks only for constants on the way and reaches Cstar. Partial because the tolerances (2.2e-14 for the velocity, 1e-3 for the crossing) do not make the returned orbit exactly periodic (C109_return_partial says what is returned), convergence of the corrector is not proved (the while loop has no cap), and PCR3BP ignores the mass ratio it is called with (C109_mass_fails). |
| C110 | The programs with the spectral method solve the same problems, with the conditions as rows of the least-squares problem | BVP_spectral.py, laneEmden_spectral.py, singleSpec_EOL.py, outSpec_EOL.py, and both programs of Example 6.2 (Model/Spectral), from the constructors to the returned unknowns; fsolve, plots and printed tables are left out | The rows as places of the Gauss–Newton iteration of C101/C104; a linear row linearised is the row. Landing: a polynomial whose second derivative is a line at the inner points is a cubic (Hermite interpolation is unique), so the rows vanish exactly for landPath of C105; a step from an iterate with b ≠ 0 is solved in closed form and the least squares are therefore exact. C110_conditions_fails: with constants only, Lane–Emden of type 1 does not start at 1 | **partial**: exact arithmetic, linear algebra by the contracts of pinv and lstsq. Partial because the conditions of the two programs in one unknown are only met as well as the rows are small (C110_conditions_fails shows that they are not met in general), and the first step of the single loop with the spectral method is an over-determined problem without b, about which only the least-squares property is proved. fsolve is not modelled |
| C111 | The matrices of the extreme learning machines are accurate in floating point arithmetic | the compiled ELM classes of one and of several variables (Model/ElmCC, Model/NElmCC), over any number type with the operations, `max`, comparison and library functions (classes `Libm` and `LibmExp` of Verif/Libm.lean), with the rounded arithmetic of Model/Rounded | the entries as operations in the code (C111_same). Error of the mapped point 5 roundings, of the argument 7, relative to the sum of the absolute values; the activation functions have slope at most 1; the logistic function stays in [0, 1] because rounding is monotone. The derivative polynomials: two-part errors (roundings, and the error of the activation function times a Lipschitz constant) through sums, products and powers, with the sums of the absolute coefficients bounded by 2^(d+1) d! and 2^(d+1) (d+1)!. C111_relu_fails: [0, 49] with doubles. C111_several: the same for several variables, with the sums and products accumulated in the order of the loops (Lemmas/NElmCC: nelmOp). Not covered: the python classes (derivatives by automatic differentiation) | **partial**: arithmetic with unbounded exponents, library functions by their error bounds. Partial because the slope of the rectifier next to the kink is wrong (C111_relu_fails; C111_accurate and C111_several say how far away from the kink it is right), and because the python classes are not covered |
| C112 | The programs that search for one number in an outer loop | The expressions, residuals and inner loops of the four programs (Model/OuterLoop.lean); the hand-written Newton loop of the convection programs is the loop of NLLS. scipy's differential_evolution and fsolve are not modelled: the model is the function they are given. | Affine systems: the linearised equations are the equations, so each step minimises the defects themselves (Props/AffineSys.lean). The error bound for a function with a jump in the second derivative uses the integrating factor exp(-Pe x); the error bound for state and control integrates the derivative of their product. The exact solutions are hyperbolic sines; C112_time_fails and C112_no_best_time state that the search for the time has nothing to find. | **partial**: scipy's search functions are not modelled. Partial because the purpose of two of the programs, to find the final time, cannot be met: the loss has no root and no minimum (C112_time_fails, C112_no_best_time) |
| C113 | The programs where the point of the split is an unknown of the solver | CalculateSolutionSplit of Appendix_D.py (and its copy in the book) and convectionDiffusionNLS.py: the two pieces, residuals, split parameter with its bounds, and the loop of NLLS (Model/FreeSplit.lean). Random numbers of the univariate class are any numbers. | The Gauss-Newton step goes to the nearest minimiser (new field of SysRun, from the least norm property of pinv and lstsq). Where the split does not depend on its unknown, the column of the Jacobian is zero, so the nearest minimiser leaves the unknown as it is and the system is affine in the others. C113_split_fixed is the finding: for Peclet numbers up to 1000 the start is outside the bounds, so the split stays at 0.9. The error bound is the one of C112. | **partial**: exact arithmetic, linear algebra by the contracts of pinv and lstsq. Partial because for Peclet numbers up to 1000 the split of Appendix_D.py is not chosen by the solver (C113_split_fixed), and convergence of the iteration is not shown |
| C114 | The programs that call scipy's integrators for comparison | The right-hand sides, boundary conditions and starts handed to solve_ivp, solve_bvp and fsolve (Model/Integrators.lean); the integrators are not modelled. The specification (Spec/Integrators.lean) says what solving is: continuous on the closed interval, with the derivative inside. | Lane-Emden uniqueness: the squared difference times exp(-(1+K)x) decreases, since the singular term only damps. Boundary value problem and second half of the shooting: y' + y^2/2 has the same derivative for two solutions, which leaves a first order equation with an integrating factor. First half of the shooting: the difference is s(sin, cos). C114_lane_fails is the finding: at the starting point the code returns the second derivative 0, where every solution has -1/3, so the initial value problem as coded has no solution. | **partial**: the integrators themselves are not modelled. Partial because the value laneEmden_ode.py returns at the starting point is not the derivative of any solution (C114_lane_fails), and slopes more than 2 below the exact one are not covered for the shooting |
| C115 | The reference implementations used by the tests | The functions of tests/pOP.py (Model/RefPop.lean), transliterated from that file, not from the library. | Unfolding shows the same operations with deg + 1 for m; the recursions by induction on the order. Several variables: any(vec>=nC) is the negation of the library's test with the table 0..nC-1, then induction on the depth. The values follow from the theorems about the classes (C03, C23). | **proved**: one variable: equality of the programs for every type with the operations, rounded numbers included; several variables: over a field, since the class multiplies by the factor 1 of the domain |
| C116 | Colour tables and keyword arguments of the Mayavi plots | ColormapGradient with numpy's linspace for an integer dtype (floor, last row set), broadcasting, _ProcessKwargs and the calls of mlab (Model/Colormap.lean). | The two formulas of linspace are the same over a field; floors by the order; the keyword arguments by induction on the list. | **proved**: exact arithmetic; matplotlib's tables of colour names are a parameter, and so is the conversion to uint8, which is used only in 0..255. C116_shape and C116_range are about the formula of the entries that C116_gradient gives |
| C117 | The programs with neural networks | The three myModel classes with networks of any number of layers and units (Model/DeepTfc.lean), the losses, and function_factory with dynamic_stitch and dynamic_partition. | Algebra for the conditions; networks are smooth (induction on the layers), which gives the derivative at the end of the channel and lets C96 bound the error for Poisson's equation. The packing by induction on the list of variables. C117_burgers_fails is the finding: the switching function of the right side is x, which is right on [0,1] only. | **partial**: the optimiser and the initial weights are not modelled. Partial because in DeepTFCBurgers1DClass.py the factor of the last term of u1 is x in place of (x-x0)/(xf-x0), so that on the interval [-3,3] of the programs the conditions on the two sides do not hold (C117_burgers_sides says exactly when, C117_burgers_fails) |
| C118 | The random starts of the landing programs | The formulas of generateIC.py with the random numbers as arguments (Model/StartSet.lean). | Algebra with sin^2 + cos^2; for the converse the angle of the complex number. | **proved**: exact arithmetic; the numbers drawn are arguments |
| C119 | Poisson's equation with the boundary conditions as rows of the least-squares problem | `Model/SpectralPde.lean`: the index sets, the rows of the residual and of the four sides, `vstack`, the right-hand side, `pinv`, and the branch that notes `nan`. Exact arithmetic; the table of errors is not modelled. | `Props/SpectralPde.lean`: stacking rows adds their sums of squares, so the minimiser of the stacked problem minimises the sum named in the property. `Props/SpectralPdeError.lean`: the count of columns, that the grid reaches the sides, a maximum principle with boundary values of at most β, and that no polynomial p satisfies X p' = (1 - X) p. | **proved**: exact arithmetic; the table of errors printed by the program is not modelled. C119_error is about any smooth function, in particular the polynomial of C119_spectral |
| C120 | Constrained expressions in several variables built with several CeSolver objects | `Model/CeSolverExamples.lean`: the program of the test and the cells of Example 2.9, with every call of a property, setter and method of `Model/CeSolver.lean` in order; expressions are continuous functions of two variables. Printing is left out. | `Props/CeSolverMany.lean`: the switching functions of the second group are coefficients for the first, so its correction is zero where the values agree on the corners; the programs by C45 and C47 along their histories. | **proved**: expressions equal as functions are identified; sympy's inverse and simplifier are parameters with a contract. C120_integral_fails shows that the hypothesis on the support functions of the second group cannot be dropped when there is an integral constraint |
| C121 | Derivatives of expressions that contain step | `Model/StepExpr.lean`: a traced function works on any numbers; `egrad` runs it on pairs of value and tangent with JAX's rules, nested `egrad` on nested pairs; the functions of the test. Exact arithmetic. | `Props/StepExpr.lean`: by induction on the expression the tangent is again an expression, in which every `step` is kept as a factor and has derivative zero; calculus for the smooth function with the values of `step` fixed; near a point where no argument is zero it is the function itself. | **partial**: exact arithmetic; JAX's rules for the operations are part of the model. Partial because at a zero of the argument of step the expression may have no derivative, while egrad returns one (C121_fails); off these zeros it is the derivative |
| C122 | Print types and the tables of function names | `Model/PrintType.lean`: the two tables of the class, the mode set by `init_printing`, the attribute `_print_type` of every object; construction, setter with its five branches, getter. | `Props/PrintType.lean`: a specification of renaming by pieces, equal to `str.replace` because `math` does not overlap itself; no `math` is left, so a second construction changes nothing; induction over the operations. | **partial**: sympy's tables are parameters; that they belong to the class and that init_printing is global is part of the model. Partial because: the tables are those of the class, so every PythonCodePrinter of the program prints np after the first TfcPrinter (C122_tables); the mode is the one of the last assignment to any object (C122_shown, C122_two_fails); a new object has no print type and a rejected one is kept (C122_rejected_fails) |
| C123 | The fits with Chebyshev and Fourier functions are well conditioned and insensitive to rounding | nothing new: the points of utfc and mtfc (Model/UtfcInit, Model/Mtfc), the basis matrix in exact and in rounded arithmetic (Model/UniCC, Model/Rounded), LS (Model/LeastSquares) with the contract of the linear algebra. | `Lemmas/ChebGrid.lean`, `Lemmas/FourierGrid.lean`: cosines (and sines) are orthogonal for the trapezoidal sum on the points, by a telescoping sum; the plain sum lies between once and twice the trapezoidal one. `Lemmas/TensorFrame.lean`: products, by induction on the number of variables. `Lemmas/Perturb.lean`: the two normal equations, subtracted. `Props/RoundedFit.lean` and `Props/GridFit.lean` put these together with C35 and the entry bounds of C87; `Props/GridRounded.lean` does so in several variables with those of C91 and C92. | **proved**: the points are the exact ones and the arithmetic inside np.linalg is exact (contract LinAlgCorrect); what is rounded is the matrix H, computed by either backend (C89, C91, C92). Order 0; the condition bounds are for CP and FS |
| C124 | The size of a figure is the one asked for | Model/Screen.lean: the FullScreen and PartScreen of the three classes in exact arithmetic; the screen is four natural numbers; the checks of set_size_inches and of layout.width follow the documentation | The largest number of pixels: floor and the length of a pixel. For Mayavi the claim is false under the documented meaning of mlab.figure (C124_mayavi_fails: size is only used for a new scene, and a scene has no get_dpi); an unknown unit is taken as millimetres (C124_units_fails) | **partial**: exact arithmetic; the behaviour of set_size_inches, update_layout and mlab.figure is part of the model. Partial because the Mayavi class does not change the size (C124_mayavi_fails) and an unknown unit is not rejected (C124_units_fails) |
| C125 | A checkpoint is made where the printed restart command looks for it | Model/Checkpoint.lean: criuCheckpoint with the two command lines character by character. Spec/Shell.lean: how the shell cuts a line into words and which options criu knows | The words of the command lines for all plain names, then evaluation of the options. False in user mode, where the option is misspelt (C125_user_fails), and for names with a blank, which are not quoted (C125_blank_fails) | **partial**: the shell and the options of criu are in Spec/Shell.lean. Partial because the claim is false in user mode (misspelt option) and for names with a blank (not quoted) |
| C126 | saveAll and Render write every file they promise and touch no other | Model/Checkpoint.lean: savePickle, saveAll, Render on the file system of Model/Files.lean; graphviz' render follows its documentation | Induction on the list of formats; the names differ in their last part | **proved**: graphviz' render is modelled after its documentation; pickling itself is not modelled |
| C127 | Every subplot of a Plotly figure has the colours of the class | the loop over the scenes and the updates of plane figures (Model/PlotlyTrace: `setColors`). | induction over the positions: a scene has the colours exactly if its number is below `rows + cols`; false with several rows and columns (`C127_fails`) and for the zero lines of the first scene (`C127_zero_fails`). | **partial**: false for the code: the number row + col + 1 misses scenes when there are several rows and columns, and the first scene gets no colour for its zero lines. C127_scenes says which scenes are coloured |
| C128 | A Plotly trace goes to the subplot asked for | the eight methods and `add_trace` as documented (Model/PlotlyTrace: `callMethod`, `addTrace`). | case distinction over row and column; the value returned is the figure, not the trace (`C128_returned_fails`). | **partial**: false for the code in one point: the methods return the figure instead of the trace. add_trace itself is modelled from its documentation |
| C129 | Errors and warnings are shown as such and leave the terminal as it was | the characters written by `Error`, `Warning` and `nlls_id_print` and how they end (Model/Print); the terminal of Spec/Terminal reads them one by one, with the control sequences of ECMA-48. | induction over the text; `sys.exit()` without argument means exit status 0, so the caller sees a success (`C129_status_fails`). | **partial**: false for the code in one point: Error ends the program with exit status 0, which means success. colorama is taken to pass the sequences on, as it does outside the Windows console |
| C130 | An order below zero is refused or gives antiderivatives | Model/NegOrder: an entry of FS._Hint, FS::Hint and ELMSin::Hint for an integer order, with the remainder of each language; the recursion of the other classes with a limit on nested calls | derivatives of sine and cosine, cases by the order modulo 4; induction on the limit. The differences between the backends are proved for all orders concerned (C130_backends_fails) | **partial**: true for the Fourier basis of python except the constant function, and for the classes that recurse, which end in an error. False: the constant function; the Fourier basis of C++ for negative orders that are 1 or 2 modulo 4 and ELMSin of C++ for order -2, because the remainder of a negative number is negative there. Entries of the matrices, exact arithmetic; the switch statements of ELMSigmoid, ELMTanh and ELMSwish are not treated here |
