{"id": "C01", "title": "Polynomial basis derivatives are exact in the C++ backend", "statement": "For the Chebyshev (CP), Legendre (LeP), Laguerre (LaP) and both Hermite (HoPpro, HoPphy) classes of the compiled backend, entry (j,k) of H(x, d, full=True) is the d-th derivative with respect to the user's variable x, at x_j, of column k of H(x, 0, full=True), including the chain-rule factor of the domain map.", "quantifier": "every number of basis functions m >= 1, every derivative order d >= 0, every domain [x0,xf], every array of points of any length", "why_tests_cant": "m, d and the points are unbounded; the shipped tests compare the two backends at d=0 and d=3 for m=5,10 only, and both backends share the same recurrence, so a shared mistake would pass", "anchors": ["src/tfc/utils/BF.cc:BasisFunc::H", "src/tfc/utils/BF.cc:CP::Hint", "src/tfc/utils/BF.cc:CP::RecurseDeriv", "src/tfc/utils/BF.cc:LeP::Hint", "src/tfc/utils/BF.cc:LeP::RecurseDeriv", "src/tfc/utils/BF.cc:LaP::Hint", "src/tfc/utils/BF.cc:HoPpro::Hint", "src/tfc/utils/BF.cc:HoPphy::Hint"]}
{"id": "C02", "title": "Order-0 columns are the classical orthogonal polynomials", "statement": "Column k of the full order-0 basis matrix is the k-th classical polynomial of the named family evaluated at the mapped point: Chebyshev first kind for CP, Legendre for LeP, Laguerre for LaP, probabilists' Hermite for HoPpro, physicists' Hermite for HoPphy.", "quantifier": "every m >= 1, every column k < m, every point", "why_tests_cant": "infinitely many columns and points; a wrong recurrence coefficient can first show at a high degree", "anchors": ["src/tfc/utils/BF.cc:CP::Hint", "src/tfc/utils/BF.cc:LeP::Hint", "src/tfc/utils/BF.cc:LaP::Hint", "src/tfc/utils/BF.cc:HoPpro::Hint", "src/tfc/utils/BF.cc:HoPphy::Hint", "src/tfc/utils/BF_Py.py:CP._Hint"]}
{"id": "C03", "title": "Polynomial basis derivatives are exact in the Python backend", "statement": "For the Python classes CP, LeP, LaP, HoPpro and HoPphy, entry (j,k) of H(x, d, full=True) is the d-th derivative with respect to x, at x_j, of the k-th classical polynomial composed with the domain map.", "quantifier": "every m >= 1, every order d, every domain, every array of points", "why_tests_cant": "unbounded m, d and points", "anchors": ["src/tfc/utils/BF_Py.py:BasisFunc.H", "src/tfc/utils/BF_Py.py:CP._Hint", "src/tfc/utils/BF_Py.py:LeP._Hint", "src/tfc/utils/BF_Py.py:LaP._Hint", "src/tfc/utils/BF_Py.py:HoPpro._Hint", "src/tfc/utils/BF_Py.py:HoPphy._Hint"]}
{"id": "C04", "title": "The two backends compute the same matrix", "statement": "In exact arithmetic the compiled and Python backends return equal matrices (same shape, same entries) for CP, LeP, LaP, HoPpro, HoPphy and FS, with and without column removal.", "quantifier": "every m, d, domain, point array, every valid list of removed columns, full or not", "why_tests_cant": "the tests compare two sizes, two orders and one point set per class, never with removed columns", "anchors": ["src/tfc/utils/BF.cc:BasisFunc::H", "src/tfc/utils/BF_Py.py:BasisFunc.H"]}
{"id": "C05", "title": "Derivatives beyond the degree vanish", "statement": "For every polynomial basis class, column k of H(x, d) is identically zero whenever d > k.", "quantifier": "every m, k < m, d > k, every point and domain", "why_tests_cant": "unbounded orders and points; the in-place derivative recursion of the compiled backend reuses cells of earlier orders", "anchors": ["src/tfc/utils/BF.cc:CP::RecurseDeriv", "src/tfc/utils/BF.cc:LeP::RecurseDeriv", "src/tfc/utils/BF.cc:LaP::RecurseDeriv"]}
{"id": "C06", "title": "Fourier basis is the trigonometric system with exact derivatives", "statement": "For FS, column 0 is the constant 1, column 2g-1 is sin(g z) and column 2g is cos(g z) of the mapped point z, and H(x, d) is the exact d-th x-derivative of H(x, 0), in both backends.", "quantifier": "every m, every d >= 0 (all residues mod 4), every domain and point", "why_tests_cant": "unbounded order and column; tests reach d=4, m=10", "anchors": ["src/tfc/utils/BF.cc:FS::Hint", "src/tfc/utils/BF_Py.py:FS._Hint"]}
{"id": "C07", "title": "Sigmoid ELM derivatives are exact for every order", "statement": "For ELMSigmoid in the compiled backend H(x, d) is the d-th x-derivative of sigmoid(w z + b) for every order d.", "quantifier": "every order d, every weight, bias, domain and point", "why_tests_cant": "the derivative tables are hard coded order by order; a test samples points but the claim is a function identity, and orders above the table are never tried", "anchors": ["src/tfc/utils/BF.cc:ELMSigmoid::Hint"]}
{"id": "C08", "title": "Tanh ELM derivatives are exact for every order", "statement": "For ELMTanh in the compiled backend H(x, d) is the d-th x-derivative of tanh(w z + b) for every order d.", "quantifier": "every order d, every weight, bias, domain and point", "why_tests_cant": "function identity over the reals, for every order", "anchors": ["src/tfc/utils/BF.cc:ELMTanh::Hint"]}
{"id": "C09", "title": "Swish ELM derivatives are exact for every order", "statement": "For ELMSwish in the compiled backend H(x, d) is the d-th x-derivative of t*sigmoid(t) at t = w z + b for every order d.", "quantifier": "every order d, every weight, bias, domain and point", "why_tests_cant": "function identity over the reals, for every order", "anchors": ["src/tfc/utils/BF.cc:ELMSwish::Hint"]}
{"id": "C10", "title": "Sine ELM derivatives are exact for every order", "statement": "For ELMSin in the compiled backend H(x, d) is the d-th x-derivative of sin(w z + b).", "quantifier": "every order d, every weight, bias, domain and point", "why_tests_cant": "unbounded order, real-valued inputs", "anchors": ["src/tfc/utils/BF.cc:ELMSin::Hint"]}
{"id": "C11", "title": "ReLU ELM derivatives are exact away from the kink and have the right shape", "statement": "For ELMReLU, H(x, d) equals the d-th x-derivative of max(0, w z + b) at every point where w z + b is not 0, and is a matrix with one row per point and one column per neuron for every order, in both backends.", "quantifier": "every order, weight, bias, domain, number of points and neurons", "why_tests_cant": "a kink set of measure zero has to be excluded exactly; shapes must hold for all sizes", "anchors": ["src/tfc/utils/BF.cc:ELMReLU::Hint", "src/tfc/utils/BF_Py.py:ELMReLU._Hint"]}
{"id": "C12", "title": "The domain map sends the problem domain onto the basis domain", "statement": "The affine map used by utfc/mtfc sends x0 to z0 and xf to zf, is invertible with the inverse used to place the collocation points, preserves order when x0 < xf, and maps [x0,xf] onto [z0,zf].", "quantifier": "every x0 < xf (or x0 != xf for the end points), every point", "why_tests_cant": "real-valued domain ends", "anchors": ["src/tfc/utils/BF.cc:BasisFunc::BasisFunc", "src/tfc/utfc.py:utfc.__init__"]}
{"id": "C13", "title": "Collocation points are inside the domain, ordered and include both ends", "statement": "The N collocation points utfc places (Chebyshev-Gauss-Lobatto for CP/LeP, equispaced otherwise) are strictly increasing from x0 to xf, the first is x0 and the last is xf, and their basis-domain images are the points z.", "quantifier": "every N >= 2, every x0 < xf, every basis class with a finite basis domain", "why_tests_cant": "every N and every domain", "anchors": ["src/tfc/utfc.py:utfc.__init__"]}
{"id": "C14", "title": "The multivariate grid is the full Cartesian product", "statement": "The mtfc collocation array has prod(n) columns; for every choice of one point index per dimension there is exactly one column holding that tensor-product point, and the first coordinate varies slowest.", "quantifier": "every dimension count and every n", "why_tests_cant": "every shape n of every length", "anchors": ["src/tfc/mtfc.py:mtfc.__init__"]}
{"id": "C15", "title": "Removed columns are exactly the requested ones", "statement": "With full=False, H returns the columns of the full matrix whose index is not listed in nC, in increasing order and unchanged; with full=True it returns all columns. The number of columns is m minus the number of removed functions.", "quantifier": "every m, every list nC of distinct valid indices in any order, every point array and order", "why_tests_cant": "every subset and ordering of indices", "anchors": ["src/tfc/utils/BF.cc:BasisFunc::H", "src/tfc/utils/BF_Py.py:BasisFunc.H"]}
{"id": "C16", "title": "Evaluation never touches memory outside its buffers", "statement": "A call to H of any univariate compiled basis class that the utfc constructor accepts writes every cell of the returned matrix, writes no cell outside it and reads no uninitialised cell.", "quantifier": "every class, m, n, d, full flag and every nC that utfc's argument checks accept", "why_tests_cant": "an out-of-bounds heap write is usually silent; all argument combinations matter", "anchors": ["src/tfc/utils/BF.cc:BasisFunc::H", "src/tfc/utfc.py:utfc.__init__"]}
{"id": "C17", "title": "Compiled (JIT) and eager evaluation agree", "statement": "The XLA custom call writes into the output buffer exactly the matrix the eager call returns, provided the output shape is the one announced at trace time, and the announced shape is the shape the eager call returns.", "quantifier": "every class, point array, order, full flag and valid nC", "why_tests_cant": "two separately written copies of the same loops; every input matters", "anchors": ["src/tfc/utils/BF.cc:BasisFunc::xla", "src/tfc/utils/BF.cc:xlaWrapper", "src/tfc/utfc.py:utfc._SetupJax"]}
{"id": "C18", "title": "Concurrent basis objects do not interfere", "statement": "Every basis object created in a process gets a different identifier and a compiled call carrying an identifier is served by exactly the object that owns it, with whatever that object's current state is, after any sequence of object creations.", "quantifier": "every finite history of object creations and calls", "why_tests_cant": "a history property", "anchors": ["src/tfc/utils/BF.cc:BasisFunc::BasisFunc", "src/tfc/utils/BF.cc:nBasisFunc::nBasisFunc", "src/tfc/utils/BF.cc:nELM::nELM", "src/tfc/utils/BF.cc:xlaWrapper"]}
{"id": "C19", "title": "utfc normalises and validates the removed-function argument", "statement": "utfc(\u2026, nC, deg, \u2026) with an integer nC = k removes functions 0..k-1; with a list or array removes the listed functions; it stops with an error when more than deg functions are to be removed or any index is negative; anything it accepts is safe to evaluate.", "quantifier": "every integer, list or array nC and every deg", "why_tests_cant": "all argument values", "anchors": ["src/tfc/utfc.py:utfc.__init__"]}
{"id": "C20", "title": "mtfc normalises and validates the removed-function argument per dimension", "statement": "For the polynomial and Fourier bases mtfc turns the per-dimension list nC into a rectangular table; the functions marked for removal in dimension k are 0..n-1 when entry k is the integer n and the listed ones when entry k is a list or array; more than deg functions in a dimension is an error.", "quantifier": "every list of integers and arrays of every length, every deg and dim", "why_tests_cant": "all argument values", "anchors": ["src/tfc/mtfc.py:mtfc.__init__"]}
{"id": "C21", "title": "The number of multivariate basis functions is the number of admissible multi-indices", "statement": "The announced number of columns of an n-dimensional CP/LeP/FS basis equals the number of multi-indices of total degree at most m-1 that are not removed (a multi-index is removed when every coordinate is a removed function of its dimension); for the full set it is binomial(m-1+dim, dim).", "quantifier": "every dim, m and nC table", "why_tests_cant": "every dimension and degree", "anchors": ["src/tfc/utils/BF.cc:nBasisFunc::NumBasisFunc", "src/tfc/utils/BF_Py.py:nBasisFunc._NumBasisFunc"]}
{"id": "C22", "title": "Multivariate columns are exactly the admissible tensor products, once each", "statement": "The columns of H(x, 0) of an n-dimensional basis are the products over the dimensions of the univariate functions selected by the admissible multi-indices; each admissible multi-index owns exactly one column, in a fixed order that does not depend on the points, the derivative or the backend.", "quantifier": "every dim, m, nC table, point array", "why_tests_cant": "every dimension and degree", "anchors": ["src/tfc/utils/BF.cc:nBasisFunc::RecurseBasis", "src/tfc/utils/BF.cc:nBasisFunc::nHint", "src/tfc/utils/BF_Py.py:nBasisFunc.H"]}
{"id": "C23", "title": "Multivariate derivatives are exact mixed partials", "statement": "Entry of H(x, d) for a multi-order d = (d_1,\u2026,d_dim) is the corresponding mixed partial derivative of the order-0 column, including the factor prod c_k^{d_k}; a shorter d is read as zero in the missing dimensions.", "quantifier": "every dim, multi-order, m, nC table, domain and point", "why_tests_cant": "unbounded orders and dimensions", "anchors": ["src/tfc/utils/BF.cc:nBasisFunc::nHint", "src/tfc/utils/BF.cc:nBasisFunc::RecurseBasis", "src/tfc/utils/BF_Py.py:nBasisFunc.H"]}
{"id": "C24", "title": "Multivariate evaluation stays inside its buffers", "statement": "An n-dimensional H call writes each cell of the returned matrix, writes no cell outside it and reads no uninitialised cell.", "quantifier": "every dim, m, nC table, number of points, order, full flag", "why_tests_cant": "silent memory errors; every argument combination", "anchors": ["src/tfc/utils/BF.cc:nBasisFunc::H", "src/tfc/utils/BF.cc:nBasisFunc::nHint", "src/tfc/utils/BF.cc:nBasisFunc::RecurseBasis"]}
{"id": "C25", "title": "Multivariate ELM derivatives are exact mixed partials", "statement": "For nELMSigmoid, nELMTanh, nELMSin, nELMSwish (and nELMReLU away from the kink) of the compiled backend, H(x, d) is the mixed partial derivative of the activation of the affine combination of the mapped coordinates, for every multi-order d.", "quantifier": "every multi-order, weights, biases, domain, point", "why_tests_cant": "function identities for every order", "anchors": ["src/tfc/utils/BF.cc:nELMSigmoid::nElmHint", "src/tfc/utils/BF.cc:nELMTanh::nElmHint", "src/tfc/utils/BF.cc:nELMSin::nElmHint", "src/tfc/utils/BF.cc:nELMSwish::nElmHint", "src/tfc/utils/BF.cc:nELMReLU::nElmHint"]}
{"id": "C26", "title": "Automatic differentiation of H is the derivative of H", "statement": "The JVP rule registered for univariate H returns, for a perturbation t of the points, the directional derivative of H(x, d) in direction t (entry (j,k) is the (d+1)-st derivative at x_j times t_j), for every tangent.", "quantifier": "every order, point array and tangent, including the zero tangent", "why_tests_cant": "a rule for all inputs", "anchors": ["src/tfc/utfc.py:utfc._SetupJax"]}
{"id": "C27", "title": "Automatic differentiation of multivariate H is the gradient rule", "statement": "The JVP rule registered for multivariate H returns the sum over dimensions of the partial derivative in that dimension times the tangent of that coordinate, for every tuple of tangents including zeros.", "quantifier": "every dimension, multi-order, point array and tangents", "why_tests_cant": "a rule for all inputs", "anchors": ["src/tfc/mtfc.py:mtfc.SetupJAX"]}
{"id": "C28", "title": "ELM weights and biases can be read back after being set", "statement": "Setting w or b of an ELM basis object with an array of the right size makes later reads return it and later evaluations use it; a wrong size is refused; setting one does not change the other.", "quantifier": "every history of set operations", "why_tests_cant": "history property over all arrays", "anchors": ["src/tfc/utils/BF.cc:ELM::setW", "src/tfc/utils/BF.cc:ELM::setB", "src/tfc/utils/BF_Py.py:ELM.w", "src/tfc/utils/BF_Py.py:nELM.w"]}
{"id": "C29", "title": "TFCDict flattening and unflattening are inverse", "statement": "For a TFCDict d of 1-D arrays, d.toDict(d.toArray()) gives back the same keys in the same order with the same arrays, d.toArray() of it gives back any flat array of the right length, and the JAX pytree flatten/unflatten round trip preserves keys, order and values.", "quantifier": "every dictionary (any number of keys, any lengths) and every flat array of matching length", "why_tests_cant": "every dictionary shape", "anchors": ["src/tfc/utils/TFCUtils.py:TFCDict.toArray", "src/tfc/utils/TFCUtils.py:TFCDict.toDict", "src/tfc/utils/TFCUtils.py:TFCDict.getSlices"]}
{"id": "C30", "title": "TFCDict arithmetic acts on the flat vector", "statement": "d + o, d - o, d += o and d -= o, with o a TFCDict with the same keys or a flat array, change the flat vector by plus or minus the flat vector of o, do not mutate d for + and -, and keep keys and order.", "quantifier": "every pair of dictionaries with the same keys and shapes, every flat array", "why_tests_cant": "every dictionary shape", "anchors": ["src/tfc/utils/TFCUtils.py:TFCDict.__iadd__", "src/tfc/utils/TFCUtils.py:TFCDict.__isub__", "src/tfc/utils/TFCUtils.py:TFCDict.__add__", "src/tfc/utils/TFCUtils.py:TFCDict.__sub__"]}
{"id": "C31", "title": "TFCDict stays consistent under every history of dictionary operations", "statement": "After any sequence of update and item assignment operations on a TFCDict, toArray lists all current entries and toDict(toArray()) returns the current dictionary.", "quantifier": "every history of mutating dictionary operations", "why_tests_cant": "history property", "anchors": ["src/tfc/utils/TFCUtils.py:TFCDict.update", "src/tfc/utils/TFCUtils.py:TFCDict.toArray"]}
{"id": "C32", "title": "TFCDictRobust round trips arrays of any shape", "statement": "For a TFCDictRobust of arrays of any shape, toDict(toArray()) restores every array with its shape, and arithmetic acts entrywise.", "quantifier": "every dictionary of arrays of every shape", "why_tests_cant": "every shape", "anchors": ["src/tfc/utils/TFCUtils.py:TFCDictRobust"]}
{"id": "C33", "title": "Partial evaluation freezes exactly the named arguments", "statement": "pe(*args, constant_arg_nums=L)(f) called with the remaining arguments in order computes f(args) with the arguments at the positions in L replaced by the given constants, and pejit does the same.", "quantifier": "every number of arguments and every list L of distinct positions, in any order", "why_tests_cant": "permutation logic for every list", "anchors": ["src/tfc/utils/TFCUtils.py:pe", "src/tfc/utils/TFCUtils.py:pejit"]}
{"id": "C34", "title": "LS and NLLS do not disturb the caller's arguments", "statement": "Calling LS, NLLS, LsClass or NllsClass leaves the caller's constant_arg_nums list unchanged, so that a second call with the same list solves the same problem.", "quantifier": "every list and every sequence of calls", "why_tests_cant": "history property", "anchors": ["src/tfc/utils/TFCUtils.py:LS", "src/tfc/utils/TFCUtils.py:NLLS"]}
{"id": "C35", "title": "LS returns a least-squares minimiser of an affine residual", "statement": "If the residual is affine in the unknowns, LS returns unknowns at which no other choice gives a smaller residual norm, for both the pinv and the lstsq method and independently of the start values, provided the library pseudo-inverse/lstsq meet their contracts; with a solvable system the returned residual is zero.", "quantifier": "every affine residual, every shape of the unknowns, every start value", "why_tests_cant": "all matrices", "anchors": ["src/tfc/utils/TFCUtils.py:LS"]}
{"id": "C36", "title": "LsClass gives the same answer as LS for every call", "statement": "run() of an LsClass instance returns the least-squares solution, with or without timing.", "quantifier": "every residual, start value and timer flag", "why_tests_cant": "all call histories", "anchors": ["src/tfc/utils/TFCUtils.py:LsClass"]}
{"id": "C37", "title": "NLLS stops, within the iteration budget, for a stated reason", "statement": "NLLS performs at most maxIter iterations; on return either the residual is within tol, the last step is within tol, or maxIter iterations were done; the returned iterate is the Gauss-Newton iterate of that number of steps.", "quantifier": "every residual function, start value, tol and maxIter", "why_tests_cant": "every residual function and step map", "anchors": ["src/tfc/utils/TFCUtils.py:NLLS", "src/tfc/utils/TFCUtils.py:NllsClass"]}
{"id": "C38", "title": "NLLS honours a user supplied stopping condition", "statement": "When the caller passes cond, the loop continues exactly while cond holds.", "quantifier": "every user condition", "why_tests_cant": "every condition function", "anchors": ["src/tfc/utils/TFCUtils.py:NLLS", "src/tfc/utils/TFCUtils.py:NllsClass"]}
{"id": "C39", "title": "NLLS is exact on affine residuals and fixes solutions", "statement": "On an affine full-column-rank residual one NLLS step reaches the least-squares solution from any start, and an iterate with zero residual is never moved.", "quantifier": "every affine residual and start value", "why_tests_cant": "all matrices and start values", "anchors": ["src/tfc/utils/TFCUtils.py:NLLS"]}
{"id": "C40", "title": "Timing a solve does not change its answer", "statement": "NLLS with timer=True returns the same unknowns and iteration count as with timer=False.", "quantifier": "every residual, start value, tol, maxIter", "why_tests_cant": "every run", "anchors": ["src/tfc/utils/TFCUtils.py:NLLS"]}
{"id": "C41", "title": "ComponentConstraintGraph lists exactly the admissible trees", "statement": "For component constraints given as nodes and edges, the listed good targets are exactly those choices of a target end for every edge whose embedding order has no cycle; every such choice is listed once.", "quantifier": "every set of nodes and every list of edges between two different nodes", "why_tests_cant": "exponentially many orientations of every graph", "anchors": ["src/tfc/utils/TFCUtils.py:ComponentConstraintGraph"]}
{"id": "C42", "title": "ComponentConstraintGraph rejects bad edges and draws what it found", "statement": "An edge naming an unknown node is refused; the drawn trees have one arrow per edge, in the direction that the acyclicity check used.", "quantifier": "every node list, edge list and good target", "why_tests_cant": "every graph", "anchors": ["src/tfc/utils/TFCUtils.py:ComponentConstraintGraph.SaveGraphs", "src/tfc/utils/TFCUtils.py:ComponentConstraintGraph.__init__"]}
{"id": "C43", "title": "The constrained expression satisfies every constraint for every free function", "statement": "For linear constraint operators and support functions with invertible support matrix, the expression returned by CeSolver.ce satisfies C_i[ce] = kappa_i for each i, whatever the free function g.", "quantifier": "every number of constraints, all linear operators, kappa, support functions, free function", "why_tests_cant": "universally quantified over functions", "anchors": ["src/tfc/utils/CeSolver.py:CeSolver._solveCe", "src/tfc/utils/CeSolver.py:CeSolver.phi", "src/tfc/utils/CeSolver.py:CeSolver.rho", "src/tfc/utils/CeSolver.py:CeSolver.S"]}
{"id": "C44", "title": "Every function satisfying the constraints is a constrained expression", "statement": "If f satisfies all constraints then CeSolver with free function g = f returns f; hence no solution candidate is lost, and applying the constrained expression twice equals applying it once.", "quantifier": "every f, operators, kappa and support functions", "why_tests_cant": "universally quantified over functions", "anchors": ["src/tfc/utils/CeSolver.py:CeSolver._solveCe"]}
{"id": "C45", "title": "CeSolver never returns a stale expression", "statement": "After any sequence of assignments to C, kappa, s, g (and reads of any property), ce equals the constrained expression of the current data; an assigned phi is used by later reads of ce.", "quantifier": "every history of reads and assignments", "why_tests_cant": "history property over all interleavings", "anchors": ["src/tfc/utils/CeSolver.py:CeSolver"]}
{"id": "C46", "title": "The switching functions are dual to the constraint operators", "statement": "C_i[phi_j] is 1 if i = j and 0 otherwise, and alpha is the inverse of the support matrix S with S_ij = C_i[s_j].", "quantifier": "every number of constraints, operators and support functions with invertible support matrix", "why_tests_cant": "universally quantified over functions", "anchors": ["src/tfc/utils/CeSolver.py:CeSolver.phi", "src/tfc/utils/CeSolver.py:CeSolver.alpha"]}
{"id": "C47", "title": "checkCe reports exactly whether the constraints hold", "statement": "checkCe returns True if and only if the stored expression meets every constraint, up to the simplifier deciding equality.", "quantifier": "every stored expression and constraint list", "why_tests_cant": "every expression", "anchors": ["src/tfc/utils/CeSolver.py:CeSolver.checkCe"]}
{"id": "C48", "title": "HybridUtfc concatenates its classes", "statement": "HybridUtfc.H and its derivatives are the column-wise concatenation of the H matrices of the given classes at the same points and order; classes with different numbers of points are refused; the derivative of the whole is the concatenation of the derivatives.", "quantifier": "every list of utfc objects", "why_tests_cant": "every list", "anchors": ["src/tfc/utfc.py:HybridUtfc"]}
{"id": "C49", "title": "Printed derivatives are well-formed nested egrad calls", "statement": "The tfc printer prints a derivative of order n of an applied function as a balanced nest of n egrad calls, one per differentiation, applied to the function's arguments.", "quantifier": "every function name, argument list, and multi-order", "why_tests_cant": "every derivative", "anchors": ["src/tfc/utils/CeSolver.py:TfcPrinter._print_Derivative"]}
{"id": "C50", "title": "Printed substitutions replace the variable and nothing else", "statement": "The tfc printer prints a substituted expression as the expression with the occurrences of the variable replaced by the value.", "quantifier": "every expression and substitution", "why_tests_cant": "every expression text", "anchors": ["src/tfc/utils/CeSolver.py:TfcPrinter._print_Subs"]}
{"id": "C51", "title": "LaTeX tables have the shape of the data", "statement": "table.SimpleTable of an n x m array gives a tabular with m columns, and n rows each with m-1 column separators, in the order of the data; a 1-D array is treated as one row.", "quantifier": "every array shape and header list", "why_tests_cant": "every shape", "anchors": ["src/tfc/utils/Latex.py:table"]}
{"id": "C52", "title": "step is the indicator of the positive half line with zero derivative", "statement": "step(x) is 1 for x > 0 and 0 otherwise, at every array entry, and its derivative under differentiation is 0.", "quantifier": "every real array", "why_tests_cant": "all reals", "anchors": ["src/tfc/utils/TFCUtils.py:step"]}
{"id": "C53", "title": "Scaled QR least squares solves the unscaled problem", "statement": "ScaledQrLs(A,b) returns the minimiser of |A x - b| and the condition number of the scaled matrix, for every full-column-rank A whose columns are non-zero.", "quantifier": "every full-column-rank matrix and right-hand side", "why_tests_cant": "all matrices", "anchors": ["src/tfc/utils/TFCUtils.py:ScaledQrLs"]}
{"id": "C54", "title": "egrad of an elementwise function is its elementwise derivative", "statement": "egrad(g, j) of a function acting entry by entry returns the array of entrywise partial derivatives with respect to argument j, and nesting it n times gives the n-th derivative.", "quantifier": "every elementwise function, every array length, every nesting depth", "why_tests_cant": "every function", "anchors": ["src/tfc/utils/TFCUtils.py:egrad"]}
{"id": "C55", "title": "Python ELM derivatives by nested differentiation are exact for every order", "statement": "For the Python ELMSigmoid, ELMTanh, ELMSin and ELMSwish classes H(x, d) is the d-th x-derivative of H(x, 0), for every order.", "quantifier": "every order, weight, bias, domain, point", "why_tests_cant": "every order", "anchors": ["src/tfc/utils/BF_Py.py:ELMSigmoid._Hint", "src/tfc/utils/BF_Py.py:ELMTanh._Hint", "src/tfc/utils/BF_Py.py:ELMSin._Hint", "src/tfc/utils/BF_Py.py:ELMSwish._Hint"]}
{"id": "C56", "title": "Python multivariate ELM derivatives are exact mixed partials", "statement": "For the Python classes nELMSigmoid, nELMTanh, nELMSin, nELMSwish (and nELMReLU away from the kink), H(x, d) is the mixed partial derivative of order d of the activation of the affine combination of the mapped coordinates, with the requested columns removed, whether d is a tuple or an array.", "quantifier": "every dimension, multi-order, weights, biases, domain, point array, removed-function list and flag", "why_tests_cant": "The orders, dimensions and real-valued data are unbounded; tests sample a few orders of a few objects.", "anchors": ["src/tfc/utils/BF_Py.py:nELM.H", "src/tfc/utils/BF_Py.py:nELMSigmoid._nHint", "src/tfc/utils/BF_Py.py:nELMTanh._nHint", "src/tfc/utils/BF_Py.py:nELMSin._nHint", "src/tfc/utils/BF_Py.py:nELMSwish._nHint", "src/tfc/utils/BF_Py.py:nELMReLU._nHint"]}
{"id": "C57", "title": "The named derivative methods return the derivatives they are named after", "statement": "utfc.H, dH, d2H, d4H, d8H return the derivatives of orders 0, 1, 2, 4, 8 of the basis functions, and mtfc.H, Hx, Hy, Hz, Hx2, Hy2, Hxy, Hx2y return the corresponding partial and mixed partial derivatives with respect to the user's variables.", "quantifier": "every basis class and backend, every domain, degree, removed set and point array, every number of variables for which the method is meaningful", "why_tests_cant": "for all objects and points", "anchors": ["src/tfc/utfc.py:utfc.dH", "src/tfc/mtfc.py:mtfc.Hx", "src/tfc/mtfc.py:mtfc.Hx2y"]}
{"id": "C58", "title": "H evaluates point by point", "statement": "Row j of the matrix returned by H depends only on point j: evaluating a selection, permutation or repetition of the points returns the corresponding rows of the matrix for all points, with one row per point and the same columns.", "quantifier": "every basis class and backend, every order, domain, removed set, flag full, every array of points and every selection of positions", "why_tests_cant": "the selections of positions and the points range over infinite sets; coupling between rows (wrong strides, state kept between points) shows only for particular sizes", "anchors": ["src/tfc/utils/BF.cc:BasisFunc::H", "src/tfc/utils/BF_Py.py:BasisFunc.H", "src/tfc/mtfc.py:mtfc.H"]}
{"id": "C59", "title": "Mapping H over a batch equals stacking the separate calls", "statement": "jax.vmap of utfc.H and mtfc.H over a batch returns the stack of the results of the separate calls, eagerly and in compiled programs, for points that are scalars or arrays and when only some coordinates are mapped.", "quantifier": "every object, order, batch size, shape of one example and choice of mapped arguments", "why_tests_cant": "the batching rule is only exercised by particular ranks; a wrong shape may be produced silently", "anchors": ["src/tfc/utfc.py:utfc._SetupJax", "src/tfc/mtfc.py:mtfc.SetupJAX"]}
{"id": "C60", "title": "Univariate bases determine and represent functions", "statement": "With at least deg+1 distinct points (in particular on the object's own N >= deg+1 collocation points) the columns of H are linearly independent, so coefficients are unique; and every polynomial of degree at most deg is represented exactly by the polynomial bases, together with all its derivatives, by one coefficient vector.", "quantifier": "every polynomial and Fourier class, both backends, every degree, domain, removed set, every set of distinct points, every polynomial and order", "why_tests_cant": "ranges over all degrees, point sets and polynomials; rank deficiency shows only for particular N and basis", "anchors": ["src/tfc/utils/BF.cc:BasisFunc::H", "src/tfc/utfc.py:utfc.__init__"]}
{"id": "C61", "title": "Multivariate tensor-product bases determine and represent functions", "statement": "For the tensor-product bases of mtfc, with enough points in every dimension (deg+1 for Chebyshev and Legendre, 2*floor((deg+1)/2)+2 for Fourier) the columns of H on the object's own grid are linearly independent; and every polynomial of total degree at most deg is represented exactly by the Chebyshev and Legendre bases, together with all mixed partial derivatives, by one coefficient vector.", "quantifier": "every number of variables, degree, domain, nC, flag full, both backends, every polynomial and orders", "why_tests_cant": "ranges over all dimensions, degrees and polynomials", "anchors": ["src/tfc/mtfc.py:mtfc.__init__", "src/tfc/utils/BF.cc:nBasisFunc::RecurseBasis"]}
{"id": "C62", "title": "Every matplotlib subplot carries its own labels and title", "statement": "MakePlot creates one subplot for every x label that is not None, row by row at its own place, and gives it the x, y, z, twin label and the title that the caller supplied for that place.", "quantifier": "every shape, every label table, every pattern of left-out subplots, 2D or 3D, with or without titles and twin axes", "why_tests_cant": "the repository tests no plotting, and left-out subplots combined with titles is a rare combination", "anchors": ["src/tfc/utils/MakePlot.py:20-187"]}
{"id": "C63", "title": "Saved figures are in the format their name says", "statement": "Each of the three save methods writes exactly one file, whose name ends in the format it is written in, honouring an explicit type and keeping a name that already has a known suffix.", "quantifier": "every file name, every file type, every file system", "why_tests_cant": "file names are unbounded strings; no test saves a figure", "anchors": ["src/tfc/utils/MakePlot.py:232-271", "src/tfc/utils/PlotlyMakePlot.py:481-542", "src/tfc/utils/MayaviMakePlot.py:206-268"]}
{"id": "C64", "title": "An animation writes one numbered frame per step", "statement": "animate writes one png per step of the generator, named by a six digit number in order, leaves other files alone, and prints a command that reads exactly those frames.", "quantifier": "every generator length, directory, file name and prior file system", "why_tests_cant": "depends on the state left by earlier runs and on absolute directories", "anchors": ["src/tfc/utils/MakePlot.py:303-345", "src/tfc/utils/MayaviMakePlot.py:157-202"]}
{"id": "C65", "title": "HTML.WriteFile writes the file it was given", "statement": "After WriteFile the named file holds the generated text and nothing else changed, for every legal file name, creating missing directories.", "quantifier": "every file name and file system", "why_tests_cant": "no test writes HTML; bare names need the current directory", "anchors": ["src/tfc/utils/Html.py:45-70"]}
{"id": "C66", "title": "Plotly subplots carry their own labels and views", "statement": "In a Plotly MakePlot every subplot has the labels given for its row and column, and view moves the camera of the named subplot only, to the requested direction and distance.", "quantifier": "every grid shape, label table, row, column, angle and distance", "why_tests_cant": "only grids with two rows and two columns reveal the numbering", "anchors": ["src/tfc/utils/PlotlyMakePlot.py:81-292", "src/tfc/utils/PlotlyMakePlot.py:565-617"]}
{"id": "C67", "title": "NormalizeColorScale gives all named plots the common range", "statement": "The named plots that have the data get the given limits, or the greatest and least value over all of them, and no other plot changes.", "quantifier": "every list of traces, every list of types, every data", "why_tests_cant": "needs mixtures of traces with and without the property", "anchors": ["src/tfc/utils/PlotlyMakePlot.py:664-717"]}
{"id": "C68", "title": "Tight png files are trimmed to the drawing", "statement": "Saving a tight png keeps exactly the smallest rectangle containing all pixels that differ from the corner pixel, with all four channels.", "quantifier": "every picture", "why_tests_cant": "depends on every pixel and channel of a rendered picture", "anchors": ["src/tfc/utils/PlotlyMakePlot.py:520-536"]}
{"id": "C69", "title": "A linear boundary value problem solved with utfc and LS gets the best admissible polynomial", "statement": "Building y(t,xi) from H as in the test, its boundary values hold for every xi, the expressions y(.,xi) are exactly the polynomials of degree at most deg with those boundary values (one xi each), LS returns the one with the smallest sum of squared defects at the collocation points, and when a polynomial solution exists and there are enough points the returned y solves the equation at every t.", "quantifier": "every polynomial class, backend, domain, degree, coefficient functions, boundary data, set of collocation points and LS method", "why_tests_cant": "the tests solve two fixed equations to 1e-10; the claim is about all equations and all points between the collocation points", "anchors": ["tests/test_ODE.py:23-53", "src/tfc/utils/TFCUtils.py:766-886", "src/tfc/utfc.py:92-280"]}
{"id": "C70", "title": "The two-dimensional constrained expression meets its boundary conditions for all coefficients", "statement": "The expression z of the PDE test, built from mtfc.H, is zero on x=0, x=1 and y=0 and has the prescribed y derivative on y=1, at every boundary point and for every coefficient vector; zy evaluates to the derivative of z.", "quantifier": "every tensor basis, backend, removed functions, domain, coefficient vector, boundary function with zero ends, and points", "why_tests_cant": "the test checks one solved problem at grid points only", "anchors": ["tests/test_PDE.py:12-40", "src/tfc/mtfc.py:361-482"]}
{"id": "C71", "title": "The compiled objects manage their memory correctly", "statement": "Whatever a Python program does with compiled objects (create, evaluate directly or through XLA, read and set weights, take views of c, drop objects and arrays in any order), no block is freed twice, freed in the wrong way or used after it was freed, and every block is given back once neither the program nor an array needs it.", "quantifier": "every sequence of operations on every number of objects of every class, every order of derivatives", "why_tests_cant": "an interleaving is needed to see a use after free, tests run one object at a time and never look at the heap", "anchors": ["src/tfc/utils/BF.cc:8-144", "src/tfc/utils/BF.cc:594-645", "src/tfc/utils/BF.cc:1013-1146", "src/tfc/utils/BF.cc:1266-1408", "src/tfc/utils/BF_Py.cc:8-332"]}
{"id": "C72", "title": "The basis argument selects the family it names", "statement": "utfc and mtfc accept exactly the basis names CP, LeP, FS, ELMReLU, ELMSigmoid, ELMTanh, ELMSin and ELMSwish, and the matrix H they return holds the values of the functions that name stands for (Chebyshev, Legendre, Fourier, or the named activation of an affine function; in several dimensions their products or the activation of the affine combination) at the points mapped linearly onto the domain of these functions.", "quantifier": "every name, backend, degree, number of points and dimensions, interval, removed functions, weights, biases and points", "why_tests_cant": "the tests compare each family with its own implementation or use one name only; a swapped pair of branches still spans the same space for CP and LeP and stays unnoticed", "anchors": ["src/tfc/utfc.py:132-175", "src/tfc/mtfc.py:276-326"]}
{"id": "C73", "title": "Compiled objects see the elements of the arrays they are given", "statement": "A compiled basis object is determined by the elements of the arrays x0, xf and nC passed to its constructor, whatever their memory layout, and H depends only on the elements of x and d: it returns the (mixed partial) derivatives of the basis functions not listed in nC at these points.", "quantifier": "every compiled class, every layout (offset, strides, order) of every array argument, every size, degree, order and flag", "why_tests_cant": "the tests pass freshly created contiguous arrays only; views and transposed arrays of the right element type are taken without conversion", "anchors": ["src/tfc/utils/BF_Py.cc:8-85", "src/tfc/utils/BF_Py.cc:111-130", "src/tfc/utils/BF_Py.cc:233-257", "src/tfc/utils/BF.cc:1013-1062"]}
{"id": "C74", "title": "Array arguments that do not fit are refused", "statement": "A constructor or a call of H whose arrays do not fit together (wrong number of axes, end points or table of removed functions of another dimension, points with another number of coordinates, more orders than dimensions) raises a Python exception; it never reads or writes outside its arrays.", "quantifier": "every basis class of both backends, every combination of shapes", "why_tests_cant": "tests pass consistent shapes; what an out-of-bounds access does depends on the heap", "anchors": ["src/tfc/utils/BF_Py.cc:30-85", "src/tfc/utils/BF_Py.cc:233-257", "src/tfc/utils/BF.cc:1013-1062", "src/tfc/utils/BF.cc:1106-1146", "src/tfc/utils/BF_Py.py:903-919", "src/tfc/utils/BF_Py.py:1028-1032"]}
{"id": "C75", "title": "Assigning c of an n-dimensional compiled object takes effect", "statement": "Assigning an array of the right size to the attribute c of an n-dimensional compiled object stores its elements; any other array is refused.", "quantifier": "every object and array", "why_tests_cant": "no test assigns the attribute", "anchors": ["src/tfc/utils/BF_Py.cc:214-230"]}
{"id": "C76", "title": "H times the coefficients is a smooth function and H with d > 0 its derivatives", "statement": "For every utfc or mtfc object and all coefficients xi there is one smooth function g such that np.dot(H(x),xi) are its values at the points x and np.dot(H(x,d),xi) its d-th (mixed partial) derivatives there; it is the same function for every array of points.", "quantifier": "every utfc and mtfc object that can be built on a non-degenerate domain with distinct removed indices in range, except ELMReLU; both backends; all coefficients, all points, all orders up to 8", "why_tests_cant": "this is what every constrained expression built on the package relies on; tests look at single expressions for single coefficients", "anchors": ["src/tfc/utfc.py:191-280", "src/tfc/utfc.py:321-378", "src/tfc/mtfc.py:570-635", "examples/TfcBook/Chapter_3/section_3_5_2.py:27-43"]}
{"id": "C77", "title": "The constrained expressions of the one-dimensional example programs meet their constraints", "statement": "In the example programs with one independent variable the constrained expression takes the given values and derivatives at the given points for every choice of the coefficients: initial values, boundary values, periodic orbits (position and velocity at both ends), landing trajectories, balloon shapes; and in the propagation programs consecutive pieces continue each other with the same value and derivative.", "quantifier": "every basis object the program can build, all coefficients (whatever the solver returns), all values of the constraints, every number of propagation steps", "why_tests_cant": "the programs print the residual for the one solution found; that the constraints hold for every coefficient vector is the reason the method works and is not tested anywhere", "anchors": ["examples/Carl_Leake_Dissertation/Appendices/Appendix_C.py:63-66", "examples/Hunter_Johnston_Dissertation/Chapter_4/Example_4_8/Lyap.py:51-75", "examples/Hunter_Johnston_Dissertation/Chapter_4/Example_4_11/IVP2BVP.py:49-60", "examples/TfcBook/Chapter_3/example_3_1.py:32-107", "examples/TfcBook/Chapter_3/Problem_6.py:52-67", "examples/Carl_Leake_Dissertation/Chapter_4/NaturalBalloonShape/NaturalBalloonShapes.py:52-77"]}
{"id": "C78", "title": "Constrained expressions with inequality constraints and discrete sets of values stay in the admissible set", "statement": "In the example programs with inequality constraints the expression lies between the two bounds at every point of the domain (and takes the given values at the given points); in those with several admissible values it takes one of them and each can be reached; curves start and end on the given surfaces; the path around a box starts and ends in the given points and avoids the box.", "quantifier": "every free function, every point of the domain, every value of the additional parameters (n, angles)", "why_tests_cant": "the programs draw a handful of random functions; a violation for other coefficients or between the drawn points would not show", "anchors": ["examples/Carl_Leake_Dissertation/Appendices/Appendix_C.py:16-27", "examples/Carl_Leake_Dissertation/Appendices/Appendix_C.py:63-68", "examples/Hunter_Johnston_Dissertation/Chapter_2/Example_2_9/Figure_2_1.py:23-37", "examples/TfcBook/Chapter_1/example_1_18.py:24-25", "examples/TfcBook/Chapter_1/example_1_19.py:25-27", "examples/TfcBook/Chapter_1/example_1_20.py:25-26", "examples/Carl_Leake_Dissertation/Appendices/Appendix_B/Example_B_5.py:35-43", "examples/TfcBook/Chapter_1/Problem_6.py:43-68"]}
{"id": "C80", "title": "Two-segment expressions join with the same value and derivative", "statement": "In the programs that split the domain at a point xp the two constrained expressions together are one differentiable function: they take the boundary values at the outer ends, and at xp both have the value y and the derivative yd that the solver treats as unknowns; xp stays inside the domain.", "quantifier": "every basis object, all coefficients, all values y and yd, every value of the unknown that determines xp", "why_tests_cant": "the solver changes y, yd, xp and the coefficients in every iteration; a test sees the last one", "anchors": ["examples/Carl_Leake_Dissertation/Appendices/Appendix_D.py:53-98", "examples/Hunter_Johnston_Dissertation/Chapter_4/Example_4_6/convectionDiffusionNLS.py:54-90", "examples/Hunter_Johnston_Dissertation/Chapter_4/Example_4_5/tfc_linearNonlinear.py:58-101"]}
{"id": "C81", "title": "Paths of quaternions consist of unit quaternions between the given ones", "statement": "u2q gives a unit quaternion for all angles; u2q(q2u(q)) = q for every unit quaternion; q2u refuses quaternions that are not of unit length; and the paths of example_1_23.py consist of unit quaternions, start in qi and end in qf.", "quantifier": "every unit quaternion qi and qf, all free functions, every time", "why_tests_cant": "the program draws seven random paths; the special cases of q2u (vanishing components, negative last component) depend on the quaternion", "anchors": ["examples/TfcBook/Chapter_1/example_1_23.py:17-44", "examples/TfcBook/Chapter_1/example_1_23.py:46-62", "examples/TfcBook/Chapter_1/example_1_23.py:81-95"]}
{"id": "C82", "title": "Constrained expressions of a complex variable", "statement": "The constrained expression of example_B_2.py has u(0.5j) = 1 + pi j, u(1) = u(j), u(2+j) + u'(1) = 2j for every free function; the candidates of test_complex_ODE.py have u(1+j) = 5 for every free function, and one whose residual vanishes on the disk is the reference solution; egrad and egradRobust can differentiate functions of complex arrays.", "quantifier": "every free function with a complex derivative; every list of argument types", "why_tests_cant": "the programs evaluate one free function at a grid of points", "anchors": ["examples/TfcBook/Appendices/example_B_2.py:13-18", "tests/test_complex_ODE.py:14-44", "src/tfc/utils/TFCUtils.py:107-113", "src/tfc/utils/TFCUtils.py:197-200"]}
{"id": "C79", "title": "Constrained expressions in several variables meet all their boundary, initial and periodicity conditions", "statement": "In the example programs with several independent variables the constrained expression satisfies, on the whole boundary, every condition of the posed problem (values on curves, derivatives in normal direction, second derivatives, integrals, relative and component constraints, periodicity in value and derivatives), including the corners where two conditions meet.", "quantifier": "every free function with the derivatives that occur, every point of the boundary; for mtfc objects every coefficient vector", "why_tests_cant": "the programs compare at one grid for the coefficients the solver returned; the embedding of the second expression into the first can destroy the first condition away from that grid", "anchors": ["examples/TfcBook/Chapter_1/example_1_29.py:17-24", "examples/TfcBook/Chapter_1/example_1_30.py:18-24", "examples/TfcBook/Chapter_2/example_2_4.py:17-23", "examples/TfcBook/Chapter_2/example_2_8.py:12-23", "examples/TfcBook/Chapter_2/example_2_16.py:13-43", "examples/TfcBook/Chapter_3/Problem_8.py:24-30", "examples/TfcBook/Chapter_4/Figure_4_3.py:5-28", "examples/Carl_Leake_Dissertation/Chapter_3/Example_3_2_tfc.py:42-47", "examples/Carl_Leake_Dissertation/Chapter_3/Example_3_5.py:44-49", "examples/Carl_Leake_Dissertation/Chapter_3/Navier_Stokes_TFC_and_XTFC.py:49-51", "examples/Carl_Leake_Dissertation/Chapter_4/WaveEquation/WaveEquation.py:40-42", "examples/Carl_Leake_Dissertation/Chapter_4/WaveEquation/WaveEquation2D.py:38-41", "examples/Carl_Leake_Dissertation/Chapter_4/BiharmonicEquation/BiharmonicCartesianCoordinates.py:43-53", "examples/Carl_Leake_Dissertation/Chapter_4/BiharmonicEquation/BiharmonicPolarCoordinates.py:44-56", "examples/Extra_Examples/PDE/Burgers1D.py:38-42", "examples/Carl_Leake_Dissertation/Appendices/Appendix_I/Example_I_2.py:12", "examples/Carl_Leake_Dissertation/Appendices/Appendix_I/Example_I_3.py:16-20"]}
{"id": "C83", "title": "The reference solutions of the tests and example programs solve the posed problems", "statement": "The closed-form 'real' solution against which a test or example program measures its error satisfies the boundary and initial conditions of the program and makes its residual vanish at every point; for the ordinary differential equations it is the only function that does so.", "quantifier": "every point of the domain, every value of the parameters (Peclet number, frequency, starting values, constants of Burgers' equation, channel constants), every competing twice continuously differentiable function", "why_tests_cant": "the tests evaluate the reference at the collocation points only and accept differences up to a tolerance, so a reference that solves a slightly different problem, or one of several solutions, would go unnoticed", "anchors": ["tests/test_ODE.py:13-50", "tests/test_PDE.py:19-42", "examples/Carl_Leake_Dissertation/Appendices/Appendix_D.py:8-39", "examples/Hunter_Johnston_Dissertation/Chapter_4/Example_4_4/BVP_tfc.py:38-63", "examples/Hunter_Johnston_Dissertation/Chapter_4/Example_4_5/tfc_linearNonlinear.py:30-46", "examples/Hunter_Johnston_Dissertation/Chapter_4/Example_4_5/tfc_linearNonlinear.py:106-111", "examples/Hunter_Johnston_Dissertation/Chapter_4/Example_4_6/convectionDiffusionGen.py:25", "examples/Hunter_Johnston_Dissertation/Chapter_4/Example_4_6/convectionDiffusionNLS.py:22", "examples/Hunter_Johnston_Dissertation/Chapter_4/Examples_4_1thru3/laneEmden_tfc.py:37-58", "examples/TfcBook/Chapter_3/section_3_5_1.py:49-71", "examples/TfcBook/Chapter_3/section_3_5_2.py:40-56", "examples/TfcBook/Chapter_3/example_3_1.py:74-112", "examples/TfcBook/Chapter_3/Problem_8.py:16-37", "examples/Carl_Leake_Dissertation/Chapter_3/Example_3_2_tfc.py:22-51", "examples/Carl_Leake_Dissertation/Chapter_3/Navier_Stokes_TFC_and_XTFC.py:53-62", "examples/Carl_Leake_Dissertation/Chapter_3/Navier_Stokes_TFC_and_XTFC.py:117", "examples/Carl_Leake_Dissertation/Chapter_4/WaveEquation/WaveEquation.py:20-48", "examples/Carl_Leake_Dissertation/Chapter_4/WaveEquation/WaveEquation2D.py:18-48", "examples/Carl_Leake_Dissertation/Chapter_4/BiharmonicEquation/BiharmonicCartesianCoordinates.py:20-60", "examples/Carl_Leake_Dissertation/Chapter_4/BiharmonicEquation/BiharmonicPolarCoordinates.py:20-69", "examples/Extra_Examples/PDE/Burgers1D.py:26-48"]}
{"id": "C84", "title": "The constrained minimisation example keeps its constraint and converges to the minimiser", "statement": "In TfcBook/Chapter_4/Example_4_2.py every iterate satisfies A X = b; the point (-3, 4, 4) is the unique minimiser of f subject to the constraint; the projected Newton iteration converges to it from every admissible starting point, with third order, and the 8 steps of the program reach it within 1e-10.", "quantifier": "every number of steps, every starting point that meets the constraint, every non-zero null vector of A (either sign, any length)", "why_tests_cant": "the program prints one result; that the constraint is kept along the way, that the minimum is global, and convergence from other starting points are not observed", "anchors": ["examples/TfcBook/Chapter_4/Example_4_2.py:12-35"]}
{"id": "C85", "title": "Near a regular zero nonlinear least squares converges quadratically", "statement": "If the residual vanishes at s, is twice continuously differentiable near s and its Jacobian at s has full column rank, then from every start value close enough to s the iterates of NLLS and NllsClass approach s, each step at least halving the distance and shrinking it quadratically; and for every positive tolerance the number of iterations is bounded independently of the start value and of maxIter.", "quantifier": "every residual with a regular zero, number of unknowns and equations, method, constants, tolerance, maxIter, and every start value in a ball", "why_tests_cant": "tests run a few problems from one start value each and look at the final answer", "anchors": ["src/tfc/utils/TFCUtils.py:1086-1285", "src/tfc/utils/TFCUtils.py:1288-1516"]}
{"id": "C86", "title": "In floating point arithmetic the domain map keeps order and stays in the domains", "statement": "With every operation rounded to nearest, the map from the problem domain to the basis domain preserves the order, sends the start to the start exactly, sends no point of the problem domain out of the basis domain, and is within a few units of roundoff of the exact map; the collocation points are in order, start at x0, stay in [x0, xf] and are as accurate.", "quantifier": "every precision, tie-breaking rule, interval, and point of it, as long as no overflow or underflow occurs", "why_tests_cant": "a test checks a few intervals; whether the rounded end points stay inside depends on the last bit of xf - x0", "anchors": ["src/tfc/utils/BF.cc:29-68", "src/tfc/utils/BF.cc:100-115", "src/tfc/utfc.py:177-187", "src/tfc/utils/BF_Py.py:52-57"]}
{"id": "C87", "title": "The Chebyshev matrices are accurate in floating point arithmetic", "statement": "With every operation rounded to nearest, the entries of H(x, d) of the compiled Chebyshev basis differ from the d-th derivative of the k-th Chebyshev polynomial of the mapped point by at most a constant times d! u k^(2d+2) c^d, u being the unit roundoff: the three-term recurrence loses at most a polynomial factor, of the same kind as the growth of the derivatives themselves.", "quantifier": "every precision, tie-breaking rule, interval, number of functions (below the square root of 1/u), removed columns, order and points of the interval, as long as no overflow or underflow occurs", "why_tests_cant": "a test compares a few degrees with a tolerance; that the errors cannot grow exponentially along the recurrence is a statement about all degrees and all roundings", "anchors": ["src/tfc/utils/BF.cc:171-237", "src/tfc/utils/BF.cc:58-115"]}
{"id": "C88", "title": "The Legendre matrices are accurate in floating point arithmetic", "statement": "With every operation rounded to nearest, the entries of H(x, d) of the Legendre basis (both backends) differ from the d-th derivative of the k-th Legendre polynomial of the mapped point by at most a constant times (3/2)^d d! u k^(2d+2) c^d, u being the unit roundoff.", "quantifier": "every precision, tie-breaking rule, interval, number of functions (below the square root of 1/u), removed columns, order and points of the interval, as long as no overflow or underflow occurs", "why_tests_cant": "a test compares a few degrees with a tolerance; that the errors cannot grow exponentially along the recurrence is a statement about all degrees and all roundings", "anchors": ["src/tfc/utils/BF.cc:240-308", "src/tfc/utils/BF.cc:58-115", "src/tfc/utils/BF_Py.py:211-300"]}
{"id": "C89", "title": "The two backends carry out the same operations for polynomials", "statement": "For the five polynomial families, the compiled class (eager and inside compiled computations) and the Python class compute every entry by the same operations in the same order; so they agree in every digit in any rounded arithmetic, not only up to rounding errors.", "quantifier": "every arithmetic (no algebraic law is used), family, interval, degree, removed columns, order and points", "why_tests_cant": "the test suite compares the backends up to a tolerance and for a few sizes; agreement in all digits for all inputs is not observable by sampling", "anchors": ["src/tfc/utils/BF.cc:171-520", "src/tfc/utils/BF.cc:29-144", "src/tfc/utils/BF_Py.py:8-502"]}
{"id": "C90", "title": "The two backends carry out the same operations in several variables", "statement": "For the tensor products of Chebyshev and of Legendre polynomials, the compiled class (eager and inside compiled computations) and the Python class compute every entry by the same operations in the same order, so they agree in every digit in any rounded arithmetic.", "quantifier": "every arithmetic (no algebraic law is used), number of variables, domain, degree, table of removed functions, orders given for every variable, and points", "why_tests_cant": "the test suite compares the backends up to a tolerance for two variables; agreement in all digits for all inputs is not observable by sampling", "anchors": ["src/tfc/utils/BF.cc:1013-1263", "src/tfc/utils/BF_Py.py:869-1183"]}
{"id": "C91", "title": "The multivariate matrices are accurate in floating point arithmetic", "statement": "With every operation rounded to nearest, the entries of H(x, d) of the tensor products of Chebyshev or Legendre polynomials (both backends) differ from the mixed derivative of the product by at most 2 u (dim + C \u03a3 \u03b1_l\u00b2) times the product of the bounds of the univariate factors, u being the unit roundoff and C depending on the highest order only.", "quantifier": "every precision, tie-breaking rule, number of variables, domain, number of functions (below the square root of 1/u), removed functions, orders and points of the domain, as long as no overflow or underflow occurs", "why_tests_cant": "a test compares a few degrees with a tolerance; the growth of the errors along the recurrences and products is a statement about all degrees and all roundings", "anchors": ["src/tfc/utils/BF.cc:1106-1263", "src/tfc/utils/BF_Py.py:1006-1121"]}
{"id": "C92", "title": "The Fourier matrices are accurate in floating point arithmetic", "statement": "With every operation rounded to nearest and library functions sin and cos of absolute error at most \u03b5, the entries of H(x, d) of the Fourier series differ from the d-th derivative of the k-th trigonometric function of the mapped point by at most (2 \u03b5 + (107 g + 7 d) u) (g c)^d, g = ceil(k/2) being the frequency, c the slope of the domain map and u the unit roundoff; the two backends carry out the same operations; the tensor products in several variables behave accordingly.", "quantifier": "every precision, tie-breaking rule, accuracy of the library functions, interval, degree, removed functions, order and points of the domain, as long as no overflow or underflow occurs; any number of variables", "why_tests_cant": "a test compares a few entries with a tolerance; how the rounded \u03c0, the rounded map and the rounded frequency times the point act on all frequencies is a statement about all degrees and all roundings", "anchors": ["src/tfc/utils/BF.cc:524-590", "src/tfc/utils/BF_Py.py:505-589", "src/tfc/utils/BF.cc:1106-1263", "src/tfc/utils/BF_Py.py:1186-1211"]}
{"id": "C93", "title": "In floating point arithmetic the constrained expressions meet their values up to rounding", "statement": "With every operation rounded to nearest, the constrained expressions of tests/test_ODE.py and of the example programs with values at the ends of the points (and of those with values and derivatives at both ends of [-1, 1]) give, at such an end, the prescribed value y up to u (|y| + 2 |y - g|), where g is the value of the free function there and u the unit roundoff, and exactly y if y is 0 or of the same sign as g and within a factor two of it. Unlike in exact arithmetic, the size of the free function matters: with doubles and g = -2^60, the value 1 is computed as 0.", "quantifier": "every precision and tie-breaking rule, every free function with floating point values, every interval and every prescribed value, as long as no overflow or underflow occurs", "why_tests_cant": "the tests compare a computed solution with a reference to some tolerance; that the switching functions are exactly 0 and 1 at the ends in rounded arithmetic, for every interval, and the resulting bound for every free function are statements about all inputs", "anchors": ["tests/test_ODE.py:42-44", "examples/Hunter_Johnston_Dissertation/Chapter_4/Example_4_4/BVP_tfc.py:49-58", "examples/Hunter_Johnston_Dissertation/Chapter_4/Example_4_7/UnknownTime.py:42-56", "examples/Hunter_Johnston_Dissertation/Chapter_4/Example_4_8/Lyap.py:55-68", "examples/Carl_Leake_Dissertation/Appendices/Appendix_D.py:35"]}
{"id": "C94", "title": "All polynomial classes are accurate in floating point arithmetic at all points, relative to the size of the terms", "statement": "With every operation rounded to nearest, H and the function registered for compiled computations of the compiled classes CP, LeP, HoPpro, HoPphy and LaP, and H of their Python counterparts, give for any order of derivation and at any points, inside the domain or outside, entries that differ from the derivative of the classical polynomial of the (for CP and LeP: mapped) point by at most ((1 + u)^n - 1) S, where u is the unit roundoff, n is 10 k + 2 d + 2 for column k and order d of CP and LeP and 5 k + 1 for the others, and S is the value obtained from the terms taken with positive signs: for Chebyshev, Legendre and Hermite the absolute value of the derivative of the polynomial at the imaginary point of absolute value |z| (times the slope to the power d; |x - x0| times the slope plus 1 instead of |z| where the point is mapped), for Laguerre the recurrence with positive signs.", "quantifier": "every precision and tie-breaking rule, every class, interval, number of functions up to 2^(p-1), order up to 2^(p-1), point and set of removed functions, as long as no overflow or underflow occurs", "why_tests_cant": "tests compare a few entries at a few points with reference values to some tolerance; a bound of the error for every column, order and point, including points outside the domain where the polynomials grow, needs an induction over the recurrences", "anchors": ["src/tfc/utils/BF.cc:29-144", "src/tfc/utils/BF.cc:171-520", "src/tfc/utils/BF_Py.py:8-502"]}
{"id": "C95", "title": "Compiled computations receive their arguments as they were meant", "statement": "A compiled computation hands its arguments to the C++ code as bytes: the identifier of the object, the points, the order(s) of derivation, the flag full and the sizes, each described by H_xla of utfc or mtfc, and the C++ code reads them with casts. Executed byte by byte, such a call fills the block reserved for the result with exactly the matrix that the eager method of the object with that identifier returns for the numbers in the arrays of points, whatever their element type, after any history of creating, changing and destroying objects; arguments the eager method refuses are not accepted silently.", "quantifier": "every history of the process, every live object of every compiled class, every array (or tuple of arrays) of points, every order and flag with numbers below 2^31", "why_tests_cant": "the layout of the operands is a contract between two languages that no compiler checks; tests call it with float64 arrays of equal length and a few sizes", "anchors": ["src/tfc/utfc.py:320-352", "src/tfc/mtfc.py:546-606", "src/tfc/utils/BF.cc:7-11", "src/tfc/utils/BF.cc:100-106", "src/tfc/utils/BF.cc:1094-1104"]}
{"id": "C96", "title": "A small residual means a small error", "statement": "A least-squares solution is judged by its residual. For the problems of the tests and example programs with a closed-form solution, a function that meets the boundary and initial conditions of the program and whose residual is at most R at every point of the domain differs from the exact solution by at most a stated constant times R, everywhere on the domain. In particular the expression of the program has this property for every smooth free function, the exact solution is the only one with residual 0, and a residual that tends to 0 forces convergence.", "quantifier": "every smooth candidate that meets the conditions (every smooth free function in the expressions of the programs), every bound R, every point of the domain, every value of the parameters", "why_tests_cant": "tests compare a single solution with the reference at the collocation points; that a small residual implies a small error, between the points too, is a statement about all functions", "anchors": ["tests/test_PDE.py:19-42", "tests/test_ODE.py:13-50", "examples/TfcBook/Chapter_3/section_3_5_1.py:49-71", "examples/TfcBook/Chapter_3/section_3_5_2.py:40-56", "examples/TfcBook/Chapter_3/example_3_1.py:74-112", "examples/TfcBook/Chapter_3/Problem_8.py:16-37", "examples/Carl_Leake_Dissertation/Appendices/Appendix_D.py:8-39", "examples/Carl_Leake_Dissertation/Chapter_3/Example_3_2_tfc.py:22-51", "examples/Carl_Leake_Dissertation/Chapter_4/WaveEquation/WaveEquation.py:20-48", "examples/Carl_Leake_Dissertation/Chapter_4/WaveEquation/WaveEquation2D.py:18-48", "examples/Carl_Leake_Dissertation/Chapter_4/BiharmonicEquation/BiharmonicCartesianCoordinates.py:20-60", "examples/Extra_Examples/PDE/Burgers1D.py:26-48"]}
{"id": "C97", "title": "Near a minimum of the sum of squares nonlinear least squares converge to it", "statement": "Let the residual be twice continuously differentiable near a minimum of the sum of its squares, where the residual need not vanish, and let the columns of the Jacobian there be linearly independent. Then there are a radius and a constant K such that from every start within that radius NLLS and every call of NllsClass.run return a point within K tol of the minimum, unless they stop because of maxIter, and the error falls geometrically with the iterations.", "quantifier": "every residual and every minimum with these properties, every start within the radius, every method, tolerance below 1, limit on the number of iterations and choice of constant arguments, every library of linear algebra that keeps the contracts of pinv and lstsq", "why_tests_cant": "tests run a few problems from a few starts; that all starts near a minimum lead to it, at which speed, and that the returned point is as near as the tolerance says, are statements about all residuals and all starts", "anchors": ["src/tfc/utils/TFCUtils.py:1086-1285", "src/tfc/utils/TFCUtils.py:1288-1516"]}
{"id": "C98", "title": "The nonlinear program of the tests runs Newton's method and its error is bounded by its residual", "statement": "The program of tests/test_ODE.py, from the constructor to the returned coefficients, never raises and runs Newton's method for the boundary value problem y'' + f y y' = f2: from the straight line through the end values, each step is a polynomial with those end values that minimises the linearised equation at the collocation points; every iterate meets the end values; it stops because the equation holds at all points within the tolerance, the coefficients changed by at most the tolerance, or the iterations are used up. If the residual at the collocation points is at most eps, the returned y differs from the true solution exp(-t) sin t at every t of the domain by at most a stated multiple of eps plus a term that falls with the distance of the points.", "quantifier": "all functions f and f2, all end points and end values, all polynomial classes and domains, all numbers of points, degrees, tolerances below 1, limits on the iterations, both methods, both backends, both ways of passing the points", "why_tests_cant": "the test runs one equation with one set of parameters and only looks at the residual at the collocation points; what the iterates are, that they are admissible, and what a small residual at the points says about all other t are not tested", "anchors": ["tests/test_ODE.py:7-57", "tests/test_ODE.py:59-105", "src/tfc/utils/TFCUtils.py:1086-1285", "src/tfc/utfc.py:60-210"]}
{"id": "C99", "title": "The program for the partial differential equation of the tests runs Newton's method and its error is bounded by its residual", "statement": "The program of tests/test_PDE.py, from the constructor to the returned coefficients, never raises and runs Newton's method for z_xx + z_yy + z z_y = s with z = 0 on three sides of the square and z_y = k on the fourth: from the free polynomial 0, each step comes from a polynomial of total degree at most deg and minimises the linearised equation at the collocation points over all functions the constrained expression makes from such polynomials; it stops because the equation holds at all points within the tolerance, the coefficients changed by at most the tolerance, or the iterations are used up. The returned z meets the conditions of the test on the whole boundary, and if its residual is at most eps at the collocation points, it differs from the true solution y^2 sin(pi x) at every point of the square by at most half of eps plus terms that fall with the distance of the points.", "quantifier": "all right sides s, all twice differentiable k, Chebyshev and Legendre polynomials, all domains of the object, all numbers of points from 2 on, degrees, tolerances below 1, limits on the iterations, both methods, both backends, both ways of passing the points, nC with at most two functions removed in one of the variables", "why_tests_cant": "the test runs one equation with one grid and compares with the true solution at the grid points only; that removing the basis functions of nC loses no solution, what the iterates are, and the error between the grid points are not tested", "anchors": ["tests/test_PDE.py:12-51", "tests/test_PDE.py:58-97", "src/tfc/utils/TFCUtils.py:1086-1285", "src/tfc/mtfc.py:77-359"]}
{"id": "C100", "title": "The example programs for partial differential equations in two variables return the least squares solution or Newton iterates, with an error bounded by the residual", "statement": "The programs for the Poisson equation, the wave equation, the biharmonic equation in Cartesian and polar coordinates, the Laplace equation on an annulus and Burgers' equation, from the constructor of mtfc to the returned coefficients, never raise. The values of the returned expression are those of one smooth function that meets all boundary and initial conditions of the program exactly. For the linear equations its squared residual, summed over the collocation points, is the least that any coefficients give, and with polynomials the least that any polynomial of total degree at most deg gives in the expression: the functions removed with nC lose nothing. With NLLS each step minimises the equation linearised at the step before, and the run ends because the equation holds at all points within the tolerance, the coefficients changed by at most the tolerance, or the iterations are used up. If the residual is at most eps at the collocation points, the function differs from the exact solution on the whole domain by at most a known constant times eps plus terms that fall with the distance of the points.", "quantifier": "all numbers of points from 2 on, degrees from the least the constructor admits on, both backends, Chebyshev and Legendre polynomials and the four smooth activations, all constants of Burgers' equation with nu > 0, alpha != 0, xInit < xFinal; the general part: every expression of two steps with smooth weights and data, every equation that is linear or has one product of linear terms, orders of derivation up to 8", "why_tests_cant": "the examples are not run by the tests; each runs once with one grid and compares with the exact solution at some points only", "anchors": ["examples/Carl_Leake_Dissertation/Chapter_3/Example_3_2_tfc.py:15-64", "examples/Carl_Leake_Dissertation/Chapter_3/Example_3_5.py:17-68", "examples/Carl_Leake_Dissertation/Chapter_4/WaveEquation/WaveEquation.py:12-66", "examples/Carl_Leake_Dissertation/Chapter_4/BiharmonicEquation/BiharmonicCartesianCoordinates.py:10-80", "examples/Carl_Leake_Dissertation/Chapter_4/BiharmonicEquation/BiharmonicPolarCoordinates.py:10-90", "examples/TfcBook/Chapter_3/Problem_8.py:7-45", "examples/Extra_Examples/PDE/Burgers1D.py:10-60"]}
{"id": "C101", "title": "The example programs for ordinary differential equations return the least squares solution or Gauss-Newton iterates that meet the conditions, with an error bounded by the residual", "statement": "The programs for the Lane-Emden equation, the nonlinear boundary value problem, convection and diffusion, the brachistochrone and the equation between initial and boundary values, from the constructor of utfc to the returned coefficients, do not raise, except laneEmden_tfc for a type other than 0, 1 and 5, which reads a variable that was never assigned. The coefficients give one smooth function that meets the conditions of the program exactly. For linear equations its squared residual, summed over the collocation points, is the least that any coefficients give, with LS as well as with NLLS; for other equations each step minimises the equation linearised at the step before and the run ends for one of the three documented reasons. With the polynomial bases the functions an object can give are exactly the polynomials of degree at most deg that meet the conditions. If the residual is at most eps at the points, Lane-Emden (k 0, 1, 5), the boundary value problem and convection-diffusion differ from the exact solution on the whole interval by at most a known factor times eps plus a term that falls with the distance of the points; Lane-Emden with k = 0 gives the exact solution.", "quantifier": "all numbers of points and degrees from 2 on, the bases CP, LeP, FS, ELMTanh, ELMSigmoid, ELMSin, ELMSwish, all natural k, all xf > 0 (1e-13 in laneEmden_tfc), all Pe with |Pe| > 1e-13, all limits of iterations, all end points th0 < thf and radii; the general part: every usable object, all smooth weights, every equation F(x, y, y', y'') linear, or differentiable in y, y', y''", "why_tests_cant": "the examples are not run by the tests; each runs with one or a few grids and compares with the exact solution at the collocation points or a fixed test set", "anchors": ["examples/TfcBook/Chapter_3/section_3_5_1.py:16-60", "examples/TfcBook/Chapter_3/section_3_5_2.py:16-53", "examples/TfcBook/Chapter_3/section_3_5_4.py:20-43", "examples/TfcBook/Chapter_3/Problem_4.py:6-33", "examples/Carl_Leake_Dissertation/Appendices/Appendix_D.py:20-43", "examples/Hunter_Johnston_Dissertation/Chapter_4/Examples_4_1thru3/laneEmden_tfc.py:18-94", "examples/Hunter_Johnston_Dissertation/Chapter_4/Example_4_4/BVP_tfc.py:19-68", "examples/Hunter_Johnston_Dissertation/Chapter_4/Example_4_11/IVP2BVP.py:22-76"]}
{"id": "C102", "title": "The programs that march through time join their steps and, for the oscillator, stay near the solution of the whole problem", "statement": "The programs that solve an initial value problem step by step with one utfc object and one solver object return one row for each step: the points in the time of the whole run, the values and the absolute residuals of one smooth function per step. The first function starts from the given value and slope, each other from the end value and end slope of the one before. For the harmonic oscillator (LsClass) each function has the least sum of squared residuals among all the object can give, and if the residual is at most eps at the points, the distance from the solution of the whole problem at time T is at most (eps plus a term that falls with the distance of the points) times T over |w|. For the forced nonlinear oscillator (NllsClass) each function is the last of a sequence of Gauss-Newton steps for the equation posed.", "quantifier": "all numbers of points and terms, all bases with smooth functions, all lengths and numbers of steps, all start values, all frequencies w /= 0 with y0 > 0 in the error bound, all constants of the forced oscillator", "why_tests_cant": "the programs are not run by the tests; the first runs with a single step, the second compares with nothing", "anchors": ["examples/TfcBook/Chapter_3/example_3_1.py:23-107", "examples/TfcBook/Chapter_3/Problem_1.py:23-107", "examples/TfcBook/Chapter_3/Problem_2.py:26-120"]}
{"id": "C103", "title": "Example programs in three and more variables return the least squares or Gauss-Newton solution of their problem, and it meets all conditions", "statement": "For every number of variables, a program that builds its expression step by step from an mtfc object, forms the residuals of a system of equations with products of at most two factors and calls LS, jacfwd with pinv or lstsq, or NLLS with an array or a TFCDict, returns coefficients that stand for smooth functions. With a linear equation they have the least sum of squared residuals at the collocation points among all the object can give, with a nonlinear system each iteration is a Gauss-Newton step and the loop ends as asked. The program for the wave equation in two space variables meets all six conditions and its mean square error is bounded by the residual at the points; the comparison program compares equal numbers of functions. The program for the Navier-Stokes equations meets all conditions for both velocities, and its residual at the corner of the domain is the pressure gradient whatever the coefficients, so it never ends because the residual is small.", "quantifier": "all dimensions, expressions, systems, numbers of points, degrees, features, weights, both backends, all methods, tolerances below 1 and iteration limits", "why_tests_cant": "the programs are not run by the tests and each of them makes one run", "anchors": ["examples/Carl_Leake_Dissertation/Chapter_4/WaveEquation/WaveEquation2D.py:9-64", "examples/Carl_Leake_Dissertation/Chapter_4/WaveEquation/WaveEquationComparison2D.py:21-77", "examples/Carl_Leake_Dissertation/Chapter_3/Navier_Stokes_TFC_and_XTFC.py:13-88", "examples/TfcBook/Chapter_3/section_3_6_4_TFC_and_X-TFC.py:13-88"]}
{"id": "C104", "title": "Example programs with several unknown functions and unknown numbers take Gauss-Newton steps for the system they pose and end with its conditions met", "statement": "For a program whose unknowns are a dictionary with one array of coefficients for each function and arrays of length 1 for unknown numbers (the value and slope at a joint, the length of the time interval), whose conditions may contain these numbers and whose equations may be any differentiable formula of derivatives of the functions at collocation points, NLLS takes Gauss-Newton steps for the linearised system among all functions and numbers and ends by one of its three stopping rules. The two-segment programs return functions that meet the values at both ends and join in value and slope (with TFC exactly, in the spectral version up to the tolerance), and the distance to the reference solution is bounded by the residual. In the program with unknown time the functions after the change of variables solve the first-order conditions on the interval whose length was found; with x0 = 0 and xf different from 0 the equations posed have no exact solution, whatever the length.", "quantifier": "all systems of such equations, numbers of points, degrees, smooth bases, tolerances, iteration limits; all boundary values and weights of the optimal control problem", "why_tests_cant": "the programs are not run by the tests and each of them makes one run; the joining conditions hold at each iterate, the tests see none", "anchors": ["examples/Hunter_Johnston_Dissertation/Chapter_4/Example_4_5/tfc_linearNonlinear.py:18-128", "examples/Hunter_Johnston_Dissertation/Chapter_4/Example_4_5/spectral_linearNonlinear.py:20-110", "examples/Hunter_Johnston_Dissertation/Chapter_4/Example_4_7/UnknownTime.py:17-94", "src/tfc/utils/TFCUtils.py:1086-1280"]}
{"id": "C105", "title": "The landing programs compute motions of least energy, and the equation they pose for the time is the derivative of the least cost", "statement": "For the landing from position R0 and velocity V0 to rest at the origin under constant gravity with the cost Gam*T + half the integral of the squared control: the cubic is the only motion of duration T with the least energy; the least cost is differentiable in T and its derivative is the quantity Htf of the programs; if the start is not the goal and Gam plus half the squared gravity is positive there is a best time, where Htf is zero. The outer loop program returns for every time exactly this motion and exactly the absolute value of that derivative. The programs that solve for the motion and the time at once take Gauss-Newton steps whose iterates are, in the given units, motions of least energy of their own duration, and a small residual at the end means a small derivative of the cost. The velocity and the Hamiltonian they print are those of the motion.", "quantifier": "all positions, velocities, gravities, prices of the time, durations, numbers of points and degrees with 4 <= ms <= N+1, tolerances, iteration limits, starts of b", "why_tests_cant": "the example programs are not run by the tests; optimality is a statement about all motions; the printed velocity is wrong by a constant factor that no test compares with V0", "anchors": ["examples/Hunter_Johnston_Dissertation/Chapter_6/Example_6_1/singleLoop/singleTFC_EOL.py:34-138", "examples/Hunter_Johnston_Dissertation/Chapter_6/Example_6_1/outerLoop/outTFC_EOL.py:39-163", "examples/TfcBook/Chapter_3/Problem_6.py:27-124", "src/tfc/utils/TFCUtils.py:1286-1500"]}
{"id": "C106", "title": "The three-body programs search for periodic orbits: every candidate is a closed curve, and a vanishing residual is a periodic motion with the given Jacobi constant", "statement": "In the programs for Lyapunov and halo orbits of the circular restricted three-body problem every dictionary of unknowns describes a closed curve with the same position and (for b not 0) the same velocity at both ends. If the residual vanishes on the whole interval and the curve meets neither body, the curve runs through a periodic solution of the equations of motion for all times, whose period is the integral of r2/b^2 (in the plane) or 2/b^2 (in space), whose Jacobi constant is C, and which starts in (X, Y, Z) with velocity (dX, dY, dZ). For any dictionary the Jacobi constant along the curve changes exactly by twice the product of velocity and defect. getJacobi is the Jacobi constant. The programs run to the end and make one Gauss-Newton run for each Jacobi constant in equal steps from that of the start to Cend, each from the result of the run before, and their equations can be linearised wherever the points are at neither body and b is not 0.", "quantifier": "all mass ratios, starting states, periods, ranges of the constant, numbers of points and degrees, tolerances, iteration limits", "why_tests_cant": "the example programs are not run by the tests; that a curve solves the equations for all times after a change of the time variable is a statement about functions, not about sample points", "anchors": ["examples/Hunter_Johnston_Dissertation/Chapter_4/Example_4_8/Lyap.py:35-156", "examples/Hunter_Johnston_Dissertation/Chapter_4/Example_4_8/util.py:316-329", "examples/Hunter_Johnston_Dissertation/Chapter_4/Example_4_9/Halo.py:40-148", "examples/TfcBook/Chapter_3/Problem_7.py:21-145"]}
{"id": "C107", "title": "gammaL and Lagrange give the five libration points, and no others", "statement": "For every mass ratio between 0 and 1 each of the three quintics of gammaL has exactly one real root, so that the loop over the five complex roots of np.roots returns it whatever their order; the points at these distances from the nearest body, with the two corners of the equilateral triangles, are all the points where the third body can rest. The three functions handed to fsolve by Lagrange have exactly one zero each, so the columns of its result are these five points whatever the start. getL1L2 returns the usual approximation: its distances from 1 have the cube mu/3, which differs from the cube of the true distances by at most 2*mu times the distance.", "quantifier": "all mass ratios in (0,1), all orders of the roots, all zero finders", "why_tests_cant": "the functions are not tested; that there is no other equilibrium and no other real root is a statement about all points", "anchors": ["examples/Hunter_Johnston_Dissertation/Chapter_4/Example_4_8/util.py:8-30", "examples/Hunter_Johnston_Dissertation/Chapter_4/Example_4_8/util.py:311-314", "examples/Hunter_Johnston_Dissertation/Chapter_4/Example_4_8/util.py:331-353"]}
{"id": "C108", "title": "The starting orbits of util.py are third-order approximations of Lyapunov and halo orbits", "statement": "rich3_lyap and rich return rows of positions and velocities of one closed curve around the libration point, at equal steps of one period, and the period. The curve agrees with the ellipse of the linear theory up to terms of the second order in the amplitudes; it satisfies the equations of motion of the restricted three-body problem up to terms of the fourth order, for rich with an additional force across the plane that is proportional to z, and rich chooses Ax such that this force is 0. The southern orbit is the northern one with the sign of z changed.", "quantifier": "all mass ratios in (0,1), the three collinear points, all amplitudes, all numbers of rows", "why_tests_cant": "some thirty coefficients with three-line formulas; a wrong sign in one of them still gives a closed curve, and the defect it causes is of the third order and invisible in a plot", "anchors": ["examples/Hunter_Johnston_Dissertation/Chapter_4/Example_4_8/util.py:32-181", "examples/Hunter_Johnston_Dissertation/Chapter_4/Example_4_8/util.py:184-309"]}
{"id": "C109", "title": "The differential corrector of diffCor.py finds symmetric periodic orbits with a given Jacobi constant", "statement": "PCR3BP is the planar restricted three-body problem in a regularised time, together with its linearised equations and the physical time. The matrix that diff_cor_lyap_p builds from the integrated values is the derivative, with respect to the starting x and the starting y-velocity, of the x-velocity at the next crossing of the axis and of the Jacobi constant; the correction it makes is the Newton step (least squares if the matrix is singular). An orbit that meets the axis twice at right angles is periodic, with twice the time between; a run that ends and prints no warning returns such a start up to its tolerances, with the period and the desired Jacobi constant. target_lyap asks the corrector only for constants between that of the first guess and the desired one and reaches the desired one within iterMax calls.", "quantifier": "all starts, all exact solutions of PCR3BP, all correctors in target_lyap, all numbers of iterations", "why_tests_cant": "the matrix mixes physical and regularised time and uses the velocity at the event; a wrong entry still converges on most starts, only more slowly, and the printed messages do not tell whether the returned orbit converged", "anchors": ["examples/Hunter_Johnston_Dissertation/Chapter_4/Example_4_8/diffCor.py:11-51", "examples/Hunter_Johnston_Dissertation/Chapter_4/Example_4_8/diffCor.py:53-131", "examples/Hunter_Johnston_Dissertation/Chapter_4/Example_4_8/diffCor.py:133-231"]}
{"id": "C110", "title": "The programs with the spectral method solve the same problems, with the conditions as rows of the least-squares problem", "statement": "Without removed basis functions every polynomial up to the degree is a candidate, and the conditions are further rows of the residual. Each step of the solver minimises the sum of the squares of all linearised rows; for linear equations the result minimises it itself, and if a candidate makes all rows vanish so does the result (for Lane-Emden of type 0 the result is 1 - x^2/6). The conditions hold only as well as the rows are small. For the landing: with the time given, two calls are enough for the exact motion with the least energy and its costate, and the value handed to the root finder is the derivative of the least cost; with the time unknown, all rows vanish exactly for the motion with the least energy of a duration at which that derivative vanishes, each such duration is represented, and where the time row is not degenerate each step meets all linearised rows. The same holds from the start values of Example 6.2 and in the units of the data; the version with constrained expressions moves along least-energy motions from there.", "quantifier": "all numbers of points and degrees in the stated ranges, all data, all tolerances below 1, all correct least-squares routines", "why_tests_cant": "a test sees one data set after convergence; rows that are weighted or differentiated wrongly still converge to something close, and no test compares the candidate spaces", "anchors": ["examples/Hunter_Johnston_Dissertation/Chapter_4/Example_4_4/BVP_spectral.py:19-68", "examples/Hunter_Johnston_Dissertation/Chapter_4/Examples_4_1thru3/laneEmden_spectral.py:18-88", "examples/Hunter_Johnston_Dissertation/Chapter_6/Example_6_1/singleLoop/singleSpec_EOL.py:31-142", "examples/Hunter_Johnston_Dissertation/Chapter_6/Example_6_1/outerLoop/outSpec_EOL.py:39-132", "examples/Hunter_Johnston_Dissertation/Chapter_6/Example_6_2/Spec_EOL.py:31-113", "examples/Hunter_Johnston_Dissertation/Chapter_6/Example_6_2/TFC_EOL.py:31-120"]}
{"id": "C111", "title": "The matrices of the extreme learning machines are accurate in floating point arithmetic", "statement": "With every operation rounded to nearest and library functions sin, cos, tanh of absolute error and exp of relative error at most eps <= 1/16, the entries of H(x, d) of the compiled ELM classes differ from the d-th derivative of the activation function of w z + b at the exactly mapped point by at most 2^(d+1) (d+1)! |w c|^d (eps + ((1 + u)^(2d+24) - 1) (2 + S)), where u is the unit roundoff, c the slope of the map to [0, 1] and S = |w z| + |b|; for ReLU and Swish with a further factor 1 + S. In several variables the bound is the same with the total order D, |w c|^d replaced by the product of |w_i c_i|^(d_i), S = sum |w_i z_i| + |b|, and the exponent 2 D + 4 q + dim + 22 where q is the length of the tuple of orders. The eager function and the function registered for compiled computations carry out the same operations.", "quantifier": "every precision, tie-breaking rule, accuracy of the library functions, interval or box of any dimension, number of neurons, weights and biases, removed functions, order that has code, and all points, also outside the domain, as long as no overflow or underflow occurs", "why_tests_cant": "a test compares a few entries with a tolerance for small weights; how the rounding of the mapped point is amplified by the weight, and how the cancellation in the derivative polynomials of degree up to 9 acts, is a statement about all weights, biases and roundings", "anchors": ["src/tfc/utils/BF.cc:594-1010", "src/tfc/utils/BF.h:277-412", "src/tfc/utils/BF.cc:25-140", "src/tfc/utils/BF.cc:1266-1948"]}
{"id": "C112", "title": "The programs that search for one number in an outer loop", "statement": "For every split of the interval strictly between its ends the inner solver of convectionDiffusionGen.py and convectionDiffusion_fsolve.py returns after at most 30 steps, with the least sum of the squares of the residuals its unknowns can give; the function handed to the search returns the largest residual at the points; the two pieces form one function with a continuous derivative and the prescribed ends, and it differs from the exact solution by at most the largest residual divided by the Peclet number. For every final time the inner loop of UnknownTime_Gen.py and UnknownTime_fsolve.py returns the largest absolute value of the Hamiltonian for a state and a control with the prescribed ends and the least sum of squared defects; the mean square error is bounded by the mean square defect. The number handed to the search for the time, for exact solutions, is positive for every time and falls strictly with the time, as does the cost: there is no root and no best time.", "quantifier": "every number of points and basis functions, Peclet number, split point, final time, boundary values and constants of the differential equations, tolerance below 1, and (for the error bounds) every function with the prescribed ends", "why_tests_cant": "a test runs the search once and looks at the number it returns; that the inner loop always returns, that the loss it returns bounds the error for every split, and that the loss has no root and no minimum over the times at all, are statements about all values of the searched number", "anchors": ["examples/Hunter_Johnston_Dissertation/Chapter_4/Example_4_6/convectionDiffusionGen.py:25-166", "examples/Hunter_Johnston_Dissertation/Chapter_4/Example_4_6/convectionDiffusion_fsolve.py:25-173", "examples/Hunter_Johnston_Dissertation/Chapter_4/Example_4_7/UnknownTime_Gen.py:16-112", "examples/Hunter_Johnston_Dissertation/Chapter_4/Example_4_7/UnknownTime_fsolve.py:16-114"]}
{"id": "C113", "title": "The programs where the point of the split is an unknown of the solver", "statement": "CalculateSolutionSplit of Appendix_D.py and convectionDiffusionNLS.py return after at most 50 steps of a Gauss-Newton iteration for the residuals of both pieces in the coefficients, the value and slope at the joint and the parameter of the split; every step from a split strictly inside its bounds minimises the linearised residuals and, among the minimisers, changes the unknowns least. For all unknowns (with b not 0) the split is strictly between 0 and 1, and the pieces form one function with a continuous derivative and the prescribed ends that differs from the exact solution by at most the largest residual divided by the Peclet number. Once the split is cut off at a bound, its parameter never moves again and every later iterate is the best for that split. For Peclet numbers up to 1000 the start of Appendix_D.py is outside the bounds, so the split is not chosen by the solver at all: it stays at 0.9.", "quantifier": "every number of points and basis functions, Peclet number, random start of the object, and every step of every run", "why_tests_cant": "a test sees one run and its error; that a parameter offered to the solver has no effect, and that the pieces fit together for every split the iteration may try, cannot be seen from the numbers printed", "anchors": ["examples/Carl_Leake_Dissertation/Appendices/Appendix_D.py:51-108", "examples/TfcBook/Chapter_3/section_3_5_4.py:51-108", "examples/Hunter_Johnston_Dissertation/Chapter_4/Example_4_6/convectionDiffusionNLS.py:27-109"]}
{"id": "C114", "title": "The programs that call scipy's integrators for comparison", "statement": "The function handed to the integrator is the differential equation whose reference solution the program compares with. Lane-Emden: the reference solution (type 0, 1, 5) solves the equation on (0, L) with the given start, and for every natural type the equation and start determine the solution; the value returned at the starting point itself should be the derivative of the solution there. Boundary value problem: the reference solution is the only continuous function with the equation and the conditions handed over. Shooting: started with the slope of the reference solution plus s, s at least -2, the miss at the end has the sign of s, so the root that fsolve looks for from the guess 7.5 is the slope of the reference solution, and the solution with it is the reference solution.", "quantifier": "every candidate solution, every length L, every natural type, every slope not more than 2 below the exact one", "why_tests_cant": "a test sees the numbers of one integration with its own error; it cannot show that the equation handed over has one solution, or none", "anchors": ["examples/Hunter_Johnston_Dissertation/Chapter_4/Examples_4_1thru3/laneEmden_ode.py:21-32", "examples/Hunter_Johnston_Dissertation/Chapter_4/Example_4_4/BVP_ode.py:25-33", "examples/Hunter_Johnston_Dissertation/Chapter_4/Example_4_5/shootingMethod_linearNonlnear.py:25-62"]}
{"id": "C115", "title": "The reference implementations used by the tests", "statement": "tests/pOP.py computes independently what the tests compare the library with. For every degree the functions CP, LeP, LaP, HoPpro, HoPphy and FS return, operation by operation, the array of the Python class with one more function, and its entries are the derivatives of the classical polynomials and of the Fourier functions. nCP, nLeP and nFS return the array of the Python class of several variables on the domain of the basis functions with the table of the removed functions; the columns are the multi-indices of sum at most the degree with some index at least nC, each once, in the order of the library, and the entries are the mixed partial derivatives of the products.", "quantifier": "every degree, every number of points, every order of derivation, every number of variables, every nC; the equality of one variable for every type of numbers", "why_tests_cant": "the tests compare two implementations at a few points and degrees; an error made in both would not show, and the agreement for other degrees and dimensions is not seen", "anchors": ["tests/pOP.py:3-38", "tests/pOP.py:40-75", "tests/pOP.py:77-112", "tests/pOP.py:114-149", "tests/pOP.py:151-186", "tests/pOP.py:188-229", "tests/pOP.py:231-278", "tests/pOP.py:281-328", "tests/pOP.py:331-378", "tests/test_BF.py:18-133", "tests/test_nBF.py:7-108"]}
{"id": "C116", "title": "Colour tables and keyword arguments of the Mayavi plots", "statement": "ColormapGradient returns 256 rows; entry k of row i is the integer part of 255 times the point i/255 of the way between the two colours, so the ends are the two colours, each channel rises or falls throughout, an entry is less than one step below the exact gradient and at most 255, and a channel from 0 to 1 takes every value once. Colours with different numbers of channels are refused. _ProcessKwargs changes nothing but a colour given as a string, and the methods pass the positional arguments, the figure of the object and the processed keyword arguments on; a second figure is refused.", "quantifier": "all colours with channels in [0,1], given by name or by channels, all keyword arguments", "why_tests_cant": "a picture is judged by eye, and one gradient does not show the rounding and the ends of all others", "anchors": ["src/tfc/utils/MayaviMakePlot.py:52-71", "src/tfc/utils/MayaviMakePlot.py:73-100", "src/tfc/utils/MayaviMakePlot.py:306-415"]}
{"id": "C117", "title": "The programs with neural networks", "statement": "For all weights of the network the expression that is trained satisfies the conditions of the problem exactly. Poisson: the four boundary values, and if the trained quantity is at most R on the square the network is within R/8 of the solution. Burgers: the value at the start and on the two sides. Flow in a channel: both components are zero at the start, at the inlet and on the walls, and do not change along the channel at its end. The loss is zero exactly if the equations hold at the points of training. Packing the variables into the vector of the optimiser and assigning it back are inverse to each other.", "quantifier": "all weights, all numbers of units and layers, all constants and points of training, all shapes of the variables", "why_tests_cant": "training changes the weights millions of times and a test sees a few of them; a condition that is off for some weights only shows as a slightly worse fit", "anchors": ["examples/Carl_Leake_Dissertation/Chapter_3/auxillary/Example_3_4_aux.py:35-53", "examples/Carl_Leake_Dissertation/Chapter_3/auxillary/Example_3_4_aux.py:66-143", "examples/Extra_Examples/PDE/DeepTFCBurgers1DClass.py:40-66", "examples/Extra_Examples/PDE/DeepTFCBurgers1DClass.py:79-156", "examples/Extra_Examples/PDE/Deep-TFCBurgers1D.py:27-31", "examples/Carl_Leake_Dissertation/Chapter_3/auxillary/Navier_Stokes_DeepTFC_aux.py:28-135", "examples/Carl_Leake_Dissertation/Chapter_3/auxillary/Navier_Stokes_DeepTFC_aux.py:148-225", "examples/TfcBook/Chapter_3/section_3_6_3_Burgers_Deep-TFC.py:27-31"]}
{"id": "C118", "title": "The random starts of the landing programs", "statement": "Whatever the random numbers, the start lies inside the ellipse with half axes 1000 and 500 about the point 2000 up-range, at a height in [1400,1500), and every such point is a start for some random numbers; the horizontal speed is 100 and not away from the target, the sink rate between 75 and 85.", "quantifier": "all random numbers in [0,1), all points of the ellipse", "why_tests_cant": "a sample of starts cannot show that none is outside, nor that every point can occur", "anchors": ["examples/Hunter_Johnston_Dissertation/Chapter_6/Example_6_2/generateIC.py:9-28"]}
{"id": "C119", "title": "Poisson's equation with the boundary conditions as rows of the least-squares problem", "statement": "Example_3_2_spectral_method.py solves the problem of Example_3_2_tfc.py without a constrained expression. Where H has more columns than there are points, (m+1)(m+2)/2 > n^2, it notes nan. Otherwise it returns coefficients; u(xi,*x) are the values of a polynomial of total degree at most m, and among all these polynomials it has the least sum of squares of the residual at all points and of the four boundary conditions at the points on the sides. The points found by np.where lie on all four sides, with gaps of at most pi/(4(n-1)) to the next one. If the sum is at most d^2, the error on the whole square is at most d + d/8 and what the residual and the conditions can change between the points. The boundary values themselves are never met: no polynomial is x exp(-x) on a side.", "quantifier": "every number of points from 2 on, every degree, both backends, every correct pinv", "why_tests_cant": "a table of maximal errors on a grid does not show which sum was made least, nor bound the error between the points", "anchors": ["examples/Carl_Leake_Dissertation/Chapter_3/Example_3_2_spectral_method.py:17-69"]}
{"id": "C120", "title": "Constrained expressions in several variables built with several CeSolver objects", "statement": "Two groups of constraints, one per variable: if the expression of the first CeSolver is assigned as free function to the second, the operators commute, and the support functions of the second group do not depend on the variable of the first, then the resulting expression meets the constraints of both groups exactly when their values agree on the corners, for every free function and after every history of both objects; assigned to the first object, checkCe of both returns True. The program test_multivariate runs and its four assertions hold for all functions g and u1; the two cells of Example 2.9 in the notebook run, the four calls of checkCe return True and the five constraints (an integral and one coupling u and v among them) hold for all functions. With an integral constraint and a support function not chosen for it the claim is false, as the notebook warns.", "quantifier": "all free functions, all histories of readings and assignments of data, all rings of expressions (continuous functions of two variables for the programs), every correct inverse and simplifier", "why_tests_cant": "the test checks one unknown function symbol through sympy's simplifier and one order of calls", "anchors": ["tests/test_ce_solver.py:30-57", "docs/notebooks/CeSolver.ipynb:343-395", "docs/notebooks/CeSolver.ipynb:423-438", "src/tfc/utils/CeSolver.py:101-127", "src/tfc/utils/CeSolver.py:331-369"]}
{"id": "C121", "title": "Derivatives of expressions that contain step", "statement": "For every expression built from the variable, constants, +, *, powers, sin, cos and step, and for every order, nested egrad returns at every point the derivative of the function in which every step is replaced by its value at the point; hence the derivative of the expression itself. For an expression clipped between two bounds, as in Appendix_C.py, it is the derivative of the bound outside and of the free expression between the bounds. For every array the values the program test_step.py compares are equal.", "quantifier": "every expression, every order of nesting, every real point", "why_tests_cant": "the test tries three functions at ten points", "anchors": ["src/tfc/utils/TFCUtils.py:75-116", "src/tfc/utils/TFCUtils.py:1731-1746", "tests/test_step.py:5-47", "examples/Carl_Leake_Dissertation/Appendices/Appendix_C.py:27"]}
{"id": "C122", "title": "Print types and the tables of function names", "statement": "print_type of a CeSolver returns what was last assigned to it, one of the four accepted types, and its expressions are shown accordingly. Making a TfcPrinter replaces math by np in every name of its tables; making more of them changes nothing further, and other printers of the program keep their tables.", "quantifier": "every sequence of constructions and assignments, every pair of tables", "why_tests_cant": "the test assigns the four types in one order to one object and compares nothing", "anchors": ["src/tfc/utils/CeSolver.py:76-99", "src/tfc/utils/CeSolver.py:372-382", "tests/test_ce_solver.py:59-75"]}
{"id": "C123", "title": "The fits with Chebyshev and Fourier functions are well conditioned and insensitive to rounding", "statement": "On the points of a utfc object the matrix of its Chebyshev polynomials or Fourier functions, with or without removed columns, has condition number at most 2, whatever the number of points (if there are enough) and the degree; for an mtfc object with dim variables it is at most 2^dim. So rounding errors in the matrix of a utfc or mtfc object change the coefficients found by LS at most by a small multiple of the unit roundoff (and of the error of the library functions) times a power of the degree, relative to the coefficients and to what remains of the data.", "quantifier": "every number of variables and points, degree, domain, set of removed columns, data, rounding to nearest of any precision p >= 6; the perturbation bound for any two residuals that are affine in the unknowns", "why_tests_cant": "the tests run LS on a few problems in double precision and compare with stored values; they cannot separate the conditioning from the rounding", "anchors": ["src/tfc/utfc.py:175-187", "src/tfc/mtfc.py:mtfc.__init__", "src/tfc/utils/BF.cc:58-115", "src/tfc/utils/BF.cc:171-237", "src/tfc/utils/TFCUtils.py:LS"]}
{"id": "C124", "title": "The size of a figure is the one asked for", "statement": "FullScreen makes a figure as large as the screen and PartScreen makes it as large as the lengths given: in matplotlib exactly, in Plotly the largest number of whole pixels that fits into the length on that screen, in inches or millimetres; FullScreen is PartScreen with the size of the screen in each unit.", "quantifier": "every screen (pixels and millimetres), resolution, width, height, unit", "why_tests_cant": "the size depends on the screen of the machine, and the repository has no test of the plotting classes", "anchors": ["src/tfc/utils/MakePlot.py:189-218", "src/tfc/utils/PlotlyMakePlot.py:619-662", "src/tfc/utils/MayaviMakePlot.py:126-153"]}
{"id": "C125", "title": "A checkpoint is made where the printed restart command looks for it", "statement": "criuCheckpoint makes the directory it is given, runs a command that dumps the calling process into that directory and leaves it running, and prints a command that restores from the same directory.", "quantifier": "every file system, current directory, directory name and process number, with and without user mode", "why_tests_cant": "the command needs criu and root rights and its success is not reported to Python, so no test can see it", "anchors": ["src/tfc/utils/TFCUtils.py:1749-1788"]}
{"id": "C126", "title": "saveAll and Render write every file they promise and touch no other", "statement": "saveAll writes the figure and the pickled object under two different names, and Dot.Render writes the graph in every format of the list; no other file changes, except that the file with the bare name of the graph is removed.", "quantifier": "every file system, name, type and list of formats for which the call returns", "why_tests_cant": "tests look at single files; that nothing else is changed or overwritten is about all names", "anchors": ["src/tfc/utils/MakePlot.py:273-301", "src/tfc/utils/Html.py:95-105"]}
{"id": "C127", "title": "Every subplot of a Plotly figure has the colours of the class", "statement": "The constructor gives the axes of every subplot the grid colour and the background colour of the class, and their zero lines the grid colour.", "quantifier": "every number of rows and columns, plane or 3D, all colours", "why_tests_cant": "the repository has no test of the plotting classes; the subplot that is missed depends on the shape of the figure", "anchors": ["src/tfc/utils/PlotlyMakePlot.py:247-287"]}
{"id": "C128", "title": "A Plotly trace goes to the subplot asked for", "statement": "Each of the methods Surface, Scatter3d, Scatter, Histogram, Contour, Box, Violin, Volume adds one trace of its class with the given arguments in the subplot of the given row and column (the first one if none is given), changes nothing else, fails for a subplot that does not exist or is of the wrong type, and returns the trace.", "quantifier": "every figure, sequence of earlier traces, row, column and keyword arguments", "why_tests_cant": "the repository has no test of the plotting classes", "anchors": ["src/tfc/utils/PlotlyMakePlot.py:294-468"]}
{"id": "C129", "title": "Errors and warnings are shown as such and leave the terminal as it was", "statement": "TFCPrint.Error shows its text in bright red and ends the program, so that the caller can see that it failed; TFCPrint.Warning shows its text in bright yellow and goes on. Whatever is printed afterwards is in the normal style. The progress line of NLLS appears as it is.", "quantifier": "every text without control characters, every style and earlier content of the terminal", "why_tests_cant": "the tests capture no terminal output and check no exit status; how text is shown depends on everything written before", "anchors": ["src/tfc/utils/TFCUtils.py:35-72", "src/tfc/utils/TFCUtils.py:1046-1047"]}
{"id": "C130", "title": "An order below zero is refused or gives antiderivatives", "statement": "The order of the derivative is documented as unsigned, but no class checks it. For a negative order the basis functions end in an error, or the rule of the custom derivative stays true: the derivative of the functions of order d are the functions of order d + 1; and both backends do the same.", "quantifier": "every order, every column, every domain map", "why_tests_cant": "the tests use no negative order; the branch taken depends on how the language rounds a remainder", "anchors": ["src/tfc/utils/BF_Py.py:533-589", "src/tfc/utils/BF.cc:524-590", "src/tfc/utils/BF.cc:850-880", "src/tfc/utils/BF_Py.py:189-210", "src/tfc/utils/BF.cc:212-236"]}
