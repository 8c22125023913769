{
 "claims": [
  {
   "property": "C01",
   "status": "proved",
   "theorems": [
    "Verif.Props.C01_poly_derivative",
    "Verif.Props.C01_poly_columns"
   ],
   "note": "all five classes, every m>=1, d, domain, points; exact real arithmetic"
  },
  {
   "property": "C02",
   "status": "proved",
   "theorems": [
    "Verif.Props.C02_classical",
    "Verif.Props.C02_matrix",
    "Verif.Props.C02_spec_sanity"
   ],
   "note": "over every field of characteristic 0; C02_matrix for the matrices utfc returns, over the reals"
  },
  {
   "property": "C03",
   "status": "proved",
   "theorems": [
    "Verif.Props.C03_poly_derivative_py"
   ],
   "note": "all five classes, every m>=1, d, domain, points; exact real arithmetic"
  },
  {
   "property": "C04",
   "status": "proved",
   "theorems": [
    "Verif.Props.C04_backends_agree_poly",
    "Verif.Props.C04_backends_agree_fs",
    "Verif.Props.C04_agree_means_equal"
   ],
   "note": "polynomial classes over every field of characteristic 0, Fourier over the reals; full and reduced matrices"
  },
  {
   "property": "C05",
   "status": "proved",
   "theorems": [
    "Verif.Props.C05_vanish_cc",
    "Verif.Props.C05_vanish_py"
   ],
   "note": "both backends"
  },
  {
   "property": "C06",
   "status": "proved",
   "theorems": [
    "Verif.Props.C06_fourier_cc",
    "Verif.Props.C06_fourier_py",
    "Verif.Props.C06_fourier_names"
   ],
   "note": "both backends"
  },
  {
   "property": "C07",
   "status": "partial",
   "theorems": [
    "Verif.Props.C07_sigmoid_partial",
    "Verif.Props.C07_sigmoid_fails"
   ],
   "note": "exact for orders 0..8; the claim is false for every order >= 9 (proved): the switch has no case and the undifferentiated value is returned"
  },
  {
   "property": "C08",
   "status": "partial",
   "theorems": [
    "Verif.Props.C08_tanh_partial",
    "Verif.Props.C08_tanh_fails"
   ],
   "note": "exact for orders 0..8; false for every order >= 9 (proved)"
  },
  {
   "property": "C09",
   "status": "partial",
   "theorems": [
    "Verif.Props.C09_swish_partial",
    "Verif.Props.C09_swish_fails",
    "Verif.Props.swish_uninit"
   ],
   "note": "exact for orders 0..8; for every order >= 9 the returned matrix is uninitialised memory (proved)"
  },
  {
   "property": "C10",
   "status": "proved",
   "theorems": [
    "Verif.Props.C10_sin"
   ],
   "note": ""
  },
  {
   "property": "C100",
   "status": "proved",
   "theorems": [
    "Verif.Props.C100_linear",
    "Verif.Props.C100_direct",
    "Verif.Props.C100_newton",
    "Verif.Props.C100_reach",
    "Verif.Props.C100_between",
    "Verif.Props.C100_poisson",
    "Verif.Props.C100_poisson_features",
    "Verif.Props.C100_wave",
    "Verif.Props.C100_biharmonic",
    "Verif.Props.C100_polar",
    "Verif.Props.C100_annulus",
    "Verif.Props.C100_burgers"
   ],
   "note": "exact arithmetic, linear algebra by the contracts of pinv and lstsq. The error bounds contain bounds of the derivatives of the residual, which exist for every result (SmallAt_exists). The random feature branches of the wave and biharmonic programs are covered by C100_linear"
  },
  {
   "property": "C101",
   "status": "partial",
   "theorems": [
    "Verif.Props.C101_linear",
    "Verif.Props.C101_newton",
    "Verif.Props.C101_linear_nlls",
    "Verif.Props.C101_meets",
    "Verif.Props.C101_reach",
    "Verif.Props.C101_near",
    "Verif.Props.C101_lane",
    "Verif.Props.C101_lane0",
    "Verif.Props.C101_laneTfc",
    "Verif.Props.C101_bvp",
    "Verif.Props.C101_convection",
    "Verif.Props.C101_brachistochrone",
    "Verif.Props.C101_brachistochrone_equation",
    "Verif.Props.C101_brachistochrone_error",
    "Verif.Props.C101_ivp2bvp_partial",
    "Verif.Props.C101_ivp_error",
    "Verif.Props.C101_ivp2bvp_error",
    "Verif.Props.C101_ivp2bvp_free",
    "Verif.Props.C101_ivp2bvp_bases",
    "Verif.Props.C101_ivp2bvp_small"
   ],
   "note": "exact arithmetic, linear algebra by the contracts of pinv and lstsq. For the brachistochrone the error is measured by the invariant of the cycloid, for IVP2BVP it is bounded for every gamma for which the problem has one solution. Missing: the conditions of IVP2BVP with other bases than CP and LeP (they fail, C77_ivp2bvp_fails), laneEmden_tfc on intervals that do not start at 0 (its conditions fail there, C77_ivp_fails), Lane-Emden with k that is not a natural number"
  },
  {
   "property": "C102",
   "status": "partial",
   "theorems": [
    "Verif.Props.C102_oscillator",
    "Verif.Props.C102_duffing_partial",
    "Verif.Props.C102_duffing_error",
    "Verif.Props.C102_duffing_fails"
   ],
   "note": "exact arithmetic, linear algebra by the contracts of pinv and lstsq. Proved in full for the oscillator. For the forced oscillator the joining and the Gauss-Newton steps are proved; that the later steps solve the equation posed is false, proved for the constants of the program: the force gamma*cos(omega*x) restarts with every step"
  },
  {
   "property": "C103",
   "status": "proved",
   "theorems": [
    "Verif.Props.C103_linear",
    "Verif.Props.C103_direct",
    "Verif.Props.C103_newton",
    "Verif.Props.C103_between",
    "Verif.Props.C103_wave2",
    "Verif.Props.C103_wave2_direct",
    "Verif.Props.C103_same_number",
    "Verif.Props.C103_navier_stokes",
    "Verif.Props.C96_navier_stokes_fails"
   ],
   "note": "exact arithmetic, linear algebra by the contracts of pinv and lstsq. All bases but ELMReLU, orders of derivation up to 8 in total. The error bound of the wave equation contains bounds of the derivatives of the residual, which exist for every result (smallAtN_exists). For Navier-Stokes there is no error bound: no function of this form has a small residual at the corner (C96_navier_stokes_fails)"
  },
  {
   "property": "C104",
   "status": "proved",
   "theorems": [
    "Verif.Props.C104_newton",
    "Verif.Props.C104_hybrid",
    "Verif.Props.C104_hybrid_spectral",
    "Verif.Props.C104_unknown",
    "Verif.Props.C104_unknown_time",
    "Verif.Props.C104_unknown_fails",
    "Verif.Props.C104_hamiltonian",
    "Verif.Props.C96_two_segments"
   ],
   "note": "exact arithmetic, linear algebra by the contracts of pinv and lstsq. The error bound of the two segments asks for bounds of the candidate (a value of at least -1 at the joint). The spectral version has no error bound, its conditions hold up to the tolerance only. UnknownTime.py poses a system without exact solution for its own values (C104_unknown_fails)"
  },
  {
   "property": "C105",
   "status": "partial",
   "theorems": [
    "Verif.Props.C105_least",
    "Verif.Props.C105_time",
    "Verif.Props.C105_best",
    "Verif.Props.C105_inner",
    "Verif.Props.C105_single",
    "Verif.Props.C105_units",
    "Verif.Props.C105_physical",
    "Verif.Props.C105_velocity_partial",
    "Verif.Props.C105_hamiltonian",
    "Verif.Props.C105_printed_fails",
    "Verif.Props.C104_newton_class"
   ],
   "note": "exact arithmetic, linear algebra by the contracts of pinv and lstsq. The motion, the time equation, the scaling and both programs are proved; for the single loop as long as no step meets b = 0 or a vanishing slope of Htf. False for the code: the printed velocity is the velocity divided by b squared, and with it the printed Hamiltonian is not constant (C105_printed_fails). The root finder fsolve, the cost by Simpson's rule and the convergence of the iteration are left out"
  },
  {
   "property": "C106",
   "status": "proved",
   "theorems": [
    "Verif.Props.C106_planar_orbit",
    "Verif.Props.C106_planar_ends",
    "Verif.Props.C106_planar_drift",
    "Verif.Props.C106_planar_dv",
    "Verif.Props.C106_planar_regular",
    "Verif.Props.C106_spatial_orbit",
    "Verif.Props.C106_spatial_ends",
    "Verif.Props.C106_spatial_drift",
    "Verif.Props.C106_spatial_regular",
    "Verif.Props.C106_jacobi",
    "Verif.Props.C106_getJacobi",
    "Verif.Props.C106_lyap",
    "Verif.Props.C106_halo",
    "Verif.Props.C106_problem7",
    "Verif.Props.C106_problem7_fails"
   ],
   "note": "exact arithmetic, linear algebra by the contracts of pinv and lstsq, bases CP and LeP. The starting values of the functions rich and rich3_lyap are arguments. That the iteration converges is not claimed. Problem_7.py needs a degree of at least 5 (C106_problem7_fails)"
  },
  {
   "property": "C107",
   "status": "partial",
   "theorems": [
    "Verif.Props.C107_gammaL",
    "Verif.Props.C107_index",
    "Verif.Props.C107_lagrange",
    "Verif.Props.C107_getL1L2_partial",
    "Verif.Props.C107_getL1L2_fails"
   ],
   "note": "exact arithmetic, np.roots and fsolve by their contracts. Partial because getL1L2 does not return the libration points but an approximation for small masses (proved with an error bound). gammaL also accepts the numbers 0, -1 and -2, read as indices from the end (C107_index)"
  },
  {
   "property": "C108",
   "status": "partial",
   "theorems": [
    "Verif.Props.C108_lyap_partial",
    "Verif.Props.C108_halo_partial",
    "Verif.Props.C108_order",
    "Verif.Props.C108_order_fails"
   ],
   "note": "exact arithmetic, np.roots by its contract. Partial because both functions take the first root of np.roots for the frequency: if it is not a real one, its real part is 0 and every coefficient is a quotient by 0 (C108_order, C108_order_fails). Proved for a real root listed first: all coefficients, for all mass ratios and the three collinear points, with no assumption on denominators"
  },
  {
   "property": "C109",
   "status": "partial",
   "theorems": [
    "Verif.Props.C109_time",
    "Verif.Props.C109_symmetric",
    "Verif.Props.C109_mirror",
    "Verif.Props.C109_newton",
    "Verif.Props.C109_step",
    "Verif.Props.C109_return_partial",
    "Verif.Props.C109_target",
    "Verif.Props.C109_mass_fails"
   ],
   "note": "exact arithmetic; solve_ivp by an exact solution of PCR3BP (C109_time, C109_newton, C109_mirror) or as any function (C109_target). Proved: what satisfies PCR3BP is a motion of the third body with its linearised equations, in the time its last entry counts; orbits that meet the axis twice at right angles are periodic; the matrix of the corrector is the derivative of what it corrects; the step solves the linear equations, or does so in the sense of least squares; target_lyap asks only for constants on the way and reaches Cstar. Partial because the tolerances (2.2e-14 for the velocity, 1e-3 for the crossing) do not make the returned orbit exactly periodic (C109_return_partial says what is returned), convergence of the corrector is not proved (the while loop has no cap), and PCR3BP ignores the mass ratio it is called with (C109_mass_fails)."
  },
  {
   "property": "C11",
   "status": "partial",
   "theorems": [
    "Verif.Props.C11_relu_cc",
    "Verif.Props.C11_relu_py_partial",
    "Verif.Props.C11_relu_py_shape",
    "Verif.Props.C11_relu_py_fails"
   ],
   "note": "compiled backend: proved for every order; Python backend: orders 0 and 1; from order 2 on it returns a transposed m x n array (proved, claim false)"
  },
  {
   "property": "C110",
   "status": "partial",
   "theorems": [
    "Verif.Props.C110_rows",
    "Verif.Props.C110_linear",
    "Verif.Props.C110_exact",
    "Verif.Props.C110_lane",
    "Verif.Props.C110_lane_error",
    "Verif.Props.C110_lane0",
    "Verif.Props.C110_conditions_fails",
    "Verif.Props.C110_bvp",
    "Verif.Props.C110_inner",
    "Verif.Props.C110_single",
    "Verif.Props.C110_single_reach",
    "Verif.Props.C110_lunar_scaled",
    "Verif.Props.C110_lunar",
    "Verif.Props.C110_lunar_spec"
   ],
   "note": "exact arithmetic, linear algebra by the contracts of pinv and lstsq. Partial because the conditions of the two programs in one unknown are only met as well as the rows are small (C110_conditions_fails shows that they are not met in general), and the first step of the single loop with the spectral method is an over-determined problem without b, about which only the least-squares property is proved. fsolve is not modelled"
  },
  {
   "property": "C111",
   "status": "partial",
   "theorems": [
    "Verif.Props.C111_same",
    "Verif.Props.C111_accurate",
    "Verif.Props.C111_several",
    "Verif.Props.C111_relu_fails"
   ],
   "note": "arithmetic with unbounded exponents, library functions by their error bounds. Partial because the slope of the rectifier next to the kink is wrong (C111_relu_fails; C111_accurate and C111_several say how far away from the kink it is right), and because the python classes are not covered"
  },
  {
   "property": "C112",
   "status": "partial",
   "theorems": [
    "Verif.Props.C112_loss",
    "Verif.Props.C112_every_time",
    "Verif.Props.C112_time_fails",
    "Verif.Props.C112_no_best_time",
    "Verif.Props.C112_time",
    "Verif.Props.C112_error",
    "Verif.Props.C112_pieces",
    "Verif.Props.C112_split",
    "Verif.Props.C112_clip"
   ],
   "note": "scipy's search functions are not modelled. Partial because the purpose of two of the programs, to find the final time, cannot be met: the loss has no root and no minimum (C112_time_fails, C112_no_best_time)"
  },
  {
   "property": "C113",
   "status": "partial",
   "theorems": [
    "Verif.Props.C113_stuck",
    "Verif.Props.C113_stays",
    "Verif.Props.C113_appendix",
    "Verif.Props.C113_split_fixed",
    "Verif.Props.C113_nls"
   ],
   "note": "exact arithmetic, linear algebra by the contracts of pinv and lstsq. Partial because for Peclet numbers up to 1000 the split of Appendix_D.py is not chosen by the solver (C113_split_fixed), and convergence of the iteration is not shown"
  },
  {
   "property": "C114",
   "status": "partial",
   "theorems": [
    "Verif.Props.C114_lane",
    "Verif.Props.C114_lane_unique",
    "Verif.Props.C114_lane_fails",
    "Verif.Props.C114_bvp",
    "Verif.Props.C114_bvp_unique",
    "Verif.Props.C114_shoot_exact",
    "Verif.Props.C114_shoot",
    "Verif.Props.C114_shoot_unique"
   ],
   "note": "the integrators themselves are not modelled. Partial because the value laneEmden_ode.py returns at the starting point is not the derivative of any solution (C114_lane_fails), and slopes more than 2 below the exact one are not covered for the shooting"
  },
  {
   "property": "C115",
   "status": "proved",
   "theorems": [
    "Verif.Props.C115_poly",
    "Verif.Props.C115_poly_values",
    "Verif.Props.C115_fourier",
    "Verif.Props.C115_fourier_values",
    "Verif.Props.C115_multi",
    "Verif.Props.C115_multi_values"
   ],
   "note": "one variable: equality of the programs for every type with the operations, rounded numbers included; several variables: over a field, since the class multiplies by the factor 1 of the domain"
  },
  {
   "property": "C116",
   "status": "proved",
   "theorems": [
    "Verif.Props.C116_gradient",
    "Verif.Props.C116_shape",
    "Verif.Props.C116_range",
    "Verif.Props.C116_lengths",
    "Verif.Props.C116_kwargs",
    "Verif.Props.C116_calls"
   ],
   "note": "exact arithmetic; matplotlib's tables of colour names are a parameter, and so is the conversion to uint8, which is used only in 0..255. C116_shape and C116_range are about the formula of the entries that C116_gradient gives"
  },
  {
   "property": "C117",
   "status": "partial",
   "theorems": [
    "Verif.Props.C117_poisson",
    "Verif.Props.C117_poisson_error",
    "Verif.Props.C117_burgers_start",
    "Verif.Props.C117_burgers_sides",
    "Verif.Props.C117_burgers_partial",
    "Verif.Props.C117_burgers_fails",
    "Verif.Props.C117_navier",
    "Verif.Props.C117_losses",
    "Verif.Props.C117_pack",
    "Verif.Props.C117_unpack"
   ],
   "note": "the optimiser and the initial weights are not modelled. Partial because in DeepTFCBurgers1DClass.py the factor of the last term of u1 is x in place of (x-x0)/(xf-x0), so that on the interval [-3,3] of the programs the conditions on the two sides do not hold (C117_burgers_sides says exactly when, C117_burgers_fails)"
  },
  {
   "property": "C118",
   "status": "proved",
   "theorems": [
    "Verif.Props.C118_positions",
    "Verif.Props.C118_every_position",
    "Verif.Props.C118_velocities"
   ],
   "note": "exact arithmetic; the numbers drawn are arguments"
  },
  {
   "property": "C119",
   "status": "proved",
   "theorems": [
    "Verif.Props.C119_points",
    "Verif.Props.C119_nan",
    "Verif.Props.C119_spectral",
    "Verif.Props.C119_error",
    "Verif.Props.C119_sides"
   ],
   "note": "exact arithmetic; the table of errors printed by the program is not modelled. C119_error is about any smooth function, in particular the polynomial of C119_spectral"
  },
  {
   "property": "C12",
   "status": "proved",
   "theorems": [
    "Verif.Props.C12_domain_map",
    "Verif.Props.C12_python",
    "Verif.Props.C12_mtfc"
   ],
   "note": "compiled and Python univariate classes, and every object an mtfc constructs"
  },
  {
   "property": "C120",
   "status": "proved",
   "theorems": [
    "Verif.Props.C120_groups",
    "Verif.Props.C120_test",
    "Verif.Props.C120_example",
    "Verif.Props.C120_integral_fails"
   ],
   "note": "expressions equal as functions are identified; sympy's inverse and simplifier are parameters with a contract. C120_integral_fails shows that the hypothesis on the support functions of the second group cannot be dropped when there is an integral constraint"
  },
  {
   "property": "C121",
   "status": "partial",
   "theorems": [
    "Verif.Props.C121_frozen",
    "Verif.Props.C121_derivative_partial",
    "Verif.Props.C121_saturated",
    "Verif.Props.C121_test",
    "Verif.Props.C121_fails"
   ],
   "note": "exact arithmetic; JAX's rules for the operations are part of the model. Partial because at a zero of the argument of step the expression may have no derivative, while egrad returns one (C121_fails); off these zeros it is the derivative"
  },
  {
   "property": "C122",
   "status": "partial",
   "theorems": [
    "Verif.Props.C122_tables",
    "Verif.Props.C122_read",
    "Verif.Props.C122_shown",
    "Verif.Props.C122_two_fails",
    "Verif.Props.C122_rejected_fails"
   ],
   "note": "sympy's tables are parameters; that they belong to the class and that init_printing is global is part of the model. Partial because: the tables are those of the class, so every PythonCodePrinter of the program prints np after the first TfcPrinter (C122_tables); the mode is the one of the last assignment to any object (C122_shown, C122_two_fails); a new object has no print type and a rejected one is kept (C122_rejected_fails)"
  },
  {
   "property": "C123",
   "status": "proved",
   "theorems": [
    "Verif.Props.C123_condition",
    "Verif.Props.C123_grid",
    "Verif.Props.C123_perturbation",
    "Verif.Props.C123_fit",
    "Verif.Props.C123_fit_fourier",
    "Verif.Props.C123_fit_grid",
    "Verif.Props.C123_fit_grid_fourier"
   ],
   "note": "the points are the exact ones and the arithmetic inside np.linalg is exact (contract LinAlgCorrect); what is rounded is the matrix H, computed by either backend (C89, C91, C92). Order 0; the condition bounds are for CP and FS"
  },
  {
   "property": "C124",
   "status": "partial",
   "theorems": [
    "Verif.Props.C124_matplotlib",
    "Verif.Props.C124_plotly_partial",
    "Verif.Props.C124_plotly_full",
    "Verif.Props.C124_units_fails",
    "Verif.Props.C124_mayavi_fails"
   ],
   "note": "exact arithmetic; the behaviour of set_size_inches, update_layout and mlab.figure is part of the model. Partial because the Mayavi class does not change the size (C124_mayavi_fails) and an unknown unit is not rejected (C124_units_fails)"
  },
  {
   "property": "C125",
   "status": "partial",
   "theorems": [
    "Verif.Props.C125_partial",
    "Verif.Props.C125_user_fails",
    "Verif.Props.C125_blank_fails"
   ],
   "note": "the shell and the options of criu are in Spec/Shell.lean. Partial because the claim is false in user mode (misspelt option) and for names with a blank (not quoted)"
  },
  {
   "property": "C126",
   "status": "proved",
   "theorems": [
    "Verif.Props.C126_saveAll",
    "Verif.Props.C126_render"
   ],
   "note": "graphviz' render is modelled after its documentation; pickling itself is not modelled"
  },
  {
   "property": "C127",
   "status": "partial",
   "theorems": [
    "Verif.Props.C127_partial",
    "Verif.Props.C127_scenes",
    "Verif.Props.C127_fails",
    "Verif.Props.C127_zero_fails"
   ],
   "note": "false for the code: the number row + col + 1 misses scenes when there are several rows and columns, and the first scene gets no colour for its zero lines. C127_scenes says which scenes are coloured"
  },
  {
   "property": "C128",
   "status": "partial",
   "theorems": [
    "Verif.Props.C128_partial",
    "Verif.Props.C128_returned_fails"
   ],
   "note": "false for the code in one point: the methods return the figure instead of the trace. add_trace itself is modelled from its documentation"
  },
  {
   "property": "C129",
   "status": "partial",
   "theorems": [
    "Verif.Props.C129_partial",
    "Verif.Props.C129_status_fails"
   ],
   "note": "false for the code in one point: Error ends the program with exit status 0, which means success. colorama is taken to pass the sequences on, as it does outside the Windows console"
  },
  {
   "property": "C13",
   "status": "proved",
   "theorems": [
    "Verif.Props.C13_points"
   ],
   "note": "utfcInit returns N points z that are cos(pi(n-i)/n) or equispaced, x is their affine image; endpoints and ordering included."
  },
  {
   "property": "C130",
   "status": "partial",
   "theorems": [
    "Verif.Props.C130_partial",
    "Verif.Props.C130_natural",
    "Verif.Props.C130_constant_fails",
    "Verif.Props.C130_backends_partial",
    "Verif.Props.C130_backends_fails",
    "Verif.Props.C130_elmSin_partial",
    "Verif.Props.C130_elmSin_fails",
    "Verif.Props.C130_recursion"
   ],
   "note": "true for the Fourier basis of python except the constant function, and for the classes that recurse, which end in an error. False: the constant function; the Fourier basis of C++ for negative orders that are 1 or 2 modulo 4 and ELMSin of C++ for order -2, because the remainder of a negative number is negative there. Entries of the matrices, exact arithmetic; the switch statements of ELMSigmoid, ELMTanh and ELMSwish are not treated here"
  },
  {
   "property": "C14",
   "status": "proved",
   "theorems": [
    "Verif.Props.C14_grid",
    "Verif.Props.mtfcInit_succeeds"
   ],
   "note": "every dimension, n, basis and backend; at least two points per dimension for the Chebyshev/Legendre grids (one point gives NaN in the code), exact reals"
  },
  {
   "property": "C15",
   "status": "partial",
   "theorems": [
    "Verif.Props.C15_columns_cc_partial",
    "Verif.Props.C15_columns_py_partial",
    "Verif.Props.C15_columns_py_bad_indices",
    "Verif.Props.C15_columns_py_relu_fails"
   ],
   "note": "both backends; excluded: compiled ELMSwish above order 8 (no full matrix either), Python ELMReLU from order 2 on (transposed array, IndexError proved)"
  },
  {
   "property": "C16",
   "status": "partial",
   "theorems": [
    "Verif.Props.C16_memory_safe_partial",
    "Verif.Props.C16_memory_safe_int",
    "Verif.Props.C16_overrun",
    "Verif.Props.C16_fails"
   ],
   "note": "safe for distinct in-range indices; utfc accepts repeated and out-of-range indices, which overrun the buffer (proved), and ELMSwish order >= 9 reads uninitialised memory (proved)"
  },
  {
   "property": "C17",
   "status": "proved",
   "theorems": [
    "Verif.Props.C17_xla_eq_eager",
    "Verif.Props.C17_xla_eq_eager_code",
    "Verif.Props.C17_process"
   ],
   "note": "every class, order, flag and valid nC, also in a running process after any history of constructions, destructions and assignments; for ELMSwish above order 8 both entry points read uninitialised memory"
  },
  {
   "property": "C18",
   "status": "proved",
   "theorems": [
    "Verif.Props.C18_registry",
    "Verif.Props.C18_call",
    "Verif.Props.registry_dangling",
    "Verif.Props.registry_identifier_assigned"
   ],
   "note": "every history of creations, destructions, assignments of w and b, with any allocator; excluded: Python code assigning the writable attribute identifier. Calls that outlive their object are outside the claim; the dangling entry is exhibited"
  },
  {
   "property": "C19",
   "status": "partial",
   "theorems": [
    "Verif.Props.C19_int",
    "Verif.Props.C19_list",
    "Verif.Props.utfcInit_nC",
    "Verif.Props.C19_int_columns",
    "Verif.Props.C19_list_columns_partial",
    "Verif.Props.C19_fails"
   ],
   "note": "integers and lists accepted, refused and mapped to the removed columns as stated; the code does not reject a list index above deg (proved, claim false there)"
  },
  {
   "property": "C20",
   "status": "partial",
   "theorems": [
    "Verif.Props.C20_list_partial",
    "Verif.Props.C20_array1",
    "Verif.Props.C20_int",
    "Verif.Props.C20_columns_partial",
    "Verif.Props.C20_singleton_fails",
    "Verif.Props.C20_table_fails"
   ],
   "note": "lists of integers and of lists/arrays whose length is not 1; proved false: a one-element list [v] is treated as the integer v; a two-axis array is accepted whatever deg is"
  },
  {
   "property": "C21",
   "status": "proved",
   "theorems": [
    "Verif.Props.C21_count_cc",
    "Verif.Props.C21_count_py"
   ],
   "note": "both backends"
  },
  {
   "property": "C22",
   "status": "proved",
   "theorems": [
    "Verif.Props.C22_columns_cc",
    "Verif.Props.C22_columns_py",
    "Verif.Props.C22_order_unique",
    "Verif.Props.C22_backends_agree"
   ],
   "note": "both backends; exact real arithmetic"
  },
  {
   "property": "C23",
   "status": "partial",
   "theorems": [
    "Verif.Props.C23_mixed_partials_cc",
    "Verif.Props.C23_mixed_partials_py_partial",
    "Verif.Props.C23_short_py_fails"
   ],
   "note": "compiled backend: proved in full; Python backend: proved for orders of full length, a shorter tuple raises IndexError (proved, claim false)"
  },
  {
   "property": "C24",
   "status": "partial",
   "theorems": [
    "Verif.Props.C23_mixed_partials_cc",
    "Verif.Props.C24_xla_cc",
    "Verif.Props.C24_nelm_partial",
    "Verif.Props.nSwish_uninit"
   ],
   "note": "tensor-product and ELM classes, eager and xla; excluded and refuted: nELMSwish from total order 9 on returns uninitialised memory"
  },
  {
   "property": "C25",
   "status": "partial",
   "theorems": [
    "Verif.Props.C25_nelm_cc_partial",
    "Verif.Props.C25_sigmoid_fails",
    "Verif.Props.C25_tanh_fails",
    "Verif.Props.C25_swish_fails"
   ],
   "note": "sigmoid, tanh, swish up to total order 8, sin every order, ReLU every order away from the kink; from total order 9 on the first three are wrong (proved)"
  },
  {
   "property": "C26",
   "status": "partial",
   "theorems": [
    "Verif.Props.C26_jvp_partial",
    "Verif.Props.deriv_along_line",
    "Verif.Props.C26_fails"
   ],
   "note": "both backends, every class and order where the basis is exact; a tangent that is identically zero raises UnboundLocalError (proved, claim false there)"
  },
  {
   "property": "C27",
   "status": "partial",
   "theorems": [
    "Verif.Props.C27_tensor",
    "Verif.Props.C27_elm_partial",
    "Verif.Props.C27_relu_fails"
   ],
   "note": "tensor-product bases: proved in full for both backends; ELM bases: up to the orders at which the classes are exact; Python ReLU: the rule raises IndexError (proved)"
  },
  {
   "property": "C28",
   "status": "partial",
   "theorems": [
    "Verif.Props.C28_elm_cc_partial",
    "Verif.Props.C28_elm_cc_refused",
    "Verif.Props.C28_nelm_cc_partial",
    "Verif.Props.C28_nelm_cc_refused",
    "Verif.Props.C28_elm_py",
    "Verif.Props.C28_elm_py_refused",
    "Verif.Props.C28_nelm_py",
    "Verif.Props.C28_nelm_py_refused",
    "Verif.Props.C28_strided_fails"
   ],
   "note": "Python backend in full (arrays as values); compiled backend for contiguous arrays; proved false: a strided array assigned to a compiled ELM (w, b) or nELM (b) is stored wrongly"
  },
  {
   "property": "C29",
   "status": "partial",
   "theorems": [
    "Verif.Props.C29_roundtrip_partial",
    "Verif.Props.C29_pytree",
    "Verif.Props.C29_empty_fails"
   ],
   "note": "every dictionary of one-dimensional arrays with at least one key; proved false: the empty dictionary, whose toArray raises"
  },
  {
   "property": "C30",
   "status": "partial",
   "theorems": [
    "Verif.Props.C30_arithmetic_partial",
    "Verif.Props.C30_numpy_fails",
    "Verif.Props.C30_flat_numpy_fails"
   ],
   "note": "all dictionaries and JAX arrays; proved false: d + o with numpy arrays under the same key in both changes d; a flat numpy array on the right is ignored"
  },
  {
   "property": "C31",
   "status": "partial",
   "theorems": [
    "Verif.Props.C31_histories_partial",
    "Verif.Props.C31_new_key_fails",
    "Verif.Props.C31_length_fails",
    "Verif.Props.C31_delete_fails"
   ],
   "note": "histories whose assignments after the last update keep keys and lengths; proved false: assignments with a new key or another length, deletions"
  },
  {
   "property": "C32",
   "status": "partial",
   "theorems": [
    "Verif.Props.C32_robust_partial",
    "Verif.Props.C32_numpy_fails"
   ],
   "note": "JAX arrays of any shape; proved false: numpy arrays with two or more keys make toDict raise"
  },
  {
   "property": "C33",
   "status": "partial",
   "theorems": [
    "Verif.Props.C33_pe_partial",
    "Verif.Props.C33_fails",
    "Verif.Props.C33_refused"
   ],
   "note": "positions in ascending order, any number of arguments, relative to JAX tracing computing what the traced function computes; proved false: positions in another order freeze other arguments"
  },
  {
   "property": "C34",
   "status": "partial",
   "theorems": [
    "Verif.Props.C34_list_partial",
    "Verif.Props.C34_ls_list",
    "Verif.Props.C34_lsClass_list",
    "Verif.Props.C34_nlls_list",
    "Verif.Props.C34_nllsClass_list",
    "Verif.Props.C34_fails",
    "Verif.Props.C34_second_call_fails"
   ],
   "note": "lists in descending order (in particular at most one constant); proved false: any other list is left sorted in descending order, and a second LS call with it solves another problem"
  },
  {
   "property": "C35",
   "status": "partial",
   "theorems": [
    "Verif.Props.C35_ls_partial",
    "Verif.Props.C35_robust_fails"
   ],
   "note": "every affine residual, array / TFCDict / one-key TFCDictRobust unknowns, both methods, relative to the contracts of pinv and lstsq (shown satisfiable); proved false: TFCDictRobust with two keys raises"
  },
  {
   "property": "C36",
   "status": "partial",
   "theorems": [
    "Verif.Props.C36_lsClass_partial",
    "Verif.Props.C36_lsClass_args_partial",
    "Verif.Props.C36_fails"
   ],
   "note": "with the timer, every call; proved false: without the timer every call raises NameError"
  },
  {
   "property": "C37",
   "status": "partial",
   "theorems": [
    "Verif.Props.C37_nlls_partial",
    "Verif.Props.C37_nllsClass_partial",
    "Verif.Props.C37_nllsClass_args_partial",
    "Verif.Props.C37_tol_fails"
   ],
   "note": "every residual, start value, tol < 1 and maxIter, NLLS and NllsClass; proved false for tol = 1 (returns at once although no reason holds)"
  },
  {
   "property": "C38",
   "status": "partial",
   "theorems": [
    "Verif.Props.C38_cond_partial",
    "Verif.Props.C38_ignored",
    "Verif.Props.C38_fails"
   ],
   "note": "conditions equal to the built-in one; proved false in general: the argument cond is ignored"
  },
  {
   "property": "C39",
   "status": "proved",
   "theorems": [
    "Verif.Props.C39_affine",
    "Verif.Props.C39_zero"
   ],
   "note": "no rank hypothesis needed; relative to the contracts of pinv and lstsq; constant positions in ascending order, non-empty residual and unknowns"
  },
  {
   "property": "C40",
   "status": "proved",
   "theorems": [
    "Verif.Props.C40_timer",
    "Verif.Props.C40_nllsClass"
   ],
   "note": "every residual, start value, tol, maxIter with the default body; constant positions in ascending order, non-empty residual and unknowns"
  },
  {
   "property": "C41",
   "status": "proved",
   "theorems": [
    "Verif.Props.C41"
   ],
   "note": "eigenvalues are exact complex eigenvalues; the test is shown equivalent to the absence of a cycle through nilpotency of the adjacency matrix"
  },
  {
   "property": "C42",
   "status": "partial",
   "theorems": [
    "Verif.Props.C42_refused",
    "Verif.Props.C42_drawn_partial",
    "Verif.Props.C42_one_arrow",
    "Verif.Props.C42_overview",
    "Verif.Props.C42_self_loop_fails"
   ],
   "note": "an edge from a node to itself is not seen by the check in one of its two choices, so a tree with a loop is reported"
  },
  {
   "property": "C43",
   "status": "partial",
   "theorems": [
    "Verif.Props.C43_partial",
    "Verif.Props.C43_fails"
   ],
   "note": "linear functionals over any commutative ring of coefficients, any history; proved false for linear operators whose values are not coefficients (u' = 0); sympy's inverse by contract"
  },
  {
   "property": "C44",
   "status": "partial",
   "theorems": [
    "Verif.Props.C44_partial",
    "Verif.Props.C44_idempotent",
    "Verif.Props.C44_fails"
   ],
   "note": "all operators, at least one constraint, any history; without constraints ce raises"
  },
  {
   "property": "C45",
   "status": "partial",
   "theorems": [
    "Verif.Props.C45_data",
    "Verif.Props.C45_partial",
    "Verif.Props.C45_phi_fails"
   ],
   "note": "complete for assignments to C, kappa, s, g; phi assigned after ce was read is proved to be ignored"
  },
  {
   "property": "C46",
   "status": "partial",
   "theorems": [
    "Verif.Props.C46_partial",
    "Verif.Props.C46_alpha",
    "Verif.Props.C46_fails"
   ],
   "note": "S and alpha for all operators; duality for linear functionals over any ring of coefficients; proved false for linear operators whose values are not coefficients"
  },
  {
   "property": "C47",
   "status": "proved",
   "theorems": [
    "Verif.Props.C47"
   ],
   "note": "any history; constraints given as pairs; simplifier assumed to decide equality"
  },
  {
   "property": "C48",
   "status": "proved",
   "theorems": [
    "Verif.Props.C48_concatenation",
    "Verif.Props.C48_derivative",
    "Verif.Props.C48_refused",
    "Verif.Props.C48_empty"
   ],
   "note": "every list of objects; an empty list raises ValueError"
  },
  {
   "property": "C49",
   "status": "partial",
   "theorems": [
    "Verif.Props.C49_balanced",
    "Verif.Props.C49_partial",
    "Verif.Props.C49_order_fails",
    "Verif.Props.C49_args_fails"
   ],
   "note": "balance and one opening per differentiation for all derivatives; the nest of calls for the first derivative of a function of one variable; proved false: every higher order of one variable, every first derivative of two or more arguments"
  },
  {
   "property": "C50",
   "status": "partial",
   "theorems": [
    "Verif.Props.C50_partial",
    "Verif.Props.C50_name_fails",
    "Verif.Props.C50_order_fails",
    "Verif.Props.C50_precedence_fails"
   ],
   "note": "names replaced by names or numbers, no substituted variable inside another name or value; proved false: variables inside longer names, exchanged variables, negative values under a power"
  },
  {
   "property": "C51",
   "status": "partial",
   "theorems": [
    "Verif.Props.C51_partial",
    "Verif.Props.C51_one_dim_fails",
    "Verif.Props.C51_wide_fails"
   ],
   "note": "two-dimensional arrays with 1 to 1000 columns, any headers, any format; proved false: one-dimensional arrays raise, rows of more than 1000 entries are abbreviated by numpy"
  },
  {
   "property": "C52",
   "status": "proved",
   "theorems": [
    "Verif.Props.C52_value",
    "Verif.Props.C52_derivative",
    "Verif.Props.C52_true_derivative"
   ],
   "note": "all arrays, all tangents, repeated differentiation; agrees with the true derivative away from zero, where there is none"
  },
  {
   "property": "C53",
   "status": "partial",
   "theorems": [
    "Verif.Props.C53_partial",
    "Verif.Props.C53_cutoff_fails",
    "Verif.Props.C53_column_fails"
   ],
   "note": "every full-rank matrix whose scaled singular values stay above the cut-off, one-dimensional b, relative to the contracts of qr, pinv, cond, norm (shown satisfiable); proved false: nearly dependent columns are cut off, and B of shape (n,1) gives an m x m array"
  },
  {
   "property": "C54",
   "status": "proved",
   "theorems": [
    "Verif.Props.C54_egrad"
   ],
   "note": "relative to the contract of jax.jvp (directional derivative)"
  },
  {
   "property": "C55",
   "status": "proved",
   "theorems": [
    "Verif.Props.C55_elm_py"
   ],
   "note": "every order; relative to the contract of jax.jvp"
  },
  {
   "property": "C56",
   "status": "partial",
   "theorems": [
    "Verif.Props.C56_nelm_py_smooth",
    "Verif.Props.C56_nelm_py_relu_partial",
    "Verif.Props.C56_relu_tuple_fails",
    "Verif.Props.C56_relu_fails"
   ],
   "note": "smooth activations: every order; ReLU: order 1 given as a tuple raises an exception (proved, claim false), all other cases proved; relative to the contract of jax.jvp"
  },
  {
   "property": "C57",
   "status": "partial",
   "theorems": [
    "Verif.Props.C57_mtfc_tensor",
    "Verif.Props.C57_mtfc_elm_partial",
    "Verif.Props.C57_utfc_partial",
    "Verif.Props.C57_one_variable",
    "Verif.Props.C57_utfc_relu_fails",
    "Verif.Props.C57_mtfc_relu_fails"
   ],
   "note": "all classes except the Python ReLU classes beyond the orders they support; those are proved false: d2H, d4H, d8H of utfc have rows and columns exchanged, Hx of mtfc raises IndexError"
  },
  {
   "property": "C58",
   "status": "partial",
   "theorems": [
    "Verif.Props.C58_utfc_partial",
    "Verif.Props.C58_mtfc_tensor",
    "Verif.Props.C58_mtfc_elm_partial",
    "Verif.Props.C58_relu_fails",
    "Verif.Props.C58_swish_fails"
   ],
   "note": "every class and backend for the orders at which the class has code; proved false: Python ReLU from order 2 on (rows and columns exchanged), compiled swish beyond order 8 (uninitialised memory)"
  },
  {
   "property": "C59",
   "status": "partial",
   "theorems": [
    "Verif.Props.C59_utfc_partial",
    "Verif.Props.C59_utfc_jit_partial",
    "Verif.Props.C59_mtfc_partial",
    "Verif.Props.C59_arrays_fails",
    "Verif.Props.C59_scalar_fails",
    "Verif.Props.C59_unmapped_fails"
   ],
   "note": "batches of scalar points with all coordinates mapped; proved false: examples that are arrays (compiled program silently returns a matrix of another shape, eager call raises), coordinates that are not mapped (mtfc raises), points without axis"
  },
  {
   "property": "C60",
   "status": "partial",
   "theorems": [
    "Verif.Props.C60_represent",
    "Verif.Props.C60_points",
    "Verif.Props.C60_own_points",
    "Verif.Props.C60_fourier_partial",
    "Verif.Props.C60_fourier_fails",
    "Verif.Props.C60_fourier_odd_fails"
   ],
   "note": "polynomial classes in full; Fourier on the object's own points when N >= 2*floor((deg+1)/2)+2; and this bound is sharp: proved false for Fourier with N = deg+1 (first and last point carry the same row) and, for odd deg, with N = deg+2 (the last column is zero)"
  },
  {
   "property": "C61",
   "status": "proved",
   "theorems": [
    "Verif.Props.C61_represent",
    "Verif.Props.C61_own_points"
   ],
   "note": "tensor-product bases, both backends, every number of variables"
  },
  {
   "property": "C62",
   "status": "partial",
   "theorems": [
    "Verif.Props.C62_partial",
    "Verif.Props.C62_title_fails",
    "Verif.Props.C62_titles_error_fails"
   ],
   "note": "labels and twin labels for every pattern of left-out subplots, titles when they are given exactly where subplots are; proved false otherwise: titles move to another subplot or the constructor raises"
  },
  {
   "property": "C63",
   "status": "partial",
   "theorems": [
    "Verif.Props.C63_by_name",
    "Verif.Props.C63_matplotlib_partial",
    "Verif.Props.C63_matplotlib_fails"
   ],
   "note": "Plotly and Mayavi in full, matplotlib with an explicit type or a known suffix; proved false: matplotlib writes PDF data under any name with another suffix"
  },
  {
   "property": "C64",
   "status": "partial",
   "theorems": [
    "Verif.Props.C64_partial",
    "Verif.Props.C64_absolute_fails",
    "Verif.Props.C64_stale_fails"
   ],
   "note": "generators yielding None, directories that exist or can be made; proved false: the printed command for absolute directories, and frames of earlier runs stay"
  },
  {
   "property": "C65",
   "status": "partial",
   "theorems": [
    "Verif.Props.C65_partial",
    "Verif.Props.C65_bare_fails"
   ],
   "note": "names with a directory part; proved false: a bare file name always raises"
  },
  {
   "property": "C66",
   "status": "partial",
   "theorems": [
    "Verif.Props.C66_labels_partial",
    "Verif.Props.C66_labels_fails",
    "Verif.Props.C66_view_partial",
    "Verif.Props.C66_view_fails"
   ],
   "note": "figures with one row or one column; proved false for every grid with two rows and two columns: the last subplot never gets labels, view moves another camera"
  },
  {
   "property": "C67",
   "status": "partial",
   "theorems": [
    "Verif.Props.C67_given",
    "Verif.Props.C67_data_partial",
    "Verif.Props.C67_unbound_fails"
   ],
   "note": "in full when limits are given; from data if the first plot of a listed type has the property; proved false otherwise (UnboundLocalError)"
  },
  {
   "property": "C68",
   "status": "partial",
   "theorems": [
    "Verif.Props.C68_partial",
    "Verif.Props.C68_opaque_fails",
    "Verif.Props.C68_empty_fails"
   ],
   "note": "pictures with differences in the first and the last channel; proved false: opaque and blank pictures raise"
  },
  {
   "property": "C69",
   "status": "proved",
   "theorems": [
    "Verif.Props.C69_expression",
    "Verif.Props.C69_best",
    "Verif.Props.C69_exact",
    "Verif.Props.C69_constructed"
   ],
   "note": "the linear second-order problem of tests/test_ODE.py, under the contracts of pinv and lstsq, in exact arithmetic"
  },
  {
   "property": "C70",
   "status": "proved",
   "theorems": [
    "Verif.Props.C70_expression"
   ],
   "note": "CP, LeP and FS bases"
  },
  {
   "property": "C71",
   "status": "partial",
   "theorems": [
    "Verif.Props.C71_safe_partial",
    "Verif.Props.C71_no_leak_partial",
    "Verif.Props.C71_stale_fails",
    "Verif.Props.C71_leak_fails"
   ],
   "note": "safe for every program except calls of compiled computations whose object is gone, and no leak with one-dimensional objects; proved false: such a call uses freed memory (the pointer table is never cleaned), and every n-dimensional object leaks its x0"
  },
  {
   "property": "C72",
   "status": "proved",
   "theorems": [
    "Verif.Props.C72_utfc",
    "Verif.Props.C72_utfc_accept",
    "Verif.Props.C72_mtfc_tensor",
    "Verif.Props.C72_mtfc_elm",
    "Verif.Props.C72_mtfc_refused"
   ],
   "note": "every name and both backends, including the kinks of ReLU; the ELM bases of mtfc on non-degenerate domains"
  },
  {
   "property": "C73",
   "status": "partial",
   "theorems": [
    "Verif.Props.C73_uni_partial",
    "Verif.Props.C73_nd_partial",
    "Verif.Props.C73_nelm_partial",
    "Verif.Props.C73_python_partial",
    "Verif.Props.C73_strided_fails",
    "Verif.Props.C73_fortran_fails"
   ],
   "note": "points and orders in any layout; constructor arguments in contiguous arrays; the Python tensor-product classes for arguments in any layout. Proved false for other constructor arguments of the compiled classes: strides are ignored, so a view or a transposed table of int32 removes other functions"
  },
  {
   "property": "C74",
   "status": "partial",
   "theorems": [
    "Verif.Props.C74_python",
    "Verif.Props.C74_axes_partial",
    "Verif.Props.C74_table_fails",
    "Verif.Props.C74_ends_fails",
    "Verif.Props.C74_points_fails",
    "Verif.Props.C74_points_elm_fails",
    "Verif.Props.C74_orders_fails",
    "Verif.Props.C74_extra_rows"
   ],
   "note": "holds for the Python tensor-product classes and, in the compiled classes, for the number of axes; proved false for the other mismatches, each of which makes the compiled code access memory out of bounds or uninitialised (or, for extra rows, ignores them)"
  },
  {
   "property": "C75",
   "status": "partial",
   "theorems": [
    "Verif.Props.C75_refused_partial",
    "Verif.Props.C75_assign_fails"
   ],
   "note": "arrays of another size are refused; proved false otherwise: the assignment is accepted and has no effect"
  },
  {
   "property": "C76",
   "status": "proved",
   "theorems": [
    "Verif.Props.C76_utfc",
    "Verif.Props.C76_ready",
    "Verif.Props.C76_mtfc"
   ],
   "note": "every object except ELMReLU (kinks, see C72) and repeated or out-of-range removed indices; existence and uniqueness of the function"
  },
  {
   "property": "C77",
   "status": "partial",
   "theorems": [
    "Verif.Props.C77_three_point",
    "Verif.Props.C77_convection",
    "Verif.Props.C77_bvp",
    "Verif.Props.C77_ivp_partial",
    "Verif.Props.C77_ivp_fails",
    "Verif.Props.C77_unknown_time",
    "Verif.Props.C77_brachistochrone",
    "Verif.Props.C77_curve",
    "Verif.Props.C77_lagrange",
    "Verif.Props.C77_periodic",
    "Verif.Props.C77_lyapunov",
    "Verif.Props.C77_halo",
    "Verif.Props.C77_landing",
    "Verif.Props.C77_ivp2bvp_partial",
    "Verif.Props.C77_ivp2bvp_fails",
    "Verif.Props.C77_ivp2bvp_between_fails",
    "Verif.Props.C77_balloon",
    "Verif.Props.C77_balloon_load",
    "Verif.Props.C77_propagation",
    "Verif.Props.C77_nC_fails"
   ],
   "note": "all programs with one independent variable; proved false: laneEmden_tfc.py for a start other than 0, IVP2BVP.py with the Fourier basis or between the two problems, and the selection of the number of removed functions in three programs"
  },
  {
   "property": "C78",
   "status": "partial",
   "theorems": [
    "Verif.Props.C78_clamp",
    "Verif.Props.C78_inequality",
    "Verif.Props.C78_points",
    "Verif.Props.C78_random_partial",
    "Verif.Props.C78_random_fails",
    "Verif.Props.C78_two_values",
    "Verif.Props.C78_three_values",
    "Verif.Props.C78_multiples",
    "Verif.Props.C78_conics",
    "Verif.Props.C78_box_partial",
    "Verif.Props.C78_box_ends",
    "Verif.Props.C78_box_fails"
   ],
   "note": "all these programs; proved false: Figure_2_1.py and Figure_2_2.py when the two random bounds cross, and Problem_6.py, whose path passes through the centre of the box whenever both coordinates have the same coefficients"
  },
  {
   "property": "C79",
   "status": "partial",
   "theorems": [
    "Verif.Props.C79_lines4",
    "Verif.Props.C79_lines3",
    "Verif.Props.C79_relative",
    "Verif.Props.C79_components",
    "Verif.Props.C79_components_int",
    "Verif.Props.C79_poisson",
    "Verif.Props.C79_wave",
    "Verif.Props.C79_burgers",
    "Verif.Props.C79_annulus",
    "Verif.Props.C79_biharmonic",
    "Verif.Props.C79_polar",
    "Verif.Props.C79_navier_stokes",
    "Verif.Props.C79_wave2",
    "Verif.Props.C79_point",
    "Verif.Props.C79_cube",
    "Verif.Props.C79_affine",
    "Verif.Props.C79_affine_int",
    "Verif.Props.C79_coons",
    "Verif.Props.C79_coons_partial",
    "Verif.Props.C79_coons_fails",
    "Verif.Props.C79_object"
   ],
   "note": "all these programs; proved false: the expression of Figure_4_3.py, which lacks the term -g(1,y) and keeps the curve on x = 1 only for free functions that vanish there (the one of the program does)"
  },
  {
   "property": "C80",
   "status": "proved",
   "theorems": [
    "Verif.Props.C80_convection",
    "Verif.Props.C80_nls",
    "Verif.Props.C80_hybrid"
   ],
   "note": "the joined function is differentiable, with the boundary values and the unknown value and derivative at the joint; convectionDiffusionNLS.py for b other than 0 (at 0 the program divides by zero)"
  },
  {
   "property": "C81",
   "status": "proved",
   "theorems": [
    "Verif.Props.C81_unit",
    "Verif.Props.C81_round_trip",
    "Verif.Props.C81_check",
    "Verif.Props.C81_path"
   ],
   "note": "round trip for quaternions of length exactly 1; the check refuses those further than half of 1e-15 from it"
  },
  {
   "property": "C82",
   "status": "partial",
   "theorems": [
    "Verif.Props.C82_constraints",
    "Verif.Props.C82_ode_condition",
    "Verif.Props.C82_ode_solution",
    "Verif.Props.C82_egrad_partial",
    "Verif.Props.C82_egradRobust",
    "Verif.Props.C82_egrad_fails"
   ],
   "note": "the expressions are correct and a vanishing residual gives the reference solution; proved false, by the contract of jax.jvp on element types: egrad builds float64 tangents and ends in a TypeError for complex arguments (egradRobust does not)"
  },
  {
   "property": "C83",
   "status": "partial",
   "theorems": [
    "Verif.Props.C83_bvp",
    "Verif.Props.C83_bvp_unique",
    "Verif.Props.C83_convection",
    "Verif.Props.C83_oscillator_partial",
    "Verif.Props.C83_oscillator_fails",
    "Verif.Props.C83_lane",
    "Verif.Props.C83_lane_unique",
    "Verif.Props.C83_hybrid",
    "Verif.Props.C83_pde",
    "Verif.Props.C83_poisson",
    "Verif.Props.C83_wave",
    "Verif.Props.C83_wave2",
    "Verif.Props.C83_biharmonic",
    "Verif.Props.C83_polar",
    "Verif.Props.C83_annulus",
    "Verif.Props.C83_burgers",
    "Verif.Props.C83_navier_stokes",
    "Verif.Props.C83_navier_stokes_inflow"
   ],
   "note": "all these programs; uniqueness here for the ordinary differential equations, for most of the partial ones it follows from C96 with R = 0; proved false for example_3_1.py with a negative starting value, where the arctan phase starts the reference at -y0; the Navier-Stokes profile is the fully developed flow and not a solution with the program's inflow condition"
  },
  {
   "property": "C84",
   "status": "proved",
   "theorems": [
    "Verif.Props.C84_constraint",
    "Verif.Props.C84_start",
    "Verif.Props.C84_minimum",
    "Verif.Props.C84_newton",
    "Verif.Props.C84_eight",
    "Verif.Props.grad_is_derivative",
    "Verif.Props.hess_is_derivative"
   ],
   "note": "real numbers instead of doubles; null_space by its contract (a non-zero vector that A sends to 0)"
  },
  {
   "property": "C85",
   "status": "proved",
   "theorems": [
    "Verif.Props.C85_step",
    "Verif.Props.C85_nlls",
    "Verif.Props.C85_nllsClass",
    "Verif.Props.C85_double_fails"
   ],
   "note": "exact arithmetic, library routines by their contracts as in C37; C85_double_fails shows that the rank hypothesis is needed"
  },
  {
   "property": "C86",
   "status": "partial",
   "theorems": [
    "Verif.Props.C86_code",
    "Verif.Props.C86_monotone",
    "Verif.Props.C86_start",
    "Verif.Props.C86_inside_partial",
    "Verif.Props.C86_points",
    "Verif.Props.C86_error",
    "Verif.Props.C86_points_error",
    "Verif.Props.C86_end_fails",
    "Verif.Props.C86_points_fails",
    "Verif.Props.C86_fourier_fails",
    "Verif.Props.rounding_exists"
   ],
   "note": "staying inside proved for basis domains whose length is a power of two (polynomials, ELMs); proved false with doubles: the Fourier map on [0, 25] exceeds pi, the last collocation point on [0, 49] is larger than 49"
  },
  {
   "property": "C87",
   "status": "proved",
   "theorems": [
    "Verif.Props.C87_chebyshev",
    "Verif.Props.C87_derivatives",
    "Verif.Props.C87_python"
   ],
   "note": "rounding to nearest without overflow or underflow, pow correctly rounded, no fused multiply-add; constants 17 (order 0) and 25 + 26 d; needs (8 + 14 d) u m\u00b2 \u2264 1"
  },
  {
   "property": "C88",
   "status": "proved",
   "theorems": [
    "Verif.Props.C88_legendre",
    "Verif.Props.C88_python",
    "Verif.Props.legP_le"
   ],
   "note": "rounding to nearest without overflow or underflow, pow correctly rounded, no fused multiply-add; constant 39 + 42 d; needs (24 + 32 d) u m\u00b2 \u2264 1"
  },
  {
   "property": "C89",
   "status": "proved",
   "theorems": [
    "Verif.Props.C89_same",
    "Verif.Props.C89_digits"
   ],
   "note": "the same pow is assumed for both backends, and no fused multiply-add; uses nothing about the arithmetic but 2 * 1 = 2"
  },
  {
   "property": "C90",
   "status": "proved",
   "theorems": [
    "Verif.Props.C90_chebyshev",
    "Verif.Props.C90_legendre"
   ],
   "note": "the orders are given for every variable (the Python class raises otherwise: C23_short_py_fails); the same pow is assumed for both backends, and no fused multiply-add"
  },
  {
   "property": "C91",
   "status": "proved",
   "theorems": [
    "Verif.Props.C91_chebyshev",
    "Verif.Props.C91_legendre"
   ],
   "note": "rounding to nearest without overflow or underflow, pow correctly rounded, no fused multiply-add; C = 25 + 26 D or 39 + 42 D for orders up to D; needs (C m\u00b2 + dim) u \u2264 1"
  },
  {
   "property": "C92",
   "status": "proved",
   "theorems": [
    "Verif.Props.C92_same",
    "Verif.Props.C92_same_several",
    "Verif.Props.C92_fourier",
    "Verif.Props.C92_several",
    "Verif.Props.roundedLibm_accurate"
   ],
   "note": "relative to a bound \u03b5 of the absolute error of sin and cos and to \u03c0 being the nearest number (shown satisfiable); rounding to nearest without overflow or underflow, pow correctly rounded, no fused multiply-add; needs (7 d + 9) u \u2264 1 and m \u2264 2^p; in several variables needs the sum of the relative errors to be at most 1"
  },
  {
   "property": "C93",
   "status": "proved",
   "theorems": [
    "Verif.Props.C93_ode",
    "Verif.Props.C93_two_points",
    "Verif.Props.C93_initial",
    "Verif.Props.C93_convection",
    "Verif.Props.C93_bvp",
    "Verif.Props.C93_cubic",
    "Verif.Props.C93_one_point",
    "Verif.Props.C93_fails"
   ],
   "note": "rounding to nearest without overflow or underflow; the product of a row of H with the coefficients is any function of the point; C93_bvp: if the last collocation point is not the rounded pi, the difference of the free function at the two is added; C93_one_point: the expression h + v - h(-1) adds first, its error is bounded by the size of that sum; derivatives computed by egrad are not treated"
  },
  {
   "property": "C94",
   "status": "proved",
   "theorems": [
    "Verif.Props.C94_mapped",
    "Verif.Props.C94_hermite",
    "Verif.Props.C94_laguerre"
   ],
   "note": "rounding to nearest without overflow or underflow, pow correctly rounded, no fused multiply-add; for the Hermite and Laguerre classes the points are floating point numbers"
  },
  {
   "property": "C95",
   "status": "partial",
   "theorems": [
    "Verif.Props.C95_float64_uni",
    "Verif.Props.C95_float64_multi",
    "Verif.Props.C95_float64_nelm",
    "Verif.Props.C95_describes_uni",
    "Verif.Props.C95_describes_multi",
    "Verif.Props.C95_four_bytes_fails",
    "Verif.Props.C95_int64_seen",
    "Verif.Props.C95_int64_fails",
    "Verif.Props.C95_short_fails",
    "Verif.Props.C95_lengths_fails"
   ],
   "note": "proved for points of type float64 (several variables: of equal lengths). False otherwise, proved: with float32 or int32 points every compiled call reads beyond the array of points; with int64 points it uses the bits of the integers as floating point numbers; coordinates of different lengths are read beyond their end or silently mixed, where the eager method raises. mtfc itself makes float32 points when x0 is a float32 array (mtfc.py 156, 330)"
  },
  {
   "property": "C96",
   "status": "partial",
   "theorems": [
    "Verif.Props.C96_poisson",
    "Verif.Props.C96_poisson_program",
    "Verif.Props.C96_biharmonic",
    "Verif.Props.C96_biharmonic_program",
    "Verif.Props.C96_pde",
    "Verif.Props.C96_pde_program",
    "Verif.Props.C96_annulus",
    "Verif.Props.C96_annulus_program",
    "Verif.Props.C96_polar",
    "Verif.Props.C96_polar_program",
    "Verif.Props.C96_polar_unique",
    "Verif.Props.C96_burgers",
    "Verif.Props.C96_burgers_program",
    "Verif.Props.C96_wave",
    "Verif.Props.C96_wave_program",
    "Verif.Props.C96_wave2",
    "Verif.Props.C96_wave2_unique",
    "Verif.Props.C96_wave2_program",
    "Verif.Props.C96_two_segments",
    "Verif.Props.C96_convection",
    "Verif.Props.C96_bvp",
    "Verif.Props.C96_lane",
    "Verif.Props.C96_oscillator_partial",
    "Verif.Props.C96_oscillator_fails",
    "Verif.Props.C96_navier_stokes_fails"
   ],
   "note": "constants: Poisson R/8, biharmonic R/64, test_PDE R/2, annulus 3R, polar biharmonic 285 pi^2 R, Burgers R t exp(c^2 t/(2 nu)), wave R t^2/2, convection R/|Pe|, oscillator R x/|w|, boundary value problem and Lane-Emden with a bound on the candidate; the wave equation in two dimensions in the mean square only; the two-segment problem with bounds on the candidate; false for the oscillator with y0 < 0, where the reference is not the solution, and empty for Navier-Stokes, where the residual of every candidate is at least the pressure gradient at the edges of the start"
  },
  {
   "property": "C97",
   "status": "partial",
   "theorems": [
    "Verif.Props.C97_small_residual",
    "Verif.Props.C97_small_residual_class",
    "Verif.Props.C97_two_residuals",
    "Verif.Props.C97_large_residual_fails",
    "Verif.Props.C97_far_fails"
   ],
   "note": "exact arithmetic, library routines by their contracts as in C37. Proved when the part of the Hessian that the method leaves out is less than the part it keeps (the error falls geometrically with every factor above their ratio). False otherwise, proved: for (x + 1, -2 x^2 + x - 1), whose sum of squares has its only minimum at 0, every start but 0 is driven away; and far from a solution: from 0 the search for the square root of 2 stays at 0"
  },
  {
   "property": "C98",
   "status": "proved",
   "theorems": [
    "Verif.Props.C98_program",
    "Verif.Props.C98_points",
    "Verif.Props.C98_test"
   ],
   "note": "exact arithmetic, linear algebra by the contracts of pinv and lstsq; the error bound contains a bound of y and of the derivative of its residual, which exist for every result and can be computed from the coefficients"
  },
  {
   "property": "C99",
   "status": "proved",
   "theorems": [
    "Verif.Props.C99_program",
    "Verif.Props.C99_points",
    "Verif.Props.C99_test"
   ],
   "note": "exact arithmetic, linear algebra by the contracts of pinv and lstsq; the error bound contains bounds of the derivatives of the residual, which exist for every result and can be computed from the coefficients"
  }
 ]
}