{"id": "C01", "title": "Trapezoidal constraint and trapezoidal interpolant describe the same trajectory", "statement": "If two consecutive samples (x,u), (x_n,u_n) make the 'trapz' constraint zero for dynamics F, then the polynomial that interpolation with scheme 'trapz' draws on that interval starts at x with slope F(x,u), ends exactly at x_n with slope F(x_n,u_n), so the plotted trajectory is continuous and satisfies the dynamics at both ends; conversely if the drawn curve reaches x_n the constraint is zero.", "quantifier": "every dynamics function, every pair of samples, every state dimension, every non-zero step length", "why_tests_cant": "A test fixes F, dimension and numbers; the statement ranges over all dynamics functions and real samples.", "anchors": ["chords/piecewise.py: trapz_restr, trapz_opti_step, generate_tz_interp, interpolated_array"]}
{"id": "C02", "title": "Hermite-Simpson constraint and cubic interpolant describe the same trajectory", "statement": "If two consecutive samples with midpoint slope f_c make the 'hs' constraint zero, then the cubic drawn for scheme 'hs' starts at x, ends at x_n, has slopes f, f_c, f_n at the start, midpoint and end, and its midpoint value is the one used by the scheme to evaluate f_c.", "quantifier": "every dynamics function, samples, state dimension, non-zero step", "why_tests_cant": "The identity must hold for all real samples and all F; numeric tests cover finitely many and up to tolerance.", "anchors": ["chords/piecewise.py: hs_restr, hs_opti_step, hs_half_x, hs_midpoint, generate_hs_interp"]}
{"id": "C03", "title": "Second-order trapezoidal scheme: q, v and a of the interpolant are mutually consistent", "statement": "For scheme 'trapz_mod', when the constraint between two samples is zero, the drawn q is a polynomial whose first derivative is the drawn v and second derivative is linear from a to a_n, and both q and v arrive exactly at the next sample.", "quantifier": "every acceleration function, samples, dimension, non-zero step", "why_tests_cant": "Universally quantified over real inputs and over the acceleration function.", "anchors": ["chords/piecewise.py: trapz_mod_restr, trapz_mod_opti_step, trapz_mod_accel_restr, generate_tz_interp"]}
{"id": "C04", "title": "Second-order Hermite-Simpson scheme: q, v and a of the interpolant are mutually consistent", "statement": "For scheme 'hs_mod', when the constraint is zero, the drawn q is a quartic with derivative equal to the drawn v, second derivative passing through a, a_c, a_n at 0, h/2, h, and q and v arrive exactly at the next sample; the scheme's midpoint state is the drawn curve at h/2.", "quantifier": "every acceleration function, samples, dimension, non-zero step", "why_tests_cant": "Universally quantified over real inputs and over the acceleration function.", "anchors": ["chords/piecewise.py: hs_mod_restr, hs_mod_half_x, hs_mod_accel_restr, hs_mod_midpoint, generate_hs_interp"]}
{"id": "C05", "title": "Jacobi-node Hermite-Simpson ('hsj') interpolant is consistent with its constraint", "statement": "For scheme 'hsj' with the interior collocation point at 2h/5, a zero constraint implies that the drawn q and v arrive at the next sample, q'=v, q'' takes the values a, a_c, a_n at 0, 2h/5, h, and the state used at the interior point is the drawn curve at 2h/5.", "quantifier": "every acceleration function, samples, dimension, non-zero step", "why_tests_cant": "Universally quantified over real inputs and over the acceleration function.", "anchors": ["chords/piecewise.py: hsj_restr, hsj_half_x, hsj_accel_restr, hsj_midpoint, hsj_interp, hsj_dot_interp, hsj_dot_dot_interp"]}
{"id": "C06", "title": "Order-M trapezoidal scheme reaches the next sample with every derivative", "statement": "For every differential order M, zero 'trapz_n' constraints imply that the drawn component p and its derivatives up to order M-p end exactly at the next sample's components, and conversely.", "quantifier": "every order M>=1, every samples/accelerations, non-zero step", "why_tests_cant": "Ranges over all orders M; a test can only try a few orders.", "anchors": ["chords/piecewise.py: generate_trapz_m_func, generate_tz_interp"]}
{"id": "C07", "title": "Order-M Hermite-Simpson scheme reaches the next sample and its midpoint state is on the curve", "statement": "For every order M, zero 'hsn' constraints imply that the drawn curve reaches all components of the next sample at h, that its M-th derivative is a, a_c, a_n at 0, h/2, h, and that the midpoint state used to evaluate a_c is the drawn curve at h/2.", "quantifier": "every order M>=1, every samples/accelerations, non-zero step", "why_tests_cant": "Ranges over all orders M with rational coefficient tables depending on M.", "anchors": ["chords/piecewise.py: generate_hs_m_funcs, generate_hs_interp"]}
{"id": "C08", "title": "Order-generic schemes specialise to the hand-written ones", "statement": "'trapz_n' with M=1 and M=2 gives the same constraints as 'trapz' and 'trapz_mod'; 'hsn' with M=1 and M=2 gives constraints with the same solutions as 'hs' and 'hs_mod'.", "quantifier": "all samples, dynamics and step lengths", "why_tests_cant": "Equality of functions over all real inputs.", "anchors": ["chords/piecewise.py: generate_trapz_m_func, generate_hs_m_funcs, trapz_restr, trapz_mod_restr, hs_restr, hs_mod_restr"]}
{"id": "C09", "title": "Requested derivative of an interpolation is the derivative of the interpolation", "statement": "For every piecewise scheme, the curve returned for derivative k is the k-th derivative in time of the curve returned for derivative 0 on each interval.", "quantifier": "all samples, all schemes, all times inside an interval, every k", "why_tests_cant": "Derivative identities hold at uncountably many times.", "anchors": ["chords/piecewise.py: generate_tz_interp, generate_hs_interp, hsj_interp, hsj_dot_interp, hsj_dot_dot_interp, interpolated_array, interpolated_array_derivative"]}
{"id": "C10", "title": "Step form, residual form and acceleration form of a scheme have the same solutions", "statement": "For each piecewise scheme the residual used by the optimiser, the explicit/implicit step form and the acceleration form (with the accelerations supplied as variables) are zero on exactly the same samples.", "quantifier": "all samples, dynamics, dimensions, step lengths", "why_tests_cant": "Equivalence of equation systems over all real inputs.", "anchors": ["chords/piecewise.py: *_step, *_restr, *_accel_restr"]}
{"id": "C11", "title": "Explicit integration returns a trajectory that satisfies the scheme at every step", "statement": "integrate_euler / integrate_rk4 given an initial state and N controls return N+1 states, the first is the given one, and every consecutive pair satisfies the scheme's own step relation with the corresponding controls.", "quantifier": "all N>=2, all initial states, controls, dynamics", "why_tests_cant": "Induction over the number of steps for arbitrary dynamics.", "anchors": ["chords/piecewise.py: integrate_euler, integrate_rk4, euler_step, rk4_step, coherent_dimensions"]}
{"id": "C12", "title": "Integration accepts a single step with several controls", "statement": "integrate_* works for every positive number of steps and every number of controls, including one step with several simultaneous controls.", "quantifier": "all shapes (N, n_u)", "why_tests_cant": "Shape space is infinite; the failing corner is easy to miss.", "anchors": ["chords/piecewise.py: vec_len, coherent_dimensions, integrate_*"]}
{"id": "C13", "title": "expand_F followed by reduce_F gives back the function", "statement": "Turning an acceleration function into a state-derivative function and reducing it again gives the original acceleration function; expanding lists the lower derivatives first and the acceleration last, for every order the argument order allows.", "quantifier": "all functions, states and orders", "why_tests_cant": "Function equality over arbitrary user functions.", "anchors": ["chords/piecewise.py: expand_F, reduce_F, expand_G, index_div"]}
{"id": "C14", "title": "Interval lookup returns the right polynomial piece for every time", "statement": "For time t and step h, interpolation evaluates the piece [n h,(n+1) h) that contains t with local time t - n h; sample times return the sample itself; times beyond the last sample raise; times before the start are rejected.", "quantifier": "all times t and step lengths, all array lengths", "why_tests_cant": "Real-valued t; boundary cases are measure zero.", "anchors": ["chords/piecewise.py: _newpoint, _newpoint_u, _newpoint_der, _prepare_interp"]}
{"id": "C15", "title": "Interpolating twice with the same parameter dictionary gives results that depend only on the arguments", "statement": "A call to interpolated_array or its derivative version returns the same values whether or not the same scheme_params dictionary was used in earlier calls with other trajectories.", "quantifier": "all call histories", "why_tests_cant": "Depends on the whole history of calls sharing a mutable dictionary.", "anchors": ["chords/piecewise.py: _calculate_missing_arrays, interpolated_array, interpolated_array_derivative"]}
{"id": "C16", "title": "Control interpolation passes through the samples and stays between them", "statement": "Linear control interpolation equals the sample at each sample time and otherwise lies between neighbouring samples; parabolic interpolation reproduces every quadratic exactly and equals the three data at 0, h/2 (or 2h/5) and h.", "quantifier": "all control samples and times", "why_tests_cant": "Real-valued statement over all times.", "anchors": ["chords/piecewise.py: interp_parab, interp_parab_j, _newpoint_u, interpolate_u"]}
{"id": "C17", "title": "Exact integral of a squared parabola", "statement": "exact_cuadratic_squared_integration returns, on each interval of length h, the exact integral of the square of the parabola through the start, midpoint and end values; hence it is non-negative for h>=0 and zero only for the zero parabola.", "quantifier": "all real start/mid/end values and step lengths", "why_tests_cant": "Equality with an integral over all reals.", "anchors": ["chords/opti.py: exact_cuadratic_squared_integration"]}
{"id": "C18", "title": "Equispaced running cost is the composite rule divided by total time correctly", "statement": "On an equispaced problem, the cost added by quad_cost and u_sq_cost for an array of N+1 samples is the composite quadrature (trapezoid without midpoints, Simpson with midpoints) of the samples over the horizon; in particular a constant integrand c gives c times the horizon.", "quantifier": "all N and arrays", "why_tests_cant": "All array lengths and values; factor errors cancel in argmin so ordinary solution tests do not reveal them.", "anchors": ["chords/opti.py: _Equispaced.quad_cost, _Equispaced.u_sq_cost, _Equispaced.sq_cost"]}
{"id": "C19", "title": "hsj cost weights integrate every quadratic exactly and the extra midpoint lies on the parabola", "statement": "The control cost of the Jacobi-node parabolic schemes integrates exactly every integrand that is quadratic on each interval, from its values at 0, 2h/5 and h; the relation added for 'hsj_parab_mod' holds exactly when the four stored values of each interval (start, 2h/5, h/2, end) lie on one parabola.", "quantifier": "all grids, horizons, numbers of controls, integrands and stored values", "why_tests_cant": "Quadrature exactness is a statement about all quadratics and all grids.", "anchors": ["chords/opti.py: _Equispaced.u_sq_cost"]}
{"id": "C20", "title": "Time scaling between tau and t is a bijection respecting end points and order", "statement": "tau_to_t_points and t_to_tau_points are mutually inverse for tf != t0, map -1 and 1 to t0 and tf, and preserve strict order when t0 < tf; tau_to_t_function(f) evaluated at the image of tau equals f(tau).", "quantifier": "all reals tau, t0, tf", "why_tests_cant": "Holds for all reals.", "anchors": ["chords/pseudospectral.py: tau_to_t_points, t_to_tau_points, tau_to_t_function"]}
{"id": "C21", "title": "Node and collocation lists of each scheme are aligned", "statement": "For every implemented pseudospectral scheme and number of collocation points, selecting the collocation indices from the node list gives exactly the collocation points, the node count is n_col_to_n_nodes, and selecting from the full list (nodes plus missing end points) with get_coll_indices gives them too.", "quantifier": "all schemes, all point counts, any underlying root lists of the right lengths", "why_tests_cant": "All sizes and all schemes, independent of numeric root values.", "anchors": ["chords/pseudospectral.py: coll_points, node_points, n_col_to_n_nodes, get_coll_indices, get_coll_indices_from_nodes", "chords/opti.py: _Pseudospectral.opti_setup"]}
{"id": "C22", "title": "Chebyshev point generators return strictly increasing points in [-1,1] with the promised end points", "statement": "CG(N) lies strictly inside (-1,1) and is antisymmetric, CGL(N) starts at -1 and ends at 1 for N>=2, CGR(N) starts at -1 and stays below 1; all are strictly increasing and of length N.", "quantifier": "all N", "why_tests_cant": "All N; trigonometric facts.", "anchors": ["chords/pseudospectral.py: CG, CGL, CGR"]}
{"id": "C23", "title": "Barycentric interpolation is exact", "statement": "bary_poly / bary_poly_2d built on distinct nodes returns the data at the nodes and, elsewhere, the value of the unique interpolating polynomial of degree < number of nodes; hence it reproduces every such polynomial everywhere.", "quantifier": "all node sets with distinct nodes, all data, all evaluation points", "why_tests_cant": "Ranges over all polynomials and reals.", "anchors": ["chords/pseudospectral.py: _v_sum, v_coef, bary_poly, bary_poly_2d"]}
{"id": "C24", "title": "Differentiation matrix is exact and annihilates constants", "statement": "matrix_D_bary applied to samples of any polynomial of degree < number of nodes gives samples of its derivative; powers of the matrix give higher derivatives; every row sums to zero.", "quantifier": "all distinct node sets, all polynomials of bounded degree, all powers", "why_tests_cant": "Quantifies over polynomials of arbitrary degree and matrix powers.", "anchors": ["chords/pseudospectral.py: matrix_D_bary", "chords/bu_pseudospectral.py: _matrix_D_bary", "chords/td_pseudospectral.py: matrix_D_nu"]}
{"id": "C25", "title": "Extrapolation to the interval ends equals the interpolating polynomial", "statement": "get_bary_extreme_f returns the value at tau=-1 or tau=1 of the polynomial that interpolates the given data, for every scheme and both when the end point is and is not a data point.", "quantifier": "all data vectors and node sets", "why_tests_cant": "All data.", "anchors": ["chords/pseudospectral.py: get_bary_extreme_f"]}
{"id": "C26", "title": "Gauss integration helpers are exact for the degrees they are used with", "statement": "With Gauss-Legendre nodes exact to degree 2N-1, gauss_integral is exact on [t0,t1] to degree 2N-1, and gauss_rep_integral returns the n-fold iterated integral of every polynomial of the declared degree.", "quantifier": "all polynomials of the declared degree, limits, iteration counts", "why_tests_cant": "Exactness over polynomial spaces of every degree.", "anchors": ["chords/util.py: gauss_integral, gauss_integral_2d, gauss_rep_integral"]}
{"id": "C27", "title": "Polynomial antiderivatives are antiderivatives", "statement": "poly_integral(f,n,t0,t1,y0) of a polynomial f of degree <= n is the polynomial with derivative f and value y0 at t0; Lag_integ_2d of order k is the k-fold antiderivative of the Lagrange basis vanishing with its lower antiderivatives at -1.", "quantifier": "all polynomials, limits, orders k", "why_tests_cant": "Exactness over polynomial spaces and all orders.", "anchors": ["chords/util.py: poly_integral, poly_integral_2d, Lag_integ_2d"]}
{"id": "C28", "title": "Quadrature weights integrate the interpolating polynomial", "statement": "get_weights(N,scheme) sum to 2 and integrate over [-1,1] every polynomial of degree < N from its values at the scheme's points.", "quantifier": "all N, distinct point sets, polynomials", "why_tests_cant": "Exactness over polynomial spaces of every dimension.", "anchors": ["chords/util.py: get_weights, Lag_pol_2d, Lag_pol_2d_x"]}
{"id": "C29", "title": "Bottom-up integration matrix reconstructs a polynomial trajectory", "statement": "Multiplying the integration matrix of derivative level P by [initial conditions; highest derivative at the collocation points] gives at every construction point the P-th derivative of the one polynomial having these initial conditions and whose highest derivative interpolates the collocation data.", "quantifier": "all orders, levels P, horizon lengths, distinct collocation sets, data", "why_tests_cant": "Ranges over all orders, sizes and data.", "anchors": ["chords/bu_pseudospectral.py: Integration_Matrix, Integration_Polynomial_Matrix, _Lag_integ, Extreme_Matrix"]}
{"id": "C30", "title": "Bottom-up problem: every feasible point is a polynomial trajectory satisfying the dynamics at the collocation points", "statement": "Any assignment satisfying the constraints added by apply_scheme for a BU scheme gives q, v, ... that are exact samples of one polynomial and its derivatives, whose highest derivative satisfies the dynamics at every collocation point.", "quantifier": "all feasible assignments, orders, sizes, dynamics", "why_tests_cant": "Quantifies over the whole feasible set.", "anchors": ["chords/opti.py: _BU_Pseudospectral.opti_setup, apply_scheme", "chords/bu_pseudospectral.py: Integration_Matrix"]}
{"id": "C31", "title": "Top-down problem: every feasible point is a polynomial trajectory satisfying the dynamics at the collocation points", "statement": "Any assignment satisfying the constraints of a TD scheme has derivative arrays that are exact samples, at the construction points, of the derivatives of the polynomial through the LGL parameters.", "quantifier": "all feasible assignments, orders, sizes, dynamics", "why_tests_cant": "Quantifies over the whole feasible set.", "anchors": ["chords/opti.py: _TD_Pseudospectral.apply_scheme", "chords/td_pseudospectral.py: matrix_L, matrix_D_nu, TD_construction_points"]}
{"id": "C32", "title": "Dynamics are imposed on the row whose time is the collocation time", "statement": "In every pseudospectral problem the state row, control row and time used by the i-th dynamics constraint refer to the same instant, the i-th collocation point.", "quantifier": "all schemes and sizes, all i", "why_tests_cant": "Off-by-one errors are scheme and size dependent.", "anchors": ["chords/opti.py: _Pseudospectral.apply_scheme, _BU_Pseudospectral.apply_scheme, _TD_Pseudospectral.apply_scheme"]}
{"id": "C33", "title": "Segmented (ph) problems: array rows are partitioned into knots and collocation blocks without gaps or overlap", "statement": "For every point structure, the rows of the big arrays are split into the start row, per-segment collocation rows and knot rows, each row used exactly once, in time order, and the last knot is the last row.", "quantifier": "all point structures (any number of segments and points)", "why_tests_cant": "All lists of positive integers.", "anchors": ["chords/opti.py: _multi_pseudospectral.opti_setup"]}
{"id": "C34", "title": "Segmented problems: accepted knot structures give positive segment lengths that add up to the horizon", "statement": "Whenever the structure check accepts the knots, every segment has strictly positive duration and durations add up to t_end - t_start.", "quantifier": "all knot arrays", "why_tests_cant": "All real arrays.", "anchors": ["chords/opti.py: _multi_pseudospectral._check_structure_consistency, opti_setup"]}
{"id": "C35", "title": "Segmented problems: quad_cost integrates what it is asked to integrate", "statement": "quad_cost(arr) on a segmented problem adds the quadrature of arr (and of its square only when asked).", "quantifier": "all arrays and flag values", "why_tests_cant": "Wrong argument binding is silent for any particular value such as 0 or 1.", "anchors": ["chords/opti.py: _multi_pseudospectral.quad_cost, _get_cost_obj_quad_int_cas"]}
{"id": "C36", "title": "Trapezoidal cost over a pseudospectral grid integrates constants exactly", "statement": "trapz_cost of a constant over the horizon is the constant times the horizon for every scheme.", "quantifier": "all schemes, sizes, constants", "why_tests_cant": "Needs all grids.", "anchors": ["chords/opti.py: _get_cost_obj_trap_int, _get_cost_obj_trap_int_cas"]}
{"id": "C37", "title": "Result cache returns what the function would return", "statement": "For every history of calls to deterministic cached functions with distinct names and picklable results, without crashes, every call returns the function's own value, across process restarts, and each distinct argument tuple is computed at most once.", "quantifier": "all call histories, all functions, all argument tuples, restarts between any two calls", "why_tests_cant": "Histories are unbounded.", "anchors": ["chords/numpy.py: store_results, get_default_args"]}
{"id": "C38", "title": "Positional, keyword and defaulted spellings of the same call share one cache entry", "statement": "Two calls that bind the same values to the same parameters hit the same entry, and calls binding different values never share one.", "quantifier": "all signatures and call spellings", "why_tests_cant": "All signatures.", "anchors": ["chords/numpy.py: store_results, get_default_args"]}
{"id": "C39", "title": "A crash while saving never makes later calls fail", "statement": "If the process is killed at any point of a cached call, later calls in a new process still return the right value.", "quantifier": "all crash points, all earlier histories", "why_tests_cant": "Crash points cannot be enumerated by tests.", "anchors": ["chords/numpy.py: store_results"]}
{"id": "C40", "title": "Functions with the same name do not share cached results", "statement": "Cached values of one function are never returned by another function, even if they have the same name.", "quantifier": "all pairs of functions and histories", "why_tests_cant": "Depends on which functions exist in other modules / runs.", "anchors": ["chords/numpy.py: store_results"]}
{"id": "C41", "title": "Concurrent cached calls return right values", "statement": "Two processes using the cache at the same time both return right values for every interleaving of their file operations.", "quantifier": "all interleavings", "why_tests_cant": "Interleavings are exponentially many and timing dependent.", "anchors": ["chords/numpy.py: store_results"]}
{"id": "C42", "title": "Mesh refinement keeps the horizon and old knots, and never reduces requested resolution", "statement": "calc_new_struct returns knots strictly increasing between the same end points, containing all the old interior knots, one more segment count than knots, each segment at most max_p points (when min_p <= max_p) and at least the requested total per old segment.", "quantifier": "all structures, increments and limits", "why_tests_cant": "All lists and limits.", "anchors": ["chords/adaptive.py: calc_new_struct"]}
{"id": "C43", "title": "Mesh refinement respects the minimum number of points", "statement": "Every segment returned by calc_new_struct has at least min_p points.", "quantifier": "all structures, increments and limits", "why_tests_cant": "All inputs including negative increments.", "anchors": ["chords/adaptive.py: calc_new_struct, add_points"]}
{"id": "C44", "title": "Adaptive refinement terminates with the promised outcome", "statement": "adaptive_refinement_system performs at most max_iter solves, every returned entry is a successful solve, all but the last have not converged, and no returned solve after the first exceeds max_coll_points.", "quantifier": "all problem behaviours (success, failure, error sizes)", "why_tests_cant": "Quantifies over all solver behaviours.", "anchors": ["chords/adaptive.py: adaptive_refinement_system"]}
{"id": "C45", "title": "Error analysis splits the error array by segment without loss", "statement": "The list of per-segment errors concatenates back to the whole error array and has per-segment lengths points+1.", "quantifier": "all point structures", "why_tests_cant": "All lists.", "anchors": ["chords/adaptive.py: calc_test_point_arr, analyze_res_err"]}
{"id": "C46", "title": "Segmented interpolation returns the requested number of samples, in time order, at the requested times", "statement": "For ph problems interpolation with n_interp samples assigns every global sample to exactly one segment and returns n_interp samples.", "quantifier": "all n_interp, knot positions", "why_tests_cant": "All real knot positions.", "anchors": ["chords/analysis.py: interpolation"]}
{"id": "C47", "title": "Constraint reduction solves the constrained equations of motion", "statement": "The reduced acceleration computed by the simplified Lagrange method, together with the dependent acceleration from the constraint, satisfies the constrained equations of motion for some multipliers, and the differentiated constraints.", "quantifier": "all masses, constraint Jacobians with invertible dependent block, forces", "why_tests_cant": "All matrices of all sizes.", "anchors": ["chords/symbolic.py: SimpLagrangesMethod.rhs, calculate_RHS_complete"]}
{"id": "C48", "title": "Reported multipliers balance the equations of motion", "statement": "lambda_vector returns the multipliers for which M q'' = Q + (constraint forces) holds.", "quantifier": "all matrices", "why_tests_cant": "All matrices; sign/transposition errors vanish in special cases.", "anchors": ["chords/symbolic.py: SimpLagrangesMethod.lambda_vector"]}
{"id": "C49", "title": "Reading derived quantities does not change other results", "statement": "The value of the rhs attribute of a simplified Lagrange object does not depend on which other attributes were read before.", "quantifier": "all access histories", "why_tests_cant": "History dependent.", "anchors": ["chords/symbolic.py: SimpLagrangesMethod.rhs, rhs_full, calculate_RHS_complete"]}
{"id": "C50", "title": "Coriolis matrix built from the mass matrix has the passivity property", "statement": "For every symmetric configuration-dependent mass matrix, dM/dt - 2C is skew-symmetric and C q' equals the quadratic velocity terms of the Euler-Lagrange equations.", "quantifier": "all sizes, all mass matrices, all velocities", "why_tests_cant": "All mass matrices.", "anchors": ["chords/symbolic.py: _C_from_M"]}
{"id": "C51", "title": "Renaming derivatives to plain symbols never merges different quantities", "statement": "diff_to_symb gives different symbols to different quantities and never fails.", "quantifier": "all symbol names and derivative orders", "why_tests_cant": "All strings.", "anchors": ["chords/symbolic.py: diff_to_symb, derivative_level, deriv_base"]}
{"id": "C52", "title": "Standard notation is idempotent and never merges different quantities", "statement": "standard_notation applied twice equals applied once, and different symbols stay different.", "quantifier": "all symbol names", "why_tests_cant": "All strings.", "anchors": ["chords/symbolic.py: standard_notation"]}
{"id": "C53", "title": "Argument discovery partitions the symbols of an expression", "statement": "find_arguments puts every free symbol in exactly one of the groups, keeps groups in numeric index order, and its result does not depend on set iteration order.", "quantifier": "all expressions and iteration orders", "why_tests_cant": "All symbol sets.", "anchors": ["chords/symbolic.py: find_arguments"]}
{"id": "C54", "title": "Joint torques of a robot act between neighbouring links", "statement": "In the model built from a serial robot, the torques applied to all the bodies add up to the torque of the base joint only, and the generalized force of each joint coordinate is the torque of that joint.", "quantifier": "all numbers of links, link parameters, joint angles, rates and torques", "why_tests_cant": "All link counts, geometries and postures.", "anchors": ["chords/robots.py: robot_to_sympy, matrix_to_6_vect"]}
{"id": "C55", "title": "Numeric derivative helper is consistent at every sample", "statement": "num_derivative of samples of a straight line returns its slope at every sample, first and last included, and central differences are exact for parabolas inside.", "quantifier": "all arrays with at least two samples", "why_tests_cant": "All arrays.", "anchors": ["chords/numpy.py: num_derivative"]}
{"id": "C56", "title": "Cumulative trapezoidal integration is a running total", "statement": "trapz_integrate starts at 0, increments by the area of each trapezoid, is linear in the data, exact for piecewise linear data and monotone for non-negative data on increasing times.", "quantifier": "all arrays and time grids", "why_tests_cant": "All arrays.", "anchors": ["chords/numpy.py: trapz_integrate", "chords/analysis.py: total_state_error"]}
{"id": "C57", "title": "Segment plotting draws every sample exactly once", "statement": "plot_by_segments draws each sample of the trajectory in exactly one segment.", "quantifier": "all sample arrays, N and end times", "why_tests_cant": "All real arrays.", "anchors": ["chords/util.py: plot_by_segments"]}
{"id": "C58", "title": "Figure file names depend on the set of schemes, not on their order, and the argument list is unchanged", "statement": "gen_fig_filename gives the same name for permuted scheme lists and does not modify the caller's list. For the same problem, graph, addition and format, and schemes without hyphens, figures with different numbers of points, coordinates or schemes get different names, so that none replaces another. (Different additions or graph names can clash: an addition is written as one more scheme.)", "quantifier": "all lists of schemes, names, formats, numbers of points and of coordinates from zero on, or none", "why_tests_cant": "All permutations, and all pairs of figures.", "anchors": ["chords/util.py: gen_fig_filename"]}
{"id": "C59", "title": "Names of state derivatives are distinct and stable with the order", "statement": "get_q_and_ders_names(order) gives order+1 different names, and a higher order only appends names.", "quantifier": "all orders", "why_tests_cant": "All naturals.", "anchors": ["chords/opti.py: get_q_and_ders_names"]}
{"id": "C60", "title": "Every scheme accepted by the problem factory can be applied, and every unusable argument is rejected", "statement": "If Opti_Problem accepts a scheme name and dynamics object then apply_scheme does not fail because of the scheme name; invalid arguments raise.", "quantifier": "all scheme names and argument kinds", "why_tests_cant": "All strings.", "anchors": ["chords/opti.py: Opti_Problem, _Opti_Problem.__init__, _Equispaced.apply_scheme, _multi_pseudospectral.apply_scheme"]}
{"id": "C61", "title": "Calling set-up methods out of order raises the documented error and leaves the problem usable", "statement": "Any sequence of method calls out of the documented order raises RuntimeError and a failed call does not change later behaviour.", "quantifier": "all call sequences", "why_tests_cant": "All call histories.", "anchors": ["chords/opti.py: _Pseudospectral.opti_setup, _Equispaced.opti_setup, apply_scheme, u_sq_cost"]}
{"id": "C62", "title": "Dynamics residuals vanish exactly when the dynamics hold", "statement": "For every way of supplying dynamics as a function, the residual functions built are zero exactly at (x, x', u) that satisfy the user's dynamics including consistency between q' and v.", "quantifier": "all functions and samples", "why_tests_cant": "All functions.", "anchors": ["chords/opti.py: _Function_Dynamics.dynamic_setup", "chords/piecewise.py: expand_F, reduce_F, expand_G"]}
{"id": "C63", "title": "Linear initial guess is a straight line with matching velocity", "statement": "The linear initial guess interpolates between q_s and q_e at the grid times, with constant velocity equal to its slope.", "quantifier": "all grids, end values", "why_tests_cant": "All grids.", "anchors": ["chords/opti.py: _Lin_init.initial_guess"]}
{"id": "C64", "title": "Dynamic error is zero at collocation points of feasible trajectories", "statement": "For a feasible trajectory, the reported dynamic error is zero at the collocation instants, and lower-level compatibility errors vanish identically for schemes whose q' = v everywhere.", "quantifier": "all feasible trajectories", "why_tests_cant": "All trajectories.", "anchors": ["chords/analysis.py: dynamic_error", "chords/piecewise.py: interpolated_array"]}
{"id": "C65", "title": "End-extended state arrays put the extra sample at its own time", "statement": "extend_x_arrays adds the missing end value at the end of the array that corresponds to its time.", "quantifier": "all schemes, arrays", "why_tests_cant": "All arrays.", "anchors": ["chords/pseudospectral.py: extend_x_arrays"]}
{"id": "C66", "title": "Derivative of linear interpolation of pseudospectral results is in time units", "statement": "The 'lin' derivative of interpolated results equals the slope in time of the 'lin' interpolation.", "quantifier": "all horizons", "why_tests_cant": "Silent when the horizon happens to be 2.", "anchors": ["chords/pseudospectral.py: interpolations_deriv_pseudospectral"]}
{"id": "C67", "title": "Pseudospectral running costs are integrals over time", "statement": "On a pseudospectral problem, quad_cost (and u_sq_cost for the square of the control) of samples of a polynomial integrand that the scheme's quadrature integrates exactly is the integral of that integrand over the horizon, so costs can be compared with those of equispaced problems.", "quantifier": "all pseudospectral schemes, horizons, point numbers and integrands", "why_tests_cant": "The scaling must hold for every horizon and integrand; a test of minimisers cannot see a constant factor.", "anchors": ["chords/opti.py: _Pseudospectral.quad_cost, _get_cost_obj_quad_int_cas", "chords/util.py: get_weights"]}
{"id": "C68", "title": "Squared cost works without midpoints", "statement": "sq_cost(arr) on an equispaced problem, without midpoint values, returns a cost for every number of columns.", "quantifier": "all grids and array widths", "why_tests_cant": "Needs all widths and grids.", "anchors": ["chords/opti.py: _Equispaced.sq_cost"]}
{"id": "C69", "title": "Accepted segment structures have at least one collocation point in every segment", "statement": "Whenever opti_setup of a segmented problem accepts a point structure, it is a list of positive integers, one per segment.", "quantifier": "all knots and point structures", "why_tests_cant": "Ranges over all structures.", "anchors": ["chords/opti.py: _multi_pseudospectral._check_structure_consistency"]}
{"id": "C70", "title": "End controls offered by a problem extrapolate the control polynomial", "statement": "On a node based pseudospectral problem the points u_s and u_e are the values at the ends of the horizon of the polynomial through the controls at the collocation times, for every scheme and problem order.", "quantifier": "every implemented pseudospectral scheme, number of collocation points, problem order and control array", "why_tests_cant": "The tests use second order problems, where the two point families that should agree coincide; the claim ranges over all orders, point counts and control values.", "anchors": ["chords/opti.py:_Pseudospectral.opti_setup", "chords/pseudospectral.py:get_bary_extreme_f"]}
{"id": "C71", "title": "Squared control cost of bottom-up and top-down problems uses weights that fit its points", "statement": "For every bottom-up or top-down problem of any order, the squared control cost computed from the controls equals the exact time integral of the squared control whenever the squared control is a polynomial the quadrature of its collocation points can integrate.", "quantifier": "all schemes, numbers of collocation points, orders, start and end times, control arrays", "why_tests_cant": "The weights are computed for the default order 2 while the points depend on the order; a test with order 2 never sees the difference, and every order and number of points would have to be tried.", "anchors": ["chords/opti.py: _BU_Pseudospectral.u_sq_cost, _TD_Pseudospectral.u_sq_cost", "chords/util.py: get_weights"]}
{"id": "C72", "title": "The x_d array of a feasible point is the derivative of the x array", "statement": "In every feasible point of a bottom-up or top-down problem, every column of x_d is the time derivative of the same column of x at every row.", "quantifier": "all feasible assignments, schemes, orders, sizes, dynamics", "why_tests_cant": "Solvers start from consistent guesses, so a run seldom shows a variable no constraint touches; only the whole feasible set shows it.", "anchors": ["chords/opti.py: _BU_Pseudospectral.apply_scheme, _TD_Pseudospectral.apply_scheme"]}
{"id": "C73", "title": "Node based problem: every feasible point is a polynomial trajectory satisfying the dynamics at the collocation points", "statement": "An assignment satisfies the constraints of a node based pseudospectral problem exactly if every column of x is sampled, at all rows, from a polynomial of degree below the number of nodes, x_d holds its derivative at the nodes (the highest derivative at every row) and the dynamics hold at every collocation point; with the second order schemes q, v and a are samples of one polynomial and its first two derivatives.", "quantifier": "all schemes, sizes, orders, horizons, dynamics and assignments", "why_tests_cant": "Quantifies over the whole feasible set in both directions.", "anchors": ["chords/opti.py: _Pseudospectral.opti_setup, _Pseudospectral.apply_scheme", "chords/pseudospectral.py: matrix_D_bary, get_bary_extreme_f_cas"]}
{"id": "C74", "title": "In a second order problem the velocity array is the derivative of the configuration array", "statement": "In every feasible point of a second order pseudospectral problem the v array is, at every row, the time derivative of the polynomial the q array is sampled from.", "quantifier": "all schemes, sizes, dynamics, feasible assignments", "why_tests_cant": "The two agree at the collocation points in every solution; only the feasible set as a whole shows whether they must agree elsewhere.", "anchors": ["chords/opti.py: _Pseudospectral.apply_scheme, _BU_Pseudospectral.apply_scheme, _TD_Pseudospectral.apply_scheme"]}
{"id": "C75", "title": "Implicit integration returns a trajectory of the scheme", "statement": "integrate_trapz, integrate_trapz_mod, integrate_hs, integrate_hs_mod, integrate_hsj and the versions with middle controls return one state more than there are controls, starting at the given one, and every consecutive pair of states makes the residual of the scheme (the one that the optimisation imposes) vanish with the corresponding controls; if a step cannot be solved the user learns about it.", "quantifier": "all dynamics, initial states, control arrays, step lengths and solver behaviours", "why_tests_cant": "Depends on every outcome of the nonlinear solver, including failures that tests do not provoke, and is an induction over the number of steps.", "anchors": ["chords/piecewise.py: integrate_trapz, integrate_trapz_mod, integrate_hs, integrate_hs_mod, integrate_hsj, integrate_hs_parab, integrate_hs_mod_parab, integrate_hsj_parab, trapz_step, hs_step, hsj_step, coherent_dimensions"]}
{"id": "C76", "title": "Raising the order of an implicit dynamics function keeps its solutions", "statement": "increase_order_implicit_func with state_mode 'x' returns a function with one entry for each entry of the new state; it vanishes exactly when the given function vanishes on the lower blocks and each added block is the derivative of the block before it.", "quantifier": "all functions, orders, numbers of coordinates, states and derivatives", "why_tests_cant": "Equivalence of solution sets for arbitrary user functions and arbitrary orders.", "anchors": ["chords/piecewise.py: increase_order_implicit_func, get_x_divisions"]}
{"id": "C77", "title": "Raising the order works for functions of the coordinates", "statement": "increase_order_implicit_func with state_mode 'q' returns a function of the coordinates and their derivatives up to the new order which equals the given one on the first arguments.", "quantifier": "all functions and orders", "why_tests_cant": "Ranges over all functions and orders.", "anchors": ["chords/piecewise.py: increase_order_implicit_func"]}
{"id": "C78", "title": "The two residual functions of a problem given as a function describe the same dynamics", "statement": "When a problem is built from a dynamics function of kind f_x, g_q, f_x_impl or g_q_impl, the residual in terms of the state and its derivative vanishes exactly when the state is a chain of derivatives and the residual in terms of the coordinates vanishes, for every differential order.", "quantifier": "all dynamics functions, orders, numbers of coordinates and states", "why_tests_cant": "Equivalence of two families of equations for arbitrary functions, dimensions and orders.", "anchors": ["chords/opti.py: _Function_Dynamics.dynamic_setup", "chords/piecewise.py: expand_G, reduce_F"]}
{"id": "C79", "title": "The interpolated derivative is the derivative of the interpolated trajectory", "statement": "Inside every step, interpolated_array_derivative of order k returns, for each coordinate, the k-th time derivative of the curve that interpolated_array returns values of; at the samples the first derivative is the given X_dot (the curve passes through it).", "quantifier": "all supported schemes, trajectories, step lengths, orders, times inside a step", "why_tests_cant": "Analytic statement about two functions at every real time.", "anchors": ["chords/piecewise.py: interpolated_array, interpolated_array_derivative, _newpoint, _newpoint_der"]}
{"id": "C80", "title": "A trajectory of plain numbers and the same trajectory as a one-column array interpolate alike", "statement": "For a system with one state variable, interpolated_array and interpolated_array_derivative return the same values whether X is given as a series of numbers or as an array with one column.", "quantifier": "all series, schemes and times", "why_tests_cant": "Ranges over all real series and times.", "anchors": ["chords/piecewise.py: interpolated_array, generate_tz_interp, generate_hs_interp"]}
{"id": "C81", "title": "The interpolation of a solution obeys the dynamics at the inner collocation points", "statement": "If X and U satisfy the collocation constraints of the scheme for the dynamics F, then at the inner collocation time of every step (h/2, or 2h/5 for hsj) the interpolated derivative equals F of the interpolated state and control.", "quantifier": "all dynamics functions, solutions, step lengths, numbers of samples and coordinates", "why_tests_cant": "Relates two modules for arbitrary nonlinear dynamics at inner times; needs an exact solution of the constraints.", "anchors": ["chords/piecewise.py: interpolated_array, interpolated_array_derivative, hs_restr, hs_mod_restr, hsj_restr, hs_mod_M_restr"]}
{"id": "C82", "title": "Total dynamic error is zero only for a perfect trajectory", "statement": "total_state_error integrates the absolute error of every coordinate: each total is non-negative, and zero exactly when all the sampled errors of that coordinate are zero.", "quantifier": "all increasing time grids with at least two samples, all error tables", "why_tests_cant": "ranges over all grids and error tables; sign cancellations only appear for special data", "anchors": ["chords/analysis.py: total_state_error"]}
{"id": "C83", "title": "A trajectory drawn by segments gets one legend entry", "statement": "plot_by_segments passes the label to exactly one of the segments it draws.", "quantifier": "all sample arrays, segment counts and end times", "why_tests_cant": "depends on where the first sample lies relative to the segments", "anchors": ["chords/util.py: plot_by_segments"]}
{"id": "C84", "title": "Generated numpy functions evaluate a series row by row", "statement": "The function returned by Sym2Fx or RHS2numpy, called with a table of samples, returns a table whose row k equals the values of the expressions at sample k; called with one sample it returns their values.", "quantifier": "all expressions, numbers of samples, columns and parameters", "why_tests_cant": "broadcasting depends on the shape of every argument and the variables of each component", "anchors": ["chords/numpy.py: RHS2numpy, Sym2Fx, unpack, congruent_concatenate"]}
{"id": "C85", "title": "Splitting an array in columns and joining them again gives the array back", "statement": "congruent_concatenate(unpack(a)) equals a for vectors and tables.", "quantifier": "all arrays", "why_tests_cant": "ranges over all shapes and contents", "anchors": ["chords/numpy.py: unpack, congruent_concatenate"]}
{"id": "C86", "title": "Arrays of a problem and its results never hide one another", "statement": "For every differential order, the keys of opti_arrs are different and opti_arrs[name of derivative k] is that derivative; after solving, results has every array of opti_arrs under its own key, every list of opti_lists under its key with '_list', and none of them replaces another entry.", "quantifier": "all accepted scheme names, initial guess names and differential orders", "why_tests_cant": "The generated names range over all orders; a collision only shows for some order.", "anchors": ["chords/opti.py: opti_setup, _save_results, get_q_and_ders_names"]}
{"id": "C87", "title": "Saved results tell which scheme was used", "statement": "results['scheme'] is the name given to Opti_Problem, and scheme_mode and scheme together identify it.", "quantifier": "all accepted scheme names and orders", "why_tests_cant": "Ranges over all pairs of accepted names.", "anchors": ["chords/opti.py: _save_results, _Opti_Problem.__init__, Opti_Problem"]}
{"id": "C88", "title": "Dynamics functions do not depend on earlier problems", "statement": "dynamic_setup(u_vars) on a problem gives the functions for those u_vars, also when another problem was set up with the same dynamics object before.", "quantifier": "all dynamics objects and choices of controls", "why_tests_cant": "Depends on the history of an object shared by problems.", "anchors": ["chords/opti.py: _Explicit_Dynamics.dynamic_setup, _Implicit_Dynamics.dynamic_setup"]}
{"id": "C89", "title": "Waypoints on a line give a consistent guess", "statement": "If the waypoints of initial_guess lie on a straight line in time then the guesses of the state, its derivative, the central values and the top-down nodes are that line and its derivatives, for any increasing times of the waypoints.", "quantifier": "all lines, waypoint times, grids and orders", "why_tests_cant": "All grids, spacings and orders.", "anchors": ["chords/opti.py: _Waypoints_init.initial_guess", "chords/piecewise.py: interp_2d"]}
{"id": "C90", "title": "Zero and custom guesses set what the user asked for", "statement": "The custom guess sets q, v and a to the arrays given by the user, and the zero guess sets them to zero, for every scheme and order.", "quantifier": "all problems and arrays", "why_tests_cant": "All orders, schemes and arrays.", "anchors": ["chords/opti.py: _Zero_init.initial_guess, _Custom_init.initial_guess, _ini_guess_start"]}
{"id": "C91", "title": "The constraints of an equispaced problem say that the samples lie on a motion of the announced kind", "statement": "After apply_scheme on an equispaced problem, an assignment of the variables satisfies the constraints of the problem exactly when, in each interval, some motion whose highest derivative is a line (trapezoidal schemes) or a parabola (Hermite-Simpson schemes) through the sampled values joins the states at both ends, passing by the central state; the dynamics hold at every sample and centre, and schemes without free central control have the linearly interpolated one. Schemes of first order used on problems of any order do this for each derivative separately. Every accepted scheme has constraints.", "quantifier": "all schemes, orders, numbers of intervals, dynamics and assignments", "why_tests_cant": "An equivalence over all assignments of real variables, for all orders.", "anchors": ["chords/opti.py: _Equispaced.apply_scheme", "chords/piecewise.py: trapz_accel_restr, hs_accel_restr, hs_half_x, hs_mod_accel_restr, hsj_accel_restr, generate_hs_m_funcs, generate_trapz_m_func", "chords/casadi.py: accelrestriction2casadi"]}
{"id": "C92", "title": "Implicit dynamics are the constrained equations of motion", "statement": "The residual returned by implicit_dynamics_q and implicit_dynamics_x is zero exactly for accelerations and multipliers that balance the forces and keep the differentiated constraints, and the accelerations are those of the explicit right hand side.", "quantifier": "all mass matrices, constraint coefficients, forces, accelerations and multipliers", "why_tests_cant": "All matrices of all sizes; agreement of two formulations.", "anchors": ["chords/symbolic.py: ImplicitLagrangesMethod.implicit_dynamics_q, implicit_dynamics_x, mass_matrix_square", "chords/symbolic.py: SimpLagrangesMethod.rhs"]}
{"id": "C93", "title": "Inverse dynamics give actuations that produce the accelerations", "statement": "For forces affine in the actuations, the inverse dynamics of a Lagrange object give the actuations with the least squared difference between the inertia forces and the applied forces, zero when the actuations can give any force.", "quantifier": "all mass matrices, accelerations, force laws affine in the actuations", "why_tests_cant": "All matrices; least squares over all actuations.", "anchors": ["chords/symbolic.py: SimpLagrangesMethod.sym_pinv_dyn, ImplicitLagrangesMethod.sym_pinv_dyn"]}
{"id": "C94", "title": "Lagrange equations balance the energy", "statement": "Along every motion of a system with kinetic energy quadratic in the velocities and a potential, the total energy changes at the rate of the product of the velocities and the expressions of get_lagr_eqs.", "quantifier": "all symmetric differentiable mass matrices, potentials and motions", "why_tests_cant": "All motions of all systems.", "anchors": ["chords/symbolic.py: get_lagr_eqs, lagrange"]}
{"id": "C95", "title": "Renaming expressions keeps their values", "statement": "diff_to_symb_expr and standard_notation return expressions that have the value of the given one when each dynamic symbol, derivative or short symbol has the value of the symbol that replaces it, in whatever order the symbols of the expression are visited.", "quantifier": "all expressions, values and iteration orders", "why_tests_cant": "All expressions and set orders; a derivative replaced after its base silently becomes zero.", "anchors": ["chords/symbolic.py: diff_to_symb_expr, sorted_dynamic_symbols, standard_notation"]}
{"id": "C96", "title": "Change from coordinates to states", "statement": "q_2_x turns coordinate i into state i and velocity i into state n+i, and keeps different quantities different.", "quantifier": "all lists of coordinates and orders of derivatives", "why_tests_cant": "All names; sequential substitutions interfere only for certain names.", "anchors": ["chords/symbolic.py: q_2_x"]}
{"id": "C97", "title": "Right hand sides solve the Lagrange equations", "statement": "lagr_to_RHS gives expressions free of accelerations whose values are the only accelerations for which each Lagrange equation equals its force.", "quantifier": "all equations affine in the accelerations, all values of the other symbols", "why_tests_cant": "All equations and values.", "anchors": ["chords/symbolic.py: lagr_to_RHS"]}
{"id": "C98", "title": "Robot bodies move as their Denavit-Hartenberg parameters say", "statement": "robot_to_sympy accepts exactly the robots with no end effector whose links are all revolute in the modified Denavit-Hartenberg convention. For those, the axes and origins of the bodies are the products of the transformations of that convention, the axes are orthonormal, and the angular velocity of each body is the one with which its axes turn along every motion.", "quantifier": "all numbers of links, link parameters and differentiable joint motions", "why_tests_cant": "All link counts, geometries and motions.", "anchors": ["chords/robots.py: robot_to_sympy, dhlink_rot_mod_to_symbody, arr_to_vect"]}
{"id": "C99", "title": "Segmented bottom-up problems describe piecewise polynomial trajectories", "statement": "After apply_scheme of a ph bottom-up problem, an assignment of the variables satisfies the constraints exactly if in every segment the coordinates and their derivatives at the collocation points are those of polynomials of degree below order plus number of points, these polynomials meet at the knots with all derivatives below the order, the highest derivative at the start of every segment and at the end is theirs, the array of derivatives repeats the states at the knots, the dynamics hold at every collocation point with its own controls and multipliers, and the controls at the knots are extrapolated from the segments.", "quantifier": "all supported schemes, orders, numbers of coordinates and controls, segment structures, knot times, dynamics and assignments of the variables", "why_tests_cant": "An equivalence between constraints and trajectories for every segment structure and every assignment.", "anchors": ["chords/opti.py: _multi_pseudospectral.apply_scheme", "chords/opti.py: _multi_pseudospectral.opti_setup"]}
{"id": "C100", "title": "Segmented top-down and bottom-up problems have the same feasible trajectories", "statement": "The ph top-down constraints can be satisfied for an assignment of the states, derivatives and controls exactly if the ph bottom-up constraints can.", "quantifier": "all supported schemes, orders, segment structures, knot times, dynamics and assignments", "why_tests_cant": "All structures and assignments.", "anchors": ["chords/opti.py: _multi_pseudospectral.apply_scheme"]}
{"id": "C101", "title": "Segmented node based problems describe piecewise polynomial trajectories", "statement": "After apply_scheme of a ph node based problem, an assignment satisfies the constraints exactly if every segment has polynomials through the states at its nodes whose derivatives are the values of the array of derivatives, the states at the knots are those of the segments on both sides, the dynamics hold at the collocation points and the controls at the knots are extrapolated from the segments.", "quantifier": "all schemes, orders, segment structures, knot times, dynamics and assignments", "why_tests_cant": "An equivalence for every structure and assignment.", "anchors": ["chords/opti.py: _multi_pseudospectral.apply_scheme"]}
{"id": "C102", "title": "Times of segmented problems are those of the polynomials", "statement": "In a ph node based problem of any order, the polynomials of the segments take the values of the states at the times that the problem reports for its rows.", "quantifier": "all schemes and orders", "why_tests_cant": "All schemes, orders and numbers of points.", "anchors": ["chords/opti.py: _multi_pseudospectral.opti_setup", "chords/opti.py: _multi_pseudospectral.apply_scheme", "chords/pseudospectral.py: node_points, coll_points"]}
{"id": "C103", "title": "Polynomial interpolation of node based results is the polynomial through the nodes", "statement": "With polynomial interpolation, the arrays q, v, u returned for a node based pseudospectral result are the values at the instants asked for of the polynomials in time through the nodes (states) and through the collocation points (controls); the derivative arrays, of any order, are the true time derivatives of those polynomials.", "quantifier": "all implemented schemes, numbers of points, horizons, arrays, instants and orders of derivation", "why_tests_cant": "All data, schemes and instants.", "anchors": ["chords/pseudospectral.py: interpolations_pseudospectral", "chords/pseudospectral.py: interpolations_deriv_pseudospectral", "chords/pseudospectral.py: get_pol_u, get_pol_x"]}
{"id": "C104", "title": "Extended control arrays stay on the control polynomial", "statement": "extend_u_array returns times and controls in step, from one end of the interval to the other, and the added controls are those of the polynomial through the collocation points.", "quantifier": "all implemented schemes and orders", "why_tests_cant": "All arrays, schemes and orders.", "anchors": ["chords/pseudospectral.py: extend_u_array"]}
{"id": "C105", "title": "Linear interpolation of controls works for every scheme", "statement": "Asking for linear interpolation of the controls of a node based result returns the polyline through the controls.", "quantifier": "all implemented schemes, arrays, horizons", "why_tests_cant": "All schemes and arrays.", "anchors": ["chords/pseudospectral.py: interpolations_pseudospectral", "chords/pseudospectral.py: extend_u_array"]}
{"id": "C106", "title": "Interpolating vectors between schemes are exact", "statement": "vector_interpolator returns weights that, applied to the values at the nodes (or collocation points) of one scheme, give the value at the n-th node (or collocation point) of another scheme for every polynomial of degree below the number of points; unit_Lag_pol is one at its own point and zero at the others; indices and kinds out of range are refused.", "quantifier": "all pairs of implemented schemes, numbers of points, indices", "why_tests_cant": "All polynomials and pairs of schemes.", "anchors": ["chords/pseudospectral.py: vector_interpolator", "chords/pseudospectral.py: unit_Lag_pol"]}
{"id": "C107", "title": "End derivative functions give the derivative at the ends", "statement": "diff_end_p_fun gives the derivative at the end, and diff_start_p_fun at the start, of the polynomial through the nodes.", "quantifier": "all implemented schemes and coefficients", "why_tests_cant": "All coefficients.", "anchors": ["chords/pseudospectral.py: diff_end_p_fun, diff_start_p_fun", "chords/pseudospectral.py: diff_end_p_fun_cas, diff_start_p_fun_cas"]}
{"id": "C108", "title": "The dynamic error of node based results samples the interval", "statement": "dynamic_error_pseudospectral returns n_interp samples, spread over the interval, of the residuals of the interpolating polynomials.", "quantifier": "all implemented schemes, arrays, dynamics and numbers of samples", "why_tests_cant": "All dynamics and arrays.", "anchors": ["chords/pseudospectral.py: dynamic_error_pseudospectral"]}
{"id": "C109", "title": "Interpolation of bottom-up results reproduces the trajectory", "statement": "If the arrays given to interpolations_BU_pseudospectral are samples of a polynomial motion of degree below the order plus the number of collocation points, and of controls of degree below that number, then polynomial interpolation returns the states, their derivatives and the controls of that motion at every requested instant.", "quantifier": "all implemented schemes, orders, numbers of points and coordinates, intervals, instants and motions", "why_tests_cant": "All polynomials, sizes and instants.", "anchors": ["chords/bu_pseudospectral.py: interpolations_BU_pseudospectral, Polynomial_interpolations_BU"]}
{"id": "C110", "title": "Derivatives of bottom-up interpolations are those of the trajectory", "statement": "Under the conditions of C109, interpolations_deriv_BU_pseudospectral returns the derivative of any order of the states of the motion.", "quantifier": "all implemented schemes, orders, derivative orders, numbers of points and coordinates, intervals, instants and motions", "why_tests_cant": "All polynomials and derivative orders.", "anchors": ["chords/bu_pseudospectral.py: interpolations_deriv_BU_pseudospectral, _matrix_D_bary, _v_sum"]}
{"id": "C111", "title": "Interpolation of top-down results and their derivatives reproduces the trajectory", "statement": "If the construction values and arrays given to interpolations_TD_pseudospectral and interpolations_deriv_TD_pseudospectral are samples of a polynomial motion of degree below the order plus the number of collocation points, polynomial interpolation returns the states, derivatives of any order and controls of that motion at every requested instant.", "quantifier": "all implemented schemes, orders, derivative orders, numbers of points and coordinates, intervals, instants and motions", "why_tests_cant": "All polynomials, sizes and instants.", "anchors": ["chords/td_pseudospectral.py: interpolations_TD_pseudospectral, interpolations_deriv_TD_pseudospectral, Polynomial_interpolations_TD"]}
{"id": "C112", "title": "Linear and smooth interpolation of bottom-up and top-down results", "statement": "With linear interpolation the states and derivatives returned at each requested instant are those of the polyline through the data (one row per instant), and the documented option 'smooth' returns controls.", "quantifier": "all implemented schemes, orders, arrays, intervals, instants and derivative orders", "why_tests_cant": "All arrays and instants.", "anchors": ["chords/bu_pseudospectral.py: interpolations_BU_pseudospectral, interpolations_deriv_BU_pseudospectral", "chords/td_pseudospectral.py: interpolations_TD_pseudospectral, interpolations_deriv_TD_pseudospectral"]}
{"id": "C113", "title": "interpolation() of a bottom-up result returns the trajectory under the documented names", "statement": "For a bottom-up result whose arrays are samples of a polynomial motion, interpolation() returns without raising; the entry named after the k-th derivative of q followed by i times '_d' holds the values of derivative i of block k of the state at every requested instant, 'x', 'x_d', ... hold the states and their derivatives, 'u' and 't' the controls and the instants; the dictionary is stored in the result only if save_in_res, and nothing else in the result changes.", "quantifier": "all implemented schemes, orders of the solver and of the problem, numbers of points and coordinates, intervals, motions of admissible degree, instants", "why_tests_cant": "All motions, sizes, orders and instants at once.", "anchors": ["chords/analysis.py: interpolation (bottom-up pseudospectral)"]}
{"id": "C114", "title": "interpolation() of a top-down result returns the trajectory under the documented names", "statement": "For a top-down result whose construction values are samples of a polynomial motion, interpolation() returns without raising the derivatives of that motion under the names of the derivatives of q, with the controls and the instants; only save_in_res stores the dictionary.", "quantifier": "all implemented schemes, orders, sizes, intervals, motions and instants", "why_tests_cant": "All motions, sizes, orders and instants at once.", "anchors": ["chords/analysis.py: interpolation (top-down pseudospectral)"]}
{"id": "C115", "title": "interpolation() of a node based result returns the trajectory under the documented names", "statement": "For a pseudospectral result of order 1 or 2 whose node columns are samples of polynomials, interpolation() returns the derivatives of these polynomials under the names of the derivatives of q, with the controls and the instants; for every other order it raises NotImplementedError.", "quantifier": "all node based schemes, sizes, intervals, polynomials and instants", "why_tests_cant": "All polynomials, sizes and instants at once.", "anchors": ["chords/analysis.py: interpolation (pseudospectral)"]}
{"id": "C116", "title": "interpolation() of an equispaced result returns the trajectory of the scheme at the requested times", "statement": "For a result of an equispaced problem, interpolation() returns at every requested time the state of the piecewise curve of the scheme at that time, its derivatives under the documented names, and the linear or parabolic control, whatever the start time of the problem.", "quantifier": "all equispaced schemes, sample counts, sizes, orders, start and end times, and instants", "why_tests_cant": "All trajectories, schemes, start times and instants at once.", "anchors": ["chords/analysis.py: interpolation (equispaced)", "chords/piecewise.py: interpolated_array, interpolated_array_derivative"]}
{"id": "C117", "title": "Dynamic errors are computed from the right columns of an interpolation", "statement": "For every dictionary of interpolated arrays with the documented names, the error in the dynamics is the highest derivative of the coordinates minus the accelerations that the dynamics gives at the interpolated state, built from the derivatives of q in mode \"q\" and taken from x in mode \"x\"; the compatibility error of order k is the k-th derivative of q minus the interpolated variable of that name; the dynamics values are added under \"f\" and nothing else changes; any other mode raises ValueError.", "quantifier": "all orders, numbers of coordinates and instants, dictionaries and dynamics", "why_tests_cant": "All orders and all dynamics at once; the index arithmetic differs for each order.", "anchors": ["chords/analysis.py: dynamic_errors_from_interp"]}
{"id": "C118", "title": "dynamic_errors() measures the error of the trajectory of the result and leaves the result alone unless asked", "statement": "For a result of any kind of problem without segments, dynamic_errors() returns the highest derivative of the trajectory minus the dynamics along it, with zero compatibility errors for bottom-up and top-down results, at the requested instants; with save_in_res false the result is not changed.", "quantifier": "all schemes, sizes, orders, trajectories, dynamics, instants and both modes", "why_tests_cant": "All trajectories and dynamics at once.", "anchors": ["chords/analysis.py: dynamic_errors, dynamic_errors_from_interp, interpolation"]}
{"id": "C119", "title": "interpolation() of a bottom-up result in segments uses, at each instant, the trajectory of its segment", "statement": "For a ph bottom-up result whose states are samples of one motion for each segment, interpolation() returns under the documented names the derivatives of the motion of the segment that each instant belongs to, the controls of that segment and the instants; without given instants there are exactly n_interp, strictly increasing from the start, each in its segment.", "quantifier": "all schemes, orders, knots, points in each segment, motions, controls and instants", "why_tests_cant": "All segmentations and motions at once; the joins between the segments depend on the knots and the number of instants.", "anchors": ["chords/analysis.py: interpolation (ph), _generate_sub_problems", "chords/opti.py: ph results"]}
{"id": "C120", "title": "interpolation() of a top-down result in segments uses, at each instant, the trajectory of its segment", "statement": "For a ph top-down result whose construction positions are samples of one motion for each segment, interpolation() returns under the documented names the derivatives of the motion of the segment that each instant belongs to, the controls of that segment and the instants.", "quantifier": "all schemes, orders, knots, points in each segment, motions, controls and instants", "why_tests_cant": "All segmentations and motions at once.", "anchors": ["chords/analysis.py: interpolation (ph), _generate_sub_problems"]}
{"id": "C121", "title": "interpolation() of a node based result in segments uses, at each instant, the trajectory of its segment", "statement": "For a ph pseudospectral result of order 1 or 2 whose states at the nodes are samples of one polynomial for each segment and column, interpolation() returns under the documented names the derivatives of the polynomials of the segment that each instant belongs to, from the start time of the result.", "quantifier": "all node based schemes, knots, points in each segment, polynomials, controls and instants", "why_tests_cant": "All segmentations and polynomials at once.", "anchors": ["chords/analysis.py: interpolation (ph), _generate_sub_problems"]}
{"id": "C122", "title": "dynamic_errors() of a result in segments measures the error of the trajectory of each segment", "statement": "For a ph result whose data are samples of one motion for each segment, dynamic_errors() returns at each instant the highest derivative of the motion of its segment minus the dynamics there, also if the derivatives at the knots belong to only one of the two segments; the compatibility errors are zero for bottom-up and top-down results.", "quantifier": "all schemes, orders, knots, points in each segment, motions, dynamics, instants and both modes", "why_tests_cant": "All segmentations, motions and dynamics at once.", "anchors": ["chords/analysis.py: dynamic_errors, interpolation (ph), _generate_sub_problems"]}
{"id": "C123", "title": "dynamic_error_implicit equals dynamic_error of the explicit form", "statement": "For a system given by a matrix and a right hand side, M(x) a = F(x,u), dynamic_error_implicit() returns the same errors as dynamic_error() of the explicit dynamics whose first half is the velocity and whose second half solves the equations, also for systems with multipliers and for the given order.", "quantifier": "all systems with regular matrices, trajectories, schemes, control schemes, numbers of points and modes", "why_tests_cant": "All matrices and right hand sides at once.", "anchors": ["chords/analysis.py: dynamic_error_implicit, generate_G, dynamic_error"]}
{"id": "C124", "title": "F_point evaluates the acceleration of the dynamics at an instant", "statement": "F_point(x_arr, u_arr, t_arr, t, ...) returns the acceleration that the dynamics give for the interpolated positions at t, their derivatives at t and the control at t, for each t between the first and the last time of t_arr.", "quantifier": "all trajectories, time grids, dynamics, schemes and instants", "why_tests_cant": "All instants and starting times; a test with t_arr[0] = 0 does not see the dependence on the start.", "anchors": ["chords/analysis.py: F_point"]}
{"id": "C125", "title": "quad_problem integrates the distance between accelerations", "statement": "quad_problem() returns for each coordinate the integral between the first and the last time of the absolute difference between the acceleration that the dynamics give and the derivative of the interpolated velocity.", "quantifier": "all trajectories, dynamics, schemes and integration routines", "why_tests_cant": "All trajectories and starting times at once.", "anchors": ["chords/analysis.py: quad_problem, F_point"]}
{"id": "C126", "title": "doub_quad_problem is the double integral of the acceleration error", "statement": "doub_quad_problem() returns for each coordinate the double integral of the acceleration of the trajectory minus that of the acceleration given by the dynamics, for any motion through the first state and the last position.", "quantifier": "all trajectories, dynamics, schemes and motions whose acceleration may jump at countably many instants", "why_tests_cant": "All motions at once, and all starting times.", "anchors": ["chords/analysis.py: doub_quad_problem, F_point"]}
{"id": "C127", "title": "arr_max <= arr_mod <= arr_sum <= columns * arr_max", "statement": "arr_mod, arr_sum and arr_max give one number for each row: the Euclidean, sum and maximum norm, which bound each other and all entries and vanish only for rows of zeros.", "quantifier": "all tables with any number of rows and at least one column", "why_tests_cant": "All tables at once.", "anchors": ["chords/analysis.py: arr_mod, arr_sum, arr_max"]}
{"id": "C128", "title": "rhs_to_casadi_function evaluates the dynamics it is given", "statement": "The function made from symbolic dynamics returns, in mode x, the velocities followed by the values of the expressions (or the values themselves when there are as many expressions as states) and, in mode q, the accelerations, when states, controls and parameters are given in the order of find_arguments; and every vector with the size of an argument is such a set of values.", "quantifier": "all expressions, values and orders in which sets are visited; all lists of coordinates with different names that are not those of derivatives or controls, nor short (q1); controls found, numbered, or a list of symbols that are not those of coordinates or their derivatives", "why_tests_cant": "A wrong order or a merged symbol shows only for particular names, expressions and hash seeds.", "anchors": ["chords/casadi.py: rhs_to_casadi_function, sympy2casadi"]}
{"id": "C129", "title": "The restrictions of explicit dynamics hold exactly for motions of the system", "statement": "The three residuals made from explicit dynamics vanish exactly when the derivative of the state is the velocity and the acceleration given by the dynamics, when the second half of the derivative is that acceleration, and when the acceleration is.", "quantifier": "all expressions, values and orders in which sets are visited; all lists of coordinates with different names that are not those of derivatives or controls, nor short (q1); controls found, numbered, or a list of symbols that are not those of coordinates or their derivatives", "why_tests_cant": "It is an equivalence over all points: tests see some points where the residual is zero.", "anchors": ["chords/opti.py: _get_f_g_funcs"]}
{"id": "C130", "title": "The functions of implicit dynamics evaluate the equations", "statement": "implicit_dynamic_x_to_casadi_function and implicit_dynamic_q_to_casadi_function return the values of the equations when states and derivatives (or coordinates, velocities and accelerations), controls, multipliers and parameters have the values of the arguments.", "quantifier": "all expressions, values and orders in which sets are visited; all lists of coordinates with different names that are not those of derivatives or controls, nor short (q1); controls found, numbered, or a list of symbols that are not those of coordinates or their derivatives", "why_tests_cant": "A wrong order or a merged symbol shows only for particular names, expressions and hash seeds.", "anchors": ["chords/casadi.py: implicit_dynamic_x_to_casadi_function, implicit_dynamic_q_to_casadi_function"]}
{"id": "C131", "title": "params_sym lists the parameters of the dynamics of the problem", "statement": "After dynamic_setup, params_sym are the symbols of the parameters of the restrictions, in their order, so that one value for each is what the restrictions take.", "quantifier": "all dynamics, coordinates and orders in which sets are visited", "why_tests_cant": "Which symbols are listed depends on the symbols of the equations.", "anchors": ["chords/opti.py: _Explicit_Dynamics.dynamic_setup, _Implicit_Dynamics.dynamic_setup"]}
{"id": "C132", "title": "doub_pend_F is the dynamics of the double pendulum", "statement": "doub_pend_F(x, u, params) of both modules returns the derivative of the state of two masses hanging from each other with torques u: the returned accelerations are those for which the equations of Lagrange of kinetic minus potential energy hold, for one state, for a series of states row by row, and with the default parameters.", "quantifier": "all states, torques, masses and lengths, all smooth motions, and tables of any number of rows", "why_tests_cant": "A wrong sign or factor changes the result by amounts that only a comparison with the equations of motion at all states reveals.", "anchors": ["chords/numpy.py: doub_pend_F", "chords/casadi.py: doub_pend_F"]}
{"id": "C133", "title": "The errors that guide mesh refinement are those of the solution's motion at fresh test instants", "statement": "For every result of a problem of second order in segments, analyze_res_err returns, for each segment, the instants of the scheme's points with one more point than the segment has, and the dynamic error of that segment's own motion at those instants; max_err then returns, for each segment, the largest absolute error divided by one plus the largest absolute coordinate of that motion there. Hence when all entries are below epsilon, every test instant has a dynamic error below epsilon times one plus the largest coordinate.", "quantifier": "all schemes, knots, point numbers, motions, controls and dynamics; bottom-up, top-down and node based results in segments", "why_tests_cant": "Whether the rows of the joined error array are handed to the right segments, for every mesh and motion, cannot be settled by sampling meshes.", "anchors": ["chords/adaptive.py:calc_test_point_arr", "chords/adaptive.py:analyze_res_err", "chords/adaptive.py:max_err", "chords/analysis.py:dynamic_errors", "chords/analysis.py:interpolation"]}
{"id": "C134", "title": "The summary of a refinement run reports the integrated dynamic errors of each solution", "statement": "For every run of results, analyze_ph_run returns the costs, times, iterations and point numbers in order, and for each result and coordinate the integral of the absolute dynamic error over the time interval of the problem.", "quantifier": "all runs of bottom-up and top-down results in segments, all dynamics and numbers of instants", "why_tests_cant": "The summary is only wrong for problems whose interval is not [0, 2], which is the one used in the project's own examples; a test with that interval passes.", "anchors": ["chords/adaptive.py:analyze_ph_run", "chords/analysis.py:total_state_error"]}
{"id": "C135", "title": "The NumPy function of explicit dynamics evaluates them", "statement": "RHS2numpy given symbolic accelerations (or derivatives of the whole state) returns a function which, called with the values of the state, the controls and the parameters in the order that find_arguments reports, returns the numbers that the symbolic expressions have for those values: the velocities followed by the accelerations in mode 'x', the accelerations in mode 'q'. Called with rows of samples it returns one row of results for every sample.", "quantifier": "all lists of expressions whose derivatives have names, all numbers or lists of coordinates, all controls that fit them, all orders in which Python visits its sets, all values and all numbers of samples", "why_tests_cant": "The expressions, names and set orders are unbounded, and the result depends on the position of every symbol in a flattened list of arguments; tests use a handful of fixed mechanical systems.", "anchors": ["chords/numpy.py:RHS2numpy", "chords/numpy.py:_newfunc", "chords/symbolic.py:find_arguments"]}
{"id": "C136", "title": "The NumPy function of first order dynamics evaluates them", "statement": "Sym2Fx returns a function F(x, u, params) whose values are those of the symbolic derivatives of the state. The state may be given as a number of variables as well as a list of symbols.", "quantifier": "all lists of expressions, all states, all controls that fit, all set orders and all values", "why_tests_cant": "The claim is about all expressions and all names; tests fix one system, and always give the state as a list.", "anchors": ["chords/numpy.py:Sym2Fx", "chords/symbolic.py:find_arguments"]}
{"id": "C137", "title": "The text printed for explicit dynamics is a function that computes them", "statement": "The text that print_funcs_RHS returns is Python; the function F(x, u, params) that it defines returns the velocities followed by the values of the given accelerations.", "quantifier": "all lists of expressions, all coordinates, controls and parameters, all flavours of the text, all set orders and all values", "why_tests_cant": "The printed text has to be executed for every system to compare it; the number of controls and of parameters changes what the assignments of Python mean.", "anchors": ["chords/symbolic.py:print_funcs_RHS", "chords/symbolic.py:printer_function", "chords/numpy.py:unpack"]}
{"id": "C138", "title": "The text printed for expressions is a function that computes them", "statement": "The text that print_funcs returns is Python; it defines a function of those among the state, the controls and the parameters that appear, which returns the value of the expression, or the list of the values of several.", "quantifier": "all lists of expressions, all coordinates, all flavours of the text, all set orders and all values", "why_tests_cant": "The signature of the printed function depends on which groups of symbols are empty, and what an assignment does on how many there are.", "anchors": ["chords/symbolic.py:print_funcs", "chords/symbolic.py:printer_function"]}
{"id": "C139", "title": "An equispaced problem posed with symbolic accelerations has exactly the discretized motions of the system as feasible points", "statement": "For accelerations given as one expression per coordinate and an equispaced scheme of order 2 (trapz_mod, trapz_n, hs_mod, hs_mod_parab, hsn, hsn_parab, hsj, hsj_parab), the values of the variables meet all constraints exactly when over every interval there are curves with an acceleration on a line (on a parabola) that go from one sample to the next, whose acceleration at the start, at the end (and at the inner point) is the value of the expressions with the position and velocity of the curve, the controls of that instant and the given parameters.", "quantifier": "all lists of expressions, coordinates and controls that can be named, all values of the parameters, all schemes of order 2, all numbers of intervals, initial and final times that differ and all values of the variables", "why_tests_cant": "The claim crosses renaming of symbols, detection of the arguments, generation of functions, the formulas of the scheme and the assembly of constraints, for all expressions and all values of the variables; a solved problem only visits one feasible point.", "anchors": ["chords/opti.py:_Explicit_Dynamics.dynamic_setup", "chords/opti.py:_Equispaced.apply_scheme", "chords/casadi.py:rhs_to_casadi_function", "chords/symbolic.py:find_arguments", "chords/piecewise.py"]}
{"id": "C140", "title": "A segmented pseudospectral problem posed with symbolic accelerations has exactly the piecewise polynomials whose second derivatives are those accelerations as feasible points", "statement": "For accelerations given as one expression per coordinate and a segmented bottom-up, top-down or node based scheme, the values of the variables meet all constraints exactly when the coordinates of each segment are polynomials that agree in position and velocity at the knots and whose second derivatives at every collocation instant are the values of the expressions with the position and velocity of the polynomials, the controls of that instant and the given parameters.", "quantifier": "all lists of expressions, coordinates and controls that can be named, all values of the parameters, all schemes, numbers of points per segment, knots that differ and all values of the variables", "why_tests_cant": "The claim crosses the generation of functions from expressions and the assembly of constraints for every segment, for all expressions and all values of the variables.", "anchors": ["chords/opti.py:_Explicit_Dynamics.dynamic_setup", "chords/opti.py:_multi_pseudospectral.apply_scheme", "chords/casadi.py:rhs_to_casadi_function", "chords/symbolic.py:find_arguments"]}
{"id": "C141", "title": "A problem posed with implicit symbolic dynamics imposes that all its expressions vanish at every sample", "statement": "For implicit dynamics given as expressions of states, their derivatives, controls, multipliers and parameters, the values of the variables meet the constraints exactly when the states are the samples of the curves (polynomials) of the scheme and at every sample (collocation instant) all expressions are zero with the states, derivatives, controls and multipliers of that sample; there are as many multipliers per sample as distinct multipliers in the expressions.", "quantifier": "all lists of expressions that can be named, all values of parameters, all equispaced schemes of order 2 and all segmented bottom-up schemes, all numbers of intervals and points, and all values of the variables", "why_tests_cant": "The claim crosses the generation of functions from expressions and the assembly of constraints, for all expressions and all values of the variables.", "anchors": ["chords/opti.py:_Implicit_Dynamics.dynamic_setup", "chords/opti.py:_Equispaced.apply_scheme", "chords/opti.py:_multi_pseudospectral.apply_scheme", "chords/casadi.py:implicit_dynamic_x_to_casadi_function"]}
{"id": "C142", "title": "The restrictions of any order give the formulas of the schemes on NumPy arrays and on CasADi matrices, and do not change their arguments", "statement": "The restriction functions and the mid-point function of the schemes of arbitrary order (trapz_n, hsn) work in place on slices, which share memory in NumPy and do not in CasADi. For states of floats with any number of rows (trajectories at once) and any number of coordinates, in both libraries they return an array of the same sizes whose entry for every row, derivative and coordinate is that of the scheme for that row and coordinate, and no array that existed before the call, in particular no argument, is modified. With a state of integers the function of NumPy silently gives other values.", "quantifier": "Both libraries, every order >= 1, number of coordinates, number of rows, one or two axes, contents of the arrays, views into larger arrays, and time step", "why_tests_cant": "The result depends on aliasing between slices, copies and loops over derivatives; tests check some orders and sizes in one library, not that no write leaks into an argument for every order, size and layout.", "anchors": ["chords/piecewise.py:get_x_divisions", "chords/piecewise.py:itemequal", "chords/piecewise.py:reunite_matrix", "chords/piecewise.py:generate_trapz_m_func", "chords/piecewise.py:generate_hs_m_funcs"]}
{"id": "C143", "title": "The other acceleration restrictions give the formulas of the schemes on one row of NumPy or CasADi, but not on several rows nor on integers", "statement": "The acceleration restrictions and mid-point functions euler, trapz, trapz_mod, hs, hs_mod and hsj deduce the division of a state from the lengths of the state and of the acceleration. For a state of floats with one row (with one or two axes), in both libraries, they return the values of the scheme for every derivative and coordinate, whatever the number of coordinates and, where the scheme admits it, the order. With several rows the function may return without an error values that are not those of the scheme, and with a state of integers the accelerations lose their decimals.", "quantifier": "Both libraries, every order >= 1 (order 2 for trapz_mod, hs_mod and hsj), number of coordinates >= 1, contents of the arrays and time step", "why_tests_cant": "The slices depend on sizes of the arguments; tests with some sizes do not show that the slices are right for all sizes, nor reveal silent repetition of rows and columns.", "anchors": ["chords/piecewise.py:vec_len", "chords/piecewise.py:index_div", "chords/piecewise.py:order_from_x_a", "chords/piecewise.py:euler_accel_restr", "chords/piecewise.py:trapz_accel_restr", "chords/piecewise.py:trapz_mod_accel_restr", "chords/piecewise.py:hs_half_x", "chords/piecewise.py:hs_accel_restr", "chords/piecewise.py:hs_mod_half_x", "chords/piecewise.py:hs_mod_accel_restr", "chords/piecewise.py:hsj_half_x", "chords/piecewise.py:hsj_accel_restr"]}
{"id": "C144", "title": "Numeric inverse dynamics evaluate the symbolic inverse dynamics", "statement": "For an unconstrained system built with SimpLagrangesMethod, num_pinv_dyn returns a function exactly when the full equations contain a dynamic symbol and every dynamic symbol in them is a coordinate or one of the given forces. Its params argument lists the symbols of the full equations that are not forces, each once and sorted by name. Called with values of q, q', q'' and params the function returns the values of the symbolic inverse dynamics at them; in a fully actuated system whose forcing is affine in the actuations these are actuations that produce the given accelerations.", "quantifier": "all systems, coordinates, forces, symbolic expressions, orders in which SymPy finds the dynamic symbols, and values of all quantities", "why_tests_cant": "The parameter list depends on set operations over arbitrary symbolic expressions and on substitution order; a test covers one system, while the failures (a parameter that cancels in the product used to collect parameters, a parameter called dummy, a prescribed motion, constraints, the implicit class) only show in others.", "anchors": ["chords/symbolic.py: SimpLagrangesMethod.num_pinv_dyn", "chords/symbolic.py: ImplicitLagrangesMethod.num_pinv_dyn", "chords/symbolic.py: find_dyn_dependencies", "chords/symbolic.py: deriv_base"]}
{"id": "C145", "title": "Labels of plotted lines identify the scheme and the order", "statement": "For every string, sch_to_lab and sch_to_long_label return exactly on the 27 known scheme names preceded by an optional ph_ and an optional BU_ or TD_, and two strings with the same label are equal. In scheme_kwargs, for every string, every integer order or none and every option, equal labels imply equal scheme and equal order. Of the schemes that problems accept, with or without ph_, scheme_kwargs raises exactly for euler, LG_inv, JG_inv, JG2, CG2, LGLm and D2.", "quantifier": "all strings, all integer orders, all options", "why_tests_cant": "The labels are built by concatenation, and several names already contain the word order, so that no two of the infinitely many labels coincide cannot be checked by listing some of them; nor can that no other string is accepted.", "anchors": ["chords/util.py: sch_to_lab", "chords/util.py: sch_to_long_label", "chords/util.py: sch_to_color", "chords/util.py: scheme_kwargs"]}
{"id": "C146", "title": "The restrictions and steps with dynamics compute their schemes on arrays", "statement": "Given a dynamics function that returns arrays with the shape of the state, the restriction functions euler, trapz, trapz_mod, rk4, hs, hs_mod, hsj and their parab variants, called with one state per array (NumPy with one or two axes, or CasADi), return without raising an array of the same shape whose entries are those of the corresponding scheme applied to the coordinates and velocities; and so do the residual functions that the implicit steps solve, and the rk4 step. For the schemes of second order the state must have floats.", "quantifier": "for all numbers of coordinates and of controls, all states, controls, time steps and dynamics, for NumPy and for CasADi arrays", "why_tests_cant": "Tests evaluate some states of some systems; the claim is about every dimension, every dynamics function and the slices and stores of both libraries.", "anchors": ["chords/piecewise.py: euler_restr, trapz_restr, trapz_mod_restr, rk4_restr, hs_restr, hs_mod_restr, hs_parab_restr, hs_mod_parab_restr, hsj_restr, hsj_parab_restr, rk4_step, trapz_opti_step, trapz_mod_opti_step, hs_opti_step, hs_mod_opti_step, hs_parab_opti_step, hs_mod_parab_opti_step, hsj_opti_step, hsj_parab_opti_step"]}
{"id": "C147", "title": "The CasADi functions of restrictions with dynamics return the residual of the scheme", "statement": "The function that restriction2casadi returns for any of the restriction functions, called with rows or columns of 2*n_vars states and n_u controls, returns the residual of the scheme of these states and controls as a row; with the controls of the middle as parameters of the scheme the same holds if the dynamics function accepts them as a column. Asking for parameters of the scheme with a function that has none raises ValueError, and a function that needs them with none of them raises.", "quantifier": "for all numbers of coordinates, of controls and of parameters of the scheme, all values and all dynamics functions", "why_tests_cant": "Tests use one system; whether vectors are transposed in the right places depends on every combination of dimensions and on the shape in which the dynamics receive their arguments.", "anchors": ["chords/casadi.py: restriction2casadi"]}
{"id": "C148", "title": "Dynamic errors accept acceleration functions of single samples", "statement": "dynamic_error_pseudospectral takes a function of coordinates, velocities and controls that need not accept tables: the accelerations that it subtracts are, in each row, those of the function applied to that row, and the error has the shape of the derivatives.", "quantifier": "for all functions of a sample, whether or not they raise on tables, all numbers of samples, coordinates and controls, and all values", "why_tests_cant": "The result depends on whether the user's function happens to raise on a table and on how NumPy joins and broadcasts its results; tests try a few functions.", "anchors": ["chords/pseudospectral.py: try_array_f, dynamic_error_pseudospectral"]}
{"id": "C149", "title": "Hermite interpolation of bottom-up and top-down results", "statement": "With \"Hermite\", interpolations_BU_pseudospectral, interpolations_TD_pseudospectral and their derivative functions return a curve that takes the states of the result at the times of its rows, with the given derivatives as slopes, is a cubic between consecutive rows, and has a continuous slope; the derivative functions return the derivatives of that same curve, and a motion that is a cubic comes back exactly.", "quantifier": "for all bottom-up and top-down schemes, numbers of collocation points, orders, horizons, results and instants, inside and outside the interval", "why_tests_cant": "The agreement of values, slopes and derivatives must hold at every instant and for every result, and a test on smooth data cannot tell the spline from other interpolations at a few instants.", "anchors": ["chords/bu_pseudospectral.py:interpolations_BU_pseudospectral", "chords/bu_pseudospectral.py:interpolations_deriv_BU_pseudospectral", "chords/td_pseudospectral.py:interpolations_TD_pseudospectral", "chords/td_pseudospectral.py:interpolations_deriv_TD_pseudospectral"]}
{"id": "C150", "title": "Hermite interpolation of node-based results", "statement": "With \"Hermite\", interpolations_pseudospectral returns coordinates on a smooth piecewise cubic with the coordinates of the result as values and its velocities as slopes, velocities on one with the derivatives of the polynomial through the velocities as slopes, and their derivatives; interpolations_deriv_pseudospectral returns the derivative of the order asked for of a smooth piecewise cubic through the data with their derivatives as slopes.", "quantifier": "for all implemented schemes, numbers of collocation points, horizons, results, orders of the derivative and instants", "why_tests_cant": "Which points, rows and matrices are combined depends on the scheme, and mismatches leave results of the right shape.", "anchors": ["chords/pseudospectral.py:interpolations_pseudospectral", "chords/pseudospectral.py:get_hermite_x", "chords/pseudospectral.py:interpolations_deriv_pseudospectral"]}
{"id": "C151", "title": "Smooth interpolation of controls", "statement": "With u_interp \"smooth\", the interpolations return controls on a smooth piecewise cubic that takes the controls of the result at the collocation points and reaches both ends of the interval; controls that are straight lines come back exactly.", "quantifier": "for all schemes, numbers of collocation points, orders, horizons, controls with one or two axes, and instants", "why_tests_cant": "No test exercises the option; whether it returns at all depends on the number of axes, the scheme and the interpolation of the states.", "anchors": ["chords/pseudospectral.py:interpolations_pseudospectral", "chords/bu_pseudospectral.py:interpolations_BU_pseudospectral", "chords/td_pseudospectral.py:interpolations_TD_pseudospectral"]}
{"id": "C152", "title": "The integrators of first order systems follow the motion of the system", "statement": "integrate_euler, integrate_trapz, integrate_hs and integrate_hs_parab return, for each instant, a state whose distance from the motion of the system under the given controls is at most exp(c L t) (initial distance + t C h^p), with p = 1, 2, 4 and 4, t the elapsed time, h the step, L a Lipschitz constant of the dynamics in a region with the motion and the returned states (and centres), and C given by bounds of the derivatives of the motion; the steps of the implicit integrators are assumed to be solved.", "quantifier": "for all dynamics, initial states, numbers and values of controls (one per step, or one row per step unless it is a single row of several), steps, and motions smooth between consecutive instants", "why_tests_cant": "The order of convergence is a statement about all steps and all systems; a test measures the error on one system, where a wrong weight may hide in a constant or in a symmetric example.", "anchors": ["chords/piecewise.py:integrate_euler", "chords/piecewise.py:integrate_trapz", "chords/piecewise.py:integrate_hs", "chords/piecewise.py:integrate_hs_parab"]}
{"id": "C153", "title": "integrate_rk4 follows the motion of the system with an error of order four", "statement": "integrate_rk4, with or without given controls in the middle of the steps, returns states whose distance from the motion of the system under those controls is at most exp(2 L t) (initial distance + t C h^4), for dynamics with a Lipschitz constant L in a region with the stages of the method, and close to linear near the motion up to a term of second order.", "quantifier": "for all dynamics, initial states, numbers and values of controls (one per step, or one row per step unless it is a single row of several), steps up to one unit of time with h L <= 1/2, and motions smooth between consecutive instants", "why_tests_cant": "The fourth order rests on a cancellation between the four stages for every nonlinear system; comparisons on a few systems cannot exclude an order three term.", "anchors": ["chords/piecewise.py:integrate_rk4", "chords/piecewise.py:rk4_step"]}
{"id": "C154", "title": "The integrators of second order systems follow the motion of the system", "statement": "integrate_trapz_mod, integrate_hs_mod, integrate_hs_mod_parab, integrate_hsj and integrate_hsj_parab return states whose distance from the motion, positions and velocities, is at most exp(4 (1 + 2 L) t) (initial distance + t C h^p), with p = 2, 4, 4, 3 and 3, L a Lipschitz constant of the accelerations in a region with the motion and the returned states (and inner points); the steps are assumed to be solved.", "quantifier": "for all second order dynamics, initial states, numbers and values of controls (one per step, or one row per step unless it is a single row of several), steps with h (1 + 2 L) <= 1/2, and motions smooth between consecutive instants", "why_tests_cant": "The order of convergence is a statement about all steps and systems, and the coefficients of the inner points only show in terms of high order.", "anchors": ["chords/piecewise.py:integrate_trapz_mod", "chords/piecewise.py:integrate_hs_mod", "chords/piecewise.py:integrate_hs_mod_parab", "chords/piecewise.py:integrate_hsj", "chords/piecewise.py:integrate_hsj_parab"]}
{"id": "C155", "title": "The feasible points of equispaced problems converge to the motion of the system", "statement": "Let the highest derivatives be a function of the state and the controls with a Lipschitz constant L in a region. Every feasible point of an equispaced problem whose states stay in that region and whose controls are those of a smooth motion of the system (at the samples and, for the parabolic schemes, at the inner points) stays close to that motion: the samples differ from it by at most exp(4 L' t) (d0 + t C h^k), where d0 is the difference at the start and t the elapsed time. The order k is 2 for trapz, trapz_mod and trapz_n, 3 for every parabolic scheme (hsj included), and 4 for hs, hs_mod and hsn with or without parabolic controls. Between the samples, the curves of the scheme differ from the motion by at most twice that plus a term of order 3 or 4.", "quantifier": "every scheme of the equispaced mode, every number of intervals N, every order of the problem and number of coordinates and controls, every dynamics function with such a form, every region and Lipschitz constant, every motion with bounded higher derivatives, every step short enough, every feasible point", "why_tests_cant": "A test solves one problem with a few numbers of intervals and fits a slope; it says nothing about other systems, and it cannot separate the order of the scheme from the tolerance of the solver. The bound is for all steps, systems and feasible points.", "anchors": ["chords/opti.py: _Equispaced.apply_scheme", "chords/piecewise.py: hs_mod_accel_restr", "chords/piecewise.py: hsj_accel_restr", "chords/piecewise.py: trapz_accel_restr", "chords/piecewise.py: generate_hs_m_funcs"]}
{"id": "C156", "title": "The interpolated trajectories of solved equispaced problems converge to the motion of the system", "statement": "Under the hypotheses of C155, interpolation with default options of the result of the problem succeeds, and the states that it stores under x for any requested instants (those of the samples, those not within 1e-8 of a step from one, and the end) differ from the motion at that instant, counted from the start of the trajectory, by at most the bound of C155 for the curves. For the schemes of the order of the problem, so do the derivatives of q of every order below that of the problem.", "quantifier": "every result of an equispaced problem whose arrays are those of a feasible point, every scheme, order, number of intervals, coordinates and controls, every list of requested instants, every motion as in C155", "why_tests_cant": "The instants are a continuum, and the interpolation has a separate branch for every scheme: an error in one branch that vanishes at the samples and at the instants that a test tries goes unseen.", "anchors": ["chords/analysis.py: interpolation", "chords/piecewise.py: interpolated_array", "chords/piecewise.py: _newpoint", "chords/opti.py: _Equispaced.apply_scheme"]}
{"id": "C157", "title": "With short steps, the start and the controls determine one trajectory of an equispaced problem", "statement": "Let the dynamics give the highest derivatives as a function of the state and the controls with Lipschitz constant L, and let the step h be so short that h (2 + 20 L) is at most 1/2. Then for every initial state and all controls (at the samples and, for the schemes with parabolic controls, at the inner points; for the others those in between), the constraints of an equispaced problem are met by some values of the variables, and any two that meet them have the same states and derivatives at all samples and inner points.", "quantifier": "every scheme of the equispaced mode, every number of intervals, order of the problem, number of coordinates and controls, every such dynamics function, every initial state and all controls", "why_tests_cant": "Existence and uniqueness for all initial states and controls are about a continuum of systems of equations; a test that solves a few finds one solution of each and cannot exclude others.", "anchors": ["chords/opti.py: _Equispaced.apply_scheme", "chords/piecewise.py: hs_mod_accel_restr", "chords/piecewise.py: hsj_accel_restr", "chords/piecewise.py: trapz_accel_restr", "chords/piecewise.py: generate_hs_m_funcs"]}
{"id": "C158", "title": "A problem given by symbolic accelerations has one trajectory for each start and controls, and it converges to the motion", "statement": "Give an optimal control problem the expressions of its accelerations, with coordinates, controls and parameters as symbols, and discretize it with an equispaced scheme. Let the expressions have Lipschitz constant L in positions and velocities for the given parameters, and let the steps be so short that h (2 + 20 L) is at most 1/2. Then every start and choice of controls has exactly one feasible trajectory. Any feasible trajectory that starts near a motion of the expressions with the same controls stays near it: its samples, and the curves of the scheme between them, differ from that motion by at most a bound that grows with the initial difference and decreases with h squared for trapezoidal schemes, h cubed for schemes with the inner point at two fifths, and h to the fourth for Hermite-Simpson schemes.", "quantifier": "every list of coordinates with proper names, every list of expressions of symbols and dynamic symbols, every order in which the symbolic library lists them, all parameter values, every equispaced scheme that applies to order 2, every number of intervals, start and end instants, controls, and smooth motion", "why_tests_cant": "The claim links the expressions that the user writes with all the feasible points of the compiled problem and the continuous motion; tests only compare a few solutions with a few integrations.", "anchors": ["chords/opti.py: _Equispaced.apply_scheme", "chords/opti.py: _Explicit_Dynamics.dynamic_setup", "chords/casadi.py: rhs_to_casadi_function", "chords/symbolic.py: find_arguments", "chords/piecewise.py: hs_mod_accel_restr"]}
{"id": "C159", "title": "The compiled end functions give the value of the interpolating polynomial at the end", "statement": "get_bary_extreme_f_cas returns a CasADi function of a vector of as many numbers as points. Given the values of a polynomial of degree below that number at the collocation points (or at the nodes), it returns the value of the polynomial at tau=-1 for the start and tau=1 for the end. start_p_fun_cas and end_p_fun_cas do the same for values at the nodes.", "quantifier": "every implemented scheme, every number of points that the scheme allows, every order of the problem (for values at nodes, up to 2, above which C25 shows that an error is raised), every polynomial", "why_tests_cant": "The function is compiled from an expression for every number of points and scheme; tests try some sizes and data, not all polynomials.", "anchors": ["chords/pseudospectral.py: get_bary_extreme_f_cas", "chords/pseudospectral.py: start_p_fun_cas", "chords/pseudospectral.py: end_p_fun_cas", "chords/casadi.py: sympy2casadi"]}
{"id": "C160", "title": "Values given for a robot take the place of those of its links", "statement": "robot_to_sympy(robot, replacedict_list) gives the model of the robot whose links have the values of the dictionaries where these have them, and their own otherwise, for lengths, angles, masses, inertias, centres of mass and joint angles; it needs a dictionary for each link. Panda_Simp does the same for the Panda robot and leaves the dictionaries of the caller as they were.", "quantifier": "all numbers of links, link values, dictionaries (also the same object given several times), joint motions and torques", "why_tests_cant": "Ranges over all robots and all partial choices of values; sharing of dictionary objects shows only for some callers.", "anchors": ["chords/robots.py: make_search_func, dhlink_rot_mod_to_symbody, robot_to_sympy, Panda_Simp"]}
{"id": "C161", "title": "Methods called in the documented order find all that they need", "statement": "On every problem that Opti_Problem makes, after any calls, including calls that raised: dynamic_setup, then opti_setup, then apply_scheme, any cost method of the problem, initial_guess, and then simple_solve or chrono_solve, with or without a cost, do not raise for an attribute that the problem does not have.", "quantifier": "all accepted scheme names, dynamics and initial guesses, and all histories of calls", "why_tests_cant": "Every combination of classes and every history of calls.", "anchors": ["chords/opti.py: Opti_Problem, _Opti_Problem, simple_solve, chrono_solve, _save_results, trapz_cost, quad_cost, u_sq_cost, apply_scheme, opti_setup, initial_guess"]}
{"id": "C162", "title": "The controls given at the middles of the steps are used and kept", "statement": "In calls of interpolated_array and interpolated_array_derivative with a Hermite-Simpson scheme, the controls at the middles of the steps that the caller puts in scheme_params under u_c are never replaced, the derivatives stored for the middles are those of the dynamics at the given states and controls, and a parabola of controls without controls at the middles raises instead of inventing them.", "quantifier": "for all trajectories, steps, times, dynamics, schemes with middles, dictionaries of parameters and histories of earlier calls that share the dictionary", "why_tests_cant": "The dictionary is shared by calls in any number and order and with any arguments; a test fixes one short sequence, usually with a new dictionary for every call.", "anchors": ["chords/piecewise.py:_calculate_missing_arrays", "chords/piecewise.py:interpolated_array", "chords/piecewise.py:interpolated_array_derivative"]}
{"id": "C163", "title": "The times of extended controls are those of the collocation points", "statement": "extend_u_array(uu, scheme, N, order) and the interpolations that use it put every control at the collocation time it belongs to, with the digits with which coll_points gives these times by default; the collocation points of a number of digits differ from the exact ones by that precision only and not in number or order.", "quantifier": "all schemes, numbers of points, control values, orders and numbers of digits", "why_tests_cant": "The error is a rounding of the times, below usual tolerances of tests and different for each number of points.", "anchors": ["chords/pseudospectral.py: extend_u_array", "chords/pseudospectral.py: coll_points"]}
{"id": "C164", "title": "LG2 and JG2 give the nodes of the schemes with their names", "statement": "LG2(N, precission) and JG2(N, precission) return the node points that node_points gives for the schemes \"LG2\" and \"JG2\", with the digits asked for.", "quantifier": "all numbers of points and of digits", "why_tests_cant": "For each number of points and of digits the values are different roots of polynomials.", "anchors": ["chords/pseudospectral.py: LG2", "chords/pseudospectral.py: JG2", "chords/pseudospectral.py: node_points"]}
{"id": "C165", "title": "Controls computed from the dynamics reproduce the interpolated motion", "statement": "interpolated_array with u_scheme \"min_err\" returns, for times inside a step, a control with which the accelerations of F at the returned state are as near as possible to those of the derivative that interpolated_array_derivative returns for that time, and equal if some control makes them equal; with \"pinv_dyn\" it returns the given inverse dynamics of that state and derivative. At samples both return the sample.", "quantifier": "for all trajectories, dynamics, step lengths, times inside steps, supported schemes of states, dictionaries of parameters and initial values of the search", "why_tests_cant": "The control at each time is the solution of an optimization that depends on the whole state and derivative; tests compare a few values with tolerances.", "anchors": ["chords/piecewise.py:_newpoint_u", "chords/piecewise.py:_u_min_err_opti_step", "chords/piecewise.py:interpolated_array", "chords/piecewise.py:interpolated_array_derivative"]}
{"id": "C166", "title": "hs_scipy interpolates with the smooth cubic through the samples", "statement": "interpolated_array with scheme \"hs_scipy\" returns the piecewise cubic that has the samples as values and their derivatives as slopes, and interpolated_array_derivative returns its derivative of the order asked for; for trajectories that fulfil the Hermite-Simpson equations both are the same as with scheme \"hs\"; times outside the trajectory are refused; the dictionary of parameters is not changed.", "quantifier": "for all trajectories, slopes (given or from the dynamics), step lengths, times, orders of the derivative and dictionaries", "why_tests_cant": "An identity between two families of curves for all trajectories and times; the agreement with \"hs\" holds only on the solutions of the collocation equations.", "anchors": ["chords/piecewise.py:interpolated_array", "chords/piecewise.py:interpolated_array_derivative"]}
{"id": "C167", "title": "The cache on disk works for every decorated function", "statement": "A function decorated with store_results answers what the undecorated function answers, in every history of calls, also when its results are objects that pickle does not save, as those of diff_end_p_fun and diff_start_p_fun are.", "quantifier": "for all functions, signatures, histories of calls of any length, argument forms and behaviours of pickle", "why_tests_cant": "The failure depends on the history: the first call fails in one way and all later ones in another, in every process; tests run from a clean folder once.", "anchors": ["chords/numpy.py:store_results", "chords/pseudospectral.py:diff_end_p_fun", "chords/pseudospectral.py:diff_start_p_fun"]}
{"id": "C168", "title": "The points are those of Gauss, Radau and Lobatto: degree of exactness of the quadrature", "statement": "The quadrature with the collocation points of a scheme integrates every polynomial up to degree 2N-1 (Gauss schemes), 2N-2 (Radau) or 2N-3 (Lobatto): over [-1, 1] with the weights of get_weights for the Legendre schemes, against (1-t)^(order-1) for the Jacobi schemes, against 1/sqrt(1-t^2) with positive weights for the Chebyshev schemes.", "quantifier": "for all schemes of the three families, all numbers of points, orders and polynomials of those degrees", "why_tests_cant": "It is what makes the points optimal and ranges over all numbers of points and polynomials; points that are a little wrong still interpolate and still converge.", "anchors": ["chords/pseudospectral.py:LG", "chords/pseudospectral.py:LGR", "chords/pseudospectral.py:LGL", "chords/pseudospectral.py:CG", "chords/pseudospectral.py:CGR", "chords/pseudospectral.py:CGL", "chords/pseudospectral.py:JG", "chords/pseudospectral.py:JGR", "chords/pseudospectral.py:JGL", "chords/util.py:get_weights"]}
{"id": "C169", "title": "The cost of the controls is the integral of the control that is drawn", "statement": "u_sq_cost of a pseudospectral problem (node based, bottom-up, top-down or segmented) with a Legendre scheme is the integral over the horizon of the square of the control that interpolates the values at the collocation points, which is the one the interpolation functions return, for all values of the variables.", "quantifier": "for all Legendre schemes, numbers of points, horizons, segments, numbers of controls and values of the controls", "why_tests_cant": "The square has nearly twice the degree of the control, so it depends on the optimality of the points; it holds for all values with Gauss and Radau points and fails with Lobatto points only in the highest coefficient.", "anchors": ["chords/opti.py:_Pseudospectral.u_sq_cost", "chords/opti.py:_BU_Pseudospectral.u_sq_cost", "chords/opti.py:_multi_pseudospectral.u_sq_cost", "chords/util.py:get_weights"]}
{"id": "C170", "title": "The end of the motion is exact beyond the degree of the scheme", "statement": "At every feasible point of a bottom-up or top-down problem whose highest derivatives at the collocation points are those of a polynomial motion with the same initial conditions, the last row holds the exact end of that motion up to nearly twice the degree the scheme can represent: the coordinates with Jacobi points of the order of the problem, and the derivative of level P with Legendre points, one degree less for each level below the order minus one.", "quantifier": "for all Legendre and Jacobi schemes, orders, numbers of points and coordinates, horizons, dynamics, feasible points and polynomial motions of those degrees", "why_tests_cant": "It is the reason to choose Jacobi points and depends on the parameters of the polynomials whose roots are taken; wrong parameters only lose accuracy at the end.", "anchors": ["chords/opti.py:_BU_Pseudospectral.apply_scheme", "chords/opti.py:_TD_Pseudospectral.apply_scheme", "chords/pseudospectral.py:JG", "chords/pseudospectral.py:JGR", "chords/pseudospectral.py:JGL", "chords/bu_pseudospectral.py:Integration_Matrix"]}
{"id": "C171", "title": "Refining the segments makes the results of segmented problems follow the true motion", "statement": "For a segmented bottom-up or top-down problem whose dynamics give the highest derivatives as a Lipschitz function of the state and the controls, every feasible point with the controls of a smooth motion at the collocation points is near that motion, at the knots and at all instants between them: with at least n points in every segment and segments of length at most h, the distance is at most an exponential of the elapsed time, times the distance at the start plus a constant times h to the n. The constant depends on the scheme, the order and the largest number of points only, not on the segments.", "quantifier": "for all schemes with construction points, orders, point structures, knots, numbers of coordinates and controls, Lipschitz dynamics, smooth motions and feasible points", "why_tests_cant": "A convergence order is a statement about all segmentations, of any number of segments; measuring it on examples depends on the chosen problem and on round-off.", "anchors": ["chords/opti.py:_multi_pseudospectral.apply_scheme", "chords/opti.py:_multi_pseudospectral.opti_setup", "chords/bu_pseudospectral.py:Integration_Matrix", "chords/td_pseudospectral.py:matrix_L", "chords/pseudospectral.py:coll_points"]}
{"id": "C172", "title": "In segmented problems the start and the controls determine the motion", "statement": "With segments short enough for the Lipschitz constant of the dynamics, any start and any controls at the collocation points of a segmented problem belong to exactly one feasible point: all states, derivatives and controls in all rows are determined, and they exist.", "quantifier": "for all schemes with construction points, orders, point structures, knots, Lipschitz dynamics, starts and controls", "why_tests_cant": "Existence and uniqueness for all controls is a fixed point argument; a surplus constraint at the knots only shows as a solver that finds worse optima or none.", "anchors": ["chords/opti.py:_multi_pseudospectral.apply_scheme", "chords/opti.py:_multi_pseudospectral.opti_setup"]}
{"id": "C173", "title": "Refining the segments makes the results of node based segmented problems follow the true motion", "statement": "For a segmented node based problem whose dynamics give the highest derivatives as a Lipschitz function of the state and the controls, every feasible point with the controls of a smooth motion at the collocation points is near that motion, at the knots and at all instants between them and in all columns of the states: with at least n points in every segment and segments of length at most h, the distance is at most an exponential of the elapsed time, times the distance at the start plus a constant times h to the n.", "quantifier": "for all schemes, orders, point structures, knots, numbers of coordinates and controls, Lipschitz dynamics, smooth motions and feasible points", "why_tests_cant": "A convergence order is a statement about all segmentations. For the schemes where it fails, the solver still returns a result that satisfies all constraints, and a test that compares it with a reference may pass or fail by chance.", "anchors": ["chords/opti.py:_multi_pseudospectral.apply_scheme", "chords/opti.py:_multi_pseudospectral.opti_setup", "chords/pseudospectral.py:matrix_D_bary", "chords/pseudospectral.py:node_points"]}
{"id": "C174", "title": "In node based segmented problems the start and the controls determine the motion", "statement": "With segments short enough for the Lipschitz constant of the dynamics, any start and any controls at the collocation points of a segmented node based problem belong to exactly one feasible point: all states, derivatives and controls in all rows are determined, and they exist.", "quantifier": "for all schemes, orders, point structures, knots, Lipschitz dynamics, starts and controls", "why_tests_cant": "Whether the numbers of conditions and unknowns agree and the conditions are independent is a statement about all points and all dynamics; with too many conditions the optimizer silently searches a smaller set of controls, with too few it returns motions that the controls do not cause.", "anchors": ["chords/opti.py:_multi_pseudospectral.apply_scheme", "chords/opti.py:_multi_pseudospectral.opti_setup", "chords/pseudospectral.py:node_points", "chords/pseudospectral.py:n_col_to_n_nodes"]}
{"id": "C175", "title": "Segmented problems given by symbolic accelerations: one trajectory, close to the motion", "statement": "A second order problem posed with the symbolic expressions of its accelerations and discretized over several segments, short for the Lipschitz constant of those expressions: in bottom-up mode every start and every choice of controls at the collocation points belong to exactly one feasible point; in top-down mode and in node based mode (all schemes but D2) they belong to at most one, which exists over one segment for the Gauss schemes and over any number of segments for node based Radau schemes. In all the modes the feasible points with the controls of a motion of the expressions, and the polynomials through them, are near that motion, with an error of the order of the number of points per segment.", "quantifier": "for all lists of coordinates, expressions, controls, parameter values, schemes, point structures, knots, starts, controls and motions", "why_tests_cant": "The claim goes from the names in the expressions to the error of the optimal curves, for all expressions and all numbers of segments; a test runs one system with one mesh.", "anchors": ["chords/opti.py:_multi_pseudospectral.apply_scheme", "chords/opti.py:_Base_Problem.dynamic_setup", "chords/casadi_symbolic_wrapper.py", "chords/piecewise.py"]}
{"id": "C176", "title": "Every condition given to the optimiser says something", "statement": "apply_scheme of every kind of problem passes to the optimiser only conditions that compare at least one number (CasADi raises RuntimeError for an empty one), for problems with and without controls and of any order.", "quantifier": "for all kinds of problems, schemes, orders, numbers of coordinates, controls and residuals, numbers of points and segments", "why_tests_cant": "Which conditions are empty depends on the mode, the scheme, the order, the number of controls and the position of the segment; a test exercises one combination, usually of second order with controls.", "anchors": ["chords/opti.py:_Equispaced.apply_scheme", "chords/opti.py:_BU_Pseudospectral.apply_scheme", "chords/opti.py:_TD_Pseudospectral.apply_scheme", "chords/opti.py:_Pseudospectral.apply_scheme", "chords/opti.py:_multi_pseudospectral.apply_scheme"]}
{"id": "C177", "title": "Guesses of the controls follow the waypoints and the arrays given", "statement": "If the control waypoints given to initial_guess lie on a straight line in time, the guess of every control unknown (points, central points, knots and ends of segments) is the value of that line at the time of that unknown, and the guess of the states does not depend on them; a custom control guess is set as given; every unknown of a problem gets its guess.", "quantifier": "all problems, schemes, waypoint times, lines and arrays", "why_tests_cant": "it ranges over every mode, scheme, number of points and line, and the unknowns without a guess are silently set to zero by the solver", "anchors": ["chords/opti.py:_Waypoints_init.initial_guess", "chords/opti.py:_Custom_init.initial_guess"]}
{"id": "C178", "title": "The conditions leave the start and the controls free", "statement": "Before the user adds constraints, the unknowns that apply_scheme leaves undetermined are as many as the values of the initial state and of the controls: unknowns minus scalar conditions equals order * n_q plus the number of controls, for every mode, scheme, number of points and segments, if the dynamics give as many residuals as states and multipliers.", "quantifier": "all modes, schemes, orders, numbers of coordinates, controls, multipliers, points and segments", "why_tests_cant": "it is a count over all sizes of problems; the solver only fails for the sizes at which the surplus of conditions exceeds the free controls", "anchors": ["chords/opti.py:_Equispaced.opti_setup", "chords/opti.py:_Pseudospectral.opti_setup", "chords/opti.py:_BU_Pseudospectral.opti_setup", "chords/opti.py:_TD_Pseudospectral.opti_setup", "chords/opti.py:_multi_pseudospectral.opti_setup", "chords/opti.py:_multi_pseudospectral.apply_scheme"]}
{"id": "C179", "title": "Interpolating inside a step gives the curve of the scheme and leaves the data alone", "statement": "The functions that evaluate the trajectory of the schemes of any order (trapz, trapz_mod, trapz_n, hs, hs_mod, hsn) at an instant inside a step, and its derivatives, work in place on slices of a copy of the state. Whatever the kind of numbers of the arrays, they return a state of the same sizes whose entry for every derivative and coordinate is that of the curve of the scheme, and neither the states, nor their derivatives, nor the array they are rows of, are modified.", "quantifier": "every order >= 1, derivative, number of coordinates and rows, one or two axes, arrays of floats or integers, views into larger arrays, instant and step", "why_tests_cant": "The result depends on aliasing between slices, a copy and loops over derivatives, for every order and size; and on what is stored in arrays of integers.", "anchors": ["chords/piecewise.py: generate_tz_interp, generate_hs_interp, get_x_divisions, interpolated_array, interpolated_array_derivative"]}
{"id": "C180", "title": "Lists of points are not disturbed by what users do with earlier results", "statement": "In any session, made of calls of the functions that return collocation points, nodes, construction points and barycentric coefficients, with arguments written in any way, of changes made by the user to lists those functions returned, of losses of cache entries and of new processes in the same directory, every call returns the points (or raises the exception) that a first call would. This holds if the user changed no list that is, or was made from, the same list as the result (two calls can return the very same list, and the calls that do are listed). It fails otherwise: appending to the list returned by coll_points(N, 'LG') changes what node_points(N + 1, 'LG') returns, and emptying LGL(N + 2) before the first LGLm(N) leaves an empty LGLm(N) in the files for every later process; the same happens to coefficients.", "quantifier": "all sequences of calls, changes, cache evictions and restarts; all numbers of points, schemes, orders and spellings of arguments; all contents of the files that are right at the start", "why_tests_cant": "Whether a result is shared depends on the scheme, on how arguments were written, on what is in two levels of caches and on the order of all earlier calls; a test starts from one cache state and runs one sequence.", "anchors": ["chords/pseudospectral.py: LG, LGR, LGL, LGLm, JG, JGR, JGR_inv, JGL, coll_points, node_points, v_coef, v_coef_coll", "chords/bu_pseudospectral.py: BU_coll_points, BU_construction_points", "chords/td_pseudospectral.py: TD_construction_points", "chords/numpy.py: store_results"]}
{"id": "C181", "title": "Repeated integrals of functions with several components are the repeated integrals of the components", "statement": "gauss_rep_integral(f, t0, t1, n_pol, n_integ, f2d=True), for a function f that gives one row for each instant and one column for each component, all polynomials of degree up to n_pol, gives the n_integ-times repeated integral from t0 to t1 of every component. This holds if one Gauss point is enough (n_pol + n_integ <= 2), or if n_integ = 1 and there are as many components as Gauss points. In the other cases the call raises ValueError, gives one number for each Gauss point instead of one for the only component, or gives wrong numbers, even for constants, because the factor of Cauchy's formula multiplies the components and not the instants.", "quantifier": "all numbers of components, degrees, numbers of integrations, end points and polynomials", "why_tests_cant": "The result is right for particular combinations of sizes, and exact for all polynomials of a degree; a test looks at some sizes and functions.", "anchors": ["chords/util.py: gauss_rep_integral, gauss_integral_2d", "chords/numpy.py: combinefunctions"]}
{"id": "C182", "title": "Adaptive refinement returns solutions measured by their own motions and goes on with valid meshes", "statement": "For every problem whose solves give a bottom-up or top-down result on the mesh they are called with, or raise an exception, adaptive_refinement_system (silent=True, max_p positive) raises only what the problem raises; otherwise it makes at most max_iter solves, stops at the first solution whose motion follows the dynamics at every fresh test instant up to epsilon times one plus the largest coordinate, all earlier returned solutions fail that at some test instant, and each next mesh follows from the errors of the solution before: it keeps the horizon and the knots, and every segment has at least as many points as before and at least min_p if all had.", "quantifier": "all problems, sequences of successes and failures, dynamics, meshes, tolerances and budgets", "why_tests_cant": "Quantifies over all solver behaviours together with all motions; tests use one problem whose segments all have some error.", "anchors": ["chords/adaptive.py: adaptive_refinement_system, analyze_res_err, max_err, add_points, calc_new_struct", "chords/util.py: log_base"]}
{"id": "C183", "title": "With more intervals or points, the cost of a smooth trajectory approaches its integral", "statement": "When the arrays that are given to the cost methods are, up to an error ε, the values of smooth functions at the times of their rows, the cost differs from the integral of those functions over the horizon by at most a constant times ε plus a power of the step: the square without midpoints, the fourth power with midpoints, the third with the hsj rule and in sq_cost, and with the points of a Legendre scheme the power 2N less the number of ends among the points, also when the horizon is divided in segments.", "quantifier": "for all schemes, horizons, numbers of intervals, segments and points, numbers of columns, smooth functions with a bounded derivative and errors of the values", "why_tests_cant": "The rate for all functions and all meshes is a statement on limits; tests compare a few meshes, and with polynomials of low degree the errors are zero.", "anchors": ["chords/opti.py:_Equispaced.quad_cost", "chords/opti.py:_Equispaced.sq_cost", "chords/opti.py:_Equispaced.u_sq_cost", "chords/opti.py:_Pseudospectral.u_sq_cost", "chords/opti.py:_BU_Pseudospectral.u_sq_cost", "chords/opti.py:_multi_pseudospectral.u_sq_cost", "chords/util.py:get_weights"]}
{"id": "C184", "title": "The cost of the controls is never negative, and zero only without controls", "statement": "u_sq_cost is not negative for any values of the controls, and it is zero only when all the controls that the problem has at its grid points (or collocation points) and in the middle of its intervals are zero. So minimising it has a lower bound and no control is free.", "quantifier": "for all schemes, numbers of intervals, points and segments, orders, horizons and values of the controls", "why_tests_cant": "It is positivity of all the weights for all numbers of points; with a weight that is zero or negative an optimiser still returns something, only with a wild control at one point.", "anchors": ["chords/opti.py:_Equispaced.u_sq_cost", "chords/opti.py:_Pseudospectral.u_sq_cost", "chords/opti.py:_BU_Pseudospectral.u_sq_cost", "chords/opti.py:_TD_Pseudospectral.u_sq_cost", "chords/opti.py:_multi_pseudospectral.u_sq_cost", "chords/util.py:get_weights", "chords/pseudospectral.py:JGR"]}
{"id": "C185", "title": "Rounding the numbers of an expression changes each of them once and nothing else", "statement": "integerize returns the expression with every decimal number replaced by the closest integer (the even one of two) and without decimal numbers; roundize with every decimal number replaced by the closest one with the given digits, and rounding again changes nothing; deletezeros with exactly the decimal numbers smaller than the tolerance replaced by zero. Everything else in the expression is the same, so whole numbers written as decimal numbers keep the value of the expression.", "quantifier": "for all expressions, numbers of digits and tolerances", "why_tests_cant": "The numbers are replaced in the whole expression one after the other, and what one becomes may be another one that comes later; that this does no harm is a statement about all expressions and all orders of their numbers.", "anchors": ["chords/symbolic.py: integerize", "chords/symbolic.py: roundize", "chords/symbolic.py: deletezeros"]}
{"id": "C186", "title": "With linear dynamics no optimum is only local", "statement": "When the dynamics are linear, the conditions that apply_scheme states together with the cost of u_sq_cost make a problem without false optima: with any boundary conditions and bounds the user adds, from a feasible point that is not the best one the straight way to any cheaper feasible point is feasible and cheaper from its first step on, and any two best points have the same controls at all the points of the problem. So what the optimiser finds does not depend on the initial guess.", "quantifier": "for all linear dynamics, all kinds of problem (node based, bottom-up, top-down, segmented, equispaced), schemes, numbers of points, intervals and segments, orders, horizons, and all convex conditions that are added", "why_tests_cant": "It is a statement about all pairs of feasible points of all problems: tests see one run of the optimiser from one guess, and two runs that agree do not tell that no other optimum exists.", "anchors": ["chords/opti.py:_Pseudospectral.apply_scheme", "chords/opti.py:_BU_Pseudospectral.apply_scheme", "chords/opti.py:_TD_Pseudospectral.apply_scheme", "chords/opti.py:_Equispaced.apply_scheme", "chords/opti.py:_multi_pseudospectral.apply_scheme", "chords/opti.py:u_sq_cost"]}
{"id": "C187", "title": "With linear dynamics a problem that can be met has a best point", "statement": "When the dynamics are linear and the conditions of apply_scheme can be met together with the linear equations the user adds, such as boundary conditions, then some point meets them with the least u_sq_cost of all: the optimisation does not drift towards a lower and lower cost.", "quantifier": "for all linear dynamics, all kinds of problem (node based, bottom-up, top-down, segmented, equispaced), schemes, numbers of points, intervals and segments, orders, horizons, and all linear equations that are added", "why_tests_cant": "A run of the optimiser that stops does not show that there is a minimum, only that it gave up or met its tolerance; that the least cost is attained is a statement about all the feasible points of all problems.", "anchors": ["chords/opti.py:_Pseudospectral.apply_scheme", "chords/opti.py:_BU_Pseudospectral.apply_scheme", "chords/opti.py:_TD_Pseudospectral.apply_scheme", "chords/opti.py:_Equispaced.apply_scheme", "chords/opti.py:_multi_pseudospectral.apply_scheme", "chords/opti.py:u_sq_cost"]}
{"id": "C188", "title": "With linear dynamics, short steps and a given start, there is exactly one best motion", "statement": "Let the dynamics be linear and give the highest derivatives as a function of the state and the controls, and let the steps (or segments) be short enough for its Lipschitz constant. Give the start, add any linear equations on the variables such as end conditions, and minimise the integral of the squared controls. If the conditions can be met at all, some point meets them at the least cost, and any other such point has the same states, the same derivatives and the same controls in every row: the optimisation has exactly one answer.", "quantifier": "for all linear dynamics, schemes, orders, numbers of points, time intervals, starts and additional linear equations on the variables", "why_tests_cant": "A solver returns one answer; that no other answer has the same cost is a statement about all feasible points, of which there are infinitely many.", "anchors": ["chords/opti.py:_Pseudospectral.apply_scheme", "chords/opti.py:_BU_Pseudospectral.apply_scheme", "chords/opti.py:_TD_Pseudospectral.apply_scheme", "chords/opti.py:_Equispaced.apply_scheme", "chords/opti.py:_multi_pseudospectral.apply_scheme", "chords/opti.py:u_sq_cost"]}
{"id": "C189", "title": "A system given by linear expressions, discretized finely enough, has exactly one best motion", "statement": "Enter the accelerations as symbolic expressions that are linear in coordinates, velocities and controls, with coefficients made of numbers and parameters in any way. Then for every value of the parameters there is a number of steps (a length of the segments) from which on the discretized problem with the integral of the squared controls as its cost has this: for every start and any added linear equations on the variables that can be met, a best point exists, and every best point has the same states, derivatives and controls in every row.", "quantifier": "for all lists of coordinates with plain names, ways of giving the controls, linear expressions, parameter values, time intervals, schemes, numbers of steps from some one on, starts and additional linear equations", "why_tests_cant": "It says of infinitely many systems and step numbers that an optimum exists and that there is no second one; a test runs a solver that returns one candidate for one system.", "anchors": ["chords/opti.py:_Explicit_Dynamics.dynamic_setup", "chords/casadi.py:rhs_to_casadi_function", "chords/symbolic.py:find_arguments", "chords/opti.py:_Equispaced.apply_scheme", "chords/opti.py:_multi_pseudospectral.apply_scheme", "chords/opti.py:u_sq_cost"]}
{"id": "C190", "title": "The unit and the origin of time do not matter", "statement": "Write a system with another unit of time and start the clock at another moment: every derivative of order k of the coordinates is then divided by the k-th power of the number of new units in an old one, and the times are mapped accordingly. A discretized trajectory satisfies the constraints of the problem if and only if the rescaled one satisfies the constraints of the rescaled problem, with the same controls and multipliers. The integral of the squared controls is multiplied by the number of new units in an old one. So the best trajectories of both problems correspond.", "quantifier": "for all systems given by any equations, non-zero factors, shifts of the origin, time intervals of non-zero length, numbers of points, coordinates and controls; equispaced problems with every scheme of the order of the problem; bottom-up and top-down problems with every scheme that their documentation lists (bottom-up problems of the Gauss kinds with two points or more); node based problems with every scheme (those of the Gauss kinds up to order two, those that differentiate twice with order two on one interval); and all of them with any number of segments", "why_tests_cant": "The two problems are compared at all of their points, feasible or not, for arbitrary systems and factors; a test rescales one system and compares two runs of a solver, which stop at different points because of tolerances.", "anchors": ["chords/opti.py:_Equispaced.apply_scheme", "chords/opti.py:_BU_Pseudospectral.apply_scheme", "chords/opti.py:_TD_Pseudospectral.apply_scheme", "chords/opti.py:_Pseudospectral.apply_scheme", "chords/opti.py:_multi_pseudospectral.apply_scheme", "chords/opti.py:u_sq_cost", "chords/pseudospectral.py:tau_to_t_points"]}
{"id": "C191", "title": "A linear change of coordinates does not matter", "statement": "Describe a system with other coordinates, which are an invertible linear combination of the old ones plus constants (other units of length, the sum and the difference of two coordinates, another origin). A discretized trajectory satisfies the constraints of the problem if and only if the trajectory in the new coordinates satisfies the constraints of the problem in the new coordinates, with the same controls, multipliers and times. Since the cost of the controls is the same, the best trajectories of both problems correspond.", "quantifier": "for all systems given by any equations, numbers of coordinates from one, invertible matrices, origins, time intervals of non-zero length, numbers of points and controls; equispaced problems with every scheme of the order of the problem; bottom-up and top-down problems with every scheme that their documentation lists (bottom-up problems of the Gauss kinds with two points or more); node based problems with every scheme (those of the Gauss kinds up to order two, those that differentiate twice with order two on one interval); and all of them with any number of segments", "why_tests_cant": "The two problems are compared at all of their points for arbitrary systems and matrices; a test changes the coordinates of one system and compares two runs of a solver.", "anchors": ["chords/opti.py:_Equispaced.apply_scheme", "chords/opti.py:_BU_Pseudospectral.apply_scheme", "chords/opti.py:_TD_Pseudospectral.apply_scheme", "chords/opti.py:_Pseudospectral.apply_scheme", "chords/opti.py:_multi_pseudospectral.apply_scheme"]}
{"id": "C192", "title": "A motion run backwards is a motion of the reversed system", "statement": "Take a feasible point of a problem and run it backwards: the rows of states, controls and multipliers in the opposite order, and the derivatives of odd order with the opposite sign. The result is a feasible point of the problem over the same horizon whose equations of motion are the given ones with the signs of the odd derivatives changed, and every feasible point of that problem is obtained in this way. With the schemes of Lobatto, the schemes of Gauss of the bottom-up and top-down problems, the schemes that differentiate twice and the equispaced schemes that treat both ends of a step alike the second problem uses the same scheme; with the schemes of Radau, and of Gauss in node based problems, it uses the `_inv` scheme of the same name (and the scheme without `_inv` when the first one has it). The cost of the squared controls is the same number, so best motions correspond to best motions.", "quantifier": "all pairs of mirrored schemes (LG, CG, LGL, CGL, LGR and LGR_inv, CGR and CGR_inv for bottom-up and top-down problems; LG and LG_inv, CG and CG_inv, LGL, CGL, LGR and LGR_inv, CGR and CGR_inv, LG2, CG2, LGLm, D2 for node based problems; trapz, trapz_mod, trapz_n, hs, hs_parab, hs_mod, hs_mod_parab, hsn, hsn_parab for equispaced ones), all numbers of points or intervals that the scheme takes, all orders that it takes, all numbers of coordinates and controls, all systems, all horizons, all values of the unknowns", "why_tests_cant": "A run compares one optimum with the mirror image of another up to solver tolerance; the correspondence of all feasible points, for every number of points and every system, is not a comparison of numbers.", "anchors": ["chords/opti.py:_Equispaced.apply_scheme", "chords/opti.py:_BU_Pseudospectral.apply_scheme", "chords/opti.py:_TD_Pseudospectral.apply_scheme", "chords/opti.py:_Pseudospectral.apply_scheme", "chords/opti.py:u_sq_cost", "chords/pseudospectral.py:coll_points", "chords/pseudospectral.py:node_points", "chords/bu_pseudospectral.py:BU_coll_points", "chords/td_pseudospectral.py:TD_construction_points"]}
{"id": "C193", "title": "The momentum changes by the impulse of the controls", "statement": "Let a fixed combination of the highest derivatives of the coordinates equal, whenever the equations of motion hold, a fixed combination of the controls plus a constant (Newton's law for the total momentum: masses times accelerations equal external forces). Then every feasible point of the discretized problem obeys the law in integrated form and exactly, however few points there are: between any two instants of the polynomial motion the momentum changes by the integral of the polynomials through the controls; over each segment of a segmented problem the momentum at the knots changes by that integral; over each step of an equispaced problem it changes by the length of the step times the mean of the line (or parabola) through the controls that the scheme uses. In particular, if no control and no constant enters the law, the momentum is the same at all samples.", "quantifier": "all systems with such a law (nonlinear ones too), all coefficients, all numbers of coordinates and controls, all schemes of equispaced problems but euler, all bottom-up and top-down schemes and orders (one Gauss point cannot be built, C30), node based schemes that differentiate once (Gauss ones up to order 2) and, with one interval, those that differentiate twice; all numbers of points, segments and steps, all horizons, all feasible values of the unknowns", "why_tests_cant": "A run compares momenta of one solution up to the tolerance of the solver; that the law is exact for every feasible point, system and mesh is not a finite comparison.", "anchors": ["chords/opti.py:_Equispaced.apply_scheme", "chords/opti.py:_BU_Pseudospectral.apply_scheme", "chords/opti.py:_TD_Pseudospectral.apply_scheme", "chords/opti.py:_Pseudospectral.apply_scheme", "chords/opti.py:_multi_pseudospectral.apply_scheme", "chords/piecewise.py:trapz_mod_accel_restr"]}
{"id": "C194", "title": "Gauss points keep account of quadratic energies and end-Radau points never create them", "statement": "Take a function of the states that is at most quadratic, such as the energy of a spring, the norm of a quaternion or an angular momentum, and suppose that the equations make it change at a rate given by a supply, a function of the states and the controls. In every solution of the constraints with the points of Gauss the change of that function from the first row to the last one is exactly half the length of the interval times the sum of the weights of get_weights times the supply at the collocation points. In particular, what the equations conserve has exactly the same value at both ends and, with several segments, at every knot. If the rate is at most the supply, the change is at most that sum. With the inverted Radau points (LGR_inv) the same inequality holds whenever the quadratic part is not negative, so a passive system never gains energy in the discretised problem.", "quantifier": "for all first order dynamics, all numbers of states, all quadratic functions and supplies, all numbers of collocation points and all intervals, in bottom-up and top-down problems with LG and LGR_inv and in node based problems of order one or two with LG and LG_inv and of any order with LGR_inv, with one or several segments and any solution", "why_tests_cant": "A test integrates one oscillator with one grid and sees an energy drift near rounding. That the discretised problem has no drift at all is a statement about every solution, every quadratic invariant and every number of points, and depends on the degree of exactness of the weights.", "anchors": ["chords/opti.py: _Pseudospectral.apply_scheme, _BU_Pseudospectral.apply_scheme, _TD_Pseudospectral.apply_scheme", "chords/pseudospectral.py: coll_points, get_weights, LG, LGR"]}
{"id": "C195", "title": "Moving and accelerated frames of reference do not change a problem", "statement": "Describe the same system from a frame of reference whose position is a polynomial of time: add to each coordinate a polynomial, to each velocity its derivative, and so on, and rewrite the equations of motion accordingly. The arrays of a trajectory meet the constraints of the original problem if and only if the arrays seen from the moving frame, each row moved to where the frame is at the time of the row, meet the constraints of the rewritten problem. For equispaced problems the frame may have any constant acceleration (degree two at most), with the centres of the steps moved to the time of the third point of the scheme. For bottom-up and top-down problems the degree of the motion of the frame may be anything below the order plus the number of collocation points of each segment, and for node based problems anything below the number of nodes. So a problem in a freely falling cabin without gravity and the problem with gravity have the same solutions, and the controls are the same.", "quantifier": "for all dynamics and their rewritten form, all polynomial motions of the frame within the degree, all orders, numbers of coordinates, schemes, numbers of points or steps, intervals and meshes of segments, and all values of the optimisation variables", "why_tests_cant": "A test solves one problem twice and compares within a tolerance of the solver. The equivalence of the two sets of constraints is over all trajectories, frames and schemes, and fails in some scheme and order as soon as one row uses the wrong time or one coefficient is off.", "anchors": ["chords/opti.py: _Equispaced.apply_scheme, _BU_Pseudospectral.apply_scheme, _TD_Pseudospectral.apply_scheme, _Pseudospectral.apply_scheme, _multi_pseudospectral.apply_scheme", "chords/piecewise.py: trapz_accel_restr, hs_mod_accel_restr, hsj_accel_restr"]}
{"id": "C196", "title": "The work of the forces, measured with the weights of Gauss, is the change of the mechanical energy", "statement": "Take a mechanical energy: a quadratic function of the velocities with constant coefficients plus a linear function of the coordinates, such as a kinetic energy with a constant mass matrix and the potential of a uniform gravity. Suppose that the equations give its rate of change as a function of the states and the controls, the power. In every solution of the constraints of a problem of second order with the points of Gauss, the change of that energy from the first row to the last one is exactly half the length of the interval times the sum of the weights of get_weights times the power at the collocation points, although the coordinates have a degree that the weights do not integrate in squares. Without power the energy is the same at both ends and at every knot. If the rate is at most the power, the change is at most that sum, and this also holds with the inverted Radau points (LGR_inv), two or more, when the kinetic energy is not negative. For orders above two the same holds with the last derivatives below the highest one and the ones before them.", "quantifier": "for all dynamics of order two or more, all numbers of coordinates and controls, all such energies and powers, all numbers of collocation points and all intervals, in bottom-up and top-down problems with LG and LGR_inv, with one or several segments, in node based problems of second order with LG2, and any solution", "why_tests_cant": "A test drops one ball with one grid and compares energies up to rounding. That the balance is exact depends on the degrees of coordinates, velocities and weights together, for every number of points, every mass matrix and every solution the solver may return.", "anchors": ["chords/opti.py: _Pseudospectral.apply_scheme, _BU_Pseudospectral.apply_scheme, _TD_Pseudospectral.apply_scheme", "chords/pseudospectral.py: coll_points, get_weights, LG, LGR"]}
{"id": "C197", "title": "A linear change of the controls does not matter, and a rotation keeps the cost", "statement": "Replace the controls of a problem by an invertible linear combination of them plus constants, for instance thrust and torque instead of the forces of the two wheels, and let the equations of motion undo it. The constraints of the new problem at the new controls are the constraints of the original problem at the original controls, with the same states, velocities and multipliers: the same scheme and order raise the same error in both, and the same trajectories are feasible. If the combination is a rotation or reflection without constants, the cost of the squared controls is also the same number, so that the best trajectory does not depend on the axes along which the controls are measured.", "quantifier": "for all dynamics, invertible matrices and constants, orders, numbers of coordinates and of controls, schemes, numbers of points or steps, intervals, meshes of segments, and all values of the optimisation variables; for the costs, all orthogonal matrices and all arrays of controls", "why_tests_cant": "A test solves one problem with two sets of controls and compares up to the tolerance of the solver. That the constraints on controls (of the centres of the steps, and of the ends of the segments) are equivalent for every matrix depends on each of them being linear with the same coefficients in all columns, and on the costs adding all columns alike.", "anchors": ["chords/opti.py: _Equispaced.apply_scheme, _Pseudospectral.apply_scheme, _BU_Pseudospectral.apply_scheme, _TD_Pseudospectral.apply_scheme, _multi_pseudospectral.apply_scheme, _Equispaced.u_sq_cost, _Pseudospectral.u_sq_cost, _multi_pseudospectral.u_sq_cost"]}
{"id": "C198", "title": "Independent systems posed in one problem stay independent", "statement": "Put two systems that do not interact in one problem: first the coordinates, controls and multipliers of one, then those of the other, and the equations of both. A trajectory meets the constraints of that problem if and only if the columns of each system meet the constraints of the problem of that system alone, with the same scheme, order, points and interval; the same arguments raise the same error in all of them. Every pair of trajectories of the two systems is a trajectory of the problem of both. The cost of the squared controls is the sum of the two costs. So, in pseudospectral problems with one interval, the solutions of the problem of both are the pairs of solutions of each one.", "quantifier": "for all pairs of dynamics, numbers of coordinates, controls and multipliers, orders, schemes, numbers of points or steps, intervals and meshes of segments, in every mode, and all values of the optimisation variables", "why_tests_cant": "A test puts two systems together once and compares solutions up to tolerances. That no constraint of any scheme, order and mode mixes the columns of different coordinates or of different controls, and that none is lost, is a statement about all numbers of coordinates and all values of the arrays.", "anchors": ["chords/opti.py: _Equispaced.apply_scheme, _Pseudospectral.apply_scheme, _BU_Pseudospectral.apply_scheme, _TD_Pseudospectral.apply_scheme, _multi_pseudospectral.apply_scheme, _Equispaced.u_sq_cost, _Pseudospectral.u_sq_cost, _BU_Pseudospectral.u_sq_cost, _multi_pseudospectral.u_sq_cost"]}
{"id": "C199", "title": "Parts of equispaced motions are motions, and parts of best motions are best", "statement": "Cut an equispaced problem of M + N steps at the instant after M steps. A trajectory meets its constraints if and only if the first M steps meet those of the problem of M steps until that instant and the last N steps meet those of the problem of N steps from it, with the same scheme and order; the same arguments raise the same error. The cost of the squared controls is the sum of the costs of the two parts. So both parts of a best trajectory are best among the trajectories of their problems with the same first and last rows (the principle of optimality), for all schemes but hsj_parab_mod, whose cost uses further variables.", "quantifier": "for all dynamics, schemes, orders, numbers of coordinates and controls, positive numbers of steps M and N, intervals, and all values of the optimisation variables", "why_tests_cant": "A test cuts one solution at one step. That no constraint reaches over a cut and that the weights of the cost at the cut add to those of an interior point is a statement about all numbers of steps, schemes and values of the arrays.", "anchors": ["chords/opti.py: _Equispaced.apply_scheme, _Equispaced.u_sq_cost", "chords/piecewise.py: trapz_accel_restr, hs_mod_accel_restr, hsj_accel_restr"]}
{"id": "C200", "title": "A segmented motion can be continued anew from its first knot, and the rest of a best one is best", "statement": "In a bottom-up or top-down problem of several segments, drop the first segment. What is left of a trajectory that meets the constraints meets those of the problem of the remaining segments with their times. Conversely any trajectory of that problem that starts with the state at the knot (top-down: and with the derivatives there) may take the place of the rest, and the whole meets the constraints. The cost of the squared controls is that of the first segment plus that of the rest, so the rest of a best trajectory between two states is best between the state at the knot and the end.", "quantifier": "for all dynamics, implemented schemes, orders from 1, numbers of coordinates and controls, lists of at least two segments with enough points each, times with segments of non-zero length, and all values of the optimisation variables", "why_tests_cant": "A test replans one solution from one knot. That no constraint but the continuity of the state reaches over a knot is a statement about all point structures, schemes, orders and values of the arrays.", "anchors": ["chords/opti.py: _multi_pseudospectral.opti_setup, _multi_pseudospectral.u_sq_cost", "chords/opti.py: _multi_pseudospectral.apply_scheme"]}
{"id": "C201", "title": "A segmented node based motion can be continued anew from its first knot, and the rest of a best one is best", "statement": "In a node based problem of several segments, drop the first segment. What is left of a trajectory that meets the constraints meets those of the problem of the remaining segments with their times. Conversely any trajectory of that problem that starts with the state and the derivatives at the knot may take the place of the rest, and the whole meets the constraints. So the rest of a trajectory of lowest cost of the squared controls has the lowest cost among those that start with the state and derivatives at the knot and end in the same state.", "quantifier": "for all dynamics, implemented schemes, orders from 1 (Gauss schemes: 1 and 2), numbers of coordinates and controls, lists of at least two segments with enough points each, times with segments of non-zero length, and all values of the optimisation variables", "why_tests_cant": "A test replans one solution from one knot with one scheme. Which values at a knot belong to the segment before it and which to the one after it depends on the scheme, and a solution without a jump there does not show the difference.", "anchors": ["chords/opti.py: _multi_pseudospectral.apply_scheme", "chords/opti.py: _multi_pseudospectral.opti_setup"]}
