# Formal model of chords (optibot)

Source: `/repo/chords/*.py` (read as text, never run).  Proof assistant: Lean 4.33.0 with Mathlib.

## Layout

* `lean/Verif/Model/*.lean`  executable-style definitions that mirror the Python, each with a comment citing file and lines.
* `lean/Verif/Spec/*.lean`   small independent specifications used in theorem statements.
* `lean/Verif/Lemmas/*.lean` helper lemmas.
* `lean/Verif/Props/*.lean`  the property theorems, one file per family, each followed by an `example` that meets its hypotheses.
* `properties.jsonl` the properties, `MANIFEST.json` their theorems and status, `seeded/LOG.jsonl` the wrong programs tried against the theorems.

## Trusted base

* Lean's kernel and the three standard axioms `propext`, `Classical.choice`, `Quot.sound` (table below).  No own axioms, no `sorry`, no `native_decide`.
* The reading of the Python source that the model comments cite.
* Numbers: Python floats are modelled as elements of a field (mostly the reals).  Rounding, overflow, NaN are **not** modelled.
  Where the code compares with a tolerance (1e-8 snapping in `interp_2d`-like functions and at samples) the model keeps the comparison.
* Numpy / casadi elementwise arithmetic on state vectors is modelled as arithmetic in a vector space (module) or on functions/lists, as each comment says.
* External code is not modelled; where a property relies on it, the assumption is an explicit hypothesis of the theorem, except where noted:
  * roots of Legendre and Jacobi polynomials: the model takes the sorted real roots of the actual polynomials (`Spec/OrthoPoly.lean`); that there are as many as the degree is proved;
  * `numpy.polynomial.legendre.leggauss`: modelled by its documented formula (`Spec/Leggauss.lean`); exactness to degree 2N-1 is proved;
  * `scipy.optimize.root`: an arbitrary function that returns a point and a success flag;
  * sympy: expressions are functions (values), or names and argument lists; `simplify` and `lambdify` preserve values;
  * casadi `Opti` and IPOPT: constraints are the proposition that all residuals are zero, costs are values; the solver is an arbitrary oracle;
  * pickle: a partial encode/decode pair with the round trip as hypothesis; the file system: one map from path to contents.
* Printing, plotting back ends and timing are not modelled.

## How properties that are false of the code are treated

A theorem proves the negation on a concrete witness or for every input (name ends in `_refuted`), and a `_partial` theorem (or a theorem for the
remaining cases) proves the strongest part that holds.  The manifest marks these `partial`.  The list of disagreements is in the last section.

## Plan per property

| id | what is modelled, how proved |
|----|------|
| C01-C05 | step/residual formulas and interpolants over an arbitrary real vector space; algebra + derivative of explicit polynomials |
| C06-C07 | the order-generic formulas with sums over `Finset.range`; algebra of factorials for every order |
| C08 | equality of functions by unfolding at order 1 and 2 |
| C09 | `HasDerivAt` between successive derivative curves, for every k |
| C10 | equivalence of residuals |
| C11-C12, C75 | integration loops as recursion on the list of controls, induction; array shapes as values; arbitrary root solver |
| C13, C62, C76-C78 | functions of states as lists; expand, reduce, increase order; residual forms of user functions |
| C14-C16, C79-C81 | floor division and remainder over the reals, exceptions as `Except`, the dictionary of extra arrays as state passed through calls |
| C17-C19, C68 | interval integrals of explicit polynomials, sums by induction |
| C20 | field algebra |
| C21-C22 | lists of roots of orthogonal polynomials (interlacing proved), case split over schemes; trigonometry |
| C23-C25, C103-C106 | barycentric formulas against Mathlib's `Lagrange.interpolate` |
| C26-C28 | Gauss rule, interval integrals of polynomials, Cauchy's repeated integration formula |
| C29-C32, C72-C74 | polynomials over the reals; constraints as propositions about matrices; equivalence with "there is a polynomial motion" |
| C33-C36, C67, C69, C71 | list/index arithmetic by induction on the point structure; argument binding modelled explicitly |
| C37-C41 | file-system state machine; invariant by induction on histories; crash points and interleavings as transitions |
| C42-C45 | list recursion, induction; solver as an arbitrary oracle |
| C46 | list arithmetic |
| C47-C50, C92-C94 | block matrices; object state machine for cached attributes; partial derivatives as functions |
| C51-C53, C95-C97 | strings as lists of characters; sets with arbitrary iteration order |
| C54, C98 | telescoping sums; frames and cross products, derivatives along motions |
| C55-C58, C82-C85 | lists, tables as lists of rows |
| C59-C61, C86-C88 | lists, finite state machines over call sequences |
| C63, C89-C90 | calls of `set_initial` as lists |
| C64, C113-C115 | dynamic errors: row by row evaluation against the interpolating motion of the solution |
| C65-C66, C70, C107-C112 | end extensions and derivative interpolation against the interpolating polynomial |
| C91 | constraints of equispaced problems as propositions, equivalent with a chain of motions |
| C99-C102 | segmented problems: constraints as propositions, equivalent with a piecewise polynomial motion |
| C116-C118 | `interpolation` and `dynamic_errors` on whole results (dictionary as a value) |
| C119-C122 | the same for segmented results, one call per segment, joined |
| C123-C127 | `dynamic_error_implicit`, `F_point`, `quad_problem` and its double version against integrals of the error of the motion; array norms |
| C128-C132, C135-C138 | functions made from expressions: an expression type with symbols and dynamic symbols, evaluation, substitution, argument lists, printed text as tokens read back |
| C133-C134 | errors that guide and summarise refinement, on top of C119-C122 |
| C139-C141 | composition: symbolic expressions, made functions, constraints, motions |
| C142-C143, C146-C147 | restriction functions as programs on arrays (NumPy views, CasADi copies, shapes, broadcasting, integer stores), shown equal to the formulas of C01-C10 |
| C144 | numeric inverse dynamics: argument lists and evaluation |
| C145 | plot labels as strings; finite list of names, any order |
| C148 | `try_array_f`: a function that may raise, called on the whole arrays and then row by row |
| C149-C151 | cubic Hermite splines and `numpy.gradient` by their documented formulas; smooth interpolation of pseudospectral results |
| C152-C154 | integrators: local error by Taylor bounds, discrete Gronwall inequality, order of convergence for smooth systems |
| C155-C156 | the same for the feasible points of equispaced problems (C91) and for their interpolation (C117) |
| C157 | existence and uniqueness of feasible points with short steps: a contraction on the state at the end of each step |
| C158 | composition of C139, C155 and C157: problems given by expressions |
| C159 | end functions compiled for casadi: an expression of the symbols of the points, its value against C25 |
| C160 | dictionaries as optional values; references and a heap for `Panda_Simp` |
| C161 | sets of attributes as lists of names; induction on histories, and a complete finite table of classes |
| C162 | the parameter dictionary as state that calls thread; induction on histories of calls |
| C163, C164 | points with the rounding of `evalf` kept as a function of the number of digits; relative error bounds, and counterexamples with √3/3 rounded to ten bits |
| C165 | the control of each time related to what the two public functions return for it; minimization as a hypothesis on the library |
| C166 | SciPy's spline as a concrete cubic; the motion of "hs" built from it with Simpson's rule for cubics |
| C167 | invariant over histories: each file is unreadable, only for functions with results that cannot be saved, or right |
| C168 | orthogonality of the node polynomial (from the differential equation of Jacobi, by self-adjointness) and division; sums of cosines for Chebyshev |
| C169 | C168 for the square of the interpolant; for Lobatto the square minus a multiple of the node polynomial times its inner part |
| C170 | Taylor with the remainder as an integral; the remainder is orthogonal to the node polynomial |
| C171 | interpolation error of collocation polynomials per segment (Lebesgue constant, Taylor), then a discrete Gronwall induction over the segments |
| C172 | fixed point of a contraction on the values at the collocation points, segment by segment; a counterexample with a jump at a knot |
| C173 | the columns of the states as a system of first order, then C171's argument; with nodes at both ends the polynomials are derivatives of each other and C171 applies directly |
| C174 | the same reduction, then C172's fixed point; where there are more conditions than unknowns, counterexamples by degrees of polynomials for all orders, segments and numbers of points |
| C175 | the function stored by the set-up is of the form that C171 to C174 require, with the Lipschitz constant of the expressions |
| C176 | sizes of all conditions in order; exact condition for none to be empty by cases on mode, scheme, first and last segment |
| C177 | Straight line waypoints are reproduced by `numpy.interp` at all times between them; case split on the seven modes |
| C178 | sizes of variables and conditions summed over rows and segments; linear growth in the points of each segment, first and last segment apart |
| C179 | programs on memory with views: frame conditions for each loop, running sums stored entry by entry |
| C180 | programs over a memory of lists with two caches; invariant naming each list by the call that made it, relative to the set of changed lists, kept along sessions |
| C181 | arrays with two dimensions and the rules for products of arrays; cases by sizes, the right ones reduced to the integral of one component (C26) |
| C182 | the loop of the refinement with the error analysis of C133 inside; induction over iterations to a relation of promised runs stated with motions and their errors; C42 for the meshes |
| C183 | Taylor polynomial on each interval; a rule that is exact below a degree has the error of the remainder; sums over intervals and segments; C28 and C168 for the degrees of the weights and C184 for their size; factorials for the limit in the number of points |
| C184 | Legendre points: for each point a polynomial that is zero at the others, not negative on the interval and of the degree for which the rule is exact (C168), so that the weight has the sign of an integral; Jacobi points of order two: the weight is that of the Jacobi rule times `(1 - P) / (1 - τ)` at the point, for a Legendre polynomial `P` (a mean of two with Lobatto points), and `P < 1` inside by the differential equation; "LGLm": the same with the Lobatto rule; Chebyshev points: the expansion of the weight in Chebyshev polynomials, whose integrals add up to less than the first; the weights of two Jacobi-Radau points in closed form for the negation with higher orders |
| C185 | the fold over the traversal commutes with application; a number is changed when its turn comes and, as rounding twice is rounding once, never again; the result is related to the expression by an inductive relation that leaves everything else; the evaluation of SymPy after each replacement is not modelled |
| C186 | every condition but the dynamics is an equation between affine functions of the variables, found by going through the programs that state them; the cost along a straight line is a parabola that bends by the cost of the difference of the controls, which C184 makes positive |
| C187 | the controls of the feasible points, each times the root of its weight, are an affine subspace of a Euclidean space of finite dimension, which is closed and so has a point closest to the origin |
| C188 | C187 gives a best point and C186 the controls of all of them; the start and the controls determine the motion by C157, C172 and C174 |
| C189 | by induction on the expressions their values are a constant and multiples of coordinates, velocities and controls, which gives linear dynamics with a Lipschitz constant; then C188 |
| C190 | a motion of the one problem composed with the change of clock is a motion of the other, by C30, C31, C73, C91 and C99 to C101; the other direction is the same with the inverse change |
| C191 | the same linear combinations of the motions (of their polynomials) are motions again, by C30, C31, C73, C91 and C99 to C101; the other direction is the same with the inverse matrix |
| C192 | The points of each scheme are the mirror image of the points of its partner (parity of the Legendre and Chebyshev polynomials), so a polynomial through the rows becomes one through the rows in the opposite order; the change of sign of the time is the change of unit of C190 with factor -1. The weights of mirrored points are mirrored because both are exact on the Lagrange basis. |
| C193 | Both sides of the law are polynomials of degree below the number of collocation points that agree there, so they are equal and their integrals too; over a step the line or the parabola through the values is integrated exactly. |
| C194 | the rate of change of a quadratic function along polynomials of degree N has degree 2N - 1, which the weights of Gauss integrate exactly; for Radau the leading coefficient is a value of the quadratic part and its error polynomial `(X - 1) ω²` is never positive |
| C195 | Adding the polynomials of the frame to those of the trajectory keeps them below the degree of the scheme; over an equispaced step the sum of two motions of the shape of the scheme has that shape, and a frame with constant acceleration is one of them. |
| C196 | The velocities are polynomials of degree `N`, so the kinetic energy has a rate of degree `2N - 1`, which the weights of Gauss integrate exactly as in C194; the rate of the linear potential has degree `N`. Radau loses one degree, whose sign is known from the kinetic energy. |
| C197 | Each row of the dynamics only sees the controls through the inverse change, which undoes it. The other constraints on controls are affine combinations of rows with coefficients that add to one and are the same in every column; an orthogonal matrix keeps the sum of squares of each row. |
| C198 | Each mode is brought to the form: conditions on each coordinate alone, the same for all of them, and the equations at some rows. The first part splits with the columns, the second one with the list of equations. |
| C199 | The steps have the same length in the three problems, and each condition is about one row or one step. The cost is a sum over steps. A better part, put in the place of the old one, would give a better whole. |
| C200 | The conditions of C99 and C100 are about one segment each, and segments share the row of a knot, of which the first one uses only the state (top-down: and the derivative). The cost is a sum over segments. |
| C201 | As C200, from C101. In the schemes of the partial theorem the row of a knot holds the derivatives after it; in the Radau schemes that start with a point it holds those before it, and a motion of two straight parts with a corner is the counterexample. |

## Which code is modelled

Functions with a model, by source file; the comment of each definition cites the exact lines and says what was simplified. The numbers are the lines of the Python function; the file named is the one with the closest citation.

**adaptive.py**

* `Model/Adaptive.lean`: `calc_test_point_arr` 27-40, `add_points` 102-105, `calc_new_struct` 108-136, `adaptive_refinement_system` 139-208
* `Model/MeshErr.lean`: `analyze_res_err` 43-71, `max_err` 74-99, `analyze_ph_run` 211-248

**analysis.py**

* `Model/DynErr.lean`: `dynamic_error` 79-256
* `Model/Analysis.lean`: `generate_G` 259-296, `dynamic_error_implicit` 757-965, `arr_mod` 968-970, `arr_sum` 973-974, `arr_max` 977-978, `F_point` 991-1133, `quad_problem` 1136-1192, `doub_quad_problem` 1195-1260
* `Model/Interpolation.lean`: `_generate_sub_problems` 299-364, `interpolation` 367-678, `dynamic_errors_from_interp` 681-720, `dynamic_errors` 723-754
* `Model/NumTools.lean`: `arr_abs_integr_vert` 981-983
* `Model/MeshErr.lean`: `total_state_error` 986-988

**bu_pseudospectral.py**

* `Model/Points.lean`: `BU_coll_points` 68-126, `BU_construction_points` 130-187
* `Model/BuTd.lean`: `BU_unit_Lag_pol` 191-221, `BU_unit_Lag_pol_t` 225-254, `_Lag_integ` 259-319, `Integration_Polynomial_Matrix` 324-335, `Integration_Matrix` 340-374, `Extreme_Matrix` 379-391
* `Model/BuTdInterp.lean`: `Polynomial_interpolations_BU` 394-427, `interpolations_BU_pseudospectral` 430-582, `_v_sum` 585-608, `_matrix_D_bary` 611-636, `interpolations_deriv_BU_pseudospectral` 639-772, `dynamic_error_BU` 775-951

**casadi.py**

* `Model/CasFuncs.lean`: `list2casadi` 23-25, `sympy2casadi` 28-58, `rhs_to_casadi_function` 77-186, `implicit_dynamic_x_to_casadi_function` 189-268, `implicit_dynamic_q_to_casadi_function` 271-353
* `Model/DoubPend.lean`: `unpack` 68-74, `doub_pend_F` 466-513
* `Model/ArrayDyn.lean`: `restriction2casadi` 356-419
* `Model/Equi.lean`: `accelrestriction2casadi` 422-460

**numpy.py**

* `Model/NumFuncs.lean`: `unpack` 25-40, `RHS2numpy` 78-170, `Sym2Fx` 173-232
* `Model/GaussRep.lean`: `combinefunctions` 43-48
* `Model/NumTools.lean`: `congruent_concatenate` 51-60, `trapz_integrate` 63-67, `num_derivative` 70-75
* `Model/Cache.lean`: `get_default_args` 238-244, `is_callable_with` 247-252
* `Model/SharedLists.lean`: `store_results` 255-306
* `Model/DoubPend.lean`: `doub_pend_F` 312-359

**opti.py**

* `Model/Problem.lean`: `get_q_and_ders_names` 125-129, `Opti_Problem` 4051-4217
* `Model/CasFuncs.lean`: `_get_f_g_funcs` 135-237
* `Model/PsCost.lean`: `_get_cost_obj_trap_int` 244-295, `_get_cost_obj_trap_int_cas` 299-341, `_get_cost_obj_quad_int_cas` 345-368, `_BU_Pseudospectral.u_sq_cost` 1292-1323, `_TD_Pseudospectral.u_sq_cost` 1644-1675
* `Model/Costs.lean`: `exact_cuadratic_squared_integration` 371-384, `_Equispaced.sq_cost` 2022-2053, `_Equispaced.u_sq_cost` 2055-2118
* `Model/Attrs.lean`: `_Opti_Problem.__init__` 413-459, `_Opti_Problem._save_results` 476-518, `_Opti_Problem.simple_solve` 520-554, `_Opti_Problem.chrono_solve` 556-600, `_Pseudospectral.opti_setup` 604-793, `_Pseudospectral.quad_cost` 840-880, `_Pseudospectral.u_sq_cost` 882-901, `_Pseudospectral.trapz_cost` 903-943, `_BU_Pseudospectral.opti_setup` 1151-1290, `_BU_Pseudospectral.quad_cost` 1325-1365, `_BU_Pseudospectral.trapz_cost` 1367-1407, `_BU_Pseudospectral.apply_scheme` 1409-1497, `_TD_Pseudospectral.opti_setup` 1501-1642, `_TD_Pseudospectral.quad_cost` 1677-1717, `_TD_Pseudospectral.trapz_cost` 1719-1759, `_TD_Pseudospectral.apply_scheme` 1761-1833, `_Equispaced.opti_setup` 1837-1978, `_Equispaced.quad_cost` 1980-2020, `_multi_pseudospectral.quad_cost` 2663-2727, `_multi_pseudospectral.trapz_cost` 2729-2769, `_Explicit_Dynamics.dynamic_setup` 3549-3591, `_Implicit_Dynamics.dynamic_setup` 3595-3656, `_Function_Dynamics.dynamic_setup` 3660-3792
* `Model/Guess.lean`: `_Opti_Problem._ini_guess_start` 461-474, `_Zero_init.initial_guess` 3796-3810, `_Lin_init.initial_guess` 3814-3886, `_Waypoints_init.initial_guess` 3890-3992, `_Custom_init.initial_guess` 3996-4048
* `Model/BuTd.lean`: `_Pseudospectral.apply_scheme` 945-1043
* `Model/Equi.lean`: `_Equispaced.apply_scheme` 2120-2283
* `Model/PhLayout.lean`: `_multi_pseudospectral._check_structure_consistency` 2288-2316, `_multi_pseudospectral.u_sq_cost` 2623-2661
* `Model/PhScheme.lean`: `_multi_pseudospectral.opti_setup` 2318-2621
* `Model/Conditions.lean`: `_multi_pseudospectral.apply_scheme` 2771-3082

**piecewise.py**

* `Model/ArrayRestr.lean`: `vec_len` 59-71, `index_div` 1012-1024, `order_from_x_a` 1027-1031, `euler_accel_restr` 1172-1178, `trapz_accel_restr` 1189-1198, `trapz_mod_accel_restr` 1201-1207, `hs_half_x` 1210-1222, `hs_accel_restr` 1225-1243, `hs_mod_half_x` 1246-1259, `hs_mod_accel_restr` 1262-1271, `hsj_half_x` 1274-1287, `hsj_accel_restr` 1290-1299
* `Model/Guess.lean`: `interp_2d` 74-98
* `Model/Interp.lean`: `extend_array` 101-117, `_gen_basic_values` 1444-1451, `hsj_interp` 1623-1643, `_u_min_err_opti_step` 1670-1685, `_newpoint_u` 1688-1744, `_newpoint` 1747-1795, `_prepare_interp` 1798-1815, `interpolate_u` 1818-1879, `_calculate_missing_arrays` 1882-1956, `interpolated_array` 1959-2114, `hsj_dot_interp` 2199-2218, `hsj_dot_dot_interp` 2307-2323, `_newpoint_der` 2326-2379, `interpolated_array_derivative` 2382-2496
* `Model/Expand.lean`: `expand_F` 120-238, `expand_G` 241-297, `reduce_F` 300-384, `increase_order_implicit_func` 387-549
* `Model/Integrate.lean`: `euler_step` 555-556, `trapz_step` 574-579, `trapz_mod_step` 592-597, `hs_opti_step` 600-616, `hs_step` 619-624, `hs_mod_step` 657-662, `hs_parab_opti_step` 665-680, `hsj_step` 760-765, `coherent_dimensions` 810-865, `integrate_euler` 869-876, `integrate_rk4` 880-893, `integrate_trapz` 897-906, `integrate_trapz_mod` 910-919, `integrate_hs` 923-932, `integrate_hs_mod` 936-945, `integrate_hs_parab` 949-961, `integrate_hs_mod_parab` 965-977, `integrate_hsj` 981-990, `integrate_hsj_parab` 994-1006
* `Model/ArrayDyn.lean`: `rk4_step` 559-564, `trapz_opti_step` 567-571, `trapz_mod_opti_step` 582-589, `hs_mod_opti_step` 627-654, `hs_parab_step` 683-688, `hs_mod_parab_opti_step` 691-717, `hs_mod_parab_step` 720-727, `hsj_opti_step` 730-757, `hsj_parab_opti_step` 768-794, `hsj_parab_step` 797-802, `euler_restr` 1034-1035, `rk4_restr` 1038-1043, `trapz_restr` 1046-1049, `trapz_mod_restr` 1052-1060, `hs_restr` 1063-1069, `hs_mod_restr` 1072-1091, `hs_parab_restr` 1094-1100, `hs_mod_parab_restr` 1103-1122, `hsj_restr` 1125-1144, `hsj_parab_restr` 1147-1166
* `Model/ArrayProgs.lean`: `get_x_divisions` 1305-1334, `_itemequal` 1337-1346, `itemequal` 1349-1352, `reunite_matrix` 1355-1358, `generate_trapz_m_func` 1361-1383, `generate_hs_m_funcs` 1386-1438
* `Model/Schemes.lean`: `interp_parab` 1454-1456, `interp_parab_j` 1459-1465, `hs_midpoint` 1481-1483, `hs_mod_midpoint` 1486-1491, `hsj_midpoint` 1494-1499
* `Model/ArrayInterp.lean`: `generate_tz_interp` 1564-1587, `generate_hs_interp` 1591-1620

**pseudospectral.py**

* `Model/Digits.lean`: `LG` 62-63, `LGR` 68-70, `LGL` 75-88, `LGLm` 93-94, `LG2` 99-100, `JG` 105-109, `JGR` 114-118, `JGR_inv` 123-127, `JGL` 132-140, `JG2` 145-146, `coll_points` 173-228, `extend_u_array` 1386-1442
* `Model/Points.lean`: `CG` 149-154, `CGL` 157-162, `CGR` 165-169, `node_points` 232-284, `n_col_to_n_nodes` 287-309, `get_coll_indices_from_nodes` 312-354, `get_coll_indices` 357-397
* `Model/Adaptive.lean`: `tau_to_t_points` 400-428
* `Model/TimeScale.lean`: `t_to_tau_points` 431-459, `tau_to_t_function` 462-505
* `Model/Bary.lean`: `lag_pol` 525-535, `lagrangePolynomial` 538-565, `_v_sum` 571-599, `v_coef` 604-648, `v_coef_coll` 653-691, `matrix_D_bary` 696-743, `bary_poly` 790-848, `bary_poly_2d` 851-875, `get_bary_extreme_f` 970-1059
* `Model/PsInterp.lean`: `unit_Lag_pol` 880-914, `vector_interpolator` 919-964, `diff_end_p_fun` 1097-1103, `diff_start_p_fun` 1118-1124, `diff_end_p_fun_cas` 1152-1163, `diff_start_p_fun_cas` 1191-1202, `find_der_polyline` 1208-1222, `get_pol_u` 1225-1233, `get_pol_x` 1236-1295, `extend_x_arrays` 1298-1383, `interpolations_pseudospectral` 1477-1640, `interpolations_deriv_pseudospectral` 1643-1770, `dynamic_error_pseudospectral` 1773-1883
* `Model/BaryCas.lean`: `get_bary_extreme_f_cas` 1064-1082, `end_p_fun_cas` 1129-1147, `start_p_fun_cas` 1168-1186
* `Model/HermiteSpline.lean`: `get_hermite_x` 1445-1458
* `Model/TryArray.lean`: `try_array_f` 1461-1474

**robots.py**

* `Model/Robots.lean`: `matrix_to_6_vect` 33-41, `arr_to_vect` 44-45, `dhlink_rot_mod_to_symbody` 58-92
* `Model/RobotDicts.lean`: `make_search_func` 48-55, `robot_to_sympy` 95-155, `Panda_Simp` 158-188

**symbolic.py**

* `Model/NumFuncs.lean`: `get_str` 41-42, `is_iterable` 45-52, `make_list` 55-66, `printer_function` 551-581, `print_funcs_RHS` 584-634, `print_funcs` 637-700
* `Model/Names.lean`: `q_2_x` 69-84, `derivative_level` 87-92, `sorted_dynamic_symbols` 111-131, `diff_to_symb` 217-264, `diff_to_symb_expr` 267-272, `standard_notation` 275-306, `add_if_not_there` 376-378, `is_lambda` 381-388, `find_arguments` 391-548
* `Model/PinvDyn.lean`: `deriv_base` 95-98, `find_dyn_dependencies` 101-108, `SimpLagrangesMethod.num_pinv_dyn` 1079-1146, `ImplicitLagrangesMethod.num_pinv_dyn` 1265-1322
* `Model/Floats.lean`: `integerize` 134-139, `roundize` 142-147, `deletezeros` 150-156
* `Model/Coriolis.lean`: `lagrange` 159-179, `get_lagr_eqs` 182-214, `LagrangesMethod._C_from_M` 757-776, `LagrangesMethod.form_lagranges_equations` 778-789, `LagrangesMethod.C_matrix` 792-805, `LagrangesMethod.G_matrix` 808-821
* `Model/LagrRhs.lean`: `lagr_to_RHS` 309-373
* `Model/Lag.lean`: `SimpLagrangesMethod.__init__` 847-874, `SimpLagrangesMethod._simplyprint` 876-882, `SimpLagrangesMethod._invsimplyprint` 884-888, `SimpLagrangesMethod.mass_matrix` 891-901, `SimpLagrangesMethod.rhs` 904-992, `SimpLagrangesMethod.calculate_RHS_complete` 994-1012, `SimpLagrangesMethod.rhs_reduced` 1015-1030, `SimpLagrangesMethod.lambda_vector` 1033-1043, `SimpLagrangesMethod.rhs_full` 1046-1058, `SimpLagrangesMethod.sym_pinv_dyn` 1060-1077, `ImplicitLagrangesMethod.mass_matrix_square` 1156-1175, `ImplicitLagrangesMethod.implicit_dynamics_q` 1178-1201, `ImplicitLagrangesMethod.implicit_dynamics_x` 1204-1245, `ImplicitLagrangesMethod.sym_pinv_dyn` 1247-1263

**td_pseudospectral.py**

* `Model/Points.lean`: `TD_construction_points` 51-108
* `Model/BuTd.lean`: `matrix_D_nu` 113-114, `matrix_L` 119-124
* `Model/BuTdInterp.lean`: `Polynomial_interpolations_TD` 127-155, `interpolations_TD_pseudospectral` 158-324, `interpolations_deriv_TD_pseudospectral` 327-478, `dynamic_error_TD` 481-664

**util.py**

* `Model/Labels.lean`: `sch_to_lab` 33-82, `sch_to_long_label` 85-167, `sch_to_color` 170-214, `scheme_kwargs` 217-247
* `Model/NumTools.lean`: `plot_by_segments` 259-272, `graph_by_segments` 275-323, `gen_fig_filename` 326-353
* `Model/Gauss.lean`: `leggauss` 397-398, `gauss_integral` 401-410, `gauss_integral_2d` 413-422, `gauss_rep_integral` 425-430, `poly_integral` 433-451, `poly_integral_2d` 454-488, `Lag_pol_2d` 492-494, `Lag_pol_2d_x` 498-514, `Lag_integ_2d` 518-524, `get_weights` 529-566
* `Model/PhLayout.lean`: `is_integer` 572-577
* `Model/Adaptive.lean`: `log_base` 580-583

## Not modelled

What SymPy, CasADi, NumPy, SciPy and matplotlib do is taken from their documentation, as the comments of the definitions say. Functions of the package without a model:

| function | lines | why, or what is assumed instead |
|---|---|---|
| `casadi.get_str` | 19-20 | string conversion |
| `casadi.symlist2cas` | 61-65 | builds casadi symbols |
| `numpy.get_str` | 21-22 | string conversion |
| `piecewise.is_iterable` | 31-38 | type test; arrays have fixed shapes in the model |
| `piecewise.is2d` | 41-49 | type test; arrays have fixed shapes in the model |
| `piecewise.force2d` | 52-56 | type test; arrays have fixed shapes in the model |
| `symbolic.LagrangesMethod.__init__` | 707-755 | copied from sympy; stores its arguments |
| `symbolic.LagrangesMethod.ext_forces_matrix` | 824-837 | getter that returns the forces collected in `form_lagranges_equations` (modelled in Lag) |
| `util.set_fonts` | 250-256 | plotting |
| `util.save_fig` | 356-380 | plotting |

## Axioms of each theorem

From `#print axioms` for every theorem named in MANIFEST.json (886 theorems).

* none: `Chords.Props.C51_refuted`, `Chords.Props.C88_partial`, `Chords.Props.C88_refuted`
* `propext`: `Chords.Props.C61_equispaced_refuted`, `Chords.Props.C61_pseudo_refuted`, `Chords.Props.C61_unapplied_refuted`, `Chords.Props.C96_refuted`
* `Quot.sound, propext`: `Chords.Adaptive.C45_split`, `Chords.Cache.C167_refuted`, `Chords.Cache.C37_cache`, `Chords.Cache.C37_computed_once`, `Chords.Cache.C38_key`, `Chords.Cache.C38_same_key_iff`, `Chords.Cache.C39_broken_forever`, `Chords.Cache.C41_partial`, `Chords.Cache.call_refines`, `Chords.Conditions.C178_node_partial`, `Chords.Props.C53_index_refuted`, `Chords.Props.C53_notation_refuted`, `Chords.Props.C53_places`
* `Classical.choice, Quot.sound, propext`: the other 866 theorems

## Where the code disagrees with the properties

Each line: what happens, where in `/repo/chords`, the theorem.

**Equispaced schemes, integration, interpolation**

* `rk4_restr` ignores the controls at the middle and at the end of the step that `rk4_step` uses (piecewise.py): C10_rk4_refuted.
* One step with two or more controls raises `IndexError` in every integrator (`coherent_dimensions`, piecewise.py 810-): C12_*_refuted.
* The success flag of `scipy.optimize.root` is never read, so that failed steps are returned as a trajectory: C75_refuted.
* `expand_F` for numpy functions asserts the wrong length unless the order is 2, and `expand_G` ignores its order: C13_numpy_order_refuted, C13_expand_G_refuted; the same makes `g_q` residuals of other orders wrong or impossible: C78_g_q_refuted, C78_g_q_first_refuted.
* `increase_order_implicit_func` has the rows with the opposite sign to the documentation, and `state_mode="q"` always raises: C76_sign_refuted, C77_refuted.
* Times before the start are read with Python's negative indices: C14_before_refuted.
* The dictionary of midpoint data of one trajectory is used for the next one: C15_refuted.
* A series of numbers interpolated with `trapz` gives the first sample of the step: C80_trapz_refuted.
* `hsn` midpoints are computed with the first order formula: C81_hsn_refuted.
* `"euler"` is accepted and has no constraint function (`KeyError`): C60_euler_refuted, C91_euler_refuted.
* `interpolation` of an equispaced result counts instants from zero although the trajectory starts at t0: C116_refuted, C116_early_refuted.

**Costs**

* `quad_cost` without midpoints is twice the integral; `sq_cost` without midpoints raises: C18_quad_cost_refuted, C68_refuted.
* Pseudospectral running costs are twice the integral (weights on [-1, 1] multiplied with the whole duration): C67_refuted; wrong points for Jacobi schemes of other orders than 2: C71_refuted; `trapz_cost` always raises, because a CasADi function is called with SymPy symbols: C36_refuted; the function it is made from leaves out the first interval: C36_function_refuted.
* Segmented `quad_cost`: positional arguments are shifted, so `squared=False` squares, and arrays with the rows of `x` raise: C35_*_refuted.

**Pseudospectral points and constraints**

* `node_points` ignores the order that `coll_points` uses for Jacobi schemes: C21_order_refuted, and its consequences C70_refuted, C102_refuted, C104_refuted, C109_refuted.
* One Gauss point makes bottom-up problems fail: C29_one_gauss, C30_one_gauss, C99_one_gauss.
* The derivative at the start of node based problems is not constrained below the highest block; first order schemes leave the row of the start free: C72_refuted, C74_refuted.
* Segmented problems accept repeated knots and segments without points: C34_refuted, C69_refuted.
* Top-down segments also make the highest derivative continuous, bottom-up ones do not; `D2` does not link the rows of the knots: C100_refuted, C101_refuted.
* `extend_x_arrays`/`extend_u_array` order and missing cases (LG_inv, CG_inv, JG, JG_inv, JG2, CG2): C65_refuted, C65_jacobi, C104_unknown, C105_mismatch.
* `interpolations_deriv_pseudospectral` returns the slope in scaled time and fails at the end for LG, CG, JG: C66_refuted, C66_raises.
* The start derivative function differentiates at the middle: C107_refuted; shifted arguments in a call: C108_refuted.
* "smooth" is documented for controls and not implemented, the first derivative of linearly interpolated top-down results raises because the times are a list (so do the dynamic errors with that option), and higher derivatives have the wrong length: C112_*_refuted.

**Results**

* Times of segmented interpolations are not the requested ones: C46_times_refuted; for LG2, JG2, CG2, LGLm they do not start at t0: C121_refuted.
* `save_in_res=False` still stores interpolations: C118_refuted.
* Segmented results lose the prefix of the scheme: C87_ph_refuted.

**Problem object and guesses**

* `Opti_Problem` accepts names and objects that can never be set up: C60_*_refuted.
* Calls out of order raise `AttributeError` or leave half a problem; `solve` does not need `apply_scheme`: C61_*_refuted.
* Dynamics are cached on the object, so a second problem with other controls gets the functions of the first: C88_refuted.
* Initial guesses: centre of `hsj`, numbers, segmented linear guess, acceleration, order one: C63_*_refuted, C90_*_refuted.
* Guesses of controls: centre of `hsj`, knots and ends with a custom guess, nodes of segmented top-down problems: C177_*_refuted.

**Adaptive refinement**

* The minimum number of points is not kept, the budget is not checked after a failure, `silent=False` always raises: C43_refuted, C44_*_refuted.

**Symbolic part**

* Constraints with a term in time only, coupling terms and a missing transpose in the reduction: C47_offset_refuted, C48_*_refuted, C92_agree_refuted.
* Reading `rhs_full` changes `rhs`; `lambda_vector` needs it: C49_refuted, C49_lambda_refuted.
* The implicit class raises with constraints (pseudoinverse): C93_constrained_refuted.
* Names of derivatives collide, short notation is merged or not recognised, indices are ordered as strings: C51_refuted, C52_refuted, C53_*_refuted, C96_refuted, C97_refuted.

**Cache**

* Keys collide with `*args`/`**kwargs`; functions of the same name share a file; a kill while writing breaks all later calls; concurrent calls may raise: C38_*_refuted, C39_refuted, C40_same_name_refuted, C41_*refuted.

**Numeric helpers**

* Slope at the last sample has the wrong sign, integer arrays truncate, tables raise, samples at the end are not drawn, labels repeat, one-row tables and constant components raise: C55_*_refuted, C56_*_refuted, C57_end_refuted, C83_refuted, C84_*_refuted, C85_one_row_refuted.

**Errors of results (implicit dynamics, instants, integrals)**

* `dynamic_error_implicit` raises with multipliers and for orders other than two: C123_multipliers_refuted, C123_order_refuted.
* `F_point` and `quad_problem` call `_newpoint_der` with eight arguments, and it has seven parameters. `F_point` and `doub_quad_problem` raise a TypeError for every scheme but "hs_scipy", and `quad_problem` always raises: C124_scheme_refuted, C124_scheme_type_refuted, C125_refuted, C126_scheme_refuted.
* `F_point` and `doub_quad_problem` use the controls of other instants, and raise near the end, if the first time is not zero: C124_shift_refuted, C124_refuted, C126_refuted.
* `arr_max` raises on tables without columns: C127_refuted.
* The summary of a refinement integrates errors over [0, 2]: C134_refuted.

**Functions made from expressions**

* Accelerations in implicit dynamics are listed as parameters: C131_implicit_refuted.
* `doub_pend_F` cannot be called with its default parameters, nor with a table of one row: C132_default_refuted, C132_row_refuted.
* NumPy functions raise for one row and for constant accelerations; a state given as a number, or derivatives of states, are not recognised: C135_*_refuted, C136_*_refuted, C84_mixed_refuted.
* Printed functions: not Python without controls or parameters, a single control or parameter is bound to the whole list: C137_*_refuted, C138_one_refuted.
* Node based problems: the second derivative of the position is not the acceleration: C140_node_refuted.
* Numeric inverse dynamics: raises with constraints, in the implicit class, with prescribed dynamic symbols, with a parameter called `dummy` and with parameters that cancel: C144_*_refuted.

**Arrays**

* States of integers lose decimals in the restriction functions; several rows are not handled row by row; dynamics that return a column are broadcast: C142_int_refuted, C143_*_refuted, C146_*_refuted.
* `restriction2casadi` gives parameters of the scheme as a column and states and controls as rows: C147_column_refuted.

**Labels**

* Some schemes of problems cannot be plotted; colour and style do not tell all schemes apart, and the schemes `BU_LGR` and `TD_LG2` have the same colour: C145_refuted, C145_color_refuted, C145_family_refuted.

**Smooth interpolation of pseudospectral results**

* The matrix of velocities is that of other nodes for LG and CG, the inverted schemes are out of step, derivatives of orders 0 and 2 use wrong slopes: C150_*_refuted.
* `gradient(uu, t)` is called without the axis: it raises for tables of controls, and for node based schemes with more nodes than controls: C151_*_refuted.

**Functions that take one sample**

* `try_array_f`: one coordinate gives a square table of errors; functions that take items without raising on tables give all samples the acceleration of the first: C148_one_refuted, C148_first_refuted.

**Robots and problem objects**

* `Panda_Simp` ignores the angles between axes that are given, changes the caller's dictionaries and mixes up shared ones: C160_alpha_refuted, C160_caller_refuted, C160_shared_refuted.
* `trapz_cost` of segmented problems always raises; problems without a cost raise after the solver has run, although the code compares the cost with `None`: C161_trapz_refuted, C161_cost_refuted.

**Digits and given middles**

* After a call with linear controls the dictionary of the caller has controls at the middles that nobody gave, and a parabola of controls is then drawn through them instead of raising: C162_refuted.
* `extend_u_array` gives the order as the number of digits of the collocation points, so controls are put at times rounded to two digits: C163_refuted, C163_lin_refuted.
* `JG2` gives the number of digits as the order of the polynomial: C164_JG2_refuted.
* Controls from the dynamics raise with the scheme hs_scipy: C165_scipy_refuted.
* hs_scipy: derivatives of order three or more are zeros, and only the last time is compared with the end: C166_order_refuted, C166_outside_refuted.

**Results that cannot be saved**

* `diff_end_p_fun` and `diff_start_p_fun` are decorated with `store_results` but return a function made by `lambdify`, which pickle refuses: no call returns a value, the first raises and leaves a file that makes all later ones raise, in every process: C167_refuted.
* Apart from the factor 2 of C67, `u_sq_cost` with Lobatto points exceeds the integral of the squared control by a positive multiple of its highest coefficient squared: C169_refuted, C169_lobatto.
* In segmented top-down problems `for ii in range(order + 1)` with the test `if ii <= order` joins the highest derivatives at the knots as well as the states; controls that make them jump have no feasible point: C172_td_refuted.
* Node based problems: at order 1, LG2, JG2, CG2 and LGLm leave one degree of freedom per column and segment that no constraint fixes (C173_two_refuted); Lobatto schemes, and Gauss schemes with several segments, have more conditions than unknowns and exclude most controls (C174_lobatto_all_refuted, C174_knots_refuted), and so do LG2, JG2, CG2 and LGLm beyond order 2 (C174_two_order_refuted).
* `apply_scheme` of segmented problems compares `x[n_q:]` with `x_d[:-n_q]` at the knots, which is empty for first order problems, and the controls at the knots, which is empty without controls; the Hermite-Simpson schemes with straight controls also compare empty controls. CasADi refuses empty conditions, so these problems cannot be set up (C176_order_refuted, C176_controls_refuted). The other claims about segmented problems read an empty comparison as no constraint.
* Top-down, Gauss and Lobatto segments give the optimiser more conditions than the start and the controls leave room for; with few controls there are more conditions than unknowns, which Ipopt refuses: C178_*_refuted.
* `generate_tz_interp` and `generate_hs_interp` fill a copy of the state, so that a trajectory given as an array of integers is interpolated with integers only: C179_int, C179_int_refuted.
* The cached functions that return points return the list kept in the cache, often shared by several functions, so that a change made by a user to a result changes later results, and can be saved to the files of `store_results`: C180_refuted, C180_disk_refuted, C180_coef_refuted.
* `gauss_rep_integral` with `f2d=True` multiplies the factor of the repeated integral along the components, not along the instants: it raises or gives wrong numbers for most sizes: C181_error, C181_column_refuted, C181_refuted.
* `add_points` takes the logarithm of the error of each segment: a segment without error (or with one point) gets the integer that numpy makes of an infinite number, so that the next mesh has a segment with a negative number of points: C182_refuted. Segments with small errors lose points: C182_mesh_partial, C43.
* With Jacobi-Radau points ("JGR") of order two, the default and that of bottom-up, top-down and segmented problems, the weight of the first point is zero whenever the number of points is even: the control at the start is free (C184_refuted). With two points and a higher order it is `(2 - order) / 2`, negative, and the cost has no lower bound (C184_negative_refuted).
* The costs that are twice the integral (C18, C67) stay so with any number of intervals or points: C183_refuted.
* So with "JGR" and an even number of points a problem with linear dynamics has many optima: two points and `q'' = u` from rest reach any position at no cost (C186_refuted).
* Node based problems with "JGR" of order three may have no optimum at all: with two points and `q''' = u` from rest the cost goes below any number (C187_refuted).
