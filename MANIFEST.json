{
 "claims": [
  {
   "property": "C01",
   "status": "proved",
   "theorems": [
    "Chords.Props.C01_trapz"
   ],
   "note": ""
  },
  {
   "property": "C02",
   "status": "proved",
   "theorems": [
    "Chords.Props.C02_hs",
    "Chords.Props.C02_hs_parab"
   ],
   "note": ""
  },
  {
   "property": "C03",
   "status": "proved",
   "theorems": [
    "Chords.Props.C03_trapz_mod"
   ],
   "note": ""
  },
  {
   "property": "C04",
   "status": "proved",
   "theorems": [
    "Chords.Props.C04_hs_mod"
   ],
   "note": ""
  },
  {
   "property": "C05",
   "status": "proved",
   "theorems": [
    "Chords.Props.C05_hsj",
    "Chords.Props.C05_motion_exists",
    "Chords.Props.C05_hsj_plain"
   ],
   "note": ""
  },
  {
   "property": "C06",
   "status": "proved",
   "theorems": [
    "Chords.Props.C06_trapz_n",
    "Chords.Props.C06_motion_exists"
   ],
   "note": ""
  },
  {
   "property": "C07",
   "status": "proved",
   "theorems": [
    "Chords.Props.C07_hsn",
    "Chords.Props.C07_motion_exists"
   ],
   "note": ""
  },
  {
   "property": "C08",
   "status": "proved",
   "theorems": [
    "Chords.Props.C08_trapz_order1",
    "Chords.Props.C08_trapz_order2",
    "Chords.Props.C08_hs_order1",
    "Chords.Props.C08_hs_order2",
    "Chords.Props.C10_accel_second"
   ],
   "note": "hs order 2: the generated functions equal the acceleration forms, which have the same solutions as hs_mod by C10_accel_second"
  },
  {
   "property": "C09",
   "status": "proved",
   "theorems": [
    "Chords.Props.C09_tz_deriv",
    "Chords.Props.C09_hs_deriv",
    "Chords.Props.C09_hsj_deriv",
    "Chords.Props.C09_hsj_deriv2"
   ],
   "note": "per piece of the interpolation"
  },
  {
   "property": "C10",
   "status": "partial",
   "theorems": [
    "Chords.Props.C10_step_iff_restr_first",
    "Chords.Props.C10_step_iff_restr_second",
    "Chords.Props.C10_accel_first",
    "Chords.Props.C10_accel_second",
    "Chords.Props.C10_rk4_partial",
    "Chords.Props.C10_rk4_refuted"
   ],
   "note": "holds for every scheme except rk4, where rk4_restr ignores the middle and end controls (refuted by a witness)"
  },
  {
   "property": "C100",
   "status": "partial",
   "theorems": [
    "Chords.Props.C100_feasible",
    "Chords.Props.C100_partial",
    "Chords.Props.C100_highest",
    "Chords.Props.C100_refuted"
   ],
   "note": "The top-down constraints also make the highest derivative continuous at the knots (opti.py 2846 always holds), so that the converse fails: C100_refuted. C100_partial is the direction that holds."
  },
  {
   "property": "C101",
   "status": "partial",
   "theorems": [
    "Chords.Props.C101_feasible",
    "Chords.Props.C101_continuous",
    "Chords.Props.C101_highest",
    "Chords.Props.C101_jump",
    "Chords.Props.C101_refuted"
   ],
   "note": "C101_feasible is the exact description for every scheme; for D2 the rows of the knots are not linked to the segments (C101_refuted). Gauss schemes of order above 2 raise an error and are not covered."
  },
  {
   "property": "C102",
   "status": "partial",
   "theorems": [
    "Chords.Props.C102_partial",
    "Chords.Props.C102_refuted"
   ],
   "note": "Holds for order 2 and for the schemes that do not depend on the order; fails for Jacobi schemes of other orders."
  },
  {
   "property": "C103",
   "status": "proved",
   "theorems": [
    "Chords.Props.C103_interp",
    "Chords.Props.C103_deriv"
   ],
   "note": ""
  },
  {
   "property": "C104",
   "status": "partial",
   "theorems": [
    "Chords.Props.C104_partial",
    "Chords.Props.C104_unknown",
    "Chords.Props.C104_refuted"
   ],
   "note": "False for JG_inv, JG2 and CG2 (refused) and for Jacobi schemes of other orders than 2 (points of order 2 are used)."
  },
  {
   "property": "C105",
   "status": "partial",
   "theorems": [
    "Chords.Props.C105_partial",
    "Chords.Props.C105_mismatch"
   ],
   "note": "True for the Lobatto schemes and D2; for every other scheme the call raises ValueError, which is proved."
  },
  {
   "property": "C106",
   "status": "proved",
   "theorems": [
    "Chords.Props.C106_nodes",
    "Chords.Props.C106_controls",
    "Chords.Props.C106_unit",
    "Chords.Props.C106_kind"
   ],
   "note": ""
  },
  {
   "property": "C107",
   "status": "partial",
   "theorems": [
    "Chords.Props.C107_partial",
    "Chords.Props.C107_refuted"
   ],
   "note": "The start function differentiates at the middle of the interval."
  },
  {
   "property": "C108",
   "status": "partial",
   "theorems": [
    "Chords.Props.C108_partial",
    "Chords.Props.C108_refuted"
   ],
   "note": "Arguments are shifted by one in the call: one sample at t = n_interp is returned."
  },
  {
   "property": "C109",
   "status": "partial",
   "theorems": [
    "Chords.Props.C109_partial",
    "Chords.Props.C109_refuted"
   ],
   "note": "Proved unless a Jacobi scheme is used with an order of the scheme other than 2; refuted there."
  },
  {
   "property": "C11",
   "status": "proved",
   "theorems": [
    "Chords.Integ.C11_euler_tape",
    "Chords.Integ.C11_euler_table",
    "Chords.Integ.C11_rk4_tape",
    "Chords.Integ.C11_rk4_table",
    "Chords.Integ.C11_rk4_given",
    "Chords.Integ.C11_wrong_start"
   ],
   "note": "Both shapes of control array, for every number of steps. The one shape that fails is the subject of C12."
  },
  {
   "property": "C110",
   "status": "partial",
   "theorems": [
    "Chords.Props.C110_partial"
   ],
   "note": "Proved unless a Jacobi scheme is used with an order of the scheme other than 2."
  },
  {
   "property": "C111",
   "status": "proved",
   "theorems": [
    "Chords.Props.C111_interp",
    "Chords.Props.C111_deriv"
   ],
   "note": ""
  },
  {
   "property": "C112",
   "status": "partial",
   "theorems": [
    "Chords.Props.C112_bu",
    "Chords.Props.C112_td_partial",
    "Chords.Props.C112_td_slope_refuted",
    "Chords.Props.C112_td_error_refuted",
    "Chords.Props.C112_td_refuted",
    "Chords.Props.C112_smooth_refuted"
   ],
   "note": "Proved for bottom-up results and for the values of top-down results. Refuted for all derivatives of top-down results (the first raises for all inputs and with it the dynamic errors, higher ones have the wrong length) and for the option \"smooth\"."
  },
  {
   "property": "C113",
   "status": "partial",
   "theorems": [
    "Chords.Props.C113_partial"
   ],
   "note": "Proved for all implemented schemes and every motion except Jacobi schemes with a scheme order other than 2, for which the library's own formula uses the wrong weights (C109_refuted). Instants may be the default ones or given; only the default (polynomial) interpolation."
  },
  {
   "property": "C114",
   "status": "proved",
   "theorems": [
    "Chords.Props.C114"
   ],
   "note": "Default (polynomial) interpolation; the states stored in the result are only read for their number."
  },
  {
   "property": "C115",
   "status": "proved",
   "theorems": [
    "Chords.Props.C115",
    "Chords.Props.C115_order"
   ],
   "note": "Orders 1 and 2 return the polynomials; every other order raises NotImplementedError."
  },
  {
   "property": "C116",
   "status": "partial",
   "theorems": [
    "Chords.Props.C116_partial",
    "Chords.Props.C116_refuted",
    "Chords.Props.C116_early_refuted",
    "Chords.Props.equi_local"
   ],
   "note": "Proved for problems that start at time zero. Refuted otherwise: if the problem starts later, the call with the default instants always raises; if it starts earlier, the state at another time is returned (the instants are counted from the start of the trajectory, equi_local)."
  },
  {
   "property": "C117",
   "status": "proved",
   "theorems": [
    "Chords.Props.C117",
    "Chords.Props.C117_mode"
   ],
   "note": "For every dictionary with the documented arrays and every dynamics that reads only the state and the control."
  },
  {
   "property": "C118",
   "status": "partial",
   "theorems": [
    "Chords.Props.C118_bu_partial",
    "Chords.Props.C118_td",
    "Chords.Props.C118_node",
    "Chords.Props.C118_equi_partial",
    "Chords.Props.C118_refuted"
   ],
   "note": "The errors are proved for every kind of problem (bottom-up Jacobi schemes with the default order 2; equispaced from t0 = 0, as C113 and C116). The last part is false: interpolations are stored in the result even with save_in_res false (C118_refuted)."
  },
  {
   "property": "C119",
   "status": "partial",
   "theorems": [
    "Chords.Props.C119_partial",
    "Chords.Props.C119_named",
    "Chords.Props.C119_times",
    "Chords.Props.C119_given"
   ],
   "note": "C119_named: all named entries when the solver used the order of the problem, nothing assumed about derivatives at knots. C119_partial: every entry and order of the problem, when the derivative at the knots belongs to both segments; missing where it jumps. Jacobi schemes with the default order 2."
  },
  {
   "property": "C12",
   "status": "partial",
   "theorems": [
    "Chords.Integ.C12_single_partial",
    "Chords.Integ.C12_one_row_refuted",
    "Chords.Integ.C12_euler_one_row_refuted",
    "Chords.Integ.C12_flat_refuted"
   ],
   "note": "False of the code: one step with two or more controls raises IndexError in every integrator. It holds for one control in each way of writing it, and for all other shapes by C11 and C75."
  },
  {
   "property": "C120",
   "status": "proved",
   "theorems": [
    "Chords.Props.C120",
    "Chords.Props.C119_times",
    "Chords.Props.C119_given"
   ],
   "note": ""
  },
  {
   "property": "C121",
   "status": "partial",
   "theorems": [
    "Chords.Props.C121_partial",
    "Chords.Props.C121_refuted",
    "Chords.Props.C119_times",
    "Chords.Props.C119_given"
   ],
   "note": "Proved for every scheme but LG2, JG2, CG2 and LGLm, for which the interpolation does not start at t0 (C121_refuted)."
  },
  {
   "property": "C122",
   "status": "partial",
   "theorems": [
    "Chords.Props.C122_bu",
    "Chords.Props.C122_td",
    "Chords.Props.C122_node_partial"
   ],
   "note": "Node based schemes LG2, JG2, CG2 and LGLm are missing (C121_refuted); bottom-up Jacobi schemes with the default order 2."
  },
  {
   "property": "C123",
   "status": "partial",
   "theorems": [
    "Chords.Props.C123_partial",
    "Chords.Props.C123_explicit",
    "Chords.Props.C123_multipliers_refuted",
    "Chords.Props.C123_order_refuted"
   ],
   "note": "Holds for second order systems without multipliers. False with multipliers (the array of the solution does not fit) and for every other order: the call always raises."
  },
  {
   "property": "C124",
   "status": "partial",
   "theorems": [
    "Chords.Props.C124_partial",
    "Chords.Props.C124_scheme_refuted",
    "Chords.Props.C124_scheme_type_refuted",
    "Chords.Props.C124_shift_refuted",
    "Chords.Props.C124_refuted"
   ],
   "note": "Holds for SciPy's spline (\"hs_scipy\"), linear controls, second order systems and trajectories that start at time zero. False of the code otherwise: with every other scheme the call raises, because _newpoint_der is called with one argument too many (C124_scheme_refuted, C124_scheme_type_refuted); if the first time is not zero the controls are those of other instants (C124_shift_refuted) and the last part of the trajectory raises (C124_refuted)."
  },
  {
   "property": "C125",
   "status": "partial",
   "theorems": [
    "Chords.Props.C125_refuted",
    "Chords.Props.C125_partial"
   ],
   "note": "False of the code: quad_problem raises for every trajectory with at least one coordinate, whatever the scheme, because _newpoint_der is called with one argument too many (C125_refuted). Without coordinates it returns no integrals (C125_partial)."
  },
  {
   "property": "C126",
   "status": "partial",
   "theorems": [
    "Chords.Props.C126_partial",
    "Chords.Props.C126_scheme_refuted",
    "Chords.Props.C126_refuted"
   ],
   "note": "Holds for SciPy's spline (\"hs_scipy\"), linear controls, second order systems, exact integration and trajectories that start at time zero. False of the code otherwise: every other scheme raises (C126_scheme_refuted), and so do trajectories that start later (C126_refuted)."
  },
  {
   "property": "C127",
   "status": "proved",
   "theorems": [
    "Chords.Props.C127_sizes",
    "Chords.Props.C127_refuted"
   ],
   "note": "arr_max raises for tables without columns (C127_refuted)."
  },
  {
   "property": "C128",
   "status": "proved",
   "theorems": [
    "Chords.Props.C128_x",
    "Chords.Props.C128_q",
    "Chords.Props.C128_shape",
    "Chords.Props.C128_all"
   ],
   "note": "Other names collide or become parameters (C51, C53)."
  },
  {
   "property": "C129",
   "status": "proved",
   "theorems": [
    "Chords.Props.C129_residuals",
    "Chords.Props.C129_states"
   ],
   "note": "As many expressions as coordinates, or as states."
  },
  {
   "property": "C13",
   "status": "partial",
   "theorems": [
    "Chords.Expand.C13_expand_numpy",
    "Chords.Expand.C13_expand_casadi",
    "Chords.Expand.C13_round_trip_casadi",
    "Chords.Expand.C13_round_trip_numpy",
    "Chords.Expand.C13_expand_reduce",
    "Chords.Expand.C13_expand_G_casadi",
    "Chords.Expand.C13_expand_G_numpy",
    "Chords.Expand.C13_mode_error",
    "Chords.Expand.C13_numpy_order_refuted",
    "Chords.Expand.C13_expand_G_refuted"
   ],
   "note": "Holds for order 2 and, in casadi mode, for expand_F of any order. False for numpy functions of other orders (AssertionError) and for expand_G of other orders, which ignores its order argument. One state at a time; series of states are not modelled."
  },
  {
   "property": "C130",
   "status": "proved",
   "theorems": [
    "Chords.Props.C130_q",
    "Chords.Props.C130_x"
   ],
   "note": "Other names collide or become parameters (C51, C53)."
  },
  {
   "property": "C131",
   "status": "partial",
   "theorems": [
    "Chords.Props.C131_explicit",
    "Chords.Props.C131_implicit_partial",
    "Chords.Props.C131_implicit_refuted"
   ],
   "note": "True of explicit dynamics. False of implicit dynamics in which an acceleration appears: it is listed among the parameters."
  },
  {
   "property": "C132",
   "status": "partial",
   "theorems": [
    "Chords.Props.C132_motion",
    "Chords.Props.C132_series",
    "Chords.Props.C132_casadi",
    "Chords.Props.C132_row_refuted",
    "Chords.Props.C132_default_refuted"
   ],
   "note": "Holds for one state and for tables of any number of rows but one, with ten parameters. False with the default parameters (five values for ten names) and for tables of one row: both raise."
  },
  {
   "property": "C133",
   "status": "partial",
   "theorems": [
    "Chords.Props.C133_bu",
    "Chords.Props.C133_td",
    "Chords.Props.C133_node_partial",
    "Chords.Props.C133_converged"
   ],
   "note": "Bottom-up and top-down results in full; for node based results LG2, JG2, CG2 and LGLm are missing, whose interpolation is wrong (C121_refuted)."
  },
  {
   "property": "C134",
   "status": "partial",
   "theorems": [
    "Chords.Props.C134_sum",
    "Chords.Props.C134_scaled",
    "Chords.Props.C134_partial",
    "Chords.Props.C134_refuted"
   ],
   "note": "False of the code: the errors are integrated over [0, 2] whatever the interval of the problem, so an error is scaled by 2 / (tf - t0), and for several segments the instants are not those of the interpolation. Proved: what is reported in general, the scale for one segment, that everything else is right, and the claim for one segment with an interval of length 2."
  },
  {
   "property": "C135",
   "status": "partial",
   "theorems": [
    "Chords.Props.C135_sample",
    "Chords.Props.C135_series_partial",
    "Chords.Props.C135_one_row_refuted",
    "Chords.Props.C135_constant_refuted"
   ],
   "note": "One sample in both modes is proved for all systems, and so are series of at least two samples in both modes when every expression depends on a state or a control. False otherwise: with one row, or with an acceleration that depends on parameters alone (free fall), the function raises."
  },
  {
   "property": "C136",
   "status": "partial",
   "theorems": [
    "Chords.Props.C136_partial",
    "Chords.Props.C136_derivative_refuted",
    "Chords.Props.C136_int_refuted"
   ],
   "note": "Proved for states given as a list, when the expressions contain no symbols that find_arguments takes for their derivatives; a derivative of the state in the expressions gives a function that always raises, and a state given as a number is not looked up (x_0 is a parameter)."
  },
  {
   "property": "C137",
   "status": "partial",
   "theorems": [
    "Chords.Props.C137_partial",
    "Chords.Props.C137_syntax_refuted",
    "Chords.Props.C137_one_refuted"
   ],
   "note": "Proved for at least two controls and two parameters with names that the text does not use; without controls or without parameters the text is not Python, and a single control is bound to the whole list."
  },
  {
   "property": "C138",
   "status": "partial",
   "theorems": [
    "Chords.Props.C138_partial",
    "Chords.Props.C138_one_refuted"
   ],
   "note": "Proved when there is not exactly one control nor exactly one parameter; a single parameter is bound to the whole list."
  },
  {
   "property": "C139",
   "status": "proved",
   "theorems": [
    "Chords.Props.C139_motion"
   ],
   "note": "End to end from the symbolic expressions to the constraints of the equispaced schemes. The existence of values of the quantities for any state (so that the statement is not empty) is exists_state."
  },
  {
   "property": "C14",
   "status": "partial",
   "theorems": [
    "Chords.Interp.Props.C14_piece",
    "Chords.Interp.Props.C14_sample",
    "Chords.Interp.Props.C14_beyond",
    "Chords.Interp.Props.C14_derivative",
    "Chords.Interp.Props.C14_derivative_end",
    "Chords.Interp.Props.C14_derivative_beyond",
    "Chords.Interp.Props.C14_call",
    "Chords.Interp.Props.C14_call_sample",
    "Chords.Interp.Props.C14_call_beyond",
    "Chords.Interp.Props.C14_call_derivative",
    "Chords.Interp.Props.C14_call_total",
    "Chords.Interp.Props.C14_before_refuted",
    "Chords.Interp.Props.C14_call_last",
    "Chords.Interp.Props.C14_short_controls",
    "Chords.Interp.Props.C14_control_count"
   ],
   "note": "The part about negative times is false of the code: they are read with Python's negative indices (C14_before_refuted). Everything else is proved, for the single point functions and for the public calls."
  },
  {
   "property": "C140",
   "status": "partial",
   "theorems": [
    "Chords.Props.C140_bu",
    "Chords.Props.C140_td",
    "Chords.Props.C140_node_partial",
    "Chords.Props.C140_node_refuted"
   ],
   "note": "Bottom-up and top-down in full. Node based schemes have one polynomial for the position and another for the velocity, whose derivative is the acceleration: the second derivative of the position is not, and a feasible point where they differ is given."
  },
  {
   "property": "C141",
   "status": "proved",
   "theorems": [
    "Chords.Props.C141_equi",
    "Chords.Props.C141_bu"
   ],
   "note": "For implicit dynamics."
  },
  {
   "property": "C142",
   "status": "proved",
   "theorems": [
    "Chords.Props.C142_trapz",
    "Chords.Props.C142_hs",
    "Chords.Props.C142_half",
    "Chords.Props.C142_int_refuted"
   ],
   "note": "Programs on a memory of arrays with views (NumPy) or copies (CasADi). C142_int_refuted shows that integers give other values."
  },
  {
   "property": "C143",
   "status": "proved",
   "theorems": [
    "Chords.Props.C143_euler",
    "Chords.Props.C143_trapz",
    "Chords.Props.C143_hs_half",
    "Chords.Props.C143_hs",
    "Chords.Props.C143_trapz_mod",
    "Chords.Props.C143_hs_mod_half",
    "Chords.Props.C143_hs_mod",
    "Chords.Props.C143_hsj_half",
    "Chords.Props.C143_hsj",
    "Chords.Props.C143_int_refuted",
    "Chords.Props.C143_rows_refuted"
   ],
   "note": "One row of floats in both libraries; the refuted theorems are the last sentence of the statement."
  },
  {
   "property": "C144",
   "status": "partial",
   "theorems": [
    "Chords.Props.C144_returns",
    "Chords.Props.C144_params",
    "Chords.Props.C144_values",
    "Chords.Props.C144_lengths",
    "Chords.Props.C144_exact",
    "Chords.Props.C144_constrained_refuted",
    "Chords.Props.C144_implicit_refuted",
    "Chords.Props.C144_dynamic_refuted",
    "Chords.Props.C144_dummy_refuted",
    "Chords.Props.C144_cancelled_refuted"
   ],
   "note": "When the function exists, its parameters, its values and their exactness in fully actuated affine systems are proved for all systems. The property is false of constrained systems, of the implicit class, of systems with a prescribed dynamic symbol, of parameters named dummy and of parameters that cancel in the product from which the list is collected; each failure is proved."
  },
  {
   "property": "C145",
   "status": "proved",
   "theorems": [
    "Chords.Props.C145_accepted",
    "Chords.Props.C145_injective",
    "Chords.Props.C145_kwargs",
    "Chords.Props.C145_offered",
    "Chords.Props.C145_refuted",
    "Chords.Props.C145_color_refuted",
    "Chords.Props.C145_maps",
    "Chords.Props.C145_family_refuted"
   ],
   "note": "The set of accepted strings is finite and given in full; injectivity of labels with orders is proved for all integers. Also proved: some schemes of problems cannot be plotted, and colour and style alone do not tell schemes apart (LG and hsj_parab)."
  },
  {
   "property": "C146",
   "status": "proved",
   "theorems": [
    "Chords.Props.C146_euler",
    "Chords.Props.C146_trapz",
    "Chords.Props.C146_rk4",
    "Chords.Props.C146_hs_parab",
    "Chords.Props.C146_hs",
    "Chords.Props.C146_trapz_mod",
    "Chords.Props.C146_hs_mod_parab",
    "Chords.Props.C146_hs_mod",
    "Chords.Props.C146_hsj_parab",
    "Chords.Props.C146_hsj",
    "Chords.Props.C146_column_refuted",
    "Chords.Props.C146_int_refuted"
   ],
   "note": "The array programs return the schemes of Model/Schemes.lean entry by entry. Dynamics that return a column are broadcast silently by NumPy (C146_column_refuted), and states of integers lose decimals (C146_int_refuted). The residuals of steps of second order are modelled for arrays with one axis."
  },
  {
   "property": "C147",
   "status": "partial",
   "theorems": [
    "Chords.Props.C147_seven",
    "Chords.Props.C147_first",
    "Chords.Props.C147_eight",
    "Chords.Props.C147_eight_first",
    "Chords.Props.C147_raises",
    "Chords.Props.C147_column_refuted"
   ],
   "note": "False without the condition that the dynamics accept a column: the parameters of the scheme are not transposed, unlike states and controls (C147_column_refuted). Proved with the condition."
  },
  {
   "property": "C148",
   "status": "partial",
   "theorems": [
    "Chords.Props.C148_rows",
    "Chords.Props.C148_arrays",
    "Chords.Props.C148_error",
    "Chords.Props.C148_one_refuted",
    "Chords.Props.C148_first_refuted"
   ],
   "note": "Proved for functions that compute tables, and for functions of single samples with at least two coordinates that raise on tables. False of one coordinate (the error is a square table) and of functions that take items without raising on tables (all samples get the acceleration of the first)."
  },
  {
   "property": "C149",
   "status": "proved",
   "theorems": [
    "Chords.Props.C149_bu",
    "Chords.Props.C149_td",
    "Chords.Props.spline_cubic",
    "Chords.Props.SmoothCubic.exact"
   ],
   "note": "SciPy's CubicHermiteSpline is modelled with the coefficients and the choice of piece of its source; t0 < t1."
  },
  {
   "property": "C15",
   "status": "partial",
   "theorems": [
    "Chords.Interp.Props.C15_repeat",
    "Chords.Interp.Props.C15_repeat_derivative",
    "Chords.Interp.Props.C15_unchanged_partial",
    "Chords.Interp.Props.C15_history_partial",
    "Chords.Interp.Props.C15_history_keeps_partial",
    "Chords.Interp.Props.C15_refuted"
   ],
   "note": "False of the code: the midpoint data of an earlier trajectory stays in the dictionary (C15_refuted). Proved: repeating a call with the same trajectory, and any history in which the dictionary already has its midpoint data or the scheme needs none."
  },
  {
   "property": "C150",
   "status": "partial",
   "theorems": [
    "Chords.Props.C150_partial",
    "Chords.Props.C150_deriv",
    "Chords.Props.C150_zero_refuted",
    "Chords.Props.C150_second_refuted",
    "Chords.Props.C150_gauss_refuted",
    "Chords.Props.C150_inv_refuted"
   ],
   "note": "False for the velocities of LG and CG (the matrix belongs to other nodes), for LG_inv and CG_inv (rows and times out of step), and for derivatives of order 0 and 2 (their slopes are the derivatives of that order)."
  },
  {
   "property": "C151",
   "status": "partial",
   "theorems": [
    "Chords.Props.C151_partial",
    "Chords.Props.C151_nodes",
    "Chords.Props.C151_refuted",
    "Chords.Props.gradient_slopes"
   ],
   "note": "numpy.gradient is called without the axis: arrays with two axes are a TypeError for every scheme. With one axis it holds for bottom-up and top-down results with Hermite states and for node-based Lobatto schemes and D2; other node-based schemes are a ValueError."
  },
  {
   "property": "C152",
   "status": "proved",
   "theorems": [
    "Chords.Conv.C152_euler_tape",
    "Chords.Conv.C152_euler_table",
    "Chords.Conv.C152_trapz_tape",
    "Chords.Conv.C152_trapz_table",
    "Chords.Conv.C152_hs_tape",
    "Chords.Conv.C152_hs_table",
    "Chords.Conv.C152_hs_parab_tape",
    "Chords.Conv.C152_hs_parab_table",
    "Chords.Conv.euler_near",
    "Chords.Conv.trapz_near",
    "Chords.Conv.hs_near"
   ],
   "note": "Exact reals. The last step repeats the last control, as in the code, and the motion is the one under those controls. That the steps of the implicit integrators are solved is a hypothesis (C75)."
  },
  {
   "property": "C153",
   "status": "proved",
   "theorems": [
    "Chords.Conv.C153_rk4_tape",
    "Chords.Conv.C153_rk4_table",
    "Chords.Conv.C153_rk4_given",
    "Chords.Conv.C153_rk4_given_table",
    "Chords.Conv.rk4_near"
   ],
   "note": "Exact reals."
  },
  {
   "property": "C154",
   "status": "proved",
   "theorems": [
    "Chords.Conv.C154_trapz_mod_tape",
    "Chords.Conv.C154_trapz_mod_table",
    "Chords.Conv.C154_hs_mod_tape",
    "Chords.Conv.C154_hs_mod_table",
    "Chords.Conv.C154_hs_mod_parab_tape",
    "Chords.Conv.C154_hs_mod_parab_table",
    "Chords.Conv.C154_hsj_tape",
    "Chords.Conv.C154_hsj_table",
    "Chords.Conv.C154_hsj_parab_tape",
    "Chords.Conv.C154_hsj_parab_table",
    "Chords.Conv.trapzMod_near",
    "Chords.Conv.hsMod_near",
    "Chords.Conv.hsj_near"
   ],
   "note": "Exact reals. That the steps are solved is a hypothesis (C75)."
  },
  {
   "property": "C155",
   "status": "proved",
   "theorems": [
    "Chords.Conv.C155_line",
    "Chords.Conv.C155_parab",
    "Chords.Conv.C155_half",
    "Chords.Conv.C155_trapz",
    "Chords.Conv.C155_hs"
   ],
   "note": "Bounds with explicit constants for all feasible points of the model equiConstraints. C155_half and C155_hs give order 4, C155_parab order 3 (all parabolic schemes, hsj too), C155_line and C155_trapz order 2. The controls of the motion are those of the feasible point at the samples and inner points; with schemes without parabolic controls the inner control is the one in between, so the motion has to have it there. Existence of feasible points and the tolerance of the solver are outside of the claim."
  },
  {
   "property": "C156",
   "status": "proved",
   "theorems": [
    "Chords.Conv.C156_line",
    "Chords.Conv.C156_parab",
    "Chords.Conv.C156_half",
    "Chords.Conv.C156_trapz",
    "Chords.Conv.C156_hs"
   ],
   "note": "C155 composed with the interpolation of analysis.py (C116). The instants are counted from the start, as C116 shows the code does. Instants within 1e-8 of a step of a sample, where the code returns the sample, are covered only when they are the sample. The example is an exact case without any error."
  },
  {
   "property": "C157",
   "status": "proved",
   "theorems": [
    "Chords.Conv.C157_motion",
    "Chords.Conv.C157_levels"
   ],
   "note": "C157_motion is about the schemes of the order of the problem, C157_levels about trapz, hs and hs_parab for problems of any order (there L is at least 1). By a contraction on the derivatives at the end and at the inner point of each step, and induction on the steps. Multipliers are outside of it."
  },
  {
   "property": "C158",
   "status": "proved",
   "theorems": [
    "Chords.Conv.C158_motion",
    "Chords.Conv.C158_levels",
    "Chords.Conv.C158_line",
    "Chords.Conv.C158_parab",
    "Chords.Conv.C158_half",
    "Chords.Conv.C158_trapz",
    "Chords.Conv.C158_hs"
   ],
   "note": "For explicit dynamics without constraints."
  },
  {
   "property": "C159",
   "status": "proved",
   "theorems": [
    "Chords.Props.C159_u",
    "Chords.Props.C159_x"
   ],
   "note": ""
  },
  {
   "property": "C16",
   "status": "proved",
   "theorems": [
    "Chords.Props.C16_parab",
    "Chords.Props.C16_parab_j",
    "Chords.Interp.Props.C16_lin",
    "Chords.Interp.Props.C16_lin_end",
    "Chords.Interp.Props.C16_lin_before",
    "Chords.Interp.Props.C16_lin_bounds",
    "Chords.Interp.Props.C16_newpoint_sample",
    "Chords.Interp.Props.C16_newpoint_parab",
    "Chords.Interp.Props.C16_newpoint_parab_j",
    "Chords.Interp.Props.C16_parabola_exists"
   ],
   "note": ""
  },
  {
   "property": "C160",
   "status": "partial",
   "theorems": [
    "Chords.Props.C160_replace",
    "Chords.Props.C160_pose",
    "Chords.Props.C160_accepts",
    "Chords.Props.C160_short",
    "Chords.Props.C160_panda_default",
    "Chords.Props.C160_panda_partial",
    "Chords.Props.C160_caller",
    "Chords.Props.C160_panda_number",
    "Chords.Props.C160_alpha_refuted",
    "Chords.Props.C160_caller_refuted",
    "Chords.Props.C160_shared_refuted"
   ],
   "note": "Proved for robot_to_sympy. Panda_Simp ignores the angles between axes that the caller gives, writes its own into the dictionaries of the caller, and gives all links the last angle when they share a dictionary."
  },
  {
   "property": "C161",
   "status": "partial",
   "theorems": [
    "Chords.Props.C161_found_partial",
    "Chords.Props.C161_order",
    "Chords.Props.C161_trapz_refuted",
    "Chords.Props.C161_cost_refuted"
   ],
   "note": "Proved but for two cases where it is false: trapz_cost of segmented problems reads n_coll, which they never have, and solving without a cost reads cost, which is not set although the code compares it with None."
  },
  {
   "property": "C162",
   "status": "partial",
   "theorems": [
    "Chords.Interp.Props.C162_history",
    "Chords.Interp.Props.C162_values",
    "Chords.Interp.Props.C162_absent_partial",
    "Chords.Interp.Props.C162_filled",
    "Chords.Interp.Props.C162_filled_derivative",
    "Chords.Interp.Props.C162_refuted"
   ],
   "note": "Given controls are kept by every history, their derivatives are those of the dynamics, and absent ones raise for a parabola. Missing, because it is false of the code: after an earlier call without a parabola the same dictionary has averaged controls, so the parabola no longer raises (C162_refuted, C162_filled)."
  },
  {
   "property": "C163",
   "status": "partial",
   "theorems": [
    "Chords.Digits.C163_points",
    "Chords.Digits.C163_sixteen",
    "Chords.Digits.C163_chebyshev",
    "Chords.Digits.C163_ideal",
    "Chords.Digits.C163_extend_partial",
    "Chords.Digits.C163_refuted",
    "Chords.Digits.C163_lin_refuted"
   ],
   "note": "False of the code: extend_u_array passes the order as the number of digits (C163_refuted, C163_lin_refuted). Proved: the precision of coll_points for every number of digits, and that extend_u_array returns the right controls at times with as many digits as the order."
  },
  {
   "property": "C164",
   "status": "partial",
   "theorems": [
    "Chords.Digits.C164_LG2_partial",
    "Chords.Digits.C164_JG2_refuted"
   ],
   "note": "True of LG2 for all numbers of points and digits; false of JG2, which passes the digits as the order."
  },
  {
   "property": "C165",
   "status": "partial",
   "theorems": [
    "Chords.Interp.Props.C165_min_err",
    "Chords.Interp.Props.C165_search",
    "Chords.Interp.Props.C165_pinv_dyn",
    "Chords.Interp.Props.C165_sample",
    "Chords.Interp.Props.C165_total",
    "Chords.Interp.Props.C165_scipy_refuted"
   ],
   "note": "Proved for every scheme of states but hs_scipy; with hs_scipy the call is accepted and then raises (C165_scipy_refuted). That scipy.optimize.minimize returns a minimum where there is one is a hypothesis of C165_min_err."
  },
  {
   "property": "C166",
   "status": "partial",
   "theorems": [
    "Chords.Interp.Props.C166_cubic_partial",
    "Chords.Interp.Props.C166_samples_partial",
    "Chords.Interp.Props.C166_hs",
    "Chords.Interp.Props.C166_total",
    "Chords.Interp.Props.C166_order_refuted",
    "Chords.Interp.Props.C166_outside_refuted"
   ],
   "note": "States, first and second derivatives proved for all trajectories, and the agreement with hs on solutions. False of other orders of the derivative (zeros are returned) and of times outside (only the last one is checked)."
  },
  {
   "property": "C167",
   "status": "partial",
   "theorems": [
    "Chords.Cache.C167_partial",
    "Chords.Cache.C167_refuted"
   ],
   "note": "False of the code: a function whose results pickle refuses never returns a value, in any history. Proved besides: every call in every history answers as the undecorated function or raises an error of pickle, and functions whose results can be saved always answer as the undecorated function."
  },
  {
   "property": "C168",
   "status": "proved",
   "theorems": [
    "Chords.Props.C168_jacobi",
    "Chords.Props.C168_weights",
    "Chords.Props.C168_chebyshev"
   ],
   "note": "Jacobi and Legendre schemes: any weights exact below degree N are exact up to the degree of the family, and they exist; get_weights gives them for the Legendre schemes. LGLm is not one of the families."
  },
  {
   "property": "C169",
   "status": "partial",
   "theorems": [
    "Chords.Props.C169_gauss_radau_partial",
    "Chords.Props.C169_segments_partial",
    "Chords.Props.C169_lobatto",
    "Chords.Props.C169_refuted"
   ],
   "note": "Gauss and Radau schemes: twice the integral (the factor of C67). False for Lobatto points, where the excess is given exactly."
  },
  {
   "property": "C17",
   "status": "proved",
   "theorems": [
    "Chords.Costs.C17_exact",
    "Chords.Costs.C17_sign",
    "Chords.Costs.C17_sq_cost"
   ],
   "note": "Entry equals the integral of the squared parabola; sign; and the whole cost."
  },
  {
   "property": "C170",
   "status": "proved",
   "theorems": [
    "Chords.Props.C170_bu",
    "Chords.Props.C170_td"
   ],
   "note": ""
  },
  {
   "property": "C171",
   "status": "proved",
   "theorems": [
    "Chords.Conv.C171_bu",
    "Chords.Conv.C171_td"
   ],
   "note": ""
  },
  {
   "property": "C172",
   "status": "partial",
   "theorems": [
    "Chords.Conv.C172_bu",
    "Chords.Conv.C172_td_partial",
    "Chords.Conv.C172_td_refuted"
   ],
   "note": "Proved for bottom-up problems, and for top-down problems up to existence: at most one feasible point, and exactly one with a single segment. Refuted for top-down problems with several segments: the highest derivatives are joined at the knots too (the test `ii <= order` is always true), so controls that make them jump there have no feasible point."
  },
  {
   "property": "C173",
   "status": "partial",
   "theorems": [
    "Chords.Conv.C173_node",
    "Chords.Conv.C173_two",
    "Chords.Conv.C173_two_refuted",
    "Chords.Conv.C173_D2_refuted"
   ],
   "note": "Proved for the Gauss, Radau and Lobatto schemes (Gauss ones up to order 2, which are the orders where C101 describes the feasible set) and for LG2, JG2, CG2 and LGLm from order 2 on. Refuted for the latter in problems of order 1, which have one condition too few per column and segment, and for D2, whose knots are linked to nothing."
  },
  {
   "property": "C174",
   "status": "partial",
   "theorems": [
    "Chords.Conv.C174_unique",
    "Chords.Conv.C174_two_unique",
    "Chords.Conv.C174_exists",
    "Chords.Conv.C174_two_exists",
    "Chords.Conv.C174_lobatto_refuted",
    "Chords.Conv.C174_lobatto_all_refuted",
    "Chords.Conv.C174_gauss_refuted",
    "Chords.Conv.C174_two_refuted",
    "Chords.Conv.C174_two_order_refuted",
    "Chords.Conv.C174_knots_refuted",
    "Chords.Conv.C174_order_refuted",
    "Chords.Conv.C173_two_refuted",
    "Chords.Conv.C173_D2_refuted"
   ],
   "note": "Every scheme, order and structure is treated. Uniqueness is proved for all schemes but D2 and, at order 1, LG2, JG2, CG2 and LGLm (false there: C173_two_refuted and C173_D2_refuted). Existence is proved for Radau schemes, for Gauss schemes with one segment up to order 2 and for LG2, JG2, CG2 and LGLm at order 2 with one segment. It is false in all other cases: Lobatto schemes (C174_lobatto_all_refuted), Gauss schemes and LG2, JG2, CG2 and LGLm with more segments (C174_knots_refuted), LG2, JG2, CG2 and LGLm beyond order 2 (C174_two_order_refuted); Gauss schemes beyond order 2 cannot be set up (C174_order_refuted)."
  },
  {
   "property": "C175",
   "status": "proved",
   "theorems": [
    "Chords.Conv.C175_bu",
    "Chords.Conv.C175_td",
    "Chords.Conv.C175_near",
    "Chords.Conv.C175_node_unique",
    "Chords.Conv.C175_node_exists",
    "Chords.Conv.C175_node_near"
   ],
   "note": "Composition of the model of the symbolic set-up with the convergence of segmented problems."
  },
  {
   "property": "C176",
   "status": "partial",
   "theorems": [
    "Chords.Conditions.C176_single",
    "Chords.Conditions.C176_node",
    "Chords.Conditions.C176_equi",
    "Chords.Conditions.C176_ph",
    "Chords.Conditions.C176_order_refuted",
    "Chords.Conditions.C176_controls_refuted"
   ],
   "note": "True of the problems of one interval; for equispaced and segmented problems the exact condition is proved. False for segmented problems of first order (except node based Radau and Lobatto schemes) or without controls, and for Hermite-Simpson schemes with straight controls without controls."
  },
  {
   "property": "C177",
   "status": "partial",
   "theorems": [
    "Chords.Props.C177_line_partial",
    "Chords.Props.C177_length",
    "Chords.Props.C177_custom",
    "Chords.Props.C177_centre_refuted",
    "Chords.Props.C177_knots_refuted",
    "Chords.Props.C177_nodes_refuted"
   ],
   "note": "The guess at the central points of the schemes with \"j\" is the value at the middle instead of at four tenths; the custom guess leaves the controls at knots and ends of segmented problems without guess, and no guess sets the nodes of segmented top-down problems."
  },
  {
   "property": "C178",
   "status": "partial",
   "theorems": [
    "Chords.Conditions.C178_equi",
    "Chords.Conditions.C178_single",
    "Chords.Conditions.C178_node_partial",
    "Chords.Conditions.C178_ph_bu",
    "Chords.Conditions.C178_ph_td_refuted",
    "Chords.Conditions.C178_ph_node_partial",
    "Chords.Conditions.C178_lobatto_refuted",
    "Chords.Conditions.C178_td_refuted"
   ],
   "note": "Exact for equispaced, segmented bottom-up and Radau node based problems. Single interval problems leave in addition derivatives that appear in no condition. Lobatto node based problems lack as many unknowns as states per knot, and top-down, Gauss and two variable segments lack some per inner knot, up to more conditions than unknowns."
  },
  {
   "property": "C179",
   "status": "partial",
   "theorems": [
    "Chords.Props.C179_tz_partial",
    "Chords.Props.C179_hs_partial",
    "Chords.Props.C179_int",
    "Chords.Props.C179_int_refuted"
   ],
   "note": "Proved in full for states of floats. With a state of integers the code stores each partial sum in an array of integers: the results only have integers, and the negation is proved with an example."
  },
  {
   "property": "C18",
   "status": "partial",
   "theorems": [
    "Chords.Costs.C18_quad_cost_simpson",
    "Chords.Costs.C18_u_sq_cost_trapezoid",
    "Chords.Costs.C18_u_sq_cost_simpson",
    "Chords.Costs.C18_constant",
    "Chords.Costs.C18_quad_cost_no_midpoints_partial",
    "Chords.Costs.C18_quad_cost_refuted"
   ],
   "note": "Proved for quad_cost with midpoints and for u_sq_cost; false for quad_cost without midpoints, which is twice the integral (negation proved for every grid)."
  },
  {
   "property": "C180",
   "status": "partial",
   "theorems": [
    "Chords.Props.C180_partial",
    "Chords.Props.C180_coef_partial",
    "Chords.Props.C180_unchanged",
    "Chords.Props.C180_refuted",
    "Chords.Props.C180_disk_refuted",
    "Chords.Props.C180_coef_refuted"
   ],
   "note": "False of the code when a shared list is changed (C180_refuted, C180_disk_refuted, C180_coef_refuted): cached functions return the list kept in the cache. Proved for all sessions where no list that a call returns or reads was changed. Loss of cache entries is modelled between calls only."
  },
  {
   "property": "C181",
   "status": "partial",
   "theorems": [
    "Chords.Props.C181_partial",
    "Chords.Props.C181_error",
    "Chords.Props.C181_column_refuted",
    "Chords.Props.C181_refuted"
   ],
   "note": "False of the code outside the sizes of C181_partial: C181_error, C181_column_refuted and C181_refuted cover what happens with the other sizes (wrong values are shown for repeated integrals of constants)."
  },
  {
   "property": "C182",
   "status": "partial",
   "theorems": [
    "Chords.RefineSys.C182_run",
    "Chords.RefineSys.C182_end",
    "Chords.RefineSys.C182_mesh_partial",
    "Chords.RefineSys.C182_refuted"
   ],
   "note": "Proved: the run, its exceptions and its end, with the errors of the motions. The statement about meshes holds when every segment has an error above epsilon over its number of points (C182_mesh_partial); it is false otherwise: a segment without error gets a negative number of points (C182_refuted), also when the solution follows the dynamics exactly at its collocation points."
  },
  {
   "property": "C183",
   "status": "partial",
   "theorems": [
    "Chords.Conv.C183_quad_cost",
    "Chords.Conv.C183_quad_cost_no_midpoints_partial",
    "Chords.Conv.C183_u_sq_cost_trapezoid",
    "Chords.Conv.C183_u_sq_cost_simpson",
    "Chords.Conv.C183_u_sq_cost_radau",
    "Chords.Conv.C183_sq_cost",
    "Chords.Conv.C183_pseudospectral_partial",
    "Chords.Conv.C183_orders_partial",
    "Chords.Conv.C183_bu",
    "Chords.Conv.C183_segments_partial",
    "Chords.Conv.C183_points_partial",
    "Chords.Conv.C183_refuted"
   ],
   "note": "Proved with explicit constants for the equispaced problems with midpoints and for u_sq_cost. False for quad_cost without midpoints and for the pseudospectral and segmented problems, whose cost approaches twice the integral (C18, C67): C183_refuted; the partial theorems give the rates at which they approach it, for every scheme: with explicit constants for all but the Jacobi schemes of order three and more, and with a constant that depends on the scheme, the order and the number of points for those (C183_orders_partial)."
  },
  {
   "property": "C184",
   "status": "partial",
   "theorems": [
    "Chords.Costs.C184_equispaced",
    "Chords.Props.C184_weights",
    "Chords.Props.C184_pseudospectral_partial",
    "Chords.Props.C184_bu_partial",
    "Chords.Props.C184_segments_partial",
    "Chords.Props.C184_refuted",
    "Chords.Props.C184_negative_refuted"
   ],
   "note": "Proved for the equispaced problems with every scheme, and for all the pseudospectral and segmented problems but two cases. False with Jacobi-Radau points (\"JGR\"): of order two, the default and that of bottom-up, top-down and segmented problems, the control at the first point is free exactly when the number of points is even (the cost is still never negative); with a higher order and two points it costs less than nothing (C184_negative_refuted). Jacobi schemes of order three and more with other numbers of points are not covered."
  },
  {
   "property": "C185",
   "status": "partial",
   "theorems": [
    "Chords.Floats.C185_integerize_partial",
    "Chords.Floats.C185_roundize_partial",
    "Chords.Floats.C185_deletezeros_partial",
    "Chords.Floats.C185_value_partial"
   ],
   "note": "Proved for the replacements themselves. Missing: SymPy evaluates the expression again after each replacement, which can make two numbers meet and a new one appear that is not in the list of numbers to replace."
  },
  {
   "property": "C186",
   "status": "partial",
   "theorems": [
    "Chords.Blend.C186_node_partial",
    "Chords.Blend.C186_bu_partial",
    "Chords.Blend.C186_td_partial",
    "Chords.Blend.C186_segments_partial",
    "Chords.Blend.C186_equispaced",
    "Chords.Blend.C186_refuted"
   ],
   "note": "Full for equispaced problems. False for \"JGR\" with an even number of points: its first control costs nothing (C186_refuted: two points, the double integrator, feasible points of cost zero with any control at the start and any end). Proved for every other scheme and for all the other controls of \"JGR\". Missing besides: node based problems with Jacobi schemes of order 3 and more, where the weights may be negative (C184_negative_refuted)."
  },
  {
   "property": "C187",
   "status": "partial",
   "theorems": [
    "Chords.Blend.C187_bu",
    "Chords.Blend.C187_td",
    "Chords.Blend.C187_segments",
    "Chords.Blend.C187_equispaced",
    "Chords.Blend.C187_node_partial",
    "Chords.Blend.C187_refuted"
   ],
   "note": "Full for equispaced, bottom-up, top-down and segmented problems. Node based ones with the Jacobi schemes up to order two and the others of any order; it is false for Jacobi-Radau points of order three (C187_refuted: two points and the triple integrator from rest, cost below any number)."
  },
  {
   "property": "C188",
   "status": "partial",
   "theorems": [
    "Chords.Blend.C188_equispaced",
    "Chords.Blend.C188_levels",
    "Chords.Blend.C188_mod",
    "Chords.Blend.C188_bu_partial",
    "Chords.Blend.C188_td_partial",
    "Chords.Blend.C188_node_partial",
    "Chords.Blend.C188_two_partial",
    "Chords.Blend.C186_refuted"
   ],
   "note": "Equispaced problems: every scheme, of the order of the problem, and those of first order in problems of any order. Segmented problems: all but \"JGR\" with an even number of points, where it is false (C186_refuted: cost zero with every end position). The node based ones with gauss2 schemes from order 2, the others but \"D2\"."
  },
  {
   "property": "C189",
   "status": "partial",
   "theorems": [
    "Chords.Blend.C189_equispaced",
    "Chords.Blend.C189_bu_partial",
    "Chords.Blend.C189_td_partial",
    "Chords.Blend.C189_node_partial",
    "Chords.Blend.NumLinear.linear",
    "Chords.Blend.C186_refuted"
   ],
   "note": "Equispaced problems in full. Segmented problems: all but \"JGR\" with an even number of points, where it is false (C186_refuted), \"D2\", and node based ones with nodes at both ends (\"LG2\" and the like)."
  },
  {
   "property": "C19",
   "status": "proved",
   "theorems": [
    "Chords.Costs.C19_cost",
    "Chords.Costs.C19_degree_sharp",
    "Chords.Costs.C19_on_parabola",
    "Chords.Costs.C19_no_constraint"
   ],
   "note": ""
  },
  {
   "property": "C190",
   "status": "proved",
   "theorems": [
    "Chords.Units.C190_equispaced",
    "Chords.Units.C190_bu",
    "Chords.Units.C190_td",
    "Chords.Units.C190_node",
    "Chords.Units.C190_node_second",
    "Chords.Units.C190_cost",
    "Chords.Units.C190_segments_bu",
    "Chords.Units.C190_segments_td",
    "Chords.Units.C190_segments_node",
    "Chords.Units.C190_segments_cost"
   ],
   "note": "For all systems, non-zero factors and shifts. Outside of the ranges named in the quantifier (bottom-up Gauss kinds with one point, node based Gauss kinds of order three or more) the constraints do not fix one motion, and nothing is claimed."
  },
  {
   "property": "C191",
   "status": "proved",
   "theorems": [
    "Chords.Units.C191_equispaced",
    "Chords.Units.C191_bu",
    "Chords.Units.C191_td",
    "Chords.Units.C191_node",
    "Chords.Units.C191_node_second",
    "Chords.Units.C191_segments_bu",
    "Chords.Units.C191_segments_td",
    "Chords.Units.C191_segments_node"
   ],
   "note": "For all systems and invertible affine changes of coordinates. Outside of the ranges named in the quantifier nothing is claimed."
  },
  {
   "property": "C192",
   "status": "proved",
   "theorems": [
    "Chords.Units.C192_equispaced",
    "Chords.Units.C192_bu",
    "Chords.Units.C192_td",
    "Chords.Units.C192_node",
    "Chords.Units.C192_node_second",
    "Chords.Units.C192_cost",
    "Chords.Units.C192_cost_equispaced"
   ],
   "note": "Problems of one interval and equispaced problems. The Jacobi schemes and the schemes with a point at two fifths of the step are not symmetric and are left out of the quantifier."
  },
  {
   "property": "C193",
   "status": "proved",
   "theorems": [
    "Chords.Momentum.C193_equispaced",
    "Chords.Momentum.C193_conserved",
    "Chords.Momentum.C193_bu",
    "Chords.Momentum.C193_td",
    "Chords.Momentum.C193_node",
    "Chords.Momentum.C193_node_second",
    "Chords.Momentum.C193_segments_bu",
    "Chords.Momentum.C193_segments_td",
    "Chords.Momentum.C193_segments_node"
   ],
   "note": "Built on the descriptions of the feasible points of C30, C31, C73, C91 and C99 to C101. springPair_law shows a nonlinear system that meets the hypothesis; controlPoly_exists that the polynomials through the controls exist."
  },
  {
   "property": "C194",
   "status": "proved",
   "theorems": [
    "Chords.Energy.C194_bu",
    "Chords.Energy.C194_td",
    "Chords.Energy.C194_node",
    "Chords.Energy.C194_segments_bu",
    "Chords.Energy.C194_segments_td",
    "Chords.Energy.C194_segments_node",
    "Chords.Energy.C194_conserved",
    "Chords.Energy.C194_passive",
    "Chords.Energy.C194_start_refuted"
   ],
   "note": "Bottom-up and top-down problems of order one; for higher orders their coordinates have a higher degree and the sum is not exact. C194_start_refuted shows that with LGR instead of LGR_inv a free spring can gain energy."
  },
  {
   "property": "C195",
   "status": "proved",
   "theorems": [
    "Chords.Frames.C195_equispaced",
    "Chords.Frames.C195_bu",
    "Chords.Frames.C195_td",
    "Chords.Frames.C195_node",
    "Chords.Frames.C195_node_second",
    "Chords.Frames.C195_segments_bu",
    "Chords.Frames.C195_segments_td",
    "Chords.Frames.C195_segments_node"
   ],
   "note": "The rewritten equations are any that hold exactly when the original ones do (SeenFrom), at every time."
  },
  {
   "property": "C196",
   "status": "proved",
   "theorems": [
    "Chords.Work.C196_bu",
    "Chords.Work.C196_td",
    "Chords.Work.C196_node",
    "Chords.Work.C196_segments_bu",
    "Chords.Work.C196_segments_td",
    "Chords.Work.C196_conserved",
    "Chords.Work.C196_spring_refuted"
   ],
   "note": "LG_inv is not a scheme of bottom-up and top-down problems; node based problems with LG, LG_inv and LGR_inv are in C194. C196_spring_refuted shows that the potential has to be linear: in a top-down problem of second order a free spring changes its energy."
  },
  {
   "property": "C197",
   "status": "proved",
   "theorems": [
    "Chords.Units.C197_equispaced",
    "Chords.Units.C197_bu",
    "Chords.Units.C197_td",
    "Chords.Units.C197_node",
    "Chords.Units.C197_segments_bu",
    "Chords.Units.C197_segments_td",
    "Chords.Units.C197_segments_node",
    "Chords.Units.C197_cost",
    "Chords.Units.C197_cost_equispaced",
    "Chords.Units.C197_cost_segments"
   ],
   "note": "Problems with one interval: the two problems are equal as values, errors included. Several segments: for the arguments with which the problem can be built, both are built and equivalent. A theorem needs at least one control."
  },
  {
   "property": "C198",
   "status": "proved",
   "theorems": [
    "Chords.Together.C198_equispaced",
    "Chords.Together.C198_bu",
    "Chords.Together.C198_td",
    "Chords.Together.C198_node",
    "Chords.Together.C198_segments",
    "Chords.Together.C198_all",
    "Chords.Together.C198_cost",
    "Chords.Together.C198_cost_equispaced",
    "Chords.Together.C198_cost_segments",
    "Chords.Together.C198_best_bu",
    "Chords.Together.C198_best_td",
    "Chords.Together.C198_best_node"
   ],
   "note": "Constraints and costs: all modes, as equalities of values with errors included."
  },
  {
   "property": "C199",
   "status": "proved",
   "theorems": [
    "Chords.Parts.C199_constraints",
    "Chords.Parts.C199_cost",
    "Chords.Parts.C199_optimal"
   ],
   "note": "The cut is at the row shared by both parts, so both parts keep its states, derivatives, controls and multipliers."
  },
  {
   "property": "C20",
   "status": "proved",
   "theorems": [
    "Chords.TimeScale.C20_inverse",
    "Chords.TimeScale.C20_ends",
    "Chords.TimeScale.C20_order",
    "Chords.TimeScale.C20_function"
   ],
   "note": "All four clauses, over the reals."
  },
  {
   "property": "C200",
   "status": "proved",
   "theorems": [
    "Chords.Rest.C200_bu",
    "Chords.Rest.C200_td",
    "Chords.Rest.C200_cost",
    "Chords.Rest.C200_optimal_bu",
    "Chords.Rest.C200_optimal_td"
   ],
   "note": "In top-down problems the continuation starts also with the derivatives at the knot."
  },
  {
   "property": "C201",
   "status": "partial",
   "theorems": [
    "Chords.Rest.C201_replace",
    "Chords.Rest.C201_tail_partial",
    "Chords.Rest.C201_tail_inv_partial",
    "Chords.Rest.C201_optimal_partial",
    "Chords.Rest.C201_tail_refuted",
    "Chords.Rest.C201_tail_refuted_all",
    "Chords.Rest.C201_tail_refuted_inv"
   ],
   "note": "Any continuation from the state and derivatives at the knot fits, for all schemes. That the rest is a motion is proved for the Gauss schemes that are not inverted, the inverted Radau schemes, the schemes with both ends and D2 (for these also that it is best if the whole is), and for the inverted Gauss schemes of order 1. It is false of the code for every Radau scheme that starts with a point and every Lobatto scheme, where the derivative in the row of a knot is the one before it while the problem of the rest asks for the one after it, and for the inverted Gauss schemes of order 2, where only the first row of a problem links derivatives and velocities. Node based Gauss schemes of order 3 and more are not covered."
  },
  {
   "property": "C21",
   "status": "proved",
   "theorems": [
    "Chords.Props.C21_points",
    "Chords.Props.C21_aligned",
    "Chords.Props.C21_unknown",
    "Chords.Props.C21_order_refuted"
   ],
   "note": "All 20 implemented schemes, every number of points, roots of the actual Legendre and Jacobi polynomials (simple real roots proved by interlacing). C21_order_refuted records that node_points ignores the problem order that coll_points accepts."
  },
  {
   "property": "C22",
   "status": "proved",
   "theorems": [
    "Chords.Props.C22_CG",
    "Chords.Props.C22_CGL",
    "Chords.Props.C22_CGR"
   ],
   "note": "Over the reals (float128 rounding not modelled)."
  },
  {
   "property": "C23",
   "status": "proved",
   "theorems": [
    "Chords.Props.C23_interp",
    "Chords.Props.C23_nodes",
    "Chords.Props.C23_exact",
    "Chords.Props.C23_exact_2d",
    "Chords.Props.C23_symbolic"
   ],
   "note": "Numeric and symbolic interpolation; exact real arithmetic."
  },
  {
   "property": "C24",
   "status": "proved",
   "theorems": [
    "Chords.Props.C24_matrix",
    "Chords.Props.C24_time"
   ],
   "note": "Every implemented scheme and number of points, powers included."
  },
  {
   "property": "C25",
   "status": "proved",
   "theorems": [
    "Chords.Props.C25_u",
    "Chords.Props.C25_x",
    "Chords.Props.C25_errors"
   ],
   "note": "Collocation data for every order; node data for order up to 2, orders above 2 are shown to be refused."
  },
  {
   "property": "C26",
   "status": "proved",
   "theorems": [
    "Chords.Props.C26_integral",
    "Chords.Props.C26_integral_2d",
    "Chords.Props.C26_repeated"
   ],
   "note": "leggauss is modelled by numpy's formula and its exactness is proved from the Legendre recurrence, not assumed."
  },
  {
   "property": "C27",
   "status": "proved",
   "theorems": [
    "Chords.Props.C27_poly",
    "Chords.Props.C27_integral",
    "Chords.Props.C27_columns",
    "Chords.Props.C27_columns_error",
    "Chords.Props.C27_lagrange"
   ],
   "note": ""
  },
  {
   "property": "C28",
   "status": "proved",
   "theorems": [
    "Chords.Props.C28_u",
    "Chords.Props.C28_LG",
    "Chords.Props.C28_x",
    "Chords.Props.C28_errors"
   ],
   "note": ""
  },
  {
   "property": "C29",
   "status": "partial",
   "theorems": [
    "Chords.Props.C29_matrix",
    "Chords.Props.C29_one_gauss",
    "Chords.Props.C29_assertion",
    "Chords.Props.C29_unknown",
    "Chords.Props.C29_entry",
    "Chords.Props.C29_extreme",
    "Chords.Props.C29_extreme_error"
   ],
   "note": "Proved for all sizes but one: with a single Gauss point building the matrix always raises (C29_one_gauss), so the property is false there."
  },
  {
   "property": "C30",
   "status": "partial",
   "theorems": [
    "Chords.Props.C30_feasible",
    "Chords.Props.C30_one_gauss"
   ],
   "note": "Proved (as an equivalence) for all sizes but one Gauss point, where the constraints cannot be built."
  },
  {
   "property": "C31",
   "status": "proved",
   "theorems": [
    "Chords.Props.C31_feasible",
    "Chords.Props.C31_same"
   ],
   "note": ""
  },
  {
   "property": "C32",
   "status": "proved",
   "theorems": [
    "Chords.Props.C32_nodes",
    "Chords.Props.C32_rows",
    "Chords.Props.C32_bu_td",
    "Chords.Props.C32_unknown"
   ],
   "note": "Node based, bottom-up and top-down problems; segmented problems are C33."
  },
  {
   "property": "C33",
   "status": "proved",
   "theorems": [
    "Chords.Ph.C33_rows",
    "Chords.Ph.C33_times",
    "Chords.Ph.C33_time_order",
    "Chords.Ph.C33_since_knot"
   ],
   "note": "For all point structures; collocation lists are hypotheses (length, order)."
  },
  {
   "property": "C34",
   "status": "partial",
   "theorems": [
    "Chords.Ph.C34_lengths_partial",
    "Chords.Ph.C34_refuted",
    "Chords.Ph.check_iff",
    "Chords.Ph.check_error"
   ],
   "note": "False: repeated knots are accepted and give zero-length segments. Proved: non-negative, sum, and strict when knots are distinct."
  },
  {
   "property": "C35",
   "status": "partial",
   "theorems": [
    "Chords.Ph.C35_squared_partial",
    "Chords.Ph.C35_u_sq_cost",
    "Chords.Ph.C35_shape_error",
    "Chords.Ph.C35_not_squared_refuted",
    "Chords.Ph.C35_value_refuted",
    "Chords.Ph.C35_state_array_refuted"
   ],
   "note": "False: squared=False still squares (shifted positional arguments), and arrays with the rows of x always raise. Proved for the squared cost on collocation arrays and for u_sq_cost."
  },
  {
   "property": "C36",
   "status": "partial",
   "theorems": [
    "Chords.Props.C36_partial",
    "Chords.Props.C36_refuted",
    "Chords.Props.C36_function_refuted",
    "Chords.Props.C36_chebyshev",
    "Chords.Props.C36_rule"
   ],
   "note": "False as stated: trapz_cost raises for every scheme, because a CasADi function is called with SymPy symbols (C36_refuted). For the function it is made from, applied to numbers, the exact value is proved for every scheme it can integrate (the first interval is left out), a constant on LGL gives 0, and the Chebyshev schemes raise."
  },
  {
   "property": "C37",
   "status": "proved",
   "theorems": [
    "Chords.Cache.C37_cache",
    "Chords.Cache.C37_computed_once",
    "Chords.Cache.call_refines"
   ],
   "note": "pickle is a hypothesis structure (round trip, prefixes do not load) and every dictionary can be encoded; arguments hashable"
  },
  {
   "property": "C38",
   "status": "partial",
   "theorems": [
    "Chords.Cache.C38_key",
    "Chords.Cache.C38_same_key_iff",
    "Chords.Cache.C38_varkw_refuted",
    "Chords.Cache.C38_varargs_refuted"
   ],
   "note": "holds for signatures without *args/**kwargs; refuted for both of those"
  },
  {
   "property": "C39",
   "status": "partial",
   "theorems": [
    "Chords.Cache.C39_crash_outside_write_partial",
    "Chords.Cache.C39_never_wrong_partial",
    "Chords.Cache.C39_broken_forever",
    "Chords.Cache.C39_refuted"
   ],
   "note": "false: a kill between truncation and end of the dump makes every later call of that function raise; what holds: kills elsewhere are harmless, and no kill ever yields a wrong value"
  },
  {
   "property": "C40",
   "status": "partial",
   "theorems": [
    "Chords.Cache.C37_cache",
    "Chords.Cache.C40_same_name_refuted"
   ],
   "note": "false for functions with the same name (refuted); C37 covers families with distinct names"
  },
  {
   "property": "C41",
   "status": "partial",
   "theorems": [
    "Chords.Cache.C41_partial",
    "Chords.Cache.C41_refuted",
    "Chords.Cache.C41_makedirs_refuted"
   ],
   "note": "false: concurrent calls may raise; what holds: never a wrong value when a dump is a single write"
  },
  {
   "property": "C42",
   "status": "proved",
   "theorems": [
    "Chords.Adaptive.C42_new_struct"
   ],
   "note": "For all knot lists, structures and error lists accepted by the code."
  },
  {
   "property": "C43",
   "status": "partial",
   "theorems": [
    "Chords.Adaptive.C43_min_points_partial",
    "Chords.Adaptive.C43_refuted",
    "Chords.Adaptive.C43_increment_negative_iff",
    "Chords.Adaptive.C43_no_points_left"
   ],
   "note": "False of the code: a segment whose error is far below tolerance gets a negative increment and can end below min_p. Proved under the missing hypothesis, and the negation proved."
  },
  {
   "property": "C44",
   "status": "partial",
   "theorems": [
    "Chords.Adaptive.C44_outcome",
    "Chords.Adaptive.C44_budget_partial",
    "Chords.Adaptive.C44_budget_refuted",
    "Chords.Adaptive.C44_not_silent_refuted",
    "Chords.Adaptive.C44_run"
   ],
   "note": "Termination, success of every entry and non-convergence of all but the last proved; the points budget holds for every solve but the one before the check, negation proved."
  },
  {
   "property": "C45",
   "status": "proved",
   "theorems": [
    "Chords.Adaptive.C45_split",
    "Chords.Adaptive.C45_test_points"
   ],
   "note": ""
  },
  {
   "property": "C46",
   "status": "partial",
   "theorems": [
    "Chords.Ph.C46_count",
    "Chords.Ph.C46_order",
    "Chords.Ph.C46_times_refuted"
   ],
   "note": "Count and order proved for all knots and sample numbers; the times are not the requested ones (negation proved)."
  },
  {
   "property": "C47",
   "status": "partial",
   "theorems": [
    "Chords.Props.C47_partial",
    "Chords.Props.C47_free",
    "Chords.Props.C47_singular",
    "Chords.Props.C47_offset_refuted"
   ],
   "note": "Proved for constraints without terms free of velocities and for systems without constraints; false for constraints with a term that depends on time only (refuted by a witness)."
  },
  {
   "property": "C48",
   "status": "partial",
   "theorems": [
    "Chords.Props.C48_partial",
    "Chords.Props.C48_coupling_refuted",
    "Chords.Props.C48_transpose_refuted"
   ],
   "note": "Proved when the dependent coordinates are not coupled by inertia and their constraint block is symmetric; the code lacks the coupling term and the transpose (both refuted by witnesses)."
  },
  {
   "property": "C49",
   "status": "partial",
   "theorems": [
    "Chords.Props.C49_partial",
    "Chords.Props.C49_refuted",
    "Chords.Props.C49_lambda_refuted"
   ],
   "note": "Proved for systems that are not reduced; false for every regular constrained system that is reduced (rhs changes after rhs_full), and lambda_vector raises until rhs_full has been read."
  },
  {
   "property": "C50",
   "status": "proved",
   "theorems": [
    "Chords.Props.C50_skew",
    "Chords.Props.C50_power",
    "Chords.Props.C50_mass",
    "Chords.Props.C50_equations"
   ],
   "note": "All sizes; natural systems for the equations of motion."
  },
  {
   "property": "C51",
   "status": "partial",
   "theorems": [
    "Chords.Props.C51_partial",
    "Chords.Props.C51_total",
    "Chords.Props.C51_refuted"
   ],
   "note": "Injective for names that are not those of derivatives; exact condition for the exception; collisions and the exception for a coordinate called q are shown."
  },
  {
   "property": "C52",
   "status": "partial",
   "theorems": [
    "Chords.Props.C52_idempotent",
    "Chords.Props.C52_merge",
    "Chords.Props.C52_refuted"
   ],
   "note": "Idempotent for all names; exact description of the names that are merged, so the second half is false (q1 and q_1)."
  },
  {
   "property": "C53",
   "status": "partial",
   "theorems": [
    "Chords.Props.C53_order",
    "Chords.Props.C53_cover",
    "Chords.Props.C53_found",
    "Chords.Props.C53_disjoint",
    "Chords.Props.C53_groups",
    "Chords.Props.C53_lambda",
    "Chords.Props.C53_places",
    "Chords.Props.C53_names_partial",
    "Chords.Props.C53_sorted_partial",
    "Chords.Props.C53_notation_refuted",
    "Chords.Props.C53_index_refuted",
    "Chords.Props.C53_sorted_refuted"
   ],
   "note": "Independence of iteration order, cover and partition are proved; numeric order holds for one-digit indices only; short names in a list and isolated large indices become parameters."
  },
  {
   "property": "C54",
   "status": "proved",
   "theorems": [
    "Chords.Props.C54_sum",
    "Chords.Props.C54_generalized",
    "Chords.Props.C54_inertia"
   ],
   "note": "For every supported robot. Generalized forces are those of SymPy's LagrangesMethod, from partial angular velocities."
  },
  {
   "property": "C55",
   "status": "partial",
   "theorems": [
    "Chords.NumTools.Props.C55_line_partial",
    "Chords.NumTools.Props.C55_last_refuted",
    "Chords.NumTools.Props.C55_parabola",
    "Chords.NumTools.Props.C55_few",
    "Chords.NumTools.Props.C55_int_refuted"
   ],
   "note": "Exact at the first and inner samples; false at the last sample (wrong sign) and for integer arrays (truncated)."
  },
  {
   "property": "C56",
   "status": "partial",
   "theorems": [
    "Chords.NumTools.Props.C56_running_total",
    "Chords.NumTools.Props.C56_linear",
    "Chords.NumTools.Props.C56_monotone",
    "Chords.NumTools.Props.C56_exact",
    "Chords.NumTools.Props.C56_int_refuted",
    "Chords.NumTools.Props.C56_rows_refuted"
   ],
   "note": "Proved for one-dimensional float arrays; false for integer arrays (truncated), tables with three or more rows raise."
  },
  {
   "property": "C57",
   "status": "partial",
   "theorems": [
    "Chords.NumTools.Props.C57_segments",
    "Chords.NumTools.Props.C57_partial",
    "Chords.NumTools.Props.C57_end_refuted"
   ],
   "note": "Every sample before the end time is drawn once; a sample at the end time is never drawn."
  },
  {
   "property": "C58",
   "status": "proved",
   "theorems": [
    "Chords.NumTools.Props.C58_order",
    "Chords.NumTools.Props.C58_distinct",
    "Chords.NumTools.Props.C58_numbers",
    "Chords.NumTools.Props.C58_add_refuted",
    "Chords.NumTools.Props.C58_graph_refuted"
   ],
   "note": "Equal names for permuted schemes; different schemes without hyphens, numbers of points or coordinates give different names. The clashes of additions and graph names are C58_add_refuted and C58_graph_refuted. The list is copied in the source, so it is an argument value in the model."
  },
  {
   "property": "C59",
   "status": "proved",
   "theorems": [
    "Chords.Props.C59_names"
   ],
   "note": ""
  },
  {
   "property": "C60",
   "status": "partial",
   "theorems": [
    "Chords.Props.C60_accepted",
    "Chords.Props.C60_rejected",
    "Chords.Props.C60_class",
    "Chords.Props.C60_usable_partial",
    "Chords.Props.C60_euler_refuted",
    "Chords.Props.C60_ph_equispaced_refuted",
    "Chords.Props.C60_lm_refuted",
    "Chords.Props.C60_parts"
   ],
   "note": "Which names are accepted and what they give is proved in full. False of the code for \"euler\", segments of equispaced schemes and dynamics objects of an unknown class."
  },
  {
   "property": "C61",
   "status": "partial",
   "theorems": [
    "Chords.Props.C61_works_partial",
    "Chords.Props.C61_error",
    "Chords.Props.C61_applied",
    "Chords.Props.C61_pseudo_refuted",
    "Chords.Props.C61_equispaced_refuted",
    "Chords.Props.C61_unapplied_refuted"
   ],
   "note": "Proved for bottom-up, top-down and segmented problems and all call sequences. False for node based problems (AttributeError), for equispaced problems (a failed opti_setup changes the state), and solve does not need apply_scheme."
  },
  {
   "property": "C62",
   "status": "partial",
   "theorems": [
    "Chords.Expand.C78_f_x",
    "Chords.Expand.C78_f_x_impl",
    "Chords.Expand.C78_g_q_impl",
    "Chords.Expand.C78_g_q_partial",
    "Chords.Expand.C78_g_q_refuted",
    "Chords.Expand.C78_g_q_first_refuted",
    "Chords.Expand.C78_unknown"
   ],
   "note": "Same theorems as C78: the residuals vanish exactly where the dynamics hold. False of the code for g_q of other orders than 2."
  },
  {
   "property": "C63",
   "status": "partial",
   "theorems": [
    "Chords.Props.C63_line_partial",
    "Chords.Props.C63_centre_refuted",
    "Chords.Props.C63_number_refuted",
    "Chords.Props.C63_ph_refuted"
   ],
   "note": "Proved for rows in all supported modes. False for the central point of the hsj schemes and for numbers."
  },
  {
   "property": "C64",
   "status": "partial",
   "theorems": [
    "Chords.DynErr.dynamicError_ok",
    "Chords.Props.C64_equi",
    "Chords.Props.C64_feasible",
    "Chords.Props.C64_line",
    "Chords.Props.C64_trapz_mod",
    "Chords.Props.C64_hs",
    "Chords.Props.C64_hs_mod",
    "Chords.Props.C64_hsj",
    "Chords.Props.C64_hsn_partial",
    "Chords.Props.C64_first",
    "Chords.Props.C64_mode",
    "Chords.Props.C64_one_sample",
    "Chords.Props.C64_bu_partial",
    "Chords.Props.C64_td_partial",
    "Chords.Props.C64_bu_order",
    "Chords.Props.C64_bu_default",
    "Chords.Props.C64_mode_x"
   ],
   "note": "Proved for all equispaced schemes of the order of the problem (samples, and inner points of hs, hs_mod, hsj), for the first-order errors of trapz and hs on problems of any order, and for bottom-up and top-down errors with polynomial interpolation and mode \"q\". False at the middle of hsn steps of order three and more (C81_hsn_refuted), for bottom-up errors if the order of the scheme is not that of the problem and for mode \"x\" of bottom-up and top-down."
  },
  {
   "property": "C65",
   "status": "partial",
   "theorems": [
    "Chords.Props.C65_partial",
    "Chords.Props.C65_refuted",
    "Chords.Props.C65_jacobi"
   ],
   "note": "False for LG_inv and CG_inv: the start value is appended at the end (C65_refuted, every number of points); JG and JG_inv are not extended at all (C65_jacobi). All other schemes are proved."
  },
  {
   "property": "C66",
   "status": "partial",
   "theorems": [
    "Chords.Props.C66_partial",
    "Chords.Props.C66_deriv",
    "Chords.Props.C66_refuted",
    "Chords.Props.C66_raises"
   ],
   "note": "interpolations_pseudospectral proved (value is the straight line, derivative its slope in time). interpolations_deriv_pseudospectral returns the slope in tau (C66_deriv gives the exact value, C66_refuted every scheme and horizon other than 2) and fails at the final instant for LG, CG, JG (C66_raises)."
  },
  {
   "property": "C67",
   "status": "partial",
   "theorems": [
    "Chords.Props.C67_coll_partial",
    "Chords.Props.C67_rows_partial",
    "Chords.Props.C67_shape",
    "Chords.Props.C67_refuted"
   ],
   "note": "False as stated: the cost is proved to be exactly twice the integral."
  },
  {
   "property": "C68",
   "status": "partial",
   "theorems": [
    "Chords.Costs.C68_with_midpoints_partial",
    "Chords.Costs.C68_refuted"
   ],
   "note": "False without midpoints (default midpoints are taken along the wrong axis)."
  },
  {
   "property": "C69",
   "status": "partial",
   "theorems": [
    "Chords.Ph.C69_integers_partial",
    "Chords.Ph.C69_refuted"
   ],
   "note": "False: zero and negative entries are accepted."
  },
  {
   "property": "C70",
   "status": "partial",
   "theorems": [
    "Chords.Props.C70_ends_partial",
    "Chords.Props.C70_refuted"
   ],
   "note": "Holds for order 2 and for all schemes that are not Jacobi ones. False for Jacobi schemes on problems of other orders (counterexample proved): controls live on the order 2 points, the extrapolation uses the points of the problem's order."
  },
  {
   "property": "C71",
   "status": "partial",
   "theorems": [
    "Chords.Props.C71_partial",
    "Chords.Props.C71_refuted"
   ],
   "note": "False as stated: proved for order 2 or non-Jacobi schemes up to the factor 2; refuted for JG of order 1."
  },
  {
   "property": "C72",
   "status": "partial",
   "theorems": [
    "Chords.Props.C72_partial",
    "Chords.Props.C72_refuted"
   ],
   "note": "False as stated: only the last block of x_d is constrained at every row."
  },
  {
   "property": "C73",
   "status": "proved",
   "theorems": [
    "Chords.Props.C73_feasible",
    "Chords.Props.C73_second",
    "Chords.Props.C73_errors"
   ],
   "note": "Orders above 2 are refused by the Gauss schemes (C73_errors)."
  },
  {
   "property": "C74",
   "status": "partial",
   "theorems": [
    "Chords.Props.C74_partial",
    "Chords.Props.C74_refuted"
   ],
   "note": "Holds for bottom-up, top-down and second order schemes; false for the first order node based schemes."
  },
  {
   "property": "C75",
   "status": "partial",
   "theorems": [
    "Chords.Integ.C75_first_tape",
    "Chords.Integ.C75_first_table",
    "Chords.Integ.C75_hs_parab_tape",
    "Chords.Integ.C75_hs_parab_table",
    "Chords.Integ.C75_second_tape",
    "Chords.Integ.C75_second_table",
    "Chords.Integ.C75_second_parab_tape",
    "Chords.Integ.C75_second_parab_table",
    "Chords.Integ.C75_refuted"
   ],
   "note": "Proved for all eight integrators when the solver finds a solution of every step. False without that: the success flag of the solver is ignored and the result is then not a trajectory of the scheme."
  },
  {
   "property": "C76",
   "status": "proved",
   "theorems": [
    "Chords.Expand.C76",
    "Chords.Expand.C76_errors",
    "Chords.Expand.C76_sign_refuted"
   ],
   "note": "The rows have the opposite sign to the documented ones (C76_sign_refuted), which does not change the solutions."
  },
  {
   "property": "C77",
   "status": "partial",
   "theorems": [
    "Chords.Expand.C77_refuted"
   ],
   "note": "False of the code: it raises for every argument. There is no case left to prove."
  },
  {
   "property": "C78",
   "status": "partial",
   "theorems": [
    "Chords.Expand.C78_g_q_impl",
    "Chords.Expand.C78_f_x",
    "Chords.Expand.C78_f_x_impl",
    "Chords.Expand.C78_g_q_partial",
    "Chords.Expand.C78_g_q_refuted",
    "Chords.Expand.C78_g_q_first_refuted",
    "Chords.Expand.C78_unknown"
   ],
   "note": "Proved for three kinds in full and for g_q of order 2 (or 3 with one coordinate). False for g_q of other orders."
  },
  {
   "property": "C79",
   "status": "proved",
   "theorems": [
    "Chords.Interp.Props.C79_first_derivative",
    "Chords.Interp.Props.C79_higher_derivatives",
    "Chords.Interp.Props.C79_at_samples"
   ],
   "note": ""
  },
  {
   "property": "C80",
   "status": "partial",
   "theorems": [
    "Chords.Interp.Props.C80_hs_partial",
    "Chords.Interp.Props.C80_trapz_refuted"
   ],
   "note": "Holds for hs and hs_parab. False for trapz, which returns the first sample of the step (C80_trapz_refuted)."
  },
  {
   "property": "C81",
   "status": "partial",
   "theorems": [
    "Chords.Interp.Props.C81_hs",
    "Chords.Interp.Props.C81_hs_mod",
    "Chords.Interp.Props.C81_hsj",
    "Chords.Interp.Props.C81_hsn_refuted"
   ],
   "note": "Proved for hs, hs_mod and hsj. False for hsn of order above 1: the interpolation computes the inner state with the first order formula (C81_hsn_refuted)."
  },
  {
   "property": "C82",
   "status": "proved",
   "theorems": [
    "Chords.NumTools.Props.C82_total_error",
    "Chords.NumTools.Props.C82_integral"
   ],
   "note": ""
  },
  {
   "property": "C83",
   "status": "partial",
   "theorems": [
    "Chords.NumTools.Props.C83_label",
    "Chords.NumTools.Props.C83_once_partial",
    "Chords.NumTools.Props.C83_refuted"
   ],
   "note": "Once when the first segment has a sample; repeated otherwise."
  },
  {
   "property": "C84",
   "status": "partial",
   "theorems": [
    "Chords.NumTools.Props.C84_sample",
    "Chords.NumTools.Props.C84_series_partial",
    "Chords.NumTools.Props.C84_constant_refuted",
    "Chords.NumTools.Props.C84_one_row_refuted",
    "Chords.NumTools.Props.C84_mixed_refuted",
    "Chords.NumTools.Props.C84_one_row"
   ],
   "note": "Holds for one sample as a vector and for at least two rows when every component has a state or control; raises for all one-row tables and constant components."
  },
  {
   "property": "C85",
   "status": "partial",
   "theorems": [
    "Chords.NumTools.Props.C85_vec",
    "Chords.NumTools.Props.C85_table_partial",
    "Chords.NumTools.Props.C85_one_row_refuted"
   ],
   "note": "Fails for tables with one row."
  },
  {
   "property": "C86",
   "status": "proved",
   "theorems": [
    "Chords.Props.C86_arrays",
    "Chords.Props.C86_results"
   ],
   "note": ""
  },
  {
   "property": "C87",
   "status": "partial",
   "theorems": [
    "Chords.Props.C87_plain",
    "Chords.Props.C87_identifies",
    "Chords.Props.C87_ph_refuted"
   ],
   "note": "Proved without segments; mode and scheme together always identify the name. False for segmented problems: BU_ and TD_ are lost."
  },
  {
   "property": "C88",
   "status": "partial",
   "theorems": [
    "Chords.Props.C88_partial",
    "Chords.Props.C88_refuted"
   ],
   "note": "False of the code for a second problem with other u_vars."
  },
  {
   "property": "C89",
   "status": "proved",
   "theorems": [
    "Chords.Props.C89_line",
    "Chords.Props.C89_default",
    "Chords.Props.C89_short"
   ],
   "note": ""
  },
  {
   "property": "C90",
   "status": "partial",
   "theorems": [
    "Chords.Props.C90_custom_partial",
    "Chords.Props.C90_zero",
    "Chords.Props.C90_acceleration_refuted",
    "Chords.Props.C90_order_one_refuted"
   ],
   "note": "Proved for q and v. False for the acceleration at the points of equispaced problems and for problems of order 1."
  },
  {
   "property": "C91",
   "status": "partial",
   "theorems": [
    "Chords.Props.C91_motion",
    "Chords.Props.C91_levels",
    "Chords.Props.C91_hsj_parab_mod",
    "Chords.Props.C91_euler_refuted"
   ],
   "note": "The equivalence is proved for every scheme but \"euler\", which is accepted by the constructor and has no entry in the table of restrictions (KeyError). Schemes of second order are taken with order 2."
  },
  {
   "property": "C92",
   "status": "partial",
   "theorems": [
    "Chords.Props.C92_implicit",
    "Chords.Props.C92_state",
    "Chords.Props.C92_agree_partial",
    "Chords.Props.C92_agree_refuted"
   ],
   "note": "The residual is characterised for all systems; agreement with the explicit form is proved without terms free of velocities and refuted with them."
  },
  {
   "property": "C93",
   "status": "partial",
   "theorems": [
    "Chords.Props.C93_least",
    "Chords.Props.C93_exact",
    "Chords.Props.C93_constrained_refuted"
   ],
   "note": "Proved for both classes without constraints; with constraints the implicit class raises."
  },
  {
   "property": "C94",
   "status": "proved",
   "theorems": [
    "Chords.Props.C94_energy"
   ],
   "note": ""
  },
  {
   "property": "C95",
   "status": "proved",
   "theorems": [
    "Chords.Props.C95_symbols",
    "Chords.Props.C95_standard"
   ],
   "note": ""
  },
  {
   "property": "C96",
   "status": "partial",
   "theorems": [
    "Chords.Props.C96_partial",
    "Chords.Props.C96_refuted"
   ],
   "note": "Proved for coordinates not called x_k; refuted for coordinates called as states in another order."
  },
  {
   "property": "C97",
   "status": "partial",
   "theorems": [
    "Chords.Props.C97_solve",
    "Chords.Props.C97_names",
    "Chords.Props.C97_refuted"
   ],
   "note": "Proved for coordinates q_0, q_1, ... ; for other names the matrix of coefficients is zero and the function raises."
  },
  {
   "property": "C98",
   "status": "proved",
   "theorems": [
    "Chords.Props.C98_accepts",
    "Chords.Props.C98_pose",
    "Chords.Props.C98_angular",
    "Chords.Props.C98_orthonormal"
   ],
   "note": "The Lagrangian that SymPy builds from the bodies is not modelled."
  },
  {
   "property": "C99",
   "status": "proved",
   "theorems": [
    "Chords.Props.C99_feasible",
    "Chords.Props.C99_smooth",
    "Chords.Props.C99_one_gauss"
   ],
   "note": "Segments with one point of a Gauss scheme raise an error (C99_one_gauss); all other structures are covered by C99_feasible."
  }
 ]
}