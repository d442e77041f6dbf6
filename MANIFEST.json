{
 "claims": [
  {
   "property": "C01",
   "status": "proved",
   "theorems": [
    "Ellalgo.C01_deep_cut_keeps_solutions"
   ],
   "note": "exact real arithmetic; updated ellipsoid in support form (equal to the textbook form whenever it is nondegenerate)"
  },
  {
   "property": "C02",
   "status": "proved",
   "theorems": [
    "Ellalgo.C02_parallel_cut_keeps_solutions"
   ],
   "note": ""
  },
  {
   "property": "C03",
   "status": "partial",
   "theorems": [
    "Ellalgo.C03_bias_cut_keeps_solutions_partial",
    "Ellalgo.C03_refuted",
    "Ellalgo.C03_keeps_iff"
   ],
   "note": "The full claim is false of the code (C03_refuted: beta=(-3/4,3/4) on the unit disc loses (0,1)); C03_keeps_iff: a pair keeps every point exactly if tsq + n*beta0*beta1 >= 0."
  },
  {
   "property": "C04",
   "status": "proved",
   "theorems": [
    "Ellalgo.C04_central_cut_keeps_solutions"
   ],
   "note": ""
  },
  {
   "property": "C05",
   "status": "proved",
   "theorems": [
    "Ellalgo.C05_update_q_keeps_solutions"
   ],
   "note": ""
  },
  {
   "property": "C06",
   "status": "proved",
   "theorems": [
    "Ellalgo.C06_noSoln_sound",
    "Ellalgo.C06_noSoln_sound_degenerate"
   ],
   "note": ""
  },
  {
   "property": "C07",
   "status": "proved",
   "theorems": [
    "Ellalgo.C07_volume_reduction",
    "Ellalgo.C07_update_q_volume"
   ],
   "note": "det(kappa*M); the second theorem covers update_q, which never increases it"
  },
  {
   "property": "C08",
   "status": "proved",
   "theorems": [
    "Ellalgo.C08_spd_over_history",
    "Ellalgo.C08_touching_cut_degenerates"
   ],
   "note": "any mix of the three methods; calls that raise are part of the history; the second theorem shows strictness is needed"
  },
  {
   "property": "C09",
   "status": "proved",
   "theorems": [
    "Ellalgo.C09_failed_cut_changes_only_tsq"
   ],
   "note": "for every state and every input, no well-formedness assumed"
  },
  {
   "property": "C10",
   "status": "proved",
   "theorems": [
    "Ellalgo.C10_tsq_is_squared_halfwidth"
   ],
   "note": ""
  },
  {
   "property": "C100",
   "status": "proved",
   "theorems": [
    "Ellalgo.Py.lmi_init",
    "Ellalgo.Py.lmi0_init",
    "Ellalgo.Py.lmiOld_init",
    "Ellalgo.Py.lmi_assess",
    "Ellalgo.Py.lmi0_assess",
    "Ellalgo.Py.lmiOld_assess",
    "Ellalgo.Py.C100_lmi",
    "Ellalgo.Py.C100_lmi_old",
    "Ellalgo.Py.C100_lmi0",
    "Ellalgo.Py.C100_lmi_finds",
    "Ellalgo.Py.C100_lmi_float",
    "Ellalgo.Py.C100_lmi_old_float",
    "Ellalgo.Py.C100_lmi0_float"
   ],
   "note": "mat_f is a list of arrays"
  },
  {
   "property": "C101",
   "status": "proved",
   "theorems": [
    "Ellalgo.Py.stable_init",
    "Ellalgo.Py.C101_call",
    "Ellalgo.Py.C101_accessors",
    "Ellalgo.Py.C101_history",
    "Ellalgo.Py.C101_aliased",
    "Ellalgo.Py.C101_feas",
    "Ellalgo.Py.C101_optim",
    "Ellalgo.Py.C101_optim_q",
    "Ellalgo.Py.stableReady_init",
    "Ellalgo.Py.exact_stableSpace",
    "Ellalgo.Py.C101_feas_same",
    "Ellalgo.Py.C101_feas_finds",
    "Ellalgo.Py.C101_feas_sound",
    "Ellalgo.Py.C101_optim_bound",
    "Ellalgo.Py.C101_lmi",
    "Ellalgo.Py.C101_lmi_old",
    "Ellalgo.Py.C101_lmi0"
   ],
   "note": "deepcopy and default arguments as in C98; an oracle that answers with the array of the centre is excluded from the loops, see C102"
  },
  {
   "property": "C102",
   "status": "partial",
   "theorems": [
    "Ellalgo.Py.C102_refuted",
    "Ellalgo.Py.C102_partial",
    "Ellalgo.Py.C102_ell"
   ],
   "note": "refuted: _update_core copies g after it has moved the centre, so with the gradient of |x|^2/2 given as the array xc() itself the matrix is updated with the wrong vector, and the second call reports NoSoln although a ball satisfies both cuts. True with any other array (C102_partial), and for Ell with every array (C102_ell)"
  },
  {
   "property": "C103",
   "status": "proved",
   "theorems": [
    "Ellalgo.Py.profit_feas",
    "Ellalgo.Py.profit_optim",
    "Ellalgo.Py.profit_init",
    "Ellalgo.Py.rb_optim",
    "Ellalgo.Py.rb_init",
    "Ellalgo.Py.q_optim",
    "Ellalgo.Py.q_init",
    "Ellalgo.Py.C103_profit",
    "Ellalgo.Py.C103_robust",
    "Ellalgo.Py.C103_discrete",
    "Ellalgo.Py.C103_profit_exact",
    "Ellalgo.Py.C103_profit_stable_exact",
    "Ellalgo.Py.C103_robust_exact",
    "Ellalgo.Py.C103_discrete_exact",
    "Ellalgo.Py.C103_rejects",
    "Ellalgo.Py.C103_sample",
    "Ellalgo.Py.C103_raises"
   ],
   "note": "numbers of the problem given as floats; the array of the first point is not one of the arrays given to the oracle; division by zero raises also for NumPy numbers"
  },
  {
   "property": "C104",
   "status": "proved",
   "theorems": [
    "Ellalgo.Py.call_conjugate_gradient",
    "Ellalgo.Py.call_conjugate_gradient_defaults",
    "Ellalgo.Py.C104_call",
    "Ellalgo.Py.C104_exact",
    "Ellalgo.Py.C104_raises_iff",
    "Ellalgo.Py.C104_krylov",
    "Ellalgo.Py.C104_sample",
    "Ellalgo.Py.C104_solved"
   ],
   "note": "arrays of floats; division by zero raises also for NumPy numbers (never reached in exact arithmetic)"
  },
  {
   "property": "C105",
   "status": "proved",
   "theorems": [
    "Ellalgo.Py.C105_optim",
    "Ellalgo.Py.C105_feas",
    "Ellalgo.Py.C105_init",
    "Ellalgo.Py.C105_assess_feas",
    "Ellalgo.Py.C105_assess_optim",
    "Ellalgo.Py.C105_filter_design",
    "Ellalgo.Py.C105_feas_finds",
    "Ellalgo.Py.C105_standard",
    "Ellalgo.Py.C105_default"
   ],
   "note": "parameters of the design given as floats, wpass and wstop not negative; for the optimiser there is a sampled frequency in the stopband; spectrum[k, :] is a copy for the evaluator and a view in NumPy; the optimiser may raise once the ellipsoid has degenerated (at the optimum)"
  },
  {
   "property": "C106",
   "status": "proved",
   "theorems": [
    "Ellalgo.C106_feas",
    "Ellalgo.C106_optim",
    "Ellalgo.C106_bits",
    "Ellalgo.C106_feas_ieee",
    "Ellalgo.C106_optim_ieee"
   ],
   "note": "rounded arithmetic on the reals: no overflow, underflow, infinities or NaN; cuts with one offset; noDeferTrick off"
  },
  {
   "property": "C107",
   "status": "proved",
   "theorems": [
    "Ellalgo.Py.C107_feas",
    "Ellalgo.Py.C107_optim",
    "Ellalgo.Py.C107_lmi",
    "Ellalgo.Py.C107_lmi_old",
    "Ellalgo.Py.C107_lmi0",
    "Ellalgo.Py.C107_lmi_finds"
   ],
   "note": "rounded arithmetic on the reals: no overflow, underflow, infinities or NaN; deepcopy and default arguments as in C98"
  },
  {
   "property": "C108",
   "status": "proved",
   "theorems": [
    "Ellalgo.Py.call_fib",
    "Ellalgo.Py.call_inverse_spectral_fact",
    "Ellalgo.Py.call_spectral_fact",
    "Ellalgo.Py.sf_handlers",
    "Ellalgo.Py.C108_fib",
    "Ellalgo.Py.C108_inverse",
    "Ellalgo.Py.C108_outcomes",
    "Ellalgo.Py.C108_matches",
    "Ellalgo.Py.C108_minimum_phase",
    "Ellalgo.Py.C108_round_trip",
    "Ellalgo.Py.C108_accepts",
    "Ellalgo.Py.C108_sample",
    "Ellalgo.Py.C108_sample_rejects"
   ],
   "note": "spectral_fact and its inverse in exact arithmetic and for one-dimensional arrays (column vectors: C69, on the model); messages of exceptions are not computed"
  },
  {
   "property": "C109",
   "status": "proved",
   "theorems": [
    "Ellalgo.Py.adaptor_assess_bs_stable",
    "Ellalgo.Py.C109_bsearch",
    "Ellalgo.C109_same_outcome",
    "Ellalgo.C109_stable_accuracy",
    "Ellalgo.Py.C109_bsearch_same",
    "Ellalgo.Py.C109_accuracy",
    "Ellalgo.Py.C109_accuracy_ell",
    "Ellalgo.Py.C109_drifts"
   ],
   "note": "deepcopy copies the whole heap to new locations; the gradients of the oracle are its own arrays or new ones"
  },
  {
   "property": "C11",
   "status": "proved",
   "theorems": [
    "Ellalgo.C11_new_centre"
   ],
   "note": ""
  },
  {
   "property": "C110",
   "status": "proved",
   "theorems": [
    "Ellalgo.Py.call_power1",
    "Ellalgo.Py.call_power2",
    "Ellalgo.Py.call_power3",
    "Ellalgo.Py.call_power4",
    "Ellalgo.Py.C110_text",
    "Ellalgo.Py.C110_unit",
    "Ellalgo.Py.C110_eigenvalue",
    "Ellalgo.Py.C110_eigenvalue4",
    "Ellalgo.Py.C110_eigenvalue23",
    "Ellalgo.Py.C110_finds_largest",
    "Ellalgo.Py.C110_variants_agree"
   ],
   "note": "exact arithmetic; arrays of length at least one; division of an array by zero raises ZeroDivisionError (NumPy: nan with a warning); the demonstration under __main__ is not run"
  },
  {
   "property": "C111",
   "status": "proved",
   "theorems": [
    "Ellalgo.Py.call_ell1d",
    "Ellalgo.Py.call_e1_update1",
    "Ellalgo.Py.call_e1_update2",
    "Ellalgo.Py.call_e1_set_xc",
    "Ellalgo.Py.C111_history",
    "Ellalgo.Py.C111_update",
    "Ellalgo.Py.C111_zero_gradient"
   ],
   "note": "exact arithmetic; the file is a template (.tpy) not imported by the package"
  },
  {
   "property": "C112",
   "status": "proved",
   "theorems": [
    "Ellalgo.C112_inflated",
    "Ellalgo.Arith.pair_step",
    "Ellalgo.Arith.single_pair_step",
    "Ellalgo.Arith.strategy_pair"
   ],
   "note": "rounded arithmetic on the reals: no overflow, underflow, infinities or NaN; n u <= gamma holds for IEEE rounding with gamma = (1+u)^(n+1) - 1"
  },
  {
   "property": "C113",
   "status": "proved",
   "theorems": [
    "Ellalgo.C113_feas",
    "Ellalgo.C113_optim",
    "Ellalgo.C113_bits",
    "Ellalgo.C113_feas_ieee",
    "Ellalgo.C113_optim_ieee"
   ],
   "note": "rounded arithmetic on the reals: no overflow, underflow, infinities or NaN; the constants are not optimised (doubles are enough in the plane for R/r = 5/4)"
  },
  {
   "property": "C114",
   "status": "proved",
   "theorems": [
    "Ellalgo.Py.C114_filter_design",
    "Ellalgo.Py.C114_feas_finds",
    "Ellalgo.C114_responses",
    "Ellalgo.C114_edges"
   ],
   "note": "rounded arithmetic on the reals: no overflow, underflow, infinities or NaN; np.cos and np.pi are taken to be correctly rounded; the run may raise after the level has been reached (the theorem speaks about a run that returns)"
  },
  {
   "property": "C115",
   "status": "proved",
   "theorems": [
    "Ellalgo.Py.C115_init",
    "Ellalgo.Py.C115_single",
    "Ellalgo.Py.C115_parallel",
    "Ellalgo.Py.C115_parallel_q",
    "Ellalgo.Py.C115_parallel_central"
   ],
   "note": "exact arithmetic; the template is not imported by the package; tsq <= 0 is left out (there the two files differ in the domain checks)"
  },
  {
   "property": "C116",
   "status": "proved",
   "theorems": [
    "Ellalgo.Py.C116_feas",
    "Ellalgo.Py.C116_optim"
   ],
   "note": "rounded arithmetic on the reals: no overflow, underflow, infinities or NaN; the optimisation loop may raise (the theorem speaks about runs that return)"
  },
  {
   "property": "C117",
   "status": "proved",
   "theorems": [
    "Ellalgo.C117_bsearch",
    "Ellalgo.C117_tests",
    "Ellalgo.C117_accuracy",
    "Ellalgo.C117_accuracy_pairs",
    "Ellalgo.Py.C117_text",
    "Ellalgo.Py.C117_accuracy_text",
    "Ellalgo.Py.C117_accuracy_pairs_text"
   ],
   "note": "rounded arithmetic on the reals: no overflow, underflow, infinities or NaN; for pairs of parallel cuts doubles are not enough for the family of the example (about 65 bits for R/r = 2)"
  },
  {
   "property": "C118",
   "status": "proved",
   "theorems": [
    "Ellalgo.C118_exhausts",
    "Ellalgo.Py.C118_text"
   ],
   "note": "rounded arithmetic on the reals: no overflow, underflow, infinities or NaN"
  },
  {
   "property": "C119",
   "status": "proved",
   "theorems": [
    "Ellalgo.C119_bsearch",
    "Ellalgo.C119_least",
    "Ellalgo.C119_large",
    "Ellalgo.Py.C119_text",
    "Ellalgo.Py.C119_least_text",
    "Ellalgo.Py.C119_large_text"
   ],
   "note": "rounded arithmetic on the reals: no overflow, underflow, infinities or NaN"
  },
  {
   "property": "C12",
   "status": "proved",
   "theorems": [
    "Ellalgo.C12_scale_invariant"
   ],
   "note": "all states, all inputs, exceptions included"
  },
  {
   "property": "C120",
   "status": "proved",
   "theorems": [
    "Ellalgo.C120_optim",
    "Ellalgo.C120_profit",
    "Ellalgo.Py.C120_text"
   ],
   "note": "rounded arithmetic on the reals: no overflow, underflow, infinities or NaN; the value the run starts from must exceed the drop of all iterations (with tau = 0), g0 = 0 needs a small tau > 0 and more bits than doubles; runs that raise are left out"
  },
  {
   "property": "C121",
   "status": "proved",
   "theorems": [
    "Ellalgo.C121_robust",
    "Ellalgo.Py.C121_text"
   ],
   "note": "rounded arithmetic on the reals: no overflow, underflow, infinities or NaN; start value as in C120; runs that raise are left out"
  },
  {
   "property": "C122",
   "status": "proved",
   "theorems": [
    "Ellalgo.C122_plain",
    "Ellalgo.C122_robust",
    "Ellalgo.C122_discrete",
    "Ellalgo.Py.C122_text",
    "Ellalgo.Py.C122_robust_text",
    "Ellalgo.Py.C122_discrete_text"
   ],
   "note": "rounded arithmetic on the reals: no overflow, underflow, infinities or NaN; nothing is said about how good the value is (C120 and C121 do for Ell and the first two oracles)"
  },
  {
   "property": "C123",
   "status": "proved",
   "theorems": [
    "Ellalgo.Py.C123_lmi",
    "Ellalgo.Py.C123_lmi_old",
    "Ellalgo.Py.C123_lmi0",
    "Ellalgo.Py.C123_lowpass",
    "Ellalgo.Py.C123_lowpass_design"
   ],
   "note": "rounded arithmetic on the reals: no overflow, underflow, infinities or NaN; nothing is said about whether a point is found (C107 and C114 do for Ell), and runs that raise are not excluded"
  },
  {
   "property": "C124",
   "status": "proved",
   "theorems": [
    "Ellalgo.C124_sqrt",
    "Ellalgo.Py.C124_text"
   ],
   "note": "rounded arithmetic on the reals: no overflow, underflow, infinities or NaN"
  },
  {
   "property": "C125",
   "status": "proved",
   "theorems": [
    "Ellalgo.C125_residual",
    "Ellalgo.C125_needed",
    "Ellalgo.Py.C125_text",
    "Ellalgo.Py.C125_needed_text"
   ],
   "note": "rounded arithmetic on the reals: no overflow, underflow, infinities or NaN; the bound is in terms of the values of the variable solution in the run, which are those of the model the text is proved to follow (C104); runs that raise are not excluded"
  },
  {
   "property": "C126",
   "status": "proved",
   "theorems": [
    "Ellalgo.C126_residual",
    "Ellalgo.C126_eigenvalue",
    "Ellalgo.C126_bits"
   ],
   "note": "rounded arithmetic on the reals: no overflow, underflow, infinities or NaN; a model of the function with rounding, not its text (C110 has the text, in exact arithmetic); runs that divide by zero and runs that use all passes are not excluded; which eigenvalue is found is not said (see C88)"
  },
  {
   "property": "C127",
   "status": "proved",
   "theorems": [
    "Ellalgo.Arith.C127_update",
    "Ellalgo.Arith.C127_history",
    "Ellalgo.Arith.C127_sound",
    "Ellalgo.Arith.C127_no_false_alarm",
    "Ellalgo.Py.C127_text",
    "Ellalgo.Py.C127_text_sound",
    "Ellalgo.Py.C127_bits",
    "Ellalgo.Py.C127_negative_width"
   ],
   "note": "from the text; rounded arithmetic on the reals: no overflow, underflow, infinities or NaN; numbers given by the caller are floats; gradients are not zero (C111_zero_gradient has that case)"
  },
  {
   "property": "C128",
   "status": "proved",
   "theorems": [
    "Ellalgo.Arith.C128_update",
    "Ellalgo.Arith.C128_rate",
    "Ellalgo.Py.C128_bits"
   ],
   "note": "from the text; rounded arithmetic on the reals: no overflow, underflow, infinities or NaN; numbers given by the caller are floats"
  },
  {
   "property": "C129",
   "status": "proved",
   "theorems": [
    "Ellalgo.C129_residual",
    "Ellalgo.C129_eigenvalue",
    "Ellalgo.C129_bits"
   ],
   "note": "rounded arithmetic on the reals: no overflow, underflow, infinities or NaN; a model of the function with rounding, not its text (C110 has the text, in exact arithmetic); runs that divide by zero and runs that use all passes are not excluded; which eigenvalue is found is not said (see C88)"
  },
  {
   "property": "C13",
   "status": "partial",
   "theorems": [
    "Ellalgo.C13_no_defer_unobservable_partial",
    "Ellalgo.C13_refuted"
   ],
   "note": "True while kappa stays nonzero (in particular for strict cuts, StrictRun.kappaNonzero); false after a cut that touches the ellipsoid (C13_refuted)."
  },
  {
   "property": "C130",
   "status": "proved",
   "theorems": [
    "Ellalgo.C130_eigenvalue",
    "Ellalgo.C130_bits"
   ],
   "note": "rounded arithmetic on the reals: no overflow, underflow, infinities or NaN; a model of the function with rounding, not its text (C110 has the text, in exact arithmetic); runs that divide by zero and runs that use all passes are not excluded; which eigenvalue is found is not said (see C88)"
  },
  {
   "property": "C131",
   "status": "proved",
   "theorems": [
    "Ellalgo.C131_eigenvalue",
    "Ellalgo.C131_bits"
   ],
   "note": "rounded arithmetic on the reals: no overflow, underflow, infinities or NaN; a model of the function with rounding, not its text (C110 has the text, in exact arithmetic); runs that divide by zero and runs that use all passes are not excluded; which eigenvalue is found is not said (see C88)"
  },
  {
   "property": "C132",
   "status": "proved",
   "theorems": [
    "Ellalgo.C132_returns",
    "Ellalgo.C132_bits"
   ],
   "note": "rounded arithmetic on the reals: no overflow, underflow, infinities or NaN; a model of the functions with rounding, not their text; in NumPy a division of an array by zero gives NaN and a warning, which the model has as a fault"
  },
  {
   "property": "C133",
   "status": "proved",
   "theorems": [
    "Ellalgo.C133_exact",
    "Ellalgo.C133_bits",
    "Ellalgo.Py.C133_text"
   ],
   "note": "exact arithmetic from the text; with rounding for a model of the functions"
  },
  {
   "property": "C134",
   "status": "proved",
   "theorems": [
    "Ellalgo.C134_exact",
    "Ellalgo.C134_bits",
    "Ellalgo.Py.C134_text"
   ],
   "note": "exact arithmetic from the text; with rounding for a model of the functions"
  },
  {
   "property": "C135",
   "status": "proved",
   "theorems": [
    "Ellalgo.C135_scale",
    "Ellalgo.C135_bits",
    "Ellalgo.C135_exact"
   ],
   "note": "rounded arithmetic on the reals: no overflow, underflow, infinities or NaN; a model of the functions with rounding, not their text; power_iteration3 is left out because its threshold 1e150 is not scaled"
  },
  {
   "property": "C136",
   "status": "proved",
   "theorems": [
    "Ellalgo.C136_scale",
    "Ellalgo.C136_bits"
   ],
   "note": "rounded arithmetic on the reals: no overflow, underflow, infinities or NaN; a model of the methods with rounding, not their text"
  },
  {
   "property": "C137",
   "status": "proved",
   "theorems": [
    "Ellalgo.C137_bits"
   ],
   "note": "rounded arithmetic on the reals: no overflow, underflow, infinities or NaN; a model of the methods with rounding, not their text; an exception is an outcome and the next call continues with the object as it was left"
  },
  {
   "property": "C138",
   "status": "proved",
   "theorems": [
    "Ellalgo.C138_bits"
   ],
   "note": "rounded arithmetic on the reals: no overflow, underflow, infinities or NaN; a model of the methods with rounding, not their text; an exception is an outcome and the next call continues with the object as it was left"
  },
  {
   "property": "C14",
   "status": "proved",
   "theorems": [
    "Ellalgo.C14_stable_refines_ell",
    "Ellalgo.C14_strict_cuts",
    "Ellalgo.C14_zero_gradient_differs",
    "Ellalgo.C14_touching_cut_differs"
   ],
   "note": "nonsingular means positive definite matrix and kappa > 0 after each call; the last two theorems show that the hypotheses are needed"
  },
  {
   "property": "C15",
   "status": "partial",
   "theorems": [
    "Ellalgo.C15_refuted",
    "Ellalgo.C15_axis_cuts_partial",
    "Ellalgo.C15_observable_iff"
   ],
   "note": "False of the code (C15_refuted: the flag scales the entries of L). Proved for histories of cuts along coordinate axes; C15_observable_iff says exactly after which updates the flag can be observed."
  },
  {
   "property": "C16",
   "status": "partial",
   "theorems": [
    "Ellalgo.C16_parallel_variants_agree",
    "Ellalgo.C16_central_variants_agree",
    "Ellalgo.C16_bias_zero_is_central",
    "Ellalgo.C16_parallel_tau_is_bias",
    "Ellalgo.C16_fast_old_differs_at_equal_offsets"
   ],
   "note": "All stated equalities proved; the one exception on the common domain, beta0=beta1, where _fast_old falls back to the central cut, is proved to be one."
  },
  {
   "property": "C17",
   "status": "proved",
   "theorems": [
    "Ellalgo.C17_single",
    "Ellalgo.C17_parallel",
    "Ellalgo.C17_none_second",
    "Ellalgo.C17_empty"
   ],
   "note": ""
  },
  {
   "property": "C18",
   "status": "proved",
   "theorems": [
    "Ellalgo.C18_valid_cuts_never_raise",
    "Ellalgo.C18_bias_raises_iff",
    "Ellalgo.C18_q_raises_iff",
    "Ellalgo.C18_central_raises_iff"
   ],
   "note": "the raising inputs are characterised exactly"
  },
  {
   "property": "C19",
   "status": "proved",
   "theorems": [
    "Ellalgo.C19_bias_ranges",
    "Ellalgo.C19_parallel_ranges"
   ],
   "note": ""
  },
  {
   "property": "C20",
   "status": "proved",
   "theorems": [
    "Ellalgo.C20_feas_returns_accepted",
    "Ellalgo.C20_feas_returns_first_accepted"
   ],
   "note": "any oracle, space and number type; both directions"
  },
  {
   "property": "C21",
   "status": "proved",
   "theorems": [
    "Ellalgo.C21_feas_gives_up_for_a_reason",
    "Ellalgo.C21_feas_raises"
   ],
   "note": ""
  },
  {
   "property": "C22",
   "status": "proved",
   "theorems": [
    "Ellalgo.C22_infeasibility_sound"
   ],
   "note": ""
  },
  {
   "property": "C23",
   "status": "proved",
   "theorems": [
    "Ellalgo.C23_feas_converges",
    "Ellalgo.C23_feas_converges_general"
   ],
   "note": ""
  },
  {
   "property": "C24",
   "status": "proved",
   "theorems": [
    "Ellalgo.C24_optim_consistent_pair"
   ],
   "note": "value semantics; aliasing is C30"
  },
  {
   "property": "C25",
   "status": "proved",
   "theorems": [
    "Ellalgo.C25_gamma_monotone"
   ],
   "note": ""
  },
  {
   "property": "C26",
   "status": "proved",
   "theorems": [
    "Ellalgo.C26_optimality_sound",
    "Ellalgo.C26_minimiser"
   ],
   "note": ""
  },
  {
   "property": "C27",
   "status": "proved",
   "theorems": [
    "Ellalgo.C27_optim_converges",
    "Ellalgo.C27_optim_converges_general"
   ],
   "note": "an exception is possible only after gamma* has been reached (fourth part of the general theorem)"
  },
  {
   "property": "C28",
   "status": "proved",
   "theorems": [
    "Ellalgo.C28_retry_protocol",
    "Ellalgo.C29_optim_q_consistent_pair"
   ],
   "note": "the last consultation, which ends the run, is covered by the second theorem"
  },
  {
   "property": "C29",
   "status": "proved",
   "theorems": [
    "Ellalgo.C29_optim_q_consistent_pair"
   ],
   "note": ""
  },
  {
   "property": "C30",
   "status": "proved",
   "theorems": [
    "Ellalgo.C30_feas_returns_live_array",
    "Ellalgo.C30_optim_snapshot"
   ],
   "note": "heap model of array identity"
  },
  {
   "property": "C31",
   "status": "partial",
   "theorems": [
    "Ellalgo.C31_refuted",
    "Ellalgo.C31_other_arrays_unchanged_partial"
   ],
   "note": "False of the code: Ell keeps the caller's x_center array and updates it in place (C31_refuted). Proved: no other array is changed."
  },
  {
   "property": "C32",
   "status": "proved",
   "theorems": [
    "Ellalgo.C32_bsearch_certified",
    "Ellalgo.C32_bsearch_ordered",
    "Ellalgo.C32_bsearch_int_ordered"
   ],
   "note": "certification for any number type; ordering for exact arithmetic and for integers"
  },
  {
   "property": "C33",
   "status": "proved",
   "theorems": [
    "Ellalgo.C33_bsearch_accuracy"
   ],
   "note": "over any linearly ordered field"
  },
  {
   "property": "C34",
   "status": "proved",
   "theorems": [
    "Ellalgo.C34_bsearch_int",
    "Ellalgo.C34_bsearch_int_degenerate"
   ],
   "note": ""
  },
  {
   "property": "C35",
   "status": "proved",
   "theorems": [
    "Ellalgo.C35_assess_bs_isolates",
    "Ellalgo.C35_assess_bs_ell"
   ],
   "note": ""
  },
  {
   "property": "C36",
   "status": "proved",
   "theorems": [
    "Ellalgo.C36_bsearch_adaptor_certified"
   ],
   "note": ""
  },
  {
   "property": "C37",
   "status": "proved",
   "theorems": [
    "Ellalgo.C37_factor_decides_spd",
    "Ellalgo.C37_factorize_posDef"
   ],
   "note": "any ordered field; the manager may be in any state"
  },
  {
   "property": "C38",
   "status": "proved",
   "theorems": [
    "Ellalgo.C38_factors_reproduce"
   ],
   "note": ""
  },
  {
   "property": "C39",
   "status": "proved",
   "theorems": [
    "Ellalgo.C39_witness_certifies",
    "Ellalgo.C39_semi_witness_certifies",
    "Ellalgo.C39_witness_raises"
   ],
   "note": ""
  },
  {
   "property": "C40",
   "status": "proved",
   "theorems": [
    "Ellalgo.C40_factor_lazy",
    "Ellalgo.C40_factor_reads",
    "Ellalgo.C40_factor_depends_on_lower"
   ],
   "note": "the exact sequence of reads"
  },
  {
   "property": "C41",
   "status": "proved",
   "theorems": [
    "Ellalgo.C41_sqrt_is_cholesky"
   ],
   "note": ""
  },
  {
   "property": "C42",
   "status": "partial",
   "theorems": [
    "Ellalgo.C42_refuted",
    "Ellalgo.C42_semidefinite_partial"
   ],
   "note": "False of the code: [[0,1],[1,0]] is accepted (C42_refuted). Proved: positive semidefinite matrices are accepted, rejections are right, acceptance without a zero pivot means positive definite."
  },
  {
   "property": "C43",
   "status": "proved",
   "theorems": [
    "Ellalgo.C43_lmi_separates"
   ],
   "note": ""
  },
  {
   "property": "C44",
   "status": "proved",
   "theorems": [
    "Ellalgo.C44_lmi0_separates"
   ],
   "note": ""
  },
  {
   "property": "C45",
   "status": "proved",
   "theorems": [
    "Ellalgo.C45_old_and_new_agree"
   ],
   "note": ""
  },
  {
   "property": "C46",
   "status": "proved",
   "theorems": [
    "Ellalgo.C46_lmi_end_to_end",
    "Ellalgo.C22_noSoln_inside"
   ],
   "note": ""
  },
  {
   "property": "C47",
   "status": "proved",
   "theorems": [
    "Ellalgo.C47_lowpass_decides"
   ],
   "note": "band edges in [0,1]"
  },
  {
   "property": "C48",
   "status": "proved",
   "theorems": [
    "Ellalgo.C48_lowpass_cuts_valid"
   ],
   "note": ""
  },
  {
   "property": "C49",
   "status": "proved",
   "theorems": [
    "Ellalgo.C49_lowpass_optim",
    "Ellalgo.C49_no_stopband"
   ],
   "note": "both directions; the second theorem shows what happens without stopband points"
  },
  {
   "property": "C50",
   "status": "proved",
   "theorems": [
    "Ellalgo.C50_profit_cuts_valid"
   ],
   "note": "problems with positive revenue factor, limit and input prices; levels >= 0"
  },
  {
   "property": "C51",
   "status": "proved",
   "theorems": [
    "Ellalgo.C51_robust"
   ],
   "note": "nonnegative tolerances under which the worst case has positive price, scale, limit and input prices"
  },
  {
   "property": "C52",
   "status": "proved",
   "theorems": [
    "Ellalgo.C52_integer_designs"
   ],
   "note": ""
  },
  {
   "property": "C53",
   "status": "partial",
   "theorems": [
    "Ellalgo.C53_refuted",
    "Ellalgo.C53_cut_valid_partial"
   ],
   "note": "False of the code: the offset is shifted with the wrong sign, a better integer design is cut off (C53_refuted). Proved: the cut is valid if the shift is not positive, and would always be valid with the other sign."
  },
  {
   "property": "C54",
   "status": "proved",
   "theorems": [
    "Ellalgo.C54_accuracy",
    "Ellalgo.C54_error"
   ],
   "note": ""
  },
  {
   "property": "C55",
   "status": "proved",
   "theorems": [
    "Ellalgo.C55_converges",
    "Ellalgo.C55_invariant_subspace"
   ],
   "note": ""
  },
  {
   "property": "C56",
   "status": "partial",
   "theorems": [
    "Ellalgo.C56_refuted",
    "Ellalgo.C56_exact_guess_raises",
    "Ellalgo.C56_refuted_everywhere",
    "Ellalgo.C56_raises_iff"
   ],
   "note": "the claim as stated is false of the code: an exact initial guess (for example b=0 with the default guess) always raises ValueError; C56_raises_iff shows this is the only failure for positive definite systems"
  },
  {
   "property": "C57",
   "status": "proved",
   "theorems": [
    "Ellalgo.C57_autocorrelation",
    "Ellalgo.C57_spectrum"
   ],
   "note": ""
  },
  {
   "property": "C58",
   "status": "proved",
   "theorems": [
    "Ellalgo.C58_matches",
    "Ellalgo.C58_matches_clamped",
    "Ellalgo.C58_outcomes",
    "Ellalgo.C58_accepts_autocorrelations"
   ],
   "note": ""
  },
  {
   "property": "C59",
   "status": "proved",
   "theorems": [
    "Ellalgo.C59_fib"
   ],
   "note": ""
  },
  {
   "property": "C60",
   "status": "proved",
   "theorems": [
    "Ellalgo.C60_init_rejects",
    "Ellalgo.C60_init_scalar",
    "Ellalgo.C60_init_diag"
   ],
   "note": ""
  },
  {
   "property": "C61",
   "status": "proved",
   "theorems": [
    "Ellalgo.C61_filter_design",
    "Ellalgo.lowpass_regular"
   ],
   "note": ""
  },
  {
   "property": "C62",
   "status": "proved",
   "theorems": [
    "Ellalgo.C62_standard_case"
   ],
   "note": ""
  },
  {
   "property": "C63",
   "status": "proved",
   "theorems": [
    "Ellalgo.C63_feas_flat",
    "Ellalgo.C63_optim_flat"
   ],
   "note": ""
  },
  {
   "property": "C64",
   "status": "proved",
   "theorems": [
    "Ellalgo.C64_profit_loop"
   ],
   "note": ""
  },
  {
   "property": "C65",
   "status": "proved",
   "theorems": [
    "Ellalgo.C65_profit_loop_raises",
    "Ellalgo.C65_exact_optimum_raises"
   ],
   "note": "the second theorem exhibits a run that raises at the optimum"
  },
  {
   "property": "C66",
   "status": "proved",
   "theorems": [
    "Ellalgo.C66_robust_loop",
    "Ellalgo.C66_integer_loop"
   ],
   "note": ""
  },
  {
   "property": "C67",
   "status": "proved",
   "theorems": [
    "Ellalgo.C67_returns_iff",
    "Ellalgo.C67_raises_iff"
   ],
   "note": ""
  },
  {
   "property": "C68",
   "status": "proved",
   "theorems": [
    "Ellalgo.C68_round_trip"
   ],
   "note": ""
  },
  {
   "property": "C69",
   "status": "partial",
   "theorems": [
    "Ellalgo.C69_refuted",
    "Ellalgo.C69_column_rows"
   ],
   "note": "the claim of the docstring is false of the code: column input gives an n by n array of constant rows"
  },
  {
   "property": "C70",
   "status": "proved",
   "theorems": [
    "Ellalgo.C70_minimum_phase"
   ],
   "note": ""
  },
  {
   "property": "C71",
   "status": "proved",
   "theorems": [
    "Ellalgo.C71_minimum_volume",
    "Ellalgo.C71_void_first_cut"
   ],
   "note": "the second theorem shows why update_q needs first offset >= -tau: with a void first cut it answers NoEffect although a smaller ellipsoid exists"
  },
  {
   "property": "C72",
   "status": "proved",
   "theorems": [
    "Ellalgo.C72_volume_is_det",
    "Ellalgo.C72_volume_reduction",
    "Ellalgo.C72_minimum_volume"
   ],
   "note": ""
  },
  {
   "property": "C73",
   "status": "proved",
   "theorems": [
    "Ellalgo.C73_feas_volume_bound",
    "Ellalgo.C73_feas_finds",
    "Ellalgo.C73_optim_volume_bound",
    "Ellalgo.C73_feas_part_inside",
    "Ellalgo.C73_optim_up_to"
   ],
   "note": ""
  },
  {
   "property": "C74",
   "status": "proved",
   "theorems": [
    "Ellalgo.C74_feas_same_outcome",
    "Ellalgo.C74_optim_same_outcome",
    "Ellalgo.C74_optim_q_same_outcome"
   ],
   "note": ""
  },
  {
   "property": "C75",
   "status": "proved",
   "theorems": [
    "Ellalgo.C75_stable_infeasibility_sound",
    "Ellalgo.C75_stable_optimality_sound",
    "Ellalgo.C75_stable_feas_finds",
    "Ellalgo.C75_stable_optim_bound"
   ],
   "note": ""
  },
  {
   "property": "C76",
   "status": "proved",
   "theorems": [
    "Ellalgo.C76_semidefinite_accepts_iff",
    "Ellalgo.C76_zero_corner"
   ],
   "note": "exact characterisation of what the method accepts; it explains the refutation of C42"
  },
  {
   "property": "C77",
   "status": "proved",
   "theorems": [
    "Ellalgo.C77_convex_accuracy"
   ],
   "note": ""
  },
  {
   "property": "C78",
   "status": "proved",
   "theorems": [
    "Ellalgo.C78_lmi_converges",
    "Ellalgo.C78_lmi0_converges",
    "Ellalgo.C78_lmi_finds",
    "Ellalgo.C78_lmi_cut_exact",
    "Ellalgo.C78_lmi0_cut_exact"
   ],
   "note": "exact arithmetic"
  },
  {
   "property": "C79",
   "status": "proved",
   "theorems": [
    "Ellalgo.C79_more_information",
    "Ellalgo.C79_deeper_cut",
    "Ellalgo.C79_parallel_cut",
    "Ellalgo.C79_deep_vs_central"
   ],
   "note": ""
  },
  {
   "property": "C80",
   "status": "proved",
   "theorems": [
    "Ellalgo.C80_update_affine",
    "Ellalgo.C80_region",
    "Ellalgo.C80_feas_affine",
    "Ellalgo.C80_optim_affine",
    "Ellalgo.C80_optim_q_affine",
    "Ellalgo.C80_bsearch_affine"
   ],
   "note": ""
  },
  {
   "property": "C81",
   "status": "partial",
   "theorems": [
    "Ellalgo.C81_refuted",
    "Ellalgo.C81_bsearch_accuracy_partial"
   ],
   "note": "refuted as stated: after a feasible answer assess_bs moves the centre of the initial ellipsoid to the solution, so sets that are feasible in the initial ellipsoid can fall outside. Proved when all sets up to the upper end lie in the ellipsoid wherever it is moved to"
  },
  {
   "property": "C82",
   "status": "proved",
   "theorems": [
    "Ellalgo.C82_optim_q_sound",
    "Ellalgo.C82_discrete_optimum"
   ],
   "note": "exact arithmetic"
  },
  {
   "property": "C83",
   "status": "proved",
   "theorems": [
    "Ellalgo.Ell1d.C83_init",
    "Ellalgo.Ell1d.C83_update_exact",
    "Ellalgo.Ell1d.C83_history",
    "Ellalgo.Ell1d.C83_halves",
    "Ellalgo.Ell1d.C83_zero_gradient"
   ],
   "note": "the file is a template (.tpy) not imported by the package"
  },
  {
   "property": "C84",
   "status": "proved",
   "theorems": [
    "Ellalgo.C84_lmi2_separates",
    "Ellalgo.C84_lmi2_end_to_end",
    "Ellalgo.C84_lmi3_is_lmi",
    "Ellalgo.C84_lmi3_separates"
   ],
   "note": "the files are templates (.tpy) not imported by the package"
  },
  {
   "property": "C85",
   "status": "proved",
   "theorems": [
    "Ellalgo.C85_power_iteration",
    "Ellalgo.C85_power_iteration2",
    "Ellalgo.C85_power_iteration3",
    "Ellalgo.C85_power_iteration4",
    "Ellalgo.C85_variants_agree"
   ],
   "note": "exact arithmetic; experiment/ is not part of the package"
  },
  {
   "property": "C86",
   "status": "proved",
   "theorems": [
    "Ellalgo.C86_unit_and_rayleigh",
    "Ellalgo.C86_residual",
    "Ellalgo.C86_residual4",
    "Ellalgo.C86_eigenvalue",
    "Ellalgo.C86_eigenvalue4",
    "Ellalgo.C86_eigenvalue23"
   ],
   "note": "exact arithmetic"
  },
  {
   "property": "C87",
   "status": "proved",
   "theorems": [
    "Ellalgo.C87_returns",
    "Ellalgo.C87_monotone",
    "Ellalgo.C87_terminates23",
    "Ellalgo.C87_terminates",
    "Ellalgo.C87_terminates4",
    "Ellalgo.C87_accuracy",
    "Ellalgo.C87_finds_largest"
   ],
   "note": "exact arithmetic"
  },
  {
   "property": "C88",
   "status": "partial",
   "theorems": [
    "Ellalgo.C88_refuted",
    "Ellalgo.C88_indefinite_refuted",
    "Ellalgo.C87_accuracy"
   ],
   "note": "refuted for every variant and tolerance: a start vector close to another eigenvector stops the run there; for indefinite matrices variants 2 and 3 may return a number that is no eigenvalue. What holds is C86 (some eigenvalue is near) and C87 (accuracy in terms of passes made)"
  },
  {
   "property": "C89",
   "status": "proved",
   "theorems": [
    "Ellalgo.C89_single",
    "Ellalgo.C89_parallel",
    "Ellalgo.C89_parallel_q",
    "Ellalgo.C89_parallel_central"
   ],
   "note": "exact arithmetic; numeric offsets"
  },
  {
   "property": "C90",
   "status": "proved",
   "theorems": [
    "Ellalgo.C90_exact",
    "Ellalgo.C90_symmetric",
    "Ellalgo.C90_init_symmetric",
    "Ellalgo.C90_failed_cut_changes_nothing"
   ],
   "note": "rounded arithmetic on the reals: no overflow, underflow, infinities or NaN"
  },
  {
   "property": "C91",
   "status": "proved",
   "theorems": [
    "Ellalgo.C91_inflated",
    "Ellalgo.C91_inflation_needed"
   ],
   "note": "rounded arithmetic on the reals: no overflow, underflow, infinities or NaN; single offsets; no_defer_trick off"
  },
  {
   "property": "C92",
   "status": "proved",
   "theorems": [
    "Ellalgo.C92_accepted",
    "Ellalgo.C92_rejected",
    "Ellalgo.C92_accepts",
    "Ellalgo.C92_not_complete",
    "Ellalgo.C92_not_sound"
   ],
   "note": "rounded arithmetic on the reals: no overflow, underflow, infinities or NaN"
  },
  {
   "property": "C93",
   "status": "proved",
   "theorems": [
    "Ellalgo.C93_lmi",
    "Ellalgo.C93_lmi_old",
    "Ellalgo.C93_lmi0",
    "Ellalgo.C93_exact",
    "Ellalgo.C93_cut_not_valid"
   ],
   "note": "rounded arithmetic on the reals: no overflow, underflow, infinities or NaN"
  },
  {
   "property": "C94",
   "status": "proved",
   "theorems": [
    "Ellalgo.C94_run",
    "Ellalgo.C94_inflation",
    "Ellalgo.C94_conditions",
    "Ellalgo.C94_apriori",
    "Ellalgo.C94_no_soln"
   ],
   "note": "rounded arithmetic on the reals: no overflow, underflow, infinities or NaN; single offsets; no_defer_trick off"
  },
  {
   "property": "C95",
   "status": "proved",
   "theorems": [
    "Ellalgo.C95_exact",
    "Ellalgo.C95_positive",
    "Ellalgo.C95_run",
    "Ellalgo.C95_no_margin"
   ],
   "note": "rounded arithmetic on the reals: no overflow, underflow, infinities or NaN; ZeroDivisionError as with Python floats"
  },
  {
   "property": "C96",
   "status": "proved",
   "theorems": [
    "Ellalgo.Py.core_calc_central_cut",
    "Ellalgo.Py.core_calc_bias_cut_fast",
    "Ellalgo.Py.core_calc_bias_cut",
    "Ellalgo.Py.core_calc_parallel_central_cut",
    "Ellalgo.Py.core_calc_parallel_bias_cut_fast",
    "Ellalgo.Py.core_calc_parallel_bias_cut",
    "Ellalgo.Py.core_calc_parallel_central_cut_old",
    "Ellalgo.Py.core_calc_parallel_bias_cut_fast2",
    "Ellalgo.Py.core_calc_parallel_bias_cut_old",
    "Ellalgo.Py.core_calc_parallel_bias_cut_fast_old",
    "Ellalgo.Py.core_init_int",
    "Ellalgo.Py.core_init_num",
    "Ellalgo.Py.calc_calc_bias_cut",
    "Ellalgo.Py.calc_calc_parallel",
    "Ellalgo.Py.calc_calc_bias_cut_q",
    "Ellalgo.Py.calc_calc_parallel_q",
    "Ellalgo.Py.calc_calc_single_or_parallel",
    "Ellalgo.Py.calc_calc_single_or_parallel_q",
    "Ellalgo.Py.calc_calc_single_or_parallel_central_cut",
    "Ellalgo.Py.calc_init"
   ],
   "note": "calc_single_or_parallel_q with None as first offset: for tsq >= 0"
  },
  {
   "property": "C97",
   "status": "proved",
   "theorems": [
    "Ellalgo.Py.ell_update_core",
    "Ellalgo.Py.ell_update_bias_cut",
    "Ellalgo.Py.ell_update_central_cut",
    "Ellalgo.Py.ell_update_q",
    "Ellalgo.Py.ell_xc",
    "Ellalgo.Py.ell_tsq",
    "Ellalgo.Py.ell_set_xc",
    "Ellalgo.Py.ell_init",
    "Ellalgo.Py.C97_call",
    "Ellalgo.Py.C97_history",
    "Ellalgo.Py.C97_positive",
    "Ellalgo.Py.C97_deep_cut"
   ],
   "note": "update_q with None as first offset left out; division by zero raises also for NumPy numbers"
  },
  {
   "property": "C98",
   "status": "proved",
   "theorems": [
    "Ellalgo.Py.C98_feas",
    "Ellalgo.Py.C98_optim",
    "Ellalgo.Py.C98_optim_q",
    "Ellalgo.Py.C98_bsearch",
    "Ellalgo.Py.C98_defaults",
    "Ellalgo.Py.floatNum_sim",
    "Ellalgo.Py.intNum_sim",
    "Ellalgo.Py.user_feas",
    "Ellalgo.Py.user_param",
    "Ellalgo.Py.user_optim",
    "Ellalgo.Py.user_optimQ",
    "Ellalgo.Py.C98_feas_converges",
    "Ellalgo.Py.C98_feas_sound",
    "Ellalgo.Py.C98_optim_accuracy",
    "Ellalgo.Py.exact_space",
    "Ellalgo.Py.floatNum_exact",
    "Ellalgo.Py.intNum_exact"
   ],
   "note": "bsearch with EllStable: C109; deepcopy copies the whole heap to new locations; a default argument is a new object at every call"
  },
  {
   "property": "C99",
   "status": "proved",
   "theorems": [
    "Ellalgo.Py.new_mgr",
    "Ellalgo.Py.mgr_factor",
    "Ellalgo.Py.mgr_factor_semi",
    "Ellalgo.Py.mgr_factorize",
    "Ellalgo.Py.mgr_witness",
    "Ellalgo.Py.mgr_sym_quad",
    "Ellalgo.Py.mgr_sqrt",
    "Ellalgo.Py.C99_decides",
    "Ellalgo.Py.C99_sqrt",
    "Ellalgo.Py.C99_witness",
    "Ellalgo.Py.C99_lazy",
    "Ellalgo.Py.C99_semidefinite",
    "Ellalgo.Py.C99_float"
   ],
   "note": "get_elem returns numbers and writes to nothing that was on the heap (its own records may be kept elsewhere)"
  }
 ]
}