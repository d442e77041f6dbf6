# Axioms of every claimed theorem

Output of `#print axioms` for every theorem of MANIFEST.json (regenerated at each milestone).

| property | theorem | axioms |
|---|---|---|
| C01 | `C01_deep_cut_keeps_solutions` | propext, Classical.choice, Quot.sound |
| C02 | `C02_parallel_cut_keeps_solutions` | propext, Classical.choice, Quot.sound |
| C03 | `C03_bias_cut_keeps_solutions_partial` | propext, Classical.choice, Quot.sound |
| C03 | `C03_refuted` | propext, Classical.choice, Quot.sound |
| C03 | `C03_keeps_iff` | propext, Classical.choice, Quot.sound |
| C04 | `C04_central_cut_keeps_solutions` | propext, Classical.choice, Quot.sound |
| C05 | `C05_update_q_keeps_solutions` | propext, Classical.choice, Quot.sound |
| C06 | `C06_noSoln_sound` | propext, Classical.choice, Quot.sound |
| C06 | `C06_noSoln_sound_degenerate` | propext, Classical.choice, Quot.sound |
| C07 | `C07_volume_reduction` | propext, Classical.choice, Quot.sound |
| C07 | `C07_update_q_volume` | propext, Classical.choice, Quot.sound |
| C08 | `C08_spd_over_history` | propext, Classical.choice, Quot.sound |
| C08 | `C08_touching_cut_degenerates` | propext, Classical.choice, Quot.sound |
| C09 | `C09_failed_cut_changes_only_tsq` | propext, Classical.choice, Quot.sound |
| C10 | `C10_tsq_is_squared_halfwidth` | propext, Classical.choice, Quot.sound |
| C100 | `Py.lmi_init` | propext, Classical.choice, Quot.sound |
| C100 | `Py.lmi0_init` | propext, Classical.choice, Quot.sound |
| C100 | `Py.lmiOld_init` | propext, Classical.choice, Quot.sound |
| C100 | `Py.lmi_assess` | propext, Classical.choice, Quot.sound |
| C100 | `Py.lmi0_assess` | propext, Classical.choice, Quot.sound |
| C100 | `Py.lmiOld_assess` | propext, Classical.choice, Quot.sound |
| C100 | `Py.C100_lmi` | propext, Classical.choice, Quot.sound |
| C100 | `Py.C100_lmi_old` | propext, Classical.choice, Quot.sound |
| C100 | `Py.C100_lmi0` | propext, Classical.choice, Quot.sound |
| C100 | `Py.C100_lmi_finds` | propext, Classical.choice, Quot.sound |
| C100 | `Py.C100_lmi_float` | propext, Classical.choice, Quot.sound |
| C100 | `Py.C100_lmi_old_float` | propext, Classical.choice, Quot.sound |
| C100 | `Py.C100_lmi0_float` | propext, Classical.choice, Quot.sound |
| C101 | `Py.stable_init` | propext, Classical.choice, Quot.sound |
| C101 | `Py.C101_call` | propext, Classical.choice, Quot.sound |
| C101 | `Py.C101_accessors` | propext, Classical.choice, Quot.sound |
| C101 | `Py.C101_history` | propext, Classical.choice, Quot.sound |
| C101 | `Py.C101_aliased` | propext, Classical.choice, Quot.sound |
| C101 | `Py.C101_feas` | propext, Classical.choice, Quot.sound |
| C101 | `Py.C101_optim` | propext, Classical.choice, Quot.sound |
| C101 | `Py.C101_optim_q` | propext, Classical.choice, Quot.sound |
| C101 | `Py.stableReady_init` | propext, Classical.choice, Quot.sound |
| C101 | `Py.exact_stableSpace` | propext, Classical.choice, Quot.sound |
| C101 | `Py.C101_feas_same` | propext, Classical.choice, Quot.sound |
| C101 | `Py.C101_feas_finds` | propext, Classical.choice, Quot.sound |
| C101 | `Py.C101_feas_sound` | propext, Classical.choice, Quot.sound |
| C101 | `Py.C101_optim_bound` | propext, Classical.choice, Quot.sound |
| C101 | `Py.C101_lmi` | propext, Classical.choice, Quot.sound |
| C101 | `Py.C101_lmi_old` | propext, Classical.choice, Quot.sound |
| C101 | `Py.C101_lmi0` | propext, Classical.choice, Quot.sound |
| C102 | `Py.C102_refuted` | propext, Classical.choice, Quot.sound |
| C102 | `Py.C102_partial` | propext, Classical.choice, Quot.sound |
| C102 | `Py.C102_ell` | propext, Classical.choice, Quot.sound |
| C103 | `Py.profit_feas` | propext, Classical.choice, Quot.sound |
| C103 | `Py.profit_optim` | propext, Classical.choice, Quot.sound |
| C103 | `Py.profit_init` | propext, Classical.choice, Quot.sound |
| C103 | `Py.rb_optim` | propext, Classical.choice, Quot.sound |
| C103 | `Py.rb_init` | propext, Classical.choice, Quot.sound |
| C103 | `Py.q_optim` | propext, Classical.choice, Quot.sound |
| C103 | `Py.q_init` | propext, Classical.choice, Quot.sound |
| C103 | `Py.C103_profit` | propext, Classical.choice, Quot.sound |
| C103 | `Py.C103_robust` | propext, Classical.choice, Quot.sound |
| C103 | `Py.C103_discrete` | propext, Classical.choice, Quot.sound |
| C103 | `Py.C103_profit_exact` | propext, Classical.choice, Quot.sound |
| C103 | `Py.C103_profit_stable_exact` | propext, Classical.choice, Quot.sound |
| C103 | `Py.C103_robust_exact` | propext, Classical.choice, Quot.sound |
| C103 | `Py.C103_discrete_exact` | propext, Classical.choice, Quot.sound |
| C103 | `Py.C103_rejects` | propext, Classical.choice, Quot.sound |
| C103 | `Py.C103_sample` | propext, Classical.choice, Quot.sound |
| C103 | `Py.C103_raises` | propext, Classical.choice, Quot.sound |
| C104 | `Py.call_conjugate_gradient` | propext, Classical.choice, Quot.sound |
| C104 | `Py.call_conjugate_gradient_defaults` | propext, Classical.choice, Quot.sound |
| C104 | `Py.C104_call` | propext, Classical.choice, Quot.sound |
| C104 | `Py.C104_exact` | propext, Classical.choice, Quot.sound |
| C104 | `Py.C104_raises_iff` | propext, Classical.choice, Quot.sound |
| C104 | `Py.C104_krylov` | propext, Classical.choice, Quot.sound |
| C104 | `Py.C104_sample` | propext, Classical.choice, Quot.sound |
| C104 | `Py.C104_solved` | propext, Classical.choice, Quot.sound |
| C105 | `Py.C105_optim` | propext, Classical.choice, Quot.sound |
| C105 | `Py.C105_feas` | propext, Classical.choice, Quot.sound |
| C105 | `Py.C105_init` | propext, Classical.choice, Quot.sound |
| C105 | `Py.C105_assess_feas` | propext, Classical.choice, Quot.sound |
| C105 | `Py.C105_assess_optim` | propext, Classical.choice, Quot.sound |
| C105 | `Py.C105_filter_design` | propext, Classical.choice, Quot.sound |
| C105 | `Py.C105_feas_finds` | propext, Classical.choice, Quot.sound |
| C105 | `Py.C105_standard` | propext, Classical.choice, Quot.sound |
| C105 | `Py.C105_default` | propext, Classical.choice, Quot.sound |
| C106 | `C106_feas` | propext, Classical.choice, Quot.sound |
| C106 | `C106_optim` | propext, Classical.choice, Quot.sound |
| C106 | `C106_bits` | propext, Classical.choice, Quot.sound |
| C106 | `C106_feas_ieee` | propext, Classical.choice, Quot.sound |
| C106 | `C106_optim_ieee` | propext, Classical.choice, Quot.sound |
| C107 | `Py.C107_feas` | propext, Classical.choice, Quot.sound |
| C107 | `Py.C107_optim` | propext, Classical.choice, Quot.sound |
| C107 | `Py.C107_lmi` | propext, Classical.choice, Quot.sound |
| C107 | `Py.C107_lmi_old` | propext, Classical.choice, Quot.sound |
| C107 | `Py.C107_lmi0` | propext, Classical.choice, Quot.sound |
| C107 | `Py.C107_lmi_finds` | propext, Classical.choice, Quot.sound |
| C108 | `Py.call_fib` | propext, Classical.choice, Quot.sound |
| C108 | `Py.call_inverse_spectral_fact` | propext, Classical.choice, Quot.sound |
| C108 | `Py.call_spectral_fact` | propext, Classical.choice, Quot.sound |
| C108 | `Py.sf_handlers` | propext, Classical.choice, Quot.sound |
| C108 | `Py.C108_fib` | propext, Classical.choice, Quot.sound |
| C108 | `Py.C108_inverse` | propext, Classical.choice, Quot.sound |
| C108 | `Py.C108_outcomes` | propext, Classical.choice, Quot.sound |
| C108 | `Py.C108_matches` | propext, Classical.choice, Quot.sound |
| C108 | `Py.C108_minimum_phase` | propext, Classical.choice, Quot.sound |
| C108 | `Py.C108_round_trip` | propext, Classical.choice, Quot.sound |
| C108 | `Py.C108_accepts` | propext, Classical.choice, Quot.sound |
| C108 | `Py.C108_sample` | propext, Classical.choice, Quot.sound |
| C108 | `Py.C108_sample_rejects` | propext, Classical.choice, Quot.sound |
| C109 | `Py.adaptor_assess_bs_stable` | propext, Classical.choice, Quot.sound |
| C109 | `Py.C109_bsearch` | propext, Classical.choice, Quot.sound |
| C109 | `C109_same_outcome` | propext, Classical.choice, Quot.sound |
| C109 | `C109_stable_accuracy` | propext, Classical.choice, Quot.sound |
| C109 | `Py.C109_bsearch_same` | propext, Classical.choice, Quot.sound |
| C109 | `Py.C109_accuracy` | propext, Classical.choice, Quot.sound |
| C109 | `Py.C109_accuracy_ell` | propext, Classical.choice, Quot.sound |
| C109 | `Py.C109_drifts` | propext, Classical.choice, Quot.sound |
| C11 | `C11_new_centre` | propext, Classical.choice, Quot.sound |
| C110 | `Py.call_power1` | propext, Classical.choice, Quot.sound |
| C110 | `Py.call_power2` | propext, Classical.choice, Quot.sound |
| C110 | `Py.call_power3` | propext, Classical.choice, Quot.sound |
| C110 | `Py.call_power4` | propext, Classical.choice, Quot.sound |
| C110 | `Py.C110_text` | propext, Classical.choice, Quot.sound |
| C110 | `Py.C110_unit` | propext, Classical.choice, Quot.sound |
| C110 | `Py.C110_eigenvalue` | propext, Classical.choice, Quot.sound |
| C110 | `Py.C110_eigenvalue4` | propext, Classical.choice, Quot.sound |
| C110 | `Py.C110_eigenvalue23` | propext, Classical.choice, Quot.sound |
| C110 | `Py.C110_finds_largest` | propext, Classical.choice, Quot.sound |
| C110 | `Py.C110_variants_agree` | propext, Classical.choice, Quot.sound |
| C111 | `Py.call_ell1d` | propext, Classical.choice, Quot.sound |
| C111 | `Py.call_e1_update1` | propext, Classical.choice, Quot.sound |
| C111 | `Py.call_e1_update2` | propext, Classical.choice, Quot.sound |
| C111 | `Py.call_e1_set_xc` | propext, Classical.choice, Quot.sound |
| C111 | `Py.C111_history` | propext, Classical.choice, Quot.sound |
| C111 | `Py.C111_update` | propext, Classical.choice, Quot.sound |
| C111 | `Py.C111_zero_gradient` | propext, Classical.choice, Quot.sound |
| C112 | `C112_inflated` | propext, Classical.choice, Quot.sound |
| C112 | `Arith.pair_step` | propext, Classical.choice, Quot.sound |
| C112 | `Arith.single_pair_step` | propext, Classical.choice, Quot.sound |
| C112 | `Arith.strategy_pair` | propext, Classical.choice, Quot.sound |
| C113 | `C113_feas` | propext, Classical.choice, Quot.sound |
| C113 | `C113_optim` | propext, Classical.choice, Quot.sound |
| C113 | `C113_bits` | propext, Classical.choice, Quot.sound |
| C113 | `C113_feas_ieee` | propext, Classical.choice, Quot.sound |
| C113 | `C113_optim_ieee` | propext, Classical.choice, Quot.sound |
| C114 | `Py.C114_filter_design` | propext, Classical.choice, Quot.sound |
| C114 | `Py.C114_feas_finds` | propext, Classical.choice, Quot.sound |
| C114 | `C114_responses` | propext, Classical.choice, Quot.sound |
| C114 | `C114_edges` | propext, Classical.choice, Quot.sound |
| C115 | `Py.C115_init` | propext, Classical.choice, Quot.sound |
| C115 | `Py.C115_single` | propext, Classical.choice, Quot.sound |
| C115 | `Py.C115_parallel` | propext, Classical.choice, Quot.sound |
| C115 | `Py.C115_parallel_q` | propext, Classical.choice, Quot.sound |
| C115 | `Py.C115_parallel_central` | propext, Classical.choice, Quot.sound |
| C116 | `Py.C116_feas` | propext, Classical.choice, Quot.sound |
| C116 | `Py.C116_optim` | propext, Classical.choice, Quot.sound |
| C117 | `C117_bsearch` | propext, Classical.choice, Quot.sound |
| C117 | `C117_tests` | propext, Classical.choice, Quot.sound |
| C117 | `C117_accuracy` | propext, Classical.choice, Quot.sound |
| C117 | `C117_accuracy_pairs` | propext, Classical.choice, Quot.sound |
| C117 | `Py.C117_text` | propext, Classical.choice, Quot.sound |
| C117 | `Py.C117_accuracy_text` | propext, Classical.choice, Quot.sound |
| C117 | `Py.C117_accuracy_pairs_text` | propext, Classical.choice, Quot.sound |
| C118 | `C118_exhausts` | propext, Classical.choice, Quot.sound |
| C118 | `Py.C118_text` | propext, Classical.choice, Quot.sound |
| C119 | `C119_bsearch` | propext, Classical.choice, Quot.sound |
| C119 | `C119_least` | propext, Classical.choice, Quot.sound |
| C119 | `C119_large` | propext, Classical.choice, Quot.sound |
| C119 | `Py.C119_text` | propext, Classical.choice, Quot.sound |
| C119 | `Py.C119_least_text` | propext, Classical.choice, Quot.sound |
| C119 | `Py.C119_large_text` | propext, Classical.choice, Quot.sound |
| C12 | `C12_scale_invariant` | propext, Classical.choice, Quot.sound |
| C120 | `C120_optim` | propext, Classical.choice, Quot.sound |
| C120 | `C120_profit` | propext, Classical.choice, Quot.sound |
| C120 | `Py.C120_text` | propext, Classical.choice, Quot.sound |
| C121 | `C121_robust` | propext, Classical.choice, Quot.sound |
| C121 | `Py.C121_text` | propext, Classical.choice, Quot.sound |
| C122 | `C122_plain` | propext, Classical.choice, Quot.sound |
| C122 | `C122_robust` | propext, Classical.choice, Quot.sound |
| C122 | `C122_discrete` | propext, Classical.choice, Quot.sound |
| C122 | `Py.C122_text` | propext, Classical.choice, Quot.sound |
| C122 | `Py.C122_robust_text` | propext, Classical.choice, Quot.sound |
| C122 | `Py.C122_discrete_text` | propext, Classical.choice, Quot.sound |
| C123 | `Py.C123_lmi` | propext, Classical.choice, Quot.sound |
| C123 | `Py.C123_lmi_old` | propext, Classical.choice, Quot.sound |
| C123 | `Py.C123_lmi0` | propext, Classical.choice, Quot.sound |
| C123 | `Py.C123_lowpass` | propext, Classical.choice, Quot.sound |
| C123 | `Py.C123_lowpass_design` | propext, Classical.choice, Quot.sound |
| C124 | `C124_sqrt` | propext, Classical.choice, Quot.sound |
| C124 | `Py.C124_text` | propext, Classical.choice, Quot.sound |
| C125 | `C125_residual` | propext, Classical.choice, Quot.sound |
| C125 | `C125_needed` | propext, Classical.choice, Quot.sound |
| C125 | `Py.C125_text` | propext, Classical.choice, Quot.sound |
| C125 | `Py.C125_needed_text` | propext, Classical.choice, Quot.sound |
| C126 | `C126_residual` | propext, Classical.choice, Quot.sound |
| C126 | `C126_eigenvalue` | propext, Classical.choice, Quot.sound |
| C126 | `C126_bits` | propext, Classical.choice, Quot.sound |
| C127 | `Arith.C127_update` | propext, Classical.choice, Quot.sound |
| C127 | `Arith.C127_history` | propext, Classical.choice, Quot.sound |
| C127 | `Arith.C127_sound` | propext, Classical.choice, Quot.sound |
| C127 | `Arith.C127_no_false_alarm` | propext, Classical.choice, Quot.sound |
| C127 | `Py.C127_text` | propext, Classical.choice, Quot.sound |
| C127 | `Py.C127_text_sound` | propext, Classical.choice, Quot.sound |
| C127 | `Py.C127_bits` | propext, Classical.choice, Quot.sound |
| C127 | `Py.C127_negative_width` | propext, Classical.choice, Quot.sound |
| C128 | `Arith.C128_update` | propext, Classical.choice, Quot.sound |
| C128 | `Arith.C128_rate` | propext, Classical.choice, Quot.sound |
| C128 | `Py.C128_bits` | propext, Classical.choice, Quot.sound |
| C129 | `C129_residual` | propext, Classical.choice, Quot.sound |
| C129 | `C129_eigenvalue` | propext, Classical.choice, Quot.sound |
| C129 | `C129_bits` | propext, Classical.choice, Quot.sound |
| C13 | `C13_no_defer_unobservable_partial` | propext, Classical.choice, Quot.sound |
| C13 | `C13_refuted` | propext, Classical.choice, Quot.sound |
| C130 | `C130_eigenvalue` | propext, Classical.choice, Quot.sound |
| C130 | `C130_bits` | propext, Classical.choice, Quot.sound |
| C131 | `C131_eigenvalue` | propext, Classical.choice, Quot.sound |
| C131 | `C131_bits` | propext, Classical.choice, Quot.sound |
| C132 | `C132_returns` | propext, Classical.choice, Quot.sound |
| C132 | `C132_bits` | propext, Classical.choice, Quot.sound |
| C133 | `C133_exact` | propext, Classical.choice, Quot.sound |
| C133 | `C133_bits` | propext, Classical.choice, Quot.sound |
| C133 | `Py.C133_text` | propext, Classical.choice, Quot.sound |
| C134 | `C134_exact` | propext, Classical.choice, Quot.sound |
| C134 | `C134_bits` | propext, Classical.choice, Quot.sound |
| C134 | `Py.C134_text` | propext, Classical.choice, Quot.sound |
| C135 | `C135_scale` | propext, Classical.choice, Quot.sound |
| C135 | `C135_bits` | propext, Classical.choice, Quot.sound |
| C135 | `C135_exact` | propext, Classical.choice, Quot.sound |
| C136 | `C136_scale` | propext, Classical.choice, Quot.sound |
| C136 | `C136_bits` | propext, Classical.choice, Quot.sound |
| C137 | `C137_bits` | propext, Classical.choice, Quot.sound |
| C138 | `C138_bits` | propext, Classical.choice, Quot.sound |
| C14 | `C14_stable_refines_ell` | propext, Classical.choice, Quot.sound |
| C14 | `C14_strict_cuts` | propext, Classical.choice, Quot.sound |
| C14 | `C14_zero_gradient_differs` | propext, Classical.choice, Quot.sound |
| C14 | `C14_touching_cut_differs` | propext, Classical.choice, Quot.sound |
| C15 | `C15_refuted` | propext, Classical.choice, Quot.sound |
| C15 | `C15_axis_cuts_partial` | propext, Classical.choice, Quot.sound |
| C15 | `C15_observable_iff` | propext, Classical.choice, Quot.sound |
| C16 | `C16_parallel_variants_agree` | propext, Classical.choice, Quot.sound |
| C16 | `C16_central_variants_agree` | propext, Classical.choice, Quot.sound |
| C16 | `C16_bias_zero_is_central` | propext, Classical.choice, Quot.sound |
| C16 | `C16_parallel_tau_is_bias` | propext, Classical.choice, Quot.sound |
| C16 | `C16_fast_old_differs_at_equal_offsets` | propext, Classical.choice, Quot.sound |
| C17 | `C17_single` | propext, Classical.choice, Quot.sound |
| C17 | `C17_parallel` | propext, Classical.choice, Quot.sound |
| C17 | `C17_none_second` | propext, Classical.choice, Quot.sound |
| C17 | `C17_empty` | propext, Classical.choice, Quot.sound |
| C18 | `C18_valid_cuts_never_raise` | propext, Classical.choice, Quot.sound |
| C18 | `C18_bias_raises_iff` | propext, Classical.choice, Quot.sound |
| C18 | `C18_q_raises_iff` | propext, Classical.choice, Quot.sound |
| C18 | `C18_central_raises_iff` | propext, Classical.choice, Quot.sound |
| C19 | `C19_bias_ranges` | propext, Classical.choice, Quot.sound |
| C19 | `C19_parallel_ranges` | propext, Classical.choice, Quot.sound |
| C20 | `C20_feas_returns_accepted` | propext, Classical.choice, Quot.sound |
| C20 | `C20_feas_returns_first_accepted` | propext, Quot.sound |
| C21 | `C21_feas_gives_up_for_a_reason` | propext, Classical.choice, Quot.sound |
| C21 | `C21_feas_raises` | propext, Classical.choice, Quot.sound |
| C22 | `C22_infeasibility_sound` | propext, Classical.choice, Quot.sound |
| C23 | `C23_feas_converges` | propext, Classical.choice, Quot.sound |
| C23 | `C23_feas_converges_general` | propext, Classical.choice, Quot.sound |
| C24 | `C24_optim_consistent_pair` | propext, Classical.choice, Quot.sound |
| C25 | `C25_gamma_monotone` | propext, Classical.choice, Quot.sound |
| C26 | `C26_optimality_sound` | propext, Classical.choice, Quot.sound |
| C26 | `C26_minimiser` | propext, Classical.choice, Quot.sound |
| C27 | `C27_optim_converges` | propext, Classical.choice, Quot.sound |
| C27 | `C27_optim_converges_general` | propext, Classical.choice, Quot.sound |
| C28 | `C28_retry_protocol` | propext, Quot.sound |
| C28 | `C29_optim_q_consistent_pair` | propext, Quot.sound |
| C29 | `C29_optim_q_consistent_pair` | propext, Quot.sound |
| C30 | `C30_feas_returns_live_array` | propext, Classical.choice, Quot.sound |
| C30 | `C30_optim_snapshot` | propext, Classical.choice, Quot.sound |
| C31 | `C31_refuted` | propext, Classical.choice, Quot.sound |
| C31 | `C31_other_arrays_unchanged_partial` | propext, Classical.choice, Quot.sound |
| C32 | `C32_bsearch_certified` | propext, Classical.choice, Quot.sound |
| C32 | `C32_bsearch_ordered` | propext, Classical.choice, Quot.sound |
| C32 | `C32_bsearch_int_ordered` | propext, Classical.choice, Quot.sound |
| C33 | `C33_bsearch_accuracy` | propext, Classical.choice, Quot.sound |
| C34 | `C34_bsearch_int` | propext, Classical.choice, Quot.sound |
| C34 | `C34_bsearch_int_degenerate` | propext, Classical.choice, Quot.sound |
| C35 | `C35_assess_bs_isolates` | propext, Classical.choice, Quot.sound |
| C35 | `C35_assess_bs_ell` | propext, Classical.choice, Quot.sound |
| C36 | `C36_bsearch_adaptor_certified` | propext, Classical.choice, Quot.sound |
| C37 | `C37_factor_decides_spd` | propext, Classical.choice, Quot.sound |
| C37 | `C37_factorize_posDef` | propext, Classical.choice, Quot.sound |
| C38 | `C38_factors_reproduce` | propext, Classical.choice, Quot.sound |
| C39 | `C39_witness_certifies` | propext, Classical.choice, Quot.sound |
| C39 | `C39_semi_witness_certifies` | propext, Classical.choice, Quot.sound |
| C39 | `C39_witness_raises` | propext, Classical.choice, Quot.sound |
| C40 | `C40_factor_lazy` | propext, Classical.choice, Quot.sound |
| C40 | `C40_factor_reads` | propext, Classical.choice, Quot.sound |
| C40 | `C40_factor_depends_on_lower` | propext, Classical.choice, Quot.sound |
| C41 | `C41_sqrt_is_cholesky` | propext, Classical.choice, Quot.sound |
| C42 | `C42_refuted` | propext, Classical.choice, Quot.sound |
| C42 | `C42_semidefinite_partial` | propext, Classical.choice, Quot.sound |
| C43 | `C43_lmi_separates` | propext, Classical.choice, Quot.sound |
| C44 | `C44_lmi0_separates` | propext, Classical.choice, Quot.sound |
| C45 | `C45_old_and_new_agree` | propext, Classical.choice, Quot.sound |
| C46 | `C46_lmi_end_to_end` | propext, Classical.choice, Quot.sound |
| C46 | `C22_noSoln_inside` | propext, Classical.choice, Quot.sound |
| C47 | `C47_lowpass_decides` | propext, Classical.choice, Quot.sound |
| C48 | `C48_lowpass_cuts_valid` | propext, Classical.choice, Quot.sound |
| C49 | `C49_lowpass_optim` | propext, Classical.choice, Quot.sound |
| C49 | `C49_no_stopband` | propext, Classical.choice, Quot.sound |
| C50 | `C50_profit_cuts_valid` | propext, Classical.choice, Quot.sound |
| C51 | `C51_robust` | propext, Classical.choice, Quot.sound |
| C52 | `C52_integer_designs` | propext, Classical.choice, Quot.sound |
| C53 | `C53_refuted` | propext, Classical.choice, Quot.sound |
| C53 | `C53_cut_valid_partial` | propext, Classical.choice, Quot.sound |
| C54 | `C54_accuracy` | propext, Classical.choice, Quot.sound |
| C54 | `C54_error` | propext, Classical.choice, Quot.sound |
| C55 | `C55_converges` | propext, Classical.choice, Quot.sound |
| C55 | `C55_invariant_subspace` | propext, Classical.choice, Quot.sound |
| C56 | `C56_refuted` | propext, Classical.choice, Quot.sound |
| C56 | `C56_exact_guess_raises` | propext, Classical.choice, Quot.sound |
| C56 | `C56_refuted_everywhere` | propext, Classical.choice, Quot.sound |
| C56 | `C56_raises_iff` | propext, Classical.choice, Quot.sound |
| C57 | `C57_autocorrelation` | propext, Classical.choice, Quot.sound |
| C57 | `C57_spectrum` | propext, Classical.choice, Quot.sound |
| C58 | `C58_matches` | propext, Classical.choice, Quot.sound |
| C58 | `C58_matches_clamped` | propext, Classical.choice, Quot.sound |
| C58 | `C58_outcomes` | propext, Classical.choice, Quot.sound |
| C58 | `C58_accepts_autocorrelations` | propext, Classical.choice, Quot.sound |
| C59 | `C59_fib` | propext, Quot.sound |
| C60 | `C60_init_rejects` | propext, Classical.choice, Quot.sound |
| C60 | `C60_init_scalar` | propext, Classical.choice, Quot.sound |
| C60 | `C60_init_diag` | propext, Classical.choice, Quot.sound |
| C61 | `C61_filter_design` | propext, Classical.choice, Quot.sound |
| C61 | `lowpass_regular` | propext, Classical.choice, Quot.sound |
| C62 | `C62_standard_case` | propext, Classical.choice, Quot.sound |
| C63 | `C63_feas_flat` | propext, Classical.choice, Quot.sound |
| C63 | `C63_optim_flat` | propext, Classical.choice, Quot.sound |
| C64 | `C64_profit_loop` | propext, Classical.choice, Quot.sound |
| C65 | `C65_profit_loop_raises` | propext, Classical.choice, Quot.sound |
| C65 | `C65_exact_optimum_raises` | propext, Classical.choice, Quot.sound |
| C66 | `C66_robust_loop` | propext, Classical.choice, Quot.sound |
| C66 | `C66_integer_loop` | propext, Classical.choice, Quot.sound |
| C67 | `C67_returns_iff` | propext, Classical.choice, Quot.sound |
| C67 | `C67_raises_iff` | propext, Classical.choice, Quot.sound |
| C68 | `C68_round_trip` | propext, Classical.choice, Quot.sound |
| C69 | `C69_refuted` | propext, Classical.choice, Quot.sound |
| C69 | `C69_column_rows` | propext, Classical.choice, Quot.sound |
| C70 | `C70_minimum_phase` | propext, Classical.choice, Quot.sound |
| C71 | `C71_minimum_volume` | propext, Classical.choice, Quot.sound |
| C71 | `C71_void_first_cut` | propext, Classical.choice, Quot.sound |
| C72 | `C72_volume_is_det` | propext, Classical.choice, Quot.sound |
| C72 | `C72_volume_reduction` | propext, Classical.choice, Quot.sound |
| C72 | `C72_minimum_volume` | propext, Classical.choice, Quot.sound |
| C73 | `C73_feas_volume_bound` | propext, Classical.choice, Quot.sound |
| C73 | `C73_feas_finds` | propext, Classical.choice, Quot.sound |
| C73 | `C73_optim_volume_bound` | propext, Classical.choice, Quot.sound |
| C73 | `C73_feas_part_inside` | propext, Classical.choice, Quot.sound |
| C73 | `C73_optim_up_to` | propext, Classical.choice, Quot.sound |
| C74 | `C74_feas_same_outcome` | propext, Classical.choice, Quot.sound |
| C74 | `C74_optim_same_outcome` | propext, Classical.choice, Quot.sound |
| C74 | `C74_optim_q_same_outcome` | propext, Classical.choice, Quot.sound |
| C75 | `C75_stable_infeasibility_sound` | propext, Classical.choice, Quot.sound |
| C75 | `C75_stable_optimality_sound` | propext, Classical.choice, Quot.sound |
| C75 | `C75_stable_feas_finds` | propext, Classical.choice, Quot.sound |
| C75 | `C75_stable_optim_bound` | propext, Classical.choice, Quot.sound |
| C76 | `C76_semidefinite_accepts_iff` | propext, Classical.choice, Quot.sound |
| C76 | `C76_zero_corner` | propext, Classical.choice, Quot.sound |
| C77 | `C77_convex_accuracy` | propext, Classical.choice, Quot.sound |
| C78 | `C78_lmi_converges` | propext, Classical.choice, Quot.sound |
| C78 | `C78_lmi0_converges` | propext, Classical.choice, Quot.sound |
| C78 | `C78_lmi_finds` | propext, Classical.choice, Quot.sound |
| C78 | `C78_lmi_cut_exact` | propext, Classical.choice, Quot.sound |
| C78 | `C78_lmi0_cut_exact` | propext, Classical.choice, Quot.sound |
| C79 | `C79_more_information` | propext, Classical.choice, Quot.sound |
| C79 | `C79_deeper_cut` | propext, Classical.choice, Quot.sound |
| C79 | `C79_parallel_cut` | propext, Classical.choice, Quot.sound |
| C79 | `C79_deep_vs_central` | propext, Classical.choice, Quot.sound |
| C80 | `C80_update_affine` | propext, Classical.choice, Quot.sound |
| C80 | `C80_region` | propext, Classical.choice, Quot.sound |
| C80 | `C80_feas_affine` | propext, Classical.choice, Quot.sound |
| C80 | `C80_optim_affine` | propext, Classical.choice, Quot.sound |
| C80 | `C80_optim_q_affine` | propext, Classical.choice, Quot.sound |
| C80 | `C80_bsearch_affine` | propext, Classical.choice, Quot.sound |
| C81 | `C81_refuted` | propext, Classical.choice, Quot.sound |
| C81 | `C81_bsearch_accuracy_partial` | propext, Classical.choice, Quot.sound |
| C82 | `C82_optim_q_sound` | propext, Classical.choice, Quot.sound |
| C82 | `C82_discrete_optimum` | propext, Classical.choice, Quot.sound |
| C83 | `Ell1d.C83_init` | propext, Classical.choice, Quot.sound |
| C83 | `Ell1d.C83_update_exact` | propext, Classical.choice, Quot.sound |
| C83 | `Ell1d.C83_history` | propext, Classical.choice, Quot.sound |
| C83 | `Ell1d.C83_halves` | propext, Classical.choice, Quot.sound |
| C83 | `Ell1d.C83_zero_gradient` | propext, Classical.choice, Quot.sound |
| C84 | `C84_lmi2_separates` | propext, Classical.choice, Quot.sound |
| C84 | `C84_lmi2_end_to_end` | propext, Classical.choice, Quot.sound |
| C84 | `C84_lmi3_is_lmi` | propext, Classical.choice, Quot.sound |
| C84 | `C84_lmi3_separates` | propext, Classical.choice, Quot.sound |
| C85 | `C85_power_iteration` | propext, Classical.choice, Quot.sound |
| C85 | `C85_power_iteration2` | propext, Classical.choice, Quot.sound |
| C85 | `C85_power_iteration3` | propext, Classical.choice, Quot.sound |
| C85 | `C85_power_iteration4` | propext, Classical.choice, Quot.sound |
| C85 | `C85_variants_agree` | propext, Classical.choice, Quot.sound |
| C86 | `C86_unit_and_rayleigh` | propext, Classical.choice, Quot.sound |
| C86 | `C86_residual` | propext, Classical.choice, Quot.sound |
| C86 | `C86_residual4` | propext, Classical.choice, Quot.sound |
| C86 | `C86_eigenvalue` | propext, Classical.choice, Quot.sound |
| C86 | `C86_eigenvalue4` | propext, Classical.choice, Quot.sound |
| C86 | `C86_eigenvalue23` | propext, Classical.choice, Quot.sound |
| C87 | `C87_returns` | propext, Classical.choice, Quot.sound |
| C87 | `C87_monotone` | propext, Classical.choice, Quot.sound |
| C87 | `C87_terminates23` | propext, Classical.choice, Quot.sound |
| C87 | `C87_terminates` | propext, Classical.choice, Quot.sound |
| C87 | `C87_terminates4` | propext, Classical.choice, Quot.sound |
| C87 | `C87_accuracy` | propext, Classical.choice, Quot.sound |
| C87 | `C87_finds_largest` | propext, Classical.choice, Quot.sound |
| C88 | `C88_refuted` | propext, Classical.choice, Quot.sound |
| C88 | `C88_indefinite_refuted` | propext, Classical.choice, Quot.sound |
| C88 | `C87_accuracy` | propext, Classical.choice, Quot.sound |
| C89 | `C89_single` | propext, Classical.choice, Quot.sound |
| C89 | `C89_parallel` | propext, Classical.choice, Quot.sound |
| C89 | `C89_parallel_q` | propext, Classical.choice, Quot.sound |
| C89 | `C89_parallel_central` | propext, Classical.choice, Quot.sound |
| C90 | `C90_exact` | propext, Classical.choice, Quot.sound |
| C90 | `C90_symmetric` | propext, Classical.choice, Quot.sound |
| C90 | `C90_init_symmetric` | propext, Classical.choice, Quot.sound |
| C90 | `C90_failed_cut_changes_nothing` | propext, Classical.choice, Quot.sound |
| C91 | `C91_inflated` | propext, Classical.choice, Quot.sound |
| C91 | `C91_inflation_needed` | propext, Classical.choice, Quot.sound |
| C92 | `C92_accepted` | propext, Classical.choice, Quot.sound |
| C92 | `C92_rejected` | propext, Classical.choice, Quot.sound |
| C92 | `C92_accepts` | propext, Classical.choice, Quot.sound |
| C92 | `C92_not_complete` | propext, Classical.choice, Quot.sound |
| C92 | `C92_not_sound` | propext, Classical.choice, Quot.sound |
| C93 | `C93_lmi` | propext, Classical.choice, Quot.sound |
| C93 | `C93_lmi_old` | propext, Classical.choice, Quot.sound |
| C93 | `C93_lmi0` | propext, Classical.choice, Quot.sound |
| C93 | `C93_exact` | propext, Classical.choice, Quot.sound |
| C93 | `C93_cut_not_valid` | propext, Classical.choice, Quot.sound |
| C94 | `C94_run` | propext, Classical.choice, Quot.sound |
| C94 | `C94_inflation` | propext, Classical.choice, Quot.sound |
| C94 | `C94_conditions` | propext, Classical.choice, Quot.sound |
| C94 | `C94_apriori` | propext, Classical.choice, Quot.sound |
| C94 | `C94_no_soln` | propext, Classical.choice, Quot.sound |
| C95 | `C95_exact` | propext, Classical.choice, Quot.sound |
| C95 | `C95_positive` | propext, Classical.choice, Quot.sound |
| C95 | `C95_run` | propext, Classical.choice, Quot.sound |
| C95 | `C95_no_margin` | propext, Classical.choice, Quot.sound |
| C96 | `Py.core_calc_central_cut` | propext, Classical.choice, Quot.sound |
| C96 | `Py.core_calc_bias_cut_fast` | propext, Classical.choice, Quot.sound |
| C96 | `Py.core_calc_bias_cut` | propext, Classical.choice, Quot.sound |
| C96 | `Py.core_calc_parallel_central_cut` | propext, Classical.choice, Quot.sound |
| C96 | `Py.core_calc_parallel_bias_cut_fast` | propext, Classical.choice, Quot.sound |
| C96 | `Py.core_calc_parallel_bias_cut` | propext, Classical.choice, Quot.sound |
| C96 | `Py.core_calc_parallel_central_cut_old` | propext, Classical.choice, Quot.sound |
| C96 | `Py.core_calc_parallel_bias_cut_fast2` | propext, Classical.choice, Quot.sound |
| C96 | `Py.core_calc_parallel_bias_cut_old` | propext, Classical.choice, Quot.sound |
| C96 | `Py.core_calc_parallel_bias_cut_fast_old` | propext, Classical.choice, Quot.sound |
| C96 | `Py.core_init_int` | propext, Classical.choice, Quot.sound |
| C96 | `Py.core_init_num` | propext, Classical.choice, Quot.sound |
| C96 | `Py.calc_calc_bias_cut` | propext, Classical.choice, Quot.sound |
| C96 | `Py.calc_calc_parallel` | propext, Classical.choice, Quot.sound |
| C96 | `Py.calc_calc_bias_cut_q` | propext, Classical.choice, Quot.sound |
| C96 | `Py.calc_calc_parallel_q` | propext, Classical.choice, Quot.sound |
| C96 | `Py.calc_calc_single_or_parallel` | propext, Classical.choice, Quot.sound |
| C96 | `Py.calc_calc_single_or_parallel_q` | propext, Classical.choice, Quot.sound |
| C96 | `Py.calc_calc_single_or_parallel_central_cut` | propext, Classical.choice, Quot.sound |
| C96 | `Py.calc_init` | propext, Classical.choice, Quot.sound |
| C97 | `Py.ell_update_core` | propext, Classical.choice, Quot.sound |
| C97 | `Py.ell_update_bias_cut` | propext, Classical.choice, Quot.sound |
| C97 | `Py.ell_update_central_cut` | propext, Classical.choice, Quot.sound |
| C97 | `Py.ell_update_q` | propext, Classical.choice, Quot.sound |
| C97 | `Py.ell_xc` | propext, Classical.choice, Quot.sound |
| C97 | `Py.ell_tsq` | propext, Classical.choice, Quot.sound |
| C97 | `Py.ell_set_xc` | propext, Classical.choice, Quot.sound |
| C97 | `Py.ell_init` | propext, Classical.choice, Quot.sound |
| C97 | `Py.C97_call` | propext, Classical.choice, Quot.sound |
| C97 | `Py.C97_history` | propext, Classical.choice, Quot.sound |
| C97 | `Py.C97_positive` | propext, Classical.choice, Quot.sound |
| C97 | `Py.C97_deep_cut` | propext, Classical.choice, Quot.sound |
| C98 | `Py.C98_feas` | propext, Classical.choice, Quot.sound |
| C98 | `Py.C98_optim` | propext, Classical.choice, Quot.sound |
| C98 | `Py.C98_optim_q` | propext, Classical.choice, Quot.sound |
| C98 | `Py.C98_bsearch` | propext, Classical.choice, Quot.sound |
| C98 | `Py.C98_defaults` | propext, Classical.choice, Quot.sound |
| C98 | `Py.floatNum_sim` | propext, Classical.choice, Quot.sound |
| C98 | `Py.intNum_sim` | propext, Classical.choice, Quot.sound |
| C98 | `Py.user_feas` | propext, Classical.choice, Quot.sound |
| C98 | `Py.user_param` | propext, Classical.choice, Quot.sound |
| C98 | `Py.user_optim` | propext, Classical.choice, Quot.sound |
| C98 | `Py.user_optimQ` | propext, Classical.choice, Quot.sound |
| C98 | `Py.C98_feas_converges` | propext, Classical.choice, Quot.sound |
| C98 | `Py.C98_feas_sound` | propext, Classical.choice, Quot.sound |
| C98 | `Py.C98_optim_accuracy` | propext, Classical.choice, Quot.sound |
| C98 | `Py.exact_space` | propext, Classical.choice, Quot.sound |
| C98 | `Py.floatNum_exact` | propext, Classical.choice, Quot.sound |
| C98 | `Py.intNum_exact` | propext, Classical.choice, Quot.sound |
| C99 | `Py.new_mgr` | propext, Classical.choice, Quot.sound |
| C99 | `Py.mgr_factor` | propext, Classical.choice, Quot.sound |
| C99 | `Py.mgr_factor_semi` | propext, Classical.choice, Quot.sound |
| C99 | `Py.mgr_factorize` | propext, Classical.choice, Quot.sound |
| C99 | `Py.mgr_witness` | propext, Classical.choice, Quot.sound |
| C99 | `Py.mgr_sym_quad` | propext, Classical.choice, Quot.sound |
| C99 | `Py.mgr_sqrt` | propext, Classical.choice, Quot.sound |
| C99 | `Py.C99_decides` | propext, Classical.choice, Quot.sound |
| C99 | `Py.C99_sqrt` | propext, Classical.choice, Quot.sound |
| C99 | `Py.C99_witness` | propext, Classical.choice, Quot.sound |
| C99 | `Py.C99_lazy` | propext, Classical.choice, Quot.sound |
| C99 | `Py.C99_semidefinite` | propext, Classical.choice, Quot.sound |
| C99 | `Py.C99_float` | propext, Classical.choice, Quot.sound |
