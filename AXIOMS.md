# Axioms

Generated by `tools/axioms.py` from `#print axioms` of every theorem in MANIFEST.json.

## propext, Classical.choice, Quot.sound (594 theorems)

`MVMC.C01_splitLoop_balanced`, `MVMC.C01_splitLoop_exactly_one_owner`, `MVMC.C01_splitLoop_tiles`, `MVMC.C02_overlap_eq_full_sum`, `MVMC.C02_reduce_eq_serial`, `MVMC.C02_reduce_rank_independent`, `MVMC.C03_group_in_range`, `MVMC.C03_group_monotone`, `MVMC.C03_group_sizes`, `MVMC.C03_multidef_partial`, `MVMC.C03_option_zero_divides_by_zero`, `MVMC.C03_seed_distinct`, `MVMC.C04_chunks_cover_partial`, `MVMC.C04_same_as_single_transfer_partial`, `MVMC.C06_counters`, `MVMC.C06_electron_numbers`, `MVMC.C06_every_configuration_consistent`, `MVMC.C06_exchange_effect`, `MVMC.C06_hop_in_bounds`, `MVMC.C06_stored_samples_consistent`, `MVMC.C08_every_configuration_consistent`, `MVMC.C08_magnetisation_conserved_partial`, `MVMC.C08_stored_samples_consistent`, `MVMC.C09_rejected_exchange_restores`, `MVMC.C09_rejected_exchange_restores_fsz`, `MVMC.C09_rejected_hop_restores`, `MVMC.C09_rejected_move_restores_fsz`, `MVMC.C10_initial_configuration_valid`, `MVMC.C10_initial_configuration_valid_fsz`, `MVMC.C11_hop_search_can_finish`, `MVMC.C11_reject_iff_no_pair`, `MVMC.C11_reject_iff_no_pair_fsz`, `MVMC.C11_search_can_always_finish`, `MVMC.C11_search_can_always_finish_fsz`, `MVMC.C11_target_loop_bounded`, `MVMC.C12_make_dh2`, `MVMC.C12_make_dh4`, `MVMC.C12_make_gutzwiller`, `MVMC.C12_make_jastrow`, `MVMC.C12_parallel_iterations_disjoint`, `MVMC.C12_parallel_iterations_disjoint4`, `MVMC.C12_sampler_counters`, `MVMC.C12_update_equals_recount`, `MVMC.C12_writes_in_bounds`, `MVMC.C13_sampler_counters`, `MVMC.C13_update_equals_recount`, `MVMC.C14_flip_witness`, `MVMC.C14_hidden`, `MVMC.C14_sampler`, `MVMC.C14_update`, `MVMC.C14_update_fsz_partial`, `MVMC.C14_visible`, `MVMC.C15_log_ratio`, `MVMC.C15_log_value`, `MVMC.C15_ratio`, `MVMC.C15_ratio_after_update`, `MVMC.C16_correlation`, `MVMC.C16_frozen`, `MVMC.C16_normalised`, `MVMC.C16_ratio`, `MVMC.C17_completes`, `MVMC.C17_observables`, `MVMC.C17_rescaled`, `MVMC.C17_trial_state`, `MVMC.C17_trial_state_fsz`, `MVMC.C17_weights`, `MVMC.C17_zero_violated`, `MVMC.C18_slot_times`, `MVMC.C19_accept`, `MVMC.C19_accept_close`, `MVMC.C19_balance_exchange`, `MVMC.C19_balance_partial`, `MVMC.C19_bias_violated`, `MVMC.C19_conductionFlip`, `MVMC.C19_exchange`, `MVMC.C19_exchange_fsz`, `MVMC.C19_exchange_step`, `MVMC.C19_hop_count_partial`, `MVMC.C19_hop_csz_partial`, `MVMC.C19_hop_fsz_partial`, `MVMC.C19_hop_partial`, `MVMC.C19_hop_step`, `MVMC.C19_localSpinFlip`, `MVMC.C19_power_of_two`, `MVMC.C19_step_fsz`, `MVMC.C19_weight`, `MVMC.C20_electron_exchange`, `MVMC.C20_electron_pauli`, `MVMC.C20_exchange`, `MVMC.C20_pauli`, `MVMC.C21_new_pfaffian`, `MVMC.C21_new_pfaffian_fsz`, `MVMC.C22_from_scratch`, `MVMC.C22_from_scratch_fsz`, `MVMC.C22_inverse_antisymmetric`, `MVMC.C22_sampler`, `MVMC.C22_sampler_fsz`, `MVMC.C22_update`, `MVMC.C22_update_fsz`, `MVMC.C22_zero_projection_witness`, `MVMC.C23_new_pfaffian_two`, `MVMC.C23_new_pfaffian_two_fsz`, `MVMC.C23_update_two`, `MVMC.C23_update_two_fsz`, `MVMC.C24_fsz2_diagonal_witness`, `MVMC.C24_green1`, `MVMC.C24_green1_fsz`, `MVMC.C24_green1_fsz2_partial`, `MVMC.C25_green2`, `MVMC.C25_green2_fsz`, `MVMC.C25_green2_fsz2`, `MVMC.C26_restored`, `MVMC.C26_restored_fsz`, `MVMC.C27_diagonal`, `MVMC.C27_double_occupation`, `MVMC.C27_local_energy`, `MVMC.C27_local_energy_fsz`, `MVMC.C27_sz`, `MVMC.C27_thread_independent`, `MVMC.C27_transfer_spin_ignored`, `MVMC.C28_rotated_pair`, `MVMC.C28_skew`, `MVMC.C28_skew_fsz`, `MVMC.C29_constant`, `MVMC.C29_logderiv`, `MVMC.C29_logderiv_fsz`, `MVMC.C30_cg_race_witness`, `MVMC.C30_cg_real_partial`, `MVMC.C30_failed`, `MVMC.C30_frozen`, `MVMC.C30_max`, `MVMC.C30_selection`, `MVMC.C30_update`, `MVMC.C31_covariance`, `MVMC.C31_degenerate_violated`, `MVMC.C31_positive_definite_partial`, `MVMC.C31_psd`, `MVMC.C31_symmetric`, `MVMC.C32_overlap_partial`, `MVMC.C32_residual`, `MVMC.C32_solves`, `MVMC.C32_zero_tolerance_violated`, `MVMC.C33_same_partial`, `MVMC.C33_stale_violated`, `MVMC.C34_cg_partial`, `MVMC.C34_discard_violated`, `MVMC.C34_same_partial`, `MVMC.C34_split_violated`, `MVMC.C35_bound`, `MVMC.C35_completes_partial`, `MVMC.C35_eigenstate_violated`, `MVMC.C35_infinite_alpha_violated`, `MVMC.C35_lowest`, `MVMC.C35_real_mode_violated`, `MVMC.C35_variance`, `MVMC.C35_variational`, `MVMC.C36_gather`, `MVMC.C36_in_range`, `MVMC.C36_matrix`, `MVMC.C36_owner_unique`, `MVMC.C37_check_kw_partial`, `MVMC.C37_check_words_partial`, `MVMC.C37_enum`, `MVMC.C37_file_names_partial`, `MVMC.C37_long_keyword_violated`, `MVMC.C37_missing_name_violated`, `MVMC.C37_missing_number_violated`, `MVMC.C37_modpara_partial`, `MVMC.C37_no_prefix_partial`, `MVMC.C37_space_line_violated`, `MVMC.C38_coulombIntra_partial`, `MVMC.C38_dh2_complete`, `MVMC.C38_dh2_partial`, `MVMC.C38_dh4_complete`, `MVMC.C38_dh4_partial`, `MVMC.C38_extra_line_violated`, `MVMC.C38_genLayer_complete`, `MVMC.C38_genLayer_partial`, `MVMC.C38_genPhysHidden_complete`, `MVMC.C38_genPhysHidden_partial`, `MVMC.C38_index_twice_violated`, `MVMC.C38_index_violated`, `MVMC.C38_interAll_partial`, `MVMC.C38_jastrow_complete`, `MVMC.C38_jastrow_partial`, `MVMC.C38_layer_complete`, `MVMC.C38_layer_partial`, `MVMC.C38_locspin_oob_violated`, `MVMC.C38_locspin_partial`, `MVMC.C38_oneBodyG_partial`, `MVMC.C38_pairHop_partial`, `MVMC.C38_pair_partial`, `MVMC.C38_physHidden_complete`, `MVMC.C38_physHidden_partial`, `MVMC.C38_transfer_partial`, `MVMC.C38_twoBodyG_partial`, `MVMC.C39_backflow_rejected`, `MVMC.C39_flags_partial`, `MVMC.C40_direct`, `MVMC.C40_lanczos_partial`, `MVMC.C40_tables_partial`, `MVMC.C41_backflow_violated`, `MVMC.C41_doubles`, `MVMC.C41_ints_partial`, `MVMC.C42_count_check_partial`, `MVMC.C42_count_check_violated`, `MVMC.C42_group_files_partial`, `MVMC.C42_row_index_violated`, `MVMC.C42_single_step_violated`, `MVMC.C42_summary_file_partial`, `MVMC.C43_deviation`, `MVMC.C43_mean`, `MVMC.C43_reported`, `MVMC.C43_stored_steps_partial`, `MVMC.C43_stored_steps_violated`, `MVMC.C44_decode`, `MVMC.C44_exact_moments`, `MVMC.C44_qcacaq`, `MVMC.C44_qcacaqDC`, `MVMC.C44_qcaq`, `MVMC.C44_qqqq`, `MVMC.C44_qqqq_real`, `MVMC.C45_log_ratio_partial`, `MVMC.C45_ratio_partial`, `MVMC.C45_single_thread`, `MVMC.C45_threads_witness`, `MVMC.C46_table`, `MVMC.C46_triples`, `MVMC.C46_weight`, `MVMC.C47_violated`, `MVMC.C48_complex_partial`, `MVMC.C48_complex_undefined`, `MVMC.C48_greenN`, `MVMC.C48_kernel`, `MVMC.C48_mixed_spin_zero`, `MVMC.C49_fsz_race_witness`, `MVMC.C49_measured`, `MVMC.C49_measured_fsz_partial`, `MVMC.C50_fsz_rbm_not_stored`, `MVMC.C50_fsz_rbm_violated`, `MVMC.C50_optTrans_not_stored`, `MVMC.C50_optTrans_partial`, `MVMC.C50_optTrans_violated`, `MVMC.C51_gradient`, `MVMC.C52_imaginary_frozen`, `MVMC.C52_real_force`, `MVMC.C52_real_matrix`, `MVMC.C53_onebody`, `MVMC.C53_onebody_violated`, `MVMC.C53_physval`, `MVMC.C53_twobody_dc_partial`, `MVMC.C53_twobody_dc_violated`, `MVMC.C53_twobody_ex`, `MVMC.C54_antiparallel_general_partial`, `MVMC.C54_antiparallel_partial`, `MVMC.C54_antisymmetric`, `MVMC.C54_general_partial`, `MVMC.C54_parallel_partial`, `MVMC.C55_work`, `MVMC.C56_copy_race`, `MVMC.C56_green_partial`, `MVMC.C56_hca_partial`, `MVMC.C56_hcaca_partial`, `MVMC.C56_rbm_undefined`, `MVMC.C56_second_order_partial`, `MVMC.C56_single_projection`, `MVMC.C56_workspace_overrun`, `MVMC.C56_zero_projection_division`, `MVMC.C57_energy`, `MVMC.C57_energy_fsz`, `MVMC.C57_green`, `MVMC.C57_green_fsz_partial`, `MVMC.C57_noZero_one`, `MVMC.C57_stored`, `MVMC.C57_stored_fsz`, `MVMC.C57_stuck`, `MVMC.C57_sum`, `MVMC.C57_sum_fsz`, `MVMC.C58_complex_hopping_violated`, `MVMC.C58_complex_weights_violated`, `MVMC.C58_energy`, `MVMC.C58_energy_exact_partial`, `MVMC.C58_energy_fsz`, `MVMC.C58_energy_real`, `MVMC.C58_green`, `MVMC.C58_local_energy`, `MVMC.C58_local_energy_fsz`, `MVMC.C58_rbm_violated`, `MVMC.C58_realTrial`, `MVMC.C58_stored`, `MVMC.C58_stored_fsz`, `MVMC.C59_dimer_entry`, `MVMC.C59_dimer_rejected`, `MVMC.C59_lib`, `MVMC.C59_pfaffian_inverse`, `MVMC.C59_total`, `MVMC.C60_contract_met`, `MVMC.C60_converged`, `MVMC.C60_energy`, `MVMC.C60_hermitian`, `MVMC.C60_mean_field`, `MVMC.C60_mixing`, `MVMC.C60_number`, `MVMC.C60_same_site_violated`, `MVMC.C60_self_consistent`, `MVMC.C60_wick`, `MVMC.C61_antiparallel`, `MVMC.C61_electrons`, `MVMC.C61_electrons_violated`, `MVMC.C61_energy`, `MVMC.C61_energy_antiparallel`, `MVMC.C61_energy_general`, `MVMC.C61_files`, `MVMC.C61_gap`, `MVMC.C61_gap_violated`, `MVMC.C61_general`, `MVMC.C61_index_ub`, `MVMC.C61_parallel`, `MVMC.C61_same_determinant`, `MVMC.C61_state_antiparallel`, `MVMC.C61_state_both`, `MVMC.C61_state_general`, `MVMC.C61_tables_antiparallel`, `MVMC.C61_tables_both`, `MVMC.C61_tables_general`, `MVMC.C62_eigen`, `MVMC.C62_gauss_exact`, `MVMC.C62_gauss_limit`, `MVMC.C62_legendre`, `MVMC.C62_legendre_neg`, `MVMC.C62_limit`, `MVMC.C62_one_point`, `MVMC.C62_trial_eigen`, `MVMC.C62_two_points_inexact`, `MVMC.C62_two_points_run`, `MVMC.C63_amplitude_partial`, `MVMC.C63_library`, `MVMC.C63_library_exists`, `MVMC.C63_library_ltl`, `MVMC.C63_library_total`, `MVMC.C63_pair_overrun`, `MVMC.C63_pop_value`, `MVMC.C63_ratio`, `MVMC.C63_sign_violation`, `MVMC.C63_size`, `MVMC.C63_split_violation`, `MVMC.C63_values_partial`, `MVMC.C64_expectation`, `MVMC.C64_expectation_fsz`, `MVMC.C64_momentum`, `MVMC.C64_needs_group`, `MVMC.C64_state`, `MVMC.C64_state_fsz`, `MVMC.C65_tables_partial`, `MVMC.C66_amplitude_partial`, `MVMC.C66_block_violation`, `MVMC.C66_lockstep`, `MVMC.C66_process_count_partial`, `MVMC.C66_same_chain_partial`, `MVMC.C66_valid`, `MVMC.C67_cg`, `MVMC.C67_measure`, `MVMC.C67_measure_step`, `MVMC.C67_optimise`, `MVMC.C67_optimise_cg`, `MVMC.C67_schedule`, `MVMC.C67_step`, `MVMC.C68_binary_partial`, `MVMC.C68_binary_violated`, `MVMC.C68_columns`, `MVMC.C68_text`, `MVMC.C68_variance_partial`, `MVMC.C68_variance_violated`, `MVMC.C69_complex_range`, `MVMC.C69_no_neuron_violated`, `MVMC.C69_order_violated`, `MVMC.C69_own_numbers`, `MVMC.C69_real_range_partial`, `MVMC.C69_same_number`, `MVMC.C69_values`, `MVMC.C70_descent`, `MVMC.C70_energy_decreases`, `MVMC.C70_solvable`, `MVMC.C71_accept`, `MVMC.C71_accept_fsz`, `MVMC.C71_balance_fsz_partial`, `MVMC.C71_balance_partial`, `MVMC.C71_psi`, `MVMC.C71_psi_fsz`, `MVMC.C71_stationary`, `MVMC.C71_stationary_fsz_partial`, `MVMC.C71_stationary_partial`, `MVMC.C71_step`, `MVMC.C71_steps`, `MVMC.C71_steps_fsz`, `MVMC.C71_total`, `MVMC.C71_total_fsz`, `MVMC.C72_eigenstate`, `MVMC.C72_eigenstate_fsz`, `MVMC.C72_local`, `MVMC.C72_local_fsz`, `MVMC.C72_mean`, `MVMC.C72_mean_fsz`, `MVMC.C72_variance`, `MVMC.C72_variance_fsz`, `MVMC.C72_variational`, `MVMC.C72_variational_fsz`, `MVMC.C73_green`, `MVMC.C73_green_fsz`, `MVMC.C73_lines`, `MVMC.C73_local_violated`, `MVMC.C73_node_violated`, `MVMC.C73_pair`, `MVMC.C73_pair_fsz`, `MVMC.C73_pair_partial`, `MVMC.C73_written`, `MVMC.C73_written_fsz_partial`, `MVMC.C74_blocks`, `MVMC.C74_lanczos_partial`, `MVMC.C74_lanczos_real_partial`, `MVMC.C75_converge`, `MVMC.C75_converge_csz`, `MVMC.C75_converge_csz_partial`, `MVMC.C75_converge_fsz`, `MVMC.C75_converge_fsz_partial`, `MVMC.C75_converge_partial`, `MVMC.C75_energy`, `MVMC.C75_energy_csz`, `MVMC.C75_energy_fsz`, `MVMC.C75_exchange_only`, `MVMC.C75_exchange_violated`, `MVMC.C75_full_band`, `MVMC.C75_full_band_violated`, `MVMC.C75_green`, `MVMC.C75_green_csz`, `MVMC.C75_green_fsz`, `MVMC.C75_path`, `MVMC.C75_path_csz`, `MVMC.C75_path_fsz`, `MVMC.C75_period_violated`, `MVMC.C75_reach`, `MVMC.C75_reach_csz`, `MVMC.C75_reach_fsz`, `MVMC.C75_start_csz`, `MVMC.C76_derivatives`, `MVMC.C76_derivatives_fsz`, `MVMC.C76_lowers`, `MVMC.C76_lowers_csz`, `MVMC.C76_lowers_fsz`, `MVMC.C76_step`, `MVMC.C77_builds`, `MVMC.C77_example`, `MVMC.C77_groups`, `MVMC.C77_groups_run`, `MVMC.C77_nonzero`, `MVMC.C77_periodic`, `MVMC.C77_seeds`, `MVMC.C77_sequence`, `MVMC.C77_uniform`, `MVMC.C78_fit`, `MVMC.C78_fopen_violated`, `MVMC.C78_long_head_violated`, `MVMC.C78_other_partial`, `MVMC.C78_paraopt_partial`, `MVMC.C78_physcal_partial`, `MVMC.C78_rank`, `MVMC.C79_accept_iff_partial`, `MVMC.C79_block`, `MVMC.C79_cond_violated`, `MVMC.C79_electrons_violated`, `MVMC.C79_header_violated`, `MVMC.C79_lanczos_violated`, `MVMC.C79_magnetisation_violated`, `MVMC.C79_no_translation_violated`, `MVMC.C79_path`, `MVMC.C79_reader`, `MVMC.C79_sizes_partial`, `MVMC.C79_spin`, `MVMC.C79_translations_violated`, `MVMC.C79_two_files_violated`, `MVMC.C79_unchecked_violated`, `MVMC.C79_undefined_iff`, `MVMC.C80_dirlist`, `MVMC.C80_dirs`, `MVMC.C80_dry`, `MVMC.C80_dryextra_violated`, `MVMC.C80_exit`, `MVMC.C80_long_violated`, `MVMC.C80_malformed`, `MVMC.C80_mode_exists`, `MVMC.C80_number`, `MVMC.C80_range_violated`, `MVMC.C80_settings_partial`, `MVMC.C80_syntax`, `MVMC.C80_uhf`, `MVMC.C81_enum`, `MVMC.C81_names_partial`, `MVMC.C81_orbital_short_violated`, `MVMC.C81_orbital_sites_ap`, `MVMC.C81_orbital_sites_p`, `MVMC.C81_second_pass_partial`, `MVMC.C81_sizes_partial`, `MVMC.C81_spin_violated`, `MVMC.C81_unknown_keyword_violated`, `MVMC.C82_decay`, `MVMC.C82_eigenvalues`, `MVMC.C82_eps`, `MVMC.C82_given`, `MVMC.C82_given_undefined`, `MVMC.C82_hermitian`, `MVMC.C82_hermitian_violated`, `MVMC.C82_output`, `MVMC.C82_printed`, `MVMC.C82_random`, `MVMC.C82_restart`, `MVMC.C82_site_violated`, `MVMC.C82_spin_violated`, `MVMC.C82_trace`, `MVMC.C83_compatible_partial`, `MVMC.C83_electrons_violated`, `MVMC.C83_first_pass_partial`, `MVMC.C83_fraction_violated`, `MVMC.C83_missing_number_violated`, `MVMC.C83_mix_violated`, `MVMC.C83_parameters_partial`, `MVMC.C83_unknown_violated`, `MVMC.C84_converge_csz_partial`, `MVMC.C84_converge_fsz_partial`, `MVMC.C84_converge_partial`, `MVMC.C84_converge_ring`, `MVMC.C84_delta_violated`, `MVMC.C84_delta_witness`, `MVMC.C84_density_violated`, `MVMC.C84_error`, `MVMC.C84_file_name_violated`, `MVMC.C84_flip`, `MVMC.C84_fourier_partial`, `MVMC.C84_geometry`, `MVMC.C84_images`, `MVMC.C84_images_two`, `MVMC.C84_images_violated`, `MVMC.C84_index`, `MVMC.C84_kpoints`, `MVMC.C84_measured_fsz_partial`, `MVMC.C84_measured_partial`, `MVMC.C84_onebody_violated`, `MVMC.C84_phase_violated`, `MVMC.C84_ring`, `MVMC.C84_sites`, `MVMC.C84_stop`, `MVMC.C84_values_partial`, `MVMC.C85_burn`, `MVMC.C85_burn_backflow_violated`, `MVMC.C85_burn_fsz`, `MVMC.C85_kept_violated`, `MVMC.C85_lines_partial`, `MVMC.C85_lines_violated`, `MVMC.C85_release`, `MVMC.C85_release_run`, `MVMC.C86_absolute_violated`, `MVMC.C86_axis`, `MVMC.C86_columns_hphi_partial`, `MVMC.C86_columns_partial`, `MVMC.C86_columns_violated`, `MVMC.C86_default_violated`, `MVMC.C86_fermi`, `MVMC.C86_labels`, `MVMC.C86_names_partial`, `MVMC.C86_names_violated`, `MVMC.C86_recipr`, `MVMC.C86_records_violated`, `MVMC.C86_tpq`, `MVMC.C87_rows_direct_partial`, `MVMC.C87_rows_partial`, `MVMC.C88_parallel`, `MVMC.C89_cg_real`, `MVMC.C89_complex_partial`, `MVMC.C89_mixed_violated`, `MVMC.C89_nocut_violated`, `MVMC.C89_real_partial`, `MVMC.C90_input_partial`, `MVMC.C90_leak_violated`, `MVMC.C91_elements_partial`, `MVMC.C91_empty_violated`, `MVMC.C91_free_partial`, `MVMC.C91_uhf_partial`, `MVMC.C91_uhf_violated`, `MVMC.C92_comms_violated`, `MVMC.C92_end_partial`, `MVMC.C92_life_partial`, `MVMC.C93_convert_partial`, `MVMC.C93_geometry`, `MVMC.C93_last_violated`, `MVMC.C93_order`

## propext, Quot.sound (38 theorems)

`MVMC.C04_overflow_general`, `MVMC.C04_overflow_near_INT_MAX`, `MVMC.C05_blocks_disjoint_in_bounds`, `MVMC.C05_rounds_disciplined`, `MVMC.C05_small_request_is_noop`, `MVMC.C06_no_double_occupancy`, `MVMC.C08_no_double_occupancy`, `MVMC.C09_rejected_spinflip_restores_fsz`, `MVMC.C11_localspin_flip_can_finish`, `MVMC.C11_localspin_flip_hangs_without_local_spins`, `MVMC.C18_slots_written_once_in_order`, `MVMC.C18_slots_written_once_in_order_fsz`, `MVMC.C38_short_line_violated`, `MVMC.C38_spin_violated`, `MVMC.C40_announced_violated`, `MVMC.C40_count_violated`, `MVMC.C40_repeat_violated`, `MVMC.C40_spin_violated`, `MVMC.C47_bound_partial`, `MVMC.C49_one_thread_run`, `MVMC.C64_ring_antiperiodic`, `MVMC.C65_missing_violation`, `MVMC.C65_permutation_violation`, `MVMC.C65_range_violation`, `MVMC.C74_calHCACA2_real_violated`, `MVMC.C74_calHCACA2_violated`, `MVMC.C74_rwork_violated`, `MVMC.C81_erased_violated`, `MVMC.C81_heads`, `MVMC.C81_short_violated`, `MVMC.C81_surplus_violated`, `MVMC.C83_boundary`, `MVMC.C84_zero_cell`, `MVMC.C86_words`, `MVMC.C90_loops_partial`, `MVMC.C90_missing_violated`, `MVMC.C90_return_violated`, `MVMC.C93_weights`

## propext (34 theorems)

`MVMC.C03_splitsize_zero_divides_by_zero`, `MVMC.C08_locspn_other_value_breaks_tables`, `MVMC.C08_path3_changes_magnetisation`, `MVMC.C10_initial_placement_can_hang`, `MVMC.C10_initial_placement_can_succeed`, `MVMC.C37_long_word_violated`, `MVMC.C38_dh_oob_violated`, `MVMC.C38_junk_violated`, `MVMC.C38_locspin_twice_violated`, `MVMC.C39_index_column_violated`, `MVMC.C39_last_flag_violated`, `MVMC.C39_layout`, `MVMC.C39_optTrans_violated`, `MVMC.C39_parallel_violated`, `MVMC.C41_negative_violated`, `MVMC.C41_overflow_violated`, `MVMC.C54_index_violated`, `MVMC.C54_short_line_violated`, `MVMC.C54_spin_violated`, `MVMC.C54_twice_violated`, `MVMC.C64_no_opt`, `MVMC.C64_ring`, `MVMC.C65_default`, `MVMC.C65_opt_violation`, `MVMC.C80_extra_violated`, `MVMC.C80_longdir_violated`, `MVMC.C80_order_violated`, `MVMC.C80_trailing_violated`, `MVMC.C80_uhfpara_violated`, `MVMC.C81_missing_file_violated`, `MVMC.C81_orbital_site_violated`, `MVMC.C87_blocks_violated`, `MVMC.C88_private`, `MVMC.C92_created`

## none (8 theorems)

`MVMC.C03_option_negative_colour`, `MVMC.C05_growing_request_dangles`, `MVMC.C05_overdraft_out_of_bounds`, `MVMC.C61_odd_spins_violated`, `MVMC.C78_exit_violated`, `MVMC.C84_file_name`, `MVMC.C88_shared_violated`, `MVMC.C92_grid_violated`
