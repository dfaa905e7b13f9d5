{"claims": [
 {"property": "C01", "status": "proved", "theorems": ["MVMC.C01_splitLoop_tiles", "MVMC.C01_splitLoop_exactly_one_owner", "MVMC.C01_splitLoop_balanced"], "note": ""},
 {"property": "C02", "status": "proved", "theorems": ["MVMC.C02_reduce_eq_serial", "MVMC.C02_reduce_rank_independent", "MVMC.C02_overlap_eq_full_sum"], "note": ""},
 {"property": "C03", "status": "partial", "theorems": ["MVMC.C03_group_in_range", "MVMC.C03_group_monotone", "MVMC.C03_group_sizes", "MVMC.C03_option_zero_divides_by_zero", "MVMC.C03_option_negative_colour", "MVMC.C03_multidef_partial", "MVMC.C03_seed_distinct", "MVMC.C03_splitsize_zero_divides_by_zero"], "note": "Proved for -m >= 1 not exceeding the number of ranks and NSplitSize >= 1. The unchanged code divides by zero for -m 0 and NSplitSize 0 and yields a negative colour for negative -m (proved as separate theorems)."},
 {"property": "C04", "status": "partial", "theorems": ["MVMC.C04_chunks_cover_partial", "MVMC.C04_same_as_single_transfer_partial", "MVMC.C04_overflow_general", "MVMC.C04_overflow_near_INT_MAX"], "note": "Proved when count + chunk size does not overflow int; for counts near INT_MAX the loop bound overflows (proved witness)."},
 {"property": "C05", "status": "proved", "theorems": ["MVMC.C05_blocks_disjoint_in_bounds", "MVMC.C05_rounds_disciplined", "MVMC.C05_small_request_is_noop", "MVMC.C05_growing_request_dangles", "MVMC.C05_overdraft_out_of_bounds"], "note": "Blocks handed out between two releases are disjoint and in bounds provided the total was requested first; the two ways to break the discipline are proved to dangle/overrun."},
 {"property": "C06", "status": "proved", "theorems": ["MVMC.C06_every_configuration_consistent", "MVMC.C06_no_double_occupancy", "MVMC.C06_electron_numbers", "MVMC.C06_hop_in_bounds", "MVMC.C06_exchange_effect", "MVMC.C06_counters", "MVMC.C06_stored_samples_consistent"], "note": ""},
 {"property": "C07", "status": "proved", "theorems": ["MVMC.C06_every_configuration_consistent", "MVMC.C06_stored_samples_consistent", "MVMC.C08_every_configuration_consistent", "MVMC.C08_stored_samples_consistent"], "note": "LocalSingle is one of the conclusions of the listed theorems. General-Sz mode assumes LocSpn values in {0,1}; C08_locspn_other_value_breaks_tables shows this is needed."},
 {"property": "C08", "status": "partial", "theorems": ["MVMC.C08_every_configuration_consistent", "MVMC.C08_magnetisation_conserved_partial", "MVMC.C08_stored_samples_consistent", "MVMC.C08_no_double_occupancy", "MVMC.C08_path3_changes_magnetisation", "MVMC.C08_locspn_other_value_breaks_tables"], "note": "Consistency, electron number and local spins: proved for all runs (LocSpn in {0,1}). Magnetisation: proved for NExUpdatePath != 3; for path 3 the unchanged code flips local spins although 2Sz is fixed (C08_path3_changes_magnetisation)."},
 {"property": "C09", "status": "proved", "theorems": ["MVMC.C09_rejected_hop_restores", "MVMC.C09_rejected_exchange_restores", "MVMC.C09_rejected_move_restores_fsz", "MVMC.C09_rejected_spinflip_restores_fsz", "MVMC.C09_rejected_exchange_restores_fsz"], "note": "Both samplers."},
 {"property": "C10", "status": "proved", "theorems": ["MVMC.C10_initial_configuration_valid", "MVMC.C10_initial_placement_can_hang", "MVMC.C10_initial_placement_can_succeed", "MVMC.C10_initial_configuration_valid_fsz"], "note": "Both samplers; the property is about placements that return. C10_initial_placement_can_hang shows that they need not."},
 {"property": "C11", "status": "proved", "theorems": ["MVMC.C11_reject_iff_no_pair", "MVMC.C11_search_can_always_finish", "MVMC.C11_target_loop_bounded", "MVMC.C11_hop_search_can_finish", "MVMC.C11_reject_iff_no_pair_fsz", "MVMC.C11_search_can_always_finish_fsz", "MVMC.C11_localspin_flip_hangs_without_local_spins", "MVMC.C11_localspin_flip_can_finish"], "note": "Both samplers. Also: the local-spin-flip search of the general-Sz sampler never ends if there are no local spins (proved)."},
 {"property": "C12", "status": "proved", "theorems": ["MVMC.C12_make_gutzwiller", "MVMC.C12_make_jastrow", "MVMC.C12_make_dh2", "MVMC.C12_make_dh4", "MVMC.C12_writes_in_bounds", "MVMC.C12_parallel_iterations_disjoint", "MVMC.C12_parallel_iterations_disjoint4", "MVMC.C12_update_equals_recount", "MVMC.C12_sampler_counters"], "note": "For index tables that stay inside their blocks (the reader does not check this, see DESIGN.md)."},
 {"property": "C13", "status": "proved", "theorems": ["MVMC.C13_update_equals_recount", "MVMC.C13_sampler_counters"], "note": "As C12; includes the on-site spin flip and all states of the general-Sz sampler."},
 {"property": "C14", "status": "partial", "theorems": ["MVMC.C14_visible", "MVMC.C14_hidden", "MVMC.C14_update", "MVMC.C14_update_fsz_partial", "MVMC.C14_sampler", "MVMC.C14_flip_witness"], "note": "UpdateRBMCnt proved for every hop and in every sampler state. UpdateRBMCnt_fsz proved except for a spin flip on one site with a general physical layer, where the unchanged code is wrong (C14_flip_witness); that function has no caller."},
 {"property": "C15", "status": "proved", "theorems": ["MVMC.C15_log_value", "MVMC.C15_ratio", "MVMC.C15_log_ratio", "MVMC.C15_ratio_after_update"], "note": "Real arithmetic."},
 {"property": "C16", "status": "proved", "theorems": ["MVMC.C16_correlation", "MVMC.C16_ratio", "MVMC.C16_normalised", "MVMC.C16_frozen"], "note": "All shifts of SyncModifiedParameter with the flags of SetFlagShift, arbitrary tables in range. Frozen groups are not shifted."},
 {"property": "C17", "status": "proved", "theorems": ["MVMC.C17_rescaled", "MVMC.C17_weights", "MVMC.C17_trial_state", "MVMC.C17_trial_state_fsz", "MVMC.C17_observables", "MVMC.C17_completes", "MVMC.C17_zero_violated"], "note": "For non-zero pair orbitals; the whole trial state is multiplied by a positive number depending on the electron number only. All-zero pair orbitals divide by zero (C17_zero_violated)."},
 {"property": "C18", "status": "proved", "theorems": ["MVMC.C18_slots_written_once_in_order", "MVMC.C18_slot_times", "MVMC.C18_slots_written_once_in_order_fsz"], "note": ""},
 {"property": "C19", "status": "partial", "theorems": ["MVMC.C19_hop_partial", "MVMC.C19_hop_count_partial", "MVMC.C19_power_of_two", "MVMC.C19_exchange", "MVMC.C19_hop_step", "MVMC.C19_exchange_step", "MVMC.C19_accept", "MVMC.C19_accept_close", "MVMC.C19_weight", "MVMC.C19_balance_partial", "MVMC.C19_balance_exchange", "MVMC.C19_bias_violated", "MVMC.C19_hop_fsz_partial", "MVMC.C19_hop_csz_partial", "MVMC.C19_conductionFlip", "MVMC.C19_localSpinFlip", "MVMC.C19_exchange_fsz", "MVMC.C19_step_fsz"], "note": "Hop (Sz, free-spin and fixed-Sz samplers): relabelling the target draws is a length-preserving bijection onto the streams proposing the reverse hop, target draws restricted to a multiple of Nsite; exact for Nsite dividing 2^32. Exchange, conduction flip and local-spin flip: the same streams propose the reverse, no restriction. With the Metropolis rule this gives detailed balance. Missing: the modulo bias of gen_rand32()%Nsite breaks exact equality (C19_bias_violated); the accept probability is min(1,w) up to 2^-32 (C19_accept_close)."},
 {"property": "C20", "status": "proved", "theorems": ["MVMC.C20_exchange", "MVMC.C20_pauli", "MVMC.C20_electron_exchange", "MVMC.C20_electron_pauli"], "note": "Pfaffian defined by expansion along the first row (Spec/Pfaffian.lean); stated for lists and for the occupied block of SlaterElm."},
 {"property": "C21", "status": "proved", "theorems": ["MVMC.C21_new_pfaffian", "MVMC.C21_new_pfaffian_fsz"], "note": "Sz and fsz versions, complex and real, exact arithmetic; any number of electrons."},
 {"property": "C22", "status": "proved", "theorems": ["MVMC.C22_from_scratch", "MVMC.C22_from_scratch_fsz", "MVMC.C22_update", "MVMC.C22_update_fsz", "MVMC.C22_inverse_antisymmetric", "MVMC.C22_sampler", "MVMC.C22_sampler_fsz", "MVMC.C22_zero_projection_witness"], "note": "Exact arithmetic; library factorisation trusted (LibOK, LibTotal). Hypothesis: accepted moves have a non-zero new Pfaffian in every projection; C22_zero_projection_witness shows the hypothesis is needed."},
 {"property": "C23", "status": "proved", "theorems": ["MVMC.C23_new_pfaffian_two", "MVMC.C23_new_pfaffian_two_fsz", "MVMC.C23_update_two", "MVMC.C23_update_two_fsz"], "note": "Sz and fsz; includes the same-electron branch; independent of the raOld look-up."},
 {"property": "C24", "status": "partial", "theorems": ["MVMC.C24_green1", "MVMC.C24_green1_fsz", "MVMC.C24_green1_fsz2_partial", "MVMC.C24_fsz2_diagonal_witness"], "note": "GreenFunc1, GreenFunc1_fsz for all arguments; GreenFunc1_fsz2 for different orbitals (it returns 0 for equal ones, proved as a witness; callers use it only for different spins). Exact arithmetic; _real variants not modelled separately."},
 {"property": "C25", "status": "proved", "theorems": ["MVMC.C25_green2", "MVMC.C25_green2_fsz", "MVMC.C25_green2_fsz2"], "note": "GreenFunc2, GreenFunc2_fsz, GreenFunc2_fsz2 for every coincidence pattern of the four orbitals, projected Pfaffian state with correlation factors and (Sz mode) Boltzmann machine."},
 {"property": "C26", "status": "proved", "theorems": ["MVMC.C26_restored", "MVMC.C26_restored_fsz"], "note": "One- and two-body Green functions of both modes; GreenFuncN is treated under C48."},
 {"property": "C27", "status": "proved", "theorems": ["MVMC.C27_local_energy", "MVMC.C27_thread_independent", "MVMC.C27_local_energy_fsz", "MVMC.C27_diagonal", "MVMC.C27_transfer_spin_ignored", "MVMC.C27_double_occupation", "MVMC.C27_sz"], "note": "CalculateHamiltonian, CalculateHamiltonian_fsz, CalculateHamiltonian0, CalculateDoubleOccupation, CalculateSz_fsz; arbitrary schedule, reduction order and workspace content, exact arithmetic. Sz mode requires spin-conserving Transfer/InterAll lines (C27_transfer_spin_ignored: the code does not read the first spin column). Backflow variants and CalculateHamiltonian1/2 not modelled."},
 {"property": "C28", "status": "proved", "theorems": ["MVMC.C28_skew", "MVMC.C28_skew_fsz", "MVMC.C28_rotated_pair"], "note": ""},
 {"property": "C29", "status": "proved", "theorems": ["MVMC.C29_logderiv", "MVMC.C29_logderiv_fsz", "MVMC.C29_constant"], "note": "Pair, correlation and Boltzmann-machine parameters, for every thread interleaving, against the derivative of the whole trial wave function. In general-Sz mode without Boltzmann machine (the code never evaluates one there)."},
 {"property": "C30", "status": "partial", "theorems": ["MVMC.C30_max", "MVMC.C30_selection", "MVMC.C30_update", "MVMC.C30_frozen", "MVMC.C30_failed", "MVMC.C30_cg_real_partial", "MVMC.C30_cg_race_witness"], "note": "sequential update and real CG update proved; complex CG update loses increments under a data race (witness proved)"},
 {"property": "C31", "status": "partial", "theorems": ["MVMC.C31_covariance", "MVMC.C31_symmetric", "MVMC.C31_psd", "MVMC.C31_positive_definite_partial", "MVMC.C31_degenerate_violated"], "note": "covariance, symmetry, PSD and positive definiteness proved; positive definiteness needs a positive largest diagonal, else violated (proved)"},
 {"property": "C32", "status": "partial", "theorems": ["MVMC.C32_residual", "MVMC.C32_solves", "MVMC.C32_zero_tolerance_violated", "MVMC.C32_overlap_partial"], "note": "exact arithmetic; zero tolerance divides by zero (proved)"},
 {"property": "C33", "status": "partial", "theorems": ["MVMC.C33_same_partial", "MVMC.C33_stale_violated"], "note": "holds without skipped samples and with one chain per process; otherwise violated (proved)"},
 {"property": "C34", "status": "partial", "theorems": ["MVMC.C34_same_partial", "MVMC.C34_cg_partial", "MVMC.C34_split_violated", "MVMC.C34_discard_violated"], "note": "holds for a process that starts at sample 0 and skips none; otherwise violated (proved)"},
 {"property": "C35", "status": "partial", "theorems": ["MVMC.C35_lowest", "MVMC.C35_completes_partial", "MVMC.C35_variational", "MVMC.C35_bound", "MVMC.C35_variance", "MVMC.C35_eigenstate_violated", "MVMC.C35_infinite_alpha_violated", "MVMC.C35_real_mode_violated"], "note": "For moments of any non-eigenstate the reported energy is the energy of (1+alpha H)psi and the minimum over all complex alpha; it lies between the ground-state energy and the unimproved energy, and the reported variance is the relative variance of the improved state. Completion is only proved when AA is nonzero and energies are below about 10^12 times the relative spread; eigenstates and states whose optimum is at infinite alpha divide by zero, and the real mode ignores the error return (negations proved)."},
 {"property": "C36", "status": "proved", "theorems": ["MVMC.C36_owner_unique", "MVMC.C36_in_range", "MVMC.C36_gather", "MVMC.C36_matrix"], "note": "PDPOSV itself trusted"},
 {"property": "C37", "status": "partial", "theorems": ["MVMC.C37_check_words_partial", "MVMC.C37_no_prefix_partial", "MVMC.C37_long_word_violated", "MVMC.C37_check_kw_partial", "MVMC.C37_enum", "MVMC.C37_file_names_partial", "MVMC.C37_missing_name_violated", "MVMC.C37_space_line_violated", "MVMC.C37_long_keyword_violated", "MVMC.C37_modpara_partial", "MVMC.C37_missing_number_violated"], "note": "CheckWords returns 0 iff the words agree after lower-casing, CheckKW finds exactly that keyword, the name list maps keywords to the file on the same line, and each ModPara variable gets the number of the last line naming it. Missing: words of 257 or more characters and keywords of 200 or more overrun the buffers, a line without file name or number silently reuses the one before, a line of blanks is rejected (all proved as violations)."},
 {"property": "C38", "status": "partial", "theorems": ["MVMC.C38_transfer_partial", "MVMC.C38_coulombIntra_partial", "MVMC.C38_pair_partial", "MVMC.C38_oneBodyG_partial", "MVMC.C38_twoBodyG_partial", "MVMC.C38_interAll_partial", "MVMC.C38_pairHop_partial", "MVMC.C38_extra_line_violated", "MVMC.C38_short_line_violated", "MVMC.C38_spin_violated", "MVMC.C38_locspin_partial", "MVMC.C38_locspin_oob_violated", "MVMC.C38_locspin_twice_violated", "MVMC.C38_layer_partial", "MVMC.C38_jastrow_partial", "MVMC.C38_dh2_partial", "MVMC.C38_dh4_partial", "MVMC.C38_genLayer_partial", "MVMC.C38_physHidden_partial", "MVMC.C38_genPhysHidden_partial", "MVMC.C38_layer_complete", "MVMC.C38_jastrow_complete", "MVMC.C38_dh2_complete", "MVMC.C38_dh4_complete", "MVMC.C38_physHidden_complete", "MVMC.C38_genLayer_complete", "MVMC.C38_genPhysHidden_complete", "MVMC.C38_index_violated", "MVMC.C38_index_twice_violated", "MVMC.C38_dh_oob_violated", "MVMC.C38_junk_violated"], "note": "For all readers of rows and of parameter indices: success means exactly the announced number of entries, all on the lattice, stored at the documented place; complete files with distinct keys fill the whole table; no write outside the table if there are not more lines than announced. The unrestricted claim is false for this code and refuted: extra lines and out-of-range sites of LocSpin/DH2/DH4 write outside, short lines reuse old values, spins and indices are unchecked, repeated sites leave holes, words make the reader hang."},
 {"property": "C39", "status": "partial", "theorems": ["MVMC.C39_layout", "MVMC.C39_flags_partial", "MVMC.C39_index_column_violated", "MVMC.C39_parallel_violated", "MVMC.C39_optTrans_violated", "MVMC.C39_last_flag_violated", "MVMC.C39_backflow_rejected"], "note": "Layout, acceptance and placement of all flags proved for files with flags in order and no OptTrans. Refuted for this code: the index column is ignored, imaginary parts of frozen parallel orbitals are optimised, OptTrans flags overwrite others, a missing last flag is accepted. Only the flag part of the files is modelled in readIdxParaFlags; the entry part is C38 and C54. Inputs with back-flow parameters are always rejected (C39_backflow_rejected)."},
 {"property": "C40", "status": "partial", "theorems": ["MVMC.C40_tables_partial", "MVMC.C40_direct", "MVMC.C40_lanczos_partial", "MVMC.C40_spin_violated", "MVMC.C40_repeat_violated", "MVMC.C40_count_violated", "MVMC.C40_announced_violated"], "note": "Proved for complete lines with sites of the lattice and spins 0 or 1: each needed operator appears exactly once and every two-body entry points to its operators; also the direct mode and the Lanczos mode. Refuted for this code: spins are not checked (write outside the table), an operator requested twice in Lanczos mode writes behind the table, a failed first pass becomes the count -1 and is not reported, a one-body file that announces 0 entries but has lines is read in the second pass."},
 {"property": "C41", "status": "partial", "theorems": ["MVMC.C41_ints_partial", "MVMC.C41_doubles", "MVMC.C41_negative_violated", "MVMC.C41_backflow_violated", "MVMC.C41_overflow_violated"], "note": "Proved for natural sizes without backflow: all elements of all integer and real tables have different addresses inside the allocation. Refuted for this code: negative numbers of entries are accepted, with backflow (switched off) two tables are missing in the total, and the total is computed in int and overflows for large lattices."},
 {"property": "C42", "status": "partial", "theorems": ["MVMC.C42_group_files_partial", "MVMC.C42_summary_file_partial", "MVMC.C42_single_step_violated", "MVMC.C42_count_check_partial", "MVMC.C42_count_check_violated", "MVMC.C42_row_index_violated"], "note": "Files written after optimisation are read back into the same parameters (group files and summary file, when more than one step is averaged). Violated for one averaged step, for wrong row counts followed by a later def file, and for row indices out of range (negations proved). Decimal printing/reading is trusted to be exact."},
 {"property": "C43", "status": "partial", "theorems": ["MVMC.C43_stored_steps_partial", "MVMC.C43_stored_steps_violated", "MVMC.C43_mean", "MVMC.C43_deviation", "MVMC.C43_reported"], "note": "Mean and deviation over the stored steps, which are the last NSROptItrSmp steps when NSROptItrSmp <= NSROptItrStep; otherwise uninitialised rows are averaged (negation proved)."},
 {"property": "C44", "status": "proved", "theorems": ["MVMC.C44_qqqq", "MVMC.C44_decode", "MVMC.C44_qqqq_real", "MVMC.C44_qcaq", "MVMC.C44_qcacaq", "MVMC.C44_qcacaqDC", "MVMC.C44_exact_moments"], "note": "Every index quadruple owns one entry, for every number of powers, every thread order; on full enumeration the entries are the moments of H."},
 {"property": "C45", "status": "partial", "theorems": ["MVMC.C45_log_ratio_partial", "MVMC.C45_ratio_partial", "MVMC.C45_single_thread", "MVMC.C45_threads_witness"], "note": "Exact for every block size and thread count for which the call is defined; with some thread counts the threads enter different worksharing loops, which OpenMP leaves undefined (C45_threads_witness). Hypothesis: no cosh vanishes."},
 {"property": "C46", "status": "proved", "theorems": ["MVMC.C46_triples", "MVMC.C46_weight", "MVMC.C46_table"], "note": ""},
 {"property": "C47", "status": "partial", "theorems": ["MVMC.C47_violated", "MVMC.C47_bound_partial"], "note": "claim false for every number of parameters (proved); function has no caller"},
 {"property": "C48", "status": "partial", "theorems": ["MVMC.C48_greenN", "MVMC.C48_kernel", "MVMC.C48_mixed_spin_zero", "MVMC.C48_complex_partial", "MVMC.C48_complex_undefined"], "note": "Real routine (locgrn_real.c): proved for every n and every string of spin-conserving pairs, trusting DSKPFA. Complex routine: exact whenever it stays defined; undefined (uninitialised lda) as soon as three hops remain (C48_complex_undefined)."},
 {"property": "C49", "status": "partial", "theorems": ["MVMC.C49_measured", "MVMC.C49_measured_fsz_partial", "MVMC.C49_one_thread_run", "MVMC.C49_fsz_race_witness"], "note": "Proved for calgrn.c under every schedule. calgrn_fsz.c: proved for executions without interference (in particular one thread); C49_fsz_race_witness shows that the shared loop variables t, u, v make the unchanged code wrong for other interleavings."},
 {"property": "C50", "status": "partial", "theorems": ["MVMC.C50_optTrans_partial", "MVMC.C50_optTrans_not_stored", "MVMC.C50_optTrans_violated", "MVMC.C50_fsz_rbm_not_stored", "MVMC.C50_fsz_rbm_violated"], "note": "Holds for correlation, Boltzmann-machine and pair parameters (C29_logderiv). The unchanged code violates it for the weights of the optional translations: calculateOptTransDiff writes entry i instead of 2*i (C50_optTrans_violated); the value itself is right (C50_optTrans_partial). Also violated in general-Sz mode with RBM parameters (C50_fsz_rbm_violated)."},
 {"property": "C51", "status": "proved", "theorems": ["MVMC.C51_gradient"], "note": "exact sampling; exact arithmetic"},
 {"property": "C52", "status": "proved", "theorems": ["MVMC.C52_real_matrix", "MVMC.C52_real_force", "MVMC.C52_imaginary_frozen"], "note": ""},
 {"property": "C53", "status": "partial", "theorems": ["MVMC.C53_onebody", "MVMC.C53_twobody_ex", "MVMC.C53_twobody_dc_partial", "MVMC.C53_physval", "MVMC.C53_onebody_violated", "MVMC.C53_twobody_dc_violated"], "note": "Combination formula proved; the one-body and factorised two-body averages are the complex conjugates of the expectation values and the direct two-body average is right only for real local energies (negations with concrete states proved). For real wave functions these coincide with the claim."},
 {"property": "C54", "status": "partial", "theorems": ["MVMC.C54_antisymmetric", "MVMC.C54_antiparallel_partial", "MVMC.C54_antiparallel_general_partial", "MVMC.C54_general_partial", "MVMC.C54_parallel_partial", "MVMC.C54_index_violated", "MVMC.C54_twice_violated", "MVMC.C54_spin_violated", "MVMC.C54_short_line_violated"], "note": "Antisymmetry of every accepted table is unconditional; completeness for files listing every pair once. Refuted for this code: parameter numbers and spins unchecked, repeated pairs accepted, short first line uses uninitialised variables."},
 {"property": "C55", "status": "proved", "theorems": ["MVMC.C55_work"], "note": "For natural sizes; sizes are mathematical integers."},
 {"property": "C56", "status": "partial", "theorems": ["MVMC.C56_second_order_partial", "MVMC.C56_green_partial", "MVMC.C56_single_projection", "MVMC.C56_hca_partial", "MVMC.C56_hcaca_partial", "MVMC.C56_workspace_overrun", "MVMC.C56_copy_race", "MVMC.C56_rbm_undefined", "MVMC.C56_zero_projection_division"], "note": "Proved in full for Hamiltonians without off-diagonal two-body terms (both files, Boltzmann machine included) and for the real file with any Hamiltonian. Condition NoZero (no projection vanishes alone), automatic for one projection and necessary (C56_zero_projection_division). The complex file with off-diagonal two-body terms is undefined (C48_complex_undefined, C56_rbm_undefined); the thread workspace of calHCACA2 is too small (C56_workspace_overrun); the copy counter is shared (C56_copy_race)."},
 {"property": "C57", "status": "proved", "theorems": ["MVMC.C57_noZero_one", "MVMC.C57_stored", "MVMC.C57_sum", "MVMC.C57_energy", "MVMC.C57_green", "MVMC.C57_stored_fsz", "MVMC.C57_sum_fsz", "MVMC.C57_energy_fsz", "MVMC.C57_stuck", "MVMC.C57_green_fsz_partial"], "note": "Exact numbers. Hypotheses: the start configuration has a non-vanishing overlap, and no projected component vanishes where the amplitude does not (automatic for NQPFull=1). C57_stuck shows what the code does if the start overlap vanishes twice. The general-Sz Green functions inside the loop (C57_green_fsz_partial) assume executions in which no thread overwrites the shared loop variables of another (always true with one thread). Real mode is not part of this claim."},
 {"property": "C58", "status": "partial", "theorems": ["MVMC.C58_local_energy", "MVMC.C58_local_energy_fsz", "MVMC.C58_realTrial", "MVMC.C58_energy_real", "MVMC.C58_stored", "MVMC.C58_energy", "MVMC.C58_energy_exact_partial", "MVMC.C58_green", "MVMC.C58_stored_fsz", "MVMC.C58_energy_fsz", "MVMC.C58_complex_hopping_violated", "MVMC.C58_complex_weights_violated", "MVMC.C58_rbm_violated"], "note": "Holds for the trial state of real parts; for the given trial state and Hamiltonian only if orbitals, weights, transfer and InterAll parameters are real and there is no Boltzmann machine. The flag AllComplexFlag does not ensure this: C58_complex_hopping_violated, C58_complex_weights_violated, C58_rbm_violated. NoZero and a start with non-vanishing overlap are assumed as in C57. Derivative sums (mode 0) and Lanczos in the real loop are not part of it."},
 {"property": "C59", "status": "proved", "theorems": ["MVMC.C59_pfaffian_inverse", "MVMC.C59_lib", "MVMC.C59_total", "MVMC.C59_dimer_entry", "MVMC.C59_dimer_rejected"], "note": "The contracts SktrfOK (factorisation) and TrtriOK (triangular inverse) of the LAPACK style routines are hypotheses; BLAS trmm, swap and lacpy are modelled by their definition. Odd sizes (which the code never uses) are modelled as failure. C59_dimer_rejected is conditional on the documented INFO convention of SKTRF, whose source is not in the checkout."},
 {"property": "C60", "status": "proved", "theorems": ["MVMC.C60_wick", "MVMC.C60_mean_field", "MVMC.C60_hermitian", "MVMC.C60_number", "MVMC.C60_energy", "MVMC.C60_converged", "MVMC.C60_self_consistent", "MVMC.C60_mixing", "MVMC.C60_contract_met", "MVMC.C60_same_site_violated"], "note": "HamDistinct (no density line of a site with itself; C60_same_site_violated shows it is needed), HamHerm and HamIdx are hypotheses. zheev_ enters through the contract ZheevOK, which an exact diagonalisation meets (C60_contract_met); the failure branch of ZHEEVall is not modelled. The Fock terms are on, as in the shipped build."},
 {"property": "C61", "status": "proved", "theorems": ["MVMC.C61_antiparallel", "MVMC.C61_parallel", "MVMC.C61_general", "MVMC.C61_files", "MVMC.C61_index_ub", "MVMC.C61_tables_antiparallel", "MVMC.C61_tables_both", "MVMC.C61_tables_general", "MVMC.C61_state_antiparallel", "MVMC.C61_state_general", "MVMC.C61_state_both", "MVMC.C61_energy", "MVMC.C61_same_determinant", "MVMC.C61_energy_general", "MVMC.C61_energy_antiparallel", "MVMC.C61_electrons_violated", "MVMC.C61_electrons", "MVMC.C61_odd_spins_violated", "MVMC.C61_gap_violated", "MVMC.C61_gap"], "note": "Hypotheses: Respects (the pair function has the symmetry of the parameter numbering), no quantum-number projection, complete orbital files, random part of the parameters zero or tending to zero; the antiparallel mode also needs SpinDiag and a gap for the energy. Violations proved: C61_electrons_violated, C61_odd_spins_violated, C61_gap_violated."},
 {"property": "C62", "status": "proved", "theorems": ["MVMC.C62_legendre", "MVMC.C62_legendre_neg", "MVMC.C62_gauss_exact", "MVMC.C62_gauss_limit", "MVMC.C62_eigen", "MVMC.C62_trial_eigen", "MVMC.C62_limit", "MVMC.C62_one_point", "MVMC.C62_two_points_inexact", "MVMC.C62_two_points_run"], "note": "Limit of many quadrature points and small tolerance, for runs of GaussLeg that end with separated nodes; convergence of Newton's iteration itself is proved for two points. C62_two_points_inexact: with finitely many points the projection is not exact because the rule is in beta, not in cos beta."},
 {"property": "C63", "status": "partial", "theorems": ["MVMC.C63_values_partial", "MVMC.C63_amplitude_partial", "MVMC.C63_ratio", "MVMC.C63_sign_violation", "MVMC.C63_split_violation", "MVMC.C63_pop_value", "MVMC.C63_pair_overrun", "MVMC.C63_size", "MVMC.C63_library", "MVMC.C63_library_total", "MVMC.C63_library_ltl", "MVMC.C63_library_exists"], "note": "C63_values_partial and C63_ratio hold for every history with non-vanishing accepted Pfaffians; the code violates the property for the sign (C63_sign_violation), a queue of one hop (C63_pair_overrun) and split projections (C63_split_violation)"},
 {"property": "C64", "status": "proved", "theorems": ["MVMC.C64_state", "MVMC.C64_state_fsz", "MVMC.C64_expectation", "MVMC.C64_expectation_fsz", "MVMC.C64_no_opt", "MVMC.C64_ring", "MVMC.C64_ring_antiperiodic", "MVMC.C64_momentum", "MVMC.C64_needs_group"], "note": "The group, representation and index-table conditions are hypotheses on the input files; C64_needs_group shows that they cannot be dropped."},
 {"property": "C65", "status": "partial", "theorems": ["MVMC.C65_tables_partial", "MVMC.C65_missing_violation", "MVMC.C65_opt_violation", "MVMC.C65_permutation_violation", "MVMC.C65_range_violation", "MVMC.C65_default"], "note": "Only for files without repeated rows; C65_missing_violation, C65_permutation_violation, C65_range_violation and C65_opt_violation show what the readers accept."},
 {"property": "C66", "status": "partial", "theorems": ["MVMC.C66_lockstep", "MVMC.C66_valid", "MVMC.C66_same_chain_partial", "MVMC.C66_process_count_partial", "MVMC.C66_amplitude_partial", "MVMC.C66_block_violation"], "note": "C66_lockstep and C66_valid hold for arbitrary local computations; C66_same_chain_partial, C66_process_count_partial and C66_amplitude_partial need exact arithmetic and that a move is only accepted when every projection stays regular; C66_block_violation: builds with PFAFFIAN_BLOCKED use the wrong Pfaffians with two or more processes per group"},
 {"property": "C67", "status": "proved", "theorems": ["MVMC.C67_schedule", "MVMC.C67_optimise", "MVMC.C67_optimise_cg", "MVMC.C67_measure", "MVMC.C67_step", "MVMC.C67_measure_step", "MVMC.C67_cg"], "note": "Sz-conserving sampler; numerical routines are arbitrary functions; a process that runs out of random numbers counts as stopped"},
 {"property": "C68", "status": "partial", "theorems": ["MVMC.C68_text", "MVMC.C68_columns", "MVMC.C68_binary_violated", "MVMC.C68_binary_partial", "MVMC.C68_variance_partial", "MVMC.C68_variance_violated"], "note": "Text file, columns and the variance of real local energies proved. Refuted for this code: binary mode writes half of the parameters (C68_binary_violated); the variance column of complex local energies can be negative (C68_variance_violated)."},
 {"property": "C69", "status": "partial", "theorems": ["MVMC.C69_values", "MVMC.C69_own_numbers", "MVMC.C69_same_number", "MVMC.C69_real_range_partial", "MVMC.C69_complex_range", "MVMC.C69_no_neuron_violated", "MVMC.C69_order_violated"], "note": "Values, ranges, own random numbers and number of draws proved. Refuted for this code: no hidden neuron in a real calculation (C69_no_neuron_violated); unspecified order of two generator calls (C69_order_violated)."},
 {"property": "C70", "status": "proved", "theorems": ["MVMC.C70_descent", "MVMC.C70_solvable", "MVMC.C70_energy_decreases"], "note": "Exact expectation values and an exact linear solver are hypotheses; direct mode."},
 {"property": "C71", "status": "partial", "theorems": ["MVMC.C71_step", "MVMC.C71_balance_partial", "MVMC.C71_stationary_partial", "MVMC.C71_stationary", "MVMC.C71_steps", "MVMC.C71_total", "MVMC.C71_balance_fsz_partial", "MVMC.C71_stationary_fsz_partial", "MVMC.C71_steps_fsz", "MVMC.C71_total_fsz", "MVMC.C71_accept_fsz", "MVMC.C71_psi_fsz", "MVMC.C71_accept", "MVMC.C71_psi"], "note": "For a number of sites that divides 2^32; otherwise only for draws of the target site below a multiple of it (remainder bias, C19_bias_violated). Acceptance probability min(1,w) up to 2^-32."},
 {"property": "C72", "status": "proved", "theorems": ["MVMC.C72_local", "MVMC.C72_mean", "MVMC.C72_variational", "MVMC.C72_variance", "MVMC.C72_local_fsz", "MVMC.C72_mean_fsz", "MVMC.C72_variational_fsz", "MVMC.C72_variance_fsz", "MVMC.C72_eigenstate", "MVMC.C72_eigenstate_fsz"], "note": "exact average over |Psi|^2 (C71) except C72_eigenstate, which holds for any samples; input conditions HamHermitian, HamLocal, HamSzConserving"},
 {"property": "C73", "status": "partial", "theorems": ["MVMC.C73_green", "MVMC.C73_green_fsz", "MVMC.C73_pair", "MVMC.C73_pair_fsz", "MVMC.C73_pair_partial", "MVMC.C73_lines", "MVMC.C73_written", "MVMC.C73_node_violated", "MVMC.C73_local_violated", "MVMC.C73_written_fsz_partial"], "note": "Files of Green functions: every written line is the sample mean of the local value of the operators its own indices name (C73_written, on top of C57; general Sz C73_written_fsz_partial for executions without the data race); tables of pairs name the operators of the lines (C73_lines); the averages are expectation values of Jordan-Wigner matrices (C73_green, C73_green_fsz). Partial: the factorised two-body functions miss the zeros of the trial state; exact formula in C73_pair and C73_pair_fsz, equality without zeros in C73_pair_partial, counterexamples C73_node_violated and C73_local_violated."},
 {"property": "C74", "status": "partial", "theorems": ["MVMC.C74_blocks", "MVMC.C74_lanczos_partial", "MVMC.C74_lanczos_real_partial", "MVMC.C74_calHCACA2_violated", "MVMC.C74_calHCACA2_real_violated", "MVMC.C74_rwork_violated"], "note": "Proved for all functions except the two that break the rule (C74_blocks); calHCACA2 in bounds if NQPFull+4*Nsize fits into Nsize*Nsize+LapackLWork (C74_lanczos_partial, C74_lanczos_real_partial). Violations of the unchanged code for all sizes and histories: C74_calHCACA2_violated, C74_calHCACA2_real_violated, C74_rwork_violated."},
 {"property": "C75", "status": "partial", "theorems": ["MVMC.C75_reach", "MVMC.C75_converge_partial", "MVMC.C75_converge", "MVMC.C75_energy", "MVMC.C75_green", "MVMC.C75_path", "MVMC.C75_exchange_only", "MVMC.C75_exchange_violated", "MVMC.C75_period_violated", "MVMC.C75_reach_fsz", "MVMC.C75_converge_fsz_partial", "MVMC.C75_converge_fsz", "MVMC.C75_energy_fsz", "MVMC.C75_green_fsz", "MVMC.C75_path_fsz", "MVMC.C75_full_band", "MVMC.C75_full_band_violated", "MVMC.C75_reach_csz", "MVMC.C75_converge_csz_partial", "MVMC.C75_converge_csz", "MVMC.C75_energy_csz", "MVMC.C75_green_csz", "MVMC.C75_start_csz", "MVMC.C75_path_csz"], "note": "For a number of sites that divides 2^32 and amplitudes without zeros; otherwise with draws below a multiple of the number of sites (C75_converge_partial, C75_converge_fsz_partial, C75_converge_csz_partial). Violations of the unchanged code: C75_exchange_violated, C75_period_violated, C75_full_band_violated. Fixed Sz, and general Sz with 2Sz free or fixed; with NExUpdatePath=3 a fixed 2Sz is not kept (C08_path3_changes_magnetisation), so no C75_*_csz theorem covers it."},
 {"property": "C76", "status": "proved", "theorems": ["MVMC.C76_step", "MVMC.C76_lowers", "MVMC.C76_derivatives", "MVMC.C76_lowers_fsz", "MVMC.C76_lowers_csz", "MVMC.C76_derivatives_fsz"], "note": "One process, weights 1 and an exact solution of the linear system; conditions of C75; weights of the optional translations held fixed (C50). C76_derivatives links the stored derivatives to the ones used; general Sz (2Sz free or fixed) in C76_lowers_fsz, C76_lowers_csz, C76_derivatives_fsz, the last without Boltzmann machine."},
 {"property": "C77", "status": "proved", "theorems": ["MVMC.C77_sequence", "MVMC.C77_builds", "MVMC.C77_seeds", "MVMC.C77_groups", "MVMC.C77_groups_run", "MVMC.C77_uniform", "MVMC.C77_nonzero", "MVMC.C77_periodic", "MVMC.C77_example"], "note": "For MEXP 19937, little endian, portable and SSE2 build. That the period is a multiple of 2^19937-1 is not proved; the numbers are not independent in the sense of probability: C77_uniform counts contents of the array, of which init_gen_rand reaches 2^32."},
 {"property": "C78", "status": "partial", "theorems": ["MVMC.C78_fit", "MVMC.C78_physcal_partial", "MVMC.C78_paraopt_partial", "MVMC.C78_rank", "MVMC.C78_other_partial", "MVMC.C78_fopen_violated", "MVMC.C78_long_head_violated", "MVMC.C78_exit_violated"], "note": "Proved when the files can be opened and the prefix is short enough for the buffers (C78_fit: at most 228 characters for indices between -99 and 999). Missing because the code violates it: fopen is not checked (C78_fopen_violated), prefixes up to 253 characters are accepted but overflow fileName (C78_long_head_violated), a failed optimisation exits with status 0 (C78_exit_violated)."},
 {"property": "C79", "status": "partial", "theorems": ["MVMC.C79_undefined_iff", "MVMC.C79_accept_iff_partial", "MVMC.C79_sizes_partial", "MVMC.C79_reader", "MVMC.C79_spin", "MVMC.C79_path", "MVMC.C79_block", "MVMC.C79_no_translation_violated", "MVMC.C79_translations_violated", "MVMC.C79_electrons_violated", "MVMC.C79_magnetisation_violated", "MVMC.C79_lanczos_violated", "MVMC.C79_cond_violated", "MVMC.C79_unchecked_violated", "MVMC.C79_two_files_violated", "MVMC.C79_header_violated"], "note": "Acceptance and sizes are proved for at most one antiparallel orbital file. The usability part is violated by the unchanged code (theorems C79_*_violated): missing or too large NMPTrans, too many electrons, too large 2Sz, Lanczos with general orbitals and NSPGaussLeg >= 2, odd number of local spins with Ncond, unchecked signs, two antiparallel files, local-spin header not compared with its table; a missing file is undefined behaviour."},
 {"property": "C80", "status": "partial", "theorems": ["MVMC.C80_syntax", "MVMC.C80_number", "MVMC.C80_malformed", "MVMC.C80_exit", "MVMC.C80_settings_partial", "MVMC.C80_mode_exists", "MVMC.C80_dirlist", "MVMC.C80_dirs", "MVMC.C80_trailing_violated", "MVMC.C80_order_violated", "MVMC.C80_extra_violated", "MVMC.C80_range_violated", "MVMC.C80_long_violated", "MVMC.C80_longdir_violated", "MVMC.C80_uhf", "MVMC.C80_uhfpara_violated", "MVMC.C80_dry", "MVMC.C80_dryextra_violated"], "note": "Syntax, numbers, exits, settings, files, list of directories and directories are proved for all command lines; the settings theorem is partial because file names of 256 characters or more overflow (proved violation). Further proved violations: text behind numbers and surplus operands are ignored, -m and -s depend on their order, -m 0 and negative numbers are accepted, long directory names overflow; the small programs ComplexUHF and vmcdry.out are covered too, where a parameter file and surplus words are ignored."},
 {"property": "C81", "status": "partial", "theorems": ["MVMC.C81_orbital_sites_ap", "MVMC.C81_orbital_sites_p", "MVMC.C81_orbital_short_violated", "MVMC.C81_names_partial", "MVMC.C81_enum", "MVMC.C81_unknown_keyword_violated", "MVMC.C81_sizes_partial", "MVMC.C81_heads", "MVMC.C81_missing_file_violated", "MVMC.C81_second_pass_partial", "MVMC.C81_short_violated", "MVMC.C81_surplus_violated", "MVMC.C81_erased_violated", "MVMC.C81_orbital_site_violated", "MVMC.C81_spin_violated"], "note": "Names, first pass and second pass characterised completely (undefined behaviour, rejection, tables) for regular lines without orbital files (those: C61). Violated by the code: unknown keywords, missing files, short and surplus tables, erased errors, wrong sites in orbital files, spin-changing operators."},
 {"property": "C82", "status": "partial", "theorems": ["MVMC.C82_random", "MVMC.C82_given", "MVMC.C82_given_undefined", "MVMC.C82_site_violated", "MVMC.C82_spin_violated", "MVMC.C82_output", "MVMC.C82_restart", "MVMC.C82_eps", "MVMC.C82_hermitian", "MVMC.C82_hermitian_violated", "MVMC.C82_decay", "MVMC.C82_printed", "MVMC.C82_eigenvalues", "MVMC.C82_trace"], "note": "Proved: the random start and its draws, the start from a file, when this is undefined, the file of Green functions, restarting from it, decay of the part that is not Hermitian and of the error in the number of electrons, distance of the printed Green functions from those of the determinant, eigenvalues, accuracy. Violated by the code: the random start is not Hermitian, lines with sites or spins that do not exist are taken as other entries (C82_*_violated)."},
 {"property": "C83", "status": "partial", "theorems": ["MVMC.C83_parameters_partial", "MVMC.C83_compatible_partial", "MVMC.C83_mix_violated", "MVMC.C83_unknown_violated", "MVMC.C83_missing_number_violated", "MVMC.C83_fraction_violated", "MVMC.C83_first_pass_partial", "MVMC.C83_electrons_violated", "MVMC.C83_boundary"], "note": "Proved for files whose lines are skipped or consist of a word and a number: acceptance, undefined behaviour, values, compatibility with the main program, electrons, boundary flag. Violated by the code: missing numbers, misspelt words, fractions, too many electrons, and the main program rejects the parameters of this one (C83_*_violated)."},
 {"property": "C84", "status": "partial", "theorems": ["MVMC.C84_sites", "MVMC.C84_images", "MVMC.C84_images_two", "MVMC.C84_images_violated", "MVMC.C84_index", "MVMC.C84_stop", "MVMC.C84_flip", "MVMC.C84_values_partial", "MVMC.C84_density_violated", "MVMC.C84_delta_violated", "MVMC.C84_onebody_violated", "MVMC.C84_ring", "MVMC.C84_delta_witness", "MVMC.C84_geometry", "MVMC.C84_zero_cell", "MVMC.C84_fourier_partial", "MVMC.C84_phase_violated", "MVMC.C84_kpoints", "MVMC.C84_error", "MVMC.C84_file_name", "MVMC.C84_file_name_violated", "MVMC.C84_converge_partial", "MVMC.C84_converge_fsz_partial", "MVMC.C84_converge_csz_partial", "MVMC.C84_converge_ring", "MVMC.C84_measured_partial", "MVMC.C84_measured_fsz_partial"], "note": "Complete files, sites on the lattice, exact numbers. Values are those of the manual for complete index files, R = 0 first (S+S-) and the same density in all cells; k-points of the supercell with the boundary phase. Violated: delta term at the first R-vector, density of cell 0 for all cells, missing one-body lines silently 0, boundary phase on all correlations, images beyond two supercells, file numbers from 1000."},
 {"property": "C85", "status": "partial", "theorems": ["MVMC.C85_release", "MVMC.C85_release_run", "MVMC.C85_kept_violated", "MVMC.C85_lines_violated", "MVMC.C85_lines_partial", "MVMC.C85_burn", "MVMC.C85_burn_fsz", "MVMC.C85_burn_backflow_violated"], "note": "Every free is valid and the blocks still held are exactly those of memHeld; that all memory is given back is false: ten blocks are always kept, more in the RBM, SR, Lanczos and multi-definition modes. The burn sample restores the tables; the unreachable back-flow copies leave the blocks. Work arrays local to other functions are not modelled."},
 {"property": "C86", "status": "partial", "theorems": ["MVMC.C86_names_partial", "MVMC.C86_names_violated", "MVMC.C86_absolute_violated", "MVMC.C86_words", "MVMC.C86_default_violated", "MVMC.C86_tpq", "MVMC.C86_axis", "MVMC.C86_labels", "MVMC.C86_recipr", "MVMC.C86_columns_partial", "MVMC.C86_columns_violated", "MVMC.C86_columns_hphi_partial", "MVMC.C86_records_violated", "MVMC.C86_fermi"], "note": "Names of files, words, lists of files, axis, labels and grid file proved for all inputs (names without comma and slash); columns for at most 20 orbitals (9 without errors). Violated by the code: names with a slash are cut, asterisks and broken lines for more orbitals, no default values."},
 {"property": "C87", "status": "partial", "theorems": ["MVMC.C87_rows_partial", "MVMC.C87_rows_direct_partial", "MVMC.C87_blocks_violated"], "note": "Both cases (with and without two-body functions) proved for files of complete lines with sites in the lattice and spins 0 or 1. Violated by the code: one block is not freed when the energy cannot be found."},
 {"property": "C88", "status": "partial", "theorems": ["MVMC.C88_parallel", "MVMC.C88_private", "MVMC.C88_shared_violated"], "note": "The parallel loop is proved for all schedules and interleavings. Violated by the code: the pointer myRWork of CalculateMAll_fsz is shared between threads (harmless, it is not used)."},
 {"property": "C89", "status": "partial", "theorems": ["MVMC.C89_complex_partial", "MVMC.C89_real_partial", "MVMC.C89_cg_real", "MVMC.C89_mixed_violated", "MVMC.C89_nocut_violated"], "note": "Proved when all groups are complex (C89_complex_partial), when all are real with a positive cut (C89_real_partial) and for the real CG optimiser (C89_cg_real). The code violates it for real groups beside complex ones and without a cut: the flags of imaginary parts of real groups are never written."},
 {"property": "C90", "status": "partial", "theorems": ["MVMC.C90_loops_partial", "MVMC.C90_input_partial", "MVMC.C90_missing_violated", "MVMC.C90_leak_violated", "MVMC.C90_return_violated"], "note": "Proved for the four loops that open and close (C90_loops_partial); the whole input is read without undefined behaviour exactly if all files exist (C90_input_partial). The code violates it: a missing file leads to fclose(NULL), GetInfoFromModPara leaves all files but one open, early returns leave a file open."},
 {"property": "C91", "status": "partial", "theorems": ["MVMC.C91_elements_partial", "MVMC.C91_free_partial", "MVMC.C91_empty_violated", "MVMC.C91_uhf_partial", "MVMC.C91_uhf_violated"], "note": "Proved for arrays with at least one row (C91_elements_partial, C91_free_partial). The code violates it for arrays without rows (C91_empty_violated): A[0] is stored behind an empty block. ComplexUHF is free of this exactly if every table has a row (C91_uhf_partial), so it fails for example without pair hopping (C91_uhf_violated)."},
 {"property": "C92", "status": "partial", "theorems": ["MVMC.C92_life_partial", "MVMC.C92_end_partial", "MVMC.C92_created", "MVMC.C92_comms_violated", "MVMC.C92_grid_violated"], "note": "Life of every communicator and grid in all runs, and release as often as creation for the solver and MultiDef handles. Missing: main's communicators are never freed and a failing PDPOSV leaves its grid (both proved as violations); processes that disagree on the PDPOSV status."},
 {"property": "C93", "status": "partial", "theorems": ["MVMC.C93_convert_partial", "MVMC.C93_order", "MVMC.C93_last_violated", "MVMC.C93_weights", "MVMC.C93_geometry"], "note": "Every element of a complete file is converted, in any order of lines; weights and geometry file. Missing: a file without the empty line at the end loses its last matrix (proved as violation)."}
]}
