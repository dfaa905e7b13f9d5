{
 "C01": {
  "status": "proved"
 },
 "C02": {
  "status": "proved"
 },
 "C03": {
  "status": "partial",
  "note": "Proved for -m >= 1 not exceeding the number of ranks and NSplitSize >= 1. The unchanged code divides by zero for -m 0 and NSplitSize 0 and yields a negative colour for negative -m (proved as separate theorems)."
 },
 "C04": {
  "status": "partial",
  "note": "Proved when count + chunk size does not overflow int; for counts near INT_MAX the loop bound overflows (proved witness)."
 },
 "C05": {
  "status": "proved",
  "note": "Blocks handed out between two releases are disjoint and in bounds provided the total was requested first; the two ways to break the discipline are proved to dangle/overrun."
 },
 "C06": {
  "status": "proved"
 },
 "C07": {
  "status": "proved",
  "also": [
   "C06_every_configuration_consistent",
   "C06_stored_samples_consistent",
   "C08_every_configuration_consistent",
   "C08_stored_samples_consistent"
  ],
  "note": "LocalSingle is one of the conclusions of the listed theorems. General-Sz mode assumes LocSpn values in {0,1}; C08_locspn_other_value_breaks_tables shows this is needed."
 },
 "C08": {
  "status": "partial",
  "note": "Consistency, electron number and local spins: proved for all runs (LocSpn in {0,1}). Magnetisation: proved for NExUpdatePath != 3; for path 3 the unchanged code flips local spins although 2Sz is fixed (C08_path3_changes_magnetisation)."
 },
 "C09": {
  "status": "proved",
  "note": "Both samplers."
 },
 "C10": {
  "status": "proved",
  "note": "Both samplers; the property is about placements that return. C10_initial_placement_can_hang shows that they need not."
 },
 "C11": {
  "status": "proved",
  "note": "Both samplers. Also: the local-spin-flip search of the general-Sz sampler never ends if there are no local spins (proved)."
 },
 "C12": {
  "status": "proved",
  "note": "For index tables that stay inside their blocks (the reader does not check this, see DESIGN.md)."
 },
 "C13": {
  "status": "proved",
  "note": "As C12; includes the on-site spin flip and all states of the general-Sz sampler."
 },
 "C14": {
  "status": "partial",
  "note": "UpdateRBMCnt proved for every hop and in every sampler state. UpdateRBMCnt_fsz proved except for a spin flip on one site with a general physical layer, where the unchanged code is wrong (C14_flip_witness); that function has no caller."
 },
 "C15": {
  "status": "proved",
  "note": "Real arithmetic."
 },
 "C16": {
  "status": "proved",
  "note": "All shifts of SyncModifiedParameter with the flags of SetFlagShift, arbitrary tables in range. Frozen groups are not shifted."
 },
 "C17": {
  "status": "proved",
  "note": "For non-zero pair orbitals; the whole trial state is multiplied by a positive number depending on the electron number only. All-zero pair orbitals divide by zero (C17_zero_violated)."
 },
 "C18": {
  "status": "proved"
 },
 "C19": {
  "status": "partial",
  "note": "Hop (Sz, free-spin and fixed-Sz samplers): relabelling the target draws is a length-preserving bijection onto the streams proposing the reverse hop, target draws restricted to a multiple of Nsite; exact for Nsite dividing 2^32. Exchange, conduction flip and local-spin flip: the same streams propose the reverse, no restriction. With the Metropolis rule this gives detailed balance. Missing: the modulo bias of gen_rand32()%Nsite breaks exact equality (C19_bias_violated); the accept probability is min(1,w) up to 2^-32 (C19_accept_close)."
 },
 "C20": {
  "status": "proved",
  "note": "Pfaffian defined by expansion along the first row (Spec/Pfaffian.lean); stated for lists and for the occupied block of SlaterElm."
 },
 "C21": {
  "status": "proved",
  "note": "Sz and fsz versions, complex and real, exact arithmetic; any number of electrons."
 },
 "C22": {
  "status": "proved",
  "note": "Exact arithmetic; library factorisation trusted (LibOK, LibTotal). Hypothesis: accepted moves have a non-zero new Pfaffian in every projection; C22_zero_projection_witness shows the hypothesis is needed."
 },
 "C23": {
  "status": "proved",
  "note": "Sz and fsz; includes the same-electron branch; independent of the raOld look-up."
 },
 "C24": {
  "status": "partial",
  "note": "GreenFunc1, GreenFunc1_fsz for all arguments; GreenFunc1_fsz2 for different orbitals (it returns 0 for equal ones, proved as a witness; callers use it only for different spins). Exact arithmetic; _real variants not modelled separately."
 },
 "C25": {
  "status": "proved",
  "note": "GreenFunc2, GreenFunc2_fsz, GreenFunc2_fsz2 for every coincidence pattern of the four orbitals, projected Pfaffian state with correlation factors and (Sz mode) Boltzmann machine."
 },
 "C26": {
  "status": "proved",
  "note": "One- and two-body Green functions of both modes; GreenFuncN is treated under C48."
 },
 "C27": {
  "status": "proved",
  "note": "CalculateHamiltonian, CalculateHamiltonian_fsz, CalculateHamiltonian0, CalculateDoubleOccupation, CalculateSz_fsz; arbitrary schedule, reduction order and workspace content, exact arithmetic. Sz mode requires spin-conserving Transfer/InterAll lines (C27_transfer_spin_ignored: the code does not read the first spin column). Backflow variants and CalculateHamiltonian1/2 not modelled."
 },
 "C28": {
  "status": "proved"
 },
 "C29": {
  "status": "proved",
  "note": "Pair, correlation and Boltzmann-machine parameters, for every thread interleaving, against the derivative of the whole trial wave function. In general-Sz mode without Boltzmann machine (the code never evaluates one there)."
 },
 "C30": {
  "status": "partial",
  "note": "sequential update and real CG update proved; complex CG update loses increments under a data race (witness proved)"
 },
 "C31": {
  "status": "partial",
  "note": "covariance, symmetry, PSD and positive definiteness proved; positive definiteness needs a positive largest diagonal, else violated (proved)"
 },
 "C32": {
  "status": "partial",
  "note": "exact arithmetic; zero tolerance divides by zero (proved)"
 },
 "C33": {
  "status": "partial",
  "note": "holds without skipped samples and with one chain per process; otherwise violated (proved)"
 },
 "C34": {
  "status": "partial",
  "note": "holds for a process that starts at sample 0 and skips none; otherwise violated (proved)"
 },
 "C35": {
  "status": "partial",
  "note": "For moments of any non-eigenstate the reported energy is the energy of (1+alpha H)psi and the minimum over all complex alpha; it lies between the ground-state energy and the unimproved energy, and the reported variance is the relative variance of the improved state. Completion is only proved when AA is nonzero and energies are below about 10^12 times the relative spread; eigenstates and states whose optimum is at infinite alpha divide by zero, and the real mode ignores the error return (negations proved)."
 },
 "C36": {
  "status": "proved",
  "note": "PDPOSV itself trusted"
 },
 "C37": {
  "status": "partial",
  "note": "CheckWords returns 0 iff the words agree after lower-casing, CheckKW finds exactly that keyword, the name list maps keywords to the file on the same line, and each ModPara variable gets the number of the last line naming it. Missing: words of 257 or more characters and keywords of 200 or more overrun the buffers, a line without file name or number silently reuses the one before, a line of blanks is rejected (all proved as violations)."
 },
 "C38": {
  "status": "partial",
  "note": "For all readers of rows and of parameter indices: success means exactly the announced number of entries, all on the lattice, stored at the documented place; complete files with distinct keys fill the whole table; no write outside the table if there are not more lines than announced. The unrestricted claim is false for this code and refuted: extra lines and out-of-range sites of LocSpin/DH2/DH4 write outside, short lines reuse old values, spins and indices are unchecked, repeated sites leave holes, words make the reader hang."
 },
 "C39": {
  "status": "partial",
  "note": "Layout, acceptance and placement of all flags proved for files with flags in order and no OptTrans. Refuted for this code: the index column is ignored, imaginary parts of frozen parallel orbitals are optimised, OptTrans flags overwrite others, a missing last flag is accepted. Only the flag part of the files is modelled in readIdxParaFlags; the entry part is C38 and C54. Inputs with back-flow parameters are always rejected (C39_backflow_rejected)."
 },
 "C40": {
  "status": "partial",
  "note": "Proved for complete lines with sites of the lattice and spins 0 or 1: each needed operator appears exactly once and every two-body entry points to its operators; also the direct mode and the Lanczos mode. Refuted for this code: spins are not checked (write outside the table), an operator requested twice in Lanczos mode writes behind the table, a failed first pass becomes the count -1 and is not reported, a one-body file that announces 0 entries but has lines is read in the second pass."
 },
 "C41": {
  "status": "partial",
  "note": "Proved for natural sizes without backflow: all elements of all integer and real tables have different addresses inside the allocation. Refuted for this code: negative numbers of entries are accepted, with backflow (switched off) two tables are missing in the total, and the total is computed in int and overflows for large lattices."
 },
 "C42": {
  "status": "partial",
  "note": "Files written after optimisation are read back into the same parameters (group files and summary file, when more than one step is averaged). Violated for one averaged step, for wrong row counts followed by a later def file, and for row indices out of range (negations proved). Decimal printing/reading is trusted to be exact."
 },
 "C43": {
  "status": "partial",
  "note": "Mean and deviation over the stored steps, which are the last NSROptItrSmp steps when NSROptItrSmp <= NSROptItrStep; otherwise uninitialised rows are averaged (negation proved)."
 },
 "C44": {
  "status": "proved",
  "note": "Every index quadruple owns one entry, for every number of powers, every thread order; on full enumeration the entries are the moments of H."
 },
 "C45": {
  "status": "partial",
  "note": "Exact for every block size and thread count for which the call is defined; with some thread counts the threads enter different worksharing loops, which OpenMP leaves undefined (C45_threads_witness). Hypothesis: no cosh vanishes."
 },
 "C46": {
  "status": "proved"
 },
 "C47": {
  "status": "partial",
  "note": "claim false for every number of parameters (proved); function has no caller"
 },
 "C48": {
  "status": "partial",
  "note": "Real routine (locgrn_real.c): proved for every n and every string of spin-conserving pairs, trusting DSKPFA. Complex routine: exact whenever it stays defined; undefined (uninitialised lda) as soon as three hops remain (C48_complex_undefined)."
 },
 "C49": {
  "status": "partial",
  "note": "Proved for calgrn.c under every schedule. calgrn_fsz.c: proved for executions without interference (in particular one thread); C49_fsz_race_witness shows that the shared loop variables t, u, v make the unchanged code wrong for other interleavings."
 },
 "C50": {
  "status": "partial",
  "note": "Holds for correlation, Boltzmann-machine and pair parameters (C29_logderiv). The unchanged code violates it for the weights of the optional translations: calculateOptTransDiff writes entry i instead of 2*i (C50_optTrans_violated); the value itself is right (C50_optTrans_partial). Also violated in general-Sz mode with RBM parameters (C50_fsz_rbm_violated)."
 },
 "C51": {
  "status": "proved",
  "note": "exact sampling; exact arithmetic"
 },
 "C52": {
  "status": "proved"
 },
 "C53": {
  "status": "partial",
  "note": "Combination formula proved; the one-body and factorised two-body averages are the complex conjugates of the expectation values and the direct two-body average is right only for real local energies (negations with concrete states proved). For real wave functions these coincide with the claim."
 },
 "C54": {
  "status": "partial",
  "note": "Antisymmetry of every accepted table is unconditional; completeness for files listing every pair once. Refuted for this code: parameter numbers and spins unchecked, repeated pairs accepted, short first line uses uninitialised variables."
 },
 "C55": {
  "status": "proved",
  "note": "For natural sizes; sizes are mathematical integers."
 },
 "C56": {
  "status": "partial",
  "note": "Proved in full for Hamiltonians without off-diagonal two-body terms (both files, Boltzmann machine included) and for the real file with any Hamiltonian. Condition NoZero (no projection vanishes alone), automatic for one projection and necessary (C56_zero_projection_division). The complex file with off-diagonal two-body terms is undefined (C48_complex_undefined, C56_rbm_undefined); the thread workspace of calHCACA2 is too small (C56_workspace_overrun); the copy counter is shared (C56_copy_race)."
 },
 "C57": {
  "status": "proved",
  "note": "Exact numbers. Hypotheses: the start configuration has a non-vanishing overlap, and no projected component vanishes where the amplitude does not (automatic for NQPFull=1). C57_stuck shows what the code does if the start overlap vanishes twice. The general-Sz Green functions inside the loop (C57_green_fsz_partial) assume executions in which no thread overwrites the shared loop variables of another (always true with one thread). Real mode is not part of this claim."
 },
 "C58": {
  "status": "partial",
  "note": "Holds for the trial state of real parts; for the given trial state and Hamiltonian only if orbitals, weights, transfer and InterAll parameters are real and there is no Boltzmann machine. The flag AllComplexFlag does not ensure this: C58_complex_hopping_violated, C58_complex_weights_violated, C58_rbm_violated. NoZero and a start with non-vanishing overlap are assumed as in C57. Derivative sums (mode 0) and Lanczos in the real loop are not part of it."
 },
 "C59": {
  "status": "proved",
  "note": "The contracts SktrfOK (factorisation) and TrtriOK (triangular inverse) of the LAPACK style routines are hypotheses; BLAS trmm, swap and lacpy are modelled by their definition. Odd sizes (which the code never uses) are modelled as failure. C59_dimer_rejected is conditional on the documented INFO convention of SKTRF, whose source is not in the checkout."
 },
 "C60": {
  "status": "proved",
  "note": "HamDistinct (no density line of a site with itself; C60_same_site_violated shows it is needed), HamHerm and HamIdx are hypotheses. zheev_ enters through the contract ZheevOK, which an exact diagonalisation meets (C60_contract_met); the failure branch of ZHEEVall is not modelled. The Fock terms are on, as in the shipped build."
 },
 "C61": {
  "status": "proved",
  "note": "Hypotheses: Respects (the pair function has the symmetry of the parameter numbering), no quantum-number projection, complete orbital files, random part of the parameters zero or tending to zero; the antiparallel mode also needs SpinDiag and a gap for the energy. Violations proved: C61_electrons_violated, C61_odd_spins_violated, C61_gap_violated."
 },
 "C62": {
  "status": "proved",
  "note": "Limit of many quadrature points and small tolerance, for runs of GaussLeg that end with separated nodes; convergence of Newton's iteration itself is proved for two points. C62_two_points_inexact: with finitely many points the projection is not exact because the rule is in beta, not in cos beta."
 },
 "C63": {
  "status": "partial",
  "note": "C63_values_partial and C63_ratio hold for every history with non-vanishing accepted Pfaffians; the code violates the property for the sign (C63_sign_violation), a queue of one hop (C63_pair_overrun) and split projections (C63_split_violation)"
 },
 "C64": {
  "status": "proved",
  "note": "The group, representation and index-table conditions are hypotheses on the input files; C64_needs_group shows that they cannot be dropped."
 },
 "C65": {
  "status": "partial",
  "note": "Only for files without repeated rows; C65_missing_violation, C65_permutation_violation, C65_range_violation and C65_opt_violation show what the readers accept."
 },
 "C66": {
  "status": "partial",
  "note": "C66_lockstep and C66_valid hold for arbitrary local computations; C66_same_chain_partial, C66_process_count_partial and C66_amplitude_partial need exact arithmetic and that a move is only accepted when every projection stays regular; C66_block_violation: builds with PFAFFIAN_BLOCKED use the wrong Pfaffians with two or more processes per group"
 },
 "C67": {
  "status": "proved",
  "note": "Sz-conserving sampler; numerical routines are arbitrary functions; a process that runs out of random numbers counts as stopped"
 },
 "C68": {
  "status": "partial",
  "note": "Text file, columns and the variance of real local energies proved. Refuted for this code: binary mode writes half of the parameters (C68_binary_violated); the variance column of complex local energies can be negative (C68_variance_violated)."
 },
 "C69": {
  "status": "partial",
  "note": "Values, ranges, own random numbers and number of draws proved. Refuted for this code: no hidden neuron in a real calculation (C69_no_neuron_violated); unspecified order of two generator calls (C69_order_violated)."
 },
 "C70": {
  "status": "proved",
  "note": "Exact expectation values and an exact linear solver are hypotheses; direct mode."
 },
 "C71": {
  "status": "partial",
  "note": "For a number of sites that divides 2^32; otherwise only for draws of the target site below a multiple of it (remainder bias, C19_bias_violated). Acceptance probability min(1,w) up to 2^-32."
 },
 "C72": {
  "status": "proved",
  "note": "exact average over |Psi|^2 (C71) except C72_eigenstate, which holds for any samples; input conditions HamHermitian, HamLocal, HamSzConserving"
 },
 "C73": {
  "status": "partial",
  "note": "Files of Green functions: every written line is the sample mean of the local value of the operators its own indices name (C73_written, on top of C57; general Sz C73_written_fsz_partial for executions without the data race); tables of pairs name the operators of the lines (C73_lines); the averages are expectation values of Jordan-Wigner matrices (C73_green, C73_green_fsz). Partial: the factorised two-body functions miss the zeros of the trial state; exact formula in C73_pair and C73_pair_fsz, equality without zeros in C73_pair_partial, counterexamples C73_node_violated and C73_local_violated."
 },
 "C74": {
  "status": "partial",
  "note": "Proved for all functions except the two that break the rule (C74_blocks); calHCACA2 in bounds if NQPFull+4*Nsize fits into Nsize*Nsize+LapackLWork (C74_lanczos_partial, C74_lanczos_real_partial). Violations of the unchanged code for all sizes and histories: C74_calHCACA2_violated, C74_calHCACA2_real_violated, C74_rwork_violated."
 },
 "C75": {
  "status": "partial",
  "note": "For a number of sites that divides 2^32 and amplitudes without zeros; otherwise with draws below a multiple of the number of sites (C75_converge_partial, C75_converge_fsz_partial, C75_converge_csz_partial). Violations of the unchanged code: C75_exchange_violated, C75_period_violated, C75_full_band_violated. Fixed Sz, and general Sz with 2Sz free or fixed; with NExUpdatePath=3 a fixed 2Sz is not kept (C08_path3_changes_magnetisation), so no C75_*_csz theorem covers it."
 },
 "C76": {
  "status": "proved",
  "note": "One process, weights 1 and an exact solution of the linear system; conditions of C75; weights of the optional translations held fixed (C50). C76_derivatives links the stored derivatives to the ones used; general Sz (2Sz free or fixed) in C76_lowers_fsz, C76_lowers_csz, C76_derivatives_fsz, the last without Boltzmann machine."
 },
 "C77": {
  "status": "proved",
  "note": "For MEXP 19937, little endian, portable and SSE2 build. That the period is a multiple of 2^19937-1 is not proved; the numbers are not independent in the sense of probability: C77_uniform counts contents of the array, of which init_gen_rand reaches 2^32."
 },
 "C78": {
  "status": "partial",
  "note": "Proved when the files can be opened and the prefix is short enough for the buffers (C78_fit: at most 228 characters for indices between -99 and 999). Missing because the code violates it: fopen is not checked (C78_fopen_violated), prefixes up to 253 characters are accepted but overflow fileName (C78_long_head_violated), a failed optimisation exits with status 0 (C78_exit_violated)."
 },
 "C79": {
  "status": "partial",
  "note": "Acceptance and sizes are proved for at most one antiparallel orbital file. The usability part is violated by the unchanged code (theorems C79_*_violated): missing or too large NMPTrans, too many electrons, too large 2Sz, Lanczos with general orbitals and NSPGaussLeg >= 2, odd number of local spins with Ncond, unchecked signs, two antiparallel files, local-spin header not compared with its table; a missing file is undefined behaviour."
 },
 "C80": {
  "status": "partial",
  "note": "Syntax, numbers, exits, settings, files, list of directories and directories are proved for all command lines; the settings theorem is partial because file names of 256 characters or more overflow (proved violation). Further proved violations: text behind numbers and surplus operands are ignored, -m and -s depend on their order, -m 0 and negative numbers are accepted, long directory names overflow; the small programs ComplexUHF and vmcdry.out are covered too, where a parameter file and surplus words are ignored."
 },
 "C81": {
  "status": "partial",
  "note": "Names, first pass and second pass characterised completely (undefined behaviour, rejection, tables) for regular lines without orbital files (those: C61). Violated by the code: unknown keywords, missing files, short and surplus tables, erased errors, wrong sites in orbital files, spin-changing operators."
 },
 "C82": {
  "status": "partial",
  "note": "Proved: the random start and its draws, the start from a file, when this is undefined, the file of Green functions, restarting from it, decay of the part that is not Hermitian and of the error in the number of electrons, distance of the printed Green functions from those of the determinant, eigenvalues, accuracy. Violated by the code: the random start is not Hermitian, lines with sites or spins that do not exist are taken as other entries (C82_*_violated)."
 },
 "C83": {
  "status": "partial",
  "note": "Proved for files whose lines are skipped or consist of a word and a number: acceptance, undefined behaviour, values, compatibility with the main program, electrons, boundary flag. Violated by the code: missing numbers, misspelt words, fractions, too many electrons, and the main program rejects the parameters of this one (C83_*_violated)."
 },
 "C84": {
  "status": "partial",
  "note": "Complete files, sites on the lattice, exact numbers. Values are those of the manual for complete index files, R = 0 first (S+S-) and the same density in all cells; k-points of the supercell with the boundary phase. Violated: delta term at the first R-vector, density of cell 0 for all cells, missing one-body lines silently 0, boundary phase on all correlations, images beyond two supercells, file numbers from 1000."
 },
 "C85": {
  "status": "partial",
  "note": "Every free is valid and the blocks still held are exactly those of memHeld; that all memory is given back is false: ten blocks are always kept, more in the RBM, SR, Lanczos and multi-definition modes. The burn sample restores the tables; the unreachable back-flow copies leave the blocks. Work arrays local to other functions are not modelled."
 },
 "C86": {
  "status": "partial",
  "note": "Names of files, words, lists of files, axis, labels and grid file proved for all inputs (names without comma and slash); columns for at most 20 orbitals (9 without errors). Violated by the code: names with a slash are cut, asterisks and broken lines for more orbitals, no default values."
 },
 "C87": {
  "status": "partial",
  "note": "Both cases (with and without two-body functions) proved for files of complete lines with sites in the lattice and spins 0 or 1. Violated by the code: one block is not freed when the energy cannot be found."
 },
 "C88": {
  "status": "partial",
  "note": "The parallel loop is proved for all schedules and interleavings. Violated by the code: the pointer myRWork of CalculateMAll_fsz is shared between threads (harmless, it is not used)."
 },
 "C89": {
  "status": "partial",
  "note": "Proved when all groups are complex (C89_complex_partial), when all are real with a positive cut (C89_real_partial) and for the real CG optimiser (C89_cg_real). The code violates it for real groups beside complex ones and without a cut: the flags of imaginary parts of real groups are never written."
 },
 "C90": {
  "status": "partial",
  "note": "Proved for the four loops that open and close (C90_loops_partial); the whole input is read without undefined behaviour exactly if all files exist (C90_input_partial). The code violates it: a missing file leads to fclose(NULL), GetInfoFromModPara leaves all files but one open, early returns leave a file open."
 },
 "C91": {
  "status": "partial",
  "note": "Proved for arrays with at least one row (C91_elements_partial, C91_free_partial). The code violates it for arrays without rows (C91_empty_violated): A[0] is stored behind an empty block. ComplexUHF is free of this exactly if every table has a row (C91_uhf_partial), so it fails for example without pair hopping (C91_uhf_violated)."
 },
 "C92": {
  "status": "partial",
  "note": "Life of every communicator and grid in all runs, and release as often as creation for the solver and MultiDef handles. Missing: main's communicators are never freed and a failing PDPOSV leaves its grid (both proved as violations); processes that disagree on the PDPOSV status."
 },
 "C93": {
  "status": "partial",
  "note": "Every element of a complete file is converted, in any order of lines; weights and geometry file. Missing: a file without the empty line at the end loses its last matrix (proved as violation)."
 }
}