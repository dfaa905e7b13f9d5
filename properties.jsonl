{"id": "C01", "title": "Loop splitting tiles the index range", "statement": "For a loop of a given length distributed over any positive number of workers, the half-open ranges handed to workers 0,1,2,... are consecutive, start at 0, end at the loop length, every index belongs to exactly one worker, and the share sizes differ by at most one.", "quantifier": "every loop length >= 0, every number of workers >= 1, every worker rank", "why_tests_cant": "the set of (length, workers) pairs is infinite; both the 'more workers than items' branch and every remainder must be right", "anchors": ["src/mVMC/splitloop.c: SplitLoop"]}
{"id": "C02", "title": "Distributing a sum over processes does not change it", "statement": "Summing each process's own share of a weighted sum and adding the partial results gives the same (exact-arithmetic) value as the serial sum, for the wave-function overlap over quantum-projection indices and for the sample averages, whatever the number of processes.", "quantifier": "every summand sequence, every number of processes", "why_tests_cant": "tests run at a handful of process counts; the claim is independence from all of them", "anchors": ["src/mVMC/qp.c: CalculateIP_fcmp, CalculateLogIP_fcmp", "src/mVMC/average.c: WeightAverageWE", "src/mVMC/splitloop.c: SplitLoop"]}
{"id": "C03", "title": "Multi-definition mode assigns every rank to a valid group", "statement": "With n definition directories and at least n processes, each rank gets a group number in 0..n-1, the numbers are non-decreasing in rank, every group is non-empty, and group sizes differ by at most one. The option value 0 must not reach an integer division by zero.", "quantifier": "every number of processes, every option value", "why_tests_cant": "process counts on which the tests run are tiny; division-by-zero depends on an unvalidated option", "anchors": ["src/mVMC/vmcmain.c: initMultiDefMode"]}
{"id": "C04", "title": "Chunked MPI transfers move every element exactly once", "statement": "The size-limited broadcast/reduce wrappers split a buffer into consecutive chunks of at most 2^20 elements that cover the buffer exactly once, so the result equals one unchunked transfer; no arithmetic on the way overflows a 32-bit int.", "quantifier": "every buffer length representable as int", "why_tests_cant": "buffers larger than 2^20 are not used in tests, nor are lengths near INT_MAX", "anchors": ["src/mVMC/safempi.c: SafeMpiReduce, SafeMpiAllReduce, SafeMpiBcast, SafeMpiBcastInt", "src/mVMC/safempi_fcmp.c"]}
{"id": "C05", "title": "Scratch-buffer allocator hands out disjoint in-bounds blocks", "statement": "After requesting a total size, any sequence of block requests whose sizes sum to at most that total returns pairwise disjoint blocks inside the buffer; after release the buffer can be reused; no outstanding block is moved by a later request that is no larger than the buffer.", "quantifier": "every sequence of request/get/release calls", "why_tests_cant": "aliasing depends on the whole call history", "anchors": ["src/mVMC/workspace.c: RequestWorkSpaceInt, GetWorkSpaceInt, ReleaseWorkSpaceInt and the Double/Complex/Thread variants"]}
{"id": "C06", "title": "Every configuration visited by the Sz-conserving sampler is a valid electron configuration", "statement": "From any valid configuration, after any number of hopping and exchange proposals, accepted or rejected in any pattern, the position table, the site table and the occupation table describe the same configuration: each electron sits on one site, no two electrons of equal spin share a site, and the number of up and down electrons is unchanged.", "quantifier": "every lattice size, electron number, sequence of random numbers and accept/reject decisions", "why_tests_cant": "the state space is exponential and the run length unbounded", "anchors": ["src/mVMC/vmcmake.c: updateEleConfig, revertEleConfig, makeCandidate_hopping, makeCandidate_exchange, VMCMakeSample"]}
{"id": "C07", "title": "Local-spin sites stay singly occupied", "statement": "If every local-spin site holds exactly one electron initially, it holds exactly one electron in every configuration reached by the sampler.", "quantifier": "every run of the sampler (Sz-conserving mode and general-Sz mode)", "why_tests_cant": "needs an invariant over unbounded runs", "anchors": ["src/mVMC/vmcmake.c: makeCandidate_hopping, makeCandidate_exchange", "src/mVMC/vmcmake_fsz.c: makeCandidate_hopping_fsz, makeCandidate_exchange_fsz, makeCandidate_LocalSpinFlip_localspin, makeCandidate_LocalSpinFlip_conduction"]}
{"id": "C08", "title": "Every configuration visited by the general-Sz sampler is valid; fixed 2Sz is conserved", "statement": "In the mode where spin is an electron property, after any sequence of hopping, exchange and spin-flip moves the tables stay mutually consistent, the number of electrons is unchanged, and if 2Sz was fixed the magnetisation is unchanged.", "quantifier": "every run of the general-Sz sampler", "why_tests_cant": "unbounded runs, exponential state space", "anchors": ["src/mVMC/vmcmake_fsz.c: updateEleConfig_fsz, revertEleConfig_fsz, VMCMakeSample_fsz"]}
{"id": "C09", "title": "A rejected move leaves no trace", "statement": "Applying a proposed hop or exchange and then reverting it restores all configuration tables exactly.", "quantifier": "every valid configuration and every proposal the sampler can make", "why_tests_cant": "holds for all states, tests see few", "anchors": ["src/mVMC/vmcmake.c: updateEleConfig, revertEleConfig", "src/mVMC/vmcmake_fsz.c: updateEleConfig_fsz, revertEleConfig_fsz"]}
{"id": "C10", "title": "The random initial configuration is valid", "statement": "Whenever initial placement terminates, the resulting tables are consistent, contain the requested number of up and down electrons, and each local-spin site holds exactly one electron.", "quantifier": "every random stream, lattice size, electron number and local-spin pattern", "why_tests_cant": "depends on all random outcomes", "anchors": ["src/mVMC/vmcmake.c: makeInitialSample"]}
{"id": "C11", "title": "Exchange proposals are rejected exactly when none exists", "statement": "The exchange proposal step reports 'no candidate' iff the configuration has no pair of singly occupied sites of opposite spin; otherwise the random search has at least one acceptable outcome, so it is not an endless loop by construction.", "quantifier": "every valid configuration", "why_tests_cant": "corner configurations (fully polarised, all doublons) are rarely sampled", "anchors": ["src/mVMC/vmcmake.c: makeCandidate_exchange", "src/mVMC/vmcmake_fsz.c: makeCandidate_exchange_fsz"]}
{"id": "C12", "title": "Incremental correlation counts equal recomputed counts (hop)", "statement": "After a hop (and after two consecutive hops, including in-place update) the incrementally updated Gutzwiller, Jastrow and doublon-holon counts equal those recomputed from scratch for the new occupation.", "quantifier": "every occupation, every hop, every index table, every number of factors", "why_tests_cant": "tests compare final energies for a few models only", "anchors": ["src/mVMC/projection.c: MakeProjCnt, UpdateProjCnt"]}
{"id": "C13", "title": "Incremental correlation counts equal recomputed counts (spin-changing hop)", "statement": "The same equality for moves that also change the electron's spin, including a pure on-site spin flip.", "quantifier": "every occupation, every spin-changing move", "why_tests_cant": "as above", "anchors": ["src/mVMC/projection.c: UpdateProjCnt_fsz"]}
{"id": "C14", "title": "Incremental RBM inputs equal recomputed inputs", "statement": "After a hop the incrementally updated visible sums and hidden-unit inputs of the Boltzmann-machine factor equal those recomputed from scratch.", "quantifier": "every occupation, every hop, every RBM size and index table; also the spin-changing variant", "why_tests_cant": "unbounded inputs; the spin-changing variant is not covered by any test", "anchors": ["src/mVMC/rbm.c: MakeRBMCnt, UpdateRBMCnt, UpdateRBMCnt_fsz"]}
{"id": "C15", "title": "Correlation ratio is the quotient of the correlation factors", "statement": "The correlation-factor ratio reported for two count vectors equals factor(new)/factor(old); hence ratios along a path multiply.", "quantifier": "all parameter values and count vectors", "why_tests_cant": "algebraic law over all inputs", "anchors": ["src/mVMC/projection.c: LogProjVal, LogProjRatio, ProjRatio"]}
{"id": "C16", "title": "Parameter synchronisation only changes the gauge", "statement": "The shifts applied to Gutzwiller, Jastrow and doublon-holon parameters when parameters are synchronised multiply the correlation factor of every configuration with the same electron number by one common constant, so all amplitude ratios are unchanged.", "quantifier": "every parameter set, every pair of configurations with equal electron number", "why_tests_cant": "a global algebraic identity over all configurations", "anchors": ["src/mVMC/parameter.c: SyncModifiedParameter, shiftGJ, shiftDH2, shiftDH4, SetFlagShift"]}
{"id": "C17", "title": "Pair-orbital normalisation", "statement": "After synchronisation the largest pair-orbital modulus equals the documented amplitude and all pair orbitals were multiplied by one common positive factor, so every amplitude ratio at fixed electron number is unchanged.", "quantifier": "every non-zero pair-orbital vector", "why_tests_cant": "over all real/complex vectors", "anchors": ["src/mVMC/parameter.c: SyncModifiedParameter"]}
{"id": "C18", "title": "Stored samples fill every slot exactly once, after warm-up", "statement": "One sampling call writes each of the NVMCSample slots exactly once, in order, from configurations after the warm-up steps (first call) or after the saved burn-in state (later calls).", "quantifier": "every warm-up, interval and sample count >= 1, both burn flags", "why_tests_cant": "counter arithmetic for all parameters", "anchors": ["src/mVMC/vmcmake.c: VMCMakeSample, saveEleConfig, copyFromBurnSample, copyToBurnSample"]}
{"id": "C19", "title": "Hop and exchange proposals are reversible with equal probability", "statement": "For every random stream that makes the sampler propose x -> x', relabelling the drawn sites gives an equally likely stream that proposes x' -> x; combined with the accept rule this is detailed balance for the squared amplitude.", "quantifier": "every configuration, every random stream, every positive weight function", "why_tests_cant": "a statement about probabilities over infinite streams", "anchors": ["src/mVMC/vmcmake.c: makeCandidate_hopping, makeCandidate_exchange, VMCMakeSample"]}
{"id": "C20", "title": "The pair-product amplitude is antisymmetric", "statement": "Exchanging two electrons flips the sign of the Pfaffian amplitude and two electrons in the same spin-orbital give amplitude zero.", "quantifier": "every antisymmetric pair matrix, every electron list of any length", "why_tests_cant": "algebraic law for every size", "anchors": ["src/mVMC/matrix.c: CalculateMAll_fcmp (Pfaffian of the occupied sub-matrix)"]}
{"id": "C21", "title": "One-electron Pfaffian update is exact", "statement": "The O(N) formula for the new Pfaffian after moving one electron equals the Pfaffian of the new matrix.", "quantifier": "every antisymmetric matrix with invertible occupied block, every electron, every target orbital, every size", "why_tests_cant": "matrix identity for every size", "anchors": ["src/mVMC/pfupdate.c: CalculateNewPfM", "src/mVMC/pfupdate_fsz.c: CalculateNewPfM_fsz"]}
{"id": "C22", "title": "One-electron inverse update is exact", "statement": "After the rank-two update the stored inverse is again antisymmetric and is the inverse of the new occupied matrix, hence stays exact along any sequence of accepted moves with non-zero amplitude.", "quantifier": "every sequence of moves, every size", "why_tests_cant": "matrix identity, unbounded composition", "anchors": ["src/mVMC/pfupdate.c: UpdateMAll, updateMAll_child", "src/mVMC/pfupdate_fsz.c: UpdateMAll_fsz"]}
{"id": "C23", "title": "Two-electron Pfaffian update is exact", "statement": "The formula for the Pfaffian after moving two electrons at once equals the Pfaffian of the new matrix, and the two-electron inverse update gives the inverse of the new matrix.", "quantifier": "every antisymmetric matrix with invertible occupied block, every two distinct electrons and targets, every size", "why_tests_cant": "matrix identity for every size", "anchors": ["src/mVMC/pfupdate_two_fcmp.c: CalculateNewPfMTwo_fcmp, UpdateMAllTwo_fcmp", "src/mVMC/pfupdate_two_fsz.c"]}
{"id": "C24", "title": "One-body Green function is the operator matrix element", "statement": "The reported value for <c^+_i c_j> on a configuration equals <psi|c^+_i c_j|x>/<psi|x> computed from the second-quantised definition, including equal indices and Pauli-blocked cases and spin-changing operators.", "quantifier": "every configuration, every index pair, every wave function of the supported form", "why_tests_cant": "case analysis over all coincidences for all sizes", "anchors": ["src/mVMC/locgrn.c: GreenFunc1", "src/mVMC/locgrn_fsz.c: GreenFunc1_fsz, GreenFunc1_fsz2"]}
{"id": "C25", "title": "Two-body Green function is the operator matrix element", "statement": "The reported value for <c^+_i c_j c^+_k c_l> equals <psi|c^+_i c_j c^+_k c_l|x>/<psi|x> for every coincidence pattern of the four indices.", "quantifier": "every configuration, every index quadruple and spin assignment", "why_tests_cant": "many coincidence patterns times all configurations", "anchors": ["src/mVMC/locgrn.c: GreenFunc2", "src/mVMC/locgrn_fsz.c: GreenFunc2_fsz, GreenFunc2_fsz2"]}
{"id": "C26", "title": "Green-function evaluation does not disturb the configuration", "statement": "Evaluating one-, two- or n-body Green functions leaves the caller's position, spin and occupation tables exactly as before.", "quantifier": "every configuration, every index choice", "why_tests_cant": "in-place edits must be undone on every path", "anchors": ["src/mVMC/locgrn.c: GreenFunc1, GreenFunc2, GreenFuncN", "src/mVMC/locgrn_fsz.c"]}
{"id": "C27", "title": "Local energy is the Hamiltonian matrix element", "statement": "The local energy equals <psi|H|x>/<psi|x> for the Hamiltonian given by the definition files (hopping, intra/inter-site Coulomb, Hund, pair-hopping, exchange, general two-body), independent of the number of threads among which the terms are divided.", "quantifier": "every configuration and term list", "why_tests_cant": "linear combination over arbitrary lists; thread schedule nondeterminism", "anchors": ["src/mVMC/calham.c: CalculateHamiltonian, CalculateHamiltonian0", "src/mVMC/calham_fsz.c"]}
{"id": "C28", "title": "The pair matrix is antisymmetric for all parameters", "statement": "The spin-rotated, translated pair matrix used by the Pfaffian is antisymmetric whatever the variational parameters, translation tables, signs and quadrature points.", "quantifier": "all parameters and tables", "why_tests_cant": "all inputs", "anchors": ["src/mVMC/slater.c: UpdateSlaterElm_fcmp", "src/mVMC/slater_fsz.c: UpdateSlaterElm_fsz"]}
{"id": "C29", "title": "Logarithmic derivatives of the pair part are exact", "statement": "The reported derivative of the log-amplitude with respect to each pair-orbital parameter is the true derivative of the (projected) Pfaffian amplitude divided by the amplitude.", "quantifier": "all parameters and configurations with non-zero amplitude", "why_tests_cant": "analytic identity for every size", "anchors": ["src/mVMC/slater.c: SlaterElmDiff_fcmp", "src/mVMC/slater_fsz.c: SlaterElmDiff_fsz"]}
{"id": "C30", "title": "Frozen parameters never move during optimisation", "statement": "A parameter whose optimisation flag is not 1, or whose overlap diagonal falls below the cut, is left unchanged by an optimisation step; every other selected parameter receives exactly its own component of the solution.", "quantifier": "all flags, overlap matrices and solution vectors", "why_tests_cant": "index compaction for all flag patterns", "anchors": ["src/mVMC/stcopt.c: StochasticOpt", "src/mVMC/stcopt_cg_impl.c: fn_StochasticOptCG"]}
{"id": "C31", "title": "The overlap matrix is a covariance matrix", "statement": "The matrix used in the optimisation step is symmetric positive semi-definite for every set of samples with positive weights, and becomes positive definite on the selected parameters after the diagonal modification.", "quantifier": "all samples and weights", "why_tests_cant": "all real inputs", "anchors": ["src/mVMC/stcopt_dposv.c: stcOptInit", "src/mVMC/vmccal.c: calculateOO"]}
{"id": "C32", "title": "Conjugate-gradient solver keeps the true residual and solves the system", "statement": "In exact arithmetic the residual maintained by the CG solver equals right-hand side minus matrix times iterate at every iteration, and for a positive definite matrix the solver reaches the exact solution within as many iterations as unknowns.", "quantifier": "all matrices, right-hand sides and sizes", "why_tests_cant": "induction over iterations for all sizes", "anchors": ["src/mVMC/stcopt_cg_impl.c: fn_StochasticOptCG_Main, fn_operate_by_S"]}
{"id": "C33", "title": "Implicit and explicit overlap operators agree", "statement": "Applying the overlap operator through the stored samples gives the same vector as multiplying by the explicitly accumulated overlap matrix.", "quantifier": "all samples, vectors, process splits", "why_tests_cant": "algebraic identity over all inputs", "anchors": ["src/mVMC/stcopt_cg_impl.c: fn_operate_by_S", "src/mVMC/stcopt_dposv.c: stcOptInit"]}
{"id": "C34", "title": "Storing samples does not change the accumulated matrices", "statement": "Accumulating the parameter-derivative products sample by sample and storing them for one matrix product give the same matrix, however samples are divided over processes and even if some samples are discarded.", "quantifier": "all samples, process counts and discard patterns", "why_tests_cant": "depends on distribution and discard history", "anchors": ["src/mVMC/vmccal.c: calculateOO, calculateOO_Store, VMCMainCal"]}
{"id": "C35", "title": "The Lanczos step picks the energy minimum", "statement": "The coefficient chosen by the power-Lanczos step minimises the energy of (1+alpha H)|psi> over all alpha, so the reported energy is never above the unimproved energy.", "quantifier": "all Hamiltonian moments that come from a self-adjoint operator and a non-eigenstate", "why_tests_cant": "optimality over a continuum", "anchors": ["src/mVMC/physcal_lanczos.c: CalculateEne, CalculateEneByAlpha, PhysCalLanczos_real"]}
{"id": "C36", "title": "Distributed solution is gathered without loss or duplication", "statement": "In the block-cyclic distribution every component of the solution vector is owned by exactly one process row and is written to its own place in the gathered vector.", "quantifier": "every vector length, block size and process grid", "why_tests_cant": "index arithmetic for all grids", "anchors": ["src/mVMC/stcopt_pdposv.c: stcOptMain"]}
{"id": "C37", "title": "Keyword recognition is case-insensitive exact match", "statement": "A keyword in the input is accepted for an entry iff the two words are equal after lower-casing; prefixes and extensions are not accepted.", "quantifier": "every pair of words", "why_tests_cant": "infinitely many words", "anchors": ["src/mVMC/readdef.c: CheckWords, CheckKW"]}
{"id": "C38", "title": "Accepted definition files give in-range tables", "statement": "If reading a definition file reports success then exactly the announced number of entries was stored and every stored site index is inside the lattice; no file content makes the reader write outside its tables.", "quantifier": "every file content", "why_tests_cant": "all malformed files", "anchors": ["src/mVMC/readdef.c: GetTransferInfo, GetLocSpinInfo, GetInfoCoulombIntra, ReadPairDValue, CheckSite, CheckPairSite, CheckQuadSite"]}
{"id": "C39", "title": "Optimisation flags reach the parameter they were written for", "statement": "The flag given in a definition file for a parameter controls exactly that parameter's real part, and its imaginary part only if the parameter is declared complex and the flag is on.", "quantifier": "every file, every combination of parameter groups", "why_tests_cant": "interaction of all groups and modes", "anchors": ["src/mVMC/readdef.c: GetInfoOpt, GetInfoOptOrbitalParalell, GetInfoOptTrans, ReadDefFileIdxPara"]}
{"id": "C40", "title": "Indirect two-body Green functions refer to the right one-body operators", "statement": "The de-duplicated table of one-body operators contains each required operator once and each two-body entry points to the operators named in the file.", "quantifier": "every pair of input files", "why_tests_cant": "all duplication patterns", "anchors": ["src/mVMC/readdef.c: CountOneBodyGForLanczos, GetInfoOneBodyG, GetInfoTwoBodyGEx"]}
{"id": "C41", "title": "Global tables do not overlap", "statement": "All definition tables carved out of the single integer and floating-point arrays are pairwise disjoint and lie inside the allocation computed from the input sizes.", "quantifier": "every combination of input sizes", "why_tests_cant": "all size combinations", "anchors": ["src/mVMC/setmemory.c: SetMemoryDef", "src/mVMC/readdef.c: ReadDefFileNInt (NTotalDefInt, NTotalDefDouble)"]}
{"id": "C42", "title": "Written optimised parameters can be read back", "statement": "Feeding the files of optimised parameters written by one run as initial parameters to the next run restores every parameter group to the written values.", "quantifier": "all parameter values and group sizes", "why_tests_cant": "round trip for all sizes and groups", "anchors": ["src/mVMC/avevar.c: OutputOptData, StoreOptData, CalcAveVar", "src/mVMC/readdef.c: ReadInputParameters"]}
{"id": "C43", "title": "Averages over optimisation steps are the mean and the sample deviation", "statement": "The reported value and error of each parameter are the arithmetic mean and the standard deviation over the stored steps.", "quantifier": "all stored data", "why_tests_cant": "all inputs", "anchors": ["src/mVMC/avevar.c: CalcAveVar"]}
{"id": "C44", "title": "Four-index Lanczos moments are stored at the decoded position", "statement": "The flattened accumulator over pairs of local quantities assigns each of the n^4 index quadruples one entry and each entry the product of the right two local quantities.", "quantifier": "every number of Hamiltonian powers and samples", "why_tests_cant": "all index values", "anchors": ["src/mVMC/vmccal.c: calculateQQQQ_real, calculateQQQQ, calculateQCAQ"]}
{"id": "C45", "title": "RBM ratio equals the quotient of hidden-unit products", "statement": "The blocked evaluation of the Boltzmann-machine ratio equals the product over all hidden units of cosh(new)/cosh(old) times the visible factor, independent of block size and number of threads.", "quantifier": "all inputs, block sizes, thread counts", "why_tests_cant": "thread schedule and block remainder combinations", "anchors": ["src/mVMC/rbm.c: LogRBMRatio, RBMRatio, LogRBMVal"]}
{"id": "C46", "title": "Projection index decoding is consistent everywhere", "statement": "The flat projection index used for the pair matrix, its derivative and the weights decodes to the same (spin quadrature, translation, optional translation) triple in all places and runs through each triple exactly once.", "quantifier": "all projection sizes >= 1", "why_tests_cant": "all sizes", "anchors": ["src/mVMC/slater.c: UpdateSlaterElm_fcmp, SlaterElmDiff_fcmp", "src/mVMC/qp.c: InitQPWeight, UpdateQPWeight"]}
{"id": "C47", "title": "Diagonalisation-mode index table stays inside its array", "statement": "Building the list of optimised parameters never writes outside the list's storage.", "quantifier": "every number of parameters and flag pattern", "why_tests_cant": "memory errors are silent in tests", "anchors": ["src/mVMC/stcopt_pdposv.c: StochasticOptDiag"]}
{"id": "C48", "title": "n-body Green function reduction is exact", "statement": "The recursive removal of coinciding operators in the n-body Green function is exact operator algebra, and the remaining Pfaffian ratio is exact for any number of moved electrons.", "quantifier": "every n, every index list, every configuration", "why_tests_cant": "all coincidence patterns at every n", "anchors": ["src/mVMC/locgrn.c: GreenFuncN, calculateNewPfMN_child"]}
{"id": "C49", "title": "Measured Green functions are accumulated correctly under any thread schedule", "statement": "One call of CalculateGreenFunc (and its general-Sz version) adds exactly w times the one-body, two-body and product-of-one-body local Green functions of the listed operators to the measured arrays, independent of how the loops are divided among threads and how the threads interleave.", "quantifier": "every sample, operator list, number of threads, loop division and interleaving", "why_tests_cant": "interleavings are nondeterministic; tests run one or few threads on small lists", "anchors": ["src/mVMC/calgrn.c: CalculateGreenFunc", "src/mVMC/calgrn_fsz.c: CalculateGreenFunc_fsz"]}
{"id": "C50", "title": "Each derivative is stored in the slot of its own parameter", "statement": "For every variational parameter J, including the weights of the optional translations, the entries 2(J+1) and 2(J+1)+1 of the derivative vector of a sample hold the derivatives with respect to parameter J.", "quantifier": "all parameter counts and layouts", "why_tests_cant": "all layouts; the tests never combine the optional translations with other parameters", "anchors": ["src/mVMC/vmccal.c: VMCMainCal, calculateOptTransDiff", "src/mVMC/setmemory.c: SetMemory"]}
{"id": "C51", "title": "Optimisation force is the energy gradient", "statement": "With exact sampling, the right-hand side of the optimisation step equals minus the step width times the derivative of the energy expectation value with respect to the parameter component it belongs to.", "quantifier": "all Hermitian Hamiltonians, states, parameters and divisions of the samples over processes", "why_tests_cant": "A wrong conjugation or a missing mean-value product changes the gradient only for complex states with non-vanishing imaginary derivatives; a finite run only shows slower convergence.", "anchors": ["src/mVMC/stcopt_dposv.c:79-83", "src/mVMC/vmccal.c:769-794", "src/mVMC/average.c:78-110"]}
{"id": "C52", "title": "Real-number mode gives the same optimisation system", "statement": "When all derivatives are real, the expanded real accumulators have the entries of the complex accumulators on every component that can vary, and the imaginary components are never selected as long as the cut is positive.", "quantifier": "all samples, sizes and divisions over processes", "why_tests_cant": "Tests run one mode per input; an index slip in the expansion mixes parameters and still converges somewhere.", "anchors": ["src/mVMC/stcopt.c:66-83", "src/mVMC/vmccal.c:796-810", "src/mVMC/average.c:115-145", "src/mVMC/setmemory.c:406-408"]}
{"id": "C53", "title": "Lanczos Green functions are expectation values in the improved state", "statement": "The one-body and two-body correlation functions written after the Lanczos step are the expectation values of the corresponding operators in (1+alpha H)|psi>: each accumulated entry is the matrix element of the operator between powers of H, and the final combination divides by the norm of the improved state.", "quantifier": "all finite configuration spaces, Hermitian Hamiltonians, wave functions without zeros, operators and step lengths", "why_tests_cant": "a conjugation slip vanishes for real wave functions, the only ones in the regression tests", "anchors": ["src/mVMC/vmccal.c: calculateQCAQ, calculateQCACAQ, calculateQCACAQDC", "src/mVMC/physcal_lanczos.c: CalculatePhysVal_fcmp, CalculatePhysVal_real"]}
{"id": "C54", "title": "Orbital definition files give antisymmetric and complete pair orbitals", "statement": "Whenever the readers of antiparallel, parallel and general orbital files report success, OrbitalIdx is symmetric and OrbitalSgn antisymmetric; a file that lists every pair once gives every pair its parameter and sign (or sign one without antiperiodic boundaries), and its flags are those of the orbital parameters.", "quantifier": "all lattice sizes, all files (well-formed or not for antisymmetry), all boundary flags and parameter counts", "why_tests_cant": "the regression inputs come from the generator and list every pair in order", "anchors": ["src/mVMC/readdef.c: GetInfoOrbitalAntiParallel, GetInfoOrbitalGeneral, GetInfoOrbitalParallel, GetInfoOptOrbitalParalell"]}
{"id": "C55", "title": "Work arrays sharing an allocation do not overlap", "statement": "The variational parameters, the working configuration, the inverse matrices, the projection weights, the stochastic-reconfiguration matrices and the physical quantities that SetMemory places in common allocations lie inside them and are pairwise disjoint.", "quantifier": "every combination of sizes and modes", "why_tests_cant": "an overlap only shows for particular sizes and modes", "anchors": ["src/mVMC/setmemory.c: SetMemory"]}
{"id": "C56", "title": "Second-order local quantities of the Lanczos step are matrix elements of H times an operator", "statement": "LSLocalQ stores 1, <psi|H|x>/<psi|x>, <psi|H|x>/<psi|x> and <psi|HH|x>/<psi|x>, where HH is the operator product; calHCA, calHCACA and LSLocalCisAjs give <psi|H c+c|x>/<psi|x> and <psi|H c+c c+c|x>/<psi|x>. The working configuration, the inverse matrices and the Pfaffians are restored.", "quantifier": "every sample, Hamiltonian, number of threads, schedule, reduction order, and either side of the threshold that selects the algorithm", "why_tests_cant": "the value is a sum over two hops with sign and coincidence cases; the second algorithm only runs when an amplitude is tiny", "anchors": ["src/mVMC/lslocgrn.c: LSLocalQ, LSLocalCisAjs, calHCA, calHCA1, calHCA2, calHCACA, calHCACA1, calHCACA2, calculateHK, calculateHW, copyMAll", "src/mVMC/lslocgrn_real.c"]}
{"id": "C57", "title": "The reported averages are means over exactly the stored samples", "statement": "Every configuration stored by VMCMakeSample has a non-vanishing amplitude and exact counters. After VMCMainCal on every process and WeightAverageWE, Wc is the number of stored samples of all process groups, Etot the mean over them of <psi|H|x>/<psi|x>, Etot2 the mean of its squared modulus, the Green functions the means of their local values and (general Sz) Sztot the mean magnetisation.", "quantifier": "every trial state, Hamiltonian, number of processes and group size, number of threads, schedule, sequence of random numbers", "why_tests_cant": "sampler, store, recomputation, sample split, OpenMP sums and reductions are tested only together and only statistically", "anchors": ["src/mVMC/vmcmake.c: VMCMakeSample, saveEleConfig", "src/mVMC/vmcmake_fsz.c: VMCMakeSample_fsz, saveEleConfig_fsz", "src/mVMC/vmccal.c: VMCMainCal, clearPhysQuantity", "src/mVMC/vmccal_fsz.c: VMCMainCal_fsz", "src/mVMC/average.c: WeightAverageWE, WeightAverageGreenFunc", "src/mVMC/rbm.c: saveRBMCnt"]}
{"id": "C58", "title": "The real mode measures the real part of the model", "statement": "With AllComplexFlag==0 the stored configurations have non-vanishing amplitude in the trial state built from the real parts of orbitals and projection weights without Boltzmann machine; Etot is the mean of the real part of its local energy and Etot2 the mean of the square of that real part. For real orbitals, weights, transfer and InterAll parameters these and the Green functions equal those of the complex mode (C57). The flag does not ensure that: complex hopping, complex weights or a Boltzmann machine with otherwise real parameters give wrong averages (witnesses).", "quantifier": "every trial state, Hamiltonian, number of processes and group size, number of threads, schedule, sequence of random numbers", "why_tests_cant": "the reference runs use real or complex parameters throughout; mixed inputs run without any warning and give plausible numbers", "anchors": ["src/mVMC/readdef.c: AllComplexFlag", "src/mVMC/locgrn_real.c: GreenFunc1_real, GreenFunc2_real", "src/mVMC/locgrn_fsz_real.c: GreenFunc1_fsz_real, GreenFunc2_fsz_real, GreenFunc2_fsz2_real", "src/mVMC/calham_real.c: CalculateHamiltonian_real", "src/mVMC/calham_fsz_real.c: CalculateHamiltonian_fsz_real", "src/mVMC/qp_real.c: CalculateIP_real", "src/mVMC/vmcmake_real.c: VMCMakeSample_real", "src/mVMC/vmcmake_fsz_real.c: VMCMakeSample_fsz_real", "src/mVMC/vmccal.c: VMCMainCal", "src/mVMC/vmccal_fsz.c: VMCMainCal_fsz"]}
{"id": "C59", "title": "Pfaffian and inverse are recovered from the skew factorisation", "statement": "For a skew matrix b of even size and a factorisation b(i,j) = (U T U^T)(pi i, pi j) as delivered by ZSKTRF/DSKTRF, utu2pfa returns Pf(b) including the sign of the pivots and utu2inv returns the inverse of b, for every panel width chosen by ilaenv (blocked, mirrored path and full path) and every content of the work arrays. If the factorisation reports every vanishing off-diagonal entry of T as a failure, as its documentation says, it fails for the regular matrix of two dimers, so configurations with non-vanishing amplitude are rejected.", "quantifier": "every field, every even size, every skew matrix, every factorisation meeting the contract, every panel width", "why_tests_cant": "the panel width depends on the machine and the blocked path is only taken for matrices larger than the panel; sign errors cancel in ratios; exactly dimerised orbitals are not in the reference inputs", "anchors": ["src/ltl2inv/pfaffian.tcc: utu2pfa", "src/ltl2inv/invert.tcc: sktdsmx, utu2inv", "src/ltl2inv/trmmt.tcc: trmmt", "src/mVMC/matrix.c: calculateMAll_child_fcmp"]}
{"id": "C60", "title": "The Hartree-Fock program solves the mean field of the same Hamiltonian and reports its energy", "statement": "makeham of ComplexUHF is the derivative of the Hartree-Fock energy functional (Wick's theorem) of the Hamiltonian in the definition files, the same operator mVMC averages; it is Hermitian when the lines come in conjugate pairs. In every iteration the printed electron number is Nsize and the printed energy is within 16*Nsite^2*W*rest of the exact expectation value in the Slater determinant of the occupied orbitals, so a converged run reports its energy up to 16*Nsite^2*W*eps. At self-consistency the energy is exact, the orbitals solve the Hartree-Fock equations with the lowest levels occupied and the energy is stationary under changes of the density matrix. A density-density line between a site and itself breaks the energy.", "quantifier": "every lattice size, every set of definition tables, every electron number, every starting Green function, every mixing, every number of iterations", "why_tests_cant": "the reference runs use few interaction types; an error in a Fock term or in the double-counting correction of an unused interaction leaves them unchanged and the iteration still converges to something", "anchors": ["src/ComplexUHF/makeham.c: makeham", "src/ComplexUHF/diag.c: diag", "src/ComplexUHF/green.c: green", "src/ComplexUHF/cal_energy.c: cal_energy", "src/ComplexUHF/UHFmain.c: main", "src/ComplexUHF/matrixlapack.c: ZHEEVall"]}
{"id": "C61", "title": "The orbitals written by the Hartree-Fock program start the variational program in the Hartree-Fock state", "statement": "The parameters ComplexUHF writes are the averages of its pair function over the pairs with the same parameter number, with the signs of the orbital file, plus the random part; both programs read the same numbers and signs from the orbital files. If the pair function respects the numbering, the Slater matrix mVMC builds from the file has as Pfaffian on every configuration the Slater determinant of the occupied Hartree-Fock orbitals up to one common factor (exactly without the random part, in the limit with it), for antiparallel, antiparallel plus parallel and general orbitals, so that its energy is the one ComplexUHF prints within the bound of C60; in antiparallel mode this needs a mean field that does not mix spins and a gap. Electron number and gap: Ne alone in the input leaves no occupied orbital, an odd number of local spins loses one electron, the gap of an empty or full lattice reads outside the array of levels.", "quantifier": "every lattice size, every electron number, every orbital numbering with signs, every Hamiltonian, every configuration, every random part", "why_tests_cant": "a wrong sign, a conjugate or a wrong pairing of orbitals still gives a valid start of the optimisation, which then converges; tests only look at the optimised energy", "anchors": ["src/ComplexUHF/output.c: MakeOrbitalFile", "src/ComplexUHF/output.c: OutputAntiParallel_2", "src/ComplexUHF/output.c: OutputParallel", "src/ComplexUHF/output.c: OutputGeneral", "src/ComplexUHF/readdef.c: ReadDefFileIdxPara", "src/ComplexUHF/readdef.c: JudgeOrbitalMode", "src/mVMC/slater.c: UpdateSlaterElm_fcmp"]}
{"id": "C62", "title": "The spin quadrature projects the trial state to total spin S", "statement": "LegendrePoly is the Legendre polynomial. A run of GaussLeg with tolerance 0 and distinct nodes is exact for polynomials of degree below 2n, and for every continuous integrand the rule is as close to the integral as one likes for all large n and small tolerances. The pair state integrated over spin rotations with the weight \u00bd sin \u03b2 P_S(cos \u03b2) is an eigenstate of S\u00b2 with eigenvalue S(S+1), and stays one under the Gutzwiller, Jastrow, doublon-holon and charge-RBM factors and the sum over translations. Hence the amplitude the program computes from the tables of InitQPWeight tends to that eigenstate, and S\u00b2 \u03a8 - S(S+1) \u03a8 tends to 0 on every configuration with as many up as down electrons. One point projects nothing. The rule is in \u03b2, so for a finite number of points the projection is not exact.", "quantifier": "every lattice size, every pair function, every translation table with signs, every parameter array, every spin S, every configuration, every number of points above a bound, every tolerance below a bound", "why_tests_cant": "a wrong sign or power in the weights still gives a valid wave function with a plausible energy; tests do not measure S\u00b2", "anchors": ["src/mVMC/qp.c: InitQPWeight", "src/mVMC/gauleg.c: GaussLeg", "src/mVMC/legendrepoly.c: LegendrePoly", "src/mVMC/slater.c: UpdateSlaterElm_fcmp"]}
{"id": "C63", "title": "The delayed block updates report the Pfaffians of the proposed configurations", "statement": "With block updates (_pf_block_update), for every sequence of proposed, accepted and rejected hops and exchanges and fresh starts, no buffer is overrun, nothing is divided by zero, and each value handed to the sampler is, for every projection, the Pfaffian of the proposed configuration times (-1)^(Ne+1); ratios of inner products are those of the amplitudes. The sign is wrong for even Ne. With a queue of one hop, which the input allows, every exchange writes outside the buffers. With the projections split between processes the inner product is wrong.", "quantifier": "every number of electrons and sites, every antisymmetric Slater matrices, every queue length, every content of uninitialised buffers, every sequence of events whose accepted configurations have non-vanishing Pfaffians", "why_tests_cant": "the state of an object depends on the whole history of pushes, pops and merges; the block size and the order of rejections decide which branches are combined", "anchors": ["src/pfupdates/updated_tdi.tcc: push_update, pop_update, merge_updates, inv_update", "src/pfupdates/pf_interface.cc: updated_tdi_v_push_pair, updated_tdi_v_get_pfa", "src/mVMC/vmcmake.c: VMCMakeSample"]}
{"id": "C64", "title": "The symmetry projection makes the trial wave function an eigenvector of the lattice symmetries", "statement": "If the first NMPTrans operations of QPTrans with QPTransSgn form a group (signs may multiply up to a common sign, as with antiperiodic boundaries), ParaQPTrans is a one-dimensional representation of it, the OptTrans operations commute with it, and the index tables of the Gutzwiller, Jastrow, doublon-holon and Boltzmann-machine factors are invariant, then the wave function built by InitQPWeight, UpdateQPWeight and UpdateSlaterElm (both modes) is an eigenvector of every operation with eigenvalue ParaQPTrans[a], and expectation values of operator products are unchanged when the operators are moved. Without the group property (not checked by the program) the symmetry is lost.", "quantifier": "every lattice, group, representation, spin quadrature, variational parameters, configuration of any number of electrons, operator product", "why_tests_cant": "the eigenvalue equation must hold on all configurations and for all parameters; tests run a handful of lattices and compare energies", "anchors": ["src/mVMC/qp.c: InitQPWeight, UpdateQPWeight", "src/mVMC/slater.c: UpdateSlaterElm_fcmp", "src/mVMC/slater_fsz.c: UpdateSlaterElm_fsz", "src/mVMC/projection.c: MakeProjCnt", "src/mVMC/rbm.c: MakeRBMCnt"]}
{"id": "C65", "title": "The symmetry tables in memory are those of the definition file", "statement": "If GetInfoTransSym accepts a file without repeated rows, every operation maps every site as listed, with the listed sign for antiperiodic and 1 for periodic boundaries, QPTransInv is the inverse when the operations are permutations, and the coefficients are those of the file. Files with a repeated row, non-permutations and site numbers outside the lattice are not rejected: entries stay unwritten or stores leave the row. GetInfoOptTrans does not check the number of rows at all.", "quantifier": "every lattice size, number of operations, file content and previous memory content", "why_tests_cant": "malformed tables produce no error and a wrong projection; the reader has no way to notice", "anchors": ["src/mVMC/readdef.c: GetInfoTransSym, GetInfoOptTrans", "src/mVMC/setmemory.c: SetMemoryDef"]}
{"id": "C66", "title": "Processes that share one Markov chain stay in lock-step and sample the chain of a single process", "statement": "The processes of one sampling group divide the quantum-number projections, draw their own copies of the same random numbers and decide about every move by themselves. Whatever the local values are, they always call the same collective operations in the same order and finish with the same configuration, counts, inner product and samples. With exact local arithmetic the common result is the chain of the full amplitude over all projections, so the samples do not depend on how many processes form the group, and every process holds exact Pfaffians and inverses of its share. In builds with delayed block updates and more than one process per group this fails: all processes use the Pfaffians of the first projections.", "quantifier": "every number of processes, projections, lattice, sampler parameters, random numbers, previous memory content and local arithmetic (for lock-step)", "why_tests_cant": "deadlocks and divergence of replicated control flow depend on data and on the number of processes; tests run one or two process counts on one chain", "anchors": ["src/mVMC/vmcmake.c: VMCMakeSample, makeInitialSample", "src/mVMC/qp.c: CalculateLogIP_fcmp", "src/mVMC/splitloop.c: SplitLoop", "src/mVMC/matrix.c: CalculateMAll_fcmp"]}
{"id": "C67", "title": "The whole program on any number of MPI processes does not deadlock and all processes use the same parameters", "statement": "The processes of a run belong to three communicators (all processes, one per Markov chain, one per position in the chain). Whatever the order in which the communicators make progress, every execution of start-up, optimisation or measurement ends in the same state after the same number of collective operations. Unless a process stopped, all processes have returned: no process is left waiting in an operation that another process does not enter. All processes then hold the same status, parameters, averages and stored data, and the processes of one chain the same burn sample and position in the random number sequence. One pass of the optimisation replaces the parameters on every process by those that process 0 computes from the normalised sums over all processes, or leaves them alone and reports the error everywhere; the counters written by process 0 count every chain once. The conjugate-gradient solver distributed over the processes computes the same vector as the serial one on all samples.", "quantifier": "every number of processes, group size, interleaving of the communicators, numerical routines, random numbers, sampling parameters and initial memory content", "why_tests_cant": "deadlocks depend on the number of processes, the timing and the data (a failed solution, a rejected start); tests cannot enumerate interleavings", "anchors": ["src/mVMC/vmcmain.c: main, VMCParaOpt, VMCPhysCal", "src/mVMC/vmcmake.c: VMCMakeSample, ReduceCounter", "src/mVMC/average.c: WeightAverageWE, WeightAverageSROpt", "src/mVMC/stcopt.c: StochasticOpt", "src/mVMC/stcopt_cg_impl.c: StochasticOptCG, fn_operate_by_S", "src/mVMC/parameter.c: SyncModifiedParameter"]}
{"id": "C68", "title": "The variable file of an optimisation restores its parameters", "statement": "The text file zvo_var written step by step can be given to another run as initial parameters, which then start from the values of the last written step; every line has 6+3*NPara columns with parameter i in columns 6+3i and 7+3i. The fourth column of zvo_out is the relative variance of the local energy: never negative, and zero exactly if all samples have the same local energy. In binary mode only half of the parameters are written, and for complex local energies the variance column can be negative.", "quantifier": "every number of steps, group sizes, parameter values and samples", "why_tests_cant": "round trip for all sizes and numbers of steps; the loss in binary mode is silent", "anchors": ["src/mVMC/vmcmain.c: outputData", "src/mVMC/initfile.c: InitFile, InitFilePhysCal", "src/mVMC/parameter.c: ReadInitParameter"]}
{"id": "C69", "title": "Random initial parameters respect flags, ranges and reproducibility", "statement": "InitParameter sets correlation factors and frozen parameters to zero, gives each optimised RBM or orbital parameter a value from random numbers of its own within the documented range, copies the given translation weights, and writes nothing else; the number of random numbers drawn depends on the flags alone, so all processes stay at the same place of their sequences. It fails for a real calculation without hidden neurons (division by zero), and for complex RBM parameters the values for a given seed depend on the order in which the compiler evaluates two calls.", "quantifier": "all sizes, flags, random sequences and previous contents", "why_tests_cant": "random values; all flag combinations; dependence on the compiler", "anchors": ["src/mVMC/parameter.c: InitParameter"]}
{"id": "C70", "title": "A step of the optimisation lowers the energy of the trial state", "statement": "With expectation values taken over the exact distribution |Psi|^2, the linear system that SROptimization assembles (overlap matrix with diagonal shift, force vector, selected parameters) has exactly one solution, and the update it makes to the parameters is a descent direction: the derivative of <Psi|H|Psi>/<Psi|Psi> along it is never positive, and zero only if the force vanishes for every selected parameter. Hence for a small enough step length the energy of the updated trial state is strictly lower than before, unless all forces vanish.", "quantifier": "every finite set of configurations, Hermitian Hamiltonian, differentiable trial state, flags, cut-off and shift greater than zero", "why_tests_cant": "a statement about derivatives and about all trial states; a wrong sign or index only makes the optimisation slower or noisier", "anchors": ["src/mVMC/stcopt_pdposv.c: StochasticOpt", "src/mVMC/stcopt.c", "src/mVMC/vmccal.c: VMCMainCal, calculateOO"]}
{"id": "C71", "title": "A sampler step leaves the distribution |Psi|^2 unchanged", "statement": "One iteration of the inner loop of VMCMakeSample or VMCMakeSample_fsz is a Metropolis step for |Psi|^2: from a state of the chain, after the draws that choose a candidate (with all repetitions), the next 32-bit draw u moves to the candidate exactly if u/2^32 < |Psi(new)|^2/|Psi(old)|^2 and otherwise the state is as before; summed over all sequences of draws the transition probabilities add up to one, are in detailed balance with the weights, and leave the weights unchanged under any number of steps. The number of sites divides 2^32, or the draws for target sites are below a multiple of it (remainder bias).", "quantifier": "all numbers of electrons and sites, update paths, weights, states and infinite families of draw sequences", "why_tests_cant": "a statement about probabilities of all sequences of draws, of unbounded length", "anchors": ["src/mVMC/vmcmake.c: VMCMakeSample, makeCandidate_hopping, makeCandidate_exchange, getUpdateType, updateEleConfig, revertEleConfig", "src/mVMC/vmcmake_fsz.c: VMCMakeSample_fsz, makeCandidate_hopping_fsz, makeCandidate_hopping_csz, makeCandidate_exchange_fsz, makeCandidate_LocalSpinFlip_localspin, makeCandidate_LocalSpinFlip_conduction"]}
{"id": "C72", "title": "The energy the program estimates is a variational energy, and exact for eigenstates", "statement": "The local energy that CalculateHamiltonian assigns to a stored sample is the local value of the Hermitian many-body matrix that the definition files describe (Jordan-Wigner matrices on the sets of occupied orbitals), whatever the order of the electrons in EleIdx. Averaged over all configurations of the sampler with weight |Psi|^2 it is <Psi|H|Psi>/<Psi|Psi>; if every line of the definition files has its adjoint this is real and never below the lowest eigenvalue with the particle numbers of the run. The average of its squared modulus is <H^2> if Psi has no zero, and never larger. If Psi is an eigenstate with eigenvalue E, one call of the sampler and of the measurement reports Etot = E and Etot2 = E^2 exactly, for every sequence of random numbers.", "quantifier": "all systems, definition files, trial states, samples, processes and threads; fixed and general Sz", "why_tests_cant": "a statement about all eigenstates and all random sequences; statistical errors hide small biases of the estimator", "anchors": ["src/mVMC/calham.c: CalculateHamiltonian", "src/mVMC/calham_fsz.c: CalculateHamiltonian_fsz", "src/mVMC/vmccal.c: VMCMainCal", "src/mVMC/average.c: WeightAverageWE"]}
{"id": "C73", "title": "The Green functions that are written are expectation values of the operators named in their lines", "statement": "In a run with NVMCCalMode = 1 every line of zvo_cisajs and zvo_cisajscktalt holds the mean over all stored samples of <Psi|O|x>/<Psi|x>, where O is the product of operators that the indices printed on this same line name; there is one line per measured function. The operators that row r of the table of pairs multiplies are the two operators of line r of the two-body file. Averaged over the configurations of the sampler with weight |Psi|^2 the one-body values and the direct two-body values are <Psi|O|Psi>/<Psi|Psi>, zeros of Psi included. The products of one-body values differ from the expectation value exactly by the configurations on which Psi vanishes.", "quantifier": "all systems, tables, trial states, samples, processes; fixed and general Sz", "why_tests_cant": "the missing contributions vanish for generic trial states and are hidden by statistical errors", "anchors": ["src/mVMC/calgrn.c: CalculateGreenFunc", "src/mVMC/calgrn_fsz.c: CalculateGreenFunc_fsz", "src/mVMC/vmcmain.c: outputData", "src/mVMC/average.c: WeightAverageGreenFunc", "src/mVMC/readdef.c: GetInfoTwoBodyGEx"]}
{"id": "C74", "title": "Every function stays inside the scratch memory it requested", "statement": "At every moment of every sequence of calls of the functions that use the common scratch memory (nested calls included), the blocks handed out on each of the six stacks are pairwise disjoint, lie in the live memory object and inside its capacity, whatever the numbers of sites, electrons, projections and hidden variables are. Two places break this: calHCACA2 and calHCACA2_real request NQPFull+3*Nsize numbers per thread and take NQPFull+4*Nsize, which runs out of the allocated memory unless NQPFull+4*Nsize fits into Nsize*Nsize+LapackLWork; and every Pfaffian of three or more hops of the complex mode takes LapackLWork doubles that are never given back.", "quantifier": "all sizes, all sequences and prefixes of calls, all six stacks", "why_tests_cant": "the overrun needs many projections and few electrons and is silent, because an earlier larger request usually left enough room; nested requests free memory only when they grow", "anchors": ["src/mVMC/lslocgrn.c: calHCA1, calHCA2, calHCACA1, calHCACA2", "src/mVMC/lslocgrn_real.c", "src/mVMC/locgrn.c: calculateNewPfMN_child", "src/mVMC/calham.c", "src/mVMC/calgrn.c", "src/mVMC/matrix.c", "src/mVMC/pfupdate.c", "src/mVMC/slater.c", "src/mVMC/stcopt_pdposv.c", "src/mVMC/average.c"]}
{"id": "C75", "title": "The averages of a run converge to the expectation values of the trial state", "statement": "If the random draws are independent and uniform, the number of sites divides 2^32, no amplitude of the sector vanishes and the update path can move every electron that is not a local spin, then from any configuration, after any warm-up and with any positive interval, the mean square difference between the average of the sampled local energies (local one-body and two-body Green functions) and <psi|H|psi>/<psi|psi> (the expectation value of the operators in the input line) is at most a constant divided by the number of samples. The reader's check of local spins ensures this for the update paths with hops. The same holds for the general-Sz sampler with 2Sz free, spin-flipping operators included; there no further condition on the amplitudes is needed. With a fixed even 2Sz and NExUpdatePath 0, 1 or 2 the general-Sz sampler averages over the configurations with N_up - N_down = 2Sz, for operators that conserve Sz. Three cases break it: NExUpdatePath=2 is accepted with itinerant electrons, which then never move, and two local spins with a constant |psi|^2 exchange at every step, so that samples taken after an even number of steps never change; and in the general-Sz sampler with 2Sz free, NExUpdatePath=1 is accepted when local spins fill the sites that the itinerant electrons leave empty, where the number of up electrons never changes.", "quantifier": "all Hamiltonians and Green-function tables of the sector, all starting configurations, warm-ups, intervals and numbers of samples", "why_tests_cant": "convergence is a statement about the distribution of all runs; a chain that never leaves a part of the configurations gives smooth averages with small error bars", "anchors": ["src/mVMC/vmcmake.c: VMCMakeSample, makeCandidate_hopping, makeCandidate_exchange, getUpdateType, updateEleConfig", "src/mVMC/readdef.c: ReadDefFileNInt (check of NLocSpin)", "src/mVMC/vmccal.c: VMCMainCal", "src/mVMC/vmcmake_fsz.c: VMCMakeSample_fsz, makeCandidate_hopping_fsz, makeCandidate_exchange_fsz, makeCandidate_LocalSpinFlip_localspin, makeCandidate_LocalSpinFlip_conduction"]}
{"id": "C76", "title": "With enough samples an optimisation step lowers the energy", "statement": "Under the conditions of the convergence of averages, and if some derivative has non-zero variance, no selected diagonal element lies exactly at the cut and the force on some selected component is not zero, for every small enough step size the following holds with a probability of at least 1 - C/(number of samples): the linear system assembled from the samples has a solution, and the parameters after the update with any solution of it describe a state of strictly lower energy <psi|H|psi>/<psi|psi>. The derivatives that enter are those stored by the code, and they are the derivatives of the wave function along any direction in the space of the correlation, Boltzmann-machine and pair parameters. The same holds in general-Sz mode, with 2Sz free (the Hamiltonian may flip spins) or fixed, without Boltzmann machine.", "quantifier": "all parameters, Hamiltonians of the sector, starting configurations, warm-ups, intervals, choices of optimised components and small step sizes", "why_tests_cant": "a statement about the distribution of the outcome of a step for all numbers of samples; a bias in one average gives a step that still lowers the energy in most tests", "anchors": ["src/mVMC/stcopt.c: StochasticOpt", "src/mVMC/stcopt_dposv.c: stcOptInit, stcOptMain", "src/mVMC/vmccal.c: VMCMainCal, calculateOO", "src/mVMC/average.c: WeightAverageSROpt", "src/mVMC/vmcmake.c: VMCMakeSample", "src/mVMC/vmccal_fsz.c: VMCMainCal_fsz", "src/mVMC/slater_fsz.c: SlaterElmDiff_fsz", "src/mVMC/vmcmake_fsz.c: VMCMakeSample_fsz"]}
{"id": "C77", "title": "The random numbers are those of SFMT-19937 in every build, and different seeds give different numbers", "statement": "After init_gen_rand(seed) the calls of gen_rand32 return, one after the other, the 32-bit words of the unique sequence of 128-bit integers that obeys the recursion of SFMT-19937 and starts from the words of the seed with the certification bit adjusted; the builds with and without SSE2 return the same numbers. No access leaves the array. The array never becomes zero, the sequence is periodic without transient, each list of up to 624 numbers is produced by equally many contents of the array, and the numbers of two seeds, in particular of two process groups, differ within every 624 numbers drawn at the same position.", "quantifier": "all seeds, previous contents of the array, numbers of calls and positions in the sequence, both builds", "why_tests_cant": "tests compare the first numbers of one seed; a wrong index or mask that is used late in a block, or a seeding that maps two seeds to the same state, is not seen", "anchors": ["src/sfmt/SFMT.c: init_gen_rand, period_certification, gen_rand_all, do_recursion, lshift128, rshift128, gen_rand32", "src/sfmt/SFMT-sse2.h: mm_recursion, gen_rand_all", "src/mVMC/vmcmain.c: init_gen_rand(RndSeed+group1)"]}
{"id": "C78", "title": "Every output file holds exactly the lines of its step or sample, and every file is closed", "statement": "A run of the main process opens each output file under a name that no other file of the run has, never prints to or closes a file that is not open, leaves no file open, and touches no other file. The files of sample i hold exactly the header and the lines of sample i (one line per Green function, in order), under the index NDataIdxStart + i. In an optimisation zvo_out, zvo_var (or the binary file) and zvo_SRinfo hold their header and one record per step done, up to and including a step whose linear solver failed; the file of times has one more line if and only if no step failed. The other processes write nothing. A failed run returns a non-zero exit status.", "quantifier": "all prefixes, start indices (also negative), modes, numbers of steps, samples and Green functions, Lanczos modes, text or binary output, flush intervals, sets of failing steps, previous contents of the directory, ranks", "why_tests_cant": "tests compare a few files of runs with one or two samples; a handle opened under one condition and written under another, or two names that coincide for some index, shows only for the combination of options concerned", "anchors": ["src/mVMC/initfile.c: InitFile, InitFilePhysCal, CloseFile, CloseFilePhysCal, FlushFile", "src/mVMC/vmcmain.c: main, VMCParaOpt, VMCPhysCal, outputData", "src/mVMC/vmcclock.c: OutputTime, OutputTimerParaOpt, OutputTimerPhysCal", "src/mVMC/physcal_lanczos.c: output", "src/mVMC/readdef.c: CDataFileHead"]}
{"id": "C79", "title": "Accepted input gives consistent sizes and meets the preconditions of the calculation", "statement": "The first pass over the input accepts exactly the name lists whose files can be opened and have complete heads and whose parameters fit together (orbital files, Ncond, 2Sz, Lanczos mode, spin projection, local spins and update path), and never has undefined behaviour. All sizes of the run are then the announced ones: counts of every table, NPara = correlation factors + orbitals + optimised translations + Boltzmann machine, NQPFull = NSPGaussLeg*|NMPTrans|*NQPOptTrans, 2Ne = NLocSpin + Ncond, block sizes positive multiples of 8. Accepted sizes are usable: at least one projected component, no more translations than the table holds, electrons that fit on the sites, |2Sz| <= 2Ne, the local-spin checks hold for the table that is read.", "quantifier": "all name lists (any subset of the 51 keywords, any heads, missing files), all values of the parameters, both settings of -o", "why_tests_cant": "the checks interact (an else-if hides the Lanczos check behind the number of projection points, the local-spin check sees only a header); tests use well-formed inputs written by one generator", "anchors": ["src/mVMC/readdef.c: ReadDefFileNInt, ReadBuffInt, ReadBuffIntCmpFlg, JudgeOrbitalMode, SetDefaultValuesModPara, GetInfoFromModPara, GetLocSpinInfo"]}
{"id": "C80", "title": "The command line selects exactly the run it describes", "statement": "The words of the command line are accepted exactly if they are options (clusters of b, h, o, e, s, v; m and F with an attached or separate argument) and operands, in any mixture, up to '--'. The argument of -m or -F is a decimal number of an int and nothing else. The first of -h, -v or an unacceptable number ends the program with status 0, 0 or 1. Otherwise the flags hold exactly if their option is present, the last -F gives the flush interval, the last of -m, -e, -s the mode, whatever their order with the other options; the operands are the list of directories (only with -m), the name list and optionally the parameter file, with nothing left over; too few end the program with status 1; names of any length are copied within their buffers. With -m n the first process of group g works in directory g of the list and the number n is between 1 and the number of processes.", "quantifier": "all command lines (any number of words, any characters), all lists of directories, all numbers of processes and definitions", "why_tests_cant": "permutations of options and operands, attached arguments, numbers at the limits of int and names at the limit of the buffers are never tried by the example inputs", "anchors": ["src/mVMC/vmcmain.c: main (options), initMultiDefMode", "src/ComplexUHF/UHFmain.c: main", "src/mVMC/vmcdry.c: main"]}
{"id": "C81", "title": "The Hartree-Fock program reads exactly what its input files say and rejects inconsistent input", "statement": "The name list is accepted exactly if all keywords are known (ignoring case) and none is given twice, and gives each keyword the file on its line. The counts are those announced in the heads of the files (a pair hopping stands for two entries); the combination of orbital files, NCond and 2Sz decides whether the input is accepted, and with orbital files the number of electrons follows from NCond. Each table then holds the lines of its file in order, with all its numbers, and each site its local spin. Input with unknown keywords, missing files, wrong numbers of lines, sites that do not exist, operators that change the spin or fewer electrons than local spins is rejected, without undefined behaviour.", "quantifier": "all name lists, all heads of files, all numbers of sites, all contents of the files", "why_tests_cant": "the examples of the repository contain consistent input only; the outcome depends on the combination of defects in several files, and uninitialised values often look harmless", "anchors": ["src/ComplexUHF/readdef.c: GetFileName, ReadDefFileNInt, ReadDefFileIdxPara, ReadDefFileError"]}
{"id": "C82", "title": "The Hartree-Fock program starts from the Green functions asked for and writes those of its state", "statement": "Without a file of initial Green functions every Green function starts from its own random number, small and real, and the start is Hermitian; with such a file each has the value of the last line that names it and the others are zero, and lines with sites or spins that do not exist are rejected. The file of Green functions has exactly one line for each pair of spin orbitals with its value; given back as initial file it restarts the iteration from the printed numbers. The Green functions written belong to the determinant of the last iteration up to the residue, any part of the start that is not Hermitian and any error of the number of electrons decays geometrically, the eigenvalues are written in ascending order, and the accuracy of the convergence test is 10^-eps_int.", "quantifier": "all numbers of sites, random numbers, initial files, Green functions, Hamiltonians, mixing parameters and numbers of iterations", "why_tests_cant": "the random start differs in every run and the iteration converges from most starts, so a wrong start or a slightly wrong output is not visible in the energies compared", "anchors": ["src/ComplexUHF/initial.c: initial", "src/ComplexUHF/output.c: output, cal_cisajs", "src/ComplexUHF/UHFmain.c: main"]}
{"id": "C83", "title": "The Hartree-Fock program takes its parameters from the lines that name them", "statement": "Each parameter has the number of the last line of modpara.def that names it, in any case, or its default; integer parameters are integers. The file is accepted exactly if 2Sz is not -1 and all numbers can be stored. A file that the main program accepts is accepted as well and gives the common parameters the same values, and the other way round. Misspelt words, missing numbers, fractional counts and more electrons than spin orbitals are rejected.", "quantifier": "all parameter files", "why_tests_cant": "the outcome depends on the order of lines, on missing fields and on misspellings, none of which occur in the examples", "anchors": ["src/ComplexUHF/readdef.c: ReadDefFileNInt (KWModPara), SetInitialValue, CheckWords"]}
{"id": "C84", "title": "The Fourier tool turns the measured Green functions into the correlation functions of the manual", "statement": "The R-vectors of greenr2k are the distinct cells of the geometry file and each is weighted over its shortest images. The index table points to the line of the index file that belongs to the wanted correlation, and the tool stops if one is missing. The values it forms from expectation values in any state are the one-body, density, longitudinal and transverse spin correlations and S.S of the manual. In k-space they are sums of plane waves, evaluated at the requested path and at the points of the supercell, and the errors are standard errors of the mean over the files, which are found by their numbers.", "quantifier": "all lattices, supercells and orders of sites, all index files, all expectation values (linear functionals on the operators of the lattice), all numbers of files", "why_tests_cant": "the tool has no tests of its own; its examples list cell 0 first, have translation symmetry and periodic boundaries, which hides where the terms are added and which correlations get the boundary phase", "anchors": ["tool/greenr2k.F90: read_geometry, set_kpoints, read_corrindx, read_corrfile, fourier_cor, output_cor"]}
{"id": "C85", "title": "Memory is given back once and only after it was allocated; the burn sample restores the tables", "statement": "In every run that comes to its end each address passed to free is NULL or that of a block that was allocated and not yet given back, no table is used before it is made or after it is given back, and the blocks still held at the end are exactly those of an explicit list. Copying the working sample to the burn sample and back stays inside both blocks and restores all tables of the sample (positions, configuration, occupation, counts; in the general-Sz mode also the spins).", "quantifier": "all parameters that decide about allocation, all process ranks in one or several sets of input files, all sequences of work-space requests; all contents of the blocks and all sizes", "why_tests_cant": "leaks and invalid calls of free do not change the printed results, and depend on combinations of modes, ranks and work-space growth that the examples do not run", "anchors": ["src/mVMC/setmemory.c: SetMemoryDef, FreeMemoryDef, SetMemory, FreeMemory", "src/mVMC/workspace.c", "src/mVMC/readdef.c: ReadDefFileNInt", "src/mVMC/vmcmake.c: copyFromBurnSample, copyToBurnSample", "src/mVMC/vmcmake_fsz.c: copyFromBurnSample_fsz, copyToBurnSample_fsz"]}
{"id": "C86", "title": "The Fourier tool takes the right values from the parameter file and its output files are labelled correctly", "statement": "From every name list that the main program accepts the tool takes the same parameter file and lists of Green functions. Every parameter of greenr2k is the value on the last line with its word, whatever the case of the letters. For thermal pure quantum states the list of files fills the allocated array and every average runs over all runs of the step in the name of the output file. The axis of the plot starts at 0 and grows by the Cartesian distance of neighbouring k-points, the labels are at the nodes. The head of an output file names the columns in which real part, imaginary part and errors of each correlation of each pair of orbitals are found. The FermiSurfer file has the occupation of each orbital at each point of the grid in the order of the grid.", "quantifier": "all name lists, all parameter files of words and values, all numbers of runs, steps, nodes, k-points and orbitals, all values", "why_tests_cant": "the tool has no tests; wrong columns or positions look like physics, and the formats fail only for many orbitals", "anchors": ["tool/greenr2k.F90: key2lower, read_filename, output_cor"]}
{"id": "C87", "title": "The file of one-body Green functions of the Lanczos step has one line per operator with its own value", "statement": "After the Lanczos step with Green functions the file zvo_ls_cisajs has exactly one line for each one-body operator that the definition files need, with the four indices of that operator and its average in the state (1 + alpha H) psi; the lookup through the table of numbers stays inside the tables. Without two-body functions the lines are those of the one-body file in their order. All blocks that are taken for the output are given back.", "quantifier": "all lattices, all one-body and two-body definition files, all averages of the sample, all alpha with nonzero norm", "why_tests_cant": "the tests of the Lanczos step compare single files; a wrong number of an operator gives a plausible value under a wrong label", "anchors": ["src/mVMC/physcal_lanczos.c: PhysCalLanczos_fcmp, PhysCalLanczos_real", "src/mVMC/readdef.c: CountOneBodyGForLanczos, GetInfoOneBodyG, GetInfoTwoBodyGEx"]}
{"id": "C88", "title": "Pfaffians and inverse matrices do not depend on the threads that compute them", "statement": "For any number of threads, any distribution of the projections over them and any order of their accesses to the shared variable info, CalculateMAll returns 0 exactly when every projection can be computed; then PfM and InvM are those of the loop of one thread. Any other value that it returns belongs to a projection that fails. Every thread works in its own scratch memory.", "quantifier": "all numbers of threads and projections, all schedules and interleavings, all Slater elements and configurations, all libraries that read only the matrix they are given", "why_tests_cant": "a failing projection and the order in which threads see it are rare and not reproducible", "anchors": ["src/mVMC/matrix.c: CalculateMAll_fcmp, CalculateMAll_fsz, CalculateMAll_real, CalculateMAll_fsz_real"]}
{"id": "C89", "title": "The input files decide which components are optimised", "statement": "After accepted input files the list of optimised components is a function of the files, of the overlap diagonal and of the cut: it has a component exactly if the flag of its parameter is 1 and its diagonal is not below the cut, whatever the memory of the flags contained before.", "quantifier": "all group files with one flag per parameter, all previous contents of the memory, all overlap matrices and cuts", "why_tests_cant": "fresh memory is zero in almost every test run, so a flag that is never written looks like a flag that is 0", "anchors": ["src/mVMC/readdef.c: ReadDefFileIdxPara, GetInfoOpt, GetInfoOptOrbitalParalell", "src/mVMC/stcopt.c: StochasticOpt", "src/mVMC/stcopt_cg_impl.c: fn_StochasticOptCG", "src/mVMC/setmemory.c: SetMemoryDef"]}
{"id": "C90", "title": "Input files are closed and a missing one is reported", "statement": "Every file that is opened while the input is read is closed again, only open files are closed, and a file of the name list that cannot be opened makes the program stop with an error.", "quantifier": "all name lists, all sets of files that can be opened, all points at which a file can turn out to be incomplete", "why_tests_cant": "tests run with complete sets of files, and leaked handles are released by the system at the end", "anchors": ["src/mVMC/readdef.c: GetInfoFromModPara, ReadDefFileNInt, ReadGreen, ReadDefFileIdxPara, ReadInputParameters"]}
{"id": "C91", "title": "Arrays with two indices are complete, disjoint and given back", "statement": "An array allocated with N rows and M columns has N*M zero elements inside newly allocated memory, different indices are different elements, older memory is unchanged, and freeing the array gives back exactly what was allocated. The tables of ComplexUHF are allocated without touching other memory for every input.", "quantifier": "all numbers of rows and columns, all states of the memory, all values stored in the elements, all counts of interactions", "why_tests_cant": "a write of one pointer behind an empty block usually hits padding of the allocator and has no visible effect", "anchors": ["src/common/setmemory.c: i_2d_allocate, d_2d_allocate, cd_2d_allocate and the free functions", "src/ComplexUHF/xsetmem_def.c: setmem"]}
{"id": "C92", "title": "Communicators and process grids are used while they live and are freed", "statement": "In every run each communicator and each BLACS grid is used only between its creation and its release, is alive at most once at any moment, and is released as often as it is created, so that nothing accumulates with the number of optimisation steps.", "quantifier": "all numbers of optimisation steps and data sets, all statuses of the solvers, both modes of the start, every process position in the grid, every moment of the run", "why_tests_cant": "MPI libraries allow some thousand communicators, so a leak of one per step shows only in long optimisations, and a leak on failure is hidden by the end of the program", "anchors": ["src/mVMC/vmcmain.c: main, VMCParaOpt, VMCPhysCal, initMultiDefMode", "src/mVMC/stcopt_pdposv.c: stcOptMain", "src/mVMC/stcopt.c: StochasticOpt"]}
{"id": "C93", "title": "The conversion of RESPACK matrices keeps every element", "statement": "The converted table has exactly one line for each element of the RESPACK file, with the lattice vector, the two orbitals in their order and the value of that element, and its header has the numbers of orbitals and vectors; the centres of the geometry file are the coefficients of the positions in its lattice vectors.", "quantifier": "all numbers of orbitals and vectors, all values, every order of the lines inside a matrix", "why_tests_cant": "a transposed pair of orbitals is invisible for symmetric test matrices, and a lost last matrix is far from the origin and almost zero", "anchors": ["tool/respack2wan90.py: res2wan, ref2geom"]}
