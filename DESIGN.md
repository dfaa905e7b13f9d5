# Formal model of mVMC in Lean 4 — design

Source of truth: `/repo` (issp-center-dev/mVMC, pinned commit), read as text only.

| file | content |
|------|---------|
| `properties.jsonl` | the properties in English |
| `MANIFEST.json` | status and theorem names per property (from `tools/manifest.py` and `tools/notes.json`) |
| `COVERAGE.md` | every model definition with the lines of `/repo` it transcribes; cited lines per file (from `tools/coverage.py`) |
| `AXIOMS.md` | `#print axioms` of every theorem in the manifest (from `tools/axioms.py`) |
| `seeded/LOG.jsonl` | seeded-bug experiments |
| `lean/` | the Lake project |

## 1. Conventions

* Modules live in `lean/Verif/`. For a topic `X`:
  `Model/X.lean` (functions transcribed from the C code, each with a `/repo/file:lines` comment),
  `Spec/X.lean` (small specification that does not call the model),
  `Proof/X.lean` (helper lemmas), `Props/X.lean` (property theorems and concrete cases).
* C `int` is modelled as `Nat`/`Int` unless overflow is the subject (C04 and C41 make overflow an outcome).
* Floating point is modelled by an arbitrary field, `ℝ` or `ℂ` (exact arithmetic). Rounding is not modelled.
  Division by zero is a separate outcome wherever the code divides by something that can be zero;
  it is never silently replaced by Lean's `x / 0 = 0`.
* Arrays are functions or lists. Where out-of-bounds access is the subject, an access outside the
  allocation is a distinct outcome (`Option` or an outcome type), never a default value.
* Random numbers are an input stream of 32-bit draws (`List Nat`). A theorem "for every run" quantifies over every
  stream; a run whose stream ends early has outcome `none`.
* Loops without an obvious bound are recursions on the random stream or on the input file, so they are total;
  that the C loop may not end shows up as "no finite stream finishes it" (C10, C11, C38).
* OpenMP: a parallel loop is a list of per-iteration events; theorems hold for every permutation or every
  interleaving of these events and for every number of threads. Data races are proved by exhibiting an interleaving.
* MPI: a collective is a function of the list of the contributions of all ranks.
* If unchanged code violates the English property, the negation is proved with a concrete witness (suffix `_violated`
  or `_witness`) and the strongest true part is kept as a theorem with the suffix `_partial`.
* Beside each property theorem there is a concrete `example` on non-trivial data, so that no theorem holds only because
  its hypotheses cannot be met.

## 2. Properties: what is modelled, how it is proved, what was found

"Finding" means: the unchanged code does not satisfy the English property (or does something surprising).
Findings are proved unless marked *(not proved)*.

| id | what is modelled | how it is proved | findings |
|----|------------------|------------------|----------|
| C01 | `SplitLoop` as a function of (length, rank, size) | closed-form start index; consecutive, monotone, covers | – |
| C02 | partial sums over the `SplitLoop` ranges, `CalculateIP` | induction over ranks from C01, any commutative monoid | – |
| C03 | group formula of `initMultiDefMode`, `SplitComm`, seeds | arithmetic | `-m 0` and `NSplitSize 0` divide by zero, negative `-m` gives a negative colour |
| C04 | chunk loop of `SafeMpi*` with 32-bit overflow outcome | loop invariant | overflow for counts near INT_MAX |
| C05 | request/get/release state machine | invariant over call lists | growing requests while blocks are held dangle (the code base respects the discipline) |
| C06, C07, C18 | `VMCMakeSample` with hopping, exchange, update, revert, counters, stored samples | invariant by induction over the steps, any stream, any acceptance | – |
| C08 | the same for `VMCMakeSample_fsz`, spin flips, `makeCandidate_LocalSpinFlip…` | invariant | `NExUpdatePath=3` with fixed 2Sz flips local spins and changes 2Sz; LocSpn values other than 0 and 1 break the tables |
| C09 | update then revert, both samplers | functional equality | – |
| C10 | `makeInitialSample(_fsz)` on a stream | loop invariant | the placement need not end |
| C11 | `makeCandidate_exchange` and variants | equivalence with an existential statement | the local-spin-flip search never ends without local spins |
| C12, C13 | `MakeProjCnt`, `UpdateProjCnt(_fsz)` | equality of sums, case split on hit sites | – |
| C14 | `MakeRBMCnt`, `UpdateRBMCnt(_fsz)` | linearity | `UpdateRBMCnt_fsz` omits the general physical layer in a flip (no caller); the general-Sz sampler ignores the RBM altogether *(not proved)* |
| C15 | `LogProjVal`, `LogProjRatio`, `ProjRatio` | `exp` algebra | – |
| C16 | `shiftGJ`, `shiftDH2`, `shiftDH4`, `SetFlagShift`, `SyncModifiedParameter` | counting identities summed over sites | – |
| C17 | Slater rescaling, weights | maximum argument, homogeneity of the Pfaffian | all-zero pair orbitals divide by zero; frozen pair orbitals are rescaled too |
| C19 | candidates as functions of a stream; Metropolis rule | relabelling bijection of streams, counting, algebra | `gen_rand32()%Nsite` is biased if Nsite does not divide 2^32 |
| C20 | Pfaffian on lists (Spec) | induction | – |
| C21–C23 | `CalculateNewPfM(Two)(_fsz)`, `UpdateMAll(Two)(_fsz)`, `CalculateMAll(_fsz)` | skew-matrix identities with explicit sums | accepted move with a vanishing new Pfaffian in one projection divides by zero; `CalculateMAll` status ignored at refresh *(not proved)* |
| C24, C25, C26 | `GreenFunc1/2(_fsz)(_fsz2)` | refinement to second quantisation on ordered occupation lists | `GreenFunc1_fsz2` returns 0 for equal orbitals |
| C27 | `CalculateHamiltonian(_fsz)`, `CalculateHamiltonian0`, Sz and double occupation | linearity, C24/C25, any schedule | first spin column of Transfer never read in Sz mode |
| C28, C29, C46 | `UpdateSlaterElm`, `SlaterElmDiff` (both modes), projection index formulas, `RBMDiff` | algebra; derivative of the whole trial state | – |
| C30 | selection loop, update loop, failure exits of `StochasticOpt`, CG update | list induction | complex CG update is a data race |
| C31–C33 | `stcOptInit`, CG loop, `operate_by_S`, explicit S | inner-product algebra over ℝ | largest diagonal 0; zero tolerance; stale rows of the sample store |
| C34 | `calculateOO` vs `calculateOO_Store`, `VMCMainCal` loop | equality of folds | discarded samples and several chains leave stale rows |
| C35 | `CalculateEne`, `CalculateEneByAlpha` | quadratic optimisation over ℝ | eigenstates and optimum at infinite alpha give NaN; the real mode ignores the error |
| C36 | block-cyclic index map, gather | div/mod bijection | – |
| C37 | `CheckWords`, `CheckKW`, `GetFileName`, `GetInfoFromModPara` | list induction | long words overrun the buffers; missing name/number reuses the previous one; blank-only line rejected |
| C38 | all row readers and index readers of `readdef.c` | loop invariant with out-of-bounds outcome | extra lines write behind the table; short lines reuse old fields; LocSpin, DH2, DH4 are written before the check; spins and indices unchecked; repeated sites leave holes; a word hangs the reader |
| C39 | `GetInfoOpt*`, flag layout | write-set analysis | index column ignored; imaginary parts of frozen parallel orbitals optimised; OptTrans flags overwrite others; missing last flag accepted; inputs with back-flow parameters are always rejected (`C39_backflow_rejected`) |
| C40 | `CountOneBodyGForLanczos`, `ReadGreen`, index tables | invariant over the two passes | unchecked spins; repeated operator; failed first pass not reported; announced number 0 |
| C41, C55 | layout of `SetMemoryDef`, `SetMemory` | prefix sums | negative counts; backflow tables missing in the total; `int` overflow of the total |
| C42, C43 | `StoreOptData`, `OutputOptData`, `CalcAveVar`, `ReadInputParameters`, `ReadInitParameter` | index algebra; variance identity | one averaged step; wrong row counts; row indices out of range; more averaged steps than steps |
| C44 | `calculateQQQQ`, `QCAQ`, `QCACAQ`, `QCACAQDC` | mixed-radix decode | – |
| C45 | blocked `RBMRatio`, thread chunks | product regrouping | threads may enter different worksharing loops |
| C47 | `StochasticOptDiag` table fill with bounds outcome | arithmetic | overflow for every number of parameters (no caller) |
| C48 | `GreenFuncN`, `calculateNewPfMN_child` real and complex | reduction to second quantisation, Pfaffian of a block | complex variant uses an uninitialised `lda` for three or more hops |
| C49 | `CalculateGreenFunc(_fsz)` | any schedule | `calgrn_fsz.c` shares `t`, `u`, `v` between threads |
| C50 | derivative slots, `calculateOptTransDiff` | index algebra | optional-translation derivative written to slot i instead of 2i; general-Sz mode with RBM leaves the last pair slots unwritten (`C50_fsz_rbm_violated`) |
| C51, C52 | force = energy gradient; real mode | derivative of the quotient | – |
| C53 | `PhysCalLanczos` combinations | sesquilinear algebra over ℂ | complex one-body and factorised averages are conjugated; direct average lacks a conjugation |
| C54 | the three orbital readers | write-set analysis | parameter number and spin unchecked, repeated pair accepted, short first line uninitialised |
| C56 | `LSLocalQ`, `LSLocalCisAjs`, `calHCA*`, `calHCACA*` of both files | second quantisation: dual operators, C24/C25/C27/C48 applied at the moved configuration | condition `NoZero`: a projection whose new Pfaffian vanishes divides by zero (witness); thread workspace of `calHCACA2` too small; shared copy counter; with a Boltzmann machine `calHCACA2` uses an uninitialised pointer and `calHCACA1` passes the old counters; complex two-body Hamiltonians meet C48 |
| C57 | `VMCMakeSample(_fsz)` with all hooks filled in, `saveEleConfig`, `VMCMainCal(_fsz)` (complex mode), `WeightAverageWE`, `WeightAverageGreenFunc` | sampler invariants C07–C22 combined, then C27/C49 per sample, C02 over ranks, sum over groups | condition `NoZero` (automatic for `NQPFull = 1`) and a start with non-vanishing overlap; otherwise the chain is stuck (`C57_stuck`); Green functions of the general-Sz loop: `C57_green_fsz_partial` (executions without the race of C49) |
| C58 | the real mode: `locgrn_real.c`, `locgrn_fsz_real.c`, `calham_real.c`, `calham_fsz_real.c`, `qp_real.c`, hooks of `vmcmake_real.c` and `vmcmake_fsz_real.c`, `VMCMainCal(_fsz)` with `AllComplexFlag == 0` | every real function commutes with the embedding of ℝ in ℂ, so C57 transfers to the trial state made of real parts | the flag ignores complex transfer/InterAll parameters, complex projection weights and the Boltzmann machine: three witnesses (`C58_complex_hopping_violated`, `C58_complex_weights_violated`, `C58_rbm_violated`) |
| C59 | `ltl2inv`: `utu2pfa`, `sktdsmx`, `trmmt`, `utu2inv`, and their use in `calculateMAll_child_*` | loops as writes to distinct positions; `U⁻¹`, `T C = U⁻¹`, `G = U⁻ᵀ C` as matrices over `Fin n`; `Pf(B A Bᵀ) = det B · Pf A` (alternating maps), sign of the pivots as sign of a permutation | replaces the assumption `LibOK` by the contracts of SKTRF and TRTRI (`Spec/Factor.lean`); the documented INFO convention of SKTRF rejects the regular dimer matrix (`C59_dimer_rejected`; conditional, the source of pfapack is not in the checkout) |
| C60 | `ComplexUHF`: `makeham`, `diag`, `ZHEEVall`, `green`, `cal_energy`, the iteration of `main` | Wick's theorem for one and two `c†c` pairs from the Cauchy–Binet sum over configurations (`Proof/Wick.lean`); `makeham` as derivative of the energy functional line by line; ℓ¹ estimates for the energy error | contract `ZheevOK` of `zheev_`, met by the spectral theorem (`C60_contract_met`); `HamDistinct`: a CoulombInter or Hund line of a site with itself gives a wrong energy (`C60_same_site_violated`); the random start is not Hermitian and `zheev_` reads one triangle only (`C60_mixing`: the defect decays like `(1-mix)^k`) |
| C61 | `ComplexUHF`: `MakeOrbitalFile`, `OutputAntiParallel(_2)`, `OutputParallel`, `OutputGeneral`, the orbital readers, electron numbers, gap | Pfaffian of a paired set of orbitals = determinant (`pairForm_slater`, from `Pf(BABᵀ) = det B·Pf A`); class averages; the readers of both programs on complete files (`ComplexUHF` accepts incomplete ones, C81); orthogonality of eigenvectors for the antiparallel mode; scaling of expectation values | `Respects` (the pair function has the symmetry of the numbering; otherwise only averages are written, the optimisation starts elsewhere); no quantum-number projection; random part 0 or in the limit; `C61_energy_antiparallel` needs `SpinDiag` and a gap (the random start of `ComplexUHF` mixes spins, so a converged mean field need not be spin diagonal); violated: `C61_electrons_violated`, `C61_odd_spins_violated`, `C61_gap_violated` |
| C62 | `LegendrePoly`, `GaussLeg`, `InitQPWeight` | Legendre differential equation and orthogonality; Gaussian quadrature from the roots; Newton's last step lies near a root (inverse distance bound); Weierstrass for continuous integrands; `S²` as a derivation of alternating functions of the orbital list, `d/dβ` of the rotated Pfaffian is the rotation generator, integration by parts | real numbers instead of `double`; `C62_limit` is about runs of `GaussLeg` that end and whose nodes are further apart than `π(n+1)·eps` (that Newton's iteration converges to distinct roots from the start values is proved for two points only, `C62_two_points_run`); spin-RBM units excluded (they do not commute with `S²`); for finitely many points the projection is not exact (`C62_two_points_inexact`) |
| C63 | `pfupdates` (`updated_tdi.tcc`, `orbital_mat.tcc`, `skmv`, `skslc`, `skr2k`, `pf_interface.cc`), the calls in `vmcmake.c` | low-rank update of Pfaffian and inverse (bordered Pfaffian and Woodbury formula) with the central matrix `[W -1; 1 0]`; invariant that every buffer is what the queue of hops says; `push`, `pop`, `merge` and `initialize` keep it | BLAS calls replaced by their definition; contracts of SKPFA, SKTRF, TRTRI (`C63_library_ltl` reduces the rest to C59); accepted configurations have a non-vanishing Pfaffian for every projection (otherwise `merge_updates` divides by zero); queue of at least two hops for exchanges; violations: `C63_sign_violation`, `C63_pair_overrun`, `C63_split_violation` |
| C64 | `slater.c`, `slater_fsz.c`, `qp.c`, correlation tables (models of C28, C46, C9) | the pair matrix of operation `m` at the moved orbitals is the matrix of `m·a` times signs; the sum over the group is shifted; correlation counters are reindexed | exact arithmetic; group, representation and invariance of the index tables are hypotheses about the input, since the program does not check them (`C64_needs_group`); `C64_ring`, `C64_ring_antiperiodic`, `C64_momentum` give tables that satisfy them |
| C65 | `readdef.c` `GetInfoTransSym`, `GetInfoOptTrans` (table part) | induction over the rows; counting of cells | lines are what `sscanf` converts; partial: repeated rows (`C65_missing_violation`), non-permutations, sites outside the lattice, and any OptTrans table are accepted |
| C66 | `vmcmake.c` `VMCMakeSample`, `makeInitialSample` as executed by every process of `comm1`; `MPI_Allreduce` (sum, max) | a process is a program with collective calls (`Prog`); the joint run (`runRanks`) ends in `mismatch` when the calls differ; induction shows it equals a run on the product state; simulation by the exact chain (`exactSample`) | equal random numbers and burn data on all processes are premises (seed `RndSeed+group1`); exact arithmetic; one order-independent sum for `MPI_Allreduce`; only the Sz-conserving sampler; partial: a move is accepted only if all projections stay regular; violated with `PFAFFIAN_BLOCKED` (`C66_block_violation`) |
| C67 | `vmcmain.c` `main` (after the definition files), `VMCParaOpt`, `VMCPhysCal`; `ReduceCounter`, `WeightAverageWE/SROpt`, `StochasticOpt`, `StochasticOptCG`, `SyncModifiedParameter` as sequences of collective operations of `comm0`, `comm1`, `comm2` | every process is a tree of collective operations (`WProg`); one step (`WStep`) lets any complete communicator proceed; diamond property and a well-founded order give one final state for all interleavings; a calculus `Gets` follows the phases; the serial CG of C32 is recovered | numerical routines are arbitrary functions of the memory of the process; sums are order independent; the reductions of the Green functions are one vector; only the Sz-conserving sampler; a run in which the given random numbers end counts as stopped; `stcopt_pdposv.c` (ScaLAPACK) is not modelled; in `fn_StochasticOptCG_Main` division is total |
| C68 | `vmcmain.c` `outputData` (`zvo_out`, `zvo_var` text and binary), headers of `InitFile` | induction over the records with the reader of C42; weighted variance identity | decimal output of a double is the number itself; violated: binary mode writes `NPara` doubles of `2*NPara` (`C68_binary_violated`); the variance column subtracts `Etot*Etot` (`C68_variance_violated` for complex local energies) |
| C69 | `parameter.c` `InitParameter` | loops over slots in closed form with `Nat.count` of drawn parameters before the slot | `genrand_real2` is a sequence; parameters are `Option ℂ` (`none`: not finite); violated without neurons (`C69_no_neuron_violated`) and by unspecified evaluation order (`C69_order_violated`) |
| C70 | the model of `StochasticOpt` (C30) with exact expectation values | derivative of the Rayleigh quotient along the update = −(force, S⁻¹ force); S + shift positive definite; Fréchet differentiability gives the step length | exact sampling and an exact solver are hypotheses (`ExactSamples`, `Solves`); direct mode (no store, no CG); `sDiagMax`, `redCut`, `staDel` positive |
| C71 | one iteration of the inner loops of `VMCMakeSample` (`szHooks`) and `VMCMakeSample_fsz` (`fszHooks`); spec `Spec/Metropolis.lean` (probability of a set of finite draw streams, Metropolis kernel, one step of a distribution) | prefix-free streams and Kraft's inequality; length-preserving bijection of the streams of a move and of its reverse (`revStream`); acceptance test = ratio of `psi` (`C71_accept`) | draws independent and uniform on 32 bits; acceptance probability `min(1,w)` (32-bit test: up to `2^-32`, `C19_accept_close`); general number of sites only `C71_balance_partial`, `C71_stationary_partial` (remainder bias, `C19_bias_violated`); with RBM one thread, and fixed Sz only |
| C72 | `psi`, the local energy of C27 and the run of C57; spec `Spec/JordanWigner.lean`: fermion operators as matrices over sets of orbitals, sectors of fixed particle numbers and local spins | ordered lists ↔ matrices by the parity of inversions (`jw_act`, `anti_sort`); anticommutation (`jw_anti`, `jw_same`) gives Hermiticity of the Hamiltonian from adjoint pairs of lines (`hamMat_hermitian`); charges of the lines give the conserved sector; spectral theorem | `HamHermitian` (adjoint of every line present), `HamLocal` (lines conserve the electron number of local-spin sites) and, in fixed-Sz mode, `HamSzConserving` are conditions on the input that the program does not check; average over the exact distribution except in `C72_eigenstate` |
| C73 | the measurement of C28/C57, the tables of C40 and the output of the files (`Model/GreenOut.lean`); spec: expectation values of Jordan-Wigner matrices (C72) | one operator is a Hamiltonian with one line; product of local values summed over the states between the two operators (`sum_local_two`) | operators that conserve Sz (fixed-Sz mode) and the electron number of local-spin sites (`GrnSz`, `GrnLocal`): conditions that the reader does not check. **Violated**: `C73_node_violated` (factorised two-body functions miss the configurations where the trial state vanishes; the direct ones do not), `C73_local_violated` (an operator that moves an electron off a local-spin site gets the mean 1/2 although its expectation value in the sampled state is 0) |
| C74 | the scratch-memory calls of all 40 functions that use `workspace.c` (`Model/WorkUse.lean`, nested calls expanded, one list per function) on the allocator of C05 | rounds of request, gets and release are disciplined (C05); prefixes of disciplined histories | `calHCACA2(_real)` takes `Nsize` numbers more than it requests (`C74_calHCACA2_violated`, `C74_calHCACA2_real_violated`); `calculateNewPfMN_child` never gives its doubles back (`C74_rwork_violated`, array unused); only sizes are modelled, not the reads and writes inside a block; `int` products do not wrap; `FreeWorkSpaceAll` forgets the complex stacks (leak at exit) *(not proved)* |
| C75 | the chain of inner steps of `VMCMakeSample` (C71), its samples every `m` steps, the local energies and Green functions of C72/C73; the check of `NLocalSpin` in `readdef.c:621-637` (`Model/PathCheck.lean`) | any two configurations of the sector are joined by proposed moves (`Proof/Reach.lean`, `Proof/ReachF.lean`, `Proof/ReachZ.lean`); some step is rejected with positive probability, so the chain is aperiodic; contraction of a finite reversible chain in the space of mean 0 (`Proof/Ergodic.lean`); mean square error at most `C/(n+1)`, Chebyshev | `NExUpdatePath=2` with itinerant electrons is accepted and frozen (`C75_exchange_violated`); two local spins and constant `\|Ψ\|²` alternate with period 2 (`C75_period_violated`; a path 2 run therefore needs two amplitudes of different size); draws are independent and uniform, which SFMT only approximates; `C75_converge` needs `Nsite` to divide `2^32`, otherwise `C75_converge_partial` with the draws below a multiple of `Nsite`; no vanishing amplitude; general Sz with 2Sz free in `Props/ErgodicF.lean` (`C75_*_fsz`), with 2Sz fixed in `Props/ErgodicZ.lean` (`C75_*_csz`: the sector of given `N↑-N↓`, in which the initial placement starts); `NExUpdatePath=3` leaves that sector (C08); with 2Sz free `NExUpdatePath=1` with local spins and no empty itinerant orbital is accepted and keeps the number of up electrons (`C75_full_band_violated`); the constant `C` is not computed |
| C76 | the samples of C75 accumulated by `VMCMainCal` and averaged by `WeightAverageSROpt` (C30, C70), `SROptO` (C29), selection, linear system and update of `StochasticOpt` | the averages of one process are sample means, so by C75 all of them are close to the exact ones with probability `1 - C/(n+1)` (`Props/SRConverge.lean`); selection, solution and updated parameters depend continuously on the averages away from ties (`Proof/SRStable.lean`); the exact step lowers the energy (C70); the amplitude is differentiable in all parameters together, so its derivative along a line is the sum over the stored entries (`Proof/ParDiff.lean`, `Proof/ParLine.lean`); general Sz: the same argument for any sampler whose averages converge (`Proof/SRStep.lean`), applied to both general-Sz samplers (`Props/SRLowerF.lean`) | one process; weights 1; exact solution of the linear system; the weights of the optional translations are not optimised (their derivatives are stored at wrong places, C50); the size of `δ` and `C` is not computed; conditions of C75; in general Sz the stored derivatives are the right ones only without Boltzmann machine (C50) |
| C77 | `init_gen_rand`, `period_certification`, `gen_rand_all` (portable and SSE2), `gen_rand32`, seed of `main` | words of a 128-bit register as bits; loop invariants of the in-place update against the recursion `SfmtRec` (`Spec/Sfmt.lean`); the recursion determines its first argument, so 156 consecutive elements determine the whole sequence in both directions, which gives injectivity, bijectivity and counting of states | the meaning of the SSE2 intrinsics; `ONLY64`, big endian and AltiVec builds and `gen_rand64`, `fill_array*`, `init_by_array` (no caller) not modelled; that the period is a multiple of 2^19937-1 is not proved; `#eval` of the model gives the ten first numbers of the table distributed with SFMT, the first one is proved (`C77_example`) |
| C78 | `initfile.c` (all functions), the file operations of `main`, `VMCParaOpt`, `VMCPhysCal`, `outputData`, `OutputTime`, `OutputTimer*`, `StochasticOpt` (`zvo_SRinfo`) and `PhysCalLanczos_*`, the prefix of `readdef.c` (`Model/OutFiles.lean`) | the run is a list of operations on handles; execution on a table of handles and files with undefined behaviour for a handle that is not open and a name longer than its buffer; names are injective in tag and index (`fmt03_inj`, `name_inj`); the content of each file is the list of records printed to its handle while it was open (`exec_static`, `Proof/OutFiles.lean`) | output is unbuffered; writes do not fail; records stand for the printed text (its numbers: C35, C68); the files of `OutputOptData` (C42) are left out. Violated: `fopen` is never checked, so a missing directory is undefined behaviour (`C78_fopen_violated`); a prefix of 240 characters passes the reader and overflows `fileName[256]` (`C78_long_head_violated`); `main` drops the return value of `VMCParaOpt`, a failed optimisation exits with 0 (`C78_exit_violated`) |
| C79 | `ReadDefFileNInt`, `ReadBuffInt`, `ReadBuffIntCmpFlg`, `JudgeOrbitalMode`, `SetDefaultValuesModPara`, the file handling of `GetInfoFromModPara` (`Model/ReadSizes.lean`) | the loop over the 51 keywords in the order of the enum, on heads of files; frame lemmas for one file, induction over the list, the four orbital files by cases (`Proof/ReadSizes.lean`); acceptance and sizes in closed form (`Spec/ReadSizes.lean`) | exact integers (overflow: C41); the words of `modpara.def` are those of C37; `CountOneBodyGForLanczos` is a parameter (C40); the values are those of the main process, broadcast to the others; `NTotalDefInt` is in C41; back-flow files are refused. `_partial`: at most one of the files `Orbital`, `OrbitalAntiParallel`. Violated by the code: no `NMPTrans` line gives `NQPFull = 0`; `NMPTrans` > `NQPTrans`, `Ne` > `Nsite`, `2Sz` > `2Ne`, zero or negative sizes are accepted; Lanczos with general orbitals is accepted when `NSPGaussLeg` ≥ 2; odd `NLocSpin` with `Ncond` loses an electron; both antiparallel files are added; the count of local spins is never compared with the table; a listed file that does not exist is passed to `fclose` (`C79_*_violated`, `C79_undefined_iff`) |
| C80 | the options, operands and file names of `main` (`vmcmain.c:49-191`), `initMultiDefMode` (`Model/CmdLine.lean`) | `getopt` with the option string of the code as a machine over words with a pending option; `strtol` on characters; the loop over the options; a grammar of command lines in the other direction (`Spec/CmdLine.lean`); induction over words, options and processes (`Proof/CmdLine.lean`) | `getopt`, `strtol`, `MPI_Comm_split`, `MPI_Scatter` are modelled after their manuals (GNU permutation of operands, so without `POSIXLY_CORRECT`; `long` of 64 bits); `chdir` and the messages are not modelled. `_partial`: names below 256 characters. Violated by the code: text behind a number is ignored; `-m` and `-s` exclude each other by their order; surplus operands are ignored; `-m 0` and negative numbers are accepted; names and directories of 256 characters or more overflow their buffers (`C80_*_violated`). Also the command lines of ComplexUHF and `vmcdry.out` (`Model/CmdSmall.lean`): `[OptParaFile]` and surplus words are ignored (`C80_uhfpara_violated`, `C80_dryextra_violated`) |
| C81 | `ComplexUHF/readdef.c`: `GetFileName`, `ReadDefFileNInt`, `ReadDefFileIdxPara` (`Model/UhfRead.lean`, orbital files in `Model/UhfOut.lean`) | one loop per kind of file with memory that was never written as `none`; `info` is threaded through all files because `ReadDefFileError` returns 0, so that `info = ReadDefFileError(...)` clears an earlier error; induction over lines, then over files; a closed form of the first pass (`Proof/UhfRead.lean`, `Proof/UhfRead2.lean`) | `C81_second_pass_partial` gives undefined behaviour, rejection and the tables for all input without orbital files whose heads are complete (`UhfRegular`); files read by `fscanf` are sequences of numbers, the address `&A[N][0]` that the last `fscanf` evaluates beyond the pointer array is not counted, neither are the stores of the allocation of empty tables and files of unused keywords are not modelled; `modpara.def` is C83. Violated by the code: unknown keywords are stored at index -1, among them all keywords that only the main program knows; a missing file is closed as a null pointer; tables with too few lines are accepted with uninitialised values, with too many overflow; an earlier error is erased by a later short file; wrong sites in an antiparallel orbital file and spin-changing operators are accepted (`C81_*_violated`); `C81_orbital_sites_ap`, `C81_orbital_sites_p` and `C81_orbital_short_violated` say for each orbital file when its wrong sites are reported |
| C82 | `ComplexUHF/initial.c`, `output.c`: the files of eigenvalues and Green functions, `UHFmain.c`: the accuracy (`Model/UhfStart.lean`; the iteration is that of C60) | closed form of the double loop with its count of random numbers; induction over the rows of the initial file; the lists of lines by their keys; the file of Green functions through the reader of C81 back to the start; the iteration by the facts of one step (C60) | exact arithmetic; `genrand_real2` is `gen_rand32()/2^32` with any 32-bit numbers; the number printed is any rational within δ (`C82_restart`); `zheev_` by its contract as in C60; Fock terms on; `Large.G` is one allocation, so a second index outside its row is defined as long as it stays inside. The head that the reader skips has to be put before the file of Green functions by the user. Violated by the code: the random start is Hermitian only by chance (`C82_hermitian` says when; `C82_decay` bounds what is left), a site that does not exist is taken as another spin, a spin that does not exist as another row (`C82_*_violated`) |
| C83 | `ComplexUHF/readdef.c`: `modpara.def`, defaults, boundary flag (`Model/UhfMod.lean`; `CheckWords` is that of C37, the first pass that of C81) | loop with the word and the number that survive from line to line; the chain of comparisons as `find?` on lower-case words, which turns the question of names into closed computations; one induction for acceptance, undefined behaviour and values | lines are skipped or word and number (`RegU`); the five head lines are dropped, only the last is kept as the first `ctmp`; numbers exact. Violated by the code: a parameter without number takes the number of the line before, misspelt words only give a warning, fractions are cut off, more electrons than spin orbitals are accepted (the gap is then read beyond the eigenvalues), and the main program rejects the parameters of this one (`C83_*_violated`) |
| C84 | `tool/greenr2k.F90` (`Model/GreenR2k.lean`) | search of R-vectors and of shortest images as folds, the index table as a fold over lines that the last fitting line wins; expectation values are any linear functional on the matrices of C20's operators, so that the sign of the exchanged `S+S-` lines comes from the anticommutation relations (`C84_flip`); sums over images and cells | geometry, index and value files are complete lists of numbers, sites are on the lattice, numbers exact; `C84_geometry` derives the conditions on the lattice (`R2kGood`) from the lines of the geometry file; `C84_images` needs lengths that are equal or differ by more than the tolerance 10⁻⁶; `C84_values_partial` needs complete index files and, for the density, the same density in cell 0 and cell R, for `S+S-` and `S-S+` that the first R-vector is 0; `C84_measured_partial` and `C84_measured_fsz_partial` put the `|Ψ|²`-averages of the local values (C73) into the value files; `C84_converge_partial`, `_fsz_partial`, `_csz_partial` put the averages over the samples of a run (C75) there: the probability of an error of `ε` or more falls as 1/(number of samples), and `C84_converge_ring` shows that all conditions hold together for a ring of two sites; `C84_fourier_partial` is about k-points of the supercell shifted by the boundary phase (others are interpolated by the shortest images). Violated by the code: the delta term of `S+S-` is added at the first R-vector of the file instead of R = 0; the density of cell 0 is subtracted for every cell; missing one-body lines count as 0 without a message while missing two-body lines stop the program; the boundary phase, which belongs to the one-body function, is applied to all; an R-vector three supercells away from zero is not recognised as zero; files from number 1000 on get the name `_***.dat` (`C84_*_violated`, `C84_delta_witness`) |
| C85 | `setmemory.c`, `workspace.c`, the tables made by `readdef.c` and `initMultiDefMode`, `copyFromBurnSample…`, `copyToBurnSample…` (`Model/Release.lean`) | a run is the list of its `malloc`, `free` and table accesses; a state per address (null, live, freed, number of overwritten blocks); the list is split by address (`memRun_of_blk`), so each address is a finite case; copies as loops with checks of both bounds | one process that comes to its end, `malloc` never fails, sizes of the blocks are C41/C55; local work arrays of other functions and `MPI` objects are not in the list; the requests for work space are any list. The rank condition of `C85_release` holds for the ranks that `main` assigns (`C85_release_run`). Violated by the code: ten blocks are never given back, the RBM tables neither, nor `SROptOO_real`, `SROptO_Store…` and the complex work space; the list of file names is overwritten while it is held; the table of one-body lines is given back by the first process of `MPI_COMM_WORLD` but made by the first process of each group, so the other groups keep it, and it is kept in the Lanczos mode without two-body lines (`C85_kept_violated`, `C85_lines_violated`); the copies for back flow, which no accepted input reaches, leave the blocks (`C85_burn_backflow_violated`) |
| C86 | `tool/greenr2k.F90`: `key2lower`, `read_filename`, `output_cor` (`Model/R2kOut.lean`, `Model/R2kName.lean`) | folds over lines; loops with counters, flattened blocks of equal length; positions compared with the k-points of C84 | a line is a word and a value, of list-directed input only the separators comma and slash are modelled, and only for the name list; the digits of `e15.5` are not modelled; lengths exact. `C86_columns_partial` for at most 20 orbitals, `C86_columns_hphi_partial` for at most 9. `C86_names_partial` for names without comma and slash. Violated by the code: a name with a slash is cut (`C86_names_violated`), an absolute path is not read at all (`C86_absolute_violated`); for more orbitals the columns in the head become asterisks and a line is broken after 1000 numbers (`C86_columns_violated`, `C86_records_violated`); the defaults of the main program for the number of files and the first one are missing, so these variables stay undefined (`C86_default_violated`) |
| C87 | `PhysCalLanczos_fcmp`, `PhysCalLanczos_real`: the lines of `zvo_ls_cisajs` (`Model/LsOut.lean`), on the tables of C40 | the table of operators is written at the number of each operator by every step of both loops, for all inputs (`greenTables_at`); different operators are numbered in order (`assignAll_order`) | complete lines, sites in the lattice and spins 0 or 1 as in C40; values exact, the meaning of the four averages is C53; the real variant is the same loop with a real value. Violated by the code: when the energy cannot be found one block is not freed (`C87_blocks_violated`) |
| C88 | `CalculateMAll_fcmp`, `_fsz`, `_real`, `_fsz_real`: the parallel loop (`Model/MAllPar.lean`; the child and the loop of one thread are those of `Model/PfUpdate.lean`) | three events per iteration; invariant over all prefixes of any order of events: while `info` is 0 every checked iteration is active, every failed child is recorded and the memory is the closed form of the children that ran (`mAll_inv`) | the child is one event (children write to disjoint blocks); memory after a failure is arbitrary (`junk`); the library reads only the matrix (`LibLocal`), reads of `info` are atomic. Violated by the code: `myRWork` of `CalculateMAll_fsz` is shared (`C88_shared_violated`; the child does not use it) |
| C89 | `OptFlag` from the memory over `ReadDefFileIdxPara` to the list of `StochasticOpt` and `StochasticOptCG` (`Model/OptUse.lean`; reader of C39, selection of C30) | the groups are disjoint intervals whose lengths add up to `NPara`, so they cover it (`ivl_cover`, `files_cover`); an entry inside a group is the flag of the file (`foldFlags_mem_eq`) | files without `OptTrans` and with one flag per parameter (`FlagFiles`; the others are C39). Violated by the code: flags of imaginary parts of real groups are not written (`C89_mixed_violated`, `C89_nocut_violated`) |
| C90 | `fopen`/`fclose` of `GetInfoFromModPara`, `ReadDefFileNInt`, `ReadGreen`, `ReadDefFileIdxPara`, `ReadInputParameters` (`Model/InFiles.lean`) | induction over the name list; closing a pointer that is null, unset or not open is undefined behaviour (`none`) | the branches are reduced to `runs to its end` or `returns`; existence does not change during the run. Violated by the code: a missing file (`C90_missing_violated`), handles of `GetInfoFromModPara` (`C90_leak_violated`), early returns (`C90_return_violated`) |
| C91 | `i_2d_allocate`, `d_2d_allocate`, `cd_2d_allocate`, their free functions, `setmem` of ComplexUHF (`Model/ArrAlloc.lean`) | memory of blocks with bounds; invariant of the loop over the rows (`rowPtrs_ok`), division with remainder for different elements | sizes in elements, `malloc` does not fail, products do not wrap; arrays with one index and `cd_3d_allocate` (not called) are left out. Violated by the code: arrays without rows (`C91_empty_violated`), hence every input of ComplexUHF without one of the interactions (`C91_uhf_violated`) |
| C92 | creation, use and release of communicators and of the process grid from `main` over `VMCParaOpt`/`VMCPhysCal` to `stcOptMain`, as a list of events of one process (`Model/CommLife.lean`) | the events run on a state of live handles (`commRun_main`); the number of creations minus releases of a handle is its liveness (`commRun_count`), also for every prefix | with `_mpi_use` and ScaLAPACK; a failing PDPOSV reaches the broadcast status; handles inside BLACS and `MPI_Finalize` not modelled. Violated by the code: `comm0`, `comm1`, `comm2` are never freed (`C92_comms_violated`), a failing PDPOSV leaves its grid (`C92_grid_violated`) |
| C93 | `res2wan` from the lines after the header to the table, and `ref2geom` (`Model/Respack.lean`) | blocks of a file are its matrices (`rSplit_file`); the table of a block has the value of each element (`rFill_spec`), and the lines written are a permutation of the elements (`rBlock_spec`) | a line is the values read from it; no rounding to six decimals; each matrix names every pair of orbitals once; an empty file and the parsing of numbers not modelled. Violated by the code: without an empty line at the end of the file the last matrix is lost (`C93_last_violated`) |

Properties added later are listed at the end of this table's file, `properties.jsonl`; their notes are in `MANIFEST.json`.

Further observations made while reading, not proved: `StochasticOptPDposv`/`StochasticOptDiag` leak their buffers on error
returns;
`CalculateHamiltonian2` drops imaginary parts and passes an uninitialised `rbmCnt`.

## 3. Modelled and not modelled

`COVERAGE.md` lists the modelled lines. Not modelled:

* floating-point rounding, overflow and non-finite values (except where the code tests for them);
* of the `*_real.c` duplicates: the update routines `pfupdate*_real.c`, `matrix.c` and the real Lanczos files are covered by models that
  are generic in the field and not transcribed separately (`COPIES.md`, generated by `tools/copies.py`, lists the functions that are
  equal character by character once the complex type is replaced by the real one; C58 transcribes the Green functions, local energy, sampler hooks and sample
  loop of the real mode; `GreenFuncN_real`, the real overlap matrix and the real CG have their own models);
* `vmcdry.c`, the values of the timers and the printing of progress (the files of `initfile.c` and `vmcclock.c` are C78);
* of `/repo/tool`: the scripts except `respack2wan90.py` (C93); of `greenr2k.F90` the list-directed input, the digits of the output and the messages (the rest is C84, C86);
* of `ComplexUHF`: the screen output and the files of energies per step; the submodules `StdFace`, `pfapack`, `blis` (empty in the checkout); the lower triangle in `pfupdates`; the lower-triangle variants of `ltl2inv` (`ltl2pfa`, `ltl2inv`);
* backflow (`_NOTBACKFLOW` is defined, and `C39_backflow_rejected`: the reader rejects such inputs), `_pf_block_update` only in C63;
* the file system and MPI transport: files are lists of lines or tokens, collectives are functions of all contributions.

## 4. Trusted base

* The Lean 4.33.0 kernel and Mathlib. The theorems depend on `propext`, `Classical.choice` and `Quot.sound` only, many on fewer;
  the list per theorem is `AXIOMS.md`. No `sorry`, no own axioms, no `native_decide`, no `bv_decide`.
* That the definitions in `Model/` transcribe the C code. They are commented with file and lines for comparison.
* Library contracts that appear as explicit hypotheses of theorems, not as axioms:
  * `LibOK` / `LibTotal` (C22): ZSKTRF + `utu2pfa` + `utu2inv` return the Pfaffian and the inverse of a skew matrix when they report
    success, and report success on a regular matrix; C59 derives `LibOK` from `SktrfOK` and `TrtriOK`, the contracts of SKTRF and TRTRI
    (`Spec/Factor.lean`), and shows that `LibTotal` is not met by an SKTRF that reports every zero off-diagonal entry as a failure;
  * `PfaOK` (C48): DSKPFA returns the Pfaffian;
  * DPOSV/PDPOSV solve the linear system (C30, C36);
  * `ZheevOK` (C60): `zheev_` diagonalises the Hermitian matrix given by the upper triangle; `zgemm_` is the matrix product.
* Decimal output with `% .18e` and reading it back is exact (C42).
* In the theorems about the sampler the random generator is an arbitrary stream; no statistical property of SFMT is assumed. C19 counts streams;
  C77 (`C77_uniform`) shows that up to 624 numbers counting streams is the same as counting states of the generator.
