# What the model covers

Generated by `tools/coverage.py`.

## Source files

Lines of a source file inside a range cited by some model definition.

| file | lines | cited |
|---|---|---|
| src/ComplexUHF/UHFmain.c | 146 | 38 |
| src/ComplexUHF/cal_energy.c | 209 | 149 |
| src/ComplexUHF/diag.c | 78 | 53 |
| src/ComplexUHF/green.c | 52 | 27 |
| src/ComplexUHF/include/Def.h | 32 | 1 |
| src/ComplexUHF/include/struct.h | 128 | 0 |
| src/ComplexUHF/initial.c | 68 | 44 |
| src/ComplexUHF/makeham.c | 229 | 206 |
| src/ComplexUHF/matrixlapack.c | 458 | 58 |
| src/ComplexUHF/output.c | 405 | 319 |
| src/ComplexUHF/readdef.c | 1074 | 788 |
| src/ComplexUHF/xsetmem_def.c | 52 | 28 |
| src/ComplexUHF/xsetmem_large.c | 32 | 1 |
| src/common/colmaj.hh | 26 | 4 |
| src/common/setmemory.c | 188 | 52 |
| src/ltl2inv/invert.tcc | 132 | 64 |
| src/ltl2inv/pfaffian.tcc | 52 | 14 |
| src/ltl2inv/trmmt.tcc | 35 | 13 |
| src/mVMC/average.c | 334 | 230 |
| src/mVMC/avevar.c | 262 | 225 |
| src/mVMC/calgrn.c | 214 | 107 |
| src/mVMC/calgrn_fsz.c | 140 | 107 |
| src/mVMC/calham.c | 522 | 243 |
| src/mVMC/calham_fsz.c | 380 | 235 |
| src/mVMC/calham_fsz_real.c | 179 | 146 |
| src/mVMC/calham_real.c | 395 | 228 |
| src/mVMC/gauleg.c | 62 | 31 |
| src/mVMC/include/global.h | 362 | 322 |
| src/mVMC/include/readdef.h | 160 | 75 |
| src/mVMC/include/vmcmake.h | 40 | 1 |
| src/mVMC/initfile.c | 243 | 172 |
| src/mVMC/legendrepoly.c | 50 | 16 |
| src/mVMC/locgrn.c | 476 | 370 |
| src/mVMC/locgrn_fsz.c | 581 | 286 |
| src/mVMC/locgrn_fsz_real.c | 331 | 283 |
| src/mVMC/locgrn_real.c | 476 | 343 |
| src/mVMC/lslocgrn.c | 818 | 723 |
| src/mVMC/lslocgrn_real.c | 793 | 685 |
| src/mVMC/matrix.c | 723 | 256 |
| src/mVMC/parameter.c | 310 | 274 |
| src/mVMC/pfupdate.c | 608 | 134 |
| src/mVMC/pfupdate_fsz.c | 215 | 136 |
| src/mVMC/pfupdate_fsz_real.c | 205 | 15 |
| src/mVMC/pfupdate_real.c | 614 | 15 |
| src/mVMC/pfupdate_two_fcmp.c | 347 | 272 |
| src/mVMC/pfupdate_two_fsz.c | 351 | 272 |
| src/mVMC/pfupdate_two_fsz_real.c | 338 | 34 |
| src/mVMC/pfupdate_two_real.c | 345 | 34 |
| src/mVMC/physcal_lanczos.c | 358 | 242 |
| src/mVMC/projection.c | 452 | 345 |
| src/mVMC/qp.c | 150 | 113 |
| src/mVMC/qp_real.c | 72 | 20 |
| src/mVMC/rbm.c | 580 | 522 |
| src/mVMC/readdef.c | 2751 | 2428 |
| src/mVMC/safempi.c | 94 | 60 |
| src/mVMC/safempi_fcmp.c | 78 | 0 |
| src/mVMC/setmemory.c | 503 | 467 |
| src/mVMC/slater.c | 1506 | 253 |
| src/mVMC/slater_fsz.c | 243 | 212 |
| src/mVMC/splitloop.c | 72 | 39 |
| src/mVMC/stcopt.c | 192 | 161 |
| src/mVMC/stcopt_cg.c | 51 | 9 |
| src/mVMC/stcopt_cg_impl.c | 541 | 433 |
| src/mVMC/stcopt_dposv.c | 87 | 53 |
| src/mVMC/stcopt_pdposv.c | 606 | 297 |
| src/mVMC/vmccal.c | 1006 | 620 |
| src/mVMC/vmccal_fsz.c | 247 | 210 |
| src/mVMC/vmcclock.c | 193 | 130 |
| src/mVMC/vmcdry.c | 43 | 15 |
| src/mVMC/vmcmain.c | 803 | 733 |
| src/mVMC/vmcmake.c | 971 | 538 |
| src/mVMC/vmcmake_fsz.c | 855 | 699 |
| src/mVMC/vmcmake_fsz_real.c | 504 | 304 |
| src/mVMC/vmcmake_real.c | 683 | 193 |
| src/mVMC/workspace.c | 242 | 211 |
| src/pfupdates/orbital_mat.tcc | 66 | 21 |
| src/pfupdates/pf_interface.cc | 160 | 134 |
| src/pfupdates/skmv.tcc | 55 | 25 |
| src/pfupdates/skslc.tcc | 33 | 22 |
| src/pfupdates/updated_tdi.tcc | 566 | 405 |
| src/sfmt/SFMT-params.h | 97 | 2 |
| src/sfmt/SFMT-params19937.h | 46 | 13 |
| src/sfmt/SFMT-sse2.h | 121 | 35 |
| src/sfmt/SFMT.c | 620 | 131 |
| src/sfmt/SFMT.h | 157 | 11 |
| tool/greenr2k.F90 | 1029 | 544 |
| tool/respack2wan90.py | 151 | 101 |

## Source files without any model


## Definitions

Paths relative to `/repo/src/mVMC`.


### Model/ArrAlloc.lean

* `HVal` — src/common/setmemory.c:49-60
* `Heap` — src/common/setmemory.c:29-33
* `hMalloc` — src/common/setmemory.c:31
* `hStore` — src/common/setmemory.c:53
* `hLoadPtr` — src/common/setmemory.c:55
* `hZero` — src/common/setmemory.c:57
* `hFree` — src/common/setmemory.c:39
* `rowPtrs` — src/common/setmemory.c:54-56,98-100,144-146
* `alloc2` — src/common/setmemory.c:49-59,93-103,139-149
* `free2` — src/common/setmemory.c:63-66,108-111,154-157
* `elem2` — src/ComplexUHF/diag.c:44
* `UhfCounts` — src/ComplexUHF/readdef.c:981-999, src/ComplexUHF/UHFmain.c:46
* `uhfTables` — src/ComplexUHF/xsetmem_def.c:28-51
* `allocTables` — src/ComplexUHF/xsetmem_def.c:28-51

### Model/CalHam.lean

* `HamPar` — include/global.h:94-120
* `ompFor` — calham.c:108,115,123,135,150,160,171
* `privCopy` — calham.c:88-99
* `privS` — calham.c:90-101, calgrn.c:50-59
* `privF` — calham_fsz.c:81-91, calgrn_fsz.c:49-60
* `diagLoops` — calham.c:112-135
* `hamThread` — calham.c:89-188
* `calculateHamiltonian` — calham.c:59-193
* `calculateHamiltonian0` — calham.c:198-239, calham_fsz.c:202-243
* `calculateDoubleOccupation` — calham.c:37-57
* `calculateSzF` — calham_fsz.c:32-45
* `hamThreadF` — calham_fsz.c:74-192
* `calculateHamiltonianF` — calham_fsz.c:49-197
* `GrnTab` — include/global.h:158-160
* `GrnAcc` — calgrn.c:32-60
* `setC` — calgrn.c:72,89
* `grnThread` — calgrn.c:50-88
* `accThread` — calgrn.c:93-111
* `calculateGreenFunc` — calgrn.c:32-120
* `GrnEv` — calgrn_fsz.c:65-115
* `GrnFState` — calgrn_fsz.c:39-60
* `grnStepF` — calgrn_fsz.c:66-112
* `GrnEv.thread` — calgrn_fsz.c:65,84
* `grnProgram` — calgrn_fsz.c:65-115
* `GrnRun` — calgrn_fsz.c:65-115
* `accThreadF` — calgrn_fsz.c:117-130
* `calculateGreenFuncF` — calgrn_fsz.c:33-139

### Model/CmdLine.lean

* `OptEv` — vmcmain.c:83
* `OptKind` — vmcmain.c:83
* `optKind` — vmcmain.c:83
* `optString` — vmcmain.c:83
* `optCluster` — vmcmain.c:83
* `getoptAll` — vmcmain.c:83
* `cSpace` — vmcmain.c:97
* `cDigit` — vmcmain.c:97
* `cDigits` — vmcmain.c:97
* `longMax` — vmcmain.c:98
* `cIntMax` — vmcmain.c:110
* `StrtolRes` — vmcmain.c:97
* `cSign` — vmcmain.c:97
* `strtol10` — vmcmain.c:97
* `numArg` — vmcmain.c:96-113
* `CmdVars` — vmcmain.c:55-60, include/global.h:180-186
* `cmdStep` — vmcmain.c:84-168
* `cmdLoop` — vmcmain.c:83-169
* `CmdOut` — vmcmain.c:171-197
* `cmdBuf` — vmcmain.c:49-50
* `copyNames` — vmcmain.c:179-190
* `cmdLine` — vmcmain.c:49-191
* `DirOut` — vmcmain.c:766-786
* `readDirs` — vmcmain.c:766-786
* `childRank` — vmcmain.c:760-761
* `leaderRank` — vmcmain.c:762-763
* `workDir` — vmcmain.c:788-800

### Model/CmdSmall.lean

* `SmallRun` — src/ComplexUHF/UHFmain.c:59-63,72, vmcdry.c:31-42
* `uhfCmd` — src/ComplexUHF/UHFmain.c:59-63,72,81
* `dryCmd` — vmcdry.c:29-43

### Model/CommLife.lean

* `CommH` — vmcmain.c:194,240,244, vmcmain.c:737,763, stcopt_pdposv.c:48,90-91
* `CommEv` — vmcmain.c:194,240,790,801, stcopt_pdposv.c:91,192,221,235-236
* `pdposvEvs` — stcopt_pdposv.c:35-237
* `optStepEvs` — vmcmain.c:379-435,484-489, stcopt_cg_impl.c:73-219, stcopt.c:142,171
* `paraOptEvs` — vmcmain.c:339-510
* `physCalEvs` — vmcmain.c:531-634
* `multiDefEvs` — vmcmain.c:760-803
* `startEvs` — vmcmain.c:193-246
* `mainEvs` — vmcmain.c:193-324

### Model/GreenIdx.lean

* `GOp` — readdef.c:2282,2317
* `sscanRows` — readdef.c:2282,2367
* `gop1` — readdef.c:2282
* `gop2` — readdef.c:298-299, 2328-2339
* `gcell` — readdef.c:2288-2294
* `assignIdx` — readdef.c:279-284, 288-293, 299-304
* `assignAll` — readdef.c:280-307
* `countOneBodyG` — readdef.c:193-315
* `GTab` — readdef.c:2288-2294
* `putOp` — readdef.c:2283-2290, 2319-2326, 2328-2340
* `oneBodyLoop` — readdef.c:2275-2297
* `twoBodyExLoop` — readdef.c:2314-2350
* `greenTables` — readdef.c:575-587, 1044-1052, 2266-2302, 2305-2351

### Model/GreenOut.lean

* `tabOf` — calgrn.c:79-83,129-130
* `outCisAjs` — vmcmain.c:664-670
* `outCisAjsCktAlt` — vmcmain.c:671-676
* `outCisAjsCktAltDC` — vmcmain.c:679-688

### Model/GreenR2k.lean

* `R2V` — tool/greenr2k.F90:300
* `r2kSites` — tool/greenr2k.F90:343-358
* `r2kShifts` — tool/greenr2k.F90:393-395
* `r2kMove` — tool/greenr2k.F90:397
* `r2kLen` — tool/greenr2k.F90:398-399
* `r2kImgStep` — tool/greenr2k.F90:400-410
* `r2kImages` — tool/greenr2k.F90:391-414
* `R2kGeo` — tool/greenr2k.F90:345-360,501,544,599
* `r2kGeoOf` — tool/greenr2k.F90:343-360,390-414,501,681
* `R2kIdx` — tool/greenr2k.F90:480-481
* `R2kIdx.put` — tool/greenr2k.F90:510,515
* `r2kOne` — tool/greenr2k.F90:499-516
* `r2kTwoA` — tool/greenr2k.F90:549-595
* `r2kTwoB` — tool/greenr2k.F90:605-617
* `r2kTwo` — tool/greenr2k.F90:540-618
* `r2kLines` — tool/greenr2k.F90:497-517,538-620
* `r2kTable` — tool/greenr2k.F90:481-620
* `r2kGoes` — tool/greenr2k.F90:622-649
* `r2kIr0` — tool/greenr2k.F90:680-685
* `r2kVal` — tool/greenr2k.F90:678,694-697,716-719
* `r2kCor1` — tool/greenr2k.F90:703-709
* `r2kCor3` — tool/greenr2k.F90:731-738
* `r2kCor4` — tool/greenr2k.F90:740-745
* `r2kCor56` — tool/greenr2k.F90:749,760-766
* `r2kCor` — tool/greenr2k.F90:687-774
* `r2kDot` — tool/greenr2k.F90:410,799-800
* `r2kFmat` — tool/greenr2k.F90:410,795-805
* `r2kCorK` — tool/greenr2k.F90:807-811
* `r2kKpoints` — tool/greenr2k.F90:442-461
* `r2kNk` — tool/greenr2k.F90:438
* `r2kAve` — tool/greenr2k.F90:868-869
* `r2kErr` — tool/greenr2k.F90:873-889
* `r2kTail` — tool/greenr2k.F90:279-281

### Model/InFiles.lean

* `FPtr` — readdef.c:193,1821
* `InSt` — readdef.c:193,1821
* `inOpen` — readdef.c:214
* `inClose` — readdef.c:217,238
* `modParaFiles` — readdef.c:1838-1966
* `readFiles` — readdef.c:383-568,209-240,862-1128,1196-1469
* `thenRead` — readdef.c:363-369,1143-1150,1474-1479
* `readInput` — vmcmain.c:216,226,268, readdef.c:363,383,583, include/readdef.h:63-89

### Model/KeyWord.lean

* `Word` — readdef.c:1496-1520
* `cbuf` — readdef.c:1503-1507,1514
* `strncmp` — readdef.c:1519
* `checkWords` — readdef.c:1497-1521
* `checkKWLoop` — readdef.c:1607-1625
* `checkKW` — readdef.c:1607-1625
* `kwList` — include/readdef.h:33-60
* `KWIdxInt` — include/readdef.h:64-90
* `KwOut` — readdef.c:1607-1625
* `NLLine` — readdef.c:1715-1717
* `getFileNameLoop` — readdef.c:1703-1745
* `getFileName` — readdef.c:1699-1746
* `MPVar` — readdef.c:1825-1970
* `mpList` — readdef.c:1880-1945
* `mpFind` — readdef.c:1850-1960
* `isDouble` — readdef.c:1850-1960
* `toCInt` — readdef.c:1850-1960
* `MPLine` — readdef.c:1847-1875
* `modParaLoop` — readdef.c:1876-1951

### Model/Lanczos.lean

* `LSample` — vmccal.c:255-304
* `lslqEntry` — lslocgrn.c:86-93
* `qqqqAdd` — vmccal.c:837-846
* `qqqqAdds` — vmccal.c:830-849
* `qqqqAddR` — vmccal.c:818-825
* `qqqqAddsR` — vmccal.c:811-828
* `qcaqAdds` — vmccal.c:851-868
* `qcacaqAdds` — vmccal.c:870-892
* `qcacaqDCAdds` — vmccal.c:979-1009
* `lsAverage` — vmccal.c:265-300, average.c:206-303
* `LancOut` — physcal_lanczos.c:270-311
* `calculateEneByAlpha` — physcal_lanczos.c:296-310
* `LancEne` — physcal_lanczos.c:270-296
* `calculateEne` — physcal_lanczos.c:266-294
* `chooseAlpha` — physcal_lanczos.c:66-75, 191-200
* `lanczosCmp` — physcal_lanczos.c:182-204
* `lanczosReal` — physcal_lanczos.c:61-79
* `calculatePhysVal` — physcal_lanczos.c:336-358

### Model/LocGrn.lean

* `GrnEnv` — include/global.h:60-200
* `rbmRatioOne` — rbm.c:64-123
* `projRatioC` — projection.c:50-56
* `greenFunc1` — locgrn.c:41-83
* `greenFunc2Hop` — locgrn.c:138-180
* `greenFunc2` — locgrn.c:87-180
* `greenFunc1F` — locgrn_fsz.c:50-86
* `greenFunc1F2` — locgrn_fsz.c:88-123
* `greenFunc2FHop` — locgrn_fsz.c:181-223
* `greenFunc2F` — locgrn_fsz.c:128-223
* `greenFunc2F2Hop` — locgrn_fsz.c:301-341
* `greenFunc2F2` — locgrn_fsz.c:225-341

### Model/LocGrnN.lean

* `setN` — locgrn.c:206-210
* `shiftDown` — locgrn.c:236-239
* `RedStep` — locgrn.c:217-273
* `scanAnn` — locgrn.c:231-243
* `scanCr` — locgrn.c:258-270
* `scanRed` — locgrn.c:228-273
* `rsOf` — locgrn.c:335-340
* `newPfMNUpper` — locgrn_real.c:348-388
* `newPfMNMat` — locgrn_real.c:390-397
* `calculateNewPfMN` — locgrn_real.c:304-405
* `calculateNewPfMNComplex` — locgrn.c:317-422
* `hopMs` — locgrn.c:281-282
* `hopN` — locgrn.c:275-287
* `unhopN` — locgrn.c:303-309
* `greenFuncNHop` — locgrn.c:275-312
* `greenFuncN` — locgrn.c:192-312, locgrn_real.c:184-300
* `greenFuncNComplex` — locgrn.c:192-424
* `greenFuncNReal` — locgrn_real.c:184-408

### Model/LsLocGrn.lean

* `copyArr` — lslocgrn.c:804-816, lslocgrn_real.c:382-394
* `copyMAll` — lslocgrn.c:804-816, lslocgrn_real.c:382-394
* `OmpRun` — lslocgrn.c:351-368
* `LsRun` — lslocgrn.c:236-447
* `ompForO` — lslocgrn.c:373,385,401,425
* `lst` — lslocgrn.c:389-394
* `accN` — lslocgrn.c:396-397
* `checkGF1` — lslocgrn.c:207-233, lslocgrn_real.c:141-167
* `calHCA1` — lslocgrn.c:236-297, lslocgrn_real.c:180-231
* `hcaThread` — lslocgrn.c:351-438, lslocgrn_real.c:285-369
* `reduceO` — lslocgrn.c:437
* `calHCA2` — lslocgrn.c:301-447, lslocgrn_real.c:235-378
* `calHCA` — lslocgrn.c:180-205, lslocgrn_real.c:104-129
* `checkGF2` — lslocgrn.c:500-546, lslocgrn_real.c:488-534
* `calHCACA1` — lslocgrn.c:548-632, lslocgrn_real.c:536-605
* `hcacaThread` — lslocgrn.c:693-791, lslocgrn_real.c:662-757
* `calHCACA2` — lslocgrn.c:636-800, lslocgrn_real.c:609-766
* `calHCACA` — lslocgrn.c:449-498, lslocgrn_real.c:437-486
* `LsAcc` — lslocgrn.c:122-137
* `lsLoop` — lslocgrn.c:127-134
* `LsChild` — locgrn_real.c:304-405
* `calculateHK` — lslocgrn.c:122-137, lslocgrn_real.c:75-90
* `calculateHW` — lslocgrn.c:139-177, lslocgrn_real.c:396-434
* `lsLocalQ` — lslocgrn.c:76-95, lslocgrn_real.c:45-64
* `lsLocalCisAjs` — lslocgrn.c:98-120, lslocgrn_real.c:770-792
* `lsChildComplex` — locgrn.c:317-422
* `lsChildReal` — locgrn_real.c:304-405
* `hcacaRequest` — lslocgrn.c:664, lslocgrn_real.c:636
* `hcacaUse` — lslocgrn.c:702, lslocgrn_real.c:671
* `hcaRequest` — lslocgrn.c:327, lslocgrn_real.c:264
* `hcaUse` — lslocgrn.c:360, lslocgrn_real.c:294
* `CopySt` — lslocgrn.c:351-368, lslocgrn_real.c:285-299
* `copyStep` — lslocgrn.c:366

### Model/LsOut.lean

* `lsRow` — physcal_lanczos.c:108-111,229-232
* `lsRows` — physcal_lanczos.c:108-111,229-232, vmcmain.c:691-701
* `lsCisAjs` — physcal_lanczos.c:225-233
* `lsBlocks` — physcal_lanczos.c:180-192,261-263

### Model/LtlInv.lean

* `cmAt` — src/common/colmaj.hh:18-21
* `cmSet` — src/common/colmaj.hh:18-21
* `utu2pfa` — src/ltl2inv/pfaffian.tcc:26-39
* `sktdsmx` — src/ltl2inv/invert.tcc:11-28
* `setEye` — src/ltl2inv/invert.tcc:84-87
* `lacpyU` — src/ltl2inv/invert.tcc:90
* `trmmLUTU` — src/ltl2inv/trmmt.tcc:21-22, src/ltl2inv/invert.tcc:112-113
* `trmmtU` — src/ltl2inv/trmmt.tcc:13-25
* `swapLoop` — src/ltl2inv/invert.tcc:109,118
* `utu2inv` — src/ltl2inv/invert.tcc:75-120
* `skLibOf` — matrix.c:371-380

### Model/MAllPar.lean

* `MAllEv` — matrix.c:108,110,112-114
* `MAllEv.idx` — matrix.c:107
* `MAllState` — matrix.c:82,87,106-116
* `mAllStep` — matrix.c:106-116,313-323
* `mAllPar` — matrix.c:82,96-117
* `WkEv` — matrix.c:104,110-111
* `wkPrivate` — matrix.c:303-318,406-420
* `wkShared` — matrix.c:96-111

### Model/MainCal.lean

* `SzMem` — vmcmake.c:45-72
* `SzNew` — vmcmake.c:45-72
* `GrnEnv.szPar` — vmcmake.c:45-72
* `metropolis` — vmcmake.c:191-200
* `szHooks` — vmcmake.c:160-330
* `fszHooks` — vmcmake_fsz.c:148-403
* `szStart` — vmcmake.c:69-82,113-117
* `fszStart` — vmcmake_fsz.c:70-82,113-117
* `EleStore` — setmemory.c:240-290
* `copyAt` — vmcmake.c:453-464
* `saveEleConfig` — vmcmake.c:445-469, rbm.c:308-321
* `saveEleConfigF` — vmcmake_fsz.c:539-566
* `storeRun` — vmcmake.c:334-342
* `storeRunF` — vmcmake_fsz.c:405-415
* `ptrAt` — vmccal.c:116-120
* `loadCfg` — vmccal.c:116-118
* `loadCfgF` — vmccal_fsz.c:68-72
* `loadProj` — vmccal.c:119
* `loadRBM` — vmccal.c:120
* `MainOr` — vmccal.c:115-290
* `PhysAcc` — include/global.h:283-300
* `PhysAcc.clear` — vmccal.c:571-637
* `addE` — vmccal.c:153,189-191
* `mainStep` — vmccal.c:115-307
* `mainStepF` — vmccal_fsz.c:67-225
* `vmcMainCal` — vmccal.c:108-307
* `vmcMainCalF` — vmccal_fsz.c:67-225
* `groupSize` — vmcmain.c:239-247
* `groupCount` — vmcmain.c:239
* `AvgWE` — average.c:41-75
* `weightAverageWE` — average.c:41-75
* `weightAverageGreen` — average.c:200-240

### Model/MainCalF.lean

* `GrnOrF` — calgrn_fsz.c:36-40,65-115
* `mainStepGF` — vmccal_fsz.c:67-225
* `vmcMainCalGF` — vmccal_fsz.c:58-225

### Model/Memory.lean

* `DefSizes` — readdef.c:672-745
* `DefTab` — setmemory.c:37-255
* `carveRows` — setmemory.c:46-50
* `carveAll` — setmemory.c:37-255
* `defLayout` — setmemory.c:42-227
* `setMemoryDef` — setmemory.c:37-227
* `defRow` — setmemory.c:43-227
* `nTotalDefInt` — readdef.c:782-832
* `DblTab` — setmemory.c:229-252
* `dblPtr` — setmemory.c:232-252
* `nTotalDefDouble` — readdef.c:834-842
* `WorkSizes` — setmemory.c:291-460
* `WorkSizes.nSize` — readdef.c:757
* `WorkSizes.nPara` — readdef.c:777
* `WorkSizes.nQPFix` — readdef.c:778
* `WorkSizes.nQPFull` — readdef.c:779
* `WorkSizes.srOptSize` — readdef.c:780
* `WorkTab` — setmemory.c:291-460
* `WorkAlloc` — setmemory.c:291-460
* `workAlloc` — setmemory.c:296-456
* `nLSHam` — include/global.h:303
* `workSize` — setmemory.c:296, 334, 359, 383
* `workPtr` — setmemory.c:298-302, 334-339, 359-360

### Model/MpiCG.lean

* `storePrep` — stcopt_cg_impl.c:258-264,356-425

### Model/MpiRun.lean

* `Comm` — vmcmain.c:239-246
* `CollOp` — average.c:57,97, qp.c:102, vmcmake.c:413,505, stcopt.c:166, parameter.c:131, stcopt_cg_impl.c:382,407,409
* `MVal` — average.c:57, vmcmake.c:505
* `MVal.toNum` — average.c:57
* `MVal.toInt` — vmcmake.c:413
* `MVal.toVec` — average.c:57
* `MVal.toCnt` — vmcmake.c:505
* `WProg` — vmcmain.c:198-637
* `WProg.bind` — vmcmain.c:331-528
* `WProg.waits` — average.c:57
* `WProg.value` — average.c:57
* `WProg.resume` — average.c:57
* `colour` — vmcmain.c:239-246
* `contributions` — average.c:57
* `valueList` — average.c:57
* `maxList` — vmcmake.c:413
* `collect0` — average.c:57
* `Enabled` — average.c:57
* `fire` — average.c:57
* `WStep` — vmcmain.c:331-637
* `WRun` — vmcmain.c:331-637
* `WProg.lift` — vmcmain.c:395
* `size1` — vmcmain.c:239-242
* `allSumV` — average.c:50-71,93-108
* `bcastV` — parameter.c:131, stcopt_cg_impl.c:382
* `Proc` — include/global.h:60-260
* `WholeOps` — vmcmain.c:198-637, stcopt.c:32-190
* `afterSample` — vmcmain.c:395-416, vmcmake.c:345-349
* `samplePhase` — vmcmain.c:353-416
* `counterPhase` — vmcmake.c:496-511
* `srPhase` — stcopt.c:130-190
* `syncPhase` — parameter.c:122-169
* `optStep` — vmcmain.c:339-514
* `optLoop` — vmcmain.c:339-527
* `physStep` — vmcmain.c:549-632
* `physLoop` — vmcmain.c:549-636
* `startUp` — vmcmain.c:257-276
* `mainOpt` — vmcmain.c:257-296
* `mainPhys` — vmcmain.c:257-303
* `CGPrep` — stcopt_cg_impl.c:258-425,428-505
* `vdot` — stcopt_cg.c:26-34
* `opByS` — stcopt_cg_impl.c:356-425
* `CGMem` — stcopt_cg_impl.c:258-300
* `cgProg` — stcopt_cg_impl.c:299-344
* `cgPhase` — stcopt_cg_impl.c:73-249

### Model/MultiDef.lean

* `GroupOutcome` — vmcmain.c:727-763
* `multiDefGroup` — vmcmain.c:742-762, vmcmain.c:95-115
* `splitGroup` — vmcmain.c:239, readdef.c:1930,691
* `groupSeed` — vmcmain.c:257

### Model/OptUse.lean

* `freshFlags` — setmemory.c:43,227
* `flagAt` — stcopt.c:112
* `chosen` — readdef.c:847-1145, stcopt.c:108-126, stcopt_cg_impl.c:136-158
* `chosenRealCG` — stcopt_cg_impl.c:139-143

### Model/OutFiles.lean

* `OutH` — include/global.h:321-336, vmcclock.c:81,142
* `OutRec` — vmcmain.c:640-705, initfile.c:33-66, vmcclock.c:34-48, stcopt.c:157, physcal_lanczos.c:78-142
* `FileOp` — initfile.c:33-204
* `decDigits` — initfile.c:41
* `zeroPad` — initfile.c:41
* `fmt03` — initfile.c:41
* `OutPar` — include/global.h:33-190
* `OutPar.name` — initfile.c:41
* `OutPar.plainName` — initfile.c:45, vmcclock.c:82
* `initFile` — initfile.c:33-70
* `initFilePhysCal` — initfile.c:72-142
* `closeFile` — initfile.c:144-156
* `closeFilePhysCal` — initfile.c:158-190
* `flushFile` — initfile.c:192-204
* `outputTime` — vmcclock.c:34-48
* `writeLines` — vmcmain.c:665-688
* `physCalLanczosOut` — physcal_lanczos.c:63-147,185-268
* `outputDataOps` — vmcmain.c:640-706
* `paraOptSteps` — vmcmain.c:339-516, stcopt.c:147-159, stcopt_cg_impl.c:193-204
* `vmcParaOptOps` — vmcmain.c:331-528
* `physCalSample` — vmcmain.c:546-631
* `vmcPhysCalOps` — vmcmain.c:531-637
* `outputTimer` — vmcclock.c:79-194
* `mainOps` — vmcmain.c:284-317
* `vmcParaOptRet` — vmcmain.c:331-528
* `mainInfo` — vmcmain.c:288-327
* `FileSys` — include/global.h:321-336
* `fileNameMax` — include/global.h:33
* `allH` — include/global.h:321-336
* `execOp` — initfile.c:33-204
* `execOps` — vmcmain.c:284-317
* `startFiles` — include/global.h:321-336
* `readDataFileHead` — readdef.c:1860-1867

### Model/ParamIO.lean

* `OrbKind` — readdef.c:164-192, avevar.c:246-269
* `OrbKind.nOrb` — readdef.c:486-503, 759
* `OrbKind.nAP` — readdef.c:486-503
* `OrbKind.nP` — readdef.c:493-497
* `OrbKind.isGeneral` — readdef.c:164-192
* `IOSizes` — readdef.c:700-777
* `nProj` — readdef.c:760-762
* `nPhys` — readdef.c:737
* `nHid` — readdef.c:738
* `nRBM` — readdef.c:736-739
* `nR` — setmemory.c:298-300
* `nSlater` — setmemory.c:298-302
* `nPara` — readdef.c:777
* `oRBM` — setmemory.c:299
* `oSlater` — setmemory.c:301
* `oOpt` — setmemory.c:302
* `storeOptData` — avevar.c:84-94
* `storeLoop` — vmcmain.c:339, 511-513, setmemory.c:424
* `calcAve` — avevar.c:34-43
* `calcVar` — avevar.c:45-54
* `InKW` — include/readdef.h:76-87
* `PFile` — avevar.c:57-82
* `childFile` — avevar.c:66-82
* `childAll` — avevar.c:66-82
* `OutGroup` — avevar.c:94-260
* `outGroups` — avevar.c:119-277
* `writeFiles` — avevar.c:118-277
* `writeAll` — avevar.c:118-277
* `outputOptData` — avevar.c:96-283
* `scan3` — parameter.c:104-125
* `readTriples` — parameter.c:106-126
* `readInitBody` — parameter.c:103-126
* `readInitParameter` — parameter.c:94-131
* `inOffset` — readdef.c:1229, 1242, 1255, 1268, 1281-1400
* `inLen` — readdef.c:1220-1455
* `inHeadOK` — readdef.c:1220-1455
* `ReadOut` — readdef.c:1183-1490
* `readRows` — readdef.c:1220-1455
* `NameEntry` — include/readdef.h:76-88
* `readInputLoop` — readdef.c:1196-1476
* `readInputParameters` — readdef.c:1183-1476

### Model/Parameter.lean

* `subAll` — parameter.c:181-252
* `shiftGJ` — parameter.c:173-190
* `shiftDH2Step` — parameter.c:203-212
* `shiftDH2` — parameter.c:194-216
* `shiftDH4Step` — parameter.c:228-241
* `shiftDH4` — parameter.c:220-245
* `ShiftFlags` — parameter.c:255-310
* `allOne` — parameter.c:255-310
* `setFlagShift` — parameter.c:247-303
* `syncProj` — parameter.c:134-141
* `maxAbs` — parameter.c:144-147,154-157
* `scaleAll` — parameter.c:159-161,170-174
* `syncModified` — parameter.c:122-169, setmemory.c:298-302

### Model/PathCheck.lean

* `locSpnCheck` — readdef.c:621-637

### Model/PfBlock.lean

* `set2` — src/pfupdates/updated_tdi.tcc:284-285
* `setCol` — src/pfupdates/updated_tdi.tcc:195-198
* `upSkew` — src/pfupdates/skslc.tcc:19-27
* `orbAt` — src/pfupdates/orbital_mat.tcc:45-65
* `dotN` — src/pfupdates/updated_tdi.tcc:302-306
* `skmv` — src/pfupdates/skmv.tcc:13-37
* `skslc` — src/pfupdates/skslc.tcc:12-33
* `BlkLib` — src/pfupdates/updated_tdi.tcc:81-84,334-339,455-463
* `BlkPar` — src/pfupdates/updated_tdi.tcc:20-25
* `Tdi` — src/pfupdates/updated_tdi.tcc:20-51,139-148
* `Tdi.getPfa` — src/pfupdates/updated_tdi.tcc:150
* `tdiInit` — src/pfupdates/updated_tdi.tcc:139-148
* `assemble` — src/pfupdates/updated_tdi.tcc:152-177
* `requireQ` — src/pfupdates/updated_tdi.tcc:180-206
* `requireUMU` — src/pfupdates/updated_tdi.tcc:210-228
* `siteCfg` — src/pfupdates/updated_tdi.tcc:231-247,268-269
* `pushColU` — src/pfupdates/updated_tdi.tcc:270-274
* `pushLoop` — src/pfupdates/updated_tdi.tcc:279-294
* `hopSign` — src/pfupdates/updated_tdi.tcc:339,423,461
* `pushPfa` — src/pfupdates/updated_tdi.tcc:316-339
* `pushUpdate` — src/pfupdates/updated_tdi.tcc:251-344
* `popLoop` — src/pfupdates/updated_tdi.tcc:380-405
* `popUpdate` — src/pfupdates/updated_tdi.tcc:366-428
* `closeGap` — src/pfupdates/updated_tdi.tcc:491-494
* `invUpdate` — src/pfupdates/updated_tdi.tcc:478-530
* `applyHops` — src/pfupdates/updated_tdi.tcc:466-468
* `mergeC` — src/pfupdates/updated_tdi.tcc:441-463
* `mergeUpdates` — src/pfupdates/updated_tdi.tcc:430-476
* `queued` — src/pfupdates/updated_tdi.tcc:354-358
* `pushSafe` — src/pfupdates/updated_tdi.tcc:349-360
* `mmaxMinusTwo` — src/pfupdates/pf_interface.cc:124
* `pushPair` — src/pfupdates/pf_interface.cc:111-136
* `blkLibOf` — src/pfupdates/updated_tdi.tcc:82-84,334,422,458-462
* `blockUpdateSize` — vmcmake.c:88-96
* `orbMat` — src/pfupdates/pf_interface.cc:41-42, vmcmake.c:102-107
* `blkPar` — vmcmake.c:102-107
* `forAllQP` — src/pfupdates/pf_interface.cc:24-157
* `vGetPfa` — src/pfupdates/pf_interface.cc:77-86
* `BlkEv` — vmcmake.c:174-175,200-201,216-218,256-262,283-302,309-326
* `evPush` — vmcmake.c:174,256-259,309-319
* `evPops` — vmcmake.c:215-218,299-302
* `evCfg` — vmcmake.c:165,219,243-249,303-304
* `popAll` — src/pfupdates/pf_interface.cc:148-157
* `blkEvent` — vmcmake.c:174-218,256-302,309-326
* `blkRun` — vmcmake.c:142-328
* `blkStart` — vmcmake.c:102-108,142-328

### Model/PfSampler.lean

* `SamplerPar.pf` — pfupdate.c:39-60
* `FPar.pf` — pfupdate_fsz.c:35-60
* `CarriesPf` — vmcmake.c:178
* `CarriesPfF` — vmcmake_fsz.c:148-403

### Model/PfUpdate.lean

* `addAt` — pfupdate.c:143-215
* `setAt` — pfupdate.c:143-215
* `sumLoop` — pfupdate.c:60-75
* `PfPar` — readdef.c:757-758
* `PfPar.Nsize` — include/global.h:54
* `PfPar.Nsite2` — include/global.h:55
* `rsSz` — pfupdate.c:66-70
* `rsFsz` — pfupdate_fsz.c:60-66
* `PfState` — include/global.h:247-249
* `sltAt` — pfupdate.c:60-66
* `invAt` — pfupdate.c:60-66
* `SkLib` — matrix.c:165-176
* `calculateMAllChild` — matrix.c:332-387
* `calculateMAll` — matrix.c:285-330
* `calculateNewPfM` — pfupdate.c:39-75
* `calculateNewPfMFsz` — pfupdate_fsz.c:35-71
* `updateMAllChild` — pfupdate.c:143-216, pfupdate_fsz.c:138-213
* `updateMAll` — pfupdate.c:119-141
* `updateMAllFsz` — pfupdate_fsz.c:114-136
* `calculateNewPfMTwoChild` — pfupdate_two_fcmp.c:107-184, pfupdate_two_fsz.c:112-189
* `calculateNewPfMTwo` — pfupdate_two_fcmp.c:45-67
* `calculateNewPfMTwoFsz` — pfupdate_two_fsz.c:50-72
* `updateMAllTwoChild` — pfupdate_two_fcmp.c:217-344, pfupdate_two_fsz.c:222-349
* `updateMAllTwo` — pfupdate_two_fcmp.c:189-215
* `updateMAllTwoFsz` — pfupdate_two_fsz.c:194-220
* `calculateIPLocal` — qp.c:110-127

### Model/ProjValue.lean

* `logProjVal` — projection.c:32-39
* `logProjRatio` — projection.c:41-48
* `projRatio` — projection.c:50-57
* `CountsProj` — vmcmake.c:165
* `CountsProjF` — vmcmake_fsz.c:188-192

### Model/Projection.lean

* `ProjPar` — include/global.h
* `ProjPar.NProj` — readdef.c:760-762
* `Arr.add` — projection.c:174-203
* `nUp` — projection.c:158
* `nDn` — projection.c:159
* `makeGutz` — projection.c:73-78
* `makeJast` — projection.c:80-92
* `dh2Site` — projection.c:100-116,215-231
* `makeDH2` — projection.c:94-118,210-233
* `dh4Site` — projection.c:126-148,240-262
* `makeDH4` — projection.c:120-150,235-263
* `makeProjCnt` — projection.c:58-152
* `jSel` — projection.c:184-200
* `updGutz` — projection.c:174-179
* `updJast` — projection.c:181-203
* `clearDH` — projection.c:207-208
* `updateProjCnt` — projection.c:155-266
* `updateProjCntFsz` — projection.c:271-382

### Model/QPWeight.lean

* `legendrePoly` — legendrepoly.c:32-47
* `glPoly` — gauleg.c:44-50
* `glPp` — gauleg.c:51
* `glNewton` — gauleg.c:43-54
* `glStart` — gauleg.c:42
* `glBody` — gauleg.c:42-58
* `gaussLeg` — gauleg.c:32-62
* `SpinQuad` — include/global.h:265-267
* `initSpin` — qp.c:47-77
* `ParGlob.withSpin` — qp.c:38-82

### Model/R2kName.lean

* `r2kWord` — tool/greenr2k.F90:118,123-129
* `r2kRead` — tool/greenr2k.F90:123-129
* `R2kNames` — tool/greenr2k.F90:97-98,102,115
* `r2kNameLine` — tool/greenr2k.F90:117-132
* `r2kNameList` — tool/greenr2k.F90:113-136
* `r2kCalcType` — tool/greenr2k.F90:183-209

### Model/R2kOut.lean

* `r2kLower` — tool/greenr2k.F90:80-91
* `R2kSet` — tool/greenr2k.F90:97-98,101
* `r2kModLine` — tool/greenr2k.F90:150-173
* `r2kModPara` — tool/greenr2k.F90:148-174
* `r2kTpqTails` — tool/greenr2k.F90:228-237
* `r2kTpqNum` — tool/greenr2k.F90:225
* `r2kBlock` — tool/greenr2k.F90:861-869
* `r2kRecipr` — tool/greenr2k.F90:380-382
* `r2kKlen` — tool/greenr2k.F90:837-838
* `r2kXkLine` — tool/greenr2k.F90:836-844
* `r2kXk` — tool/greenr2k.F90:833-846
* `r2kPairs` — tool/greenr2k.F90:903-904,920-921
* `r2kI4` — tool/greenr2k.F90:906
* `r2kHead` — tool/greenr2k.F90:902-917,946-957
* `r2kColsErr` — tool/greenr2k.F90:906-914
* `r2kCols` — tool/greenr2k.F90:951-955
* `r2kSix` — tool/greenr2k.F90:922,961
* `r2kLineErr` — tool/greenr2k.F90:918-926
* `r2kLine` — tool/greenr2k.F90:961
* `r2kRecords` — tool/greenr2k.F90:961
* `r2kFrmsf` — tool/greenr2k.F90:989-998

### Model/RBM.lean

* `RBMPar` — include/global.h:135-145, readdef.c:720-740
* `RBMPar.nPhys` — readdef.c:738
* `RBMPar.nHid` — readdef.c:739
* `RBMPar.nNeuron` — readdef.c:720,724
* `RBMPar.hidden` — rbm.c:202
* `RBMPar.physHidden` — rbm.c:203
* `makeRBMPhys` — rbm.c:209-226
* `makeRBMHid` — rbm.c:228-248
* `makeRBMCoup` — rbm.c:250-286
* `makeRBMCnt` — rbm.c:187-288
* `addHidden` — rbm.c:386-468
* `updateRBMCnt` — rbm.c:386-467
* `updateRBMCntFsz` — rbm.c:470-580
* `CountsRBM` — vmcmake.c:167
* `logWeightRBM` — rbm.c:47-62
* `weightRBM` — rbm.c:30-45
* `rbmFold` — rbm.c:91-92
* `rbmTmp` — rbm.c:94
* `ompChunk` — rbm.c:64-123
* `rbmThreadProd` — rbm.c:98-118
* `rbmUniform` — rbm.c:64-123
* `rbmBlock` — rbm.c:141-181
* `logRBMRatio` — rbm.c:125-184
* `rbmRatio` — rbm.c:64-123

### Model/Ranks.lean

* `Prog` — vmcmake.c:45-425, qp.c:87-127
* `Prog.bind` — vmcmake.c:45-357
* `JOut` — qp.c:87-127
* `Prog.asRet` — qp.c:120
* `Prog.asSum` — qp.c:120
* `Prog.asMax` — vmcmake.c:414
* `Prog.isStuck` — vmcmake.c:418-421
* `Prog.isAbort` — vmcmake.c:418-421
* `collect` — qp.c:120
* `joint` — qp.c:120, vmcmake.c:414
* `runRanks` — vmcmake.c:45-425
* `reduceSum` — qp.c:119-122
* `reduceMax` — vmcmake.c:413-416
* `LocalOps` — vmcmake.c:111,178-186,204,263-269,287,323-326,411
* `ShOps` — vmcmake.c:70-80,115,163-200
* `RB` — vmcmake.c:45-72
* `maybeRefreshR` — vmcmake.c:308-329
* `innerStepR` — vmcmake.c:147-330
* `innerLoopR` — vmcmake.c:147-330
* `outerLoopR` — vmcmake.c:146-343
* `makeInitR` — vmcmake.c:359-425
* `startR` — vmcmake.c:68-138
* `sampleR` — vmcmake.c:45-357
* `pfLocal` — vmcmake.c:111,178-186,204,263-269,287,323-326,411
* `blockLocal` — vmcmake.c:83-110,173-186,256-269,311-326

### Model/ReadDef.lean

* `RdOut` — readdef.c:1973-2380
* `checkSite` — readdef.c:1532-1538
* `checkPairSite` — readdef.c:1551-1563
* `checkQuadSite` — readdef.c:1578-1592
* `DLine` — readdef.c:1973-1995
* `scanI` — readdef.c:1980-1990
* `scanV` — readdef.c:1980-1990
* `rowLoop` — readdef.c:1973-2083
* `rowReader` — readdef.c:1973-2083
* `getTransferInfo` — readdef.c:1973-1997
* `getInfoCoulombIntra` — readdef.c:2017-2036
* `readPairDValue` — readdef.c:2063-2083
* `getInfoTwoBodyG` — readdef.c:2354-2383
* `getInfoOneBodyG` — readdef.c:2266-2302
* `getInfoInterAll` — readdef.c:2420-2460
* `pairHopLoop` — readdef.c:2044-2060
* `readPairHopValue` — readdef.c:2038-2061
* `locSpinLoop` — readdef.c:2003-2012
* `getLocSpinInfo` — readdef.c:1999-2015
* `Tok` — readdef.c:1999-2015,2117-2230
* `lead` — readdef.c:2117-2230
* `fscanI` — readdef.c:2117-2230
* `Tab` — readdef.c:2117-2230
* `Tab.put` — readdef.c:2117-2230
* `Step` — readdef.c:2117-2230
* `entryLoop` — readdef.c:2117-2230
* `getInfoOpt` — readdef.c:2101-2114
* `groupReader` — readdef.c:2117-2230
* `layerBody` — readdef.c:2126-2133, 2650-2658
* `getInfoGutzwiller` — readdef.c:2117-2142
* `getInfoRBM_Layer` — readdef.c:2642-2667
* `jastrowBody` — readdef.c:2150-2168
* `getInfoJastrow` — readdef.c:2144-2175
* `dh2Body` — readdef.c:2186-2195
* `getInfoDH2` — readdef.c:2178-2202
* `dh4Body` — readdef.c:2213-2225
* `getInfoDH4` — readdef.c:2204-2230
* `genLayerBody` — readdef.c:2677-2685
* `getInfoGeneralRBM_Layer` — readdef.c:2669-2694
* `physHiddenBody` — readdef.c:2703-2713
* `getInfoRBM_PhysHidden` — readdef.c:2697-2721
* `genPhysHiddenBody` — readdef.c:2729-2739
* `getInfoGeneralRBM_PhysHidden` — readdef.c:2723-2747

### Model/ReadOrb.lean

* `OrbT` — setmemory.c:154-172
* `OrbT.zero` — setmemory.c:154-172
* `OrbT.set` — readdef.c:2462-2640
* `OrbT.mirror` — readdef.c:2505-2509, 2560-2564, 2610-2614
* `scanO` — readdef.c:2462-2640
* `orbLoop` — readdef.c:2462-2640
* `apStep` — readdef.c:2477-2485
* `apGenStep` — readdef.c:2496-2510
* `orbGenStep` — readdef.c:2549-2565
* `parStep` — readdef.c:2597-2617
* `getInfoOptPar` — readdef.c:2085-2099
* `apSgn` — readdef.c:2487-2493
* `apGenSgn` — readdef.c:2513-2520
* `orbGenSgn` — readdef.c:2568-2575
* `parSgn` — readdef.c:2620-2631
* `orbReader` — readdef.c:2462-2640
* `getInfoOrbitalAntiParallel` — readdef.c:2462-2531
* `getInfoOrbitalGeneral` — readdef.c:2533-2583
* `getInfoOrbitalParallel` — readdef.c:2585-2640
* `optOffset` — readdef.c:906-1079
* `optNumber` — readdef.c:2128-2146, 2170
* `optTransFlags` — readdef.c:2394-2403
* `readFlags` — readdef.c:902-1079
* `readIdxParaFlags` — readdef.c:847-1145
* `readIdxParaFlagsBF` — readdef.c:766-777, 1093-1134

### Model/ReadSizes.lean

* `HdrFile` — readdef.c:114-144
* `readBuffInt` — readdef.c:114-124
* `readBuffIntCmpFlg` — readdef.c:126-144
* `judgeOrbFiles` — readdef.c:164-191
* `NBuf` — readdef.c:317-352
* `nBufDefault` — readdef.c:1756-1823, include/readdef.h:142-160
* `mpDefault` — readdef.c:1756-1823
* `cntKinds` — readdef.c:399-560
* `rbmKinds` — readdef.c:434-472
* `corrKinds` — readdef.c:425-432,474-482
* `hdrStep` — readdef.c:386-566
* `kwOrder` — include/readdef.h:63-90
* `DefFiles` — readdef.c:386-395
* `hdrLoop` — readdef.c:383-566
* `RunSizes` — readdef.c:640-780
* `NOut` — readdef.c:318
* `mpInt` — readdef.c:1880-1945
* `blockAdjust` — readdef.c:371-381
* `setSizes` — readdef.c:640-780
* `readNInt` — readdef.c:340-780
* `readDefFileNInt` — readdef.c:340-368,1825-1970

### Model/ReadTrans.lean

* `TransT` — include/global.h:143-158
* `TransT.fresh` — setmemory.c:174-190
* `putAt` — readdef.c:2251-2253
* `coefLoop` — readdef.c:2241-2248
* `transLoop` — readdef.c:2250-2256
* `getInfoTransSym` — readdef.c:2232-2264
* `optTransLoop` — readdef.c:2404-2416
* `defaultOptTrans` — readdef.c:1138-1144

### Model/RealMode.lean

* `allComplexFlag` — readdef.c:641-642
* `RealEnv` — include/global.h:190-260
* `GrnEnv.real` — vmcmain.c:372-391
* `PfState.cast` — vmccal.c:129, vmccal_fsz.c:82
* `calculateIPR` — qp_real.c:53-71
* `greenFunc1R` — locgrn_real.c:44-76
* `greenFunc2HopR` — locgrn_real.c:132-164
* `greenFunc2R` — locgrn_real.c:80-164
* `greenFunc1FR` — locgrn_fsz_real.c:37-71
* `greenFunc1F2R` — locgrn_fsz_real.c:75-110
* `greenFunc2FHopR` — locgrn_fsz_real.c:167-203
* `greenFunc2FR` — locgrn_fsz_real.c:115-203
* `greenFunc2F2HopR` — locgrn_fsz_real.c:291-329
* `greenFunc2F2R` — locgrn_fsz_real.c:207-329
* `privSR` — calham_real.c:72-81
* `privFR` — calham_fsz_real.c:57-70
* `diagLoopsR` — calham_real.c:92-118
* `hamThreadR` — calham_real.c:71-204
* `calculateHamiltonianR` — calham_real.c:43-210
* `hamThreadFR` — calham_fsz_real.c:56-173
* `calculateHamiltonianFR` — calham_fsz_real.c:32-177
* `calculateHamiltonian0R` — calham_real.c:351-393
* `RMem` — vmcmake_real.c:45-66
* `RNew` — vmcmake_real.c:45-66
* `metropolisR` — vmcmake_real.c:175-181, qp_real.c:49
* `szHooksR` — vmcmake_real.c:150-302
* `fszHooksR` — vmcmake_fsz_real.c:140-390
* `szStartR` — vmcmake_real.c:68-74,102-105
* `fszStartR` — vmcmake_fsz_real.c:60-102
* `saveEleConfigR` — vmcmake_real.c:308
* `saveEleConfigFR` — vmcmake_fsz_real.c:396
* `storeRunR` — vmcmake_real.c:304-310
* `storeRunFR` — vmcmake_fsz_real.c:391-400
* `MainOrR` — vmccal.c:115-290
* `PhysAccR` — include/global.h:240-300
* `mainStepR` — vmccal.c:115-307
* `mainStepFR` — vmccal_fsz.c:67-225
* `vmcMainCalR` — vmccal.c:108-307
* `vmcMainCalFR` — vmccal_fsz.c:67-225

### Model/Release.lean

* `MemVar` — setmemory.c:37-255,291-460, workspace.c:31-62, readdef.c:202,257-262,340,579, vmcmain.c:767
* `MemBlk` — setmemory.c:262
* `MemOp` — setmemory.c:257-289
* `PtrSt` — include/global.h:161
* `MemPar` — vmcmain.c:194-203, include/global.h:60-200
* `ptrStep` — setmemory.c:257-289,466-500
* `MemOp.blk` — setmemory.c:257-289
* `memRun` — setmemory.c:37-504
* `mallocs` — setmemory.c:43-253
* `frees` — setmemory.c:266-287
* `mallocTab` — readdef.c:257-262,579-582, setmemory.c:320-331,366-377
* `freeTab` — readdef.c:309-314, setmemory.c:261-263
* `memRead` — vmcmain.c:766-767, readdef.c:202,257-262,309-314,339-340,576-586,706
* `memSetDef` — setmemory.c:43-253
* `memBF` — setmemory.c:319-331,365-377
* `memSet` — setmemory.c:296-462, workspace.c:34-59
* `WsKind` — workspace.c:82-250
* `wsGrow` — workspace.c:86-88,107-109,128-130,153-160,185-192,217-224
* `wsOps` — workspace.c:82-250
* `memFree` — setmemory.c:466-502, workspace.c:64-80
* `memFreeDef` — setmemory.c:257-289
* `memProg` — vmcmain.c:194-321
* `copyInts` — vmcmake.c:432,441, vmcmake_fsz.c:525,535
* `burnLen` — vmcmake.c:430,439
* `burnLenF` — vmcmake_fsz.c:523,533
* `burnLenBF` — vmcmake.c:903,912
* `burnSize` — setmemory.c:334,343
* `burnTables` — setmemory.c:334-347

### Model/Respack.lean

* `RLine` — tool/respack2wan90.py:41-45,56,62-63
* `rSplit` — tool/respack2wan90.py:38-45
* `rFill` — tool/respack2wan90.py:58-63
* `rBlock` — tool/respack2wan90.py:54-63
* `rOut` — tool/respack2wan90.py:79-83
* `rBlocks` — tool/respack2wan90.py:54-63,78-83
* `res2wan` — tool/respack2wan90.py:24-83
* `wtLoop` — tool/respack2wan90.py:72-75
* `wtLines` — tool/respack2wan90.py:72-77
* `ref2geom` — tool/respack2wan90.py:86-126

### Model/SR.lean

* `Samp` — vmccal.c:136-300
* `Acc` — vmccal.c:571-637
* `Acc.clear` — vmccal.c:565-590
* `ooAdds` — vmccal.c:769-794
* `hoAdds` — vmccal.c:776-781
* `sampleStep` — vmccal.c:104-240
* `ooStore` — vmccal.c:692-726
* `mainCal` — vmccal.c:100-310
* `ooAddsR` — vmccal.c:796-810
* `sampleStepR` — vmccal.c:218-229, setmemory.c:406-407
* `mainCalR` — vmccal.c:136-310
* `avgR` — average.c:115-145
* `totalW` — average.c:41-70
* `avgOO` — average.c:78-110
* `avgHO` — average.c:78-113
* `expandReal` — stcopt.c:70-83
* `sDiag` — stcopt.c:88-96
* `sDiagMax` — stcopt.c:99-105
* `smatToPara` — stcopt.c:110-126, stcopt_cg_impl.c:134-158
* `paraAdd` — stcopt.c:178-185
* `updatePara` — stcopt.c:162-187
* `paraAddReal` — stcopt_cg_impl.c:222-224
* `UpdEv` — stcopt_cg_impl.c:217-231
* `UpdEv.iter` — stcopt_cg_impl.c:221-238
* `updEv` — stcopt_cg_impl.c:221-238
* `UpdRun` — stcopt_cg_impl.c:221-238
* `updatePar` — stcopt_cg_impl.c:217-231
* `smat0` — stcopt_dposv.c:60-76
* `smat` — stcopt_dposv.c:60-76
* `gvec` — stcopt_dposv.c:79-83
* `numroc` — stcopt_pdposv.c:90-110
* `globalIdx` — stcopt_pdposv.c:126,132
* `pSmat` — stcopt_pdposv.c:139-155
* `gatherLocal` — stcopt_pdposv.c:205-216
* `gatherAll` — stcopt_pdposv.c:219
* `diagWrites` — stcopt_pdposv.c:268-282
* `xdot` — stcopt_cg.c:26-34
* `stcOs` — stcopt_cg_impl.c:468-483
* `operateByS` — stcopt_cg_impl.c:356-425
* `CGSt` — stcopt_cg_impl.c:258-354
* `cgStep` — stcopt_cg_impl.c:302-343
* `cgLoop` — stcopt_cg_impl.c:299-344
* `cgMain` — stcopt_cg_impl.c:258-350

### Model/SafeMpi.lean

* `intMax` — safempi.c:36-94
* `mpiSendMax` — safempi.c:29
* `ChunkOutcome` — safempi.c:36-94
* `chunkLoop` — safempi.c:41-45,57-61,73-77,89-93
* `safeMpi` — safempi.c:36-94
* `applyChunks` — safempi.c:36-94

### Model/Sampler.lean

* `Arr` — vmcmake.c:585-604
* `Arr.set` — vmcmake.c:585-604
* `EleCfg` — include/global.h
* `SamplerPar` — include/global.h:40-90
* `Hop` — vmcmake.c:515-545
* `updateEleConfig` — vmcmake.c:585-593
* `revertEleConfig` — vmcmake.c:595-603
* `coin` — src/sfmt/SFMT.h:100-110
* `pickItinerant` — vmcmake.c:522-526
* `pickTarget` — vmcmake.c:528-537
* `makeCandidateHopping` — vmcmake.c:515-545
* `hasSingle` — vmcmake.c:552-558
* `pickSingleAny` — vmcmake.c:564-568
* `pickSingleSpin` — vmcmake.c:569-573
* `makeCandidateExchange` — vmcmake.c:548-582
* `UpdateType` — include/vmcmake.h:35
* `getUpdateType` — vmcmake.c:606-629
* `partnerHop` — vmcmake.c:232-245
* `Hooks` — vmcmake.c:147-330
* `SState` — vmcmake.c:45-72
* `maybeRefresh` — vmcmake.c:308-329
* `innerStep` — vmcmake.c:147-330
* `innerLoop` — vmcmake.c:147-330
* `outerLoop` — vmcmake.c:146-343
* `nOutStep` — vmcmake.c:140
* `vmcMakeSample` — vmcmake.c:140-351
* `pickFreeElectron` — vmcmake.c:380-383
* `placeLocal` — vmcmake.c:377-387
* `pickFreeSite` — vmcmake.c:393-395
* `placeItinerant` — vmcmake.c:390-400
* `initialPass` — vmcmake.c:368-407
* `InitOutcome` — vmcmake.c:359-425
* `makeInitialSample` — vmcmake.c:359-425

### Model/SamplerFsz.lean

* `FCfg` — include/global.h
* `FPar` — include/global.h:40-90
* `FPar.Nsize` — include/global.h:54
* `FMove` — vmcmake_fsz.c:594-628
* `updateEleConfigF` — vmcmake_fsz.c:795-806
* `revertEleConfigF` — vmcmake_fsz.c:808-819
* `pickItinerantF` — vmcmake_fsz.c:602-607,638-644
* `pickTargetF` — vmcmake_fsz.c:609-618
* `pickTargetC` — vmcmake_fsz.c:646-654
* `makeCandidateHoppingF` — vmcmake_fsz.c:594-628
* `makeCandidateHoppingC` — vmcmake_fsz.c:630-664
* `scanPair` — vmcmake_fsz.c:686-703
* `pickSingleAnyF` — vmcmake_fsz.c:708-712
* `pickSingleSpinF` — vmcmake_fsz.c:714-717
* `makeCandidateExchangeF` — vmcmake_fsz.c:670-725
* `localSpinFlip` — vmcmake_fsz.c:728-753
* `conductionFlip` — vmcmake_fsz.c:756-788
* `hopCandidateF` — vmcmake_fsz.c:160-180
* `partnerMove` — vmcmake_fsz.c:255-262
* `FHooks` — vmcmake_fsz.c:148-403
* `FState` — vmcmake_fsz.c:42-70
* `bump` — vmcmake_fsz.c:148-403
* `maybeRefreshF` — vmcmake_fsz.c:380-402
* `tryMoveF` — vmcmake_fsz.c:184-240,322-378
* `innerStepF` — vmcmake_fsz.c:148-403
* `innerLoopF` — vmcmake_fsz.c:148-403
* `outerLoopF` — vmcmake_fsz.c:147-416
* `vmcMakeSampleF` — vmcmake_fsz.c:139-433
* `tmpTwoSz` — vmcmake_fsz.c:455-459
* `initSpn` — vmcmake_fsz.c:461-467
* `pickFreeElectronF` — vmcmake_fsz.c:471-475
* `placeF` — vmcmake_fsz.c:476-478,488-490
* `placeLocalF` — vmcmake_fsz.c:469-480
* `pickFreeSiteF` — vmcmake_fsz.c:485-487
* `placeItinerantF` — vmcmake_fsz.c:482-492
* `initialPassF` — vmcmake_fsz.c:446-498
* `FInitOutcome` — vmcmake_fsz.c:435-517
* `makeInitialSampleF` — vmcmake_fsz.c:435-517

### Model/Sfmt.lean

* `sfmtN` — src/sfmt/SFMT-params.h:18
* `sfmtN32` — src/sfmt/SFMT-params.h:21
* `sfmtPos` — src/sfmt/SFMT-params19937.h:4
* `W128` — src/sfmt/SFMT.c:58-60
* `W128.get` — src/sfmt/SFMT.c:58-60
* `W128.set` — src/sfmt/SFMT.c:58-60
* `rshift128` — src/sfmt/SFMT.c:145-158
* `lshift128` — src/sfmt/SFMT.c:184-197
* `doRecursion` — src/sfmt/SFMT.c:227-242, src/sfmt/SFMT-params19937.h:5-12
* `SMem` — src/sfmt/SFMT.c:72
* `SMem.rd` — src/sfmt/SFMT.c:72
* `SMem.wr` — src/sfmt/SFMT.c:72
* `SMem.rd32` — src/sfmt/SFMT.c:74
* `SMem.wr32` — src/sfmt/SFMT.c:74
* `GenLoop` — src/sfmt/SFMT.c:251-256
* `genPass` — src/sfmt/SFMT.c:258-260,263-265
* `genRandAll` — src/sfmt/SFMT.c:251-267
* `W128.bits` — src/sfmt/SFMT.c:46-49
* `W128.ofBits` — src/sfmt/SFMT.c:46-49
* `mmSrli32` — src/sfmt/SFMT-sse2.h:36-45
* `mmSlli32` — src/sfmt/SFMT-sse2.h:36-45
* `mmSrli` — src/sfmt/SFMT-sse2.h:36-45
* `mmSlli` — src/sfmt/SFMT-sse2.h:36-45
* `mmXor` — src/sfmt/SFMT-sse2.h:36-45
* `mmAnd` — src/sfmt/SFMT-sse2.h:36-45
* `mmMask` — src/sfmt/SFMT-sse2.h:55
* `mmRecursion` — src/sfmt/SFMT-sse2.h:32-46
* `GenLoopSse` — src/sfmt/SFMT-sse2.h:52-58
* `genPassSse` — src/sfmt/SFMT-sse2.h:60-63,66-69
* `genRandAllSse` — src/sfmt/SFMT-sse2.h:52-71
* `sfmtParity` — src/sfmt/SFMT.c:85, src/sfmt/SFMT-params19937.h:13-16
* `periodInner` — src/sfmt/SFMT.c:348-356
* `periodBit` — src/sfmt/SFMT.c:363-370
* `periodFix` — src/sfmt/SFMT.c:362-371
* `periodCertification` — src/sfmt/SFMT.c:347-372
* `SfmtState` — src/sfmt/SFMT.c:72-83
* `seedNext` — src/sfmt/SFMT.c:542-544
* `seedLoop` — src/sfmt/SFMT.c:541-545
* `initGenRand` — src/sfmt/SFMT.c:537-549
* `genRand32` — src/sfmt/SFMT.c:410-420
* `genList` — src/sfmt/SFMT.c:410-420
* `groupDraws` — vmcmain.c:257

### Model/Slater.lean

* `QPPar` — include/global.h:143-158
* `QPPar.nFix` — readdef.c:778
* `QPPar.nFull` — readdef.c:779
* `QPPar.optidx` — slater.c:56
* `QPPar.mpidx` — slater.c:57
* `QPPar.spidx` — slater.c:58
* `QPPar.tr` — slater.c:71-72
* `QPPar.sg` — slater.c:73
* `storeAt` — slater.c:37-97
* `runStores` — slater.c:37-97
* `runAdds` — slater.c:100-243
* `slaterStores` — slater.c:53-93
* `updateSlaterElm` — slater.c:37-97
* `slaterStoresF` — slater_fsz.c:51-114
* `updateSlaterElmF` — slater_fsz.c:32-117
* `tableStores` — slater.c:146-174
* `diffAdds` — slater.c:182-230
* `tableStoresF` — slater_fsz.c:155-187
* `diffAddsF` — slater_fsz.c:195-216
* `diffStore` — slater.c:232-257, slater_fsz.c:218-236
* `qpFixWeight` — qp.c:38-82
* `qpFullWeight` — qp.c:130-150
* `optTransDiff` — vmccal.c:639-653
* `RBMPar.nRBM` — readdef.c:737-740
* `rbmDiffAdds` — rbm.c:342-353
* `rbmDiff` — rbm.c:323-382
* `atOffset` — vmccal.c:185-200
* `ParGlob` — include/global.h:40-200
* `ParGlob.nR` — setmemory.c:298-300
* `ParGlob.oSlater` — setmemory.c:298-302
* `ParGlob.oOpt` — setmemory.c:302
* `ParGlob.envWith` — setmemory.c:298-302
* `ParGlob.env` — vmcmain.c:330-420
* `ParGlob.envF` — vmcmain.c:330-420
* `srOptOProj` — vmccal.c:195-201, vmccal_fsz.c:154-160
* `srOptO` — vmccal.c:193-212
* `srOptOF` — vmccal_fsz.c:152-169

### Model/SplitLoop.lean

* `splitLoop` — splitloop.c:31-69
* `ownShare` — qp.c
* `reduceShares` — qp.c:110-127
* `localIP` — qp.c:107-126
* `calculateIP` — qp.c:107-126

### Model/Uhf.lean

* `Mat2` — src/ComplexUHF/include/struct.h
* `addAt2` — src/ComplexUHF/makeham.c:52-225
* `mkTransfer` — src/ComplexUHF/makeham.c:45-56
* `mkIntra` — src/ComplexUHF/makeham.c:58-72
* `mkInter` — src/ComplexUHF/makeham.c:74-106
* `mkHund` — src/ComplexUHF/makeham.c:108-133
* `mkExchange` — src/ComplexUHF/makeham.c:136-161
* `mkPairHop` — src/ComplexUHF/makeham.c:162-180
* `mkInterAll` — src/ComplexUHF/makeham.c:182-224
* `makeham` — src/ComplexUHF/makeham.c:24-235
* `zheevAll` — src/ComplexUHF/matrixlapack.c:235-292
* `diag` — src/ComplexUHF/diag.c:26-83
* `green` — src/ComplexUHF/green.c:26-53
* `accRe` — src/ComplexUHF/cal_energy.c:60-177
* `enIntra` — src/ComplexUHF/cal_energy.c:50-65
* `enInter` — src/ComplexUHF/cal_energy.c:67-94
* `enHund` — src/ComplexUHF/cal_energy.c:96-117
* `enExchange` — src/ComplexUHF/cal_energy.c:119-140
* `enPairHop` — src/ComplexUHF/cal_energy.c:142-157
* `enInterAll` — src/ComplexUHF/cal_energy.c:159-179
* `calEnergy` — src/ComplexUHF/cal_energy.c:46-182
* `uhfNum` — src/ComplexUHF/cal_energy.c:184-194
* `uhfRest` — src/ComplexUHF/cal_energy.c:184-195
* `uhfMix` — src/ComplexUHF/cal_energy.c:191
* `UhfSt` — src/ComplexUHF/include/struct.h
* `uhfStep` — src/ComplexUHF/UHFmain.c:113-118
* `uhfLoop` — src/ComplexUHF/UHFmain.c:113-137

### Model/UhfMod.lean

* `UMP` — src/ComplexUHF/readdef.c:235-261
* `umpUnused` — src/ComplexUHF/readdef.c:212-230
* `umpList` — src/ComplexUHF/readdef.c:212-261
* `umpFind` — src/ComplexUHF/readdef.c:212-263
* `umpLoop` — src/ComplexUHF/readdef.c:208-264
* `umpDefault` — src/ComplexUHF/readdef.c:981-998, src/ComplexUHF/UHFmain.c:46
* `umpAP` — src/ComplexUHF/readdef.c:384-389
* `uhfFirstPass` — src/ComplexUHF/readdef.c:136-393

### Model/UhfOut.lean

* `uhfFij` — src/ComplexUHF/output.c:203-218
* `uhfApFij` — src/ComplexUHF/output.c:138-187
* `OrbAcc` — src/ComplexUHF/output.c:245-253
* `orbAdd` — src/ComplexUHF/output.c:259-269
* `orbCollect` — src/ComplexUHF/output.c:250-271
* `orbFinish` — src/ComplexUHF/output.c:273-276
* `apPairs2` — src/ComplexUHF/output.c:256-271
* `apPairs` — src/ComplexUHF/output.c:294-308
* `parPairs` — src/ComplexUHF/output.c:331-353
* `genPairs` — src/ComplexUHF/output.c:376-395
* `outAP2` — src/ComplexUHF/output.c:245-280
* `outAP` — src/ComplexUHF/output.c:283-315
* `outP` — src/ComplexUHF/output.c:317-365
* `outG` — src/ComplexUHF/output.c:367-405
* `judgeOrbitalMode` — src/ComplexUHF/readdef.c:93-131
* `OrbFile` — src/ComplexUHF/output.c:276,362,402
* `makeOrbitalFile` — src/ComplexUHF/output.c:123-242
* `uhfOrbInit` — src/ComplexUHF/readdef.c:413-430, src/common/setmemory.c:49-59
* `uhfScan` — src/ComplexUHF/readdef.c:602-613,624-634,659-664,690-701
* `uhfOrbLoop` — src/ComplexUHF/readdef.c:600-712
* `uhfApStep` — src/ComplexUHF/readdef.c:602-621
* `uhfApGenStep` — src/ComplexUHF/readdef.c:626-650
* `uhfParStep` — src/ComplexUHF/readdef.c:658-684
* `uhfGenStep` — src/ComplexUHF/readdef.c:690-709
* `uhfDefError` — src/ComplexUHF/readdef.c:70-75
* `uhfReadAP` — src/ComplexUHF/readdef.c:598-652
* `uhfReadP` — src/ComplexUHF/readdef.c:653-686
* `uhfReadG` — src/ComplexUHF/readdef.c:687-715
* `uhfCounts` — src/ComplexUHF/readdef.c:237-240,354-366,996
* `uhfGap` — src/ComplexUHF/output.c:78-82

### Model/UhfRead.lean

* `uhfKwList` — src/ComplexUHF/readdef.c:37-50
* `uhfNameLoop` — src/ComplexUHF/readdef.c:938-972
* `uhfGetFileName` — src/ComplexUHF/readdef.c:919-975
* `UKW` — src/ComplexUHF/readdef.c:53-66
* `uhfOrder` — src/ComplexUHF/readdef.c:53-66
* `uhfKwIndex` — src/ComplexUHF/readdef.c:53-66
* `UhfMod` — src/ComplexUHF/readdef.c:235-262
* `UBuf` — src/ComplexUHF/readdef.c:145-155
* `uhfHdrStep` — src/ComplexUHF/readdef.c:269-343
* `uhfHdrLoop` — src/ComplexUHF/readdef.c:181-344
* `USizes` — src/ComplexUHF/readdef.c:346-397
* `uhfNInt` — src/ComplexUHF/readdef.c:164-397
* `URow` — src/ComplexUHF/xsetmem_def.c:30-49
* `uRowEmpty` — src/common/setmemory.c:49-60
* `uhfRealLoop` — src/ComplexUHF/readdef.c:484-563
* `uhfCplxLoop` — src/ComplexUHF/readdef.c:464-481
* `uhfPairLoop` — src/ComplexUHF/readdef.c:533-549
* `uhfOneBodyLoop` — src/ComplexUHF/readdef.c:717-735
* `uhfLocLoop` — src/ComplexUHF/readdef.c:451-455
* `UTabs` — src/ComplexUHF/readdef.c:400-411
* `uhfFill` — src/ComplexUHF/xsetmem_def.c:30-49
* `uhfStore` — src/ComplexUHF/readdef.c:478-480
* `uhfFileStep` — src/ComplexUHF/readdef.c:446-763
* `uhfFileLoop` — src/ComplexUHF/readdef.c:430-769
* `uhfTabs0` — src/ComplexUHF/xsetmem_def.c:24-51, src/ComplexUHF/readdef.c:409-428
* `uhfIdxPara` — src/ComplexUHF/readdef.c:400-776

### Model/UhfStart.lean

* `setAt2` — src/ComplexUHF/initial.c:40,63
* `uhfEps` — src/ComplexUHF/UHFmain.c:89-92,100
* `uhfInitRandom` — src/ComplexUHF/initial.c:36-45
* `uhfInitLines` — src/ComplexUHF/initial.c:51-64, src/common/setmemory.c:139-149
* `uhfInitial` — src/ComplexUHF/initial.c:25-68, src/ComplexUHF/xsetmem_large.c:26, src/common/setmemory.c:139-149
* `uhfCisajs` — src/ComplexUHF/output.c:92-121
* `uhfEigenLines` — src/ComplexUHF/output.c:69-75

### Model/VarFile.lean

* `StepOut` — vmcmain.c:640-661
* `outLine` — vmcmain.c:647
* `varLine` — vmcmain.c:654-657
* `varFile` — initfile.c:58-60, vmcmain.c:439
* `paraDoubles` — vmcmain.c:660
* `varBinRecord` — vmcmain.c:660
* `varBinFile` — initfile.c:61-66, vmcmain.c:660
* `InitIn` — parameter.c:36-92
* `InitSt` — parameter.c:36-92
* `rbmReal` — parameter.c:45
* `rbmComplex` — parameter.c:53
* `initRBMStep` — parameter.c:43-58
* `initSlaterStep` — parameter.c:63-86
* `initParameter` — parameter.c:36-92

### Model/WorkUse.lean

* `Fam` — workspace.c:31-62
* `Dims` — include/global.h:36-354
* `Dims.rbmSize` — calham.c:72
* `WCall` — workspace.c:81-330
* `rq` — workspace.c:81-330
* `gt` — workspace.c:81-330
* `rl` — workspace.c:81-330
* `gtRbm` — calham.c:91-93
* `useBuf` — average.c:94-103,131-140,176-185,256-266,285-295,314-324, stcopt_cg_impl.c:172-248
* `useCalGrn` — calgrn.c:42-54,117-118
* `useBF` — calgrn.c:133-146,210-211, calham.c:392-406,519-520, calham_real.c:225-239,340-341
* `useFsz` — calgrn_fsz.c:42-53,136-137, calham_fsz.c:60-81,194-195,312-324,377-378, calham_fsz_real.c:43-64,174-175
* `useHam1Fsz` — calham_fsz.c:257-269,295-296
* `useCalHam` — calham.c:71-94,190-191
* `useHam1` — calham.c:256-267,291-292
* `useHam2` — calham.c:311-322,373-374, calham_real.c:54-74,203-204
* `useMAll` — matrix.c:90-121,297-328,401-430
* `useMAllReal` — matrix.c:194-219,527-553,627-651
* `useUpdate` — pfupdate.c:125-139, pfupdate_fsz.c:120-134, pfupdate_two_fcmp.c:87-102, pfupdate_two_fsz.c:92-107, pfupdate_real.c:129-143, pfupdate_fsz_real.c:110-124, pfupdate_two_real.c:89-104, pfupdate_two_fsz_real.c:78-93
* `useUpdateTwo` — pfupdate_two_fcmp.c:196-213, pfupdate_two_fsz.c:201-218, pfupdate_two_real.c:196-213, pfupdate_two_fsz_real.c:187-204
* `useChildren` — locgrn.c:342, locgrn.c:292-299
* `useHCA1` — lslocgrn.c:249-257,277-280,294-295
* `useHCA1Real` — lslocgrn_real.c:192-197,212-229
* `useHCA2` — lslocgrn.c:324-333,355-363,441-444
* `useHCA2Real` — lslocgrn_real.c:261-267,289-294,372-375
* `useGF2` — lslocgrn.c:509-511,544, lslocgrn_real.c:497-499,532
* `useHCACA1` — lslocgrn.c:564-572,607-610,627-628
* `useHCACA1Real` — lslocgrn_real.c:551-556,582-603
* `useHCACA2Body` — lslocgrn.c:661-705
* `useHCACA2` — lslocgrn.c:661-705,794-797
* `useHCACA2RealBody` — lslocgrn_real.c:633-671
* `useHCACA2Real` — lslocgrn_real.c:633-671,760-763
* `useSlaterDiff` — slater.c:124-129,241-242, slater_fsz.c:143-148,240-241
* `useSlaterBFDiff` — slater.c:293-298,513-514
* `useBackFlowDiff` — slater.c:559-566,715-716
* `useQPWeight` — qp.c:44-46,84
* `useStcOpt` — stcopt_pdposv.c:113-122,233-234, vmcmain.c:502-505
* `useStcOptDiag` — stcopt_pdposv.c:421-434,508-509,599-600
* `WFun` — workspace.c:81-330
* `thrNum` — workspace.c:31-62
* `WFun.ops` — workspace.c:81-330
* `onFam` — workspace.c:81-330
* `runOn` — workspace.c:81-330

### Model/Workspace.lean

* `WS` — workspace.c:31-62
* `Block` — workspace.c:93-96
* `WSOp` — workspace.c:83-102
* `WS.init` — workspace.c:31-47
* `WS.request` — workspace.c:83-92
* `WS.get` — workspace.c:93-97
* `WS.release` — workspace.c:98-101
* `WS.trace` — workspace.c:83-102
