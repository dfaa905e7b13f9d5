# Functions that are copies up to the number type

Generated by `tools/copies.py` from the source text: after removing comments and blanks and identifying the complex with
the real type (the substitutions are listed in the script) the functions of a row are equal character by character.

| functions | lines |
|---|---|
| `weightAverageReduce`, `weightAverageReduce_fcmp`, `weightAverageReduce_real` | average.c:247-274, average.c:276-303, average.c:305-332 |
| `CalculateHamiltonian0`, `CalculateHamiltonian0_real` | calham.c:198-239, calham_real.c:351-393 |
| `CalculateHamiltonian_fsz`, `CalculateHamiltonian_fsz_real` | calham_fsz.c:49-197, calham_fsz_real.c:32-177 |
| `GreenFunc1BF`, `GreenFunc1BF_real` | locgrn.c:426-476, locgrn_real.c:410-473 |
| `checkGF1`, `checkGF1_real` | lslocgrn.c:207-233, lslocgrn_real.c:141-167 |
| `checkGF2`, `checkGF2_real` | lslocgrn.c:500-546, lslocgrn_real.c:488-534 |
| `copyMAll`, `copyMAll_real` | lslocgrn.c:804-816, lslocgrn_real.c:382-394 |
| `CalculateNewPfM`, `CalculateNewPfM_real` | pfupdate.c:39-75, pfupdate_real.c:44-80 |
| `CalculateNewPfM2`, `CalculateNewPfM2_real` | pfupdate.c:78-116, pfupdate_real.c:83-120 |
| `CalculateNewPfMBF`, `CalculateNewPfMBF_real` | pfupdate.c:221-246, pfupdate_real.c:224-255 |
| `UpdateMAll`, `UpdateMAll_real` | pfupdate.c:119-141, pfupdate_real.c:123-145 |
| `UpdateMAll_BF_fcmp`, `UpdateMAll_BF_real` | pfupdate.c:368-396, pfupdate_real.c:378-405 |
| `updateMAll_child`, `updateMAll_child_real` | pfupdate.c:143-216, pfupdate_real.c:147-220 |
| `CalculateNewPfM2_fsz`, `CalculateNewPfM2_fsz_real` | pfupdate_fsz.c:74-111, pfupdate_fsz_real.c:68-101 |
| `CalculateNewPfM_fsz`, `CalculateNewPfM_fsz_real` | pfupdate_fsz.c:35-71, pfupdate_fsz_real.c:33-65 |
| `UpdateMAll_fsz`, `UpdateMAll_fsz_real` | pfupdate_fsz.c:114-136, pfupdate_fsz_real.c:104-126 |
| `updateMAll_child_fsz`, `updateMAll_child_fsz_real` | pfupdate_fsz.c:138-213, pfupdate_fsz_real.c:128-203 |
| `CalculateNewPfMTwo2_fcmp`, `CalculateNewPfMTwo2_real` | pfupdate_two_fcmp.c:73-104, pfupdate_two_real.c:75-106 |
| `CalculateNewPfMTwo_fcmp`, `CalculateNewPfMTwo_real` | pfupdate_two_fcmp.c:45-67, pfupdate_two_real.c:47-69 |
| `UpdateMAllTwo_fcmp`, `UpdateMAllTwo_real` | pfupdate_two_fcmp.c:189-215, pfupdate_two_real.c:189-215 |
| `calculateNewPfMTwo_child_fcmp`, `calculateNewPfMTwo_child_real` | pfupdate_two_fcmp.c:107-184, pfupdate_two_real.c:108-185 |
| `updateMAllTwo_child_fcmp`, `updateMAllTwo_child_real` | pfupdate_two_fcmp.c:217-344, pfupdate_two_real.c:217-344 |
| `CalculateNewPfMTwo2_fsz`, `CalculateNewPfMTwo2_fsz_real` | pfupdate_two_fsz.c:78-109, pfupdate_two_fsz_real.c:64-95 |
| `CalculateNewPfMTwo_fsz`, `CalculateNewPfMTwo_fsz_real` | pfupdate_two_fsz.c:50-72, pfupdate_two_fsz_real.c:36-58 |
| `UpdateMAllTwo_fsz`, `UpdateMAllTwo_fsz_real` | pfupdate_two_fsz.c:194-220, pfupdate_two_fsz_real.c:180-206 |
| `calculateNewPfMTwo_child_fsz`, `calculateNewPfMTwo_child_fsz_real` | pfupdate_two_fsz.c:112-189, pfupdate_two_fsz_real.c:98-175 |
| `updateMAllTwo_child_fsz`, `updateMAllTwo_child_fsz_real` | pfupdate_two_fsz.c:222-349, pfupdate_two_fsz_real.c:208-335 |
| `SafeMpiAllReduce`, `SafeMpiAllReduce_fcmp` | safempi.c:51-64, safempi_fcmp.c:50-63 |
| `SafeMpiBcast`, `SafeMpiBcast_fcmp` | safempi.c:66-79, safempi_fcmp.c:65-78 |
| `SafeMpiReduce`, `SafeMpiReduce_fcmp` | safempi.c:36-49, safempi_fcmp.c:35-48 |
| `StoreSlaterElmBF_fcmp`, `StoreSlaterElmBF_real` | slater.c:1463-1484, slater.c:1486-1506 |
| `UpdateSlaterElmBFGrn`, `UpdateSlaterElmBFGrn_real` | slater.c:1137-1297, slater.c:1300-1460 |
| `makeInitialSample`, `makeInitialSample_real` | vmcmake.c:359-425, vmcmake_real.c:325-391 |
| `makeInitialSample_fsz`, `makeInitialSample_fsz_real` | vmcmake_fsz.c:435-517, vmcmake_fsz_real.c:421-502 |
| `GetWorkSpaceDouble`, `GetWorkSpaceComplex` | workspace.c:114-118, workspace.c:134-138 |
| `GetWorkSpaceThreadDouble`, `GetWorkSpaceThreadComplex` | workspace.c:195-201, workspace.c:228-234 |
| `ReleaseWorkSpaceDouble`, `ReleaseWorkSpaceComplex` | workspace.c:119-122, workspace.c:139-142 |
| `ReleaseWorkSpaceThreadDouble`, `ReleaseWorkSpaceThreadComplex` | workspace.c:202-209, workspace.c:235-242 |
| `RequestWorkSpaceDouble`, `RequestWorkSpaceComplex` | workspace.c:104-113, workspace.c:125-133 |
| `RequestWorkSpaceThreadDouble`, `RequestWorkSpaceThreadComplex` | workspace.c:179-194, workspace.c:212-227 |
