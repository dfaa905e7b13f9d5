import Verif.Proof.ParamIO
import Mathlib.Tactic.NormNum
import Mathlib.Data.Complex.BigOperators

/-!
# C42, C43: optimised parameters written, averaged and read back

`run step` is what step `step` leaves in `(Etot, Etot2, Para)`; `junk` stands for
memory that was never written.
-/

namespace MVMC
open Complex Finset

/-- The mean of a parameter over the last `nSmp` of `nStep` steps. -/
noncomputable def meanLast (run : Nat → ℂ × ℂ × (Nat → ℂ)) (nStep nSmp i : Nat) : ℂ :=
  (∑ k ∈ Finset.range nSmp, (run (nStep - nSmp + k)).2.2 i) / nSmp

/-- The content of `SROptData` at the end of the optimisation. -/
noncomputable def finalData (S : IOSizes) (nStep nSmp : Nat) (run : Nat → ℂ × ℂ × (Nat → ℂ))
    (junk : Nat → ℂ) : Nat → ℂ :=
  fun k => (storeLoop S.nPara nStep nSmp run k).getD (junk k)

theorem finalData_para (S : IOSizes) (nStep nSmp : Nat) (run : Nat → ℂ × ℂ × (Nat → ℂ))
    (junk : Nat → ℂ) (h : nSmp ≤ nStep) (i : Nat) (hi : i < S.nPara) (s : Nat) (hs : s < nSmp) :
    finalData S nStep nSmp run junk (i + 2 + (2 + S.nPara) * s) =
      (run (nStep - nSmp + s)).2.2 i := by
  unfold finalData
  rw [storeLoop_row S.nPara nStep nSmp run s (i + 2) (by omega), if_pos (by omega),
    if_neg (by omega), if_neg (by omega)]
  rw [show s + nStep - nSmp = nStep - nSmp + s by omega]
  simp

theorem ave_finalData (S : IOSizes) (nStep nSmp : Nat) (run : Nat → ℂ × ℂ × (Nat → ℂ))
    (junk : Nat → ℂ) (h : nSmp ≤ nStep) (i : Nat) (hi : i < S.nPara) :
    calcAve nSmp (finalData S nStep nSmp run junk) (i + 2) (2 + S.nPara) =
      meanLast run nStep nSmp i := by
  rw [calcAve_val]
  unfold meanLast
  congr 1
  refine Finset.sum_congr rfl fun s hs => ?_
  exact finalData_para S nStep nSmp run junk h i hi s (Finset.mem_range.1 hs)

/-! ## C43 -/

/-- C43: the optimisation loop leaves in row `s` of the store exactly what step
`nStep - nSmp + s` produced, for every row, when at least `nSmp` steps are made. -/
theorem C43_stored_steps_partial (nPara nStep nSmp : Nat) (run : Nat → ℂ × ℂ × (Nat → ℂ))
    (h : nSmp ≤ nStep) (s : Nat) (hs : s < nSmp) :
    storeLoop nPara nStep nSmp run ((2 + nPara) * s) = some (run (nStep - nSmp + s)).1 ∧
    storeLoop nPara nStep nSmp run (1 + (2 + nPara) * s) = some (run (nStep - nSmp + s)).2.1 ∧
    ∀ i, i < nPara → storeLoop nPara nStep nSmp run (i + 2 + (2 + nPara) * s) =
      some ((run (nStep - nSmp + s)).2.2 i) := by
  have e : s + nStep - nSmp = nStep - nSmp + s := by omega
  refine ⟨?_, ?_, fun i hi => ?_⟩
  · have := storeLoop_row nPara nStep nSmp run s 0 (by omega)
    rw [Nat.zero_add] at this
    rw [this, if_pos (by omega), if_pos rfl, e]
  · rw [storeLoop_row nPara nStep nSmp run s 1 (by omega), if_pos (by omega), if_neg (by omega),
      if_pos rfl, e]
  · rw [storeLoop_row nPara nStep nSmp run s (i + 2) (by omega), if_pos (by omega),
      if_neg (by omega), if_neg (by omega), e]
    rfl

/-- C43 is violated by the code when more steps are averaged than made
(`NSROptItrSmp > NSROptItrStep`, which the input check accepts): the first rows
are never written, so the averages read uninitialised memory. -/
theorem C43_stored_steps_violated (nPara nStep nSmp : Nat) (run : Nat → ℂ × ℂ × (Nat → ℂ))
    (h : nStep < nSmp) (i : Nat) (hi : i < nPara) :
    storeLoop nPara nStep nSmp run (i + 2 + (2 + nPara) * 0) = none := by
  rw [storeLoop_row nPara nStep nSmp run 0 (i + 2) (by omega), if_neg (by omega)]

/-- C43: the reported value is the arithmetic mean over the stored steps. -/
theorem C43_mean (nSmp : Nat) (D : Nat → ℂ) (i n : Nat) (h : 0 < nSmp) :
    (nSmp : ℂ) * calcAve nSmp D i n = ∑ k ∈ Finset.range nSmp, D (i + n * k) := by
  rw [calcAve_val, mul_div_cancel₀ _ (by exact_mod_cast (by omega : nSmp ≠ 0))]

/-- C43: the reported error squared times `N - 1` is the sum of squared distances
to the mean, which is `Σ|x|² - N|mean|²`. -/
theorem C43_deviation (nSmp : Nat) (D : Nat → ℂ) (i n : Nat) (h : 2 ≤ nSmp) :
    0 ≤ calcVar nSmp D i n ∧
    ((nSmp : ℝ) - 1) * calcVar nSmp D i n ^ 2 =
      ∑ k ∈ Finset.range nSmp, normSq (D (i + n * k) -
        (∑ m ∈ Finset.range nSmp, D (i + n * m)) / nSmp) ∧
    ((nSmp : ℝ) - 1) * calcVar nSmp D i n ^ 2 =
      (∑ k ∈ Finset.range nSmp, normSq (D (i + n * k))) -
        nSmp * normSq ((∑ m ∈ Finset.range nSmp, D (i + n * m)) / nSmp) := by
  have hN : (0 : ℝ) < (nSmp : ℝ) - 1 := by
    have : (2 : ℝ) ≤ nSmp := by exact_mod_cast h
    linarith
  have key : ((nSmp : ℝ) - 1) * calcVar nSmp D i n ^ 2 =
      ∑ k ∈ Finset.range nSmp, normSq (D (i + n * k) -
        (∑ m ∈ Finset.range nSmp, D (i + n * m)) / nSmp) := by
    rw [calcVar_val, Real.sq_sqrt, mul_div_cancel₀ _ (ne_of_gt hN), calcAve_val]
    exact div_nonneg (Finset.sum_nonneg fun k _ => normSq_nonneg _) (le_of_lt hN)
  refine ⟨Real.sqrt_nonneg _, key, ?_⟩
  rw [key]
  set M := (∑ m ∈ Finset.range nSmp, D (i + n * m)) / (nSmp : ℂ) with hM
  have hs : ∑ m ∈ Finset.range nSmp, D (i + n * m) = nSmp * M := by
    rw [hM, mul_div_cancel₀ _ (by exact_mod_cast (by omega : nSmp ≠ 0))]
  have e : ∀ k, normSq (D (i + n * k) - M) =
      normSq (D (i + n * k)) + normSq M - 2 * (D (i + n * k) * (starRingEnd ℂ) M).re := fun k =>
    normSq_sub _ _
  simp only [e, Finset.sum_sub_distrib, Finset.sum_add_distrib, Finset.sum_const,
    Finset.card_range, nsmul_eq_mul, ← Finset.mul_sum]
  have : ∑ k ∈ Finset.range nSmp, (D (i + n * k) * (starRingEnd ℂ) M).re = nSmp * normSq M := by
    rw [← Complex.re_sum, ← Finset.sum_mul, hs, mul_assoc, Complex.mul_conj]
    simp
  rw [this]
  ring

/-- C43: in the summary file the three numbers of parameter `i` are the real and
imaginary part of its mean over the last steps and its deviation. -/
theorem C43_reported (S : IOSizes) (hS : S.RBMConsistent) (nStep nSmp : Nat)
    (run : Nat → ℂ × ℂ × (Nat → ℂ)) (junk : Nat → ℂ) (h1 : nSmp ≠ 1) (h2 : nSmp ≤ nStep) :
    (outputOptData S nSmp (finalData S nStep nSmp run junk)).2.drop 6 =
      (List.range S.nPara).flatMap fun i =>
        [(meanLast run nStep nSmp i).re, (meanLast run nStep nSmp i).im,
          Real.sqrt ((∑ k ∈ Finset.range nSmp, normSq ((run (nStep - nSmp + k)).2.2 i -
            meanLast run nStep nSmp i)) / ((nSmp : ℝ) - 1))] := by
  unfold outputOptData
  rw [if_neg h1]
  dsimp only
  rw [List.drop_left' (by rfl), writeAll_val S _ _ _ _ (goodFrom_outGroups S hS),
    show 2 + S.nPara - 2 = S.nPara by omega, List.range'_eq_map_range, List.flatMap_map]
  refine List.flatMap_congr fun i hi => ?_
  have hi := List.mem_range.1 hi
  unfold triple
  dsimp only
  rw [show 2 + i = i + 2 by omega, calcVar_val,
    ave_finalData S nStep nSmp run junk h2 i hi]
  rw [Finset.sum_congr rfl fun k hk => by
    rw [finalData_para S nStep nSmp run junk h2 i hi k (Finset.mem_range.1 hk)]]

/-! ## C42 -/

/-- C42: for every combination of group sizes, giving the written group files as
input files of the next run (in any order, among any other definition files)
restores every parameter to its written value, the mean over the last steps. -/
theorem C42_group_files_partial (S : IOSizes) (hS : S.RBMConsistent) (nStep nSmp : Nat)
    (run : Nat → ℂ × ℂ × (Nat → ℂ)) (junk : Nat → ℂ) (h1 : nSmp ≠ 1) (h2 : nSmp ≤ nStep)
    (es : List NameEntry) (junk' : ℂ) (P : Nat → ℂ)
    (hes : (inEntries es).Perm (outputOptData S nSmp (finalData S nStep nSmp run junk)).1) :
    ∃ P', readInputParameters S es junk' P = .ok P' ∧
      (∀ i, i < S.nPara → P' i = meanLast run nStep nSmp i) ∧
      (∀ i, S.nPara ≤ i → P' i = P i) := by
  unfold outputOptData at hes
  rw [if_neg h1] at hes
  dsimp only at hes
  have hg := goodFrom_outGroups S hS
  set ave := fun i => calcAve nSmp (finalData S nStep nSmp run junk) i (2 + S.nPara)
  obtain ⟨P', e, hin, hout⟩ := readInputLoop_val S (fun a => ave (a + 2)) es junk' P
    (fun kw f hm => writeFiles_faithful S ave _ _ hg kw f (hes.subset hm))
  refine ⟨P', e, fun i hi => ?_, fun i hi => ?_⟩
  · obtain ⟨kw, f, hm, hb⟩ := writeFiles_cover S ave _ _ hg i (by omega) hi
    rw [hin i ⟨kw, f, hes.symm.subset hm, hb⟩]
    exact ave_finalData S nStep nSmp run junk h2 i hi
  · refine hout i ?_
    rintro ⟨kw, f, hm, hb⟩
    have := (writeFiles_faithful S ave _ _ hg kw f (hes.subset hm)).fits
    omega

/-- C42: the same through the summary file and `ReadInitParameter`. -/
theorem C42_summary_file_partial (S : IOSizes) (hS : S.RBMConsistent) (nStep nSmp : Nat)
    (run : Nat → ℂ × ℂ × (Nat → ℂ)) (junk : Nat → ℂ) (h1 : nSmp ≠ 1) (h2 : nSmp ≤ nStep)
    (junk' : ℝ × ℝ) (P : Nat → ℂ) (i : Nat) :
    readInitParameter S (outputOptData S nSmp (finalData S nStep nSmp run junk)).2 junk' P i =
      if i < S.nPara then meanLast run nStep nSmp i else P i := by
  unfold outputOptData
  rw [if_neg h1]
  dsimp only
  rw [writeAll_val S _ _ _ _ (goodFrom_outGroups S hS), show 2 + S.nPara - 2 = S.nPara by omega,
    readInit_val S _ _ _ (by rfl)]
  by_cases hi : i < S.nPara
  · rw [if_pos hi, if_pos hi]
    exact ave_finalData S nStep nSmp run junk h2 i hi
  · rw [if_neg hi, if_neg hi]

/-! ### What is not restored -/

/-- Sizes used in the examples: two Gutzwiller parameters and one orbital. -/
def exIO : IOSizes :=
  { nG := 2, nJ := 0, n2 := 0, n4 := 0, flagRBM := false, cP := 0, sP := 0, gP := 0,
    cH := 0, sH := 0, gH := 0, cX := 0, sX := 0, gX := 0, orb := .plain 1, nOpt := 0 }

/-- Parameters 10, 11, 12 at every step, energy 1 and 2. -/
noncomputable def exRun : Nat → ℂ × ℂ × (Nat → ℂ) := fun _ => (1, 2, fun i => 10 + i)

/-- C42 is violated by the code for `NSROptItrSmp = 1`: the summary file is then
written as pairs without imaginary parts, but read as triples, and no group file
is written.  Here the first Gutzwiller parameter is 10 and is read back as 11. -/
theorem C42_single_step_violated :
    (outputOptData exIO 1 (finalData exIO 1 1 exRun fun _ => 0)).1 = [] ∧
    ∀ junk P, readInitParameter exIO
      (outputOptData exIO 1 (finalData exIO 1 1 exRun fun _ => 0)).2 junk P 0 = 11 ∧
      meanLast exRun 1 1 0 = 10 := by
  refine ⟨rfl, fun junk P => ⟨?_, ?_⟩⟩
  · have hn : exIO.nPara = 3 := rfl
    have e : (outputOptData exIO 1 (finalData exIO 1 1 exRun fun _ => 0)).2 =
        [1, 0, 2, 0, 10, 0, 11, 0, 12, 0] := by
      unfold outputOptData
      rw [if_pos rfl, hn]
      have hd : ∀ i, i < 3 → finalData exIO 1 1 exRun (fun _ => 0) (i + 2) = 10 + (i : ℂ) := by
        intro i hi
        have := finalData_para exIO 1 1 exRun (fun _ => 0) le_rfl i (by rw [hn]; exact hi) 0
          (by norm_num)
        simpa [exRun] using this
      have h0 : finalData exIO 1 1 exRun (fun _ => 0) 0 = 1 := by
        unfold finalData
        have := (C43_stored_steps_partial exIO.nPara 1 1 exRun le_rfl 0 (by norm_num)).1
        rw [Nat.mul_zero] at this
        rw [this]; rfl
      have h1 : finalData exIO 1 1 exRun (fun _ => 0) 1 = 2 := by
        unfold finalData
        have := (C43_stored_steps_partial exIO.nPara 1 1 exRun le_rfl 0 (by norm_num)).2.1
        rw [Nat.mul_zero, Nat.add_zero] at this
        rw [this]; rfl
      have h2 := hd 0 (by norm_num)
      have h3 := hd 1 (by norm_num)
      have h4 := hd 2 (by norm_num)
      norm_num at h2 h3 h4
      have hr : List.range (2 + 3) = [0, 1, 2, 3, 4] := rfl
      rw [hr]
      simp only [List.flatMap_cons, List.flatMap_nil, h0, h1, h2, h3, h4, List.cons_append,
        List.nil_append]
      norm_num
    rw [e]
    simp [readInitParameter, readInitParameter.go, readInitBody, readTriples, scan3, exIO,
      IOSizes.nProj, IOSizes.nSlater, IOSizes.oSlater, IOSizes.oOpt, IOSizes.nR, OrbKind.nOrb,
      List.range_succ, Function.update]
  · norm_num [meanLast, exRun]

/-- C42 (what holds of the count check): a group file with the wrong count makes
the reader abort, provided none of the other definition files (`OneBodyG`,
`TwoBodyG`, `InterAll`, …) comes after it in keyword order. -/
theorem C42_count_check_partial (S : IOSizes) (pre post : List (InKW × PFile)) (kw : InKW) (f : PFile)
    (h : inHeadOK S f.head kw = false) (junk : ℂ) (P : Nat → ℂ) (P' : Nat → ℂ) :
    readInputParameters S ((pre ++ (kw, f) :: post).map fun e => .inFile e.1 e.2) junk P ≠
      .ok P' := by
  have tail : ∀ (es : List (InKW × PFile)) v P,
      readInputLoop S (es.map fun e => .inFile e.1 e.2) true v P ≠ .ok P' := by
    intro es
    induction es with
    | nil => intro v P; simp [readInputLoop]
    | cons e es ih =>
      intro v P
      rw [List.map_cons]
      unfold readInputLoop
      split
      · split <;> simp
      · exact ih v P
  unfold readInputParameters
  suffices ∀ info v P, readInputLoop S
      ((pre ++ (kw, f) :: post).map fun e => .inFile e.1 e.2) info v P ≠ .ok P' from this _ _ _
  induction pre with
  | nil =>
    intro info v P
    rw [List.nil_append, List.map_cons]
    unfold readInputLoop
    rw [if_neg (by simp [h])]
    exact tail post v P
  | cons e es ih =>
    intro info v P
    rw [List.cons_append, List.map_cons]
    unfold readInputLoop
    split
    · split
      · split
        · simp
        · exact ih _ _ _
      · simp
      · simp
    · exact ih _ _ _

/-- C42 is violated by the code for files of the wrong size: any later definition
file clears the error flag, so a Gutzwiller file for 3 parameters is silently
ignored by a run with 2 and the parameters stay what they were. -/
theorem C42_count_check_violated (junk : ℂ) (P : Nat → ℂ) :
    inHeadOK exIO 3 .gutz = false ∧
    readInputParameters exIO [.inFile .gutz ⟨3, [(0, 1), (1, 2), (2, 3)]⟩, .other] junk P =
      .ok P := by
  refine ⟨rfl, ?_⟩
  simp [readInputParameters, readInputLoop, inHeadOK, exIO]

/-- C42 is violated by the code for files with a stray row index: the index column
is used without a range check, so a file with the right count writes outside the
parameter array. -/
theorem C42_row_index_violated (junk : ℂ) (P : Nat → ℂ) :
    readInputParameters exIO [.inFile .gutz ⟨2, [(0, 1), (7, 2)]⟩] junk P = .ub := by
  simp [readInputParameters, readInputLoop, inHeadOK, exIO, readRows, inOffset, inLen,
    IOSizes.nPara, IOSizes.nProj, IOSizes.nSlater, IOSizes.nR, OrbKind.nOrb]

/-! ### Examples -/

/-- A run with every kind of group: 1 Gutzwiller, 2 Jastrow, 1 doublon-holon of each
kind, an RBM and separate parallel / antiparallel orbitals. -/
def exIOFull : IOSizes :=
  { nG := 1, nJ := 2, n2 := 1, n4 := 1, flagRBM := true, cP := 1, sP := 2, gP := 0,
    cH := 1, sH := 0, gH := 1, cX := 3, sX := 0, gX := 1, orb := .split 2 1, nOpt := 2 }

example : exIOFull.RBMConsistent := fun h => by simp [exIOFull] at h

example : exIOFull.nPara = 34 ∧ (outGroups exIOFull).length = 16 ∧
    (outGroups exIOFull).map (fun g => inOffset exIOFull g.kw) =
      [0, 1, 3, 9, 19, 20, 22, 22, 23, 23, 24, 27, 27, 28, 30, 32] := by decide

/-- The reader is order sensitive only through the error flag; written files are
read back whatever else is in the list. -/
example (P : Nat → ℂ) : ∃ P', readInputParameters exIO
    [.other, .inFile .orb ⟨1, [(0, 5)]⟩, .inFile .gutz ⟨2, [(0, 3), (1, 4)]⟩] 0 P = .ok P' ∧
    P' 0 = 3 ∧ P' 1 = 4 ∧ P' 2 = 5 := by
  refine ⟨_, rfl, ?_⟩
  simp [Function.update, inOffset, IOSizes.oSlater, IOSizes.nProj, IOSizes.nR, exIO]

/-- Three steps, the last two averaged: 3 and 5 give mean 4 and deviation √2. -/
example : calcAve 2 (fun k => if k = 2 then 3 else 5) 2 3 = 4 ∧
    calcVar 2 (fun k => if k = 2 then 3 else 5) 2 3 = Real.sqrt 2 := by
  have e : calcAve 2 (fun k => if k = 2 then 3 else 5) 2 3 = 4 := by
    rw [calcAve_val]; norm_num [Finset.sum_range_succ]
  refine ⟨e, ?_⟩
  rw [calcVar_val, e]
  norm_num [Finset.sum_range_succ, Complex.normSq_apply]

end MVMC
