import Verif.Proof.R2kOut
import Verif.Props.GreenR2k

/-! # C86: words and files of the Fourier tool -/
namespace MVMC
open Spec

/-- C86: every variable has the value of the last line with its word, in capital or small letters; two words set the number of runs. -/
theorem C86_words (num : List Char → ℤ) (lines : List (List Char × List Char)) :
    (r2kModPara num lines).nsite = (lastSet [['n', 's', 'i', 't', 'e']] lines).map num ∧
    (r2kModPara num lines).filehead = lastSet [['c', 'd', 'a', 't', 'a', 'f', 'i', 'l', 'e', 'h', 'e', 'a', 'd']] lines ∧
    (r2kModPara num lines).numave = (lastSet [['n', 'u', 'm', 'a', 'v', 'e'], ['n', 'd', 'a', 't', 'a', 'q', 't', 'y', 's', 'm', 'p']] lines).map num ∧
    (r2kModPara num lines).lanczosMax = (lastSet [['l', 'a', 'n', 'c', 'z', 'o', 's', '_', 'm', 'a', 'x']] lines).map num ∧
    (r2kModPara num lines).interval = (lastSet [['e', 'x', 'p', 'e', 'c', 'i', 'n', 't', 'e', 'r', 'v', 'a', 'l']] lines).map num ∧
    (r2kModPara num lines).nwfc = (lastSet [['e', 'x', 'c', 't']] lines).map num ∧
    (r2kModPara num lines).idxStart = (lastSet [['n', 'd', 'a', 't', 'a', 'i', 'd', 'x', 's', 't', 'a', 'r', 't']] lines).map num := by
  exact ⟨r2k_field num (fun S => S.nsite) num _ rfl (fun S l => r2k_step_nsite num S l) lines,
    (r2k_field num (fun S => S.filehead) id _ rfl (fun S l => r2k_step_filehead num S l) lines).trans (by rw [Option.map_id, id]),
    r2k_field num (fun S => S.numave) num _ rfl (fun S l => r2k_step_numave num S l) lines,
    r2k_field num (fun S => S.lanczosMax) num _ rfl (fun S l => r2k_step_lanczosMax num S l) lines,
    r2k_field num (fun S => S.interval) num _ rfl (fun S l => r2k_step_interval num S l) lines,
    r2k_field num (fun S => S.nwfc) num _ rfl (fun S l => r2k_step_nwfc num S l) lines,
    r2k_field num (fun S => S.idxStart) num _ rfl (fun S l => r2k_step_idxStart num S l) lines⟩

/-- C86: violated: the main program has default values for the first number of the files and for their number (`SetDefaultValuesModPara`), the tool has none. -/
theorem C86_default_violated : ∃ lines : List (List Char × List Char), lines ≠ [] ∧ ∀ num, (r2kModPara num lines).numave = none ∧ (r2kModPara num lines).idxStart = none :=
  ⟨[("Nsite".toList, "16".toList), ("CDataFileHead".toList, ['z', 'v', 'o'])], by simp, fun _ => ⟨rfl, rfl⟩⟩

example : (r2kModPara (fun w => w.length) [("NDataQtySmp".toList, "55555".toList), ("NSITE".toList, "4444".toList), (['n', 'u', 'm', 'a', 'v', 'e'], "22".toList)]).numave = some 2 := by decide +kernel

/-- C86: there are as many files as allocated, and block `istep` consists of all runs at step `interval * istep`, the number in the name of the file of averages. -/
theorem C86_tpq (numave lmax interval : ℕ) (hl : 0 < lmax) (_hi : 0 < interval) :
    (r2kTpqTails numave lmax interval).length = r2kTpqNum numave lmax interval ∧
    ∀ istep < 1 + (lmax - 1) / interval, r2kBlock numave istep (r2kTpqTails numave lmax interval) = (List.range numave).map fun irun => (irun, interval * istep) := by
  have key : ∀ n : ℕ, r2kTpqTails numave (n + 1) interval = (List.range (1 + n / interval)).flatMap fun istep => (List.range numave).map fun irun => (irun, interval * istep) := by
    have one : ∀ s, ((List.range numave).flatMap fun irun => if s % interval = 0 then [(irun, s)] else []) = if s % interval = 0 then (List.range numave).map fun irun => (irun, s) else [] := by
      intro s
      split
      · rw [← List.flatMap_singleton' ((List.range numave).map _), List.flatMap_map]
      · simp
    have step : ∀ n, r2kTpqTails numave (n + 1) interval = r2kTpqTails numave n interval ++ if n % interval = 0 then (List.range numave).map fun irun => (irun, n) else [] := by
      intro n
      conv_lhs => unfold r2kTpqTails
      rw [List.range_succ, List.flatMap_append, List.flatMap_singleton, one]
      rfl
    intro n
    induction n with
    | zero =>
      rw [step]
      simp [r2kTpqTails]
    | succ n ih =>
      rw [step, ih]
      by_cases h : (n + 1) % interval = 0
      · rw [if_pos h, Nat.succ_div_of_dvd (Nat.dvd_of_mod_eq_zero h), ← Nat.add_assoc, List.range_succ (n := 1 + n / interval), List.flatMap_append, List.flatMap_singleton]
        have e := Nat.succ_div_of_dvd (Nat.dvd_of_mod_eq_zero h)
        have e2 : interval * (1 + n / interval) = n + 1 := by
          have := Nat.mul_div_cancel' (Nat.dvd_of_mod_eq_zero h)
          rw [e, Nat.add_comm] at this
          exact this
        rw [e2]
      · rw [if_neg h, Nat.succ_div_of_not_dvd (fun hd => h (Nat.mod_eq_zero_of_dvd hd)), List.append_nil]
  obtain ⟨n, rfl⟩ : ∃ n, lmax = n + 1 := ⟨lmax - 1, by omega⟩
  rw [key, Nat.add_sub_cancel]
  have hlen := r2k_flatMap_length (fun istep => (List.range numave).map fun irun => (irun, interval * istep)) numave (1 + n / interval) (fun i _ => by simp)
  constructor
  · rw [hlen, r2kTpqNum, Nat.add_sub_cancel, Nat.mul_comm]
  · intro s hs
    unfold r2kBlock
    apply List.ext_getElem?
    intro q
    by_cases hq : q < numave
    · rw [List.getElem?_take_of_lt hq, List.getElem?_drop, Nat.mul_comm numave s, r2k_flatMap_get _ numave _ (fun i _ => by simp) s hs q hq]
    · rw [List.getElem?_eq_none (by simp; omega), List.getElem?_eq_none (by simp; omega)]

example : r2kTpqTails 2 5 2 = [(0, 0), (1, 0), (0, 2), (1, 2), (0, 4), (1, 4)] := by decide

variable (knode : List (ℚ × ℚ × ℚ)) (nkLine n1 n2 n3 : ℕ)

theorem r2k_kpoints_get {i j : ℕ} (hn : 0 < nkLine) (hi : i < knode.length - 1) (hj : j ≤ nkLine) :
    (r2kKpoints knode nkLine n1 n2 n3)[i * nkLine + j]? = some (knode.getD i 0 + ((j : ℚ) / nkLine) • (knode.getD (i + 1) 0 - knode.getD i 0)) := by
  obtain ⟨-, h0, h1, -⟩ := C84_kpoints knode nkLine n1 n2 n3
  rcases j with _ | j
  · rcases i with _ | i
    · rw [Nat.zero_mul, Nat.zero_add, h0]
      simp
    · have := h1 i (by omega) (nkLine - 1) (by omega)
      rw [show 1 + (i * nkLine + (nkLine - 1)) = (i + 1) * nkLine + 0 by rw [Nat.succ_mul]; omega] at this
      rw [this, show nkLine - 1 + 1 = nkLine by omega, div_self (by positivity)]
      simp
  · have := h1 i hi j (by omega)
    rwa [show 1 + (i * nkLine + j) = i * nkLine + (j + 1) by ring] at this

/-- C86: the axis of the plot has one position per k-point of the path, starts at 0 and grows by the distance of neighbouring k-points. -/
theorem C86_axis {d b : Fin 3 → Fin 3 → ℝ} (hd : IsDual d b) (hn : 0 < nkLine) :
    (r2kXk (r2kRecipr d) knode nkLine).1.length = (knode.length - 1) * nkLine + 1 ∧ (r2kXk (r2kRecipr d) knode nkLine).1[0]? = some 0 ∧
    ∀ m < (knode.length - 1) * nkLine, ∃ x y k l, (r2kXk (r2kRecipr d) knode nkLine).1[m]? = some x ∧ (r2kXk (r2kRecipr d) knode nkLine).1[m + 1]? = some y ∧
      (r2kKpoints knode nkLine n1 n2 n3)[m]? = some k ∧ (r2kKpoints knode nkLine n1 n2 n3)[m + 1]? = some l ∧ y - x = cartLen b (l - k) := by
  set recipr := r2kRecipr d with hrec
  refine ⟨?_, ?_, ?_⟩
  · unfold r2kXk
    rw [(r2k_xk_loop recipr knode nkLine _).1, List.length_append, r2k_flatMap_length _ nkLine _ (fun i _ => by simp), List.length_singleton, Nat.add_comm]
  · unfold r2kXk
    rw [(r2k_xk_loop recipr knode nkLine _).1]
    rfl
  · intro m hm
    have hi : m / nkLine < knode.length - 1 := Nat.div_lt_of_lt_mul (by rwa [Nat.mul_comm])
    have hj := Nat.mod_lt m hn
    have e : m / nkLine * nkLine + m % nkLine = m := Nat.div_add_mod' m nkLine
    have g1 := r2k_xk_get recipr knode nkLine hn hi hj.le
    have g2 := r2k_xk_get recipr knode nkLine hn hi (show m % nkLine + 1 ≤ nkLine by omega)
    have g3 := r2k_kpoints_get knode nkLine n1 n2 n3 hn hi hj.le
    have g4 := r2k_kpoints_get knode nkLine n1 n2 n3 hn hi (show m % nkLine + 1 ≤ nkLine by omega)
    rw [e] at g1 g3
    rw [← Nat.add_assoc, e] at g2 g4
    refine ⟨_, _, _, _, g1, g2, g3, g4, ?_⟩
    set dk := knode.getD (m / nkLine + 1) 0 - knode.getD (m / nkLine) 0 with hdk
    have hq : (nkLine : ℚ) ≠ 0 := by positivity
    have ed : (knode.getD (m / nkLine) 0 + (((m % nkLine + 1 : ℕ) : ℚ) / nkLine) • dk) - (knode.getD (m / nkLine) 0 + (((m % nkLine : ℕ) : ℚ) / nkLine) • dk) = ((1 : ℚ) / nkLine) • dk := by
      rw [add_sub_add_left_eq_sub, ← sub_smul]
      congr 1
      push_cast
      field_simp
      ring
    rw [ed, ← r2kKlen_cart hd, ← hrec, r2kKlen_smul recipr _ (by positivity)]
    unfold r2kS
    rw [← hdk]
    push_cast
    ring

/-- C86: the labels are at the nodes, and their distances are those of the nodes. -/
theorem C86_labels {d b : Fin 3 → Fin 3 → ℝ} (hd : IsDual d b) (hn : 0 < nkLine) (hk : 2 ≤ knode.length) :
    (r2kXk (r2kRecipr d) knode nkLine).2.length = knode.length ∧
    (∀ i < knode.length, (r2kXk (r2kRecipr d) knode nkLine).2[i]? = (r2kXk (r2kRecipr d) knode nkLine).1[i * nkLine]? ∧ (r2kKpoints knode nkLine n1 n2 n3)[i * nkLine]? = some (knode.getD i 0)) ∧
    ∀ i < knode.length - 1, (r2kXk (r2kRecipr d) knode nkLine).2.getD (i + 1) 0 - (r2kXk (r2kRecipr d) knode nkLine).2.getD i 0 = cartLen b (knode.getD (i + 1) 0 - knode.getD i 0) := by
  set recipr := r2kRecipr d with hrec
  have lab : ∀ i < knode.length, (r2kXk recipr knode nkLine).2[i]? = some (r2kX recipr knode nkLine i) := by
    intro i hi
    have e : (r2kXk recipr knode nkLine).2 = (List.range (knode.length - 1)).map (r2kX recipr knode nkLine) ++ [r2kX recipr knode nkLine (knode.length - 1)] := by
      change ((List.range (knode.length - 1)).foldl (r2kXkLine recipr knode nkLine) ([0], [])).2 ++ [((List.range (knode.length - 1)).foldl (r2kXkLine recipr knode nkLine) ([0], [])).1.getLastD 0] = _
      rw [(r2k_xk_loop recipr knode nkLine _).2, (r2k_xk_loop recipr knode nkLine _).1]
    rw [e]
    by_cases h : i < knode.length - 1
    · rw [List.getElem?_append_left (by simpa using h)]
      simp [List.getElem?_range h]
    · rw [List.getElem?_append_right (by simp; omega), show i = knode.length - 1 by omega]
      simp
  refine ⟨?_, fun i hi => ?_, fun i hi => ?_⟩
  · unfold r2kXk
    rw [(r2k_xk_loop recipr knode nkLine _).1]
    simp
    omega
  · rw [lab i hi]
    by_cases h : i < knode.length - 1
    · have g1 := r2k_xk_get recipr knode nkLine hn h (Nat.zero_le _)
      have g2 := r2k_kpoints_get knode nkLine n1 n2 n3 hn h (Nat.zero_le _)
      rw [Nat.add_zero] at g1 g2
      rw [g1, g2]
      simp
    · obtain ⟨j, hj⟩ : ∃ j, i = j + 1 := ⟨i - 1, by omega⟩
      have g1 := r2k_xk_get recipr knode nkLine hn (i := j) (by omega) le_rfl
      have g2 := r2k_kpoints_get knode nkLine n1 n2 n3 hn (i := j) (by omega) le_rfl
      rw [← Nat.succ_mul] at g1 g2
      rw [hj, g1, g2, div_self (by positivity)]
      simp [r2kX]
  · rw [List.getD_eq_getElem?_getD, List.getD_eq_getElem?_getD, lab _ (by omega), lab _ (by omega)]
    rw [← r2kKlen_cart hd, ← hrec]
    simp only [Option.getD_some, r2kX, r2kS, add_sub_cancel_left]
    field_simp

/-- C86: the vectors in the FermiSurfer file are the reciprocal lattice vectors. -/
theorem C86_recipr {d b : Fin 3 → Fin 3 → ℝ} (hd : IsDual d b) (j : Fin 3) : (fun x => r2kRecipr d x j) = b j := funext fun x => r2kRecipr_eq hd x j

-- an oblique lattice
example : IsDual ![![2, 0, 0], ![1, 1, 0], ![0, 0, 1]] ![![1 / 2, -1 / 2, 0], ![0, 1, 0], ![0, 0, 1]] := by
  intro i j
  fin_cases i <;> fin_cases j <;> norm_num [Fin.sum_univ_succ]

/-- C86: the head of a file with errors names the columns that hold the correlations: those between orbital `i` in cell 0 and orbital `j`. -/
theorem C86_columns_partial (norb : ℕ) (hn : norb ≤ 20) (x : ℝ) (ave err : ℕ → ℕ → ℕ → ℂ) (i j k : ℕ) (hi : i < norb) (hj : j < norb) (hk : k < 6) :
    ∃ h a b c d, (r2kHead r2kColsErr 24 (r2kPairs norb) 1)[i * norb + j]? = some ((i, j), h) ∧ h[k]? = some [some a, some b, some c, some d] ∧
      1 ≤ a ∧ 1 ≤ b ∧ 1 ≤ c ∧ 1 ≤ d ∧
      (r2kLineErr norb x ave err)[a - 1]? = some (ave (k + 1) j i).re ∧ (r2kLineErr norb x ave err)[b - 1]? = some (ave (k + 1) j i).im ∧
      (r2kLineErr norb x ave err)[c - 1]? = some (err (k + 1) j i).re ∧ (r2kLineErr norb x ave err)[d - 1]? = some (err (k + 1) j i).im := by
  have hp := r2kPairs_get hi hj
  have hm : i * norb + j < 400 := by nlinarith
  set m := i * norb + j with hmd
  have hh := r2kHead_get r2kColsErr 24 (r2kPairs norb) 1 m (i, j) hp
  have hl : ∀ q < 24, (r2kLineErr norb x ave err)[m * 24 + q + 1]? = (r2kSix (fun k => ave k j i) ++ r2kSix (fun k => err k j i))[q]? := by
    intro q hq
    rw [r2kLineErr, List.getElem?_cons_succ]
    exact r2k_blocks _ 24 (fun p => by simp [r2kSix]) _ m q (i, j) hp hq
  have i4 : ∀ q ≤ 24, r2kI4 (1 + m * 24 + q) = some (1 + m * 24 + q) := fun q hq => if_pos (by omega)
  refine ⟨_, 1 + m * 24 + (2 * k + 1), 1 + m * 24 + (2 * k + 2), 1 + m * 24 + (2 * k + 13), 1 + m * 24 + (2 * k + 14), hh, ?_, by omega, by omega, by omega, by omega, ?_, ?_, ?_, ?_⟩
  · rw [← i4 _ (by omega), ← i4 _ (by omega), ← i4 _ (by omega), ← i4 _ (by omega)]
    interval_cases k <;> rfl
  · rw [show 1 + m * 24 + (2 * k + 1) - 1 = m * 24 + 2 * k + 1 by omega, hl _ (by omega)]
    interval_cases k <;> rfl
  · rw [show 1 + m * 24 + (2 * k + 2) - 1 = m * 24 + (2 * k + 1) + 1 by omega, hl _ (by omega)]
    interval_cases k <;> rfl
  · rw [show 1 + m * 24 + (2 * k + 13) - 1 = m * 24 + (2 * k + 12) + 1 by omega, hl _ (by omega)]
    interval_cases k <;> rfl
  · rw [show 1 + m * 24 + (2 * k + 14) - 1 = m * 24 + (2 * k + 13) + 1 by omega, hl _ (by omega)]
    interval_cases k <;> rfl

/-- C86: violated: from 21 orbitals on some columns are written as asterisks. -/
theorem C86_columns_violated (norb : ℕ) (hn : 21 ≤ norb) : ∃ e ∈ r2kHead r2kColsErr 24 (r2kPairs norb) 1, ∃ l ∈ e.2, none ∈ l := by
  have hp := r2kPairs_get (norb := norb) (i := norb - 1) (j := norb - 1) (by omega) (by omega)
  have hh := r2kHead_get r2kColsErr 24 (r2kPairs norb) 1 _ _ hp
  refine ⟨_, List.mem_of_getElem? hh, _, List.mem_cons_self, ?_⟩
  have hm : 440 ≤ (norb - 1) * norb + (norb - 1) := by
    obtain ⟨t, rfl⟩ : ∃ t, norb = t + 21 := ⟨norb - 21, by omega⟩
    rw [show t + 21 - 1 = t + 20 by omega]
    nlinarith
  set m := (norb - 1) * norb + (norb - 1)
  simp only [List.map_cons, List.map_nil, List.mem_cons]
  left
  rw [r2kI4, if_neg (by omega)]

/-- C86: the same for files without errors. -/
theorem C86_columns_hphi_partial (norb : ℕ) (hn : norb ≤ 9) (x : ℝ) (cor : ℕ → ℕ → ℕ → ℂ) :
    r2kRecords (r2kLine norb x cor) = [r2kLine norb x cor] ∧
    ∀ i < norb, ∀ j < norb, ∀ k < 6, ∃ h a b, (r2kHead r2kCols 12 (r2kPairs norb) 1)[i * norb + j]? = some ((i, j), h) ∧ h[k]? = some [some a, some b] ∧ 1 ≤ a ∧ 1 ≤ b ∧
      (r2kLine norb x cor)[a - 1]? = some (cor (k + 1) j i).re ∧ (r2kLine norb x cor)[b - 1]? = some (cor (k + 1) j i).im := by
  have six : ∀ c, (r2kSix c).length = 12 := fun c => by simp [r2kSix]
  have row : ∀ o2, ((List.range norb).flatMap fun o1 => r2kSix fun k => cor k o1 o2).length = norb * 12 := fun o2 => r2k_flatMap_length _ 12 norb (fun i _ => six _)
  have len : (r2kLine norb x cor).length = norb * (norb * 12) + 1 := by
    rw [r2kLine, List.length_cons, r2k_flatMap_length _ (norb * 12) norb (fun i _ => row i)]
  constructor
  · have hlt : norb * (norb * 12) < 1000 := by nlinarith
    unfold r2kRecords
    rw [show ((r2kLine norb x cor).length + 999) / 1000 = 1 by rw [len]; omega]
    simp only [List.range_one, List.map_cons, List.map_nil, Nat.mul_zero, List.drop_zero]
    rw [List.take_of_length_le (by omega)]
  · intro i hi j hj k hk
    have hp := r2kPairs_get hi hj
    have hm : i * norb + j < 400 := by nlinarith
    have hl : ∀ q < 12, (r2kLine norb x cor)[(i * norb + j) * 12 + q + 1]? = (r2kSix (fun k => cor k j i))[q]? := by
      intro q hq
      have hjq : j * 12 + q < norb * 12 := by omega
      rw [r2kLine, List.getElem?_cons_succ, show (i * norb + j) * 12 + q = i * (norb * 12) + (j * 12 + q) by ring,
        r2k_flatMap_get _ (norb * 12) norb (fun i _ => row i) i hi _ hjq, r2k_flatMap_get _ 12 norb (fun i _ => six _) j hj q hq]
    set m := i * norb + j with hmd
    have hh := r2kHead_get r2kCols 12 (r2kPairs norb) 1 m (i, j) hp
    have i4 : ∀ q ≤ 24, r2kI4 (1 + m * 12 + q) = some (1 + m * 12 + q) := fun q hq => if_pos (by omega)
    refine ⟨_, 1 + m * 12 + (2 * k + 1), 1 + m * 12 + (2 * k + 2), hh, ?_, by omega, by omega, ?_, ?_⟩
    · rw [← i4 _ (by omega), ← i4 _ (by omega)]
      interval_cases k <;> rfl
    · rw [show 1 + m * 12 + (2 * k + 1) - 1 = m * 12 + 2 * k + 1 by omega, hl _ (by omega)]
      interval_cases k <;> rfl
    · rw [show 1 + m * 12 + (2 * k + 2) - 1 = m * 12 + (2 * k + 1) + 1 by omega, hl _ (by omega)]
      interval_cases k <;> rfl

/-- C86: violated: from ten orbitals on a line is broken after 1000 numbers. -/
theorem C86_records_violated (norb : ℕ) (hn : 10 ≤ norb) (x : ℝ) (cor : ℕ → ℕ → ℕ → ℂ) : 2 ≤ (r2kRecords (r2kLine norb x cor)).length := by
  have len : (r2kLine norb x cor).length = norb * (norb * 12) + 1 := by
    rw [r2kLine, List.length_cons, r2k_flatMap_length _ (norb * 12) norb (fun i _ => r2k_flatMap_length _ 12 norb (fun i _ => by simp [r2kSix]))]
  unfold r2kRecords
  rw [List.length_map, List.length_range, len]
  have : 1200 ≤ norb * (norb * 12) := by nlinarith
  omega

/-- C86: the FermiSurfer file has the occupation of every orbital at every point of the grid, the last index of the grid runs fastest. -/
theorem C86_fermi (norb : ℕ) (F : ℚ × ℚ × ℚ → ℕ → ℕ → ℕ → ℂ) :
    let path := (knode.length - 1) * nkLine + 1
    let out := r2kFrmsf path (r2kNk knode.length nkLine n1 n2 n3) norb fun ik => F ((r2kKpoints knode nkLine n1 n2 n3).getD ik 0)
    out.1.length = norb * (n1 * n2 * n3) ∧ out.2.length = norb * (n1 * n2 * n3) ∧
    ∀ o < norb, ∀ i1 < n1, ∀ i2 < n2, ∀ i3 < n3,
      out.1[o * (n1 * n2 * n3) + ((i1 * n2 + i2) * n3 + i3)]? = some ((F (i1 / n1, i2 / n2, i3 / n3) 1 o o + F (i1 / n1, i2 / n2, i3 / n3) 2 o o).re) ∧
      out.2[o * (n1 * n2 * n3) + ((i1 * n2 + i2) * n3 + i3)]? = some (o + 1 : ℝ) := by
  intro path out
  have hsz : r2kNk knode.length nkLine n1 n2 n3 - path = n1 * n2 * n3 := by
    simp only [path, r2kNk, Nat.mul_comm nkLine]
    omega
  obtain ⟨-, -, -, hg⟩ := C84_kpoints knode nkLine n1 n2 n3
  refine ⟨?_, ?_, fun o ho i1 h1 i2 h2 i3 h3 => ?_⟩
  · simp only [out, r2kFrmsf, hsz]
    exact r2k_flatMap_length _ _ _ fun i _ => by simp
  · simp only [out, r2kFrmsf, hsz]
    exact r2k_flatMap_length _ _ _ fun i _ => by simp
  · have hlt : (i1 * n2 + i2) * n3 + i3 < n1 * n2 * n3 := by
      have a : (i1 * n2 + i2) + 1 ≤ n1 * n2 := by
        have := Nat.mul_le_mul_right n2 (show i1 + 1 ≤ n1 by omega)
        rw [Nat.succ_mul] at this
        omega
      have := Nat.mul_le_mul_right n3 a
      rw [Nat.succ_mul] at this
      omega
    have hk := hg i1 h1 i2 h2 i3 h3
    rw [show 1 + (knode.length - 1) * nkLine = path by simp only [path]; omega] at hk
    constructor
    · simp only [out, r2kFrmsf, hsz]
      rw [r2k_flatMap_get _ _ _ (fun i _ => by simp) o ho _ hlt]
      simp only [List.getElem?_map, List.getElem?_range hlt, Option.map_some, List.getD_eq_getElem?_getD, hk, Option.getD_some, Complex.add_re]
    · simp only [out, r2kFrmsf, hsz]
      rw [r2k_flatMap_get _ _ _ (fun i _ => by simp) o ho _ hlt]
      simp only [List.getElem?_map, List.getElem?_range hlt, Option.map_some]
      push_cast
      rfl

-- two orbitals: columns of the third correlation between orbital 0 and orbital 1, with errors
example : ((r2kHead r2kColsErr 24 (r2kPairs 2) 1)[1]?.bind fun e => e.2[2]?) = some [some 30, some 31, some 42, some 43] := by decide

end MVMC
