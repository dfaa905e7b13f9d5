import Verif.Proof.OptUse

/-!
# C89: which components are optimised is decided by the input files

The memory of `OptFlag` is not cleared before the files are read. Whatever it contained, the list of optimised components has to be the same.
-/

namespace MVMC

/-- C89: if all groups are complex, the list of optimised components is the same for every previous contents of the memory. It has a
component of a parameter exactly if the flag of the parameter in its file is 1 and the overlap diagonal is not below the cut (for parallel
orbitals: the flag for real parts, the complex flag of the group for imaginary parts). Missing: real groups, see `C89_real_partial` and
`C89_mixed_violated`. -/
theorem C89_complex_partial (S : IOSizes) (fs : List (InKW × ℤ × List (ℤ × ℤ))) (H : FlagFiles S fs) (hc : flagCount S fs = S.nPara)
    (hall : ∀ f ∈ fs, f.1 ≠ .orbP → f.2.1 > 0) (sd : ℕ → ℝ) (redCut : ℝ) :
    ∃ l, (∀ mem, chosen S (encFiles fs) sd redCut mem = .ok l) ∧ l.Pairwise (· < ·) ∧
      (∀ pi ∈ l, pi < 2 * S.nPara) ∧
      (∀ f ∈ fs, f.1 ≠ .orbP → ∀ k (h : k < f.2.2.length), ∀ b < 2,
        (2 * (inOffset S f.1 + k) + b ∈ l ↔ 2 * (inOffset S f.1 + k) + b < 2 * S.nPara ∧ (f.2.2[k]).2 = 1 ∧
          sDiagMax (2 * S.nPara) sd * redCut ≤ sd (2 * (inOffset S f.1 + k) + b))) ∧
      (∀ f ∈ fs, f.1 = .orbP → ∀ k (h : k < f.2.2.length), ∀ s < 2, ∀ b < 2,
        (2 * (inOffset S f.1 + (2 * k + s)) + b ∈ l ↔ 2 * (inOffset S f.1 + (2 * k + s)) + b < 2 * S.nPara ∧
          (if b = 0 then (f.2.2[k]).2 else f.2.1) = 1 ∧
          sDiagMax (2 * S.nPara) sd * redCut ≤ sd (2 * (inOffset S f.1 + (2 * k + s)) + b))) := by
  have run : ∀ mem, readIdxParaFlags S (encFiles fs) 0 (freshFlags mem) =
      .ok (fs.foldl (fun o f => fileFlags S f.1 f.2.1 (f.2.2.map Prod.snd) o) (freshFlags mem)) := by
    intro mem
    rw [readIdxParaFlags_enc S H.rbm fs 0 _ H.opt H.len, Nat.zero_add, if_neg (not_not.2 hc)]
  obtain ⟨o, ho, hv, hvP⟩ := (C39_flags_partial S fs H (freshFlags fun _ => 0)).2 hc
  have hsel := C30_selection (2 * S.nPara) (flagAt o) sd redCut
  refine ⟨smatToPara (2 * S.nPara) (flagAt o) sd redCut, ?_, hsel.2, fun pi h => ((hsel.1 pi).1 h).1, ?_, ?_⟩
  · intro mem
    have e0 := run fun _ => 0
    rw [ho] at e0
    injection e0 with e0
    unfold chosen
    rw [run mem]
    refine congrArg RdOut.ok (smatToPara_congr _ _ _ _ _ fun pi hpi _ => ?_)
    unfold flagAt
    rw [e0, foldFlags_mem_eq S fs H hc (freshFlags mem) (freshFlags fun _ => 0) pi hpi (Or.inr hall)]
  · intro f hf hp k h b hb
    rw [hsel.1]
    unfold Selected
    have hk := hv f hf hp k h
    have : flagAt o (2 * (inOffset S f.1 + k) + b) = (f.2.2[k]).2 := by
      unfold flagAt
      rcases (by omega : b = 0 ∨ b = 1) with rfl | rfl
      · rw [Nat.add_zero, hk.1]; rfl
      · rw [hk.2.1 (hall f hf hp)]; rfl
    rw [this]
  · intro f hf hp k h s hs b hb
    rw [hsel.1]
    unfold Selected
    have hk := hvP f hf hp k h s hs
    have : flagAt o (2 * (inOffset S f.1 + (2 * k + s)) + b) = (if b = 0 then (f.2.2[k]).2 else f.2.1) := by
      unfold flagAt
      rcases (by omega : b = 0 ∨ b = 1) with rfl | rfl
      · rw [Nat.add_zero, hk.1]; rfl
      · rw [hk.2]; rfl
    rw [this]

/-- C89: if all parameters are real and the cut is positive, the list is the same for every previous contents of the memory, it has no imaginary
parts, and it has the real part of a parameter exactly if its flag is 1 and its overlap diagonal is not below the cut. Missing: the
cut 0 (`C89_nocut_violated`). -/
theorem C89_real_partial (S : IOSizes) (fs : List (InKW × ℤ × List (ℤ × ℤ))) (H : FlagFiles S fs) (hc : flagCount S fs = S.nPara)
    (OOr : ℕ → ℝ) (redCut : ℝ)
    (hcut : 0 < sDiagMax (2 * S.nPara) (sDiag (2 * (S.nPara + 1)) (expandReal (S.nPara + 1) OOr)) * redCut) :
    ∃ l, (∀ mem, chosen S (encFiles fs) (sDiag (2 * (S.nPara + 1)) (expandReal (S.nPara + 1) OOr)) redCut mem = .ok l) ∧
      l.Pairwise (· < ·) ∧ (∀ pi ∈ l, pi < 2 * S.nPara ∧ pi % 2 = 0) ∧
      (∀ f ∈ fs, f.1 ≠ .orbP → ∀ k (h : k < f.2.2.length),
        (2 * (inOffset S f.1 + k) ∈ l ↔ 2 * (inOffset S f.1 + k) < 2 * S.nPara ∧ (f.2.2[k]).2 = 1 ∧
          sDiagMax (2 * S.nPara) (sDiag (2 * (S.nPara + 1)) (expandReal (S.nPara + 1) OOr)) * redCut ≤
            sDiag (2 * (S.nPara + 1)) (expandReal (S.nPara + 1) OOr) (2 * (inOffset S f.1 + k)))) ∧
      (∀ f ∈ fs, f.1 = .orbP → ∀ k (h : k < f.2.2.length), ∀ s < 2,
        (2 * (inOffset S f.1 + (2 * k + s)) ∈ l ↔ 2 * (inOffset S f.1 + (2 * k + s)) < 2 * S.nPara ∧ (f.2.2[k]).2 = 1 ∧
          sDiagMax (2 * S.nPara) (sDiag (2 * (S.nPara + 1)) (expandReal (S.nPara + 1) OOr)) * redCut ≤
            sDiag (2 * (S.nPara + 1)) (expandReal (S.nPara + 1) OOr) (2 * (inOffset S f.1 + (2 * k + s))))) := by
  have run : ∀ mem, readIdxParaFlags S (encFiles fs) 0 (freshFlags mem) =
      .ok (fs.foldl (fun o f => fileFlags S f.1 f.2.1 (f.2.2.map Prod.snd) o) (freshFlags mem)) := by
    intro mem
    rw [readIdxParaFlags_enc S H.rbm fs 0 _ H.opt H.len, Nat.zero_add, if_neg (not_not.2 hc)]
  obtain ⟨o, ho, hv, hvP⟩ := (C39_flags_partial S fs H (freshFlags fun _ => 0)).2 hc
  set sd := sDiag (2 * (S.nPara + 1)) (expandReal (S.nPara + 1) OOr) with hsd
  have hsel := C30_selection (2 * S.nPara) (flagAt o) sd redCut
  have even : ∀ pi < 2 * S.nPara, sDiagMax (2 * S.nPara) sd * redCut ≤ sd pi → pi % 2 = 0 := by
    intro pi hpi hle
    by_contra hodd
    have := sDiag_expandReal_odd S.nPara OOr pi hpi (by omega)
    rw [hsd, this] at hle
    exact absurd hcut (not_lt.2 hle)
  refine ⟨smatToPara (2 * S.nPara) (flagAt o) sd redCut, ?_, hsel.2, ?_, ?_, ?_⟩
  · intro mem
    have e0 := run fun _ => 0
    rw [ho] at e0
    injection e0 with e0
    unfold chosen
    rw [run mem]
    refine congrArg RdOut.ok (smatToPara_congr _ _ _ _ _ fun pi hpi hle => ?_)
    unfold flagAt
    rw [e0, foldFlags_mem_eq S fs H hc (freshFlags mem) (freshFlags fun _ => 0) pi hpi (Or.inl (even pi hpi hle))]
  · intro pi h
    obtain ⟨h1, h2⟩ := (hsel.1 pi).1 h
    exact ⟨h1, even pi h1 h2.2⟩
  · intro f hf hp k h
    rw [hsel.1]
    unfold Selected
    have : flagAt o (2 * (inOffset S f.1 + k)) = (f.2.2[k]).2 := by
      unfold flagAt
      rw [(hv f hf hp k h).1]; rfl
    rw [this]
  · intro f hf hp k h s hs
    rw [hsel.1]
    unfold Selected
    have : flagAt o (2 * (inOffset S f.1 + (2 * k + s))) = (f.2.2[k]).2 := by
      unfold flagAt
      rw [(hvP f hf hp k h s hs).1]; rfl
    rw [this]

/-- C89: the conjugate gradient optimiser for real parameters reads flags of the files only, for every cut and whether the groups are real or
complex. -/
theorem C89_cg_real (S : IOSizes) (fs : List (InKW × ℤ × List (ℤ × ℤ))) (H : FlagFiles S fs) (hc : flagCount S fs = S.nPara)
    (sd : ℕ → ℝ) (redCut : ℝ) :
    ∃ l, (∀ mem, chosenRealCG S (encFiles fs) sd redCut mem = .ok l) ∧ l.Pairwise (· < ·) ∧ (∀ pi ∈ l, pi < S.nPara) ∧
      (∀ f ∈ fs, f.1 ≠ .orbP → ∀ k (h : k < f.2.2.length), (inOffset S f.1 + k ∈ l ↔ inOffset S f.1 + k < S.nPara ∧
        (f.2.2[k]).2 = 1 ∧ sDiagMax S.nPara sd * redCut ≤ sd (inOffset S f.1 + k))) ∧
      (∀ f ∈ fs, f.1 = .orbP → ∀ k (h : k < f.2.2.length), ∀ s < 2, (inOffset S f.1 + (2 * k + s) ∈ l ↔
        inOffset S f.1 + (2 * k + s) < S.nPara ∧ (f.2.2[k]).2 = 1 ∧ sDiagMax S.nPara sd * redCut ≤ sd (inOffset S f.1 + (2 * k + s)))) := by
  have run : ∀ mem, readIdxParaFlags S (encFiles fs) 0 (freshFlags mem) =
      .ok (fs.foldl (fun o f => fileFlags S f.1 f.2.1 (f.2.2.map Prod.snd) o) (freshFlags mem)) := by
    intro mem
    rw [readIdxParaFlags_enc S H.rbm fs 0 _ H.opt H.len, Nat.zero_add, if_neg (not_not.2 hc)]
  obtain ⟨o, ho, hv, hvP⟩ := (C39_flags_partial S fs H (freshFlags fun _ => 0)).2 hc
  have hsel := C30_selection S.nPara (fun pi => flagAt o (2 * pi)) sd redCut
  refine ⟨smatToPara S.nPara (fun pi => flagAt o (2 * pi)) sd redCut, ?_, hsel.2, fun pi h => ((hsel.1 pi).1 h).1, ?_, ?_⟩
  · intro mem
    have e0 := run fun _ => 0
    rw [ho] at e0
    injection e0 with e0
    unfold chosenRealCG
    rw [run mem]
    refine congrArg RdOut.ok (smatToPara_congr _ _ _ _ _ fun pi hpi _ => ?_)
    unfold flagAt
    rw [e0, foldFlags_mem_eq S fs H hc (freshFlags mem) (freshFlags fun _ => 0) (2 * pi) (by omega) (Or.inl (by omega))]
  · intro f hf hp k h
    rw [hsel.1]
    unfold Selected
    dsimp only
    have : flagAt o (2 * (inOffset S f.1 + k)) = (f.2.2[k]).2 := by
      unfold flagAt
      rw [(hv f hf hp k h).1]; rfl
    rw [this]
  · intro f hf hp k h s hs
    rw [hsel.1]
    unfold Selected
    dsimp only
    have : flagAt o (2 * (inOffset S f.1 + (2 * k + s))) = (f.2.2[k]).2 := by
      unfold flagAt
      rw [(hvP f hf hp k h s hs).1]; rfl
    rw [this]

/-- Files with an on-site factor, a Jastrow factor (complex flag `c`) and two orbitals, the second one fixed. -/
def useEx (c : ℤ) : List (InKW × ℤ × List (ℤ × ℤ)) := [(.gutz, 1, [(0, 1)]), (.jast, c, [(0, 1)]), (.orb, 1, [(0, 1), (1, 0)])]

theorem useEx_files (c : ℤ) : FlagFiles flagEx (useEx c) := by
  constructor
  · simp [useEx, flagSlot]
  · intro f hf e
    simp only [useEx, List.mem_cons, List.not_mem_nil, or_false] at hf
    rcases hf with rfl | rfl | rfl <;> cases e
  · intro f hf
    simp only [useEx, List.mem_cons, List.not_mem_nil, or_false] at hf
    rcases hf with rfl | rfl | rfl <;> simp
  · intro f hf
    simp only [useEx, List.mem_cons, List.not_mem_nil, or_false] at hf
    rcases hf with rfl | rfl | rfl <;> rfl
  · intro _; rfl

/-- With a complex Jastrow factor both parts of the first orbital are chosen and none of the second. -/
example : ∃ l, (∀ mem, chosen flagEx (encFiles (useEx 1)) (fun _ => 1) 0 mem = .ok l) ∧ 4 ∈ l ∧ 5 ∈ l ∧ 6 ∉ l ∧ 7 ∉ l := by
  obtain ⟨l, h, -, -, hv, -⟩ := C89_complex_partial flagEx (useEx 1) (useEx_files 1) rfl (by decide) (fun _ => 1) 0
  have g := hv (.orb, 1, [(0, 1), (1, 0)]) (by simp [useEx]) (by decide)
  refine ⟨l, h, ?_, ?_, ?_, ?_⟩
  · exact (g 0 (by simp) 0 (by simp)).2 ⟨by decide, rfl, by simp⟩
  · exact (g 0 (by simp) 1 (by simp)).2 ⟨by decide, rfl, by simp⟩
  · exact fun hm => absurd ((g 1 (by simp) 0 (by simp)).1 hm).2.1 (by decide)
  · exact fun hm => absurd ((g 1 (by simp) 1 (by simp)).1 hm).2.1 (by decide)

/-- With real parameters and an overlap matrix with diagonal 1 the real parts of the free parameters are chosen. -/
example : ∃ l, (∀ mem, chosen flagEx (encFiles (useEx 0)) (sDiag 10 (expandReal 5 fun k => if k % 6 = 0 ∧ 0 < k then 1 else 0)) (1 / 2) mem =
    .ok l) ∧ 3 ∉ l ∧ 6 ∉ l := by
  have h0 := (C30_max 8 (sDiag 10 (expandReal 5 fun k => if k % 6 = 0 ∧ 0 < k then 1 else 0)) (by norm_num)).1 0 (by norm_num)
  have e : sDiag 10 (expandReal 5 fun k => if k % 6 = 0 ∧ 0 < k then 1 else 0) 0 = 1 := by
    norm_num [sDiag, expandReal]
  rw [e] at h0
  obtain ⟨l, h, -, hev, hv, -⟩ := C89_real_partial flagEx (useEx 0) (useEx_files 0) rfl (fun k => if k % 6 = 0 ∧ 0 < k then 1 else 0) (1 / 2)
    (mul_pos (lt_of_lt_of_le one_pos h0) (by norm_num))
  refine ⟨l, h, fun hm => absurd (hev 3 hm).2 (by decide), fun hm => ?_⟩
  exact absurd ((hv (.orb, 1, [(0, 1), (1, 0)]) (by simp [useEx]) (by decide) 1 (by simp)).1 hm).2.1 (by decide)

/-- What the optimiser does with the imaginary part of the real Jastrow factor of `useEx 0` (component 3). -/
theorem useEx_mem (sd : ℕ → ℝ) (redCut : ℝ) (mem : ℕ → ℤ) (hsd : sDiagMax 8 sd * redCut ≤ sd 3) :
    ∃ l, chosen flagEx (encFiles (useEx 0)) sd redCut mem = .ok l ∧ (3 ∈ l ↔ mem 3 = 1) := by
  obtain ⟨o, ho, hv, -⟩ := (C39_flags_partial flagEx (useEx 0) (useEx_files 0) (freshFlags mem)).2 rfl
  have g := (hv (.jast, 0, [(0, 1)]) (by simp [useEx]) (by decide) 0 (by simp)).2.2 (by decide)
  refine ⟨smatToPara (2 * flagEx.nPara) (flagAt o) sd redCut, by unfold chosen; rw [ho], ?_⟩
  rw [(C30_selection _ _ _ _).1]
  unfold Selected flagAt
  have e : 2 * (inOffset flagEx .jast + 0) + 1 = 3 := by decide
  dsimp only at g
  rw [e] at g
  rw [g]
  exact ⟨fun h => h.2.1, fun h => ⟨by decide, h, hsd⟩⟩

/-- C89 is violated by the code if a real group is used together with a complex one: the imaginary part of the real parameter is optimised
or not depending on what the memory contained. -/
theorem C89_mixed_violated : ∃ l0 l1, chosen flagEx (encFiles (useEx 0)) (fun _ => 1) (1 / 1000) (fun _ => 0) = .ok l0 ∧
    chosen flagEx (encFiles (useEx 0)) (fun _ => 1) (1 / 1000) (fun _ => 1) = .ok l1 ∧ 3 ∉ l0 ∧ 3 ∈ l1 := by
  have hmax : sDiagMax 8 (fun _ => (1 : ℝ)) * (1 / 1000) ≤ 1 := by
    obtain ⟨-, pi, -, h⟩ := C30_max 8 (fun _ => (1 : ℝ)) (by norm_num)
    rw [h]; norm_num
  obtain ⟨l0, h0, g0⟩ := useEx_mem (fun _ => 1) (1 / 1000) (fun _ => 0) hmax
  obtain ⟨l1, h1, g1⟩ := useEx_mem (fun _ => 1) (1 / 1000) (fun _ => 1) hmax
  exact ⟨l0, l1, h0, h1, fun h => absurd (g0.1 h) (by decide), g1.2 rfl⟩

/-- C89 is violated by the code in real mode without a cut (`DSROptRedCut = 0`), for every overlap matrix: an imaginary part, whose row of the
overlap matrix is zero, is optimised or not depending on what the memory contained. -/
theorem C89_nocut_violated (OOr : ℕ → ℝ) :
    ∃ l0 l1, chosen flagEx (encFiles (useEx 0)) (sDiag 10 (expandReal 5 OOr)) 0 (fun _ => 0) = .ok l0 ∧
      chosen flagEx (encFiles (useEx 0)) (sDiag 10 (expandReal 5 OOr)) 0 (fun _ => 1) = .ok l1 ∧ 3 ∉ l0 ∧ 3 ∈ l1 := by
  have hmax : sDiagMax 8 (sDiag 10 (expandReal 5 OOr)) * 0 ≤ sDiag 10 (expandReal 5 OOr) 3 := by
    rw [mul_zero, sDiag_expandReal_odd 4 OOr 3 (by norm_num) (by norm_num)]
  obtain ⟨l0, h0, g0⟩ := useEx_mem _ 0 (fun _ => 0) hmax
  obtain ⟨l1, h1, g1⟩ := useEx_mem _ 0 (fun _ => 1) hmax
  exact ⟨l0, l1, h0, h1, fun h => absurd (g0.1 h) (by decide), g1.2 rfl⟩

end MVMC
