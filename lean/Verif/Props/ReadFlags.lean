import Verif.Proof.ReadFlags
import Verif.Props.ReadDef

/-!
# C39: optimisation flags

A parameter is `Para[inOffset S kw + k]`, entry `k` of group `kw` (the same numbering as
the parameter files of C42); its flags are `OptFlag[2 * (inOffset S kw + k)]` (real part)
and the entry behind it (imaginary part).
-/

namespace MVMC

/-- The three orbital files share one place. -/
def flagSlot : InKW → InKW
  | .orbAP => .orb
  | .orbG => .orb
  | kw => kw

/-- The files of a run: no group twice, no general orbital file together with a parallel
one, no transformation file; each file has one flag per parameter (per pair of
parameters for parallel orbitals). -/
structure FlagFiles (S : IOSizes) (fs : List (InKW × ℤ × List (ℤ × ℤ))) : Prop where
  once : (fs.map fun f => flagSlot f.1).Nodup
  orbs : ∀ f ∈ fs, f.1 = .orbG → ∀ g ∈ fs, g.1 ≠ .orbP
  opt : ∀ f ∈ fs, f.1 ≠ .opt
  len : ∀ f ∈ fs, f.2.2.length = optNumber S f.1
  rbm : S.flagRBM = false → S.nRBM = 0

/-- C39: the first flag of each group is that of its first parameter. -/
theorem C39_layout (S : IOSizes) (kw : InKW) (h : kw ≠ .opt) : optOffset S kw = inOffset S kw := by
  cases kw <;> first | exact absurd rfl h | rfl | simp [optOffset, inOffset, IOSizes.oRBM, Nat.add_assoc]

theorem inLen_opt (S : IOSizes) (kw : InKW) :
    inLen S kw = if kw = .orbP then 2 * optNumber S kw else optNumber S kw := by
  cases kw <;> simp [inLen, optNumber]
  all_goals
    intro h
    rcases hS : S.orb with n | ⟨a, b⟩ | n <;> simp_all [OrbKind.isGeneral, OrbKind.nOrb, OrbKind.nAP]

/-- Position of the groups in the flag array. -/
def flagRank : InKW → ℕ
  | .gutz => 0 | .jast => 1 | .dh2 => 2 | .dh4 => 3
  | .cP => 4 | .sP => 5 | .gP => 6 | .cH => 7 | .sH => 8 | .gH => 9 | .cX => 10 | .sX => 11 | .gX => 12
  | .orb => 13 | .orbAP => 13 | .orbG => 13 | .orbP => 14 | .opt => 15

/-- Start of position `r`. -/
def rankStart (S : IOSizes) : ℕ → ℕ
  | 0 => 0
  | 1 => S.nG
  | 2 => S.nG + S.nJ
  | 3 => S.nG + S.nJ + 2 * 3 * S.n2
  | 4 => S.nProj
  | 5 => S.nProj + S.cP
  | 6 => S.nProj + S.cP + S.sP
  | 7 => S.nProj + S.nPhys
  | 8 => S.nProj + S.nPhys + S.cH
  | 9 => S.nProj + S.nPhys + S.cH + S.sH
  | 10 => S.nProj + S.nPhys + S.nHid
  | 11 => S.nProj + S.nPhys + S.nHid + S.cX
  | 12 => S.nProj + S.nPhys + S.nHid + S.cX + S.sX
  | 13 => S.nProj + S.nR
  | 14 => S.nProj + S.nR + S.orb.nAP
  | _ => S.nProj + S.nR + S.orb.nOrb

theorem nAP_le (o : OrbKind) : o.nAP + 2 * o.nP ≤ o.nOrb := by
  cases o <;> simp [OrbKind.nAP, OrbKind.nP, OrbKind.nOrb]

theorem rankStart_succ (S : IOSizes) (h : S.flagRBM = false → S.nRBM = 0) (r : ℕ) :
    rankStart S r ≤ rankStart S (r + 1) := by
  have hR : S.nR = S.nRBM := by
    unfold IOSizes.nR
    split_ifs with c
    · rfl
    · exact (h (by simpa using c)).symm
  have hAP := nAP_le S.orb
  match r with
  | 0 | 1 | 2 | 3 | 4 | 5 | 6 | 7 | 8 | 9 | 10 | 11 | 12 | 13 | 14 =>
    simp only [rankStart, IOSizes.nProj, IOSizes.nPhys, IOSizes.nHid, hR, IOSizes.nRBM]
    omega
  | _ + 15 => exact le_refl _

theorem rankStart_mono (S : IOSizes) (h : S.flagRBM = false → S.nRBM = 0) : Monotone (rankStart S) :=
  monotone_nat_of_le_succ (rankStart_succ S h)

theorem group_start (S : IOSizes) (kw : InKW) (hk : kw ≠ .opt) :
    optOffset S kw = rankStart S (flagRank kw) := by
  cases kw <;> first | exact absurd rfl hk | rfl

theorem group_end (S : IOSizes) (h : S.flagRBM = false → S.nRBM = 0) (kw : InKW) (hk : kw ≠ .opt) :
    optOffset S kw + inLen S kw ≤ S.nPara ∧
    (kw ≠ .orbG → optOffset S kw + inLen S kw ≤ rankStart S (flagRank kw + 1)) := by
  have hR : S.nR = S.nRBM := by
    unfold IOSizes.nR
    split_ifs with c
    · rfl
    · exact (h (by simpa using c)).symm
  have hAP := nAP_le S.orb
  rw [inLen_opt]
  cases kw <;> first
    | exact absurd rfl hk
    | (simp only [optOffset, optNumber, rankStart, flagRank, IOSizes.nProj, IOSizes.nPhys, IOSizes.nHid, hR,
        IOSizes.nRBM, IOSizes.nPara, IOSizes.nSlater, reduceCtorEq, if_false, if_true]
       refine ⟨by omega, fun _ => ?_⟩
       first | omega | contradiction)

theorem groups_apart (S : IOSizes) (h : S.flagRBM = false → S.nRBM = 0) (a b : InKW) (ha : a ≠ .opt)
    (hb : b ≠ .opt) (hab : flagSlot a ≠ flagSlot b) (ho : a = .orbG → b ≠ .orbP)
    (ho' : b = .orbG → a ≠ .orbP) :
    optOffset S a + inLen S a ≤ optOffset S b ∨ optOffset S b + inLen S b ≤ optOffset S a := by
  have hr : flagRank a ≠ flagRank b := by
    intro e
    apply hab
    revert e
    cases a <;> cases b <;> simp [flagRank, flagSlot]
  have mono := rankStart_mono S h
  have key : ∀ a b : InKW, a ≠ .opt → b ≠ .opt → (a = .orbG → b ≠ .orbP) → flagRank a < flagRank b →
      optOffset S a + inLen S a ≤ optOffset S b := by
    intro a b ha hb ho hlt
    by_cases hg : a = .orbG
    · subst hg
      have : b = .orbP := by
        revert hlt hb
        cases b <;> simp [flagRank]
      exact absurd this (ho rfl)
    · refine ((group_end S h a ha).2 hg).trans ?_
      rw [group_start S b hb]
      exact mono hlt
  rcases Nat.lt_or_ge (flagRank a) (flagRank b) with hlt | hge
  · exact Or.inl (key a b ha hb ho hlt)
  · exact Or.inr (key b a hb ha ho' (by omega))

/-- The files as `ReadDefFileIdxPara` meets them. -/
def encFiles (fs : List (InKW × ℤ × List (ℤ × ℤ))) : List (InKW × ℤ × List Tok) :=
  fs.map fun f => (f.1, f.2.1, encOpts f.2.2)

/-- The number of parameters with flags. -/
def flagCount (S : IOSizes) (fs : List (InKW × ℤ × List (ℤ × ℤ))) : ℕ := (fs.map fun f => inLen S f.1).sum

theorem readIdxParaFlags_enc (S : IOSizes) (hr : S.flagRBM = false → S.nRBM = 0) :
    ∀ (fs : List (InKW × ℤ × List (ℤ × ℤ))) (n : ℕ) (opt : Tab), (∀ f ∈ fs, f.1 ≠ .opt) →
    (∀ f ∈ fs, f.2.2.length = optNumber S f.1) →
    readIdxParaFlags S (encFiles fs) n opt = if n + flagCount S fs ≠ S.nPara then .err
      else .ok (fs.foldl (fun o f => fileFlags S f.1 f.2.1 (f.2.2.map Prod.snd) o) opt)
  | [], n, opt, _, _ => by simp [encFiles, readIdxParaFlags, flagCount]
  | f :: fs, n, opt, ho, hl => by
    have hf := ho f (by simp)
    have e : encFiles (f :: fs) = (f.1, f.2.1, encOpts f.2.2) :: encFiles fs := rfl
    rw [e, readIdxParaFlags, readFlags_enc S f.1 hf f.2.1 f.2.2 (hl f (by simp))
      (by have := (group_end S hr f.1 hf).1; omega) (inLen_opt S f.1)]
    dsimp only
    rw [readIdxParaFlags_enc S hr fs _ _ (fun g hg => ho g (by simp [hg])) (fun g hg => hl g (by simp [hg]))]
    have : n + inLen S f.1 + flagCount S fs = n + flagCount S (f :: fs) := by
      simp [flagCount, Nat.add_assoc]
    rw [this, List.foldl_cons]

theorem foldFlags_outside (S : IOSizes) (k : ℕ) : ∀ (fs : List (InKW × ℤ × List (ℤ × ℤ))) (opt : Tab),
    (∀ f ∈ fs, f.2.2.length = optNumber S f.1) →
    (∀ f ∈ fs, ¬ (optOffset S f.1 ≤ k / 2 ∧ k / 2 < optOffset S f.1 + inLen S f.1)) →
    fs.foldl (fun o f => fileFlags S f.1 f.2.1 (f.2.2.map Prod.snd) o) opt k = opt k
  | [], _, _, _ => rfl
  | f :: fs, opt, hl, ho => by
    rw [List.foldl_cons, foldFlags_outside S k fs _ (fun g hg => hl g (by simp [hg]))
      (fun g hg => ho g (by simp [hg]))]
    refine fileFlags_outside S _ _ _ _ ?_ k (ho f (by simp))
    rw [List.length_map, hl f (by simp), inLen_opt]

theorem fileFlags_congr (S : IOSizes) (kw : InKW) (c : ℤ) (fl : List ℤ) {opt opt2 : Tab} {k : ℕ}
    (h : opt k = opt2 k) : fileFlags S kw c fl opt k = fileFlags S kw c fl opt2 k := by
  unfold fileFlags
  split_ifs
  · unfold parFlags; rw [h]
  · unfold withFlags; rw [h]

theorem foldFlags_mem (S : IOSizes) (k : ℕ) : ∀ (fs : List (InKW × ℤ × List (ℤ × ℤ))) (opt : Tab),
    FlagFiles S fs → ∀ f ∈ fs, optOffset S f.1 ≤ k / 2 → k / 2 < optOffset S f.1 + inLen S f.1 →
    fs.foldl (fun o f => fileFlags S f.1 f.2.1 (f.2.2.map Prod.snd) o) opt k =
      fileFlags S f.1 f.2.1 (f.2.2.map Prod.snd) opt k
  | [], _, _, f, hf, _, _ => by simp at hf
  | g :: fs, opt, H, f, hf, h1, h2 => by
    have H' : FlagFiles S fs :=
      ⟨(List.nodup_cons.1 H.once).2, fun a ha e b hb => H.orbs a (by simp [ha]) e b (by simp [hb]),
        fun a ha => H.opt a (by simp [ha]), fun a ha => H.len a (by simp [ha]), H.rbm⟩
    have apart : ∀ a ∈ fs, optOffset S g.1 + inLen S g.1 ≤ optOffset S a.1 ∨
        optOffset S a.1 + inLen S a.1 ≤ optOffset S g.1 := by
      intro a ha
      refine groups_apart S H.rbm g.1 a.1 (H.opt g (by simp)) (H.opt a (by simp [ha])) ?_
        (fun e => H.orbs g (by simp) e a (by simp [ha])) (fun e => H.orbs a (by simp [ha]) e g (by simp))
      intro e
      refine (List.nodup_cons.1 H.once).1 ?_
      exact List.mem_map.2 ⟨a, ha, e.symm⟩
    rw [List.foldl_cons]
    rcases List.mem_cons.1 hf with rfl | hf
    · rw [foldFlags_outside S k fs _ H'.len]
      intro a ha
      have := apart a ha
      omega
    · rw [foldFlags_mem S k fs _ H' f hf h1 h2]
      have hg : fileFlags S g.1 g.2.1 (g.2.2.map Prod.snd) opt k = opt k := by
        refine fileFlags_outside S _ _ _ _ ?_ k ?_
        · rw [List.length_map, H.len g (by simp), inLen_opt]
        · have := apart f hf
          omega
      exact fileFlags_congr S _ _ _ hg

/-- C39: files with one flag per parameter are accepted iff together they have a flag for
every parameter. Then entry `k` of group `kw` gives the flag of the real part of
parameter `inOffset S kw + k`, and that of its imaginary part if the group is complex;
otherwise the latter is not set at all. -/
theorem C39_flags_partial (S : IOSizes) (fs : List (InKW × ℤ × List (ℤ × ℤ))) (H : FlagFiles S fs) (opt : Tab) :
    (flagCount S fs ≠ S.nPara → readIdxParaFlags S (encFiles fs) 0 opt = .err) ∧
    (flagCount S fs = S.nPara → ∃ opt', readIdxParaFlags S (encFiles fs) 0 opt = .ok opt' ∧
      (∀ f ∈ fs, f.1 ≠ .orbP → ∀ k (h : k < f.2.2.length),
        opt' (2 * (inOffset S f.1 + k)) = some (f.2.2[k]).2 ∧
        (f.2.1 > 0 → opt' (2 * (inOffset S f.1 + k) + 1) = some (f.2.2[k]).2) ∧
        (f.2.1 ≤ 0 → opt' (2 * (inOffset S f.1 + k) + 1) = opt (2 * (inOffset S f.1 + k) + 1))) ∧
      (∀ f ∈ fs, f.1 = .orbP → ∀ k (h : k < f.2.2.length), ∀ s < 2,
        opt' (2 * (inOffset S f.1 + (2 * k + s))) = some (f.2.2[k]).2 ∧
        opt' (2 * (inOffset S f.1 + (2 * k + s)) + 1) = some f.2.1)) := by
  have run := readIdxParaFlags_enc S H.rbm fs 0 opt H.opt H.len
  rw [Nat.zero_add] at run
  refine ⟨fun h => by rw [run, if_pos h], fun h => ?_⟩
  rw [if_neg (not_not.2 h)] at run
  refine ⟨_, run, ?_, ?_⟩
  · intro f hf hp k hk
    have hlen : inLen S f.1 = f.2.2.length := by rw [inLen_opt, if_neg hp, H.len f hf]
    have hoff := C39_layout S f.1 (H.opt f hf)
    have val : ∀ b < 2, fs.foldl (fun o f => fileFlags S f.1 f.2.1 (f.2.2.map Prod.snd) o) opt
        (2 * (inOffset S f.1 + k) + b) =
        if (2 * (inOffset S f.1 + k) + b) % 2 = 0 ∨ f.2.1 > 0 then some (f.2.2[k]).2
        else opt (2 * (inOffset S f.1 + k) + b) := by
      intro b hb
      have e : (2 * (inOffset S f.1 + k) + b) / 2 = inOffset S f.1 + k := by omega
      rw [foldFlags_mem S _ fs opt H f hf (by omega) (by omega), fileFlags, if_neg hp, withFlags, e, hoff,
        if_pos (by omega), Nat.add_sub_cancel_left, List.getElem?_map, List.getElem?_eq_getElem hk]
      rfl
    refine ⟨?_, fun hc => ?_, fun hc => ?_⟩
    · have := val 0 (by omega)
      rw [Nat.add_zero, if_pos (Or.inl (by omega))] at this
      exact this
    · rw [val 1 (by omega), if_pos (Or.inr hc)]
    · rw [val 1 (by omega), if_neg (by omega)]
  · intro f hf hp k hk s hs
    have hlen : inLen S f.1 = 2 * f.2.2.length := by rw [inLen_opt, if_pos hp, H.len f hf]
    have hoff := C39_layout S f.1 (H.opt f hf)
    have val : ∀ b < 2, fs.foldl (fun o f => fileFlags S f.1 f.2.1 (f.2.2.map Prod.snd) o) opt
        (2 * (inOffset S f.1 + (2 * k + s)) + b) =
        if (2 * (inOffset S f.1 + (2 * k + s)) + b) % 2 = 0 then some (f.2.2[k]).2 else some f.2.1 := by
      intro b hb
      have e : (2 * (inOffset S f.1 + (2 * k + s)) + b) / 2 = inOffset S f.1 + (2 * k + s) := by omega
      rw [foldFlags_mem S _ fs opt H f hf (by omega) (by omega), fileFlags, if_pos hp, parFlags, e, hoff,
        if_pos (by omega), Nat.add_sub_cancel_left, show (2 * k + s) / 2 = k by omega,
        List.getElem?_map, List.getElem?_eq_getElem hk]
      rfl
    refine ⟨?_, ?_⟩
    · have := val 0 (by omega)
      rw [Nat.add_zero, if_pos (by omega)] at this
      exact this
    · rw [val 1 (by omega), if_neg (by omega)]

/-- A run with a complex on-site factor, a real Jastrow factor and two orbitals. -/
def flagEx : IOSizes :=
  { nG := 1, nJ := 1, n2 := 0, n4 := 0, flagRBM := false, cP := 0, sP := 0, gP := 0, cH := 0, sH := 0,
    gH := 0, cX := 0, sX := 0, gX := 0, orb := .plain 2, nOpt := 0 }

example : ∃ opt', readIdxParaFlags flagEx (encFiles [(.gutz, 1, [(0, 1)]), (.jast, 0, [(0, 0)]),
    (.orb, 1, [(0, 1), (1, 0)])]) 0 (fun _ => none) = .ok opt' ∧
    (List.range 8).map opt' = [some 1, some 1, some 0, none, some 1, some 1, some 0, some 0] := by
  refine ⟨_, rfl, ?_⟩
  decide

/-- C39 is violated by the code for the index column: it is read but not used, so that
flags listed in another order reach other parameters. -/
theorem C39_index_column_violated : ∃ opt', readIdxParaFlags flagEx (encFiles [(.gutz, 1, [(0, 1)]),
    (.jast, 0, [(0, 1)]), (.orb, 0, [(1, 0), (0, 1)])]) 0 (fun _ => none) = .ok opt' ∧
    opt' (2 * (inOffset flagEx .orb + 1)) = some 1 ∧ opt' (2 * inOffset flagEx .orb) = some 0 := by
  refine ⟨_, rfl, ?_⟩
  decide

/-- C39 is violated by the code for parallel orbitals: the imaginary parts of a frozen
parameter are optimised. -/
theorem C39_parallel_violated :
    ∃ opt', readIdxParaFlags { flagEx with nG := 0, nJ := 0, orb := .split 1 1 }
      (encFiles [(.orbAP, 1, [(0, 1)]), (.orbP, 1, [(0, 0)])]) 0 (fun _ => none) = .ok opt' ∧
    (List.range 6).map opt' = [some 1, some 1, some 0, some 1, some 0, some 1] := by
  refine ⟨_, rfl, ?_⟩
  decide

/-- C39 is violated by the code for transformations (`OptTrans`): their flags are stored
among those of the other parameters and their own flags are not set. -/
theorem C39_optTrans_violated :
    ∃ opt', readIdxParaFlags { flagEx with nJ := 0, orb := .plain 1, nOpt := 1 }
      [(.gutz, 0, encOpts [(0, 1)]), (.orb, 0, encOpts [(0, 0)]), (.opt, 0, [])] 0 (fun _ => none) = .ok opt' ∧
    opt' (2 * inOffset { flagEx with nJ := 0, orb := .plain 1, nOpt := 1 } .orb) = some 1 ∧
    opt' (2 * inOffset { flagEx with nJ := 0, orb := .plain 1, nOpt := 1 } .opt) = none := by
  refine ⟨_, rfl, ?_⟩
  decide

/-- C39 is violated by the code for a missing last flag: the file is accepted and the flag
is whatever the memory contained. -/
theorem C39_last_flag_violated :
    ∃ opt', readIdxParaFlags { flagEx with nJ := 0, orb := .plain 1 }
      [(.gutz, 0, [some 0]), (.orb, 0, encOpts [(0, 0)])] 0 (fun _ => none) = .ok opt' ∧
    opt' 0 = none := by
  refine ⟨_, rfl, ?_⟩
  decide

/-! ### Back-flow -/

theorem readFlags_count {S : IOSizes} {cap : ℕ} {kw : InKW} {c : ℤ} {tail : List Tok} {opt opt' : Tab} {n : ℕ}
    (h : readFlags S cap kw c tail opt = .ok (n, opt')) : n ≤ inLen S kw := by
  rw [inLen_opt]
  unfold readFlags at h
  split at h
  · unfold optTransFlags at h
    split_ifs at h
    injection h with h
    injection h with h1 _
    subst h1
    exact le_refl _
  · rw [if_pos rfl]
    split_ifs at h with h0
    · injection h with h
      injection h with h1 _
      omega
    · split at h
      · split_ifs at h with h2
        injection h with h
        injection h with h1 _
        omega
      all_goals exact absurd h (by simp)
  · rename_i k2 h1 h2
    rw [if_neg h2]
    split_ifs at h with h0
    · injection h with h
      injection h with h1 _
      omega
    · split at h
      · split_ifs at h with h2
        injection h with h
        injection h with h1 _
        omega
      all_goals exact absurd h (by simp)

theorem flagsBF_count (S : IOSizes) (nBF : ℕ) : ∀ (fs : List (InKW × ℤ × List Tok)) (n : ℕ) (opt opt' : Tab),
    readIdxParaFlagsBF S nBF fs n opt = .ok opt' → S.nPara + nBF ≤ n + (fs.map fun f => inLen S f.1).sum
  | [], n, opt, opt', h => by
    unfold readIdxParaFlagsBF at h
    split_ifs at h with h0
    simp; omega
  | (kw, c, tail) :: fs, n, opt, opt', h => by
    unfold readIdxParaFlagsBF at h
    split at h
    · rename_i m o e
      have := flagsBF_count S nBF fs _ _ _ h
      have := readFlags_count e
      simp only [List.map_cons, List.sum_cons]
      omega
    all_goals exact absurd h (by simp)

theorem disjoint_sum {α : Type} (off len : α → ℕ) (N : ℕ) : ∀ fs : List α,
    fs.Pairwise (fun a b => off a + len a ≤ off b ∨ off b + len b ≤ off a) →
    (∀ a ∈ fs, off a + len a ≤ N) →
    ((fs.map len).sum : ℕ) ≤ N := by
  intro fs hp hb
  have key : ∃ s : Finset ℕ, s.card = (fs.map len).sum ∧ ∀ x, x ∈ s ↔ ∃ a ∈ fs, off a ≤ x ∧ x < off a + len a := by
    clear hb
    induction fs with
    | nil => exact ⟨∅, rfl, by simp⟩
    | cons a fs ih =>
      obtain ⟨s, hs, hm⟩ := ih hp.of_cons
      refine ⟨Finset.Ico (off a) (off a + len a) ∪ s, ?_, fun x => ?_⟩
      · rw [Finset.card_union_of_disjoint, hs, Nat.card_Ico, List.map_cons, List.sum_cons]
        · omega
        · rw [Finset.disjoint_left]
          intro x hx hx'
          obtain ⟨b, hb, h1, h2⟩ := (hm x).1 hx'
          have := (List.pairwise_cons.1 hp).1 b hb
          have := Finset.mem_Ico.1 hx
          omega
      · rw [Finset.mem_union, Finset.mem_Ico, hm]
        simp
  obtain ⟨s, hs, hm⟩ := key
  rw [← hs]
  have : s ⊆ Finset.range N := by
    intro x hx
    obtain ⟨a, ha, h1, h2⟩ := (hm x).1 hx
    have := hb a ha
    exact Finset.mem_range.2 (by omega)
  simpa using Finset.card_le_card this

theorem apart_opt (S : IOSizes) (h : S.flagRBM = false → S.nRBM = 0) (a : InKW) (ha : a ≠ .opt) :
    inOffset S a + inLen S a ≤ S.oOpt := by
  rw [← C39_layout S a ha]
  have hAP := nAP_le S.orb
  by_cases hg : a = .orbG
  · subst hg
    simp only [optOffset, inLen, IOSizes.oOpt, IOSizes.nSlater]
    omega
  · refine ((group_end S h a ha).2 hg).trans ((rankStart_mono S h (show flagRank a + 1 ≤ 15 from ?_)).trans (le_refl _))
    cases a <;> first | exact absurd rfl ha | decide

/-- C39: an input with back-flow parameters is never accepted: `NPara` counts them, `count_idx` does not.  (The files
have each group at most once, and no general orbital file beside a parallel one.)  The models of all other files assume
`NProjBF = 0`; this theorem is the reason why nothing is lost. -/
theorem C39_backflow_rejected (S : IOSizes) (hr : S.flagRBM = false → S.nRBM = 0) (nBF : ℕ) (hb : 0 < nBF)
    (fs : List (InKW × ℤ × List Tok)) (once : (fs.map fun f => flagSlot f.1).Nodup)
    (orbs : ∀ f ∈ fs, f.1 = .orbG → ∀ g ∈ fs, g.1 ≠ .orbP) (opt opt' : Tab) :
    readIdxParaFlagsBF S nBF fs 0 opt ≠ .ok opt' := by
  intro e
  have h1 := flagsBF_count S nBF fs 0 opt opt' e
  have h2 : (fs.map fun f => inLen S f.1).sum ≤ S.nPara := by
    refine disjoint_sum (fun f => inOffset S f.1) _ _ fs ?_ ?_
    · rw [List.Nodup, List.pairwise_map] at once
      refine once.imp_of_mem ?_
      intro a b ha hb' hab
      by_cases ca : a.1 = .opt
      · right
        have cb : b.1 ≠ .opt := fun cb => hab (by rw [ca, cb])
        rw [ca]
        exact apart_opt S hr b.1 cb
      by_cases cb : b.1 = .opt
      · left
        rw [cb]
        exact apart_opt S hr a.1 ca
      · rw [← C39_layout S a.1 ca, ← C39_layout S b.1 cb]
        exact groups_apart S hr a.1 b.1 ca cb hab (fun e => orbs a ha e b hb') (fun e => orbs b hb' e a ha)
    · intro a ha
      by_cases ca : a.1 = .opt
      · rw [ca]
        show S.oOpt + S.nOpt ≤ _
        unfold IOSizes.oOpt IOSizes.nPara
        omega
      · have := (group_end S hr a.1 ca).1
        rw [C39_layout S a.1 ca] at this
        exact this
  omega

/-- Without back-flow the same files are accepted, with one back-flow parameter they are not. -/
example : (∃ opt', readIdxParaFlagsBF flagEx 0 (encFiles [(.gutz, 1, [(0, 1)]), (.jast, 0, [(0, 0)]),
      (.orb, 1, [(0, 1), (1, 0)])]) 0 (fun _ => none) = .ok opt') ∧
    readIdxParaFlagsBF flagEx 1 (encFiles [(.gutz, 1, [(0, 1)]), (.jast, 0, [(0, 0)]),
      (.orb, 1, [(0, 1), (1, 0)])]) 0 (fun _ => none) = .err :=
  ⟨⟨_, rfl⟩, rfl⟩

end MVMC
