import Verif.Proof.UhfMod
import Verif.Props.UhfRead

/-!
# C83: the parameters of the Hartree–Fock program
-/
namespace MVMC
open Spec

/-- C83: for a parameter file whose lines are skipped or consist of a word and a number, the file is accepted iff the integer parameters fit into an `int` and `2Sz` is not -1; the behaviour is
undefined iff the first line at fault does not fit. Each parameter has the number of the last line that names it, in any case, or its default. Other lines have no effect. -/
theorem C83_parameters_partial (ls : List MPLine) (c : Word) (hreg : ∀ l ∈ ls, RegU l) :
    ((∃ st, umpLoop ls c none umpDefault = .ok st) ↔ ∀ l ∈ ls, ∀ v q, USets l v q → UFits v q ∧ ¬ URefused v q) ∧
    (umpLoop ls c none umpDefault = .ub ↔ ∃ pre l post v q, ls = pre ++ l :: post ∧ USets l v q ∧ ¬ UFits v q ∧ ∀ l' ∈ pre, ∀ v q, USets l' v q → UFits v q ∧ ¬ URefused v q) ∧
    (∀ st, umpLoop ls c none umpDefault = .ok st →
      (∀ v, (∀ l ∈ ls, ∀ q, ¬ USets l v q) → st v = match v with
        | .mix => 1 / 2
        | .eps => 10
        | .iterMax => 2000
        | .epsSlater => 6
        | .twoSz => -1
        | _ => 0) ∧
      (∀ pre l post v q, ls = pre ++ l :: post → USets l v q → (∀ l' ∈ post, ∀ q', ¬ USets l' v q') → UStored v q (st v))) := by
  obtain ⟨h1, h2, h3⟩ := umpLoop_spec ls c none umpDefault hreg
  refine ⟨h1, h2, fun st h => ⟨fun v hv => ?_, (h3 st h).2⟩⟩
  rw [(h3 st h).1 v hv]
  cases v <;> rfl

example : ∃ st, umpLoop [⟨false, some "nSITE".toList, some 8⟩, ⟨false, some "NVMCSample".toList, some 100⟩] [] none umpDefault = .ok st ∧ st .nsite = 8 ∧ st .iterMax = 2000 := by
  have h1 : umpFind "nSITE".toList umpList = some (some (some .nsite)) := by decide
  have h3 : umpFind "NVMCSample".toList umpList = some (some none) := by decide
  have h4 : toCInt 8 = some 8 := by unfold toCInt; norm_num
  refine ⟨fun x => if x = .nsite then ((8 : ℤ) : ℚ) else umpDefault x, ?_, by simp, rfl⟩
  rw [umpLoop, if_neg (by decide)]
  dsimp only [Option.getD_some]
  rw [if_neg (by decide), h1]
  dsimp only
  rw [if_neg (by decide), h4]
  dsimp only
  rw [if_neg (by decide), umpLoop, if_neg (by decide)]
  dsimp only [Option.getD_some]
  rw [if_neg (by decide), h3]
  rfl

/-- a list with an entry of some kind has a last one -/
theorem exists_last {A : Type*} (P : A → Prop) (l : List A) (h : ∃ x ∈ l, P x) : ∃ pre x post, l = pre ++ x :: post ∧ P x ∧ ∀ y ∈ post, ¬ P y := by
  classical
  induction l with
  | nil => obtain ⟨x, hx, _⟩ := h; simp at hx
  | cons a l ih =>
    by_cases c : ∃ x ∈ l, P x
    · obtain ⟨pre, x, post, rfl, h1, h2⟩ := ih c
      exact ⟨a :: pre, x, post, rfl, h1, h2⟩
    · obtain ⟨x, hx, hp⟩ := h
      rcases List.mem_cons.1 hx with rfl | hx
      · exact ⟨[], x, l, rfl, hp, fun y hy hy' => c ⟨y, hy, hy'⟩⟩
      · exact absurd ⟨x, hx, hp⟩ c

theorem uhfShared_doc {v : UMP} {x : MPVar} (h : uhfShared v = some x) : uhfDocVar v = docVar x ∧ v ≠ .mix ∧ ¬ docReal x ∧ (v = .twoSz → x = .TwoSz) := by
  cases v <;> simp only [uhfShared, Option.some.injEq, reduceCtorEq] at h <;> subst h <;> exact ⟨rfl, by simp, by simp [docReal], by simp⟩

theorem uhfOnly_doc {v : UMP} (h : uhfShared v = none) (w : Word) (x : MPVar) (hv : UNames w v) : ¬ Names w x := by
  obtain ⟨n, hn, e⟩ := hv
  rintro ⟨n', hn', e'⟩
  have key : ∀ n ∈ uhfDocVar v, ∀ p ∈ mpList, n.toList.map Char.toLower ≠ p.1.map Char.toLower := by
    cases v <;> simp only [uhfShared, reduceCtorEq] at h <;> decide
  exact key n hn (n'.toList, x) ((mem_mpList _ _).2 ⟨n', hn', rfl⟩) (e.symm.trans e')

/-- what the main program accepts is in range for this one -/
theorem main_good (ls : List MPLine) : ∀ (c : Word) (d : Option ℚ) (st mp : MPVar → ℚ), (∀ l ∈ ls, RegU l) → modParaLoop ls c d st = .ok mp →
    ∀ l ∈ ls, ∀ v q, USets l v q → UFits v q ∧ ¬ URefused v q := by
  induction ls with
  | nil => simp
  | cons l ls ih =>
    intro c d st mp hreg h
    have hls : ∀ l ∈ ls, RegU l := fun x hx => hreg x (by simp [hx])
    unfold modParaLoop at h
    by_cases hs : l.skip = true
    · rw [if_pos hs] at h
      intro x hx v q hset
      rcases List.mem_cons.1 hx with rfl | hx
      · rw [hset.1] at hs; cases hs
      · exact ih _ _ _ _ hls h x hx v q hset
    rw [if_neg hs] at h
    rcases hreg l (by simp) with h' | ⟨w, q, hw, hq, hnul, hlen⟩
    · exact absurd h' hs
    rw [hw, hq] at h
    dsimp only [Option.getD_some] at h
    obtain ⟨r, hr, hrv⟩ := mpFind_spec hnul (by omega) mpList mpList_ok mpList_nodup
    rw [hr] at h
    cases r with
    | none => cases h
    | some x =>
      have hx : Names w x := (names_iff _ _).2 ((hrv x).1 rfl)
      -- the rest of the file and the facts of this line
      have key : (∃ c' d' st', modParaLoop ls c' d' st' = .ok mp) ∧ (isDouble x = false → ∃ z, toCInt q = some z ∧ ¬ (x = .TwoSz ∧ z = -1)) := by
        dsimp only at h
        split at h
        · rename_i hd
          exact ⟨⟨_, _, _, h⟩, fun hd' => by rw [hd] at hd'; cases hd'⟩
        · split at h
          · cases h
          · rename_i z hz
            split at h
            · cases h
            · rename_i hc
              exact ⟨⟨_, _, _, h⟩, fun _ => ⟨z, hz, hc⟩⟩
      obtain ⟨⟨c', d', st', hrest⟩, hline⟩ := key
      intro y hy v q' hset
      rcases List.mem_cons.1 hy with rfl | hy
      · obtain ⟨_, b2, w', b3, b4⟩ := hset
        rw [hq] at b2; rw [hw] at b3
        cases b2; cases b3
        cases hsh : uhfShared v with
        | none => exact absurd hx (uhfOnly_doc hsh w x b4)
        | some x' =>
          obtain ⟨d1, d2, d3, d4⟩ := uhfShared_doc hsh
          have hx' : Names w x' := by
            obtain ⟨n, hn, e⟩ := b4
            exact ⟨n, by rw [← d1]; exact hn, e⟩
          have hxx : x = x' := Option.some.inj ((hrv x').2 ((names_iff _ _).1 hx'))
          subst hxx
          have hnd : isDouble x = false := by
            cases hb : isDouble x
            · rfl
            · exact absurd ((isDouble_iff x).1 hb) d3
          obtain ⟨z, hz, hnz⟩ := hline hnd
          refine ⟨Or.inr ((toCInt_some_iff q).1 ⟨z, hz⟩), fun hrf => hnz ⟨d4 hrf.1, isTrunc_unique (toCInt_trunc hz) hrf.2⟩⟩
      · exact ih _ _ _ _ hls hrest y hy v q' hset

/-- C83: a parameter file that the main program accepts is accepted by the Hartree–Fock program too, and each parameter read by both that is given has the same value in both. -/
theorem C83_compatible_partial (ls : List MPLine) (c c' : Word) (mp0 mp : MPVar → ℚ) (hreg : ∀ l ∈ ls, RegU l) (h : modParaLoop ls c none mp0 = .ok mp) :
    ∃ st, umpLoop ls c' none umpDefault = .ok st ∧ ∀ v x, uhfShared v = some x → (∃ l ∈ ls, ∃ q, USets l v q) → st v = mp x := by
  obtain ⟨h1, _, h3⟩ := umpLoop_spec ls c' none umpDefault hreg
  obtain ⟨st, hst⟩ := h1.2 (main_good ls c none mp0 mp hreg h)
  refine ⟨st, hst, fun v x hsh hex => ?_⟩
  obtain ⟨d1, d2, d3, _⟩ := uhfShared_doc hsh
  have hnames : ∀ w, UNames w v ↔ Names w x := by
    intro w; unfold UNames Names; rw [d1]
  have hreg' : ∀ l ∈ ls, RegMP l := by
    intro l hl
    rcases hreg l hl with hs | ⟨w, q, a, b, e, f⟩
    · exact Or.inl hs
    · exact Or.inr ⟨w, q, a, b, e, by omega⟩
  obtain ⟨pre, l, post, e, ⟨q, hq⟩, hpost⟩ := exists_last (fun l => ∃ q, USets l v q) ls (by simpa using hex)
  have s1 := (h3 st hst).2 pre l post v q e hq (fun l' hl' q' hs => hpost l' hl' ⟨q', hs⟩)
  obtain ⟨a1, a2, w, a3, a4⟩ := hq
  have s2 := (C37_modpara_partial ls c none mp0 mp hreg' h).2.2 pre l post w q x e a1 a3 a2 ((hnames w).1 a4) (by
    intro y hy hys w' hw' hn
    have hy' : y ∈ ls := by rw [e]; simp [hy]
    rcases hreg y hy' with hs | ⟨w'', q'', b1, b2, _, _⟩
    · rw [hys] at hs; cases hs
    · exact hpost y hy ⟨q'', hys, b2, w', hw', (hnames w').2 hn⟩)
  rcases s1 with ⟨s1, _⟩ | ⟨_, z, e1, t1⟩
  · exact absurd s1 d2
  rcases s2 with ⟨s2, _⟩ | ⟨_, z', e2, t2⟩
  · exact absurd s2 d3
  rw [e1, e2, isTrunc_unique t1 t2]

/-- C83 is violated by the code the other way round: the main program rejects a file with the mixing parameter. -/
theorem C83_mix_violated (st : MPVar → ℚ) : (∃ st', umpLoop [⟨false, some "Mix".toList, some (1 / 4)⟩] [] none umpDefault = .ok st' ∧ st' .mix = 1 / 4) ∧
    modParaLoop [⟨false, some "Mix".toList, some (1 / 4)⟩] [] none st = .err := by
  have h1 : umpFind "Mix".toList umpList = some (some (some .mix)) := by decide
  have h2 : mpFind "Mix".toList mpList = some none := by decide
  constructor
  · refine ⟨fun x => if x = .mix then 1 / 4 else umpDefault x, ?_, by simp⟩
    simp only [umpLoop, Option.getD_some, h1]
    simp
  · simp only [modParaLoop, Option.getD_some, h2]
    simp

/-- C83 is violated by the code for a misspelt parameter: the file is accepted, here with no sites. -/
theorem C83_unknown_violated : ∃ st, umpLoop [⟨false, some "Nsites".toList, some 4⟩] [] none umpDefault = .ok st ∧ st .nsite = 0 := by
  have h1 : umpFind "Nsites".toList umpList = some none := by decide
  refine ⟨umpDefault, ?_, rfl⟩
  simp only [umpLoop, Option.getD_some, h1]
  simp

/-- C83 is violated by the code for a parameter without number: it gets the number of the line before, and on the first line its value is undefined. -/
theorem C83_missing_number_violated :
    (∃ st, umpLoop [⟨false, some "Nsite".toList, some 16⟩, ⟨false, some "Ncond".toList, none⟩] [] none umpDefault = .ok st ∧ st .ncond = 16) ∧
    umpLoop [⟨false, some "Nsite".toList, none⟩] [] none umpDefault = .ub := by
  have h1 : umpFind "Nsite".toList umpList = some (some (some .nsite)) := by decide
  have h2 : umpFind "Ncond".toList umpList = some (some (some .ncond)) := by decide
  have h3 : toCInt 16 = some 16 := by unfold toCInt; norm_num
  constructor
  · refine ⟨fun x => if x = .ncond then 16 else if x = .nsite then 16 else umpDefault x, ?_, by simp⟩
    simp only [umpLoop, Option.getD_some, h1, h2, h3]
    simp
  · simp only [umpLoop, Option.getD_some, h1]
    simp

/-- C83 is violated by the code for a number of electrons that is no integer: it is cut off. -/
theorem C83_fraction_violated : ∃ st, umpLoop [⟨false, some "Ncond".toList, some (7 / 2)⟩] [] none umpDefault = .ok st ∧ st .ncond = 3 := by
  have h2 : umpFind "Ncond".toList umpList = some (some (some .ncond)) := by decide
  have h3 : toCInt (7 / 2) = some 3 := by
    unfold toCInt
    have : ⌊(7 / 2 : ℚ)⌋ = 3 := by norm_num
    rw [this]; norm_num
  refine ⟨fun x => if x = .ncond then 3 else umpDefault x, ?_, by simp⟩
  simp only [umpLoop, Option.getD_some, h2, h3]
  simp

/-- C83: the first pass takes the numbers of sites and electrons from the parameters: without orbital files there are as many electrons as local spins and conduction electrons. -/
theorem C83_first_pass_partial (mod : Word × List MPLine) (files : UKW → Option (Option HdrFile)) (hf : ∀ k f, files k = some f → ∃ g, f = some g ∧ UhfHead g)
    (hreg : ∀ l ∈ mod.2, RegU l) (st : UMP → ℚ) (z : USizes) (h : uhfFirstPass mod files = .ok (st, z)) :
    umpLoop mod.2 mod.1 none umpDefault = .ok st ∧ files .locSpin ≠ none ∧
    (files .orbital = none → files .orbitalAP = none → files .orbitalP = none → files .orbitalG = none → ∀ pre l post q n, mod.2 = pre ++ l :: post → USets l .ncond q →
      (∀ l' ∈ post, ∀ q', ¬ USets l' .ncond q') → IsTrunc q n → n ≠ -1 → z.nsize = uhfAnnounced files .locSpin + n) := by
  unfold uhfFirstPass at h
  split_ifs at h with hl
  cases hm : umpLoop mod.2 mod.1 none umpDefault with
  | ub => rw [hm] at h; cases h
  | err => rw [hm] at h; cases h
  | ok st' =>
    rw [hm] at h
    dsimp only at h
    cases hn : uhfNInt ⟨⌊st' .nsite⌋, some ⌊st' .ne⌋, some ⌊st' .ncond⌋, if st' .twoSz = -1 then none else some ⌊st' .twoSz⌋⟩ files with
    | ub => rw [hn] at h; cases h
    | err => rw [hn] at h; cases h
    | ok z' =>
      rw [hn] at h
      dsimp only at h
      simp only [KwOut.ok.injEq, Prod.mk.injEq] at h
      obtain ⟨rfl, rfl⟩ := h
      refine ⟨rfl, hl, fun o1 o2 o3 o4 pre l post q n e hset hpost ht hn1 => ?_⟩
      have hv := ((umpLoop_spec mod.2 mod.1 none umpDefault hreg).2.2 st' hm).2 pre l post .ncond q e hset hpost
      rcases hv with ⟨c, _⟩ | ⟨_, z, e1, t1⟩
      · cases c
      have hz : z = n := isTrunc_unique t1 ht
      subst hz
      obtain ⟨_, _, hs⟩ := C81_sizes_partial _ files hf
      have := (hs z' hn).2.2.2.2.2.2.2.1
      simp only [o1, o2, o3, o4, e1, ne_eq, not_true_eq_false, or_false, not_false_eq_true, true_and, Int.floor_intCast, Option.getD_some] at this
      exact (this hn1).2

/-- C83 is violated by the code for more electrons than spin orbitals: the input is accepted, and the gap is read beyond the eigenvalues. -/
theorem C83_electrons_violated (eig : ℕ → ℝ) : ∃ st z, uhfFirstPass ([], [⟨false, some "Nsite".toList, some 1⟩, ⟨false, some "Ncond".toList, some 8⟩])
    (fun k => if k = .locSpin then some (some ⟨5, some 0, none⟩) else none) = .ok (st, z) ∧ st .nsite = 1 ∧ z.nsize = 8 ∧ uhfGap 1 z.nsize eig = .ub := by
  have h1 : umpFind "Nsite".toList umpList = some (some (some .nsite)) := by decide
  have h2 : umpFind "Ncond".toList umpList = some (some (some .ncond)) := by decide
  have h3 : toCInt 1 = some 1 := by unfold toCInt; norm_num
  have h4 : toCInt 8 = some 8 := by unfold toCInt; norm_num
  have hm : umpLoop [⟨false, some "Nsite".toList, some 1⟩, ⟨false, some "Ncond".toList, some 8⟩] [] none umpDefault =
      .ok (fun x => if x = .ncond then 8 else if x = .nsite then 1 else umpDefault x) := by
    simp only [umpLoop, Option.getD_some, h1, h2, h3, h4]
    simp
  have hN : ∃ z, uhfNInt ⟨1, some 0, some 8, none⟩ (fun k => if k = .locSpin then some (some ⟨5, some 0, none⟩) else none) = .ok z ∧ z.nsize = 8 := ⟨_, rfl, rfl⟩
  obtain ⟨z, hz, hz8⟩ := hN
  refine ⟨fun x => if x = .ncond then 8 else if x = .nsite then 1 else umpDefault x, z, ?_, by simp, hz8, by rw [hz8]; rfl⟩
  unfold uhfFirstPass
  rw [if_neg (by simp)]
  dsimp only
  rw [hm]
  dsimp only
  have e1 : (⌊(8 : ℚ)⌋ : ℤ) = 8 := by norm_num
  have e2 : (⌊(1 : ℚ)⌋ : ℤ) = 1 := by norm_num
  simp only [if_true, reduceCtorEq, if_false, umpDefault, Int.floor_zero, e1, e2, hz]

/-- C83: the boundary is antiperiodic iff the number of translations is negative; its absolute value is used. -/
theorem C83_boundary (n : ℤ) : ((umpAP n).1 = true ↔ n < 0) ∧ (umpAP n).2 = |n| := by
  unfold umpAP
  split_ifs with h
  · exact ⟨by simp [h], by rw [abs_of_neg h]⟩
  · exact ⟨by simp [h], by rw [abs_of_nonneg (by omega)]⟩

end MVMC
