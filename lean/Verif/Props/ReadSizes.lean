import Verif.Proof.ReadSizes
import Verif.Model.ReadDef
import Mathlib.Tactic.NormNum
import Mathlib.Tactic.Ring

/-! # C79: which input is accepted, and the sizes it gives -/
namespace MVMC
open Spec

theorem ite_ne_ub (c : Bool) (s : RunSizes) : (if c then NOut.abort else NOut.ok s) ≠ .ub := by cases c <;> simp

/-- The first pass is undefined exactly if a listed file cannot be opened, or a file that is looked at has only one line. -/
theorem C79_undefined_iff (o : Bool) (lz : Int → Int → Int → Int) (now : Int) (files : DefFiles) (mp : MPVar → ℚ) :
    readNInt o lz now files mp = .ub ↔ ∃ k, files k = some none ∨ ∃ f, files k = some (some f) ∧ f.nLines = 1 ∧
      ((countFile k || paramFile k || orbFile k) = true ∨ (k = .KWOptTrans ∧ o = true)) := by
  have key := hdrLoop_none (o := o) (files := files) kwOrder nBufDefault
  unfold readNInt
  cases h : hdrLoop o files kwOrder nBufDefault with
  | none =>
    obtain ⟨k, _, hk⟩ := key.1 h
    simp only [true_iff]
    refine ⟨k, ?_⟩
    rcases hk with hk | ⟨f, h1, h2, h3⟩
    · exact Or.inl hk
    · refine Or.inr ⟨f, h1, h2, ?_⟩
      simpa only [readsHead, Bool.or_eq_true, Bool.and_eq_true, decide_eq_true_eq] using h3
  | some b =>
    dsimp only
    constructor
    · intro hh
      exact absurd hh (ite_ne_ub _ _)
    · rintro ⟨k, hk⟩
      exfalso
      have : hdrLoop o files kwOrder nBufDefault = none := key.2 ⟨k, kwOrder_all k, by
        rcases hk with hk | ⟨f, h1, h2, h3⟩
        · exact Or.inl hk
        · refine Or.inr ⟨f, h1, h2, ?_⟩
          simpa only [readsHead, Bool.or_eq_true, Bool.and_eq_true, decide_eq_true_eq] using h3⟩
      rw [h] at this; simp at this

theorem tmod_two (n : Int) : n.tmod 2 = 0 ↔ 2 ∣ n := by
  constructor
  · exact fun h => Int.dvd_of_tmod_eq_zero h
  · exact fun h => Int.tmod_eq_zero_of_dvd h

theorem sz_check (gen : Bool) (sz : Int) :
    (if sz ≠ 0 then (if !gen then true else decide (sz.tmod 2 ≠ 0 ∧ sz ≠ -1)) else false) = false ↔ sz = 0 ∨ gen = true ∧ (2 ∣ sz ∨ sz = -1) := by
  rw [← tmod_two]
  by_cases hs : sz = 0
  · simp [hs]
  · cases gen
    · simp [hs]
    · by_cases h1 : sz.tmod 2 = 0 <;> by_cases h2 : sz = -1 <;> simp [hs, h1, h2]

theorem lan_check (gen : Bool) (gl lan : Int) :
    (gen && (if gl > 1 then false else decide (lan ≠ 0))) = false ↔ (gen = true → lan = 0 ∨ 1 < gl) := by
  cases gen
  · simp
  · by_cases h1 : gl > 1 <;> by_cases h2 : lan = 0 <;> simp [h1, h2]

theorem loc_check (L E path : Int) : (!locSpnCheck L E path) = false ↔ (0 < L → L ≤ 2 * E ∧ path ≠ 0 ∧ (L = 2 * E → path = 2)) := by
  unfold locSpnCheck
  by_cases q1 : L > 0
  · by_cases q2 : L = 2 * E ∧ path ≠ 2
    · rw [if_pos q1, if_pos q2]
      simp only [Bool.not_false, Bool.true_eq_false, false_iff]
      intro h; exact q2.2 ((h q1).2.2 q2.1)
    · by_cases q3 : path = 0
      · rw [if_pos q1, if_neg q2, if_pos q3]
        simp only [Bool.not_false, Bool.true_eq_false, false_iff]
        intro h; exact (h q1).2.1 q3
      · by_cases q4 : L > 2 * E
        · rw [if_pos q1, if_neg q2, if_neg q3, if_pos q4]
          simp only [Bool.not_false, Bool.true_eq_false, false_iff]
          intro h; have := (h q1).1; omega
        · rw [if_pos q1, if_neg q2, if_neg q3, if_neg q4]
          simp only [Bool.not_true, true_iff]
          intro _
          refine ⟨by omega, q3, fun h => ?_⟩
          by_contra hp; exact q2 ⟨h, hp⟩
  · rw [if_neg q1]
    simp only [Bool.not_true, true_iff]
    intro h; exact absurd h q1

theorem cond_check (nc : Int) : decide (nc ≠ -1 ∧ nc.tmod 2 ≠ 0) = false ↔ nc = -1 ∨ 2 ∣ nc := by
  rw [← tmod_two]
  by_cases h1 : nc = -1 <;> by_cases h2 : nc.tmod 2 = 0 <;> simp [h1, h2]

theorem electrons_eq (files : DefFiles) (ne nc : Int) (h : nc = -1 ∨ 2 ∣ nc) :
    (if nc ≠ -1 ∧ nc.tmod 2 = 0 then (announced files .KWLocSpin + nc).tdiv 2 else ne) = electrons files ne nc := by
  unfold electrons
  rw [← tmod_two] at h
  by_cases h1 : nc = -1
  · simp [h1]
  · simp [h1, h.resolve_left h1]

/-- The checks of the values together. -/
def valuesBad (gen : Bool) (loc ne nc sz gl lan path : Int) : Bool :=
  decide (nc ≠ -1 ∧ nc.tmod 2 ≠ 0) || (if sz ≠ 0 then (if !gen then true else decide (sz.tmod 2 ≠ 0 ∧ sz ≠ -1)) else false) ||
    (gen && (if gl > 1 then false else decide (lan ≠ 0))) || !locSpnCheck loc (if nc ≠ -1 ∧ nc.tmod 2 = 0 then (loc + nc).tdiv 2 else ne) path

theorem valuesBad_iff (files : DefFiles) (gen : Bool) (ne nc sz gl lan path : Int) (hch : OrbChoice files) (hg : gen = true ↔ generalOrb files) :
    valuesBad gen (announced files .KWLocSpin) ne nc sz gl lan path = false ↔ ValuesOK files ne nc sz gl lan path := by
  unfold valuesBad
  rw [Bool.or_eq_false_iff, Bool.or_eq_false_iff, Bool.or_eq_false_iff, cond_check, sz_check, lan_check, loc_check, hg]
  constructor
  · rintro ⟨⟨⟨s0, s1⟩, s2⟩, s3⟩
    rw [electrons_eq files ne nc s0] at s3
    exact ⟨hch, s0, s1, s2, s3⟩
  · rintro ⟨_, s0, s1, s2, s3⟩
    rw [electrons_eq files ne nc s0]
    exact ⟨⟨⟨s0, s1⟩, s2⟩, s3⟩

theorem readNInt_eq {o : Bool} {lz : Int → Int → Int → Int} {now : Int} {files : DefFiles} {mp : MPVar → ℚ} {b : NBuf}
    (hb : hdrLoop o files kwOrder nBufDefault = some b) {gen jok : Bool} (hJ : judgeOrbFiles b.gen b.ap b.par = (gen, jok)) :
    readNInt o lz now files mp =
      if (b.bad || !jok || valuesBad gen (b.cnt .KWLocSpin) (mpInt mp .Ne) (mpInt mp .NCond) (mpInt mp .TwoSz) (mpInt mp .SPGaussLeg)
          (mpInt mp .LanczosMode) (mpInt mp .ExUpdatePath)) then .abort
      else .ok (setSizes o mp b (if mpInt mp .NCond ≠ -1 ∧ (mpInt mp .NCond).tmod 2 = 0 then (b.cnt .KWLocSpin + mpInt mp .NCond).tdiv 2
            else mpInt mp .Ne) (if gen ∧ mpInt mp .SPGaussLeg > 1 then 1 else mpInt mp .SPGaussLeg)
          (if b.cnt .KWTwoBodyGEx > 0 ∨ mpInt mp .LanczosMode > 1 then lz (b.cnt .KWOneBodyG) (b.cnt .KWTwoBodyGEx) (mpInt mp .Nsite)
            else b.cnt .KWOneBodyG)
          (if mpInt mp .RndSeed < 0 then now else mpInt mp .RndSeed) gen) := by
  unfold readNInt
  rw [hb]
  simp only [hJ, valuesBad, Bool.or_assoc]

/-- What an accepted input looks like, and the sizes. -/
theorem readNInt_ok {o : Bool} {lz : Int → Int → Int → Int} {now : Int} {files : DefFiles} {mp : MPVar → ℚ} {b : NBuf}
    (hb : hdrLoop o files kwOrder nBufDefault = some b) (h1 : ¬ (Listed files .KWOrbital ∧ Listed files .KWOrbitalAntiParallel)) :
    ((∃ s, readNInt o lz now files mp = .ok s) ↔ HeadsOK o files ∧
      ValuesOK files (mpInt mp .Ne) (mpInt mp .NCond) (mpInt mp .TwoSz) (mpInt mp .SPGaussLeg) (mpInt mp .LanczosMode) (mpInt mp .ExUpdatePath)) ∧
    ∀ s, readNInt o lz now files mp = .ok s → ∃ general : Bool, (general = true ↔ generalOrb files) ∧
      s = setSizes o mp b (electrons files (mpInt mp .Ne) (mpInt mp .NCond))
        (if general = true ∧ 1 < mpInt mp .SPGaussLeg then 1 else mpInt mp .SPGaussLeg)
        (if 0 < announced files .KWTwoBodyGEx ∨ 1 < mpInt mp .LanczosMode then
          lz (announced files .KWOneBodyG) (announced files .KWTwoBodyGEx) (mpInt mp .Nsite) else announced files .KWOneBodyG)
        (if mpInt mp .RndSeed < 0 then now else mpInt mp .RndSeed) general := by
  obtain ⟨l1, l2, l3, -, l5, -, -⟩ := loop_all hb
  obtain ⟨gen, jok, hJ⟩ : ∃ gen jok, judgeOrbFiles b.gen b.ap b.par = (gen, jok) := ⟨_, _, rfl⟩
  have hj : jok = true ↔ OrbChoice files := by
    have : jok = (judgeOrbFiles b.gen b.ap b.par).2 := by rw [hJ]
    rw [this, OrbChoice, ← l1, ← l2, ← l3]
    cases b.gen <;> cases b.ap <;> cases b.par <;> decide
  have hg : OrbChoice files → (gen = true ↔ generalOrb files) := by
    have : gen = (judgeOrbFiles b.gen b.ap b.par).1 := by rw [hJ]
    rw [this, OrbChoice, generalOrb, ← l1, ← l2, ← l3]
    cases b.gen <;> cases b.ap <;> cases b.par <;> decide
  rw [readNInt_eq hb hJ]
  have hall : (b.bad || !jok || valuesBad gen (b.cnt .KWLocSpin) (mpInt mp .Ne) (mpInt mp .NCond) (mpInt mp .TwoSz) (mpInt mp .SPGaussLeg)
          (mpInt mp .LanczosMode) (mpInt mp .ExUpdatePath)) = false ↔ HeadsOK o files ∧
      ValuesOK files (mpInt mp .Ne) (mpInt mp .NCond) (mpInt mp .TwoSz) (mpInt mp .SPGaussLeg) (mpInt mp .LanczosMode) (mpInt mp .ExUpdatePath) := by
    rw [Bool.or_eq_false_iff, Bool.or_eq_false_iff, Bool.not_eq_false', hj]
    constructor
    · rintro ⟨⟨u1, u2⟩, u3⟩
      have hh := (l5 u2 h1).1 u1
      rw [loop_cnt hb hh .KWLocSpin rfl, valuesBad_iff files gen _ _ _ _ _ _ u2 (hg u2)] at u3
      exact ⟨hh, u3⟩
    · rintro ⟨hh, hv⟩
      rw [loop_cnt hb hh .KWLocSpin rfl, valuesBad_iff files gen _ _ _ _ _ _ hv.orbitals (hg hv.orbitals)]
      exact ⟨⟨(l5 hv.orbitals h1).2 hh, hv.orbitals⟩, hv⟩
  constructor
  · rw [← hall]
    generalize (b.bad || !jok || valuesBad gen (b.cnt .KWLocSpin) (mpInt mp .Ne) (mpInt mp .NCond) (mpInt mp .TwoSz) (mpInt mp .SPGaussLeg)
          (mpInt mp .LanczosMode) (mpInt mp .ExUpdatePath)) = c
    cases c <;> simp
  · intro s hs
    have hf : (b.bad || !jok || valuesBad gen (b.cnt .KWLocSpin) (mpInt mp .Ne) (mpInt mp .NCond) (mpInt mp .TwoSz) (mpInt mp .SPGaussLeg)
          (mpInt mp .LanczosMode) (mpInt mp .ExUpdatePath)) = false := by
      rw [← Bool.not_eq_true]
      intro hne
      rw [if_pos hne] at hs
      simp at hs
    obtain ⟨hh, hv⟩ := hall.1 hf
    rw [hf] at hs
    simp only [Bool.false_eq_true, if_false, NOut.ok.injEq] at hs
    refine ⟨gen, hg hv.orbitals, ?_⟩
    rw [← hs, loop_cnt hb hh .KWLocSpin rfl, loop_cnt hb hh .KWTwoBodyGEx rfl, loop_cnt hb hh .KWOneBodyG rfl, electrons_eq files _ _ hv.cond]

/-- **C79** (part). With at most one file of antiparallel pairs, the input is accepted exactly if all listed files can be opened, their heads are complete
and the values fit together as stated in `ValuesOK`. -/
theorem C79_accept_iff_partial (o : Bool) (lz : Int → Int → Int → Int) (now : Int) (files : DefFiles) (mp : MPVar → ℚ)
    (h1 : ¬ (Listed files .KWOrbital ∧ Listed files .KWOrbitalAntiParallel)) :
    (∃ s, readNInt o lz now files mp = .ok s) ↔ (∀ k, files k ≠ some none) ∧ (∀ k f, files k = some (some f) → HeadOK o k f) ∧
      ValuesOK files (mpInt mp .Ne) (mpInt mp .NCond) (mpInt mp .TwoSz) (mpInt mp .SPGaussLeg) (mpInt mp .LanczosMode) (mpInt mp .ExUpdatePath) := by
  cases hb : hdrLoop o files kwOrder nBufDefault with
  | none =>
    have hu : readNInt o lz now files mp = .ub := by unfold readNInt; rw [hb]
    rw [hu]
    simp only [reduceCtorEq, exists_false, false_iff]
    rintro ⟨g1, g2, -⟩
    obtain ⟨k, hk⟩ := (C79_undefined_iff o lz now files mp).1 hu
    rcases hk with hk | ⟨f, e1, e2, e3⟩
    · exact g1 k hk
    · have ok := g2 k f e1
      simp only [Bool.or_eq_true] at e3
      rcases e3 with (e3 | e3) | ⟨e3, e4⟩
      · rcases e3 with e3 | e3
        · have := ok.1 e3; omega
        · have := (ok.2.1 (Or.inl e3)).1; omega
      · have := (ok.2.1 (Or.inr e3)).1; omega
      · have := (ok.2.2.1 e3 e4).1; omega
  | some b =>
    rw [(readNInt_ok hb h1).1]
    constructor
    · rintro ⟨g1, g2⟩
      refine ⟨?_, g1, g2⟩
      intro k hf
      have := (hdrLoop_none (o := o) (files := files) kwOrder nBufDefault).2 ⟨k, kwOrder_all k, Or.inl hf⟩
      rw [this] at hb; simp at hb
    · rintro ⟨-, g1, g2⟩
      exact ⟨g1, g2⟩

theorem machine_zero {files : DefFiles} (h : ¬ ∃ k, Listed files k ∧ rbmFile k = true) : machine files = 0 := by
  have key : ∀ k, rbmFile k = true → announced files k = 0 := by
    intro k hk
    have : files k = none := by
      by_contra hn
      exact h ⟨k, hn, hk⟩
    simp [announced, this]
  simp only [machine, key _ (rfl : rbmFile .KWGeneralRBM_HiddenLayer = true), key _ (rfl : rbmFile .KWChargeRBM_HiddenLayer = true),
    key _ (rfl : rbmFile .KWSpinRBM_HiddenLayer = true), key _ (rfl : rbmFile .KWGeneralRBM_PhysLayer = true),
    key _ (rfl : rbmFile .KWChargeRBM_PhysLayer = true), key _ (rfl : rbmFile .KWSpinRBM_PhysLayer = true),
    key _ (rfl : rbmFile .KWGeneralRBM_PhysHidden = true), key _ (rfl : rbmFile .KWChargeRBM_PhysHidden = true),
    key _ (rfl : rbmFile .KWSpinRBM_PhysHidden = true)]
  rfl

/-- **C79** (part). The sizes of an accepted input. -/
theorem C79_sizes_partial (o : Bool) (lz : Int → Int → Int → Int) (now : Int) (files : DefFiles) (mp : MPVar → ℚ) (s : RunSizes)
    (h1 : ¬ (Listed files .KWOrbital ∧ Listed files .KWOrbitalAntiParallel)) (h : readNInt o lz now files mp = .ok s) :
    SizesOK o lz now files mp (fun v => ⌊mp v⌋) s := by
  cases hb : hdrLoop o files kwOrder nBufDefault with
  | none => unfold readNInt at h; rw [hb] at h; simp at h
  | some b =>
    obtain ⟨a1, a2⟩ := readNInt_ok (lz := lz) (now := now) (mp := mp) hb h1
    obtain ⟨hh, hv⟩ := a1.1 ⟨s, h⟩
    obtain ⟨general, hg, rfl⟩ := a2 s h
    obtain ⟨-, -, -, l4, -, l6, l7⟩ := loop_all hb
    obtain ⟨u1, u2, u3, u4⟩ := l6 hv.orbitals h1 hh
    have c := fun k hk => loop_cnt hb hh k hk
    have hc : ∀ k, paramFile k = true → b.cmp k = announcedFlag files k := fun k hk => (l7 hh k).2.2 hk
    have ho := loop_opt hb hh
    have hopt : b.cnt .KWOptTrans = optCount o files := by
      rw [ho]
      clear * -
      unfold optCount
      rcases files .KWOptTrans with _ | _ | f <;> cases o <;> rfl
    have hm : (if b.rbm then (b.cnt .KWChargeRBM_HiddenLayer + b.cnt .KWSpinRBM_HiddenLayer + b.cnt .KWGeneralRBM_HiddenLayer +
        (b.cnt .KWChargeRBM_PhysLayer + b.cnt .KWSpinRBM_PhysLayer + b.cnt .KWGeneralRBM_PhysLayer) +
        (b.cnt .KWChargeRBM_PhysHidden + b.cnt .KWSpinRBM_PhysHidden + b.cnt .KWGeneralRBM_PhysHidden)) else 0) = machine files := by
      rw [c _ rfl, c _ rfl, c _ rfl, c _ rfl, c _ rfl, c _ rfl, c _ rfl, c _ rfl, c _ rfl]
      by_cases hr : b.rbm = true
      · rw [if_pos hr]; unfold machine; ring
      · rw [if_neg hr, machine_zero (fun hx => hr (l4.2 hx))]
    have hab : ∀ x : Int, (if x < 0 then x * -1 else x) = |x| := by
      intro x
      by_cases hx : x < 0
      · rw [if_pos hx, abs_of_neg hx]; ring
      · rw [if_neg hx, abs_of_nonneg (not_lt.1 hx)]
    have habq : ∀ x : ℚ, (if x < 0 then x * -1 else x) = |x| := by
      intro x
      by_cases hx : x < 0
      · rw [if_pos hx, abs_of_neg hx]; ring
      · rw [if_neg hx, abs_of_nonneg (not_lt.1 hx)]
    have hgl : (if general = true ∧ 1 < mpInt mp .SPGaussLeg then 1 else mpInt mp .SPGaussLeg) = mpInt mp .SPGaussLeg ∧ ¬ generalOrb files ∨
        (if general = true ∧ 1 < mpInt mp .SPGaussLeg then 1 else mpInt mp .SPGaussLeg) = min 1 (mpInt mp .SPGaussLeg) ∧ generalOrb files := by
      by_cases hgen : general = true
      · right
        refine ⟨?_, hg.1 hgen⟩
        by_cases hl : 1 < mpInt mp .SPGaussLeg
        · rw [if_pos ⟨hgen, hl⟩, min_eq_left hl.le]
        · rw [if_neg (fun h => hl h.2), min_eq_right (not_lt.1 hl)]
      · left
        exact ⟨if_neg (fun h => hgen h.1), fun h => hgen (hg.2 h)⟩
    refine
      { direct := ⟨rfl, rfl, rfl, rfl, rfl, rfl, rfl, rfl, rfl, rfl, rfl, rfl⟩
        ne := rfl
        size := rfl
        seed := rfl
        gaussLeg := ?_
        general := hg
        mpTrans := ⟨hab _, by simp only [setSizes, decide_eq_true_eq]; rfl⟩
        stepDt := ⟨habq _, by simp only [setSizes, decide_eq_true_eq]⟩
        counts := ⟨c _ rfl, c _ rfl, c _ rfl, c _ rfl, c _ rfl, ?_, c _ rfl, c _ rfl⟩
        tables := ⟨c _ rfl, c _ rfl, c _ rfl⟩
        oneBody := rfl
        corr := ⟨c _ rfl, c _ rfl, c _ rfl, c _ rfl⟩
        orb := u1
        opt := hopt
        flagRBM := l4
        neurons := ?_
        nProj := ?_
        nPara := ?_
        qp := ?_
        complex := ?_
        block := rfl }
    · rcases hgl with ⟨e, hn⟩ | ⟨e, hn⟩
      · exact Or.inr ⟨hn, e⟩
      · exact Or.inl ⟨hn, e⟩
    · simp only [setSizes]; rw [c _ rfl]
    · simp only [setSizes, mpInt]; ring
    · simp only [setSizes, factors]; rw [c _ rfl, c _ rfl, c _ rfl, c _ rfl]; ring
    · simp only [setSizes, factors]
      rw [hm, u1, hopt, c .KWGutzwiller rfl, c .KWJastrow rfl, c .KWDH2 rfl, c .KWDH4 rfl]
      ring
    · simp only [setSizes]
      rw [hopt]
      exact ⟨trivial, rfl⟩
    · intro hf
      have : b.cOrb = orbFlags files := u4 (fun k hk f hkf => hf k f (orb_orb k hk) hkf)
      simp only [setSizes]
      rw [this, hc _ rfl, hc _ rfl, hc _ rfl, hc _ rfl, orbFlags]
      ring

/-- **C79**. The whole of `ReadDefFileNInt` succeeds exactly if the two files are listed, `modpara.def` is read without error, the directory exists and
the first pass over the other files succeeds. -/
theorem C79_reader (o : Bool) (lz : Int → Int → Int → Int) (now : Int) (mk : Bool) (files : DefFiles) (modp : Option (Word × List MPLine)) (s : RunSizes) :
    readDefFileNInt o lz now mk files modp = .ok s ↔ Listed files .KWModPara ∧ Listed files .KWLocSpin ∧ mk = true ∧
      ∃ w lines mp, modp = some (w, lines) ∧ modParaLoop lines w none mpDefault = .ok mp ∧ readNInt o lz now files mp = .ok s := by
  have hopen : ∀ mp, readNInt o lz now files mp = .ok s → ∀ k, files k ≠ some none := by
    intro mp hr k hk
    have := (C79_undefined_iff o lz now files mp).2 ⟨k, Or.inl hk⟩
    rw [hr] at this; simp at this
  unfold readDefFileNInt Listed
  by_cases h1 : files .KWModPara = none ∨ files .KWLocSpin = none
  · rw [if_pos h1]
    simp only [reduceCtorEq, false_iff]
    rintro ⟨a, b, -⟩
    rcases h1 with h1 | h1
    · exact a h1
    · exact b h1
  · rw [if_neg h1]
    rw [not_or] at h1
    by_cases h2 : files .KWModPara = some none
    · rw [if_pos h2]
      simp only [reduceCtorEq, false_iff]
      rintro ⟨-, -, -, w, l, mp, -, -, hr⟩
      exact hopen mp hr _ h2
    · rw [if_neg h2]
      cases modp with
      | none => simp
      | some x =>
        obtain ⟨w, lines⟩ := x
        dsimp only
        cases hm : modParaLoop lines w none mpDefault with
        | ub => simp [hm]
        | err => simp [hm]
        | ok mp =>
          dsimp only
          by_cases h3 : kwOrder.any (fun k => files k == some none) = true
          · rw [if_pos h3]
            simp only [reduceCtorEq, false_iff]
            rintro ⟨-, -, -, w', l, mp', -, -, hr⟩
            rw [List.any_eq_true] at h3
            obtain ⟨k, _, hk⟩ := h3
            exact hopen mp' hr k (by simpa using hk)
          · rw [if_neg h3]
            cases mk
            · simp
            · simp only [if_true, Option.some.injEq, Prod.mk.injEq]
              constructor
              · intro hr
                exact ⟨h1.1, h1.2, trivial, w, lines, mp, ⟨rfl, rfl⟩, hm, hr⟩
              · rintro ⟨-, -, -, w', l', mp', ⟨rfl, rfl⟩, hm', hr⟩
                rw [hm] at hm'
                simp only [KwOut.ok.injEq] at hm'
                rw [hm']; exact hr

/-- **C79**. A run without general orbitals has `2Sz = 0`; a run with them has at most one point of the spin projection. -/
theorem C79_spin (o : Bool) (lz : Int → Int → Int → Int) (now : Int) (files : DefFiles) (mp : MPVar → ℚ) (s : RunSizes)
    (h1 : ¬ (Listed files .KWOrbital ∧ Listed files .KWOrbitalAntiParallel)) (h : readNInt o lz now files mp = .ok s) :
    (s.general = false → s.twoSz = 0) ∧ (s.general = true → s.gaussLeg ≤ 1 ∧ (2 ∣ s.twoSz ∨ s.twoSz = -1)) := by
  have hs := C79_sizes_partial o lz now files mp s h1 h
  obtain ⟨-, -, hv⟩ := (C79_accept_iff_partial o lz now files mp h1).1 ⟨s, h⟩
  have e : s.twoSz = mpInt mp .TwoSz := hs.direct.2.2.2.1
  constructor
  · intro hg
    rcases hv.sz with h0 | ⟨hgen, -⟩
    · rw [e, h0]
    · have := hs.general.2 hgen
      rw [hg] at this; simp at this
  · intro hg
    have hgen := hs.general.1 hg
    refine ⟨?_, ?_⟩
    · rcases hs.gaussLeg with ⟨-, hl⟩ | ⟨hn, -⟩
      · rw [hl]; exact min_le_left _ _
      · exact absurd hgen hn
    · rw [e]
      rcases hv.sz with h0 | ⟨-, h2⟩
      · left; rw [h0]; exact dvd_zero 2
      · exact h2

/-- **C79**. The path check of C75 has been passed by the sizes of an accepted input. -/
theorem C79_path (o : Bool) (lz : Int → Int → Int → Int) (now : Int) (files : DefFiles) (mp : MPVar → ℚ) (s : RunSizes)
    (h1 : ¬ (Listed files .KWOrbital ∧ Listed files .KWOrbitalAntiParallel)) (h : readNInt o lz now files mp = .ok s) :
    locSpnCheck s.nLoc s.Ne s.exPath = true := by
  have hs := C79_sizes_partial o lz now files mp s h1 h
  obtain ⟨-, -, hv⟩ := (C79_accept_iff_partial o lz now files mp h1).1 ⟨s, h⟩
  have e1 : s.nLoc = announced files .KWLocSpin := hs.counts.1
  have e2 : s.Ne = electrons files (mpInt mp .Ne) (mpInt mp .NCond) := hs.ne
  have e3 : s.exPath = mpInt mp .ExUpdatePath := hs.direct.2.2.2.2.2.2.2.2.2.1
  rw [e1, e2, e3]
  have := (loc_check (announced files .KWLocSpin) (electrons files (mpInt mp .Ne) (mpInt mp .NCond)) (mpInt mp .ExUpdatePath)).2 hv.spins
  simpa using this

/-- **C79**. A positive block size becomes a positive multiple of 8, changed by less than 8. -/
theorem C79_block (n : Int) (h : 0 < n) : 8 ∣ blockAdjust n ∧ 0 < blockAdjust n ∧ |blockAdjust n - n| < 8 := by
  unfold blockAdjust
  rw [Int.tmod_eq_emod_of_nonneg h.le, Int.tdiv_eq_ediv_of_nonneg h.le]
  split
  · split
    · refine ⟨by omega, by omega, ?_⟩
      rw [abs_lt]; omega
    · refine ⟨by omega, by omega, ?_⟩
      rw [abs_lt]; omega
  · refine ⟨by omega, h, by simp⟩

/-- A name list with `ModPara`, `LocSpin` (count `loc`), one file of orbitals (100 parameters) and translations (4). -/
def exNFiles (orb : KWIdxInt) (loc : Int) : DefFiles := fun k =>
  if k = .KWModPara then some (some ⟨20, none, none⟩)
  else if k = .KWLocSpin then some (some ⟨10, some loc, none⟩)
  else if k = orb then some (some ⟨10, some 100, some 0⟩)
  else if k = .KWTransSym then some (some ⟨10, some 4, none⟩)
  else none

/-- Parameters that differ from the default ones. -/
def exNMp (l : List (MPVar × Int)) : MPVar → ℚ := l.foldr (fun p m v => if v = p.1 then (p.2 : ℚ) else m v) mpDefault

/-- Example: a run with 4 electrons on 8 sites and two translations is accepted, with the sizes expected. -/
example : ∃ s, readNInt false (fun n _ _ => n) 0 (exNFiles .KWOrbital 0) (exNMp [(.Nsite, 8), (.Ne, 2), (.TwoSz, 0), (.MPTrans, -2), (.SPGaussLeg, 3)]) = .ok s ∧
    s.Nsite = 8 ∧ s.Nsize = 4 ∧ s.general = false ∧ s.nQPFull = 6 ∧ s.apFlag = true ∧ s.nPara = 100 ∧ s.nQPTrans = 4 ∧ s.blockSize = 200 :=
  ⟨_, rfl, rfl, rfl, rfl, rfl, rfl, rfl, rfl, rfl⟩

/-- The reader without general orbitals: `l` changes the default parameters (16 sites, 8 + 8 electrons). -/
abbrev exNInt (orb : KWIdxInt) (loc : Int) (l : List (MPVar × Int)) : NOut := readNInt false (fun n _ _ => n) 0 (exNFiles orb loc) (exNMp l)

/-- Example of a rejected input: without a line `2Sz` the default -1 needs general orbitals; an odd `2Sz` is refused as well. -/
example : exNInt .KWOrbital 0 [(.MPTrans, 1)] = .abort ∧ exNInt .KWOrbitalGeneral 0 [(.MPTrans, 1), (.TwoSz, 3)] = .abort := ⟨rfl, rfl⟩

/-- Example of an undefined one: a listed file does not exist. -/
example : readNInt false (fun n _ _ => n) 0 (fun k => if k = .KWTrans then some none else exNFiles .KWOrbital 0 k) (exNMp [(.TwoSz, 0)]) = .ub := rfl

/-- **C79 is violated**: without a line `NMPTrans` the number of projected components is 0 (the wave function vanishes). -/
theorem C79_no_translation_violated : ∃ s, exNInt .KWOrbital 0 [(.TwoSz, 0)] = .ok s ∧ s.nQPFull = 0 := ⟨_, rfl, rfl⟩

/-- **C79 is violated**: more translations are used than the table has rows. -/
theorem C79_translations_violated : ∃ s, exNInt .KWOrbital 0 [(.TwoSz, 0), (.MPTrans, 5)] = .ok s ∧ s.nQPTrans < s.mpTrans := ⟨_, rfl, by decide⟩

/-- **C79 is violated**: more electrons of one spin than sites. -/
theorem C79_electrons_violated : ∃ s, exNInt .KWOrbital 0 [(.TwoSz, 0), (.MPTrans, 1), (.Ne, 17)] = .ok s ∧ s.Nsite < s.Ne ∧ s.twoSz = 0 :=
  ⟨_, rfl, by decide, rfl⟩

/-- **C79 is violated**: `2Sz` larger than the number of electrons. -/
theorem C79_magnetisation_violated : ∃ s, exNInt .KWOrbitalGeneral 0 [(.TwoSz, 18), (.MPTrans, 1)] = .ok s ∧ s.Nsize < s.twoSz := ⟨_, rfl, by decide⟩

/-- **C79 is violated**: the Lanczos step with general orbitals is refused, but not if the spin projection has two or more points. -/
theorem C79_lanczos_violated : exNInt .KWOrbitalGeneral 0 [(.TwoSz, 0), (.MPTrans, 1), (.LanczosMode, 1)] = .abort ∧
    ∃ s, exNInt .KWOrbitalGeneral 0 [(.TwoSz, 0), (.MPTrans, 1), (.LanczosMode, 1), (.SPGaussLeg, 2)] = .ok s ∧ s.general = true ∧ s.lanczos = 1 ∧
      s.gaussLeg = 1 := ⟨rfl, _, rfl, rfl, rfl, rfl⟩

/-- **C79 is violated**: with an odd number of local spins, `Ncond` gives one electron less than announced. -/
theorem C79_cond_violated : ∃ s, exNInt .KWOrbital 3 [(.TwoSz, 0), (.MPTrans, 1), (.NCond, 4), (.ExUpdatePath, 1)] = .ok s ∧ s.nLoc = 3 ∧ s.Nsize = 6 :=
  ⟨_, rfl, rfl, rfl⟩

/-- **C79 is violated**: sizes that make no sense: no sites, no samples, groups of 0 processes, blocks of negative size. -/
theorem C79_unchecked_violated : ∃ s, exNInt .KWOrbital 0 [(.TwoSz, 0), (.MPTrans, 1), (.Nsite, 0), (.Ne, -1), (.Sample, 0), (.SplitSize, 0), (.BlockSize, -3)] = .ok s ∧
    s.Nsite = 0 ∧ s.Nsize = -2 ∧ s.sample = 0 ∧ s.split = 0 ∧ s.blockSize = -3 := ⟨_, rfl, rfl, rfl, rfl, rfl, rfl⟩

/-- **C79 is violated**: with both files of antiparallel pairs the number of orbitals is the sum, although the second replaces the first
(`iNOrbitalAntiParallel` is the last count). -/
theorem C79_two_files_violated : ∃ b s, hdrLoop false (fun k => if k = .KWOrbitalAntiParallel then some (some ⟨10, some 60, some 0⟩) else exNFiles .KWOrbital 0 k)
      kwOrder nBufDefault = some b ∧
    readNInt false (fun n _ _ => n) 0 (fun k => if k = .KWOrbitalAntiParallel then some (some ⟨10, some 60, some 0⟩) else exNFiles .KWOrbital 0 k)
      (exNMp [(.TwoSz, 0), (.MPTrans, 1)]) = .ok s ∧ s.nOrbital = 160 ∧ b.nAP = 60 := ⟨_, _, rfl, rfl, rfl, rfl⟩

/-- **C79 is violated**: the checks of local spins use the count in the head of the file, which is not compared with the table. Here both sites hold a
local spin, the head says 0, and the run with `NExUpdatePath = 0` is accepted. -/
theorem C79_header_violated : (∃ s, exNInt .KWOrbital 0 [(.Nsite, 2), (.Ne, 1), (.TwoSz, 0), (.MPTrans, 1), (.ExUpdatePath, 0)] = .ok s) ∧
    (∃ t, getLocSpinInfo 2 [⟨[0, 1], []⟩, ⟨[1, 1], []⟩] = .ok t ∧ t 0 = some 1 ∧ t 1 = some 1) ∧ locSpnCheck 2 1 0 = false :=
  ⟨⟨_, rfl⟩, ⟨_, rfl, rfl, rfl⟩, rfl⟩

/-- Example for the block size. -/
example : blockAdjust 5 = 8 ∧ blockAdjust 21 = 16 ∧ blockAdjust 24 = 24 ∧ blockAdjust 0 = 0 ∧ blockAdjust (-3) = -3 := by decide

end MVMC
