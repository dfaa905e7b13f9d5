import Verif.Proof.Memory

/-!
# C41: definition tables; C55: work arrays
-/

namespace MVMC

/-- The shape of each table as its readers use it: rows and width (see global.h). -/
def defShape (S : DefSizes) (t : DefTab) : ℤ × ℤ :=
  let rbm (a : ℤ × ℤ) : ℤ × ℤ := if S.FlagRBM then a else (0, 0)
  let norb := if S.iFlgOrbitalGeneral then 2 * S.Nsite else S.Nsite
  match t with
  | .locSpn => (1, S.Nsite)
  | .transfer => (S.NTransfer, 4)
  | .coulombIntra => (1, S.NCoulombIntra)
  | .coulombInter => (S.NCoulombInter, 2)
  | .hund => (S.NHundCoupling, 2)
  | .pairHop => (S.NPairHopping, 2)
  | .exchange => (S.NExchangeCoupling, 2)
  | .gutzwiller => (1, S.Nsite)
  | .jastrow => (S.Nsite, S.Nsite)
  | .dh2 => (S.NDH2, 2 * S.Nsite)
  | .dh4 => (S.NDH4, 4 * S.Nsite)
  | .chargePhys => rbm (1, S.Nsite)
  | .spinPhys => rbm (1, S.Nsite)
  | .generalPhys => rbm (1, 2 * S.Nsite)
  | .chargeHidden => rbm (1, S.NneuronCharge)
  | .spinHidden => rbm (1, S.NneuronSpin)
  | .generalHidden => rbm (1, S.NneuronGeneral)
  | .chargePhysHidden => rbm (S.Nsite, S.NneuronCharge)
  | .spinPhysHidden => rbm (S.Nsite, S.NneuronSpin)
  | .generalPhysHidden => rbm (2 * S.Nsite, S.NneuronGeneral)
  | .posBF | .rangeIdx | .backFlowIdx => (0, 0)
  | .orbitalIdx => (norb, norb)
  | .orbitalSgn => (norb, norb)
  | .qpTrans => (S.NQPTrans, S.Nsite)
  | .qpTransInv => (S.NQPTrans, S.Nsite)
  | .qpTransSgn => (S.NQPTrans, S.Nsite)
  | .cisAjs => (S.NCisAjs, 4)
  | .cisAjsCktAlt => (S.NCisAjsCktAlt, 2)
  | .cisAjsCktAltDC => (S.NCisAjsCktAltDC, 8)
  | .interAll => (S.NInterAll, 8)
  | .qpOptTrans => (S.NQPOptTrans, S.Nsite)
  | .qpOptTransSgn => (S.NQPOptTrans, S.Nsite)
  | .optFlag => (1, 2 * S.NPara)

/-- All sizes are natural numbers and there is no backflow. -/
structure SizesOK (S : DefSizes) : Prop where
  hNsite : 0 ≤ S.Nsite
  hTransfer : 0 ≤ S.NTransfer
  hIntra : 0 ≤ S.NCoulombIntra
  hInter : 0 ≤ S.NCoulombInter
  hHund : 0 ≤ S.NHundCoupling
  hPair : 0 ≤ S.NPairHopping
  hEx : 0 ≤ S.NExchangeCoupling
  hDH2 : 0 ≤ S.NDH2
  hDH4 : 0 ≤ S.NDH4
  hC : 0 ≤ S.NneuronCharge
  hS : 0 ≤ S.NneuronSpin
  hG : 0 ≤ S.NneuronGeneral
  hBF : S.NBackFlowIdx = 0
  hQP : 0 ≤ S.NQPTrans
  hCA : 0 ≤ S.NCisAjs
  hCACA : 0 ≤ S.NCisAjsCktAlt
  hDC : 0 ≤ S.NCisAjsCktAltDC
  hIA : 0 ≤ S.NInterAll
  hOpt : 0 ≤ S.NQPOptTrans
  hPara : 0 ≤ S.NPara

/-- Element `j` of row `i` of a table. -/
def DefCell (S : DefSizes) (t : DefTab) (i j : ℕ) : Prop :=
  (i : ℤ) < (defShape S t).1 ∧ (j : ℤ) < (defShape S t).2

theorem carveAll_append {α : Type} : ∀ (L M : List (α × ℤ × ℤ)) (p : ℤ),
    carveAll (L ++ M) p =
      ((carveAll L p).1 ++ (carveAll M (carveAll L p).2).1, (carveAll M (carveAll L p).2).2)
  | [], _, _ => rfl
  | (t, r, w) :: L, M, p => by
    rw [List.cons_append, carveAll, carveAll]
    simp only [carveAll_append L M, List.cons_append]

/-- The tables with the flags at the end. -/
def fullLayout (S : DefSizes) : List (DefTab × ℤ × ℤ) := defLayout S ++ [(.optFlag, 1, 2 * S.NPara)]

theorem setMemoryDef_eq (S : DefSizes) :
    setMemoryDef S = (carveAll (fullLayout S) 0).1 := by
  rw [fullLayout, carveAll_append]
  rfl

theorem layout_ok {S : DefSizes} (h : SizesOK S) :
    ((fullLayout S).map Prod.fst).Nodup ∧
    (∀ e ∈ fullLayout S, 0 ≤ e.2.1 ∧ 0 ≤ e.2.2) ∧
    ((fullLayout S).map fun e => e.2.1 * e.2.2).sum = nTotalDefInt S ∧
    ∀ t, 0 < (defShape S t).1 → (t, (defShape S t).1, (defShape S t).2) ∈
      fullLayout S := by
  obtain ⟨h1, h2, h3, h4, h5, h6, h7, h8, h9, h10, h11, h12, h13, h14, h15, h16, h17, h18, h19, h20⟩ := h
  have hb : ¬ S.NBackFlowIdx > 0 := by omega
  refine ⟨?_, ?_, ?_, ?_⟩
  · unfold fullLayout defLayout
    rw [if_neg hb]
    cases S.FlagRBM <;> simp
  · unfold fullLayout defLayout
    rw [if_neg hb]
    cases S.FlagRBM <;> cases S.iFlgOrbitalGeneral <;> simp <;> omega
  · unfold fullLayout defLayout nTotalDefInt
    rw [if_neg hb]
    cases S.FlagRBM <;> cases S.iFlgOrbitalGeneral <;> simp [hb] <;> ring
  · intro t ht
    unfold defShape at ht
    unfold fullLayout defLayout defShape
    rw [if_neg hb]
    rcases hF : S.FlagRBM <;> cases t <;> simp [hF] at ht ⊢

/-- C41: with sizes that are natural numbers, every element of every integer table lies
inside the allocation, and different elements have different addresses. -/
theorem C41_ints_partial (S : DefSizes) (h : SizesOK S) :
    (∀ t i j, DefCell S t i j →
      ∃ q, defRow S t i = some q ∧ 0 ≤ q + j ∧ q + j < nTotalDefInt S) ∧
    (∀ t i j t' i' j' q q', DefCell S t i j → DefCell S t' i' j' → defRow S t i = some q →
      defRow S t' i' = some q' → q + j = q' + j' → t = t' ∧ i = i' ∧ j = j') := by
  obtain ⟨a, b, c, d⟩ := layout_ok h
  obtain ⟨_, I2, I3⟩ := carveAll_cells _ 0 a b
  have e : (carveAll (fullLayout S) 0).2 = nTotalDefInt S := by
    rw [carveAll_end _ _ fun e he => (b e he).1, c, zero_add]
  have r : ∀ t i, defRow S t i = rowOf (carveAll (fullLayout S) 0).1 t i := by
    intro t i
    unfold defRow rowOf
    rw [setMemoryDef_eq]
  rw [e] at I2
  constructor
  · intro t i j hc
    rw [r]
    exact I2 t _ _ (d t (by have := hc.1; omega)) i j hc.1 hc.2
  · intro t i j t' i' j' q q' hc hc' hq hq' heq
    rw [r] at hq hq'
    exact I3 t _ _ (d t (by have := hc.1; omega)) i j hc.1 hc.2
      t' _ _ (d t' (by have := hc'.1; omega)) i' j' hc'.1 hc'.2 q q' hq hq' heq

/-- The number of elements of each table of real numbers. -/
def dblLen (S : DefSizes) : DblTab → ℤ
  | .coulombIntra => S.NCoulombIntra
  | .coulombInter => S.NCoulombInter
  | .hund => S.NHundCoupling
  | .pairHop => S.NPairHopping
  | .exchange => S.NExchangeCoupling
  | .qpOptTrans => S.NQPOptTrans

/-- C41: the same for the tables of real numbers. -/
theorem C41_doubles (S : DefSizes) (h : SizesOK S) :
    (∀ t (j : ℕ), (j : ℤ) < dblLen S t → 0 ≤ dblPtr S t + j ∧ dblPtr S t + j < nTotalDefDouble S) ∧
    (∀ t (j : ℕ) t' (j' : ℕ), (j : ℤ) < dblLen S t → (j' : ℤ) < dblLen S t' →
      dblPtr S t + j = dblPtr S t' + j' → t = t' ∧ j = j') := by
  obtain ⟨h1, h2, h3, h4, h5, h6, h7, h8, h9, h10, h11, h12, h13, h14, h15, h16, h17, h18, h19, h20⟩ := h
  constructor
  · intro t j hj
    unfold nTotalDefDouble
    cases t <;> simp only [dblLen, dblPtr] at hj ⊢ <;> omega
  · intro t j t' j' hj hj' heq
    cases t <;> cases t' <;> simp only [dblLen, dblPtr] at hj hj' heq <;>
      first
      | exact ⟨rfl, by omega⟩
      | (exfalso; omega)

/-- A lattice of two sites with RBM and general orbitals. -/
def memEx : DefSizes where
  Nsite := 2
  NTransfer := 4
  NCoulombIntra := 2
  NCoulombInter := 1
  NHundCoupling := 1
  NPairHopping := 2
  NExchangeCoupling := 1
  NDH2 := 1
  NDH4 := 0
  FlagRBM := true
  NneuronCharge := 1
  NneuronSpin := 0
  NneuronGeneral := 3
  NBackFlowIdx := 0
  Nrange := 0
  iFlgOrbitalGeneral := true
  NQPTrans := 2
  NCisAjs := 2
  NCisAjsCktAlt := 1
  NCisAjsCktAltDC := 1
  NInterAll := 1
  NQPOptTrans := 1
  NPara := 5

example : SizesOK memEx := by constructor <;> decide
example : defRow memEx .transfer 1 = some 6 ∧ defRow memEx .jastrow 1 = some 34 ∧
    defRow memEx .orbitalSgn 3 = some 94 ∧ defRow memEx .optFlag 0 = some 140 ∧
    nTotalDefInt memEx = 150 := by decide

/-- C41 is violated by the code for negative numbers of entries, which are not refused:
the total is too small. -/
theorem C41_negative_violated :
    let S := { memEx with NTransfer := -1, NPara := 1 }
    DefCell S .optFlag 0 1 ∧ ∃ q, defRow S .optFlag 0 = some q ∧ nTotalDefInt S ≤ q + 1 := by
  refine ⟨⟨by decide, by decide⟩, _, rfl, by decide⟩

/-- C41 is violated by the code with backflow (which is switched off in this version):
two of the three backflow tables are missing in the total, so that the flags end behind
the allocation for every lattice. -/
theorem C41_backflow_violated (S : DefSizes) (h : SizesOK { S with NBackFlowIdx := 0 })
    (hs : 0 < S.Nsite) (hb : 0 < S.NBackFlowIdx) (hr : 0 ≤ S.Nrange) :
    nTotalDefInt S < (carveAll (defLayout S) 0).2 + 2 * S.NPara := by
  obtain ⟨h1, h2, h3, h4, h5, h6, h7, h8, h9, h10, h11, h12, h13, h14, h15, h16, h17, h18, h19, h20⟩ := h
  dsimp only at h1 h2 h3 h4 h5 h6 h7 h8 h9 h10 h11 h12 h13 h14 h15 h16 h17 h18 h19 h20
  have hr' : 0 ≤ S.Nsite * S.Nrange := mul_nonneg h1 hr
  have hs' : 0 < S.Nsite * S.Nsite := mul_pos hs hs
  have hb' : S.NBackFlowIdx > 0 := hb
  rw [carveAll_end]
  · suffices (0 + ((defLayout S).map fun e => e.2.1 * e.2.2).sum) + 2 * S.NPara =
        nTotalDefInt S + S.Nsite * S.Nrange + S.Nsite * S.Nsite by omega
    unfold defLayout nTotalDefInt
    rw [if_pos hb']
    cases S.FlagRBM <;> cases S.iFlgOrbitalGeneral <;> simp [hb] <;> ring
  · unfold defLayout
    rw [if_pos hb']
    cases S.FlagRBM <;> cases S.iFlgOrbitalGeneral <;> simp <;> omega

/-- C41 is violated by the code for large lattices: the total is computed in `int`. -/
theorem C41_overflow_violated :
    2 ^ 31 - 1 < nTotalDefInt { memEx with Nsite := 16384 } := by decide

/-! ## Work arrays -/

/-- Natural sizes. -/
structure WorkOK (S : WorkSizes) : Prop where
  hNe : 0 ≤ S.Ne
  hNsite : 0 ≤ S.Nsite
  hProj : 0 ≤ S.NProj
  hSlater : 0 ≤ S.NSlater
  hOpt : 0 ≤ S.NOptTrans
  hBF : 0 ≤ S.NProjBF
  hRBM : 0 ≤ S.NRBM
  hFlag : S.FlagRBM = 0 ∨ S.FlagRBM = 1
  hQPOpt : 0 ≤ S.NQPOptTrans
  hGauss : 0 ≤ S.NSPGaussLeg
  hMP : 0 ≤ S.NMPTrans
  hCA : 0 ≤ S.NCisAjs
  hCACA : 0 ≤ S.NCisAjsCktAlt
  hDC : 0 ≤ S.NCisAjsCktAltDC

/-- The number of elements of each work array (see global.h). -/
def workLen (S : WorkSizes) : WorkTab → ℤ
  | .proj => S.NProj
  | .rbm => if S.FlagRBM = 0 then 0 else S.NRBM
  | .projBF => S.NProjBF
  | .slater => S.NSlater
  | .optTrans => S.NOptTrans
  | .tmpEleIdx => 2 * S.Ne
  | .tmpEleCfg => 2 * S.Nsite
  | .tmpEleNum => 2 * S.Nsite
  | .tmpEleProjCnt => S.NProj
  | .tmpEleSpn => 2 * S.Ne
  | .invM => S.nQPFull * (2 * S.Ne * (2 * S.Ne))
  | .pfM => S.nQPFull
  | .qpFullWeight => S.nQPFull
  | .qpFixWeight => S.nQPFix
  | .spglCos | .spglSin | .spglCosSin | .spglCosCos | .spglSinSin => S.NSPGaussLeg
  | .srOptOO => if S.NSRCG = 0 then 4 * (S.srOptSize * S.srOptSize) else 4 * S.srOptSize
  | .srOptHO => 2 * S.srOptSize
  | .srOptO => 2 * S.srOptSize
  | .srOptOOReal => if S.NSRCG = 0 then S.srOptSize * S.srOptSize else 2 * S.srOptSize
  | .srOptHOReal => S.srOptSize
  | .srOptOReal => S.srOptSize
  | .physCisAjs => S.NCisAjs
  | .physCisAjsCktAlt => S.NCisAjsCktAlt
  | .physCisAjsCktAltDC => S.NCisAjsCktAltDC
  | .localCisAjs => S.NCisAjs
  | .localCisAjsCktAltDC => S.NCisAjsCktAltDC
  | .qqqq => 16
  | .lslq => 4
  | .qCisAjsQ => 4 * S.NCisAjs
  | .qCisAjsCktAltQ => 4 * S.NCisAjsCktAlt
  | .qCisAjsCktAltQDC => 4 * S.NCisAjsCktAltDC
  | .lslCisAjs => 2 * S.NCisAjs

/-- C55: every work array lies inside its allocation, and different work arrays in the same
allocation do not overlap. -/
theorem C55_work (S : WorkSizes) (h : WorkOK S) :
    (∀ t, 0 ≤ workLen S t ∧ 0 ≤ workPtr S t ∧
      workPtr S t + workLen S t ≤ workSize S (workAlloc t)) ∧
    (∀ t t', workAlloc t = workAlloc t' → t ≠ t' →
      workPtr S t + workLen S t ≤ workPtr S t' ∨ workPtr S t' + workLen S t' ≤ workPtr S t) := by
  obtain ⟨h1, h2, h3, h4, h5, h6, h7, h8, h9, h10, h11, h12, h13, h14⟩ := h
  have hfix : 0 ≤ S.nQPFix := mul_nonneg h10 h11
  have hfull : 0 ≤ S.nQPFull := mul_nonneg hfix h9
  have hpara : 0 ≤ S.nPara := by
    unfold WorkSizes.nPara
    rcases h8 with h | h <;> rw [h] <;> omega
  have hsr : 0 ≤ S.srOptSize := by unfold WorkSizes.srOptSize; omega
  have hsq : 0 ≤ S.srOptSize * S.srOptSize := mul_nonneg hsr hsr
  have hne : 0 ≤ S.nQPFull * (2 * S.Ne * (2 * S.Ne)) := mul_nonneg hfull (mul_nonneg (by omega) (by omega))
  have e1 : S.nQPFull * S.nSize * S.nSize = S.nQPFull * (2 * S.Ne * (2 * S.Ne)) := by
    unfold WorkSizes.nSize; ring
  have e2 : S.nQPFull * (S.nSize * S.nSize + 1) = S.nQPFull * (2 * S.Ne * (2 * S.Ne)) + S.nQPFull := by
    unfold WorkSizes.nSize; ring
  have e3 : 2 * S.srOptSize * (2 * S.srOptSize + 2) = 4 * (S.srOptSize * S.srOptSize) + 4 * S.srOptSize := by
    ring
  have e4 : 2 * S.srOptSize * (2 * S.srOptSize) = 4 * (S.srOptSize * S.srOptSize) := by ring
  have e5 : S.srOptSize * (S.srOptSize + 2) = S.srOptSize * S.srOptSize + 2 * S.srOptSize := by ring
  have hp : S.nPara = S.NProj + S.NSlater + S.NOptTrans + S.NProjBF + (if S.FlagRBM = 0 then 0 else S.NRBM) := by
    unfold WorkSizes.nPara
    rcases h8 with h | h <;> rw [h] <;> simp
  have hf : S.FlagRBM * S.NRBM = if S.FlagRBM = 0 then 0 else S.NRBM := by
    rcases h8 with h | h <;> rw [h] <;> simp
  have hr : 0 ≤ if S.FlagRBM = 0 then 0 else S.NRBM := by split_ifs <;> omega
  constructor
  · intro t
    cases t <;> simp only [workLen, workPtr, workSize, workAlloc, nLSHam, e1, e2, e3, e4, e5, hf, hp] <;>
      (try split_ifs) <;> omega
  · intro t t' ha hn
    cases t <;> cases t' <;> first | exact absurd rfl hn | (exact absurd ha (by decide)) | skip
    all_goals
      simp only [workLen, workPtr, nLSHam, e1, e4, hf]
      (try split_ifs) <;> omega

/-- Four electrons on four sites with an RBM. -/
def workEx : WorkSizes where
  Ne := 2
  Nsite := 4
  NProj := 3
  NSlater := 5
  NOptTrans := 1
  NProjBF := 0
  NRBM := 7
  FlagRBM := 1
  NQPOptTrans := 1
  NSPGaussLeg := 2
  NMPTrans := 3
  NSRCG := 0
  NCisAjs := 2
  NCisAjsCktAlt := 1
  NCisAjsCktAltDC := 3

example : WorkOK workEx := by constructor <;> decide
example : workPtr workEx .slater = 10 ∧ workPtr workEx .pfM = 96 ∧ workPtr workEx .srOptO = 1190 ∧
    workSize workEx .srOpt = 1224 := by decide

end MVMC
