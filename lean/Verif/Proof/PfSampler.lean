import Verif.Model.PfSampler
import Verif.Proof.PfUpdateTwo
import Verif.Proof.Sampler
import Verif.Proof.SamplerFsz

/-! Row numbers of electrons; Pfaffians and inverse matrices along the samplers. -/
namespace MVMC
open Spec

variable {K : Type} [Field K]

/-! ### row numbers -/

theorem rsSz_occ {p : PfPar} (idx : Arr) {i : Nat} (hi : i < p.Nsize) : rsSz p idx i = occSz p.Ne p.Nsite idx i := by
  unfold rsSz occSz
  split
  · rename_i h; rw [Nat.div_eq_of_lt h]; omega
  · rename_i h
    have : i / p.Ne = 1 := by
      unfold PfPar.Nsize at hi
      apply Nat.div_eq_of_lt_le <;> omega
    rw [this]; omega

theorem rsFsz_occ {p : PfPar} {idx spn : Arr} (hs : Spins p.Nsize spn) {i : Nat} (hi : i < p.Nsize) :
    rsFsz p idx spn i = occF p.Nsite idx spn i := by
  unfold rsFsz occF
  rcases hs i hi with h | h <;> simp [h]

theorem occ_lt {p : PfPar} {idx : Arr} (h : OnSites p.Nsize p.Nsite idx) {i : Nat} (hi : i < p.Nsize) :
    occSz p.Ne p.Nsite idx i < p.Nsite2 := by
  have := h i hi
  unfold occSz PfPar.Nsite2
  split <;> omega

theorem occF_lt {p : PfPar} {idx spn : Arr} (h : OnSites p.Nsize p.Nsite idx) {i : Nat} (hi : i < p.Nsize) :
    occF p.Nsite idx spn i < p.Nsite2 := by
  have := h i hi
  unfold occF PfPar.Nsite2
  split <;> omega

theorem msa_lt {p : PfPar} {ma s : Nat} (hm : ma < p.Ne) (hs : s < 2) : ma + s * p.Ne < p.Nsize := by
  unfold PfPar.Nsize
  rcases (show s = 0 ∨ s = 1 by omega) with rfl | rfl <;> omega

theorem occ_msa {p : PfPar} {idx : Arr} {ma s : Nat} (hm : ma < p.Ne) (hs : s < 2) :
    occSz p.Ne p.Nsite idx (ma + s * p.Ne) = (idx (ma + s * p.Ne)).toNat + s * p.Nsite := by
  unfold occSz
  rcases (show s = 0 ∨ s = 1 by omega) with rfl | rfl
  · rw [if_pos (by omega)]; omega
  · rw [if_neg (by omega)]; omega

theorem occF_spin {p : PfPar} {idx spn : Arr} {m t : Nat} (hs : t < 2) (h : spn m = ((t : Nat) : Int)) :
    occF p.Nsite idx spn m = (idx m).toNat + t * p.Nsite := by
  unfold occF
  rcases (show t = 0 ∨ t = 1 by omega) with rfl | rfl
  · simp [h]
  · simp [h]

theorem pfOK_congr {n m : Nat} {slt : Nat → K} {qs nq : Nat} {rs rs' : Nat → Nat} {pfM invM : Nat → K}
    (h : ∀ i, i < n → rs i = rs' i) (hok : PfOK n m slt qs nq rs pfM invM) : PfOK n m slt qs nq rs' pfM invM := by
  intro q hq
  refine ⟨?_, ?_⟩
  · rw [(hok q hq).1]; exact pfOf_congr h (fun _ _ _ _ => rfl)
  · exact isInv_congr h (fun _ _ _ _ => rfl) (fun _ _ _ _ => rfl) (hok q hq).2

theorem foldl_congr_range {σ : Type} (n : Nat) {f g : σ → Nat → σ} (h : ∀ s i, i < n → f s i = g s i) (s : σ) :
    (List.range n).foldl f s = (List.range n).foldl g s := by
  induction n generalizing s with
  | zero => rfl
  | succ n ih =>
    rw [List.range_succ, List.foldl_append, List.foldl_append, ih (fun s i hi => h s i (by omega))]
    exact h _ _ (by omega)

theorem foldl_congr_range' {σ : Type} (n : Nat) {f g : σ → Nat → σ} (h : ∀ s i, i < n → f s i = g s i) {s s' : σ}
    (e : s = s') : (List.range n).foldl f s = (List.range n).foldl g s' := by
  subst e; exact foldl_congr_range n h s

theorem sumLoop_congr {n : Nat} {f g : Nat → K} (h : ∀ i, i < n → f i = g i) : sumLoop n f = sumLoop n g := by
  unfold sumLoop
  exact foldl_congr_range n (fun z i hi => by rw [h i hi]) 0

/-- `updateMAllChild` looks at `rs` only on the electron rows -/
theorem updateMAllChild_congr (p : PfPar) (slt : Nat → K) (msa rsa : Nat) {rs rs' : Nat → Nat} (qpStart q : Nat)
    (st : PfState K) (h : ∀ i, i < p.Nsize → rs i = rs' i) :
    updateMAllChild p slt msa rsa rs qpStart q st = updateMAllChild p slt msa rsa rs' qpStart q st := by
  have hv : (List.range p.Nsize).foldl (fun v msj => (List.range p.Nsize).foldl (fun v msi =>
      addAt v msi (- invAt p st.invM q msj msi * sltAt p slt (q + qpStart) rsa (rs msj))) v) (fun _ => 0)
      = (List.range p.Nsize).foldl (fun v msj => (List.range p.Nsize).foldl (fun v msi =>
      addAt v msi (- invAt p st.invM q msj msi * sltAt p slt (q + qpStart) rsa (rs' msj))) v) (fun _ => 0) := by
    apply foldl_congr_range
    intro v j hj
    rw [h j hj]
  unfold updateMAllChild
  simp only
  rw [hv]

/-! ### one electron -/

section
variable {p : PfPar} {slt : Nat → K} {qpStart qpEnd nq q : Nat} {st : PfState K}

theorem newPfM_ok {ma s : Nat} {idx idx' : Arr} (hma : ma < p.Ne) (hs : s < 2)
    (hsk : SlaterSkew p.Nsite2 slt (q + qpStart))
    (hi : OnSites p.Nsize p.Nsite idx) (hi' : OnSites p.Nsize p.Nsite idx')
    (hsame : ∀ i, i < p.Nsize → i ≠ ma + s * p.Ne → idx' i = idx i) (hq : q < nq)
    (hok : PfOK p.Nsize p.Nsite2 slt qpStart nq (occSz p.Ne p.Nsite idx) st.pfM st.invM) :
    calculateNewPfM p slt ma s idx' qpStart st q
      = pfOf (entry p.Nsite2 slt (q + qpStart)) p.Nsize (occSz p.Ne p.Nsite idx') := by
  have hm := msa_lt hma hs
  rw [newPfM_sum hma, (hok q hq).1,
    pfOf_change (slaterSkew_on hsk) (rs := occSz p.Ne p.Nsite idx) (rs' := occSz p.Ne p.Nsite idx')
      (fun i h => occ_lt hi h) (fun i h => occ_lt hi' h) hm
      (fun i h hne => by unfold occSz; rw [hsame i h hne]) (hok q hq).2]
  congr 2
  apply Finset.sum_congr rfl
  intro j hj
  rw [rsSz_occ idx' hm, rsSz_occ idx' (Finset.mem_range.mp hj)]

theorem newPfMFsz_ok {ma t : Nat} {idx spn idx' spn' : Arr} (hma : ma < p.Nsize)
    (hsk : SlaterSkew p.Nsite2 slt (q + qpStart))
    (hi : OnSites p.Nsize p.Nsite idx) (hi' : OnSites p.Nsize p.Nsite idx')
    (hsp' : Spins p.Nsize spn') (ht : spn' ma = ((t : Nat) : Int))
    (hsame : ∀ i, i < p.Nsize → i ≠ ma → idx' i = idx i ∧ spn' i = spn i) (hq : q < nq)
    (hok : PfOK p.Nsize p.Nsite2 slt qpStart nq (occF p.Nsite idx spn) st.pfM st.invM) :
    calculateNewPfMFsz p slt ma t idx' spn' qpStart st q
      = pfOf (entry p.Nsite2 slt (q + qpStart)) p.Nsize (occF p.Nsite idx' spn') := by
  rw [newPfMFsz_sum (by rw [ht]; rfl), (hok q hq).1,
    pfOf_change (slaterSkew_on hsk) (rs := occF p.Nsite idx spn) (rs' := occF p.Nsite idx' spn')
      (fun i h => occF_lt hi h) (fun i h => occF_lt hi' h) hma
      (fun i h hne => by unfold occF; rw [(hsame i h hne).1, (hsame i h hne).2]) (hok q hq).2]
  congr 2
  apply Finset.sum_congr rfl
  intro j hj
  rw [rsFsz_occ hsp' hma, rsFsz_occ hsp' (Finset.mem_range.mp hj)]

theorem updateMAll_ok {ma s : Nat} {idx idx' : Arr} (hma : ma < p.Ne) (hs : s < 2)
    (hsk : ∀ q, q < qpEnd - qpStart → SlaterSkew p.Nsite2 slt (q + qpStart))
    (hi : OnSites p.Nsize p.Nsite idx) (hi' : OnSites p.Nsize p.Nsite idx')
    (hsame : ∀ i, i < p.Nsize → i ≠ ma + s * p.Ne → idx' i = idx i)
    (hok : PfOK p.Nsize p.Nsite2 slt qpStart (qpEnd - qpStart) (occSz p.Ne p.Nsite idx) st.pfM st.invM)
    (h0 : ∀ q, q < qpEnd - qpStart → pfOf (entry p.Nsite2 slt (q + qpStart)) p.Nsize (occSz p.Ne p.Nsite idx') ≠ 0) :
    PfOK p.Nsize p.Nsite2 slt qpStart (qpEnd - qpStart) (occSz p.Ne p.Nsite idx')
      (updateMAll p slt ma s idx' qpStart qpEnd st).pfM (updateMAll p slt ma s idx' qpStart qpEnd st).invM := by
  have := updateLoop_ok (p := p) (slt := slt) (rs := occSz p.Ne p.Nsite idx) (rs' := occSz p.Ne p.Nsite idx') hsk
    (fun i h => occ_lt hi h) (fun i h => occ_lt hi' h) (msa_lt hma hs)
    (fun i h hne => by unfold occSz; rw [hsame i h hne]) hok h0
  unfold updateMAll
  simp only [updateMAllChild_congr p slt _ _ qpStart _ _ (fun i hi => rsSz_occ idx' hi)]
  rw [occ_msa hma hs] at this
  exact this

theorem updateMAllFsz_ok {ma t : Nat} {idx spn idx' spn' : Arr} (hma : ma < p.Nsize)
    (hsk : ∀ q, q < qpEnd - qpStart → SlaterSkew p.Nsite2 slt (q + qpStart))
    (hi : OnSites p.Nsize p.Nsite idx) (hi' : OnSites p.Nsize p.Nsite idx')
    (hsp' : Spins p.Nsize spn') (ht2 : t < 2) (ht : spn' ma = ((t : Nat) : Int))
    (hsame : ∀ i, i < p.Nsize → i ≠ ma → idx' i = idx i ∧ spn' i = spn i)
    (hok : PfOK p.Nsize p.Nsite2 slt qpStart (qpEnd - qpStart) (occF p.Nsite idx spn) st.pfM st.invM)
    (h0 : ∀ q, q < qpEnd - qpStart → pfOf (entry p.Nsite2 slt (q + qpStart)) p.Nsize (occF p.Nsite idx' spn') ≠ 0) :
    PfOK p.Nsize p.Nsite2 slt qpStart (qpEnd - qpStart) (occF p.Nsite idx' spn')
      (updateMAllFsz p slt ma t idx' spn' qpStart qpEnd st).pfM (updateMAllFsz p slt ma t idx' spn' qpStart qpEnd st).invM := by
  have := updateLoop_ok (p := p) (slt := slt) (rs := occF p.Nsite idx spn) (rs' := occF p.Nsite idx' spn') hsk
    (fun i h => occF_lt hi h) (fun i h => occF_lt hi' h) hma
    (fun i h hne => by unfold occF; rw [(hsame i h hne).1, (hsame i h hne).2]) hok h0
  unfold updateMAllFsz
  simp only [updateMAllChild_congr p slt _ _ qpStart _ _ (fun i hi => rsFsz_occ hsp' hi)]
  rw [occF_spin ht2 ht] at this
  exact this

/-! ### two electrons -/

theorem newPfMTwoChild_congr (msa rsa msb rsb : Nat) {rs rs' : Nat → Nat} (ha : msa < p.Nsize)
    (h : ∀ i, i < p.Nsize → rs i = rs' i) :
    calculateNewPfMTwoChild p slt msa rsa msb rsb rs qpStart st q
      = calculateNewPfMTwoChild p slt msa rsa msb rsb rs' qpStart st q := by
  unfold calculateNewPfMTwoChild
  simp only [sumLoop_eq]
  have e : ∀ (f : Nat → K → K → K), (∑ i ∈ Finset.range p.Nsize,
      f i (sltAt p slt (q + qpStart) rsa (rs i)) (sltAt p slt (q + qpStart) rsb (rs i)))
      = ∑ i ∈ Finset.range p.Nsize,
      f i (sltAt p slt (q + qpStart) rsa (rs' i)) (sltAt p slt (q + qpStart) rsb (rs' i)) := by
    intro f
    apply Finset.sum_congr rfl
    intro i hi
    rw [h i (Finset.mem_range.mp hi)]
  rw [h msa ha, e (fun i x _ => invAt p st.invM q msa i * x), e (fun i x _ => invAt p st.invM q msb i * x),
    e (fun i _ x => invAt p st.invM q msa i * x), e (fun i _ x => invAt p st.invM q msb i * x)]
  have e2 : (∑ i ∈ Finset.range p.Nsize, sltAt p slt (q + qpStart) rsb (rs i) *
      ∑ j ∈ Finset.range p.Nsize, invAt p st.invM q i j * sltAt p slt (q + qpStart) rsa (rs j))
      = ∑ i ∈ Finset.range p.Nsize, sltAt p slt (q + qpStart) rsb (rs' i) *
      ∑ j ∈ Finset.range p.Nsize, invAt p st.invM q i j * sltAt p slt (q + qpStart) rsa (rs' j) := by
    apply Finset.sum_congr rfl
    intro i hi
    rw [h i (Finset.mem_range.mp hi), e (fun j x _ => invAt p st.invM q i j * x)]
  rw [e2]

theorem newPfMTwo_ok {ma s mb t : Nat} {idx idx' : Arr} (hma : ma < p.Ne) (hs : s < 2) (hmb : mb < p.Ne) (ht : t < 2)
    (hsk : SlaterSkew p.Nsite2 slt (q + qpStart))
    (hi : OnSites p.Nsize p.Nsite idx) (hi' : OnSites p.Nsize p.Nsite idx')
    (hsame : ∀ i, i < p.Nsize → i ≠ ma + s * p.Ne → i ≠ mb + t * p.Ne → idx' i = idx i) (hq : q < nq)
    (hok : PfOK p.Nsize p.Nsite2 slt qpStart nq (occSz p.Ne p.Nsite idx) st.pfM st.invM) :
    calculateNewPfMTwo p slt ma s mb t idx' qpStart st q
      = pfOf (entry p.Nsite2 slt (q + qpStart)) p.Nsize (occSz p.Ne p.Nsite idx') := by
  unfold calculateNewPfMTwo
  simp only
  split
  · rename_i e
    exact newPfM_ok hmb ht hsk hi hi' (fun i h hne => hsame i h (by rw [e]; exact hne) hne) hq hok
  · rename_i e
    rw [newPfMTwoChild_congr _ _ _ _ (msa_lt hma hs) (fun i h => rsSz_occ idx' h), ← occ_msa (idx := idx') hma hs,
      ← occ_msa (idx := idx') hmb ht]
    exact calculateNewPfMTwoChild_ok (rs' := occSz p.Ne p.Nsite idx') hsk (fun i h => occ_lt hi h) (fun i h => occ_lt hi' h)
      (msa_lt hma hs) (msa_lt hmb ht) e (fun i h h1 h2 => by unfold occSz; rw [hsame i h h1 h2]) (hok q hq).2 (hok q hq).1

theorem newPfMTwoFsz_ok {ma s mb t : Nat} {idx spn idx' spn' : Arr} (hma : ma < p.Nsize) (hmb : mb < p.Nsize)
    (hsk : SlaterSkew p.Nsite2 slt (q + qpStart))
    (hi : OnSites p.Nsize p.Nsite idx) (hi' : OnSites p.Nsize p.Nsite idx') (hsp' : Spins p.Nsize spn')
    (hs2 : s < 2) (ht2 : t < 2) (hs : spn' ma = ((s : Nat) : Int)) (ht : spn' mb = ((t : Nat) : Int))
    (hsame : ∀ i, i < p.Nsize → i ≠ ma → i ≠ mb → idx' i = idx i ∧ spn' i = spn i) (hq : q < nq)
    (hok : PfOK p.Nsize p.Nsite2 slt qpStart nq (occF p.Nsite idx spn) st.pfM st.invM) :
    calculateNewPfMTwoFsz p slt ma s mb t idx' spn' qpStart st q
      = pfOf (entry p.Nsite2 slt (q + qpStart)) p.Nsize (occF p.Nsite idx' spn') := by
  unfold calculateNewPfMTwoFsz
  split
  · rename_i e
    exact newPfMFsz_ok hmb hsk hi hi' hsp' ht (fun i h hne => hsame i h (by rw [e]; exact hne) hne) hq hok
  · rename_i e
    rw [newPfMTwoChild_congr _ _ _ _ hma (fun i h => rsFsz_occ hsp' h), ← occF_spin (idx := idx') hs2 hs,
      ← occF_spin (idx := idx') ht2 ht]
    exact calculateNewPfMTwoChild_ok (rs' := occF p.Nsite idx' spn') hsk (fun i h => occF_lt hi h) (fun i h => occF_lt hi' h)
      hma hmb e (fun i h h1 h2 => by unfold occF; rw [(hsame i h h1 h2).1, (hsame i h h1 h2).2]) (hok q hq).2 (hok q hq).1

theorem updateMAllTwoChild_congr (msa rsa msb rsb : Nat) {rs rs' : Nat → Nat} (x : K) (ha : msa < p.Nsize)
    (hb : msb < p.Nsize) (h : ∀ i, i < p.Nsize → rs i = rs' i) (s : PfState K) :
    updateMAllTwoChild p slt msa rsa msb rsb rs x qpStart q s = updateMAllTwoChild p slt msa rsa msb rsb rs' x qpStart q s := by
  have hS : ∀ i, i < p.Nsize → setAt (fun i => sltAt p slt (q + qpStart) rsa (rs i)) msb x i
      = setAt (fun i => sltAt p slt (q + qpStart) rsa (rs' i)) msb x i := by
    intro i hi; unfold setAt; simp only [h i hi]
  have hP : (fun msi => sumLoop p.Nsize (fun msj => invAt p s.invM q msi msj *
      setAt (fun i => sltAt p slt (q + qpStart) rsa (rs i)) msb x msj))
      = fun msi => sumLoop p.Nsize (fun msj => invAt p s.invM q msi msj *
      setAt (fun i => sltAt p slt (q + qpStart) rsa (rs' i)) msb x msj) := by
    funext i
    exact sumLoop_congr (fun j hj => by rw [hS j hj])
  have hQ : (fun msi => sumLoop p.Nsize (fun msj => invAt p s.invM q msi msj * sltAt p slt (q + qpStart) rsb (rs msj)))
      = fun msi => sumLoop p.Nsize (fun msj => invAt p s.invM q msi msj * sltAt p slt (q + qpStart) rsb (rs' msj)) := by
    funext i
    exact sumLoop_congr (fun j hj => by rw [h j hj])
  have hB : ∀ P : Nat → K, sumLoop p.Nsize (fun i => sltAt p slt (q + qpStart) rsb (rs i) * P i)
      = sumLoop p.Nsize (fun i => sltAt p slt (q + qpStart) rsb (rs' i) * P i) :=
    fun P => sumLoop_congr (fun j hj => by rw [h j hj])
  have eP := congrFun hP
  have eQ := congrFun hQ
  unfold updateMAllTwoChild
  simp only [eP, eQ, hB, h msa ha]

theorem updateMAllTwo_ok {ma s mb t raOld : Nat} {idx idx' : Arr} (hma : ma < p.Ne) (hs : s < 2) (hmb : mb < p.Ne) (ht : t < 2)
    (hab : ma + s * p.Ne ≠ mb + t * p.Ne)
    (hsk : ∀ q, q < qpEnd - qpStart → SlaterSkew p.Nsite2 slt (q + qpStart))
    (hi : OnSites p.Nsize p.Nsite idx) (hi' : OnSites p.Nsize p.Nsite idx')
    (hsame : ∀ i, i < p.Nsize → i ≠ ma + s * p.Ne → i ≠ mb + t * p.Ne → idx' i = idx i)
    (hok : PfOK p.Nsize p.Nsite2 slt qpStart (qpEnd - qpStart) (occSz p.Ne p.Nsite idx) st.pfM st.invM)
    (h0 : ∀ q, q < qpEnd - qpStart → pfOf (entry p.Nsite2 slt (q + qpStart)) p.Nsize (occSz p.Ne p.Nsite idx') ≠ 0) :
    PfOK p.Nsize p.Nsite2 slt qpStart (qpEnd - qpStart) (occSz p.Ne p.Nsite idx')
      (updateMAllTwo p slt ma s mb t raOld idx' qpStart qpEnd st).pfM
      (updateMAllTwo p slt ma s mb t raOld idx' qpStart qpEnd st).invM := by
  have := updateTwoLoop_ok (p := p) (slt := slt) (rs := occSz p.Ne p.Nsite idx) (rs' := occSz p.Ne p.Nsite idx') hsk
    (fun i h => occ_lt hi h) (fun i h => occ_lt hi' h) (msa_lt hma hs) (msa_lt hmb ht) hab
    (fun i h h1 h2 => by unfold occSz; rw [hsame i h h1 h2])
    (fun q => sltAt p slt (q + qpStart) (raOld + s * p.Nsite) (raOld + t * p.Nsite)) hok h0
  unfold updateMAllTwo
  simp only [updateMAllTwoChild_congr (p := p) (slt := slt) (qpStart := qpStart) _ _ _ _ _ (msa_lt hma hs) (msa_lt hmb ht)
    (fun i hi => rsSz_occ idx' hi)]
  rw [occ_msa hma hs, occ_msa hmb ht] at this
  exact this

theorem updateMAllTwoFsz_ok {ma s mb t raOld : Nat} {idx spn idx' spn' : Arr} (hma : ma < p.Nsize) (hmb : mb < p.Nsize)
    (hab : ma ≠ mb)
    (hsk : ∀ q, q < qpEnd - qpStart → SlaterSkew p.Nsite2 slt (q + qpStart))
    (hi : OnSites p.Nsize p.Nsite idx) (hi' : OnSites p.Nsize p.Nsite idx') (hsp' : Spins p.Nsize spn')
    (hs2 : s < 2) (ht2 : t < 2) (hs : spn' ma = ((s : Nat) : Int)) (ht : spn' mb = ((t : Nat) : Int))
    (hsame : ∀ i, i < p.Nsize → i ≠ ma → i ≠ mb → idx' i = idx i ∧ spn' i = spn i)
    (hok : PfOK p.Nsize p.Nsite2 slt qpStart (qpEnd - qpStart) (occF p.Nsite idx spn) st.pfM st.invM)
    (h0 : ∀ q, q < qpEnd - qpStart → pfOf (entry p.Nsite2 slt (q + qpStart)) p.Nsize (occF p.Nsite idx' spn') ≠ 0) :
    PfOK p.Nsize p.Nsite2 slt qpStart (qpEnd - qpStart) (occF p.Nsite idx' spn')
      (updateMAllTwoFsz p slt ma s mb t raOld idx' spn' qpStart qpEnd st).pfM
      (updateMAllTwoFsz p slt ma s mb t raOld idx' spn' qpStart qpEnd st).invM := by
  have := updateTwoLoop_ok (p := p) (slt := slt) (rs := occF p.Nsite idx spn) (rs' := occF p.Nsite idx' spn') hsk
    (fun i h => occF_lt hi h) (fun i h => occF_lt hi' h) hma hmb hab
    (fun i h h1 h2 => by unfold occF; rw [(hsame i h h1 h2).1, (hsame i h h1 h2).2])
    (fun q => sltAt p slt (q + qpStart) (raOld + s * p.Nsite) (raOld + t * p.Nsite)) hok h0
  unfold updateMAllTwoFsz
  simp only [updateMAllTwoChild_congr (p := p) (slt := slt) (qpStart := qpStart) _ _ _ _ _ hma hmb
    (fun i hi => rsFsz_occ hsp' hi)]
  rw [occF_spin hs2 hs, occF_spin ht2 ht] at this
  exact this

end

/-! ### from scratch: success -/

/-- The library does not fail on an invertible matrix (true in exact arithmetic). -/
def LibTotal (lib : SkLib K) : Prop :=
  ∀ n (b inv : Nat → K), (∀ i j, i < n → j < n → b (i + n * j) = - b (j + n * i)) → (∀ i, i < n → b (i + n * i) = 0) →
    (∀ i, i < n → ∀ j, j < n → ∑ k ∈ Finset.range n, inv (i + n * k) * b (k + n * j) = if i = j then 1 else 0) →
    ∃ r, lib n b = some r

theorem calculateMAllChild_total {p : PfPar} {lib : SkLib K} (hlib : LibTotal lib) {slt : Nat → K} {qpStart q : Nat}
    {rs : Nat → Nat} {st : PfState K} (hsk : SlaterSkew p.Nsite2 slt (q + qpStart))
    (hrs : ∀ i, i < p.Nsize → rs i < p.Nsite2) {N : Nat → Nat → K}
    (hN : IsInv (entry p.Nsite2 slt (q + qpStart)) p.Nsize rs N) :
    ∃ st', calculateMAllChild p lib slt qpStart q rs st = some st' := by
  unfold calculateMAllChild
  simp only
  generalize hinv1 : (List.range p.Nsize).foldl (fun m msi =>
    (List.range p.Nsize).foldl (fun m msj =>
      setAt m (q * p.Nsize * p.Nsize + msi * p.Nsize + msj) (- sltAt p slt (q + qpStart) (rs msi) (rs msj))) m) st.invM
    = inv1
  have hval := foldl_setAt2 p.Nsize p.Nsize (q * p.Nsize * p.Nsize)
    (fun i j => - sltAt p slt (q + qpStart) (rs i) (rs j)) st.invM
  rw [hinv1] at hval
  have hb : ∀ i j, i < p.Nsize → j < p.Nsize → inv1 (q * p.Nsize * p.Nsize + (i + p.Nsize * j))
      = entry p.Nsite2 slt (q + qpStart) (rs i) (rs j) := by
    intro i j hi hj
    have := hval.1 j i hj hi
    rw [show q * p.Nsize * p.Nsize + (i + p.Nsize * j) = q * p.Nsize * p.Nsize + j * p.Nsize + i by
      rw [Nat.mul_comm p.Nsize j]; omega, this]
    rw [hsk.1 _ _ (hrs i hi) (hrs j hj)]
    rfl
  obtain ⟨r, hr⟩ := hlib p.Nsize (fun k => inv1 (q * p.Nsize * p.Nsize + k)) (fun m => N (m % p.Nsize) (m / p.Nsize))
    (by intro i j hi hj; rw [hb i j hi hj, hb j i hj hi]; exact hsk.1 _ _ (hrs i hi) (hrs j hj))
    (by intro i hi; rw [hb i i hi hi]; exact hsk.2 _ (hrs i hi))
    (by
      intro i hi j hj
      rw [← hN i hi j hj]
      apply Finset.sum_congr rfl
      intro k hk
      have hk := Finset.mem_range.mp hk
      rw [hb k j hk hj]
      congr 1
      rw [Nat.add_mul_mod_self_left, Nat.mod_eq_of_lt hi, Nat.add_mul_div_left _ _ (by omega), Nat.div_eq_of_lt hi,
        Nat.zero_add])
  rw [hr]
  exact ⟨_, rfl⟩

theorem calculateMAll_total {p : PfPar} {lib : SkLib K} (hlib : LibTotal lib) {slt : Nat → K} {qpStart qpEnd : Nat}
    {rs : Nat → Nat} (st : PfState K) (hsk : ∀ q, q < qpEnd - qpStart → SlaterSkew p.Nsite2 slt (q + qpStart))
    (hrs : ∀ i, i < p.Nsize → rs i < p.Nsite2) (N : Nat → Nat → Nat → K)
    (hN : ∀ q, q < qpEnd - qpStart → IsInv (entry p.Nsite2 slt (q + qpStart)) p.Nsize rs (N q)) :
    ∃ st', calculateMAll p lib slt qpStart qpEnd rs st = some st' := by
  unfold calculateMAll
  suffices H : ∀ k, k ≤ qpEnd - qpStart → ∃ st', (List.range k).foldl (fun o q =>
      match o with
      | none => none
      | some st => calculateMAllChild p lib slt qpStart q rs st) (some st) = some st' from H _ (Nat.le_refl _)
  intro k
  induction k with
  | zero => intro _; exact ⟨st, rfl⟩
  | succ k ih =>
    intro hk
    obtain ⟨s1, h1⟩ := ih (by omega)
    rw [List.range_succ, List.foldl_append, List.foldl_cons, List.foldl_nil, h1]
    exact calculateMAllChild_total hlib (hsk k (by omega)) hrs (hN k (by omega))

/-! ### the samplers -/

theorem onSites_of_cons {p : SamplerPar} {c : EleCfg} (hc : Cons p c) : OnSites p.pf.Nsize p.pf.Nsite c.idx := by
  intro i hi
  have hi : i < 2 * p.Ne := hi
  show 0 ≤ c.idx i ∧ c.idx i < ((p.Nsite : Nat) : Int)
  by_cases h : i < p.Ne
  · obtain ⟨r, hr, e, _⟩ := hc.electron 0 (by omega) i h
    simp only [Nat.zero_mul, Nat.add_zero] at e
    omega
  · obtain ⟨r, hr, e, _⟩ := hc.electron 1 (by omega) (i - p.Ne) (by omega)
    rw [show i - p.Ne + 1 * p.Ne = i by omega] at e
    omega

theorem onSites_of_consF {p : FPar} {c : FCfg} (hc : ConsF p c) : OnSites p.pf.Nsize p.pf.Nsite c.idx := by
  intro i hi
  obtain ⟨r, hr, s, hs, e, _⟩ := hc.electron i hi
  show 0 ≤ c.idx i ∧ c.idx i < ((p.Nsite : Nat) : Int)
  omega

theorem spins_of_consF {p : FPar} {c : FCfg} (hc : ConsF p c) : Spins p.pf.Nsize c.spn := by
  intro i hi
  obtain ⟨r, hr, s, hs, _, e, _⟩ := hc.electron i hi
  omega

/-- what is carried: exact Pfaffians and inverses, and the inner product -/
def PfCarried (n nsite2 : Nat) (slt w : Nat → K) (qpStart nq : Nat) (rs : Nat → Nat) (st : PfState K) (ip : K) : Prop :=
  PfOK n nsite2 slt qpStart nq rs st.pfM st.invM ∧ ip = amplitude n nsite2 slt w qpStart nq rs

theorem calculateIPLocal_eq {n nsite2 : Nat} {slt w pfM : Nat → K} {qpStart qpEnd : Nat} {rs : Nat → Nat}
    (h : ∀ q, q < qpEnd - qpStart → pfM q = pfOf (entry nsite2 slt (q + qpStart)) n rs) :
    calculateIPLocal w pfM qpStart qpEnd = amplitude n nsite2 slt w qpStart (qpEnd - qpStart) rs := by
  unfold calculateIPLocal amplitude
  rw [sumLoop_eq]
  apply Finset.sum_congr rfl
  intro q hq
  rw [h q (Finset.mem_range.mp hq)]

theorem set_ne {a : Arr} {i k : Nat} {v : Int} (h : k ≠ i) : a.set i v k = a k := by
  unfold Arr.set; rw [if_neg h]

theorem set_self (a : Arr) (i : Nat) (v : Int) : a.set i v i = v := by
  unfold Arr.set; rw [if_pos rfl]

section
variable {β γ : Type} {lib : SkLib K} {slt w : Nat → K} {qpStart qpEnd : Nat}
  {ps : β → PfState K} {ip : β → K} {pn : γ → Nat → K} {ipn : γ → K}
  (hlib : LibOK lib) (htot : LibTotal lib)
include hlib htot

/-- `hnz` may use that the candidate quantities are the exact ones of a consistent configuration. -/
theorem carries_qok' {p : SamplerPar} {k : Hooks β γ} (hk : CarriesPf p lib slt w qpStart qpEnd k ps ip pn ipn)
    (hsk : ∀ q, q < qpEnd - qpStart → SlaterSkew (2 * p.Nsite) slt (q + qpStart))
    (hnz : ∀ b g u c, Cons p c → k.accept b g u = true →
      ipn g = amplitude (2 * p.Ne) (2 * p.Nsite) slt w qpStart (qpEnd - qpStart) (occSz p.Ne p.Nsite c.idx) →
      (∀ q, q < qpEnd - qpStart → pn g q = pfOf (entry (2 * p.Nsite) slt (q + qpStart)) (2 * p.Ne) (occSz p.Ne p.Nsite c.idx)) →
      ∀ q, q < qpEnd - qpStart → pn g q ≠ 0) :
    QOK k p (fun c b => PfCarried (2 * p.Ne) (2 * p.Nsite) slt w qpStart (qpEnd - qpStart) (occSz p.Ne p.Nsite c.idx)
      (ps b) (ip b)) where
  hop := by
    intro c h b u hc ok hq hacc
    have hnew : ∀ q, q < qpEnd - qpStart → pn (k.propHop (updateEleConfig p h c) h b) q
        = pfOf (entry (2 * p.Nsite) slt (q + qpStart)) (2 * p.Ne) (occSz p.Ne p.Nsite (updateEleConfig p h c).idx) := by
      intro q hqq
      rw [hk.hop _ _ _ _ hqq]
      exact newPfM_ok (p := p.pf) (idx := c.idx) ok.mi ok.s (hsk q hqq) (onSites_of_cons hc)
        (onSites_of_cons (update_cons hc ok)) (fun i _ hne => set_ne hne) hqq hq.1
    refine ⟨?_, ?_⟩
    · rw [hk.commitHop]
      refine updateMAll_ok (p := p.pf) ok.mi ok.s hsk (onSites_of_cons hc)
        (onSites_of_cons (update_cons hc ok)) (fun i _ hne => set_ne hne) hq.1 ?_
      intro q hqq
      show pfOf (entry (2 * p.Nsite) slt (q + qpStart)) (2 * p.Ne) (occSz p.Ne p.Nsite (updateEleConfig p h c).idx) ≠ 0
      rw [← hnew q hqq]
      exact hnz _ _ _ _ (update_cons hc ok) hacc (by rw [hk.hopIp]; exact calculateIPLocal_eq hnew) hnew q hqq
    · rw [hk.commitHopIp, hk.hopIp]
      exact calculateIPLocal_eq hnew
  exch := by
    intro c h h2 b u hc ok ok2 e1 e2 e3 hq hacc
    have hs := ok.s
    have hs2 := ok2.s
    have hc2 := update_cons (update_cons hc ok) ok2
    have hsame : ∀ i, i < p.pf.Nsize → i ≠ h.mi + h.s * p.pf.Ne → i ≠ h2.mi + h2.s * p.pf.Ne →
        (updateEleConfig p h2 (updateEleConfig p h c)).idx i = c.idx i := by
      intro i _ n1 n2
      have n1 : i ≠ h.mi + h.s * p.Ne := n1
      have n2 : i ≠ h2.mi + h2.s * p.Ne := n2
      show (c.idx.set _ _).set _ _ i = _
      rw [set_ne n2, set_ne n1]
    have hnew : ∀ q, q < qpEnd - qpStart →
        pn (k.propExch (updateEleConfig p h c) (updateEleConfig p h2 (updateEleConfig p h c)) h h2 b) q
        = pfOf (entry (2 * p.Nsite) slt (q + qpStart)) (2 * p.Ne)
          (occSz p.Ne p.Nsite (updateEleConfig p h2 (updateEleConfig p h c)).idx) := by
      intro q hqq
      rw [hk.exch _ _ _ _ _ _ hqq]
      exact newPfMTwo_ok (p := p.pf) (idx := c.idx) ok.mi ok.s ok2.mi ok2.s (hsk q hqq) (onSites_of_cons hc)
        (onSites_of_cons hc2) hsame hqq hq.1
    refine ⟨?_, ?_⟩
    · rw [hk.commitExch]
      refine updateMAllTwo_ok (p := p.pf) ok.mi ok.s ok2.mi ok2.s ?_ hsk (onSites_of_cons hc)
        (onSites_of_cons hc2) hsame hq.1 ?_
      · intro e
        have e : h.mi + h.s * p.Ne = h2.mi + h2.s * p.Ne := e
        have m1 := ok.mi
        have m2 := ok2.mi
        rw [e3] at e
        rcases (show h.s = 0 ∨ h.s = 1 by omega) with q | q <;> rw [q] at e <;> simp at e <;> omega
      · intro q hqq
        show pfOf (entry (2 * p.Nsite) slt (q + qpStart)) (2 * p.Ne)
          (occSz p.Ne p.Nsite (updateEleConfig p h2 (updateEleConfig p h c)).idx) ≠ 0
        rw [← hnew q hqq]
        exact hnz _ _ _ _ hc2 hacc (by rw [hk.exchIp]; exact calculateIPLocal_eq hnew) hnew q hqq
    · rw [hk.commitExchIp, hk.exchIp]
      exact calculateIPLocal_eq hnew
  refresh := by
    intro c b hc hq
    have hrs : ∀ i, i < p.pf.Nsize → rsSz p.pf c.idx i < p.pf.Nsite2 := by
      intro i hi
      rw [rsSz_occ c.idx hi]
      exact occ_lt (onSites_of_cons hc) hi
    have hrs' : ∀ i, i < 2 * p.Ne → rsSz p.pf c.idx i = occSz p.Ne p.Nsite c.idx i := fun i hi => rsSz_occ (p := p.pf) c.idx hi
    obtain ⟨st', hst'⟩ := calculateMAll_total (p := p.pf) htot (ps b) hsk hrs (fun q => entry p.pf.Nsize (ps b).invM q)
      (fun q hqq => isInv_congr (fun i hi => (hrs' i hi).symm) (fun _ _ _ _ => rfl) (fun _ _ _ _ => rfl) (hq.1 q hqq).2)
    have hok := pfOK_congr hrs' (calculateMAll_ok (p := p.pf) hlib hsk hrs hst')
    obtain ⟨r1, r2⟩ := hk.refresh c b st' hst'
    refine ⟨?_, ?_⟩
    · rw [r1]; exact hok
    · rw [r2]; exact calculateIPLocal_eq (fun q hqq => (hok q hqq).1)

/-- As `carries_qok'`: `hnz` may use that the candidate quantities are the exact ones of a consistent configuration. -/
theorem carries_fqok' {p : FPar} {k : FHooks β γ} (hk : CarriesPfF p lib slt w qpStart qpEnd k ps ip pn ipn)
    (hsk : ∀ q, q < qpEnd - qpStart → SlaterSkew (2 * p.Nsite) slt (q + qpStart))
    (hnz : ∀ b g u c, ConsF p c → k.accept b g u = true →
      ipn g = amplitude (2 * p.Ne) (2 * p.Nsite) slt w qpStart (qpEnd - qpStart) (occF p.Nsite c.idx c.spn) →
      (∀ q, q < qpEnd - qpStart → pn g q = pfOf (entry (2 * p.Nsite) slt (q + qpStart)) (2 * p.Ne) (occF p.Nsite c.idx c.spn)) →
      ∀ q, q < qpEnd - qpStart → pn g q ≠ 0) :
    FQOK k p (fun c b => PfCarried (2 * p.Ne) (2 * p.Nsite) slt w qpStart (qpEnd - qpStart) (occF p.Nsite c.idx c.spn)
      (ps b) (ip b)) where
  move := by
    intro c h b u hc ok hq hacc
    have hc' := updateF_cons hc ok
    have hsame : ∀ i, i < p.pf.Nsize → i ≠ h.mi →
        (updateEleConfigF p h c).idx i = c.idx i ∧ (updateEleConfigF p h c).spn i = c.spn i :=
      fun i _ hne => ⟨set_ne hne, set_ne hne⟩
    have hnew : ∀ q, q < qpEnd - qpStart → pn (k.propMove (updateEleConfigF p h c) h b) q
        = pfOf (entry (2 * p.Nsite) slt (q + qpStart)) (2 * p.Ne)
          (occF p.Nsite (updateEleConfigF p h c).idx (updateEleConfigF p h c).spn) := by
      intro q hqq
      rw [hk.move _ _ _ _ hqq]
      exact newPfMFsz_ok (p := p.pf) (idx := c.idx) (spn := c.spn) ok.mi (hsk q hqq) (onSites_of_consF hc)
        (onSites_of_consF hc') (spins_of_consF hc') (set_self _ _ _) hsame hqq hq.1
    refine ⟨?_, ?_⟩
    · rw [hk.commitMove]
      refine updateMAllFsz_ok (p := p.pf) ok.mi hsk (onSites_of_consF hc)
        (onSites_of_consF hc') (spins_of_consF hc') ok.t (set_self _ _ _) hsame hq.1 ?_
      intro q hqq
      show pfOf (entry (2 * p.Nsite) slt (q + qpStart)) (2 * p.Ne)
          (occF p.Nsite (updateEleConfigF p h c).idx (updateEleConfigF p h c).spn) ≠ 0
      rw [← hnew q hqq]
      exact hnz _ _ _ _ hc' hacc (by rw [hk.moveIp]; exact calculateIPLocal_eq hnew) hnew q hqq
    · rw [hk.commitMoveIp, hk.moveIp]
      exact calculateIPLocal_eq hnew
  exch := by
    intro c h h2 b u hc ok ok2 est hne e1 e2 e3 e4 hq hacc
    have hs := ok.s
    have hs2 := ok2.s
    have hc1 := updateF_cons hc ok
    have hc2 := updateF_cons hc1 ok2
    have hmm : h.mi ≠ h2.mi := by
      intro e
      have h1 := ok2.sp
      rw [← e] at h1
      have h1' : (c.spn.set h.mi h.t) h.mi = ((h2.s : Nat) : Int) := h1
      rw [set_self, ← est] at h1'
      omega
    have hsame : ∀ i, i < p.pf.Nsize → i ≠ h.mi → i ≠ h2.mi →
        (updateEleConfigF p h2 (updateEleConfigF p h c)).idx i = c.idx i ∧
        (updateEleConfigF p h2 (updateEleConfigF p h c)).spn i = c.spn i := by
      intro i _ n1 n2
      constructor
      · show (c.idx.set _ _).set _ _ i = _
        rw [set_ne n2, set_ne n1]
      · show (c.spn.set _ _).set _ _ i = _
        rw [set_ne n2, set_ne n1]
    have hsa : (updateEleConfigF p h2 (updateEleConfigF p h c)).spn h.mi = ((h.s : Nat) : Int) := by
      show (c.spn.set _ _).set _ _ h.mi = _
      rw [set_ne hmm, set_self, est]
    have hsb : (updateEleConfigF p h2 (updateEleConfigF p h c)).spn h2.mi = ((h2.s : Nat) : Int) := by
      show (c.spn.set _ _).set _ _ h2.mi = _
      rw [set_self, e3, e4]
    have hnew : ∀ q, q < qpEnd - qpStart →
        pn (k.propExch (updateEleConfigF p h c) (updateEleConfigF p h2 (updateEleConfigF p h c)) h h2 b) q
        = pfOf (entry (2 * p.Nsite) slt (q + qpStart)) (2 * p.Ne)
          (occF p.Nsite (updateEleConfigF p h2 (updateEleConfigF p h c)).idx
            (updateEleConfigF p h2 (updateEleConfigF p h c)).spn) := by
      intro q hqq
      rw [hk.exch _ _ _ _ _ _ hqq]
      exact newPfMTwoFsz_ok (p := p.pf) (idx := c.idx) (spn := c.spn) ok.mi ok2.mi (hsk q hqq) (onSites_of_consF hc)
        (onSites_of_consF hc2) (spins_of_consF hc2) ok.s ok2.s hsa hsb hsame hqq hq.1
    refine ⟨?_, ?_⟩
    · rw [hk.commitExch]
      refine updateMAllTwoFsz_ok (p := p.pf) ok.mi ok2.mi hmm hsk (onSites_of_consF hc)
        (onSites_of_consF hc2) (spins_of_consF hc2) ok.s ok2.s hsa hsb hsame hq.1 ?_
      intro q hqq
      show pfOf (entry (2 * p.Nsite) slt (q + qpStart)) (2 * p.Ne)
          (occF p.Nsite (updateEleConfigF p h2 (updateEleConfigF p h c)).idx
            (updateEleConfigF p h2 (updateEleConfigF p h c)).spn) ≠ 0
      rw [← hnew q hqq]
      exact hnz _ _ _ _ hc2 hacc (by rw [hk.exchIp]; exact calculateIPLocal_eq hnew) hnew q hqq
    · rw [hk.commitExchIp, hk.exchIp]
      exact calculateIPLocal_eq hnew
  refresh := by
    intro c b hc hq
    have hrs : ∀ i, i < p.pf.Nsize → rsFsz p.pf c.idx c.spn i < p.pf.Nsite2 := by
      intro i hi
      rw [rsFsz_occ (spins_of_consF hc) hi]
      exact occF_lt (onSites_of_consF hc) hi
    have hrs' : ∀ i, i < 2 * p.Ne → rsFsz p.pf c.idx c.spn i = occF p.Nsite c.idx c.spn i :=
      fun i hi => rsFsz_occ (p := p.pf) (spins_of_consF hc) hi
    obtain ⟨st', hst'⟩ := calculateMAll_total (p := p.pf) htot (ps b) hsk hrs (fun q => entry p.pf.Nsize (ps b).invM q)
      (fun q hqq => isInv_congr (fun i hi => (hrs' i hi).symm) (fun _ _ _ _ => rfl) (fun _ _ _ _ => rfl) (hq.1 q hqq).2)
    have hok := pfOK_congr hrs' (calculateMAll_ok (p := p.pf) hlib hsk hrs hst')
    obtain ⟨r1, r2⟩ := hk.refresh c b st' hst'
    refine ⟨?_, ?_⟩
    · rw [r1]; exact hok
    · rw [r2]; exact calculateIPLocal_eq (fun q hqq => (hok q hqq).1)

theorem carries_qok {p : SamplerPar} {k : Hooks β γ} (hk : CarriesPf p lib slt w qpStart qpEnd k ps ip pn ipn)
    (hsk : ∀ q, q < qpEnd - qpStart → SlaterSkew (2 * p.Nsite) slt (q + qpStart))
    (hnz : ∀ b g u, k.accept b g u = true → ∀ q, q < qpEnd - qpStart → pn g q ≠ 0) :
    QOK k p (fun c b => PfCarried (2 * p.Ne) (2 * p.Nsite) slt w qpStart (qpEnd - qpStart) (occSz p.Ne p.Nsite c.idx)
      (ps b) (ip b)) :=
  carries_qok' hlib htot hk hsk (fun b g u _ _ ha _ _ => hnz b g u ha)

theorem carries_fqok {p : FPar} {k : FHooks β γ} (hk : CarriesPfF p lib slt w qpStart qpEnd k ps ip pn ipn)
    (hsk : ∀ q, q < qpEnd - qpStart → SlaterSkew (2 * p.Nsite) slt (q + qpStart))
    (hnz : ∀ b g u, k.accept b g u = true → ∀ q, q < qpEnd - qpStart → pn g q ≠ 0) :
    FQOK k p (fun c b => PfCarried (2 * p.Ne) (2 * p.Nsite) slt w qpStart (qpEnd - qpStart) (occF p.Nsite c.idx c.spn)
      (ps b) (ip b)) :=
  carries_fqok' hlib htot hk hsk (fun b g u _ _ ha _ _ => hnz b g u ha)

end

end MVMC
