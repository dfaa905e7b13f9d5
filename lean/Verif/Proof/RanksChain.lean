import Verif.Proof.Ranks
import Verif.Proof.PfSampler
import Verif.Proof.InitialSample
import Verif.Proof.SplitLoop
import Verif.Spec.Ranks

/-! The joint sampler follows the chain with the exact amplitudes. -/
namespace MVMC
open Spec

/-! ### a sampler followed step by step by another one, as long as an invariant holds -/

structure Follows {β γ β' γ' : Type} (k : Hooks β γ) (k' : Hooks β' γ') (p : SamplerPar) (Q : EleCfg → β → Prop) (fb : β → β') : Prop where
  hopAcc : ∀ c h b u, Cons p c → HopOK p c h → Q c b →
    k'.accept (fb b) (k'.propHop (updateEleConfig p h c) h (fb b)) u = k.accept b (k.propHop (updateEleConfig p h c) h b) u
  hopCommit : ∀ c h b, Cons p c → HopOK p c h → Q c b →
    k'.commitHop (updateEleConfig p h c) h (fb b) (k'.propHop (updateEleConfig p h c) h (fb b)) =
      fb (k.commitHop (updateEleConfig p h c) h b (k.propHop (updateEleConfig p h c) h b))
  exchAcc : ∀ c h h2 b u, Cons p c → HopOK p c h → HopOK p (updateEleConfig p h c) h2 →
    h2.ri = h.rj → h2.rj = h.ri → h2.s = 1 - h.s → Q c b →
    k'.accept (fb b) (k'.propExch (updateEleConfig p h c) (updateEleConfig p h2 (updateEleConfig p h c)) h h2 (fb b)) u =
      k.accept b (k.propExch (updateEleConfig p h c) (updateEleConfig p h2 (updateEleConfig p h c)) h h2 b) u
  exchCommit : ∀ c h h2 b, Cons p c → HopOK p c h → HopOK p (updateEleConfig p h c) h2 →
    h2.ri = h.rj → h2.rj = h.ri → h2.s = 1 - h.s → Q c b →
    k'.commitExch (updateEleConfig p h2 (updateEleConfig p h c)) h h2 (fb b)
      (k'.propExch (updateEleConfig p h c) (updateEleConfig p h2 (updateEleConfig p h c)) h h2 (fb b)) =
    fb (k.commitExch (updateEleConfig p h2 (updateEleConfig p h c)) h h2 b
      (k.propExch (updateEleConfig p h c) (updateEleConfig p h2 (updateEleConfig p h c)) h h2 b))
  refresh : ∀ c b, Cons p c → Q c b → k'.refresh c (fb b) = fb (k.refresh c b)

section
variable {β γ β' γ' : Type} {k : Hooks β γ} {k' : Hooks β' γ'} {p : SamplerPar} {Q : EleCfg → β → Prop} {fb : β → β'}
  (hf : Follows k k' p Q fb) (hQ : QOK k p Q) (hNe : 0 < p.Ne) (hNs : 0 < p.Nsite)
include hf

theorem maybeRefresh_follows {st : SState β} (hc : Cons p st.c) (hq : Q st.c st.b) :
    maybeRefresh k' p (st.map fb) = (maybeRefresh k p st).map fb := by
  unfold maybeRefresh
  by_cases h : st.nAccept > p.Nsite
  · rw [if_pos h, if_pos (show (st.map fb).nAccept > p.Nsite from h)]
    simp only [SState.map, hf.refresh _ _ hc hq]
  · rw [if_neg h, if_neg (show ¬ (st.map fb).nAccept > p.Nsite from h)]

include hQ hNe hNs

theorem innerStep_follows {st : SState β} (hi : SInv p Q st) (r : List Nat) :
    innerStep k' p (st.map fb) r = (innerStep k p st r).map (fun x => (x.1.map fb, x.2)) := by
  unfold innerStep
  cases getUpdateType p.exPath false 0 r with
  | none => rfl
  | some x =>
    obtain ⟨u, r⟩ := x
    cases u with
    | hopping =>
      simp only [SState.map]
      cases ec : makeCandidateHopping p st.c r with
      | none => rfl
      | some y =>
        obtain ⟨⟨h, fl⟩, r⟩ := y
        cases fl with
        | true => rfl
        | false =>
          cases r with
          | nil => rfl
          | cons u r =>
            have ⟨ok, _, _⟩ := hopping_ok hi.cons hNe hNs _ ec
            simp only [hf.hopAcc _ _ _ _ hi.cons ok hi.q]
            split
            · rename_i hacc
              simp only [hf.hopCommit _ _ _ hi.cons ok hi.q, Option.map_some]
              congr 2
              exact maybeRefresh_follows hf (st := ⟨_, k.commitHop _ h st.b _, _, _, _, _, _⟩) (update_cons hi.cons ok)
                (hQ.hop _ _ _ _ hi.cons ok hi.q hacc)
            · simp only [Option.map_some, revert_update hi.cons ok]
              congr 2
              exact maybeRefresh_follows hf (st := ⟨st.c, st.b, st.nAccept, st.hopTry + 1, st.hopAcc, st.exTry, st.exAcc⟩) hi.cons hi.q
    | exchange =>
      simp only [SState.map]
      cases ec : makeCandidateExchange p st.c r with
      | none => rfl
      | some y =>
        obtain ⟨h, r⟩ := y
        cases h with
        | none => rfl
        | some h =>
          cases r with
          | nil => rfl
          | cons u r =>
            have ⟨ok, ok2, q1, q2, q3, _⟩ := exchange_ok hi.cons hNe _ ec
            simp only [hf.exchAcc _ _ _ _ _ hi.cons ok ok2 q1 q2 q3 hi.q]
            split
            · rename_i hacc
              simp only [hf.exchCommit _ _ _ _ hi.cons ok ok2 q1 q2 q3 hi.q, Option.map_some]
              congr 2
              exact maybeRefresh_follows hf (st := ⟨_, k.commitExch _ h _ st.b _, _, _, _, _, _⟩)
                (update_cons (update_cons hi.cons ok) ok2) (hQ.exch _ _ _ _ _ hi.cons ok ok2 q1 q2 q3 hi.q hacc)
            · simp only [Option.map_some, revert_update (update_cons hi.cons ok) ok2, revert_update hi.cons ok]
              congr 2
              exact maybeRefresh_follows hf (st := ⟨st.c, st.b, st.nAccept, st.hopTry, st.hopAcc, st.exTry + 1, st.exAcc⟩) hi.cons hi.q
    | localSpinFlip =>
      simp only [Option.map_some]
      rw [maybeRefresh_follows hf hi.cons hi.q]
    | none =>
      simp only [Option.map_some]
      rw [maybeRefresh_follows hf hi.cons hi.q]

theorem innerLoop_follows : ∀ (n : Nat) {st : SState β} (_ : SInv p Q st) (r : List Nat),
    innerLoop k' p n (st.map fb) r = (innerLoop k p n st r).map (fun x => (x.1.map fb, x.2))
  | 0, _, _, _ => rfl
  | n + 1, st, hi, r => by
    unfold innerLoop
    rw [innerStep_follows hf hQ hNe hNs hi]
    cases e : innerStep k p st r with
    | none => rfl
    | some x => exact innerLoop_follows n (innerStep_inv hQ hNe hNs hi e) x.2

theorem outerLoop_follows (nIn nOut nSample : Nat) : ∀ (left out : Nat) {st : SState β} (_ : SInv p Q st)
    (saved : List (Nat × SState β)) (r : List Nat),
    outerLoop k' p nIn nOut nSample left out (st.map fb) (saved.map (fun x => (x.1, x.2.map fb))) r =
      (outerLoop k p nIn nOut nSample left out st saved r).map (fun x => (x.1.map fb, x.2.1.map (fun x => (x.1, x.2.map fb)), x.2.2))
  | 0, _, _, _, _, _ => rfl
  | left + 1, out, st, hi, saved, r => by
    unfold outerLoop
    rw [innerLoop_follows hf hQ hNe hNs nIn hi]
    cases e : innerLoop k p nIn st r with
    | none => rfl
    | some x =>
      simp only [Option.map_some]
      rw [← outerLoop_follows nIn nOut nSample left (out + 1) (innerLoop_inv hQ hNe hNs _ hi e) _ x.2]
      congr 1
      split <;> rfl

theorem vmcMakeSample_follows (burn : Bool) (warmUp nSample interval : Nat) (c : EleCfg) (b : β) (r : List Nat)
    (hc : Cons p c) (hl : LocalSingle p.Nsite p.locSpn c.num) (hq : Q c b) :
    vmcMakeSample k' p burn warmUp nSample interval c (fb b) r =
      (vmcMakeSample k p burn warmUp nSample interval c b r).map (fun x => (x.1.map fb, x.2.1.map (fun x => (x.1, x.2.map fb)), x.2.2)) :=
  outerLoop_follows hf hQ hNe hNs _ _ _ _ _ (st := ⟨c, b, 0, 0, 0, 0, 0⟩)
    ⟨hc, hl, hq, Nat.zero_le _, Nat.le_refl _, Nat.le_refl _⟩ [] r

end

/-! ### shares of the projections -/

section
variable {K : Type} [Field K]

/-- the shares of all processes add up to the full sum -/
theorem sum_shares (nqp n : Nat) (f : Nat → K) :
    ∑ i : Fin (n + 1), ∑ q ∈ Finset.range ((splitLoop nqp i (n + 1)).2 - (splitLoop nqp i (n + 1)).1), f (q + (splitLoop nqp i (n + 1)).1)
      = ∑ q ∈ Finset.range nqp, f q := by
  rw [Fin.sum_univ_eq_sum_range (fun r => ∑ q ∈ Finset.range ((splitLoop nqp r (n + 1)).2 - (splitLoop nqp r (n + 1)).1),
    f (q + (splitLoop nqp r (n + 1)).1)) (n + 1)]
  rw [Finset.sum_congr rfl (g := fun r => ∑ q ∈ Finset.Ico (splitStart nqp r (n + 1)) (splitStart nqp (r + 1) (n + 1)), f q)]
  · have := sum_cells f (fun r => splitStart nqp r (n + 1)) (splitStart_mono nqp (n + 1)) (n + 1)
    simp only [splitStart_zero, splitStart_size nqp (n + 1) (Nat.succ_pos n)] at this
    rw [list_range_map_sum] at this
    rw [this, Finset.range_eq_Ico]
  · intro r hr
    rw [splitLoop_eq nqp r (n + 1) (Finset.mem_range.mp hr)]
    dsimp only
    rw [Finset.sum_Ico_eq_sum_range]
    exact Finset.sum_congr rfl (fun q _ => by rw [Nat.add_comm])

theorem share_lt {nqp n : Nat} (i : Fin (n + 1)) {q : Nat}
    (hq : q < (splitLoop nqp i (n + 1)).2 - (splitLoop nqp i (n + 1)).1) : q + (splitLoop nqp i (n + 1)).1 < nqp := by
  rw [splitLoop_eq nqp i (n + 1) i.isLt] at hq ⊢
  dsimp only at hq ⊢
  have h1 := splitStart_mono nqp (n + 1) (show (i : Nat) + 1 ≤ n + 1 from i.isLt)
  dsimp only at h1
  rw [splitStart_size nqp (n + 1) (Nat.succ_pos n)] at h1
  omega

theorem share_of {nqp : Nat} (n : Nat) {q : Nat} (hq : q < nqp) :
    ∃ i : Fin (n + 1), ∃ q', q' < (splitLoop nqp i (n + 1)).2 - (splitLoop nqp i (n + 1)).1 ∧ q = q' + (splitLoop nqp i (n + 1)).1 := by
  obtain ⟨r, hr, h1, h2⟩ := exists_cell (fun r => splitStart nqp r (n + 1)) (n + 1) q
    (by rw [splitStart_zero]; exact Nat.zero_le _) (by rw [splitStart_size nqp (n + 1) (Nat.succ_pos n)]; exact hq)
  refine ⟨⟨r, hr⟩, q - splitStart nqp r (n + 1), ?_, ?_⟩ <;> rw [splitLoop_eq nqp r (n + 1) hr] <;> dsimp only at * <;> omega

/-! ### the joint sampler -/

section
variable {δ : Type} {n nqp : Nat} (p : SamplerPar) (lib : SkLib K) (slt w : Nat → K)
  (junk : Fin (n + 1) → EleCfg → PfState K → PfState K) (S : ShOps δ K)

/-- the computations of process `i` -/
def ranksOps (nqp : Nat) (i : Fin (n + 1)) : LocalOps (PfState K) (Nat → K) K :=
  pfLocal p lib slt w (junk i) (splitLoop nqp i (n + 1))

/-- all processes have exact arrays for their shares and the reduced inner product is the full amplitude -/
def RanksOK (nqp : Nat) (c : EleCfg) (b : RB δ (Fin (n + 1) → PfState K) K) : Prop :=
  (∀ i : Fin (n + 1), PfOK (2 * p.Ne) (2 * p.Nsite) slt (splitLoop nqp i (n + 1)).1 ((splitLoop nqp i (n + 1)).2 - (splitLoop nqp i (n + 1)).1)
    (occSz p.Ne p.Nsite c.idx) (b.loc i).pfM (b.loc i).invM) ∧ b.ip = fullAmp p slt w nqp c

theorem ip_shares (c : EleCfg) (pfM : Fin (n + 1) → Nat → K)
    (h : ∀ (i : Fin (n + 1)) (q : Nat), q < (splitLoop nqp i (n + 1)).2 - (splitLoop nqp i (n + 1)).1 →
      pfM i q = pfOf (entry (2 * p.Nsite) slt (q + (splitLoop nqp i (n + 1)).1)) (2 * p.Ne) (occSz p.Ne p.Nsite c.idx)) :
    ∑ i : Fin (n + 1), calculateIPLocal w (pfM i) (splitLoop nqp i (n + 1)).1 (splitLoop nqp i (n + 1)).2 = fullAmp p slt w nqp c := by
  unfold fullAmp amplitude
  rw [← sum_shares nqp n (fun q => w (q + 0) * pfOf (entry (2 * p.Nsite) slt (q + 0)) (2 * p.Ne) (occSz p.Ne p.Nsite c.idx))]
  apply Finset.sum_congr rfl
  intro i _
  unfold calculateIPLocal
  rw [sumLoop_eq]
  apply Finset.sum_congr rfl
  intro q hq
  rw [h i q (Finset.mem_range.mp hq)]
  rfl

variable (hlib : LibOK lib) (htot : LibTotal lib) (hsk : ∀ q, q < nqp → SlaterSkew (2 * p.Nsite) slt q)
  (hnz : ∀ c d d' x u, Cons p c → S.accept d d' (fullAmp p slt w nqp c) x u = true →
    ∀ q, q < nqp → pfOf (entry (2 * p.Nsite) slt q) (2 * p.Ne) (occSz p.Ne p.Nsite c.idx) ≠ 0)

include hsk in
theorem ranks_newHop {c : EleCfg} {h : Hop} {b : RB δ (Fin (n + 1) → PfState K) K} (hc : Cons p c) (ok : HopOK p c h)
    (hq : RanksOK p slt w nqp c b) (i : Fin (n + 1)) (q : Nat) (hqq : q < (splitLoop nqp i (n + 1)).2 - (splitLoop nqp i (n + 1)).1) :
    (ranksOps p lib slt w junk nqp i).newHop (updateEleConfig p h c) h (b.loc i) q =
      pfOf (entry (2 * p.Nsite) slt (q + (splitLoop nqp i (n + 1)).1)) (2 * p.Ne) (occSz p.Ne p.Nsite (updateEleConfig p h c).idx) :=
  newPfM_ok (p := p.pf) (idx := c.idx) ok.mi ok.s (hsk _ (share_lt i hqq)) (onSites_of_cons hc)
    (onSites_of_cons (update_cons hc ok)) (fun _ _ hne => set_ne hne) hqq (hq.1 i)

theorem exch_same {c : EleCfg} {h h2 : Hop} : ∀ i : Nat, i < p.pf.Nsize → i ≠ h.mi + h.s * p.pf.Ne → i ≠ h2.mi + h2.s * p.pf.Ne →
    (updateEleConfig p h2 (updateEleConfig p h c)).idx i = c.idx i := by
  intro i _ n1 n2
  have n1 : i ≠ h.mi + h.s * p.Ne := n1
  have n2 : i ≠ h2.mi + h2.s * p.Ne := n2
  show (c.idx.set _ _).set _ _ i = _
  rw [set_ne n2, set_ne n1]

include hsk in
theorem ranks_newExch {c : EleCfg} {h h2 : Hop} {b : RB δ (Fin (n + 1) → PfState K) K} (hc : Cons p c) (ok : HopOK p c h)
    (ok2 : HopOK p (updateEleConfig p h c) h2)
    (hq : RanksOK p slt w nqp c b) (i : Fin (n + 1)) (q : Nat) (hqq : q < (splitLoop nqp i (n + 1)).2 - (splitLoop nqp i (n + 1)).1) :
    (ranksOps p lib slt w junk nqp i).newExch (updateEleConfig p h2 (updateEleConfig p h c)) h h2 (b.loc i) q =
      pfOf (entry (2 * p.Nsite) slt (q + (splitLoop nqp i (n + 1)).1)) (2 * p.Ne)
        (occSz p.Ne p.Nsite (updateEleConfig p h2 (updateEleConfig p h c)).idx) :=
  newPfMTwo_ok (p := p.pf) (idx := c.idx) ok.mi ok.s ok2.mi ok2.s (hsk _ (share_lt i hqq)) (onSites_of_cons hc)
    (onSites_of_cons (update_cons (update_cons hc ok) ok2)) (exch_same p) hqq (hq.1 i)

theorem rsSz_lt {c : EleCfg} (hc : Cons p c) : ∀ i, i < p.pf.Nsize → rsSz p.pf c.idx i < p.pf.Nsite2 := by
  intro i hi
  rw [rsSz_occ c.idx hi]
  exact occ_lt (onSites_of_cons hc) hi

include hlib hsk in
/-- `CalculateMAll_fcmp` reports success only with exact arrays -/
theorem ranks_mAll_ok {c : EleCfg} (hc : Cons p c) (i : Fin (n + 1)) (st : PfState K)
    (h : ((ranksOps p lib slt w junk nqp i).mAll c st).2 ≤ 0) :
    PfOK (2 * p.Ne) (2 * p.Nsite) slt (splitLoop nqp i (n + 1)).1 ((splitLoop nqp i (n + 1)).2 - (splitLoop nqp i (n + 1)).1)
      (occSz p.Ne p.Nsite c.idx) ((ranksOps p lib slt w junk nqp i).mAll c st).1.pfM ((ranksOps p lib slt w junk nqp i).mAll c st).1.invM := by
  unfold ranksOps pfLocal at h ⊢
  dsimp only at h ⊢
  cases e : calculateMAll p.pf lib slt (splitLoop nqp i (n + 1)).1 (splitLoop nqp i (n + 1)).2 (rsSz p.pf c.idx) st with
  | none => rw [e] at h; exact absurd (show (1 : Int) ≤ 0 from h) (by decide)
  | some st' =>
    exact pfOK_congr (fun i hi => rsSz_occ (p := p.pf) c.idx hi)
      (calculateMAll_ok (p := p.pf) hlib (fun q hq => hsk _ (share_lt i hq)) (rsSz_lt p hc) e)

include htot hsk in
/-- and it does succeed at a regular configuration -/
theorem ranks_mAll_total {c : EleCfg} (hc : Cons p c) (i : Fin (n + 1)) (st : PfState K) (hr : ∀ q, q < nqp → RegularAt p slt c q) :
    ((ranksOps p lib slt w junk nqp i).mAll c st).2 ≤ 0 := by
  have hr' : ∀ q, q < (splitLoop nqp i (n + 1)).2 - (splitLoop nqp i (n + 1)).1 → RegularAt p slt c (q + (splitLoop nqp i (n + 1)).1) :=
    fun q hq => hr _ (share_lt i hq)
  choose! N hN using hr'
  obtain ⟨st', hst'⟩ := calculateMAll_total (p := p.pf) (rs := rsSz p.pf c.idx) htot st (fun q hq => hsk _ (share_lt i hq)) (rsSz_lt p hc) N
    (fun q hq => isInv_congr (fun i hi => (rsSz_occ (p := p.pf) c.idx hi).symm) (fun _ _ _ _ => rfl) (fun _ _ _ _ => rfl) (hN q hq))
  unfold ranksOps pfLocal
  dsimp only
  rw [hst']

include hlib htot hsk in
theorem ranks_status {c : EleCfg} (hc : Cons p c) (loc : Fin (n + 1) → PfState K) :
    0 < maxOf (fun i => ((ranksOps p lib slt w junk nqp i).mAll c (loc i)).2) ↔ ∃ q, q < nqp ∧ ¬ RegularAt p slt c q := by
  constructor
  · intro h
    by_contra hr
    push Not at hr
    obtain ⟨i, hi⟩ := (maxOf_pos _).mp h
    exact absurd (ranks_mAll_total p lib slt w junk htot hsk hc i (loc i) hr) (by omega)
  · rintro ⟨q, hq, hr⟩
    obtain ⟨i, q', hq', e⟩ := share_of n hq
    rw [maxOf_pos]
    refine ⟨i, ?_⟩
    by_contra hi
    have := ranks_mAll_ok p lib slt w junk hlib hsk hc i (loc i) (by omega) q' hq'
    exact hr ⟨_, e ▸ this.2⟩

include hlib htot hsk hnz in
theorem ranks_qok : QOK (groupHooks (ranksOps p lib slt w junk nqp) S) p (RanksOK p slt w nqp) where
  hop := by
    intro c h b u hc ok hq hacc
    have hnew := ranks_newHop p lib slt w junk hsk hc ok hq
    have hip := ip_shares p slt w (updateEleConfig p h c) (fun i => (ranksOps p lib slt w junk nqp i).newHop (updateEleConfig p h c) h (b.loc i)) hnew
    refine ⟨?_, hip⟩
    intro i
    refine updateMAll_ok (p := p.pf) ok.mi ok.s (fun q hqq => hsk _ (share_lt i hqq)) (onSites_of_cons hc)
      (onSites_of_cons (update_cons hc ok)) (fun _ _ hne => set_ne hne) (hq.1 i) ?_
    intro q hqq
    have hacc' : S.accept _ _ _ _ u = true := hacc
    exact hnz _ _ _ _ _ (update_cons hc ok) (by rw [← hip]; exact hacc') _ (share_lt i hqq)
  exch := by
    intro c h h2 b u hc ok ok2 e1 e2 e3 hq hacc
    have hs := ok.s
    have hs2 := ok2.s
    have hc2 := update_cons (update_cons hc ok) ok2
    have hnew := ranks_newExch p lib slt w junk hsk hc ok ok2 hq
    have hip := ip_shares p slt w _ (fun i => (ranksOps p lib slt w junk nqp i).newExch (updateEleConfig p h2 (updateEleConfig p h c)) h h2 (b.loc i)) hnew
    refine ⟨?_, hip⟩
    intro i
    refine updateMAllTwo_ok (p := p.pf) ok.mi ok.s ok2.mi ok2.s ?_ (fun q hqq => hsk _ (share_lt i hqq)) (onSites_of_cons hc)
      (onSites_of_cons hc2) (exch_same p) (hq.1 i) ?_
    · intro e
      have e : h.mi + h.s * p.Ne = h2.mi + h2.s * p.Ne := e
      have m1 := ok.mi
      have m2 := ok2.mi
      rw [e3] at e
      rcases (show h.s = 0 ∨ h.s = 1 by omega) with q | q <;> rw [q] at e <;> simp at e <;> omega
    · intro q hqq
      have hacc' : S.accept _ _ _ _ u = true := hacc
      exact hnz _ _ _ _ _ hc2 (by rw [← hip]; exact hacc') _ (share_lt i hqq)
  refresh := by
    intro c b hc hq
    have hreg : ∀ q, q < nqp → RegularAt p slt c q := by
      intro q hqq
      obtain ⟨i, q', hq', e⟩ := share_of n hqq
      exact ⟨_, e ▸ (hq.1 i q' hq').2⟩
    have hok := fun i => ranks_mAll_ok p lib slt w junk hlib hsk hc i (b.loc i)
      (ranks_mAll_total p lib slt w junk htot hsk hc i (b.loc i) hreg)
    exact ⟨hok, ip_shares p slt w c (fun i => ((ranksOps p lib slt w junk nqp i).mAll c (b.loc i)).1.pfM)
      (fun i q hqq => (hok i q hqq).1)⟩

include hlib htot hsk in
theorem ranks_follows : Follows (groupHooks (ranksOps p lib slt w junk nqp) S) (exactHooks (fullAmp p slt w nqp) S) p
    (RanksOK p slt w nqp) (fun b => (b.cnt, b.ip)) where
  hopAcc := by
    intro c h b u hc ok hq
    have hip := ip_shares p slt w (updateEleConfig p h c) (fun i => (ranksOps p lib slt w junk nqp i).newHop (updateEleConfig p h c) h (b.loc i))
      (ranks_newHop p lib slt w junk hsk hc ok hq)
    show S.accept _ _ (fullAmp p slt w nqp _) _ _ = S.accept _ _ _ _ _
    rw [← hip]
    rfl
  hopCommit := by
    intro c h b hc ok hq
    have hip := ip_shares p slt w (updateEleConfig p h c) (fun i => (ranksOps p lib slt w junk nqp i).newHop (updateEleConfig p h c) h (b.loc i))
      (ranks_newHop p lib slt w junk hsk hc ok hq)
    show (_, fullAmp p slt w nqp _) = _
    rw [← hip]
    rfl
  exchAcc := by
    intro c h h2 b u hc ok ok2 _ _ _ hq
    have hip := ip_shares p slt w _ (fun i => (ranksOps p lib slt w junk nqp i).newExch (updateEleConfig p h2 (updateEleConfig p h c)) h h2 (b.loc i))
      (ranks_newExch p lib slt w junk hsk hc ok ok2 hq)
    show S.accept _ _ (fullAmp p slt w nqp _) _ _ = S.accept _ _ _ _ _
    rw [← hip]
    rfl
  exchCommit := by
    intro c h h2 b hc ok ok2 _ _ _ hq
    have hip := ip_shares p slt w _ (fun i => (ranksOps p lib slt w junk nqp i).newExch (updateEleConfig p h2 (updateEleConfig p h c)) h h2 (b.loc i))
      (ranks_newExch p lib slt w junk hsk hc ok ok2 hq)
    show (_, fullAmp p slt w nqp _) = _
    rw [← hip]
    rfl
  refresh := by
    intro c b hc hq
    have hreg : ∀ q, q < nqp → RegularAt p slt c q := by
      intro q hqq
      obtain ⟨i, q', hq', e⟩ := share_of n hqq
      exact ⟨_, e ▸ (hq.1 i q' hq').2⟩
    have hok := fun i => ranks_mAll_ok p lib slt w junk hlib hsk hc i (b.loc i)
      (ranks_mAll_total p lib slt w junk htot hsk hc i (b.loc i) hreg)
    have hip := ip_shares p slt w c (fun i => ((ranksOps p lib slt w junk nqp i).mAll c (b.loc i)).1.pfM)
      (fun i q hqq => (hok i q hqq).1)
    show (_, fullAmp p slt w nqp _) = _
    rw [← hip]
    rfl

variable (hNe : 0 < p.Ne) (hNs : 0 < p.Nsite)

open Classical in
include hlib htot hsk hNe hNs in
theorem makeInit_exact : ∀ (left : Nat) (loc : Fin (n + 1) → PfState K) (r : List Nat),
    match makeInitG (ranksOps p lib slt w junk nqp) p left loc r with
    | .stuck => makeInitialSample p (fun c => decide (∃ q, q < nqp ∧ ¬ RegularAt p slt c q)) left r = none
    | .abort => makeInitialSample p (fun c => decide (∃ q, q < nqp ∧ ¬ RegularAt p slt c q)) left r = some .abort
    | .ok x => makeInitialSample p (fun c => decide (∃ q, q < nqp ∧ ¬ RegularAt p slt c q)) left r = some (.ok x.1 x.2.2) ∧
        Cons p x.1 ∧ LocalSingle p.Nsite p.locSpn x.1.num ∧ ∀ q, q < nqp → RegularAt p slt x.1 q
  | 0, loc, r => by
    unfold makeInitG makeInitialSample
    cases initialPass p r with
    | none => rfl
    | some x => rfl
  | left + 1, loc, r => by
    unfold makeInitG makeInitialSample
    cases e : initialPass p r with
    | none => rfl
    | some x =>
      have ⟨hc, hl⟩ := initialPass_ok hNe hNs e
      have hs := ranks_status p lib slt w junk hlib htot hsk hc loc
      dsimp only
      by_cases hb : ∃ q, q < nqp ∧ ¬ RegularAt p slt x.1 q
      · rw [if_pos (hs.mpr hb)]
        have := makeInit_exact left (fun i => ((ranksOps p lib slt w junk nqp i).mAll x.1 (loc i)).1) x.2
        simp only [hb, decide_true, if_true]
        exact this
      · rw [if_neg (fun h => hb (hs.mp h))]
        simp only [hb, decide_false, Bool.false_eq_true, if_false]
        push Not at hb
        exact ⟨trivial, hc, hl, hb⟩

/-- the joint start and the exact start have the same outcome -/
def StartAgrees : Res ((EleCfg × RB δ (Fin (n + 1) → PfState K) K) × Bool × List Nat) → Run (EleCfg × (δ × K) × Bool × List Nat) → Prop
  | .stuck, e => e = .stuck
  | .abort, e => e = .abort
  | .ok x, e => e = .ok (x.1.1, (x.1.2.cnt, x.1.2.ip), x.2.1, x.2.2) ∧
      Cons p x.1.1 ∧ LocalSingle p.Nsite p.locSpn x.1.1.num ∧ RanksOK p slt w nqp x.1.1 x.1.2

include hlib htot hsk hNe hNs in
theorem start_exact (burn : Bool) (bc : EleCfg) (bcnt : δ) (loc : Fin (n + 1) → PfState K) (r : List Nat)
    (hb : burn = true → Cons p bc ∧ LocalSingle p.Nsite p.locSpn bc.num ∧ ∀ q, q < nqp → RegularAt p slt bc q) :
    StartAgrees (nqp := nqp) p slt w (startG (ranksOps p lib slt w junk nqp) S p burn bc bcnt loc r)
      (exactStart p slt w nqp S burn bc bcnt r) := by
  have fin : ∀ (c : EleCfg) (loc : Fin (n + 1) → PfState K), Cons p c → (∀ q, q < nqp → RegularAt p slt c q) →
      (∀ i : Fin (n + 1), PfOK (2 * p.Ne) (2 * p.Nsite) slt (splitLoop nqp i (n + 1)).1
        ((splitLoop nqp i (n + 1)).2 - (splitLoop nqp i (n + 1)).1)
        (occSz p.Ne p.Nsite c.idx) ((ranksOps p lib slt w junk nqp i).mAll c (loc i)).1.pfM
          ((ranksOps p lib slt w junk nqp i).mAll c (loc i)).1.invM) ∧
      ∑ i, (ranksOps p lib slt w junk nqp i).ipCur ((ranksOps p lib slt w junk nqp i).mAll c (loc i)).1 = fullAmp p slt w nqp c := by
    intro c loc hc hreg
    have hok := fun i => ranks_mAll_ok p lib slt w junk hlib hsk hc i (loc i)
      (ranks_mAll_total p lib slt w junk htot hsk hc i (loc i) hreg)
    exact ⟨hok, ip_shares p slt w c (fun i => ((ranksOps p lib slt w junk nqp i).mAll c (loc i)).1.pfM)
      (fun i q hqq => (hok i q hqq).1)⟩
  have key : ∀ (c : EleCfg) (cnt : δ) (loc : Fin (n + 1) → PfState K) (r : List Nat), Cons p c → LocalSingle p.Nsite p.locSpn c.num →
      (∀ q, q < nqp → RegularAt p slt c q) →
      StartAgrees (nqp := nqp) p slt w
        (if S.finite (∑ i, (ranksOps p lib slt w junk nqp i).ipCur ((ranksOps p lib slt w junk nqp i).mAll c (loc i)).1) then
          Res.ok ((c, ⟨cnt, fun i => ((ranksOps p lib slt w junk nqp i).mAll c (loc i)).1,
            ∑ i, (ranksOps p lib slt w junk nqp i).ipCur ((ranksOps p lib slt w junk nqp i).mAll c (loc i)).1⟩), burn, r)
        else
          (makeInitG (ranksOps p lib slt w junk nqp) p 100 (fun i => ((ranksOps p lib slt w junk nqp i).mAll c (loc i)).1) r).bind fun y =>
          .ok ((y.1, ⟨S.mkCnt y.1, fun i => ((ranksOps p lib slt w junk nqp i).mAll y.1 (y.2.1 i)).1,
            ∑ i, (ranksOps p lib slt w junk nqp i).ipCur ((ranksOps p lib slt w junk nqp i).mAll y.1 (y.2.1 i)).1⟩), false, y.2.2))
        (if S.finite (fullAmp p slt w nqp c) then Run.ok (c, (cnt, fullAmp p slt w nqp c), burn, r)
        else (exactInit p slt nqp r).next fun y => .ok (y.1, (S.mkCnt y.1, fullAmp p slt w nqp y.1), false, y.2)) := by
    intro c cnt loc r hc hl hreg
    obtain ⟨hok, hip⟩ := fin c loc hc hreg
    by_cases hf : S.finite (fullAmp p slt w nqp c) = true
    · rw [hip, if_pos hf, if_pos hf]
      exact ⟨rfl, hc, hl, hok, rfl⟩
    · rw [hip, if_neg hf, if_neg hf]
      have := makeInit_exact p lib slt w junk hlib htot hsk hNe hNs 100
        (fun i => ((ranksOps p lib slt w junk nqp i).mAll c (loc i)).1) r
      unfold exactInit
      cases e : makeInitG (ranksOps p lib slt w junk nqp) p 100 (fun i => ((ranksOps p lib slt w junk nqp i).mAll c (loc i)).1) r with
      | stuck => rw [e] at this; rw [this]; rfl
      | abort => rw [e] at this; rw [this]; rfl
      | ok y =>
        rw [e] at this
        obtain ⟨t1, t2, t3, t4⟩ := this
        obtain ⟨h1, h2⟩ := fin y.1 y.2.1 t2 t4
        rw [t1]
        refine ⟨?_, t2, t3, h1, h2⟩
        show Run.ok _ = Run.ok _
        dsimp only
        rw [h2]
  unfold startG exactStart
  cases burn with
  | true =>
    obtain ⟨b1, b2, b3⟩ := hb rfl
    exact key bc (S.reCnt bc bcnt) loc r b1 b2 b3
  | false =>
    have hm := makeInit_exact p lib slt w junk hlib htot hsk hNe hNs 100 loc r
    rw [if_pos rfl, if_pos rfl]
    cases e : makeInitG (ranksOps p lib slt w junk nqp) p 100 loc r with
    | stuck => rw [e] at hm; unfold exactInit; rw [hm]; rfl
    | abort => rw [e] at hm; unfold exactInit; rw [hm]; rfl
    | ok y =>
      rw [e] at hm
      obtain ⟨t1, t2, t3, t4⟩ := hm
      have hx : exactInit p slt nqp r = .ok (y.1, y.2.2) := by unfold exactInit; rw [t1]
      rw [hx]
      exact key y.1 (S.mkCnt y.1) y.2.1 y.2.2 t2 t3 t4

include hlib htot hsk hNe hNs hnz in
theorem sample_exact (burn : Bool) (warmUp nSample interval : Nat) (bc : EleCfg) (bcnt : δ) (loc : Fin (n + 1) → PfState K) (r : List Nat)
    (hb : burn = true → Cons p bc ∧ LocalSingle p.Nsite p.locSpn bc.num ∧ ∀ q, q < nqp → RegularAt p slt bc q) :
    mapRanks sharedOut (runRanks (fun i => sampleR (n + 1) (ranksOps p lib slt w junk nqp i) S p burn warmUp nSample interval bc bcnt (loc i) r)) =
      everyRank (n + 1) (exactSample p slt w nqp S burn warmUp nSample interval bc bcnt r) := by
  rw [run_sample (ranksOps p lib slt w junk nqp) S p burn warmUp nSample interval bc bcnt loc r]
  have hs := start_exact p lib slt w junk S hlib htot hsk hNe hNs burn bc bcnt loc r hb
  unfold sampleG exactSample
  cases e : startG (ranksOps p lib slt w junk nqp) S p burn bc bcnt loc r with
  | stuck => rw [e] at hs; rw [show exactStart p slt w nqp S burn bc bcnt r = .stuck from hs]; rfl
  | abort => rw [e] at hs; rw [show exactStart p slt w nqp S burn bc bcnt r = .abort from hs]; rfl
  | ok x =>
    rw [e] at hs
    obtain ⟨h1, hc, hl, hq⟩ := hs
    rw [h1]
    have hv := vmcMakeSample_follows (ranks_follows p lib slt w junk S hlib htot hsk) (ranks_qok p lib slt w junk S hlib htot hsk hnz)
      hNe hNs x.2.1 warmUp nSample interval x.1.1 x.1.2 x.2.2 hc hl hq
    simp only [Res.bind, Run.next]
    rw [hv]
    cases vmcMakeSample (groupHooks (ranksOps p lib slt w junk nqp) S) p x.2.1 warmUp nSample interval x.1.1 x.1.2 x.2.2 with
    | none => rfl
    | some y =>
      simp only [Option.map_some, mapRanks, everyRank, sharedOut, List.map_map]
      rfl

end
end
end MVMC
