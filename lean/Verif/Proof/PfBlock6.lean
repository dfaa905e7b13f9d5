import Verif.Proof.PfBlock5

/-! Events of the sampler. -/
namespace MVMC
open Spec

variable {K : Type} [Field K]

omit [Field K] in
theorem queued_false {t : Tdi K} {f : Nat → Bool} (h : queued t f = false) : ∀ l, l < t.k → f (t.frm l) = false := by
  intro l hl
  unfold queued at h
  rw [List.any_eq_false] at h
  simpa using h l (List.mem_range.mpr hl)

theorem pfOf_core_zero {p : BlkPar K} {t : Tdi K} {c : Nat → Nat} (h : TdiCore p t c) (hk : t.k = 0) : t.pfa = pfOf (orbAt p.X) p.n c := by
  rw [h.pfa]
  exact pfOf_congr (fun i hi => (h.base i hi (fun l hl => by omega)).symm) (fun _ _ _ _ => rfl)

/-- one push, with or without the Pfaffian -/
theorem push_inv {p : BlkPar K} {lib : BlkLib K} (hlib : BlkLibOK lib) (hX : SkewMat p.nsite p.X) {t : Tdi K} {c : Nat → Nat} (h : TdiCore p t c)
    {osi msj : Nat} (hm : msj < p.n) (ho : osi < p.nsite) (hk : t.k < p.mmax) (hnew : ∀ l, l < t.k → t.frm l ≠ msj) (compute : Bool) :
    ∃ t', pushUpdate p lib osi msj compute t = some t' ∧ TdiInv p t' (hopTo c msj osi) ∧ t'.k = t.k + 1 ∧ t'.frm t.k = msj ∧
      (∀ l, l < t.k → t'.frm l = t.frm l) ∧ t'.cfg = t.cfg ∧ (compute = true → t'.getPfa = pfOf (orbAt p.X) p.n (hopTo c msj osi)) := by
  have hc := push_core hX h hm ho hk hnew
  have hf : (pushed p t c osi msj).frm t.k = msj := by
    show (if _ then _ else _) = _
    rw [if_pos rfl]
  have hf2 : ∀ l, l < t.k → (pushed p t c osi msj).frm l = t.frm l := by
    intro l hl
    show (if _ then _ else _) = _
    rw [if_neg (show ¬ l = t.k by omega)]
  rw [pushUpdate_eq h hm ho hk]
  cases compute
  · refine ⟨_, rfl, ⟨hc.mod (pushed p t c osi msj).UMU (pushed p t c osi msj).Cp 0, fun e => ?_, fun e => absurd rfl e, fun _ e => absurd rfl e⟩, rfl, hf, hf2, rfl, fun e => absurd e (by simp)⟩
    exact absurd e (show ¬ t.k + 1 = 0 by omega)
  · obtain ⟨h1, h2, h3, h4, h5, h6⟩ := pushPfa_ok hlib hc
    refine ⟨_, rfl, ⟨h1, fun e => ?_, fun _ => h2, fun e _ => h3 e⟩, h4, by rw [h6]; exact hf, fun l hl => by rw [h6]; exact hf2 l hl, h5, fun _ => h2⟩
    rw [h4] at e
    exact absurd e (show ¬ t.k + 1 = 0 by omega)

theorem pop_inv {p : BlkPar K} {lib : BlkLib K} {t : Tdi K} {c c' : Nat → Nat} (h : TdiCore p t c') (hk : t.k ≠ 0)
    (hc : ∀ i, i < p.n → i ≠ t.frm (t.k - 1) → c i = c' i) (hcm : c (t.frm (t.k - 1)) = t.cfg (t.frm (t.k - 1))) :
    ∃ t', popUpdate p lib false t = some t' ∧ TdiInv p t' c ∧ t'.k = t.k - 1 ∧ t'.frm = t.frm ∧ t'.cfg = t.cfg := by
  have hp := pop_core h hk hc hcm
  rw [popUpdate_eq hk h.km]
  have hkp : (popped p t).k = t.k - 1 := rfl
  refine ⟨_, rfl, ⟨hp.mod (popped p t).UMU (popped p t).Cp _, fun e => ?_, fun e => ?_, fun e1 e2 => ?_⟩, rfl, rfl, rfl⟩
  · have e : t.k - 1 = 0 := e
    show (if t.k = 1 then (1 : K) else 0) = 1
    rw [if_pos (by omega)]
  · have e : (if t.k = 1 then (1 : K) else 0) ≠ 0 := e
    have e1 : t.k = 1 := by
      by_contra e2
      rw [if_neg e2] at e; exact e rfl
    show (popped p t).pfa * (if t.k = 1 then (1 : K) else 0) = _
    rw [if_pos e1, mul_one]
    exact pfOf_core_zero hp (by rw [hkp]; omega)
  · have e1 : t.k - 1 = 1 := e1
    have e2 : (if t.k = 1 then (1 : K) else 0) ≠ 0 := e2
    rw [if_neg (by omega)] at e2
    exact absurd rfl e2

section
variable [DecidableEq K]

theorem pushSafe_ok {p : BlkPar K} {lib : BlkLib K} (hlib : BlkLibOK lib) (htot : BlkLibTotal lib) (hX : SkewMat p.nsite p.X) {t : Tdi K} {c : Nat → Nat}
    (h : TdiInv p t c) (hpf : pfOf (orbAt p.X) p.n c ≠ 0) {osi msj : Nat} (hm : msj < p.n) (ho : osi < p.nsite) (hmm : 1 ≤ p.mmax) :
    ∃ t', pushSafe p lib osi msj true t = some t' ∧ TdiInv p t' (hopTo c msj osi) ∧ t'.getPfa = pfOf (orbAt p.X) p.n (hopTo c msj osi) ∧
      t'.k ≠ 0 ∧ t'.frm (t'.k - 1) = msj ∧ t'.cfg msj = c msj := by
  have fin : ∀ t2 : Tdi K, TdiInv p t2 c → t2.k < p.mmax → (∀ l, l < t2.k → t2.frm l ≠ msj) →
      ∃ t', pushUpdate p lib osi msj true t2 = some t' ∧ TdiInv p t' (hopTo c msj osi) ∧ t'.getPfa = pfOf (orbAt p.X) p.n (hopTo c msj osi) ∧
      t'.k ≠ 0 ∧ t'.frm (t'.k - 1) = msj ∧ t'.cfg msj = c msj := by
    intro t2 h2 hk hn
    obtain ⟨t', e1, e2, e3, e4, e5, e6, e7⟩ := push_inv hlib hX h2.toTdiCore hm ho hk hn true
    exact ⟨t', e1, e2, e7 rfl, by omega, by rw [e3]; exact e4, by rw [e6, h2.base msj hm hn]⟩
  have mid : ∀ t2 : Tdi K, TdiInv p t2 c → t2.k < p.mmax → ∃ t', ((if queued t2 (· == msj) then mergeUpdates p lib t2 else some t2).bind
      fun t => pushUpdate p lib osi msj true t) = some t' ∧ TdiInv p t' (hopTo c msj osi) ∧ t'.getPfa = pfOf (orbAt p.X) p.n (hopTo c msj osi) ∧
      t'.k ≠ 0 ∧ t'.frm (t'.k - 1) = msj ∧ t'.cfg msj = c msj := by
    intro t2 h2 hk
    by_cases hq : queued t2 (· == msj) = true
    · rw [if_pos hq]
      obtain ⟨t3, e1, e2, e3⟩ := merge_ok hlib htot h2 hpf
      rw [e1]
      exact fin t3 e3 (by omega) (fun l hl => by omega)
    · rw [if_neg hq]
      refine fin t2 h2 hk (fun l hl e => ?_)
      have := queued_false (by simpa using hq) l hl
      rw [e] at this
      simp at this
  unfold pushSafe
  by_cases hk : t.k ≥ p.mmax
  · rw [if_pos hk]
    obtain ⟨t3, e1, e2, e3⟩ := merge_ok hlib htot h hpf
    rw [e1]
    exact mid t3 e3 (by omega)
  · rw [if_neg hk]
    exact mid t h (by omega)

theorem pushPair_ok {p : BlkPar K} {lib : BlkLib K} (hlib : BlkLibOK lib) (htot : BlkLibTotal lib) (hX : SkewMat p.nsite p.X) {t : Tdi K} {c : Nat → Nat}
    (h : TdiInv p t c) (hpf : pfOf (orbAt p.X) p.n c ≠ 0) {osi msj osk msl : Nat} (hm : msj < p.n) (ho : osi < p.nsite) (hm2 : msl < p.n) (ho2 : osk < p.nsite)
    (hne : msj ≠ msl) (hmm : 2 ≤ p.mmax) :
    ∃ t', pushPair p lib osi msj osk msl true t = some t' ∧ TdiInv p t' (hopTo (hopTo c msj osi) msl osk) ∧
      t'.getPfa = pfOf (orbAt p.X) p.n (hopTo (hopTo c msj osi) msl osk) ∧
      2 ≤ t'.k ∧ t'.frm (t'.k - 1) = msl ∧ t'.frm (t'.k - 2) = msj ∧ t'.cfg msj = c msj ∧ t'.cfg msl = c msl := by
  have fin : ∀ t2 : Tdi K, TdiInv p t2 c → t2.k + 2 ≤ p.mmax → (∀ l, l < t2.k → t2.frm l ≠ msj ∧ t2.frm l ≠ msl) →
      ∃ t', ((pushUpdate p lib osi msj false t2).bind fun t => pushUpdate p lib osk msl true t) = some t' ∧ TdiInv p t' (hopTo (hopTo c msj osi) msl osk) ∧
      t'.getPfa = pfOf (orbAt p.X) p.n (hopTo (hopTo c msj osi) msl osk) ∧
      2 ≤ t'.k ∧ t'.frm (t'.k - 1) = msl ∧ t'.frm (t'.k - 2) = msj ∧ t'.cfg msj = c msj ∧ t'.cfg msl = c msl := by
    intro t2 h2 hk hn
    obtain ⟨t3, a1, a2, a3, a4, a5, a6, -⟩ := push_inv hlib hX h2.toTdiCore hm ho (by omega) (fun l hl => (hn l hl).1) false
    obtain ⟨t4, b1, b2, b3, b4, b5, b6, b7⟩ := push_inv hlib hX a2.toTdiCore hm2 ho2 (by omega) (fun l hl => by
      by_cases e : l = t2.k
      · rw [e, a4]; exact hne
      · rw [a5 l (by omega)]; exact (hn l (by omega)).2) true
    rw [a1]
    refine ⟨t4, b1, b2, b7 rfl, by omega, ?_, ?_, ?_, ?_⟩
    · rw [b3]; exact b4
    · rw [b3, a3, b5 _ (by omega)]; exact a4
    · rw [b6, a6, h2.base msj hm (fun l hl => (hn l hl).1)]
    · rw [b6, a6, h2.base msl hm2 (fun l hl => (hn l hl).2)]
  have hw : mmaxMinusTwo p.mmax = p.mmax - 2 := by unfold mmaxMinusTwo; rw [if_pos hmm]
  unfold pushPair
  rw [hw]
  by_cases hk : t.k > p.mmax - 2
  · rw [if_pos hk]
    obtain ⟨t3, e1, e2, e3⟩ := merge_ok hlib htot h hpf
    rw [e1]
    exact fin t3 e3 (by omega) (fun l hl => by omega)
  · rw [if_neg hk]
    by_cases hq : queued t (fun m => m == msj || m == msl) = true
    · rw [if_pos hq]
      obtain ⟨t3, e1, e2, e3⟩ := merge_ok hlib htot h hpf
      rw [e1]
      exact fin t3 e3 (by omega) (fun l hl => by omega)
    · rw [if_neg hq]
      refine fin t h (by omega) (fun l hl => ?_)
      have := queued_false (by simpa using hq) l hl
      simpa using this

/-- the hops of the event are the last ones in the queue -/
def LastHops (c : Nat → Nat) : BlkEv → Tdi K → Prop
  | .hop _ msj _, t' => t'.k ≠ 0 ∧ t'.frm (t'.k - 1) = msj ∧ t'.cfg msj = c msj
  | .exch _ msj _ msl _, t' => 2 ≤ t'.k ∧ t'.frm (t'.k - 1) = msl ∧ t'.frm (t'.k - 2) = msj ∧ t'.cfg msj = c msj ∧ t'.cfg msl = c msl
  | .refresh, _ => True

/-- **The first step of an event.** -/
theorem evPush_ok {p : BlkPar K} {lib : BlkLib K} (hlib : BlkLibOK lib) (htot : BlkLibTotal lib) (hX : SkewMat p.nsite p.X) (hn : p.n % 2 = 0)
    {t : Tdi K} {c : Nat → Nat} (mem : Tdi K) (h : TdiInv p t c) (hpf : pfOf (orbAt p.X) p.n c ≠ 0) {e : BlkEv} (hv : ValidEv p.n p.nsite e) (hf : Fits p.mmax e) :
    ∃ t', evPush p lib c mem e t = some t' ∧ TdiInv p t' (proposed c e) ∧ t'.getPfa = pfOf (orbAt p.X) p.n (proposed c e) ∧
      LastHops c e t' := by
  cases e with
  | hop osi msj acc => exact pushSafe_ok hlib htot hX h hpf hv.1 hv.2 hf
  | exch osi msj osk msl acc => exact pushPair_ok hlib htot hX h hpf hv.1 hv.2.1 hv.2.2.1 hv.2.2.2.1 hv.2.2.2.2 hf
  | refresh =>
    obtain ⟨t', e1, e2, e3⟩ := init_ok hlib htot hn mem (fun i hi => core_lt h.toTdiCore hi) hpf
    refine ⟨t', e1, e3, ?_, trivial⟩
    show t'.pfa * t'.ratio = _
    rw [e3.r0 e2, mul_one]
    exact pfOf_core_zero e3.toTdiCore e2

end

omit [Field K] in
theorem forAllQP_ok {nqp : Nat} {f : Nat → Tdi K → Option (Tdi K)} {v : Nat → Tdi K} {P : Nat → Tdi K → Prop}
    (h : ∀ q, q < nqp → ∃ t', f q (v q) = some t' ∧ P q t') : ∃ v', forAllQP nqp f v = some v' ∧ ∀ q, q < nqp → P q (v' q) := by
  have L : ∀ m, m ≤ nqp → ∃ v', (List.range m).foldl (fun r q => r.bind fun v => (f q (v q)).map fun t' => fun q' => if q' = q then t' else v q') (some v) = some v' ∧
      (∀ q, q < m → P q (v' q)) ∧ ∀ q, m ≤ q → v' q = v q := by
    intro m
    induction m with
    | zero => intro _; exact ⟨v, rfl, fun q hq => by omega, fun _ _ => rfl⟩
    | succ m ih =>
      intro hm
      obtain ⟨v', e1, e2, e3⟩ := ih (by omega)
      obtain ⟨t', g1, g2⟩ := h m (by omega)
      rw [List.range_succ, List.foldl_append, e1]
      simp only [List.foldl_cons, List.foldl_nil, Option.bind_some]
      rw [e3 m (Nat.le_refl _), g1]
      refine ⟨_, rfl, fun q hq => ?_, fun q hq => ?_⟩
      · beta_reduce
        by_cases e : q = m
        · rw [if_pos e, e]; exact g2
        · rw [if_neg e]; exact e2 q (by omega)
      · beta_reduce
        rw [if_neg (by omega)]
        exact e3 q (by omega)
  obtain ⟨v', e1, e2, _⟩ := L nqp (Nat.le_refl _)
  exact ⟨v', e1, e2⟩

theorem evCfg_eq (c : Nat → Nat) (e : BlkEv) : evCfg c e = after c e := by
  cases e with
  | hop osi msj acc => rfl
  | exch osi msj osk msl acc => rfl
  | refresh => rfl

section
variable [DecidableEq K]

/-- **One event for all projections.** -/
theorem blkEvent_ok {nqp : Nat} {par : Nat → BlkPar K} {lib : BlkLib K} {n nsite mmax : Nat} (hlib : BlkLibOK lib) (htot : BlkLibTotal lib)
    (hp : ∀ q, q < nqp → (par q).n = n ∧ (par q).nsite = nsite ∧ (par q).mmax = mmax ∧ SkewMat nsite (par q).X) (hn : n % 2 = 0)
    {v : Nat → Tdi K} {c : Nat → Nat} (mem : Nat → Tdi K) (h : ∀ q, q < nqp → TdiInv (par q) (v q) c)
    (hpf : ∀ q, q < nqp → pfOf (orbAt (par q).X) n c ≠ 0) {e : BlkEv} (hv : ValidEv n nsite e) (hf : Fits mmax e) :
    ∃ v' r, blkEvent nqp par lib c mem e v = some (v', r) ∧ (∀ q, q < nqp → TdiInv (par q) (v' q) (after c e)) ∧
      ∀ q, q < nqp → r q = - pfOf (orbAt (par q).X) n (proposed c e) := by
  obtain ⟨v1, e1, e2⟩ := forAllQP_ok (nqp := nqp) (f := fun q => evPush (par q) lib c (mem q) e) (v := v)
    (P := fun q t' => TdiInv (par q) t' (proposed c e) ∧ t'.getPfa = pfOf (orbAt (par q).X) (par q).n (proposed c e) ∧ LastHops c e t') (fun q hq => by
    obtain ⟨h1, h2, h3, h4⟩ := hp q hq
    exact evPush_ok hlib htot (by rw [h2]; exact h4) (by rw [h1]; exact hn) (mem q) (h q hq) (by rw [h1]; exact hpf q hq)
      (by rw [h1, h2]; exact hv) (by rw [h3]; exact hf))
  unfold blkEvent
  rw [e1]
  have hval : ∀ q, q < nqp → vGetPfa v1 q = - pfOf (orbAt (par q).X) n (proposed c e) := by
    intro q hq
    unfold vGetPfa
    rw [(e2 q hq).2.1, (hp q hq).1]
  have hpop : ∃ v2, popAll nqp par lib (evPops e) v1 = some v2 ∧ ∀ q, q < nqp → TdiInv (par q) (v2 q) (after c e) := by
    cases e with
    | hop osi msj acc =>
      cases acc with
      | true => exact ⟨v1, rfl, fun q hq => (e2 q hq).1⟩
      | false =>
        obtain ⟨v2, g1, g2⟩ := forAllQP_ok (nqp := nqp) (f := fun q => popUpdate (par q) lib false) (v := v1) (P := fun q t => TdiInv (par q) t c) (fun q hq => by
          obtain ⟨a1, -, a3, a4, a5⟩ := e2 q hq
          obtain ⟨t', b1, b2, -⟩ := pop_inv (lib := lib) (c := c) a1.toTdiCore a3 (fun i _ hi => by
            rw [a4] at hi
            show c i = (if i = msj then osi else c i)
            rw [if_neg hi]) (by rw [a4, a5])
          exact ⟨t', b1, b2⟩)
        refine ⟨v2, ?_, g2⟩
        show (forAllQP nqp (fun q => popUpdate (par q) lib false) v1).bind (popAll nqp par lib 0) = _
        rw [g1]; rfl
    | exch osi msj osk msl acc =>
      cases acc with
      | true => exact ⟨v1, rfl, fun q hq => (e2 q hq).1⟩
      | false =>
        obtain ⟨v2, g1, g2⟩ := forAllQP_ok (nqp := nqp) (f := fun q => popUpdate (par q) lib false) (v := v1)
          (P := fun q t => TdiInv (par q) t (hopTo c msj osi) ∧ t.k ≠ 0 ∧ t.frm (t.k - 1) = msj ∧ t.cfg msj = c msj) (fun q hq => by
          obtain ⟨a1, -, a3, a4, a5, a6, a7⟩ := e2 q hq
          obtain ⟨t', b1, b2, b3, b4, b5⟩ := pop_inv (lib := lib) (c := hopTo c msj osi) a1.toTdiCore (by omega) (fun i _ hi => by
            rw [a4] at hi
            show hopTo c msj osi i = (if i = msl then osk else hopTo c msj osi i)
            rw [if_neg hi]) (by
              rw [a4, a7]
              show (if msl = msj then osi else c msl) = c msl
              rw [if_neg (Ne.symm hv.2.2.2.2)])
          exact ⟨t', b1, b2, by omega, by rw [b3, b4]; exact a5, by rw [b5]; exact a6⟩)
        obtain ⟨v3, k1, k2⟩ := forAllQP_ok (nqp := nqp) (f := fun q => popUpdate (par q) lib false) (v := v2) (P := fun q t => TdiInv (par q) t c) (fun q hq => by
          obtain ⟨a1, a3, a4, a5⟩ := g2 q hq
          obtain ⟨t', b1, b2, -⟩ := pop_inv (lib := lib) (c := c) a1.toTdiCore a3 (fun i _ hi => by
            rw [a4] at hi
            show c i = (if i = msj then osi else c i)
            rw [if_neg hi]) (by rw [a4, a5])
          exact ⟨t', b1, b2⟩)
        refine ⟨v3, ?_, k2⟩
        show (forAllQP nqp (fun q => popUpdate (par q) lib false) v1).bind (popAll nqp par lib 1) = _
        rw [g1]
        show (forAllQP nqp (fun q => popUpdate (par q) lib false) v2).bind (popAll nqp par lib 0) = _
        rw [k1]; rfl
    | refresh => exact ⟨v1, rfl, fun q hq => (e2 q hq).1⟩
  obtain ⟨v2, g1, g2⟩ := hpop
  refine ⟨v2, vGetPfa v1, ?_, g2, hval⟩
  rw [Option.bind_some, g1]; rfl

/-- **Any sequence of events.** -/
theorem blkRun_ok {nqp : Nat} {par : Nat → BlkPar K} {lib : BlkLib K} {n nsite mmax : Nat} (hlib : BlkLibOK lib) (htot : BlkLibTotal lib)
    (hp : ∀ q, q < nqp → (par q).n = n ∧ (par q).nsite = nsite ∧ (par q).mmax = mmax ∧ SkewMat nsite (par q).X) (hn : n % 2 = 0)
    (mem : Nat → Tdi K) : ∀ (es : List BlkEv) (c : Nat → Nat) (v : Nat → Tdi K), (∀ q, q < nqp → TdiInv (par q) (v q) c) →
    (∀ q, q < nqp → pfOf (orbAt (par q).X) n c ≠ 0) → ValidEvs n nsite mmax nqp (fun q => orbAt (par q).X) c es →
    ∃ v' rs, blkRun nqp par lib mem es c v = some (v', rs) ∧ (∀ q, q < nqp → TdiInv (par q) (v' q) (finalCfg c es)) ∧
      List.Forall₂ (fun r d => ∀ q, q < nqp → r q = - pfOf (orbAt (par q).X) n d) rs (wanted c es) := by
  intro es
  induction es with
  | nil => intro c v h _ _; exact ⟨v, [], rfl, h, List.Forall₂.nil⟩
  | cons e es ih =>
    intro c v h hpf hv
    obtain ⟨h1, h2, h3, h4⟩ := hv
    obtain ⟨v', r, a1, a2, a3⟩ := blkEvent_ok hlib htot hp hn mem h hpf h1 h2
    obtain ⟨v2, rs, b1, b2, b3⟩ := ih (after c e) v' a2 h3 h4
    refine ⟨v2, r :: rs, ?_, b2, List.Forall₂.cons a3 b3⟩
    show ((blkEvent nqp par lib c mem e v).bind fun r => (blkRun nqp par lib mem es (evCfg c e) r.1).map fun s => (s.1, r.2 :: s.2)) = _
    rw [a1, Option.bind_some, evCfg_eq, b1]
    rfl

theorem blkStart_ok {nqp : Nat} {par : Nat → BlkPar K} {lib : BlkLib K} {n nsite mmax : Nat} (hlib : BlkLibOK lib) (htot : BlkLibTotal lib)
    (hp : ∀ q, q < nqp → (par q).n = n ∧ (par q).nsite = nsite ∧ (par q).mmax = mmax ∧ SkewMat nsite (par q).X) (hn : n % 2 = 0)
    (mem : Nat → Tdi K) (es : List BlkEv) (c : Nat → Nat) (hlt : ∀ i, i < n → c i < nsite)
    (hpf : ∀ q, q < nqp → pfOf (orbAt (par q).X) n c ≠ 0) (hv : ValidEvs n nsite mmax nqp (fun q => orbAt (par q).X) c es) :
    ∃ v' rs, blkStart nqp par lib mem es c = some (v', rs) ∧ (∀ q, q < nqp → TdiInv (par q) (v' q) (finalCfg c es)) ∧
      List.Forall₂ (fun r d => ∀ q, q < nqp → r q = - pfOf (orbAt (par q).X) n d) rs (c :: wanted c es) := by
  obtain ⟨v, e1, e2⟩ := forAllQP_ok (nqp := nqp) (f := fun q _ => tdiInit (par q) lib c (mem q)) (v := mem)
    (P := fun q t => t.k = 0 ∧ TdiInv (par q) t c) (fun q hq => by
    obtain ⟨h1, h2, h3, h4⟩ := hp q hq
    exact init_ok hlib htot (by rw [h1]; exact hn) (mem q) (by rw [h1, h2]; exact hlt) (by rw [h1]; exact hpf q hq))
  obtain ⟨v', rs, b1, b2, b3⟩ := blkRun_ok hlib htot hp hn mem es c v (fun q hq => (e2 q hq).2) hpf hv
  refine ⟨v', vGetPfa v :: rs, ?_, b2, List.Forall₂.cons (fun q hq => ?_) b3⟩
  · unfold blkStart
    rw [e1, Option.bind_some, b1]; rfl
  · show - ((v q).pfa * (v q).ratio) = _
    obtain ⟨h1, h2⟩ := e2 q hq
    rw [h2.r0 h1, mul_one, pfOf_core_zero h2.toTdiCore h1, (hp q hq).1]

end

end MVMC
