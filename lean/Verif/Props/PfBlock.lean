import Verif.Proof.PfBlock6
import Verif.Props.LtlInv
import Verif.Spec.PfState
import Verif.Spec.GreenN

/-!
# C63: the delayed block updates of the Pfaffian report the Pfaffians of the configurations the sampler proposes
-/
namespace MVMC
open Spec

variable {K : Type} [Field K]

theorem pf_scale_pow {α : Type} (a : K) (A : α → α → K) : ∀ m (l : List α), l.length = 2 * m → pf (fun x y => a * A x y) l = a ^ m * pf A l := by
  intro m
  induction m with
  | zero =>
    intro l hl
    have : l = [] := List.length_eq_zero_iff.mp (by omega)
    subst this
    rw [pf_nil, pf_nil]; simp
  | succ m ih =>
    intro l hl
    match l, hl with
    | x :: l, hl =>
      rw [pf_cons, pf_cons, altSum_smul_left]
      have : altSum (A x) (pf (fun x y => a * A x y)) l = altSum (A x) (fun k => a ^ m * pf A k) l := by
        apply altSum_congr
        intro k hk
        exact ih k (by simp at hl; omega)
      rw [this, altSum_smul]; ring

/-- `Xij` read from the row-major array is minus the Slater matrix -/
theorem orbMat_neg {n2 : Nat} {slt : Nat → K} {q : Nat} (hsk : SlaterSkew n2 slt q) {i j : Nat} (hi : i < n2) (hj : j < n2) :
    orbMat n2 slt q i j = - entry n2 slt q i j := by
  rw [hsk.1 i j hi hj, neg_neg]
  unfold orbMat entry
  congr 1
  ring

theorem orbMat_skew {n2 : Nat} {slt : Nat → K} {q : Nat} (hsk : SlaterSkew n2 slt q) : SkewMat n2 (orbMat n2 slt q) := by
  refine ⟨fun i j hi hj => ?_, fun i hi => ?_⟩
  · rw [orbMat_neg hsk hi hj, orbMat_neg hsk hj hi, hsk.1 i j hi hj]
  · rw [orbMat_neg hsk hi hi, hsk.2 i hi, neg_zero]

theorem pfOf_orbMat {n2 ne : Nat} {slt : Nat → K} {q : Nat} (hsk : SlaterSkew n2 slt q) {c : Nat → Nat} (hc : ∀ i, i < 2 * ne → c i < n2) :
    pfOf (orbAt (orbMat n2 slt q)) (2 * ne) c = (-1) ^ ne * pfOf (entry n2 slt q) (2 * ne) c := by
  unfold pfOf
  rw [← pf_scale_pow (-1) (entry n2 slt q) ne _ (by simp)]
  refine pfOf_congr (rs := c) (rs' := c) (fun _ _ => rfl) (fun i hi j hj => ?_)
  rw [orbAt_eq (orbMat_skew hsk) (hc i hi) (hc j hj), orbMat_neg hsk (hc i hi) (hc j hj)]; ring

theorem valid_lt {n nsite mmax nqp : Nat} {A : Nat → Nat → Nat → K} : ∀ (es : List BlkEv) (c : Nat → Nat), (∀ i, i < n → c i < nsite) →
    ValidEvs n nsite mmax nqp A c es → ∀ d ∈ wanted c es, ∀ i, i < n → d i < nsite := by
  have hop : ∀ (c : Nat → Nat) m s, (∀ i, i < n → c i < nsite) → s < nsite → ∀ i, i < n → hopTo c m s i < nsite := by
    intro c m s hc hs i hi
    unfold hopTo
    split_ifs
    · exact hs
    · exact hc i hi
  have hprop : ∀ (c : Nat → Nat) e, (∀ i, i < n → c i < nsite) → ValidEv n nsite e → ∀ i, i < n → proposed c e i < nsite := by
    intro c e hc hv
    cases e with
    | hop osi msj acc => exact hop c msj osi hc hv.2
    | exch osi msj osk msl acc => exact hop _ msl osk (hop c msj osi hc hv.2.1) hv.2.2.2.1
    | refresh => exact hc
  have haft : ∀ (c : Nat → Nat) e, (∀ i, i < n → c i < nsite) → ValidEv n nsite e → ∀ i, i < n → after c e i < nsite := by
    intro c e hc hv
    cases e with
    | hop osi msj acc => cases acc with
      | true => exact hop c msj osi hc hv.2
      | false => exact hc
    | exch osi msj osk msl acc => cases acc with
      | true => exact hop _ msl osk (hop c msj osi hc hv.2.1) hv.2.2.2.1
      | false => exact hc
    | refresh => exact hc
  intro es
  induction es with
  | nil => intro c _ _ d hd; simp [wanted] at hd
  | cons e es ih =>
    intro c hc hv d hd
    obtain ⟨h1, -, -, h4⟩ := hv
    rcases List.mem_cons.mp hd with rfl | hd
    · exact hprop c e hc h1
    · exact ih _ (haft c e hc h1) h4 d hd

theorem valid_trans {n2 ne mmax nqp : Nat} {slt : Nat → K} (hsk : ∀ q, q < nqp → SlaterSkew n2 slt q) : ∀ (es : List BlkEv) (c : Nat → Nat),
    (∀ i, i < 2 * ne → c i < n2) → ValidEvs (2 * ne) n2 mmax nqp (fun q => entry n2 slt q) c es →
    ValidEvs (2 * ne) n2 mmax nqp (fun q => orbAt (orbMat n2 slt q)) c es := by
  intro es
  induction es with
  | nil => intro c _ _; trivial
  | cons e es ih =>
    intro c hc hv
    have hv' := hv
    obtain ⟨h1, h2, h3, h4⟩ := hv
    have hc' : ∀ i, i < 2 * ne → after c e i < n2 := by
      intro i hi
      have := valid_lt (n := 2 * ne) (nsite := n2) (A := fun q => entry n2 slt q) (mmax := mmax) (nqp := nqp) [e, .refresh] c hc ⟨h1, h2, h3, trivial, trivial, h3, trivial⟩
      exact this (after c e) (by simp [wanted, proposed]) i hi
    refine ⟨h1, h2, fun q hq => ?_, ih _ hc' h4⟩
    rw [pfOf_orbMat (hsk q hq) hc']
    exact mul_ne_zero (pow_ne_zero _ (by simp)) (h3 q hq)

section
variable [DecidableEq K]

/-- C63: for any start configuration and any sequence of proposed, accepted and rejected hops and exchanges and fresh starts, no buffer is overrun,
nothing is divided by zero, and each reported value is, for every projection, the Pfaffian of the proposed configuration up to the sign `(-1)^(Ne+1)`.
Assumed: the external routines keep their contracts, the Slater matrices are antisymmetric, the Pfaffians of accepted configurations do not vanish,
and the queue is long enough (one hop; two for exchanges). -/
theorem C63_values_partial (p : PfPar) (mmax nqp : Nat) (slt : Nat → K) (lib : BlkLib K) (hlib : BlkLibOK lib) (htot : BlkLibTotal lib)
    (hsk : ∀ q, q < nqp → SlaterSkew (2 * p.Nsite) slt q) (mem : Nat → Tdi K) (es : List BlkEv) (c : Nat → Nat) (hc : ∀ i, i < 2 * p.Ne → c i < 2 * p.Nsite)
    (h0 : ∀ q, q < nqp → pfOf (entry (2 * p.Nsite) slt q) (2 * p.Ne) c ≠ 0)
    (hv : ValidEvs (2 * p.Ne) (2 * p.Nsite) mmax nqp (fun q => entry (2 * p.Nsite) slt q) c es) :
    ∃ v rs, blkStart nqp (blkPar p mmax slt) lib mem es c = some (v, rs) ∧
      List.Forall₂ (fun r d => ∀ q, q < nqp → r q = (-1) ^ (p.Ne + 1) * pfOf (entry (2 * p.Nsite) slt q) (2 * p.Ne) d) rs (c :: wanted c es) := by
  have hN : p.Nsite2 = 2 * p.Nsite := by unfold PfPar.Nsite2; omega
  have hS : p.Nsize = 2 * p.Ne := by unfold PfPar.Nsize; omega
  obtain ⟨v, rs, e1, -, e3⟩ := blkStart_ok (nqp := nqp) (par := blkPar p mmax slt) (n := 2 * p.Ne) (nsite := 2 * p.Nsite) (mmax := mmax) hlib htot
    (fun q hq => ⟨hS, hN, rfl, by
      show SkewMat (2 * p.Nsite) (orbMat p.Nsite2 slt q)
      rw [hN]; exact orbMat_skew (hsk q hq)⟩) (by omega) mem es c hc
    (fun q hq => by
      show pfOf (orbAt (orbMat p.Nsite2 slt q)) (2 * p.Ne) c ≠ 0
      rw [hN, pfOf_orbMat (hsk q hq) hc]
      exact mul_ne_zero (pow_ne_zero _ (by simp)) (h0 q hq))
    (by
      show ValidEvs _ _ _ _ (fun q => orbAt (orbMat p.Nsite2 slt q)) c es
      rw [hN]; exact valid_trans hsk es c hc hv)
  refine ⟨v, rs, e1, ?_⟩
  have hlt : ∀ d ∈ c :: wanted c es, ∀ i, i < 2 * p.Ne → d i < 2 * p.Nsite := by
    intro d hd
    rcases List.mem_cons.mp hd with rfl | hd
    · exact hc
    · exact valid_lt es c hc hv d hd
  have key : ∀ (l : List (Nat → Nat)) (rs : List (Nat → K)), (∀ d ∈ l, ∀ i, i < 2 * p.Ne → d i < 2 * p.Nsite) →
      List.Forall₂ (fun r d => ∀ q, q < nqp → r q = - pfOf (orbAt (blkPar p mmax slt q).X) (2 * p.Ne) d) rs l →
      List.Forall₂ (fun r d => ∀ q, q < nqp → r q = (-1) ^ (p.Ne + 1) * pfOf (entry (2 * p.Nsite) slt q) (2 * p.Ne) d) rs l := by
    intro l rs hl hf
    induction hf with
    | nil => exact List.Forall₂.nil
    | cons h _ ih =>
      refine List.Forall₂.cons (fun q hq => ?_) (ih (fun d hd => hl d (List.mem_cons_of_mem _ hd)))
      rw [h q hq]
      show - pfOf (orbAt (orbMat p.Nsite2 slt q)) (2 * p.Ne) _ = _
      rw [hN, pfOf_orbMat (hsk q hq) (hl _ List.mem_cons_self)]; ring
  exact key _ _ hlt e3

omit [DecidableEq K] in
/-- C63: with one process per group, the inner product computed from a reported set of Pfaffians is the amplitude up to the same sign. -/
theorem C63_amplitude_partial (p : PfPar) (nqp : Nat) (slt w r : Nat → K) (d : Nat → Nat)
    (h : ∀ q, q < nqp → r q = (-1) ^ (p.Ne + 1) * pfOf (entry (2 * p.Nsite) slt q) (2 * p.Ne) d) :
    calculateIPLocal w r 0 nqp = (-1) ^ (p.Ne + 1) * amplitude (2 * p.Ne) (2 * p.Nsite) slt w 0 nqp d := by
  unfold calculateIPLocal amplitude
  rw [sumLoop_eq, Finset.mul_sum, Nat.sub_zero]
  refine Finset.sum_congr rfl (fun q hq => ?_)
  rw [Nat.add_zero, h q (Finset.mem_range.mp hq)]; ring

omit [DecidableEq K] in
/-- C63: the sign drops out of the ratio on which acceptance depends. -/
theorem C63_ratio (p : PfPar) (nqp : Nat) (slt w r r' : Nat → K) (d d' : Nat → Nat)
    (h : ∀ q, q < nqp → r q = (-1) ^ (p.Ne + 1) * pfOf (entry (2 * p.Nsite) slt q) (2 * p.Ne) d)
    (h' : ∀ q, q < nqp → r' q = (-1) ^ (p.Ne + 1) * pfOf (entry (2 * p.Nsite) slt q) (2 * p.Ne) d') :
    calculateIPLocal w r' 0 nqp / calculateIPLocal w r 0 nqp =
      amplitude (2 * p.Ne) (2 * p.Nsite) slt w 0 nqp d' / amplitude (2 * p.Ne) (2 * p.Nsite) slt w 0 nqp d := by
  rw [C63_amplitude_partial p nqp slt w r d h, C63_amplitude_partial p nqp slt w r' d' h']
  exact mul_div_mul_left _ _ (pow_ne_zero _ (by simp))

/-- C63: with an even number of pairs the reported Pfaffians have the wrong sign (`-(-1)^Ne Pf` instead of `Pf`). -/
theorem C63_sign_violation [CharZero K] (p : PfPar) (mmax nqp : Nat) (slt : Nat → K) (lib : BlkLib K) (hlib : BlkLibOK lib) (htot : BlkLibTotal lib)
    (hsk : ∀ q, q < nqp → SlaterSkew (2 * p.Nsite) slt q) (mem : Nat → Tdi K) (c : Nat → Nat) (hc : ∀ i, i < 2 * p.Ne → c i < 2 * p.Nsite)
    (h0 : ∀ q, q < nqp → pfOf (entry (2 * p.Nsite) slt q) (2 * p.Ne) c ≠ 0) (hq : 0 < nqp) (hev : p.Ne % 2 = 0) :
    ∃ v r, blkStart nqp (blkPar p mmax slt) lib mem [] c = some (v, [r]) ∧ r 0 ≠ pfOf (entry (2 * p.Nsite) slt 0) (2 * p.Ne) c := by
  obtain ⟨v, rs, e1, e2⟩ := C63_values_partial p mmax nqp slt lib hlib htot hsk mem [] c hc h0 trivial
  match rs, e2 with
  | [r], .cons h .nil =>
    refine ⟨v, r, e1, ?_⟩
    have hs : ((-1 : K)) ^ (p.Ne + 1) = -1 := Odd.neg_one_pow ⟨p.Ne / 2, by omega⟩
    rw [h 0 hq, hs]
    intro e
    have := h0 0 hq
    have h2 : (2 : K) * pfOf (entry (2 * p.Nsite) slt 0) (2 * p.Ne) c = 0 := by linear_combination -e
    rcases mul_eq_zero.mp h2 with h3 | h3
    · exact two_ne_zero h3
    · exact this h3

/-- C63: when the loop over projections is split between processes, each process multiplies its weights with the Pfaffians of the first projections, and the
sum is not the amplitude: two projections on two processes. -/
theorem C63_split_violation : ∃ (slt w r : Nat → ℚ) (c : Nat → Nat),
    (∀ q, q < 2 → SlaterSkew (2 * 1) slt q) ∧ (∀ q, q < 2 → r q = (-1) ^ (1 + 1) * pfOf (entry (2 * 1) slt q) (2 * 1) c) ∧
    calculateIPLocal w r 0 1 + calculateIPLocal w r 1 2 ≠ amplitude (2 * 1) (2 * 1) slt w 0 2 c ∧
    calculateIPLocal w r 0 1 + calculateIPLocal w r 1 2 ≠ - amplitude (2 * 1) (2 * 1) slt w 0 2 c := by
  refine ⟨fun x => if x = 1 then 1 else if x = 2 then -1 else if x = 5 then 2 else if x = 6 then -2 else 0, fun _ => 1,
    fun q => if q = 0 then 1 else 2, id, ?_, ?_, ?_, ?_⟩
  · have e : ∀ q, q < 2 → ∀ x, x < 2 * 1 → ∀ y, y < 2 * 1 →
        entry (2 * 1) (fun x : Nat => if x = 1 then (1 : ℚ) else if x = 2 then -1 else if x = 5 then 2 else if x = 6 then -2 else 0) q x y =
          - entry (2 * 1) (fun x : Nat => if x = 1 then (1 : ℚ) else if x = 2 then -1 else if x = 5 then 2 else if x = 6 then -2 else 0) q y x := by
      unfold entry
      decide +kernel
    refine fun q hq => ⟨fun x y hx hy => e q hq x hx y hy, fun x hx => ?_⟩
    have := e q hq x hx x hx
    linarith
  · decide +kernel
  · decide +kernel
  · decide +kernel

omit [DecidableEq K] in
/-- C63: `pop_update` with recomputation (which the samplers do not ask for) reports the Pfaffian of the configuration without the last hop. -/
theorem C63_pop_value (p : BlkPar K) (lib : BlkLib K) (hlib : BlkLibOK lib) (t : Tdi K) (c c' : Nat → Nat) (h : TdiCore p t c') (hk : t.k ≠ 0)
    (hc : ∀ i, i < p.n → i ≠ t.frm (t.k - 1) → c i = c' i) (hcm : c (t.frm (t.k - 1)) = t.cfg (t.frm (t.k - 1))) :
    ∃ t', popUpdate p lib true t = some t' ∧ t'.getPfa = pfOf (orbAt p.X) p.n c := by
  have hp := pop_core h hk hc hcm
  unfold popUpdate
  rw [if_neg hk]
  simp only
  rw [popLoop_eq (p := p) (by have := h.km; omega) _ (Nat.le_refl _)]
  simp only
  by_cases h1 : t.k - 1 = 0
  · rw [if_pos h1]
    refine ⟨_, rfl, ?_⟩
    have h2 : (popped p t).k = 0 := h1
    show (if _ then _ else _ : Tdi K).pfa * 1 = _
    rw [mul_one, ← pfOf_core_zero hp h2]
    split_ifs <;> rfl
  · rw [if_neg h1, if_pos trivial]
    have hq : (if t.nq > t.k - 1 then { popped p t with nq := t.k - 1 } else { popped p t with nq := t.nq }) = popped p t := by
      unfold popped
      simp only
      by_cases h : t.nq > t.k - 1
      · rw [if_pos h, show min t.nq (t.k - 1) = t.k - 1 by omega]
      · rw [if_neg h, show min t.nq (t.k - 1) = t.nq by omega]
    have hP : ∀ s, s = popped p t → ∃ t', (some ({ assemble (requireUMU p (requireQ p false s)) with
        ratio := (lib.pfa (2 * (t.k - 1)) (assemble (requireUMU p (requireQ p false s))).Cp).1 * hopSign (t.k - 1),
        Cp := (lib.pfa (2 * (t.k - 1)) (assemble (requireUMU p (requireQ p false s))).Cp).2 } : Tdi K)) = some t' ∧ t'.getPfa = pfOf (orbAt p.X) p.n c := by
      rintro s rfl
      refine ⟨_, rfl, ?_⟩
      have h' := core_requireQ hp false
      have hkq : (requireQ p false (popped p t)).k = t.k - 1 := by rw [requireQ_eq]; rfl
      have hpf := core_pf h'
      show (requireQ p false (popped p t)).pfa * ((lib.pfa (2 * (t.k - 1)) _).1 * hopSign (t.k - 1)) = _
      rw [hpf, hkq, hlib.1 _ _ (by omega)]
      have : pfOf (upSkew (assemble (requireUMU p (requireQ p false (popped p t)))).Cp) (2 * (t.k - 1)) id =
          pfOf (sMat p (requireQ p false (popped p t)) c) (2 * (t.k - 1)) id :=
        pfOf_congr (fun _ _ => rfl) (fun a ha b hb => central_eq hp false (by exact ha) (by exact hb))
      rw [this]; ring
    exact hP _ hq

omit [DecidableEq K] in
theorem pushUpdate_k {p : BlkPar K} {lib : BlkLib K} {osi msj : Nat} {compute : Bool} {t t' : Tdi K} (h : pushUpdate p lib osi msj compute t = some t') :
    t.k < p.mmax ∧ t'.k = t.k + 1 := by
  unfold pushUpdate at h
  by_cases hc : ¬ (msj < p.n ∧ osi < p.nsite ∧ t.k < p.mmax)
  · rw [if_pos hc] at h; exact absurd h (by simp)
  · rw [if_neg hc] at h
    refine ⟨by tauto, ?_⟩
    have hP : ∀ t : Tdi K, (pushPfa p lib t).k = t.k := by
      intro t
      have hkq : (requireQ p false t).k = t.k := by rw [requireQ_eq]
      unfold pushPfa
      simp only
      split_ifs <;> exact hkq
    simp only at h
    cases compute with
    | true => rw [if_pos rfl] at h; rw [← Option.some.inj h, hP]
    | false => rw [if_neg (by simp)] at h; rw [← Option.some.inj h]

/-- C63: with `NBlockUpdateSize = 1`, which is accepted as input, every proposed exchange writes outside the buffers: `mmax - 2` wraps around, the queue
is not emptied, and two hops are pushed on a queue of length one. -/
theorem C63_pair_overrun (p : BlkPar K) (lib : BlkLib K) (h : p.mmax = 1) (osi msj osk msl : Nat) (compute : Bool) (t : Tdi K) :
    pushPair p lib osi msj osk msl compute t = none := by
  unfold pushPair
  rw [Option.bind_eq_none_iff]
  intro t1 _
  rw [Option.bind_eq_none_iff]
  intro t2 h2
  obtain ⟨-, e2⟩ := pushUpdate_k h2
  by_contra hn
  obtain ⟨t3, h3⟩ := Option.ne_none_iff_exists'.mp hn
  obtain ⟨e3, -⟩ := pushUpdate_k h3
  omega

end

/-- C63: the queue length is between 1 and 100, and it is 1 exactly when 1 is asked for. -/
theorem C63_size (dflt nEx size : Int) (hd : dflt = 2 ∨ dflt = 4) :
    1 ≤ blockUpdateSize dflt nEx size ∧ blockUpdateSize dflt nEx size ≤ 100 ∧ (blockUpdateSize dflt nEx size = 1 ↔ size = 1) := by
  unfold blockUpdateSize
  split_ifs <;> omega

/-- C63: the routines that are linked keep the contracts. -/
theorem C63_library (pfa : Nat → (Nat → K) → K) (junk : Nat → (Nat → Nat → K) → Nat → Nat → K) (lib : SkLib K) (hpfa : PfaOK pfa) (hlib : LibOK lib) :
    BlkLibOK (blkLibOf pfa junk lib) := by
  have hix : ∀ (b : Nat → Nat → K) (n i j : Nat), i < n → upSkew b ((i + n * j) % n) ((i + n * j) / n) = upSkew b i j := by
    intro b n i j hi
    rw [Nat.add_mul_mod_self_left, Nat.mod_eq_of_lt hi, Nat.add_mul_div_left _ _ (by omega), Nat.div_eq_of_lt hi, Nat.zero_add]
  have hskew : ∀ (b : Nat → Nat → K) (n i j : Nat), i < n → j < n →
      upSkew b ((i + n * j) % n) ((i + n * j) / n) = - upSkew b ((j + n * i) % n) ((j + n * i) / n) := by
    intro b n i j hi hj
    rw [hix b n i j hi, hix b n j i hj, (upSkew_skew b).neg]
  have hdiag : ∀ (b : Nat → Nat → K) (n i : Nat), i < n → upSkew b ((i + n * i) % n) ((i + n * i) / n) = 0 := by
    intro b n i hi
    rw [hix b n i i hi, (upSkew_skew b).diag]
  have hpf : ∀ (b : Nat → Nat → K) (n : Nat), pfOf (fun i j => upSkew b ((i + n * j) % n) ((i + n * j) / n)) n id = pfOf (upSkew b) n id := by
    intro b n
    exact pfOf_congr (fun _ _ => rfl) (fun i hi j hj => hix b n i j hi)
  refine ⟨fun n b _ => ?_, fun n b pf inv _ h => ?_⟩
  · show pfa n _ = _
    rw [hpfa n _ (hskew b n) (hdiag b n)]
    exact hpf b n
  · have h : (lib n (fun x => upSkew b (x % n) (x / n))).map (fun r => (r.1, fun i j => r.2 (i + n * j))) = some (pf, inv) := h
    rw [Option.map_eq_some_iff] at h
    obtain ⟨⟨pf', inv'⟩, e1, e2⟩ := h
    obtain ⟨rfl, rfl⟩ := Prod.mk.inj e2
    obtain ⟨g1, g2⟩ := hlib n _ pf' inv' e1 (hskew b n) (hdiag b n)
    refine ⟨g1.trans (hpf b n), fun i hi j hj => ?_⟩
    rw [← g2 i hi j hj]
    refine Finset.sum_congr rfl (fun k hk => ?_)
    rw [hix b n k j (Finset.mem_range.mp hk)]
    rfl

/-- C63: and the factorisation succeeds for regular matrices. -/
theorem C63_library_total (pfa : Nat → (Nat → K) → K) (junk : Nat → (Nat → Nat → K) → Nat → Nat → K) (lib : SkLib K) (hlib : LibTotal lib) :
    BlkLibTotal (blkLibOf pfa junk lib) := by
  have hix : ∀ (b : Nat → Nat → K) (n i j : Nat), i < n → upSkew b ((i + n * j) % n) ((i + n * j) / n) = upSkew b i j := by
    intro b n i j hi
    rw [Nat.add_mul_mod_self_left, Nat.mod_eq_of_lt hi, Nat.add_mul_div_left _ _ (by omega), Nat.div_eq_of_lt hi, Nat.zero_add]
  intro n b inv _ h
  obtain ⟨r, hr⟩ := hlib n (fun x => upSkew b (x % n) (x / n)) (fun x => inv (x % n) (x / n))
    (fun i j hi hj => by rw [hix b n i j hi, hix b n j i hj, (upSkew_skew b).neg])
    (fun i hi => by rw [hix b n i i hi, (upSkew_skew b).diag])
    (fun i hi j hj => by
      rw [← h i hi j hj]
      refine Finset.sum_congr rfl (fun k hk => ?_)
      have hk := Finset.mem_range.mp hk
      rw [hix b n k j hk, Nat.add_mul_mod_self_left, Nat.mod_eq_of_lt hi, Nat.add_mul_div_left _ _ (by omega), Nat.div_eq_of_lt hi, Nat.zero_add]
      rfl)
  exact ⟨_, by show (lib n _).map _ = _; rw [hr]; rfl⟩

/-- C63: with the routines of `ltl2inv` (C59), only the contracts of SKPFA, SKTRF and TRTRI are left. -/
theorem C63_library_ltl [CharZero K] (pfa : Nat → (Nat → K) → K) (junk : Nat → (Nat → Nat → K) → Nat → Nat → K)
    (sktrf : Nat → (Nat → K) → Option ((Nat → K) × (Nat → Int))) (trtri : Nat → Nat → (Nat → K) → (Nat → K)) (hpfa : PfaOK pfa)
    (hs : SktrfOK sktrf) (hst : SktrfTotal sktrf) (ht : TrtriOK trtri) (npanel : Nat → Int) (vT0 M0 : Nat → K) :
    BlkLibOK (blkLibOf pfa junk (skLibOf sktrf trtri npanel vT0 M0)) ∧ BlkLibTotal (blkLibOf pfa junk (skLibOf sktrf trtri npanel vT0 M0)) :=
  ⟨C63_library pfa junk _ hpfa (skLibOf_ok hs ht npanel vT0 M0), C63_library_total pfa junk _ (skLibOf_total hst trtri npanel vT0 M0)⟩

/-- routines for matrices of size 2 and 4, written out -/
def lib4 : BlkLib ℚ where
  pfa n b := (if n = 2 then b 0 1 else b 0 1 * b 2 3 - b 0 2 * b 1 3 + b 0 3 * b 1 2, fun _ _ => 99)
  fac n b :=
    if n = 2 then (if b 0 1 = 0 then none else some (b 0 1, fun i j => if i = 0 ∧ j = 1 then -1 / b 0 1 else if i = 1 ∧ j = 0 then 1 / b 0 1 else 0))
    else
      let pf := b 0 1 * b 2 3 - b 0 2 * b 1 3 + b 0 3 * b 1 2
      let u := fun i j : Nat => if i = 0 ∧ j = 1 then - b 2 3 else if i = 0 ∧ j = 2 then b 1 3 else if i = 0 ∧ j = 3 then - b 1 2
        else if i = 1 ∧ j = 2 then - b 0 3 else if i = 1 ∧ j = 3 then b 0 2 else if i = 2 ∧ j = 3 then - b 0 1 else 0
      if pf = 0 then none else some (pf, fun i j => upSkew u i j / pf)

/-- a Slater matrix of three sites -/
def slt6 : Nat → ℚ := fun x => (((x % 6 : Nat) : ℚ) - ((x / 6 : Nat) : ℚ)) ^ 3

/-- two electron pairs on three sites -/
def ev6 : List BlkEv := [.hop 2 0 true, .hop 5 2 false, .exch 0 0 4 3 true, .hop 2 1 false, .refresh, .exch 2 1 3 2 false]

/-- buffers with anything in them -/
def tdi7 : Tdi ℚ := ⟨0, fun _ _ => 7, fun _ _ => 7, fun _ _ => 7, fun _ _ => 7, fun _ _ => 7, fun _ _ => 7, fun _ _ => 7, fun _ _ => 7, 7, 7, fun _ => 7, 0,
  fun _ => 7, fun _ => 7⟩

-- six events with a queue of two hops: the reported values are those of the definition, with a minus sign for two pairs
example : ((blkStart 1 (blkPar ⟨2, 3⟩ 2 slt6) lib4 (fun _ => tdi7) ev6 (fun i => [0, 1, 3, 5].getD i 0)).map fun s => s.2.map fun r => r 0) =
    some [720, -144, 0, 216, 144, 216, 144] := by decide +kernel
example : (((fun i => [0, 1, 3, 5].getD i 0) :: wanted (fun i => [0, 1, 3, 5].getD i 0) ev6).map fun d => - pfOf (entry 6 slt6 0) 4 d) =
    [720, -144, 0, 216, 144, 216, 144] := by decide +kernel
-- the events are allowed, and the start configuration has a Pfaffian
example : ValidEvs 4 6 2 1 (fun q => entry 6 slt6 q) (fun i => [0, 1, 3, 5].getD i 0) ev6 := by
  unfold ev6
  simp only [ValidEvs, ValidEv, Fits]
  decide +kernel
-- a queue of one hop: an exchange runs out of the buffer
example : (blkStart 1 (blkPar ⟨2, 3⟩ 1 slt6) lib4 (fun _ => tdi7) [.hop 2 0 true, .hop 0 0 false] (fun i => [0, 1, 3, 5].getD i 0)).isSome = true := by decide +kernel
example : (blkStart 1 (blkPar ⟨2, 3⟩ 1 slt6) lib4 (fun _ => tdi7) [.exch 2 0 4 3 false] (fun i => [0, 1, 3, 5].getD i 0)).isSome = false := by decide +kernel

open scoped Classical in
/-- C63: routines with these contracts exist over every field. -/
theorem C63_library_exists : ∃ lib : BlkLib K, BlkLibOK lib ∧ BlkLibTotal lib := by
  refine ⟨⟨fun n b => (pfOf (upSkew b) n id, b), fun n b => if h : ∃ N, IsInv (upSkew b) n id N then some (pfOf (upSkew b) n id, h.choose) else none⟩,
    ⟨fun _ _ _ => rfl, fun n b pf inv _ h => ?_⟩, fun n b inv _ h => ?_⟩
  · by_cases e : ∃ N, IsInv (upSkew b) n id N
    · simp only [e, dif_pos] at h
      obtain ⟨rfl, rfl⟩ := Prod.mk.inj (Option.some.inj h)
      exact ⟨rfl, e.choose_spec⟩
    · simp only [e] at h
      simp at h
  · have e : ∃ N, IsInv (upSkew b) n id N := ⟨inv, h⟩
    exact ⟨(pfOf (upSkew b) n id, e.choose), by simp only [dif_pos e]⟩

end MVMC
