import Verif.Proof.PfBlock4

/-! `merge_updates` and `initialize`. -/
namespace MVMC
open Spec

variable {K : Type} [Field K]

/-- the part above the diagonal determines an inverse -/
theorem upSkew_inv {A : Nat → Nat → K} (hA : Skew A) {n : Nat} {rs : Nat → Nat} {N M : Nat → Nat → K} (h : IsInv A n rs N)
    (hM : ∀ i j, i < j → j < n → M i j = N i j) : IsInv A n rs (upSkew M) := by
  have e : ∀ i, i < n → ∀ j, j < n → upSkew M i j = N i j := by
    intro i hi j hj
    unfold upSkew
    rcases Nat.lt_trichotomy i j with h1 | h1 | h1
    · rw [if_pos h1, hM i j h1 hj]
    · subst h1
      simp [isInv_diag hA h i hi]
    · rw [if_neg (by omega), if_pos h1, hM j i h1 hi, isInv_skew hA h i hi j hj]
  intro i hi j hj
  rw [← h i hi j hj]
  exact Finset.sum_congr rfl (fun k hk => by rw [e i hi k (Finset.mem_range.mp hk)])

omit [Field K] in
theorem applyHops_eq (t : Tdi K) : ∀ m, m ≤ t.k → (∀ l, l < t.k → ∀ o, o < t.k → t.frm l = t.frm o → l = o) → ∀ x,
    ((∀ l, l < m → t.frm l ≠ x) → (List.range m).foldl (fun c j x => if x = t.frm j then t.dst j else c x) t.cfg x = t.cfg x) ∧
    (∀ l, l < m → t.frm l = x → (List.range m).foldl (fun c j x => if x = t.frm j then t.dst j else c x) t.cfg x = t.dst l) := by
  intro m
  induction m with
  | zero => intro _ _ x; exact ⟨fun _ => rfl, fun l hl => absurd hl (by omega)⟩
  | succ m ih =>
    intro hm hinj x
    obtain ⟨i1, i2⟩ := ih (by omega) hinj x
    rw [List.range_succ, List.foldl_append]
    simp only [List.foldl_cons, List.foldl_nil]
    refine ⟨fun hn => ?_, fun l hl e => ?_⟩
    · rw [if_neg (fun e => hn m (by omega) e.symm)]
      exact i1 (fun l hl => hn l (by omega))
    · by_cases h1 : l = m
      · subst h1
        rw [if_pos e.symm]
      · rw [if_neg]
        · exact i2 l (by omega) e
        · intro e2
          exact h1 (hinj l (by omega) m (by omega) (e.trans e2))

theorem applyHops_cur {p : BlkPar K} {t : Tdi K} {c : Nat → Nat} (h : TdiCore p t c) {x : Nat} (hx : x < p.n) : applyHops t x = c x := by
  have L := applyHops_eq t t.k (Nat.le_refl _) h.frInj x
  by_cases e : ∀ l, l < t.k → t.frm l ≠ x
  · rw [h.base x hx e]; exact L.1 e
  · push Not at e
    obtain ⟨l, hl, e⟩ := e
    rw [← e, h.cur l hl, e]
    exact L.2 l hl e

omit [Field K] in
theorem closeGap_eq {p : BlkPar K} {k : Nat} (hk : k ≤ p.mmax) (Q : Nat → Nat → K) {i : Nat} (hi : i < p.n) :
    (∀ a, a < k → closeGap p k Q i a = Q i a) ∧ ∀ l, l < k → closeGap p k Q i (k + l) = Q i (p.mmax + l) := by
  unfold closeGap
  by_cases e : k = p.mmax
  · subst e
    simp
  · rw [if_pos e]
    have L : ∀ m, m ≤ k → ∀ i, i < p.n →
        (∀ a, (a < k ∨ k + m ≤ a) → (List.range m).foldl (fun Q j => setCol p.n Q (k + j) (fun i => Q i (p.mmax + j))) Q i a = Q i a) ∧
        ∀ l, l < m → (List.range m).foldl (fun Q j => setCol p.n Q (k + j) (fun i => Q i (p.mmax + j))) Q i (k + l) = Q i (p.mmax + l) := by
      intro m
      induction m with
      | zero => intro _ i _; exact ⟨fun _ _ => rfl, fun l hl => absurd hl (by omega)⟩
      | succ m ih =>
        intro hm i hi
        obtain ⟨i1, i2⟩ := ih (by omega) i hi
        rw [List.range_succ, List.foldl_append]
        simp only [List.foldl_cons, List.foldl_nil]
        unfold setCol
        beta_reduce
        refine ⟨fun a ha => ?_, fun l hl => ?_⟩
        · rw [if_neg (by omega)]
          exact i1 a (by omega)
        · by_cases h1 : l = m
          · subst h1
            rw [if_pos ⟨rfl, hi⟩]
            exact i1 _ (by omega)
          · rw [if_neg (by omega)]
            exact i2 l (by omega)
    exact ⟨fun a ha => (L k (Nat.le_refl _) i hi).1 a (Or.inl ha), fun l hl => (L k (Nat.le_refl _) i hi).2 l hl⟩

/-- the columns of `M [U V]` as stored -/
theorem mb_eq {p : BlkPar K} {t : Tdi K} {c : Nat → Nat} (h : TdiCore p t c) (hq : t.nq = t.k) {i : Nat} (hi : i < p.n) :
    (∀ a, a < t.k → ∑ k ∈ Finset.range p.n, upSkew t.M i k * bMat t k a = t.Q i a) ∧
    ∀ l, l < t.k → ∑ k ∈ Finset.range p.n, upSkew t.M i k * bMat t k (t.k + l) = t.Q i (p.mmax + l) := by
  refine ⟨fun a ha => ?_, fun l hl => ?_⟩
  · rw [h.hQ a (by omega) i hi]
    refine Finset.sum_congr rfl (fun k _ => ?_)
    unfold bMat
    rw [if_pos ha]
  · rw [h.hP l hl i hi, ← sum_hop p.n (fun k => upSkew t.M i k) _ (h.frLt l hl)]
    refine Finset.sum_congr rfl (fun k _ => ?_)
    unfold bMat
    rw [if_neg (by omega), Nat.add_sub_cancel_left]

/-- **`inv_update` with the inverse of the central matrix gives the inverse matrix of the new configuration.** -/
theorem invUpdate_ok {p : BlkPar K} {t : Tdi K} {c : Nat → Nat} (h : TdiCore p t c) (hq : t.nq = t.k)
    (cp : Nat → Nat → K) (u r : _) (hcp : t.k ≠ 1 → IsInv (sMat p t c) (2 * t.k) id cp)
    (hc1 : t.k = 1 → cp 0 1 * (t.UMV 0 0 - 1) = -1) :
    IsInv (orbAt p.X) p.n c (upSkew (invUpdate p { t with UMU := u, Cp := cp, ratio := r }).M) := by
  have hs := orbAt_skew p.X
  unfold invUpdate
  by_cases hk : t.k = 1
  · rw [if_pos hk]
    have hs01 := sMat_one h hk
    have hS := sMat_skew p t c
    have hI : IsInv (sMat p t c) (2 * t.k) id (fun a b => if a = 0 then (if b = 1 then cp 0 1 else 0) else if b = 0 then - cp 0 1 else 0) := by
      rw [hk]
      intro i hi j hj
      rw [show 2 * 1 = 1 + 1 from rfl, Finset.sum_range_succ, Finset.sum_range_one]
      have h1 := hc1 hk
      have hi' : i = 0 ∨ i = 1 := by omega
      have hj' : j = 0 ∨ j = 1 := by omega
      have h10 : sMat p t c 1 0 = - (t.UMV 0 0 - 1) := by rw [hS.neg, hs01]
      rcases hi' with rfl | rfl <;> rcases hj' with rfl | rfl
      · simp [hS.diag, h10]
        linear_combination -h1
      · simp [hS.diag]
      · simp [hS.diag]
      · simp [hS.diag, hs01]
        linear_combination -h1
    refine upSkew_inv hs (core_inv h hI) (fun i j hij hj => ?_)
    have hi : i < p.n := by omega
    have q0 := fun x (hx : x < p.n) => (mb_eq h hq hx).1 0 (by omega)
    have q1 := fun x (hx : x < p.n) => (mb_eq h hq hx).2 0 (by omega)
    rw [hk] at q1
    simp only [Nat.add_zero] at q1
    show (if i ≤ j ∧ j < p.n then t.M i j + cp 0 1 * (t.Q i 0 * t.Q j p.mmax) - cp 0 1 * (t.Q i p.mmax * t.Q j 0) else t.M i j) = _
    rw [if_pos ⟨by omega, hj⟩, hk, show 2 * 1 = 1 + 1 from rfl, Finset.sum_range_succ, Finset.sum_range_one, Finset.sum_range_succ, Finset.sum_range_one,
      Finset.sum_range_succ, Finset.sum_range_one]
    rw [q0 i hi, q0 j hj, q1 i hi, q1 j hj]
    rw [show upSkew t.M i j = t.M i j by unfold upSkew; rw [if_pos hij]]
    simp
    ring
  · rw [if_neg hk]
    refine upSkew_inv hs (core_inv h (hcp hk)) (fun i j hij hj => ?_)
    have hi : i < p.n := by omega
    have hmb : ∀ x, x < p.n → ∀ a, a < 2 * t.k → ∑ k ∈ Finset.range p.n, upSkew t.M x k * bMat t k a = closeGap p t.k t.Q x a := by
      intro x hx a ha
      by_cases e : a < t.k
      · rw [(mb_eq h hq hx).1 a e, (closeGap_eq h.km t.Q hx).1 a e]
      · obtain ⟨l, rfl⟩ : ∃ l, a = t.k + l := ⟨a - t.k, by omega⟩
        rw [(mb_eq h hq hx).2 l (by omega), (closeGap_eq h.km t.Q hx).2 l (by omega)]
    simp only
    rw [if_pos ⟨by omega, hj⟩, show upSkew t.M i j = t.M i j by unfold upSkew; rw [if_pos hij]]
    congr 1
    refine Finset.sum_congr rfl (fun b hb => ?_)
    rw [hmb j hj b (Finset.mem_range.mp hb), if_pos ⟨hi, Finset.mem_range.mp hb⟩]
    congr 1
    exact Finset.sum_congr rfl (fun a ha => by rw [hmb i hi a (Finset.mem_range.mp ha)])

/-- invariant with the stored ratio -/
structure TdiInv (p : BlkPar K) (t : Tdi K) (c : Nat → Nat) : Prop extends TdiCore p t c where
  r0 : t.k = 0 → t.ratio = 1
  rr : t.ratio ≠ 0 → t.pfa * t.ratio = pfOf (orbAt p.X) p.n c
  r1 : t.k = 1 → t.ratio ≠ 0 → t.Cp 0 1 = t.UMV 0 0 - 1

theorem inj_of_pf {A : Nat → Nat → K} (hA : Skew A) {n : Nat} {c : Nat → Nat} (h : pfOf A n c ≠ 0) : ∀ i, i < n → ∀ j, j < n → c i = c j → i = j := by
  have hn : ((List.range n).map c).Nodup := by
    by_contra hn
    exact h (pf_eq_zero_of_not_nodup hA hn)
  intro i hi j hj e
  exact List.inj_on_of_nodup_map hn (List.mem_range.mpr hi) (List.mem_range.mpr hj) e

theorem core_lt {p : BlkPar K} {t : Tdi K} {c : Nat → Nat} (h : TdiCore p t c) {i : Nat} (hi : i < p.n) : c i < p.nsite := by
  by_cases e : ∀ l, l < t.k → t.frm l ≠ i
  · rw [h.base i hi e]; exact h.cfgLt i hi
  · push Not at e
    obtain ⟨l, hl, e⟩ := e
    rw [← e, h.cur l hl]; exact h.dstLt l hl

/-- an object without hops -/
theorem core_zero {p : BlkPar K} {t : Tdi K} {c : Nat → Nat} (hk : t.k = 0) (hn : t.nq = 0) (hlt : ∀ i, i < p.n → c i < p.nsite)
    (hcfg : ∀ i, i < p.n → t.cfg i = c i) (hpf : pfOf (orbAt p.X) p.n c ≠ 0) (hpfa : t.pfa = pfOf (orbAt p.X) p.n c)
    (hinv : IsInv (orbAt p.X) p.n c (upSkew t.M)) : TdiCore p t c := by
  have hinj := inj_of_pf (orbAt_skew p.X) hpf
  refine ⟨fun i hi => by rw [hcfg i hi]; exact hlt i hi, fun i hi j hj e => hinj i hi j hj (by rw [← hcfg i hi, e, hcfg j hj]), ?_, ?_,
    by omega, fun l hl => by omega, fun l hl => by omega, fun l hl => by omega, fun l hl => by omega, fun i hi _ => (hcfg i hi).symm,
    fun l hl => by omega, by omega, fun l hl => by omega, fun l hl => by omega, fun l hl => by omega, fun l hl => by omega, fun l hl => by omega⟩
  · rw [hpfa]
    exact pfOf_congr (fun i hi => (hcfg i hi).symm) (fun _ _ _ _ => rfl)
  · intro i hi j hj
    rw [← hinv i hi j hj]
    exact Finset.sum_congr rfl (fun k hk => by rw [hcfg k (Finset.mem_range.mp hk), hcfg j hj])


theorem mergeC_ok [DecidableEq K] {p : BlkPar K} {lib : BlkLib K} (hlib : BlkLibOK lib) (htot : BlkLibTotal lib) {t : Tdi K} {c : Nat → Nat}
    (h : TdiInv p t c) (hpf : pfOf (orbAt p.X) p.n c ≠ 0) :
    ∃ u cp r, mergeC p lib t = some { requireQ p true t with UMU := u, Cp := cp, ratio := r } ∧ t.pfa * r = pfOf (orbAt p.X) p.n c ∧
      (t.k ≠ 1 → IsInv (sMat p (requireQ p true t) c) (2 * t.k) id cp) ∧ (t.k = 1 → cp 0 1 * (t.UMV 0 0 - 1) = -1) := by
  have h' := core_requireQ h.toTdiCore true
  have hkq : (requireQ p true t).k = t.k := by rw [requireQ_eq]
  have hpq : (requireQ p true t).pfa = t.pfa := by rw [requireQ_eq]
  have huq : (requireQ p true t).UMV = t.UMV := by rw [requireQ_eq]
  have hcq : (requireQ p true t).Cp = t.Cp := by rw [requireQ_eq]
  have hrq : (requireQ p true t).ratio = t.ratio := by rw [requireQ_eq]
  have hP := core_pf h'
  rw [hkq, hpq] at hP
  have hc := fun a b => central_eq (a := a) (b := b) h.toTdiCore true
  unfold mergeC
  simp only
  by_cases hk : t.k = 1
  · rw [if_pos (hkq.trans hk)]
    rw [hk, pfOf_two, sMat_one h' (hkq.trans hk), huq] at hP
    simp only [hopSign] at hP
    have hs : t.UMV 0 0 - 1 ≠ 0 := by
      intro e; rw [e] at hP; simp at hP; exact hpf hP
    have hC : (assemble (requireUMU p (requireQ p true t))).Cp 0 1 = t.UMV 0 0 - 1 := by
      have := hc 0 1 (by omega) (by omega)
      rw [sMat_one h' (hkq.trans hk), huq] at this
      exact this
    by_cases hr : t.ratio = 0
    · rw [if_pos (hrq.trans hr)]
      simp only
      rw [if_neg (by rw [hC]; exact hs)]
      refine ⟨_, _, _, rfl, ?_, fun e => absurd hk e, fun _ => ?_⟩
      · rw [hC, hP]; norm_num; ring
      · simp only [and_self, if_true]
        rw [hC]; field_simp
    · rw [if_neg (fun e => hr (hrq.symm.trans e))]
      have hC' : (requireQ p true t).Cp 0 1 = t.UMV 0 0 - 1 := by rw [hcq]; exact h.r1 hk hr
      rw [if_neg (by rw [hC']; exact hs)]
      refine ⟨_, _, (requireQ p true t).ratio, rfl, ?_, fun e => absurd hk e, fun _ => ?_⟩
      · rw [hrq]; exact h.rr hr
      · simp only [and_self, if_true]
        rw [hC']; field_simp
  · rw [if_neg (fun e => hk (hkq.symm.trans e))]
    have hSk := sMat_skew p (requireQ p true t) c
    have hcf : pfOf (upSkew (assemble (requireUMU p (requireQ p true t))).Cp) (2 * t.k) id = pfOf (sMat p (requireQ p true t) c) (2 * t.k) id :=
      pfOf_congr (fun _ _ => rfl) (fun a ha b hb => hc a b ha hb)
    have hne : pfOf (sMat p (requireQ p true t) c) (2 * t.k) id ≠ 0 := by
      intro e; rw [e] at hP; simp at hP; exact hpf hP
    obtain ⟨N, hN⟩ := exists_inv_of_pf_ne hSk id hne
    have tr : ∀ N', IsInv (upSkew (assemble (requireUMU p (requireQ p true t))).Cp) (2 * t.k) id N' ↔ IsInv (sMat p (requireQ p true t) c) (2 * t.k) id N' := by
      intro N'
      constructor
      · intro q i hi j hj
        rw [← q i hi j hj]
        exact Finset.sum_congr rfl (fun k hk => by rw [id, id, hc k j (Finset.mem_range.mp hk) hj])
      · intro q i hi j hj
        rw [← q i hi j hj]
        exact Finset.sum_congr rfl (fun k hk => by rw [id, id, hc k j (Finset.mem_range.mp hk) hj])
    have hk3 : (assemble (requireUMU p (requireQ p true t))).k = t.k := hkq
    obtain ⟨⟨pf, inv⟩, hf⟩ := htot _ _ N (show (2 * t.k) % 2 = 0 by omega) ((tr N).mpr hN)
    obtain ⟨f1, f2⟩ := hlib.2 _ _ _ _ (show (2 * t.k) % 2 = 0 by omega) hf
    have hf' : lib.fac (2 * (assemble (requireUMU p (requireQ p true t))).k) (assemble (requireUMU p (requireQ p true t))).Cp = some (pf, inv) := by
      rw [hk3]; exact hf
    rw [hf']
    refine ⟨_, _, _, rfl, ?_, fun _ => (tr inv).mp f2, fun e => absurd e hk⟩
    show t.pfa * (if (requireQ p true t).ratio = 0 then pf * hopSign (requireQ p true t).k else (requireQ p true t).ratio) = _
    rw [hrq, hkq]
    by_cases hr : t.ratio = 0
    · rw [if_pos hr, hP, f1, hcf]; ring
    · rw [if_neg hr]; exact h.rr hr

/-- **`merge_updates` gives an object without hops for the same configuration.** -/
theorem merge_ok [DecidableEq K] {p : BlkPar K} {lib : BlkLib K} (hlib : BlkLibOK lib) (htot : BlkLibTotal lib) {t : Tdi K} {c : Nat → Nat}
    (h : TdiInv p t c) (hpf : pfOf (orbAt p.X) p.n c ≠ 0) : ∃ t', mergeUpdates p lib t = some t' ∧ t'.k = 0 ∧ TdiInv p t' c := by
  unfold mergeUpdates
  by_cases hk : t.k = 0
  · exact ⟨t, by rw [if_pos hk], hk, h⟩
  · rw [if_neg hk]
    obtain ⟨u, cp, r, e, hr, hcp, hc1⟩ := mergeC_ok hlib htot h hpf
    have h' := core_requireQ h.toTdiCore true
    have hkq : (requireQ p true t).k = t.k := by rw [requireQ_eq]
    have huq : (requireQ p true t).UMV = t.UMV := by rw [requireQ_eq]
    have hpq : (requireQ p true t).pfa = t.pfa := by rw [requireQ_eq]
    have hnq : (requireQ p true t).nq = (requireQ p true t).k := by
      rw [requireQ_eq]
      show max t.nq (if true then t.k else t.k - 1) = t.k
      rw [if_pos rfl]
      exact max_eq_right h.nqk
    rw [e]
    simp only
    have hI := invUpdate_ok h' hnq cp u r (by rw [hkq]; exact hcp) (by rw [hkq, huq]; exact hc1)
    have hpfa : (invUpdate p { requireQ p true t with UMU := u, Cp := cp, ratio := r }).pfa = t.pfa := by
      unfold invUpdate; split_ifs <;> exact hpq
    have hrat : (invUpdate p { requireQ p true t with UMU := u, Cp := cp, ratio := r }).ratio = r := by
      unfold invUpdate; split_ifs <;> rfl
    have hah : applyHops (invUpdate p { requireQ p true t with UMU := u, Cp := cp, ratio := r }) = applyHops (requireQ p true t) := by
      unfold invUpdate; split_ifs <;> rfl
    refine ⟨_, rfl, rfl, core_zero rfl rfl (fun i hi => core_lt h.toTdiCore hi) ?_ hpf ?_ hI, fun _ => rfl, fun _ => ?_, fun e => absurd e (by norm_num)⟩
    · intro i hi
      show applyHops _ i = c i
      rw [hah]
      exact applyHops_cur h' hi
    · show _ * _ = _
      rw [hpfa, hrat]; exact hr
    · show _ * _ * 1 = _
      rw [hpfa, hrat, mul_one]; exact hr

/-- **`initialize` sets up an object without hops.** -/
theorem init_ok {p : BlkPar K} {lib : BlkLib K} (hlib : BlkLibOK lib) (htot : BlkLibTotal lib) (hn : p.n % 2 = 0) {c : Nat → Nat} (t0 : Tdi K)
    (hlt : ∀ i, i < p.n → c i < p.nsite) (hpf : pfOf (orbAt p.X) p.n c ≠ 0) : ∃ t', tdiInit p lib c t0 = some t' ∧ t'.k = 0 ∧ TdiInv p t' c := by
  have hs := orbAt_skew p.X
  unfold tdiInit
  simp only
  set M : Nat → Nat → K := fun i j => if i < j ∧ j < p.n then orbAt p.X (c i) (c j) else if i = j ∧ j < p.n then 0 else t0.M i j with hM
  have hMe : ∀ i, i < p.n → ∀ j, j < p.n → upSkew M i j = orbAt p.X (c i) (c j) := by
    intro i hi j hj
    unfold upSkew
    rcases Nat.lt_trichotomy i j with e | e | e
    · rw [if_pos e, hM]; simp only; rw [if_pos ⟨e, hj⟩]
    · subst e; simp [hs.diag]
    · rw [if_neg (by omega), if_pos e, hM]; simp only; rw [if_pos ⟨e, hi⟩, hs.neg (c i)]
  obtain ⟨N, hN⟩ := exists_inv_of_pf_ne hs c hpf
  have tr : ∀ N', IsInv (upSkew M) p.n id N' ↔ IsInv (orbAt p.X) p.n c N' := by
    intro N'
    constructor
    · intro q i hi j hj
      rw [← q i hi j hj]
      exact Finset.sum_congr rfl (fun k hk => by rw [id, id, hMe k (Finset.mem_range.mp hk) j hj])
    · intro q i hi j hj
      rw [← q i hi j hj]
      exact Finset.sum_congr rfl (fun k hk => by rw [id, id, hMe k (Finset.mem_range.mp hk) j hj])
  obtain ⟨⟨pf, inv⟩, hf⟩ := htot _ _ N hn ((tr N).mpr hN)
  obtain ⟨f1, f2⟩ := hlib.2 _ _ _ _ hn hf
  have f1' : pf = pfOf (orbAt p.X) p.n c := by
    rw [f1]
    have e1 : pfOf (orbAt p.X) p.n c = pfOf (fun x y => orbAt p.X (c x) (c y)) p.n id := by
      unfold pfOf
      rw [List.map_id]
      exact pf_map c (orbAt p.X) _ _ (Nat.le_refl _)
    rw [e1]
    exact pfOf_congr (fun _ _ => rfl) (fun i hi j hj => hMe i hi j hj)
  have f2' := (tr inv).mp f2
  rw [hf]
  refine ⟨_, rfl, rfl, core_zero rfl rfl hlt (fun _ _ => rfl) hpf f1' (upSkew_inv hs f2' (fun _ _ _ _ => rfl)), fun _ => rfl, fun _ => ?_, fun e => absurd e (by norm_num)⟩
  show pf * 1 = _
  rw [mul_one, f1']

end MVMC
