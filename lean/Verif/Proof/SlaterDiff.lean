import Mathlib.Analysis.Complex.RealDeriv
import Verif.Proof.SlaterBase
import Verif.Proof.PfaffianDeriv

/-! Derivative of the pair part. -/
namespace MVMC
open MVMC.Spec Finset

section adds
variable {K : Type} [Field K]

theorem runAdds_eq : ∀ (evs : List (Nat × K)) (a : Nat → K) (k : Nat),
    runAdds evs a k = a k + (evs.map (fun e => if e.1 = k then e.2 else 0)).sum
  | [], a, k => by simp [runAdds]
  | e :: evs, a, k => by
    show runAdds evs (addAt a e.1 e.2) k = _
    rw [runAdds_eq evs, List.map_cons, List.sum_cons]
    unfold addAt
    by_cases h : k = e.1
    · rw [if_pos h, if_pos h.symm]; ring
    · rw [if_neg h, if_neg (fun q => h q.symm)]; ring

theorem runAdds_perm {evs evs' : List (Nat × K)} (h : evs.Perm evs') (a : Nat → K) : runAdds evs a = runAdds evs' a := by
  funext k
  rw [runAdds_eq, runAdds_eq, (h.map _).sum_eq]

theorem sum_map_range (n : Nat) (f : Nat → K) : ((List.range n).map f).sum = ∑ i ∈ range n, f i := rfl

theorem sum_flatMap {β : Type} (f : β → K) (st : Nat → List β) (n : Nat) :
    (((List.range n).flatMap st).map f).sum = ∑ q ∈ range n, ((st q).map f).sum := by
  induction n with
  | zero => simp
  | succ n ih =>
    rw [List.range_succ, List.flatMap_append, List.map_append, List.sum_append, ih, sum_range_succ]
    simp

/-- additions of block form: what ends up in entry `k` of block `q` -/
theorem runAdds_block {n nq nS : Nat} {st : Nat → List (Nat × K)} {ix : Nat → Nat → Nat → Nat} {G : Nat → Nat → Nat → K}
    (hst : ∀ q, q < nq → st q = (List.range n).flatMap fun i => (List.range n).map fun j => (q * nS + ix q i j, G q i j))
    (hix : ∀ q, q < nq → ∀ i, i < n → ∀ j, j < n → ix q i j < nS) {evs : List (Nat × K)} (hp : evs.Perm ((List.range nq).flatMap st))
    {q k : Nat} (hq : q < nq) (hk : k < nS) :
    runAdds evs (fun _ => 0) (q * nS + k) = ∑ i ∈ range n, ∑ j ∈ range n, if ix q i j = k then G q i j else 0 := by
  rw [runAdds_perm hp, runAdds_eq, zero_add, sum_flatMap]
  have e : ∀ q' ∈ range nq, ((st q').map (fun e => if e.1 = q * nS + k then e.2 else 0)).sum
      = if q' = q then ∑ i ∈ range n, ∑ j ∈ range n, (if ix q i j = k then G q i j else 0) else 0 := by
    intro q' hq'
    have hq' := mem_range.mp hq'
    rw [hst q' hq', sum_flatMap]
    have e2 : ∀ i ∈ range n, (((List.range n).map fun j => (q' * nS + ix q' i j, G q' i j)).map
        (fun e => if e.1 = q * nS + k then e.2 else 0)).sum = ∑ j ∈ range n, if q' = q ∧ ix q' i j = k then G q' i j else 0 := by
      intro i hi
      rw [List.map_map, sum_map_range]
      refine sum_congr rfl (fun j hj => ?_)
      show (if q' * nS + ix q' i j = q * nS + k then G q' i j else 0) = _
      by_cases h : q' * nS + ix q' i j = q * nS + k
      · rw [if_pos h, if_pos (flat2_inj (hix q' hq' i (mem_range.mp hi) j (mem_range.mp hj)) hk h)]
      · rw [if_neg h, if_neg]
        rintro ⟨rfl, rfl⟩
        exact h rfl
    rw [sum_congr rfl e2]
    by_cases h : q' = q
    · subst h
      rw [if_pos rfl]
      refine sum_congr rfl (fun i _ => sum_congr rfl (fun j _ => ?_))
      simp
    · rw [if_neg h]
      refine sum_eq_zero (fun i _ => sum_eq_zero (fun j _ => ?_))
      rw [if_neg (fun q => h q.1)]
  rw [sum_congr rfl e, sum_ite_eq', if_pos (mem_range.mpr hq)]

theorem range_two_list (ne : Nat) : List.range (2 * ne) = List.range ne ++ List.range' ne ne := by
  rw [List.range_eq_range', List.range_eq_range', Nat.two_mul, ← List.range'_append_1]
  simp

theorem diffAdds_eq (Q : QPPar) (ne : Nat) (cs cc ss pfM invM : Nat → K) (tab : Nat → Nat × Int) (q : Nat) :
    diffAdds Q ne cs cc ss pfM invM tab q = (List.range (2 * ne)).flatMap fun i => (List.range (2 * ne)).map fun j =>
      (q * Q.nSlater + (tab (q / Q.nSP * (2 * ne) * (2 * ne) + i * (2 * ne) + j)).1,
        -(invM (q * (2 * ne) * (2 * ne) + i * (2 * ne) + j) * (pfM q * spinCoef (cs (q % Q.nSP)) (cc (q % Q.nSP)) (ss (q % Q.nSP)) (i / ne) (j / ne))
          * ((tab (q / Q.nSP * (2 * ne) * (2 * ne) + i * (2 * ne) + j)).2 : K))) := by
  have lo : ∀ i ∈ List.range ne, i / ne = 0 := fun i hi => Nat.div_eq_of_lt (List.mem_range.mp hi)
  have hi : ∀ i ∈ List.range' ne ne, i / ne = 1 := by
    intro i hi
    have h := List.mem_range'_1.mp hi
    have e : i = (i - ne) + ne := by omega
    rw [e]
    exact (site_dn (by omega)).2
  unfold diffAdds
  simp only []
  rw [range_two_list, List.flatMap_append]
  congr 1
  · refine List.flatMap_congr (fun i h1 => ?_)
    rw [List.map_append]
    congr 1
    · refine List.map_congr_left (fun j h2 => Prod.ext rfl ?_)
      simp only [lo i h1, lo j h2, spinCoef, if_true]
      ring
    · refine List.map_congr_left (fun j h2 => Prod.ext rfl ?_)
      simp only [lo i h1, hi j h2, spinCoef, if_true, one_ne_zero, if_false]
  · refine List.flatMap_congr (fun i h1 => ?_)
    rw [List.map_append]
    congr 1
    · refine List.map_congr_left (fun j h2 => Prod.ext rfl ?_)
      simp only [hi i h1, lo j h2, spinCoef, if_true, one_ne_zero, if_false]
      ring
    · refine List.map_congr_left (fun j h2 => Prod.ext rfl ?_)
      simp only [hi i h1, hi j h2, spinCoef, one_ne_zero, if_false]

end adds

/-! ### projection indices -/

theorem trans_decode (Q : QPPar) (q : Nat) : q / Q.nSP / Q.nMP = Q.optidx q ∧ q / Q.nSP % Q.nMP = Q.mpidx q := by
  unfold QPPar.optidx QPPar.mpidx QPPar.nFix
  exact ⟨Nat.div_div_eq_div_mul _ _ _, (Nat.mod_mul_right_div_self q Q.nSP Q.nMP).symm⟩

theorem trans_lt {Q : QPPar} {q : Nat} (hq : q < Q.nFull) : q / Q.nSP < Q.nMP * Q.nOpt := by
  have hq : q < Q.nSP * Q.nMP * Q.nOpt := hq
  rw [Nat.mul_assoc] at hq
  exact Nat.div_lt_of_lt_mul hq

section table
variable {Q : QPPar} {n : Nat}

theorem table_form {V : Nat → Nat → Nat → Nat × Int} {st : Nat → List (Nat × (Nat × Int))}
    (hst : ∀ q, st q = (List.range n).flatMap fun i => (List.range n).map fun j => (q * n * n + i * n + j, V q i j))
    {nq : Nat} {evs : List (Nat × (Nat × Int))} (hp : evs.Perm ((List.range nq).flatMap st)) (a : Nat → Nat × Int) {q i j : Nat}
    (hq : q < nq) (hi : i < n) (hj : j < n) : runStores evs a (q * n * n + i * n + j) = V q i j := by
  refine runStores_block (nq := nq) (V := V) ?_ ?_ a hq hi hj
  · intro e he
    obtain ⟨k, hk, hk'⟩ := List.mem_flatMap.mp (hp.subset he)
    rw [hst k] at hk'
    simp only [List.mem_flatMap, List.mem_map, List.mem_range] at hk'
    obtain ⟨i, h1, j, h2, rfl⟩ := hk'
    exact ⟨k, i, j, List.mem_range.mp hk, h1, h2, rfl⟩
  · intro k x y hk hx hy
    refine hp.symm.subset (List.mem_flatMap.mpr ⟨k, List.mem_range.mpr hk, ?_⟩)
    rw [hst k]
    simp only [List.mem_flatMap, List.mem_map, List.mem_range]
    exact ⟨x, hx, y, hy, rfl⟩

end table

/-! ### the derivative -/

theorem amp_deriv {n N2 nq : Nat} {slt : ℂ → Nat → ℂ} {w : Nat → ℂ} {rs : Nat → Nat} {P : Nat → ℂ → Nat → Nat → ℂ}
    {P' : Nat → Nat → Nat → ℂ} {pfM invM : Nat → ℂ} {z : ℂ} (hrs : ∀ i, i < n → rs i < N2)
    (hent : ∀ z q, q < nq → ∀ x y, x < N2 → y < N2 → entry N2 (slt z) q x y = antisym (P q z) x y)
    (hP : ∀ q, q < nq → ∀ i, i < n → ∀ j, j < n → HasDerivAt (fun t => P q t (rs i) (rs j)) (P' q i j) z)
    (hpf : PfOK n N2 (slt z) 0 nq rs pfM invM) :
    HasDerivAt (fun t => amplitude n N2 (slt t) w 0 nq rs)
      (∑ q ∈ range nq, w q * ((- ∑ i ∈ range n, ∑ j ∈ range n, entry n invM q i j * P' q i j) * pfM q)) z := by
  unfold amplitude
  simp only [Nat.add_zero]
  refine HasDerivAt.fun_sum (fun q hq => ?_)
  have hq := mem_range.mp hq
  obtain ⟨h1, h2⟩ := hpf q hq
  rw [Nat.add_zero] at h1 h2
  have skew : SkewOn (· < N2) (entry N2 (slt z) q) := by
    constructor
    · intro x y hx hy
      rw [hent z q hq x y hx hy, hent z q hq y x hy hx]
      unfold antisym; ring
    · intro x hx
      rw [hent z q hq x x hx hx]
      unfold antisym; ring
  rw [h1]
  refine (pfOf_deriv ?_ ?_ ?_ h2 (inv_skew_on skew hrs h2)).const_mul (w q)
  · intro i hi j hj
    have e : (fun t => entry N2 (slt t) q (rs i) (rs j)) = fun t => P q t (rs i) (rs j) - P q t (rs j) (rs i) := by
      funext t
      rw [hent t q hq _ _ (hrs i hi) (hrs j hj)]
      rfl
    rw [e]
    exact (hP q hq i hi j hj).sub (hP q hq j hj i hi)
  · intro i j hi hj
    exact skew.neg _ _ (hrs i hi) (hrs j hj)
  · intro i hi
    exact skew.diag _ (hrs i hi)

theorem update_deriv (S : Nat → ℂ) (k m : Nat) (a z : ℂ) :
    HasDerivAt (fun t => Function.update S k t m * a) (if m = k then a else 0) z := by
  by_cases h : m = k
  · subst h
    simp only [Function.update_self, if_true]
    simpa using (hasDerivAt_id z).mul_const a
  · simp only [Function.update_of_ne h, if_neg h]
    exact hasDerivAt_const z _

/-- what the last loops of the derivative routines store -/
theorem diffStore_even {Q : QPPar} {w buf out : Nat → ℂ} {ip : ℂ} {k : Nat} (hk : k < Q.nSlater) :
    diffStore Q w buf ip out (2 * k) = (∑ q ∈ range Q.nFull, w q * buf (q * Q.nSlater + k)) / ip := by
  unfold diffStore
  rw [if_pos (by omega), if_pos (by omega), sumLoop_eq, Nat.mul_div_cancel_left k (by decide)]
  ring

theorem diffStore_odd {Q : QPPar} {w buf out : Nat → ℂ} {ip : ℂ} {k : Nat} (hk : k < Q.nSlater) :
    diffStore Q w buf ip out (2 * k + 1) = Complex.I * diffStore Q w buf ip out (2 * k) := by
  rw [diffStore_even hk]
  unfold diffStore
  rw [if_pos (by omega), if_neg (by omega), sumLoop_eq, show (2 * k + 1) / 2 = k by omega, ← sum_mul]
  ring

/-- the table entries are parameter numbers -/
def OrbOK (Q : QPPar) (M : Nat) : Prop := ∀ x, x < M → ∀ y, y < M → Q.orbIdx x y < Q.nSlater

/-- translations are maps of the lattice -/
def TransOK (Q : QPPar) : Prop := ∀ o m r, r < Q.Nsite → Q.tr o m r < Q.Nsite

section sz
variable {Q : QPPar} {ne : Nat} {cs cc ss S w pfM invM : Nat → ℂ} {idx : Arr} (hOrb : OrbOK Q Q.Nsite) (hTr : TransOK Q)
  (hon : OnSites (2 * ne) Q.Nsite idx)
include hOrb hTr hon

/-- the accumulated buffer, for any order of stores and additions -/
theorem buf_val {tevs : List (Nat × (Nat × Int))} (ht : tevs.Perm ((List.range (Q.nMP * Q.nOpt)).flatMap (tableStores Q (2 * ne) idx)))
    (t0 : Nat → Nat × Int) {evs : List (Nat × ℂ)}
    (hp : evs.Perm ((List.range Q.nFull).flatMap (diffAdds Q ne cs cc ss pfM invM (runStores tevs t0)))) {q k : Nat} (hq : q < Q.nFull)
    (hk : k < Q.nSlater) :
    runAdds evs (fun _ => 0) (q * Q.nSlater + k)
      = (- ∑ i ∈ range (2 * ne), ∑ j ∈ range (2 * ne), entry (2 * ne) invM q i j *
        (if Q.orbIdx (Q.tr (Q.optidx q) (Q.mpidx q) (idx i).toNat) (Q.tr (Q.optidx q) (Q.mpidx q) (idx j).toNat) = k then
          ((Q.orbSgn (Q.tr (Q.optidx q) (Q.mpidx q) (idx i).toNat) (Q.tr (Q.optidx q) (Q.mpidx q) (idx j).toNat)
            * Q.sg (Q.optidx q) (Q.mpidx q) (idx i).toNat * Q.sg (Q.optidx q) (Q.mpidx q) (idx j).toNat : Int) : ℂ)
            * spinCoef (cs (Q.spidx q)) (cc (Q.spidx q)) (ss (Q.spidx q)) (i / ne) (j / ne) else 0)) * pfM q := by
  have tab : ∀ q, q < Q.nFull → ∀ i, i < 2 * ne → ∀ j, j < 2 * ne →
      runStores tevs t0 (q / Q.nSP * (2 * ne) * (2 * ne) + i * (2 * ne) + j)
        = (Q.orbIdx (Q.tr (Q.optidx q) (Q.mpidx q) (idx i).toNat) (Q.tr (Q.optidx q) (Q.mpidx q) (idx j).toNat),
          Q.sg (Q.optidx q) (Q.mpidx q) (idx i).toNat * Q.sg (Q.optidx q) (Q.mpidx q) (idx j).toNat
          * Q.orbSgn (Q.tr (Q.optidx q) (Q.mpidx q) (idx i).toNat) (Q.tr (Q.optidx q) (Q.mpidx q) (idx j).toNat)) := by
    intro q hq i hi j hj
    rw [table_form (V := fun q i j => (Q.orbIdx (Q.tr (q / Q.nMP) (q % Q.nMP) (idx i).toNat) (Q.tr (q / Q.nMP) (q % Q.nMP) (idx j).toNat),
      Q.sg (q / Q.nMP) (q % Q.nMP) (idx i).toNat * Q.sg (q / Q.nMP) (q % Q.nMP) (idx j).toNat
        * Q.orbSgn (Q.tr (q / Q.nMP) (q % Q.nMP) (idx i).toNat) (Q.tr (q / Q.nMP) (q % Q.nMP) (idx j).toNat)))
      (fun _ => rfl) ht t0 (trans_lt hq) hi hj, (trans_decode Q q).1, (trans_decode Q q).2]
  have hT : ∀ i, i < 2 * ne → ∀ q, Q.tr (Q.optidx q) (Q.mpidx q) (idx i).toNat < Q.Nsite := by
    intro i hi q
    have := hon i hi
    exact hTr _ _ _ (by omega)
  rw [runAdds_block (nq := Q.nFull) (n := 2 * ne) (nS := Q.nSlater)
    (ix := fun q i j => (runStores tevs t0 (q / Q.nSP * (2 * ne) * (2 * ne) + i * (2 * ne) + j)).1) (fun q _ => diffAdds_eq Q ne cs cc ss pfM invM (runStores tevs t0) q)
    (fun q hq i hi j hj => by
      beta_reduce
      rw [tab q hq i hi j hj]
      exact hOrb _ (hT i hi q) _ (hT j hj q)) hp hq hk]
  rw [← sum_neg_distrib, sum_mul]
  refine sum_congr rfl (fun i hi => ?_)
  rw [← sum_neg_distrib, sum_mul]
  refine sum_congr rfl (fun j hj => ?_)
  rw [tab q hq i (mem_range.mp hi) j (mem_range.mp hj)]
  simp only []
  split_ifs
  · unfold entry QPPar.spidx
    push_cast
    ring
  · simp

/-- **the reported derivative is the derivative of the amplitude** -/
theorem slaterDiff_deriv {slt : ℂ → Nat → ℂ} {k : Nat} (hk : k < Q.nSlater)
    (hslt : ∀ z, ∃ evs a, evs.Perm ((List.range Q.nFull).flatMap (slaterStores Q cs cc ss (Function.update S k z))) ∧ slt z = runStores evs a)
    (hpf : PfOK (2 * ne) (2 * Q.Nsite) (slt (S k)) 0 Q.nFull (occSz ne Q.Nsite idx) pfM invM)
    {tevs : List (Nat × (Nat × Int))} (ht : tevs.Perm ((List.range (Q.nMP * Q.nOpt)).flatMap (tableStores Q (2 * ne) idx)))
    (t0 : Nat → Nat × Int) {evs : List (Nat × ℂ)}
    (hp : evs.Perm ((List.range Q.nFull).flatMap (diffAdds Q ne cs cc ss pfM invM (runStores tevs t0)))) {ip : ℂ} (hip : ip ≠ 0)
    (out : Nat → ℂ) :
    HasDerivAt (fun z => amplitude (2 * ne) (2 * Q.Nsite) (slt z) w 0 Q.nFull (occSz ne Q.Nsite idx))
      (diffStore Q w (runAdds evs (fun _ => 0)) ip out (2 * k) * ip) (S k) := by
  have hrs : ∀ i, i < 2 * ne → occSz ne Q.Nsite idx i < 2 * Q.Nsite := by
    intro i hi
    have := hon i hi
    unfold occSz
    split_ifs <;> omega
  have hsite : ∀ i, i < 2 * ne → occSz ne Q.Nsite idx i % Q.Nsite = (idx i).toNat ∧ occSz ne Q.Nsite idx i / Q.Nsite = i / ne := by
    intro i hi
    have := hon i hi
    unfold occSz
    split_ifs with h
    · rw [(site_up (r := (idx i).toNat) (N := Q.Nsite) (by omega)).1, (site_up (r := (idx i).toNat) (N := Q.Nsite) (by omega)).2,
        Nat.div_eq_of_lt h]
      exact ⟨rfl, rfl⟩
    · rw [(site_dn (r := (idx i).toNat) (N := Q.Nsite) (by omega)).1, (site_dn (r := (idx i).toNat) (N := Q.Nsite) (by omega)).2]
      have e : i = (i - ne) + ne := by omega
      rw [e]
      exact ⟨rfl, (site_dn (r := i - ne) (N := ne) (by omega)).2.symm⟩
  have d := amp_deriv (w := w) (P := fun q z => pairP Q cs cc ss (Function.update S k z) q)
    (P' := fun q i j => (if Q.orbIdx (Q.tr (Q.optidx q) (Q.mpidx q) (idx i).toNat) (Q.tr (Q.optidx q) (Q.mpidx q) (idx j).toNat) = k then
          ((Q.orbSgn (Q.tr (Q.optidx q) (Q.mpidx q) (idx i).toNat) (Q.tr (Q.optidx q) (Q.mpidx q) (idx j).toNat)
            * Q.sg (Q.optidx q) (Q.mpidx q) (idx i).toNat * Q.sg (Q.optidx q) (Q.mpidx q) (idx j).toNat : Int) : ℂ)
            * spinCoef (cs (Q.spidx q)) (cc (Q.spidx q)) (ss (Q.spidx q)) (i / ne) (j / ne) else 0)) (z := S k) hrs
    (fun z q hq x y hx hy => by
      obtain ⟨evs, a, h1, h2⟩ := hslt z
      rw [h2]
      exact slater_entry Q cs cc ss _ h1 a hq hx hy)
    (fun q hq i hi j hj => by
      unfold pairP translated
      rw [(hsite i hi).1, (hsite i hi).2, (hsite j hj).1, (hsite j hj).2]
      have := update_deriv S k (Q.orbIdx (Q.tr (Q.optidx q) (Q.mpidx q) (idx i).toNat) (Q.tr (Q.optidx q) (Q.mpidx q) (idx j).toNat))
        (((Q.orbSgn (Q.tr (Q.optidx q) (Q.mpidx q) (idx i).toNat) (Q.tr (Q.optidx q) (Q.mpidx q) (idx j).toNat)
            * Q.sg (Q.optidx q) (Q.mpidx q) (idx i).toNat * Q.sg (Q.optidx q) (Q.mpidx q) (idx j).toNat : Int) : ℂ)
            * spinCoef (cs (Q.spidx q)) (cc (Q.spidx q)) (ss (Q.spidx q)) (i / ne) (j / ne)) (S k)
      simp only [← mul_assoc] at this ⊢
      exact this) hpf
  refine d.congr_deriv ?_
  rw [diffStore_even hk, div_mul_cancel₀ _ hip]
  refine sum_congr rfl (fun q hq => ?_)
  rw [buf_val hOrb hTr hon ht t0 hp (mem_range.mp hq) hk]

end sz

section fsz
variable {Q : QPPar} {n : Nat} {S w pfM invM : Nat → ℂ} {idx spn : Arr} (hOrb : OrbOK Q (2 * Q.Nsite)) (hTr : TransOK Q)
  (hon : OnSites n Q.Nsite idx) (hsp : Spins n spn)
include hOrb hTr hon hsp

/-- orbital of electron `i` after translation `q` -/
def trF (Q : QPPar) (idx spn : Arr) (q i : Nat) : Nat := Q.tr (Q.optidx q) (Q.mpidx q) (idx i).toNat + (spn i).toNat * Q.Nsite

theorem buf_valF {tevs : List (Nat × (Nat × Int))} (ht : tevs.Perm ((List.range (Q.nMP * Q.nOpt)).flatMap (tableStoresF Q n idx spn)))
    (t0 : Nat → Nat × Int) {evs : List (Nat × ℂ)}
    (hp : evs.Perm ((List.range Q.nFull).flatMap (diffAddsF Q n pfM invM (runStores tevs t0)))) {q k : Nat} (hq : q < Q.nFull)
    (hk : k < Q.nSlater) :
    runAdds evs (fun _ => 0) (q * Q.nSlater + k)
      = (- ∑ i ∈ range n, ∑ j ∈ range n, entry n invM q i j *
        (if Q.orbIdx (trF Q idx spn q i) (trF Q idx spn q j) = k then
          ((Q.orbSgn (trF Q idx spn q i) (trF Q idx spn q j)
            * Q.sg (Q.optidx q) (Q.mpidx q) (idx i).toNat * Q.sg (Q.optidx q) (Q.mpidx q) (idx j).toNat : Int) : ℂ) else 0)) * pfM q := by
  have tab : ∀ q, q < Q.nFull → ∀ i, i < n → ∀ j, j < n →
      runStores tevs t0 (q / Q.nSP * n * n + i * n + j)
        = (Q.orbIdx (trF Q idx spn q i) (trF Q idx spn q j),
          Q.sg (Q.optidx q) (Q.mpidx q) (idx i).toNat * Q.sg (Q.optidx q) (Q.mpidx q) (idx j).toNat
          * Q.orbSgn (trF Q idx spn q i) (trF Q idx spn q j)) := by
    intro q hq i hi j hj
    unfold trF
    rw [table_form (V := fun q i j => (Q.orbIdx (Q.tr (q / Q.nMP) (q % Q.nMP) (idx i).toNat + (spn i).toNat * Q.Nsite)
        (Q.tr (q / Q.nMP) (q % Q.nMP) (idx j).toNat + (spn j).toNat * Q.Nsite),
      Q.sg (q / Q.nMP) (q % Q.nMP) (idx i).toNat * Q.sg (q / Q.nMP) (q % Q.nMP) (idx j).toNat
        * Q.orbSgn (Q.tr (q / Q.nMP) (q % Q.nMP) (idx i).toNat + (spn i).toNat * Q.Nsite)
          (Q.tr (q / Q.nMP) (q % Q.nMP) (idx j).toNat + (spn j).toNat * Q.Nsite)))
      (fun _ => rfl) ht t0 (trans_lt hq) hi hj, (trans_decode Q q).1, (trans_decode Q q).2]
  have hT : ∀ i, i < n → ∀ q, trF Q idx spn q i < 2 * Q.Nsite := by
    intro i hi q
    have h1 := hon i hi
    have := hTr (Q.optidx q) (Q.mpidx q) (idx i).toNat (by omega)
    unfold trF
    rcases hsp i hi with e | e <;> rw [e]
    · rw [show (0 : Int).toNat = 0 from rfl]; omega
    · rw [show (1 : Int).toNat = 1 from rfl]; omega
  rw [runAdds_block (nq := Q.nFull) (n := n) (nS := Q.nSlater)
    (ix := fun q i j => (runStores tevs t0 (q / Q.nSP * n * n + i * n + j)).1) (fun q _ => rfl)
    (fun q hq i hi j hj => by
      beta_reduce
      rw [tab q hq i hi j hj]
      exact hOrb _ (hT i hi q) _ (hT j hj q)) hp hq hk]
  rw [← sum_neg_distrib, sum_mul]
  refine sum_congr rfl (fun i hi => ?_)
  rw [← sum_neg_distrib, sum_mul]
  refine sum_congr rfl (fun j hj => ?_)
  simp only [tab q hq i (mem_range.mp hi) j (mem_range.mp hj)]
  split_ifs
  · unfold entry
    push_cast
    ring
  · simp

theorem slaterDiffF_deriv {slt : ℂ → Nat → ℂ} {k : Nat} (hk : k < Q.nSlater)
    (hslt : ∀ z, ∃ evs a, evs.Perm ((List.range Q.nFull).flatMap (slaterStoresF Q (Function.update S k z))) ∧ slt z = runStores evs a)
    (hpf : PfOK n (2 * Q.Nsite) (slt (S k)) 0 Q.nFull (occF Q.Nsite idx spn) pfM invM)
    {tevs : List (Nat × (Nat × Int))} (ht : tevs.Perm ((List.range (Q.nMP * Q.nOpt)).flatMap (tableStoresF Q n idx spn)))
    (t0 : Nat → Nat × Int) {evs : List (Nat × ℂ)}
    (hp : evs.Perm ((List.range Q.nFull).flatMap (diffAddsF Q n pfM invM (runStores tevs t0)))) {ip : ℂ} (hip : ip ≠ 0)
    (out : Nat → ℂ) :
    HasDerivAt (fun z => amplitude n (2 * Q.Nsite) (slt z) w 0 Q.nFull (occF Q.Nsite idx spn))
      (diffStore Q w (runAdds evs (fun _ => 0)) ip out (2 * k) * ip) (S k) := by
  have hrs : ∀ i, i < n → occF Q.Nsite idx spn i < 2 * Q.Nsite := by
    intro i hi
    have := hon i hi
    unfold occF
    split_ifs <;> omega
  have hsite : ∀ i, i < n → occF Q.Nsite idx spn i % Q.Nsite = (idx i).toNat ∧ occF Q.Nsite idx spn i / Q.Nsite = (spn i).toNat := by
    intro i hi
    have := hon i hi
    unfold occF
    rcases hsp i hi with e | e
    · rw [if_pos e, e]
      exact site_up (r := (idx i).toNat) (N := Q.Nsite) (by omega)
    · rw [if_neg (by rw [e]; decide), e]
      exact site_dn (r := (idx i).toNat) (N := Q.Nsite) (by omega)
  have d := amp_deriv (w := w) (P := fun q z => pairF Q (Function.update S k z) q)
    (P' := fun q i j => (if Q.orbIdx (trF Q idx spn q i) (trF Q idx spn q j) = k then
          ((Q.orbSgn (trF Q idx spn q i) (trF Q idx spn q j)
            * Q.sg (Q.optidx q) (Q.mpidx q) (idx i).toNat * Q.sg (Q.optidx q) (Q.mpidx q) (idx j).toNat : Int) : ℂ) else 0)) (z := S k) hrs
    (fun z q hq x y hx hy => by
      obtain ⟨evs, a, h1, h2⟩ := hslt z
      rw [h2]
      exact slaterF_entry Q _ h1 a hq hx hy)
    (fun q hq i hi j hj => by
      unfold pairF
      rw [(hsite i hi).1, (hsite i hi).2, (hsite j hj).1, (hsite j hj).2]
      exact update_deriv S k (Q.orbIdx (trF Q idx spn q i) (trF Q idx spn q j)) _ (S k)) hpf
  refine d.congr_deriv ?_
  rw [diffStore_even hk, div_mul_cancel₀ _ hip]
  refine sum_congr rfl (fun q hq => ?_)
  rw [buf_valF hOrb hTr hon hsp ht t0 hp (mem_range.mp hq) hk]

end fsz

end MVMC
