import Verif.Spec.TransCorr
import Verif.Proof.Translation

/-! Invariance of the correlation factors. -/
namespace MVMC
open MVMC.Spec Finset

theorem prod_perm {N : Nat} {T : Nat → Nat} (hT : SitePerm N T) {M : Type} [CommMonoid M] (f : Nat → M) :
    ∏ r ∈ range N, f (T r) = ∏ r ∈ range N, f r := sum_perm (M := Additive M) hT f

section counts
variable {N : Nat} {T : Nat → Nat} (hT : SitePerm N T) {n0 n1 m0 m1 : Nat → Int} (h0 : ∀ r < N, m0 (T r) = n0 r) (h1 : ∀ r < N, m1 (T r) = n1 r)
include hT h0 h1

theorem gutz_moved {gIdx : Nat → Nat} (hg : ∀ r < N, gIdx (T r) = gIdx r) (g : Nat) : gutzCount N gIdx m0 m1 g = gutzCount N gIdx n0 n1 g := by
  unfold gutzCount
  rw [← sum_perm hT]
  refine Finset.sum_congr rfl fun r hr => ?_
  have hr := mem_range.mp hr
  rw [hg r hr, h0 r hr, h1 r hr]

omit hT h0 h1 in
/-- twice the sum over ordered pairs is the sum over pairs of different sites -/
theorem jast_twice (N : Nat) {jIdx : Nat → Nat → Nat} (hs : ∀ i < N, ∀ j < N, i ≠ j → jIdx i j = jIdx j i) (n0 n1 : Nat → Int) (v : Nat) :
    2 * jastCount N jIdx n0 n1 v = ∑ i ∈ range N, ∑ j ∈ range N, if i ≠ j ∧ jIdx i j = v then (n0 i + n1 i - 1) * (n0 j + n1 j - 1) else 0 := by
  have e : jastCount N jIdx n0 n1 v = ∑ i ∈ range N, ∑ j ∈ range N, if j < i ∧ jIdx i j = v then (n0 i + n1 i - 1) * (n0 j + n1 j - 1) else 0 := by
    unfold jastCount
    rw [Finset.sum_comm]
    refine Finset.sum_congr rfl fun j hj => Finset.sum_congr rfl fun i hi => ?_
    by_cases hij : i < j
    · rw [hs i (mem_range.mp hi) j (mem_range.mp hj) (by omega), mul_comm]
    · rw [if_neg (fun h => hij h.1), if_neg (fun h => hij h.1)]
  rw [two_mul]
  nth_rewrite 2 [e]
  unfold jastCount
  rw [← Finset.sum_add_distrib]
  refine Finset.sum_congr rfl fun i _ => ?_
  rw [← Finset.sum_add_distrib]
  refine Finset.sum_congr rfl fun j _ => ?_
  rcases Nat.lt_trichotomy i j with h | h | h
  · simp only [h, true_and, show i ≠ j by omega, show ¬ j < i by omega, false_and, if_false, ne_eq, not_false_eq_true, add_zero]
  · subst h; simp
  · simp only [h, true_and, show i ≠ j by omega, show ¬ i < j by omega, false_and, if_false, ne_eq, not_false_eq_true, zero_add]

theorem jast_moved {jIdx : Nat → Nat → Nat} (hj : ∀ i < N, ∀ j < N, i ≠ j → jIdx (T i) (T j) = jIdx i j)
    (hs : ∀ i < N, ∀ j < N, i ≠ j → jIdx i j = jIdx j i) (v : Nat) : jastCount N jIdx m0 m1 v = jastCount N jIdx n0 n1 v := by
  have : 2 * jastCount N jIdx m0 m1 v = 2 * jastCount N jIdx n0 n1 v := by
    rw [jast_twice N hs, jast_twice N hs, ← sum_perm hT]
    refine Finset.sum_congr rfl fun i hi => ?_
    rw [← sum_perm hT]
    refine Finset.sum_congr rfl fun j hj' => ?_
    have hi := mem_range.mp hi
    have hj' := mem_range.mp hj'
    rw [h0 i hi, h1 i hi, h0 j hj', h1 j hj']
    by_cases e : i = j
    · subst e; simp
    · rw [hj i hi j hj' e]
      simp only [ne_eq, e, not_false_eq_true, true_and, show ¬ T i = T j from fun h => e (hT.inj i hi j hj' h)]
  omega

theorem dh_moved {nb : Nat → List Nat} (hlt : ∀ r < N, ∀ x ∈ nb r, x < N) (hnb : ∀ r < N, (nb (T r)).Perm ((nb r).map T)) (d : Bool) (m : Nat) :
    dhCount N nb m0 m1 d m = dhCount N nb n0 n1 d m := by
  unfold dhCount
  congr 1
  have hD : ∀ r < N, (isDoublon m0 m1 (T r) ↔ isDoublon n0 n1 r) := fun r hr => by unfold isDoublon; rw [h0 r hr, h1 r hr]
  have hH : ∀ r < N, (isHolon m0 m1 (T r) ↔ isHolon n0 n1 r) := fun r hr => by unfold isHolon; rw [h0 r hr, h1 r hr]
  have hc : ∀ (p p' : Nat → Prop) [DecidablePred p] [DecidablePred p'], (∀ r < N, (p' (T r) ↔ p r)) → ∀ r < N,
      ((nb (T r)).filter (fun q => p' q)).length = ((nb r).filter (fun q => p q)).length := by
    intro p p' _ _ hp r hr
    rw [((hnb r hr).filter _).length_eq, List.filter_map, List.length_map]
    congr 1
    refine List.filter_congr fun x hx => ?_
    simp only [Function.comp, hp x (hlt r hr x hx)]
  refine card_perm hT _ _ fun r hr => ?_
  cases d
  · simp only [Bool.false_eq_true, if_false]
    rw [hH r hr, hc _ _ hD r hr]
  · simp only [if_true]
    rw [hD r hr, hc _ _ hH r hr]

end counts

theorem projSpec_moved {q : ProjPar} {T : Nat → Nat} (hT : SitePerm q.Nsite T) (hs : ProjSym q T) (Proj : Nat → ℂ) {n m : Nat → Int}
    (h : ∀ x < 2 * q.Nsite, m (moveOrb q.Nsite T x) = n x) : projSpec q Proj m = projSpec q Proj n := by
  have h0 : ∀ r < q.Nsite, m (T r) = n r := fun r hr => by rw [← h r (by omega), (moveOrb_up hr).1]
  have h1 : ∀ r < q.Nsite, m (T r + q.Nsite) = n (r + q.Nsite) := fun r hr => by rw [← h (r + q.Nsite) (by omega), (moveOrb_up hr).2]
  unfold projSpec logCorr
  congr 1
  congr 1
  · congr 1
    · congr 1
      · exact Finset.sum_congr rfl fun i _ => by rw [gutz_moved hT h0 (m1 := fun r => m (r + q.Nsite)) h1 hs.g]
      · exact Finset.sum_congr rfl fun i _ => by rw [jast_moved hT h0 (m1 := fun r => m (r + q.Nsite)) h1 hs.j hs.jSymm]
    · refine Finset.sum_congr rfl fun k _ => Finset.sum_congr rfl fun d _ => Finset.sum_congr rfl fun t ht => ?_
      have ht := mem_range.mp ht
      rw [dh_moved hT h0 (m1 := fun r => m (r + q.Nsite)) h1]
      · intro r hr x hx
        simp only [List.mem_cons, List.not_mem_nil, or_false] at hx
        rcases hx with rfl | rfl <;> exact hs.d2Lt t ht _ (by omega)
      · exact fun r hr => hs.d2 t ht r hr
  · refine Finset.sum_congr rfl fun k _ => Finset.sum_congr rfl fun d _ => Finset.sum_congr rfl fun t ht => ?_
    have ht := mem_range.mp ht
    rw [dh_moved hT h0 (m1 := fun r => m (r + q.Nsite)) h1]
    · intro r hr x hx
      simp only [List.mem_cons, List.not_mem_nil, or_false] at hx
      rcases hx with rfl | rfl | rfl | rfl <;> exact hs.d4Lt t ht _ (by omega)
    · exact fun r hr => hs.d4 t ht r hr

theorem class_moved {n : Nat} {T : Nat → Nat} (hT : SitePerm n T) {cls : Nat → Nat} (hc : ∀ r < n, cls (T r) = cls r) {x y : Nat → ℂ}
    (h : ∀ r < n, y (T r) = x r) (c : Nat) : classSum n cls y c = classSum n cls x c := by
  unfold classSum
  rw [← sum_perm hT]
  exact Finset.sum_congr rfl fun r hr => by rw [hc r (mem_range.mp hr), h r (mem_range.mp hr)]

theorem hidden_moved {n hN : Nat} {T : Nat → Nat} (hT : SitePerm n T) {bias : Nat → Nat} {coup : Nat → Nat → Nat} {π : Nat → Nat}
    (hs : HiddenSym n hN T bias coup π) {x y : Nat → ℂ} (h : ∀ r < n, y (T r) = x r) (b : Nat → ℂ) (W : Nat → ℂ) :
    ∏ k ∈ range hN, Complex.cosh (hiddenInput (b (bias k)) n (fun r => W (coup r k)) y) =
      ∏ k ∈ range hN, Complex.cosh (hiddenInput (b (bias k)) n (fun r => W (coup r k)) x) := by
  rw [← prod_perm hs.perm]
  refine Finset.prod_congr rfl fun k hk => ?_
  have hk := mem_range.mp hk
  congr 1
  unfold hiddenInput
  rw [hs.bias k hk, ← sum_perm hT]
  congr 1
  exact Finset.sum_congr rfl fun r hr => by
    show W (coup (T r) (π k)) * _ = W (coup r k) * _
    rw [hs.coup k hk r (mem_range.mp hr), h r (mem_range.mp hr)]

theorem rbmSpec_moved {p : RBMPar ℂ} {T : Nat → Nat} (hT : SitePerm p.Nsite T) (hs : RBMSym p T) {n m : Nat → Int}
    (h : ∀ x < 2 * p.Nsite, m (moveOrb p.Nsite T x) = n x) : rbmSpec p m = rbmSpec p n := by
  have h0 : ∀ r < p.Nsite, m (T r) = n r := fun r hr => by rw [← h r (by omega), (moveOrb_up hr).1]
  have h1 : ∀ r < p.Nsite, m (T r + p.Nsite) = n (r + p.Nsite) := fun r hr => by rw [← h (r + p.Nsite) (by omega), (moveOrb_up hr).2]
  have hc : ∀ r < p.Nsite, (chargeVar p.Nsite m (T r) : ℂ) = chargeVar p.Nsite n r := fun r hr => by unfold chargeVar; rw [h0 r hr, h1 r hr]
  have hsp : ∀ r < p.Nsite, (spinVar p.Nsite m (T r) : ℂ) = spinVar p.Nsite n r := fun r hr => by unfold spinVar; rw [h0 r hr, h1 r hr]
  have ho : ∀ x < 2 * p.Nsite, (orbitalVar m (moveOrb p.Nsite T x) : ℂ) = orbitalVar n x := fun x hx => by unfold orbitalVar; rw [h x hx]
  have hT2 := sitePerm_double hT
  obtain ⟨πc, c1⟩ := hs.hc
  obtain ⟨πs, c2⟩ := hs.hs
  obtain ⟨πg, c3⟩ := hs.hg
  unfold rbmSpec rbmFactor
  congr 1
  · congr 1
    congr 1
    · congr 1
      · exact Finset.sum_congr rfl fun c _ => by rw [class_moved hT hs.c hc]
      · exact Finset.sum_congr rfl fun c _ => by rw [class_moved hT hs.s hsp]
    · exact Finset.sum_congr rfl fun c _ => by rw [class_moved hT2 hs.g ho]
  · congr 1
    · congr 1
      · exact hidden_moved hT c1 hc (fun k => if p.nCH > 0 then p.hidden k else 0) (fun k => if p.nCX > 0 then p.physHidden k else 0)
      · exact hidden_moved hT c2 hsp (fun k => if p.nSH > 0 then p.hidden (k + p.nCH) else 0) (fun k => if p.nSX > 0 then p.physHidden (k + p.nCX) else 0)
    · exact hidden_moved hT2 c3 ho (fun k => if p.nGH > 0 then p.hidden (k + (p.nCH + p.nSH)) else 0)
        (fun k => if p.nGX > 0 then p.physHidden (k + (p.nCX + p.nSX)) else 0)

/-- the whole factor -/
theorem corr_moved {g : GrnEnv} {T : Nat → Nat} (hq : g.q.Nsite = g.p.Nsite) (hr : g.flagRBM = true → g.rbm.Nsite = g.p.Nsite)
    (hT : SitePerm g.p.Nsite T) (hs : ProjSym g.q T) (hs' : g.flagRBM = true → RBMSym g.rbm T) {l : List Nat} (hl : OnLattice g.p.Nsite l) :
    corrSpec g (occupation (moved g.p.Nsite T l)) = corrSpec g (occupation l) := by
  have ho : ∀ x < 2 * g.p.Nsite, occupation (moved g.p.Nsite T l) (moveOrb g.p.Nsite T x) = occupation l x :=
    fun x hx => occupation_moved hT hl hx
  unfold corrSpec
  rw [projSpec_moved (hq ▸ hT) hs g.Proj (n := occupation l) (m := occupation (moved g.p.Nsite T l)) (by rw [hq]; exact ho)]
  split
  · rename_i hf
    rw [rbmSpec_moved (by rw [hr hf]; exact hT) (hs' hf) (n := occupation l) (m := occupation (moved g.p.Nsite T l)) (by rw [hr hf]; exact ho)]
  · rfl

end MVMC
