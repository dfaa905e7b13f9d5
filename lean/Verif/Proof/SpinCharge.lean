import Verif.Proof.SpinInt
import Verif.Spec.TrialState

/-! A factor that depends only on the number of electrons at each site commutes with the total spin. -/
namespace MVMC
open MVMC.Spec

/-- occupation numbers are zero or one, and the site numbers agree -/
def SameCharge (N : Nat) (n m : Nat → Int) : Prop :=
  (∀ i < N, n i + n (i + N) = m i + m (i + N)) ∧ (∀ x < 2 * N, n x = 0 ∨ n x = 1) ∧ ∀ x < 2 * N, m x = 0 ∨ m x = 1

/-- the factor depends only on the number of electrons at each site -/
def ChargeOnly (N : Nat) (C : (Nat → Int) → ℂ) : Prop := ∀ n m, SameCharge N n m → C n = C m

theorem occupation_bin (l : List Nat) (x : Nat) : occupation l x = 0 ∨ occupation l x = 1 := by
  unfold occupation; split_ifs <;> simp

/-- the site of an orbital -/
def siteOf (N x : Nat) : Nat := if x < N then x else x - N

/-- an operator product that keeps the number of electrons at each site -/
def KeepsCharge (N : Nat) (ops : List Op) : Prop :=
  ∀ σ l p, IsConfig N l → actAll ops (some (σ, l)) = some p → IsConfig N p.2 ∧
    ∀ i < N, occupation p.2 i + occupation p.2 (i + N) = occupation l i + occupation l (i + N)

theorem KeepsCharge.append {N : Nat} {a b : List Op} (ha : KeepsCharge N a) (hb : KeepsCharge N b) : KeepsCharge N (a ++ b) := by
  intro σ l p hl hp
  have hp : actAll a (actAll b (some (σ, l))) = some p := by rw [← hp]; unfold actAll; rw [List.foldr_append]
  rcases hk : actAll b (some (σ, l)) with _ | ⟨τ, m⟩
  · exfalso
    rw [hk] at hp
    have : ∀ ops : List Op, actAll ops none = none := by
      intro ops; induction ops with
      | nil => rfl
      | cons o ops ih => show o.act (actAll ops none) = none; rw [ih]; cases o <;> rfl
    rw [this] at hp; cases hp
  · obtain ⟨h1, h2⟩ := hb σ l _ hl hk
    rw [hk] at hp
    obtain ⟨h3, h4⟩ := ha τ m p h1 hp
    exact ⟨h3, fun i hi => (h4 i hi).trans (h2 i hi)⟩

theorem keeps_pair {N a b : Nat} (ha : a < 2 * N) (hb : b < 2 * N) (h : siteOf N a = siteOf N b) : KeepsCharge N [.cr a, .an b] := by
  intro σ l p hl hp
  simp only [actAll, List.foldr, Op.act] at hp
  by_cases h1 : b ∈ l
  · rw [if_pos h1] at hp
    simp only at hp
    split_ifs at hp with h2
    have e := Option.some.inj hp
    rw [← e]
    have hm : ∀ x, x ∈ a :: l.erase b ↔ x = a ∨ (x ≠ b ∧ x ∈ l) := fun x => by
      rw [List.mem_cons, hl.1.mem_erase_iff]
    have hab : a ∉ l ∨ a = b := by
      by_contra hc; push Not at hc
      exact h2 (hl.1.mem_erase_iff.mpr ⟨hc.2, hc.1⟩)
    refine ⟨⟨List.nodup_cons.mpr ⟨h2, hl.1.erase b⟩, fun y hy => ?_⟩, fun i hi => ?_⟩
    · rcases (hm y).mp hy with rfl | h'
      exacts [ha, hl.2 y h'.2]
    · simp only [occupation, hm]
      have hs : (a = b) ∨ (a = b + N ∧ b < N) ∨ (b = a + N ∧ a < N) := by
        unfold siteOf at h; split_ifs at h <;> omega
      rcases hs with rfl | ⟨rfl, hbN⟩ | ⟨rfl, haN⟩
      · have e1 : ∀ x, (x = a ∨ (x ≠ a ∧ x ∈ l)) ↔ x ∈ l := fun x => by
          by_cases hx : x = a
          · subst hx; simp [h1]
          · simp [hx]
        simp only [e1]
      · have hN : b + N ∉ l := by rcases hab with h | h; exact h; omega
        by_cases hib : i = b
        · subst hib
          rw [if_neg (by push Not; exact ⟨by omega, fun h => absurd rfl h⟩), if_pos (Or.inl rfl), if_pos h1, if_neg hN]; rfl
        · rw [if_congr (show (i = b + N ∨ i ≠ b ∧ i ∈ l) ↔ i ∈ l by constructor <;> intro h; (rcases h with h | h; omega; exact h.2); exact Or.inr ⟨hib, h⟩) rfl rfl,
            if_congr (show (i + N = b + N ∨ i + N ≠ b ∧ i + N ∈ l) ↔ i + N ∈ l by
              constructor <;> intro h; (rcases h with h | h; omega; exact h.2); exact Or.inr ⟨by omega, h⟩) rfl rfl]
      · have hN : a ∉ l := by rcases hab with h | h; exact h; omega
        by_cases hia : i = a
        · subst hia
          rw [if_pos (Or.inl rfl), if_neg (by push Not; exact ⟨by omega, fun h => absurd rfl h⟩), if_neg hN, if_pos h1]; rfl
        · rw [if_congr (show (i = a ∨ i ≠ a + N ∧ i ∈ l) ↔ i ∈ l by constructor <;> intro h; (rcases h with h | h; omega; exact h.2); exact Or.inr ⟨by omega, h⟩) rfl rfl,
            if_congr (show (i + N = a ∨ i + N ≠ a + N ∧ i + N ∈ l) ↔ i + N ∈ l by
              constructor <;> intro h; (rcases h with h | h; omega; exact h.2); exact Or.inr ⟨by omega, h⟩) rfl rfl]
  · rw [if_neg h1] at hp; simp at hp

theorem keeps_spinSq (N : Nat) : ∀ t ∈ spinSq N, KeepsCharge N t.2 := by
  have hz : ∀ t ∈ spinZ N, KeepsCharge N t.2 := by
    intro t ht
    rcases List.mem_append.mp ht with ht | ht <;>
    · obtain ⟨i, hi, rfl⟩ := List.mem_map.mp ht
      have hi := List.mem_range.mp hi
      exact keeps_pair (by omega) (by omega) rfl
  have hr : ∀ t ∈ spinRaise N, KeepsCharge N t.2 := by
    intro t ht
    obtain ⟨i, hi, rfl⟩ := List.mem_map.mp ht
    have hi := List.mem_range.mp hi
    exact keeps_pair (by omega) (by omega) (by unfold siteOf; split_ifs <;> omega)
  have hlo : ∀ t ∈ spinLower N, KeepsCharge N t.2 := by
    intro t ht
    obtain ⟨i, hi, rfl⟩ := List.mem_map.mp ht
    have hi := List.mem_range.mp hi
    exact keeps_pair (by omega) (by omega) (by unfold siteOf; split_ifs <;> omega)
  have hp : ∀ A B : List (ℂ × List Op), (∀ t ∈ A, KeepsCharge N t.2) → (∀ t ∈ B, KeepsCharge N t.2) → ∀ t ∈ hamProd A B, KeepsCharge N t.2 := by
    intro A B hA hB t ht
    unfold hamProd at ht
    obtain ⟨a, ha, ht⟩ := List.mem_flatMap.mp ht
    obtain ⟨b, hb, rfl⟩ := List.mem_map.mp ht
    exact (hA a ha).append (hB b hb)
  intro t ht
  unfold spinSq at ht
  rcases List.mem_append.mp ht with ht | ht
  · rcases List.mem_append.mp ht with ht | ht
    · exact hp _ _ hlo hr t ht
    · exact hp _ _ hz hz t ht
  · exact hz t ht

/-- a charge-only factor comes out of the total spin -/
theorem apply_charge {N : Nat} {C : (Nat → Int) → ℂ} (hC : ChargeOnly N C) (F : List Nat → ℂ) {l : List Nat} (hl : IsConfig N l) :
    applyAdj (spinSq N) (fun m => C (occupation m) * F m) l = C (occupation l) * applyAdj (spinSq N) F l := by
  unfold applyAdj
  rw [← List.sum_map_mul_left]
  congr 1
  refine List.map_congr_left fun t ht => ?_
  rcases hk : actAll t.2 (some (1, l)) with _ | ⟨σ, m⟩
  · simp [overlap]
  · obtain ⟨_, h2⟩ := keeps_spinSq N t ht 1 l _ hl hk
    simp only [overlap]
    rw [hC (occupation m) (occupation l) ⟨h2, fun x _ => occupation_bin m x, fun x _ => occupation_bin l x⟩]
    ring

/-! ### the correlation factors -/

theorem bin_prod {a b c d : Int} (h : a + b = c + d) (ha : a = 0 ∨ a = 1) (hb : b = 0 ∨ b = 1) (hc : c = 0 ∨ c = 1) (hd : d = 0 ∨ d = 1) :
    a * b = c * d ∧ ((a = 1 ∧ b = 1) ↔ (c = 1 ∧ d = 1)) ∧ ((a = 0 ∧ b = 0) ↔ (c = 0 ∧ d = 0)) := by
  rcases ha with rfl | rfl <;> rcases hb with rfl | rfl <;> rcases hc with rfl | rfl <;> rcases hd with rfl | rfl <;> simp_all

section proj
variable {N : Nat} {n m : Nat → Int} (h : SameCharge N n m)
include h

theorem same_site {i : Nat} (hi : i < N) : n i * n (i + N) = m i * m (i + N) ∧
    (isDoublon n (fun r => n (r + N)) i ↔ isDoublon m (fun r => m (r + N)) i) ∧
    (isHolon n (fun r => n (r + N)) i ↔ isHolon m (fun r => m (r + N)) i) :=
  bin_prod (h.1 i hi) (h.2.1 _ (by omega)) (h.2.1 _ (by omega)) (h.2.2 _ (by omega)) (h.2.2 _ (by omega))

theorem dhCount_same {nb : Nat → List Nat} (hnb : ∀ r < N, ∀ x ∈ nb r, x < N) (d : Bool) (k : Nat) :
    dhCount N nb n (fun r => n (r + N)) d k = dhCount N nb m (fun r => m (r + N)) d k := by
  unfold dhCount
  congr 2
  refine Finset.filter_congr fun r hr => ?_
  have hr := Finset.mem_range.mp hr
  have e1 : (nb r).filter (fun q => isHolon n (fun r => n (r + N)) q) = (nb r).filter (fun q => isHolon m (fun r => m (r + N)) q) :=
    List.filter_congr fun x hx => by simpa using (same_site h (hnb r hr x hx)).2.2
  have e2 : (nb r).filter (fun q => isDoublon n (fun r => n (r + N)) q) = (nb r).filter (fun q => isDoublon m (fun r => m (r + N)) q) :=
    List.filter_congr fun x hx => by simpa using (same_site h (hnb r hr x hx)).2.1
  rw [e1, e2]
  cases d
  · simp only [Bool.false_eq_true, if_false]; rw [(same_site h hr).2.2]
  · simp only [if_true]; rw [(same_site h hr).2.1]

theorem projSpec_same {q : ProjPar} (hq : q.Nsite = N) (ht : TabOK q) (P : Nat → ℂ) : projSpec q P n = projSpec q P m := by
  unfold projSpec logCorr
  subst hq
  congr 1
  congr 1
  · congr 1
    · congr 1
      · refine Finset.sum_congr rfl fun i _ => ?_
        congr 2
        unfold gutzCount
        refine Finset.sum_congr rfl fun r hr => ?_
        rw [(same_site h (Finset.mem_range.mp hr)).1]
      · refine Finset.sum_congr rfl fun i _ => ?_
        congr 2
        unfold jastCount
        refine Finset.sum_congr rfl fun a ha => Finset.sum_congr rfl fun b hb => ?_
        rw [h.1 a (Finset.mem_range.mp ha), h.1 b (Finset.mem_range.mp hb)]
    · refine Finset.sum_congr rfl fun k _ => Finset.sum_congr rfl fun d _ => Finset.sum_congr rfl fun t htt => ?_
      rw [dhCount_same h (fun r hr x hx => ?_)]
      have := ht.d2 t (Finset.mem_range.mp htt)
      simp only [List.mem_cons, List.not_mem_nil, or_false] at hx
      rcases hx with rfl | rfl <;> exact this _ (by omega)
  · refine Finset.sum_congr rfl fun k _ => Finset.sum_congr rfl fun d _ => Finset.sum_congr rfl fun t htt => ?_
    rw [dhCount_same h (fun r hr x hx => ?_)]
    have := ht.d4 t (Finset.mem_range.mp htt)
    simp only [List.mem_cons, List.not_mem_nil, or_false] at hx
    rcases hx with rfl | rfl | rfl | rfl <;> exact this _ (by omega)

theorem rbmSpec_same {p : RBMPar ℂ} (hp : p.Nsite = N) (h0 : p.nSP = 0 ∧ p.nGP = 0 ∧ p.hS = 0 ∧ p.hG = 0) : rbmSpec p n = rbmSpec p m := by
  have hc : ∀ r < p.Nsite, chargeVar (R := ℂ) p.Nsite n r = chargeVar p.Nsite m r := by
    intro r hr
    unfold chargeVar
    have := h.1 r (hp ▸ hr)
    rw [hp]
    exact_mod_cast congrArg (fun z : Int => (z : ℂ) - 1) this
  unfold rbmSpec rbmFactor
  rw [h0.1, h0.2.1, h0.2.2.1, h0.2.2.2]
  simp only [Finset.range_zero, Finset.sum_empty, Finset.prod_empty, add_zero, mul_one]
  congr 1
  · congr 1
    refine Finset.sum_congr rfl fun c _ => ?_
    congr 1
    unfold classSum
    exact Finset.sum_congr rfl fun r hr => by rw [hc r (Finset.mem_range.mp hr)]
  · refine Finset.prod_congr rfl fun k _ => ?_
    unfold hiddenInput
    congr 2
    exact Finset.sum_congr rfl fun r hr => by rw [hc r (Finset.mem_range.mp hr)]

end proj

/-- the Boltzmann machine is absent or couples only to the charges -/
def RbmCharge (N : Nat) (flagRBM : Bool) (p : RBMPar ℂ) : Prop := flagRBM = true → p.Nsite = N ∧ p.nSP = 0 ∧ p.nGP = 0 ∧ p.hS = 0 ∧ p.hG = 0

theorem corrSpec_charge (g : GrnEnv) {N : Nat} (hq : g.q.Nsite = N) (ht : TabOK g.q)
    (hc : RbmCharge N g.flagRBM g.rbm) : ChargeOnly N (corrSpec g) := by
  intro n m h
  unfold corrSpec
  rw [projSpec_same h hq ht]
  by_cases hf : g.flagRBM = true
  · rw [if_pos hf, if_pos hf, rbmSpec_same h (hc hf).1 (hc hf).2]
  · rw [if_neg hf, if_neg hf]

end MVMC
