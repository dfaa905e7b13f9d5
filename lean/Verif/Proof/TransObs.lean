import Verif.Proof.Translation
import Verif.Spec.Slater

/-! Symmetric expectation values. -/
namespace MVMC
open MVMC.Spec Finset

theorem idxOf_map_on {f : Nat → Nat} {x : Nat} : ∀ l : List Nat, (∀ y ∈ l, f y = f x → y = x) → (l.map f).idxOf (f x) = l.idxOf x
  | [], _ => rfl
  | y :: l, h => by
    rw [List.map_cons, List.idxOf_cons, List.idxOf_cons, idxOf_map_on l (fun z hz => h z (List.mem_cons_of_mem _ hz))]
    by_cases e : y = x
    · subst e; simp
    · have e' : ¬ f y = f x := fun c => e (h y List.mem_cons_self c)
      rw [beq_false_of_ne e, beq_false_of_ne e']

theorem erase_map_on {f : Nat → Nat} {x : Nat} : ∀ l : List Nat, (∀ y ∈ l, f y = f x → y = x) → (l.map f).erase (f x) = (l.erase x).map f
  | [], _ => rfl
  | y :: l, h => by
    rw [List.map_cons, List.erase_cons, List.erase_cons, erase_map_on l (fun z hz => h z (List.mem_cons_of_mem _ hz))]
    by_cases e : y = x
    · subst e; simp
    · have e' : ¬ f y = f x := fun c => e (h y List.mem_cons_self c)
      rw [beq_false_of_ne e, beq_false_of_ne e']
      simp

/-- all operators on the lattice -/
def OpsOn (N : Nat) (ops : List Op) : Prop := ∀ o ∈ ops, o.orb < 2 * N

section
variable {N : Nat} {T : Nat → Nat} (hT : SitePerm N T) {σ : Nat → Int} (hσ : ∀ r < N, σ r = 1 ∨ σ r = -1)

include hT in
theorem mem_moved {l : List Nat} (hl : OnLattice N l) {x : Nat} (hx : x < 2 * N) : moveOrb N T x ∈ moved N T l ↔ x ∈ l := by
  unfold moved
  rw [List.mem_map]
  exact ⟨fun ⟨y, hy, e⟩ => moveOrb_inj hT (hl y hy) hx e ▸ hy, fun h => ⟨x, h, rfl⟩⟩

include hT hσ in
theorem act_moved (s : Int) {l : List Nat} (hl : OnLattice N l) {o : Op} (ho : o.orb < 2 * N) :
    (moveOp N T o).act (some (s, moved N T l)) = (o.act (some (s, l))).map (fun k => (k.1, moved N T k.2)) ∧
    ∀ k, o.act (some (s, l)) = some k → OnLattice N k.2 ∧ movedSgn N σ k.2 = movedSgn N σ l * σ (o.orb % N) := by
  cases o with
  | cr x =>
    have hx : x < 2 * N := ho
    constructor
    · show (if moveOrb N T x ∈ moved N T l then none else some (s, moveOrb N T x :: moved N T l)) = _
      by_cases hm : x ∈ l
      · rw [if_pos ((mem_moved hT hl hx).mpr hm), Op.act, if_pos hm]; rfl
      · rw [if_neg (fun h => hm ((mem_moved hT hl hx).mp h)), Op.act, if_neg hm]; rfl
    · intro k hk
      rw [Op.act] at hk
      split at hk
      · cases hk
      · cases hk
        constructor
        · intro y hy
          rcases List.mem_cons.mp hy with rfl | hy
          exacts [hx, hl y hy]
        · show (List.map _ (x :: l)).prod = _
          rw [List.map_cons, List.prod_cons, mul_comm]; rfl
  | an x =>
    have hx : x < 2 * N := ho
    constructor
    · show (if moveOrb N T x ∈ moved N T l then some (s * (-1) ^ (moved N T l).idxOf (moveOrb N T x), (moved N T l).erase (moveOrb N T x)) else none) = _
      by_cases hm : x ∈ l
      · rw [if_pos ((mem_moved hT hl hx).mpr hm), Op.act, if_pos hm]
        have hi : ∀ y ∈ l, moveOrb N T y = moveOrb N T x → y = x := fun y hy e => moveOrb_inj hT (hl y hy) hx e
        unfold moved
        rw [idxOf_map_on l hi, erase_map_on l hi]; rfl
      · rw [if_neg (fun h => hm ((mem_moved hT hl hx).mp h)), Op.act, if_neg hm]; rfl
    · intro k hk
      rw [Op.act] at hk
      split at hk
      · rename_i hm
        cases hk
        refine ⟨fun y hy => hl y (List.mem_of_mem_erase hy), ?_⟩
        have e : movedSgn N σ l = σ (x % N) * movedSgn N σ (l.erase x) := by
          show (List.map _ l).prod = _
          rw [((List.perm_cons_erase hm).map _).prod_eq, List.map_cons, List.prod_cons]; rfl
        have u := unit_sq (hσ (x % N) (Nat.mod_lt _ (by omega)))
        show movedSgn N σ (l.erase x) = movedSgn N σ l * σ (x % N)
        rw [e, mul_comm (σ (x % N)), mul_assoc, u, mul_one]
      · cases hk

include hT hσ in
theorem actAll_moved : ∀ (ops : List Op), OpsOn N ops → ∀ (s : Int) {l : List Nat}, OnLattice N l →
    actAll (ops.map (moveOp N T)) (some (s, moved N T l)) = (actAll ops (some (s, l))).map (fun k => (k.1, moved N T k.2)) ∧
    ∀ k, actAll ops (some (s, l)) = some k → OnLattice N k.2 ∧ movedSgn N σ k.2 = movedSgn N σ l * opsSgn N σ ops
  | [], _, s, l, hl => ⟨rfl, fun k hk => by
      have : some (s, l) = some k := hk
      cases this
      exact ⟨hl, by show _ = _ * 1; rw [mul_one]⟩⟩
  | o :: ops, ho, s, l, hl => by
    obtain ⟨i1, i2⟩ := actAll_moved ops (fun p hp => ho p (List.mem_cons_of_mem _ hp)) s hl
    have e1 : actAll ((o :: ops).map (moveOp N T)) (some (s, moved N T l)) = (moveOp N T o).act (actAll (ops.map (moveOp N T)) (some (s, moved N T l))) := rfl
    have e2 : actAll (o :: ops) (some (s, l)) = o.act (actAll ops (some (s, l))) := rfl
    rw [e1, e2, i1]
    rcases hk : actAll ops (some (s, l)) with _ | k
    · refine ⟨?_, fun k hk => ?_⟩
      · cases o <;> rfl
      · cases o <;> cases hk
    · obtain ⟨j1, j2⟩ := i2 k hk
      obtain ⟨a1, a2⟩ := act_moved hT hσ k.1 j1 (ho o List.mem_cons_self)
      refine ⟨a1, fun k' hk' => ?_⟩
      obtain ⟨b1, b2⟩ := a2 k' hk'
      refine ⟨b1, ?_⟩
      rw [b2, j2]
      show _ = _ * (List.map _ (o :: ops)).prod
      rw [List.map_cons, List.prod_cons, mul_assoc, mul_comm (σ _)]; rfl

include hσ in
theorem movedSgn_unit : ∀ l : List Nat, OnLattice N l → movedSgn N σ l = 1 ∨ movedSgn N σ l = -1
  | [], _ => Or.inl rfl
  | x :: l, h => by
    have e : movedSgn N σ (x :: l) = σ (x % N) * movedSgn N σ l := by unfold movedSgn; rw [List.map_cons, List.prod_cons]
    have hx := h x List.mem_cons_self
    rw [e]
    rcases hσ (x % N) (Nat.mod_lt _ (by omega)) with a | a <;>
      rcases movedSgn_unit l (fun y hy => h y (List.mem_cons_of_mem _ hy)) with b | b <;> rw [a, b] <;> simp

variable {lam : ℂ} {Ψ : List Nat → ℂ} (hlam : lam ≠ 0) (hΨ : SymState N T σ lam Ψ)
include hlam hΨ in
theorem sym_val {l : List Nat} (hl : OnLattice N l) : Ψ (moved N T l) = lam⁻¹ * ((movedSgn N σ l : ℂ) * Ψ l) := by
  rw [← hΨ l hl, inv_mul_cancel_left₀ hlam]

include hT hσ hlam hΨ in
/-- local quantities of moved operators at the moved configuration -/
theorem element_moved {ops : List Op} (ho : OpsOn N ops) {l : List Nat} (hl : OnLattice N l) :
    matrixElement Ψ (ops.map (moveOp N T)) (moved N T l) = (opsSgn N σ ops : ℂ) * matrixElement Ψ ops l := by
  obtain ⟨h1, h2⟩ := actAll_moved hT hσ ops ho 1 hl
  unfold matrixElement
  rw [h1]
  rcases hk : actAll ops (some (1, l)) with _ | k
  · simp [overlap]
  · obtain ⟨b1, b2⟩ := h2 k hk
    have e1 : overlap Ψ (Option.map (fun k : Int × List Nat => (k.1, moved N T k.2)) (some k)) = (k.1 : ℂ) * Ψ (moved N T k.2) := rfl
    have e2 : overlap Ψ (some k) = (k.1 : ℂ) * Ψ k.2 := rfl
    rw [e1, e2, sym_val hlam hΨ b1, sym_val hlam hΨ hl, b2]
    have hu : (movedSgn N σ l : ℂ) ≠ 0 := by
      rcases movedSgn_unit hσ l hl with h | h <;> rw [h] <;> norm_num
    have hi : lam⁻¹ ≠ 0 := inv_ne_zero hlam
    have : (k.1 : ℂ) * (lam⁻¹ * (((movedSgn N σ l * opsSgn N σ ops : Int) : ℂ) * Ψ k.2)) / (lam⁻¹ * ((movedSgn N σ l : ℂ) * Ψ l)) =
        (opsSgn N σ ops : ℂ) * ((k.1 : ℂ) * Ψ k.2 / Ψ l) := by
      push_cast
      by_cases hz : Ψ l = 0
      · rw [hz]; simp
      · field_simp
    rw [this, map_mul, map_intCast]

include hT hσ hlam hΨ in
/-- expectation values -/
theorem average_moved (n : Nat) {ops : List Op} (ho : OpsOn N ops) :
    average (2 * N) n Ψ (matrixElement Ψ (ops.map (moveOp N T))) = (opsSgn N σ ops : ℂ) * average (2 * N) n Ψ (matrixElement Ψ ops) := by
  let g : Fin (2 * N) → Fin (2 * N) := fun x => ⟨moveOrb N T x, (moveOrb_mod hT x.2).2.2⟩
  have hg : Function.Injective g := fun x y h => Fin.ext (moveOrb_inj hT x.2 y.2 (Fin.mk.inj h))
  let e : (Fin n → Fin (2 * N)) ≃ (Fin n → Fin (2 * N)) := Equiv.arrowCongr (Equiv.refl _) (Equiv.ofBijective g (Finite.injective_iff_bijective.mp hg))
  have hl : ∀ f : Fin n → Fin (2 * N), OnLattice N (List.ofFn fun i => (f i : Nat)) := by
    intro f x hx
    obtain ⟨i, rfl⟩ := (List.mem_ofFn' _ _).mp hx
    exact (f i).2
  have he : ∀ f : Fin n → Fin (2 * N), (List.ofFn fun i => ((e f) i : Nat)) = moved N T (List.ofFn fun i => (f i : Nat)) := by
    intro f
    unfold moved
    rw [List.map_ofFn]
    rfl
  have hn : ∀ f : Fin n → Fin (2 * N), Complex.normSq (Ψ (List.ofFn fun i => ((e f) i : Nat))) =
      Complex.normSq lam⁻¹ * Complex.normSq (Ψ (List.ofFn fun i => (f i : Nat))) := by
    intro f
    rw [he, sym_val hlam hΨ (hl f), Complex.normSq_mul, Complex.normSq_mul]
    rcases movedSgn_unit hσ _ (hl f) with h | h <;> rw [h] <;> simp
  have hc : ((Complex.normSq lam⁻¹ : ℝ) : ℂ) ≠ 0 := by
    rw [ne_eq, Complex.ofReal_eq_zero, Complex.normSq_eq_zero]
    exact inv_ne_zero hlam
  unfold average
  conv_lhs => rw [← Equiv.sum_comp e (fun f => ((Complex.normSq (Ψ (List.ofFn fun i => (f i : Nat))) : ℝ) : ℂ) *
      matrixElement Ψ (ops.map (moveOp N T)) (List.ofFn fun i => (f i : Nat))),
    ← Equiv.sum_comp e (fun f => Complex.normSq (Ψ (List.ofFn fun i => (f i : Nat))))]
  conv_lhs => simp only [hn]
  have num : ∀ f : Fin n → Fin (2 * N), ((Complex.normSq lam⁻¹ * Complex.normSq (Ψ (List.ofFn fun i => (f i : Nat))) : ℝ) : ℂ) *
      matrixElement Ψ (ops.map (moveOp N T)) (List.ofFn fun i => ((e f) i : Nat)) =
      (Complex.normSq lam⁻¹ : ℂ) * ((opsSgn N σ ops : ℂ) * ((Complex.normSq (Ψ (List.ofFn fun i => (f i : Nat))) : ℂ) *
        matrixElement Ψ ops (List.ofFn fun i => (f i : Nat)))) := by
    intro f
    rw [he, element_moved hT hσ hlam hΨ ho (hl f)]
    push_cast
    ring
  simp only [num]
  rw [← Finset.mul_sum, ← Finset.mul_sum, ← Finset.mul_sum, Complex.ofReal_mul, mul_div_mul_left _ _ hc, mul_div_assoc]

end

end MVMC
