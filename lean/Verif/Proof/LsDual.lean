import Verif.Spec.LsLocal
import Verif.Proof.CalHam
import Verif.Proof.LocGrnN

/-! Operator products as functionals on antisymmetric wave functions. -/
namespace MVMC
open MVMC.Spec Finset

/-- the functional composed with an operator product -/
noncomputable def dualOps : List Op → (List Nat → ℂ) → List Nat → ℂ
  | [], F => F
  | .cr I :: ops, F => dualOps ops (crD I F)
  | .an J :: ops, F => dualOps ops (anD J F)

theorem overlap_dual : ∀ (ops : List Op) (F : List Nat → ℂ) (k : Ket), overlap F (actAll ops k) = overlap (dualOps ops F) k
  | [], _, _ => rfl
  | .cr I :: ops, F, k => by
    show overlap F (Op.act (.cr I) (actAll ops k)) = _
    rw [overlap_cr, overlap_dual ops]; rfl
  | .an J :: ops, F, k => by
    show overlap F (Op.act (.an J) (actAll ops k)) = _
    rw [overlap_an, overlap_dual ops]; rfl

/-- creation operators below `M` -/
def CrLt (M : Nat) (ops : List Op) : Prop := ∀ I, Op.cr I ∈ ops → I < M

theorem anti_dual {M : Nat} : ∀ (ops : List Op) {F : List Nat → ℂ}, Anti M F → CrLt M ops → Anti M (dualOps ops F)
  | [], _, h, _ => h
  | .cr I :: ops, _, h, hc => anti_dual ops (anti_cr h (hc I (by simp))) (fun J hJ => hc J (by simp [hJ]))
  | .an J :: ops, _, h, hc => anti_dual ops (anti_an h J) (fun I hI => hc I (by simp [hI]))

/-- `<ψ|H` as a functional, up to complex conjugation -/
noncomputable def hamDual (Ψ : List Nat → ℂ) (A : List (ℂ × List Op)) (l : List Nat) : ℂ :=
  (A.map (fun t => (starRingEnd ℂ) t.1 * dualOps t.2 Ψ l)).sum

theorem overlap_hamDual (Ψ : List Nat → ℂ) (A : List (ℂ × List Op)) (k : Ket) :
    overlap (hamDual Ψ A) k = (A.map (fun t => (starRingEnd ℂ) t.1 * overlap (dualOps t.2 Ψ) k)).sum := by
  match k with
  | none => simp [overlap]
  | some (σ, l) =>
    simp only [overlap, hamDual]
    induction A with
    | nil => simp
    | cons a A ih => simp only [List.map_cons, List.sum_cons, mul_add, ih]; ring

theorem anti_hamDual {M : Nat} {Ψ : List Nat → ℂ} (hΨ : Anti M Ψ) : ∀ {A : List (ℂ × List Op)}, (∀ t ∈ A, CrLt M t.2) → Anti M (hamDual Ψ A)
  | [], _ => by intro p x y s _ _; simp [hamDual]
  | a :: A, h => by
    intro p x y s hn hr
    have e1 := anti_dual a.2 hΨ (h a (by simp)) p x y s hn hr
    have e2 := anti_hamDual hΨ (A := A) (fun t ht => h t (by simp [ht])) p x y s hn hr
    unfold hamDual at e2 ⊢
    simp only [List.map_cons, List.sum_cons]
    rw [e1, e2]; ring

/-- `<ψ|H·ops|x>/<ψ|x>` -/
theorem energy_times (Ψ : List Nat → ℂ) (A : List (ℂ × List Op)) (ops : List Op) (x : List Nat) :
    energyOf Ψ (hamTimes A ops) x = (starRingEnd ℂ) (overlap (hamDual Ψ A) (actAll ops (some (1, x))) / Ψ x) := by
  rw [overlap_hamDual]
  unfold energyOf hamTimes
  rw [List.map_map]
  induction A with
  | nil => simp
  | cons a A ih =>
    simp only [List.map_cons, List.sum_cons, Function.comp] at ih ⊢
    rw [ih]
    have : overlap Ψ (actAll (a.2 ++ ops) (some (1, x))) = overlap (dualOps a.2 Ψ) (actAll ops (some (1, x))) := by
      rw [← overlap_dual]; unfold actAll; rw [List.foldr_append]
    unfold matrixElement
    rw [this]
    simp only [add_div, map_add, map_mul, map_div₀, Complex.conj_conj]
    ring

theorem energy_zero (Ψ : List Nat → ℂ) (A : List (ℂ × List Op)) (x : List Nat) :
    energyOf Ψ A x = (starRingEnd ℂ) (hamDual Ψ A x / Ψ x) := by
  have := energy_times Ψ A [] x
  rw [show hamTimes A [] = A by unfold hamTimes; simp] at this
  rw [this]
  show (starRingEnd ℂ) (overlap (hamDual Ψ A) (some (1, x)) / Ψ x) = _
  rw [overlap_one]

theorem hamTimes_append (A B : List (ℂ × List Op)) (ops : List Op) : hamTimes (A ++ B) ops = hamTimes A ops ++ hamTimes B ops := by
  unfold hamTimes; rw [List.map_append]

theorem hamTimes_flatMap (n : Nat) (f : Nat → List (ℂ × List Op)) (ops : List Op) :
    hamTimes ((List.range n).flatMap f) ops = (List.range n).flatMap (fun i => hamTimes (f i) ops) := by
  unfold hamTimes; rw [List.map_flatMap]

/-- `<ψ|A·B|x>/<ψ|x>` term by term in `B` -/
theorem energy_prod (Ψ : List Nat → ℂ) (A : List (ℂ × List Op)) (x : List Nat) : ∀ B : List (ℂ × List Op),
    energyOf Ψ (hamProd A B) x = (B.map (fun b => b.1 * energyOf Ψ (hamTimes A b.2) x)).sum := by
  intro B
  induction A with
  | nil => simp [hamProd, hamTimes, energyOf]
  | cons a A ih =>
    have : hamProd (a :: A) B = B.map (fun b => (a.1 * b.1, a.2 ++ b.2)) ++ hamProd A B := rfl
    rw [this, energyOf_append, ih]
    have e : ∀ b : ℂ × List Op, energyOf Ψ (hamTimes (a :: A) b.2) x
        = a.1 * matrixElement Ψ (a.2 ++ b.2) x + energyOf Ψ (hamTimes A b.2) x := fun b => rfl
    simp only [e, mul_add, List.sum_map_add]
    congr 1
    unfold energyOf
    rw [List.map_map]
    congr 1
    apply List.map_congr_left
    intro b _
    simp only [Function.comp]; ring

/-! ### the Hamiltonian -/

/-- the lines that move electrons -/
noncomputable def hamOff (N : Nat) (H : HamPar) : List (ℂ × List Op) :=
  (List.range H.nTR).flatMap (fun i => termTransfer N (H.pTR i) (H.tr i 0) (H.tr i 1) (H.tr i 2) (H.tr i 3)) ++
  (List.range H.nPH).flatMap (fun i => termPairHop N (H.pPH i) (H.ph i 0) (H.ph i 1)) ++
  (List.range H.nEX).flatMap (fun i => termExchange N (H.pEX i) (H.ex i 0) (H.ex i 1)) ++
  (List.range H.nIA).flatMap (fun i => termInterAll N (H.pIA i) (H.ia i 0) (H.ia i 1) (H.ia i 2) (H.ia i 3) (H.ia i 4) (H.ia i 5)
    (H.ia i 6) (H.ia i 7))

theorem hamTerms_split (N : Nat) (H : HamPar) : hamTerms N H = hamDiag N H ++ hamOff N H := by
  unfold hamTerms hamDiag hamOff
  simp only [List.append_assoc]

theorem crLt_hamTerms {N : Nat} {H : HamPar} (hH : HamIdx N H) : ∀ t ∈ hamTerms N H, CrLt (2 * N) t.2 := by
  intro t ht I hI
  have lo : ∀ {r}, r < N → r < 2 * N := fun h => by omega
  have hi : ∀ {r}, r < N → r + N < 2 * N := fun h => by omega
  unfold hamTerms at ht
  simp only [List.mem_append, List.mem_flatMap, List.mem_range] at ht
  rcases ht with (((((⟨i, hi', ht⟩ | ⟨i, hi', ht⟩) | ⟨i, hi', ht⟩) | ⟨i, hi', ht⟩) | ⟨i, hi', ht⟩) | ⟨i, hi', ht⟩) | ⟨i, hi', ht⟩
  · have h1 := hH.ci i hi'
    simp only [termCoulombIntra, List.mem_singleton] at ht
    subst ht
    simp [numOp] at hI
    rcases hI with rfl | rfl
    · exact lo h1
    · exact hi h1
  · obtain ⟨h1, h2⟩ := hH.co i hi'
    simp only [termCoulombInter, List.mem_cons, List.not_mem_nil, or_false] at ht
    rcases ht with rfl | rfl | rfl | rfl <;> simp [numOp] at hI <;> rcases hI with rfl | rfl <;>
      first | exact lo h1 | exact lo h2 | exact hi h1 | exact hi h2
  · obtain ⟨h1, h2⟩ := hH.hu i hi'
    simp only [termHund, List.mem_cons, List.not_mem_nil, or_false] at ht
    rcases ht with rfl | rfl <;> simp [numOp] at hI <;> rcases hI with rfl | rfl <;>
      first | exact lo h1 | exact lo h2 | exact hi h1 | exact hi h2
  · obtain ⟨h1, s1, h2, s2⟩ := hH.tr i hi'
    simp only [termTransfer, List.mem_singleton] at ht
    subst ht
    simp at hI
    rw [hI]; exact orb_lt s1 h1
  · obtain ⟨h1, h2⟩ := hH.ph i hi'
    simp only [termPairHop, List.mem_singleton] at ht
    subst ht
    simp at hI
    rcases hI with rfl | rfl
    · exact lo h1
    · exact hi h1
  · obtain ⟨h1, h2⟩ := hH.ex i hi'
    simp only [termExchange, List.mem_cons, List.not_mem_nil, or_false] at ht
    rcases ht with rfl | rfl <;> simp at hI <;> rcases hI with rfl | rfl <;>
      first | exact lo h1 | exact lo h2 | exact hi h1 | exact hi h2
  · obtain ⟨⟨h1, h2, h3, h4⟩, s1, s2, s3, s4⟩ := hH.ia i hi'
    simp only [termInterAll, List.mem_singleton] at ht
    subst ht
    simp at hI
    rcases hI with rfl | rfl
    · exact orb_lt s1 h1
    · exact orb_lt s3 h3

/-- number operators leave a vanishing amplitude vanishing -/
theorem hamDual_diag_zero {N : Nat} {Ψ : List Nat → ℂ} (hΨ : Anti (2 * N) Ψ) {H : HamPar} (hH : HamIdx N H) {l : List Nat}
    (hn : l.Nodup) (hr : ∀ z ∈ l, z < 2 * N) (h0 : Ψ l = 0) : hamDual Ψ (hamDiag N H) l = 0 := by
  have lo : ∀ {r}, r < N → r < 2 * N := fun h => by omega
  have hi : ∀ {r}, r < N → r + N < 2 * N := fun h => by omega
  have nn : ∀ {x y}, x < 2 * N → y < 2 * N → dualOps (numOp x ++ numOp y) Ψ l = 0 := by
    intro x y hx hy
    have e : dualOps (numOp x ++ numOp y) Ψ l = ov2 Ψ x x y y l := by
      unfold ov2
      rw [show ([.cr x, .an x, .cr y, .an y] : List Op) = numOp x ++ numOp y from rfl, overlap_dual, overlap_one]
    rw [e, ov2_KK hΨ hx hy hn hr, ov1_same hΨ hx hn hr, h0]
    simp
  have key : ∀ t ∈ hamDiag N H, dualOps t.2 Ψ l = 0 := by
    intro t ht
    unfold hamDiag at ht
    simp only [List.mem_append, List.mem_flatMap, List.mem_range] at ht
    rcases ht with (⟨i, hi', ht⟩ | ⟨i, hi', ht⟩) | ⟨i, hi', ht⟩
    · have h1 := hH.ci i hi'
      simp only [termCoulombIntra, List.mem_singleton] at ht
      subst ht
      exact nn (lo h1) (hi h1)
    · obtain ⟨h1, h2⟩ := hH.co i hi'
      simp only [termCoulombInter, List.mem_cons, List.not_mem_nil, or_false] at ht
      rcases ht with rfl | rfl | rfl | rfl
      · exact nn (lo h1) (lo h2)
      · exact nn (lo h1) (hi h2)
      · exact nn (hi h1) (lo h2)
      · exact nn (hi h1) (hi h2)
    · obtain ⟨h1, h2⟩ := hH.hu i hi'
      simp only [termHund, List.mem_cons, List.not_mem_nil, or_false] at ht
      rcases ht with rfl | rfl
      · exact nn (lo h1) (lo h2)
      · exact nn (hi h1) (hi h2)
  unfold hamDual
  apply List.sum_eq_zero
  intro z hz
  obtain ⟨t, ht, rfl⟩ := List.mem_map.mp hz
  rw [key t ht, mul_zero]

/-! ### loops -/

theorem ompForO_acc {σ : Type} {s : Nat → Nat} {τ n : Nat} {body : ℂ × σ → Nat → Option (ℂ × σ)} {v : Nat → ℂ} {my : σ}
    (h : ∀ i < n, ∀ e, body (e, my) i = some (e + v i, my)) (e : ℂ) :
    ompForO s τ n body (e, my) = some (e + ∑ i ∈ range n, if s i = τ then v i else 0, my) := by
  unfold ompForO
  induction n with
  | zero => simp
  | succ n ih =>
    rw [List.range_succ, List.foldl_append, ih (fun i hi => h i (by omega))]
    simp only [List.foldl_cons, List.foldl_nil, sum_range_succ, Option.bind_some]
    by_cases q : s n = τ
    · rw [if_pos q, h n (by omega), if_pos q, add_assoc]
    · rw [if_neg q, if_neg q, add_zero]

theorem reduceO_val {f : Nat → Option ℂ} {v : Nat → ℂ} (h : ∀ τ, f τ = some (v τ)) (order : List Nat) :
    reduceO order f = some (order.foldl (fun e τ => e + v τ) 0) := by
  unfold reduceO
  generalize (0 : ℂ) = z
  induction order generalizing z with
  | nil => rfl
  | cons a l ih =>
    simp only [List.foldl_cons, Option.bind_some, h a, Option.map_some]
    exact ih (z + v a)

theorem off_total {H : HamPar} {T : Nat} {sched : Nat → Nat → Nat} (hs : SchedOK H T sched) (N : Nat) (Ψ : List Nat → ℂ) (x : List Nat)
    (ops : List Op) {order : List Nat} (ho : order.Perm (List.range T)) {f : Nat → Option ℂ}
    (hf : ∀ τ, f τ = some (0
      + (∑ i ∈ range H.nTR, if sched 3 i = τ then
          energyOf Ψ (hamTimes (termTransfer N (H.pTR i) (H.tr i 0) (H.tr i 1) (H.tr i 2) (H.tr i 3)) ops) x else 0)
      + (∑ i ∈ range H.nPH, if sched 4 i = τ then energyOf Ψ (hamTimes (termPairHop N (H.pPH i) (H.ph i 0) (H.ph i 1)) ops) x else 0)
      + (∑ i ∈ range H.nEX, if sched 5 i = τ then energyOf Ψ (hamTimes (termExchange N (H.pEX i) (H.ex i 0) (H.ex i 1)) ops) x else 0)
      + (∑ i ∈ range H.nIA, if sched 6 i = τ then energyOf Ψ (hamTimes (termInterAll N (H.pIA i) (H.ia i 0) (H.ia i 1) (H.ia i 2)
          (H.ia i 3) (H.ia i 4) (H.ia i 5) (H.ia i 6) (H.ia i 7)) ops) x else 0))) :
    reduceO order f = some (energyOf Ψ (hamTimes (hamOff N H) ops) x) := by
  obtain ⟨_, _, _, h3, h4, h5, h6⟩ := hs
  rw [reduceO_val hf, reduce_sum ho]
  simp only [sum_add_distrib]
  rw [thread_sum h3, thread_sum h4, thread_sum h5, thread_sum h6]
  unfold hamOff
  simp only [hamTimes_append, hamTimes_flatMap, energyOf_append, energyOf_flatMap, sum_const_zero, zero_add]

end MVMC
