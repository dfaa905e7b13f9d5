import Verif.Spec.JordanWigner
import Verif.Proof.Fock
import Verif.Spec.Hamiltonian
import Mathlib.Data.List.Sort
import Mathlib.Data.Finset.Sort

/-! # Operators on ordered lists are the Jordan–Wigner matrices -/
namespace MVMC
open MVMC.Spec Matrix Finset

/-- number of entries of `l` below `x` -/
def below (x : Nat) (l : List Nat) : Nat := (l.filter (· < x)).length

/-- number of pairs of entries in decreasing order -/
def inversions : List Nat → Nat
  | [] => 0
  | x :: l => below x l + inversions l

theorem below_append (x : Nat) (l m : List Nat) : below x (l ++ m) = below x l + below x m := by
  simp [below]

theorem below_cons (x y : Nat) (l : List Nat) : below x (y :: l) = (if y < x then 1 else 0) + below x l := by
  unfold below
  rw [List.filter_cons]
  by_cases h : y < x <;> simp [h]; omega

theorem below_card {l : List Nat} (hn : l.Nodup) (x : Nat) : (l.toFinset.filter (· < x)).card = below x l := by
  unfold below
  rw [← List.toFinset_card_of_nodup (hn.filter _)]
  congr 1
  ext z
  simp

/-- removing `x` from position `|p|` -/
theorem inversions_erase (p s : List Nat) (x : Nat) (hx : x ∉ p) :
    (inversions (p ++ x :: s) + p.length + below x (p ++ x :: s)) % 2 = inversions (p ++ s) % 2 := by
  induction p with
  | nil => simp only [List.nil_append, inversions, List.length_nil, below_cons, lt_irrefl, if_false]; omega
  | cons y p ih =>
    have hx' : x ∉ p := fun h => hx (by simp [h])
    have hne : y ≠ x := fun h => hx (by simp [h])
    have := ih hx'
    simp only [List.cons_append, inversions, List.length_cons, below_cons, below_append, lt_irrefl, if_false, zero_add] at this ⊢
    rcases Nat.lt_or_gt_of_ne hne with h | h
    · rw [if_pos h, if_neg (by omega)]; omega
    · rw [if_pos h, if_neg (by omega)]; omega

/-- the vector of a ket -/
noncomputable def vecOf (M : Nat) : Ket → Conf M → ℂ
  | none => 0
  | some (σ, l) => fun T => if T.1 = l.toFinset then (σ : ℂ) * (-1) ^ inversions l else 0

theorem neg_one_pow_mod {a b : Nat} (h : a % 2 = b % 2) : (-1 : ℂ) ^ a = (-1) ^ b := by
  rw [neg_one_pow_eq_pow_mod_two, h, ← neg_one_pow_eq_pow_mod_two]

theorem mul_vecOf {M : Nat} (A : Matrix (Conf M) (Conf M) ℂ) (σ : Int) (l : List Nat) (hM : ∀ z ∈ l, z < M) (T : Conf M) :
    (A *ᵥ vecOf M (some (σ, l))) T =
      A T ⟨l.toFinset, mem_powerset.mpr (fun z hz => mem_range.mpr (hM z (List.mem_toFinset.mp hz)))⟩ * ((σ : ℂ) * (-1) ^ inversions l) := by
  unfold mulVec dotProduct
  rw [Finset.sum_eq_single (⟨l.toFinset, mem_powerset.mpr (fun z hz => mem_range.mpr (hM z (List.mem_toFinset.mp hz)))⟩ : Conf M)]
  · simp [vecOf]
  · intro S _ hS
    have : S.1 ≠ l.toFinset := fun h => hS (Subtype.ext h)
    simp [vecOf, this]
  · simp

/-- one operator -/
theorem jw_act {M : Nat} (o : Op) (ho : o.spinOrb < M) (σ : Int) (l : List Nat) (hn : l.Nodup) (hM : ∀ z ∈ l, z < M) :
    jw M o *ᵥ vecOf M (some (σ, l)) = vecOf M (o.act (some (σ, l))) := by
  funext T
  rw [mul_vecOf _ _ _ hM]
  cases o with
  | an x =>
    simp only [jw, jwAn, Op.act, List.mem_toFinset]
    by_cases h : x ∈ l
    · obtain ⟨p, s, rfl⟩ := List.append_of_mem h
      have hx : x ∉ p := by
        intro hp
        have := List.nodup_append.mp hn
        exact this.2.2 x hp x (by simp) rfl
      rw [if_pos h]
      simp only [vecOf, erase_mid hx, idxOf_mid hx]
      have e : (p ++ x :: s).toFinset.erase x = (p ++ s).toFinset := by
        ext z
        have hxs : x ∉ s := by
          have := (List.nodup_append.mp hn).2.1
          exact (List.nodup_cons.mp this).1
        simp only [mem_erase, List.mem_toFinset, List.mem_append, List.mem_cons]
        constructor
        · rintro ⟨h1, h2 | h2 | h2⟩
          · exact Or.inl h2
          · exact absurd h2 h1
          · exact Or.inr h2
        · rintro (h2 | h2)
          · exact ⟨fun q => hx (q ▸ h2), Or.inl h2⟩
          · exact ⟨fun q => hxs (q ▸ h2), Or.inr (Or.inr h2)⟩
      rw [e]
      by_cases hT : T.1 = (p ++ s).toFinset
      · rw [if_pos ⟨h, hT⟩, if_pos hT, below_card hn]
        push_cast
        have key := neg_one_pow_mod (inversions_erase p s x hx)
        have s1 : (-1 : ℂ) ^ p.length * (-1) ^ p.length = 1 := by rw [← mul_pow]; simp
        rw [← key, pow_add, pow_add]
        linear_combination (-(σ : ℂ) * (-1) ^ below x (p ++ x :: s) * (-1) ^ inversions (p ++ x :: s)) * s1
      · rw [if_neg (fun q => hT q.2), if_neg hT, zero_mul]
    · rw [if_neg h, if_neg (fun q => h q.1), zero_mul]
      rfl
  | cr x =>
    simp only [jw, conjTranspose_apply, jwAn, Op.act]
    by_cases h : x ∈ l
    · rw [if_pos h, if_neg, star_zero, zero_mul]
      · rfl
      · rintro ⟨_, q⟩
        have := List.mem_toFinset.mpr h
        rw [q] at this
        exact absurd rfl (mem_erase.mp this).1
    · rw [if_neg h]
      simp only [vecOf, inversions]
      by_cases hT : T.1 = (x :: l).toFinset
      · have e1 : x ∈ T.1 := by rw [hT]; simp
        have e2 : l.toFinset = T.1.erase x := by
          rw [hT, List.toFinset_cons, erase_insert]
          exact fun q => h (List.mem_toFinset.mp q)
        rw [if_pos ⟨e1, e2⟩, if_pos hT, hT, below_card (List.nodup_cons.mpr ⟨h, hn⟩), below_cons, if_neg (lt_irrefl x), zero_add, pow_add,
          star_pow, star_neg, star_one]
        ring
      · rw [if_neg hT, if_neg, star_zero, zero_mul]
        rintro ⟨q1, q2⟩
        apply hT
        rw [List.toFinset_cons, q2, insert_erase q1]

/-- an operator keeps the list duplicate free and below `M` -/
theorem act_ok {M : Nat} (o : Op) (ho : o.spinOrb < M) {σ τ : Int} {l m : List Nat} (hn : l.Nodup) (hM : ∀ z ∈ l, z < M)
    (h : o.act (some (σ, l)) = some (τ, m)) : m.Nodup ∧ ∀ z ∈ m, z < M := by
  cases o with
  | an x =>
    simp only [Op.act] at h
    split at h
    · simp only [Option.some.injEq, Prod.mk.injEq] at h
      rw [← h.2]
      exact ⟨hn.erase _, fun z hz => hM z (List.mem_of_mem_erase hz)⟩
    · exact absurd h (by simp)
  | cr x =>
    simp only [Op.act] at h
    split at h
    · exact absurd h (by simp)
    · rename_i hx
      simp only [Option.some.injEq, Prod.mk.injEq] at h
      rw [← h.2]
      refine ⟨List.nodup_cons.mpr ⟨hx, hn⟩, fun z hz => ?_⟩
      rcases List.mem_cons.mp hz with rfl | hz
      · exact ho
      · exact hM z hz

theorem actAll_ok {M : Nat} (ops : List Op) (ho : ∀ o ∈ ops, o.spinOrb < M) {σ τ : Int} {l m : List Nat} (hn : l.Nodup) (hM : ∀ z ∈ l, z < M)
    (h : actAll ops (some (σ, l)) = some (τ, m)) : m.Nodup ∧ ∀ z ∈ m, z < M := by
  induction ops generalizing τ m with
  | nil => simp only [actAll, List.foldr_nil, Option.some.injEq, Prod.mk.injEq] at h; rw [← h.2]; exact ⟨hn, hM⟩
  | cons o ops ih =>
    have e : actAll (o :: ops) (some (σ, l)) = o.act (actAll ops (some (σ, l))) := rfl
    rw [e] at h
    match hk : actAll ops (some (σ, l)) with
    | none => rw [hk] at h; cases o <;> exact absurd h (by simp [Op.act])
    | some (a, b) =>
      rw [hk] at h
      obtain ⟨h1, h2⟩ := ih (fun o ho' => ho o (by simp [ho'])) hk
      exact act_ok o (ho o (by simp)) h1 h2 h

/-- a product of operators -/
theorem prodMat_act {M : Nat} (ops : List Op) (ho : ∀ o ∈ ops, o.spinOrb < M) (σ : Int) (l : List Nat) (hn : l.Nodup) (hM : ∀ z ∈ l, z < M) :
    prodMat M ops *ᵥ vecOf M (some (σ, l)) = vecOf M (actAll ops (some (σ, l))) := by
  induction ops with
  | nil => simp [prodMat, actAll]
  | cons o ops ih =>
    have e : actAll (o :: ops) (some (σ, l)) = o.act (actAll ops (some (σ, l))) := rfl
    have e2 : prodMat M (o :: ops) = jw M o * prodMat M ops := by simp [prodMat]
    rw [e, e2, ← mulVec_mulVec, ih (fun o ho' => ho o (by simp [ho']))]
    match hk : actAll ops (some (σ, l)) with
    | none =>
      have : o.act none = none := by cases o <;> rfl
      rw [this]
      simp [vecOf]
    | some (a, b) =>
      obtain ⟨h1, h2⟩ := actAll_ok ops (fun o ho' => ho o (by simp [ho'])) hn hM hk
      exact jw_act o (ho o (by simp)) a b h1 h2

/-! ## Antisymmetric functions of lists -/

theorem anti_insert {M : Nat} {F : List Nat → ℂ} (hF : Anti M F) (x : Nat) (l p : List Nat) (hn : (p ++ x :: l).Nodup)
    (hM : ∀ z ∈ p ++ x :: l, z < M) (hs : l.Pairwise (· ≤ ·)) :
    F (p ++ x :: l) = (-1) ^ below x l * F (p ++ l.orderedInsert (· ≤ ·) x) := by
  induction l generalizing p with
  | nil => simp [below]
  | cons y l ih =>
    rw [List.orderedInsert]
    by_cases h : x ≤ y
    · rw [if_pos h]
      have : below x (y :: l) = 0 := by
        unfold below
        rw [List.length_eq_zero_iff, List.filter_eq_nil_iff]
        intro z hz
        have : y ≤ z := by
          rcases List.mem_cons.mp hz with rfl | hz
          · exact le_refl _
          · exact List.rel_of_pairwise_cons hs hz
        simp; omega
      rw [this, pow_zero, one_mul]
    · rw [if_neg h, hF p x y l hn hM, below_cons, if_pos (by omega)]
      have e : p ++ y :: x :: l = (p ++ [y]) ++ x :: l := by simp
      have hp : (p ++ x :: y :: l).Perm (p ++ y :: x :: l) := (List.Perm.swap y x l).append_left p
      rw [e, ih (p ++ [y]) (by rw [← e]; exact hp.nodup_iff.mp hn) (by rw [← e]; exact fun z hz => hM z (hp.mem_iff.mpr hz)) (List.Pairwise.of_cons hs)]
      rw [List.append_assoc, pow_add, pow_one]
      simp

theorem anti_sort {M : Nat} {F : List Nat → ℂ} (hF : Anti M F) (l p : List Nat) (hn : (p ++ l).Nodup) (hM : ∀ z ∈ p ++ l, z < M) :
    F (p ++ l) = (-1) ^ inversions l * F (p ++ l.insertionSort (· ≤ ·)) := by
  induction l generalizing p with
  | nil => simp [inversions]
  | cons x l ih =>
    have e : p ++ x :: l = (p ++ [x]) ++ l := by simp
    have hp : l.insertionSort (· ≤ ·) |>.Perm l := List.perm_insertionSort _ _
    have hp2 : (p ++ x :: l.insertionSort (· ≤ ·)).Perm (p ++ x :: l) := (hp.cons x).append_left p
    rw [e, ih (p ++ [x]) (by rw [← e]; exact hn) (by rw [← e]; exact hM), List.append_assoc]
    have := anti_insert hF x (l.insertionSort (· ≤ ·)) p (hp2.nodup_iff.mpr hn) (fun z hz => hM z (hp2.mem_iff.mp hz)) (List.pairwise_insertionSort _ _)
    rw [List.singleton_append, this, List.insertionSort_cons, inversions, pow_add]
    have : below x (l.insertionSort (· ≤ ·)) = below x l := by
      unfold below
      exact (hp.filter _).length_eq
    rw [this]
    ring

theorem sort_toFinset_eq {l : List Nat} (hn : l.Nodup) : l.toFinset.sort (· ≤ ·) = l.insertionSort (· ≤ ·) := by
  refine List.Perm.eq_of_pairwise (le := (· ≤ ·)) (fun a b _ _ h1 h2 => le_antisymm h1 h2) (Finset.pairwise_sort _ _) (List.pairwise_insertionSort _ _) ?_
  refine List.Perm.trans ?_ (List.perm_insertionSort _ l).symm
  exact (List.perm_ext_iff_of_nodup (Finset.sort_nodup _ _) hn).mpr (fun a => by rw [Finset.mem_sort, List.mem_toFinset])

/-- the set of a list of orbitals below `M` -/
def confOf {M : Nat} (l : List Nat) (hM : ∀ z ∈ l, z < M) : Conf M :=
  ⟨l.toFinset, mem_powerset.mpr (fun z hz => mem_range.mpr (hM z (List.mem_toFinset.mp hz)))⟩

theorem sort_lt {M : Nat} (S : Conf M) : ∀ z ∈ S.1.sort (· ≤ ·), z < M := fun _ hz =>
  mem_range.mp (mem_powerset.mp S.2 ((Finset.mem_sort _).mp hz))

theorem confOf_sort {M : Nat} (S : Conf M) : confOf (S.1.sort (· ≤ ·)) (sort_lt S) = S :=
  Subtype.ext (Finset.sort_toFinset _ _)

theorem anti_conf {M : Nat} {F : List Nat → ℂ} (hF : Anti M F) {l : List Nat} (hn : l.Nodup) (hM : ∀ z ∈ l, z < M) :
    F l = (-1) ^ inversions l * stateOn M (fun _ => True) F (confOf l hM) := by
  have := anti_sort hF l [] (by simpa using hn) (by simpa using hM)
  simp only [List.nil_append] at this
  rw [this]
  simp only [stateOn, if_true, confOf]
  rw [sort_toFinset_eq hn]

theorem overlap_vec {M : Nat} {F : List Nat → ℂ} (hF : Anti M F) (k : Ket) (hk : ∀ σ l, k = some (σ, l) → l.Nodup ∧ ∀ z ∈ l, z < M) :
    overlap F k = ∑ T, vecOf M k T * stateOn M (fun _ => True) F T := by
  match k with
  | none => simp [overlap, vecOf]
  | some (σ, l) =>
    obtain ⟨hn, hM⟩ := hk σ l rfl
    rw [Finset.sum_eq_single (confOf l hM)]
    · simp only [overlap, vecOf, confOf, if_true]
      rw [anti_conf hF hn hM]
      simp only [confOf]
      ring
    · intro T _ hT
      have : T.1 ≠ l.toFinset := fun h => hT (Subtype.ext h)
      simp [vecOf, this]
    · simp

theorem star_vecOf (M : Nat) (k : Ket) (T : Conf M) : (starRingEnd ℂ) (vecOf M k T) = vecOf M k T := by
  match k with
  | none => simp [vecOf]
  | some (σ, l) => simp only [vecOf]; split <;> simp

theorem signs (l : List Nat) : (-1 : ℂ) ^ inversions l * (-1) ^ inversions l = 1 := by rw [← mul_pow]; simp

theorem prodMat_col {M : Nat} (ops : List Op) (ho : ∀ o ∈ ops, o.spinOrb < M) (l : List Nat) (hn : l.Nodup) (hM : ∀ z ∈ l, z < M) (T : Conf M) :
    prodMat M ops T (confOf l hM) = (-1) ^ inversions l * vecOf M (actAll ops (some (1, l))) T := by
  rw [← prodMat_act ops ho 1 l hn hM, mul_vecOf _ _ _ hM]
  have := signs l
  simp only [Int.cast_one, one_mul]
  change prodMat M ops T (confOf l hM) = (-1) ^ inversions l * (prodMat M ops T (confOf l hM) * (-1) ^ inversions l)
  linear_combination (-(prodMat M ops T (confOf l hM))) * this

/-- one product of operators: the local value on an ordered list is that of the matrix -/
theorem matrixElement_eq {M : Nat} {F : List Nat → ℂ} (hF : Anti M F) (ops : List Op) (ho : ∀ o ∈ ops, o.spinOrb < M) (l : List Nat) (hn : l.Nodup)
    (hM : ∀ z ∈ l, z < M) : matrixElement F ops l = localValue (stateOn M (fun _ => True) F) (prodMat M ops) (confOf l hM) := by
  unfold matrixElement localValue
  rw [overlap_vec hF _ (fun σ m h => actAll_ok ops ho hn hM h), anti_conf hF hn hM, map_div₀, map_sum, map_mul, map_pow, map_neg, map_one]
  simp only [prodMat_col ops ho l hn hM, map_mul, star_vecOf]
  have e : ∀ T, (starRingEnd ℂ) (stateOn M (fun _ => True) F T) * ((-1) ^ inversions l * vecOf M (actAll ops (some (1, l))) T) =
      (-1) ^ inversions l * (vecOf M (actAll ops (some (1, l))) T * (starRingEnd ℂ) (stateOn M (fun _ => True) F T)) := fun T => by ring
  simp only [e]
  rw [← Finset.mul_sum]
  have s := signs l
  by_cases h : (starRingEnd ℂ) (stateOn M (fun _ => True) F (confOf l hM)) = 0
  · rw [h]; simp
  · have h2 : (-1 : ℂ) ^ inversions l ≠ 0 := by simp
    rw [div_eq_div_iff (mul_ne_zero h2 h) h]
    linear_combination (-((∑ T, vecOf M (actAll ops (some (1, l))) T * (starRingEnd ℂ) (stateOn M (fun _ => True) F T)) *
      (starRingEnd ℂ) (stateOn M (fun _ => True) F (confOf l hM)))) * s

theorem localValue_sum {ι : Type} [Fintype ι] (ψ : ι → ℂ) (x : ι) (H : List (ℂ × Matrix ι ι ℂ)) :
    localValue ψ ((H.map fun t => t.1 • t.2).sum) x = (H.map fun t => t.1 * localValue ψ t.2 x).sum := by
  induction H with
  | nil => simp [localValue]
  | cons t H ih =>
    rw [List.map_cons, List.sum_cons, List.map_cons, List.sum_cons, ← ih]
    unfold localValue
    simp only [Matrix.add_apply, Matrix.smul_apply, smul_eq_mul, mul_add, Finset.sum_add_distrib, add_div]
    congr 1
    rw [← mul_div_assoc, Finset.mul_sum]
    congr 1
    refine Finset.sum_congr rfl (fun y _ => by ring)

/-- a sum of products of operators -/
theorem energyOf_eq {M : Nat} {F : List Nat → ℂ} (hF : Anti M F) (H : List (ℂ × List Op)) (ho : ∀ t ∈ H, ∀ o ∈ t.2, o.spinOrb < M) (l : List Nat)
    (hn : l.Nodup) (hM : ∀ z ∈ l, z < M) : energyOf F H l = localValue (stateOn M (fun _ => True) F) (hamMat M H) (confOf l hM) := by
  have e : hamMat M H = ((H.map fun t => (t.1, prodMat M t.2)).map fun t => t.1 • t.2).sum := by
    unfold hamMat
    rw [List.map_map]
    rfl
  unfold energyOf
  rw [e, localValue_sum, List.map_map]
  refine congrArg List.sum (List.map_congr_left (fun t ht => ?_))
  simp only [Function.comp]
  rw [matrixElement_eq hF t.2 (ho t ht) l hn hM]

/-- restriction to a sector that the operator does not leave -/
theorem localValue_sector {M : Nat} (F : List Nat → ℂ) (P : Conf M → Prop) [DecidablePred P] (A : Matrix (Conf M) (Conf M) ℂ) (hA : ClosedOn P A)
    (S : Conf M) (hS : P S) : localValue (stateOn M (fun _ => True) F) A S = localValue (stateOn M P F) A S := by
  unfold localValue
  congr 1
  · refine Finset.sum_congr rfl (fun T _ => ?_)
    by_cases h : P T
    · simp [stateOn, h]
    · rw [hA S T hS h]; simp
  · simp [stateOn, hS]

/-! ## Anticommutation -/

theorem mat_ext {M : Nat} {A B : Matrix (Conf M) (Conf M) ℂ}
    (h : ∀ S : Finset Nat, (∀ z ∈ S, z < M) → ∃ l : List Nat, l.Nodup ∧ l.toFinset = S ∧ A *ᵥ vecOf M (some (1, l)) = B *ᵥ vecOf M (some (1, l))) :
    A = B := by
  ext T S
  obtain ⟨l, hn, hl, e⟩ := h S.1 (fun z hz => mem_range.mp (mem_powerset.mp S.2 hz))
  have hM : ∀ z ∈ l, z < M := fun z hz => mem_range.mp (mem_powerset.mp S.2 (hl ▸ List.mem_toFinset.mpr hz))
  have hS : S = confOf l hM := Subtype.ext hl.symm
  have := congrFun e T
  rw [mul_vecOf _ _ _ hM, mul_vecOf _ _ _ hM] at this
  rw [hS]
  refine mul_right_cancel₀ (b := ((1 : Int) : ℂ) * (-1) ^ inversions l) (by simp) this

theorem vecOf_neg (M : Nat) (σ : Int) (l : List Nat) : vecOf M (some (-σ, l)) = - vecOf M (some (σ, l)) := by
  funext T
  simp only [vecOf, Pi.neg_apply]
  split <;> simp

/-- an ordered list of a set, with `x` and `y` in front if they are occupied -/
theorem exists_front (S : Finset Nat) (x y : Nat) (hxy : x ≠ y) : ∃ r : List Nat, r.Nodup ∧ x ∉ r ∧ y ∉ r ∧
    ((if x ∈ S then [x] else []) ++ ((if y ∈ S then [y] else []) ++ r)).toFinset = S := by
  refine ⟨((S.erase x).erase y).sort (· ≤ ·), Finset.sort_nodup _ _, by simp, by simp, ?_⟩
  ext z
  by_cases hx : x ∈ S <;> by_cases hy : y ∈ S <;> simp [hx, hy]
  · constructor
    · rintro (rfl | rfl | h) <;> tauto
    · intro h; by_cases h1 : z = x <;> by_cases h2 : z = y <;> tauto

theorem front_nodup (b c : Bool) (x y : Nat) (hxy : x ≠ y) (r : List Nat) (hr : r.Nodup) (hx : x ∉ r) (hy : y ∉ r) :
    ((if b then [x] else []) ++ ((if c then [y] else []) ++ r)).Nodup := by
  cases b <;> cases c <;> simp [hr, hx, hy, hxy]

theorem jw_pair {M : Nat} (o o' : Op) (ho : o.spinOrb < M) (ho' : o'.spinOrb < M) (l : List Nat) (hn : l.Nodup) (hM : ∀ z ∈ l, z < M) :
    (jw M o * jw M o') *ᵥ vecOf M (some (1, l)) = vecOf M (actAll [o, o'] (some (1, l))) := by
  have := prodMat_act [o, o'] (by simp [ho, ho']) 1 l hn hM
  rw [← this]
  simp [prodMat]

theorem jw_an_an {M x y : Nat} (hx : x < M) (hy : y < M) (hxy : x ≠ y) : jw M (.an x) * jw M (.an y) = - (jw M (.an y) * jw M (.an x)) := by
  refine mat_ext (fun S hS => ?_)
  obtain ⟨r, hr, hxr, hyr, e⟩ := exists_front S x y hxy
  have hn := front_nodup (decide (x ∈ S)) (decide (y ∈ S)) x y hxy r hr hxr hyr
  simp only [decide_eq_true_eq] at hn
  refine ⟨_, hn, e, ?_⟩
  have hM : ∀ z ∈ (if x ∈ S then [x] else []) ++ ((if y ∈ S then [y] else []) ++ r), z < M := fun z hz => hS z (e ▸ List.mem_toFinset.mpr hz)
  rw [neg_mulVec, jw_pair _ _ (by exact hx) (by exact hy) _ hn hM, jw_pair _ _ (by exact hy) (by exact hx) _ hn hM]
  have hyx : y ≠ x := hxy.symm
  by_cases h1 : x ∈ S <;> by_cases h2 : y ∈ S <;>
    simp [h1, h2, actAll, Op.act, hxr, hyr, hxy, hyx, vecOf_neg] <;> simp [vecOf]

theorem jw_cr_an {M x y : Nat} (hx : x < M) (hy : y < M) (hxy : x ≠ y) : jw M (.cr x) * jw M (.an y) = - (jw M (.an y) * jw M (.cr x)) := by
  refine mat_ext (fun S hS => ?_)
  obtain ⟨r, hr, hxr, hyr, e⟩ := exists_front S x y hxy
  have hn := front_nodup (decide (x ∈ S)) (decide (y ∈ S)) x y hxy r hr hxr hyr
  simp only [decide_eq_true_eq] at hn
  refine ⟨_, hn, e, ?_⟩
  have hM : ∀ z ∈ (if x ∈ S then [x] else []) ++ ((if y ∈ S then [y] else []) ++ r), z < M := fun z hz => hS z (e ▸ List.mem_toFinset.mpr hz)
  rw [neg_mulVec, jw_pair _ _ (by exact hx) (by exact hy) _ hn hM, jw_pair _ _ (by exact hy) (by exact hx) _ hn hM]
  have hyx : y ≠ x := hxy.symm
  by_cases h1 : x ∈ S <;> by_cases h2 : y ∈ S <;>
    simp [h1, h2, actAll, Op.act, hxr, hyr, hxy, hyx, vecOf_neg] <;> simp [vecOf]

/-- `c_x c†_x + c†_x c_x = 1` -/
theorem jw_same {M x : Nat} (hx : x < M) : jw M (.an x) * jw M (.cr x) + jw M (.cr x) * jw M (.an x) = 1 := by
  refine mat_ext (fun S hS => ?_)
  by_cases h : x ∈ S
  · refine ⟨x :: (S.erase x).sort (· ≤ ·), by simp [Finset.sort_nodup], by simp [h], ?_⟩
    have hn : (x :: (S.erase x).sort (· ≤ ·)).Nodup := by simp [Finset.sort_nodup]
    have hM : ∀ z ∈ x :: (S.erase x).sort (· ≤ ·), z < M := by
      intro z hz
      rcases List.mem_cons.mp hz with rfl | hz
      · exact hx
      · exact hS z (mem_of_mem_erase ((Finset.mem_sort _).mp hz))
    rw [add_mulVec, jw_pair _ _ (by exact hx) (by exact hx) _ hn hM, jw_pair _ _ (by exact hx) (by exact hx) _ hn hM, one_mulVec]
    simp [actAll, Op.act, show vecOf M none = 0 from rfl]
  · refine ⟨S.sort (· ≤ ·), Finset.sort_nodup _ _, by simp, ?_⟩
    have hM : ∀ z ∈ S.sort (· ≤ ·), z < M := fun z hz => hS z ((Finset.mem_sort _).mp hz)
    rw [add_mulVec, jw_pair _ _ (by exact hx) (by exact hx) _ (Finset.sort_nodup _ _) hM,
      jw_pair _ _ (by exact hx) (by exact hx) _ (Finset.sort_nodup _ _) hM, one_mulVec]
    simp [actAll, Op.act, h, show vecOf M none = 0 from rfl]

theorem jw_adj (M : Nat) (o : Op) : (jw M o)ᴴ = jw M o.adj := by cases o <;> simp [jw, Op.adj]

/-- operators of different orbitals anticommute -/
theorem jw_anti {M : Nat} (o o' : Op) (ho : o.spinOrb < M) (ho' : o'.spinOrb < M) (h : o.spinOrb ≠ o'.spinOrb) : jw M o * jw M o' = - (jw M o' * jw M o) := by
  cases o with
  | an x =>
    cases o' with
    | an y => exact jw_an_an ho ho' h
    | cr y =>
      have := jw_cr_an (x := y) (y := x) ho' ho (Ne.symm h)
      rw [this, neg_neg]
  | cr x =>
    cases o' with
    | an y => exact jw_cr_an ho ho' h
    | cr y =>
      have := congrArg conjTranspose (jw_an_an ho' ho (Ne.symm h))
      rw [conjTranspose_mul, conjTranspose_neg, conjTranspose_mul] at this
      exact this

theorem prodMat_append (M : Nat) (a b : List Op) : prodMat M (a ++ b) = prodMat M a * prodMat M b := by
  simp [prodMat]

theorem prodMat_adj (M : Nat) (ops : List Op) : (prodMat M ops)ᴴ = prodMat M (ops.reverse.map Op.adj) := by
  induction ops with
  | nil => simp [prodMat]
  | cons o ops ih =>
    have e : prodMat M (o :: ops) = jw M o * prodMat M ops := by simp [prodMat]
    rw [e, conjTranspose_mul, ih, jw_adj, List.reverse_cons, List.map_append, prodMat_append]
    simp [prodMat]

/-- pairs of operators of different orbitals commute -/
theorem pair_comm {M : Nat} (a b c d : Op) (ha : a.spinOrb < M) (hb : b.spinOrb < M) (hc : c.spinOrb < M) (hd : d.spinOrb < M) (h1 : a.spinOrb ≠ c.spinOrb)
    (h2 : a.spinOrb ≠ d.spinOrb) (h3 : b.spinOrb ≠ c.spinOrb) (h4 : b.spinOrb ≠ d.spinOrb) : prodMat M [a, b, c, d] = prodMat M [c, d, a, b] := by
  simp only [prodMat, List.map_cons, List.map_nil, List.prod_cons, List.prod_nil, Matrix.mul_one]
  have e1 := jw_anti a c ha hc h1
  have e2 := jw_anti a d ha hd h2
  have e3 := jw_anti b c hb hc h3
  have e4 := jw_anti b d hb hd h4
  calc jw M a * (jw M b * (jw M c * jw M d)) = jw M a * ((jw M b * jw M c) * jw M d) := by rw [Matrix.mul_assoc]
    _ = - (jw M a * (jw M c * (jw M b * jw M d))) := by rw [e3, Matrix.neg_mul, Matrix.mul_neg, Matrix.mul_assoc]
    _ = (jw M a * jw M c) * (jw M d * jw M b) := by rw [e4, Matrix.mul_neg, Matrix.mul_neg, neg_neg, Matrix.mul_assoc]
    _ = - (jw M c * (jw M a * jw M d) * jw M b) := by rw [e1, Matrix.neg_mul]; simp only [Matrix.mul_assoc]
    _ = jw M c * (jw M d * (jw M a * jw M b)) := by rw [e2, Matrix.mul_neg, Matrix.neg_mul, neg_neg]; simp only [Matrix.mul_assoc]

end MVMC
