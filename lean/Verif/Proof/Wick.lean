import Verif.Spec.Slater
import Verif.Proof.Fock
import Mathlib.Algebra.BigOperators.Ring.Finset
import Mathlib.GroupTheory.Perm.Sign

/-! Wick's theorem for a Slater determinant, by expansion over permutations. -/
namespace MVMC
open MVMC.Spec Finset

section
variable {n : Nat} (φ : Nat → Nat → ℂ)

/-- the determinant as a function of a tuple -/
noncomputable def dt (f : Fin n → Nat) : ℂ := Matrix.det (Matrix.of fun (k i : Fin n) => φ k (f i))

theorem dt_apply (f : Fin n → Nat) : dt φ f = ∑ σ : Equiv.Perm (Fin n), ((Equiv.Perm.sign σ : ℤ) : ℂ) * ∏ i, φ (σ i) (f i) := by
  unfold dt; rw [Matrix.det_apply']; rfl

theorem dt_dup {f : Fin n → Nat} {p q : Fin n} (hpq : p ≠ q) (h : f p = f q) : dt φ f = 0 :=
  Matrix.det_zero_of_column_eq hpq (fun k => by show φ k (f p) = φ k (f q); rw [h])

theorem dt_perm (f : Fin n → Nat) (τ : Equiv.Perm (Fin n)) : dt φ (f ∘ τ) = ((Equiv.Perm.sign τ : ℤ) : ℂ) * dt φ f := by
  unfold dt
  exact Matrix.det_permute' τ (Matrix.of fun (k i : Fin n) => φ k (f i))

theorem slater_ofFn (f : Fin n → Nat) : slater n φ (List.ofFn f) = dt φ f := by
  unfold slater dt
  rw [if_pos (List.length_ofFn)]
  congr 1; ext k i
  simp [List.getD_eq_getElem?_getD]

theorem slater_list (l : List Nat) (h : l.length = n) : slater n φ l = dt φ (fun i : Fin n => l.getD i 0) := by
  unfold slater dt; rw [if_pos h]

theorem slater_anti (M : Nat) : Anti M (slater n φ) := by
  intro p x y s _ _
  by_cases h : (p ++ x :: y :: s).length = n
  · have h' : (p ++ y :: x :: s).length = n := by rw [← h]; simp
    rw [slater_list φ _ h, slater_list φ _ h']
    have hl : p.length + 1 < n := by rw [← h]; simp
    have hl0 : p.length < n := by omega
    have e : (fun i : Fin n => (p ++ x :: y :: s).getD i 0) =
        (fun i : Fin n => (p ++ y :: x :: s).getD i 0) ∘ (Equiv.swap (⟨p.length, hl0⟩ : Fin n) ⟨p.length + 1, hl⟩) := by
      clear h h'
      funext i
      simp only [Function.comp]
      by_cases h1 : (i : Nat) = p.length
      · have : i = ⟨p.length, hl0⟩ := Fin.ext h1
        subst this
        rw [Equiv.swap_apply_left]
        simp [List.getD_eq_getElem?_getD, List.getElem?_append]
      · by_cases h2 : (i : Nat) = p.length + 1
        · have : i = ⟨p.length + 1, hl⟩ := Fin.ext h2
          subst this
          rw [Equiv.swap_apply_right]
          simp [List.getD_eq_getElem?_getD, List.getElem?_append]
        · rw [Equiv.swap_apply_of_ne_of_ne (fun e => h1 (by rw [e])) (fun e => h2 (by rw [e]))]
          simp only [List.getD_eq_getElem?_getD, List.getElem?_append]
          by_cases h3 : (i : Nat) < p.length
          · simp [h3]
          · rw [if_neg h3, if_neg h3]
            obtain ⟨d, hd⟩ : ∃ d, (i : Nat) - p.length = d + 2 := ⟨i - p.length - 2, by omega⟩
            rw [hd]; simp
    rw [e, dt_perm, Equiv.Perm.sign_swap (by intro h; simpa using congrArg Fin.val h)]
    simp
  · have h' : ¬ (p ++ y :: x :: s).length = n := by intro h'; apply h; rw [← h']; simp
    unfold slater; rw [if_neg h, if_neg h', neg_zero]

/-! ### one-body operators on tuples -/

/-- `c†_I c_J` as a derivation on functions of tuples -/
noncomputable def tupOp (I J : Nat) (F : (Fin n → Nat) → ℂ) (f : Fin n → Nat) : ℂ :=
  ∑ a, if f a = J then F (Function.update f a I) else 0

/-- vanishes on repeated entries and changes sign under transpositions -/
structure Alt (F : (Fin n → Nat) → ℂ) : Prop where
  dup : ∀ f p q, p ≠ q → f p = f q → F f = 0
  swap : ∀ f p q, p ≠ q → F (f ∘ Equiv.swap p q) = - F f

theorem alt_dt : Alt (n := n) (dt φ) where
  dup f p q h e := dt_dup φ h e
  swap f p q h := by rw [dt_perm, Equiv.Perm.sign_swap h]; simp

theorem update_swap (g : Fin n → Nat) {p q : Fin n} (h : g p = g q) (I : Nat) :
    Function.update g q I = (Function.update g p I) ∘ Equiv.swap p q := by
  funext x
  simp only [Function.comp]
  by_cases hx : x = q
  · subst hx; rw [Equiv.swap_apply_right]; simp
  · by_cases hp : x = p
    · subst hp
      rw [Equiv.swap_apply_left, Function.update_of_ne hx, Function.update_of_ne (fun e => hx e.symm), h]
    · rw [Equiv.swap_apply_of_ne_of_ne hp hx, Function.update_of_ne hx, Function.update_of_ne hp]

theorem tupOp_dup {F : (Fin n → Nat) → ℂ} (hF : Alt F) (I J : Nat) {g : Fin n → Nat} {p q : Fin n} (hpq : p ≠ q)
    (h : g p = g q) : tupOp I J F g = 0 := by
  unfold tupOp
  have h0 : ∀ a ∉ ({p, q} : Finset (Fin n)), (if g a = J then F (Function.update g a I) else 0) = 0 := by
    intro a ha
    simp only [mem_insert, mem_singleton, not_or] at ha
    split_ifs with c
    · exact hF.dup _ p q hpq (by rw [Function.update_of_ne (Ne.symm ha.1), Function.update_of_ne (Ne.symm ha.2), h])
    · rfl
  rw [← Finset.sum_subset (Finset.subset_univ {p, q}) (fun a _ ha => h0 a ha), Finset.sum_pair hpq, ← h, update_swap g h I,
    hF.swap _ p q hpq]
  split_ifs <;> simp

/-- the list operation on an injective tuple -/
theorem repl_ofFn {f : Fin n → Nat} (hf : Function.Injective f) (a : Fin n) (I : Nat) :
    repl (f a) I (List.ofFn f) = List.ofFn (Function.update f a I) := by
  unfold repl
  rw [List.map_ofFn]
  congr 1; funext i
  simp only [Function.comp, Function.update_apply]
  by_cases h : i = a
  · subst h; simp
  · rw [if_neg h, if_neg (fun e => h (hf e))]

theorem one_tup {F : List Nat → ℂ} {D : (Fin n → Nat) → ℂ} (hD : Alt D) {f : Fin n → Nat} (hf : Function.Injective f)
    (hFD : ∀ g : Fin n → Nat, Function.Injective g → F (List.ofFn g) = D g) (I J : Nat) :
    (if J ∈ List.ofFn f ∧ (I ∉ List.ofFn f ∨ I = J) then F (repl J I (List.ofFn f)) else 0) = tupOp I J D f := by
  unfold tupOp
  by_cases hJ : J ∈ List.ofFn f
  · obtain ⟨a, rfl⟩ := (List.mem_ofFn' f J).mp hJ
    rw [Finset.sum_eq_single a (fun b _ hb => if_neg (fun e => hb (hf e))) (fun h => absurd (mem_univ _) h), if_pos rfl]
    by_cases hI : I ∉ List.ofFn f ∨ I = f a
    · rw [if_pos ⟨hJ, hI⟩, repl_ofFn hf]
      apply hFD
      intro x y hxy
      by_cases hx : x = a <;> by_cases hy : y = a
      · rw [hx, hy]
      · subst hx
        rw [Function.update_self, Function.update_of_ne hy] at hxy
        rcases hI with hI | hI
        · exact absurd ((List.mem_ofFn' f I).mpr ⟨y, hxy.symm⟩) hI
        · exact hf (hI ▸ hxy)
      · subst hy
        rw [Function.update_self, Function.update_of_ne hx] at hxy
        rcases hI with hI | hI
        · exact absurd ((List.mem_ofFn' f I).mpr ⟨x, hxy⟩) hI
        · exact hf (hI ▸ hxy)
      · rw [Function.update_of_ne hx, Function.update_of_ne hy] at hxy; exact hf hxy
    · rw [if_neg (fun h => hI h.2)]
      push Not at hI
      obtain ⟨b, hb⟩ := (List.mem_ofFn' f I).mp hI.1
      have hba : b ≠ a := by intro e; subst e; exact hI.2 hb.symm
      exact (hD.dup _ b a hba (by rw [Function.update_of_ne hba, Function.update_self, hb])).symm
  · rw [if_neg (fun h => hJ h.1)]
    symm; apply Finset.sum_eq_zero
    intro a _
    rw [if_neg (fun e => hJ ((List.mem_ofFn' f J).mpr ⟨a, e⟩))]

/-! ### sums over all configurations -/

/-- the orbital of every particle as a number -/
def tupNat {M : Nat} (f : Fin n → Fin M) (i : Fin n) : Nat := f i

theorem andreief {M : Nat} (c : Fin n → Fin M → ℂ) (r : Fin n → Fin M → Nat) :
    ∑ f : Fin n → Fin M, (∏ i, c i (f i)) * ((starRingEnd ℂ) (dt φ (fun i => r i (f i))) * dt φ (tupNat f)) =
      ∑ σ : Equiv.Perm (Fin n), ∑ τ : Equiv.Perm (Fin n), ((Equiv.Perm.sign σ : ℤ) : ℂ) * ((Equiv.Perm.sign τ : ℤ) : ℂ) *
        ∏ i, ∑ x, c i x * ((starRingEnd ℂ) (φ (σ i) (r i x)) * φ (τ i) x) := by
  have e : ∀ f : Fin n → Fin M, (∏ i, c i (f i)) * ((starRingEnd ℂ) (dt φ (fun i => r i (f i))) * dt φ (tupNat f)) =
      ∑ σ : Equiv.Perm (Fin n), ∑ τ : Equiv.Perm (Fin n), ((Equiv.Perm.sign σ : ℤ) : ℂ) * ((Equiv.Perm.sign τ : ℤ) : ℂ) *
        ∏ i, c i (f i) * ((starRingEnd ℂ) (φ (σ i) (r i (f i))) * φ (τ i) (f i)) := by
    intro f
    rw [dt_apply, dt_apply, map_sum, Finset.sum_mul_sum, Finset.mul_sum]
    refine Finset.sum_congr rfl fun σ _ => ?_
    rw [Finset.mul_sum]
    refine Finset.sum_congr rfl fun τ _ => ?_
    rw [Finset.prod_mul_distrib, Finset.prod_mul_distrib, map_mul, map_prod, map_intCast]
    simp only [tupNat]
    ring
  rw [Finset.sum_congr rfl fun f _ => e f, Finset.sum_comm]
  refine Finset.sum_congr rfl fun σ _ => ?_
  rw [Finset.sum_comm]
  refine Finset.sum_congr rfl fun τ _ => ?_
  rw [← Finset.mul_sum, Finset.prod_univ_sum, Fintype.piFinset_univ]

theorem sign_sq (σ : Equiv.Perm (Fin n)) : ((Equiv.Perm.sign σ : ℤ) : ℂ) * ((Equiv.Perm.sign σ : ℤ) : ℂ) = 1 := by
  rcases Int.units_eq_one_or (Equiv.Perm.sign σ) with h | h <;> simp [h]

theorem perm_sum0 (σ : Equiv.Perm (Fin n)) (Q : Fin n → Fin n → Fin n → ℂ) (hQ : ∀ i k m, Q i k m = if k = m then 1 else 0) :
    ∑ τ : Equiv.Perm (Fin n), ((Equiv.Perm.sign σ : ℤ) : ℂ) * ((Equiv.Perm.sign τ : ℤ) : ℂ) * ∏ i, Q i (σ i) (τ i) = 1 := by
  rw [Finset.sum_eq_single σ]
  · rw [sign_sq, one_mul]; apply Finset.prod_eq_one; intro i _; rw [hQ, if_pos rfl]
  · intro τ _ hτ
    have : ∃ i, σ i ≠ τ i := by by_contra h; push Not at h; exact hτ (Equiv.ext fun i => (h i).symm)
    obtain ⟨i, hi⟩ := this
    rw [Finset.prod_eq_zero (mem_univ i) (by rw [hQ, if_neg hi]), mul_zero]
  · intro h; exact absurd (mem_univ _) h

theorem perm_sum1 (σ : Equiv.Perm (Fin n)) (a : Fin n) (Q : Fin n → Fin n → Fin n → ℂ)
    (hQ : ∀ i k m, i ≠ a → Q i k m = if k = m then 1 else 0) :
    ∑ τ : Equiv.Perm (Fin n), ((Equiv.Perm.sign σ : ℤ) : ℂ) * ((Equiv.Perm.sign τ : ℤ) : ℂ) * ∏ i, Q i (σ i) (τ i) =
      Q a (σ a) (σ a) := by
  rw [Finset.sum_eq_single σ]
  · rw [sign_sq, one_mul]
    exact Finset.prod_eq_single a (fun i _ hi => by rw [hQ _ _ _ hi, if_pos rfl]) (fun h => absurd (mem_univ _) h)
  · intro τ _ hτ
    have : ∃ i, i ≠ a ∧ σ i ≠ τ i := by
      by_contra h; push Not at h
      apply hτ
      ext1 i
      by_cases hi : i = a
      · subst hi
        by_contra hne
        obtain ⟨j, hj⟩ := σ.surjective (τ i)
        by_cases hji : j = i
        · subst hji; exact hne hj.symm
        · have := h j hji
          rw [hj] at this
          exact hji (τ.injective this.symm)
      · exact (h i hi).symm
    obtain ⟨i, hia, hi⟩ := this
    rw [Finset.prod_eq_zero (mem_univ i) (by rw [hQ _ _ _ hia, if_neg hi]), mul_zero]
  · intro h; exact absurd (mem_univ _) h

theorem perm_two {σ τ : Equiv.Perm (Fin n)} {a b : Fin n} (h : ∀ i, i ≠ a → i ≠ b → σ i = τ i) :
    τ = σ ∨ τ = σ * Equiv.swap a b := by
  have key : ∀ x, x = a ∨ x = b → τ x = σ a ∨ τ x = σ b := by
    intro x hx
    obtain ⟨j, hj⟩ := σ.surjective (τ x)
    by_cases hja : j = a
    · left; rw [← hj, hja]
    · by_cases hjb : j = b
      · right; rw [← hj, hjb]
      · exfalso
        have := h j hja hjb
        rw [hj] at this
        have := τ.injective this
        rcases hx with hx | hx
        · exact hja (by rw [← this, hx])
        · exact hjb (by rw [← this, hx])
  rcases key a (Or.inl rfl) with h1 | h1
  · left
    ext1 i
    by_cases ha : i = a
    · rw [ha, h1]
    · by_cases hb : i = b
      · subst hb
        rcases key i (Or.inr rfl) with h2 | h2
        · exact absurd (τ.injective (h2.trans h1.symm)) ha
        · exact h2
      · exact (h i ha hb).symm
  · right
    ext1 i
    rw [Equiv.Perm.mul_apply]
    by_cases ha : i = a
    · rw [ha, Equiv.swap_apply_left, h1]
    · by_cases hb : i = b
      · subst hb
        rw [Equiv.swap_apply_right]
        rcases key i (Or.inr rfl) with h2 | h2
        · exact h2
        · exact absurd (τ.injective (h2.trans h1.symm)) ha
      · rw [Equiv.swap_apply_of_ne_of_ne ha hb, h i ha hb]

theorem perm_sum2 (σ : Equiv.Perm (Fin n)) {a b : Fin n} (hab : a ≠ b) (Q : Fin n → Fin n → Fin n → ℂ)
    (hQ : ∀ i k m, i ≠ a → i ≠ b → Q i k m = if k = m then 1 else 0) :
    ∑ τ : Equiv.Perm (Fin n), ((Equiv.Perm.sign σ : ℤ) : ℂ) * ((Equiv.Perm.sign τ : ℤ) : ℂ) * ∏ i, Q i (σ i) (τ i) =
      Q a (σ a) (σ a) * Q b (σ b) (σ b) - Q a (σ a) (σ b) * Q b (σ b) (σ a) := by
  have hne : σ ≠ σ * Equiv.swap a b := by
    intro e
    have := congrArg (fun π => π a) e
    simp only [Equiv.Perm.mul_apply, Equiv.swap_apply_left] at this
    exact hab (σ.injective this)
  have pr : ∀ τ : Equiv.Perm (Fin n), (∀ i, i ≠ a → i ≠ b → σ i = τ i) →
      ∏ i, Q i (σ i) (τ i) = Q a (σ a) (τ a) * Q b (σ b) (τ b) := by
    intro τ h
    rw [← Finset.prod_subset (Finset.subset_univ {a, b}) (fun i _ hi => by
      simp only [mem_insert, mem_singleton, not_or] at hi
      rw [hQ _ _ _ hi.1 hi.2, if_pos (h i hi.1 hi.2)]), Finset.prod_pair hab]
  rw [← Finset.sum_subset (Finset.subset_univ {σ, σ * Equiv.swap a b}), Finset.sum_pair hne, sign_sq, one_mul, pr _ (fun _ _ _ => rfl),
    pr (σ * Equiv.swap a b)]
  · rw [Equiv.Perm.mul_apply, Equiv.Perm.mul_apply, Equiv.swap_apply_left, Equiv.swap_apply_right, Equiv.Perm.sign_mul,
      Equiv.Perm.sign_swap hab]
    have := sign_sq σ
    push_cast
    linear_combination (-(Q a (σ a) (σ b) * Q b (σ b) (σ a))) * this
  · intro i hia hib
    rw [Equiv.Perm.mul_apply, Equiv.swap_apply_of_ne_of_ne hia hib]
  · intro τ _ hτ
    simp only [mem_insert, mem_singleton, not_or] at hτ
    have : ∃ i, i ≠ a ∧ i ≠ b ∧ σ i ≠ τ i := by
      by_contra h; push Not at h
      rcases perm_two h with e | e
      · exact hτ.1 e
      · exact hτ.2 e
    obtain ⟨i, hia, hib, hi⟩ := this
    rw [Finset.prod_eq_zero (mem_univ i) (by rw [hQ _ _ _ hia hib, if_neg hi]), mul_zero]

/-- the one-particle density matrix of the orbitals -/
noncomputable def rho (n : Nat) (φ : Nat → Nat → ℂ) (I J : Nat) : ℂ := ∑ k : Fin n, (starRingEnd ℂ) (φ k I) * φ k J

variable {M : Nat} (hφ : Orthonormal M n φ)
include hφ

theorem ortho_fin (k m : Fin n) : ∑ x : Fin M, 1 * ((starRingEnd ℂ) (φ k x) * φ m x) = if k = m then 1 else 0 := by
  have := hφ k k.2 m m.2
  rw [Finset.sum_range] at this
  simp only [one_mul, this, Fin.ext_iff]

theorem norm_sum : ∑ f : Fin n → Fin M, (starRingEnd ℂ) (dt φ (tupNat f)) * dt φ (tupNat f) = (n.factorial : ℂ) := by
  have h := andreief φ (M := M) (n := n) (fun _ _ => 1) (fun _ x => x)
  rw [Finset.sum_congr rfl fun σ _ => perm_sum0 σ
    (fun i k m => ∑ x : Fin M, 1 * ((starRingEnd ℂ) (φ k x) * φ m x)) (fun i k m => ortho_fin φ hφ k m)] at h
  simp only [Finset.prod_const_one, one_mul] at h
  rw [Finset.sum_const, Finset.card_univ, Fintype.card_perm, Fintype.card_fin, nsmul_eq_mul, mul_one] at h
  exact h

theorem one_sum_at {I J : Nat} (hJ : J < M) (a : Fin n) :
    ∑ f : Fin n → Fin M, (if tupNat f a = J then
      (starRingEnd ℂ) (dt φ (Function.update (tupNat f) a I)) * dt φ (tupNat f) else 0) =
      ∑ σ : Equiv.Perm (Fin n), (starRingEnd ℂ) (φ (σ a) I) * φ (σ a) J := by
  have h := andreief φ (M := M) (n := n) (fun i x => if i = a then (if (x : Nat) = J then 1 else 0) else 1)
    (fun i x => if i = a then I else x)
  rw [Finset.sum_congr rfl fun σ _ => perm_sum1 σ a
    (fun i k m => ∑ x : Fin M, (if i = a then (if (x : Nat) = J then 1 else 0) else 1) *
      ((starRingEnd ℂ) (φ k (if i = a then I else x)) * φ m x))
    (fun i k m hi => by simp only [if_neg hi]; exact ortho_fin φ hφ k m)] at h
  calc _ = _ := by
        refine Finset.sum_congr rfl fun f _ => ?_
        rw [Finset.prod_eq_single a (fun i _ hi => if_neg hi) (fun h => absurd (mem_univ _) h), if_pos rfl]
        have e : (fun i => if i = a then I else ((f i : Fin M) : Nat)) = Function.update (tupNat f) a I := by
          funext i; rw [Function.update_apply]; rfl
        rw [e]
        show _ = (if tupNat f a = J then (1 : ℂ) else 0) * _
        rw [ite_mul, one_mul, zero_mul]
    _ = _ := h
    _ = _ := by
        refine Finset.sum_congr rfl fun σ _ => ?_
        rw [Finset.sum_eq_single (⟨J, hJ⟩ : Fin M)]
        · simp
        · intro x _ hx
          rw [if_pos rfl, if_neg (fun e => hx (Fin.ext e)), zero_mul]
        · intro h; exact absurd (mem_univ _) h

omit hφ in
theorem perm_orbit (g : Fin n → ℂ) : ∑ a : Fin n, ∑ σ : Equiv.Perm (Fin n), g (σ a) = (n.factorial : ℂ) * ∑ k, g k := by
  rw [Finset.sum_comm, Finset.sum_congr rfl fun σ _ => Equiv.sum_comp σ g, Finset.sum_const, Finset.card_univ, Fintype.card_perm,
    Fintype.card_fin, nsmul_eq_mul]

omit hφ in
theorem perm_orbit2 (g : Fin n → Fin n → ℂ) :
    ∑ b : Fin n, ∑ a : Fin n, ∑ σ : Equiv.Perm (Fin n), g (σ a) (σ b) = (n.factorial : ℂ) * ∑ k, ∑ m, g k m := by
  have e : ∑ b : Fin n, ∑ a : Fin n, ∑ σ : Equiv.Perm (Fin n), g (σ a) (σ b) =
      ∑ σ : Equiv.Perm (Fin n), ∑ b, ∑ a, g (σ a) (σ b) := by
    rw [Finset.sum_comm' (t' := univ) (s' := fun _ => univ) (by simp)]
    rw [Finset.sum_congr rfl fun a _ => Finset.sum_comm (s := univ) (t := univ) (f := fun b σ => g ((σ : Equiv.Perm (Fin n)) a) (σ b))]
    rw [Finset.sum_comm]
    refine Finset.sum_congr rfl fun σ _ => Finset.sum_comm
  rw [e, Finset.sum_congr rfl fun σ _ => (Equiv.sum_comp σ (fun b => ∑ a, g ((σ : Equiv.Perm (Fin n)) a) b)),
    Finset.sum_congr rfl fun σ _ => Finset.sum_congr rfl fun b _ => Equiv.sum_comp σ (fun a => g a b), Finset.sum_const, Finset.card_univ,
    Fintype.card_perm, Fintype.card_fin, nsmul_eq_mul, Finset.sum_comm]

theorem wick1_sum {I J : Nat} (hJ : J < M) :
    ∑ f : Fin n → Fin M, (starRingEnd ℂ) (tupOp I J (dt φ) (tupNat f)) * dt φ (tupNat f) = (n.factorial : ℂ) * rho n φ I J := by
  have e : ∀ f : Fin n → Fin M, (starRingEnd ℂ) (tupOp I J (dt φ) (tupNat f)) * dt φ (tupNat f) =
      ∑ a, (if tupNat f a = J then (starRingEnd ℂ) (dt φ (Function.update (tupNat f) a I)) * dt φ (tupNat f) else 0) := by
    intro f
    unfold tupOp
    rw [map_sum, Finset.sum_mul]
    refine Finset.sum_congr rfl fun a _ => ?_
    split_ifs <;> simp
  rw [Finset.sum_congr rfl fun f _ => e f, Finset.sum_comm, Finset.sum_congr rfl fun a _ => one_sum_at φ hφ hJ a]
  exact perm_orbit (fun k => (starRingEnd ℂ) (φ k I) * φ k J)

theorem two_sum_at {I J K L : Nat} (hJ : J < M) (hL : L < M) {a b : Fin n} (hab : a ≠ b) :
    ∑ f : Fin n → Fin M, (if tupNat f b = L then if tupNat f a = J then
      (starRingEnd ℂ) (dt φ (Function.update (Function.update (tupNat f) b K) a I)) * dt φ (tupNat f) else 0 else 0) =
      ∑ σ : Equiv.Perm (Fin n), ((starRingEnd ℂ) (φ (σ a) I) * φ (σ a) J * ((starRingEnd ℂ) (φ (σ b) K) * φ (σ b) L) -
        (starRingEnd ℂ) (φ (σ a) I) * φ (σ b) J * ((starRingEnd ℂ) (φ (σ b) K) * φ (σ a) L)) := by
  have h := andreief φ (M := M) (n := n)
    (fun i x => if i = a then (if (x : Nat) = J then 1 else 0) else if i = b then (if (x : Nat) = L then 1 else 0) else 1)
    (fun i x => if i = a then I else if i = b then K else x)
  have hQa : ∀ k m : Fin n, ∑ x : Fin M, (if a = a then (if (x : Nat) = J then (1 : ℂ) else 0) else if a = b then
      (if (x : Nat) = L then 1 else 0) else 1) * ((starRingEnd ℂ) (φ k (if a = a then I else if a = b then K else x)) * φ m x) =
      (starRingEnd ℂ) (φ k I) * φ m J := by
    intro k m
    rw [Finset.sum_eq_single (⟨J, hJ⟩ : Fin M)]
    · simp
    · intro x _ hx
      rw [if_pos rfl, if_neg (fun e => hx (Fin.ext e)), zero_mul]
    · intro h; exact absurd (mem_univ _) h
  have hQb : ∀ k m : Fin n, ∑ x : Fin M, (if b = a then (if (x : Nat) = J then (1 : ℂ) else 0) else if b = b then
      (if (x : Nat) = L then 1 else 0) else 1) * ((starRingEnd ℂ) (φ k (if b = a then I else if b = b then K else x)) * φ m x) =
      (starRingEnd ℂ) (φ k K) * φ m L := by
    intro k m
    rw [Finset.sum_eq_single (⟨L, hL⟩ : Fin M)]
    · simp [Ne.symm hab]
    · intro x _ hx
      rw [if_neg (Ne.symm hab), if_pos rfl, if_neg (fun e => hx (Fin.ext e)), zero_mul]
    · intro h; exact absurd (mem_univ _) h
  have h2 := fun σ : Equiv.Perm (Fin n) => perm_sum2 σ hab
    (fun i k m => ∑ x : Fin M, (if i = a then (if (x : Nat) = J then 1 else 0) else if i = b then
      (if (x : Nat) = L then 1 else 0) else 1) * ((starRingEnd ℂ) (φ k (if i = a then I else if i = b then K else x)) * φ m x))
    (fun i k m hi hi' => by simp only [if_neg hi, if_neg hi']; exact ortho_fin φ hφ k m)
  rw [Finset.sum_congr rfl fun σ _ => h2 σ] at h
  refine Eq.trans ?_ (h.trans (Finset.sum_congr rfl fun σ _ => ?_))
  swap
  · show _ * _ - _ * _ = _
    rw [hQa, hQa, hQb, hQb]
  refine Finset.sum_congr rfl fun f _ => ?_
  rw [← Finset.prod_subset (Finset.subset_univ {a, b}) (fun i _ hi => by
      simp only [mem_insert, mem_singleton, not_or] at hi
      rw [if_neg hi.1, if_neg hi.2]), Finset.prod_pair hab, if_pos rfl, if_neg (Ne.symm hab), if_pos rfl]
  have e : (fun i => if i = a then I else if i = b then K else ((f i : Fin M) : Nat)) =
      Function.update (Function.update (tupNat f) b K) a I := by
    funext i; rw [Function.update_apply, Function.update_apply]; rfl
  rw [e]
  show _ = (if tupNat f a = J then (1 : ℂ) else 0) * (if tupNat f b = L then (1 : ℂ) else 0) * _
  split_ifs <;> simp

omit hφ in
theorem tupOp_tupOp (I J K L : Nat) (F : (Fin n → Nat) → ℂ) (f : Fin n → Nat) :
    tupOp K L (tupOp I J F) f = (if K = J then tupOp I L F f else 0) +
      ∑ b, ∑ a, if a = b then 0 else if f b = L then if f a = J then F (Function.update (Function.update f b K) a I) else 0 else 0 := by
  have e : ∀ b, (if f b = L then tupOp I J F (Function.update f b K) else 0) =
      (if K = J then (if f b = L then F (Function.update f b I) else 0) else 0) +
      ∑ a, if a = b then 0 else if f b = L then if f a = J then F (Function.update (Function.update f b K) a I) else 0 else 0 := by
    intro b
    by_cases hL : f b = L
    · simp only [if_pos hL]
      unfold tupOp
      rw [← Finset.add_sum_erase _ _ (mem_univ b), ← Finset.add_sum_erase (univ : Finset (Fin n)) (fun a => if a = b then (0 : ℂ) else _) (mem_univ b)]
      rw [if_pos rfl, zero_add, Function.update_self, Function.update_idem]
      congr 1
      refine Finset.sum_congr rfl fun a ha => ?_
      have hab : a ≠ b := (Finset.mem_erase.mp ha).1
      rw [if_neg hab, Function.update_of_ne hab]
    · simp [hL]
  unfold tupOp at e ⊢
  rw [Finset.sum_congr rfl fun b _ => e b, Finset.sum_add_distrib]
  congr 1
  split_ifs <;> simp

theorem wick2_sum {I J K L : Nat} (hJ : J < M) (hL : L < M) :
    ∑ f : Fin n → Fin M, (starRingEnd ℂ) (tupOp K L (tupOp I J (dt φ)) (tupNat f)) * dt φ (tupNat f) =
      (n.factorial : ℂ) * (rho n φ I J * rho n φ K L - rho n φ I L * rho n φ K J + if K = J then rho n φ I L else 0) := by
  have e : ∀ f : Fin n → Fin M, (starRingEnd ℂ) (tupOp K L (tupOp I J (dt φ)) (tupNat f)) * dt φ (tupNat f) =
      (if K = J then (starRingEnd ℂ) (tupOp I L (dt φ) (tupNat f)) * dt φ (tupNat f) else 0) +
      ∑ b, ∑ a, if a = b then 0 else (if tupNat f b = L then if tupNat f a = J then
        (starRingEnd ℂ) (dt φ (Function.update (Function.update (tupNat f) b K) a I)) * dt φ (tupNat f) else 0 else 0) := by
    intro f
    rw [tupOp_tupOp, map_add, add_mul]
    congr 1
    · split_ifs <;> simp
    · rw [map_sum, Finset.sum_mul]
      refine Finset.sum_congr rfl fun b _ => ?_
      rw [map_sum, Finset.sum_mul]
      refine Finset.sum_congr rfl fun a _ => ?_
      split_ifs <;> simp
  rw [Finset.sum_congr rfl fun f _ => e f, Finset.sum_add_distrib]
  have p1 : ∑ f : Fin n → Fin M, (if K = J then (starRingEnd ℂ) (tupOp I L (dt φ) (tupNat f)) * dt φ (tupNat f) else 0) =
      (n.factorial : ℂ) * (if K = J then rho n φ I L else 0) := by
    by_cases h : K = J
    · simp only [if_pos h]; exact wick1_sum φ hφ hL
    · simp [h]
  have p2 : ∑ f : Fin n → Fin M, ∑ b, ∑ a, (if a = b then 0 else (if tupNat f b = L then if tupNat f a = J then
        (starRingEnd ℂ) (dt φ (Function.update (Function.update (tupNat f) b K) a I)) * dt φ (tupNat f) else 0 else 0)) =
      (n.factorial : ℂ) * (rho n φ I J * rho n φ K L - rho n φ I L * rho n φ K J) := by
    have q : ∀ b a : Fin n, ∑ f : Fin n → Fin M, (if a = b then 0 else (if tupNat f b = L then if tupNat f a = J then
        (starRingEnd ℂ) (dt φ (Function.update (Function.update (tupNat f) b K) a I)) * dt φ (tupNat f) else 0 else 0)) =
        ∑ σ : Equiv.Perm (Fin n), (fun k m : Fin n => (starRingEnd ℂ) (φ k I) * φ k J * ((starRingEnd ℂ) (φ m K) * φ m L) -
          (starRingEnd ℂ) (φ k I) * φ m J * ((starRingEnd ℂ) (φ m K) * φ k L)) (σ a) (σ b) := by
      intro b a
      by_cases hab : a = b
      · subst hab
        simp only [if_true, Finset.sum_const_zero]
        symm; apply Finset.sum_eq_zero
        intro σ _; ring
      · simp only [if_neg hab]
        exact two_sum_at φ hφ hJ hL hab
    rw [Finset.sum_comm, Finset.sum_congr rfl fun b _ => Finset.sum_comm]
    rw [Finset.sum_congr rfl fun b _ => Finset.sum_congr rfl fun a _ => q b a,
      perm_orbit2 (fun k m : Fin n => (starRingEnd ℂ) (φ k I) * φ k J * ((starRingEnd ℂ) (φ m K) * φ m L) -
          (starRingEnd ℂ) (φ k I) * φ m J * ((starRingEnd ℂ) (φ m K) * φ k L))]
    congr 1
    unfold rho
    simp only [Finset.sum_mul_sum, ← Finset.sum_sub_distrib]
    refine Finset.sum_congr rfl fun k _ => Finset.sum_congr rfl fun m _ => by ring
  rw [p1, p2]; ring

/-! ### expectation values -/

omit hφ in
theorem normSq_mul_conj_div (z w : ℂ) : (Complex.normSq z : ℂ) * (starRingEnd ℂ) (w / z) = (starRingEnd ℂ) w * z := by
  by_cases hz : z = 0
  · subst hz; simp
  · have hz' : (starRingEnd ℂ) z ≠ 0 := (map_ne_zero _).mpr hz
    rw [Complex.normSq_eq_conj_mul_self, map_div₀]
    field_simp

theorem norm_real : ((∑ f : Fin n → Fin M, Complex.normSq (slater n φ (List.ofFn fun i => (f i : Nat))) : ℝ) : ℂ) = (n.factorial : ℂ) := by
  rw [← norm_sum φ hφ, Complex.ofReal_sum]
  refine Finset.sum_congr rfl fun f _ => ?_
  rw [Complex.normSq_eq_conj_mul_self]
  have := slater_ofFn φ (tupNat f)
  unfold tupNat at this ⊢
  rw [this]

omit hφ in
theorem weight_term (ops : List Op) (T : (Fin n → Nat) → ℂ) (f : Fin n → Fin M)
    (h : Function.Injective (tupNat f) → overlap (slater n φ) (actAll ops (some (1, List.ofFn (tupNat f)))) = T (tupNat f)) :
    (Complex.normSq (slater n φ (List.ofFn fun i => (f i : Nat))) : ℂ) *
      matrixElement (slater n φ) ops (List.ofFn fun i => (f i : Nat)) = (starRingEnd ℂ) (T (tupNat f)) * dt φ (tupNat f) := by
  show (Complex.normSq (slater n φ (List.ofFn (tupNat f))) : ℂ) * matrixElement (slater n φ) ops (List.ofFn (tupNat f)) = _
  unfold matrixElement
  rw [normSq_mul_conj_div, slater_ofFn]
  by_cases hi : Function.Injective (tupNat f)
  · rw [h hi]
  · unfold Function.Injective at hi
    push Not at hi
    obtain ⟨p, q, e, hne⟩ := hi
    rw [dt_dup φ hne e, mul_zero, mul_zero]

omit hφ in
theorem ofFn_nodup {f : Fin n → Fin M} (h : Function.Injective (tupNat f)) :
    (List.ofFn (tupNat f)).Nodup ∧ ∀ z ∈ List.ofFn (tupNat f), z < M := by
  refine ⟨List.nodup_ofFn.mpr h, fun z hz => ?_⟩
  obtain ⟨i, rfl⟩ := (List.mem_ofFn' _ _).mp hz
  exact (f i).2

/-- `<c†_I c_J>` in a Slater determinant -/
theorem wick1 {I J : Nat} (hI : I < M) (hJ : J < M) :
    average M n (slater n φ) (matrixElement (slater n φ) [.cr I, .an J]) = rho n φ I J := by
  unfold average
  rw [norm_real φ hφ, Finset.sum_congr rfl fun f _ => weight_term φ [.cr I, .an J] (tupOp I J (dt φ)) f (fun hi => by
    obtain ⟨hn, hr⟩ := ofFn_nodup hi
    rw [overlap_one_body (slater_anti φ M) hI hn hr]
    exact one_tup (alt_dt φ) hi (fun g _ => slater_ofFn φ g) I J), wick1_sum φ hφ hJ,
    mul_div_cancel_left₀ _ (Nat.cast_ne_zero.mpr n.factorial_ne_zero)]

omit hφ in
theorem alt_tupOp {F : (Fin n → Nat) → ℂ} (hF : Alt F) (I J : Nat) : Alt (tupOp I J F) where
  dup f p q h e := tupOp_dup hF I J h e
  swap f p q h := by
    unfold tupOp
    rw [← Finset.sum_neg_distrib, ← Equiv.sum_comp (Equiv.swap p q)]
    refine Finset.sum_congr rfl fun a _ => ?_
    have e : Function.update (f ∘ Equiv.swap p q) (Equiv.swap p q a) I = (Function.update f a I) ∘ Equiv.swap p q := by
      funext x
      simp only [Function.comp, Function.update_apply]
      by_cases hx : x = Equiv.swap p q a
      · subst hx; simp
      · rw [if_neg hx, if_neg]
        intro e; apply hx; rw [← e]; simp
    simp only [Function.comp, Equiv.swap_apply_self] at e ⊢
    rw [e]
    split_ifs
    · exact hF.swap _ p q h
    · simp

/-- `<c†_I c_J c†_K c_L>` in a Slater determinant -/
theorem wick2 {I J K L : Nat} (hI : I < M) (hJ : J < M) (hK : K < M) (hL : L < M) :
    average M n (slater n φ) (matrixElement (slater n φ) [.cr I, .an J, .cr K, .an L]) =
      rho n φ I J * rho n φ K L - rho n φ I L * rho n φ K J + if K = J then rho n φ I L else 0 := by
  unfold average
  rw [norm_real φ hφ, Finset.sum_congr rfl fun f _ => weight_term φ [.cr I, .an J, .cr K, .an L] (tupOp K L (tupOp I J (dt φ))) f (fun hi => by
    obtain ⟨hn, hr⟩ := ofFn_nodup hi
    rw [overlap_two_body (slater_anti φ M) hI hK hn hr]
    have inner := one_tup (F := fun l => if J ∈ l ∧ (I ∉ l ∨ I = J) then slater n φ (repl J I l) else 0) (alt_tupOp (alt_dt φ) I J) hi
      (fun g hg => one_tup (alt_dt φ) hg (fun g _ => slater_ofFn φ g) I J) K L
    exact inner), wick2_sum φ hφ hJ hL,
    mul_div_cancel_left₀ _ (Nat.cast_ne_zero.mpr n.factorial_ne_zero)]

end
end MVMC
