import Verif.Spec.Fock
import Verif.Proof.InvUpdate

/-! Lemmas on operators acting on occupation lists. -/
namespace MVMC
open MVMC.Spec

/-- antisymmetric on duplicate-free lists of orbitals below `M` -/
def Anti (M : Nat) (F : List Nat → ℂ) : Prop :=
  ∀ p x y s, (p ++ x :: y :: s).Nodup → (∀ z ∈ p ++ x :: y :: s, z < M) → F (p ++ x :: y :: s) = - F (p ++ y :: x :: s)

/-- what `c†_I` does to a functional on kets -/
noncomputable def crD (I : Nat) (F : List Nat → ℂ) (l : List Nat) : ℂ := if I ∈ l then 0 else F (I :: l)
noncomputable def anD (J : Nat) (F : List Nat → ℂ) (l : List Nat) : ℂ := if J ∈ l then (-1) ^ l.idxOf J * F (l.erase J) else 0

theorem overlap_cr (F : List Nat → ℂ) (I : Nat) (k : Ket) : overlap F (Op.act (.cr I) k) = overlap (crD I F) k := by
  match k with
  | none => rfl
  | some (σ, l) =>
    simp only [Op.act, overlap, crD]
    by_cases h : I ∈ l
    · rw [if_pos h, if_pos h]; simp
    · rw [if_neg h, if_neg h]

theorem overlap_an (F : List Nat → ℂ) (J : Nat) (k : Ket) : overlap F (Op.act (.an J) k) = overlap (anD J F) k := by
  match k with
  | none => rfl
  | some (σ, l) =>
    simp only [Op.act, overlap, anD]
    by_cases h : J ∈ l
    · rw [if_pos h, if_pos h]; push_cast; ring
    · rw [if_neg h, if_neg h]; simp

theorem anti_cr {M : Nat} {F : List Nat → ℂ} (hF : Anti M F) {I : Nat} (hI : I < M) : Anti M (crD I F) := by
  intro p x y s hn hr
  have e : (I ∈ p ++ x :: y :: s) ↔ (I ∈ p ++ y :: x :: s) := by simp only [List.mem_append, List.mem_cons]; tauto
  unfold crD
  by_cases h : I ∈ p ++ x :: y :: s
  · rw [if_pos h, if_pos (e.mp h)]; simp
  · rw [if_neg h, if_neg (fun h' => h (e.mpr h'))]
    have := hF (I :: p) x y s (by simpa using ⟨by simpa using h, by simpa using hn⟩)
      (by intro z hz; simp only [List.cons_append, List.mem_cons] at hz
          rcases hz with rfl | hz
          · exact hI
          · exact hr z hz)
    simpa using this

theorem idxOf_mid {p s : List Nat} {x : Nat} (h : x ∉ p) : (p ++ x :: s).idxOf x = p.length := by
  rw [List.idxOf_append, if_neg h]; simp

theorem erase_mid {p s : List Nat} {x : Nat} (h : x ∉ p) : (p ++ x :: s).erase x = p ++ s := by
  rw [List.erase_append_right _ h]; simp

theorem anti_an {M : Nat} {F : List Nat → ℂ} (hF : Anti M F) (J : Nat) : Anti M (anD J F) := by
  intro p x y s hn hr
  have e : (J ∈ p ++ x :: y :: s) ↔ (J ∈ p ++ y :: x :: s) := by simp only [List.mem_append, List.mem_cons]; tauto
  unfold anD
  by_cases h : J ∈ p ++ x :: y :: s
  · rw [if_pos h, if_pos (e.mp h)]
    have hn' := hn
    rw [List.nodup_append] at hn'
    obtain ⟨hp, hxs, hd⟩ := hn'
    by_cases hJp : J ∈ p
    · rw [List.idxOf_append, if_pos hJp, List.idxOf_append, if_pos hJp, List.erase_append_left _ hJp, List.erase_append_left _ hJp,
        hF (p.erase J) x y s ?_ ?_]
      · ring
      · have := hn.erase J
        rwa [List.erase_append_left _ hJp] at this
      · intro z hz
        apply hr z
        rw [List.mem_append] at hz ⊢
        rcases hz with hz | hz
        · exact Or.inl (List.mem_of_mem_erase hz)
        · exact Or.inr hz
    · rcases List.mem_append.mp h with h1 | h1
      · exact absurd h1 hJp
      rw [List.mem_cons] at h1
      rw [List.nodup_cons] at hxs
      rcases h1 with rfl | h1
      · have hne : J ≠ y := fun e => hxs.1 (by simp [e])
        have e2 : p ++ y :: J :: s = (p ++ [y]) ++ J :: s := by simp
        rw [e2, idxOf_mid hJp, erase_mid hJp, idxOf_mid (by simp [hJp, hne]), erase_mid (by simp [hJp, hne])]
        simp only [List.length_append, List.length_singleton, List.append_assoc, List.singleton_append]
        ring
      · rw [List.mem_cons] at h1
        have hJx : J ≠ x := by rintro rfl; exact hxs.1 (by simpa using h1)
        rcases h1 with rfl | h1
        · have e2 : p ++ x :: J :: s = (p ++ [x]) ++ J :: s := by simp
          rw [e2, idxOf_mid (by simp [hJp, hJx]), erase_mid (by simp [hJp, hJx]), idxOf_mid hJp, erase_mid hJp]
          simp only [List.length_append, List.length_singleton, List.append_assoc, List.singleton_append]
          ring
        · have hxs2 := hxs.2
          rw [List.nodup_cons] at hxs2
          have hJy : J ≠ y := by rintro rfl; exact hxs2.1 h1
          have i1 : (p ++ x :: y :: s).idxOf J = p.length + (s.idxOf J + 2) := by
            rw [List.idxOf_append, if_neg hJp, List.idxOf_cons_ne _ (Ne.symm hJx), List.idxOf_cons_ne _ (Ne.symm hJy)]; omega
          have i2 : (p ++ y :: x :: s).idxOf J = p.length + (s.idxOf J + 2) := by
            rw [List.idxOf_append, if_neg hJp, List.idxOf_cons_ne _ (Ne.symm hJy), List.idxOf_cons_ne _ (Ne.symm hJx)]; omega
          have e1 : (p ++ x :: y :: s).erase J = p ++ x :: y :: s.erase J := by
            rw [List.erase_append_right _ hJp, List.erase_cons_tail (by simpa using hJx.symm),
              List.erase_cons_tail (by simpa using hJy.symm)]
          have e2 : (p ++ y :: x :: s).erase J = p ++ y :: x :: s.erase J := by
            rw [List.erase_append_right _ hJp, List.erase_cons_tail (by simpa using hJy.symm),
              List.erase_cons_tail (by simpa using hJx.symm)]
          rw [i1, i2, e1, e2, hF p x y (s.erase J) ?_ ?_]
          · ring
          · have := hn.erase J; rwa [e1] at this
          · intro z hz
            apply hr z
            rw [← e1] at hz
            exact List.mem_of_mem_erase hz
  · rw [if_neg h, if_neg (fun h' => h (e.mpr h'))]; simp

/-- the orbital `J` renamed to `I` -/
def repl (J I : Nat) (l : List Nat) : List Nat := l.map (fun x => if x = J then I else x)

theorem mem_repl {J I x : Nat} {l : List Nat} : x ∈ repl J I l ↔ (x = I ∧ J ∈ l) ∨ (x ≠ J ∧ x ∈ l) := by
  unfold repl
  rw [List.mem_map]
  constructor
  · rintro ⟨y, hy, e⟩
    by_cases h : y = J
    · rw [if_pos h] at e; subst h; exact Or.inl ⟨e.symm, hy⟩
    · rw [if_neg h] at e; subst e; exact Or.inr ⟨h, hy⟩
  · rintro (⟨rfl, h⟩ | ⟨h, hx⟩)
    · exact ⟨J, h, by simp⟩
    · exact ⟨x, hx, by simp [h]⟩

theorem repl_same (J : Nat) (l : List Nat) : repl J J l = l := by
  unfold repl
  conv_rhs => rw [← List.map_id l]
  apply List.map_congr_left
  intro x _
  split <;> simp_all

theorem repl_notin {J I : Nat} {l : List Nat} (h : J ∉ l) : repl J I l = l := by
  unfold repl
  conv_rhs => rw [← List.map_id l]
  apply List.map_congr_left
  intro x hx
  rw [if_neg (by rintro rfl; exact h hx)]; rfl

theorem repl_repl {J K I : Nat} {l : List Nat} (h : K ∉ l) : repl K I (repl J K l) = repl J I l := by
  unfold repl
  rw [List.map_map]
  apply List.map_congr_left
  intro x hx
  simp only [Function.comp]
  by_cases e : x = J
  · rw [if_pos e, if_pos e, if_pos rfl]
  · rw [if_neg e, if_neg e, if_neg (by rintro rfl; exact h hx)]

theorem repl_mid {p s : List Nat} {J I : Nat} (h : J ∉ p) (h' : J ∉ s) : repl J I (p ++ J :: s) = p ++ I :: s := by
  have a := repl_notin (I := I) h
  have b := repl_notin (I := I) h'
  unfold repl at *
  rw [List.map_append, List.map_cons, a, b, if_pos rfl]

theorem nodup_repl {J I : Nat} {l : List Nat} (hn : l.Nodup) (h : I ∉ l ∨ I = J) : (repl J I l).Nodup := by
  unfold repl
  rw [List.nodup_map_iff_inj_on hn]
  intro x hx y hy e
  by_cases h1 : x = J <;> by_cases h2 : y = J
  · rw [h1, h2]
  · rw [if_pos h1, if_neg h2] at e
    rcases h with h | h
    · exact absurd (e ▸ hy) h
    · exact absurd (e.symm.trans h) h2
  · rw [if_neg h1, if_pos h2] at e
    rcases h with h | h
    · exact absurd (e ▸ hx) h
    · exact absurd (e.trans h) h1
  · rwa [if_neg h1, if_neg h2] at e

theorem lt_repl {M J I : Nat} {l : List Nat} (hr : ∀ z ∈ l, z < M) (hI : I < M) : ∀ z ∈ repl J I l, z < M := by
  intro z hz
  rcases mem_repl.mp hz with ⟨rfl, _⟩ | ⟨_, h⟩
  · exact hI
  · exact hr z h

theorem anti_move {M : Nat} {F : List Nat → ℂ} (hF : Anti M F) (I : Nat) : ∀ (p q s : List Nat),
    (q ++ I :: (p ++ s)).Nodup → (∀ z ∈ q ++ I :: (p ++ s), z < M) →
      F (q ++ I :: (p ++ s)) = (-1) ^ p.length * F (q ++ p ++ I :: s) := by
  intro p
  induction p with
  | nil => intro q s _ _; simp
  | cons y p ih =>
    intro q s hn hr
    rw [List.cons_append, hF q I y (p ++ s) hn hr]
    have e : q ++ y :: I :: (p ++ s) = (q ++ [y]) ++ I :: (p ++ s) := by simp
    have hperm : ((q ++ [y]) ++ I :: (p ++ s)).Perm (q ++ I :: (y :: p ++ s)) := by
      rw [← e]
      exact (List.Perm.swap I y (p ++ s)).append_left q
    rw [e, ih (q ++ [y]) s (hperm.nodup_iff.mpr hn) (fun z hz => hr z (hperm.mem_iff.mp hz))]
    simp only [List.length_cons, List.append_assoc, List.cons_append, List.nil_append]
    ring

theorem anti_front {M : Nat} {F : List Nat → ℂ} (hF : Anti M F) (I : Nat) (p s : List Nat) (hn : (I :: (p ++ s)).Nodup)
    (hr : ∀ z ∈ I :: (p ++ s), z < M) : F (I :: (p ++ s)) = (-1) ^ p.length * F (p ++ I :: s) := by
  simpa using anti_move hF I p [] s (by simpa using hn) (by simpa using hr)

theorem anti_exchange {M : Nat} {F : List Nat → ℂ} (hF : Anti M F) (p q s : List Nat) (x y : Nat)
    (hn : (p ++ x :: (q ++ y :: s)).Nodup) (hr : ∀ z ∈ p ++ x :: (q ++ y :: s), z < M) :
    F (p ++ x :: (q ++ y :: s)) = - F (p ++ y :: (q ++ x :: s)) := by
  have P1 : (p ++ q ++ x :: y :: s).Perm (p ++ x :: (q ++ y :: s)) := by
    rw [List.append_assoc]; exact List.perm_middle.append_left p
  have P2 : (p ++ y :: (q ++ x :: s)).Perm (p ++ x :: (q ++ y :: s)) := by
    refine List.Perm.append_left p ?_
    refine (List.Perm.cons y List.perm_middle).trans ?_
    refine (List.Perm.swap x y (q ++ s)).trans ?_
    exact List.Perm.cons x List.perm_middle.symm
  rw [anti_move hF x q p (y :: s) hn hr, anti_move hF y q p (x :: s) (P2.nodup_iff.mpr hn) (fun z hz => hr z (P2.mem_iff.mp hz)),
    hF (p ++ q) x y s (P1.nodup_iff.mpr hn) (fun z hz => hr z (P1.mem_iff.mp hz))]
  ring

/-- exchanging the names of two occupied orbitals changes the sign -/
theorem anti_rename {M : Nat} {F : List Nat → ℂ} (hF : Anti M F) {a b c : Nat} {l : List Nat} (hn : l.Nodup)
    (hr : ∀ z ∈ l, z < M) (ha : a ∈ l) (hb : b ∈ l) (hab : a ≠ b) (hc : c ∉ l) (hcM : c < M) :
    F (repl a b (repl b c l)) = - F (repl a c l) := by
  obtain ⟨p, s, rfl, hap⟩ := List.eq_append_cons_of_mem ha
  have hnd := hn
  rw [List.nodup_append, List.nodup_cons] at hn
  obtain ⟨hp, ⟨has, hs⟩, hd⟩ := hn
  have hca : c ≠ a := fun e => hc (by simp [e])
  simp only [List.mem_append, List.mem_cons, not_or] at hc
  have hrr : ∀ z ∈ repl a c (p ++ a :: s), z < M := lt_repl hr hcM
  have hnn : (repl a c (p ++ a :: s)).Nodup := nodup_repl hnd (Or.inl (by simp [hc, hca]))
  rw [repl_mid hap has] at hrr hnn ⊢
  rcases List.mem_append.mp hb with hbp | hbs
  · obtain ⟨p1, p2, rfl, hb1⟩ := List.eq_append_cons_of_mem hbp
    have hb2 : b ∉ p2 := by rw [List.nodup_append, List.nodup_cons] at hp; exact hp.2.1.1
    have hbs : b ∉ s := by
      intro h
      exact absurd rfl (hd b (by simp) b (by simp [h]))
    have e1 : repl b c (p1 ++ b :: p2 ++ a :: s) = p1 ++ c :: p2 ++ a :: s := by
      rw [List.append_assoc, List.cons_append, repl_mid hb1 (by simp [hb2, hbs, hab.symm])]; simp
    rw [e1, repl_mid (by simp only [List.mem_append, List.mem_cons, not_or] at hap ⊢; exact ⟨hap.1, fun e => hca e.symm, hap.2.2⟩) has]
    have e2 : p1 ++ b :: p2 ++ c :: s = p1 ++ b :: (p2 ++ c :: s) := by simp
    rw [e2] at hnn hrr ⊢
    rw [anti_exchange hF p1 p2 s b c hnn hrr]
    simp
  · rcases List.mem_cons.mp hbs with rfl | hbs
    · exact absurd rfl hab
    obtain ⟨s1, s2, rfl, hb1⟩ := List.eq_append_cons_of_mem hbs
    have hb2 : b ∉ s2 := by rw [List.nodup_append, List.nodup_cons] at hs; exact hs.2.1.1
    have hbp : b ∉ p := by
      intro h
      exact absurd rfl (hd b h b (by simp))
    have e1 : repl b c (p ++ a :: (s1 ++ b :: s2)) = p ++ a :: (s1 ++ c :: s2) := by
      have := repl_mid (I := c) (p := p ++ a :: s1) (s := s2) (J := b) (by simp [hbp, hb1, hab.symm]) hb2
      simpa using this
    rw [e1, repl_mid hap (by simp only [List.mem_append, List.mem_cons, not_or] at has ⊢; exact ⟨has.1, fun e => hca e.symm, has.2.2⟩)]
    rw [anti_exchange hF p s1 s2 c b hnn hrr]
    simp

/-- one-body operator -/
theorem one_body {M : Nat} {F : List Nat → ℂ} (hF : Anti M F) {I J : Nat} (hI : I < M) {l : List Nat} (hn : l.Nodup)
    (hr : ∀ z ∈ l, z < M) :
    anD J (crD I F) l = if J ∈ l ∧ (I ∉ l ∨ I = J) then F (repl J I l) else 0 := by
  unfold anD crD
  by_cases hJ : J ∈ l
  · rw [if_pos hJ]
    obtain ⟨p, s, rfl, hJp⟩ := List.eq_append_cons_of_mem hJ
    have hn' := hn
    rw [List.nodup_append] at hn'
    have hJs : J ∉ s := (List.nodup_cons.mp hn'.2.1).1
    rw [idxOf_mid hJp, erase_mid hJp, repl_mid hJp hJs]
    have hmem : I ∈ p ++ s ↔ I ∈ p ++ J :: s ∧ I ≠ J := by
      simp only [List.mem_append, List.mem_cons]
      constructor
      · rintro (h | h)
        · exact ⟨Or.inl h, fun e => hJp (e ▸ h)⟩
        · exact ⟨Or.inr (Or.inr h), fun e => hJs (e ▸ h)⟩
      · rintro ⟨h | h | h, e⟩
        · exact Or.inl h
        · exact absurd h e
        · exact Or.inr h
    by_cases hIl : I ∈ p ++ s
    · rw [if_pos hIl, if_neg]
      · simp
      · rintro ⟨_, h | h⟩
        · exact h (hmem.mp hIl).1
        · exact (hmem.mp hIl).2 h
    · rw [if_neg hIl, if_pos]
      · rw [anti_front hF I p s]
        · rw [← mul_assoc, ← pow_add, ← two_mul, pow_mul]; simp
        · rw [List.nodup_cons]
          refine ⟨hIl, ?_⟩
          have := hn.erase J
          rwa [erase_mid hJp] at this
        · intro z hz
          rcases List.mem_cons.mp hz with rfl | hz
          · exact hI
          · apply hr
            simp only [List.mem_append, List.mem_cons] at hz ⊢
            tauto
      · refine ⟨hJ, ?_⟩
        by_cases e : I = J
        · exact Or.inr e
        · exact Or.inl (fun h => hIl (hmem.mpr ⟨h, e⟩))
  · rw [if_neg hJ, if_neg (fun h => hJ h.1)]

theorem overlap_one (F : List Nat → ℂ) (l : List Nat) : overlap F (some (1, l)) = F l := by simp [overlap]

/-- value of `<ψ|c†_I c_J|x>` -/
theorem overlap_one_body {M : Nat} {F : List Nat → ℂ} (hF : Anti M F) {I J : Nat} (hI : I < M) {l : List Nat} (hn : l.Nodup)
    (hr : ∀ z ∈ l, z < M) :
    overlap F (actAll [.cr I, .an J] (some (1, l))) = if J ∈ l ∧ (I ∉ l ∨ I = J) then F (repl J I l) else 0 := by
  show overlap F (Op.act (.cr I) (Op.act (.an J) (some (1, l)))) = _
  rw [overlap_cr, overlap_an, overlap_one, one_body hF hI hn hr]

/-- value of `<ψ|c†_I c_J c†_K c_L|x>` -/
theorem overlap_two_body {M : Nat} {F : List Nat → ℂ} (hF : Anti M F) {I J K L : Nat} (hI : I < M) (hK : K < M)
    {l : List Nat} (hn : l.Nodup) (hr : ∀ z ∈ l, z < M) :
    overlap F (actAll [.cr I, .an J, .cr K, .an L] (some (1, l))) =
      if L ∈ l ∧ (K ∉ l ∨ K = L) then
        (if J ∈ repl L K l ∧ (I ∉ repl L K l ∨ I = J) then F (repl J I (repl L K l)) else 0) else 0 := by
  show overlap F (Op.act (.cr I) (Op.act (.an J) (Op.act (.cr K) (Op.act (.an L) (some (1, l)))))) = _
  rw [overlap_cr, overlap_an, overlap_cr, overlap_an, overlap_one, one_body (anti_an (anti_cr hF hI) J) hK hn hr]
  by_cases h : L ∈ l ∧ (K ∉ l ∨ K = L)
  · rw [if_pos h, if_pos h, one_body hF hI (nodup_repl hn h.2) (lt_repl hr hK)]
  · rw [if_neg h, if_neg h]

/-! ### the special cases of a two-body operator -/

section cases
variable {M : Nat} {F : List Nat → ℂ} (hF : Anti M F) {I J K L : Nat} (hI : I < M) (hJ : J < M) (hK : K < M) (hL : L < M)
  {l : List Nat} (hn : l.Nodup) (hr : ∀ z ∈ l, z < M)
include hF hn hr

/-- `overlap` with `c†_I c_J |l>` -/
noncomputable def ov1 (F : List Nat → ℂ) (I J : Nat) (l : List Nat) : ℂ := overlap F (actAll [.cr I, .an J] (some (1, l)))
noncomputable def ov2 (F : List Nat → ℂ) (I J K L : Nat) (l : List Nat) : ℂ :=
  overlap F (actAll [.cr I, .an J, .cr K, .an L] (some (1, l)))

include hI in
theorem ov1_same : ov1 F I I l = if I ∈ l then F l else 0 := by
  unfold ov1
  rw [overlap_one_body hF hI hn hr, repl_same]
  simp

include hI in
theorem ov1_hop (h : I ≠ J) : ov1 F I J l = if J ∈ l ∧ I ∉ l then F (repl J I l) else 0 := by
  unfold ov1
  rw [overlap_one_body hF hI hn hr]
  simp [h]

include hI hK in
theorem ov2_KK : ov2 F I J K K l = if K ∈ l then ov1 F I J l else 0 := by
  unfold ov2 ov1
  rw [overlap_two_body hF hI hK hn hr, overlap_one_body hF hI hn hr, repl_same]
  by_cases h : K ∈ l <;> simp [h]

include hI hK in
theorem ov2_JL (h : K ≠ L) : ov2 F I L K L l = 0 := by
  unfold ov2
  rw [overlap_two_body hF hI hK hn hr]
  by_cases h1 : L ∈ l ∧ (K ∉ l ∨ K = L)
  · rw [if_pos h1, if_neg]
    rintro ⟨h2, _⟩
    rw [mem_repl] at h2
    rcases h2 with ⟨h2, _⟩ | ⟨h2, _⟩
    · exact h h2.symm
    · exact h2 rfl
  · rw [if_neg h1]

include hK hL in
theorem ov2_IL_JK (h : K ≠ L) : ov2 F L K K L l = if L ∈ l ∧ K ∉ l then F l else 0 := by
  unfold ov2
  rw [overlap_two_body hF hL hK hn hr]
  by_cases h1 : L ∈ l ∧ K ∉ l
  · rw [if_pos ⟨h1.1, Or.inl h1.2⟩, if_pos h1, if_pos, repl_repl h1.2, repl_same]
    rw [mem_repl, mem_repl]
    exact ⟨Or.inl ⟨rfl, h1.1⟩, Or.inl (by rintro (h2 | h2); exacts [h h2.1.symm, h2.1 rfl])⟩
  · rw [if_neg (by simpa [h] using h1), if_neg h1]

include hK hL in
theorem ov2_IL (h : K ≠ L) (h2 : J ≠ L) (h3 : J ≠ K) : ov2 F L J K L l = if L ∈ l then - ov1 F K J l else 0 := by
  unfold ov2 ov1
  rw [overlap_two_body hF hL hK hn hr, overlap_one_body hF hK hn hr]
  by_cases hLl : L ∈ l
  · by_cases hKl : K ∈ l
    · simp [hLl, hKl, h, Ne.symm h3]
    · by_cases hJl : J ∈ l
      · rw [if_pos ⟨hLl, Or.inl hKl⟩, if_pos, if_pos hLl, if_pos ⟨hJl, Or.inl hKl⟩,
          anti_rename hF hn hr hJl hLl h2 hKl hK]
        rw [mem_repl, mem_repl]
        exact ⟨Or.inr ⟨h2, hJl⟩, Or.inl (by rintro (q | q); exacts [h q.1.symm, q.1 rfl])⟩
      · rw [if_pos ⟨hLl, Or.inl hKl⟩, if_neg, if_pos hLl, if_neg (fun q => hJl q.1)]
        · simp
        · rw [mem_repl]; tauto
  · simp [hLl]

include hI hK in
theorem ov2_JK (h : K ≠ L) (h2 : I ≠ L) : ov2 F I K K L l = if K ∈ l then 0 else ov1 F I L l := by
  unfold ov2 ov1
  rw [overlap_two_body hF hI hK hn hr, overlap_one_body hF hI hn hr]
  by_cases hKl : K ∈ l
  · simp [hKl, h]
  · by_cases hLl : L ∈ l
    · rw [if_pos ⟨hLl, Or.inl hKl⟩, if_neg hKl, repl_repl hKl]
      by_cases hIK : I = K
      · subst hIK
        rw [if_pos ⟨mem_repl.mpr (Or.inl ⟨rfl, hLl⟩), Or.inr rfl⟩, if_pos ⟨hLl, Or.inl hKl⟩]
      · by_cases hIl : I ∈ l
        · rw [if_neg, if_neg]
          · rintro ⟨_, q | q⟩
            · exact q hIl
            · exact h2 q
          · rintro ⟨_, q | q⟩
            · exact q (mem_repl.mpr (Or.inr ⟨h2, hIl⟩))
            · exact hIK q
        · have hm : I ∉ repl L K l := by
            rw [mem_repl]
            rintro (q | q)
            · exact hIK q.1
            · exact hIl q.2
          rw [if_pos ⟨mem_repl.mpr (Or.inl ⟨rfl, hLl⟩), Or.inl hm⟩, if_pos ⟨hLl, Or.inl hIl⟩]
    · simp [hKl, hLl]

include hK in
theorem ov2_IK (h : K ≠ J) : ov2 F K J K L l = 0 := by
  unfold ov2
  rw [overlap_two_body hF hK hK hn hr]
  by_cases h1 : L ∈ l ∧ (K ∉ l ∨ K = L)
  · rw [if_pos h1, if_neg]
    rintro ⟨_, h2 | h2⟩
    · exact h2 (mem_repl.mpr (Or.inl ⟨rfl, h1.1⟩))
    · exact h h2
  · rw [if_neg h1]

include hI hK in
theorem ov2_IJ (h : I ≠ K) (h2 : I ≠ L) : ov2 F I I K L l = if I ∈ l then ov1 F K L l else 0 := by
  unfold ov2 ov1
  rw [overlap_two_body hF hI hK hn hr, overlap_one_body hF hK hn hr, repl_same]
  by_cases hIl : I ∈ l
  · simp [mem_repl, hIl, h, h2]
  · simp [mem_repl, hIl, h]

include hI hK in
theorem ov2_distinct (h1 : I ≠ J) (h2 : I ≠ K) (h3 : I ≠ L) (h4 : J ≠ K) (h5 : J ≠ L) (h6 : K ≠ L) :
    ov2 F I J K L l = if I ∉ l ∧ J ∈ l ∧ K ∉ l ∧ L ∈ l then F (repl J I (repl L K l)) else 0 := by
  unfold ov2
  rw [overlap_two_body hF hI hK hn hr]
  simp only [mem_repl, h1, h2, h3, h4, h5, h6, false_and, or_false, false_or, ne_eq, not_false_eq_true, true_and]
  by_cases a : L ∈ l <;> by_cases b : K ∈ l <;> by_cases c : J ∈ l <;> by_cases d : I ∈ l <;> simp [a, b, c, d]

end cases

end MVMC
