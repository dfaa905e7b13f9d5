import Verif.Proof.SpinDer

/-! Total spin as derivations. -/
namespace MVMC
open MVMC.Spec

/-- the other spin -/
def flipS (N x : Nat) : Nat := if x < N then x + N else if x < 2 * N then x - N else x

noncomputable def upS (N x : Nat) : ℂ := if x < N then 1 else 0
noncomputable def dnS (N x : Nat) : ℂ := if x < N then 0 else 1
noncomputable def zS (N x : Nat) : ℂ := if x < N then 1 / 2 else -(1 / 2)

theorem flipS_lt {N x : Nat} (h : x < 2 * N) : flipS N x < 2 * N := by unfold flipS; split_ifs <;> omega
theorem flipS_flip {N x : Nat} (h : x < 2 * N) : flipS N (flipS N x) = x := by unfold flipS; split_ifs <;> omega
theorem flipS_iff {N x : Nat} (h : x < 2 * N) : flipS N x < N ↔ ¬ x < N := by unfold flipS; split_ifs <;> omega
theorem upS_flip {N x : Nat} (h : x < 2 * N) : upS N (flipS N x) = dnS N x := by
  unfold upS dnS; rw [if_congr (flipS_iff h) rfl rfl, ite_not]
theorem dnS_flip {N x : Nat} (h : x < 2 * N) : dnS N (flipS N x) = upS N x := by
  unfold upS dnS; rw [if_congr (flipS_iff h) rfl rfl, ite_not]

theorem derL_repl (s : Nat → ℂ) (φ : Nat → Nat) : ∀ (l : List Nat) (F : List Nat → ℂ), l.Nodup →
    derL s φ F l = (l.map fun x => s x * F (repl x (φ x) l)).sum
  | [], _, _ => rfl
  | x :: l, F, hn => by
    rw [List.nodup_cons] at hn
    simp only [derL, List.map_cons, List.sum_cons]
    rw [derL_repl s φ l _ hn.2]
    congr 1
    · show _ = s x * F ((if x = x then φ x else x) :: repl x (φ x) l)
      rw [if_pos rfl, repl_notin hn.1]
    · congr 1
      refine List.map_congr_left fun y hy => ?_
      show _ = s y * F ((if x = y then φ y else x) :: repl y (φ y) l)
      rw [if_neg (by rintro rfl; exact hn.1 hy)]

theorem repl_dup {J I : Nat} {l : List Nat} (hJ : J ∈ l) (hI : I ∈ l) (h : I ≠ J) : ¬ (repl J I l).Nodup := by
  intro hn
  apply h
  refine List.inj_on_of_nodup_map hn hI hJ ?_
  rw [if_neg h, if_pos rfl]

theorem one_altL {M : Nat} {F : List Nat → ℂ} (hF : AltL M F) {I J : Nat} (hI : I < M) {l : List Nat} (hn : l.Nodup) (hr : ∀ z ∈ l, z < M) :
    overlap F (actAll [.cr I, .an J] (some (1, l))) = if J ∈ l then F (repl J I l) else 0 := by
  rw [overlap_one_body hF.anti hI hn hr]
  by_cases hJ : J ∈ l
  · rw [if_pos hJ]
    by_cases h : I ∉ l ∨ I = J
    · rw [if_pos ⟨hJ, h⟩]
    · rw [if_neg (fun h' => h h'.2)]
      push Not at h
      exact (hF.zero (lt_repl hr hI) (repl_dup hJ h.1 h.2)).symm
  · rw [if_neg hJ, if_neg (fun h => hJ h.1)]

/-- a sum over the orbitals of one spin -/
theorem sum_one_spin {N : Nat} {l : List Nat} (hn : l.Nodup) (g : Nat → ℂ) (o : Nat) :
    ∑ i ∈ Finset.range N, (if i + o ∈ l then g (i + o) else 0) = (l.map fun x => (if o ≤ x ∧ x < o + N then 1 else 0) * g x).sum := by
  classical
  rw [← List.sum_toFinset _ hn, ← Finset.sum_filter]
  have e : ∀ x, (if o ≤ x ∧ x < o + N then (1 : ℂ) else 0) * g x = if o ≤ x ∧ x < o + N then g x else 0 := by intro x; split_ifs <;> simp
  simp only [e]
  rw [← Finset.sum_filter]
  refine Finset.sum_nbij' (fun i => i + o) (fun x => x - o) ?_ ?_ ?_ ?_ ?_
  · intro i hi; simp only [Finset.mem_filter, Finset.mem_range, List.mem_toFinset] at hi ⊢; exact ⟨hi.2, by omega, by omega⟩
  · intro x hx; simp only [Finset.mem_filter, Finset.mem_range, List.mem_toFinset] at hx ⊢
    exact ⟨by omega, by rw [Nat.sub_add_cancel hx.2.1]; exact hx.1⟩
  · intro i _; simp
  · intro x hx; simp only [Finset.mem_filter] at hx; exact Nat.sub_add_cancel hx.2.1
  · intro i _; rfl

theorem map_sum_range (N : Nat) (g : Nat → ℂ) : ((List.range N).map g).sum = ∑ i ∈ Finset.range N, g i := by
  induction N with
  | zero => simp
  | succ N ih => rw [List.range_succ, List.map_append, List.sum_append, ih, Finset.sum_range_succ]; simp

section link
variable {N : Nat} {F : List Nat → ℂ} (hF : AltL (2 * N) F) {l : List Nat} (hl : IsConfig N l)
include hF hl

theorem apply_raise : applyAdj (spinRaise N) F l = derL (dnS N) (flipS N) F l := by
  unfold applyAdj spinRaise
  rw [List.map_map, map_sum_range, derL_repl _ _ _ _ hl.1]
  refine (Finset.sum_congr rfl ?_).trans ((sum_one_spin hl.1 (fun x => F (repl x (x - N) l)) N).trans ?_)
  rotate_left
  · congr 1
    refine List.map_congr_left fun x hx => ?_
    have := hl.2 x hx
    unfold dnS flipS
    by_cases h : x < N
    · rw [if_pos h, if_neg (by omega), zero_mul, zero_mul]
    · rw [if_neg h, if_pos (by omega), if_neg h, if_pos this]
  · intro i hi
    have hi : i < N := Finset.mem_range.mp hi
    simp only [Function.comp, map_one, one_mul]
    rw [one_altL hF (by omega) hl.1 hl.2]
    simp

theorem apply_lower : applyAdj (spinLower N) F l = derL (upS N) (flipS N) F l := by
  unfold applyAdj spinLower
  rw [List.map_map, map_sum_range, derL_repl _ _ _ _ hl.1]
  refine (Finset.sum_congr rfl ?_).trans ((sum_one_spin hl.1 (fun x => F (repl x (x + N) l)) 0).trans ?_)
  rotate_left
  · congr 1
    refine List.map_congr_left fun x hx => ?_
    have := hl.2 x hx
    unfold upS flipS
    by_cases h : x < N
    · rw [if_pos h, if_pos (by omega), if_pos h]
    · rw [if_neg h, if_neg (by omega), zero_mul, zero_mul]
  · intro i hi
    have hi : i < N := Finset.mem_range.mp hi
    simp only [Function.comp, map_one, one_mul]
    rw [one_altL hF (by omega) hl.1 hl.2]
    simp

theorem apply_z : applyAdj (spinZ N) F l = derL (zS N) id F l := by
  have h1 : ∀ i, ∀ hi : i < 2 * N, overlap F (actAll (numOp i) (some (1, l))) = if i ∈ l then F (repl i i l) else 0 :=
    fun i hi => one_altL hF hi hl.1 hl.2
  unfold applyAdj spinZ
  rw [List.map_append, List.sum_append, List.map_map, List.map_map, map_sum_range, map_sum_range, derL_repl _ _ _ _ hl.1]
  refine (congrArg₂ (· + ·) ((Finset.sum_congr rfl ?_).trans (sum_one_spin hl.1 (fun x => 1 / 2 * F (repl x x l)) 0))
    ((Finset.sum_congr rfl ?_).trans (sum_one_spin hl.1 (fun x => -(1 / 2) * F (repl x x l)) N))).trans ?_
  rotate_left 2
  · show _ + _ = _
    rw [← List.sum_map_add]
    congr 1
    refine List.map_congr_left fun x hx => ?_
    have := hl.2 x hx
    unfold zS
    by_cases h : x < N
    · rw [if_pos (by omega), if_neg (by omega), if_pos h]; simp
    · rw [if_neg (by omega), if_pos (by omega), if_neg h]; simp
  · intro i hi
    have hi : i < N := Finset.mem_range.mp hi
    simp only [Function.comp]
    rw [h1 _ (by omega)]
    simp [Complex.conj_ofNat]
  · intro i hi
    have hi : i < N := Finset.mem_range.mp hi
    simp only [Function.comp]
    rw [h1 _ (by omega)]
    simp [Complex.conj_ofNat]

end link

/-! ### products -/

theorem act_config {N : Nat} {o : Op} (ho : ∀ I, o = .cr I → I < 2 * N) {k : Ket} (hk : ∀ p, k = some p → IsConfig N p.2) :
    ∀ p, o.act k = some p → IsConfig N p.2 := by
  intro p hp
  match o, k with
  | .cr I, none => simp [Op.act] at hp
  | .an I, none => simp [Op.act] at hp
  | .an I, some (σ, l) =>
    simp only [Op.act] at hp
    split_ifs at hp
    have e := Option.some.inj hp
    obtain ⟨h1, h2⟩ := hk _ rfl
    rw [← e]
    exact ⟨h1.erase I, fun y hy => h2 y (List.mem_of_mem_erase hy)⟩
  | .cr I, some (σ, l) =>
    simp only [Op.act] at hp
    split_ifs at hp with h
    have e := Option.some.inj hp
    obtain ⟨h1, h2⟩ := hk _ rfl
    rw [← e]
    refine ⟨List.nodup_cons.mpr ⟨h, h1⟩, fun y hy => ?_⟩
    rcases List.mem_cons.mp hy with rfl | h'
    exacts [ho _ rfl, h2 y h']

theorem actAll_config {N : Nat} : ∀ (ops : List Op), CrLt (2 * N) ops → ∀ {l : List Nat}, IsConfig N l →
    ∀ p, actAll ops (some (1, l)) = some p → IsConfig N p.2
  | [], _, l, hl, p, hp => by
    have e := Option.some.inj (show some ((1 : ℤ), l) = some p from hp)
    rw [← e]; exact hl
  | o :: ops, hc, l, hl, p, hp => by
    refine act_config (o := o) (fun I e => hc I (by rw [e]; simp)) (k := actAll ops (some (1, l))) ?_ p hp
    exact actAll_config ops (fun I hI => hc I (by simp [hI])) hl

theorem apply_congr {N : Nat} {A : List (ℂ × List Op)} (hA : ∀ t ∈ A, CrLt (2 * N) t.2) {F G : List Nat → ℂ}
    (h : ∀ m, IsConfig N m → F m = G m) {l : List Nat} (hl : IsConfig N l) : applyAdj A F l = applyAdj A G l := by
  unfold applyAdj
  congr 1
  refine List.map_congr_left fun t ht => ?_
  have hc := actAll_config t.2 (hA t ht) hl
  rcases hk : actAll t.2 (some (1, l)) with _ | ⟨σ, m⟩
  · rfl
  · simp only [overlap]
    rw [h m (hc _ hk)]

theorem apply_dual (A : List (ℂ × List Op)) (F : List Nat → ℂ) (l : List Nat) : applyAdj A F l = hamDual F A l := by
  unfold applyAdj hamDual
  congr 1
  refine List.map_congr_left fun t _ => ?_
  rw [overlap_dual, overlap_one]

theorem apply_prod (A B : List (ℂ × List Op)) (F : List Nat → ℂ) (l : List Nat) :
    applyAdj (hamProd A B) F l = applyAdj B (applyAdj A F) l := by
  have key : ∀ b : ℂ × List Op, (A.map fun a => (starRingEnd ℂ) (a.1 * b.1) * overlap F (actAll (a.2 ++ b.2) (some (1, l)))).sum =
      (starRingEnd ℂ) b.1 * overlap (applyAdj A F) (actAll b.2 (some (1, l))) := by
    intro b
    rw [show applyAdj A F = hamDual F A from funext (apply_dual A F), overlap_hamDual, ← List.sum_map_mul_left]
    congr 1
    refine List.map_congr_left fun a _ => ?_
    rw [← overlap_dual, map_mul]
    have : actAll (a.2 ++ b.2) (some (1, l)) = actAll a.2 (actAll b.2 (some (1, l))) := by unfold actAll; rw [List.foldr_append]
    rw [this]; ring
  have swap : ∀ (A : List (ℂ × List Op)), applyAdj (hamProd A B) F l =
      (B.map fun b => (A.map fun a => (starRingEnd ℂ) (a.1 * b.1) * overlap F (actAll (a.2 ++ b.2) (some (1, l)))).sum).sum := by
    intro A
    induction A with
    | nil => simp [hamProd, applyAdj]
    | cons a A ih =>
      have e : applyAdj (hamProd (a :: A) B) F l = applyAdj (B.map fun b => (a.1 * b.1, a.2 ++ b.2)) F l + applyAdj (hamProd A B) F l := by
        unfold applyAdj hamProd; rw [List.flatMap_cons, List.map_append, List.sum_append]
      rw [e, ih]
      simp only [List.map_cons, List.sum_cons]
      rw [List.sum_map_add]
      unfold applyAdj
      rw [List.map_map]; rfl
  rw [swap]
  simp only [key]
  rfl

theorem apply_append (A B : List (ℂ × List Op)) (F : List Nat → ℂ) (l : List Nat) :
    applyAdj (A ++ B) F l = applyAdj A F l + applyAdj B F l := by
  unfold applyAdj; rw [List.map_append, List.sum_append]

theorem raise_cr (N : Nat) : ∀ t ∈ spinRaise N, CrLt (2 * N) t.2 := by
  intro t ht I hI
  simp only [spinRaise, List.mem_map, List.mem_range] at ht
  obtain ⟨i, hi, rfl⟩ := ht
  simp at hI; omega

theorem z_cr (N : Nat) : ∀ t ∈ spinZ N, CrLt (2 * N) t.2 := by
  intro t ht I hI
  simp only [spinZ, List.mem_append, List.mem_map, List.mem_range] at ht
  rcases ht with ⟨i, hi, rfl⟩ | ⟨i, hi, rfl⟩ <;> · simp [numOp] at hI; omega

/-- `Sz` multiplies -/
theorem derL_id (s : Nat → ℂ) : ∀ (l : List Nat) (F : List Nat → ℂ), derL s id F l = (l.map s).sum * F l
  | [], F => by simp [derL]
  | x :: l, F => by
    simp only [derL, id_eq, List.map_cons, List.sum_cons]
    rw [derL_id s l]; ring

theorem sz_zero {N : Nat} {l : List Nat} (h : SzZero N l) : (l.map (zS N)).sum = 0 := by
  have key : ∀ l : List Nat, (l.map (zS N)).sum = 1 / 2 * ((l.filter (· < N)).length - (l.filter (N ≤ ·)).length : ℂ) := by
    intro l
    induction l with
    | nil => simp
    | cons x l ih =>
      rw [List.map_cons, List.sum_cons, ih]
      unfold zS
      by_cases hx : x < N
      · rw [if_pos hx, List.filter_cons_of_pos (by simpa using hx), List.filter_cons_of_neg (by simpa using hx)]
        simp only [List.length_cons]; push_cast; ring
      · rw [if_neg hx, List.filter_cons_of_neg (by simpa using hx), List.filter_cons_of_pos (by simpa using hx)]
        simp only [List.length_cons]; push_cast; ring
  rw [key, h, sub_self, mul_zero]

/-- `S²` without net spin -/
theorem apply_spinSq {N : Nat} {F : List Nat → ℂ} (hF : AltL (2 * N) F) {l : List Nat} (hl : IsConfig N l) (hz : SzZero N l) :
    applyAdj (spinSq N) F l = derL (dnS N) (flipS N) (derL (upS N) (flipS N) F) l := by
  have hφ : ∀ x < 2 * N, flipS N x < 2 * N := fun x hx => flipS_lt hx
  unfold spinSq
  rw [apply_append, apply_append, apply_prod, apply_prod, apply_congr (raise_cr N) (fun m hm => apply_lower hF hm) hl,
    apply_raise (hF.der _ hφ) hl, apply_congr (z_cr N) (fun m hm => apply_z hF hm) hl, apply_z (hF.der _ (φ := id) (fun x hx => hx)) hl, apply_z hF hl,
    derL_id, derL_id, sz_zero hz]
  ring

/-! ### rotated axes -/

/-- `-i·Sy` -/
noncomputable def tS (N x : Nat) : ℂ := if x < N then -(1 / 2) else 1 / 2

theorem der_x {N : Nat} (F : List Nat → ℂ) (l : List Nat) :
    derL (fun _ => 1 / 2) (flipS N) F l = 1 / 2 * derL (dnS N) (flipS N) F l + 1 / 2 * derL (upS N) (flipS N) F l := by
  rw [← derL_coef, ← derL_coef, ← derL_coef_add]
  congr 1; funext x; unfold dnS upS; split_ifs <;> ring

theorem der_t {N : Nat} (F : List Nat → ℂ) (l : List Nat) :
    derL (tS N) (flipS N) F l = 1 / 2 * derL (dnS N) (flipS N) F l + -(1 / 2) * derL (upS N) (flipS N) F l := by
  rw [← derL_coef, ← derL_coef, ← derL_coef_add]
  congr 1; funext x; unfold tS dnS upS; split_ifs <;> ring

theorem spin_axes {N : Nat} (F : List Nat → ℂ) {l : List Nat} (hr : ∀ z ∈ l, z < 2 * N) (hz : SzZero N l) :
    derL (dnS N) (flipS N) (derL (upS N) (flipS N) F) l =
      derL (fun _ => 1 / 2) (flipS N) (derL (fun _ => 1 / 2) (flipS N) F) l - derL (tS N) (flipS N) (derL (tS N) (flipS N) F) l := by
  have hφ : ∀ x < 2 * N, flipS N x < 2 * N := fun x hx => flipS_lt hx
  have hc := derL_comm (upS N) (dnS N) (flipS N) (flipS N) (fun x => 2 * zS N x) id hφ hφ (by
    intro x hx G
    rw [flipS_flip hx, dnS_flip hx, upS_flip hx]
    unfold upS dnS zS
    simp only [id_eq]
    split_ifs <;> ring) l F hr
  rw [derL_coef, derL_id, sz_zero hz, zero_mul, mul_zero] at hc
  have ex : derL (fun _ => 1 / 2) (flipS N) F = fun m => 1 / 2 * derL (dnS N) (flipS N) F m + 1 / 2 * derL (upS N) (flipS N) F m :=
    funext (der_x F)
  have et : derL (tS N) (flipS N) F = fun m => 1 / 2 * derL (dnS N) (flipS N) F m + -(1 / 2) * derL (upS N) (flipS N) F m :=
    funext (der_t F)
  rw [ex, et, der_x, der_t]
  simp only [derL_add, derL_smul]
  linear_combination (-1 / 2 : ℂ) * hc

theorem x_z_comm {N : Nat} (F : List Nat → ℂ) {l : List Nat} (hr : ∀ z ∈ l, z < 2 * N) :
    derL (fun _ => 1 / 2) (flipS N) (derL (zS N) id F) l - derL (zS N) id (derL (fun _ => 1 / 2) (flipS N) F) l =
      derL (tS N) (flipS N) F l := by
  refine derL_comm _ _ _ _ _ _ (fun x hx => flipS_lt hx) (fun x hx => hx) ?_ l F hr
  intro x hx G
  have e : zS N (flipS N x) = - zS N x := by
    unfold zS; rw [if_congr (flipS_iff hx) rfl rfl]; split_ifs <;> simp
  rw [e]
  unfold zS tS
  split_ifs <;> ring

/-- `S²` of a function annihilated by the spin along a rotated axis -/
theorem spinSq_axis {N : Nat} {F : List Nat → ℂ} (hF : AltL (2 * N) F) {c s : ℂ}
    (hK : ∀ m : List Nat, (∀ z ∈ m, z < 2 * N) → c * derL (zS N) id F m + s * derL (fun _ => 1 / 2) (flipS N) F m = 0)
    {l : List Nat} (hl : IsConfig N l) (hz : SzZero N l) :
    s * applyAdj (spinSq N) F l = - c * derL (tS N) (flipS N) F l - s * derL (tS N) (flipS N) (derL (tS N) (flipS N) F) l := by
  have hφ : ∀ x < 2 * N, flipS N x < 2 * N := fun x hx => flipS_lt hx
  rw [apply_spinSq hF hl hz, spin_axes F hl.2 hz]
  have h1 : s * derL (fun _ => 1 / 2) (flipS N) (derL (fun _ => 1 / 2) (flipS N) F) l =
      - c * derL (fun _ => 1 / 2) (flipS N) (derL (zS N) id F) l := by
    rw [← derL_smul, ← derL_smul]
    exact derL_congr hφ hl.2 (fun _ _ => rfl) (fun m _ hm => by linear_combination hK m hm)
  have h2 := x_z_comm F hl.2
  rw [derL_id _ _ (derL (fun _ => 1 / 2) (flipS N) F), sz_zero hz] at h2
  linear_combination h1 - c * h2

end MVMC
