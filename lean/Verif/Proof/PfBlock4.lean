import Verif.Proof.PfBlock3

/-! `pop_update`, the Pfaffian, and `merge_updates`. -/
namespace MVMC
open Spec

variable {K : Type} [Field K]

theorem TdiCore.mod {p : BlkPar K} {t : Tdi K} {c : Nat → Nat} (h : TdiCore p t c) (umu cp : Nat → Nat → K) (r : K) :
    TdiCore p { t with UMU := umu, Cp := cp, ratio := r } c :=
  ⟨h.cfgLt, h.cfgInj, h.pfa, h.inv, h.km, h.frLt, h.frInj, h.dstLt, h.cur, h.base, h.hU, h.nqk, h.hQ, h.hP, h.hW, h.hUMV, h.hVMV⟩

theorem core_requireQ {p : BlkPar K} {t : Tdi K} {c : Nat → Nat} (h : TdiCore p t c) (all : Bool) : TdiCore p (requireQ p all t) c := by
  rw [requireQ_eq]
  have hkc : (if all then t.k else t.k - 1) ≤ t.k := by split_ifs <;> omega
  refine ⟨h.cfgLt, h.cfgInj, h.pfa, h.inv, h.km, h.frLt, h.frInj, h.dstLt, h.cur, h.base, h.hU, max_le h.nqk hkc, ?_, ?_, h.hW, h.hUMV, h.hVMV⟩
  · intro l hl i hi
    have hl : l < max t.nq (if all then t.k else t.k - 1) := hl
    show (if _ then _ else t.Q i l) = _
    by_cases e : t.nq ≤ l ∧ l < (if all then t.k else t.k - 1) ∧ i < p.n
    · rw [if_pos e]
    · rw [if_neg e]
      exact h.hQ l (by rcases lt_max_iff.mp hl with h' | h' <;> omega) i hi
  · intro l hl i hi
    have hl : l < t.k := hl
    show (if _ then _ else t.Q i (p.mmax + l)) = _
    rw [if_neg (by have := h.km; omega)]
    exact h.hP l hl i hi

/-- state after the book-keeping part of `pop_update` -/
def popped (p : BlkPar K) (t : Tdi K) : Tdi K :=
  let k := t.k - 1
  let msj := t.frm k
  let osj := t.cfg msj
  let d := fun b => orbAt p.X osj (t.dst b) - orbAt p.X osj (t.cfg (t.frm b)) - t.U msj b
  { t with
    k := k
    nq := min t.nq k
    U := fun i b => if b < k ∧ i = msj then orbAt p.X osj (t.dst b) - orbAt p.X osj (t.cfg (t.frm b)) else t.U i b
    Q := fun i b => if b < k ∧ i < p.n then t.Q i b + d b * upSkew t.M i msj else t.Q i b
    UMV := fun a o => if a < k ∧ o < k then t.UMV a o + d a * t.Q msj (p.mmax + o) else t.UMV a o }

theorem popLoop_eq {p : BlkPar K} {t : Tdi K} {k msj osj : Nat} (hk : k ≤ p.mmax) : ∀ m, m ≤ k →
    (List.range m).foldl (popLoop p k msj osj) t = { t with
      U := fun i b => if b < m ∧ i = msj then orbAt p.X osj (t.dst b) - orbAt p.X osj (t.cfg (t.frm b)) else t.U i b
      Q := fun i b => if b < m ∧ i < p.n then
        t.Q i b + (orbAt p.X osj (t.dst b) - orbAt p.X osj (t.cfg (t.frm b)) - t.U msj b) * upSkew t.M i msj else t.Q i b
      UMV := fun a o => if a < m ∧ o < k then
        t.UMV a o + (orbAt p.X osj (t.dst a) - orbAt p.X osj (t.cfg (t.frm a)) - t.U msj a) * t.Q msj (p.mmax + o) else t.UMV a o } := by
  intro m
  induction m with
  | zero => intro _; simp
  | succ m ih =>
    intro hm
    rw [List.range_succ, List.foldl_append, ih (by omega)]
    simp only [List.foldl_cons, List.foldl_nil]
    unfold popLoop
    simp only [Nat.lt_irrefl, false_and, if_false]
    congr 1
    · funext i b
      unfold set2
      beta_reduce
      by_cases h1 : i = msj ∧ b = m
      · obtain ⟨rfl, rfl⟩ := h1
        simp
      · rw [if_neg h1]
        by_cases h3 : b < m ∧ i = msj
        · rw [if_pos h3, if_pos (by omega)]
        · rw [if_neg h3, if_neg (by omega)]
    · funext i b
      unfold setCol set2
      beta_reduce
      by_cases h1 : b = m ∧ i < p.n
      · obtain ⟨rfl, h1⟩ := h1
        rw [if_pos ⟨rfl, h1⟩, if_pos (show b < b + 1 ∧ i < p.n by omega)]
        simp only [Nat.lt_irrefl, false_and, if_false, and_self, if_true]
        unfold upSkew
        rcases Nat.lt_trichotomy i msj with e | e | e
        · rw [if_pos e, if_pos e]; ring
        · subst e
          simp
        · rw [if_neg (show ¬ i < msj by omega), if_neg (show ¬ i = msj by omega), if_neg (show ¬ i < msj by omega), if_pos e]; ring
      · rw [if_neg h1]
        by_cases h2 : b < m ∧ i < p.n
        · rw [if_pos h2, if_pos (by omega)]
        · rw [if_neg h2, if_neg (by omega)]
    · funext a o
      unfold setCol set2
      simp only [and_self, if_true]
      by_cases h1 : a = m ∧ o < k
      · obtain ⟨rfl, h1⟩ := h1
        rw [if_pos ⟨rfl, h1⟩, if_neg (show ¬ (a < a ∧ o < k) by omega), if_neg (show ¬ (p.mmax + o = a ∧ msj < p.n) by omega),
          if_neg (show ¬ (p.mmax + o < a ∧ msj < p.n) by omega), if_pos (show a < a + 1 ∧ o < k by omega)]
      · rw [if_neg h1]
        by_cases h2 : a < m ∧ o < k
        · rw [if_pos h2, if_pos (by omega)]
        · rw [if_neg h2, if_neg (by omega)]

theorem popUpdate_eq {p : BlkPar K} {lib : BlkLib K} {t : Tdi K} (hk : t.k ≠ 0) (hm : t.k ≤ p.mmax) :
    popUpdate p lib false t = some { popped p t with ratio := if t.k = 1 then 1 else 0 } := by
  unfold popUpdate
  rw [if_neg hk]
  simp only
  rw [popLoop_eq (p := p) (by omega) _ (Nat.le_refl _)]
  simp only
  by_cases h1 : t.k - 1 = 0
  · rw [if_pos h1, if_pos (show t.k = 1 by omega)]
    unfold popped
    simp only
    by_cases h : t.nq > t.k - 1
    · rw [if_pos h, show min t.nq (t.k - 1) = t.k - 1 by omega]
    · rw [if_neg h, show min t.nq (t.k - 1) = t.nq by omega]
  · rw [if_neg h1, if_neg (show ¬ t.k = 1 by omega)]
    unfold popped
    simp only [Bool.false_eq_true, if_false]
    by_cases h : t.nq > t.k - 1
    · rw [if_pos h, show min t.nq (t.k - 1) = t.k - 1 by omega]
    · rw [if_neg h, show min t.nq (t.k - 1) = t.nq by omega]

theorem pop_core {p : BlkPar K} {t : Tdi K} {c c' : Nat → Nat} (h : TdiCore p t c') (hk : t.k ≠ 0)
    (hc : ∀ i, i < p.n → i ≠ t.frm (t.k - 1) → c i = c' i) (hcm : c (t.frm (t.k - 1)) = t.cfg (t.frm (t.k - 1))) : TdiCore p (popped p t) c := by
  have hm : t.frm (t.k - 1) < p.n := h.frLt _ (by omega)
  have hkk : (popped p t).k = t.k - 1 := rfl
  have hne : ∀ l, l < t.k - 1 → t.frm l ≠ t.frm (t.k - 1) := fun l hl e => by
    have := h.frInj l (by omega) (t.k - 1) (by omega) e
    omega
  have hcl : ∀ l, l < t.k - 1 → c (t.frm l) = c' (t.frm l) := fun l hl => hc _ (h.frLt l (by omega)) (hne l hl)
  have hUold : ∀ l, l < t.k - 1 → ∀ i, i ≠ t.frm (t.k - 1) → (popped p t).U i l = t.U i l := by
    intro l hl i hi
    show (if l < t.k - 1 ∧ i = t.frm (t.k - 1) then _ else t.U i l) = t.U i l
    rw [if_neg (fun e => hi e.2)]
  have hUm : ∀ l, l < t.k - 1 → (popped p t).U (t.frm (t.k - 1)) l = orbAt p.X (t.cfg (t.frm (t.k - 1))) (t.dst l) -
      orbAt p.X (t.cfg (t.frm (t.k - 1))) (t.cfg (t.frm l)) := by
    intro l hl
    show (if l < t.k - 1 ∧ t.frm (t.k - 1) = t.frm (t.k - 1) then _ else t.U _ l) = _
    rw [if_pos ⟨hl, rfl⟩]
  have hMM : (popped p t).M = t.M := rfl
  have hPl : ∀ l, l < t.k - 1 → ∀ i, i < p.n → (popped p t).Q i (p.mmax + l) = upSkew t.M i (t.frm l) := by
    intro l hl i hi
    show (if p.mmax + l < t.k - 1 ∧ i < p.n then _ else t.Q i (p.mmax + l)) = _
    rw [if_neg (by have := h.km; omega), h.hP l (by omega) i hi]
  have hsum : ∀ l, l < t.k - 1 → ∀ f : Nat → K, ∑ i ∈ Finset.range p.n, (popped p t).U i l * f i =
      ∑ i ∈ Finset.range p.n, t.U i l * f i + ((popped p t).U (t.frm (t.k - 1)) l - t.U (t.frm (t.k - 1)) l) * f (t.frm (t.k - 1)) := by
    intro l hl f
    have e : ∀ i ∈ Finset.range p.n, (popped p t).U i l * f i =
        t.U i l * f i + (if i = t.frm (t.k - 1) then 1 else 0) * (((popped p t).U (t.frm (t.k - 1)) l - t.U (t.frm (t.k - 1)) l) * f i) := by
      intro i _
      by_cases e : i = t.frm (t.k - 1)
      · rw [e, if_pos rfl]; ring
      · rw [hUold l hl i e, if_neg e]; ring
    rw [Finset.sum_congr rfl e, Finset.sum_add_distrib,
      sum_hop' p.n (fun i => ((popped p t).U (t.frm (t.k - 1)) l - t.U (t.frm (t.k - 1)) l) * f i) _ hm]
  refine ⟨h.cfgLt, h.cfgInj, h.pfa, h.inv, ?_, ?_, ?_, ?_, ?_, ?_, ?_, ?_, ?_, ?_, ?_, ?_, ?_⟩
  · rw [hkk]; have := h.km; omega
  · intro l hl; rw [hkk] at hl; exact h.frLt l (by omega)
  · intro l hl o ho e; rw [hkk] at hl ho; exact h.frInj l (by omega) o (by omega) e
  · intro l hl; rw [hkk] at hl; exact h.dstLt l (by omega)
  · intro l hl; rw [hkk] at hl
    show c (t.frm l) = t.dst l
    rw [hcl l hl, h.cur l (by omega)]
  · intro i hi hn
    show c i = t.cfg i
    by_cases e : i = t.frm (t.k - 1)
    · rw [e, hcm]
    · rw [hc i hi e]
      refine h.base i hi (fun l hl e' => ?_)
      by_cases e2 : l = t.k - 1
      · exact e (by rw [← e', e2])
      · exact hn l (by rw [hkk]; omega) e'
  · intro l hl i hi hne'
    rw [hkk] at hl
    have hne' : i ≠ t.frm l := hne'
    show (popped p t).U i l = orbAt p.X (c i) (c (t.frm l)) - orbAt p.X (t.cfg i) (t.cfg (t.frm l))
    by_cases e : i = t.frm (t.k - 1)
    · rw [e, hUm l hl, hcm, hcl l hl, h.cur l (by omega)]
    · rw [hUold l hl i e, h.hU l (by omega) i hi hne', hc i hi e, hcl l hl]
  · show min t.nq (t.k - 1) ≤ t.k - 1
    omega
  · intro l hl i hi
    have hl : l < min t.nq (t.k - 1) := hl
    have hlk : l < t.k - 1 := by omega
    rw [hMM, Finset.sum_congr rfl (fun j _ => mul_comm (upSkew t.M i j) ((popped p t).U j l)), hsum l hlk (fun j => upSkew t.M i j), hUm l hlk]
    show (if l < t.k - 1 ∧ i < p.n then t.Q i l + _ * upSkew t.M i (t.frm (t.k - 1)) else t.Q i l) = _
    rw [if_pos ⟨hlk, hi⟩, h.hQ l (by omega) i hi]
    rw [Finset.sum_congr rfl (fun j _ => mul_comm (upSkew t.M i j) (t.U j l))]
  · intro l hl i hi
    rw [hkk] at hl
    exact hPl l hl i hi
  · intro o ho l hl
    rw [hkk] at ho
    show t.W l o = - (orbAt p.X (c (t.frm l)) (c (t.frm o)) - _)
    rw [hcl l (by omega), hcl o ho]
    exact h.hW o (by omega) l hl
  · intro l hl o ho
    rw [hkk] at hl ho
    rw [hMM]
    show (if l < t.k - 1 ∧ o < t.k - 1 then t.UMV l o + _ * t.Q (t.frm (t.k - 1)) (p.mmax + o) else _) =
      ∑ i ∈ Finset.range p.n, (popped p t).U i l * upSkew t.M i (t.frm o)
    rw [if_pos ⟨hl, ho⟩, hsum l hl (fun i => upSkew t.M i (t.frm o)), h.hUMV l (by omega) o (by omega), h.hP o (by omega) _ hm, hUm l hl]
  · intro o ho l hl
    rw [hkk] at ho
    exact h.hVMV o (by omega) l hl

/-- `assemble_C_BMB` after the other steps -/
theorem central_eq {p : BlkPar K} {t : Tdi K} {c : Nat → Nat} (h : TdiCore p t c) (all : Bool) {a b : Nat} (ha : a < 2 * t.k) (hb : b < 2 * t.k) :
    upSkew (assemble (requireUMU p (requireQ p all t))).Cp a b = sMat p (requireQ p all t) c a b := by
  have h' := core_requireQ h all
  have hk : (requireQ p all t).k = t.k := by rw [requireQ_eq]
  have hq : (requireQ p all t).k ≤ (requireQ p all t).nq + 1 := by
    rw [requireQ_eq]
    show t.k ≤ max t.nq (if all then t.k else t.k - 1) + 1
    split_ifs <;> omega
  exact assemble_eq h' hq (by rw [hk]; exact ha) (by rw [hk]; exact hb)

theorem pfOf_two (A : Nat → Nat → K) : pfOf A 2 id = A 0 1 := by
  unfold pfOf
  simp [List.range_succ, pf, pfN, altSum]

theorem sMat_one {p : BlkPar K} {t : Tdi K} {c : Nat → Nat} (h : TdiCore p t c) (hk : t.k = 1) : sMat p t c 0 1 = t.UMV 0 0 - 1 := by
  have := sMat_uv h (l := 0) (o := 0) (by omega) (by omega)
  rw [hk] at this
  rw [show (1 : Nat) = 1 + 0 from rfl, this, if_pos rfl]; ring

/-- **The Pfaffian computed by `push_update`.** -/
theorem pushPfa_ok {p : BlkPar K} {lib : BlkLib K} (hlib : BlkLibOK lib) {t : Tdi K} {c : Nat → Nat} (h : TdiCore p t c) :
    TdiCore p (pushPfa p lib t) c ∧ (pushPfa p lib t).getPfa = pfOf (orbAt p.X) p.n c ∧
      ((pushPfa p lib t).k = 1 → (pushPfa p lib t).Cp 0 1 = (pushPfa p lib t).UMV 0 0 - 1) ∧
      (pushPfa p lib t).k = t.k ∧ (pushPfa p lib t).cfg = t.cfg ∧ (pushPfa p lib t).frm = t.frm := by
  have h' := core_requireQ h false
  have hkq : (requireQ p false t).k = t.k := by rw [requireQ_eq]
  have hcq : (requireQ p false t).cfg = t.cfg := by rw [requireQ_eq]
  have hfq : (requireQ p false t).frm = t.frm := by rw [requireQ_eq]
  have hpq : (requireQ p false t).pfa = t.pfa := by rw [requireQ_eq]
  have hpf := core_pf h'
  have hc := fun a b => central_eq (a := a) (b := b) h false
  unfold pushPfa
  simp only
  have hk3 : (assemble (requireUMU p (requireQ p false t))).k = t.k := hkq
  by_cases e : t.k = 1
  · rw [if_pos (hk3.trans e)]
    refine ⟨h'.mod _ _ _, ?_, ?_, hkq, hcq, hfq⟩
    · show (requireQ p false t).pfa * (- (requireQ p false t).UMV 0 0 + 1) = _
      rw [hpf, hkq, e, pfOf_two, sMat_one h' (hkq.trans e)]
      simp only [hopSign]
      norm_num
      ring
    · intro _
      have := hc 0 1 (by omega) (by omega)
      rw [sMat_one h' (hkq.trans e)] at this
      exact this
  · rw [if_neg (fun q => e (hk3.symm.trans q))]
    refine ⟨h'.mod _ _ _, ?_, ?_, hkq, hcq, hfq⟩
    · show (requireQ p false t).pfa * ((lib.pfa (2 * (requireQ p false t).k) _).1 * hopSign (requireQ p false t).k) = _
      rw [hpf, hkq, hlib.1 _ _ (by omega)]
      have : pfOf (upSkew (assemble (requireUMU p (requireQ p false t))).Cp) (2 * t.k) id = pfOf (sMat p (requireQ p false t) c) (2 * t.k) id :=
        pfOf_congr (fun _ _ => rfl) (fun a ha b hb => hc a b ha hb)
      rw [this]; ring
    · intro h1
      exact absurd (hkq.symm.trans h1) e

end MVMC
