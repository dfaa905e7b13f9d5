import Verif.Model.ProjValue
import Verif.Proof.ProjectionSpec
import Verif.Proof.SamplerFszInit
import Verif.Spec.CorrelationValue

/-! The counters carried by the samplers, and the value of the correlation factor. -/
namespace MVMC
open Spec

theorem hop_numHop {p : SamplerPar} {q : ProjPar} (hN : q.Nsite = p.Nsite) {c : EleCfg} (hc : Cons p c)
    {h : Hop} (ok : HopOK p c h) : NumHop q h.ri h.rj h.s h.s c.num (updateEleConfig p h c).num := by
  have hne := hopOK_ne hc ok
  have hs := ok.s
  refine ⟨ok.s, ok.s, hN ▸ ok.ri, hN ▸ ok.rj, ?_, ?_, ?_, ?_⟩
  · rw [hN]; exact (cons_back hc ok.s ok.mi ok.at').2.2
  · rw [hN, num_eq hc ok.s ok.rj, if_neg (by simp [ok.free])]
  · intro r hr u hu
    rw [hN] at hr ⊢
    unfold updateEleConfig Arr.set
    simp only
    have f1 : (r + u * p.Nsite = h.rj + h.s * p.Nsite) ↔ (r = h.rj ∧ u = h.s) := by
      constructor
      · intro e
        have := block_inj hr ok.rj e
        exact this
      · rintro ⟨rfl, rfl⟩; rfl
    have f2 : (r + u * p.Nsite = h.ri + h.s * p.Nsite) ↔ (r = h.ri ∧ u = h.s) := by
      constructor
      · intro e
        have := block_inj hr ok.ri e
        exact this
      · rintro ⟨rfl, rfl⟩; rfl
    simp only [f1, f2]
  · intro r hr
    rw [hN] at hr
    have a := num_eq hc (show 0 < 2 by omega) hr
    have b := num_eq hc (show 1 < 2 by omega) hr
    unfold nUp nDn
    rw [hN]
    simp only [Nat.zero_mul, Nat.add_zero, Nat.one_mul] at a b
    rw [a, b]
    constructor <;> split <;> simp

theorem move_numHop {p : FPar} {q : ProjPar} (hN : q.Nsite = p.Nsite) {c : FCfg} (hc : ConsF p c)
    {h : FMove} (ok : MoveOK p c h) : NumHop q h.ri h.rj h.s h.t c.num (updateEleConfigF p h c).num := by
  have hs := ok.s
  refine ⟨ok.s, ok.t, hN ▸ ok.ri, hN ▸ ok.rj, ?_, ?_, ?_, ?_⟩
  · rw [hN]; exact (consF_back hc ok.mi ok.at' ok.sp).2.2.2
  · rw [hN, numF_eq hc ok.t ok.rj, if_neg (by simp [ok.free])]
  · intro r hr u hu
    rw [hN] at hr ⊢
    unfold updateEleConfigF Arr.set
    simp only
    have f1 : (r + u * p.Nsite = h.rj + h.t * p.Nsite) ↔ (r = h.rj ∧ u = h.t) := by
      constructor
      · intro e
        have := block_inj hr ok.rj e
        exact this
      · rintro ⟨rfl, rfl⟩; rfl
    have f2 : (r + u * p.Nsite = h.ri + h.s * p.Nsite) ↔ (r = h.ri ∧ u = h.s) := by
      constructor
      · intro e
        have := block_inj hr ok.ri e
        exact this
      · rintro ⟨rfl, rfl⟩; rfl
    simp only [f1, f2]
  · intro r hr
    rw [hN] at hr
    have a := numF_eq hc (show 0 < 2 by omega) hr
    have b := numF_eq hc (show 1 < 2 by omega) hr
    unfold nUp nDn
    rw [hN]
    simp only [Nat.zero_mul, Nat.add_zero, Nat.one_mul] at a b
    rw [a, b]
    constructor <;> split <;> simp

/-- the invariant carried for the counters -/
def CntOK {β : Type} (q : ProjPar) (pc : β → Arr) (num : Arr) (b : β) : Prop :=
  ∀ i < q.NProj, pc b i = makeProjCnt q num i

theorem counts_qok {β γ : Type} {p : SamplerPar} {q : ProjPar} (hN : q.Nsite = p.Nsite) (ht : TabOK q)
    {k : Hooks β γ} {pc : β → Arr} {pn : γ → Arr} (hk : CountsProj q k pc pn) :
    QOK k p (fun c b => CntOK q pc c.num b) where
  hop := by
    intro c h b u hc ok hq _ i hi
    rw [hk.commitHop, if_pos hi, hk.hop]
    exact update_core ht (hop_numHop hN hc ok) (hopOK_ne hc ok) _ hq i hi
  exch := by
    intro c h h2 b u hc ok ok2 _ _ _ hq _ i hi
    rw [hk.commitExch, if_pos hi, hk.exch]
    have hc1 := update_cons hc ok
    refine update_core ht (hop_numHop hN hc1 ok2) (hopOK_ne hc1 ok2) _ ?_ i hi
    intro j hj
    exact update_core ht (hop_numHop hN hc ok) (hopOK_ne hc ok) _ hq j hj
  refresh := by
    intro c b _ hq i hi
    rw [hk.refresh]; exact hq i hi

theorem updateFsz_eq (p : ProjPar) (ri rj : Nat) (old num : Arr) :
    updateProjCntFsz p ri rj old num = updateProjCnt p ri rj old num := rfl

theorem move_counts {q : ProjPar} (ht : TabOK q) {ri rj s t : Nat} {num num' : Arr}
    (h : NumHop q ri rj s t num num') (old : Arr) (hold : ∀ k < q.NProj, old k = makeProjCnt q num k)
    (i : Nat) (hi : i < q.NProj) : updateProjCntFsz q ri rj old num' i = makeProjCnt q num' i := by
  by_cases hne : ri = rj
  · subst hne
    unfold updateProjCntFsz
    rw [if_pos rfl, hold i hi]
    exact flip_same ht h i
  · rw [updateFsz_eq]
    exact update_core ht h hne old hold i hi

theorem counts_fqok {β γ : Type} {p : FPar} {q : ProjPar} (hN : q.Nsite = p.Nsite) (ht : TabOK q)
    {k : FHooks β γ} {pc : β → Arr} {pn : γ → Arr} (hk : CountsProjF q k pc pn) :
    FQOK k p (fun c b => CntOK q pc c.num b) where
  move := by
    intro c h b u hc ok hq _ i hi
    rw [hk.commitMove, if_pos hi, hk.move, updateFsz_eq, ite_self, ← updateFsz_eq]
    exact move_counts ht (move_numHop hN hc ok) _ hq i hi
  exch := by
    intro c h h2 b u hc ok ok2 _ _ _ _ _ _ hq _ i hi
    rw [hk.commitExch, if_pos hi, hk.exch]
    have hc1 := updateF_cons hc ok
    rw [← updateFsz_eq, ← updateFsz_eq]
    refine move_counts ht (move_numHop hN hc1 ok2) _ ?_ i hi
    intro j hj
    exact move_counts ht (move_numHop hN hc ok) _ hq j hj
  refresh := by
    intro c b _ hq i hi
    rw [hk.refresh]; exact hq i hi

/-! ### value -/

theorem foldl_sum_real (n : Nat) (f : Nat → ℝ) :
    (List.range n).foldl (fun z i => z + f i) 0 = ∑ i ∈ Finset.range n, f i := by
  induction n with
  | zero => simp
  | succ n ih => rw [List.range_succ, List.foldl_append, ih, Finset.sum_range_succ]; rfl

theorem logProjRatio_eq (n : Nat) (Proj : Nat → ℂ) (a b : Arr) :
    logProjRatio n Proj a b = logProjVal n Proj a - logProjVal n Proj b := by
  unfold logProjRatio logProjVal
  rw [foldl_sum_real, foldl_sum_real, foldl_sum_real, ← Finset.sum_sub_distrib]
  apply Finset.sum_congr rfl
  intro i _
  push_cast; ring

theorem sum_block (c N : Nat) (f : Nat → ℝ) :
    ∑ k ∈ Finset.range (c * N), f k = ∑ d ∈ Finset.range c, ∑ x ∈ Finset.range N, f (x + d * N) := by
  induction c with
  | zero => simp
  | succ c ih =>
    rw [Nat.add_mul, Nat.one_mul, Finset.sum_range_add, ih, Finset.sum_range_succ]
    congr 1
    apply Finset.sum_congr rfl
    intro x _
    rw [Nat.add_comm]

/-- the value of `LogProjVal` on the counters of `num` is the exponent of the specification -/
theorem logProjVal_spec {q : ProjPar} (ht : TabOK q) {num : Arr} (hb : Bin q num) (Proj : Nat → ℂ) :
    logProjVal q.NProj Proj (makeProjCnt q num) =
      logCorr q.Nsite q.NG q.NJ q.N2 q.N4 q.gIdx q.jIdx
        (fun t r => [q.dh2 t (2 * r), q.dh2 t (2 * r + 1)])
        (fun t r => [q.dh4 t (4 * r), q.dh4 t (4 * r + 1), q.dh4 t (4 * r + 2), q.dh4 t (4 * r + 3)])
        (fun i => (Proj i).re) (fun i => (Proj (q.NG + i)).re)
        (fun t d m => (Proj (q.NG + q.NJ + (t + (d + 2 * m) * q.N2))).re)
        (fun t d m => (Proj (q.NG + q.NJ + 6 * q.N2 + (t + (d + 2 * m) * q.N4))).re)
        (nUp num) (nDn q num) := by
  unfold logProjVal logCorr
  rw [foldl_sum_real]
  unfold ProjPar.NProj
  rw [Finset.sum_range_add, Finset.sum_range_add, Finset.sum_range_add]
  congr 1
  · congr 1
    · congr 1
      · apply Finset.sum_congr rfl
        intro i hi
        rw [make_gutz ht hb (Finset.mem_range.mp hi)]
      · apply Finset.sum_congr rfl
        intro i hi
        rw [make_jast ht hb (Finset.mem_range.mp hi)]
    · rw [sum_block, show (6 : Nat) = 3 * 2 from rfl, sum_block]
      apply Finset.sum_congr rfl; intro m hm
      apply Finset.sum_congr rfl; intro d hd
      apply Finset.sum_congr rfl; intro t htt
      have hd := Finset.mem_range.mp hd
      have hm := Finset.mem_range.mp hm
      have htt := Finset.mem_range.mp htt
      rw [Nat.mul_comm m 2]
      rcases (show d = 0 ∨ d = 1 by omega) with rfl | rfl
      · have := make_dh2 ht hb false htt hm
        simp only [Bool.false_eq_true, if_false] at this
        rw [this]; rfl
      · have := make_dh2 ht hb true htt hm
        simp only [if_true] at this
        rw [this]; rfl
  · rw [sum_block, show (10 : Nat) = 5 * 2 from rfl, sum_block]
    apply Finset.sum_congr rfl; intro m hm
    apply Finset.sum_congr rfl; intro d hd
    apply Finset.sum_congr rfl; intro t htt
    have hd := Finset.mem_range.mp hd
    have hm := Finset.mem_range.mp hm
    have htt := Finset.mem_range.mp htt
    rw [Nat.mul_comm m 2]
    rcases (show d = 0 ∨ d = 1 by omega) with rfl | rfl
    · have := make_dh4 ht hb false htt hm
      simp only [Bool.false_eq_true, if_false] at this
      rw [this]; rfl
    · have := make_dh4 ht hb true htt hm
      simp only [if_true] at this
      rw [this]; rfl

end MVMC
