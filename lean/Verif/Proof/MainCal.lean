import Verif.Model.MainCal
import Verif.Spec.LsLocal
import Verif.Proof.CalGrn
import Verif.Proof.PfSampler
import Verif.Proof.ProjectionSampler
import Verif.Proof.SplitLoop

/-! From the Monte-Carlo chain to the reported averages. -/
namespace MVMC
open Spec Finset

/-! ### storing and loading -/

theorem copyAt_apply {α : Type} (A : Nat → α) (off n : Nat) (a : Nat → α) (k : Nat) :
    copyAt A off n a k = if off ≤ k ∧ k < off + n then a (k - off) else A k := by
  unfold copyAt
  induction n with
  | zero => rw [if_neg (by omega)]; rfl
  | succ n ih =>
    rw [List.range_succ, List.foldl_append]
    simp only [List.foldl_cons, List.foldl_nil]
    by_cases q : k = off + n
    · subst q; rw [if_pos rfl, if_pos (by omega)]; congr 1; omega
    · rw [if_neg q, ih]
      by_cases z : off ≤ k ∧ k < off + n
      · rw [if_pos z, if_pos (by omega)]
      · rw [if_neg z, if_neg (by omega)]

theorem block_ne {x y w i j : Nat} (h : x ≠ y) (hi : i < w) (hj : j < w) : x * w + i ≠ y * w + j := by
  intro e
  rcases Nat.lt_or_gt_of_ne h with q | q
  · have : (x + 1) * w ≤ y * w := Nat.mul_le_mul_right _ q
    rw [Nat.add_mul, Nat.one_mul] at this
    omega
  · have : (y + 1) * w ≤ x * w := Nat.mul_le_mul_right _ q
    rw [Nat.add_mul, Nat.one_mul] at this
    omega

theorem storeFold_other {σ α : Type} (w : Nat) (ix : σ → Nat) (f : σ → Nat → α) (l : List σ) (n i : Nat) (hi : i < w)
    (h : n ∉ l.map ix) (A : Nat → α) : l.foldl (fun A x => copyAt A (ix x * w) w (f x)) A (n * w + i) = A (n * w + i) := by
  induction l generalizing A with
  | nil => rfl
  | cons y t ih =>
    rw [List.map_cons, List.mem_cons, not_or] at h
    rw [List.foldl_cons, ih h.2, copyAt_apply, if_neg]
    rintro ⟨a, b⟩
    exact block_ne h.1 hi (j := n * w + i - ix y * w) (by omega) (by omega)

theorem storeFold_at {σ α : Type} (w : Nat) (ix : σ → Nat) (f : σ → Nat → α) (l : List σ) (hn : (l.map ix).Nodup) {x : σ} (hx : x ∈ l)
    {i : Nat} (hi : i < w) (A : Nat → α) : l.foldl (fun A x => copyAt A (ix x * w) w (f x)) A (ix x * w + i) = f x i := by
  induction l generalizing A with
  | nil => simp at hx
  | cons y t ih =>
    rw [List.map_cons, List.nodup_cons] at hn
    rw [List.foldl_cons]
    by_cases z : x ∈ t
    · exact ih hn.2 z _
    · have : x = y := by
        rcases List.mem_cons.mp hx with e | e
        · exact e
        · exact absurd e z
      subst this
      rw [storeFold_other w ix f t _ i hi hn.1, copyAt_apply, if_pos (by omega)]
      congr 1; omega

theorem foldl_field {σ τ ρ : Type} (π : ρ → τ) (F : ρ → σ → ρ) (G : τ → σ → τ) (h : ∀ S x, π (F S x) = G (π S) x) (l : List σ) (S : ρ) :
    π (l.foldl F S) = l.foldl G (π S) := by
  induction l generalizing S with
  | nil => rfl
  | cons y t ih => rw [List.foldl_cons, List.foldl_cons, ih, h]

section sz
variable (g : GrnEnv) (saved : List (Nat × SState SzMem)) (hn : (saved.map Prod.fst).Nodup) (S : EleStore)
include hn

theorem load_run {x : Nat × SState SzMem} (hx : x ∈ saved) :
    (∀ i < 2 * g.p.Ne, (loadCfg g (storeRun g saved S) x.1).idx i = x.2.c.idx i) ∧
    (∀ i < 2 * g.p.Nsite, (loadCfg g (storeRun g saved S) x.1).cfg i = x.2.c.cfg i) ∧
    (∀ i < 2 * g.p.Nsite, (loadCfg g (storeRun g saved S) x.1).num i = x.2.c.num i) ∧
    (∀ i < g.q.NProj, loadProj g (storeRun g saved S) x.1 i = x.2.b.projCnt i) ∧
    (g.flagRBM = true → ∀ i < g.rbm.nPhys + g.rbm.nNeuron, loadRBM g (storeRun g saved S) x.1 i = x.2.b.rbmCnt i) := by
  have hn' : (saved.reverse.map Prod.fst).Nodup := by rw [List.map_reverse, List.nodup_reverse]; exact hn
  have hx' : x ∈ saved.reverse := List.mem_reverse.mpr hx
  refine ⟨fun i hi => ?_, fun i hi => ?_, fun i hi => ?_, fun i hi => ?_, fun hf i hi => ?_⟩
  · show (storeRun g saved S).idx (x.1 * g.p.Nsize + i) = _
    unfold storeRun
    rw [foldl_field EleStore.idx _ (fun A y => copyAt A (y.1 * g.p.Nsize) g.p.Nsize y.2.c.idx) (fun _ _ => rfl)]
    exact storeFold_at g.p.Nsize Prod.fst (fun y => y.2.c.idx) _ hn' hx' hi _
  · show (storeRun g saved S).cfg (x.1 * g.p.Nsite2 + i) = _
    unfold storeRun
    rw [foldl_field EleStore.cfg _ (fun A y => copyAt A (y.1 * g.p.Nsite2) g.p.Nsite2 y.2.c.cfg) (fun _ _ => rfl)]
    exact storeFold_at g.p.Nsite2 Prod.fst (fun y => y.2.c.cfg) _ hn' hx' hi _
  · show (storeRun g saved S).num (x.1 * g.p.Nsite2 + i) = _
    unfold storeRun
    rw [foldl_field EleStore.num _ (fun A y => copyAt A (y.1 * g.p.Nsite2) g.p.Nsite2 y.2.c.num) (fun _ _ => rfl)]
    exact storeFold_at g.p.Nsite2 Prod.fst (fun y => y.2.c.num) _ hn' hx' hi _
  · show (storeRun g saved S).proj (x.1 * g.q.NProj + i) = _
    unfold storeRun
    rw [foldl_field EleStore.proj _ (fun A y => copyAt A (y.1 * g.q.NProj) g.q.NProj y.2.b.projCnt) (fun _ _ => rfl)]
    exact storeFold_at g.q.NProj Prod.fst (fun y => y.2.b.projCnt) _ hn' hx' hi _
  · show (storeRun g saved S).rbm (x.1 * (g.rbm.nPhys + g.rbm.nNeuron) + i) = _
    unfold storeRun
    rw [foldl_field EleStore.rbm _ (fun A y => copyAt A (y.1 * (g.rbm.nPhys + g.rbm.nNeuron)) (g.rbm.nPhys + g.rbm.nNeuron) y.2.b.rbmCnt)
      (fun _ _ => by unfold saveEleConfig; simp only [hf, if_true])]
    exact storeFold_at (g.rbm.nPhys + g.rbm.nNeuron) Prod.fst (fun y => y.2.b.rbmCnt) _ hn' hx' hi _

end sz

section fsz
variable (g : GrnEnv) (saved : List (Nat × FState SzMem)) (hn : (saved.map Prod.fst).Nodup) (S : EleStore)
include hn

theorem load_runF {x : Nat × FState SzMem} (hx : x ∈ saved) :
    (∀ i < 2 * g.p.Ne, (loadCfgF g (storeRunF g saved S) x.1).idx i = x.2.c.idx i) ∧
    (∀ i < 2 * g.p.Ne, (loadCfgF g (storeRunF g saved S) x.1).spn i = x.2.c.spn i) ∧
    (∀ i < 2 * g.p.Nsite, (loadCfgF g (storeRunF g saved S) x.1).cfg i = x.2.c.cfg i) ∧
    (∀ i < 2 * g.p.Nsite, (loadCfgF g (storeRunF g saved S) x.1).num i = x.2.c.num i) ∧
    (∀ i < g.q.NProj, loadProj g (storeRunF g saved S) x.1 i = x.2.b.projCnt i) := by
  have hn' : (saved.reverse.map Prod.fst).Nodup := by rw [List.map_reverse, List.nodup_reverse]; exact hn
  have hx' : x ∈ saved.reverse := List.mem_reverse.mpr hx
  refine ⟨fun i hi => ?_, fun i hi => ?_, fun i hi => ?_, fun i hi => ?_, fun i hi => ?_⟩
  · show (storeRunF g saved S).idx (x.1 * g.p.Nsize + i) = _
    unfold storeRunF
    rw [foldl_field EleStore.idx _ (fun A y => copyAt A (y.1 * g.p.Nsize) g.p.Nsize y.2.c.idx) (fun _ _ => rfl)]
    exact storeFold_at g.p.Nsize Prod.fst (fun y => y.2.c.idx) _ hn' hx' hi _
  · show (storeRunF g saved S).spn (x.1 * g.p.Nsize + i) = _
    unfold storeRunF
    rw [foldl_field EleStore.spn _ (fun A y => copyAt A (y.1 * g.p.Nsize) g.p.Nsize y.2.c.spn) (fun _ _ => rfl)]
    exact storeFold_at g.p.Nsize Prod.fst (fun y => y.2.c.spn) _ hn' hx' hi _
  · show (storeRunF g saved S).cfg (x.1 * g.p.Nsite2 + i) = _
    unfold storeRunF
    rw [foldl_field EleStore.cfg _ (fun A y => copyAt A (y.1 * g.p.Nsite2) g.p.Nsite2 y.2.c.cfg) (fun _ _ => rfl)]
    exact storeFold_at g.p.Nsite2 Prod.fst (fun y => y.2.c.cfg) _ hn' hx' hi _
  · show (storeRunF g saved S).num (x.1 * g.p.Nsite2 + i) = _
    unfold storeRunF
    rw [foldl_field EleStore.num _ (fun A y => copyAt A (y.1 * g.p.Nsite2) g.p.Nsite2 y.2.c.num) (fun _ _ => rfl)]
    exact storeFold_at g.p.Nsite2 Prod.fst (fun y => y.2.c.num) _ hn' hx' hi _
  · show (storeRunF g saved S).proj (x.1 * g.q.NProj + i) = _
    unfold storeRunF
    rw [foldl_field EleStore.proj _ (fun A y => copyAt A (y.1 * g.q.NProj) g.q.NProj y.2.b.projCnt) (fun _ _ => rfl)]
    exact storeFold_at g.q.NProj Prod.fst (fun y => y.2.b.projCnt) _ hn' hx' hi _

end fsz

/-! ### what is stored is a usable sample -/

/-- a configuration with exact counters, on which the Pfaffians can be computed and the inner product does not vanish -/
def Kept (g : GrnEnv) (c : EleCfg) (projCnt : Arr) (rbmCnt : Nat → ℂ) : Prop :=
  ∃ st ip, Sampled { g with st := st } c ip projCnt rbmCnt

def KeptF (g : GrnEnv) (c : FCfg) (projCnt : Arr) : Prop :=
  ∃ st ip, SampledF { g with st := st } c ip projCnt

theorem kept_congr {g : GrnEnv} (hg : GrnOK g) (hr : g.flagRBM = true → GrnRBM g) {c c' : EleCfg} {pc pc' : Arr} {rc rc' : Nat → ℂ}
    (hi : ∀ i < 2 * g.p.Ne, c'.idx i = c.idx i) (hcf : ∀ i < 2 * g.p.Nsite, c'.cfg i = c.cfg i)
    (hn : ∀ i < 2 * g.p.Nsite, c'.num i = c.num i) (hp : ∀ i < g.q.NProj, pc' i = pc i)
    (hrc : g.flagRBM = true → ∀ i < g.rbm.nPhys + g.rbm.nNeuron, rc' i = rc i) (h : Kept g c pc rc) :
    Kept g c' pc' rc' ∧ szList g c' = szList g c := by
  obtain ⟨st, ip, h⟩ := h
  have hi' : ∀ i < 2 * g.p.Ne, c.idx i = c'.idx i := fun i q => (hi i q).symm
  have hn' : ∀ i < 2 * g.p.Nsite, c.num i = c'.num i := fun i q => (hn i q).symm
  have ho := occSz_congr (N := g.p.Nsite) hi'
  have hb : Bin2 (2 * g.p.Nsite) c.num := (placed_sz (show Cons g.sp c from h.cons)).bin
  refine ⟨⟨st, ip, ⟨⟨?_, ?_⟩, pfOK_congr ho h.pf, ?_, h.hne, ?_, ?_⟩⟩, (occList_congr ho).symm⟩
  · intro s hs m hm
    obtain ⟨r, h1, h2, h3⟩ := h.cons.electron s hs m hm
    exact ⟨r, h1, by rw [hi _ (orb_lt hs hm)]; exact h2, by rw [hcf _ (orb_lt hs h1)]; exact h3⟩
  · intro s hs r hr'
    rcases h.cons.site s hs r hr' with ⟨h1, h2⟩ | ⟨m, h1, h2, h3, h4⟩
    · exact Or.inl ⟨by rw [hcf _ (orb_lt hs hr')]; exact h1, by rw [hn _ (orb_lt hs hr')]; exact h2⟩
    · exact Or.inr ⟨m, h1, by rw [hcf _ (orb_lt hs hr')]; exact h2, by rw [hi _ (orb_lt hs h1)]; exact h3,
        by rw [hn _ (orb_lt hs hr')]; exact h4⟩
  · rw [h.hip]; exact amplitude_congr ho
  · intro k hk
    rw [hp k hk, h.proj k hk]
    exact makeProj_congr hg.tab (by rw [hg.hq]; exact hb) (by rw [hg.hq]; exact hn') k
  · intro hf k hk
    rw [hrc hf k hk, h.rbm hf k hk]
    exact makeRBM_congr (by show ∀ x < 2 * g.rbm.Nsite, _; rw [(hr hf).hN]; exact hn') k

theorem keptF_congr {g : GrnEnv} (hg : GrnOK g) {c c' : FCfg} {pc pc' : Arr}
    (hi : ∀ i < 2 * g.p.Ne, c'.idx i = c.idx i) (hs : ∀ i < 2 * g.p.Ne, c'.spn i = c.spn i)
    (hcf : ∀ i < 2 * g.p.Nsite, c'.cfg i = c.cfg i)
    (hn : ∀ i < 2 * g.p.Nsite, c'.num i = c.num i) (hp : ∀ i < g.q.NProj, pc' i = pc i) (h : KeptF g c pc) :
    KeptF g c' pc' ∧ fszList g c' = fszList g c := by
  obtain ⟨st, ip, h⟩ := h
  have hi' : ∀ i < 2 * g.p.Ne, c.idx i = c'.idx i := fun i q => (hi i q).symm
  have hs' : ∀ i < 2 * g.p.Ne, c.spn i = c'.spn i := fun i q => (hs i q).symm
  have hn' : ∀ i < 2 * g.p.Nsite, c.num i = c'.num i := fun i q => (hn i q).symm
  have ho := occF_congr (N := g.p.Nsite) hi' hs'
  have hb : Bin2 (2 * g.p.Nsite) c.num := (placed_fsz (show ConsF g.fp c from h.cons)).bin
  refine ⟨⟨st, ip, ⟨⟨?_, ?_⟩, pfOK_congr ho h.pf, ?_, h.hne, ?_, h.noRBM⟩⟩, (occList_congr ho).symm⟩
  · intro m hm
    obtain ⟨s, h1, r, h2, h3, h4, h5⟩ := h.cons.electron m hm
    exact ⟨s, h1, r, h2, by rw [hi _ hm]; exact h3, by rw [hs _ hm]; exact h4, by rw [hcf _ (orb_lt h2 h1)]; exact h5⟩
  · intro s hs'' r hr'
    rcases h.cons.site s hs'' r hr' with ⟨h1, h2⟩ | ⟨m, h1, h2, h3, h4, h5⟩
    · exact Or.inl ⟨by rw [hcf _ (orb_lt hs'' hr')]; exact h1, by rw [hn _ (orb_lt hs'' hr')]; exact h2⟩
    · exact Or.inr ⟨m, h1, by rw [hcf _ (orb_lt hs'' hr')]; exact h2, by rw [hi _ h1]; exact h3, by rw [hs _ h1]; exact h4,
        by rw [hn _ (orb_lt hs'' hr')]; exact h5⟩
  · rw [h.hip]; exact amplitude_congr ho
  · intro k hk
    rw [hp k hk, h.proj k hk]
    exact makeProj_congr hg.tab (by rw [hg.hq]; exact hb) (by rw [hg.hq]; exact hn') k

/-! ### the chain -/

theorem metropolis_ne {x : ℝ} {a b : ℂ} {u : Nat} (h : metropolis x a b u = true) : b ≠ 0 := by
  classical
  unfold metropolis at h
  exact (of_decide_eq_true h).2.1

theorem QOK.and {β γ : Type} {k : Hooks β γ} {p : SamplerPar} {P Q : EleCfg → β → Prop} (h1 : QOK k p P) (h2 : QOK k p Q) :
    QOK k p (fun c b => P c b ∧ Q c b) where
  hop c h b u hc ok q ha := ⟨h1.hop c h b u hc ok q.1 ha, h2.hop c h b u hc ok q.2 ha⟩
  exch c h h2' b u hc ok ok2 e1 e2 e3 q ha :=
    ⟨h1.exch c h h2' b u hc ok ok2 e1 e2 e3 q.1 ha, h2.exch c h h2' b u hc ok ok2 e1 e2 e3 q.2 ha⟩
  refresh c b hc q := ⟨h1.refresh c b hc q.1, h2.refresh c b hc q.2⟩

theorem FQOK.and {β γ : Type} {k : FHooks β γ} {p : FPar} {P Q : FCfg → β → Prop} (h1 : FQOK k p P) (h2 : FQOK k p Q) :
    FQOK k p (fun c b => P c b ∧ Q c b) where
  move c h b u hc ok q ha := ⟨h1.move c h b u hc ok q.1 ha, h2.move c h b u hc ok q.2 ha⟩
  exch c h h2' b u hc ok ok2 e1 e2 e3 e4 e5 e6 q ha :=
    ⟨h1.exch c h h2' b u hc ok ok2 e1 e2 e3 e4 e5 e6 q.1 ha, h2.exch c h h2' b u hc ok ok2 e1 e2 e3 e4 e5 e6 q.2 ha⟩
  refresh c b hc q := ⟨h1.refresh c b hc q.1, h2.refresh c b hc q.2⟩

section hooks
variable (g : GrnEnv) (lib : SkLib ℂ)

theorem sz_carries (nT : Nat) (rj : (Nat → ℂ) → (Nat → ℂ) → ℂ) (mF : EleCfg → SzMem → PfState ℂ × ℂ) (ls : Nat → Int) (ex : Int) :
    CarriesPf (g.szPar ls ex) lib g.slt g.w 0 g.nQP (szHooks g lib nT rj mF) SzMem.ps SzMem.ip SzNew.pf SzNew.ip where
  hop _ _ _ _ _ := rfl
  hopIp _ _ _ := rfl
  exch _ _ _ _ _ _ _ := rfl
  exchIp _ _ _ _ _ := rfl
  commitHop _ _ _ _ := rfl
  commitHopIp _ _ _ _ := rfl
  commitExch _ _ _ _ _ := rfl
  commitExchIp _ _ _ _ _ := rfl
  refresh c b st' h := by
    have h : calculateMAll g.p lib g.slt 0 g.nQP (rsSz g.p c.idx) b.ps = some st' := h
    simp only [szHooks, h, and_self]

theorem sz_counts (nT : Nat) (rj : (Nat → ℂ) → (Nat → ℂ) → ℂ) (mF : EleCfg → SzMem → PfState ℂ × ℂ) :
    CountsProj g.q (szHooks g lib nT rj mF) SzMem.projCnt SzNew.projCnt where
  hop _ _ _ := rfl
  exch _ _ _ _ _ := rfl
  commitHop _ _ _ _ _ := rfl
  commitExch _ _ _ _ _ _ := rfl
  refresh c b := by simp only [szHooks]; split <;> rfl

theorem sz_rbm (hf : g.flagRBM = true) (nT : Nat) (rj : (Nat → ℂ) → (Nat → ℂ) → ℂ) (mF : EleCfg → SzMem → PfState ℂ × ℂ) :
    CountsRBM g.rbm (szHooks g lib nT rj mF) SzMem.rbmCnt SzNew.rbmCnt where
  hop _ _ _ := by simp only [szHooks, hf, if_true]
  exch _ _ _ _ _ := by simp only [szHooks, hf, if_true]
  commitHop _ _ _ _ _ := by simp only [szHooks, hf, if_true]
  commitExch _ _ _ _ _ _ := by simp only [szHooks, hf, if_true]
  refresh c b := by simp only [szHooks]; split <;> rfl

theorem fsz_carries (mF : FCfg → SzMem → PfState ℂ × ℂ) (p : FPar) (hp : p.pf = g.p) :
    CarriesPfF p lib g.slt g.w 0 g.nQP (fszHooks g lib mF) SzMem.ps SzMem.ip SzNew.pf SzNew.ip where
  move _ _ _ _ _ := by rw [hp]; rfl
  moveIp _ _ _ := rfl
  exch _ _ _ _ _ _ _ := by rw [hp]; rfl
  exchIp _ _ _ _ _ := rfl
  commitMove _ _ _ _ := by rw [hp]; rfl
  commitMoveIp _ _ _ _ := rfl
  commitExch _ _ _ _ _ := by rw [hp]; rfl
  commitExchIp _ _ _ _ _ := rfl
  refresh c b st' h := by
    rw [hp] at h
    simp only [fszHooks, h, and_self]

theorem fsz_counts (mF : FCfg → SzMem → PfState ℂ × ℂ) :
    CountsProjF g.q (fszHooks g lib mF) SzMem.projCnt SzNew.projCnt where
  move _ _ _ := rfl
  exch _ _ _ _ _ := rfl
  commitMove _ _ _ _ _ := rfl
  commitExch _ _ _ _ _ _ := rfl
  refresh c b := by simp only [fszHooks]; split <;> rfl

end hooks

/-- what the chain carries -/
def SzCarry (g : GrnEnv) (c : EleCfg) (b : SzMem) : Prop :=
  (PfCarried (2 * g.p.Ne) (2 * g.p.Nsite) g.slt g.w 0 (g.nQP - 0) (occSz g.p.Ne g.p.Nsite c.idx) b.ps b.ip ∧ b.ip ≠ 0) ∧
  CntOK g.q SzMem.projCnt c.num b ∧
  (g.flagRBM = true → ∀ i < g.rbm.nPhys + g.rbm.nNeuron, b.rbmCnt i = makeRBMCnt g.rbm c.num i)

def FszCarry (g : GrnEnv) (c : FCfg) (b : SzMem) : Prop :=
  (PfCarried (2 * g.p.Ne) (2 * g.p.Nsite) g.slt g.w 0 (g.nQP - 0) (occF g.p.Nsite c.idx c.spn) b.ps b.ip ∧ b.ip ≠ 0) ∧
  CntOK g.q SzMem.projCnt c.num b

section chain
variable {g : GrnEnv} (hg : GrnOK g) {lib : SkLib ℂ} (hlib : LibOK lib) (htot : LibTotal lib) (hz : NoZero g)
include hg hlib htot hz

theorem szCarry_qok (hr : g.flagRBM = true → GrnRBM g) (nT : Nat) (rj : (Nat → ℂ) → (Nat → ℂ) → ℂ)
    (mF : EleCfg → SzMem → PfState ℂ × ℂ) (ls : Nat → Int) (ex : Int) :
    QOK (szHooks g lib nT rj mF) (g.szPar ls ex) (SzCarry g) := by
  have hacc : ∀ b n u, (szHooks g lib nT rj mF).accept b n u = true → n.ip ≠ 0 := fun b n u h => metropolis_ne h
  have h1 := carries_qok' hlib htot (sz_carries g lib nT rj mF ls ex) (fun q hq => by
      have := hg.skew q (by omega); rw [Nat.add_zero]; exact this) (by
    intro b n u c hc ha hip hpf q hq
    have hpl := placed_sz (g := g) (show Cons g.sp c from hc)
    rw [hpf q hq, Nat.add_zero]
    refine hz _ hpl.inj hpl.lt ?_ q (by omega)
    have := hacc b n u ha
    rw [hip] at this
    exact this)
  have h1' : QOK (szHooks g lib nT rj mF) (g.szPar ls ex) (fun c b =>
      PfCarried (2 * g.p.Ne) (2 * g.p.Nsite) g.slt g.w 0 (g.nQP - 0) (occSz g.p.Ne g.p.Nsite c.idx) b.ps b.ip ∧ b.ip ≠ 0) := by
    refine ⟨?_, ?_, ?_⟩
    · intro c h b u hc ok hq ha
      exact ⟨h1.hop c h b u hc ok hq.1 ha, hacc _ _ _ ha⟩
    · intro c h h2 b u hc ok ok2 e1 e2 e3 hq ha
      exact ⟨h1.exch c h h2 b u hc ok ok2 e1 e2 e3 hq.1 ha, hacc _ _ _ ha⟩
    · intro c b hc hq
      have hn := h1.refresh c b hc hq.1
      refine ⟨hn, ?_⟩
      have e := hn.2
      have e0 := hq.1.2
      rw [e]
      have : b.ip ≠ 0 := hq.2
      rw [e0] at this
      exact this
  refine h1'.and (QOK.and ?_ ?_)
  · exact counts_qok (show g.q.Nsite = g.p.Nsite from hg.hq) hg.tab (sz_counts g lib nT rj mF)
  · by_cases hf : g.flagRBM = true
    · have h2 := rbm_qok (p := g.szPar ls ex) (show g.rbm.Nsite = g.p.Nsite from (hr hf).hN) (sz_rbm g lib hf nT rj mF)
      exact ⟨fun c h b u hc ok q ha _ => h2.hop c h b u hc ok (q hf) ha,
        fun c h h' b u hc ok ok2 e1 e2 e3 q ha _ => h2.exch c h h' b u hc ok ok2 e1 e2 e3 (q hf) ha,
        fun c b hc q _ => h2.refresh c b hc (q hf)⟩
    · exact ⟨fun _ _ _ _ _ _ _ _ h => absurd h hf, fun _ _ _ _ _ _ _ _ _ _ _ _ _ h => absurd h hf, fun _ _ _ _ h => absurd h hf⟩

theorem fszCarry_qok (mF : FCfg → SzMem → PfState ℂ × ℂ) (p : FPar) (hp : p.pf = g.p) :
    FQOK (fszHooks g lib mF) p (FszCarry g) := by
  have e1 : p.Ne = g.p.Ne := congrArg PfPar.Ne hp
  have e2 : p.Nsite = g.p.Nsite := congrArg PfPar.Nsite hp
  have hacc : ∀ b n u, (fszHooks g lib mF).accept b n u = true → n.ip ≠ 0 := fun b n u h => metropolis_ne h
  have h1 := carries_fqok' hlib htot (fsz_carries g lib mF p hp) (fun q hq => by
      have := hg.skew q (by omega); rw [Nat.add_zero, e2]; exact this) (by
    intro b n u c hc ha hip hpf q hq
    have hpl := placed_fsz (g := g) (c := c) (show ConsF g.fp c by
      show ConsistentF (2 * g.p.Ne) g.p.Nsite _ _ _ _
      rw [← e1, ← e2]; exact hc)
    rw [hpf q hq, Nat.add_zero, e1, e2]
    refine hz _ hpl.inj hpl.lt ?_ q (by omega)
    have := hacc b n u ha
    rw [hip, e1, e2] at this
    exact this)
  rw [e1, e2] at h1
  have h1' : FQOK (fszHooks g lib mF) p (fun c b =>
      PfCarried (2 * g.p.Ne) (2 * g.p.Nsite) g.slt g.w 0 (g.nQP - 0) (occF g.p.Nsite c.idx c.spn) b.ps b.ip ∧ b.ip ≠ 0) := by
    refine ⟨?_, ?_, ?_⟩
    · intro c h b u hc ok hq ha
      exact ⟨h1.move c h b u hc ok hq.1 ha, hacc _ _ _ ha⟩
    · intro c h h2 b u hc ok ok2 e1 e2 e3 e4 e5 e6 hq ha
      exact ⟨h1.exch c h h2 b u hc ok ok2 e1 e2 e3 e4 e5 e6 hq.1 ha, hacc _ _ _ ha⟩
    · intro c b hc hq
      have hn := h1.refresh c b hc hq.1
      refine ⟨hn, ?_⟩
      have e := hn.2
      have e0 := hq.1.2
      rw [e]
      have : b.ip ≠ 0 := hq.2
      rw [e0] at this
      exact this
  exact h1'.and (counts_fqok (by rw [e2]; exact hg.hq) hg.tab (fsz_counts g lib mF))

end chain

theorem kept_of_carry {g : GrnEnv} {c : EleCfg} {b : SzMem} (hc : Consistent g.p.Ne g.p.Nsite c.idx c.cfg c.num) (h : SzCarry g c b) :
    Kept g c b.projCnt b.rbmCnt :=
  ⟨b.ps, b.ip, hc, h.1.1.1, h.1.1.2, h.1.2, h.2.1, h.2.2⟩

theorem keptF_of_carry {g : GrnEnv} {c : FCfg} {b : SzMem} (hf : g.flagRBM = false)
    (hc : ConsistentF (2 * g.p.Ne) g.p.Nsite c.idx c.spn c.cfg c.num) (h : FszCarry g c b) :
    KeptF g c b.projCnt :=
  ⟨b.ps, b.ip, hc, h.1.1.1, h.1.1.2, h.1.2, h.2, hf⟩

theorem carry_of_start {g : GrnEnv} (hg : GrnOK g) {lib : SkLib ℂ} (hlib : LibOK lib) {c : EleCfg} {pc : Arr} {rc : Nat → ℂ}
    {st0 : PfState ℂ} {b : SzMem} (hc : Consistent g.p.Ne g.p.Nsite c.idx c.cfg c.num)
    (hp : ∀ i < g.q.NProj, pc i = makeProjCnt g.q c.num i) (e : szStart g lib c pc rc st0 = some b) (hne : b.ip ≠ 0) : SzCarry g c b := by
  unfold szStart at e
  split at e
  · simp at e
  · rename_i st hst
    simp only [Option.some.injEq] at e
    subst e
    have hcs : Cons g.sp c := hc
    have hrs : ∀ i, i < g.p.Nsize → rsSz g.p c.idx i < g.p.Nsite2 := by
      intro i hi
      rw [rsSz_occ c.idx hi]
      exact occ_lt (onSites_of_cons hcs) hi
    have hok := pfOK_congr (fun i hi => rsSz_occ (p := g.p) c.idx hi) (calculateMAll_ok (p := g.p) hlib
      (fun q hq => by have := hg.skew q (by omega); rw [Nat.add_zero]; exact this) hrs hst)
    refine ⟨⟨⟨hok, ?_⟩, hne⟩, hp, ?_⟩
    · exact calculateIPLocal_eq (fun q hqq => (hok q hqq).1)
    · intro hf i _; simp only [hf, if_true]

theorem carry_of_startF {g : GrnEnv} (hg : GrnOK g) {lib : SkLib ℂ} (hlib : LibOK lib) {c : FCfg} {pc : Arr} {rc : Nat → ℂ}
    {st0 : PfState ℂ} {b : SzMem} (hc : ConsistentF (2 * g.p.Ne) g.p.Nsite c.idx c.spn c.cfg c.num)
    (hp : ∀ i < g.q.NProj, pc i = makeProjCnt g.q c.num i) (e : fszStart g lib c pc rc st0 = some b) (hne : b.ip ≠ 0) : FszCarry g c b := by
  unfold fszStart at e
  split at e
  · simp at e
  · rename_i st hst
    simp only [Option.some.injEq] at e
    subst e
    have hcs : ConsF g.fp c := hc
    have hrs : ∀ i, i < g.p.Nsize → rsFsz g.p c.idx c.spn i < g.p.Nsite2 := by
      intro i hi
      rw [rsFsz_occ (p := g.p) (spins_of_consF hcs) hi]
      exact occF_lt (onSites_of_consF hcs) hi
    have hok := pfOK_congr (fun i hi => rsFsz_occ (p := g.p) (spins_of_consF hcs) hi) (calculateMAll_ok (p := g.p) hlib
      (fun q hq => by have := hg.skew q (by omega); rw [Nat.add_zero]; exact this) hrs hst)
    exact ⟨⟨⟨hok, calculateIPLocal_eq (fun q hqq => (hok q hqq).1)⟩, hne⟩, hp⟩

/-! ### one stored sample -/

/-- conditions on what the environment decides for one sample: complete thread teams -/
def MainOrOK {C : Type} (H : HamPar) (T : GrnTab) (o : MainOr C) : Prop :=
  ∃ nT nT', SchedOK H nT o.sched ∧ o.order.Perm (List.range nT) ∧ GrnSched T nT' o.gSched ∧ o.gOrder.Perm (List.range nT') ∧
    o.gOrder'.Perm (List.range nT')

/-- what a usable sample with occupation list `x` adds -/
structure Counted (g : GrnEnv) (H : HamPar) (x : List Nat) (a a' : PhysAcc) : Prop where
  wc : a'.wc = a.wc + 1
  etot : a'.etot = a.etot + energyOf (psi g) (hamTerms g.p.Nsite H) x
  etot2 : a'.etot2 = a.etot2 + (starRingEnd ℂ) (energyOf (psi g) (hamTerms g.p.Nsite H) x) * energyOf (psi g) (hamTerms g.p.Nsite H) x

theorem mainStep_kept {g : GrnEnv} (hg : GrnOK g) (hr : g.flagRBM = true → GrnRBM g) {lib : SkLib ℂ} (hlib : LibOK lib) (htot : LibTotal lib)
    {H : HamPar} (hH : HamIdx g.p.Nsite H) (hsz : HamSzConserving H) {T : GrnTab} (hT : GrnIdx g.p.Nsite T) (hTs : GrnSz T) (mode : Nat)
    {S : EleStore} {o : Nat → MainOr EleCfg} {a : PhysAcc} {s : Nat} (ho : MainOrOK H T (o s))
    (hk : Kept g (loadCfg g S s) (loadProj g S s) (loadRBM g S s)) :
    Counted g H (szList g (loadCfg g S s)) a (mainStep g H T lib mode S o a s) ∧
    (mode = 1 → Measured g.p.Nsite T (psi g) (szList g (loadCfg g S s)) 1 a.grn (mainStep g H T lib mode S o a s).grn) := by
  obtain ⟨st0, ip0, h⟩ := hk
  obtain ⟨nT, nT', o1, o2, o3, o4, o5⟩ := ho
  have hcs : Cons g.sp (loadCfg g S s) := h.cons
  have hrs : ∀ i, i < g.p.Nsize → rsSz g.p (loadCfg g S s).idx i < g.p.Nsite2 := by
    intro i hi
    rw [rsSz_occ _ hi]
    exact occ_lt (onSites_of_cons hcs) hi
  have hrs' : ∀ i, i < 2 * g.p.Ne → rsSz g.p (loadCfg g S s).idx i = occSz g.p.Ne g.p.Nsite (loadCfg g S s).idx i :=
    fun i hi => rsSz_occ (p := g.p) _ hi
  have hsk : ∀ q, q < g.nQP - 0 → SlaterSkew g.p.Nsite2 g.slt (q + 0) := fun q hq => hg.skew q (by omega)
  obtain ⟨st, hst⟩ := calculateMAll_total (p := g.p) htot a.st hsk hrs (fun q => entry g.p.Nsize st0.invM q)
    (fun q hqq => isInv_congr (fun i hi => (hrs' i hi).symm) (fun _ _ _ _ => rfl) (fun _ _ _ _ => rfl) (h.pf q (by omega)).2)
  have hok := pfOK_congr hrs' (calculateMAll_ok (p := g.p) hlib hsk hrs hst)
  have hip : calculateIPLocal g.w st.pfM 0 g.nQP = ip0 := by
    rw [h.hip]
    exact calculateIPLocal_eq (fun q hqq => (hok q hqq).1)
  have hS : Sampled { g with st := st } (loadCfg g S s) ip0 (loadProj g S s) (loadRBM g S s) :=
    ⟨h.cons, hok, h.hip, h.hne, h.proj, h.rbm⟩
  have hg' : GrnOK { g with st := st } := ⟨hg.hq, hg.tab, hg.skew⟩
  have hr' : ({ g with st := st } : GrnEnv).flagRBM = true → GrnRBM { g with st := st } :=
    fun q => ⟨(hr q).hN, (hr q).tab, (hr q).blk, (hr q).cosh⟩
  have hE := calculateHamiltonian_val hg' hr' hS hH hsz o1 o2 (o s).junk
  have hE : calculateHamiltonian { g with st := st } H (o s).sched (o s).order (o s).junk ip0 (loadProj g S s) (loadRBM g S s) (loadCfg g S s)
      = energyOf (psi g) (hamTerms g.p.Nsite H) (szList g (loadCfg g S s)) := hE
  have hG := fun acc => calculateGreenFunc_val hg' hr' hS hT hTs o3 o4 o5 (o s).gJunk 1 acc
  unfold mainStep
  simp only [hst, hip, if_neg h.hne, hE]
  by_cases hm : mode = 1
  · rw [if_pos hm]
    refine ⟨⟨rfl, ?_, ?_⟩, fun _ => hG a.grn⟩
    · simp only [addE, one_mul]
    · simp only [addE, one_mul]
  · rw [if_neg hm]
    refine ⟨⟨rfl, ?_, ?_⟩, fun q => absurd q hm⟩
    · simp only [addE, one_mul]
    · simp only [addE, one_mul]

theorem mainStepF_kept {g : GrnEnv} (hg : GrnOK g) {lib : SkLib ℂ} (hlib : LibOK lib) (htot : LibTotal lib)
    {H : HamPar} (hH : HamIdx g.p.Nsite H)
    {S : EleStore} {o : Nat → MainOr FCfg} {a : PhysAcc} {s : Nat} {nT : Nat} (o1 : SchedOK H nT (o s).sched)
    (o2 : (o s).order.Perm (List.range nT)) (hk : KeptF g (loadCfgF g S s) (loadProj g S s)) :
    Counted g H (fszList g (loadCfgF g S s)) a (mainStepF g H lib S o a s) ∧
    (mainStepF g H lib S o a s).sz = a.sz + calculateSzF g.p.Nsite (loadCfgF g S s).num ∧
    (mainStepF g H lib S o a s).sz2 = a.sz2 +
      (calculateSzF g.p.Nsite (loadCfgF g S s).num : ℂ) * calculateSzF g.p.Nsite (loadCfgF g S s).num := by
  obtain ⟨st0, ip0, h⟩ := hk
  have hcs : ConsF g.fp (loadCfgF g S s) := h.cons
  have hrs : ∀ i, i < g.p.Nsize → rsFsz g.p (loadCfgF g S s).idx (loadCfgF g S s).spn i < g.p.Nsite2 := by
    intro i hi
    rw [rsFsz_occ (p := g.p) (spins_of_consF hcs) hi]
    exact occF_lt (onSites_of_consF hcs) hi
  have hrs' : ∀ i, i < 2 * g.p.Ne → rsFsz g.p (loadCfgF g S s).idx (loadCfgF g S s).spn i
      = occF g.p.Nsite (loadCfgF g S s).idx (loadCfgF g S s).spn i :=
    fun i hi => rsFsz_occ (p := g.p) (spins_of_consF hcs) hi
  have hsk : ∀ q, q < g.nQP - 0 → SlaterSkew g.p.Nsite2 g.slt (q + 0) := fun q hq => hg.skew q (by omega)
  obtain ⟨st, hst⟩ := calculateMAll_total (p := g.p) htot a.st hsk hrs (fun q => entry g.p.Nsize st0.invM q)
    (fun q hqq => isInv_congr (fun i hi => (hrs' i hi).symm) (fun _ _ _ _ => rfl) (fun _ _ _ _ => rfl) (h.pf q (by omega)).2)
  have hok := pfOK_congr hrs' (calculateMAll_ok (p := g.p) hlib hsk hrs hst)
  have hip : calculateIPLocal g.w st.pfM 0 g.nQP = ip0 := by
    rw [h.hip]
    exact calculateIPLocal_eq (fun q hqq => (hok q hqq).1)
  have hS : SampledF { g with st := st } (loadCfgF g S s) ip0 (loadProj g S s) :=
    ⟨h.cons, hok, h.hip, h.hne, h.proj, h.noRBM⟩
  have hg' : GrnOK { g with st := st } := ⟨hg.hq, hg.tab, hg.skew⟩
  have hE : calculateHamiltonianF { g with st := st } H (o s).sched (o s).order (o s).junk ip0 (loadProj g S s) (loadCfgF g S s)
      = energyOf (psi g) (hamTerms g.p.Nsite H) (fszList g (loadCfgF g S s)) :=
    calculateHamiltonianF_val hg' hS hH o1 o2 (o s).junk
  unfold mainStepF
  simp only [hst, hip, if_neg h.hne, hE]
  refine ⟨⟨rfl, ?_, ?_⟩, ?_, ?_⟩ <;> simp only [addE, one_mul]

/-! ### sums over the samples, the processes of a group and the groups -/

theorem foldl_proj {σ : Type} (π : σ → ℂ) (step : σ → Nat → σ) (f : Nat → ℂ) (l : List Nat)
    (h : ∀ s ∈ l, ∀ a, π (step a s) = π a + f s) (a : σ) : π (l.foldl step a) = l.foldl (fun z s => z + f s) (π a) := by
  induction l generalizing a with
  | nil => rfl
  | cons y t ih =>
    rw [List.foldl_cons, List.foldl_cons, ih (fun s hs => h s (List.mem_cons_of_mem _ hs)), h y List.mem_cons_self]

theorem mem_split {len rank size s : Nat} (hr : rank < size)
    (hs : s ∈ List.range' (splitLoop len rank size).1 ((splitLoop len rank size).2 - (splitLoop len rank size).1)) : s < len := by
  rw [splitLoop_eq len rank size hr] at hs
  have h1 := List.mem_range'_1.mp hs
  have h2 : splitStart len (rank + 1) size ≤ splitStart len size size := splitStart_mono len size (show rank + 1 ≤ size from hr)
  have h3 := splitStart_size len size (by omega)
  simp only at h1
  omega

theorem groupSize_pos {np S γ : Nat} (hS : 0 < S) (h : γ < groupCount np S) : 0 < groupSize np S γ := by
  unfold groupCount at h
  unfold groupSize
  have := (Nat.lt_div_iff_mul_lt hS).mp h
  have : γ * S < np := by omega
  omega

theorem group_lt {np S k : Nat} (hS : 0 < S) (h : k < np) : k / S < groupCount np S ∧ k % S < groupSize np S (k / S) := by
  have h1 := Nat.div_add_mod k S
  have h2 := Nat.mod_lt k hS
  have h3 : k / S * S = S * (k / S) := Nat.mul_comm _ _
  unfold groupCount groupSize
  refine ⟨(Nat.lt_div_iff_mul_lt hS).mpr (by omega), by omega⟩

theorem sum_groups (np S : Nat) (hS : 0 < S) (F : Nat → Nat → ℂ) :
    ∑ k ∈ range np, F (k / S) (k % S) = ∑ γ ∈ range (groupCount np S), ∑ r ∈ range (groupSize np S γ), F γ r := by
  rw [sum_sigma' (range (groupCount np S)) (fun γ => range (groupSize np S γ)) F]
  refine sum_nbij' (fun k => ⟨k / S, k % S⟩) (fun x => x.1 * S + x.2) ?_ ?_ ?_ ?_ ?_
  · intro k hk
    have := group_lt hS (mem_range.mp hk)
    exact mem_sigma.mpr ⟨mem_range.mpr this.1, mem_range.mpr this.2⟩
  · rintro ⟨γ, r⟩ hx
    have h2 := mem_range.mp (mem_sigma.mp hx).2
    unfold groupSize at h2
    simp only at h2
    exact mem_range.mpr (by simp only; omega)
  · intro k _
    simp only
    rw [Nat.mul_comm]; exact Nat.div_add_mod k S
  · rintro ⟨γ, r⟩ hx
    have h2 := mem_range.mp (mem_sigma.mp hx).2
    unfold groupSize at h2
    simp only at h2
    have : r < S := by omega
    simp only
    rw [show (γ * S + r) / S = γ by rw [Nat.mul_comm, Nat.mul_add_div hS, Nat.div_eq_of_lt this, Nat.add_zero],
      show (γ * S + r) % S = r by rw [Nat.mul_comm, Nat.mul_add_mod, Nat.mod_eq_of_lt this]]
  · intro k _; rfl

theorem sum_saved {β : Type} {n : Nat} {saved : List (Nat × β)} (h : (saved.map Prod.fst).reverse = List.range n) (f : Nat → ℂ)
    (F : β → ℂ) (hf : ∀ x ∈ saved, f x.1 = F x.2) : ∑ s ∈ range n, f s = (saved.map (fun x => F x.2)).sum := by
  have : ∑ s ∈ range n, f s = ((List.range n).map f).sum := rfl
  rw [this, ← h, List.map_reverse, List.sum_reverse, List.map_map]
  exact congrArg List.sum (List.map_congr_left hf)

theorem nodup_saved {β : Type} {n : Nat} {saved : List (Nat × β)} (h : (saved.map Prod.fst).reverse = List.range n) :
    (saved.map Prod.fst).Nodup ∧ saved.length = n ∧ ∀ s < n, ∃ x ∈ saved, x.1 = s := by
  refine ⟨?_, ?_, ?_⟩
  · rw [← List.nodup_reverse, h]; exact List.nodup_range
  · have := congrArg List.length h
    simpa using this
  · intro s hs
    have : s ∈ (saved.map Prod.fst).reverse := by rw [h]; exact List.mem_range.mpr hs
    rw [List.mem_reverse] at this
    obtain ⟨x, hx, e⟩ := List.mem_map.mp this
    exact ⟨x, hx, e⟩

/-! ### a chain that starts on a zero of the trial state -/

theorem metropolis_stuck {x : ℝ} {b : ℂ} {u : Nat} : metropolis x 0 b u = false := by
  classical
  unfold metropolis
  exact decide_eq_false (fun h => h.1 rfl)

section stuck
variable {g : GrnEnv} {lib : SkLib ℂ} {nT : Nat} {rj : (Nat → ℂ) → (Nat → ℂ) → ℂ} {mF : EleCfg → SzMem → PfState ℂ × ℂ}
  {ls : Nat → Int} {ex : Int}

/-- nothing has been accepted since the start -/
def ChainStuck (g : GrnEnv) (c0 : EleCfg) (st : SState SzMem) : Prop := st.c = c0 ∧ st.b.ip = 0 ∧ st.nAccept = 0

theorem stuck_refresh {c0 : EleCfg} {st : SState SzMem} (h : ChainStuck g c0 st) :
    ChainStuck g c0 (maybeRefresh (szHooks g lib nT rj mF) (g.szPar ls ex) st) := by
  unfold maybeRefresh
  rw [if_neg (by rw [h.2.2]; omega)]
  exact h

theorem innerStep_stuck (hNe : 0 < g.p.Ne) (hNs : 0 < g.p.Nsite) {c0 : EleCfg} (hc : Consistent g.p.Ne g.p.Nsite c0.idx c0.cfg c0.num)
    {st st' : SState SzMem} {r r' : List Nat} (hi : ChainStuck g c0 st)
    (e : innerStep (szHooks g lib nT rj mF) (g.szPar ls ex) st r = some (st', r')) : ChainStuck g c0 st' := by
  have hcs : Cons (g.szPar ls ex) st.c := by rw [hi.1]; exact hc
  have hacc : ∀ n u, (szHooks g lib nT rj mF).accept st.b n u = false := by
    intro n u
    simp only [szHooks, hi.2.1]
    exact metropolis_stuck
  unfold innerStep at e
  split at e
  · simp at e
  · simp only at e
    split at e
    · simp at e
    · simp only [Option.some.injEq, Prod.mk.injEq] at e
      obtain ⟨rfl, _⟩ := e
      exact hi
    · rename_i h r1 ec
      have ⟨ok, l1, l2⟩ := hopping_ok hcs hNe hNs _ ec
      split at e
      · simp at e
      · rw [if_neg (by rw [hacc]; simp)] at e
        simp only [Option.some.injEq, Prod.mk.injEq] at e
        obtain ⟨rfl, _⟩ := e
        rw [revert_update hcs ok]
        exact stuck_refresh hi
  · simp only at e
    split at e
    · simp at e
    · simp only [Option.some.injEq, Prod.mk.injEq] at e
      obtain ⟨rfl, _⟩ := e
      exact hi
    · rename_i h r1 ec
      have ⟨ok, ok2, q1, q2, q3, _⟩ := exchange_ok hcs hNe _ ec
      split at e
      · simp at e
      · rw [if_neg (by rw [hacc]; simp)] at e
        simp only [Option.some.injEq, Prod.mk.injEq] at e
        obtain ⟨rfl, _⟩ := e
        rw [revert_update (update_cons hcs ok) ok2, revert_update hcs ok]
        exact stuck_refresh hi
  · simp only [Option.some.injEq, Prod.mk.injEq] at e
    obtain ⟨rfl, _⟩ := e
    exact stuck_refresh hi

theorem innerLoop_stuck (hNe : 0 < g.p.Ne) (hNs : 0 < g.p.Nsite) {c0 : EleCfg} (hc : Consistent g.p.Ne g.p.Nsite c0.idx c0.cfg c0.num)
    (n : Nat) {st st' : SState SzMem} {r r' : List Nat} (hi : ChainStuck g c0 st)
    (e : innerLoop (szHooks g lib nT rj mF) (g.szPar ls ex) n st r = some (st', r')) : ChainStuck g c0 st' := by
  induction n generalizing st r with
  | zero => simp only [innerLoop, Option.some.injEq, Prod.mk.injEq] at e; rw [← e.1]; exact hi
  | succ n ih =>
    unfold innerLoop at e
    split at e
    · simp at e
    · rename_i st1 r1 e1
      exact ih (innerStep_stuck hNe hNs hc hi e1) e

end stuck

theorem calculateSzF_congr {N : Nat} {a b : Arr} (h : ∀ i < 2 * N, a i = b i) : calculateSzF N a = calculateSzF N b := by
  unfold calculateSzF
  refine foldl_congr_range N (fun s i hi => ?_) 0
  rw [h i (by omega), h (i + N) (by omega)]

end MVMC
