import Verif.Model.RealMode
import Verif.Proof.PfHom
import Verif.Proof.MainCal

/-! The real mode computes what the complex mode computes from real data. -/
namespace MVMC
open Spec Finset

/-- The data that the real mode effectively works with: real part of the pair matrix, real part of the weights of the projections,
no Boltzmann machine. -/
noncomputable def GrnEnv.toC (g : GrnEnv) (st : PfState ℝ) : GrnEnv :=
  { g with flagRBM := false, slt := fun i => ((g.slt i).re : ℂ), w := fun i => ((g.w i).re : ℂ), st := st.cast }

theorem cast_eq_map (st : PfState ℝ) : st.cast = st.map Complex.ofRealHom := rfl

/-! ### the library -/

open Classical in
/-- `lib` extended to complex matrices; matrices that are not real are inverted exactly -/
noncomputable def liftLib (lib : SkLib ℝ) : SkLib ℂ := fun n b =>
  if ∀ k, (b k).im = 0 then (lib n (fun k => (b k).re)).map (fun r => ((r.1 : ℂ), fun k => (r.2 k : ℂ)))
  else if h : ∃ inv : Nat → ℂ, ∀ i, i < n → ∀ j, j < n → ∑ k ∈ range n, inv (i + n * k) * b (k + n * j) = if i = j then 1 else 0 then
    some (pfOf (fun i j => b (i + n * j)) n id, h.choose)
  else none

theorem liftLib_map (lib : SkLib ℝ) : LibMap Complex.ofRealHom lib (liftLib lib) := by
  intro n b
  unfold liftLib
  exact (if_pos (fun k => Complex.ofReal_im (b k))).trans rfl

theorem map_pfN {K L α : Type} [CommRing K] [CommRing L] (φ : K →+* L) (A : α → α → K) : ∀ (n : Nat) (l : List α),
    φ (pfN A n l) = pfN (fun x y => φ (A x y)) n l
  | _, [] => by simp [pfN]
  | 0, _ :: _ => by simp [pfN]
  | n + 1, x :: l => by
    have H : ∀ (F : List α → K) (G : List α → L) (l : List α), (∀ m, φ (F m) = G m) →
        φ (altSum (A x) F l) = altSum (fun y => φ (A x y)) G l := by
      intro F G l
      induction l generalizing F G with
      | nil => intro _; simp [altSum]
      | cons y l ih =>
        intro h
        simp only [altSum, map_sub, map_mul]
        rw [h, ih _ (fun m => G (y :: m)) (fun m => h _)]
    simp only [pfN]
    exact H _ _ l (fun m => map_pfN φ A n m)

theorem map_pf {K L α : Type} [CommRing K] [CommRing L] (φ : K →+* L) (A : α → α → K) (l : List α) :
    φ (pf A l) = pf (fun x y => φ (A x y)) l := map_pfN φ A _ l

theorem re_cast {b : Nat → ℂ} (h : ∀ k, (b k).im = 0) : b = fun k => ((b k).re : ℂ) := by
  funext k
  exact Complex.ext (by simp) (by simp [h k])

theorem liftLib_ok {lib : SkLib ℝ} (h : LibOK lib) : LibOK (liftLib lib) := by
  intro n b pfaff inv e hsk hd
  unfold liftLib at e
  split at e
  · rename_i hr
    cases hl : lib n (fun k => (b k).re) with
    | none => rw [hl] at e; simp at e
    | some r =>
      rw [hl] at e
      simp only [Option.map_some, Option.some.injEq, Prod.mk.injEq] at e
      obtain ⟨h1, h2⟩ := h n _ r.1 r.2 hl (fun i j hi hj => by rw [hsk i j hi hj]; simp) (fun i hi => by rw [hd i hi]; simp)
      have hb := re_cast hr
      refine ⟨?_, fun i hi j hj => ?_⟩
      · rw [← e.1, h1]
        unfold pfOf
        refine (map_pf Complex.ofRealHom _ _).trans ?_
        congr 1
        funext i j
        exact (congrFun hb _).symm
      · rw [← e.2, hb]
        have := congrArg (fun x : ℝ => (x : ℂ)) (h2 i hi j hj)
        simp only [Complex.ofReal_sum, Complex.ofReal_mul] at this
        refine Eq.trans ?_ (this.trans ?_)
        · rfl
        · split <;> simp
  · split at e
    · rename_i hx
      simp only [Option.some.injEq, Prod.mk.injEq] at e
      exact ⟨e.1.symm, by rw [← e.2]; exact hx.choose_spec⟩
    · exact absurd e (by simp)

theorem liftLib_total {lib : SkLib ℝ} (h : LibTotal lib) : LibTotal (liftLib lib) := by
  intro n b inv hsk hd hi
  unfold liftLib
  split
  · rename_i hr
    have hb := re_cast hr
    obtain ⟨r, hl⟩ := h n (fun k => (b k).re) (fun k => (inv k).re) (fun i j hi hj => by rw [hsk i j hi hj]; simp)
      (fun i hi => by rw [hd i hi]; simp) (fun i hi' j hj => by
        have := congrArg Complex.re (hi i hi' j hj)
        rw [Complex.re_sum] at this
        refine Eq.trans (sum_congr rfl (fun k _ => ?_)) (this.trans ?_)
        · rw [Complex.mul_re, hr, mul_zero, sub_zero]
        · split <;> simp)
    exact ⟨_, by rw [hl]; rfl⟩
  · rw [dif_pos ⟨inv, hi⟩]
    exact ⟨_, rfl⟩

/-! ### inner product and Green functions -/

section
variable (g : GrnEnv) (st : PfState ℝ)

theorem ip_toC (pf : Nat → ℝ) (pfC : Nat → ℂ) (h : ∀ q, pfC q = (pf q : ℂ)) :
    calculateIPLocal (fun i => ((g.w i).re : ℂ)) pfC 0 g.nQP = ((calculateIPR (g.real st) pf : ℝ) : ℂ) := by
  have e : pfC = fun q => Complex.ofRealHom (pf q) := funext h
  rw [e]
  refine (map_calculateIPLocal Complex.ofRealHom (fun i => (g.w i).re) pf 0 g.nQP).symm.trans ?_
  rfl

theorem newPfM_toC (ma s : Nat) (idx : Arr) (q : Nat) :
    calculateNewPfM g.p (fun i => ((g.slt i).re : ℂ)) ma s idx 0 st.cast q =
      ((calculateNewPfM g.p (g.real st).slt ma s idx 0 st q : ℝ) : ℂ) :=
  (map_calculateNewPfM Complex.ofRealHom g.p (g.real st).slt ma s idx 0 st q).symm

theorem newPfMFsz_toC (ma s : Nat) (idx spn : Arr) (q : Nat) :
    calculateNewPfMFsz g.p (fun i => ((g.slt i).re : ℂ)) ma s idx spn 0 st.cast q =
      ((calculateNewPfMFsz g.p (g.real st).slt ma s idx spn 0 st q : ℝ) : ℂ) :=
  (map_calculateNewPfMFsz Complex.ofRealHom g.p (g.real st).slt ma s idx spn 0 st q).symm

theorem newPfMTwo_toC (ma s mb t : Nat) (idx : Arr) (q : Nat) :
    calculateNewPfMTwo g.p (fun i => ((g.slt i).re : ℂ)) ma s mb t idx 0 st.cast q =
      ((calculateNewPfMTwo g.p (g.real st).slt ma s mb t idx 0 st q : ℝ) : ℂ) :=
  (map_calculateNewPfMTwo Complex.ofRealHom g.p (g.real st).slt ma s mb t idx 0 st q).symm

theorem newPfMTwoFsz_toC (ma s mb t : Nat) (idx spn : Arr) (q : Nat) :
    calculateNewPfMTwoFsz g.p (fun i => ((g.slt i).re : ℂ)) ma s mb t idx spn 0 st.cast q =
      ((calculateNewPfMTwoFsz g.p (g.real st).slt ma s mb t idx spn 0 st q : ℝ) : ℂ) :=
  (map_calculateNewPfMTwoFsz Complex.ofRealHom g.p (g.real st).slt ma s mb t idx spn 0 st q).symm

/-- value cast, tables unchanged -/
def castFst {C : Type} (x : ℝ × C) : ℂ × C := ((x.1 : ℂ), x.2)

theorem castFst_ite {C : Type} {P : Prop} [Decidable P] (x y : ℝ × C) : castFst (if P then x else y) = if P then castFst x else castFst y := by
  split <;> rfl

theorem castFst_mk {C : Type} (x : ℝ) (c : C) : castFst (x, c) = ((x : ℂ), c) := rfl

theorem conj_cast (z : ℂ) (x : ℝ) (h : z = (x : ℂ)) : (starRingEnd ℂ) z = (x : ℂ) := by rw [h, Complex.conj_ofReal]

theorem greenFunc1_toC (ri rj s : Nat) (ip : ℝ) (pc : Arr) (rc : Nat → ℂ) (c : EleCfg) :
    greenFunc1 (g.toC st) ri rj s (ip : ℂ) pc rc c = castFst (greenFunc1R (g.real st) ri rj s ip pc c) := by
  unfold greenFunc1 greenFunc1R
  simp only [castFst_ite]
  refine if_congr Iff.rfl (by simp [castFst, GrnEnv.real, GrnEnv.toC]) (if_congr Iff.rfl (by simp [castFst]) ?_)
  refine Prod.ext ?_ rfl
  refine conj_cast _ _ ?_
  simp only [Complex.ofReal_div, Complex.ofReal_mul]
  congr 2
  exact ip_toC g st _ _ (fun q => newPfM_toC ..)

theorem greenFunc2Hop_toC (ri rj rk rl s t : Nat) (ip : ℝ) (pc : Arr) (rc : Nat → ℂ) (c : EleCfg) :
    greenFunc2Hop (g.toC st) ri rj rk rl s t (ip : ℂ) pc rc c = castFst (greenFunc2HopR (g.real st) ri rj rk rl s t ip pc c) := by
  unfold greenFunc2Hop greenFunc2HopR
  simp only [castFst_ite]
  refine if_congr Iff.rfl (by simp [castFst]) ?_
  refine Prod.ext ?_ rfl
  refine conj_cast _ _ ?_
  simp only [Complex.ofReal_div, Complex.ofReal_mul]
  congr 2
  exact ip_toC g st _ _ (fun q => newPfMTwo_toC ..)

theorem greenFunc2_toC (ri rj rk rl s t : Nat) (ip : ℝ) (pc : Arr) (rc : Nat → ℂ) (c : EleCfg) :
    greenFunc2 (g.toC st) ri rj rk rl s t (ip : ℂ) pc rc c = castFst (greenFunc2R (g.real st) ri rj rk rl s t ip pc c) := by
  unfold greenFunc2 greenFunc2R
  simp only [castFst_ite, greenFunc1_toC, greenFunc2Hop_toC]
  simp only [castFst, GrnEnv.toC, GrnEnv.real, Complex.ofReal_zero, Complex.ofReal_neg, Complex.ofReal_sub, Complex.ofReal_one, Complex.ofReal_intCast]
  rfl

theorem greenFunc1F_toC (ri rj s : Nat) (ip : ℝ) (pc : Arr) (c : FCfg) :
    greenFunc1F (g.toC st) ri rj s (ip : ℂ) pc c = castFst (greenFunc1FR (g.real st) ri rj s ip pc c) := by
  unfold greenFunc1F greenFunc1FR
  simp only [castFst_ite]
  refine if_congr Iff.rfl (by simp [castFst, GrnEnv.real, GrnEnv.toC]) (if_congr Iff.rfl (by simp [castFst]) ?_)
  refine Prod.ext ?_ rfl
  refine conj_cast _ _ ?_
  simp only [Complex.ofReal_div, Complex.ofReal_mul]
  congr 2
  exact ip_toC g st _ _ (fun q => newPfMFsz_toC ..)

theorem greenFunc1F2_toC (ri rj s t : Nat) (ip : ℝ) (pc : Arr) (c : FCfg) :
    greenFunc1F2 (g.toC st) ri rj s t (ip : ℂ) pc c = castFst (greenFunc1F2R (g.real st) ri rj s t ip pc c) := by
  unfold greenFunc1F2 greenFunc1F2R
  simp only [castFst_ite]
  refine if_congr Iff.rfl (by simp [castFst]) ?_
  refine Prod.ext ?_ rfl
  refine conj_cast _ _ ?_
  simp only [Complex.ofReal_div, Complex.ofReal_mul]
  congr 2
  exact ip_toC g st _ _ (fun q => newPfMFsz_toC ..)

theorem greenFunc2FHop_toC (ri rj rk rl s t : Nat) (ip : ℝ) (pc : Arr) (c : FCfg) :
    greenFunc2FHop (g.toC st) ri rj rk rl s t (ip : ℂ) pc c = castFst (greenFunc2FHopR (g.real st) ri rj rk rl s t ip pc c) := by
  unfold greenFunc2FHop greenFunc2FHopR
  simp only [castFst_ite]
  refine if_congr Iff.rfl (by simp [castFst]) ?_
  refine Prod.ext ?_ rfl
  refine conj_cast _ _ ?_
  simp only [Complex.ofReal_div, Complex.ofReal_mul]
  congr 2
  exact ip_toC g st _ _ (fun q => newPfMTwoFsz_toC ..)

theorem greenFunc2F_toC (ri rj rk rl s t : Nat) (ip : ℝ) (pc : Arr) (c : FCfg) :
    greenFunc2F (g.toC st) ri rj rk rl s t (ip : ℂ) pc c = castFst (greenFunc2FR (g.real st) ri rj rk rl s t ip pc c) := by
  unfold greenFunc2F greenFunc2FR
  simp only [castFst_ite, greenFunc1F_toC, greenFunc2FHop_toC]
  simp only [castFst, GrnEnv.toC, GrnEnv.real, Complex.ofReal_zero, Complex.ofReal_neg, Complex.ofReal_sub, Complex.ofReal_one, Complex.ofReal_intCast]
  rfl

theorem greenFunc2F2Hop_toC (ri rj rk rl s t u v : Nat) (ip : ℝ) (pc : Arr) (c : FCfg) :
    greenFunc2F2Hop (g.toC st) ri rj rk rl s t u v (ip : ℂ) pc c = castFst (greenFunc2F2HopR (g.real st) ri rj rk rl s t u v ip pc c) := by
  unfold greenFunc2F2Hop greenFunc2F2HopR
  simp only [castFst_ite]
  refine if_congr Iff.rfl (by simp [castFst]) ?_
  refine Prod.ext ?_ rfl
  refine conj_cast _ _ ?_
  simp only [Complex.ofReal_div, Complex.ofReal_mul]
  congr 2
  exact ip_toC g st _ _ (fun q => newPfMTwoFsz_toC ..)

theorem greenFunc2F2_toC (ri rj rk rl s t u v : Nat) (ip : ℝ) (pc : Arr) (c : FCfg) :
    greenFunc2F2 (g.toC st) ri rj rk rl s t u v (ip : ℂ) pc c = castFst (greenFunc2F2R (g.real st) ri rj rk rl s t u v ip pc c) := by
  unfold greenFunc2F2 greenFunc2F2R
  simp only [castFst_ite, greenFunc1F2_toC, greenFunc2F2Hop_toC]
  simp only [castFst, GrnEnv.toC, GrnEnv.real, Complex.ofReal_zero, Complex.ofReal_neg, Complex.ofReal_sub, Complex.ofReal_one, Complex.ofReal_intCast,
    Complex.ofReal_mul]
  rfl

/-! ### local energy -/

/-- the Hamiltonian that the real mode works with -/
noncomputable def HamPar.realPart (H : HamPar) : HamPar := { H with pTR := fun i => ((H.pTR i).re : ℂ), pIA := fun i => ((H.pIA i).re : ℂ) }

theorem ompFor_comm {σ τ : Type} (F : σ → τ) (sched : Nat → Nat) (θ n : Nat) (f : σ → Nat → σ) (f' : τ → Nat → τ)
    (h : ∀ s i, F (f s i) = f' (F s) i) (s : σ) (t : τ) (hs : F s = t) : F (ompFor sched θ n f s) = ompFor sched θ n f' t := by
  unfold ompFor
  rw [← hs]
  refine foldl_comm F _ _ (fun s i => ?_) _ _
  split
  · exact h s i
  · rfl

theorem diagLoops_toC (N : Nat) (H : HamPar) (sched : Nat → Nat → Nat) (τ : Nat) (num : Arr) :
    ((diagLoopsR N H sched τ num 0 : ℝ) : ℂ) = diagLoops N H.realPart sched τ num 0 := by
  unfold diagLoopsR diagLoops
  simp only
  refine ompFor_comm (fun x : ℝ => (x : ℂ)) _ _ _ _ _ (fun e i => ?_) _ _ ?_
  · push_cast; rfl
  refine ompFor_comm (fun x : ℝ => (x : ℂ)) _ _ _ _ _ (fun e i => ?_) _ _ ?_
  · push_cast; rfl
  refine ompFor_comm (fun x : ℝ => (x : ℂ)) _ _ _ _ _ (fun e i => ?_) _ _ ?_
  · push_cast; rfl
  · simp

theorem hamThread_toC (H : HamPar) (sched : Nat → Nat → Nat) (τ : Nat) (junk : EleCfg) (ip : ℝ) (pc : Arr) (rc : Nat → ℂ) (c : EleCfg) :
    ((hamThreadR (g.real st) H sched τ junk ip pc c : ℝ) : ℂ) = hamThread (g.toC st) H.realPart sched τ junk (ip : ℂ) pc rc c := by
  unfold hamThreadR hamThread
  simp only
  refine congrArg Prod.fst (ompFor_comm castFst _ _ _ _ _ (fun s i => ?_) _ _ ?_)
  · simp only [castFst, HamPar.realPart, greenFunc2_toC]
    push_cast; rfl
  refine ompFor_comm castFst _ _ _ _ _ (fun s i => ?_) _ _ ?_
  · simp only [castFst, HamPar.realPart, greenFunc2_toC]
    push_cast; rfl
  refine ompFor_comm castFst _ _ _ _ _ (fun s i => ?_) _ _ ?_
  · simp only [castFst, HamPar.realPart, greenFunc2_toC]
    push_cast; rfl
  refine ompFor_comm castFst _ _ _ _ _ (fun s i => ?_) _ _ ?_
  · simp only [castFst, HamPar.realPart, greenFunc1_toC]
    push_cast; rfl
  · exact Prod.ext (diagLoops_toC ..) rfl

theorem hamThreadF_toC (H : HamPar) (sched : Nat → Nat → Nat) (τ : Nat) (junk : FCfg) (ip : ℝ) (pc : Arr) (c : FCfg) :
    ((hamThreadFR (g.real st) H sched τ junk ip pc c : ℝ) : ℂ) = hamThreadF (g.toC st) H.realPart sched τ junk (ip : ℂ) pc c := by
  unfold hamThreadFR hamThreadF
  simp only
  refine congrArg Prod.fst (ompFor_comm castFst _ _ _ _ _ (fun s i => ?_) _ _ ?_)
  · simp only [HamPar.realPart, greenFunc2F_toC, greenFunc2F2_toC]
    split <;> (simp only [castFst]; push_cast; rfl)
  refine ompFor_comm castFst _ _ _ _ _ (fun s i => ?_) _ _ ?_
  · simp only [castFst, HamPar.realPart, greenFunc2F_toC]
    push_cast; rfl
  refine ompFor_comm castFst _ _ _ _ _ (fun s i => ?_) _ _ ?_
  · simp only [castFst, HamPar.realPart, greenFunc2F_toC]
    push_cast; rfl
  refine ompFor_comm castFst _ _ _ _ _ (fun s i => ?_) _ _ ?_
  · simp only [HamPar.realPart, greenFunc1F_toC, greenFunc1F2_toC]
    split <;> (simp only [castFst]; push_cast; rfl)
  · exact Prod.ext (diagLoops_toC ..) rfl

theorem calculateHamiltonian_toC (H : HamPar) (sched : Nat → Nat → Nat) (order : List Nat) (junk : Nat → EleCfg) (ip : ℝ) (pc : Arr) (rc : Nat → ℂ)
    (c : EleCfg) : ((calculateHamiltonianR (g.real st) H sched order junk ip pc c : ℝ) : ℂ) =
      calculateHamiltonian (g.toC st) H.realPart sched order junk (ip : ℂ) pc rc c := by
  unfold calculateHamiltonianR calculateHamiltonian
  rw [foldl_comm (fun x : ℝ => (x : ℂ)) _ (fun e τ => e + hamThread (g.toC st) H.realPart sched τ (junk τ) (ip : ℂ) pc rc c) (fun e τ => by
    simp only [Complex.ofReal_add, hamThread_toC g st H sched τ (junk τ) ip pc rc c])]
  simp

theorem calculateHamiltonianF_toC (H : HamPar) (sched : Nat → Nat → Nat) (order : List Nat) (junk : Nat → FCfg) (ip : ℝ) (pc : Arr)
    (c : FCfg) : ((calculateHamiltonianFR (g.real st) H sched order junk ip pc c : ℝ) : ℂ) =
      calculateHamiltonianF (g.toC st) H.realPart sched order junk (ip : ℂ) pc c := by
  unfold calculateHamiltonianFR calculateHamiltonianF
  rw [foldl_comm (fun x : ℝ => (x : ℂ)) _ (fun e τ => e + hamThreadF (g.toC st) H.realPart sched τ (junk τ) (ip : ℂ) pc c) (fun e τ => by
    simp only [Complex.ofReal_add, hamThreadF_toC g st H sched τ (junk τ) ip pc c])]
  simp

theorem calculateHamiltonian0_toC (N : Nat) (H : HamPar) (sched : Nat → Nat → Nat) (order : List Nat) (num : Arr) :
    ((calculateHamiltonian0R N H sched order num : ℝ) : ℂ) = calculateHamiltonian0 N H sched order num := by
  unfold calculateHamiltonian0R calculateHamiltonian0
  rw [foldl_comm (fun x : ℝ => (x : ℂ)) _ (fun e τ => e + diagLoops N H sched τ num 0) (fun e τ => by
    simp only [Complex.ofReal_add, diagLoops_toC]; rfl)]
  simp

end

/-! ### the chain -/

/-- a change of the data carried along, state by state -/
def SState.map {β β' : Type} (f : β → β') (st : SState β) : SState β' := ⟨st.c, f st.b, st.nAccept, st.hopTry, st.hopAcc, st.exTry, st.exAcc⟩

/-- a change of the data carried along, state by state -/
def FState.map {β β' : Type} (f : β → β') (st : FState β) : FState β' := ⟨st.c, f st.b, st.nAccept, st.cnt⟩

structure HookMap {β γ β' γ' : Type} (k : Hooks β γ) (k' : Hooks β' γ') (fb : β → β') (fg : γ → γ') : Prop where
  propHop : ∀ c h b, k'.propHop c h (fb b) = fg (k.propHop c h b)
  propExch : ∀ c c2 h h2 b, k'.propExch c c2 h h2 (fb b) = fg (k.propExch c c2 h h2 b)
  accept : ∀ b n u, k'.accept (fb b) (fg n) u = k.accept b n u
  commitHop : ∀ c h b n, k'.commitHop c h (fb b) (fg n) = fb (k.commitHop c h b n)
  commitExch : ∀ c h h2 b n, k'.commitExch c h h2 (fb b) (fg n) = fb (k.commitExch c h h2 b n)
  refresh : ∀ c b, k'.refresh c (fb b) = fb (k.refresh c b)

structure FHookMap {β γ β' γ' : Type} (k : FHooks β γ) (k' : FHooks β' γ') (fb : β → β') (fg : γ → γ') : Prop where
  propMove : ∀ c h b, k'.propMove c h (fb b) = fg (k.propMove c h b)
  propExch : ∀ c c2 h h2 b, k'.propExch c c2 h h2 (fb b) = fg (k.propExch c c2 h h2 b)
  accept : ∀ b n u, k'.accept (fb b) (fg n) u = k.accept b n u
  commitMove : ∀ c h b n, k'.commitMove c h (fb b) (fg n) = fb (k.commitMove c h b n)
  commitExch : ∀ c h h2 b n, k'.commitExch c h h2 (fb b) (fg n) = fb (k.commitExch c h h2 b n)
  refresh : ∀ c b, k'.refresh c (fb b) = fb (k.refresh c b)

section
variable {β γ β' γ' : Type} {k : Hooks β γ} {k' : Hooks β' γ'} {fb : β → β'} {fg : γ → γ'} (hm : HookMap k k' fb fg) (p : SamplerPar)
include hm

theorem maybeRefresh_map (st : SState β) : maybeRefresh k' p (st.map fb) = (maybeRefresh k p st).map fb := by
  unfold maybeRefresh
  by_cases h : st.nAccept > p.Nsite
  · rw [if_pos h, if_pos (show (st.map fb).nAccept > p.Nsite from h)]
    simp only [SState.map, hm.refresh]
  · rw [if_neg h, if_neg (show ¬ (st.map fb).nAccept > p.Nsite from h)]

theorem innerStep_map (st : SState β) (r : List Nat) :
    innerStep k' p (st.map fb) r = (innerStep k p st r).map (fun x => (x.1.map fb, x.2)) := by
  unfold innerStep
  cases getUpdateType p.exPath false 0 r with
  | none => rfl
  | some x =>
    obtain ⟨u, r⟩ := x
    cases u with
    | hopping =>
      simp only [SState.map]
      cases makeCandidateHopping p st.c r with
      | none => rfl
      | some y =>
        obtain ⟨⟨h, fl⟩, r⟩ := y
        cases fl with
        | true => rfl
        | false =>
          cases r with
          | nil => rfl
          | cons u r =>
            simp only [hm.propHop, hm.accept]
            split
            · simp only [hm.commitHop, Option.map_some]
              congr 2
              exact maybeRefresh_map hm p ⟨_, k.commitHop _ h st.b _, _, _, _, _, _⟩
            · simp only [Option.map_some]
              congr 2
              exact maybeRefresh_map hm p ⟨_, st.b, _, _, _, _, _⟩
    | exchange =>
      simp only [SState.map]
      cases makeCandidateExchange p st.c r with
      | none => rfl
      | some y =>
        obtain ⟨h, r⟩ := y
        cases h with
        | none => rfl
        | some h =>
          cases r with
          | nil => rfl
          | cons u r =>
            simp only [hm.propExch, hm.accept]
            split
            · simp only [hm.commitExch, Option.map_some]
              congr 2
              exact maybeRefresh_map hm p ⟨_, k.commitExch _ h _ st.b _, _, _, _, _, _⟩
            · simp only [Option.map_some]
              congr 2
              exact maybeRefresh_map hm p ⟨_, st.b, _, _, _, _, _⟩
    | localSpinFlip =>
      simp only [Option.map_some]
      rw [maybeRefresh_map hm]
    | none =>
      simp only [Option.map_some]
      rw [maybeRefresh_map hm]

theorem innerLoop_map : ∀ (n : Nat) (st : SState β) (r : List Nat),
    innerLoop k' p n (st.map fb) r = (innerLoop k p n st r).map (fun x => (x.1.map fb, x.2))
  | 0, _, _ => rfl
  | n + 1, st, r => by
    unfold innerLoop
    rw [innerStep_map hm]
    cases innerStep k p st r with
    | none => rfl
    | some x => exact innerLoop_map n x.1 x.2

theorem outerLoop_map (nIn nOut nSample : Nat) : ∀ (left out : Nat) (st : SState β) (saved : List (Nat × SState β)) (r : List Nat),
    outerLoop k' p nIn nOut nSample left out (st.map fb) (saved.map (fun x => (x.1, x.2.map fb))) r =
      (outerLoop k p nIn nOut nSample left out st saved r).map (fun x => (x.1.map fb, x.2.1.map (fun x => (x.1, x.2.map fb)), x.2.2))
  | 0, _, _, _, _ => rfl
  | left + 1, out, st, saved, r => by
    unfold outerLoop
    rw [innerLoop_map hm]
    cases innerLoop k p nIn st r with
    | none => rfl
    | some x =>
      simp only [Option.map_some]
      rw [← outerLoop_map nIn nOut nSample left (out + 1) x.1 _ x.2]
      congr 1
      split <;> rfl

theorem vmcMakeSample_map (burn : Bool) (warmUp nSample interval : Nat) (c : EleCfg) (b : β) (r : List Nat) :
    vmcMakeSample k' p burn warmUp nSample interval c (fb b) r =
      (vmcMakeSample k p burn warmUp nSample interval c b r).map (fun x => (x.1.map fb, x.2.1.map (fun x => (x.1, x.2.map fb)), x.2.2)) :=
  outerLoop_map hm p _ _ _ _ _ ⟨c, b, 0, 0, 0, 0, 0⟩ [] r

end

section
variable {β γ β' γ' : Type} {k : FHooks β γ} {k' : FHooks β' γ'} {fb : β → β'} {fg : γ → γ'} (hm : FHookMap k k' fb fg) (p : FPar)
include hm

theorem maybeRefreshF_map (st : FState β) : maybeRefreshF k' p (st.map fb) = (maybeRefreshF k p st).map fb := by
  unfold maybeRefreshF
  by_cases h : st.nAccept > p.Nsite
  · rw [if_pos h, if_pos (show (st.map fb).nAccept > p.Nsite from h)]
    simp only [FState.map, hm.refresh]
  · rw [if_neg h, if_neg (show ¬ (st.map fb).nAccept > p.Nsite from h)]

theorem tryMoveF_map (st : FState β) (h : FMove) (acc : Nat) (r : List Nat) :
    tryMoveF k' p (st.map fb) h acc r = (tryMoveF k p st h acc r).map (fun x => (x.1.map fb, x.2)) := by
  unfold tryMoveF
  cases r with
  | nil => rfl
  | cons u r =>
    simp only [FState.map, hm.propMove, hm.accept]
    split
    · simp only [hm.commitMove, Option.map_some]
      congr 2
      exact maybeRefreshF_map hm p ⟨_, k.commitMove _ h st.b _, _, _⟩
    · simp only [Option.map_some]
      congr 2
      exact maybeRefreshF_map hm p ⟨_, st.b, _, _⟩

theorem innerStepF_map (st : FState β) (r : List Nat) :
    innerStepF k' p (st.map fb) r = (innerStepF k p st r).map (fun x => (x.1.map fb, x.2)) := by
  unfold innerStepF
  cases getUpdateType p.exPath true p.twoSz r with
  | none => rfl
  | some x =>
    obtain ⟨u, r⟩ := x
    cases u with
    | hopping =>
      simp only
      rw [show (st.map fb).c = st.c from rfl]
      cases hopCandidateF p st.c r with
      | none => rfl
      | some y =>
        obtain ⟨⟨fh, h, fl⟩, r⟩ := y
        simp only
        cases fl with
        | true => rfl
        | false => exact tryMoveF_map hm p { st with cnt := bump st.cnt (if fh then 0 else 4) } h _ r
    | exchange =>
      simp only [FState.map]
      cases makeCandidateExchangeF p st.c r with
      | none => rfl
      | some y =>
        obtain ⟨h, r⟩ := y
        cases h with
        | none => rfl
        | some h =>
          cases r with
          | nil => rfl
          | cons u r =>
            simp only [hm.propExch, hm.accept]
            split
            · simp only [hm.commitExch, Option.map_some]
              congr 2
              exact maybeRefreshF_map hm p ⟨_, k.commitExch _ h _ st.b _, _, _⟩
            · simp only [Option.map_some]
              congr 2
              exact maybeRefreshF_map hm p ⟨_, st.b, _, _⟩
    | localSpinFlip =>
      simp only
      rw [show (st.map fb).c = st.c from rfl]
      cases localSpinFlip p st.c r with
      | none => rfl
      | some y => exact tryMoveF_map hm p { st with cnt := bump st.cnt 4 } y.1 5 y.2
    | none =>
      simp only [Option.map_some]
      rw [maybeRefreshF_map hm]

theorem innerLoopF_map : ∀ (n : Nat) (st : FState β) (r : List Nat),
    innerLoopF k' p n (st.map fb) r = (innerLoopF k p n st r).map (fun x => (x.1.map fb, x.2))
  | 0, _, _ => rfl
  | n + 1, st, r => by
    unfold innerLoopF
    rw [innerStepF_map hm]
    cases innerStepF k p st r with
    | none => rfl
    | some x => exact innerLoopF_map n x.1 x.2

theorem outerLoopF_map (nIn nOut nSample : Nat) : ∀ (left out : Nat) (st : FState β) (saved : List (Nat × FState β)) (r : List Nat),
    outerLoopF k' p nIn nOut nSample left out (st.map fb) (saved.map (fun x => (x.1, x.2.map fb))) r =
      (outerLoopF k p nIn nOut nSample left out st saved r).map (fun x => (x.1.map fb, x.2.1.map (fun x => (x.1, x.2.map fb)), x.2.2))
  | 0, _, _, _, _ => rfl
  | left + 1, out, st, saved, r => by
    unfold outerLoopF
    rw [innerLoopF_map hm]
    cases innerLoopF k p nIn st r with
    | none => rfl
    | some x =>
      simp only [Option.map_some]
      rw [← outerLoopF_map nIn nOut nSample left (out + 1) x.1 _ x.2]
      congr 1
      split <;> rfl

theorem vmcMakeSampleF_map (burn : Bool) (warmUp nSample interval : Nat) (c : FCfg) (b : β) (r : List Nat) :
    vmcMakeSampleF k' p burn warmUp nSample interval c (fb b) r =
      (vmcMakeSampleF k p burn warmUp nSample interval c b r).map (fun x => (x.1.map fb, x.2.1.map (fun x => (x.1, x.2.map fb)), x.2.2)) :=
  outerLoopF_map hm p _ _ _ _ _ ⟨c, b, 0, fun _ => 0⟩ [] r

end

/-- the complex memory that belongs to the memory of the real chain -/
def RMem.toC (rc : Nat → ℂ) (b : RMem) : SzMem := ⟨b.projCnt, rc, b.ps.cast, b.ip⟩
def RNew.toC (rc : Nat → ℂ) (b : RNew) : SzNew := ⟨b.projCnt, rc, fun q => (b.pf q : ℂ), b.ip⟩
/-- the inverse of `RMem.toC` -/
def SzMem.toR (b : SzMem) : RMem := ⟨b.projCnt, ⟨fun q => (b.ps.pfM q).re, fun k => (b.ps.invM k).re⟩, b.ip.re⟩

theorem toR_toC (rc : Nat → ℂ) (b : RMem) : (b.toC rc).toR = b := rfl

theorem metropolis_cast (x a b : ℝ) (u : Nat) : metropolis x (a : ℂ) (b : ℂ) u = metropolisR x a b u := by
  unfold metropolis metropolisR
  have : ((x : ℂ) + Complex.log (b : ℂ) - Complex.log (a : ℂ)).re = x + ((Complex.log (b : ℂ)).re - (Complex.log (a : ℂ)).re) := by
    rw [Complex.sub_re, Complex.add_re, Complex.ofReal_re]; ring
  rw [this]
  simp only [ne_eq, Complex.ofReal_eq_zero]

section
variable (g : GrnEnv) (st : PfState ℝ) (lib : SkLib ℝ) (rc : Nat → ℂ)

theorem mAll_toC (rs : Nat → Nat) (b : PfState ℝ) : calculateMAll g.p (liftLib lib) (fun i => ((g.slt i).re : ℂ)) 0 g.nQP rs b.cast =
    (calculateMAll g.p lib (fun i => (g.slt i).re) 0 g.nQP rs b).map PfState.cast :=
  map_calculateMAll Complex.ofRealHom (liftLib_map lib) g.p (fun i => (g.slt i).re) 0 g.nQP rs b

theorem szHooks_map (nT : Nat) (rj : (Nat → ℂ) → (Nat → ℂ) → ℂ) (mF : EleCfg → RMem → PfState ℝ × ℝ) :
    HookMap (szHooksR (g.real st) lib mF)
      (szHooks (g.toC st) (liftLib lib) nT rj (fun c b => ((mF c b.toR).1.cast, ((mF c b.toR).2 : ℂ)))) (RMem.toC rc) (RNew.toC rc) where
  propHop c h b := by
    simp only [szHooks, szHooksR, RNew.toC, GrnEnv.toC]
    congr 1
    · funext q; exact newPfM_toC ..
    · exact ip_toC g st _ _ (fun q => newPfM_toC ..)
  propExch c c2 h h2 b := by
    simp only [szHooks, szHooksR, RNew.toC, GrnEnv.toC]
    congr 1
    · funext q; exact newPfMTwo_toC ..
    · exact ip_toC g st _ _ (fun q => newPfMTwo_toC ..)
  accept b n u := metropolis_cast ..
  commitHop c h b n := by
    simp only [szHooks, szHooksR, GrnEnv.toC]
    unfold RMem.toC
    congr 1
    exact (map_updateMAll Complex.ofRealHom g.p (fun i => (g.slt i).re) h.mi h.s c.idx 0 g.nQP b.ps).symm
  commitExch c h h2 b n := by
    simp only [szHooks, szHooksR, GrnEnv.toC]
    unfold RMem.toC
    congr 1
    exact (map_updateMAllTwo Complex.ofRealHom g.p (fun i => (g.slt i).re) h.mi h.s h2.mi h2.s h.ri c.idx 0 g.nQP b.ps).symm
  refresh c b := by
    have h := mAll_toC g lib (rsSz g.p c.idx) b.ps
    simp only [szHooks, szHooksR, GrnEnv.toC, GrnEnv.real]
    rw [show (b.toC rc).ps = b.ps.cast from rfl, h]
    cases calculateMAll g.p lib (fun i => (g.slt i).re) 0 g.nQP (rsSz g.p c.idx) b.ps with
    | none => rfl
    | some s =>
      simp only [Option.map_some]
      unfold RMem.toC
      congr 1
      exact ip_toC g st _ _ (fun q => rfl)

theorem fszHooks_map (mF : FCfg → RMem → PfState ℝ × ℝ) :
    FHookMap (fszHooksR (g.real st) lib mF)
      (fszHooks (g.toC st) (liftLib lib) (fun c b => ((mF c b.toR).1.cast, ((mF c b.toR).2 : ℂ)))) (RMem.toC rc) (RNew.toC rc) where
  propMove c h b := by
    simp only [fszHooks, fszHooksR, RNew.toC, GrnEnv.toC]
    congr 1
    · funext q; exact newPfMFsz_toC ..
    · exact ip_toC g st _ _ (fun q => newPfMFsz_toC ..)
  propExch c c2 h h2 b := by
    simp only [fszHooks, fszHooksR, RNew.toC, GrnEnv.toC]
    congr 1
    · funext q; exact newPfMTwoFsz_toC ..
    · exact ip_toC g st _ _ (fun q => newPfMTwoFsz_toC ..)
  accept b n u := metropolis_cast ..
  commitMove c h b n := by
    simp only [fszHooks, fszHooksR, GrnEnv.toC]
    unfold RMem.toC
    congr 1
    exact (map_updateMAllFsz Complex.ofRealHom g.p (fun i => (g.slt i).re) h.mi h.t c.idx c.spn 0 g.nQP b.ps).symm
  commitExch c h h2 b n := by
    simp only [fszHooks, fszHooksR, GrnEnv.toC]
    unfold RMem.toC
    congr 1
    exact (map_updateMAllTwoFsz Complex.ofRealHom g.p (fun i => (g.slt i).re) h.mi h.s h2.mi h2.s h.ri c.idx c.spn 0 g.nQP b.ps).symm
  refresh c b := by
    have h := mAll_toC g lib (rsFsz g.p c.idx c.spn) b.ps
    simp only [fszHooks, fszHooksR, GrnEnv.toC, GrnEnv.real]
    rw [show (b.toC rc).ps = b.ps.cast from rfl, h]
    cases calculateMAll g.p lib (fun i => (g.slt i).re) 0 g.nQP (rsFsz g.p c.idx c.spn) b.ps with
    | none => rfl
    | some s =>
      simp only [Option.map_some]
      unfold RMem.toC
      congr 1
      exact ip_toC g st _ _ (fun q => rfl)

theorem szStart_toC (c : EleCfg) (pc : Arr) (st0 : PfState ℝ) :
    szStart (g.toC st) (liftLib lib) c pc rc st0.cast = (szStartR (g.real st) lib c pc st0).map (RMem.toC rc) := by
  have h := mAll_toC g lib (rsSz g.p c.idx) st0
  simp only [szStart, szStartR, GrnEnv.toC, GrnEnv.real]
  rw [h]
  cases calculateMAll g.p lib (fun i => (g.slt i).re) 0 g.nQP (rsSz g.p c.idx) st0 with
  | none => rfl
  | some s =>
    simp only [Option.map_some]
    unfold RMem.toC
    congr 2
    exact ip_toC g st _ _ (fun q => rfl)

theorem fszStart_toC (c : FCfg) (pc : Arr) (st0 : PfState ℝ) :
    fszStart (g.toC st) (liftLib lib) c pc rc st0.cast = (fszStartR (g.real st) lib c pc st0).map (RMem.toC rc) := by
  have h := mAll_toC g lib (rsFsz g.p c.idx c.spn) st0
  simp only [fszStart, fszStartR, GrnEnv.toC, GrnEnv.real]
  rw [h]
  cases calculateMAll g.p lib (fun i => (g.slt i).re) 0 g.nQP (rsFsz g.p c.idx c.spn) st0 with
  | none => rfl
  | some s =>
    simp only [Option.map_some]
    unfold RMem.toC
    congr 2
    exact ip_toC g st _ _ (fun q => rfl)

theorem storeRun_toC (saved : List (Nat × SState RMem)) (S : EleStore) :
    storeRun (g.toC st) (saved.map (fun x => (x.1, x.2.map (RMem.toC rc)))) S = storeRunR (g.real st) saved S := by
  unfold storeRun storeRunR
  rw [← List.map_reverse, List.foldl_map]
  rfl

theorem storeRunF_toC (saved : List (Nat × FState RMem)) (S : EleStore) :
    storeRunF (g.toC st) (saved.map (fun x => (x.1, x.2.map (RMem.toC rc)))) S = storeRunFR (g.real st) saved S := by
  unfold storeRunF storeRunFR
  rw [← List.map_reverse, List.foldl_map]
  rfl

end

/-! ### the loop over the samples -/

/-- the environment's choices, seen from the complex mode -/
def MainOrR.toC {C : Type} (o : MainOrR C) : MainOr C :=
  ⟨o.sched, o.order, o.junk, o.gSched, o.gOrder, o.gOrder', o.gJunk, o.mFail.cast, o.eZero.map Complex.ofReal, o.gZero⟩

/-- the sums with the real arrays in place of the complex ones -/
def PhysAccR.toC (a : PhysAccR) : PhysAcc := { a.a with st := a.stR.cast }

/-- orbitals and projection weights are real and there is no Boltzmann machine -/
structure RealWave (g : GrnEnv) : Prop where
  slt : ∀ i, (g.slt i).im = 0
  w : ∀ i, (g.w i).im = 0
  rbm : g.flagRBM = false

theorem RealWave.toC_eq {g : GrnEnv} (h : RealWave g) (st : PfState ℝ) : g.toC st = { g with st := st.cast } := by
  unfold GrnEnv.toC
  congr 1
  · exact h.rbm.symm
  · exact (re_cast h.slt).symm
  · exact (re_cast h.w).symm

section
variable (g : GrnEnv) (st0 : PfState ℝ) (H : HamPar) (T : GrnTab) (lib : SkLib ℝ) (mode : Nat) (hw : mode = 1 → RealWave g) (S : EleStore)

include hw in
theorem mainStep_toC (o : Nat → MainOrR EleCfg) (a : PhysAccR) (s : Nat) :
    mainStep (g.toC st0) H.realPart T (liftLib lib) mode S (fun i => (o i).toC) a.toC s = (mainStepR g H T lib mode S o a s).toC := by
  have h := mAll_toC g lib (rsSz g.p (loadCfg g S s).idx) a.stR
  unfold mainStep mainStepR
  simp only
  rw [show (g.toC st0).p = g.p from rfl, show loadCfg (g.toC st0) S s = loadCfg g S s from rfl, show loadProj (g.toC st0) S s = loadProj g S s from rfl,
    show loadRBM (g.toC st0) S s = loadRBM g S s from rfl, show (g.toC st0).nQP = g.nQP from rfl, show a.toC.st = a.stR.cast from rfl,
    show (g.toC st0).slt = fun i => ((g.slt i).re : ℂ) from rfl, h, show (g.real a.stR).slt = fun i => (g.slt i).re from rfl]
  cases calculateMAll g.p lib (fun i => (g.slt i).re) 0 g.nQP (rsSz g.p (loadCfg g S s).idx) a.stR with
  | none => rfl
  | some st =>
    simp only [Option.map_some]
    have hip : calculateIPLocal (g.toC st0).w st.cast.pfM 0 g.nQP = ((calculateIPR (g.real st) st.pfM : ℝ) : ℂ) := ip_toC g st _ _ (fun q => rfl)
    rw [hip]
    by_cases h0 : calculateIPR (g.real st) st.pfM = 0
    · rw [if_pos h0, if_pos (by rw [h0]; rfl)]
      rw [show (o s).toC.eZero = (o s).eZero.map Complex.ofReal from rfl]
      cases (o s).eZero with
      | none => rfl
      | some e =>
        simp only [Option.map_some]
        by_cases hm : mode = 1
        · rw [if_pos hm, if_pos hm]; rfl
        · rw [if_neg hm, if_neg hm]; rfl
    · rw [if_neg h0, if_neg (by rw [Complex.ofReal_eq_zero]; exact h0)]
      have hH := calculateHamiltonian_toC g st H (o s).sched (o s).order (o s).junk (calculateIPR (g.real st) st.pfM) (loadProj g S s) (loadRBM g S s)
        (loadCfg g S s)
      by_cases hm : mode = 1
      · rw [if_pos hm, if_pos hm, ← (hw hm).toC_eq st, hH]
        rfl
      · rw [if_neg hm, if_neg hm, hH]
        rfl

theorem mainStepF_toC (o : Nat → MainOrR FCfg) (a : PhysAccR) (s : Nat) :
    mainStepF (g.toC st0) H.realPart (liftLib lib) S (fun i => (o i).toC) a.toC s = (mainStepFR g H lib S o a s).toC := by
  have h := mAll_toC g lib (rsFsz g.p (loadCfgF g S s).idx (loadCfgF g S s).spn) a.stR
  unfold mainStepF mainStepFR
  simp only
  rw [show (g.toC st0).p = g.p from rfl, show loadCfgF (g.toC st0) S s = loadCfgF g S s from rfl, show loadProj (g.toC st0) S s = loadProj g S s from rfl,
    show (g.toC st0).nQP = g.nQP from rfl, show a.toC.st = a.stR.cast from rfl,
    show (g.toC st0).slt = fun i => ((g.slt i).re : ℂ) from rfl, h, show (g.real a.stR).slt = fun i => (g.slt i).re from rfl]
  cases calculateMAll g.p lib (fun i => (g.slt i).re) 0 g.nQP (rsFsz g.p (loadCfgF g S s).idx (loadCfgF g S s).spn) a.stR with
  | none => rfl
  | some st =>
    simp only [Option.map_some]
    have hip : calculateIPLocal (g.toC st0).w st.cast.pfM 0 g.nQP = ((calculateIPR (g.real st) st.pfM : ℝ) : ℂ) := ip_toC g st _ _ (fun q => rfl)
    rw [hip]
    by_cases h0 : calculateIPR (g.real st) st.pfM = 0
    · rw [if_pos h0, if_pos (by rw [h0]; rfl)]
      unfold MainOrR.toC
      simp only
      cases (o s).eZero with
      | none => rfl
      | some e => rfl
    · rw [if_neg h0, if_neg (by rw [Complex.ofReal_eq_zero]; exact h0)]
      have hH := calculateHamiltonianF_toC g st H (o s).sched (o s).order (o s).junk (calculateIPR (g.real st) st.pfM) (loadProj g S s)
        (loadCfgF g S s)
      rw [hH]
      rfl

include hw in
theorem vmcMainCal_toC (nSample rank size : Nat) (o : Nat → MainOrR EleCfg) (a : PhysAccR) :
    vmcMainCal (g.toC st0) H.realPart T (liftLib lib) mode nSample rank size S (fun i => (o i).toC) a.toC =
      (vmcMainCalR g H T lib mode nSample rank size S o a).toC := by
  unfold vmcMainCal vmcMainCalR
  exact (foldl_comm PhysAccR.toC _ _ (fun a s => (mainStep_toC g st0 H T lib mode hw S o a s).symm) _
    ⟨PhysAcc.clear a.a.st a.a.grn.loc1 a.a.grn.locDC, a.stR⟩).symm

theorem vmcMainCalF_toC (nSample rank size : Nat) (o : Nat → MainOrR FCfg) (a : PhysAccR) :
    vmcMainCalF (g.toC st0) H.realPart (liftLib lib) nSample rank size S (fun i => (o i).toC) a.toC =
      (vmcMainCalFR g H lib nSample rank size S o a).toC := by
  unfold vmcMainCalF vmcMainCalFR
  exact (foldl_comm PhysAccR.toC _ _ (fun a s => (mainStepF_toC g st0 H lib S o a s).symm) _
    ⟨PhysAcc.clear a.a.st a.a.grn.loc1 a.a.grn.locDC, a.stR⟩).symm

end

/-! ### a real trial state -/

theorem grnOK_toC {g : GrnEnv} (h : GrnOK g) (st : PfState ℝ) : GrnOK (g.toC st) where
  hq := h.hq
  tab := h.tab
  skew k hk := by
    have := h.skew k hk
    refine ⟨fun i j hi hj => ?_, fun i hi => ?_⟩
    · have := congrArg (fun z : ℂ => ((z.re : ℝ) : ℂ)) (this.1 i j hi hj)
      simpa [entry, GrnEnv.toC] using this
    · have := congrArg (fun z : ℂ => ((z.re : ℝ) : ℂ)) (this.2 i hi)
      simpa [entry, GrnEnv.toC] using this

theorem psi_toC_real (g : GrnEnv) (st : PfState ℝ) (l : List Nat) : (psi (g.toC st) l).im = 0 := by
  unfold psi waveFunction corrSpec
  have hp : ∀ q, pf (entry (2 * g.p.Nsite) (g.toC st).slt q) l = ((pf (entry (2 * g.p.Nsite) (fun i => (g.slt i).re) q) l : ℝ) : ℂ) :=
    fun q => (map_pf Complex.ofRealHom _ l).symm
  have : (∑ q ∈ range (g.toC st).nQP, (g.toC st).w q * pf (entry (2 * (g.toC st).p.Nsite) (g.toC st).slt q) l)
      = ((∑ q ∈ range g.nQP, (g.w q).re * pf (entry (2 * g.p.Nsite) (fun i => (g.slt i).re) q) l : ℝ) : ℂ) := by
    rw [Complex.ofReal_sum]
    exact sum_congr rfl (fun q _ => by rw [Complex.ofReal_mul]; exact congrArg₂ _ rfl (hp q))
  rw [this, if_neg (by simp [GrnEnv.toC]), mul_one, ← Complex.ofReal_mul, Complex.ofReal_im]

end MVMC
