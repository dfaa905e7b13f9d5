import Verif.Model.Ranks
import Verif.Proof.RealMode

/-! Joint execution of the processes of one communicator. -/
namespace MVMC

section
variable {K α β γ : Type}

theorem Prog.bind_assoc (x : Prog K α) (f : α → Prog K β) (g : β → Prog K γ) :
    (x.bind f).bind g = x.bind (fun a => (f a).bind g) := by
  induction x with
  | ret a => rfl
  | stuck => rfl
  | abort => rfl
  | allSum x k ih => simp only [Prog.bind]; congr 1; funext s; exact ih s
  | allMax x k ih => simp only [Prog.bind]; congr 1; funext s; exact ih s

theorem Prog.bind_ret (x : Prog K α) : x.bind .ret = x := by
  induction x with
  | ret a => rfl
  | stuck => rfl
  | abort => rfl
  | allSum x k ih => simp only [Prog.bind]; congr 1; funext s; exact ih s
  | allMax x k ih => simp only [Prog.bind]; congr 1; funext s; exact ih s

theorem collect_some {n : Nat} (f : Fin n → β) : collect (fun i => some (f i)) = some f := by
  have h : ∀ i : Fin n, ((fun i => some (f i)) i).isSome = true := fun _ => rfl
  unfold collect
  rw [dif_pos h]
  rfl

/-- the maximum of the contributions -/
def maxOf {n : Nat} (xs : Fin (n + 1) → Int) : Int := Finset.univ.fold max (xs 0) (fun i : Fin n => xs i.succ)

theorem maxOf_pos {n : Nat} (xs : Fin (n + 1) → Int) : 0 < maxOf xs ↔ ∃ i, 0 < xs i := by
  unfold maxOf
  rw [Finset.lt_fold_max]
  constructor
  · rintro (h | ⟨i, _, h⟩)
    · exact ⟨_, h⟩
    · exact ⟨_, h⟩
  · rintro ⟨i, h⟩
    rcases Fin.eq_zero_or_eq_succ i with e | ⟨j, e⟩
    · exact Or.inl (e ▸ h)
    · exact Or.inr ⟨j, Finset.mem_univ _, e ▸ h⟩

variable [AddCommMonoid K] {n : Nat}

theorem runRanks_ret (as : Fin (n + 1) → α) : runRanks (fun i => (.ret (as i) : Prog K α)) = .done as := by
  unfold runRanks
  simp only [joint, Prog.asRet, collect_some]
  congr 1
  exact Fin.cons_self_tail as

theorem runRanks_stuck : runRanks (fun _ : Fin (n + 1) => (.stuck : Prog K α)) = .stuck := by
  simp [runRanks, joint, Prog.isStuck]

theorem runRanks_abort : runRanks (fun _ : Fin (n + 1) => (.abort : Prog K α)) = .abort := by
  simp [runRanks, joint, Prog.isAbort]

theorem runRanks_sum (xs : Fin (n + 1) → K) (ks : Fin (n + 1) → K → Prog K α) :
    runRanks (fun i => .allSum (xs i) (ks i)) = runRanks (fun i => ks i (∑ i, xs i)) := by
  unfold runRanks
  simp only [joint, Prog.asSum, collect_some, Fin.sum_univ_succ]

theorem runRanks_max (xs : Fin (n + 1) → Int) (ks : Fin (n + 1) → Int → Prog K α) :
    runRanks (fun i => .allMax (xs i) (ks i)) = runRanks (fun i => ks i (maxOf xs)) := by
  unfold runRanks
  simp only [joint, Prog.asMax, collect_some]
  rfl

theorem run_reduceSum (xs : Fin (n + 1) → K) (f : Fin (n + 1) → K → Prog K α) :
    runRanks (fun i => (reduceSum (n + 1) (xs i)).bind (f i)) = runRanks (fun i => f i (∑ i, xs i)) := by
  unfold reduceSum
  by_cases h : n + 1 > 1
  · simp only [if_pos h, Prog.bind]
    exact runRanks_sum xs f
  · simp only [if_neg h, Prog.bind]
    have : n = 0 := by omega
    subst this
    congr 1
    funext i
    rw [Fin.sum_univ_one, Fin.fin_one_eq_zero i]

theorem run_reduceMax (xs : Fin (n + 1) → Int) (f : Fin (n + 1) → Int → Prog K α) :
    runRanks (fun i => (reduceMax (n + 1) (xs i)).bind (f i)) = runRanks (fun i => f i (maxOf xs)) := by
  unfold reduceMax
  by_cases h : n + 1 > 1
  · simp only [if_pos h, Prog.bind]
    exact runRanks_max xs f
  · simp only [if_neg h, Prog.bind]
    have : n = 0 := by omega
    subst this
    congr 1
    funext i
    rw [Fin.fin_one_eq_zero i]
    rfl

end

/-! ### all processes together are one sampler -/

section
variable {δ ρ π K : Type} [AddCommMonoid K] {n : Nat}

/-- the sampler whose arrays are those of all processes and whose inner product is the reduced one -/
def groupHooks (L : Fin (n + 1) → LocalOps ρ π K) (S : ShOps δ K) : Hooks (RB δ (Fin (n + 1) → ρ) K) (δ × K) where
  propHop c' h b := (S.updCnt h c' b.cnt, ∑ i, (L i).ipNew ((L i).newHop c' h (b.loc i)))
  propExch c1 c2 h h2 b := (S.updCnt h2 c2 (S.updCnt h c1 b.cnt), ∑ i, (L i).ipNew ((L i).newExch c2 h h2 (b.loc i)))
  accept b g u := S.accept g.1 b.cnt g.2 b.ip u
  commitHop c' h b g := ⟨g.1, fun i => (L i).updHop c' h (b.loc i), g.2⟩
  commitExch c' h h2 b g := ⟨g.1, fun i => (L i).updExch c' h h2 (b.loc i), g.2⟩
  refresh c b := ⟨b.cnt, fun i => ((L i).mAll c (b.loc i)).1, ∑ i, (L i).ipCur ((L i).mAll c (b.loc i)).1⟩

/-- what process `i` holds -/
def rankView (i : Fin (n + 1)) (b : RB δ (Fin (n + 1) → ρ) K) : RB δ ρ K := ⟨b.cnt, b.loc i, b.ip⟩

variable (L : Fin (n + 1) → LocalOps ρ π K) (S : ShOps δ K) (p : SamplerPar)

theorem run_maybeRefresh {β : Type} (st : SState (RB δ (Fin (n + 1) → ρ) K)) (f : Fin (n + 1) → SState (RB δ ρ K) → Prog K β) :
    runRanks (fun i => (maybeRefreshR (n + 1) (L i) p (st.map (rankView i))).bind (f i)) =
      runRanks (fun i => f i ((maybeRefresh (groupHooks L S) p st).map (rankView i))) := by
  unfold maybeRefreshR maybeRefresh
  by_cases h : st.nAccept > p.Nsite
  · have h' : ∀ i, (st.map (rankView i)).nAccept > p.Nsite := fun _ => h
    simp only [if_pos h, if_pos (h' _), Prog.bind_assoc]
    exact run_reduceSum (fun i => (L i).ipCur ((L i).mAll st.c (st.b.loc i)).1) _
  · have h' : ∀ i, ¬ (st.map (rankView i)).nAccept > p.Nsite := fun _ => h
    simp only [if_neg h, if_neg (h' _), Prog.bind]

theorem run_innerStep {β : Type} (st : SState (RB δ (Fin (n + 1) → ρ) K)) (r : List Nat)
    (f : Fin (n + 1) → SState (RB δ ρ K) × List Nat → Prog K β) :
    runRanks (fun i => (innerStepR (n + 1) (L i) S p (st.map (rankView i)) r).bind (f i)) =
      match innerStep (groupHooks L S) p st r with
      | none => .stuck
      | some x => runRanks (fun i => f i (x.1.map (rankView i), x.2)) := by
  unfold innerStepR innerStep
  cases getUpdateType p.exPath false 0 r with
  | none => exact runRanks_stuck
  | some x =>
    obtain ⟨u, r⟩ := x
    cases u with
    | hopping =>
      simp only [SState.map]
      cases makeCandidateHopping p st.c r with
      | none => exact runRanks_stuck
      | some y =>
        obtain ⟨⟨h, fl⟩, r⟩ := y
        cases fl with
        | true => rfl
        | false =>
          simp only [Prog.bind_assoc]
          refine (run_reduceSum (fun i => (L i).ipNew ((L i).newHop (updateEleConfig p h st.c) h (st.b.loc i))) _).trans ?_
          cases r with
          | nil => exact runRanks_stuck
          | cons u r =>
            dsimp only
            by_cases hacc : S.accept (S.updCnt h (updateEleConfig p h st.c) st.b.cnt) st.b.cnt
                (∑ i, (L i).ipNew ((L i).newHop (updateEleConfig p h st.c) h (st.b.loc i))) st.b.ip u = true
            · rw [if_pos (show (groupHooks L S).accept st.b ((groupHooks L S).propHop (updateEleConfig p h st.c) h st.b) u = true from hacc)]
              simp only [rankView, hacc, if_true, Prog.bind_assoc]
              exact run_maybeRefresh L S p ⟨_, (groupHooks L S).commitHop (updateEleConfig p h st.c) h st.b
                ((groupHooks L S).propHop (updateEleConfig p h st.c) h st.b), _, _, _, _, _⟩ (fun i st => f i (st, r))
            · rw [if_neg (show ¬ (groupHooks L S).accept st.b ((groupHooks L S).propHop (updateEleConfig p h st.c) h st.b) u = true from hacc)]
              simp only [rankView, hacc, Bool.false_eq_true, if_false, Prog.bind_assoc]
              exact run_maybeRefresh L S p ⟨_, st.b, _, _, _, _, _⟩ (fun i st => f i (st, r))
    | exchange =>
      simp only [SState.map]
      cases makeCandidateExchange p st.c r with
      | none => exact runRanks_stuck
      | some y =>
        obtain ⟨h, r⟩ := y
        cases h with
        | none => rfl
        | some h =>
          simp only [Prog.bind_assoc]
          refine (run_reduceSum (fun i => (L i).ipNew ((L i).newExch (updateEleConfig p (partnerHop p st.c h)
            (updateEleConfig p h st.c)) h (partnerHop p st.c h) (st.b.loc i))) _).trans ?_
          cases r with
          | nil => exact runRanks_stuck
          | cons u r =>
            dsimp only
            by_cases hacc : (groupHooks L S).accept st.b ((groupHooks L S).propExch (updateEleConfig p h st.c)
                (updateEleConfig p (partnerHop p st.c h) (updateEleConfig p h st.c)) h (partnerHop p st.c h) st.b) u = true
            · rw [if_pos hacc]
              simp only [groupHooks] at hacc
              simp only [rankView, hacc, if_true, Prog.bind_assoc]
              exact run_maybeRefresh L S p ⟨_, (groupHooks L S).commitExch (updateEleConfig p (partnerHop p st.c h) (updateEleConfig p h st.c)) h
                (partnerHop p st.c h) st.b ((groupHooks L S).propExch (updateEleConfig p h st.c)
                (updateEleConfig p (partnerHop p st.c h) (updateEleConfig p h st.c)) h (partnerHop p st.c h) st.b), _, _, _, _, _⟩
                (fun i st => f i (st, r))
            · rw [if_neg hacc]
              simp only [groupHooks] at hacc
              simp only [rankView, hacc, Bool.false_eq_true, if_false, Prog.bind_assoc]
              exact run_maybeRefresh L S p ⟨_, st.b, _, _, _, _, _⟩ (fun i st => f i (st, r))
    | localSpinFlip =>
      simp only [Prog.bind_assoc]
      exact run_maybeRefresh L S p st (fun i st => f i (st, r))
    | none =>
      simp only [Prog.bind_assoc]
      exact run_maybeRefresh L S p st (fun i st => f i (st, r))

theorem run_innerLoop {β : Type} (f : Fin (n + 1) → SState (RB δ ρ K) × List Nat → Prog K β) :
    ∀ (m : Nat) (st : SState (RB δ (Fin (n + 1) → ρ) K)) (r : List Nat),
    runRanks (fun i => (innerLoopR (n + 1) (L i) S p m (st.map (rankView i)) r).bind (f i)) =
      match innerLoop (groupHooks L S) p m st r with
      | none => .stuck
      | some x => runRanks (fun i => f i (x.1.map (rankView i), x.2))
  | 0, _, _ => rfl
  | m + 1, st, r => by
    simp only [innerLoopR, Prog.bind_assoc]
    rw [run_innerStep]
    conv_rhs => unfold innerLoop
    cases innerStep (groupHooks L S) p st r with
    | none => rfl
    | some x => exact run_innerLoop f m x.1 x.2

theorem run_outerLoop {β : Type} (nIn nOut nSample : Nat)
    (f : Fin (n + 1) → SState (RB δ ρ K) × List (Nat × SState (RB δ ρ K)) × List Nat → Prog K β) :
    ∀ (left out : Nat) (st : SState (RB δ (Fin (n + 1) → ρ) K)) (saved : List (Nat × SState (RB δ (Fin (n + 1) → ρ) K))) (r : List Nat),
    runRanks (fun i => (outerLoopR (n + 1) (L i) S p nIn nOut nSample left out (st.map (rankView i))
        (saved.map (fun x => (x.1, x.2.map (rankView i)))) r).bind (f i)) =
      match outerLoop (groupHooks L S) p nIn nOut nSample left out st saved r with
      | none => .stuck
      | some x => runRanks (fun i => f i (x.1.map (rankView i), x.2.1.map (fun x => (x.1, x.2.map (rankView i))), x.2.2))
  | 0, _, _, _, _ => rfl
  | left + 1, out, st, saved, r => by
    simp only [outerLoopR, Prog.bind_assoc]
    rw [run_innerLoop]
    conv_rhs => unfold outerLoop
    cases innerLoop (groupHooks L S) p nIn st r with
    | none => rfl
    | some x =>
      dsimp only
      rw [← run_outerLoop nIn nOut nSample f left (out + 1) x.1 _ x.2]
      congr 1
      funext i
      congr 2
      split <;> rfl

/-- result of a program without collectives -/
inductive Res (α : Type) : Type
  | ok (a : α)
  | stuck
  | abort

def Res.bind {α β : Type} : Res α → (α → Res β) → Res β
  | .ok a, f => f a
  | .stuck, _ => .stuck
  | .abort, _ => .abort

/-- `makeInitialSample` of all processes together -/
def makeInitG : Nat → (Fin (n + 1) → ρ) → List Nat → Res (EleCfg × (Fin (n + 1) → ρ) × List Nat)
  | 0, _, r =>
    match initialPass p r with
    | none => .stuck
    | some _ => .abort
  | left + 1, loc, r =>
    match initialPass p r with
    | none => .stuck
    | some (c, r) =>
      if maxOf (fun i => ((L i).mAll c (loc i)).2) > 0 then makeInitG left (fun i => ((L i).mAll c (loc i)).1) r
      else .ok (c, (fun i => ((L i).mAll c (loc i)).1), r)

theorem run_makeInit {β : Type} (f : Fin (n + 1) → EleCfg × ρ × List Nat → Prog K β) :
    ∀ (left : Nat) (loc : Fin (n + 1) → ρ) (r : List Nat),
    runRanks (fun i => (makeInitR (n + 1) (L i) p left (loc i) r).bind (f i)) =
      match makeInitG L p left loc r with
      | .stuck => .stuck
      | .abort => .abort
      | .ok x => runRanks (fun i => f i (x.1, x.2.1 i, x.2.2))
  | 0, loc, r => by
    unfold makeInitR makeInitG
    cases initialPass p r with
    | none => exact runRanks_stuck
    | some x =>
      simp only [Prog.bind_assoc]
      exact (run_reduceMax (fun i => ((L i).mAll x.1 (loc i)).2) _).trans runRanks_abort
  | left + 1, loc, r => by
    unfold makeInitR makeInitG
    cases initialPass p r with
    | none => exact runRanks_stuck
    | some x =>
      simp only [Prog.bind_assoc]
      refine (run_reduceMax (fun i => ((L i).mAll x.1 (loc i)).2) _).trans ?_
      by_cases h : maxOf (fun i => ((L i).mAll x.1 (loc i)).2) > 0
      · simp only [if_pos h]
        exact run_makeInit f left (fun i => ((L i).mAll x.1 (loc i)).1) x.2
      · simp only [if_neg h]
        rfl

/-- the start of `VMCMakeSample` of all processes together -/
def startG (burn : Bool) (bc : EleCfg) (bcnt : δ) (loc : Fin (n + 1) → ρ) (r : List Nat) :
    Res ((EleCfg × RB δ (Fin (n + 1) → ρ) K) × Bool × List Nat) :=
  (if burn = false then (makeInitG L p 100 loc r).bind fun x => .ok (x.1, S.mkCnt x.1, x.2.1, x.2.2)
    else .ok (bc, S.reCnt bc bcnt, loc, r)).bind fun x =>
  if S.finite (∑ i, (L i).ipCur ((L i).mAll x.1 (x.2.2.1 i)).1) then
    .ok ((x.1, ⟨x.2.1, fun i => ((L i).mAll x.1 (x.2.2.1 i)).1, ∑ i, (L i).ipCur ((L i).mAll x.1 (x.2.2.1 i)).1⟩), burn, x.2.2.2)
  else
    (makeInitG L p 100 (fun i => ((L i).mAll x.1 (x.2.2.1 i)).1) x.2.2.2).bind fun y =>
    .ok ((y.1, ⟨S.mkCnt y.1, fun i => ((L i).mAll y.1 (y.2.1 i)).1, ∑ i, (L i).ipCur ((L i).mAll y.1 (y.2.1 i)).1⟩), false, y.2.2)

theorem run_start {β : Type} (burn : Bool) (bc : EleCfg) (bcnt : δ) (loc : Fin (n + 1) → ρ) (r : List Nat)
    (f : Fin (n + 1) → (EleCfg × RB δ ρ K) × Bool × List Nat → Prog K β) :
    runRanks (fun i => (startR (n + 1) (L i) S p burn bc bcnt (loc i) r).bind (f i)) =
      match startG L S p burn bc bcnt loc r with
      | .stuck => .stuck
      | .abort => .abort
      | .ok x => runRanks (fun i => f i ((x.1.1, rankView i x.1.2), x.2)) := by
  have key : ∀ (c : EleCfg) (cnt : δ) (loc : Fin (n + 1) → ρ) (r : List Nat),
      runRanks (fun i => ((reduceSum (n + 1) ((L i).ipCur ((L i).mAll c (loc i)).1)).bind fun ip =>
        if S.finite ip then .ret ((c, ⟨cnt, ((L i).mAll c (loc i)).1, ip⟩), burn, r)
        else
          (makeInitR (n + 1) (L i) p 100 ((L i).mAll c (loc i)).1 r).bind fun y =>
          (reduceSum (n + 1) ((L i).ipCur ((L i).mAll y.1 y.2.1).1)).bind fun ip =>
          .ret ((y.1, ⟨S.mkCnt y.1, ((L i).mAll y.1 y.2.1).1, ip⟩), false, y.2.2)).bind (f i)) =
      match (if S.finite (∑ i, (L i).ipCur ((L i).mAll c (loc i)).1) then
          Res.ok ((c, ⟨cnt, fun i => ((L i).mAll c (loc i)).1, ∑ i, (L i).ipCur ((L i).mAll c (loc i)).1⟩), burn, r)
        else
          (makeInitG L p 100 (fun i => ((L i).mAll c (loc i)).1) r).bind fun y =>
          .ok ((y.1, ⟨S.mkCnt y.1, fun i => ((L i).mAll y.1 (y.2.1 i)).1, ∑ i, (L i).ipCur ((L i).mAll y.1 (y.2.1 i)).1⟩), false, y.2.2) :
          Res ((EleCfg × RB δ (Fin (n + 1) → ρ) K) × Bool × List Nat)) with
      | .stuck => .stuck
      | .abort => .abort
      | .ok x => runRanks (fun i => f i ((x.1.1, rankView i x.1.2), x.2)) := by
    intro c cnt loc r
    simp only [Prog.bind_assoc]
    refine (run_reduceSum (fun i => (L i).ipCur ((L i).mAll c (loc i)).1) _).trans ?_
    by_cases h : S.finite (∑ i, (L i).ipCur ((L i).mAll c (loc i)).1) = true
    · simp only [if_pos h]
      rfl
    · simp only [if_neg h, Prog.bind_assoc]
      rw [run_makeInit L p _ 100 (fun i => ((L i).mAll c (loc i)).1) r]
      cases makeInitG L p 100 (fun i => ((L i).mAll c (loc i)).1) r with
      | stuck => rfl
      | abort => rfl
      | ok y =>
        simp only [Prog.bind_assoc, Res.bind]
        exact run_reduceSum (fun i => (L i).ipCur ((L i).mAll y.1 (y.2.1 i)).1) _
  unfold startR startG
  cases burn with
  | true => exact key bc (S.reCnt bc bcnt) loc r
  | false =>
    simp only [if_true, Prog.bind_assoc]
    rw [run_makeInit L p _ 100 loc r]
    cases makeInitG L p 100 loc r with
    | stuck => rfl
    | abort => rfl
    | ok y =>
      have := key y.1 (S.mkCnt y.1) y.2.1 y.2.2
      simp only [Prog.bind_assoc] at this
      exact this

/-- `VMCMakeSample` of all processes together -/
def sampleG (burn : Bool) (warmUp nSample interval : Nat) (bc : EleCfg) (bcnt : δ) (loc : Fin (n + 1) → ρ) (r : List Nat) :
    Res (SState (RB δ (Fin (n + 1) → ρ) K) × List (Nat × SState (RB δ (Fin (n + 1) → ρ) K)) × List Nat) :=
  (startG L S p burn bc bcnt loc r).bind fun x =>
    match vmcMakeSample (groupHooks L S) p x.2.1 warmUp nSample interval x.1.1 x.1.2 x.2.2 with
    | none => .stuck
    | some y => .ok y

theorem run_sample (burn : Bool) (warmUp nSample interval : Nat) (bc : EleCfg) (bcnt : δ) (loc : Fin (n + 1) → ρ) (r : List Nat) :
    runRanks (fun i => sampleR (n + 1) (L i) S p burn warmUp nSample interval bc bcnt (loc i) r) =
      match sampleG L S p burn warmUp nSample interval bc bcnt loc r with
      | .stuck => .stuck
      | .abort => .abort
      | .ok x => .done (fun i => (x.1.map (rankView i), x.2.1.map (fun x => (x.1, x.2.map (rankView i))), x.2.2)) := by
  unfold sampleR sampleG
  rw [run_start L S p burn bc bcnt loc r]
  cases startG L S p burn bc bcnt loc r with
  | stuck => rfl
  | abort => rfl
  | ok x =>
    simp only [Res.bind]
    have := run_outerLoop L S p (interval * p.Nsite) (nOutStep x.2.1 warmUp nSample) nSample (fun _ => .ret)
      (nOutStep x.2.1 warmUp nSample) 0 ⟨x.1.1, x.1.2, 0, 0, 0, 0, 0⟩ [] x.2.2
    simp only [Prog.bind_ret] at this
    refine Eq.trans this ?_
    unfold vmcMakeSample
    cases outerLoop (groupHooks L S) p (interval * p.Nsite) (nOutStep x.2.1 warmUp nSample) nSample
      (nOutStep x.2.1 warmUp nSample) 0 ⟨x.1.1, x.1.2, 0, 0, 0, 0, 0⟩ [] x.2.2 with
    | none => rfl
    | some y => exact runRanks_ret _

end
end MVMC
