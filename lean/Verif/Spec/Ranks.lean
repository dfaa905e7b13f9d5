import Verif.Model.Ranks
import Verif.Spec.PfState

/-!
# Specification: the chain of one sampler that knows the exact amplitudes

The random proposals are those of the sampler model (C06–C11); everything that the processes compute in shares is replaced by
the exact amplitude `Σ_q w_q Pf_q(c)` over *all* projections.
-/
namespace MVMC.Spec

/-- the amplitude `<φ|L|c>` over all `nqp` projections -/
def fullAmp {K : Type} [Field K] (p : SamplerPar) (slt w : Nat → K) (nqp : Nat) (c : EleCfg) : K :=
  amplitude (2 * p.Ne) (2 * p.Nsite) slt w 0 nqp (occSz p.Ne p.Nsite c.idx)

/-- the matrix of projection `q` at `c` is invertible -/
def RegularAt {K : Type} [Field K] (p : SamplerPar) (slt : Nat → K) (c : EleCfg) (q : Nat) : Prop :=
  ∃ N, IsInv (entry (2 * p.Nsite) slt q) (2 * p.Ne) (occSz p.Ne p.Nsite c.idx) N

/-- the Metropolis chain for the amplitude `A`: the state consists of the counts and of the amplitude of the configuration -/
def exactHooks {δ K : Type} (A : EleCfg → K) (S : ShOps δ K) : Hooks (δ × K) (δ × K) where
  propHop c' h b := (S.updCnt h c' b.1, A c')
  propExch c1 c2 h h2 b := (S.updCnt h2 c2 (S.updCnt h c1 b.1), A c2)
  accept b g u := S.accept g.1 b.1 g.2 b.2 u
  commitHop _ _ _ g := g
  commitExch _ _ _ _ g := g
  refresh c b := (b.1, A c)

/-- a finished, unfinished or aborted run -/
inductive Run (α : Type) : Type
  | ok (a : α)
  | stuck
  | abort

/-- continue a run -/
def Run.next {α β : Type} : Run α → (α → Run β) → Run β
  | .ok a, f => f a
  | .stuck, _ => .stuck
  | .abort, _ => .abort

open Classical in
/-- a random start configuration at which every projection is regular -/
noncomputable def exactInit {K : Type} [Field K] (p : SamplerPar) (slt : Nat → K) (nqp : Nat) (r : List Nat) : Run (EleCfg × List Nat) :=
  match makeInitialSample p (fun c => decide (∃ q, q < nqp ∧ ¬ RegularAt p slt c q)) 100 r with
  | none => .stuck
  | some .abort => .abort
  | some (.ok c r) => .ok (c, r)

/-- the start: configuration, counts, amplitude, burn flag -/
noncomputable def exactStart {δ K : Type} [Field K] (p : SamplerPar) (slt w : Nat → K) (nqp : Nat) (S : ShOps δ K) (burn : Bool)
    (bc : EleCfg) (bcnt : δ) (r : List Nat) : Run (EleCfg × (δ × K) × Bool × List Nat) :=
  (if burn = false then (exactInit p slt nqp r).next fun x => .ok (x.1, S.mkCnt x.1, x.2)
   else .ok (bc, S.reCnt bc bcnt, r)).next fun x =>
  if S.finite (fullAmp p slt w nqp x.1) then .ok (x.1, (x.2.1, fullAmp p slt w nqp x.1), burn, x.2.2)
  else (exactInit p slt nqp x.2.2).next fun y => .ok (y.1, (S.mkCnt y.1, fullAmp p slt w nqp y.1), false, y.2)

/-- the whole chain: final state, stored samples, remaining random numbers -/
noncomputable def exactSample {δ K : Type} [Field K] (p : SamplerPar) (slt w : Nat → K) (nqp : Nat) (S : ShOps δ K) (burn : Bool)
    (warmUp nSample interval : Nat) (bc : EleCfg) (bcnt : δ) (r : List Nat) :
    Run (SState (δ × K) × List (Nat × SState (δ × K)) × List Nat) :=
  (exactStart p slt w nqp S burn bc bcnt r).next fun x =>
    match vmcMakeSample (exactHooks (fullAmp p slt w nqp) S) p x.2.2.1 warmUp nSample interval x.1 x.2.1 x.2.2.2 with
    | none => .stuck
    | some y => .ok y

/-- every process has the same outcome -/
def everyRank (n : Nat) {α : Type} : Run α → JOut n α
  | .ok a => .done (fun _ => a)
  | .stuck => .stuck
  | .abort => .abort

/-- apply a function to the result of every process -/
def mapRanks {n : Nat} {α β : Type} (f : α → β) : JOut n α → JOut n β
  | .done as => .done (fun i => f (as i))
  | .stuck => .stuck
  | .abort => .abort
  | .mismatch => .mismatch

/-- the part of a process' state that is not its own share of the projections -/
def shared {δ ρ K : Type} (st : SState (RB δ ρ K)) : SState (δ × K) :=
  ⟨st.c, (st.b.cnt, st.b.ip), st.nAccept, st.hopTry, st.hopAcc, st.exTry, st.exAcc⟩

/-- the same for a whole result of `VMCMakeSample` -/
def sharedOut {δ ρ K : Type} (x : SState (RB δ ρ K) × List (Nat × SState (RB δ ρ K)) × List Nat) :
    SState (δ × K) × List (Nat × SState (δ × K)) × List Nat :=
  (shared x.1, x.2.1.map (fun y => (y.1, shared y.2)), x.2.2)

end MVMC.Spec
