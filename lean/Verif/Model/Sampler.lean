/-!
# Model of the Sz-conserving Monte-Carlo sampler

`/repo/src/mVMC/vmcmake.c`. Arrays are functions from the flat C index; the theorems in
`Props/Sampler.lean` show that every index used is inside the allocation.
A run consumes a list of 32-bit draws (`gen_rand32`); `none` means that the given finite prefix of the
stream ended before the computation did, so "for every stream and every result `some r`" covers every
point that any (terminating or not) execution can reach.
-/
namespace MVMC

/-- Source: `/repo/src/mVMC/vmcmake.c:585-604`. -/
abbrev Arr := Nat → Int

/-- `a[i] = v`. (`/repo/src/mVMC/vmcmake.c:585-604`) -/
def Arr.set (a : Arr) (i : Nat) (v : Int) : Arr := fun k => if k = i then v else a k

/-- `eleIdx`, `eleCfg`, `eleNum` (`/repo/src/mVMC/include/global.h`, allocation in
`setmemory.c`): electron `mi` of spin `s` is at `idx[mi+s*Ne]`; site `ri` holds electron
`cfg[ri+s*Nsite]` of spin `s` or `-1`; `num[ri+s*Nsite]` is 0 or 1. -/
structure EleCfg where
  idx : Arr
  cfg : Arr
  num : Arr

/-- The global sizes used by the sampler. `locSpn` is `LocSpn[]`, `exPath` is `NExUpdatePath`.
(`/repo/src/mVMC/include/global.h:40-90`) -/
structure SamplerPar where
  Ne : Nat
  Nsite : Nat
  locSpn : Nat → Int
  exPath : Int

/-- A hop: electron `mi` of spin `s` goes from `ri` to `rj`.
(`/repo/src/mVMC/vmcmake.c:515-545`) -/
structure Hop where
  mi : Nat
  ri : Nat
  rj : Nat
  s : Nat
  deriving DecidableEq, Repr

/-- `updateEleConfig` (`/repo/src/mVMC/vmcmake.c:585-593`). -/
def updateEleConfig (p : SamplerPar) (h : Hop) (c : EleCfg) : EleCfg where
  idx := c.idx.set (h.mi + h.s * p.Ne) h.rj
  cfg := (c.cfg.set (h.ri + h.s * p.Nsite) (-1)).set (h.rj + h.s * p.Nsite) h.mi
  num := (c.num.set (h.ri + h.s * p.Nsite) 0).set (h.rj + h.s * p.Nsite) 1

/-- `revertEleConfig` (`/repo/src/mVMC/vmcmake.c:595-603`). -/
def revertEleConfig (p : SamplerPar) (h : Hop) (c : EleCfg) : EleCfg where
  idx := c.idx.set (h.mi + h.s * p.Ne) h.ri
  cfg := (c.cfg.set (h.ri + h.s * p.Nsite) h.mi).set (h.rj + h.s * p.Nsite) (-1)
  num := (c.num.set (h.ri + h.s * p.Nsite) 1).set (h.rj + h.s * p.Nsite) 0

/-- `(genrand_real2()<0.5) ? 0 : 1` with `genrand_real2() = gen_rand32()/2^32`
(`/repo/src/sfmt/SFMT.h:100-110`). -/
def coin (u : Nat) : Nat := if u < 2147483648 then 0 else 1

/-- First loop of `makeCandidate_hopping` (`/repo/src/mVMC/vmcmake.c:522-526`): returns `(mi, ri, s)`. -/
def pickItinerant (p : SamplerPar) (c : EleCfg) : List Nat → Option ((Nat × Nat × Nat) × List Nat)
  | u :: v :: r =>
    let mi := u % p.Ne
    let s := coin v
    let ri := (c.idx (mi + s * p.Ne)).toNat
    if p.locSpn ri = 1 then pickItinerant p c r else some ((mi, ri, s), r)
  | _ => none

/-- Second loop of `makeCandidate_hopping` (`/repo/src/mVMC/vmcmake.c:528-537`): returns the
target site and `rejectFlag`. -/
def pickTarget (p : SamplerPar) (c : EleCfg) (s : Nat) : Nat → List Nat → Option ((Nat × Bool) × List Nat)
  | _, [] => none
  | icnt, u :: r =>
    let rj := u % p.Nsite
    if icnt > p.Nsite * p.Nsite then some ((rj, true), r)
    else if c.cfg (rj + s * p.Nsite) ≠ -1 ∨ p.locSpn rj = 1 then pickTarget p c s (icnt + 1) r
    else some ((rj, false), r)

/-- `makeCandidate_hopping` (`/repo/src/mVMC/vmcmake.c:515-545`). -/
def makeCandidateHopping (p : SamplerPar) (c : EleCfg) (r : List Nat) :
    Option ((Hop × Bool) × List Nat) :=
  match pickItinerant p c r with
  | none => none
  | some ((mi, ri, s), r1) =>
    match pickTarget p c s 0 r1 with
    | none => none
    | some ((rj, flag), r2) => some ((⟨mi, ri, rj, s⟩, flag), r2)

/-- Scan of `makeCandidate_exchange` (`/repo/src/mVMC/vmcmake.c:552-558`): is there a singly
occupied site? -/
def hasSingle (p : SamplerPar) (c : EleCfg) : Bool :=
  (List.range p.Nsite).any (fun ri => c.num ri + c.num (ri + p.Nsite) = 1)

/-- First draw loop of `makeCandidate_exchange` (`/repo/src/mVMC/vmcmake.c:564-568`). -/
def pickSingleAny (p : SamplerPar) (c : EleCfg) : List Nat → Option ((Nat × Nat × Nat) × List Nat)
  | u :: v :: r =>
    let mi := u % p.Ne
    let s := coin v
    let ri := (c.idx (mi + s * p.Ne)).toNat
    if c.cfg (ri + (1 - s) * p.Nsite) ≠ -1 then pickSingleAny p c r else some ((mi, ri, s), r)
  | _ => none

/-- Second draw loop of `makeCandidate_exchange` (`/repo/src/mVMC/vmcmake.c:569-573`); returns
`(mj, rj)`. -/
def pickSingleSpin (p : SamplerPar) (c : EleCfg) (t : Nat) : List Nat → Option ((Nat × Nat) × List Nat)
  | u :: r =>
    let mj := u % p.Ne
    let rj := (c.idx (mj + t * p.Ne)).toNat
    if c.cfg (rj + (1 - t) * p.Nsite) ≠ -1 then pickSingleSpin p c t r else some ((mj, rj), r)
  | _ => none

/-- `makeCandidate_exchange` (`/repo/src/mVMC/vmcmake.c:548-582`): `none` in the inner option is
`rejectFlag = 1`; otherwise the hop of the first electron. -/
def makeCandidateExchange (p : SamplerPar) (c : EleCfg) (r : List Nat) :
    Option (Option Hop × List Nat) :=
  if hasSingle p c then
    match pickSingleAny p c r with
    | none => none
    | some ((mi, ri, s), r1) =>
      match pickSingleSpin p c (1 - s) r1 with
      | none => none
      | some ((_, rj), r2) => some (some ⟨mi, ri, rj, s⟩, r2)
  else some (none, r)

/-- Source: `/repo/src/mVMC/include/vmcmake.h:35`. -/
inductive UpdateType where
  | hopping | exchange | localSpinFlip | none
  deriving DecidableEq, Repr

/-- `getUpdateType` (`/repo/src/mVMC/vmcmake.c:606-629`). `general` is `iFlgOrbitalGeneral≠0`. -/
def getUpdateType (path : Int) (general : Bool) (twoSz : Int) (r : List Nat) :
    Option (UpdateType × List Nat) :=
  if path = 0 then some (.hopping, r)
  else if path = 1 then
    match r with
    | [] => none
    | u :: r => some (if coin u = 0 then .exchange else .hopping, r)
  else if path = 2 then
    if general = false then some (.exchange, r)
    else if twoSz = -1 then
      match r with
      | [] => none
      | u :: r => some (if coin u = 0 then .exchange else .localSpinFlip, r)
    else some (.exchange, r)
  else if path = 3 then
    match r with
    | [] => none
    | u :: r =>
      if coin u = 0 then some (.hopping, r)
      else match r with
        | [] => none
        | v :: r => some (if coin v = 0 then .exchange else .localSpinFlip, r)
  else some (.none, r)

/-- Second hop of an exchange (`/repo/src/mVMC/vmcmake.c:232-245`): `t = 1-s`,
`mj = TmpEleCfg[rj+t*Nsite]` moves from `rj` to `ri`. -/
def partnerHop (p : SamplerPar) (c : EleCfg) (h : Hop) : Hop :=
  ⟨(c.cfg (h.rj + (1 - h.s) * p.Nsite)).toNat, h.rj, h.ri, 1 - h.s⟩

/-- Everything the sampler keeps besides the configuration tables (correlation counts, RBM inputs,
Pfaffians, inverse matrices, `logIpOld`), abstracted by the operations that
`VMCMakeSample` performs on it:
`propHop`/`propExch` compute the candidate quantities from the *already updated* tables (`propExch` sees the
tables after the first and after the second hop),
`accept` is the test `w > genrand_real2()`, `commitHop`/`commitExch` run after acceptance and `refresh`
is the recomputation after `nAccept>Nsite`. (`/repo/src/mVMC/vmcmake.c:147-330`) -/
structure Hooks (β γ : Type) where
  propHop : EleCfg → Hop → β → γ
  propExch : EleCfg → EleCfg → Hop → Hop → β → γ
  accept : β → γ → Nat → Bool
  commitHop : EleCfg → Hop → β → γ → β
  commitExch : EleCfg → Hop → Hop → β → γ → β
  refresh : EleCfg → β → β

/-- Local variables of `VMCMakeSample` that survive a step. `hopTry`… are `Counter[0..3]`.
(`/repo/src/mVMC/vmcmake.c:45-72`) -/
structure SState (β : Type) where
  c : EleCfg
  b : β
  nAccept : Nat
  hopTry : Nat
  hopAcc : Nat
  exTry : Nat
  exAcc : Nat

/-- `if(nAccept>Nsite) {…}` (`/repo/src/mVMC/vmcmake.c:308-329`). -/
def maybeRefresh {β γ : Type} (k : Hooks β γ) (p : SamplerPar) (st : SState β) : SState β :=
  if st.nAccept > p.Nsite then { st with b := k.refresh st.c st.b, nAccept := 0 } else st

/-- One iteration of the inner loop of `VMCMakeSample` (`/repo/src/mVMC/vmcmake.c:147-330`). -/
def innerStep {β γ : Type} (k : Hooks β γ) (p : SamplerPar) (st : SState β) (r : List Nat) :
    Option (SState β × List Nat) :=
  match getUpdateType p.exPath false 0 r with
  | none => none
  | some (.hopping, r) =>
    let st := { st with hopTry := st.hopTry + 1 }
    match makeCandidateHopping p st.c r with
    | none => none
    | some ((_, true), r) => some (st, r)                       -- `continue`
    | some ((h, false), r) =>
      let c' := updateEleConfig p h st.c
      let g := k.propHop c' h st.b
      match r with
      | [] => none
      | u :: r =>
        if k.accept st.b g u then
          some (maybeRefresh k p { st with c := c', b := k.commitHop c' h st.b g,
                                           nAccept := st.nAccept + 1, hopAcc := st.hopAcc + 1 }, r)
        else
          some (maybeRefresh k p { st with c := revertEleConfig p h c' }, r)
  | some (.exchange, r) =>
    let st := { st with exTry := st.exTry + 1 }
    match makeCandidateExchange p st.c r with
    | none => none
    | some (none, r) => some (st, r)                            -- `continue`
    | some (some h, r) =>
      let h2 := partnerHop p st.c h
      let c' := updateEleConfig p h2 (updateEleConfig p h st.c)
      let g := k.propExch (updateEleConfig p h st.c) c' h h2 st.b
      match r with
      | [] => none
      | u :: r =>
        if k.accept st.b g u then
          some (maybeRefresh k p { st with c := c', b := k.commitExch c' h h2 st.b g,
                                           nAccept := st.nAccept + 1, exAcc := st.exAcc + 1 }, r)
        else
          some (maybeRefresh k p { st with c := revertEleConfig p h (revertEleConfig p h2 c') }, r)
  | some (_, r) => some (maybeRefresh k p st, r)

/-- `for(inStep=0;inStep<nInStep;inStep++)` (`/repo/src/mVMC/vmcmake.c:147-330`). -/
def innerLoop {β γ : Type} (k : Hooks β γ) (p : SamplerPar) :
    Nat → SState β → List Nat → Option (SState β × List Nat)
  | 0, st, r => some (st, r)
  | n + 1, st, r =>
    match innerStep k p st r with
    | none => none
    | some (st, r) => innerLoop k p n st r

/-- Outer loop (`/repo/src/mVMC/vmcmake.c:146-343`) from `outStep` on, with `left` steps to go; `saved` is
the list of writes `(sample, state)` done by `saveEleConfig`, newest first. -/
def outerLoop {β γ : Type} (k : Hooks β γ) (p : SamplerPar) (nInStep nOutStep nSample : Nat) :
    (left outStep : Nat) → SState β → List (Nat × SState β) → List Nat →
    Option (SState β × List (Nat × SState β) × List Nat)
  | 0, _, st, saved, r => some (st, saved, r)
  | left + 1, outStep, st, saved, r =>
    match innerLoop k p nInStep st r with
    | none => none
    | some (st, r) =>
      let saved := if outStep ≥ nOutStep - nSample then
          (outStep - (nOutStep - nSample), st) :: saved else saved
      outerLoop k p nInStep nOutStep nSample left (outStep + 1) st saved r

/-- `nOutStep` (`/repo/src/mVMC/vmcmake.c:140`). -/
def nOutStep (burnFlag : Bool) (warmUp nSample : Nat) : Nat :=
  if burnFlag = false then warmUp + nSample else nSample + 1

/-- The sampling part of `VMCMakeSample` (`/repo/src/mVMC/vmcmake.c:140-351`), from an initial state
that was either generated or copied from the burn buffer. Counters are reset to 0 and `nAccept` starts at 0. -/
def vmcMakeSample {β γ : Type} (k : Hooks β γ) (p : SamplerPar) (burnFlag : Bool)
    (warmUp nSample interval : Nat) (c : EleCfg) (b : β) (r : List Nat) :
    Option (SState β × List (Nat × SState β) × List Nat) :=
  outerLoop k p (interval * p.Nsite) (nOutStep burnFlag warmUp nSample) nSample
    (nOutStep burnFlag warmUp nSample) 0 ⟨c, b, 0, 0, 0, 0, 0⟩ [] r

/-! ## Initial configuration -/

/-- Inner loop for one local-spin site (`/repo/src/mVMC/vmcmake.c:380-383`): draw until a free
electron is found. -/
def pickFreeElectron (p : SamplerPar) (c : EleCfg) : List Nat → Option ((Nat × Nat) × List Nat)
  | u :: v :: r =>
    let mi := u % p.Ne
    let si := coin v
    if c.idx (mi + si * p.Ne) ≠ -1 then pickFreeElectron p c r else some ((mi, si), r)
  | _ => none

/-- `for(ri=0;ri<Nsite;ri++) if(LocSpn[ri]==1) {…}` (`/repo/src/mVMC/vmcmake.c:377-387`). -/
def placeLocal (p : SamplerPar) : List Nat → EleCfg → List Nat → Option (EleCfg × List Nat)
  | [], c, r => some (c, r)
  | ri :: ris, c, r =>
    if p.locSpn ri = 1 then
      match pickFreeElectron p c r with
      | none => none
      | some ((mi, si), r) =>
        placeLocal p ris
          { c with cfg := c.cfg.set (ri + si * p.Nsite) mi, idx := c.idx.set (mi + si * p.Ne) ri } r
    else placeLocal p ris c r

/-- Inner loop for one itinerant electron (`/repo/src/mVMC/vmcmake.c:393-395`). -/
def pickFreeSite (p : SamplerPar) (c : EleCfg) (si : Nat) : List Nat → Option (Nat × List Nat)
  | u :: r =>
    let ri := u % p.Nsite
    if c.cfg (ri + si * p.Nsite) ≠ -1 ∨ p.locSpn ri = 1 then pickFreeSite p c si r else some (ri, r)
  | [] => none

/-- Itinerant electrons in the order of the double loop (`/repo/src/mVMC/vmcmake.c:390-400`). -/
def placeItinerant (p : SamplerPar) : List (Nat × Nat) → EleCfg → List Nat → Option (EleCfg × List Nat)
  | [], c, r => some (c, r)
  | (si, mi) :: es, c, r =>
    if c.idx (mi + si * p.Ne) = -1 then
      match pickFreeSite p c si r with
      | none => none
      | some (ri, r) =>
        placeItinerant p es
          { c with cfg := c.cfg.set (ri + si * p.Nsite) mi, idx := c.idx.set (mi + si * p.Ne) ri } r
    else placeItinerant p es c r

/-- One pass of the `do` loop of `makeInitialSample` (`/repo/src/mVMC/vmcmake.c:368-407`). -/
def initialPass (p : SamplerPar) (r : List Nat) : Option (EleCfg × List Nat) :=
  match placeLocal p (List.range p.Nsite) ⟨fun _ => -1, fun _ => -1, fun _ => 0⟩ r with
  | none => none
  | some (c, r) =>
    match placeItinerant p
        ((List.range p.Ne).map (fun mi => (0, mi)) ++ (List.range p.Ne).map (fun mi => (1, mi))) c r with
    | none => none
    | some (c, r) => some ({ c with num := fun rsi => if c.cfg rsi < 0 then 0 else 1 }, r)

/-- Outcome of `makeInitialSample`. (`/repo/src/mVMC/vmcmake.c:359-425`) -/
inductive InitOutcome where
  | ok (c : EleCfg) (rest : List Nat)
  | abort                                  -- `MPI_Abort` after more than 100 passes

/-- `makeInitialSample` (`/repo/src/mVMC/vmcmake.c:359-425`). `bad c` is `flag>0`, the failure
report of the matrix inversion. `left` counts the passes still allowed (`loop>100` aborts, even
if the pass itself was good). -/
def makeInitialSample (p : SamplerPar) (bad : EleCfg → Bool) : Nat → List Nat → Option InitOutcome
  | 0, r =>
    match initialPass p r with
    | none => none
    | some _ => some .abort
  | left + 1, r =>
    match initialPass p r with
    | none => none
    | some (c, r) => if bad c then makeInitialSample p bad left r else some (.ok c r)

end MVMC
