import Verif.Model.Sampler

/-!
# Model of the general-Sz Monte-Carlo sampler

`/repo/src/mVMC/vmcmake_fsz.c`. Same conventions as `Model/Sampler.lean`. Electrons carry a spin
table; electron numbers run from 0 to `Nsize-1` (`Nsize = 2*Ne`) and the site tables store them without
reference to the spin.
-/
namespace MVMC

/-- `eleIdx`, `eleSpn`, `eleCfg`, `eleNum` (`/repo/src/mVMC/include/global.h`). -/
structure FCfg where
  idx : Arr
  spn : Arr
  cfg : Arr
  num : Arr

/-- Global sizes and switches; `Nsize = 2*Ne`. (`/repo/src/mVMC/include/global.h:40-90`) -/
structure FPar where
  Ne : Nat
  Nsite : Nat
  locSpn : Nat → Int
  exPath : Int
  twoSz : Int

/-- Source: `/repo/src/mVMC/include/global.h:54`. -/
def FPar.Nsize (p : FPar) : Nat := 2 * p.Ne

/-- Electron `mi` goes from `(ri,s)` to `(rj,t)`. (`/repo/src/mVMC/vmcmake_fsz.c:594-628`) -/
structure FMove where
  mi : Nat
  ri : Nat
  rj : Nat
  s : Nat
  t : Nat
  deriving DecidableEq, Repr

/-- `updateEleConfig_fsz` (`/repo/src/mVMC/vmcmake_fsz.c:795-806`). -/
def updateEleConfigF (p : FPar) (h : FMove) (c : FCfg) : FCfg where
  idx := c.idx.set h.mi h.rj
  spn := c.spn.set h.mi h.t
  cfg := (c.cfg.set (h.ri + h.s * p.Nsite) (-1)).set (h.rj + h.t * p.Nsite) h.mi
  num := (c.num.set (h.ri + h.s * p.Nsite) 0).set (h.rj + h.t * p.Nsite) 1

/-- `revertEleConfig_fsz` (`/repo/src/mVMC/vmcmake_fsz.c:808-819`). -/
def revertEleConfigF (p : FPar) (h : FMove) (c : FCfg) : FCfg where
  idx := c.idx.set h.mi h.ri
  spn := c.spn.set h.mi h.s
  cfg := (c.cfg.set (h.ri + h.s * p.Nsite) h.mi).set (h.rj + h.t * p.Nsite) (-1)
  num := (c.num.set (h.ri + h.s * p.Nsite) 1).set (h.rj + h.t * p.Nsite) 0

/-- First loop of both hopping candidates (`/repo/src/mVMC/vmcmake_fsz.c:602-607,638-644`):
returns `(mi, ri, s)`. -/
def pickItinerantF (p : FPar) (c : FCfg) : List Nat → Option ((Nat × Nat × Nat) × List Nat)
  | u :: r =>
    let mi := u % p.Nsize
    let s := (c.spn mi).toNat
    let ri := (c.idx mi).toNat
    if p.locSpn ri = 1 then pickItinerantF p c r else some ((mi, ri, s), r)
  | [] => none

/-- Second loop of `makeCandidate_hopping_fsz` (`/repo/src/mVMC/vmcmake_fsz.c:609-618`): site and
spin are redrawn each time; returns `(rj, t, rejectFlag)`. -/
def pickTargetF (p : FPar) (c : FCfg) : Nat → List Nat → Option ((Nat × Nat × Bool) × List Nat)
  | icnt, u :: v :: r =>
    let rj := u % p.Nsite
    let t := coin v
    if icnt > p.Nsite * p.Nsite then some ((rj, t, true), r)
    else if c.cfg (rj + t * p.Nsite) ≠ -1 ∨ p.locSpn rj = 1 then pickTargetF p c (icnt + 1) r
    else some ((rj, t, false), r)
  | _, _ => none

/-- Second loop of `makeCandidate_hopping_csz` (`/repo/src/mVMC/vmcmake_fsz.c:646-654`), `t = s`. -/
def pickTargetC (p : FPar) (c : FCfg) (t : Nat) : Nat → List Nat → Option ((Nat × Bool) × List Nat)
  | icnt, u :: r =>
    let rj := u % p.Nsite
    if icnt > p.Nsite * p.Nsite then some ((rj, true), r)
    else if c.cfg (rj + t * p.Nsite) ≠ -1 ∨ p.locSpn rj = 1 then pickTargetC p c t (icnt + 1) r
    else some ((rj, false), r)
  | _, [] => none

/-- `makeCandidate_hopping_fsz` (`/repo/src/mVMC/vmcmake_fsz.c:594-628`). -/
def makeCandidateHoppingF (p : FPar) (c : FCfg) (r : List Nat) : Option ((FMove × Bool) × List Nat) :=
  match pickItinerantF p c r with
  | none => none
  | some ((mi, ri, s), r1) =>
    match pickTargetF p c 0 r1 with
    | none => none
    | some ((rj, t, flag), r2) => some ((⟨mi, ri, rj, s, t⟩, flag), r2)

/-- `makeCandidate_hopping_csz` (`/repo/src/mVMC/vmcmake_fsz.c:630-664`). -/
def makeCandidateHoppingC (p : FPar) (c : FCfg) (r : List Nat) : Option ((FMove × Bool) × List Nat) :=
  match pickItinerantF p c r with
  | none => none
  | some ((mi, ri, s), r1) =>
    match pickTargetC p c s 0 r1 with
    | none => none
    | some ((rj, flag), r2) => some ((⟨mi, ri, rj, s, s⟩, flag), r2)

/-- Scan of `makeCandidate_exchange_fsz` (`/repo/src/mVMC/vmcmake_fsz.c:686-703`) over the
remaining sites with the current `spn_0`, `spn_1`; `true` means `flag = 0` (a pair exists). -/
def scanPair (p : FPar) (c : FCfg) : List Nat → Int → Int → Bool
  | [], _, _ => false
  | ri :: ris, spn0, spn1 =>
    if c.num ri + c.num (ri + p.Nsite) = 1 then
      let spn0' := if spn0 = 0 then 2 * c.num ri - 1 else spn0
      let spn1' := if spn0 = 0 then spn1 else 2 * c.num ri - 1
      if spn0' * spn1' < 0 then true else scanPair p c ris spn0' spn1'
    else scanPair p c ris spn0 spn1

/-- First draw loop of `makeCandidate_exchange_fsz` (`/repo/src/mVMC/vmcmake_fsz.c:708-712`). -/
def pickSingleAnyF (p : FPar) (c : FCfg) : List Nat → Option ((Nat × Nat × Nat) × List Nat)
  | u :: r =>
    let mi := u % p.Nsize
    let s := (c.spn mi).toNat
    let ri := (c.idx mi).toNat
    if c.cfg (ri + (1 - s) * p.Nsite) ≠ -1 then pickSingleAnyF p c r else some ((mi, ri, s), r)
  | [] => none

/-- Second draw loop of `makeCandidate_exchange_fsz` (`/repo/src/mVMC/vmcmake_fsz.c:714-717`). -/
def pickSingleSpinF (p : FPar) (c : FCfg) (t : Nat) : List Nat → Option ((Nat × Nat) × List Nat)
  | u :: r =>
    let mj := u % p.Nsize
    let rj := (c.idx mj).toNat
    if c.cfg (rj + (1 - t) * p.Nsite) ≠ -1 ∨ c.spn mj ≠ t then pickSingleSpinF p c t r
    else some ((mj, rj), r)
  | [] => none

/-- `makeCandidate_exchange_fsz` (`/repo/src/mVMC/vmcmake_fsz.c:670-725`); inner `none` is
`rejectFlag = 1`. -/
def makeCandidateExchangeF (p : FPar) (c : FCfg) (r : List Nat) : Option (Option FMove × List Nat) :=
  if scanPair p c (List.range p.Nsite) 0 0 then
    match pickSingleAnyF p c r with
    | none => none
    | some ((mi, ri, s), r1) =>
      match pickSingleSpinF p c (1 - s) r1 with
      | none => none
      | some ((_, rj), r2) => some (some ⟨mi, ri, rj, s, s⟩, r2)
  else some (none, r)

/-- `makeCandidate_LocalSpinFlip_localspin` (`/repo/src/mVMC/vmcmake_fsz.c:728-753`). Never
sets `rejectFlag`. -/
def localSpinFlip (p : FPar) (c : FCfg) : List Nat → Option (FMove × List Nat)
  | u :: r =>
    let mi := u % p.Nsize
    let s := (c.spn mi).toNat
    let ri := (c.idx mi).toNat
    if p.locSpn ri = 0 then localSpinFlip p c r else some (⟨mi, ri, ri, s, 1 - s⟩, r)
  | [] => none

/-- `makeCandidate_LocalSpinFlip_conduction` (`/repo/src/mVMC/vmcmake_fsz.c:756-788`). -/
def conductionFlip (p : FPar) (c : FCfg) : Nat → List Nat → Option ((FMove × Bool) × List Nat)
  | icnt, u :: r =>
    let mi := u % p.Nsize
    let s := (c.spn mi).toNat
    let ri := (c.idx mi).toNat
    if icnt > p.Nsite * p.Nsite then some ((⟨mi, ri, ri, s, 1 - s⟩, true), r)
    else if p.locSpn ri = 1 ∨ c.cfg (ri + (1 - s) * p.Nsite) ≠ -1 then conductionFlip p c (icnt + 1) r
    else some ((⟨mi, ri, ri, s, 1 - s⟩, false), r)
  | _, [] => none

/-- The candidate of the `HOPPING` branch (`/repo/src/mVMC/vmcmake_fsz.c:160-180`): `flag_hop`,
move, `rejectFlag`. -/
def hopCandidateF (p : FPar) (c : FCfg) (r : List Nat) : Option ((Bool × FMove × Bool) × List Nat) :=
  if p.twoSz = -1 then
    match r with
    | [] => none
    | u :: r =>
      if coin u = 0 then
        match makeCandidateHoppingF p c r with
        | none => none
        | some ((h, fl), r) => some ((true, h, fl), r)
      else
        match conductionFlip p c 0 r with
        | none => none
        | some ((h, fl), r) => some ((false, h, fl), r)
  else
    match makeCandidateHoppingC p c r with
    | none => none
    | some ((h, fl), r) => some ((true, h, fl), r)

/-- Second hop of an exchange (`/repo/src/mVMC/vmcmake_fsz.c:255-262`). -/
def partnerMove (p : FPar) (c : FCfg) (h : FMove) : FMove :=
  ⟨(c.cfg (h.rj + (1 - h.s) * p.Nsite)).toNat, h.rj, h.ri, 1 - h.s, 1 - h.s⟩

/-- Everything but the configuration tables, as in `Hooks`. `propMove` covers the two single-electron
branches (`s==t` uses `UpdateProjCnt`, otherwise `UpdateProjCnt_fsz`).
(`/repo/src/mVMC/vmcmake_fsz.c:148-403`) -/
structure FHooks (β γ : Type) where
  propMove : FCfg → FMove → β → γ
  propExch : FCfg → FCfg → FMove → FMove → β → γ
  accept : β → γ → Nat → Bool
  commitMove : FCfg → FMove → β → γ → β
  commitExch : FCfg → FMove → FMove → β → γ → β
  refresh : FCfg → β → β

/-- Local variables that survive a step; `cnt` is `Counter[0..5]`.
(`/repo/src/mVMC/vmcmake_fsz.c:42-70`) -/
structure FState (β : Type) where
  c : FCfg
  b : β
  nAccept : Nat
  cnt : Nat → Nat

/-- `Counter[i]++`. (`/repo/src/mVMC/vmcmake_fsz.c:148-403`) -/
def bump (cnt : Nat → Nat) (i : Nat) : Nat → Nat := fun k => if k = i then cnt k + 1 else cnt k

/-- `if(nAccept>Nsite) {…}` (`/repo/src/mVMC/vmcmake_fsz.c:380-402`). -/
def maybeRefreshF {β γ : Type} (k : FHooks β γ) (p : FPar) (st : FState β) : FState β :=
  if st.nAccept > p.Nsite then { st with b := k.refresh st.c st.b, nAccept := 0 } else st

/-- Metropolis part shared by the hopping and local-spin-flip branches
(`/repo/src/mVMC/vmcmake_fsz.c:184-240,322-378`); `acc` is the acceptance counter to be bumped. -/
def tryMoveF {β γ : Type} (k : FHooks β γ) (p : FPar) (st : FState β) (h : FMove) (acc : Nat) (r : List Nat) :
    Option (FState β × List Nat) :=
  let c' := updateEleConfigF p h st.c
  let g := k.propMove c' h st.b
  match r with
  | [] => none
  | u :: r =>
    if k.accept st.b g u then
      some (maybeRefreshF k p ⟨c', k.commitMove c' h st.b g, st.nAccept + 1, bump st.cnt acc⟩, r)
    else some (maybeRefreshF k p { st with c := revertEleConfigF p h c' }, r)

/-- One iteration of the inner loop of `VMCMakeSample_fsz` (`/repo/src/mVMC/vmcmake_fsz.c:148-403`). -/
def innerStepF {β γ : Type} (k : FHooks β γ) (p : FPar) (st : FState β) (r : List Nat) :
    Option (FState β × List Nat) :=
  match getUpdateType p.exPath true p.twoSz r with
  | none => none
  | some (.hopping, r) =>
    match hopCandidateF p st.c r with
    | none => none
    | some ((fh, h, fl), r) =>
      let st := { st with cnt := bump st.cnt (if fh then 0 else 4) }
      if fl then some (st, r)                                      -- `continue`
      else tryMoveF k p st h (if fh then 1 else 5) r
  | some (.exchange, r) =>
    let st := { st with cnt := bump st.cnt 2 }
    match makeCandidateExchangeF p st.c r with
    | none => none
    | some (none, r) => some (st, r)                               -- `continue`
    | some (some h, r) =>
      let h2 := partnerMove p st.c h
      let c' := updateEleConfigF p h2 (updateEleConfigF p h st.c)
      let g := k.propExch (updateEleConfigF p h st.c) c' h h2 st.b
      match r with
      | [] => none
      | u :: r =>
        if k.accept st.b g u then
          some (maybeRefreshF k p ⟨c', k.commitExch c' h h2 st.b g, st.nAccept + 1, bump st.cnt 3⟩, r)
        else
          some (maybeRefreshF k p { st with c := revertEleConfigF p h (revertEleConfigF p h2 c') }, r)
  | some (.localSpinFlip, r) =>
    let st := { st with cnt := bump st.cnt 4 }
    match localSpinFlip p st.c r with
    | none => none
    | some (h, r) => tryMoveF k p st h 5 r
  | some (.none, r) => some (maybeRefreshF k p st, r)

/-- Inner loop (`/repo/src/mVMC/vmcmake_fsz.c:148-403`). -/
def innerLoopF {β γ : Type} (k : FHooks β γ) (p : FPar) :
    Nat → FState β → List Nat → Option (FState β × List Nat)
  | 0, st, r => some (st, r)
  | n + 1, st, r =>
    match innerStepF k p st r with
    | none => none
    | some (st, r) => innerLoopF k p n st r

/-- Outer loop (`/repo/src/mVMC/vmcmake_fsz.c:147-416`), as `outerLoop`. -/
def outerLoopF {β γ : Type} (k : FHooks β γ) (p : FPar) (nInStep nOutStep nSample : Nat) :
    (left outStep : Nat) → FState β → List (Nat × FState β) → List Nat →
    Option (FState β × List (Nat × FState β) × List Nat)
  | 0, _, st, saved, r => some (st, saved, r)
  | left + 1, outStep, st, saved, r =>
    match innerLoopF k p nInStep st r with
    | none => none
    | some (st, r) =>
      let saved := if outStep ≥ nOutStep - nSample then
          (outStep - (nOutStep - nSample), st) :: saved else saved
      outerLoopF k p nInStep nOutStep nSample left (outStep + 1) st saved r

/-- The sampling part of `VMCMakeSample_fsz` (`/repo/src/mVMC/vmcmake_fsz.c:139-433`). -/
def vmcMakeSampleF {β γ : Type} (k : FHooks β γ) (p : FPar) (burnFlag : Bool)
    (warmUp nSample interval : Nat) (c : FCfg) (b : β) (r : List Nat) :
    Option (FState β × List (Nat × FState β) × List Nat) :=
  outerLoopF k p (interval * p.Nsite) (nOutStep burnFlag warmUp nSample) nSample
    (nOutStep burnFlag warmUp nSample) 0 ⟨c, b, 0, fun _ => 0⟩ [] r

/-! ## Initial configuration -/

/-- `tmp_TwoSz` (`/repo/src/mVMC/vmcmake_fsz.c:455-459`); C division truncates. -/
def tmpTwoSz (twoSz : Int) : Int := if twoSz = -1 then 0 else twoSz.tdiv 2

/-- `eleSpn` as initialised in `/repo/src/mVMC/vmcmake_fsz.c:461-467`. -/
def initSpn (p : FPar) (x : Nat) : Int := if (x : Int) < p.Ne + tmpTwoSz p.twoSz then 0 else 1

/-- Inner loop for a local-spin site (`/repo/src/mVMC/vmcmake_fsz.c:471-475`). -/
def pickFreeElectronF (p : FPar) (c : FCfg) : List Nat → Option (Nat × List Nat)
  | u :: r =>
    let mi := u % p.Nsize
    if c.idx mi ≠ -1 then pickFreeElectronF p c r else some (mi, r)
  | [] => none

/-- Electron `mi` is put on `(ri, spn mi)`. (`/repo/src/mVMC/vmcmake_fsz.c:476-478,488-490`) -/
def placeF (p : FPar) (c : FCfg) (ri mi : Nat) : FCfg :=
  { c with cfg := c.cfg.set (ri + (c.spn mi).toNat * p.Nsite) mi, idx := c.idx.set mi ri }

/-- Local-spin sites (`/repo/src/mVMC/vmcmake_fsz.c:469-480`). -/
def placeLocalF (p : FPar) : List Nat → FCfg → List Nat → Option (FCfg × List Nat)
  | [], c, r => some (c, r)
  | ri :: ris, c, r =>
    if p.locSpn ri = 1 then
      match pickFreeElectronF p c r with
      | none => none
      | some (mi, r) => placeLocalF p ris (placeF p c ri mi) r
    else placeLocalF p ris c r

/-- Inner loop for one itinerant electron (`/repo/src/mVMC/vmcmake_fsz.c:485-487`). -/
def pickFreeSiteF (p : FPar) (c : FCfg) (si : Nat) : List Nat → Option (Nat × List Nat)
  | u :: r =>
    let ri := u % p.Nsite
    if c.cfg (ri + si * p.Nsite) ≠ -1 ∨ p.locSpn ri = 1 then pickFreeSiteF p c si r else some (ri, r)
  | [] => none

/-- Itinerant electrons (`/repo/src/mVMC/vmcmake_fsz.c:482-492`). -/
def placeItinerantF (p : FPar) : List Nat → FCfg → List Nat → Option (FCfg × List Nat)
  | [], c, r => some (c, r)
  | mi :: es, c, r =>
    if c.idx mi = -1 then
      match pickFreeSiteF p c (c.spn mi).toNat r with
      | none => none
      | some (ri, r) => placeItinerantF p es (placeF p c ri mi) r
    else placeItinerantF p es c r

/-- One pass of `makeInitialSample_fsz` (`/repo/src/mVMC/vmcmake_fsz.c:446-498`). -/
def initialPassF (p : FPar) (r : List Nat) : Option (FCfg × List Nat) :=
  match placeLocalF p (List.range p.Nsite) ⟨fun _ => -1, initSpn p, fun _ => -1, fun _ => 0⟩ r with
  | none => none
  | some (c, r) =>
    match placeItinerantF p (List.range p.Nsize) c r with
    | none => none
    | some (c, r) => some ({ c with num := fun rsi => if c.cfg rsi < 0 then 0 else 1 }, r)

/-- Source: `/repo/src/mVMC/vmcmake_fsz.c:435-517`. -/
inductive FInitOutcome where
  | ok (c : FCfg) (rest : List Nat)
  | abort

/-- `makeInitialSample_fsz` (`/repo/src/mVMC/vmcmake_fsz.c:435-517`). -/
def makeInitialSampleF (p : FPar) (bad : FCfg → Bool) : Nat → List Nat → Option FInitOutcome
  | 0, r =>
    match initialPassF p r with
    | none => none
    | some _ => some .abort
  | left + 1, r =>
    match initialPassF p r with
    | none => none
    | some (c, r) => if bad c then makeInitialSampleF p bad left r else some (.ok c r)

end MVMC
