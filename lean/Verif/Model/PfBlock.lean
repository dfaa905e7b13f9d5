import Mathlib.Algebra.Field.Defs
import Mathlib.Algebra.BigOperators.Group.Finset.Basic
import Verif.Model.PfUpdate

/-!
# Model of the delayed block updates of the Pfaffian (`_pf_block_update`)

`/repo/src/pfupdates/updated_tdi.tcc` (one object per projection), `orbital_mat.tcc`, `skmv.tcc`, `skslc.tcc`, `skr2k.tcc`,
the C interface `pf_interface.cc`, and the way the samplers call it (`/repo/src/mVMC/vmcmake.c:83-353`, `vmcmake_real.c`).

Matrices are functions of (row, column); the column-major address computation is left out except for the orbital matrix, where reading a
row-major array as column-major matters. Vectors (`from_idx`, `to_site`, `elem_cfg`) are functions together with their length. Buffers
allocated with `new` and not yet written have arbitrary content. Results are `none` for an access outside a buffer, an exception of
`vector::at`, or a division by zero. Only `uplo == BLIS_UPPER` exists (`updated_tdi.tcc:62-75`). Exact arithmetic instead of floating point.
Loops whose iterations write different entries of an array that they do not read are written as one function; all others are loops.
-/
namespace MVMC

variable {K : Type} [Field K]

/-- `A(i,j) = v` (`/repo/src/pfupdates/updated_tdi.tcc:284-285`) -/
def set2 (A : Nat → Nat → K) (i j : Nat) (v : K) : Nat → Nat → K := fun a b => if a = i ∧ b = j then v else A a b

/-- rows `0 … n-1` of column `j` (`/repo/src/pfupdates/updated_tdi.tcc:195-198`) -/
def setCol (n : Nat) (A : Nat → Nat → K) (j : Nat) (v : Nat → K) : Nat → Nat → K := fun a b => if b = j ∧ a < n then v a else A a b

/-- the matrix of which only the strict upper triangle is stored (argument of `sktrf`, `skpfa`, `skmv`, `skslc` with `BLIS_UPPER`;
`/repo/src/pfupdates/skslc.tcc:19-27`) -/
def upSkew (A : Nat → Nat → K) : Nat → Nat → K := fun i j => if i < j then A i j else if j < i then - A j i else 0

/-- `Xij(osi,osj)` (`/repo/src/pfupdates/orbital_mat.tcc:45-65`, `BLIS_UPPER`) -/
def orbAt (X : Nat → Nat → K) (osi osj : Nat) : K := if osi = osj then 0 else if osi < osj then X osi osj else - X osj osi

/-- `dot(n, x, 1, y, 1)` (`/repo/src/pfupdates/updated_tdi.tcc:302-306`) -/
def dotN (n : Nat) (x y : Nat → K) : K := ∑ i ∈ Finset.range n, x i * y i

/-- `skmv`: upper triangle times `x` minus transposed upper triangle times `x`, both with the diagonal (`/repo/src/pfupdates/skmv.tcc:13-37`) -/
def skmv (n : Nat) (A : Nat → Nat → K) (x : Nat → K) (i : Nat) : K :=
  (∑ j ∈ Finset.range n, if i ≤ j then A i j * x j else 0) - ∑ j ∈ Finset.range n, if j ≤ i then A j i * x j else 0

/-- `skslc`: column `i` from the upper triangle (`/repo/src/pfupdates/skslc.tcc:12-33`) -/
def skslc (A : Nat → Nat → K) (i j : Nat) : K := if j = i then 0 else if j < i then A j i else - A i j

/-- The external routines. `pfa n b` is `skpfa`: the Pfaffian, and what is left in the array. `fac n b` is `sktrf` followed by `ltl2pfa` and
`ltl2inv`: Pfaffian and inverse, `none` if the factorisation fails (the status is ignored, later divisions are by zero).
(`/repo/src/pfupdates/updated_tdi.tcc:81-84,334-339,455-463`) -/
structure BlkLib (K : Type) where
  pfa : Nat → (Nat → Nat → K) → K × (Nat → Nat → K)
  fac : Nat → (Nat → Nat → K) → Option (K × (Nat → Nat → K))

/-- `nelec`, `Xij.nsite`, `mmax` and the orbital matrix. (`/repo/src/pfupdates/updated_tdi.tcc:20-25`) -/
structure BlkPar (K : Type) where
  n : Nat
  nsite : Nat
  mmax : Nat
  X : Nat → Nat → K

/-- The object. `P(:,l)` is column `mmax+l` of `Q`; `k` is the length of `from_idx` and of `to_site`.
(`/repo/src/pfupdates/updated_tdi.tcc:20-51,139-148`) -/
structure Tdi (K : Type) where
  nq : Nat
  M : Nat → Nat → K
  U : Nat → Nat → K
  Q : Nat → Nat → K
  W : Nat → Nat → K
  UMU : Nat → Nat → K
  UMV : Nat → Nat → K
  VMV : Nat → Nat → K
  Cp : Nat → Nat → K
  pfa : K
  ratio : K
  cfg : Nat → Nat
  k : Nat
  frm : Nat → Nat
  dst : Nat → Nat

/-- `get_Pfa` (`/repo/src/pfupdates/updated_tdi.tcc:150`) -/
def Tdi.getPfa (t : Tdi K) : K := t.pfa * t.ratio

/-- Constructor without initialisation (`/repo/src/pfupdates/updated_tdi.tcc:139-148`), `elem_cfg` filled in by the interface
(`pf_interface.cc:46-50`), then `initialize` (`updated_tdi.tcc:53-92`). `t0` is the memory before. -/
def tdiInit (p : BlkPar K) (lib : BlkLib K) (cfg : Nat → Nat) (t0 : Tdi K) : Option (Tdi K) :=
  let M := fun i j => if i < j ∧ j < p.n then orbAt p.X (cfg i) (cfg j) else if i = j ∧ j < p.n then 0 else t0.M i j
  match lib.fac p.n M with
  | none => none
  | some (pf, inv) => some { t0 with nq := 0, M := inv, pfa := pf, ratio := 1, cfg := cfg, k := 0 }

/-- `assemble_C_BMB` (`/repo/src/pfupdates/updated_tdi.tcc:152-177`) -/
def assemble (t : Tdi K) : Tdi K :=
  { t with Cp := fun i j =>
      if j < t.k then (if i < j then t.W i j + t.UMU i j else t.Cp i j)
      else if j < 2 * t.k then
        (if i < t.k then (if j = i + t.k then t.UMV i (j - t.k) - 1 else t.UMV i (j - t.k))
         else if i < j then t.VMV (i - t.k) (j - t.k) else t.Cp i j)
      else t.Cp i j }

/-- `require_Q` (`/repo/src/pfupdates/updated_tdi.tcc:180-206`) -/
def requireQ (p : BlkPar K) (all : Bool) (t : Tdi K) : Tdi K :=
  let kcal := if all then t.k else t.k - 1
  if t.nq ≥ kcal then t
  else (List.range' t.nq (kcal - t.nq)).foldl
    (fun t c => { t with Q := setCol p.n t.Q c (skmv p.n t.M (fun i => t.U i c)), nq := c + 1 }) t

/-- `require_UMU` (`/repo/src/pfupdates/updated_tdi.tcc:210-228`) -/
def requireUMU (p : BlkPar K) (t : Tdi K) : Tdi K :=
  { t with UMU := fun l o => if l < o ∧ o < t.k then - dotN p.n (fun i => t.U i o) (fun i => t.Q i l) else t.UMU l o }

/-- `config_to_site` on a vector filled with -1 (`/repo/src/pfupdates/updated_tdi.tcc:231-247,268-269`) -/
def siteCfg (n : Nat) (cfg : Nat → Nat) : Nat → Option Nat :=
  (List.range n).foldl (fun s i x => if x = cfg i then some i else s x) (fun _ => none)

/-- `U(sitecfg.at(i),k) = Xij.X(i,osi) - Xij.X(i,osj)` for all occupied sites (`/repo/src/pfupdates/updated_tdi.tcc:270-274`) -/
def pushColU (p : BlkPar K) (t : Tdi K) (osi osj : Nat) : Nat → Nat → K :=
  (List.range p.nsite).foldl (fun U i => match siteCfg p.n t.cfg i with
    | some m => set2 U m t.k (p.X i osi - p.X i osj)
    | none => U) t.U

/-- one pass of the loop over the updates in the queue: `U`, `Q` and `UMV` (`/repo/src/pfupdates/updated_tdi.tcc:279-294`); `k` is the
number of the new update. -/
def pushLoop (p : BlkPar K) (k osi msj osj : Nat) (t : Tdi K) (l : Nat) : Tdi K :=
  let msl := t.frm l
  let old := t.U msj l
  let U1 := set2 t.U msl k (orbAt p.X (t.dst l) osi - orbAt p.X (t.cfg msl) osj)
  let U2 := set2 U1 msj l (orbAt p.X osi (t.dst l) - orbAt p.X osj (t.cfg msl))
  let Q2 := setCol p.n t.Q l (fun i => t.Q i l + (U2 msj l - old) * t.Q i (p.mmax + k))
  { t with U := U2, Q := Q2, UMV := fun a o => if a = l ∧ o < k then t.UMV a o + (U2 msj l - old) * Q2 msj (p.mmax + o) else t.UMV a o }

/-- `-1` to the power `k(k+1)/2` (`/repo/src/pfupdates/updated_tdi.tcc:339,423,461`) -/
def hopSign (k : Nat) : K := (-1) ^ (k * (k + 1) / 2)

/-- Pfaffian of the central matrix (`/repo/src/pfupdates/updated_tdi.tcc:316-339`, `k` is the new length) -/
def pushPfa (p : BlkPar K) (lib : BlkLib K) (t : Tdi K) : Tdi K :=
  let t := assemble (requireUMU p (requireQ p false t))
  if t.k = 1 then { t with ratio := - t.UMV 0 0 + 1 }
  else
    let r := lib.pfa (2 * t.k) t.Cp
    { t with ratio := r.1 * hopSign t.k, Cp := r.2 }

/-- `push_update` (`/repo/src/pfupdates/updated_tdi.tcc:251-344`). Column `k` of `P`, `W` and `VMV` exists only for `k < mmax`. -/
def pushUpdate (p : BlkPar K) (lib : BlkLib K) (osi msj : Nat) (compute : Bool) (t : Tdi K) : Option (Tdi K) :=
  if ¬ (msj < p.n ∧ osi < p.nsite ∧ t.k < p.mmax) then none
  else
    let k := t.k
    let osj := t.cfg msj
    let t := { t with U := pushColU p t osi osj }
    let t := { t with Q := setCol p.n t.Q (p.mmax + k) (skslc t.M msj) }
    let t := (List.range k).foldl (pushLoop p k osi msj osj) t
    let t := { t with W := fun l c => if c = k ∧ l < k then - orbAt p.X (t.dst l) osi + orbAt p.X (t.cfg (t.frm l)) osj else t.W l c }
    let umv := fun a b => if a < k ∧ b = k then dotN p.n (fun i => t.U i a) (fun i => t.Q i (p.mmax + k))
      else if a = k ∧ b ≤ k then dotN p.n (fun i => t.U i k) (fun i => t.Q i (p.mmax + b)) else t.UMV a b
    let t := { t with UMV := umv }
    let t := { t with VMV := fun l c => if c = k ∧ l < k then - t.Q msj (p.mmax + l) else t.VMV l c }
    let t := { t with frm := fun l => if l = k then msj else t.frm l, dst := fun l => if l = k then osi else t.dst l, k := k + 1 }
    if compute then some (pushPfa p lib t) else some { t with ratio := 0 }

/-- one pass of the loop of `pop_update` (`/repo/src/pfupdates/updated_tdi.tcc:380-405`); `k` is the new length. -/
def popLoop (p : BlkPar K) (k msj osj : Nat) (t : Tdi K) (l : Nat) : Tdi K :=
  let msl := t.frm l
  let old := t.U msj l
  let U2 := set2 t.U msj l (orbAt p.X osj (t.dst l) - orbAt p.X osj (t.cfg msl))
  let d := U2 msj l - old
  let Q2 := setCol p.n t.Q l (fun i => if i < msj then t.Q i l + t.M i msj * d else if i = msj then t.Q i l else t.Q i l - t.M msj i * d)
  { t with U := U2, Q := Q2, UMV := fun a o => if a = l ∧ o < k then t.UMV a o + d * Q2 msj (p.mmax + o) else t.UMV a o }

/-- `pop_update` (`/repo/src/pfupdates/updated_tdi.tcc:366-428`) -/
def popUpdate (p : BlkPar K) (lib : BlkLib K) (compute : Bool) (t : Tdi K) : Option (Tdi K) :=
  if t.k = 0 then none
  else
    let k := t.k - 1
    let msj := t.frm k
    let osj := t.cfg msj
    let t := { t with k := k }
    let t := (List.range k).foldl (popLoop p k msj osj) t
    let t := if t.nq > k then { t with nq := k } else t
    if k = 0 then some { t with ratio := 1 }
    else if compute then
      let t := assemble (requireUMU p (requireQ p false t))
      let r := lib.pfa (2 * k) t.Cp
      some { t with ratio := r.1 * hopSign k, Cp := r.2 }
    else some { t with ratio := 0 }

/-- `memcpy(&AB(0,k+j), &P(0,j), …)` for `j < k` (`/repo/src/pfupdates/updated_tdi.tcc:491-494`) -/
def closeGap (p : BlkPar K) (k : Nat) (Q : Nat → Nat → K) : Nat → Nat → K :=
  if k ≠ p.mmax then (List.range k).foldl (fun Q j => setCol p.n Q (k + j) (fun i => Q i (p.mmax + j))) Q else Q

/-- `inv_update` (`/repo/src/pfupdates/updated_tdi.tcc:478-530`, `skr2k.tcc:16-35`); `gemmt` changes entries on and above the diagonal. -/
def invUpdate (p : BlkPar K) (t : Tdi K) : Tdi K :=
  if t.k = 1 then
    { t with M := fun i j => if i ≤ j ∧ j < p.n then t.M i j + t.Cp 0 1 * (t.Q i 0 * t.Q j p.mmax) - t.Cp 0 1 * (t.Q i p.mmax * t.Q j 0) else t.M i j }
  else
    let Q := closeGap p t.k t.Q
    let U := fun i j => if i < p.n ∧ j < 2 * t.k then ∑ a ∈ Finset.range (2 * t.k), Q i a * t.Cp a j else t.U i j
    { t with Q := Q, U := U, M := fun i j => if i ≤ j ∧ j < p.n then t.M i j + ∑ a ∈ Finset.range (2 * t.k), U i a * Q j a else t.M i j }

/-- `elem_cfg.at(from_idx.at(j)) = to_site.at(j)` (`/repo/src/pfupdates/updated_tdi.tcc:466-468`) -/
def applyHops (t : Tdi K) : Nat → Nat := (List.range t.k).foldl (fun c j x => if x = t.frm j then t.dst j else c x) t.cfg

/-- the part of `merge_updates` that inverts the central matrix (`/repo/src/pfupdates/updated_tdi.tcc:441-463`) -/
def mergeC [DecidableEq K] (p : BlkPar K) (lib : BlkLib K) (t : Tdi K) : Option (Tdi K) :=
  let t := requireQ p true t
  if t.k = 1 then
    let t := if t.ratio = 0 then
        let t := assemble (requireUMU p t)
        { t with ratio := - t.Cp 0 1 }
      else t
    if t.Cp 0 1 = 0 then none
    else some { t with Cp := fun i j => if i = 0 ∧ j = 1 then -1 / t.Cp 0 1 else if i = 1 ∧ j = 0 then -1 / t.Cp 1 0 else t.Cp i j }
  else
    let t := assemble (requireUMU p t)
    match lib.fac (2 * t.k) t.Cp with
    | none => none
    | some (pf, inv) => some { t with ratio := if t.ratio = 0 then pf * hopSign t.k else t.ratio, Cp := inv }

/-- `merge_updates` (`/repo/src/pfupdates/updated_tdi.tcc:430-476`) -/
def mergeUpdates [DecidableEq K] (p : BlkPar K) (lib : BlkLib K) (t : Tdi K) : Option (Tdi K) :=
  if t.k = 0 then some t
  else match mergeC p lib t with
    | none => none
    | some t =>
      let t := invUpdate p t
      some { t with cfg := applyHops t, k := 0, nq := 0, pfa := t.pfa * t.ratio, ratio := 1 }

/-- is one of the electrons already in the queue (`/repo/src/pfupdates/updated_tdi.tcc:354-358`, `pf_interface.cc:127-132`) -/
def queued (t : Tdi K) (f : Nat → Bool) : Bool := (List.range t.k).any (fun l => f (t.frm l))

/-- `push_update_safe` (`/repo/src/pfupdates/updated_tdi.tcc:349-360`) -/
def pushSafe [DecidableEq K] (p : BlkPar K) (lib : BlkLib K) (osi msj : Nat) (compute : Bool) (t : Tdi K) : Option (Tdi K) :=
  (if t.k ≥ p.mmax then mergeUpdates p lib t else some t).bind fun t =>
    (if queued t (· == msj) then mergeUpdates p lib t else some t).bind fun t => pushUpdate p lib osi msj compute t

/-- `mmax - 2` compared with an unsigned 64-bit number (`/repo/src/pfupdates/pf_interface.cc:124`) -/
def mmaxMinusTwo (mmax : Nat) : Nat := if 2 ≤ mmax then mmax - 2 else 2 ^ 64 + mmax - 2

/-- body of `updated_tdi_v_push_pair` (`/repo/src/pfupdates/pf_interface.cc:111-136`) -/
def pushPair [DecidableEq K] (p : BlkPar K) (lib : BlkLib K) (osi msj osk msl : Nat) (compute : Bool) (t : Tdi K) : Option (Tdi K) :=
  (if t.k > mmaxMinusTwo p.mmax then mergeUpdates p lib t
   else if queued t (fun m => m == msj || m == msl) then mergeUpdates p lib t else some t).bind fun t =>
    (pushUpdate p lib osi msj false t).bind fun t => pushUpdate p lib osk msl compute t

/-- the routines as they are linked: `skpfa`, and `sktrf`/`ltl2pfa`/`ltl2inv` with `BLIS_UPPER` (`lib`, see `skLibOf`) on the stored matrix;
`junk` is what `skpfa` leaves in the matrix (`/repo/src/pfupdates/updated_tdi.tcc:82-84,334,422,458-462`) -/
def blkLibOf (pfa : Nat → (Nat → K) → K) (junk : Nat → (Nat → Nat → K) → Nat → Nat → K) (lib : SkLib K) : BlkLib K where
  pfa n b := (pfa n (fun x => upSkew b (x % n) (x / n)), junk n b)
  fac n b := (lib n (fun x => upSkew b (x % n) (x / n))).map fun r => (r.1, fun i j => r.2 (i + n * j))

/-- `NBlockUpdateSize` as used; `dflt` is 4 (`/repo/src/mVMC/vmcmake.c:88-96`, `vmcmake_fsz.c:87-95`) or 2 (`vmcmake_real.c:80-88`);
`vmcmake_fsz_real.c:83-86` takes the fall-back values always -/
def blockUpdateSize (dflt nExUpdatePath size : Int) : Int :=
  if size < 1 ∨ size > 100 then (if nExUpdatePath = 0 then dflt else 20) else size

/-! ### all projections, as the sampler uses them -/

/-- `SlaterElm + iqp*stride` read as a column-major matrix: row `i`, column `j` is element `i + j*norbs`
(`/repo/src/pfupdates/pf_interface.cc:41-42`, `/repo/src/mVMC/vmcmake.c:102-107`) -/
def orbMat (nsite2 : Nat) (slt : Nat → K) (q : Nat) : Nat → Nat → K := fun i j => slt (q * (nsite2 * nsite2) + i + j * nsite2)

/-- parameters of object `q` (`/repo/src/mVMC/vmcmake.c:102-107`) -/
def blkPar (p : PfPar) (mmax : Nat) (slt : Nat → K) (q : Nat) : BlkPar K := ⟨p.Nsize, p.Nsite2, mmax, orbMat p.Nsite2 slt q⟩

/-- one object for each projection; the loops `for (iqp …)` of the interface touch one object per pass
(`/repo/src/pfupdates/pf_interface.cc:24-157`) -/
def forAllQP (nqp : Nat) (f : Nat → Tdi K → Option (Tdi K)) (v : Nat → Tdi K) : Option (Nat → Tdi K) :=
  (List.range nqp).foldl (fun r q => r.bind fun v => (f q (v q)).map fun t' => fun q' => if q' = q then t' else v q') (some v)

/-- `updated_tdi_v_get_pfa` (`/repo/src/pfupdates/pf_interface.cc:77-86`) -/
def vGetPfa (v : Nat → Tdi K) (q : Nat) : K := - (v q).getPfa

/-- What the sampler does with the objects: a hop or an exchange that is proposed and then accepted or rejected, or a fresh start.
(`/repo/src/mVMC/vmcmake.c:174-175,200-201,216-218,256-262,283-302,309-326`) -/
inductive BlkEv where
  | hop (osi msj : Nat) (accept : Bool)
  | exch (osi msj osk msl : Nat) (accept : Bool)
  | refresh

/-- What an event does first with one object: `push`, `push_pair`, or `free` and `init` with the current configuration, in memory `mem`.
(`/repo/src/mVMC/vmcmake.c:174,256-259,309-319`) -/
def evPush [DecidableEq K] (p : BlkPar K) (lib : BlkLib K) (cur : Nat → Nat) (mem : Tdi K) : BlkEv → Tdi K → Option (Tdi K)
  | .hop osi msj _, t => pushSafe p lib osi msj true t
  | .exch osi msj osk msl _, t => pushPair p lib osi msj osk msl true t
  | .refresh, _ => tdiInit p lib cur mem

/-- number of calls of `updated_tdi_v_pop_z` (`/repo/src/mVMC/vmcmake.c:215-218,299-302`) -/
def evPops : BlkEv → Nat
  | .hop _ _ acc => if acc then 0 else 1
  | .exch _ _ _ _ acc => if acc then 0 else 2
  | .refresh => 0

/-- configuration after the event (`updateEleConfig`, `revertEleConfig`; `/repo/src/mVMC/vmcmake.c:165,219,243-249,303-304`) -/
def evCfg (c : Nat → Nat) : BlkEv → Nat → Nat
  | .hop osi msj acc => if acc then (fun i => if i = msj then osi else c i) else c
  | .exch osi msj osk msl acc => if acc then (fun i => if i = msl then osk else if i = msj then osi else c i) else c
  | .refresh => c

/-- calls of `updated_tdi_v_pop_z` (`/repo/src/pfupdates/pf_interface.cc:148-157`) -/
def popAll (nqp : Nat) (par : Nat → BlkPar K) (lib : BlkLib K) : Nat → (Nat → Tdi K) → Option (Nat → Tdi K)
  | 0, v => some v
  | m + 1, v => (forAllQP nqp (fun q => popUpdate (par q) lib false) v).bind (popAll nqp par lib m)

/-- One event for all objects: the new objects and the Pfaffians reported for the proposed configuration.
(`/repo/src/mVMC/vmcmake.c:174-218,256-302,309-326`) -/
def blkEvent [DecidableEq K] (nqp : Nat) (par : Nat → BlkPar K) (lib : BlkLib K) (cur : Nat → Nat) (mem : Nat → Tdi K) (e : BlkEv) (v : Nat → Tdi K) :
    Option ((Nat → Tdi K) × (Nat → K)) :=
  (forAllQP nqp (fun q => evPush (par q) lib cur (mem q) e) v).bind fun v1 => (popAll nqp par lib (evPops e) v1).map fun v2 => (v2, vGetPfa v1)

/-- A sequence of events; the reported values in order. (`/repo/src/mVMC/vmcmake.c:142-328`) -/
def blkRun [DecidableEq K] (nqp : Nat) (par : Nat → BlkPar K) (lib : BlkLib K) (mem : Nat → Tdi K) :
    List BlkEv → (Nat → Nat) → (Nat → Tdi K) → Option ((Nat → Tdi K) × List (Nat → K))
  | [], _, v => some (v, [])
  | e :: es, c, v => (blkEvent nqp par lib c mem e v).bind fun r =>
      (blkRun nqp par lib mem es (evCfg c e) r.1).map fun s => (s.1, r.2 :: s.2)

/-- `updated_tdi_v_init_z` and the run after it (`/repo/src/mVMC/vmcmake.c:102-108,142-328`) -/
def blkStart [DecidableEq K] (nqp : Nat) (par : Nat → BlkPar K) (lib : BlkLib K) (mem : Nat → Tdi K) (es : List BlkEv) (c : Nat → Nat) :
    Option ((Nat → Tdi K) × List (Nat → K)) :=
  (forAllQP nqp (fun q _ => tdiInit (par q) lib c (mem q)) mem).bind fun v =>
    (blkRun nqp par lib mem es c v).map fun s => (s.1, vGetPfa v :: s.2)

end MVMC
