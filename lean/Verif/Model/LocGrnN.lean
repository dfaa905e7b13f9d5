import Verif.Model.LocGrn

/-!
# Model of the n-body Green function

`/repo/src/mVMC/locgrn.c:192-422`, `/repo/src/mVMC/locgrn_real.c:184-405`. The two `GreenFuncN` differ in the call of the
Pfaffian routine, in the Boltzmann-machine factor and in the complex conjugation. One model `greenFuncN` serves both: `child` is the
Pfaffian of the moved electrons (`none` = undefined behaviour). For real data the conjugation does nothing, and the real version is only
used without a Boltzmann machine, so `greenFuncN` with `calculateNewPfMN` is the real version. The contents of the index arrays
`rsi`, `rsj` after the call are not returned.
-/
namespace MVMC

/-- array store (`/repo/src/mVMC/locgrn.c:206-210`) -/
def setN (a : Nat → Nat) (i v : Nat) : Nat → Nat := fun k => if k = i then v else a k

/-- `for(m=l;m<n-1;m++) a[m] = a[m+1]` (`/repo/src/mVMC/locgrn.c:236-239`, 253-255, 265-268). -/
def shiftDown (n l : Nat) (a : Nat → Nat) : Nat → Nat :=
  (List.range' l (n - 1 - l)).foldl (fun a m => setN a m (a (m + 1))) a

/-- What the reduction loop does with the operator string.
(`/repo/src/mVMC/locgrn.c:217-273`) -/
inductive RedStep where
  | zero
  | recur (neg : Bool) (rsi rsj : Nat → Nat)
  | hop

/-- The loop over `l` for the annihilation operator (`/repo/src/mVMC/locgrn.c:231-243`). -/
def scanAnn (n k : Nat) (rsi rsj : Nat → Nat) : List Nat → Option RedStep
  | [] => none
  | l :: ls =>
    if rsj k = rsi l then some (.recur false (shiftDown n l rsi) (shiftDown n l (setN rsj k (rsj l))))
    else if rsj k = rsj l then some .zero
    else scanAnn n k rsi rsj ls

/-- The loop over `l` for the creation operator (`/repo/src/mVMC/locgrn.c:258-270`). -/
def scanCr (n k : Nat) (rsi rsj : Nat → Nat) : List Nat → Option RedStep
  | [] => none
  | l :: ls =>
    if rsi k = rsi l then some .zero
    else if rsi k = rsj l then some (.recur true (shiftDown n l (setN rsi k (rsi l))) (shiftDown n l rsj))
    else scanCr n k rsi rsj ls

/-- The loop `for(k=n-1;k>=0;k--)` (`/repo/src/mVMC/locgrn.c:228-273`); the argument is the number of indices still to visit. -/
def scanRed (n : Nat) (rsi rsj : Nat → Nat) (num : Arr) : Nat → RedStep
  | 0 => .hop
  | k + 1 =>
    match scanAnn n k rsi rsj (List.range' (k + 1) (n - (k + 1))) with
    | some s => s
    | none =>
      if num (rsj k) = 0 then .zero
      else if rsi k = rsj k then .recur false (shiftDown n k rsi) (shiftDown n k rsj)
      else match scanCr n k rsi rsj (List.range' (k + 1) (n - (k + 1))) with
        | some s => s
        | none => if num (rsi k) = 1 then .zero else scanRed n rsi rsj num k

section pfaffian
variable {K : Type} [Field K]

/-- `eleIdx[m] + (m/Ne)*Nsite` (`/repo/src/mVMC/locgrn.c:335-340`) -/
def rsOf (p : PfPar) (idx : Arr) (m : Nat) : Nat := (idx m).toNat + (m / p.Ne) * p.Nsite

/-- The upper triangle of `mat` (`/repo/src/mVMC/locgrn_real.c:348-388`): blocks `X`, `Y`, `Z`. Every entry is stored once. -/
def newPfMNUpper (p : PfPar) (slt : Nat → K) (n : Nat) (msa : Nat → Nat) (idx : Arr) (st : PfState K) (q k l : Nat) : K :=
  let vec := fun k msi => sltAt p slt q (rsOf p idx (msa k)) (rsOf p idx msi)
  if k < n then
    if l < n then
      sumLoop p.Nsize (fun msi => sumLoop p.Nsize (fun msj => invAt p st.invM q msi msj * vec l msj) * vec k msi) + vec k (msa l)
    else sumLoop p.Nsize (fun msi => vec k msi * invAt p st.invM q (msa (l - n)) msi)
  else invAt p st.invM q (msa (k - n)) (msa (l - n))

/-- `mat[k][l]` after the transposition loop (`/repo/src/mVMC/locgrn_real.c:390-397`). -/
def newPfMNMat (p : PfPar) (slt : Nat → K) (n : Nat) (msa : Nat → Nat) (idx : Arr) (st : PfState K) (q k l : Nat) : K :=
  if l < k then - newPfMNUpper p slt n msa idx st q l k
  else if k = l then 0
  else newPfMNUpper p slt n msa idx st q k l

/-- `calculateNewPfMN_real_child` (`/repo/src/mVMC/locgrn_real.c:304-405`). `pfa n a` is `M_DSKPFA` for the column-major array `a` with
`nn = lda = n`; the row-major `mat` is handed over as it is. -/
def calculateNewPfMN (p : PfPar) (pfa : Nat → (Nat → K) → K) (slt : Nat → K) (n : Nat) (msa : Nat → Nat) (idx : Arr)
    (st : PfState K) (q : Nat) : K :=
  let pfaff := pfa (2 * n) (fun a => newPfMNMat p slt n msa idx st q (a / (2 * n)) (a % (2 * n)))
  let sgn := if n * (n - 1) / 2 % 2 = 0 then 1 else -1
  sgn * pfaff * st.pfM q

/-- `calculateNewPfMN_child` (`/repo/src/mVMC/locgrn.c:317-422`) reads `lda`, which is never set (the assignment is commented out, 347-348, 417): the
behaviour is undefined whatever the input. -/
def calculateNewPfMNComplex (_n : Nat) (_msa : Nat → Nat) (_idx : Arr) (_q : Nat) : Option K := none

end pfaffian

/-- `msj[k] = eleCfg[rsj[k]] + (rsj[k]/Nsite)*Ne` (`/repo/src/mVMC/locgrn.c:281-282`). -/
def hopMs (g : GrnEnv) (c : EleCfg) (rsj : Nat → Nat) (k : Nat) : Nat := (c.cfg (rsj k)).toNat + rsj k / g.p.Nsite * g.p.Ne

/-- The hops (`/repo/src/mVMC/locgrn.c:275-287`). -/
def hopN (g : GrnEnv) (n : Nat) (rsi rsj : Nat → Nat) (c : EleCfg) : EleCfg :=
  (List.range n).foldl (fun c k =>
    { c with
      idx := c.idx.set (hopMs g c rsj k) ((rsi k % g.p.Nsite : Nat) : Int)
      num := (c.num.set (rsj k) 0).set (rsi k) 1 }) c

/-- Reverting the hops (`/repo/src/mVMC/locgrn.c:303-309`). -/
def unhopN (g : GrnEnv) (n : Nat) (rsi rsj : Nat → Nat) (c : EleCfg) : EleCfg :=
  (List.range n).foldl (fun c k =>
    { c with
      idx := c.idx.set (hopMs g c rsj k) ((rsj k % g.p.Nsite : Nat) : Int)
      num := (c.num.set (rsj k) 1).set (rsi k) 0 }) c

/-- The end of `GreenFuncN` (`/repo/src/mVMC/locgrn.c:275-312`). -/
noncomputable def greenFuncNHop (g : GrnEnv) (child : Nat → (Nat → Nat) → Arr → Nat → Option ℂ) (n : Nat) (rsi rsj : Nat → Nat)
    (ip : ℂ) (projCnt : Arr) (rbmCnt : Nat → ℂ) (c : EleCfg) : Option (ℂ × EleCfg) :=
  let c' := hopN g n rsi rsj c
  let projNew := makeProjCnt g.q c'.num
  let x := projRatioC g projNew projCnt
  let x := if g.flagRBM then x * rbmRatioOne g (makeRBMCnt g.rbm c'.num) rbmCnt else x
  let pfs := fun q => child n (hopMs g c rsj) c'.idx q
  if (List.range g.nQP).all (fun q => (pfs q).isSome) then
    let z := calculateIPLocal g.w (fun q => (pfs q).getD 0) 0 g.nQP
    some ((starRingEnd ℂ) (x * z / ip), unhopN g n rsi rsj c')
  else none

/-- `GreenFuncN` (`/repo/src/mVMC/locgrn.c:192-312`, `/repo/src/mVMC/locgrn_real.c:184-300`). `rsi[k] = ri + si*Nsite`. -/
noncomputable def greenFuncN (g : GrnEnv) (child : Nat → (Nat → Nat) → Arr → Nat → Option ℂ) (ip : ℂ) (projCnt : Arr)
    (rbmCnt : Nat → ℂ) (c : EleCfg) : Nat → (Nat → Nat) → (Nat → Nat) → Option (ℂ × EleCfg)
  | 0, _, _ => some (0, c)
  | 1, rsi, rsj =>
    let N := g.p.Nsite
    if rsi 0 / N ≠ rsj 0 / N then some (0, c)
    else some (greenFunc1 g (rsi 0 % N) (rsj 0 % N) (rsi 0 / N) ip projCnt rbmCnt c)
  | 2, rsi, rsj =>
    let N := g.p.Nsite
    if rsi 0 / N ≠ rsj 0 / N ∨ rsi 1 / N ≠ rsj 1 / N then some (0, c)
    else some (greenFunc2 g (rsi 0 % N) (rsj 0 % N) (rsi 1 % N) (rsj 1 % N) (rsi 0 / N) (rsi 1 / N) ip projCnt rbmCnt c)
  | n + 3, rsi, rsj =>
    let N := g.p.Nsite
    if (List.range (n + 3)).any (fun k => rsi k / N != rsj k / N) then some (0, c)
    else match scanRed (n + 3) rsi rsj c.num (n + 3) with
      | .zero => some (0, c)
      | .recur neg rsi' rsj' =>
        match greenFuncN g child ip projCnt rbmCnt c (n + 2) rsi' rsj' with
        | none => none
        | some (v, c') => some (if neg then (-1) * v else v, c')
      | .hop => greenFuncNHop g child (n + 3) rsi rsj ip projCnt rbmCnt c

/-- The complex version as it is in the source. (`/repo/src/mVMC/locgrn.c:192-424`) -/
noncomputable def greenFuncNComplex (g : GrnEnv) := greenFuncN g (calculateNewPfMNComplex (K := ℂ))

/-- The version with the Pfaffian routine called as in `locgrn_real.c`.
(`/repo/src/mVMC/locgrn_real.c:184-408`) -/
noncomputable def greenFuncNReal (g : GrnEnv) (pfa : Nat → (Nat → ℂ) → ℂ) :=
  greenFuncN g (fun n msa idx q => some (calculateNewPfMN g.p pfa g.slt n msa idx g.st q))

end MVMC
