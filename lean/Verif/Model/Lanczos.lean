import Verif.Model.Slater
import Mathlib.Data.Complex.Basic
import Mathlib.Analysis.Real.Sqrt

/-!
# The single Lanczos step

Models of the accumulators `calculateQQQQ`, `calculateQCAQ`, `calculateQCACAQ`,
`calculateQCACAQDC` (vmccal.c) and of `physcal_lanczos.c`.  The local quantities
`<psi|A|x>/<psi|x>` are inputs here; how the code obtains them is the subject of
the Green function models.  The parallel loops are given as lists of `+=` events;
the theorems hold for every order of the events.
-/

namespace MVMC
open Complex


/-- What one sample contributes: its weight, the local powers of the Hamiltonian,
the local one-body quantities `LSLCisAjs`, the local two-body quantities and the
value of `calHCACA` for each two-body entry. (`/repo/src/mVMC/vmccal.c:255-304`) -/
structure LSample where
  w : ℝ
  lslq : Nat → ℂ
  lslca : Nat → ℂ
  loc2 : Nat → ℂ
  hloc2 : Nat → ℂ

/-- `LSLocalQ`: the four local powers, given `h1 = <psi|H|x>/<psi|x>` and
`h2 = <psi|HH|x>/<psi|x>`. /repo/src/mVMC/lslocgrn.c:86-93. -/
def lslqEntry (h1 h2 : ℂ) : Nat → ℂ
  | 0 => 1
  | 1 => h1
  | 2 => h1
  | 3 => h2
  | _ => 0

/-- The `+=` of iteration `i` in `calculateQQQQ`. /repo/src/mVMC/vmccal.c:837-846. -/
def qqqqAdd (n : Nat) (x : LSample) (i : Nat) : Nat × ℂ :=
  let rj := i % n; let tmp := i / n
  let ri := tmp % n; let tmp := tmp / n
  let rp := tmp % n; let tmp := tmp / n
  let rq := tmp % n
  (i, x.w * (starRingEnd ℂ) (x.lslq (rq * n + ri)) * x.lslq (rp * n + rj))

/-- `calculateQQQQ`: the events of one call. /repo/src/mVMC/vmccal.c:830-849. -/
def qqqqAdds (n : Nat) (x : LSample) : List (Nat × ℂ) :=
  (List.range (n * n * n * n)).map (qqqqAdd n x)

/-- The `+=` of iteration `i` in `calculateQQQQ_real`. /repo/src/mVMC/vmccal.c:818-825. -/
def qqqqAddR (n : Nat) (w : ℝ) (lslq : Nat → ℝ) (i : Nat) : Nat × ℝ :=
  let rj := i % n; let tmp := i / n
  let ri := tmp % n; let tmp := tmp / n
  let rp := tmp % n; let tmp := tmp / n
  let rq := tmp % n
  (i, w * lslq (rq * n + ri) * lslq (rp * n + rj))

/-- `calculateQQQQ_real`. /repo/src/mVMC/vmccal.c:811-828. -/
def qqqqAddsR (n : Nat) (w : ℝ) (lslq : Nat → ℝ) : List (Nat × ℝ) :=
  (List.range (n * n * n * n)).map (qqqqAddR n w lslq)

/-- `calculateQCAQ`. /repo/src/mVMC/vmccal.c:851-868. -/
def qcaqAdds (n nCA : Nat) (x : LSample) : List (Nat × ℂ) :=
  (List.range (n * n * nCA)).map fun i =>
    let idx := i % nCA; let tmp := i / nCA
    let rp := tmp % n; let tmp := tmp / n
    let rq := tmp % n
    (i, x.w * (starRingEnd ℂ) (x.lslca (rq * nCA + idx)) * x.lslq (rp * n))

/-- `calculateQCACAQ`; `caca idx` is `CisAjsCktAltIdx[idx]`.
/repo/src/mVMC/vmccal.c:870-892. -/
def qcacaqAdds (n nCA nCACA : Nat) (caca : Nat → Nat × Nat) (x : LSample) : List (Nat × ℂ) :=
  (List.range (n * n * nCACA)).map fun i =>
    let idx := i % nCACA; let tmp := i / nCACA
    let rp := tmp % n; let tmp := tmp / n
    let rq := tmp % n
    let ri := (caca idx).1
    let rj := (caca idx).2
    (i, x.w * (starRingEnd ℂ) (x.lslca (rq * nCA + ri)) * x.lslca (rp * nCA + rj))

/-- `calculateQCACAQDC`. /repo/src/mVMC/vmccal.c:979-1009. -/
def qcacaqDCAdds (n nCACA : Nat) (x : LSample) : List (Nat × ℂ) :=
  (List.range (n * n * nCACA)).map fun i =>
    let idx := i % nCACA; let tmp := i / nCACA
    let rp := tmp % n; let tmp := tmp / n
    let rq := tmp % n
    if rq ≠ 0 then (i, x.w * x.lslq (rp * n) * x.hloc2 idx)
    else (i, x.w * x.lslq (rp * n) * x.loc2 idx)

/-- Sum over the samples followed by `vec[i] *= 1/Wc`.
/repo/src/mVMC/vmccal.c:265-300, /repo/src/mVMC/average.c:206-303. -/
noncomputable def lsAverage (smps : List (LSample × List (Nat × ℂ))) : Nat → ℂ := fun k =>
  (smps.foldl (fun a x => runAdds x.2 a) (fun _ => 0)) k *
    (1 / ((smps.foldl (fun a x => a + x.1.w) 0 : ℝ) : ℂ))

/-! ## physcal_lanczos.c -/

/-- Result of `CalculateEne` / `CalculateEneByAlpha`: return value 0 with the
numbers, return value -1, or a division by zero (the numbers are then infinite or
NaN). (`/repo/src/mVMC/physcal_lanczos.c:270-311`) -/
inductive LancOut (α : Type)
  | ok (a : α)
  | err
  | nan
  deriving DecidableEq

/-- `CalculateEneByAlpha`: energy and relative variance.  `none` for the variance
means a division by a zero energy. /repo/src/mVMC/physcal_lanczos.c:296-310. -/
noncomputable def calculateEneByAlpha (H1 H2_1 H2_2 H3 H4 alpha : ℝ) : LancOut (ℝ × Option ℝ) :=
  let tmp_ene := H1 + alpha * (H2_1 + H2_2) + alpha * alpha * H3
  let dnorm := 1 + 2 * alpha * H1 + alpha * alpha * H2_1
  let tmp_ene_V := H2_1 + 2 * alpha * H3 + alpha * alpha * H4
  if H1 ≠ 0 ∧ |dnorm / H1| < 10 ^ (-12 : ℤ) then .err
  else if dnorm = 0 then .nan
  else
    let ene := tmp_ene / dnorm
    .ok (ene, if ene = 0 then none else some ((tmp_ene_V / dnorm - ene ^ 2) / ene ^ 2))

/-- The results of `CalculateEne`. (`/repo/src/mVMC/physcal_lanczos.c:270-296`) -/
structure LancEne where
  alpha_p : ℝ
  ene_p : ℝ
  ene_vp : Option ℝ
  alpha_m : ℝ
  ene_m : ℝ
  ene_vm : Option ℝ

/-- `CalculateEne`. /repo/src/mVMC/physcal_lanczos.c:266-294. -/
noncomputable def calculateEne (H1 H2_1 H2_2 H3 H4 : ℝ) : LancOut LancEne :=
  let AA := H2_1 * (H2_1 + H2_2) - 2 * H1 * H3
  let BB := -H1 * H2_1 + H3
  let CC := H2_1 * (H2_1 + H2_2) ^ 2 - H1 ^ 2 * H2_1 * (H2_1 + 2 * H2_2) + 4 * H1 ^ 3 * H3
    - 2 * H1 * (2 * H2_1 + H2_2) * H3 + H3 * H3
  if CC < 0 then .err
  else if AA = 0 then .nan
  else
    let xp := (BB + Real.sqrt CC) / AA
    let xm := (BB - Real.sqrt CC) / AA
    match calculateEneByAlpha H1 H2_1 H2_2 H3 H4 xp with
    | .ok (ep, vp) =>
      match calculateEneByAlpha H1 H2_1 H2_2 H3 H4 xm with
      | .ok (em, vm) => .ok ⟨xp, ep, vp, xm, em, vm⟩
      | .err => .err
      | .nan => .nan
    | .err => .err
    | .nan => .nan

/-- "determine alpha": the root of lower energy.
/repo/src/mVMC/physcal_lanczos.c:66-75, 191-200. -/
noncomputable def chooseAlpha (r : LancEne) : ℝ × ℝ × Option ℝ :=
  if r.ene_p > r.ene_m then (r.alpha_m, r.ene_m, r.ene_vm) else (r.alpha_p, r.ene_p, r.ene_vp)

/-- What `PhysCalLanczos_fcmp` prints to `zvo_ls.dat`: nothing when `CalculateEne`
returns -1. /repo/src/mVMC/physcal_lanczos.c:182-204. -/
noncomputable def lanczosCmp (H1 H2_1 H2_2 H3 H4 : ℝ) : LancOut (ℝ × ℝ × Option ℝ) :=
  match calculateEne H1 H2_1 H2_2 H3 H4 with
  | .ok r => .ok (chooseAlpha r)
  | .err => .err
  | .nan => .nan

/-- What `PhysCalLanczos_real` prints: the return value of `CalculateEne` is
ignored, so after an error the printed values are whatever the uninitialised
variables hold (`junk`). /repo/src/mVMC/physcal_lanczos.c:61-79. -/
noncomputable def lanczosReal (junk : LancEne) (H1 H2_1 H2_2 H3 H4 : ℝ) :
    LancOut (ℝ × ℝ × Option ℝ) :=
  match calculateEne H1 H2_1 H2_2 H3 H4 with
  | .ok r => .ok (chooseAlpha r)
  | .err => .ok (chooseAlpha junk)
  | .nan => .nan

/-- `CalculatePhysVal_fcmp` for entry `i`; `none` for a zero norm.
/repo/src/mVMC/physcal_lanczos.c:336-358. -/
noncomputable def calculatePhysVal (H1 H2_1 alpha : ℂ) (Q : Nat → ℂ) (nPhys nLSHam i : Nat) : Option ℂ :=
  let A0 := Q i
  let A1_01 := Q (nPhys + i)
  let A1_10 := Q (nLSHam * nPhys + i)
  let A2_11 := Q (nLSHam * nPhys + nPhys + i)
  let dnorm : ℝ := (1 + 2 * alpha * H1 + alpha * alpha * H2_1).re
  if dnorm = 0 then none
  else some ((A0 + alpha * (A1_01 + A1_10) + alpha * alpha * A2_11) / (dnorm : ℂ))

end MVMC
