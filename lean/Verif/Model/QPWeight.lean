import Verif.Model.Slater
import Mathlib.Analysis.SpecialFunctions.Trigonometric.Basic

/-!
# Model of the quadrature of the spin projection

`/repo/src/mVMC/legendrepoly.c`, `/repo/src/mVMC/gauleg.c` and the spin part of `InitQPWeight` (`/repo/src/mVMC/qp.c:38-82`).

Exact numbers instead of `double`; the literal `3.14159265358979323846` and `M_PI` are `π`. A run of `GaussLeg` that divides by zero or does
not leave the `do`-loop within `fuel` rounds is `none`. The OpenMP loop is in program order: different `i` write different entries.
-/
namespace MVMC

/-- `LegendrePoly` (`/repo/src/mVMC/legendrepoly.c:32-47`). The state of the loop is `(P01, P02, P03)`. -/
noncomputable def legendrePoly (x : ℝ) (n : ℤ) : ℝ :=
  if n ≤ 0 then 1
  else if n = 1 then x
  else ((List.range' 2 (n.toNat - 1)).foldl (fun (p : ℝ × ℝ × ℝ) (i : Nat) =>
    let P03 := 1 / (1 * i) * ((2 * i - 1) * x * p.2.1 - (1 * i - 1) * p.1)
    (p.2.1, P03, P03)) (1, x, 0)).2.2

/-- `p1`, `p2` after the inner loop (`/repo/src/mVMC/gauleg.c:44-50`). -/
noncomputable def glPoly (n : Nat) (z : ℝ) : ℝ × ℝ :=
  (List.range' 1 n).foldl (fun (p : ℝ × ℝ) (j : Nat) => (((2 * j - 1) * z * p.1 - (j - 1) * p.2) / j, p.1)) (1, 0)

/-- `pp` (`/repo/src/mVMC/gauleg.c:51`). -/
noncomputable def glPp (n : Nat) (z : ℝ) : ℝ := n * (z * (glPoly n z).1 - (glPoly n z).2) / (z * z - 1)

/-- The `do`-loop: the last `z1`, and `z` (`/repo/src/mVMC/gauleg.c:43-54`). -/
noncomputable def glNewton (eps : ℝ) (n : Nat) : Nat → ℝ → Option (ℝ × ℝ)
  | 0, _ => none
  | k + 1, z1 =>
    if z1 * z1 - 1 = 0 ∨ glPp n z1 = 0 then none
    else
      let z := z1 - (glPoly n z1).1 / glPp n z1
      if |z - z1| > eps then glNewton eps n k z else some (z1, z)

/-- The starting value (`/repo/src/mVMC/gauleg.c:42`). -/
noncomputable def glStart (n i : Nat) : ℝ := Real.cos (Real.pi * (i + 0.75) / (n + 0.5))

/-- One value of `i`: the stores to `x` and `w` (`/repo/src/mVMC/gauleg.c:42-58`). -/
noncomputable def glBody (x1 x2 eps : ℝ) (fuel n i : Nat) (a : Option ((Nat → ℝ) × (Nat → ℝ))) : Option ((Nat → ℝ) × (Nat → ℝ)) :=
  a.bind fun a => (glNewton eps n fuel (glStart n i)).bind fun r =>
    let xm := 0.5 * (x2 + x1)
    let xl := 0.5 * (x2 - x1)
    let z := r.2
    let pp := glPp n r.1
    if (1 - z * z) * pp * pp = 0 then none
    else
      let x := storeAt a.1 (i, xm - xl * z)
      let x := storeAt x (n - i - 1, xm + xl * z)
      let w := storeAt a.2 (i, 2 * xl / ((1 - z * z) * pp * pp))
      let w := storeAt w (n - i - 1, w i)
      some (x, w)

/-- `GaussLeg` (`/repo/src/mVMC/gauleg.c:32-62`). -/
noncomputable def gaussLeg (x1 x2 eps : ℝ) (fuel n : Nat) (x w : Nat → ℝ) : Option ((Nat → ℝ) × (Nat → ℝ)) :=
  (List.range ((n + 1) / 2)).foldl (fun a i => glBody x1 x2 eps fuel n i a) (some (x, w))

/-- What `InitQPWeight` stores for the spin projection: `SPGLCos`, `SPGLSin`, `SPGLCosSin`, `SPGLCosCos`, `SPGLSinSin` and the factor `w` of
`QPFixWeight` (`/repo/src/mVMC/include/global.h:265-267`). -/
structure SpinQuad where
  co : Nat → ℝ
  si : Nat → ℝ
  cs : Nat → ℝ
  cc : Nat → ℝ
  ss : Nat → ℝ
  w : Nat → ℝ

/-- `InitQPWeight`, spin part (`/repo/src/mVMC/qp.c:47-77`); `beta`, `weight` are the previous contents of the work arrays.
For one point the factor of `QPFixWeight` is 1. -/
noncomputable def initSpin (eps : ℝ) (fuel nSP : Nat) (sTot : ℤ) (beta weight : Nat → ℝ) : Option SpinQuad :=
  if nSP = 1 then some ⟨fun _ => 1, fun _ => 0, fun _ => 0, fun _ => 1, fun _ => 0, fun _ => 1⟩
  else (gaussLeg 0 Real.pi eps fuel nSP beta weight).map fun q =>
    let co := fun i => Real.cos (0.5 * q.1 i)
    let si := fun i => Real.sin (0.5 * q.1 i)
    ⟨co, si, fun i => co i * si i, fun i => co i * co i, fun i => si i * si i,
      fun i => 0.5 * Real.sin (q.1 i) * q.2 i * legendrePoly (Real.cos (q.1 i)) sTot⟩

/-- The global data after `InitQPWeight` with `n` quadrature points (`/repo/src/mVMC/qp.c:38-82`). -/
noncomputable def ParGlob.withSpin (G : ParGlob) (n : Nat) (q : SpinQuad) (paraQP : Nat → ℂ) : ParGlob :=
  { G with
    Q := { G.Q with nSP := n }
    cs := fun i => (q.cs i : ℂ)
    cc := fun i => (q.cc i : ℂ)
    ss := fun i => (q.ss i : ℂ)
    fix := qpFixWeight { G.Q with nSP := n } (fun i => (q.w i : ℂ)) paraQP G.fix }

end MVMC
