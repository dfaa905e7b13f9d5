import Verif.Model.PfUpdate

/-!
# Pfaffian and inverse from the factorisation

Transcription of `utu2pfa` and `utu2inv` (`/repo/src/ltl2inv/pfaffian.tcc`, `invert.tcc`, `trmmt.tcc`), the upper-triangular versions that mVMC
calls. Arrays are functions of the offset. `T` is a field: rounding is not modelled. `trtri`, `trmm`, `lacpy`, `swap` are LAPACK/BLAS
routines; `trtri` is a parameter, the other three are written out. The routines that read `ltl2inv` (lower) are not modelled.
-/
namespace MVMC
variable {K : Type} [Field K]

/-- `A(i,j)` of `colmaj` (`/repo/src/common/colmaj.hh:18-21`). -/
def cmAt (a : Nat → K) (ld i j : Nat) : K := a (i + j * ld)

/-- `A(i,j) = v` (`/repo/src/common/colmaj.hh:18-21`). -/
def cmSet (a : Nat → K) (ld i j : Nat) (v : K) : Nat → K := setAt a (i + j * ld) v

/-- `utu2pfa` (`/repo/src/ltl2inv/pfaffian.tcc:26-39`); `iPiv` counts from 1. -/
def utu2pfa (n : Nat) (A : Nat → K) (ldA : Nat) (iPiv : Nat → Int) : K :=
  (List.range ((n + 1) / 2)).foldl (fun pfa k =>
    let i := 2 * k
    let pfa := pfa * cmAt A ldA i (i + 1)
    let pfa := if iPiv i - 1 ≠ (i : Int) then -pfa else pfa
    if iPiv (i + 1) - 1 ≠ ((i + 1 : Nat) : Int) then -pfa else pfa) 1

/-- `sktdsmx` (`/repo/src/ltl2inv/invert.tcc:11-28`): forward substitution into the odd rows, backward substitution into the even rows. -/
def sktdsmx (n : Nat) (vT B : Nat → K) (ldB : Nat) (C : Nat → K) (ldC : Nat) : Nat → K :=
  let C := (List.range n).foldl (fun C j => cmSet C ldC 1 j (cmAt B ldB 0 j / - vT 0)) C
  let C := (List.range ((n - 1) / 2)).foldl (fun C k =>
    let i := 2 * k + 2
    (List.range n).foldl (fun C j =>
      cmSet C ldC (i + 1) j ((cmAt B ldB i j - cmAt C ldC (i - 1) j * vT (i - 1)) / - vT i)) C) C
  let C := (List.range n).foldl (fun C j => cmSet C ldC (n - 2) j (cmAt B ldB (n - 1) j / vT (n - 2))) C
  (List.range ((n - 1) / 2)).foldl (fun C k =>
    let i := n - 3 - 2 * k
    (List.range n).foldl (fun C j =>
      cmSet C ldC (i - 1) j ((cmAt B ldB i j + cmAt C ldC (i + 1) j * vT i) / vT (i - 1))) C) C

/-- `for j, i: M(i, j) = T(!(i - j))` (`/repo/src/ltl2inv/invert.tcc:84-87`). -/
def setEye (n : Nat) (M : Nat → K) (ldM : Nat) : Nat → K :=
  (List.range n).foldl (fun M j => (List.range n).foldl (fun M i => cmSet M ldM i j (if i = j then 1 else 0)) M) M

/-- LAPACK `lacpy` for the upper triangle: copies `src(i,j)`, `i ≤ j`, of an `m × n` matrix to the matrix that starts at `dst + off`.
(called in `/repo/src/ltl2inv/invert.tcc:90`) -/
def lacpyU (m n : Nat) (src : Nat → K) (offS ldS : Nat) (dst : Nat → K) (offD ldD : Nat) : Nat → K :=
  (List.range n).foldl (fun D j => (List.range (min (j + 1) m)).foldl (fun D i => setAt D (offD + (i + j * ldD)) (src (offS + (i + j * ldS)))) D) dst

/-- BLAS `trmm` with `LEFT`, `UPPER`, `TRANSPOSE`, `UNIT_DIAG`, `alpha = 1`: `B := Aᵀ B` for the `m × n` matrix that starts at `B + off`; `A` unit upper.
(called in `/repo/src/ltl2inv/trmmt.tcc:21-22` and `/repo/src/ltl2inv/invert.tcc:112-113`) -/
def trmmLUTU (m n : Nat) (A : Nat → K) (ldA : Nat) (B : Nat → K) (off ldB : Nat) : Nat → K := fun x =>
  if off ≤ x ∧ (x - off) % ldB < m ∧ (x - off) / ldB < n then
    B x + sumLoop ((x - off) % ldB) (fun k => cmAt A ldA k ((x - off) % ldB) * B (off + (k + (x - off) / ldB * ldB)))
  else B x

/-- `trmmt` for `BLIS_UPPER` (`/repo/src/ltl2inv/trmmt.tcc:13-25`): panels of `npanel` columns. -/
def trmmtU (npanel n : Nat) (A : Nat → K) (ldA : Nat) (B : Nat → K) (ldB : Nat) : Nat → K :=
  (List.range ((n + npanel - 1) / npanel)).foldl (fun B k =>
    let j := k * npanel
    let nloc := min npanel (n - j)
    trmmLUTU (j + nloc) nloc A ldA B (j * ldB) ldB) B

/-- BLAS `swap` of `n` elements with strides. (called in `/repo/src/ltl2inv/invert.tcc:109,118`) -/
def swapLoop (n : Nat) (a : Nat → K) (x incx y incy : Nat) : Nat → K :=
  (List.range n).foldl (fun a i =>
    let t := a (x + i * incx)
    setAt (setAt a (x + i * incx) (a (y + i * incy))) (y + i * incy) t) a

/-- `utu2inv` (`/repo/src/ltl2inv/invert.tcc:75-120`). `npanel` is the answer of `ilaenv_lauum`, `vT0` and `M` the contents of the work arrays;
`trtri n ld a` is LAPACK `trtri(UPPER, UNIT_DIAG)` seen from the pointer it gets. -/
def utu2inv (trtri : Nat → Nat → (Nat → K) → (Nat → K)) (npanel : Int) (n : Nat) (A : Nat → K) (ldA : Nat) (iPiv : Nat → Int)
    (vT : Nat → K) (M : Nat → K) (ldM : Nat) : Nat → K :=
  let full : Prop := npanel ≤ 1 ∨ npanel ≥ n
  let M := setEye n M ldM
  let W := trtri (n - 1) ldA (fun k => A (ldA + k))
  let A := fun k => if k < ldA then A k else W (k - ldA)
  let M := lacpyU (n - 2) (n - 2) A (2 * ldA) ldA M ldM ldM
  let vT := (List.range (n - 1)).foldl (fun vT i => setAt vT i (- cmAt A ldA i (i + 1))) vT
  let A := sktdsmx n vT M ldM A ldA
  let A := if full then A else
    let A := trmmtU npanel.toNat n M ldM A ldA
    (List.range n).foldl (fun A j =>
      let A := cmSet A ldA j j 0
      (List.range (n - (j + 1))).foldl (fun A k => cmSet A ldA (j + 1 + k) j (- cmAt A ldA j (j + 1 + k))) A) A
  let A := (List.range n).foldl (fun A j =>
    if iPiv j - 1 ≠ (j : Int) then swapLoop n A (j * ldA) 1 ((iPiv j - 1).toNat * ldA) 1 else A) A
  let A := if full then trmmLUTU n n M ldM A 0 ldA else A
  (List.range n).foldl (fun A i =>
    if iPiv i - 1 ≠ (i : Int) then swapLoop n A i ldA (iPiv i - 1).toNat ldA else A) A

/-- `M_ZSKTRF`, `utu2pfa_z`, `utu2inv_z` in `calculateMAll_child_fcmp` (`/repo/src/mVMC/matrix.c:371-380`). `sktrf n A` is the factorised array and
the pivots, `none` for `info != 0`. For odd `n` `utu2pfa` would read past the matrix; that is modelled as a failure (`Nsize` is even). -/
def skLibOf (sktrf : Nat → (Nat → K) → Option ((Nat → K) × (Nat → Int))) (trtri : Nat → Nat → (Nat → K) → (Nat → K))
    (npanel : Nat → Int) (vT0 M0 : Nat → K) : SkLib K := fun n b =>
  if n % 2 = 1 then none else
  match sktrf n b with
  | none => none
  | some (A, iPiv) => some (utu2pfa n A n iPiv, utu2inv trtri (npanel n) n A n iPiv vT0 M0 n)

end MVMC
