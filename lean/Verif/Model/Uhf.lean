import Verif.Model.CalHam

/-!
# Model of the unrestricted Hartree–Fock program

`/repo/src/ComplexUHF/makeham.c`, `diag.c`, `green.c`, `cal_energy.c`, the iteration of `UHFmain.c`, and `ZHEEVall` and
`cmp_MMProd` of `matrixlapack.c`.

The definition files are those of the variational program, so the tables are the same `HamPar`. Numbers are exact. `fock` is
`X->Def.iFlg_Fock`, which the shipped build sets (`/repo/src/ComplexUHF/include/Def.h:31`, `readdef.c:152-156`). LAPACK's `zheev_`
is a parameter; the failure branch of `ZHEEVall` (`matrixlapack.c:265-271`), after which `diag` goes on with zeroed arrays, is
left out. Random initial Green functions (`initial.c`) are an arbitrary start.
-/
namespace MVMC

/-- a matrix `Ham[i][j]` or `G[i][j]` (`/repo/src/ComplexUHF/include/struct.h`) -/
abbrev Mat2 := Nat → Nat → ℂ

/-- `Ham[i][j] += v` (`/repo/src/ComplexUHF/makeham.c:52-225`) -/
noncomputable def addAt2 (h : Mat2) (i j : Nat) (v : ℂ) : Mat2 := fun a b => if a = i ∧ b = j then h a b + v else h a b

/-- One line of the transfer file. (`/repo/src/ComplexUHF/makeham.c:45-56`) -/
noncomputable def mkTransfer (N : Nat) (H : HamPar) (h : Mat2) (i : Nat) : Mat2 :=
  let tmp := -H.pTR i
  let t1 := H.tr i 0 + H.tr i 1 * N
  let t2 := H.tr i 2 + H.tr i 3 * N
  addAt2 h t1 t2 tmp

/-- One line of the on-site interaction file. (`/repo/src/ComplexUHF/makeham.c:58-72`) -/
noncomputable def mkIntra (N : Nat) (H : HamPar) (fock : Bool) (G h : Mat2) (i : Nat) : Mat2 :=
  let tmp : ℂ := H.pCI i
  let u := H.ci i + 0 * N
  let d := H.ci i + 1 * N
  let h := addAt2 h u u (tmp * G d d)
  let h := addAt2 h d d (tmp * G u u)
  if fock then
    let h := addAt2 h u d (-1 * tmp * G d u)
    addAt2 h d u (-1 * tmp * G u d)
  else h

/-- One line of the inter-site interaction file; `charge` is a `double`. (`/repo/src/ComplexUHF/makeham.c:74-106`) -/
noncomputable def mkInter (N : Nat) (H : HamPar) (fock : Bool) (G h : Mat2) (i : Nat) : Mat2 :=
  let tmp : ℂ := H.pCO i
  let u1 := H.co i 0 + 0 * N
  let d1 := H.co i 0 + 1 * N
  let u2 := H.co i 1 + 0 * N
  let d2 := H.co i 1 + 1 * N
  let charge : ℝ := (G u2 u2 + G d2 d2).re
  let h := addAt2 h u1 u1 (tmp * charge)
  let h := addAt2 h d1 d1 (tmp * charge)
  let charge' : ℝ := (G u1 u1 + G d1 d1).re
  let h := addAt2 h u2 u2 (tmp * charge')
  let h := addAt2 h d2 d2 (tmp * charge')
  if fock then
    let h := addAt2 h u1 u2 (-tmp * G u2 u1)
    let h := addAt2 h u2 u1 (-tmp * G u1 u2)
    let h := addAt2 h d1 d2 (-tmp * G d2 d1)
    let h := addAt2 h d2 d1 (-tmp * G d1 d2)
    let h := addAt2 h u1 d2 (-tmp * G d2 u1)
    let h := addAt2 h d2 u1 (-tmp * G u1 d2)
    let h := addAt2 h u2 d1 (-tmp * G d1 u2)
    addAt2 h d1 u2 (-tmp * G u2 d1)
  else h

/-- One line of the Hund coupling file. (`/repo/src/ComplexUHF/makeham.c:108-133`) -/
noncomputable def mkHund (N : Nat) (H : HamPar) (fock : Bool) (G h : Mat2) (i : Nat) : Mat2 :=
  let tmp : ℂ := -(H.pHU i : ℂ)
  let u1 := H.hu i 0 + 0 * N
  let d1 := H.hu i 0 + 1 * N
  let u2 := H.hu i 1 + 0 * N
  let d2 := H.hu i 1 + 1 * N
  let h := addAt2 h u1 u1 (tmp * G u2 u2)
  let h := addAt2 h d1 d1 (tmp * G d2 d2)
  let h := addAt2 h u2 u2 (tmp * G u1 u1)
  let h := addAt2 h d2 d2 (tmp * G d1 d1)
  if fock then
    let h := addAt2 h u1 u2 (-tmp * G u2 u1)
    let h := addAt2 h u2 u1 (-tmp * G u1 u2)
    let h := addAt2 h d1 d2 (-tmp * G d2 d1)
    addAt2 h d2 d1 (-tmp * G d1 d2)
  else h

/-- One line of the exchange file. (`/repo/src/ComplexUHF/makeham.c:136-161`) -/
noncomputable def mkExchange (N : Nat) (H : HamPar) (G h : Mat2) (i : Nat) : Mat2 :=
  let tmp : ℂ := H.pEX i
  let u1 := H.ex i 0 + 0 * N
  let d1 := H.ex i 0 + 1 * N
  let u2 := H.ex i 1 + 0 * N
  let d2 := H.ex i 1 + 1 * N
  let h := addAt2 h u1 u2 (tmp * G d2 d1)
  let h := addAt2 h d2 d1 (tmp * G u1 u2)
  let h := addAt2 h d1 d2 (tmp * G u2 u1)
  let h := addAt2 h u2 u1 (tmp * G d1 d2)
  let h := addAt2 h u1 d1 (-tmp * G d2 u2)
  let h := addAt2 h u2 d2 (-tmp * G d1 u1)
  let h := addAt2 h d1 u1 (-tmp * G u2 d2)
  addAt2 h d2 u2 (-tmp * G u1 d1)

/-- One line of the pair-hopping file. (`/repo/src/ComplexUHF/makeham.c:162-180`) -/
noncomputable def mkPairHop (N : Nat) (H : HamPar) (G h : Mat2) (i : Nat) : Mat2 :=
  let tmp : ℂ := H.pPH i
  let u1 := H.ph i 0 + 0 * N
  let d1 := H.ph i 0 + 1 * N
  let u2 := H.ph i 1 + 0 * N
  let d2 := H.ph i 1 + 1 * N
  let h := addAt2 h u1 u2 (tmp * G d1 d2)
  let h := addAt2 h d1 d2 (tmp * G u1 u2)
  let h := addAt2 h u1 d2 (-tmp * G d1 u2)
  addAt2 h d1 u2 (-tmp * G u1 d2)

/-- One line of the general interaction file. (`/repo/src/ComplexUHF/makeham.c:182-224`) -/
noncomputable def mkInterAll (N : Nat) (H : HamPar) (G h : Mat2) (i : Nat) : Mat2 :=
  let tmp := H.pIA i
  let s1 := H.ia i 0 + H.ia i 1 * N
  let s2 := H.ia i 2 + H.ia i 3 * N
  let s3 := H.ia i 4 + H.ia i 5 * N
  let s4 := H.ia i 6 + H.ia i 7 * N
  if s1 = s2 ∧ s3 = s4 ∧ s1 = s3 then addAt2 h s1 s1 tmp
  else
    let h := addAt2 h s1 s2 (tmp * G s3 s4)
    let h := addAt2 h s3 s4 (tmp * G s1 s2)
    let h := addAt2 h s1 s4 (-tmp * G s3 s2)
    let h := addAt2 h s3 s2 (-tmp * G s1 s4)
    if s2 = s3 then addAt2 h s1 s4 tmp else h

/-- `makeham`. (`/repo/src/ComplexUHF/makeham.c:24-235`) -/
noncomputable def makeham (N : Nat) (H : HamPar) (fock : Bool) (G : Mat2) : Mat2 :=
  let h : Mat2 := fun _ _ => 0
  let h := (List.range H.nTR).foldl (mkTransfer N H) h
  let h := (List.range H.nCI).foldl (mkIntra N H fock G) h
  let h := (List.range H.nCO).foldl (mkInter N H fock G) h
  let h := (List.range H.nHU).foldl (mkHund N H fock G) h
  if fock then
    let h := (List.range H.nEX).foldl (mkExchange N H G) h
    let h := (List.range H.nPH).foldl (mkPairHop N H G) h
    (List.range H.nIA).foldl (mkInterAll N H G) h
  else h

/-! ### diagonalisation and density matrix -/

/-- `ZHEEVall`: the matrix is stored column by column, and the columns returned by `zheev_` become rows of `vec`.
(`/repo/src/ComplexUHF/matrixlapack.c:235-292`) -/
def zheevAll (zheev : Nat → (Nat → ℂ) → (Nat → ℝ) × (Nat → ℂ)) (n : Nat) (A : Mat2) : (Nat → ℝ) × Mat2 :=
  let a : Nat → ℂ := fun k => A (k % n) (k / n)
  let r := zheev n a
  (r.1, fun i j => r.2 (i * n + j))

/-- `diag`: eigenvalues, `R_SLT`, `L_SLT`. (`/repo/src/ComplexUHF/diag.c:26-83`) -/
noncomputable def diag (zheev : Nat → (Nat → ℂ) → (Nat → ℝ) × (Nat → ℂ)) (N : Nat) (ham : Mat2) : (Nat → ℝ) × Mat2 × Mat2 :=
  let r := zheevAll zheev (2 * N) ham
  (r.1, (fun l k => (starRingEnd ℂ) (r.2 k l)), fun k l => r.2 k l)

/-- `green`: `G = R_SLT · L_SLT` through `cmp_MMProd` (`zgemm_` computes the product of two column-ordered matrices).
(`/repo/src/ComplexUHF/green.c:26-53`, `matrixlapack.c:75-131`) -/
noncomputable def green (nsize : Nat) (R L : Mat2) : Mat2 := fun i j => sumLoop nsize (fun k => R i k * L k j)

/-! ### energy -/

/-- `E += z` for a `double E` and a complex `z` keeps the real part. (`/repo/src/ComplexUHF/cal_energy.c:60-177`) -/
noncomputable def accRe (E : ℝ) (z : ℂ) : ℝ := ((E : ℂ) + z).re

/-- (`/repo/src/ComplexUHF/cal_energy.c:50-65`) -/
noncomputable def enIntra (N : Nat) (H : HamPar) (fock : Bool) (G : Mat2) (E : ℝ) (i : Nat) : ℝ :=
  let tmp : ℂ := H.pCI i
  let u := H.ci i + 0 * N
  let d := H.ci i + 1 * N
  let E := accRe E (-1 * tmp * G u u * G d d)
  if fock then accRe E (1 * tmp * G u d * G d u) else E

/-- (`/repo/src/ComplexUHF/cal_energy.c:67-94`) -/
noncomputable def enInter (N : Nat) (H : HamPar) (fock : Bool) (G : Mat2) (E : ℝ) (i : Nat) : ℝ :=
  let tmp := H.pCO i
  let u1 := H.co i 0 + 0 * N
  let d1 := H.co i 0 + 1 * N
  let u2 := H.co i 1 + 0 * N
  let d2 := H.co i 1 + 1 * N
  let charge1 : ℝ := (G u1 u1 + G d1 d1).re
  let charge2 : ℝ := (G u2 u2 + G d2 d2).re
  let E := E + -1 * tmp * charge1 * charge2
  if fock then
    let E := accRe E (1 * tmp * G u1 u2 * G u2 u1)
    let E := accRe E (1 * tmp * G d1 d2 * G d2 d1)
    let E := accRe E (1 * tmp * G u1 d2 * G d2 u1)
    accRe E (1 * tmp * G d1 u2 * G u2 d1)
  else E

/-- (`/repo/src/ComplexUHF/cal_energy.c:96-117`) -/
noncomputable def enHund (N : Nat) (H : HamPar) (fock : Bool) (G : Mat2) (E : ℝ) (i : Nat) : ℝ :=
  let tmp : ℂ := -(H.pHU i : ℂ)
  let u1 := H.hu i 0 + 0 * N
  let d1 := H.hu i 0 + 1 * N
  let u2 := H.hu i 1 + 0 * N
  let d2 := H.hu i 1 + 1 * N
  let E := accRe E (-1 * tmp * G u1 u1 * G u2 u2)
  let E := accRe E (-1 * tmp * G d1 d1 * G d2 d2)
  if fock then
    let E := accRe E (1 * tmp * G u1 u2 * G u2 u1)
    accRe E (1 * tmp * G d1 d2 * G d2 d1)
  else E

/-- (`/repo/src/ComplexUHF/cal_energy.c:119-140`) -/
noncomputable def enExchange (N : Nat) (H : HamPar) (G : Mat2) (E : ℝ) (i : Nat) : ℝ :=
  let tmp : ℂ := H.pEX i
  let u1 := H.ex i 0 + 0 * N
  let d1 := H.ex i 0 + 1 * N
  let u2 := H.ex i 1 + 0 * N
  let d2 := H.ex i 1 + 1 * N
  let E := accRe E (-1 * tmp * G u1 u2 * G d2 d1)
  let E := accRe E (-1 * tmp * G d1 d2 * G u2 u1)
  let E := accRe E (1 * tmp * G u1 d1 * G d2 u2)
  accRe E (1 * tmp * G d1 u1 * G u2 d2)

/-- (`/repo/src/ComplexUHF/cal_energy.c:142-157`) -/
noncomputable def enPairHop (N : Nat) (H : HamPar) (G : Mat2) (E : ℝ) (i : Nat) : ℝ :=
  let tmp : ℂ := H.pPH i
  let u1 := H.ph i 0 + 0 * N
  let d1 := H.ph i 0 + 1 * N
  let u2 := H.ph i 1 + 0 * N
  let d2 := H.ph i 1 + 1 * N
  let E := accRe E (-1 * tmp * G u1 u2 * G d1 d2)
  accRe E (1 * tmp * G u1 d2 * G d1 u2)

/-- (`/repo/src/ComplexUHF/cal_energy.c:159-179`) -/
noncomputable def enInterAll (N : Nat) (H : HamPar) (G : Mat2) (E : ℝ) (i : Nat) : ℝ :=
  let ctmp := H.pIA i
  let s1 := H.ia i 0 + H.ia i 1 * N
  let s2 := H.ia i 2 + H.ia i 3 * N
  let s3 := H.ia i 4 + H.ia i 5 * N
  let s4 := H.ia i 6 + H.ia i 7 * N
  let E := accRe E (-(ctmp * G s1 s2 * G s3 s4))
  accRe E (ctmp * G s1 s4 * G s3 s2)

/-- Total energy; without Fock terms `E_PairHopping` and `E_InterAll` are read uninitialised (`jPH`, `jIA`).
(`/repo/src/ComplexUHF/cal_energy.c:46-182`) -/
noncomputable def calEnergy (N nsize : Nat) (H : HamPar) (fock : Bool) (jPH jIA : ℝ) (eig : Nat → ℝ) (G : Mat2) : ℝ :=
  let eBand := sumLoop nsize eig
  let eIntra := (List.range H.nCI).foldl (enIntra N H fock G) 0
  let eInter := (List.range H.nCO).foldl (enInter N H fock G) 0
  let eHund := (List.range H.nHU).foldl (enHund N H fock G) 0
  let eEx := if fock then (List.range H.nEX).foldl (enExchange N H G) 0 else 0
  let ePH := if fock then (List.range H.nPH).foldl (enPairHop N H G) 0 else jPH
  let eIA := if fock then (List.range H.nIA).foldl (enInterAll N H G) 0 else jIA
  let energy := eBand + eIntra + eInter + eHund
  energy + (eEx + ePH + eIA)

/-- `num += creal(G[i][i])` (`/repo/src/ComplexUHF/cal_energy.c:184-194`) -/
noncomputable def uhfNum (N : Nat) (G : Mat2) : ℝ := sumLoop (2 * N) (fun i => (G i i).re)

/-- `rest`, from the Green functions before the mixing. (`/repo/src/ComplexUHF/cal_energy.c:184-195`) -/
noncomputable def uhfRest (N : Nat) (Gold G : Mat2) : ℝ :=
  Real.sqrt ((List.range (2 * N)).foldl (fun s i => (List.range (2 * N)).foldl (fun s j =>
    s + (Real.sqrt (Complex.normSq (Gold i j - G i j))) * (Real.sqrt (Complex.normSq (Gold i j - G i j)))) s) 0) / (2 * N * N)

/-- `G = G_old*(1-mix) + mix*G` (`/repo/src/ComplexUHF/cal_energy.c:191`) -/
noncomputable def uhfMix (mix : ℝ) (Gold G : Mat2) : Mat2 := fun i j => Gold i j * (1 - mix) + mix * G i j

/-- what one iteration leaves behind (`/repo/src/ComplexUHF/include/struct.h`, `UHFmain.c:113-118`) -/
structure UhfSt where
  /-- `Large.G` after the mixing -/
  G : Mat2
  ham : Mat2
  /-- `EigenValues` -/
  eig : Nat → ℝ
  R : Mat2
  L : Mat2
  energy : ℝ
  num : ℝ
  rest : ℝ

/-- One iteration. (`/repo/src/ComplexUHF/UHFmain.c:113-118`) -/
noncomputable def uhfStep (zheev : Nat → (Nat → ℂ) → (Nat → ℝ) × (Nat → ℂ)) (N nsize : Nat) (H : HamPar) (fock : Bool)
    (jPH jIA mix : ℝ) (s : UhfSt) : UhfSt :=
  let ham := makeham N H fock s.G
  let r := diag zheev N ham
  let G := green nsize r.2.1 r.2.2
  { G := uhfMix mix s.G G, ham := ham, eig := r.1, R := r.2.1, L := r.2.2,
    energy := calEnergy N nsize H fock jPH jIA r.1 G, num := uhfNum N G, rest := uhfRest N s.G G }

/-- The iterations; the flag tells whether the loop was left by `break`. (`/repo/src/ComplexUHF/UHFmain.c:113-137`) -/
noncomputable def uhfLoop (zheev : Nat → (Nat → ℂ) → (Nat → ℝ) × (Nat → ℂ)) (N nsize : Nat) (H : HamPar) (fock : Bool)
    (jPH jIA mix eps : ℝ) : Nat → UhfSt → UhfSt × Bool
  | 0, s => (s, false)
  | k + 1, s =>
    let s' := uhfStep zheev N nsize H fock jPH jIA mix s
    if s'.rest < eps then (s', true) else uhfLoop zheev N nsize H fock jPH jIA mix eps k s'

end MVMC
