import Verif.Props.GreenR2k
import Verif.Props.GreenMean

/-! # C84: from the samples to the correlation functions -/
namespace MVMC
open Spec Matrix

/-- the expectation value in a state as a linear functional -/
noncomputable def expectL {ι : Type} [Fintype ι] (ψ : ι → ℂ) : Matrix ι ι ℂ →ₗ[ℂ] ℂ where
  toFun A := Spec.expect ψ A
  map_add' A B := by rw [Spec.expect, Spec.expect, Spec.expect, Spec.ev, Matrix.add_mulVec, dotProduct_add, add_div]; rfl
  map_smul' c A := by rw [Spec.expect, Spec.ev, Matrix.smul_mulVec, dotProduct_smul, smul_eq_mul, mul_div_assoc]; rfl

theorem expectL_one {ι : Type} [Fintype ι] [DecidableEq ι] (ψ : ι → ℂ) (h : norm2 ψ ≠ 0) : expectL ψ 1 = 1 := by
  change Spec.expect ψ 1 = 1
  have e : Spec.ev ψ 1 = (norm2 ψ : ℂ) := by
    rw [Spec.ev, Matrix.one_mulVec, norm2, dotProduct, Complex.ofReal_sum]
    refine Finset.sum_congr rfl fun x _ => ?_
    rw [Pi.star_apply, Complex.normSq_eq_conj_mul_self]
    rfl
  rw [Spec.expect, e, div_self (by exact_mod_cast h)]

/-- the lines of the index files -/
def grnLine1 (T : GrnTab) (i : ℕ) : List ℕ := [T.t1 i 0, T.t1 i 1, T.t1 i 2, T.t1 i 3]

def grnLineDC (T : GrnTab) (i : ℕ) : List ℕ := [T.tDC i 0, T.tDC i 1, T.tDC i 2, T.tDC i 3, T.tDC i 4, T.tDC i 5, T.tDC i 6, T.tDC i 7]

theorem lineOps_grn1 (N : ℕ) (T : GrnTab) (i : ℕ) : lineOps N (grnLine1 T i) = grnOp1 N T i := by
  simp [lineOps, grnLine1, grnOp1, mul_comm]

theorem lineOps_grnDC (N : ℕ) (T : GrnTab) (i : ℕ) : lineOps N (grnLineDC T i) = grnOpDC N T i := by
  simp [lineOps, grnLineDC, grnOpDC, mul_comm]

/-- the values that the tool reads, if they are expectation values of the operators of the lines -/
theorem r2k_lines_one {N : ℕ} (T : GrnTab) (E : Matrix (Conf (2 * N)) (Conf (2 * N)) ℂ →ₗ[ℂ] ℂ) (f : ℕ → ℂ) (h : ∀ i < T.n1, f i = E (prodMat (2 * N) (grnOp1 N T i))) :
    (List.range T.n1).map f = ((List.range T.n1).map (grnLine1 T)).map fun l => E (prodMat (2 * N) (lineOps N l)) := by
  rw [List.map_map]
  refine List.map_congr_left fun i hi => ?_
  rw [h i (List.mem_range.mp hi), Function.comp, lineOps_grn1]

theorem r2k_lines_two {N : ℕ} (T : GrnTab) (E : Matrix (Conf (2 * N)) (Conf (2 * N)) ℂ →ₗ[ℂ] ℂ) (f : ℕ → ℂ) (h : ∀ i < T.nDC, f i = E (prodMat (2 * N) (grnOpDC N T i))) :
    (List.range T.nDC).map f = ((List.range T.nDC).map (grnLineDC T)).map fun l => E (prodMat (2 * N) (lineOps N l)) := by
  rw [List.map_map]
  refine List.map_congr_left fun i hi => ?_
  rw [h i (List.mem_range.mp hi), Function.comp, lineOps_grnDC]

section run
variable (g : GrnEnv) (hg : GrnOK g) (T : GrnTab) (hT : GrnIdx g.p.Nsite T) (locSpn : Nat → Int) (hl : GrnLocal g.p.Nsite locSpn T) {G : R2kGeo}
  (hG : R2kGood g.p.Nsite 0 G.rindx G.orb G.zero) (hF : R2kFiles g.p.Nsite 0 G.rindx true ((List.range T.n1).map (grnLine1 T)) ((List.range T.nDC).map (grnLineDC T)))
  {a b b0 : ℕ} (ha : a < g.p.Nsite) (hb : b < g.p.Nsite) (hb0 : b0 < g.p.Nsite) (ha0 : G.rindx a = 0) (hb00 : G.rindx b0 = 0) (ho : G.orb b0 = G.orb b) {k : ℕ} (hk : 1 ≤ k ∧ k ≤ 6)
include hg hT hl hG hF ha hb hb0 ha0 hb00 ho hk

/-- C84 with C73, fixed Sz: from the averages of the local values over the configurations of the sampler with weight `|ψ|²` the tool makes the correlation functions of the manual in
the state that the sampler samples. -/
theorem C84_measured_partial (hs : GrnSz T) (hψ : norm2 (trialSz g locSpn) ≠ 0)
    (ht : Spec.expect (trialSz g locSpn) (opRho g.p.Nsite b) = Spec.expect (trialSz g locSpn) (opRho g.p.Nsite b0)) :
    r2kCor (r2kTable G true ((List.range T.n1).map (grnLine1 T)) ((List.range T.nDC).map (grnLineDC T))) true
      ((List.range T.n1).map fun i => psiMean (psi g) (szSector g locSpn) (matrixElement (psi g) (grnOp1 g.p.Nsite T i)))
      ((List.range T.nDC).map fun i => psiMean (psi g) (szSector g locSpn) (matrixElement (psi g) (grnOpDC g.p.Nsite T i))) 0 (G.rindx b) k (G.orb a) (G.orb b) =
      docCor g.p.Nsite (expectL (trialSz g locSpn)) a b k := by
  obtain ⟨h1, h2⟩ := C73_green g hg T hT locSpn hl hs
  rw [r2k_lines_one T (expectL (trialSz g locSpn)) _ h1, r2k_lines_two T (expectL (trialSz g locSpn)) _ h2]
  exact C84_values_partial _ (expectL_one _ hψ) hG hF (fun _ => rfl) ha hb hb0 ha0 hb00 ho ht hk

/-- the same for general Sz -/
theorem C84_measured_fsz_partial (hψ : norm2 (trialFsz g locSpn) ≠ 0)
    (ht : Spec.expect (trialFsz g locSpn) (opRho g.p.Nsite b) = Spec.expect (trialFsz g locSpn) (opRho g.p.Nsite b0)) :
    r2kCor (r2kTable G true ((List.range T.n1).map (grnLine1 T)) ((List.range T.nDC).map (grnLineDC T))) true
      ((List.range T.n1).map fun i => psiMean (psi g) (fszSector g locSpn) (matrixElement (psi g) (grnOp1 g.p.Nsite T i)))
      ((List.range T.nDC).map fun i => psiMean (psi g) (fszSector g locSpn) (matrixElement (psi g) (grnOpDC g.p.Nsite T i))) 0 (G.rindx b) k (G.orb a) (G.orb b) =
      docCor g.p.Nsite (expectL (trialFsz g locSpn)) a b k := by
  obtain ⟨h1, h2⟩ := C73_green_fsz g hg T hT locSpn hl
  rw [r2k_lines_one T (expectL (trialFsz g locSpn)) _ h1, r2k_lines_two T (expectL (trialFsz g locSpn)) _ h2]
  exact C84_values_partial _ (expectL_one _ hψ) hG hF (fun _ => rfl) ha hb hb0 ha0 hb00 ho ht hk

end run

end MVMC
