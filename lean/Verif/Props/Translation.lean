import Verif.Proof.TransCorr
import Verif.Proof.TransObs

/-!
# C64: lattice symmetries of the trial wave function

`ParaQPTrans` is a one-dimensional representation of the group formed by `QPTrans`, `QPTransSgn`.  The wave function built by
`InitQPWeight`, `UpdateQPWeight` and `UpdateSlaterElm` is then an eigenvector of every symmetry operation in the table, and
expectation values do not change under it.
-/
namespace MVMC
open MVMC.Spec Finset

section state
variable (G : ParGlob) (Para wsp paraQP old : Nat → ℂ) (hN : G.p.Nsite = G.Q.Nsite) (hs : 0 < G.Q.nSP)
  (hO : G.flagOpt = false → G.Q.nOpt = 1) (hfix : G.fix = qpFixWeight G.Q wsp paraQP old) {mul : Nat → Nat → Nat}
  (hG : SymGroup G.Q.Nsite G.Q.nMP G.Q.trans G.Q.transSgn mul) (hC : OptCommute G.Q.Nsite G.Q.nMP G.Q.nOpt G.Q.trans G.Q.transSgn G.Q.opt G.Q.optSgn)
  (hχ : Character G.Q.nMP mul paraQP) {a : Nat} (ha : a < G.Q.nMP) (hq : G.q.Nsite = G.p.Nsite) (hP : ProjSym G.q (G.Q.trans a))
include hN hs hO hfix hG hC hχ ha hq hP

/-- The wave function is an eigenvector of the symmetry operation `a` with eigenvalue `ParaQPTrans[a]`. -/
theorem C64_state (hR : G.flagRBM = true → G.rbm.Nsite = G.p.Nsite ∧ RBMSym G.rbm (G.Q.trans a)) :
    SymState G.Q.Nsite (G.Q.trans a) (G.Q.transSgn a) (paraQP a) (psi (G.env Para)) := by
  intro l hl
  have hl' : OnLattice G.Q.Nsite (moved G.Q.Nsite (G.Q.trans a) l) := by
    intro x hx
    obtain ⟨y, hy, rfl⟩ := List.mem_map.mp hx
    exact (moveOrb_mod (hG.perm a ha) (hl y hy)).2.2
  have hm : 0 < G.Q.nMP := by omega
  rw [psi_sum G Para wsp paraQP old hN hs hm hO hfix hl', psi_sum G Para wsp paraQP old hN hs hm hO hfix hl]
  have hc : corrSpec (G.env Para) (occupation (moved G.Q.Nsite (G.Q.trans a) l)) = corrSpec (G.env Para) (occupation l) := by
    rw [← hN]
    refine corr_moved (g := G.env Para) hq (fun h => (hR h).1) (by show SitePerm G.p.Nsite _; rw [hN]; exact hG.perm a ha) hP ?_ (by
      show OnLattice G.p.Nsite l; rw [hN]; exact hl)
    intro h
    obtain ⟨_, c⟩ := hR h
    exact ⟨c.c, c.s, c.g, c.hc, c.hs, c.hg⟩
  rw [hc, mul_left_comm, mul_left_comm ((_ : Int) : ℂ)]
  congr 1
  rw [Finset.mul_sum, Finset.mul_sum]
  refine Finset.sum_congr rfl fun i _ => ?_
  rw [Finset.mul_sum, Finset.mul_sum]
  refine Finset.sum_congr rfl fun o ho => ?_
  exact group_sum (A := fun m => antisym (pairT G.Q G.cs G.cc G.ss (fun k => Para (G.oSlater + k)) i m o)) hG hχ ha (wsp i)
    (fun m hm x hx y hy => pairT_shift hG hC G.cs G.cc G.ss _ i (mem_range.mp ho) hm ha hx hy) hl (optCoef G Para o)

/-- The same in general-Sz mode. -/
theorem C64_state_fsz (hR : G.flagRBM = true → G.rbm.Nsite = G.p.Nsite ∧ RBMSym G.rbm (G.Q.trans a)) :
    SymState G.Q.Nsite (G.Q.trans a) (G.Q.transSgn a) (paraQP a) (psi (G.envF Para)) := by
  intro l hl
  have hl' : OnLattice G.Q.Nsite (moved G.Q.Nsite (G.Q.trans a) l) := by
    intro x hx
    obtain ⟨y, hy, rfl⟩ := List.mem_map.mp hx
    exact (moveOrb_mod (hG.perm a ha) (hl y hy)).2.2
  have hm : 0 < G.Q.nMP := by omega
  rw [psiF_sum G Para wsp paraQP old hN hs hm hO hfix hl', psiF_sum G Para wsp paraQP old hN hs hm hO hfix hl]
  have hc : corrSpec (G.envF Para) (occupation (moved G.Q.Nsite (G.Q.trans a) l)) = corrSpec (G.envF Para) (occupation l) := by
    rw [← hN]
    refine corr_moved (g := G.envF Para) hq (fun h => (hR h).1) (by show SitePerm G.p.Nsite _; rw [hN]; exact hG.perm a ha) hP ?_ (by
      show OnLattice G.p.Nsite l; rw [hN]; exact hl)
    intro h
    obtain ⟨_, c⟩ := hR h
    exact ⟨c.c, c.s, c.g, c.hc, c.hs, c.hg⟩
  rw [hc, mul_left_comm, mul_left_comm ((_ : Int) : ℂ)]
  congr 1
  rw [Finset.mul_sum, Finset.mul_sum]
  refine Finset.sum_congr rfl fun i _ => ?_
  rw [Finset.mul_sum, Finset.mul_sum]
  refine Finset.sum_congr rfl fun o ho => ?_
  exact group_sum (A := fun m => antisym (pairTF G.Q (fun k => Para (G.oSlater + k)) m o)) hG hχ ha (wsp i)
    (fun m hm x hx y hy => pairTF_shift hG hC _ (mem_range.mp ho) hm ha hx hy) hl (optCoef G Para o)

/-- Expectation values of products of creation and annihilation operators over all configurations of `n` electrons do not change when
the operators are moved. -/
theorem C64_expectation (hR : G.flagRBM = true → G.rbm.Nsite = G.p.Nsite ∧ RBMSym G.rbm (G.Q.trans a)) (n : Nat) {ops : List Op}
    (ho : OpsOn G.Q.Nsite ops) :
    average (2 * G.Q.Nsite) n (psi (G.env Para)) (matrixElement (psi (G.env Para)) (ops.map (moveOp G.Q.Nsite (G.Q.trans a)))) =
      (opsSgn G.Q.Nsite (G.Q.transSgn a) ops : ℂ) * average (2 * G.Q.Nsite) n (psi (G.env Para)) (matrixElement (psi (G.env Para)) ops) :=
  average_moved (hG.perm a ha) (hG.unit a ha) (hχ.ne a ha)
    (C64_state G Para wsp paraQP old hN hs hO hfix hG hC hχ ha hq hP hR) n ho

/-- The same in general-Sz mode. -/
theorem C64_expectation_fsz (hR : G.flagRBM = true → G.rbm.Nsite = G.p.Nsite ∧ RBMSym G.rbm (G.Q.trans a)) (n : Nat) {ops : List Op}
    (ho : OpsOn G.Q.Nsite ops) :
    average (2 * G.Q.Nsite) n (psi (G.envF Para)) (matrixElement (psi (G.envF Para)) (ops.map (moveOp G.Q.Nsite (G.Q.trans a)))) =
      (opsSgn G.Q.Nsite (G.Q.transSgn a) ops : ℂ) * average (2 * G.Q.Nsite) n (psi (G.envF Para)) (matrixElement (psi (G.envF Para)) ops) :=
  average_moved (hG.perm a ha) (hG.unit a ha) (hχ.ne a ha)
    (C64_state_fsz G Para wsp paraQP old hN hs hO hfix hG hC hχ ha hq hP hR) n ho

end state

/-- Without a file of additional operations the table is the identity, which commutes with everything. -/
theorem C64_no_opt {N nT : Nat} {T : Nat → Nat → Nat} {σ : Nat → Nat → Int} : OptCommute N nT 1 T σ (fun _ r => r) (fun _ _ => 1) :=
  ⟨fun _ _ _ hr => hr, fun _ _ _ _ _ _ => rfl, fun _ _ _ _ => ⟨1, Or.inl rfl, fun r _ => by ring⟩⟩

/-- The translations of a ring with `n` sites form a group, -/
theorem C64_ring (n : Nat) (hn : 0 < n) : SymGroup n n (fun a r => (r + a) % n) (fun _ _ => 1) (fun m a => (m + a) % n) where
  perm a ha := ⟨fun r _ => Nat.mod_lt _ hn, fun r hr s hs h => by
    have := Nat.ModEq.add_right_cancel' a (show r + a ≡ s + a [MOD n] from h)
    rwa [Nat.ModEq, Nat.mod_eq_of_lt hr, Nat.mod_eq_of_lt hs] at this⟩
  unit _ _ _ _ := Or.inl rfl
  mul_lt _ _ _ _ := Nat.mod_lt _ hn
  cancel m hm m' hm' a _ h := by
    have := Nat.ModEq.add_right_cancel' a (show m + a ≡ m' + a [MOD n] from h)
    rwa [Nat.ModEq, Nat.mod_eq_of_lt hm, Nat.mod_eq_of_lt hm'] at this
  comp m _ a _ r _ := by
    show (r + (m + a) % n) % n = ((r + a) % n + m) % n
    rw [Nat.add_mod_mod, Nat.mod_add_mod]; congr 1; ring
  comp_sgn _ _ _ _ := ⟨1, Or.inl rfl, fun _ _ => rfl⟩

/-- also with antiperiodic boundaries, where going around the ring is `-1`, -/
theorem C64_ring_antiperiodic (n : Nat) (hn : 0 < n) :
    SymGroup n n (fun a r => (r + a) % n) (fun a r => if r + a < n then 1 else -1) (fun m a => (m + a) % n) where
  perm := (C64_ring n hn).perm
  unit a _ r _ := by split_ifs <;> simp
  mul_lt := (C64_ring n hn).mul_lt
  cancel := (C64_ring n hn).cancel
  comp := (C64_ring n hn).comp
  comp_sgn m hm a ha := by
    refine ⟨if m + a < n then 1 else -1, by split_ifs <;> simp, fun r hr => ?_⟩
    have e1 : (m + a) % n = if m + a < n then m + a else m + a - n := by
      split_ifs with h
      · exact Nat.mod_eq_of_lt h
      · rw [Nat.mod_eq_sub_mod (by omega), Nat.mod_eq_of_lt (by omega)]
    have e2 : (r + a) % n = if r + a < n then r + a else r + a - n := by
      split_ifs with h
      · exact Nat.mod_eq_of_lt h
      · rw [Nat.mod_eq_sub_mod (by omega), Nat.mod_eq_of_lt (by omega)]
    rw [e1, e2]
    split_ifs <;> omega

/-- and the momenta are its representations. -/
theorem C64_momentum (n : Nat) (hn : 0 < n) {ζ : ℂ} (hζ : ζ ^ n = 1) : Character n (fun m a => (m + a) % n) (fun a => ζ ^ a) where
  ne a _ := pow_ne_zero _ fun h => by rw [h, zero_pow (by omega)] at hζ; exact zero_ne_one hζ
  map m _ a _ := by
    show ζ ^ ((m + a) % n) = ζ ^ m * ζ ^ a
    rw [← pow_add]
    conv_rhs => rw [← Nat.div_add_mod (m + a) n, pow_add, pow_mul, hζ, one_pow, one_mul]

/-! ## Two sites, one up and one down electron, `nT` translations in the sum -/

/-- all pair orbitals independent, `f_ij` has number `2i+j` and value `2i+j+1` -/
noncomputable def exTrans (nT : Nat) : ParGlob where
  p := ⟨1, 2⟩
  q := ⟨2, 0, 0, 0, 0, fun _ => 0, fun _ _ => 0, fun _ _ => 0, fun _ _ => 0⟩
  flagRBM := false
  rbm := ⟨2, 0, 0, 0, 0, 0, 0, 0, 0, 0, 0, 0, 0, 0, fun _ => 0, fun _ => 0, fun _ => 0, fun _ => 0, fun _ => 0, fun _ => 0, fun _ _ => 0,
    fun _ _ => 0, fun _ _ => 0, fun _ => 0⟩
  B := 1
  Q := ⟨2, 1, nT, 1, 4, fun a r => (r + a) % 2, fun _ _ => 1, fun _ r => r, fun _ _ => 1, fun i j => 2 * i + j, fun _ _ => 1⟩
  cs := fun _ => 0
  cc := fun _ => 1
  ss := fun _ => 0
  flagOpt := false
  fix := qpFixWeight ⟨2, 1, nT, 1, 4, fun a r => (r + a) % 2, fun _ _ => 1, fun _ r => r, fun _ _ => 1, fun i j => 2 * i + j, fun _ _ => 1⟩
    (fun _ => 1) (fun a => (-1) ^ a) (fun _ => 0)
  slt0 := fun _ => 0
  w0 := fun _ => 0
  st := ⟨fun _ => 0, fun _ => 0⟩

theorem exTrans_val {nT : Nat} (h : 0 < nT) {l : List Nat} (hl : OnLattice 2 l) : psi ((exTrans nT).env fun k => k + 1) l =
    ∑ m ∈ range nT, (-1) ^ m * pf (antisym (pairT (exTrans nT).Q (fun _ => 0) (fun _ => 1) (fun _ => 0) (fun k => k + 1) 0 m 0)) l := by
  rw [psi_sum (exTrans nT) (fun k => (k : ℂ) + 1) (fun _ => 1) (fun a => (-1) ^ a) (fun _ => 0) rfl Nat.one_pos h (fun _ => rfl) rfl hl]
  have hc : corrSpec ((exTrans nT).env fun k => k + 1) (occupation l) = 1 := by
    unfold corrSpec projSpec logCorr
    simp [ParGlob.env, ParGlob.envWith, exTrans]
  rw [hc, one_mul]
  show ∑ i ∈ range 1, ∑ o ∈ range 1, ∑ m ∈ range nT, _ = _
  rw [Finset.sum_range_one, Finset.sum_range_one]
  refine Finset.sum_congr rfl fun m _ => ?_
  have e : (fun k => (((exTrans nT).oSlater + k : Nat) : ℂ) + 1) = fun k : Nat => (k : ℂ) + 1 := funext fun k => by
    show (((0 + k : Nat) : ℂ)) + 1 = _
    rw [Nat.zero_add]
  rw [e, show optCoef (exTrans nT) (fun k => (k : ℂ) + 1) 0 = 1 from if_neg Bool.false_ne_true, one_mul, one_mul]
  rfl

theorem exTrans_pf (nT m : Nat) {x y : Nat} (hx : x < 2) (hy : 2 ≤ y) (hy' : y < 4) :
    pf (antisym (pairT (exTrans nT).Q (fun _ => 0) (fun _ => 1) (fun _ => 0) (fun k => k + 1) 0 m 0)) [x, y] =
      ((2 * ((x + m) % 2) + (y % 2 + m) % 2 : Nat) : ℂ) + 1 := by
  have h1 : x / 2 = 0 := by omega
  have h2 : y / 2 = 1 := by omega
  have h3 : x % 2 = x := by omega
  simp [pf_cons, altSum, pf_nil, antisym, pairT, translated, spinCoef, exTrans, QPPar.tr, QPPar.sg, h1, h2, h3]

/-- The state with both translations and momentum `π` is antisymmetric under the translation: `[0,3]` is moved to `[1,2]`. -/
example : psi ((exTrans 2).env fun k => k + 1) [0, 3] = -1 ∧ psi ((exTrans 2).env fun k => k + 1) [1, 2] = 1 ∧
    moved 2 (fun r => (r + 1) % 2) [0, 3] = [1, 2] := by
  have h1 : OnLattice 2 [0, 3] := by intro x hx; simp at hx; omega
  have h2 : OnLattice 2 [1, 2] := by intro x hx; simp at hx; omega
  rw [exTrans_val (by omega) h1, exTrans_val (by omega) h2]
  simp only [Finset.sum_range_succ, Finset.sum_range_zero]
  rw [exTrans_pf _ _ (by omega) (by omega) (by omega), exTrans_pf _ _ (by omega) (by omega) (by omega),
    exTrans_pf _ _ (by omega) (by omega) (by omega), exTrans_pf _ _ (by omega) (by omega) (by omega)]
  refine ⟨by norm_num, by norm_num, rfl⟩

/-- the hypotheses of the theorem hold for it -/
example : SymState 2 (fun r => (r + 1) % 2) (fun _ => 1) (-1) (psi ((exTrans 2).env fun k => k + 1)) := by
  have h := C64_state (exTrans 2) (fun k => (k : ℂ) + 1) (fun _ => 1) (fun a => (-1) ^ a) (fun _ => 0) rfl Nat.one_pos (fun _ => rfl) rfl
    (mul := fun m a => (m + a) % 2) (C64_ring 2 (by omega)) C64_no_opt (C64_momentum 2 (by omega) (by norm_num)) (a := 1) (by decide) rfl
    ⟨fun _ _ => rfl, fun _ _ _ _ _ => rfl, fun _ _ _ _ _ => rfl, fun t ht => absurd ht (Nat.not_lt_zero t), fun t ht => absurd ht (Nat.not_lt_zero t),
      fun t ht => absurd ht (Nat.not_lt_zero t), fun t ht => absurd ht (Nat.not_lt_zero t)⟩ (fun h => absurd h Bool.false_ne_true)
  rw [pow_one] at h
  exact h

/-- The program does not check that the first `NMPTrans` operations form a group. If they do not, the state has no such symmetry: with the
identity alone the two-site state is no eigenvector of the translation. -/
theorem C64_needs_group : ¬ ∃ lam, SymState 2 (fun r => (r + 1) % 2) (fun _ => 1) lam (psi ((exTrans 1).env fun k => k + 1)) := by
  rintro ⟨lam, h⟩
  have h1 : OnLattice 2 [0, 3] := by intro x hx; simp at hx; omega
  have h2 : OnLattice 2 [1, 2] := by intro x hx; simp at hx; omega
  have v1 : psi ((exTrans 1).env fun k => k + 1) [0, 3] = 2 := by
    rw [exTrans_val (by omega) h1, Finset.sum_range_one, exTrans_pf _ _ (by omega) (by omega) (by omega)]; norm_num
  have v2 : psi ((exTrans 1).env fun k => k + 1) [1, 2] = 3 := by
    rw [exTrans_val (by omega) h2, Finset.sum_range_one, exTrans_pf _ _ (by omega) (by omega) (by omega)]; norm_num
  have e1 := h _ h1
  have e2 := h _ h2
  rw [show moved 2 (fun r => (r + 1) % 2) [0, 3] = [1, 2] from rfl, v1, v2] at e1
  rw [show moved 2 (fun r => (r + 1) % 2) [1, 2] = [0, 3] from rfl, v1, v2] at e2
  simp [movedSgn] at e1 e2
  have : (2 : ℂ) * 2 = 3 * 3 := by linear_combination (-2 : ℂ) * e1 + 3 * e2
  norm_num at this

end MVMC
