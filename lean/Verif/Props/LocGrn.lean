import Verif.Proof.LocGrnFsz

/-! # C24, C25, C26: local Green functions -/
namespace MVMC
open Spec

/-! ## Sz-conserving mode -/

/-- C24: `GreenFunc1` returns `<ψ|c†_{ri,s} c_{rj,s}|x>/<ψ|x>` for every pair of sites (equal or not, blocked or not), for the
projected Pfaffian state with correlation factors and optional Boltzmann machine. -/
theorem C24_green1 (g : GrnEnv) (hg : GrnOK g) (hr : g.flagRBM = true → GrnRBM g) (c : EleCfg) (ip : ℂ) (projCnt : Arr)
    (rbmCnt : Nat → ℂ) (h : Sampled g c ip projCnt rbmCnt) (ri rj s : Nat) (hs : s < 2) (hi : ri < g.p.Nsite)
    (hj : rj < g.p.Nsite) :
    (greenFunc1 g ri rj s ip projCnt rbmCnt c).1
      = matrixElement (psi g) [.cr (ri + s * g.p.Nsite), .an (rj + s * g.p.Nsite)] (szList g c) := by
  rw [greenFunc1_val hg hr h hs hi hj]

/-- C25: `GreenFunc2` returns `<ψ|c†_{ri,s} c_{rj,s} c†_{rk,t} c_{rl,t}|x>/<ψ|x>` for every coincidence pattern. -/
theorem C25_green2 (g : GrnEnv) (hg : GrnOK g) (hr : g.flagRBM = true → GrnRBM g) (c : EleCfg) (ip : ℂ) (projCnt : Arr)
    (rbmCnt : Nat → ℂ) (h : Sampled g c ip projCnt rbmCnt) (ri rj rk rl s t : Nat) (hs : s < 2) (ht : t < 2)
    (hi : ri < g.p.Nsite) (hj : rj < g.p.Nsite) (hk : rk < g.p.Nsite) (hl : rl < g.p.Nsite) :
    (greenFunc2 g ri rj rk rl s t ip projCnt rbmCnt c).1
      = matrixElement (psi g) [.cr (ri + s * g.p.Nsite), .an (rj + s * g.p.Nsite), .cr (rk + t * g.p.Nsite),
          .an (rl + t * g.p.Nsite)] (szList g c) := by
  rw [greenFunc2_val hg hr h hs ht hi hj hk hl]

/-- C26: both leave the electron tables as they found them. -/
theorem C26_restored (g : GrnEnv) (hg : GrnOK g) (hr : g.flagRBM = true → GrnRBM g) (c : EleCfg) (ip : ℂ) (projCnt : Arr)
    (rbmCnt : Nat → ℂ) (h : Sampled g c ip projCnt rbmCnt) (ri rj rk rl s t : Nat) (hs : s < 2) (ht : t < 2)
    (hi : ri < g.p.Nsite) (hj : rj < g.p.Nsite) (hk : rk < g.p.Nsite) (hl : rl < g.p.Nsite) :
    (greenFunc1 g ri rj s ip projCnt rbmCnt c).2 = c ∧ (greenFunc2 g ri rj rk rl s t ip projCnt rbmCnt c).2 = c := by
  rw [greenFunc1_val hg hr h hs hi hj, greenFunc2_val hg hr h hs ht hi hj hk hl]
  exact ⟨rfl, rfl⟩

/-! ## general-Sz mode -/

/-- C24: `GreenFunc1_fsz` (equal spins). -/
theorem C24_green1_fsz (g : GrnEnv) (hg : GrnOK g) (c : FCfg) (ip : ℂ) (projCnt : Arr) (h : SampledF g c ip projCnt)
    (ri rj s : Nat) (hs : s < 2) (hi : ri < g.p.Nsite) (hj : rj < g.p.Nsite) :
    (greenFunc1F g ri rj s ip projCnt c).1
      = matrixElement (psi g) [.cr (ri + s * g.p.Nsite), .an (rj + s * g.p.Nsite)] (fszList g c) := by
  rw [greenFunc1F_val hg h hs hi hj]

/-- C24: `GreenFunc1_fsz2` (spins may differ), for two different orbitals; see `C24_fsz2_diagonal_witness`. -/
theorem C24_green1_fsz2_partial (g : GrnEnv) (hg : GrnOK g) (c : FCfg) (ip : ℂ) (projCnt : Arr) (h : SampledF g c ip projCnt)
    (ri rj s t : Nat) (hs : s < 2) (ht : t < 2) (hi : ri < g.p.Nsite) (hj : rj < g.p.Nsite)
    (hne : ¬ (ri = rj ∧ s = t)) :
    (greenFunc1F2 g ri rj s t ip projCnt c).1
      = matrixElement (psi g) [.cr (ri + s * g.p.Nsite), .an (rj + t * g.p.Nsite)] (fszList g c) := by
  rw [greenFunc1F2_val hg h hs ht hi hj (fun e => hne ((flat_inj hs ht hi hj).mp e))]

/-- C24: for equal orbitals `GreenFunc1_fsz2` returns 0 whatever the occupation (its callers use it for different spins only). -/
theorem C24_fsz2_diagonal_witness (g : GrnEnv) (c : FCfg) (ip : ℂ) (projCnt : Arr) (r s : Nat)
    (h : c.num (r + s * g.p.Nsite) = 0 ∨ c.num (r + s * g.p.Nsite) = 1) :
    (greenFunc1F2 g r r s s ip projCnt c).1 = 0 := by
  unfold greenFunc1F2
  simp only []
  rw [if_pos (by rcases h with h | h <;> simp [h])]

/-- C25: `GreenFunc2_fsz` (spins equal within each pair). -/
theorem C25_green2_fsz (g : GrnEnv) (hg : GrnOK g) (c : FCfg) (ip : ℂ) (projCnt : Arr) (h : SampledF g c ip projCnt)
    (ri rj rk rl s t : Nat) (hs : s < 2) (ht : t < 2) (hi : ri < g.p.Nsite) (hj : rj < g.p.Nsite)
    (hk : rk < g.p.Nsite) (hl : rl < g.p.Nsite) :
    (greenFunc2F g ri rj rk rl s t ip projCnt c).1
      = matrixElement (psi g) [.cr (ri + s * g.p.Nsite), .an (rj + s * g.p.Nsite), .cr (rk + t * g.p.Nsite),
          .an (rl + t * g.p.Nsite)] (fszList g c) := by
  rw [greenFunc2F_val hg h hs ht hi hj hk hl]

/-- C25: `GreenFunc2_fsz2`: all four spins free, every coincidence pattern. -/
theorem C25_green2_fsz2 (g : GrnEnv) (hg : GrnOK g) (c : FCfg) (ip : ℂ) (projCnt : Arr) (h : SampledF g c ip projCnt)
    (ri rj rk rl s t u v : Nat) (hs : s < 2) (ht : t < 2) (hu : u < 2) (hv : v < 2) (hi : ri < g.p.Nsite)
    (hj : rj < g.p.Nsite) (hk : rk < g.p.Nsite) (hl : rl < g.p.Nsite) :
    (greenFunc2F2 g ri rj rk rl s t u v ip projCnt c).1
      = matrixElement (psi g) [.cr (ri + s * g.p.Nsite), .an (rj + t * g.p.Nsite), .cr (rk + u * g.p.Nsite),
          .an (rl + v * g.p.Nsite)] (fszList g c) := by
  rw [greenFunc2F2_val hg h hs ht hu hv hi hj hk hl]

/-- C26: all four leave the electron tables as they found them. -/
theorem C26_restored_fsz (g : GrnEnv) (hg : GrnOK g) (c : FCfg) (ip : ℂ) (projCnt : Arr) (h : SampledF g c ip projCnt)
    (ri rj rk rl s t u v : Nat) (hs : s < 2) (ht : t < 2) (hu : u < 2) (hv : v < 2) (hi : ri < g.p.Nsite)
    (hj : rj < g.p.Nsite) (hk : rk < g.p.Nsite) (hl : rl < g.p.Nsite) :
    (greenFunc1F g ri rj s ip projCnt c).2 = c ∧ (greenFunc1F2 g ri rj s t ip projCnt c).2 = c ∧
    (greenFunc2F g ri rj rk rl s t ip projCnt c).2 = c ∧ (greenFunc2F2 g ri rj rk rl s t u v ip projCnt c).2 = c := by
  refine ⟨by rw [greenFunc1F_val hg h hs hi hj], ?_, by rw [greenFunc2F_val hg h hs ht hi hj hk hl],
    by rw [greenFunc2F2_val hg h hs ht hu hv hi hj hk hl]⟩
  by_cases e : ri + s * g.p.Nsite = rj + t * g.p.Nsite
  · unfold greenFunc1F2
    simp only []
    have := (placed_fsz h.cons).bin _ (orb_lt hs hi)
    rw [if_pos (by rw [← e]; omega)]
  · rw [greenFunc1F2_val hg h hs ht hi hj e]

/-! ## a concrete case -/

/-- two sites, one electron per spin, `F(0↑,1↓) = 2`, `F(1↑,1↓) = 6i` -/
noncomputable def exEnv : GrnEnv where
  p := ⟨1, 2⟩
  q := ⟨2, 0, 0, 0, 0, fun _ => 0, fun _ _ => 0, fun _ _ => 0, fun _ _ => 0⟩
  Proj := fun _ => 0
  flagRBM := false
  rbm := ⟨2, 0, 0, 0, 0, 0, 0, 0, 0, 0, 0, 0, 0, 0, fun _ => 0, fun _ => 0, fun _ => 0, fun _ => 0, fun _ => 0, fun _ => 0,
    fun _ _ => 0, fun _ _ => 0, fun _ _ => 0, fun _ => 0⟩
  B := 1
  slt := fun k => if k = 3 then 2 else if k = 12 then -2 else if k = 7 then 6 * Complex.I else if k = 13 then -6 * Complex.I else 0
  w := fun _ => 1
  nQP := 1
  st := ⟨fun _ => 2, fun k => if k = 1 then -(1 / 2) else if k = 2 then 1 / 2 else 0⟩

/-- up electron on site 0, down electron on site 1 -/
def exCfg : EleCfg where
  idx := fun k => if k = 0 then 0 else 1
  cfg := fun k => if k = 0 then 0 else if k = 3 then 0 else -1
  num := fun k => if k = 0 then 1 else if k = 3 then 1 else 0

theorem exEnv_ok : GrnOK exEnv where
  hq := rfl
  tab := ⟨by intro h; exact absurd h (by decide), by intro h; exact absurd h (by decide),
    by intro x h; exact absurd h (Nat.not_lt_zero x), by intro x h; exact absurd h (Nat.not_lt_zero x)⟩
  skew := by
    intro k hk
    have hk : k < 1 := hk
    have : k = 0 := by omega
    subst this
    refine ⟨?_, ?_⟩
    · intro x y hx hy
      have hx : x < 4 := hx
      have hy : y < 4 := hy
      have h1 : x = 0 ∨ x = 1 ∨ x = 2 ∨ x = 3 := by omega
      have h2 : y = 0 ∨ y = 1 ∨ y = 2 ∨ y = 3 := by omega
      rcases h1 with rfl | rfl | rfl | rfl <;> rcases h2 with rfl | rfl | rfl | rfl <;> simp [entry, exEnv]
    · intro x hx
      have hx : x < 4 := hx
      have h1 : x = 0 ∨ x = 1 ∨ x = 2 ∨ x = 3 := by omega
      rcases h1 with rfl | rfl | rfl | rfl <;> simp [entry, exEnv]

theorem exSampled : Sampled exEnv exCfg 2 (fun _ => 0) (fun _ => 0) where
  cons := by
    constructor
    · intro s hs m hm
      have hm : m < 1 := hm
      have : m = 0 := by omega
      subst this
      rcases (show s = 0 ∨ s = 1 by omega) with rfl | rfl
      · exact ⟨0, by decide, by simp [exCfg], by simp [exCfg]⟩
      · exact ⟨1, by decide, by simp [exCfg, exEnv], by simp [exCfg, exEnv]⟩
    · intro s hs r hr
      have hr : r < 2 := hr
      rcases (show s = 0 ∨ s = 1 by omega) with rfl | rfl <;> rcases (show r = 0 ∨ r = 1 by omega) with rfl | rfl <;>
        simp [exCfg, exEnv]
  pf := by
    intro k hk
    have hk : k < 1 := hk
    have : k = 0 := by omega
    subst this
    refine ⟨?_, ?_⟩
    · simp [pfOf, pf, pfN, altSum, exEnv, exCfg, occSz, entry, List.range_succ]
    · intro i hi j hj
      have hi : i < 2 := hi
      have hj : j < 2 := hj
      rcases (show i = 0 ∨ i = 1 by omega) with rfl | rfl <;> rcases (show j = 0 ∨ j = 1 by omega) with rfl | rfl <;>
        simp [exEnv, exCfg, occSz, entry, Finset.sum_range_succ]
  hip := by simp [amplitude, pfOf, pf, pfN, altSum, exEnv, exCfg, occSz, entry, List.range_succ]
  hne := by norm_num
  proj := fun k hk => absurd hk (Nat.not_lt_zero k)
  rbm := fun h => absurd h (by decide)

/-- moving the up electron from site 0 to site 1 multiplies the amplitude by `6i/2 = 3i`; the code reports its conjugate -/
example : (greenFunc1 exEnv 1 0 0 2 (fun _ => 0) (fun _ => 0) exCfg).1 = -(3 * Complex.I) := by
  rw [C24_green1 exEnv exEnv_ok (fun h => absurd h (by decide)) exCfg 2 _ _ exSampled 1 0 0 (by decide) (by decide) (by decide)]
  have hl : szList exEnv exCfg = [0, 3] := by decide
  have c : corrSpec exEnv = fun _ => 1 := by
    funext num
    simp [corrSpec, projSpec, exEnv, logCorr]
  rw [hl]
  simp only [matrixElement, psi, c]
  simp [actAll, Op.act, exEnv, overlap, pf, pfN, altSum, entry, waveFunction]
  have e : (starRingEnd ℂ) 2 = 2 := Complex.conj_ofReal 2
  have e' : (starRingEnd ℂ) 6 = 6 := Complex.conj_ofReal 6
  rw [e, e']
  ring

end MVMC
