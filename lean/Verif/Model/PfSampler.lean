import Verif.Model.PfUpdate

/-!
# Pfaffians, inverse matrices and the inner product inside the samplers

`/repo/src/mVMC/vmcmake.c:100-330`, `/repo/src/mVMC/vmcmake_fsz.c:100-400` (the `#else` branches of `_pf_block_update`).
-/
namespace MVMC

variable {K : Type} [Field K]

/-- Source: `/repo/src/mVMC/pfupdate.c:39-60`. -/
def SamplerPar.pf (p : SamplerPar) : PfPar := ⟨p.Ne, p.Nsite⟩
/-- Source: `/repo/src/mVMC/pfupdate_fsz.c:35-60`. -/
def FPar.pf (p : FPar) : PfPar := ⟨p.Ne, p.Nsite⟩

/-- What `VMCMakeSample` does with `PfM`, `InvM` and the inner product. `ps` is (`PfM`, `InvM`), `ip` the inner product whose
logarithm is `logIpOld`; `pn` is `pfMNew` and `ipn` the inner product whose logarithm is `logIpNew`.
Hop: `/repo/src/mVMC/vmcmake.c:178` `CalculateNewPfM2`, 186 `CalculateLogIP_fcmp`, 204 `UpdateMAll`, 212 `logIpOld=logIpNew`;
exchange: 263, 269, 287, 295; refresh: 323-326 (the status returned by `CalculateMAll_fcmp` is ignored: a failed
factorisation leaves whatever the arrays contain, so nothing is assumed in that case). -/
structure CarriesPf {β γ : Type} (p : SamplerPar) (lib : SkLib K) (slt w : Nat → K) (qpStart qpEnd : Nat)
    (k : Hooks β γ) (ps : β → PfState K) (ip : β → K) (pn : γ → Nat → K) (ipn : γ → K) : Prop where
  hop : ∀ c' h b q, q < qpEnd - qpStart →
    pn (k.propHop c' h b) q = calculateNewPfM p.pf slt h.mi h.s c'.idx qpStart (ps b) q
  hopIp : ∀ c' h b, ipn (k.propHop c' h b) = calculateIPLocal w (pn (k.propHop c' h b)) qpStart qpEnd
  exch : ∀ c1 c2 h h2 b q, q < qpEnd - qpStart →
    pn (k.propExch c1 c2 h h2 b) q = calculateNewPfMTwo p.pf slt h.mi h.s h2.mi h2.s c2.idx qpStart (ps b) q
  exchIp : ∀ c1 c2 h h2 b, ipn (k.propExch c1 c2 h h2 b) = calculateIPLocal w (pn (k.propExch c1 c2 h h2 b)) qpStart qpEnd
  commitHop : ∀ c' h b g, ps (k.commitHop c' h b g) = updateMAll p.pf slt h.mi h.s c'.idx qpStart qpEnd (ps b)
  commitHopIp : ∀ c' h b g, ip (k.commitHop c' h b g) = ipn g
  commitExch : ∀ c' h h2 b g, ps (k.commitExch c' h h2 b g) =
    updateMAllTwo p.pf slt h.mi h.s h2.mi h2.s h.ri c'.idx qpStart qpEnd (ps b)
  commitExchIp : ∀ c' h h2 b g, ip (k.commitExch c' h h2 b g) = ipn g
  refresh : ∀ c b st', calculateMAll p.pf lib slt qpStart qpEnd (rsSz p.pf c.idx) (ps b) = some st' →
    ps (k.refresh c b) = st' ∧ ip (k.refresh c b) = calculateIPLocal w st'.pfM qpStart qpEnd

/-- The same for `VMCMakeSample_fsz`: moves 200/222 and 336/363 (`CalculateNewPfM2_fsz(mi,t,…)`, `UpdateMAll_fsz(mi,t,…)`),
exchange 274/295, refresh 394-397. (`/repo/src/mVMC/vmcmake_fsz.c:148-403`) -/
structure CarriesPfF {β γ : Type} (p : FPar) (lib : SkLib K) (slt w : Nat → K) (qpStart qpEnd : Nat)
    (k : FHooks β γ) (ps : β → PfState K) (ip : β → K) (pn : γ → Nat → K) (ipn : γ → K) : Prop where
  move : ∀ c' h b q, q < qpEnd - qpStart →
    pn (k.propMove c' h b) q = calculateNewPfMFsz p.pf slt h.mi h.t c'.idx c'.spn qpStart (ps b) q
  moveIp : ∀ c' h b, ipn (k.propMove c' h b) = calculateIPLocal w (pn (k.propMove c' h b)) qpStart qpEnd
  exch : ∀ c1 c2 h h2 b q, q < qpEnd - qpStart → pn (k.propExch c1 c2 h h2 b) q =
    calculateNewPfMTwoFsz p.pf slt h.mi h.s h2.mi h2.s c2.idx c2.spn qpStart (ps b) q
  exchIp : ∀ c1 c2 h h2 b, ipn (k.propExch c1 c2 h h2 b) = calculateIPLocal w (pn (k.propExch c1 c2 h h2 b)) qpStart qpEnd
  commitMove : ∀ c' h b g, ps (k.commitMove c' h b g) = updateMAllFsz p.pf slt h.mi h.t c'.idx c'.spn qpStart qpEnd (ps b)
  commitMoveIp : ∀ c' h b g, ip (k.commitMove c' h b g) = ipn g
  commitExch : ∀ c' h h2 b g, ps (k.commitExch c' h h2 b g) =
    updateMAllTwoFsz p.pf slt h.mi h.s h2.mi h2.s h.ri c'.idx c'.spn qpStart qpEnd (ps b)
  commitExchIp : ∀ c' h h2 b g, ip (k.commitExch c' h h2 b g) = ipn g
  refresh : ∀ c b st', calculateMAll p.pf lib slt qpStart qpEnd (rsFsz p.pf c.idx c.spn) (ps b) = some st' →
    ps (k.refresh c b) = st' ∧ ip (k.refresh c b) = calculateIPLocal w st'.pfM qpStart qpEnd

end MVMC
