import Verif.Proof.Lanczos

/-!
# C35, C44, C53: the single Lanczos step
-/

namespace MVMC
open Complex Matrix MVMC.Spec

/-! ## C44: positions in the accumulators -/

/-- C44: whatever the order in which the threads add, entry `[rq][rp][ri][rj]`
holds the weighted average of `conj(LSLQ[rq][ri]) * LSLQ[rp][rj]`. -/
theorem C44_qqqq (n : Nat) (smps : List (LSample × List (Nat × ℂ)))
    (h : ∀ x ∈ smps, x.2.Perm (qqqqAdds n x.1)) {rq rp ri rj : Nat}
    (hq : rq < n) (hp : rp < n) (hi : ri < n) (hj : rj < n) :
    lsAverage smps (((rq * n + rp) * n + ri) * n + rj) =
      (smps.map fun x => (x.1.w : ℂ) * (starRingEnd ℂ) (x.1.lslq (rq * n + ri)) *
        x.1.lslq (rp * n + rj)).sum / ((smps.map fun x => x.1.w).sum : ℝ) := by
  rw [lsAverage_val smps (n * n * n * n) (fun x i => (qqqqAdd n x i).2) h _
    (radix_lt (radix_lt (radix_lt hq hp) hi) hj)]
  congr 2
  refine List.map_congr_left fun x _ => ?_
  unfold qqqqAdd
  dsimp only
  rw [(radix2 hj).1, (radix2 hj).2, (radix2 hi).1, (radix2 hi).2, (radix2 hp).1, (radix2 hp).2,
    Nat.mod_eq_of_lt hq]

/-- C44: the quadruples and the entries below `n^4` are in bijection. -/
theorem C44_decode (n : Nat) (i : Nat) (hi : i < n * n * n * n) :
    ∃! r : Nat × Nat × Nat × Nat, (r.1 < n ∧ r.2.1 < n ∧ r.2.2.1 < n ∧ r.2.2.2 < n) ∧
      ((r.1 * n + r.2.1) * n + r.2.2.1) * n + r.2.2.2 = i := by
  have hn : 0 < n := by
    rcases Nat.eq_zero_or_pos n with h | h
    · subst h; simp at hi
    · exact h
  refine ⟨(i / n / n / n, i / n / n % n, i / n % n, i % n), ⟨⟨?_, Nat.mod_lt _ hn, Nat.mod_lt _ hn,
    Nat.mod_lt _ hn⟩, ?_⟩, ?_⟩
  · refine Nat.div_lt_of_lt_mul (Nat.div_lt_of_lt_mul (Nat.div_lt_of_lt_mul ?_))
    calc i < n * n * n * n := hi
      _ = n * (n * (n * n)) := by ring
  · dsimp only
    rw [Nat.mul_comm (i / n / n / n), Nat.div_add_mod, Nat.mul_comm (i / n / n), Nat.div_add_mod,
      Nat.mul_comm (i / n), Nat.div_add_mod]
  · rintro ⟨q, p, a, b⟩ ⟨⟨h1, h2, h3, h4⟩, e⟩
    dsimp only at h1 h2 h3 h4 e
    subst e
    rw [(radix2 h4).1, (radix2 h4).2, (radix2 h3).1, (radix2 h3).2, (radix2 h2).1, (radix2 h2).2]

/-- C44: the real accumulator has the same layout, without conjugation. -/
theorem C44_qqqq_real (n : Nat) (w : ℝ) (lslq : Nat → ℝ) (evs : List (Nat × ℝ))
    (h : evs.Perm (qqqqAddsR n w lslq)) {rq rp ri rj : Nat}
    (hq : rq < n) (hp : rp < n) (hi : ri < n) (hj : rj < n) (a : Nat → ℝ) :
    runAdds evs a (((rq * n + rp) * n + ri) * n + rj) =
      a (((rq * n + rp) * n + ri) * n + rj) + w * lslq (rq * n + ri) * lslq (rp * n + rj) := by
  have e := runAdds_own (n * n * n * n) (fun i => (qqqqAddR n w lslq i).2) h _
    (radix_lt (radix_lt (radix_lt hq hp) hi) hj)
  rw [runAdds_eq, zero_add] at e
  rw [runAdds_eq, e]
  congr 1
  unfold qqqqAddR
  dsimp only
  rw [(radix2 hj).1, (radix2 hj).2, (radix2 hi).1, (radix2 hi).2, (radix2 hp).1, (radix2 hp).2,
    Nat.mod_eq_of_lt hq]

/-- C44: entry `[rq][rp][idx]` of the one-body accumulator. -/
theorem C44_qcaq (n nCA : Nat) (smps : List (LSample × List (Nat × ℂ)))
    (h : ∀ x ∈ smps, x.2.Perm (qcaqAdds n nCA x.1)) {rq rp idx : Nat}
    (hq : rq < n) (hp : rp < n) (hi : idx < nCA) :
    lsAverage smps ((rq * n + rp) * nCA + idx) =
      (smps.map fun x => (x.1.w : ℂ) * (starRingEnd ℂ) (x.1.lslca (rq * nCA + idx)) *
        x.1.lslq (rp * n)).sum / ((smps.map fun x => x.1.w).sum : ℝ) := by
  rw [lsAverage_val smps (n * n * nCA) (fun x i =>
    (x.w : ℂ) * (starRingEnd ℂ) (x.lslca (i / nCA / n % n * nCA + i % nCA)) *
      x.lslq (i / nCA % n * n)) h _ (radix_lt (radix_lt hq hp) hi)]
  congr 2
  refine List.map_congr_left fun x _ => ?_
  rw [(radix2 hi).1, (radix2 hi).2, (radix2 hp).1, (radix2 hp).2, Nat.mod_eq_of_lt hq]

/-- C44: entry `[rq][rp][idx]` of the factorised two-body accumulator. -/
theorem C44_qcacaq (n nCA nCACA : Nat) (caca : Nat → Nat × Nat)
    (smps : List (LSample × List (Nat × ℂ)))
    (h : ∀ x ∈ smps, x.2.Perm (qcacaqAdds n nCA nCACA caca x.1)) {rq rp idx : Nat}
    (hq : rq < n) (hp : rp < n) (hi : idx < nCACA) :
    lsAverage smps ((rq * n + rp) * nCACA + idx) =
      (smps.map fun x => (x.1.w : ℂ) * (starRingEnd ℂ) (x.1.lslca (rq * nCA + (caca idx).1)) *
        x.1.lslca (rp * nCA + (caca idx).2)).sum / ((smps.map fun x => x.1.w).sum : ℝ) := by
  rw [lsAverage_val smps (n * n * nCACA) (fun x i =>
    (x.w : ℂ) * (starRingEnd ℂ) (x.lslca (i / nCACA / n % n * nCA + (caca (i % nCACA)).1)) *
      x.lslca (i / nCACA % n * nCA + (caca (i % nCACA)).2)) h _ (radix_lt (radix_lt hq hp) hi)]
  congr 2
  refine List.map_congr_left fun x _ => ?_
  rw [(radix2 hi).1, (radix2 hi).2, (radix2 hp).1, (radix2 hp).2, Nat.mod_eq_of_lt hq]

/-- C44: entry `[rq][rp][idx]` of the direct two-body accumulator (two powers). -/
theorem C44_qcacaqDC (n nCACA : Nat) (smps : List (LSample × List (Nat × ℂ)))
    (h : ∀ x ∈ smps, x.2.Perm (qcacaqDCAdds n nCACA x.1)) {rq rp idx : Nat}
    (hq : rq < n) (hp : rp < n) (hi : idx < nCACA) :
    lsAverage smps ((rq * n + rp) * nCACA + idx) =
      (smps.map fun x => (x.1.w : ℂ) * x.1.lslq (rp * n) *
        (if rq = 0 then x.1.loc2 idx else x.1.hloc2 idx)).sum /
          ((smps.map fun x => x.1.w).sum : ℝ) := by
  have h' : ∀ x ∈ smps, x.2.Perm ((List.range (n * n * nCACA)).map fun i => (i,
      (x.1.w : ℂ) * x.1.lslq (i / nCACA % n * n) *
        (if i / nCACA / n % n = 0 then x.1.loc2 (i % nCACA) else x.1.hloc2 (i % nCACA)))) := by
    intro x hx
    refine (h x hx).trans (List.Perm.of_eq ?_)
    unfold qcacaqDCAdds
    refine List.map_congr_left fun i _ => ?_
    dsimp only
    by_cases c : i / nCACA / n % n = 0
    · rw [if_neg (by simpa using c), if_pos c]
    · rw [if_pos c, if_neg c]
  rw [lsAverage_val smps (n * n * nCACA) (fun x i => (x.w : ℂ) * x.lslq (i / nCACA % n * n) *
        (if i / nCACA / n % n = 0 then x.loc2 (i % nCACA) else x.hloc2 (i % nCACA))) h' _
    (radix_lt (radix_lt hq hp) hi)]
  congr 2
  refine List.map_congr_left fun x _ => ?_
  rw [(radix2 hi).1, (radix2 hi).2, (radix2 hp).1, (radix2 hp).2, Nat.mod_eq_of_lt hq]

example : (qqqqAdds 2 ⟨1, fun k => (k : ℂ), fun _ => 0, fun _ => 0, fun _ => 0⟩).length = 16 := by
  simp [qqqqAdds]

example : (qqqqAdd 2 ⟨2, fun k => (k : ℂ) + 1, fun _ => 0, fun _ => 0, fun _ => 0⟩ 11) = (11, 16) := by
  have : (starRingEnd ℂ) (4 : ℂ) = 4 := Complex.conj_ofReal 4
  norm_num [qqqqAdd, this]

/-! ## C44, C53: what the averages mean -/

section
variable {ι : Type} [Fintype ι] [DecidableEq ι]

/-- The sample of configuration `x` when every configuration is visited with weight
`|psi(x)|^2` and the local quantities are exact. -/
noncomputable def exactSample (ψ : ι → ℂ) (H : Matrix ι ι ℂ) (nCA : Nat)
    (ca op2 : Nat → Matrix ι ι ℂ) (x : ι) : LSample where
  w := normSq (ψ x)
  lslq := lslqEntry (localValue ψ H x) (localValue ψ (H * H) x)
  lslca k := if k < nCA then localValue ψ (ca k) x else localValue ψ (H * ca (k - nCA)) x
  loc2 k := localValue ψ (op2 k) x
  hloc2 k := localValue ψ (H * op2 k) x

/-- All configurations, each with its events. -/
noncomputable def exactSamples (s : ι → LSample) (evs : ι → List (Nat × ℂ)) :
    List (LSample × List (Nat × ℂ)) :=
  (Finset.univ : Finset ι).toList.map fun x => (s x, evs x)

omit [DecidableEq ι] in
theorem exactSamples_sum (s : ι → LSample) (evs : ι → List (Nat × ℂ)) (f : LSample → ℂ) :
    ((exactSamples s evs).map fun x => f x.1).sum = ∑ x, f (s x) := by
  unfold exactSamples
  rw [List.map_map]
  exact Finset.sum_map_toList _ _

omit [DecidableEq ι] in
theorem exactSamples_w (s : ι → LSample) (evs : ι → List (Nat × ℂ)) :
    ((exactSamples s evs).map fun x => x.1.w).sum = ∑ x, (s x).w := by
  unfold exactSamples
  rw [List.map_map]
  exact Finset.sum_map_toList _ _

theorem localValue_one (ψ : ι → ℂ) (x : ι) (h : ψ x ≠ 0) : localValue ψ 1 x = 1 := by
  unfold localValue
  have : ∑ y, (starRingEnd ℂ) (ψ y) * (1 : Matrix ι ι ℂ) y x = (starRingEnd ℂ) (ψ x) := by
    simp [Matrix.one_apply]
  rw [this, div_self (by simpa using h)]

theorem lslq_pow (ψ : ι → ℂ) (H : Matrix ι ι ℂ) (x : ι) (h : ψ x ≠ 0) {i j : Nat} (hi : i < 2)
    (hj : j < 2) :
    lslqEntry (localValue ψ H x) (localValue ψ (H * H) x) (i * 2 + j) =
      localValue ψ (H ^ (i + j)) x := by
  obtain rfl | rfl : i = 0 ∨ i = 1 := by omega
  all_goals obtain rfl | rfl : j = 0 ∨ j = 1 := by omega
  · simp [lslqEntry, localValue_one ψ x h]
  · simp [lslqEntry]
  · simp [lslqEntry]
  · simp [lslqEntry, pow_two]

theorem herm_pow {H : Matrix ι ι ℂ} (hH : H.IsHermitian) (k : Nat) : (H ^ k)ᴴ = H ^ k := by
  rw [conjTranspose_pow, hH.eq]

/-- C44: visiting every configuration with its weight, entry `[rq][rp][ri][rj]` of
the average is the expectation value of the Hamiltonian to the power
`rq + rp + ri + rj`. -/
theorem C44_exact_moments (ψ : ι → ℂ) (hψ : ∀ x, ψ x ≠ 0) (H : Matrix ι ι ℂ) (hH : H.IsHermitian)
    (nCA : Nat) (ca op2 : Nat → Matrix ι ι ℂ) (evs : ι → List (Nat × ℂ))
    (h : ∀ x, (evs x).Perm (qqqqAdds 2 (exactSample ψ H nCA ca op2 x))) {rq rp ri rj : Nat}
    (hq : rq < 2) (hp : rp < 2) (hi : ri < 2) (hj : rj < 2) :
    lsAverage (exactSamples (exactSample ψ H nCA ca op2) evs)
      (((rq * 2 + rp) * 2 + ri) * 2 + rj) = expect ψ (H ^ (rq + rp + ri + rj)) := by
  rw [C44_qqqq 2 _ (by
    intro x hx
    obtain ⟨y, _, rfl⟩ := List.mem_map.1 hx
    exact h y) hq hp hi hj]
  rw [exactSamples_sum (f := fun x => (x.w : ℂ) * (starRingEnd ℂ) (x.lslq (rq * 2 + ri)) *
    x.lslq (rp * 2 + rj)), exactSamples_w]
  unfold expect norm2
  congr 1
  have : ∀ x, ((exactSample ψ H nCA ca op2 x).w : ℂ) *
      (starRingEnd ℂ) ((exactSample ψ H nCA ca op2 x).lslq (rq * 2 + ri)) *
      (exactSample ψ H nCA ca op2 x).lslq (rp * 2 + rj) =
      (normSq (ψ x) : ℂ) * (starRingEnd ℂ) (localValue ψ (H ^ (rq + ri)) x) *
        localValue ψ (H ^ (rp + rj)) x := by
    intro x
    unfold exactSample
    dsimp only
    rw [lslq_pow ψ H x (hψ x) hq hi, lslq_pow ψ H x (hψ x) hp hj]
  rw [Finset.sum_congr rfl fun x _ => this x, sum_local ψ hψ, herm_pow hH, ← pow_add]
  congr 2
  omega

theorem lslca_pow (ψ : ι → ℂ) (H : Matrix ι ι ℂ) (nCA : Nat)
    (ca op2 : Nat → Matrix ι ι ℂ) (x : ι) {q i : Nat} (hq : q < 2) (hi : i < nCA) :
    (exactSample ψ H nCA ca op2 x).lslca (q * nCA + i) = localValue ψ (H ^ q * ca i) x := by
  unfold exactSample
  dsimp only
  obtain rfl | rfl : q = 0 ∨ q = 1 := by omega
  · rw [Nat.zero_mul, Nat.zero_add, if_pos hi, pow_zero, Matrix.one_mul]
  · rw [Nat.one_mul, if_neg (by omega), Nat.add_sub_cancel_left, pow_one]

/-- C53: entry `[rq][rp][idx]` of the one-body average is the complex conjugate of
`<psi| H^rq A H^rp |psi>/<psi|psi>`. -/
theorem C53_onebody (ψ : ι → ℂ) (hψ : ∀ x, ψ x ≠ 0) (H : Matrix ι ι ℂ) (hH : H.IsHermitian)
    (nCA : Nat) (ca op2 : Nat → Matrix ι ι ℂ) (evs : ι → List (Nat × ℂ))
    (h : ∀ x, (evs x).Perm (qcaqAdds 2 nCA (exactSample ψ H nCA ca op2 x))) {rq rp idx : Nat}
    (hq : rq < 2) (hp : rp < 2) (hi : idx < nCA) :
    lsAverage (exactSamples (exactSample ψ H nCA ca op2) evs) ((rq * 2 + rp) * nCA + idx) =
      (starRingEnd ℂ) (expect ψ (H ^ rq * ca idx * H ^ rp)) := by
  rw [C44_qcaq 2 nCA _ (by
    intro x hx
    obtain ⟨y, _, rfl⟩ := List.mem_map.1 hx
    exact h y) hq hp hi]
  rw [exactSamples_sum (f := fun x => (x.w : ℂ) * (starRingEnd ℂ) (x.lslca (rq * nCA + idx)) *
    x.lslq (rp * 2)), exactSamples_w]
  unfold expect norm2
  rw [map_div₀, Complex.conj_ofReal]
  congr 1
  have : ∀ x, ((exactSample ψ H nCA ca op2 x).w : ℂ) *
      (starRingEnd ℂ) ((exactSample ψ H nCA ca op2 x).lslca (rq * nCA + idx)) *
      (exactSample ψ H nCA ca op2 x).lslq (rp * 2) =
      (normSq (ψ x) : ℂ) * (starRingEnd ℂ) (localValue ψ (H ^ rq * ca idx) x) *
        localValue ψ (H ^ rp) x := by
    intro x
    rw [lslca_pow ψ H nCA ca op2 x hq hi]
    have := lslq_pow ψ H x (hψ x) hp (show 0 < 2 by norm_num)
    rw [Nat.add_zero, Nat.add_zero] at this
    rw [← this]
    rfl
  rw [Finset.sum_congr rfl fun x _ => this x, sum_local ψ hψ, ev_conj]
  congr 1
  rw [conjTranspose_mul _ (H ^ rp), herm_pow hH]

/-- C53: entry `[rq][rp][idx]` of the factorised two-body average is the complex
conjugate of `<psi| H^rq (A_i A_j†) H^rp |psi>/<psi|psi>`. -/
theorem C53_twobody_ex (ψ : ι → ℂ) (hψ : ∀ x, ψ x ≠ 0) (H : Matrix ι ι ℂ) (hH : H.IsHermitian)
    (nCA nCACA : Nat) (caca : Nat → Nat × Nat) (ca op2 : Nat → Matrix ι ι ℂ)
    (evs : ι → List (Nat × ℂ))
    (h : ∀ x, (evs x).Perm (qcacaqAdds 2 nCA nCACA caca (exactSample ψ H nCA ca op2 x)))
    {rq rp idx : Nat} (hq : rq < 2) (hp : rp < 2) (hi : idx < nCACA)
    (h1 : (caca idx).1 < nCA) (h2 : (caca idx).2 < nCA) :
    lsAverage (exactSamples (exactSample ψ H nCA ca op2) evs) ((rq * 2 + rp) * nCACA + idx) =
      (starRingEnd ℂ) (expect ψ (H ^ rq * (ca (caca idx).1 * (ca (caca idx).2)ᴴ) * H ^ rp)) := by
  rw [C44_qcacaq 2 nCA nCACA caca _ (by
    intro x hx
    obtain ⟨y, _, rfl⟩ := List.mem_map.1 hx
    exact h y) hq hp hi]
  rw [exactSamples_sum (f := fun x => (x.w : ℂ) *
    (starRingEnd ℂ) (x.lslca (rq * nCA + (caca idx).1)) *
    x.lslca (rp * nCA + (caca idx).2)), exactSamples_w]
  unfold expect norm2
  rw [map_div₀, Complex.conj_ofReal]
  congr 1
  have : ∀ x, ((exactSample ψ H nCA ca op2 x).w : ℂ) *
      (starRingEnd ℂ) ((exactSample ψ H nCA ca op2 x).lslca (rq * nCA + (caca idx).1)) *
      (exactSample ψ H nCA ca op2 x).lslca (rp * nCA + (caca idx).2) =
      (normSq (ψ x) : ℂ) * (starRingEnd ℂ) (localValue ψ (H ^ rq * ca (caca idx).1) x) *
        localValue ψ (H ^ rp * ca (caca idx).2) x := by
    intro x
    rw [lslca_pow ψ H nCA ca op2 x hq h1, lslca_pow ψ H nCA ca op2 x hp h2]
    rfl
  rw [Finset.sum_congr rfl fun x _ => this x, sum_local ψ hψ, ev_conj]
  congr 1
  rw [conjTranspose_mul _ (H ^ rp), conjTranspose_mul, conjTranspose_mul (H ^ rq),
    conjTranspose_mul (ca (caca idx).1), conjTranspose_conjTranspose, herm_pow hH, herm_pow hH]
  simp only [Matrix.mul_assoc]

/-- C53: entry `[rq][rp][idx]` of the direct two-body average is
`<psi| H^rq B H^rp |psi>/<psi|psi>` when the local energies are real. -/
theorem C53_twobody_dc_partial (ψ : ι → ℂ) (hψ : ∀ x, ψ x ≠ 0) (H : Matrix ι ι ℂ)
    (hH : H.IsHermitian) (hr : ∀ x, (starRingEnd ℂ) (localValue ψ H x) = localValue ψ H x)
    (nCA nCACA : Nat) (ca op2 : Nat → Matrix ι ι ℂ) (evs : ι → List (Nat × ℂ))
    (h : ∀ x, (evs x).Perm (qcacaqDCAdds 2 nCACA (exactSample ψ H nCA ca op2 x)))
    {rq rp idx : Nat} (hq : rq < 2) (hp : rp < 2) (hi : idx < nCACA) :
    lsAverage (exactSamples (exactSample ψ H nCA ca op2) evs) ((rq * 2 + rp) * nCACA + idx) =
      expect ψ (H ^ rq * op2 idx * H ^ rp) := by
  rw [C44_qcacaqDC 2 nCACA _ (by
    intro x hx
    obtain ⟨y, _, rfl⟩ := List.mem_map.1 hx
    exact h y) hq hp hi]
  rw [exactSamples_sum (f := fun x => (x.w : ℂ) * x.lslq (rp * 2) *
        (if rq = 0 then x.loc2 idx else x.hloc2 idx)), exactSamples_w]
  unfold expect norm2
  congr 1
  have : ∀ x, ((exactSample ψ H nCA ca op2 x).w : ℂ) *
      (exactSample ψ H nCA ca op2 x).lslq (rp * 2) * (if rq = 0 then
        (exactSample ψ H nCA ca op2 x).loc2 idx else (exactSample ψ H nCA ca op2 x).hloc2 idx) =
      (normSq (ψ x) : ℂ) * (starRingEnd ℂ) (localValue ψ (H ^ rp) x) *
        localValue ψ (H ^ rq * op2 idx) x := by
    intro x
    have e1 := lslq_pow ψ H x (hψ x) hp (show 0 < 2 by norm_num)
    rw [Nat.add_zero, Nat.add_zero] at e1
    have e2 : (starRingEnd ℂ) (localValue ψ (H ^ rp) x) = localValue ψ (H ^ rp) x := by
      obtain rfl | rfl : rp = 0 ∨ rp = 1 := by omega
      · rw [pow_zero, localValue_one ψ x (hψ x), map_one]
      · rw [pow_one, hr]
    rw [e2, ← e1]
    have e3 : (if rq = 0 then (exactSample ψ H nCA ca op2 x).loc2 idx else
        (exactSample ψ H nCA ca op2 x).hloc2 idx) = localValue ψ (H ^ rq * op2 idx) x := by
      obtain rfl | rfl : rq = 0 ∨ rq = 1 := by omega
      · rw [if_pos rfl, pow_zero, Matrix.one_mul]; rfl
      · rw [if_neg (by norm_num), pow_one]; rfl
    rw [e3]
    rfl
  rw [Finset.sum_congr rfl fun x _ => this x, sum_local ψ hψ, herm_pow hH, Matrix.mul_assoc]

/-- C53: given the four expectation values, `CalculatePhysVal` returns the
expectation value of the operator in the state `(1 + alpha H) psi`. -/
theorem C53_physval (ψ : ι → ℂ) (hψ : 0 < norm2 ψ) (H A : Matrix ι ι ℂ) (hH : H.IsHermitian)
    (α : ℝ) (Q : Nat → ℂ) (nPhys i : Nat)
    (hQ : ∀ rq rp, rq < 2 → rp < 2 → Q ((rq * 2 + rp) * nPhys + i) = expect ψ (H ^ rq * A * H ^ rp))
    (hn : norm2 (lanczosState ψ H α) ≠ 0) :
    calculatePhysVal (expect ψ H) (expect ψ (H * H)) α Q nPhys 2 i =
      some (expect (lanczosState ψ H α) A) := by
  have hN : (norm2 ψ : ℂ) ≠ 0 := by exact_mod_cast ne_of_gt hψ
  have hd : ((1 : ℂ) + 2 * α * expect ψ H + α * α * expect ψ (H * H)) * norm2 ψ =
      norm2 (lanczosState ψ H α) := by
    have e := ev_lanczos ψ H 1 hH α
    rw [ev_one, ev_one, Complex.conj_ofReal, Matrix.one_mul, Matrix.mul_one] at e
    rw [e]
    unfold expect
    field_simp
    ring
  have hre : (1 + 2 * (α : ℂ) * expect ψ H + (α : ℂ) * α * expect ψ (H * H)).re * norm2 ψ =
      norm2 (lanczosState ψ H α) := by
    have := congrArg Complex.re hd
    rwa [Complex.re_mul_ofReal, Complex.ofReal_re] at this
  have hne : (1 + 2 * (α : ℂ) * expect ψ H + (α : ℂ) * α * expect ψ (H * H)).re ≠ 0 := by
    intro h0
    rw [h0, zero_mul] at hre
    exact hn hre.symm
  unfold calculatePhysVal
  dsimp only
  rw [if_neg hne]
  congr 1
  have q00 := hQ 0 0 (by norm_num) (by norm_num)
  have q01 := hQ 0 1 (by norm_num) (by norm_num)
  have q10 := hQ 1 0 (by norm_num) (by norm_num)
  have q11 := hQ 1 1 (by norm_num) (by norm_num)
  rw [show (0 * 2 + 0) * nPhys + i = i by omega] at q00
  rw [show (0 * 2 + 1) * nPhys + i = nPhys + i by omega] at q01
  rw [show (1 * 2 + 0) * nPhys + i = 2 * nPhys + i by omega] at q10
  rw [show (1 * 2 + 1) * nPhys + i = 2 * nPhys + nPhys + i by omega] at q11
  rw [q00, q01, q10, q11]
  simp only [pow_zero, pow_one, Matrix.one_mul, Matrix.mul_one]
  unfold expect at hre hne ⊢
  rw [ev_lanczos ψ H A hH α, Complex.conj_ofReal, ← hre]
  have hne' : (((1 + 2 * (α : ℂ) * (ev ψ H / norm2 ψ) + (α : ℂ) * α *
    (ev ψ (H * H) / norm2 ψ)).re : ℝ) : ℂ) ≠ 0 := by exact_mod_cast hne
  rw [Complex.ofReal_mul]
  rw [div_eq_div_iff hne' (mul_ne_zero hne' hN)]
  field_simp
  ring

end

/-- A two-configuration state with complex amplitudes. -/
noncomputable def lzPsi : Fin 2 → ℂ := ![1, I]
/-- Hopping between the two configurations. -/
def lzHam : Matrix (Fin 2) (Fin 2) ℂ := !![0, 1; 1, 0]
/-- Hop from configuration 1 to 0. -/
def lzHop : Matrix (Fin 2) (Fin 2) ℂ := !![0, 1; 0, 0]
/-- Occupation of configuration 0. -/
def lzOcc : Matrix (Fin 2) (Fin 2) ℂ := !![1, 0; 0, 0]

theorem lzPsi_ne (x : Fin 2) : lzPsi x ≠ 0 := by
  fin_cases x <;> simp [lzPsi]

theorem lzHam_herm : lzHam.IsHermitian := by
  refine Matrix.IsHermitian.ext fun i j => ?_
  fin_cases i <;> fin_cases j <;> simp [lzHam]

/-- C53 is violated by the code for complex wave functions: the one-body Green
function of the Lanczos output (already for `alpha = 0`) is the complex conjugate
of the expectation value.  Here `<A> = I/2` but the code's average is `-I/2`. -/
theorem C53_onebody_violated :
    expect lzPsi lzHop = I / 2 ∧
    lsAverage (exactSamples (exactSample lzPsi lzHam 1 (fun _ => lzHop) fun _ => 0)
      fun x => qcaqAdds 2 1 (exactSample lzPsi lzHam 1 (fun _ => lzHop) (fun _ => 0) x)) 0 =
      -(I / 2) := by
  have e : expect lzPsi lzHop = I / 2 := by
    simp [expect, ev, norm2, lzPsi, lzHop, Fin.sum_univ_two, dotProduct, mulVec]
    norm_num
  refine ⟨e, ?_⟩
  have := C53_onebody lzPsi lzPsi_ne lzHam lzHam_herm 1 (fun _ => lzHop) (fun _ => 0)
    (fun x => qcaqAdds 2 1 (exactSample lzPsi lzHam 1 (fun _ => lzHop) (fun _ => 0) x))
    (fun _ => List.Perm.refl _) (rq := 0) (rp := 0) (idx := 0) (by norm_num) (by norm_num)
    (by norm_num)
  rw [show (0 * 2 + 0) * 1 + 0 = 0 from rfl] at this
  rw [this, pow_zero, Matrix.one_mul, Matrix.mul_one, e, map_div₀, Complex.conj_I,
    show (starRingEnd ℂ) (2 : ℂ) = 2 from Complex.conj_ofReal 2]
  ring

/-- C53 is violated by the code for complex wave functions: the entry `[0][1]` of the
direct two-body average multiplies by the local energy instead of its conjugate.
Here `<B H> = I/2` but the code's average is `-I/2`. -/
theorem C53_twobody_dc_violated :
    expect lzPsi (lzOcc * lzHam) = I / 2 ∧
    lsAverage (exactSamples (exactSample lzPsi lzHam 1 (fun _ => 0) fun _ => lzOcc)
      fun x => qcacaqDCAdds 2 1 (exactSample lzPsi lzHam 1 (fun _ => 0) (fun _ => lzOcc) x)) 1 =
      -(I / 2) := by
  constructor
  · simp [expect, ev, norm2, lzPsi, lzHam, lzOcc, Fin.sum_univ_two, dotProduct, mulVec]
    norm_num
  · have := C44_qcacaqDC 2 1 (exactSamples (exactSample lzPsi lzHam 1 (fun _ => 0) fun _ => lzOcc)
      fun x => qcacaqDCAdds 2 1 (exactSample lzPsi lzHam 1 (fun _ => 0) (fun _ => lzOcc) x))
      (by
        intro x hx
        obtain ⟨y, _, rfl⟩ := List.mem_map.1 hx
        exact List.Perm.refl _) (rq := 0) (rp := 1) (idx := 0) (by norm_num) (by norm_num)
      (by norm_num)
    rw [show (0 * 2 + 1) * 1 + 0 = 1 from rfl] at this
    rw [this, exactSamples_sum (f := fun x => (x.w : ℂ) * x.lslq (1 * 2) *
        (if (0 : Nat) = 0 then x.loc2 0 else x.hloc2 0)), exactSamples_w]
    simp [exactSample, Fin.sum_univ_two, lzPsi, lzHam, lzOcc, localValue, lslqEntry]
    norm_num
    ring

/-! ## C35: the energy of the Lanczos step -/

/-- What a successful `CalculateEne` followed by the choice of the lower root gives. -/
theorem lanczosCmp_ok {H1 H2_1 H2_2 H3 H4 al e : ℝ} {v : Option ℝ}
    (h : lanczosCmp H1 H2_1 H2_2 H3 H4 = .ok (al, e, v)) :
    0 ≤ lzCC H1 H2_1 H2_2 H3 ∧ lzAA H1 H2_1 H2_2 H3 ≠ 0 ∧ ∃ s other : ℝ,
      s ^ 2 = lzCC H1 H2_1 H2_2 H3 ∧
      al = (lzBB H1 H2_1 H3 + s) / lzAA H1 H2_1 H2_2 H3 ∧
      other = (lzBB H1 H2_1 H3 - s) / lzAA H1 H2_1 H2_2 H3 ∧
      e = lzN H1 H2_1 H2_2 H3 al / lzD H1 H2_1 al ∧
      e ≤ lzN H1 H2_1 H2_2 H3 other / lzD H1 H2_1 other ∧
      calculateEneByAlpha H1 H2_1 H2_2 H3 H4 al = .ok (e, v) := by
  unfold lanczosCmp at h
  split at h
  case h_2 => cases h
  case h_3 => cases h
  case h_1 r hr =>
    unfold calculateEne at hr
    dsimp only at hr
    split at hr
    · cases hr
    rename_i hC
    split at hr
    · cases hr
    rename_i hA
    have hC' : 0 ≤ lzCC H1 H2_1 H2_2 H3 := not_lt.1 hC
    have hs := Real.sq_sqrt hC'
    split at hr
    case h_2 => cases hr
    case h_3 => cases hr
    case h_1 ep vp hp =>
      split at hr
      case h_2 => cases hr
      case h_3 => cases hr
      case h_1 em vm hm =>
        have hr := LancOut.ok.inj hr
        subst hr
        have eneOf : ∀ {x e : ℝ} {v : Option ℝ},
            calculateEneByAlpha H1 H2_1 H2_2 H3 H4 x = .ok (e, v) →
            e = lzN H1 H2_1 H2_2 H3 x / lzD H1 H2_1 x := by
          intro x e v hx
          unfold calculateEneByAlpha at hx
          dsimp only at hx
          split at hx
          · cases hx
          · split at hx
            · cases hx
            · exact (congrArg Prod.fst (LancOut.ok.inj hx)).symm
        have hep := eneOf hp
        have hem := eneOf hm
        have hc := LancOut.ok.inj h
        unfold chooseAlpha at hc
        dsimp only at hc
        refine ⟨hC', hA, ?_⟩
        split at hc
        · rename_i hgt
          have e1 := congrArg Prod.fst hc
          have e2 := congrArg (fun p => p.2.1) hc
          have e3 := congrArg (fun p => p.2.2) hc
          dsimp only at e1 e2 e3
          subst e1 e2 e3
          refine ⟨-Real.sqrt (lzCC H1 H2_1 H2_2 H3), _, by rw [neg_sq]; exact hs, ?_, rfl, hem, ?_, hm⟩
          · rfl
          · rw [sub_neg_eq_add]
            exact (le_of_lt hgt).trans (le_of_eq hep)
        · rename_i hgt
          have e1 := congrArg Prod.fst hc
          have e2 := congrArg (fun p => p.2.1) hc
          have e3 := congrArg (fun p => p.2.2) hc
          dsimp only at e1 e2 e3
          subst e1 e2 e3
          exact ⟨Real.sqrt (lzCC H1 H2_1 H2_2 H3), _, hs, rfl, rfl, hep,
            (not_lt.1 hgt).trans (le_of_eq hem), hp⟩

/-- C35: when the state is no eigenstate (`H1² < H2_1`) and the code reports an energy,
that energy is the energy at the reported `alpha` and no other `alpha`, finite or
infinite, gives a lower one; the norm is positive everywhere. -/
theorem C35_lowest {H1 H2_1 H2_2 H3 H4 al e : ℝ} {v : Option ℝ} (hv : H1 ^ 2 < H2_1)
    (h : lanczosCmp H1 H2_1 H2_2 H3 H4 = .ok (al, e, v)) :
    e * (1 + 2 * al * H1 + al * al * H2_1) = H1 + al * (H2_1 + H2_2) + al * al * H3 ∧
    (∀ t : ℝ, 0 < 1 + 2 * t * H1 + t * t * H2_1) ∧
    (∀ t : ℝ, e ≤ (H1 + t * (H2_1 + H2_2) + t * t * H3) / (1 + 2 * t * H1 + t * t * H2_1)) ∧
    e ≤ H3 / H2_1 := by
  obtain ⟨hC, hA, s, o, hs, hal, ho, he, hle, _⟩ := lanczosCmp_ok h
  have hCp := lzCC_pos hv hA
  have hs0 : s ≠ 0 := by
    rintro rfl
    rw [← hs] at hCp
    norm_num at hCp
  have hne : al ≠ o := by
    rw [hal, ho]
    intro e0
    rw [div_left_inj' hA] at e0
    apply hs0
    linarith
  have root := lz_root s hs hA
  rw [← hal] at root
  rw [he] at hle
  obtain ⟨k, hall⟩ := lz_lowest hv al o hne root hle
  rw [← he] at k hall
  have hpos : ∀ t : ℝ, 0 < 1 + 2 * t * H1 + t * t * H2_1 := lzD_pos hv
  refine ⟨?_, hpos, fun t => ?_, ?_⟩
  · rw [he]
    exact div_mul_cancel₀ _ (ne_of_gt (hpos al))
  · rw [le_div_iff₀ (hpos t)]
    exact hall t
  · have : 0 < H2_1 := lt_of_le_of_lt (sq_nonneg _) hv
    rw [le_div_iff₀ this]
    linarith

/-- C35: with a non-eigenstate, `AA ≠ 0` and energies that are not astronomically large
compared with the spread, both modes of the code report a result. -/
theorem C35_completes_partial {H1 H2_1 H2_2 H3 H4 : ℝ} (hv : H1 ^ 2 < H2_1)
    (hA : H2_1 * (H2_1 + H2_2) - 2 * H1 * H3 ≠ 0)
    (hsz : 10 ^ (-12 : ℤ) * |H1| ≤ (H2_1 - H1 ^ 2) / H2_1) (junk : LancEne) :
    ∃ r, lanczosCmp H1 H2_1 H2_2 H3 H4 = .ok r ∧ lanczosReal junk H1 H2_1 H2_2 H3 H4 = .ok r := by
  have by_ok : ∀ x, ∃ p, calculateEneByAlpha H1 H2_1 H2_2 H3 H4 x = .ok p := by
    intro x
    have hD : 0 < 1 + 2 * x * H1 + x * x * H2_1 := lzD_pos hv x
    have hge : (H2_1 - H1 ^ 2) / H2_1 ≤ 1 + 2 * x * H1 + x * x * H2_1 := lzD_ge hv x
    unfold calculateEneByAlpha
    dsimp only
    rw [if_neg, if_neg (ne_of_gt hD)]
    · exact ⟨_, rfl⟩
    · rintro ⟨h0, hlt⟩
      have hH : 0 < |H1| := abs_pos.2 h0
      rw [abs_div, div_lt_iff₀ hH, abs_of_pos hD] at hlt
      exact absurd (hsz.trans hge) (not_le.2 hlt)
  have hCC : ¬ lzCC H1 H2_1 H2_2 H3 < 0 := not_lt.2 (lzCC_nonneg hv.le)
  have : ∃ r, calculateEne H1 H2_1 H2_2 H3 H4 = .ok r := by
    unfold calculateEne
    dsimp only
    unfold lzCC at hCC
    rw [if_neg hCC, if_neg hA]
    obtain ⟨p, hp⟩ := by_ok ((-H1 * H2_1 + H3 + Real.sqrt (lzCC H1 H2_1 H2_2 H3)) /
      (H2_1 * (H2_1 + H2_2) - 2 * H1 * H3))
    obtain ⟨m, hm⟩ := by_ok ((-H1 * H2_1 + H3 - Real.sqrt (lzCC H1 H2_1 H2_2 H3)) /
      (H2_1 * (H2_1 + H2_2) - 2 * H1 * H3))
    unfold lzCC at hp hm
    rw [hp]
    dsimp only
    rw [hm]
    exact ⟨_, rfl⟩
  obtain ⟨r, hr⟩ := this
  exact ⟨chooseAlpha r, by unfold lanczosCmp; rw [hr], by unfold lanczosReal; rw [hr]⟩

section
variable {ι : Type} [Fintype ι] [DecidableEq ι]

/-- The moment `<H^k>` of a state. -/
noncomputable def momentOf (ψ : ι → ℂ) (H : Matrix ι ι ℂ) (k : Nat) : ℝ := (expect ψ (H ^ k)).re

theorem ev_pow (ψ : ι → ℂ) (hψ : 0 < norm2 ψ) (H : Matrix ι ι ℂ) (hH : H.IsHermitian) (k : Nat) :
    ev ψ (H ^ k) = ((momentOf ψ H k * norm2 ψ : ℝ) : ℂ) := by
  have hr := ev_real ψ (H ^ k) (herm_pow hH k)
  rw [hr]
  unfold momentOf expect
  congr 1
  rw [Complex.div_ofReal_re, div_mul_cancel₀ _ (ne_of_gt hψ)]

theorem norm2_lanczos (ψ : ι → ℂ) (hψ : 0 < norm2 ψ) (H : Matrix ι ι ℂ) (hH : H.IsHermitian)
    (α : ℂ) : norm2 (lanczosState ψ H α) =
      (1 + 2 * α.re * momentOf ψ H 1 + normSq α * momentOf ψ H 2) * norm2 ψ := by
  have e := ev_lanczos ψ H 1 hH α
  rw [ev_one, ev_one, Matrix.one_mul, Matrix.mul_one] at e
  have h1 := ev_pow ψ hψ H hH 1
  have h2 := ev_pow ψ hψ H hH 2
  rw [pow_one] at h1
  rw [pow_two] at h2
  rw [h1, h2] at e
  have := congrArg Complex.re e
  simp only [Complex.add_re, Complex.ofReal_re, Complex.conj_re, Complex.mul_re, Complex.conj_im,
    Complex.ofReal_im, mul_zero, sub_zero] at this
  rw [this, Complex.normSq_apply]
  ring

theorem ev_lanczos_H (ψ : ι → ℂ) (hψ : 0 < norm2 ψ) (H : Matrix ι ι ℂ) (hH : H.IsHermitian)
    (α : ℂ) (k : Nat) : (ev (lanczosState ψ H α) (H ^ k)).re =
      (momentOf ψ H k + 2 * α.re * momentOf ψ H (k + 1) + normSq α * momentOf ψ H (k + 2)) *
        norm2 ψ := by
  have e := ev_lanczos ψ H (H ^ k) hH α
  rw [← pow_succ, ← pow_succ', ← pow_succ] at e
  rw [ev_pow ψ hψ H hH k, ev_pow ψ hψ H hH (k + 1), ev_pow ψ hψ H hH (k + 1 + 1)] at e
  have := congrArg Complex.re e
  simp only [Complex.add_re, Complex.ofReal_re, Complex.conj_re, Complex.mul_re, Complex.conj_im,
    Complex.ofReal_im, mul_zero, sub_zero] at this
  rw [this, Complex.normSq_apply]
  ring

theorem energy_lanczos (ψ : ι → ℂ) (hψ : 0 < norm2 ψ) (H : Matrix ι ι ℂ) (hH : H.IsHermitian)
    (α : ℂ) : energyOfState (lanczosState ψ H α) H =
      (momentOf ψ H 1 + 2 * α.re * momentOf ψ H 2 + normSq α * momentOf ψ H 3) /
      (1 + 2 * α.re * momentOf ψ H 1 + normSq α * momentOf ψ H 2) := by
  unfold energyOfState expect
  rw [Complex.div_ofReal_re, norm2_lanczos ψ hψ H hH]
  have := ev_lanczos_H ψ hψ H hH α 1
  rw [pow_one] at this
  rw [this, mul_div_mul_right _ _ (ne_of_gt hψ)]

/-- C35: on the exact moments of a state that is no eigenstate, the reported energy is
the energy of `(1 + alpha H) psi` for the reported `alpha`, and it is the lowest energy
of all states `(1 + t H) psi` with complex `t`. -/
theorem C35_variational (ψ : ι → ℂ) (hψ : 0 < norm2 ψ) (H : Matrix ι ι ℂ) (hH : H.IsHermitian)
    (hv : momentOf ψ H 1 ^ 2 < momentOf ψ H 2) {al e : ℝ} {v : Option ℝ}
    (h : lanczosCmp (momentOf ψ H 1) (momentOf ψ H 2) (momentOf ψ H 2) (momentOf ψ H 3)
      (momentOf ψ H 4) = .ok (al, e, v)) :
    e = energyOfState (lanczosState ψ H al) H ∧
    ∀ t : ℂ, 0 < norm2 (lanczosState ψ H t) ∧ e ≤ energyOfState (lanczosState ψ H t) H := by
  obtain ⟨h1, h2, h3, h4⟩ := C35_lowest hv h
  have m2 : 0 < momentOf ψ H 2 := lt_of_le_of_lt (sq_nonneg _) hv
  have hD : ∀ t : ℂ, 0 < 1 + 2 * t.re * momentOf ψ H 1 + normSq t * momentOf ψ H 2 := by
    intro t
    have a1 := h2 t.re
    have a2 := mul_nonneg (mul_self_nonneg t.im) m2.le
    have : 1 + 2 * t.re * momentOf ψ H 1 + normSq t * momentOf ψ H 2 =
        (1 + 2 * t.re * momentOf ψ H 1 + t.re * t.re * momentOf ψ H 2) +
        t.im * t.im * momentOf ψ H 2 := by
      rw [Complex.normSq_apply]; ring
    rw [this]; linarith
  refine ⟨?_, fun t => ⟨?_, ?_⟩⟩
  · rw [energy_lanczos ψ hψ H hH, Complex.ofReal_re, Complex.normSq_ofReal,
      eq_div_iff (ne_of_gt (h2 al)), h1]
    ring
  · rw [norm2_lanczos ψ hψ H hH]
    exact mul_pos (hD t) hψ
  · rw [energy_lanczos ψ hψ H hH, le_div_iff₀ (hD t), Complex.normSq_apply]
    have a := h3 t.re
    rw [le_div_iff₀ (h2 t.re)] at a
    have b : e * momentOf ψ H 2 ≤ momentOf ψ H 3 := (le_div_iff₀ m2).1 h4
    have c := mul_le_mul_of_nonneg_left b (mul_self_nonneg t.im)
    nlinarith [a, c]

/-- C35: the reported energy is above every lower bound of the spectrum. -/
theorem C35_bound (ψ : ι → ℂ) (hψ : 0 < norm2 ψ) (H : Matrix ι ι ℂ) (hH : H.IsHermitian)
    (hv : momentOf ψ H 1 ^ 2 < momentOf ψ H 2) {al e : ℝ} {v : Option ℝ}
    (h : lanczosCmp (momentOf ψ H 1) (momentOf ψ H 2) (momentOf ψ H 2) (momentOf ψ H 3)
      (momentOf ψ H 4) = .ok (al, e, v)) (e0 : ℝ)
    (h0 : ∀ φ : ι → ℂ, 0 < norm2 φ → e0 ≤ energyOfState φ H) :
    e0 ≤ e ∧ e ≤ energyOfState ψ H := by
  obtain ⟨h1, h2⟩ := C35_variational ψ hψ H hH hv h
  refine ⟨h1 ▸ h0 _ (h2 al).1, ?_⟩
  have := (h2 0).2
  rwa [show lanczosState ψ H 0 = ψ by simp [lanczosState]] at this

/-- C35: the reported variance is the relative energy variance of `(1 + alpha H) psi`. -/
theorem C35_variance (ψ : ι → ℂ) (hψ : 0 < norm2 ψ) (H : Matrix ι ι ℂ) (hH : H.IsHermitian)
    (hv : momentOf ψ H 1 ^ 2 < momentOf ψ H 2) {al e v : ℝ}
    (h : lanczosCmp (momentOf ψ H 1) (momentOf ψ H 2) (momentOf ψ H 2) (momentOf ψ H 3)
      (momentOf ψ H 4) = .ok (al, e, some v)) :
    e ≠ 0 ∧ v = (energyOfState (lanczosState ψ H al) (H * H) -
      energyOfState (lanczosState ψ H al) H ^ 2) / energyOfState (lanczosState ψ H al) H ^ 2 := by
  obtain ⟨h1, h2⟩ := C35_variational ψ hψ H hH hv h
  obtain ⟨_, hpos, _, _⟩ := C35_lowest hv h
  obtain ⟨_, _, s, o, _, _, _, _, _, hby⟩ := lanczosCmp_ok h
  unfold calculateEneByAlpha at hby
  dsimp only at hby
  split at hby
  · cases hby
  split at hby
  · cases hby
  have hby := LancOut.ok.inj hby
  have e1 := congrArg Prod.fst hby
  have e2 := congrArg Prod.snd hby
  dsimp only at e1 e2
  rw [e1] at e2
  split at e2
  · cases e2
  rename_i hne
  refine ⟨hne, ?_⟩
  have e3 := Option.some.inj e2
  rw [← e3, ← h1]
  congr 2
  unfold energyOfState expect
  rw [Complex.div_ofReal_re, norm2_lanczos ψ hψ H hH]
  have := ev_lanczos_H ψ hψ H hH al 2
  rw [pow_two] at this
  rw [this, mul_div_mul_right _ _ (ne_of_gt hψ), Complex.ofReal_re, Complex.normSq_ofReal]

end

/-- C35 is violated by the code for an exact eigenstate: the formula for `alpha` divides
by zero, so no energy is obtained although the energy is known exactly. -/
theorem C35_eigenstate_violated (u : ℝ) :
    lanczosCmp u (u ^ 2) (u ^ 2) (u ^ 3) (u ^ 4) = .nan := by
  have : calculateEne u (u ^ 2) (u ^ 2) (u ^ 3) (u ^ 4) = .nan := by
    unfold calculateEne
    dsimp only
    rw [if_neg, if_pos]
    · ring
    · have : u ^ 2 * (u ^ 2 + u ^ 2) ^ 2 - u ^ 2 * u ^ 2 * (u ^ 2 + 2 * u ^ 2) + 4 * u ^ 3 * u ^ 3 -
        2 * u * (2 * u ^ 2 + u ^ 2) * u ^ 3 + u ^ 3 * u ^ 3 = 0 := by ring
      rw [this]; exact lt_irrefl 0
  unfold lanczosCmp
  rw [this]

/-- C35 is violated by the code for states that are no eigenstates but whose lowest
energy is reached in the limit of infinite `alpha`: again a division by zero. -/
theorem C35_infinite_alpha_violated :
    ((-1 : ℝ) ^ 2 < 2) ∧ lanczosCmp (-1) 2 2 (-4) 8 = .nan := by
  refine ⟨by norm_num, ?_⟩
  have : calculateEne (-1) 2 2 (-4) 8 = .nan := by
    unfold calculateEne
    norm_num
  unfold lanczosCmp
  rw [this]

/-- The moments -1, 2, -4, 8 used above belong to the state `(1, 1)` of a Hamiltonian with
eigenvalues 0 and -2. -/
example : momentOf (![1, 1] : Fin 2 → ℂ) !![0, 0; 0, -2] 1 = -1 ∧
    momentOf (![1, 1] : Fin 2 → ℂ) !![0, 0; 0, -2] 2 = 2 ∧
    momentOf (![1, 1] : Fin 2 → ℂ) !![0, 0; 0, -2] 3 = -4 := by
  refine ⟨?_, ?_, ?_⟩ <;>
  · simp [momentOf, expect, ev, norm2, Fin.sum_univ_two, dotProduct, mulVec, pow_succ]
    norm_num

/-- C35 is violated by the real mode of the code: it ignores the error return, so it
reports whatever was in the uninitialised variables.  Here the moments are those of
energies of order 10^12, for which the norm test fails. -/
theorem C35_real_mode_violated (junk : LancEne) :
    lanczosCmp (2 * 10 ^ 12) (4 * 10 ^ 24 + 1) (4 * 10 ^ 24 - 1) (8 * 10 ^ 36) 0 = .err ∧
    lanczosReal junk (2 * 10 ^ 12) (4 * 10 ^ 24 + 1) (4 * 10 ^ 24 - 1) (8 * 10 ^ 36) 0 =
      .ok (chooseAlpha junk) := by
  have : calculateEne (2 * 10 ^ 12) (4 * 10 ^ 24 + 1) (4 * 10 ^ 24 - 1) (8 * 10 ^ 36) 0 = .err := by
    unfold calculateEne
    dsimp only
    have hCC : (4 * 10 ^ 24 + 1 : ℝ) * (4 * 10 ^ 24 + 1 + (4 * 10 ^ 24 - 1)) ^ 2 -
        (2 * 10 ^ 12) ^ 2 * (4 * 10 ^ 24 + 1) * (4 * 10 ^ 24 + 1 + 2 * (4 * 10 ^ 24 - 1)) +
        4 * (2 * 10 ^ 12) ^ 3 * (8 * 10 ^ 36) -
        2 * (2 * 10 ^ 12) * (2 * (4 * 10 ^ 24 + 1) + (4 * 10 ^ 24 - 1)) * (8 * 10 ^ 36) +
        8 * 10 ^ 36 * (8 * 10 ^ 36) = (2 * 10 ^ 12) ^ 2 := by norm_num
    rw [hCC, if_neg (by norm_num), if_neg (by norm_num), Real.sqrt_sq (by norm_num)]
    have : calculateEneByAlpha (2 * 10 ^ 12) (4 * 10 ^ 24 + 1) (4 * 10 ^ 24 - 1) (8 * 10 ^ 36) 0
        ((-(2 * 10 ^ 12) * (4 * 10 ^ 24 + 1) + 8 * 10 ^ 36 + 2 * 10 ^ 12) /
        ((4 * 10 ^ 24 + 1) * (4 * 10 ^ 24 + 1 + (4 * 10 ^ 24 - 1)) -
          2 * (2 * 10 ^ 12) * (8 * 10 ^ 36))) = .err := by
      rw [show ((-(2 * 10 ^ 12) * (4 * 10 ^ 24 + 1) + 8 * 10 ^ 36 + 2 * 10 ^ 12) /
        ((4 * 10 ^ 24 + 1) * (4 * 10 ^ 24 + 1 + (4 * 10 ^ 24 - 1)) -
          2 * (2 * 10 ^ 12) * (8 * 10 ^ 36)) : ℝ) = 0 by norm_num]
      unfold calculateEneByAlpha
      dsimp only
      rw [if_pos]
      refine ⟨by norm_num, ?_⟩
      rw [abs_of_pos (by norm_num)]
      norm_num
    rw [this]
  exact ⟨by unfold lanczosCmp; rw [this], by unfold lanczosReal; rw [this]⟩

/-- A case that works: eigenvalues -1 and 2 seen with equal weight; the Lanczos step finds
the exact ground state energy -1 with `alpha = -1/2`. -/
example : lanczosCmp (1 / 2) (5 / 2) (5 / 2) (7 / 2) (17 / 2) = .ok (-1 / 2, -1, some 0) := by
  have : calculateEne (1 / 2) (5 / 2) (5 / 2) (7 / 2) (17 / 2) =
      .ok ⟨1, 2, some 0, -1 / 2, -1, some 0⟩ := by
    unfold calculateEne
    dsimp only
    rw [if_neg (by norm_num), if_neg (by norm_num)]
    rw [show ((5 / 2 : ℝ) * (5 / 2 + 5 / 2) ^ 2 - (1 / 2) ^ 2 * (5 / 2) * (5 / 2 + 2 * (5 / 2)) +
      4 * (1 / 2) ^ 3 * (7 / 2) - 2 * (1 / 2) * (2 * (5 / 2) + 5 / 2) * (7 / 2) +
      7 / 2 * (7 / 2)) = (27 / 4) ^ 2 by norm_num, Real.sqrt_sq (by norm_num)]
    norm_num [calculateEneByAlpha]
  unfold lanczosCmp
  rw [this]
  norm_num [chooseAlpha]

end MVMC
