import Verif.Proof.SafeMpi

/-! # C04: chunked MPI transfers -/
namespace MVMC
open Spec

/-- C04 for every buffer length up to `INT_MAX - 2^20 + 1`: the loop terminates without overflow and the
chunks are consecutive, non-empty, of at most `2^20` elements and cover the buffer exactly.
Missing: longer buffers, for which `idx+nSend` can overflow (see `C04_overflow_near_INT_MAX`). -/
theorem C04_chunks_cover_partial (nData : Nat) (h : nData + mpiSendMax ≤ intMax + 1) :
    ∃ chunks, safeMpi intMax mpiSendMax nData = some (.ok chunks) ∧
      Consecutive mpiSendMax 0 nData chunks ∧
      (∀ i, timesMoved chunks i = if i < nData then 1 else 0) := by
  obtain ⟨c, h1, h2⟩ := chunkLoop_correct intMax mpiSendMax nData 0 mpiSendMax nData []
    (by omega) (by omega) (Or.inl (by decide)) (Nat.le_refl _) h (by simp [Consecutive])
  refine ⟨c, h1, h2, fun i => ?_⟩
  rw [(timesMoved_consecutive _ _ _ _ h2 i).2]
  simp

/-- C04: hence the chunked transfer has the effect of one transfer of the whole buffer: the first
`nData` elements are replaced, nothing else is touched. -/
theorem C04_same_as_single_transfer_partial {α : Type} (op buf : Nat → α) (nData : Nat)
    (h : nData + mpiSendMax ≤ intMax + 1) :
    ∃ chunks, safeMpi intMax mpiSendMax nData = some (.ok chunks) ∧
      applyChunks op buf chunks = fun i => if i < nData then op i else buf i := by
  obtain ⟨c, h1, _, h3⟩ := C04_chunks_cover_partial nData h
  refine ⟨c, h1, ?_⟩
  funext i
  rw [applyChunks_eq, h3]
  by_cases hi : i < nData <;> simp [hi]

/-- The overflow is real. Stated for arbitrary `imax` and chunk size `m`: whenever the last full
chunk boundary `k*m < nData` satisfies `k*m + m > imax`, the loop overflows. -/
theorem C04_overflow_general (imax m k nData : Nat) (hm : 0 < m) (hk : k * m < nData)
    (hle : k * m ≤ imax) (hov : k * m + m > imax) (acc : List (Nat × Nat)) (j : Nat) (hj : j ≤ k)
    (fuel : Nat) (hf : k - j < fuel) (hn : k * m ≤ nData) :
    chunkLoop imax fuel (j * m) m nData acc = some .overflow := by
  induction fuel generalizing j acc with
  | zero => omega
  | succ fuel ih =>
    unfold chunkLoop
    by_cases hjk : j = k
    · subst hjk
      rw [if_pos hk, if_pos hov]
    · have h1 : j * m + m ≤ k * m := by
        have := Nat.mul_le_mul_right m (show j + 1 ≤ k by omega)
        rwa [Nat.add_mul, Nat.one_mul] at this
      rw [if_pos (by omega), if_neg (by omega)]
      simp only
      rw [if_neg (by omega)]
      have e : j * m + m = (j+1) * m := by rw [Nat.add_mul, Nat.one_mul]
      rw [e]
      exact ih _ _ (by omega) (by omega)

/-- Negation of C04 in full: for a buffer of `INT_MAX` elements the wrapper overflows a 32-bit `int`. -/
theorem C04_overflow_near_INT_MAX : safeMpi intMax mpiSendMax intMax = some .overflow := by
  have := C04_overflow_general intMax mpiSendMax 2047 intMax (by decide) (by decide) (by decide)
    (by decide) [] 0 (by decide) intMax (by decide) (by decide)
  simpa [safeMpi] using this

-- concrete cases with a small chunk limit: exact multiple, remainder, short buffer, empty buffer
example : safeMpi 100 4 8 = some (.ok [(0,4),(4,4)]) := by decide
example : safeMpi 100 4 10 = some (.ok [(0,4),(4,4),(8,2)]) := by decide
example : safeMpi 100 4 3 = some (.ok [(0,3)]) := by decide
example : safeMpi 100 4 0 = some (.ok []) := by decide
example : (3000000 : Nat) + mpiSendMax ≤ intMax + 1 := by decide

end MVMC
