import Mathlib.Data.List.Basic

/-!
# The SFMT-19937 generator as a recursion

M. Saito, M. Matsumoto, "SIMD-oriented Fast Mersenne Twister": a sequence of 128-bit integers with a recursion of order 156, the seeding of
`init_genrand` and the certification vector of the period.
-/
namespace MVMC
namespace Spec

/-- word number `k` of a 128-bit integer, word 0 lowest -/
def lane (x : BitVec 128) (k : ℕ) : BitVec 32 := x.extractLsb' (32 * k) 32

/-- a function applied to each of the four words -/
def onLanes (f : BitVec 32 → BitVec 32) (x : BitVec 128) : BitVec 128 :=
  (f (lane x 3) ++ (f (lane x 2) ++ (f (lane x 1) ++ f (lane x 0) : BitVec 64) : BitVec 96) : BitVec 128)

/-- the recursion `g` with the parameters 122-18-1-11-1 and the mask `dfffffef-ddfecb7f-bffaffff-bffffff6` -/
def sfmtG (a b c d : BitVec 128) : BitVec 128 :=
  a ^^^ (a <<< 8) ^^^ (onLanes (· >>> 11) b &&& 0xbffffff6bffaffffddfecb7fdfffffef#128) ^^^ (c >>> 8) ^^^ onLanes (· <<< 18) d

/-- the sequence obeys the recursion -/
def SfmtRec (w : ℕ → BitVec 128) : Prop := ∀ i, w (i + 156) = sfmtG (w i) (w (i + 122)) (w (i + 154)) (w (i + 155))

/-- the words produced from the seed -/
def seedWord (seed : BitVec 32) : ℕ → BitVec 32
  | 0 => seed
  | k + 1 => 1812433253#32 * (seedWord seed k ^^^ (seedWord seed k >>> 30)) + BitVec.ofNat 32 (k + 1)

/-- an odd number of bits is set -/
def OddBits (x : BitVec 128) : Prop := (List.range 128).countP (fun i => x.getLsbD i) % 2 = 1

/-- the first element of a state has odd scalar product with the certification vector -/
def Certified (x : BitVec 128) : Prop := OddBits (x &&& 0x13c9e684000000000000000000000001#128)

/-- The sequence starts from the words of the seed; only the lowest bit of the first word is adjusted, such that the state is certified. -/
structure StartsFrom (seed : BitVec 32) (w : ℕ → BitVec 128) : Prop where
  words : ∀ k, 1 ≤ k → k < 624 → lane (w (k / 4)) (k % 4) = seedWord seed k
  first : lane (w 0) 0 >>> 1 = seed >>> 1
  cert : Certified (w 0)

/-- number `k` drawn from the sequence after the 624 words of the start -/
def drawAt (w : ℕ → BitVec 128) (k : ℕ) : BitVec 32 := lane (w (156 + k / 4)) (k % 4)

end Spec
end MVMC
