import Mathlib.Data.List.Basic
import Mathlib.Data.Int.Notation
import Mathlib.Logic.Function.Basic

/-!
# The random number generator

`/repo/src/sfmt/SFMT.c` in the two builds that occur: without SIMD (`config/gcc.cmake` and others) and with `-DHAVE_SSE2`
(`config/intel.cmake`, `config/aocc.cmake`: `/repo/src/sfmt/SFMT-sse2.h`). `ONLY64`, `BIG_ENDIAN64` and `HAVE_ALTIVEC` are not defined, so
`idxof(i)` is `i`. `MEXP` is 19937. An access outside the array `sfmt` or a failed `assert` is `none`.
Not modelled: `gen_rand64`, `fill_array32`, `fill_array64`, `init_by_array`, which mVMC does not call.
-/
namespace MVMC

/-- `MEXP` and `N` (`/repo/src/sfmt/SFMT-params.h:18`, `/repo/src/mVMC/CMakeLists.txt:13`) -/
def sfmtN : ℕ := 19937 / 128 + 1

/-- `N32` (`/repo/src/sfmt/SFMT-params.h:21`) -/
def sfmtN32 : ℕ := sfmtN * 4

/-- `POS1` (`/repo/src/sfmt/SFMT-params19937.h:4`) -/
def sfmtPos : ℕ := 122

/-- `struct W128_T` (`/repo/src/sfmt/SFMT.c:58-60`) -/
structure W128 where
  u0 : BitVec 32
  u1 : BitVec 32
  u2 : BitVec 32
  u3 : BitVec 32
  deriving DecidableEq

/-- reading `u[i]` (`/repo/src/sfmt/SFMT.c:58-60`) -/
def W128.get (x : W128) (i : ℕ) : BitVec 32 :=
  match i with
  | 0 => x.u0
  | 1 => x.u1
  | 2 => x.u2
  | _ => x.u3

/-- writing `u[i]` (`/repo/src/sfmt/SFMT.c:58-60`) -/
def W128.set (x : W128) (i : ℕ) (v : BitVec 32) : W128 :=
  match i with
  | 0 => { x with u0 := v }
  | 1 => { x with u1 := v }
  | 2 => { x with u2 := v }
  | _ => { x with u3 := v }

/-- `rshift128` (`/repo/src/sfmt/SFMT.c:145-158`); the shift count is positive and below 8 in all calls -/
def rshift128 (x : W128) (shift : ℕ) : W128 :=
  let th : BitVec 64 := (x.u3.setWidth 64 <<< 32) ||| x.u2.setWidth 64
  let tl : BitVec 64 := (x.u1.setWidth 64 <<< 32) ||| x.u0.setWidth 64
  let oh := th >>> (shift * 8)
  let ol := tl >>> (shift * 8)
  let ol := ol ||| (th <<< (64 - shift * 8))
  { u1 := (ol >>> 32).setWidth 32, u0 := ol.setWidth 32, u3 := (oh >>> 32).setWidth 32, u2 := oh.setWidth 32 }

/-- `lshift128` (`/repo/src/sfmt/SFMT.c:184-197`) -/
def lshift128 (x : W128) (shift : ℕ) : W128 :=
  let th : BitVec 64 := (x.u3.setWidth 64 <<< 32) ||| x.u2.setWidth 64
  let tl : BitVec 64 := (x.u1.setWidth 64 <<< 32) ||| x.u0.setWidth 64
  let oh := th <<< (shift * 8)
  let ol := tl <<< (shift * 8)
  let oh := oh ||| (tl >>> (64 - shift * 8))
  { u1 := (ol >>> 32).setWidth 32, u0 := ol.setWidth 32, u3 := (oh >>> 32).setWidth 32, u2 := oh.setWidth 32 }

/-- `do_recursion` with `SL1 = 18`, `SL2 = 1`, `SR1 = 11`, `SR2 = 1` (`/repo/src/sfmt/SFMT.c:227-242`,
`/repo/src/sfmt/SFMT-params19937.h:5-12`). The result is the value of `*r`; in the calls `r` and `a` may be the same element, whose word `u[k]` is
read for the last time in the assignment that writes it. -/
def doRecursion (a b c d : W128) : W128 :=
  let x := lshift128 a 1
  let y := rshift128 c 1
  { u0 := a.u0 ^^^ x.u0 ^^^ ((b.u0 >>> 11) &&& 0xdfffffef#32) ^^^ y.u0 ^^^ (d.u0 <<< 18)
    u1 := a.u1 ^^^ x.u1 ^^^ ((b.u1 >>> 11) &&& 0xddfecb7f#32) ^^^ y.u1 ^^^ (d.u1 <<< 18)
    u2 := a.u2 ^^^ x.u2 ^^^ ((b.u2 >>> 11) &&& 0xbffaffff#32) ^^^ y.u2 ^^^ (d.u2 <<< 18)
    u3 := a.u3 ^^^ x.u3 ^^^ ((b.u3 >>> 11) &&& 0xbffffff6#32) ^^^ y.u3 ^^^ (d.u3 <<< 18) }

/-- the array `sfmt[N]` (`/repo/src/sfmt/SFMT.c:72`); elements from `sfmtN` on do not exist -/
abbrev SMem := ℕ → W128

/-- reading `sfmt[i]` (`/repo/src/sfmt/SFMT.c:72`) -/
def SMem.rd (m : SMem) (i : ℕ) : Option W128 := if i < sfmtN then some (m i) else none

/-- writing `sfmt[i]` (`/repo/src/sfmt/SFMT.c:72`) -/
def SMem.wr (m : SMem) (i : ℕ) (v : W128) : Option SMem := if i < sfmtN then some (Function.update m i v) else none

/-- reading `psfmt32[k]` (`/repo/src/sfmt/SFMT.c:74`) -/
def SMem.rd32 (m : SMem) (k : ℕ) : Option (BitVec 32) := do
  let w ← m.rd (k / 4)
  some (w.get (k % 4))

/-- writing `psfmt32[k]` (`/repo/src/sfmt/SFMT.c:74`) -/
def SMem.wr32 (m : SMem) (k : ℕ) (v : BitVec 32) : Option SMem := do
  let w ← m.rd (k / 4)
  m.wr (k / 4) (w.set (k % 4) v)

/-- the local variables of `gen_rand_all`: the array and the pointers `r1`, `r2` into it (`/repo/src/sfmt/SFMT.c:251-256`) -/
structure GenLoop where
  mem : SMem
  r1 : ℕ
  r2 : ℕ

/-- one pass of a loop of `gen_rand_all`; `j` is the index of the second source (`/repo/src/sfmt/SFMT.c:258-260,263-265`) -/
def genPass (i j : ℕ) (s : GenLoop) : Option GenLoop := do
  let v := doRecursion (← s.mem.rd i) (← s.mem.rd j) (← s.mem.rd s.r1) (← s.mem.rd s.r2)
  let m ← s.mem.wr i v
  some ⟨m, s.r2, i⟩

/-- `gen_rand_all` (`/repo/src/sfmt/SFMT.c:251-267`) -/
def genRandAll (m : SMem) : Option SMem := do
  let s ← (List.range' 0 (sfmtN - sfmtPos)).foldlM (fun s i => genPass i (i + sfmtPos) s) (⟨m, sfmtN - 2, sfmtN - 1⟩ : GenLoop)
  let s ← (List.range' (sfmtN - sfmtPos) sfmtPos).foldlM (fun s i => genPass i (i + sfmtPos - sfmtN) s) s
  some s.mem

/-- the four words of a register as one integer, `u[0]` lowest (little endian load, `/repo/src/sfmt/SFMT.c:46-49`) -/
def W128.bits (x : W128) : BitVec 128 := (x.u3 ++ (x.u2 ++ (x.u1 ++ x.u0 : BitVec 64) : BitVec 96) : BitVec 128)

/-- the register with a given integer (`/repo/src/sfmt/SFMT.c:46-49`) -/
def W128.ofBits (x : BitVec 128) : W128 :=
  ⟨x.extractLsb' 0 32, x.extractLsb' 32 32, x.extractLsb' 64 32, x.extractLsb' 96 32⟩

/-- the intrinsics used: `_mm_srli_epi32`, `_mm_slli_epi32` shift each word, `_mm_srli_si128`, `_mm_slli_si128` shift the whole register
by bytes, `_mm_xor_si128`, `_mm_and_si128` (`/repo/src/sfmt/SFMT-sse2.h:36-45`) -/
def mmSrli32 (x : W128) (n : ℕ) : W128 := ⟨x.u0 >>> n, x.u1 >>> n, x.u2 >>> n, x.u3 >>> n⟩

/-- see `mmSrli32` (`/repo/src/sfmt/SFMT-sse2.h:36-45`) -/
def mmSlli32 (x : W128) (n : ℕ) : W128 := ⟨x.u0 <<< n, x.u1 <<< n, x.u2 <<< n, x.u3 <<< n⟩

/-- see `mmSrli32` (`/repo/src/sfmt/SFMT-sse2.h:36-45`) -/
def mmSrli (x : W128) (n : ℕ) : W128 := .ofBits (x.bits >>> (n * 8))

/-- see `mmSrli32` (`/repo/src/sfmt/SFMT-sse2.h:36-45`) -/
def mmSlli (x : W128) (n : ℕ) : W128 := .ofBits (x.bits <<< (n * 8))

/-- see `mmSrli32` (`/repo/src/sfmt/SFMT-sse2.h:36-45`) -/
def mmXor (x y : W128) : W128 := ⟨x.u0 ^^^ y.u0, x.u1 ^^^ y.u1, x.u2 ^^^ y.u2, x.u3 ^^^ y.u3⟩

/-- see `mmSrli32` (`/repo/src/sfmt/SFMT-sse2.h:36-45`) -/
def mmAnd (x y : W128) : W128 := ⟨x.u0 &&& y.u0, x.u1 &&& y.u1, x.u2 &&& y.u2, x.u3 &&& y.u3⟩

/-- `mask = _mm_set_epi32(MSK4, MSK3, MSK2, MSK1)` (`/repo/src/sfmt/SFMT-sse2.h:55`) -/
def mmMask : W128 := ⟨0xdfffffef#32, 0xddfecb7f#32, 0xbffaffff#32, 0xbffffff6#32⟩

/-- `mm_recursion` (`/repo/src/sfmt/SFMT-sse2.h:32-46`) -/
def mmRecursion (a b c d mask : W128) : W128 :=
  let x := a
  let y := mmSrli32 b 11
  let z := mmSrli c 1
  let v := mmSlli32 d 18
  let z := mmXor z x
  let z := mmXor z v
  let x := mmSlli x 1
  let y := mmAnd y mask
  let z := mmXor z x
  mmXor z y

/-- the local variables of the SSE2 version of `gen_rand_all`: the array and the registers `r1`, `r2`
(`/repo/src/sfmt/SFMT-sse2.h:52-58`) -/
structure GenLoopSse where
  mem : SMem
  r1 : W128
  r2 : W128

/-- one pass of a loop (`/repo/src/sfmt/SFMT-sse2.h:60-63,66-69`) -/
def genPassSse (i j : ℕ) (s : GenLoopSse) : Option GenLoopSse := do
  let r := mmRecursion (← s.mem.rd i) (← s.mem.rd j) s.r1 s.r2 mmMask
  let m ← s.mem.wr i r
  some ⟨m, s.r2, r⟩

/-- `gen_rand_all`, SSE2 version (`/repo/src/sfmt/SFMT-sse2.h:52-71`) -/
def genRandAllSse (m : SMem) : Option SMem := do
  let r1 ← m.rd (sfmtN - 2)
  let r2 ← m.rd (sfmtN - 1)
  let s ← (List.range' 0 (sfmtN - sfmtPos)).foldlM (fun s i => genPassSse i (i + sfmtPos) s) (⟨m, r1, r2⟩ : GenLoopSse)
  let s ← (List.range' (sfmtN - sfmtPos) sfmtPos).foldlM (fun s i => genPassSse i (i + sfmtPos - sfmtN) s) s
  some s.mem

/-- `parity[4]` (`/repo/src/sfmt/SFMT.c:85`, `/repo/src/sfmt/SFMT-params19937.h:13-16`) -/
def sfmtParity (i : ℕ) : BitVec 32 :=
  match i with
  | 0 => 0x00000001#32
  | 1 => 0x00000000#32
  | 2 => 0x00000000#32
  | _ => 0x13c9e684#32

/-- the check of `period_certification`: `inner` is an `int`, `>>` keeps its sign (`/repo/src/sfmt/SFMT.c:348-356`) -/
def periodInner (m : SMem) : Option (BitVec 32) := do
  let inner ← (List.range 4).foldlM (fun (r : BitVec 32) i => do some (r ^^^ ((← m.rd32 i) &&& sfmtParity i))) 0#32
  let inner := [16, 8, 4, 2, 1].foldl (fun (r : BitVec 32) i => r ^^^ r.sshiftRight i) inner
  some (inner &&& 1#32)

/-- the inner loop of the modification; the result is `none` when no bit of `parity[i]` is left, otherwise the value of `work`
(`/repo/src/sfmt/SFMT.c:363-370`) -/
def periodBit (i : ℕ) : (j : ℕ) → (work : BitVec 32) → Option (BitVec 32)
  | 0, _ => none
  | j + 1, work => if work &&& sfmtParity i ≠ 0 then some work else periodBit i j (work <<< 1)

/-- the outer loop of the modification (`/repo/src/sfmt/SFMT.c:362-371`) -/
def periodFix (m : SMem) : List ℕ → Option SMem
  | [] => some m
  | i :: is =>
    match periodBit i 32 1#32 with
    | some work => do m.wr32 i ((← m.rd32 i) ^^^ work)
    | none => periodFix m is

/-- `period_certification` (`/repo/src/sfmt/SFMT.c:347-372`) -/
def periodCertification (m : SMem) : Option SMem := do
  let inner ← periodInner m
  if inner = 1#32 then some m else periodFix m (List.range 4)

/-- the static variables `sfmt`, `idx` and `initialized` (`/repo/src/sfmt/SFMT.c:72-83`) -/
structure SfmtState where
  mem : SMem
  idx : ℕ
  init : Bool

/-- the right-hand side of the seeding loop; `1812433253UL` and therefore the whole expression is a 64-bit number, converted to 32 bits by the
assignment (`/repo/src/sfmt/SFMT.c:542-544`) -/
def seedNext (x : BitVec 32) (i : ℕ) : BitVec 32 :=
  ((1812433253#64 * (x ^^^ (x >>> 30)).setWidth 64) + BitVec.ofNat 64 i).setWidth 32

/-- the loop of `init_gen_rand` (`/repo/src/sfmt/SFMT.c:541-545`) -/
def seedLoop (m : SMem) : Option SMem :=
  (List.range' 1 (sfmtN32 - 1)).foldlM (fun (m : SMem) i => do m.wr32 i (seedNext (← m.rd32 (i - 1)) i)) m

/-- `init_gen_rand` (`/repo/src/sfmt/SFMT.c:537-549`) -/
def initGenRand (m : SMem) (seed : BitVec 32) : Option SfmtState := do
  let m ← m.wr32 0 seed
  let m ← seedLoop m
  let m ← periodCertification m
  some ⟨m, sfmtN32, true⟩

/-- `gen_rand32`; `all` is the version of `gen_rand_all` of the build (`/repo/src/sfmt/SFMT.c:410-420`) -/
def genRand32 (all : SMem → Option SMem) (s : SfmtState) : Option (BitVec 32 × SfmtState) := do
  if s.init then
    let s ← if s.idx ≥ sfmtN32 then do some { s with mem := (← all s.mem), idx := 0 } else some s
    let r ← s.mem.rd32 s.idx
    some (r, { s with idx := s.idx + 1 })
  else none

/-- the numbers returned by `n` calls (`/repo/src/sfmt/SFMT.c:410-420`) -/
def genList (all : SMem → Option SMem) : (n : ℕ) → SfmtState → Option (List (BitVec 32))
  | 0, _ => some []
  | n + 1, s => do
    let (r, s) ← genRand32 all s
    let rs ← genList all n s
    some (r :: rs)

/-- the numbers a process receives after `init_gen_rand(RndSeed+group1)`; the sum is an `int`, converted to `uint32_t`
(`/repo/src/mVMC/vmcmain.c:257`) -/
def groupDraws (all : SMem → Option SMem) (m : SMem) (rndSeed : Int) (group : Nat) (n : ℕ) : Option (List (BitVec 32)) :=
  if -(2 ^ 31) ≤ rndSeed + (group : Int) ∧ rndSeed + (group : Int) < 2 ^ 31 then do
    let s ← initGenRand m (BitVec.ofInt 32 (rndSeed + (group : Int)))
    genList all n s
  else none

end MVMC
