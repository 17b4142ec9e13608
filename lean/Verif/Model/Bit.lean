import Verif.Model.C
/-!
# Bits and bytes (src/bit.h)

An unsigned integer of a type with `w` bits is a natural number below `2^w`. Types narrower than `int` are promoted to the 32-bit `int`, so shifts have to be less than `promoted w`.
-/
namespace Verif.Bit

/-- The width of a type after integer promotion. -/
def promoted (w : Nat) : Nat := max w 32

/-- `~n`, converted back to the type. -/
def compl (w n : Nat) : Nat := 2 ^ w - 1 - n

/-! ## Without builtins -/

/-- The loop of `COUNT_ONES`, src/bit.h:365-372.  The first argument bounds the number of iterations. -/
def onesLoop : Nat → Nat → Nat → Out Nat
  | 0, _, _ => .ub
  | fuel + 1, n, ret => if n = 0 then .ok ret else onesLoop fuel (n &&& (n - 1)) (ret + 1)

/-- `COUNT_ONES`, src/bit.h:365-372. -/
def countOnes (w n : Nat) : Out Nat := onesLoop (w + 1) n 0

/-- The loop of `LEADING_ZEROS`, src/bit.h:374-380. -/
def leadingLoop (n : Nat) : Nat → Nat → Nat → Out Nat
  | 0, _, _ => .ub
  | fuel + 1, bit, ret => if bit ≠ 0 ∧ n &&& bit = 0 then leadingLoop n fuel (bit >>> 1) (ret + 1) else .ok ret

/-- `LEADING_ZEROS`, src/bit.h:374-380. -/
def leadingZeros (w n : Nat) : Out Nat := leadingLoop n (w + 1) (1 <<< (w - 1)) 0

/-- The loop of `TRAILING_ZEROS`, src/bit.h:382-388. -/
def trailingLoop (w n : Nat) : Nat → Nat → Nat → Out Nat
  | 0, _, _ => .ub
  | fuel + 1, bit, ret => if bit ≠ 0 ∧ n &&& bit = 0 then trailingLoop w n fuel ((bit <<< 1) % 2 ^ w) (ret + 1) else .ok ret

/-- `TRAILING_ZEROS`, src/bit.h:382-388. -/
def trailingZeros (w n : Nat) : Out Nat := trailingLoop w n (w + 1) 1 0

/-- `FIRST_TRAILING_ONE`, src/bit.h:390-393. -/
def firstTrailingOne (w n : Nat) : Out Nat := if n ≠ 0 then (trailingZeros w n).bind fun k => .ok (k + 1) else .ok 0

/-! ## With builtins -/

/-- `__builtin_popcount()`, for a type with `w` bits. -/
def popcount : Nat → Nat → Nat
  | 0, _ => 0
  | w + 1, n => (if n.testBit w then 1 else 0) + popcount w n

/-- `__builtin_clz()`: the number of zeros from the most significant bit; undefined for 0. -/
def clz : Nat → Nat → Out Nat
  | 0, _ => .ub
  | w + 1, n => if n.testBit w then .ok 0 else (clz w n).bind fun k => .ok (k + 1)

/-- The index of the first bit that is set, from `i` on. -/
def ctzFrom (n : Nat) : Nat → Nat → Out Nat
  | 0, _ => .ub
  | w + 1, i => if n.testBit i then .ok i else ctzFrom n w (i + 1)

/-- `__builtin_ctz()`: undefined for 0. -/
def ctz (w n : Nat) : Out Nat := ctzFrom n w 0

/-- `__builtin_ffs()`. -/
def ffs (w n : Nat) : Out Nat := if n = 0 then .ok 0 else (ctz w n).bind fun k => .ok (k + 1)

/-- `COUNT_ONES`, src/bit.h:341-344. -/
def countOnesGnu (w n : Nat) : Nat := popcount (promoted w) n

/-- `LEADING_ZEROS`, src/bit.h:346-351. -/
def leadingZerosGnu (w n : Nat) : Out Nat := if n ≠ 0 then (clz (promoted w) n).bind fun k => .ok (k - (promoted w - w)) else .ok w

/-- `TRAILING_ZEROS`, src/bit.h:353-356. -/
def trailingZerosGnu (w n : Nat) : Out Nat := if n ≠ 0 then ctz (promoted w) n else .ok w

/-- `FIRST_TRAILING_ONE`, src/bit.h:358-361. -/
def firstTrailingOneGnu (w n : Nat) : Out Nat := ffs (promoted w) n

/-! ## With either; `lz` is `leading_zeros()` -/

/-- `FIRST_LEADING_ONE`, src/bit.h:402-405. -/
def firstLeadingOne (lz : Nat → Nat → Out Nat) (w n : Nat) : Out Nat := if n ≠ 0 then (lz w n).bind fun k => .ok (k + 1) else .ok 0

/-- `HAS_SINGLE_BIT`, src/bit.h:407-411.  If the type is promoted, `n - 1` is a signed -1 for `n = 0`, and so is `n ^ (n - 1)`. -/
def hasSingleBit (w n : Nat) : Bool :=
  if w < 32 ∧ n = 0 then decide ((-1 : Int) < -1)
  else decide ((n + (2 ^ w - 1)) % 2 ^ w < n ^^^ ((n + (2 ^ w - 1)) % 2 ^ w))

/-- `BIT_WIDTH`, src/bit.h:413-416. -/
def bitWidth (lz : Nat → Nat → Out Nat) (w n : Nat) : Out Nat := (lz w n).bind fun k => .ok (w - k)

/-- `(type)1 << c`, in the promoted type, converted to the type. -/
def shiftOne (w c : Nat) : Out Nat := if c < promoted w then .ok ((1 <<< c) % 2 ^ w) else .ub

/-- `BIT_FLOOR`, src/bit.h:418-421. -/
def bitFloor (lz : Nat → Nat → Out Nat) (w n : Nat) : Out Nat := if n ≠ 0 then (bitWidth lz w n).bind fun k => shiftOne w (k - 1) else .ok 0

/-- `BIT_CEIL`, src/bit.h:423-426. -/
def bitCeil (lz : Nat → Nat → Out Nat) (w n : Nat) : Out Nat := (bitWidth lz w (n - (if n ≠ 0 then 1 else 0))).bind fun k => shiftOne w k

/-- `ROTATE_LEFT`, src/bit.h:457-460.  Rotating by the width or more is treated as undefined, which it is unless the type is narrower than `int`. -/
def rotateLeft (w n c : Nat) : Out Nat := if c < w then .ok (((n <<< c) ||| (n >>> ((w - c) % w))) % 2 ^ w) else .ub

/-- `ROTATE_RIGHT`, src/bit.h:462-465.  See `rotateLeft`. -/
def rotateRight (w n c : Nat) : Out Nat := if c < w then .ok (((n >>> c) ||| (n <<< ((w - c) % w))) % 2 ^ w) else .ub

/-! ## Bytes -/

/-- `bswap_u16()`, src/bit.h:183-185. -/
def bswap16 (n : Nat) : Nat := ((n <<< 8) ||| (n >>> 8)) % 2 ^ 16

/-- `bswap_u32()`, src/bit.h:187-189. -/
def bswap32 (n : Nat) : Nat := ((bswap16 (n % 2 ^ 16) <<< 16) % 2 ^ 32) ||| bswap16 ((n >>> 16) % 2 ^ 16)

/-- `bswap_u64()`, src/bit.h:191-193. -/
def bswap64 (n : Nat) : Nat := ((bswap32 (n % 2 ^ 32) <<< 32) % 2 ^ 64) ||| bswap32 ((n >>> 32) % 2 ^ 32)

/-- `LOAD8_LEU8`, src/bit.h:253. -/
def loadLe8 (ptr : Nat → UInt8) (i n : Nat) : Nat := ((ptr (i / 8)).toNat <<< i) % 2 ^ n
/-- `LOAD8_BEU8`, src/bit.h:254. -/
def loadBe8 (ptr : Nat → UInt8) (i n : Nat) : Nat := ((ptr (i / 8)).toNat <<< (n - i - 8)) % 2 ^ n
/-- `LOAD8_LEU16`, src/bit.h:266. -/
def loadLe16 (ptr : Nat → UInt8) (i n : Nat) : Nat := loadLe8 ptr i n ||| loadLe8 ptr (i + 8) n
/-- `LOAD8_BEU16`, src/bit.h:267. -/
def loadBe16 (ptr : Nat → UInt8) (i n : Nat) : Nat := loadBe8 ptr i n ||| loadBe8 ptr (i + 8) n
/-- `LOAD8_LEU32`, src/bit.h:279. -/
def loadLe32 (ptr : Nat → UInt8) (i n : Nat) : Nat := loadLe16 ptr i n ||| loadLe16 ptr (i + 16) n
/-- `LOAD8_BEU32`, src/bit.h:280. -/
def loadBe32 (ptr : Nat → UInt8) (i n : Nat) : Nat := loadBe16 ptr i n ||| loadBe16 ptr (i + 16) n
/-- `LOAD8_LEU64`, src/bit.h:292. -/
def loadLe64 (ptr : Nat → UInt8) (i n : Nat) : Nat := loadLe32 ptr i n ||| loadLe32 ptr (i + 32) n
/-- `LOAD8_BEU64`, src/bit.h:293. -/
def loadBe64 (ptr : Nat → UInt8) (i n : Nat) : Nat := loadBe32 ptr i n ||| loadBe32 ptr (i + 32) n

/-! ## Counting ASCII bytes -/

/-- The outcome of one `CHUNK_()`: `next` is the index to go on from, `done` the one to return. -/
inductive Chunk where
  | skip | next (i : Nat) | done (i : Nat)
  deriving DecidableEq, Repr

/-- `CHUNK_()` in `asciinlen()`, src/bfstd.c:965-974, for words of `size` bytes.  The word is the little endian number that `load8` reads, which has to be inside the string; `tz` is `trailing_zeros()`. -/
def chunk (tz : Nat → Nat → Out Nat) (load : (Nat → UInt8) → Nat → Nat → Nat) (size : Nat) (str : List UInt8) (i : Nat) : Out Chunk :=
  if str.length - i ≥ size then
    let word := load (fun j => (str[i + j]?).getD 0) 0 (8 * size) &&& ((((2 ^ (8 * size) - 1) / 255) <<< 7) % 2 ^ (8 * size))
    (tz (8 * size) word).bind fun z => if word ≠ 0 then .ok (.done (i + z / 8)) else .ok (.next (i + z / 8))
  else .ok .skip

/-- `while CHUNK(64)`, src/bfstd.c:977.  The first argument bounds the number of iterations. -/
def chunks (tz : Nat → Nat → Out Nat) (str : List UInt8) : Nat → Nat → Out Chunk
  | 0, _ => .ub
  | fuel + 1, i => (chunk tz loadLe64 8 str i).bind fun
    | .skip => .ok (.next i)
    | .next j => chunks tz str fuel j
    | .done j => .ok (.done j)

/-- `if CHUNK(n)`, src/bfstd.c:978-983. -/
def chunkIf (tz : Nat → Nat → Out Nat) (load : (Nat → UInt8) → Nat → Nat → Nat) (size : Nat) (str : List UInt8) : Chunk → Out Chunk
  | .next i => (chunk tz load size str i).bind fun
    | .skip => .ok (.next i)
    | c => .ok c
  | c => .ok c

/-- The result of the last chunk. -/
def Chunk.index : Chunk → Nat
  | .skip => 0
  | .next i => i
  | .done i => i

/-- `asciinlen()`, src/bfstd.c:959-989, where `size_t` has 64 bits. -/
def asciinlen (tz : Nat → Nat → Out Nat) (str : List UInt8) : Out Nat :=
  (chunks tz str (str.length + 1) 0).bind fun c =>
  (chunkIf tz loadLe32 4 str c).bind fun c =>
  (chunkIf tz loadLe16 2 str c).bind fun c =>
  (chunkIf tz loadLe8 1 str c).bind fun c => .ok c.index

end Verif.Bit
