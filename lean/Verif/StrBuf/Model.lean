import Mathlib.Data.Nat.Log

/-!
# The string buffer (`/repo/src/strbuf.h`, `/repo/src/strbuf.cpp`)

Bytes are natural numbers below 256.  The three pointers `m_start`, `m_cur`, `m_end` of a
`StringBuffer` are represented by the contents of the allocation, the offset of the cursor and
the capacity (`m_end - m_start`).  A null buffer is one with capacity 0: the constructor and
`expand` never allocate zero bytes.

Every write goes through `Buf.store`, which fails with `Fault.oob` when it leaves the
allocation, so "no write out of bounds" is the statement that an operation does not fail.

Simplifications:
* Sizes are natural numbers: the `size_t` additions of `put`, `expand` and `fmt_bound` do not
  wrap (the total size stays below 2^63).
* `malloc_check`/`realloc_check` succeed (`malloc_check` aborts otherwise).
* The byte contents of memory that was never written are arbitrary: they are the values of an
  unconstrained function.
-/

set_option linter.unusedVariables false

namespace Verif.StrBuf

/-- What can go wrong: a write outside of the allocation, an overlapping `memcpy`, a missing or
mistyped variadic argument (all undefined behaviour in C++), a call to `abort()`, or more
iterations than expected in the `vsnprintf` loop. -/
inductive Fault where
  | oob | overlap | badArg | abort | loop
  deriving DecidableEq, Repr

/-- The ASCII codes of a string. -/
def bytes (s : String) : List Nat := s.toList.map Char.toNat

/-- `struct StringBuffer` (strbuf.h:45-226): `cap = m_end - m_start`, `cur = m_cur - m_start`,
`byte i = m_start[i]`. -/
structure Buf where
  cap : Nat
  cur : Nat
  byte : Nat → Nat

/-- `memcpy(m_start + i, bs, bs.length)` -/
def Buf.store (b : Buf) (i : Nat) (bs : List Nat) : Except Fault Buf :=
  if i + bs.length ≤ b.cap then
    .ok { b with byte := fun j => if i ≤ j ∧ j < i + bs.length then bs.getD (j - i) 0 else b.byte j }
  else .error .oob

/-- The bytes `m_start[i] … m_start[i+n-1]`, read from the allocation. -/
def Buf.read (b : Buf) (i n : Nat) : List Nat := (List.range n).map fun k => b.byte (i + k)

/-! ### Decimal formatting -/

/-- `digit_pairs` (strbuf.cpp:25-35) -/
def digitPairs : List Nat :=
  bytes "00010203040506070809" ++
  bytes "10111213141516171819" ++
  bytes "20212223242526272829" ++
  bytes "30313233343536373839" ++
  bytes "40414243444546474849" ++
  bytes "50515253545556575859" ++
  bytes "60616263646566676869" ++
  bytes "70717273747576777879" ++
  bytes "80818283848586878889" ++
  bytes "90919293949596979899"

/-- `digit_pairs_lead` (strbuf.cpp:38-48) -/
def digitPairsLead : List Nat :=
  bytes "00112233445566778899" ++
  bytes "10111213141516171819" ++
  bytes "20212223242526272829" ++
  bytes "30313233343536373839" ++
  bytes "40414243444546474849" ++
  bytes "50515253545556575859" ++
  bytes "60616263646566676869" ++
  bytes "70717273747576777879" ++
  bytes "80818283848586878889" ++
  bytes "90919293949596979899"

/-- The two bytes at `&table[i * 2]` -/
def pairAt (t : List Nat) (i : Nat) : List Nat := [t.getD (2 * i) 0, t.getD (2 * i + 1) 0]

/-- A `memcpy(d, &table[i * 2], 2)`. -/
def putPair (b : Buf) (d : Nat) (t : List Nat) (i : Nat) : Except Fault Buf :=
  b.store d (pairAt t i)

/-- `b -= n < limit` -/
def back (n limit : Nat) : Nat := if n < limit then 1 else 0

/-- `w_u32` (strbuf.cpp:55-93).  The constants are the values of the floating point
expressions converted to integers, e.g. `(uint32_t) (10 * (1 << 24) / 1e3 + 1) = 167773`.
Products are reduced modulo the width of their C++ type. -/
def w_u32 (b : Buf) (d : Nat) (n : Nat) : Except Fault (Buf × Nat) :=
  if n < 100 then do
    let b ← putPair b d digitPairsLead n
    return (b, if n < 10 then d + 1 else d + 2)
  else if n < 10000 then do
    let f0 := 167773 * n % 2 ^ 32
    let b ← putPair b d digitPairsLead (f0 / 2 ^ 24)
    let k := back n 1000
    let f2 := (f0 % 2 ^ 24) * 100 % 2 ^ 32
    let b ← putPair b (d + 2 - k) digitPairs (f2 / 2 ^ 24)
    return (b, d + 4 - k)
  else if n < 1000000 then do
    let f0 := 429497 * n % 2 ^ 64
    let b ← putPair b d digitPairsLead (f0 / 2 ^ 32)
    let k := back n 100000
    let f2 := (f0 % 2 ^ 32) * 100 % 2 ^ 64
    let b ← putPair b (d + 2 - k) digitPairs (f2 / 2 ^ 32)
    let f4 := (f2 % 2 ^ 32) * 100 % 2 ^ 64
    let b ← putPair b (d + 4 - k) digitPairs (f4 / 2 ^ 32)
    return (b, d + 6 - k)
  else if n < 100000000 then do
    let f0 := 281474977 * n % 2 ^ 64 / 2 ^ 16
    let b ← putPair b d digitPairsLead (f0 / 2 ^ 32)
    let k := back n 10000000
    let f2 := (f0 % 2 ^ 32) * 100 % 2 ^ 64
    let b ← putPair b (d + 2 - k) digitPairs (f2 / 2 ^ 32)
    let f4 := (f2 % 2 ^ 32) * 100 % 2 ^ 64
    let b ← putPair b (d + 4 - k) digitPairs (f4 / 2 ^ 32)
    let f6 := (f4 % 2 ^ 32) * 100 % 2 ^ 64
    let b ← putPair b (d + 6 - k) digitPairs (f6 / 2 ^ 32)
    return (b, d + 8 - k)
  else do
    let f0 := 1441151881 * n % 2 ^ 64
    let b ← putPair b d digitPairsLead (f0 / 2 ^ 57)
    let k := back n 1000000000
    let f2 := (f0 % 2 ^ 57) * 100 % 2 ^ 64
    let b ← putPair b (d + 2 - k) digitPairs (f2 / 2 ^ 57)
    let f4 := (f2 % 2 ^ 57) * 100 % 2 ^ 64
    let b ← putPair b (d + 4 - k) digitPairs (f4 / 2 ^ 57)
    let f6 := (f4 % 2 ^ 57) * 100 % 2 ^ 64
    let b ← putPair b (d + 6 - k) digitPairs (f6 / 2 ^ 57)
    let f8 := (f6 % 2 ^ 57) * 100 % 2 ^ 64
    let b ← putPair b (d + 8 - k) digitPairs (f8 / 2 ^ 57)
    return (b, d + 10 - k)

/-- `eight_digits` (strbuf.cpp:96-102) -/
def eightDigits (b : Buf) (d : Nat) (z : Nat) : Except Fault Buf := do
  let f0 := 281474977 * z % 2 ^ 64 / 2 ^ 16 + 1
  let b ← putPair b d digitPairs (f0 / 2 ^ 32)
  let f2 := (f0 % 2 ^ 32) * 100 % 2 ^ 64
  let b ← putPair b (d + 2) digitPairs (f2 / 2 ^ 32)
  let f4 := (f2 % 2 ^ 32) * 100 % 2 ^ 64
  let b ← putPair b (d + 4) digitPairs (f4 / 2 ^ 32)
  let f6 := (f4 % 2 ^ 32) * 100 % 2 ^ 64
  putPair b (d + 6) digitPairs (f6 / 2 ^ 32)

/-- `w_u64` (strbuf.cpp:105-112) -/
def w_u64 (b : Buf) (d : Nat) (value : Nat) : Except Fault (Buf × Nat) :=
  if value ≤ 0xFFFFFFFF then w_u32 b d value
  else do
    let z := value % 100000000
    let (b, d) ← w_u64 b d (value / 100000000)
    let b ← eightDigits b d z
    return (b, d + 8)
termination_by value
decreasing_by omega

/-! ### Hexadecimal formatting -/

/-- `num` (strbuf.cpp:118) -/
def num : List Nat := bytes "0123456789abcdef"

/-- `hex_pairs` (strbuf.cpp:121-137) -/
def hexPairs : List Nat :=
  bytes "000102030405060708090a0b0c0d0e0f" ++
  bytes "101112131415161718191a1b1c1d1e1f" ++
  bytes "202122232425262728292a2b2c2d2e2f" ++
  bytes "303132333435363738393a3b3c3d3e3f" ++
  bytes "404142434445464748494a4b4c4d4e4f" ++
  bytes "505152535455565758595a5b5c5d5e5f" ++
  bytes "606162636465666768696a6b6c6d6e6f" ++
  bytes "707172737475767778797a7b7c7d7e7f" ++
  bytes "808182838485868788898a8b8c8d8e8f" ++
  bytes "909192939495969798999a9b9c9d9e9f" ++
  bytes "a0a1a2a3a4a5a6a7a8a9aaabacadaeaf" ++
  bytes "b0b1b2b3b4b5b6b7b8b9babbbcbdbebf" ++
  bytes "c0c1c2c3c4c5c6c7c8c9cacbcccdcecf" ++
  bytes "d0d1d2d3d4d5d6d7d8d9dadbdcdddedf" ++
  bytes "e0e1e2e3e4e5e6e7e8e9eaebecedeeef" ++
  bytes "f0f1f2f3f4f5f6f7f8f9fafbfcfdfeff"

/-- `__builtin_clzll(v)` for `0 < v < 2^64` -/
def clz64 (v : Nat) : Nat := 63 - Nat.log 2 v

/-- `hex_digits` (strbuf.cpp:140-148), the variant for GCC/clang -/
def hexDigits (v : Nat) : Nat := if v ≠ 0 then (64 - clz64 v + 3) / 4 else 1

/-- The loop of `w_x64` (strbuf.cpp:153-162), `p` is the position of the digit written last. -/
def hexLoop (b : Buf) (p : Nat) (value : Nat) : Except Fault Buf :=
  if value ≥ 0x100 then do
    let b ← putPair b (p - 2) hexPairs (value % 256)
    hexLoop b (p - 2) (value / 256)
  else if value < 0x10 then b.store (p - 1) [num.getD value 0]
  else putPair b (p - 2) hexPairs value
termination_by value
decreasing_by omega

/-- `w_x64` (strbuf.cpp:151-164), also used by `w_x32` (strbuf.cpp:167-169) -/
def w_x64 (b : Buf) (d : Nat) (value : Nat) : Except Fault (Buf × Nat) := do
  let e := d + hexDigits value
  let b ← hexLoop b e value
  return (b, e)

/-- The loop of `w_q64` (strbuf.cpp:173-177), `k = i + 1` -/
def q64Loop (b : Buf) (d : Nat) : (k : Nat) → (value : Nat) → Except Fault Buf
  | 0, _ => .ok b
  | i + 1, value => do
    let b ← putPair b (d + i * 2) hexPairs (value % 256)
    q64Loop b d i (value / 256)

/-- `w_q64` (strbuf.cpp:172-179) -/
def w_q64 (b : Buf) (d : Nat) (value : Nat) : Except Fault (Buf × Nat) := do
  let b ← q64Loop b d 8 value
  return (b, d + 16)

/-! ### String copying -/

/-- `w_strn` (strbuf.cpp:194-197), also individual stores `*cur++ = c` -/
def w_strn (b : Buf) (d : Nat) (s : List Nat) : Except Fault (Buf × Nat) := do
  let b ← b.store d s
  return (b, d + s.length)

/-- `NameTable` (var.h:370-387): a row holds up to 6 characters, zeros, and the length in its
last byte. -/
def mkRow (s : List Nat) : List Nat := (s ++ List.replicate (7 - s.length) 0) ++ [s.length]

/-- `w_type` (strbuf.cpp:205-210): copies all 8 bytes, advances by the length byte. -/
def w_type (b : Buf) (d : Nat) (row : List Nat) : Except Fault (Buf × Nat) := do
  let b ← b.store d row
  return (b, d + row.getD 7 0)

/-- `memcpy(&w, p, 8)`: a little-endian 64-bit load -/
def load64 (p : List Nat) : BitVec 64 :=
  BitVec.ofNat 64 ((p.take 8).foldr (fun c acc => c + 256 * acc) 0)

/-- `tzcnt_u64` (free_slots.h:12-20) -/
def tzcnt (m : BitVec 64) : Nat := ((List.range 64).find? fun i => m.getLsbD i).getD 64

/-- `m` in `w_run` (strbuf.cpp:219-220): a bit mask that is nonzero when one of the eight bytes
of `w` is a `$`. -/
def swar (w : BitVec 64) : BitVec 64 :=
  let x := w ^^^ 0x2424242424242424#64
  (x - 0x0101010101010101#64) &&& ~~~x &&& 0x8080808080808080#64

/-- The bytewise loop of `w_run` (strbuf.cpp:228-229); `p` is what remains of the format -/
def runBytes (b : Buf) (d : Nat) : (p : List Nat) → Except Fault (Buf × Nat × List Nat)
  | [] => .ok (b, d, [])
  | c :: p =>
    if c = 36 then .ok (b, d, c :: p)
    else do
      let b ← b.store d [c]
      runBytes b (d + 1) p

/-- `w_run` (strbuf.cpp:214-231); `p` is what remains of the format (`end - p` bytes) -/
def w_run (b : Buf) (d : Nat) (p : List Nat) : Except Fault (Buf × Nat × List Nat) :=
  if h : 8 ≤ p.length then do
    let w := load64 p
    let b ← b.store d (p.take 8)
    let m := swar w
    if m ≠ 0 then
      let n := tzcnt m / 8
      return (b, d + n, p.drop n)
    else w_run b (d + 8) (p.drop 8)
  else runBytes b d p
termination_by p.length
decreasing_by simp; omega

/-! ### Memory management and the basic methods -/

/-- The capacity loop of `expand` (strbuf.cpp:343-344) -/
def grow (need cap : Nat) : Nat :=
  if h : cap < need ∧ 0 < cap then grow need (cap * 2) else cap
termination_by need - cap
decreasing_by omega

/-- `StringBuffer::expand` (strbuf.cpp:330-353).  `realloc` keeps the contents. -/
def expand (b : Buf) (cur nbytes : Nat) : Buf :=
  { b with cur := cur, cap := grow (cur + (nbytes + 1)) (if b.cap = 0 then 1 else b.cap) }

/-- `if (!m_cur || m_cur + n >= m_end) m_cur = expand(m_cur, n);`, e.g. strbuf.h:112-113.
`m_cur` is null exactly when the capacity is 0. -/
def reserve (b : Buf) (n : Nat) : Buf :=
  if b.cap = 0 ∨ b.cur + n ≥ b.cap then expand b b.cur n else b

/-- `StringBuffer::StringBuffer(size_t)` (strbuf.cpp:256-264); `junk` is what the freshly
allocated memory contains -/
def new (capacity : Nat) (junk : Nat → Nat) : Buf :=
  if capacity = 0 then ⟨0, 0, junk⟩
  else ⟨capacity, 0, fun i => if i = 0 then 0 else junk i⟩

/-- `StringBuffer::put(const char *, size_t)` (strbuf.h:111-118) -/
def put (b : Buf) (s : List Nat) : Except Fault Buf := do
  let b := reserve b s.length
  let b ← b.store b.cur s
  let b := { b with cur := b.cur + s.length }
  b.store b.cur [0]

/-- `StringBuffer::put(char)` (strbuf.h:121-126) -/
def putc (b : Buf) (c : Nat) : Except Fault Buf := do
  let b := reserve b 1
  let b ← b.store b.cur [c]
  let b := { b with cur := b.cur + 1 }
  b.store b.cur [0]

/-- The loop of `StringBuffer::put(char, size_t)` (strbuf.h:133-134) -/
def putLoop (c : Nat) : (count : Nat) → Buf → Except Fault Buf
  | 0, b => .ok b
  | k + 1, b => do
    let b ← b.store b.cur [c]
    putLoop c k { b with cur := b.cur + 1 }

/-- `StringBuffer::put(char, size_t)` (strbuf.h:129-136) -/
def putn (b : Buf) (c count : Nat) : Except Fault Buf := do
  let b := reserve b count
  let b ← putLoop c count b
  b.store b.cur [0]

/-- `StringBuffer::clear` (strbuf.cpp:288-292) -/
def clear (b : Buf) : Except Fault Buf :=
  let b := { b with cur := 0 }
  if 0 ≠ b.cap then b.store 0 [0] else .ok b

/-- `StringBuffer::rewind_to` (strbuf.cpp:294-298) -/
def rewindTo (b : Buf) (pos : Nat) : Except Fault Buf :=
  let b := { b with cur := pos }
  if 0 ≠ b.cap then b.store b.cur [0] else .ok b

/-- `StringBuffer::rewind` (strbuf.cpp:300-304).  Rewinding past the start is undefined. -/
def rewind (b : Buf) (rel : Nat) : Except Fault Buf :=
  if b.cur < rel then .error .oob
  else
    let b := { b with cur := b.cur - rel }
    if 0 ≠ b.cap then b.store b.cur [0] else .ok b

/-- `StringBuffer::delete_trailing_commas` (strbuf.cpp:273-281), the cursor after the loop -/
def trailing (byte : Nat → Nat) : Nat → Nat
  | 0 => 0
  | c + 1 => if byte c = 44 ∨ byte c = 32 then trailing byte c else c + 1

/-- `StringBuffer::delete_trailing_commas` (strbuf.cpp:273-281) -/
def deleteTrailingCommas (b : Buf) : Buf := { b with cur := trailing b.byte b.cur }

/-- `memmove(m_start + dst, m_start + src, n)`, including the reads being in bounds -/
def memmove (b : Buf) (dst src n : Nat) : Except Fault Buf :=
  if src + n ≤ b.cap then b.store dst (b.read src n) else .error .oob

/-- `memcpy(m_start + dst, m_start + src, n)`: like `memmove`, but the regions must not
overlap. -/
def memcpy (b : Buf) (dst src n : Nat) : Except Fault Buf :=
  if dst < src + n ∧ src < dst + n then .error .overlap else memmove b dst src n

/-- `StringBuffer::move_suffix` (strbuf.cpp:306-322) -/
def moveSuffix (b : Buf) (suffixStart suffixTarget : Nat) : Except Fault Buf := do
  let bufferSize := b.cur
  let suffixSize := bufferSize - suffixStart
  let b ← putn b 0 suffixSize
  let b ← memmove b (suffixTarget + suffixSize) suffixTarget (bufferSize - suffixTarget)
  let b ← memcpy b suffixTarget bufferSize suffixSize
  rewindTo b bufferSize

/-- Runs one of the cursor-passing writers at `m_cur`, e.g. `put_u32_unchecked`
(strbuf.cpp:379-387). -/
def atCur (w : Buf → Nat → Except Fault (Buf × Nat)) (b : Buf) : Except Fault Buf := do
  let (b, d) ← w b b.cur
  return { b with cur := d }

/-- `StringBuffer::put_u32` (strbuf.cpp:355-359), `MAXSIZE_U32 = 10` -/
def putU32 (b : Buf) (v : Nat) : Except Fault Buf := atCur (w_u32 · · v) (reserve b 10)

/-- `StringBuffer::put_u64` (strbuf.cpp:361-365), `MAXSIZE_U64 = 20` -/
def putU64 (b : Buf) (v : Nat) : Except Fault Buf := atCur (w_u64 · · v) (reserve b 20)

/-- `StringBuffer::put_x32` (strbuf.cpp:367-371), `MAXSIZE_X32 = 8` -/
def putX32 (b : Buf) (v : Nat) : Except Fault Buf := atCur (w_x64 · · v) (reserve b 8)

/-- `StringBuffer::put_x64` (strbuf.cpp:373-377), `MAXSIZE_X64 = 16` -/
def putX64 (b : Buf) (v : Nat) : Except Fault Buf := atCur (w_x64 · · v) (reserve b 16)

/-- `vsnprintf(m_start + d, remain, …)` whose complete output is `text`: writes at most
`remain - 1` characters and a terminator. -/
def vsnprintf (b : Buf) (d remain : Nat) (text : List Nat) : Except Fault Buf :=
  if remain = 0 then .ok b else b.store d (text.take (remain - 1) ++ [0])

/-- The `do`-loop of `StringBuffer::fmt`/`vfmt` (strbuf.cpp:391-413, 415-438), with a bound on
the number of iterations -/
def fmtLoop : (iterations : Nat) → Buf → (text : List Nat) → Except Fault Buf
  | 0, _, _ => .error .loop
  | k + 1, b, text => do
    let remain := b.cap - b.cur
    let b ← vsnprintf b b.cur remain text
    let rv := text.length
    if b.cap ≠ 0 ∧ b.cur + rv < b.cap then return { b with cur := b.cur + rv }
    else fmtLoop k (expand b b.cur rv) text

/-- `StringBuffer::fmt` and `vfmt` (strbuf.cpp:391-438): two iterations suffice, which is part
of what is proved. -/
def fmt (b : Buf) (text : List Nat) : Except Fault Buf := fmtLoop 2 b text

/-! ### The backend-specific formatters -/

/-- `fmt_bound` (strbuf.cpp:248-250) -/
def fmtBound (fmtLen nargs : Nat) : Nat := fmtLen * 8 + nargs * 48

/-- The fields of `Variable` that the formatters access. -/
structure VarRef where
  type : Nat
  regIndex : Nat
  literal : Nat
  unaligned : Bool
  paramOffset : Nat

/-- A variadic argument: `uint32_t`, `uint64_t`, `const char *` or `const Variable *` -/
inductive Arg where
  | u32 (n : Nat)
  | u64 (n : Nat)
  | str (s : List Nat)
  | var (v : VarRef)

/-- Global state and conversions the formatters depend on.  `f32to64` and `f16to64` are the
bit patterns of the C++ conversions `double d = f` and `double d = float(h)`. -/
structure Env where
  vectorWidth : Nat
  callableDepth : Nat
  f32to64 : Nat → Nat
  f16to64 : Nat → Nat

/-- One call of a cursor-passing writer.  Directives are sequences of such calls. -/
inductive Piece where
  | u32 (n : Nat)
  | u64 (n : Nat)
  | x64 (n : Nat)
  | q64 (n : Nat)
  | row (r : List Nat)
  | lit (s : List Nat)

/-- Execute one writer. -/
def Piece.write (b : Buf) (d : Nat) : Piece → Except Fault (Buf × Nat)
  | .u32 n => w_u32 b d n
  | .u64 n => w_u64 b d n
  | .x64 n => w_x64 b d n
  | .q64 n => w_q64 b d n
  | .row r => w_type b d r
  | .lit s => w_strn b d s

/-- Execute a sequence of writers. -/
def writePieces (b : Buf) (d : Nat) : List Piece → Except Fault (Buf × Nat)
  | [] => .ok (b, d)
  | p :: ps => do
    let (b, d) ← p.write b d
    writePieces b d ps

/-- A row of a `NameTable` given by the strings it is built from. -/
def table (names : List String) (t : Nat) : List Nat := mkRow (bytes (names.getD t ""))

/-- `type_name_ptx` (var.cpp:56-59) -/
def typeNamePtx := table
  ["???", "pred", "???", "s8",  "u8",  "s16", "u16", "s32",
   "u32", "s64",  "u64", "u64", "???", "f16", "f32", "f64"]
/-- `type_name_ptx_bin2` (var.cpp:62-65) -/
def typeNamePtxBin2 := table
  ["???", "b8", "???", "b8",  "b8",  "b16", "b16", "b32",
   "b32", "b64",  "b64", "b64", "???", "b16", "b32", "b64"]
/-- `type_name_ptx_bin` (var.cpp:68-71) -/
def typeNamePtxBin := table
  ["???", "pred", "???", "b8",  "b8",  "b16", "b16", "b32",
   "b32", "b64",  "b64", "b64", "???", "b16", "b32", "b64"]
/-- `type_name_llvm` (var.cpp:74-77) -/
def typeNameLlvm := table
  ["???", "i1",  "???", "i8",  "i8",   "i16",   "i16",   "i32",
   "i32", "i64", "i64", "i64", "???", "half", "float", "double"]
/-- `type_name_metal` (var.cpp:80-83) -/
def typeNameMetal := table
  ["void",  "bool",  "???",   "char",  "uchar", "short", "ushort", "int",
   "uint",  "long",  "ulong", "ulong", "???",   "half",  "float",  "float"]
/-- `type_name_metal_bin` (var.cpp:87-90) -/
def typeNameMetalBin := table
  ["???",   "uchar", "???",   "uchar", "uchar", "ushort", "ushort", "uint",
   "uint",  "ulong", "ulong", "ulong", "???",   "ushort", "uint",   "uint"]
/-- `type_name_llvm_big` (var.cpp:93-96) -/
def typeNameLlvmBig := table
  ["???", "???",  "???", "i16",  "i16", "i32", "i32", "i64",
   "i64", "i128", "i128", "???", "???", "???", "???", "???"]
/-- `type_name_llvm_abbrev` (var.cpp:99-102) -/
def typeNameLlvmAbbrev := table
  ["???", "i1",  "???", "i8",  "i8",  "i16", "i16", "i32",
   "i32", "i64", "i64", "i64", "???", "f16", "f32", "f64"]
/-- `type_name_llvm_bin` (var.cpp:105-108) -/
def typeNameLlvmBin := table
  ["???", "i1",  "???", "i8",  "i8",  "i16", "i16", "i32",
   "i32", "i64", "i64", "i64", "???", "i16", "i32", "i64"]
/-- `type_prefix` (var.cpp:111-114) -/
def typePrefix := table
  ["%u", "%p", "???", "%b", "%b", "%w", "%w", "%r",
   "%r", "%rd", "%rd", "%rd", "???", "%h", "%f", "%d"]
/-- `type_size` (var.cpp:117-119) -/
def typeSize (t : Nat) : Nat := [0, 1, 0, 1, 1, 2, 2, 4, 4, 8, 8, 8, 0, 2, 4, 8].getD t 0

/-- The next variadic argument as a `const Variable *` -/
def argVar : List Arg → Except Fault (VarRef × List Arg)
  | .var v :: r => .ok (v, r)
  | _ => .error .badArg

/-- What a directive other than `$s` does: the writers it calls and the remaining arguments. -/
abbrev Directive := Except Fault (List Piece × List Arg)

/-- A directive consuming a variable. -/
def withVar (args : List Arg) (f : VarRef → List Piece) : Directive := do
  let (v, r) ← argVar args
  return (f v, r)

/-- The switch statement of `fmt_llvm` without `$s` (strbuf.cpp:458-658).  `VarType::Bool = 1`,
`UInt8 = 4`, `Float16 = 13`, `Float32 = 14`, `Float64 = 15` (include/drjit-core/jit.h, enum
VarType). -/
def llvmDirective (e : Env) (c : Nat) (args : List Arg) : Directive :=
  let vec (t : Nat → List Nat) (ty : Nat) : List Piece :=
    [.lit (bytes "<"), .u32 e.vectorWidth, .lit (bytes " x "), .row (t ty), .lit (bytes ">")]
  let mem (ty : Nat) : Nat := if ty = 1 then 4 else ty
  match Char.ofNat c with
  | 'u' => match args with
    | .u32 n :: r => .ok ([.u32 n], r)
    | _ => .error .badArg
  | 'Q' => match args with
    | .u64 n :: r => .ok ([.q64 n], r)
    | _ => .error .badArg
  | 'w' => .ok ([.u32 e.vectorWidth], args)
  | 't' => withVar args fun v => [.row (typeNameLlvm v.type)]
  | 'b' => withVar args fun v => [.row (typeNameLlvmBin v.type)]
  | 'd' => withVar args fun v => [.row (typeNameLlvmBig v.type)]
  | 'H' => withVar args fun v =>
      if v.type = 1 then [.lit (bytes "i8")] else [.row (typeNameLlvmAbbrev v.type)]
  | 'h' => withVar args fun v => [.row (typeNameLlvmAbbrev v.type)]
  | 'm' => withVar args fun v => [.row (typeNameLlvm (mem v.type))]
  | 'T' => withVar args fun v => vec typeNameLlvm v.type
  | 'B' => withVar args fun v => vec typeNameLlvmBin v.type
  | 'D' => withVar args fun v => vec typeNameLlvmBig v.type
  | 'M' => withVar args fun v => vec typeNameLlvm (mem v.type)
  | 'v' => withVar args fun v => [.row (typePrefix v.type), .u32 v.regIndex]
  | 'V' => withVar args fun v =>
      vec typeNameLlvm v.type ++ [.lit (bytes " "), .row (typePrefix v.type), .u32 v.regIndex]
  | 'l' => withVar args fun v =>
      if v.type = 14 then [.lit (bytes "0x"), .x64 (e.f32to64 v.literal)]
      else if v.type = 13 then [.lit (bytes "0x"), .x64 (e.f16to64 v.literal)]
      else if v.type = 15 then [.lit (bytes "0x"), .x64 v.literal]
      else [.u64 v.literal]
  | 'a' => withVar args fun v => [.u32 (if v.unaligned then 1 else typeSize v.type)]
  | 'A' => withVar args fun v =>
      [.u32 (if v.unaligned then 1 else typeSize v.type * e.vectorWidth % 2 ^ 32)]
  | 'o' => withVar args fun v => [.u32 (v.paramOffset / 8)]
  | 'z' => .ok ([.lit (bytes "zeroinitializer")], args)
  | '<' => .ok (if e.callableDepth > 0 then
      [.lit (bytes "<"), .u32 e.vectorWidth, .lit (bytes " x ")] else [], args)
  | '>' => .ok (if e.callableDepth > 0 then [.lit (bytes ">")] else [], args)
  | _ => .error .abort

/-- The switch statement of `fmt_cuda` without `$s` (strbuf.cpp:694-773) -/
def cudaDirective (c : Nat) (args : List Arg) : Directive :=
  match Char.ofNat c with
  | 'u' => match args with
    | .u32 n :: r => .ok ([.u32 n], r)
    | _ => .error .badArg
  | 'Q' => match args with
    | .u64 n :: r => .ok ([.q64 n], r)
    | _ => .error .badArg
  | 't' => withVar args fun v => [.row (typeNamePtx v.type)]
  | 'B' => withVar args fun v => [.row (typeNamePtxBin2 v.type)]
  | 'b' => withVar args fun v => [.row (typeNamePtxBin v.type)]
  | 'V' => withVar args fun v =>
      if v.type = 1 then [.lit (bytes "%w0")]
      else [.row (typePrefix v.type), .u32 v.regIndex]
  | 'v' => withVar args fun v => [.row (typePrefix v.type), .u32 v.regIndex]
  | 'l' => withVar args fun v => [.lit (bytes "0x"), .x64 v.literal]
  | 'a' => withVar args fun v => [.u32 (typeSize v.type)]
  | 'o' => withVar args fun v => [.u32 v.paramOffset]
  | _ => .error .abort

/-- The switch statement of `fmt_metal` without `$s` (strbuf.cpp:810-864) -/
def metalDirective (c : Nat) (args : List Arg) : Directive :=
  match Char.ofNat c with
  | 'u' => match args with
    | .u32 n :: r => .ok ([.u32 n], r)
    | _ => .error .badArg
  | 't' => withVar args fun v => [.row (typeNameMetal v.type)]
  | 'b' => withVar args fun v => [.row (typeNameMetalBin v.type)]
  | 'v' => withVar args fun v => [.lit (bytes "r"), .u32 v.regIndex]
  | 'l' => withVar args fun v => [.lit (bytes "0x"), .x64 v.literal]
  | 'o' => withVar args fun v => [.u32 ((v.paramOffset / 8 + 2 ^ 32 - 1) % 2 ^ 32)]
  | _ => .error .abort

/-- The three formatters -/
inductive Backend where
  | llvm | cuda | metal
  deriving DecidableEq, Repr

def directive (e : Env) : Backend → Nat → List Arg → Directive
  | .llvm => llvmDirective e
  | .cuda => cudaDirective
  | .metal => metalDirective

theorem runBytes_length {b : Buf} {d : Nat} {p : List Nat} {r} (h : runBytes b d p = .ok r) :
    r.2.2.length ≤ p.length := by
  induction p generalizing b d with
  | nil => simp [runBytes] at h; subst h; simp
  | cons c p ih =>
    rw [runBytes] at h
    split at h
    · cases h; simp
    · cases hs : b.store d [c] with
      | error e => rw [hs] at h; cases h
      | ok b1 =>
        rw [hs] at h
        have := ih (b := b1) (d := d + 1) h
        simp; omega

theorem w_run_length {b : Buf} {d : Nat} {p : List Nat} {r} (h : w_run b d p = .ok r) :
    r.2.2.length ≤ p.length := by
  induction hn : p.length using Nat.strong_induction_on generalizing p b d with
  | _ n ih =>
    rw [w_run] at h
    split at h
    · rename_i h8
      cases hs : b.store d (p.take 8) with
      | error e => rw [hs] at h; cases h
      | ok b1 =>
        rw [hs] at h
        change (if swar (load64 p) ≠ 0 then _ else _) = _ at h
        split at h
        · cases h
          simp only [List.length_drop]; omega
        · have := ih (p.drop 8).length (by simp; omega) h rfl
          simp only [List.length_drop] at this; omega
    · have := runBytes_length h; omega

/-- The main loop of the formatters (strbuf.cpp:452-661), which continues while format
characters are left.  `p` is what remains of the format, `args` are the arguments that were not
yet consumed and `arg` is the number of consumed arguments.  A directive without argument
decrements `arg` before it is incremented; the model leaves it unchanged.  The switch reads the
terminating zero byte of the format string when it ends in a lone `$`, which leads to
`abort()`.  `cur` is the local cursor. -/
def fmtBackendLoop (e : Env) (be : Backend) (nargs : Nat) (b : Buf) (cur : Nat) (p : List Nat)
    (args : List Arg) (arg : Nat) : Except Fault (Buf × Nat × Nat) :=
  if p = [] then .ok (b, cur, arg)
  else
    match hr : w_run b cur p with
    | .error f => .error f
    | .ok (b, cur, []) => .ok (b, cur, arg)
    | .ok (_, _, [_]) => .error .abort
    | .ok (b, cur, _ :: c :: p') =>
      if c = 115 then
        match args with
        | .str s :: args' =>
          let rest := fmtBound p'.length (nargs - arg - 1)
          let b := if cur + s.length + rest ≥ b.cap then expand b cur (s.length + rest) else b
          match w_strn b cur s with
          | .error f => .error f
          | .ok (b, cur) => fmtBackendLoop e be nargs b cur p' args' (arg + 1)
        | _ => .error .badArg
      else
        match directive e be c args with
        | .error f => .error f
        | .ok (ps, args') =>
          match writePieces b cur ps with
          | .error f => .error f
          | .ok (b, cur) =>
            fmtBackendLoop e be nargs b cur p' args' (arg + (args.length - args'.length))
termination_by p.length
decreasing_by
  all_goals
    have := w_run_length hr
    simp at this ⊢
    omega

/-- `StringBuffer::fmt_llvm` (strbuf.cpp:440-673), `fmt_cuda` (676-788), `fmt_metal`
(792-879) -/
def fmtBackend (e : Env) (be : Backend) (b : Buf) (format : List Nat) (args : List Arg) :
    Except Fault Buf := do
  let b := reserve b (fmtBound format.length args.length)
  let (b, cur, arg) ← fmtBackendLoop e be args.length b b.cur format args 0
  if arg ≠ args.length then .error .abort
  else
    let b ← b.store cur [0]
    return { b with cur := cur }

end Verif.StrBuf
