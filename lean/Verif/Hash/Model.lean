/-!
# Hash functions (`/repo/include/drjit-core/hash.h`, `/repo/src/hash.h`)

C++ unsigned arithmetic is arithmetic on bit vectors.
-/
namespace Verif.Hash

/-- `fmix32` (include/drjit-core/hash.h:13-21) -/
def fmix32 (h : BitVec 32) : BitVec 32 :=
  let h := h ^^^ (h >>> 16)
  let h := h * 0x85ebca6b#32
  let h := h ^^^ (h >>> 13)
  let h := h * 0xc2b2ae35#32
  let h := h ^^^ (h >>> 16)
  h

/-- `fmix64` (include/drjit-core/hash.h:24-31) -/
def fmix64 (k : BitVec 64) : BitVec 64 :=
  let k := k ^^^ (k >>> 33)
  let k := k * 0xff51afd7ed558ccd#64
  let k := k ^^^ (k >>> 33)
  let k := k * 0xc4ceb9fe1a85ec53#64
  let k := k ^^^ (k >>> 33)
  k

/-- `UInt32Hasher` (include/drjit-core/hash.h:33-37), `size_t` has 64 bits -/
def uint32Hasher (v : BitVec 32) : BitVec 64 := (fmix32 v).setWidth 64

/-- `UInt64Hasher` (include/drjit-core/hash.h:39-43), also `PointerHasher` on 64-bit platforms
(45-52) -/
def uint64Hasher (v : BitVec 64) : BitVec 64 := fmix64 v

/-- `hash_combine` (src/hash.h:53-61): the new value of `seed` -/
def hashCombine (seed value : BitVec 64) : BitVec 64 :=
  let mult := 0x9ddfea08eb382d69#64
  let a := (value ^^^ seed) * mult
  let a := a ^^^ (a >>> 47)
  let b := (seed ^^^ a) * mult
  let b := b ^^^ (b >>> 47)
  b * mult

end Verif.Hash
