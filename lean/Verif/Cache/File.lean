import Mathlib.Tactic.Common
import Mathlib.Tactic.NormNum
import Mathlib.Data.List.Basic

/-!
# The file format of the kernel cache (`/repo/src/io.cpp`)

Model of the serialization in `jitc_kernel_write` and of the validation in `jitc_kernel_load`, for
the LLVM backend (the only one that calls these functions, eval.cpp:764-771).  The checksum (XXH3)
and the compression (LZ4) are parameters.
-/
namespace Verif.Cache

abbrev Byte := BitVec 8

/-- `n` bytes of a number, least significant first -/
def le : Nat → Nat → List Byte
  | 0, _ => []
  | n + 1, v => BitVec.ofNat 8 v :: le n (v / 256)

/-- The number given by bytes, least significant first -/
def leVal : List Byte → Nat
  | [] => 0
  | b :: bs => b.toNat + 256 * leVal bs

/-- XXH3 (128 bit, with the fixed seed) and LZ4 (with the fixed dictionary).  `decompress c n` is
the output of `LZ4_decompress_safe_usingDict` with an output buffer of `n` bytes, or `none` if it
reports an error.  The assumption on LZ4 is that compression is lossless for inputs up to
`LZ4_MAX_INPUT_SIZE`, and that compressed data is smaller than 4 GiB. -/
structure Codec where
  H : List Byte → List Byte
  H_len : ∀ x, (H x).length = 16
  compress : List Byte → List Byte
  decompress : List Byte → Nat → Option (List Byte)
  compress_len : ∀ x, (compress x).length < 2 ^ 32
  lossless : ∀ x, x.length ≤ 0x7E000000 → decompress (compress x) x.length = some x

/-- A compiled kernel: machine code and the offsets of the relocated addresses in it -/
structure Kernel where
  code : List Byte
  reloc : List (BitVec 64)
deriving DecidableEq

/-- `CacheFileHeader` (io.cpp:78-85) without the checksum: 17 bytes -/
structure Header where
  version : Nat
  compressed_size : Nat
  source_size : Nat
  kernel_size : Nat
  reloc_size : Nat
deriving DecidableEq

/-- Memory representation of the header (packed), without the checksum -/
def Header.bytes (h : Header) : List Byte :=
  le 1 h.version ++ (le 4 h.compressed_size ++ (le 4 h.source_size ++ (le 4 h.kernel_size ++ le 4 h.reloc_size)))

/-- Reading it back -/
def Header.parse (b : List Byte) : Header :=
  { version := leVal (b.take 1)
    compressed_size := leVal ((b.drop 1).take 4)
    source_size := leVal ((b.drop 5).take 4)
    kernel_size := leVal ((b.drop 9).take 4)
    reloc_size := leVal ((b.drop 13).take 4) }

/-- `DRJIT_CACHE_VERSION` (io.cpp:39) -/
def cacheVersion : Nat := 6

/-- `compute_padding` (io.cpp:111-116) -/
def padding (kernel_size : Nat) : Nat :=
  let p := kernel_size % 8
  if p ≠ 0 then 8 - p else p

/-- The uncompressed payload (io.cpp:476-491): code, padding, relocation table -/
def payload (k : Kernel) : List Byte :=
  k.code ++ (List.replicate (padding k.code.length) 0#8 ++ k.reloc.flatMap (fun r => le 8 r.toNat))

/-- The header fields (io.cpp:464-472, 498-500) -/
def headerOf (G : Codec) (src : List Byte) (k : Kernel) : Header :=
  { version := cacheVersion
    compressed_size := (G.compress (payload k)).length
    source_size := src.length
    kernel_size := k.code.length
    reloc_size := k.reloc.length * 8 }

/-- The data covered by the checksum (`jitc_cache_checksum`, io.cpp:121-131) -/
def summed (hdr src compressed : List Byte) : List Byte := hdr ++ (src ++ compressed)

/-- The file written by `jitc_kernel_write` (io.cpp:502-507) -/
def encode (G : Codec) (src : List Byte) (k : Kernel) : List Byte :=
  let c := G.compress (payload k)
  let h := (headerOf G src k).bytes
  h ++ (G.H (summed h src c) ++ c)

/-- `offsetof(CacheFileHeader, checksum)` and `sizeof(CacheFileHeader)` -/
def ckOff : Nat := 17
@[inherit_doc ckOff] def hdrSize : Nat := 33

/-- Sizes fit into the fields and into LZ4's limit -/
def Fits (src : List Byte) (k : Kernel) : Prop :=
  src.length < 2 ^ 32 ∧ (payload k).length ≤ 0x7E000000

/-- Outcome of `jitc_kernel_load` once the file has been read: a kernel, or rejection of the
contents.  `undef`: the sizes in the header make the code access memory out of bounds. -/
inductive Verdict where
  | ok (k : Kernel)
  | reject
  | undef
deriving DecidableEq

/-- Checks before the contents are read (io.cpp:331-340): version, file size, source size. `size`
is the size of the file as determined earlier, `hdr` the 33 bytes of the header. -/
def checkHeader (size : Nat) (hdr src : List Byte) : Bool :=
  let h := Header.parse hdr
  h.version = cacheVersion && (size = hdrSize + h.compressed_size && h.source_size = src.length)

/-- Reading `n` 64-bit words -/
def words : Nat → List Byte → List (BitVec 64)
  | 0, _ => []
  | n + 1, b => BitVec.ofNat 64 (leVal (b.take 8)) :: words n (b.drop 8)

/-- Checks and decoding of the contents `body` (io.cpp:350-400) -/
def loadBody (G : Codec) (hdr src body : List Byte) : Verdict :=
  let h := Header.parse hdr
  if hdr.drop ckOff ≠ G.H (summed (hdr.take ckOff) src body) then .reject
  else
    let pad := padding h.kernel_size
    let full := h.kernel_size + pad + h.reloc_size
    let size := full % 2 ^ 32
    match G.decompress body size with
    | none => if size = 2 ^ 32 - 1 then .undef else .reject
    | some y =>
      if y.length % 2 ^ 32 ≠ size then .reject
      else if y.length < full then .undef
      else .ok { code := y.take h.kernel_size, reloc := words (h.reloc_size / 8) (y.drop (h.kernel_size + pad)) }

/-- `jitc_kernel_load` on a file that does not change in the meantime -/
def load (G : Codec) (file src : List Byte) : Verdict :=
  if file.length < hdrSize then .reject
  else
    let hdr := file.take hdrSize
    if checkHeader file.length hdr src then loadBody G hdr src ((file.drop hdrSize).take (Header.parse hdr).compressed_size)
    else .reject

/-! ### Lemmas -/

theorem le_length (n v : Nat) : (le n v).length = n := by
  induction n generalizing v with
  | zero => rfl
  | succ n ih => simp [le, ih]

theorem leVal_le (n v : Nat) : leVal (le n v) = v % 256 ^ n := by
  induction n generalizing v with
  | zero => simp [le, leVal, Nat.mod_one]
  | succ n ih =>
    simp only [le, leVal, ih, BitVec.toNat_ofNat]
    rw [Nat.pow_succ 256 n, Nat.mul_comm (256 ^ n) 256, Nat.mod_mul]

theorem Header.bytes_length (h : Header) : h.bytes.length = 17 := by
  simp [Header.bytes, le_length]

/-- The representation can be read back if the fields fit -/
theorem Header.parse_bytes (h : Header) (rest : List Byte) (h1 : h.version < 2 ^ 8) (h2 : h.compressed_size < 2 ^ 32)
    (h3 : h.source_size < 2 ^ 32) (h4 : h.kernel_size < 2 ^ 32) (h5 : h.reloc_size < 2 ^ 32) :
    Header.parse (h.bytes ++ rest) = h := by
  have t : ∀ (n v : Nat) (r : List Byte), (le n v ++ r).take n = le n v := fun n v r => by
    have := List.take_left (l₁ := le n v) (l₂ := r); rwa [le_length] at this
  have d : ∀ (n m v : Nat) (r : List Byte), (le n v ++ r).drop (n + m) = r.drop m := fun n m v r => by
    rw [List.drop_append, le_length, show n + m - n = m by omega, List.drop_eq_nil_of_le (by rw [le_length]; omega)]
    rfl
  unfold Header.parse Header.bytes
  simp only [List.append_assoc]
  rw [t, show (1 : Nat) = 1 + 0 by rfl, d, show (5 : Nat) = 1 + 4 by rfl, d, show (4 : Nat) = 4 + 0 by rfl, d,
    show (9 : Nat) = 1 + (4 + 0 + 4) by rfl, d, show (4 + 0 + 4 : Nat) = 4 + (4 + 0) by rfl, d, d,
    show (13 : Nat) = 1 + (4 + (4 + (4 + 0))) by rfl, d, d, d, d]
  simp only [List.drop_zero]
  simp only [Nat.add_zero]
  rw [t, t, t, t]
  simp only [leVal_le]
  cases h
  simp only at *
  congr 1 <;> apply Nat.mod_eq_of_lt <;> omega

theorem padding_spec (n : Nat) : (n + padding n) % 8 = 0 ∧ padding n < 8 := by
  unfold padding; dsimp only; split <;> omega

theorem reloc_length (rs : List (BitVec 64)) : (rs.flatMap (fun r => le 8 r.toNat)).length = rs.length * 8 := by
  induction rs with
  | nil => rfl
  | cons r rs ih => simp [List.flatMap_cons, le_length, ih]; omega

theorem payload_length (k : Kernel) :
    (payload k).length = k.code.length + padding k.code.length + k.reloc.length * 8 := by
  simp only [payload, List.length_append, List.length_replicate, reloc_length]; omega

theorem words_reloc (rs : List (BitVec 64)) : words rs.length (rs.flatMap (fun r => le 8 r.toNat)) = rs := by
  induction rs with
  | nil => rfl
  | cons r rs ih =>
    simp only [List.flatMap_cons, List.length_cons, words]
    have e1 : (le 8 r.toNat ++ rs.flatMap (fun r => le 8 r.toNat)).take 8 = le 8 r.toNat := by
      have := List.take_left (l₁ := le 8 r.toNat) (l₂ := rs.flatMap (fun r => le 8 r.toNat)); rwa [le_length] at this
    have e2 : (le 8 r.toNat ++ rs.flatMap (fun r => le 8 r.toNat)).drop 8 = rs.flatMap (fun r => le 8 r.toNat) := by
      have := List.drop_left (l₁ := le 8 r.toNat) (l₂ := rs.flatMap (fun r => le 8 r.toNat)); rwa [le_length] at this
    rw [e1, e2, ih, leVal_le, Nat.mod_eq_of_lt (by have := r.isLt; norm_num at this ⊢; exact this)]
    simp

theorem parse_headerOf (G : Codec) {src : List Byte} {k : Kernel} (hf : Fits src k) (rest : List Byte) :
    Header.parse ((headerOf G src k).bytes ++ rest) = headerOf G src k := by
  obtain ⟨f1, f2⟩ := hf
  rw [payload_length] at f2
  apply Header.parse_bytes
  · simp [headerOf, cacheVersion]
  · exact G.compress_len _
  · exact f1
  · simp only [headerOf]; omega
  · simp only [headerOf]; omega

theorem parse_take {a : List Byte} {n : Nat} (hn : 17 ≤ n) : Header.parse (a.take n) = Header.parse a := by
  unfold Header.parse
  simp only [List.drop_take, List.take_take]
  rw [min_eq_left (by omega), min_eq_left (by omega), min_eq_left (by omega), min_eq_left (by omega), min_eq_left (by omega)]

/-- Decoding the payload of a kernel, once the checks have passed -/
theorem loadBody_stored (G : Codec) {src : List Byte} {k : Kernel} (hf : Fits src k) :
    loadBody G ((headerOf G src k).bytes ++ G.H (summed (headerOf G src k).bytes src (G.compress (payload k)))) src
      (G.compress (payload k)) = .ok k := by
  unfold loadBody
  have hl := Header.bytes_length (headerOf G src k)
  have hp := parse_headerOf G hf (G.H (summed (headerOf G src k).bytes src (G.compress (payload k))))
  have ht : ((headerOf G src k).bytes ++ G.H (summed (headerOf G src k).bytes src (G.compress (payload k)))).take ckOff =
      (headerOf G src k).bytes := by
    rw [show ckOff = 17 from rfl, ← hl, List.take_left]
  have hd : ((headerOf G src k).bytes ++ G.H (summed (headerOf G src k).bytes src (G.compress (payload k)))).drop ckOff =
      G.H (summed (headerOf G src k).bytes src (G.compress (payload k))) := by
    rw [show ckOff = 17 from rfl, ← hl, List.drop_left]
  dsimp only
  rw [hp, ht, hd]
  rw [if_neg (by simp)]
  have hsz : k.code.length + padding k.code.length + k.reloc.length * 8 = (payload k).length := (payload_length k).symm
  have hlim : (payload k).length < 2 ^ 32 := by have := hf.2; omega
  have hsz2 : (headerOf G src k).kernel_size + padding (headerOf G src k).kernel_size + (headerOf G src k).reloc_size =
      (payload k).length := hsz
  rw [hsz2, Nat.mod_eq_of_lt hlim, G.lossless _ hf.2]
  dsimp only
  rw [Nat.mod_eq_of_lt hlim, if_neg (by simp), if_neg (by omega)]
  congr 1
  simp only [headerOf]
  have e1 : (payload k).take k.code.length = k.code := by unfold payload; rw [List.take_left]
  have e2 : (payload k).drop (k.code.length + padding k.code.length) = k.reloc.flatMap (fun r => le 8 r.toNat) := by
    unfold payload
    rw [← List.append_assoc]
    have : k.code.length + padding k.code.length = (k.code ++ List.replicate (padding k.code.length) 0#8).length := by simp
    rw [this, List.drop_left]
  rw [e1, e2, Nat.mul_div_cancel _ (by norm_num), words_reloc]

theorem encode_length (G : Codec) (src : List Byte) (k : Kernel) :
    (encode G src k).length = hdrSize + (G.compress (payload k)).length := by
  simp only [encode, List.length_append, Header.bytes_length, G.H_len, hdrSize]; omega

theorem encode_take (G : Codec) (src : List Byte) (k : Kernel) :
    (encode G src k).take hdrSize = (headerOf G src k).bytes ++ G.H (summed (headerOf G src k).bytes src (G.compress (payload k))) := by
  unfold encode
  dsimp only
  rw [← List.append_assoc]
  have : hdrSize = ((headerOf G src k).bytes ++ G.H (summed (headerOf G src k).bytes src (G.compress (payload k)))).length := by
    simp [Header.bytes_length, G.H_len, hdrSize]
  rw [this, List.take_left]

theorem encode_drop (G : Codec) (src : List Byte) (k : Kernel) :
    (encode G src k).drop hdrSize = G.compress (payload k) := by
  unfold encode
  dsimp only
  rw [← List.append_assoc]
  have : hdrSize = ((headerOf G src k).bytes ++ G.H (summed (headerOf G src k).bytes src (G.compress (payload k)))).length := by
    simp [Header.bytes_length, G.H_len, hdrSize]
  rw [this, List.drop_left]

theorem parse_encode (G : Codec) {src : List Byte} {k : Kernel} (hf : Fits src k) :
    Header.parse ((encode G src k).take hdrSize) = headerOf G src k := by
  rw [encode_take, parse_headerOf G hf]

/-- A stored kernel is loaded back. -/
theorem load_encode (G : Codec) {src : List Byte} {k : Kernel} (hf : Fits src k) :
    load G (encode G src k) src = .ok k := by
  unfold load
  dsimp only
  rw [parse_encode G hf, encode_drop, if_neg (by rw [encode_length]; omega), if_pos]
  · rw [encode_take, show (headerOf G src k).compressed_size = (G.compress (payload k)).length from rfl, List.take_length,
      loadBody_stored G hf]
  · unfold checkHeader
    dsimp only
    rw [parse_encode G hf, encode_length]
    simp [headerOf]

/-- What a matching checksum implies: if `hdr`, `src'`, `body` pass the checks and the checksum in
`hdr` is the one of a stored kernel, then either the two checksummed texts are different (a
collision), or source and kernel agree. -/
theorem loadBody_sound (G : Codec) {src src' hdr body : List Byte} {k : Kernel} {size : Nat} (hf : Fits src k)
    (hlen : hdr.length = hdrSize) (hc : checkHeader size hdr src')
    (hck : hdr.drop ckOff = G.H (summed (headerOf G src k).bytes src (G.compress (payload k))))
    (hno : G.H (summed (headerOf G src k).bytes src (G.compress (payload k))) = G.H (summed (hdr.take ckOff) src' body) →
      summed (headerOf G src k).bytes src (G.compress (payload k)) = summed (hdr.take ckOff) src' body)
    (hr : loadBody G hdr src' body ≠ .reject) : src' = src ∧ loadBody G hdr src' body = .ok k := by
  have hacc : hdr.drop ckOff = G.H (summed (hdr.take ckOff) src' body) := by
    by_contra hne
    apply hr
    unfold loadBody
    dsimp only
    rw [if_pos hne]
  have heq := hno (hck.symm.trans hacc)
  unfold summed at heq
  have hl : (headerOf G src k).bytes.length = (hdr.take ckOff).length := by
    rw [Header.bytes_length, List.length_take, hlen]; rfl
  obtain ⟨e1, e2⟩ := List.append_inj heq hl
  have hpar : Header.parse hdr = headerOf G src k := by
    have : hdr = hdr.take ckOff ++ hdr.drop ckOff := (List.take_append_drop _ _).symm
    rw [this, ← e1, parse_headerOf G hf]
  have hsl : src.length = src'.length := by
    unfold checkHeader at hc
    simp only [hpar, Bool.and_eq_true, decide_eq_true_eq] at hc
    exact hc.2.2
  obtain ⟨e3, e4⟩ := List.append_inj e2 hsl
  refine ⟨e3.symm, ?_⟩
  have hh : hdr = (headerOf G src k).bytes ++ G.H (summed (headerOf G src k).bytes src (G.compress (payload k))) := by
    rw [← hck, e1, List.take_append_drop]
  rw [hh, ← e3, ← e4]
  exact loadBody_stored G hf

end Verif.Cache
