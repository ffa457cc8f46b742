import Verif.Tex.Model

/-!
# Hardware textures on Metal devices

Sources: `src/metal_tex.mm` (uploads, downloads, lookups, writes), `resources/metal_kernels.metal:364-392` (kernels that separate and combine channels),
`src/metal_eval.cpp:1054-1174` (generated code).

The division into textures with at most four channels, sizes of MIP levels (`src/tex.h`), buffers and texture contents are those of `Verif.Tex`.
Simplifications: copies between buffers and textures (`copyFromBuffer`, `copyFromTexture`) behave as documented, in order with the kernels on the command queue.
-/
namespace Verif.MetalTex
open Verif.Tex

/-- `height`, `depth`: `metal_tex.mm:416-418,477-479` -/
def height (t : Texture) (level : Nat) : Nat := if t.ndim ≥ 2 then t.levelShape level 1 else 1
def depth (t : Texture) (level : Nat) : Nat := if t.ndim = 3 then t.levelShape level 2 else 1

/-- `bytes_per_row`, `metal_tex.mm:446,498,526` -/
def bytesPerRow (t : Texture) (level i : Nat) : Nat := t.levelShape level 0 * t.channelsStorage i * t.typeSize

/-- `deinterleave_kernel`, `metal_kernels.metal:373-383`: stores of a thread, byte by byte; indices have 32 bits -/
def deinterleave (nChannels ci texBase cValid ts : Nat) (src : Nat → Byte) (tid : Nat) : Writes :=
  let pix := tid / ci
  let c := tid % ci
  (List.range ts).map fun k =>
    (tid * ts + k, if c < cValid then src ((pix * nChannels + texBase + c) % 2 ^ 32 * ts + k) else 0)

/-- `interleave_kernel`, `metal_kernels.metal:385-392` -/
def interleave (nChannels ci texBase cValid ts : Nat) (src : Nat → Byte) (tid : Nat) : Writes :=
  let pix := tid / cValid
  let c := tid % cValid
  (List.range ts).map fun k =>
    ((pix * nChannels + texBase + c) % 2 ^ 32 * ts + k, src ((pix * ci + c) % 2 ^ 32 * ts + k))

/-- `jitc_metal_tex_memcpy_d2t`, `metal_tex.mm:402-466`: `staging i` is the initial content of the buffers, the threads of the kernels run in any order.  `pixel` is the number
of bytes of a channel of the texture itself (of its `MTLPixelFormat`), which determines how many bytes of a row are copied. -/
def Upload (t : Texture) (pixel level : Nat) (linear : Nat → Byte) (staging : Nat → Nat → Byte) (a a' : Arrays) : Prop :=
  level < t.nLevels ∧ ∃ ws : Nat → Writes,
    (∀ i < t.nTextures, (ws i).Perm ((List.range (t.nTexels level * t.channelsStorage i % 2 ^ 32)).flatMap
      (deinterleave t.nChannels (t.channelsStorage i) (i * 4) (t.channels i) t.typeSize linear))) ∧
    a' = fun i l => if i < t.nTextures ∧ l = level then
        toArray (if t.needsStaging then apply (ws i) (staging i) else linear) 0 (bytesPerRow t level i) (height t level)
          (t.levelShape level 0 * t.channelsStorage i * pixel) (height t level) (depth t level) (a i l)
      else a i l

/-- Copies from a texture to a buffer, `metal_tex.mm:486-501,517-528` (level 0) -/
def blit (t : Texture) (pixel : Nat) (a : Arrays) (i : Nat) : Writes :=
  fromArray (a i 0) 0 (bytesPerRow t 0 i) (height t 0) (t.levelShape 0 0 * t.channelsStorage i * pixel) (height t 0) (depth t 0)

/-- `jitc_metal_tex_memcpy_t2d`, `metal_tex.mm:468-541` -/
def Download (t : Texture) (pixel : Nat) (a : Arrays) (staging : Nat → Nat → Byte) (linear linear' : Nat → Byte) : Prop :=
  if t.needsStaging then
    ∃ ws : Writes, ws.Perm ((List.range t.nTextures).flatMap fun i => (List.range (t.nTexels 0 * t.channels i % 2 ^ 32)).flatMap
        (interleave t.nChannels (t.channelsStorage i) (i * 4) (t.channels i) t.typeSize (apply (blit t pixel a i) (staging i)))) ∧
      linear' = apply ws linear
  else linear' = apply (blit t pixel a 0) linear

/-- `type_size` of a texture that is created (`metal_tex.mm:173-179`) or wraps an existing one (`metal_tex.mm:298-299`), given the number of bytes of a channel -/
def typeSizeOf (wrapped : Bool) (pixel : Nat) : Nat := if wrapped then (if pixel = 4 then 4 else 2) else pixel

/-- Results of lookups, `metal_tex_sample_op`, `metal_tex.mm:637-673`: texture and component (`Extract`) -/
def lookup (t : Texture) : List (Nat × Nat) :=
  (List.range t.nTextures).flatMap fun ti => (List.range (t.channels ti)).map fun ch => (ti, ch)

/-- The value of a component of a lookup in a lane, `metal_eval.cpp:1071-1076,1110-1113` -/
def lookupLane {F : Type} (zero : F) (mask : Option Bool) (hw : F) : F :=
  match mask with
  | none => hw
  | some k => if k then hw else zero

/-- `TexWrite`, `metal_eval.cpp:1154-1156`, `metal_tex.mm:737-752`: the four components written to texture `ti` -/
def writeVec {F : Type} (t : Texture) (zero : F) (ti : Nat) (value : Nat → F) (c : Nat) : F := if c < t.channels ti then value (ti * 4 + c) else zero

/-- `texture.write`: stores the components that the pixel format has to a texel; positions outside of the texture are ignored. -/
def writeTexel {F : Type} (conv : F → Nat → Byte) (storage ts w h d x y z : Nat) (vec : Nat → F) (a : Array3) : Array3 := fun z' y' b =>
  if x < w ∧ y < h ∧ z < d ∧ z' = z ∧ y' = y ∧ b / (storage * ts) = x then conv (vec (b % (storage * ts) / ts)) (b % ts) else a z' y' b

/-- `jitc_metal_tex_write`, `metal_tex.mm:700-767`, executed by a lane -/
def write {F : Type} (t : Texture) (conv : F → Nat → Byte) (zero : F) (mask : Option Bool) (x y z : Nat) (value : Nat → F) (a : Arrays) : Arrays := fun i l =>
  if i < t.nTextures ∧ l = 0 ∧ mask ≠ some false then
    writeTexel conv (t.channelsStorage i) t.typeSize (t.levelShape 0 0) (height t 0) (depth t 0) x (if t.ndim = 1 then 0 else y) (if t.ndim = 3 then z else 0)
      (writeVec t zero i value) (a i l)
  else a i l

end Verif.MetalTex
