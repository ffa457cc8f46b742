import Mathlib.Data.List.Basic
import Mathlib.Logic.Function.Basic

/-!
# Hardware textures on CUDA devices

Sources: `src/tex.h` (division into textures with at most four channels), `src/cuda_tex.cpp` (uploads, downloads, lookups, writes, lifetime),
`src/cuda_eval.cpp:1180-1350` (generated code).

Simplifications: buffers and CUDA arrays are functions from offsets to bytes; copies of the CUDA driver (`cuMemcpy2DAsync`, `cuMemcpy3DAsync`) behave as
documented and happen in the order in which they are issued on the stream; filtering and addressing of lookups is left to the hardware.  Textures that wrap OpenGL textures
only differ in the origin of the arrays and are not modelled separately.
-/
namespace Verif.Tex

abbrev Byte := BitVec 8

/-- `TextureBase`, `tex.h:21-37`; `shape` has three entries, zero beyond `ndim` -/
structure Texture where
  ndim : Nat
  nChannels : Nat
  typeSize : Nat
  shape : Nat → Nat
  nLevels : Nat

/-- `n_textures`, `tex.h:36` -/
def Texture.nTextures (t : Texture) : Nat := 1 + (t.nChannels - 1) / 4

/-- `channels`, `tex.h:40-48` -/
def Texture.channels (t : Texture) (index : Nat) : Nat :=
  if index = t.nTextures - 1 then (if t.nChannels % 4 = 0 then 4 else t.nChannels % 4) else 4

/-- `channels_storage`, `tex.h:51-54` -/
def Texture.channelsStorage (t : Texture) (index : Nat) : Nat := if t.channels index = 3 then 4 else t.channels index

/-- `level_shape`, `tex.h:58-63` -/
def Texture.levelShape (t : Texture) (level i : Nat) : Nat :=
  if t.shape i ≠ 0 then (if t.shape i >>> level > 0 then t.shape i >>> level else 1) else 0

/-! ### Copies -/

/-- Writes of bytes -/
abbrev Writes := List (Nat × Byte)

/-- Executes writes of bytes. -/
def apply (ws : Writes) (m : Nat → Byte) : Nat → Byte := ws.foldl (fun m w => Function.update m w.1 w.2) m

/-- `cuMemcpy2DAsync` between device buffers: `height` rows of `width` bytes; source and destination have an offset and a distance between rows. -/
def copy2D (src : Nat → Byte) (sx sp dx dp width height : Nat) : Writes :=
  (List.range height).flatMap fun y => (List.range width).map fun x => (dx + y * dp + x, src (sx + y * sp + x))

/-- A CUDA array: slice, row, offset within the row -/
abbrev Array3 := Nat → Nat → Nat → Byte

/-- `cuMemcpy2DAsync`/`cuMemcpy3DAsync` from a buffer to an array; `rows` is the number of rows between slices of the buffer (`srcHeight`). -/
def toArray (buf : Nat → Byte) (off pitch rows width height depth : Nat) (a : Array3) : Array3 := fun z y x =>
  if z < depth ∧ y < height ∧ x < width then buf (off + (z * rows + y) * pitch + x) else a z y x

/-- The same in the opposite direction -/
def fromArray (a : Array3) (off pitch rows width height depth : Nat) : Writes :=
  (List.range depth).flatMap fun z => (List.range height).flatMap fun y => (List.range width).map fun x => (off + (z * rows + y) * pitch + x, a z y x)

/-- `n_texels`, `cuda_tex.cpp:333-338` -/
def Texture.nTexels (t : Texture) (level : Nat) : Nat := (List.range (t.ndim - 1)).foldl (fun n d => n * t.levelShape level (d + 1)) (t.levelShape level 0)

/-- `needs_staging`, `cuda_tex.cpp:342` -/
def Texture.needsStaging (t : Texture) : Bool := decide (t.nTextures > 1) || decide (t.nChannels = 3)

/-- Size of the staging area, `jitc_cuda_tex_alloc_staging_area`, `cuda_tex.cpp:268-279` -/
def Texture.stagingSize (t : Texture) (n : Nat) : Nat := t.typeSize * n * ((t.nTextures - 1) * 4 + t.channelsStorage (t.nTextures - 1))

/-- `jitc_cuda_tex_stage`, `cuda_tex.cpp:286-315`: the writes of one of its copies (texture `i`) -/
def Texture.stage (t : Texture) (toStaging : Bool) (n : Nat) (src : Nat → Byte) (i : Nat) : Writes :=
  let texelSize := t.nChannels * t.typeSize
  let texelOffset := i * 4 * t.typeSize
  let stagedOff := n * texelOffset
  let stagedPitch := t.channelsStorage i * t.typeSize
  let width := t.channels i * t.typeSize
  if toStaging then copy2D src texelOffset texelSize stagedOff stagedPitch width n
  else copy2D src stagedOff stagedPitch texelOffset texelSize width n

/-- Pitch and offset of texture `i` in the buffer, `cuda_tex.cpp:354-355` -/
def Texture.pitch (t : Texture) (level i : Nat) : Nat := t.levelShape level 0 * t.channelsStorage i * t.typeSize
def Texture.bufOff (t : Texture) (n i : Nat) : Nat := if t.needsStaging then i * n * 4 * t.typeSize else 0

/-- Number of rows and slices of the copies, `cuda_tex.cpp:362-397`; the first component is `srcHeight`/`dstHeight` (not used for two dimensions) -/
def Texture.extent (t : Texture) (level : Nat) : Nat × Nat × Nat :=
  if t.ndim = 3 then (t.levelShape level 1, t.levelShape level 1, t.levelShape level 2)
  else (0, if t.ndim = 2 then t.levelShape level 1 else 1, 1)

/-- Contents of the arrays of all textures and levels -/
abbrev Arrays := Nat → Nat → Array3

/-- `jitc_cuda_tex_memcpy_d2t`, `cuda_tex.cpp:323-408`: `linear` is the buffer of the user, `staging` the initial content of the staging area.  `none`: an exception is
raised. -/
def Texture.upload (t : Texture) (level : Nat) (linear staging : Nat → Byte) (a : Arrays) : Option Arrays :=
  if level ≥ t.nLevels then none
  else
    let n := t.nTexels level
    let s := (List.range t.nTextures).foldl (fun s i => apply (t.stage true n linear i) s) staging
    let buf := if t.needsStaging then s else linear
    let (rows, h, d) := t.extent level
    some fun i l => if i < t.nTextures ∧ l = level then toArray buf (t.bufOff n i) (t.pitch level i) rows (t.pitch level i) h d (a i l) else a i l

/-- `jitc_cuda_tex_memcpy_t2d`, `cuda_tex.cpp:323-412` -/
def Texture.download (t : Texture) (level : Nat) (a : Arrays) (staging linear : Nat → Byte) : Option (Nat → Byte) :=
  if level ≥ t.nLevels then none
  else
    let n := t.nTexels level
    let (rows, h, d) := t.extent level
    let read := fun m i => apply (fromArray (a i level) (t.bufOff n i) (t.pitch level i) rows (t.pitch level i) h d) m
    if t.needsStaging then
      let s := (List.range t.nTextures).foldl read staging
      some ((List.range t.nTextures).foldl (fun m i => apply (t.stage false n s i) m) linear)
    else some ((List.range t.nTextures).foldl read linear)

/-! ### Lookups -/

/-- Results of lookups, `cuda_tex.cpp:467-509` (`jitc_cuda_tex_lookup`), `514-573` (`cuda_tex_sample_op`): texture and component -/
def Texture.lookup (t : Texture) : List (Nat × Nat) :=
  (List.range t.nTextures).flatMap fun ti => (List.range (t.channels ti)).map fun ch => (ti, ch)

/-- Results of `jitc_cuda_tex_bilerp_fetch`, `cuda_tex.cpp:677-716`: texture, component and number of the texel -/
def Texture.bilerp (t : Texture) : List (Nat × Nat × Nat) :=
  (List.range t.nTextures).flatMap fun ti => (List.range (t.channels ti)).flatMap fun ch => (List.range 4).map fun j => (ti, ch, j)

/-- The value of a component of a lookup in a lane, `cuda_eval.cpp:1180-1202, 1216-1222, 1260-1267`: masked lookups initialise registers by zero.  For `TexLookup`, the mask is
encoded in the pointer. -/
def lookupLane {F : Type} (zero : F) (masked active : Bool) (hw : F) : F := if masked then (if active then hw else zero) else hw

/-! ### Writes -/

/-- Operands of a surface store: offset in bytes, components -/
structure Sust (F : Type) where
  x : Nat
  vals : List F

/-- `TexWrite`, `cuda_eval.cpp:1284-1343`, `cuda_tex.cpp:639-655`: the store of texture `ti`; `none` if the instruction does not exist: `vec` is empty unless there are two or four
values, and then only one value can be stored -/
def Texture.sust {F : Type} (t : Texture) (ti x : Nat) (value : Nat → F) : Option (Sust F) :=
  let nc := t.channels ti
  let stride := nc * t.typeSize
  let vals := (List.range nc).map fun c => value (ti * 4 + c)
  let vec := if nc = 4 then 4 else if nc = 2 then 2 else 1
  if vals.length = vec then some ⟨x * stride % 2 ^ 32, vals⟩ else none

/-- `sust.b.….zero`: stores to rows of `width` bytes; stores outside of the array are ignored. -/
def Sust.exec {F : Type} (conv : F → Nat → Byte) (ts width height depth : Nat) (s : Sust F) (z y : Nat) (a : Array3) : Array3 := fun z' y' b =>
  if z < depth ∧ y < height ∧ s.x + s.vals.length * ts ≤ width ∧ z' = z ∧ y' = y ∧ s.x ≤ b then
    match s.vals[(b - s.x) / ts]? with
    | some v => conv v ((b - s.x) % ts)
    | none => a z' y' b
  else a z' y' b

/-- `jitc_cuda_tex_write`, `cuda_tex.cpp:594-675`, executed by a lane at the position `(x, y, z)` -/
def Texture.write {F : Type} (t : Texture) (conv : F → Nat → Byte) (active : Bool) (x y z : Nat) (value : Nat → F) (a : Arrays) : Option Arrays :=
  let (_, h, d) := t.extent 0
  (List.range t.nTextures).foldl (fun a ti => match a, t.sust ti x value with
    | some a, some s => some (if active then fun i l => if i = ti ∧ l = 0 then s.exec conv t.typeSize (t.pitch 0 ti) h d z y (a i l) else a i l else a)
    | _, _ => none) (some a)

/-! ### Lifetime -/

/-- Lifetime of a texture: references to the variables that represent texture objects and surface objects (`indices`, `surf_indices`), whether objects exist, how often the structure
has been deleted, outstanding objects (`n_referenced_textures`), accesses to it after its deletion -/
structure Life where
  refs : Nat → Nat
  surfRefs : Nat → Nat
  alive : Nat → Bool
  outstanding : Nat
  deleted : Nat
  bad : Nat

/-- After `jitc_cuda_tex_create`, `cuda_tex.cpp:147-236`: the handle owns a reference to each variable. -/
def Life.create (n : Nat) : Life :=
  { refs := fun i => if i < n then 1 else 0, surfRefs := fun i => if i < n then 1 else 0, alive := fun i => decide (i < n), outstanding := n, deleted := 0, bad := 0 }

/-- `jitc_var_dec_ref(indices[i])` with the callback of `cuda_tex.cpp:218-235` and `release_texture` (`46-61`), which destroys both objects -/
def Life.decRef (i : Nat) (s : Life) : Life :=
  if s.refs i = 1 then
    { s with refs := Function.update s.refs i 0, alive := Function.update s.alive i false, outstanding := s.outstanding - 1,
             deleted := if s.outstanding - 1 > 0 then s.deleted else s.deleted + 1, bad := if s.deleted > 0 then s.bad + 1 else s.bad }
  else { s with refs := Function.update s.refs i (s.refs i - 1) }

/-- `jitc_cuda_tex_destroy`, `cuda_tex.cpp:948-985` (textures that are not external): `n` textures; the loop reads `texture->indices[tex]`. -/
def Life.destroy (writable : Bool) (n : Nat) (s : Life) : Life :=
  let s1 := if writable then { s with surfRefs := fun i => if i < n then s.surfRefs i - 1 else s.surfRefs i } else s
  (List.range n).foldl (fun s i => Life.decRef i { s with bad := if s.deleted > 0 then s.bad + 1 else s.bad }) s1

/-- Operations: a lookup takes a reference to `indices` (`get_jit_pointer`, `cuda_tex.cpp:73-76`), a write one to `surf_indices` (`80-84`).  Both are given back when their variables are
freed or executed. -/
inductive Op where
  | lookup (i : Nat)
  | freeLookup (i : Nat)
  | write (i : Nat)
  | doneWrite (i : Nat)
  | destroy

/-- Histories: `lookups`, `writes` count the pending operations, `handle` tells whether the user owns the handle. -/
structure World where
  life : Life
  lookups : Nat → Nat
  writes : Nat → Nat
  handle : Bool

/-- A step of a history of a texture with `n` parts; operations require the handle, and only what is pending can be freed. -/
inductive Step (writable : Bool) (n : Nat) : World → Op → World → Prop
  | lookup {w : World} {i : Nat} : w.handle = true → i < n →
      Step writable n w (.lookup i) { w with life := { w.life with refs := Function.update w.life.refs i (w.life.refs i + 1) },
                                             lookups := Function.update w.lookups i (w.lookups i + 1) }
  | freeLookup {w : World} {i : Nat} : w.lookups i > 0 →
      Step writable n w (.freeLookup i) { w with life := w.life.decRef i, lookups := Function.update w.lookups i (w.lookups i - 1) }
  | write {w : World} {i : Nat} : w.handle = true → writable = true → i < n →
      Step writable n w (.write i) { w with life := { w.life with surfRefs := Function.update w.life.surfRefs i (w.life.surfRefs i + 1) },
                                            writes := Function.update w.writes i (w.writes i + 1) }
  | doneWrite {w : World} {i : Nat} : w.writes i > 0 →
      Step writable n w (.doneWrite i) { w with life := { w.life with surfRefs := Function.update w.life.surfRefs i (w.life.surfRefs i - 1) },
                                                writes := Function.update w.writes i (w.writes i - 1) }
  | destroy {w : World} : w.handle = true →
      Step writable n w .destroy { w with life := w.life.destroy writable n, handle := false }

/-- Reachable states -/
inductive Reach (writable : Bool) (n : Nat) : World → Prop
  | init : Reach writable n ⟨Life.create n, fun _ => 0, fun _ => 0, true⟩
  | step {w w' : World} {o : Op} : Reach writable n w → Step writable n w o w' → Reach writable n w'

end Verif.Tex
