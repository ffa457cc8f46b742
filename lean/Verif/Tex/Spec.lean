import Verif.Tex.Model

/-! # Specification of textures -/
namespace Verif.Tex.Spec

/-- Textures that can be created (`cuda_tex.cpp:107-145`) -/
structure Valid (t : Texture) : Prop where
  channels : 0 < t.nChannels
  ndim : 1 ≤ t.ndim ∧ t.ndim ≤ 3
  typeSize : 0 < t.typeSize
  shape : ∀ d < t.ndim, 0 < t.shape d

/-- Number of texels of a MIP level along a dimension: halved (rounded down) per level, but at least one; one for dimensions that do not exist -/
def size (t : Texture) (level d : Nat) : Nat := if d < t.ndim then max 1 (t.shape d / 2 ^ level) else 1

/-- Offset of byte `k` of a channel of a texel in a densely packed row-major buffer -/
def packed (t : Texture) (level x y z ch k : Nat) : Nat :=
  (((z * size t level 1 + y) * size t level 0 + x) * t.nChannels + ch) * t.typeSize + k

/-- Size of such a buffer -/
def packedSize (t : Texture) (level : Nat) : Nat := size t level 0 * size t level 1 * size t level 2 * t.nChannels * t.typeSize

/-- A channel of a texel, as lookups find it in the CUDA arrays: channel `ch` is component `ch % 4` of texture `ch / 4` -/
def stored (t : Texture) (a : Arrays) (level x y z ch k : Nat) : Byte :=
  a (ch / 4) level z y ((x * t.channelsStorage (ch / 4) + ch % 4) * t.typeSize + k)

end Verif.Tex.Spec
