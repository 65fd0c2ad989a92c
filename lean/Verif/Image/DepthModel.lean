/-
Model of `crates/zune-image/src/core_filters/depth.rs`: conversion between 8 bit, 16 bit and `f32` samples.

`f32` arithmetic is modelled exactly for the numbers that occur here (non-negative, below 2^24, never subnormal): a number is
a significand over a power of two, and every operation rounds the exact result to 24 significant bits, ties to even.
-/
import Verif.Common.Bytes

namespace Zune.Depth

/-- A non-negative `f32`: the value `m / 2^s`. -/
structure F32 where
  m : Nat
  s : Nat
  deriving DecidableEq, Repr

/-- The scale that leaves 24 bits before the point: the result has `2^23 ≤ p * 2^s / q < 2^24`. -/
def scale (p q : Nat) : Nat :=
  let s := 23 + q.log2 - p.log2
  if p * 2 ^ s / q < 2 ^ 23 then s + 1 else s

/-- Rounding of the rational `p / q` to the nearest `f32`, ties to even (IEEE 754).  Simplified: no subnormal numbers, and only
    for `p / q < 2^24`. -/
def rnd (p q : Nat) : F32 :=
  if p = 0 then ⟨0, 0⟩
  else
    let s := scale p q
    let n := p * 2 ^ s / q
    let r := p * 2 ^ s % q
    ⟨if q < 2 * r ∨ q = 2 * r ∧ n % 2 = 1 then n + 1 else n, s⟩

/-- `f32::from` of a `u8` or `u16` (exact). -/
def ofNat (n : Nat) : F32 := ⟨n, 0⟩

/-- `*` on `f32`. -/
def F32.mul (a b : F32) : F32 := rnd (a.m * b.m) (2 ^ (a.s + b.s))

/-- `1.0 / n` on `f32`. -/
def recip (n : Nat) : F32 := rnd 1 n

/-- `as u8` / `as u16`: towards zero, saturating at `hi`; the preceding `clamp(0.0, hi)` does not change it. -/
def F32.toInt (a : F32) (hi : Nat) : Nat := min hi (a.m / 2 ^ a.s)

/-- `BitDepth` (zune-core/src/bit_depth.rs); `Unknown` left out. -/
inductive BitDepth where
  | eight | sixteen | float32
  deriving DecidableEq, Repr

/-- The samples of one channel. -/
inductive Samples where
  | u8 (l : List UInt8)
  | u16 (l : List UInt16)
  | f32 (l : List F32)
  deriving DecidableEq, Repr

/-- `depth_u8_to_u16` (depth.rs:80-89) on one sample. -/
def u8ToU16 (max : Nat) (x : UInt8) : UInt16 :=
  UInt16.ofNat ((((ofNat x.toNat).mul (recip 255)).mul (ofNat max)).toInt 65535)

/-- `depth_u16_to_u8` (depth.rs:49-66) on one sample. -/
def u16ToU8 (max : Nat) (x : UInt16) : UInt8 :=
  if max = 65535 then UInt8.ofNat (x.toNat / 257)
  else UInt8.ofNat ((((ofNat x.toNat).mul (recip max)).mul (ofNat 255)).toInt 255)

/-- `f32` to `u8` (depth.rs:147-149). -/
def f32ToU8 (x : F32) : UInt8 := UInt8.ofNat (((ofNat 255).mul x).toInt 255)

/-- `f32` to `u16` (depth.rs:160-162). -/
def f32ToU16 (x : F32) : UInt16 := UInt16.ofNat (((ofNat 65535).mul x).toInt 65535)

/-- `u8` to `f32` (depth.rs:173-176). -/
def u8ToF32 (x : UInt8) : F32 := (ofNat x.toNat).mul (recip 255)

/-- `u16` to `f32` (depth.rs:187-191). -/
def u16ToF32 (x : UInt16) : F32 := (ofNat x.toNat).mul (recip 65535)

/-- `BitDepth::max_value` (bit_depth.rs:91-100). -/
def BitDepth.max : BitDepth → Nat
  | .eight => 255 | .sixteen => 65535 | .float32 => 1

/-- The match on one channel (depth.rs:118-204); `none` is a panic (the type check of `reinterpret_as`, here: the samples do
    not have the type of the image depth) or the error of the last arm. -/
def convert (src dst : BitDepth) : Samples → Option Samples
  | .u8 l => match src, dst with
    | .eight, .sixteen => some (.u16 (l.map (u8ToU16 dst.max)))
    | .eight, .float32 => some (.f32 (l.map u8ToF32))
    | _, _ => none
  | .u16 l => match src, dst with
    | .sixteen, .eight => some (.u8 (l.map (u16ToU8 src.max)))
    | .sixteen, .float32 => some (.f32 (l.map u16ToF32))
    | _, _ => none
  | .f32 l => match src, dst with
    | .float32, .eight => some (.u8 (l.map f32ToU8))
    | .float32, .sixteen => some (.u16 (l.map f32ToU16))
    | _, _ => none

/-- The parts of `Image` the operation uses. -/
structure Image where
  depth : BitDepth
  channels : List Samples
  deriving DecidableEq, Repr

/-- `Depth::execute_impl` (depth.rs:109-211). -/
def execute (dst : BitDepth) (i : Image) : Option Image :=
  if i.depth = dst then some i
  else (i.channels.mapM (convert i.depth dst)).map fun cs => { depth := dst, channels := cs }

end Zune.Depth
