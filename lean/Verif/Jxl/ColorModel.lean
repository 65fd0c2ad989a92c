/-
Model of `crates/zune-jpegxl/src/color_convert.rs`: the samples the JPEG XL encoder reads from the pixel bytes of a row.

`BitVec 16` stands for the `i16` pixels of the 8-bit encoder, `BitVec 32` for the `i32` pixels of the 16-bit encoder
(bit_depth.rs:142-143 and 186-187); arithmetic wraps, as in an optimised build, and C50 proves that it never does.  The functions that fill
a row return what they write; the caller stores it (`Jxl/AreaModel.lean`).  Native endian is taken to be little endian.
-/
import Verif.Common.Bytes

namespace Zune.Jxl

/-- `chunks_exact` of a slice (used throughout color_convert.rs): the remainder is dropped. -/
def chunksExact (n : Nat) (l : List UInt8) : List (List UInt8) :=
  if _h : 0 < n ∧ n ≤ l.length then l.take n :: chunksExact n (l.drop n) else []
termination_by l.length
decreasing_by simp; omega

/-- `convert_rgb_to_ycocg` (color_convert.rs:23-31): luma, orange and green difference. -/
def ycocg {w : Nat} (r g b : BitVec w) : BitVec w × BitVec w × BitVec w :=
  let co := r - b
  let tmp := b + co.sshiftRight 1
  let cg := g - tmp
  let y := tmp + cg.sshiftRight 1
  (y, co, cg)

/-- `u8` to pixel (`From<u8>`). -/
def ofByte (w : Nat) (b : UInt8) : BitVec w := BitVec.ofNat w b.toNat

/-- `u16::from_ne_bytes` to pixel: `T::try_from` of a `u16` succeeds for `i32` (color_convert.rs:42-58), as does the conversion of
    an `i32` to itself (color_convert.rs:117-119, 174-178). -/
def ofWord (w : Nat) (a b : UInt8) : BitVec w := BitVec.ofNat w (leVal [a, b])

/-- `i16::from_ne_bytes` to pixel (`From<i16>`, color_convert.rs:70-81): sign extension. -/
def ofSignedWord (w : Nat) (a b : UInt8) : BitVec w := (BitVec.ofNat 16 (leVal [a, b])).signExtend w

/-- One pixel of `fill_row_g8`, `fill_row_ga8`, `fill_row_rgb8`, `fill_row_rgba8` (color_convert.rs:33-40, 60-68, 83-94, 123-143): the
    samples of the channels. -/
def pixel8 (w : Nat) : List UInt8 → List (BitVec w)
  | [l] => [ofByte w l]
  | [l, a] => [ofByte w l, ofByte w a]
  | [r, g, b] => let c := ycocg (ofByte w r) (ofByte w g) (ofByte w b); [c.1, c.2.1, c.2.2]
  | [r, g, b, a] => let c := ycocg (ofByte w r) (ofByte w g) (ofByte w b); [c.1, c.2.1, c.2.2, ofByte w a]
  | _ => []

/-- One pixel of `fill_row_g16`, `fill_row_ga16`, `fill_row_rgb16`, `fill_row_rgba16` (color_convert.rs:42-58, 70-81, 96-121, 145-180). -/
def pixel16 (w : Nat) : List UInt8 → List (BitVec w)
  | [l0, l1] => [ofWord w l0 l1]
  | [l0, l1, a0, a1] => [ofSignedWord w l0 l1, ofSignedWord w a0 a1]
  | [r0, r1, g0, g1, b0, b1] =>
    let c := ycocg (ofWord w r0 r1) (ofWord w g0 g1) (ofWord w b0 b1); [c.1, c.2.1, c.2.2]
  | [r0, r1, g0, g1, b0, b1, a0, a1] =>
    let c := ycocg (ofWord w r0 r1) (ofWord w g0 g1) (ofWord w b0 b1); [c.1, c.2.1, c.2.2, ofWord w a0 a1]
  | _ => []

/-- The dispatch over channels and input bytes (encoder.rs:793-865) together with the loops of the `fill_row` functions: the pixels of the
    first `oxs` positions of a row, each as the list of its samples. -/
def fillRow (w bytes channels : Nat) (row : List UInt8) (oxs : Nat) : List (List (BitVec w)) :=
  ((chunksExact (bytes * channels) row).take oxs).map (if bytes = 1 then pixel8 w else pixel16 w)

end Zune.Jxl
