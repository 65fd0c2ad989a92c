/-
Model of Radiance files: headers (`decode_headers`, `encode`) and the conversion between RGBE bytes and floats
(`crates/zune-hdr/src/decoder.rs`, `encoder.rs`).  The scanlines in between are those of `Verif.Hdr.Model`.

A float is a rational number and every operation is followed by rounding to 24 bits (`Zune.Float.rnd`); overflow, underflow and NaN are not
modelled.
-/
import Verif.Hdr.Model
import Verif.Ppm.Model
import Verif.Common.Float

namespace Zune.Hdr.File

open Zune.Float (rnd)
open Zune.Ppm (decimal)

/-! ### Headers -/

/-- Errors of the decoder (errors.rs:18-33), reduced to the ones told apart here. -/
inductive Err where
  | magic | number | orientation | large | zero | scanline | panic
  deriving DecidableEq, Repr

/-- `get_buffer_until` (decoder.rs:440-459): the bytes up to and including the first `needle`, or all. -/
def getUntil (needle : UInt8) : List UInt8 → List UInt8 × List UInt8
  | [] => ([], [])
  | b :: s => if b = needle then ([b], s) else (b :: (getUntil needle s).1, (getUntil needle s).2)

theorem getUntil_le (needle : UInt8) (s : List UInt8) : (getUntil needle s).2.length ≤ s.length := by
  induction s with
  | nil => simp [getUntil]
  | cons b s ih =>
    rw [getUntil]
    split
    · simp
    · simp only [List.length_cons]; omega

theorem getUntil_lt (needle b : UInt8) (s : List UInt8) : (getUntil needle (b :: s)).2.length < (b :: s).length := by
  rw [getUntil]
  split
  · simp
  · have := getUntil_le needle s
    simp only [List.length_cons]; omega

/-- White space among the ASCII characters, for `trim` (decoder.rs:139-141). -/
def isBlank (b : UInt8) : Bool := (9 ≤ b && b ≤ 13) || b == 32

/-- `str::trim` (decoder.rs:139-141, 152-172). (Simplified: on bytes, for ASCII text; the replacement of invalid UTF-8 and other
white space are left out.) -/
def trim (l : List UInt8) : List UInt8 := ((l.dropWhile isBlank).reverse.dropWhile isBlank).reverse

/-- `BTreeMap::insert` (decoder.rs:142). (Simplified: the order of the keys is not kept.) -/
def insert (k v : List UInt8) (md : List (List UInt8 × List UInt8)) : List (List UInt8 × List UInt8) := (k, v) :: md.filter fun e => e.1 != k

/-- A line with key and value (decoder.rs:134-143): the first two pieces between equals signs. -/
def keyValue (line : List UInt8) : List UInt8 × List UInt8 :=
  let l := trim line
  (trim (l.takeWhile (· != 61)), trim (((l.dropWhile (· != 61)).drop 1).takeWhile (· != 61)))

/-- The loop over the header lines (decoder.rs:127-149). -/
def headLoop (md : List (List UInt8 × List UInt8)) (s : List UInt8) : List (List UInt8 × List UInt8) × List UInt8 :=
  match hs : s with
  | [] => (md, [])
  | b :: t =>
    let r := getUntil 10 (b :: t)
    if b = 35 then headLoop md r.2
    else
      let md := if 61 ∈ r.1 then insert (keyValue r.1).1 (keyValue r.1).2 md else md
      if b = 10 then (md, r.2) else headLoop md r.2
termination_by s.length
decreasing_by all_goals (exact getUntil_lt 10 b t)

/-- The digits of `parse::<usize>` (decoder.rs:176-181). -/
def digits : Nat → List UInt8 → Option Nat
  | acc, [] => some acc
  | acc, b :: l => if 48 ≤ b ∧ b ≤ 57 ∧ acc * 10 + (b.toNat - 48) < 2 ^ 64 then digits (acc * 10 + (b.toNat - 48)) l else none

/-- `str::parse::<usize>` (decoder.rs:176-181): one plus sign may come first. -/
def parseUsize (l : List UInt8) : Option Nat :=
  match l with
  | [] => none
  | [43] => none
  | 43 :: l => digits 0 l
  | l => digits 0 l

/-- What `decode_headers` finds (decoder.rs:142, 176-181). -/
structure Header where
  width : Nat
  height : Nat
  metadata : List (List UInt8 × List UInt8)
  deriving DecidableEq, Repr

/-- `#?RADIANCE` and `#?RGBE` with the line feed (decoder.rs:121-122). -/
def magics : List (List UInt8) := [[35, 63, 82, 65, 68, 73, 65, 78, 67, 69, 10], [35, 63, 82, 71, 66, 69, 10]]

/-- `decode_headers` (decoder.rs:112-212). -/
def decodeHeaders (maxW maxH : Nat) (s : List UInt8) : Except Err (Header × List UInt8) :=
  let (line, s) := getUntil 10 s
  if ¬ (magics.any fun m => m.isPrefixOf line) then .error .magic else
  let (md, s) := headLoop [] s
  let (a, s) := getUntil 32 s
  let (n1, s) := getUntil 32 s
  let (b, s) := getUntil 32 s
  let (n2, s) := getUntil 10 s
  let dims : Except Err (Option Nat × Option Nat) :=
    if trim a = [45, 89] ∧ trim b = [43, 88] then .ok (parseUsize (trim n1), parseUsize (trim n2))
    else if trim a = [43, 88] ∧ trim b = [45, 89] then .ok (parseUsize (trim n2), parseUsize (trim n1))
    else .error .orientation
  match dims with
  | .error e => .error e
  | .ok (some h, some w) => if maxH < h ∨ maxW < w then .error .large else .ok (⟨w, h, md⟩, s)
  | .ok _ => .error .number

/-- `encode` up to the scanlines (encoder.rs:154-170). -/
def encodeHeaders (headers : List (List UInt8 × List UInt8)) (w h : Nat) : List UInt8 :=
  [35, 63, 82, 65, 68, 73, 65, 78, 67, 69, 10] ++
  [83, 79, 70, 84, 87, 65, 82, 69, 61, 122, 117, 110, 101, 45, 104, 100, 114, 10] ++
  headers.flatMap (fun e => e.1 ++ [61] ++ e.2 ++ [10]) ++
  [70, 79, 82, 77, 65, 84, 61, 51, 50, 45, 98, 105, 116, 95, 114, 108, 101, 95, 114, 103, 98, 101, 10, 10] ++
  ([45, 89, 32] ++ decimal h ++ [32, 43, 88, 32] ++ decimal w ++ [10])

/-- `expected_buffer_size` (encoder.rs:61-67). (Simplified: without the tests for overflow.) -/
def expectedSize (w h : Nat) : Nat := w * h * 4 + 1024

/-- `encode` (encoder.rs:129-204) from the RGBE scanlines on. -/
def encodeFile (headers : List (List UInt8 × List UInt8)) (w h : Nat) (lines : List (List UInt8)) : List UInt8 :=
  encodeHeaders headers w h ++ encodeLines w lines

/-- `decode` (decoder.rs:248-255, 295-394) to the RGBE scanlines handed to `convert_scanline`. -/
def decodeFile (maxW maxH : Nat) (s : List UInt8) : Except Err (Header × List (List UInt8)) :=
  match decodeHeaders maxW maxH s with
  | .error e => .error e
  | .ok (hd, s) =>
    if 2 ^ 64 ≤ hd.width * hd.height * 3 then .error .panic
    else if hd.width = 0 then .error .zero
    else
      match decodeLines hd.width hd.height (List.replicate (4 * hd.width) 0) s with
      | .error .eof => .error .scanline
      | .error .panic => .error .panic
      | .ok (lines, _) => .ok (hd, lines)

/-! ### Floats -/

/-- `ldexp_pos` (decoder.rs:485-488). -/
def ldexpPos (x : Rat) (k : Nat) : Rat := rnd 24 (x * rnd 24 ((2 ^ (k % 32) % 2 ^ 32 : Nat) : Rat))

/-- `ldexp_neg` (decoder.rs:489-492). -/
def ldexpNeg (x : Rat) (k : Nat) : Rat := rnd 24 (x / rnd 24 ((2 ^ (k % 32) % 2 ^ 32 : Nat) : Rat))

/-- `convert_pos` (decoder.rs:510-513). -/
def convertPos (val : Nat) (exponent : Int) : Rat := ldexpPos (rnd 24 ((val : Rat) / 256)) (exponent.natAbs &&& 31)

/-- `convert_neg` (decoder.rs:516-519). -/
def convertNeg (val : Nat) (exponent : Int) : Rat := ldexpNeg (rnd 24 ((val : Rat) / 256)) (exponent.natAbs &&& 31)

/-- One component of a pixel in `convert_scanline` (decoder.rs:465-482); `e` is the last byte of the pixel. -/
def convert (val e : UInt8) : Rat :=
  if e = 0 then 0
  else
    let epxo : Int := (e.toNat : Int) - 128
    if 0 < epxo then convertPos val.toNat epxo else convertNeg val.toNat epxo

/-- `convert_scanline` (decoder.rs:460-483). -/
def convertLine : List UInt8 → List Rat
  | r :: g :: b :: e :: l => convert r e :: convert g e :: convert b e :: convertLine l
  | _ => []

/-- The number a bit pattern stands for, `f32::from_bits` (encoder.rs:323) of a pattern without sign, infinity and NaN. -/
def bitsVal (b : Nat) : Rat :=
  if b / 2 ^ 23 = 0 then ((b % 2 ^ 23 : Nat) : Rat) * (2 : Rat) ^ (-149 : Int)
  else ((2 ^ 23 + b % 2 ^ 23 : Nat) : Rat) * (2 : Rat) ^ ((b / 2 ^ 23 : Nat) - 150 : Int)

/-- `fast_log2` (encoder.rs:314-330). -/
def fastLog2 (vx : Nat) : Rat :=
  let mxf := bitsVal (vx &&& 0x007FFFFF ||| 0x3f000000)
  let y := rnd 24 (rnd 24 (vx : Rat) * rnd 24 (11920929 / 10 ^ 14))
  rnd 24 (rnd 24 (rnd 24 (y - rnd 24 (12422552 / 10 ^ 5)) - rnd 24 (rnd 24 (14980303 / 10 ^ 7) * mxf)) -
    rnd 24 (rnd 24 (172588 / 10 ^ 5) / rnd 24 (rnd 24 (35208872 / 10 ^ 8) + mxf)))

/-- `floor` (encoder.rs:296-309); `as u64` cuts off and does not go below zero. -/
def floorF (num : Rat) : Rat :=
  let d := rnd 24 ((⌊num⌋.toNat : Nat) : Rat)
  if d = num ∨ 0 ≤ num then d else rnd 24 (d - 1)

/-- `frexp` (encoder.rs:333-350) of a positive number given by its bits; `exp2` is the function of the platform. -/
def frexpF (exp2 : Rat → Rat) (s : Nat) : Rat × Int :=
  let lg := fastLog2 s
  let f := floorF lg
  (exp2 (rnd 24 (rnd 24 (lg - f) - 1)), ⌊rnd 24 (f + 1)⌋)

/-- One component (encoder.rs:267-269): clamped and cut off. -/
def mantissa (v : Rat) (c : Nat) : UInt8 := UInt8.ofNat ⌊max 0 (min 255 (rnd 24 (bitsVal c * v)))⌋.toNat

/-- `float_to_rgbe` (encoder.rs:260-275). (Simplified: for components that are not negative, infinite or NaN, given by their bits; these are
ordered as the numbers.) -/
def floatToRgbe (exp2 : Rat → Rat) (r g b : Nat) : List UInt8 :=
  let s := max (max r g) b
  if rnd 24 (1 / 10 ^ 32) < bitsVal s then
    let (x, e) := frexpF exp2 s
    let v := rnd 24 (rnd 24 (x * 256) / bitsVal s)
    [mantissa v r, mantissa v g, mantissa v b, UInt8.ofNat ((e + 128) % 256).toNat]
  else [0, 0, 0, 0]

end Zune.Hdr.File
