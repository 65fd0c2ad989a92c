/-
Model of `crates/zune-ppm/src/{encoder,decoder}.rs`.  The reader is the list of unread bytes (`Bytestream/Stream.lean`); `eof` is the
empty list and `rewind(1)` after reading one byte puts it back.
-/
import Verif.Farbfeld.Model

namespace Zune.Ppm
open Zune.Stream

/-- Errors of encoder and decoder (decoder.rs:33-42, encoder.rs:21-26), reduced to the ones told apart here. -/
inductive Err where
  | io | size | header | large | zero | overflow | colorspace
  deriving DecidableEq, Repr

/-- A reader result as an `Except`. -/
def io {α : Type} : Option α → Except Err α
  | none => .error .io
  | some a => .ok a

/-- The colorspaces written by the encoder (encoder.rs:181-188). -/
inductive Cs where
  | luma | lumaA | rgb | rgba
  deriving DecidableEq, Repr

/-- `num_components` of the colorspace (zune-core/src/colorspace.rs). -/
def Cs.comps : Cs → Nat
  | .luma => 1
  | .lumaA => 2
  | .rgb => 3
  | .rgba => 4

/-! ### Encoder -/

/-- Decimal digits written by `format!("{n}")` for an unsigned integer (encoder.rs:128, 134). -/
def decimal (n : Nat) : List UInt8 :=
  if n < 10 then [UInt8.ofNat (48 + n)] else decimal (n / 10) ++ [UInt8.ofNat (48 + n % 10)]
termination_by n
decreasing_by omega

/-- `max_value` of the depth (zune-core/src/bit_depth.rs), 8 or 16 bits. -/
def maxVal (sixteen : Bool) : Nat := if sixteen then 65535 else 255

/-- `encode_headers` (encoder.rs:113-142) with `version_for_colorspace` and `convert_tuple_type_to_pam` (181-198). -/
def header (w h : Nat) (cs : Cs) (sixteen : Bool) : List UInt8 :=
  match cs with
  | .luma => [80, 53, 10] ++ decimal w ++ [10] ++ decimal h ++ [10] ++ decimal (maxVal sixteen) ++ [10]
  | .rgb => [80, 54, 10] ++ decimal w ++ [10] ++ decimal h ++ [10] ++ decimal (maxVal sixteen) ++ [10]
  | .lumaA => [80, 55, 10] ++ [87, 73, 68, 84, 72, 32] ++ decimal w ++ [10] ++ [72, 69, 73, 71, 72, 84, 32] ++ decimal h ++ [10]
      ++ [68, 69, 80, 84, 72, 32] ++ decimal 2 ++ [10] ++ [77, 65, 88, 86, 65, 76, 32] ++ decimal (maxVal sixteen) ++ [10]
      ++ [84, 85, 80, 76, 84, 89, 80, 69, 32] ++ [71, 82, 65, 89, 83, 67, 65, 76, 69, 95, 65, 76, 80, 72, 65] ++ [10]
      ++ [32, 69, 78, 68, 72, 68, 82, 10]
  | .rgba => [80, 55, 10] ++ [87, 73, 68, 84, 72, 32] ++ decimal w ++ [10] ++ [72, 69, 73, 71, 72, 84, 32] ++ decimal h ++ [10]
      ++ [68, 69, 80, 84, 72, 32] ++ decimal 4 ++ [10] ++ [77, 65, 88, 86, 65, 76, 32] ++ decimal (maxVal sixteen) ++ [10]
      ++ [84, 85, 80, 76, 84, 89, 80, 69, 32] ++ [82, 71, 66, 95, 65, 76, 80, 72, 65] ++ [10]
      ++ [32, 69, 78, 68, 72, 68, 82, 10]

/-- `encode` (encoder.rs:153-178) for depths 8 and 16; the loop over byte pairs is the one of the farbfeld encoder.  The `checked_mul`
    panics of `max_out_size` (encoder.rs:206-221) are the error `overflow`. -/
def encode (w h : Nat) (cs : Cs) (sixteen : Bool) (data : List UInt8) : Except Err (List UInt8) :=
  let bytes := if sixteen then 2 else 1
  if w * bytes * h * cs.comps + 100 ≥ Zune.Bytestream.usizeLim then .error .overflow
  else if w * bytes * h * cs.comps ≠ data.length then .error .size
  else .ok (header w h cs sixteen ++ (if sixteen then Zune.Farbfeld.samplesBE data else data))

/-! ### Decoder -/

/-- `u8::is_ascii_whitespace`: tab, line feed, form feed, carriage return, space. -/
def isWs (b : UInt8) : Bool := b == 9 || b == 10 || b == 12 || b == 13 || b == 32

/-- `u8::is_ascii_digit`. -/
def isDigit (b : UInt8) : Bool := decide (48 ≤ b.toNat ∧ b.toNat ≤ 57)

/-- `skip_spaces` (decoder.rs:626-646); `comment` says whether the loop at 636 is running. -/
def skipSpaces : Bool → List UInt8 → List UInt8
  | _, [] => []
  | true, b :: s => if b == 10 then skipSpaces false s else skipSpaces true s
  | false, b :: s =>
    if b == 35 then skipSpaces true s
    else if isWs b then skipSpaces false s
    else b :: s

/-- `get_integer` (decoder.rs:423-441), with the wrapping 64-bit arithmetic. -/
def getInteger : Nat → List UInt8 → Nat × List UInt8
  | acc, [] => (acc, [])
  | acc, b :: s =>
    if isDigit b then getInteger ((acc * 10 % Zune.Bytestream.usizeLim + (b.toNat - 48)) % Zune.Bytestream.usizeLim) s
    else (acc, b :: s)

/-- `get_bytes_until_whitespace` (decoder.rs:655-678): the bytes up to and including the first whitespace, and the stream after
    any further whitespace.  Nothing is returned when the stream ends first. -/
def untilWs (acc : List UInt8) : List UInt8 → List UInt8 × List UInt8
  | [] => ([], [])
  | b :: s => if isWs b then (acc ++ [b], skipSpaces false s) else untilWs (acc ++ [b]) s

/-- What the header functions set (fields of `PPMDecoder`, decoder.rs:17-25). -/
structure Hdr where
  w : Nat
  h : Nat
  cs : Cs
  sixteen : Bool
  deriving DecidableEq, Repr

/-- `decode_p5_and_p6_header` (decoder.rs:361-421). -/
def p56Header (maxW maxH : Nat) (cs : Cs) (s : List UInt8) : Except Err (Hdr × List UInt8) :=
  let (w, s) := getInteger 0 (skipSpaces false s)
  if w > maxW then .error .large else
  let (h, s) := getInteger 0 (skipSpaces false s)
  if h > maxH then .error .large else
  let (m, s) := getInteger 0 (skipSpaces false s)
  let s := skipSpaces false s
  if m > 65535 then .error .header else
  .ok ({ w, h, cs, sixteen := decide (m > 255) }, s)

/-- The values gathered by `decode_p7_header`; `none` while the line has not been seen (decoder.rs:238-242). -/
structure P7 where
  w : Option Nat := none
  h : Option Nat := none
  depth : Bool := false
  sixteen : Option Bool := none
  cs : Option Cs := none
  deriving DecidableEq, Repr

theorem skipSpaces_le (c : Bool) (s : List UInt8) : (skipSpaces c s).length ≤ s.length := by
  induction s generalizing c with
  | nil => cases c <;> simp [skipSpaces]
  | cons b s ih =>
    cases c <;> simp only [skipSpaces] <;> (repeat' split) <;> simp only [List.length_cons] <;>
      first | omega | exact Nat.le_succ_of_le (ih _)

theorem getInteger_le (a : Nat) (s : List UInt8) : (getInteger a s).2.length ≤ s.length := by
  induction s generalizing a with
  | nil => simp [getInteger]
  | cons b s ih =>
    simp only [getInteger]
    split
    · exact Nat.le_succ_of_le (ih _)
    · simp

theorem untilWs_le (a : List UInt8) (s : List UInt8) : (untilWs a s).2.length ≤ s.length := by
  induction s generalizing a with
  | nil => simp [untilWs]
  | cons b s ih =>
    simp only [untilWs]
    split
    · exact Nat.le_succ_of_le (skipSpaces_le _ _)
    · exact Nat.le_succ_of_le (ih _)

theorem untilWs_lt (a : List UInt8) (s : List UInt8) (h : (untilWs a s).1 ≠ []) : (untilWs a s).2.length < s.length := by
  cases s with
  | nil => simp [untilWs] at h
  | cons b s =>
    simp only [untilWs]
    split
    · exact Nat.lt_succ_of_le (skipSpaces_le _ _)
    · exact Nat.lt_succ_of_le (untilWs_le _ _)

/-- Colorspace named after `TUPLTYPE` (decoder.rs:315-329). -/
def tupleType (v : List UInt8) : Option Cs :=
  if [82, 71, 66, 95, 65, 76, 80, 72, 65].isPrefixOf v then some .rgba
  else if [82, 71, 66].isPrefixOf v then some .rgb
  else if [71, 82, 65, 89, 83, 67, 65, 76, 69, 95, 65, 76, 80, 72, 65].isPrefixOf v then some .lumaA
  else if [71, 82, 65, 89, 83, 67, 65, 76, 69].isPrefixOf v then some .luma
  else none

/-- The loop of `decode_p7_header` (decoder.rs:246-344). -/
def p7Loop (maxW maxH : Nat) (st : P7) (s : List UInt8) : Except Err (P7 × List UInt8) :=
  if s = [] then .error .header else
  let p := untilWs [] (skipSpaces false s)
  if _h1 : p.1 = [87, 73, 68, 84, 72, 32] then
    let v := getInteger 0 p.2
    if v.1 > maxW then .error .large else p7Loop maxW maxH { st with w := some v.1 } v.2
  else if _h2 : p.1 = [72, 69, 73, 71, 72, 84, 32] then
    let v := getInteger 0 p.2
    if v.1 > maxH then .error .large else p7Loop maxW maxH { st with h := some v.1 } v.2
  else if _h3 : p.1 = [68, 69, 80, 84, 72, 32] then
    let v := getInteger 0 p.2
    if v.1 > 4 then .error .header else p7Loop maxW maxH { st with depth := true } v.2
  else if _h4 : p.1 = [77, 65, 88, 86, 65, 76, 32] then
    let v := getInteger 0 p.2
    if v.1 > 65535 then .error .header else p7Loop maxW maxH { st with sixteen := some (decide (v.1 > 255)) } v.2
  else if _h5 : p.1 = [84, 85, 80, 76, 84, 89, 80, 69, 32] then
    let q := untilWs [] p.2
    match tupleType q.1 with
    | none => .error .header
    | some cs => p7Loop maxW maxH { st with cs := some cs } q.2
  else if [69, 78, 68, 72, 68, 82].isPrefixOf p.1 then .ok (st, p.2)
  else .error .header
termination_by s.length
decreasing_by
  all_goals
    have h1 := skipSpaces_le false s
    have h2 : p.2.length < (skipSpaces false s).length :=
      untilWs_lt [] (skipSpaces false s) (by intro hn; have hp : p.1 = [] := hn; simp_all)
    first
      | (have h3 : v.2.length ≤ p.2.length := getInteger_le 0 p.2; show v.2.length < s.length; omega)
      | (have h3 : q.2.length ≤ p.2.length := untilWs_le [] p.2; show q.2.length < s.length; omega)

/-- `decode_p7_header` (decoder.rs:237-359) with the check at 345. -/
def p7Header (maxW maxH : Nat) (s : List UInt8) : Except Err (Hdr × List UInt8) :=
  match p7Loop maxW maxH {} s with
  | .error e => .error e
  | .ok (st, s) =>
    match st.w, st.h, st.depth, st.sixteen, st.cs with
    | some w, some h, true, some sixteen, some cs => .ok ({ w, h, cs, sixteen }, s)
    | _, _, _, _, _ => .error .header

/-- `decode_headers` (decoder.rs:142-170) without the `Pf` and `PF` versions, which are `pfmHeader` below. -/
def decodeHeaders (maxW maxH : Nat) (s : List UInt8) : Except Err (Hdr × List UInt8) :=
  match s with
  | p :: v :: s =>
    if p ≠ 80 then .error .header
    else if v = 53 then p56Header maxW maxH .luma s
    else if v = 54 then p56Header maxW maxH .rgb s
    else if v = 55 then p7Header maxW maxH s
    else .error .header
  | _ => .error .io

/-- `n` big-endian 16-bit samples (decoder.rs:564-566). -/
def readU16 : Nat → List UInt8 → Except Err (List Nat)
  | 0, _ => .ok []
  | n + 1, s =>
    match be 2 s with
    | none => .error .io
    | some (v, s) =>
      match readU16 n s with
      | .error e => .error e
      | .ok l => .ok (v :: l)

/-- `DecodingResult` (zune-core/src/result.rs), 8- or 16-bit samples. -/
inductive Pixels where
  | u8 (l : List UInt8)
  | u16 (l : List Nat)
  deriving DecidableEq, Repr

/-- `decode` (decoder.rs:529-569) for 8 and 16 bits on a fresh decoder, with the header it leaves in the decoder.  The product at 541 is
    unchecked in the source; its overflow is the error `overflow`. -/
def decode (maxW maxH : Nat) (s : List UInt8) : Except Err (Hdr × Pixels) :=
  match decodeHeaders maxW maxH s with
  | .error e => .error e
  | .ok (hd, s) =>
    if hd.w = 0 ∨ hd.h = 0 then .error .zero else
    let size := hd.w * hd.h * hd.cs.comps * (if hd.sixteen then 2 else 1)
    if size ≥ Zune.Bytestream.usizeLim then .error .overflow
    else if hd.sixteen then
      match readU16 (size / 2) s with
      | .error e => .error e
      | .ok l => .ok (hd, .u16 l)
    else
      match exact size s with
      | none => .error .io
      | some (l, _) => .ok (hd, .u8 l)

/-! ### PFM -/

/-- `decode_pf_header` (decoder.rs:171-235): width, height, big endian?, rest.  `scale` stands for `from_utf8`, `trim` and
    `parse::<f32>` followed by the comparison with zero: whether the number is negative, or no number. -/
def pfmHeader (scale : List UInt8 → Option Bool) (maxW maxH : Nat) (s : List UInt8) : Except Err (Nat × Nat × Bool × List UInt8) :=
  let (w, s) := getInteger 0 (skipSpaces false s)
  if w > maxW then .error .large else
  let (h, s) := getInteger 0 (skipSpaces false s)
  if h > maxH then .error .large else
  let (t, s) := untilWs [] (skipSpaces false s)
  match scale t with
  | none => .error .header
  | some neg => .ok (w, h, !neg, s)

/-- `n` 32-bit words in the byte order of the file (decoder.rs:577-580, 586-589); floats are their bit patterns. -/
def readF32 (bigEndian : Bool) : Nat → List UInt8 → Except Err (List Nat)
  | 0, _ => .ok []
  | n + 1, s =>
    match (if bigEndian then be 4 s else le 4 s) with
    | none => .error .io
    | some (v, s) =>
      match readF32 bigEndian n s with
      | .error e => .error e
      | .ok l => .ok (v :: l)

/-- `chunks_exact(k)`: the complete chunks of a list, and the remainder. -/
def chunksExact (k : Nat) (l : List Nat) : List (List Nat) × List Nat :=
  if h : 0 < k ∧ k ≤ l.length then
    let p := chunksExact k (l.drop k)
    (l.take k :: p.1, p.2)
  else ([], l)
termination_by l.length
decreasing_by simp; omega

/-- Exchange of the zipped rows (decoder.rs:603-614): chunk `i` from the end of the upper half and chunk `i` of the lower half, for as
    many chunks as both have. -/
def swapZip (top bottom : List (List Nat)) : List (List Nat) × List (List Nat) :=
  let n := min top.length bottom.length
  let rt := top.reverse
  ((bottom.take n ++ rt.drop n).reverse, rt.take n ++ bottom.drop n)

/-- The flip of a PFM image (decoder.rs:596-614). -/
def pfmFlip (stride : Nat) (l : List Nat) : List Nat :=
  let half := l.length / 2
  let a := chunksExact stride (l.take half)
  let b := chunksExact stride (l.drop half)
  let p := swapZip a.1 b.1
  p.1.flatten ++ a.2 ++ p.2.flatten ++ b.2

/-- `decode` of a `Pf` or `PF` file (decoder.rs:142-170, 529-543, 570-617): width, height and the samples. -/
def decodePfm (scale : List UInt8 → Option Bool) (maxW maxH : Nat) (s : List UInt8) : Except Err (Nat × Nat × Cs × List Nat) :=
  match s with
  | p :: v :: s =>
    if p ≠ 80 then .error .header
    else if v ≠ 102 ∧ v ≠ 70 then .error .header
    else
      let cs := if v = 102 then Cs.luma else Cs.rgb
      match pfmHeader scale maxW maxH s with
      | .error e => .error e
      | .ok (w, h, bigEndian, s) =>
        if w = 0 ∨ h = 0 then .error .zero
        else if w * h * cs.comps * 4 ≥ Zune.Bytestream.usizeLim then .error .overflow
        else
          match readF32 bigEndian (w * h * cs.comps) s with
          | .error e => .error e
          | .ok l => .ok (w, h, cs, pfmFlip (w * cs.comps) l)
  | _ => .error .io

end Zune.Ppm
