/-
Model of `crates/zune-psd/src/decoder.rs`: headers, PackBits and uncompressed image data, merged image only (as the code does).
The input is the list of unread bytes (`Bytestream/Stream.lean`).  Floating point is not modelled: the two matte-removal formulas
are parameters (`Matte`), so every theorem holds whatever they compute.
-/
import Verif.Bytestream.Stream

namespace Zune.Psd
open Zune.Stream

/-- The errors of `PSDDecodeErrors` (errors.rs) that can occur. -/
inductive Err where
  | io | magic | version | channels | dims | zero | depth | color | compression | badRle | notImplemented
  deriving DecidableEq, Repr

/-- The header fields kept by the decoder (decoder.rs:45-60); `wide` is `BitDepth::Sixteen`, `rle` is `CompressionMethod::RLE`. -/
structure Header where
  w : Nat
  h : Nat
  ch : Nat
  wide : Bool
  mode : Nat
  rle : Bool
  deriving DecidableEq, Repr

/-- A reader result as an `Except`. -/
def io {α : Type} : Option α → Except Err α
  | none => .error .io
  | some a => .ok a

/-- `decode_headers` (decoder.rs:93-209); `maxW`, `maxH` are the configured limits. -/
def decodeHeaders (maxW maxH : Nat) (s : List UInt8) : Except Err (Header × List UInt8) := do
  let (magic, s) ← io (be 4 s)
  if magic ≠ 0x38425053 then throw .magic
  let (version, s) ← io (be 2 s)
  if version ≠ 1 then throw .version
  let s := skip 6 s
  let (ch, s) ← io (be 2 s)
  if ch > 4 then throw .channels
  let (h, s) ← io (be 4 s)
  let (w, s) ← io (be 4 s)
  if w > maxW then throw .dims
  if h > maxH then throw .dims
  if w = 0 ∨ h = 0 ∨ ch = 0 then throw .zero
  let (depth, s) ← io (be 2 s)
  if depth ≠ 8 ∧ depth ≠ 16 then throw .depth
  let (mode, s) ← io (be 2 s)
  -- ColorModes: RGB = 3, Grayscale = 1, CYMK = 4 (constants.rs:26-40)
  if mode ≠ 3 ∧ mode ≠ 1 ∧ mode ≠ 4 then throw .color
  let (n, s) ← io (be 4 s)
  let s := skip n s
  let (n, s) ← io (be 4 s)
  let s := skip n s
  let (n, s) ← io (be 4 s)
  let s := skip n s
  let (comp, s) ← io (be 2 s)
  if comp > 1 then throw .compression
  return (⟨w, h, if mode = 1 then 1 else ch, depth == 16, mode, comp == 1⟩, s)

/-- The store loop `buffer[position] = v; position += channel_count` (decoder.rs:408-412, 430-434); callers check the bounds
    first, as the code does. -/
def putStrided (buf : List UInt8) (pos step : Nat) : List UInt8 → List UInt8
  | [] => buf
  | v :: vs => putStrided (buf.set pos v) (pos + step) step vs

/-- `read_u8` done `n` times (decoder.rs:409). -/
def u8s : Nat → List UInt8 → List UInt8 × List UInt8
  | 0, s => ([], s)
  | n + 1, s => ((u8 s).1 :: (u8s n (u8 s).2).1, (u8s n (u8 s).2).2)

theorem u8s_le (n : Nat) (s : List UInt8) : (u8s n s).2.length ≤ s.length := by
  induction n generalizing s with
  | zero => simp [u8s]
  | succ n ih => have h1 := u8_le s; have h2 := ih (u8 s).2; simp only [u8s]; omega

theorem u8_lt (s : List UInt8) (h : (u8 s).1 ≠ 0) : (u8 s).2.length < s.length := by
  cases s with
  | nil => simp [u8] at h
  | cons b s => simp [u8]

/-- `psd_decode_rle` (decoder.rs:384-441).  `buf` is the whole `out_channel`; `pos` is `channel + position`, so that
    `position + c * len > buffer.len()` for `buffer = &mut out_channel[channel..]` reads `pos + c * len > buf.length`.
    `nleft` is `pixel_count - count`. -/
def rleLoop (c : Nat) (buf : List UInt8) (pos nleft : Nat) (s : List UInt8) : Except Err (List UInt8 × List UInt8) :=
  if nleft = 0 then .ok (buf, s)
  else if (u8 s).1.toNat < 128 then
    let len := (u8 s).1.toNat + 1
    if len > nleft then .error .badRle
    else if pos + c * len > buf.length then .error .badRle
    else rleLoop c (putStrided buf pos c (u8s len (u8 s).2).1) (pos + c * len) (nleft - len) (u8s len (u8 s).2).2
  else if (u8 s).1.toNat = 128 then rleLoop c buf pos nleft (u8 s).2
  else
    let len := (257 - (u8 s).1.toNat) &&& 255
    if len > nleft then .error .badRle
    else if pos + c * len > buf.length then .error .badRle
    else
      rleLoop c (putStrided buf pos c (List.replicate len (u8 (u8 s).2).1)) (pos + c * len) (nleft - len) (u8 (u8 s).2).2
termination_by nleft + s.length
decreasing_by
  · have h1 := u8s_le ((u8 s).1.toNat + 1) (u8 s).2
    have h2 := u8_le s
    omega
  · have := u8_lt s (by intro h; rename_i h1 h2; rw [h] at h2; simp at h2)
    omega
  · rename_i hn h128 hne hl hp
    have h1 := u8_le (u8 s).2
    have h2 := u8_lt s (by intro h; rw [h] at h128; simp at h128)
    omega

/-- The loop over the channels of the RLE branch (decoder.rs:240-243), from channel `j`, `n` channels left. -/
def rleChannels (c pc : Nat) (buf : List UInt8) (s : List UInt8) (j : Nat) : Nat → Except Err (List UInt8 × List UInt8)
  | 0 => .ok (buf, s)
  | n + 1 =>
    match rleLoop c buf j pc s with
    | .error e => .error e
    | .ok (buf, s) => rleChannels c pc buf s (j + 1) n

/-- `while i < pixel_count` of the uncompressed 8-bit branch (decoder.rs:265-270). -/
def rawLoop (c pc i : Nat) (buf s : List UInt8) : Except Err (List UInt8 × List UInt8) :=
  if i < pc ∧ 0 < c then
    match u8Err s with
    | none => .error .io
    | some (b, s) => rawLoop c pc (i + c) (buf.set i b) s
  else .ok (buf, s)
termination_by pc - i

/-- The loop over the channels of the uncompressed 8-bit branch (decoder.rs:264-271). -/
def rawChannels (c pc : Nat) (buf : List UInt8) (s : List UInt8) (j : Nat) : Nat → Except Err (List UInt8 × List UInt8)
  | 0 => .ok (buf, s)
  | n + 1 =>
    match rawLoop c pc j buf s with
    | .error e => .error e
    | .ok (buf, s) => rawChannels c pc buf s (j + 1) n

/-- The loop over the chunks of one channel of the uncompressed 16-bit branch (decoder.rs:302-306): `n` chunks from byte
    position `pos`; `to_ne_bytes` on a little-endian host. -/
def rawLoop16 (c pos : Nat) (buf s : List UInt8) : Nat → Except Err (List UInt8 × List UInt8)
  | 0 => .ok (buf, s)
  | n + 1 =>
    match be 2 s with
    | none => .error .io
    | some (v, s) => rawLoop16 c (pos + 2 * c) ((buf.set pos (UInt8.ofNat v)).set (pos + 1) (UInt8.ofNat (v / 256))) s n

/-- The loop over the channels of the uncompressed 16-bit branch (decoder.rs:297-307); the number of chunks is that of
    `out_channel[2 * channel..].chunks_exact_mut(2 * c).take(dims)`. -/
def rawChannels16 (c pc : Nat) (buf : List UInt8) (s : List UInt8) (j : Nat) : Nat → Except Err (List UInt8 × List UInt8)
  | 0 => .ok (buf, s)
  | n + 1 =>
    match rawLoop16 c (2 * j) buf s (min pc ((buf.length - 2 * j) / (2 * c))) with
    | .error e => .error e
    | .ok (buf, s) => rawChannels16 c pc buf s (j + 1) n

/-- The floating point formulas of the matte removal (decoder.rs:325-331, 342-347), first argument alpha. -/
structure Matte where
  f8 : UInt8 → UInt8 → UInt8
  f16 : Nat → Nat → Nat

/-- Matte removal, 8 bit (decoder.rs:339-350). -/
def matte8 (m : Matte) : List UInt8 → List UInt8
  | r :: g :: b :: a :: t =>
    (if a ≠ 0 ∧ a ≠ 255 then [m.f8 a r, m.f8 a g, m.f8 a b, a] else [r, g, b, a]) ++ matte8 m t
  | l => l

/-- `u16::from_be_bytes` of two bytes. -/
def be2 (hi lo : UInt8) : Nat := hi.toNat * 256 + lo.toNat

/-- `to_ne_bytes` of a 16-bit value on a little-endian host. -/
def ne2 (v : Nat) : List UInt8 := [UInt8.ofNat v, UInt8.ofNat (v / 256)]

/-- Matte removal, 16 bit (decoder.rs:317-338). -/
def matte16 (m : Matte) : List UInt8 → List UInt8
  | r0 :: r1 :: g0 :: g1 :: b0 :: b1 :: a0 :: a1 :: t =>
    (if be2 a0 a1 ≠ 0 ∧ be2 a0 a1 ≠ 65535 then
      ne2 (m.f16 (be2 a0 a1) (be2 r0 r1)) ++ ne2 (m.f16 (be2 a0 a1) (be2 g0 g1)) ++ ne2 (m.f16 (be2 a0 a1) (be2 b0 b1)) ++ [a0, a1]
    else [r0, r1, g0, g1, b0, b1, a0, a1]) ++ matte16 m t
  | l => l

/-- `decode_raw` after the headers (decoder.rs:221-354). -/
def decodeBody (m : Matte) (hd : Header) (s : List UInt8) : Except Err (List UInt8) :=
  let pc := hd.w * hd.h
  match hd.rle, hd.wide with
  | true, false =>
    let s := skip (hd.h * hd.ch * 2) s
    match rleChannels hd.ch pc (List.replicate (pc * hd.ch + 10) 0) s 0 hd.ch with
    | .error e => .error e
    | .ok (out, _) => .ok (if hd.ch ≥ 4 then matte8 m (out.take (pc * hd.ch)) else out.take (pc * hd.ch))
  | false, false =>
    match rawChannels hd.ch pc (List.replicate (pc * hd.ch + 10) 0) s 0 hd.ch with
    | .error e => .error e
    | .ok (out, _) => .ok (if hd.ch ≥ 4 then matte8 m (out.take (pc * hd.ch)) else out.take (pc * hd.ch))
  | false, true =>
    match rawChannels16 hd.ch pc (List.replicate (2 * (pc * hd.ch + 10)) 0) s 0 hd.ch with
    | .error e => .error e
    | .ok (out, _) => .ok (if hd.ch ≥ 4 then matte16 m (out.take (2 * pc * hd.ch)) else out.take (2 * pc * hd.ch))
  | true, true => .error .notImplemented

/-- `decode_raw` (decoder.rs:216-355). -/
def decodeRaw (m : Matte) (maxW maxH : Nat) (s : List UInt8) : Except Err (Header × List UInt8) := do
  let (hd, s) ← decodeHeaders maxW maxH s
  let out ← decodeBody m hd s
  return (hd, out)

/-- Result of `decode`. -/
inductive Pixels where
  | u8 (l : List UInt8)
  | u16 (l : List Nat)
  deriving DecidableEq, Repr

/-- `chunks_exact(2)` mapped with `from_be_bytes` (decoder.rs:370-376). -/
def beWords : List UInt8 → List Nat
  | a :: b :: t => be2 a b :: beWords t
  | _ => []

/-- `decode` (decoder.rs:362-382). -/
def decode (m : Matte) (maxW maxH : Nat) (s : List UInt8) : Except Err (Header × Pixels) := do
  let (hd, out) ← decodeRaw m maxW maxH s
  return (hd, if hd.wide then .u16 (beWords out) else .u8 out)

end Zune.Psd
