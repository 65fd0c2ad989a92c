/-
Model of `crates/zune-bmp/src/{decoder,utils,common}.rs` (feature `rgb_inverse` off, i.e. `PRESERVE_BGRA = false`).
The input is the whole file; reading from a position is reading from `data.drop position` (`Bytestream/Stream.lean`).
The output buffer is kept as the list of its rows, top row first: `rchunks_exact_mut(row length)` visits this list from the end.
-/
import Verif.Bytestream.Stream
import Verif.Common.Loops

namespace Zune.Bmp
open Zune.Stream

/-- Errors; `rleDepth16` marks the combination of run-length compression with 16/32 bits, which is not modelled. -/
inductive Err where
  | io | magic | headerSize | compression | infoSize | dims | zero | depth | palette | overflow | rle | rleDepth16
  deriving DecidableEq, Repr

/-- `BmpPixelFormat` (common.rs:34-41) without `None`. -/
inductive Fmt where
  | rgba | pal8 | gray8 | rgb
  deriving DecidableEq, Repr

/-- `num_components` (common.rs:44-52). -/
def Fmt.n : Fmt → Nat
  | .rgba => 4
  | .pal8 => 3
  | .gray8 => 1
  | .rgb => 3

/-- `BmpCompression` (common.rs:13-19). -/
inductive Comp where
  | rgb | rle8 | rle4 | bitfields
  deriving DecidableEq, Repr

/-- `from_u32` (common.rs:22-30). -/
def Comp.parse : Nat → Option Comp
  | 0 => some .rgb
  | 1 => some .rle8
  | 2 => some .rle4
  | 3 => some .bitfields
  | _ => none

/-- Decoder options used: dimension limits and strict mode. -/
structure Opts where
  maxW : Nat
  maxH : Nat
  strict : Bool

/-- Header fields kept by the decoder (decoder.rs:196-226).  A palette entry is (red, green, blue). -/
structure Hdr where
  w : Nat
  h : Nat
  flip : Bool
  masks : Nat × Nat × Nat × Nat
  fmt : Fmt
  comp : Comp
  depth : Nat
  palette : List (UInt8 × UInt8 × UInt8)
  hsize : Nat

/-- A reader result as an `Except`. -/
def io {α : Type} : Option α → Except Err α
  | none => .error .io
  | some a => .ok a

/-- Reading of `n` palette entries of `k` bytes (decoder.rs:557-566, 570-582): a short read gives black and does not advance. -/
def readPalette (k : Nat) : Nat → List UInt8 → List (UInt8 × UInt8 × UInt8)
  | 0, _ => []
  | n + 1, s =>
    match exact k s with
    | some (e, s) => ((e[2]?).getD 0, (e[1]?).getD 0, (e[0]?).getD 0) :: readPalette k n s
    | none => (0, 0, 0) :: readPalette k n s

/-- The fields after the common part of the long information header (decoder.rs:334-437): five ignored fields, masks, primaries
    and profile fields.  Returns the masks.  The profile bytes are only peeked at, which has no effect on what is modelled. -/
def longFields (ihsize : Nat) (s : List UInt8) : Except Err (Nat × Nat × Nat × Nat) :=
  if ihsize > 16 then do
    let (_, s) ← io (exact 20 s)
    let (r, s) ← io (le 4 s)
    let (g, s) ← io (le 4 s)
    let (b, s) ← io (le 4 s)
    if ihsize > 40 then
      let (a, s) ← io (le 4 s)
      let (_, s) ← io (exact 40 s)
      let s := skip 12 s
      if ihsize > 108 then
        let _ ← io (exact 12 s)
        return (r, g, b, a)
      else return (r, g, b, a)
    else return (r, g, b, 0)
  else .ok (0, 0, 0, 0)

/-- The information header (decoder.rs:306-445): width, height, bits per pixel, compression, masks. -/
def infoHeader (hsize ihsize : Nat) (s : List UInt8) : Except Err (Nat × Nat × Nat × Comp × (Nat × Nat × Nat × Nat)) :=
  if ihsize = 12 then do
    let (w, s) ← io (le 2 s)
    let (h, s) ← io (le 2 s)
    let (_, s) ← io (le 2 s)
    let (bpp, _) ← io (le 2 s)
    return (w, h, bpp, .rgb, (0, 0, 0, 0))
  else if ihsize = 16 ∨ ihsize = 40 ∨ ihsize = 52 ∨ ihsize = 56 ∨ ihsize = 64 ∨ ihsize = 108 ∨ ihsize = 124 then do
    let (w, s) ← io (le 4 s)
    let (h, s) ← io (le 4 s)
    let (_, s) ← io (le 2 s)
    let (bpp, s) ← io (le 2 s)
    if hsize ≥ 40 then
      let (c, s) ← io (le 4 s)
      match Comp.parse c with
      | none => throw .compression
      | some comp =>
        let m ← longFields ihsize s
        return (w, h, bpp, comp, m)
    else
      let m ← longFields ihsize s
      return (w, h, bpp, .rgb, m)
  else .error .infoSize

/-- Choice of the pixel format (decoder.rs:487-524); `extra` is `hsize - ihsize - 14 > 0`. -/
def pixFmt (bpp : Nat) (comp : Comp) (extra : Bool) : Except Err Fmt :=
  if bpp = 32 then .ok .rgba
  else if bpp = 24 then .ok .rgb
  else if bpp = 16 then
    match comp with
    | .rgb => .ok .rgb
    | .bitfields => .ok .rgba
    | _ => .error .depth
  else if bpp = 8 then .ok (if extra then .pal8 else .gray8)
  else if bpp = 1 ∨ bpp = 2 ∨ bpp = 4 then if extra then .ok .pal8 else .error .palette
  else .error .depth

/-- Palette (decoder.rs:528-585), padded to 256 entries.  For small headers the number of colours is computed from fields
    that are still zero, which gives 256 (decoder.rs:526, 545, 552). -/
def palette (o : Opts) (data : List UInt8) (ihsize bpp : Nat) : Except Err (List (UInt8 × UInt8 × UInt8)) := do
  let colors ←
    if ihsize ≥ 36 then do
      let (t, _) ← io (le 4 (data.drop 46))
      if t ≥ 2 ^ 31 ∨ t > 2 ^ bpp then (if o.strict then throw .palette else pure (2 ^ bpp))
      else pure (if t ≠ 0 then t else 2 ^ bpp)
    else pure 256
  let entries := readPalette (if ihsize = 12 then 3 else 4) colors (data.drop (14 + ihsize))
  return (entries ++ List.replicate (256 - entries.length) (0, 0, 0)).take 256

/-- `decode_headers` (decoder.rs:285-599). -/
def decodeHeaders (o : Opts) (data : List UInt8) : Except Err Hdr := do
  let (b, s) ← io (u8Err data)
  if b ≠ 0x42 then throw .magic
  let (m, s) ← io (u8Err s)
  if m ≠ 0x4d then throw .magic
  let s := skip 8 s
  let (hsize, s) ← io (le 4 s)
  let (ihsize, s) ← io (le 4 s)
  if min (ihsize + 14) (2 ^ 32 - 1) > hsize then throw .headerSize
  let (w, h, bpp, comp, masks) ← infoHeader hsize ihsize s
  let flip : Bool := decide (0 < h ∧ h < 2 ^ 31)
  let h := if h < 2 ^ 31 then h else 2 ^ 32 - h
  if h > o.maxH then throw .dims
  if w > o.maxW then throw .dims
  if w = 0 then throw .zero
  if h = 0 then throw .zero
  if bpp = 0 then throw .zero
  let fmt ← pixFmt bpp comp (decide (hsize ≠ ihsize + 14))
  let pal ← if fmt = .pal8 then palette o data ihsize bpp else pure []
  return ⟨w, h, flip, masks, fmt, comp, bpp, pal, hsize⟩

/-! ### Pixels -/

/-- `shift_signed` (decoder.rs:1427-1452). -/
def shiftSigned (v : Nat) (shift : Int) (bits : Nat) : Nat :=
  let v := if shift < 0 then v <<< (-shift).toNat else v >>> shift.toNat
  let bits := min bits 8
  let v := v >>> (8 - bits)
  (v * (([0, 0xff, 0x55, 0x49, 0x11, 0x21, 0x41, 0x81, 0x01] : List Nat)[bits]?).getD 0) >>>
    (([0, 0, 0, 1, 0, 2, 4, 6, 0] : List Nat)[bits]?).getD 0

/-- `32 - m.leading_zeros()`: the number of significant bits. -/
def bitLen (m : Nat) : Nat := if m = 0 then 0 else m.log2 + 1

/-- `m.count_ones()` for a 32-bit value. -/
def popCount (m : Nat) : Nat := ((List.range 32).filter fun i => m.testBit i).length

/-- One sample of `conv_function` (decoder.rs:807-827): mask, shift and scale. -/
def field (v m : Nat) : UInt8 := UInt8.ofNat (shiftSigned (v &&& m) ((bitLen m : Int) - 8) (popCount m))

/-- `conv_function` (decoder.rs:818-837), `n` components per pixel. -/
def conv (masks : Nat × Nat × Nat × Nat) (n v : Nat) : List UInt8 :=
  let (mr, mg, mb, ma) := masks
  [field v mr, field v mg, field v mb] ++ (if n > 3 then [if ma = 0 then 255 else field v ma] else [])

/-- A pixel row of `n` pixels read one by one with `f` (which never fails). -/
def rowOf (f : List UInt8 → List UInt8 × List UInt8) : Nat → List UInt8 → List UInt8 × List UInt8
  | 0, s => ([], s)
  | n + 1, s => ((f s).1 ++ (rowOf f n (f s).2).1, (rowOf f n (f s).2).2)

/-- 32 bits without masks (decoder.rs:791-800): swap to RGB, alpha 255. -/
def pix32 (s : List UInt8) : List UInt8 × List UInt8 :=
  match (orZero 4 s).1 with
  | [b, g, r, _] => ([r, g, b, 255], (orZero 4 s).2)
  | l => (l, (orZero 4 s).2)

/-- 32 bits with masks (decoder.rs:844-847). -/
def pixMask32 (masks : Nat × Nat × Nat × Nat) (s : List UInt8) : List UInt8 × List UInt8 :=
  (conv masks 4 (leVal (orZero 4 s).1), (orZero 4 s).2)

/-- 16 bits (decoder.rs:880-886). -/
def pix16 (masks : Nat × Nat × Nat × Nat) (n : Nat) (s : List UInt8) : List UInt8 × List UInt8 :=
  (conv masks n (leVal (orZero 2 s).1), (orZero 2 s).2)

/-- One palette entry (decoder.rs:1091, 1104). -/
def palEntry (pal : List (UInt8 × UInt8 × UInt8)) (i : UInt8) : List UInt8 :=
  match pal[i.toNat]? with
  | some (r, g, b) => [r, g, b]
  | none => [0, 0, 0]

/-- A pixel of `expand_palette_from_remaining_bytes` (decoder.rs:1102-1109). -/
def pixPal (pal : List (UInt8 × UInt8 × UInt8)) (s : List UInt8) : List UInt8 × List UInt8 := (palEntry pal (u8 s).1, (u8 s).2)

/-- `chunks_exact_mut(3)` with `swap(0, 2)` (decoder.rs:916-918); a remainder is left alone. -/
def swap02 : List UInt8 → List UInt8
  | a :: b :: c :: t => c :: b :: a :: swap02 t
  | l => l

/-- `expand_bits_to_byte` with a palette (utils.rs:9-104): indices from the most significant bits down. -/
def expandBits (depth : Nat) (input : List UInt8) : List UInt8 :=
  input.flatMap fun b => (List.range (8 / depth)).map fun i => (b >>> UInt8.ofNat (8 - depth * (i + 1))) &&& UInt8.ofNat (2 ^ depth - 1)

/-- A loop over the rows of the output, in file order; returns the rows in file order. -/
def rows (f : List UInt8 → Except Err (List UInt8 × List UInt8)) : Nat → List UInt8 → Except Err (List (List UInt8))
  | 0, _ => .ok []
  | n + 1, s =>
    match f s with
    | .error e => .error e
    | .ok (r, s) =>
      match rows f n s with
      | .error e => .error e
      | .ok rs => .ok (r :: rs)

/-- 24 bits and 8 bits without palette (decoder.rs:905-921): read a row, skip the padding, swap. -/
def rowPlain (hd : Hdr) (s : List UInt8) : Except Err (List UInt8 × List UInt8) :=
  let outW := hd.w * hd.fmt.n
  let inW := ((hd.w * hd.depth + 31) / 8) / 4 * 4
  match exact outW s with
  | none => .error .io
  | some (r, s) => .ok (swap02 r, skip (inW - outW) s)

/-- 16 bits (decoder.rs:860-895): the number of pixels and the padding are computed from the number of rows `h`
    (`num_iters = buf.len() / pad_size`).  When the width exceeds `take`, the rest of the row keeps its zeros.  In a debug
    build `count <= 2 * inputBytes` is also asserted; it always holds. -/
def row16 (hd : Hdr) (masks : Nat × Nat × Nat × Nat) (s : List UInt8) : Except Err (List UInt8 × List UInt8) :=
  let ibw := (hd.h * 2 + 3) / 4 * 4
  let k := min hd.w ibw
  let r := rowOf (pix16 masks hd.fmt.n) k s
  .ok (r.1 ++ List.replicate (hd.fmt.n * (hd.w - k)) 0, skip (ibw * 2 - 2 * k) r.2)

/-- Palette, 8 bits (decoder.rs:1101-1112). -/
def rowPal (hd : Hdr) (s : List UInt8) : Except Err (List UInt8 × List UInt8) :=
  .ok ((rowOf (pixPal hd.palette) hd.w s).1, skip ((4 - hd.w % 4) % 4) (rowOf (pixPal hd.palette) hd.w s).2)

/-- Palette, 1/2/4 bits (decoder.rs:936-959): a row of `ceil(w * depth / 8)` bytes. -/
def rowPacked (hd : Hdr) (s : List UInt8) : Except Err (List UInt8 × List UInt8) :=
  match exact ((hd.w * hd.depth + 7) / 8) s with
  | none => .error .io
  | some (r, s) => .ok (((expandBits hd.depth r).take hd.w).flatMap (palEntry hd.palette), s)

/-! ### Run-length coded bitmaps -/

/-- `output[pos..].copy_from_slice(l)` within the pixel vector. -/
def store (px : List UInt8) (pos : Nat) (l : List UInt8) : List UInt8 := px.take pos ++ l ++ px.drop (pos + l.length)

/-- `decode_rle`, 8 bits (decoder.rs:1263-1423); `line` counts down from `h - 1`, `output` is row `line` of the pixel vector. -/
def rle8 (w : Nat) (px : List UInt8) (line pos : Nat) (s : List UInt8) : Except Err (List UInt8) :=
  match s with
  | [] => .ok px
  | p1 :: t =>
    if p1 = 0 then
      if (u8 t).1 = 0 then
        if line = 0 then (if beVal (orZero 2 (u8 t).2).1 = 1 then .ok px else .error .rle)
        else if pos > w then .error .rle
        else rle8 w px (line - 1) 0 (u8 t).2
      else if (u8 t).1 = 1 then .ok px
      else if (u8 t).1 = 2 then
        let dx := (u8 (u8 t).2).1
        let dy := (u8 (u8 (u8 t).2).2).1
        if line < dy.toNat then .error .rle
        else rle8 w px (line - dy.toNat) (pos + dx.toNat) (u8 (u8 (u8 t).2).2).2
      else if pos + (u8 t).1.toNat > w then rle8 w px line pos (skip 2 (u8 t).2)
      else
        match _hx : exact (u8 t).1.toNat (u8 t).2 with
        | none => .error .io
        | some (l, s') =>
          rle8 w (store px (line * w + pos) l) line (pos + (u8 t).1.toNat) (if (u8 t).1.toNat % 2 = 1 then skip 1 s' else s')
    else if pos + p1.toNat > w then .error .rle
    else rle8 w (store px (line * w + pos) (List.replicate p1.toNat (u8 t).1)) line (pos + p1.toNat) (u8 t).2
termination_by s.length
decreasing_by
  all_goals have h1 := u8_le t
  all_goals simp only [List.length_cons]
  · omega
  · have h2 := u8_le (u8 t).2
    have h3 := u8_le (u8 (u8 t).2).2
    omega
  · simp only [skip, List.length_drop]; omega
  · have : s'.length ≤ (u8 t).2.length := by
      unfold exact at _hx; split at _hx
      · simp only [Option.some.injEq, Prod.mk.injEq] at _hx; rw [← _hx.2]; simp only [List.length_drop]; omega
      · simp at _hx
    split
    · simp only [skip, List.length_drop]; omega
    · omega
  · omega

/-- The absolute mode of `decode_rle`, 4 bits (decoder.rs:1218-1235): `n` bytes left, `odd` = the last byte holds one pixel.
    Returns pixels, position and input. -/
def abs4 (w : Nat) (odd : Bool) (line : Nat) (px : List UInt8) (pos : Nat) (s : List UInt8) : Nat → List UInt8 × Nat × List UInt8
  | 0 => (px, pos, s)
  | n + 1 =>
    if pos ≥ w then (px, pos, s)
    else
      let b := (u8 s).1
      let s := (u8 s).2
      let px := store px (line * w + pos) [b >>> 4]
      if n = 0 ∧ odd then (px, pos + 1, s)
      else if pos + 1 ≥ w then (px, pos + 1, s)
      else abs4 w odd line (store px (line * w + (pos + 1)) [b &&& 0x0f]) (pos + 2) s n

theorem abs4_le (w : Nat) (odd : Bool) (line : Nat) (px : List UInt8) (pos : Nat) (s : List UInt8) (n : Nat) :
    (abs4 w odd line px pos s n).2.2.length ≤ s.length := by
  induction n generalizing px pos s with
  | zero => simp [abs4]
  | succ n ih =>
    have h1 := u8_le s
    rw [abs4]
    split
    · simp
    · simp only
      split
      · exact h1
      · split
        · exact h1
        · exact Nat.le_trans (ih _ _ _) h1

/-- The run mode of `decode_rle`, 4 bits (decoder.rs:1247-1259): pixel `i` of `n`, alternating nibbles. -/
def run4 (w line : Nat) (b : UInt8) (n : Nat) (px : List UInt8) (pos : Nat) (i : Nat) : List UInt8 × Nat :=
  if i < n ∧ pos < w then run4 w line b n (store px (line * w + pos) [if i % 2 = 0 then b >>> 4 else b &&& 0x0f]) (pos + 1) (i + 1)
  else (px, pos)
termination_by n - i

/-- `decode_rle`, 4 bits (decoder.rs:1170-1262). -/
def rle4 (w : Nat) (px : List UInt8) (line pos : Nat) (s : List UInt8) : Except Err (List UInt8) :=
  if pos ≤ w then
    let code := (u8 s).1
    let s1 := (u8 s).2
    if hc : code = 0 then
      let b := (u8 s1).1
      let s2 := (u8 s1).2
      if hb0 : b = 0 then (if line = 0 then .error .rle else rle4 w px (line - 1) 0 s2)
      else if b = 1 then .ok px
      else if hb2 : b = 2 then
        let dx := (u8 s2).1
        let dy := (u8 (u8 s2).2).1
        if line < dy.toNat then .error .rle
        else rle4 w px (line - dy.toNat) (pos + dx.toNat) (u8 (u8 s2).2).2
      else
        let n := (b.toNat + 1) / 2
        let r := abs4 w (b.toNat % 2 = 1) line px pos s2 n
        rle4 w r.1 line r.2.1 (if n % 2 = 1 then skip 1 r.2.2 else r.2.2)
    else if pos + code.toNat > w + 1 then .error .rle
    else rle4 w (run4 w line (u8 s1).1 code.toNat px pos 0).1 line (run4 w line (u8 s1).1 code.toNat px pos 0).2 (u8 s1).2
  else .ok px
termination_by line + s.length
decreasing_by
  all_goals have h1 := u8_le s
  all_goals have h2 := u8_le (u8 s).2
  · omega
  · have hlt : (u8 s).2.length < s.length := by
      cases s with
      | nil => exact absurd hb2 (by decide : ¬ (u8 (u8 []).2).1 = 2)
      | cons b s => simp [u8]
    have h3 := u8_le (u8 (u8 s).2).2
    have h4 := u8_le (u8 (u8 (u8 s).2).2).2
    omega
  · have hlt : (u8 s).2.length < s.length := by
      cases s with
      | nil => exact absurd rfl hb0
      | cons b s => simp [u8]
    have h3 := abs4_le w (((u8 (u8 s).2).1.toNat % 2 = 1 : Bool)) line px pos (u8 (u8 s).2).2 (((u8 (u8 s).2).1.toNat + 1) / 2)
    split
    · simp only [skip, List.length_drop]; omega
    · omega
  · have hlt : (u8 s).2.length < s.length := by
      cases s with
      | nil => exact absurd rfl hc
      | cons b s => simp [u8]
    omega

/-- Rows of `w` elements (`chunks_exact(w)` on a vector of `h * w` elements). -/
def chunkRows (w : Nat) : Nat → List UInt8 → List (List UInt8)
  | 0, _ => []
  | h + 1, l => l.take w :: chunkRows w h (l.drop w)

/-- `decode_rle` (decoder.rs:1116-1424). -/
def decodeRle (hd : Hdr) (s : List UInt8) : Except Err (List UInt8) :=
  if hd.depth = 8 then rle8 hd.w (List.replicate (hd.w * hd.h) 0) (hd.h - 1) 0 s
  else if hd.depth = 4 then rle4 hd.w (List.replicate (hd.w * hd.h) 0) (hd.h - 1) 0 s
  else if hd.depth = 16 ∨ hd.depth = 32 then .error .rleDepth16
  else .error .rle

/-- The final flip (decoder.rs:976-1000) on the list of rows: exchanges row `i` and row `h - 1 - i`. -/
def flipRows (rs : List (List UInt8)) : List (List UInt8) :=
  swapAll rs ((List.range (rs.length / 2)).map fun i => (i, rs.length - 1 - i))

/-- The masks in use (decoder.rs:777-783). -/
def effMasks (hd : Hdr) : Nat × Nat × Nat × Nat :=
  if (hd.masks = (0, 0, 0, 0) ∨ hd.comp ≠ .bitfields) ∧ hd.depth = 16 then (31 <<< 10, 31 <<< 5, 31, 31) else hd.masks

/-- The rows in file order for bitmaps without run-length coding (decoder.rs:747-963). -/
def plainRows (hd : Hdr) (s : List UInt8) : Except Err (List (List UInt8)) :=
  if hd.depth = 1 ∨ hd.depth = 2 ∨ hd.depth = 4 then
    if hd.fmt = .pal8 then rows (rowPacked hd) hd.h s else .error .palette
  else if hd.fmt = .pal8 then rows (rowPal hd) hd.h s
  else if hd.depth = 32 ∨ hd.depth = 16 then
    if (effMasks hd = (0, 0, 0, 0) ∨ hd.comp ≠ .bitfields) ∧ hd.depth = 32 then
      rows (fun s => .ok (rowOf pix32 hd.w s)) hd.h s
    else if hd.depth = 32 then rows (fun s => .ok (rowOf (pixMask32 (effMasks hd)) hd.w s)) hd.h s
    else rows (row16 hd (effMasks hd)) hd.h s
  else rows (rowPlain hd) hd.h s

/-- `decode_into_inner` (decoder.rs:727-1024) on a fresh buffer of the right size. -/
def decodeBody (hd : Hdr) (s : List UInt8) : Except Err (List UInt8) :=
  if hd.comp = .rle4 ∨ hd.comp = .rle8 then
    match decodeRle hd s with
    | .error e => .error e
    | .ok px =>
      if hd.fmt = .pal8 then
        -- expand_palette (decoder.rs:1060-1072) stores bottom up; the flag is then set, so the rows are flipped back
        .ok (flipRows ((chunkRows hd.w hd.h px).reverse.map fun r => r.flatMap (palEntry hd.palette))).flatten
      else .ok (List.replicate (hd.w * hd.h * hd.fmt.n) 0)
  else
    match plainRows hd s with
    | .error e => .error e
    | .ok rs =>
      -- rows are stored from the bottom (`rchunks_exact_mut`); every branch toggles the flag
      .ok (if !hd.flip then flipRows rs.reverse else rs.reverse).flatten

/-- `decode` (decoder.rs:676-687). -/
def decode (o : Opts) (data : List UInt8) : Except Err (Hdr × List UInt8) := do
  let hd ← decodeHeaders o data
  if hd.w * hd.h * hd.fmt.n ≥ Zune.Bytestream.usizeLim then throw .overflow
  let out ← decodeBody hd (data.drop hd.hsize)
  return (hd, out)

end Zune.Bmp
