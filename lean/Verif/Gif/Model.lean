/-
Model of `crates/zune-gif/src/decoder.rs` (all of it).  The stream is the list of bytes not read yet.  Simplified: the state of the decoder after an
error is not modelled.
-/
import Verif.Bytestream.Stream

namespace Zune.Gif
open Zune.Stream

/-- Errors (errors.rs:6-19). -/
inductive Err where
  | notGif | io | width | height | small | overflow
  deriving DecidableEq, Repr

/-- A reader result as an `Except` (errors.rs:57-61). -/
def io {α : Type} : Option α → Except Err α
  | none => .error .io
  | some a => .ok a

/-- `DecoderOptions`: what is used of them (decoder.rs:76-89). -/
structure Opts where
  maxW : Nat
  maxH : Nat

/-- `GifDecoder` (decoder.rs:15-29) without options and unused fields. -/
structure Decoder where
  stream : List UInt8
  width : Nat
  height : Nat
  flags : UInt8
  bgindex : UInt8
  ratio : UInt8
  readHeaders : Bool
  framePos : Nat
  pal : List (List UInt8)
  background : List UInt8
  deriving DecidableEq, Repr

/-- `new_with_options` (decoder.rs:35-51). -/
def Decoder.new (s : List UInt8) : Decoder := ⟨s, 0, 0, 0, 0, 0, false, 0, List.replicate 256 [0, 0, 0, 0], []⟩

/-- `test_gif` (decoder.rs:178-195): the rest of the stream if the bytes fit.  (The comparisons stop at the first that fails, which changes only the state
    after the error.) -/
def testGif (s : List UInt8) : Option (List UInt8) :=
  let (b1, s) := u8 s
  let (b2, s) := u8 s
  let (b3, s) := u8 s
  let (b4, s) := u8 s
  let (sz, s) := u8 s
  let (a, s) := u8 s
  if b1 = 0x47 ∧ b2 = 0x49 ∧ b3 = 0x46 ∧ b4 = 0x38 ∧ (sz = 0x39 ∨ sz = 0x37) ∧ a = 0x61 then some s else none

/-- The loop of `parse_colortable` (decoder.rs:98-112) over the entries still to come; `pos` counts them, `transp` is the transparent one. -/
def colorLoop (transp : Nat) : Nat → Nat → List (List UInt8) → List UInt8 → List (List UInt8) × List UInt8
  | 0, _, pal, s => (pal, s)
  | _ + 1, _, [], s => ([], s)
  | n + 1, pos, _ :: pal, s =>
    let (r, s) := u8 s
    let (g, s) := u8 s
    let (b, s) := u8 s
    let (pal, s) := colorLoop transp n (pos + 1) pal s
    ([b, g, r, if transp = pos then 0 else 255] :: pal, s)

/-- `parse_colortable` (decoder.rs:98-112). -/
def Decoder.parseColortable (g : Decoder) (num transp : Nat) : Decoder :=
  let (pal, s) := colorLoop transp num 0 g.pal g.stream
  { g with pal := pal, stream := s }

/-- The part of `decode_headers` behind the signature (decoder.rs:60-96); `s` is the stream there. -/
def Decoder.screen (o : Opts) (g : Decoder) (s : List UInt8) : Except Err Decoder := do
  let (w, s) ← io (le 2 s)
  let (h, s) ← io (le 2 s)
  let (flags, s) ← io (u8Err s)
  let (bg, s) ← io (u8Err s)
  let (ratio, s) ← io (u8Err s)
  if w > o.maxW then throw .width
  if h > o.maxH then throw .height
  let g : Decoder := { g with stream := s, width := w, height := h, flags := flags, bgindex := bg, ratio := ratio }
  let g := if (flags &&& 0x80) > 0 then g.parseColortable (2 <<< (flags &&& 7).toNat) (2 ^ 64 - 1) else g
  return { g with readHeaders := true }

/-- `decode_headers` (decoder.rs:52-97). -/
def Decoder.decodeHeaders (o : Opts) (g : Decoder) : Except Err Decoder :=
  if g.readHeaders then .ok g
  else match testGif g.stream with
    | none => .error .notGif
    | some s => g.screen o s

/-- `output_buf_size` (decoder.rs:114-119); `none` also for overflow. -/
def Decoder.outputBufSize (g : Decoder) : Option Nat :=
  if g.readHeaders then
    if g.width * g.height < 2 ^ 64 then
      if g.width * g.height * 4 < 2 ^ 64 then some (g.width * g.height * 4) else none
    else none
  else none

/-- `decode_into` (decoder.rs:133-175): the decoder and the buffer afterwards.  For later frames the disposal method is computed, but every branch is empty. -/
def Decoder.decodeInto (o : Opts) (g : Decoder) (output : List UInt8) : Except Err (Decoder × List UInt8) := do
  let g ← g.decodeHeaders o
  let size ← match g.outputBufSize with
    | none => throw .overflow
    | some n => pure n
  if size > output.length then throw .small
  if g.framePos = 0 then
    return ({ g with background := g.background.take size ++ List.replicate (size - g.background.length) 0, framePos := g.framePos + 1 },
      List.replicate size 0 ++ output.drop size)
  else
    return ({ g with framePos := g.framePos + 1 }, output)

end Zune.Gif
