/-
Model of `crates/zune-farbfeld/src/{encoder,decoder}.rs`.  A 16-bit sample is a `Nat` below 65536; sample buffers given to the
encoder are bytes in native (little) endian.
-/
import Verif.Bytestream.Stream

namespace Zune.Farbfeld
open Zune.Stream

/-- Errors of encoder and decoder. -/
inductive Err where
  | io | size | dims | magic | small | overflow
  deriving DecidableEq, Repr

/-- A reader result as an `Except`. -/
def io {α : Type} : Option α → Except Err α
  | none => .error .io
  | some a => .ok a

/-- `data.chunks_exact(2)` with `from_ne_bytes` and `write_u16_be_err` (encoder.rs:179-182): the bytes of every pair are exchanged. -/
def samplesBE : List UInt8 → List UInt8
  | a :: b :: t => b :: a :: samplesBE t
  | _ => []

/-- `encode` (encoder.rs:123-187, sizes 195-212) for depth 16 and RGBA, on a growing sink.  The `checked_mul` panics are the error `overflow`. -/
def encode (w h : Nat) (data : List UInt8) : Except Err (List UInt8) :=
  if w * 2 * h * 4 + 20 ≥ Zune.Bytestream.usizeLim then .error .overflow
  else if w * 2 * h * 4 ≠ data.length then .error .size
  else if w ≥ 2 ^ 32 ∨ h ≥ 2 ^ 32 then .error .dims
  else .ok ([0x66, 0x61, 0x72, 0x62, 0x66, 0x65, 0x6c, 0x64] ++ beBytes 4 w ++ beBytes 4 h ++ samplesBE data)

/-- `decode_headers` (decoder.rs:58-83): width, height and the rest of the stream. -/
def decodeHeaders (maxW maxH : Nat) (s : List UInt8) : Except Err (Nat × Nat × List UInt8) := do
  let (m, s) ← io (exact 8 s)
  if m ≠ [0x66, 0x61, 0x72, 0x62, 0x66, 0x65, 0x6c, 0x64] then throw .magic
  let (w, s) ← io (be 4 s)
  let (h, s) ← io (be 4 s)
  if h > maxH then throw .dims
  if w > maxW then throw .dims
  return (w, h, s)

/-- The loop of `decode_into` (decoder.rs:136-139): `n` big-endian samples. -/
def readSamples : Nat → List UInt8 → Except Err (List Nat × List UInt8)
  | 0, s => .ok ([], s)
  | n + 1, s =>
    match be 2 s with
    | none => .error .io
    | some (v, s) =>
      match readSamples n s with
      | .error e => .error e
      | .ok (l, s) => .ok (v :: l, s)

/-- `decode_into` (decoder.rs:119-142) once the headers are decoded, on a buffer of `len` 16-bit samples: the expected length is
    `output_buffer_size` (decoder.rs:92-103), counted in bytes.  Returns the samples written. -/
def decodeInto (w h len : Nat) (s : List UInt8) : Except Err (List Nat) :=
  let expected := 4 * w * h * 2
  if expected ≥ Zune.Bytestream.usizeLim then .error .overflow
  else if len < expected then .error .small
  else
    match readSamples expected s with
    | .error e => .error e
    | .ok (l, _) => .ok l

/-- `decode` (decoder.rs:154-167); the saturating products are below 2^64 whenever `decode_into` gets past its own check. -/
def decode (maxW maxH : Nat) (s : List UInt8) : Except Err (List Nat) := do
  let (w, h, s) ← decodeHeaders maxW maxH s
  decodeInto w h (4 * w * h) s

end Zune.Farbfeld
