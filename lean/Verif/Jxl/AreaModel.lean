/-
Model of the prediction stage of the JPEG XL encoder (`crates/zune-jpegxl/src/encoder.rs`): `packed_signed`, `ChannelRowProcessor` and
the part of `process_image_area` that concerns one channel.  Channels do not interact, so one channel is modelled at a time.
-/
import Verif.Jxl.ColorModel

namespace Zune.Jxl

/-- `packed_signed` (encoder.rs:148-150) on `i32`/`u32`. -/
def packedSigned (v : BitVec 32) : BitVec 32 := (v <<< 1) ^^^ (((~~~v) >>> 31) - 1)

/-- The prediction in `process_chunk` (encoder.rs:651-662). -/
def prediction {w : Nat} (left top topleft : BitVec w) : BitVec w :=
  let ac := left - topleft
  let ab := left - top
  let bc := top - topleft
  let grad := ac + top
  let d := ab ^^^ bc
  let s := ac ^^^ bc
  let clamp := if d.slt 0 then top else left
  if s.slt 0 then grad else clamp

/-- One residual of `process_chunk` (encoder.rs:646-666): difference, widened to `i32`, packed, narrowed to the unsigned pixel type
    (`from_u32`, bit_depth.rs:157-159 and 201-203). -/
def residual {w : Nat} (px left top topleft : BitVec w) : Nat :=
  let v := px - prediction left top topleft
  ((packedSigned (v.signExtend 32)).setWidth w).toNat

/-- The loop that counts leading zero residuals (encoder.rs:668-673): `prefix_size` and `required_prefix_size`. -/
def prefixSize (residuals : List Nat) : Nat :=
  (residuals.foldl (fun (p : Nat × Nat) r => (if p.1 = p.2 then p.1 + (if r = 0 then 1 else 0) else p.1, p.2 + 1)) (0, 0)).1

/-- A call of `Enc::chunk(run, residuals, skip, n)` (encoder.rs:534-537): the run and the residuals from `skip` to `n`. -/
structure Call where
  run : Nat
  residuals : List Nat
deriving Repr, DecidableEq

/-- `ChannelRowProcessor` (encoder.rs:616-620); the encoder it drives is represented by the calls made to it. -/
structure Proc where
  run : Nat
  calls : List Call
deriving Repr, DecidableEq

/-- `K_LZ77_MIN_LENGTH` (encoder.rs:33). -/
def lz77MinLength : Nat := 7

/-- `K_CHUNK_SIZE` (encoder.rs:34, 36). -/
def chunkSize : Nat := 8

/-- `process_chunk` (encoder.rs:636-689).  The four slices are functions of the position; the source reads eight positions of each, all
    within the padded rows. -/
def Proc.chunk {w : Nat} (p : Proc) (row left top topleft : Nat → BitVec w) (n : Nat) : Proc :=
  let residuals := (List.range chunkSize).map fun ix => residual (row ix) (left ix) (top ix) (topleft ix)
  let prefixSz := min n (prefixSize residuals)
  if prefixSz = n ∧ (p.run > 0 ∨ prefixSz > lz77MinLength) then { p with run := p.run + prefixSz }
  else if prefixSz + p.run > lz77MinLength then
    { run := 0, calls := p.calls ++ [⟨p.run + prefixSz, (residuals.take n).drop prefixSz⟩] }
  else { p with calls := p.calls ++ [⟨0, residuals.take n⟩] }

/-- `process_row` (encoder.rs:692-706) from position `x` on. -/
def Proc.row {w : Nat} (p : Proc) (row left top topleft : Nat → BitVec w) (xs x : Nat) : Proc :=
  if x < xs then
    (p.chunk (fun i => row (x + i)) (fun i => left (x + i)) (fun i => top (x + i)) (fun i => topleft (x + i)) (min chunkSize (xs - x))).row
      row left top topleft xs (x + chunkSize)
  else p
termination_by xs - x
decreasing_by simp [chunkSize]; omega

/-- One row of the double buffer of a channel (encoder.rs:757-766): `data i` is index `K_PADDING + i`, `pad` is index `K_OFFSET`.  The rows
    are long enough for every index used (`256 + 2 * 32` rounded up), so they are taken as functions. -/
structure Line (w : Nat) where
  pad : BitVec w
  data : Nat → BitVec w

/-- A fresh row (encoder.rs:763). -/
def Line.zero (w : Nat) : Line w := ⟨0, fun _ => 0⟩

/-- Storing the samples of a row from `K_PADDING` on (encoder.rs:793-865): what lies behind them stays. -/
def Line.fill {w : Nat} (l : Line w) (samples : List (BitVec w)) : Line w := { l with data := fun i => samples.getD i (l.data i) }

/-- The slice from `K_OFFSET` on. -/
def Line.fromPad {w : Nat} (l : Line w) : Nat → BitVec w
  | 0 => l.pad
  | i + 1 => l.data i

/-- One iteration over `y` of `process_image_area` (encoder.rs:768-889) for one channel: the current row `c`, the other row `p`. -/
def areaLine {w : Nat} (c p : Line w) (y yskip xs : Nat) (samples : List (BitVec w)) (proc : Proc) : Line w × Line w × Proc :=
  let c := c.fill samples
  let edge := if y > 0 then p.data 0 else 0
  let c := { c with pad := edge }
  let p := { p with pad := edge }
  if y < yskip then (c, p, proc)
  else
    let left := c.fromPad
    let top := if y = 0 then left else p.data
    let topleft := if y = 0 then left else p.fromPad
    (c, p, proc.row c.data left top topleft xs 0)

/-- The loop over the rows (encoder.rs:768-889): the two buffers change roles with the parity of `y`. -/
def areaLoop {w : Nat} (c p : Line w) (y yskip xs : Nat) : List (List (BitVec w)) → Proc → Proc
  | [], proc => proc
  | samples :: t, proc =>
    let r := areaLine c p y yskip xs samples proc
    areaLoop r.2.1 r.1 (y + 1) yskip xs t r.2.2

/-- `process_image_area` (encoder.rs:749-894) for one channel whose rows hold the given samples, without the final call of `finalize`,
    which receives `run`. -/
def area {w : Nat} (yskip xs : Nat) (rows : List (List (BitVec w))) : Proc :=
  areaLoop (Line.zero w) (Line.zero w) 0 yskip xs rows ⟨0, []⟩

end Zune.Jxl
