/-
Model of the per-pixel operations of `crates/zune-imageprocs` and of the way `zune-image` hands channels to them.
-/
import Mathlib.Data.List.Basic
import Verif.Common.Bytes

namespace Zune.Imageprocs

/-! ### Colour spaces and channel selection -/

/-- `ColorSpace` (zune-core/src/colorspace.rs:16-58).  `NonZeroU32` is a natural number. -/
inductive ColorSpace where
  | RGB | RGBA | YCbCr | Luma | LumaA | YCCK | CMYK | BGR | BGRA | Unknown | ARGB | HSL | HSV
  | MultiBand (n : Nat)
  deriving DecidableEq, Repr

/-- `num_components` (colorspace.rs:64-73). -/
def ColorSpace.numComponents : ColorSpace → Nat
  | .RGB | .YCbCr | .BGR | .HSV | .HSL => 3
  | .RGBA | .YCCK | .CMYK | .BGRA | .ARGB => 4
  | .Luma => 1
  | .LumaA => 2
  | .Unknown => 0
  | .MultiBand n => n

/-- `has_alpha` (colorspace.rs:75-77). -/
def ColorSpace.hasAlpha : ColorSpace → Bool
  | .RGBA | .LumaA | .BGRA | .ARGB => true
  | _ => false

/-- `alpha_position` (colorspace.rs:93-101). -/
def ColorSpace.alphaPosition : ColorSpace → Option Nat
  | .RGBA => some 3
  | .LumaA => some 1
  | .BGRA => some 3
  | .ARGB => some 0
  | _ => none

variable {β ε σ : Type}

/-- The slice handed out by `separate_color_and_alpha_ref` / `separate_color_and_alpha_mut` (frame.rs:610-637, 654-681; the two
    functions have the same text): the colour channels, the alpha channel, and the rest of the frame before and after the
    colour channels (so that changes through the mutable slice can be put back). -/
structure Separated (β : Type) where
  before : List β
  colors : List β
  after : List β
  alpha : β
  deriving DecidableEq, Repr

/-- `separate_color_and_alpha_mut` (frame.rs:654-681).  The outer `none` is Rust's `None`; `src_c1[0]`, `src_c2[0]` cannot be
    out of bounds because the number of channels was checked, the model yields `none` there too. -/
def separate (cs : ColorSpace) (chs : List β) : Option (Separated β) :=
  if !cs.hasAlpha then none
  else if cs.numComponents ≠ chs.length then none
  else
    match cs.alphaPosition with
    | none => none
    | some p =>
      let position := if p = 0 then 1 else p
      let c1 := chs.take position
      let c2 := chs.drop position
      if position = 1 then c1[0]?.map fun a => ⟨c1, c2, [], a⟩
      else c2[0]?.map fun a => ⟨[], c1, c2, a⟩

/-- `Frame::channels_mut` (frame.rs:288-295): what is before the slice, the slice, what is after it.  `none` is a panic
    (`unwrap` of `None`, or a slice out of range). -/
def frameSlice (cs : ColorSpace) (ignoreAlpha : Bool) (chs : List β) : Option (List β × List β × List β) :=
  if ignoreAlpha && cs.hasAlpha then (separate cs chs).map fun s => (s.before, s.colors, s.after)
  else if chs.length < cs.numComponents then none
  else some ([], chs.take cs.numComponents, chs.drop cs.numComponents)

/-- `Image::channels_mut` (image.rs:155-162): one slice per frame; the flattened vector is what `execute_on` iterates over. -/
def imageSlices (cs : ColorSpace) (ignoreAlpha : Bool) (frames : List (List β)) : Option (List (List β × List β × List β)) :=
  frames.mapM (frameSlice cs ignoreAlpha)

/-- Not in the Rust text: writes through the mutable references of the flattened vector, put back frame by frame. -/
def putBack : List (List β × List β × List β) → List β → List (List β)
  | [], _ => []
  | (b, s, a) :: rest, out => (b ++ out.take s.length ++ a) :: putBack rest (out.drop s.length)

/-! ### `execute_on` -/

/-- The sequential loop of `execute_on` without the `threads` feature (utils.rs:107-113): the function changes its channel
    and may fail; the loop stops at the first failure.  Returns all channels in their final state. -/
def seqLoop (f : β → β × Except ε Unit) : List β → List β × Except ε Unit
  | [] => ([], .ok ())
  | c :: cs =>
    match f c with
    | (c', .error e) => (c' :: cs, .error e)
    | (c', .ok _) => let (cs', r) := seqLoop f cs; (c' :: cs', r)

/-- A thread working on one channel: still running with local state and channel, or finished with its result. -/
inductive Thread (σ β ε : Type) where
  | running (s : σ) (c : β)
  | done (c : β) (r : Except ε Unit)

/-- The channel owned by a thread. -/
def Thread.channel : Thread σ β ε → β
  | .running _ c => c
  | .done c _ => c

/-- One step of a thread: `body` is the small-step form of the function passed to `execute_on`.  Each thread has exclusive
    access to its own `&mut Channel` (utils.rs:94-97); the function is `Fn + Sync`, assumed to have no other shared state. -/
def Thread.step (body : σ → β → (σ × β) ⊕ (β × Except ε Unit)) : Thread σ β ε → Thread σ β ε
  | .running s c =>
    match body s c with
    | .inl (s', c') => .running s' c'
    | .inr (c', r) => .done c' r
  | .done c r => .done c r

/-- A schedule is a list of thread numbers; each entry lets that thread do one step. -/
def runSchedule (body : σ → β → (σ × β) ⊕ (β × Except ε Unit)) (ts : List (Thread σ β ε)) (sched : List Nat) :
    List (Thread σ β ε) :=
  sched.foldl (fun ts i => ts.modify i (Thread.step body)) ts

/-- Joining the threads in order and collecting into a `Result<Vec<()>, _>` (utils.rs:100-103): the first error in thread order,
    `none` while some thread is still running. -/
def joinAll : List (Thread σ β ε) → Option (Except ε Unit)
  | [] => some (.ok ())
  | .running _ _ :: _ => none
  | .done _ r :: ts =>
    match joinAll ts, r with
    | none, _ => none
    | some _, .error e => some (.error e)
    | some r', .ok _ => some r'

/-- `execute_on` with the `threads` feature (utils.rs:90-105): spawn one thread per channel, let them run under some schedule,
    join.  `none` while not finished. -/
def parLoop (body : σ → β → (σ × β) ⊕ (β × Except ε Unit)) (init : σ) (chs : List β) (sched : List Nat) :
    Option (List β × Except ε Unit) :=
  let ts := runSchedule body (chs.map (Thread.running init)) sched
  (joinAll ts).map fun r => (ts.map Thread.channel, r)

/-- `execute_on` (utils.rs:87-114) without threads, on an image. `none` is a panic. -/
def executeOn (f : β → β × Except ε Unit) (cs : ColorSpace) (frames : List (List β)) (ignoreAlpha : Bool) :
    Option (List (List β) × Except ε Unit) :=
  (imageSlices cs ignoreAlpha frames).map fun sl =>
    let (out, r) := seqLoop f (sl.flatMap fun t => t.2.1)
    (putBack sl out, r)

/-- `execute_on` (utils.rs:87-114) with threads, on an image.  `none` is a panic or an unfinished schedule. -/
def executeOnThreads (body : σ → β → (σ × β) ⊕ (β × Except ε Unit)) (init : σ) (cs : ColorSpace) (frames : List (List β))
    (ignoreAlpha : Bool) (sched : List Nat) : Option (List (List β) × Except ε Unit) :=
  (imageSlices cs ignoreAlpha frames).bind fun sl =>
    (parLoop body init (sl.flatMap fun t => t.2.1) sched).map fun (out, r) => (putBack sl out, r)

/-! ### Invert -/

/-- `invert` (invert.rs:83-90) for unsigned integers of `n` bits (`T::MAX_VAL - pixel`, which cannot underflow). -/
def invert {n : Nat} (l : List (BitVec n)) : List (BitVec n) := l.map fun p => BitVec.allOnes n - p

/-- `Invert::supported_colorspaces` (invert.rs:66-73) together with the exception for multi-band images (traits.rs:149-172). -/
def invertSupported : ColorSpace → Bool
  | .RGB | .RGBA | .LumaA | .Luma | .MultiBand _ => true
  | _ => false

/-- `Invert::execute` (invert.rs:50-77, traits.rs:145-196): the colour space check (multi-band images always pass), then
    `execute_on(.., true)`.  Outer `none`: panic; inner `none`: unsupported colour space.  Simplifications: 8 and 16 bit
    samples only (`n`), the dimension check `confirm_invariants` is left out. -/
def invertImage {n : Nat} (cs : ColorSpace) (frames : List (List (List (BitVec n)))) :
    Option (Option (List (List (List (BitVec n))))) :=
  if !invertSupported cs then some none
  else (executeOn (ε := Empty) (fun c => (invert c, .ok ())) cs frames true).map fun r => some r.1

/-! ### Threshold -/

/-- `ThresholdMethod` (threshold.rs:20-25). -/
inductive ThresholdMethod where
  | Binary | BinaryInv | ThreshTrunc | ThreshToZero
  deriving DecidableEq, Repr

/-- `threshold` (threshold.rs:116-153) for unsigned integers of `n` bits. -/
def threshold {n : Nat} (l : List (BitVec n)) (t : BitVec n) (m : ThresholdMethod) : List (BitVec n) :=
  match m with
  | .Binary => l.map fun x => if x > t then BitVec.allOnes n else 0
  | .BinaryInv => l.map fun x => if x > t then 0 else BitVec.allOnes n
  | .ThreshTrunc => l.map fun x => if x > t then t else x
  | .ThreshToZero => l.map fun x => if x > t then t else 0

/-! ### Fast division and alpha -/

/-- `compute_mod_u32` (mathops.rs:18-21) on a non-zero `u64`; the sum fits in 128 bits. -/
def computeModU32 (d : Nat) : Nat := 0xFFFFFFFFFFFFFFFF / d + 1

/-- `fastdiv_u32` (mathops.rs:42-44); the 128 bit product wraps (release) and the result is cut to 32 bits. -/
def fastdivU32 (a m : Nat) : Nat := (m * a % 2 ^ 128) / 2 ^ 64 % 2 ^ 32

/-- Entry `a` of `create_unpremul_table_u8` / `create_unpremul_table_u16` (premul_alpha.rs:206-229). -/
def unpremulTable (a : Nat) : Nat := if a = 0 then 0 else computeModU32 a

/-- The closure of `premultiply_u8` (premul_alpha.rs:243-247); 16 bit arithmetic, cut to 8 bits. -/
def premulSampleU8 (c a : UInt8) : UInt8 :=
  let temp : UInt16 := a.toUInt16 * c.toUInt16 + 0x80
  ((temp + (temp >>> 8)) / 255).toUInt8

/-- `premultiply_u8` (premul_alpha.rs:240-248): samples without an alpha value are not touched by `zip`. -/
def premultiplyU8 (input alpha : List UInt8) : List UInt8 :=
  (input.zip alpha).map (fun p => premulSampleU8 p.1 p.2) ++ input.drop alpha.length

/-- The closure of `premultiply_u16` (premul_alpha.rs:262-265); 32 bit arithmetic, cut to 16 bits. -/
def premulSampleU16 (c a : UInt16) : UInt16 :=
  let temp : UInt32 := a.toUInt32 * c.toUInt32 + (65535 + 1) / 2
  ((temp + (temp >>> 16)) / 65535).toUInt16

/-- `premultiply_u16` (premul_alpha.rs:259-266). -/
def premultiplyU16 (input alpha : List UInt16) : List UInt16 :=
  (input.zip alpha).map (fun p => premulSampleU16 p.1 p.2) ++ input.drop alpha.length

/-- The closure of `unpremultiply_u8` (premul_alpha.rs:280-287): `try_from(..).unwrap_or(MAX)` is a cut at the maximum. -/
def unpremulSampleU8 (c a : UInt8) : UInt8 :=
  let q := fastdivU32 (c.toNat * 255 + a.toNat / 2) (unpremulTable a.toNat)
  if q < 256 then UInt8.ofNat q else 255

/-- `unpremultiply_u8` (premul_alpha.rs:274-288). -/
def unpremultiplyU8 (input alpha : List UInt8) : List UInt8 :=
  (input.zip alpha).map (fun p => unpremulSampleU8 p.1 p.2) ++ input.drop alpha.length

/-- The closure of `unpremultiply_u16` (premul_alpha.rs:315-323). -/
def unpremulSampleU16 (c a : UInt16) : UInt16 :=
  let q := fastdivU32 (c.toNat * 65535 + a.toNat / 2) (unpremulTable a.toNat)
  if q < 65536 then UInt16.ofNat q else 65535

/-- `unpremultiply_u16` (premul_alpha.rs:301-324), with the full table. -/
def unpremultiplyU16 (input alpha : List UInt16) : List UInt16 :=
  (input.zip alpha).map (fun p => unpremulSampleU16 p.1 p.2) ++ input.drop alpha.length

end Zune.Imageprocs
