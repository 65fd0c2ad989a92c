/-
Model of the scanline coding of `crates/zune-hdr` (RGBE bytes; headers and floats are in `Verif.Hdr.FileModel`).
The input is the list of bytes not yet read; the output sink is unbounded.
-/
import Mathlib.Data.List.Basic
import Verif.Common.Bytes

namespace Zune.Hdr

/-! ### Encoder -/

/-- Innermost loop of `rle` (encoder.rs:225-230): length of the run of equal bytes starting at `beg`, at most 127 and not past the
    end of the line.  `ch` is one plane of the scanline, `ch[k]` standing for `data[k * 4]`. -/
def runLen (ch : List UInt8) (w beg rc : Nat) : Nat :=
  if beg + rc < w ∧ rc < 127 ∧ ch[beg]? = ch[beg + rc]? then runLen ch w beg (rc + 1) else rc
termination_by 127 - rc

theorem runLen_ge (ch : List UInt8) (w beg rc : Nat) : rc ≤ runLen ch w beg rc := by
  induction h : 127 - rc generalizing rc with
  | zero => unfold runLen; rw [if_neg (by omega)]
  | succ n ih =>
    unfold runLen
    split
    · have := ih (rc + 1) (by omega); omega
    · exact Nat.le_refl _

/-- Search for the next run of at least `MIN_RLE = 4` (encoder.rs:220-231).  Returns `(beg_run, run_count, old_run_count)`. -/
def findRun (ch : List UInt8) (w beg rc old : Nat) : Nat × Nat × Nat :=
  if rc < 4 ∧ beg < w then findRun ch w (beg + rc) (runLen ch w (beg + rc) 1) rc else (beg, rc, old)
termination_by 2 * (w - beg) + (if rc = 0 then 1 else 0)
decreasing_by
  have := runLen_ge ch w (beg + rc) 1
  split <;> split <;> omega

/-- Literal packets for positions `cur..stop` (encoder.rs:240-249), at most 128 bytes each. -/
def literals (ch : List UInt8) (cur stop : Nat) : List UInt8 :=
  if cur < stop then
    let n := min 128 (stop - cur)
    UInt8.ofNat n :: (ch.drop cur).take n ++ literals ch (cur + n) stop
  else []
termination_by stop - cur
decreasing_by omega

theorem findRun_progress (ch : List UInt8) (w beg rc old : Nat) :
    beg ≤ (findRun ch w beg rc old).1 ∧ (4 ≤ (findRun ch w beg rc old).2.1 ∨ w ≤ (findRun ch w beg rc old).1) := by
  induction h : 2 * (w - beg) + (if rc = 0 then 1 else 0) using Nat.strong_induction_on generalizing beg rc old with
  | _ n ih =>
    unfold findRun
    split
    · have h1 := runLen_ge ch w (beg + rc) 1
      have := ih (2 * (w - (beg + rc)) + (if runLen ch w (beg + rc) 1 = 0 then 1 else 0))
        (by split at h <;> split <;> omega) (beg + rc) (runLen ch w (beg + rc) 1) rc rfl
      omega
    · simp only; omega

/-- `rle` on one plane (encoder.rs:207-258), from position `cur` on. -/
def rleFrom (ch : List UInt8) (w cur : Nat) : List UInt8 :=
  if cur < w then
    match hf : findRun ch w cur 0 0 with
    | (beg, rc, old) =>
      -- a short run directly before the long one (encoder.rs:233-238)
      let short := 1 < old ∧ old = beg - cur
      let out1 := if short then [UInt8.ofNat (128 + old), (ch[cur]?).getD 0] else []
      let cur1 := if short then beg else cur
      let out2 := literals ch cur1 beg
      -- the long run (encoder.rs:251-256)
      let out3 := if 4 ≤ rc then [UInt8.ofNat (128 + rc), (ch[beg]?).getD 0] else []
      out1 ++ out2 ++ out3 ++ rleFrom ch w (if 4 ≤ rc then beg + rc else beg)
  else []
termination_by w - cur
decreasing_by
  have := findRun_progress ch w cur 0 0
  rw [hf] at this
  simp only at this
  split <;> omega

/-- `rle` on one plane (encoder.rs:207-258). -/
def rle (ch : List UInt8) (w : Nat) : List UInt8 := rleFrom ch w 0

/-- Plane `i` of an interleaved RGBE scanline: `&in_scanline[i..]` read at multiples of 4 (encoder.rs:198-200, `data[k * 4]`). -/
def plane (line : List UInt8) (w i : Nat) : List UInt8 := (List.range w).map fun k => (line[4 * k + i]?).getD 0

/-- One scanline of `HdrEncoder::encode` after the conversion to RGBE (encoder.rs:177-202). -/
def encodeLine (line : List UInt8) (w : Nat) : List UInt8 :=
  if ¬ (8 ≤ w ∧ w ≤ 0x7fff) then line
  else
    [2, 2, UInt8.ofNat (w >>> 8), UInt8.ofNat (w &&& 255)] ++
      rle (plane line w 0) w ++ rle (plane line w 1) w ++ rle (plane line w 2) w ++ rle (plane line w 3) w

/-! ### Decoder -/

/-- Errors of the decoder: end of input, or a panic. -/
inductive Err where
  | eof
  | panic
  deriving DecidableEq, Repr

/-- `read_u8`: 0 at the end of the input (zune-core bytestream reader.rs `read_u8`). -/
def readU8 : List UInt8 → UInt8 × List UInt8
  | [] => (0, [])
  | b :: s => (b, s)

/-- `read_u8` done `n` times. -/
def readMany : Nat → List UInt8 → List UInt8 × List UInt8
  | 0, s => ([], s)
  | n + 1, s =>
    let (b, s) := readU8 s
    let (bs, s) := readMany n s
    (b :: bs, s)

theorem readU8_le (s : List UInt8) : (readU8 s).2.length ≤ s.length := by cases s <;> simp [readU8]

theorem readMany_le (n : Nat) (s : List UInt8) : (readMany n s).2.length ≤ s.length := by
  induction n generalizing s with
  | zero => simp [readMany]
  | succ n ih =>
    have h1 := readU8_le s
    have h2 := ih (readU8 s).2
    simp only [readMany]; omega

/-- The loop over one plane (decoder.rs:355-390).  `acc` holds the bytes stored so far (`j / 4` of them); the strided stores
    `new_scanline[j]` are represented by appending to `acc`. -/
def decPlane (w : Nat) (acc : List UInt8) (s : List UInt8) : Except Err (List UInt8 × List UInt8) :=
  if acc.length ≥ w then .ok (acc, s)
  else
    match s with
    | [] => .error .eof
    | run :: s =>
      if run.toNat > 128 then
        decPlane w (acc ++ List.replicate (min (run.toNat &&& 127) (w - acc.length)) (readU8 s).1) (readU8 s).2
      else
        decPlane w (acc ++ (readMany (min run.toNat (w - acc.length)) s).1) (readMany (min run.toNat (w - acc.length)) s).2
termination_by s.length
decreasing_by
  · have := readU8_le s
    simp; omega
  · have := readMany_le (min run.toNat (w - acc.length)) s
    simp; omega

/-- The four planes as interleaved RGBE bytes. -/
def interleave (r g b e : List UInt8) : List UInt8 :=
  match r, g, b, e with
  | r :: rs, g :: gs, b :: bs, e :: es => r :: g :: b :: e :: interleave rs gs bs es
  | _, _, _, _ => []

/-- The inner copy loop of `decompress` (decoder.rs:414-419).  `copy_within(off-4..off, 4)` panics when the destination does not
    fit. Returns scanline, width, offset. -/
def copyRun (line : List UInt8) (width : Int) (off i : Nat) : Except Err (List UInt8 × Int × Nat) :=
  match i with
  | 0 => .ok (line, width, off)
  | i + 1 =>
    if width > 0 ∧ off > 4 then
      if off > line.length ∨ 8 > line.length then .error .panic
      else copyRun (line.take 4 ++ (line.drop (off - 4)).take 4 ++ line.drop 8) (width - 4) (off + 4) i
    else .ok (line, width, off)

/-- `decompress` (decoder.rs:396-433).  `shift` is 0, 8 or 16. -/
def decompress (line : List UInt8) (width : Int) (off shift : Nat) (s : List UInt8) :
    Except Err (List UInt8 × List UInt8) :=
  if width > 0 then
    match s with
    | r :: g :: b :: e :: s' =>
      if off + 4 > line.length then .error .panic
      else
        let line := line.take off ++ [r, g, b, e] ++ line.drop (off + 4)
        if r = 1 ∧ g = 1 ∧ b = 1 then
          match copyRun line width off (e.toNat <<< shift) with
          | .error e => .error e
          | .ok (line, width, off) =>
            if shift + 8 > 16 then .ok (line, s')
            else decompress line width off (shift + 8) s'
        else decompress line (width - 1) (off + 4) 0 s'
    | _ => .error .eof
  else .ok (line, s)
termination_by s.length

/-- One scanline of `decode_into` (decoder.rs:318-390), `line` being the scanline buffer (which keeps the previous line).
    Simplification: at the very end of the input `rewind(1)` (decoder.rs:331-334) is taken to undo nothing; the following
    reads fail with an end-of-input error in both cases. -/
def decodeLine (line : List UInt8) (w : Nat) (s : List UInt8) : Except Err (List UInt8 × List UInt8) :=
  if w < 8 ∨ w > 0x7fff then decompress line w 0 0 s
  else
    match s with
    | [] => .error .eof
    | i :: s1 =>
      if i ≠ 2 then decompress line w 0 0 s
      else
        match s1 with
        | b1 :: b2 :: b3 :: s4 =>
          if b1 ≠ 2 ∨ b2 &&& 128 ≠ 0 then
            match decompress (line.drop 4) ((w : Int) - 1) 0 0 s4 with
            | .error e => .error e
            | .ok (tail, s') => .ok ([2, b1, b2, b3] ++ tail, s')
          else do
            let (r, s5) ← decPlane w [] s4
            let (g, s6) ← decPlane w [] s5
            let (b, s7) ← decPlane w [] s6
            let (e, s8) ← decPlane w [] s7
            .ok (interleave r g b e, s8)
        | _ => .error .eof

/-- The loop over the scanlines (decoder.rs:318-392); returns the RGBE scanlines handed to `convert_scanline`. -/
def decodeLines (w : Nat) : Nat → List UInt8 → List UInt8 → Except Err (List (List UInt8) × List UInt8)
  | 0, _, s => .ok ([], s)
  | h + 1, line, s => do
    let (line', s') ← decodeLine line w s
    let (ls, s'') ← decodeLines w h line' s'
    .ok (line' :: ls, s'')

/-- All scanlines of the encoder (encoder.rs:177-202). -/
def encodeLines (w : Nat) (lines : List (List UInt8)) : List UInt8 := lines.flatMap fun l => encodeLine l w

end Zune.Hdr
