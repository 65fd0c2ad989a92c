/-
Model of the SSE4.1 transposition of `crates/zune-imageprocs` (transpose/sse41.rs) on one channel, a row-major list of samples.
Registers are functions of the lane.  `none` stands for a panic *or* for a load or store outside the slice it is made
through, which the Rust code does not check.
-/
import Verif.Imageprocs.Model
import Mathlib.Data.Fin.VecNotation

namespace Zune.Imageprocs
variable {α : Type}

/-- `_mm_unpacklo_epi16` on eight 16-bit lanes (used at sse41.rs:100). -/
def lo8 (a b : Fin 8 → α) : Fin 8 → α := ![a 0, b 0, a 1, b 1, a 2, b 2, a 3, b 3]

/-- `_mm_unpackhi_epi16` on eight 16-bit lanes (used at sse41.rs:101). -/
def hi8 (a b : Fin 8 → α) : Fin 8 → α := ![a 4, b 4, a 5, b 5, a 6, b 6, a 7, b 7]

/-- The eight registers of `transpose_8_by_8_u16` between loads and stores (sse41.rs:93-121): three passes of
    `dct_interleave!`. -/
def sseTile16 (r : Fin 8 → Fin 8 → α) : Fin 8 → Fin 8 → α :=
  -- pass 1 (106-109)
  let (a0, a4) := (lo8 (r 0) (r 4), hi8 (r 0) (r 4))
  let (a1, a5) := (lo8 (r 1) (r 5), hi8 (r 1) (r 5))
  let (a2, a6) := (lo8 (r 2) (r 6), hi8 (r 2) (r 6))
  let (a3, a7) := (lo8 (r 3) (r 7), hi8 (r 3) (r 7))
  -- pass 2 (112-115)
  let (b0, b2) := (lo8 a0 a2, hi8 a0 a2)
  let (b1, b3) := (lo8 a1 a3, hi8 a1 a3)
  let (b4, b6) := (lo8 a4 a6, hi8 a4 a6)
  let (b5, b7) := (lo8 a5 a7, hi8 a5 a7)
  -- pass 3 (118-121)
  let (c0, c1) := (lo8 b0 b1, hi8 b0 b1)
  let (c2, c3) := (lo8 b2 b3, hi8 b2 b3)
  let (c4, c5) := (lo8 b4 b5, hi8 b4 b5)
  let (c6, c7) := (lo8 b6 b7, hi8 b6 b7)
  ![c0, c1, c2, c3, c4, c5, c6, c7]

/-- `_mm_unpacklo_epi64` of two registers whose low halves were loaded by `_mm_loadl_epi64` (sse41.rs:150-171). -/
def join8 (a b : Fin 8 → α) : Fin 16 → α :=
  ![a 0, a 1, a 2, a 3, a 4, a 5, a 6, a 7, b 0, b 1, b 2, b 3, b 4, b 5, b 6, b 7]

/-- The mask `sv` (sse41.rs:144), lowest byte first. -/
def sseMask : Fin 16 → Fin 16 := ![0, 8, 1, 9, 2, 10, 3, 11, 4, 12, 5, 13, 6, 14, 7, 15]

/-- `_mm_shuffle_epi8(_, sv)` (sse41.rs:173-176). -/
def shuffleSv (m : Fin 16 → α) : Fin 16 → α := fun i => m (sseMask i)

/-- `_mm_unpacklo_epi16` on sixteen bytes (used at sse41.rs:178, 180). -/
def lo16 (a b : Fin 16 → α) : Fin 16 → α :=
  ![a 0, a 1, b 0, b 1, a 2, a 3, b 2, b 3, a 4, a 5, b 4, b 5, a 6, a 7, b 6, b 7]

/-- `_mm_unpackhi_epi16` on sixteen bytes (used at sse41.rs:179, 181). -/
def hi16 (a b : Fin 16 → α) : Fin 16 → α :=
  ![a 8, a 9, b 8, b 9, a 10, a 11, b 10, b 11, a 12, a 13, b 12, b 13, a 14, a 15, b 14, b 15]

/-- `_mm_unpacklo_epi32` on sixteen bytes (used at sse41.rs:183, 185). -/
def lo32 (a b : Fin 16 → α) : Fin 16 → α :=
  ![a 0, a 1, a 2, a 3, b 0, b 1, b 2, b 3, a 4, a 5, a 6, a 7, b 4, b 5, b 6, b 7]

/-- `_mm_unpackhi_epi32` on sixteen bytes (used at sse41.rs:184, 186). -/
def hi32 (a b : Fin 16 → α) : Fin 16 → α :=
  ![a 8, a 9, a 10, a 11, b 8, b 9, b 10, b 11, a 12, a 13, a 14, a 15, b 12, b 13, b 14, b 15]

/-- The low eight bytes of a register, all that `_mm_storel_epi64` stores (sse41.rs:201-222). -/
def low8 (a : Fin 16 → α) : Fin 8 → α := ![a 0, a 1, a 2, a 3, a 4, a 5, a 6, a 7]

/-- The low eight bytes of `_mm_unpackhi_epi64(a, 0)` (sse41.rs:192-195): the high eight bytes of `a`. -/
def high8 (a : Fin 16 → α) : Fin 8 → α := ![a 8, a 9, a 10, a 11, a 12, a 13, a 14, a 15]

/-- `transpose_8_by_8_u8` between loads and stores (sse41.rs:154-222): the rows stored, in the order of the stores. -/
def sseTile8 (r : Fin 8 → Fin 8 → α) : Fin 8 → Fin 8 → α :=
  let ov0 := shuffleSv (join8 (r 0) (r 1))
  let ov1 := shuffleSv (join8 (r 2) (r 3))
  let ov2 := shuffleSv (join8 (r 4) (r 5))
  let ov3 := shuffleSv (join8 (r 6) (r 7))
  let iv0 := lo16 ov0 ov1
  let iv1 := hi16 ov0 ov1
  let iv2 := lo16 ov2 ov3
  let iv3 := hi16 ov2 ov3
  let av0 := lo32 iv0 iv2
  let av1 := hi32 iv0 iv2
  let av2 := lo32 iv1 iv3
  let av3 := hi32 iv1 iv3
  ![low8 av0, high8 av0, low8 av1, high8 av1, low8 av2, high8 av2, low8 av3, high8 av3]

/-- `_MM_TRANSPOSE4_PS` (sse41.rs:391, 488): two interleavings of single precision lanes, then `movelh`/`movehl` of their
    halves, as in the standard library. -/
def sseTile32 (r : Fin 4 → Fin 4 → α) : Fin 4 → Fin 4 → α :=
  let lo (a b : Fin 4 → α) : Fin 4 → α := ![a 0, b 0, a 1, b 1]
  let hi (a b : Fin 4 → α) : Fin 4 → α := ![a 2, b 2, a 3, b 3]
  let movelh (a b : Fin 4 → α) : Fin 4 → α := ![a 0, a 1, b 0, b 1]
  let movehl (a b : Fin 4 → α) : Fin 4 → α := ![b 2, b 3, a 2, a 3]
  let t0 := lo (r 0) (r 1)
  let t2 := lo (r 2) (r 3)
  let t1 := hi (r 0) (r 1)
  let t3 := hi (r 2) (r 3)
  ![movelh t0 t2, movehl t2 t0, movelh t1 t3, movehl t3 t1]

/-- The loads of one tile: `n` rows of `n` samples, `stride` apart, through a slice `l` (sse41.rs:84-91, 150-170, 386-389).
    `slack` is what the assertion adds to `(n-1)*stride` (8 for 16 bits, sse41.rs:81; nothing for the others, 142, 384); the
    loads themselves are not checked and `none` when one of them would leave the slice. -/
def loadTile (n slack : Nat) (l : List α) (stride : Nat) : Option (Fin n → Fin n → α) :=
  if (n - 1) * stride + slack ≤ l.length then
    if h : ∀ r c : Fin n, r.1 * stride + c.1 < l.length then some fun r c => l[r.1 * stride + c.1]'(h r c) else none
  else none

/-- The stores of one tile through the slice of `out` that starts at `off` (sse41.rs:123-130, 201-222, 393-405), with the
    assertions of sse41.rs:82, 140, 382; `none` when a store would leave the slice. -/
def storeTile (n slack : Nat) (out : List α) (off stride : Nat) (t : Fin n → Fin n → α) : Option (List α) :=
  if (n - 1) * stride + slack ≤ out.length - off ∧ ∀ r c : Fin n, off + (r.1 * stride + c.1) < out.length then
    some (setAll out ((List.finRange n).flatMap fun r => (List.finRange n).map fun c => (off + (r.1 * stride + c.1), t r c)))
  else none

/-- One turn of the inner loop (sse41.rs:263-272, 340-349, 437-446): slicing at `j*n` and at `j*height*n + i*n` panics when
    the offset is beyond the end. -/
def sseTile (n slack : Nat) (kernel : (Fin n → Fin n → α) → Fin n → Fin n → α) (chunk : List α) (w h i j : Nat)
    (out : List α) : Option (List α) :=
  if chunk.length < j * n ∨ out.length < j * h * n + i * n then none
  else (loadTile n slack (chunk.drop (j * n)) w).bind fun t => storeTile n slack out (j * h * n + i * n) h (kernel t)

/-- The two nested loops over tiles (sse41.rs:262-273, 339-350, 436-447); the chunk number `i` of `chunks_exact(n*width)` is
    rows `n*i` to `n*i + n`. -/
def sseTiles (n slack : Nat) (kernel : (Fin n → Fin n → α) → Fin n → Fin n → α) (l : List α) (w h : Nat) :
    List (Nat × Nat) → List α → Option (List α)
  | [], out => some out
  | (i, j) :: ij, out =>
    (sseTile n slack kernel ((l.drop (i * (n * w))).take (n * w)) w h i j out).bind (sseTiles n slack kernel l w h ij)

/-- The common body of `transpose_sse41_u16`, `transpose_sse41_u8`, `transpose_sse_float` and `transpose_sse_u32`
    (sse41.rs:225-300, 302-377, 408-474, 505-571), `n` being the side of a tile and the threshold (8 or 4).
    `width & (n-1)` is written `width % n`.  Simplification: the copies of the two strips write through `setAll`; indices are in
    range because the lengths are asserted (a position out of range would be skipped). -/
def sseTranspose (n slack : Nat) (kernel : (Fin n → Fin n → α) → Fin n → Fin n → α) (checks : Bool) (dflt : α)
    (l out : List α) (w h : Nat) : Option (List α) :=
  if l.length ≠ w * h ∨ out.length ≠ w * h then none
  else if w < n then transposeScalar checks dflt l out w h
  else
    (sseTiles n slack kernel l w h (grid (l.length / (n * w)) (w / n)) out).bind fun out =>
      let remW := w - w % n
      let remH := h - h % n
      let out := setAll out ((grid (h - remH) w).filterMap fun (i, j) =>
        (l[(remH + i) * w + j]?).map fun v => (j * h + (remH + i), v))
      some (setAll out ((grid (w - remW) h).filterMap fun (i, j) =>
        (l[j * w + (remW + i)]?).map fun v => ((remW + i) * h + j, v)))

/-- `transpose_sse41_u8` (sse41.rs:302-377). -/
def sseTransposeU8 (checks : Bool) (dflt : α) (l out : List α) (w h : Nat) : Option (List α) :=
  sseTranspose 8 0 sseTile8 checks dflt l out w h

/-- `transpose_sse41_u16` (sse41.rs:225-300). -/
def sseTransposeU16 (checks : Bool) (dflt : α) (l out : List α) (w h : Nat) : Option (List α) :=
  sseTranspose 8 8 sseTile16 checks dflt l out w h

/-- `transpose_sse_float` and `transpose_sse_u32` (sse41.rs:408-474, 505-571). -/
def sseTransposeF32 (checks : Bool) (dflt : α) (l out : List α) (w h : Nat) : Option (List α) :=
  sseTranspose 4 0 sseTile32 checks dflt l out w h

/-- The sample types `Transpose` handles (transpose.rs:59-87). -/
inductive TrBits where
  | u8 | u16 | f32

/-- `transpose_u8`, `transpose_u16`, `transpose_float` (transpose.rs:101-171) with the feature `sse41` compiled in; `sse` tells
    whether the processor has SSE4.1. -/
def transposeDispatch (sse : Bool) (b : TrBits) (checks : Bool) (dflt : α) (l out : List α) (w h : Nat) : Option (List α) :=
  if sse then
    match b with
    | .u8 => sseTransposeU8 checks dflt l out w h
    | .u16 => sseTransposeU16 checks dflt l out w h
    | .f32 => sseTransposeF32 checks dflt l out w h
  else transposeScalar checks dflt l out w h

/-- One channel in `Transpose::execute_impl` (transpose.rs:50-91): the new channel has `width*height*size_of` bytes, i.e.
    `width*height` samples. -/
def transposeChannel (sse : Bool) (b : TrBits) (checks : Bool) (dflt : α) (l : List α) (w h : Nat) : Option (List α) :=
  transposeDispatch sse b checks dflt l (List.replicate (w * h) dflt) w h

end Zune.Imageprocs
