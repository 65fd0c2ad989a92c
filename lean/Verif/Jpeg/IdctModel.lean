import Mathlib.Data.BitVec
import Mathlib.Data.Fin.VecNotation
import Mathlib.Data.List.FinRange

/-!
# zune-jpeg: inverse transforms (model)

Model of `crates/zune-jpeg/src/idct/scalar.rs`, `idct/avx2.rs`, `unsafe_utils_avx2.rs` and of
the way `mcu.rs` chooses between the transforms and reuses the coefficient buffer.

`i32` values are `BitVec 32`, whose `+ - *` are the wrapping operations `wa`, `ws`, `wm` of the
source (scalar.rs:15-28).  `>>` on `i32` is `BitVec.sshiftRight`.
-/

namespace Zune.Jpeg

/-- `i32`. -/
abbrev I32 := BitVec 32

/-- `in_vector: &mut [i32; 64]` (scalar.rs:47), as eight rows of eight: entry `8*r + c` of the
array is `v r c`.  (Simplified: the fixed size array is a function of its two coordinates, so
an index outside 0..63 cannot be written down.) -/
abbrev Block := Fin 8 → Fin 8 → I32

/-- `SCALE_BITS` (scalar.rs:13, avx2.rs:41): `512 + 65536 + (128 << 17)`. -/
def scaleBits : I32 := 512 + 65536 + (128 <<< 17)

/-- `fsh` (scalar.rs:185-189): multiply by 4096 with a shift. -/
def fsh (x : I32) : I32 := x <<< 12

/-- `clamp` (scalar.rs:191-196): `a.clamp(0, 255) as i16`, as an integer. -/
def clampI (a : I32) : Int := max 0 (min 255 a.toInt)

/-- `in_vector[ptr] = ..; in_vector[ptr + 8] = ..; …` (scalar.rs:102-109): store a column. -/
def setCol (v : Block) (c : Fin 8) (x : Fin 8 → I32) : Block :=
  fun r c' => if c' = c then x r else v r c'

/-- Body of the vertical pass of `idct_int` (scalar.rs:55-110) on the column `x`. -/
def vcol (x : Fin 8 → I32) : Fin 8 → I32 :=
  let p1 := (x 2 + x 6) * 2217
  let t2 := p1 + x 6 * (-7567)
  let t3 := p1 + x 2 * 3135
  let t0 := fsh (x 0 + x 4)
  let t1 := fsh (x 0 - x 4)
  let x0 := t0 + t3 + 512
  let x3 := t0 - t3 + 512
  let x1 := t1 + t2 + 512
  let x2 := t1 - t2 + 512
  let p3 := x 7 + x 3
  let p4 := x 5 + x 1
  let p1 := x 7 + x 1
  let p2 := x 5 + x 3
  let p5 := (p3 + p4) * 4816
  let t0 := x 7 * 1223
  let t1 := x 5 * 8410
  let t2 := x 3 * 12586
  let t3 := x 1 * 6149
  let p1 := p5 + p1 * (-3685)
  let p2 := p5 + p2 * (-10497)
  let p3 := p3 * (-8034)
  let p4 := p4 * (-1597)
  let t3 := t3 + (p1 + p4)
  let t2 := t2 + (p2 + p3)
  let t1 := t1 + (p2 + p4)
  let t0 := t0 + (p1 + p3)
  ![(x0 + t3).sshiftRight 10, (x1 + t2).sshiftRight 10, (x2 + t1).sshiftRight 10,
    (x3 + t0).sshiftRight 10, (x3 - t0).sshiftRight 10, (x2 - t1).sshiftRight 10,
    (x1 - t2).sshiftRight 10, (x0 - t3).sshiftRight 10]

/-- Body of the horizontal pass of `idct_int` (scalar.rs:112-171) on the row `x`.
`f2f(1.175875602)` (scalar.rs:141, 181-183) is the constant `4816`: the `f32` expression is
evaluated here by hand. -/
def hrow (x : Fin 8 → I32) : Fin 8 → Int :=
  let p1 := (x 2 + x 6) * 2217
  let t2 := p1 + x 6 * (-7567)
  let t3 := p1 + x 2 * 3135
  let t0 := fsh (x 0 + x 4)
  let t1 := fsh (x 0 - x 4)
  let x0 := t0 + t3 + scaleBits
  let x3 := t0 - t3 + scaleBits
  let x1 := t1 + t2 + scaleBits
  let x2 := t1 - t2 + scaleBits
  let p3 := x 7 + x 3
  let p4 := x 5 + x 1
  let p1 := x 7 + x 1
  let p2 := x 5 + x 3
  let p5 := (p3 + p4) * 4816
  let t0 := x 7 * 1223
  let t1 := x 5 * 8410
  let t2 := x 3 * 12586
  let t3 := x 1 * 6149
  let p1 := p5 + p1 * (-3685)
  let p2 := p5 + p2 * (-10497)
  let p3 := p3 * (-8034)
  let p4 := p4 * (-1597)
  let t3 := t3 + (p1 + p4)
  let t2 := t2 + (p2 + p3)
  let t1 := t1 + (p2 + p4)
  let t0 := t0 + (p1 + p3)
  ![clampI ((x0 + t3).sshiftRight 17), clampI ((x1 + t2).sshiftRight 17),
    clampI ((x2 + t1).sshiftRight 17), clampI ((x3 + t0).sshiftRight 17),
    clampI ((x3 - t0).sshiftRight 17), clampI ((x2 - t1).sshiftRight 17),
    clampI ((x1 - t2).sshiftRight 17), clampI ((x0 - t3).sshiftRight 17)]

/-- What a transform leaves behind: the coefficient array after the call, and the eight rows
of samples it stored. -/
structure Done where
  /-- `in_vector` when the function returns. -/
  mem : Block
  /-- Row `r` is what was stored at `out_vector[r*stride .. r*stride + 8]`. -/
  rows : Fin 8 → Fin 8 → Int

/-- `idct_int_1x1` (scalar.rs:31-39). -/
def idct1x1 (v : Block) : Done :=
  ⟨v, fun _ _ => clampI ((v 0 0 + 4 + 1024).sshiftRight 3)⟩

/-- Both passes of `idct_int` (scalar.rs:55-175), without the test for a DC-only block. -/
def idctFull (v : Block) : Done :=
  let v := (List.finRange 8).foldl (fun v c => setCol v c (vcol (fun r => v r c))) v
  ⟨v, fun r => hrow (v r)⟩

/-- `&in_vector[1..] == &[0_i32; 63]` (scalar.rs:51). -/
def dcOnly (v : Block) : Bool :=
  (List.finRange 8).all fun r => (List.finRange 8).all fun c => (r = 0 ∧ c = 0) || v r c == 0

/-- `idct_int` (scalar.rs:47-176). -/
def idctInt (v : Block) : Done :=
  if dcOnly v then idct1x1 v else idctFull v

/-- Body of the vertical pass of `idct4x4` (scalar.rs:202-238) on the column `x`. -/
def vcol4 (x : Fin 8 → I32) : Fin 8 → I32 :=
  let i0 := fsh (x 0) + 512
  let i2 := x 2
  let p1 := i2 * 2217
  let p3 := i2 * 5352
  let x0 := i0 + p3
  let x1 := i0 + p1
  let x2 := i0 - p1
  let x3 := i0 - p3
  let i4 := x 3
  let i3 := x 1
  let p5 := (i4 + i3) * 4816
  let p1 := p5 + i3 * (-3685)
  let p2 := p5 + i4 * (-10497)
  let t3 := p5 + i3 * 867
  let t2 := p5 + i4 * (-5945)
  let t1 := p2 + i3 * (-1597)
  let t0 := p1 + i4 * (-8034)
  ![(x0 + t3).sshiftRight 10, (x1 + t2).sshiftRight 10, (x2 + t1).sshiftRight 10,
    (x3 + t0).sshiftRight 10, (x3 - t0).sshiftRight 10, (x2 - t1).sshiftRight 10,
    (x1 - t2).sshiftRight 10, (x0 - t3).sshiftRight 10]

/-- Body of the horizontal pass of `idct4x4` (scalar.rs:240-287) on the row `x`. -/
def hrow4 (x : Fin 8 → I32) : Fin 8 → Int :=
  let t0 := fsh (x 0) + scaleBits
  let t2 := x 2 * 2217
  let t3 := x 2 * 5352
  let x0 := t0 + t3
  let x3 := t0 - t3
  let x1 := t0 + t2
  let x2 := t0 - t2
  let i3 := x 3
  let i1 := x 1
  let p5 := (i3 + i1) * 4816
  let p1 := p5 + i1 * (-3685)
  let p2 := p5 + i3 * (-10497)
  let t3 := p5 + i1 * 867
  let t2 := p5 + i3 * (-5945)
  let t1 := p2 + i1 * (-1597)
  let t0 := p1 + i3 * (-8034)
  ![clampI ((x0 + t3).sshiftRight 17), clampI ((x1 + t2).sshiftRight 17),
    clampI ((x2 + t1).sshiftRight 17), clampI ((x3 + t0).sshiftRight 17),
    clampI ((x3 - t0).sshiftRight 17), clampI ((x2 - t1).sshiftRight 17),
    clampI ((x1 - t2).sshiftRight 17), clampI ((x0 - t3).sshiftRight 17)]

/-- `in_vector[32..36].fill(0); …; in_vector[56..60].fill(0)` (scalar.rs:289-292). -/
def wipe4 (v : Block) : Block :=
  fun r c => if 4 ≤ r.val ∧ c.val < 4 then 0 else v r c

/-- `idct4x4` (scalar.rs:199-293). -/
def idct4x4 (v : Block) : Done :=
  let v := ([0, 1, 2, 3] : List (Fin 8)).foldl
    (fun v c => setCol v c (vcol4 (fun r => v r c))) v
  ⟨wipe4 v, fun r => hrow4 (v r)⟩

/-! ## AVX2 -/

/-- A register of eight `i32` lanes (unsafe_utils_avx2.rs:29-32). -/
abbrev Ymm := Fin 8 → I32

/-- `_mm256_permute4x64_epi64(v, shuffle(3, 1, 2, 0))` (unsafe_utils_avx2.rs:166-168): the
64-bit quarters 0, 2, 1, 3. -/
def permute0213 {α} (v : Fin 8 → α) : Fin 8 → α :=
  ![v 0, v 1, v 4, v 5, v 2, v 3, v 6, v 7]

/-- `_mm256_unpacklo_epi32` (unsafe_utils_avx2.rs:170). -/
def unpacklo32 {α} (a b : Fin 8 → α) : Fin 8 → α :=
  ![a 0, b 0, a 1, b 1, a 4, b 4, a 5, b 5]

/-- `_mm256_unpackhi_epi32` (unsafe_utils_avx2.rs:172). -/
def unpackhi32 {α} (a b : Fin 8 → α) : Fin 8 → α :=
  ![a 2, b 2, a 3, b 3, a 6, b 6, a 7, b 7]

/-- `_mm256_unpacklo_epi64` (unsafe_utils_avx2.rs:182). -/
def unpacklo64 {α} (a b : Fin 8 → α) : Fin 8 → α :=
  ![a 0, a 1, b 0, b 1, a 4, a 5, b 4, b 5]

/-- `_mm256_unpackhi_epi64` (unsafe_utils_avx2.rs:184). -/
def unpackhi64 {α} (a b : Fin 8 → α) : Fin 8 → α :=
  ![a 2, a 3, b 2, b 3, a 6, a 7, b 6, b 7]

/-- `_mm256_permute2x128_si256(a, b, shuffle(0, 2, 0, 0))` (unsafe_utils_avx2.rs:190):
the low halves. -/
def lowHalves {α} (a b : Fin 8 → α) : Fin 8 → α :=
  ![a 0, a 1, a 2, a 3, b 0, b 1, b 2, b 3]

/-- `_mm256_permute2x128_si256(a, b, shuffle(0, 3, 0, 1))` (unsafe_utils_avx2.rs:192):
the high halves. -/
def highHalves {α} (a b : Fin 8 → α) : Fin 8 → α :=
  ![a 4, a 5, a 6, a 7, b 4, b 5, b 6, b 7]

/-- `merge_epi32!` (unsafe_utils_avx2.rs:164-174). -/
def merge32 {α} (a b : Fin 8 → α) : (Fin 8 → α) × (Fin 8 → α) :=
  (unpacklo32 (permute0213 a) (permute0213 b), unpackhi32 (permute0213 a) (permute0213 b))

/-- `merge_epi64!` (unsafe_utils_avx2.rs:176-186). -/
def merge64 {α} (a b : Fin 8 → α) : (Fin 8 → α) × (Fin 8 → α) :=
  (unpacklo64 (permute0213 a) (permute0213 b), unpackhi64 (permute0213 a) (permute0213 b))

/-- `merge_si128!` (unsafe_utils_avx2.rs:188-194). -/
def merge128 {α} (a b : Fin 8 → α) : (Fin 8 → α) × (Fin 8 → α) :=
  (lowHalves a b, highHalves a b)

/-- `transpose` (unsafe_utils_avx2.rs:160-223). -/
def transpose {α} (v : Fin 8 → Fin 8 → α) : Fin 8 → Fin 8 → α :=
  let w01 := merge32 (v 0) (v 1)
  let w23 := merge32 (v 2) (v 3)
  let w45 := merge32 (v 4) (v 5)
  let w67 := merge32 (v 6) (v 7)
  let x01 := merge64 w01.1 w23.1
  let x23 := merge64 w01.2 w23.2
  let x45 := merge64 w45.1 w67.1
  let x67 := merge64 w45.2 w67.2
  let y01 := merge128 x01.1 x45.1
  let y23 := merge128 x01.2 x45.2
  let y45 := merge128 x23.1 x67.1
  let y67 := merge128 x23.2 x67.2
  ![y01.1, y01.2, y23.1, y23.2, y45.1, y45.2, y67.1, y67.2]

/-- `YmmRegister + i32` (unsafe_utils_avx2.rs:47-60), lane by lane; the binary operators
(34-45, 62-82) are the pointwise ones on functions. -/
def addS (a : Ymm) (k : I32) : Ymm := fun l => a l + k

/-- `YmmRegister * i32` (unsafe_utils_avx2.rs:108-121). -/
def mulS (a : Ymm) (k : I32) : Ymm := fun l => a l * k

/-- `_mm256_slli_epi32(a, 12)` (avx2.rs:187-192). -/
def slli12 (a : Ymm) : Ymm := fun l => a l <<< 12

/-- `_mm256_srai_epi32(a, n)` (avx2.rs:219-228). -/
def srai (a : Ymm) (n : Nat) : Ymm := fun l => (a l).sshiftRight n

/-- `dct_pass!` (avx2.rs:174-230) on the eight row registers. -/
def dctPass (bias : I32) (scale : Nat) (row : Fin 8 → Ymm) : Fin 8 → Ymm :=
  let p1 := mulS (row 2 + row 6) 2217
  let t2 := p1 + mulS (row 6) (-7567)
  let t3 := p1 + mulS (row 2) 3135
  let t0 := slli12 (row 0 + row 4)
  let t1 := slli12 (row 0 - row 4)
  let x0 := addS (t0 + t3) bias
  let x3 := addS (t0 - t3) bias
  let x1 := addS (t1 + t2) bias
  let x2 := addS (t1 - t2) bias
  let p3 := row 7 + row 3
  let p4 := row 5 + row 1
  let p1 := row 7 + row 1
  let p2 := row 5 + row 3
  let p5 := mulS (p3 + p4) 4816
  let t0 := mulS (row 7) 1223
  let t1 := mulS (row 5) 8410
  let t2 := mulS (row 3) 12586
  let t3 := mulS (row 1) 6149
  let p1 := p5 + mulS p1 (-3685)
  let p2 := p5 + mulS p2 (-10497)
  let p3 := mulS p3 (-8034)
  let p4 := mulS p4 (-1597)
  let t3 := t3 + (p1 + p4)
  let t2 := t2 + (p2 + p3)
  let t1 := t1 + (p2 + p4)
  let t0 := t0 + (p1 + p3)
  ![srai (x0 + t3) scale, srai (x1 + t2) scale, srai (x2 + t1) scale, srai (x3 + t0) scale,
    srai (x3 - t0) scale, srai (x2 - t1) scale, srai (x1 - t2) scale, srai (x0 - t3) scale]

/-- The shortened pass of `idct_avx2_4x4` (avx2.rs:278-316 and 322-367); the two copies differ
only in `bias` and `scale`. -/
def dctPass4 (bias : I32) (scale : Nat) (row : Fin 8 → Ymm) : Fin 8 → Ymm :=
  let row0 := addS (slli12 (row 0)) bias
  let p1 := mulS (row 2) 2217
  let p3 := mulS (row 2) 5352
  let x0 := row0 + p3
  let x1 := row0 + p1
  let x2 := row0 - p1
  let x3 := row0 - p3
  let i4 := row 3
  let i3 := row 1
  let p5 := mulS (i4 + i3) 4816
  let p1 := p5 + mulS i3 (-3685)
  let p2 := p5 + mulS i4 (-10497)
  let t3 := p5 + mulS i3 867
  let t2 := p5 + mulS i4 (-5945)
  let t1 := p2 + mulS i3 (-1597)
  let t0 := p1 + mulS i4 (-8034)
  ![srai (x0 + t3) scale, srai (x1 + t2) scale, srai (x2 + t1) scale, srai (x3 + t0) scale,
    srai (x3 - t0) scale, srai (x2 - t1) scale, srai (x1 - t2) scale, srai (x0 - t3) scale]

/-- `i32` to `i16` with saturation: one lane of `_mm256_packs_epi32` (avx2.rs:49). -/
def sat16 (a : I32) : Int := max (-32768) (min 32767 a.toInt)

/-- `clamp_avx` (avx2.rs:384-391): lanes limited to 0..255. -/
def clampAvx (a : Int) : Int := min (max a 0) 255

/-- `permute_store!` (avx2.rs:47-78): pack two rows to `i16`, clamp, undo the shuffling and
store each half.  `_mm256_packs_epi32` interleaves the 128-bit halves of its arguments and
`_mm256_permute4x64_epi64(b, shuffle(3, 1, 2, 0))` puts the 64-bit quarters in order
0, 2, 1, 3. -/
def permuteStore (x y : Ymm) : (Fin 8 → Int) × (Fin 8 → Int) :=
  let a : Fin 16 → Int := ![sat16 (x 0), sat16 (x 1), sat16 (x 2), sat16 (x 3),
    sat16 (y 0), sat16 (y 1), sat16 (y 2), sat16 (y 3),
    sat16 (x 4), sat16 (x 5), sat16 (x 6), sat16 (x 7),
    sat16 (y 4), sat16 (y 5), sat16 (y 6), sat16 (y 7)]
  let b : Fin 16 → Int := fun l => clampAvx (a l)
  (![b 0, b 1, b 2, b 3, b 8, b 9, b 10, b 11],
   ![b 4, b 5, b 6, b 7, b 12, b 13, b 14, b 15])

/-- The four `permute_store!` calls (avx2.rs:244-247, 376-379). -/
def storeRows (row : Fin 8 → Ymm) : Fin 8 → Fin 8 → Int :=
  let a := permuteStore (row 0) (row 1)
  let b := permuteStore (row 2) (row 3)
  let c := permuteStore (row 4) (row 5)
  let d := permuteStore (row 6) (row 7)
  ![a.1, a.2, b.1, b.2, c.1, c.2, d.1, d.2]

/-- The `or` of the seven lower rows and of the eight entries from index 1
(avx2.rs:120-128): the lanes tested for zero. -/
def acBitmap (v : Block) : Ymm := fun l =>
  v 1 l ||| v 2 l ||| v 3 l ||| v 4 l ||| v 5 l ||| v 6 l ||| v 7 l |||
    (if h : l.val + 1 < 8 then v 0 ⟨l.val + 1, h⟩ else v 1 0)

/-- `idct_avx2` (avx2.rs:89-248).  (Simplified: the DC value of line 134 is added with `+`,
which panics on overflow in a debug build; here it wraps, as in a release build.) -/
def idctAvx2 (v : Block) : Done :=
  if (List.finRange 8).all (fun l => acBitmap v l == 0) then
    ⟨v, fun _ _ => clampI ((v 0 0 + 4 + 1024).sshiftRight 3)⟩
  else
    let w := transpose (dctPass 512 10 v)
    ⟨v, storeRows (transpose (dctPass scaleBits 17 w))⟩

/-- `idct_avx2_4x4` (avx2.rs:260-380). -/
def idctAvx24x4 (v : Block) : Done :=
  let w := transpose (dctPass4 512 10 v)
  ⟨v, storeRows (transpose (dctPass4 scaleBits 17 w))⟩

/-! ## Storing the samples -/

/-- `out_vector.get_mut(pos..pos + 8).unwrap()` followed by storing eight samples
(scalar.rs:158-171); `none` is the panic of `unwrap` (or of the slice, scalar.rs:34-37). -/
def putRow (out : List Int) (pos : Nat) (row : Fin 8 → Int) : Option (List Int) :=
  if pos + 8 ≤ out.length then
    some (out.take pos ++ List.ofFn row ++ out.drop (pos + 8))
  else none

/-- The stores of a whole transform: row `r` at `r * stride` (scalar.rs:34-38, 173-174). -/
def putRows (out : List Int) (stride : Nat) (rows : Fin 8 → Fin 8 → Int) :
    Option (List Int) :=
  (List.finRange 8).foldlM (fun o r => putRow o (r.val * stride) (rows r)) out

/-! ## Selection and reuse of the buffer -/

/-- `UN_ZIGZAG` (misc.rs:58-70). -/
def unZigzag : List Nat :=
  [ 0,  1,  8, 16,  9,  2,  3, 10,
   17, 24, 32, 25, 18, 11,  4,  5,
   12, 19, 26, 33, 40, 48, 41, 34,
   27, 20, 13,  6,  7, 14, 21, 28,
   35, 42, 49, 56, 57, 50, 43, 36,
   29, 22, 15, 23, 30, 37, 44, 51,
   58, 59, 52, 45, 38, 31, 39, 46,
   53, 60, 61, 54, 47, 55, 62, 63,
   63, 63, 63, 63, 63, 63, 63, 63,
   63, 63, 63, 63, 63, 63, 63, 63]

/-- The three transforms a decoder was set up with (idct.rs:51-104): with AVX2 or without. -/
structure Isa where
  /-- `idct_func`. -/
  full : Block → Done
  /-- `idct_4x4_func`. -/
  small : Block → Done
  /-- `idct_1x1_func`. -/
  dc : Block → Done

/-- `choose_idct_func`, `choose_idct_4x4_func`, `choose_idct_1x1_func` (idct.rs:51-104).
(NEON: `neonIsa`, NeonModel.lean.) -/
def chooseIdct (avx2 : Bool) : Isa :=
  if avx2 then ⟨idctAvx2, idctAvx24x4, idct1x1⟩ else ⟨idctInt, idct4x4, idct1x1⟩

/-- The choice by `len`, the number of coefficients read in zig-zag order (mcu.rs:550-557). -/
def select (isa : Isa) (len : Nat) (v : Block) : Done :=
  if len ≤ 1 then isa.dc v else if len ≤ 10 then isa.small v else isa.full v

/-- `tmp[..clobber_len].fill(0)` (mcu.rs:500-502): clear the first 32 or all 64 entries. -/
def clobber (more : Bool) (v : Block) : Block :=
  fun r c => if more then 0 else if r.val < 4 then 0 else v r c

/-- What one block does to `tmp` and to `clobber_more_than_4x4` (mcu.rs:448, 489-559): clear, let
`decode_mcu_block` write its coefficients, transform.  `none` is a component that is not needed
(mcu.rs:512-515): nothing is touched.  `dec` stands for the stores made by `decode_mcu_block`
and `len` for its result. -/
def blockStep (isa : Isa) (st : Bool × Block) (job : Option (Nat × (Block → Block))) :
    Bool × Block :=
  match job with
  | none => st
  | some (len, dec) =>
    let v := dec (clobber st.1 st.2)
    (decide (10 < len), (select isa len v).mem)

end Zune.Jpeg
