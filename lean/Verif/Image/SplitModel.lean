/-
Model of the conversion between interleaved pixels and planes: `crates/zune-image/src/deinterleave.rs` and its directory,
`Frame::flatten` (frame.rs:333-393) and `swizzle_channels` (utils.rs:118-189).

A channel is represented by its typed contents (the list `reinterpret_as` returns, see `Verif.Image.Channel`); the code is the
same for the three sample types, so the model is generic in the type of a sample.
-/
import Mathlib.Data.List.Basic
import Mathlib.Tactic.Ring

namespace Zune.Split

variable {α : Type}

/-- The two errors of the functions (deinterleave.rs:43-54, 78-89) and panics. -/
inductive Err where
  | extra | tooSmall | panic
  deriving DecidableEq, Repr

/-- The loop for two components (deinterleave.rs:103-106, 173-176, 241-244). -/
def split2 : List α → List α → List α → List α × List α
  | a :: b :: l, _ :: c1, _ :: c2 => let r := split2 l c1 c2; (a :: r.1, b :: r.2)
  | _, c1, c2 => (c1, c2)

/-- `de_interleave_three_channels_scalar` (scalar.rs:10-23); also the AVX2 version, which is the same code (avx2.rs:17-25). -/
def split3 : List α → List α → List α → List α → List α × List α × List α
  | a :: b :: c :: l, _ :: c1, _ :: c2, _ :: c3 => let r := split3 l c1 c2 c3; (a :: r.1, b :: r.2.1, c :: r.2.2)
  | _, c1, c2, c3 => (c1, c2, c3)

/-- `de_interleave_four_channels_scalar` (scalar.rs:26-41); also the AVX2 version, which is the same code (avx2.rs:27-34). -/
def split4 : List α → List α → List α → List α → List α → List α × List α × List α × List α
  | a :: b :: c :: d :: l, _ :: c1, _ :: c2, _ :: c3, _ :: c4 =>
    let r := split4 l c1 c2 c3 c4; (a :: r.1, b :: r.2.1, c :: r.2.2.1, d :: r.2.2.2)
  | _, c1, c2, c3, c4 => (c1, c2, c3, c4)

/-! SIMD for three channels of bytes.  A vector register is a list of 16 bytes. -/

/-- `a0 b0 a1 b1 …`. -/
def interleave : List α → List α → List α
  | a :: as, b :: bs => a :: b :: interleave as bs
  | _, _ => []

/-- `_mm_unpacklo_epi8`. -/
def unpackLo (a b : List α) : List α := interleave (a.take 8) (b.take 8)

/-- `_mm_unpackhi_epi8`. -/
def unpackHi (a b : List α) : List α := interleave (a.drop 8) (b.drop 8)

/-- One layer of `de_interleave_three_channels_sse2` (sse2.rs:51-56 and the like) on six registers. -/
def layer : List (List α) → List (List α)
  | [a, b, c, d, e, f] => [unpackLo a d, unpackHi a d, unpackLo b e, unpackHi b e, unpackLo c f, unpackHi c f]
  | l => l

/-- One 96 byte chunk of `de_interleave_three_channels_sse2` (sse2.rs:37-94): load six registers, five layers, two registers
    for each colour. -/
def chunkSse2 (l : List α) : List α × List α × List α :=
  match layer (layer (layer (layer (layer ((List.range 6).map fun i => (l.drop (16 * i)).take 16))))) with
  | [r0, r1, g0, g1, b0, b1] => (r0 ++ r1, g0 ++ g1, b0 ++ b1)
  | _ => ([], [], [])

/-- `_mm_shuffle_epi8`: lane `i` is the byte with the index in lane `i` of the mask, or zero for the index -1. -/
def shuffle (v : List UInt8) (mask : List (Option Nat)) : List UInt8 :=
  mask.map fun k => match k with
    | none => 0
    | some k => v.getD k 0

/-- `_mm_or_si128`. -/
def vor (a b : List UInt8) : List UInt8 := List.zipWith (· ||| ·) a b

/-- A mask as passed to `_mm_set_epi8` (last lane first), -1 as `none`. -/
def mask (l : List Int) : List (Option Nat) := l.reverse.map fun k => if k < 0 then none else some k.toNat

/-- The nine masks (sse41.rs:32-51), for red, green and blue. -/
def masks : List (List (List Int)) := [
  [[-1, -1, -1, -1, -1, -1, -1, -1, -1, -1, 15, 12, 9, 6, 3, 0],
   [-1, -1, -1, -1, -1, 14, 11, 8, 5, 2, -1, -1, -1, -1, -1, -1],
   [13, 10, 7, 4, 1, -1, -1, -1, -1, -1, -1, -1, -1, -1, -1, -1]],
  [[-1, -1, -1, -1, -1, -1, -1, -1, -1, -1, -1, 13, 10, 7, 4, 1],
   [-1, -1, -1, -1, -1, 15, 12, 9, 6, 3, 0, -1, -1, -1, -1, -1],
   [14, 11, 8, 5, 2, -1, -1, -1, -1, -1, -1, -1, -1, -1, -1, -1]],
  [[-1, -1, -1, -1, -1, -1, -1, -1, -1, -1, -1, 14, 11, 8, 5, 2],
   [-1, -1, -1, -1, -1, -1, 13, 10, 7, 4, 1, -1, -1, -1, -1, -1],
   [15, 12, 9, 6, 3, 0, -1, -1, -1, -1, -1, -1, -1, -1, -1, -1]]]

/-- One colour of a 48 byte chunk (sse41.rs:65-86). -/
def colourSse3 (m : List (List Int)) (l : List UInt8) : List UInt8 :=
  vor (vor (shuffle (l.take 16) (mask (m.getD 0 []))) (shuffle ((l.drop 16).take 16) (mask (m.getD 1 []))))
    (shuffle ((l.drop 32).take 16) (mask (m.getD 2 [])))

/-- One 48 byte chunk of `de_interleave_three_channels_sse3_u8` (sse41.rs:61-90). -/
def chunkSse3 (l : List UInt8) : List UInt8 × List UInt8 × List UInt8 :=
  (colourSse3 (masks.getD 0 []) l, colourSse3 (masks.getD 1 []) l, colourSse3 (masks.getD 2 []) l)

/-- The loop over whole chunks of `3 * m` bytes (sse2.rs:37-95, sse41.rs:53-91). -/
def simdLoop (m : Nat) (f : List α → List α × List α × List α) (l c1 c2 c3 : List α) : List α × List α × List α :=
  if h : 0 < m ∧ 3 * m ≤ l.length ∧ m ≤ c1.length ∧ m ≤ c2.length ∧ m ≤ c3.length then
    let o := f (l.take (3 * m))
    let r := simdLoop m f (l.drop (3 * m)) (c1.drop m) (c2.drop m) (c3.drop m)
    (o.1 ++ r.1, o.2.1 ++ r.2.1, o.2.2 ++ r.2.2)
  else (c1, c2, c3)
termination_by l.length
decreasing_by simp; omega

/-- The remainder of the SIMD functions (sse2.rs:96-107, sse41.rs:92-103). -/
def simdTail (m : Nat) (l : List α) (c : List α × List α × List α) : List α × List α × List α :=
  if l.length % (3 * m) ≠ 0 then
    let rem := l.length % (3 * m)
    let cs := c.1.length - rem / 3
    let r := split3 (l.drop (l.length - rem)) (c.1.drop cs) (c.2.1.drop cs) (c.2.2.drop cs)
    (c.1.take cs ++ r.1, c.2.1.take cs ++ r.2.1, c.2.2.take cs ++ r.2.2)
  else c

/-- What the processor offers (deinterleave_impls.rs:12-44). -/
inductive Isa where
  | avx2 | sse3 | sse2 | scalar
  deriving DecidableEq, Repr

/-- `de_interleave_three_channels_u8` (deinterleave_impls.rs:11-46) with the assertions of the SIMD functions. -/
def three (isa : Isa) (l c1 c2 c3 : List UInt8) : Except Err (List UInt8 × List UInt8 × List UInt8) :=
  let ok := l.length % 3 = 0 ∧ c1.length = c2.length ∧ c2.length = c3.length
  match isa with
  | .avx2 | .scalar => .ok (split3 l c1 c2 c3)
  | .sse3 => if ok then .ok (simdTail 16 l (simdLoop 16 chunkSse3 l c1 c2 c3)) else .error .panic
  | .sse2 => if ok then .ok (simdTail 32 l (simdLoop 32 chunkSse2 l c1 c2 c3)) else .error .panic

/-- The double loop of `deinterleave_generic` (deinterleave.rs:63-70); an index outside a channel panics. -/
def genericLoop (n pos : Nat) (l : List α) (cs : List (List α)) : Except Err (List (List α)) :=
  if h : 0 < n ∧ n ≤ l.length then
    if cs.all (fun c => pos < c.length) then
      genericLoop n (pos + 1) (l.drop n) (List.zipWith (fun c p => c.set pos p) cs (l.take n))
    else .error .panic
  else .ok cs
termination_by l.length
decreasing_by simp; omega

/-- `deinterleave_u8`, `deinterleave_u16`, `deinterleave_f32` (deinterleave.rs:75-278) for a colour space of `n` components;
    `z` is the zero the new channels are filled with, `three` the function for three components.
    A colour space without components (`Unknown`) divides by zero. -/
def deinterleave (z : α) (three : List α → List α → List α → List α → Except Err (List α × List α × List α)) (n : Nat)
    (l : List α) : Except Err (List (List α)) :=
  if n = 0 then .error .panic
  else if l.length % n ≠ 0 then .error .extra
  else
    let size := l.length / n
    if size = 0 then .error .tooSmall
    else
      let c := List.replicate size z
      if n = 1 then .ok [l]
      else if n = 2 then let r := split2 l c c; .ok [r.1, r.2]
      else if n = 3 then (three l c c c).map fun r => [r.1, r.2.1, r.2.2]
      else if n = 4 then let r := split4 l c c c c; .ok [r.1, r.2.1, r.2.2.1, r.2.2.2]
      else genericLoop n 0 l (List.replicate n c)

/-- The contents of all pixels, channel `c[pos]` by `c[pos]`; `none` is a panic (frame.rs:380-390, utils.rs:180-185). -/
def gather (cs : List (List α)) (count : Nat) : Option (List α) :=
  ((List.range count).mapM fun pos => cs.mapM fun c => c[pos]?).map List.flatten

/-- `Frame::flatten` (frame.rs:333-393).  The stores into `output` of the general case are written as the list they fill. -/
def flatten : List (List α) → Except Err (List α)
  | [] => .ok []
  | [a] => .ok a
  | [a, b] => .ok ((a.zip b).flatMap fun x => [x.1, x.2])
  | [a, b, c] => .ok (((a.zip b).zip c).flatMap fun x => [x.1.1, x.1.2, x.2])
  | [a, b, c, d] => .ok ((((a.zip b).zip c).zip d).flatMap fun x => [x.1.1.1, x.1.1.2, x.1.2, x.2])
  | a :: cs =>
    match gather (a :: cs) a.length with
    | some out => .ok out
    | none => .error .panic

/-- The loop of `swizzle_channels` for two channels (utils.rs:129-136). -/
def weave2 : List α → List α → List α → List α
  | _ :: _ :: o, a :: as, b :: bs => a :: b :: weave2 o as bs
  | o, _, _ => o

/-- `swizzle_three_channels_fallback` (utils.rs:30-44). -/
def weave3 : List α → List α → List α → List α → List α
  | _ :: _ :: _ :: o, a :: as, b :: bs, c :: cs => a :: b :: c :: weave3 o as bs cs
  | o, _, _, _ => o

/-- `swizzle_four_channels_fallback` (utils.rs:65-81). -/
def weave4 : List α → List α → List α → List α → List α → List α
  | _ :: _ :: _ :: _ :: o, a :: as, b :: bs, c :: cs, d :: ds => a :: b :: c :: d :: weave4 o as bs cs ds
  | o, _, _, _, _ => o

/-- `swizzle_channels` (utils.rs:118-189): the output buffer and the returned count. -/
def swizzle (cs : List (List α)) (out : List α) : Except Err (List α × Nat) :=
  match cs with
  | [] => .ok (out, 0)
  | [a] => if out.length = a.length then .ok (a, out.length) else .error .panic
  | [a, b] => .ok (weave2 out a b, min (a.length * 2) out.length)
  | [a, b, c] => .ok (weave3 out a b c, min (a.length * 3) out.length)
  | [a, b, c, d] => .ok (weave4 out a b c d, min (a.length * 4) out.length)
  | cs =>
    match gather cs (out.length / cs.length) with
    | some o => .ok (o ++ out.drop o.length, o.length)
    | none => .error .panic

/-! The four channel SSE4.1 function.  `deinterleave_four_channels_u8` (deinterleave_impls.rs:73-99) never reaches it: the AVX2
    branch before it has the same condition. -/

/-- The loads of one 64 byte chunk (sse41.rs:135-138): at 0, 8, 16 and 24. -/
def sse41Loads : List Nat := [0, 8, 16, 24]

/-- The shuffle mask of `de_interleave_four_channels_sse41` (sse41.rs:118-121). -/
def sse41Mask : List Int := [15, 11, 7, 3, 14, 10, 6, 2, 13, 9, 5, 1, 12, 8, 4, 0]

/-- Group `k` of four bytes of a register. -/
def dword (v : List UInt8) (k : Nat) : List UInt8 := (v.drop (4 * k)).take 4

/-- One 64 byte chunk (sse41.rs:135-168): `unpacklo/hi_epi32` and `unpacklo/hi_epi64` collect the `k`-th groups of the four
    registers. -/
def chunkSse41 (l : List UInt8) : List (List UInt8) :=
  let x := sse41Loads.map fun o => shuffle ((l.drop o).take 16) (mask sse41Mask)
  (List.range 4).map fun k => x.flatMap fun v => dword v k

end Zune.Split
