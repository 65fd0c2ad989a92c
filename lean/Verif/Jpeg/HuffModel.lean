import Mathlib.Data.BitVec
import Mathlib.Data.List.Basic
import Verif.Common.Bytes

/-!
# zune-jpeg: Huffman tables (model)

Model of `crates/zune-jpeg/src/huffman.rs`.  Arrays whose every index is bounded by the loop that
uses it are functions of the index; the two 512-entry tables, whose indices are computed from the
codes, are written with an explicit bounds check (`none` is the panic).  `i32`/`u32`/`i16` values
are `Int`/`Nat`: codes stay below `2^17` and table entries fit an `i16`, being
a byte plus 256 times a value that was checked to lie in -128..127.
-/

namespace Zune.Jpeg

/-- `HuffmanTable` (huffman.rs:24-49). -/
structure Huff where
  /-- `maxcode`. -/
  maxcode : Nat → Int
  /-- `offset`. -/
  offset : Nat → Int
  /-- `lookup`, 512 entries. -/
  lookup : Nat → Nat
  /-- `ac_lookup`, 512 entries. -/
  acLookup : Option (Nat → Int)
  /-- `values`, 256 entries. -/
  values : Nat → Nat

/-- Ways in which building a table stops (huffman.rs:130, 247), or panics. -/
inductive HuffErr where
  /-- "Bad Huffman Table". -/
  | bad
  /-- An index outside an array. -/
  | panic
deriving DecidableEq

/-- Table of code sizes (huffman.rs:93-109, Figure C.1), without the final 0 that ends it. -/
def huffSize (bits : Nat → Nat) : List Nat :=
  (List.range' 1 16).flatMap fun l => List.replicate (bits l) l

/-- The loops giving out codes (huffman.rs:119-135): `si` the current size, `code` the next code,
the list what is left of `huff_size`.  Returns the codes and `maxcode` of each size met.
(Simplified: the loop condition `huff_size[p] != 0` is "the list is not empty", sizes being
nonzero; the inner loop takes the run of entries equal to `si` at once.  The fuel bounds the number
of sizes.) -/
def genCodes : Nat → Nat → Nat → List Nat → Option (List Nat × (Nat → Int))
  | _, _, _, [] => some ([], fun _ => 0)
  | 0, _, _, _ :: _ => none
  | fuel + 1, si, code, s :: ss =>
    let n := ((s :: ss).takeWhile (· == si)).length
    if 2 ^ si ≤ code + n then none
    else (genCodes fuel (si + 1) (2 * (code + n)) ((s :: ss).drop n)).map fun r =>
      (List.range' code n ++ r.1, fun l => if l = si then ((code + n) * 2 ^ (16 - si) : Nat) else r.2 l)

/-- The `offset`/`maxcode` loop (huffman.rs:138-150): from size `l` on, with `p` the index of the
first symbol of size `l`. -/
def offsets (bits : Nat → Nat) (codes : List Nat) : Nat → Nat → Nat → (Nat → Int) × (Nat → Int) →
    (Nat → Int) × (Nat → Int)
  | 0, _, _, t => t
  | fuel + 1, l, p, (mc, off) =>
    if bits l = 0 then
      offsets bits codes fuel (l + 1) p (fun j => if j = l then -1 else mc j, off)
    else
      offsets bits codes fuel (l + 1) (p + bits l)
        (mc, fun j => if j = l then (p : Int) - ((codes ++ [0]).getD p 0 : Nat) else off j)

/-- Writing `n` equal entries from index `start` of a 512-entry table (huffman.rs:173-178,
195-197); `none` when an index is out of bounds. -/
def putRange {α} (t : Nat → α) (start n : Nat) (v : α) : Option (Nat → α) :=
  if start + n ≤ 512 then some fun i => if start ≤ i ∧ i < start + n then v else t i else none

/-- Indices and sizes of the symbols with a code of at most 9 bits: the loop header at
huffman.rs:167-169 visits the first entries of `huff_size`. -/
def shortSyms (bits : Nat → Nat) : List (Nat × Nat) :=
  ((List.range' 1 9).flatMap fun l => List.replicate (bits l) l).zipIdx

/-- Filling `lookup` (huffman.rs:165-182): entry `(l << 9) | values[p]` at every 9 bit window
starting with the code.  A `|` of a multiple of 512 and a byte is their sum. -/
def fillLookup (codes : List Nat) (values : Nat → Nat) : List (Nat × Nat) → (Nat → Nat) →
    Option (Nat → Nat)
  | [], t => some t
  | (l, p) :: ss, t =>
    (putRange t (codes.getD p 0 * 2 ^ (9 - l)) (2 ^ (9 - l)) (l * 512 + values p)).bind
      (fillLookup codes values ss)

/-- Filling `fast` (huffman.rs:187-201): the index of the symbol for every 9 bit window. -/
def fillFast (codes : List Nat) : List (Nat × Nat) → (Nat → Nat) → Option (Nat → Nat)
  | [], t => some t
  | (s, i) :: ss, t =>
    if s ≤ 9 then
      (putRange t (codes.getD i 0 * 2 ^ (9 - s)) (2 ^ (9 - s)) i).bind (fillFast codes ss)
    else fillFast codes ss t

/-- The value of the extra bits of a window (huffman.rs:222-228): `m` bits after the first `len`
of the 9 bit window `i`, sign-extended as JPEG does. -/
def fastValue (i len m : Nat) : Int :=
  let k := (i * 2 ^ len) % 512 / 2 ^ (9 - m)
  if k < 2 ^ (m - 1) then (k : Int) + (-(2 ^ m : Nat) + 1) else k

/-- One entry of `fast_ac` (huffman.rs:207-236). -/
def fastEntry (sizes : List Nat) (values fast : Nat → Nat) (i : Nat) : Int :=
  let v := fast i
  if v < 255 then
    let rs := values v
    let run := rs / 16 % 16
    let mag := rs % 16
    let len := sizes.getD v 0
    if mag ≠ 0 ∧ len + mag ≤ 9 then
      let k := fastValue i len mag
      if -128 ≤ k ∧ k ≤ 127 then k * 256 + run * 16 + (len + mag : Nat) else 0
    else 0
  else 0

/-- `make_derived_table` as called by `HuffmanTable::new` (huffman.rs:52-67, 89-253): all tables
from the number of codes of each size, `bits 1 … bits 16`, and the symbols.  (`bits[0]` is left at
0 by the caller, headers.rs:47, 62.) -/
def Huff.new (bits values : Nat → Nat) (isDc : Bool) : Except HuffErr Huff :=
  let sizes := huffSize bits
  if 256 < sizes.length then .error .panic
  else match genCodes 16 (sizes.headD 0) 0 sizes with
    | none => .error .bad
    | some (codes, mc) =>
      let (mc, off) := offsets bits codes 17 0 0 (mc, fun _ => 0)
      match fillLookup codes values (shortSyms bits) (fun _ => (9 + 1) * 512) with
      | none => .error .panic
      | some lookup =>
        let fast := if isDc then some none else
          (fillFast codes sizes.zipIdx (fun _ => 255)).map fun f =>
            some (fastEntry sizes values f)
        match fast with
        | none => .error .panic
        | some ac =>
          if isDc ∧ ∃ i < sizes.length, 15 < values i then .error .bad
          else .ok { maxcode := fun l => if l = 17 then 0xFFFFF else mc l,
                     offset := fun l => if l = 17 then 0 else off l,
                     lookup := lookup, acLookup := ac, values := values }

/-- The search for a long code in `decode_huff!` (bitstream.rs:79-84): the first size from `l` on
whose `maxcode` exceeds the 16 bit window, 17 when there is none; the fuel is `17 - l`. -/
def searchLen (maxcode : Nat → Int) (w : Nat) : Nat → Nat → Nat
  | 0, l => l
  | fuel + 1, l => if (w : Int) < maxcode l then l else searchLen maxcode w fuel (l + 1)

/-- `decode_huff!` up to the check against the bits at hand (bitstream.rs:61-101): the symbol and
the length of its code in the 16 bit window `w`, whose upper 9 bits index `lookup`; `none` is the
error "Bad Huffman Code".  (Simplified: the two `peek_bits` of the macro see the same buffer, so
one window is passed.) -/
def Huff.decode (t : Huff) (w : Nat) : Option (Nat × Nat) :=
  let e := t.lookup (w / 2 ^ 7)
  let len := e / 512
  if 9 < len then
    let len := searchLen t.maxcode w (17 - len) len
    if len = 17 then none
    else some (t.values (((w / 2 ^ (16 - len) : Nat) + t.offset len) % 256).toNat, len)
  else some (e % 512, len)

/-- `huff_extend` (bitstream.rs:777-780) on `i32`. -/
def huffExtend (x s : BitVec 32) : BitVec 32 :=
  x + (((x - ((1 : BitVec 32) <<< (s - 1))).sshiftRight 31) &&& (((-1 : BitVec 32) <<< s) + 1))

end Zune.Jpeg
