/-
Model of the construction of Huffman decode tables: `build_decode_table_inner` (`crates/zune-inflate/src/decoder.rs:1324-1626`) and
`make_decode_table_entry` (`crates/zune-inflate/src/utils.rs:19-21`).  All arithmetic stays below 2^32 and is done in `Nat`.
-/
import Verif.Inflate.Model

namespace Zune.Inflate

/-- `make_decode_table_entry` (utils.rs:19-21); `none` is an index out of bounds. -/
def tableEntry (results : List Nat) (sym len : Nat) : Option Nat := results[sym]?.map fun r => r + (len <<< 8) + len

/-- The loop that finds the longest length in use (decoder.rs:1347-1349), from `max_codeword_len` down.  `len_counts[l]` is
    `lens.count l` (decoder.rs:1339-1341); `lens` holds the lengths of the first `num_syms` symbols. -/
def maxLen (lens : List Nat) : Nat → Nat
  | 0 => 0
  | 1 => 1
  | m + 2 => if lens.count (m + 2) = 0 then maxLen lens (m + 1) else m + 2

/-- `offsets` before the sorting loop (decoder.rs:1359-1367), up to the longest length in use. -/
def startOf (lens : List Nat) : Nat → Nat
  | 0 => 0
  | 1 => lens.count 0
  | l + 2 => startOf lens (l + 1) + lens.count (l + 1)

/-- `codespace_used` (decoder.rs:1362-1368) after length `l`. -/
def codespace (lens : List Nat) : Nat → Nat
  | 0 => 0
  | l + 1 => (codespace lens l <<< 1) + lens.count (l + 1)

/-- The sorting loop (decoder.rs:1370-1374) from symbol `sym` on; `none` is an index out of bounds. -/
def sortSyms : List Nat → Nat → (Nat → Nat) → List Nat → Option ((Nat → Nat) × List Nat)
  | [], _, offsets, sorted => some (offsets, sorted)
  | l :: t, sym, offsets, sorted =>
    if offsets l < sorted.length then
      sortSyms t (sym + 1) (fun k => if k = l then offsets l + 1 else offsets k) (sorted.set (offsets l) sym)
    else none

/-- Writing one entry of the table; out of bounds is a panic. -/
def setAt (t : List Nat) (i v : Nat) : Except Err (List Nat) := if i < t.length then .ok (t.set i v) else .error .panic

/-- `decode_table.copy_within(0..e, e)` (decoder.rs:1483, 1525); out of bounds is a panic. -/
def double (t : List Nat) (e : Nat) : Except Err (List Nat) :=
  if 2 * e ≤ t.length then .ok (t.take e ++ t.take e ++ t.drop (2 * e)) else .error .panic

/-- The loop of decoder.rs:1482-1486: `n` doublings. -/
def doubles : Nat → List Nat → Nat → Except Err (List Nat)
  | 0, t, _ => .ok t
  | n + 1, t, e =>
    match double t e with
    | .error x => .error x
    | .ok t => doubles n t (e <<< 1)

/-- Advancing a bit-reversed codeword (decoder.rs:1505-1509, 1614-1618): the highest zero bit among those of `e - 1` is set, the bits above
    cleared.  `BITS - leading_zeros` is the position of the highest one bit. -/
def nextWord (cw e : Nat) : Nat :=
  let bit := 1 <<< (cw ^^^ (e - 1)).log2
  (cw &&& (bit - 1)) ||| bit

/-- The loop that advances to the next length (decoder.rs:1517-1535): table, its current end, length and count. -/
def advance (lens : List Nat) (T : Nat) (t : List Nat) (e len : Nat) : Except Err (List Nat × Nat × Nat × Nat) :=
  if len + 1 < 16 then
    if len + 1 ≤ T then
      match double t e with
      | .error x => .error x
      | .ok t =>
        if lens.count (len + 1) ≠ 0 then .ok (t, e <<< 1, len + 1, lens.count (len + 1)) else advance lens T t (e <<< 1) (len + 1)
    else if lens.count (len + 1) ≠ 0 then .ok (t, e, len + 1, lens.count (len + 1)) else advance lens T t e (len + 1)
  else .error .panic
termination_by 16 - len

/-- The size of a subtable (decoder.rs:1565-1576); `none` is the error of line 1572. -/
def growBits (lens : List Nat) (T bits used : Nat) : Option Nat :=
  if used < 1 <<< bits then
    if bits + 1 + T > 15 then none else growBits lens T (bits + 1) ((used <<< 1) + lens.count (T + (bits + 1)))
  else some bits
termination_by 16 - (T + bits)

/-- The entry that points to a subtable (decoder.rs:1582-1586). -/
def pointer (start bits T : Nat) : Nat := (start <<< 16) ||| 0x8000 ||| 0x4000 ||| (bits <<< 8) ||| T

/-- Starting a subtable (decoder.rs:1550-1589): table, new end and start. -/
def newSub (lens : List Nat) (T : Nat) (t : List Nat) (q e len count : Nat) : Except Err (List Nat × Nat × Nat) :=
  match growBits lens T (len - T) count with
  | none => .error .corruptData
  | some bits =>
    match setAt t q (pointer e bits T) with
    | .error x => .error x
    | .ok t => .ok (t, e + (1 <<< bits), e)

/-- Filling a subtable (decoder.rs:1604-1607); the stride is `1 << k` (line 1593). -/
def fillFrom (t : List Nat) (j k e v : Nat) : Except Err (List Nat) :=
  if j < e then
    match setAt t j v with
    | .error x => .error x
    | .ok t => fillFrom t (j + (1 <<< k)) k e v
  else .ok t
termination_by e - j
decreasing_by
  rw [Nat.one_shiftLeft]
  have := Nat.two_pow_pos k
  omega

/-- Advancing to the next length in the second phase (decoder.rs:1621-1624); `none` is an index out of bounds. -/
def nextLen (lens : List Nat) (len count : Nat) : Option (Nat × Nat) :=
  if count = 0 then
    if len + 1 < 16 then nextLen lens (len + 1) (lens.count (len + 1)) else none
  else some (len, count)
termination_by 16 - len

/-- The loop over codewords longer than `table_bits` (decoder.rs:1545-1625).  `pfx` is `subtable_prefix`, `none` for `usize::MAX`. -/
def subLoop (lens results sorted : List Nat) (T : Nat) (t : List Nat) (cw len count i e : Nat) (pfx : Option Nat) (start : Nat) :
    Except Err (List Nat) :=
  let q := cw &&& ((1 <<< T) - 1)
  match (if pfx ≠ some q then newSub lens T t q e len count else .ok (t, e, start)) with
  | .error x => .error x
  | .ok (t, e, start) =>
    if h : i < sorted.length then
      match tableEntry results sorted[i] (len - T) with
      | none => .error .panic
      | some v =>
        match fillFrom t (start + (cw >>> T)) (len - T) e v with
        | .error x => .error x
        | .ok t =>
          if cw = (1 <<< len) - 1 then .ok t
          else
            match nextLen lens len (count - 1) with
            | none => .error .panic
            | some (len', count') => subLoop lens results sorted T t (nextWord cw (1 <<< len)) len' count' (i + 1) e (some q) start
    else .error .panic
termination_by sorted.length - i

/-- The loop over codewords of at most `table_bits` bits (decoder.rs:1468-1539), one codeword at a time, and what follows it. -/
def mainLoop (lens results sorted : List Nat) (T : Nat) (t : List Nat) (cw len count i e : Nat) : Except Err (List Nat) :=
  if h : i < sorted.length then
    match tableEntry results sorted[i] len with
    | none => .error .panic
    | some v =>
      match setAt t cw v with
      | .error x => .error x
      | .ok t =>
        if cw = e - 1 then doubles (T - len) t e
        else if count - 1 ≠ 0 then mainLoop lens results sorted T t (nextWord cw e) len (count - 1) (i + 1) e
        else
          match advance lens T t e len with
          | .error x => .error x
          | .ok (t, e', len', count') =>
            if len' ≤ T then mainLoop lens results sorted T t (nextWord cw e) len' count' (i + 1) e'
            else subLoop lens results sorted T t (nextWord cw e) len' count' (i + 1) (1 <<< T) none 0
  else .error .panic
termination_by sorted.length - i

/-- Finding the first length in use (decoder.rs:1453-1464). -/
def firstLen (lens : List Nat) (len : Nat) : Nat × Nat :=
  if lens.count len = 0 then
    if len + 1 < 16 then firstLen lens (len + 1) else (len + 1, 0)
  else (len, lens.count len)
termination_by 16 - len

/-- `build_decode_table_inner` (decoder.rs:1324-1626) on a zeroed table of `size` entries, with `max_codeword_len` 15. -/
def buildTable (lens results : List Nat) (size T : Nat) : Except Err (List Nat) :=
  let m := maxLen lens 15
  match sortSyms lens 0 (fun l => if l ≤ m then startOf lens l else 0) (List.replicate 288 0) with
  | none => .error .panic
  | some (offsets, sorted) =>
    let used := codespace lens m
    if used > 1 <<< m then .error .generic
    else if used < 1 <<< m then
      if used = 0 then
        match tableEntry results 0 1 with
        | none => .error .panic
        | some v => .ok (List.replicate size v)
      else if used ≠ 1 <<< (m - 1) ∨ lens.count 1 ≠ 1 then .error .generic
      else
        match sorted[offsets 0]?.bind (tableEntry results · 1) with
        | none => .error .panic
        | some v => .ok (List.replicate size v)
    else
      let r := firstLen lens 1
      if r.1 ≤ T then mainLoop lens results sorted T (List.replicate size 0) 0 r.1 r.2 (offsets 0) (1 <<< r.1)
      else subLoop lens results sorted T (List.replicate size 0) 0 r.1 r.2 (offsets 0) (1 <<< T) none 0

/-! ### The static parts of table entries -/

/-- `PRECODE_DECODE_RESULTS` (constants.rs:60-72). -/
def precodeResults : List Nat := (List.range 19).map (· <<< 16)

/-- `base_and_bits_tables` (constants.rs:100-109). -/
def lengthTable : List (Nat × Nat) :=
  [(3, 0), (4, 0), (5, 0), (6, 0), (7, 0), (8, 0), (9, 0), (10, 0), (11, 1), (13, 1), (15, 1), (17, 1), (19, 2), (23, 2), (27, 2), (31, 2),
   (35, 3), (43, 3), (51, 3), (59, 3), (67, 4), (83, 4), (99, 4), (115, 4), (131, 5), (163, 5), (195, 5), (227, 5), (258, 0), (258, 0), (258, 0)]

/-- `LITLEN_DECODE_RESULTS` (constants.rs:85-122, 141). -/
def litlenResults : List Nat :=
  (List.range 256).map (fun i => (i <<< 16) ||| 0x80000000) ++ [0x8000 ||| 0x2000] ++ lengthTable.map fun x => (x.1 <<< 16) ||| x.2

/-- The arguments of `entry` (constants.rs:124-126) in `OFFSET_DECODE_RESULTS`. -/
def offsetTable : List (Nat × Nat) :=
  [(1, 0), (2, 0), (3, 0), (4, 0), (5, 1), (7, 1), (9, 2), (13, 2), (17, 3), (25, 3), (33, 4), (49, 4), (65, 5), (97, 5), (129, 6), (193, 6),
   (257, 7), (385, 7), (513, 8), (769, 8), (1025, 9), (1537, 9), (2049, 10), (3073, 10), (4097, 11), (6145, 11), (8193, 12), (12289, 12),
   (16385, 13), (24577, 13), (24577, 13), (24577, 13)]

/-- `OFFSET_DECODE_RESULTS` (constants.rs:130-139). -/
def offsetResults : List Nat := offsetTable.map fun x => (x.1 <<< 16) ||| x.2

end Zune.Inflate
