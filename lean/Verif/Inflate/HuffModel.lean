/-
Model of Huffman blocks: `build_decode_table` (`crates/zune-inflate/src/decoder.rs:1125-1321`), the fast loop (decoder.rs:691-982), the careful
loop (decoder.rs:988-1095) and the copies (`crates/zune-inflate/src/utils.rs:25-66`).

The output vector is a list `buf` that may be longer than the output, of which `dest` bytes are written; it grows by zeros.  Indexing out of
bounds is the error `panic`.
-/
import Verif.Inflate.TableModel

namespace Zune.Inflate

/-! ### Reading the code lengths -/

/-- `DEFLATE_PRECODE_LENS_PERMUTATION` (constants.rs:22-24). -/
def precodeOrder : List Nat := [16, 17, 18, 0, 8, 7, 9, 6, 10, 5, 11, 4, 12, 3, 13, 2, 14, 1, 15]

/-- The loop of decoder.rs:1171-1178, over the symbols whose lengths are still to be read. -/
def precodeLens (b : Bits) : List Nat → List Nat → Bits × List Nat
  | [], lens => (b, lens)
  | s :: t, lens => precodeLens (b.get 3).2 t (lens.set s (b.get 3).1)

/-- `lens[i..i + n].fill(v)` (decoder.rs:1222, 1258, 1266, 1274); out of bounds is a panic. -/
def fillLens (lens : List Nat) (i n v : Nat) : Except Err (List Nat) :=
  if i + n ≤ lens.length then .ok (lens.take i ++ List.replicate n v ++ lens.drop (i + n)) else .error .panic

/-- One pass of the loop over the code lengths (decoder.rs:1203-1276): reader, lengths and the next symbol.  The lengths are bytes; `presym`
    is at most 18. -/
def lensStep (table : List Nat) (b : Bits) (lens : List Nat) (i : Nat) : Except Err (Bits × List Nat × Nat) :=
  let b := if b.left < 7 + 7 then b.refill else b
  match table[b.peek 7]? with
  | none => .error .panic
  | some entry =>
    if b.left < entry % 256 then .error .insufficientData
    else
      let b := b.drop (entry % 256)
      if entry >>> 16 < 16 then (fillLens lens i 1 (entry >>> 16)).map fun lens => (b, lens, i + 1)
      else if entry >>> 16 = 16 then
        if i = 0 then .error .corruptData
        else if b.left < 2 then .error .insufficientData
        else
          match lens[i - 1]? with
          | none => .error .panic
          | some v => (fillLens lens i 6 v).map fun lens => ((b.get 2).2, lens, i + (3 + (b.get 2).1))
      else if entry >>> 16 = 17 then
        if b.left < 3 then .error .insufficientData
        else (fillLens lens i 10 0).map fun lens => ((b.get 3).2, lens, i + (3 + (b.get 3).1))
      else
        if b.left < 7 then .error .insufficientData
        else (fillLens lens i (11 + (b.get 7).1) 0).map fun lens => ((b.get 7).2, lens, i + (11 + (b.get 7).1))

/-- The loop over the code lengths (decoder.rs:1193-1281).  Each pass uses one unit of `fuel`; there are at most `total` of them. -/
def lensLoop (table : List Nat) (total : Nat) : Nat → Bits → List Nat → Nat → Except Err (Bits × List Nat)
  | 0, _, _, _ => .error .fuel
  | fuel + 1, b, lens, i =>
    if i ≥ total then .ok (b, lens)
    else
      match lensStep table b lens i with
      | .error e => .error e
      | .ok (b, lens, i) => lensLoop table total fuel b lens i

/-- The header of a dynamic block (decoder.rs:1138-1281): reader, code lengths, and the numbers of literal/length and offset symbols. -/
def dynamicLens (b : Bits) : Except Err (Bits × List Nat × Nat × Nat) :=
  if b.left < 5 + 5 + 4 then .error .insufficientData
  else
    let r1 := b.get 5
    let r2 := r1.2.get 5
    let r3 := r2.2.get 4
    let hlit := 257 + r1.1
    let hdist := 1 + r2.1
    let n := 4 + r3.1
    let b := r3.2.refill
    if b.left < 3 then .error .insufficientData
    else
      let r := b.get 3
      let lens := (List.replicate 19 0).set 16 r.1
      let b := r.2.refill
      if b.left < 3 * (n - 1) then .error .insufficientData
      else
        let r := precodeLens b (precodeOrder.tail.take (n - 1)) lens
        match buildTable r.2 precodeResults 128 7 with
        | .error e => .error e
        | .ok table =>
          match lensLoop table (hlit + hdist) (hlit + hdist + 1) r.1 (List.replicate (288 + 32 + 137) 0) 0 with
          | .error e => .error e
          | .ok (b, lens) => .ok (b, lens, hlit, hdist)

/-- The lengths of a static block (decoder.rs:1289-1293). -/
def staticAll : List Nat :=
  List.replicate 144 8 ++ List.replicate 112 9 ++ List.replicate 24 7 ++ List.replicate 8 8 ++ List.replicate 169 5

/-- What the decoder keeps from block to block (decoder.rs:34-37, 153-161): its tables and whether they are the static ones.  `junk` gives, for
    the `n`-th Huffman block, what the output vector holds behind the bytes written (it comes from the size hint and from the slack of earlier
    blocks); the theorems hold for every `junk`. -/
structure Tables where
  litlen : List Nat
  offset : List Nat
  static : Bool
  junk : Nat → List UInt8
  count : Nat

/-- Building both tables (decoder.rs:1298-1318). -/
def bothTables (st : Tables) (lens : List Nat) (nl no : Nat) : Except Err Tables :=
  match buildTable ((lens.drop nl).take no) offsetResults 512 8 with
  | .error e => .error e
  | .ok offset =>
    match buildTable (lens.take nl) litlenResults 2342 11 with
    | .error e => .error e
    | .ok litlen => .ok { st with litlen := litlen, offset := offset }

/-- `build_decode_table` (decoder.rs:1125-1321). -/
def decodeTables (st : Tables) (ty : Nat) (b : Bits) : Except Err (Tables × Bits) :=
  if ty = 2 then
    match dynamicLens b with
    | .error e => .error e
    | .ok (b, lens, nl, no) => (bothTables { st with static := false } lens nl no).map (·, b)
  else if st.static then .ok (st, b)
  else (bothTables { st with static := true } staticAll 288 32).map (·, b)

/-! ### Copies -/

/-- `dest.copy_within(s..s + n, d)` (utils.rs:36); out of bounds is a panic. -/
def copyWithin (buf : List UInt8) (s d n : Nat) : Except Err (List UInt8) :=
  if s + n ≤ buf.length ∧ d + n ≤ buf.length then .ok (buf.take d ++ (buf.drop s).take n ++ buf.drop (d + n)) else .error .panic

/-- The loop over windows in `copy_rep_matches` (utils.rs:58-65): byte `s` goes to `d`, then the next one, `n` times. -/
def repCopy (buf : List UInt8) (s d : Nat) : Nat → List UInt8
  | 0 => buf
  | n + 1 => repCopy (match buf[s]? with | some x => buf.set d x | none => buf) (s + 1) (d + 1) n

/-- `copy_rep_matches` (utils.rs:40-66).  The slice has `d + length + 2 - s` bytes and so `length + 2` windows of `d - s + 1`; out of bounds
    is a panic. -/
def copyRep (buf : List UInt8) (s d length : Nat) : Except Err (List UInt8) :=
  if d + length + 2 ≤ buf.length then .ok (repCopy buf s d (length + 2)) else .error .panic

/-- `out_block[d..e].fill(out_block[s])` (decoder.rs:893-894); out of bounds is a panic. -/
def fillBuf (buf : List UInt8) (s d n : Nat) : Except Err (List UInt8) :=
  match buf[s]? with
  | none => .error .panic
  | some x => if d + n ≤ buf.length then .ok (buf.take d ++ List.replicate n x ++ buf.drop (d + n)) else .error .panic

/-- The loop over repeated copies (decoder.rs:913-926).  With `offset = 0` the loop would not end; no table holds such an offset. -/
def repLoop (buf : List UInt8) (s d offset stop : Nat) : Except Err (List UInt8) :=
  if _h : 0 < offset then
    match copyWithin buf s d 16 with
    | .error e => .error e
    | .ok buf => if d + offset > stop then .ok buf else repLoop buf (s + offset) (d + offset) offset stop
  else .error .fuel
termination_by stop + 1 - d

/-- The loop over chunks (decoder.rs:944-962). -/
def chunkLoop (buf : List UInt8) (s d stop : Nat) : Except Err (List UInt8) :=
  match copyWithin buf s d 16 with
  | .error e => .error e
  | .ok buf => if d + 16 > stop then .ok buf else chunkLoop buf (s + 16) (d + 16) stop
termination_by stop + 1 - d

/-- The copy of the fast loop (decoder.rs:883-963): 16 bytes in any case, then what is missing. -/
def fastCopy (buf : List UInt8) (dest offset length : Nat) : Except Err (List UInt8) :=
  match copyWithin buf (dest - offset) dest 16 with
  | .error e => .error e
  | .ok buf =>
    if offset = 1 then fillBuf buf (dest - offset) dest length
    else if offset ≤ 16 ∧ dest + offset < dest + length then repLoop buf (dest - offset + offset) (dest + offset) offset (dest + length)
    else if length > 16 then chunkLoop buf (dest - offset + 16) (dest + 16) (dest + length)
    else .ok buf

/-- The copy of the careful loop (decoder.rs:1073-1082), on a vector that was made long enough (lines 1049-1052). -/
def slowCopy (buf : List UInt8) (dest offset length : Nat) : Except Err (List UInt8) :=
  if dest - offset + length + 16 > dest then copyRep buf (dest - offset) dest length
  else
    if dest + length ≤ buf.length then
      .ok (buf.take dest ++ (buf.drop (dest - offset)).take length ++ buf.drop (dest + length))
    else .error .panic

/-! ### Loops -/

/-- Base value and extra bits of a length or an offset (decoder.rs:843-847, 861-864, 1031-1033, 1055-1058) from an entry and the bit buffer it
    was read from. -/
def entryValue (entry saved : Nat) : Nat := (entry >>> 16) + ((saved &&& (2 ^ (entry % 256) - 1)) >>> ((entry >>> 8) % 256))

/-- The vector after `resize_and_push` (decoder.rs:1634-1640). -/
def pushByte (buf : List UInt8) (dest : Nat) (x : UInt8) : Except Err (List UInt8) :=
  let buf := if buf.length ≤ dest then buf ++ List.replicate 4096 0 else buf
  if dest < buf.length then .ok (buf.set dest x) else .error .panic

/-- What one pass of a loop (decoder.rs:698-981, 988-1095) leads to: the end of the block, the careful loop, or another pass with the entry that was preloaded (the careful
    loop preloads none). -/
inductive Step where
  | done (b : Bits) (buf : List UInt8) (dest : Nat)
  | slow (b : Bits) (buf : List UInt8) (dest : Nat)
  | more (b : Bits) (entry : Nat) (buf : List UInt8) (dest : Nat)

/-- The entry of an offset and the reader that stands before its bits (decoder.rs:842, 850-856, 1037-1046); `none` is an index out of bounds. -/
def offsetEntry (ol : List Nat) (b : Bits) : Option (Nat × Bits) :=
  match ol[b.peek 8]? with
  | none => none
  | some e =>
    if e.testBit 15 then (ol[((e >>> 16) + (b.drop 8).peek ((e >>> 8) &&& 0x3f)) &&& 511]?).map (·, b.drop 8) else some (e, b)

/-- The end of a pass of the fast loop (decoder.rs:840-980): a length entry and the bit buffer it was read from. -/
def fastMatch (o : Options) (ll ol : List Nat) (entry saved : Nat) (b : Bits) (buf : List UInt8) (dest : Nat) : Except Err Step :=
  let length := entryValue entry saved
  match offsetEntry ol b with
  | none => .error .panic
  | some (e, b) =>
    let offset := entryValue e b.buf
    let b := b.drop (e % 256)
    if offset > dest then .error .corruptData
    else
      let b := if b.left < 11 then b.refillInner else b
      match ll[b.peek 11]? with
      | none => .error .panic
      | some next =>
        match fastCopy buf dest offset length with
        | .error e => .error e
        | .ok buf =>
          if dest + length > o.limit then .error .outputLimitExceeded
          else if b.src.length < b.pos + 8 then .ok (.slow b buf (dest + length))
          else .ok (.more b next buf (dest + length))

/-- The middle of a pass of the fast loop (decoder.rs:786-825): an entry that is no literal of the first table. -/
def fastOther (o : Options) (ll ol : List Nat) (entry saved : Nat) (b : Bits) (buf : List UInt8) (dest : Nat) : Except Err Step :=
  if entry.testBit 15 then
    if entry.testBit 13 then .ok (.done b buf dest)
    else
      match ll[min ((entry >>> 16) + b.peek ((entry >>> 8) &&& 0x3f)) 2341]? with
      | none => .error .panic
      | some e =>
        let b1 := b.drop (e % 256)
        if e.testBit 31 then
          match ll[b1.peek 11]? with
          | none => .error .panic
          | some next => .ok (.more b1 next (buf.set dest (UInt8.ofNat (e >>> 16))) (dest + 1))
        else if e.testBit 13 then .ok (.done b1 buf dest)
        else fastMatch o ll ol e b.buf b1 buf dest
  else fastMatch o ll ol entry saved b buf dest

/-- One pass of the fast loop (decoder.rs:698-981). -/
def fastStep (o : Options) (ll ol : List Nat) (b : Bits) (entry : Nat) (buf : List UInt8) (dest : Nat) : Except Err Step :=
  let buf := if dest + 296 > buf.length then buf ++ List.replicate (296 + 4096) 0 else buf
  if b.src.length < b.pos + 8 then .ok (.slow b buf dest)
  else
    let b0 := b.refillInner
    let b1 := b0.drop (entry % 256)
    if entry.testBit 31 then
      match ll[b1.peek 11]? with
      | none => .error .panic
      | some e =>
        let b2 := b1.drop (e % 256)
        if buf.length < dest + 2 then .error .panic
        else
          let buf := buf.set dest (UInt8.ofNat (entry >>> 16))
          if e.testBit 31 then
            match ll[b2.peek 11]? with
            | none => .error .panic
            | some next => .ok (.more b2 next (buf.set (dest + 1) (UInt8.ofNat (e >>> 16))) (dest + 2))
          else fastOther o ll ol e b1.buf b2 buf (dest + 1)
    else fastOther o ll ol entry b0.buf b1 buf dest

/-- The fast loop (decoder.rs:698-981), up to the end of the block or to where the careful loop takes over.  Each pass uses one unit of
    `fuel`. -/
def fastLoop (o : Options) (ll ol : List Nat) : Nat → Bits → Nat → List UInt8 → Nat → Except Err Step
  | 0, _, _, _, _ => .error .fuel
  | fuel + 1, b, entry, buf, dest =>
    match fastStep o ll ol b entry buf dest with
    | .error e => .error e
    | .ok (.more b entry buf dest) => fastLoop o ll ol fuel b entry buf dest
    | .ok s => .ok s

/-- A pass of the careful loop from the entry of the symbol on (decoder.rs:1017-1094).  The entry of the result is not used. -/
def slowTail (o : Options) (ol : List Nat) (e saved : Nat) (b : Bits) (buf : List UInt8) (dest : Nat) : Except Err Step :=
  if e.testBit 31 then (pushByte buf dest (UInt8.ofNat (e >>> 16))).map fun buf => .more b 0 buf (dest + 1)
  else if e.testBit 13 then .ok (.done b buf dest)
  else
    let length := entryValue e saved
    match offsetEntry ol b.refill with
    | none => .error .panic
    | some (f, b) =>
      let buf := if dest + length + 16 > buf.length then buf ++ List.replicate (4096 + length) 0 else buf
      let offset := entryValue f b.buf
      if offset > dest then .error .corruptData
      else
        match slowCopy buf dest offset length with
        | .error e => .error e
        | .ok buf =>
          if dest + length > o.limit then .error .outputLimitExceeded
          else .ok (.more (b.drop (f % 256)) 0 buf (dest + length))

/-- One pass of the careful loop (decoder.rs:988-1095). -/
def slowStep (o : Options) (ll ol : List Nat) (b : Bits) (buf : List UInt8) (dest : Nat) : Except Err Step :=
  let b0 := b.refill
  if b0.over > b0.left >>> 3 then .error .corruptData
  else
    match ll[b0.peek 11]? with
    | none => .error .panic
    | some e0 =>
      let b1 := b0.drop (e0 % 256)
      if e0.testBit 14 then
        match ll[(e0 >>> 16) + b1.peek ((e0 >>> 8) &&& 0x3f)]? with
        | none => .error .panic
        | some e => slowTail o ol e b1.buf (b1.drop (e % 256)) buf dest
      else slowTail o ol e0 b0.buf b1 buf dest

/-- The careful loop (decoder.rs:988-1095), to the end of the block.  Each pass uses one unit of `fuel`. -/
def slowLoop (o : Options) (ll ol : List Nat) : Nat → Bits → List UInt8 → Nat → Except Err (Bits × List UInt8 × Nat)
  | 0, _, _, _ => .error .fuel
  | fuel + 1, b, buf, dest =>
    match slowStep o ll ol b buf dest with
    | .error e => .error e
    | .ok (.more b _ buf dest) => slowLoop o ll ol fuel b buf dest
    | .ok (.done b buf dest) => .ok (b, buf, dest)
    | .ok (.slow b buf dest) => .ok (b, buf, dest)

/-- The body of a Huffman block (decoder.rs:688-1096). -/
def body (o : Options) (ll ol : List Nat) (fuel : Nat) (b : Bits) (buf : List UInt8) (dest : Nat) : Except Err (Bits × List UInt8 × Nat) :=
  if 3 * 16 < b.remaining then
    let b := b.refillInner
    match ll[b.peek 11]? with
    | none => .error .panic
    | some entry =>
      match fastLoop o ll ol fuel b entry buf dest with
      | .error e => .error e
      | .ok (.done b buf dest) => .ok (b, buf, dest)
      | .ok (.slow b buf dest) => slowLoop o ll ol fuel b buf dest
      | .ok (.more _ _ _ _) => .error .panic
  else slowLoop o ll ol fuel b buf dest

/-- A Huffman block (decoder.rs:655-1096) as the block loop wants it: the bytes written, without what the vector holds behind them. -/
def huffBlock (o : Options) (fuel : Nat) (st : Tables) (ty : Nat) (b : Bits) (out : List UInt8) : Except Err (Tables × Bits × List UInt8) :=
  match decodeTables st ty b with
  | .error e => .error e
  | .ok (st, b) =>
    match body o st.litlen st.offset fuel b (out ++ st.junk st.count) out.length with
    | .error e => .error e
    | .ok (b, buf, dest) => .ok ({ st with count := st.count + 1 }, b, buf.take dest)

/-- The decoder's state at the start (decoder.rs:215-226): empty tables. -/
def Tables.start (junk : Nat → List UInt8) : Tables :=
  { litlen := List.replicate 2342 0, offset := List.replicate 512 0, static := false, junk := junk, count := 0 }

end Zune.Inflate
