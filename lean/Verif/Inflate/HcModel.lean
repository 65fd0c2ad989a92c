import Verif.Common.Bytes

/-!
# zune-inflate: the hash chain match finder (model)

Model of `crates/zune-inflate/src/encoder/hc_matchfinder.rs`, of `v_hash` and of `EncodedSequences::add` in `encoder.rs`.  (The deflate
encoder does not call the match finder yet.)

A panic (index out of range, overflow, failed assertion or debug assertion) is the value `none`.  `usize` has 64 bits, little endian.
-/

namespace Zune.Inflate.Hc

open Zune

/-- `MatchSequence` (encoder.rs:20-26). -/
structure Sequence where
  start : Nat
  ll : Nat
  ml : Nat
  ol : Nat
  deriving DecidableEq

/-- The limits of `HcMatchFinder::new` (hc_matchfinder.rs:144-146, 151-164). -/
structure Params where
  depth : Int
  minLen : Nat
  nice : Nat

/-- The tables of `HcMatchFinder` (hc_matchfinder.rs:141-143): `next_hash[1]`, `hc_tab`, `next_tab`. (Simplified: `next_hash[0]`, which is never
read, is left out; the two arrays are functions of the index, which the code always reduces modulo their lengths.) -/
structure Tables where
  hash : Nat
  head : Nat → Nat
  next : Nat → Nat

/-- Assignment to an array (hc_matchfinder.rs:187-188, 286-287). -/
def store (f : Nat → Nat) (i v : Nat) : Nat → Nat := fun j => if j = i then v else f j

/-- `HASH_FOUR_SIZE` (hc_matchfinder.rs:73-76). -/
abbrev hashSize : Nat := 2 ^ 17

/-- `DEFLATE_MAX_BLOCK_SIZE` (constants.rs:166). -/
abbrev maxBlock : Nat := 2 ^ 15

/-- `v_hash` with 17 bits (encoder.rs:244-274). Lengths other than 4, 5, 6 fail the debug assertion of line 270. -/
def vHash (bytes : List UInt8) (minLen : Nat) : Option Nat :=
  if minLen = 4 then
    if 4 ≤ bytes.length then some (leVal (bytes.take 4) * 2654435761 % 2 ^ 32 / 2 ^ (32 - 17)) else none
  else if minLen = 5 then
    if 8 ≤ bytes.length then some (leVal (bytes.take 8) * 2 ^ (64 - 40) % 2 ^ 64 * 889523592379 % 2 ^ 64 / 2 ^ (64 - 17)) else none
  else if minLen = 6 then
    if 8 ≤ bytes.length then some (leVal (bytes.take 8) * 2 ^ (64 - 40) % 2 ^ 64 * 227718039650203 % 2 ^ 64 / 2 ^ (64 - 17)) else none
  else none

/-- `usize::trailing_zeros` (hc_matchfinder.rs:333), looking at the given number of bits. -/
def trailing : Nat → Nat → Nat
  | 0, _ => 0
  | k + 1, x => if x % 2 = 1 then 0 else 1 + trailing k (x / 2)

/-- The loop of `count` (hc_matchfinder.rs:318-336). -/
def countLoop : Nat → List UInt8 → List UInt8 → Nat
  | 0, _, _ => 0
  | k + 1, w, m =>
    if 8 ≤ w.length ∧ 8 ≤ m.length then
      let diff := leVal (w.take 8) ^^^ leVal (m.take 8)
      if diff = 0 then 8 + countLoop k (w.drop 8) (m.drop 8) else trailing 64 diff / 2 ^ 3
    else 0

/-- `count` (hc_matchfinder.rs:302-352). -/
def count (w m : List UInt8) (max : Nat) : Nat := countLoop (max / 8 - 1) w m

/-- The loop `'inner` of `longest_four_match` (hc_matchfinder.rs:208-229): the next candidate whose first byte is that of the current
position, with the depth left. `some none` leaves the loop `'outer`. The fuel is the depth, which is positive and decreases. -/
def skip (next : Nat → Nat) (byte : Nat) : Nat → Nat → Nat → Int → Option (Option (Nat × Int))
  | 0, _, _, _ => none
  | fuel + 1, off, first, depth =>
    if first = byte then some (some (off, depth - 1))
    else
      let e := next (off % maxBlock)
      if depth - 1 ≤ 0 ∨ e % 2 ^ 24 = 0 then some none
      else skip next byte fuel (e % 2 ^ 24) (e / 2 ^ 24) (depth - 1)

/-- The test with the byte after the previous match (hc_matchfinder.rs:230-247): `some true` to go on with `extend`. -/
def maybeLonger (bytes : List UInt8) (start off : Nat) (found : Bool) (s : Sequence) : Option Bool :=
  if found then
    match bytes[off + s.ml]?, (bytes.drop start)[s.ml]? with
    | some a, some b => some (a == b)
    | _, _ => none
  else some true

/-- The loop `'outer` of `longest_four_match` (hc_matchfinder.rs:204-272). The fuel is the depth. -/
def chain (p : Params) (next : Nat → Nat) (bytes : List UInt8) (start lits byte : Nat) :
    Nat → Nat → Nat → Int → Bool → Sequence → Option (Bool × Sequence)
  | 0, _, _, _, _, _ => none
  | fuel + 1, off, first, depth, found, s =>
    if off = 0 ∨ depth ≤ 0 then some (found, s)
    else
      match skip next byte depth.toNat off first depth with
      | none => none
      | some none => some (found, s)
      | some (some (off, depth)) =>
        let e := next (off % maxBlock)
        match maybeLonger bytes start off found s with
        | none => none
        | some false => chain p next bytes start lits byte fuel (e % 2 ^ 24) (e / 2 ^ 24) (depth - 1) found s
        | some true =>
          if bytes.length < off ∨ start < off then none
          else
            let n := count (bytes.drop off) (bytes.drop start) 258
            if p.minLen ≤ n ∧ s.ml < n ∧ 3 < start - off then
              if start < lits then none
              else
                let s := { s with ml := n, ol := start - off, start := start - lits }
                if p.nice < n then some (true, s)
                else chain p next bytes start lits byte fuel (e % 2 ^ 24) (e / 2 ^ 24) (depth - 1) true s
            else chain p next bytes start lits byte fuel (e % 2 ^ 24) (e / 2 ^ 24) (depth - 1) found s

/-- An entry of the tables (hc_matchfinder.rs:179, 187, 284, 287): `curr_byte | start as u32`. -/
def entry (byte : UInt8) (start : Nat) : Nat := (byte.toNat * 2 ^ 24) ||| start % 2 ^ 32

/-- `longest_four_match` (hc_matchfinder.rs:171-275). -/
def longest (p : Params) (t : Tables) (bytes : List UInt8) (start lits : Nat) (s : Sequence) : Option (Tables × Bool × Sequence) :=
  match bytes[start]? with
  | none => none
  | some byte =>
    let cur := t.head (t.hash % hashSize)
    let head := store t.head (t.hash % hashSize) (entry byte start)
    let next := store t.next (start % maxBlock) cur
    match vHash (bytes.drop (start + 1)) p.minLen with
    | none => none
    | some h =>
      let t : Tables := ⟨h, head, next⟩
      if cur = 0 then some (t, false, s)
      else (chain p next bytes start lits byte.toNat (p.depth.toNat + 1) (cur % 2 ^ 24) (cur / 2 ^ 24) p.depth false s).map fun r => (t, r)

/-- The loop of `advance_four_match` (hc_matchfinder.rs:281-296), for `length` positions. (Simplified: the body of the code's loop comes before
its test, so that a length of 0 would overflow; `advance` has that case.) -/
def advanceLoop (minLen : Nat) (bytes : List UInt8) : Nat → Nat → Tables → Option Tables
  | 0, _, t => some t
  | n + 1, start, t =>
    match bytes[start]?, vHash (bytes.drop (start + 1)) minLen with
    | some byte, some h =>
      advanceLoop minLen bytes n (start + 1) ⟨h, store t.head (t.hash % hashSize) (entry byte start),
        store t.next (start % maxBlock) (t.head (t.hash % hashSize))⟩
    | _, _ => none

/-- `advance_four_match` (hc_matchfinder.rs:278-299). -/
def advance (minLen : Nat) (bytes : List UInt8) (start length : Nat) (t : Tables) : Option Tables :=
  if start + length + 100 < bytes.length then
    if length = 0 then none else advanceLoop minLen bytes length start t
  else some t

/-- The end of `compress_block` (hc_matchfinder.rs:121-137): a sequence with the last literals and a match that means nothing, then the check
that the lengths add up. -/
def finish (src : List UInt8) (ws lits compressed : Nat) (s : Sequence) (acc : List Sequence) : Option (List Sequence) :=
  if s.ml = 0 then
    let ll := ((src.length + (2 ^ 64 - ws)) % 2 ^ 64 + lits) % 2 ^ 64
    if src.length < ll then none
    else if compressed + ll = src.length then some (acc ++ [⟨src.length - ll, ll, 3, 10⟩])
    else none
  else none

/-- The loops of `compress_block` (hc_matchfinder.rs:90-120). (Simplified: the two nested loops are one; the test at the end of the outer one,
lines 116-119, is that at the beginning of the inner one.) The fuel is the number of bytes left, plus one. -/
def matchLoop (p : Params) (src : List UInt8) : Nat → Tables → Nat → Nat → Nat → Sequence → List Sequence → Option (List Sequence)
  | 0, _, _, _, _, _, _ => none
  | fuel + 1, t, ws, lits, compressed, s, acc =>
    if src.length < ws + 1 + 10 then finish src ws lits compressed s acc
    else
      match longest p t src ws lits s with
      | none => none
      | some (t, false, s) => matchLoop p src fuel t (ws + 1) (lits + 1) compressed s acc
      | some (t, true, s) =>
        match advance p.minLen src ws s.ml t with
        | none => none
        | some t => matchLoop p src fuel t (ws + s.ml) 0 (compressed + (lits + s.ml)) { s with ll := lits, ml := 0 } (acc ++ [{ s with ll := lits }])

/-- `compress_block` (hc_matchfinder.rs:80-138) on tables after `new` or `reset` (lines 151-169), which leave in `next_tab` what was there: the
sequences given to `EncodedSequences::add` (encoder.rs:52-58), in order. -/
def compressBlock (p : Params) (stale : Nat → Nat) (src : List UInt8) : Option (List Sequence) :=
  matchLoop p src (src.length + 1) ⟨0, fun _ => 0, stale⟩ 0 0 0 ⟨0, 0, 0, 0⟩ []

/-- `EncodedSequences::add` (encoder.rs:52-58) on one of its three arrays, of 10922 places; the position is the number of sequences before. -/
def addSeq (a : Nat → Nat) (pos v : Nat) : Nat → Nat := store a (pos % (maxBlock / 3)) (v % 2 ^ 32)

/-- The calls of `add` (hc_matchfinder.rs:108, 132) for one array of `EncodedSequences`, from the position `pos` on. -/
def addAll : Nat → List Nat → (Nat → Nat) → Nat → Nat
  | _, [], a => a
  | pos, v :: l, a => addAll (pos + 1) l (addSeq a pos v)

end Zune.Inflate.Hc
