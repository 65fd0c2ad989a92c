/-
Model of `crates/zune-core/src/bytestream`: the in-memory cursor, the reader built on it and the writer.

Simplifications: `usize`/`u64` positions are natural numbers (no wrap-around at 2^64 except where
`checked_add_signed` tests for it); errors carry no message.
-/
import Verif.Common.Bytes

namespace Zune.Bytestream

/-- One more than `usize::MAX` on the modelled 64-bit target. -/
def usizeLim : Nat := 2 ^ 64

/-- `ZCursor` (zune-core/src/bytestream/reader/no_std_readers.rs:9-12). -/
structure Cursor where
  data : List UInt8
  pos : Nat
deriving DecidableEq, Repr

/-- `ZByteIoError` (reader.rs:50-68), payloads dropped. -/
inductive IoErr where
  | notEnoughBytes | generic | seek
deriving DecidableEq, Repr

/-- A fallible operation returns its result and the cursor it leaves behind. -/
abbrev Res (α : Type) := Except IoErr α × Cursor

/-- Bytes not read yet. -/
def Cursor.rest (c : Cursor) : List UInt8 := c.data.drop c.pos

/-- `ZCursor::new` (no_std_readers.rs:15-20). -/
def Cursor.new (d : List UInt8) : Cursor := ⟨d, 0⟩

/-- `ZCursor::skip` (no_std_readers.rs:31-34). -/
def Cursor.skip (c : Cursor) (n : Nat) : Cursor := { c with pos := c.pos + n }

/-- `ZCursor::rewind`, saturating (no_std_readers.rs:41-43). -/
def Cursor.rewind (c : Cursor) (n : Nat) : Cursor := { c with pos := c.pos - n }

/-- `peek_bytes_impl` (no_std_readers.rs:105-116): the slice between the two clamped offsets. -/
def Cursor.peekBytes (c : Cursor) (n : Nat) : List UInt8 :=
  (c.data.take (min (c.pos + n) c.data.length)).drop (min c.pos c.data.length)

/-- `read_bytes_impl` (no_std_readers.rs:98-102), also `Read::read` (std_readers.rs:102-107). -/
def Cursor.readBytes (c : Cursor) (n : Nat) : List UInt8 × Cursor :=
  let s := c.peekBytes n
  (s, c.skip s.length)

/-- `ZSeekFrom` (reader.rs:17-34). -/
inductive SeekFrom where
  | start (n : Nat) | fromEnd (n : Int) | current (n : Int)
deriving DecidableEq, Repr

/-- `z_seek_impl` (no_std_readers.rs:126-142) and `Seek::seek` (std_readers.rs:119-140):
    `checked_add_signed` fails below zero or above `usize::MAX`. -/
def Cursor.seek (c : Cursor) : SeekFrom → Res Nat
  | .start n => (.ok n, { c with pos := n })
  | .fromEnd o =>
    let t := (c.data.length : Int) + o
    if 0 ≤ t ∧ t < (usizeLim : Int) then (.ok t.toNat, { c with pos := t.toNat }) else (.error .seek, c)
  | .current o =>
    let t := (c.pos : Int) + o
    if 0 ≤ t ∧ t < (usizeLim : Int) then (.ok t.toNat, { c with pos := t.toNat }) else (.error .seek, c)

/-! ### `std` flavour of the reader trait (std_readers.rs) -/

/-- `read_byte_no_error` (std_readers.rs:11-15). -/
def Cursor.readU8 (c : Cursor) : UInt8 × Cursor :=
  let (s, c') := c.readBytes 1
  ((s[0]?).getD 0, c')

/-- Loop of `read_exact_bytes` (std_readers.rs:17-41); `acc` holds the bytes read so far, `n` is what is
    still missing.  On failure returns the bytes which were already stored in the caller's buffer. -/
def Cursor.readExactLoop (c : Cursor) (acc : List UInt8) (n : Nat) : (Except (IoErr × List UInt8) (List UInt8)) × Cursor :=
  if hn : n = 0 then (.ok acc, c)
  else
    let s := c.peekBytes n
    let c' := (c.readBytes n).2
    if hs : s.length = 0 then
      match c'.seek (.current (-(acc.length : Int))) with
      | (.ok _, c'') => (.error (.notEnoughBytes, acc), c'')
      | (.error e, c'') => (.error (e, acc), c'')
    else c'.readExactLoop (acc ++ s) (n - s.length)
termination_by n
decreasing_by exact Nat.sub_lt (Nat.pos_of_ne_zero hn) (Nat.pos_of_ne_zero hs)

/-- `read_exact_bytes` (std_readers.rs:17-41) = `read_fixed_bytes_or_error::<n>` (reader.rs:268-274). -/
def Cursor.readExact (c : Cursor) (n : Nat) : Res (List UInt8) :=
  match c.readExactLoop [] n with
  | (.ok l, c') => (.ok l, c')
  | (.error (e, _), c') => (.error e, c')

/-- `read_fixed_bytes_or_zero::<n>` (reader.rs:280-284) over `read_const_bytes_no_error`
    (std_readers.rs:48-50): on failure the zero-initialised buffer keeps the bytes stored before the failure. -/
def Cursor.readOrZero (c : Cursor) (n : Nat) : List UInt8 × Cursor :=
  match c.readExactLoop [] n with
  | (.ok l, c') => (l, c')
  | (.error (_, part), c') => (part ++ List.replicate (n - part.length) 0, c')

/-- `read_u8_err` (reader.rs:217-221). -/
def Cursor.readU8Err (c : Cursor) : Res UInt8 :=
  match c.readExact 1 with
  | (.ok l, c') => (.ok ((l[0]?).getD 0), c')
  | (.error e, c') => (.error e, c')

/-- `peek_exact_bytes` (std_readers.rs:69-77). -/
def Cursor.peekExact (c : Cursor) (n : Nat) : Res (List UInt8) :=
  match c.readExact n with
  | (.error e, c') => (.error e, c')
  | (.ok l, c') =>
    match c'.seek (.current (-(n : Int))) with
    | (.ok _, c'') => (.ok l, c'')
    | (.error e, c'') => (.error e, c'')

/-- `ZReader::peek_at` (reader.rs:230-255). -/
def Cursor.peekAt (c : Cursor) (position num : Nat) : Res (List UInt8) :=
  match (if position ≠ 0 then c.seek (.current position) else (.ok c.pos, c)) with
  | (.error e, c1) => (.error e, c1)
  | (.ok _, c1) =>
    if num > 20 * 1024 * 1024 then (.error .generic, c1)
    else
      match c1.peekExact num with
      | (.error e, c2) => (.error e, c2)
      | (.ok l, c2) =>
        if position ≠ 0 then
          match c2.seek (.current (-(position : Int))) with
          | (.error e, c3) => (.error e, c3)
          | (.ok _, c3) => (.ok l, c3)
        else (.ok l, c2)

/-- `is_eof` for `ZCursor` (std_readers.rs:85-89 over `split`, no_std_readers.rs:45-49). -/
def Cursor.eof (c : Cursor) : Bool := (c.data.drop (min c.pos c.data.length)).isEmpty

/-- Endianness selector (`Mode`, reader.rs:352-357). -/
inductive Endian where | be | le
deriving DecidableEq, Repr

/-- `from_be_bytes` / `from_le_bytes` (reader.rs:371-374). -/
def Endian.dec : Endian → List UInt8 → Nat
  | .be, l => beVal l
  | .le, l => leVal l

/-- `to_be_bytes` / `to_le_bytes` (writer.rs:175-179). -/
def Endian.enc : Endian → Nat → Nat → List UInt8
  | .be, k, v => beBytes k v
  | .le, k, v => leBytes k v

/-- Integer getters with error (`get_u16_be_err` ... , macro at reader.rs:358-424); `k` is the size in bytes. -/
def Cursor.getIntErr (c : Cursor) (e : Endian) (k : Nat) : Res Nat :=
  match c.readExact k with
  | (.ok l, c') => (.ok (e.dec l), c')
  | (.error er, c') => (.error er, c')

/-- Integer getters defaulting on failure (`get_u32_be` ..., macro at reader.rs:358-424). -/
def Cursor.getInt (c : Cursor) (e : Endian) (k : Nat) : Nat × Cursor :=
  let (l, c') := c.readOrZero k
  (e.dec l, c')

/-! ### `no_std` flavour (zcursor_no_std.rs over no_std_readers.rs) -/

/-- `read_byte_no_error_impl` (no_std_readers.rs:54-58): advances even at the end of the data. -/
def Cursor.readU8NoStd (c : Cursor) : UInt8 × Cursor := ((c.data[c.pos]?).getD 0, c.skip 1)

/-- `read_const_bytes_impl` (no_std_readers.rs:71-83). -/
def Cursor.readConstNoStd (c : Cursor) (n : Nat) : Res (List UInt8) :=
  if c.pos + n ≤ c.data.length then (.ok ((c.data.drop c.pos).take n), c.skip n)
  else (.error .generic, c)

/-- `read_const_bytes_no_error_impl` (no_std_readers.rs:85-95), zero initialised buffer. -/
def Cursor.readOrZeroNoStd (c : Cursor) (n : Nat) : List UInt8 × Cursor :=
  if c.pos + n ≤ c.data.length then ((c.data.drop c.pos).take n, c.skip n)
  else (List.replicate n 0, c)

/-- `read_exact_bytes_impl` (no_std_readers.rs:60-69). -/
def Cursor.readExactNoStd (c : Cursor) (n : Nat) : Res (List UInt8) :=
  let (s, c') := c.readBytes n
  if s.length ≠ n then (.error .notEnoughBytes, c'.rewind s.length) else (.ok s, c')

/-! ### Writer (writer.rs) -/

/-- `ZWriter` over a sink of limited or unlimited capacity (writer.rs:22-25; sinks: writer/no_std_writer.rs:6-46
    for `&mut [u8]`, :48-70 for `Vec<u8>`, `room = none`). -/
structure Writer where
  out : List UInt8
  room : Option Nat
  written : Nat
deriving DecidableEq, Repr

/-- `ZWriter::new` (writer.rs:67-72). -/
def Writer.new (room : Option Nat) : Writer := ⟨[], room, 0⟩

/-- `write_all` / `write_const_bytes` (writer.rs:57-61, 101-107) on the sinks of no_std_writer.rs:16-37,54-62. -/
def Writer.writeAll (w : Writer) (b : List UInt8) : Except IoErr Unit × Writer :=
  match w.room with
  | none => (.ok (), ⟨w.out ++ b, none, w.written + b.length⟩)
  | some r =>
    if b.length > r then (.error .notEnoughBytes, w)
    else (.ok (), ⟨w.out ++ b, some (r - b.length), w.written + b.length⟩)

/-- `write_u8`, `write_u16_be`, ... (macro at writer.rs:163-232): integer `v` on `k` bytes. -/
def Writer.writeInt (w : Writer) (e : Endian) (k v : Nat) : Except IoErr Unit × Writer :=
  w.writeAll (e.enc k v)

end Zune.Bytestream
