/-
The view of a `ZReader` used by the models of the larger decoders: the list of bytes which have not been read yet.
Each operation is justified against the cursor model (`Bytestream/Model.lean`) by a lemma at the end of the file; these need
the position to stay below 2^64, which holds for every stream that fits in memory.
-/
import Verif.Bytestream.Lemmas

namespace Zune.Stream

/-- `read_u8` (reader.rs:205-209): zero at the end of the data. -/
def u8 : List UInt8 → UInt8 × List UInt8
  | [] => (0, [])
  | b :: s => (b, s)

/-- `read_exact_bytes` / `read_fixed_bytes_or_error::<n>` (reader.rs:257-274). -/
def exact (n : Nat) (s : List UInt8) : Option (List UInt8 × List UInt8) :=
  if n ≤ s.length then some (s.take n, s.drop n) else none

/-- `read_u8_err` (reader.rs:217-221). -/
def u8Err : List UInt8 → Option (UInt8 × List UInt8)
  | [] => none
  | b :: s => some (b, s)

/-- `get_u16_be_err`, `get_u32_be_err` (macro at reader.rs:358-424), `k` bytes. -/
def be (k : Nat) (s : List UInt8) : Option (Nat × List UInt8) := (exact k s).map fun p => (beVal p.1, p.2)

/-- `get_u16_le_err`, `get_u32_le_err` (macro at reader.rs:358-424), `k` bytes. -/
def le (k : Nat) (s : List UInt8) : Option (Nat × List UInt8) := (exact k s).map fun p => (leVal p.1, p.2)

/-- `read_fixed_bytes_or_zero::<n>` (reader.rs:280-284): a short read leaves the position alone and keeps the bytes that were
    there. -/
def orZero (n : Nat) (s : List UInt8) : List UInt8 × List UInt8 :=
  if n ≤ s.length then (s.take n, s.drop n) else (s ++ List.replicate (n - s.length) 0, s)

/-- `skip` (reader.rs:161-163); seeking past the end is allowed and leaves nothing to read. -/
def skip (n : Nat) (s : List UInt8) : List UInt8 := s.drop n

theorem exact_append (a s : List UInt8) : exact a.length (a ++ s) = some (a, s) := by simp [exact]

theorem u8_le (s : List UInt8) : (u8 s).2.length ≤ s.length := by cases s <;> simp [u8]

theorem be_append (k v : Nat) (s : List UInt8) (h : v < 256 ^ k) : be k (beBytes k v ++ s) = some (v, s) := by
  have := exact_append (beBytes k v) s
  rw [beBytes_length] at this
  simp [be, this, beVal_beBytes, Nat.mod_eq_of_lt h]

theorem le_append (k v : Nat) (s : List UInt8) (h : v < 256 ^ k) : le k (leBytes k v ++ s) = some (v, s) := by
  have := exact_append (leBytes k v) s
  rw [leBytes_length] at this
  simp [le, this, leVal_leBytes, Nat.mod_eq_of_lt h]

/-! ### Agreement with the cursor model -/

open Zune.Bytestream

theorem rest_pos (c : Cursor) (n : Nat) : ({ c with pos := c.pos + n } : Cursor).rest = c.rest.drop n := by
  simp [Cursor.rest, List.drop_drop]

theorem u8_refines (c : Cursor) : (c.readU8.1, c.readU8.2.rest) = u8 c.rest := by
  cases h : c.rest with
  | nil => simp [Cursor.readU8, Cursor.readBytes, Cursor.peekBytes_eq, h, u8, Cursor.skip]
  | cons b t => obtain ⟨h1, h2⟩ := Cursor.readU8_cons c b t h; rw [h1, h2]; rfl

theorem exact_refines (c : Cursor) (hv : c.Valid) (n : Nat) :
    exact n c.rest = match c.readExact n with
      | (.ok l, c') => some (l, c'.rest)
      | (.error _, _) => none := by
  unfold exact
  by_cases h : n = 0 ∨ c.pos + n ≤ c.data.length
  · rw [Cursor.readExact_ok c n h, if_pos (by simp [Cursor.rest]; omega)]
    simp only [rest_pos]
  · rw [Cursor.readExact_err c n hv (by omega) (by omega), if_neg (by simp [Cursor.rest]; omega)]

theorem be_refines (c : Cursor) (hv : c.Valid) (k : Nat) :
    be k c.rest = match c.getIntErr .be k with
      | (.ok v, c') => some (v, c'.rest)
      | (.error _, _) => none := by
  unfold be Cursor.getIntErr
  rw [exact_refines c hv k]
  rcases c.readExact k with ⟨_ | _, _⟩ <;> rfl

theorem le_refines (c : Cursor) (hv : c.Valid) (k : Nat) :
    le k c.rest = match c.getIntErr .le k with
      | (.ok v, c') => some (v, c'.rest)
      | (.error _, _) => none := by
  unfold le Cursor.getIntErr
  rw [exact_refines c hv k]
  rcases c.readExact k with ⟨_ | _, _⟩ <;> rfl

theorem orZero_refines (c : Cursor) (hv : c.Valid) (n : Nat) :
    ((c.readOrZero n).1, (c.readOrZero n).2.rest) = orZero n c.rest := by
  unfold orZero
  by_cases h : n = 0 ∨ c.pos + n ≤ c.data.length
  · rw [Cursor.readOrZero_ok c n h, if_pos (by simp [Cursor.rest]; omega)]
    simp only [rest_pos]
  · rw [if_neg (by simp [Cursor.rest]; omega)]
    simp [Cursor.readOrZero, Cursor.readExactLoop_err c n hv (by omega) (by omega)]

theorem skip_refines (c : Cursor) (n : Nat) : (c.skip n).rest = skip n c.rest := rest_pos c n

end Zune.Stream
