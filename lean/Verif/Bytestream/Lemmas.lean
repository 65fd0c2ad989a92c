/- Helper lemmas about the cursor model. -/
import Verif.Bytestream.Model

namespace Zune.Bytestream

/-- Positions and sizes representable as `usize`. -/
def Cursor.Valid (c : Cursor) : Prop := c.pos < usizeLim ∧ c.data.length < usizeLim

theorem Cursor.peekBytes_eq (c : Cursor) (n : Nat) : c.peekBytes n = c.rest.take n := by
  unfold Cursor.peekBytes Cursor.rest
  rw [List.drop_take]
  by_cases h : c.pos ≤ c.data.length
  · rw [Nat.min_eq_left h]
    by_cases h2 : c.pos + n ≤ c.data.length
    · rw [Nat.min_eq_left h2]; congr 1; omega
    · rw [Nat.min_eq_right (by omega)]
      rw [List.take_of_length_le (by simp), List.take_of_length_le (by simp; omega)]
  · rw [List.drop_eq_nil_of_le (by simp; omega), List.drop_eq_nil_of_le (by omega)]
    simp

theorem Cursor.seek_back (c : Cursor) (k : Nat) (h1 : k ≤ c.pos) (h2 : c.pos < usizeLim) :
    c.seek (.current (-(k : Int))) = (.ok (c.pos - k), { c with pos := c.pos - k }) := by
  have h3 : (c.pos : Int) + -(k : Int) = ((c.pos - k : Nat) : Int) := by omega
  have hc : (0 : Int) ≤ ((c.pos - k : Nat) : Int) ∧ ((c.pos - k : Nat) : Int) < (usizeLim : Int) := by
    constructor <;> omega
  unfold Cursor.seek
  simp only [h3]
  rw [if_pos hc]; simp

theorem Cursor.seek_fwd (c : Cursor) (k : Nat) (h2 : c.pos + k < usizeLim) :
    c.seek (.current (k : Int)) = (.ok (c.pos + k), { c with pos := c.pos + k }) := by
  have h3 : (c.pos : Int) + (k : Int) = ((c.pos + k : Nat) : Int) := by omega
  have hc : (0 : Int) ≤ ((c.pos + k : Nat) : Int) ∧ ((c.pos + k : Nat) : Int) < (usizeLim : Int) := by
    constructor <;> omega
  unfold Cursor.seek
  simp only [h3]
  rw [if_pos hc]; simp only [Int.toNat_natCast]

theorem Cursor.readExactLoop_ok (c : Cursor) (acc : List UInt8) (n : Nat)
    (h : n = 0 ∨ c.pos + n ≤ c.data.length) :
    c.readExactLoop acc n = (.ok (acc ++ c.rest.take n), { c with pos := c.pos + n }) := by
  unfold Cursor.readExactLoop
  by_cases hn : n = 0
  · subst hn; simp
  · have h : c.pos + n ≤ c.data.length := by omega
    have hl : (c.rest.take n).length = n := by
      simp [Cursor.rest]; omega
    simp only [hn, dite_false, Cursor.readBytes, Cursor.peekBytes_eq, hl, Nat.sub_self]
    unfold Cursor.readExactLoop
    simp [Cursor.skip]

theorem Cursor.readExactLoop_step (c : Cursor) (acc : List UInt8) (n : Nat) (hn : n ≠ 0)
    (hs : (c.rest.take n).length ≠ 0) :
    c.readExactLoop acc n =
      (c.skip (c.rest.take n).length).readExactLoop (acc ++ c.rest.take n) (n - (c.rest.take n).length) := by
  rw [Cursor.readExactLoop]
  simp only [hn, dite_false, Cursor.readBytes, Cursor.peekBytes_eq, hs]

theorem Cursor.readExactLoop_eof (c : Cursor) (acc : List UInt8) (n : Nat) (hn : n ≠ 0)
    (hs : c.rest = []) (h1 : acc.length ≤ c.pos) (h2 : c.pos < usizeLim) :
    c.readExactLoop acc n = (.error (.notEnoughBytes, acc), { c with pos := c.pos - acc.length }) := by
  rw [Cursor.readExactLoop]
  have hb := Cursor.seek_back c acc.length h1 h2
  have hk : c.skip 0 = c := rfl
  simp only [hn, dite_false, Cursor.readBytes, Cursor.peekBytes_eq, hs, List.take_nil,
    List.length_nil, dite_true, hk, hb]

theorem Cursor.readExactLoop_err (c : Cursor) (n : Nat) (hv : c.Valid)
    (hn : n ≠ 0) (h : c.data.length < c.pos + n) :
    c.readExactLoop [] n = (.error (.notEnoughBytes, c.rest), c) := by
  have ht : c.rest.take n = c.rest := List.take_of_length_le (by simp [Cursor.rest]; omega)
  by_cases hp : c.data.length ≤ c.pos
  · have hr : c.rest = [] := List.drop_eq_nil_of_le hp
    rw [Cursor.readExactLoop_eof c [] n hn hr (by simp) hv.1, hr]
    simp
  · have hl : c.rest.length = c.data.length - c.pos := by simp [Cursor.rest]
    have h0 : (c.rest.take n).length ≠ 0 := by rw [ht]; omega
    have hr2 : (c.skip c.rest.length).rest = [] := by
      apply List.drop_eq_nil_of_le
      simp [Cursor.skip]; omega
    have hsk : (c.skip c.rest.length).pos = c.data.length := by simp [Cursor.skip]; omega
    have hv2 := hv.2
    rw [Cursor.readExactLoop_step c [] n hn h0, ht,
      Cursor.readExactLoop_eof _ _ _ (by omega) hr2 (by simp; omega) (by omega)]
    simp [Cursor.skip]

theorem Cursor.readExact_ok (c : Cursor) (n : Nat) (h : n = 0 ∨ c.pos + n ≤ c.data.length) :
    c.readExact n = (.ok (c.rest.take n), { c with pos := c.pos + n }) := by
  simp [Cursor.readExact, Cursor.readExactLoop_ok c [] n h]

theorem Cursor.readExact_err (c : Cursor) (n : Nat) (hv : c.Valid) (hn : n ≠ 0)
    (h : c.data.length < c.pos + n) : c.readExact n = (.error .notEnoughBytes, c) := by
  simp [Cursor.readExact, Cursor.readExactLoop_err c n hv hn h]

theorem Cursor.readOrZero_ok (c : Cursor) (n : Nat) (h : n = 0 ∨ c.pos + n ≤ c.data.length) :
    c.readOrZero n = (c.rest.take n, { c with pos := c.pos + n }) := by
  simp [Cursor.readOrZero, Cursor.readExactLoop_ok c [] n h]

/-- Byte reads in terms of the unread suffix. -/
theorem Cursor.readU8_cons (c : Cursor) (b : UInt8) (t : List UInt8) (h : c.rest = b :: t) :
    c.readU8 = (b, { c with pos := c.pos + 1 }) ∧ ({ c with pos := c.pos + 1 } : Cursor).rest = t := by
  constructor
  · simp [Cursor.readU8, Cursor.readBytes, Cursor.peekBytes_eq, h, Cursor.skip]
  · have : ({ c with pos := c.pos + 1 } : Cursor).rest = c.rest.drop 1 := by
      simp [Cursor.rest, List.drop_drop]
    simp [this, h]

theorem Cursor.rest_append_le (c : Cursor) (a t : List UInt8) (h : c.rest = a ++ t) :
    a.length = 0 ∨ c.pos + a.length ≤ c.data.length := by
  have hl := congrArg List.length h
  simp [Cursor.rest] at hl
  rcases Nat.eq_zero_or_pos a.length with h0 | h0
  · left; exact h0
  · right; omega

theorem Cursor.rest_advance (c : Cursor) (a t : List UInt8) (h : c.rest = a ++ t) :
    ({ c with pos := c.pos + a.length } : Cursor).rest = t := by
  have : ({ c with pos := c.pos + a.length } : Cursor).rest = c.rest.drop a.length := by
    simp [Cursor.rest, List.drop_drop]
  simp [this, h]

theorem Cursor.readExact_append (c : Cursor) (a t : List UInt8) (h : c.rest = a ++ t) :
    c.readExact a.length = (.ok a, { c with pos := c.pos + a.length }) := by
  rw [Cursor.readExact_ok c _ (Cursor.rest_append_le c a t h), h]
  simp

theorem Cursor.readOrZero_append (c : Cursor) (a t : List UInt8) (h : c.rest = a ++ t) :
    c.readOrZero a.length = (a, { c with pos := c.pos + a.length }) := by
  rw [Cursor.readOrZero_ok c _ (Cursor.rest_append_le c a t h), h]
  simp

end Zune.Bytestream
