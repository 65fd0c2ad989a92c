/-
Property theorems for C06, C07, C08 (byte streams).
-/
import Verif.Bytestream.Spec
import Verif.Bytestream.Lemmas

namespace Zune.Bytestream

/-! ## C06 -/

theorem fieldBytes_length (f : Field) :
    (f.e.enc f.k f.v).length = f.k := by
  cases f.e <;> simp [Endian.enc]

theorem writeFields_some (w : Writer) (hr : w.room = none) (fs : List Field) :
    ∃ w' bs, writeFields w fs = some w' ∧ w'.out = w.out ++ bs ∧ w'.written = w.written + bs.length ∧
      bs = (fs.map fun f => f.e.enc f.k f.v).flatten := by
  induction fs generalizing w with
  | nil => exact ⟨w, [], rfl, by simp, by simp, by simp⟩
  | cons f fs ih =>
    obtain ⟨w', bs, h1, h2, h3, h4⟩ := ih
      ⟨w.out ++ (f.e.enc f.k f.v), none,
       w.written + (f.e.enc f.k f.v).length⟩ rfl
    refine ⟨w', (f.e.enc f.k f.v) ++ bs, ?_, ?_, ?_, ?_⟩
    · simp only [writeFields, Writer.writeInt, Writer.writeAll, hr]; exact h1
    · rw [h2]; simp
    · rw [h3]; simp [Nat.add_assoc]
    · simp [h4]

theorem readFields_enc (fs : List Field) (c : Cursor) (tail : List UInt8)
    (hf : ∀ f ∈ fs, f.Fits)
    (h : c.rest = (fs.map fun f => f.e.enc f.k f.v).flatten ++ tail) :
    ∃ c', readFields c (fs.map fun f => (f.e, f.k)) = some (fs.map Field.v, c') ∧
      readFieldsDef c (fs.map fun f => (f.e, f.k)) = (fs.map Field.v, c') ∧
      c'.rest = tail ∧ c'.data = c.data ∧
      c'.pos = c.pos + ((fs.map fun f => f.e.enc f.k f.v).flatten).length := by
  induction fs generalizing c with
  | nil => exact ⟨c, rfl, rfl, by simpa using h, rfl, by simp⟩
  | cons f fs ih =>
    simp only [List.map_cons, List.flatten_cons, List.append_assoc] at h
    have hl := fieldBytes_length f
    have hv : f.e.dec (f.e.enc f.k f.v) = f.v := by
      have := hf f (by simp)
      unfold Field.Fits at this
      cases f.e <;> simp [Endian.dec, Endian.enc, beVal_beBytes, leVal_leBytes, Nat.mod_eq_of_lt this]
    have h1 := Cursor.readExact_append c _ _ h
    have h2 := Cursor.rest_advance c _ _ h
    have h3 := Cursor.readOrZero_append c _ _ h
    rw [hl] at h1 h2 h3
    obtain ⟨c', i1, i2, i3, i4, i5⟩ := ih { c with pos := c.pos + f.k } (fun g hg => hf g (by simp [hg])) h2
    refine ⟨c', ?_, ?_, i3, by simpa using i4, ?_⟩
    · simp only [List.map_cons, readFields, Cursor.getIntErr, h1]
      rw [i1, hv]; rfl
    · simp only [List.map_cons, readFieldsDef, Cursor.getInt, h3]
      rw [i2, hv]
    · rw [i5]
      simp only [List.map_cons, List.flatten_cons, List.length_append, hl]
      omega

/-- C06: integers written in any order, size and endianness are read back unchanged, and the reader stops
    exactly at the number of bytes the writer reported, whatever bytes follow. -/
theorem c06_int_roundtrip (fs : List Field) (hf : ∀ f ∈ fs, f.Fits) (tail : List UInt8) :
    ∃ w c, writeFields (Writer.new none) fs = some w ∧ w.written = w.out.length ∧
      readFields (Cursor.new (w.out ++ tail)) (fs.map fun f => (f.e, f.k)) = some (fs.map Field.v, c) ∧
      readFieldsDef (Cursor.new (w.out ++ tail)) (fs.map fun f => (f.e, f.k)) = (fs.map Field.v, c) ∧
      c.pos = w.written := by
  obtain ⟨w, bs, h1, h2, h3, h4⟩ := writeFields_some (Writer.new none) rfl fs
  simp [Writer.new] at h2 h3
  subst h4
  obtain ⟨c, i1, i2, i3, i4, i5⟩ := readFields_enc fs (Cursor.new (w.out ++ tail)) tail hf (by
    simp [Cursor.rest, Cursor.new, h2])
  refine ⟨w, c, h1, by rw [h3, h2], i1, i2, ?_⟩
  rw [i5, h3]; simp [Cursor.new]

example : ∃ fs : List Field, fs.length = 3 ∧ (∀ f ∈ fs, f.Fits) ∧ fs.map Field.v = [258, 70000, 255] :=
  ⟨[⟨.be, 2, 258⟩, ⟨.le, 4, 70000⟩, ⟨.be, 1, 255⟩], by simp, by
    intro f hf; simp at hf; rcases hf with rfl | rfl | rfl <;> simp [Field.Fits], by simp⟩

/-- C06: on a bounded sink a write either is complete or changes nothing, and the reported count never exceeds
    the capacity. -/
theorem c06_bounded_sink (w : Writer) (r : Nat) (hr : w.room = some r) (hw : w.written = w.out.length)
    (b : List UInt8) :
    ((w.writeAll b).1 = .ok () ∧ b.length ≤ r ∧ (w.writeAll b).2.out = w.out ++ b ∧
        (w.writeAll b).2.written = (w.writeAll b).2.out.length ∧ (w.writeAll b).2.room = some (r - b.length)) ∨
    ((w.writeAll b).1 = .error .notEnoughBytes ∧ r < b.length ∧ (w.writeAll b).2 = w) := by
  unfold Writer.writeAll
  rw [hr]
  by_cases h : b.length > r
  · right; simp [h]
  · left; simp [h, hw]; omega

example : (Writer.new (some 3)).room = some 3 ∧ ((Writer.new (some 3)).writeAll [1, 2, 3, 4]).1 = .error .notEnoughBytes := by
  decide

/-! ## C07 -/

/-- C07: a fixed size read either returns exactly the next bytes and moves past them, or (when too few bytes are
    left) reports an error and leaves the reader where it was. -/
theorem c07_read_exact (c : Cursor) (hv : c.Valid) (n : Nat) (hn : n ≠ 0) :
    (c.pos + n ≤ c.data.length ∧
      c.readExact n = (.ok ((c.data.drop c.pos).take n), ⟨c.data, c.pos + n⟩)) ∨
    (c.data.length < c.pos + n ∧ c.readExact n = (.error .notEnoughBytes, c)) := by
  by_cases h : c.pos + n ≤ c.data.length
  · left; exact ⟨h, by rw [Cursor.readExact_ok c n (Or.inr h)]; rfl⟩
  · right; exact ⟨by omega, Cursor.readExact_err c n hv hn (by omega)⟩

/-- C07: same for the `no_std` implementations. -/
theorem c07_read_exact_nostd (c : Cursor) (n : Nat) :
    (∀ e, (c.readConstNoStd n).1 = .error e → (c.readConstNoStd n).2 = c) ∧
    (∀ e, (c.readExactNoStd n).1 = .error e → (c.readExactNoStd n).2 = c) := by
  constructor
  · intro e h
    unfold Cursor.readConstNoStd at *
    by_cases hc : c.pos + n ≤ c.data.length
    · rw [if_pos hc] at h; simp at h
    · rw [if_neg hc]
  · intro e h
    unfold Cursor.readExactNoStd at *
    by_cases hs : (c.readBytes n).1.length ≠ n
    · simp only [if_pos hs]
      simp [Cursor.readBytes, Cursor.skip, Cursor.rewind]
    · simp only [if_neg hs] at h; simp at h

/-- C07: the `std` and `no_std` readers agree on every read that can be satisfied. -/
theorem c07_flavours_agree (c : Cursor) (n : Nat) (h : c.pos + n ≤ c.data.length) :
    c.readExact n = c.readConstNoStd n ∧ c.readExact n = c.readExactNoStd n ∧
    c.readOrZero n = c.readOrZeroNoStd n := by
  have hl : (c.rest.take n).length = n := by simp [Cursor.rest]; omega
  refine ⟨?_, ?_, ?_⟩
  · rw [Cursor.readExact_ok c n (Or.inr h)]; simp [Cursor.readConstNoStd, h, Cursor.rest, Cursor.skip]
  · rw [Cursor.readExact_ok c n (Or.inr h)]
    simp only [Cursor.readExactNoStd, Cursor.readBytes, Cursor.peekBytes_eq, hl]
    simp [Cursor.skip]
  · rw [Cursor.readOrZero_ok c n (Or.inr h)]; simp [Cursor.readOrZeroNoStd, h, Cursor.rest, Cursor.skip]

/-- C07: a successful peek returns the requested window and does not move the reader. -/
theorem c07_peek_ok (c : Cursor) (hv : c.Valid) (p n : Nat) (l : List UInt8)
    (hp : c.pos + p + n < usizeLim)
    (h : (c.peekAt p n).1 = .ok l) :
    (c.peekAt p n).2 = c ∧ l = (c.data.drop (c.pos + p)).take n ∧ l.length = n := by
  have hw : ∀ d : Cursor, d.Valid → ∀ l', (d.peekExact n).1 = .ok l' → (d.peekExact n).2 = d ∧
      l' = (d.data.drop d.pos).take n ∧ l'.length = n ∨ usizeLim ≤ d.pos + n := by
    intro d hd l' hl
    by_cases hlim : usizeLim ≤ d.pos + n
    · right; exact hlim
    left
    unfold Cursor.peekExact at hl ⊢
    by_cases hn : n = 0 ∨ d.pos + n ≤ d.data.length
    · rw [Cursor.readExact_ok d n hn] at hl ⊢
      have hb := Cursor.seek_back { d with pos := d.pos + n } n (by simp) (by simpa using Nat.lt_of_not_le hlim)
      simp only [hb] at hl ⊢
      simp at hl
      subst hl
      refine ⟨by simp, rfl, ?_⟩
      simp [Cursor.rest]
      omega
    · rw [Cursor.readExact_err d n hd (by omega) (by omega)] at hl
      simp at hl
  unfold Cursor.peekAt at h ⊢
  by_cases h0 : p = 0
  · subst h0
    simp only [ne_eq, not_true_eq_false, if_false] at h ⊢
    split at h
    · simp at h
    · rename_i hsz
      rw [if_neg hsz]
      rcases hpe : c.peekExact n with ⟨r, c2⟩
      rw [hpe] at h
      cases r with
      | error e => simp at h
      | ok l' =>
        simp at h; subst h
        have := hw c hv l' (by rw [hpe])
        rw [hpe] at this
        rcases this with ⟨a, b, d⟩ | a
        · exact ⟨a, by simpa using b, d⟩
        · omega
  · have hf := Cursor.seek_fwd c p (by omega)
    simp only [ne_eq, h0, not_false_eq_true, if_true, hf] at h ⊢
    split at h
    · simp at h
    · rename_i hsz
      rw [if_neg hsz]
      rcases hpe : ({ c with pos := c.pos + p } : Cursor).peekExact n with ⟨r, c2⟩
      rw [hpe] at h
      cases r with
      | error e => simp at h
      | ok l' =>
        have := hw { c with pos := c.pos + p } ⟨by simp; omega, hv.2⟩ l' (by rw [hpe])
        rw [hpe] at this
        rcases this with ⟨a, b, d⟩ | a
        · subst a
          have hb := Cursor.seek_back { c with pos := c.pos + p } p (by simp) (by simp; omega)
          simp only [hb] at h ⊢
          simp at h; subst h
          exact ⟨by simp, b, d⟩
        · simp at a; omega

example : (Cursor.new [1, 2, 3, 4]).Valid ∧ ((Cursor.new [1, 2, 3, 4]).peekAt 1 2).1 = .ok [2, 3] := by
  constructor
  · simp [Cursor.Valid, Cursor.new, usizeLim]
  · decide +kernel

/-- C07 (fails): a `peek_at` at a non zero offset which runs out of data leaves the reader displaced, contrary
    to the documented behaviour. -/
theorem c07_peek_error_moves :
    ∃ (c : Cursor) (p n : Nat), c.Valid ∧ (c.peekAt p n).1 = .error .notEnoughBytes ∧ (c.peekAt p n).2 ≠ c :=
  ⟨⟨[1, 2, 3], 0⟩, 2, 2, by simp [Cursor.Valid, usizeLim], by decide +kernel, by decide +kernel⟩

/-- C07, the part of the peek law that holds on errors: at offset zero a failing peek does not move.
    Missing for the full property: non-zero offsets (false, see `c07_peek_error_moves`). -/
theorem c07_peek_error_partial (c : Cursor) (hv : c.Valid) (n : Nat) (e : IoErr)
    (hb : c.pos + n < usizeLim)
    (h : (c.peekAt 0 n).1 = .error e) : (c.peekAt 0 n).2 = c := by
  unfold Cursor.peekAt at h ⊢
  simp only [ne_eq, not_true_eq_false, if_false] at h ⊢
  by_cases hsz : n > 20 * 1024 * 1024
  · rw [if_pos hsz]
  · rw [if_neg hsz] at h ⊢
    unfold Cursor.peekExact at h ⊢
    by_cases hn : n = 0 ∨ c.pos + n ≤ c.data.length
    · rw [Cursor.readExact_ok c n hn] at h
      have hb := Cursor.seek_back { c with pos := c.pos + n } n (by simp) (by simpa using hb)
      simp only [hb] at h
      simp at h
    · rw [Cursor.readExact_err c n hv (by omega) (by omega)]

example : ((Cursor.new [1]).peekAt 0 2).1 = .error .notEnoughBytes := by decide +kernel

/-- C07 (disagreement with the documentation of `get_u16_be`): on a truncated stream the defaulting getter of the
    `std` reader returns the partially read bytes, not 0; the `no_std` reader returns 0. -/
theorem c07_truncated_default_not_zero :
    ∃ c : Cursor, c.data.length < c.pos + 2 ∧ (c.getInt .be 2).1 ≠ 0 ∧ beVal (c.readOrZeroNoStd 2).1 = 0 :=
  ⟨⟨[7], 0⟩, by decide, by decide +kernel, by decide +kernel⟩

/-! ## C08 -/

/-- C08: after any sequence of seeks the reader is at the offset predicted by integer arithmetic, and the data is
    untouched; a rejected seek does not move. -/
theorem c08_seek_sequence (c : Cursor) (ss : List SeekFrom)
    (hs : ∀ n, SeekFrom.start n ∈ ss → n < usizeLim) :
    (runSeeks c ss).pos = seqTarget c.data.length c.pos ss ∧ (runSeeks c ss).data = c.data := by
  induction ss generalizing c with
  | nil => simp [runSeeks, seqTarget]
  | cons s ss ih =>
    have hd : (c.seek s).2.data = c.data := by
      cases s <;> simp [Cursor.seek] <;> split <;> rfl
    have hp : (c.seek s).2.pos = if 0 ≤ seekTarget c.data.length c.pos s ∧
        seekTarget c.data.length c.pos s < (usizeLim : Int)
        then (seekTarget c.data.length c.pos s).toNat else c.pos := by
      cases s with
      | start n =>
        have := hs n (by simp)
        rw [if_pos (by simp [seekTarget]; omega)]
        simp [Cursor.seek, seekTarget]
      | fromEnd o =>
        by_cases hc : 0 ≤ (c.data.length : Int) + o ∧ (c.data.length : Int) + o < (usizeLim : Int)
        · simp only [Cursor.seek, seekTarget, if_pos hc]; exact (if_pos hc).symm
        · simp only [Cursor.seek, seekTarget, if_neg hc]; exact (if_neg hc).symm
      | current o =>
        by_cases hc : 0 ≤ (c.pos : Int) + o ∧ (c.pos : Int) + o < (usizeLim : Int)
        · simp only [Cursor.seek, seekTarget, if_pos hc]; exact (if_pos hc).symm
        · simp only [Cursor.seek, seekTarget, if_neg hc]; exact (if_neg hc).symm
    obtain ⟨h1, h2⟩ := ih (c.seek s).2 (fun n hn => hs n (by simp [hn]))
    refine ⟨?_, ?_⟩
    · simp only [runSeeks, h1, hd, seqTarget, hp]
    · simp only [runSeeks, h2, hd]

example : (runSeeks (Cursor.new [1, 2, 3]) [.fromEnd (-1), .current (-5), .current 4]).pos = 6 := by decide +kernel

/-- C08: seeking to an absolute offset and reading gives the bytes stored at that offset, or an error exactly when
    the window does not lie inside the data. -/
theorem c08_random_access (c : Cursor) (hd : c.data.length < usizeLim) (n k : Nat) (hn : n < usizeLim) (hk : k ≠ 0) :
    ((c.seek (.start n)).2.readExact k).1 =
      if n + k ≤ c.data.length then .ok ((c.data.drop n).take k) else .error .notEnoughBytes := by
  have hc : (c.seek (.start n)).2 = ⟨c.data, n⟩ := rfl
  rw [hc]
  rcases c07_read_exact ⟨c.data, n⟩ ⟨hn, hd⟩ k hk with ⟨h1, h2⟩ | ⟨h1, h2⟩
  · rw [h2]; simp at h1; simp [h1]
  · rw [h2]; simp at h1; rw [if_neg (by omega)]

example : (((Cursor.new [5, 6, 7]).seek (.start 1)).2.readExact 2).1 = .ok [6, 7] := by decide +kernel

end Zune.Bytestream
