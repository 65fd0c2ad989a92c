import Verif.Jpeg.BitReader

/-!
# zune-jpeg: entropy coded data (properties)
-/

namespace Zune.Jpeg

open Zune.Canon Zune.Stream

/-! ## Specification -/

/-- Byte stuffing as the standard prescribes it (T.81, F.1.2.3): a zero byte after each `FF`. -/
def stuff (data : List UInt8) : List UInt8 :=
  data.flatMap fun b => if b = 0xFF then [0xFF, 0x00] else [b]

/-- The numbers in successive groups of bits, of the given widths. -/
def groups : List Nat → List Bool → List Nat
  | [], _ => []
  | n :: ns, v => val (v.take n) :: groups ns (v.drop n)

/-- A run of reads of the given widths, each preceded by a refill, as every caller does. -/
def readAll : List Nat → Bs → Except JErr (List Nat × Bs)
  | [], s => .ok ([], s)
  | n :: ns, s =>
    match s.refill with
    | .error e => .error e
    | .ok s => (readAll ns (s.get n).2).map fun r => ((s.get n).1 :: r.1, r.2)

/-! ## Theorems -/

/-- **C48** The word-at-a-time test is exact: it is true of the four bytes of a word if and only if
one of them is the byte looked for. -/
theorem c48_word (bytes : List UInt8) (v : UInt8) (h : bytes.length = 4) :
    hasByte (BitVec.ofNat 32 (beVal bytes)) v = true ↔ v ∈ bytes :=
  hasByte_mem bytes v h

example : hasByte (BitVec.ofNat 32 (beVal [0x12, 0xFE, 0xFF, 0x01])) 0xFF = true ∧
    hasByte (BitVec.ofNat 32 (beVal [0x12, 0xFE, 0x7F, 0x00])) 0xFF = false := by decide

theorem nextByte_fill (k : Nat) (m : UInt8) (r : List UInt8) (h : m ≠ 0xFF) :
    nextByte (List.replicate k 0xFF ++ m :: r) = (m, r) := by
  induction k with
  | zero => rw [List.replicate_zero, List.nil_append, nextByte, if_neg h]
  | succ k ih => rw [List.replicate_succ, List.cons_append, nextByte, if_pos rfl, ih]

/-- **C48** What the reader takes a segment to mean is what was stuffed: data stuffed as the
standard prescribes and followed by a marker, with any number of fill bytes, gives back the data,
the marker and what follows it. -/
theorem c48_segment (data : List UInt8) (k : Nat) (m : UInt8) (r : List UInt8) (h0 : m ≠ 0)
    (hF : m ≠ 0xFF) :
    unstuff (stuff data ++ 0xFF :: List.replicate k 0xFF ++ m :: r) = (data, some (m, r)) := by
  induction data with
  | nil =>
    have hn := nextByte_fill k m r hF
    rw [stuff, List.flatMap_nil, List.nil_append, List.cons_append,
      unstuff_marker _ (by rw [hn]; exact h0), hn]
  | cons b data ih =>
    by_cases hb : b = 0xFF
    · subst hb
      have e : stuff (0xFF :: data) = 0xFF :: 0x00 :: stuff data := by simp [stuff]
      rw [e, List.cons_append, List.cons_append, List.cons_append, List.cons_append]
      have hn : nextByte (0x00 :: (stuff data ++ 0xFF :: List.replicate k 0xFF ++ m :: r)) =
          (0x00, stuff data ++ 0xFF :: List.replicate k 0xFF ++ m :: r) := by
        rw [nextByte, if_neg (by decide)]
      rw [unstuff_stuffed _ (by rw [hn]), hn, ih]
    · have e : stuff (b :: data) = b :: stuff data := by simp [stuff, hb]
      rw [e, List.cons_append, List.cons_append, unstuff_byte _ _ hb, ih]

example : (0xD9 : UInt8) ≠ 0 ∧ (0xD9 : UInt8) ≠ 0xFF ∧ stuff [0xFF, 0x12, 0xFF] ≠ [] := by decide

theorem readAll_ok (ns : List Nat) (s : Bs) (V : List Bool) (e) (h : Str s V e)
    (hw : ∀ n ∈ ns, n ≤ 32) (hs : ns.sum ≤ V.length) :
    ∃ s', readAll ns s = .ok (groups ns V, s') ∧ Str s' (V.drop ns.sum) e := by
  induction ns generalizing s V with
  | nil => exact ⟨s, rfl, by simpa using h⟩
  | cons n ns ih =>
    obtain ⟨s1, h1, h2, h3⟩ := str_refill h
    rw [List.sum_cons] at hs
    have hn : n ≤ 32 := hw n (by simp)
    have hsp : V.take n ++ V.drop n = V := List.take_append_drop n V
    have hl : (V.take n).length = n := by rw [List.length_take]; omega
    rw [← hsp] at h2
    obtain ⟨g1, g2, _⟩ := str_get h2 n hl.symm (by omega)
    obtain ⟨s', r1, r2⟩ := ih (s1.get n).2 (V.drop n) g2 (fun m hm => hw m (by simp [hm]))
      (by rw [List.length_drop]; omega)
    refine ⟨s', ?_, ?_⟩
    · simp only [readAll, h1, r1, Except.map, groups, g1]
    · rw [List.sum_cons, ← List.drop_drop]
      exact r2

/-- **C48** The bit reader delivers exactly the bits of the segment: reads of any widths (up to 32
bits, and no more bits than the segment has) give the successive groups of the bits of the
unstuffed data, for every byte sequence, wherever the `FF` bytes are; and the reader has not gone
past the marker that ends the segment. -/
theorem c48_reads_partial (input : List UInt8) (ns : List Nat)
    (hk : ∀ m r, (unstuff input).2 = some (m, r) → knownMarker m = true)
    (hw : ∀ n ∈ ns, n ≤ 32) (hs : ns.sum ≤ 8 * (unstuff input).1.length) :
    ∃ s', readAll ns (Bs.new input) = .ok (groups ns (bytesBits (unstuff input).1), s') ∧
      ((s'.marker = none ∧ (unstuff s'.rest).2 = (unstuff input).2) ∨
        ∃ m, s'.marker = some m ∧ (unstuff input).2 = some (m, s'.rest)) := by
  obtain ⟨s', h1, h2⟩ := readAll_ok ns _ _ _ (str_new input hk) hw (by rw [bytesBits_length]; exact hs)
  refine ⟨s', h1, ?_⟩
  have hf := h2.fin
  unfold Bs.fin at hf
  split at hf
  · rename_i m hm
    exact Or.inr ⟨m, hm, hf.symm⟩
  · rename_i hm
    exact Or.inl ⟨hm, hf⟩

-- three stuffed bytes in a row, read in groups of 3, 7 and 16 bits.
example : (unstuff [0xFF, 0, 0xFF, 0, 0x12, 0xFF, 0, 0xFF, 0xD9]).2 = some (0xD9, []) ∧
    knownMarker 0xD9 = true ∧ [3, 7, 16].sum ≤ 8 * 4 := by
  refine ⟨?_, by decide, by decide⟩
  have := c48_segment [0xFF, 0xFF, 0x12, 0xFF] 0 0xD9 [] (by decide) (by decide)
  exact congrArg Prod.snd this

/-- **C48** Data stuffed and ended by a marker: the reads give the data back. -/
theorem c48_data_partial (data : List UInt8) (k : Nat) (m : UInt8) (r : List UInt8)
    (hm : knownMarker m = true) :
    ∃ s', readAll (List.replicate data.length 8)
        (Bs.new (stuff data ++ 0xFF :: List.replicate k 0xFF ++ m :: r)) =
      .ok (data.map UInt8.toNat, s') := by
  have h0 : m ≠ 0 := by rintro rfl; revert hm; decide
  have hF : m ≠ 0xFF := by rintro rfl; revert hm; decide
  have hu := c48_segment data k m r h0 hF
  obtain ⟨s', h1, _⟩ := c48_reads_partial (stuff data ++ 0xFF :: List.replicate k 0xFF ++ m :: r)
    (List.replicate data.length 8) (by rw [hu]; intro m' r' h; cases h; exact hm)
    (fun n hn => by rw [List.eq_of_mem_replicate hn]; omega)
    (by rw [hu]; simp [Nat.mul_comm])
  rw [hu] at h1
  refine ⟨s', ?_⟩
  rw [h1]
  have : ∀ d : List UInt8, groups (List.replicate d.length 8) (bytesBits d) =
      d.map UInt8.toNat := by
    intro d
    induction d with
    | nil => rfl
    | cons b d ih =>
      have hb := byteBits_length b
      rw [List.length_cons, List.replicate_succ, bytesBits_cons, groups, List.map_cons,
        List.take_left' hb, List.drop_left' hb, ih, val_byteBits]
  rw [this]

example : knownMarker 0xD0 = true ∧ knownMarker 0xD9 = true ∧ knownMarker 0xC4 = true := by decide

/-- **C48** The reader stops at the first marker: once all bits of the segment are read, the next
refill sets the marker and leaves the reader just behind it. -/
theorem c48_stops_partial (input : List UInt8) (ns : List Nat) (m : UInt8) (r : List UInt8)
    (he : (unstuff input).2 = some (m, r)) (hm : knownMarker m = true) (hw : ∀ n ∈ ns, n ≤ 32)
    (hs : ns.sum = 8 * (unstuff input).1.length) :
    ∃ s' s'', readAll ns (Bs.new input) = .ok (groups ns (bytesBits (unstuff input).1), s') ∧
      s'.refill = .ok s'' ∧ s''.marker = some m ∧ s''.rest = r := by
  have hk : ∀ m' r', (unstuff input).2 = some (m', r') → knownMarker m' = true := by
    rw [he]; intro m' r' h; cases h; exact hm
  obtain ⟨s', h1, h2⟩ := readAll_ok ns _ _ _ (str_new input hk) hw
    (by rw [bytesBits_length]; omega)
  rw [hs, ← bytesBits_length, List.drop_length] at h2
  obtain ⟨s'', h3, h4, h5⟩ := str_refill h2
  refine ⟨s', s'', h1, h3, ?_⟩
  have hf := h4.fin
  cases hmk : s''.marker with
  | some m' =>
    simp only [Bs.fin, hmk, he, Option.some.injEq, Prod.mk.injEq] at hf
    exact ⟨by rw [hf.1], hf.2⟩
  | none =>
    exfalso
    obtain ⟨⟨bs, hi, hfe⟩, _, _⟩ := h4
    simp only [Bs.fin, hmk] at hf
    have hov : s''.over = 0 := by
      by_contra ho
      have := (hfe.over (by omega)).2
      rw [this, unstuff_nil, he] at hf
      cases hf
    obtain ⟨k, hall, hk0⟩ := hfe.all
    obtain rfl := hk0 hmk hov
    have hnil : bs = [] := by
      simp only [List.nil_append, List.replicate_zero, List.append_eq_nil_iff] at hall
      exact hall.1
    subst hnil
    have hl : s''.left = 0 := hi.buf.left
    -- a refill always brings bits or a marker
    obtain ⟨⟨bs0, hi0, hf0⟩, hfin0, _⟩ := h2
    obtain ⟨s3, bs3, a1, a2, a3, a4, a5⟩ := refill_ok s' bs0 [] hi0 hf0 (by rw [hfin0]; exact hk)
    rw [h3] at a1
    cases a1
    rw [← a2.buf.left, hl, hmk] at a5
    rcases a5 with a5 | a5
    · omega
    · cases a5.1

example : (unstuff [0x12, 0xFF, 0x00, 0xFF, 0xFF, 0xD3, 0x77]).2 = some (0xD3, [0x77]) ∧
    [8, 8].sum = 8 * 2 := by
  refine ⟨?_, rfl⟩
  exact congrArg Prod.snd (c48_segment [0x12, 0xFF] 1 0xD3 [0x77] (by decide) (by decide))

/-- **C48, disagreement.** A segment that ends with a marker the decoder does not list (here APP5)
loses the data read together with the marker: the first read fails although eight bits of data
precede the marker. -/
theorem c48_unlisted : unstuff [0x12, 0xFF, 0xE5, 0x00] = ([0x12], some (0xE5, [0x00])) ∧
    (readAll [8] (Bs.new [0x12, 0xFF, 0xE5, 0x00])).isOk = false ∧
    (readAll [8] (Bs.new [0x12, 0xFF, 0xD9, 0x00])).isOk = true := by
  refine ⟨c48_segment [0x12] 0 0xE5 [0] (by decide) (by decide), ?_, ?_⟩ <;> decide +kernel

end Zune.Jpeg
