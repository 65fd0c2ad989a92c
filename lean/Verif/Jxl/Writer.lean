/-
Lemmas about the bit writers of the JPEG XL encoder.
-/
import Verif.Jxl.WriterModel

namespace Zune.Jxl

/-! ### Arithmetic of the pending bits -/

theorem land7 (n : Nat) : n &&& 7 = n % 8 := Nat.and_two_pow_sub_one_eq_mod n 3

theorem land56 {n : Nat} (h : n < 64) : n &&& 56 = 8 * (n / 8) := by
  have : ∀ n : Fin 64, n.val &&& 56 = 8 * (n.val / 8) := by decide
  exact this ⟨n, h⟩

theorem merge_eq {buf left n v : Nat} (hb : buf < 2 ^ left) (h : left + n < 64) : merge buf left n v = buf + 2 ^ left * (v % 2 ^ n) := by
  have h1 : (1 <<< n - 1) &&& v = v % 2 ^ n := by
    rw [Nat.one_shiftLeft, Nat.and_comm, Nat.and_two_pow_sub_one_eq_mod]
  have h2 : v % 2 ^ n < 2 ^ n := Nat.mod_lt _ (Nat.two_pow_pos n)
  have h3 : buf + 2 ^ left * (v % 2 ^ n) < 2 ^ (left + n) := by
    rw [pow_add]
    calc buf + 2 ^ left * (v % 2 ^ n) < 2 ^ left + 2 ^ left * (v % 2 ^ n) := by omega
      _ = 2 ^ left * (v % 2 ^ n + 1) := by ring
      _ ≤ 2 ^ left * 2 ^ n := Nat.mul_le_mul (Nat.le_refl _) h2
  have h4 : (2 : Nat) ^ (left + n) ≤ 2 ^ 64 := Nat.pow_le_pow_right (by omega) (by omega)
  rw [merge, h1, Nat.mod_eq_of_lt (show left < 64 by omega), Nat.or_comm, ← Nat.shiftLeft_add_eq_or_of_lt hb, Nat.shiftLeft_eq,
    Nat.mod_eq_of_lt (by rw [Nat.mul_comm]; omega)]
  ring

/-- What a flush hands over and keeps. -/
theorem flush_split (buf left : Nat) :
    lsb left buf = lsb (8 * (left / 8)) buf ++ lsb (left % 8) (buf >>> (8 * (left / 8))) := by
  rw [Nat.shiftRight_eq_div_pow, ← lsb_append, Nat.div_add_mod]

theorem flush_lt {buf left : Nat} (hb : buf < 2 ^ left) : buf >>> (8 * (left / 8)) < 2 ^ (left % 8) := by
  rw [Nat.shiftRight_eq_div_pow, Nat.div_lt_iff_lt_mul (Nat.two_pow_pos _), ← pow_add, Nat.add_comm, Nat.div_add_mod]
  exact hb

theorem bytesLsb_take_le {k n v : Nat} (h : k ≤ n) : bytesLsb ((leBytes n v).take k) = lsb (8 * k) v := by
  have h1 : bytesLsb (leBytes n v) = lsb (8 * k) v ++ lsb (8 * (n - k)) (v / 2 ^ (8 * k)) := by
    rw [bytesLsb_leBytes, ← lsb_append]; congr 1; omega
  have h2 : bytesLsb (leBytes n v) = bytesLsb ((leBytes n v).take k) ++ bytesLsb ((leBytes n v).drop k) := by
    rw [← bytesLsb_append, List.take_append_drop]
  exact (List.append_inj (h2.symm.trans h1) (by simp; omega)).1

/-! ### The owning writer -/

/-- Writer `b` has been given the bits `s` (and nothing else). -/
structure BitWriter.Holds (b : BitWriter) (s : List Bool) : Prop where
  left : b.left < 64
  buf : b.buf < 2 ^ b.left
  pos : b.pos ≤ b.dest.length
  bits : bytesLsb (b.dest.take b.pos) ++ lsb b.left b.buf = s

theorem BitWriter.Holds.length {b : BitWriter} {s : List Bool} (h : b.Holds s) : s.length = 8 * b.pos + b.left := by
  rw [← h.bits]; simp [h.pos]

theorem BitWriter.flush_holds {b b' : BitWriter} {s : List Bool} (h : b.Holds s) (hf : b.flush = some b') :
    b'.Holds s ∧ b'.left < 8 ∧ b'.dest.length = b.dest.length := by
  rw [flush] at hf
  split at hf
  · rename_i hp
    cases hf
    have h8 : b.left / 8 ≤ 8 := by have := h.left; omega
    have hk : (8 * (b.left / 8)) >>> 3 = b.left / 8 := by rw [Nat.shiftRight_eq_div_pow]; omega
    simp only [land56 h.left, land7, hk]
    have hl : (b.dest.take b.pos).length = b.pos := by simp [h.pos]
    have ht : (b.dest.take b.pos ++ (leBytes 8 b.buf ++ b.dest.drop (b.pos + 8))).take (b.pos + b.left / 8)
        = b.dest.take b.pos ++ (leBytes 8 b.buf).take (b.left / 8) := by
      conv_lhs => rw [show b.pos + b.left / 8 = (b.dest.take b.pos).length + b.left / 8 by rw [hl]]
      rw [List.take_length_add_append, List.take_append_of_le_length (by simpa using h8)]
    refine ⟨⟨?_, flush_lt h.buf, ?_, ?_⟩, ?_, ?_⟩
    · show b.left % 8 < 64
      omega
    · simp only [List.length_append, hl, leBytes_length, List.length_drop]
      omega
    · rw [ht, bytesLsb_append, bytesLsb_take_le h8, List.append_assoc, ← flush_split]
      exact h.bits
    · exact Nat.mod_lt _ (by omega)
    · simp only [List.length_append, hl, leBytes_length, List.length_drop]
      omega
  · cases hf

theorem BitWriter.put_holds {b b' : BitWriter} {s : List Bool} {n v : Nat} (h : b.Holds s) (hn : n ≤ 56) (hf : b.put n v = some b') :
    b'.Holds (s ++ lsb n v) ∧ b'.dest.length = b.dest.length := by
  have key : ∀ c : BitWriter, c.Holds s → c.left + n < 64 → c.dest.length = b.dest.length →
      ({ c with buf := merge c.buf c.left n v, left := c.left + n } : BitWriter).Holds (s ++ lsb n v)
        ∧ ({ c with buf := merge c.buf c.left n v, left := c.left + n } : BitWriter).dest.length = b.dest.length := by
    intro c hc hl hd
    refine ⟨⟨hl, ?_, hc.pos, ?_⟩, hd⟩
    · show merge c.buf c.left n v < 2 ^ (c.left + n)
      rw [merge_eq hc.buf hl, pow_add]
      have h2 : v % 2 ^ n < 2 ^ n := Nat.mod_lt _ (Nat.two_pow_pos n)
      calc c.buf + 2 ^ c.left * (v % 2 ^ n) < 2 ^ c.left + 2 ^ c.left * (v % 2 ^ n) := by have := hc.buf; omega
        _ = 2 ^ c.left * (v % 2 ^ n + 1) := by ring
        _ ≤ 2 ^ c.left * 2 ^ n := Nat.mul_le_mul (Nat.le_refl _) h2
    · show bytesLsb (c.dest.take c.pos) ++ lsb (c.left + n) (merge c.buf c.left n v) = _
      rw [merge_eq hc.buf hl, lsb_merge hc.buf, lsb_mod, ← List.append_assoc, hc.bits]
  rw [put] at hf
  split at hf
  · cases hb : b.flush with
    | none => rw [hb] at hf; cases hf
    | some c =>
      rw [hb] at hf
      cases hf
      obtain ⟨h1, h2, h3⟩ := flush_holds h hb
      exact key c h1 (by omega) h3
  · cases hf
    exact key b h (by omega) rfl

theorem BitWriter.put_ok {b : BitWriter} (n v : Nat) (h : b.pos + 8 ≤ b.dest.length) : ∃ b', b.put n v = some b' := by
  rw [put, flush, if_pos h]
  split <;> exact ⟨_, rfl⟩

/-- The bits requested by a sequence of calls. -/
def fields : List (Nat × Nat) → List Bool
  | [] => []
  | p :: t => lsb p.1 p.2 ++ fields t

@[simp] theorem fields_append (a b : List (Nat × Nat)) : fields (a ++ b) = fields a ++ fields b := by
  induction a with
  | nil => rfl
  | cons p a ih => simp [fields, ih]

theorem BitWriter.puts_holds {b b' : BitWriter} {s : List Bool} {l : List (Nat × Nat)} (h : b.Holds s) (hl : ∀ p ∈ l, p.1 ≤ 56)
    (hf : b.puts l = some b') : b'.Holds (s ++ fields l) ∧ b'.dest.length = b.dest.length := by
  induction l generalizing b s with
  | nil => cases hf; exact ⟨by simpa [fields] using h, rfl⟩
  | cons p l ih =>
    rw [puts] at hf
    cases hp : b.put p.1 p.2 with
    | none => rw [hp] at hf; cases hf
    | some c =>
      rw [hp] at hf
      obtain ⟨h1, h2⟩ := put_holds h (hl p (by simp)) hp
      obtain ⟨h3, h4⟩ := ih h1 (fun q hq => hl q (by simp [hq])) hf
      exact ⟨by rw [fields, ← List.append_assoc]; exact h3, h4.trans h2⟩

theorem BitWriter.puts_ok {b : BitWriter} {s : List Bool} {l : List (Nat × Nat)} (h : b.Holds s) (hl : ∀ p ∈ l, p.1 ≤ 56)
    (hs : s.length + (fields l).length + 64 ≤ 8 * b.dest.length) : ∃ b', b.puts l = some b' := by
  induction l generalizing b s with
  | nil => exact ⟨b, rfl⟩
  | cons p l ih =>
    have h0 := h.length
    simp only [fields, List.length_append, lsb_length] at hs
    obtain ⟨c, hc⟩ := put_ok (b := b) p.1 p.2 (by omega)
    obtain ⟨h1, h2⟩ := put_holds h (hl p (by simp)) hc
    obtain ⟨d, hd⟩ := ih h1 (fun q hq => hl q (by simp [hq])) (by rw [h2]; simp; omega)
    exact ⟨d, by rw [puts, hc]; exact hd⟩

theorem BitWriter.puts_append (b : BitWriter) (l m : List (Nat × Nat)) : b.puts (l ++ m) = (b.puts l).bind (·.puts m) := by
  induction l generalizing b with
  | nil => rfl
  | cons p l ih =>
    rw [List.cons_append, puts, puts]
    cases b.put p.1 p.2 with
    | none => rfl
    | some c => exact ih c

/-- Zero bits that complete `n` bits to whole bytes. -/
def padding (n : Nat) : List Bool := List.replicate ((8 - n % 8) % 8) false

theorem padding_length (s : List Bool) : 8 ∣ (s ++ padding s.length).length := by
  simp [padding]; omega

theorem BitWriter.zeroPad_holds {b b' : BitWriter} {s : List Bool} (h : b.Holds s) (hf : b.zeroPad = some b') :
    b'.Holds (s ++ padding s.length) ∧ b'.dest.length = b.dest.length := by
  rw [zeroPad] at hf
  cases hb : b.flush with
  | none => rw [hb] at hf; cases hf
  | some c =>
    rw [hb] at hf
    obtain ⟨h1, h2, h3⟩ := flush_holds h hb
    have h0 := h1.length
    replace hf : (if c.left ≠ 0 then c.put (8 - c.left) 0 else some c) = some b' := hf
    split at hf
    · rename_i hz
      obtain ⟨h4, h5⟩ := put_holds h1 (by omega) hf
      refine ⟨?_, h5.trans h3⟩
      have : padding s.length = lsb (8 - c.left) 0 := by rw [lsb_zero, padding]; congr 1; omega
      rw [this]; exact h4
    · cases hf
      refine ⟨?_, h3⟩
      have : padding s.length = [] := by rw [padding, show (8 - s.length % 8) % 8 = 0 by omega]; rfl
      rw [this, List.append_nil]; exact h1

theorem BitWriter.zeroPad_ok {b : BitWriter} {s : List Bool} (h : b.Holds s) (hs : s.length + 64 ≤ 8 * b.dest.length) :
    ∃ b', b.zeroPad = some b' := by
  have h0 := h.length
  have hf : ∃ c, b.flush = some c := by rw [flush, if_pos (by omega)]; exact ⟨_, rfl⟩
  obtain ⟨c, hc⟩ := hf
  obtain ⟨h1, h2, h3⟩ := flush_holds h hc
  have h4 := h1.length
  rw [zeroPad, hc]
  show ∃ b', (if c.left ≠ 0 then c.put (8 - c.left) 0 else some c) = some b'
  split
  · exact put_ok _ _ (by omega)
  · exact ⟨_, rfl⟩

theorem BitWriter.holds_allocate (n : Nat) : ∃ b, BitWriter.new.allocate n = some b ∧ b.Holds [] ∧ b.dest.length = n / 8 + 64 :=
  ⟨_, rfl, ⟨by show (0 : Nat) < 64; decide, by show (0 : Nat) < 2 ^ 0; decide, by simp [BitWriter.new], rfl⟩, by simp⟩

/-! ### The writer over a sink -/

/-- Writer `b` has been given the bits `s` (and nothing else). -/
structure SinkWriter.Holds (b : SinkWriter) (s : List Bool) : Prop where
  left : b.left < 64
  buf : b.buf < 2 ^ b.left
  bits : bytesLsb b.dest ++ lsb b.left b.buf = s

theorem SinkWriter.Holds.length {b : SinkWriter} {s : List Bool} (h : b.Holds s) : s.length = 8 * b.dest.length + b.left := by
  rw [← h.bits]; simp

theorem SinkWriter.flush_holds {b : SinkWriter} {s : List Bool} (h : b.Holds s) : b.flush.Holds s ∧ b.flush.left < 8 := by
  have h8 : b.left / 8 ≤ 8 := by have := h.left; omega
  have hk : (8 * (b.left / 8)) >>> 3 = b.left / 8 := by rw [Nat.shiftRight_eq_div_pow]; omega
  have hm : b.left % 8 < 8 := Nat.mod_lt _ (by omega)
  simp only [flush, land56 h.left, land7, hk]
  refine ⟨⟨by show b.left % 8 < 64; omega, flush_lt h.buf, ?_⟩, hm⟩
  show bytesLsb (b.dest ++ _) ++ _ = _
  rw [bytesLsb_append, bytesLsb_take_le h8, List.append_assoc, ← flush_split]
  exact h.bits

theorem SinkWriter.putNoFlush_holds {b : SinkWriter} {s : List Bool} {n v : Nat} (h : b.Holds s) (hl : b.left + n < 64) :
    (b.putNoFlush n v).Holds (s ++ lsb n v) := by
  refine ⟨hl, ?_, ?_⟩
  · show merge b.buf b.left n v < 2 ^ (b.left + n)
    rw [merge_eq h.buf hl, pow_add]
    have h2 : v % 2 ^ n < 2 ^ n := Nat.mod_lt _ (Nat.two_pow_pos n)
    calc b.buf + 2 ^ b.left * (v % 2 ^ n) < 2 ^ b.left + 2 ^ b.left * (v % 2 ^ n) := by have := h.buf; omega
      _ = 2 ^ b.left * (v % 2 ^ n + 1) := by ring
      _ ≤ 2 ^ b.left * 2 ^ n := Nat.mul_le_mul (Nat.le_refl _) h2
  · show bytesLsb b.dest ++ lsb (b.left + n) (merge b.buf b.left n v) = _
    rw [merge_eq h.buf hl, lsb_merge h.buf, lsb_mod, ← List.append_assoc, h.bits]

theorem SinkWriter.put_holds {b : SinkWriter} {s : List Bool} {n v : Nat} (h : b.Holds s) (hn : n ≤ 56) :
    (b.put n v).Holds (s ++ lsb n v) := by
  rw [put]
  split
  · obtain ⟨h1, h2⟩ := flush_holds h
    exact putNoFlush_holds h1 (by omega)
  · exact putNoFlush_holds h (by omega)

theorem lsb_leVal (l : List UInt8) : lsb (8 * l.length) (leVal l) = bytesLsb l := by
  rw [← lval_bytesLsb, ← bytesLsb_length, lsb_lval]

theorem SinkWriter.putChunks_holds {b : SinkWriter} {s : List Bool} (l : List UInt8) (h : b.Holds s) (hb : b.left < 8) :
    (b.putChunks l).Holds (s ++ bytesLsb l) := by
  fun_induction SinkWriter.putChunks b l generalizing s with
  | case1 b l h7 ih =>
    have h1 := putNoFlush_holds (n := 56) (v := leVal (l.take 7)) h (by omega)
    obtain ⟨h2, h3⟩ := flush_holds h1
    have h4 := ih h2 h3
    have : lsb 56 (leVal (l.take 7)) = bytesLsb (l.take 7) := by
      rw [← lsb_leVal (l.take 7), List.length_take, Nat.min_eq_left h7]
    rwa [this, List.append_assoc, ← bytesLsb_append, List.take_append_drop] at h4
  | case2 b l h7 =>
    split
    · rename_i he
      rw [List.isEmpty_iff] at he
      subst he
      simpa using (flush_holds h).1
    · have h1 := put_holds (n := l.length * 8) (v := leVal l) h (by omega)
      rw [Nat.mul_comm, lsb_leVal] at h1
      rw [Nat.mul_comm]
      exact (flush_holds h1).1

theorem SinkWriter.putBytes_holds {b : SinkWriter} {s : List Bool} (l : List UInt8) (h : b.Holds s) :
    ∃ b', b.putBytes l = some b' ∧ b'.Holds (s ++ bytesLsb l) := by
  obtain ⟨h1, h2⟩ := flush_holds h
  rw [putBytes]
  split
  · rename_i hz
    have h0 : b.flush.left = 0 := hz
    rw [if_pos h0]
    refine ⟨_, rfl, ⟨h1.left, h1.buf, ?_⟩⟩
    have hb := h1.bits
    rw [h0] at hb
    show bytesLsb (b.flush.dest ++ l) ++ lsb b.flush.left b.flush.buf = _
    rw [h0, bytesLsb_append, ← hb]
    simp [lsb]
  · exact ⟨_, rfl, putChunks_holds l h1 h2⟩

/-! ### Tokens -/

theorem log2_or_one {v : Nat} (h : v ≠ 0) : (v ||| 1).log2 = v.log2 := by
  have h0 : v ||| 1 ≠ 0 := by have : v ≤ v ||| 1 := Nat.left_le_or; omega
  rw [Nat.log2_eq_iff h0]
  have h1 := (Nat.log2_eq_iff h).1 rfl
  refine ⟨Nat.le_trans h1.1 Nat.left_le_or, Nat.or_lt_two_pow h1.2 ?_⟩
  exact Nat.one_lt_two_pow (by omega)

theorem msb_eq {v : Nat} (h : v ≠ 0) (hv : v < 2 ^ 32) : 31 - leadingZeros (v ||| 1) = v.log2 := by
  have h1 : v.log2 < 32 := (Nat.log2_lt h).2 hv
  rw [leadingZeros, log2_or_one h]; omega

theorem sub_log2 {v : Nat} (h : v ≠ 0) : 2 ^ v.log2 ≤ v ∧ v - 2 ^ v.log2 < 2 ^ v.log2 := by
  have h1 := (Nat.log2_eq_iff h).1 rfl
  rw [pow_succ] at h1
  omega

end Zune.Jxl
