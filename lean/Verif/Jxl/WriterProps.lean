/-
Properties C51 and C52: the bit writers of the JPEG XL encoder concatenate, and its integer tokens can be decoded.
-/
import Verif.Jxl.Writer

namespace Zune.Jxl

/-! ### C51

The specification: `lsb n v` are the `n` low bits of `v`, lowest first; `fields` concatenates them over a list of requests; `bytesLsb`
reads a byte string the same way. -/

/-- **C51** For every list of requests that fits the announced size, allocating, writing them all and padding succeeds, and the bytes are
    the requested bits in order, completed with zero bits to a whole number of bytes. -/
theorem c51_writer (max : Nat) (l : List (Nat × Nat)) (hl : ∀ p ∈ l, p.1 ≤ 56) (hs : (fields l).length ≤ max) :
    ∃ b, (do ((← (← BitWriter.new.allocate max).puts l).zeroPad) >>= BitWriter.flush) = some b ∧ b.left = 0 ∧
      bytesLsb (b.dest.take b.pos) = fields l ++ padding (fields l).length := by
  obtain ⟨a, ha, h0, hd⟩ := BitWriter.holds_allocate max
  obtain ⟨b, hb⟩ := BitWriter.puts_ok h0 hl (by rw [hd]; simp; omega)
  obtain ⟨h1, e1⟩ := BitWriter.puts_holds h0 hl hb
  rw [List.nil_append] at h1
  obtain ⟨c, hc⟩ := BitWriter.zeroPad_ok h1 (by rw [e1, hd]; omega)
  obtain ⟨h2, e2⟩ := BitWriter.zeroPad_holds h1 hc
  have h3 := h2.length
  have h4 : (fields l ++ padding (fields l).length).length ≤ (fields l).length + 7 := by simp [padding]; omega
  have hf : ∃ d, c.flush = some d := by rw [BitWriter.flush, if_pos (by omega)]; exact ⟨_, rfl⟩
  obtain ⟨d, hd'⟩ := hf
  obtain ⟨h5, h6, h7⟩ := BitWriter.flush_holds h2 hd'
  have h8 := h5.length
  have h9 := padding_length (fields l)
  have hz : d.left = 0 := by omega
  refine ⟨d, ?_, hz, ?_⟩
  · rw [ha]
    show ((a.puts l).bind fun b => b.zeroPad.bind BitWriter.flush) = _
    rw [hb]
    show (b.zeroPad.bind BitWriter.flush) = _
    rw [hc]
    exact hd'
  · have := h5.bits
    rw [hz] at this
    simpa [lsb] using this

/-- Three requests, one of them with bits above its width: twelve bits, padded to sixteen. -/
example : (∀ p ∈ [(3, 5), (1, 0), (8, 0x1F3)], p.1 ≤ 56) ∧ (fields [(3, 5), (1, 0), (8, 0x1F3)]).length ≤ 12 ∧
    fields [(3, 5), (1, 0), (8, 0x1F3)] ++ padding 12 = bytesLsb [0x35, 0x0F] := by decide

/-- **C51** Requests whose total size exceeds what was allocated do not overwrite anything: the encoder stops (slice out of range). -/
theorem c51_overflow (max : Nat) (l : List (Nat × Nat)) (hl : ∀ p ∈ l, p.1 ≤ 56) (hs : 8 * (max / 8 + 64) + 64 ≤ (fields l).length) :
    (do (← BitWriter.new.allocate max).puts l) = none := by
  obtain ⟨a, ha, h0, hd⟩ := BitWriter.holds_allocate max
  rw [ha]
  show a.puts l = none
  cases hb : a.puts l with
  | none => rfl
  | some b =>
    obtain ⟨h1, e1⟩ := BitWriter.puts_holds h0 hl hb
    have h2 := h1.length
    have h3 := h1.left
    have h4 := h1.pos
    rw [e1, hd] at h4
    rw [List.nil_append] at h2
    omega

example : 8 * (100 / 8 + 64) + 64 ≤ (fields (List.replicate 14 (50, 1))).length := by decide +kernel

/-- A call on the writer over a sink (bit_writer.rs:113-228). -/
inductive SinkOp
  | put (nbits bit : Nat)
  | bytes (l : List UInt8)
  | flush

/-- What a call asks to be written. -/
def SinkOp.bits : SinkOp → List Bool
  | put n v => lsb n v
  | bytes l => bytesLsb l
  | flush => []

/-- The calls of the model. -/
def SinkWriter.op (b : SinkWriter) : SinkOp → Option SinkWriter
  | .put n v => some (b.put n v)
  | .bytes l => b.putBytes l
  | .flush => some b.flush

/-- A sequence of calls. -/
def SinkWriter.ops (b : SinkWriter) : List SinkOp → Option SinkWriter
  | [] => some b
  | o :: t => do
    let b ← b.op o
    b.ops t

/-- **C51** For every sequence of calls on the writer over a sink, no assertion fails and the bits handed to the sink, followed by the
    pending ones, are the requested bits in order after what the sink already had.  Fewer than eight bits are pending after a flush. -/
theorem c51_sink (out : List UInt8) (l : List SinkOp) (hl : ∀ n v, SinkOp.put n v ∈ l → n ≤ 56) :
    ∃ b, (SinkWriter.new out).ops l = some b ∧ bytesLsb b.dest ++ lsb b.left b.buf = bytesLsb out ++ l.flatMap SinkOp.bits ∧
      b.flush.left < 8 ∧ bytesLsb b.flush.dest ++ lsb b.flush.left b.flush.buf = bytesLsb out ++ l.flatMap SinkOp.bits := by
  have key : ∀ (l : List SinkOp) (b : SinkWriter) (s : List Bool), b.Holds s → (∀ n v, SinkOp.put n v ∈ l → n ≤ 56) →
      ∃ b', b.ops l = some b' ∧ b'.Holds (s ++ l.flatMap SinkOp.bits) := by
    intro l
    induction l with
    | nil => intro b s h _; exact ⟨b, rfl, by simpa using h⟩
    | cons o l ih =>
      intro b s h hl
      have h1 : ∃ c, b.op o = some c ∧ c.Holds (s ++ o.bits) := by
        cases o with
        | put n v => exact ⟨_, rfl, SinkWriter.put_holds h (hl n v (by simp))⟩
        | bytes d => exact SinkWriter.putBytes_holds d h
        | flush => exact ⟨_, rfl, by simpa [SinkOp.bits] using (SinkWriter.flush_holds h).1⟩
      obtain ⟨c, hc, h2⟩ := h1
      obtain ⟨d, hd, h3⟩ := ih c _ h2 (fun n v hm => hl n v (by simp [hm]))
      exact ⟨d, by rw [SinkWriter.ops, hc]; exact hd, by simpa using h3⟩
  obtain ⟨b, hb, h⟩ := key l (SinkWriter.new out) (bytesLsb out) ⟨by show (0 : Nat) < 64; decide, by show (0 : Nat) < 2 ^ 0; decide, by simp [SinkWriter.new, lsb]⟩ hl
  obtain ⟨h1, h2⟩ := SinkWriter.flush_holds h
  exact ⟨b, hb, h.bits, h2, h1.bits⟩

/-- A field of three bits, then nine bytes across the unaligned path, then a flush. -/
example : ∀ n v, SinkOp.put n v ∈ [SinkOp.put 3 5, .bytes [1, 2, 3, 4, 5, 6, 7, 8, 9], .flush] → n ≤ 56 := by
  intro n v h
  simp at h
  omega

/-! ### C52

The specification is the hybrid integer of ISO/IEC 18181-1 (the `HybridUintConfig` of a JPEG XL decoder): tokens below
`2 ^ splitExp` are the value, the others name the position of the leading one, the bits right below it (`msb` of them) and the lowest bits
(`lsb` of them); the rest is read as extra bits. -/

/-- A hybrid integer configuration. -/
structure Hybrid where
  splitExp : Nat
  msb : Nat
  lsb : Nat

/-- How many extra bits a decoder reads after `token`. -/
def Hybrid.extra (c : Hybrid) (token : Nat) : Nat :=
  if token < 2 ^ c.splitExp then 0 else c.splitExp - (c.msb + c.lsb) + (token - 2 ^ c.splitExp) / 2 ^ (c.msb + c.lsb)

/-- The value a decoder computes from the token and the extra bits. -/
def Hybrid.value (c : Hybrid) (token bits : Nat) : Nat :=
  if token < 2 ^ c.splitExp then token
  else
    let low := token % 2 ^ c.lsb
    let high := token / 2 ^ c.lsb % 2 ^ c.msb + 2 ^ c.msb
    (high * 2 ^ c.extra token + bits) * 2 ^ c.lsb + low

/-- **C52** The tokens of pixel residuals, announced to the decoder as the configuration 0, 0, 0 (encoder.rs:948-951): every 32-bit value
    is what a decoder computes from token and extra bits, which fit in the count the decoder derives from the token. -/
theorem c52_residual (v : Nat) (hv : v < 2 ^ 32) :
    (hybrid000 v).2.2 < 2 ^ (hybrid000 v).2.1 ∧ (hybrid000 v).2.1 = (Hybrid.mk 0 0 0).extra (hybrid000 v).1 ∧
      (Hybrid.mk 0 0 0).value (hybrid000 v).1 (hybrid000 v).2.2 = v ∧ (∀ k, v < 2 ^ k → (hybrid000 v).1 ≤ k) := by
  by_cases h : v = 0
  · subst h; refine ⟨by decide, by decide, by decide, fun k _ => by simp [hybrid000]⟩
  · obtain ⟨h1, h2⟩ := sub_log2 h
    have e : hybrid000 v = (v.log2 + 1, v.log2, v - 2 ^ v.log2) := by
      simp only [hybrid000, msb_eq h hv, if_pos h, ne_eq, Nat.one_shiftLeft]
    rw [e]
    refine ⟨h2, by simp [Hybrid.extra], ?_, fun k hk => (Nat.log2_lt h).2 hk⟩
    simp [Hybrid.value, Hybrid.extra, Nat.mod_one]
    omega

/-- **C52** The tokens of run lengths, announced as the configuration 4, 0, 0 (encoder.rs:936-939). -/
theorem c52_run (v : Nat) (hv : v < 2 ^ 32) :
    (hybridLz77 v).2.2 < 2 ^ (hybridLz77 v).2.1 ∧ (hybridLz77 v).2.1 = (Hybrid.mk 4 0 0).extra (hybridLz77 v).1 ∧
      (Hybrid.mk 4 0 0).value (hybridLz77 v).1 (hybridLz77 v).2.2 = v ∧ (∀ k, 4 ≤ k → v < 2 ^ k → (hybridLz77 v).1 < 12 + k) := by
  by_cases h : v < 16
  · have e : hybridLz77 v = (v, 0, 0) := by simp only [hybridLz77, if_pos h]
    rw [e]
    exact ⟨by show (0 : Nat) < 2 ^ 0; decide, by simp [Hybrid.extra, h], by simp [Hybrid.value, h], fun k hk _ => by show v < 12 + k; omega⟩
  · have h0 : v ≠ 0 := by omega
    obtain ⟨h1, h2⟩ := sub_log2 h0
    have e : hybridLz77 v = (16 + v.log2 - 4, v.log2, v - 2 ^ v.log2) := by
      simp only [hybridLz77, msb_eq h0 hv, if_neg h, Nat.one_shiftLeft]
    have h4 : 4 ≤ v.log2 := (Nat.le_log2 h0).2 (by omega)
    have hn : ¬ 16 + v.log2 - 4 < 2 ^ 4 := by omega
    have hx : (Hybrid.mk 4 0 0).extra (16 + v.log2 - 4) = v.log2 := by
      simp only [Hybrid.extra, if_neg hn, Nat.add_zero, pow_zero, Nat.div_one, Nat.sub_zero]; omega
    rw [e]
    refine ⟨h2, hx.symm, ?_, fun k _ hk => ?_⟩
    · simp only [Hybrid.value, if_neg hn, hx, pow_zero, Nat.mod_one, Nat.div_one, Nat.zero_add, Nat.one_mul, Nat.mul_one, Nat.add_zero]
      omega
    · have := (Nat.log2_lt h0).2 hk
      show 16 + v.log2 - 4 < 12 + k
      omega

example : hybrid000 1000 = (10, 9, 488) ∧ hybridLz77 1000 = (21, 9, 488) := by decide +kernel

end Zune.Jxl
