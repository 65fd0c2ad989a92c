import Verif.Jpeg.Bits

/-!
# zune-jpeg: the bit reader delivers the unstuffed bits (lemmas)
-/

namespace Zune.Jpeg

open Zune.Canon Zune.Stream

/-! ## Entropy coded data -/

theorem nextByte_le (l : List UInt8) : (nextByte l).2.length ≤ l.length := by
  induction l with
  | nil => simp [nextByte]
  | cons b t ih =>
    rw [nextByte]
    split
    · simp only [List.length_cons]; omega
    · simp

/-- What the bytes of an entropy coded segment mean, whatever they are: the data up to the first
marker, then the marker and what follows it.  `FF 00` is the byte `FF` and so is `FF` with fill
bytes before the 00 (which no encoder writes), `FF` followed by anything else a marker. -/
def unstuff : List UInt8 → List UInt8 × Option (UInt8 × List UInt8)
  | [] => ([], none)
  | b :: t =>
    if b = 0xFF then
      if (nextByte t).1 = 0 then
        (0xFF :: (unstuff (nextByte t).2).1, (unstuff (nextByte t).2).2)
      else ([], some (nextByte t))
    else (b :: (unstuff t).1, (unstuff t).2)
termination_by l => l.length
decreasing_by
  all_goals
    have := nextByte_le t
    simp only [List.length_cons]
    omega

theorem unstuff_byte (b : UInt8) (t : List UInt8) (h : b ≠ 0xFF) :
    unstuff (b :: t) = (b :: (unstuff t).1, (unstuff t).2) := by
  rw [unstuff, if_neg h]

theorem unstuff_stuffed (t : List UInt8) (h : (nextByte t).1 = 0) :
    unstuff (0xFF :: t) = (0xFF :: (unstuff (nextByte t).2).1, (unstuff (nextByte t).2).2) := by
  rw [unstuff, if_pos rfl, if_pos h]

theorem unstuff_marker (t : List UInt8) (h : (nextByte t).1 ≠ 0) :
    unstuff (0xFF :: t) = ([], some (nextByte t)) := by
  rw [unstuff, if_pos rfl, if_neg h]

theorem unstuff_nil : unstuff [] = ([], none) := by rw [unstuff]

theorem unstuff_plain (l t : List UInt8) (h : (0xFF : UInt8) ∉ l) :
    unstuff (l ++ t) = (l ++ (unstuff t).1, (unstuff t).2) := by
  induction l with
  | nil => rfl
  | cons b l ih =>
    rw [List.cons_append, unstuff_byte _ _ (by rintro rfl; simp at h),
      ih (fun h' => h (by simp [h']))]
    rfl

/-! ## Buffers -/

theorem mul_add_mod_pow (y a l k : Nat) (ha : a < 2 ^ k) :
    (2 ^ k * y + a) % 2 ^ (l + k) = 2 ^ k * (y % 2 ^ l) + a := by
  have e : 2 ^ (l + k) = 2 ^ k * 2 ^ l := by rw [← pow_add, Nat.add_comm]
  rw [e, Nat.mod_mul, Nat.mul_add_mod, Nat.mod_eq_of_lt ha, Nat.mul_add_div (Nat.two_pow_pos _),
    Nat.div_eq_of_lt ha, Nat.add_zero]
  omega

theorem shl_or (x a k : Nat) (hk : k ≤ 64) (ha : a < 2 ^ k) :
    (x * 2 ^ k % 2 ^ 64) ||| a = 2 ^ k * (x % 2 ^ (64 - k)) + a := by
  have e : x * 2 ^ k % 2 ^ 64 = 2 ^ k * (x % 2 ^ (64 - k)) := by
    rw [show 64 = k + (64 - k) by omega, pow_add, Nat.mul_comm x, Nat.mul_mod_mul_left,
      show k + (64 - k) - k = 64 - k by omega]
  rw [e, Nat.two_pow_add_eq_or_of_lt ha]

/-- Appending `k` bits to the buffer. -/
theorem push_mod (x a l k : Nat) (hlk : l + k ≤ 64) (ha : a < 2 ^ k) :
    ((x * 2 ^ k % 2 ^ 64) ||| a) % 2 ^ (l + k) = (x % 2 ^ l) * 2 ^ k + a ∧
      ((x * 2 ^ k % 2 ^ 64) ||| a) < 2 ^ 64 := by
  rw [shl_or x a k (by omega) ha]
  constructor
  · rw [mul_add_mod_pow _ _ _ _ ha, Nat.mod_mod_of_dvd _ (pow_dvd_pow 2 (by omega : l ≤ 64 - k)),
      Nat.mul_comm]
  · have h1 : x % 2 ^ (64 - k) + 1 ≤ 2 ^ (64 - k) := Nat.mod_lt _ (Nat.two_pow_pos _)
    have h2 := Nat.mul_le_mul_left (2 ^ k) h1
    rw [← pow_add, show k + (64 - k) = 64 by omega, Nat.mul_add, Nat.mul_one] at h2
    omega

theorem align_spec (b l : Nat) (h : l ≤ 64) :
    align b l < 2 ^ 64 ∧ align b l / 2 ^ (64 - l) = b % 2 ^ l := by
  unfold align
  refine ⟨Nat.mod_lt _ (Nat.two_pow_pos _), ?_⟩
  have e : b * 2 ^ (64 - l) % 2 ^ 64 = 2 ^ (64 - l) * (b % 2 ^ l) := by
    rw [show 64 = (64 - l) + l by omega, pow_add, Nat.mul_comm b,
      show (64 - l) + l - l = 64 - l by omega, Nat.mul_mod_mul_left]
  rw [e, Nat.mul_div_cancel_left _ (Nat.two_pow_pos _)]

/-- `buffer` holds the bits `bs`. -/
structure Buf (s : Bs) (bs : List Bool) : Prop where
  left : s.left = bs.length
  lt : s.buffer < 2 ^ 64
  val : s.buffer % 2 ^ bs.length = val bs
  ali : s.aligned < 2 ^ 64

/-- Both buffers hold the bits `bs`. -/
structure Inv (s : Bs) (bs : List Bool) : Prop where
  buf : Buf s bs
  small : bs.length ≤ 63
  ali : s.aligned / 2 ^ (64 - bs.length) = Jpeg.val bs

/-- The bits still to come from the reader. -/
def Bs.tail (s : Bs) : List Bool :=
  if s.marker.isSome then [] else bytesBits (unstuff s.rest).1

/-- The marker that ends the segment, and what follows it. -/
def Bs.fin (s : Bs) : Option (UInt8 × List UInt8) :=
  match s.marker with
  | some m => some (m, s.rest)
  | none => (unstuff s.rest).2

/-- Bits `bs` at hand, and the string `V` of bits of the segment still to be read, possibly
followed by zeros of the reader's own. -/
structure Feeds (s : Bs) (bs V : List Bool) : Prop where
  buf : Buf s bs
  all : ∃ k, bs ++ s.tail = V ++ zeros k ∧ (s.marker = none → s.over = 0 → k = 0)
  over : 0 < s.over → s.marker = none ∧ s.rest = []
  eoi : s.seenEoi = false

theorem feeds_align (s : Bs) (bs V : List Bool) (h : Feeds s bs V) (hl : bs.length ≤ 63) :
    Inv { s with aligned := align s.buffer s.left } bs ∧
      Feeds { s with aligned := align s.buffer s.left } bs V := by
  have := align_spec s.buffer s.left (by rw [h.buf.left]; omega)
  have hb : Buf { s with aligned := align s.buffer s.left } bs :=
    ⟨h.buf.left, h.buf.lt, h.buf.val, this.1⟩
  refine ⟨⟨hb, hl, ?_⟩, ⟨hb, h.all, h.over, h.eoi⟩⟩
  show align s.buffer s.left / 2 ^ (64 - bs.length) = _
  rw [← h.buf.left, this.2, h.buf.left, h.buf.val]

/-- Taking one byte. -/
theorem refillByte_ok (s : Bs) (bs V : List Bool) (h : Feeds s bs V) (hl : bs.length + 8 ≤ 63)
    (hm : s.marker = none) (hk : ∀ m r, s.fin = some (m, r) → knownMarker m = true) :
    (∃ s', s.refillByte = .ok (true, s') ∧ s'.marker = none ∧ s'.fin = s.fin ∧
      ∃ bs', Feeds s' bs' V ∧ bs'.length = bs.length + 8) ∨
    (∃ s', s.refillByte = .ok (false, s') ∧ s'.marker.isSome ∧ s'.fin = s.fin ∧
      ∃ bs', Inv s' bs' ∧ Feeds s' bs' V ∧ V.length ≤ bs'.length) := by
  obtain ⟨k, hall, hk0⟩ := h.all
  have htail : s.tail = bytesBits (unstuff s.rest).1 := by simp [Bs.tail, hm]
  have hfin : s.fin = (unstuff s.rest).2 := by simp [Bs.fin, hm]
  rw [htail] at hall
  have hpush := fun (a : UInt8) => push_mod s.buffer a.toNat s.left 8
    (by rw [h.buf.left]; omega) a.toNat_lt
  -- taking a byte of data
  have data : ∀ (b : UInt8) (rest : List UInt8) (over : Nat),
      (∃ k', bs ++ byteBits b ++ bytesBits (unstuff rest).1 = V ++ zeros k' ∧
        (over = 0 → k' = 0)) →
      (0 < over → rest = []) →
      Feeds { s with buffer := (s.buffer * 2 ^ 8 % 2 ^ 64) ||| b.toNat, left := s.left + 8,
                     over := over, rest := rest } (bs ++ byteBits b) V := by
    intro b rest over hb ho
    refine ⟨⟨by simp [h.buf.left, byteBits_length], (hpush b).2, ?_, h.buf.ali⟩, ?_,
      fun a => ⟨hm, ho a⟩, h.eoi⟩
    · show ((s.buffer * 2 ^ 8 % 2 ^ 64) ||| b.toNat) % _ = _
      rw [List.length_append, byteBits_length, ← h.buf.left, (hpush b).1, h.buf.left, h.buf.val,
        val_append, byteBits_length, val_byteBits]
    · obtain ⟨k', hk', hk1⟩ := hb
      exact ⟨k', by simpa [Bs.tail, hm] using hk', fun _ => hk1⟩
  cases hr : s.rest with
  | nil =>
    left
    rw [hr, unstuff_nil] at hall hfin
    have hz : bs ++ byteBits 0 ++ bytesBits (unstuff []).1 = V ++ zeros (k + 8) := by
      simp only [bytesBits, List.flatMap_nil, List.append_nil, unstuff_nil] at hall ⊢
      rw [hall, byteBits_zero, List.append_assoc, ← List.replicate_add]
    refine ⟨_, ?_, ?_, ?_, bs ++ byteBits 0, data 0 [] (s.over + 1) ⟨_, hz, by omega⟩ (fun _ => rfl),
      by simp [byteBits_length]⟩
    · unfold Bs.refillByte
      simp [hr, u8]
    · exact hm
    · rw [hfin]; simp only [Bs.fin, hm, unstuff_nil]
  | cons b t =>
    rw [hr] at hall hfin
    have hover : 0 < s.over + (if t.isEmpty then 1 else 0) → t = [] := by
      intro ho
      by_cases hs : 0 < s.over
      · have := (h.over hs).2
        rw [hr] at this
        cases this
      · cases t with
        | nil => rfl
        | cons x t => simp at ho; omega
    by_cases hb : b = 0xFF
    · subst hb
      by_cases hn : (nextByte t).1 = 0
      · left
        rw [unstuff_stuffed t hn] at hall hfin
        have hov : 0 < s.over + (if t.isEmpty then 1 else 0) → (nextByte t).2 = [] := by
          intro ho
          rw [hover ho]; rfl
        refine ⟨_, ?_, ?_, ?_, bs ++ byteBits 0xFF, data 0xFF (nextByte t).2 _
          ⟨k, by rw [List.append_assoc]; exact hall, fun ho => hk0 hm (by omega)⟩ hov, by simp [byteBits_length]⟩
        · unfold Bs.refillByte
          simp only [hr, u8, if_true, hn]
        · exact hm
        · rw [hfin]; simp only [Bs.fin, hm]
      · right
        rw [unstuff_marker t hn] at hall hfin
        have hall' : bs = V ++ zeros k := by simpa [bytesBits] using hall
        have hkn := hk (nextByte t).1 (nextByte t).2 (by rw [hfin])
        have hdiv : ((s.buffer * 2 ^ 8 % 2 ^ 64) ||| (0xFF : UInt8).toNat) / 2 ^ 8 =
            s.buffer % 2 ^ 56 := by
          rw [shl_or _ _ 8 (by omega) (by decide), Nat.mul_add_div (by norm_num)]
          simp
        have hbv : s.buffer % 2 ^ 56 % 2 ^ bs.length = Jpeg.val bs := by
          rw [Nat.mod_mod_of_dvd _ (pow_dvd_pow 2 (by omega)), h.buf.val]
        have hblt : s.buffer % 2 ^ 56 < 2 ^ 64 :=
          lt_of_lt_of_le (Nat.mod_lt _ (by norm_num)) (by norm_num)
        by_cases h9 : (nextByte t).1 = 0xD9
        · have hp := push_mod (s.buffer % 2 ^ 56) 0 bs.length 8 (by omega) (by norm_num)
          rw [Nat.or_zero, hbv] at hp
          have hal := align_spec (s.buffer % 2 ^ 56 * 2 ^ 8 % 2 ^ 64) (bs.length + 8) (by omega)
          have hB : Buf { s with
              buffer := s.buffer % 2 ^ 56 * 2 ^ 8 % 2 ^ 64,
              left := bs.length + 8, over := s.over + (if t.isEmpty then 1 else 0),
              rest := (nextByte t).2, marker := some (nextByte t).1,
              aligned := align (s.buffer % 2 ^ 56 * 2 ^ 8 % 2 ^ 64) (bs.length + 8) }
              (bs ++ zeros 8) := by
            refine ⟨by simp, hp.2, ?_, hal.1⟩
            show s.buffer % 2 ^ 56 * 2 ^ 8 % 2 ^ 64 % _ = _
            rw [List.length_append, List.length_replicate, hp.1, val_append, val_zeros,
              List.length_replicate]
          refine ⟨_, ?_, ?_, ?_, bs ++ zeros 8, ⟨hB, by simp; omega, ?_⟩, ⟨hB, ?_, ?_, h.eoi⟩, ?_⟩
          · unfold Bs.refillByte
            simp only [hr, u8, if_true, hdiv, h9, h.buf.left, Nat.add_sub_cancel]
            rw [if_neg (by decide), if_pos (by decide)]
          · rfl
          · rw [hfin]; rfl
          · show align _ _ / 2 ^ (64 - (bs ++ zeros 8).length) = _
            rw [List.length_append, List.length_replicate, hal.2, hp.1, val_append, val_zeros,
              List.length_replicate]
          · refine ⟨k + 8, ?_, fun hx => by cases hx⟩
            simp only [Bs.tail, Option.isSome_some, if_true, List.append_nil]
            rw [hall', List.append_assoc, ← List.replicate_add]
          · intro ho
            exact absurd (by rw [hover ho]; rfl) hn
          · rw [hall']; simp
        · have hfd : ∀ al, al < 2 ^ 64 → Buf { s with
              buffer := s.buffer % 2 ^ 56,
              left := bs.length, over := s.over + (if t.isEmpty then 1 else 0),
              rest := (nextByte t).2, marker := some (nextByte t).1, aligned := al } bs :=
            fun al hal => ⟨rfl, hblt, hbv, hal⟩
          have hal := align_spec (s.buffer % 2 ^ 56) bs.length (by omega)
          have hlt : (if bs.length ≠ 0 then align (s.buffer % 2 ^ 56) bs.length else s.aligned) <
              2 ^ 64 := by
            split
            · exact hal.1
            · exact h.buf.ali
          refine ⟨_, ?_, ?_, ?_, bs, ⟨hfd _ hlt, by omega, ?_⟩, ⟨hfd _ hlt, ?_, ?_, h.eoi⟩, ?_⟩
          · unfold Bs.refillByte
            simp only [hr, u8, if_true, hn, if_false, hdiv, hkn, h9, h.buf.left,
              Nat.add_sub_cancel]
          · rfl
          · rw [hfin]; rfl
          · show (if bs.length ≠ 0 then _ else _) / _ = _
            split
            · rw [hal.2, hbv]
            · rename_i h0
              have h0' : bs = [] := List.length_eq_zero_iff.1 (not_not.1 h0)
              subst h0'
              exact Nat.div_eq_of_lt h.buf.ali
          · refine ⟨k, ?_, fun hx => by cases hx⟩
            simp only [Bs.tail, Option.isSome_some, if_true, List.append_nil]
            exact hall'
          · intro ho
            exact absurd (by rw [hover ho]; rfl) hn
          · rw [hall']; simp
    · left
      rw [unstuff_byte b t hb] at hall hfin
      refine ⟨_, ?_, ?_, ?_, bs ++ byteBits b, data b t _
        ⟨k, by rw [List.append_assoc]; exact hall, fun ho => hk0 hm (by omega)⟩ hover, by simp [byteBits_length]⟩
      · unfold Bs.refillByte
        simp only [hr, u8, hb, if_false]
      · exact hm
      · rw [hfin]; simp only [Bs.fin, hm]

/-- Taking several bytes. -/
theorem refillBytes_ok (n : Nat) (s : Bs) (bs V : List Bool) (h : Feeds s bs V)
    (hl : bs.length + 8 * n ≤ 63) (hm : s.marker = none)
    (hk : ∀ m r, s.fin = some (m, r) → knownMarker m = true) :
    ∃ s' bs', s.refillBytes n = .ok s' ∧ Inv s' bs' ∧ Feeds s' bs' V ∧ s'.fin = s.fin ∧
      (bs'.length = bs.length + 8 * n ∨ (s'.marker.isSome ∧ V.length ≤ bs'.length)) := by
  induction n generalizing s bs with
  | zero =>
    obtain ⟨h1, h2⟩ := feeds_align s bs V h (by omega)
    exact ⟨_, bs, rfl, h1, h2, rfl, Or.inl rfl⟩
  | succ n ih =>
    rcases refillByte_ok s bs V h (by omega) hm hk with ⟨s', a, b, c, bs', d, e⟩ | ⟨s', a, b, c, bs', d, e, f⟩
    · obtain ⟨s'', bs'', h1, h2, h3, h4, h5⟩ := ih s' bs' d (by omega) b
        (fun m r hm' => hk m r (by rw [← c]; exact hm'))
      refine ⟨s'', bs'', ?_, h2, h3, by rw [h4, c], ?_⟩
      · simp only [Bs.refillBytes, a, h1]
      · rcases h5 with h5 | h5
        · left; omega
        · exact Or.inr h5
    · refine ⟨s', bs', ?_, d, e, c, Or.inr ⟨b, f⟩⟩
      simp only [Bs.refillBytes, a]

theorem hasByte_mem (bytes : List UInt8) (v : UInt8) (h : bytes.length = 4) :
    hasByte (BitVec.ofNat 32 (beVal bytes)) v = true ↔ v ∈ bytes := by
  rcases bytes with _ | ⟨x, _ | ⟨y, _ | ⟨z, _ | ⟨w, _ | ⟨u, t⟩⟩⟩⟩⟩
  · simp at h
  · simp at h
  · simp at h
  · simp at h
  · rw [hasByte_iff]
    simp only [List.mem_cons, List.not_mem_nil, or_false]
    simp only [eq_comm]
  · simp at h

/-- Zeros put in once the segment is exhausted. -/
theorem refill_zeros (s : Bs) (bs V : List Bool) (h : Feeds s bs V) (hlt : bs.length < 32)
    (htail : s.tail = []) (hc : s.marker = none → s.over ≠ 0) (B : Nat) (hB : B = s.buffer * 2 ^ 32 % 2 ^ 64) :
    let s' := { s with buffer := B, left := s.left + 32, aligned := align B (s.left + 32) }
    Inv s' (bs ++ zeros 32) ∧ Feeds s' (bs ++ zeros 32) V := by
  have hp := push_mod s.buffer 0 s.left 32 (by rw [h.buf.left]; omega) (Nat.two_pow_pos _)
  rw [Nat.or_zero, ← hB] at hp
  have hlen : (bs ++ zeros 32).length = s.left + 32 := by
    rw [List.length_append, List.length_replicate, h.buf.left]
  have hfe : Feeds { s with buffer := B, left := s.left + 32 } (bs ++ zeros 32) V := by
    refine ⟨⟨hlen.symm, hp.2, ?_, h.buf.ali⟩, ?_, h.over, h.eoi⟩
    · show B % _ = _
      rw [hlen, hp.1, h.buf.left, h.buf.val, val_append, val_zeros, List.length_replicate]
    · obtain ⟨k, hall, _⟩ := h.all
      refine ⟨k + 32, ?_, fun a b => absurd b (hc a)⟩
      show bs ++ zeros 32 ++ s.tail = _
      rw [htail, List.append_nil] at hall ⊢
      rw [hall, List.append_assoc, ← List.replicate_add]
  exact feeds_align _ _ _ hfe (by rw [hlen, h.buf.left]; omega)

/-- Four bytes without `FF` taken at once. -/
theorem refill_word (s : Bs) (bs V : List Bool) (h : Feeds s bs V) (hlt : bs.length < 32)
    (hm : s.marker = none) (hov : ¬ 0 < s.over) (bytes rest : List UInt8)
    (hr : s.rest = bytes ++ rest) (h4 : bytes.length = 4) (hno : (0xFF : UInt8) ∉ bytes) (B : Nat)
    (hB : B = (s.buffer * 2 ^ 32 % 2 ^ 64) ||| beVal bytes) :
    let s' := { s with buffer := B, left := s.left + 32, aligned := align B (s.left + 32),
                       rest := rest }
    Inv s' (bs ++ bytesBits bytes) ∧ Feeds s' (bs ++ bytesBits bytes) V ∧ s'.fin = s.fin := by
  have hun := unstuff_plain bytes rest hno
  rw [← hr] at hun
  have hbv : beVal bytes < 2 ^ 32 := by
    have := beVal_lt bytes
    rw [h4] at this
    exact lt_of_lt_of_le this (by norm_num)
  have hl4 : (bytesBits bytes).length = 32 := by rw [bytesBits_length, h4]
  have hp := push_mod s.buffer (beVal bytes) s.left 32 (by rw [h.buf.left]; omega) hbv
  rw [← hB] at hp
  have hlen : (bs ++ bytesBits bytes).length = s.left + 32 := by
    rw [List.length_append, hl4, h.buf.left]
  have hfe : Feeds { s with buffer := B, left := s.left + 32, rest := rest }
      (bs ++ bytesBits bytes) V := by
    refine ⟨⟨hlen.symm, hp.2, ?_, h.buf.ali⟩, ?_, ?_, h.eoi⟩
    · show B % _ = _
      rw [hlen, hp.1, h.buf.left, h.buf.val, val_append, val_bytesBits, hl4]
    · obtain ⟨k, hall, hk0⟩ := h.all
      refine ⟨k, ?_, hk0⟩
      rw [← hall]
      simp only [Bs.tail, hm, Option.isSome_none, Bool.false_eq_true, if_false, hun,
        bytesBits_append, List.append_assoc]
    · intro ho
      exact absurd ho hov
  obtain ⟨h1, h2⟩ := feeds_align _ _ _ hfe (by rw [hlen, h.buf.left]; omega)
  refine ⟨h1, h2, ?_⟩
  simp only [Bs.fin, hm, hun]

/-- `refill` keeps the bits to be read, and afterwards either 32 bits are at hand, or all those
of the segment. -/
theorem refill_ok (s : Bs) (bs V : List Bool) (hi : Inv s bs) (h : Feeds s bs V)
    (hk : ∀ m r, s.fin = some (m, r) → knownMarker m = true) :
    ∃ s' bs', s.refill = .ok s' ∧ Inv s' bs' ∧ Feeds s' bs' V ∧ s'.fin = s.fin ∧
      (32 ≤ bs'.length ∨ (s'.marker.isSome ∧ V.length ≤ bs'.length)) := by
  by_cases hlt : s.left < 32
  · have hlt' : bs.length < 32 := by rw [← h.buf.left]; exact hlt
    by_cases hc : s.marker.isSome ∨ 0 < s.over ∨ s.seenEoi
    · have htail : s.tail = [] := by
        unfold Bs.tail
        split
        · rfl
        · rename_i hn
          rcases hc with hc | hc | hc
          · exact absurd hc hn
          · rw [(h.over hc).2, unstuff_nil]; rfl
          · rw [h.eoi] at hc; cases hc
      have hz := refill_zeros s bs V h hlt' htail (by
        intro hm ho
        rcases hc with hc | hc | hc
        · rw [hm] at hc; cases hc
        · omega
        · rw [h.eoi] at hc; cases hc) _ rfl
      unfold Bs.refill
      rw [if_pos hlt, if_pos hc]
      generalize s.buffer * 2 ^ 32 % 2 ^ 64 = B at *
      refine ⟨_, _, rfl, hz.1, hz.2, ?_, Or.inl ?_⟩
      · simp only [Bs.fin]
      · rw [List.length_append, List.length_replicate]; omega
    · have hm : s.marker = none := by
        cases hs : s.marker with
        | none => rfl
        | some m => exact absurd (Or.inl (by simp [hs])) hc
      have slow : ∃ s' bs', s.refillBytes 4 = .ok s' ∧ Inv s' bs' ∧ Feeds s' bs' V ∧
          s'.fin = s.fin ∧ (32 ≤ bs'.length ∨ (s'.marker.isSome ∧ V.length ≤ bs'.length)) := by
        obtain ⟨s', bs', a, b, c, d, e⟩ := refillBytes_ok 4 s bs V h (by omega) hm hk
        exact ⟨s', bs', a, b, c, d, e.imp (by omega) id⟩
      unfold Bs.refill
      rw [if_pos hlt, if_neg hc]
      generalize s.refillBytes 4 = R at slow ⊢
      cases hx : Stream.exact 4 s.rest with
      | none => exact slow
      | some p =>
        obtain ⟨bytes, rest⟩ := p
        have hsp : s.rest = bytes ++ rest ∧ bytes.length = 4 := by
          unfold Stream.exact at hx
          split at hx
          · rename_i h4
            cases hx
            exact ⟨(List.take_append_drop 4 s.rest).symm, by simp; omega⟩
          · cases hx
        simp only
        split
        · exact slow
        · rename_i hff
          have hno : (0xFF : UInt8) ∉ bytes := by
            intro hmem
            exact hff ((hasByte_mem bytes 255 hsp.2).2 hmem)
          have hw := refill_word s bs V h hlt' hm (fun ho => hc (Or.inr (Or.inl ho))) bytes rest
            hsp.1 hsp.2 hno _ rfl
          generalize (s.buffer * 2 ^ 32 % 2 ^ 64) ||| beVal bytes = B at *
          exact ⟨_, _, rfl, hw.1, hw.2.1, hw.2.2, Or.inl (by
            rw [List.length_append, bytesBits_length, hsp.2]; omega)⟩
  · refine ⟨s, bs, by unfold Bs.refill; rw [if_neg hlt], hi, h, rfl, Or.inl ?_⟩
    rw [← h.buf.left]; omega

/-! ## Taking bits -/

theorem take_eq {s : Bs} {bs V : List Bool} (h : Feeds s bs V) (n : Nat) (h1 : n ≤ bs.length)
    (h2 : n ≤ V.length) : bs.take n = V.take n := by
  obtain ⟨k, hall, _⟩ := h.all
  have := congrArg (List.take n) hall
  rw [List.take_append_of_le_length h1, List.take_append_of_le_length h2] at this
  exact this

theorem shift_aligned (A L n v : Nat) (hL : L ≤ 63) (hn : n ≤ L) (hA : A < 2 ^ 64)
    (hv : A / 2 ^ (64 - L) = v) :
    A / 2 ^ (64 - n) = v / 2 ^ (L - n) ∧
    A * 2 ^ n % 2 ^ 64 / 2 ^ (64 - (L - n)) = v % 2 ^ (L - n) ∧
    (A * 2 ^ n % 2 ^ 64 + A / 2 ^ (64 - n)) / 2 ^ (64 - (L - n)) = v % 2 ^ (L - n) ∧
    (A * 2 ^ n % 2 ^ 64 + A / 2 ^ (64 - n)) % 2 ^ n = v / 2 ^ (L - n) ∧
    A * 2 ^ n % 2 ^ 64 < 2 ^ 64 ∧ A * 2 ^ n % 2 ^ 64 + A / 2 ^ (64 - n) < 2 ^ 64 := by
  have e1 : A * 2 ^ n % 2 ^ 64 = 2 ^ n * (A % 2 ^ (64 - n)) := by
    rw [show 64 = n + (64 - n) by omega, pow_add, Nat.mul_comm A, Nat.mul_mod_mul_left,
      show n + (64 - n) - n = 64 - n by omega]
  have e2 : A / 2 ^ (64 - n) < 2 ^ n := by
    rw [Nat.div_lt_iff_lt_mul (Nat.two_pow_pos _), ← pow_add, show n + (64 - n) = 64 by omega]
    exact hA
  have e3 : A % 2 ^ (64 - n) / 2 ^ (64 - L) = v % 2 ^ (L - n) := by
    have : 2 ^ (64 - n) = 2 ^ (64 - L) * 2 ^ (L - n) := by rw [← pow_add]; congr 1; omega
    rw [this, Nat.mod_mul_right_div_self, hv]
  have e4 : 2 ^ (64 - (L - n)) = 2 ^ n * 2 ^ (64 - L) := by rw [← pow_add]; congr 1; omega
  have e5 : A / 2 ^ (64 - n) = v / 2 ^ (L - n) := by
    rw [← hv, Nat.div_div_eq_div_mul, ← pow_add]
    congr 2; omega
  refine ⟨e5, ?_, ?_, ?_, Nat.mod_lt _ (Nat.two_pow_pos _), ?_⟩
  · rw [e1, e4, ← Nat.div_div_eq_div_mul, Nat.mul_div_cancel_left _ (Nat.two_pow_pos _), e3]
  · rw [e1, e4, ← Nat.div_div_eq_div_mul, Nat.mul_add_div (Nat.two_pow_pos _),
      Nat.div_eq_of_lt e2, Nat.add_zero, e3]
  · rw [e1, Nat.mul_add_mod, Nat.mod_eq_of_lt e2, e5]
  · rw [e1]
    have h1 : A % 2 ^ (64 - n) + 1 ≤ 2 ^ (64 - n) := Nat.mod_lt _ (Nat.two_pow_pos _)
    have h2 := Nat.mul_le_mul_left (2 ^ n) h1
    rw [← pow_add, show n + (64 - n) = 64 by omega, Nat.mul_add, Nat.mul_one] at h2
    omega

theorem peek_le {s : Bs} {bs : List Bool} (h : Inv s bs) (n : Nat) (hn : n ≤ bs.length) :
    s.peek n = val (bs.take n) := by
  rw [Bs.peek, val_take]
  exact (shift_aligned _ _ n _ h.small hn h.buf.ali h.ali).1

theorem feeds_drop {s : Bs} {bs V : List Bool} (h : Feeds s bs V) (n : Nat) (h1 : n ≤ bs.length)
    (h2 : n ≤ V.length) : ∃ k, bs.drop n ++ s.tail = V.drop n ++ zeros k ∧
      (s.marker = none → s.over = 0 → k = 0) := by
  obtain ⟨k, hall, hk0⟩ := h.all
  have := congrArg (List.drop n) hall
  rw [List.drop_append_of_le_length h1, List.drop_append_of_le_length h2] at this
  exact ⟨k, this, hk0⟩

theorem buf_drop {s : Bs} {bs : List Bool} (h : Buf s bs) (n : Nat) (hn : n ≤ bs.length) :
    s.buffer % 2 ^ (bs.length - n) = Jpeg.val (bs.drop n) := by
  rw [val_drop, ← h.val, Nat.mod_mod_of_dvd _ (pow_dvd_pow 2 (by omega))]

theorem drop_ok {s : Bs} {bs V : List Bool} (hi : Inv s bs) (h : Feeds s bs V) (n : Nat)
    (h1 : n ≤ bs.length) (h2 : n ≤ V.length) :
    Inv (s.drop n) (bs.drop n) ∧ Feeds (s.drop n) (bs.drop n) (V.drop n) ∧
      (s.drop n).fin = s.fin := by
  have hs := shift_aligned _ _ n _ hi.small h1 hi.buf.ali hi.ali
  have hb : Buf (s.drop n) (bs.drop n) := by
    refine ⟨by simp [Bs.drop, h.buf.left], h.buf.lt, ?_, hs.2.2.2.2.1⟩
    rw [List.length_drop]
    exact buf_drop h.buf n h1
  refine ⟨⟨hb, by rw [List.length_drop]; have := hi.small; omega, ?_⟩,
    ⟨hb, feeds_drop h n h1 h2, h.over, h.eoi⟩, rfl⟩
  rw [val_drop, List.length_drop]
  exact hs.2.1

theorem get_ok {s : Bs} {bs V : List Bool} (hi : Inv s bs) (h : Feeds s bs V) (n : Nat)
    (h1 : n ≤ bs.length) (h2 : n ≤ V.length) :
    (s.get n).1 = val (V.take n) ∧ Inv (s.get n).2 (bs.drop n) ∧
      Feeds (s.get n).2 (bs.drop n) (V.drop n) ∧ (s.get n).2.fin = s.fin := by
  have hs := shift_aligned _ _ n _ hi.small h1 hi.buf.ali hi.ali
  have hsm := hi.small
  have hb : Buf (s.get n).2 (bs.drop n) := by
    refine ⟨?_, h.buf.lt, ?_, hs.2.2.2.2.2⟩
    · show (s.left + 256 - n) % 256 = _
      rw [List.length_drop, h.buf.left]
      omega
    · rw [List.length_drop]
      exact buf_drop h.buf n h1
  refine ⟨?_, ⟨hb, by rw [List.length_drop]; omega, ?_⟩,
    ⟨hb, feeds_drop h n h1 h2, h.over, h.eoi⟩, rfl⟩
  · rw [← take_eq h n h1 h2, val_take]
    exact hs.2.2.2.1
  · rw [val_drop, List.length_drop]
    exact hs.2.2.1

/-! ## Reading from a segment -/

/-- The stream `s` is about to deliver the bits `V` of its segment, which ends at `e`: a marker
(known to the decoder) with what follows it, or the end of the data. -/
structure Str (s : Bs) (V : List Bool) (e : Option (UInt8 × List UInt8)) : Prop where
  bits : ∃ bs, Inv s bs ∧ Feeds s bs V
  fin : s.fin = e
  known : ∀ m r, e = some (m, r) → knownMarker m = true

theorem str_new (rest : List UInt8)
    (hk : ∀ m r, (unstuff rest).2 = some (m, r) → knownMarker m = true) :
    Str (Bs.new rest) (bytesBits (unstuff rest).1) (unstuff rest).2 := by
  have hb : Buf (Bs.new rest) [] := ⟨rfl, by simp [Bs.new], by simp [Bs.new, val, Nat.mod_one],
    by simp [Bs.new]⟩
  exact ⟨⟨[], ⟨hb, by simp, by simp [Bs.new, val]⟩, ⟨hb, ⟨0, by simp [Bs.tail, Bs.new], fun _ _ => rfl⟩,
    fun h => by simp [Bs.new] at h, rfl⟩⟩, rfl, hk⟩

theorem str_refill {s : Bs} {V : List Bool} {e} (h : Str s V e) :
    ∃ s', s.refill = .ok s' ∧ Str s' V e ∧ (32 ≤ s'.left ∨ V.length ≤ s'.left) := by
  obtain ⟨⟨bs, hi, hf⟩, hfin, hk⟩ := h
  obtain ⟨s', bs', h1, h2, h3, h4, h5⟩ := refill_ok s bs V hi hf (by rw [hfin]; exact hk)
  refine ⟨s', h1, ⟨⟨bs', h2, h3⟩, by rw [h4, hfin], hk⟩, ?_⟩
  rw [h2.buf.left]
  exact h5.imp id And.right

theorem str_get {s : Bs} {x V : List Bool} {e} (h : Str s (x ++ V) e) (n : Nat)
    (hn : n = x.length) (hl : n ≤ s.left) :
    (s.get n).1 = val x ∧ Str (s.get n).2 V e ∧ (s.get n).2.left = s.left - n := by
  obtain ⟨⟨bs, hi, hf⟩, hfin, hk⟩ := h
  rw [hi.buf.left] at hl
  obtain ⟨h1, h2, h3, h4⟩ := get_ok hi hf n hl (by simp [hn])
  rw [hn, List.take_left] at h1
  rw [hn, List.drop_left, ← hn] at h3
  refine ⟨by rw [hn]; exact h1, ⟨⟨_, h2, h3⟩, by rw [h4, hfin], hk⟩, ?_⟩
  rw [h2.buf.left, List.length_drop, hi.buf.left]

theorem str_drop {s : Bs} {x V : List Bool} {e} (h : Str s (x ++ V) e) (n : Nat)
    (hn : n = x.length) (hl : n ≤ s.left) :
    Str (s.drop n) V e ∧ (s.drop n).left = s.left - n := by
  obtain ⟨⟨bs, hi, hf⟩, hfin, hk⟩ := h
  rw [hi.buf.left] at hl
  obtain ⟨h2, h3, h4⟩ := drop_ok hi hf n hl (by simp [hn])
  rw [hn, List.drop_left, ← hn] at h3
  refine ⟨⟨⟨_, h2, h3⟩, by rw [h4, hfin], hk⟩, ?_⟩
  rw [h2.buf.left, List.length_drop, hi.buf.left]

/-- The window starts with the bits to come. -/
theorem str_peek {s : Bs} {x V : List Bool} {e} (h : Str s (x ++ V) e) (hl : x.length ≤ s.left)
    (N : Nat) (hN : x.length ≤ N) (hN' : N ≤ 64) :
    s.peek N / 2 ^ (N - x.length) = val x := by
  obtain ⟨⟨bs, hi, hf⟩, hfin, hk⟩ := h
  rw [hi.buf.left] at hl
  have h1 := peek_le hi x.length hl
  rw [take_eq hf _ hl (by simp), List.take_left] at h1
  rw [← h1, Bs.peek, Bs.peek, Nat.div_div_eq_div_mul, ← pow_add]
  congr 2; omega

/-- `code` is a code of the symbol `sym`. -/
def IsCode (cnt values : Nat → Nat) (sym : Nat) (code : List Bool) : Prop :=
  ∃ l k, 1 ≤ l ∧ l ≤ 16 ∧ k < cnt l ∧ sym = values (before cnt l + k) ∧
    code = toBits l (first cnt l + k)

theorem isCode_length {cnt values : Nat → Nat} {sym : Nat} {code : List Bool}
    (h : IsCode cnt values sym code) : 1 ≤ code.length ∧ code.length ≤ 16 := by
  obtain ⟨l, k, h1, h2, h3, h4, rfl⟩ := h
  rw [toBits_length]; exact ⟨h1, h2⟩

theorem isCode_decode {cnt values : Nat → Nat} {t : Huff} (g : Good cnt values t)
    (hv : ∀ p, values p < 256) {sym : Nat} {code : List Bool} (hc : IsCode cnt values sym code)
    (w : Nat) (hw : w / 2 ^ (16 - code.length) = val code) :
    t.decode w = some (sym, code.length) := by
  obtain ⟨l, k, h1, h2, h3, rfl, rfl⟩ := hc
  have hL := g.legal l h1 h2
  rw [toBits_length, val_toBits, Nat.mod_eq_of_lt (by omega)] at hw
  rw [decode_match g hv w l h1 h2 ⟨by omega, by omega⟩, hw, toBits_length,
    show first cnt l + k - first cnt l = k by omega]

theorem str_huff {cnt values : Nat → Nat} {t : Huff} (g : Good cnt values t)
    (hv : ∀ p, values p < 256) {sym : Nat} {code V : List Bool} (hc : IsCode cnt values sym code)
    {s : Bs} {e} (h : Str s (code ++ V) e) (hl : code.length ≤ s.left) :
    s.huff t = .ok (sym, s.drop code.length) ∧ Str (s.drop code.length) V e ∧
      (s.drop code.length).left = s.left - code.length := by
  have hlen := isCode_length hc
  have hp := str_peek h hl 16 (by omega) (by omega)
  have hd := isCode_decode g hv hc _ hp
  refine ⟨?_, str_drop h _ rfl hl⟩
  unfold Bs.huff
  rw [hd]
  simp only [if_neg (show ¬ s.left < code.length by omega)]

end Zune.Jpeg
