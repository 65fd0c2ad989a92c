/-
The bit reader of the deflate decoder: model of `crates/zune-inflate/src/bitstream.rs` and its invariant.
-/
import Verif.Inflate.Crc

namespace Zune.Inflate

/-! ### Model -/

/-- `BitStreamReader` (bitstream.rs:14-23).  `left` is a `u8`, `buf` a `u64`. -/
structure Bits where
  src : List UInt8
  pos : Nat
  left : Nat
  buf : Nat
  over : Nat
deriving Repr, DecidableEq

/-- `BitStreamReader::new` (bitstream.rs:31-39). -/
def Bits.new (src : List UInt8) : Bits := { src := src, pos := 0, left := 0, buf := 0, over := 0 }

/-- The body shared by `refill` (bitstream.rs:53-66) and `refill_inner_loop` (bitstream.rs:79-94).  Shifts by 64 or more (which
    would abort a checked build) take the shift amount modulo 64, as an optimised build does. -/
def Bits.load (b : Bits) : Bits :=
  { b with
    pos := b.pos + ((63 ^^^ b.left) >>> 3)
    buf := (b.buf ||| (leVal ((b.src.drop b.pos).take 8) <<< (b.left % 64))) % 2 ^ 64
    left := b.left ||| 56 }

/-- First loop of `refill_slow` (bitstream.rs:100-108) over the given bytes. -/
def Bits.slowBytes (b : Bits) : List UInt8 → Bits
  | [] => b
  | x :: t =>
    if b.left ≥ 56 then b
    else { b with buf := (b.buf ||| (x.toNat <<< b.left)) % 2 ^ 64, left := b.left + 8, pos := b.pos + 1 }.slowBytes t

/-- Second loop of `refill_slow` (bitstream.rs:109-112). -/
def Bits.slowPad (b : Bits) : Bits :=
  if b.left < 56 then { b with left := b.left + 8, over := b.over + 1 }.slowPad else b
termination_by 56 - b.left
decreasing_by simp_wf; omega

/-- `refill` (bitstream.rs:44-69) with `refill_slow` (bitstream.rs:97-113). -/
def Bits.refill (b : Bits) : Bits :=
  if b.pos + 8 ≤ b.src.length then b.load else (b.slowBytes (b.src.drop b.pos)).slowPad

/-- `refill_inner_loop` (bitstream.rs:71-95). -/
def Bits.refillInner (b : Bits) : Bits :=
  if b.pos + 8 ≤ b.src.length then b.load else b

/-- `drop_bits` (bitstream.rs:163-167).  `bits_left` is a `u8`: an optimised build wraps where a checked one aborts. -/
def Bits.drop (b : Bits) (n : Nat) : Bits :=
  { b with buf := b.buf >>> n, left := (b.left + 256 - n) % 256 }

/-- `get_bits` (bitstream.rs:127-139). -/
def Bits.get (b : Bits) (n : Nat) : Nat × Bits := (b.buf &&& (2 ^ n - 1), b.drop n)

/-- `peek_bits` and `peek_var_bits` (bitstream.rs:116-124). -/
def Bits.peek (b : Bits) (n : Nat) : Nat := b.buf &&& (2 ^ n - 1)

/-- `get_position` (bitstream.rs:146-149); natural subtraction saturates. -/
def Bits.position (b : Bits) : Nat := b.pos - (b.left >>> 3)

/-- `reset` (bitstream.rs:152-155). -/
def Bits.reset (b : Bits) : Bits := { b with buf := 0, left := 0 }

/-- `remaining_bytes` (bitstream.rs:172-174); natural subtraction saturates. -/
def Bits.remaining (b : Bits) : Nat := b.src.length - b.pos

/-! ### Bits of a byte string -/

theorem leVal_drop (l : List UInt8) (k : Nat) : leVal (l.drop k) = leVal l / 2 ^ (8 * k) := by
  induction k generalizing l with
  | zero => simp
  | succ k ih =>
    cases l with
    | nil => simp [leVal_nil]
    | cons b l =>
      have hb : b.toNat < 256 := b.toNat_lt
      rw [List.drop_succ_cons, ih, leVal_cons, show 8 * (k + 1) = 8 + 8 * k by ring, Nat.pow_add, ← Nat.div_div_eq_div_mul]
      congr 1
      omega

theorem leVal_take (l : List UInt8) (k : Nat) : leVal (l.take k) = leVal l % 2 ^ (8 * k) := by
  induction k generalizing l with
  | zero => simp [leVal_nil, Nat.mod_one]
  | succ k ih =>
    cases l with
    | nil => simp [leVal_nil]
    | cons b l =>
      have hb : b.toNat < 256 := b.toNat_lt
      rw [List.take_succ_cons, leVal_cons, ih, leVal_cons, show 8 * (k + 1) = 8 + 8 * k by ring, Nat.pow_add, Nat.mod_mul]
      congr 1
      · omega
      · congr 2; omega

theorem leVal_testBit_ge (l : List UInt8) (i : Nat) (h : 8 * l.length ≤ i) : (leVal l).testBit i = false :=
  Nat.testBit_lt_two_pow (lt_of_lt_of_le (leVal_lt l) (Nat.pow_le_pow_right (by decide) h))

theorem byte_testBit (l : List UInt8) (k : Nat) (x : UInt8) (t : List UInt8) (h : l.drop k = x :: t) (i : Nat) (hi : i < 8) :
    x.toNat.testBit i = (leVal l).testBit (8 * k + i) := by
  have e := leVal_drop l k
  rw [h, leVal_cons] at e
  have e2 : x.toNat = leVal l / 2 ^ (8 * k) % 2 ^ 8 := by
    rw [← e]; have := x.toNat_lt; omega
  rw [e2, Nat.testBit_mod_two_pow, Nat.testBit_div_two_pow]
  simp [hi, Nat.add_comm]

/-! ### Invariant -/

/-- The reader has consumed exactly the first `p` bits of `src`: the counters agree, the valid bits of the buffer are the next bits of
    the source (zero past its end), and stray bits above the valid ones are source bits too. -/
structure Bits.Ok (b : Bits) (p : Nat) : Prop where
  count : 8 * (b.pos + b.over) = p + b.left
  left_lt : b.left < 64
  pos_le : b.pos ≤ b.src.length
  over_end : 0 < b.over → b.pos = b.src.length
  buf_lt : b.buf < 2 ^ 64
  bits : ∀ i, i < b.left → b.buf.testBit i = (leVal b.src).testBit (p + i)
  stray : ∀ i, b.buf.testBit i = true → (leVal b.src).testBit (p + i) = true

theorem Bits.new_ok (src : List UInt8) : (Bits.new src).Ok 0 := by
  refine ⟨rfl, (by decide : 0 < 64), Nat.zero_le _, fun h => absurd h (by simp [Bits.new]), (by decide : 0 < 2 ^ 64), ?_, ?_⟩
  · intro i hi; exact absurd hi (by simp [Bits.new])
  · intro i hi; simp [Bits.new] at hi

theorem or56 : ∀ n, n < 64 → n ||| 56 = 56 + n % 8 := by decide

theorem xor63 : ∀ n, n < 64 → (63 ^^^ n) >>> 3 = 7 - n / 8 := by decide

theorem Bits.load_ok (b : Bits) (p : Nat) (h : b.Ok p) (hs : b.pos + 8 ≤ b.src.length) :
    b.load.Ok p ∧ 56 ≤ b.load.left ∧ b.load.over = b.over ∧ b.load.src = b.src := by
  have hl := h.left_lt
  have hover : b.over = 0 := by
    by_contra hne
    have := h.over_end (by omega)
    omega
  have hc := h.count
  have key : ∀ i, i < 64 → b.load.buf.testBit i = (leVal b.src).testBit (p + i) := by
    intro i hi
    simp only [Bits.load]
    rw [Nat.testBit_mod_two_pow, Nat.testBit_or, Nat.testBit_shiftLeft, Nat.mod_eq_of_lt hl, leVal_take, leVal_drop, Nat.testBit_mod_two_pow,
      Nat.testBit_div_two_pow]
    by_cases hil : i < b.left
    · have h2 : ¬ b.left ≤ i := by omega
      simp [hi, h2, h.bits i hil]
    · have h2 : b.left ≤ i := by omega
      have h3 : i - b.left < 8 * 8 := by omega
      have h4 : i - b.left + 8 * b.pos = p + i := by omega
      rw [h4]
      simp only [hi, h2, h3, decide_true, Bool.true_and]
      cases hb : b.buf.testBit i with
      | false => simp
      | true => simp [h.stray i hb]
  have hge : ∀ i, 64 ≤ i → b.load.buf.testBit i = false := by
    intro i hi
    simp only [Bits.load]
    rw [Nat.testBit_mod_two_pow]
    have : ¬ i < 64 := by omega
    simp [this]
  have hleft : b.load.left = 56 + b.left % 8 := or56 b.left hl
  have hpos : b.load.pos = b.pos + (7 - b.left / 8) := by simp only [Bits.load]; rw [xor63 b.left hl]
  refine ⟨⟨?_, ?_, ?_, ?_, ?_, ?_, ?_⟩, ?_, rfl, rfl⟩
  · rw [hleft, hpos]
    show 8 * (b.pos + (7 - b.left / 8) + b.over) = _
    omega
  · omega
  · rw [hpos]; show _ ≤ b.src.length; omega
  · intro hlt
    have : b.load.over = b.over := rfl
    omega
  · exact Nat.mod_lt _ (by decide)
  · intro i hi
    rw [hleft] at hi
    exact key i (by omega)
  · intro i hi
    by_cases hi64 : i < 64
    · rw [key i hi64] at hi; exact hi
    · rw [hge i (by omega)] at hi; exact absurd hi (by decide)
  · omega

theorem Bits.slowBytes_ok (b : Bits) (p : Nat) (l : List UInt8) (h : b.Ok p) (hd : b.src.drop b.pos = l) :
    (b.slowBytes l).Ok p ∧ (b.slowBytes l).over = b.over ∧ (b.slowBytes l).src = b.src ∧ b.left ≤ (b.slowBytes l).left ∧
      (56 ≤ (b.slowBytes l).left ∨ (b.slowBytes l).pos = b.src.length) := by
  induction l generalizing b with
  | nil =>
    have hp : b.pos = b.src.length := by
      have h1 := h.pos_le
      have h2 : b.src.length ≤ b.pos := List.drop_eq_nil_iff.mp hd
      omega
    exact ⟨h, rfl, rfl, Nat.le_refl _, Or.inr hp⟩
  | cons x t ih =>
    unfold Bits.slowBytes
    by_cases hl : b.left ≥ 56
    · rw [if_pos hl]
      exact ⟨h, rfl, rfl, Nat.le_refl _, Or.inl hl⟩
    · rw [if_neg hl]
      have hlen : b.pos < b.src.length := by
        by_contra hn
        have := List.drop_eq_nil_iff.mpr (Nat.le_of_not_lt hn)
        rw [this] at hd
        exact absurd hd (by simp)
      have hover : b.over = 0 := by
        by_contra hne
        have := h.over_end (by omega)
        omega
      have hc := h.count
      have hx : x.toNat < 2 ^ 8 := x.toNat_lt
      have hd2 : b.src.drop (b.pos + 1) = t := by
        rw [← List.drop_drop, hd]; rfl
      have key : ∀ i, ((b.buf ||| (x.toNat <<< b.left)) % 2 ^ 64).testBit i =
          (decide (i < 64) && (b.buf.testBit i || (decide (b.left ≤ i) && x.toNat.testBit (i - b.left)))) := by
        intro i
        rw [Nat.testBit_mod_two_pow, Nat.testBit_or, Nat.testBit_shiftLeft]
      have hxb : ∀ i, b.left ≤ i → i < b.left + 8 → x.toNat.testBit (i - b.left) = (leVal b.src).testBit (p + i) := by
        intro i h1 h2
        rw [byte_testBit b.src b.pos x t hd _ (by omega)]
        congr 1; omega
      have hxz : ∀ i, b.left + 8 ≤ i → x.toNat.testBit (i - b.left) = false := by
        intro i hi
        exact Nat.testBit_lt_two_pow (lt_of_lt_of_le hx (Nat.pow_le_pow_right (by decide) (by omega)))
      have hok : Bits.Ok { b with buf := (b.buf ||| (x.toNat <<< b.left)) % 2 ^ 64, left := b.left + 8, pos := b.pos + 1 } p := by
        refine ⟨?_, ?_, ?_, ?_, ?_, ?_, ?_⟩
        · show 8 * (b.pos + 1 + b.over) = p + (b.left + 8); omega
        · show b.left + 8 < 64; omega
        · show b.pos + 1 ≤ b.src.length; omega
        · intro hlt
          have : 0 < b.over := hlt
          omega
        · exact Nat.mod_lt _ (by decide)
        · intro i hi
          have hi' : i < b.left + 8 := hi
          show ((b.buf ||| (x.toNat <<< b.left)) % 2 ^ 64).testBit i = (leVal b.src).testBit (p + i)
          rw [key]
          have h64 : i < 64 := by omega
          by_cases h1 : i < b.left
          · have h2 : ¬ b.left ≤ i := by omega
            simp [h64, h2, h.bits i h1]
          · rw [hxb i (by omega) hi']
            have h2 : b.left ≤ i := by omega
            simp only [h64, h2, decide_true, Bool.true_and]
            cases hb : b.buf.testBit i with
            | false => simp
            | true => simp [h.stray i hb]
        · intro i hi
          have hi' : ((b.buf ||| (x.toNat <<< b.left)) % 2 ^ 64).testBit i = true := hi
          rw [key] at hi'
          show (leVal b.src).testBit (p + i) = true
          cases hb : b.buf.testBit i with
          | true => exact h.stray i hb
          | false =>
            rw [hb] at hi'
            simp only [Bool.and_eq_true, decide_eq_true_eq, Bool.false_or] at hi'
            obtain ⟨h64, h1, h2⟩ := hi'
            by_cases h8 : i < b.left + 8
            · rw [← hxb i h1 h8]; exact h2
            · rw [hxz i (by omega)] at h2; exact absurd h2 (by decide)
      obtain ⟨r1, r2, r3, r4, r5⟩ := ih { b with buf := (b.buf ||| (x.toNat <<< b.left)) % 2 ^ 64, left := b.left + 8, pos := b.pos + 1 } hok hd2
      exact ⟨r1, r2, r3, Nat.le_trans (Nat.le_add_right _ 8) r4, r5⟩

theorem Bits.slowPad_ok (b : Bits) (p : Nat) (h : b.Ok p) (hp : 56 ≤ b.left ∨ b.pos = b.src.length) :
    b.slowPad.Ok p ∧ 56 ≤ b.slowPad.left ∧ b.slowPad.src = b.src ∧ (56 ≤ b.left → b.slowPad.over = b.over) := by
  fun_induction Bits.slowPad b with
  | case1 b hl ih =>
    have hpos : b.pos = b.src.length := by omega
    have hc := h.count
    have hend : ∀ i, b.left ≤ i → (leVal b.src).testBit (p + i) = false := by
      intro i hi
      apply leVal_testBit_ge
      omega
    have hok : Bits.Ok { b with left := b.left + 8, over := b.over + 1 } p := by
      refine ⟨?_, ?_, h.pos_le, fun _ => hpos, h.buf_lt, ?_, h.stray⟩
      · show 8 * (b.pos + (b.over + 1)) = p + (b.left + 8); omega
      · show b.left + 8 < 64; omega
      · intro i hi
        by_cases h1 : i < b.left
        · exact h.bits i h1
        · show b.buf.testBit i = (leVal b.src).testBit (p + i)
          rw [hend i (by omega)]
          cases hb : b.buf.testBit i with
          | false => rfl
          | true => have := h.stray i hb; rw [hend i (by omega)] at this; exact absurd this (by decide)
    obtain ⟨r1, r2, r3, _⟩ := ih hok (Or.inr hpos)
    exact ⟨r1, r2, r3, fun h56 => by omega⟩
  | case2 b hl => exact ⟨h, by omega, rfl, fun _ => rfl⟩

/-- `refill` keeps the invariant and leaves at least 56 bits in the buffer; it reports no over-read while 56 more bits exist. -/
theorem Bits.refill_ok (b : Bits) (p : Nat) (h : b.Ok p) :
    b.refill.Ok p ∧ 56 ≤ b.refill.left ∧ b.refill.src = b.src ∧ (p + 56 ≤ 8 * b.src.length → b.refill.over = 0) := by
  unfold Bits.refill
  by_cases hs : b.pos + 8 ≤ b.src.length
  · rw [if_pos hs]
    obtain ⟨h1, h2, h3, h4⟩ := Bits.load_ok b p h hs
    refine ⟨h1, h2, h4, fun _ => ?_⟩
    rw [h3]
    by_contra hne
    have := h.over_end (by omega)
    omega
  · rw [if_neg hs]
    obtain ⟨h1, h2, h3, h4, h5⟩ := Bits.slowBytes_ok b p _ h rfl
    obtain ⟨r1, r2, r3, r4⟩ := Bits.slowPad_ok _ p h1 (by rw [h3]; exact h5)
    refine ⟨r1, r2, r3.trans h3, fun hp => ?_⟩
    by_contra hne
    have e1 := r1.over_end (by omega)
    have e2 := r1.count
    have e3 := r1.left_lt
    have hs2 := r3.trans h3
    rw [hs2] at e1
    by_cases h56 : 56 ≤ (b.slowBytes (b.src.drop b.pos)).left
    · rw [r4 h56, h2] at hne
      have e4 := h.over_end (by omega)
      have e5 := h.count
      have e6 := h.left_lt
      omega
    · rcases h5 with h5 | h5
      · exact h56 h5
      · have e4 := h1.count
        rw [h2] at e4
        omega

/-- Values read by `get_bits` are the next bits of the source, least significant first. -/
theorem Bits.get_ok (b : Bits) (p n : Nat) (h : b.Ok p) (hn : n ≤ b.left) :
    (b.get n).1 = leVal b.src / 2 ^ p % 2 ^ n ∧ (b.get n).2.Ok (p + n) ∧ (b.get n).2.left = b.left - n ∧ (b.get n).2.src = b.src ∧
      (b.get n).2.over = b.over ∧ (b.get n).2.pos = b.pos := by
  have hl := h.left_lt
  have hleft : (b.get n).2.left = b.left - n := by
    show (b.left + 256 - n) % 256 = b.left - n
    omega
  have hc := h.count
  refine ⟨?_, ⟨?_, ?_, h.pos_le, h.over_end, ?_, ?_, ?_⟩, hleft, rfl, rfl, rfl⟩
  · apply Nat.eq_of_testBit_eq
    intro i
    show (b.buf &&& (2 ^ n - 1)).testBit i = _
    rw [Nat.and_two_pow_sub_one_eq_mod, Nat.testBit_mod_two_pow, Nat.testBit_mod_two_pow, Nat.testBit_div_two_pow]
    by_cases hi : i < n
    · rw [h.bits i (by omega), Nat.add_comm]
    · simp [hi]
  · rw [hleft]
    show 8 * (b.pos + b.over) = _
    omega
  · omega
  · show b.buf >>> n < 2 ^ 64
    exact lt_of_le_of_lt (Nat.shiftRight_le _ _) h.buf_lt
  · intro i hi
    rw [hleft] at hi
    show (b.buf >>> n).testBit i = (leVal b.src).testBit (p + n + i)
    rw [Nat.testBit_shiftRight, h.bits (n + i) (by omega), Nat.add_assoc]
  · intro i hi
    show (leVal b.src).testBit (p + n + i) = true
    have hi' : (b.buf >>> n).testBit i = true := hi
    rw [Nat.testBit_shiftRight] at hi'
    rw [Nat.add_assoc]
    exact h.stray (n + i) hi'

theorem Bits.peek_ok (b : Bits) (p n : Nat) (h : b.Ok p) (hn : n ≤ b.left) : b.peek n = leVal b.src / 2 ^ p % 2 ^ n :=
  (Bits.get_ok b p n h hn).1

/-- A reader standing on a byte boundary, as left by the stored-block code. -/
theorem Bits.reset_ok (src : List UInt8) (pos over : Nat) (h1 : pos ≤ src.length) (h2 : 0 < over → pos = src.length) :
    Bits.Ok { src := src, pos := pos, left := 0, buf := 0, over := over } (8 * (pos + over)) := by
  refine ⟨rfl, (by decide : 0 < 64), h1, h2, (by decide : 0 < 2 ^ 64), ?_, ?_⟩
  · intro i hi; exact absurd hi (Nat.not_lt_zero i)
  · intro i hi; simp at hi

end Zune.Inflate
