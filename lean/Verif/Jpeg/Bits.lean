import Verif.Jpeg.BitsModel
import Verif.Jpeg.Huff

/-!
# zune-jpeg: the bit reader (lemmas)
-/

namespace Zune.Jpeg

open Zune.Canon Zune.Stream

/-! ## Bit strings -/

/-- The number written by a bit string, first bit most significant. -/
def val : List Bool → Nat
  | [] => 0
  | b :: t => (if b then 2 ^ t.length else 0) + val t

/-- `n` as a string of `l` bits. -/
def toBits : Nat → Nat → List Bool
  | 0, _ => []
  | l + 1, n => n.testBit l :: toBits l n

/-- The bits of a byte, most significant first. -/
def byteBits (b : UInt8) : List Bool := toBits 8 b.toNat

/-- The bits of a byte string. -/
def bytesBits (l : List UInt8) : List Bool := l.flatMap byteBits

/-- A run of zero bits. -/
abbrev zeros (k : Nat) : List Bool := List.replicate k false

theorem val_append (a b : List Bool) : val (a ++ b) = val a * 2 ^ b.length + val b := by
  induction a with
  | nil => simp [val]
  | cons x a ih =>
    simp only [List.cons_append, val, ih, List.length_append]
    split <;> ring

theorem val_lt (a : List Bool) : val a < 2 ^ a.length := by
  induction a with
  | nil => simp [val]
  | cons x a ih =>
    simp only [val, List.length_cons, pow_succ]
    split <;> omega

theorem val_zeros (k : Nat) : val (zeros k) = 0 := by
  induction k with
  | zero => rfl
  | succ k ih => simp [List.replicate_succ, val, ih]

theorem toBits_length (l n : Nat) : (toBits l n).length = l := by
  induction l with
  | zero => rfl
  | succ l ih => simp [toBits, ih]

theorem val_toBits (l n : Nat) : val (toBits l n) = n % 2 ^ l := by
  induction l with
  | zero => simp [toBits, val, Nat.mod_one]
  | succ l ih =>
    rw [toBits, val, ih, toBits_length, Nat.testBit_eq_decide_div_mod_eq, Nat.mod_pow_succ]
    have : n / 2 ^ l % 2 = 0 ∨ n / 2 ^ l % 2 = 1 := by omega
    rcases this with h | h
    · simp [h]
    · simp [h]; omega

theorem byteBits_length (b : UInt8) : (byteBits b).length = 8 := toBits_length 8 _

theorem val_byteBits (b : UInt8) : val (byteBits b) = b.toNat := by
  rw [byteBits, val_toBits]; exact Nat.mod_eq_of_lt b.toNat_lt

theorem byteBits_zero : byteBits 0 = zeros 8 := by decide

theorem bytesBits_length (l : List UInt8) : (bytesBits l).length = 8 * l.length := by
  induction l with
  | nil => rfl
  | cons b l ih =>
    rw [bytesBits, List.flatMap_cons, List.length_append, byteBits_length]
    rw [bytesBits] at ih
    rw [ih, List.length_cons]; ring

theorem bytesBits_cons (b : UInt8) (l : List UInt8) :
    bytesBits (b :: l) = byteBits b ++ bytesBits l := rfl

theorem bytesBits_append (a b : List UInt8) : bytesBits (a ++ b) = bytesBits a ++ bytesBits b := by
  simp [bytesBits]

theorem val_bytesBits (l : List UInt8) : val (bytesBits l) = beVal l := by
  induction l with
  | nil => rfl
  | cons b l ih =>
    rw [bytesBits_cons, val_append, ih, val_byteBits, bytesBits_length, beVal, pow_mul]
    norm_num

theorem val_take (a : List Bool) (n : Nat) : val (a.take n) = val a / 2 ^ (a.length - n) := by
  have h := val_append (a.take n) (a.drop n)
  rw [List.take_append_drop, List.length_drop] at h
  have h2 := val_lt (a.drop n)
  rw [List.length_drop] at h2
  rw [h, Nat.mul_comm, Nat.mul_add_div (Nat.two_pow_pos _), Nat.div_eq_of_lt h2]
  rfl

theorem val_drop (a : List Bool) (n : Nat) : val (a.drop n) = val a % 2 ^ (a.length - n) := by
  have h := val_append (a.take n) (a.drop n)
  rw [List.take_append_drop, List.length_drop] at h
  have h2 := val_lt (a.drop n)
  rw [List.length_drop] at h2
  rw [h, Nat.mul_comm, Nat.mul_add_mod, Nat.mod_eq_of_lt h2]

/-! ## The check for `FF` bytes -/

theorem add_append (x p : BitVec n) (y q : BitVec 8) (h : y.toNat + q.toNat < 256) :
    (x ++ y) + (p ++ q) = (x + p) ++ (y + q) := by
  apply BitVec.eq_of_toNat_eq
  rw [BitVec.toNat_add, BitVec.toNat_append, BitVec.toNat_append, BitVec.toNat_append,
    BitVec.toNat_add, BitVec.toNat_add]
  have hy := y.isLt
  have hq := q.isLt
  have e : ∀ (a b : Nat), b < 2 ^ 8 → a <<< 8 ||| b = 256 * a + b := by
    intro a b hb
    rw [Nat.shiftLeft_eq, Nat.mul_comm, ← Nat.two_pow_add_eq_or_of_lt hb]
  rw [e _ _ hy, e _ _ hq, e _ _ (by omega), Nat.mod_eq_of_lt (show y.toNat + q.toNat < 2 ^ 8 from h),
    pow_add, Nat.mul_comm (2 ^ n) (2 ^ 8)]
  have : 256 * x.toNat + y.toNat + (256 * p.toNat + q.toNat) =
      (y.toNat + q.toNat) + 2 ^ 8 * (x.toNat + p.toNat) := by ring
  rw [this, Nat.mod_mul, Nat.add_mul_mod_self_left, Nat.mod_eq_of_lt (show _ < 2 ^ 8 from h),
    Nat.add_mul_div_left _ _ (by norm_num), Nat.div_eq_of_lt (show _ < 2 ^ 8 from h),
    Nat.zero_add]
  omega

/-- One byte of the word computed by `has_zero`. -/
def zeroMark (b : BitVec 8) : BitVec 8 := ~~~((((b &&& 0x7F#8) + 0x7F#8) ||| b) ||| 0x7F#8)

theorem zeroMark_iff (b : BitVec 8) : zeroMark b ≠ 0#8 ↔ b = 0#8 := by
  revert b
  have : ∀ i : Fin 256, zeroMark (BitVec.ofFin i) ≠ 0#8 ↔ BitVec.ofFin i = 0#8 := by
    decide +kernel
  intro b
  exact this b.toFin

theorem low_add (b : BitVec 8) : (b &&& 0x7F#8).toNat + (0x7F#8).toNat < 256 := by
  have : ∀ i : Fin 256, (BitVec.ofFin i &&& 0x7F#8).toNat + (0x7F#8).toNat < 256 := by
    decide +kernel
  exact this b.toFin

theorem append_eq_zero (x : BitVec n) (y : BitVec m) : x ++ y = 0#(n + m) ↔ x = 0#n ∧ y = 0#m := by
  constructor
  · intro h
    have h1 : ∀ i, (x ++ y).getLsbD i = false := by intro i; rw [h]; simp
    constructor
    · apply BitVec.eq_of_getLsbD_eq
      intro i hi
      have := h1 (m + i)
      rw [BitVec.getLsbD_append] at this
      simpa using this
    · apply BitVec.eq_of_getLsbD_eq
      intro i hi
      have := h1 i
      rw [BitVec.getLsbD_append] at this
      simpa [hi] using this
  · rintro ⟨rfl, rfl⟩; simp

theorem mark_append (a b c d : BitVec 8) (x K : BitVec (8 + 8 + 8 + 8))
    (hx : x = ((a ++ b) ++ c) ++ d) (hK : K = ((0x7F#8 ++ 0x7F#8) ++ 0x7F#8) ++ 0x7F#8) :
    ~~~((((x &&& K) + K) ||| x) ||| K) =
      ((zeroMark a ++ zeroMark b) ++ zeroMark c) ++ zeroMark d := by
  subst hx hK
  rw [BitVec.and_append, BitVec.and_append, BitVec.and_append,
    add_append _ _ _ _ (low_add d), add_append _ _ _ _ (low_add c), add_append _ _ _ _ (low_add b)]
  simp only [BitVec.or_append, BitVec.not_append, zeroMark]

theorem hasZero_append (a b c d : BitVec 8) :
    hasZero (((a ++ b) ++ c) ++ d) = true ↔ a = 0#8 ∨ b = 0#8 ∨ c = 0#8 ∨ d = 0#8 := by
  have h := mark_append a b c d _ 0x7F7F7F7F#32 rfl (by decide)
  have h2 : hasZero (((a ++ b) ++ c) ++ d) = true ↔
      ¬ ((zeroMark a ++ zeroMark b) ++ zeroMark c) ++ zeroMark d = 0#(8 + 8 + 8 + 8) := by
    rw [← h]
    unfold hasZero
    exact bne_iff_ne
  rw [h2, append_eq_zero, append_eq_zero, append_eq_zero]
  have key : ∀ x, zeroMark x = 0#8 ↔ ¬ x = 0#8 := fun x => (not_iff_comm.1 (zeroMark_iff x)).symm
  rw [key, key, key, key]
  generalize (a = 0#8) = A
  generalize (b = 0#8) = B
  generalize (c = 0#8) = C
  generalize (d = 0#8) = D
  tauto

theorem word_append (a b c d : UInt8) :
    BitVec.ofNat 32 (beVal [a, b, c, d]) =
      ((a.toBitVec ++ b.toBitVec) ++ c.toBitVec) ++ d.toBitVec := by
  apply BitVec.eq_of_toNat_eq
  have e : ∀ (x : Nat) (y : BitVec 8), x <<< 8 ||| y.toNat = 256 * x + y.toNat := by
    intro x y
    rw [Nat.shiftLeft_eq, Nat.mul_comm, ← Nat.two_pow_add_eq_or_of_lt y.isLt]
  rw [BitVec.toNat_append, BitVec.toNat_append, BitVec.toNat_append, e, e, e, BitVec.toNat_ofNat]
  simp only [beVal, UInt8.toNat_toBitVec, List.length_cons, List.length_nil]
  have := a.toNat_lt; have := b.toNat_lt; have := c.toNat_lt; have := d.toNat_lt
  omega

theorem hasByte_iff (a b c d v : UInt8) :
    hasByte (BitVec.ofNat 32 (beVal [a, b, c, d])) v = true ↔ a = v ∨ b = v ∨ c = v ∨ d = v := by
  have hm : (0x01010101#32 * BitVec.ofNat 32 v.toNat) = BitVec.ofNat 32 (beVal [v, v, v, v]) := by
    apply BitVec.eq_of_toNat_eq
    rw [BitVec.toNat_mul, BitVec.toNat_ofNat, BitVec.toNat_ofNat, BitVec.toNat_ofNat]
    simp only [beVal, List.length_cons, List.length_nil]
    have := v.toNat_lt
    omega
  have hx : (((a.toBitVec ++ b.toBitVec) ++ c.toBitVec) ++ d.toBitVec) ^^^
      (((v.toBitVec ++ v.toBitVec) ++ v.toBitVec) ++ v.toBitVec) =
      (((a.toBitVec ^^^ v.toBitVec) ++ (b.toBitVec ^^^ v.toBitVec)) ++
        (c.toBitVec ^^^ v.toBitVec)) ++ (d.toBitVec ^^^ v.toBitVec) := by
    simp only [BitVec.xor_append]
  have hz : ∀ x : UInt8, x.toBitVec ^^^ v.toBitVec = 0#8 ↔ x = v := by
    intro x
    rw [BitVec.xor_eq_zero_iff]
    exact ⟨UInt8.eq_of_toBitVec_eq, fun h => by rw [h]⟩
  unfold hasByte
  rw [hm, word_append, word_append]
  have h3 := hasZero_append (a.toBitVec ^^^ v.toBitVec) (b.toBitVec ^^^ v.toBitVec)
    (c.toBitVec ^^^ v.toBitVec) (d.toBitVec ^^^ v.toBitVec)
  rw [← hx, hz, hz, hz, hz] at h3
  exact h3

end Zune.Jpeg
