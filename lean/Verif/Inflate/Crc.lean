/-
CRC-32 and Adler-32: model of `crates/zune-inflate/src/crc.rs`, `crates/zune-png/src/crc.rs`, `utils.rs: calc_adler_hash`, and
property C12.  Registers are natural numbers below 2^32.
-/
import Verif.Inflate.CrcTables
import Verif.Common.Bytes
import Mathlib.Tactic.Ring

namespace Zune.Inflate

/-! ### Model -/

/-- The step of the loop over the remainder (crc.rs:35-37; zune-png/src/crc.rs:32-34 and 41-43). -/
def crcStep (crc : Nat) (b : UInt8) : Nat :=
  (crc >>> 8) ^^^ (slice1.getD ((crc &&& 0xff) ^^^ b.toNat) 0)

/-- One chunk of eight bytes (crc.rs:20-32; zune-png/src/crc.rs:17-29); `chunk` is `chunk_loaded`. -/
def crcChunk (crc chunk : Nat) : Nat :=
  let v1 := chunk &&& 0xffffffff
  let v2 := chunk >>> 32
  (slice8 7).getD (((crc ^^^ v1) >>> 0) &&& 0xff) 0
    ^^^ (slice8 6).getD (((crc ^^^ v1) >>> 8) &&& 0xff) 0
    ^^^ (slice8 5).getD (((crc ^^^ v1) >>> 16) &&& 0xff) 0
    ^^^ (slice8 4).getD (((crc ^^^ v1) >>> 24) &&& 0xff) 0
    ^^^ (slice8 3).getD ((v2 >>> 0) &&& 0xff) 0
    ^^^ (slice8 2).getD ((v2 >>> 8) &&& 0xff) 0
    ^^^ (slice8 1).getD ((v2 >>> 16) &&& 0xff) 0
    ^^^ (slice8 0).getD ((v2 >>> 24) &&& 0xff) 0

/-- `crc32` (crc.rs:17-40) and `crc32_slice8` (zune-png/src/crc.rs:14-37), which are the same code. -/
def crc32 : List UInt8 → Nat → Nat
  | a :: b :: c :: d :: e :: f :: g :: h :: t, crc => crc32 t (crcChunk crc (leVal [a, b, c, d, e, f, g, h]))
  | l, crc => l.foldl crcStep crc

/-- `calc_crc` (zune-png/src/crc.rs:47-49): complement of the register started at all ones. -/
def calcCrc (data : List UInt8) : Nat := 0xffffffff ^^^ crc32 data 0xffffffff

/-- `calc_adler_hash` (utils.rs:78-85).  The work is done by the external crate `simd_adler32`; the model is the byte by byte
    algorithm of RFC 1950 section 8.2, not the vectorised code of that crate. -/
def adler32 (data : List UInt8) : Nat :=
  let p := data.foldl (fun (s : Nat × Nat) b => let a := (s.1 + b.toNat) % 65521; (a, (s.2 + a) % 65521)) (1, 0)
  p.2 * 65536 + p.1

/-! ### Specification -/

/-- One bit of CRC-32 with the reflected polynomial. -/
def Spec.crcBit (c : Nat) : Nat := if c % 2 = 1 then (c / 2) ^^^ 0xedb88320 else c / 2

/-- `n` bits of CRC-32. -/
def Spec.crcBits : Nat → Nat → Nat
  | 0, c => c
  | n + 1, c => Spec.crcBits n (Spec.crcBit c)

/-- Bit-by-bit CRC-32 register update: every byte is added to the low end of the register, then eight bits are shifted out. -/
def Spec.crc (data : List UInt8) (c : Nat) : Nat := data.foldl (fun c b => Spec.crcBits 8 (c ^^^ b.toNat)) c

/-- Sum of the bytes. -/
def Spec.byteSum (data : List UInt8) : Nat := (data.map UInt8.toNat).sum

/-- Adler-32 by its definition: one plus the sum of the bytes, and the sum of these values over all prefixes. -/
def Spec.adler (data : List UInt8) : Nat :=
  ((List.range data.length).map (fun i => 1 + Spec.byteSum (data.take (i + 1)))).sum % 65521 * 65536 + (1 + Spec.byteSum data) % 65521

/-! ### Proofs -/

open Spec

theorem crcBit_xor (a b : Nat) : crcBit (a ^^^ b) = crcBit a ^^^ crcBit b := by
  unfold crcBit
  have h1 : (a ^^^ b) / 2 = a / 2 ^^^ b / 2 := by
    have := Nat.shiftRight_xor_distrib (a := a) (b := b) (i := 1)
    simpa [Nat.shiftRight_eq_div_pow] using this
  have h2 : (a ^^^ b) % 2 = (a % 2 + b % 2) % 2 := by
    have := Nat.xor_mod_two_pow (a := a) (b := b) (n := 1)
    rw [Nat.pow_one] at this
    rw [this]
    rcases Nat.mod_two_eq_zero_or_one a with ha | ha <;> rcases Nat.mod_two_eq_zero_or_one b with hb | hb <;> rw [ha, hb] <;> rfl
  rw [h1, h2]
  rcases Nat.mod_two_eq_zero_or_one a with ha | ha <;> rcases Nat.mod_two_eq_zero_or_one b with hb | hb
  · simp [ha, hb]
  · simp [ha, hb, Nat.xor_assoc]
  · simp [ha, hb]
    rw [Nat.xor_assoc, Nat.xor_assoc, Nat.xor_comm (b / 2)]
  · simp [ha, hb]
    rw [Nat.xor_assoc, ← Nat.xor_assoc 0xedb88320, Nat.xor_comm 0xedb88320 (b / 2), Nat.xor_assoc (b / 2), Nat.xor_self, Nat.xor_zero]

theorem crcBits_xor (n a b : Nat) : crcBits n (a ^^^ b) = crcBits n a ^^^ crcBits n b := by
  induction n generalizing a b with
  | zero => rfl
  | succ n ih => simp only [crcBits]; rw [crcBit_xor, ih]

theorem crcBits_shift (n m c : Nat) (h : n ≤ m) : crcBits n (c * 2 ^ m) = c * 2 ^ (m - n) := by
  induction n generalizing m with
  | zero => rfl
  | succ n ih =>
    have e : crcBit (c * 2 ^ m) = c * 2 ^ (m - 1) := by
      obtain ⟨k, rfl⟩ : ∃ k, m = k + 1 := ⟨m - 1, by omega⟩
      unfold crcBit
      rw [Nat.pow_succ, ← Nat.mul_assoc, if_neg (by omega), Nat.mul_div_cancel _ (by decide)]
      rfl
    simp only [crcBits]
    rw [e, ih (m - 1) (by omega)]
    congr 2; omega

theorem crcBits_add (n m c : Nat) : crcBits (n + m) c = crcBits m (crcBits n c) := by
  induction n generalizing c with
  | zero => rw [Nat.zero_add]; rfl
  | succ n ih => rw [Nat.succ_add]; simp only [crcBits]; rw [ih]

theorem crcBits_shift' (n k c : Nat) (h : k ≤ n) : crcBits n (c * 2 ^ k) = crcBits (n - k) c := by
  have e : n = k + (n - k) := by omega
  conv_lhs => rw [e]
  rw [crcBits_add, crcBits_shift k k c (Nat.le_refl k), Nat.sub_self, Nat.pow_zero, Nat.mul_one]

/-- Every entry of the small table is eight bits of the polynomial division of its index. -/
theorem slice1_spec : slice1 = (List.range 256).map (crcBits 8) := by decide +kernel

/-- Every entry of piece `k` of the large table is `8 * (k + 1)` bits of the polynomial division of its index. -/
theorem slice8_spec : ∀ k ∈ List.range 8, slice8 k = (List.range 256).map (crcBits (8 * (k + 1))) := by decide +kernel

theorem slice1_get (i : Nat) (h : i < 256) : slice1.getD i 0 = crcBits 8 i := by
  rw [slice1_spec]; simp [List.getD, h]

theorem slice8_get (k i : Nat) (hk : k < 8) (h : i < 256) : (slice8 k).getD i 0 = crcBits (8 * (k + 1)) i := by
  rw [slice8_spec k (by simpa using hk)]; simp [List.getD, h]

theorem beVal_concat (l : List UInt8) (b : UInt8) : beVal (l ++ [b]) = beVal l * 256 + b.toNat := by
  induction l with
  | nil => simp [beVal]
  | cons a l ih => simp only [List.cons_append, beVal, ih, List.length_append, List.length_singleton]; ring

theorem leVal_cons (b : UInt8) (l : List UInt8) : leVal (b :: l) = b.toNat + 256 * leVal l := by
  simp only [leVal, List.reverse_cons, beVal_concat]; ring

theorem leVal_nil : leVal [] = 0 := rfl

theorem split_low (c k : Nat) : c = (c % 2 ^ k) ^^^ (c / 2 ^ k * 2 ^ k) := by
  apply Nat.eq_of_testBit_eq
  intro i
  rw [Nat.testBit_xor, Nat.testBit_mod_two_pow, Nat.testBit_mul_two_pow, Nat.testBit_div_two_pow]
  by_cases h : i < k
  · have : ¬ k ≤ i := by omega
    simp [h, this]
  · have h2 : k ≤ i := by omega
    have : i - k + k = i := by omega
    simp [h, h2, this]

theorem crcStep_spec (c : Nat) (b : UInt8) : crcStep c b = crcBits 8 (c ^^^ b.toNat) := by
  have hb : b.toNat < 256 := b.toNat_lt
  have h256 : (c &&& 0xff) = c % 2 ^ 8 := Nat.and_two_pow_sub_one_eq_mod c 8
  have hlt : (c % 2 ^ 8) ^^^ b.toNat < 256 := Nat.xor_lt_two_pow (n := 8) (Nat.mod_lt _ (by decide)) hb
  unfold crcStep
  rw [h256, slice1_get _ hlt, Nat.shiftRight_eq_div_pow]
  conv_rhs => rw [split_low c 8]
  rw [show (c % 2 ^ 8 ^^^ c / 2 ^ 8 * 2 ^ 8) ^^^ b.toNat = (c % 2 ^ 8 ^^^ b.toNat) ^^^ (c / 2 ^ 8 * 2 ^ 8) by
    rw [Nat.xor_assoc, Nat.xor_assoc, Nat.xor_comm b.toNat], crcBits_xor _ _ (c / 2 ^ 8 * 2 ^ 8), crcBits_shift 8 8 _ (by decide),
    Nat.sub_self, Nat.pow_zero, Nat.mul_one, Nat.xor_comm]

/-- Feeding bytes one at a time is the same as adding them all to a wide register and shifting out all their bits. -/
theorem crc_wide (l : List UInt8) (c : Nat) : Spec.crc l c = crcBits (8 * l.length) (c ^^^ leVal l) := by
  induction l generalizing c with
  | nil => simp [Spec.crc, leVal_nil, crcBits]
  | cons b l ih =>
    have hb : b.toNat < 2 ^ 8 := b.toNat_lt
    have e : leVal (b :: l) = b.toNat ^^^ (leVal l * 2 ^ 8) := by
      have h1 : leVal (b :: l) = b.toNat + 256 * leVal l := leVal_cons b l
      have h2 := split_low (leVal (b :: l)) 8
      rw [h1] at h2
      have h3 : (b.toNat + 256 * leVal l) % 2 ^ 8 = b.toNat := by omega
      have h4 : (b.toNat + 256 * leVal l) / 2 ^ 8 = leVal l := by omega
      rw [h3, h4] at h2
      rw [h1]; exact h2
    have e2 : Spec.crc (b :: l) c = Spec.crc l (crcBits 8 (c ^^^ b.toNat)) := rfl
    rw [e2, ih, e, List.length_cons, show 8 * (l.length + 1) = 8 + 8 * l.length by ring, crcBits_add, ← Nat.xor_assoc,
      crcBits_xor 8 (c ^^^ b.toNat), crcBits_shift 8 8 _ (by decide), Nat.sub_self, Nat.pow_zero, Nat.mul_one]

theorem crcBits_byte (n x : Nat) : crcBits (n + 8) x = crcBits (n + 8) (x % 2 ^ 8) ^^^ crcBits n (x / 2 ^ 8) := by
  conv_lhs => rw [split_low x 8]
  rw [crcBits_xor, crcBits_shift' (n + 8) 8 _ (by omega), Nat.add_sub_cancel]

/-- Sixty-four bits of a value below 2^64, byte by byte. -/
theorem crcBits64 (x : Nat) (h : x < 2 ^ 64) : crcBits 64 x =
    crcBits 64 (x % 2 ^ 8) ^^^ (crcBits 56 (x / 2 ^ 8 % 2 ^ 8) ^^^ (crcBits 48 (x / 2 ^ 16 % 2 ^ 8) ^^^ (crcBits 40 (x / 2 ^ 24 % 2 ^ 8) ^^^
      (crcBits 32 (x / 2 ^ 32 % 2 ^ 8) ^^^ (crcBits 24 (x / 2 ^ 40 % 2 ^ 8) ^^^ (crcBits 16 (x / 2 ^ 48 % 2 ^ 8) ^^^ crcBits 8 (x / 2 ^ 56 % 2 ^ 8))))))) := by
  rw [crcBits_byte 56 x, crcBits_byte 48 (x / 2 ^ 8), crcBits_byte 40 (x / 2 ^ 8 / 2 ^ 8), crcBits_byte 32 (x / 2 ^ 8 / 2 ^ 8 / 2 ^ 8),
    crcBits_byte 24 (x / 2 ^ 8 / 2 ^ 8 / 2 ^ 8 / 2 ^ 8), crcBits_byte 16 (x / 2 ^ 8 / 2 ^ 8 / 2 ^ 8 / 2 ^ 8 / 2 ^ 8),
    crcBits_byte 8 (x / 2 ^ 8 / 2 ^ 8 / 2 ^ 8 / 2 ^ 8 / 2 ^ 8 / 2 ^ 8), crcBits_byte 0 (x / 2 ^ 8 / 2 ^ 8 / 2 ^ 8 / 2 ^ 8 / 2 ^ 8 / 2 ^ 8 / 2 ^ 8)]
  simp only [Nat.div_div_eq_div_mul, ← Nat.pow_add]
  have hz : x / 2 ^ 64 = 0 := Nat.div_eq_of_lt h
  have hz2 : crcBits 0 (x / 2 ^ (8 + 8 + 8 + 8 + 8 + 8 + 8 + 8)) = 0 := hz
  rw [hz2, Nat.xor_zero]

theorem crcChunk_spec (c v : Nat) (hc : c < 2 ^ 32) (hv : v < 2 ^ 64) : crcChunk c v = crcBits 64 (c ^^^ v) := by
  have hx : c ^^^ v < 2 ^ 64 := Nat.xor_lt_two_pow (lt_trans hc (by decide)) hv
  rw [crcBits64 _ hx]
  unfold crcChunk
  have hand : ∀ n, n &&& 0xff = n % 2 ^ 8 := fun n => Nat.and_two_pow_sub_one_eq_mod n 8
  have hand32 : v &&& 0xffffffff = v % 2 ^ 32 := Nat.and_two_pow_sub_one_eq_mod v 32
  have hm : ∀ n, n % 2 ^ 8 < 256 := fun n => Nat.mod_lt _ (by decide)
  simp only [hand, hand32, Nat.shiftRight_eq_div_pow]
  rw [slice8_get 7 _ (by decide) (hm _), slice8_get 6 _ (by decide) (hm _), slice8_get 5 _ (by decide) (hm _), slice8_get 4 _ (by decide) (hm _),
    slice8_get 3 _ (by decide) (hm _), slice8_get 2 _ (by decide) (hm _), slice8_get 1 _ (by decide) (hm _), slice8_get 0 _ (by decide) (hm _)]
  have lo : ∀ k, k + 8 ≤ 32 → (c ^^^ v % 2 ^ 32) / 2 ^ k % 2 ^ 8 = (c ^^^ v) / 2 ^ k % 2 ^ 8 := by
    intro k hk
    apply Nat.eq_of_testBit_eq
    intro i
    rw [Nat.testBit_mod_two_pow, Nat.testBit_mod_two_pow, Nat.testBit_div_two_pow, Nat.testBit_div_two_pow, Nat.testBit_xor, Nat.testBit_xor,
      Nat.testBit_mod_two_pow]
    by_cases hi : i < 8
    · have : i + k < 32 := by omega
      simp [this]
    · simp [hi]
  have hi : ∀ k, v / 2 ^ 32 / 2 ^ k % 2 ^ 8 = (c ^^^ v) / 2 ^ (32 + k) % 2 ^ 8 := by
    intro k
    apply Nat.eq_of_testBit_eq
    intro i
    rw [Nat.testBit_mod_two_pow, Nat.testBit_mod_two_pow, Nat.testBit_div_two_pow, Nat.testBit_div_two_pow, Nat.testBit_div_two_pow, Nat.testBit_xor]
    have hc0 : c.testBit (i + (32 + k)) = false :=
      Nat.testBit_lt_two_pow (lt_of_lt_of_le hc (Nat.pow_le_pow_right (by decide) (by omega)))
    rw [hc0, Bool.false_xor, show i + k + 32 = i + (32 + k) by ring]
  rw [lo 0 (by decide), lo 8 (by decide), lo 16 (by decide), lo 24 (by decide), hi 0, hi 8, hi 16, hi 24]
  simp only [Nat.xor_assoc, Nat.pow_zero, Nat.div_one, Nat.add_zero, Nat.reduceMul, Nat.reduceAdd]

theorem leVal_lt (l : List UInt8) : leVal l < 2 ^ (8 * l.length) := by
  induction l with
  | nil => decide
  | cons b l ih =>
    have hb : b.toNat < 256 := b.toNat_lt
    have e : leVal (b :: l) = b.toNat + 256 * leVal l := leVal_cons b l
    rw [e, List.length_cons, show 8 * (l.length + 1) = 8 * l.length + 8 by ring, Nat.pow_add]
    omega

theorem crcBit_lt (c : Nat) (h : c < 2 ^ 32) : crcBit c < 2 ^ 32 := by
  unfold crcBit
  split
  · exact Nat.xor_lt_two_pow (by omega) (by decide)
  · omega

theorem crcBits_lt (n c : Nat) (h : c < 2 ^ 32) : crcBits n c < 2 ^ 32 := by
  induction n generalizing c with
  | zero => exact h
  | succ n ih => exact ih _ (crcBit_lt c h)

theorem crc_lt (l : List UInt8) (c : Nat) (h : c < 2 ^ 32) : Spec.crc l c < 2 ^ 32 := by
  induction l generalizing c with
  | nil => exact h
  | cons b l ih => exact ih _ (crcBits_lt 8 _ (Nat.xor_lt_two_pow h (lt_trans b.toNat_lt (by decide))))

theorem crc_append (l m : List UInt8) (c : Nat) : Spec.crc (l ++ m) c = Spec.crc m (Spec.crc l c) := by
  unfold Spec.crc
  exact List.foldl_append

theorem foldl_crcStep (l : List UInt8) (c : Nat) : l.foldl crcStep c = Spec.crc l c := by
  induction l generalizing c with
  | nil => rfl
  | cons b l ih => rw [List.foldl_cons, ih, crcStep_spec]; rfl

/-- **C12** (CRC): the table driven code computes the bit-by-bit CRC-32 for every byte string and starting register. -/
theorem c12_crc (data : List UInt8) (c : Nat) (hc : c < 2 ^ 32) : crc32 data c = Spec.crc data c := by
  fun_induction crc32 data c with
  | case1 a b c d e f g h t crc ih =>
    have hv := leVal_lt [a, b, c, d, e, f, g, h]
    have hw := crc_wide [a, b, c, d, e, f, g, h] crc
    have hs : crcChunk crc (leVal [a, b, c, d, e, f, g, h]) = Spec.crc [a, b, c, d, e, f, g, h] crc := by
      rw [hw]; exact crcChunk_spec crc _ hc hv
    rw [ih (by rw [hs]; exact crc_lt _ _ hc), hs]
    exact (crc_append [a, b, c, d, e, f, g, h] t crc).symm
  | case2 l crc h => exact foldl_crcStep l crc

/-- **C12** (PNG chunk checksum): `calc_crc` is the complement of the bit-by-bit CRC started at all ones. -/
theorem c12_calc_crc (data : List UInt8) : calcCrc data = 2 ^ 32 - 1 - Spec.crc data (2 ^ 32 - 1) := by
  have hc : (0xffffffff : Nat) < 2 ^ 32 := by decide
  unfold calcCrc
  rw [c12_crc data _ hc]
  have hlt := crc_lt data (2 ^ 32 - 1) (by decide)
  have e : (0xffffffff : Nat) = 2 ^ 32 - 1 := by decide
  rw [e]
  generalize Spec.crc data (2 ^ 32 - 1) = x at hlt ⊢
  apply Nat.eq_of_testBit_eq
  intro i
  rw [Nat.testBit_xor, Nat.testBit_two_pow_sub_one, show 2 ^ 32 - 1 - x = 2 ^ 32 - (x + 1) by omega, Nat.testBit_two_pow_sub_succ hlt]
  by_cases hi : i < 32
  · simp [hi]
  · have hx : x.testBit i = false := Nat.testBit_lt_two_pow (lt_of_lt_of_le hlt (Nat.pow_le_pow_right (by decide) (by omega)))
    simp [hi, hx]

theorem adler_fold (l : List UInt8) (a b : Nat) :
    l.foldl (fun (s : Nat × Nat) x => ((s.1 + x.toNat) % 65521, (s.2 + (s.1 + x.toNat) % 65521) % 65521)) (a % 65521, b % 65521) =
      ((a + byteSum l) % 65521, (b + ((List.range l.length).map (fun i => a + byteSum (l.take (i + 1)))).sum) % 65521) := by
  induction l generalizing a b with
  | nil => simp [byteSum]
  | cons x l ih =>
    rw [List.foldl_cons]
    have e1 : (a % 65521 + x.toNat) % 65521 = (a + x.toNat) % 65521 := by omega
    have e2 : (b % 65521 + (a + x.toNat) % 65521) % 65521 = (b + (a + x.toNat)) % 65521 := by omega
    simp only [e1, e2]
    rw [ih (a + x.toNat) (b + (a + x.toNat))]
    have hs : byteSum (x :: l) = x.toNat + byteSum l := by simp [byteSum]
    rw [hs, List.length_cons, List.range_succ_eq_map, List.map_cons, List.sum_cons, List.map_map]
    have hm : (List.map ((fun i => a + byteSum (List.take (i + 1) (x :: l))) ∘ Nat.succ) (List.range l.length)) =
        List.map (fun i => a + x.toNat + byteSum (List.take (i + 1) l)) (List.range l.length) := by
      apply List.map_congr_left
      intro i _
      simp [byteSum, Nat.add_assoc]
    rw [hm]
    congr 1
    · congr 1; ring
    · congr 1
      simp [byteSum]; ring

/-- **C12** (Adler): the running sums equal the definition of Adler-32. -/
theorem c12_adler (data : List UInt8) : adler32 data = Spec.adler data := by
  have h := adler_fold data 1 0
  unfold adler32 Spec.adler
  simp only
  have h1 : (1 % 65521, 0 % 65521) = ((1, 0) : Nat × Nat) := by decide
  rw [h1] at h
  rw [h]
  simp

/-- Standard check values: CRC-32 and Adler-32 of "123456789". -/
example : calcCrc [49, 50, 51, 52, 53, 54, 55, 56, 57] = 0xcbf43926 ∧ adler32 [49, 50, 51, 52, 53, 54, 55, 56, 57] = 0x091e01de := by
  decide +kernel

end Zune.Inflate
