/-
Bit strings read from the least significant bit upwards: the convention of DEFLATE (RFC 1951, section 3.1.1) and of JPEG XL.
-/
import Verif.Common.Bytes

namespace Zune

/-- The `n` lowest bits of `v`, lowest first. -/
def lsb : Nat → Nat → List Bool
  | 0, _ => []
  | n + 1, v => (v % 2 == 1) :: lsb n (v / 2)

/-- The number whose bits, lowest first, are given. -/
def lval : List Bool → Nat
  | [] => 0
  | b :: t => b.toNat + 2 * lval t

/-- The bits of a byte string: bytes in order, the bits of each byte lowest first. -/
def bytesLsb (l : List UInt8) : List Bool := l.flatMap fun b => lsb 8 b.toNat

@[simp] theorem lsb_length (n v : Nat) : (lsb n v).length = n := by
  induction n generalizing v with
  | zero => rfl
  | succ n ih => simp [lsb, ih]

theorem bit_toNat (v : Nat) : (v % 2 == 1).toNat = v % 2 := by
  rcases Nat.mod_two_eq_zero_or_one v with h | h <;> simp [h]

theorem lval_lsb (n v : Nat) : lval (lsb n v) = v % 2 ^ n := by
  induction n generalizing v with
  | zero => simp [lsb, lval, Nat.mod_one]
  | succ n ih =>
    rw [lsb, lval, ih, bit_toNat, pow_succ', Nat.mod_mul]

theorem lsb_lval (l : List Bool) : lsb l.length (lval l) = l := by
  induction l with
  | nil => rfl
  | cons b l ih =>
    rw [List.length_cons, lsb, lval]
    have h1 : (b.toNat + 2 * lval l) / 2 = lval l := by cases b <;> simp; omega
    have h2 : ((b.toNat + 2 * lval l) % 2 == 1) = b := by cases b <;> simp [Nat.add_mul_mod_self_left]
    rw [h1, h2, ih]

theorem lsb_append (m n v : Nat) : lsb (m + n) v = lsb m v ++ lsb n (v / 2 ^ m) := by
  induction m generalizing v with
  | zero => simp [lsb]
  | succ m ih =>
    rw [show m + 1 + n = (m + n) + 1 by omega, lsb, lsb, ih, pow_succ', ← Nat.div_div_eq_div_mul]
    rfl

theorem lsb_mod (n v : Nat) : lsb n (v % 2 ^ n) = lsb n v := by
  have h := lsb_lval (lsb n v)
  rwa [lval_lsb, lsb_length] at h

theorem lval_lt (l : List Bool) : lval l < 2 ^ l.length := by
  induction l with
  | nil => simp [lval]
  | cons b l ih =>
    rw [lval, List.length_cons, pow_succ']
    cases b <;> simp <;> omega

theorem lval_append (a b : List Bool) : lval (a ++ b) = lval a + 2 ^ a.length * lval b := by
  induction a with
  | nil => simp [lval]
  | cons x a ih =>
    rw [List.cons_append, lval, lval, ih, List.length_cons, pow_succ']; ring

theorem lsb_zero (n : Nat) : lsb n 0 = List.replicate n false := by
  induction n with
  | zero => rfl
  | succ n ih => rw [lsb, Nat.zero_div, ih, List.replicate_succ]; rfl

/-- Writing `v` above `m` bits of `u`. -/
theorem lsb_merge {m u : Nat} (hu : u < 2 ^ m) (n v : Nat) : lsb (m + n) (u + 2 ^ m * v) = lsb m u ++ lsb n v := by
  rw [lsb_append, ← lsb_mod m (u + 2 ^ m * v), Nat.add_mul_mod_self_left, Nat.mod_eq_of_lt hu, Nat.add_mul_div_left _ _ (Nat.two_pow_pos m),
    Nat.div_eq_of_lt hu, Nat.zero_add]

@[simp] theorem bytesLsb_nil : bytesLsb [] = [] := rfl

@[simp] theorem bytesLsb_append (a b : List UInt8) : bytesLsb (a ++ b) = bytesLsb a ++ bytesLsb b := by simp [bytesLsb]

@[simp] theorem bytesLsb_length (l : List UInt8) : (bytesLsb l).length = 8 * l.length := by
  induction l with
  | nil => rfl
  | cons b l ih => rw [← List.singleton_append, bytesLsb_append, List.length_append, ih]; simp [bytesLsb]; omega

theorem bytesLsb_cons (b : UInt8) (l : List UInt8) : bytesLsb (b :: l) = lsb 8 b.toNat ++ bytesLsb l := rfl

theorem leBytes_succ (k v : Nat) : leBytes (k + 1) v = leBytes k v ++ [UInt8.ofNat (v / 256 ^ k)] := by
  simp [leBytes, beBytes]

theorem bytesLsb_leBytes (k v : Nat) : bytesLsb (leBytes k v) = lsb (8 * k) v := by
  induction k with
  | zero => rfl
  | succ k ih =>
    rw [leBytes_succ, bytesLsb_append, ih, show 8 * (k + 1) = 8 * k + 8 by ring, lsb_append, bytesLsb_cons, bytesLsb_nil, List.append_nil,
      pow_mul, show (2 : Nat) ^ 8 = 256 from rfl, UInt8.toNat_ofNat', show (256 : Nat) = 2 ^ 8 from rfl, lsb_mod]

theorem bytesLsb_inj {a b : List UInt8} (h : bytesLsb a = bytesLsb b) : a = b := by
  induction a generalizing b with
  | nil =>
    cases b with
    | nil => rfl
    | cons y b => simpa using congrArg List.length h
  | cons x a ih =>
    cases b with
    | nil => simpa using congrArg List.length h
    | cons y b =>
      rw [bytesLsb_cons, bytesLsb_cons] at h
      obtain ⟨h1, h2⟩ := List.append_inj h (by simp)
      have h3 := congrArg lval h1
      rw [lval_lsb, lval_lsb, Nat.mod_eq_of_lt (by simpa using x.toNat_lt), Nat.mod_eq_of_lt (by simpa using y.toNat_lt)] at h3
      rw [ih h2, UInt8.toNat.inj h3]

theorem leVal_cons' (b : UInt8) (l : List UInt8) : leVal (b :: l) = b.toNat + 256 * leVal l := by
  have h : ∀ l : List UInt8, ∀ b : UInt8, beVal (l ++ [b]) = beVal l * 256 + b.toNat := by
    intro l
    induction l with
    | nil => intro b; simp [beVal]
    | cons x l ih => intro b; rw [List.cons_append, beVal, ih, beVal]; simp [pow_succ]; ring
  rw [leVal, List.reverse_cons, h, leVal]; ring

theorem lval_bytesLsb (l : List UInt8) : lval (bytesLsb l) = leVal l := by
  induction l with
  | nil => rfl
  | cons b l ih =>
    have hb : b.toNat < 2 ^ 8 := b.toNat_lt
    rw [bytesLsb_cons, lval_append, ih, lval_lsb, lsb_length, leVal_cons', Nat.mod_eq_of_lt hb,
      show (2 : Nat) ^ 8 = 256 from rfl]

end Zune
