/-
Common byte-level vocabulary shared by the models: a byte is `UInt8`, a buffer is a `List UInt8`.
-/
import Mathlib.Data.List.Basic
import Mathlib.Tactic.Ring
import Mathlib.Tactic.Linarith

namespace Zune

/-- Big-endian bytes of `v` on `k` bytes (Rust `to_be_bytes` of a `8*k`-bit integer). -/
def beBytes : Nat → Nat → List UInt8
  | 0, _ => []
  | k + 1, v => UInt8.ofNat (v / 256 ^ k) :: beBytes k v

/-- Little-endian bytes of `v` on `k` bytes (Rust `to_le_bytes`). -/
def leBytes (k v : Nat) : List UInt8 := (beBytes k v).reverse

/-- Big-endian value of a byte string (Rust `from_be_bytes`). -/
def beVal : List UInt8 → Nat
  | [] => 0
  | b :: t => b.toNat * 256 ^ t.length + beVal t

/-- Little-endian value of a byte string (Rust `from_le_bytes`). -/
def leVal (l : List UInt8) : Nat := beVal l.reverse

@[simp] theorem beBytes_length (k v : Nat) : (beBytes k v).length = k := by
  induction k with
  | zero => rfl
  | succ k ih => simp [beBytes, ih]

@[simp] theorem leBytes_length (k v : Nat) : (leBytes k v).length = k := by simp [leBytes]

theorem beVal_beBytes (k v : Nat) : beVal (beBytes k v) = v % 256 ^ k := by
  induction k with
  | zero => simp [beBytes, beVal, Nat.mod_one]
  | succ k ih =>
    have h1 : v % 256 ^ (k + 1) = v % 256 ^ k + 256 ^ k * (v / 256 ^ k % 256) := by
      rw [pow_succ, Nat.mod_mul]
    simp only [beBytes, beVal, ih, beBytes_length, h1]
    simp
    ring

theorem leVal_leBytes (k v : Nat) : leVal (leBytes k v) = v % 256 ^ k := by
  simp [leVal, leBytes, beVal_beBytes]

theorem beVal_lt (l : List UInt8) : beVal l < 256 ^ l.length := by
  induction l with
  | nil => simp [beVal]
  | cons b t ih =>
    have hb : b.toNat < 256 := b.toNat_lt
    simp only [beVal, List.length_cons, pow_succ]
    nlinarith

/-- Universally quantified byte facts are decidable: used for complete 256-entry tables. -/
instance decForallUInt8 (p : UInt8 → Prop) [DecidablePred p] : Decidable (∀ x, p x) :=
  decidable_of_iff (∀ i : Fin 256, p (UInt8.ofNat i.val))
    ⟨fun h x => by
      have := h ⟨x.toNat, x.toNat_lt⟩
      simpa using this, fun h i => h _⟩

end Zune
