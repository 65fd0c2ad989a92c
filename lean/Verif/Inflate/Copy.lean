/-
The copies of the inflate decoder write what RFC 1951 asks for, whatever their order and overlap.
-/
import Verif.Inflate.HuffModel
import Verif.Inflate.Rfc1951

namespace Zune.Inflate

open Rfc1951 (lz)

theorem copyWithin_ok {buf : List UInt8} {s d n : Nat} (h1 : s + n ≤ buf.length) (h2 : d + n ≤ buf.length) :
    ∃ b, copyWithin buf s d n = .ok b ∧ b.length = buf.length ∧ ∀ i, b[i]? = if d ≤ i ∧ i < d + n then buf[s + (i - d)]? else buf[i]? := by
  refine ⟨_, if_pos ⟨h1, h2⟩, ?_, ?_⟩
  · simp only [List.length_append, List.length_take, List.length_drop]
    omega
  · intro i
    by_cases hi : i < d
    · rw [if_neg (by omega), List.append_assoc, List.getElem?_append_left (by simp; omega), List.getElem?_take_of_lt hi]
    · rw [List.append_assoc, List.getElem?_append_right (by simp; omega)]
      simp only [List.length_take, Nat.min_eq_left (show d ≤ buf.length by omega)]
      by_cases hi2 : i < d + n
      · rw [if_pos ⟨by omega, hi2⟩, List.getElem?_append_left (by simp; omega), List.getElem?_take_of_lt (by omega), List.getElem?_drop]
      · rw [if_neg (by omega), List.getElem?_append_right (by simp; omega)]
        simp only [List.length_take, List.length_drop, Nat.min_eq_left (show n ≤ buf.length - s by omega), List.getElem?_drop]
        congr 1
        omega

/-- The first `dest` bytes are those of `old`, and the next `m` repeat what lies `off` bytes before. -/
structure Copied (old b : List UInt8) (dest off m : Nat) : Prop where
  size : b.length = old.length
  keep : ∀ i < dest, b[i]? = old[i]?
  rep : ∀ i, dest ≤ i → i < dest + m → b[i]? = b[i - off]?

theorem Copied.start (old : List UInt8) (dest off : Nat) : Copied old old dest off 0 := ⟨rfl, fun _ _ => rfl, fun i h1 h2 => by omega⟩

theorem Copied.copy {old b : List UInt8} {dest off m n : Nat} (h : Copied old b dest off m) (h1 : 1 ≤ off) (h2 : off ≤ dest)
    (hr : dest + m + n ≤ old.length) : ∃ b', copyWithin b (dest + m - off) (dest + m) n = .ok b' ∧ Copied old b' dest off (m + min n off) := by
  have hs := h.size
  obtain ⟨b', e, l, g⟩ := copyWithin_ok (buf := b) (s := dest + m - off) (d := dest + m) (n := n) (by omega) (by omega)
  refine ⟨b', e, l.trans hs, ?_, ?_⟩
  · intro i hi
    rw [g, if_neg (by omega), h.keep i hi]
  · intro i hi1 hi2
    by_cases hm : i < dest + m
    · rw [g, g, if_neg (by omega), if_neg (by omega)]
      exact h.rep i hi1 hm
    · rw [g, g, if_pos (by omega), if_neg (by omega)]
      congr 1
      omega

theorem lz_unique {off : Nat} (h1 : 1 ≤ off) : ∀ (n : Nat) (out r : List UInt8), off ≤ out.length → r.length = out.length + n →
    (∀ i < out.length, r[i]? = out[i]?) → (∀ i, out.length ≤ i → i < out.length + n → r[i]? = r[i - off]?) → r = lz out off n := by
  intro n
  induction n with
  | zero =>
    intro out r _ hl hk _
    rw [lz]
    apply List.ext_getElem?
    intro i
    by_cases hi : i < out.length
    · exact hk i hi
    · rw [List.getElem?_eq_none (by omega), List.getElem?_eq_none (by omega)]
  | succ n ih =>
    intro out r ho hl hk hr
    rw [lz]
    have hx : (out.drop (out.length - off)).take 1 = [out[out.length - off]'(by omega)] := by
      rw [List.take_one, List.head?_drop, List.getElem?_eq_getElem (by omega)]
      rfl
    rw [hx]
    apply ih
    · simp; omega
    · simp; omega
    · intro i hi
      rw [List.length_append, List.length_singleton] at hi
      by_cases h : i < out.length
      · rw [List.getElem?_append_left h, hk i h]
      · have : i = out.length := by omega
        subst this
        rw [hr _ (by omega) (by omega), hk _ (by omega), List.getElem?_append_right (by omega), Nat.sub_self, List.getElem?_cons_zero,
          List.getElem?_eq_getElem (by omega)]
    · intro i hi1 hi2
      rw [List.length_append, List.length_singleton] at hi1 hi2
      exact hr i (by omega) (by omega)

theorem Copied.lz {old b out : List UInt8} {off m n : Nat} (h : Copied old b out.length off m) (hp : out <+: old) (h1 : 1 ≤ off)
    (h2 : off ≤ out.length) (hn : n ≤ m) (hr : out.length + n ≤ old.length) : b.take (out.length + n) = lz out off n := by
  have hs := h.size
  apply lz_unique h1 n out _ h2
  · rw [List.length_take]; omega
  · intro i hi
    rw [List.getElem?_take_of_lt (by omega), h.keep i hi]
    obtain ⟨t, rfl⟩ := hp
    rw [List.getElem?_append_left hi]
  · intro i hi1 hi2
    rw [List.getElem?_take_of_lt hi2, List.getElem?_take_of_lt (by omega)]
    exact h.rep i hi1 (by omega)

theorem repLoop_ok {old : List UInt8} {dest off stop : Nat} (h1 : 1 ≤ off) (h16 : off ≤ 16) (h2 : off ≤ dest) (hr : stop + 16 ≤ old.length) :
    ∀ (k m : Nat) (b : List UInt8), stop + 1 ≤ dest + m + k → Copied old b dest off m → dest + m ≤ stop →
      ∃ b' m', repLoop b (dest + m - off) (dest + m) off stop = .ok b' ∧ Copied old b' dest off m' ∧ stop ≤ dest + m' := by
  intro k
  induction k using Nat.strongRecOn with
  | _ k ih =>
    intro m b hk h hm
    obtain ⟨b1, e1, c1⟩ := h.copy (n := 16) h1 h2 (by omega)
    rw [Nat.min_eq_right h16] at c1
    rw [repLoop, dif_pos (by omega), e1]
    simp only
    by_cases hc : dest + m + off > stop
    · rw [if_pos hc]
      exact ⟨b1, m + off, rfl, c1, by omega⟩
    · rw [if_neg hc, show dest + m - off + off = dest + (m + off) - off by omega, show dest + m + off = dest + (m + off) by omega]
      exact ih (k - off) (by omega) (m + off) b1 (by omega) c1 (by omega)

theorem chunkLoop_ok {old : List UInt8} {dest off stop : Nat} (h16 : 16 < off) (h2 : off ≤ dest) (hr : stop + 16 ≤ old.length) :
    ∀ (k m : Nat) (b : List UInt8), stop + 1 ≤ dest + m + k → Copied old b dest off m → dest + m ≤ stop →
      ∃ b' m', chunkLoop b (dest + m - off) (dest + m) stop = .ok b' ∧ Copied old b' dest off m' ∧ stop ≤ dest + m' := by
  intro k
  induction k using Nat.strongRecOn with
  | _ k ih =>
    intro m b hk h hm
    obtain ⟨b1, e1, c1⟩ := h.copy (n := 16) (by omega) h2 (by omega)
    rw [Nat.min_eq_left (by omega)] at c1
    rw [chunkLoop, e1]
    simp only
    by_cases hc : dest + m + 16 > stop
    · rw [if_pos hc]
      exact ⟨b1, m + 16, rfl, c1, by omega⟩
    · rw [if_neg hc, show dest + m - off + 16 = dest + (m + 16) - off by omega, show dest + m + 16 = dest + (m + 16) by omega]
      exact ih (k - 16) (by omega) (m + 16) b1 (by omega) c1 (by omega)

/-- The copy of the fast loop, with 16 bytes of room behind the match. -/
theorem fastCopy_ok {buf out : List UInt8} {off length : Nat} (hp : out <+: buf) (h1 : 1 ≤ off) (h2 : off ≤ out.length)
    (hr : out.length + length + 16 ≤ buf.length) :
    ∃ b, fastCopy buf out.length off length = .ok b ∧ b.length = buf.length ∧ b.take (out.length + length) = lz out off length := by
  suffices h : ∃ b m, fastCopy buf out.length off length = .ok b ∧ Copied buf b out.length off m ∧ length ≤ m by
    obtain ⟨b, m, e, c, hm⟩ := h
    exact ⟨b, e, c.size, c.lz hp h1 h2 hm (by omega)⟩
  obtain ⟨b1, e1, c1⟩ := (Copied.start buf out.length off).copy (n := 16) h1 h2 (by omega)
  rw [Nat.add_zero, Nat.zero_add] at *
  rw [fastCopy, e1]
  simp only
  by_cases ho : off = 1
  · subst ho
    rw [if_pos rfl, fillBuf]
    have hs := c1.size
    have hb : b1[out.length - 1]? = some (b1[out.length - 1]'(by omega)) := List.getElem?_eq_getElem _
    rw [hb]
    simp only
    rw [if_pos (by omega)]
    have hg : ∀ i, (b1.take out.length ++ List.replicate length (b1[out.length - 1]'(by omega)) ++ b1.drop (out.length + length))[i]? =
        if out.length ≤ i ∧ i < out.length + length then b1[out.length - 1]? else b1[i]? := by
      intro i
      by_cases hi : i < out.length
      · rw [if_neg (by omega), List.append_assoc, List.getElem?_append_left (by simp; omega), List.getElem?_take_of_lt hi]
      · rw [List.append_assoc, List.getElem?_append_right (by simp; omega)]
        simp only [List.length_take, Nat.min_eq_left (show out.length ≤ b1.length by omega)]
        by_cases hi2 : i < out.length + length
        · rw [if_pos ⟨by omega, hi2⟩, List.getElem?_append_left (by simp; omega), hb, List.getElem?_replicate_of_lt (by omega)]
        · rw [if_neg (by omega), List.getElem?_append_right (by simp; omega)]
          simp only [List.length_replicate, List.getElem?_drop]
          congr 1
          omega
    refine ⟨_, length, rfl, ⟨?_, ?_, ?_⟩, Nat.le_refl _⟩
    · simp only [List.length_append, List.length_take, List.length_replicate, List.length_drop]
      omega
    · intro i hi
      rw [hg, if_neg (by omega), c1.keep i hi]
    · intro i hi1 hi2
      rw [hg, hg, if_pos ⟨hi1, hi2⟩]
      by_cases hi : i = out.length
      · subst hi
        rw [if_neg (by omega)]
      · rw [if_pos (by omega)]
  · rw [if_neg ho]
    by_cases hc : off ≤ 16 ∧ out.length + off < out.length + length
    · rw [if_pos hc]
      rw [Nat.min_eq_right hc.1] at c1
      obtain ⟨b', m', e, c, hm⟩ := repLoop_ok (stop := out.length + length) h1 hc.1 h2 (by omega) (length + 1) off b1 (by omega) c1 (by omega)
      rw [show out.length + off - off = out.length - off + off by omega] at e
      exact ⟨b', m', e, c, by omega⟩
    · rw [if_neg hc]
      by_cases hl : length > 16
      · rw [if_pos hl]
        rw [Nat.min_eq_left (by omega)] at c1
        obtain ⟨b', m', e, c, hm⟩ := chunkLoop_ok (stop := out.length + length) (by omega) h2 (by omega) (length + 1) 16 b1 (by omega) c1 (by omega)
        rw [show out.length + 16 - off = out.length - off + 16 by omega] at e
        exact ⟨b', m', e, c, by omega⟩
      · rw [if_neg hl]
        exact ⟨b1, _, rfl, c1, by omega⟩

theorem repCopy_ok {old : List UInt8} {dest off : Nat} (h1 : 1 ≤ off) (h2 : off ≤ dest) :
    ∀ (n m : Nat) (b : List UInt8), dest + m + n ≤ old.length → Copied old b dest off m →
      Copied old (repCopy b (dest + m - off) (dest + m) n) dest off (m + n) := by
  intro n
  induction n with
  | zero => intro m b _ h; exact h
  | succ n ih =>
    intro m b hr h
    have hs := h.size
    rw [repCopy, List.getElem?_eq_getElem (show dest + m - off < b.length by omega)]
    simp only
    have := ih (m + 1) (b.set (dest + m) (b[dest + m - off]'(by omega))) (by omega) ⟨by rw [List.length_set]; exact hs, ?_, ?_⟩
    · rw [show dest + (m + 1) - off = dest + m - off + 1 by omega, show dest + (m + 1) = dest + m + 1 by omega,
        show m + 1 + n = m + (n + 1) by omega] at this
      exact this
    · intro i hi
      rw [List.getElem?_set_ne (by omega), h.keep i hi]
    · intro i hi1 hi2
      by_cases hi : i = dest + m
      · subst hi
        rw [List.getElem?_set_self (by omega), List.getElem?_set_ne (by omega), List.getElem?_eq_getElem (by omega)]
      · rw [List.getElem?_set_ne (by omega), List.getElem?_set_ne (by omega)]
        exact h.rep i hi1 (by omega)

/-- The copy of the careful loop. -/
theorem slowCopy_ok {buf out : List UInt8} {off length : Nat} (hp : out <+: buf) (h1 : 1 ≤ off) (h2 : off ≤ out.length)
    (hr : out.length + length + 16 ≤ buf.length) :
    ∃ b, slowCopy buf out.length off length = .ok b ∧ b.length = buf.length ∧ b.take (out.length + length) = lz out off length := by
  suffices h : ∃ b m, slowCopy buf out.length off length = .ok b ∧ Copied buf b out.length off m ∧ length ≤ m by
    obtain ⟨b, m, e, c, hm⟩ := h
    exact ⟨b, e, c.size, c.lz hp h1 h2 hm (by omega)⟩
  rw [slowCopy]
  by_cases hc : out.length - off + length + 16 > out.length
  · rw [if_pos hc, copyRep, if_pos (by omega)]
    exact ⟨_, _, rfl, repCopy_ok h1 h2 (length + 2) 0 buf (by omega) (Copied.start _ _ _), by omega⟩
  · rw [if_neg hc, if_pos (by omega)]
    obtain ⟨b1, e1, c1⟩ := (Copied.start buf out.length off).copy (n := length) h1 h2 (by omega)
    rw [Nat.add_zero, Nat.zero_add] at *
    rw [copyWithin, if_pos (by omega)] at e1
    exact ⟨b1, _, e1, c1, by omega⟩

end Zune.Inflate
