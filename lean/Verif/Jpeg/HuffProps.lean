import Verif.Jpeg.Huff

/-!
# zune-jpeg: Huffman tables (properties)
-/

namespace Zune.Jpeg

open Zune.Canon

/-- **C42** Every table the decoder accepts decodes the canonical code: for the symbol of index
`before l + k`, the `k`-th of those with an `l` bit code, any window of 16 bits that starts with
its code `first l + k` is decoded as this symbol with length `l`, whatever bits follow. -/
theorem c42_symbol (bits values : Nat → Nat) (isDc : Bool) (t : Huff)
    (hn : Huff.new bits values isDc = .ok t) (h0 : bits 0 = 0) (hv : ∀ p, values p < 256)
    (l k : Nat) (h1 : 1 ≤ l) (h2 : l ≤ 16) (hk : k < bits l) (w : Nat)
    (hw : w / 2 ^ (16 - l) = first bits l + k) :
    t.decode w = some (values (before bits l + k), l) := by
  have g : Good bits values t := by
    by_cases h : Legal bits ∧ before bits 17 ≤ 256 ∧
        (isDc = true → ∀ i < before bits 17, values i ≤ 15)
    · obtain ⟨t', a, b, _⟩ := new_good bits values isDc h0 h.1 h.2.1 h.2.2
      rw [hn] at a
      cases a
      exact b
    · obtain ⟨e, he⟩ := new_bad bits values isDc h0 h
      rw [hn] at he
      cases he
  have := decode_match g hv w l h1 h2 ⟨by omega, by omega⟩
  rw [this, hw, show first bits l + k - first bits l = k by omega]

/-- The table of luminance DC codes printed in the standard (T.81, Table K.3). -/
def exBits : Nat → Nat := fun l => ([0, 0, 1, 5, 1, 1, 1, 1, 1, 1] : List Nat).getD l 0

/-- The same counts with four 12 bit codes more, so that codes longer than the lookup exist. -/
def exLong : Nat → Nat := fun l => ([0, 0, 1, 5, 1, 1, 1, 1, 1, 0, 0, 0, 4] : List Nat).getD l 0

-- The table exists; its third symbol is coded 011 and its last but one (12 bits) 111111110010.
example : (Huff.new exLong (fun p => p % 16) true).isOk = true ∧
    first exLong 3 + 1 = 3 ∧ before exLong 3 + 1 = 2 ∧
    first exLong 12 + 2 = 4082 ∧ before exLong 12 + 2 = 13 ∧
    ((Huff.new exLong (fun p => p % 16) true).map fun t => t.decode (4082 * 16 + 9)) =
      .ok (some (13, 12)) := by
  decide +kernel

/-- **C42** A window that starts with no code of the table is reported as an error: nothing is
decoded from it. -/
theorem c42_reject (bits values : Nat → Nat) (isDc : Bool) (t : Huff)
    (hn : Huff.new bits values isDc = .ok t) (h0 : bits 0 = 0) (w : Nat)
    (hw : ∀ l k, 1 ≤ l → l ≤ 16 → k < bits l → w / 2 ^ (16 - l) ≠ first bits l + k) :
    t.decode w = none := by
  have g : Good bits values t := by
    by_cases h : Legal bits ∧ before bits 17 ≤ 256 ∧
        (isDc = true → ∀ i < before bits 17, values i ≤ 15)
    · obtain ⟨t', a, b, _⟩ := new_good bits values isDc h0 h.1 h.2.1 h.2.2
      rw [hn] at a
      cases a
      exact b
    · obtain ⟨e, he⟩ := new_bad bits values isDc h0 h
      rw [hn] at he
      cases he
  refine decode_none g w fun l h1 h2 hm => ?_
  have := hm.1
  have := hm.2
  exact hw l (w / 2 ^ (16 - l) - first bits l) h1 h2 (by omega) (by omega)

-- the all-ones window starts with no code.
example : ∀ l < 17, 1 ≤ l → ∀ k < exLong l, 65535 / 2 ^ (16 - l) ≠ first exLong l + k := by
  decide +kernel

/-- **C42** The decoder accepts exactly the counts that describe a prefix code of at most 256
symbols in which no code is all ones (and, for a DC table, whose symbols are at most 15). -/
theorem c42_accepts (bits values : Nat → Nat) (isDc : Bool) (h0 : bits 0 = 0) :
    (∃ t, Huff.new bits values isDc = .ok t) ↔
      (∀ l, 1 ≤ l → l ≤ 16 → first bits l + bits l < 2 ^ l) ∧ before bits 17 ≤ 256 ∧
        (isDc = true → ∀ i < before bits 17, values i ≤ 15) := by
  constructor
  · rintro ⟨t, ht⟩
    by_contra h
    obtain ⟨e, he⟩ := new_bad bits values isDc h0 h
    rw [ht] at he
    cases he
  · rintro ⟨a, b, c⟩
    obtain ⟨t, ht, _⟩ := new_good bits values isDc h0 a b c
    exact ⟨t, ht⟩

-- accepted: the standard table; refused: two codes of length one (the second would be all ones).
example : exBits 0 = 0 ∧ (∀ l < 17, 1 ≤ l → first exBits l + exBits l < 2 ^ l) ∧
    before exBits 17 = 12 ∧ ¬ first (fun l => if l = 1 then 2 else 0) 1 + 2 < 2 ^ 1 := by
  decide +kernel

/-- **C42** The codes are a prefix code: a window starts with at most one of them. -/
theorem c42_unique (bits : Nat → Nat) (w l m k j : Nat) (hl : l ≤ 16) (hm : m ≤ 16)
    (hk : k < bits l) (hj : j < bits m) (h1 : w / 2 ^ (16 - l) = first bits l + k)
    (h2 : w / 2 ^ (16 - m) = first bits m + j) : l = m ∧ k = j := by
  obtain rfl := match_unique (cnt := bits) (N := 16) (w := w) hl hm ⟨by omega, by omega⟩
    ⟨by omega, by omega⟩
  exact ⟨rfl, by omega⟩

example : (4082 * 16 + 9) / 2 ^ (16 - 12) = first exLong 12 + 2 ∧ 2 < exLong 12 := by
  decide +kernel

/-- **C43** Whenever the combined table has an entry for the next 9 bits, decoding the symbol and
then reading its extra bits one after the other gives the same run, the same coefficient and the
same number of bits: with `(rs, len)` the symbol decoded from the window, the entry holds the value
of the `rs % 16` bits that follow the code, the run `rs / 16` and the total length. -/
theorem c43_fast (bits values : Nat → Nat) (t : Huff) (hn : Huff.new bits values false = .ok t)
    (h0 : bits 0 = 0) (hv : ∀ p, values p < 256) :
    ∃ f, t.acLookup = some f ∧ ∀ w, f (w / 2 ^ 7) ≠ 0 → ∃ rs len,
      t.decode w = some (rs, len) ∧ rs < 256 ∧ rs % 16 ≠ 0 ∧ len + rs % 16 ≤ 9 ∧
      f (w / 2 ^ 7) / 256 = extend (w / 2 ^ (16 - len - rs % 16) % 2 ^ (rs % 16)) (rs % 16) ∧
      f (w / 2 ^ 7) / 16 % 16 = (rs / 16 : Nat) ∧
      f (w / 2 ^ 7) % 16 = (len + rs % 16 : Nat) := by
  have h : Legal bits ∧ before bits 17 ≤ 256 := by
    by_contra h
    obtain ⟨e, he⟩ := new_bad bits values false h0 (fun h' => h ⟨h'.1, h'.2.1⟩)
    rw [hn] at he
    cases he
  obtain ⟨t', a, g, gac⟩ := new_good bits values false h0 h.1 h.2 (by simp)
  rw [hn] at a
  cases a
  obtain ⟨f, hf, gf⟩ := gac rfl
  refine ⟨f, hf, fun w hw => ?_⟩
  by_cases hex : ∃ l, 1 ≤ l ∧ l ≤ 9 ∧ Match bits 9 (w / 2 ^ 7) l
  · obtain ⟨l, h1, h2, hm⟩ := hex
    have hm16 := (match_cut (cnt := bits) (N := 16) (M := 9) (w := w) (by omega) h2).1 hm
    have hd := decode_match g hv w l h1 (by omega) hm16
    have he := gf.hit (w / 2 ^ 7) l h1 h2 hm
    have hdiv : w / 2 ^ 7 / 2 ^ (9 - l) = w / 2 ^ (16 - l) := by
      rw [Nat.div_div_eq_div_mul, ← pow_add, show 7 + (9 - l) = 16 - l by omega]
    rw [hdiv] at he
    have hvp := hv (before bits l + (w / 2 ^ (16 - l) - first bits l))
    generalize before bits l + (w / 2 ^ (16 - l) - first bits l) = p at *
    rw [he] at hw ⊢
    unfold acEntry at hw ⊢
    simp only at hw ⊢
    split at hw
    · rename_i hc
      rw [if_pos hc]
      refine ⟨values p, l, hd, hvp, hc.2.1, hc.2.2.1, ?_⟩
      have hfv := fastValue_eq (w / 2 ^ 7) l (values p % 16) hc.2.2.1
      have hdd : w / 2 ^ 7 / 2 ^ (9 - l - values p % 16) = w / 2 ^ (16 - l - values p % 16) := by
        rw [Nat.div_div_eq_div_mul, ← pow_add]
        congr 2; omega
      rw [hdd] at hfv
      rw [← hfv]
      generalize fastValue (w / 2 ^ 7) l (values p % 16) = k at *
      have h9 := hc.2.2.1
      generalize values p = v at *
      refine ⟨?_, ?_, ?_⟩ <;> omega
    · exact absurd rfl hw
  · push Not at hex
    exact absurd (gf.miss (w / 2 ^ 7) hex) hw

-- an entry: code 00 for the symbol 0x12 (run 1, two bits), then bits 01: value -2, four bits.
example : ((Huff.new exBits (fun p => if p = 0 then 0x12 else p) false).map fun t =>
    (t.acLookup.map fun f => f (0b000111111 : Nat))) = .ok (some (-2 * 256 + 1 * 16 + 4)) := by
  decide +kernel

/-- **C43** The table has an entry exactly for the windows where code and extra bits fit in 9 bits,
there are extra bits, and the value fits a signed byte (symbol number 255 excepted). -/
theorem c43_coverage (bits values : Nat → Nat) (t : Huff)
    (hn : Huff.new bits values false = .ok t) (h0 : bits 0 = 0) (l k w : Nat)
    (h1 : 1 ≤ l) (h2 : l ≤ 9) (hk : k < bits l) (hw : w / 2 ^ (16 - l) = first bits l + k) :
    ∃ f, t.acLookup = some f ∧
      let m := values (before bits l + k) % 16
      (f (w / 2 ^ 7) ≠ 0 ↔ before bits l + k < 255 ∧ m ≠ 0 ∧ l + m ≤ 9 ∧
        -128 ≤ extend (w / 2 ^ (16 - l - m) % 2 ^ m) m ∧
        extend (w / 2 ^ (16 - l - m) % 2 ^ m) m ≤ 127) := by
  have h : Legal bits ∧ before bits 17 ≤ 256 := by
    by_contra h
    obtain ⟨e, he⟩ := new_bad bits values false h0 (fun h' => h ⟨h'.1, h'.2.1⟩)
    rw [hn] at he
    cases he
  obtain ⟨t', a, g, gac⟩ := new_good bits values false h0 h.1 h.2 (by simp)
  rw [hn] at a
  cases a
  obtain ⟨f, hf, gf⟩ := gac rfl
  refine ⟨f, hf, ?_⟩
  have hm : Match bits 9 (w / 2 ^ 7) l :=
    (match_cut (cnt := bits) (N := 16) (M := 9) (w := w) (by omega) h2).2 ⟨by omega, by omega⟩
  have he := gf.hit (w / 2 ^ 7) l h1 h2 hm
  have hdiv : w / 2 ^ 7 / 2 ^ (9 - l) = w / 2 ^ (16 - l) := by
    rw [Nat.div_div_eq_div_mul, ← pow_add, show 7 + (9 - l) = 16 - l by omega]
  rw [hdiv, hw, show first bits l + k - first bits l = k by omega] at he
  generalize before bits l + k = p at *
  simp only [he]
  unfold acEntry
  by_cases h9 : l + values p % 16 ≤ 9
  · have hfv := fastValue_eq (w / 2 ^ 7) l (values p % 16) h9
    have hdd : w / 2 ^ 7 / 2 ^ (9 - l - values p % 16) = w / 2 ^ (16 - l - values p % 16) := by
      rw [Nat.div_div_eq_div_mul, ← pow_add]
      congr 2; omega
    rw [hdd] at hfv
    simp only [← hfv]
    generalize fastValue (w / 2 ^ 7) l (values p % 16) = v at *
    split
    · rename_i hc
      refine ⟨fun _ => hc, fun _ => ?_⟩
      omega
    · rename_i hc
      exact ⟨fun hx => absurd rfl hx, fun hx => absurd hx hc⟩
  · rw [if_neg (fun hc => h9 hc.2.2.1)]
    exact ⟨fun hx => absurd rfl hx, fun hx => absurd hx.2.2.1 h9⟩

example : 0b0001111111000000 / 2 ^ (16 - 2) = first exBits 2 + 0 ∧ 0 < exBits 2 := by
  decide +kernel

/-- **C44** The branch-free sign extension is EXTEND of the standard (Figure F.12), for every
number of extra bits and every value of them. -/
theorem c44_extend (s x : Nat) (h1 : 1 ≤ s) (h2 : s ≤ 16) (hx : x < 2 ^ s) :
    (huffExtend (BitVec.ofNat 32 x) (BitVec.ofNat 32 s)).toInt =
      if x < 2 ^ (s - 1) then (x : Int) - 2 ^ s + 1 else x := by
  have key := huffExtend_core x (2 ^ (s - 1)) (2 ^ s)
    (lt_of_lt_of_le hx (Nat.pow_le_pow_right (by omega) h2))
    (lt_of_lt_of_le (Nat.pow_lt_pow_right (by omega) (by omega : s - 1 < s))
      (Nat.pow_le_pow_right (by omega) h2))
    (Nat.pow_le_pow_right (n := 2) (by omega) h2)
    ((1 : BitVec 32) <<< (BitVec.ofNat 32 s - 1)) (((-1 : BitVec 32) <<< BitVec.ofNat 32 s) + 1)
    (by clear hx; interval_cases s <;> decide) (by clear hx; interval_cases s <;> decide)
  unfold huffExtend
  rw [key]
  push_cast
  rfl

-- three extra bits 010 stand for -5, 110 for 6.
example : (huffExtend 2 3).toInt = -5 ∧ (huffExtend 6 3).toInt = 6 := by decide

end Zune.Jpeg
