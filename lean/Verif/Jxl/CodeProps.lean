/-
Properties C72 and C73: the prefix codes of the JPEG XL encoder are complete, and the bits it writes for a channel decode to its residuals.
-/
import Verif.Jxl.NewCode
import Verif.Jxl.AreaProps
import Verif.Jxl.WriterProps

namespace Zune.Jxl

open Prefix (weight word Used)

/-! ### C72 -/

/-- **C72** Whenever `compute_code_lengths` returns, the lengths respect the limits of all symbols that occur, unused symbols get none, the
    code space is exactly filled, and no other lengths with these properties need fewer bits for the symbols counted. -/
theorem c72_lengths (syms : List Sym) (ls : List Nat) (h : codeLengths syms = some ls) :
    ls.length = syms.length ∧
    (∀ i s, syms[i]? = some s → if s.freq = 0 then ls.getD i 0 = 0 else 1 ≤ ls.getD i 0 ∧ s.lo ≤ ls.getD i 0 ∧ ls.getD i 0 ≤ s.hi) ∧
    (∃ N, (∀ l ∈ ls, l ≤ N) ∧ weight N ls = 2 ^ N) ∧
    ∀ ms, Allowed syms ms → (∃ N, (∀ l ∈ ms, l ≤ N) ∧ weight N ms = 2 ^ N) → cost syms ls ≤ cost syms ms := by
  obtain ⟨h1, h2, h3⟩ := codeLengths_spec h
  exact ⟨h1.length, fun i s hs => h1.get hs, h2, h3⟩

/-- Four symbols with lengths up to three, one of them unused. -/
example : codeLengths [⟨10, 0, 3⟩, ⟨0, 0, 3⟩, ⟨3, 0, 3⟩, ⟨4, 0, 3⟩] = some [1, 0, 2, 2] := by decide +kernel

/-- **C72** `PrefixCode::new` succeeds on all counts the encoder can produce: `k` residual tokens (10 or 11 for eight bits, 19 for sixteen)
    and 28 run tokens have been seen, no others.  The code it builds has codewords of at most 15 bits that fill the code space, for exactly
    the symbols seen; the bits stored are the codewords of the canonical code for those lengths, in stream order. -/
theorem c72_code (bytes k : Nat) (raw lz : List Nat) (hk : bytes = 1 ∧ (k = 10 ∨ k = 11) ∨ bytes = 2 ∧ k = 19) (hr : raw.length = 19)
    (hl : lz.length = 33) (hraw : ∀ t < 19, raw.getD t 0 ≠ 0 ↔ t < k) (hlz : ∀ t < 33, lz.getD t 0 ≠ 0 ↔ t < 28) :
    ∃ c, PrefixCode.new bytes raw lz = some c ∧ c.lens.length = 257 ∧ (∀ l ∈ c.lens, l ≤ 15) ∧ weight 15 c.lens = 2 ^ 15 ∧
      (∀ t, Used c.lens t ↔ t < k ∨ 224 ≤ t ∧ t < 224 + 28) ∧
      (∀ t < 19, lsb (c.rawNbits.getD t 0) (c.rawBits.getD t 0) = word c.lens t) ∧
      (∀ t < 33, lsb (c.lz77Nbits.getD t 0) (c.lz77Bits.getD t 0) = word c.lens (224 + t)) ∧
      (∀ t < 13, c.rawNbits.getD t 0 ≤ 7) ∧ (bytes = 2 → ∀ t, 13 ≤ t → t < 19 → c.rawNbits.getD t 0 = 8) := by
  obtain ⟨c, h⟩ := new_some hk hr hl hraw hlz
  have g := new_good hr hl h
  obtain ⟨p⟩ := new_parts h
  have hur : usedLength raw = k := usedLength_eq (by omega) (by rw [hr]; exact hraw)
  have hul : usedLength lz = 28 := usedLength_eq (by omega) (by rw [hl]; exact hlz)
  have hlen1 := p.length1 hr
  have hlen2 := p.length2 hl
  have htop := p.top_pos hr
  have hlen : c.lens.length = 257 := by
    rw [PrefixCode.lens, List.length_append, List.length_append, List.length_replicate, g.rawLen, g.lzLen]
  -- lengths of the residual tokens
  have hrawlim : ∀ t < k, 1 ≤ c.rawNbits.getD t 0 ∧ ((rawLimits bytes).getD t (0, 0)).1 ≤ c.rawNbits.getD t 0 ∧
      c.rawNbits.getD t 0 ≤ ((rawLimits bytes).getD t (0, 0)).2 := by
    intro t ht
    obtain ⟨ha, -, -⟩ := codeLengths_spec p.h1
    have hx : (raw.take (usedLength raw) ++ [lz.sum])[t]? = some (raw.getD t 0) := by
      rw [List.getElem?_append_left (by simp; omega), List.getElem?_take_of_lt (by omega), List.getD_eq_getElem?_getD, List.getElem?_eq_getElem (by omega)]
      rfl
    have := ha.get (withLimits_get _ _ hx (rawLimits_hi bytes t (by omega)))
    rw [if_neg ((hraw t (by omega)).2 ht)] at this
    have e : c.rawNbits.getD t 0 = p.lens1.getD t 0 := by
      rw [p.hraw, getD_pad_left, List.getD_eq_getElem?_getD, List.getElem?_take_of_lt (by omega), ← List.getD_eq_getElem?_getD]
    rw [e]; exact this
  have hraw0 : ∀ t, k ≤ t → c.rawNbits.getD t 0 = 0 := by
    intro t ht
    rw [p.hraw, getD_pad_left, getD_of_ge _ (by simp; omega)]
  have hlzpos : ∀ t < 28, c.lz77Nbits.getD t 0 ≠ 0 := by
    intro t ht
    obtain ⟨ha, -, -⟩ := codeLengths_spec p.h2
    have hx : (lz.take (usedLength lz))[t]? = some (lz.getD t 0) := by
      rw [List.getElem?_take_of_lt (by omega), List.getD_eq_getElem?_getD, List.getElem?_eq_getElem (by omega)]
      rfl
    have := ha.get (withLimits_get _ _ hx (y := (0, 15 - p.topLen)) (by rw [List.getElem?_replicate, if_pos (by show t < 33; omega)]; rfl))
    rw [if_neg ((hlz t (by omega)).2 ht)] at this
    rw [p.hlz, getD_pad_left]
    have e : (p.lens2.map fun n => if n ≠ 0 then p.lens1.getD (usedLength raw) 0 + n else 0).getD t 0
        = if p.lens2.getD t 0 ≠ 0 then p.lens1.getD (usedLength raw) 0 + p.lens2.getD t 0 else 0 := by
      simp [List.getD_eq_getElem?_getD, show t < p.lens2.length by omega]
    rw [e, if_pos (by omega)]
    omega
  have hlz0 : ∀ t, 28 ≤ t → c.lz77Nbits.getD t 0 = 0 := by
    intro t ht
    rw [p.hlz, getD_pad_left, getD_of_ge _ (by simp; omega)]
  refine ⟨c, h, hlen, g.le, g.full, ?_, fun t ht => (g.rawWord t ht).1, fun t ht => (g.lzWord t ht).1, ?_, ?_⟩
  · intro t
    have hget : c.lens.getD t 0 = if t < 19 then c.rawNbits.getD t 0 else if t < 224 then 0 else c.lz77Nbits.getD (t - 224) 0 := by
      rw [PrefixCode.lens, List.getD_eq_getElem?_getD]
      split
      · rename_i h1
        rw [List.append_assoc, List.getElem?_append_left (by rw [g.rawLen]; omega), List.getD_eq_getElem?_getD]
      · split
        · rw [List.append_assoc, List.getElem?_append_right (by rw [g.rawLen]; omega), List.getElem?_append_left (by rw [g.rawLen, List.length_replicate]; omega),
            List.getElem?_replicate]
          split <;> rfl
        · rw [List.getElem?_append_right (by rw [List.length_append, List.length_replicate, g.rawLen]; omega), List.getD_eq_getElem?_getD,
            List.length_append, List.length_replicate, g.rawLen]
    rw [Used, hget]
    split
    · by_cases ht : t < k
      · have := (hrawlim t ht).1
        constructor
        · intro _; exact Or.inl ht
        · intro _; omega
      · rw [hraw0 t (by omega)]
        constructor
        · intro h; exact absurd rfl h
        · omega
    · split
      · constructor
        · intro h; exact absurd rfl h
        · omega
      · by_cases ht : t - 224 < 28
        · constructor
          · intro _; omega
          · intro _; exact hlzpos _ ht
        · rw [hlz0 _ (by omega)]
          constructor
          · intro h; exact absurd rfl h
          · omega
  · intro t ht
    by_cases htk : t < k
    · have h1 := (hrawlim t htk).2.2
      have h2 : ((rawLimits bytes).getD t (0, 0)).2 ≤ 7 := by
        rcases hk with ⟨rfl, rfl | rfl⟩ | ⟨rfl, rfl⟩
        · have : ∀ t < 10, ((rawLimits 1).getD t (0, 0)).2 ≤ 7 := by decide
          exact this t htk
        · have : ∀ t < 11, ((rawLimits 1).getD t (0, 0)).2 ≤ 7 := by decide
          exact this t htk
        · have : ∀ t < 13, ((rawLimits 2).getD t (0, 0)).2 ≤ 7 := by decide
          exact this t ht
      omega
    · rw [hraw0 t (by omega)]; omega
  · intro hb t h1 h2
    obtain ⟨-, rfl⟩ : bytes = 2 ∧ k = 19 := by omega
    subst hb
    have := hrawlim t h2
    have h3 : ∀ t < 19, 13 ≤ t → (rawLimits 2).getD t (0, 0) = (8, 8) := by decide
    rw [h3 t h2 h1] at this
    omega

/-- The counts before any sample has been seen (encoder.rs:1151-1168) for grey pictures of eight bits. -/
example : (∀ t < 19, ([3843, 852, 1270, 1214, 1014, 727, 481, 300, 159, 51] ++ List.replicate 9 0).getD t 0 ≠ 0 ↔ t < 10) ∧
    ∀ t < 33, ([29, 27, 25, 23, 21, 21, 19, 18, 21, 17, 16, 15, 15, 14, 13, 13, 137, 98, 61, 34, 1, 1, 1, 1, 1, 1, 1, 1] ++
      List.replicate 5 0).getD t 0 ≠ 0 ↔ t < 28 := by decide

/-! ### C73

The specification: how a JPEG XL decoder reads the entropy coded symbols of one channel with the announced settings (encoder.rs:932-963):
symbols below 224 are tokens of values with configuration 0, 0, 0; symbols from 224 on are tokens of copy lengths with configuration
4, 0, 0 and at least 7; the distance code has a single symbol, which takes no bits and stands for distance one. -/

/-- `Reads lens last bits syms`: from `bits` a decoder whose last value was `last` reads the values `syms`, using up all bits. -/
inductive Reads (lens : List Nat) : Option Nat → List Bool → List Nat → Prop
  | done (last : Option Nat) : Reads lens last [] []
  | value (last : Option Nat) (tok x : Nat) (bits : List Bool) (syms : List Nat) : Used lens tok → tok < 224 →
      x < 2 ^ (Hybrid.mk 0 0 0).extra tok → Reads lens (some ((Hybrid.mk 0 0 0).value tok x)) bits syms →
      Reads lens last (word lens tok ++ (lsb ((Hybrid.mk 0 0 0).extra tok) x ++ bits)) ((Hybrid.mk 0 0 0).value tok x :: syms)
  | copy (last tok x : Nat) (bits : List Bool) (syms : List Nat) : Used lens tok → 224 ≤ tok →
      x < 2 ^ (Hybrid.mk 4 0 0).extra (tok - 224) → Reads lens (some last) bits syms →
      Reads lens (some last) (word lens tok ++ (lsb ((Hybrid.mk 4 0 0).extra (tok - 224)) x ++ bits))
        (List.replicate (7 + (Hybrid.mk 4 0 0).value (tok - 224) x) last ++ syms)

theorem word_ne_nil {lens : List Nat} {s : Nat} (h : Used lens s) (r : List Bool) : word lens s ++ r ≠ [] := by
  intro e
  have := congrArg List.length e
  simp only [List.length_append, word, Prefix.msb_length, List.length_nil] at this
  exact h (by omega)

theorem lsb_inj {n x y : Nat} (hx : x < 2 ^ n) (hy : y < 2 ^ n) (h : lsb n x = lsb n y) : x = y := by
  have := congrArg lval h
  rwa [lval_lsb, lval_lsb, Nat.mod_eq_of_lt hx, Nat.mod_eq_of_lt hy] at this

/-- A decoder has no choice. -/
theorem reads_unique {lens : List Nat} (hN : ∀ l ∈ lens, l ≤ 15) (hk : weight 15 lens ≤ 2 ^ 15) {last : Option Nat} {bits : List Bool} {a : List Nat}
    (ha : Reads lens last bits a) : ∀ {b : List Nat}, Reads lens last bits b → a = b := by
  induction ha with
  | done last =>
    intro b hb
    generalize hbits : ([] : List Bool) = bits at hb
    cases hb with
    | done => rfl
    | value _ tok x bits syms hu _ _ _ => exact absurd hbits.symm (word_ne_nil hu _)
    | copy _ tok x bits syms hu _ _ _ => exact absurd hbits.symm (word_ne_nil hu _)
  | value last tok x bits syms hu ht hx hr ih =>
    intro b hb
    generalize hbits : word lens tok ++ (lsb ((Hybrid.mk 0 0 0).extra tok) x ++ bits) = w at hb
    cases hb with
    | done => exact absurd hbits (word_ne_nil hu _)
    | value _ tok' x' bits' syms' hu' ht' hx' hr' =>
      obtain ⟨rfl, h1⟩ := Prefix.word_unique hN hk hu hu' hbits
      obtain ⟨h2, rfl⟩ := List.append_inj h1 (by simp)
      obtain rfl := lsb_inj hx hx' h2
      rw [ih hr']
    | copy _ tok' x' bits' syms' hu' ht' hx' hr' =>
      obtain ⟨rfl, h1⟩ := Prefix.word_unique hN hk hu hu' hbits
      omega
  | copy last tok x bits syms hu ht hx hr ih =>
    intro b hb
    generalize hbits : word lens tok ++ (lsb ((Hybrid.mk 4 0 0).extra (tok - 224)) x ++ bits) = w at hb
    cases hb with
    | done => exact absurd hbits (word_ne_nil hu _)
    | value _ tok' x' bits' syms' hu' ht' hx' hr' =>
      obtain ⟨rfl, h1⟩ := Prefix.word_unique hN hk hu hu' hbits
      omega
    | copy _ tok' x' bits' syms' hu' ht' hx' hr' =>
      obtain ⟨rfl, h1⟩ := Prefix.word_unique hN hk hu hu' hbits
      obtain ⟨h2, rfl⟩ := List.append_inj h1 (by simp)
      obtain rfl := lsb_inj hx hx' h2
      rw [ih hr']

/-- A run fits the 32 bits in which `encode_rle` collects its code (encoder.rs:572-578); short runs go through the table. -/
def RunFits (c : PrefixCode) (r : Nat) : Prop :=
  r < 40 ∨ c.rawNbits.getD 0 0 + (c.lz77Nbits.getD (hybridLz77 (r - 8)).1 0 + (hybridLz77 (r - 8)).2.1) ≤ 32

section
variable {c : PrefixCode}

theorem Good.used_raw (g : Good c) {t : Nat} (ht : t < 19) : c.lens.getD t 0 = c.rawNbits.getD t 0 := by
  rw [PrefixCode.lens, List.append_assoc, List.getD_eq_getElem?_getD, List.getElem?_append_left (by rw [g.rawLen]; omega), List.getD_eq_getElem?_getD]

theorem residual_read (g : Good c) {v : Nat} (hv : v < 2 ^ 18) (hu : Used c.lens (hybrid000 v).1) (last : Option Nat) {bits : List Bool} {syms : List Nat}
    (h : Reads c.lens (some v) bits syms) : Reads c.lens last (lsb (residualBits c v).1 (residualBits c v).2 ++ bits) (v :: syms) := by
  obtain ⟨h1, h2, h3, h4⟩ := c52_residual v (by omega)
  have ht := h4 18 hv
  obtain ⟨g1, g2⟩ := g.rawWord (hybrid000 v).1 (by omega)
  have g8 := g.raw8 (hybrid000 v).1
  have hn : (hybrid000 v).2.1 ≤ 17 := by
    rw [h2, Hybrid.extra]; simp; split <;> omega
  have hx : (hybrid000 v).2.2 <<< c.rawNbits.getD (hybrid000 v).1 0 < 2 ^ 32 := by
    rw [Nat.shiftLeft_eq]
    calc (hybrid000 v).2.2 * 2 ^ c.rawNbits.getD (hybrid000 v).1 0 < 2 ^ (hybrid000 v).2.1 * 2 ^ c.rawNbits.getD (hybrid000 v).1 0 :=
          Nat.mul_lt_mul_of_pos_right h1 (Nat.two_pow_pos _)
      _ = 2 ^ ((hybrid000 v).2.1 + c.rawNbits.getD (hybrid000 v).1 0) := (pow_add ..).symm
      _ ≤ 2 ^ 32 := Nat.pow_le_pow_right (by omega) (by omega)
  have hand : (hybrid000 v).2.1 &&& 0xFF = (hybrid000 v).2.1 := by
    rw [show (0xFF : Nat) = 2 ^ 8 - 1 from rfl, Nat.and_two_pow_sub_one_eq_mod, Nat.mod_eq_of_lt (by omega)]
  have e : lsb (residualBits c v).1 (residualBits c v).2 = word c.lens (hybrid000 v).1 ++ lsb (hybrid000 v).2.1 (hybrid000 v).2.2 := by
    simp only [residualBits]
    rw [Nat.mod_eq_of_lt hx, hand, Nat.or_comm, lsb_merge' g2, g1]
  have hval := Reads.value (lens := c.lens) last (hybrid000 v).1 (hybrid000 v).2.2 bits syms hu (by omega) (by rw [← h2]; exact h1) (by rw [h3]; exact h)
  rw [h3, ← h2] at hval
  rw [e, List.append_assoc]
  exact hval

theorem run_read (g : Good c) {r : Nat} (hr : 8 ≤ r) (hr' : r - 8 < 2 ^ 16) (hf : RunFits c r) (hu0 : Used c.lens 0) (hu : Used c.lens (224 + (hybridLz77 (r - 8)).1))
    (last : Option Nat) {bits : List Bool} {syms : List Nat} (h : Reads c.lens (some 0) bits syms) :
    Reads c.lens last (fields (runBits c r) ++ bits) (List.replicate r 0 ++ syms) := by
  obtain ⟨h1, h2, h3, h4⟩ := c52_run (r - 8) (by omega)
  have ht := h4 16 (by omega) hr'
  obtain ⟨g1, g2⟩ := g.lzWord (hybridLz77 (r - 8)).1 (by omega)
  obtain ⟨z1, z2⟩ := g.rawWord 0 (by omega)
  have hn : (hybridLz77 (r - 8)).2.1 ≤ 15 := by
    rw [h2, Hybrid.extra]; split <;> simp; omega
  have hbits : ∀ N V, N = c.rawNbits.getD 0 0 + (c.lz77Nbits.getD (hybridLz77 (r - 8)).1 0 + (hybridLz77 (r - 8)).2.1) →
      V = (((hybridLz77 (r - 8)).2.2 <<< c.lz77Nbits.getD (hybridLz77 (r - 8)).1 0 ||| c.lz77Bits.getD (hybridLz77 (r - 8)).1 0) <<< c.rawNbits.getD 0 0 ||| c.rawBits.getD 0 0) →
      lsb N V = word c.lens 0 ++ (word c.lens (224 + (hybridLz77 (r - 8)).1) ++ lsb (hybridLz77 (r - 8)).2.1 (hybridLz77 (r - 8)).2.2) := by
    rintro N V rfl rfl
    rw [lsb_merge' z2, lsb_merge' g2, z1, g1]
  have e : fields (runBits c r) = word c.lens 0 ++ (word c.lens (224 + (hybridLz77 (r - 8)).1) ++ lsb (hybridLz77 (r - 8)).2.1 (hybridLz77 (r - 8)).2.2) := by
    rw [runBits, if_neg (by omega)]
    rw [show lz77MinLength + 1 = 8 from rfl]
    by_cases hc : r - 8 < 32
    · rw [if_pos hc]
      obtain ⟨k1, k2⟩ := g.cache (r - 8) hc
      simp only [fields, List.append_nil]
      exact hbits _ _ (by rw [k2]; omega) k1
    · rw [if_neg hc]
      simp only [fields, List.append_nil]
      have hfit : c.rawNbits.getD 0 0 + (c.lz77Nbits.getD (hybridLz77 (r - 8)).1 0 + (hybridLz77 (r - 8)).2.1) ≤ 32 := by
        rcases hf with hf | hf
        · omega
        · exact hf
      have hand : (hybridLz77 (r - 8)).2.1 &&& 0xFF = (hybridLz77 (r - 8)).2.1 := by
        rw [show (0xFF : Nat) = 2 ^ 8 - 1 from rfl, Nat.and_two_pow_sub_one_eq_mod, Nat.mod_eq_of_lt (by omega)]
      have w1 : (hybridLz77 (r - 8)).2.2 <<< c.lz77Nbits.getD (hybridLz77 (r - 8)).1 0 < 2 ^ (c.lz77Nbits.getD (hybridLz77 (r - 8)).1 0 + (hybridLz77 (r - 8)).2.1) := by
        rw [Nat.shiftLeft_eq, Nat.add_comm, pow_add]
        exact Nat.mul_lt_mul_of_pos_right h1 (Nat.two_pow_pos _)
      have w2 : (hybridLz77 (r - 8)).2.2 <<< c.lz77Nbits.getD (hybridLz77 (r - 8)).1 0 ||| c.lz77Bits.getD (hybridLz77 (r - 8)).1 0
          < 2 ^ (c.lz77Nbits.getD (hybridLz77 (r - 8)).1 0 + (hybridLz77 (r - 8)).2.1) :=
        Nat.or_lt_two_pow w1 (Nat.lt_of_lt_of_le g2 (Nat.pow_le_pow_right (by omega) (by omega)))
      have w3 : ((hybridLz77 (r - 8)).2.2 <<< c.lz77Nbits.getD (hybridLz77 (r - 8)).1 0 ||| c.lz77Bits.getD (hybridLz77 (r - 8)).1 0) <<< c.rawNbits.getD 0 0 < 2 ^ 32 := by
        rw [Nat.shiftLeft_eq]
        calc _ < 2 ^ (c.lz77Nbits.getD (hybridLz77 (r - 8)).1 0 + (hybridLz77 (r - 8)).2.1) * 2 ^ c.rawNbits.getD 0 0 :=
              Nat.mul_lt_mul_of_pos_right w2 (Nat.two_pow_pos _)
          _ = 2 ^ (c.lz77Nbits.getD (hybridLz77 (r - 8)).1 0 + (hybridLz77 (r - 8)).2.1 + c.rawNbits.getD 0 0) := (pow_add ..).symm
          _ ≤ 2 ^ 32 := Nat.pow_le_pow_right (by omega) (by omega)
      have w4 : (hybridLz77 (r - 8)).2.2 <<< c.lz77Nbits.getD (hybridLz77 (r - 8)).1 0 < 2 ^ 32 :=
        Nat.lt_of_lt_of_le w1 (Nat.pow_le_pow_right (by omega) (by omega))
      apply hbits
      · rw [hand]; omega
      · rw [Nat.mod_eq_of_lt w4, Nat.mod_eq_of_lt w3]
  have hcopy := Reads.copy (lens := c.lens) 0 (224 + (hybridLz77 (r - 8)).1) (hybridLz77 (r - 8)).2.2 bits syms hu (by omega)
    (by rw [Nat.add_sub_cancel_left, ← h2]; exact h1) h
  rw [Nat.add_sub_cancel_left, h3, ← h2] at hcopy
  have h0 : (Hybrid.mk 0 0 0).value 0 0 = 0 := by decide
  have hx0 : (Hybrid.mk 0 0 0).extra 0 = 0 := by decide
  have hval := Reads.value (lens := c.lens) last 0 0 _ _ hu0 (by omega) (by rw [hx0]; decide) (by rw [h0]; exact hcopy)
  rw [h0, hx0] at hval
  rw [e, List.append_assoc, List.append_assoc]
  have er : List.replicate r 0 = 0 :: List.replicate (7 + (r - 8)) 0 := by
    rw [← List.replicate_succ]; congr 1; omega
  rw [er]
  simpa [lsb] using hval

theorem callBits_read (g : Good c) {k : Call} (hv : ∀ v ∈ k.residuals, v < 2 ^ 18 ∧ Used c.lens (hybrid000 v).1)
    (hr : k.run = 0 ∨ 8 ≤ k.run ∧ k.run - 8 < 2 ^ 16 ∧ RunFits c k.run) (hu0 : Used c.lens 0) (hu : ∀ t < 28, Used c.lens (224 + t))
    {bits : List Bool} {syms : List Nat} (h : ∀ last, Reads c.lens last bits syms) (last : Option Nat) :
    Reads c.lens last (fields (callBits c k) ++ bits) (k.expand ++ syms) := by
  have h1 : ∀ (l : List Nat), (∀ v ∈ l, v < 2 ^ 18 ∧ Used c.lens (hybrid000 v).1) → ∀ last,
      Reads c.lens last (fields (l.map (residualBits c)) ++ bits) (l ++ syms) := by
    intro l hl
    induction l with
    | nil => intro last; exact h last
    | cons v l ih =>
      intro last
      have := residual_read g (hl v (by simp)).1 (hl v (by simp)).2 last (ih (fun v hv => hl v (by simp [hv])) (some v))
      simpa [fields] using this
  rw [callBits, fields_append, List.append_assoc, Call.expand, List.append_assoc]
  rcases hr with hr | ⟨h8, h16, hf⟩
  · rw [hr, runBits, if_pos rfl]
    exact h1 _ hv last
  · obtain ⟨-, -, -, h4⟩ := c52_run (k.run - 8) (by omega)
    exact run_read g h8 h16 hf hu0 (hu _ (h4 16 (by omega) h16)) last (h1 _ hv _)

theorem channel_read (g : Good c) {p : Proc} (hv : ∀ v ∈ p.symbols, v < 2 ^ 18 ∧ Used c.lens (hybrid000 v).1)
    (hr : ∀ r ∈ p.run :: p.calls.map Call.run, r = 0 ∨ 8 ≤ r ∧ r - 8 < 2 ^ 16 ∧ RunFits c r) (hu0 : Used c.lens 0)
    (hu : ∀ t < 28, Used c.lens (224 + t)) (last : Option Nat) : Reads c.lens last (fields (channelBits c p)) p.symbols := by
  obtain ⟨run, calls⟩ := p
  rw [channelBits, fields_append, Proc.symbols] at *
  have h1 : ∀ last, Reads c.lens last (fields (runBits c run)) (List.replicate run 0) := by
    intro last
    rcases hr run (by simp) with h0 | ⟨h8, h16, hf⟩
    · subst h0; exact Reads.done last
    · obtain ⟨-, -, -, h4⟩ := c52_run (run - 8) (by omega)
      have := run_read g h8 h16 hf hu0 (hu _ (h4 16 (by omega) h16)) last (Reads.done (some 0))
      simpa using this
  have h2 : ∀ l : List Call, (∀ k ∈ l, (∀ v ∈ k.residuals, v < 2 ^ 18 ∧ Used c.lens (hybrid000 v).1) ∧
      (k.run = 0 ∨ 8 ≤ k.run ∧ k.run - 8 < 2 ^ 16 ∧ RunFits c k.run)) → ∀ last,
      Reads c.lens last (fields (l.flatMap (callBits c)) ++ fields (runBits c run)) (l.flatMap Call.expand ++ List.replicate run 0) := by
    intro l hl
    induction l with
    | nil => exact h1
    | cons k l ih =>
      intro last
      have := callBits_read g (hl k (by simp)).1 (hl k (by simp)).2 hu0 hu (ih (fun k hk => hl k (by simp [hk]))) last
      simpa [List.append_assoc] using this
  apply h2
  intro k hk
  refine ⟨fun v hv' => hv v ?_, hr _ (by simp; exact Or.inr ⟨k, hk, rfl⟩)⟩
  rw [List.mem_append, List.mem_flatMap]
  exact Or.inl ⟨k, hk, by simp [Call.expand, hv']⟩

end

/-- Runs up to 2055 always fit. -/
theorem runFits_short {c : PrefixCode} (g : Good c) (h7 : c.rawNbits.getD 0 0 ≤ 7) {r : Nat} (h8 : 8 ≤ r) (h : r ≤ 2055) : RunFits c r := by
  right
  obtain ⟨-, h2, -, h4⟩ := c52_run (r - 8) (by omega)
  have ht := h4 11 (by omega) (by omega)
  have hn : (hybridLz77 (r - 8)).2.1 ≤ 10 := by
    rw [h2, Hybrid.extra]; split <;> simp; omega
  have h15 : ∀ l ∈ c.lens, l ≤ 15 := g.le
  have hl : c.lz77Nbits.getD (hybridLz77 (r - 8)).1 0 ≤ 15 := by
    rw [List.getD_eq_getElem?_getD, List.getElem?_eq_getElem (by rw [g.lzLen]; omega)]
    exact h15 _ (by rw [PrefixCode.lens]; exact List.mem_append_right _ (List.getElem_mem _))
  omega

theorem length_runs (p : Proc) : ∀ r ∈ p.run :: p.calls.map Call.run, r ≤ p.symbols.length := by
  intro r hr
  simp only [Proc.symbols, List.length_append, List.length_replicate]
  rcases List.mem_cons.1 hr with rfl | hr
  · omega
  · obtain ⟨k, hk, rfl⟩ := List.mem_map.1 hr
    have h1 : k.expand.length ≤ (p.calls.flatMap Call.expand).length := by
      obtain ⟨a, b, e⟩ := List.append_of_mem hk
      rw [e]
      simp only [List.flatMap_append, List.flatMap_cons, List.length_append]
      omega
    simp only [Call.expand, List.length_append, List.length_replicate] at h1
    omega

/-- **C73** in part.  Let a channel of a group (at most 65536 samples) of a picture be encoded with the code built from any counts the
    encoder can produce, and let all its runs fit 32 bits when encoded.  Then a decoder reads from the bits written exactly the residuals of
    the channel, and by C71 it then has no choice but to recover the samples.

    What is missing: runs that do not fit, see `c73_long_run_wrong`. -/
theorem c73_channel_partial (bytes k : Nat) (raw lz : List Nat) (hk : bytes = 1 ∧ (k = 10 ∨ k = 11) ∨ bytes = 2 ∧ k = 19) (hr : raw.length = 19)
    (hl : lz.length = 33) (hraw : ∀ t < 19, raw.getD t 0 ≠ 0 ↔ t < k) (hlz : ∀ t < 33, lz.getD t 0 ≠ 0 ↔ t < 28)
    (c : PrefixCode) (hc : PrefixCode.new bytes raw lz = some c)
    {w : Nat} (pix : Nat → Nat → BitVec w) (B : Int) (hwB : (bytes = 1 ∧ w = 16 ∧ B = 255) ∨ (bytes = 2 ∧ w = 32 ∧ B = 65535))
    (hpix : ∀ y x, -B ≤ (pix y x).toInt ∧ (pix y x).toInt ≤ B) (h10 : k = 10 → ∀ y x, 0 ≤ (pix y x).toInt) (xs ys : Nat) (hsz : ys * xs ≤ 65536)
    (p : Proc) (hp : p = area 0 xs ((List.range ys).map fun y => (List.range xs).map (pix y)))
    (hfit : ∀ r ∈ p.run :: p.calls.map Call.run, r ≤ 2055 ∨ RunFits c r) :
    Reads c.lens none (fields (channelBits c p)) p.symbols ∧
    ∀ syms, Reads c.lens none (fields (channelBits c p)) syms → syms = p.symbols ∧
      ∀ img, Decodes xs ys syms img → ∀ y < ys, ∀ x < xs, img y x = (pix y x).toInt := by
  obtain ⟨c', hc', -, hle, hfull, hused, -, -, h7, -⟩ := c72_code bytes k raw lz hk hr hl hraw hlz
  rw [hc] at hc'
  cases hc'
  have g := new_good hr hl hc
  obtain ⟨hd, hun, h4, h2, hr1, hr2⟩ := c71_prediction pix B (by omega) hpix xs ys
  rw [← hp] at hd hun h4 h2 hr1 hr2
  have hread : Reads c.lens none (fields (channelBits c p)) p.symbols := by
    apply channel_read g
    · intro v hv
      have hv4 := h4 v hv
      have hb : v < 2 ^ 18 := by omega
      refine ⟨hb, (hused _).2 (Or.inl ?_)⟩
      obtain ⟨-, -, -, ht⟩ := c52_residual v (by omega)
      rcases hk with ⟨rfl, rfl | rfl⟩ | ⟨rfl, rfl⟩
      · have := h2 (h10 rfl) v hv
        have := ht 9 (by omega)
        omega
      · have := ht 10 (by omega)
        omega
      · have := ht 18 (by omega)
        omega
    · intro r hrm
      have h8 : r = 0 ∨ 8 ≤ r := by
        rcases List.mem_cons.1 hrm with rfl | h
        · exact hr1
        · obtain ⟨q, hq, rfl⟩ := List.mem_map.1 h
          exact hr2 q hq
      rcases h8 with h8 | h8
      · exact Or.inl h8
      · right
        have := length_runs p r hrm
        rw [hd.1] at this
        refine ⟨h8, by omega, ?_⟩
        rcases hfit r hrm with h | h
        · exact runFits_short g (h7 0 (by omega)) h8 h
        · exact h
    · rw [hused]; omega
    · intro t ht; rw [hused]; omega
  refine ⟨hread, fun syms hs => ?_⟩
  obtain rfl := reads_unique hle (Nat.le_of_eq hfull) hs hread
  exact ⟨rfl, hun⟩

/-- Any group of up to 2055 samples meets the condition on runs; here a grey gradient of 40 times 50 samples with the initial counts. -/
example : ∃ c, PrefixCode.new 1 ([3843, 852, 1270, 1214, 1014, 727, 481, 300, 159, 51] ++ List.replicate 9 0)
      ([29, 27, 25, 23, 21, 21, 19, 18, 21, 17, 16, 15, 15, 14, 13, 13, 137, 98, 61, 34, 1, 1, 1, 1, 1, 1, 1, 1] ++ List.replicate 5 0) = some c ∧
    let p := area 0 40 ((List.range 50).map fun y => (List.range 40).map fun x => BitVec.ofNat 16 ((3 * y + x) % 256))
    Reads c.lens none (fields (channelBits c p)) p.symbols := by
  have h1 : ∀ t < 19, ([3843, 852, 1270, 1214, 1014, 727, 481, 300, 159, 51] ++ List.replicate 9 0).getD t 0 ≠ 0 ↔ t < 10 := by decide
  have h2 : ∀ t < 33, ([29, 27, 25, 23, 21, 21, 19, 18, 21, 17, 16, 15, 15, 14, 13, 13, 137, 98, 61, 34, 1, 1, 1, 1, 1, 1, 1, 1] ++
      List.replicate 5 0).getD t 0 ≠ 0 ↔ t < 28 := by decide
  obtain ⟨c, hc, -⟩ := c72_code 1 10 _ _ (by omega) rfl rfl h1 h2
  have hpix : ∀ y x : Nat, 0 ≤ (BitVec.ofNat 16 ((3 * y + x) % 256)).toInt ∧ (BitVec.ofNat 16 ((3 * y + x) % 256)).toInt ≤ 255 := by
    intro y x
    rw [BitVec.toInt_eq_toNat_cond, BitVec.toNat_ofNat]
    split <;> omega
  refine ⟨c, hc, (c73_channel_partial 1 10 _ _ (by omega) rfl rfl h1 h2 c hc _ 255 (by omega) (fun y x => ?_) (fun _ y x => (hpix y x).1) 40 50 (by omega) _ rfl ?_).1⟩
  · have := hpix y x; omega
  · intro r hr
    have hd := (c71_prediction (fun y x : Nat => BitVec.ofNat 16 ((3 * y + x) % 256)) 255 (by omega) (fun y x => by have := hpix y x; omega) 40 50).1.1
    have := length_runs _ r hr
    rw [hd] at this
    omega

/-- The code of a long run. -/
theorem runBits_long (c : PrefixCode) {n b : Nat} (h5 : 5 ≤ n) (h15 : n ≤ 15) (hb : b < 2 ^ n) :
    runBits c (2 ^ n + b + 8) = [(c.lz77Nbits.getD (12 + n) 0 + n + c.rawNbits.getD 0 0,
      ((b <<< c.lz77Nbits.getD (12 + n) 0 % 2 ^ 32 ||| c.lz77Bits.getD (12 + n) 0) <<< c.rawNbits.getD 0 0) % 2 ^ 32 ||| c.rawBits.getD 0 0)] := by
  have hp := Nat.pow_le_pow_right (n := 2) (by omega) h5
  have hlt : 2 ^ n + b < 2 ^ 32 := by
    have := Nat.pow_le_pow_right (n := 2) (by omega) h15
    omega
  have hlog : (2 ^ n + b).log2 = n := by
    rw [Nat.log2_eq_iff (by omega), Nat.pow_succ]; omega
  have e : hybridLz77 (2 ^ n + b) = (12 + n, n, b) := by
    simp only [hybridLz77]
    rw [msb_eq (by omega) hlt, hlog, if_neg (by omega), if_neg (by omega), if_neg (by omega), Nat.one_shiftLeft]
    rw [show 16 + n - 4 = 12 + n by omega, show 2 ^ n + b - 2 ^ n = b by omega]
  have hand : n &&& 0xFF = n := by
    rw [show (0xFF : Nat) = 2 ^ 8 - 1 from rfl, Nat.and_two_pow_sub_one_eq_mod, Nat.mod_eq_of_lt (by omega)]
  rw [runBits, if_neg (by omega), show lz77MinLength + 1 = 8 from rfl, show 2 ^ n + b + 8 - 8 = 2 ^ n + b by omega]
  simp only [e]
  rw [if_neg (by omega), hand]

/-- **JX2**: where a run does not fit 32 bits its highest bits are lost.  If the run code is so long that `n` extra bits do not fit, the runs
    `2^n + 8` and `2^n + 2^(n-1) + 8` are written as the same bits, so no decoder can tell them apart. -/
theorem c73_long_run_wrong (c : PrefixCode) (n : Nat) (h5 : 5 ≤ n) (h15 : n ≤ 15)
    (hlong : 32 < c.rawNbits.getD 0 0 + (c.lz77Nbits.getD (12 + n) 0 + n)) :
    runBits c (2 ^ n + 2 ^ (n - 1) + 8) = runBits c (2 ^ n + 8) := by
  have hb : 2 ^ (n - 1) < 2 ^ n := Nat.pow_lt_pow_right (by omega) (by omega)
  have h0 := runBits_long c h5 h15 (b := 0) (Nat.two_pow_pos _)
  rw [Nat.add_zero] at h0
  rw [runBits_long c h5 h15 hb, h0]
  congr 3
  generalize c.lz77Nbits.getD (12 + n) 0 = l at *
  generalize c.rawNbits.getD 0 0 = r at *
  generalize c.lz77Bits.getD (12 + n) 0 = v
  apply Nat.eq_of_testBit_eq
  intro i
  simp only [Nat.testBit_mod_two_pow, Nat.testBit_shiftLeft, Nat.testBit_or, Nat.testBit_two_pow, Nat.zero_testBit]
  by_cases hi : i < 32
  · have : n - 1 ≠ i - r - l ∨ ¬ (l ≤ i - r) ∨ ¬ (r ≤ i) := by omega
    rcases this with h | h | h <;> simp [h]
  · simp [hi]

/-- Lengths the encoder reaches for a grey picture of eight bits with the counts 7939, 4948, 9462, 17598, 33782, 66263, 131553, 262444, 384159, 128051
    of its residual tokens (found by evaluating the model): runs from 2056 on are affected. -/
def longRunCode : PrefixCode :=
  { rawNbits := [7, 7, 7, 5, 4, 3, 3, 2, 2, 3, 0, 0, 0, 0, 0, 0, 0, 0, 0]
    rawBits := [31, 95, 63, 15, 7, 1, 5, 0, 2, 3, 0, 0, 0, 0, 0, 0, 0, 0, 0]
    lz77Nbits := [12, 12, 12, 12, 12, 12, 12, 12, 12, 12, 13, 13, 13, 13, 13, 13, 9, 10, 10, 11, 15, 15, 15, 15, 15, 15, 15, 15, 0, 0, 0, 0, 0]
    lz77Bits := [1279, 3327, 767, 2815, 1791, 3839, 511, 2559, 1535, 3583, 1023, 5119, 3071, 7167, 2047, 6143, 127, 383, 895, 255, 4095, 20479, 12287, 28671, 8191, 24575, 16383, 32767, 0, 0, 0, 0, 0]
    cacheBits := [163743, 425887, 98207, 360351, 229279, 491423, 65439, 327583, 196511, 458655, 130975, 655263, 393119, 917407, 262047, 786335] ++ (List.range 16).map (16287 + 65536 * ·)
    cacheNbits := List.replicate 10 19 ++ List.replicate 22 20 }

example : 32 < longRunCode.rawNbits.getD 0 0 + (longRunCode.lz77Nbits.getD (12 + 11) 0 + 11) ∧
    runBits longRunCode 3080 = runBits longRunCode 2056 ∧
    (∀ l ∈ longRunCode.lens, l ≤ 15) ∧ weight 15 longRunCode.lens = 2 ^ 15 ∧
    (∀ t < 19, lsb (longRunCode.rawNbits.getD t 0) (longRunCode.rawBits.getD t 0) = word longRunCode.lens t) ∧
    (∀ t < 33, lsb (longRunCode.lz77Nbits.getD t 0) (longRunCode.lz77Bits.getD t 0) = word longRunCode.lens (224 + t)) ∧
    ∀ i < 32, (longRunCode.cacheNbits.getD i 0, longRunCode.cacheBits.getD i 0) =
      (longRunCode.lz77Nbits.getD (hybridLz77 i).1 0 + (hybridLz77 i).2.1 + longRunCode.rawNbits.getD 0 0,
        (((hybridLz77 i).2.2 <<< longRunCode.lz77Nbits.getD (hybridLz77 i).1 0 ||| longRunCode.lz77Bits.getD (hybridLz77 i).1 0) <<<
          longRunCode.rawNbits.getD 0 0) ||| longRunCode.rawBits.getD 0 0) := by decide +kernel

end Zune.Jxl
