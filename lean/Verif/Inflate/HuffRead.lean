/-
Reading one symbol of a Huffman block: bits of the stream, entries of the tables.
-/
import Verif.Inflate.TableProps
import Verif.Inflate.Copy
import Verif.Inflate.Stored

namespace Zune.Inflate

open Prefix (Used word weight)
open Rfc1951 (bitsAt lengthExtra lengthBase distExtra distBase)

/-! ### Bits of the stream -/

theorem bytesLsb_eq (src : List UInt8) : bytesLsb src = lsb (8 * src.length) (leVal src) := by
  have := lsb_lval (bytesLsb src)
  rw [bytesLsb_length, lval_bytesLsb] at this
  exact this.symm

theorem bitsAt_eq (src : List UInt8) {p : Nat} (hp : p ≤ 8 * src.length) : bitsAt src p = lsb (8 * src.length - p) (leVal src / 2 ^ p) := by
  rw [bitsAt, bytesLsb_eq]
  have := lsb_append p (8 * src.length - p) (leVal src)
  rw [show p + (8 * src.length - p) = 8 * src.length by omega] at this
  rw [this, List.drop_left' (by simp)]

theorem bitsAt_length (src : List UInt8) (p : Nat) : (bitsAt src p).length = 8 * src.length - p := by simp [bitsAt]

/-- The stream at `p` begins with `w`. -/
theorem front {src : List UInt8} {p : Nat} {w r : List Bool} (hp : p ≤ 8 * src.length) (h : bitsAt src p = w ++ r) :
    lsb w.length (leVal src / 2 ^ p) = w ∧ bitsAt src (p + w.length) = r ∧ p + w.length ≤ 8 * src.length := by
  have hl := congrArg List.length h
  rw [bitsAt_length, List.length_append] at hl
  have h2 : bitsAt src (p + w.length) = r := by
    rw [bitsAt, ← List.drop_drop]
    rw [bitsAt] at h
    rw [h, List.drop_left' rfl]
  refine ⟨?_, h2, by omega⟩
  rw [bitsAt_eq src hp] at h
  have hs := lsb_append w.length (8 * src.length - p - w.length) (leVal src / 2 ^ p)
  rw [show w.length + (8 * src.length - p - w.length) = 8 * src.length - p by omega, h] at hs
  exact (List.append_inj_left hs (by simp)).symm

theorem front_lsb {src : List UInt8} {p n x : Nat} {r : List Bool} (hp : p ≤ 8 * src.length) (h : bitsAt src p = lsb n x ++ r) (hx : x < 2 ^ n) :
    leVal src / 2 ^ p % 2 ^ n = x ∧ bitsAt src (p + n) = r ∧ p + n ≤ 8 * src.length := by
  obtain ⟨h1, h2, h3⟩ := front hp h
  rw [lsb_length] at h1 h2 h3
  refine ⟨?_, h2, h3⟩
  have := congrArg lval h1
  rwa [lval_lsb, lval_lsb, Nat.mod_eq_of_lt hx] at this

theorem word_length' (lens : List Nat) (s : Nat) : (word lens s).length = lens.getD s 0 := by simp [word]

theorem front_word {src : List UInt8} {p s : Nat} {lens : List Nat} {r : List Bool} (hp : p ≤ 8 * src.length) (h : bitsAt src p = word lens s ++ r) :
    lsb (lens.getD s 0) (leVal src / 2 ^ p) = word lens s ∧ bitsAt src (p + lens.getD s 0) = r ∧ p + lens.getD s 0 ≤ 8 * src.length := by
  have := front hp h
  rwa [word_length'] at this

/-! ### Sizes of tables -/

theorem doubles_size : ∀ (n : Nat) {t t' : List Nat} {e : Nat}, doubles n t e = .ok t' → t'.length = t.length := by
  intro n
  induction n with
  | zero => intro t t' e h; rw [doubles] at h; injection h with h; rw [h]
  | succ n ih =>
    intro t t' e h
    rw [doubles] at h
    split at h
    · simp at h
    · rename_i h1
      rw [ih h, (double_ok h1).1]

theorem setAt_size {t t' : List Nat} {i v : Nat} (h : setAt t i v = .ok t') : t'.length = t.length := by
  rw [(setAt_ok h).2, List.length_set]

theorem fillFrom_size {t t' : List Nat} {j k e v : Nat} (h : fillFrom t j k e v = .ok t') : t'.length = t.length := by
  fun_induction fillFrom t j k e v with
  | case1 t j hj x hs => simp at h
  | case2 t j hj t1 hs ih => rw [ih h, setAt_size hs]
  | case3 t j hj => injection h with h; rw [h]

theorem advance_size {lens t t' : List Nat} {T e len e' len' count' : Nat} (h : advance lens T t e len = .ok (t', e', len', count')) :
    t'.length = t.length := by
  fun_induction advance lens T t e len with
  | case1 => simp at h
  | case2 t e len h1 h2 t1 hd hc => injection h with h; rw [Prod.mk.injEq] at h; rw [← h.1, (double_ok hd).1]
  | case3 t e len h1 h2 t1 hd hc ih => rw [ih h, (double_ok hd).1]
  | case4 t e len h1 h2 hc => injection h with h; rw [Prod.mk.injEq] at h; rw [← h.1]
  | case5 t e len h1 h2 hc ih => exact ih h
  | case6 => simp at h

theorem newSub_size {lens t t' : List Nat} {T q e len count e' st : Nat} (h : newSub lens T t q e len count = .ok (t', e', st)) :
    t'.length = t.length := by
  rw [newSub] at h
  split at h
  · simp at h
  · split at h
    · simp at h
    · rename_i hs
      injection h with h
      rw [Prod.mk.injEq] at h
      rw [← h.1, setAt_size hs]

theorem subLoop_size {lens results sorted : List Nat} {T : Nat} : ∀ (k : Nat) {t t' : List Nat} {cw len count i e : Nat} {pfx : Option Nat} {start : Nat},
    sorted.length - i ≤ k → subLoop lens results sorted T t cw len count i e pfx start = .ok t' → t'.length = t.length := by
  intro k
  induction k with
  | zero =>
    intro t t' cw len count i e pfx start hk h
    rw [subLoop] at h
    split at h
    · simp at h
    · rw [dif_neg (by omega)] at h
      simp at h
  | succ k ih =>
    intro t t' cw len count i e pfx start hk h
    rw [subLoop] at h
    split at h
    · simp at h
    · rename_i t1 e1 st1 hn
      have h1 : t1.length = t.length := by
        split at hn
        · exact newSub_size hn
        · injection hn with hn
          rw [Prod.mk.injEq] at hn
          rw [← hn.1]
      split at h
      · split at h
        · simp at h
        · split at h
          · simp at h
          · rename_i t2 hf
            have h2 := fillFrom_size hf
            split at h
            · injection h with h
              rw [← h, h2, h1]
            · split at h
              · simp at h
              · rw [ih (by omega) h, h2, h1]
      · simp at h

theorem mainLoop_size {lens results sorted : List Nat} {T : Nat} : ∀ (k : Nat) {t t' : List Nat} {cw len count i e : Nat},
    sorted.length - i ≤ k → mainLoop lens results sorted T t cw len count i e = .ok t' → t'.length = t.length := by
  intro k
  induction k with
  | zero =>
    intro t t' cw len count i e hk h
    rw [mainLoop, dif_neg (by omega)] at h
    simp at h
  | succ k ih =>
    intro t t' cw len count i e hk h
    rw [mainLoop] at h
    split at h
    · split at h
      · simp at h
      · split at h
        · simp at h
        · rename_i t1 hs
          have h1 := setAt_size hs
          split at h
          · rw [doubles_size _ h, h1]
          · split at h
            · rw [ih (by omega) h, h1]
            · split at h
              · simp at h
              · rename_i ha
                have h2 := advance_size ha
                split at h
                · rw [ih (by omega) h, h2, h1]
                · rw [subLoop_size _ (Nat.le_refl _) h, h2, h1]
    · simp at h

theorem buildTable_size {lens results tb : List Nat} {size T : Nat} (h : buildTable lens results size T = .ok tb) : tb.length = size := by
  rw [buildTable] at h
  simp only at h
  split at h
  · simp at h
  · split at h
    · simp at h
    · split at h
      · split at h
        · split at h
          · simp at h
          · injection h with h; rw [← h, List.length_replicate]
        · split at h
          · simp at h
          · split at h
            · simp at h
            · injection h with h; rw [← h, List.length_replicate]
      · split at h
        · rw [mainLoop_size _ (Nat.le_refl _) h, List.length_replicate]
        · rw [subLoop_size _ (Nat.le_refl _) h, List.length_replicate]

/-! ### Tables -/

theorem pointer_eq {st bt T : Nat} (hb : bt < 16) (hT : T < 16) : pointer st bt T = st * 65536 + (49152 + bt * 256 + T) := by
  have h : ∀ b < 16, ∀ t < 16, (0x8000 ||| 0x4000 ||| (b <<< 8) ||| t) = 49152 + b * 256 + t := by decide
  have h1 := h bt hb T hT
  rw [pointer, Nat.or_assoc, Nat.or_assoc, Nat.or_assoc, ← Nat.or_assoc 0x8000, ← Nat.or_assoc (0x8000 ||| 0x4000), h1,
    ← Nat.shiftLeft_add_eq_or_of_lt (by omega), Nat.shiftLeft_eq]

/-- What a table gives for the symbols of a code: an entry of the first table, or one of a subtable behind a pointer. -/
structure Tab (lens results tb : List Nat) (T size : Nat) : Prop where
  size : tb.length = size
  small : lens.length ≤ results.length
  short : ∀ l ∈ lens, l ≤ 15
  read : ∀ s r v, Used lens s → results[s]? = some r → lsb (lens.getD s 0) v = word lens s →
    (lens.getD s 0 ≤ T ∧ tb[v % 2 ^ T]? = some (r + 257 * lens.getD s 0)) ∨
    (T < lens.getD s 0 ∧ ∃ st bt, T + bt ≤ 15 ∧ lens.getD s 0 ≤ T + bt ∧ tb[v % 2 ^ T]? = some (st * 65536 + (49152 + bt * 256 + T)) ∧
      tb[st + v / 2 ^ T % 2 ^ bt]? = some (r + 257 * (lens.getD s 0 - T)))

theorem tab_complete {lens results tb : List Nat} {size T : Nat} (hk : Complete lens) (hn : lens.length ≤ 288) (hr : lens.length ≤ results.length)
    (hT : T ≤ 15) (h : buildTable lens results size T = .ok tb) : Tab lens results tb T size := by
  refine ⟨buildTable_size h, hr, hk.le, ?_⟩
  intro s r v hs hr hv
  have hl := buildTable_lookup hk hn h s hs
  by_cases hle : lens.getD s 0 ≤ T
  · refine Or.inl ⟨hle, ?_⟩
    rw [hl.1 hle (v % 2 ^ T) (Nat.mod_lt _ (Nat.two_pow_pos _)) (by rw [lsb_mod_le hle]; exact hv), tableEntry_eq hr]
  · obtain ⟨st, bt, hs⟩ := hl.2 (by omega)
    have hlen := hs.len
    have hhi := hs.hi
    have hsplit := lsb_prefix (m := T) (n := lens.getD s 0) (by omega) v
    rw [hv] at hsplit
    have hslot : v % 2 ^ T = slot lens T s := by
      rw [slot, hsplit, List.take_left' (by simp), lval_lsb]
    have hdrop : (word lens s).drop T = lsb (lens.getD s 0 - T) (v / 2 ^ T) := by
      rw [hsplit, List.drop_left' (by simp)]
    refine Or.inr ⟨by omega, st, bt, hhi, hlen, ?_, ?_⟩
    · by_cases hb : T = 15
      · subst hb
        omega
      · rw [hslot, hs.ptr, pointer_eq (by omega) (by omega)]
    · rw [hs.ent _ (Nat.mod_lt _ (Nat.two_pow_pos _)) (by rw [lsb_mod_le (by omega), hdrop]), tableEntry_eq hr]

theorem tab_replicate {lens results : List Nat} {size T s r : Nat} (hsz : 2 ^ T ≤ size) (hT : 1 ≤ T) (h : Single lens s) (hr : lens.length ≤ results.length)
    (hrs : results[s]? = some r) : Tab lens results (List.replicate size (r + 257)) T size := by
  refine ⟨List.length_replicate, hr, fun l hl => by have := (single_facts h).2.2.2.2 l hl; omega, ?_⟩
  intro t r' v ht hr' hv
  obtain rfl := h.2 t ht
  rw [hrs] at hr'
  injection hr' with hr'
  subst hr'
  refine Or.inl ⟨by rw [h.1]; exact hT, ?_⟩
  rw [List.getElem?_replicate_of_lt (lt_of_lt_of_le (Nat.mod_lt _ (Nat.two_pow_pos _)) hsz), h.1]

theorem tab_empty {lens results : List Nat} {size T e : Nat} (h : ∀ l ∈ lens, l = 0) (hr : lens.length ≤ results.length) :
    Tab lens results (List.replicate size e) T size := by
  refine ⟨List.length_replicate, hr, fun l hl => by rw [h l hl]; omega, ?_⟩
  intro t r' v ht
  exact absurd (h _ (getD_mem (Prefix.used_lt ht))) ht

theorem code_cases {lens : List Nat} (h : Rfc1951.Code lens) : Complete lens ∨ ∃ s, Single lens s := by
  rcases h with ⟨h1, h2⟩ | ⟨s, h1, h2⟩
  · exact Or.inl ⟨h1, h2⟩
  · exact Or.inr ⟨s, h1, h2⟩

theorem litlen_tab {lens : List Nat} (h : Rfc1951.Code lens) (hn : lens.length ≤ 288) :
    ∃ tb, buildTable lens litlenResults 2342 11 = .ok tb ∧ Tab lens litlenResults tb 11 2342 := by
  have hr : lens.length ≤ litlenResults.length := by rw [litlen_plain.1]; exact hn
  rcases code_cases h with hk | ⟨s, hs⟩
  · obtain ⟨tb, h⟩ := litlen_total hk hn hr
    exact ⟨tb, h, tab_complete hk hn hr (by decide) h⟩
  · have hlt := (single_facts hs).1
    have hrs : litlenResults[s]? = some (litlenResults[s]'(by omega)) := List.getElem?_eq_getElem _
    exact ⟨_, c13_single hn hs hrs, tab_replicate (by decide) (by decide) hs hr hrs⟩

theorem offset_tab {lens : List Nat} (h : Rfc1951.Code lens ∨ ∀ l ∈ lens, l = 0) (hn : lens.length ≤ 32) :
    ∃ tb, buildTable lens offsetResults 512 8 = .ok tb ∧ Tab lens offsetResults tb 8 512 := by
  have hr : lens.length ≤ offsetResults.length := by rw [offset_plain.1]; exact hn
  rcases h with h | h
  · rcases code_cases h with hk | ⟨s, hs⟩
    · obtain ⟨tb, h⟩ := offset_total hk hn hr
      exact ⟨tb, h, tab_complete hk (by omega) hr (by decide) h⟩
    · have hlt := (single_facts hs).1
      have hrs : offsetResults[s]? = some (offsetResults[s]'(by omega)) := List.getElem?_eq_getElem _
      exact ⟨_, c13_single (by omega) hs hrs, tab_replicate (by decide) (by decide) hs hr hrs⟩
  · exact ⟨_, c13_empty (by omega) h rfl, tab_empty h hr⟩

theorem precode_tab {lens : List Nat} (h : Rfc1951.Code lens) (h7 : ∀ l ∈ lens, l ≤ 7) (hn : lens.length ≤ 19) :
    ∃ tb, buildTable lens precodeResults 128 7 = .ok tb ∧ Tab lens precodeResults tb 7 128 := by
  have hr : lens.length ≤ precodeResults.length := by rw [precode_plain.1]; exact hn
  rcases code_cases h with hk | ⟨s, hs⟩
  · obtain ⟨tb, h⟩ := precode_total hk h7 hn hr
    exact ⟨tb, h, tab_complete hk (by omega) hr (by decide) h⟩
  · have hlt := (single_facts hs).1
    have hrs : precodeResults[s]? = some (precodeResults[s]'(by omega)) := List.getElem?_eq_getElem _
    exact ⟨_, c13_single (by omega) hs hrs, tab_replicate (by decide) (by decide) hs hr hrs⟩

/-! ### Entries -/

theorem litlen_literal : ∀ s < 256, litlenResults[s]? = some (s * 65536 + 2147483648) := by decide +kernel

theorem litlen_stop : litlenResults[256]? = some 40960 := by decide +kernel

theorem litlen_length : ∀ s < 286, 257 ≤ s → litlenResults[s]? = some (lengthBase s * 65536 + lengthExtra s) := by decide +kernel

theorem offset_dist : ∀ d < 30, offsetResults[d]? = some (distBase d * 65536 + distExtra d) := by decide +kernel

theorem precode_plain_entry : ∀ s < 19, precodeResults[s]? = some (s * 65536) := by decide +kernel

theorem length_small : ∀ s < 286, lengthExtra s ≤ 5 ∧ lengthBase s ≤ 258 ∧ lengthBase s + 2 ^ lengthExtra s ≤ 259 := by decide +kernel

theorem dist_small : ∀ d < 30, distExtra d ≤ 13 ∧ distBase d ≤ 24577 ∧ 1 ≤ distBase d := by decide +kernel

theorem tb_of {n i q : Nat} (h : n / 2 ^ i = q) : n.testBit i = decide (q % 2 = 1) := by
  rw [Nat.testBit_eq_decide_div_mod_eq, h]

theorem tb_true {n i : Nat} (q : Nat) (h : n / 2 ^ i = 2 * q + 1) : n.testBit i = true := by
  rw [tb_of h]; simp only [decide_eq_true_eq]; omega

theorem tb_false {n i : Nat} (q : Nat) (h : n / 2 ^ i = 2 * q) : n.testBit i = false := by
  rw [tb_of h]; simp only [decide_eq_false_iff_not]; omega

theorem literal_fields {s k : Nat} (hs : s < 256) (hk : k ≤ 15) : (s * 65536 + 2147483648 + 257 * k).testBit 31 = true ∧
    (s * 65536 + 2147483648 + 257 * k).testBit 14 = false ∧
    UInt8.ofNat ((s * 65536 + 2147483648 + 257 * k) >>> 16) = UInt8.ofNat s ∧ (s * 65536 + 2147483648 + 257 * k) % 256 = k := by
  refine ⟨tb_true 0 (by omega), tb_false (2 * s + 65536) (by omega), ?_, by omega⟩
  rw [Nat.shiftRight_eq_div_pow, show (s * 65536 + 2147483648 + 257 * k) / 2 ^ 16 = s + 32768 by omega]
  apply UInt8.toNat_inj.1
  simp only [UInt8.toNat_ofNat']
  omega

theorem stop_fields {k : Nat} (hk : k ≤ 15) : (40960 + 257 * k).testBit 31 = false ∧ (40960 + 257 * k).testBit 15 = true ∧
    (40960 + 257 * k).testBit 14 = false ∧ (40960 + 257 * k).testBit 13 = true ∧ (40960 + 257 * k) % 256 = k :=
  ⟨tb_false 0 (by omega), tb_true 0 (by omega), tb_false 1 (by omega), tb_true 2 (by omega), by omega⟩

theorem value_fields {B x k : Nat} (hB : B < 32768) (hx : x ≤ 13) (hk : k ≤ 15) : (B * 65536 + x + 257 * k).testBit 31 = false ∧
    (B * 65536 + x + 257 * k).testBit 15 = false ∧ (B * 65536 + x + 257 * k).testBit 14 = false ∧ (B * 65536 + x + 257 * k).testBit 13 = false ∧
    (B * 65536 + x + 257 * k) % 256 = x + k ∧ ((B * 65536 + x + 257 * k) >>> 8) % 256 = k ∧ (B * 65536 + x + 257 * k) >>> 16 = B := by
  refine ⟨tb_false 0 (by omega), tb_false B (by omega), tb_false (2 * B) (by omega), tb_false (4 * B) (by omega), by omega, ?_, ?_⟩
  · rw [Nat.shiftRight_eq_div_pow, show (B * 65536 + x + 257 * k) / 2 ^ 8 = 256 * B + k by omega]
    omega
  · rw [Nat.shiftRight_eq_div_pow]
    omega

theorem jump_fields {st bt T : Nat} (hst : st < 32768) (hb : bt < 16) (hT : T < 16) : (st * 65536 + (49152 + bt * 256 + T)).testBit 31 = false ∧
    (st * 65536 + (49152 + bt * 256 + T)).testBit 15 = true ∧ (st * 65536 + (49152 + bt * 256 + T)).testBit 14 = true ∧
    (st * 65536 + (49152 + bt * 256 + T)).testBit 13 = false ∧ (st * 65536 + (49152 + bt * 256 + T)) % 256 = T ∧
    ((st * 65536 + (49152 + bt * 256 + T)) >>> 8) &&& 0x3f = bt ∧ (st * 65536 + (49152 + bt * 256 + T)) >>> 16 = st := by
  refine ⟨tb_false 0 (by omega), tb_true st (by omega), tb_true (2 * st + 1) (by omega), tb_false (4 * st + 3) (by omega), by omega, ?_, ?_⟩
  · rw [show (0x3f : Nat) = 2 ^ 6 - 1 by rfl, Nat.and_two_pow_sub_one_eq_mod, Nat.shiftRight_eq_div_pow,
      show (st * 65536 + (49152 + bt * 256 + T)) / 2 ^ 8 = 256 * st + 192 + bt by omega]
    omega
  · rw [Nat.shiftRight_eq_div_pow]
    omega

/-- The base value and the extra bits behind the codeword. -/
theorem entryValue_ok {B x k saved v X : Nat} (hB : B < 32768) (hx : x ≤ 13) (hk : k ≤ 15) (hs : saved &&& (2 ^ (x + k) - 1) = v % 2 ^ (x + k))
    (hX : v / 2 ^ k % 2 ^ x = X) : entryValue (B * 65536 + x + 257 * k) saved = B + X := by
  obtain ⟨_, _, _, _, h1, h2, h3⟩ := value_fields hB hx hk
  rw [entryValue, h1, h2, h3, hs, Nat.shiftRight_eq_div_pow, ← hX, Nat.add_comm x k, pow_add, Nat.mod_mul_right_div_self]

end Zune.Inflate
