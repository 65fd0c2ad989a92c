/-
The loops of the construction of Huffman decode tables: what the finished table holds.
-/
import Verif.Inflate.Table

namespace Zune.Inflate

open Prefix (cnt rank code msb word Used weight)

theorem setAt_ok {t t' : List Nat} {i v : Nat} (h : setAt t i v = .ok t') : i < t.length ∧ t' = t.set i v := by
  unfold setAt at h
  split at h
  · injection h with h; exact ⟨by assumption, h.symm⟩
  · simp at h

theorem double_ok {t t' : List Nat} {e : Nat} (h : double t e = .ok t') : t'.length = t.length ∧ ∀ j < 2 * e, t'[j]? = t[j % e]? := by
  unfold double at h
  split at h
  · rename_i h1
    injection h with h
    subst h
    refine ⟨by simp; omega, ?_⟩
    intro j hj
    rw [List.append_assoc]
    by_cases hje : j < e
    · rw [List.getElem?_append_left (by simp; omega), List.getElem?_take_of_lt hje, Nat.mod_eq_of_lt hje]
    · rw [List.getElem?_append_right (by simp; omega), List.length_take, Nat.min_eq_left (by omega),
        List.getElem?_append_left (by simp; omega), List.getElem?_take_of_lt (by omega), Nat.mod_eq_sub_mod (by omega),
        Nat.mod_eq_of_lt (by omega)]
  · simp at h

theorem doubles_ok : ∀ (n : Nat) {t t' : List Nat} {e : Nat}, doubles n t e = .ok t' → ∀ j < 2 ^ n * e, t'[j]? = t[j % e]? := by
  intro n
  induction n with
  | zero =>
    intro t t' e h j hj
    rw [doubles] at h
    injection h with h
    subst h
    rw [Nat.mod_eq_of_lt (by simpa using hj)]
  | succ n ih =>
    intro t t' e h j hj
    rw [doubles] at h
    split at h
    · simp at h
    · rename_i t1 h1
      have he : e <<< 1 = 2 * e := by rw [Nat.shiftLeft_eq]; ring
      rw [he] at h
      have hpos : 0 < 2 * e := by
        rcases Nat.eq_zero_or_pos e with h0 | h0
        · subst h0; simp at hj
        · omega
      rw [ih h j (by rw [pow_succ] at hj; calc j < 2 ^ n * 2 * e := hj
                      _ = 2 ^ n * (2 * e) := by ring)]
      rw [(double_ok h1).2 _ (Nat.mod_lt _ hpos), Nat.mod_mod_of_dvd _ ⟨2, by ring⟩]

theorem advance_ok {lens : List Nat} {T : Nat} {t t' : List Nat} {e e' len len' count' : Nat} (he : e = 2 ^ min len T)
    (h : advance lens T t e len = .ok (t', e', len', count')) :
    len < len' ∧ len' ≤ 15 ∧ (∀ l, len < l → l < len' → lens.count l = 0) ∧ count' = lens.count len' ∧ lens.count len' ≠ 0 ∧ e' = 2 ^ min len' T ∧
      ∀ j < 2 ^ min len' T, t'[j]? = t[j % e]? := by
  unfold advance at h
  split at h
  · rename_i h15
    split at h
    · rename_i hT
      have hee : e <<< 1 = 2 ^ min (len + 1) T := by
        rw [he, Nat.shiftLeft_eq, show min (len + 1) T = min len T + 1 by omega, pow_succ 2 (min len T), pow_one]
      have hee2 : 2 ^ min (len + 1) T = 2 * e := by rw [← hee, Nat.shiftLeft_eq]; ring
      split at h
      · simp at h
      · rename_i t1 h1
        split at h
        · rename_i hne
          simp only [Except.ok.injEq, Prod.mk.injEq] at h
          obtain ⟨rfl, rfl, rfl, rfl⟩ := h
          refine ⟨by omega, by omega, by intro l a b; omega, rfl, hne, hee, ?_⟩
          intro j hj
          exact (double_ok h1).2 j (by rw [← hee2]; exact hj)
        · rename_i hne
          obtain ⟨a1, a2, a3, a4, a5, a6, a7⟩ := advance_ok hee h
          refine ⟨by omega, a2, ?_, a4, a5, a6, ?_⟩
          · intro l b1 b2
            by_cases hl : l = len + 1
            · subst hl; simpa using hne
            · exact a3 l (by omega) b2
          · intro j hj
            rw [a7 j hj, hee, hee2, (double_ok h1).2 _ (Nat.mod_lt _ (by rw [he]; have := Nat.two_pow_pos (min len T); omega)),
              Nat.mod_mod_of_dvd _ ⟨2, by ring⟩]
    · rename_i hT
      have hee : e = 2 ^ min (len + 1) T := by rw [he]; congr 1; omega
      split at h
      · rename_i hne
        simp only [Except.ok.injEq, Prod.mk.injEq] at h
        obtain ⟨rfl, rfl, rfl, rfl⟩ := h
        refine ⟨by omega, by omega, by intro l a b; omega, rfl, hne, hee, ?_⟩
        intro j hj
        rw [Nat.mod_eq_of_lt (by rw [hee]; exact hj)]
      · rename_i hne
        obtain ⟨a1, a2, a3, a4, a5, a6, a7⟩ := advance_ok hee h
        refine ⟨by omega, a2, ?_, a4, a5, a6, a7⟩
        intro l b1 b2
        by_cases hl : l = len + 1
        · subst hl; simpa using hne
        · exact a3 l (by omega) b2
  · simp at h
termination_by 16 - len

theorem nextLen_ok {lens : List Nat} {len len' count' : Nat} {c : Nat} (h : nextLen lens len c = some (len', count')) :
    (c ≠ 0 ∧ len' = len ∧ count' = c) ∨
      (c = 0 ∧ len < len' ∧ len' ≤ 15 ∧ (∀ l, len < l → l < len' → lens.count l = 0) ∧ count' = lens.count len' ∧ lens.count len' ≠ 0) := by
  unfold nextLen at h
  split at h
  · rename_i hc
    split at h
    · rename_i h15
      right
      rcases nextLen_ok h with ⟨a, rfl, rfl⟩ | ⟨a, b, c, d, e, f⟩
      · exact ⟨hc, by omega, by omega, by intro l x y; omega, rfl, a⟩
      · refine ⟨hc, by omega, c, ?_, e, f⟩
        intro l x y
        by_cases hl : l = len + 1
        · subst hl; exact a
        · exact d l (by omega) y
    · simp at h
  · rename_i hc
    simp only [Option.some.injEq, Prod.mk.injEq] at h
    exact Or.inl ⟨hc, h.1.symm, h.2.symm⟩
termination_by 16 - len

theorem fillFrom_ok {t t' : List Nat} {j k e v : Nat} (h : fillFrom t j k e v = .ok t') :
    ∀ x, (j ≤ x ∧ x < e ∧ (x - j) % 2 ^ k = 0 → t'[x]? = some v) ∧ (¬ (j ≤ x ∧ x < e ∧ (x - j) % 2 ^ k = 0) → t'[x]? = t[x]?) := by
  intro x
  unfold fillFrom at h
  split at h
  · rename_i hj
    split at h
    · simp at h
    · rename_i t1 h1
      obtain ⟨h2, rfl⟩ := setAt_ok h1
      rw [Nat.one_shiftLeft] at h
      have hp := Nat.two_pow_pos k
      obtain ⟨a, b⟩ := fillFrom_ok h x
      by_cases hx : x = j
      · subst hx
        have := b (by omega)
        rw [List.getElem?_set_self h2] at this
        exact ⟨fun _ => this, fun hn => absurd ⟨Nat.le_refl _, hj, by simp⟩ hn⟩
      · rw [List.getElem?_set_ne (Ne.symm hx)] at b
        constructor
        · rintro ⟨c1, c2, c3⟩
          apply a
          obtain ⟨m, hm⟩ := Nat.dvd_of_mod_eq_zero c3
          have hm0 : m ≠ 0 := by rintro rfl; omega
          obtain ⟨m, rfl⟩ := Nat.exists_eq_succ_of_ne_zero hm0
          have e1 : x - j = 2 ^ k * m + 2 ^ k := by rw [hm]; exact Nat.mul_succ _ _
          have e2 : x - (j + 2 ^ k) = 2 ^ k * m := by omega
          exact ⟨by omega, c2, by rw [e2, Nat.mul_mod_right]⟩
        · intro hn
          apply b
          rintro ⟨c1, c2, c3⟩
          apply hn
          refine ⟨by omega, c2, ?_⟩
          rw [show x - j = x - (j + 2 ^ k) + 2 ^ k by omega, Nat.add_mod_right, c3]
  · rename_i hj
    injection h with h
    subst h
    exact ⟨fun hc => by omega, fun _ => rfl⟩
termination_by e - j
decreasing_by
  have := Nat.two_pow_pos k
  omega

/-! ### Bits of words -/

theorem lsb_mod_le {k L : Nat} (h : k ≤ L) (j : Nat) : lsb k (j % 2 ^ L) = lsb k j := by
  rw [← lsb_mod k (j % 2 ^ L), ← lsb_mod k j, Nat.mod_mod_of_dvd _ (Nat.pow_dvd_pow 2 h)]

theorem lsb_inj {n a b : Nat} (h : lsb n a = lsb n b) : a % 2 ^ n = b % 2 ^ n := by
  have := congrArg lval h
  rwa [lval_lsb, lval_lsb] at this

theorem lsb_prefix {m n : Nat} (h : m ≤ n) (v : Nat) : lsb n v = lsb m v ++ lsb (n - m) (v / 2 ^ m) := by
  rw [← lsb_append]; congr 1; omega

section
variable {lens : List Nat}

theorem word_length (t : Nat) : (word lens t).length = lens.getD t 0 := by rw [word, Prefix.msb_length]

theorem Complete.unique (hk : Complete lens) {s t : Nat} (hs : Used lens s) (ht : Used lens t) {a b : List Bool}
    (h : word lens s ++ a = word lens t ++ b) : s = t := (Prefix.word_unique hk.le (le_of_eq hk.full) hs ht h).1

/-- Two words that both begin the same stream belong to the same symbol. -/
theorem Complete.stream (hk : Complete lens) {s t : Nat} (hs : Used lens s) (ht : Used lens t) {v : Nat}
    (h1 : lsb (lens.getD s 0) v = word lens s) (h2 : lsb (lens.getD t 0) v = word lens t) : s = t := by
  rcases Nat.le_total (lens.getD s 0) (lens.getD t 0) with h | h
  · apply hk.unique hs ht (a := lsb (lens.getD t 0 - lens.getD s 0) (v / 2 ^ lens.getD s 0)) (b := [])
    rw [← h1, ← h2, ← lsb_prefix h, List.append_nil]
  · apply hk.unique hs ht (b := lsb (lens.getD s 0 - lens.getD t 0) (v / 2 ^ lens.getD t 0)) (a := [])
    rw [← h1, ← h2, ← lsb_prefix h, List.append_nil]

/-- The table gives symbol `t` directly from `L` bits of stream. -/
def Direct (lens results tb : List Nat) (L t : Nat) : Prop :=
  ∀ j < 2 ^ L, lsb (lens.getD t 0) j = word lens t → tb[j]? = tableEntry results t (lens.getD t 0)

theorem Direct.set (hk : Complete lens) {results tb : List Nat} {len cw count s v : Nat}
    (hc : Cur lens len cw count s) {t : Nat} (hd : Done lens len count t) (h : Direct lens results tb len t) :
    Direct lens results (tb.set cw v) len t := by
  intro j hj hw
  rw [List.getElem?_set_ne]
  · exact h j hj hw
  · rintro rfl
    have : s = t := hk.stream hc.used hd.1 (v := cw) (by rw [hc.leq, hc.weq]) hw
    subst this
    exact not_done_cur hc hd

theorem Direct.cur {results tb : List Nat} {len cw count i s v : Nat} (ha : At lens len cw count i) (hc : Cur lens len cw count s)
    (hv : tableEntry results s len = some v) (hlt : cw < tb.length) : Direct lens results (tb.set cw v) len s := by
  intro j hj hw
  rw [hc.leq, hc.weq] at hw
  have := lsb_inj hw
  rw [Nat.mod_eq_of_lt hj, Nat.mod_eq_of_lt ha.lt] at this
  subst this
  rw [List.getElem?_set_self hlt, hc.leq, hv]

theorem Direct.grow {results tb tb' : List Nat} {L L' t : Nat} (hle : lens.getD t 0 ≤ L) (h : Direct lens results tb L t)
    (hg : ∀ j < 2 ^ L', tb'[j]? = tb[j % 2 ^ L]?) : Direct lens results tb' L' t := by
  intro j hj hw
  rw [hg j hj]
  exact h _ (Nat.mod_lt _ (Nat.two_pow_pos _)) (by rw [lsb_mod_le hle]; exact hw)

/-! ### Prefixes -/

/-- The number made of the first `T` bits of a word. -/
def pn (lens : List Nat) (T t : Nat) : Nat := code lens t / 2 ^ (lens.getD t 0 - T)

/-- The slot of a long word in the first table. -/
def slot (lens : List Nat) (T t : Nat) : Nat := lval ((word lens t).take T)

theorem word_take {T t : Nat} (h : T ≤ lens.getD t 0) : (word lens t).take T = msb T (pn lens T t) := by
  have := Prefix.msb_append T (lens.getD t 0 - T) (code lens t)
  rw [show T + (lens.getD t 0 - T) = lens.getD t 0 by omega] at this
  rw [word, this, List.take_left' (by simp)]
  rfl

theorem pn_lt (hk : Complete lens) {T t : Nat} (ht : Used lens t) (h : T ≤ lens.getD t 0) : pn lens T t < 2 ^ T := by
  have := (Prefix.code_lt hk.le (le_of_eq hk.full) ht).2
  rw [pn, Nat.div_lt_iff_lt_mul (Nat.two_pow_pos _), ← pow_add]
  rwa [show T + (lens.getD t 0 - T) = lens.getD t 0 by omega]

theorem slot_lt {T t : Nat} (h : T ≤ lens.getD t 0) : slot lens T t < 2 ^ T := by
  have := lval_lt ((word lens t).take T)
  rwa [List.length_take, word_length, Nat.min_eq_left h] at this

theorem lsb_slot {T t : Nat} (h : T ≤ lens.getD t 0) : lsb T (slot lens T t) = (word lens t).take T := by
  have := lsb_lval ((word lens t).take T)
  rwa [List.length_take, word_length, Nat.min_eq_left h] at this

theorem slot_inj (hk : Complete lens) {T s t : Nat} (hs : Used lens s) (ht : Used lens t) (h1 : T ≤ lens.getD s 0) (h2 : T ≤ lens.getD t 0)
    (h : slot lens T s = slot lens T t) : pn lens T s = pn lens T t := by
  apply Prefix.msb_inj (pn_lt hk hs h1) (pn_lt hk ht h2)
  rw [← word_take h1, ← word_take h2, ← lsb_slot h1, ← lsb_slot h2, h]

theorem slot_of_pn {T s t : Nat} (h1 : T ≤ lens.getD s 0) (h2 : T ≤ lens.getD t 0)
    (h : pn lens T s = pn lens T t) : slot lens T s = slot lens T t := by
  rw [slot, slot, word_take h1, word_take h2, h]

/-- A later length begins after all shorter codes. -/
theorem start_after (hk : Complete lens) {s : Nat} (hs : Used lens s) {L : Nat}
    (hL : L < lens.getD s 0) : (Canon.first (cnt lens) L + cnt lens L) * 2 ^ (lens.getD s 0 - L) ≤ code lens s := by
  have h15 := hk.le _ (getD_mem (Prefix.used_lt hs))
  have := Canon.start_le (cnt := cnt lens) (lens.getD s 0) hL (Nat.le_refl _)
  simp only [Nat.sub_self, pow_zero, Nat.mul_one] at this
  rw [code]
  omega

theorem pn_mono (hk : Complete lens) {len cw count s T : Nat} (hc : Cur lens len cw count s) (hT : T < len) {t : Nat} (hd : Done lens len count t)
    (hlong : T < lens.getD t 0) : pn lens T t ≤ pn lens T s := by
  obtain ⟨hu, h | ⟨h, h'⟩⟩ := hd
  · have hl := hc.leq
    have h1 := start_after hk hc.used (L := lens.getD t 0) (by omega)
    have h2 := (Prefix.code_lt hk.le (le_of_eq hk.full) hu).1
    rw [pn, pn, Nat.le_div_iff_mul_le (Nat.two_pow_pos _)]
    calc code lens t / 2 ^ (lens.getD t 0 - T) * 2 ^ (lens.getD s 0 - T)
        = code lens t / 2 ^ (lens.getD t 0 - T) * 2 ^ (lens.getD t 0 - T) * 2 ^ (lens.getD s 0 - lens.getD t 0) := by
          rw [Nat.mul_assoc, ← pow_add]; congr 2; omega
      _ ≤ code lens t * 2 ^ (lens.getD s 0 - lens.getD t 0) := Nat.mul_le_mul_right _ (Nat.div_mul_le_self _ _)
      _ ≤ (Canon.first (cnt lens) (lens.getD t 0) + cnt lens (lens.getD t 0)) * 2 ^ (lens.getD s 0 - lens.getD t 0) :=
          Nat.mul_le_mul_right _ (by omega)
      _ ≤ code lens s := h1
  · rw [pn, pn, hc.leq, h, hc.ceq, code, h]
    exact Nat.div_le_div_right (by omega)

/-- A subtable long enough for all its codes. -/
theorem growBits_ok {T len c : Nat} (hT : T < len) {b used bits : Nat} (hb : len ≤ T + b) (h15 : T + b ≤ 15)
    (hu : used + c * 2 ^ (T + b - len) = Canon.first (cnt lens) (T + b) + cnt lens (T + b)) (h : growBits lens T b used = some bits) :
    b ≤ bits ∧ T + bits ≤ 15 ∧ c * 2 ^ (T + bits - len) + 2 ^ bits ≤ Canon.first (cnt lens) (T + bits) + cnt lens (T + bits) := by
  unfold growBits at h
  rw [Nat.one_shiftLeft] at h
  split at h
  · split at h
    · simp at h
    · rename_i h1 h2
      have := growBits_ok hT (b := b + 1) (by omega) (by omega) (c := c) (by
        rw [show T + (b + 1) = T + b + 1 by omega, Canon.first, ← hu, show T + b + 1 - len = T + b - len + 1 by omega, pow_succ,
          cnt_eq (by omega), Nat.shiftLeft_eq]
        ring) h
      exact ⟨by omega, this.2⟩
  · injection h with h
    subst h
    exact ⟨Nat.le_refl _, h15, by omega⟩
termination_by 16 - (T + b)

theorem growBits_cover (hk : Complete lens) {T len cw count i s bits : Nat} (ha : At lens len cw count i) (hc : Cur lens len cw count s)
    (hT : T < len) (h : growBits lens T (len - T) count = some bits) :
    len ≤ T + bits ∧ T + bits ≤ 15 ∧ ∀ t, Used lens t → T < lens.getD t 0 → slot lens T t = slot lens T s → lens.getD t 0 ≤ T + bits := by
  have h1 := ha.one
  have h2 := ha.pos
  have h3 := ha.le
  have h4 := ha.le15
  have hce := hc.ceq
  have hll := hc.leq
  have e0 : T + (len - T) = len := by omega
  obtain ⟨a, b, d⟩ := growBits_ok (lens := lens) hT (b := len - T) (by omega) (by omega) (c := code lens s) (by
    rw [e0, Nat.sub_self, pow_zero, Nat.mul_one, hce, cnt_eq h1]; omega) h
  refine ⟨by omega, b, ?_⟩
  intro t ht htT hslot
  by_contra hgt
  have hs := start_after hk ht (L := T + bits) (by omega)
  have hpn := slot_inj hk ht hc.used (by omega) (by omega) hslot
  have : pn lens T s + 1 ≤ pn lens T t := by
    rw [pn, pn, Nat.le_div_iff_mul_le (Nat.two_pow_pos _)]
    refine le_trans ?_ hs
    refine le_trans ?_ (Nat.mul_le_mul_right _ d)
    rw [Nat.add_mul, Nat.add_mul, Nat.one_mul, ← pow_add, show bits + (lens.getD t 0 - (T + bits)) = lens.getD t 0 - T by omega]
    apply Nat.add_le_add_right
    rw [Nat.mul_assoc, ← pow_add, show T + bits - len + (lens.getD t 0 - (T + bits)) = lens.getD t 0 - len by omega]
    calc code lens s / 2 ^ (lens.getD s 0 - T) * 2 ^ (lens.getD t 0 - T)
        = code lens s / 2 ^ (lens.getD s 0 - T) * 2 ^ (lens.getD s 0 - T) * 2 ^ (lens.getD t 0 - len) := by
          rw [Nat.mul_assoc, ← pow_add]; congr 2; omega
      _ ≤ code lens s * 2 ^ (lens.getD t 0 - len) := Nat.mul_le_mul_right _ (Nat.div_mul_le_self _ _)
  omega

/-! ### The loop over long codewords -/

/-- The table gives symbol `t` through the subtable at `st` of `bt` bits. -/
structure SubAt (lens results tb : List Nat) (T t st bt : Nat) : Prop where
  ptr : tb[slot lens T t]? = some (pointer st bt T)
  lo : 2 ^ T ≤ st
  len : lens.getD t 0 ≤ T + bt
  hi : T + bt ≤ 15
  ent : ∀ j < 2 ^ bt, lsb (lens.getD t 0 - T) j = (word lens t).drop T → tb[st + j]? = tableEntry results t (lens.getD t 0 - T)

/-- What the table gives for symbol `t`. -/
def Lookup (lens results tb : List Nat) (T t : Nat) : Prop :=
  (lens.getD t 0 ≤ T → Direct lens results tb T t) ∧ (T < lens.getD t 0 → ∃ st bt, SubAt lens results tb T t st bt)

/-- The invariant of the loop over long codewords. -/
structure SubInv (lens results tb : List Nat) (T len count e : Nat) (pfx : Option Nat) (start : Nat) : Prop where
  low : 2 ^ T ≤ e
  direct : ∀ t, Used lens t → lens.getD t 0 ≤ T → Direct lens results tb T t
  long : ∀ t, Done lens len count t → T < lens.getD t 0 → ∃ st bt, SubAt lens results tb T t st bt ∧
    ((pfx = some (slot lens T t) ∧ st = start) ∨ (pfx ≠ some (slot lens T t) ∧ st + 2 ^ bt ≤ start))
  fresh : pfx = none → ∀ t, Done lens len count t → lens.getD t 0 ≤ T
  going : ∀ q, pfx = some q → ∃ s0 bits, Done lens len count s0 ∧ T < lens.getD s0 0 ∧ slot lens T s0 = q ∧
    (∀ t, Done lens len count t → T < lens.getD t 0 → pn lens T t ≤ pn lens T s0) ∧ tb[q]? = some (pointer start bits T) ∧ start + 2 ^ bits = e ∧
    2 ^ T ≤ start ∧ T + bits ≤ 15 ∧ ∀ t, Used lens t → T < lens.getD t 0 → slot lens T t = q → lens.getD t 0 ≤ T + bits

theorem pointer_inj {T a b c d : Nat} (hT : T < 256) (hb : b < 64) (hd : d < 64) (h : pointer a b T = pointer c d T) : a = c ∧ b = d := by
  have key : ∀ x y : Nat, y < 64 → (pointer x y T) >>> 16 = x ∧ (pointer x y T) / 2 ^ 8 % 2 ^ 6 = y := by
    intro x y hy
    have hT' : ∀ i, 8 ≤ i → T.testBit i = false := fun i hi =>
      Nat.testBit_lt_two_pow (lt_of_lt_of_le hT (by rw [show (256 : Nat) = 2 ^ 8 by rfl]; exact Nat.pow_le_pow_right (by decide) hi))
    have hy' : ∀ i, 6 ≤ i → y.testBit i = false := fun i hi =>
      Nat.testBit_lt_two_pow (lt_of_lt_of_le hy (by rw [show (64 : Nat) = 2 ^ 6 by rfl]; exact Nat.pow_le_pow_right (by decide) hi))
    constructor
    · apply Nat.eq_of_testBit_eq
      intro i
      rw [pointer, show (0x8000 : Nat) = 2 ^ 15 by rfl, show (0x4000 : Nat) = 2 ^ 14 by rfl]
      simp only [Nat.testBit_shiftRight, Nat.testBit_or, Nat.testBit_shiftLeft, Nat.testBit_two_pow]
      simp [hT' (16 + i) (by omega), hy' (16 + i - 8) (by omega), show ¬ 15 = 16 + i by omega, show ¬ 14 = 16 + i by omega]
    · apply Nat.eq_of_testBit_eq
      intro i
      rw [pointer, show (0x8000 : Nat) = 2 ^ 15 by rfl, show (0x4000 : Nat) = 2 ^ 14 by rfl]
      simp only [Nat.testBit_mod_two_pow, Nat.testBit_div_two_pow, Nat.testBit_or, Nat.testBit_shiftLeft, Nat.testBit_two_pow]
      by_cases hi : i < 6
      · simp [hi, hT' (i + 8) (by omega), show ¬ 16 ≤ i + 8 by omega, show ¬ 15 = i + 8 by omega, show ¬ 14 = i + 8 by omega]
      · simp [hi, hy' i (by omega)]
  have h1 := key a b hb
  have h2 := key c d hd
  rw [h] at h1
  exact ⟨h1.1.symm.trans h2.1, h1.2.symm.trans h2.2⟩

/-- The state after the check for a new subtable: the subtable of the symbol at hand is there. -/
structure SubReady (lens results tb : List Nat) (T len count s e start : Nat) : Prop where
  bits : ∃ bits, tb[slot lens T s]? = some (pointer start bits T) ∧ start + 2 ^ bits = e ∧ 2 ^ T ≤ start ∧ T + bits ≤ 15 ∧
    ∀ t, Used lens t → T < lens.getD t 0 → slot lens T t = slot lens T s → lens.getD t 0 ≤ T + bits
  direct : ∀ t, Used lens t → lens.getD t 0 ≤ T → Direct lens results tb T t
  long : ∀ t, Done lens len count t → T < lens.getD t 0 → ∃ st bt, SubAt lens results tb T t st bt ∧
    ((slot lens T s = slot lens T t ∧ st = start) ∨ (slot lens T s ≠ slot lens T t ∧ st + 2 ^ bt ≤ start))

theorem slot_cur {T len cw count s : Nat} (hc : Cur lens len cw count s) (hT : T < len) : cw &&& ((1 <<< T) - 1) = slot lens T s ∧ (word lens s).drop T = lsb (len - T) (cw >>> T) := by
  have := lsb_prefix (Nat.le_of_lt hT) cw
  constructor
  · rw [Nat.one_shiftLeft, Nat.and_two_pow_sub_one_eq_mod, slot, hc.weq, this, List.take_left' (by simp), lval_lsb]
  · rw [hc.weq, this, List.drop_left' (by simp), Nat.shiftRight_eq_div_pow]

theorem SubInv.ready (hk : Complete lens) {results tb : List Nat} {T len cw count i s e start : Nat} {pfx : Option Nat} (ha : At lens len cw count i)
    (hc : Cur lens len cw count s) (hT : T < len) (hI : SubInv lens results tb T len count e pfx start) {tb' : List Nat} {e' start' : Nat}
    (h : (if pfx ≠ some (slot lens T s) then newSub lens T tb (slot lens T s) e len count else .ok (tb, e, start)) = .ok (tb', e', start')) :
    SubReady lens results tb' T len count s e' start' := by
  have hll := hc.leq
  split at h
  · rename_i hne
    unfold newSub at h
    split at h
    · simp at h
    · rename_i bits hg
      obtain ⟨g1, g2, g3⟩ := growBits_cover hk ha hc hT hg
      split at h
      · simp at h
      · rename_i tb1 h1
        obtain ⟨hlt, rfl⟩ := setAt_ok h1
        simp only [Except.ok.injEq, Prod.mk.injEq] at h
        obtain ⟨rfl, rfl, rfl⟩ := h
        have hslot : ∀ t, Done lens len count t → T < lens.getD t 0 → slot lens T t ≠ slot lens T s := by
          intro t hd htl heq
          cases hp : pfx with
          | none => have := hI.fresh hp t hd; omega
          | some q =>
            obtain ⟨s0, _, b1, b2, b3, b4, -⟩ := hI.going q hp
            have c1 := b4 t hd htl
            have c2 := pn_mono hk hc hT b1 b2
            have c3 := slot_inj hk hd.1 hc.used (by omega) (by omega) heq
            have c4 : pn lens T s0 = pn lens T s := by omega
            have := slot_of_pn (T := T) (by omega) (by omega) c4
            apply hne
            rw [hp, ← this, b3]
        refine ⟨⟨bits, by rw [List.getElem?_set_self hlt], by rw [Nat.one_shiftLeft], hI.low, g2, g3⟩, ?_, ?_⟩
        · intro t ht hle j hj hw
          rw [List.getElem?_set_ne]
          · exact hI.direct t ht hle j hj hw
          · rintro rfl
            have : t = s := by
              apply hk.unique ht hc.used (a := (word lens s).drop (lens.getD t 0)) (b := [])
              rw [List.append_nil, ← hw, show lsb (lens.getD t 0) (slot lens T s) = (word lens s).take (lens.getD t 0) by
                have e1 := lsb_slot (T := T) (t := s) (lens := lens) (by omega)
                rw [lsb_prefix hle] at e1
                have e2 := congrArg (List.take (lens.getD t 0)) e1
                rw [List.take_left' (by simp), List.take_take, Nat.min_eq_left hle] at e2
                exact e2, List.take_append_drop]
            subst this
            omega
        · intro t hd htl
          obtain ⟨st, bt, hs, ho⟩ := hI.long t hd htl
          have hsl := hslot t hd htl
          refine ⟨st, bt, ⟨?_, hs.lo, hs.len, hs.hi, ?_⟩, Or.inr ⟨Ne.symm hsl, ?_⟩⟩
          · rw [List.getElem?_set_ne (Ne.symm hsl)]; exact hs.ptr
          · intro j hj hw
            rw [List.getElem?_set_ne]
            · exact hs.ent j hj hw
            · have := hs.lo
              have := slot_lt (lens := lens) (T := T) (t := s) (by omega)
              omega
          · cases hp : pfx with
            | none => have := hI.fresh hp t hd; omega
            | some q =>
              obtain ⟨s0, bits0, b1, b2, b3, b4, b5, b6, b7, b8, b9⟩ := hI.going q hp
              rcases ho with ⟨o1, o2⟩ | ⟨o1, o2⟩
              · rw [hp] at o1
                injection o1 with o1
                have h1 := hs.ptr
                rw [← o1, b5, o2] at h1
                injection h1 with h1
                have hh := hs.hi
                have := (pointer_inj (by omega) (by omega) (by omega) h1).2
                subst this
                omega
              · have := Nat.two_pow_pos bits0
                omega
  · rename_i hne
    simp only [ne_eq, not_not] at hne
    simp only [Except.ok.injEq, Prod.mk.injEq] at h
    obtain ⟨rfl, rfl, rfl⟩ := h
    obtain ⟨s0, bits0, b1, b2, b3, b4, b5, b6, b7, b8, b9⟩ := hI.going _ hne
    refine ⟨⟨bits0, b5, b6, b7, b8, b9⟩, hI.direct, ?_⟩
    intro t hd htl
    obtain ⟨st, bt, hs, ho⟩ := hI.long t hd htl
    refine ⟨st, bt, hs, ?_⟩
    rw [hne] at ho
    simpa using ho

/-- After the entries of the symbol at hand are filled in. -/
theorem SubReady.fill (hk : Complete lens) {results tb : List Nat} {T len cw count i s e start v : Nat} (ha : At lens len cw count i)
    (hc : Cur lens len cw count s) (hT : T < len) (hR : SubReady lens results tb T len count s e start)
    (hv : tableEntry results s (len - T) = some v) {tb' : List Nat} (h : fillFrom tb (start + (cw >>> T)) (len - T) e v = .ok tb') :
    (∃ bits, tb'[slot lens T s]? = some (pointer start bits T) ∧ start + 2 ^ bits = e ∧ 2 ^ T ≤ start ∧ T + bits ≤ 15 ∧
      ∀ t, Used lens t → T < lens.getD t 0 → slot lens T t = slot lens T s → lens.getD t 0 ≤ T + bits) ∧
    (∀ t, Used lens t → lens.getD t 0 ≤ T → Direct lens results tb' T t) ∧
    ∀ t, (Done lens len count t ∨ t = s) → T < lens.getD t 0 → ∃ st bt, SubAt lens results tb' T t st bt ∧
      ((slot lens T s = slot lens T t ∧ st = start) ∨ (slot lens T s ≠ slot lens T t ∧ st + 2 ^ bt ≤ start)) := by
  obtain ⟨⟨bits, b1, b2, b3, b4, b5⟩, hd, hl⟩ := hR
  have hll := hc.leq
  have hsl := slot_lt (lens := lens) (T := T) (t := s) (by omega)
  obtain ⟨q1, q2⟩ := slot_cur hc hT
  have hcw : cw >>> T < 2 ^ (len - T) := by
    rw [Nat.shiftRight_eq_div_pow, Nat.div_lt_iff_lt_mul (Nat.two_pow_pos _), ← pow_add, show len - T + T = len by omega]
    exact ha.lt
  have hb := b5 s hc.used (by omega) rfl
  -- the places written
  have hw : ∀ j, j < 2 ^ bits → ((start + cw >>> T ≤ start + j ∧ start + j < e ∧ (start + j - (start + cw >>> T)) % 2 ^ (len - T) = 0) ↔
      lsb (len - T) j = (word lens s).drop T) := by
    intro j hj
    rw [q2]
    constructor
    · rintro ⟨c1, c2, c3⟩
      obtain ⟨m, hm⟩ := Nat.dvd_of_mod_eq_zero c3
      rw [show j = cw >>> T + 2 ^ (len - T) * m by omega, ← lsb_mod, Nat.add_mul_mod_self_left, lsb_mod]
    · intro hh
      have := lsb_inj hh
      rw [Nat.mod_eq_of_lt hcw] at this
      have hdm := Nat.div_add_mod j (2 ^ (len - T))
      refine ⟨by omega, by omega, ?_⟩
      rw [show start + j - (start + cw >>> T) = 2 ^ (len - T) * (j / 2 ^ (len - T)) by omega, Nat.mul_mod_right]
  have hlow : ∀ x, x < start → tb'[x]? = tb[x]? := fun x hx => (fillFrom_ok h x).2 (fun hx' => by have := Nat.le_add_right start (cw >>> T); omega)
  have htl : 2 ^ T ≤ start := b3
  refine ⟨⟨bits, by rw [hlow _ (by omega)]; exact b1, b2, b3, b4, b5⟩, ?_, ?_⟩
  · intro t ht hle j hj hw'
    rw [hlow j (by omega)]
    exact hd t ht hle j hj hw'
  · intro t ht htT
    rcases ht with ht | rfl
    · obtain ⟨st, bt, hs, ho⟩ := hl t ht htT
      have hst := slot_lt (lens := lens) (T := T) (t := t) (by omega)
      refine ⟨st, bt, ⟨by rw [hlow _ (by omega)]; exact hs.ptr, hs.lo, hs.len, hs.hi, ?_⟩, ho⟩
      intro j hj hw'
      rcases ho with ⟨o1, o2⟩ | ⟨o1, o2⟩
      · subst o2
        have hbt : bt = bits := by
          have := hs.ptr
          rw [← o1, b1] at this
          injection this with this
          have hh := hs.hi
          exact ((pointer_inj (T := T) (by omega) (by omega) (by omega) this).2).symm
        subst hbt
        rw [(fillFrom_ok h (st + j)).2]
        · exact hs.ent j hj hw'
        · intro hx
          have h2 := (hw j hj).1 hx
          have hlen := hs.len
          have : t = s := by
            apply hk.stream ht.1 hc.used (v := slot lens T s + 2 ^ T * j)
            · have := lsb_merge (m := T) hsl (lens.getD t 0 - T) j
              rw [show T + (lens.getD t 0 - T) = lens.getD t 0 by omega] at this
              rw [this, hw', o1, lsb_slot (by omega), List.take_append_drop]
            · have := lsb_merge (m := T) hsl (lens.getD s 0 - T) j
              rw [show T + (lens.getD s 0 - T) = lens.getD s 0 by omega] at this
              rw [this, hll, h2, lsb_slot (by omega), List.take_append_drop]
          subst this
          exact not_done_cur hc ht
      · rw [hlow (st + j) (by omega)]
        exact hs.ent j hj hw'
    · refine ⟨start, bits, ⟨by rw [hlow _ (by omega)]; exact b1, b3, hb, b4, ?_⟩, Or.inl ⟨rfl, rfl⟩⟩
      intro j hj hw'
      rw [hll] at hw' ⊢
      rw [(fillFrom_ok h (start + j)).1 ((hw j hj).2 hw'), hv]

theorem subLoop_ok (hk : Complete lens) {results sorted : List Nat}
    (hs : ∀ s < lens.length, sorted[startOf lens (lens.getD s 0) + rank lens s]? = some s) {T : Nat} {tb : List Nat} {len cw count i e start : Nat}
    {pfx : Option Nat} (ha : At lens len cw count i) (hT : T < len) (hI : SubInv lens results tb T len count e pfx start) {tb' : List Nat}
    (h : subLoop lens results sorted T tb cw len count i e pfx start = .ok tb') : ∀ t, Used lens t → Lookup lens results tb' T t := by
  obtain ⟨s, hc, hsi, hsl⟩ := ha.cur hs
  obtain ⟨q1, q2⟩ := slot_cur hc hT
  rw [subLoop] at h
  simp only [q1] at h
  split at h
  · simp at h
  · rename_i tb1 e1 start1 h1
    have hR := hI.ready hk ha hc hT h1
    split at h
    · rename_i hi
      rw [List.getElem?_eq_getElem hi] at hsi
      injection hsi with hsi
      rw [hsi] at h
      split at h
      · simp at h
      · rename_i v hv
        split at h
        · simp at h
        · rename_i tb2 h2
          obtain ⟨f1, f2, f3⟩ := hR.fill hk ha hc hT hv h2
          rw [Nat.one_shiftLeft] at h
          split at h
          · rename_i hlast
            injection h with h
            subst h
            intro t ht
            refine ⟨f2 t ht, fun hlong => ?_⟩
            obtain ⟨st, bt, h3, -⟩ := f3 t (ha.last hk hlast hc ht) hlong
            exact ⟨st, bt, h3⟩
          · rename_i hlast
            split at h
            · simp at h
            · rename_i len' count' hn
              have key : At lens len' (nextWord cw (2 ^ len)) count' (i + 1) ∧ (∀ t, Done lens len' count' t → Done lens len count t ∨ t = s) ∧
                  Done lens len' count' s ∧ T < len' := by
                have hp := ha.pos
                have hle := ha.le
                have hr := hc.rk
                rcases nextLen_ok hn with ⟨a, rfl, rfl⟩ | ⟨a, b, c, d, e, f⟩
                · exact ⟨ha.next_same hlast a, fun t => done_next_same ha hc, ⟨hc.used, Or.inr ⟨hc.leq, by omega⟩⟩, hT⟩
                · subst e
                  exact ⟨ha.next_len hlast a b c d f, fun t => done_next_len ha a hc b d, ⟨hc.used, Or.inl (by rw [hc.leq]; exact b)⟩, by omega⟩
              obtain ⟨ha', hd', hds, hT'⟩ := key
              have hll := hc.leq
              refine subLoop_ok hk hs ha' hT' ⟨?_, f2, ?_, by simp, ?_⟩ h
              · obtain ⟨bits, -, g1, g2, -⟩ := f1
                have := Nat.two_pow_pos bits
                omega
              · intro t ht hlong
                obtain ⟨st, bt, h3, h4⟩ := f3 t (hd' t ht) hlong
                exact ⟨st, bt, h3, by simpa using h4⟩
              · intro q hq
                injection hq with hq
                subst hq
                obtain ⟨bits, g1, g2, g3, g4, g5⟩ := f1
                refine ⟨s, bits, hds, by omega, rfl, ?_, g1, g2, g3, g4, g5⟩
                intro t ht hlong
                rcases hd' t ht with h5 | rfl
                · exact pn_mono hk hc hT h5 hlong
                · exact Nat.le_refl _
    · simp at h
termination_by sorted.length - i

/-! ### The loop over short codewords -/

theorem mainLoop_ok (hk : Complete lens) {results sorted : List Nat}
    (hs : ∀ s < lens.length, sorted[startOf lens (lens.getD s 0) + rank lens s]? = some s) {T : Nat} {tb : List Nat} {len cw count i : Nat}
    (ha : At lens len cw count i) (hT : len ≤ T) (hI : ∀ t, Done lens len count t → Direct lens results tb len t) {tb' : List Nat}
    (h : mainLoop lens results sorted T tb cw len count i (2 ^ len) = .ok tb') : ∀ t, Used lens t → Lookup lens results tb' T t := by
  obtain ⟨s, hc, hsi, hsl⟩ := ha.cur hs
  rw [mainLoop] at h
  split at h
  · rename_i hi
    rw [List.getElem?_eq_getElem hi] at hsi
    injection hsi with hsi
    rw [hsi] at h
    split at h
    · simp at h
    · rename_i v hv
      split at h
      · simp at h
      · rename_i tb1 h1
        obtain ⟨hlt, rfl⟩ := setAt_ok h1
        have hD : ∀ t, (Done lens len count t ∨ t = s) → Direct lens results (tb.set cw v) len t := by
          rintro t (ht | rfl)
          · exact (hI t ht).set hk hc ht
          · exact Direct.cur ha hc hv hlt
        have hlen : ∀ t, (Done lens len count t ∨ t = s) → lens.getD t 0 ≤ len := by
          rintro t (⟨-, ht | ⟨ht, -⟩⟩ | rfl)
          · omega
          · omega
          · rw [hc.leq]
        split at h
        · rename_i hlast
          intro t ht
          have hdt := ha.last hk hlast hc ht
          have hl := hlen t hdt
          refine ⟨fun _ => ?_, fun hh => by omega⟩
          refine (hD t hdt).grow hl ?_
          intro j hj
          exact doubles_ok _ h j (by rw [← pow_add, show T - len + len = T by omega]; exact hj)
        · rename_i hlast
          split at h
          · rename_i hcount
            exact mainLoop_ok hk hs (ha.next_same hlast hcount) hT (fun t ht => hD t (done_next_same ha hc ht)) h
          · rename_i hcount
            simp only [ne_eq, not_not] at hcount
            split at h
            · simp at h
            · rename_i tb2 e' len' count' h2
              obtain ⟨a1, a2, a3, a4, a5, a6, a7⟩ := advance_ok (by rw [Nat.min_eq_left hT]) h2
              subst a4
              have ha' := ha.next_len hlast hcount a1 a2 a3 a5
              have hd' : ∀ t, Done lens len' (lens.count len') t → Done lens len count t ∨ t = s := fun t => done_next_len ha hcount hc a1 a3
              have hD' : ∀ t, Done lens len' (lens.count len') t → Direct lens results tb2 (min len' T) t := by
                intro t ht
                exact (hD t (hd' t ht)).grow (hlen t (hd' t ht)) a7
              split at h
              · rename_i hT'
                rw [Nat.min_eq_left hT'] at hD' a6
                rw [a6] at h
                exact mainLoop_ok hk hs ha' hT' hD' h
              · rename_i hT'
                rw [Nat.min_eq_right (by omega)] at hD'
                rw [Nat.one_shiftLeft] at h
                refine subLoop_ok hk hs ha' (by omega) ⟨Nat.le_refl _, ?_, ?_, ?_, by simp⟩ h
                · intro t ht hle
                  exact hD' t ⟨ht, Or.inl (by omega)⟩
                · intro t ht hlong
                  have := hlen t (hd' t ht)
                  omega
                · intro _ t ht
                  have := hlen t (hd' t ht)
                  omega
  · simp at h
termination_by sorted.length - i

theorem firstLen_ok {len : Nat} (hne : ∃ l, len ≤ l ∧ l ≤ 15 ∧ lens.count l ≠ 0) :
    len ≤ (firstLen lens len).1 ∧ (firstLen lens len).1 ≤ 15 ∧ (firstLen lens len).2 = lens.count (firstLen lens len).1 ∧ (firstLen lens len).2 ≠ 0 ∧
      ∀ l, len ≤ l → l < (firstLen lens len).1 → lens.count l = 0 := by
  obtain ⟨l, h1, h2, h3⟩ := hne
  unfold firstLen
  split
  · rename_i hz
    have hl : len ≠ l := by rintro rfl; exact h3 hz
    rw [if_pos (by omega)]
    obtain ⟨a, b, c, d, e⟩ := firstLen_ok (len := len + 1) ⟨l, by omega, h2, h3⟩
    refine ⟨by omega, b, c, d, ?_⟩
    intro k k1 k2
    by_cases hk : k = len
    · subst hk; exact hz
    · exact e k (by omega) k2
  · rename_i hz
    exact ⟨Nat.le_refl _, by simp only; omega, rfl, hz, by intro k a b; simp only at b; omega⟩
termination_by 16 - len

theorem Complete.nonzero (hk : Complete lens) : ∃ l, 1 ≤ l ∧ l ≤ 15 ∧ lens.count l ≠ 0 := by
  by_contra h
  push Not at h
  have h1 : ∀ L, L ≤ 15 → Prefix.below 15 lens L = 0 := by
    intro L hL
    induction L with
    | zero =>
      have := Prefix.first_weight lens (N := 15) (L := 0) (by omega)
      rw [← this]; simp [Canon.first, cnt]
    | succ L ih => rw [Prefix.below_succ, ih (by omega), h (L + 1) (by omega) hL]; simp
  have h2 := Prefix.below_full 15 lens hk.le
  rw [h1 15 (Nat.le_refl _), hk.full] at h2
  simp at h2

theorem buildTable_lookup (hk : Complete lens) (hn : lens.length ≤ 288) {results : List Nat} {size T : Nat} {tb : List Nat}
    (h : buildTable lens results size T = .ok tb) : ∀ t, Used lens t → Lookup lens results tb T t := by
  obtain ⟨offs, sorted, e1, e2, e3, e4⟩ := sorted_spec hk.le hn
  obtain ⟨c1, c2⟩ := codespace_weight hk.le
  have hw : codespace lens (maxLen lens 15) = 2 ^ maxLen lens 15 := by
    rw [c1]; exact Prefix.complete_of hk.le hk.full c2
  rw [buildTable] at h
  simp only [e1, hw, Nat.one_shiftLeft, gt_iff_lt, Nat.lt_irrefl, if_false, e2] at h
  obtain ⟨a, b, c, d, e⟩ := firstLen_ok (lens := lens) (len := 1) hk.nonzero
  generalize firstLen lens 1 = r at a b c d e h
  obtain ⟨len, count⟩ := r
  simp only at a b c d e h
  subst c
  have hfirst : Canon.first (cnt lens) len = 0 ∧ startOf lens len = lens.count 0 := by
    have := first_gap (lens := lens) (len := 0) (len' := len) (by omega) (fun l x y => e l (by omega) y)
    rw [this.1, this.2]
    simp [Canon.first, cnt, startOf]
  have ha : At lens len 0 (lens.count len) (lens.count 0) := by
    refine ⟨a, b, by omega, Nat.le_refl _, by rw [startOf_succ, hfirst.2], Nat.two_pow_pos _, ?_⟩
    rw [hfirst.1, Nat.sub_self, Nat.add_zero, msb, lsb_zero, List.reverse_replicate]
  have hnd : ∀ t, ¬ Done lens len (lens.count len) t := by
    rintro t ⟨hu, ht | ⟨-, ht⟩⟩
    · have h0 : lens.getD t 0 ≠ 0 := hu
      have := e _ (by omega) ht
      have hp : 0 < lens.count (lens.getD t 0) := List.count_pos_iff.2 (getD_mem (Prefix.used_lt hu))
      omega
    · omega
  split at h
  · rename_i hT
    exact mainLoop_ok hk e4 ha hT (fun t ht => absurd ht (hnd t)) h
  · rename_i hT
    refine subLoop_ok hk e4 ha (by omega) ⟨Nat.le_refl _, ?_, fun t ht => absurd ht (hnd t), fun _ t ht => absurd ht (hnd t), by simp⟩ h
    intro t ht hle
    exact absurd ⟨ht, Or.inl (by omega)⟩ (hnd t)

end

end Zune.Inflate
