/-
The construction of Huffman decode tables neither fails nor runs past the end of the table, for every complete code, given room for it.
-/
import Verif.Inflate.TableLoops

namespace Zune.Inflate

open Prefix (cnt rank code msb word Used weight)

theorem setAt_lt {t : List Nat} {i v : Nat} (h : i < t.length) : setAt t i v = .ok (t.set i v) := by simp [setAt, h]

theorem double_le {t : List Nat} {e : Nat} (h : 2 * e ≤ t.length) : ∃ t', double t e = .ok t' ∧ t'.length = t.length := by
  refine ⟨_, by rw [double, if_pos h], by simp; omega⟩

theorem doubles_le : ∀ (n : Nat) {t : List Nat} {e : Nat}, 2 ^ n * e ≤ t.length → ∃ t', doubles n t e = .ok t' ∧ t'.length = t.length := by
  intro n
  induction n with
  | zero => intro t e _; exact ⟨t, rfl, rfl⟩
  | succ n ih =>
    intro t e h
    have h1 : 2 * e ≤ t.length := by
      refine le_trans ?_ h
      rw [pow_succ, Nat.mul_assoc]
      exact Nat.le_mul_of_pos_left _ (Nat.two_pow_pos n)
    obtain ⟨t1, e1, e2⟩ := double_le h1
    rw [doubles, e1]
    simp only
    obtain ⟨t2, e3, e4⟩ := ih (t := t1) (e := e <<< 1) (by
      rw [Nat.shiftLeft_eq, pow_one, e2]
      refine le_trans (le_of_eq ?_) h
      rw [pow_succ]; ring)
    exact ⟨t2, e3, e4.trans e2⟩

theorem advance_total {lens : List Nat} {T : Nat} {t : List Nat} {e len : Nat} (he : e = 2 ^ min len T) (hT : 2 ^ T ≤ t.length)
    (hne : ∃ l, len < l ∧ l ≤ 15 ∧ lens.count l ≠ 0) : ∃ t' e' len' count', advance lens T t e len = .ok (t', e', len', count') ∧ t'.length = t.length := by
  obtain ⟨l, h1, h2, h3⟩ := hne
  unfold advance
  rw [if_pos (by omega)]
  split
  · rename_i hlt
    have hee : 2 * e = 2 ^ min (len + 1) T := by
      rw [he, show min (len + 1) T = min len T + 1 by omega, pow_succ]; ring
    obtain ⟨t1, e1, e2⟩ := double_le (t := t) (e := e) (by
      rw [hee]
      exact le_trans (Nat.pow_le_pow_right (by decide) (Nat.min_le_right _ _)) hT)
    rw [e1]
    simp only
    split
    · exact ⟨_, _, _, _, rfl, e2⟩
    · rename_i hz
      obtain ⟨t2, a, b, c, e3, e4⟩ := advance_total (lens := lens) (T := T) (t := t1) (e := e <<< 1) (len := len + 1)
        (by rw [Nat.shiftLeft_eq, ← hee]; ring) (by rw [e2]; exact hT)
        ⟨l, by rcases Nat.lt_or_ge (len + 1) l with h | h
               · exact h
               · exact absurd h3 (by rw [show l = len + 1 by omega]; simpa using hz), h2, h3⟩
      exact ⟨t2, a, b, c, e3, e4.trans e2⟩
  · rename_i hlt
    split
    · exact ⟨_, _, _, _, rfl, rfl⟩
    · rename_i hz
      exact advance_total (lens := lens) (T := T) (t := t) (e := e) (len := len + 1) (by rw [he]; congr 1; omega) hT
        ⟨l, by rcases Nat.lt_or_ge (len + 1) l with h | h
               · exact h
               · exact absurd h3 (by rw [show l = len + 1 by omega]; simpa using hz), h2, h3⟩
termination_by 16 - len

theorem nextLen_total {lens : List Nat} {len c : Nat} (hne : c = 0 → ∃ l, len < l ∧ l ≤ 15 ∧ lens.count l ≠ 0) :
    ∃ len' count', nextLen lens len c = some (len', count') := by
  unfold nextLen
  split
  · rename_i h0
    obtain ⟨l, h1, h2, h3⟩ := hne h0
    rw [if_pos (by omega)]
    refine nextLen_total (fun hz => ⟨l, ?_, h2, h3⟩)
    rcases Nat.lt_or_ge (len + 1) l with h | h
    · exact h
    · exact absurd hz (by rw [show len + 1 = l by omega]; exact h3)
  · exact ⟨_, _, rfl⟩
termination_by 16 - len

theorem fillFrom_total {t : List Nat} {j k e v : Nat} (h : e ≤ t.length) : ∃ t', fillFrom t j k e v = .ok t' ∧ t'.length = t.length := by
  unfold fillFrom
  split
  · rw [setAt_lt (by omega)]
    simp only
    obtain ⟨t', e1, e2⟩ := fillFrom_total (t := t.set j v) (j := j + 1 <<< k) (k := k) (e := e) (v := v) (by simpa using h)
    exact ⟨t', e1, by rw [e2]; simp⟩
  · exact ⟨t, rfl, rfl⟩
termination_by e - j
decreasing_by
  rw [Nat.one_shiftLeft]
  have := Nat.two_pow_pos k
  omega

section
variable {lens : List Nat}

/-- While the codeword at hand is not the last one, a longer length follows when those of this length are used up. -/
theorem At.more (hk : Complete lens) {len cw count i : Nat} (h : At lens len cw count i) (hl : cw ≠ 2 ^ len - 1) (hc : count - 1 = 0) :
    ∃ l, len < l ∧ l ≤ 15 ∧ lens.count l ≠ 0 := by
  by_contra hn
  push Not at hn
  have h1 : ∀ L, len ≤ L → L ≤ 15 → Prefix.below 15 lens L = Prefix.below 15 lens len := by
    intro L ha hb
    induction L with
    | zero => rw [show len = 0 by omega]
    | succ L ih =>
      by_cases he : len = L + 1
      · rw [he]
      · rw [Prefix.below_succ, ih (by omega) (by omega), hn (L + 1) (by omega) hb]; simp
  have h2 := h1 15 h.le15 (Nat.le_refl _)
  rw [Prefix.below_full 15 lens hk.le, hk.full, ← Prefix.first_weight lens h.le15, cnt_eq h.one] at h2
  have h3 : (2 : Nat) ^ 15 = 2 ^ len * 2 ^ (15 - len) := by rw [← pow_add]; congr 1; have := h.le15; omega
  rw [h3] at h2
  have h4 := Nat.eq_of_mul_eq_mul_right (Nat.two_pow_pos _) h2
  have h5 := h.pos
  have h6 := h.le
  have h7 := Nat.two_pow_pos len
  exact hl ((all_ones h.lt (h.code_lt hk) h.eq).2 (by omega))

theorem mainLoop_total (hk : Complete lens) {results sorted : List Nat} (hr : lens.length ≤ results.length)
    (hs : ∀ s < lens.length, sorted[startOf lens (lens.getD s 0) + rank lens s]? = some s) {T : Nat}
    (hsub : ∀ tb cw len count i, tb.length = size → At lens len cw count i → T < len → 2 ^ (len - T) ∣ Canon.first (cnt lens) len + (lens.count len - count) →
      count = lens.count len → (∀ l, T < l → l < len → lens.count l = 0) →
      ∃ tb', subLoop lens results sorted T tb cw len count i (2 ^ T) none 0 = .ok tb') {tb : List Nat} {len cw count i : Nat}
    (hsz : tb.length = size) (hsize : 2 ^ T ≤ size) (ha : At lens len cw count i) (hT : len ≤ T) :
    ∃ tb', mainLoop lens results sorted T tb cw len count i (2 ^ len) = .ok tb' := by
  obtain ⟨s, hc, hsi, hsl⟩ := ha.cur hs
  have hlt : i < sorted.length := (List.getElem?_eq_some_iff.1 hsi).1
  rw [List.getElem?_eq_getElem hlt] at hsi
  injection hsi with hsi
  rw [mainLoop, dif_pos hlt, hsi]
  have hv : tableEntry results s len = some (results[s]'(by omega) + (len <<< 8) + len) := by
    rw [tableEntry, List.getElem?_eq_getElem (by omega)]; rfl
  have h2 : 2 ^ len ≤ 2 ^ T := Nat.pow_le_pow_right (by decide) hT
  have hcw := ha.lt
  rw [hv]
  simp only
  rw [setAt_lt (by omega)]
  simp only
  split
  · obtain ⟨t', e1, -⟩ := doubles_le (T - len) (t := tb.set cw (results[s]'(by omega) + (len <<< 8) + len)) (e := 2 ^ len) (by
      rw [← pow_add, show T - len + len = T by omega, List.length_set, hsz]; exact hsize)
    exact ⟨t', e1⟩
  · rename_i hlast
    split
    · rename_i hcount
      exact mainLoop_total hk hr hs hsub (by rw [List.length_set, hsz]) hsize (ha.next_same hlast hcount) hT
    · rename_i hcount
      simp only [ne_eq, not_not] at hcount
      obtain ⟨t', e', len', count', e1, e2⟩ := advance_total (lens := lens) (T := T)
        (t := tb.set cw (results[s]'(by omega) + (len <<< 8) + len)) (e := 2 ^ len) (len := len) (by rw [Nat.min_eq_left hT])
        (by rw [List.length_set, hsz]; exact hsize) (ha.more hk hlast hcount)
      rw [e1]
      simp only
      obtain ⟨a1, a2, a3, a4, a5, a6, a7⟩ := advance_ok (by rw [Nat.min_eq_left hT]) e1
      subst a4
      have ha' := ha.next_len hlast hcount a1 a2 a3 a5
      rw [List.length_set, hsz] at e2
      split
      · rename_i hT'
        rw [Nat.min_eq_left hT'] at a6
        rw [a6]
        exact mainLoop_total hk hr hs hsub e2 hsize ha' hT'
      · rename_i hT'
        rw [Nat.one_shiftLeft]
        refine hsub _ _ _ _ _ e2 ha' (by omega) ?_ rfl (fun l x y => a3 l (by omega) y)
        rw [Nat.sub_self, Nat.add_zero, (first_gap a1 a3).1]
        exact Dvd.dvd.mul_left (Nat.pow_dvd_pow 2 (by omega)) _
termination_by sorted.length - i

/-! ### Subtables -/

/-- Entries that may be lost below level `d` of subtables. -/
def waste (d : Nat) : Nat := 2 ^ d - 1 - d

theorem waste_succ (d : Nat) : waste (d + 1) = waste d + (2 ^ d - 1) := by
  have : d < 2 ^ d := Nat.lt_two_pow_self
  simp only [waste, pow_succ]
  omega

theorem waste_mono {a b : Nat} (h : a ≤ b) : waste a ≤ waste b := by
  induction b with
  | zero => rw [Nat.le_zero.1 h]
  | succ b ih =>
    rcases Nat.lt_or_ge b a with h1 | h1
    · rw [show a = b + 1 by omega]
    · rw [waste_succ]; have := ih h1; omega

theorem first_mono {l l' : Nat} (h : l ≤ l') : Canon.first (cnt lens) l * 2 ^ (l' - l) ≤ Canon.first (cnt lens) l' := by
  induction l' with
  | zero => rw [Nat.le_zero.1 h]; simp
  | succ k ih =>
    rcases Nat.lt_or_ge k l with h1 | h1
    · rw [show l = k + 1 by omega]; simp
    · rw [Canon.first, show k + 1 - l = k - l + 1 by omega, pow_succ]
      have := ih h1
      calc _ = 2 * (Canon.first (cnt lens) l * 2 ^ (k - l)) := by ring
        _ ≤ _ := Nat.mul_le_mul_left _ (by omega)

/-- The size of a subtable: it exists, is least, and loses few entries. -/
theorem growBits_total (hk : Complete lens) {T len c i1 : Nat} (hT : T < len) (hmul : 2 ^ (len - T) ∣ c) (hc : c < 2 ^ len) {b used : Nat}
    (hb : len ≤ T + b) (h15 : T + b ≤ 15) (hu : used + c * 2 ^ (T + b - len) = Canon.first (cnt lens) (T + b) + cnt lens (T + b))
    (hmin : len = T + b ∨ Canon.first (cnt lens) (T + b) < c * 2 ^ (T + b - len) + 2 ^ b)
    {z : Nat} (hw : used + i1 ≤ startOf lens (T + b + 1) + z) :
    ∃ bits used', growBits lens T b used = some bits ∧ b ≤ bits ∧ T + bits ≤ 15 ∧ 2 ^ bits ≤ used' ∧
      used' + c * 2 ^ (T + bits - len) = Canon.first (cnt lens) (T + bits) + cnt lens (T + bits) ∧
      (len = T + bits ∨ Canon.first (cnt lens) (T + bits) < c * 2 ^ (T + bits - len) + 2 ^ bits) ∧
      used' + i1 + waste b ≤ startOf lens (T + bits + 1) + z + waste bits := by
  unfold growBits
  rw [Nat.one_shiftLeft]
  split
  · rename_i hlt
    have h15' : ¬ b + 1 + T > 15 := by
      intro hgt
      have hTb : T + b = 15 := by omega
      rw [hTb] at hu
      have e1 := Prefix.first_weight lens (N := 15) (L := 15) (Nat.le_refl _)
      rw [Prefix.below_full 15 lens hk.le, hk.full, Nat.sub_self, pow_zero, Nat.mul_one] at e1
      obtain ⟨m, rfl⟩ := hmul
      have hm : m < 2 ^ T := by
        have : 2 ^ (len - T) * m < 2 ^ (len - T) * 2 ^ T := by rw [← pow_add, show len - T + T = len by omega]; exact hc
        exact Nat.lt_of_mul_lt_mul_left this
      have e2 : 2 ^ (len - T) * m * 2 ^ (15 - len) = 2 ^ b * m := by
        rw [show b = (len - T) + (15 - len) by omega, pow_add]; ring
      have e3 : (2 : Nat) ^ 15 = 2 ^ b * 2 ^ T := by rw [← pow_add]; congr 1; omega
      have e4 : 2 ^ b * (m + 1) ≤ 2 ^ b * 2 ^ T := Nat.mul_le_mul_left _ hm
      rw [e1, e2, e3] at hu
      rw [Nat.mul_add, Nat.mul_one] at e4
      omega
    rw [if_neg h15']
    have hu' : (used <<< 1) + lens.count (T + (b + 1)) + c * 2 ^ (T + (b + 1) - len) =
        Canon.first (cnt lens) (T + (b + 1)) + cnt lens (T + (b + 1)) := by
      rw [show T + (b + 1) = T + b + 1 by omega, Canon.first, ← hu, show T + b + 1 - len = T + b - len + 1 by omega, pow_succ,
          cnt_eq (by omega), Nat.shiftLeft_eq]
      ring
    obtain ⟨bits, used', a1, a2, a3, a4, a5, a6, a7⟩ := growBits_total hk (b := b + 1) (used := (used <<< 1) + lens.count (T + (b + 1))) (i1 := i1)
      (z := z + (2 ^ b - 1)) hT hmul hc (by omega) (by omega) hu'
      (by
        right
        rw [show T + (b + 1) = T + b + 1 by omega, Canon.first, ← hu, show T + b + 1 - len = T + b - len + 1 by omega, pow_succ, pow_succ]
        have : 2 * (used + c * 2 ^ (T + b - len)) = 2 * used + c * (2 ^ (T + b - len) * 2) := by ring
        omega)
      (by
        rw [show T + (b + 1) + 1 = (T + b + 1) + 1 by omega, startOf_succ, Nat.shiftLeft_eq, show T + (b + 1) = T + b + 1 by omega]
        omega)
    rw [waste_succ] at a7
    exact ⟨bits, used', a1, by omega, a3, a4, a5, a6, by omega⟩
  · rename_i hlt
    exact ⟨b, used, rfl, Nat.le_refl _, h15, by omega, hu, hmin, by omega⟩
termination_by 16 - (T + b)

/-- The place of a symbol among the sorted ones. -/
def place (lens : List Nat) (s : Nat) : Nat := startOf lens (lens.getD s 0) + rank lens s

theorem At.place {len cw count i : Nat} (h : At lens len cw count i) {s : Nat} (hc : Cur lens len cw count s) : i = place lens s := by
  have h1 := h.idx
  have h2 := h.le
  rw [startOf_succ] at h1
  rw [Inflate.place, hc.leq, hc.rk]
  omega

/-- The invariant for the room in the table.  `B` bounds the end of the table. -/
structure RoomInv (lens : List Nat) (T len count i e : Nat) (pfx : Option Nat) (B : Nat) : Prop where
  even : e % 2 = 0
  fresh : pfx = none → 2 ^ (len - T) ∣ Canon.first (cnt lens) len + (lens.count len - count) ∧
    e + lens.length + waste (15 - T) ≤ B + i + waste (len - T)
  going : ∀ q, pfx = some q → ∃ s0 L iend, Done lens len count s0 ∧ T < lens.getD s0 0 ∧ slot lens T s0 = q ∧ T < L ∧ L ≤ 15 ∧ iend ≤ lens.length ∧
    (∀ s, Used lens s → T < lens.getD s 0 → pn lens T s0 < pn lens T s → iend ≤ place lens s ∧ L ≤ lens.getD s 0) ∧
    e + lens.length + waste (15 - T) ≤ B + iend + waste (L - T) ∧
    (pn lens T s0 ≠ (Canon.first (cnt lens) len + (lens.count len - count)) / 2 ^ (len - T) →
      2 ^ (len - T) ∣ Canon.first (cnt lens) len + (lens.count len - count))

/-- The state after the check for a new subtable. -/
theorem RoomInv.ready (hk : Complete lens) {T len cw count i s e start size B : Nat} {pfx : Option Nat} {tb : List Nat} (hsz : tb.length = size)
    (hsize : 2 ^ T ≤ size) (ha : At lens len cw count i)
    (hc : Cur lens len cw count s) (hT : T < len) (hI : RoomInv lens T len count i e pfx B) :
    ∃ tb' e' start' L iend,
      (if pfx ≠ some (slot lens T s) then newSub lens T tb (slot lens T s) e len count else .ok (tb, e, start)) = .ok (tb', e', start') ∧
      tb'.length = size ∧ e' % 2 = 0 ∧ T < L ∧ L ≤ 15 ∧ iend ≤ lens.length ∧
      (∀ s', Used lens s' → T < lens.getD s' 0 → pn lens T s < pn lens T s' → iend ≤ Inflate.place lens s' ∧ L ≤ lens.getD s' 0) ∧
      e' + lens.length + waste (15 - T) ≤ B + iend + waste (L - T) := by
  have hll := hc.leq
  have hce := hc.ceq
  have hpl := ha.place hc
  have h15 := ha.le15
  have h1 := ha.one
  have h2 := ha.pos
  have h3 := ha.le
  by_cases hne : pfx ≠ some (slot lens T s)
  · rw [if_pos hne]
    have hready : 2 ^ (len - T) ∣ code lens s ∧ e + lens.length + waste (15 - T) ≤ B + i + waste (len - T) := by
      cases hp : pfx with
      | none => rw [hce]; exact hI.fresh hp
      | some q =>
        obtain ⟨s0, L, iend, b1, b2, b3, b4, b5, b6, b7, b8, b9⟩ := hI.going q hp
        have hpn : pn lens T s0 ≠ pn lens T s := by
          intro h
          apply hne
          rw [hp, ← b3, slot_of_pn (by omega) (by omega) h]
        have hle := pn_mono hk hc hT b1 b2
        obtain ⟨c1, c2⟩ := b7 s hc.used (by omega) (by omega)
        rw [hll] at c2
        refine ⟨?_, ?_⟩
        · rw [hce]
          apply b9
          rw [← hce, ← hll]
          exact hpn
        · have := waste_mono (show L - T ≤ len - T by omega)
          omega
    obtain ⟨hmul, hroom⟩ := hready
    have e0 : T + (len - T) = len := by omega
    have hclt : code lens s < 2 ^ len := by rw [hce]; exact ha.code_lt hk
    obtain ⟨bits, used', g1, g2, g3, g4, g5, g6, g7⟩ := growBits_total hk (i1 := i) (z := 0) hT hmul hclt (b := len - T) (used := count) (by omega)
      (by omega) (by rw [e0, Nat.sub_self, pow_zero, Nat.mul_one, hce, cnt_eq h1]; omega) (Or.inl e0.symm)
      (by rw [e0]; have := ha.idx; omega)
    have hslot := slot_lt (lens := lens) (T := T) (t := s) (by omega)
    obtain ⟨m, hm⟩ := hmul
    have hpnm : pn lens T s = m := by rw [pn, hll, hm, Nat.mul_div_cancel_left _ (Nat.two_pow_pos _)]
    have hcm : code lens s * 2 ^ (T + bits - len) = m * 2 ^ bits := by
      rw [hm, show 2 ^ bits = 2 ^ (len - T) * 2 ^ (T + bits - len) by rw [← pow_add]; congr 1; omega]; ring
    have hcn := Nat.le_of_eq g5
    rw [cnt_eq (show 1 ≤ T + bits by omega)] at g5 hcn
    have hst := startOf_succ lens (T + bits)
    refine ⟨tb.set (slot lens T s) (pointer e bits T), e + 2 ^ bits, e, T + bits, startOf lens (T + bits + 1) - (used' - 2 ^ bits), ?_, ?_, ?_, by omega, g3, ?_, ?_, ?_⟩
    · rw [newSub, g1]
      simp only
      rw [setAt_lt (by omega), Nat.one_shiftLeft]
    · rw [List.length_set, hsz]
    · have := hI.even
      obtain ⟨k, rfl⟩ := Nat.exists_eq_add_of_lt (show 0 < bits by omega)
      rw [show 0 + k + 1 = k + 1 by omega, pow_succ]
      omega
    · have := startOf_le lens (T + bits + 1); omega
    · intro s' hs' hlong hlt
      rw [hpnm] at hlt
      have hcode : (m + 1) * 2 ^ (lens.getD s' 0 - T) ≤ code lens s' :=
        (Nat.le_div_iff_mul_le (Nat.two_pow_pos _)).1 hlt
      have h15' : lens.getD s' 0 ≤ 15 := hk.le _ (getD_mem (Prefix.used_lt hs'))
      have hL : T + bits ≤ lens.getD s' 0 := by
        by_contra hgt
        rcases g6 with g6 | g6
        · have : Done lens len count s' := ⟨hs', Or.inl (by omega)⟩
          have := pn_mono hk hc hT this hlong
          rw [hpnm] at this
          omega
        · have hcl := (Prefix.code_lt hk.le (le_of_eq hk.full) hs').1
          have hst' := Canon.start_le (cnt := cnt lens) (T + bits) (show lens.getD s' 0 < T + bits by omega) (Nat.le_refl _)
          simp only [Nat.sub_self, pow_zero, Nat.mul_one] at hst'
          have e1 : (m + 1) * 2 ^ bits ≤ code lens s' * 2 ^ (T + bits - lens.getD s' 0) := by
            calc (m + 1) * 2 ^ bits = (m + 1) * 2 ^ (lens.getD s' 0 - T) * 2 ^ (T + bits - lens.getD s' 0) := by
                  rw [Nat.mul_assoc, ← pow_add]; congr 2; omega
              _ ≤ _ := Nat.mul_le_mul_right _ hcode
          have e2 : code lens s' * 2 ^ (T + bits - lens.getD s' 0) ≤
              (Canon.first (cnt lens) (lens.getD s' 0) + cnt lens (lens.getD s' 0)) * 2 ^ (T + bits - lens.getD s' 0) :=
            Nat.mul_le_mul_right _ (by omega)
          rw [hcm] at g6
          rw [Nat.add_mul, Nat.one_mul] at e1
          omega
      refine ⟨?_, hL⟩
      rcases Nat.lt_or_ge (T + bits) (lens.getD s' 0) with h | h
      · have := startOf_mono lens h
        rw [Inflate.place]; omega
      · have hEq : lens.getD s' 0 = T + bits := by omega
        rw [hEq, show T + bits - T = bits by omega, code, hEq] at hcode
        rw [Inflate.place, hEq]
        rw [Nat.add_mul, Nat.one_mul] at hcode
        rw [hcm] at g5
        omega
    · rw [show T + bits - T = bits by omega]
      have := startOf_le lens (T + bits + 1)
      have hx : used' - 2 ^ bits ≤ startOf lens (T + bits + 1) := by
        have : used' - 2 ^ bits ≤ lens.count (T + bits) ∨ len = T + bits := by
          rcases g6 with g6 | g6
          · exact Or.inr g6
          · left; omega
        rcases this with h | h
        · omega
        · rw [← h, Nat.sub_self, pow_zero, Nat.mul_one, hce] at g5
          rw [← h] at hst ⊢
          have := Nat.two_pow_pos bits
          omega
      omega
  · simp only [ne_eq, not_not] at hne
    rw [if_neg (by simpa using hne)]
    obtain ⟨s0, L, iend, b1, b2, b3, b4, b5, b6, b7, b8, b9⟩ := hI.going _ hne
    have := slot_inj hk b1.1 hc.used (by omega) (by omega) b3
    rw [this] at b7
    exact ⟨tb, e, start, L, iend, rfl, hsz, hI.even, b4, b5, b6, b7, b8⟩

theorem subLoop_total (hk : Complete lens) {results sorted : List Nat} (hr : lens.length ≤ results.length)
    (hs : ∀ s < lens.length, sorted[startOf lens (lens.getD s 0) + rank lens s]? = some s) {T size B : Nat} (hsize : 2 ^ T ≤ size)
    (hB : ∀ e, e % 2 = 0 → e ≤ B → e ≤ size) {tb : List Nat} {len cw count i e start : Nat}
    {pfx : Option Nat} (hsz : tb.length = size) (ha : At lens len cw count i) (hT : T < len) (hI : RoomInv lens T len count i e pfx B) :
    ∃ tb', subLoop lens results sorted T tb cw len count i e pfx start = .ok tb' := by
  obtain ⟨s, hc, hsi, hsl⟩ := ha.cur hs
  obtain ⟨q1, q2⟩ := slot_cur hc hT
  obtain ⟨tb1, e1, start1, L, iend, h1, h2, h3, h4, h5, h6, h7, h8⟩ := hI.ready (start := start) hk hsz hsize ha hc hT
  have hlt : i < sorted.length := (List.getElem?_eq_some_iff.1 hsi).1
  rw [List.getElem?_eq_getElem hlt] at hsi
  injection hsi with hsi
  rw [subLoop]
  simp only [q1, h1]
  rw [dif_pos hlt, hsi]
  have hv : tableEntry results s (len - T) = some (results[s]'(by omega) + ((len - T) <<< 8) + (len - T)) := by
    rw [tableEntry, List.getElem?_eq_getElem (by omega)]; rfl
  rw [hv]
  simp only
  have hfill : e1 ≤ tb1.length := by
    rw [h2]
    apply hB e1 h3
    have := waste_mono (show L - T ≤ 15 - T by omega)
    omega
  obtain ⟨tb2, f1, f2⟩ := fillFrom_total (t := tb1) (j := start1 + cw >>> T) (k := len - T) (e := e1)
    (v := results[s]'(by omega) + ((len - T) <<< 8) + (len - T)) hfill
  rw [f1]
  simp only
  rw [Nat.one_shiftLeft]
  split
  · exact ⟨tb2, rfl⟩
  · rename_i hlast
    obtain ⟨len', count', hn⟩ := nextLen_total (lens := lens) (len := len) (c := count - 1) (ha.more hk hlast)
    rw [hn]
    simp only
    have key : At lens len' (nextWord cw (2 ^ len)) count' (i + 1) ∧ Done lens len' count' s ∧ T < len' ∧
        (Canon.first (cnt lens) len + (lens.count len - count) + 1) * 2 ^ (len' - len) = Canon.first (cnt lens) len' + (lens.count len' - count') ∧ len ≤ len' := by
      have hp := ha.pos
      have hle := ha.le
      have hr := hc.rk
      rcases nextLen_ok hn with ⟨a, rfl, rfl⟩ | ⟨a, b, c, d, e, f⟩
      · exact ⟨ha.next_same hlast a, ⟨hc.used, Or.inr ⟨hc.leq, by omega⟩⟩, hT, by rw [Nat.sub_self]; omega, Nat.le_refl _⟩
      · subst e
        refine ⟨ha.next_len hlast a b c d f, ⟨hc.used, Or.inl (by rw [hc.leq]; exact b)⟩, by omega, ?_, by omega⟩
        rw [(first_gap b d).1, Nat.sub_self, Nat.add_zero, cnt_eq ha.one]
        congr 1; omega
    obtain ⟨ha', hds, hT', hcode, hlen⟩ := key
    refine subLoop_total hk hr hs hsize hB (by rw [f2, h2]) ha' hT' ⟨h3, by simp, ?_⟩
    intro q hq
    injection hq with hq
    subst hq
    have hll := hc.leq
    refine ⟨s, L, iend, hds, by omega, rfl, h4, h5, h6, h7, h8, ?_⟩
    intro hne
    rw [← hcode] at hne ⊢
    rw [← hc.ceq] at hne ⊢
    have hdv : 2 ^ (len - T) ∣ code lens s + 1 := by
      by_contra hnd
      apply hne
      rw [pn, hll, show len' - T = len' - len + (len - T) by omega, pow_add, ← Nat.div_div_eq_div_mul, Nat.mul_div_cancel _ (Nat.two_pow_pos _)]
      rw [Nat.succ_div, if_neg hnd]; rfl
    rw [show len' - T = len - T + (len' - len) by omega, pow_add]
    exact Nat.mul_dvd_mul_right hdv _
termination_by sorted.length - i

/-- The construction succeeds when the table has room: `B` is the room that suffices. -/
theorem buildTable_total (hk : Complete lens) (hn : lens.length ≤ 288) {results : List Nat} (hr : lens.length ≤ results.length) {size T B : Nat}
    (hsize : 2 ^ T ≤ size) (hT1 : 1 ≤ T) (hB : ∀ e, e % 2 = 0 → e ≤ B → e ≤ size)
    (hroom : (∃ s, Used lens s ∧ T < lens.getD s 0) → 2 ^ T + lens.length + waste (15 - T) ≤ B + startOf lens (T + 1)) :
    ∃ tb, buildTable lens results size T = .ok tb := by
  obtain ⟨offs, sorted, e1, e2, e3, e4⟩ := sorted_spec hk.le hn
  obtain ⟨c1, c2⟩ := codespace_weight hk.le
  have hw : codespace lens (maxLen lens 15) = 2 ^ maxLen lens 15 := by
    rw [c1]; exact Prefix.complete_of hk.le hk.full c2
  rw [buildTable]
  simp only [e1, hw, Nat.one_shiftLeft, gt_iff_lt, Nat.lt_irrefl, if_false, e2]
  obtain ⟨a, b, c, d, e⟩ := firstLen_ok (lens := lens) (len := 1) hk.nonzero
  generalize firstLen lens 1 = r at a b c d e
  obtain ⟨len, count⟩ := r
  simp only at a b c d e ⊢
  subst c
  have hfirst : Canon.first (cnt lens) len = 0 ∧ startOf lens len = lens.count 0 := by
    have := first_gap (lens := lens) (len := 0) (len' := len) (by omega) (fun l x y => e l (by omega) y)
    rw [this.1, this.2]
    simp [Canon.first, cnt, startOf]
  have ha : At lens len 0 (lens.count len) (lens.count 0) := by
    refine ⟨a, b, by omega, Nat.le_refl _, by rw [startOf_succ, hfirst.2], Nat.two_pow_pos _, ?_⟩
    rw [hfirst.1, Nat.sub_self, Nat.add_zero, msb, lsb_zero, List.reverse_replicate]
  have hsub : ∀ tb cw len count i, tb.length = size → At lens len cw count i → T < len →
      2 ^ (len - T) ∣ Canon.first (cnt lens) len + (lens.count len - count) →
      count = lens.count len → (∀ l, T < l → l < len → lens.count l = 0) →
      ∃ tb', subLoop lens results sorted T tb cw len count i (2 ^ T) none 0 = .ok tb' := by
    intro tb cw len count i h1 h2 h3 h4 h5 h6
    obtain ⟨s, hc, -, -⟩ := h2.cur e4
    have h7 := hroom ⟨s, hc.used, by rw [hc.leq]; exact h3⟩
    have h8 := h2.idx
    have h9 := (first_gap (lens := lens) h3 h6).2
    rw [startOf_succ] at h8
    refine subLoop_total hk hr e4 hsize hB h1 h2 h3 ⟨?_, fun _ => ⟨h4, by omega⟩, by simp⟩
    obtain ⟨k, rfl⟩ := Nat.exists_eq_add_of_le hT1
    rw [pow_add]; omega
  split
  · rename_i hT
    exact mainLoop_total hk hr e4 hsub (by simp) hsize ha hT
  · rename_i hT
    refine hsub _ _ _ _ _ (by simp) ha (by omega) ?_ rfl (fun l x y => e l (by omega) y)
    rw [hfirst.1, Nat.sub_self]
    exact Nat.dvd_zero _

/-! ### Room for the codes of DEFLATE -/

theorem weight_split (N T : Nat) (hT : T < N) (lens : List Nat) :
    weight N lens ≤ Prefix.below N lens T + (lens.length - startOf lens (T + 1)) * 2 ^ (N - (T + 1)) := by
  have h : ∀ lens : List Nat, weight N lens ≤ Prefix.below N lens T + lens.countP (T < ·) * 2 ^ (N - (T + 1)) := by
    intro lens
    induction lens with
    | nil => simp [weight, Prefix.below]
    | cons l lens ih =>
      rw [Prefix.weight_cons, List.countP_cons]
      simp only [Prefix.below, List.map_cons, List.sum_cons] at ih ⊢
      rcases Nat.lt_or_ge T l with h1 | h1
      · have : 2 ^ (N - l) ≤ 2 ^ (N - (T + 1)) := Nat.pow_le_pow_right (by decide) (by omega)
        simp only [h1, or_true, if_true, decide_true, Nat.add_mul, Nat.one_mul, show l ≠ 0 by omega, if_false]
        omega
      · simp only [show ¬ T < l by omega, or_false, decide_false, Bool.false_eq_true, if_false, Nat.add_zero]
        omega
  have h2 : lens.countP (T < ·) + startOf lens (T + 1) = lens.length := by
    rw [startOf_eq]
    rw [List.length_eq_countP_add_countP (fun x => decide (T < x))]
    congr 1
    apply List.countP_congr
    intro x _
    simp
    omega
  refine le_trans (h lens) ?_
  apply Nat.add_le_add_left
  apply Nat.mul_le_mul_right
  omega

/-- A code with a long codeword leaves room for it: the short ones do not fill the code space. -/
theorem below_lt {N T : Nat} {lens : List Nat} (h : ∃ l ∈ lens, T < l) : Prefix.below N lens T < weight N lens := by
  obtain ⟨l, hm, hl⟩ := h
  obtain ⟨a, b, rfl⟩ := List.append_of_mem hm
  have h1 := Prefix.below_le N a T
  have h2 := Prefix.below_le N b T
  have hp := Nat.two_pow_pos (N - l)
  rw [Prefix.weight_append, Prefix.weight_cons, if_neg (by omega)]
  simp only [Prefix.below, List.map_append, List.sum_append, List.map_cons, List.sum_cons, hl, or_true, if_true] at *
  omega

/-- At most 284 codewords of a literal/length code need a subtable. -/
theorem litlen_long (hk : Complete lens) (hn : lens.length ≤ 288) (h : ∃ s, Used lens s ∧ 11 < lens.getD s 0) :
    lens.length ≤ startOf lens 12 + 284 := by
  obtain ⟨s, hs, hl⟩ := h
  have h1 := weight_split 15 11 (by omega) lens
  have h2 := below_lt (N := 15) (T := 11) ⟨_, getD_mem (Prefix.used_lt hs), hl⟩
  rw [hk.full] at h1 h2
  by_contra hgt
  have e : ∀ L, 2 ≤ L → L ≤ 15 → Prefix.below 15 lens L + startOf lens 3 * 4096 ≤ Prefix.below 15 lens 2 + startOf lens (L + 1) * 4096 := by
    intro L h2 h15
    induction L with
    | zero => omega
    | succ L ih =>
      rcases Nat.lt_or_ge L 2 with h | h
      · rw [show L = 1 by omega]
      · have h3 := ih h (by omega)
        have h4 : 2 ^ (15 - (L + 1)) ≤ 4096 := by
          rw [show 4096 = 2 ^ 12 by rfl]
          exact Nat.pow_le_pow_right (by decide) (by omega)
        have h5 := Nat.mul_le_mul_left (lens.count (L + 1)) h4
        rw [Prefix.below_succ, startOf_succ lens (L + 1)]
        omega
  have e11 := e 11 (by decide) (by decide)
  have e0 : Prefix.below 15 lens 0 = 0 := by
    have := Prefix.first_weight lens (N := 15) (L := 0) (by omega)
    rw [← this]; simp [Canon.first, cnt]
  have e1 : Prefix.below 15 lens 1 = lens.count 1 * 16384 := by rw [Prefix.below_succ, e0]; simp
  have e2 : Prefix.below 15 lens 2 = lens.count 1 * 16384 + lens.count 2 * 8192 := by rw [Prefix.below_succ, e1]; rfl
  have s3 : startOf lens 3 = startOf lens 1 + lens.count 1 + lens.count 2 := by rw [startOf_succ, startOf_succ]
  have mono : Prefix.below 15 lens 2 ≤ Prefix.below 15 lens 11 := by
    have : ∀ L, 2 ≤ L → Prefix.below 15 lens 2 ≤ Prefix.below 15 lens L := by
      intro L hL
      induction L with
      | zero => omega
      | succ L ih =>
        rcases Nat.lt_or_ge L 2 with h | h
        · rw [show L = 1 by omega]
        · have h6 := Prefix.below_succ 15 lens L
          have := ih h
          omega
    exact this 11 (by decide)
  rw [show 11 + 1 = 12 from rfl, show 2 ^ (15 - 12) = 8 from rfl] at *
  rw [e2] at e11 mono
  rw [s3] at e11
  rw [show 2 ^ 15 = 32768 from rfl] at *
  omega

theorem litlen_total (hk : Complete lens) (hn : lens.length ≤ 288) {results : List Nat} (hr : lens.length ≤ results.length) :
    ∃ tb, buildTable lens results 2342 11 = .ok tb := by
  apply buildTable_total hk hn hr (B := 2343) (by decide) (by decide) (by omega)
  intro h
  have := litlen_long hk hn h
  rw [show waste (15 - 11) = 11 from rfl, show 11 + 1 = 12 from rfl, show 2 ^ 11 = 2048 from rfl]
  omega

theorem offset_total (hk : Complete lens) (hn : lens.length ≤ 32) {results : List Nat} (hr : lens.length ≤ results.length) :
    ∃ tb, buildTable lens results 512 8 = .ok tb := by
  apply buildTable_total hk (by omega) hr (B := 512) (by decide) (by decide) (by omega)
  intro h
  have : waste (15 - 8) = 120 := rfl
  omega

theorem precode_total (hk : Complete lens) (h7 : ∀ l ∈ lens, l ≤ 7) (hn : lens.length ≤ 19) {results : List Nat} (hr : lens.length ≤ results.length) :
    ∃ tb, buildTable lens results 128 7 = .ok tb := by
  apply buildTable_total hk (by omega) hr (B := 128) (by decide) (by decide) (by omega)
  rintro ⟨s, hs, hl⟩
  have := h7 _ (getD_mem (Prefix.used_lt hs))
  omega

end

end Zune.Inflate
