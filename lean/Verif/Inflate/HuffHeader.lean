/-
The decoder reads the header of a dynamic block as RFC 1951 has it, and its tables are those of the two codes.
-/
import Verif.Inflate.HuffFast

namespace Zune.Inflate

open Prefix (Used word weight)
open Rfc1951 (bitsAt Lengths Header lengthsFrom)

theorem Lengths.total {pl : List Nat} {total : Nat} {bits rest : List Bool} {lens all : List Nat} (h : Lengths pl total bits lens rest all) :
    lens.length ≤ total ∧ all.length = total := by
  induction h with
  | stop _ _ h => exact ⟨by omega, h⟩
  | plain s _ _ _ ih => simp only [List.length_append, List.length_singleton] at ih; omega
  | again x v _ _ _ _ ih => simp only [List.length_append, List.length_replicate] at ih; omega
  | zeros x _ _ _ ih => simp only [List.length_append, List.length_replicate] at ih; omega
  | manyZeros x _ _ _ ih => simp only [List.length_append, List.length_replicate] at ih; omega

theorem fillLens_ok {L done : List Nat} {i n v : Nat} (hL : i + n ≤ L.length) (hi : done.length = i) (hd : L.take i = done) :
    ∃ L', fillLens L i n v = .ok L' ∧ L'.length = L.length ∧ ∀ m ≤ n, L'.take (i + m) = done ++ List.replicate m v := by
  refine ⟨_, by rw [fillLens, if_pos hL], ?_, ?_⟩
  · simp only [List.length_append, List.length_take, List.length_replicate, List.length_drop]
    omega
  · intro m hm
    rw [hd, List.append_assoc, List.take_append, hi, List.take_of_length_le (by omega), show i + m - i = m by omega,
      List.take_append_of_le_length (by rw [List.length_replicate]; exact hm), List.take_replicate, Nat.min_eq_left hm]

/-- Reading a symbol of the code of lengths. -/
theorem presym_ok {pl table : List Nat} (ht : Tab pl precodeResults table 7 128) (h7 : ∀ l ∈ pl, l ≤ 7) (hn : pl.length ≤ 19) {b : Bits} {p s : Nat}
    {bits : List Bool} (h : b.Ok p) (hp : p ≤ 8 * b.src.length) (hu : Used pl s) (hb : bitsAt b.src p = word pl s ++ bits) :
    ∃ e, table[(if b.left < 7 + 7 then b.refill else b).peek 7]? = some e ∧ e % 256 = pl.getD s 0 ∧ e >>> 16 = s ∧ pl.getD s 0 ≤ 7 ∧
      14 ≤ (if b.left < 7 + 7 then b.refill else b).left ∧
      ((if b.left < 7 + 7 then b.refill else b).drop (pl.getD s 0)).Ok (p + pl.getD s 0) ∧
      7 ≤ ((if b.left < 7 + 7 then b.refill else b).drop (pl.getD s 0)).left ∧
      ((if b.left < 7 + 7 then b.refill else b).drop (pl.getD s 0)).src = b.src ∧
      bitsAt b.src (p + pl.getD s 0) = bits ∧ p + pl.getD s 0 ≤ 8 * b.src.length := by
  obtain ⟨c, hc, c1, c2, c3⟩ : ∃ c, (if b.left < 7 + 7 then b.refill else b) = c ∧ c.Ok p ∧ 14 ≤ c.left ∧ c.src = b.src := by
    split
    · obtain ⟨a1, a2, a3, _⟩ := Bits.refill_ok b p h
      exact ⟨_, rfl, a1, by omega, a3⟩
    · exact ⟨_, rfl, h, by omega, rfl⟩
  rw [hc]
  obtain ⟨f1, f2, f3⟩ := front_word hp hb
  have hs := Prefix.used_lt hu
  have hl7 := h7 _ (getD_mem hs)
  rcases ht.read s _ _ hu (precode_plain_entry s (by omega)) f1 with ⟨a1, a2⟩ | ⟨a1, _⟩
  · obtain ⟨q1, q2, q3, _⟩ := Bits.drop_ok c p (pl.getD s 0) c1 (by omega)
    refine ⟨s * 65536 + 257 * pl.getD s 0, ?_, by omega, ?_, hl7, c2, q1, by omega, q3.trans c3, f2, f3⟩
    · rw [Bits.peek_ok c p 7 c1 (by omega), c3]
      exact a2
    · rw [Nat.shiftRight_eq_div_pow]
      omega
  · omega

/-- The loop over the code lengths. -/
theorem lensLoop_ok {pl table : List Nat} (ht : Tab pl precodeResults table 7 128) (h7 : ∀ l ∈ pl, l ≤ 7) (hn : pl.length ≤ 19) {src : List UInt8}
    {total : Nat} (htot : total ≤ 320) {bits rest : List Bool} {done all : List Nat} (h : Lengths pl total bits done rest all) :
    ∀ (fuel : Nat) (b : Bits) (L : List Nat) (p : Nat), total < done.length + fuel → b.Ok p → b.src = src → p ≤ 8 * src.length → bitsAt src p = bits →
      L.length = 457 → L.take done.length = done →
      ∃ b' L' p', lensLoop table total fuel b L done.length = .ok (b', L') ∧ b'.Ok p' ∧ b'.src = src ∧ p' ≤ 8 * src.length ∧ bitsAt src p' = rest ∧
        L'.take total = all := by
  induction h with
  | stop bits lens hl =>
    intro fuel b L p hf h hs hp hb hL ht
    cases fuel with
    | zero => omega
    | succ fuel =>
      rw [lensLoop, if_pos (by omega)]
      exact ⟨_, _, p, rfl, h, hs, hp, hb, hl ▸ ht⟩
  | @plain s bits rest lens all hs16 hu hrec ih =>
    intro fuel b L p hf h hs hp hb hL hLt
    subst hs
    have htot := (Lengths.total hrec).1
    rw [List.length_append, List.length_singleton] at htot
    obtain ⟨e, e1, e2, e3, e4, e5, e6, e7, e8, e9, e10⟩ := presym_ok ht h7 hn h hp hu hb
    cases fuel with
    | zero => omega
    | succ fuel =>
      obtain ⟨L1, g1, g2, g3⟩ := fillLens_ok (n := 1) (v := s) (by omega) rfl hLt
      rw [lensLoop, if_neg (by omega), lensStep]
      simp only
      rw [e1]
      simp only
      rw [e2, e3, if_neg (by omega), if_pos hs16, g1]
      have := ih fuel _ L1 _ (by rw [List.length_append, List.length_singleton]; omega) e6 e8 e10 e9 (by omega)
        (by rw [List.length_append, List.length_singleton]; exact g3 1 (le_refl 1))
      rw [List.length_append, List.length_singleton] at this
      exact this
  | @again x v bits rest lens all hv hx hu hrec ih =>
    intro fuel b L p hf h hs hp hb hL hLt
    subst hs
    have htot := (Lengths.total hrec).1
    rw [List.length_append, List.length_replicate] at htot
    obtain ⟨e, e1, e2, e3, e4, e5, e6, e7, e8, e9, e10⟩ := presym_ok ht h7 hn h hp hu hb
    obtain ⟨x1, x2, x3⟩ := front_lsb (n := 2) e10 e9 (by omega)
    obtain ⟨w1, w2, w3, w4, w5, w6⟩ := Bits.get_ok _ _ 2 e6 (by omega)
    rw [e8, x1] at w1
    have hne : lens ≠ [] := by
      rintro rfl
      exact absurd hv (by simp)
    have hpos : 0 < lens.length := List.length_pos_of_ne_nil hne
    have hprev : L[lens.length - 1]? = some v := by
      rw [← hv, List.getLast?_eq_getElem?]
      conv_rhs => rw [← hLt]
      rw [List.getElem?_take, if_pos (by rw [List.length_take]; omega)]
      congr 1
      rw [List.length_take]
      omega
    cases fuel with
    | zero => omega
    | succ fuel =>
      obtain ⟨L1, g1, g2, g3⟩ := fillLens_ok (n := 6) (v := v) (by omega) rfl hLt
      rw [lensLoop, if_neg (by omega), lensStep]
      simp only
      rw [e1]
      simp only
      rw [e2, e3, if_neg (by omega), if_neg (by decide), if_pos rfl, if_neg (by omega), if_neg (by omega), hprev]
      simp only
      rw [g1, w1]
      have := ih fuel _ L1 _ (by rw [List.length_append, List.length_replicate]; omega) w2 (w4.trans e8) x3 x2 (by omega)
        (by rw [List.length_append, List.length_replicate]; exact g3 (3 + x) (by omega))
      rw [List.length_append, List.length_replicate] at this
      exact this
  | @zeros x bits rest lens all hx hu hrec ih =>
    intro fuel b L p hf h hs hp hb hL hLt
    subst hs
    have htot := (Lengths.total hrec).1
    rw [List.length_append, List.length_replicate] at htot
    obtain ⟨e, e1, e2, e3, e4, e5, e6, e7, e8, e9, e10⟩ := presym_ok ht h7 hn h hp hu hb
    obtain ⟨x1, x2, x3⟩ := front_lsb (n := 3) e10 e9 (by omega)
    obtain ⟨w1, w2, w3, w4, w5, w6⟩ := Bits.get_ok _ _ 3 e6 (by omega)
    rw [e8, x1] at w1
    cases fuel with
    | zero => omega
    | succ fuel =>
      obtain ⟨L1, g1, g2, g3⟩ := fillLens_ok (n := 10) (v := 0) (by omega) rfl hLt
      rw [lensLoop, if_neg (by omega), lensStep]
      simp only
      rw [e1]
      simp only
      rw [e2, e3, if_neg (by omega), if_neg (by decide), if_neg (by decide), if_pos rfl, if_neg (by omega), g1, w1]
      have := ih fuel _ L1 _ (by rw [List.length_append, List.length_replicate]; omega) w2 (w4.trans e8) x3 x2 (by omega)
        (by rw [List.length_append, List.length_replicate]; exact g3 (3 + x) (by omega))
      rw [List.length_append, List.length_replicate] at this
      exact this
  | @manyZeros x bits rest lens all hx hu hrec ih =>
    intro fuel b L p hf h hs hp hb hL hLt
    subst hs
    have htot := (Lengths.total hrec).1
    rw [List.length_append, List.length_replicate] at htot
    obtain ⟨e, e1, e2, e3, e4, e5, e6, e7, e8, e9, e10⟩ := presym_ok ht h7 hn h hp hu hb
    obtain ⟨x1, x2, x3⟩ := front_lsb (n := 7) e10 e9 (by omega)
    obtain ⟨w1, w2, w3, w4, w5, w6⟩ := Bits.get_ok _ _ 7 e6 (by omega)
    rw [e8, x1] at w1
    cases fuel with
    | zero => omega
    | succ fuel =>
      obtain ⟨L1, g1, g2, g3⟩ := fillLens_ok (n := 11 + x) (v := 0) (by omega) rfl hLt
      rw [lensLoop, if_neg (by omega), lensStep]
      simp only
      rw [e1]
      simp only
      rw [e2, e3, if_neg (by omega), if_neg (by decide), if_neg (by decide), if_neg (by decide), if_neg (by omega), w1, g1]
      have := ih fuel _ L1 _ (by rw [List.length_append, List.length_replicate]; omega) w2 (w4.trans e8) x3 x2 (by omega)
        (by rw [List.length_append, List.length_replicate]; exact g3 (11 + x) (by omega))
      rw [List.length_append, List.length_replicate] at this
      exact this

/-- The loop over the lengths of the code length code. -/
theorem precodeLens_ok {src : List UInt8} {bits : List Bool} : ∀ (vs syms lens : List Nat) (b : Bits) (p : Nat), b.Ok p → b.src = src → p ≤ 8 * src.length →
    3 * vs.length ≤ b.left → bitsAt src p = vs.flatMap (lsb 3) ++ bits → syms.length = vs.length → (∀ v ∈ vs, v < 8) →
    ∃ b' p', precodeLens b syms lens = (b', (syms.zip vs).foldl (fun l x => l.set x.1 x.2) lens) ∧ b'.Ok p' ∧ b'.src = src ∧ p' ≤ 8 * src.length ∧
      bitsAt src p' = bits := by
  intro vs
  induction vs with
  | nil =>
    intro syms lens b p h hs hp _ hb hl _
    rw [List.eq_nil_of_length_eq_zero hl]
    exact ⟨b, p, rfl, h, hs, hp, hb⟩
  | cons v vs ih =>
    intro syms lens b p h hs hp hleft hb hl h8
    cases syms with
    | nil => simp at hl
    | cons s syms =>
      rw [List.flatMap_cons, List.append_assoc] at hb
      have hv := h8 v List.mem_cons_self
      rw [List.length_cons] at hleft
      obtain ⟨x1, x2, x3⟩ := front_lsb (n := 3) hp hb (by omega)
      obtain ⟨w1, w2, w3, w4, w5, w6⟩ := Bits.get_ok b p 3 h (by omega)
      rw [hs, x1] at w1
      obtain ⟨b', p', e1, e2⟩ := ih syms (lens.set s v) _ _ w2 (w4.trans hs) x3 (by omega) x2 (by simpa using hl)
        (fun v hv => h8 v (List.mem_cons_of_mem _ hv))
      refine ⟨b', p', ?_, e2⟩
      rw [precodeLens, w1, e1]
      rfl

theorem sets_get : ∀ (ks v L : List Nat) (s : Nat), ks.Nodup → (∀ k ∈ ks, k < L.length) →
    ((ks.zip v).foldl (fun l x => l.set x.1 x.2) L)[s]? = if ks.idxOf s < min ks.length v.length then v[ks.idxOf s]? else L[s]? := by
  intro ks
  induction ks with
  | nil => intro v L s _ _; simp
  | cons k ks ih =>
    intro v L s hn hk
    cases v with
    | nil => simp
    | cons a v =>
      rw [List.nodup_cons] at hn
      rw [List.zip_cons_cons, List.foldl_cons, ih v _ s hn.2 (fun x hx => by rw [List.length_set]; exact hk x (List.mem_cons_of_mem _ hx)),
        List.idxOf_cons, List.length_cons, List.length_cons]
      by_cases he : k = s
      · subst he
        rw [List.idxOf_eq_length hn.1, if_neg (by omega), beq_self_eq_true, cond_true, if_pos (by omega), List.getElem?_cons_zero,
          List.getElem?_set_self (hk k List.mem_cons_self)]
      · rw [List.getElem?_set_ne he, beq_false_of_ne he, cond_false, List.getElem?_cons_succ]
        by_cases hc : ks.idxOf s < min ks.length v.length
        · rw [if_pos hc, if_pos (by omega)]
        · rw [if_neg hc, if_neg (by omega)]

theorem order_mem : ∀ s < 19, precodeOrder.idxOf s < 19 := by decide

theorem sets_eq (v : List Nat) (h : v.length ≤ 19) :
    (precodeOrder.zip v).foldl (fun l x => l.set x.1 x.2) (List.replicate 19 0) = lengthsFrom v := by
  apply List.ext_getElem?
  intro s
  rw [sets_get _ _ _ _ (by decide) (by decide), lengthsFrom, List.getElem?_map]
  by_cases hs : s < 19
  · have := order_mem s hs
    rw [List.getElem?_range hs, Option.map_some, List.getElem?_replicate_of_lt hs, List.getD_eq_getElem?_getD, show Rfc1951.order = precodeOrder from rfl,
      show precodeOrder.length = 19 from rfl]
    split
    · rw [List.getElem?_eq_getElem (by omega)]
      rfl
    · rw [List.getElem?_eq_none (by omega)]
      rfl
  · rw [List.getElem?_eq_none (l := List.replicate 19 0) (by simpa using hs), List.getElem?_eq_none (l := List.range 19) (by simpa using hs), if_neg]
    · rfl
    · rw [List.idxOf_eq_length]
      · show ¬ (19 < min 19 _)
        omega
      · intro hm
        exact hs ((show ∀ x ∈ precodeOrder, x < 19 by decide) s hm)

theorem zip_take : ∀ (l v : List Nat), (l.take v.length).zip v = l.zip v
  | [], v => by simp
  | a :: l, [] => by simp
  | a :: l, b :: v => by simp [zip_take l v]

theorem lengthsFrom_le {v : List Nat} (h : ∀ l ∈ v, l < 8) : ∀ l ∈ lengthsFrom v, l ≤ 7 := by
  intro l hl
  rw [lengthsFrom, List.mem_map] at hl
  obtain ⟨s, _, rfl⟩ := hl
  by_cases hs : Rfc1951.order.idxOf s < v.length
  · have := h _ (getD_mem hs)
    omega
  · rw [List.getD_eq_getElem?_getD, List.getElem?_eq_none (by omega)]
    exact Nat.zero_le 7

/-- The header of a dynamic block. -/
theorem dynamicLens_ok {src : List UInt8} {b : Bits} {p : Nat} {bits rest : List Bool} {ll dl : List Nat} (h : b.Ok p) (hs : b.src = src)
    (hp : p ≤ 8 * src.length) (hl : 14 ≤ b.left) (hb : bitsAt src p = bits) (hh : Header bits ll dl rest) :
    ∃ b' lens nl no p', dynamicLens b = .ok (b', lens, nl, no) ∧ b'.Ok p' ∧ b'.src = src ∧ p' ≤ 8 * src.length ∧ bitsAt src p' = rest ∧
      lens.take nl = ll ∧ (lens.drop nl).take no = dl ∧ ll.length ≤ 288 ∧ dl.length ≤ 32 := by
  obtain ⟨hlit, hdist, v, all, bits, rest, k1, k2, k3, k4, k5, k6, k7⟩ := hh
  subst hs
  cases v with
  | nil => simp at k3
  | cons a v =>
    rw [List.length_cons] at k3 k4
    have ha := k5 a List.mem_cons_self
    obtain ⟨x1, x2, x3⟩ := front_lsb (n := 5) hp hb (by omega)
    obtain ⟨w1, w2, w3, w4, _⟩ := Bits.get_ok b p 5 h (by omega)
    rw [x1] at w1
    obtain ⟨y1, y2, y3⟩ := front_lsb (n := 5) x3 x2 (by omega)
    obtain ⟨u1, u2, u3, u4, _⟩ := Bits.get_ok _ _ 5 w2 (by omega)
    rw [w4, y1] at u1
    obtain ⟨z1, z2, z3⟩ := front_lsb (n := 4) y3 y2 (by rw [List.length_cons]; omega)
    obtain ⟨t1, t2, t3, t4, _⟩ := Bits.get_ok _ _ 4 u2 (by omega)
    rw [u4, w4, z1, List.length_cons] at t1
    rw [u4, w4] at t4
    obtain ⟨r1, r2, r3, _⟩ := Bits.refill_ok _ _ t2
    rw [List.flatMap_cons, List.append_assoc] at z2
    obtain ⟨a1, a2, a3⟩ := front_lsb (n := 3) z3 z2 (by omega)
    obtain ⟨s1, s2, s3, s4, _⟩ := Bits.get_ok _ _ 3 r1 (by omega)
    rw [r3, t4, a1] at s1
    rw [r3, t4] at s4
    obtain ⟨q1, q2, q3, _⟩ := Bits.refill_ok _ _ s2
    obtain ⟨b1, p1, m1, m2, m3, m4, m5⟩ := precodeLens_ok v (precodeOrder.tail.take v.length) ((List.replicate 19 0).set 16 a) _ _ q1 (q3.trans s4) a3 (by omega) a2
      (by rw [List.length_take]; exact Nat.min_eq_left (le_trans (show v.length ≤ 18 by omega) (by decide))) (fun l hl => k5 l (List.mem_cons_of_mem _ hl))
    have hset : ((precodeOrder.tail.take v.length).zip v).foldl (fun l x => l.set x.1 x.2) ((List.replicate 19 0).set 16 a) = lengthsFrom (a :: v) := by
      rw [← sets_eq (a :: v) (by rw [List.length_cons]; omega)]
      rw [zip_take]
      rfl
    have hln : (lengthsFrom (a :: v)).length ≤ 19 := by simp [lengthsFrom]
    obtain ⟨tb, n1, n2⟩ := precode_tab k6 (lengthsFrom_le k5) hln
    obtain ⟨z, hz, hzl⟩ : ∃ z, List.replicate (288 + 32 + 137) 0 = z ∧ z.length = 457 := ⟨_, rfl, List.length_replicate⟩
    obtain ⟨b2, L', p2, o1, o2, o3, o4, o5, o6⟩ := lensLoop_ok n2 (lengthsFrom_le k5) hln (by omega) k7 (257 + hlit + (1 + hdist) + 1) b1 z p1
      (by rw [List.length_nil]; omega) m2 m3 m4 m5 hzl rfl
    have hall := (Lengths.total k7).2
    refine ⟨b2, L', 257 + hlit, 1 + hdist, p2, ?_, o2, o3, o4, o5, ?_, ?_, ?_, ?_⟩
    · rw [dynamicLens, if_neg (by omega), hz]
      simp only
      rw [if_neg (by omega), w1, u1, t1, s1, if_neg (by omega), show 4 + (v.length + 1 - 4) - 1 = v.length by omega, m1, hset, n1]
      rw [List.length_nil] at o1
      simp only
      rw [o1]
    · rw [← o6, List.take_take, Nat.min_eq_left (by omega)]
    · rw [← o6, List.drop_take, show 257 + hlit + (1 + hdist) - (257 + hlit) = 1 + hdist by omega]
    · rw [List.length_take]; omega
    · rw [List.length_drop]; omega

end Zune.Inflate
