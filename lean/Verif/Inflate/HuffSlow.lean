/-
The careful loop of the inflate decoder reads the symbols of RFC 1951.
-/
import Verif.Inflate.HuffRead

namespace Zune.Inflate

open Prefix (Used word weight)
open Rfc1951 (bitsAt lengthExtra lengthBase distExtra distBase lz Symbols)

theorem shift_val (V p n : Nat) : V / 2 ^ (p + n) = V / 2 ^ p / 2 ^ n := by rw [pow_add, Nat.div_div_eq_div_mul]

/-- Reading a distance: its codeword at `p` and the extra bits behind it. -/
theorem offset_ok {dl ol : List Nat} (ht : Tab dl offsetResults ol 8 512) {b : Bits} {p d y : Nat} {bits : List Bool} (h : b.Ok p) (hl : 15 ≤ b.left)
    (hp : p ≤ 8 * b.src.length) (hd : d ≤ 29) (hu : Used dl d) (hy : y < 2 ^ distExtra d)
    (hb : bitsAt b.src p = word dl d ++ (lsb (distExtra d) y ++ bits)) (hfit : dl.getD d 0 + distExtra d ≤ b.left) :
    ∃ f b1, offsetEntry ol b = some (f, b1) ∧ entryValue f b1.buf = distBase d + y ∧ (b1.drop (f % 256)).Ok (p + dl.getD d 0 + distExtra d) ∧
      (b1.drop (f % 256)).left = b.left - (dl.getD d 0 + distExtra d) ∧ (b1.drop (f % 256)).src = b.src ∧ (b1.drop (f % 256)).pos = b.pos ∧
      (b1.drop (f % 256)).over = b.over ∧ bitsAt b.src (p + dl.getD d 0 + distExtra d) = bits ∧ p + dl.getD d 0 + distExtra d ≤ 8 * b.src.length := by
  obtain ⟨f1, f2, f3⟩ := front_word hp hb
  obtain ⟨g1, g2, g3⟩ := front_lsb f3 f2 hy
  obtain ⟨x1, x2, x3⟩ := dist_small d (by omega)
  have h15 := ht.short _ (getD_mem (Prefix.used_lt hu))
  have hval : ∀ (b1 : Bits) (base k : Nat), b1.Ok (p + base) → base + k = dl.getD d 0 → b1.left = b.left - base → b1.src = b.src → b1.pos = b.pos → b1.over = b.over →
      entryValue (distBase d * 65536 + distExtra d + 257 * k) b1.buf = distBase d + y ∧
      (b1.drop ((distBase d * 65536 + distExtra d + 257 * k) % 256)).Ok (p + dl.getD d 0 + distExtra d) ∧
      (b1.drop ((distBase d * 65536 + distExtra d + 257 * k) % 256)).left = b.left - (dl.getD d 0 + distExtra d) ∧
      (b1.drop ((distBase d * 65536 + distExtra d + 257 * k) % 256)).src = b.src ∧
      (b1.drop ((distBase d * 65536 + distExtra d + 257 * k) % 256)).pos = b.pos ∧
      (b1.drop ((distBase d * 65536 + distExtra d + 257 * k) % 256)).over = b.over := by
    intro b1 base k o1 hk l1 s1 p1 ov1
    obtain ⟨_, _, _, _, v1, v2, v3⟩ := value_fields (B := distBase d) (x := distExtra d) (k := k) (by omega) (by omega) (by omega)
    obtain ⟨q1, q2, q3, q4, q5⟩ := Bits.drop_ok b1 (p + base) (distExtra d + k) o1 (by omega)
    rw [v1]
    refine ⟨?_, ?_, ?_, ?_, ?_, ?_⟩
    · apply entryValue_ok (v := leVal b.src / 2 ^ (p + base)) (by omega) (by omega) (by omega)
      · have := Bits.peek_ok b1 (p + base) (distExtra d + k) o1 (by omega)
        rw [s1] at this
        exact this
      · rw [← shift_val, Nat.add_assoc, hk]
        exact g1
    · rw [show p + dl.getD d 0 + distExtra d = p + base + (distExtra d + k) by omega]
      exact q1
    · rw [q2]; omega
    · rw [q3, s1]
    · rw [q5, p1]
    · rw [q4, ov1]
  have hpk := Bits.peek_ok b p 8 h (by omega)
  rcases ht.read d _ _ hu (offset_dist d (by omega)) f1 with ⟨c1, c2⟩ | ⟨c1, st, bt, c2, c3, c4, c5⟩
  · obtain ⟨_, v15, _⟩ := value_fields (B := distBase d) (x := distExtra d) (k := dl.getD d 0) (by omega) (by omega) h15
    obtain ⟨a1, a2, a3, a4, a5, a6⟩ := hval b 0 (dl.getD d 0) h (by omega) (by omega) rfl rfl rfl
    refine ⟨_, b, ?_, a1, a2, a3, a4, a5, a6, g2, g3⟩
    · rw [offsetEntry, hpk, c2]
      simp only
      rw [v15]
      rfl
  · have hlt : st + leVal b.src / 2 ^ p / 2 ^ 8 % 2 ^ bt < 512 := by
      have := (List.getElem?_eq_some_iff.1 c5).1
      rwa [ht.size] at this
    obtain ⟨_, j15, _, _, _, j6, j7⟩ := jump_fields (st := st) (bt := bt) (T := 8) (by omega) (by omega) (by decide)
    obtain ⟨q1, q2, q3, q4, q5⟩ := Bits.drop_ok b p 8 h (by omega)
    have hpk2 := Bits.peek_ok (b.drop 8) (p + 8) bt q1 (by omega)
    rw [q3, shift_val] at hpk2
    obtain ⟨a1, a2, a3, a4, a5, a6⟩ := hval (b.drop 8) 8 (dl.getD d 0 - 8) q1 (by omega) (by omega) q3 q5 q4
    refine ⟨_, b.drop 8, ?_, a1, a2, a3, a4, a5, a6, g2, g3⟩
    · rw [offsetEntry, hpk, c4]
      simp only
      rw [j15, j6, j7, hpk2, if_pos rfl, show (511 : Nat) = 2 ^ 9 - 1 by rfl, Nat.and_two_pow_sub_one_eq_mod, Nat.mod_eq_of_lt hlt, c5]
      rfl

theorem over_ok {b : Bits} {p : Nat} (h : b.Ok p) (hp : p ≤ 8 * b.src.length) : ¬ b.over > b.left >>> 3 := by
  rw [shr3]
  intro hlt
  have h1 := h.over_end (by omega)
  have h2 := h.count
  omega

/-- The beginning of a pass of the careful loop: the entry of the symbol at `p`. -/
theorem slow_head {ll ol : List Nat} (ht : Tab ll litlenResults ll' 11 2342) {o : Options} {b : Bits} {p s r x : Nat} {bits : List Bool} {buf : List UInt8} {dest : Nat}
    (h : b.Ok p) (hp : p ≤ 8 * b.src.length) (hu : Used ll s) (hr : litlenResults[s]? = some r) (hx : r % 256 = x) (hx5 : x ≤ 5)
    (h14 : ∀ k ≤ 15, (r + 257 * k).testBit 14 = false)
    (hb : bitsAt b.src p = word ll s ++ bits) :
    ∃ base k saved b2, slowStep o ll' ol b buf dest = slowTail o ol (r + 257 * k) saved b2 buf dest ∧ base + k = ll.getD s 0 ∧ k ≤ 15 ∧
      saved &&& (2 ^ (x + k) - 1) = leVal b.src / 2 ^ (p + base) % 2 ^ (x + k) ∧ b2.Ok (p + ll.getD s 0 + x) ∧ b2.src = b.src ∧
      b2.left + ll.getD s 0 < 64 := by
  obtain ⟨f1, f2, f3⟩ := front_word hp hb
  have h15 := ht.short _ (getD_mem (Prefix.used_lt hu))
  obtain ⟨r1, r2, r3, _⟩ := Bits.refill_ok b p h
  have r4 := r1.left_lt
  have hov := over_ok r1 (by rw [r3]; exact hp)
  have hpk := Bits.peek_ok b.refill p 11 r1 (by omega)
  rw [r3] at hpk
  have hmod : ∀ k ≤ 15, (r + 257 * k) % 256 = x + k := by intro k hk; omega
  rcases ht.read s _ _ hu hr f1 with ⟨c1, c2⟩ | ⟨c1, st, bt, c2, c3, c4, c5⟩
  · obtain ⟨q1, q2, q3, q4, q5⟩ := Bits.drop_ok b.refill p (x + ll.getD s 0) r1 (by omega)
    refine ⟨0, ll.getD s 0, b.refill.buf, b.refill.drop (x + ll.getD s 0), ?_, by omega, h15, ?_, ?_, q3.trans r3, by omega⟩
    · rw [slowStep]
      simp only
      rw [if_neg hov, hpk, c2]
      simp only
      rw [h14 _ h15, hmod _ h15, if_neg (by decide)]
    · have := Bits.peek_ok b.refill p (x + ll.getD s 0) r1 (by omega)
      rw [r3] at this
      exact this
    · rw [Nat.add_assoc, Nat.add_comm (ll.getD s 0)]
      exact q1
  · have hlt : st < 2342 := by
      have := (List.getElem?_eq_some_iff.1 c5).1
      rw [ht.size] at this
      omega
    obtain ⟨_, _, j14, _, j5, j6, j7⟩ := jump_fields (st := st) (bt := bt) (T := 11) (by omega) (by omega) (by decide)
    obtain ⟨q1, q2, q3, q4, q5⟩ := Bits.drop_ok b.refill p 11 r1 (by omega)
    have hpk2 := Bits.peek_ok (b.refill.drop 11) (p + 11) bt q1 (by omega)
    rw [q3, r3, shift_val] at hpk2
    obtain ⟨w1, w2, w3, w4, w5⟩ := Bits.drop_ok (b.refill.drop 11) (p + 11) (x + (ll.getD s 0 - 11)) q1 (by omega)
    refine ⟨11, ll.getD s 0 - 11, (b.refill.drop 11).buf, (b.refill.drop 11).drop (x + (ll.getD s 0 - 11)), ?_, by omega, by omega, ?_, ?_,
      (w3.trans q3).trans r3, by omega⟩
    · rw [slowStep]
      simp only
      rw [if_neg hov, hpk, c4]
      simp only
      rw [j14, j5, j6, j7, if_pos rfl, hpk2, c5]
      simp only
      rw [hmod _ (by omega)]
    · have := Bits.peek_ok (b.refill.drop 11) (p + 11) (x + (ll.getD s 0 - 11)) q1 (by omega)
      rw [q3, r3] at this
      exact this
    · rw [show p + ll.getD s 0 + x = p + 11 + (x + (ll.getD s 0 - 11)) by omega]
      exact w1

theorem prefix_set {out buf : List UInt8} (h : out <+: buf) (hl : out.length < buf.length) (x : UInt8) : out ++ [x] <+: buf.set out.length x := by
  obtain ⟨t, rfl⟩ := h
  cases t with
  | nil => simp at hl
  | cons y t =>
    refine ⟨t, ?_⟩
    rw [List.set_append_right _ _ (Nat.le_refl _), Nat.sub_self, List.set_cons_zero, List.append_assoc]
    rfl

theorem pushByte_ok {out buf : List UInt8} (h : out <+: buf) (x : UInt8) : ∃ buf', pushByte buf out.length x = .ok buf' ∧ out ++ [x] <+: buf' := by
  rw [pushByte]
  have hl := h.length_le
  by_cases hc : buf.length ≤ out.length
  · rw [if_pos hc, List.length_append, List.length_replicate, if_pos (by omega)]
    exact ⟨_, rfl, prefix_set (h.trans (List.prefix_append _ _)) (by rw [List.length_append, List.length_replicate]; omega) x⟩
  · rw [if_neg hc, if_pos (by omega)]
    exact ⟨_, rfl, prefix_set h (by omega) x⟩

theorem lz_length {off : Nat} : ∀ (n : Nat) (out : List UInt8), 1 ≤ off → off ≤ out.length → (lz out off n).length = out.length + n := by
  intro n
  induction n with
  | zero => intro out _ _; rfl
  | succ n ih =>
    intro out h1 h2
    have : ((out.drop (out.length - off)).take 1).length = 1 := by simp; omega
    rw [lz, ih _ h1 (by rw [List.length_append]; omega), List.length_append, this]
    omega

theorem Symbols.grow {ll dl : List Nat} {bits rest : List Bool} {out out' : List UInt8} (h : Symbols ll dl bits out rest out') :
    out.length ≤ out'.length := by
  induction h with
  | stop => exact Nat.le_refl _
  | lit x hu _ ih => rw [List.length_append] at ih; omega
  | copy s x d y h1 h2 h3 h4 h5 h6 h7 h8 _ ih =>
    rw [lz_length _ _ (by have := (dist_small d (by omega)).2.2; omega) h8] at ih
    omega

/-- The state behind a block: the reader stands at `r`, the output is `out'`. -/
def BlockEnd (ll : List Nat) (src : List UInt8) (r : Nat) (out' : List UInt8) (b : Bits) (buf : List UInt8) (dest : Nat) : Prop :=
  b.Ok r ∧ b.src = src ∧ b.left + ll.getD 256 0 < 64 ∧ buf.take dest = out'

theorem prefix_take {out buf : List UInt8} (h : out <+: buf) : buf.take out.length = out := by
  obtain ⟨t, rfl⟩ := h
  rw [List.take_left' rfl]

theorem used_pos {lens : List Nat} {s : Nat} (h : Used lens s) : 1 ≤ lens.getD s 0 := Nat.pos_of_ne_zero h

/-- The careful loop decodes the symbols of a block. -/
theorem slowLoop_ok {ll dl lt ot : List Nat} (ht : Tab ll litlenResults lt 11 2342) (hd : Tab dl offsetResults ot 8 512) {o : Options} {src : List UInt8}
    {r : Nat} {out' : List UInt8} (hr : r ≤ 8 * src.length) (hlim : out'.length ≤ o.limit) {bits rest : List Bool} {out : List UInt8}
    (hsym : Symbols ll dl bits out rest out') (hrest : rest = bitsAt src r) :
    ∀ (fuel : Nat) (b : Bits) (p : Nat) (buf : List UInt8), bits.length < fuel → b.Ok p → b.src = src → p ≤ 8 * src.length → bitsAt src p = bits →
      out <+: buf → ∃ b' buf' dest', slowLoop o lt ot fuel b buf out.length = .ok (b', buf', dest') ∧ BlockEnd ll src r out' b' buf' dest' := by
  induction hsym with
  | stop bits out hu =>
    intro fuel b p buf hf h hs hp hb hpre
    subst hs
    obtain ⟨f, rfl⟩ : ∃ f, fuel = f + 1 := ⟨fuel - 1, by omega⟩
    obtain ⟨base, k, saved, b2, e, hk, hk15, _, o2, s2, l2⟩ := slow_head (o := o) (ol := ot) (buf := buf) (dest := out.length) ht h hp hu litlen_stop rfl (by decide)
      (fun k hk => (stop_fields hk).2.2.1) hb
    obtain ⟨k31, _, _, k13, _⟩ := stop_fields hk15
    obtain ⟨_, g2, g3⟩ := front_word hp hb
    rw [slowLoop, e, slowTail, k31, k13]
    refine ⟨b2, buf, out.length, rfl, ?_, s2, l2, prefix_take hpre⟩
    have he : r = p + ll.getD 256 0 := by
      have h1 := congrArg List.length g2
      rw [hrest, bitsAt_length, bitsAt_length] at h1
      omega
    rw [he]
    exact o2
  | @lit x bits rest out out' hu hsym ih =>
    intro fuel b p buf hf h hs hp hb hpre
    subst hs
    obtain ⟨f, rfl⟩ : ∃ f, fuel = f + 1 := ⟨fuel - 1, by omega⟩
    have hx : x.toNat < 256 := x.toNat_lt
    obtain ⟨base, k, saved, b2, e, hk, hk15, _, o2, s2, l2⟩ := slow_head (o := o) (ol := ot) (buf := buf) (dest := out.length) (x := 0) ht h hp hu (litlen_literal _ hx)
      (by omega) (by decide) (fun k hk => (literal_fields hx hk).2.1) hb
    obtain ⟨k31, _, k16, _⟩ := literal_fields hx hk15
    obtain ⟨_, g2, g3⟩ := front_word hp hb
    obtain ⟨buf', hpush, hpre'⟩ := pushByte_ok hpre x
    rw [slowLoop, e, slowTail, k31, if_pos rfl, k16, UInt8.ofNat_toNat, hpush]
    simp only [Except.map]
    have := used_pos hu
    have hl := congrArg List.length hb
    rw [List.length_append, word_length'] at hf
    have := ih hlim hrest f b2 _ buf' (by omega) o2 s2 g3 g2 hpre'
    rwa [List.length_append, List.length_singleton] at this
  | @copy s x d y bits rest out out' h1 h2 hu hx h3 hud hy hdist hsym ih =>
    intro fuel b p buf hf h hs hp hb hpre
    subst hs
    obtain ⟨f, rfl⟩ : ∃ f, fuel = f + 1 := ⟨fuel - 1, by omega⟩
    obtain ⟨x1, x2, x3⟩ := length_small s (by omega)
    obtain ⟨y1, y2, y3⟩ := dist_small d (by omega)
    obtain ⟨base, k, saved, b2, e, hk, hk15, hsv, o2, s2, l2⟩ := slow_head (o := o) (ol := ot) (buf := buf) (dest := out.length) (x := lengthExtra s) ht h hp hu
      (litlen_length s (by omega) h1) (by omega) x1 (fun k hk => (value_fields (by omega) (by omega) hk).2.2.1) hb
    obtain ⟨k31, _, _, k13, _⟩ := value_fields (B := lengthBase s) (x := lengthExtra s) (k := k) (by omega) (by omega) hk15
    obtain ⟨_, g2, g3⟩ := front_word hp hb
    obtain ⟨i1, i2, i3⟩ := front_lsb g3 g2 hx
    have hlen : entryValue (lengthBase s * 65536 + lengthExtra s + 257 * k) saved = lengthBase s + x := by
      apply entryValue_ok (v := leVal b.src / 2 ^ (p + base)) (by omega) (by omega) hk15 hsv
      rw [← shift_val, Nat.add_assoc, hk]
      exact i1
    obtain ⟨r1, r2, r3, _⟩ := Bits.refill_ok b2 _ o2
    have hdl := hd.short _ (getD_mem (Prefix.used_lt hud))
    rw [← s2] at i2 i3
    obtain ⟨f0, b3, q1, q2, q3, q4, q5, q6, q7, q8, q9⟩ := offset_ok (b := b2.refill) hd r1 (by omega) (by rw [r3]; exact i3) h3 hud hy (by rw [r3]; exact i2) (by omega)
    rw [slowLoop, e, slowTail, k31, if_neg (by decide), k13, if_neg (by decide), hlen, q1]
    simp only
    rw [q2, if_neg (by omega)]
    have hpre2 : out <+: (if out.length + (lengthBase s + x) + 16 > buf.length then buf ++ List.replicate (4096 + (lengthBase s + x)) 0 else buf) ∧
        out.length + (lengthBase s + x) + 16 ≤ (if out.length + (lengthBase s + x) + 16 > buf.length then buf ++ List.replicate (4096 + (lengthBase s + x)) 0 else buf).length := by
      have := hpre.length_le
      split
      · exact ⟨hpre.trans (List.prefix_append _ _), by rw [List.length_append, List.length_replicate]; omega⟩
      · exact ⟨hpre, by omega⟩
    obtain ⟨buf', c1, c2, c3⟩ := slowCopy_ok hpre2.1 (by omega) hdist hpre2.2
    rw [c1]
    simp only
    have hlz := lz_length (lengthBase s + x) out (off := distBase d + y) (by omega) hdist
    have hg := Symbols.grow hsym
    rw [if_neg (by omega)]
    have hu1 := used_pos hu
    rw [r3, s2] at q8 q9
    have := ih hlim hrest f (b3.drop (f0 % 256)) _ buf' (by simp only [List.length_append, word_length', lsb_length] at hf; omega) q3 (q5.trans (r3.trans s2)) q9 q8
      (c3 ▸ List.take_prefix _ _)
    rwa [hlz] at this

end Zune.Inflate
