/-
The fast loop of the inflate decoder reads the symbols of RFC 1951, as long as a literal and a match together fit in the 56 bits that a refill
guarantees.
-/
import Verif.Inflate.HuffSlow

namespace Zune.Inflate

open Prefix (Used word weight)
open Rfc1951 (bitsAt lengthExtra lengthBase distExtra distBase lz Symbols)

/-- A literal of at most 11 bits, a length with its extra bits and a distance with its extra bits take no more than 56 bits. -/
def Fits (ll dl : List Nat) : Prop :=
  ∀ s < 256, Used ll s → ll.getD s 0 ≤ 11 → ∀ t, 257 ≤ t → t ≤ 285 → Used ll t → ∀ d ≤ 29, Used dl d →
    ll.getD s 0 + ll.getD t 0 + lengthExtra t + dl.getD d 0 + distExtra d ≤ 56

/-- A state from which the rest of the block is still to be decoded; `n` bounds what is left. -/
def Pending (ll dl : List Nat) (src : List UInt8) (rest : List Bool) (out' : List UInt8) (b : Bits) (buf : List UInt8) (dest n p : Nat) : Prop :=
  ∃ bits out, b.Ok p ∧ b.src = src ∧ p ≤ 8 * src.length ∧ bitsAt src p = bits ∧ Symbols ll dl bits out rest out' ∧ out <+: buf ∧ dest = out.length ∧
    bits.length ≤ n

/-- What a pass of the fast loop may lead to. -/
def StepOk (ll dl lt : List Nat) (src : List UInt8) (r : Nat) (rest : List Bool) (out' : List UInt8) (n : Nat) : Step → Prop
  | .done b buf dest => BlockEnd ll src r out' b buf dest
  | .slow b buf dest => ∃ p, Pending ll dl src rest out' b buf dest n p
  | .more b entry buf dest => ∃ p, Pending ll dl src rest out' b buf dest (n - 1) p ∧ lt[leVal src / 2 ^ p % 2 ^ 11]? = some entry

theorem peek_lt (b : Bits) (n : Nat) : b.peek n < 2 ^ n := by
  rw [Bits.peek, Nat.and_two_pow_sub_one_eq_mod]
  exact Nat.mod_lt _ (Nat.two_pow_pos n)

theorem table_some {ll lt : List Nat} (ht : Tab ll litlenResults lt 11 2342) {i : Nat} (hi : i < 2 ^ 11) : ∃ e, lt[i]? = some e :=
  ⟨_, List.getElem?_eq_getElem (by rw [ht.size]; omega)⟩

theorem refillInner_ok {b : Bits} {p : Nat} (h : b.Ok p) : b.refillInner.Ok p ∧ b.refillInner.src = b.src ∧
    (b.pos + 8 ≤ b.src.length → 56 ≤ b.refillInner.left) ∧ (¬ b.pos + 8 ≤ b.src.length → b.refillInner = b) := by
  rw [Bits.refillInner]
  by_cases hc : b.pos + 8 ≤ b.src.length
  · rw [if_pos hc]
    obtain ⟨h1, h2, h3, h4⟩ := Bits.load_ok b p h hc
    exact ⟨h1, h4, fun _ => h2, fun hn => absurd hc hn⟩
  · rw [if_neg hc]
    exact ⟨h, rfl, fun hn => absurd hn hc, fun _ => rfl⟩

variable {ll dl lt ot : List Nat} {o : Options} {src : List UInt8} {r : Nat} {rest : List Bool} {out' : List UInt8}

theorem fastMatch_ok (ht : Tab ll litlenResults lt 11 2342) (hd : Tab dl offsetResults ot 8 512) {b : Bits} {p d y L e saved n : Nat}
    {bits : List Bool} {out buf : List UInt8} (h : b.Ok p) (hs : b.src = src) (hp : p ≤ 8 * src.length) (hl : 15 ≤ b.left) (hd29 : d ≤ 29)
    (hud : Used dl d) (hy : y < 2 ^ distExtra d) (hb : bitsAt src p = word dl d ++ (lsb (distExtra d) y ++ bits))
    (hfit : dl.getD d 0 + distExtra d ≤ b.left) (he : entryValue e saved = L) (hpre : out <+: buf) (hroom : out.length + L + 16 ≤ buf.length)
    (hdist : distBase d + y ≤ out.length) (hlim : out.length + L ≤ o.limit) (hsym : Symbols ll dl bits (lz out (distBase d + y) L) rest out')
    (hn : bits.length < n) :
    ∃ s, fastMatch o lt ot e saved b buf out.length = .ok s ∧ StepOk ll dl lt src r rest out' n s := by
  subst hs
  obtain ⟨y1, y2, y3⟩ := dist_small d (by omega)
  obtain ⟨f0, b1, q1, q2, q3, q4, q5, q6, q7, q8, q9⟩ := offset_ok hd h hl hp hd29 hud hy hb hfit
  obtain ⟨buf', c1, c2, c3⟩ := fastCopy_ok hpre (off := distBase d + y) (by omega) hdist hroom
  have hlz := lz_length L out (off := distBase d + y) (by omega) hdist
  rw [fastMatch, he, q1]
  simp only
  rw [q2, if_neg (by omega)]
  obtain ⟨i1, i2, i3, i4⟩ := refillInner_ok q3
  obtain ⟨next, hnext⟩ := table_some ht (peek_lt (if (b1.drop (f0 % 256)).left < 11 then (b1.drop (f0 % 256)).refillInner else b1.drop (f0 % 256)) 11)
  rw [hnext]
  simp only
  rw [c1]
  simp only
  rw [if_neg (by omega)]
  have hpend : ∀ b3 : Bits, b3.Ok (p + dl.getD d 0 + distExtra d) → b3.src = b.src → ∀ m, bits.length ≤ m →
      Pending ll dl b.src rest out' b3 buf' (out.length + L) m (p + dl.getD d 0 + distExtra d) := by
    intro b3 k1 k2 m hm
    exact ⟨bits, _, k1, k2, q9, q8, hsym, c3 ▸ List.take_prefix _ _, hlz.symm, hm⟩
  by_cases hleft : (b1.drop (f0 % 256)).left < 11
  · rw [if_pos hleft] at hnext ⊢
    split
    · exact ⟨_, rfl, _, hpend _ i1 (i2.trans q5) _ (by omega)⟩
    · rename_i hpos
      refine ⟨_, rfl, _, hpend _ i1 (i2.trans q5) _ (by omega), ?_⟩
      have hge : 11 ≤ (b1.drop (f0 % 256)).refillInner.left := by
        by_cases hc : (b1.drop (f0 % 256)).pos + 8 ≤ (b1.drop (f0 % 256)).src.length
        · have := i3 hc; omega
        · rw [i4 hc] at hpos
          omega
      rw [← hnext, Bits.peek_ok _ _ 11 i1 hge, i2, q5]
  · rw [if_neg hleft] at hnext ⊢
    split
    · exact ⟨_, rfl, _, hpend _ q3 q5 _ (by omega)⟩
    · refine ⟨_, rfl, _, hpend _ q3 q5 _ (by omega), ?_⟩
      rw [← hnext, Bits.peek_ok _ _ 11 q3 (by omega), q5]

/-- A pointer entry leads to the entry of the symbol. -/
theorem fastOther_sub (ht : Tab ll litlenResults lt 11 2342) {c : Bits} {p st bt e : Nat} {buf : List UInt8} {dest saved : Nat} (h : c.Ok p)
    (hl : 15 ≤ c.left) (hbt : 11 + bt ≤ 15) (he : lt[st + leVal c.src / 2 ^ p / 2 ^ 11 % 2 ^ bt]? = some e) :
    fastOther o lt ot (st * 65536 + (49152 + bt * 256 + 11)) saved (c.drop ((st * 65536 + (49152 + bt * 256 + 11)) % 256)) buf dest =
      (if e.testBit 31 then
        match lt[((c.drop 11).drop (e % 256)).peek 11]? with
        | none => .error .panic
        | some next => .ok (.more ((c.drop 11).drop (e % 256)) next (buf.set dest (UInt8.ofNat (e >>> 16))) (dest + 1))
      else if e.testBit 13 then .ok (.done ((c.drop 11).drop (e % 256)) buf dest)
      else fastMatch o lt ot e (c.drop 11).buf ((c.drop 11).drop (e % 256)) buf dest) := by
  have hlt : st + leVal c.src / 2 ^ p / 2 ^ 11 % 2 ^ bt < 2342 := by
    have := (List.getElem?_eq_some_iff.1 he).1
    rwa [ht.size] at this
  obtain ⟨_, j15, _, j13, j5, j6, j7⟩ := jump_fields (st := st) (bt := bt) (T := 11) (by omega) (by omega) (by decide)
  obtain ⟨q1, q2, q3, q4, q5⟩ := Bits.drop_ok c p 11 h (by omega)
  have hpk := Bits.peek_ok (c.drop 11) (p + 11) bt q1 (by omega)
  rw [q3, shift_val] at hpk
  rw [fastOther, j15, if_pos rfl, j13, if_neg (by decide), j6, j7, j5, hpk, Nat.min_eq_left (by omega), he]
  rfl

theorem end_pos {a : List Bool} {p : Nat} (hp : p ≤ 8 * src.length) (hr : r ≤ 8 * src.length) (h1 : bitsAt src p = a) (h2 : a = bitsAt src r) : p = r := by
  have := congrArg List.length (h1.trans h2)
  rw [bitsAt_length, bitsAt_length] at this
  omega

/-- A pass of the fast loop from an entry that is no short literal. -/
theorem fastOther_ok (ht : Tab ll litlenResults lt 11 2342) (hd : Tab dl offsetResults ot 8 512) (hr : r ≤ 8 * src.length) (hlim : out'.length ≤ o.limit)
    (hrest : rest = bitsAt src r) {c : Bits} {p entry : Nat} {bits : List Bool} {out buf : List UInt8} (h : c.Ok p) (hs : c.src = src)
    (hp : p ≤ 8 * src.length) (hl : 45 ≤ c.left) (hb : bitsAt src p = bits) (hsym : Symbols ll dl bits out rest out')
    (he : lt[leVal src / 2 ^ p % 2 ^ 11]? = some entry) (h31 : entry.testBit 31 = false)
    (hfit : ∀ t, 257 ≤ t → t ≤ 285 → Used ll t → ∀ d ≤ 29, Used dl d → ll.getD t 0 + lengthExtra t + dl.getD d 0 + distExtra d ≤ c.left)
    (hpre : out <+: buf) (hroom : out.length + 275 ≤ buf.length) {n : Nat} (hn : bits.length ≤ n) :
    ∃ s, fastOther o lt ot entry c.buf (c.drop (entry % 256)) buf out.length = .ok s ∧ StepOk ll dl lt src r rest out' n s := by
  have hcl := h.left_lt
  subst hs
  cases hsym with
  | stop _ _ hu =>
    obtain ⟨f1, f2, f3⟩ := front_word hp hb
    have h15 := ht.short _ (getD_mem (Prefix.used_lt hu))
    have hpos := end_pos f3 hr f2 hrest
    rcases ht.read _ _ _ hu litlen_stop f1 with ⟨c1, c2⟩ | ⟨c1, st, bt, c2, c3, c4, c5⟩
    · rw [he] at c2
      injection c2 with c2
      subst c2
      obtain ⟨k31, k15, _, k13, km⟩ := stop_fields (k := ll.getD 256 0) h15
      obtain ⟨q1, q2, q3, q4, q5⟩ := Bits.drop_ok c p (ll.getD 256 0) h (by omega)
      rw [fastOther, k15, k13, km]
      exact ⟨_, rfl, by rw [← hpos]; exact q1, q3, by omega, prefix_take hpre⟩
    · rw [he] at c4
      injection c4 with c4
      subst c4
      obtain ⟨k31, k15, _, k13, km⟩ := stop_fields (k := ll.getD 256 0 - 11) (by omega)
      rw [fastOther_sub ht h (by omega) c2 c5, k31, if_neg (by decide), k13, if_pos rfl, km]
      obtain ⟨q1, q2, q3, q4, q5⟩ := Bits.drop_ok c p 11 h (by omega)
      obtain ⟨w1, w2, w3, w4, w5⟩ := Bits.drop_ok (c.drop 11) (p + 11) (ll.getD 256 0 - 11) q1 (by omega)
      rw [show p + 11 + (ll.getD 256 0 - 11) = p + ll.getD 256 0 by omega, hpos] at w1
      exact ⟨_, rfl, w1, w3.trans q3, by omega, prefix_take hpre⟩
  | @lit x bits _ _ _ hu hsym =>
    obtain ⟨f1, f2, f3⟩ := front_word hp hb
    have h15 := ht.short _ (getD_mem (Prefix.used_lt hu))
    have hx : x.toNat < 256 := x.toNat_lt
    rcases ht.read _ _ _ hu (litlen_literal _ hx) f1 with ⟨c1, c2⟩ | ⟨c1, st, bt, c2, c3, c4, c5⟩
    · rw [he] at c2
      injection c2 with c2
      rw [c2, (literal_fields hx h15).1] at h31
      exact absurd h31 (by decide)
    · rw [he] at c4
      injection c4 with c4
      subst c4
      obtain ⟨k31, _, k16, km⟩ := literal_fields (k := ll.getD x.toNat 0 - 11) hx (by omega)
      obtain ⟨q1, q2, q3, q4, q5⟩ := Bits.drop_ok c p 11 h (by omega)
      obtain ⟨w1, w2, w3, w4, w5⟩ := Bits.drop_ok (c.drop 11) (p + 11) (ll.getD x.toNat 0 - 11) q1 (by omega)
      rw [show p + 11 + (ll.getD x.toNat 0 - 11) = p + ll.getD x.toNat 0 by omega] at w1
      rw [fastOther_sub ht h (by omega) c2 c5, k31, if_pos rfl, km, k16, UInt8.ofNat_toNat]
      obtain ⟨next, hnext⟩ := table_some ht (peek_lt ((c.drop 11).drop (ll.getD x.toNat 0 - 11)) 11)
      rw [hnext]
      refine ⟨_, rfl, _, ⟨bits, out ++ [x], w1, w3.trans q3, f3, f2, hsym, prefix_set hpre (by omega) x, by simp, ?_⟩, ?_⟩
      · rw [List.length_append, word_length'] at hn
        omega
      · rw [← hnext, Bits.peek_ok _ _ 11 w1 (by omega), w3, q3]
  | @copy s x d y bits _ _ _ h1 h2 hu hx h3 hud hy hdist hsym =>
    obtain ⟨f1, f2, f3⟩ := front_word hp hb
    obtain ⟨g1, g2, g3⟩ := front_lsb f3 f2 hx
    have h15 := ht.short _ (getD_mem (Prefix.used_lt hu))
    obtain ⟨x1, x2, x3⟩ := length_small s (by omega)
    obtain ⟨y1, y2, y3⟩ := dist_small d (by omega)
    have hf := hfit s h1 h2 hu d h3 hud
    have hg := Symbols.grow hsym
    rw [lz_length _ _ (by omega) hdist] at hg
    have hlt : bits.length < n := by
      have := used_pos hu
      simp only [List.length_append, word_length', lsb_length] at hn
      omega
    rcases ht.read _ _ _ hu (litlen_length s (by omega) h1) f1 with ⟨c1, c2⟩ | ⟨c1, st, bt, c2, c3, c4, c5⟩
    · rw [he] at c2
      injection c2 with c2
      subst c2
      obtain ⟨_, k15, _, _, km, _⟩ := value_fields (B := lengthBase s) (x := lengthExtra s) (k := ll.getD s 0) (by omega) (by omega) h15
      obtain ⟨q1, q2, q3, q4, q5⟩ := Bits.drop_ok c p (lengthExtra s + ll.getD s 0) h (by omega)
      rw [fastOther, k15, if_neg (by decide), km]
      rw [show p + (lengthExtra s + ll.getD s 0) = p + ll.getD s 0 + lengthExtra s by omega] at q1
      apply fastMatch_ok ht hd q1 q3 g3 (by omega) h3 hud hy g2 (by omega) (L := lengthBase s + x) ?_ hpre (by omega) hdist (by omega) hsym hlt
      apply entryValue_ok (v := leVal c.src / 2 ^ p) (by omega) (by omega) h15
      · exact Bits.peek_ok c p (lengthExtra s + ll.getD s 0) h (by omega)
      · rw [← shift_val]
        exact g1
    · rw [he] at c4
      injection c4 with c4
      subst c4
      obtain ⟨k31, _, _, k13, km, _⟩ := value_fields (B := lengthBase s) (x := lengthExtra s) (k := ll.getD s 0 - 11) (by omega) (by omega) (by omega)
      obtain ⟨q1, q2, q3, q4, q5⟩ := Bits.drop_ok c p 11 h (by omega)
      obtain ⟨w1, w2, w3, w4, w5⟩ := Bits.drop_ok (c.drop 11) (p + 11) (lengthExtra s + (ll.getD s 0 - 11)) q1 (by omega)
      rw [show p + 11 + (lengthExtra s + (ll.getD s 0 - 11)) = p + ll.getD s 0 + lengthExtra s by omega] at w1
      rw [fastOther_sub ht h (by omega) c2 c5, k31, if_neg (by decide), k13, if_neg (by decide), km]
      apply fastMatch_ok ht hd w1 (w3.trans q3) g3 (by omega) h3 hud hy g2 (by omega) (L := lengthBase s + x) ?_ hpre (by omega) hdist (by omega) hsym hlt
      apply entryValue_ok (v := leVal c.src / 2 ^ (p + 11)) (by omega) (by omega) (by omega)
      · have := Bits.peek_ok (c.drop 11) (p + 11) (lengthExtra s + (ll.getD s 0 - 11)) q1 (by omega)
        rw [q3] at this
        exact this
      · rw [← shift_val, show p + 11 + (ll.getD s 0 - 11) = p + ll.getD s 0 by omega]
        exact g1

/-- Only a literal of at most 11 bits has an entry with the literal flag in the first table. -/
theorem short_literal (ht : Tab ll litlenResults lt 11 2342) {p entry : Nat} {bits : List Bool} {out : List UInt8} (hp : p ≤ 8 * src.length)
    (hb : bitsAt src p = bits) (hsym : Symbols ll dl bits out rest out') (he : lt[leVal src / 2 ^ p % 2 ^ 11]? = some entry)
    (h31 : entry.testBit 31 = true) : ∃ (x : UInt8) (bits' : List Bool), bits = word ll x.toNat ++ bits' ∧ Used ll x.toNat ∧ ll.getD x.toNat 0 ≤ 11 ∧
      entry = x.toNat * 65536 + 2147483648 + 257 * ll.getD x.toNat 0 ∧ Symbols ll dl bits' (out ++ [x]) rest out' := by
  have hjump : ∀ {st bt v : Nat}, 11 + bt ≤ 15 → lt[leVal src / 2 ^ p % 2 ^ 11]? = some (st * 65536 + (49152 + bt * 256 + 11)) → lt[st + v]?.isSome → False := by
    intro st bt v h1 h2 h3
    rw [he] at h2
    injection h2 with h2
    have hst : st + v < 2342 := by
      rw [← ht.size]
      by_contra hge
      rw [List.getElem?_eq_none (by omega)] at h3
      exact absurd h3 (by decide)
    rw [h2, (jump_fields (by omega) (by omega) (by decide)).1] at h31
    exact absurd h31 (by decide)
  cases hsym with
  | stop _ _ hu =>
    obtain ⟨f1, f2, f3⟩ := front_word hp hb
    have h15 := ht.short _ (getD_mem (Prefix.used_lt hu))
    rcases ht.read _ _ _ hu litlen_stop f1 with ⟨c1, c2⟩ | ⟨c1, st, bt, c2, c3, c4, c5⟩
    · rw [he] at c2
      injection c2 with c2
      rw [c2, (stop_fields h15).1] at h31
      exact absurd h31 (by decide)
    · exact absurd (hjump c2 c4 (by rw [c5]; rfl)) id
  | @lit x bits _ _ _ hu hsym =>
    obtain ⟨f1, f2, f3⟩ := front_word hp hb
    rcases ht.read _ _ _ hu (litlen_literal _ x.toNat_lt) f1 with ⟨c1, c2⟩ | ⟨c1, st, bt, c2, c3, c4, c5⟩
    · rw [he] at c2
      injection c2 with c2
      exact ⟨x, bits, rfl, hu, c1, c2, hsym⟩
    · exact absurd (hjump c2 c4 (by rw [c5]; rfl)) id
  | @copy s x d y bits _ _ _ h1 h2 hu hx h3 hud hy hdist hsym =>
    obtain ⟨f1, f2, f3⟩ := front_word hp hb
    have h15 := ht.short _ (getD_mem (Prefix.used_lt hu))
    obtain ⟨x1, x2, x3⟩ := length_small s (by omega)
    rcases ht.read _ _ _ hu (litlen_length s (by omega) h1) f1 with ⟨c1, c2⟩ | ⟨c1, st, bt, c2, c3, c4, c5⟩
    · rw [he] at c2
      injection c2 with c2
      rw [c2, (value_fields (by omega) (by omega) h15).1] at h31
      exact absurd h31 (by decide)
    · exact absurd (hjump c2 c4 (by rw [c5]; rfl)) id

/-- A pass of the fast loop. -/
theorem fastStep_ok (ht : Tab ll litlenResults lt 11 2342) (hd : Tab dl offsetResults ot 8 512) (hfits : Fits ll dl) (hr : r ≤ 8 * src.length)
    (hlim : out'.length ≤ o.limit) (hrest : rest = bitsAt src r) {b : Bits} {p entry : Nat} {bits : List Bool} {out buf : List UInt8} (h : b.Ok p)
    (hs : b.src = src) (hp : p ≤ 8 * src.length) (hb : bitsAt src p = bits) (hsym : Symbols ll dl bits out rest out')
    (he : lt[leVal src / 2 ^ p % 2 ^ 11]? = some entry) (hpre : out <+: buf) {n : Nat} (hn : bits.length ≤ n) :
    ∃ s, fastStep o lt ot b entry buf out.length = .ok s ∧ StepOk ll dl lt src r rest out' n s := by
  obtain ⟨buf1, hbuf, hpre1, hroom⟩ : ∃ buf1, (if out.length + 296 > buf.length then buf ++ List.replicate (296 + 4096) 0 else buf) = buf1 ∧ out <+: buf1 ∧
      out.length + 296 ≤ buf1.length := by
    have := hpre.length_le
    split
    · exact ⟨_, rfl, hpre.trans (List.prefix_append _ _), by rw [List.length_append, List.length_replicate]; omega⟩
    · exact ⟨_, rfl, hpre, by omega⟩
  rw [fastStep]
  simp only
  rw [hbuf]
  by_cases hpos : b.src.length < b.pos + 8
  · rw [if_pos hpos]
    exact ⟨_, rfl, p, bits, out, h, hs, hp, hb, hsym, hpre1, rfl, hn⟩
  · rw [if_neg hpos]
    obtain ⟨i1, i2, i3, _⟩ := refillInner_ok h
    have i3 := i3 (by omega)
    rw [hs] at i2
    by_cases h31 : entry.testBit 31
    · obtain ⟨x, bits', hb', hu, h11, he', hsym'⟩ := short_literal ht hp hb hsym he h31
      subst hb'
      obtain ⟨f1, f2, f3⟩ := front_word hp hb
      obtain ⟨_, _, k16, km⟩ := literal_fields (k := ll.getD x.toNat 0) x.toNat_lt (by omega)
      obtain ⟨q1, q2, q3, q4, q5⟩ := Bits.drop_ok b.refillInner p (ll.getD x.toNat 0) i1 (by omega)
      rw [if_pos h31, he', km, k16, UInt8.ofNat_toNat]
      obtain ⟨e, hnext⟩ := table_some ht (peek_lt (b.refillInner.drop (ll.getD x.toNat 0)) 11)
      rw [hnext]
      simp only
      have hentry : lt[leVal src / 2 ^ (p + ll.getD x.toNat 0) % 2 ^ 11]? = some e := by
        rw [← hnext, Bits.peek_ok _ _ 11 q1 (by omega), q3, i2]
      rw [if_neg (by omega)]
      have hpre2 := prefix_set hpre1 (by omega) x
      have hlen := used_pos hu
      rw [List.length_append, word_length'] at hn
      by_cases e31 : e.testBit 31
      · obtain ⟨x2, bits2, hb2, hu2, h112, he2, hsym2⟩ := short_literal ht f3 f2 hsym' hentry e31
        subst hb2
        obtain ⟨g1, g2, g3⟩ := front_word f3 f2
        obtain ⟨_, _, j16, jm⟩ := literal_fields (k := ll.getD x2.toNat 0) x2.toNat_lt (by omega)
        obtain ⟨w1, w2, w3, w4, w5⟩ := Bits.drop_ok (b.refillInner.drop (ll.getD x.toNat 0)) _ (ll.getD x2.toNat 0) q1 (by omega)
        rw [if_pos e31, he2, jm, j16, UInt8.ofNat_toNat]
        obtain ⟨e3, hnext3⟩ := table_some ht (peek_lt ((b.refillInner.drop (ll.getD x.toNat 0)).drop (ll.getD x2.toNat 0)) 11)
        rw [hnext3]
        have hpre3 := prefix_set hpre2 (by rw [List.length_append, List.length_singleton, List.length_set]; omega) x2
        rw [List.length_append, List.length_singleton] at hpre3
        refine ⟨_, rfl, _, ⟨bits2, out ++ [x] ++ [x2], w1, w3.trans (q3.trans i2), g3, g2, hsym2, hpre3, by simp, ?_⟩, ?_⟩
        · rw [List.length_append, word_length'] at hn
          omega
        · rw [← hnext3, Bits.peek_ok _ _ 11 w1 (by omega), w3, q3, i2]
      · rw [if_neg e31]
        have := fastOther_ok (o := o) (buf := buf1.set out.length x) ht hd hr hlim hrest q1 (q3.trans i2) f3 (by omega) f2 hsym' hentry (by simpa using e31)
          (fun t t1 t2 tu d dd du => by have := hfits x.toNat x.toNat_lt hu h11 t t1 t2 tu d dd du; omega) hpre2
          (by rw [List.length_append, List.length_singleton, List.length_set]; omega) (n := n) (by omega)
        rwa [List.length_append, List.length_singleton] at this
    · rw [if_neg h31]
      exact fastOther_ok ht hd hr hlim hrest i1 i2 hp (by omega) hb hsym he (by simpa using h31)
        (fun t t1 t2 tu d dd du => by
          have a1 := ht.short _ (getD_mem (Prefix.used_lt tu))
          have a2 := hd.short _ (getD_mem (Prefix.used_lt du))
          have a3 := length_small t (by omega)
          have a4 := dist_small d (by omega)
          omega) hpre1 (by omega) hn

/-- The fast loop decodes symbols up to the end of the block or up to where it hands over. -/
theorem fastLoop_ok (ht : Tab ll litlenResults lt 11 2342) (hd : Tab dl offsetResults ot 8 512) (hfits : Fits ll dl) (hr : r ≤ 8 * src.length)
    (hlim : out'.length ≤ o.limit) (hrest : rest = bitsAt src r) : ∀ (fuel : Nat) (b : Bits) (p entry : Nat) (buf : List UInt8) (dest : Nat),
      Pending ll dl src rest out' b buf dest (fuel - 1) p → lt[leVal src / 2 ^ p % 2 ^ 11]? = some entry → 1 ≤ fuel →
      ∃ s n, fastLoop o lt ot fuel b entry buf dest = .ok s ∧ StepOk ll dl lt src r rest out' n s ∧ n < fuel ∧ ∀ b e f d, s ≠ .more b e f d := by
  intro fuel
  induction fuel with
  | zero => intro b p entry buf dest _ _ h; omega
  | succ fuel ih =>
    intro b p entry buf dest hpend he _
    obtain ⟨bits, out, h1, h2, h3, h4, h5, h6, rfl, h8⟩ := hpend
    obtain ⟨s, e1, e2⟩ := fastStep_ok (o := o) ht hd hfits hr hlim hrest h1 h2 h3 h4 h5 he h6 h8
    rw [fastLoop, e1]
    cases s with
    | done b buf dest => exact ⟨_, _, rfl, e2, by omega, by simp⟩
    | slow b buf dest => exact ⟨_, _, rfl, e2, by omega, by simp⟩
    | more b entry buf dest =>
      obtain ⟨p', hp', he'⟩ := e2
      by_cases hf : 1 ≤ fuel
      · obtain ⟨s, n, a1, a2, a3, a4⟩ := ih b p' entry buf dest hp' he' hf
        exact ⟨s, n, a1, a2, by omega, a4⟩
      · exfalso
        obtain ⟨bits, out, _, _, _, _, k5, _, _, k8⟩ := hp'
        have : bits = [] := List.eq_nil_of_length_eq_zero (by omega)
        subst this
        have hw : ∀ (s : Nat) (w : List Bool), Used ll s → [] ≠ word ll s ++ w := by
          intro s w hu hc
          have h9 := congrArg List.length hc
          rw [List.length_append, word_length'] at h9
          have := used_pos hu
          rw [List.length_nil] at h9
          omega
        generalize hz : ([] : List Bool) = z at k5
        cases k5 with
        | stop _ _ hu => exact hw _ _ hu hz
        | lit _ hu _ => exact hw _ _ hu hz
        | copy _ _ _ _ _ _ hu => exact hw _ _ hu hz

/-- The body of a block. -/
theorem body_ok (ht : Tab ll litlenResults lt 11 2342) (hd : Tab dl offsetResults ot 8 512) (hfits : Fits ll dl) (hr : r ≤ 8 * src.length)
    (hlim : out'.length ≤ o.limit) (hrest : rest = bitsAt src r) {b : Bits} {p : Nat} {bits : List Bool} {out buf : List UInt8} (h : b.Ok p)
    (hs : b.src = src) (hp : p ≤ 8 * src.length) (hb : bitsAt src p = bits) (hsym : Symbols ll dl bits out rest out') (hpre : out <+: buf) {fuel : Nat}
    (hf : bits.length < fuel) :
    ∃ b' buf' dest', body o lt ot fuel b buf out.length = .ok (b', buf', dest') ∧ BlockEnd ll src r out' b' buf' dest' := by
  rw [body]
  by_cases hc : 3 * 16 < b.remaining
  · rw [if_pos hc]
    obtain ⟨i1, i2, i3, _⟩ := refillInner_ok h
    rw [Bits.remaining] at hc
    have i3 := i3 (by omega)
    obtain ⟨entry, hentry⟩ := table_some ht (peek_lt b.refillInner 11)
    simp only
    rw [hentry]
    simp only
    obtain ⟨s, n, a1, a2, a3, a4⟩ := fastLoop_ok (o := o) ht hd hfits hr hlim hrest fuel b.refillInner p entry buf out.length
      ⟨bits, out, i1, i2.trans hs, hp, hb, hsym, hpre, rfl, by omega⟩ (by rw [← hentry, Bits.peek_ok _ _ 11 i1 (by omega), i2, hs]) (by omega)
    rw [a1]
    cases s with
    | done b' buf' dest' => exact ⟨b', buf', dest', rfl, a2⟩
    | slow b' buf' dest' =>
      obtain ⟨p', bits', out1, k1, k2, k3, k4, k5, k6, rfl, k8⟩ := a2
      exact slowLoop_ok ht hd hr hlim k5 hrest fuel b' p' buf' (by omega) k1 k2 k3 k4 k6
    | more b' e' buf' dest' => exact absurd rfl (a4 b' e' buf' dest')
  · rw [if_neg hc]
    exact slowLoop_ok ht hd hr hlim hsym hrest fuel b p buf hf h hs hp hb hpre

end Zune.Inflate
