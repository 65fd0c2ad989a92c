/-
Property C14: every valid deflate stream decodes to the output that RFC 1951 prescribes.
-/
import Verif.Inflate.HuffBlocks
import Verif.Inflate.Gzip

namespace Zune.Inflate

open Prefix (Used word weight)
open Rfc1951 (bitsAt lengthExtra lengthBase distExtra distBase lz Symbols Lengths Header Block Stream staticLitLen staticDist)

/-! ### A stream does not depend on what follows it -/

theorem Symbols.append {ll dl : List Nat} {bits rest : List Bool} {out out' : List UInt8} (h : Symbols ll dl bits out rest out') (z : List Bool) :
    Symbols ll dl (bits ++ z) out (rest ++ z) out' := by
  induction h with
  | stop bits out hu => rw [List.append_assoc]; exact .stop _ _ hu
  | lit x hu _ ih => rw [List.append_assoc]; exact .lit x hu ih
  | copy s x d y h1 h2 h3 h4 h5 h6 h7 h8 _ ih =>
    simp only [List.append_assoc]
    exact .copy s x d y h1 h2 h3 h4 h5 h6 h7 h8 ih

theorem Lengths.append {pl : List Nat} {total : Nat} {bits rest : List Bool} {lens all : List Nat} (h : Lengths pl total bits lens rest all) (z : List Bool) :
    Lengths pl total (bits ++ z) lens (rest ++ z) all := by
  induction h with
  | stop bits lens hl => exact .stop _ _ hl
  | plain s h1 h2 _ ih => rw [List.append_assoc]; exact .plain s h1 h2 ih
  | again x v h1 h2 h3 _ ih => simp only [List.append_assoc]; exact .again x v h1 h2 h3 ih
  | zeros x h1 h2 _ ih => simp only [List.append_assoc]; exact .zeros x h1 h2 ih
  | manyZeros x h1 h2 _ ih => simp only [List.append_assoc]; exact .manyZeros x h1 h2 ih

theorem Header.append {ll dl : List Nat} {bits rest : List Bool} (h : Header bits ll dl rest) (z : List Bool) : Header (bits ++ z) ll dl (rest ++ z) := by
  obtain ⟨hlit, hdist, v, all, bits, rest, k1, k2, k3, k4, k5, k6, k7⟩ := h
  simp only [List.append_assoc]
  exact .mk hlit hdist v all _ _ k1 k2 k3 k4 k5 k6 (Lengths.append k7 z)

theorem bitsAt_append {src : List UInt8} {p : Nat} (tail : List UInt8) (hp : p ≤ 8 * src.length) : bitsAt (src ++ tail) p = bitsAt src p ++ bytesLsb tail := by
  have hl : (bytesLsb src).length = 8 * src.length := by
    simp
  rw [bitsAt, bitsAt, show bytesLsb (src ++ tail) = bytesLsb src ++ bytesLsb tail from List.flatMap_append, List.drop_append_of_le_length (by omega)]

theorem Block.append {ok : List Nat → List Nat → Prop} {src : List UInt8} (tail : List UInt8) {fin : Bool} {p r : Nat} {out out' : List UInt8}
    (h : Block ok (fun _ => True) src fin p out r out') (hp : p ≤ 8 * src.length) : Block ok (fun _ => True) (src ++ tail) fin p out r out' := by
  cases h with
  | stored q out payload bits rest hb h1 h2 h3 h4 h5 =>
    have hle := congrArg List.length h4
    simp only [List.length_drop, List.length_append, leBytes_length] at hle
    refine .stored p q out payload (bits ++ bytesLsb tail) (rest ++ tail) ?_ h1 h2 h3 ?_ (fun _ => trivial)
    · rw [bitsAt_append tail hp, hb]
      simp
    · rw [List.drop_append_of_le_length (by omega), h4]
      simp
  | static r out out' bits hb hr hs =>
    refine .static p _ out _ (bits ++ bytesLsb tail) ?_ (by rw [List.length_append]; omega) ?_
    · rw [bitsAt_append tail hp, hb]
      simp
    · rw [bitsAt_append tail hr]
      exact Symbols.append hs _
  | dynamic r ll dl out out' bits bits' hb hr hh hc hd ho hs =>
    refine .dynamic p _ ll dl out _ (bits ++ bytesLsb tail) (bits' ++ bytesLsb tail) ?_ (by rw [List.length_append]; omega) (Header.append hh _) hc hd ho ?_
    · rw [bitsAt_append tail hp, hb]
      simp
    · rw [bitsAt_append tail hr]
      exact Symbols.append hs _

theorem Stream.append {ok : List Nat → List Nat → Prop} {src : List UInt8} (tail : List UInt8) {p r : Nat} {out out' : List UInt8}
    (h : Stream ok (fun _ => True) src p out r out') (hp : p ≤ 8 * src.length) : Stream ok (fun _ => True) (src ++ tail) p out r out' := by
  induction h with
  | last h => exact .last (Block.append tail h hp)
  | cons h _ ih => exact .cons (Block.append tail h hp) (ih (block_le h hp).2)

/-! ### Theorems -/

/-- **C14** for raw deflate data: a sequence of blocks as in RFC 1951 decodes to the output that the RFC prescribes, whatever the output vector
    held before and whatever follows the blocks.  Partial: in dynamic blocks a literal and a match must fit in 56 bits (`Fits`, see
    `c14_fast_underflow`), a stored block that is not the last one must not start in the last 55 bits of the data (see `c14_flush_lost`), and the
    output is within the limit. -/
theorem c14_deflate_partial (o : Options) (junk : Nat → List UInt8) (fuel : Nat) (src : List UInt8) (r : Nat) (out : List UInt8)
    (h : Stream Fits (fun p => p + 56 ≤ 8 * src.length) src 0 [] r out) (hlim : out.length ≤ o.limit) (hf : 8 * src.length < fuel) :
    (inflate o (huffBlock o fuel) (Tables.start junk) fuel src 0).map (·.2) = .ok out := by
  obtain ⟨b, e, _⟩ := inflate_ok (o := o) (data := src) (pre := 0) junk rfl hf h hlim
  rw [e]
  rfl

/-- **C14** for zlib data: header, blocks, checksum, and anything behind.  Partial: `Fits`, and the output limit. -/
theorem c14_zlib_partial (o : Options) (junk : Nat → List UInt8) (fuel : Nat) (cmf flg : UInt8) (body tail : List UInt8) (r : Nat) (out : List UInt8)
    (h1 : cmf.toNat % 16 = 8) (h2 : cmf.toNat / 16 ≤ 7) (h3 : (cmf.toNat * 256 + flg.toNat) % 31 = 0)
    (h : Stream Fits (fun _ => True) body 0 [] r out) (hr : body.length = (r + 7) / 8) (hlim : out.length ≤ o.limit)
    (hf : 8 * (body ++ beBytes 4 (Spec.adler out) ++ tail).length < fuel) :
    decodeZlib o (huffBlock o fuel) (Tables.start junk) fuel (cmf :: flg :: (body ++ beBytes 4 (Spec.adler out) ++ tail)) = .ok out := by
  rw [← c12_adler] at hf ⊢
  obtain ⟨src, hsrc⟩ : ∃ src, body ++ beBytes 4 (adler32 out) ++ tail = src := ⟨_, rfl⟩
  have hlen : src.length = body.length + 4 + tail.length := by rw [← hsrc]; simp only [List.length_append, beBytes_length]
  rw [hsrc] at hf ⊢
  have hle := stream_le h (Nat.zero_le _)
  have hst := Stream.append (beBytes 4 (adler32 out) ++ tail) h (Nat.zero_le _)
  rw [← List.append_assoc, hsrc] at hst
  obtain ⟨b, e, hend⟩ := inflate_ok (src := src) (o := o) (data := cmf :: flg :: src) (pre := 2) junk rfl hf (stream_room hst (Nat.zero_le _) (by omega)) hlim
  have hpos := hend.pos (by omega)
  have hA := adler32_lt out
  have hm : adler32 out % 256 ^ 4 = adler32 out := Nat.mod_eq_of_lt (lt_of_lt_of_le hA (by decide))
  have hread : ((cmf :: flg :: src).drop (b.position + 2 + b.over)).take 4 = beBytes 4 (adler32 out) := by
    rw [show b.position + 2 + b.over = body.length + 2 by omega, List.drop_succ_cons, List.drop_succ_cons, ← hsrc, List.append_assoc, List.drop_left' rfl]
    exact List.take_left' (beBytes_length _ _)
  have hl : (cmf :: flg :: src).length = src.length + 2 := rfl
  rw [decodeZlib, if_neg (by omega), if_neg (by rw [show (0xf : Nat) = 2 ^ 4 - 1 by rfl, Nat.and_two_pow_sub_one_eq_mod]; omega),
    if_neg (by rw [Nat.shiftRight_eq_div_pow]; omega), if_neg (by omega), e]
  simp only
  rw [hread, if_pos (show b.position + 2 + b.over + 4 ≤ (cmf :: flg :: src).length by omega), beVal_beBytes, hm]
  simp

/-- **C14** for gzip data: any header, blocks, CRC and length, and anything behind.  Partial: `Fits`, the output limit, and less than 4 GiB. -/
theorem c14_gzip_partial (o : Options) (junk : Nat → List UInt8) (fuel : Nat) (hd : Gz) (hv : hd.Valid) (body tail : List UInt8) (r : Nat) (out : List UInt8)
    (h : Stream Fits (fun _ => True) body 0 [] r out) (hr : body.length = (r + 7) / 8) (hlim : out.length ≤ o.limit) (hsz : out.length < 2 ^ 32)
    (hf : 8 * (body.length + 8 + tail.length) < fuel) :
    decodeGzip o (huffBlock o fuel) (Tables.start junk) fuel
      (hd.bytes ++ (body ++ (leBytes 4 (2 ^ 32 - 1 - Spec.crc out (2 ^ 32 - 1)) ++ leBytes 4 out.length ++ tail))) = .ok out := by
  obtain ⟨crc, hcrc⟩ : ∃ crc, 2 ^ 32 - 1 - Spec.crc out (2 ^ 32 - 1) = crc := ⟨_, rfl⟩
  rw [hcrc, gzip_header _ _ _ _ hd hv _ (by simp only [List.length_append, leBytes_length]; omega)]
  obtain ⟨src, hsrc⟩ : ∃ src, body ++ (leBytes 4 crc ++ leBytes 4 out.length ++ tail) = src := ⟨_, rfl⟩
  have hlen : src.length = body.length + 8 + tail.length := by rw [← hsrc]; simp only [List.length_append, leBytes_length]; omega
  rw [hsrc]
  have hle := stream_le h (Nat.zero_le _)
  have hst := Stream.append (leBytes 4 crc ++ leBytes 4 out.length ++ tail) h (Nat.zero_le _)
  rw [hsrc] at hst
  have hdrop : (hd.bytes ++ src).drop hd.bytes.length = src := List.drop_left' rfl
  obtain ⟨b, e, hend⟩ := inflate_ok (o := o) (data := hd.bytes ++ src) (pre := hd.bytes.length) (fuel := fuel) junk hdrop (by omega)
    (stream_room hst (Nat.zero_le _) (by omega)) hlim
  have hpos := hend.pos (by omega)
  rw [e]
  simp only
  rw [gzip_footer o (hd.bytes ++ src) out tail _ crc out.length (by omega) hsz, if_neg (by rw [hcrc]; simp), if_neg (by simp)]
  rw [show b.position + hd.bytes.length + b.over = hd.bytes.length + body.length by omega, ← List.drop_drop, hdrop, ← hsrc]
  exact List.drop_left' rfl

/-- Literal/length codes of at most 12 bits satisfy `Fits`. -/
theorem fits_of_short {ll dl : List Nat} (h1 : ∀ l ∈ ll, l ≤ 12) (h2 : ∀ l ∈ dl, l ≤ 15) : Fits ll dl := by
  intro s hs us hl t t1 t2 ut d d1 ud
  have a2 := h1 _ (getD_mem (Prefix.used_lt ut))
  have a3 := h2 _ (getD_mem (Prefix.used_lt ud))
  have a4 := length_small t (by omega)
  have a5 := dist_small d (by omega)
  omega

/-- Codes for `a`, the end of the block, the length 3 and the distance 1. -/
def demoLl : List Nat := List.replicate 97 0 ++ [1] ++ List.replicate 158 0 ++ [2, 2]

/-- The first lengths of the code length code for these. -/
def demoV : List Nat := [0, 0, 1, 0, 0, 0, 0, 0, 0, 0, 0, 0, 0, 0, 0, 2, 0, 2]

/-- A static block (`a` and a copy), and a dynamic block (the same again). -/
def demo : List UInt8 := [74, 4, 2, 64, 3, 112, 32, 0, 0, 0, 0, 32, 136, 53, 127, 137, 207, 2]

theorem demo_static : Block Fits (fun _ => True) demo false 0 [] 30 [97, 97, 97, 97] := by
  refine .static 0 30 [] _ (bitsAt demo 3) (by decide +kernel) (by decide +kernel) ?_
  have h : bitsAt demo 3 = word staticLitLen 97 ++ (word staticLitLen 257 ++ (lsb (lengthExtra 257) 0 ++ (word staticDist 0 ++ (lsb (distExtra 0) 0 ++
    (word staticLitLen 256 ++ bitsAt demo 30))))) := by decide +kernel
  rw [h]
  exact .lit 97 (by unfold Used; decide +kernel) (.copy 257 0 0 0 (by decide) (by decide) (by unfold Used; decide +kernel) (by decide) (by decide)
    (by unfold Used; decide +kernel) (by decide) (by decide) (.stop _ _ (by unfold Used; decide +kernel)))

theorem demo_dynamic : Block Fits (fun _ => True) demo true 30 [97, 97, 97, 97] 139 [97, 97, 97, 97, 97, 97, 97, 97] := by
  have hpl : Rfc1951.lengthsFrom demoV = [0, 2, 2, 0, 0, 0, 0, 0, 0, 0, 0, 0, 0, 0, 0, 0, 0, 0, 1] := by decide +kernel
  have hh : Header (bitsAt demo 33) demoLl [1] (bitsAt demo 133) := by
    have h : bitsAt demo 33 = lsb 5 1 ++ (lsb 5 0 ++ (lsb 4 (demoV.length - 4) ++ (demoV.flatMap (lsb 3) ++ bitsAt demo 101))) := by decide +kernel
    rw [h]
    have e1 : (demoLl ++ [1]).take (257 + 1) = demoLl := by decide +kernel
    have e2 : (demoLl ++ [1]).drop (257 + 1) = [1] := by decide +kernel
    suffices hs : Rfc1951.Code (Rfc1951.lengthsFrom demoV) ∧ Lengths (Rfc1951.lengthsFrom demoV) (257 + 1 + (1 + 0)) (bitsAt demo 101) [] (bitsAt demo 133) (demoLl ++ [1]) by
      have := Header.mk 1 0 demoV (demoLl ++ [1]) _ _ (by decide) (by decide) (by decide) (by decide) (by decide) hs.1 hs.2
      rwa [e1, e2] at this
    constructor
    · rw [hpl]
      exact Or.inl ⟨by decide +kernel, by decide +kernel⟩
    · rw [hpl]
      generalize hp : [0, 2, 2, 0, 0, 0, 0, 0, 0, 0, 0, 0, 0, 0, 0, 0, 0, 0, 1] = pl
      have hb : bitsAt demo 101 = word pl 18 ++ (lsb 7 86 ++ (word pl 1 ++ (word pl 18 ++ (lsb 7 127 ++ (word pl 18 ++ (lsb 7 9 ++ (word pl 2 ++ (word pl 2 ++
        (word pl 1 ++ bitsAt demo 133))))))))) := by
        rw [← hp]
        decide +kernel
      have u18 : Used pl 18 := by rw [← hp]; unfold Used; decide
      have u1 : Used pl 1 := by rw [← hp]; unfold Used; decide
      have u2 : Used pl 2 := by rw [← hp]; unfold Used; decide
      rw [hb]
      refine .manyZeros 86 (by decide) u18 (.plain 1 (by decide) u1 (.manyZeros 127 (by decide) u18 (.manyZeros 9 (by decide) u18 (.plain 2 (by decide) u2
        (.plain 2 (by decide) u2 (.plain 1 (by decide) u1 ?_))))))
      have he : (([] : List Nat) ++ List.replicate (11 + 86) 0 ++ [1] ++ List.replicate (11 + 127) 0 ++ List.replicate (11 + 9) 0 ++ [2] ++ [2] ++ [1]) = demoLl ++ [1] := by
        decide +kernel
      rw [he]
      exact .stop _ _ (by decide +kernel)
  refine .dynamic 30 139 demoLl [1] _ _ (bitsAt demo 33) (bitsAt demo 133) (by decide +kernel) (by decide +kernel) hh (Or.inl ⟨by decide +kernel, by decide +kernel⟩)
    (Or.inl (Or.inr ⟨0, by decide, ?_⟩)) (fits_of_short (by decide +kernel) (by decide)) ?_
  · intro t ht
    have := Prefix.used_lt ht
    simpa using this
  · have h : bitsAt demo 133 = word demoLl 97 ++ (word demoLl 257 ++ (lsb (lengthExtra 257) 0 ++ (word [1] 0 ++ (lsb (distExtra 0) 0 ++
      (word demoLl 256 ++ bitsAt demo 139))))) := by decide +kernel
    rw [h]
    exact .lit 97 (by unfold Used; decide +kernel) (.copy 257 0 0 0 (by decide) (by decide) (by unfold Used; decide +kernel) (by decide) (by decide)
      (by unfold Used; decide) (by decide) (by decide) (.stop _ _ (by unfold Used; decide +kernel)))

/-- Two blocks that meet the hypotheses of the three theorems. -/
example : Stream Fits (fun _ => True) demo 0 [] 139 [97, 97, 97, 97, 97, 97, 97, 97] ∧ demo.length = (139 + 7) / 8 :=
  ⟨.cons demo_static (.last demo_dynamic), by decide +kernel⟩
example : (0x78 : UInt8).toNat % 16 = 8 ∧ (0x78 : UInt8).toNat / 16 ≤ 7 ∧ ((0x78 : UInt8).toNat * 256 + (0x9c : UInt8).toNat) % 31 = 0 := by decide

/-! ### Where the code departs from the RFC -/

theorem slowPad_buf (b : Bits) : b.slowPad.buf = b.buf := by
  fun_induction Bits.slowPad b with
  | case1 b h ih => exact ih
  | case2 b h => rfl

/-- **C14** is false of raw data: when all that follows an empty stored block (a sync flush) is an empty final block, and the stored block starts
    one to five bits behind a byte boundary, the decoder reads the last byte of the stored block as the next block and fails. -/
theorem c14_flush_lost {σ : Type} (o : Options) (huff : σ → Nat → Bits → List UInt8 → Except Err (σ × Bits × List UInt8)) (st : σ) (fuel : Nat) (b : Bits)
    (p : Nat) (out : List UInt8) (bits : List Bool) (h : b.Ok p) (hp : 1 ≤ p % 8 ∧ p % 8 ≤ 5) (hb : bitsAt b.src p = false :: (lsb 2 0 ++ bits))
    (hd : b.src.drop (p / 8 + 1) = [0, 0, 0xff, 0xff, 3, 0]) (hlim : out.length ≤ o.limit) :
    blocks o b.src 0 huff (fuel + 2) st b out = .error .generic := by
  have hlen := congrArg List.length hd
  rw [List.length_drop] at hlen
  simp only [List.length_cons, List.length_nil] at hlen
  obtain ⟨r1, r2, r3, _⟩ := Bits.refill_ok b p h
  have rl := r1.left_lt
  have rc := r1.count
  have rp := r1.pos_le
  have re := r1.over_end
  rw [r3] at rp re
  have hover : b.refill.over = 1 := by
    by_cases h0 : 0 < b.refill.over
    · have := re h0
      omega
    · omega
  obtain ⟨w1, w2, w3, w4⟩ := bits3 (src := b.src) (by omega) hb (by decide)
  obtain ⟨v1, h1, l1, s1, o1, p1⟩ := Bits.get_ok b.refill p 1 r1 (by omega)
  obtain ⟨v2, h2, l2, s2, o2, p2⟩ := Bits.get_ok (b.refill.get 1).2 (p + 1) 2 h1 (by omega)
  rw [r3, w1] at v1
  rw [s1, r3, w2] at v2
  rw [s1, r3] at s2
  obtain ⟨pos, e1, e2⟩ := stored_ok o b.src out [] [3, 0] 0 (p + 1 + 2) (p / 8 + 1) ((b.refill.get 1).2.get 2).2 h2 (by omega) (by omega) (by rw [s2]; rfl)
    (by omega) (by omega) (by decide) (by rw [s2, hd]; decide)
  rw [if_neg (by omega), s2, o2, o1, hover] at e1
  rw [o2, o1, hover, List.length_nil] at e2
  rw [blocks]
  rw [v2, v1, if_pos rfl, e1]
  simp only
  rw [if_neg (by decide)]
  obtain rfl : pos = p / 8 + 1 + 3 := by omega
  have hd3 : b.src.drop (p / 8 + 1 + 3) = [0xff, 3, 0] := by rw [← List.drop_drop, hd]; rfl
  have hbuf : ({ src := b.src, pos := p / 8 + 1 + 3, left := 0, buf := 0, over := 1 } : Bits).refill.buf = 1023 := by
    rw [Bits.refill, if_neg (by simp only; omega), slowPad_buf]
    simp only
    rw [hd3]
    simp [Bits.slowBytes]
  rw [blocks]
  have hg1 : (({ src := b.src, pos := p / 8 + 1 + 3, left := 0, buf := 0, over := 1 } : Bits).refill.get 1).1 = 1 := by
    rw [Bits.get, hbuf]; rfl
  have hg2 : ((({ src := b.src, pos := p / 8 + 1 + 3, left := 0, buf := 0, over := 1 } : Bits).refill.get 1).2.get 2).1 = 3 := by
    simp only [Bits.get, Bits.drop, hbuf]; rfl
  rw [hg2, if_neg (by decide), if_pos rfl]

/-- An empty static block, a sync flush and an empty static block at the end: valid raw data. -/
def flushed : List UInt8 := [0x02, 0, 0, 0, 0xff, 0xff, 0x03, 0]

theorem flushed_first (ok : List Nat → List Nat → Prop) (room : Nat → Prop) : Block ok room flushed false 0 [] 10 [] := by
  refine .static 0 10 [] [] ((bitsAt flushed 3)) (by decide +kernel) (by decide) ?_
  have h : bitsAt flushed 3 = word staticLitLen 256 ++ bitsAt flushed 10 := by decide +kernel
  rw [h]
  exact .stop _ _ (by unfold Used; decide +kernel)

/-- **C14** is false: `flushed` is a valid stream (with the empty output, and with 58 of its 64 bits used), which the decoder rejects. -/
theorem c14_flush_rejected (o : Options) (junk : Nat → List UInt8) (fuel : Nat) (hf : 64 < fuel) :
    Stream (fun _ _ => True) (fun _ => True) flushed 0 [] 58 [] ∧
      inflate o (huffBlock o fuel) (Tables.start junk) fuel flushed 0 = .error .generic := by
  constructor
  · refine .cons (q := 10) (mid := []) ?_ (.cons (q := 48) (mid := []) ?_ (.last ?_))
    · exact flushed_first _ _
    · exact .stored 10 2 [] [] (bitsAt flushed 13) [3, 0] (by decide +kernel) (by decide) (by decide) (by decide) (by decide +kernel) (fun _ => trivial)
    · refine .static 48 58 [] [] ((bitsAt flushed 51)) (by decide +kernel) (by decide) ?_
      have h : bitsAt flushed 51 = word staticLitLen 256 ++ bitsAt flushed 58 := by decide +kernel
      rw [h]
      exact .stop _ _ (by unfold Used; decide +kernel)
  · obtain ⟨f, rfl⟩ : ∃ f, fuel = f + 3 := ⟨fuel - 3, by omega⟩
    obtain ⟨r1, r2, r3, r4⟩ := Bits.refill_ok _ _ (Bits.new_ok flushed)
    obtain ⟨st', b', e1, _, e3, _⟩ := block_ok (o := o) (data := flushed) (pre := 0) (hfuel := f + 3) (fuel := f + 2) (by show 64 < _; omega) rfl (flushed_first _ _) (Nat.zero_le _)
      (start_ok junk) r1 r3 (Nat.zero_le _) (Or.inl rfl)
    have ha := e3 rfl
    rw [inflate, show flushed.drop 0 = flushed from rfl]
    rw [e1, if_neg (by decide)]
    have := c14_flush_lost o (huffBlock o (f + 3)) st' f b' 10 [] (bitsAt flushed 13) ha.ok (by decide) (by rw [ha.src]; decide +kernel) (by rw [ha.src]; decide +kernel)
      (Nat.zero_le _)
    rw [ha.src] at this
    exact this

/-- The entry of a distance of more than 8 bits, and the reader before the rest of its bits. -/
theorem offset_long {dl ol : List Nat} (ht : Tab dl offsetResults ol 8 512) {b : Bits} {p d : Nat} {bits : List Bool} (h : b.Ok p) (hl : 15 ≤ b.left)
    (hp : p ≤ 8 * b.src.length) (hd : d ≤ 29) (hu : Used dl d) (hb : bitsAt b.src p = word dl d ++ bits) (h8 : 8 < dl.getD d 0) :
    offsetEntry ol b = some (distBase d * 65536 + distExtra d + 257 * (dl.getD d 0 - 8), b.drop 8) := by
  obtain ⟨f1, f2, f3⟩ := front_word hp hb
  have hpk := Bits.peek_ok b p 8 h (by omega)
  rcases ht.read d _ _ hu (offset_dist d (by omega)) f1 with ⟨c1, c2⟩ | ⟨c1, st, bt, c2, c3, c4, c5⟩
  · omega
  · have hlt : st + leVal b.src / 2 ^ p / 2 ^ 8 % 2 ^ bt < 512 := by
      have := (List.getElem?_eq_some_iff.1 c5).1
      rwa [ht.size] at this
    obtain ⟨_, j15, _, _, _, j6, j7⟩ := jump_fields (st := st) (bt := bt) (T := 8) (by omega) (by omega) (by decide)
    obtain ⟨q1, q2, q3, q4, q5⟩ := Bits.drop_ok b p 8 h (by omega)
    have hpk2 := Bits.peek_ok (b.drop 8) (p + 8) bt q1 (by omega)
    rw [q3, shift_val] at hpk2
    rw [offsetEntry, hpk, c4]
    simp only
    rw [j15, j6, j7, hpk2, if_pos rfl, show (511 : Nat) = 2 ^ 9 - 1 by rfl, Nat.and_two_pow_sub_one_eq_mod, Nat.mod_eq_of_lt hlt, c5]
    rfl

/-- **C14** is false without `Fits`: a pass of the fast loop that starts on a byte boundary and reads a short literal and a match of together
    more than 56 bits takes more bits than it loaded.  Unless it fails, the number of bits left wraps around to more than 252, so that the
    next refill skips 24 bytes of the data. -/
theorem c14_fast_underflow {ll dl lt ot : List Nat} (ht : Tab ll litlenResults lt 11 2342) (hd : Tab dl offsetResults ot 8 512) (o : Options) (b : Bits)
    (p n : Nat) (x : UInt8) (s X d Y : Nat) (bits : List Bool) (entry : Nat) (buf : List UInt8) (dest : Nat) (h : b.Ok p) (hpos : b.pos + 8 ≤ b.src.length)
    (hp : p ≤ 8 * b.src.length) (h8 : p % 8 = 0) (hux : Used ll x.toNat) (h11 : ll.getD x.toNat 0 ≤ 11) (hs1 : 257 ≤ s) (hs2 : s ≤ 285) (hus : Used ll s)
    (hX : X < 2 ^ lengthExtra s) (hd29 : d ≤ 29) (hud : Used dl d)
    (hb : bitsAt b.src p = word ll x.toNat ++ (word ll s ++ (lsb (lengthExtra s) X ++ (word dl d ++ (lsb (distExtra d) Y ++ bits)))))
    (hn : n = ll.getD x.toNat 0 + ll.getD s 0 + lengthExtra s + dl.getD d 0 + distExtra d) (h56 : 56 < n)
    (he : lt[leVal b.src / 2 ^ p % 2 ^ 11]? = some entry) (t : Step) (hstep : fastStep o lt ot b entry buf dest = .ok t) :
    ∃ b' buf' dest', (t = .slow b' buf' dest' ∨ ∃ e, t = .more b' e buf' dest') ∧ b'.left = 312 - n ∧ 253 ≤ b'.left ∧
      (b'.pos + 8 ≤ b'.src.length → b'.refillInner.pos = b'.pos + 24) := by
  obtain ⟨i1, i2, i3, _⟩ := refillInner_ok h
  have i3 := i3 hpos
  have il := i1.left_lt
  have ic := i1.count
  have hleft : b.refillInner.left = 56 := by omega
  obtain ⟨x1, x2, x3⟩ := length_small s (by omega)
  obtain ⟨y1, y2, y3⟩ := dist_small d (by omega)
  have hs15 := ht.short _ (getD_mem (Prefix.used_lt hus))
  have hd15 := hd.short _ (getD_mem (Prefix.used_lt hud))
  obtain ⟨f1, f2, f3⟩ := front_word hp hb
  obtain ⟨g1, g2, g3⟩ := front_word f3 f2
  obtain ⟨k1, k2, k3⟩ := front_lsb g3 g2 hX
  have hentry : entry = x.toNat * 65536 + 2147483648 + 257 * ll.getD x.toNat 0 := by
    rcases ht.read _ _ _ hux (litlen_literal _ x.toNat_lt) f1 with ⟨c1, c2⟩ | ⟨c1, _⟩
    · rw [he] at c2
      injection c2
    · omega
  obtain ⟨m31, _, _, mm⟩ := literal_fields (k := ll.getD x.toNat 0) x.toNat_lt (by omega)
  rw [← hentry] at m31 mm
  obtain ⟨q1, q2, q3, q4, q5⟩ := Bits.drop_ok b.refillInner p (ll.getD x.toNat 0) i1 (by omega)
  rw [i2] at q3
  rcases ht.read _ _ _ hus (litlen_length s (by omega) hs1) g1 with ⟨c1, _⟩ | ⟨c1, st, bt, c2, c3, c4, c5⟩
  · omega
  have hst : st < 32768 := by
    have := (List.getElem?_eq_some_iff.1 c5).1
    rw [ht.size] at this
    omega
  obtain ⟨j31, _⟩ := jump_fields (st := st) (bt := bt) (T := 11) hst (by omega) (by decide)
  obtain ⟨z31, _, _, z13, zm, _⟩ := value_fields (B := lengthBase s) (x := lengthExtra s) (k := ll.getD s 0 - 11) (by omega) (by omega) (by omega)
  obtain ⟨u1, u2, u3, u4, u5⟩ := Bits.drop_ok (b.refillInner.drop (ll.getD x.toNat 0)) _ 11 q1 (by omega)
  obtain ⟨w1, w2, w3, w4, w5⟩ := Bits.drop_ok _ _ (lengthExtra s + (ll.getD s 0 - 11)) u1 (by omega)
  rw [show p + ll.getD x.toNat 0 + 11 + (lengthExtra s + (ll.getD s 0 - 11)) = p + ll.getD x.toNat 0 + ll.getD s 0 + lengthExtra s by omega] at w1
  rw [u3, q3] at w3
  have hoff := offset_long hd w1 (by omega) (by rw [w3]; exact k3) hd29 hud (by rw [w3]; exact k2) (by omega)
  obtain ⟨_, _, _, _, vm, _⟩ := value_fields (B := distBase d) (x := distExtra d) (k := dl.getD d 0 - 8) (by omega) (by omega) (by omega)
  rw [fastStep] at hstep
  simp only at hstep
  generalize (if dest + 296 > buf.length then buf ++ List.replicate (296 + 4096) 0 else buf) = buf1 at hstep
  rw [if_neg (by omega), if_pos m31, mm, Bits.peek_ok _ _ 11 q1 (by omega), q3, c4] at hstep
  simp only at hstep
  by_cases hbuf : buf1.length < dest + 2
  · rw [if_pos hbuf] at hstep
    cases hstep
  rw [if_neg hbuf, j31, if_neg (by decide), fastOther_sub ht q1 (by omega) c2 (by rw [q3]; exact c5), z31, if_neg (by decide), z13, if_neg (by decide), zm, fastMatch, hoff] at hstep
  simp only at hstep
  rw [vm] at hstep
  generalize hb5 : (((((b.refillInner.drop (ll.getD x.toNat 0)).drop 11).drop (lengthExtra s + (ll.getD s 0 - 11))).drop 8).drop (distExtra d + (dl.getD d 0 - 8))) = b5 at hstep
  have hleft5 : b5.left = 312 - n := by
    rw [← hb5]
    obtain ⟨_, v2, _⟩ := Bits.drop_ok _ _ 8 w1 (by omega)
    rw [Bits.drop]
    simp only
    omega
  have hskip : b5.pos + 8 ≤ b5.src.length → b5.refillInner.pos = b5.pos + 24 := by
    intro hc
    rw [Bits.refillInner, if_pos hc, Bits.load]
    simp only
    have h3 : b5.left = 253 ∨ b5.left = 254 ∨ b5.left = 255 := by omega
    rcases h3 with h3 | h3 | h3 <;> rw [h3] <;> rfl
  split at hstep
  · cases hstep
  rw [if_neg (by omega)] at hstep
  split at hstep
  · cases hstep
  split at hstep
  · cases hstep
  split at hstep
  · cases hstep
  split at hstep
  · injection hstep with hstep
    exact ⟨b5, _, _, Or.inl hstep.symm, hleft5, by omega, hskip⟩
  · injection hstep with hstep
    exact ⟨b5, _, _, Or.inr ⟨_, hstep.symm⟩, hleft5, by omega, hskip⟩

/-- Codes that occur in valid streams and need 59 bits for a literal and a match. -/
example : Rfc1951.Code ([1, 2, 3, 4, 5, 6, 7, 8, 9, 10, 11, 12, 13, 14] ++ List.replicate 242 0 ++ [15] ++ List.replicate 27 0 ++ [15]) ∧
    Rfc1951.Code ([1, 2, 3, 4, 5, 6, 7, 8, 9, 10, 11, 12, 13, 14] ++ List.replicate 14 0 ++ [15, 15]) ∧
    11 + 15 + lengthExtra 284 + 15 + distExtra 28 = 59 :=
  ⟨Or.inl ⟨by decide +kernel, by decide +kernel⟩, Or.inl ⟨by decide +kernel, by decide +kernel⟩, by decide⟩

end Zune.Inflate
