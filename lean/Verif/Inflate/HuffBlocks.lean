/-
Huffman blocks and sequences of blocks: the decoder gives the output that RFC 1951 prescribes.
-/
import Verif.Inflate.HuffHeader
import Verif.Inflate.Stored

namespace Zune.Inflate

open Prefix (Used word weight)
open Rfc1951 (bitsAt Symbols Block Stream staticLitLen staticDist)

theorem static_codes : Rfc1951.Code staticLitLen ∧ Rfc1951.Code staticDist :=
  ⟨Or.inl ⟨by decide +kernel, by decide +kernel⟩, Or.inl ⟨by decide +kernel, by decide +kernel⟩⟩

theorem static_fits : Fits staticLitLen staticDist := by
  have h9 : ∀ l ∈ staticLitLen, l ≤ 9 := by decide +kernel
  have h5 : ∀ l ∈ staticDist, l ≤ 5 := by decide +kernel
  intro s hs us _ t t1 t2 ut d d1 ud
  have a1 := h9 _ (getD_mem (Prefix.used_lt us))
  have a2 := h9 _ (getD_mem (Prefix.used_lt ut))
  have a3 := h5 _ (getD_mem (Prefix.used_lt ud))
  have a4 := length_small t (by omega)
  have a5 := dist_small d (by omega)
  omega

theorem static_split : staticAll.take 288 = staticLitLen ∧ (staticAll.drop 288).take 32 = staticDist := by decide +kernel

/-- The tables that the decoder keeps are the static ones when it says so. -/
def Tables.Ok (st : Tables) : Prop :=
  st.static = true → Tab staticLitLen litlenResults st.litlen 11 2342 ∧ Tab staticDist offsetResults st.offset 8 512

theorem start_ok (junk : Nat → List UInt8) : (Tables.start junk).Ok := fun h => absurd h Bool.false_ne_true

theorem bothTables_ok (st : Tables) {lens ll dl : List Nat} {nl no : Nat} (h1 : lens.take nl = ll) (h2 : (lens.drop nl).take no = dl)
    (hn1 : ll.length ≤ 288) (hn2 : dl.length ≤ 32) (hc : Rfc1951.Code ll) (hd : Rfc1951.Code dl ∨ ∀ l ∈ dl, l = 0) :
    ∃ st', bothTables st lens nl no = .ok st' ∧ Tab ll litlenResults st'.litlen 11 2342 ∧ Tab dl offsetResults st'.offset 8 512 ∧
      st'.static = st.static := by
  obtain ⟨t1, a1, a2⟩ := litlen_tab hc hn1
  obtain ⟨t2, b1, b2⟩ := offset_tab hd hn2
  rw [bothTables, h1, h2, b1]
  simp only
  rw [a1]
  exact ⟨_, rfl, a2, b2, rfl⟩

/-- The bits of the block's symbols, and the tables for them. -/
theorem huffBlock_ok {o : Options} {fuel : Nat} {st st' : Tables} {ty : Nat} {b b' : Bits} {src : List UInt8} {p r : Nat} {ll dl : List Nat} {bits : List Bool}
    {out out' : List UInt8} (htab : decodeTables st ty b = .ok (st', b')) (ht : Tab ll litlenResults st'.litlen 11 2342)
    (hd : Tab dl offsetResults st'.offset 8 512) (hfits : Fits ll dl) (hr : r ≤ 8 * src.length) (hlim : out'.length ≤ o.limit) (h : b'.Ok p)
    (hs : b'.src = src) (hp : p ≤ 8 * src.length) (hb : bitsAt src p = bits) (hsym : Symbols ll dl bits out (bitsAt src r) out')
    (hf : 8 * src.length < fuel) (hok : st'.Ok) :
    ∃ st1 b1, huffBlock o fuel st ty b out = .ok (st1, b1, out') ∧ st1.Ok ∧ b1.Ok r ∧ b1.src = src ∧ b1.left + ll.getD 256 0 < 64 := by
  have hlen : bits.length < fuel := by
    rw [← hb, bitsAt_length]
    omega
  obtain ⟨b1, buf, dest, e1, e2, e3, e4, e5⟩ := body_ok (o := o) ht hd hfits hr hlim rfl h hs hp hb hsym (List.prefix_append out (st'.junk st'.count)) hlen
  refine ⟨{ st' with count := st'.count + 1 }, b1, ?_, hok, e2, e3, e4⟩
  rw [huffBlock, htab]
  simp only
  rw [e1]
  simp only
  rw [e5]

theorem Symbols.length_le {ll dl : List Nat} {bits rest : List Bool} {out out' : List UInt8} (h : Symbols ll dl bits out rest out') :
    rest.length + ll.getD 256 0 ≤ bits.length := by
  induction h with
  | stop _ _ _ => rw [List.length_append, word_length']; omega
  | lit _ _ _ ih => rw [List.length_append]; omega
  | copy _ _ _ _ _ _ _ _ _ _ _ _ _ ih => simp only [List.length_append]; omega

/-- The static code: a block has nothing but its end, or at least 15 bits. -/
theorem Symbols.static_length {bits rest : List Bool} {out out' : List UInt8} (h : Symbols staticLitLen staticDist bits out rest out') :
    rest.length + 7 = bits.length ∨ rest.length + 14 ≤ bits.length := by
  have h7 : ∀ s < 288, 7 ≤ staticLitLen.getD s 0 := by decide +kernel
  have h256 : staticLitLen.getD 256 0 = 7 := by decide +kernel
  cases h with
  | stop _ _ _ => left; rw [List.length_append, word_length', h256]; omega
  | @lit x _ _ _ _ _ h =>
    right
    have := Symbols.length_le h
    have := h7 x.toNat (by have := x.toNat_lt; omega)
    rw [List.length_append, word_length']; omega
  | copy s _ _ _ _ _ _ _ _ _ _ _ h =>
    right
    have := Symbols.length_le h
    have := h7 s (by omega)
    simp only [List.length_append, word_length']; omega

theorem Lengths.length_le {pl : List Nat} {total : Nat} {bits rest : List Bool} {lens all : List Nat} (h : Rfc1951.Lengths pl total bits lens rest all) :
    rest.length ≤ bits.length := by
  induction h with
  | stop _ _ _ => exact le_refl _
  | plain _ _ _ _ ih => rw [List.length_append]; omega
  | again _ _ _ _ _ _ ih => simp only [List.length_append]; omega
  | zeros _ _ _ _ ih => simp only [List.length_append]; omega
  | manyZeros _ _ _ _ ih => simp only [List.length_append]; omega

theorem Header.length_le {bits rest : List Bool} {ll dl : List Nat} (h : Rfc1951.Header bits ll dl rest) : rest.length + 14 ≤ bits.length := by
  obtain ⟨hlit, hdist, v, all, bits, rest, k1, k2, k3, k4, k5, k6, k7⟩ := h
  have : rest.length ≤ bits.length := by
    exact Lengths.length_le k7
  simp only [List.length_append, lsb_length]
  omega

variable {room : Nat → Prop} {src : List UInt8}

theorem bits3 {p : Nat} {fin : Bool} {ty : Nat} {bits : List Bool} (hp : p ≤ 8 * src.length) (h : bitsAt src p = fin :: (lsb 2 ty ++ bits)) (hty : ty < 4) :
    leVal src / 2 ^ p % 2 ^ 1 = fin.toNat ∧ leVal src / 2 ^ (p + 1) % 2 ^ 2 = ty ∧ bitsAt src (p + 1 + 2) = bits ∧ p + 1 + 2 ≤ 8 * src.length := by
  have h1 : bitsAt src p = lsb 1 fin.toNat ++ (lsb 2 ty ++ bits) := by
    rw [h]
    cases fin <;> rfl
  obtain ⟨a1, a2, a3⟩ := front_lsb hp h1 (by cases fin <;> decide)
  obtain ⟨b1, b2, b3⟩ := front_lsb a3 a2 (by omega)
  exact ⟨a1, b1, b2, b3⟩

/-- What is known behind a block: the reader stands behind it, and near the start of the data it holds fewer than 56 bits. -/
structure After (src : List UInt8) (r : Nat) (b : Bits) : Prop where
  ok : b.Ok r
  src : b.src = src
  near : 17 ≤ r ∨ b.left < 56
  ten : 10 ≤ r

/-- What is known behind the final block: where the decoder looks for the checksum, when at least four bytes follow. -/
structure Ended (src : List UInt8) (r : Nat) (b : Bits) : Prop where
  source : b.src = src
  pos : (r + 7) / 8 + 4 ≤ src.length → b.position + b.over = (r + 7) / 8

theorem After.ended {r : Nat} {b : Bits} (h : After src r b) : Ended src r b := by
  refine ⟨h.src, fun hr => ?_⟩
  have h1 := h.ok.count
  have h2 := h.ok.left_lt
  have h3 := h.ok.over_end
  have h4 := h.near
  have h5 := h.ten
  rw [h.src] at h3
  rw [Bits.position, shr3]
  by_cases h0 : 0 < b.over
  · have := h3 h0
    omega
  · omega

theorem block_le {ok : List Nat → List Nat → Prop} {fin : Bool} {p r : Nat} {out out' : List UInt8} (h : Block ok room src fin p out r out')
    (hp : p ≤ 8 * src.length) : p + 10 ≤ r ∧ r ≤ 8 * src.length := by
  cases h with
  | stored q out payload bits rest hb h1 h2 h3 h4 h5 =>
    have := congrArg List.length h4
    simp only [List.length_drop, List.length_append, leBytes_length] at this
    omega
  | static r out out' bits hb hr hs =>
    obtain ⟨_, _, h3, h4⟩ := bits3 hp hb (by decide)
    have := Symbols.length_le hs
    rw [← h3, bitsAt_length, bitsAt_length, show staticLitLen.getD 256 0 = 7 by decide +kernel] at this
    omega
  | dynamic r ll dl out out' bits bits' hb hr hh hc hd ho hs =>
    obtain ⟨_, _, h3, h4⟩ := bits3 hp hb (by decide)
    have h6 := Symbols.length_le hs
    have h5 := Header.length_le hh
    rw [← h3, bitsAt_length] at h5
    rw [bitsAt_length] at h6
    omega

theorem stream_le {ok : List Nat → List Nat → Prop} {p r : Nat} {out out' : List UInt8} (h : Stream ok room src p out r out') (hp : p ≤ 8 * src.length) :
    p + 10 ≤ r ∧ r ≤ 8 * src.length := by
  induction h with
  | last h => exact block_le h hp
  | cons h _ ih =>
    have := block_le h hp
    have := ih this.2
    omega

theorem Block.grow {ok : List Nat → List Nat → Prop} {fin : Bool} {p r : Nat} {out out' : List UInt8} (h : Block ok room src fin p out r out') :
    out.length ≤ out'.length := by
  cases h with
  | stored => rw [List.length_append]; omega
  | static r out out' bits hb hr hs => exact Symbols.grow hs
  | dynamic r ll dl out out' bits bits' hb hr hh hc hd ho hs => exact Symbols.grow hs

theorem Stream.grow {ok : List Nat → List Nat → Prop} {p r : Nat} {out out' : List UInt8} (h : Stream ok room src p out r out') :
    out.length ≤ out'.length := by
  induction h with
  | last h => exact Block.grow h
  | cons h _ ih => exact le_trans (Block.grow h) ih

/-- With two bytes behind the blocks, no stored block stands where the decoder loses its place. -/
theorem stream_room {ok : List Nat → List Nat → Prop} {p r : Nat} {out out' : List UInt8} (h : Stream ok room src p out r out') (hp : p ≤ 8 * src.length)
    (hr : r + 11 ≤ 8 * src.length) : Stream ok (fun p => p + 56 ≤ 8 * src.length) src p out r out' := by
  have hblock : ∀ {fin : Bool} {p q : Nat} {out mid : List UInt8}, Block ok room src fin p out q mid → (fin = false → q + 10 ≤ r) →
      Block ok (fun p => p + 56 ≤ 8 * src.length) src fin p out q mid := by
    intro fin p q out mid hb hfin
    cases hb with
    | stored q out payload bits rest hb h1 h2 h3 h4 h5 =>
      exact .stored p q out payload bits rest hb h1 h2 h3 h4 (fun hf => by have := hfin hf; omega)
    | static r out out' bits hb hr hs => exact .static p _ out _ bits hb hr hs
    | dynamic r ll dl out out' bits bits' hb hr hh hc hd ho hs => exact .dynamic p _ ll dl out _ bits bits' hb hr hh hc hd ho hs
  induction h with
  | last h => exact .last (hblock h (fun h => absurd h (by decide)))
  | cons h hs ih =>
    have h1 := block_le h hp
    have h2 := stream_le hs h1.2
    exact .cons (hblock h (fun _ => h2.1)) (ih h1.2 hr hblock)

/-- A pass of the block loop. -/
theorem block_ok {o : Options} {data : List UInt8} {pre hfuel fuel : Nat} (hf : 8 * src.length < hfuel) (hdata : data.drop pre = src) {fin : Bool} {p r : Nat}
    {out out' : List UInt8} (h : Block Fits (fun p => p + 56 ≤ 8 * src.length) src fin p out r out') (hlim : out'.length ≤ o.limit) {st : Tables} {b : Bits}
    (hst : st.Ok) (hb : b.Ok p) (hs : b.src = src) (hp : p ≤ 8 * src.length) (hp0 : p = 0 ∨ 7 ≤ p) :
    ∃ st' b', blocks o data pre (huffBlock o hfuel) (fuel + 1) st b out =
      (if fin then .ok (b', out') else blocks o data pre (huffBlock o hfuel) fuel st' b' out') ∧ st'.Ok ∧ (fin = false → After src r b') ∧
        (fin = true → Ended src r b') := by
  obtain ⟨r1, r2, r3, r4⟩ := Bits.refill_ok b p hb
  have rl := r1.left_lt
  rw [hs] at r3 r4
  obtain ⟨v1, h1, l1, s1, o1, p1⟩ := Bits.get_ok b.refill p 1 r1 (by omega)
  obtain ⟨v2, h2, l2, s2, o2, p2⟩ := Bits.get_ok (b.refill.get 1).2 (p + 1) 2 h1 (by omega)
  rw [s1, r3] at s2
  rw [r3] at v1
  rw [s1, r3] at v2
  have hlast : ∀ f : Bool, (f.toNat == 1) = f := by decide
  have hgrow := Block.grow h
  have hten := (block_le h hp).1
  cases h with
  | stored q out payload bits rest hb h1' h2' h3 h4 h5 =>
    obtain ⟨w1, w2, w3, w4⟩ := bits3 hp hb (by decide)
    rw [w1] at v1
    rw [w2] at v2
    obtain ⟨pos, e1, e2⟩ := stored_ok o data out payload rest pre (p + 1 + 2) q ((b.refill.get 1).2.get 2).2 h2 (by omega) (by omega) (by rw [s2, hdata]) (by omega) (by omega)
      (by omega) (by rw [s2]; exact h4)
    rw [if_neg (by omega), s2] at e1
    have hle := congrArg List.length h4
    simp only [List.length_drop, List.length_append, leBytes_length] at hle
    refine ⟨st, { src := src, pos := pos, left := 0, buf := 0, over := ((b.refill.get 1).2.get 2).2.over }, ?_, hst, fun hf => ?_, fun _ => ?_⟩
    · rw [blocks]
      rw [v2, v1, if_pos rfl, e1]
      simp only
      rw [hlast]
    · have hroom := h5 hf
      have hov := r4 hroom
      rw [o2, o1, hov] at e2 ⊢
      have hok := Bits.reset_ok src pos 0 (by omega) (by omega)
      rw [e2] at hok
      exact ⟨hok, rfl, Or.inl (by omega), by omega⟩
    · refine ⟨rfl, fun _ => ?_⟩
      rw [Bits.position, shr3]
      simp only
      omega
  | static r out out' bits hb hr hsym =>
    obtain ⟨w1, w2, w3, w4⟩ := bits3 hp hb (by decide)
    rw [w1] at v1
    rw [w2] at v2
    have htab : ∃ st', decodeTables st 1 ((b.refill.get 1).2.get 2).2 = .ok (st', ((b.refill.get 1).2.get 2).2) ∧ st'.Ok ∧
        Tab staticLitLen litlenResults st'.litlen 11 2342 ∧ Tab staticDist offsetResults st'.offset 8 512 := by
      rw [decodeTables, if_neg (by decide)]
      by_cases hc : st.static = true
      · rw [if_pos hc]
        exact ⟨st, rfl, hst, (hst hc).1, (hst hc).2⟩
      · rw [if_neg hc]
        obtain ⟨st', a1, a2, a3, a4⟩ := bothTables_ok { st with static := true } static_split.1 static_split.2 (by decide +kernel) (by decide +kernel)
          static_codes.1 (Or.inl static_codes.2)
        rw [a1]
        exact ⟨st', rfl, fun _ => ⟨a2, a3⟩, a2, a3⟩
    obtain ⟨st', t1, t2, t3, t4⟩ := htab
    obtain ⟨st1, b1, k1, k2, k3, k4, k5⟩ := huffBlock_ok (o := o) (fuel := hfuel) t1 t3 t4 static_fits hr hlim h2 s2 w4 w3 hsym hf t2
    have hafter : After src r b1 := by
      refine ⟨k3, k4, ?_, by omega⟩
      rw [show staticLitLen.getD 256 0 = 7 by decide +kernel] at k5
      have hlen := Symbols.static_length hsym
      rw [← w3, bitsAt_length, bitsAt_length] at hlen
      have hcount := k3.count
      omega
    refine ⟨st1, b1, ?_, k2, fun _ => hafter, fun _ => hafter.ended⟩
    · rw [blocks]
      rw [v2, v1, if_neg (by decide), if_neg (by decide), k1]
      simp only
      rw [if_neg (over_ok k3 (by rw [k4]; exact hr)), hlast]
  | dynamic r ll dl out out' bits bits' hb hr hh hc hd ho hsym =>
    obtain ⟨w1, w2, w3, w4⟩ := bits3 hp hb (by decide)
    rw [w1] at v1
    rw [w2] at v2
    obtain ⟨b1, lens, nl, no, p', d1, d2, d3, d4, d5, d6, d7, d8, d9⟩ := dynamicLens_ok h2 s2 w4 (by omega) w3 hh
    obtain ⟨st', a1, a2, a3, a4⟩ := bothTables_ok { st with static := false } d6 d7 d8 d9 hc hd
    have htab : decodeTables st 2 ((b.refill.get 1).2.get 2).2 = .ok (st', b1) := by
      rw [decodeTables, if_pos rfl, d1]
      simp only
      rw [a1]
      rfl
    obtain ⟨st1, b2, k1, k2, k3, k4, k5⟩ := huffBlock_ok (o := o) (fuel := hfuel) htab a2 a3 ho hr hlim d2 d3 d4 d5 hsym hf
      (fun hc => by rw [a4] at hc; exact absurd hc Bool.false_ne_true)
    have hafter : After src r b2 := by
      refine ⟨k3, k4, ?_, by omega⟩
      have h6 := Symbols.length_le hsym
      have h5 := Header.length_le hh
      rw [← w3, bitsAt_length] at h5
      rw [bitsAt_length] at h6
      omega
    refine ⟨st1, b2, ?_, k2, fun _ => hafter, fun _ => hafter.ended⟩
    · rw [blocks]
      rw [v2, v1, if_neg (by decide), if_neg (by decide), k1]
      simp only
      rw [if_neg (over_ok k3 (by rw [k4]; exact hr)), hlast]

/-- The block loop. -/
theorem blocks_ok {o : Options} {data : List UInt8} {pre hfuel : Nat} (hf : 8 * src.length < hfuel) (hdata : data.drop pre = src) {p r : Nat}
    {out out' : List UInt8} (h : Stream Fits (fun p => p + 56 ≤ 8 * src.length) src p out r out') :
    ∀ (fuel : Nat) (st : Tables) (b : Bits), r < p + fuel → out'.length ≤ o.limit → st.Ok → b.Ok p → b.src = src → p ≤ 8 * src.length → (p = 0 ∨ 7 ≤ p) →
    ∃ b', blocks o data pre (huffBlock o hfuel) fuel st b out = .ok (b', out') ∧ Ended src r b' := by
  induction h with
  | last h =>
    intro fuel st b hfu hlim hst hb hs hp hp0
    have := block_le h hp
    cases fuel with
    | zero => omega
    | succ fuel =>
      obtain ⟨st', b', e1, _, _, e4⟩ := block_ok (o := o) (fuel := fuel) hf hdata h hlim hst hb hs hp hp0
      exact ⟨b', e1, e4 rfl⟩
  | cons h hstream ih =>
    intro fuel st b hfu hlim hst hb hs hp hp0
    have hle := block_le h hp
    have hle2 := stream_le hstream hle.2
    cases fuel with
    | zero => omega
    | succ fuel =>
      obtain ⟨st', b', e1, e2, e3, _⟩ := block_ok (o := o) (fuel := fuel) hf hdata h (le_trans (Stream.grow hstream) hlim) hst hb hs hp hp0
      have hafter := e3 rfl
      obtain ⟨b2, g1, g2⟩ := ih fuel st' b' (by omega) hlim e2 hafter.ok hafter.src hle.2 (by omega)
      exact ⟨b2, e1.trans g1, g2⟩

/-- The decoder from the start of the data. -/
theorem inflate_ok {o : Options} {data : List UInt8} {pre fuel : Nat} (junk : Nat → List UInt8) (hdata : data.drop pre = src) (hf : 8 * src.length < fuel)
    {r : Nat} {out : List UInt8} (h : Stream Fits (fun p => p + 56 ≤ 8 * src.length) src 0 [] r out) (hlim : out.length ≤ o.limit) :
    ∃ b, inflate o (huffBlock o fuel) (Tables.start junk) fuel data pre = .ok (b, out) ∧ Ended src r b := by
  obtain ⟨r1, r2, r3, r4⟩ := Bits.refill_ok _ _ (Bits.new_ok src)
  have := stream_le h (Nat.zero_le _)
  rw [inflate, hdata]
  exact blocks_ok hf hdata h fuel _ _ (by omega) hlim (start_ok junk) r1 r3 (Nat.zero_le _) (Or.inl rfl)

end Zune.Inflate
