/-
Property C58: gzip members decode to their content whatever optional header fields they carry.
-/
import Verif.Inflate.Props

namespace Zune.Inflate

/-! ### Specification: the member format of RFC 1952 -/

/-- Header of a gzip member. -/
structure Gz where
  text : Bool
  mtime : List UInt8
  xfl : UInt8
  os : UInt8
  extra : Option (List UInt8)
  name : Option (List UInt8)
  comment : Option (List UInt8)
  hcrc : Option (List UInt8)

/-- Field lengths, and no zero byte inside a zero terminated text. -/
def Gz.Valid (h : Gz) : Prop :=
  h.mtime.length = 4 ∧ (∀ e, h.extra = some e → e.length < 65536) ∧ (∀ e, h.name = some e → 0 ∉ e) ∧
    (∀ e, h.comment = some e → 0 ∉ e) ∧ (∀ e, h.hcrc = some e → e.length = 2)

/-- The flag byte. -/
def Gz.flags (h : Gz) : Nat :=
  h.text.toNat + 2 * h.hcrc.isSome.toNat + 4 * h.extra.isSome.toNat + 8 * h.name.isSome.toNat + 16 * h.comment.isSome.toNat

def Gz.extraBytes (h : Gz) : List UInt8 :=
  match h.extra with
  | some e => leBytes 2 e.length ++ e
  | none => []

def Gz.textBytes (t : Option (List UInt8)) : List UInt8 :=
  match t with
  | some e => e ++ [0]
  | none => []

/-- Bytes of the header. -/
def Gz.bytes (h : Gz) : List UInt8 :=
  [0x1f, 0x8b, 8, UInt8.ofNat h.flags] ++ h.mtime ++ [h.xfl, h.os] ++ h.extraBytes ++ Gz.textBytes h.name ++ Gz.textBytes h.comment ++
    h.hcrc.getD []

/-! ### Proofs -/

theorem skipZ_text (e rest : List UInt8) (p : Nat) (h : 0 ∉ e) : skipZ (e ++ [0] ++ rest) p = some (p + (e.length + 1)) := by
  induction e generalizing p with
  | nil => simp [skipZ]
  | cons x e ih =>
    have hx : x ≠ 0 := fun hx => h (by simp [hx])
    have he : 0 ∉ e := fun hm => h (by simp [hm])
    simp only [List.cons_append, skipZ]
    rw [if_neg hx, ih _ he, List.length_cons]
    congr 1; omega

theorem skipZ_opt (t : Option (List UInt8)) (data rest : List UInt8) (p : Nat) (h : ∀ e, t = some e → 0 ∉ e)
    (hd : data.drop p = Gz.textBytes t ++ rest) :
    (if t.isSome = true then skipZ (data.drop p) p else some p) = some (p + (Gz.textBytes t).length) := by
  cases t with
  | none => simp [Gz.textBytes]
  | some e =>
    rw [hd]
    simp only [Option.isSome_some, if_true, Gz.textBytes]
    rw [skipZ_text e rest p (h e rfl)]
    simp

theorem flags_bits : ∀ a b c d e : Bool,
    let f := a.toNat + 2 * b.toNat + 4 * c.toNat + 8 * d.toNat + 16 * e.toNat
    (UInt8.ofNat f).toNat &&& 0xe0 = 0 ∧ ((UInt8.ofNat f).toNat &&& 4 ≠ 0 ↔ c = true) ∧ ((UInt8.ofNat f).toNat &&& 8 ≠ 0 ↔ d = true) ∧
      ((UInt8.ofNat f).toNat &&& 16 ≠ 0 ↔ e = true) ∧ ((UInt8.ofNat f).toNat &&& 2 ≠ 0 ↔ b = true) := by
  decide +kernel

theorem drop_add_of {data a b : List UInt8} {p : Nat} (h : data.drop p = a ++ b) : data.drop (p + a.length) = b := by
  rw [← List.drop_drop, h]; exact List.drop_left' rfl

variable {σ : Type}

/-- The header is skipped whatever its optional fields are. -/
theorem gzip_header (o : Options) (huff : σ → Nat → Bits → List UInt8 → Except Err (σ × Bits × List UInt8)) (init : σ) (fuel : Nat)
    (h : Gz) (hv : h.Valid) (rest : List UInt8) (hr : 8 ≤ rest.length) :
    decodeGzip o huff init fuel (h.bytes ++ rest) =
      match inflate o huff init fuel (h.bytes ++ rest) h.bytes.length with
      | .error e => .error e
      | .ok (b, out) => gzipFooter o (h.bytes ++ rest) (b.position + h.bytes.length + b.over) out := by
  obtain ⟨hm, hx, hn, hc, hh⟩ := hv
  obtain ⟨f1, f2, f3, f4, f5⟩ := flags_bits h.text h.hcrc.isSome h.extra.isSome h.name.isSome h.comment.isSome
  have hfix : h.bytes ++ rest = 0x1f :: 0x8b :: 8 :: UInt8.ofNat h.flags :: (h.mtime ++ [h.xfl, h.os] ++ (h.extraBytes ++ (Gz.textBytes h.name ++
      (Gz.textBytes h.comment ++ (h.hcrc.getD [] ++ rest))))) := by
    simp only [Gz.bytes, List.append_assoc, List.cons_append, List.nil_append]
  have hd10 : (h.bytes ++ rest).drop 10 = h.extraBytes ++ (Gz.textBytes h.name ++ (Gz.textBytes h.comment ++ (h.hcrc.getD [] ++ rest))) := by
    have e4 : (h.bytes ++ rest).drop 4 = h.mtime ++ [h.xfl, h.os] ++ (h.extraBytes ++ (Gz.textBytes h.name ++
      (Gz.textBytes h.comment ++ (h.hcrc.getD [] ++ rest)))) := by rw [hfix]; rfl
    have := drop_add_of e4
    simpa [hm] using this
  have hlen : h.bytes.length = 4 + 4 + 2 + h.extraBytes.length + (Gz.textBytes h.name).length + (Gz.textBytes h.comment).length + (h.hcrc.getD []).length := by
    simp only [Gz.bytes, List.length_append, List.length_cons, List.length_nil, Nat.zero_add, Nat.reduceAdd, hm]
  have hcrc : (h.hcrc.getD []).length = if h.hcrc.isSome = true then 2 else 0 := by
    cases he : h.hcrc with
    | none => rfl
    | some e => simpa using hh e he
  have hfull : (h.bytes ++ rest).length = h.bytes.length + rest.length := List.length_append
  generalize hdata : h.bytes ++ rest = data at *
  have step : decodeGzip o huff init fuel data = gzipRest o huff init fuel data (UInt8.ofNat h.flags).toNat := by
    unfold decodeGzip
    rw [if_neg (by omega), hfix]
    simp
  rw [step]
  unfold gzipRest
  unfold Gz.flags
  rw [if_neg (by rw [f1]; simp)]
  simp only [f2, f3, f4, f5]
  have hp1 : (if h.extra.isSome = true then
        if data.length < 10 + 2 then Except.error Err.panic
        else
          if data.length - 12 < leVal ((data.drop 10).take 2) + 8 then Except.error Err.corruptData else Except.ok (12 + leVal ((data.drop 10).take 2))
      else (Except.ok 10 : Except Err Nat)) = .ok (10 + h.extraBytes.length) := by
    cases he : h.extra with
    | none => simp [Gz.extraBytes, he]
    | some e =>
      have hel := hx e he
      have heb : h.extraBytes = leBytes 2 e.length ++ e := by simp [Gz.extraBytes, he]
      have ht : (data.drop 10).take 2 = leBytes 2 e.length := by
        rw [hd10, heb, List.append_assoc]; exact List.take_left' (leBytes_length _ _)
      have hl2 : h.extraBytes.length = 2 + e.length := by rw [heb, List.length_append, leBytes_length]
      rw [ht, leVal_leBytes, Nat.mod_eq_of_lt (by omega)]
      simp only [Option.isSome_some, if_true]
      rw [if_neg (by omega), if_neg (by omega), hl2]
      congr 1; omega
  rw [hp1]
  simp only
  have hd2 := drop_add_of hd10
  rw [skipZ_opt h.name data _ _ hn hd2]
  simp only
  have hd3 := drop_add_of hd2
  rw [skipZ_opt h.comment data _ _ hc hd3]
  simp only
  have hp4 : (if h.hcrc.isSome = true then 10 + h.extraBytes.length + (Gz.textBytes h.name).length + (Gz.textBytes h.comment).length + 2
      else 10 + h.extraBytes.length + (Gz.textBytes h.name).length + (Gz.textBytes h.comment).length) = h.bytes.length := by
    rw [hlen, hcrc]; split <;> omega
  rw [hp4, if_neg (by omega)]
  cases inflate o huff init fuel data h.bytes.length <;> rfl

/-- The footer accepts the right checksum and length and nothing else. -/
theorem gzip_footer (o : Options) (data out rest : List UInt8) (q crc size : Nat) (hc : crc < 2 ^ 32) (hs : size < 2 ^ 32)
    (hd : data.drop q = leBytes 4 crc ++ leBytes 4 size ++ rest) :
    gzipFooter o data q out =
      if o.confirm = true ∧ crc ≠ 2 ^ 32 - 1 - Spec.crc out (2 ^ 32 - 1) then .error .mismatchedCrc
      else if out.length ≠ size then .error .generic else .ok out := by
  have hlen := congrArg List.length hd
  rw [List.length_drop] at hlen
  simp only [List.length_append, leBytes_length] at hlen
  have t1 : (data.drop q).take 4 = leBytes 4 crc := by
    rw [hd, List.append_assoc]; exact List.take_left' (leBytes_length _ _)
  have t2 : (data.drop (q + 4)).take 4 = leBytes 4 size := by
    rw [List.append_assoc] at hd
    have := drop_add_of hd
    rw [leBytes_length] at this
    rw [this]; exact List.take_left' (leBytes_length _ _)
  have hcrc : 0xffffffff ^^^ crc32 out 0xffffffff = 2 ^ 32 - 1 - Spec.crc out (2 ^ 32 - 1) := c12_calc_crc out
  have m1 : crc % 256 ^ 4 = crc := Nat.mod_eq_of_lt (lt_of_lt_of_le hc (by decide))
  have m2 : size % 256 ^ 4 = size := Nat.mod_eq_of_lt (lt_of_lt_of_le hs (by decide))
  unfold gzipFooter
  rw [t1, t2, leVal_leBytes, leVal_leBytes, m1, m2, hcrc]
  have g1 : q + 4 + 4 ≤ data.length := by omega
  have g2 : q + 4 ≤ data.length := by omega
  simp only [g1, g2, if_true]
  cases o.confirm <;> simp

/-- **C58** A gzip member with any combination of optional header fields, a body of stored blocks, and the CRC-32 and length of the
    content in its footer decodes to the content; a wrong checksum or length is reported.  Any bytes may follow the member.
    Partial: bodies with Huffman blocks are not covered, nor content beyond the output limit. -/
theorem c58_gzip_partial (o : Options) (huff : σ → Nat → Bits → List UInt8 → Except Err (σ × Bits × List UInt8)) (init : σ) (fuel : Nat)
    (h : Gz) (hv : h.Valid) (data tail : List UInt8) (crc size : Nat) (hc : crc < 2 ^ 32) (hs : size < 2 ^ 32)
    (hlim : 65535 * ((data.length - 1) / 65535) ≤ o.limit) (hfuel : data.length < fuel) :
    decodeGzip o huff init fuel (h.bytes ++ (storedBlocks data ++ (leBytes 4 crc ++ leBytes 4 size ++ tail))) =
      if o.confirm = true ∧ crc ≠ 2 ^ 32 - 1 - Spec.crc data (2 ^ 32 - 1) then .error .mismatchedCrc
      else if data.length ≠ size then .error .generic else .ok data := by
  rw [gzip_header o huff init fuel h hv _ (by simp only [List.length_append, leBytes_length]; omega)]
  generalize hfull : h.bytes ++ (storedBlocks data ++ (leBytes 4 crc ++ leBytes 4 size ++ tail)) = full
  have hdrop : full.drop h.bytes.length = storedBlocks data ++ (leBytes 4 crc ++ leBytes 4 size ++ tail) := by
    rw [← hfull]; exact List.drop_left' rfl
  unfold inflate
  have r := Bits.refill_ok (Bits.new (full.drop h.bytes.length)) 0 (Bits.new_ok _)
  have hsrc : (Bits.new (full.drop h.bytes.length)).refill.src = full.drop h.bytes.length := r.2.2.1
  rw [blocks_storedBlocks o huff init fuel full data [] (leBytes 4 crc ++ leBytes 4 size ++ tail) h.bytes.length 0 (Bits.new (full.drop h.bytes.length)).refill
    r.1 hsrc (by simp only [List.length_append, leBytes_length]; omega) (by rw [hsrc, hdrop]; rfl) (by omega)]
  simp only [List.length_nil, Nat.zero_add, List.nil_append]
  rw [if_neg (by omega)]
  simp only
  have hpos : ({ src := (Bits.new (full.drop h.bytes.length)).refill.src, pos := (storedBlocks data).length, left := 0, buf := 0, over := 0 } : Bits).position =
      (storedBlocks data).length := by simp [Bits.position]
  rw [hpos]
  refine gzip_footer o full data tail _ crc size hc hs ?_
  rw [show (storedBlocks data).length + h.bytes.length + 0 = h.bytes.length + (storedBlocks data).length by ring]
  exact drop_add_of hdrop

/-- A header with every optional field. -/
example : Gz.Valid ⟨true, [1, 2, 3, 4], 0, 3, some [7, 8, 9], some [104, 105], some [], some [0, 0]⟩ := by
  refine ⟨rfl, ?_, ?_, ?_, ?_⟩ <;> intro e he <;> injection he with he <;> subst he <;> decide

end Zune.Inflate
