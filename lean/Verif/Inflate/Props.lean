/-
Property C11: zlib streams written by the encoder decode to the input.
-/
import Verif.Inflate.Stored

namespace Zune.Inflate

variable {σ : Type}

theorem decode_encoded (o : Options) (huff : σ → Nat → Bits → List UInt8 → Except Err (σ × Bits × List UInt8)) (init : σ) (fuel : Nat)
    (data z tail : List UInt8) (hz : encodeZlib data = some z) (hfuel : data.length < fuel) :
    decodeZlib o huff init fuel (z ++ tail) =
      if 65535 * ((data.length - 1) / 65535) > o.limit then .error .outputLimitExceeded else .ok data := by
  rw [encodeZlib_eq, Option.some.injEq] at hz
  subst hz
  have hlen := (storedBlocks_length data).2
  have hA := adler32_lt data
  have e0 : [0x78, 0x01] ++ storedBlocks data ++ beBytes 4 (adler32 data) ++ tail =
      0x78 :: 0x01 :: (storedBlocks data ++ (beBytes 4 (adler32 data) ++ tail)) := by simp
  rw [e0]
  unfold decodeZlib
  simp only
  have g : ¬ (0x78 :: 0x01 :: (storedBlocks data ++ (beBytes 4 (adler32 data) ++ tail)) : List UInt8).length < 2 + 4 := by
    simp only [List.length_cons, List.length_append, beBytes_length]; omega
  rw [if_neg g, if_neg (by decide +kernel), if_neg (by decide +kernel), if_neg (by decide +kernel)]
  unfold inflate
  generalize hfull : (0x78 :: 0x01 :: (storedBlocks data ++ (beBytes 4 (adler32 data) ++ tail)) : List UInt8) = full at *
  have hdrop : full.drop 2 = storedBlocks data ++ (beBytes 4 (adler32 data) ++ tail) := by rw [← hfull]; rfl
  have r := Bits.refill_ok (Bits.new (full.drop 2)) 0 (Bits.new_ok _)
  have hsrc : (Bits.new (full.drop 2)).refill.src = full.drop 2 := r.2.2.1
  rw [blocks_storedBlocks o huff init fuel full data [] (beBytes 4 (adler32 data) ++ tail) 2 0 (Bits.new (full.drop 2)).refill r.1 hsrc
    (by rw [List.length_append, beBytes_length]; omega) (by rw [hsrc, hdrop]; rfl) (by omega)]
  simp only [List.length_nil, Nat.zero_add, List.nil_append]
  by_cases hl : 65535 * ((data.length - 1) / 65535) > o.limit
  · simp only [hl, if_true]
  · simp only [hl, if_false]
    have hpos : ({ src := (Bits.new (full.drop 2)).refill.src, pos := (storedBlocks data).length, left := 0, buf := 0, over := 0 } : Bits).position =
        (storedBlocks data).length := by simp [Bits.position]
    rw [hpos]
    have hfl : (storedBlocks data).length + 2 + 0 + 4 ≤ full.length := by
      rw [← hfull]; simp only [List.length_cons, List.length_append, beBytes_length]; omega
    have hread : (full.drop ((storedBlocks data).length + 2 + 0)).take 4 = beBytes 4 (adler32 data) := by
      rw [show (storedBlocks data).length + 2 + 0 = 2 + (storedBlocks data).length by ring, ← List.drop_drop, hdrop, List.drop_left' rfl]
      exact List.take_left' (beBytes_length _ _)
    have hm : adler32 data % 256 ^ 4 = adler32 data := Nat.mod_eq_of_lt (lt_of_lt_of_le hA (by decide))
    simp only [hfl, if_true, hread, beVal_beBytes, hm, ne_eq, not_true_eq_false, if_false, ite_self]

/-- **C11** `encode_zlib` never runs out of its output buffer, and `decode_zlib` turns what it wrote, whatever follows it, back into
    the input, for every input whose last 65535-byte block starts within the output limit of the decoder (all inputs up to 1 GiB under the
    default options).  `huff` (the code for Huffman blocks) is arbitrary.  Partial: larger inputs are rejected, see `c11_over_limit`. -/
theorem c11_roundtrip_partial (o : Options) (huff : σ → Nat → Bits → List UInt8 → Except Err (σ × Bits × List UInt8)) (init : σ)
    (data tail : List UInt8) (h : 65535 * ((data.length - 1) / 65535) ≤ o.limit) :
    ∃ z, encodeZlib data = some z ∧ ∀ fuel, data.length < fuel → decodeZlib o huff init fuel (z ++ tail) = .ok data := by
  refine ⟨_, encodeZlib_eq data, fun fuel hf => ?_⟩
  rw [decode_encoded o huff init fuel data _ tail (encodeZlib_eq data) hf, if_neg (by omega)]

/-- **C11** with the default options: every input up to 1 GiB survives the round trip. -/
theorem c11_default_partial (huff : σ → Nat → Bits → List UInt8 → Except Err (σ × Bits × List UInt8)) (init : σ)
    (data : List UInt8) (h : data.length ≤ 2 ^ 30) :
    ∃ z, encodeZlib data = some z ∧ ∀ fuel, data.length < fuel → decodeZlib {} huff init fuel z = .ok data := by
  obtain ⟨z, h1, h2⟩ := c11_roundtrip_partial {} huff init data [] (by show _ ≤ 2 ^ 30; omega)
  exact ⟨z, h1, fun fuel hf => by simpa using h2 fuel hf⟩

/-- **C11** is false beyond that: when the last block starts behind the limit the decoder rejects what the encoder wrote. -/
theorem c11_over_limit (o : Options) (huff : σ → Nat → Bits → List UInt8 → Except Err (σ × Bits × List UInt8)) (init : σ)
    (data : List UInt8) (h : 65535 * ((data.length - 1) / 65535) > o.limit) :
    ∃ z, encodeZlib data = some z ∧ ∀ fuel, data.length < fuel → decodeZlib o huff init fuel z = .error .outputLimitExceeded := by
  refine ⟨_, encodeZlib_eq data, fun fuel hf => ?_⟩
  have := decode_encoded o huff init fuel data _ [] (encodeZlib_eq data) hf
  rw [List.append_nil, if_pos h] at this
  exact this

/-- **C15** is false: a limit below the length of the first stored block has no effect, the decoder returns more bytes than it allows. -/
theorem c15_limit_ignored (o : Options) (huff : σ → Nat → Bits → List UInt8 → Except Err (σ × Bits × List UInt8)) (init : σ)
    (data : List UInt8) (h : data.length ≤ 65535) (hl : o.limit < data.length) :
    ∃ z out, (∀ fuel, data.length < fuel → decodeZlib o huff init fuel z = .ok out) ∧ o.limit < out.length := by
  obtain ⟨z, _, h2⟩ := c11_roundtrip_partial o huff init data [] (by
    rw [show (data.length - 1) / 65535 = 0 by omega]; omega)
  exact ⟨z ++ [], data, h2, hl⟩

/-- A limit of 10 bytes, and 11 bytes of data. -/
example : (List.replicate 11 (0 : UInt8)).length ≤ 65535 ∧ ({ limit := 10 } : Options).limit < (List.replicate 11 (0 : UInt8)).length := by decide

/-- Two blocks: 65536 bytes meet the hypothesis under the default options, and exceed a limit of 65534 bytes. -/
example : 65535 * ((65536 - 1) / 65535) ≤ ({} : Options).limit ∧ 65535 * ((65536 - 1) / 65535) > ({ limit := 65534 } : Options).limit := by
  decide

/-- The encoder on three bytes. -/
example : encodeZlib [1, 2, 3] = some [0x78, 0x01, 1, 3, 0, 0xfc, 0xff, 1, 2, 3, 0, 0x0d, 0, 7] := by
  rw [encodeZlib_eq, storedBlocks]
  decide +kernel

end Zune.Inflate
