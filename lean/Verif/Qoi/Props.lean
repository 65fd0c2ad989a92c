/- Properties C01-C05: zune-qoi. -/
import Verif.Qoi.EncLemmas

namespace Zune.Qoi
open Zune.Bytestream

/-! ### Header -/

/-- The acceptance rule for the header fields, in the order of the checks (helper for the proofs). -/
def hdrCheck (o : Opts) (w h : Nat) (ch lay : UInt8) : Except DecErr Header :=
  if w > o.maxW then .error .width
  else if h > o.maxH then .error .height
  else if w = 0 then .error .zeroWidth
  else if h = 0 then .error .zeroHeight
  else if ch ≠ 3 ∧ ch ≠ 4 then .error .channels
  else if lay ≠ 0 ∧ lay ≠ 1 ∧ o.strict then .error .layout
  else .ok ⟨w, h, if ch = 3 then .rgb else .rgba⟩

theorem decodeHeaders_bytes (o : Opts) (c : Cursor) (m wb hb body : List UInt8) (ch lay : UInt8)
    (hm : m.length = 4) (hw : wb.length = 4) (hh : hb.length = 4)
    (hc : c.rest = m ++ (wb ++ (hb ++ (ch :: lay :: body)))) :
    decodeHeaders o c = if m = [0x71, 0x6f, 0x69, 0x66]
      then (hdrCheck o (beVal wb) (beVal hb) ch lay, { c with pos := c.pos + 14 })
      else (.error .magic, { c with pos := c.pos + 4 }) := by
  have r0 := Cursor.readExact_append c _ _ hc
  have a0 := Cursor.rest_advance c _ _ hc
  rw [hm] at r0 a0
  have r1 := Cursor.readOrZero_append _ _ _ a0
  have a1 := Cursor.rest_advance _ _ _ a0
  rw [hw] at r1 a1
  have r2 := Cursor.readOrZero_append _ _ _ a1
  have a2 := Cursor.rest_advance _ _ _ a1
  rw [hh] at r2 a2
  obtain ⟨r3, a3⟩ := Cursor.readU8_cons _ _ _ a2
  obtain ⟨r4, a4⟩ := Cursor.readU8_cons _ _ _ a3
  unfold decodeHeaders
  simp only [r0]
  by_cases hmm : m = [0x71, 0x6f, 0x69, 0x66]
  · simp only [hmm, ne_eq, not_true, if_false, if_true]
    simp only [Cursor.getInt, r1, r2, r3, r4, Endian.dec]
    unfold hdrCheck
    simp only [Nat.add_assoc, Nat.reduceAdd]
    repeat' split
    all_goals rfl
  · simp [hmm]

theorem hdrCheck_iff (o : Opts) (w h : Nat) (ch lay : UInt8) (hd : Header) :
    hdrCheck o w h ch lay = .ok hd ↔
      (w ≤ o.maxW ∧ h ≤ o.maxH ∧ w ≠ 0 ∧ h ≠ 0 ∧ (ch = 3 ∨ ch = 4) ∧ (o.strict = true → lay = 0 ∨ lay = 1)) ∧
      hd = ⟨w, h, if ch = 3 then .rgb else .rgba⟩ := by
  unfold hdrCheck
  constructor
  · intro hx
    split at hx
    · simp at hx
    rename_i h1
    split at hx
    · simp at hx
    rename_i h2
    split at hx
    · simp at hx
    rename_i h3
    split at hx
    · simp at hx
    rename_i h4
    split at hx
    · simp at hx
    rename_i h5
    split at hx
    · simp at hx
    rename_i h6
    simp only [Except.ok.injEq] at hx
    refine ⟨⟨by omega, by omega, h3, h4, ?_, fun hs => ?_⟩, hx.symm⟩
    · by_contra hcon; exact h5 (by simpa using hcon)
    · by_contra hcon; apply h6
      simp only [not_or] at hcon
      exact ⟨hcon.1, hcon.2, hs⟩
  · rintro ⟨⟨h1, h2, h3, h4, h5, h6⟩, rfl⟩
    rw [if_neg (by omega), if_neg (by omega), if_neg h3, if_neg h4, if_neg, if_neg]
    · rintro ⟨ha, hb, hs⟩
      rcases h6 hs with h | h
      · exact ha h
      · exact hb h
    · rintro ⟨ha, hb⟩
      rcases h5 with h | h
      · exact ha h
      · exact hb h

/-- **C05** (streams holding at least a whole 14 byte header): the header is accepted exactly under the stated conditions
    and then reports the stored big endian dimensions. What is missing from the full claim is shown to be false by
    `c05_truncated_accepted`. -/
theorem c05_header_iff_partial (o : Opts) (m wb hb body : List UInt8) (ch lay : UInt8)
    (hm : m.length = 4) (hw : wb.length = 4) (hh : hb.length = 4) (hd : Header) :
    (decodeHeaders o (Cursor.new (m ++ wb ++ hb ++ [ch, lay] ++ body))).1 = .ok hd ↔
      m = [0x71, 0x6f, 0x69, 0x66] ∧ 0 < beVal wb ∧ beVal wb ≤ o.maxW ∧ 0 < beVal hb ∧ beVal hb ≤ o.maxH ∧
      (ch = 3 ∨ ch = 4) ∧ (o.strict = true → lay = 0 ∨ lay = 1) ∧
      hd = ⟨beVal wb, beVal hb, if ch = 3 then .rgb else .rgba⟩ := by
  rw [decodeHeaders_bytes o _ m wb hb body ch lay hm hw hh (by simp [Cursor.new, Cursor.rest])]
  by_cases hmm : m = [0x71, 0x6f, 0x69, 0x66]
  · rw [if_pos hmm]
    simp only [hdrCheck_iff, hmm, true_and]
    constructor
    · rintro ⟨⟨h1, h2, h3, h4, h5, h6⟩, h7⟩
      exact ⟨by omega, h1, by omega, h2, h5, h6, h7⟩
    · rintro ⟨h3, h1, h4, h2, h5, h6, h7⟩
      exact ⟨⟨h1, h2, by omega, by omega, h5, h6⟩, h7⟩
  · rw [if_neg hmm]
    simp [hmm]

example : (decodeHeaders ⟨100, 100, true⟩ (Cursor.new
    ([0x71, 0x6f, 0x69, 0x66] ++ [0, 0, 0, 7] ++ [0, 0, 0, 5] ++ [4, 1] ++ [9, 9]))).1 = .ok ⟨7, 5, .rgba⟩ :=
  (c05_header_iff_partial _ _ _ _ _ _ _ rfl rfl rfl _).2 (by decide)

/-- **C05, negation**: a 13 byte file without the colorspace byte is accepted, and so is an 11 byte file whose height
    field is cut (the bytes of the cut field are used twice). -/
theorem c05_truncated_accepted :
    (decodeHeaders ⟨100, 100, true⟩ (Cursor.new [0x71, 0x6f, 0x69, 0x66, 0, 0, 0, 7, 0, 0, 0, 5, 3])).1
      = .ok ⟨7, 5, .rgb⟩ ∧
    (decodeHeaders ⟨100, 2 ^ 27, true⟩ (Cursor.new [0x71, 0x6f, 0x69, 0x66, 0, 0, 0, 7, 3, 1, 0])).1
      = .ok ⟨7, 0x03010000, .rgb⟩ := by
  decide +kernel

/-! ### Decoder -/

/-- The end marker of a QOI file. -/
def Spec.marker : List UInt8 := [0, 0, 0, 0, 0, 0, 0, 1]

/-- Interleaved bytes of pixels for a channel count. -/
def Spec.interleave (cs : Cs) (ps : List Px) : List UInt8 := (ps.map (fun p => p.bytes cs)).flatten

theorem interleave_length (cs : Cs) (ps : List Px) : (Spec.interleave cs ps).length = ps.length * cs.n := by
  induction ps with
  | nil => simp [Spec.interleave]
  | cons p ps ih =>
    simp only [Spec.interleave, List.map_cons, List.flatten_cons, List.length_append, List.length_cons] at *
    rw [ih]
    cases cs <;> simp [Px.bytes, Cs.n] <;> ring

/-- What the decoder must do with the bytes after the header. -/
def Spec.result (strict : Bool) (hd : Header) (body : List UInt8) : Option (List UInt8) :=
  match Spec.image (hd.w * hd.h) body with
  | none => none
  | some (ps, t) =>
    if t.length < 8 then none
    else if strict ∧ t.take 8 ≠ Spec.marker then none
    else some (Spec.interleave hd.cs ps)

theorem decodeInner_spec (o : Opts) (hd : Header) (c : Cursor) (buf : List UInt8) (hv : c.Valid)
    (hb : buf.length / hd.cs.n = hd.w * hd.h) :
    (decodeInner o hd.cs c buf).1.toOption =
      (Spec.result o.strict hd c.rest).map (· ++ buf.drop (hd.w * hd.h * hd.cs.n)) := by
  unfold decodeInner Spec.result
  have hsp := decPixels_spec (hd.w * hd.h) (hd.w * hd.h) ⟨fun _ => pxZero, pxStart, 0, c⟩ rfl hv (le_refl _)
  have hmono := decPixels_mono (hd.w * hd.h) ⟨fun _ => pxZero, pxStart, 0, c⟩ hv
  simp only [hb]
  rcases hdp : decPixels (hd.w * hd.h) ⟨fun _ => pxZero, pxStart, 0, c⟩ with ⟨ps, s⟩
  rw [hdp] at hsp hmono
  simp only at hsp hmono ⊢
  have hvs := hmono.2.2
  have hshort : s.cur.rest.length < 8 → s.cur.readExact 8 = (.error .notEnoughBytes, s.cur) := by
    intro h
    refine Cursor.readExact_err s.cur 8 hvs (by omega) ?_
    simp [Cursor.rest] at h; omega
  have e : Spec.image (hd.w * hd.h) c.rest = Spec.pixels (hd.w * hd.h) (hd.w * hd.h) (fun _ => pxZero) pxStart c.rest := rfl
  rw [e]
  rcases hpx : Spec.pixels (hd.w * hd.h) (hd.w * hd.h) (fun _ => pxZero) pxStart c.rest with _ | ⟨ps', t⟩
  · rw [hpx] at hsp
    simp only at hsp
    rw [hshort hsp]
    simp [Except.toOption]
  · rw [hpx] at hsp
    simp only at hsp
    obtain ⟨rfl, ht⟩ := hsp
    by_cases hl : t.length < 8
    · rw [hshort (by rw [ht]; exact hl)]
      simp [Except.toOption, hl]
    · have happ : s.cur.rest = t.take 8 ++ t.drop 8 := by rw [ht]; simp
      have hr := Cursor.readExact_append s.cur _ _ happ
      have hlen : (t.take 8).length = 8 := by simp; omega
      rw [hlen] at hr
      rw [hr]
      simp only [if_neg hl]
      by_cases hs : o.strict = true ∧ t.take 8 ≠ Spec.marker
      · rw [if_pos hs, if_pos ⟨hs.2, hs.1⟩]
        simp [Except.toOption]
      · rw [if_neg hs, if_neg (fun hx => hs ⟨hx.2, hx.1⟩)]
        simp [Except.toOption, Spec.interleave]

/-- **C03**: after a valid header, decoding succeeds exactly when the QOI specification assigns an image to the bytes (and,
    in strict mode, the end marker follows), and then returns exactly the pixels the specification assigns, of exactly
    `w*h*components` bytes. Holds for every stream shorter than the 64-bit address space. -/
theorem c03_decoder_meets_spec (o : Opts) (wb hb body : List UInt8) (ch lay : UInt8) (hd : Header)
    (hw : wb.length = 4) (hh : hb.length = 4) (hlen : body.length + 14 < usizeLim)
    (hok : (decodeHeaders o (Cursor.new ([0x71, 0x6f, 0x69, 0x66] ++ wb ++ hb ++ [ch, lay] ++ body))).1 = .ok hd) :
    (decode o ([0x71, 0x6f, 0x69, 0x66] ++ wb ++ hb ++ [ch, lay] ++ body)).toOption =
      (Spec.result o.strict hd body).map (fun px => (hd, px)) ∧
    (∀ hd' px, decode o ([0x71, 0x6f, 0x69, 0x66] ++ wb ++ hb ++ [ch, lay] ++ body) = .ok (hd', px) →
      hd' = hd ∧ px.length = hd.w * hd.h * hd.cs.n) := by
  have hc : (Cursor.new ([0x71, 0x6f, 0x69, 0x66] ++ wb ++ hb ++ [ch, lay] ++ body)).rest =
      [0x71, 0x6f, 0x69, 0x66] ++ (wb ++ (hb ++ (ch :: lay :: body))) := by simp [Cursor.new, Cursor.rest]
  have hdec := decodeHeaders_bytes o _ [0x71, 0x6f, 0x69, 0x66] wb hb body ch lay rfl hw hh hc
  rw [if_pos rfl] at hdec
  rw [hdec] at hok
  have hrest : ({ Cursor.new ([0x71, 0x6f, 0x69, 0x66] ++ wb ++ hb ++ [ch, lay] ++ body) with
      pos := (Cursor.new ([0x71, 0x6f, 0x69, 0x66] ++ wb ++ hb ++ [ch, lay] ++ body)).pos + 14 } : Cursor).rest = body := by
    have h := Cursor.rest_advance (Cursor.new ([0x71, 0x6f, 0x69, 0x66] ++ wb ++ hb ++ [ch, lay] ++ body))
      ([0x71, 0x6f, 0x69, 0x66] ++ wb ++ hb ++ [ch, lay]) body (by simp [Cursor.new, Cursor.rest])
    simpa [hw, hh] using h
  have hvalid : ({ Cursor.new ([0x71, 0x6f, 0x69, 0x66] ++ wb ++ hb ++ [ch, lay] ++ body) with
      pos := (Cursor.new ([0x71, 0x6f, 0x69, 0x66] ++ wb ++ hb ++ [ch, lay] ++ body)).pos + 14 } : Cursor).Valid := by
    constructor
    · simp [Cursor.new]; omega
    · simp [Cursor.new, hw, hh]; omega
  have hin := decodeInner_spec o hd _ (List.replicate (hd.w * hd.h * hd.cs.n) 0) hvalid (by
    simp only [List.length_replicate]
    exact Nat.mul_div_cancel _ (by cases hd.cs <;> simp [Cs.n]))
  rw [hrest] at hin
  have hdecode : (decode o ([0x71, 0x6f, 0x69, 0x66] ++ wb ++ hb ++ [ch, lay] ++ body)).toOption =
      (Spec.result o.strict hd body).map (fun px => (hd, px)) := by
    unfold decode
    simp only [hdec]
    simp only at hok
    simp only [hok]
    unfold decodeInto
    rw [if_neg (by simp)]
    generalize decodeInner o hd.cs _ _ = r at hin ⊢
    obtain ⟨r, c'⟩ := r
    simp only at hin
    have hz : ∀ l : List UInt8, l ++ List.drop (hd.w * hd.h * hd.cs.n) (List.replicate (hd.w * hd.h * hd.cs.n) 0) = l := by
      intro l; simp
    rcases r with e | px
    · simp only [Except.toOption] at hin ⊢
      rcases hsr : Spec.result o.strict hd body with _ | x
      · simp
      · rw [hsr] at hin; simp at hin
    · simp only [Except.toOption] at hin ⊢
      rcases hsr : Spec.result o.strict hd body with _ | x
      · rw [hsr] at hin; simp at hin
      · rw [hsr] at hin
        simp only [Option.map_some, hz, Option.some.injEq] at hin
        simp [hin]
  refine ⟨hdecode, fun hd' px hx => ?_⟩
  rw [hx] at hdecode
  simp only [Except.toOption] at hdecode
  rcases hsr : Spec.result o.strict hd body with _ | x
  · rw [hsr] at hdecode; simp at hdecode
  · rw [hsr] at hdecode
    simp only [Option.map_some, Option.some.injEq, Prod.mk.injEq] at hdecode
    refine ⟨hdecode.1, ?_⟩
    rw [hdecode.2]
    unfold Spec.result at hsr
    rcases him : Spec.image (hd.w * hd.h) body with _ | ⟨ps, t⟩
    · rw [him] at hsr; simp at hsr
    · rw [him] at hsr
      simp only at hsr
      split at hsr
      · simp at hsr
      split at hsr
      · simp at hsr
      simp only [Option.some.injEq] at hsr
      rw [← hsr, interleave_length]
      congr 1
      have hsp := decPixels_spec (hd.w * hd.h) (hd.w * hd.h)
        ⟨fun _ => pxZero, pxStart, 0, Cursor.new body⟩ rfl ⟨by simp [Cursor.new, usizeLim], by simp [Cursor.new]; omega⟩ (le_refl _)
      have e : Spec.image (hd.w * hd.h) body =
        Spec.pixels (hd.w * hd.h) (hd.w * hd.h) (fun _ => pxZero) pxStart (Cursor.new body).rest := rfl
      rw [e] at him
      rw [him] at hsp
      simp only at hsp
      rw [← hsp.1, decPixels_length]

/-- C03 is not vacuous: a hand made stream (index into the empty cache, a DIFF, a run longer than the image). -/
example : (decode ⟨9, 9, true⟩ ([0x71, 0x6f, 0x69, 0x66] ++ [0, 0, 0, 2] ++ [0, 0, 0, 2] ++ [3, 0] ++
      [0x05, 0x7f, 0xc7, 0, 0, 0, 0, 0, 0, 0, 1])).toOption =
    some (⟨2, 2, .rgb⟩, [0, 0, 0, 1, 1, 1, 1, 1, 1, 1, 1, 1]) :=
  ((c03_decoder_meets_spec ⟨9, 9, true⟩ [0, 0, 0, 2] [0, 0, 0, 2] _ 3 0 ⟨2, 2, .rgb⟩ rfl rfl (by decide)
    (by decide +kernel)).1).trans (by decide +kernel)

/-! ### Round trip and size -/

theorem encode_ok (w h : Nat) (cs : Cs) (data : List UInt8) (hw : w < 2 ^ 32) (hh : h < 2 ^ 32)
    (hlen : data.length = w * h * cs.n) :
    encode w h cs data = .ok ([0x71, 0x6f, 0x69, 0x66] ++ beBytes 4 w ++ beBytes 4 h ++ [UInt8.ofNat cs.n, 0]
      ++ (encBody (fun _ => pxZero) pxStart 0 (pixelsOf cs 255 data) ++ beBytes 8 1)) := by
  unfold encode
  rw [if_neg (by simp [hlen]), if_neg (by omega), if_neg (by omega)]
  simp

/-- **C01**: encoding any RGB or RGBA image and decoding the bytes gives back the image, for every option setting that
    permits its dimensions. -/
theorem c01_roundtrip (o : Opts) (w h : Nat) (cs : Cs) (data : List UInt8)
    (hw : 1 ≤ w ∧ w < 2 ^ 32 ∧ w ≤ o.maxW) (hh : 1 ≤ h ∧ h < 2 ^ 32 ∧ h ≤ o.maxH)
    (hlen : data.length = w * h * cs.n) :
    ∃ out, encode w h cs data = .ok out ∧
      (out.length < usizeLim → decode o out = .ok (⟨w, h, cs⟩, data)) := by
  refine ⟨_, encode_ok w h cs data hw.2.1 hh.2.1 hlen, fun hsz => ?_⟩
  have bw : beVal (beBytes 4 w) = w := by rw [beVal_beBytes]; exact Nat.mod_eq_of_lt (by omega)
  have bh : beVal (beBytes 4 h) = h := by rw [beVal_beBytes]; exact Nat.mod_eq_of_lt (by omega)
  have hhd : (decodeHeaders o (Cursor.new ([0x71, 0x6f, 0x69, 0x66] ++ beBytes 4 w ++ beBytes 4 h ++ [UInt8.ofNat cs.n, 0]
      ++ (encBody (fun _ => pxZero) pxStart 0 (pixelsOf cs 255 data) ++ beBytes 8 1)))).1 = .ok ⟨w, h, cs⟩ := by
    rw [c05_header_iff_partial o _ _ _ _ _ _ rfl (by simp) (by simp), bw, bh]
    refine ⟨rfl, by omega, hw.2.2, by omega, hh.2.2, ?_, fun _ => Or.inl rfl, ?_⟩
    · cases cs <;> simp [Cs.n]
    · cases cs <;> rfl
  have hc3 := (c03_decoder_meets_spec o (beBytes 4 w) (beBytes 4 h)
    (encBody (fun _ => pxZero) pxStart 0 (pixelsOf cs 255 data) ++ beBytes 8 1) (UInt8.ofNat cs.n) 0 ⟨w, h, cs⟩
    (by simp) (by simp) (by simp at hsz ⊢; omega) hhd).1
  have hres : Spec.result o.strict ⟨w, h, cs⟩ (encBody (fun _ => pxZero) pxStart 0 (pixelsOf cs 255 data) ++ beBytes 8 1)
      = some data := by
    unfold Spec.result
    have him := image_encBody (pixelsOf cs 255 data) (beBytes 8 1)
    rw [pixelsOf_length cs 255 (w * h) data hlen] at him
    simp only [him]
    rw [if_neg (by simp), if_neg (by
      have : (beBytes 8 1).take 8 = Spec.marker := by decide +kernel
      simp [this])]
    rw [Spec.interleave, pixelsOf_bytes cs 255 (w * h) data hlen]
  rw [hres] at hc3
  generalize decode o _ = r at hc3
  rcases r with e | x
  · simp [Except.toOption] at hc3
  · simp [Except.toOption] at hc3
    rw [hc3]

/-- A concrete RGBA image meeting the hypotheses of C01. -/
example : ∃ out, encode 2 1 .rgba [1, 2, 3, 4, 1, 2, 3, 4] = .ok out ∧
    (out.length < usizeLim → decode ⟨16, 16, true⟩ out = .ok (⟨2, 1, .rgba⟩, [1, 2, 3, 4, 1, 2, 3, 4])) :=
  c01_roundtrip ⟨16, 16, true⟩ 2 1 .rgba _ (by decide) (by decide) (by decide)

/-- **C02**: the encoded file has at most `w*h*(components+1) + 22` bytes. -/
theorem c02_size (w h : Nat) (cs : Cs) (data out : List UInt8) (henc : encode w h cs data = .ok out) :
    out.length ≤ w * h * (cs.n + 1) + 22 := by
  unfold encode at henc
  split at henc
  · simp at henc
  rename_i hl
  simp only [ne_eq, not_not] at hl
  split at henc
  · simp at henc
  split at henc
  · simp at henc
  simp only [Except.ok.injEq] at henc
  have hb := encBody_le (cs.n + 1) (by cases cs <;> simp [Cs.n]) (pixelsOf cs 255 data) (fun _ => pxZero) pxStart 0 (by
    cases cs
    · exact Or.inr (fun p hp => pixelsOf_alpha 255 data p hp)
    · exact Or.inl (by simp [Cs.n]))
  rw [pixelsOf_length cs 255 (w * h) data hl] at hb
  rw [← henc]
  simp only [List.length_append, beBytes_length, List.length_cons, List.length_nil] at hb ⊢
  simp at hb
  have : (cs.n + 1) * (w * h) = w * h * (cs.n + 1) := by ring
  omega

/-- A concrete encoding meeting the hypothesis of C02. -/
example : ∃ out, encode 1 2 .rgb [1, 2, 3, 200, 100, 50] = .ok out ∧ out.length ≤ 1 * 2 * 4 + 22 :=
  let ⟨out, h, _⟩ := c01_roundtrip ⟨16, 16, true⟩ 1 2 .rgb [1, 2, 3, 200, 100, 50] (by decide) (by decide) (by decide)
  ⟨out, h, c02_size 1 2 .rgb _ out h⟩

/-! ### Decoding into larger buffers -/

/-- A 1x1 RGB file. -/
def oneByOne : List UInt8 :=
  [0x71, 0x6f, 0x69, 0x66, 0, 0, 0, 1, 0, 0, 0, 1, 3, 0, 0xfe, 10, 20, 30, 0, 0, 0, 0, 0, 0, 0, 1]

/-- **C04, negation**: a valid file decodes into an exactly sized buffer (3 bytes) but not into a 6 byte buffer: the loop
    runs over the whole buffer and eats the end marker. -/
theorem c04_larger_buffer_fails :
    let (hd, c) := decodeHeaders ⟨16, 16, true⟩ (Cursor.new oneByOne)
    hd = .ok ⟨1, 1, .rgb⟩ ∧
    (decodeInto ⟨16, 16, true⟩ ⟨1, 1, .rgb⟩ c [0, 0, 0]).1 = .ok [10, 20, 30] ∧
    (decodeInto ⟨16, 16, true⟩ ⟨1, 1, .rgb⟩ c [0, 0, 0, 0, 0, 0]).1 = .error (.io .notEnoughBytes) := by
  decide +kernel

theorem decPixels_add (n m : Nat) (s : DSt) :
    (decPixels (n + m) s).1 = (decPixels n s).1 ++ (decPixels m (decPixels n s).2).1 := by
  induction n generalizing s with
  | zero => simp [decPixels]
  | succ n ih =>
    rw [show n + 1 + m = (n + m) + 1 by omega]
    simp only [decPixels, List.cons_append, ih]

/-- **C04**, part that holds: (1) with less than one pixel of slack the result is the exactly sized result followed by the
    untouched slack; (2) whatever the buffer, if both decodes succeed they agree on the first `w*h*components` bytes.
    Missing: success for larger buffers, refuted by `c04_larger_buffer_fails`. -/
theorem c04_decode_into_partial (o : Opts) (hd : Header) (c : Cursor) (buf exact : List UInt8) (hv : c.Valid)
    (hbuf : hd.w * hd.h * hd.cs.n ≤ buf.length) (hex : exact.length = hd.w * hd.h * hd.cs.n) :
    (∀ px, buf.length < hd.w * hd.h * hd.cs.n + hd.cs.n → (decodeInto o hd c exact).1 = .ok px →
      (decodeInto o hd c buf).1 = .ok (px ++ buf.drop (hd.w * hd.h * hd.cs.n))) ∧
    (∀ px px', (decodeInto o hd c exact).1 = .ok px → (decodeInto o hd c buf).1 = .ok px' →
      px'.take (hd.w * hd.h * hd.cs.n) = px) := by
  have hn : 0 < hd.cs.n := by cases hd.cs <;> simp [Cs.n]
  constructor
  · intro px hs hpx
    unfold decodeInto at *
    rw [if_neg (by omega)] at *
    have e1 : exact.length / hd.cs.n = hd.w * hd.h := by rw [hex]; exact Nat.mul_div_cancel _ hn
    have e2 : buf.length / hd.cs.n = hd.w * hd.h := by
      apply Nat.div_eq_of_lt_le hbuf
      rw [Nat.add_mul, Nat.one_mul]; exact hs
    have s1 := decodeInner_spec o hd c exact hv e1
    have s2 := decodeInner_spec o hd c buf hv e2
    rw [hpx] at s1
    simp only [Except.toOption] at s1
    rcases hr : Spec.result o.strict hd c.rest with _ | x
    · rw [hr] at s1; simp at s1
    · rw [hr] at s1 s2
      simp only [Option.map_some, Option.some.injEq] at s1 s2
      rw [List.drop_eq_nil_of_le (by omega), List.append_nil] at s1
      generalize decodeInner o hd.cs c buf = r at s2 ⊢
      obtain ⟨r, c'⟩ := r
      rcases r with e | y
      · simp [Except.toOption] at s2
      · simp only [Except.toOption, Option.some.injEq] at s2
        simp only [s2, s1]
  · intro px px' h1 h2
    unfold decodeInto at *
    rw [if_neg (by omega)] at h1 h2
    have e1 : exact.length / hd.cs.n = hd.w * hd.h := by rw [hex]; exact Nat.mul_div_cancel _ hn
    obtain ⟨m, hm⟩ : ∃ m, buf.length / hd.cs.n = hd.w * hd.h + m :=
      ⟨buf.length / hd.cs.n - hd.w * hd.h, by
        have : hd.w * hd.h ≤ buf.length / hd.cs.n := (Nat.le_div_iff_mul_le hn).2 hbuf
        omega⟩
    have shape : ∀ (b : List UInt8) (y : List UInt8), (decodeInner o hd.cs c b).1 = .ok y →
        y = Spec.interleave hd.cs (decPixels (b.length / hd.cs.n) ⟨fun _ => pxZero, pxStart, 0, c⟩).1 ++
          b.drop (b.length / hd.cs.n * hd.cs.n) := by
      intro b y hy
      unfold decodeInner at hy
      simp only at hy
      split at hy
      · simp at hy
      · split at hy
        · simp at hy
        · simp only [Except.ok.injEq] at hy
          exact hy.symm
    have y1 := shape exact px h1
    have y2 := shape buf px' h2
    rw [e1, List.drop_eq_nil_of_le (by omega), List.append_nil] at y1
    rw [hm, decPixels_add] at y2
    rw [y2, y1]
    have hl : (Spec.interleave hd.cs (decPixels (hd.w * hd.h) ⟨fun _ => pxZero, pxStart, 0, c⟩).1).length
        = hd.w * hd.h * hd.cs.n := by rw [interleave_length, decPixels_length]
    have happ : ∀ a b : List Px, Spec.interleave hd.cs (a ++ b) = Spec.interleave hd.cs a ++ Spec.interleave hd.cs b := by
      intro a b; simp [Spec.interleave]
    rw [happ, List.append_assoc, List.take_append_of_le_length (by omega), List.take_of_length_le (by omega)]

/-- The hypotheses of C04 hold for the 1x1 file with one byte of slack. -/
example : (decodeInto ⟨16, 16, true⟩ ⟨1, 1, .rgb⟩ ⟨oneByOne, 14⟩ [9, 9, 9, 9]).1 = .ok ([10, 20, 30] ++ [9]) :=
  (c04_decode_into_partial ⟨16, 16, true⟩ ⟨1, 1, .rgb⟩ ⟨oneByOne, 14⟩ [9, 9, 9, 9] [0, 0, 0] (by unfold Cursor.Valid; decide) (by decide)
    (by decide)).1 [10, 20, 30] (by decide) (by decide +kernel)

end Zune.Qoi
