/-
Properties C75, C76 and C77: the JPEG XL encoder as a whole, against the reading of `Iso18181.lean`.
-/
import Verif.Jxl.StreamWhole

namespace Zune.Jxl

open Iso (Codestream)

/-- The bytes of a pixel. -/
def pixelBytes (o : Opts) (data : List UInt8) (y x : Nat) : List UInt8 :=
  (data.drop ((y * o.width + x) * (o.bytes * o.channels))).take (o.bytes * o.channels)

/-- The samples of a pixel, as the user gave them: bytes, or pairs of bytes with the low byte first. -/
def source (o : Opts) (data : List UInt8) (y x : Nat) : List Int :=
  if o.bytes = 1 then (pixelBytes o data y x).map fun b => (b.toNat : Int) else words (pixelBytes o data y x)

theorem pixelBytes_length {o : Opts} {data : List UInt8} (h : o.Fits data) {y x : Nat} (hy : y < o.height) (hx : x < o.width) :
    (pixelBytes o data y x).length = o.bytes * o.channels := by
  rw [pixelBytes, List.length_take, List.length_drop, h.length]
  apply min_eq_left
  have h1 : y * o.width + x + 1 ≤ o.height * o.width := by
    calc y * o.width + x + 1 ≤ y * o.width + o.width := by omega
      _ = (y + 1) * o.width := by ring
      _ ≤ _ := Nat.mul_le_mul_right _ hy
  have h2 := Nat.mul_le_mul_right (o.bytes * o.channels) h1
  have h3 : o.expected = o.height * o.width * (o.bytes * o.channels) := by rw [Opts.expected]; ring
  rw [Nat.add_mul] at h2
  omega

theorem map_getD {α} (l : List α) (d : α) (n : Nat) (h : l.length = n) : ((List.range n).map fun c => l.getD c d) = l := by
  subst h
  apply List.ext_getElem (by simp)
  intro i h1 h2
  simp [List.getD_eq_getElem?_getD, List.getElem?_eq_getElem h2]

theorem undo_eq {l : List Int} (h : 1 ≤ l.length ∧ l.length ≤ 4) : Iso.undo (decide (2 < l.length)) l = decodePixel l := by
  match l, h with
  | [a], _ => rfl
  | [a, b], _ => rfl
  | [a, b, c], _ => rfl
  | [a, b, c, d], _ => rfl

theorem pixel8_length {w : Nat} {l : List UInt8} (h : 1 ≤ l.length ∧ l.length ≤ 4) : (pixel8 w l).length = l.length := by
  match l, h with
  | [a], _ => rfl
  | [a, b], _ => rfl
  | [a, b, c], _ => rfl
  | [a, b, c, d], _ => rfl

theorem pixel16_length {w : Nat} {l : List UInt8} {k : Nat} (h : 1 ≤ k ∧ k ≤ 4) (hl : l.length = 2 * k) : (pixel16 w l).length = k := by
  have : l.length = 2 ∨ l.length = 4 ∨ l.length = 6 ∨ l.length = 8 := by omega
  match l, this with
  | [a, b], _ => simp at hl; subst hl; rfl
  | [a, b, c, d], _ => simp at hl; obtain rfl : k = 2 := by omega
                       rfl
  | [a, b, c, d, e, f], _ => simp at hl; obtain rfl : k = 3 := by omega
                             rfl
  | [a, b, c, d, e, f, g, i], _ => simp at hl; obtain rfl : k = 4 := by omega
                                   rfl

/-- What a decoder sees of a pixel. -/
theorem seen_eq {o : Opts} {data : List UInt8} (h : o.Fits data) {y x : Nat} (hy : y < o.height) (hx : x < o.width) :
    seen o data y x = if o.bytes = 1 then decodePixel ((pixel8 16 (pixelBytes o data y x)).map BitVec.toInt)
      else decodePixel ((pixel16 32 (pixelBytes o data y x)).map BitVec.toInt) := by
  have hl := pixelBytes_length h hy hx
  have hch := h.channels
  have hb := h.bytes
  have hp : (data.drop (o.stride * y + x * (o.bytes * o.channels))).take (o.bytes * o.channels) = pixelBytes o data y x := by
    rw [pixelBytes, Opts.stride]
    congr 2
    ring
  rw [seen]
  simp only [pixAt]
  rw [hp]
  simp only [hy, hx, and_self, not_true_eq_false, if_false]
  generalize pixelBytes o data y x = px at *
  obtain ⟨w, hh, bytes, ch, e⟩ := o
  simp only at *
  rcases hb with rfl | rfl
  · simp only [if_true]
    rw [Nat.one_mul] at hl
    have e1 : (pixel8 16 px).length = ch := by rw [pixel8_length (by omega), hl]
    rw [← undo_eq (by rw [List.length_map]; omega), List.length_map, e1]
    congr 1
    conv_rhs => rw [← map_getD (pixel8 16 px) 0 ch e1, List.map_map]
    rfl
  · simp only [show ¬((2 : Nat) = 1) by omega, if_false]
    have e1 : (pixel16 32 px).length = ch := pixel16_length hch hl
    rw [← undo_eq (by rw [List.length_map]; omega), List.length_map, e1]
    congr 1
    conv_rhs => rw [← map_getD (pixel16 32 px) 0 ch e1, List.map_map]
    rfl

theorem seen_source {o : Opts} {data : List UInt8} (h : o.Fits data) (hg : ¬(o.bytes = 2 ∧ o.channels = 2)) {y x : Nat} (hy : y < o.height) (hx : x < o.width) :
    seen o data y x = source o data y x := by
  have hl := pixelBytes_length h hy hx
  have hch := h.channels
  rw [seen_eq h hy hx, source]
  rcases h.bytes with hb | hb
  · rw [if_pos hb, if_pos hb]
    apply c50_pixel8
    rw [hb] at hl
    omega
  · rw [if_neg (by omega), if_neg (by omega)]
    apply c50_pixel16_partial
    rw [hb] at hl
    omega

theorem encode_ok {o : Opts} {data out : List UInt8} (h : encode o data = .ok out) (hb : o.bytes = 1 ∨ o.bytes = 2) (hc : 1 ≤ o.channels ∧ o.channels ≤ 4) :
    o.Fits data ∧ encodeBody o data = some out := by
  rw [encode] at h
  split at h
  · cases h
  · split at h
    · cases h
    · split at h
      · cases h
      · split at h
        · cases h
        · split at h
          · rename_i h1 h2 h3 h4 out' h5
            cases h
            exact ⟨⟨hb, hc, by omega, by omega, by omega⟩, h5⟩
          · cases h

/-- What any reading of the stream has to agree with. -/
theorem encode_reading {o : Opts} {data out : List UInt8} (hf : o.Fits data) (ho : encodeBody o data = some out) {im : Iso.Image} {pix pix' : Nat → Nat → List Int}
    (h : Codestream (bytesLsb out) o.image pix) (h' : Codestream (bytesLsb out) im pix') : im = o.image ∧ ∀ y < o.height, ∀ x < o.width, pix' y x = pix y x := by
  obtain ⟨cs, h1, h2, h3, -, h5⟩ := encodeBody_container hf ho
  have hch := hf.channels
  have hg : ∀ l ∈ (cs.take o.channels).map PrefixCode.lens, (∀ x ∈ l, x ≤ 15) ∧ Prefix.weight 15 l ≤ 2 ^ 15 := by
    intro l hl
    obtain ⟨c, hc, rfl⟩ := List.mem_map.1 hl
    have := (ChannelCode.spec hf (h3 c (List.mem_of_mem_take hc))).good
    exact ⟨this.le, this.full.le⟩
  have hlf : ∀ X, Iso.LfGlobal ((if o.image.grey then 1 else 3) + o.image.extra.length) (dcFields o cs ++ X) ((cs.take o.channels).map PrefixCode.lens)
      (decide (2 < o.channels)) X := by
    rw [image_channels hf]
    exact lfGlobal_read hf h2 h3
  by_cases h1g : o.oneGroup = true
  · exact codestream_unique h5 (by omega) (section_one data cs hch.1 h1g) (hlf _) hg h h'
  · exact codestream_unique h5 (by omega) (section_first data cs hch.1 h1g) (hlf _) hg h h'

/-! ### C75 -/

/-- **C75** The encoder does not panic on 8-bit images: for every picture of the supported colour spaces, with sides from 2 up to what the size header
    can hold, it returns a stream. -/
theorem c75_8bit (o : Opts) (data : List UInt8) (hb : o.bytes = 1) (hc : 1 ≤ o.channels ∧ o.channels ≤ 4) (hw : 1 < o.width ∧ o.width < 2 ^ 30)
    (hh : 1 < o.height ∧ o.height < 2 ^ 30) (he : o.expected < 2 ^ 64) (hl : data.length = o.expected) : ∃ out, encode o data = .ok out := by
  have hf : o.Fits data := ⟨Or.inl hb, hc, hw.1, hh.1, hl⟩
  have hs : o.sampleBits ≤ o.maxBits ∧ o.sampleBits ≤ 16 := by
    rcases channels_cases hf with e | e | e | e <;> simp [Opts.sampleBits, Opts.maxBits, Opts.resBits, hb, e]
  obtain ⟨out, ho⟩ := encodeBody_ok hf hw.2 hh.2 fun cs hcs => by
    obtain ⟨cs', h1, h2, h3⟩ := codes_ok hf
    rw [hcs] at h1
    cases h1
    exact enough_of_bits hf h2 h3 (Or.inl hs.1) fun _ => Or.inl hs.2
  exact ⟨out, by rw [encode, if_neg (by omega), if_neg (by omega), if_neg (by omega), if_neg (by omega), ho]⟩

/-- A picture of 300 times 5 pixels in RGBA. -/
example : ∃ out, encode ⟨300, 5, 1, 4, 4⟩ (List.replicate 6000 77) = .ok out :=
  c75_8bit _ _ rfl (by decide) (by decide) (by decide) (by decide) (by rw [List.length_replicate]; rfl)

theorem area_le (o : Opts) (g : Nat) : (o.groupArea g).2.2.1 * (o.groupArea g).2.2.2 ≤ min o.width 256 * min o.height 256 := by
  have h1 : min (o.width - g % o.groupsX * 256) 256 ≤ min o.width 256 := by omega
  have h2 : min (o.height - g / o.groupsX * 256) 256 ≤ min o.height 256 := by omega
  exact Nat.mul_le_mul h1 h2

/-- **C75** The same for 16-bit images, if the reserved room is enough for the largest residuals: grey pictures (with or without alpha) of more than one
    group, or of up to 12050 pixels; colour pictures of up to 440 pixels.  What is missing is false of larger ones: see `c75_checkerboard_panics`. -/
theorem c75_16bit_partial (o : Opts) (data : List UInt8) (hb : o.bytes = 2) (hc : 1 ≤ o.channels ∧ o.channels ≤ 4) (hw : 1 < o.width ∧ o.width < 2 ^ 30)
    (hh : 1 < o.height ∧ o.height < 2 ^ 30) (he : o.expected < 2 ^ 64) (hl : data.length = o.expected)
    (h1 : o.channels ≤ 2 ∨ min o.width 256 * min o.height 256 ≤ 440) (h2 : o.width ≤ 256 ∧ o.height ≤ 256 → o.width * o.height ≤ 12050) :
    ∃ out, encode o data = .ok out := by
  have hf : o.Fits data := ⟨Or.inr hb, hc, hw.1, hh.1, hl⟩
  obtain ⟨out, ho⟩ := encodeBody_ok hf hw.2 hh.2 fun cs hcs => by
    obtain ⟨cs', e1, e2, e3⟩ := codes_ok hf
    rw [hcs] at e1
    cases e1
    refine enough_of_bits hf e2 e3 ?_ fun h1g => ?_
    · rcases h1 with h | h
      · left
        rcases channels_cases hf with e | e | e | e <;> simp [Opts.sampleBits, Opts.maxBits, Opts.resBits, hb, e] at h ⊢
      · exact Or.inr fun g _ => (area_le o g).trans h
    · have h3 : o.width ≤ 256 ∧ o.height ≤ 256 := by
        have : o.groupsX = 1 ∧ o.groupsY = 1 := by simpa [Opts.oneGroup] using h1g
        rw [Opts.groupsX, Opts.groupsY] at this
        omega
      rcases h1 with h | h
      · exact Or.inr (Or.inr ⟨h, h2 h3⟩)
      · rw [min_eq_left h3.1, min_eq_left h3.2] at h
        exact Or.inr (Or.inl (by omega))
  exact ⟨out, by rw [encode, if_neg (by omega), if_neg (by omega), if_neg (by omega), if_neg (by omega), ho]⟩

/-- A grey picture of 1000 times 700 pixels. -/
example : ∃ out, encode ⟨1000, 700, 2, 1, 4⟩ (List.replicate 1400000 77) = .ok out :=
  c75_16bit_partial _ _ rfl (by decide) (by decide) (by decide) (by decide) (by rw [List.length_replicate]; rfl) (by decide) (by decide)

/-! ### C76 -/

/-- **C76** The output is a codestream of the picture as far as its headers go: read as ISO/IEC 18181-1 says, the output has the width, height, depth,
    colour space and alpha channel of the input; its table of contents lists as many sections as a picture of this size has, and these make up the rest of
    the file; and the first one starts with a tree and five codes by which each channel is read with the gradient predictor, and asks for the inverse colour transform just
    in case there are three colours. -/
theorem c76_headers (o : Opts) (data out : List UInt8) (hb : o.bytes = 1 ∨ o.bytes = 2) (hc : 1 ≤ o.channels ∧ o.channels ≤ 4) (h : encode o data = .ok out) :
    ∃ sections first lens rest,
      Iso.container (bytesLsb out) = some (⟨o.width, o.height, 8 * o.bytes, if o.channels = 2 ∨ o.channels = 4 then [8] else [], decide (o.channels ≤ 2)⟩, 256, sections) ∧
      sections.length = (if o.width ≤ 256 ∧ o.height ≤ 256 then 1 else
        2 + ((o.width + 2047) / 2048) * ((o.height + 2047) / 2048) + ((o.width + 255) / 256) * ((o.height + 255) / 256)) ∧
      sections[0]? = some first ∧ Iso.LfGlobal o.channels first lens (decide (3 ≤ o.channels)) rest := by
  obtain ⟨hf, ho⟩ := encode_ok h hb hc
  obtain ⟨cs, h1, h2, h3, -, h5⟩ := encodeBody_container hf ho
  have him : o.image = ⟨o.width, o.height, 8 * o.bytes, if o.channels = 2 ∨ o.channels = 4 then [8] else [], decide (o.channels ≤ 2)⟩ := by
    rcases channels_cases hf with e | e | e | e <;> simp [Opts.image, Opts.alpha, e]
  obtain ⟨-, h6⟩ := sectionList_spec hf h2 h3
  obtain ⟨-, -, -, -, -, e6⟩ := sections_eq o
  have h1g : o.oneGroup = true ↔ o.width ≤ 256 ∧ o.height ≤ 256 := by
    have := hf.width
    have := hf.height
    simp only [Opts.oneGroup, Bool.and_eq_true, beq_iff_eq, Opts.groupsX, Opts.groupsY]
    omega
  have hlen : (sectionList o data cs).length = (if o.width ≤ 256 ∧ o.height ≤ 256 then 1 else
        2 + ((o.width + 2047) / 2048) * ((o.height + 2047) / 2048) + ((o.width + 255) / 256) * ((o.height + 255) / 256)) := by
    rw [h6, e6]
    simp only [h1g]
    rfl
  rw [him] at h5
  by_cases hg : o.oneGroup = true
  · exact ⟨_, _, _, _, h5, hlen, section_one data cs hc.1 hg, lfGlobal_read hf h2 h3 _⟩
  · exact ⟨_, _, _, _, h5, hlen, section_first data cs hc.1 hg, lfGlobal_read hf h2 h3 _⟩

/-- A picture of six groups is encoded, so its headers are as stated. -/
example : ∃ out sections, encode ⟨600, 300, 1, 2, 4⟩ (List.replicate 360000 9) = .ok out ∧
    Iso.container (bytesLsb out) = some (⟨600, 300, 8, [8], true⟩, 256, sections) ∧ sections.length = 9 := by
  obtain ⟨out, ho⟩ := c75_8bit ⟨600, 300, 1, 2, 4⟩ (List.replicate 360000 9) rfl (by decide) (by decide) (by decide) (by decide) (by rw [List.length_replicate]; rfl)
  obtain ⟨s, _, _, _, h1, h2, -⟩ := c76_headers _ _ _ (Or.inl rfl) (by decide) ho
  exact ⟨out, s, ho, h1, h2⟩

/-! ### C77 -/

/-- No group has more than 2055 zero symbols in a row: whatever the samples `chan` of the channels are from which the pixels are obtained. -/
def NoLongRuns (o : Opts) (pix : Nat → Nat → List Int) : Prop :=
  ∀ chan : Nat → Nat → Nat → Int,
    (∀ y < o.height, ∀ x < o.width, Iso.undo (decide (3 ≤ o.channels)) ((List.range o.channels).map fun c => chan c y x) = pix y x) →
    ∀ gy gx c, 256 * gx < o.width → 256 * gy < o.height → c < o.channels →
      ∀ syms, Decodes (min (o.width - 256 * gx) 256) (min (o.height - 256 * gy) 256) syms (fun y x => chan c (256 * gy + y) (256 * gx + x)) →
        ¬List.replicate 2056 0 <:+: syms

theorem run_infix (p : Proc) : ∀ r ∈ p.run :: p.calls.map Call.run, List.replicate r 0 <:+: p.symbols := by
  intro r hr
  rw [Proc.symbols]
  rcases List.mem_cons.1 hr with rfl | hr
  · exact (List.suffix_append _ _).isInfix
  · obtain ⟨k, hk, rfl⟩ := List.mem_map.1 hr
    obtain ⟨a, b, e⟩ := List.append_of_mem hk
    rw [e]
    refine ⟨a.flatMap Call.expand, k.residuals ++ b.flatMap Call.expand ++ List.replicate p.run 0, ?_⟩
    simp [Call.expand]

theorem runsFit_of {o : Opts} {data : List UInt8} (h : o.Fits data) {pix : Nat → Nat → List Int} (hp : ∀ y < o.height, ∀ x < o.width, seen o data y x = pix y x)
    (hn : NoLongRuns o pix) (cs : List PrefixCode) : RunsFit o data cs := by
  intro g hg c hc code _ r hr
  left
  by_contra hlt
  obtain ⟨B, hB, hpix⟩ := pixAt_bound h
  have hd := (c71_prediction (fun y x => pixAt o data c ((o.groupArea g).2.1 + y) ((o.groupArea g).1 + x)) B (by omega) (fun y x => hpix c _ _) (o.groupArea g).2.2.1
    (o.groupArea g).2.2.2).1
  have h1 := run_infix _ r hr
  have h2 : List.replicate 2056 0 <:+: List.replicate r 0 := by
    refine ⟨[], List.replicate (r - 2056) 0, ?_⟩
    rw [List.nil_append, ← List.replicate_add, show 2056 + (r - 2056) = r by omega]
  have hx0 : 0 < o.groupsX := by
    rcases Nat.eq_zero_or_pos o.groupsX with e | e
    · rw [e] at hg; omega
    · exact e
  have hgx := Nat.mod_lt g hx0
  have hgy : g / o.groupsX < o.groupsY := Nat.div_lt_of_lt_mul hg
  have hw := h.width
  have hh := h.height
  refine hn (fun c y x => (pixAt o data c y x).toInt) (fun y hy x hx => hp y hy x hx) (g / o.groupsX) (g % o.groupsX) c ?_ ?_ hc (o.proc data g c).symbols ?_ (h2.trans h1)
  · rw [Opts.groupsX] at hgx ⊢
    omega
  · rw [Opts.groupsY] at hgy
    omega
  · rw [Nat.mul_comm 256, Nat.mul_comm 256]
    exact hd

/-- **C77** The encoder is lossless, for pictures without runs of more than 2055 zero symbols: whatever it returns is a codestream whose pixels are the samples of the input,
    and a decoder cannot read anything else from it.  Missing are longer runs, whose codes may exceed the 32 bits in which they are collected
    (`c73_long_run_wrong`; JX2), and grey with alpha at 16 bits, which is false: see `c77_ga16_wrong`. -/
theorem c77_lossless_partial (o : Opts) (data out : List UInt8) (hb : o.bytes = 1 ∨ o.bytes = 2) (hc : 1 ≤ o.channels ∧ o.channels ≤ 4)
    (hga : ¬(o.bytes = 2 ∧ o.channels = 2)) (h : encode o data = .ok out) (hn : NoLongRuns o (source o data)) :
    ∃ im : Iso.Image, (im.width = o.width ∧ im.height = o.height ∧ im.bits = 8 * o.bytes) ∧ Codestream (bytesLsb out) im (source o data) ∧
      ∀ im' pix, Codestream (bytesLsb out) im' pix → im' = im ∧ ∀ y < o.height, ∀ x < o.width, pix y x = source o data y x := by
  obtain ⟨hf, ho⟩ := encode_ok h hb hc
  have hs : ∀ y < o.height, ∀ x < o.width, seen o data y x = source o data y x := fun y hy x hx => seen_source hf hga hy hx
  have hr := codestream_read hf ho fun cs _ => runsFit_of hf hs hn cs
  have hr' : Codestream (bytesLsb out) o.image (source o data) := by
    obtain ⟨d, sections, lens, rct, first, rest, chan, a1, a2, a3, a4, a5⟩ := hr
    exact ⟨d, sections, lens, rct, first, rest, chan, a1, a2, a3, a4, fun y hy x hx => by rw [← hs y hy x hx]; exact a5 y hy x hx⟩
  exact ⟨o.image, ⟨rfl, rfl, rfl⟩, hr', fun im' pix hp => encode_reading hf ho hr' hp⟩

theorem noLongRuns_small {o : Opts} (pix : Nat → Nat → List Int) (h : min o.width 256 * min o.height 256 ≤ 2055) : NoLongRuns o pix := by
  intro chan _ gy gx c _ _ _ syms hd hi
  have h1 := hi.length_le
  rw [List.length_replicate, hd.1] at h1
  have h2 : min (o.height - 256 * gy) 256 * min (o.width - 256 * gx) 256 ≤ min o.height 256 * min o.width 256 := Nat.mul_le_mul (by omega) (by omega)
  rw [Nat.mul_comm (min o.height 256)] at h2
  omega

/-- **C77** For 8-bit pictures whose groups have at most 2055 pixels (say, up to 45 times 45) nothing is missing: the encoder returns a stream, and it is that of the
    picture. -/
theorem c77_small (o : Opts) (data : List UInt8) (hb : o.bytes = 1) (hc : 1 ≤ o.channels ∧ o.channels ≤ 4) (hw : 1 < o.width ∧ o.width < 2 ^ 30)
    (hh : 1 < o.height ∧ o.height < 2 ^ 30) (he : o.expected < 2 ^ 64) (hl : data.length = o.expected) (hs : min o.width 256 * min o.height 256 ≤ 2055) :
    ∃ out im, encode o data = .ok out ∧ Codestream (bytesLsb out) im (source o data) ∧ im.width = o.width ∧ im.height = o.height ∧ im.bits = 8 ∧
      ∀ im' pix, Codestream (bytesLsb out) im' pix → im' = im ∧ ∀ y < o.height, ∀ x < o.width, pix y x = source o data y x := by
  obtain ⟨out, ho⟩ := c75_8bit o data hb hc hw hh he hl
  obtain ⟨im, ⟨h1, h2, h3⟩, h4, h5⟩ := c77_lossless_partial o data out (Or.inl hb) hc (by omega) ho (noLongRuns_small _ hs)
  exact ⟨out, im, ho, h4, h1, h2, by rw [h3, hb], h5⟩

/-- A picture of 1000 times 7 pixels, in four groups. -/
example : ∃ out im, encode ⟨1000, 7, 1, 3, 4⟩ (List.replicate 21000 77) = .ok out ∧
    Codestream (bytesLsb out) im (source ⟨1000, 7, 1, 3, 4⟩ (List.replicate 21000 77)) := by
  obtain ⟨out, im, h1, h2, -⟩ := c77_small ⟨1000, 7, 1, 3, 4⟩ (List.replicate 21000 77) rfl (by decide) (by decide) (by decide) (by decide)
    (by rw [List.length_replicate]; rfl) (by decide)
  exact ⟨out, im, h1, h2⟩

/-- Samples of half the range and more are turned into negative ones. -/
def signed (l : List Int) : List Int := l.map fun v => if v < 32768 then v else v - 65536

/-- **C77** is false of grey with alpha at 16 bits: from every stream the encoder returns (for a picture without long runs), a decoder reads
    samples of 32768 and above as negative numbers. -/
theorem c77_ga16_wrong (o : Opts) (data out : List UInt8) (hb : o.bytes = 2) (hc : o.channels = 2) (h : encode o data = .ok out)
    (hn : NoLongRuns o fun y x => signed (source o data y x)) :
    ∃ im : Iso.Image, Codestream (bytesLsb out) im (fun y x => signed (source o data y x)) ∧
      ∀ im' pix, Codestream (bytesLsb out) im' pix → im' = im ∧ ∀ y < o.height, ∀ x < o.width, pix y x = signed (source o data y x) := by
  obtain ⟨hf, ho⟩ := encode_ok h (Or.inr hb) (by omega)
  have hs : ∀ y < o.height, ∀ x < o.width, seen o data y x = signed (source o data y x) := by
    intro y hy x hx
    have hl := pixelBytes_length hf hy hx
    rw [seen_eq hf hy hx, source, if_neg (by omega), if_neg (by omega)]
    rw [hb, hc] at hl
    generalize pixelBytes o data y x = px at hl
    match px, hl with
    | [a, b, c, d], _ => exact c50_ga16_wrong a b c d
  have hr := codestream_read hf ho fun cs _ => runsFit_of hf hs hn cs
  have hr' : Codestream (bytesLsb out) o.image (fun y x => signed (source o data y x)) := by
    obtain ⟨d, sections, lens, rct, first, rest, chan, a1, a2, a3, a4, a5⟩ := hr
    exact ⟨d, sections, lens, rct, first, rest, chan, a1, a2, a3, a4, fun y hy x hx => (hs y hy x hx).symm.trans (a5 y hy x hx)⟩
  exact ⟨o.image, hr', fun im' pix hp => encode_reading hf ho hr' hp⟩

/-- A picture of 20 times 20 pixels. -/
example : ∃ out im, encode ⟨20, 20, 2, 2, 4⟩ (List.replicate 1600 200) = .ok out ∧
    Codestream (bytesLsb out) im (fun y x => signed (source ⟨20, 20, 2, 2, 4⟩ (List.replicate 1600 200) y x)) := by
  obtain ⟨out, ho⟩ := c75_16bit_partial ⟨20, 20, 2, 2, 4⟩ (List.replicate 1600 200) rfl (by decide) (by decide) (by decide) (by decide)
    (by rw [List.length_replicate]; rfl) (by decide) (by decide)
  obtain ⟨im, h, -⟩ := c77_ga16_wrong _ _ _ rfl rfl ho (noLongRuns_small _ (by decide))
  exact ⟨out, im, ho, h⟩

end Zune.Jxl
