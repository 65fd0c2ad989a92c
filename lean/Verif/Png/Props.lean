/- PNG: the properties C18 to C21 and C59 to C61. -/
import Verif.Png.Encode

namespace Zune.Png

open Zune.Stream

instance (o : DecOpts) (h : Spec.Header) : Decidable (h.Ok o) := by unfold Spec.Header.Ok; infer_instance

instance (cs : List (List UInt8 × List UInt8)) : Decidable (Spec.Framed cs) := by unfold Spec.Framed; infer_instance

/-! ### Round trip -/

/-- **C18**.  Encoding a picture (greyscale or colour, with or without alpha, of 8 or 16 bits) and decoding the file gives back the
    dimensions, the colour type, the sample bytes and the EXIF and gamma metadata: for every size the decoder accepts, every contents,
    every machine and whether or not checksums are verified.  The Huffman part `huff` of the decompressor is arbitrary, since the
    encoder emits stored blocks only. -/
theorem c18_roundtrip {σ : Type} (o : EncOpts) (hc : o.color ≠ .palette) (data : List UInt8)
    (hlen : data.length = o.width * o.height * o.size * o.color.comps) (hsz : data.length < 2 ^ 64)
    (hg : ∀ g ∈ o.gamma, g < 2 ^ 32)
    (hx : ∀ e ∈ o.exif, e.length < 2 ^ 32 ∧ (e.take 4 = [73, 73, 42, 0] ∨ e.take 4 = [77, 77, 0, 42]))
    (d : DecOpts) (hw : 0 < o.width ∧ o.width ≤ d.maxWidth ∧ o.width < 2 ^ 32)
    (hh : 0 < o.height ∧ o.height ≤ d.maxHeight ∧ o.height < 2 ^ 32)
    (halpha : d.wantAlpha = true → o.color.hasAlpha = true) (hdeep : o.deep = true → d.toLE = false ∧ d.strip = false)
    (huff : σ → Nat → Inflate.Bits → List UInt8 → Except Inflate.Err (σ × Inflate.Bits × List UInt8)) (init : σ) (fuel : Nat)
    (hfuel : o.height * (o.scanline + 1) < fuel) :
    ∃ file st, encode o data = .ok file ∧
      decodeRaw (fun zo s => Inflate.decodeZlib zo huff init fuel s) d file = .ok (st, data) ∧
      st.width = o.width ∧ st.height = o.height ∧ st.color = o.color ∧ st.depth = (if o.deep then 16 else 8) ∧
      st.exif = o.exif ∧ st.gamma = o.gamma := by
  have hsl : o.width * o.height * o.size * o.color.comps = o.height * o.scanline := by unfold EncOpts.scanline; ring
  have hpos := scan_pos o hw.1
  have hrows := filterRows_eq o data hpos o.height (by rw [hlen, hsl])
  have hslice : ∀ y < o.height, ((data.drop (y * o.scanline)).take o.scanline).length = o.scanline :=
    slice_length _ _ data (by rw [hlen, hsl])
  have hbpp : ∀ c : Ctx, c.color = o.color → c.depth = (if o.deep then 16 else 8) → c.bpp = o.color.comps * o.size := by
    intro c h1 h2
    unfold Ctx.bpp Ctx.bytes EncOpts.size
    rw [h1, h2]
    cases o.deep <;> rfl
  have hflen : (filterRows o data o.height 0).length = o.height * (o.scanline + 1) := by
    rw [hrows, stream_length _ o.scanline]
    · simp only [Spec.upRows, Spec.slices, List.length_mapIdx, List.length_map, List.length_range]
      exact Nat.mul_comm _ _
    · intro r hr
      unfold Spec.upRows at hr
      obtain ⟨i, hi, rfl⟩ := List.getElem_of_mem hr
      simp only [Spec.slices, List.length_mapIdx, List.length_map, List.length_range] at hi
      simp only [List.getElem_mapIdx, Spec.slices, List.getElem_map, List.getElem_range]
      exact hslice i hi
  have hlim : ∀ z, (filterRows o data o.height 0).length ≤ ((o.st z).zopts d).limit := by
    intro z
    rw [hflen]
    show _ ≤ (o.width + 1) * o.height * (if (if o.deep then 16 else 8) = 16 then 2 else 1) * o.color.comps + 4 * o.height
    have e : o.scanline ≤ (o.width + 1) * (if (if o.deep then 16 else 8) = 16 then 2 else 1) * o.color.comps := by
      unfold EncOpts.scanline EncOpts.size
      apply Nat.mul_le_mul_right
      cases o.deep
      · simp
      · simp
    calc o.height * (o.scanline + 1) = o.height * o.scanline + o.height := by ring
      _ ≤ o.height * ((o.width + 1) * (if (if o.deep then 16 else 8) = 16 then 2 else 1) * o.color.comps) + 4 * o.height :=
        Nat.add_le_add (Nat.mul_le_mul_left _ e) (by omega)
      _ = _ := by ring
  obtain ⟨z, hz, -⟩ := Inflate.c11_roundtrip_partial ((o.st []).zopts d) huff init (filterRows o data o.height 0) [] (by
    have := hlim []; omega)
  have hzd : Inflate.decodeZlib ((o.st z).zopts d) huff init fuel z = .ok (filterRows o data o.height 0) := by
    obtain ⟨z', hz', hdec⟩ := Inflate.c11_roundtrip_partial ((o.st z).zopts d) huff init (filterRows o data o.height 0) [] (by
      have := hlim z; omega)
    rw [hz'] at hz
    cases hz
    have := hdec fuel (by rw [hflen]; exact hfuel)
    rwa [List.append_nil] at this
  refine ⟨_, o.st z, encode_eq o hc data hlen hsz z hz, ?_, rfl, rfl, rfl, rfl, rfl, rfl⟩
  have hctx : ((o.st z).ctx d).AlphaFine := by
    intro ha
    exact .inr (.inl (halpha ha))
  have hout : ((o.st z).ctx d).outComps = o.color.comps := by
    show (if d.wantAlpha then (match o.color with | .luma | .lumaA => 2 | _ => 4)
      else if (none : Option (List Nat)).isNone then (match o.color with | .palette => 3 | .luma => 1 | .lumaA => 2 | .rgb => 3 | .rgba => 4)
      else (match o.color with | .luma | .lumaA => 2 | _ => 4)) = _
    cases hcol : o.color <;> first | exact absurd hcol hc | (rw [hcol] at halpha; cases hwa : d.wantAlpha <;> simp_all [Color.hasAlpha, Color.comps])
  have hbytes : ((o.st z).ctx d).bytes = o.size := by
    have : ∀ b : Bool, (if (if b = true then 16 else 8) = 16 then 2 else 1) = if b = true then 2 else 1 := by decide
    exact this o.deep
  have := file_spec (fun zo s => Inflate.decodeZlib zo huff init fuel s) d o.header
    ⟨hw.1, hh.1, hw.2.1, hh.2.1, hw.2.2, hh.2.2, by
      show (if o.deep then 16 else 8) = 1 ∨ (if o.deep then 16 else 8) = 2 ∨ (if o.deep then 16 else 8) = 4 ∨
        (if o.deep then 16 else 8) = 8 ∨ ((if o.deep then 16 else 8) = 16 ∧ o.color ≠ .palette)
      cases o.deep
      · simp
      · simp [hc]⟩
    (o.chunkList z) (chunkList_framed o z fun e he => (hx e he).1) (o.st z) (chunkList_apply o z hg fun e he => (hx e he).2) []
    (fun h => absurd h hc) (fun _ _ => rfl) (fun _ k hk => by cases hk) hctx
    (by
      rw [hout, hbytes]
      show o.width * o.height * o.color.comps * o.size < 2 ^ 64
      have e : o.width * o.height * o.color.comps * o.size = o.width * o.height * o.size * o.color.comps := by ring
      rw [e, ← hlen]; exact hsz)
    (o.pix data) (fun y x => by simp [EncOpts.pix, EncOpts.header])
    (filterRows o data o.height 0) []
    (by
      rw [hrows, ← hbpp ((o.st z).ctx d) rfl rfl]
      refine ⟨Spec.upRows (Spec.slices o.scanline o.height data), ?_, rfl⟩
      refine List.forall₂_iff_get.mpr ⟨by simp [Spec.upRows, Spec.slices, EncOpts.header], fun i h1 h2 => ?_⟩
      have hi : i < o.height := by simpa [EncOpts.header] using h1
      simp only [List.get_eq_getElem, Spec.upRows, List.getElem_mapIdx, Spec.slices, List.getElem_map, List.getElem_range]
      refine ⟨by split <;> omega, ?_, fun x _ => rfl⟩
      rw [hslice i hi]
      show o.scanline = (o.width * o.color.comps * (if o.deep then 16 else 8) + 7) / 8
      unfold EncOpts.scanline EncOpts.size
      cases o.deep
      · simp; omega
      · simp only [if_true]
        have : o.width * 2 * o.color.comps = 2 * (o.width * o.color.comps) := by ring
        omega)
    (by rw [chunkList_idats, List.append_nil]; exact hzd)
    (fun h => hdeep (by
      have h' : (if o.deep then 16 else 8) = 16 := h
      cases hd : o.deep
      · rw [hd] at h'; cases h'
      · rfl))
  have hpic := picture_eq o ((o.st z).ctx d) rfl rfl rfl hc halpha data (by rw [hlen, hsl])
  rw [this]
  show Except.ok (o.st z, Spec.picture ((o.st z).ctx d) o.width o.height (o.pix data)) = _
  rw [hpic]

/-- A 2 by 1 RGB picture with EXIF data and gamma. -/
example : ∃ file st, encode { width := 2, height := 1, color := .rgb, exif := some [73, 73, 42, 0, 9], gamma := some 45455 } [1, 2, 3, 4, 5, 6] = .ok file ∧
    decodeRaw (fun zo s => Inflate.decodeZlib zo (fun (_ : Unit) _ _ _ => .error .generic) () 100 s) { confirmCrc := true, confirmAdler := true } file =
      .ok (st, [1, 2, 3, 4, 5, 6]) ∧ st.width = 2 ∧ st.height = 1 ∧ st.color = .rgb ∧ st.depth = 8 ∧
      st.exif = some [73, 73, 42, 0, 9] ∧ st.gamma = some 45455 :=
  c18_roundtrip _ (by decide) _ rfl (by decide) (by simp) (by simp) _ (by decide) (by decide) (by decide) (by decide) _ _ _ (by decide)

/-! ### Interlacing -/

/-- **C19**.  For every picture size each pixel belongs to exactly one of the seven passes of the decoder's tables, at exactly one
    position of that pass. -/
theorem c19_partition (w h y x : Nat) (hy : y < h) (hx : x < w) :
    ∃! q : Pass × Nat × Nat, q.1 ∈ adam7 ∧ q.2.1 < q.1.height h ∧ q.2.2 < q.1.width w ∧
      q.2.1 * q.1.ys + q.1.yo = y ∧ q.2.2 * q.1.xs + q.1.xo = x :=
  pass_unique w h y x hy hx

/-- The last pixel of a 5 by 3 picture. -/
example : (2 : Nat) < 3 ∧ (4 : Nat) < 5 := by decide

/-- **C19** (no pixel outside).  Every position of every pass lies in the picture. -/
theorem c19_inside (w h : Nat) (p : Pass) (hp : p ∈ adam7) (j i : Nat) (hj : j < p.height h) (hi : i < p.width w) :
    j * p.ys + p.yo < h ∧ i * p.xs + p.xo < w := by
  unfold Pass.height at hj
  unfold Pass.width at hi
  simp only [adam7, List.mem_cons, List.not_mem_nil, or_false] at hp
  rcases hp with rfl | rfl | rfl | rfl | rfl | rfl | rfl <;> simp only at * <;> omega

example : (⟨4, 0, 8, 8⟩ : Pass) ∈ adam7 ∧ (0 : Nat) < (⟨4, 0, 8, 8⟩ : Pass).height 3 ∧ 0 < (⟨4, 0, 8, 8⟩ : Pass).width 5 := by
  simp [adam7, Pass.height, Pass.width]

/-- **C19** (decoder).  From the scanlines of the seven passes as RFC 2083 section 2.6 describes them (by the 8 by 8 pattern), with any
    filter types, the decoder assembles the whole picture, whatever the output buffer held before. -/
theorem c19_interlaced (c : Ctx) (hw : c.Wf) (hk : c.KeyOk) (ha : c.AlphaFine) (w h : Nat) (pix : Nat → Nat → List Nat)
    (hpix : ∀ y x, (pix y x).length = c.color.comps)
    (rows : Nat → List (Nat × List UInt8)) (hrows : ∀ n ∈ List.range' 1 7, Spec.passRows c w h n pix (rows n))
    (tail scratch out : List UInt8) (ho : out.length = w * h * c.outComps * c.bytes) :
    decodeInterlaced c w h (((List.range' 1 7).flatMap fun n => Spec.stream c.bpp [] (rows n)) ++ tail) scratch out =
      .ok (Spec.picture c w h pix) :=
  interlaced_spec c hw hk ha w h pix hpix rows hrows tail scratch out ho

/-- A 2 by 2 greyscale picture with samples 10, 20, 30, 40: passes 1, 6 and 7. -/
example : decodeInterlaced { color := .luma, depth := 8 } 2 2 [0, 10, 0, 20, 0, 30, 40] [] (List.replicate 4 0) = .ok [10, 20, 30, 40] := by
  refine c19_interlaced { color := .luma, depth := 8 } ⟨by decide, by decide, by decide, by decide, by decide⟩ (by intro h; cases h) (by intro h; cases h)
    2 2 (fun y x => [10 * (2 * (y % 2) + x % 2 + 1)]) (fun _ _ => rfl)
    (fun n => if n = 1 then [(0, [10])] else if n = 6 then [(0, [20])] else if n = 7 then [(0, [30, 40])] else [])
    (fun n hn => ?_) [] [] (List.replicate 4 0) rfl
  simp only [List.range', List.mem_cons, List.not_mem_nil, or_false] at hn
  have e1 : ∀ n ∈ [2, 3, 4, 5], Spec.lines n 2 2 = [] := by decide
  rcases hn with rfl | rfl | rfl | rfl | rfl | rfl | rfl
  · rw [Spec.passRows, show Spec.lines 1 2 2 = [0] by decide]
    refine .cons ⟨by decide, rfl, ?_⟩ .nil
    rw [show Spec.columns 1 2 0 = [0] by decide]
    decide
  · rw [Spec.passRows, e1 2 (by decide)]; exact .nil
  · rw [Spec.passRows, e1 3 (by decide)]; exact .nil
  · rw [Spec.passRows, e1 4 (by decide)]; exact .nil
  · rw [Spec.passRows, e1 5 (by decide)]; exact .nil
  · rw [Spec.passRows, show Spec.lines 6 2 2 = [0] by decide]
    refine .cons ⟨by decide, rfl, ?_⟩ .nil
    rw [show Spec.columns 6 2 0 = [1] by decide]
    decide
  · rw [Spec.passRows, show Spec.lines 7 2 2 = [1] by decide]
    refine .cons ⟨by decide, rfl, ?_⟩ .nil
    rw [show Spec.columns 7 2 1 = [0, 1] by decide]
    decide

/-! ### Pixels of files -/

/-- **C20**.  Files of every colour type and bit depth, interlaced or not, with any filter types and with any further well-formed chunks,
    decode to the specified pixels: samples unpacked from the most significant bits and scaled by 255/(2^n-1), palette indices replaced
    by PLTE and tRNS entries.  Partial: the picture must not ask for the alpha channel in a case which the code gets wrong
    (`Ctx.AlphaFine`, see `c20_last_row` and `c21_overwritten`), the colour key of 16-bit pictures must read the same in both byte orders
    (`c21_swapped`), palette pictures must have a PLTE chunk and sub-byte greyscale pictures none (`c20_grey_palette`). -/
theorem c20_file_partial (zlib : Inflate.Options → List UInt8 → Except Inflate.Err (List UInt8)) (o : DecOpts) (h : Spec.Header)
    (hok : h.Ok o) (cs : List (List UInt8 × List UInt8)) (hfr : Spec.Framed cs) (st : St) (hcs : Spec.applyAll h.st cs = some st)
    (tail : List UInt8)
    (hp : h.color = .palette → st.seenPlte = true) (hn : h.color ≠ .palette → h.depth < 8 → st.seenPlte = false)
    (hk : (st.ctx o).KeyOk)
    (ha : (st.ctx o).AlphaFine) (hsize : h.width * h.height * (st.ctx o).outComps * (st.ctx o).bytes < 2 ^ 64)
    (pix : Nat → Nat → List Nat) (hpix : ∀ y x, (pix y x).length = h.color.comps)
    (data extra : List UInt8) (hdata : Spec.scanlines (st.ctx o) h.width h.height h.adam7 pix data)
    (hz : zlib (st.zopts o) (Spec.idats cs) = .ok (data ++ extra)) (hle : h.depth = 16 → o.toLE = false ∧ o.strip = false) :
    decodeRaw zlib o (Spec.file h cs tail) = .ok (st, Spec.picture (st.ctx o) h.width h.height pix) :=
  file_spec zlib o h hok cs hfr st hcs tail hp hn hk ha hsize pix hpix data extra hdata hz hle

/-- A 3 by 1 palette picture of 2 bits: indices 1, 0, 2; the first two entries have alpha values. -/
example : decodeRaw (fun _ _ => .ok [0, 0x48]) {}
      (Spec.file { width := 3, height := 1, depth := 2, color := .palette }
        [([0x50, 0x4c, 0x54, 0x45], [1, 2, 3, 4, 5, 6, 7, 8, 9]), ([0x74, 0x52, 0x4e, 0x53], [100, 200]), ([0x49, 0x44, 0x41, 0x54], [77])] []) =
    .ok ({ seenHdr := true, width := 3, height := 1, depth := 2, color := .palette, seenPlte := true, seenTrns := true, idat := [77],
           palette := [⟨1, 2, 3, 100⟩, ⟨4, 5, 6, 200⟩, ⟨7, 8, 9, 255⟩] ++ List.replicate 253 {} },
      [4, 5, 6, 200, 1, 2, 3, 100, 7, 8, 9, 255]) := by
  refine c20_file_partial (fun _ _ => .ok [0, 0x48]) {} { width := 3, height := 1, depth := 2, color := .palette } (by decide) _ (by decide) _
    (by decide +kernel) [] (by decide) (by decide) (by intro h; cases h) (by intro h; cases h) (by decide)
    (fun _ x => [[1, 0, 2].getD x 0]) (fun _ _ => rfl) [0, 0x48] []
    ⟨[(0, [0x48])], .cons ⟨by decide, rfl, by decide +kernel⟩ .nil, by decide +kernel⟩ rfl (by intro h; cases h)

/-- **C20**, disagreement: the last row.  With the option to add an alpha channel, the last row of a greyscale picture of less than 8 bits
    is not expanded like the others: two equal rows come out differently. -/
theorem c20_last_row : (createRaw { color := .luma, depth := 4, wantAlpha := true } [0, 0x21, 0, 0x21] 2 2 [] (List.replicate 8 0)).map Prod.fst =
      .ok [34, 255, 17, 255, 33, 255, 17, 255] ∧
    (Spec.rowOut { color := .luma, depth := 4, wantAlpha := true } 2 [0x21]) = [34, 255, 17, 255] :=
  ⟨by decide +kernel, by decide +kernel⟩

/-- **C20**, disagreement: a (useless but permitted by the decoder) PLTE chunk in a greyscale picture of less than 8 bits makes
    the rows come out packed. -/
theorem c20_grey_palette : (createRaw { color := .luma, depth := 4, plte := some [] } [0, 0x21] 2 1 [] (List.replicate 2 0)).map Prod.fst =
      .ok [0x21, 0] ∧
    (Spec.rowOut { color := .luma, depth := 4, plte := some [] } 2 [0x21]) = [34, 17] :=
  ⟨by decide +kernel, by decide +kernel⟩

/-- **C20**, disagreement: a palette picture without PLTE chunk is not rejected; the indices appear as colour values. -/
theorem c20_no_palette : decodeRaw (fun _ _ => .ok [0, 7, 8, 9]) {}
      (Spec.file { width := 3, height := 1, depth := 8, color := .palette } [([0x49, 0x44, 0x41, 0x54], [77])] []) =
    .ok ({ seenHdr := true, width := 3, height := 1, depth := 8, color := .palette, idat := [77] },
      [7, 8, 9, 0, 0, 0, 0, 0, 0]) := by
  unfold decodeRaw
  rw [headers_spec {} { width := 3, height := 1, depth := 8, color := .palette } (by decide) _ (by decide) _ rfl []]
  decide +kernel

/-! ### Colour keys -/

/-- **C21**.  In a 16-bit picture with a colour key the alpha value is 0 exactly for the pixels equal to the key and 65535 for the others
    (`Spec.values`).  Partial: on little endian machines only for keys which read the same in both byte orders, and not together with
    the option to add an alpha channel. -/
theorem c21_key_partial (zlib : Inflate.Options → List UInt8 → Except Inflate.Err (List UInt8)) (o : DecOpts) (h : Spec.Header)
    (hok : h.Ok o) (hd : h.depth = 16) (cs : List (List UInt8 × List UInt8)) (hfr : Spec.Framed cs) (st : St)
    (hcs : Spec.applyAll h.st cs = some st) (tail : List UInt8) (ht : st.seenTrns = true)
    (hk : o.le = false ∨ ∀ v ∈ st.key, v / 256 % 256 = v % 256) (hwant : o.wantAlpha = false)
    (hsize : h.width * h.height * (st.ctx o).outComps * (st.ctx o).bytes < 2 ^ 64)
    (pix : Nat → Nat → List Nat) (hpix : ∀ y x, (pix y x).length = h.color.comps)
    (data extra : List UInt8) (hdata : Spec.scanlines (st.ctx o) h.width h.height h.adam7 pix data)
    (hz : zlib (st.zopts o) (Spec.idats cs) = .ok (data ++ extra)) (hle : o.toLE = false) (hst : o.strip = false) :
    decodeRaw zlib o (Spec.file h cs tail) = .ok (st,
      (List.range h.height).flatMap fun y => (List.range h.width).flatMap fun x =>
        (pix y x).flatMap (fun v => [UInt8.ofNat (v / 256), UInt8.ofNat (v % 256)]) ++
          if pix y x = (st.key.take (pix y x).length).map (· % 65536) then [0, 0] else [255, 255]) := by
  have hf := applyAll_from h cs h.st st (header_from h) (header_inv h) hcs
  have hc : h.color = .luma ∨ h.color = .rgb := by
    rcases (hf.key ht).1 with hc | hc | hc
    · exact .inl hc
    · exact .inr hc
    · exfalso
      rcases hok with ⟨-, -, -, -, -, -, h | h | h | h | h⟩ <;> first | omega | exact h.2 hc
  have hpal : (st.ctx o).color ≠ .palette := by
    show st.color ≠ .palette
    rw [hf.color]; rcases hc with h | h <;> rw [h] <;> decide
  rw [file_spec zlib o h hok cs hfr st hcs tail
      (fun e => by rcases hc with h | h <;> rw [h] at e <;> cases e) (fun _ e => by omega)
      (fun _ k hk' => by
        have : (if st.seenTrns then some st.key else none) = some k := hk'
        rw [if_pos ht] at this; cases this; exact hk)
      (fun e => by rw [show (st.ctx o).wantAlpha = o.wantAlpha from rfl, hwant] at e; cases e)
      hsize pix hpix data extra hdata hz (fun _ => ⟨hle, hst⟩),
    picture_values (st.ctx o) (by show st.depth = 16; rw [hf.depth, hd]) hpal]
  congr 2
  have htr : (st.ctx o).trns = some st.key := by show (if st.seenTrns then some st.key else none) = _; rw [if_pos ht]
  have hal : (st.ctx o).color.hasAlpha = false := by
    show st.color.hasAlpha = false
    rw [hf.color]; rcases hc with h | h <;> rw [h] <;> rfl
  unfold Spec.values
  simp only [List.flatMap_assoc, htr, hal, Option.isSome_some, or_true, and_self, if_true, List.flatMap_append, List.flatMap_singleton]
  apply flatMap_congr'; intro y _
  apply flatMap_congr'; intro x _
  have e : Spec.sampleBytes 16 = fun v => [UInt8.ofNat (v / 256), UInt8.ofNat (v % 256)] := by
    funext v; simp [Spec.sampleBytes]
  rw [e]
  congr 1
  split <;> rfl

/-- Key 0x0707 in a picture with the two pixels 0x0707 and 0x0708. -/
example : decodeRaw (fun _ _ => .ok [0, 7, 7, 7, 8]) {}
      (Spec.file { width := 2, height := 1, depth := 16, color := .luma }
        [([0x74, 0x52, 0x4e, 0x53], [7, 7]), ([0x49, 0x44, 0x41, 0x54], [77])] []) =
    .ok ({ seenHdr := true, width := 2, height := 1, depth := 16, color := .luma, seenTrns := true, idat := [77], key := [0x707, 0, 0, 0] },
      [7, 7, 0, 0, 7, 8, 255, 255]) := by
  refine (c21_key_partial (fun _ _ => .ok [0, 7, 7, 7, 8]) {} { width := 2, height := 1, depth := 16, color := .luma } (by decide) rfl
    [([0x74, 0x52, 0x4e, 0x53], [7, 7]), ([0x49, 0x44, 0x41, 0x54], [77])] (by decide)
    { seenHdr := true, width := 2, height := 1, depth := 16, color := .luma, seenTrns := true, idat := [77], key := [0x707, 0, 0, 0] }
    (by decide +kernel) [] rfl (.inr (by decide)) rfl (by decide)
    (fun _ x => [[0x707, 0x708].getD x 0]) (fun _ _ => rfl) [0, 7, 7, 7, 8] []
    ⟨[(0, [7, 7, 7, 8])], .cons ⟨by decide, rfl, by decide +kernel⟩ .nil, by decide +kernel⟩ rfl rfl rfl).trans (by decide +kernel)

/-- **C21**, disagreement, for all files and keys: on a little endian machine a pixel of a 16-bit picture becomes transparent exactly
    if it equals the key with the two bytes of each component exchanged. -/
theorem c21_swapped (zlib : Inflate.Options → List UInt8 → Except Inflate.Err (List UInt8)) (o : DecOpts) (h : Spec.Header)
    (hok : h.Ok o) (hd : h.depth = 16) (cs : List (List UInt8 × List UInt8)) (hfr : Spec.Framed cs) (st : St)
    (hcs : Spec.applyAll h.st cs = some st) (tail : List UInt8) (ht : st.seenTrns = true) (hmachine : o.le = true)
    (hwant : o.wantAlpha = false)
    (hsize : h.width * h.height * (st.ctx o).outComps * (st.ctx o).bytes < 2 ^ 64)
    (pix : Nat → Nat → List Nat) (hpix : ∀ y x, (pix y x).length = h.color.comps)
    (data extra : List UInt8) (hdata : Spec.scanlines (st.ctx o) h.width h.height h.adam7 pix data)
    (hz : zlib (st.zopts o) (Spec.idats cs) = .ok (data ++ extra)) (hle : o.toLE = false) (hst : o.strip = false) :
    decodeRaw zlib o (Spec.file h cs tail) = .ok (st,
      (List.range h.height).flatMap fun y => (List.range h.width).flatMap fun x =>
        (pix y x).flatMap (fun v => [UInt8.ofNat (v / 256), UInt8.ofNat (v % 256)]) ++
          if pix y x = (st.key.take (pix y x).length).map (fun v => v % 256 * 256 + v / 256 % 256) then [0, 0] else [255, 255]) := by
  have hf := applyAll_from h cs h.st st (header_from h) (header_inv h) hcs
  have hc : h.color = .luma ∨ h.color = .rgb := by
    rcases (hf.key ht).1 with hc | hc | hc
    · exact .inl hc
    · exact .inr hc
    · exfalso
      rcases hok with ⟨-, -, -, -, -, -, h | h | h | h | h⟩ <;> first | omega | exact h.2 hc
  have hseen : (st.ctx o).seen = { st.ctx o with le := false, trns := some (st.key.map swap16) } := by
    unfold Ctx.seen
    rw [if_pos ⟨by show st.depth = 16; rw [hf.depth, hd], hmachine⟩]
    have htr : (st.ctx o).trns = some st.key := by show (if st.seenTrns then some st.key else none) = _; rw [if_pos ht]
    rw [htr]; rfl
  have hpal : (st.ctx o).seen.color ≠ .palette := by
    rw [(seen_fields (st.ctx o)).1]
    show st.color ≠ .palette
    rw [hf.color]; rcases hc with h | h <;> rw [h] <;> decide
  rw [file_seen zlib o h hok cs hfr st hcs tail
      (fun e => by rcases hc with h | h <;> rw [h] at e <;> cases e) (fun _ e => by omega)
      (fun e => by rw [show (st.ctx o).wantAlpha = o.wantAlpha from rfl, hwant] at e; cases e)
      hsize pix hpix data extra hdata hz (fun _ => ⟨hle, hst⟩),
    picture_values (st.ctx o).seen (by rw [(seen_fields (st.ctx o)).2.1]; show st.depth = 16; rw [hf.depth, hd]) hpal]
  congr 2
  have htr : (st.ctx o).seen.trns = some (st.key.map swap16) := by rw [hseen]
  have hal : (st.ctx o).seen.color.hasAlpha = false := by
    rw [(seen_fields (st.ctx o)).1]
    show st.color.hasAlpha = false
    rw [hf.color]; rcases hc with h | h <;> rw [h] <;> rfl
  unfold Spec.values
  simp only [List.flatMap_assoc, htr, hal, Option.isSome_some, or_true, and_self, if_true, List.flatMap_append, List.flatMap_singleton]
  apply flatMap_congr'; intro y _
  apply flatMap_congr'; intro x _
  have e : Spec.sampleBytes 16 = fun v => [UInt8.ofNat (v / 256), UInt8.ofNat (v % 256)] := by
    funext v; simp [Spec.sampleBytes]
  have e2 : ∀ n, ((st.key.map swap16).take n).map (· % 65536) = (st.key.take n).map (fun v => v % 256 * 256 + v / 256 % 256) := by
    intro n
    rw [← List.map_take, List.map_map]
    apply List.map_congr_left
    intro v _
    simp only [Function.comp, swap16]
    have := Nat.mod_lt v (show 256 > 0 by decide)
    have := Nat.mod_lt (v / 256) (show 256 > 0 by decide)
    exact Nat.mod_eq_of_lt (by omega)
  rw [e, e2]
  congr 1
  split <;> rfl

/-- Key 0x0007: the pixel 0x0007 stays opaque, the pixel 0x0700 becomes transparent. -/
example : decodeRaw (fun _ _ => .ok [0, 0, 7, 7, 0]) {}
      (Spec.file { width := 2, height := 1, depth := 16, color := .luma }
        [([0x74, 0x52, 0x4e, 0x53], [0, 7]), ([0x49, 0x44, 0x41, 0x54], [77])] []) =
    .ok ({ seenHdr := true, width := 2, height := 1, depth := 16, color := .luma, seenTrns := true, idat := [77], key := [7, 0, 0, 0] },
      [0, 7, 255, 255, 7, 0, 0, 0]) := by
  refine (c21_swapped (fun _ _ => .ok [0, 0, 7, 7, 0]) {} { width := 2, height := 1, depth := 16, color := .luma } (by decide) rfl
    [([0x74, 0x52, 0x4e, 0x53], [0, 7]), ([0x49, 0x44, 0x41, 0x54], [77])] (by decide)
    { seenHdr := true, width := 2, height := 1, depth := 16, color := .luma, seenTrns := true, idat := [77], key := [7, 0, 0, 0] }
    (by decide +kernel) [] rfl rfl rfl (by decide)
    (fun _ x => [[0x7, 0x700].getD x 0]) (fun _ _ => rfl) [0, 0, 7, 7, 0] []
    ⟨[(0, [0, 7, 7, 0])], .cons ⟨by decide, rfl, by decide +kernel⟩ .nil, by decide +kernel⟩ rfl rfl rfl).trans (by decide +kernel)

/-- **C21**, disagreement: with the option to add an alpha channel the transparency found by the colour key is overwritten by opaque
    pixels (here for 8 bits). -/
theorem c21_overwritten : (createRaw { color := .luma, depth := 8, trns := some [7, 0, 0, 0], wantAlpha := true } [0, 7, 8] 2 1 [] (List.replicate 4 0)).map Prod.fst =
      .ok [7, 255, 8, 255] ∧
    (Spec.rowOut { color := .luma, depth := 8, trns := some [7, 0, 0, 0], wantAlpha := true } 2 [7, 8]) = [7, 0, 8, 255] :=
  ⟨by decide +kernel, by decide +kernel⟩

/-! ### Chunks -/

/-- **C59**.  A file made of the signature, IHDR, well-formed chunks and IEND is accepted by the header parser, whatever follows IEND,
    and leaves exactly the state described by the effects of the chunks. -/
theorem c59_headers (o : DecOpts) (h : Spec.Header) (hok : h.Ok o) (cs : List (List UInt8 × List UInt8)) (hfr : Spec.Framed cs)
    (st : St) (ha : Spec.applyAll h.st cs = some st) (tail : List UInt8) :
    decodeHeaders o (Spec.file h cs tail) = .ok (st, beBytes 4 (Spec.crc [0x49, 0x45, 0x4e, 0x44]) ++ tail) :=
  headers_spec o h hok cs hfr st ha tail

example : (Spec.Header.Ok {} { width := 3, height := 1, depth := 2, color := .palette }) ∧
    Spec.Framed [([0x50, 0x4c, 0x54, 0x45], [1, 2, 3]), ([0x49, 0x44, 0x41, 0x54], [77])] ∧
    (Spec.applyAll ({ width := 3, height := 1, depth := 2, color := .palette } : Spec.Header).st
      [([0x50, 0x4c, 0x54, 0x45], [1, 2, 3]), ([0x49, 0x44, 0x41, 0x54], [77])]).isSome := by
  refine ⟨by decide, by decide, by decide +kernel⟩

/-- **C59** (ancillary chunks).  Chunks with an unknown name whose first letter is a small one may stand anywhere without changing the
    result of the decoder. -/
theorem c59_ancillary (zlib : Inflate.Options → List UInt8 → Except Inflate.Err (List UInt8)) (o : DecOpts) (h : Spec.Header)
    (hok : h.Ok o) (a b : List (List UInt8 × List UInt8)) (hfr : Spec.Framed (a ++ b)) (name data : List UInt8) (hn : name.length = 4)
    (hd : data.length < 2 ^ 32) (hlow : (name.headD 0).toNat / 32 % 2 = 1)
    (hunk : name ∉ Spec.reserved ++ [[0x74, 0x52, 0x4e, 0x53], [0x67, 0x41, 0x4d, 0x41], [0x65, 0x58, 0x49, 0x66]]) (st : St)
    (ha : Spec.applyAll h.st (a ++ b) = some st) (tail : List UInt8) :
    decodeRaw zlib o (Spec.file h (a ++ (name, data) :: b) tail) = decodeRaw zlib o (Spec.file h (a ++ b) tail) := by
  have hap : ∀ s, Spec.apply s name data = some s := by
    intro s
    simp only [List.mem_append, List.mem_cons, List.not_mem_nil, or_false, not_or] at hunk
    obtain ⟨h1, h2, h3, h4⟩ := hunk
    have h5 : name ≠ [0x49, 0x44, 0x41, 0x54] := by rintro rfl; revert hlow; decide
    have h6 : name ≠ [0x50, 0x4c, 0x54, 0x45] := by rintro rfl; revert hlow; decide
    unfold Spec.apply
    rw [if_neg h5, if_neg h6, if_neg h2, if_neg h3, if_neg h4, if_neg h1, if_pos hlow]
  have ha' : Spec.applyAll h.st (a ++ (name, data) :: b) = some st := by
    rw [applyAll_append] at ha ⊢
    cases e : Spec.applyAll h.st a with
    | none => rw [e] at ha; cases ha
    | some s =>
      rw [e] at ha
      simp only [Option.bind_some, Spec.applyAll, hap] at ha ⊢
      exact ha
  have hfr' : Spec.Framed (a ++ (name, data) :: b) := by
    intro p hp
    simp only [List.mem_append, List.mem_cons] at hp
    rcases hp with hp | rfl | hp
    · exact hfr p (by simp [hp])
    · exact ⟨hn, hd⟩
    · exact hfr p (by simp [hp])
  unfold decodeRaw
  rw [headers_spec o h hok _ hfr' st ha', headers_spec o h hok _ hfr st ha]

/-- A chunk "abCd". -/
example : ([0x61, 0x62, 0x43, 0x64] : List UInt8).length = 4 ∧ (([0x61, 0x62, 0x43, 0x64] : List UInt8).headD 0).toNat / 32 % 2 = 1 ∧
    ([0x61, 0x62, 0x43, 0x64] : List UInt8) ∉ Spec.reserved ++ [[0x74, 0x52, 0x4e, 0x53], [0x67, 0x41, 0x4d, 0x41], [0x65, 0x58, 0x49, 0x66]] := by
  decide

/-- **C59** (IDAT).  How the compressed data is divided into IDAT chunks does not matter. -/
theorem c59_idat (zlib : Inflate.Options → List UInt8 → Except Inflate.Err (List UInt8)) (o : DecOpts) (h : Spec.Header)
    (hok : h.Ok o) (a b : List (List UInt8 × List UInt8)) (ds es : List (List UInt8)) (heq : ds.flatten = es.flatten)
    (hfr : Spec.Framed (a ++ b)) (hds : ∀ d ∈ ds ++ es, d.length < 2 ^ 32) (st : St)
    (ha : Spec.applyAll h.st (a ++ (ds.map fun d => ([0x49, 0x44, 0x41, 0x54], d)) ++ b) = some st) (tail : List UInt8) :
    decodeRaw zlib o (Spec.file h (a ++ (ds.map fun d => ([0x49, 0x44, 0x41, 0x54], d)) ++ b) tail) =
      decodeRaw zlib o (Spec.file h (a ++ (es.map fun d => ([0x49, 0x44, 0x41, 0x54], d)) ++ b) tail) := by
  have key : ∀ l : List (List UInt8), Spec.applyAll h.st (a ++ (l.map fun d => ([0x49, 0x44, 0x41, 0x54], d)) ++ b) =
      (Spec.applyAll h.st a).bind fun s => Spec.applyAll { s with idat := s.idat ++ l.flatten } b := by
    intro l
    rw [applyAll_append, applyAll_append]
    cases Spec.applyAll h.st a with
    | none => rfl
    | some s =>
      have := applyAll_idats l s
      unfold nIDAT at this
      rw [Option.bind_some, this, Option.bind_some, Option.bind_some]
  have hf : ∀ l : List (List UInt8), (∀ d ∈ l, d.length < 2 ^ 32) →
      Spec.Framed (a ++ (l.map fun d => ([0x49, 0x44, 0x41, 0x54], d)) ++ b) := by
    intro l hl p hp
    simp only [List.mem_append, List.mem_map] at hp
    rcases hp with (hp | ⟨d, hd, rfl⟩) | hp
    · exact hfr p (by simp [hp])
    · exact ⟨rfl, hl d hd⟩
    · exact hfr p (by simp [hp])
  have ha' : Spec.applyAll h.st (a ++ (es.map fun d => ([0x49, 0x44, 0x41, 0x54], d)) ++ b) = some st := by
    rw [key, ← heq, ← key]; exact ha
  unfold decodeRaw
  rw [headers_spec o h hok _ (hf ds fun d hd => hds d (by simp [hd])) st ha, headers_spec o h hok _ (hf es fun d hd => hds d (by simp [hd])) st ha']

example : ([[1, 2], [3], []] : List (List UInt8)).flatten = ([[1], [2, 3]] : List (List UInt8)).flatten := rfl

/-- **C60**.  If checksums are to be confirmed, a file with a chunk whose CRC is wrong is rejected, wherever the chunk stands and whatever
    its name is. -/
theorem c60_crc (zlib : Inflate.Options → List UInt8 → Except Inflate.Err (List UInt8)) (o : DecOpts) (hc : o.confirmCrc = true)
    (h : Spec.Header) (hok : h.Ok o) (cs : List (List UInt8 × List UInt8))
    (hfr : Spec.Framed cs) (st : St) (ha : Spec.applyAll h.st cs = some st) (name data rest : List UInt8) (crc : Nat)
    (hn : name.length = 4) (hd : data.length < 2 ^ 32) (h32 : crc < 2 ^ 32) (hbad : crc ≠ Spec.crc (name ++ data)) :
    decodeRaw zlib o ([0x89, 0x50, 0x4e, 0x47, 0x0d, 0x0a, 0x1a, 0x0a] ++ Spec.chunk [0x49, 0x48, 0x44, 0x52] h.bytes ++
      (cs.flatMap fun p => Spec.chunk p.1 p.2) ++ (beBytes 4 data.length ++ name ++ data ++ beBytes 4 crc ++ rest)) = .error .badCrc := by
  have e := headers_start o h hok ((cs.flatMap fun p => Spec.chunk p.1 p.2) ++ (beBytes 4 data.length ++ name ++ data ++ beBytes 4 crc ++ rest))
  have hl := chunks_length_le cs hfr
  generalize hfu : ((cs.flatMap fun p => Spec.chunk p.1 p.2) ++ (beBytes 4 data.length ++ name ++ data ++ beBytes 4 crc ++ rest)).length + 24 = fuel at e
  obtain ⟨k, rfl⟩ : ∃ k, fuel = cs.length + (k + 1) := ⟨fuel - cs.length - 1, by rw [List.length_append] at hfu; omega⟩
  rw [loop_prefix o _ cs h.st st (k + 1) (header_inv h) hfr ha, headerLoop, read_bad_crc o hc name data rest crc hn hd h32 hbad] at e
  have e' : decodeHeaders o ([0x89, 0x50, 0x4e, 0x47, 0x0d, 0x0a, 0x1a, 0x0a] ++ Spec.chunk [0x49, 0x48, 0x44, 0x52] h.bytes ++
      (cs.flatMap fun p => Spec.chunk p.1 p.2) ++ (beBytes 4 data.length ++ name ++ data ++ beBytes 4 crc ++ rest)) = .error .badCrc := by
    simp only [List.append_assoc] at e ⊢
    exact e
  unfold decodeRaw
  rw [e']
  rfl

/-- An IDAT chunk with CRC 0 behind the header of a 1 by 1 picture. -/
example : Spec.Header.Ok { confirmCrc := true } { width := 1, height := 1, depth := 8, color := .luma } ∧
    (0 : Nat) ≠ Spec.crc ([0x49, 0x44, 0x41, 0x54] ++ [1, 2, 3]) := by
  refine ⟨by decide, by decide +kernel⟩

/-- **C60** (header).  The same for IHDR itself, or any other first chunk called IHDR. -/
theorem c60_crc_header (zlib : Inflate.Options → List UInt8 → Except Inflate.Err (List UInt8)) (o : DecOpts) (hc : o.confirmCrc = true)
    (data rest : List UInt8) (crc : Nat) (hd : data.length < 2 ^ 32) (h32 : crc < 2 ^ 32)
    (hbad : crc ≠ Spec.crc ([0x49, 0x48, 0x44, 0x52] ++ data)) :
    decodeRaw zlib o ([0x89, 0x50, 0x4e, 0x47, 0x0d, 0x0a, 0x1a, 0x0a] ++
      (beBytes 4 data.length ++ [0x49, 0x48, 0x44, 0x52] ++ data ++ beBytes 4 crc ++ rest)) = .error .badCrc := by
  have hsig : ([0x89, 0x50, 0x4e, 0x47, 0x0d, 0x0a, 0x1a, 0x0a] : List UInt8) = beBytes 8 signature := by decide +kernel
  have hlt : signature < 256 ^ 8 := by unfold signature; norm_num
  have hr := read_bad_crc o hc [0x49, 0x48, 0x44, 0x52] data rest crc rfl hd h32 hbad
  have hpeek : ((beBytes 4 data.length ++ [0x49, 0x48, 0x44, 0x52] ++ data ++ beBytes 4 crc ++ rest).drop 4).take 4 = nIHDR := by
    rw [List.append_assoc, List.append_assoc, List.append_assoc, List.drop_left' (beBytes_length _ _)]
    exact List.take_left' rfl
  have hpos : 0 < (beBytes 4 data.length ++ [0x49, 0x48, 0x44, 0x52] ++ data ++ beBytes 4 crc ++ rest).length := by
    simp only [List.length_append, beBytes_length]; omega
  generalize beBytes 4 data.length ++ [0x49, 0x48, 0x44, 0x52] ++ data ++ beBytes 4 crc ++ rest = s at hr hpeek hpos ⊢
  have e : decodeHeaders o (beBytes 8 signature ++ s) = .error .badCrc := by
    unfold decodeHeaders
    rw [be_append 8 _ _ hlt]
    simp only [ne_eq, not_true_eq_false, if_false, hpeek]
    obtain ⟨k, hk⟩ : ∃ k, s.length = k + 1 := ⟨s.length - 1, by omega⟩
    rw [hk, headerLoop, hr]
  unfold decodeRaw
  rw [hsig, e]
  rfl

example : (7 : Nat) ≠ Spec.crc ([0x49, 0x48, 0x44, 0x52] ++ [1, 2, 3]) := by decide +kernel

/-! ### 16-bit output -/

/-- **C61**.  16-bit pictures appear in the byte order asked for: big endian by default (`Spec.values` gives the samples). -/
theorem c61_order (zlib : Inflate.Options → List UInt8 → Except Inflate.Err (List UInt8)) (o : DecOpts) (h : Spec.Header)
    (hok : h.Ok o) (hd : h.depth = 16) (cs : List (List UInt8 × List UInt8)) (hfr : Spec.Framed cs) (st : St)
    (hcs : Spec.applyAll h.st cs = some st) (tail : List UInt8) (hk : (st.ctx o).KeyOk) (ha : (st.ctx o).AlphaFine)
    (hsize : h.width * h.height * (st.ctx o).outComps * (st.ctx o).bytes < 2 ^ 64)
    (pix : Nat → Nat → List Nat) (hpix : ∀ y x, (pix y x).length = h.color.comps)
    (data extra : List UInt8) (hdata : Spec.scanlines (st.ctx o) h.width h.height h.adam7 pix data)
    (hz : zlib (st.zopts o) (Spec.idats cs) = .ok (data ++ extra)) (hst : o.strip = false) :
    decodeRaw zlib o (Spec.file h cs tail) = .ok (st, (Spec.values (st.ctx o) h.width h.height pix).flatMap fun v =>
      if o.toLE = true ∧ o.le = true then [UInt8.ofNat (v % 256), UInt8.ofNat (v / 256)]
      else [UInt8.ofNat (v / 256), UInt8.ofNat (v % 256)]) := by
  have hf := applyAll_from h cs h.st st (header_from h) (header_inv h) hcs
  have hc : h.color ≠ .palette := by
    intro hc
    rcases hok with ⟨-, -, -, -, -, -, h | h | h | h | h⟩ <;> first | omega | exact h.2 hc
  have hp : h.color = .palette → st.seenPlte = true := fun e => absurd e hc
  have hn : h.color ≠ .palette → h.depth < 8 → st.seenPlte = false := fun _ e => by omega
  rw [file_raw zlib o h hok cs hfr st hcs tail hp hn ha hsize pix hpix data extra hdata hz _ rfl, if_neg (by simp [hst]),
    seen_pixel _ (ctx_wf o h hok st hf hp hn) hk,
    picture_values (st.ctx o) (by show st.depth = 16; rw [hf.depth, hd]) (by show st.color ≠ _; rw [hf.color]; exact hc),
    swapPairs_values]
  by_cases hle : o.toLE = true ∧ o.le = true
  · simp only [hd, true_and, if_pos hle]
  · simp only [hd, true_and, if_neg hle]
    congr 2

/-- Two pixels in little endian order. -/
example : decodeRaw (fun _ _ => .ok [0, 1, 2, 3, 4]) { toLE := true }
      (Spec.file { width := 2, height := 1, depth := 16, color := .luma } [([0x49, 0x44, 0x41, 0x54], [77])] []) =
    .ok ({ seenHdr := true, width := 2, height := 1, depth := 16, color := .luma, idat := [77] }, [2, 1, 4, 3]) := by
  refine (c61_order (fun _ _ => .ok [0, 1, 2, 3, 4]) { toLE := true } { width := 2, height := 1, depth := 16, color := .luma } (by decide) rfl
    [([0x49, 0x44, 0x41, 0x54], [77])] (by decide)
    { seenHdr := true, width := 2, height := 1, depth := 16, color := .luma, idat := [77] }
    (by decide +kernel) [] (by intro _ k hk; cases hk) (by intro h; cases h) (by decide)
    (fun _ x => [[0x102, 0x304].getD x 0]) (fun _ _ => rfl) [0, 1, 2, 3, 4] []
    ⟨[(0, [1, 2, 3, 4])], .cons ⟨by decide, rfl, by decide +kernel⟩ .nil, by decide +kernel⟩ rfl rfl).trans (by decide +kernel)

/-- **C61** (8 bits).  With `strip_to_8bit` every sample of a 16-bit picture is replaced by its more significant byte.  Partial: not
    together with little endian output, see `c61_strip_low`. -/
theorem c61_strip_partial (zlib : Inflate.Options → List UInt8 → Except Inflate.Err (List UInt8)) (o : DecOpts) (h : Spec.Header)
    (hok : h.Ok o) (hd : h.depth = 16) (cs : List (List UInt8 × List UInt8)) (hfr : Spec.Framed cs) (st : St)
    (hcs : Spec.applyAll h.st cs = some st) (tail : List UInt8) (hk : (st.ctx o).KeyOk) (ha : (st.ctx o).AlphaFine)
    (hsize : h.width * h.height * (st.ctx o).outComps * (st.ctx o).bytes < 2 ^ 64)
    (pix : Nat → Nat → List Nat) (hpix : ∀ y x, (pix y x).length = h.color.comps)
    (data extra : List UInt8) (hdata : Spec.scanlines (st.ctx o) h.width h.height h.adam7 pix data)
    (hz : zlib (st.zopts o) (Spec.idats cs) = .ok (data ++ extra)) (hst : o.strip = true) (hle : o.toLE = false ∨ o.le = false) :
    decodeRaw zlib o (Spec.file h cs tail) = .ok (st, (Spec.values (st.ctx o) h.width h.height pix).map fun v => UInt8.ofNat (v / 256)) := by
  have hf := applyAll_from h cs h.st st (header_from h) (header_inv h) hcs
  have hc : h.color ≠ .palette := by
    intro hc
    rcases hok with ⟨-, -, -, -, -, -, h | h | h | h | h⟩ <;> first | omega | exact h.2 hc
  have hp : h.color = .palette → st.seenPlte = true := fun e => absurd e hc
  have hn : h.color ≠ .palette → h.depth < 8 → st.seenPlte = false := fun _ e => by omega
  have hsb : Spec.sampleBytes 16 = fun v => [UInt8.ofNat (v / 256), UInt8.ofNat (v % 256)] := by
    funext v; simp [Spec.sampleBytes]
  rw [file_raw zlib o h hok cs hfr st hcs tail hp hn ha hsize pix hpix data extra hdata hz _ rfl, if_pos ⟨hd, hst⟩,
    if_neg (by rintro ⟨-, a, b⟩; rcases hle with h | h <;> simp_all),
    seen_pixel _ (ctx_wf o h hok st hf hp hn) hk,
    picture_values (st.ctx o) (by show st.depth = 16; rw [hf.depth, hd]) (by show st.color ≠ _; rw [hf.color]; exact hc),
    hsb, everyOther_values]

/-- Two pixels reduced to 8 bits. -/
example : decodeRaw (fun _ _ => .ok [0, 1, 2, 3, 4]) { strip := true }
      (Spec.file { width := 2, height := 1, depth := 16, color := .luma } [([0x49, 0x44, 0x41, 0x54], [77])] []) =
    .ok ({ seenHdr := true, width := 2, height := 1, depth := 16, color := .luma, idat := [77] }, [1, 3]) := by
  refine (c61_strip_partial (fun _ _ => .ok [0, 1, 2, 3, 4]) { strip := true } { width := 2, height := 1, depth := 16, color := .luma } (by decide) rfl
    [([0x49, 0x44, 0x41, 0x54], [77])] (by decide)
    { seenHdr := true, width := 2, height := 1, depth := 16, color := .luma, idat := [77] }
    (by decide +kernel) [] (by intro _ k hk; cases hk) (by intro h; cases h) (by decide)
    (fun _ x => [[0x102, 0x304].getD x 0]) (fun _ _ => rfl) [0, 1, 2, 3, 4] []
    ⟨[(0, [1, 2, 3, 4])], .cons ⟨by decide, rfl, by decide +kernel⟩ .nil, by decide +kernel⟩ rfl rfl (.inl rfl)).trans (by decide +kernel)

/-- **C61**, disagreement, for all files: with little endian output asked for on a little endian machine, `strip_to_8bit` keeps the less
    significant bytes. -/
theorem c61_strip_low (zlib : Inflate.Options → List UInt8 → Except Inflate.Err (List UInt8)) (o : DecOpts) (h : Spec.Header)
    (hok : h.Ok o) (hd : h.depth = 16) (cs : List (List UInt8 × List UInt8)) (hfr : Spec.Framed cs) (st : St)
    (hcs : Spec.applyAll h.st cs = some st) (tail : List UInt8) (hk : (st.ctx o).KeyOk) (ha : (st.ctx o).AlphaFine)
    (hsize : h.width * h.height * (st.ctx o).outComps * (st.ctx o).bytes < 2 ^ 64)
    (pix : Nat → Nat → List Nat) (hpix : ∀ y x, (pix y x).length = h.color.comps)
    (data extra : List UInt8) (hdata : Spec.scanlines (st.ctx o) h.width h.height h.adam7 pix data)
    (hz : zlib (st.zopts o) (Spec.idats cs) = .ok (data ++ extra)) (hst : o.strip = true) (hle : o.toLE = true) (hm : o.le = true) :
    decodeRaw zlib o (Spec.file h cs tail) = .ok (st, (Spec.values (st.ctx o) h.width h.height pix).map fun v => UInt8.ofNat (v % 256)) := by
  have hf := applyAll_from h cs h.st st (header_from h) (header_inv h) hcs
  have hc : h.color ≠ .palette := by
    intro hc
    rcases hok with ⟨-, -, -, -, -, -, h | h | h | h | h⟩ <;> first | omega | exact h.2 hc
  have hp : h.color = .palette → st.seenPlte = true := fun e => absurd e hc
  have hn : h.color ≠ .palette → h.depth < 8 → st.seenPlte = false := fun _ e => by omega
  rw [file_raw zlib o h hok cs hfr st hcs tail hp hn ha hsize pix hpix data extra hdata hz _ rfl, if_pos ⟨hd, hst⟩,
    if_pos ⟨hd, hle, hm⟩,
    seen_pixel _ (ctx_wf o h hok st hf hp hn) hk,
    picture_values (st.ctx o) (by show st.depth = 16; rw [hf.depth, hd]) (by show st.color ≠ _; rw [hf.color]; exact hc),
    swapPairs_values, everyOther_values]

example : decodeRaw (fun _ _ => .ok [0, 1, 2, 3, 4]) { strip := true, toLE := true }
      (Spec.file { width := 2, height := 1, depth := 16, color := .luma } [([0x49, 0x44, 0x41, 0x54], [77])] []) =
    .ok ({ seenHdr := true, width := 2, height := 1, depth := 16, color := .luma, idat := [77] }, [2, 4]) := by
  refine (c61_strip_low (fun _ _ => .ok [0, 1, 2, 3, 4]) { strip := true, toLE := true } { width := 2, height := 1, depth := 16, color := .luma } (by decide) rfl
    [([0x49, 0x44, 0x41, 0x54], [77])] (by decide)
    { seenHdr := true, width := 2, height := 1, depth := 16, color := .luma, idat := [77] }
    (by decide +kernel) [] (by intro _ k hk; cases hk) (by intro h; cases h) (by decide)
    (fun _ x => [[0x102, 0x304].getD x 0]) (fun _ _ => rfl) [0, 1, 2, 3, 4] []
    ⟨[(0, [1, 2, 3, 4])], .cons ⟨by decide, rfl, by decide +kernel⟩ .nil, by decide +kernel⟩ rfl rfl rfl rfl).trans (by decide +kernel)

end Zune.Png
