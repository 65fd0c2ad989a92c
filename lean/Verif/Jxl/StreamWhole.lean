/-
The codestream as a whole: what the encoder writes is read back, and there is no other way to read it.
-/
import Verif.Jxl.StreamRead

namespace Zune.Jxl

open Iso (Padding LfGlobal GroupRead Codestream Image)

theorem padding_ok (n : Nat) : Padding (padding n) := by
  refine ⟨by rw [padding, List.length_replicate]; omega, fun b hb => ?_⟩
  rw [padding, List.mem_replicate] at hb
  exact hb.2

theorem own_other {o : Opts} {data : List UInt8} {cs : List PrefixCode} {g c : Nat} (h : o.oneGroup = true ∨ c ≠ 0) : ownBits o data cs g c = chanBits o data cs g c := by
  rw [ownBits]
  rcases h with h | h
  · simp [h]
  · simp [h]

/-- The only section when there is one group. -/
theorem section_one {o : Opts} (data : List UInt8) (cs : List PrefixCode) (hch : 0 < o.channels) (h1 : o.oneGroup = true) :
    (sectionList o data cs)[0]? = some (dcFields o cs ++ ((List.range o.channels).flatMap (chanBits o data cs 0) ++
      padding (dcFields o cs ++ (List.range o.channels).flatMap (chanBits o data cs 0)).length)) := by
  rw [sectionList, sectionBits, if_pos h1, List.map_singleton, List.getElem?_cons_zero]
  congr 1
  have : ((List.range o.channels).map fun c => if c = 0 then dcFields o cs ++ chanBits o data cs 0 c else ownBits o data cs 0 c).flatten =
      dcFields o cs ++ (List.range o.channels).flatMap (chanBits o data cs 0) := by
    obtain ⟨k, hk⟩ : ∃ k, o.channels = k + 1 := ⟨o.channels - 1, by omega⟩
    rw [hk, List.range_succ_eq_map, List.map_cons, List.flatten_cons, List.flatMap_cons, if_pos rfl, List.append_assoc, List.map_map, List.flatMap_map, List.flatMap_def]
    congr 3
    apply List.map_congr_left
    intro c _
    simp only [Function.comp]
    rw [if_neg (by omega), own_other (Or.inl h1)]
  rw [this, pad, List.append_assoc]

theorem section_first {o : Opts} (data : List UInt8) (cs : List PrefixCode) (hch : 0 < o.channels) (h1 : ¬o.oneGroup = true) :
    (sectionList o data cs)[0]? = some (dcFields o cs ++ padding (dcFields o cs).length) := by
  rw [sectionList, sectionBits, if_neg h1, List.cons_append, List.map_cons, List.getElem?_cons_zero]
  congr 1
  have : ((List.range o.channels).map fun c => if c = 0 then pad (dcFields o cs) else []).flatten = pad (dcFields o cs) := by
    obtain ⟨k, hk⟩ : ∃ k, o.channels = k + 1 := ⟨o.channels - 1, by omega⟩
    rw [hk, List.range_succ_eq_map, List.map_cons, List.flatten_cons, if_pos rfl, List.map_map]
    convert List.append_nil _
    rw [List.flatten_eq_nil_iff]
    intro l hl
    obtain ⟨c, -, rfl⟩ := List.mem_map.1 hl
    simp
  rw [this, pad_pad, pad]

theorem section_group {o : Opts} (data : List UInt8) (cs : List PrefixCode) (hch : 0 < o.channels) (h1 : ¬o.oneGroup = true) {g : Nat} (hg : g < o.groupsX * o.groupsY) :
    (sectionList o data cs)[2 + o.dcGroups + g]? = some (fields groupPreface ++ ((List.range o.channels).flatMap (chanBits o data cs g) ++
      padding (fields groupPreface ++ (List.range o.channels).flatMap (chanBits o data cs g)).length)) := by
  rw [sectionList, sectionBits, if_neg h1, List.getElem?_map, List.getElem?_append_right (by simp; omega)]
  rw [List.length_cons, List.length_replicate, show 2 + o.dcGroups + g - (1 + o.dcGroups + 1) = g by omega, List.getElem?_map, List.getElem?_range hg]
  simp only [Option.map_some]
  congr 1
  have : ((List.range o.channels).map (ownBits o data cs g)).flatten = fields groupPreface ++ (List.range o.channels).flatMap (chanBits o data cs g) := by
    obtain ⟨k, hk⟩ : ∃ k, o.channels = k + 1 := ⟨o.channels - 1, by omega⟩
    rw [hk, List.range_succ_eq_map, List.map_cons, List.flatten_cons, List.flatMap_cons, ownBits, if_pos (by simpa using h1), List.append_assoc, List.map_map, List.flatMap_map,
      List.flatMap_def]
    congr 3
    apply List.map_congr_left
    intro c _
    exact own_other (Or.inr (by omega))
  rw [this, pad, List.append_assoc]

/-- The samples a decoder computes for a pixel. -/
def seen (o : Opts) (data : List UInt8) (y x : Nat) : List Int :=
  Iso.undo (decide (2 < o.channels)) ((List.range o.channels).map fun c => (pixAt o data c y x).toInt)

theorem image_channels {o : Opts} {data : List UInt8} (h : o.Fits data) : (if o.image.grey then 1 else 3) + o.image.extra.length = o.channels := by
  rcases channels_cases h with e | e | e | e <;> simp [Opts.image, Opts.alpha, e]

theorem encodeBody_container {o : Opts} {data : List UInt8} (h : o.Fits data) {out : List UInt8} (ho : encodeBody o data = some out) :
    ∃ cs, codes o data = some cs ∧ cs.length = 4 ∧ (∀ code ∈ cs, ChannelCode o code) ∧ (o.width < 2 ^ 30 ∧ o.height < 2 ^ 30) ∧
      Iso.container (bytesLsb out) = some (o.image, 256, sectionList o data cs) := by
  obtain ⟨cs, hb, wb, h1, h2, h3, h4, h5, h6⟩ := encodeBody_bits h ho
  obtain ⟨h7, h8⟩ := sectionList_spec h h2 h3
  refine ⟨cs, h1, h2, h3, ⟨(sizeBits_le h5).1.2, (sizeBits_le h4).1.2⟩, ?_⟩
  rw [h6]
  exact container_read h h4 h5 (fun s hs => (h7 s hs).1) (fun s hs => (h7 s hs).2) h8

theorem codestream_read {o : Opts} {data : List UInt8} (h : o.Fits data) {out : List UInt8} (ho : encodeBody o data = some out)
    (hr : ∀ cs, codes o data = some cs → RunsFit o data cs) : Codestream (bytesLsb out) o.image (seen o data) := by
  obtain ⟨cs, h1, h2, h3, -, h5⟩ := encodeBody_container h ho
  have hr := hr cs h1
  have hcs : ∀ code ∈ cs, CodeSpec o code := fun code hc => ChannelCode.spec h (h3 code hc)
  have hch := h.channels
  obtain ⟨-, -, e3, e4, e5, -⟩ := sections_eq o
  have hpix : ∀ y < o.image.height, ∀ x < o.image.width, seen o data y x = Iso.undo (decide (2 < o.channels))
      ((List.range ((cs.take o.channels).map PrefixCode.lens).length).map fun c => (fun c y x => (pixAt o data c y x).toInt) c y x) := by
    intro y _ x _
    rw [seen, List.length_map, List.length_take, min_eq_left (by omega)]
  have hlf : ∀ X, LfGlobal ((if o.image.grey then 1 else 3) + o.image.extra.length) (dcFields o cs ++ X) ((cs.take o.channels).map PrefixCode.lens)
      (decide (2 < o.channels)) X := by
    rw [image_channels h]
    exact lfGlobal_read h h2 h3
  by_cases h1g : o.oneGroup = true
  · refine ⟨256, _, _, _, _, _, _, h5, section_one data cs hch.1 h1g, hlf _, ?_, hpix⟩
    · rw [if_pos (e5.2 h1g)]
      have hg : 0 < o.groupsX * o.groupsY := by
        have := e5.2 h1g
        omega
      have hx : o.groupsX = 1 ∧ o.groupsY = 1 := by simpa [Opts.oneGroup] using h1g
      have := group_read h h2 hcs hr hg (padding_ok (dcFields o cs ++ (List.range o.channels).flatMap (chanBits o data cs 0)).length)
      have ha : o.groupArea 0 = (0, 0, o.width, o.height) := by
        have hx1 := hx.1
        have hx2 := hx.2
        rw [Opts.groupsX] at hx1
        rw [Opts.groupsY] at hx2
        rw [Opts.groupArea, hx.1]
        simp
        omega
      rw [ha] at this
      exact this
  · refine ⟨256, _, _, _, _, _, fun c y x => (pixAt o data c y x).toInt, h5, section_first data cs hch.1 h1g, hlf _, ?_, hpix⟩
    · rw [if_neg (fun hc => h1g (e5.1 hc))]
      refine ⟨padding_ok _, fun g hg => ?_⟩
      rw [e3] at hg
      refine ⟨_, _, by rw [e4]; exact section_group data cs hch.1 h1g hg, rfl, ?_⟩
      have := group_read h h2 hcs hr hg (padding_ok (fields groupPreface ++ (List.range o.channels).flatMap (chanBits o data cs g)).length)
      have ha : o.groupArea g = (256 * (g % o.image.across 256), 256 * (g / o.image.across 256), min (o.image.width - 256 * (g % o.image.across 256)) 256,
          min (o.image.height - 256 * (g / o.image.across 256)) 256) := by
        rw [show o.image.across 256 = o.groupsX from rfl, Opts.groupArea, Nat.mul_comm 256, Nat.mul_comm 256]
        rfl
      rw [ha] at this
      exact this

/-- Every pixel is in a group. -/
theorem in_group {d w h y x : Nat} (hd : 0 < d) (hy : y < h) (hx : x < w) : ∃ g y' x', g < Iso.ceilDiv w d * Iso.ceilDiv h d ∧
    y = d * (g / Iso.ceilDiv w d) + y' ∧ x = d * (g % Iso.ceilDiv w d) + x' ∧
    y' < min (h - d * (g / Iso.ceilDiv w d)) d ∧ x' < min (w - d * (g % Iso.ceilDiv w d)) d := by
  have key : ∀ {a n : Nat}, a < n → a / d < Iso.ceilDiv n d := by
    intro a n ha
    rw [Iso.ceilDiv]
    have h1 : a + d ≤ n + d - 1 := by omega
    calc a / d < a / d + 1 := by omega
      _ = (a + d) / d := by rw [Nat.add_div_right _ hd]
      _ ≤ (n + d - 1) / d := Nat.div_le_div_right h1
  have kx := key hx
  have ky := key hy
  generalize Iso.ceilDiv w d = a at *
  generalize Iso.ceilDiv h d = b at *
  refine ⟨x / d + a * (y / d), y % d, x % d, ?_, ?_⟩
  · calc x / d + a * (y / d) < a * (y / d) + a := by omega
      _ = a * (y / d + 1) := by ring
      _ ≤ a * b := Nat.mul_le_mul_left _ ky
  · rw [Nat.add_mul_div_left _ _ (Nat.lt_of_le_of_lt (Nat.zero_le _) kx), Nat.div_eq_of_lt kx, Nat.zero_add, Nat.add_mul_mod_self_left, Nat.mod_eq_of_lt kx]
    have m1 := Nat.mod_lt y hd
    have m2 := Nat.mod_lt x hd
    have d1 := Nat.div_add_mod y d
    have d2 := Nat.div_add_mod x d
    exact ⟨d1.symm, d2.symm, by omega, by omega⟩

/-- A stream of which the codes are known has at most one reading. -/
theorem codestream_unique {bits : List Bool} {im im' : Iso.Image} {d : Nat} {sections : List (List Bool)} {first rest : List Bool} {lens : List (List Nat)} {rct : Bool}
    (hcon : Iso.container bits = some (im, d, sections)) (hd : 0 < d) (hfirst : sections[0]? = some first)
    (hlf : LfGlobal ((if im.grey then 1 else 3) + im.extra.length) first lens rct rest) (hc : ∀ l ∈ lens, (∀ x ∈ l, x ≤ 15) ∧ Prefix.weight 15 l ≤ 2 ^ 15)
    {pix pix' : Nat → Nat → List Int} (h : Codestream bits im pix) (h' : Codestream bits im' pix') :
    im' = im ∧ ∀ y < im.height, ∀ x < im.width, pix' y x = pix y x := by
  obtain ⟨d1, sec1, lens1, rct1, first1, rest1, chan1, a1, a2, a3, a4, a5⟩ := h
  obtain ⟨d2, sec2, lens2, rct2, first2, rest2, chan2, b1, b2, b3, b4, b5⟩ := h'
  rw [hcon] at a1 b1
  cases a1
  cases b1
  rw [hfirst] at a2 b2
  cases a2
  cases b2
  obtain ⟨rfl, rfl, rfl⟩ := lfGlobal_unique hlf a3
  obtain ⟨rfl, rfl, rfl⟩ := lfGlobal_unique hlf b3
  refine ⟨rfl, fun y hy x hx => ?_⟩
  rw [a5 y hy x hx, b5 y hy x hx]
  congr 1
  apply List.map_congr_left
  intro c hcl
  rw [List.mem_range] at hcl
  split at a4
  · rename_i h1
    rw [if_pos h1] at b4
    have := groupRead_unique hc b4 a4 c hcl y hy x hx
    simpa using this
  · rename_i h1
    rw [if_neg h1] at b4
    obtain ⟨g, y', x', hg, hy', hx', hy2, hx2⟩ := in_group hd hy hx
    obtain ⟨s, s', s1, s2, s3⟩ := a4.2 g hg
    obtain ⟨t, t', t1, t2, t3⟩ := b4.2 g hg
    rw [s1] at t1
    cases t1
    rw [s2] at t2
    cases t2
    have := groupRead_unique hc t3 s3 c hcl y' hy2 x' hx2
    rw [hy', hx']
    exact this

end Zune.Jxl
