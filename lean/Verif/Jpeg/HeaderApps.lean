import Verif.Jpeg.HeaderFrame

/-!
# Lemmas about the application segments of JPEG
-/

namespace Zune.Jpeg

open Seg

theorem u16z_body {b r : Bytes} (h : b.length + 2 < 65536) : u16z (body b ++ r) = (b.length + 2, b ++ r) := by
  simp only [body, be16, List.cons_append, List.nil_append, u16z, Prod.mk.injEq, and_true]
  exact be16_num _ h

theorem drop_app (b r : Bytes) : (b ++ r).drop b.length = r := by simp

theorem peek_app (n : Nat) (b r : Bytes) (h : n ≤ b.length) : peek n (b ++ r) = .ok (b.take n) := by
  unfold peek
  rw [if_pos (by simp; omega), List.take_append_of_le_length h]

theorem tagged_app (tag b r : Bytes) :
    tagged tag b.length (b ++ r) = .ok (decide (b.take tag.length = tag ∧ tag.length < b.length)) := by
  unfold tagged
  split
  · rename_i h
    rw [peek_app _ _ _ (by omega)]
    simp [Except.bind, h]
  · rename_i h
    simp [h]

theorem peek_rest (n : Nat) (b r : Bytes) (h : n ≤ b.length) :
    peek (b.length - n) ((b ++ r).drop n) = .ok (b.drop n) ∧ ((b ++ r).drop n).drop (b.length - n) = r := by
  rw [List.drop_append_of_le_length h]
  have : b.length - n = (b.drop n).length := by simp
  rw [this, peek_app _ _ _ (by omega), List.take_length, drop_app]
  exact ⟨rfl, rfl⟩

theorem app13_ok (d : Hdr) (b r : Bytes) (h : b.length + 2 < 65536) : parseApp13 d (body b ++ r) =
    .ok ({ d with iptc := (tagData (ascii "Photoshop 3.0" ++ [0]) b).getLast?.or d.iptc }, r) := by
  have htag : iptcTag = ascii "Photoshop 3.0" ++ [0] := rfl
  unfold parseApp13
  rw [u16z_body h]
  simp only
  rw [if_neg (by omega), Nat.add_sub_cancel, tagged_app, ← htag]
  simp only [Except.bind]
  unfold tagData
  by_cases hc : b.take iptcTag.length = iptcTag ∧ iptcTag.length < b.length
  · obtain ⟨p1, p2⟩ := peek_rest iptcTag.length b r (by omega)
    rw [if_pos (by simpa using hc), p1, p2, if_pos hc]
    rfl
  · rw [if_neg (by simpa using hc), if_neg hc, drop_app]
    rfl

theorem tag_ne (b s t : Bytes) (x y : UInt8) (hs : s[0]? = some x) (ht : t[0]? = some y) (hxy : x ≠ y)
    (h1 : b.take s.length = s) (h2 : b.take t.length = t) : False := by
  have e1 : (b.take s.length)[0]? = some x := by rw [h1, hs]
  have e2 : (b.take t.length)[0]? = some y := by rw [h2, ht]
  have l1 : 0 < s.length := by by_contra q; simp [List.getElem?_eq_none (Nat.le_of_not_lt q)] at hs
  have l2 : 0 < t.length := by by_contra q; simp [List.getElem?_eq_none (Nat.le_of_not_lt q)] at ht
  rw [List.getElem?_take_of_lt l1] at e1
  rw [List.getElem?_take_of_lt l2, e1] at e2
  exact hxy (Option.some.inj e2)

theorem tagData_of {tag b : Bytes} (h : b.take tag.length = tag ∧ tag.length < b.length) :
    tagData tag b = [b.drop tag.length] := by rw [tagData, if_pos h]

theorem tagData_not {tag b : Bytes} (h : ¬ (b.take tag.length = tag ∧ tag.length < b.length)) :
    tagData tag b = [] := by rw [tagData, if_neg h]

theorem app1_ok (d : Hdr) (b r : Bytes) (h : b.length + 2 < 65536) : parseApp1 d (body b ++ r) =
    .ok ({ d with exif := (tagData (ascii "Exif" ++ [0, 0]) b).getLast?.or d.exif,
                  xmp := (tagData (ascii "http://ns.adobe.com/xap/1.0/" ++ [0]) b).getLast?.or d.xmp }, r) := by
  have t1 : exifTag = ascii "Exif" ++ [0, 0] := by decide
  have t2 : xmpTag = ascii "http://ns.adobe.com/xap/1.0/" ++ [0] := rfl
  unfold parseApp1
  rw [u16z_body h]
  simp only
  rw [if_neg (by omega), Nat.add_sub_cancel, tagged_app, ← t1, ← t2]
  simp only [Except.bind]
  by_cases hc : b.take exifTag.length = exifTag ∧ exifTag.length < b.length
  · obtain ⟨p1, p2⟩ := peek_rest exifTag.length b r (by omega)
    have hx : tagData xmpTag b = [] := by
      unfold tagData
      rw [if_neg fun q => tag_ne b exifTag xmpTag 69 104 rfl rfl (by decide) hc.1 q.1]
    have he : tagData exifTag b = [b.drop exifTag.length] := by
      unfold tagData
      rw [if_pos hc]
    rw [if_pos (by simpa using hc), p1, p2, hx, he]
    rfl
  · have he : tagData exifTag b = [] := by
      unfold tagData
      rw [if_neg hc]
    rw [if_neg (by simpa using hc), tagged_app, he]
    simp only
    by_cases hd : b.take xmpTag.length = xmpTag ∧ xmpTag.length < b.length
    · obtain ⟨p1, p2⟩ := peek_rest xmpTag.length b r (by omega)
      have hx : tagData xmpTag b = [b.drop xmpTag.length] := by
        unfold tagData
        rw [if_pos hd]
      rw [if_pos (by simpa using hd), p1, p2, hx]
      rfl
    · have hx : tagData xmpTag b = [] := by
        unfold tagData
        rw [if_neg hd]
      rw [if_neg (by simpa using hd), drop_app, hx]
      rfl

/-- Pieces of an ICC profile in an APP2 segment. -/
def iccOf (b : Bytes) : List IccChunk :=
  (Segment.icc (.data 0xE2 b)).map fun x => { seq := x.1, num := x.2.1, data := x.2.2 }

theorem mpf_eq (b : Bytes) : (Segment.data 0xE2 b).mpf = tagData mpfTag b := by
  have : mpfTag = ascii "MPF" ++ [0] := by decide
  rw [this]
  simp [Segment.mpf, Segment.under]

theorem gain_eq (b : Bytes) : (Segment.data 0xE2 b).gain = (tagData hdrTag b).flatMap fun v =>
    if v.length = 4 then [[]] else if 4 < v.length then [v] else [] := by
  have : hdrTag = ascii "urn:iso:std:iso:ts:21496:-1" ++ [0] := rfl
  rw [this]
  simp [Segment.gain, Segment.under]

theorem four (v : Bytes) (h : 4 ≤ v.length) : (u16z (u16z v).2).2 = v.drop 4 := by
  match v, h with
  | _ :: _ :: _ :: _ :: v, _ => rfl

theorem app2_ok (d : Hdr) (b r : Bytes) (h : b.length + 2 < 65536) : parseApp2 d (body b ++ r) =
    .ok ({ d with icc := d.icc ++ iccOf b, gain := d.gain ++ (Segment.data 0xE2 b).gain,
                  mpf := (Segment.data 0xE2 b).mpf.getLast?.or d.mpf }, r) := by
  have t1 : iccTag = ascii "ICC_PROFILE" ++ [0] := rfl
  rw [mpf_eq, gain_eq]
  unfold parseApp2
  rw [u16z_body h]
  simp only
  rw [if_neg (by omega), Nat.add_sub_cancel]
  have hicc : iccTagged b.length (b ++ r) = .ok (decide (b.take 12 = iccTag ∧ 14 < b.length)) := by
    unfold iccTagged
    split
    · rename_i h
      rw [peek_app _ _ _ (by omega)]
      simp [Except.bind, h]
    · rename_i h
      simp [h]
  have hof : iccOf b = if b.take 12 = iccTag ∧ 14 < b.length then
      [{ seq := (b[12]?.getD 0).toNat, num := (b[13]?.getD 0).toNat, data := b.drop 14 }] else [] := by
    unfold iccOf Segment.icc Segment.under tagData
    rw [← t1]
    simp only [if_true, List.flatMap_cons, List.flatMap_nil, List.append_nil]
    by_cases hc : b.take 12 = iccTag ∧ 14 < b.length
    · have hl : (b.drop 12).length = b.length - 12 := by simp
      have q : b.take iccTag.length = iccTag ∧ iccTag.length < b.length := by
        have : iccTag.length = 12 := rfl
        rw [this]
        exact ⟨hc.1, by omega⟩
      rw [if_pos hc, if_pos q, List.flatMap_cons, List.flatMap_nil, List.append_nil]
      have e : b.drop 12 = b[12]'(by omega) :: b[13]'(by omega) :: b[14]'(by omega) :: b.drop 15 := by
        rw [List.drop_eq_getElem_cons (by omega), List.drop_eq_getElem_cons (by omega), List.drop_eq_getElem_cons (by omega)]
      rw [show iccTag.length = 12 from rfl, e]
      have e' : b.drop 14 = b[14]'(by omega) :: b.drop 15 := List.drop_eq_getElem_cons (by omega)
      rw [e', List.getElem?_eq_getElem (by omega), List.getElem?_eq_getElem (by omega)]
      rfl
    · rw [if_neg hc]
      by_cases q : b.take iccTag.length = iccTag ∧ iccTag.length < b.length
      · rw [if_pos q, List.flatMap_cons, List.flatMap_nil, List.append_nil]
        have hl : (b.drop iccTag.length).length ≤ 2 := by
          simp only [List.length_drop]
          have : iccTag.length = 12 := rfl
          have h' : ¬ 14 < b.length := fun hx => hc ⟨q.1, hx⟩
          omega
        generalize b.drop iccTag.length = v at hl
        match v, hl with
        | [], _ => rfl
        | [_], _ => rfl
        | [_, _], _ => rfl
      · rw [if_neg q]
        rfl
  rw [hicc]
  simp only [Except.bind]
  rw [hof]
  by_cases hc : b.take 12 = iccTag ∧ 14 < b.length
  · rw [if_pos (by simpa using hc), if_pos hc]
    have e : (b ++ r).drop 12 = b[12]'(by omega) :: b[13]'(by omega) :: (b.drop 14 ++ r) := by
      rw [List.drop_append_of_le_length (by omega), List.drop_eq_getElem_cons (by omega), List.drop_eq_getElem_cons (by omega)]
      rfl
    have n1 : tagData hdrTag b = [] := tagData_not fun q => tag_ne b iccTag hdrTag 73 117 rfl rfl (by decide) hc.1 q.1
    have n2 : tagData mpfTag b = [] := tagData_not fun q => tag_ne b iccTag mpfTag 73 77 rfl rfl (by decide) hc.1 q.1
    rw [e, n1, n2]
    simp only [u8z]
    have hl : b.length - 14 = (b.drop 14).length := by simp
    rw [hl, peek_app _ _ _ (by omega), List.take_length, drop_app, List.getElem?_eq_getElem (by omega), List.getElem?_eq_getElem (by omega)]
    simp
  · rw [if_neg (by simpa using hc), if_neg hc, List.append_nil, tagged_app]
    simp only
    by_cases h1 : b.take hdrTag.length = hdrTag ∧ hdrTag.length < b.length
    · have n2 : tagData mpfTag b = [] := tagData_not fun q => tag_ne b hdrTag mpfTag 117 77 rfl rfl (by decide) h1.1 q.1
      rw [if_pos (by simpa using h1), n2, tagData_of h1]
      obtain ⟨p1, p2⟩ := peek_rest hdrTag.length b r (by omega)
      unfold gainMap
      simp only [List.flatMap_cons, List.flatMap_nil, List.append_nil, List.length_drop, List.getLast?_nil, Option.none_or]
      split
      · rename_i h4
        have : (u16z (u16z ((b ++ r).drop hdrTag.length)).2).2 = r := by
          rw [four _ (by simp; omega), ← h4, p2]
        rw [this]
      · split
        · rw [p1, p2]
          rfl
        · rw [p2, List.append_nil]
    · rw [if_neg (by simpa using h1), tagged_app, tagData_not h1]
      simp only
      by_cases h2 : b.take mpfTag.length = mpfTag ∧ mpfTag.length < b.length
      · rw [if_pos (by simpa using h2)]
        obtain ⟨p1, p2⟩ := peek_rest mpfTag.length b r (by omega)
        rw [p1, p2, tagData_of h2]
        simp
      · rw [if_neg (by simpa using h2), drop_app, tagData_not h2]
        simp

theorem app0_ok (d : Hdr) (b r : Bytes) (h : b.length + 2 < 65536) (h4 : b.length ≠ 4) :
    parseApp0 d (body b ++ r) = .ok ({ d with mjpeg := d.mjpeg || (Segment.data 0xE0 b).avi }, r) := by
  have t1 : aviTag = ascii "AVI1" ++ [0] := by decide
  have ha : (Segment.data 0xE0 b).avi = decide (b.take 5 = aviTag) := by
    rw [t1]
    simp [Segment.avi, Segment.under]
  rw [ha]
  unfold parseApp0
  rw [body_read h]
  simp only [Except.bind]
  rw [if_neg (by omega)]
  split
  · rename_i h5
    have e : b ++ r = b.take 5 ++ (b.drop 5 ++ r) := by rw [← List.append_assoc, List.take_append_drop]
    rw [e, exactly_ok.2 ⟨by simp; omega, rfl⟩]
    simp only
    rw [show b.length + 2 - 5 - 2 = (b.drop 5).length by simp; omega, drop_app]
  · rename_i h5
    have : b.take 5 ≠ aviTag := by
      intro q
      have := congrArg List.length q
      simp [aviTag] at this
      omega
    rw [Nat.add_sub_cancel, drop_app]
    simp [this]

theorem other_ok (d : Hdr) (b r : Bytes) (h : b.length + 2 < 65536) : parseOther d (body b ++ r) = .ok (d, r) := by
  unfold parseOther
  rw [body_read h]
  simp only [Except.bind]
  rw [if_neg (by omega), Nat.add_sub_cancel, drop_app]

theorem dri_ok (d : Hdr) (n : Nat) (r : Bytes) (h : n < 65536) : parseDri d (body (be16 n) ++ r) =
    .ok ({ d with restart := n, todo := n }, r) := by
  unfold parseDri
  rw [body_read (by rw [be16_length]; omega)]
  simp only [Except.bind]
  rw [if_neg (by rw [be16_length]; simp), u16_app h]

/-- Colour space for an Adobe transform. -/
def adobeSpace (t : Nat) : InSpace := if t = 0 then .cmyk else if t = 1 then .ycbcr else .ycck

theorem app14_ok (d : Hdr) (b r : Bytes) (h : b.length + 2 < 65536) (ha : b.take 5 = ascii "Adobe") (hl : 12 ≤ b.length)
    (t : Nat) (ht : (Segment.data 0xEE b).adobe = [t]) (h2 : t ≤ 2) :
    parseApp14 d (body b ++ r) = .ok ({ d with space := adobeSpace t }, r) := by
  have t1 : adobeTag = ascii "Adobe" := by decide
  have htv : (b[11]'(by omega)).toNat = t := by
    unfold Segment.adobe Segment.under tagData at ht
    have hal : (ascii "Adobe").length = 5 := by decide
    simp only [if_true, List.flatMap_cons, List.flatMap_nil, List.append_nil] at ht
    rw [hal, if_pos ⟨ha, by omega⟩] at ht
    simp only [List.flatMap_cons, List.flatMap_nil, List.append_nil, List.getElem?_drop] at ht
    rw [List.getElem?_eq_getElem (by omega)] at ht
    simpa using ht
  unfold parseApp14
  rw [u16z_body h]
  simp only
  rw [if_neg (by omega), peek_app _ _ _ (by omega)]
  simp only [Except.bind]
  rw [t1, if_pos ha, if_neg (by omega), List.drop_drop]
  have e : (b ++ r).drop (6 + 5) = b[11]'(by omega) :: (b.drop 12 ++ r) := by
    rw [List.drop_append_of_le_length (by omega), List.drop_eq_getElem_cons (by omega)]
    rfl
  rw [e]
  simp only [u8z, htv]
  have hd : (b.drop 12 ++ r).drop (b.length + 2 - 14) = r := by
    rw [show b.length + 2 - 14 = (b.drop 12).length by simp, drop_app]
  rw [hd]
  unfold adobeSpace
  split
  · rfl
  · split
    · rfl
    · rw [if_pos (by omega)]

end Zune.Jpeg
