/- Properties C10 (PPM round trip) and C57 (row order of PFM files). -/
import Verif.Ppm.Lemmas

namespace Zune.Ppm
open Zune.Stream

/-- The first byte of the pixel data can not be taken for header whitespace or the start of a comment. -/
def Spec.plainStart (data : List UInt8) : Prop := ∀ b, data.head? = some b → b ∉ ([9, 10, 12, 13, 32, 35] : List UInt8)

theorem solid_iff (b : UInt8) : solid b = true ↔ b ∉ ([9, 10, 12, 13, 32, 35] : List UInt8) := by
  revert b; decide +kernel

theorem skip_plain (data : List UInt8) (h : Spec.plainStart data) : skipSpaces false data = data := by
  cases data with
  | nil => rfl
  | cons b s => exact skip_solid b s ((solid_iff b).mpr (h b rfl))

theorem skip_eaten (data : List UInt8) (h : ¬ Spec.plainStart data) : (skipSpaces false data).length < data.length := by
  cases data with
  | nil => exact absurd (fun b hb => by simp at hb) h
  | cons b s =>
    refine skip_lt b s ?_
    by_contra hc
    refine h (fun c hc' => ?_)
    simp only [List.head?_cons, Option.some.injEq] at hc'
    subst hc'
    exact (solid_iff b).mp (by simpa using hc)

/-- **C10** for 8-bit images: whatever the size, colorspace and samples, decoding the file gives the image back, provided its first
    byte is not one the header parser swallows. -/
theorem c10_roundtrip8_partial (maxW maxH w h : Nat) (cs : Cs) (data : List UInt8) (hw : 0 < w) (hh : 0 < h) (hwm : w ≤ maxW) (hhm : h ≤ maxH)
    (hl : data.length = w * h * cs.comps) (hs : w * h * cs.comps + 100 < Zune.Bytestream.usizeLim) (hp : Spec.plainStart data) :
    ∃ file, encode w h cs false data = .ok file ∧ decode maxW maxH file = .ok ({ w, h, cs, sixteen := false }, .u8 data) := by
  have e1 : w * 1 * h * cs.comps = w * h * cs.comps := by ring
  have hc : 0 < cs.comps := by cases cs <;> decide
  have hw' : w < Zune.Bytestream.usizeLim := lt_of_le_of_lt (by rw [Nat.mul_assoc]; exact Nat.le_mul_of_pos_right _ (by positivity)) (lt_of_le_of_lt (Nat.le_add_right _ 100) hs)
  have hh' : h < Zune.Bytestream.usizeLim := lt_of_le_of_lt
    (by rw [show w * h * cs.comps = h * (w * cs.comps) by ring]; exact Nat.le_mul_of_pos_right _ (by positivity)) (lt_of_le_of_lt (Nat.le_add_right _ 100) hs)
  refine ⟨header w h cs false ++ data, ?_, ?_⟩
  · unfold encode
    simp only [Bool.false_eq_true, if_false]
    rw [e1, if_neg (by omega), if_neg (by omega)]
  · unfold decode
    rw [header_spec maxW maxH w h cs false data hwm hhm hw' hh', skip_plain data hp]
    simp only [Bool.false_eq_true, if_false]
    rw [if_neg (by omega), Nat.mul_one, if_neg (by omega), ← hl]
    simp [exact]

/-- **C10** for 16-bit images. -/
theorem c10_roundtrip16_partial (maxW maxH w h : Nat) (cs : Cs) (samples : List Nat) (hw : 0 < w) (hh : 0 < h) (hwm : w ≤ maxW) (hhm : h ≤ maxH)
    (hl : samples.length = w * h * cs.comps) (hv : ∀ v ∈ samples, v < 65536)
    (hs : w * h * cs.comps * 2 + 100 < Zune.Bytestream.usizeLim)
    (hp : ∀ v, samples.head? = some v → UInt8.ofNat (v / 256) ∉ ([9, 10, 12, 13, 32, 35] : List UInt8)) :
    ∃ file, encode w h cs true (samples.flatMap (leBytes 2)) = .ok file ∧
      decode maxW maxH file = .ok ({ w, h, cs, sixteen := true }, .u16 samples) := by
  have e1 : w * 2 * h * cs.comps = w * h * cs.comps * 2 := by ring
  have hc : 0 < cs.comps := by cases cs <;> decide
  have hlt : w * h * cs.comps < Zune.Bytestream.usizeLim := by omega
  have hw' : w < Zune.Bytestream.usizeLim := lt_of_le_of_lt (by rw [Nat.mul_assoc]; exact Nat.le_mul_of_pos_right _ (by positivity)) hlt
  have hh' : h < Zune.Bytestream.usizeLim := lt_of_le_of_lt
    (by rw [show w * h * cs.comps = h * (w * cs.comps) by ring]; exact Nat.le_mul_of_pos_right _ (by positivity)) hlt
  have hn := Zune.Farbfeld.native_length samples
  unfold Zune.Farbfeld.Spec.native at hn
  have hb := Zune.Farbfeld.samplesBE_native samples
  unfold Zune.Farbfeld.Spec.native at hb
  have hplain : Spec.plainStart (samples.flatMap (beBytes 2)) := by
    intro b hb
    cases samples with
    | nil => simp at hb
    | cons v l =>
      have := hp v rfl
      have e : (v :: l).flatMap (beBytes 2) = beBytes 2 v ++ l.flatMap (beBytes 2) := rfl
      rw [e] at hb
      simp [beBytes] at hb
      rw [← hb]; exact this
  refine ⟨header w h cs true ++ samples.flatMap (beBytes 2), ?_, ?_⟩
  · unfold encode
    simp only [if_true]
    rw [e1, if_neg (by omega), if_neg (by omega), hb]
  · unfold decode
    rw [header_spec maxW maxH w h cs true _ hwm hhm hw' hh', skip_plain _ hplain]
    simp only [if_true]
    rw [if_neg (by omega), if_neg (by omega), Nat.mul_div_cancel _ (by decide), ← hl, readU16_ok samples hv]

/-- **C10** is false without that proviso: every 8-bit image whose first byte is a whitespace byte or `#` is written to a file that the
    decoder rejects. -/
theorem c10_whitespace_fails (maxW maxH w h : Nat) (cs : Cs) (data : List UInt8) (hw : 0 < w) (hh : 0 < h) (hwm : w ≤ maxW) (hhm : h ≤ maxH)
    (hl : data.length = w * h * cs.comps) (hs : w * h * cs.comps + 100 < Zune.Bytestream.usizeLim) (hp : ¬ Spec.plainStart data) :
    ∃ file, encode w h cs false data = .ok file ∧ decode maxW maxH file = .error .io := by
  have e1 : w * 1 * h * cs.comps = w * h * cs.comps := by ring
  have hc : 0 < cs.comps := by cases cs <;> decide
  have hw' : w < Zune.Bytestream.usizeLim := lt_of_le_of_lt (by rw [Nat.mul_assoc]; exact Nat.le_mul_of_pos_right _ (by positivity)) (lt_of_le_of_lt (Nat.le_add_right _ 100) hs)
  have hh' : h < Zune.Bytestream.usizeLim := lt_of_le_of_lt
    (by rw [show w * h * cs.comps = h * (w * cs.comps) by ring]; exact Nat.le_mul_of_pos_right _ (by positivity)) (lt_of_le_of_lt (Nat.le_add_right _ 100) hs)
  have hlt := skip_eaten data hp
  refine ⟨header w h cs false ++ data, ?_, ?_⟩
  · unfold encode
    simp only [Bool.false_eq_true, if_false]
    rw [e1, if_neg (by omega), if_neg (by omega)]
  · unfold decode
    rw [header_spec maxW maxH w h cs false data hwm hhm hw' hh']
    simp only [Bool.false_eq_true, if_false]
    rw [if_neg (by omega), Nat.mul_one, if_neg (by omega)]
    unfold exact
    rw [if_neg (by omega)]

/-- **C10** is false for 16-bit images as well: a first sample in `0x2300..0x23ff` (or with another such high byte) makes the file
    unreadable. -/
theorem c10_whitespace16_fails (maxW maxH w h : Nat) (cs : Cs) (samples : List Nat) (hw : 0 < w) (hh : 0 < h) (hwm : w ≤ maxW) (hhm : h ≤ maxH)
    (hl : samples.length = w * h * cs.comps) (hs : w * h * cs.comps * 2 + 100 < Zune.Bytestream.usizeLim)
    (hp : ∃ v, samples.head? = some v ∧ UInt8.ofNat (v / 256) ∈ ([9, 10, 12, 13, 32, 35] : List UInt8)) :
    ∃ file, encode w h cs true (samples.flatMap (leBytes 2)) = .ok file ∧ decode maxW maxH file = .error .io := by
  have e1 : w * 2 * h * cs.comps = w * h * cs.comps * 2 := by ring
  have hc : 0 < cs.comps := by cases cs <;> decide
  have hlt : w * h * cs.comps < Zune.Bytestream.usizeLim := by omega
  have hw' : w < Zune.Bytestream.usizeLim := lt_of_le_of_lt (by rw [Nat.mul_assoc]; exact Nat.le_mul_of_pos_right _ (by positivity)) hlt
  have hh' : h < Zune.Bytestream.usizeLim := lt_of_le_of_lt
    (by rw [show w * h * cs.comps = h * (w * cs.comps) by ring]; exact Nat.le_mul_of_pos_right _ (by positivity)) hlt
  have hn := Zune.Farbfeld.native_length samples
  unfold Zune.Farbfeld.Spec.native at hn
  have hb := Zune.Farbfeld.samplesBE_native samples
  unfold Zune.Farbfeld.Spec.native at hb
  have hbl := Zune.Farbfeld.be_flat_length samples
  have hplain : ¬ Spec.plainStart (samples.flatMap (beBytes 2)) := by
    obtain ⟨v, hv, hm⟩ := hp
    intro hc
    cases samples with
    | nil => simp at hv
    | cons u l =>
      simp only [List.head?_cons, Option.some.injEq] at hv
      subst hv
      have e : (u :: l).flatMap (beBytes 2) = beBytes 2 u ++ l.flatMap (beBytes 2) := rfl
      refine hc (UInt8.ofNat (u / 256)) ?_ hm
      rw [e]
      simp [beBytes]
  have hsk := skip_eaten _ hplain
  refine ⟨header w h cs true ++ samples.flatMap (beBytes 2), ?_, ?_⟩
  · unfold encode
    simp only [if_true]
    rw [e1, if_neg (by omega), if_neg (by omega), hb]
  · unfold decode
    rw [header_spec maxW maxH w h cs true _ hwm hhm hw' hh']
    simp only [if_true]
    rw [if_neg (by omega), if_neg (by omega), Nat.mul_div_cancel _ (by decide), readU16_short _ _ (by omega)]

/-- A 2x1 LumaA image meets the hypotheses of the round trip, a 2x1 image starting with a space those of the failure. -/
example : ([1, 2, 32, 10] : List UInt8).length = 2 * 1 * Cs.lumaA.comps ∧ Spec.plainStart [1, 2, 32, 10] ∧
    ¬ Spec.plainStart [32, 1] ∧ 2 * 1 * Cs.lumaA.comps + 100 < Zune.Bytestream.usizeLim := by
  refine ⟨rfl, ?_, ?_, by decide⟩
  · intro b hb; simp at hb; subst hb; decide
  · intro h; exact h 32 rfl (by decide)

example : (∀ v, ([1, 0x2345] : List Nat).head? = some v → UInt8.ofNat (v / 256) ∉ ([9, 10, 12, 13, 32, 35] : List UInt8)) ∧
    (∃ v, ([0x2345, 1] : List Nat).head? = some v ∧ UInt8.ofNat (v / 256) ∈ ([9, 10, 12, 13, 32, 35] : List UInt8)) := by
  refine ⟨?_, 0x2345, rfl, by decide⟩
  intro v hv; simp at hv; subst hv; decide

/-! ### PFM -/

/-- The PFM format: `Pf` or `PF`, width, height, a scale whose sign gives the byte order, then the rows from the bottom of the image to
    the top. -/
def Spec.pfmFile (cs : Cs) (w h : Nat) (scale : List UInt8) (bigEndian : Bool) (rows : List (List Nat)) : List UInt8 :=
  [80, if cs = .luma then 102 else 70] ++ [10] ++ decimal w ++ [10] ++ decimal h ++ [10] ++ scale ++ [10] ++
    (rows.reverse.flatten.flatMap (fun v => if bigEndian then beBytes 4 v else leBytes 4 v))

theorem chunksExact_rows (k : Nat) (hk : 0 < k) (rows : List (List Nat)) (hr : ∀ r ∈ rows, r.length = k) (rest : List Nat)
    (hrest : rest.length < k) : chunksExact k (rows.flatten ++ rest) = (rows, rest) := by
  induction rows with
  | nil =>
    rw [chunksExact, dif_neg (by simp; omega)]; rfl
  | cons r rows ih =>
    have hlen := hr r (by simp)
    rw [chunksExact, dif_pos ⟨hk, by simp; omega⟩]
    have e : (List.flatten (r :: rows) ++ rest) = r ++ (rows.flatten ++ rest) := by simp
    rw [e, List.take_left' hlen, List.drop_left' hlen, ih (fun x hx => hr x (by simp [hx]))]

theorem flatten_length (k : Nat) (rows : List (List Nat)) (hr : ∀ r ∈ rows, r.length = k) : rows.flatten.length = rows.length * k := by
  induction rows with
  | nil => simp
  | cons r rows ih =>
    rw [List.flatten_cons, List.length_append, hr r (by simp), ih (fun x hx => hr x (by simp [hx])), List.length_cons]; ring

theorem pfmFlip_even (k : Nat) (hk : 0 < k) (a b : List (List Nat)) (ha : ∀ r ∈ a, r.length = k) (hb : ∀ r ∈ b, r.length = k)
    (hab : a.length = b.length) : pfmFlip k (a ++ b).flatten = (a ++ b).reverse.flatten := by
  have hal := flatten_length k a ha
  have hbl := flatten_length k b hb
  unfold pfmFlip
  have hhalf : (a ++ b).flatten.length / 2 = a.flatten.length := by
    rw [List.flatten_append, List.length_append, hal, hbl, hab]; omega
  simp only [hhalf]
  rw [List.flatten_append, List.take_left, List.drop_left]
  have e1 := chunksExact_rows k hk a ha [] hk
  have e2 := chunksExact_rows k hk b hb [] hk
  rw [List.append_nil] at e1 e2
  rw [e1, e2]
  simp only [swapZip, hab, Nat.min_self, List.append_nil, List.reverse_append]
  rw [List.take_of_length_le (by omega), List.drop_of_length_le (by simp; omega), List.take_of_length_le (by simp; omega),
    List.drop_of_length_le (by omega)]
  simp

theorem pfmFlip_one (r : List Nat) (hk : 0 < r.length) : pfmFlip r.length r = r := by
  unfold pfmFlip
  have e1 : chunksExact r.length (r.take (r.length / 2)) = ([], r.take (r.length / 2)) := by
    rw [chunksExact, dif_neg (by simp; omega)]
  simp only [e1]
  have e3 : swapZip [] (chunksExact r.length (r.drop (r.length / 2))).1 = ([], (chunksExact r.length (r.drop (r.length / 2))).1) := by
    simp [swapZip]
  rw [e3]
  simp only [List.flatten_nil, List.nil_append]
  by_cases h1 : r.length = 1
  · obtain ⟨x, rfl⟩ := List.length_eq_one_iff.mp h1
    have e2 := chunksExact_rows 1 (by decide) [[x]] (by simp) [] (by decide)
    simp only [List.flatten_cons, List.flatten_nil, List.append_nil] at e2
    simp [e2]
  · rw [chunksExact, dif_neg (by simp; omega)]
    simp

theorem readF32_ok (bigEndian : Bool) (l : List Nat) (hl : ∀ v ∈ l, v < 2 ^ 32) :
    readF32 bigEndian l.length (l.flatMap (fun v => if bigEndian then beBytes 4 v else leBytes 4 v)) = .ok l := by
  induction l with
  | nil => rfl
  | cons v l ih =>
    have hv := hl v (by simp)
    have ih := ih (fun v hv => hl v (by simp [hv]))
    rw [List.length_cons, List.flatMap_cons, readF32]
    cases bigEndian with
    | true =>
      simp only [if_true] at ih ⊢
      rw [be_append 4 v _ (by omega)]
      simp only
      rw [ih]
    | false =>
      simp only [Bool.false_eq_true, if_false] at ih ⊢
      rw [le_append 4 v _ (by omega)]
      simp only
      rw [ih]

theorem pfm_read (scale : List UInt8 → Option Bool) (maxW maxH w h : Nat) (cs : Cs) (hcs : cs = .luma ∨ cs = .rgb) (tok : List UInt8) (bigEndian : Bool)
    (rows : List (List Nat)) (hw : 0 < w) (hh : 0 < h) (hwm : w ≤ maxW) (hhm : h ≤ maxH)
    (hrows : rows.length = h) (hr : ∀ r ∈ rows, r.length = w * cs.comps) (hv : ∀ r ∈ rows, ∀ v ∈ r, v < 2 ^ 32)
    (hs : w * h * cs.comps * 4 < Zune.Bytestream.usizeLim)
    (htok : ∀ b ∈ tok, isWs b = false) (htok0 : Spec.plainStart tok) (hne : tok ≠ []) (hscale : scale (tok ++ [10]) = some (!bigEndian))
    (hp : Spec.plainStart (rows.reverse.flatten.flatMap (fun v => if bigEndian then beBytes 4 v else leBytes 4 v))) :
    decodePfm scale maxW maxH (Spec.pfmFile cs w h tok bigEndian rows) = .ok (w, h, cs, pfmFlip (w * cs.comps) rows.reverse.flatten) := by
  have hc : 0 < cs.comps := by cases cs <;> decide
  have hlt : w * h * cs.comps < Zune.Bytestream.usizeLim := by omega
  have hw' : w < Zune.Bytestream.usizeLim := lt_of_le_of_lt (by rw [Nat.mul_assoc]; exact Nat.le_mul_of_pos_right _ (by positivity)) hlt
  have hh' : h < Zune.Bytestream.usizeLim := lt_of_le_of_lt
    (by rw [show w * h * cs.comps = h * (w * cs.comps) by ring]; exact Nat.le_mul_of_pos_right _ (by positivity)) hlt
  have hlen := flatten_length (w * cs.comps) rows.reverse (by simpa using hr)
  rw [List.length_reverse, hrows] at hlen
  generalize hd : rows.reverse.flatten.flatMap (fun v => if bigEndian then beBytes 4 v else leBytes 4 v) = data at hp
  have hread : readF32 bigEndian (w * h * cs.comps) data = .ok rows.reverse.flatten := by
    rw [← hd, show w * h * cs.comps = h * (w * cs.comps) by ring, ← hlen]
    refine readF32_ok bigEndian _ ?_
    intro v hv'
    obtain ⟨r, hr', hm⟩ := List.mem_flatten.mp hv'
    exact hv r (by simpa using hr') v hm
  have hhdr : pfmHeader scale maxW maxH (10 :: (decimal w ++ 10 :: (decimal h ++ 10 :: (tok ++ 10 :: data)))) =
      .ok (w, h, bigEndian, data) := by
    unfold pfmHeader
    rw [number w _ hw']
    simp only
    rw [if_neg (by omega), number h _ hh']
    simp only
    rw [if_neg (by omega), skip_nl]
    have e : skipSpaces false (tok ++ 10 :: data) = tok ++ 10 :: data := by
      cases tok with
      | nil => exact absurd rfl hne
      | cons b t => exact skip_solid _ _ ((solid_iff b).mpr (htok0 b rfl))
    rw [e, untilWs_key [] tok 10 data htok rfl, skip_plain data hp]
    simp only [List.nil_append, hscale, Bool.not_not]
  have efile : Spec.pfmFile cs w h tok bigEndian rows =
      80 :: (if cs = .luma then 102 else 70) :: (10 :: (decimal w ++ 10 :: (decimal h ++ 10 :: (tok ++ 10 :: data)))) := by
    simp [Spec.pfmFile, ← hd]
  rw [efile]
  unfold decodePfm
  simp only
  have hver : (if (if cs = Cs.luma then (102 : UInt8) else 70) = 102 then Cs.luma else Cs.rgb) = cs := by
    rcases hcs with rfl | rfl <;> rfl
  rw [if_neg (by decide), if_neg (by split <;> decide), hver, hhdr]
  simp only
  rw [if_neg (by omega), if_neg (by omega), hread]

/-- **C57** for images with an even number of rows, or with a single row: the rows come out from the top to the bottom. -/
theorem c57_pfm_rows_partial (scale : List UInt8 → Option Bool) (maxW maxH w h : Nat) (cs : Cs) (hcs : cs = .luma ∨ cs = .rgb) (tok : List UInt8)
    (bigEndian : Bool) (rows : List (List Nat)) (hw : 0 < w) (hh : 0 < h) (hwm : w ≤ maxW) (hhm : h ≤ maxH)
    (hrows : rows.length = h) (hr : ∀ r ∈ rows, r.length = w * cs.comps) (hv : ∀ r ∈ rows, ∀ v ∈ r, v < 2 ^ 32)
    (hs : w * h * cs.comps * 4 < Zune.Bytestream.usizeLim)
    (htok : ∀ b ∈ tok, isWs b = false) (htok0 : Spec.plainStart tok) (hne : tok ≠ []) (hscale : scale (tok ++ [10]) = some (!bigEndian))
    (hp : Spec.plainStart (rows.reverse.flatten.flatMap (fun v => if bigEndian then beBytes 4 v else leBytes 4 v)))
    (heven : h % 2 = 0 ∨ h = 1) :
    decodePfm scale maxW maxH (Spec.pfmFile cs w h tok bigEndian rows) = .ok (w, h, cs, rows.flatten) := by
  rw [pfm_read scale maxW maxH w h cs hcs tok bigEndian rows hw hh hwm hhm hrows hr hv hs htok htok0 hne hscale hp]
  have hc : 0 < cs.comps := by cases cs <;> decide
  have hk : 0 < w * cs.comps := by positivity
  rcases heven with he | h1
  · have hsplit : rows.reverse = rows.reverse.take (h / 2) ++ rows.reverse.drop (h / 2) := (List.take_append_drop _ _).symm
    rw [hsplit, pfmFlip_even (w * cs.comps) hk _ _ ?_ ?_ ?_, ← hsplit, List.reverse_reverse]
    · intro r hm; exact hr r (by simpa using List.mem_of_mem_take hm)
    · intro r hm; exact hr r (by simpa using List.mem_of_mem_drop hm)
    · simp [hrows]; omega
  · obtain ⟨r, rfl⟩ := List.length_eq_one_iff.mp (hrows.trans h1)
    have hl : r.length = w * cs.comps := hr r (by simp)
    simp only [List.reverse_cons, List.reverse_nil, List.nil_append, List.flatten_cons, List.flatten_nil, List.append_nil]
    rw [← hl, pfmFlip_one r (by omega)]

theorem chunksExact_append (k : Nat) (l : List Nat) : (chunksExact k l).1.flatten ++ (chunksExact k l).2 = l := by
  fun_induction chunksExact k l with
  | case1 l h p ih => simp [ih, p]
  | case2 l h => simp

theorem chunksExact_count (k : Nat) (hk : 0 < k) (l : List Nat) : (chunksExact k l).1.length = l.length / k := by
  fun_induction chunksExact k l with
  | case1 l h p ih =>
    simp only [List.length_cons, p]
    rw [ih, List.length_drop, Nat.div_eq_sub_div hk h.2]
  | case2 l h =>
    simp only [List.length_nil]
    exact (Nat.div_eq_of_lt (by omega)).symm

theorem chunksExact_rem (k : Nat) (hk : 0 < k) (l : List Nat) : (chunksExact k l).2.length = l.length % k := by
  fun_induction chunksExact k l with
  | case1 l h p ih =>
    simp only [p]
    rw [ih, List.length_drop, ← Nat.mod_eq_sub_mod h.2]
  | case2 l h => exact (Nat.mod_eq_of_lt (show l.length < k by omega)).symm

theorem chunksExact_all (k : Nat) (l : List Nat) : ∀ r ∈ (chunksExact k l).1, r.length = k := by
  fun_induction chunksExact k l with
  | case1 l h p ih =>
    intro r hr
    rcases List.mem_cons.mp hr with rfl | hr
    · simp; omega
    · exact ih r hr
  | case2 l h => simp

theorem getLast?_append_ne (a b : List Nat) (h : b ≠ []) : (a ++ b).getLast? = b.getLast? := by
  rw [List.getLast?_append_of_ne_nil _ h]

/-- For an odd number of rows the exchange never reaches the last sample of the buffer. -/
theorem pfmFlip_last (k m : Nat) (hk : 0 < k) (l : List Nat) (hl : l.length = (2 * m + 1) * k) :
    (pfmFlip k l).getLast? = l.getLast? := by
  have hlen : l.length = 2 * (m * k) + k := by rw [hl]; ring
  have hbl : (l.drop (l.length / 2)).length = m * k + (k + 1) / 2 := by rw [List.length_drop]; omega
  have htl : (l.take (l.length / 2)).length = m * k + k / 2 := by rw [List.length_take]; omega
  have hlast : (l.drop (l.length / 2)).getLast? = l.getLast? := by
    conv_rhs => rw [← List.take_append_drop (l.length / 2) l]
    rw [getLast?_append_ne]
    intro h; rw [h] at hbl; simp at hbl; omega
  unfold pfmFlip
  simp only
  rw [← hlast]
  generalize l.drop (l.length / 2) = B at hbl hlast ⊢
  generalize l.take (l.length / 2) = A at htl ⊢
  have happ := chunksExact_append k B
  by_cases h1 : k = 1
  · subst h1
    have hrem := chunksExact_rem 1 hk B
    rw [Nat.mod_one, List.length_eq_zero_iff] at hrem
    have hca := chunksExact_count 1 hk A
    have hcb := chunksExact_count 1 hk B
    rw [Nat.div_one] at hca hcb
    rw [hrem, List.append_nil] at happ ⊢
    simp only [swapZip]
    rw [hca, hcb, htl, hbl, show min (m * 1 + 1 / 2) (m * 1 + (1 + 1) / 2) = m by omega]
    have hall := chunksExact_all 1 B
    generalize (chunksExact 1 B).1 = cb at happ hcb hall ⊢
    have hne : (cb.drop m).flatten ≠ [] := by
      intro h
      have := flatten_length 1 (cb.drop m) (fun r hr => hall r (List.mem_of_mem_drop hr))
      rw [h] at this
      simp at this; omega
    rw [List.flatten_append, ← List.append_assoc, getLast?_append_ne _ _ hne, ← happ]
    conv_rhs => rw [← List.take_append_drop m cb, List.flatten_append]
    rw [getLast?_append_ne _ _ hne]
  · have hrem := chunksExact_rem k hk B
    have hne : (chunksExact k B).2 ≠ [] := by
      intro h
      rw [h, hbl, Nat.mul_add_mod_self_right, Nat.mod_eq_of_lt (by omega)] at hrem
      simp at hrem; omega
    rw [getLast?_append_ne _ _ hne]
    conv_rhs => rw [← happ, getLast?_append_ne _ _ hne]

/-- **C57** is false for every image with an odd number of rows, three or more: the last sample returned is the last one of the file,
    which belongs to the top row. -/
theorem c57_odd_height_wrong (scale : List UInt8 → Option Bool) (maxW maxH w h : Nat) (cs : Cs) (hcs : cs = .luma ∨ cs = .rgb) (tok : List UInt8)
    (bigEndian : Bool) (top bottom : List Nat) (middle : List (List Nat)) (hw : 0 < w) (hwm : w ≤ maxW) (hhm : h ≤ maxH)
    (hrows : (top :: middle ++ [bottom]).length = h) (hr : ∀ r ∈ top :: middle ++ [bottom], r.length = w * cs.comps)
    (hv : ∀ r ∈ top :: middle ++ [bottom], ∀ v ∈ r, v < 2 ^ 32)
    (hs : w * h * cs.comps * 4 < Zune.Bytestream.usizeLim)
    (htok : ∀ b ∈ tok, isWs b = false) (htok0 : Spec.plainStart tok) (hne : tok ≠ []) (hscale : scale (tok ++ [10]) = some (!bigEndian))
    (hp : Spec.plainStart ((top :: middle ++ [bottom]).reverse.flatten.flatMap (fun v => if bigEndian then beBytes 4 v else leBytes 4 v)))
    (hodd : h % 2 = 1) (hdiff : top.getLast? ≠ bottom.getLast?) :
    ∃ out, decodePfm scale maxW maxH (Spec.pfmFile cs w h tok bigEndian (top :: middle ++ [bottom])) = .ok (w, h, cs, out) ∧
      out ≠ (top :: middle ++ [bottom]).flatten := by
  have hh : 0 < h := by omega
  refine ⟨_, pfm_read scale maxW maxH w h cs hcs tok bigEndian _ hw hh hwm hhm hrows hr hv hs htok htok0 hne hscale hp, ?_⟩
  intro he
  have hc : 0 < cs.comps := by cases cs <;> decide
  have hk : 0 < w * cs.comps := by positivity
  have hlen := flatten_length (w * cs.comps) (top :: middle ++ [bottom]).reverse (fun r hm => hr r (List.mem_reverse.mp hm))
  rw [List.length_reverse, hrows] at hlen
  have hl := pfmFlip_last (w * cs.comps) (h / 2) hk _ (hlen.trans (by congr 1; omega))
  rw [he] at hl
  have htop : top ≠ [] := by intro h0; have := hr top (by simp); rw [h0] at this; simp at this; omega
  have hbot : bottom ≠ [] := by intro h0; have := hr bottom (by simp); rw [h0] at this; simp at this; omega
  have e1 : (top :: middle ++ [bottom]).flatten.getLast? = bottom.getLast? := by
    rw [List.flatten_append, List.flatten_cons (l := bottom), List.flatten_nil, List.append_nil, getLast?_append_ne _ _ hbot]
  have e2 : (top :: middle ++ [bottom]).reverse.flatten.getLast? = top.getLast? := by
    rw [List.cons_append, List.reverse_cons, List.flatten_append, List.flatten_cons (l := top), List.flatten_nil, List.append_nil,
      getLast?_append_ne _ _ htop]
  rw [e1, e2] at hl
  exact hdiff hl.symm

/-- Scale tokens `1.0` and `-1.0` and a 1x3 grey image satisfy the hypotheses. -/
example : (∀ b ∈ ([49, 46, 48] : List UInt8), isWs b = false) ∧ Spec.plainStart [49, 46, 48] ∧ Spec.plainStart [45, 49, 46, 48] ∧
    ([7] :: [[8]] ++ [[9]] : List (List Nat)).length = 3 ∧ (∀ r ∈ ([7] :: [[8]] ++ [[9]] : List (List Nat)), r.length = 1 * Cs.luma.comps) ∧
    Spec.plainStart (([7] :: [[8]] ++ [[9]] : List (List Nat)).reverse.flatten.flatMap (beBytes 4)) ∧
    ([7] : List Nat).getLast? ≠ [9].getLast? := by
  refine ⟨by decide +kernel, ?_, ?_, rfl, by decide, ?_, by decide⟩ <;> intro b hb <;> simp [beBytes] at hb <;> subst hb <;> decide

end Zune.Ppm
