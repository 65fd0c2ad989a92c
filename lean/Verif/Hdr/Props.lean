/- Properties C22 and C23: Radiance HDR scanlines. -/
import Verif.Hdr.Model
import Mathlib.Tactic.Ring

namespace Zune.Hdr

/-! ### Helper lemmas -/

/-- The `n` bytes from `beg` on are equal. -/
def RunAt (ch : List UInt8) (w beg n : Nat) : Prop := beg + n ≤ w ∧ n ≤ 127 ∧ ∀ k < n, ch[beg + k]? = ch[beg]?

theorem runLen_spec (ch : List UInt8) (w beg rc : Nat) (h : RunAt ch w beg rc) : RunAt ch w beg (runLen ch w beg rc) := by
  induction hn : 127 - rc generalizing rc with
  | zero => unfold runLen; rw [if_neg (by omega)]; exact h
  | succ n ih =>
    unfold runLen
    split
    · rename_i hc
      obtain ⟨h1, h2, h3⟩ := h
      refine ih (rc + 1) ⟨by omega, by omega, fun k hk => ?_⟩ (by omega)
      by_cases hk' : k < rc
      · exact h3 k hk'
      · rw [show k = rc by omega]; exact hc.2.2.symm
    · exact h

/-- What is known while looking for a run. -/
def Inv (ch : List UInt8) (w cur beg rc old : Nat) : Prop :=
  cur ≤ beg ∧ beg ≤ w ∧ (beg < w → RunAt ch w beg rc) ∧ (beg = w → rc < 4) ∧ old ≤ 3 ∧ old ≤ beg - cur ∧
    RunAt ch w (beg - old) old

theorem findRun_spec (ch : List UInt8) (w cur beg rc old : Nat) (h : Inv ch w cur beg rc old) :
    ∀ r, findRun ch w beg rc old = r → Inv ch w cur r.1 r.2.1 r.2.2 := by
  induction hn : 2 * (w - beg) + (if rc = 0 then 1 else 0) using Nat.strong_induction_on generalizing beg rc old with
  | _ n ih =>
    intro r hr
    unfold findRun at hr
    split at hr
    · rename_i hc
      have h1 := runLen_ge ch w (beg + rc) 1
      obtain ⟨a1, a2, a3, a4, a5, a6, a7⟩ := h
      have hrun := a3 hc.2
      refine ih (2 * (w - (beg + rc)) + (if runLen ch w (beg + rc) 1 = 0 then 1 else 0))
        (by split at hn <;> split <;> omega) (beg + rc) (runLen ch w (beg + rc) 1) rc ?_ rfl r hr
      refine ⟨by omega, hrun.1, fun hlt => ?_, fun heq => ?_, by omega, by omega, ?_⟩
      · refine runLen_spec _ _ _ _ ⟨by omega, by omega, fun k hk => ?_⟩
        rw [show k = 0 by omega]; rfl
      · unfold runLen
        rw [if_neg (by omega)]; omega
      · rw [show beg + rc - rc = beg by omega]; exact hrun
    · subst hr; exact h

theorem readMany_append (l s : List UInt8) : readMany l.length (l ++ s) = (l, s) := by
  induction l with
  | nil => rfl
  | cons a l ih => simp [readMany, readU8, ih]

theorem take_run (ch : List UInt8) (w cur n : Nat) (hl : ch.length = w) (hn : 0 < n) (h : RunAt ch w cur n) :
    ch.take cur ++ List.replicate n ((ch[cur]?).getD 0) = ch.take (cur + n) := by
  obtain ⟨h1, _, h3⟩ := h
  rw [List.take_add]
  congr 1
  apply List.ext_getElem?
  intro k
  by_cases hk : k < n
  · rw [List.getElem?_replicate, if_pos hk, List.getElem?_take_of_lt hk, List.getElem?_drop, h3 k hk,
      List.getElem?_eq_getElem (show cur < ch.length by omega)]
    rfl
  · rw [List.getElem?_eq_none (by simp; omega), List.getElem?_eq_none (by simp; omega)]

theorem dec_run (ch : List UInt8) (w cur n : Nat) (s : List UInt8) (hl : ch.length = w) (hn : 0 < n) (h : RunAt ch w cur n) :
    decPlane w (ch.take cur) (UInt8.ofNat (128 + n) :: (ch[cur]?).getD 0 :: s) = decPlane w (ch.take (cur + n)) s := by
  have h1 := h.1
  have h2 := h.2.1
  have ht : (UInt8.ofNat (128 + n)).toNat = 128 + n := UInt8.toNat_ofNat_of_lt' (by show _ < 256; omega)
  have hlen : (ch.take cur).length = cur := by simp; omega
  have hand : (128 + n) &&& 127 = n := by
    rw [show (127 : Nat) = 2 ^ 7 - 1 by rfl, Nat.and_two_pow_sub_one_eq_mod]; omega
  rw [decPlane, if_neg (by omega)]
  simp only [ht, hlen, hand, readU8]
  rw [if_pos (by omega), show min n (w - cur) = n by omega, take_run ch w cur n hl hn h]

theorem dec_literals (ch : List UInt8) (w cur stop : Nat) (s : List UInt8) (hl : ch.length = w) (h1 : cur ≤ stop) (h2 : stop ≤ w) :
    decPlane w (ch.take cur) (literals ch cur stop ++ s) = decPlane w (ch.take stop) s := by
  induction hn : stop - cur using Nat.strong_induction_on generalizing cur with
  | _ n ih =>
    unfold literals
    split
    · rename_i hlt
      generalize hm : min 128 (stop - cur) = m
      have ht : (UInt8.ofNat m).toNat = m := UInt8.toNat_ofNat_of_lt' (by show _ < 256; omega)
      have hlen : (ch.take cur).length = cur := by simp; omega
      have hdl : ((ch.drop cur).take m).length = m := by simp; omega
      simp only [List.cons_append]
      rw [decPlane, if_neg (by omega)]
      simp only [ht, hlen]
      rw [if_neg (by omega), show min m (w - cur) = m by omega]
      have hr := readMany_append ((ch.drop cur).take m) (literals ch (cur + m) stop ++ s)
      rw [hdl] at hr
      rw [List.append_assoc, hr]
      simp only
      rw [← List.take_add]
      exact ih (stop - (cur + m)) (by omega) (cur + m) (by omega) rfl
    · rw [show cur = stop by omega]; rfl

theorem dec_rleFrom (ch : List UInt8) (w cur : Nat) (s : List UInt8) (hl : ch.length = w) (hc : cur ≤ w) :
    decPlane w (ch.take cur) (rleFrom ch w cur ++ s) = .ok (ch, s) := by
  induction hn : w - cur using Nat.strong_induction_on generalizing cur with
  | _ n ih =>
    unfold rleFrom
    split
    · rename_i hlt
      split
      rename_i beg rc old hf
      have hprog := findRun_progress ch w cur 0 0
      rw [hf] at hprog
      have hinv := findRun_spec ch w cur cur 0 0 ⟨Nat.le_refl _, hc, fun _ => ⟨by omega, by omega, by omega⟩, by omega, by omega,
        by omega, ⟨by omega, by omega, by omega⟩⟩ _ hf
      obtain ⟨a1, a2, a3, a4, a5, a6, a7⟩ := hinv
      simp only at a1 a2 a3 a4 a5 a6 a7 hprog
      simp only
      -- after the short run and the literals we are at `beg`
      have hmid : ∀ t, decPlane w (ch.take cur)
          ((if 1 < old ∧ old = beg - cur then [UInt8.ofNat (128 + old), (ch[cur]?).getD 0] else []) ++
            literals ch (if 1 < old ∧ old = beg - cur then beg else cur) beg ++ t) = decPlane w (ch.take beg) t := by
        intro t
        by_cases hs : 1 < old ∧ old = beg - cur
        · simp only [hs.1, true_and, hs.2.symm, if_true]
          have hb : beg - old = cur := by omega
          rw [hb] at a7
          have := dec_run ch w cur old (literals ch beg beg ++ t) hl (by omega) a7
          simp only [List.cons_append, List.nil_append] at this ⊢
          rw [this, show cur + old = beg by omega]
          exact dec_literals ch w beg beg t hl (Nat.le_refl _) a2
        · rw [if_neg hs, if_neg hs, List.nil_append]
          exact dec_literals ch w cur beg t hl a1 a2
      have hassoc : ∀ (a b c d e : List UInt8), a ++ b ++ c ++ d ++ e = a ++ b ++ (c ++ (d ++ e)) := by intros; simp
      rw [hassoc, hmid]
      by_cases h4 : 4 ≤ rc
      · rw [if_pos h4, if_pos h4]
        have hbw : beg < w := by
          rcases Nat.lt_or_ge beg w with h | h
          · exact h
          · exact absurd (a4 (by omega)) (by omega)
        have hr := a3 hbw
        rw [List.cons_append, List.cons_append, List.nil_append, dec_run ch w beg rc _ hl (by omega) hr]
        exact ih (w - (beg + rc)) (by omega) (beg + rc) hr.1 rfl
      · rw [if_neg h4, if_neg h4, List.nil_append]
        exact ih (w - beg) (by omega) beg a2 rfl
    · rw [List.nil_append, decPlane.eq_def, if_pos (by simp; omega), show cur = w by omega, ← hl, List.take_length]

/-- **C22** for one plane: what `rle` writes is read back as the plane, and nothing more is consumed. -/
theorem dec_rle (ch : List UInt8) (w : Nat) (s : List UInt8) (hl : ch.length = w) :
    decPlane w [] (rle ch w ++ s) = .ok (ch, s) := by
  have := dec_rleFrom ch w 0 s hl (by omega)
  simpa [rle] using this

theorem interleave_planes (line : List UInt8) (w : Nat) (hl : line.length = 4 * w) :
    interleave (plane line w 0) (plane line w 1) (plane line w 2) (plane line w 3) = line := by
  induction w generalizing line with
  | zero => cases line with
    | nil => rfl
    | cons a l => simp at hl
  | succ w ih =>
    match line, hl with
    | r :: g :: b :: e :: rest, hl =>
      have hrest : rest.length = 4 * w := by simp at hl; omega
      have hp : ∀ i < 4, plane (r :: g :: b :: e :: rest) (w + 1) i =
          ([r, g, b, e][i]?).getD 0 :: plane rest w i := by
        intro i hi
        unfold plane
        rw [List.range_succ_eq_map, List.map_cons, List.map_map]
        congr 1
        · rw [show 4 * 0 + i = i by omega]
          match i, hi with
          | 0, _ => rfl
          | 1, _ => rfl
          | 2, _ => rfl
          | 3, _ => rfl
        · apply List.map_congr_left
          intro k _
          simp only [Function.comp]
          rw [show 4 * (k + 1) + i = (4 * k + i) + 4 by ring]
          rfl
      rw [hp 0 (by omega), hp 1 (by omega), hp 2 (by omega), hp 3 (by omega)]
      simp only [interleave, ih rest hrest]
      rfl

/-! ### C22 -/

/-- **C22**: a run-length coded scanline decodes to the same RGBE bytes, whatever the scanline buffer held before, and the
    decoder stops exactly at the end of the scanline. -/
theorem c22_scanline_roundtrip (line prev rest : List UInt8) (w : Nat) (hw : 8 ≤ w) (hw2 : w ≤ 0x7fff) (hl : line.length = 4 * w) :
    decodeLine prev w (encodeLine line w ++ rest) = .ok (line, rest) := by
  have hp : ∀ i, (plane line w i).length = w := fun i => by simp [plane]
  unfold encodeLine decodeLine
  rw [if_neg (by omega), if_neg (by simp; omega)]
  simp only [List.append_assoc, List.cons_append, List.nil_append]
  have hhi : UInt8.ofNat (w >>> 8) &&& 128 = 0 := by
    have : w >>> 8 < 128 := by rw [Nat.shiftRight_eq_div_pow]; omega
    generalize w >>> 8 = n at this
    have key : ∀ b : UInt8, b.toNat < 128 → b &&& 128 = 0 := by decide +kernel
    exact key _ (by rw [UInt8.toNat_ofNat_of_lt' (by show _ < 256; omega)]; exact this)
  rw [if_neg (by simp), if_neg (by simp [hhi])]
  simp only [bind, Except.bind, dec_rle _ w _ (hp 0), dec_rle _ w _ (hp 1), dec_rle _ w _ (hp 2), dec_rle _ w _ (hp 3)]
  rw [interleave_planes line w hl]

/-- **C22**: all scanlines of an image, one after the other. -/
theorem c22_image_roundtrip (lines : List (List UInt8)) (prev rest : List UInt8) (w : Nat) (hw : 8 ≤ w) (hw2 : w ≤ 0x7fff)
    (hl : ∀ l ∈ lines, l.length = 4 * w) :
    decodeLines w lines.length prev (encodeLines w lines ++ rest) = .ok (lines, rest) := by
  induction lines generalizing prev with
  | nil => rfl
  | cons l ls ih =>
    have h1 := c22_scanline_roundtrip l prev (encodeLines w ls ++ rest) w hw hw2 (hl l (by simp))
    have h2 := ih l (fun x hx => hl x (by simp [hx]))
    simp only [List.length_cons, decodeLines, encodeLines, List.flatMap_cons, List.append_assoc] at h1 h2 ⊢
    simp only [h1, bind, Except.bind, h2]

/-- A scanline with a short run, a long run and literals, and what is written for its first plane. -/
example : rle [7, 7, 9, 9, 9, 9, 9, 1, 2] 9 = [130, 7, 133, 9, 2, 1, 2] := by
  simp [rle, rleFrom, findRun, runLen, literals]

/-- Two scanlines of nine pixels, read with a dirty scanline buffer. -/
example : decodeLines 9 2 [1, 2, 3]
    (encodeLines 9 [List.replicate 20 7 ++ List.replicate 16 9, (List.range 36).map UInt8.ofNat] ++ [0xaa]) =
    .ok ([List.replicate 20 7 ++ List.replicate 16 9, (List.range 36).map UInt8.ofNat], [0xaa]) :=
  c22_image_roundtrip [_, _] [1, 2, 3] [0xaa] 9 (by omega) (by omega) (by decide)

/-! ### C23 -/

/-- The RGBE pixels of a scanline. -/
abbrev Pixel := UInt8 × UInt8 × UInt8 × UInt8

/-- The four bytes of a pixel. -/
def Spec.bytes (p : Pixel) : List UInt8 := [p.1, p.2.1, p.2.2.1, p.2.2.2]

/-- Old-style scanlines: a pixel with mantissas (1,1,1) repeats the previous pixel; consecutive repeat codes are digits of a
    count in base 256, least significant first.  `none` for a repeat code without a previous pixel. -/
def Spec.oldStyle : List Pixel → Option Pixel → Nat → Option (List Pixel)
  | [], _, _ => some []
  | p :: ps, prev, shift =>
    if p.1 = 1 ∧ p.2.1 = 1 ∧ p.2.2.1 = 1 then
      match prev with
      | none => none
      | some q => (Spec.oldStyle ps prev (shift + 8)).map fun r => List.replicate (p.2.2.2.toNat * 2 ^ shift) q ++ r
    else (Spec.oldStyle ps (some p) 0).map fun r => p :: r

theorem decompress_flat (px : List Pixel) (hpx : ∀ p ∈ px, ¬ (p.1 = 1 ∧ p.2.1 = 1 ∧ p.2.2.1 = 1)) (pre post rest : List UInt8)
    (hpost : post.length = 4 * px.length) :
    decompress (pre ++ post) px.length pre.length 0 (px.flatMap Spec.bytes ++ rest) = .ok (pre ++ px.flatMap Spec.bytes, rest) := by
  induction px generalizing pre post with
  | nil =>
    have : post = [] := by simpa using hpost
    rw [decompress.eq_def]; simp [this]
  | cons p ps ih =>
    obtain ⟨r, g, b, e⟩ := p
    have hp := hpx (r, g, b, e) (by simp)
    simp only at hp
    match post, hpost with
    | a1 :: a2 :: a3 :: a4 :: post, hpost =>
      simp only [List.flatMap_cons, Spec.bytes, List.cons_append, List.nil_append]
      rw [decompress, if_pos (by simp)]
      simp only
      rw [if_neg (by simp), if_neg hp]
      have h1 : (pre ++ a1 :: a2 :: a3 :: a4 :: post).take pre.length ++ [r, g, b, e] ++
          (pre ++ a1 :: a2 :: a3 :: a4 :: post).drop (pre.length + 4) = (pre ++ [r, g, b, e]) ++ post := by
        simp
      have h2 := ih (fun q hq => hpx q (by simp [hq])) (pre ++ [r, g, b, e]) post (by simp at hpost; omega)
      rw [h1, show ((((r, g, b, e) :: ps).length : Nat) : Int) - 1 = (ps.length : Int) by simp,
        show pre.length + 4 = (pre ++ [r, g, b, e]).length by simp]
      simp only [List.append_assoc] at h2 ⊢
      exact h2

/-- **C23** for flat scanlines: without repeat codes, and (for widths where the new style is possible) not starting like a
    new-style scanline, the scanline is decoded to its pixels.  Repeat codes are decoded wrongly: `c23_repeat_wrong`. -/
theorem c23_flat_partial (px : List Pixel) (prev rest : List UInt8) (hprev : prev.length = 4 * px.length)
    (hpx : ∀ p ∈ px, ¬ (p.1 = 1 ∧ p.2.1 = 1 ∧ p.2.2.1 = 1))
    (hstart : 8 ≤ px.length → px.length ≤ 0x7fff → ∀ p, px.head? = some p → ¬ (p.1 = 2 ∧ p.2.1 = 2 ∧ p.2.2.1 &&& 128 = 0)) :
    Spec.oldStyle px none 0 = some px ∧
    decodeLine prev px.length (px.flatMap Spec.bytes ++ rest) = .ok (px.flatMap Spec.bytes, rest) := by
  have hspec : ∀ (l : List Pixel) (q : Option Pixel) (s : Nat), (∀ p ∈ l, ¬ (p.1 = 1 ∧ p.2.1 = 1 ∧ p.2.2.1 = 1)) →
      Spec.oldStyle l q s = some l := by
    intro l
    induction l with
    | nil => intros; rfl
    | cons p ps ih =>
      intro q s h
      rw [Spec.oldStyle.eq_def]
      simp only
      rw [if_neg (h p (by simp)), ih _ _ (fun x hx => h x (by simp [hx]))]
      rfl
  refine ⟨hspec px none 0 hpx, ?_⟩
  have hflat := decompress_flat px hpx [] prev rest hprev
  simp only [List.nil_append, List.length_nil] at hflat
  unfold decodeLine
  by_cases hw : px.length < 8 ∨ px.length > 0x7fff
  · rw [if_pos hw, hflat]
  · rw [if_neg hw]
    match px, hpx, hstart, hprev, hw with
    | (r, g, b, e) :: ps, hpx, hstart, hprev, hw =>
      have hs := hstart (by omega) (by omega) (r, g, b, e) rfl
      simp only at hs
      by_cases hr : r = 2
      · subst hr
        simp only [List.flatMap_cons, Spec.bytes, List.cons_append, List.nil_append]
        rw [if_neg (by simp), if_pos (by
          by_cases hg : g = 2
          · right; intro hb; exact hs ⟨rfl, hg, hb⟩
          · left; exact hg)]
        match prev, hprev with
        | a1 :: a2 :: a3 :: a4 :: post, hprev =>
          have := decompress_flat ps (fun q hq => hpx q (by simp [hq])) [] post rest (by simp at hprev; omega)
          simp only [List.nil_append, List.length_nil] at this
          rw [show ((((2, g, b, e) :: ps : List Pixel).length : Nat) : Int) - 1 = (ps.length : Int) by simp]
          simp only [List.drop_succ_cons, List.drop_zero, this]
      · simp only [List.flatMap_cons, Spec.bytes, List.cons_append, List.nil_append] at hflat ⊢
        rw [if_pos hr, hflat]

/-- A flat scanline of 8 pixels starting with a byte 2 satisfies the hypotheses. -/
example : decodeLine (List.replicate 32 0) 8 (((2, 3, 0, 5) :: List.replicate 7 (9, 8, 7, 6)).flatMap Spec.bytes) =
    .ok (((2, 3, 0, 5) :: List.replicate 7 (9, 8, 7, 6)).flatMap Spec.bytes, []) := by
  have := (c23_flat_partial ((2, 3, 0, 5) :: List.replicate 7 (9, 8, 7, 6)) (List.replicate 32 0) [] (by decide) (by decide)
    (by intro _ _ p hp; cases hp; decide)).2
  simpa using this

/-- **C23, negation**: repeat codes are not expanded.  Pixel A, "repeat twice", pixel B denotes A A A B; the decoder skips
    the code and runs out of input; after two pixels the copies go to the second pixel and each of them counts as four. -/
theorem c23_repeat_wrong :
    Spec.oldStyle [(10, 20, 30, 40), (1, 1, 1, 2), (50, 60, 70, 80)] none 0 =
      some [(10, 20, 30, 40), (10, 20, 30, 40), (10, 20, 30, 40), (50, 60, 70, 80)] ∧
    decodeLine (List.replicate 16 0) 4 [10, 20, 30, 40, 1, 1, 1, 2, 50, 60, 70, 80] = .error .eof ∧
    Spec.oldStyle [(10, 20, 30, 40), (50, 60, 70, 80), (1, 1, 1, 2)] none 0 =
      some [(10, 20, 30, 40), (50, 60, 70, 80), (50, 60, 70, 80), (50, 60, 70, 80)] ∧
    decodeLine (List.replicate 16 0) 4 [10, 20, 30, 40, 50, 60, 70, 80, 1, 1, 1, 2] =
      .ok ([10, 20, 30, 40, 50, 60, 70, 80, 1, 1, 1, 2, 0, 0, 0, 0], []) := by
  refine ⟨by decide, ?_, by decide, ?_⟩ <;> simp [decodeLine, decompress, copyRun]

/-- **C22/C23, negation (narrow images)**: the encoder writes narrow images flat without regard to repeat codes; a pixel
    (1,1,1,e) is then lost. -/
theorem c23_encoder_flat_wrong :
    encodeLine [1, 1, 1, 128, 5, 6, 7, 8] 2 = [1, 1, 1, 128, 5, 6, 7, 8] ∧
    decodeLine (List.replicate 8 0) 2 (encodeLine [1, 1, 1, 128, 5, 6, 7, 8] 2) = .error .eof := by
  refine ⟨by decide, ?_⟩
  simp [decodeLine, encodeLine, decompress, copyRun]

end Zune.Hdr
