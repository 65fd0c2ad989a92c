/- PNG scanlines: unfiltering and post-processing of a whole picture or interlace pass. -/
import Verif.Png.Post

namespace Zune.Png

namespace Spec

/-- The filtered scanlines of a picture, every row with its own filter type: RFC 2083 section 6. -/
def stream (bpp : Nat) : List UInt8 → List (Nat × List UInt8) → List UInt8
  | _, [] => []
  | prev, (t, row) :: rest => UInt8.ofNat t :: filterRow t bpp prev row ++ stream bpp row rest

end Spec

/-- Only the part of the previous row above the current one matters. -/
theorem filterRow_prev (t n : Nat) (p junk row : List UInt8) (h : row.length ≤ p.length) :
    Spec.filterRow t n (p ++ junk) row = Spec.filterRow t n p row := by
  apply List.ext_getElem?
  intro i
  simp only [Spec.filterRow, List.getElem?_mapIdx]
  cases hi : row[i]? with
  | none => rfl
  | some x =>
    have hlt : i < row.length := by
      rcases Nat.lt_or_ge i row.length with h | h
      · exact h
      · rw [List.getElem?_eq_none h] at hi; cases hi
    have e1 : Spec.above (p ++ junk) i = Spec.above p i := by
      simp only [Spec.above, List.getD_eq_getElem?_getD]
      rw [List.getElem?_append_left (by omega)]
    have e2 : Spec.before (p ++ junk) n i = Spec.before p n i := by
      simp only [Spec.before, List.getD_eq_getElem?_getD]
      rw [List.getElem?_append_left (by omega)]
    simp only [Option.map_some, e1, e2]

theorem bpp_bounds (c : Ctx) : 0 < c.bpp ∧ c.bpp ≤ 8 := by
  unfold Ctx.bpp Ctx.bytes
  cases c.color <;> simp [Color.comps] <;> split <;> (try split) <;> omega

theorem stride_mod (c : Ctx) (hw : c.Wf) (width : Nat) : c.stride width % c.bpp = 0 := by
  unfold Ctx.bpp
  split
  · exact Nat.mod_one _
  · rename_i h
    rw [stride_whole c hw h, Nat.mul_assoc, Nat.mul_mod_left]

theorem stride_pos (c : Ctx) (hw : c.Wf) (width : Nat) (h : 0 < width) : 0 < c.stride width := by
  have h1 : 0 < c.color.comps := comps_pos _
  have h2 : 0 < c.depth := by rcases hw.depth with h | h | h | h | h <;> omega
  have : 0 < width * c.color.comps * c.depth := by positivity
  unfold Ctx.stride
  omega

/-- When the row is finished (crates/zune-png/src/decoder.rs:1072 and 1181). -/
def finish (c : Ctx) (extra : Bool) (width : Nat) (scratch row : List UInt8) : Except Err (List UInt8 × List UInt8) :=
  if c.willPost then post c extra width scratch row else .ok (scratch, row)

/-- The circumstances under which asking for an alpha channel works: palette pictures, pictures which have alpha, and otherwise
    pictures without colour key and with 8 or 16 bits per sample. -/
def Ctx.AlphaFine (c : Ctx) : Prop :=
  c.wantAlpha = true → c.color = .palette ∨ c.color.hasAlpha = true ∨ (c.trns = none ∧ 8 ≤ c.depth)

theorem finish_spec (c : Ctx) (hw : c.Wf) (hk : c.KeyOk) (ha : c.AlphaFine) (extra : Bool)
    (hx1 : (c.plte.isSome || c.trns.isSome) = true → extra = true)
    (hx2 : extra = true → (c.plte.isSome || c.trns.isSome || c.addAlphaChannel) = true) (width : Nat)
    (scratch packed junk : List UInt8) (hs : c.willPost = true → c.outStride width ≤ scratch.length)
    (hl : packed.length = c.stride width) (hr : (packed ++ junk).length = c.outStride width) :
    ∃ s', finish c extra width scratch (packed ++ junk) = .ok (s', Spec.rowOut c width packed) ∧ s'.length = scratch.length := by
  unfold finish
  cases hp : c.willPost
  · refine ⟨scratch, ?_, rfl⟩
    simp only [Bool.false_eq_true, if_false]
    simp only [Ctx.willPost, Bool.or_eq_false_iff, decide_eq_false_iff_not, Option.isSome_eq_false_iff, Option.isNone_iff_eq_none] at hp
    obtain ⟨⟨⟨ht, hpl⟩, h8⟩, hadd⟩ := hp
    have hc : c.color ≠ .palette := fun h => by have := hw.pal h; simp [hpl] at this
    obtain ⟨ho, hoc⟩ := plain_out c ht hadd hc width packed
    have hu := units_whole c hw h8 width packed hl
    have : junk = [] := by
      rw [← List.length_eq_zero_iff]
      rw [List.length_append, hl, stride_whole c hw h8, Ctx.outStride, hoc] at hr
      omega
    rw [this, List.append_nil, ← ho, hu]
  · simp only [if_true]
    refine post_spec c hw hk extra ?_ hx1 hx2 width scratch packed junk (hs hp) hl hr
    intro hadd
    simp only [Ctx.addAlphaChannel, Bool.and_eq_true, Bool.not_eq_true'] at hadd
    rcases ha hadd.1 with h | h | h
    · exact .inl h
    · rw [hadd.2] at h; cases h
    · exact .inr ⟨h.1, .inl (by omega)⟩

theorem rowLoop_spec (c : Ctx) (hw : c.Wf) (hk : c.KeyOk) (ha : c.AlphaFine) (width : Nat) (h0 : 0 < width) (tail : List UInt8) :
    ∀ (rows : List (Nat × List UInt8)) (p junk scratch out acc : List UInt8),
      (∀ r ∈ rows, r.1 ≤ 4 ∧ r.2.length = c.stride width) → p.length = c.stride width →
      (p ++ junk).length = c.outStride width → (c.willPost = true → c.outStride width ≤ scratch.length) →
      c.outStride width * rows.length ≤ out.length →
      ∃ s', rowLoop c width rows.length (Spec.stream c.bpp p rows ++ tail) (some (p ++ junk)) scratch out acc =
        .ok (acc ++ Spec.rowOut c width p ++ rows.flatMap (fun r => Spec.rowOut c width r.2) ++ out.drop (c.outStride width * rows.length), s') := by
  intro rows
  induction rows with
  | nil =>
    intro p junk scratch out acc _ hl hr hs ho
    obtain ⟨s', he, _⟩ := finish_spec c hw hk ha (c.plte.isSome || c.trns.isSome) id (fun h => by simp [h]) width scratch p junk hs hl hr
    refine ⟨s', ?_⟩
    unfold finish at he
    simp only [List.length_nil, Nat.mul_zero, List.drop_zero, List.flatMap_nil, List.append_nil, rowLoop]
    cases hp : c.willPost <;> simp only [hp, if_true, Bool.false_eq_true, if_false] at he ⊢
    · simp only [Except.ok.injEq, Prod.mk.injEq] at he
      rw [he.2, he.1]
    · rw [he]; rfl
  | cons r rows ih =>
    obtain ⟨t, row⟩ := r
    intro p junk scratch out acc hrs hl hr hs ho
    obtain ⟨ht, hrow⟩ := hrs (t, row) (by simp)
    simp only at ht hrow
    rw [List.length_cons, Nat.mul_add, Nat.mul_one] at ho
    have hlen : (UInt8.ofNat t :: Spec.filterRow t c.bpp p row).length = c.stride width + 1 := by
      rw [List.length_cons, filterRow_length, hrow]
    have hdata : Spec.stream c.bpp p ((t, row) :: rows) ++ tail =
      (UInt8.ofNat t :: Spec.filterRow t c.bpp p row) ++ (Spec.stream c.bpp row rows ++ tail) := by
      simp [Spec.stream]
    have hsl := stride_le c hw width
    have hun := c16_unfilter c.isa t c.bpp ht (bpp_bounds c).1 (bpp_bounds c).2 (some (p ++ junk)) row (out.take (c.outStride width))
      (by rw [hrow]; exact stride_pos c hw width h0) (by rw [hrow]; exact stride_mod c hw width)
      (by rw [List.length_take]; omega) (by
        intro q hq; cases hq; rw [hr]; omega)
    rw [Option.getD_some, filterRow_prev t c.bpp p junk row (by omega)] at hun
    obtain ⟨s1, he, hs1⟩ := finish_spec c hw hk ha (c.plte.isSome || c.trns.isSome || c.addAlphaChannel) (fun h => by simp [h]) id
      width scratch p junk hs hl hr
    obtain ⟨s', hI⟩ := ih row ((out.take (c.outStride width)).drop row.length) s1 (out.drop (c.outStride width))
      (acc ++ Spec.rowOut c width p) (fun r hr => hrs r (by simp [hr])) hrow
      (by rw [List.length_append, List.length_drop, List.length_take]; omega) (fun h => by rw [hs1]; exact hs h)
      (by rw [List.length_drop]; omega)
    refine ⟨s', ?_⟩
    rw [List.length_cons, rowLoop, hdata, List.take_left' hlen, List.drop_left' hlen]
    simp only [List.headD_cons, List.drop_succ_cons, List.drop_zero, hun]
    rw [show out.drop (c.outStride width * (rows.length + 1)) =
      (out.drop (c.outStride width)).drop (c.outStride width * rows.length) by rw [List.drop_drop]; congr 1; ring]
    unfold finish at he
    cases hp : c.willPost <;> simp only [hp, if_true, Bool.false_eq_true, if_false] at he ⊢
    · simp only [Except.ok.injEq, Prod.mk.injEq] at he
      rw [he.2, he.1, hI]; simp [List.append_assoc]
    · rw [he]
      show rowLoop _ _ _ _ _ _ _ _ = _
      rw [hI]; simp [List.append_assoc]

theorem stream_length (n : Nat) (l : Nat) : ∀ (prev : List UInt8) (rows : List (Nat × List UInt8)), (∀ r ∈ rows, r.2.length = l) →
    (Spec.stream n prev rows).length = (l + 1) * rows.length
  | _, [], _ => by simp [Spec.stream]
  | prev, (t, row) :: rest, h => by
    have h1 := h (t, row) (by simp)
    simp only at h1
    rw [Spec.stream, List.length_append, List.length_cons, filterRow_length, h1,
      stream_length n l row rest (fun r hr => h r (by simp [hr])), List.length_cons]
    ring

/-- Rows of every filter type, in every pixel format, on every instruction set come out as the specified pixels. -/
theorem createRaw_spec (c : Ctx) (hw : c.Wf) (hk : c.KeyOk) (ha : c.AlphaFine) (width : Nat) (h0 : 0 < width) (tail : List UInt8)
    (rows : List (Nat × List UInt8)) (hrs : ∀ r ∈ rows, r.1 ≤ 4 ∧ r.2.length = c.stride width) (scratch out : List UInt8)
    (ho : c.outStride width * rows.length ≤ out.length) :
    ∃ s', createRaw c (Spec.stream c.bpp [] rows ++ tail) width rows.length scratch out =
      .ok (rows.flatMap (fun r => Spec.rowOut c width r.2) ++ out.drop (c.outStride width * rows.length), s') := by
  have hlen := stream_length c.bpp (c.stride width) [] rows fun r hr => (hrs r hr).2
  unfold createRaw
  rw [if_neg (by rw [List.length_append, hlen, Nat.add_mul]; omega), if_neg (by omega)]
  generalize hsc : (if c.willPost && scratch.length < c.outStride width
      then scratch ++ List.replicate (c.outStride width - scratch.length) 0 else scratch) = sc
  have hs : c.willPost = true → c.outStride width ≤ sc.length := by
    intro h
    rw [← hsc, h]
    by_cases hlt : scratch.length < c.outStride width
    · simp [hlt]; omega
    · simp [hlt]; omega
  cases rows with
  | nil => exact ⟨sc, by simp [rowLoop]⟩
  | cons r rows =>
    obtain ⟨t, row⟩ := r
    obtain ⟨ht, hrow⟩ := hrs (t, row) (by simp)
    simp only at ht hrow
    rw [List.length_cons, Nat.mul_add, Nat.mul_one] at ho
    have hlen : (UInt8.ofNat t :: Spec.filterRow t c.bpp [] row).length = c.stride width + 1 := by
      rw [List.length_cons, filterRow_length, hrow]
    have hdata : Spec.stream c.bpp [] ((t, row) :: rows) ++ tail =
      (UInt8.ofNat t :: Spec.filterRow t c.bpp [] row) ++ (Spec.stream c.bpp row rows ++ tail) := by
      simp [Spec.stream]
    have hsl := stride_le c hw width
    have hun := c16_unfilter c.isa t c.bpp ht (bpp_bounds c).1 (bpp_bounds c).2 none row (out.take (c.outStride width))
      (by rw [hrow]; exact stride_pos c hw width h0) (by rw [hrow]; exact stride_mod c hw width)
      (by rw [List.length_take]; omega) (by intro q hq; cases hq)
    rw [Option.getD_none] at hun
    obtain ⟨s', hI⟩ := rowLoop_spec c hw hk ha width h0 tail rows row ((out.take (c.outStride width)).drop row.length) sc
      (out.drop (c.outStride width)) [] (fun r hr => hrs r (by simp [hr])) hrow
      (by rw [List.length_append, List.length_drop, List.length_take]; omega) hs (by rw [List.length_drop]; omega)
    refine ⟨s', ?_⟩
    rw [List.length_cons, rowLoop, hdata, List.take_left' hlen, List.drop_left' hlen]
    simp only [List.headD_cons, List.drop_succ_cons, List.drop_zero, hun]
    rw [hI, show out.drop (c.outStride width * (rows.length + 1)) =
      (out.drop (c.outStride width)).drop (c.outStride width * rows.length) by rw [List.drop_drop]; congr 1; ring]
    simp

end Zune.Png
