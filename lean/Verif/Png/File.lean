/- PNG files: from the chunks to the pixels. -/
import Verif.Png.Chunks
import Verif.Png.Adam7Props

namespace Zune.Png

open Zune.Stream

namespace Spec

/-- `rows` (each with a filter type) are the scanlines of a picture without interlacing. -/
def plainRows (c : Ctx) (w h : Nat) (pix : Nat → Nat → List Nat) (rows : List (Nat × List UInt8)) : Prop :=
  List.Forall₂ (fun y r => r.1 ≤ 4 ∧ holds c r.2 w (pix y)) (List.range h) rows

/-- `data` holds the filtered scanlines of a picture (RFC 2083 sections 2.3, 2.6 and 6), with or without interlacing and with any
    filter types. -/
def scanlines (c : Ctx) (w h : Nat) (adam7 : Bool) (pix : Nat → Nat → List Nat) (data : List UInt8) : Prop :=
  if adam7 then
    ∃ rows : Nat → List (Nat × List UInt8), (∀ n ∈ List.range' 1 7, passRows c w h n pix (rows n)) ∧
      data = (List.range' 1 7).flatMap fun n => stream c.bpp [] (rows n)
  else ∃ rows, plainRows c w h pix rows ∧ data = stream c.bpp [] rows

/-- The data of all IDAT chunks. -/
def idats (cs : List (List UInt8 × List UInt8)) : List UInt8 :=
  (cs.filter fun p => p.1 = [0x49, 0x44, 0x41, 0x54]).flatMap fun p => p.2

end Spec

theorem forall₂_range {α : Type} (R : Nat → α → Prop) (rows : List α) (h : Nat) (hr : List.Forall₂ R (List.range h) rows) :
    rows.length = h ∧ ∀ j (hj : j < rows.length), R j rows[j] := by
  have hl := hr.length_eq
  rw [List.length_range] at hl
  refine ⟨hl.symm, fun j hj => ?_⟩
  have := (List.forall₂_iff_get.mp hr).2 j (by simpa [hl] using hj) hj
  simpa using this

theorem plain_spec (c : Ctx) (hw : c.Wf) (hk : c.KeyOk) (ha : c.AlphaFine) (w h : Nat) (h0 : 0 < w) (pix : Nat → Nat → List Nat)
    (rows : List (Nat × List UInt8)) (hrows : Spec.plainRows c w h pix rows) (tail scratch out : List UInt8)
    (ho : out.length = w * h * c.outComps * c.bytes) :
    ∃ s', createRaw c (Spec.stream c.bpp [] rows ++ tail) w h scratch out = .ok (Spec.picture c w h pix, s') := by
  obtain ⟨hl, hr⟩ := forall₂_range _ _ _ hrows
  have ho' : c.outStride w * rows.length = out.length := by rw [ho, hl, Ctx.outStride]; ring
  have hrs : ∀ r ∈ rows, r.1 ≤ 4 ∧ r.2.length = c.stride w := by
    intro r hrm
    obtain ⟨j, hj, rfl⟩ := List.getElem_of_mem hrm
    exact ⟨(hr j hj).1, (hr j hj).2.1⟩
  obtain ⟨s', e⟩ := createRaw_spec c hw hk ha w h0 tail rows hrs scratch out (by omega)
  rw [hl] at e
  refine ⟨s', ?_⟩
  rw [e]
  have : rows.flatMap (fun r => Spec.rowOut c w r.2) ++ out.drop (c.outStride w * h) = Spec.picture c w h pix := by
    rw [← hl, ho', List.drop_length, List.append_nil]
    unfold Spec.picture
    have e1 : rows = (List.range rows.length).map fun j => rows.getD j (0, []) := by
      apply List.ext_getElem
      · simp
      · intro i h1 h2; simp [List.getElem?_eq_getElem h1]
    conv_lhs => rw [e1]
    rw [hl, List.flatMap_map]
    apply flatMap_congr'
    intro y hy
    rw [List.mem_range] at hy
    have hy' : y < rows.length := by omega
    rw [List.getD_eq_getElem?_getD, List.getElem?_eq_getElem hy', Option.getD_some]
    unfold Spec.rowOut
    apply flatMap_congr'
    intro x hx
    rw [(hr y hy').2.2 x (List.mem_range.mp hx)]
  rw [this]

/-! ### Header chunks -/

/-- What the chunks leave of the header, and what is known about the colour key. -/
structure St.From (h : Spec.Header) (st : St) : Prop where
  width : st.width = h.width
  height : st.height = h.height
  depth : st.depth = h.depth
  color : st.color = h.color
  adam7 : st.adam7 = h.adam7
  key : st.seenTrns = true → (h.color = .luma ∨ h.color = .rgb ∨ h.color = .palette) ∧ st.key.length = 4

theorem apply_from (h : Spec.Header) (st st' : St) (hf : st.From h) (hi : st.Inv) (name data : List UInt8)
    (e : Spec.apply st name data = some st') : st'.From h := by
  obtain ⟨h1, h2, h3, h4, h5, h6⟩ := hf
  have hk := hi.noKey
  unfold Spec.apply at e
  split at e
  · cases e; exact ⟨h1, h2, h3, h4, h5, h6⟩
  split at e
  · split at e
    · cases e; exact ⟨h1, h2, h3, h4, h5, h6⟩
    · cases e
  split at e
  · split at e
    · cases e
    · rename_i hs
      split at e
      · split at e
        · cases e; exact ⟨h1, h2, h3, h4, h5, fun _ => ⟨.inl (by rw [← h4]; assumption), rfl⟩⟩
        · cases e
      · split at e
        · cases e; exact ⟨h1, h2, h3, h4, h5, fun _ => ⟨.inr (.inl (by rw [← h4]; assumption)), rfl⟩⟩
        · cases e
      · split at e
        · cases e
          exact ⟨h1, h2, h3, h4, h5, fun _ => ⟨.inr (.inr (by rw [← h4]; assumption)), by
            show st.key.length = 4
            rw [hk (by simpa using hs)]; rfl⟩⟩
        · cases e
      · cases e
  split at e
  · split at e
    · cases e; exact ⟨h1, h2, h3, h4, h5, h6⟩
    · cases e
  split at e
  · split at e
    · cases e; exact ⟨h1, h2, h3, h4, h5, h6⟩
    · cases e
  split at e
  · cases e
  split at e
  · cases e; exact ⟨h1, h2, h3, h4, h5, h6⟩
  · cases e

theorem applyAll_from (h : Spec.Header) : ∀ (cs : List (List UInt8 × List UInt8)) (st st' : St), st.From h → st.Inv →
    Spec.applyAll st cs = some st' → st'.From h
  | [], st, st', hf, _, e => by cases e; exact hf
  | (name, data) :: cs, st, st', hf, hi, e => by
    unfold Spec.applyAll at e
    cases e1 : Spec.apply st name data with
    | none => rw [e1] at e; cases e
    | some s1 =>
      rw [e1] at e
      exact applyAll_from h cs s1 st' (apply_from h st s1 hf hi name data e1) (apply_inv st s1 hi name data e1) e

theorem apply_idat (st st' : St) (name data : List UInt8) (e : Spec.apply st name data = some st') :
    st'.idat = st.idat ++ if name = [0x49, 0x44, 0x41, 0x54] then data else [] := by
  unfold Spec.apply at e
  split at e
  · rename_i hn
    cases e; rw [if_pos hn]
  rename_i hn
  rw [if_neg hn, List.append_nil]
  split at e
  · split at e
    · cases e; rfl
    · cases e
  split at e
  · split at e
    · cases e
    · split at e
      · split at e
        · cases e; rfl
        · cases e
      · split at e
        · cases e; rfl
        · cases e
      · split at e
        · cases e; rfl
        · cases e
      · cases e
  split at e
  · split at e
    · cases e; rfl
    · cases e
  split at e
  · split at e
    · cases e; rfl
    · cases e
  split at e
  · cases e
  split at e
  · cases e; rfl
  · cases e

theorem applyAll_idat : ∀ (cs : List (List UInt8 × List UInt8)) (st st' : St),
    Spec.applyAll st cs = some st' → st'.idat = st.idat ++ Spec.idats cs
  | [], st, st', e => by cases e; simp [Spec.idats]
  | (name, data) :: cs, st, st', e => by
    unfold Spec.applyAll at e
    cases e1 : Spec.apply st name data with
    | none => rw [e1] at e; cases e
    | some s1 =>
      rw [e1] at e
      have hr : Spec.idats ((name, data) :: cs) = (if name = [0x49, 0x44, 0x41, 0x54] then data else []) ++ Spec.idats cs := by
        unfold Spec.idats
        by_cases hn : name = [0x49, 0x44, 0x41, 0x54]
        · rw [if_pos hn, List.filter_cons_of_pos (by simpa using hn), List.flatMap_cons]
        · rw [if_neg hn, List.filter_cons_of_neg (by simpa using hn), List.nil_append]
      rw [applyAll_idat cs s1 st' e, apply_idat st s1 name data e1, hr, List.append_assoc]

theorem header_from (h : Spec.Header) : h.st.From h := ⟨rfl, rfl, rfl, rfl, rfl, fun e => by simp [Spec.Header.st] at e⟩

theorem header_inv (h : Spec.Header) : h.st.Inv := ⟨rfl, fun _ => rfl, fun h => absurd h (by simp [Spec.Header.st]), fun _ => rfl⟩

theorem ctx_wf (o : DecOpts) (h : Spec.Header) (hok : h.Ok o) (st : St) (hf : st.From h)
    (hp : h.color = .palette → st.seenPlte = true) (hn : h.color ≠ .palette → h.depth < 8 → st.seenPlte = false) : (st.ctx o).Wf := by
  obtain ⟨-, -, -, -, -, -, hd⟩ := hok
  obtain ⟨-, -, h3, h4, -, h6⟩ := hf
  constructor
  · show st.depth = 1 ∨ st.depth = 2 ∨ st.depth = 4 ∨ st.depth = 8 ∨ st.depth = 16
    rw [h3]; omega
  · show st.color = .palette → st.depth ≠ 16
    rw [h3, h4]; intro hc; rcases hd with h | h | h | h | h <;> first | omega | exact absurd hc h.2
  · show st.color = .palette → (if st.seenPlte then some st.palette else none).isSome
    rw [h4]; intro hc; rw [hp hc]; rfl
  · show st.color ≠ .palette → st.depth < 8 → (if st.seenPlte then some st.palette else none) = none
    rw [h3, h4]; intro hc hd'; rw [hn hc hd']; rfl
  · intro k hk
    have hk' : (if st.seenTrns then some st.key else none) = some k := hk
    split at hk'
    · rename_i hs
      cases hk'
      exact ⟨by have := (h6 hs).1; rw [← h4] at this; exact this, by rw [(h6 hs).2]⟩
    · cases hk'

/-! ### The byte order of the colour key -/

/-- A 16-bit value with its bytes exchanged. -/
def swap16 (v : Nat) : Nat := v % 256 * 256 + v / 256 % 256

/-- The situation as the row code sees it: on a little endian machine it compares the big-endian samples of 16-bit pictures with the
    key in machine order. -/
def Ctx.seen (c : Ctx) : Ctx :=
  if c.depth = 16 ∧ c.le = true then { c with le := false, trns := c.trns.map fun k => k.map swap16 } else c

theorem neBytes_swap (v : Nat) : neBytes true v = neBytes false (swap16 v) := by
  simp only [neBytes, leBytes, beBytes, swap16, Bool.false_eq_true, if_true, if_false]
  simp only [List.reverse_cons, List.reverse_nil, List.nil_append, List.cons_append, List.cons.injEq, and_true]
  constructor <;> apply UInt8.toNat_inj.mp <;> simp only [UInt8.toNat_ofNat', pow_zero, pow_one, Nat.div_one] <;>
    (have h1 := Nat.mod_lt v (show 256 > 0 by decide); have h2 := Nat.mod_lt (v / 256) (show 256 > 0 by decide)
     generalize v % 256 = a at *; generalize v / 256 % 256 = b at *; omega)

theorem expandTrns_swap (color : Color) (key : List Nat) (input out : List UInt8) :
    expandTrns true color 16 key input out = expandTrns false color 16 (key.map swap16) input out := by
  have h : ∀ i, (key.map swap16).getD i 0 = swap16 (key.getD i 0) := by
    intro i
    rw [List.getD_eq_getElem?_getD, List.getD_eq_getElem?_getD, List.getElem?_map]
    cases key[i]? <;> rfl
  unfold expandTrns
  simp only [if_true, h, neBytes_swap]

theorem trnsStep_seen (c : Ctx) (s r : List UInt8) : trnsStep c.seen s r = trnsStep c s r := by
  unfold Ctx.seen
  split
  · rename_i h
    unfold trnsStep
    cases c.trns with
    | none => rfl
    | some k =>
      simp only [Option.map_some]
      by_cases hc : c.color ≠ .palette
      · rw [if_pos hc, if_pos hc, h.1, h.2, expandTrns_swap]
      · rw [if_neg hc, if_neg hc]
  · rfl

theorem seen_fields (c : Ctx) : c.seen.color = c.color ∧ c.seen.depth = c.depth ∧ c.seen.plte = c.plte ∧
    c.seen.trns.isSome = c.trns.isSome ∧ c.seen.wantAlpha = c.wantAlpha ∧ c.seen.isa = c.isa := by
  unfold Ctx.seen
  split <;> simp

theorem seen_derived (c : Ctx) : c.seen.addAlphaChannel = c.addAlphaChannel ∧ c.seen.outComps = c.outComps ∧ c.seen.bytes = c.bytes ∧
    c.seen.bpp = c.bpp ∧ c.seen.willPost = c.willPost ∧ (∀ w, c.seen.stride w = c.stride w) ∧
    (∀ w, c.seen.outStride w = c.outStride w) := by
  obtain ⟨h1, h2, h3, h4, h5, h6⟩ := seen_fields c
  have hn : c.seen.trns.isNone = c.trns.isNone := by rw [← Option.not_isSome, h4, Option.not_isSome]
  have ho : c.seen.outComps = c.outComps := by simp only [Ctx.outComps, h1, h5, hn]
  have hb : c.seen.bytes = c.bytes := by simp only [Ctx.bytes, h2]
  exact ⟨by simp only [Ctx.addAlphaChannel, h1, h5], ho, hb, by simp only [Ctx.bpp, h1, h2, hb],
    by simp only [Ctx.willPost, Ctx.addAlphaChannel, h1, h2, h3, h4, h5], fun w => by simp only [Ctx.stride, h1, h2],
    fun w => by simp only [Ctx.outStride, ho, hb]⟩

theorem post_seen (c : Ctx) (extra : Bool) (w : Nat) (s r : List UInt8) : post c.seen extra w s r = post c extra w s r := by
  obtain ⟨h1, h2, h3, h4, h5, h6⟩ := seen_fields c
  obtain ⟨d1, -, -, -, -, d6, -⟩ := seen_derived c
  have hp : ∀ s r, postTail c.seen s r = postTail c s r := by
    intro s r
    unfold postTail paletteStep
    simp only [trnsStep_seen, h1, h2, h3, h4, d1]
  unfold post
  simp only [hp, h1, h2, h3, d6]

theorem rowLoop_seen (c : Ctx) (w : Nat) : ∀ (h : Nat) (data : List UInt8) (prev : Option (List UInt8)) (scratch out acc : List UInt8),
    rowLoop c.seen w h data prev scratch out acc = rowLoop c w h data prev scratch out acc := by
  obtain ⟨h1, h2, h3, h4, h5, h6⟩ := seen_fields c
  obtain ⟨d1, d2, d3, d4, d5, d6, d7⟩ := seen_derived c
  intro h
  induction h with
  | zero =>
    intro data prev scratch out acc
    unfold rowLoop
    simp only [post_seen, h3, h4, d5]
  | succ h ih =>
    intro data prev scratch out acc
    unfold rowLoop
    simp only [post_seen, h3, h4, d1, d4, d5, d6, d7, h6, ih]

theorem createRaw_seen (c : Ctx) (data : List UInt8) (w h : Nat) (scratch out : List UInt8) :
    createRaw c.seen data w h scratch out = createRaw c data w h scratch out := by
  obtain ⟨d1, d2, d3, d4, d5, d6, d7⟩ := seen_derived c
  unfold createRaw
  simp only [rowLoop_seen, d5, d6, d7]

theorem interlaced_seen (c : Ctx) (w h : Nat) (data scratch out : List UInt8) :
    decodeInterlaced c.seen w h data scratch out = decodeInterlaced c w h data scratch out := by
  obtain ⟨h1, h2, h3, h4, h5, h6⟩ := seen_fields c
  obtain ⟨d1, d2, d3, d4, d5, d6, d7⟩ := seen_derived c
  have : ∀ (ps : List Pass) (data scratch fin out : List UInt8), passLoop c.seen w h ps data scratch fin out =
      passLoop c w h ps data scratch fin out := by
    intro ps
    induction ps with
    | nil => intros; rfl
    | cons p ps ih =>
      intro data scratch fin out
      unfold passLoop
      simp only [createRaw_seen, ih, h1, h2, d2, d3]
  unfold decodeInterlaced
  rw [this, d2, d3]

theorem seen_wf (c : Ctx) (hw : c.Wf) : c.seen.Wf := by
  unfold Ctx.seen
  split
  · obtain ⟨w1, w2, w3, w4, w5⟩ := hw
    refine ⟨w1, w2, w3, w4, fun k hk => ?_⟩
    obtain ⟨k', hk', rfl⟩ := Option.mem_map.mp hk
    exact ⟨(w5 k' hk').1, by rw [List.length_map]; exact (w5 k' hk').2⟩
  · exact hw

theorem seen_key (c : Ctx) : c.seen.KeyOk := by
  unfold Ctx.seen
  split
  · exact fun _ k _ => .inl rfl
  · rename_i h
    exact fun hd k _ => .inl (by simpa [hd] using h)

theorem seen_alpha (c : Ctx) (ha : c.AlphaFine) : c.seen.AlphaFine := by
  obtain ⟨h1, h2, h3, h4, h5, h6⟩ := seen_fields c
  unfold Ctx.AlphaFine at *
  rw [h1, h2, h5]
  intro h
  rcases ha h with h | h | ⟨h, h'⟩
  · exact .inl h
  · exact .inr (.inl h)
  · refine .inr (.inr ⟨?_, h'⟩)
    rw [h] at h4
    simpa using h4

/-- Without a key, below 16 bits, on big endian machines and with keys that read the same in both orders nothing is exchanged. -/
theorem seen_pixel (c : Ctx) (hw : c.Wf) (hk : c.KeyOk) (w h : Nat) (pix : Nat → Nat → List Nat) :
    Spec.picture c.seen w h pix = Spec.picture c w h pix := by
  unfold Ctx.seen
  split
  · rename_i hs
    unfold Spec.picture
    cases ht : c.trns with
    | none => rfl
    | some k =>
      have hv : ∀ v ∈ k, v / 256 % 256 = v % 256 := by
        rcases hk hs.1 k ht with h | h
        · rw [hs.2] at h; cases h
        · exact h
      have hm : (k.map swap16).map (· % 2 ^ c.depth) = k.map (· % 2 ^ c.depth) := by
        rw [List.map_map]
        apply List.map_congr_left
        intro v hvk
        have := hv v hvk
        simp only [Function.comp, hs.1, swap16]
        norm_num
        omega
      simp only [Option.map_some, Option.isSome_some, Bool.or_true]
      apply flatMap_congr'
      intro y _
      apply flatMap_congr'
      intro x _
      unfold Spec.pixel
      have e : ∀ s : List Nat, ((k.map swap16).take s.length).map (· % 2 ^ c.depth) = (k.take s.length).map (· % 2 ^ c.depth) := by
        intro s
        rw [List.map_take, hm, ← List.map_take]
      simp only [e]
  · rfl

/-! ### Whole files -/

theorem inner_spec (zlib : Inflate.Options → List UInt8 → Except Inflate.Err (List UInt8)) (o : DecOpts) (st : St)
    (hw : (st.ctx o).Wf) (ha : (st.ctx o).AlphaFine) (h0 : 0 < st.width)
    (pix : Nat → Nat → List Nat) (hpix : ∀ y x, (pix y x).length = st.color.comps)
    (data extra : List UInt8) (hdata : Spec.scanlines (st.ctx o) st.width st.height st.adam7 pix data)
    (hz : zlib (st.zopts o) st.idat = .ok (data ++ extra)) :
    decodeInner zlib o st = .ok (
      if st.depth = 16 ∧ o.toLE = true ∧ o.le = true then swapPairs (Spec.picture (st.ctx o).seen st.width st.height pix)
      else Spec.picture (st.ctx o).seen st.width st.height pix) := by
  obtain ⟨h1, h2, h3, h4, h5, h6⟩ := seen_fields (st.ctx o)
  obtain ⟨d1, d2, d3, d4, d5, d6, d7⟩ := seen_derived (st.ctx o)
  have hout' : (List.replicate (st.width * st.height * (st.ctx o).outComps * (st.ctx o).bytes) (0 : UInt8)).length =
    st.width * st.height * (st.ctx o).seen.outComps * (st.ctx o).seen.bytes := by rw [d2, d3]; exact List.length_replicate
  unfold decodeInner
  simp only [hz]
  unfold Spec.scanlines at hdata
  split at hdata
  · rename_i hi
    obtain ⟨rows, hrows, rfl⟩ := hdata
    have hrows' : ∀ n ∈ List.range' 1 7, Spec.passRows (st.ctx o).seen st.width st.height n pix (rows n) := by
      intro n hn
      have := hrows n hn
      unfold Spec.passRows Spec.holds at *
      rw [h1, h2]; exact this
    rw [if_pos hi, ← d4, ← interlaced_seen, interlaced_spec (st.ctx o).seen (seen_wf _ hw) (seen_key _) (seen_alpha _ ha) st.width st.height pix
      (by rw [h1]; exact hpix) rows hrows' extra [] _ hout']
    rfl
  · rename_i hi
    obtain ⟨rows, hrows, rfl⟩ := hdata
    have hrows' : Spec.plainRows (st.ctx o).seen st.width st.height pix rows := by
      unfold Spec.plainRows Spec.holds at *
      rw [h1, h2]; exact hrows
    obtain ⟨s', e⟩ := plain_spec (st.ctx o).seen (seen_wf _ hw) (seen_key _) (seen_alpha _ ha) st.width st.height h0 pix rows hrows'
      extra [] _ hout'
    rw [if_neg hi, ← d4, ← createRaw_seen, e]
    rfl

theorem file_raw (zlib : Inflate.Options → List UInt8 → Except Inflate.Err (List UInt8)) (o : DecOpts) (h : Spec.Header) (hok : h.Ok o)
    (cs : List (List UInt8 × List UInt8)) (hfr : Spec.Framed cs) (st : St) (hcs : Spec.applyAll h.st cs = some st) (tail : List UInt8)
    (hp : h.color = .palette → st.seenPlte = true) (hn : h.color ≠ .palette → h.depth < 8 → st.seenPlte = false)
    (ha : (st.ctx o).AlphaFine) (hsize : h.width * h.height * (st.ctx o).outComps * (st.ctx o).bytes < 2 ^ 64)
    (pix : Nat → Nat → List Nat) (hpix : ∀ y x, (pix y x).length = h.color.comps)
    (data extra : List UInt8) (hdata : Spec.scanlines (st.ctx o) h.width h.height h.adam7 pix data)
    (hz : zlib (st.zopts o) (Spec.idats cs) = .ok (data ++ extra)) (pic : List UInt8)
    (hpic : pic = if h.depth = 16 ∧ o.toLE = true ∧ o.le = true then swapPairs (Spec.picture (st.ctx o).seen h.width h.height pix)
      else Spec.picture (st.ctx o).seen h.width h.height pix) :
    decodeRaw zlib o (Spec.file h cs tail) = .ok (st, if h.depth = 16 ∧ o.strip = true then everyOther pic else pic) := by
  have hf := applyAll_from h cs h.st st (header_from h) (header_inv h) hcs
  have hwf := ctx_wf o h hok st hf hp hn
  have hi := applyAll_idat cs h.st st hcs
  rw [show h.st.idat = [] from rfl, List.nil_append] at hi
  obtain ⟨f1, f2, f3, f4, f5, -⟩ := hf
  rw [← hi] at hz
  rw [← f1, ← f2, ← f5] at hdata
  have := inner_spec zlib o st hwf ha (by rw [f1]; exact hok.1) pix (by rw [f4]; exact hpix) data extra hdata hz
  rw [← f1, ← f2, ← f3] at hpic
  rw [← hpic] at this
  unfold decodeRaw
  rw [headers_spec o h hok cs hfr st hcs tail]
  rw [← f1, ← f2] at hsize
  rw [← f3]
  show (if 2 ^ 64 ≤ st.width * st.height * (st.ctx o).outComps * (st.ctx o).bytes then Except.error Err.panic else _) = _
  rw [if_neg (by omega), this]
  rfl

/-- A file with an understood header and chunks, whose IDAT chunks decompress to the scanlines of a picture, gives that picture; on
    little endian machines with the bytes of a 16-bit colour key exchanged. -/
theorem file_seen (zlib : Inflate.Options → List UInt8 → Except Inflate.Err (List UInt8)) (o : DecOpts) (h : Spec.Header) (hok : h.Ok o)
    (cs : List (List UInt8 × List UInt8)) (hfr : Spec.Framed cs) (st : St) (hcs : Spec.applyAll h.st cs = some st) (tail : List UInt8)
    (hp : h.color = .palette → st.seenPlte = true) (hn : h.color ≠ .palette → h.depth < 8 → st.seenPlte = false)
    (ha : (st.ctx o).AlphaFine) (hsize : h.width * h.height * (st.ctx o).outComps * (st.ctx o).bytes < 2 ^ 64)
    (pix : Nat → Nat → List Nat) (hpix : ∀ y x, (pix y x).length = h.color.comps)
    (data extra : List UInt8) (hdata : Spec.scanlines (st.ctx o) h.width h.height h.adam7 pix data)
    (hz : zlib (st.zopts o) (Spec.idats cs) = .ok (data ++ extra)) (hle : h.depth = 16 → o.toLE = false ∧ o.strip = false) :
    decodeRaw zlib o (Spec.file h cs tail) = .ok (st, Spec.picture (st.ctx o).seen h.width h.height pix) := by
  have h1 : ¬ (h.depth = 16 ∧ o.strip = true) := by
    rintro ⟨a, b⟩; rw [(hle a).2] at b; cases b
  have h2 : ¬ (h.depth = 16 ∧ o.toLE = true ∧ o.le = true) := by
    rintro ⟨a, b, -⟩; rw [(hle a).1] at b; cases b
  rw [file_raw zlib o h hok cs hfr st hcs tail hp hn ha hsize pix hpix data extra hdata hz _ rfl, if_neg h1, if_neg h2]

/-- The same for pictures without a 16-bit colour key (or with one that reads the same in both byte orders). -/
theorem file_spec (zlib : Inflate.Options → List UInt8 → Except Inflate.Err (List UInt8)) (o : DecOpts) (h : Spec.Header) (hok : h.Ok o)
    (cs : List (List UInt8 × List UInt8)) (hfr : Spec.Framed cs) (st : St) (hcs : Spec.applyAll h.st cs = some st) (tail : List UInt8)
    (hp : h.color = .palette → st.seenPlte = true) (hn : h.color ≠ .palette → h.depth < 8 → st.seenPlte = false)
    (hk : (st.ctx o).KeyOk)
    (ha : (st.ctx o).AlphaFine) (hsize : h.width * h.height * (st.ctx o).outComps * (st.ctx o).bytes < 2 ^ 64)
    (pix : Nat → Nat → List Nat) (hpix : ∀ y x, (pix y x).length = h.color.comps)
    (data extra : List UInt8) (hdata : Spec.scanlines (st.ctx o) h.width h.height h.adam7 pix data)
    (hz : zlib (st.zopts o) (Spec.idats cs) = .ok (data ++ extra)) (hle : h.depth = 16 → o.toLE = false ∧ o.strip = false) :
    decodeRaw zlib o (Spec.file h cs tail) = .ok (st, Spec.picture (st.ctx o) h.width h.height pix) := by
  have hf := applyAll_from h cs h.st st (header_from h) (header_inv h) hcs
  rw [file_seen zlib o h hok cs hfr st hcs tail hp hn ha hsize pix hpix data extra hdata hz hle,
    seen_pixel _ (ctx_wf o h hok st hf hp hn) hk]

/-! ### 16-bit pictures in other byte orders -/

namespace Spec

/-- All output samples of a 16-bit picture: the samples of the pixels and, where the output has an alpha channel which the file lacks,
    0 for pixels equal to the colour key and 65535 for the others. -/
def values (c : Ctx) (w h : Nat) (pix : Nat → Nat → List Nat) : List Nat :=
  (List.range h).flatMap fun y => (List.range w).flatMap fun x => pix y x ++
    if c.color.hasAlpha = false ∧ (c.wantAlpha = true ∨ c.trns.isSome = true) then
      [match c.trns with | some k => if pix y x = (k.take (pix y x).length).map (· % 65536) then 0 else 65535 | none => 65535]
    else []

end Spec

theorem picture_values (c : Ctx) (hd : c.depth = 16) (hc : c.color ≠ .palette) (w h : Nat) (pix : Nat → Nat → List Nat) :
    Spec.picture c w h pix = (Spec.values c w h pix).flatMap (Spec.sampleBytes 16) := by
  unfold Spec.picture Spec.values
  simp only [List.flatMap_assoc]
  apply flatMap_congr'; intro y _
  apply flatMap_congr'; intro x _
  generalize pix y x = s
  unfold Spec.pixel
  rw [hd]
  have ha : ∀ b, Spec.alphaBytes 16 b = Spec.sampleBytes 16 (if b then 65535 else 0) := by decide
  have key : (s.flatMap (Spec.sampleBytes 16) ++ if (c.wantAlpha || c.trns.isSome) = true then
        Spec.alphaBytes 16 (match c.trns with | some k => decide (s ≠ (k.take s.length).map (· % 2 ^ 16)) | none => true) else []) =
      (s ++ if (c.wantAlpha = true ∨ c.trns.isSome = true) then
        [match c.trns with | some k => if s = (k.take s.length).map (· % 65536) then 0 else 65535 | none => 65535]
      else []).flatMap (Spec.sampleBytes 16) := by
    rw [List.flatMap_append]
    simp only [Bool.or_eq_true]
    congr 1
    by_cases hx : c.wantAlpha = true ∨ c.trns.isSome = true
    · rw [if_pos hx, if_pos hx, ha, List.flatMap_singleton]
      cases c.trns with
      | none => rfl
      | some k =>
        simp only
        rw [show (2 : Nat) ^ 16 = 65536 by norm_num]
        by_cases hs : s = (k.take s.length).map (· % 65536)
        · rw [if_pos hs, if_neg (by simpa using hs)]
        · rw [if_neg hs, if_pos (by simpa using hs)]
    · rw [if_neg hx, if_neg hx]; rfl
  cases h : c.color with
  | palette => exact absurd h hc
  | lumaA => simp [Color.hasAlpha]
  | rgba => simp [Color.hasAlpha]
  | luma => simp only [Color.hasAlpha, true_and]; exact key
  | rgb => simp only [Color.hasAlpha, true_and]; exact key

theorem swapPairs_values (vs : List Nat) :
    swapPairs (vs.flatMap (Spec.sampleBytes 16)) = vs.flatMap fun v => [UInt8.ofNat (v % 256), UInt8.ofNat (v / 256)] := by
  induction vs with
  | nil => rfl
  | cons v vs ih => simp only [List.flatMap_cons, Spec.sampleBytes, if_true, List.cons_append, List.nil_append, swapPairs] at *; rw [ih]

theorem everyOther_values (f g : Nat → UInt8) (vs : List Nat) :
    everyOther (vs.flatMap fun v => [f v, g v]) = vs.map f := by
  induction vs with
  | nil => rfl
  | cons v vs ih => simp only [List.flatMap_cons, List.cons_append, List.nil_append, everyOther, List.map_cons, ih]

end Zune.Png
