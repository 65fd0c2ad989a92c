import Verif.Png.AnimRender

/-! # PNG: text, time, profiles and animations (properties C94 to C96) -/

namespace Zune.Png

open Zune.Stream

/-! ## C94: text, time, profiles -/

/-- **C94**, for keywords of at most 78 bytes, and international text that is neither compressed nor has a language or a translated
    keyword.  A file is read as the PNG specification says: every text chunk gives its keyword and its text (decompressed if need be),
    tIME the time, iCCP the profile, acTL the numbers of frames and of plays, IDAT chunks the data; in any number and order. -/
theorem c94_chunks_partial (zlib : Zlib) (o : DecOpts) (h : Spec.Header) (hok : h.Ok o) (ps : List Spec.Part) (hps : ∀ p ∈ ps, p.Ok zlib)
    (i : Info) (hi : Spec.partsInfo { st := h.st } ps = some i) (tail : List UInt8) :
    ∃ s, ({ s := [0x89, 0x50, 0x4e, 0x47, 0x0d, 0x0a, 0x1a, 0x0a] ++ (Spec.chunk [0x49, 0x48, 0x44, 0x52] h.bytes ++
        (ps.flatMap (Spec.Part.chunk false) ++ (Spec.chunk [0x49, 0x45, 0x4e, 0x44] [] ++ tail))) } : Dec).headers zlib o =
      .ok { info := i, frames := [(Spec.partsData ps, ⟨-1, h.width, h.height, 0, 0, 0, 0, .none, .source, false⟩)],
            seenHeaders := true, seenIend := true, s := s } := by
  have hst := dec_start zlib o h hok (ps.flatMap (Spec.Part.chunk false) ++ (Spec.chunk [0x49, 0x45, 0x4e, 0x44] [] ++ tail))
  unfold nIHDR at hst
  rw [hst]
  have hl := parts_length_le false ps
  obtain ⟨k, hk⟩ : ∃ k, (ps.flatMap (Spec.Part.chunk false) ++ (Spec.chunk [0x49, 0x45, 0x4e, 0x44] [] ++ tail)).length + 24 = ps.length + (k + 1) := by
    rw [List.length_append]
    exact ⟨(ps.flatMap (Spec.Part.chunk false)).length - ps.length + (Spec.chunk [0x49, 0x45, 0x4e, 0x44] [] ++ tail).length + 23, by omega⟩
  rw [hk, main_parts zlib o ps hps _ (header_inv h) i hi _ rfl [] _ [] rfl]
  have hiv := partsInfo_inv _ _ _ hi (header_inv h)
  rw [headersLoop]
  simp only
  rw [read_chunk o _ _ _ rfl (by norm_num)]
  simp only
  rw [if_pos (by decide)]
  simp only [hdrSeen, hiv.hdr, if_true, Except.bind, List.nil_append]
  exact ⟨_, rfl⟩

/-- A file with all of these chunks. -/
def exParts : List Spec.Part :=
  [.extra (.icc [105] [1, 2] [1, 2]), .extra (.text [75] [104, 105]), .extra (.other [0x67, 0x41, 0x4d, 0x41] [0, 1, 2, 3]),
   .data 0 [1, 2, 3], .data 0 [4], .extra (.ztxt [90] [9] [9]), .extra (.itxt [73, 74] []), .extra (.time ⟨2024, 2, 29, 23, 59, 60⟩),
   .extra (.text [75] [106])]

/-- The hypotheses are met by `exParts`. -/
example : ∃ s, ({ s := [0x89, 0x50, 0x4e, 0x47, 0x0d, 0x0a, 0x1a, 0x0a] ++ (Spec.chunk [0x49, 0x48, 0x44, 0x52]
        (⟨1, 1, 8, .luma, false⟩ : Spec.Header).bytes ++
        (exParts.flatMap (Spec.Part.chunk false) ++ (Spec.chunk [0x49, 0x45, 0x4e, 0x44] [] ++ []))) } : Dec).headers (fun _ x => .ok x) {} =
      .ok { info := { st := { (⟨1, 1, 8, .luma, false⟩ : Spec.Header).st with gamma := some 66051 }, time := some ⟨2024, 2, 29, 23, 59, 60⟩,
                      icc := some [1, 2], itxt := [⟨[73, 74], []⟩], ztxt := [⟨[90], [9]⟩], text := [⟨[75], [104, 105]⟩, ⟨[75], [106]⟩] },
            frames := [([1, 2, 3, 4], ⟨-1, 1, 1, 0, 0, 0, 0, .none, .source, false⟩)], seenHeaders := true, seenIend := true, s := s } :=
  c94_chunks_partial (fun _ x => .ok x) {} ⟨1, 1, 8, .luma, false⟩ (by unfold Spec.Header.Ok; decide) exParts (by
    simp only [exParts, List.forall_mem_cons, List.not_mem_nil, false_implies, implies_true, Spec.Part.Ok, Spec.Extra.Ok, Spec.Keyword, Spec.Extra.data]
    decide) _ (by decide +kernel) []

theorem beVal_inj : ∀ (a b : List UInt8), a.length = b.length → beVal a = beVal b → a = b
  | [], [], _, _ => rfl
  | x :: a, y :: b, hl, h => by
    have hl2 : a.length = b.length := by simpa using hl
    have ha := beVal_lt a
    have hb := beVal_lt b
    simp only [beVal] at h
    rw [← hl2] at h hb
    have hp : 0 < 256 ^ a.length := Nat.pow_pos (by omega)
    have e1 := congrArg (· / 256 ^ a.length) h
    rw [Nat.mul_comm, Nat.mul_add_div hp, Nat.div_eq_of_lt ha, Nat.mul_comm y.toNat, Nat.mul_add_div hp, Nat.div_eq_of_lt hb] at e1
    have hxy : x = y := UInt8.toNat_inj.1 (by simpa using e1)
    subst hxy
    rw [beVal_inj a b hl2 (by omega)]

/-- **C94** Nothing else than a PNG file is read: whatever the bytes, if the headers are accepted, they start with the signature, a
    length, and the name IHDR. -/
theorem c94_signature (zlib : Zlib) (o : DecOpts) (s : List UInt8) (d : Dec) (h : ({ s := s } : Dec).headers zlib o = .ok d) :
    ∃ l t, l.length = 4 ∧ s = [0x89, 0x50, 0x4e, 0x47, 0x0d, 0x0a, 0x1a, 0x0a] ++ (l ++ ([0x49, 0x48, 0x44, 0x52] ++ t)) := by
  have hsig : signature = beVal [0x89, 0x50, 0x4e, 0x47, 0x0d, 0x0a, 0x1a, 0x0a] := by decide +kernel
  unfold Dec.headers at h
  simp only [Bool.false_and, Bool.false_eq_true, if_false] at h
  cases hb : be 8 s with
  | none => rw [hb] at h; cases h
  | some x =>
    obtain ⟨v, t⟩ := x
    rw [hb] at h
    simp only at h
    by_cases hv : v = signature
    · rw [if_neg (by simpa using hv)] at h
      by_cases ht : (t.drop 4).take 4 = nIHDR
      · unfold be exact at hb
        split at hb
        · simp only [Option.map_some, Option.some.injEq, Prod.mk.injEq] at hb
          obtain ⟨h1, rfl⟩ := hb
          have hl : 8 ≤ s.length := by assumption
          have e1 : s.take 8 = [0x89, 0x50, 0x4e, 0x47, 0x0d, 0x0a, 0x1a, 0x0a] :=
            beVal_inj _ _ (by simp; omega) (by rw [h1, hv, hsig])
          refine ⟨(s.drop 8).take 4, ((s.drop 8).drop 4).drop 4, ?_, ?_⟩
          · have := congrArg List.length ht
            simp only [nIHDR, List.length_take, List.length_drop, List.length_cons, List.length_nil] at this ⊢
            omega
          · rw [← e1, show ([0x49, 0x48, 0x44, 0x52] : List UInt8) = nIHDR from rfl, ← ht, List.take_append_drop, List.take_append_drop,
              List.take_append_drop]
        · cases hb
      · rw [if_pos ht] at h
        cases h
    · rw [if_pos (by simpa using hv)] at h
      cases h

/-- The conclusion is not empty: other bytes are refused. -/
example : ¬ ∃ d, ({ s := [0x89, 0x50, 0x4e, 0x48] ++ List.replicate 50 0 } : Dec).headers (fun _ x => .ok x) {} = .ok d := by
  rintro ⟨d, h⟩
  obtain ⟨l, t, -, e⟩ := c94_signature _ _ _ _ h
  simp at e

/-- **C94**, disagreement: a text with a keyword of 79 bytes, which the specification allows, is ignored. -/
theorem c94_long_keyword (zlib : Zlib) (o : DecOpts) (d : Dec) (hh : d.info.st.seenHdr = true) (k t rest : List UInt8) (hk : k.length = 79)
    (h0 : 0 ∉ k) (v : Nat) :
    hdrSeen (plainChunk zlib o { d with s := (k ++ 0 :: t) ++ (beBytes 4 v ++ rest) } (k ++ 0 :: t).length ntEXt) = .ok { d with s := rest } := by
  have hkw : keywordAt (k ++ 0 :: t).length ((k ++ 0 :: t) ++ (beBytes 4 v ++ rest)) = .ok none := by
    unfold keywordAt peek
    rw [if_neg (by simp only [List.length_append]; omega), Nat.min_eq_right (by simp only [List.length_append, List.length_cons]; omega),
      List.append_assoc, List.take_left' hk]
    simp only [Except.ok.injEq, List.findIdx?_eq_none_iff, decide_eq_false_iff_not]
    intro x hx e
    exact h0 (e ▸ hx)
  unfold plainChunk
  rw [if_neg (by decide), if_neg (by decide), if_neg (by decide), if_neg (by decide), if_neg (by decide), if_neg (by decide),
    if_neg (by decide), if_pos rfl]
  unfold parseText
  simp only [hkw, bind, Except.bind, hdrSeen, hh, if_true, skip]
  rw [List.drop_left, List.drop_left' (beBytes_length _ _)]

example : (0 : UInt8) ∉ List.replicate 79 (65 : UInt8) ∧ (List.replicate 79 (65 : UInt8)).length = 79 := by decide

/-- **C94**, disagreement: of an international text (compression flag `c` and method `m`, language tag `l`, translated keyword `tk`,
    bytes `t`) the recorded text is what follows the fifth byte after the keyword: language and translated keyword become part of it
    (all but the first two bytes), and compressed text stays compressed. -/
theorem c94_itxt (d : Dec) (k l tk t rest : List UInt8) (hk : Spec.Keyword k) (c m : UInt8) (v : Nat) :
    parseItxt { d with s := (k ++ 0 :: c :: m :: (l ++ 0 :: (tk ++ 0 :: t))) ++ (beBytes 4 v ++ rest) }
        (k ++ 0 :: c :: m :: (l ++ 0 :: (tk ++ 0 :: t))).length =
      .ok { d with info.itxt := d.info.itxt ++ [⟨k, (l ++ 0 :: (tk ++ 0 :: t)).drop 2⟩], s := rest } := by
  unfold parseItxt
  simp only [keyword_at k (c :: m :: (l ++ 0 :: (tk ++ 0 :: t))) _ hk, bind, Except.bind, take_key]
  have hl : 2 ≤ (l ++ 0 :: (tk ++ 0 :: t)).length := by simp; omega
  generalize l ++ 0 :: (tk ++ 0 :: t) = q at hl ⊢
  have e : skip (k.length + 1 + 1 + 1 + 1 + 1) (k ++ 0 :: c :: m :: q ++ (beBytes 4 v ++ rest)) = q.drop 2 ++ (beBytes 4 v ++ rest) := by
    unfold skip
    rw [show k.length + 1 + 1 + 1 + 1 + 1 = k.length + (1 + 1 + 1 + 2) by omega, ← List.drop_drop, List.append_assoc, List.drop_left]
    show (q ++ (beBytes 4 v ++ rest)).drop 2 = _
    rw [List.drop_append_of_le_length hl]
  rw [e, peek_left _ _ _ (by simp; omega)]
  simp only [skip]
  rw [List.drop_left' (by simp; omega), List.drop_left' (beBytes_length _ _)]

/-- **C94**, disagreement: so with a language tag or a translated keyword the text is never the one in the file. -/
theorem c94_itxt_language (l tk t : List UInt8) (h : l ≠ [] ∨ tk ≠ []) : (l ++ 0 :: (tk ++ 0 :: t)).drop 2 ≠ t := by
  intro e
  have := congrArg List.length e
  simp only [List.length_drop, List.length_append, List.length_cons] at this
  rcases h with h | h
  · have := List.length_pos_iff.mpr h; omega
  · have := List.length_pos_iff.mpr h; omega

/-- Language "en". -/
example : parseItxt { s := ([75] ++ 0 :: 0 :: 0 :: ([101, 110] ++ 0 :: ([] ++ 0 :: [104, 105]))) ++ (beBytes 4 0 ++ []) } 10 =
    .ok { info.itxt := [⟨[75], [0, 0, 104, 105]⟩], s := [] } := by decide +kernel

/-- **C94**, disagreement: an acTL chunk of a wrong length is not skipped as the code says; its values are taken from the eight bytes
    after it (length `m` and name `n` of the next chunk), and reading goes on inside that chunk. -/
theorem c94_actl_length (d : Dec) (x rest : List UInt8) (hx : x.length ≠ 8) (v m n : Nat) (hm : m < 2 ^ 32) (hn : n < 2 ^ 32) :
    parseActl { d with s := x ++ (beBytes 4 v ++ (beBytes 4 m ++ (beBytes 4 n ++ rest))) } x.length =
      .ok { d with info.actl := some (m, n), s := rest.drop 4 } := by
  unfold parseActl
  have e : skip (x.length + 4) (x ++ (beBytes 4 v ++ (beBytes 4 m ++ (beBytes 4 n ++ rest)))) = beBytes 4 m ++ (beBytes 4 n ++ rest) := by
    unfold skip
    rw [← List.drop_drop, List.drop_left, List.drop_left' (beBytes_length _ _)]
  simp only [hx, ne_eq, not_false_eq_true, if_true, e, getBe_append 4 m _ hm, getBe_append 4 n _ hn]
  rfl

/-- Nine bytes; the next chunk is IDAT with five bytes. -/
example : parseActl { s := [0, 0, 0, 2, 0, 0, 0, 0, 0] ++ (beBytes 4 0 ++ (beBytes 4 5 ++ (beBytes 4 0x49444154 ++ [1, 2, 3, 4, 5]))) } 9 =
    .ok { info.actl := some (5, 0x49444154), s := [5] } :=
  c94_actl_length { s := [] } [0, 0, 0, 2, 0, 0, 0, 0, 0] [1, 2, 3, 4, 5] (by decide) 0 5 0x49444154 (by decide) (by decide)

/-! ## C95: frames -/

/-- `decode_headers`, `n` times. -/
def headersTimes (zlib : Zlib) (o : DecOpts) : Nat → Dec → Except Err Dec
  | 0, d => .ok d
  | n + 1, d => (headersTimes zlib o n d).bind fun d => d.headers zlib o

/-- **C95**, for files in which every fcTL chunk (but one before the first IDAT) is followed by an fdAT chunk.  Every call of
    `decode_headers` reads at least one more frame; the frames are those of the file in their order, each with the data of all its
    IDAT or fdAT chunks and with what its own fcTL chunk says, and for any sequence numbers. -/
theorem c95_frames_partial (zlib : Zlib) (o : DecOpts) (a : Spec.Anim) (i : Info) (ha : a.Ok zlib o i) (tail : List UInt8) (n : Nat) :
    ∃ d, headersTimes zlib o (n + 1) { s := a.bytes tail } = .ok d ∧ d.frames <+: a.frames ∧ min (n + 1) a.frames.length ≤ d.frames.length ∧
      d.info.st = i.st ∧ d.info.actl = i.actl ∧ (d.seenIend = true ↔ d.frames.length = a.frames.length) := by
  obtain ⟨d0, gs0, e0, h0, st0, ac0, c0, -, l0⟩ := headers_first zlib o a i ha tail
  have key : ∀ n, ∃ d gs, headersTimes zlib o (n + 1) { s := a.bytes tail } = .ok d ∧ Holds zlib tail a.frames d gs ∧
      min (n + 1) a.frames.length ≤ d.frames.length ∧ d.info.st = i.st ∧ d.info.actl = i.actl ∧ d.current = 0 := by
    intro n
    induction n with
    | zero => exact ⟨d0, gs0, by simp only [headersTimes, Except.bind, e0], h0, by omega, st0, ac0, c0⟩
    | succ n ih =>
      obtain ⟨d, gs, e, h, hl, hst, hac, hc⟩ := ih
      obtain ⟨d', e', h', s', c', l'⟩ := headers_step zlib o tail _ d gs h
      refine ⟨d', gs.tail, ?_, h', by omega, by rw [s'.st, hst], by rw [s'.actl, hac], by rw [c', hc]⟩
      rw [headersTimes, e]
      exact e'
  obtain ⟨d, gs, e, h, hl, hst, hac, hc⟩ := key n
  refine ⟨d, e, ?_, hl, hst, hac, ?_⟩
  · rw [List.prefix_iff_getElem?]
    intro k hk
    rw [← h.kept k (by omega) hk]
    exact List.getElem?_eq_getElem hk
  · rw [h.iend]
    have := h.len
    cases gs with
    | nil => simp at this; simp [this]
    | cons g gs => simp at this; simp; omega

/-- **C95** (the end).  After the last frame a further call of `decode_raw` aborts (an unwrapped `None`, decoder.rs:697), for every
    animated file and every still picture. -/
theorem c95_raw_after_last (zlib : Zlib) (o : DecOpts) (tail : List UInt8) (all : List (List UInt8 × FrameInfo)) (d : Dec)
    (gs : List Spec.Group) (h : Holds zlib tail all d gs) (hc : d.current = all.length) : d.raw zlib o = .error .panic := by
  obtain ⟨d', e', h', s', c', l'⟩ := headers_step zlib o tail _ d gs h
  have := h'.len
  have hf : d'.frameInfo = none := by
    unfold Dec.frameInfo
    rw [List.getElem?_eq_none (by omega), Option.map_none]
  unfold Dec.raw
  simp only [e', bind, Except.bind, hf]
  split <;> split <;> rfl

/-- **C95**, disagreement: any chunk between fcTL and the first fdAT makes the decoder lose the frame: its data is appended to the
    data of the frame before. -/
theorem c95_chunk_between (zlib : Zlib) (o : DecOpts) (c : FrameInfo) (e : Spec.Extra) (he : e.Ok zlib) (hlen : e.data.length < 2 ^ 32)
    (ps : List Spec.Part) (hps : ∀ p ∈ ps, p.Ok zlib) (d : Dec) (hi : d.info.st.Inv) (i' : Info)
    (hinfo : Spec.partsInfo d.info (.extra e :: ps) = some i') (fs : List (List UInt8 × FrameInfo)) (a : List UInt8) (i : FrameInfo)
    (hf : d.frames = fs ++ [(a, i)]) (gs : List Spec.Group) (tail : List UInt8)
    (hs : d.s = (Spec.Part.extra e :: ps).flatMap (Spec.Part.chunk true) ++ Spec.groupsBytes gs tail) (k : Nat) :
    fctlLoop zlib o c (ps.length + k + 2) true d =
      .ok { d with info := i', frames := fs ++ [(a ++ Spec.partsData ps, i)], s := Spec.groupsBytes gs tail, seenIend := d.seenIend || gs.isEmpty } := by
  simp only [Spec.partsInfo, Option.bind_eq_some_iff] at hinfo
  obtain ⟨j, h1, h2⟩ := hinfo
  have hn := extra_named zlib e he _ _ h1
  rw [fctlLoop, hs, List.flatMap_cons, List.append_assoc]
  simp only [Spec.Part.chunk]
  rw [read_chunk o _ _ _ hn.len hlen]
  simp only
  rw [if_neg hn.iend, if_neg hn.idat, if_neg hn.fctl, if_neg hn.fdat, extra_ok zlib o e he d hi j h1]
  simp only
  rw [Nat.add_assoc, fctl_fdats zlib o c ps hps { d with info := j, s := ps.flatMap (Spec.Part.chunk true) ++ Spec.groupsBytes gs tail }
    (extra_inv e _ _ h1 hi) i' h2 _ rfl fs a i hf (k + 1), fctl_end zlib o c _ gs tail rfl]

/-! ## C96: rendering -/

namespace Spec

/-- The frames of the animation: the picture in the IDAT chunks is one of them only if an fcTL chunk precedes it. -/
def Anim.shown (a : Anim) : List (List UInt8 × FrameInfo) := if a.head.isSome then a.frames else a.frames.tail

end Spec

/-- **C96**, for animations whose frames leave the canvas as it is (but possibly the last one), that lay pixels over opaque ones only,
    with at most eight bits per sample, whose first frame is in the IDAT chunks, and interlaced frames as wide as the picture.
    The frames shown are those of the APNG specification: each drawn into its region of the canvas (`Spec.draw`), with its delay.
    `mix` is the floating-point formula that is not modelled. -/
theorem c96_animation_partial (zlib : Zlib) (mix : UInt8 → UInt8 → UInt8 → UInt8 → UInt8) (o : DecOpts) (a : Spec.Anim) (i : Info)
    (ha : a.Ok zlib o i) (tail : List UInt8) (hac : i.actl.isSome = true) (hhead : a.head.isSome = true)
    (hp : a.header.color = .palette → i.st.seenPlte = true) (hn : a.header.color ≠ .palette → a.header.depth < 8 → i.st.seenPlte = false)
    (hal : (i.st.ctx o).AlphaFine) (hd : a.header.depth ≠ 16)
    (hsize : a.header.width * a.header.height * (i.st.ctx o).outComps < 2 ^ 64)
    (pics : List (FrameInfo × (Nat → Nat → List Nat))) (hpics : List.Forall₂ (Spec.Packs zlib o i.st) a.shown pics)
    (hplain : Spec.Plain mix (i.st.ctx o).outComps (pics.map fun g => (g.1, Spec.canvasOf (i.st.ctx o) g.2))
      fun _ _ => List.replicate (i.st.ctx o).outComps 0) :
    decodeAnim zlib (fun s x y => mix s 255 x y) o (a.bytes tail) =
      .ok (some ((Spec.render mix (i.st.ctx o).outComps (pics.map fun g => (g.1, Spec.canvasOf (i.st.ctx o) g.2))
        fun _ _ => List.replicate (i.st.ctx o).outComps 0).map fun r =>
          ((r.1.delayNum, r.1.delayDen), Spec.canvasBytes a.header.width a.header.height r.2))) := by
  rw [Spec.Anim.shown, if_pos hhead] at hpics
  obtain ⟨d0, gs0, e0, h0, st0, ac0, c0, -, l0⟩ := headers_first zlib o a i ha tail
  have hfrom := partsInfo_from a.header _ _ _ ha.info (header_from a.header) (header_inv a.header)
  have hwf := ctx_wf o a.header ha.header i.st hfrom hp hn
  obtain ⟨f1, f2, f3, f4, f5, -⟩ := hfrom
  have hm : d0.more = true := by
    unfold Dec.more
    rw [ac0, hac, Bool.true_and, decide_eq_true_eq, c0]; exact l0
  have hlen := h0.len
  have hgl : pics.length < (a.bytes tail).length + 1 := by
    rw [← hpics.length_eq]
    have h1 : a.groups.length ≤ (a.groups.flatMap Spec.Group.bytes).length := by
      have : ∀ gs : List Spec.Group, gs.length ≤ (gs.flatMap Spec.Group.bytes).length := by
        intro gs
        induction gs with
        | nil => simp
        | cons g gs ih =>
          have : 1 ≤ g.bytes.length := by
            unfold Spec.Group.bytes
            have := chunk_pos [0x66, 0x63, 0x54, 0x4c] (g.control.bytes g.seq)
            rw [List.length_append]; omega
          rw [List.flatMap_cons, List.length_append, List.length_cons]; omega
      exact this _
    have h2 : a.frames.length = a.groups.length + 1 := by simp [Spec.Anim.frames]
    unfold Spec.Anim.bytes Spec.groupsBytes
    simp only [List.length_append, List.length_cons, List.length_nil]
    omega
  have hcanvas : List.replicate (d0.info.st.width * d0.info.st.height * (d0.info.st.ctx o).outComps) (0 : UInt8) =
      Spec.canvasBytes i.st.width i.st.height fun _ _ => List.replicate (i.st.ctx o).outComps 0 := by
    rw [st0]
    generalize (i.st.ctx o).outComps = nc
    have : ∀ (n m : Nat), ((List.range n).flatMap fun _ => List.replicate m (0 : UInt8)) = List.replicate (n * m) 0 := by
      intro n m
      induction n with
      | zero => simp
      | succ n ih => rw [List.range_succ, List.flatMap_append, ih, List.flatMap_singleton, List.replicate_append_replicate, Nat.succ_mul]
    unfold Spec.canvasBytes
    simp only [this]
    rw [show i.st.width * i.st.height * nc = i.st.height * (i.st.width * nc) by ring]
  have := anim_loop zlib mix o tail a.frames i.st hwf hal (by rw [f3]; exact hd) (by rw [f1, f2]; exact hsize) pics d0 gs0
    (fun _ _ => List.replicate (i.st.ctx o).outComps 0) ((a.bytes tail).length + 1) h0 st0 (by rw [ac0]; exact hac)
    (by rw [c0]; exact hpics) (by rw [c0]; intro _; exact l0) hgl (fun _ _ => List.length_replicate) hplain
  unfold decodeAnim
  simp only [e0, bind, Except.bind, hm, if_true]
  rw [hcanvas, st0, this]
  simp only [f1, f2]

/-! ## Examples, disagreements -/

/-- fcTL of a frame one pixel high. -/
def exCtl (w x : Nat) (dispose : Dispose) (blend : Blend) : Spec.Control := ⟨w, 1, x, 0, 1, 10, dispose, blend⟩

/-- A file of frames; 8-bit greyscale, with or without alpha, two by one pixels. -/
def exAnim (color : Color) (f : Spec.Control × List UInt8) (fs : List (Spec.Control × List UInt8)) : Spec.Anim where
  header := ⟨2, 1, 8, color, false⟩
  pre := [.actl (fs.length + 1) 0]
  head := some (0, f.1)
  idats := [.data 0 f.2]
  groups := fs.map fun g => { seq := 5, control := g.1, first := (6, g.2), rest := [.extra (.text [75] [76])] }

/-- Two frames: 10 20, then 99 in place of 20. -/
def exTwo : Spec.Anim := exAnim .luma (exCtl 2 0 .none .source, [0, 10, 20]) [(exCtl 1 1 .none .source, [0, 99])]

theorem exTwo_ok : exTwo.Ok (fun _ x => .ok x) {} { st := exTwo.header.st, actl := some (2, 0) } := by
  refine ⟨by unfold Spec.Header.Ok; decide, ?_, by decide +kernel, ?_, ?_, ⟨0, [0, 10, 20], [], rfl⟩, ?_⟩
  · intro e he
    have : e = .actl 2 0 := by simpa [exTwo, exAnim] using he
    subst this
    exact ⟨⟨by decide, by decide⟩, by decide⟩
  · intro x hx
    have : x = (0, exCtl 2 0 .none .source) := by simpa [exTwo, exAnim] using hx.symm
    subst this
    decide
  · intro p hp
    have : p = .data 0 [0, 10, 20] := by simpa [exTwo, exAnim] using hp
    subst this
    exact ⟨⟨by decide, by decide⟩, trivial⟩
  · intro g hg
    have : g = { seq := 5, control := exCtl 1 1 .none .source, first := (6, [0, 99]), rest := [.extra (.text [75] [76])] } := by
      simpa [exTwo, exAnim] using hg
    subst this
    refine ⟨by decide, by decide, ⟨by decide, by decide⟩, ?_⟩
    intro p hp
    have : p = .extra (.text [75] [76]) := by simpa using hp
    subst this
    exact ⟨⟨by show Spec.Keyword _; decide, by decide⟩, trivial⟩

/-- C95 of `exTwo`: two calls read both frames. -/
example : ∃ d, headersTimes (fun _ x => .ok x) {} 2 { s := exTwo.bytes [] } = .ok d ∧ d.frames <+: exTwo.frames ∧ min 2 2 ≤ d.frames.length ∧
    d.info.st = exTwo.header.st ∧ d.info.actl = some (2, 0) ∧ (d.seenIend = true ↔ d.frames.length = 2) :=
  c95_frames_partial _ _ exTwo _ exTwo_ok [] 1

/-- A decoder that has returned both frames of `exTwo`. -/
example : ∃ d gs, Holds (fun _ x => .ok x) [] exTwo.frames d gs ∧ d.current = exTwo.frames.length := by
  obtain ⟨d, gs, -, h, -⟩ := headers_first _ _ exTwo _ exTwo_ok []
  refine ⟨{ d with current := 2 }, gs, ⟨h.inv, h.seen, h.iend, h.str, h.gok, h.len, fun k hk hk' => ?_, h.will⟩, rfl⟩
  have h1 := h.len
  have h2 : exTwo.frames.length = 2 := rfl
  have h3 : 2 ≤ k := hk
  have h4 : k < d.frames.length := hk'
  omega

/-- A text chunk between fcTL and fdAT: the data 2 of the new frame goes to the old one, which has 1. -/
example (c : FrameInfo) : fctlLoop (fun _ x => .ok x) {} c (1 + 5 + 2) true
    { info := { st := exTwo.header.st }, frames := [([1], exTwo.frames[0].2)],
      s := [Spec.Part.extra (.text [75] [76]), .data 6 [2]].flatMap (Spec.Part.chunk true) ++ Spec.groupsBytes [] [] } =
    .ok { info := { st := exTwo.header.st, text := [⟨[75], [76]⟩] }, frames := [([1, 2], exTwo.frames[0].2)], s := Spec.groupsBytes [] [],
          seenIend := true } :=
  c95_chunk_between (fun _ x => .ok x) {} c (.text [75] [76]) (by show Spec.Keyword _; decide) (by decide) [.data 6 [2]]
    (by intro p hp; rw [List.mem_singleton.mp hp]; exact ⟨by decide, by decide⟩) _ (header_inv _) _ rfl [] [1] _ rfl [] [] rfl 5

/-- The pictures of `exTwo`. -/
def exPics : List (FrameInfo × (Nat → Nat → List Nat)) :=
  [((exCtl 2 0 .none .source).info 0, fun _ x => [[10, 20].getD x 0]), ((exCtl 1 1 .none .source).info 5, fun _ _ => [99])]

/-- C96 of `exTwo`. -/
example : decodeAnim (fun _ x => .ok x) (fun _ _ _ => 0) {} (exTwo.bytes []) = .ok (some [((1, 10), [10, 20]), ((1, 10), [10, 99])]) := by
  refine (c96_animation_partial (fun _ x => .ok x) (fun _ _ _ _ => 0) {} exTwo _ exTwo_ok [] rfl rfl (by intro h; cases h) (by intro _ _; rfl)
    (by intro h; cases h) (by decide) (by decide) exPics
    (.cons ⟨rfl, by decide, by decide, by decide, by decide, (by intro h; cases h), fun _ _ => rfl, [0, 10, 20], [],
        ⟨[(0, [10, 20])], .cons ⟨by decide, rfl, by decide +kernel⟩ .nil, by decide +kernel⟩, rfl⟩
      (.cons ⟨rfl, by decide, by decide, by decide, by decide, (by intro h; cases h), fun _ _ => rfl, [0, 99], [],
        ⟨[(0, [99])], .cons ⟨by decide, rfl, by decide +kernel⟩ .nil, by decide +kernel⟩, rfl⟩ .nil))
    ⟨.inl rfl, (by intro h; cases h), .inl rfl, (by intro h; cases h), trivial⟩).trans (by decide +kernel)

/-- What the specification asks for, from the pictures. -/
def exShown (nc : Nat) (pics : List (FrameInfo × Spec.Canvas)) : List ((Nat × Nat) × List UInt8) :=
  (Spec.render (fun _ _ s _ => s) nc pics fun _ _ => List.replicate nc 0).map fun r =>
    ((r.1.delayNum, r.1.delayDen), Spec.canvasBytes 2 1 r.2)

/-- **C96**, disagreement: a frame to be disposed of to the background (frame 2) clears the whole canvas before it is drawn; the
    specification has its own region cleared after it was shown. -/
theorem c96_background :
    decodeAnim (fun _ x => .ok x) (fun _ s _ => s) {} ((exAnim .luma (exCtl 2 0 .none .source, [0, 10, 20])
      [(exCtl 1 1 .background .source, [0, 99]), (exCtl 1 0 .none .source, [0, 7])]).bytes []) =
      .ok (some [((1, 10), [10, 20]), ((1, 10), [0, 99]), ((1, 10), [7, 99])]) ∧
    exShown 1 [((exCtl 2 0 .none .source).info 0, fun _ x => [[10, 20].getD x 0]), ((exCtl 1 1 .background .source).info 5, fun _ _ => [99]),
      ((exCtl 1 0 .none .source).info 5, fun _ _ => [7])] =
      [((1, 10), [10, 20]), ((1, 10), [10, 99]), ((1, 10), [7, 0])] := by decide +kernel

/-- **C96**, disagreement: a frame that is to leave the canvas as it was before it (frame 2) stays on the canvas. -/
theorem c96_previous :
    decodeAnim (fun _ x => .ok x) (fun _ s _ => s) {} ((exAnim .luma (exCtl 2 0 .none .source, [0, 10, 20])
      [(exCtl 1 1 .previous .source, [0, 99]), (exCtl 1 0 .none .source, [0, 7])]).bytes []) =
      .ok (some [((1, 10), [10, 20]), ((1, 10), [10, 99]), ((1, 10), [7, 99])]) ∧
    exShown 1 [((exCtl 2 0 .none .source).info 0, fun _ x => [[10, 20].getD x 0]), ((exCtl 1 1 .previous .source).info 5, fun _ _ => [99]),
      ((exCtl 1 0 .none .source).info 5, fun _ _ => [7])] =
      [((1, 10), [10, 20]), ((1, 10), [10, 99]), ((1, 10), [7, 20])] := by decide +kernel

/-- **C96**, disagreement: an opaque pixel laid over a transparent one stays transparent. -/
theorem c96_alpha :
    decodeAnim (fun _ x => .ok x) (fun _ s _ => s) {} ((exAnim .lumaA (exCtl 2 0 .none .over, [0, 10, 255, 20, 255]) []).bytes []) =
      .ok (some [((1, 10), [10, 0, 20, 0])]) ∧
    exShown 2 [((exCtl 2 0 .none .over).info 0, fun _ x => [[10, 20].getD x 0, 255])] = [((1, 10), [10, 255, 20, 255])] := by decide +kernel

/-- **C96**, disagreement: the operation OVER aborts for pictures without alpha (whose pixels are all opaque, so that OVER is the
    same as SOURCE). -/
theorem c96_over_opaque :
    decodeAnim (fun _ x => .ok x) (fun _ s _ => s) {} ((exAnim .luma (exCtl 2 0 .none .over, [0, 10, 20]) []).bytes []) = .error .panic := by
  decide +kernel

/-- **C96**, disagreement: a picture in the IDAT chunks that is not part of the animation (no fcTL before it) is shown as its first
    frame, with the delay 0/0; acTL announces one frame, two come out. -/
theorem c96_default_image :
    decodeAnim (fun _ x => .ok x) (fun _ s _ => s) {}
      (({ exAnim .luma (exCtl 2 0 .none .source, [0, 10, 20]) [(exCtl 1 1 .none .source, [0, 99])] with
          pre := [.actl 1 0], head := none } : Spec.Anim).bytes []) = .ok (some [((0, 0), [10, 20]), ((1, 10), [10, 99])]) ∧
    ({ exAnim .luma (exCtl 2 0 .none .source, [0, 10, 20]) [(exCtl 1 1 .none .source, [0, 99])] with
          pre := [.actl 1 0], head := none } : Spec.Anim).shown.length = 1 := by decide +kernel

/-- An interlaced picture of two by two pixels, and a frame for its left column: 77 above 88. -/
def exNarrow : Spec.Anim where
  header := ⟨2, 2, 8, .luma, true⟩
  pre := [.actl 2 0]
  head := some (0, ⟨2, 2, 0, 0, 1, 10, .none, .source⟩)
  idats := [.data 0 [0, 10, 0, 20, 0, 30, 40]]
  groups := [⟨5, ⟨1, 2, 0, 0, 1, 10, .none, .source⟩, (6, [0, 77, 0, 88]), []⟩]

/-- **C96**, disagreement: the pixels of an interlaced frame narrower than the picture land in wrong places (one pixel of the second
    frame is lost): rows are taken to be as long as those of the picture. -/
theorem c96_interlaced :
    decodeAnim (fun _ x => .ok x) (fun _ s _ => s) {}
      (exNarrow.bytes []) =
      .ok (some [((1, 10), [10, 20, 30, 40]), ((1, 10), [77, 20, 0, 40])]) := by decide +kernel

/-- **C96**, disagreement: a frame of width zero aborts. -/
theorem c96_empty_frame :
    decodeAnim (fun _ x => .ok x) (fun _ s _ => s) {} ((exAnim .luma (exCtl 2 0 .none .source, [0, 10, 20])
      [(exCtl 0 0 .none .source, [0])]).bytes []) = .error .panic := by decide +kernel

end Zune.Png
