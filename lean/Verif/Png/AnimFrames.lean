import Verif.Png.AnimLemmas

/-! # PNG: the frames of an animation (lemmas) -/

namespace Zune.Png

open Zune.Stream

/-! ### Chunks without effect on the pixels -/

theorem quiet_part (zlib : Zlib) (p : Spec.Part) (ho : p.Ok zlib) (hq : p.Quiet) (i : Info) :
    ∃ i', Spec.partsInfo i [p] = some i' ∧ i'.st = i.st ∧ i'.actl = i.actl := by
  cases p with
  | data q x => exact ⟨i, rfl, rfl, rfl⟩
  | extra e =>
    cases e with
    | actl n p => exact hq.elim
    | other n x =>
      obtain ⟨h1, h2⟩ := hq
      have hd : n ≠ [0x49, 0x44, 0x41, 0x54] := ho.1.2.1
      refine ⟨i, ?_, rfl, rfl⟩
      have ha : Spec.apply i.st n x = some i.st := by
        unfold Spec.apply
        simp only [List.mem_append, List.mem_cons, List.not_mem_nil, or_false, not_or] at h2
        rw [if_neg hd, if_neg (by rintro rfl; revert h1; decide), if_neg h2.2.1, if_neg h2.2.2.1, if_neg h2.2.2.2, if_neg h2.1, if_pos h1]
      simp only [Spec.partsInfo, Spec.Extra.apply, ha, Option.map_some, Option.bind_some]
    | _ => exact ⟨_, rfl, rfl, rfl⟩

theorem partsInfo_cons (i : Info) (p : Spec.Part) (ps : List Spec.Part) :
    Spec.partsInfo i (p :: ps) = (Spec.partsInfo i [p]).bind fun j => Spec.partsInfo j ps := by
  cases p with
  | data q x => rfl
  | extra e => simp only [Spec.partsInfo]; cases e.apply i <;> rfl

theorem quiet_parts (zlib : Zlib) : ∀ (ps : List Spec.Part), (∀ p ∈ ps, p.Ok zlib ∧ p.Quiet) → ∀ (i : Info),
    ∃ i', Spec.partsInfo i ps = some i' ∧ i'.st = i.st ∧ i'.actl = i.actl
  | [], _, i => ⟨i, rfl, rfl, rfl⟩
  | p :: ps, h, i => by
    obtain ⟨j, h1, h2, h3⟩ := quiet_part zlib p (h p (by simp)).1 (h p (by simp)).2 i
    obtain ⟨k, h4, h5, h6⟩ := quiet_parts zlib ps (fun q hq => h q (by simp [hq])) j
    exact ⟨k, by rw [partsInfo_cons, h1]; exact h4, by rw [h5, h2], by rw [h6, h3]⟩

theorem chunk_pos (n x : List UInt8) : 1 ≤ (Spec.chunk n x).length := by simp [Spec.chunk]; omega

theorem parts_length_le (fd : Bool) : ∀ ps : List Spec.Part, ps.length ≤ (ps.flatMap (Spec.Part.chunk fd)).length
  | [] => by simp
  | p :: ps => by
    have := parts_length_le fd ps
    have hc : 1 ≤ (p.chunk fd).length := by
      cases p with
      | extra e => exact chunk_pos _ _
      | data q x => simp only [Spec.Part.chunk]; split <;> exact chunk_pos _ _
    rw [List.flatMap_cons, List.length_append, List.length_cons]; omega

/-! ### fcTL -/

theorem control_length (f : Spec.Control) (seq : Nat) : (f.bytes seq).length = 26 := by simp [Spec.Control.bytes]

theorem fctl_info (f : Spec.Control) (hf : f.Fits) (seq : Nat) (hs : seq < 2 ^ 32) (rest : List UInt8) (v : Nat) :
    parseFctlInfo 26 (f.bytes seq ++ (beBytes 4 v ++ rest)) = .ok (f.info seq, rest) := by
  obtain ⟨h1, h2, h3, h4, h5, h6⟩ := hf
  unfold parseFctlInfo Spec.Control.bytes
  simp only [ne_eq, not_true_eq_false, if_false, List.append_assoc, List.cons_append, List.nil_append]
  rw [getBe_append 4 _ _ (by norm_num; omega)]
  simp only
  rw [getBe_append 4 _ _ (by norm_num; omega)]
  simp only
  rw [getBe_append 4 _ _ (by norm_num; omega)]
  simp only
  rw [getBe_append 4 _ _ (by norm_num; omega)]
  simp only
  rw [getBe_append 4 _ _ (by norm_num; omega)]
  simp only
  rw [getBe_append 2 _ _ (by norm_num; omega)]
  simp only
  rw [getBe_append 2 _ _ (by norm_num; omega)]
  simp only [u8, bind, Except.bind, skip_crc]
  unfold Spec.Control.info asI32
  cases f.dispose <;> cases f.blend <;> rfl

/-- What the decoder keeps of a frame. -/
def frameOf (g : Spec.Group) : List UInt8 × FrameInfo := (g.packed, g.control.info g.seq)

/-- The loop over the chunks of a frame ends before the next fcTL or IEND. -/
theorem fctl_end (zlib : Zlib) (o : DecOpts) (c : FrameInfo) (d : Dec) (gs : List Spec.Group) (tail : List UInt8)
    (hs : d.s = Spec.groupsBytes gs tail) (fuel : Nat) (add : Bool) :
    fctlLoop zlib o c (fuel + 1) add d = .ok { d with seenIend := d.seenIend || gs.isEmpty } := by
  rw [fctlLoop]
  cases gs with
  | nil =>
    have hr : ∃ l t, readChunkHeader o d.s = .ok (l, nIEND, t) := by
      rw [hs]
      unfold Spec.groupsBytes
      rw [List.flatMap_nil, List.nil_append, read_chunk o _ _ _ rfl (by norm_num)]
      exact ⟨_, _, rfl⟩
    obtain ⟨l, t, hr⟩ := hr
    rw [hr]
    simp
  | cons g gs =>
    have hr : ∃ l t, readChunkHeader o d.s = .ok (l, nfcTL, t) := by
      rw [hs]
      unfold Spec.groupsBytes Spec.Group.bytes
      rw [List.flatMap_cons, List.append_assoc, List.append_assoc, read_chunk o _ _ _ rfl (by rw [control_length]; norm_num)]
      exact ⟨_, _, rfl⟩
    obtain ⟨l, t, hr⟩ := hr
    rw [hr]
    simp only
    rw [if_neg (by decide), if_neg (by decide), if_pos trivial]
    simp

/-- fcTL and the chunks after it. -/
theorem group_ok (zlib : Zlib) (o : DecOpts) (g : Spec.Group) (hg : g.Ok zlib) (gs : List Spec.Group) (tail : List UInt8) (d : Dec)
    (hi : d.info.st.Inv) (v : Nat)
    (hs : d.s = g.control.bytes g.seq ++ (beBytes 4 v ++
      ((Spec.Part.data g.first.1 g.first.2 :: g.rest).flatMap (Spec.Part.chunk true) ++ Spec.groupsBytes gs tail))) :
    ∃ i', i'.st = d.info.st ∧ i'.actl = d.info.actl ∧ parseFctl zlib o d 26 =
      .ok { d with info := i', frames := d.frames ++ [frameOf g], s := Spec.groupsBytes gs tail, seenIend := d.seenIend || gs.isEmpty } := by
  obtain ⟨i', h1, h2, h3⟩ := quiet_parts zlib g.rest hg.rest d.info
  refine ⟨i', h2, h3, ?_⟩
  unfold parseFctl
  rw [hs, fctl_info _ hg.fits _ hg.seq]
  simp only
  have hlen : g.rest.length + 2 ≤ ((Spec.Part.data g.first.1 g.first.2 :: g.rest).flatMap (Spec.Part.chunk true) ++ Spec.groupsBytes gs tail).length := by
    have := parts_length_le true (Spec.Part.data g.first.1 g.first.2 :: g.rest)
    have h4 : 1 ≤ (Spec.groupsBytes gs tail).length := by
      unfold Spec.groupsBytes
      have := chunk_pos [0x49, 0x45, 0x4e, 0x44] []
      simp only [List.length_append] at *; omega
    rw [List.length_append]
    rw [List.length_cons] at this
    omega
  obtain ⟨k, hk⟩ : ∃ k, ((Spec.Part.data g.first.1 g.first.2 :: g.rest).flatMap (Spec.Part.chunk true) ++ Spec.groupsBytes gs tail).length =
    g.rest.length + (k + 1) + 1 := by
    generalize (((Spec.Part.data g.first.1 g.first.2 :: g.rest).flatMap (Spec.Part.chunk true) ++ Spec.groupsBytes gs tail).length) = n at hlen
    exact ⟨n - (g.rest.length + 2), by omega⟩
  rw [hk, fctlLoop, List.flatMap_cons, List.append_assoc]
  simp only [Spec.Part.chunk, if_true]
  rw [read_chunk o _ _ _ rfl (by have := hg.first.2; simp; omega)]
  simp only
  rw [if_neg (by decide), if_neg (by decide), if_neg (by decide), if_pos (by decide)]
  simp only [List.append_assoc, skip, List.length_append, beBytes_length, Nat.add_sub_cancel_left]
  rw [List.drop_left' (beBytes_length _ _), exact_append]
  simp only [extend_last, List.nil_append]
  rw [List.drop_left' (beBytes_length _ _)]
  rw [fctl_fdats zlib o _ g.rest (fun p hp => (hg.rest p hp).1)
    { d with s := g.rest.flatMap (Spec.Part.chunk true) ++ Spec.groupsBytes gs tail, frames := d.frames ++ [(g.first.2, g.control.info g.seq)] }
    hi i' h1 (Spec.groupsBytes gs tail) rfl d.frames g.first.2 (g.control.info g.seq) rfl (k + 1),
    fctl_end zlib o _ _ gs tail rfl]
  rfl

/-! ### `decode_headers` -/

/-- The decoder between frames: `all` are the frames of the file, `gs` those not read yet. -/
structure Holds (zlib : Zlib) (tail : List UInt8) (all : List (List UInt8 × FrameInfo)) (d : Dec) (gs : List Spec.Group) : Prop where
  inv : d.info.st.Inv
  seen : d.seenHeaders = true
  iend : d.seenIend = gs.isEmpty
  str : gs ≠ [] → d.s = Spec.groupsBytes gs tail
  gok : ∀ g ∈ gs, g.Ok zlib
  len : d.frames.length + gs.length = all.length
  kept : ∀ k, d.current ≤ k → k < d.frames.length → d.frames[k]? = all[k]?
  will : all.drop d.frames.length = gs.map frameOf

/-- What the calls of `decode_headers` leave as it was. -/
structure Same (d d' : Dec) : Prop where
  st : d'.info.st = d.info.st
  actl : d'.info.actl = d.info.actl

theorem group_step (zlib : Zlib) (o : DecOpts) (g : Spec.Group) (gs : List Spec.Group) (hg : g.Ok zlib) (tail : List UInt8) (d : Dec)
    (hi : d.info.st.Inv) (hs : d.s = Spec.groupsBytes (g :: gs) tail) (fuel : Nat) :
    ∃ i', i'.st = d.info.st ∧ i'.actl = d.info.actl ∧ headersLoop zlib o (fuel + 1) d =
      .ok { d with info := i', frames := d.frames ++ [frameOf g], s := Spec.groupsBytes gs tail, seenIend := d.seenIend || gs.isEmpty } := by
  have hs' : d.s = Spec.chunk [0x66, 0x63, 0x54, 0x4c] (g.control.bytes g.seq) ++
      ((Spec.Part.data g.first.1 g.first.2 :: g.rest).flatMap (Spec.Part.chunk true) ++ Spec.groupsBytes gs tail) := by
    rw [hs]; unfold Spec.groupsBytes Spec.Group.bytes; simp only [List.flatMap_cons, List.append_assoc]
  obtain ⟨i', h1, h2, h3⟩ := group_ok zlib o g hg gs tail
    { d with s := g.control.bytes g.seq ++ (beBytes 4 (Spec.crc ([0x66, 0x63, 0x54, 0x4c] ++ g.control.bytes g.seq)) ++
      ((Spec.Part.data g.first.1 g.first.2 :: g.rest).flatMap (Spec.Part.chunk true) ++ Spec.groupsBytes gs tail)) } hi _ rfl
  refine ⟨i', h1, h2, ?_⟩
  rw [headersLoop, hs', read_chunk o _ _ _ rfl (by rw [control_length]; norm_num)]
  simp only
  rw [if_neg (by decide), if_pos (by decide), control_length, h3]
  simp only [hdrSeen, h1, hi.hdr, if_true]

theorem headers_seen (zlib : Zlib) (o : DecOpts) (d : Dec) (h : ¬ (d.seenHeaders && d.seenIend) = true) (hh : d.info.st.seenHdr = true) (d' : Dec)
    (hl : headersLoop zlib o d.s.length d = .ok d') : d.headers zlib o = .ok { d' with seenHeaders := true } := by
  unfold Dec.headers
  rw [if_neg h]
  simp only [bind, Except.bind, hh, if_true, hl]

theorem headers_step (zlib : Zlib) (o : DecOpts) (tail : List UInt8) (all : List (List UInt8 × FrameInfo)) (d : Dec) (gs : List Spec.Group)
    (h : Holds zlib tail all d gs) :
    ∃ d', d.headers zlib o = .ok d' ∧ Holds zlib tail all d' gs.tail ∧ Same d d' ∧ d'.current = d.current ∧
      d'.frames.length = min (d.frames.length + 1) all.length := by
  cases gs with
  | nil =>
    refine ⟨d, ?_, h, ⟨rfl, rfl⟩, rfl, by have := h.len; simp at this; omega⟩
    unfold Dec.headers
    rw [if_pos (by rw [h.seen, h.iend]; rfl)]
  | cons g gs =>
    have hs := h.str (by simp)
    have hl : ∃ k, d.s.length = k + 1 := by
      have : 1 ≤ d.s.length := by
        rw [hs]; unfold Spec.groupsBytes
        have := chunk_pos [0x49, 0x45, 0x4e, 0x44] []
        simp only [List.length_append] at *; omega
      exact ⟨d.s.length - 1, by omega⟩
    obtain ⟨k, hk⟩ := hl
    obtain ⟨i', h1, h2, h3⟩ := group_step zlib o g gs (h.gok g (by simp)) tail d h.inv hs k
    rw [← hk] at h3
    have hlen := h.len
    have hw := h.will
    rw [List.length_cons] at hlen
    refine ⟨_, headers_seen zlib o d (by rw [h.iend]; simp) h.inv.hdr _ h3, ?_, ⟨h1, h2⟩, rfl, ?_⟩
    · have hget : all[d.frames.length]? = some (frameOf g) := by
        have := congrArg (·[0]?) hw
        simpa [List.getElem?_drop] using this
      refine ⟨by show i'.st.Inv; rw [h1]; exact h.inv, rfl, by show (d.seenIend || gs.isEmpty) = _; rw [h.iend]; rfl, fun _ => rfl,
        fun x hx => h.gok x (by simp at hx ⊢; exact .inr hx), by simp; omega, ?_, ?_⟩
      · intro j hj hj'
        show (d.frames ++ [frameOf g])[j]? = _
        by_cases e : j < d.frames.length
        · rw [List.getElem?_append_left e]; exact h.kept j hj e
        · have : j = d.frames.length := by
            have : j < (d.frames ++ [frameOf g]).length := hj'
            simp at this; omega
          rw [this, hget]; simp
      · show all.drop (d.frames ++ [frameOf g]).length = _
        rw [List.length_append, ← List.drop_drop, hw]; rfl
    · simp; omega

/-! ### The first call -/

theorem extra_from (h : Spec.Header) (e : Spec.Extra) (i i' : Info) (ha : e.apply i = some i') (hf : i.st.From h) (hi : i.st.Inv) :
    i'.st.From h := by
  cases e with
  | other n x =>
    simp only [Spec.Extra.apply, Option.map_eq_some_iff] at ha
    obtain ⟨st, hs, rfl⟩ := ha
    exact apply_from h _ _ hf hi _ _ hs
  | _ => cases ha; exact hf

theorem partsInfo_from (h : Spec.Header) : ∀ (ps : List Spec.Part) (i i' : Info), Spec.partsInfo i ps = some i' → i.st.From h → i.st.Inv →
    i'.st.From h
  | [], _, _, e, hf, _ => by cases e; exact hf
  | .extra e :: t, i, i', he, hf, hi => by
    simp only [Spec.partsInfo, Option.bind_eq_some_iff] at he
    obtain ⟨j, h1, h2⟩ := he
    exact partsInfo_from h t j i' h2 (extra_from h e _ _ h1 hf hi) (extra_inv e _ _ h1 hi)
  | .data _ _ :: t, i, i', he, hf, hi => partsInfo_from h t i i' he hf hi

namespace Spec

/-- The frames of a file: their compressed data and what is known about them. -/
def Anim.frames (a : Anim) : List (List UInt8 × FrameInfo) :=
  (partsData a.idats, match a.head with
    | none => ⟨-1, a.header.width, a.header.height, 0, 0, 0, 0, .none, .source, false⟩
    | some (seq, f) => f.info seq) :: a.groups.map fun g => (g.packed, g.control.info g.seq)

end Spec

theorem dec_sig (zlib : Zlib) (o : DecOpts) (s t : List UInt8) (hs : be 8 s = some (signature, t)) (ht : (t.drop 4).take 4 = nIHDR) :
    ({ s := s } : Dec).headers zlib o =
      (headersLoop zlib o t.length { s := t }).bind fun d => .ok { d with seenHeaders := true } := by
  unfold Dec.headers
  generalize signature = sg at hs
  rw [if_neg (by simp)]
  simp only [hs]
  generalize headersLoop zlib o = f
  simp only [Bool.false_eq_true, if_false, bind, ne_eq, not_true_eq_false, ht, Except.bind]

theorem plain_ihdr (zlib : Zlib) (o : DecOpts) (d : Dec) (len : Nat) (st : St) (t : List UInt8)
    (h : parseIhdr o d.info.st len d.s = .ok (st, t)) :
    plainChunk zlib o d len nIHDR = .ok { d with info.st := st, frames := d.frames ++ [([], stillInfo st)], s := t } := by
  unfold plainChunk
  rw [if_pos rfl, h]

theorem ihdr_step (zlib : Zlib) (o : DecOpts) (h : Spec.Header) (hok : h.Ok o) (rest : List UInt8) (fuel : Nat) :
    headersLoop zlib o (fuel + 1) { s := Spec.chunk nIHDR h.bytes ++ rest } = headersLoop zlib o fuel
      { info := { st := h.st }, frames := [([], ⟨-1, h.width, h.height, 0, 0, 0, 0, .none, .source, false⟩)], s := rest } := by
  have hlen : h.bytes.length = 13 := by simp [Spec.Header.bytes]
  have hp := plain_ihdr zlib o { s := h.bytes ++ (beBytes 4 (Spec.crc (nIHDR ++ h.bytes)) ++ rest) } h.bytes.length h.st rest
    (by rw [hlen]; exact parse_ihdr_ok o h hok _ rest)
  have hr := read_chunk o nIHDR h.bytes rest rfl (by rw [hlen]; norm_num)
  rw [headersLoop]
  simp only [hr]
  rw [if_neg (by decide), if_neg (by decide), hp]
  rfl

/-- After the signature and IHDR. -/
theorem dec_start (zlib : Zlib) (o : DecOpts) (h : Spec.Header) (hok : h.Ok o) (rest : List UInt8) :
    ({ s := [0x89, 0x50, 0x4e, 0x47, 0x0d, 0x0a, 0x1a, 0x0a] ++ (Spec.chunk nIHDR h.bytes ++ rest) } : Dec).headers zlib o =
      (headersLoop zlib o (rest.length + 24)
        { info := { st := h.st }, frames := [([], ⟨-1, h.width, h.height, 0, 0, 0, 0, .none, .source, false⟩)], s := rest }).bind
        fun d => .ok { d with seenHeaders := true } := by
  have hsig : ([0x89, 0x50, 0x4e, 0x47, 0x0d, 0x0a, 0x1a, 0x0a] : List UInt8) = beBytes 8 signature := by decide +kernel
  have hlen : h.bytes.length = 13 := by simp [Spec.Header.bytes]
  have hlt : signature < 256 ^ 8 := by unfold signature; norm_num
  have hbe : be 8 ([0x89, 0x50, 0x4e, 0x47, 0x0d, 0x0a, 0x1a, 0x0a] ++ (Spec.chunk nIHDR h.bytes ++ rest)) =
      some (signature, Spec.chunk nIHDR h.bytes ++ rest) := by
    rw [hsig]
    clear hsig
    generalize signature = sg at hlt ⊢
    exact be_append 8 _ _ hlt
  have hpeek : ((Spec.chunk nIHDR h.bytes ++ rest).drop 4).take 4 = nIHDR := by
    rw [show Spec.chunk nIHDR h.bytes ++ rest = beBytes 4 h.bytes.length ++ (nIHDR ++ (h.bytes ++ (beBytes 4 (Spec.crc (nIHDR ++ h.bytes)) ++ rest))) by
      simp [Spec.chunk], List.drop_left' (beBytes_length _ _)]
    exact List.take_left' rfl
  rw [dec_sig zlib o _ _ hbe hpeek]
  have hl : (Spec.chunk nIHDR h.bytes ++ rest).length = rest.length + 24 + 1 := by
    rw [List.length_append, chunk_length _ _ rfl, hlen]; omega
  rw [hl, ihdr_step zlib o h hok]

theorem headers_first (zlib : Zlib) (o : DecOpts) (a : Spec.Anim) (i : Info) (ha : a.Ok zlib o i) (tail : List UInt8) :
    ∃ d gs, ({ s := a.bytes tail } : Dec).headers zlib o = .ok d ∧ Holds zlib tail a.frames d gs ∧ d.info.st = i.st ∧
      d.info.actl = i.actl ∧ d.current = 0 ∧ d.scratch = [] ∧ 0 < d.frames.length := by
  obtain ⟨hh, hpre, hinfo, hhead, hid, ⟨q0, x0, t0, hid0⟩, hg⟩ := ha
  have hiv := partsInfo_inv _ _ _ hinfo (header_inv a.header)
  obtain ⟨j, j1, j2, j3⟩ := quiet_parts zlib a.idats hid i
  have hpre' : ∀ p ∈ a.pre.map Spec.Part.extra, p.Ok zlib := by
    intro p hp
    obtain ⟨e, he, rfl⟩ := List.mem_map.mp hp
    exact hpre e he
  have hflat : a.pre.flatMap (fun e => Spec.chunk e.name e.data) = (a.pre.map Spec.Part.extra).flatMap (Spec.Part.chunk false) := by
    rw [List.flatMap_map]; rfl
  have hnodata : ∀ l : List Spec.Extra, Spec.partsData (l.map Spec.Part.extra) = [] := by
    intro l; induction l with
    | nil => rfl
    | cons e l ih => exact ih
  unfold Spec.Anim.bytes
  have hst := dec_start zlib o a.header hh (a.pre.flatMap (fun e => Spec.chunk e.name e.data) ++
      (a.headBytes ++ (a.idats.flatMap (Spec.Part.chunk false) ++ Spec.groupsBytes a.groups tail)))
  unfold nIHDR at hst
  rw [hst]
  clear hst
  generalize hF : (⟨-1, a.header.width, a.header.height, 0, 0, 0, 0, .none, .source, false⟩ : FrameInfo) = still
  rw [hflat]
  generalize hR : (a.headBytes ++ (a.idats.flatMap (Spec.Part.chunk false) ++ Spec.groupsBytes a.groups tail)) = R
  have hgl : 1 ≤ (Spec.groupsBytes a.groups tail).length := by
    unfold Spec.groupsBytes
    have := chunk_pos [0x49, 0x45, 0x4e, 0x44] []
    simp only [List.length_append] at *; omega
  have hil := parts_length_le false a.idats
  have hRl : a.idats.length + 1 ≤ R.length := by rw [← hR]; simp only [List.length_append]; omega
  have hpl := parts_length_le false (a.pre.map Spec.Part.extra)
  obtain ⟨k, hk⟩ : ∃ k, ((a.pre.map Spec.Part.extra).flatMap (Spec.Part.chunk false) ++ R).length + 24 =
      (a.pre.map Spec.Part.extra).length + (a.idats.length + (k + 1)) := by
    rw [List.length_append]
    exact ⟨((a.pre.map Spec.Part.extra).flatMap (Spec.Part.chunk false)).length + R.length + 24 - (a.pre.map Spec.Part.extra).length - a.idats.length - 1, by omega⟩
  rw [hk, main_parts zlib o _ hpre' _ (header_inv a.header) i hinfo R rfl [] still [] rfl, hnodata, List.append_nil]
  have hdata : hasData a.idats = true := by rw [hid0]; rfl
  cases hhd : a.head with
  | none =>
    rw [show a.headBytes = [] by unfold Spec.Anim.headBytes; rw [hhd], List.nil_append] at hR
    rw [main_parts zlib o _ (fun p hp => (hid p hp).1) _ hiv j j1 (Spec.groupsBytes a.groups tail) hR.symm [] still [] rfl]
    have hjv : j.st.Inv := by rw [j2]; exact hiv
    have hall : a.frames = (Spec.partsData a.idats, still) :: a.groups.map frameOf := by
      unfold Spec.Anim.frames; rw [hhd, ← hF]; rfl
    cases hgs : a.groups with
    | nil =>
      rw [headersLoop]
      unfold Spec.groupsBytes
      simp only [List.flatMap_nil, List.nil_append]
      rw [read_chunk o _ _ _ rfl (by norm_num)]
      simp only
      rw [if_pos (by decide)]
      simp only [hdrSeen, hjv.hdr, if_true, Except.bind]
      refine ⟨_, [], rfl, ⟨hjv, rfl, rfl, fun h => absurd rfl h, by simp, by simp [hall, hgs], ?_, by simp [hall, hgs]⟩, j2, j3, rfl, rfl, by simp⟩
      intro k _ hk
      have : k = 0 := by simpa using hk
      subst this
      simp [hall]
    | cons g gs =>
      obtain ⟨i', e1, e2, e3⟩ := group_step zlib o g gs (hg g (by simp [hgs])) tail
        { info := j, frames := [(Spec.partsData a.idats, still)], s := Spec.groupsBytes (g :: gs) tail } hjv rfl k
      simp only [List.nil_append]
      rw [e3]
      simp only [Except.bind]
      refine ⟨_, gs, rfl, ⟨by show i'.st.Inv; rw [e1]; exact hjv, rfl, by simp, fun _ => rfl, fun x hx => hg x (by simp [hgs, hx]),
        by simp [hall, hgs]; omega, ?_, by simp [hall, hgs]⟩, e1.trans j2, e2.trans j3, rfl, rfl, by simp⟩
      intro k _ hk
      have : k = 0 ∨ k = 1 := by
        have : k < 2 := by simpa using hk
        omega
      rcases this with rfl | rfl <;> simp [hall, hgs]
  | some sf =>
    obtain ⟨seq, f⟩ := sf
    obtain ⟨hs32, hfit⟩ := hhead (seq, f) (by rw [hhd]; rfl)
    rw [show a.headBytes = Spec.chunk [0x66, 0x63, 0x54, 0x4c] (f.bytes seq) by unfold Spec.Anim.headBytes; rw [hhd]] at hR
    obtain ⟨m, hm⟩ : ∃ m, a.idats.length + (k + 1) = m + 1 := ⟨_, rfl⟩
    rw [hm, headersLoop, ← hR]
    simp only
    rw [read_chunk o _ _ _ rfl (by rw [control_length]; norm_num)]
    simp only
    rw [if_neg (by decide), if_pos (by decide)]
    unfold parseFctl
    simp only [control_length]
    rw [fctl_info f hfit seq hs32]
    simp only
    obtain ⟨n, hn⟩ : ∃ n, (a.idats.flatMap (Spec.Part.chunk false) ++ Spec.groupsBytes a.groups tail).length = a.idats.length + (n + 1) := by
      rw [List.length_append]
      exact ⟨(a.idats.flatMap (Spec.Part.chunk false)).length + (Spec.groupsBytes a.groups tail).length - a.idats.length - 1, by omega⟩
    rw [hn, fctl_idats zlib o _ a.idats (fun p hp => (hid p hp).1)
      { info := i, frames := [([], still)], s := a.idats.flatMap (Spec.Part.chunk false) ++ Spec.groupsBytes a.groups tail } hiv j j1
      (Spec.groupsBytes a.groups tail) rfl [] still [] rfl, fctl_end zlib o _ _ a.groups tail rfl]
    have hjv : j.st.Inv := by rw [j2]; exact hiv
    have hall : a.frames = (Spec.partsData a.idats, f.info seq) :: a.groups.map frameOf := by
      unfold Spec.Anim.frames; rw [hhd]; rfl
    simp only [hdrSeen, hjv.hdr, if_true, Except.bind]
    refine ⟨_, a.groups, rfl, ⟨hjv, rfl, by simp, fun _ => rfl, hg, by simp [hall]; omega, ?_, by simp [hall]⟩, j2, j3, rfl, rfl, by simp⟩
    intro k _ hk
    have : k = 0 := by simpa using hk
    subst this
    simp [hall, hdata]

end Zune.Png
