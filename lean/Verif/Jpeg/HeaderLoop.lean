import Verif.Jpeg.HeaderApps

/-!
# Lemmas about the loop over the markers of JPEG
-/

namespace Zune.Jpeg

open Seg

/-! ## Finding a marker -/

theorem fillLoop_ff (n m : Nat) (s : Bytes) (hm : m < 256) (h1 : m ≠ 255) (h0 : m ≠ 0) :
    fillLoop 255 255 (List.replicate n 255 ++ UInt8.ofNat m :: s) = .ok (255, m, s) := by
  induction n with
  | zero =>
    simp only [List.replicate_zero, List.nil_append]
    rw [fillLoop, if_pos (Or.inl rfl), u8_ofNat m hm]
    cases s with
    | nil => rw [fillLoop, if_neg (by omega)]
    | cons b s => rw [fillLoop, if_neg (by omega)]
  | succ n ih =>
    rw [List.replicate_succ, List.cons_append, fillLoop, if_pos (Or.inl rfl)]
    exact ih

/-- One marker: bytes that are not FF, then FF and fill bytes, then the marker. -/
theorem loop_marker (o : HdrOpts) (m : Nat) (hm : m < 256) (h1 : m ≠ 255) (h0 : m ≠ 0) (d : Hdr) (s : Bytes) (k : Nat)
    (junk : Bytes) : ∀ (f last cnt : Nat), (∀ b ∈ junk, b ≠ 255) → last ≠ 255 →
    (o.strict = true → cnt + junk.length ≤ 2) →
    hdrLoop o (f + (junk.length + 2)) last cnt d (junk ++ (List.replicate (k + 1) 255 ++ UInt8.ofNat m :: s)) =
      (parseMarker o m d s).bind fun x => if m = 0xDA then .ok (finishHdr x.1, x.2) else hdrLoop o f m 1 x.1 x.2 := by
  induction junk with
  | nil =>
    intro f last cnt _ hl hs
    have e255 : (255 : UInt8) = UInt8.ofNat 255 := rfl
    rw [List.nil_append, List.length_nil, show f + (0 + 2) = (f + 1) + 1 by omega, hdrLoop, List.replicate_succ, List.cons_append,
      e255, u8_cons (by omega)]
    simp only [Except.bind]
    rw [skipFill, if_neg (by omega)]
    simp only
    rw [if_neg hl, hdrLoop]
    cases k with
    | zero =>
      simp only [List.replicate_zero, List.nil_append]
      rw [u8_cons hm]
      simp only [Except.bind]
      rw [skipFill, if_neg (by omega)]
      simp only
      rw [if_pos trivial, if_neg (by rintro ⟨q1, q2⟩; have := hs q2; simp at this; omega)]
    | succ k =>
      rw [List.replicate_succ, List.cons_append, u8_cons (by omega)]
      simp only [Except.bind]
      rw [skipFill, if_pos ⟨Or.inl rfl, rfl⟩, ← e255, fillLoop_ff k m s hm h1 h0]
      simp only
      rw [if_pos trivial, if_neg (by rintro ⟨q1, q2⟩; have := hs q2; simp at this; omega)]
  | cons b junk ih =>
    intro f last cnt hj hl hs
    have hb := hj b List.mem_cons_self
    have hb' : b.toNat ≠ 255 := fun q => hb (UInt8.toNat_inj.1 q)
    rw [List.cons_append, List.length_cons, show f + (junk.length + 1 + 2) = (f + (junk.length + 2)) + 1 by omega, hdrLoop]
    simp only [u8e, Except.bind]
    rw [skipFill, if_neg (fun q => hl q.2)]
    simp only
    rw [if_neg hl]
    exact ih f b.toNat (cnt + 1) (fun x hx => hj x (List.mem_cons_of_mem _ hx)) hb' (fun q => by have := hs q; simp at this; omega)

/-! ## What the segments say -/

/-- The effect of a segment on the colour space. -/
def spaceAfter (sp : InSpace) : Segment → InSpace
  | .frame _ f => sofSpace f.comps.length sp
  | s => match s.adobe with
    | [t] => adobeSpace t
    | _ => sp

/-- The decoder holds what the segments `l` say. -/
structure SegHolds (l : List Segment) (d : Hdr) : Prop where
  qt : ∀ j, d.qt j = (last? (fun t : QTab => t.id == j) (l.flatMap Segment.qtabs)).map fun t => natural t.vals
  dc : AfterH false (fun _ => none) d.dc (l.flatMap Segment.htabs)
  ac : AfterH true (fun _ => none) d.ac (l.flatMap Segment.htabs)
  restart : d.restart = (l.flatMap Segment.dris).getLast?.getD 0
  todo : d.todo = (l.flatMap Segment.dris).getLast?.getD 0x7fffffff
  exif : d.exif = (l.flatMap Segment.exif).getLast?
  xmp : d.xmp = (l.flatMap Segment.xmp).getLast?
  iptc : d.iptc = (l.flatMap Segment.iptc).getLast?
  mpf : d.mpf = (l.flatMap Segment.mpf).getLast?
  gain : d.gain = l.flatMap Segment.gain
  icc : d.icc = (l.flatMap Segment.icc).map fun x => { seq := x.1, num := x.2.1, data := x.2.2 }
  mjpeg : d.mjpeg = l.any Segment.avi
  space : d.space = l.foldl spaceAfter .ycbcr
  zorder : d.zorder = [0, 0, 0, 0]
  none : l.flatMap Segment.frames = [] → d.seen = false ∧ d.prog = false ∧ d.ncomp = 0 ∧ d.comps = []
  one : ∀ m f, l.flatMap Segment.frames = [(m, f)] → d.seen = true ∧ d.prog = decide (m = 0xC2) ∧
    d.ncomp = f.comps.length ∧ d.comps = f.comps.map ofFComp ∧ d.width = f.width ∧ d.height = f.height

theorem SegHolds.nil : SegHolds [] {} :=
  { qt := fun _ => rfl, dc := AfterH.nil _ _, ac := AfterH.nil _ _, restart := rfl, todo := rfl, exif := rfl, xmp := rfl, iptc := rfl,
    mpf := rfl, gain := rfl, icc := rfl, mjpeg := rfl, space := rfl, zorder := rfl,
    none := fun _ => ⟨rfl, rfl, rfl, rfl⟩, one := fun m f h => by simp at h }

theorem AfterH.append {c : Bool} {x y z : Nat → Option Huff} {a b : List HTab} (h1 : AfterH c x y a) (h2 : AfterH c y z b) :
    AfterH c x z (a ++ b) := by
  intro j
  have p := h1 j
  have q := h2 j
  rw [last?_append]
  cases hb : last? (fun t : HTab => t.ac == c && t.id == j) b with
  | some t => rw [hb] at q; exact q
  | none =>
    rw [hb] at q
    simp only at q
    rw [Option.none_or, q]
    exact p

/-- The segments the decoder reads as they are meant: the frames it knows, no `APP0` segment with four
bytes, no `APP14` segment that is not Adobe's or is cut short. -/
def Known (o : HdrOpts) : Segment → Prop
  | .frame _ f => f.comps.length ≤ 4 ∧ (∀ c ∈ f.comps, c.h ≠ 3) ∧ f.width ≤ o.maxW ∧ f.height ≤ o.maxH
  | .data m b => (m = 0xE0 → b.length ≠ 4) ∧
      (m = 0xEE → b.take 5 = ascii "Adobe" ∧ 12 ≤ b.length ∧ ∃ t, (Segment.data m b).adobe = [t] ∧ t ≤ 2)
  | _ => True

theorem getLast?_app {α : Type} (a b : List α) : (a ++ b).getLast? = b.getLast?.or a.getLast? := List.getLast?_append

theorem under_ne {m m' : Nat} {b : Bytes} (h : m' ≠ m) : (Segment.data m' b).under m = [] := by simp [Segment.under, h]

theorem holds_data {l : List Segment} {d d' : Hdr} {m : Nat} {b : Bytes} (h : SegHolds l d)
    (e : d' = { d with exif := (Segment.data m b).exif.getLast?.or d.exif, xmp := (Segment.data m b).xmp.getLast?.or d.xmp,
                       iptc := (Segment.data m b).iptc.getLast?.or d.iptc, mpf := (Segment.data m b).mpf.getLast?.or d.mpf,
                       gain := d.gain ++ (Segment.data m b).gain,
                       icc := d.icc ++ (Segment.data m b).icc.map (fun x => { seq := x.1, num := x.2.1, data := x.2.2 }),
                       mjpeg := d.mjpeg || (Segment.data m b).avi, space := spaceAfter d.space (.data m b) }) :
    SegHolds (l ++ [.data m b]) d' := by
  subst e
  exact
  { qt := fun j => by simpa [Segment.qtabs] using h.qt j
    dc := by simpa [Segment.htabs] using h.dc
    ac := by simpa [Segment.htabs] using h.ac
    restart := by simpa [Segment.dris] using h.restart
    todo := by simpa [Segment.dris] using h.todo
    exif := by simp [List.flatMap_append, h.exif]
    xmp := by simp [List.flatMap_append, h.xmp]
    iptc := by simp [List.flatMap_append, h.iptc]
    mpf := by simp [List.flatMap_append, h.mpf]
    gain := by simp [List.flatMap_append, h.gain]
    icc := by simp [List.flatMap_append, h.icc]
    mjpeg := by simp [h.mjpeg]
    space := by simp [h.space]
    zorder := h.zorder
    none := fun hf => h.none (by simpa [Segment.frames] using hf)
    one := fun m f hf => h.one m f (by simpa [Segment.frames] using hf) }

/-- An application or comment segment is read, whatever was before. -/
theorem data_ok (o : HdrOpts) (d : Hdr) (m : Nat) (b r : Bytes)
    (hm : (0xE0 ≤ m ∧ m ≤ 0xEF) ∨ m = 0xFE) (hk : Known o (.data m b)) (hl : b.length + 2 < 65536) :
    ∃ d', parseMarker o m d (body b ++ r) = .ok (d', r) ∧
      d' = { d with exif := (Segment.data m b).exif.getLast?.or d.exif, xmp := (Segment.data m b).xmp.getLast?.or d.xmp,
                    iptc := (Segment.data m b).iptc.getLast?.or d.iptc, mpf := (Segment.data m b).mpf.getLast?.or d.mpf,
                    gain := d.gain ++ (Segment.data m b).gain,
                    icc := d.icc ++ (Segment.data m b).icc.map (fun x => { seq := x.1, num := x.2.1, data := x.2.2 }),
                    mjpeg := d.mjpeg || (Segment.data m b).avi, space := spaceAfter d.space (.data m b) } := by
  obtain ⟨k0, k14⟩ := hk
  have hu : ∀ x, x ≠ m → (Segment.data m b).under x = [] := fun x q => under_ne (fun e => q e.symm)
  have hself : (Segment.data m b).under m = [b] := by simp [Segment.under]
  by_cases c0 : m = 0xE0
  · subst c0
    refine ⟨_, by rw [parseMarker, if_neg (by omega), if_neg (by omega), if_pos rfl, app0_ok d b r hl (k0 rfl)], ?_⟩
    simp [Segment.exif, Segment.xmp, Segment.iptc, Segment.mpf, Segment.gain, Segment.icc, Segment.adobe, spaceAfter, hu]
  · have a0 : (Segment.data m b).avi = false := by simp [Segment.avi, hu 0xE0 (fun q => c0 q.symm)]
    by_cases c1 : m = 0xE1
    · subst c1
      refine ⟨_, by rw [parseMarker, if_neg (by omega), if_neg (by omega), if_neg (by omega), if_pos rfl, app1_ok d b r hl], ?_⟩
      simp [Segment.exif, Segment.xmp, Segment.iptc, Segment.mpf, Segment.gain, Segment.icc, Segment.adobe, spaceAfter, hu, hself, a0]
    · have a1 : (Segment.data m b).exif = [] ∧ (Segment.data m b).xmp = [] := by
        simp [Segment.exif, Segment.xmp, hu 0xE1 (fun q => c1 q.symm)]
      by_cases c2 : m = 0xE2
      · subst c2
        refine ⟨_, by rw [parseMarker, if_neg (by omega), if_neg (by omega), if_neg (by omega), if_neg (by omega), if_pos rfl, app2_ok d b r hl], ?_⟩
        simp [a1, a0, Segment.iptc, Segment.adobe, spaceAfter, hu, iccOf]
      · have a2 : (Segment.data m b).mpf = [] ∧ (Segment.data m b).gain = [] ∧ (Segment.data m b).icc = [] := by
          simp [Segment.mpf, Segment.gain, Segment.icc, hu 0xE2 (fun q => c2 q.symm)]
        by_cases c14 : m = 0xEE
        · subst c14
          obtain ⟨p1, p2, t, p3, p4⟩ := k14 rfl
          refine ⟨_, by rw [parseMarker, if_neg (by omega), if_neg (by omega), if_neg (by omega), if_neg (by omega),
            if_neg (by omega), if_neg (by omega), if_neg (by omega), if_neg (by omega), if_neg (by omega), if_neg (by omega),
            if_neg (by omega), if_pos rfl, app14_ok d b r hl p1 p2 t p3 p4], ?_⟩
          have : (Segment.data 0xEE b).iptc = [] := by simp [Segment.iptc, hu]
          simp [a0, a1, a2, this, spaceAfter, p3]
        · have a3 : (Segment.data m b).adobe = [] := by simp [Segment.adobe, hu 0xEE (fun q => c14 q.symm)]
          have a4 : spaceAfter d.space (.data m b) = d.space := by simp [spaceAfter, a3]
          by_cases c13 : m = 0xED
          · subst c13
            refine ⟨_, by rw [parseMarker, if_neg (by omega), if_neg (by omega), if_neg (by omega), if_neg (by omega),
              if_neg (by omega), if_neg (by omega), if_neg (by omega), if_neg (by omega), if_neg (by omega), if_neg (by omega),
              if_neg (by omega), if_neg (by omega), if_pos rfl, app13_ok d b r hl], ?_⟩
            simp [a0, a1, a2, a4, Segment.iptc, hself]
          · have a5 : (Segment.data m b).iptc = [] := by simp [Segment.iptc, hu 0xED (fun q => c13 q.symm)]
            clear k0 k14
            refine ⟨_, by rw [parseMarker, if_neg (by omega), if_neg (by omega), if_neg (by omega), if_neg (by omega),
              if_neg (by omega), if_neg (by omega), if_neg (by omega), if_neg (by omega), if_neg (by omega), if_neg (by omega),
              if_neg (by omega), if_neg (by omega), if_neg (by omega), other_ok d b r hl], ?_⟩
            simp [a0, a1, a2, a4, a5]

theorem step_data (o : HdrOpts) (l : List Segment) (d : Hdr) (m : Nat) (b r : Bytes) (h : SegHolds l d)
    (hm : (0xE0 ≤ m ∧ m ≤ 0xEF) ∨ m = 0xFE) (hk : Known o (.data m b)) (hl : b.length + 2 < 65536) :
    ∃ d', parseMarker o m d (body b ++ r) = .ok (d', r) ∧ SegHolds (l ++ [.data m b]) d' := by
  obtain ⟨d', a, e⟩ := data_ok o d m b r hm hk hl
  exact ⟨d', a, holds_data h e⟩

theorem segStep (o : HdrOpts) (l : List Segment) (d : Hdr) (s : Segment) (r : Bytes) (h : SegHolds l d) (hok : s.Ok)
    (hk : Known o s) (hl : s.params.length + 2 < 65536) (hf : ((l ++ [s]).flatMap Segment.frames).length ≤ 1) :
    ∃ d', parseMarker o s.code d (body s.params ++ r) = .ok (d', r) ∧ SegHolds (l ++ [s]) d' := by
  match s with
  | .dqt ts =>
    refine ⟨{ d with qt := afterQ d.qt ts }, ?_, ?_⟩
    · show parseMarker o 0xDB d _ = _
      rw [parseMarker, if_neg (by omega), if_neg (by omega), if_neg (by omega), if_neg (by omega), if_neg (by omega), if_pos rfl]
      exact (parseDqt_iff _ _ _ _).2 ⟨ts, hok, hl, rfl, rfl⟩
    · exact
      { qt := fun j => by
          simp only [List.flatMap_append, List.flatMap_cons, List.flatMap_nil, List.append_nil, Segment.qtabs, last?_append, afterQ]
          cases last? (fun t : QTab => t.id == j) ts with
          | some t => rfl
          | none => rw [Option.none_or]; exact h.qt j
        dc := by simpa [Segment.htabs] using h.dc
        ac := by simpa [Segment.htabs] using h.ac
        restart := by simpa [Segment.dris] using h.restart
        todo := by simpa [Segment.dris] using h.todo
        exif := by simpa [Segment.exif, Segment.under] using h.exif
        xmp := by simpa [Segment.xmp, Segment.under] using h.xmp
        iptc := by simpa [Segment.iptc, Segment.under] using h.iptc
        mpf := by simpa [Segment.mpf, Segment.under] using h.mpf
        gain := by simpa [Segment.gain, Segment.under] using h.gain
        icc := by simpa [Segment.icc, Segment.under] using h.icc
        mjpeg := by simpa [Segment.avi, Segment.under] using h.mjpeg
        space := by simpa [spaceAfter, Segment.adobe, Segment.under] using h.space
        zorder := h.zorder
        none := fun hf => h.none (by simpa [Segment.frames] using hf)
        one := fun m f hf => h.one m f (by simpa [Segment.frames] using hf) }
  | .dht ts =>
    obtain ⟨dc, ac, e, e1, e2⟩ := parseDht_complete d r ts hok hl
    refine ⟨{ d with dc := dc, ac := ac }, ?_, ?_⟩
    · show parseMarker o 0xC4 d _ = _
      rw [parseMarker, if_neg (by omega), if_neg (by omega), if_neg (by omega), if_neg (by omega), if_neg (by omega), if_neg (by omega), if_pos rfl]
      exact e
    · exact
      { qt := fun j => by simpa [Segment.qtabs] using h.qt j
        dc := by simpa [Segment.htabs, List.flatMap_append] using h.dc.append e1
        ac := by simpa [Segment.htabs, List.flatMap_append] using h.ac.append e2
        restart := by simpa [Segment.dris] using h.restart
        todo := by simpa [Segment.dris] using h.todo
        exif := by simpa [Segment.exif, Segment.under] using h.exif
        xmp := by simpa [Segment.xmp, Segment.under] using h.xmp
        iptc := by simpa [Segment.iptc, Segment.under] using h.iptc
        mpf := by simpa [Segment.mpf, Segment.under] using h.mpf
        gain := by simpa [Segment.gain, Segment.under] using h.gain
        icc := by simpa [Segment.icc, Segment.under] using h.icc
        mjpeg := by simpa [Segment.avi, Segment.under] using h.mjpeg
        space := by simpa [spaceAfter, Segment.adobe, Segment.under] using h.space
        zorder := h.zorder
        none := fun hf => h.none (by simpa [Segment.frames] using hf)
        one := fun m f hf => h.one m f (by simpa [Segment.frames] using hf) }
  | .frame m f =>
    obtain ⟨hm, hfo⟩ := hok
    have hnone : l.flatMap Segment.frames = [] := by
      rw [List.flatMap_append, List.length_append] at hf
      exact List.eq_nil_of_length_eq_zero (Nat.le_zero.1 (Nat.le_of_succ_le_succ hf))
    obtain ⟨n1, n2, n3, n4⟩ := h.none hnone
    refine ⟨afterF { d with prog := decide (m = 0xC2) } f, ?_, ?_⟩
    · show parseMarker o m d (body f.bytes ++ r) = _
      unfold parseMarker
      by_cases hc : m = 0xC0 ∨ m = 0xC1
      · rw [if_pos hc]
        have : decide (m = 0xC2) = d.prog := by rw [n2]; simp; omega
        rw [this]
        exact (parseSof_iff o d _ _ _).2 ⟨n1, f, ⟨hfo, hk⟩, rfl, rfl⟩
      · have hc2 : m = 0xC2 := by omega
        rw [if_neg hc, if_pos hc2]
        exact (parseSof_iff o _ _ _ _).2 ⟨n1, f, ⟨hfo, hk⟩, rfl, by simp [hc2]⟩
    · exact
      { qt := fun j => by simpa [Segment.qtabs, afterF] using h.qt j
        dc := by simpa [Segment.htabs, afterF] using h.dc
        ac := by simpa [Segment.htabs, afterF] using h.ac
        restart := by simpa [Segment.dris, afterF] using h.restart
        todo := by simpa [Segment.dris, afterF] using h.todo
        exif := by simpa [Segment.exif, Segment.under, afterF] using h.exif
        xmp := by simpa [Segment.xmp, Segment.under, afterF] using h.xmp
        iptc := by simpa [Segment.iptc, Segment.under, afterF] using h.iptc
        mpf := by simpa [Segment.mpf, Segment.under, afterF] using h.mpf
        gain := by simpa [Segment.gain, Segment.under, afterF] using h.gain
        icc := by simpa [Segment.icc, Segment.under, afterF] using h.icc
        mjpeg := by simpa [Segment.avi, Segment.under, afterF] using h.mjpeg
        space := by
          rw [List.foldl_append, ← h.space]
          rfl
        zorder := h.zorder
        none := fun hf => by simp [Segment.frames] at hf
        one := fun m' f' hf' => by
          rw [List.flatMap_append, hnone] at hf'
          simp only [List.nil_append, List.flatMap_cons, List.flatMap_nil, List.append_nil, Segment.frames, List.cons.injEq, and_true,
            Prod.mk.injEq] at hf'
          obtain ⟨rfl, rfl⟩ := hf'
          exact ⟨rfl, rfl, rfl, rfl, rfl, rfl⟩ }
  | .dri n =>
    refine ⟨{ d with restart := n, todo := n }, ?_, ?_⟩
    · show parseMarker o 0xDD d _ = _
      rw [parseMarker, if_neg (by omega), if_neg (by omega), if_neg (by omega), if_neg (by omega), if_neg (by omega), if_neg (by omega),
        if_neg (by omega), if_neg (by omega), if_neg (by omega), if_neg (by omega), if_pos rfl]
      exact dri_ok d n r hok
    · exact
      { qt := fun j => by simpa [Segment.qtabs] using h.qt j
        dc := by simpa [Segment.htabs] using h.dc
        ac := by simpa [Segment.htabs] using h.ac
        restart := by simp [Segment.dris, List.flatMap_append]
        todo := by simp [Segment.dris, List.flatMap_append]
        exif := by simpa [Segment.exif, Segment.under] using h.exif
        xmp := by simpa [Segment.xmp, Segment.under] using h.xmp
        iptc := by simpa [Segment.iptc, Segment.under] using h.iptc
        mpf := by simpa [Segment.mpf, Segment.under] using h.mpf
        gain := by simpa [Segment.gain, Segment.under] using h.gain
        icc := by simpa [Segment.icc, Segment.under] using h.icc
        mjpeg := by simpa [Segment.avi, Segment.under] using h.mjpeg
        space := by simpa [spaceAfter, Segment.adobe, Segment.under] using h.space
        zorder := h.zorder
        none := fun hf => h.none (by simpa [Segment.frames] using hf)
        one := fun m f hf => h.one m f (by simpa [Segment.frames] using hf) }
  | .data m b => exact step_data o l d m b r h hok hk hl

theorem code_ok (s : Segment) (h : s.Ok) : s.code < 256 ∧ s.code ≠ 255 ∧ s.code ≠ 0 ∧ s.code ≠ 0xDA := by
  match s with
  | .dqt _ => simp [Segment.code]
  | .dht _ => simp [Segment.code]
  | .dri _ => simp [Segment.code]
  | .frame m f =>
    have := h.1
    show m < 256 ∧ m ≠ 255 ∧ m ≠ 0 ∧ m ≠ 0xDA
    omega
  | .data m b =>
    have : (0xE0 ≤ m ∧ m ≤ 0xEF) ∨ m = 0xFE := h
    show m < 256 ∧ m ≠ 255 ∧ m ≠ 0 ∧ m ≠ 0xDA
    omega

/-- Bytes without meaning before markers: none with strict options, none equal to FF. -/
def GapOk (o : HdrOpts) (g : Gap) : Prop := (∀ b ∈ g.junk, b ≠ 255) ∧ (o.strict = true → g.junk = [])

theorem loop_all (o : HdrOpts) (g : Gap) (c : Scan) (rest : Bytes) (hg : GapOk o g) (l : List (Gap × Segment)) :
    ∀ (pre : List Segment) (d : Hdr) (f last cnt : Nat), SegHolds pre d → last ≠ 255 → cnt ≤ 2 →
    (∀ x ∈ l, GapOk o x.1 ∧ x.2.Ok ∧ Known o x.2 ∧ x.2.params.length + 2 < 65536) →
    (bytesOf l ++ (g.marker 0xDA ++ (body c.bytes ++ rest))).length ≤ f →
    (∃ m fr, (pre ++ l.map (·.2)).flatMap Segment.frames = [(m, fr)] ∧ (fr.comps.map (·.id)).Nodup ∧ c.Ok (fr.comps.map (·.id))) →
    ∃ d', SegHolds (pre ++ l.map (·.2)) d' ∧
      hdrLoop o f last cnt d (bytesOf l ++ (g.marker 0xDA ++ (body c.bytes ++ rest))) =
        .ok (finishHdr (afterScan d' c), rest) := by
  induction l with
  | nil =>
    intro pre d f last cnt hd hl hc _ hf hfr
    rw [List.map_nil, List.append_nil] at hfr ⊢
    refine ⟨d, hd, ?_⟩
    obtain ⟨m, fr, e1, e2, e3⟩ := hfr
    obtain ⟨o1, o2, o3, o4, o5, o6⟩ := hd.one m fr e1
    have hids : d.comps.map (·.id) = fr.comps.map (·.id) := by
      rw [o4, List.map_map]; rfl
    have hflat : bytesOf [] ++ (g.marker 0xDA ++ (body c.bytes ++ rest)) =
        g.junk ++ (List.replicate (g.fill + 1) 255 ++ UInt8.ofNat 0xDA :: (body c.bytes ++ rest)) := by
      simp [bytesOf, Gap.marker]
    rw [hflat] at hf ⊢
    simp only [List.length_append, List.length_replicate, List.length_cons] at hf
    obtain ⟨f', rfl⟩ : ∃ f', f = f' + (g.junk.length + 2) := ⟨f - (g.junk.length + 2), by omega⟩
    rw [loop_marker o 0xDA (by omega) (by omega) (by omega) d _ g.fill g.junk f' last cnt hg.1 hl
      (fun q => by rw [hg.2 q]; simpa using hc), parseMarker, if_neg (by omega), if_neg (by omega), if_neg (by omega), if_neg (by omega),
      if_neg (by omega), if_neg (by omega), if_neg (by omega), if_pos rfl,
      (parseSos_iff d (afterScan d c) _ rest (by rw [o3, o4, List.length_map]) (by rw [hids]; exact e2)).2
        ⟨c, by rw [hids]; exact e3, rfl, rfl⟩]
    rfl
  | cons x l ih =>
    intro pre d f last cnt hd hl hc hx hf hfr
    obtain ⟨gx, s⟩ := x
    obtain ⟨g1, s1, s2, s3⟩ := hx _ List.mem_cons_self
    simp only at g1 s1 s2 s3
    obtain ⟨c1, c2, c3, c4⟩ := code_ok s s1
    have hflat : bytesOf ((gx, s) :: l) ++ (g.marker 0xDA ++ (body c.bytes ++ rest)) =
        gx.junk ++ (List.replicate (gx.fill + 1) 255 ++ UInt8.ofNat s.code :: (body s.params ++
          (bytesOf l ++ (g.marker 0xDA ++ (body c.bytes ++ rest))))) := by
      simp [bytesOf, Gap.marker]
    rw [hflat] at hf ⊢
    simp only [List.length_append, List.length_replicate, List.length_cons] at hf
    obtain ⟨f', rfl⟩ : ∃ f', f = f' + (gx.junk.length + 2) := ⟨f - (gx.junk.length + 2), by omega⟩
    have hsplit : pre ++ ((gx, s) :: l).map (·.2) = (pre ++ [s]) ++ l.map (·.2) := by simp
    rw [hsplit] at hfr ⊢
    obtain ⟨d1, e1, e2⟩ := segStep o pre d s (bytesOf l ++ (g.marker 0xDA ++ (body c.bytes ++ rest))) hd s1 s2 s3 (by
      obtain ⟨m, fr, q, _⟩ := hfr
      rw [List.flatMap_append] at q
      have := congrArg List.length q
      simp only [List.length_append, List.length_cons, List.length_nil] at this
      omega)
    obtain ⟨d', p1, p2⟩ := ih (pre ++ [s]) d1 f' s.code 1 e2 c2 (by omega) (fun y hy => hx y (List.mem_cons_of_mem _ hy))
      (by simp only [List.length_append]; omega) hfr
    refine ⟨d', p1, ?_⟩
    rw [loop_marker o s.code c1 c2 c3 d _ gx.fill gx.junk f' last cnt g1.1 hl (fun q => by rw [g1.2 q]; simpa using hc), e1]
    simp only [Except.bind]
    rw [if_neg c4, p2]

end Zune.Jpeg
