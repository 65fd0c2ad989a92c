import Verif.Png.Model

/-!
# zune-png: the other chunks, animations (model)

`PngDecoder` with all chunks it knows (`headers/readers.rs`), its frames (`decoder.rs`), `post_process_image` (`apng.rs`) and the
loop over the frames of `zune-image/src/codecs/png.rs`.  The decoder is the record `Dec`; the stream is what is left of the bytes.
Paths are relative to crates/zune-png/src if not said otherwise.
-/

namespace Zune.Png

open Zune.Stream

/-- `fdAT` (decoder.rs:359). -/
def nfdAT : List UInt8 := [0x66, 0x64, 0x41, 0x54]

/-- `ItxtChunk`, `TextChunk`, `ZtxtChunk` (decoder.rs:78-106). -/
structure Text where
  keyword : List UInt8
  text : List UInt8
  deriving DecidableEq, Repr

/-- `TimeInfo` (decoder.rs:66-76). -/
structure Time where
  year : Nat
  month : Nat
  day : Nat
  hour : Nat
  minute : Nat
  second : Nat
  deriving DecidableEq, Repr

/-- `DisposeOp` (apng.rs:29-40). -/
inductive Dispose | none | background | previous
  deriving DecidableEq, Repr

/-- `BlendOp` (apng.rs:42-51). -/
inductive Blend | source | over
  deriving DecidableEq, Repr

/-- `FrameInfo` (apng.rs:74-102). -/
structure FrameInfo where
  seq : Int
  width : Nat
  height : Nat
  x : Nat
  y : Nat
  delayNum : Nat
  delayDen : Nat
  dispose : Dispose
  blend : Blend
  /-- `is_part_of_seq` -/
  inSeq : Bool
  deriving DecidableEq, Repr

/-- `PngInfo` (decoder.rs:110-142) and `actl_info`; `st` holds what is modelled in `Png/Model.lean`. -/
structure Info where
  st : St := {}
  /-- number of frames, number of plays -/
  actl : Option (Nat × Nat) := none
  time : Option Time := none
  icc : Option (List UInt8) := none
  itxt : List Text := []
  ztxt : List Text := []
  text : List Text := []
  deriving DecidableEq, Repr

/-- `PngDecoder` (decoder.rs:158-174).  `frames` holds `fdat` and `fctl_info` of a `SingleFrame` (apng.rs:105-112); the information
    is never `None`, as the first chunk is IHDR, which sets it (headers/readers.rs:118-131).  `st.idat` is not used here. -/
structure Dec where
  info : Info := {}
  frames : List (List UInt8 × FrameInfo) := []
  /-- `previous_stride` -/
  scratch : List UInt8 := []
  seenHeaders : Bool := false
  seenIend : Bool := false
  /-- `current_frame` -/
  current : Nat := 0
  /-- `stream` -/
  s : List UInt8
  deriving DecidableEq, Repr

/-- The type of `zune_inflate::DeflateDecoder::decode_zlib`. -/
abbrev Zlib := Inflate.Options → List UInt8 → Except Inflate.Err (List UInt8)

/-- `peek_at(0, n).unwrap()` (headers/readers.rs:296, 324, 342, 363, 376, 393, 409, 428, 448). -/
def peek (n : Nat) (s : List UInt8) : Except Err (List UInt8) := if s.length < n then .error .panic else .ok (s.take n)

/-- headers/readers.rs:240-260 `parse_actl`.  (There is no `return` after the wrong length.) -/
def parseActl (d : Dec) (len : Nat) : Except Err Dec :=
  let s := if len ≠ 8 then skip (len + 4) d.s else d.s
  let (n, s) := getBe 4 s
  let (p, s) := getBe 4 s
  .ok { d with info.actl := some (n, p), s := skip 4 s }

/-- headers/readers.rs:263-293 `parse_time`. -/
def parseTime (o : DecOpts) (d : Dec) (len : Nat) : Except Err Dec :=
  if len ≠ 7 then (if o.strict then .error .generic else .ok { d with s := skip (len + 4) d.s })
  else
    let (year, s) := getBe 2 d.s
    let (month, s) := u8 s
    let (day, s) := u8 s
    let (hour, s) := u8 s
    let (minute, s) := u8 s
    let (second, s) := u8 s
    .ok { d with
      info.time := some ⟨year, month.toNat % 13, day.toNat % 32, hour.toNat % 24, minute.toNat % 60, second.toNat % 61⟩
      s := skip 4 s }

/-- headers/readers.rs:323-325, 362-364, 392-394, 427-429: the place of the first zero among at most 79 bytes. -/
def keywordAt (len : Nat) (s : List UInt8) : Except Err (Option Nat) :=
  match peek (min len 79) s with
  | .error e => .error e
  | .ok k => .ok (k.findIdx? (· = 0))

/-- headers/readers.rs:322-358 `parse_iccp`. -/
def parseIccp (zlib : Zlib) (d : Dec) (len : Nat) : Except Err Dec := do
  match ← keywordAt len d.s with
  | some pos =>
    let s := (u8 (skip (pos + 1) d.s)).2
    let rem := len - pos - 1 - 1
    let data ← peek rem s
    let icc := match zlib {} data with | .ok x => some x | .error _ => d.info.icc
    .ok { d with info.icc := icc, s := skip 4 (skip rem s) }
  | none => .ok { d with s := skip 4 (skip len d.s) }

/-- headers/readers.rs:361-389 `parse_text`. -/
def parseText (d : Dec) (len : Nat) : Except Err Dec := do
  match ← keywordAt len d.s with
  | some pos =>
    let s := skip (pos + 1) d.s
    let rem := len - pos - 1
    let t ← peek rem s
    .ok { d with info.text := d.info.text ++ [⟨d.s.take pos, t⟩], s := skip 4 (skip rem s) }
  | none => .ok { d with s := skip 4 (skip len d.s) }

/-- headers/readers.rs:391-423 `parse_itxt`. -/
def parseItxt (d : Dec) (len : Nat) : Except Err Dec := do
  match ← keywordAt len d.s with
  | some pos =>
    let n := pos + 1 + 1 + 1 + 1 + 1
    let s := skip n d.s
    let rem := len - n
    let t ← peek rem s
    .ok { d with info.itxt := d.info.itxt ++ [⟨d.s.take pos, t⟩], s := skip 4 (skip rem s) }
  | none => .ok { d with s := skip 4 (skip len d.s) }

/-- headers/readers.rs:426-468 `parse_ztxt`. -/
def parseZtxt (zlib : Zlib) (d : Dec) (len : Nat) : Except Err Dec := do
  match ← keywordAt len d.s with
  | some pos =>
    let s := (u8 (skip (pos + 1) d.s)).2
    let rem := len - pos - 1 - 1
    let data ← peek rem s
    let z := match zlib {} data with | .ok x => d.info.ztxt ++ [⟨d.s.take pos, x⟩] | .error _ => d.info.ztxt
    .ok { d with info.ztxt := z, s := skip 4 (skip rem s) }
  | none => .ok { d with s := skip 4 (skip len d.s) }

/-- The frame made by `parse_ihdr` (headers/readers.rs:118-131). -/
def stillInfo (st : St) : FrameInfo := ⟨-1, st.width, st.height, 0, 0, 0, 0, .none, .source, false⟩

/-- headers/readers.rs:158-180 `parse_idat`; `frames[0]` exists (see `Dec`). -/
def parseIdatA (d : Dec) (len : Nat) : Except Err Dec :=
  match d.frames, exact len d.s with
  | (a, i) :: t, some (x, s) => .ok { d with frames := (a ++ x, i) :: t, s := skip 4 s }
  | [], _ => .error .panic
  | _, none => .error .generic

/-- The chunks of `parse_header` (decoder.rs:425-467) but fcTL and IEND. -/
def plainChunk (zlib : Zlib) (o : DecOpts) (d : Dec) (len : Nat) (name : List UInt8) : Except Err Dec :=
  if name = nIHDR then
    match parseIhdr o d.info.st len d.s with
    | .error e => .error e
    | .ok (st, s) => .ok { d with info.st := st, frames := d.frames ++ [([], stillInfo st)], s := s }
  else if name = nIDAT then parseIdatA d len
  else if name = nacTL then parseActl d len
  else if name = ntIME then parseTime o d len
  else if name = niCCP then parseIccp zlib d len
  else if name = niTXt then parseItxt d len
  else if name = nzTXt then parseZtxt zlib d len
  else if name = ntEXt then parseText d len
  else
    match dispatch o d.info.st len name d.s with
    | .error e => .error e
    | .ok (st, s) => .ok { d with info.st := st, s := s }

/-- The check at the end of `parse_header` (decoder.rs:469-471). -/
def hdrSeen (r : Except Err Dec) : Except Err Dec :=
  match r with
  | .error e => .error e
  | .ok d => if d.info.st.seenHdr then .ok d else .error .generic

/-- `DisposeOp::from_int` (apng.rs:64-72). -/
def Dispose.ofByte (b : UInt8) : Except Err Dispose :=
  if b = 0 then .ok .none else if b = 1 then .ok .background else if b = 2 then .ok .previous else .error .generic

/-- `BlendOp::from_int` (apng.rs:53-61). -/
def Blend.ofByte (b : UInt8) : Except Err Blend :=
  if b = 0 then .ok .source else if b = 1 then .ok .over else .error .generic

/-- `as i32` of a `u32` (headers/readers.rs:546). -/
def asI32 (n : Nat) : Int := if n < 2 ^ 31 then n else n - 2 ^ 32

/-- headers/readers.rs:540-574 `parse_fctl_external`. -/
def parseFctlInfo (len : Nat) (s : List UInt8) : Except Err (FrameInfo × List UInt8) :=
  if len ≠ 26 then .error .generic
  else do
    let (seq, s) := getBe 4 s
    let (width, s) := getBe 4 s
    let (height, s) := getBe 4 s
    let (x, s) := getBe 4 s
    let (y, s) := getBe 4 s
    let (num, s) := getBe 2 s
    let (den, s) := getBe 2 s
    let (a, s) := u8 s
    let dispose ← Dispose.ofByte a
    let (b, s) := u8 s
    let blend ← Blend.ofByte b
    .ok (⟨asI32 seq, width, height, x, y, num, den, dispose, blend, true⟩, skip 4 s)

/-- `self.frames[0].set_fctl(fctl_info)` (headers/readers.rs:495). -/
def setFirst (i : FrameInfo) : List (List UInt8 × FrameInfo) → List (List UInt8 × FrameInfo)
  | [] => []
  | (a, _) :: t => (a, i) :: t

/-- `self.frames.last_mut().unwrap().chunk_mut()` extended (headers/readers.rs:513-521). -/
def extendLast (x : List UInt8) : List (List UInt8 × FrameInfo) → Option (List (List UInt8 × FrameInfo))
  | [] => none
  | [(a, i)] => some [(a ++ x, i)]
  | f :: t => (extendLast x t).map (f :: ·)

/-- The loop of `parse_fctl` (headers/readers.rs:481-535); `add` is `should_add_fctl`.  `rewind(8)` is the stream before
    `read_chunk_header`.  Every round reads at least eight bytes, so the number of bytes bounds the rounds. -/
def fctlLoop (zlib : Zlib) (o : DecOpts) (i : FrameInfo) : Nat → Bool → Dec → Except Err Dec
  | 0, _, _ => .error .generic
  | fuel + 1, add, d =>
    match readChunkHeader o d.s with
    | .error e => .error e
    | .ok (len, name, s) =>
      if name = nIEND then .ok { d with seenIend := true }
      else if name = nIDAT then
        match parseIdatA { d with s := s } len with
        | .error e => .error e
        | .ok d => fctlLoop zlib o i fuel false { d with frames := setFirst i d.frames }
      else if name = nfcTL then .ok d
      else if name = nfdAT then
        match exact (len - 4) (skip 4 s) with
        | none => .error .generic
        | some (x, s) =>
          match extendLast x (if add then d.frames ++ [([], i)] else d.frames) with
          | none => .error .panic
          | some fs => fctlLoop zlib o i fuel false { d with frames := fs, s := skip 4 s }
      else
        match hdrSeen (plainChunk zlib o { d with s := s } len name) with
        | .error e => .error e
        | .ok d => fctlLoop zlib o i fuel false d

/-- headers/readers.rs:471-538 `parse_fctl`. -/
def parseFctl (zlib : Zlib) (o : DecOpts) (d : Dec) (len : Nat) : Except Err Dec :=
  match parseFctlInfo len d.s with
  | .error e => .error e
  | .ok (i, s) => fctlLoop zlib o i s.length true { d with s := s }

/-- The loop of `decode_headers` (decoder.rs:406-420). -/
def headersLoop (zlib : Zlib) (o : DecOpts) : Nat → Dec → Except Err Dec
  | 0, _ => .error .generic
  | fuel + 1, d =>
    match readChunkHeader o d.s with
    | .error e => .error e
    | .ok (len, name, s) =>
      if name = nIEND then hdrSeen (.ok { d with seenIend := true, s := s })
      else if name = nfcTL then hdrSeen (parseFctl zlib o { d with s := s } len)
      else
        match hdrSeen (plainChunk zlib o { d with s := s } len name) with
        | .error e => .error e
        | .ok d => headersLoop zlib o fuel d

/-- decoder.rs:389-423 `decode_headers`. -/
def Dec.headers (zlib : Zlib) (o : DecOpts) (d : Dec) : Except Err Dec :=
  if d.seenHeaders && d.seenIend then .ok d
  else do
    let d ← if d.info.st.seenHdr then .ok d
      else match be 8 d.s with
        | none => .error .generic
        | some (sig, s) =>
          if sig ≠ signature then .error .signature
          else if (s.drop 4).take 4 ≠ nIHDR then .error .generic
          else .ok { d with s := s }
    let d ← headersLoop zlib o d.s.length d
    .ok { d with seenHeaders := true }

/-- decoder.rs:745-750 `frame_info`. -/
def Dec.frameInfo (d : Dec) : Option FrameInfo := d.frames[d.current]?.map (·.2)

/-- decoder.rs:319-321 `more_frames` (and 314-316 `is_animated`). -/
def Dec.more (d : Dec) : Bool := d.info.actl.isSome && decide (d.current < d.frames.length)

/-- The loop over the passes (decoder.rs:778-829) for a frame of `fw` by `fh` pixels; `w` is the width of the picture, which
    the rows of the output are taken to have (line 816).  As `passLoop`, which has `fw = w`. -/
def framePasses (c : Ctx) (w fw fh : Nat) : List Pass → List UInt8 → List UInt8 → List UInt8 → List UInt8 →
    Except Err (List UInt8 × List UInt8)
  | [], _, scratch, _, out => .ok (out, scratch)
  | p :: ps, data, scratch, fin, out =>
    let x := p.width fw
    let y := p.height fh
    if x ≠ 0 ∧ y ≠ 0 then
      let len := ((c.color.comps * x * c.depth + 7) / 8 + 1) * y
      if data.length < len then .error .generic
      else
        match createRaw c (data.take len) x y scratch fin with
        | .error e => .error e
        | .ok (fin, scratch) => framePasses c w fw fh ps (data.drop len) scratch fin (place p w (c.outComps * c.bytes) x y fin out)
    else framePasses c w fw fh ps data scratch fin out

/-- Output and scratch row of a frame (decoder.rs:643-656). -/
def framePixels (c : Ctx) (w : Nat) (adam7 : Bool) (i : FrameInfo) (data scratch out : List UInt8) :
    Except Err (List UInt8 × List UInt8) :=
  if adam7 then
    framePasses c w i.width i.height Zune.Png.adam7 data scratch (List.replicate (i.width * i.height * c.outComps * c.bytes) 0) out
  else createRaw c data i.width i.height scratch out

/-- decoder.rs:615-664 `decode_into_inner` after its `decode_headers`: decoder and buffer afterwards.  (Simplified: as in
    `Png/Model.lean` the size hint of the decompression does not overflow.) -/
def Dec.intoInner (zlib : Zlib) (o : DecOpts) (d : Dec) (out : List UInt8) : Except Err (Dec × List UInt8) :=
  match d.frames[d.current]? with
  | none => .error .generic
  | some (fdat, i) =>
    let c := d.info.st.ctx o
    let n := i.width * i.height * c.outComps * c.bytes
    if 2 ^ 64 ≤ n then .error .generic
    else if out.length < n then .error .generic
    else
      match zlib (d.info.st.zopts o) fdat with
      | .error _ => .error .zlib
      | .ok data =>
        match framePixels c d.info.st.width d.info.st.adam7 i data d.scratch (out.take n) with
        | .error e => .error e
        | .ok (px, scratch) =>
          let px := if d.info.st.depth = 16 ∧ o.toLE ∧ o.le then swapPairs px else px
          .ok ({ d with frames := d.frames.set d.current ([], i), scratch := scratch, current := d.current + 1 }, px ++ out.drop n)

/-- decoder.rs:588-614 `decode_into` with `called_from_decode_into = false` or without stripping to 8 bits. -/
def Dec.into (zlib : Zlib) (o : DecOpts) (d : Dec) (out : List UInt8) : Except Err (Dec × List UInt8) := do
  let d ← d.headers zlib o
  let d ← d.headers zlib o
  d.intoInner zlib o out

/-- decoder.rs:683-713 `decode_raw`.  The sizes are unwrapped: too large ones and a missing frame abort. -/
def Dec.raw (zlib : Zlib) (o : DecOpts) (d : Dec) : Except Err (Dec × List UInt8) := do
  let d ← d.headers zlib o
  let c := d.info.st.ctx o
  let newLen := d.info.st.width * d.info.st.height * c.outComps * (if d.info.st.depth = 16 ∧ ¬ o.strip then 2 else 1)
  if 2 ^ 64 ≤ newLen then .error .panic
  else
    match d.frameInfo with
    | none => .error .panic
    | some i =>
      let n := i.width * i.height * c.outComps * c.bytes
      if 2 ^ 64 ≤ n then .error .panic
      else do
        let (d, out) ← d.into zlib o (List.replicate n 0)
        .ok (d, if d.info.st.depth = 16 ∧ o.strip then (everyOther out ++ out.drop ((out.length + 1) / 2)).take newLen else out)

/-- decoder.rs:863-921 `decode` for pictures of at most eight bits, and for stripped ones (`DecodingResult::U8`).  (Simplified: the
    multiplication of line 889 does not overflow.) -/
def Dec.decode8 (zlib : Zlib) (o : DecOpts) (d : Dec) : Except Err (Dec × List UInt8) := do
  let d ← if d.seenHeaders && d.seenIend then .ok d else d.headers zlib o
  if o.strip ∧ d.info.st.depth = 16 then d.raw zlib o
  else d.into zlib { o with toLE := o.le } (List.replicate (d.info.st.width * d.info.st.height * (d.info.st.ctx o).outComps) 0)

/-! ## Rendering -/

/-- One pixel of the operation OVER (apng.rs:352-382).  The floating-point formula (lines 357-378), with the gamma, is the parameter
    `mix`: alpha, sample of the frame, sample of the canvas. -/
def overPixel (mix : UInt8 → UInt8 → UInt8 → UInt8) (src dst : List UInt8) : List UInt8 :=
  let alpha := src.getLastD 0
  if alpha = 0 then dst
  else List.zipWith (mix alpha) src.dropLast dst.dropLast ++ dst.drop (dst.length - 1)

/-- `src_width.chunks_exact(nc).zip(h_x.chunks_exact_mut(nc))` (apng.rs:350): `n` pixels. -/
def overRow (mix : UInt8 → UInt8 → UInt8 → UInt8) (nc : Nat) : Nat → List UInt8 → List UInt8 → List UInt8
  | 0, _, dst => dst
  | n + 1, src, dst => overPixel mix (src.take nc) (dst.take nc) ++ overRow mix nc n (src.drop nc) (dst.drop nc)

/-- A row of the canvas (apng.rs:311-386). -/
def postRow (mix : UInt8 → UInt8 → UInt8 → UInt8) (nc : Nat) (hasAlpha : Bool) (i : FrameInfo) (src row : List UInt8) :
    Except Err (List UInt8) :=
  let old := (row.drop (i.x * nc)).take (i.width * nc)
  match i.blend with
  | .source => .ok (row.take (i.x * nc) ++ src ++ row.drop ((i.x + i.width) * nc))
  | .over =>
    if ¬ hasAlpha then .error .panic
    else .ok (row.take (i.x * nc) ++ overRow mix nc i.width src old ++ row.drop ((i.x + i.width) * nc))

/-- The loop over the rows (apng.rs:304-310), `n` more of them. -/
def postRows (mix : UInt8 → UInt8 → UInt8 → UInt8) (w nc : Nat) (hasAlpha : Bool) (i : FrameInfo) :
    Nat → List UInt8 → List UInt8 → Except Err (List UInt8)
  | 0, _, out => .ok out
  | n + 1, cur, out =>
    if i.width * nc ≤ cur.length ∧ w * nc ≤ out.length then
      match postRow mix nc hasAlpha i (cur.take (i.width * nc)) (out.take (w * nc)) with
      | .error e => .error e
      | .ok row =>
        match postRows mix w nc hasAlpha i n (cur.drop (i.width * nc)) (out.drop (w * nc)) with
        | .error e => .error e
        | .ok rest => .ok (row ++ rest)
    else .ok out

/-- apng.rs:216-390 `post_process_image`; `w`, `h` from `info`, `nc` components; a chunk of size zero aborts. -/
def postImage (mix : UInt8 → UInt8 → UInt8 → UInt8) (w h nc : Nat) (hasAlpha : Bool) (i : FrameInfo) (cur : List UInt8)
    (prev : Option (List UInt8)) (out : List UInt8) : Except Err (List UInt8) :=
  if w < i.x + i.width then .error .generic
  else if h < i.y + i.height then .error .generic
  else if cur.length < i.height * i.width * nc then .error .generic
  else do
    let out ← match i.dispose with
      | .none => .ok out
      | .background => .ok (List.replicate out.length 0)
      | .previous =>
        match prev with
        | some p => if out.length ≠ p.length then .error .generic else .ok p
        | none => if 1 < i.seq then .error .generic else .ok out
    if i.width * nc = 0 ∨ w * nc = 0 then .error .panic
    else do
      let rest ← postRows mix w nc hasAlpha i i.height cur (out.drop (i.y * (w * nc)))
      .ok (out.take (i.y * (w * nc)) ++ rest)

/-- The loop over the frames of an animation (crates/zune-image/src/codecs/png.rs:55-84): delays and canvas of each.  Every frame
    but the first has an fcTL chunk of its own, so the number of bytes bounds their number. -/
def animLoop (zlib : Zlib) (mix : UInt8 → UInt8 → UInt8 → UInt8) (o : DecOpts) (w h nc : Nat) (hasAlpha : Bool) :
    Nat → Dec → List UInt8 → Except Err (List ((Nat × Nat) × List UInt8))
  | 0, _, _ => .error .generic
  | fuel + 1, d, out =>
    if d.more then do
      let d ← d.headers zlib o
      match d.frameInfo with
      | none => .error .panic
      | some i =>
        let i := if i.dispose = .previous then { i with dispose := .none } else i
        if d.info.st.depth = 16 ∧ ¬ o.strip then .error .generic
        else do
          let (d, px) ← d.decode8 zlib o
          let out ← postImage mix w h nc hasAlpha i px none out
          let t ← animLoop zlib mix o w h nc hasAlpha fuel d out
          .ok (((i.delayNum, i.delayDen), out) :: t)
    else .ok []

/-- The `decode` of `DecoderTrait` for animations (crates/zune-image/src/codecs/png.rs:38-90; `none`: a still picture).  `mix` as in
    `overPixel`.  A picture of 16 bits is decoded before it is refused; here it is refused at once. -/
def decodeAnim (zlib : Zlib) (mix : UInt8 → UInt8 → UInt8 → UInt8) (o : DecOpts) (s : List UInt8) :
    Except Err (Option (List ((Nat × Nat) × List UInt8))) := do
  let d ← ({ s := s } : Dec).headers zlib o
  if d.more then do
    let c := d.info.st.ctx o
    let fs ← animLoop zlib mix o d.info.st.width d.info.st.height c.outComps (c.outComps = 2 ∨ c.outComps = 4) (s.length + 1) d
      (List.replicate (d.info.st.width * d.info.st.height * c.outComps) 0)
    .ok (some fs)
  else .ok none

end Zune.Png
