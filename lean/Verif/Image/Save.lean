/- C126: pictures saved as QOI, PPM and farbfeld files, and opened again. -/
import Verif.Image.SaveModel
import Verif.Image.Encode
import Verif.Image.Make
import Verif.Image.Guess
import Verif.Qoi.Props
import Verif.Ppm.Props
import Verif.Farbfeld.Props

namespace Zune.Save

open Zune.Imageprocs (ColorSpace)
open Zune.Depth (BitDepth Samples)
open Zune.Color (Image Err Env Encoder Known Colored meaning Planes sizeOf byteLen typed)
open Zune.Bytestream (usizeLim)

/-! ### Specification -/

/-- What is left of a picture that has been saved and opened, when its colour space and depth are kept: one frame, and no sign that alpha was
    multiplied in. -/
def firstFrame (i : Image) (f : List Samples) : Image := { i with premultiplied := false, frames := [f] }

/-- The picture has pixels, and the limits of the decoder and of the machine allow its size. -/
structure Size (o : Opts) (i : Image) : Prop where
  wide : 1 ≤ i.width ∧ i.width < 2 ^ 32 ∧ i.width ≤ o.maxW
  high : 1 ≤ i.height ∧ i.height < 2 ^ 32 ∧ i.height ≤ o.maxH
  fits : i.width * i.height * 8 + 100 < usizeLim

/-- The first sample of the picture. -/
def firstSample (f : List Samples) : Option Nat :=
  match f with
  | .u8 (v :: _) :: _ => some v.toNat
  | .u16 (v :: _) :: _ => some v.toNat
  | _ => none

/-- The first byte a PPM file has after its header, for a first sample: the sample, or its high byte. -/
def firstByte (d : BitDepth) (v : Nat) : Nat := if d = .sixteen then v / 256 else v

/-- White space, or the start of a comment, in a PPM header. -/
def Swallowed (b : Nat) : Prop := b ∈ [9, 10, 12, 13, 32, 35]

/-! ### Lemmas -/

theorem planes_back {α : Type} (z : α) (three : List α → List α → List α → List α → Except Split.Err (List α × List α × List α))
    (ht : ∀ n, 0 < n → ∀ ps : List (List α), ps ≠ [] → (∀ p ∈ ps, p.length = n) →
      Split.deinterleave z three n ps.flatten = .ok (Split.Spec.planes n ps))
    (w h : Nat) (hm : 0 < w * h) (cs : List (List α)) (hne : cs ≠ []) (hc : ∀ c ∈ cs, c.length = w * h) (hs : w * h * cs.length < 2 ^ 64) (l : List α)
    (hl : Split.flatten cs = .ok l) :
    l.length = w * h * cs.length ∧ Make.fromPixels z three l w h cs.length = some (Make.newImage cs w h cs.length) := by
  obtain ⟨ps, h1, h2, h3⟩ := Split.exists_transpose (w * h) cs hc
  have hn : 0 < cs.length := List.length_pos_iff.2 hne
  have e := Split.flatten_planes hn ps h1
  rw [h3, hl] at e
  simp only [Except.ok.injEq] at e
  have hlen : l.length = w * h * cs.length := by
    rw [e, Split.flatten_length h1, h2]; ring
  refine ⟨hlen, ?_⟩
  unfold Make.fromPixels Make.checkedMul
  have hwh : w * h < 2 ^ 64 := lt_of_le_of_lt (Nat.le_mul_of_pos_right _ hn) hs
  rw [if_pos ⟨hwh, hs⟩]
  simp only
  rw [if_pos hlen, e, ht cs.length hn ps (by rintro rfl; rw [List.length_nil] at h2; omega) h1, h3]

theorem flatten_ok {α : Type} (m : Nat) (cs : List (List α)) (hne : cs ≠ []) (hc : ∀ c ∈ cs, c.length = m) :
    ∃ l, Split.flatten cs = .ok l := by
  obtain ⟨ps, h1, h2, h3⟩ := Split.exists_transpose m cs hc
  have e := Split.flatten_planes (List.length_pos_iff.2 hne) ps h1
  rw [h3] at e
  exact ⟨_, e⟩

theorem flatten_head {α : Type} : ∀ (cs : List (List α)) (l : List α) (v : α) (t : List α) (r : List (List α)),
    cs = (v :: t) :: r → (∀ c ∈ r, c.length = (v :: t).length) → Split.flatten cs = .ok l → l.head? = some v := by
  intro cs l v t r hcs hr hl
  have hc : ∀ c ∈ cs, c.length = t.length + 1 := by
    intro c hcm
    rw [hcs] at hcm
    rcases List.mem_cons.1 hcm with rfl | hx
    · rfl
    · exact hr c hx
  obtain ⟨ps, h1, h2, h3⟩ := Split.exists_transpose (t.length + 1) cs hc
  have hn : 0 < cs.length := by rw [hcs]; simp
  have e := Split.flatten_planes hn ps h1
  rw [h3, hl] at e
  simp only [Except.ok.injEq] at e
  have h0 : Split.Spec.plane 0 ps = v :: t := by
    have : (Split.Spec.planes cs.length ps)[0]? = cs[0]? := by rw [h3]
    rw [hcs] at this
    simpa [Split.Spec.planes] using this
  cases ps with
  | nil => simp at h2
  | cons p ps =>
    have hp := h1 p (by simp)
    cases p with
    | nil => simp at hp; omega
    | cons x p =>
      rw [e]
      simp only [Split.Spec.plane, List.filterMap_cons, List.getElem?_cons_zero] at h0
      simp only [List.flatten_cons, List.cons_append, List.head?_cons]
      exact congrArg some (List.cons.inj h0).1

theorem asU8_map (cs : List (List UInt8)) : (cs.map Samples.u8).mapM asU8 = some cs := by
  induction cs with
  | nil => rfl
  | cons c cs ih => rw [List.map_cons, List.mapM_cons, ih]; rfl

theorem asU16_map (cs : List (List UInt16)) : (cs.map Samples.u16).mapM asU16 = some cs := by
  induction cs with
  | nil => rfl
  | cons c cs ih => rw [List.map_cons, List.mapM_cons, ih]; rfl

theorem frame_u8 {i : Image} (h : i.Ok) (hd : i.depth = .eight) : ∀ f : List Samples, (∀ c ∈ f, i.Fits c) →
    ∃ cs : List (List UInt8), f = cs.map .u8 ∧ ∀ c ∈ cs, c.length = i.width * i.height
  | [], _ => ⟨[], rfl, by simp⟩
  | c :: f, hf => by
    obtain ⟨cs, e, hc⟩ := frame_u8 h hd f (fun x hx => hf x (by simp [hx]))
    obtain ⟨ht, hb⟩ := hf c (by simp)
    rw [hd] at ht
    cases c <;> simp only [typed] at ht
    rename_i l
    refine ⟨l :: cs, by rw [e]; rfl, ?_⟩
    intro x hx
    rcases List.mem_cons.1 hx with rfl | hx
    · rw [Image.size, hd] at hb
      simpa [byteLen, Color.sizeOf] using hb
    · exact hc x hx

theorem frame_u16 {i : Image} (h : i.Ok) (hd : i.depth = .sixteen) : ∀ f : List Samples, (∀ c ∈ f, i.Fits c) →
    ∃ cs : List (List UInt16), f = cs.map .u16 ∧ ∀ c ∈ cs, c.length = i.width * i.height
  | [], _ => ⟨[], rfl, by simp⟩
  | c :: f, hf => by
    obtain ⟨cs, e, hc⟩ := frame_u16 h hd f (fun x hx => hf x (by simp [hx]))
    obtain ⟨ht, hb⟩ := hf c (by simp)
    rw [hd] at ht
    cases c <;> simp only [typed] at ht
    rename_i l
    refine ⟨l :: cs, by rw [e]; rfl, ?_⟩
    intro x hx
    rcases List.mem_cons.1 hx with rfl | hx
    · rw [Image.size, hd] at hb
      simp only [byteLen, Color.sizeOf] at hb
      have : 2 * x.length = 2 * (i.width * i.height) := by rw [hb]; ring
      omega
    · exact hc x hx

theorem mapM_head {β γ : Type} (F : β → Option γ) (l : List β) (x : β) (t : List β) (y : γ) (hl : l = x :: t) (hF : ∀ a ∈ l, (F a).isSome)
    (hx : F x = some y) : (l.mapM F).bind List.head? = some y := by
  rw [Color.mapM_isSome y F l hF, hl]
  simp [hx]

/-- The bytes of an 8 bit picture, and the picture made from them. -/
theorem first8 {i : Image} (h : i.Ok) (hd : i.depth = .eight) (hn : 0 < i.cs.numComponents) (hp : 0 < i.width * i.height)
    (hs : i.width * i.height * i.cs.numComponents < 2 ^ 64) (f : List Samples) (fs : List (List Samples)) (hf : i.frames = f :: fs) :
    ∃ l : List UInt8, firstBytes i = some l ∧ l.length = i.width * i.height * i.cs.numComponents ∧
      (∀ isa, fromU8 isa l i.width i.height i.cs = some (firstFrame i f)) ∧
      ∀ v, firstSample f = some v → ∃ b : UInt8, b.toNat = v ∧ l.head? = some b := by
  have key : ∀ g ∈ i.frames, ∃ cs : List (List UInt8), g = cs.map .u8 ∧ (∀ c ∈ cs, c.length = i.width * i.height) ∧
      cs.length = i.cs.numComponents ∧ ∃ l, Split.flatten cs = .ok l ∧ flatU8 g = some l := by
    intro g hg
    obtain ⟨cs, e, hc⟩ := frame_u8 h hd g (h.fits g hg)
    have hcount := h.count g hg
    rw [e, List.length_map] at hcount
    obtain ⟨l, hl⟩ := flatten_ok _ cs (by rintro rfl; simp at hcount; omega) hc
    refine ⟨cs, e, hc, hcount, l, hl, ?_⟩
    unfold flatU8
    rw [e, asU8_map, Option.bind_some, hl]
    rfl
  obtain ⟨cs, e, hc, hcount, l, hl, hfl⟩ := key f (by rw [hf]; simp)
  have hne : cs ≠ [] := by rintro rfl; simp at hcount; omega
  have hb := fun isa => planes_back 0 (Split.three isa) (fun n hn ps => Split.c29_planes_u8 isa n hn ps) i.width i.height hp cs hne hc
    (by rw [hcount]; exact hs) l hl
  refine ⟨l, ?_, ?_, ?_, ?_⟩
  · unfold firstBytes toU8
    rw [hd]
    simp only
    exact mapM_head flatU8 i.frames f fs l hf (fun a ha => by obtain ⟨_, _, _, _, l', _, e'⟩ := key a ha; rw [e']; rfl) hfl
  · rw [(hb .scalar).1, hcount]
  · intro isa
    unfold fromU8
    rw [← hcount, (hb isa).2]
    simp only [Option.map_some, Make.newImage, List.map_cons, List.map_nil, firstFrame, ← e]
    rw [← hd]
  · intro v hv
    rw [e] at hv
    match cs, hv, hc, hl with
    | (b :: t) :: r, hv, hc, hl =>
      refine ⟨b, by simpa [firstSample] using hv, flatten_head _ l b t r rfl ?_ hl⟩
      intro c hcm
      rw [hc c (by simp [hcm]), hc (b :: t) (by simp)]

/-- The bytes of a 16 bit picture, and the picture made from them. -/
theorem first16 {i : Image} (h : i.Ok) (hd : i.depth = .sixteen) (hn : 0 < i.cs.numComponents) (hp : 0 < i.width * i.height)
    (hs : i.width * i.height * i.cs.numComponents < 2 ^ 64) (f : List Samples) (fs : List (List Samples)) (hf : i.frames = f :: fs) :
    ∃ l : List UInt16, firstBytes i = some (l.flatMap fun v => leBytes 2 v.toNat) ∧ l.length = i.width * i.height * i.cs.numComponents ∧
      fromU16 l i.width i.height i.cs = some (firstFrame i f) ∧
      ∀ v, firstSample f = some v → ∃ b : UInt16, b.toNat = v ∧ l.head? = some b := by
  have key : ∀ g ∈ i.frames, ∃ cs : List (List UInt16), g = cs.map .u16 ∧ (∀ c ∈ cs, c.length = i.width * i.height) ∧
      cs.length = i.cs.numComponents ∧ ∃ l, Split.flatten cs = .ok l ∧ flatU16 g = some (l.flatMap fun v => leBytes 2 v.toNat) := by
    intro g hg
    obtain ⟨cs, e, hc⟩ := frame_u16 h hd g (h.fits g hg)
    have hcount := h.count g hg
    rw [e, List.length_map] at hcount
    have hne : cs ≠ [] := by rintro rfl; simp at hcount; omega
    obtain ⟨l, hl⟩ := flatten_ok _ cs hne hc
    refine ⟨cs, e, hc, hcount, l, hl, ?_⟩
    unfold flatU16
    rw [e, asU16_map, Option.bind_some, Make.u16Bytes_eq Make.ne16 (fun v => by simp [Make.ne16]) _ cs hne hc l hl]
    rfl
  obtain ⟨cs, e, hc, hcount, l, hl, hfl⟩ := key f (by rw [hf]; simp)
  have hne : cs ≠ [] := by rintro rfl; simp at hcount; omega
  have hb := planes_back (0 : UInt16) (fun l a b c => .ok (Split.split3 l a b c)) (fun n hn ps => Split.c29_planes 0 n hn ps) i.width i.height hp
    cs hne hc (by rw [hcount]; exact hs) l hl
  refine ⟨l, ?_, ?_, ?_, ?_⟩
  · unfold firstBytes toU8
    rw [hd]
    simp only
    exact mapM_head flatU16 i.frames f fs _ hf (fun a ha => by obtain ⟨_, _, _, _, l', _, e'⟩ := key a ha; rw [e']; rfl) hfl
  · rw [hb.1, hcount]
  · unfold fromU16
    rw [← hcount, hb.2]
    simp only [Option.map_some, Make.newImage, List.map_cons, List.map_nil, firstFrame, ← e]
    rw [← hd]
  · intro v hv
    rw [e] at hv
    match cs, hv, hc, hl with
    | (b :: t) :: r, hv, hc, hl =>
      refine ⟨b, by simpa [firstSample] using hv, flatten_head _ l b t r rfl ?_ hl⟩
      intro c hcm
      rw [hc c (by simp [hcm]), hc (b :: t) (by simp)]

/-- `read` on a file whose signature is that of a format. -/
theorem read_of (isa : Split.Isa) (o : Opts) (other : Guess.Format → List UInt8 → Option Image) (file : List UInt8) (f : Guess.Format)
    (hs : Guess.Signature f file) (hl : Guess.need f ≤ file.length) (hb : file.length < usizeLim) :
    read isa o other file = match f with
      | .QOI => readQoi isa o file
      | .PPM => readPpm isa o file
      | .Farbfeld => readFarbfeld o file
      | f => other f file := by
  have h := (Guess.c53_exact (Bytestream.Cursor.new file) ⟨by simp [Bytestream.Cursor.new, usizeLim], hb⟩
    (by simp [Bytestream.Cursor.new, usizeLim]) f (Bytestream.Cursor.new file)).2
    ⟨by simpa [Bytestream.Cursor.new, Bytestream.Cursor.rest] using hs,
     by simpa [Bytestream.Cursor.new, Bytestream.Cursor.rest] using hl, rfl⟩
  have hr : (Bytestream.Cursor.new file).rest = file := by simp [Bytestream.Cursor.new, Bytestream.Cursor.rest]
  unfold read
  rw [h]
  cases f <;> simp [hr]

theorem decimal_length (k n : Nat) (h : n < 10 ^ (k + 1)) : (Ppm.decimal n).length ≤ k + 1 := by
  induction k generalizing n with
  | zero => rw [Ppm.decimal, if_pos (by omega)]; simp
  | succ k ih =>
    rw [Ppm.decimal]
    split
    · simp
    · rw [List.length_append]
      have := ih (n / 10) (by rw [pow_succ] at h; omega)
      simp only [List.length_cons, List.length_nil]
      omega

theorem decimal_pos (n : Nat) : 0 < (Ppm.decimal n).length := by
  rw [Ppm.decimal]
  split <;> simp

theorem header_length (w h : Nat) (cs : Ppm.Cs) (s : Bool) (hw : w < 2 ^ 32) (hh : h < 2 ^ 32) :
    8 ≤ (Ppm.header w h cs s).length ∧ (Ppm.header w h cs s).length ≤ 100 := by
  have h1 := decimal_length 9 w (by omega)
  have h2 := decimal_length 9 h (by omega)
  have h3 := decimal_length 4 (Ppm.maxVal s) (by cases s <;> decide)
  have h4 := decimal_length 0 2 (by decide)
  have h5 := decimal_length 0 4 (by decide)
  have p1 := decimal_pos w
  have p2 := decimal_pos h
  have p3 := decimal_pos (Ppm.maxVal s)
  cases cs <;> simp only [Ppm.header, List.length_append, List.length_cons, List.length_nil] <;> omega

theorem header_signature (w h : Nat) (cs : Ppm.Cs) (s : Bool) (t : List UInt8) : Guess.Signature .PPM (Ppm.header w h cs s ++ t) := by
  cases cs
  · exact ⟨'5', by simp, by simp [Ppm.header, Guess.ascii]⟩
  · exact ⟨'7', by simp, by simp [Ppm.header, Guess.ascii]⟩
  · exact ⟨'6', by simp, by simp [Ppm.header, Guess.ascii]⟩
  · exact ⟨'7', by simp, by simp [Ppm.header, Guess.ascii]⟩

theorem area_pos {o : Opts} {i : Image} (hs : Size o i) : 0 < i.width * i.height := Nat.mul_pos hs.wide.1 hs.high.1

theorem area_lt {o : Opts} {i : Image} (hs : Size o i) (n : Nat) (hn : n ≤ 8) : i.width * i.height * n + 100 < usizeLim :=
  lt_of_le_of_lt (Nat.add_le_add_right (Nat.mul_le_mul_left _ hn) _) hs.fits

/-- Writing and reading an 8 bit picture in RGB or RGBA. -/
theorem qoi_back (isa : Split.Isa) (o : Opts) (other : Guess.Format → List UInt8 → Option Image) {i : Image} (h : i.Ok)
    (hd : i.depth = .eight) (hc : i.cs = .RGB ∨ i.cs = .RGBA) (hs : Size o i) (f : List Samples) (fs : List (List Samples))
    (hf : i.frames = f :: fs) :
    ∃ file, qoiInner i = .ok file ∧ read isa o other file = some (firstFrame i f) := by
  have hn : 0 < i.cs.numComponents ∧ i.cs.numComponents ≤ 4 := by rcases hc with e | e <;> rw [e] <;> decide
  obtain ⟨cs, hcs, hcn, hback⟩ : ∃ cs, qoiCs i.cs = some cs ∧ cs.n = i.cs.numComponents ∧
      qoiColor cs = i.cs := by
    rcases hc with e | e <;> rw [e]
    · exact ⟨.rgb, rfl, rfl, rfl⟩
    · exact ⟨.rgba, rfl, rfl, rfl⟩
  have hlt := area_lt hs i.cs.numComponents (by omega)
  obtain ⟨l, h1, h2, h3, _⟩ := first8 h hd hn.1 (area_pos hs) (by unfold usizeLim at hlt; omega) f fs hf
  rw [← hcn] at h2
  have henc := Qoi.encode_ok i.width i.height cs l hs.wide.2.1 hs.high.2.1 h2
  obtain ⟨out, e1, e2⟩ := Qoi.c01_roundtrip ⟨o.maxW, o.maxH, o.strict⟩ i.width i.height cs l hs.wide hs.high h2
  have hsz := Qoi.c02_size _ _ _ _ _ e1
  have hlt5 := area_lt hs (cs.n + 1) (by rw [hcn]; omega)
  have hout : out.length < usizeLim := by omega
  refine ⟨out, ?_, ?_⟩
  · unfold qoiInner
    rw [h1, hcs]
    simp only
    rw [e1]
    rfl
  · have hform := henc
    rw [e1] at hform
    simp only [Except.ok.injEq] at hform
    rw [read_of isa o other out .QOI (by rw [hform]; simp [Guess.Signature, Guess.ascii])
      (by rw [hform]; simp [Guess.need]) hout]
    simp only [readQoi]
    rw [e2 hout]
    simp only
    rw [hback]
    exact h3 isa

/-- What the PPM encoder writes. -/
theorem ppm_file (o : Opts) {i : Image} (hs : Size o i) (cs : Ppm.Cs) (s : Bool) (data : List UInt8)
    (hl : data.length = i.width * (if s then 2 else 1) * i.height * cs.comps) (file : List UInt8)
    (he : Ppm.encode i.width i.height cs s data = .ok file) :
    Guess.Signature .PPM file ∧ 8 ≤ file.length ∧ file.length < usizeLim := by
  unfold Ppm.encode at he
  simp only at he
  rw [hl] at he
  by_cases ho : i.width * (if s then 2 else 1) * i.height * cs.comps + 100 ≥ usizeLim
  · rw [if_pos ho] at he; simp at he
  rw [if_neg ho, if_neg (by simp)] at he
  simp only [Except.ok.injEq] at he
  have hh := header_length i.width i.height cs s hs.wide.2.1 hs.high.2.1
  have hbe : ∀ n, ∀ d : List UInt8, d.length ≤ n → (Farbfeld.samplesBE d).length ≤ d.length := by
    intro n
    induction n with
    | zero => intro d hd; cases d <;> simp_all [Farbfeld.samplesBE]
    | succ n ih =>
      intro d hd
      match d, hd with
      | [], _ => simp [Farbfeld.samplesBE]
      | [_], _ => simp [Farbfeld.samplesBE]
      | a :: b :: t, hd =>
        simp only [Farbfeld.samplesBE, List.length_cons] at hd ⊢
        have := ih t (by omega)
        omega
  have hd : (if s then Farbfeld.samplesBE data else data).length ≤ data.length := by
    cases s
    · simp
    · exact hbe _ data (le_refl _)
  have hc : cs.comps ≤ 4 := by cases cs <;> decide
  have hle : data.length ≤ i.width * i.height * 8 := by
    rw [hl]
    have e : i.width * (if s then 2 else 1) * i.height * cs.comps = i.width * i.height * ((if s then 2 else 1) * cs.comps) := by ring
    rw [e]
    apply Nat.mul_le_mul_left
    cases s <;> simp <;> omega
  have hfit := hs.fits
  rw [← he]
  refine ⟨header_signature _ _ _ _ _, ?_, ?_⟩
  · rw [List.length_append]; omega
  · rw [List.length_append]; omega

theorem ppmCs_of {c : ColorSpace} (hc : c ∈ [ColorSpace.RGB, .Luma, .RGBA, .LumaA]) :
    ∃ cs, ppmCs c = some cs ∧ cs.comps = c.numComponents ∧
      ppmColor cs = c := by
  simp only [List.mem_cons, List.not_mem_nil, or_false] at hc
  rcases hc with rfl | rfl | rfl | rfl
  · exact ⟨.rgb, rfl, rfl, rfl⟩
  · exact ⟨.luma, rfl, rfl, rfl⟩
  · exact ⟨.rgba, rfl, rfl, rfl⟩
  · exact ⟨.lumaA, rfl, rfl, rfl⟩

theorem firstSample_some {i : Image} (h : i.Ok) (hd : i.depth = .eight ∨ i.depth = .sixteen) (hn : 0 < i.cs.numComponents)
    (hp : 0 < i.width * i.height) (f : List Samples) (hf : f ∈ i.frames) : ∃ v, firstSample f = some v := by
  have hc := h.count f hf
  rcases hd with hd | hd
  · obtain ⟨cs, e, hl⟩ := frame_u8 h hd f (h.fits f hf)
    rw [e, List.length_map] at hc
    match cs, e, hl, hc with
    | [], _, _, hc => simp at hc; omega
    | [] :: _, _, hl, _ => have := hl [] (by simp); rw [List.length_nil] at this; omega
    | (v :: t) :: r, e, _, _ => exact ⟨v.toNat, by rw [e]; rfl⟩
  · obtain ⟨cs, e, hl⟩ := frame_u16 h hd f (h.fits f hf)
    rw [e, List.length_map] at hc
    match cs, e, hl, hc with
    | [], _, _, hc => simp at hc; omega
    | [] :: _, _, hl, _ => have := hl [] (by simp); rw [List.length_nil] at this; omega
    | (v :: t) :: r, e, _, _ => exact ⟨v.toNat, by rw [e]; rfl⟩

theorem swallowed_iff (b : UInt8) : b ∈ ([9, 10, 12, 13, 32, 35] : List UInt8) ↔ Swallowed b.toNat := by
  revert b
  unfold Swallowed
  decide +kernel

/-- Writing and reading an 8 or 16 bit picture in a colour space of the encoder: it comes back unless the first byte is swallowed. -/
theorem ppm_back (isa : Split.Isa) (o : Opts) (other : Guess.Format → List UInt8 → Option Image) {i : Image} (h : i.Ok)
    (hd : i.depth = .eight ∨ i.depth = .sixteen) (hc : i.cs ∈ [ColorSpace.RGB, .Luma, .RGBA, .LumaA]) (hs : Size o i) (f : List Samples)
    (fs : List (List Samples)) (hf : i.frames = f :: fs) (v : Nat) (hv : firstSample f = some v) :
    ∃ file, ppmInner i = .ok file ∧ (¬ Swallowed (firstByte i.depth v) → read isa o other file = some (firstFrame i f)) ∧
      (Swallowed (firstByte i.depth v) → read isa o other file = none) := by
  obtain ⟨cs, hcs, hcn, hback⟩ := ppmCs_of hc
  have hn : 0 < i.cs.numComponents ∧ i.cs.numComponents ≤ 4 := by rw [← hcn]; cases cs <;> decide
  have hlt := area_lt hs i.cs.numComponents (by omega)
  have hlt2 := area_lt hs (i.cs.numComponents * 2) (by omega)
  rcases hd with hd | hd
  · obtain ⟨l, h1, h2, h3, h4⟩ := first8 h hd hn.1 (area_pos hs) (by unfold usizeLim at hlt; omega) f fs hf
    obtain ⟨b, hb, hhead⟩ := h4 v hv
    rw [← hcn] at h2
    have inner : ∀ file, Ppm.encode i.width i.height cs false l = .ok file → ppmInner i = .ok file := by
      intro file e
      unfold ppmInner
      rw [h1, hcs]
      simp only [hd, reduceCtorEq, decide_false]
      rw [e]
      rfl
    have hstart : Ppm.Spec.plainStart l ↔ ¬ Swallowed (firstByte i.depth v) := by
      unfold Ppm.Spec.plainStart firstByte
      rw [hhead, if_neg (by rw [hd]; decide), ← hb, ← swallowed_iff]
      simp
    have hl' : l.length = i.width * (if false then 2 else 1) * i.height * cs.comps := by rw [h2]; simp
    by_cases hsw : Ppm.Spec.plainStart l
    · obtain ⟨file, e1, e2⟩ := Ppm.c10_roundtrip8_partial o.maxW o.maxH i.width i.height cs l hs.wide.1 hs.high.1 hs.wide.2.2 hs.high.2.2 h2
        (by rw [hcn]; exact hlt) hsw
      refine ⟨file, inner file e1, fun _ => ?_, fun k => absurd k (hstart.1 hsw)⟩
      obtain ⟨g1, g2, g3⟩ := ppm_file o hs cs false l hl' file e1
      rw [read_of isa o other file .PPM g1 g2 g3]
      simp only [readPpm]
      rw [e2]
      simp only
      rw [hback]
      exact h3 isa
    · obtain ⟨file, e1, e2⟩ := Ppm.c10_whitespace_fails o.maxW o.maxH i.width i.height cs l hs.wide.1 hs.high.1 hs.wide.2.2 hs.high.2.2 h2
        (by rw [hcn]; exact hlt) hsw
      refine ⟨file, inner file e1, fun k => absurd (hstart.2 k) hsw, fun _ => ?_⟩
      obtain ⟨g1, g2, g3⟩ := ppm_file o hs cs false l hl' file e1
      rw [read_of isa o other file .PPM g1 g2 g3]
      simp only [readPpm]
      rw [e2]
  · obtain ⟨l, h1, h2, h3, h4⟩ := first16 h hd hn.1 (area_pos hs) (by unfold usizeLim at hlt; omega) f fs hf
    obtain ⟨b, hb, hhead⟩ := h4 v hv
    rw [← hcn] at h2
    have hdata : (l.flatMap fun v => leBytes 2 v.toNat) = (l.map UInt16.toNat).flatMap (leBytes 2) := by
      rw [List.flatMap_map]
    have inner : ∀ file, Ppm.encode i.width i.height cs true ((l.map UInt16.toNat).flatMap (leBytes 2)) = .ok file → ppmInner i = .ok file := by
      intro file e
      unfold ppmInner
      rw [h1, hcs]
      simp only [hd, decide_true]
      rw [hdata, e]
      rfl
    have hback16 : (l.map UInt16.toNat).map UInt16.ofNat = l := by
      rw [List.map_map]
      conv_rhs => rw [← List.map_id l]
      apply List.map_congr_left
      intro x _
      simp
    have hm : (l.map UInt16.toNat).length = i.width * i.height * cs.comps := by rw [List.length_map, h2]
    have hl' : ((l.map UInt16.toNat).flatMap (leBytes 2)).length = i.width * (if true then 2 else 1) * i.height * cs.comps := by
      rw [show (l.map UInt16.toNat).flatMap (leBytes 2) = Farbfeld.Spec.native (l.map UInt16.toNat) from rfl, Farbfeld.native_length, hm]
      simp only [if_true]
      ring
    have hby : (UInt8.ofNat (v / 256)).toNat = firstByte i.depth v := by
      unfold firstByte
      rw [if_pos hd]
      have : v < 65536 := by rw [← hb]; exact b.toNat_lt
      simp
      omega
    have hhd : (l.map UInt16.toNat).head? = some v := by rw [List.head?_map, hhead, Option.map_some, hb]
    by_cases hsw : Swallowed (firstByte i.depth v)
    · obtain ⟨file, e1, e2⟩ := Ppm.c10_whitespace16_fails o.maxW o.maxH i.width i.height cs (l.map UInt16.toNat) hs.wide.1 hs.high.1 hs.wide.2.2
        hs.high.2.2 hm (by rw [hcn, Nat.mul_assoc]; exact hlt2) ⟨v, hhd, by rw [swallowed_iff, hby]; exact hsw⟩
      refine ⟨file, inner file e1, fun k => absurd hsw k, fun _ => ?_⟩
      obtain ⟨g1, g2, g3⟩ := ppm_file o hs cs true _ hl' file e1
      rw [read_of isa o other file .PPM g1 g2 g3]
      simp only [readPpm]
      rw [e2]
    · obtain ⟨file, e1, e2⟩ := Ppm.c10_roundtrip16_partial o.maxW o.maxH i.width i.height cs (l.map UInt16.toNat) hs.wide.1 hs.high.1 hs.wide.2.2
        hs.high.2.2 hm (by intro x hx; obtain ⟨y, _, rfl⟩ := List.mem_map.1 hx; exact y.toNat_lt)
        (by rw [hcn, Nat.mul_assoc]; exact hlt2)
        (by intro x hx; rw [hhd] at hx; cases hx; rw [swallowed_iff, hby]; exact hsw)
      refine ⟨file, inner file e1, fun _ => ?_, fun k => absurd k hsw⟩
      obtain ⟨g1, g2, g3⟩ := ppm_file o hs cs true _ hl' file e1
      rw [read_of isa o other file .PPM g1 g2 g3]
      simp only [readPpm]
      rw [e2]
      simp only
      rw [hback, hback16]
      exact h3

/-- Writing a 16 bit RGBA picture as farbfeld and reading it. -/
theorem farbfeld_back (isa : Split.Isa) (o : Opts) (other : Guess.Format → List UInt8 → Option Image) {i : Image} (h : i.Ok)
    (hd : i.depth = .sixteen) (hc : i.cs = .RGBA) (hs : Size o i) :
    ∃ file, farbfeldInner i = .ok file ∧ read isa o other file = none := by
  obtain ⟨f, fs, hf⟩ := List.exists_cons_of_ne_nil h.nonempty
  have hn : i.cs.numComponents = 4 := by rw [hc]; rfl
  have hlt := area_lt hs i.cs.numComponents (by omega)
  obtain ⟨l, h1, h2, _, _⟩ := first16 h hd (by omega) (area_pos hs) (by unfold usizeLim at hlt; omega) f fs hf
  have hm : (l.map UInt16.toNat).length = 4 * i.width * i.height := by rw [List.length_map, h2, hn]; ring
  have hfit : i.width * 2 * i.height * 4 + 20 < usizeLim := by
    have := hs.fits
    have e : i.width * 2 * i.height * 4 = i.width * i.height * 8 := by ring
    omega
  have he := Farbfeld.c09_encoder_partial i.width i.height (l.map UInt16.toNat) hm hs.wide.2.1 hs.high.2.1 hfit
  obtain ⟨file, e1, e2⟩ := Farbfeld.c09_decode_always_fails o.maxW o.maxH i.width i.height (l.map UInt16.toNat) hm hs.wide.1 hs.high.1
    hs.wide.2.1 hs.high.2.1 hs.wide.2.2 hs.high.2.2 hfit
  rw [e1] at he
  simp only [Except.ok.injEq] at he
  refine ⟨file, ?_, ?_⟩
  · unfold farbfeldInner
    rw [if_neg (by simp [hd]), h1]
    simp only
    rw [if_neg (by simp [hc]), show (l.flatMap fun v => leBytes 2 v.toNat) = Farbfeld.Spec.native (l.map UInt16.toNat) by
      rw [Farbfeld.Spec.native, List.flatMap_map], e1]
    rfl
  · rw [read_of isa o other file .Farbfeld (by rw [he]; simp [Guess.Signature, Guess.ascii, Farbfeld.Spec.file])
      (by rw [he]; simp [Guess.need, Farbfeld.Spec.file])
      (by
        rw [he]
        simp only [Farbfeld.Spec.file, List.length_append, Farbfeld.be_flat_length, hm, beBytes_length, List.length_cons, List.length_nil]
        have e : 2 * (4 * i.width * i.height) = i.width * 2 * i.height * 4 := by ring
        omega)]
    simp only [readFarbfeld]
    rw [e2]
    cases Farbfeld.decodeHeaders o.maxW o.maxH file <;> rfl

/-! ### C126 -/

/-- **C126** (QOI, pictures the format can hold).  Every well formed 8 bit picture in RGB or RGBA is written as a QOI file that `read`, guessing the
    format from the bytes, opens as the picture: the same size, colour space and first frame.  (That further frames and the mark of premultiplied
    alpha are lost is seen in `firstFrame`.) -/
theorem c126_qoi_exact (env : Env) (isa : Split.Isa) (o : Opts) (other : Guess.Format → List UInt8 → Option Image) (i : Image) (h : i.Ok)
    (hd : i.depth = .eight) (hc : i.cs = .RGB ∨ i.cs = .RGBA) (hs : Size o i) :
    ∃ file f fs, i.frames = f :: fs ∧ writeToVec env .qoi i = .ok file ∧ read isa o other file = some (firstFrame i f) := by
  obtain ⟨f, fs, hf⟩ := List.exists_cons_of_ne_nil h.nonempty
  obtain ⟨file, e1, e2⟩ := qoi_back isa o other h hd hc hs f fs hf
  refine ⟨file, f, fs, hf, ?_, e2⟩
  have hn : 0 < i.cs.numComponents := by rcases hc with e | e <;> rw [e] <;> decide
  have hcm : i.cs ∈ (Color.qoiEncoder qoiInner).colorspaces := by rcases hc with e | e <;> rw [e] <;> simp [Color.qoiEncoder]
  have hdm : i.depth ∈ (Color.qoiEncoder qoiInner).depths := by rw [hd]; simp [Color.qoiEncoder]
  unfold writeToVec Color.encode
  simp only [Color.confirm_ok h hn, hcm, hdm, not_true_eq_false, false_or, if_false]
  split
  · exact e1
  · exact e1

/-- The picture of the examples: two frames of two pixels. -/
def exPicture (cs : ColorSpace) (pre : Bool) (f g : List Samples) : Image := ⟨cs, .eight, 2, 1, pre, [f, g]⟩

example : (exPicture .RGBA true [.u8 [1, 2], .u8 [3, 4], .u8 [5, 6], .u8 [7, 8]] [.u8 [9, 2], .u8 [3, 4], .u8 [5, 6], .u8 [7, 8]]).Ok ∧
    Size ⟨100, 100, true⟩ (exPicture .RGBA true [.u8 [1, 2], .u8 [3, 4], .u8 [5, 6], .u8 [7, 8]]
      [.u8 [9, 2], .u8 [3, 4], .u8 [5, 6], .u8 [7, 8]]) ∧
    ((writeToVec (Color.env0 .scalar) .qoi (exPicture .RGBA true [.u8 [1, 2], .u8 [3, 4], .u8 [5, 6], .u8 [7, 8]]
      [.u8 [9, 2], .u8 [3, 4], .u8 [5, 6], .u8 [7, 8]])).toOption.bind (read .scalar ⟨100, 100, true⟩ fun _ _ => none)) =
      some ⟨.RGBA, .eight, 2, 1, false, [[.u8 [1, 2], .u8 [3, 4], .u8 [5, 6], .u8 [7, 8]]]⟩ :=
  ⟨Color.ok_of (by decide) (by decide) (by decide) (by decide), ⟨by decide, by decide, by decide⟩, by decide +kernel⟩

/-- **C126** (QOI, all pictures).  Every well formed picture in RGB, RGBA, BGR, BGRA, Luma or LumaA, of any depth, is written as a QOI file that
    `read` opens as an 8 bit picture of the same size with one frame, whose red, green and blue planes are those of the first frame after the
    depth conversion, and which has alpha exactly if the picture had it, converted in the same way. -/
theorem c126_qoi (env : Env) (isa : Split.Isa) (o : Opts) (other : Guess.Format → List UInt8 → Option Image) (i : Image) (h : i.Ok)
    (hk : Known i.cs) (ha : i.cs ≠ .ARGB) (hs : Size o i) :
    ∃ file f fs f' p q, i.frames = f :: fs ∧ writeToVec env .qoi i = .ok file ∧
      read isa o other file = some ⟨if i.cs.hasAlpha then .RGBA else .RGB, .eight, i.width, i.height, false, [f']⟩ ∧
      meaning i.cs f = some p ∧ meaning (if i.cs.hasAlpha then .RGBA else .RGB) f' = some q ∧ p.Deep i.depth .eight q := by
  obtain ⟨j, e1, hok, hcs, hdep, hw, hh, hjc, _, hall⟩ := Color.c54_encode_partial env (Color.qoiEncoder qoiInner)
    (Color.sensible_all qoiInner).2.2.2.2.2.2 i h hk ha
  have hjc' : j.cs = if i.cs.hasAlpha then .RGBA else .RGB := by
    rw [hjc]
    split
    · rename_i hm
      simp only [Color.qoiEncoder, List.mem_cons, List.not_mem_nil, or_false] at hm
      rcases hm with e | e <;> rw [e] <;> rfl
    · rfl
  have hd8 : j.depth = .eight := by simpa [Color.qoiEncoder] using hdep
  have hjs : Size o j := ⟨by rw [hw]; exact hs.wide, by rw [hh]; exact hs.high, by rw [hw, hh]; exact hs.fits⟩
  obtain ⟨f', fs', hf'⟩ := List.exists_cons_of_ne_nil hok.nonempty
  obtain ⟨file, e2, e3⟩ := qoi_back isa o other hok hd8 (by rw [hjc']; cases i.cs.hasAlpha <;> simp) hjs f' fs' hf'
  obtain ⟨f, fs, hf⟩ := List.exists_cons_of_ne_nil h.nonempty
  rw [hf, hf'] at hall
  obtain ⟨p, q, hp, hq, hdeep⟩ := (List.forall₂_cons.1 hall).1
  refine ⟨file, f, fs, f', p, q, hf, ?_, ?_, hp, by rw [← hjc']; exact hq, ?_⟩
  · unfold writeToVec
    rw [e1]
    exact e2
  · rw [e3]
    simp only [firstFrame, hw, hh, hd8, hjc']
  · rw [hd8] at hdeep
    have hfit : p.fit i.opaque j.cs = p := by
      rw [hjc']
      have := Color.fit_self hp i.opaque
      rw [← this]
      unfold Planes.fit
      cases i.cs.hasAlpha <;> simp [ColorSpace.hasAlpha]
    rw [hfit] at hdeep
    exact hdeep

example : let i : Image := ⟨.LumaA, .sixteen, 2, 1, false, [[.u16 [257, 514], .u16 [65535, 0]]]⟩
    i.Ok ∧ Known i.cs ∧ i.cs ≠ .ARGB ∧ Size ⟨100, 100, true⟩ i ∧
    ((writeToVec (Color.env0 .scalar) .qoi i).toOption.bind (read .sse3 ⟨100, 100, true⟩ fun _ _ => none)) =
      some ⟨.RGBA, .eight, 2, 1, false, [[.u8 [1, 2], .u8 [1, 2], .u8 [1, 2], .u8 [255, 0]]]⟩ :=
  ⟨Color.ok_of (by decide) (by decide) (by decide) (by decide), Or.inr (Or.inr rfl), by decide, ⟨by decide, by decide, by decide⟩,
    by decide +kernel⟩

theorem ppm_write (env : Env) {i : Image} (h : i.Ok) (hd : i.depth = .eight ∨ i.depth = .sixteen)
    (hc : i.cs ∈ [ColorSpace.RGB, .Luma, .RGBA, .LumaA]) (file : List UInt8) (e : ppmInner i = .ok file) :
    writeToVec env .ppm i = .ok file := by
  have hn : 0 < i.cs.numComponents := by
    simp only [List.mem_cons, List.not_mem_nil, or_false] at hc
    rcases hc with e | e | e | e <;> rw [e] <;> decide
  have hdm : i.depth ∈ (Color.ppmEncoder ppmInner).depths := by rcases hd with e | e <;> rw [e] <;> simp [Color.ppmEncoder]
  have hcm : i.cs ∈ (Color.ppmEncoder ppmInner).colorspaces := hc
  unfold writeToVec Color.encode
  simp only [Color.confirm_ok h hn, hcm, hdm, not_true_eq_false, false_or, if_false]
  split
  · exact e
  · exact e

/-- **C126** (PPM).  Every well formed 8 or 16 bit picture in Luma, LumaA, RGB or RGBA is written as a PPM or PAM file that `read` opens as the
    picture, with the same size, colour space, depth and first frame.  Missing: pictures whose first sample, or its high byte, is the number of
    a white space character or `#`, for which it is false (`c126_ppm_wrong`). -/
theorem c126_ppm_partial (env : Env) (isa : Split.Isa) (o : Opts) (other : Guess.Format → List UInt8 → Option Image) (i : Image) (h : i.Ok)
    (hd : i.depth = .eight ∨ i.depth = .sixteen) (hc : i.cs ∈ [ColorSpace.RGB, .Luma, .RGBA, .LumaA]) (hs : Size o i)
    (f : List Samples) (fs : List (List Samples)) (hf : i.frames = f :: fs)
    (hp : ∀ v, firstSample f = some v → ¬ Swallowed (firstByte i.depth v)) :
    ∃ file, writeToVec env .ppm i = .ok file ∧ read isa o other file = some (firstFrame i f) := by
  have hn : 0 < i.cs.numComponents := by
    simp only [List.mem_cons, List.not_mem_nil, or_false] at hc
    rcases hc with e | e | e | e <;> rw [e] <;> decide
  obtain ⟨v, hv⟩ := firstSample_some h hd hn (area_pos hs) f (by rw [hf]; simp)
  obtain ⟨file, e1, e2, _⟩ := ppm_back isa o other h hd hc hs f fs hf v hv
  exact ⟨file, ppm_write env h hd hc file e1, e2 (hp v hv)⟩

example : let i : Image := ⟨.LumaA, .sixteen, 2, 1, false, [[.u16 [257, 514], .u16 [65535, 0]]]⟩
    i.Ok ∧ Size ⟨100, 100, true⟩ i ∧ (∀ v, firstSample [.u16 [257, 514], .u16 [65535, 0]] = some v → ¬ Swallowed (firstByte i.depth v)) ∧
    ((writeToVec (Color.env0 .scalar) .ppm i).toOption.bind (read .sse2 ⟨100, 100, true⟩ fun _ _ => none)) = some i :=
  ⟨Color.ok_of (by decide) (by decide) (by decide) (by decide), ⟨by decide, by decide, by decide⟩,
    fun v hv => by cases hv; unfold Swallowed; decide, by decide +kernel⟩

/-- **C126** (PPM, all pictures).  Every well formed picture in RGB, RGBA, BGR, BGRA, Luma or LumaA, of any depth, is written as a PPM or PAM file
    that `read` opens as a picture of the same size with one frame; the colour space is kept, or is RGB for BGR and BGRA (whose alpha is
    dropped), the depth is kept, or is 16 bit for floats, and the planes are those of the first frame after the depth conversion.  Missing: as in
    `c126_ppm_partial`, for the first sample after the conversion. -/
theorem c126_ppm_converted_partial (env : Env) (isa : Split.Isa) (o : Opts) (other : Guess.Format → List UInt8 → Option Image) (i : Image) (h : i.Ok)
    (hk : Known i.cs) (ha : i.cs ≠ .ARGB) (hs : Size o i) :
    let cs := if i.cs = .BGR ∨ i.cs = .BGRA then .RGB else i.cs
    let d := if i.depth = .eight then .eight else .sixteen
    ∃ file f fs f' p q, i.frames = f :: fs ∧ writeToVec env .ppm i = .ok file ∧
      meaning i.cs f = some p ∧ meaning cs f' = some q ∧
      (if i.cs = .BGRA then { p with a := none } else p).Deep i.depth d q ∧
      ((∀ v, firstSample f' = some v → ¬ Swallowed (firstByte d v)) →
        read isa o other file = some ⟨cs, d, i.width, i.height, false, [f']⟩) := by
  intro cs d
  obtain ⟨j, e1, hok, hcs, hdep, hw, hh, hjc, hjd, hall⟩ := Color.c54_encode_partial env (Color.ppmEncoder ppmInner)
    (Color.sensible_all ppmInner).2.2.2.2.2.1 i h hk ha
  have hc : j.cs = cs := by
    rw [hjc]
    unfold cs
    rcases hk with (e | e | e | e | e) | e | e <;> first | exact absurd e ha | (rw [e]; rfl)
  have hd : j.depth = d := by
    rw [hjd]
    unfold d
    cases i.depth <;> simp [Color.ppmEncoder, Color.deepDepth]
  have hjs : Size o j := ⟨by rw [hw]; exact hs.wide, by rw [hh]; exact hs.high, by rw [hw, hh]; exact hs.fits⟩
  have hd2 : j.depth = .eight ∨ j.depth = .sixteen := by rw [hd]; unfold d; split <;> simp
  have hn : 0 < j.cs.numComponents := by
    simp only [Color.ppmEncoder, List.mem_cons, List.not_mem_nil, or_false] at hcs
    rcases hcs with e | e | e | e <;> rw [e] <;> decide
  obtain ⟨f', fs', hf'⟩ := List.exists_cons_of_ne_nil hok.nonempty
  obtain ⟨v, hv⟩ := firstSample_some hok hd2 hn (area_pos hjs) f' (by rw [hf']; simp)
  obtain ⟨file, e2, e3, _⟩ := ppm_back isa o other hok hd2 hcs hjs f' fs' hf' v hv
  obtain ⟨f, fs, hf⟩ := List.exists_cons_of_ne_nil h.nonempty
  rw [hf, hf'] at hall
  obtain ⟨p, q, hp, hq, hdeep⟩ := (List.forall₂_cons.1 hall).1
  refine ⟨file, f, fs, f', p, q, hf, by unfold writeToVec; rw [e1]; exact e2, hp, by rw [← hc]; exact hq, ?_, ?_⟩
  · have hfit : p.fit i.opaque j.cs = if i.cs = .BGRA then { p with a := none } else p := by
      rw [hc]
      have := Color.fit_self hp i.opaque
      unfold cs
      rcases hk with (e | e | e | e | e) | e | e <;> first | exact absurd e ha | skip
      all_goals
        rw [e] at this ⊢
        first
          | exact this
          | rfl
    rw [← hfit, ← hd]
    exact hdeep
  · intro hx
    rw [e3 (by rw [hd]; exact hx v hv)]
    simp only [firstFrame, hw, hh, hd, hc]

example : let i : Image := ⟨.BGRA, .float32, 2, 1, false, [[.f32 [⟨1, 0⟩, ⟨0, 0⟩], .f32 [⟨0, 0⟩, ⟨1, 0⟩], .f32 [⟨1, 1⟩, ⟨1, 0⟩], .f32 [⟨1, 0⟩, ⟨1, 1⟩]]]⟩
    i.Ok ∧ Known i.cs ∧ i.cs ≠ .ARGB ∧ Size ⟨100, 100, true⟩ i ∧
    ((writeToVec (Color.env0 .scalar) .ppm i).toOption.bind (read .scalar ⟨100, 100, true⟩ fun _ _ => none)) =
      some ⟨.RGB, .sixteen, 2, 1, false, [[.u16 [32767, 65535], .u16 [0, 65535], .u16 [65535, 0]]]⟩ :=
  ⟨Color.ok_of (by decide) (by decide) (by decide) (by decide), Or.inl (Or.inr (Or.inr (Or.inr (Or.inl rfl)))), by decide,
    ⟨by decide, by decide, by decide⟩, by decide +kernel⟩

/-- **C126** (PPM, disagreement, general).  Every such picture whose first sample, or its high byte, is 9, 10, 12, 13, 32 or 35 is written without an
    error, but the file can not be opened. -/
theorem c126_ppm_wrong (env : Env) (isa : Split.Isa) (o : Opts) (other : Guess.Format → List UInt8 → Option Image) (i : Image) (h : i.Ok)
    (hd : i.depth = .eight ∨ i.depth = .sixteen) (hc : i.cs ∈ [ColorSpace.RGB, .Luma, .RGBA, .LumaA]) (hs : Size o i)
    (f : List Samples) (fs : List (List Samples)) (hf : i.frames = f :: fs) (v : Nat) (hv : firstSample f = some v)
    (hp : Swallowed (firstByte i.depth v)) :
    ∃ file, writeToVec env .ppm i = .ok file ∧ read isa o other file = none := by
  obtain ⟨file, e1, _, e2⟩ := ppm_back isa o other h hd hc hs f fs hf v hv
  exact ⟨file, ppm_write env h hd hc file e1, e2 hp⟩

example : let i : Image := ⟨.Luma, .eight, 2, 1, false, [[.u8 [35, 200]]]⟩
    i.Ok ∧ Size ⟨100, 100, true⟩ i ∧ firstSample [.u8 [35, 200]] = some 35 ∧ Swallowed (firstByte i.depth 35) :=
  ⟨Color.ok_of (by decide) (by decide) (by decide) (by decide), ⟨by decide, by decide, by decide⟩, rfl, by unfold Swallowed; decide⟩

/-- **C126** (farbfeld, disagreement, general).  Every well formed picture in RGB, RGBA, BGR, BGRA, Luma or LumaA, of any depth, is written as a
    farbfeld file without an error, but the file can not be opened. -/
theorem c126_farbfeld_wrong (env : Env) (isa : Split.Isa) (o : Opts) (other : Guess.Format → List UInt8 → Option Image) (i : Image) (h : i.Ok)
    (hk : Known i.cs) (ha : i.cs ≠ .ARGB) (hs : Size o i) :
    ∃ file, writeToVec env .farbfeld i = .ok file ∧ read isa o other file = none := by
  obtain ⟨j, e1, hok, hcs, hdep, hw, hh, _, _, _⟩ := Color.c54_encode_partial env (Color.farbfeldEncoder farbfeldInner)
    (Color.sensible_all farbfeldInner).1 i h hk ha
  have hjs : Size o j := ⟨by rw [hw]; exact hs.wide, by rw [hh]; exact hs.high, by rw [hw, hh]; exact hs.fits⟩
  obtain ⟨file, e2, e3⟩ := farbfeld_back isa o other hok (by simpa [Color.farbfeldEncoder] using hdep)
    (by simpa [Color.farbfeldEncoder] using hcs) hjs
  refine ⟨file, ?_, e3⟩
  unfold writeToVec
  rw [e1]
  exact e2

example : let i : Image := ⟨.RGB, .eight, 2, 1, false, [[.u8 [1, 2], .u8 [3, 4], .u8 [5, 6]]]⟩
    i.Ok ∧ Known i.cs ∧ i.cs ≠ .ARGB ∧ Size ⟨100, 100, true⟩ i :=
  ⟨Color.ok_of (by decide) (by decide) (by decide) (by decide), Or.inl (Or.inl rfl), by decide, ⟨by decide, by decide, by decide⟩⟩

/-- **C126** (premultiplied alpha, disagreement, general).  A picture marked as premultiplied comes back with the same samples and without the
    mark, that is, with other colours: the picture itself never comes back. -/
theorem c126_premultiplied_wrong (env : Env) (isa : Split.Isa) (o : Opts) (other : Guess.Format → List UInt8 → Option Image) (i : Image) (h : i.Ok)
    (hd : i.depth = .eight) (hc : i.cs = .RGBA) (hs : Size o i) (f : List Samples) (hf : i.frames = [f]) (hp : i.premultiplied = true) :
    ∃ file, writeToVec env .qoi i = .ok file ∧ read isa o other file = some { i with premultiplied := false } ∧
      read isa o other file ≠ some i := by
  obtain ⟨file, g, gs, hg, e1, e2⟩ := c126_qoi_exact env isa o other i h hd (Or.inr hc) hs
  rw [hf] at hg
  obtain ⟨rfl, rfl⟩ := List.cons.inj hg
  have e3 : firstFrame i f = { i with premultiplied := false } := by unfold firstFrame; rw [← hf]
  refine ⟨file, e1, by rw [e2, e3], ?_⟩
  rw [e2, e3]
  intro hx
  have := congrArg (fun x : Option Image => x.map Image.premultiplied) hx
  simp [hp] at this

example : let i : Image := ⟨.RGBA, .eight, 1, 1, true, [[.u8 [10], .u8 [20], .u8 [30], .u8 [40]]]⟩
    i.Ok ∧ Size ⟨100, 100, true⟩ i ∧ i.premultiplied = true :=
  ⟨Color.ok_of (by decide) (by decide) (by decide) (by decide), ⟨by decide, by decide, by decide⟩, rfl⟩

end Zune.Save
