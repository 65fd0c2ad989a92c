/- C130: headers and formats of files as the C interface tells them. -/
import Verif.Capi.InfoModel
import Verif.Capi.Decode
import Verif.Capi.Heap
import Verif.Capi.Props
import Verif.Qoi.Props
import Verif.Farbfeld.Props

namespace Zune.Capi

open Zune.Imageprocs (ColorSpace)
open Zune.Depth (BitDepth)
open Zune.Bytestream (usizeLim Cursor)

/-! ### Specification -/

/-- After the call the status at `p` has the code `d`, no memory is lost, and other statuses are as they were. -/
structure Reported (h g : Heap) (p : Nat) (d : Code) : Prop where
  good : g.Good
  holds : ∃ n, Holds g p n d
  size : g.live.length = h.live.length
  others : ∀ q, q ≠ p → g.status q = h.status q

/-! ### Lemmas -/

theorem report_reported {h : Heap} (hg : h.Good) {p m : Nat} {c : Code} (hh : Holds h p m c) (d : Code) :
    ∃ g, report true p d h = .ok g ∧ Reported h g p d := by
  obtain ⟨n, g, e, hg1, hh1, hperm, -, -, -, hst⟩ := c128_report h hg p m c d hh
  refine ⟨g, e, hg1, ⟨n, hh1⟩, ?_, hst⟩
  have h1 := hperm.length_eq
  rw [List.length_cons, List.length_erase_of_mem hh.message] at h1
  have := List.length_pos_of_mem hh.message
  omega

/-- What the function does, given what `decode_info` says. -/
theorem readHeaders_eq (x : Others) (file : List UInt8) {h : Heap} (hg : h.Good) {p m : Nat} {c : Code} (hh : Holds h p m c) :
    (decodeInfo x file = none → ∃ g, readHeaders x file p h = .ok (.zero, g) ∧ Reported h g p .decodeErrors) ∧
    (∀ i, decodeInfo x file = some i → ∃ g, readHeaders x file p h = .ok (ofMeta (zGuess file) i, g) ∧ Reported h g p .ok) := by
  have hp := (hg.live p hh.object).1
  obtain ⟨g, e, hr⟩ := report_reported hg hh .decodeErrors
  obtain ⟨n, hn⟩ := hr.holds
  obtain ⟨g', e', hr'⟩ := report_reported hr.good hn .ok
  constructor
  · intro hi
    refine ⟨g, ?_, hr⟩
    unfold readHeaders
    rw [if_neg (by omega), e]
    simp only [hi]
  · intro i hi
    refine ⟨g', ?_, hr'.good, hr'.holds, hr'.size.trans hr.size, fun q hq => (hr'.others q hq).trans (hr.others q hq)⟩
    unfold readHeaders
    rw [if_neg (by omega), e]
    simp only [hi, e']

theorem zGuess_of {f : Guess.Format} {file : List UInt8} (hf : IsFile f file) : zGuess file = ofFormat f := by
  unfold zGuess
  rw [(guess_of hf).1]

theorem ofMeta_small (f : ZFormat) {w h : Nat} (cs : ColorSpace) (d : BitDepth) (hw : w < 2 ^ 32) (hh : h < 2 ^ 32) :
    ofMeta f ⟨w, h, cs, d⟩ = ⟨w, h, ofDepth d, ofColor cs, f⟩ := by
  unfold ofMeta
  simp only [Nat.mod_eq_of_lt hw, Nat.mod_eq_of_lt hh]

theorem info_farbfeld (x : Others) {file : List UInt8} (hf : IsFile .Farbfeld file) {w h : Nat} {s : List UInt8}
    (hq : Farbfeld.decodeHeaders defaults.maxW defaults.maxH file = .ok (w, h, s)) : decodeInfo x file = some ⟨w, h, .RGBA, .sixteen⟩ := by
  obtain ⟨hgs, hr⟩ := guess_of hf
  unfold decodeInfo
  rw [hgs]
  simp only [hr, hq]

theorem info_qoi (x : Others) {file : List UInt8} (hf : IsFile .QOI file) {hd : Qoi.Header}
    (hq : (Qoi.decodeHeaders ⟨defaults.maxW, defaults.maxH, defaults.strict⟩ (Cursor.new file)).1 = .ok hd) :
    decodeInfo x file = some ⟨hd.w, hd.h, Save.qoiColor hd.cs, .eight⟩ := by
  obtain ⟨hgs, hr⟩ := guess_of hf
  unfold decodeInfo
  rw [hgs]
  simp only [hr, hq]

theorem p7_bound (W H : Nat) (st : Ppm.P7) (s : List UInt8) (st' : Ppm.P7) (r : List UInt8) (he : Ppm.p7Loop W H st s = .ok (st', r))
    (hw : ∀ v, st.w = some v → v ≤ W) (hh : ∀ v, st.h = some v → v ≤ H) : (∀ v, st'.w = some v → v ≤ W) ∧ ∀ v, st'.h = some v → v ≤ H := by
  fun_induction Ppm.p7Loop W H st s with
  | _ => simp_all

/-- The limits hold for every file whose headers are read. -/
theorem ppm_bound {W H : Nat} {s r : List UInt8} {hd : Ppm.Hdr} (he : Ppm.decodeHeaders W H s = .ok (hd, r)) : hd.w ≤ W ∧ hd.h ≤ H := by
  have h56 : ∀ cs s, Ppm.p56Header W H cs s = .ok (hd, r) → hd.w ≤ W ∧ hd.h ≤ H := by
    intro cs s h
    unfold Ppm.p56Header at h
    simp only at h
    split at h
    · simp at h
    split at h
    · simp at h
    split at h
    · simp at h
    simp only [Except.ok.injEq, Prod.mk.injEq] at h
    rw [← h.1]
    simp only
    omega
  unfold Ppm.decodeHeaders at he
  split at he
  · split at he
    · simp at he
    split at he
    · exact h56 _ _ he
    split at he
    · exact h56 _ _ he
    split at he
    · unfold Ppm.p7Header at he
      split at he
      · simp at he
      · next st s' hl =>
        obtain ⟨b1, b2⟩ := p7_bound W H _ _ _ _ hl (by simp) (by simp)
        split at he
        · next hw hh _ _ _ =>
          simp only [Except.ok.injEq, Prod.mk.injEq] at he
          rw [← he.1]
          exact ⟨b1 _ hw, b2 _ hh⟩
        · simp at he
    · simp at he
  · simp at he

/-! ### Theorems -/

/-- **C130** (enumerations). Formats other than WebP and all depths survive the way to C and back, and so do the values of C other than the unknown ones; the number of a depth is
the number of bytes of a sample. -/
theorem c130_enums : (∀ f : Guess.Format, f ≠ .WEBP → toFormat (ofFormat f) = some f) ∧ (∀ z f, toFormat z = some f → ofFormat f = z) ∧
    (∀ z, toFormat z = none ↔ z = .unknown) ∧
    (∀ d, toDepth (ofDepth d) = some d) ∧ (∀ z d, toDepth z = some d → ofDepth d = z) ∧ (∀ z, toDepth z = none ↔ z = .unknown) ∧
    (∀ d, (ofDepth d).code = Color.sizeOf d) := by
  refine ⟨fun f hf => ?_, fun z f h => ?_, fun z => ?_, fun d => ?_, fun z d h => ?_, fun z => ?_, fun d => ?_⟩
  · cases f <;> first | rfl | exact absurd rfl hf
  · cases z <;> simp [toFormat] at h <;> subst h <;> rfl
  · cases z <;> simp [toFormat]
  · cases d <;> rfl
  · cases z <;> simp [toDepth] at h <;> subst h <;> rfl
  · cases z <;> simp [toDepth]
  · cases d <;> rfl

example : toFormat (ofFormat .JPEG_XL) = some .JPEG_XL ∧ toDepth (ofDepth .float32) = some .float32 := ⟨rfl, rfl⟩

/-- **C130** (`zil_guess_format`). A format is named just when the file, which must not be shorter than the code wants, has its signature. -/
theorem c130_guess (file : List UInt8) (hl : file.length < usizeLim) (z : ZFormat) (f : Guess.Format) (hz : toFormat z = some f) :
    zGuess file = z ↔ Guess.Signature f file ∧ Guess.need f ≤ file.length := by
  have hx := fun f c' => Guess.c53_exact (Cursor.new file) ⟨by simp [Cursor.new, usizeLim], hl⟩ (by simp [Cursor.new, usizeLim]) f c'
  have hr : (Cursor.new file).rest = file := by simp [Cursor.new, Cursor.rest]
  constructor
  · intro h
    unfold zGuess at h
    rcases hg : Guess.guessFormat (Cursor.new file) with _ | ⟨f', c'⟩
    · rw [hg] at h
      simp only at h
      rw [← h] at hz
      simp [toFormat] at hz
    · rw [hg] at h
      simp only at h
      have : f' = f := by
        rw [← h] at hz
        cases f' <;> simp [ofFormat, toFormat] at hz <;> exact hz
      subst this
      have := (hx f' c').1 hg
      rw [hr] at this
      exact ⟨this.1, this.2.1⟩
  · rintro ⟨h1, h2⟩
    rw [zGuess_of ⟨h1, h2, hl⟩]
    exact (c130_enums.2.1 z f hz)

example : zGuess exPpm = .ppm ∧ Guess.Signature .PPM exPpm ∧ Guess.need .PPM ≤ exPpm.length :=
  ⟨by decide +kernel, ⟨'5', by simp, by decide⟩, by decide⟩

/-- **C130** (PPM). For a file the library can decode the headers are those of the decoder, exactly, and the status says that all is well. -/
theorem c130_ppm (x : Others) (file : List UInt8) (hf : IsFile .PPM file) (hd : Ppm.Hdr) (px : Ppm.Pixels)
    (hdec : Ppm.decode defaults.maxW defaults.maxH file = .ok (hd, px)) (h : Heap) (hg : h.Good) (p m : Nat) (c : Code) (hh : Holds h p m c) :
    ∃ g, readHeaders x file p h = .ok (⟨hd.w, hd.h, if hd.sixteen then .u16 else .u8,
      match hd.cs with | .luma => .luma | .lumaA => .lumaA | .rgb => .rgb | .rgba => .rgba, .ppm⟩, g) ∧ Reported h g p .ok := by
  obtain ⟨hgs, hr⟩ := guess_of hf
  obtain ⟨⟨s, hh'⟩, -⟩ := decode_ok hdec
  have hi : decodeInfo x file = some ⟨hd.w, hd.h, Save.ppmColor hd.cs, ppmDepth hd⟩ := by
    unfold decodeInfo
    rw [hgs]
    simp only [hr, hh']
  obtain ⟨g, e, hrep⟩ := (readHeaders_eq x file hg hh).2 _ hi
  refine ⟨g, ?_, hrep⟩
  have hb := ppm_bound hh'
  have e1 : defaults.maxW = 16384 := rfl
  have e2 : defaults.maxH = 16384 := rfl
  rw [e, zGuess_of hf, ofMeta_small _ _ _ (by omega) (by omega)]
  unfold ppmDepth
  rcases hd with ⟨w, hgt, cs, b⟩
  cases b <;> cases cs <;> rfl

example : IsFile .PPM exPpm ∧ ((readHeaders noOthers exPpm 1 exHeap).toOption.map fun r => r.1) = some ⟨2, 1, .u8, .luma, .ppm⟩ :=
  ⟨⟨⟨'5', by simp, by decide⟩, by decide, by decide⟩, by decide +kernel⟩

/-- **C130** (QOI). The headers of a QOI file are the size and the channels in its first 14 bytes, with 8 bits. -/
theorem c130_qoi (x : Others) (w hgt : Nat) (ch lay : UInt8) (body : List UInt8) (hw : 0 < w ∧ w ≤ 16384) (hv : 0 < hgt ∧ hgt ≤ 16384) (hc : ch = 3 ∨ ch = 4)
    (hl : body.length + 14 < usizeLim) (h : Heap) (hg : h.Good) (p m : Nat) (c : Code) (hh : Holds h p m c) :
    ∃ g, readHeaders x ([0x71, 0x6f, 0x69, 0x66] ++ beBytes 4 w ++ beBytes 4 hgt ++ [ch, lay] ++ body) p h =
      .ok (⟨w, hgt, .u8, if ch = 3 then .rgb else .rgba, .qoi⟩, g) ∧ Reported h g p .ok := by
  have hf : IsFile .QOI ([0x71, 0x6f, 0x69, 0x66] ++ beBytes 4 w ++ beBytes 4 hgt ++ [ch, lay] ++ body) := by
    refine ⟨⟨beBytes 4 w ++ beBytes 4 hgt ++ [ch, lay] ++ body, ?_⟩, ?_, ?_⟩
    · simp [Guess.ascii]
    · simp [Guess.need, beBytes_length]
    · simp only [List.length_append, beBytes_length, List.length_cons, List.length_nil]; omega
  have e1 : defaults.maxW = 16384 := rfl
  have e2 : defaults.maxH = 16384 := rfl
  have hq := (Qoi.c05_header_iff_partial ⟨defaults.maxW, defaults.maxH, defaults.strict⟩ [0x71, 0x6f, 0x69, 0x66] (beBytes 4 w) (beBytes 4 hgt) body ch lay rfl
    (beBytes_length _ _) (beBytes_length _ _) ⟨w, hgt, if ch = 3 then .rgb else .rgba⟩).2
    (by
      rw [beVal_beBytes, beVal_beBytes, Nat.mod_eq_of_lt (by omega), Nat.mod_eq_of_lt (by omega)]
      exact ⟨rfl, hw.1, by simp only; omega, hv.1, by simp only; omega, hc, by simp [defaults], rfl⟩)
  generalize [0x71, 0x6f, 0x69, 0x66] ++ beBytes 4 w ++ beBytes 4 hgt ++ [ch, lay] ++ body = file at hf hq ⊢
  have hi : decodeInfo x file = some ⟨w, hgt, Save.qoiColor (if ch = 3 then .rgb else .rgba), .eight⟩ := by
    exact info_qoi x hf hq
  obtain ⟨g, e, hrep⟩ := (readHeaders_eq x _ hg hh).2 _ hi
  refine ⟨g, ?_, hrep⟩
  rw [e, zGuess_of hf, ofMeta_small _ _ _ (by omega) (by omega)]
  rcases hc with rfl | rfl <;> rfl

example : ((readHeaders noOthers [0x71, 0x6f, 0x69, 0x66, 0, 0, 1, 2, 0, 0, 0, 7, 4, 0] 1 exHeap).toOption.map fun r => r.1) = some ⟨258, 7, .u8, .rgba, .qoi⟩ := by
  decide +kernel

/-- **C130** (farbfeld). The headers of a farbfeld file are the size in its first 16 bytes, with four channels of 16 bits. -/
theorem c130_farbfeld (x : Others) (w hgt : Nat) (samples : List Nat) (hw : w ≤ 16384) (hv : hgt ≤ 16384) (hl : 2 * samples.length + 16 < usizeLim)
    (h : Heap) (hg : h.Good) (p m : Nat) (c : Code) (hh : Holds h p m c) :
    ∃ g, readHeaders x (Farbfeld.Spec.file w hgt samples) p h = .ok (⟨w, hgt, .u16, .rgba, .farbfeld⟩, g) ∧ Reported h g p .ok := by
  have hf : IsFile .Farbfeld (Farbfeld.Spec.file w hgt samples) := by
    refine ⟨⟨beBytes 4 w ++ beBytes 4 hgt ++ samples.flatMap (beBytes 2), ?_⟩, ?_, ?_⟩
    · simp [Guess.ascii, Farbfeld.Spec.file]
    · simp [Guess.need, Farbfeld.Spec.file, beBytes_length]
    · simp only [Farbfeld.Spec.file, List.length_append, beBytes_length, List.length_cons, List.length_nil, Farbfeld.be_flat_length]; omega
  have e1 : defaults.maxW = 16384 := rfl
  have e2 : defaults.maxH = 16384 := rfl
  have hq := Farbfeld.decodeHeaders_spec defaults.maxW defaults.maxH w hgt samples [] (by omega) (by omega) (by omega) (by omega)
  rw [List.append_nil] at hq
  generalize Farbfeld.Spec.file w hgt samples = file at hf hq ⊢
  have hi : decodeInfo x file = some ⟨w, hgt, .RGBA, .sixteen⟩ := by
    exact info_farbfeld x hf hq
  obtain ⟨g, e, hrep⟩ := (readHeaders_eq x _ hg hh).2 _ hi
  refine ⟨g, ?_, hrep⟩
  rw [e, zGuess_of hf, ofMeta_small _ _ _ (by omega) (by omega)]
  rfl

example : ((readHeaders noOthers (Farbfeld.Spec.file 3 700 [1, 2]) 1 exHeap).toOption.map fun r => r.1) = some ⟨3, 700, .u16, .rgba, .farbfeld⟩ := by
  decide +kernel

/-- **C130** (no picture). A file with no signature gives zeros and an error in the status. -/
theorem c130_unknown (x : Others) (file : List UInt8) (hl : file.length < usizeLim) (hn : ∀ f, ¬ Guess.Signature f file)
    (h : Heap) (hg : h.Good) (p m : Nat) (c : Code) (hh : Holds h p m c) :
    ∃ g, readHeaders x file p h = .ok (⟨0, 0, .unknown, .unknown, .unknown⟩, g) ∧ Reported h g p .decodeErrors := by
  refine (readHeaders_eq x file hg hh).1 ?_
  unfold decodeInfo
  rcases hgs : Guess.guessFormat (Cursor.new file) with _ | ⟨f, c'⟩
  · rfl
  · have := (Guess.c53_exact (Cursor.new file) ⟨by simp [Cursor.new, usizeLim], hl⟩ (by simp [Cursor.new, usizeLim]) f c').1 hgs
    exact absurd (by simpa [Cursor.new, Cursor.rest] using this.1) (hn f)

example : ((readHeaders noOthers [1, 2, 3] 1 exHeap).toOption.map fun r => (r.1, r.2.live, r.2.status 1)) = some (.zero, [3, 1], some ⟨.decodeErrors, 3⟩) := by
  decide +kernel

/-- **C130** (agreement). Whatever the decoders are, a file that `zil_imdecode_into` decodes has headers, with the same size, depth and number of channels. -/
theorem c130_agrees (x : Others) (aligned : Bool) (file out mem : List UInt8) (w hgt ch : Nat) (d : BitDepth)
    (hdec : imdecodeInto x aligned file out = some ⟨.ok, mem, some (w, hgt, d, ch)⟩) (hw : w < 2 ^ 32) (hv : hgt < 2 ^ 32)
    (h : Heap) (hg : h.Good) (p m : Nat) (c : Code) (hh : Holds h p m c) :
    ∃ i g, readHeaders x file p h = .ok (i, g) ∧ Reported h g p .ok ∧ i.width = w ∧ i.height = hgt ∧ toDepth i.depth = some d ∧ i.format = zGuess file ∧
      (i.color ≠ .unknown → (toColor i.color).numComponents = ch) := by
  unfold imdecodeInto at hdec
  rcases hi : decodeInfo x file with _ | i
  · rw [hi] at hdec; simp at hdec
  · rw [hi] at hdec
    simp only at hdec
    obtain ⟨g, e, hrep⟩ := (readHeaders_eq x file hg hh).2 i hi
    refine ⟨_, g, e, hrep, ?_⟩
    have key : i.width = w ∧ i.height = hgt ∧ i.depth = d ∧ i.cs.numComponents = ch := by
      by_cases hs : out.length < i.width * i.height * Color.sizeOf i.depth * i.cs.numComponents
      · rw [if_pos hs] at hdec; simp at hdec
      · rw [if_neg hs] at hdec
        rcases hin : imdecodeInner x aligned file out with e' | o
        · rw [hin] at hdec
          cases e' <;> simp at hdec
        · rw [hin] at hdec
          simp only [Option.some.injEq, Outcome.mk.injEq, Prod.mk.injEq] at hdec
          exact ⟨hdec.2.2.1, hdec.2.2.2.1, hdec.2.2.2.2.1, hdec.2.2.2.2.2⟩
    obtain ⟨rfl, rfl, rfl, rfl⟩ := key
    refine ⟨Nat.mod_eq_of_lt hw, Nat.mod_eq_of_lt hv, c130_enums.2.2.2.1 _, rfl, fun hne => ?_⟩
    show (toColor (ofColor i.cs)).numComponents = _
    have hne : ofColor i.cs ≠ .unknown := hne
    cases hcs : i.cs <;> rw [hcs] at hne <;> first | rfl | exact absurd rfl hne

example : imdecodeInto noOthers true exPpm [0, 0, 9] = some ⟨.ok, [7, 200, 9], some (2, 1, .eight, 1)⟩ := by decide +kernel

/-- **C130** (pictures). A file that can not be read is reported, and so is a null picture, whatever the file. -/
theorem c130_read_fails (h : Heap) (hg : h.Good) (p m : Nat) (c : Code) (hh : Holds h p m c) :
    (∀ image, image ≠ 0 → ∃ g, zimgRead false image p h = .ok g ∧ Reported h g p .decodeErrors) ∧
    (∀ good, ∃ g, zimgRead good 0 p h = .ok g ∧ Reported h g p .imageIsNull) := by
  have hp := (hg.live p hh.object).1
  constructor
  · intro image hi
    obtain ⟨g, e, hr⟩ := report_reported hg hh .decodeErrors
    refine ⟨g, ?_, hr⟩
    unfold zimgRead
    rw [if_neg hi, if_neg (by simp), if_neg (by omega), e]
  · intro good
    obtain ⟨g, e, hr⟩ := report_reported hg hh .imageIsNull
    refine ⟨g, ?_, hr⟩
    unfold zimgRead
    rw [if_pos rfl, if_neg (by omega), e]

example : ((zimgRead false 7 1 exHeap).toOption.map fun g => g.status 1) = some (some ⟨.decodeErrors, 3⟩) := by decide +kernel

/-- **C130** (disagreement). `zil_zimg_read_from_memory` leaves an earlier error in the status: after it has read a picture the status still says that something went wrong. -/
theorem c130_read_stale_wrong (image : Nat) (h : Heap) (hg : h.Good) (p m : Nat) (c : Code) (hh : Holds h p m c) (hc : c ≠ .ok) (hi : image ∈ h.live) (him : h.image image = true) :
    ∃ g, zimgRead true image p h = .ok g ∧ statusOk p g = .ok false ∧ statusCode p g = .ok c := by
  have hp := (hg.live p hh.object).1
  have hp' := (hg.live image hi).1
  refine ⟨{ h with image := fun q => if q = image then true else h.image q }, ?_, ?_, ?_⟩
  · unfold zimgRead assignImage
    rw [if_neg (by omega), if_pos rfl, if_neg (by omega), if_pos him]
  · unfold statusOk
    rw [if_neg (by omega)]
    simp [hh.there, hc]
  · unfold statusCode
    rw [if_neg (by omega)]
    simp [hh.there]

example : (zimgRead true 3 1 ⟨[3, 2, 1], 4, fun q => if q = 1 then some ⟨.ioErrors, 2⟩ else none, fun q => q == 3⟩).toOption.map (fun g => g.status 1) =
    some (some ⟨.ioErrors, 2⟩) := by decide +kernel

end Zune.Capi
