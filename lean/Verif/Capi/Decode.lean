/- C129: decoding through the C interface. -/
import Verif.Capi.DecodeModel
import Verif.Image.Save

namespace Zune.Capi

open Zune.Imageprocs (ColorSpace)
open Zune.Depth (BitDepth Samples)
open Zune.Bytestream (usizeLim Cursor)

/-! ### Specification -/

/-- The bytes of samples in memory, 16 bit samples with the low byte first. -/
def bytesOf : Ppm.Pixels → List UInt8
  | .u8 l => l
  | .u16 l => l.flatMap fun v => [UInt8.ofNat (v % 256), UInt8.ofNat (v / 256)]

/-- The bytes are a file of the format, as far as its signature goes, which fits into memory. -/
structure IsFile (f : Guess.Format) (file : List UInt8) : Prop where
  signature : Guess.Signature f file
  long : Guess.need f ≤ file.length
  fits : file.length < usizeLim

/-! ### Lemmas -/

theorem guess_of {f : Guess.Format} {file : List UInt8} (h : IsFile f file) :
    Guess.guessFormat (Cursor.new file) = some (f, Cursor.new file) ∧ (Cursor.new file).rest = file :=
  ⟨(Guess.c53_exact (Cursor.new file) ⟨by simp [Cursor.new, usizeLim], h.fits⟩ (by simp [Cursor.new, usizeLim]) f (Cursor.new file)).2
    ⟨by simpa [Cursor.new, Cursor.rest] using h.signature, by simpa [Cursor.new, Cursor.rest] using h.long, rfl⟩,
    by simp [Cursor.new, Cursor.rest]⟩

theorem readU16_length (n : Nat) : ∀ (s : List UInt8) (l : List Nat), Ppm.readU16 n s = .ok l → l.length = n ∧ ∀ v ∈ l, v < 65536 := by
  induction n with
  | zero => intro s l h; simp [Ppm.readU16] at h; subst h; simp
  | succ n ih =>
    intro s l h
    unfold Ppm.readU16 at h
    split at h
    · simp at h
    · next v s' hb =>
      split at h
      · simp at h
      · next l' hr =>
        simp only [Except.ok.injEq] at h
        subst h
        obtain ⟨h1, h2⟩ := ih _ _ hr
        refine ⟨by simp [h1], fun x hx => ?_⟩
        rcases List.mem_cons.1 hx with rfl | hx
        · unfold Zune.Stream.be Zune.Stream.exact at hb
          split at hb
          · simp only [Option.map_some, Option.some.injEq, Prod.mk.injEq] at hb
            have := beVal_lt (s.take 2)
            rw [List.length_take, Nat.min_eq_left (by assumption)] at this
            omega
          · simp at hb
        · exact h2 x hx

/-- What `Ppm.decode` returns, and the header it comes from. -/
theorem decode_ok {W H : Nat} {file : List UInt8} {hd : Ppm.Hdr} {px : Ppm.Pixels} (h : Ppm.decode W H file = .ok (hd, px)) :
    (∃ s, Ppm.decodeHeaders W H file = .ok (hd, s)) ∧ 0 < hd.w ∧ 0 < hd.h ∧
      (bytesOf px).length = hd.w * hd.h * hd.cs.comps * Color.sizeOf (ppmDepth hd) ∧
      ((∃ l, px = .u8 l ∧ hd.sixteen = false) ∨ ∃ l, px = .u16 l ∧ hd.sixteen = true ∧ ∀ v ∈ l, v < 65536) := by
  unfold Ppm.decode at h
  split at h
  · simp at h
  · next hd' s hh =>
    by_cases hz : hd'.w = 0 ∨ hd'.h = 0
    · rw [if_pos hz] at h; simp at h
    · rw [if_neg hz] at h
      simp only at h
      by_cases h16 : hd'.sixteen = true
      · rw [if_pos h16] at h
        by_cases hlt : hd'.w * hd'.h * hd'.cs.comps * 2 ≥ usizeLim
        · rw [if_pos hlt] at h; simp at h
        rw [if_neg hlt, if_pos h16] at h
        split at h
        · simp at h
        · next l hr =>
          simp only [Except.ok.injEq, Prod.mk.injEq] at h
          obtain ⟨rfl, rfl⟩ := h
          obtain ⟨h1, h2⟩ := readU16_length _ _ _ hr
          refine ⟨⟨s, hh⟩, by omega, by omega, ?_, Or.inr ⟨l, rfl, h16, h2⟩⟩
          have hl : ∀ l : List Nat, (bytesOf (.u16 l)).length = 2 * l.length := by
            intro l
            induction l with
            | nil => rfl
            | cons a l ih => simp only [bytesOf, List.flatMap_cons, List.length_append, List.length_cons, List.length_nil] at ih ⊢; omega
          rw [hl, h1, ppmDepth, if_pos h16, Color.sizeOf]
          omega
      · rw [if_neg h16] at h
        by_cases hlt : hd'.w * hd'.h * hd'.cs.comps * 1 ≥ usizeLim
        · rw [if_pos hlt] at h; simp at h
        rw [if_neg hlt, if_neg h16] at h
        split at h
        · simp at h
        · next l r hr =>
          simp only [Except.ok.injEq, Prod.mk.injEq] at h
          obtain ⟨rfl, rfl⟩ := h
          refine ⟨⟨s, hh⟩, by omega, by omega, ?_, Or.inl ⟨l, rfl, by simpa using h16⟩⟩
          unfold Zune.Stream.exact at hr
          split at hr
          · next hle =>
            simp only [Option.some.injEq, Prod.mk.injEq] at hr
            show l.length = _
            rw [← hr.1, List.length_take, Nat.min_eq_left hle, ppmDepth, if_neg h16, Color.sizeOf]
          · simp at hr

theorem ppmColor_comps (cs : Ppm.Cs) : (Save.ppmColor cs).numComponents = cs.comps := by cases cs <;> rfl

theorem bytes_ne {l : List Nat} (h : ∀ v ∈ l, v < 65536) : (l.flatMap fun v => Make.ne16 (UInt16.ofNat v)) = bytesOf (.u16 l) := by
  unfold bytesOf
  refine List.flatMap_congr fun v hv => ?_
  have := h v hv
  have e : (UInt16.ofNat v).toNat = v := by simp; omega
  have e2 : UInt8.ofNat v = UInt8.ofNat (v % 256) := by
    apply UInt8.toNat_inj.1
    simp
  simp [Make.ne16, leBytes, beBytes, e, e2]

/-! ### Theorems -/

/-- **C129** (PPM). A file the library can decode is decoded by the interface: when the memory is large enough it starts with the samples, the rest of it is left
alone, and size, depth and channels are those of the file; otherwise the caller is told so and nothing is written. -/
theorem c129_ppm_partial (x : Others) (aligned : Bool) (file out : List UInt8) (hf : IsFile .PPM file) (hd : Ppm.Hdr) (px : Ppm.Pixels)
    (hdec : Ppm.decode defaults.maxW defaults.maxH file = .ok (hd, px)) :
    ((bytesOf px).length ≤ out.length → imdecodeInto x aligned file out =
      some ⟨.ok, bytesOf px ++ out.drop (bytesOf px).length, some (hd.w, hd.h, ppmDepth hd, hd.cs.comps)⟩) ∧
    (out.length < (bytesOf px).length → imdecodeInto x aligned file out = some ⟨.notEnoughSpace, out, none⟩) := by
  obtain ⟨hg, hr⟩ := guess_of hf
  obtain ⟨⟨s, hh⟩, -, -, hlen, hpx⟩ := decode_ok hdec
  have hinfo : decodeInfo x file = some ⟨hd.w, hd.h, Save.ppmColor hd.cs, ppmDepth hd⟩ := by
    unfold decodeInfo
    rw [hg]
    simp only [hr, hh]
  have hsize : hd.w * hd.h * Color.sizeOf (ppmDepth hd) * (Save.ppmColor hd.cs).numComponents = (bytesOf px).length := by
    rw [hlen, ppmColor_comps]; ring
  constructor
  · intro hle
    unfold imdecodeInto
    rw [hinfo]
    simp only [hsize]
    rw [if_neg (by omega)]
    have : imdecodeInner x aligned file out = .ok (bytesOf px ++ out.drop (bytesOf px).length) := by
      unfold imdecodeInner
      rw [hg]
      simp only [hr, ppmInto, hh]
      rw [if_neg (by omega), hdec]
      rcases hpx with ⟨l, rfl, -⟩ | ⟨l, rfl, -, hv⟩
      · simp only
        rw [← hlen, if_pos (by rfl)]
        rfl
      · simp only
        rw [bytes_ne hv, ← hlen, if_pos (le_refl _), List.take_length]
    rw [this]
    simp only [ppmColor_comps]
  · intro hlt
    unfold imdecodeInto
    rw [hinfo]
    simp only [hsize]
    rw [if_pos hlt]

/-- Nothing else is known, for the examples. -/
def noOthers : Others := ⟨fun _ _ => none, fun _ _ _ => none, fun _ _ _ => none⟩

/-- "P5 2 1 255" and two samples. -/
def exPpm : List UInt8 := [80, 53, 10, 50, 32, 49, 10, 50, 53, 53, 10, 7, 200]

example : IsFile .PPM exPpm ∧ imdecodeInto noOthers true exPpm [0, 0, 9] = some ⟨.ok, [7, 200, 9], some (2, 1, .eight, 1)⟩ :=
  ⟨⟨⟨'5', by simp, by decide⟩, by decide, by decide⟩, by decide +kernel⟩

/-- **C129** (PPM, other files). A file with the signature of a P5, P6 or P7 file that the library can not decode is reported as such, or as too large for the memory, and nothing
is written. (Files with floats, which the model of the headers leaves out, are excluded.) -/
theorem c129_ppm_bad (x : Others) (aligned : Bool) (file out : List UInt8) (hf : IsFile .PPM file)
    (_hk : ∀ k ∈ ['f', 'F'], ¬ Guess.ascii ['P', k] <+: file) (e : Ppm.Err)
    (hdec : Ppm.decode defaults.maxW defaults.maxH file = .error e) :
    imdecodeInto x aligned file out = some ⟨.decodeErrors, out, none⟩ ∨ imdecodeInto x aligned file out = some ⟨.notEnoughSpace, out, none⟩ := by
  obtain ⟨hg, hr⟩ := guess_of hf
  rcases hh : Ppm.decodeHeaders defaults.maxW defaults.maxH file with e' | ⟨hd, s⟩
  · left
    unfold imdecodeInto decodeInfo
    rw [hg]
    simp only [hr, hh]
  · unfold imdecodeInto decodeInfo
    rw [hg]
    simp only [hr, hh]
    split
    · right; rfl
    · left
      have : imdecodeInner x aligned file out = .error .error := by
        unfold imdecodeInner
        rw [hg]
        simp only [hr, ppmInto, hh, hdec]
        split <;> rfl
      rw [this]

example : (∀ k ∈ ['f', 'F'], ¬ Guess.ascii ['P', k] <+: ([80, 53, 10, 50, 32, 49, 10, 50, 53, 53, 10, 7] : List UInt8)) ∧
    imdecodeInto noOthers true [80, 53, 10, 50, 32, 49, 10, 50, 53, 53, 10, 7] [0, 0, 9] = some ⟨.decodeErrors, [0, 0, 9], none⟩ := by decide +kernel

/-- **C129** (disagreement). No QOI file can be decoded through the interface: it is given to the decoder for JPEG. -/
theorem c129_qoi_wrong (x : Others) (aligned : Bool) (file out : List UInt8) (hf : IsFile .QOI file) :
    ∃ r, imdecodeInto x aligned file out = some r ∧ r.code ≠ .ok ∧ r.memory = out ∧ r.size = none := by
  obtain ⟨hg, hr⟩ := guess_of hf
  have hj : Jpeg.decodeHeaders ⟨defaults.maxW, defaults.maxH, defaults.strict⟩ file = .error .bad := by
    obtain ⟨t, ht⟩ := hf.signature
    rw [← ht]
    unfold Jpeg.decodeHeaders
    simp only [Guess.ascii, List.map_cons, List.map_nil, List.cons_append, Jpeg.u16e, Except.bind]
    rw [if_pos (by decide)]
  have hin : imdecodeInner x aligned file out = .error .error := by
    unfold imdecodeInner
    rw [hg]
    simp only [hr, jpegInto, hj]
  unfold imdecodeInto
  rw [hin]
  rcases decodeInfo x file with _ | m
  · exact ⟨_, rfl, by simp, rfl, rfl⟩
  · simp only
    split
    · exact ⟨_, rfl, by simp, rfl, rfl⟩
    · exact ⟨_, rfl, by simp, rfl, rfl⟩

/-- A picture saved as QOI, decoded by the library. -/
def exQoi : Option (List UInt8) := (Qoi.encode 1 1 .rgb [10, 20, 30]).toOption

example : (exQoi.map fun f => (Save.read .scalar defaults (fun _ _ => none) f).isSome) = some true ∧
    (exQoi.bind fun f => imdecodeInto noOthers true f [0, 0, 0]) = some ⟨.decodeErrors, [0, 0, 0], none⟩ := by decide +kernel

/-- **C129** (disagreement). Every PNG file whose headers are good ends the process when the memory is large enough: the depth is asked for before the headers
are read. -/
theorem c129_png_wrong (x : Others) (aligned : Bool) (file out : List UInt8) (hf : IsFile .PNG file) (m : Meta) (hm : x.info .PNG file = some m)
    (ho : m.width * m.height * Color.sizeOf m.depth * m.cs.numComponents ≤ out.length) : imdecodeInto x aligned file out = none := by
  obtain ⟨hg, hr⟩ := guess_of hf
  have hinfo : decodeInfo x file = some m := by
    unfold decodeInfo
    rw [hg]
    simp only [hr, hm]
  have hin : imdecodeInner x aligned file out = .error .panic := by
    unfold imdecodeInner
    rw [hg]
    rfl
  unfold imdecodeInto
  rw [hinfo, hin]
  simp only
  rw [if_neg (by omega)]

example : IsFile .PNG [0x89, 0x50, 0x4E, 0x47, 0x0D, 0x0A, 0x1A, 0x0A] ∧
    ({ noOthers with info := fun _ _ => some ⟨1, 1, .RGB, .eight⟩ } : Others).info .PNG [0x89, 0x50, 0x4E, 0x47, 0x0D, 0x0A, 0x1A, 0x0A] = some ⟨1, 1, .RGB, .eight⟩ :=
  ⟨⟨List.prefix_refl _, by decide, by decide⟩, rfl⟩

/-- **C129** (disagreement). No farbfeld file can be decoded into memory of the size of its samples, nor into less than twice as much: the decoder compares a number of samples
with a number of bytes. -/
theorem c129_farbfeld_wrong (x : Others) (aligned : Bool) (file out : List UInt8) (hf : IsFile .Farbfeld file) (w h : Nat) (s : List UInt8)
    (hh : Farbfeld.decodeHeaders defaults.maxW defaults.maxH file = .ok (w, h, s)) (ho : out.length < 2 * (w * h * 2 * 4)) :
    ∃ r, imdecodeInto x aligned file out = some r ∧ r.code ≠ .ok ∧ r.memory = out ∧ r.size = none := by
  obtain ⟨hg, hr⟩ := guess_of hf
  have hin : imdecodeInner x aligned file out = .error .error := by
    unfold imdecodeInner
    rw [hg]
    simp only [hr, farbfeldInto, hh]
    split
    · rfl
    · have : ∃ e, Farbfeld.decodeInto w h (out.length / 2) s = .error e := by
        unfold Farbfeld.decodeInto
        simp only
        split
        · exact ⟨_, rfl⟩
        · have e : 4 * w * h * 2 = w * h * 2 * 4 := by ring
          rw [if_pos (by omega)]
          exact ⟨_, rfl⟩
      obtain ⟨e, he⟩ := this
      rw [he]
  unfold imdecodeInto
  rw [hin]
  rcases decodeInfo x file with _ | m
  · exact ⟨_, rfl, by simp, rfl, rfl⟩
  · simp only
    split
    · exact ⟨_, rfl, by simp, rfl, rfl⟩
    · exact ⟨_, rfl, by simp, rfl, rfl⟩

/-- A farbfeld file of one pixel. -/
def exFarbfeld : List UInt8 := [0x66, 0x61, 0x72, 0x62, 0x66, 0x65, 0x6c, 0x64, 0, 0, 0, 1, 0, 0, 0, 1, 1, 2, 3, 4, 5, 6, 7, 8]

example : IsFile .Farbfeld exFarbfeld ∧ imdecodeInto noOthers true exFarbfeld [0, 0, 0, 0, 0, 0, 0, 0] = some ⟨.decodeErrors, [0, 0, 0, 0, 0, 0, 0, 0], none⟩ :=
  ⟨⟨by simp [Guess.Signature, Guess.ascii, exFarbfeld], by decide, by decide⟩, by decide +kernel⟩

end Zune.Capi
