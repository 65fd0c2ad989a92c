/-
C135, C136: options of encoders and decoders.

A program that sets options is a list of calls.  What a getter should answer is said with `Last`: the value in the last call that concerns it, or the default when there is none.
-/
import Verif.Image.OptionsModel

namespace Zune.Options

open Zune.Imageprocs (ColorSpace)
open Zune.Depth (BitDepth)
open Zune.Color (Image)

/-- `v` is the value of the last call that concerns `sel`, or the default. -/
def Last {σ β : Type} (sel : σ → Option β) (d : β) (l : List σ) (v : β) : Prop :=
  (∃ a s b, l = a ++ s :: b ∧ sel s = some v ∧ ∀ t ∈ b, sel t = none) ∨ ((∀ t ∈ l, sel t = none) ∧ v = d)

theorem last_step {σ β ω : Type} (sel : σ → Option β) (get : ω → β) (set : ω → σ → ω)
    (h : ∀ o s, get (set o s) = (sel s).getD (get o)) (o : ω) (l : List σ) : Last sel (get o) l (get (l.foldl set o)) := by
  induction l generalizing o with
  | nil => exact Or.inr ⟨by simp, rfl⟩
  | cons s l ih =>
    rw [List.foldl_cons]
    rcases ih (set o s) with ⟨a, t, b, rfl, ht, hb⟩ | ⟨hl, hv⟩
    · exact Or.inl ⟨s :: a, t, b, rfl, ht, hb⟩
    · rw [hv, h]
      cases hs : sel s with
      | some v => exact Or.inl ⟨[], s, l, rfl, by simpa using hs, hl⟩
      | none =>
        refine Or.inr ⟨?_, rfl⟩
        intro t ht
        rcases List.mem_cons.1 ht with rfl | ht
        · exact hs
        · exact hl t ht

theorem last_unique {σ β : Type} {sel : σ → Option β} {d : β} : ∀ {l : List σ} {v w : β}, Last sel d l v → Last sel d l w → v = w := by
  have aux : ∀ (l : List σ) (v : β), Last sel d l v → v = (l.reverse.findSome? sel).getD d := by
    intro l v h
    rcases h with ⟨a, s, b, rfl, hs, hb⟩ | ⟨hl, rfl⟩
    · have : b.reverse.findSome? sel = none := by
        rw [List.findSome?_eq_none_iff]
        intro x hx
        exact hb x (List.mem_reverse.1 hx)
      simp [List.findSome?_append, this, hs]
    · have : l.reverse.findSome? sel = none := by
        rw [List.findSome?_eq_none_iff]
        intro x hx
        exact hl x (List.mem_reverse.1 hx)
      simp [this]
  intro l v w hv hw
  rw [aux l v hv, aux l w hw]

/-! ### C135 -/

/-- The options after calls of setters. -/
def enc (l : List EncSet) : EncOpts := l.foldl EncOpts.set {}

def selWidth : EncSet → Option Nat | .width v => some v | _ => none
def selHeight : EncSet → Option Nat | .height v => some v | _ => none
def selDepth : EncSet → Option BitDepth | .depth v => some v | _ => none
def selQuality : EncSet → Option Nat | .quality v => some (min v.toNat 100) | _ => none
def selCs : EncSet → Option ColorSpace | .colorspace v => some v | _ => none
def selThreads : EncSet → Option UInt8 | .numThreads v => some v | _ => none
def selEffort : EncSet → Option UInt8 | .effort v => some v | _ => none
def selStrip : EncSet → Option Bool | .stripMetadata v => some v | _ => none
def selProgressive : EncSet → Option Bool | .jpegEncodeProgressive v => some v | _ => none

/-- C135, the part that holds: width, depth, colour space, threads and effort are what was set last, quality is that limited to 100, and height is what was set last unless it is zero, where
asking for it panics.  (Missing: the flags, for which see below.) -/
theorem c135_set_partial (l : List EncSet) :
    Last selWidth 0 l (enc l).width ∧ Last selDepth .eight l (enc l).depth ∧ Last selCs .RGB l (enc l).cs ∧
    Last selThreads 4 l (enc l).numThreads ∧ Last selEffort 4 l (enc l).effort ∧
    Last selQuality 80 l (enc l).quality.toNat ∧
    (∀ h, (enc l).getHeight = some h ↔ h ≠ 0 ∧ Last selHeight 0 l h) := by
  refine ⟨last_step selWidth EncOpts.width _ ?_ _ l, last_step selDepth EncOpts.depth _ ?_ _ l, last_step selCs EncOpts.cs _ ?_ _ l,
    last_step selThreads EncOpts.numThreads _ ?_ _ l, last_step selEffort EncOpts.effort _ ?_ _ l,
    last_step selQuality (fun o : EncOpts => o.quality.toNat) _ ?_ _ l, ?_⟩
  · intro o s; cases s <;> rfl
  · intro o s; cases s <;> rfl
  · intro o s; cases s <;> rfl
  · intro o s; cases s <;> rfl
  · intro o s; cases s <;> rfl
  · intro o s
    cases s <;> try rfl
    rename_i v
    simp only [EncOpts.set, selQuality, Option.getD_some]
    split
    · next h =>
      have : 100 < v.toNat := by simpa [UInt8.lt_iff_toNat_lt] using h
      have e : (100 : UInt8).toNat = 100 := rfl
      omega
    · next h =>
      have : ¬ 100 < v.toNat := by simpa [UInt8.lt_iff_toNat_lt] using h
      omega
  · intro h
    have hl : Last selHeight 0 l (enc l).height := by
      refine last_step selHeight EncOpts.height _ ?_ _ l
      intro o s; cases s <;> rfl
    unfold EncOpts.getHeight
    constructor
    · intro e
      split at e
      · simp at e
      · next hn =>
        have : (enc l).height = h := by simpa using e
        rw [← this]
        exact ⟨hn, hl⟩
    · rintro ⟨hn, hh⟩
      have := last_unique hl hh
      rw [this, if_neg hn]

example : (enc [.quality 120, .height 3, .quality 250, .width 7]).quality = 100 ∧ (enc [.quality 120, .height 3, .quality 250, .width 7]).getHeight = some 3 ∧
    (enc [.quality 30, .height 3, .height 0]).getHeight = none ∧ (enc [.quality 30, .height 3, .height 0]).quality = 30 := by
  decide

/-- C135, refuted: whatever is set, progressive stays off; what is asked of `set_jpeg_encode_progressive` is done to the Huffman tables instead. -/
theorem c135_progressive_wrong (l : List EncSet) :
    (enc l).progressive = false ∧ Last selProgressive false l (enc l).optimizedHuffman := by
  constructor
  · have : ∀ (l : List EncSet) (o : EncOpts), (l.foldl EncOpts.set o).progressive = o.progressive := by
      intro l
      induction l with
      | nil => intro o; rfl
      | cons s l ih => intro o; rw [List.foldl_cons, ih]; cases s <;> rfl
    exact this l {}
  · refine last_step selProgressive EncOpts.optimizedHuffman _ ?_ _ l
    intro o s; cases s <;> rfl

example : (enc [.jpegEncodeProgressive true]).progressive = false ∧ (enc [.jpegEncodeProgressive true]).optimizedHuffman = true := by
  decide

/-- C135, refuted: `strip_metadata` answers the opposite of what was set last. -/
theorem c135_strip_wrong (l : List EncSet) : Last selStrip false l (!(enc l).stripMetadata) := by
  refine last_step selStrip (fun o : EncOpts => !o.stripMetadata) _ ?_ _ l
  intro o s; cases s <;> simp [EncOpts.stripMetadata, EncOpts.set, selStrip]

example : (enc []).stripMetadata = true ∧ (enc [.stripMetadata true]).stripMetadata = false := by
  decide

/-- C135: the encoders of pictures use size, depth and colour space of the picture, whatever was configured, and keep quality, threads and effort. -/
theorem c135_image (l : List EncSet) (i : Image) :
    (optionsFor (some (enc l)) i).width = i.width ∧ (optionsFor (some (enc l)) i).height = i.height ∧
    (optionsFor (some (enc l)) i).depth = i.depth ∧ (optionsFor (some (enc l)) i).cs = i.cs ∧
    Last selQuality 80 l (optionsFor (some (enc l)) i).quality.toNat ∧ Last selThreads 4 l (optionsFor (some (enc l)) i).numThreads ∧
    Last selEffort 4 l (optionsFor (some (enc l)) i).effort := by
  have h := c135_set_partial l
  exact ⟨rfl, rfl, rfl, rfl, h.2.2.2.2.2.1, h.2.2.2.1, h.2.2.2.2.1⟩

example : (optionsFor (some (enc [.width 9, .quality 7])) { width := 2, height := 3, depth := .sixteen, cs := .RGBA, premultiplied := false, frames := [] }).width = 2 ∧
    (optionsFor (some (enc [.width 9, .quality 7])) { width := 2, height := 3, depth := .sixteen, cs := .RGBA, premultiplied := false, frames := [] }).quality = 7 := by
  decide

/-- C135: the encoder of JPEG is told the quality set last; pictures without Exif fields get none. -/
theorem c135_jpeg {φ : Type} (l : List EncSet) (i : Image) (exif : Option (List φ)) :
    Last selQuality 80 l (jpegSetup (some (enc l)) i exif).1.toNat ∧ (jpegSetup none i exif).1 = 80 ∧
    (exif = none → (jpegSetup (some (enc l)) i exif).2.2.2 = none ∧ pngExif (some (enc l)) i exif = none) := by
  refine ⟨(c135_set_partial l).2.2.2.2.2.1, rfl, ?_⟩
  rintro rfl
  simp [jpegSetup, pngExif]

/-- C135, refuted: Exif fields are written to JPEG and PNG exactly when they should be stripped, and never by default; JPEG files are never progressive. -/
theorem c135_exif_wrong {φ : Type} (l : List EncSet) (i : Image) (fields : List φ) :
    (Last selStrip false l true → (jpegSetup (some (enc l)) i (some fields)).2.2.2 = some fields ∧ pngExif (some (enc l)) i (some fields) = some fields) ∧
    (Last selStrip false l false → (jpegSetup (some (enc l)) i (some fields)).2.2.2 = none ∧ pngExif (some (enc l)) i (some fields) = none) ∧
    (jpegSetup none i (some fields)).2.2.2 = none ∧ pngExif none i (some fields) = none ∧
    (jpegSetup (some (enc l)) i (some fields)).2.1 = false := by
  have e : ∀ o : EncOpts, (optionsFor (some o) i).stripMetadata = o.stripMetadata := fun _ => rfl
  refine ⟨?_, ?_, rfl, rfl, ?_⟩
  · intro h
    have := last_unique (c135_strip_wrong l) h
    simp [jpegSetup, pngExif, e, Bool.not_eq_true' .. ▸ this]
  · intro h
    have := last_unique (c135_strip_wrong l) h
    simp [jpegSetup, pngExif, e, Bool.not_eq_false' .. ▸ this]
  · exact (c135_progressive_wrong l).1

example : Last selStrip false [.quality 3, .stripMetadata true, .effort 2] true ∧ Last selStrip false [.quality 3, .effort 2] false :=
  ⟨Or.inl ⟨[.quality 3], .stripMetadata true, [.effort 2], rfl, rfl, by simp [selStrip]⟩, Or.inr ⟨by simp [selStrip], rfl⟩⟩

/-! ### C136 -/

/-- The options after a constructor and calls of setters. -/
def dec (o : DecOpts) (l : List DecSet) : DecOpts := l.foldl DecOpts.set o

/-- The three ways to begin. -/
def Begin (o : DecOpts) : Prop := o = newSafe ∨ o = newFast ∨ o = newCmd

def selMaxWidth : DecSet → Option Nat | .maxWidth v => some v | _ => none
def selMaxHeight : DecSet → Option Nat | .maxHeight v => some v | _ => none
def selUnsafe : DecSet → Option Bool | .useUnsafe v => some v | _ => none
def selStrict : DecSet → Option Bool | .strictMode v => some v | _ => none
def selEndian : DecSet → Option Endian | .byteEndian v => some v | _ => none
def selAdler : DecSet → Option Bool | .confirmAdler v => some v | .strictMode v => some v | _ => none
def selLimit : DecSet → Option Nat | .limit v => some v | _ => none
def selCrc : DecSet → Option Bool | .confirmCrc v => some v | .strictMode v => some v | _ => none
def selAlpha : DecSet → Option Bool | .addAlpha v => some v | _ => none
def selStrip16 : DecSet → Option Bool | .strip16 v => some v | _ => none
def selPngAnimated : DecSet → Option Bool | .pngAnimated v => some v | _ => none
def selScans : DecSet → Option Nat | .maxScans v => some v | _ => none
def selOutCs : DecSet → Option ColorSpace | .outColorspace v => some v | _ => none
def selJxlAnimated : DecSet → Option Bool | .jxlAnimated v => some v | _ => none

/-- C136: the three constructors give the same options. -/
theorem c136_begin {o : DecOpts} (h : Begin o) : o = {} := by
  rcases h with rfl | rfl | rfl <;> rfl

/-- C136: every getter of decoders answers what was set last, or the default in the documentation; `set_strict_mode` also sets the two checksums. -/
theorem c136_set {o : DecOpts} (h : Begin o) (l : List DecSet) :
    Last selMaxWidth 16384 l (dec o l).maxWidth ∧ Last selMaxHeight 16384 l (dec o l).maxHeight ∧
    Last selUnsafe true l (dec o l).flags.useUnsafe ∧ Last selEndian .BE l (dec o l).endian ∧
    Last selAdler false l (dec o l).flags.confirmAdler ∧ Last selLimit 1073741824 l (dec o l).deflateLimit ∧
    Last selCrc false l (dec o l).flags.confirmCrc ∧ Last selAlpha false l (dec o l).flags.addAlpha ∧
    Last selStrip16 false l (dec o l).flags.strip16 ∧ Last selPngAnimated true l (dec o l).flags.pngAnimated ∧
    Last selScans 100 l (dec o l).maxScans ∧ Last selOutCs .RGB l (dec o l).outCs ∧
    Last selJxlAnimated true l (dec o l).flags.jxlAnimated := by
  rw [c136_begin h]
  refine ⟨last_step selMaxWidth DecOpts.maxWidth _ ?_ _ l, last_step selMaxHeight DecOpts.maxHeight _ ?_ _ l,
    last_step selUnsafe (fun o : DecOpts => o.flags.useUnsafe) _ ?_ _ l, last_step selEndian DecOpts.endian _ ?_ _ l,
    last_step selAdler (fun o : DecOpts => o.flags.confirmAdler) _ ?_ _ l, last_step selLimit DecOpts.deflateLimit _ ?_ _ l,
    last_step selCrc (fun o : DecOpts => o.flags.confirmCrc) _ ?_ _ l, last_step selAlpha (fun o : DecOpts => o.flags.addAlpha) _ ?_ _ l,
    last_step selStrip16 (fun o : DecOpts => o.flags.strip16) _ ?_ _ l, last_step selPngAnimated (fun o : DecOpts => o.flags.pngAnimated) _ ?_ _ l,
    last_step selScans DecOpts.maxScans _ ?_ _ l, last_step selOutCs DecOpts.outCs _ ?_ _ l,
    last_step selJxlAnimated (fun o : DecOpts => o.flags.jxlAnimated) _ ?_ _ l⟩ <;>
  · intro o s; cases s <;> rfl

example : Begin newCmd ∧ (dec newCmd [.strictMode true, .confirmCrc false, .limit 5]).flags.confirmCrc = false ∧
    (dec newCmd [.strictMode true, .confirmCrc false, .limit 5]).flags.confirmAdler = true :=
  ⟨Or.inr (Or.inr rfl), by decide, by decide⟩

/-- C136: `strict_mode` answers whether strict mode or one of the checksums was set last. -/
theorem c136_strict {o : DecOpts} (h : Begin o) (l : List DecSet) (a b c : Bool) (ha : Last selStrict false l a) (hb : Last selCrc false l b) (hc : Last selAdler false l c) :
    (dec o l).strictMode = true ↔ a = true ∨ b = true ∨ c = true := by
  have hs := c136_set h l
  have hj : Last selStrict false l (dec o l).flags.jpgStrict := by
    rw [c136_begin h]
    refine last_step selStrict (fun o : DecOpts => o.flags.jpgStrict) _ ?_ _ l
    intro o s; cases s <;> rfl
  rw [last_unique ha hj, last_unique hb hs.2.2.2.2.2.2.1, last_unique hc hs.2.2.2.2.1]
  simp [DecOpts.strictMode, or_assoc]

example : Last selStrict false [.strictMode true, .confirmCrc false, .confirmAdler false] true ∧ Last selCrc false [.strictMode true, .confirmCrc false, .confirmAdler false] false ∧
    Last selAdler false [.strictMode true, .confirmCrc false, .confirmAdler false] false ∧
    (dec newSafe [.strictMode true, .confirmCrc false, .confirmAdler false]).strictMode = true :=
  ⟨Or.inl ⟨[], _, _, rfl, rfl, by simp [selStrict]⟩, Or.inl ⟨[.strictMode true], _, _, rfl, rfl, by simp [selCrc]⟩,
    Or.inl ⟨[.strictMode true, .confirmCrc false], _, _, rfl, rfl, by simp⟩, by decide⟩

/-- C136, the part of strict mode that holds: when the checksums are not set on their own, `strict_mode` answers what was set last.  (Missing: with checksums, see `c136_strict_wrong`.) -/
theorem c136_strict_partial {o : DecOpts} (h : Begin o) (l : List DecSet)
    (hl : ∀ s ∈ l, ∀ v, s ≠ .confirmAdler v ∧ s ≠ .confirmCrc v) : Last selStrict false l (dec o l).strictMode := by
  rw [c136_begin h]
  have key : ∀ (l : List DecSet) (o : DecOpts), (∀ s ∈ l, ∀ v, s ≠ .confirmAdler v ∧ s ≠ .confirmCrc v) →
      (o.flags.confirmAdler = o.flags.jpgStrict ∧ o.flags.confirmCrc = o.flags.jpgStrict) →
      ((dec o l).flags.confirmAdler = (dec o l).flags.jpgStrict ∧ (dec o l).flags.confirmCrc = (dec o l).flags.jpgStrict) := by
    intro l
    induction l with
    | nil => intro o _ ho; exact ho
    | cons s l ih =>
      intro o hs ho
      refine ih (o.set s) (fun t ht => hs t (List.mem_cons_of_mem _ ht)) ?_
      have := hs s List.mem_cons_self
      cases s <;> first | exact ho | exact ⟨rfl, rfl⟩ | exact absurd rfl (this _).1 | exact absurd rfl (this _).2
  have k := key l {} hl ⟨rfl, rfl⟩
  have j : Last selStrict false l (dec {} l).flags.jpgStrict := by
    refine last_step selStrict (fun o : DecOpts => o.flags.jpgStrict) _ ?_ _ l
    intro o s; cases s <;> rfl
  unfold DecOpts.strictMode
  rw [k.1, k.2, Bool.or_self, Bool.or_self]
  exact j

example : ∀ s ∈ [DecSet.strictMode true, .limit 5], ∀ v, s ≠ .confirmAdler v ∧ s ≠ .confirmCrc v := by
  simp

/-- C136, refuted: asking for the checksums of PNG or zlib makes every decoder strict, even when strict mode was set off before. -/
theorem c136_strict_wrong (o : DecOpts) (l : List DecSet) (s : DecSet) (hs : s = .confirmCrc true ∨ s = .confirmAdler true) :
    (dec o (l ++ [.strictMode false, s])).strictMode = true ∧ Last selStrict false (l ++ [.strictMode false, s]) false := by
  constructor
  · rcases hs with rfl | rfl <;> simp [dec, DecOpts.strictMode, DecOpts.set]
  · refine Or.inl ⟨l, .strictMode false, [s], rfl, rfl, ?_⟩
    rcases hs with rfl | rfl <;> simp [selStrict]

example : (dec newFast [.limit 9, .strictMode false, .confirmCrc true]).strictMode = true :=
  (c136_strict_wrong newFast [.limit 9] _ (Or.inl rfl)).1

/-- C136: a path with intrinsics is taken only on machines that have them, whatever the options: what the comments `SAFETY` in the decoder of JPEG rely on. -/
theorem c136_present (m : Machine) (o : DecOpts) :
    (o.useSse2 m = true → m.sse2 = true) ∧ (o.useSse3 m = true → m.sse3 = true) ∧ (o.useSse41 m = true → m.sse41 = true) ∧
    (o.useAvx m = true → m.avx = true) ∧ (o.useAvx2 m = true → m.avx2 = true) ∧ (o.useNeon m = true → m.neon = true) := by
  unfold DecOpts.useSse2 DecOpts.useSse3 DecOpts.useSse41 DecOpts.useAvx DecOpts.useAvx2 DecOpts.useNeon
  refine ⟨?_, ?_, ?_, ?_, ?_, ?_⟩ <;>
  · intro h
    split at h
    · simp at h
    · split at h
      · assumption
      · simp at h

example : newSafe.useAvx2 ⟨true, true, true, true, true, false⟩ = true ∧ newSafe.useNeon ⟨true, true, true, true, true, false⟩ = false := by
  decide

/-- C136, refuted: no options turn intrinsics off.  Whatever is set after any constructor, `new_safe` and `set_use_unsafe(false)` included, the paths are taken on each machine that has
them. -/
theorem c136_unsafe_wrong {o : DecOpts} (h : Begin o) (l : List DecSet) (m : Machine) :
    (dec o l).useSse2 m = m.sse2 ∧ (dec o l).useSse3 m = m.sse3 ∧ (dec o l).useSse41 m = m.sse41 ∧
    (dec o l).useAvx m = m.avx ∧ (dec o l).useAvx2 m = m.avx2 ∧ (dec o l).useNeon m = m.neon := by
  rw [c136_begin h]
  have key : ∀ (l : List DecSet) (o : DecOpts),
      (dec o l).flags.sse2 = o.flags.sse2 ∧ (dec o l).flags.sse3 = o.flags.sse3 ∧ (dec o l).flags.sse41 = o.flags.sse41 ∧
      (dec o l).flags.avx = o.flags.avx ∧ (dec o l).flags.avx2 = o.flags.avx2 ∧ (dec o l).flags.neon = o.flags.neon := by
    intro l
    induction l with
    | nil => intro o; exact ⟨rfl, rfl, rfl, rfl, rfl, rfl⟩
    | cons s l ih =>
      intro o
      have := ih (o.set s)
      cases s <;> exact this
  obtain ⟨k1, k2, k3, k4, k5, k6⟩ := key l {}
  unfold DecOpts.useSse2 DecOpts.useSse3 DecOpts.useSse41 DecOpts.useAvx DecOpts.useAvx2 DecOpts.useNeon
  rw [k1, k2, k3, k4, k5, k6]
  simp [fastOptions]

example : Begin newSafe ∧ Last selUnsafe true [.useUnsafe false] false ∧
    (dec newSafe [.useUnsafe false]).useAvx2 ⟨true, true, true, true, true, false⟩ = true :=
  ⟨Or.inl rfl, Or.inl ⟨[], _, [], rfl, rfl, by simp⟩, by decide⟩

end Zune.Options
