/- C54: what the encoders are given, and what `encode_to_result` returns. -/
import Mathlib.Data.List.Forall2
import Verif.Image.Color

namespace Zune.Color
open Zune.Imageprocs (ColorSpace separate frameSlice imageSlices)
open Zune.Depth (BitDepth Samples F32 convert)

/-! ### Specification -/

/-- The defaults of an encoder are among what it supports. -/
structure Sensible (e : Encoder) : Prop where
  colored : ∀ cs, Colored (e.defaultCs cs)
  cs : ∀ cs, e.defaultCs cs ∈ e.colorspaces
  depth : ∀ d, e.defaultDepth d ∈ e.depths

/-- A channel after conversion of the depth. -/
def Deep (src dst : BitDepth) (c c' : Samples) : Prop := if src = dst then c' = c else convert src dst c = some c'

/-- The planes of `q` are those of `p` after conversion of the depth. -/
def Planes.Deep (src dst : BitDepth) (p q : Planes) : Prop :=
  Color.Deep src dst p.r q.r ∧ Color.Deep src dst p.g q.g ∧ Color.Deep src dst p.b q.b ∧
    match p.a, q.a with
    | none, none => True
    | some a, some a' => Color.Deep src dst a a'
    | _, _ => False

/-! ### Lemmas -/

theorem convert_spec' {src dst : BitDepth} (h : src ≠ dst) {c : Samples} (ht : typed src c) (n : Nat) (hn : byteLen c = sizeOf src * n) :
    ∃ c', convert src dst c = some c' ∧ typed dst c' ∧ byteLen c' = sizeOf dst * n := by
  cases src <;> cases dst <;> first | exact absurd rfl h | skip
  all_goals
    cases c <;> simp only [typed] at ht
    simp only [byteLen, sizeOf] at hn
    refine ⟨_, rfl, ?_, ?_⟩
    · simp [typed]
    · simp only [byteLen, sizeOf, List.length_map]; omega

theorem depth_ok {j : Image} (h : j.Ok) (hpos : 0 < j.cs.numComponents) (dst : BitDepth) :
    ∃ fs, convertDepth dst j = .ok { j with depth := dst, frames := fs } ∧ ({ j with depth := dst, frames := fs } : Image).Ok ∧
      List.Forall₂ (List.Forall₂ (Deep j.depth dst)) j.frames fs := by
  by_cases hd : j.depth = dst
  · refine ⟨j.frames, ?_, ?_, ?_⟩
    · have : ({ j with depth := dst, frames := j.frames } : Image) = j := by rw [← hd]
      rw [this]
      exact execute_ok h hpos (by rw [depthImpl, if_pos hd]) h hpos
    · have : ({ j with depth := dst, frames := j.frames } : Image) = j := by rw [← hd]
      rw [this]
      exact h
    · rw [List.forall₂_same]
      intro f _
      rw [List.forall₂_same]
      intro c _
      simp [Deep, hd]
  · have hc : ∀ f ∈ j.frames, ∀ c ∈ f, ∃ c', convert j.depth dst c = some c' ∧ typed dst c' ∧
        byteLen c' = sizeOf dst * (j.width * j.height) := by
      intro f hf c hc
      obtain ⟨ht, hl⟩ := h.fits f hf c hc
      exact convert_spec' hd ht _ (by rw [hl, Image.size, Nat.mul_assoc])
    let D : Samples → Samples := fun c => (convert j.depth dst c).getD c
    have hD : ∀ f ∈ j.frames, ∀ c ∈ f, convert j.depth dst c = some (D c) := by
      intro f hf c hcm
      obtain ⟨c', e, _⟩ := hc f hf c hcm
      simp [D, e]
    have hm : ∀ f ∈ j.frames, f.mapM (convert j.depth dst) = some (f.map D) := by
      intro f hf
      rw [mapM_isSome (.u8 []) _ f (fun c hcm => by rw [hD f hf c hcm]; rfl)]
      congr 1
      apply List.map_congr_left
      intro c hcm
      rw [hD f hf c hcm]
      rfl
    have hmm : j.frames.mapM (fun f => f.mapM (convert j.depth dst)) = some (j.frames.map (List.map D)) := by
      rw [mapM_isSome [] _ _ (fun f hf => by rw [hm f hf]; rfl)]
      congr 1
      apply List.map_congr_left
      intro f hf
      rw [hm f hf]
      rfl
    have hok : ({ j with depth := dst, frames := j.frames.map (List.map D) } : Image).Ok := by
      refine ⟨by simp [h.nonempty], ?_, ?_⟩
      · intro f' hf'
        obtain ⟨f, hf, rfl⟩ := List.mem_map.1 hf'
        rw [List.length_map]
        exact h.count f hf
      · intro f' hf' c' hc'
        obtain ⟨f, hf, rfl⟩ := List.mem_map.1 hf'
        obtain ⟨c, hcm, rfl⟩ := List.mem_map.1 hc'
        obtain ⟨c', e, ht, hl⟩ := hc f hf c hcm
        have : D c = c' := by simp [D, e]
        rw [this]
        exact ⟨ht, by rw [hl, Image.size, Nat.mul_assoc]⟩
    refine ⟨_, execute_ok h hpos ?_ hok hpos, hok, ?_⟩
    · rw [depthImpl, if_neg hd, hmm]
    · rw [List.forall₂_map_right_iff, List.forall₂_same]
      intro f hf
      rw [List.forall₂_map_right_iff, List.forall₂_same]
      intro c hcm
      rw [Deep, if_neg hd]
      exact hD f hf c hcm

/-- Depth conversion does not disturb the meaning. -/
theorem deep_meaning {src dst : BitDepth} {cs : ColorSpace} {f f' : List Samples} (h : List.Forall₂ (Deep src dst) f f') {p : Planes}
    (hp : meaning cs f = some p) : ∃ q, meaning cs f' = some q ∧ p.Deep src dst q := by
  unfold meaning at hp
  split at hp
  · rcases h with _ | ⟨hx, h⟩
    rcases h with _ | ⟨hy, h⟩
    rcases h with _ | ⟨hz, h⟩
    rcases h with _ | _
    simp only [Option.some.injEq] at hp
    rw [← hp]
    exact ⟨_, rfl, hx, hy, hz, trivial⟩
  · rcases h with _ | ⟨hx, h⟩
    rcases h with _ | ⟨hy, h⟩
    rcases h with _ | ⟨hz, h⟩
    rcases h with _ | ⟨hw, h⟩
    rcases h with _ | _
    simp only [Option.some.injEq] at hp
    rw [← hp]
    exact ⟨_, rfl, hx, hy, hz, hw⟩
  · rcases h with _ | ⟨hx, h⟩
    rcases h with _ | ⟨hy, h⟩
    rcases h with _ | ⟨hz, h⟩
    rcases h with _ | _
    simp only [Option.some.injEq] at hp
    rw [← hp]
    exact ⟨_, rfl, hz, hy, hx, trivial⟩
  · rcases h with _ | ⟨hx, h⟩
    rcases h with _ | ⟨hy, h⟩
    rcases h with _ | ⟨hz, h⟩
    rcases h with _ | ⟨hw, h⟩
    rcases h with _ | _
    simp only [Option.some.injEq] at hp
    rw [← hp]
    exact ⟨_, rfl, hz, hy, hx, hw⟩
  · rcases h with _ | ⟨hx, h⟩
    rcases h with _ | ⟨hy, h⟩
    rcases h with _ | ⟨hz, h⟩
    rcases h with _ | ⟨hw, h⟩
    rcases h with _ | _
    simp only [Option.some.injEq] at hp
    rw [← hp]
    exact ⟨_, rfl, hy, hz, hw, hx⟩
  · rcases h with _ | ⟨hx, h⟩
    rcases h with _ | _
    simp only [Option.some.injEq] at hp
    rw [← hp]
    exact ⟨_, rfl, hx, hx, hx, trivial⟩
  · rcases h with _ | ⟨hx, h⟩
    rcases h with _ | ⟨hy, h⟩
    rcases h with _ | _
    simp only [Option.some.injEq] at hp
    rw [← hp]
    exact ⟨_, rfl, hx, hx, hx, hy⟩
  · exact absurd hp (by simp)

/-- What alpha becomes in a colour space. -/
def Planes.fit (o : Samples) (cs : ColorSpace) (p : Planes) : Planes :=
  { p with a := if cs.hasAlpha then some (p.a.getD o) else none }

theorem fit_self {cs : ColorSpace} {f : List Samples} {p : Planes} (h : meaning cs f = some p) (o : Samples) : p.fit o cs = p := by
  unfold meaning at h
  split at h <;> try contradiction
  all_goals
    simp only [Option.some.injEq] at h
    rw [← h]
    rfl

/-! ### C54 -/

/-- The colour conversion step of `encode`. -/
theorem color_step (env : Env) (e : Encoder) (he : Sensible e) (i : Image) (h : i.Ok) (hs : Known i.cs) (ha : i.cs ≠ .ARGB) :
    ∃ j : Image, (if i.cs ∉ e.colorspaces then convertColor env (e.defaultCs i.cs) i else .ok i) = .ok j ∧ j.Ok ∧
      j.cs ∈ e.colorspaces ∧ Known j.cs ∧ j.depth = i.depth ∧ j.width = i.width ∧ j.height = i.height ∧
      j.cs = (if i.cs ∈ e.colorspaces then i.cs else e.defaultCs i.cs) ∧
      List.Forall₂ (fun f f' => ∃ p, meaning i.cs f = some p ∧ meaning j.cs f' = some (p.fit i.opaque j.cs)) i.frames j.frames := by
  by_cases hc : i.cs ∈ e.colorspaces
  · refine ⟨i, by rw [if_neg (by simpa using hc)], h, hc, hs, rfl, rfl, rfl, by rw [if_pos hc], ?_⟩
    rw [List.forall₂_same]
    intro f hf
    have hl := h.count f hf
    have : ∃ p, meaning i.cs f = some p := by
      generalize i.cs = cs at *
      rcases hs with (rfl | rfl | rfl | rfl | rfl) | rfl | rfl
      · obtain ⟨x, y, z, rfl⟩ := len3 hl; exact ⟨_, rfl⟩
      · obtain ⟨x, y, z, w, rfl⟩ := len4 hl; exact ⟨_, rfl⟩
      · obtain ⟨x, y, z, rfl⟩ := len3 hl; exact ⟨_, rfl⟩
      · obtain ⟨x, y, z, w, rfl⟩ := len4 hl; exact ⟨_, rfl⟩
      · obtain ⟨x, y, z, w, rfl⟩ := len4 hl; exact ⟨_, rfl⟩
      · obtain ⟨x, rfl⟩ := len1 hl; exact ⟨_, rfl⟩
      · obtain ⟨x, y, rfl⟩ := len2 hl; exact ⟨_, rfl⟩
    obtain ⟨p, hp⟩ := this
    exact ⟨p, hp, by rw [fit_self hp]; exact hp⟩
  · have hd := he.colored i.cs
    refine ⟨_, by rw [if_pos hc, convert_spec env h hs ha hd], relabel_ok h hs hd, he.cs i.cs, Or.inl hd, rfl, rfl, rfl,
      by rw [if_neg hc]; rfl, ?_⟩
    obtain ⟨fs, e1, e2, e3⟩ := c63_layout_partial env i h hs ha _ hd
    rw [convert_spec env h hs ha hd] at e1
    simp only [Except.ok.injEq, Image.conv, Image.mk.injEq, true_and] at e1
    simp only [Image.conv, e1]
    rw [List.forall₂_iff_get]
    refine ⟨e2.symm, ?_⟩
    intro k hk hk'
    exact e3 k hk hk'

/-- **C54** (encoding, all but the result).  For every encoder whose defaults are supported, and every well formed image in RGB, RGBA,
    BGR, BGRA, Luma or LumaA of any depth, `encode` writes exactly what the format's `encode_inner` writes for an image of the same
    dimensions and number of frames, in a supported colour space and depth, whose planes are those of the given image after
    the depth conversion of C30, with alpha kept, dropped or opaque.
    Missing: `encode_to_result`, for which C54 is false (`c54_result_empty`), and the other colour spaces. -/
theorem c54_encode_partial (env : Env) (e : Encoder) (he : Sensible e) (i : Image) (h : i.Ok) (hs : Known i.cs) (ha : i.cs ≠ .ARGB) :
    ∃ j : Image, encode env e i = e.inner j ∧ j.Ok ∧ j.cs ∈ e.colorspaces ∧ j.depth ∈ e.depths ∧
      j.width = i.width ∧ j.height = i.height ∧ j.cs = (if i.cs ∈ e.colorspaces then i.cs else e.defaultCs i.cs) ∧
      j.depth = (if i.depth ∈ e.depths then i.depth else e.defaultDepth i.depth) ∧
      List.Forall₂ (fun f f' => ∃ p q, meaning i.cs f = some p ∧ meaning j.cs f' = some q ∧
        (p.fit i.opaque j.cs).Deep i.depth j.depth q) i.frames j.frames := by
  obtain ⟨j, h1, hok, h2, hk, h3, h4, h5, h6, h7⟩ := color_step env e he i h hs ha
  have hpos := known_pos hk
  unfold encode
  rw [confirm_ok h (known_pos hs)]
  simp only
  by_cases hc : i.cs ∉ e.colorspaces ∨ i.depth ∉ e.depths ∨ i.premultiplied
  · rw [if_pos hc, h1]
    simp only
    by_cases hd : i.depth ∉ e.depths
    · rw [if_pos hd]
      obtain ⟨fs, d1, d2, d3⟩ := depth_ok hok hpos (e.defaultDepth i.depth)
      rw [d1]
      simp only
      rw [confirm_ok d2 hpos]
      refine ⟨_, rfl, d2, h2, he.depth _, h4, h5, h6, by rw [if_neg hd], ?_⟩
      rw [List.forall₂_iff_get] at h7 d3 ⊢
      refine ⟨h7.1.trans d3.1, ?_⟩
      intro k hk hk'
      obtain ⟨p, hp, hp'⟩ := h7.2 k hk (by rw [← h7.1]; exact hk)
      obtain ⟨q, hq, hq'⟩ := deep_meaning (d3.2 k (by rw [← h7.1]; exact hk) hk') hp'
      refine ⟨p, q, hp, hq, ?_⟩
      rw [h3] at hq'
      exact hq'
    · rw [if_neg hd]
      simp only
      rw [confirm_ok hok hpos]
      refine ⟨j, rfl, hok, h2, by rw [h3]; simpa using hd, h4, h5, h6, by rw [h3, if_pos (by simpa using hd)], ?_⟩
      refine h7.imp ?_
      rintro f f' ⟨p, hp, hp'⟩
      refine ⟨p, _, hp, hp', ?_⟩
      rw [h3]
      unfold Planes.Deep Deep Planes.fit
      cases j.cs.hasAlpha <;> simp
  · rw [if_neg hc]
    simp only [not_or, not_not] at hc
    rw [if_neg (by simpa using hc.1)] at h1
    simp only [Except.ok.injEq] at h1
    rw [← h1] at h6 h7
    refine ⟨i, rfl, h, hc.1, hc.2.1, rfl, rfl, h6, by rw [if_pos hc.2.1], ?_⟩
    refine h7.imp ?_
    rintro f f' ⟨p, hp, hp'⟩
    refine ⟨p, _, hp, hp', ?_⟩
    unfold Planes.Deep Deep Planes.fit
    cases i.cs.hasAlpha <;> simp

/-- The encoders of the crate. -/
theorem sensible_all (inner : Image → Except Err (List UInt8)) :
    Sensible (farbfeldEncoder inner) ∧ Sensible (hdrEncoder inner) ∧ Sensible (jpegEncoder inner) ∧ Sensible (jxlEncoder inner) ∧
      Sensible (pngEncoder inner) ∧ Sensible (ppmEncoder inner) ∧ Sensible (qoiEncoder inner) := by
  have h : ∀ d, deepDepth d = .eight ∨ deepDepth d = .sixteen := fun d => by cases d <;> simp [deepDepth]
  refine ⟨⟨?_, ?_, ?_⟩, ⟨?_, ?_, ?_⟩, ⟨?_, ?_, ?_⟩, ⟨?_, ?_, ?_⟩, ⟨?_, ?_, ?_⟩, ⟨?_, ?_, ?_⟩, ⟨?_, ?_, ?_⟩⟩ <;> intro x <;>
    simp only [farbfeldEncoder, hdrEncoder, jpegEncoder, jxlEncoder, pngEncoder, ppmEncoder, qoiEncoder, Colored]
  all_goals first
    | (simp; done)
    | (rcases h x with e | e <;> simp [e]; done)
    | (cases x.hasAlpha <;> simp; done)

example : Sensible (pngEncoder fun _ => .ok [1, 2, 3]) ∧
    (sample .BGRA [.u8 [1, 2], .u8 [3, 4], .u8 [5, 6], .u8 [7, 8]] [.u8 [1, 2], .u8 [3, 4], .u8 [5, 6], .u8 [7, 8]]).Ok :=
  ⟨(sensible_all _).2.2.2.2.1, ok_of (by decide) (by decide) (by decide) (by decide)⟩

/-- **C54** (disagreement, general).  `encode_to_result` returns no bytes, whatever the encoder wrote. -/
theorem c54_result_empty (env : Env) (e : Encoder) (i : Image) (bytes : List UInt8) (h : encode env e i = .ok bytes) :
    encodeToResult env e i = .ok [] ∧ (bytes ≠ [] → encodeToResult env e i ≠ .ok bytes) := by
  have : encodeToResult env e i = .ok [] := by unfold encodeToResult; rw [h]
  refine ⟨this, fun hb e' => hb ?_⟩
  rw [this] at e'
  simpa using e'.symm

example : encode (env0 .scalar) (qoiEncoder fun _ => .ok [1, 2, 3])
    (sample .RGB [.u8 [1, 2], .u8 [3, 4], .u8 [5, 6]] [.u8 [1, 2], .u8 [3, 4], .u8 [5, 6]]) = .ok [1, 2, 3] := by decide +kernel

/-- **C54** (disagreement, general).  `encode` clones an image with premultiplied alpha but never divides by alpha: an encoder that does
    not look at the flag writes the same bytes for it as for the same samples without the flag. -/
theorem c54_premultiplied_ignored (env : Env) (e : Encoder) (i : Image) (h : i.Ok) (hs : Known i.cs)
    (hc : i.cs ∈ e.colorspaces) (hd : i.depth ∈ e.depths)
    (hin : ∀ (j : Image) (b : Bool), e.inner { j with premultiplied := b } = e.inner j) :
    encode env e { i with premultiplied := true } = encode env e { i with premultiplied := false } := by
  have h1 : ({ i with premultiplied := true } : Image).Ok := ⟨h.nonempty, h.count, h.fits⟩
  have h2 : ({ i with premultiplied := false } : Image).Ok := ⟨h.nonempty, h.count, h.fits⟩
  unfold encode
  rw [confirm_ok h1 (known_pos hs), confirm_ok h2 (known_pos hs)]
  simp only [hc, hd, not_true_eq_false, false_or, if_true, if_false, confirm_ok h1 (known_pos hs)]
  rw [hin i true, if_neg (by simp), hin i false]

example : (sample .RGBA [.u8 [1, 2], .u8 [3, 4], .u8 [5, 6], .u8 [7, 8]] [.u8 [1, 2], .u8 [3, 4], .u8 [5, 6], .u8 [7, 8]]).Ok ∧
    ColorSpace.RGBA ∈ (qoiEncoder fun _ => .ok [1]).colorspaces ∧ BitDepth.eight ∈ (qoiEncoder fun _ => .ok [1]).depths :=
  ⟨ok_of (by decide) (by decide) (by decide) (by decide), by decide, by decide⟩

/-- **C54** (disagreement, general).  The PNG, JPEG XL and PPM encoders support RGBA, but a BGRA image is handed to them as RGB: its alpha
    channel is lost (the QOI encoder keeps it). -/
theorem c54_alpha_dropped (env : Env) (inner : Image → Except Err (List UInt8)) (e : Encoder)
    (he : e = pngEncoder inner ∨ e = jxlEncoder inner ∨ e = ppmEncoder inner) (i : Image) (h : i.Ok) (hc : i.cs = .BGRA) :
    ColorSpace.RGBA ∈ e.colorspaces ∧ ∃ j : Image, encode env e i = inner j ∧ j.cs = .RGB ∧
      ∀ f ∈ j.frames, f.length = 3 := by
  have hs := sensible_all inner
  have hse : Sensible e := by rcases he with rfl | rfl | rfl <;> simp only [hs]
  obtain ⟨j, h1, h2, _, _, _, _, h6, _, _⟩ := c54_encode_partial env e hse i h (by rw [hc]; simp [Known, Colored]) (by rw [hc]; decide)
  have hj : j.cs = .RGB := by
    rw [h6, hc]
    rcases he with rfl | rfl | rfl <;> rfl
  refine ⟨by rcases he with rfl | rfl | rfl <;> simp [pngEncoder, jxlEncoder, ppmEncoder], j, ?_, hj, ?_⟩
  · rw [h1]
    rcases he with rfl | rfl | rfl <;> rfl
  · intro f hf
    rw [h2.count f hf, hj]
    rfl

end Zune.Color
