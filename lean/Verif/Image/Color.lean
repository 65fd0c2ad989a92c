/- C54, C63, C64: colour space conversion and encoding. -/
import Verif.Image.ColorModel

namespace Zune.Color
open Zune.Imageprocs (ColorSpace separate frameSlice imageSlices)
open Zune.Depth (BitDepth Samples F32 convert)

/-! ### Specification -/

/-- The planes of a picture: red, green, blue, and alpha if there is one. -/
structure Planes where
  r : Samples
  g : Samples
  b : Samples
  a : Option Samples
  deriving DecidableEq, Repr

/-- What the channels of a frame mean in a colour space. -/
def meaning : ColorSpace → List Samples → Option Planes
  | .RGB, [r, g, b] => some ⟨r, g, b, none⟩
  | .RGBA, [r, g, b, a] => some ⟨r, g, b, some a⟩
  | .BGR, [b, g, r] => some ⟨r, g, b, none⟩
  | .BGRA, [b, g, r, a] => some ⟨r, g, b, some a⟩
  | .ARGB, [a, r, g, b] => some ⟨r, g, b, some a⟩
  | .Luma, [l] => some ⟨l, l, l, none⟩
  | .LumaA, [l, a] => some ⟨l, l, l, some a⟩
  | _, _ => none

/-- The samples have the type of the depth. -/
def typed : BitDepth → Samples → Prop
  | .eight, .u8 _ => True
  | .sixteen, .u16 _ => True
  | .float32, .f32 _ => True
  | _, _ => False

/-- The number of bytes of a channel. -/
def Image.size (i : Image) : Nat := sizeOf i.depth * i.width * i.height

/-- The plane of an opaque image. -/
def Image.opaque (i : Image) : Samples :=
  match i.depth with
  | .eight => .u8 (List.replicate (i.width * i.height) 255)
  | .sixteen => .u16 (List.replicate (i.width * i.height) 65535)
  | .float32 => .f32 (List.replicate (i.width * i.height) ⟨1, 0⟩)

/-- A channel of the right type and length. -/
def Image.Fits (i : Image) (c : Samples) : Prop := typed i.depth c ∧ byteLen c = i.size

/-- A well formed image with at least one frame. -/
structure Image.Ok (i : Image) : Prop where
  nonempty : i.frames ≠ []
  count : ∀ f ∈ i.frames, f.length = i.cs.numComponents
  fits : ∀ f ∈ i.frames, ∀ c ∈ f, i.Fits c

/-- The frame of a picture in a colour space, with `o` where alpha is needed and there is none. -/
def build (o : Samples) : ColorSpace → Planes → List Samples
  | .RGB, p => [p.r, p.g, p.b]
  | .RGBA, p => [p.r, p.g, p.b, p.a.getD o]
  | .BGR, p => [p.b, p.g, p.r]
  | .BGRA, p => [p.b, p.g, p.r, p.a.getD o]
  | .ARGB, p => [p.a.getD o, p.r, p.g, p.b]
  | _, _ => []

/-! ### Lemmas -/

theorem mapM_isSome {β γ : Type} (d : γ) (f : β → Option γ) : ∀ (l : List β), (∀ x ∈ l, (f x).isSome) →
    l.mapM f = some (l.map fun x => (f x).getD d)
  | [], _ => rfl
  | x :: l, h => by
    obtain ⟨y, hy⟩ := Option.isSome_iff_exists.1 (h x (by simp))
    rw [List.mapM_cons, hy, mapM_isSome d f l (fun y hy => h y (by simp [hy]))]
    simp [hy]

theorem len1 {α : Type} {l : List α} (h : l.length = 1) : ∃ a, l = [a] := List.length_eq_one_iff.1 h
theorem len2 {α : Type} {l : List α} (h : l.length = 2) : ∃ a b, l = [a, b] := List.length_eq_two.1 h
theorem len3 {α : Type} {l : List α} (h : l.length = 3) : ∃ a b c, l = [a, b, c] := List.length_eq_three.1 h
theorem len4 {α : Type} {l : List α} (h : l.length = 4) : ∃ a b c d, l = [a, b, c, d] := by
  match l, h with
  | [a, b, c, d], _ => exact ⟨a, b, c, d, rfl⟩

/-- The colour channels of a frame with the right number of channels. -/
theorem slice_spec (cs : ColorSpace) (hcs : 0 < cs.numComponents) (f : List Samples) (h : f.length = cs.numComponents) :
    ∃ b s a, frameSlice cs true f = some (b, s, a) ∧ s ≠ [] ∧ ∀ c ∈ s, c ∈ f := by
  by_cases ha : cs.hasAlpha = true
  · cases cs <;> simp only [ColorSpace.hasAlpha, Bool.false_eq_true] at ha
    · obtain ⟨x, y, z, w, rfl⟩ := len4 h
      exact ⟨_, _, _, rfl, by simp, by simp⟩
    · obtain ⟨x, y, rfl⟩ := len2 h
      exact ⟨_, _, _, rfl, by simp, by simp⟩
    · obtain ⟨x, y, z, w, rfl⟩ := len4 h
      exact ⟨_, _, _, rfl, by simp, by simp⟩
    · obtain ⟨x, y, z, w, rfl⟩ := len4 h
      exact ⟨_, _, _, rfl, by simp, by simp⟩
  · have ha' : cs.hasAlpha = false := by simpa using ha
    refine ⟨[], f, [], ?_, ?_, fun c hc => hc⟩
    · unfold frameSlice
      rw [ha', ← h]
      simp
    · intro e
      rw [e] at h
      simp at h
      omega

theorem colors_spec {i : Image} (h : i.Ok) (hcs : 0 < i.cs.numComponents) :
    ∃ c l, colorChannels i = some (c :: l) ∧ ∀ x ∈ c :: l, i.Fits x := by
  have hs : ∀ f ∈ i.frames, (frameSlice i.cs true f).isSome := by
    intro f hf
    obtain ⟨b, s, a, e, _⟩ := slice_spec i.cs hcs f (h.count f hf)
    rw [e]; rfl
  have hm := mapM_isSome ([], [], []) (frameSlice i.cs true) i.frames hs
  unfold colorChannels imageSlices
  rw [hm]
  simp only [Option.map_some]
  generalize hl : (List.map (fun t => t.2.1) (List.map (fun x => (frameSlice i.cs true x).getD ([], [], [])) i.frames)).flatten = l
  have hall : ∀ x ∈ l, i.Fits x := by
    intro x hx
    rw [← hl, List.map_map, List.mem_flatten] at hx
    obtain ⟨s, hs, hx⟩ := hx
    obtain ⟨f, hf, rfl⟩ := List.mem_map.1 hs
    obtain ⟨b, s, a, e, _, hsub⟩ := slice_spec i.cs hcs f (h.count f hf)
    simp only [Function.comp, e, Option.getD_some] at hx
    exact h.fits f hf x (hsub x hx)
  have hne : l ≠ [] := by
    obtain ⟨f, fs, hfs⟩ := List.exists_cons_of_ne_nil h.nonempty
    have hf : f ∈ i.frames := by simp [hfs]
    obtain ⟨b, s, a, e, hne, _⟩ := slice_spec i.cs hcs f (h.count f hf)
    rw [← hl, hfs]
    simp [e, hne]
  obtain ⟨c, t, rfl⟩ := List.exists_cons_of_ne_nil hne
  exact ⟨c, t, rfl, hall⟩

theorem confirm_ok {i : Image} (h : i.Ok) (hcs : 0 < i.cs.numComponents) : confirm i = .ok () := by
  obtain ⟨c, l, e, hc⟩ := colors_spec h hcs
  unfold confirm
  rw [if_neg, e]
  · simp only
    rw [if_neg]
    intro hany
    obtain ⟨x, hx, hb⟩ := List.any_eq_true.1 hany
    have := (hc x hx).2
    rw [Image.size] at this
    simp [this] at hb
  · intro hany
    obtain ⟨f, hf, hb⟩ := List.any_eq_true.1 hany
    simp [h.count f hf] at hb

theorem execute_ok {g : Image → Except Err Image} {i j : Image} (hi : i.Ok) (hic : 0 < i.cs.numComponents) (hg : g i = .ok j)
    (hj : j.Ok) (hjc : 0 < j.cs.numComponents) : execute g i = .ok j := by
  unfold execute
  rw [if_neg, confirm_ok hi hic]
  · simp only [hg, confirm_ok hj hjc]
  · intro e
    rw [e] at hic
    exact absurd hic (by decide)

theorem opaque_eq {i : Image} : opaqueChannel i.depth i.size = i.opaque := by
  unfold opaqueChannel Image.opaque Image.size
  cases i.depth
  · simp [sizeOf]
  · simp only [sizeOf]
    rw [Nat.mul_assoc, Nat.mul_div_cancel_left _ (by omega)]
  · simp only [sizeOf]
    rw [Nat.mul_assoc, Nat.mul_div_cancel_left _ (by omega)]
    rfl

theorem opaque_fits (i : Image) : i.Fits i.opaque := by
  unfold Image.Fits Image.opaque Image.size
  cases i.depth <;> simp [typed, byteLen, sizeOf, Nat.mul_assoc]

/-- The image with other frames and another colour space. -/
def Image.conv (i : Image) (cs : ColorSpace) (g : List Samples → List Samples) : Image :=
  { i with cs := cs, frames := i.frames.map g }

theorem conv_ok {i : Image} (h : i.Ok) {cs : ColorSpace} {g : List Samples → List Samples}
    (hg : ∀ f ∈ i.frames, (g f).length = cs.numComponents ∧ ∀ c ∈ g f, c ∈ f ∨ c = i.opaque) : (i.conv cs g).Ok := by
  refine ⟨by simp [Image.conv, h.nonempty], ?_, ?_⟩
  · intro f' hf'
    obtain ⟨f, hf, rfl⟩ := List.mem_map.1 hf'
    exact (hg f hf).1
  · intro f' hf' c hc
    obtain ⟨f, hf, rfl⟩ := List.mem_map.1 hf'
    rcases (hg f hf).2 c hc with h1 | rfl
    · exact h.fits f hf c h1
    · exact opaque_fits i

theorem conv_congr {i : Image} {cs : ColorSpace} {g g' : List Samples → List Samples} (h : ∀ f ∈ i.frames, g f = g' f) :
    i.conv cs g = i.conv cs g' := by
  unfold Image.conv
  rw [List.map_congr_left h]

theorem addOpaque_spec {i : Image} (h : i.Ok) (hcs : 0 < i.cs.numComponents) :
    addOpaqueAlpha i = .ok (i.conv i.cs fun f => f ++ [i.opaque]) := by
  obtain ⟨c, l, e, hc⟩ := colors_spec h hcs
  unfold addOpaqueAlpha
  rw [e]
  simp only [(hc c (by simp)).2, opaque_eq]
  rfl

/-- The frame `f` of colour space `src` in colour space `dst`. -/
def relabel (o : Samples) (src dst : ColorSpace) (f : List Samples) : List Samples :=
  match meaning src f with
  | some p => build o dst p
  | none => f

/-- The colour spaces with separate colours. -/
def Colored (cs : ColorSpace) : Prop := cs = .RGB ∨ cs = .RGBA ∨ cs = .BGR ∨ cs = .BGRA ∨ cs = .ARGB

/-- The colour spaces whose meaning is known. -/
def Known (cs : ColorSpace) : Prop := Colored cs ∨ cs = .Luma ∨ cs = .LumaA

theorem relabel_spec {src dst : ColorSpace} (hs : Known src) (hd : Colored dst) (o : Samples) (f : List Samples)
    (h : f.length = src.numComponents) :
    (relabel o src dst f).length = dst.numComponents ∧ ∀ c ∈ relabel o src dst f, c ∈ f ∨ c = o := by
  rcases hs with (rfl | rfl | rfl | rfl | rfl) | rfl | rfl
  · obtain ⟨x, y, z, rfl⟩ := len3 h
    rcases hd with rfl | rfl | rfl | rfl | rfl <;> simp [relabel, meaning, build, ColorSpace.numComponents]
  · obtain ⟨x, y, z, w, rfl⟩ := len4 h
    rcases hd with rfl | rfl | rfl | rfl | rfl <;> simp [relabel, meaning, build, ColorSpace.numComponents]
  · obtain ⟨x, y, z, rfl⟩ := len3 h
    rcases hd with rfl | rfl | rfl | rfl | rfl <;> simp [relabel, meaning, build, ColorSpace.numComponents]
  · obtain ⟨x, y, z, w, rfl⟩ := len4 h
    rcases hd with rfl | rfl | rfl | rfl | rfl <;> simp [relabel, meaning, build, ColorSpace.numComponents]
  · obtain ⟨x, y, z, w, rfl⟩ := len4 h
    rcases hd with rfl | rfl | rfl | rfl | rfl <;> simp [relabel, meaning, build, ColorSpace.numComponents]
  · obtain ⟨x, rfl⟩ := len1 h
    rcases hd with rfl | rfl | rfl | rfl | rfl <;> simp [relabel, meaning, build, ColorSpace.numComponents]
  · obtain ⟨x, y, rfl⟩ := len2 h
    rcases hd with rfl | rfl | rfl | rfl | rfl <;> simp [relabel, meaning, build, ColorSpace.numComponents]

theorem relabel_ok {i : Image} (h : i.Ok) {dst : ColorSpace} (hs : Known i.cs) (hd : Colored dst) :
    (i.conv dst (relabel i.opaque i.cs dst)).Ok :=
  conv_ok h fun f hf => relabel_spec hs hd _ f (h.count f hf)

theorem colored_pos {cs : ColorSpace} (h : Colored cs) : 0 < cs.numComponents := by
  rcases h with rfl | rfl | rfl | rfl | rfl <;> decide

theorem known_pos {cs : ColorSpace} (h : Known cs) : 0 < cs.numComponents := by
  rcases h with h | rfl | rfl
  · exact colored_pos h
  · decide
  · decide

/-- A frame function that never panics on frames with `n` channels. -/
theorem mapM_frames {i : Image} (h : i.Ok) {F : List Samples → Option (List Samples)} {G : List Samples → List Samples}
    (hF : ∀ f : List Samples, f.length = i.cs.numComponents → F f = some (G f)) : i.frames.mapM F = some (i.frames.map G) := by
  rw [mapM_isSome [] F i.frames (fun f hf => by rw [hF f (h.count f hf)]; rfl)]
  congr 1
  apply List.map_congr_left
  intro f hf
  rw [hF f (h.count f hf)]
  rfl

theorem rotate_spec {i : Image} (h : i.Ok) (h4 : i.cs.numComponents = 4) :
    rotate i = .ok (i.conv i.cs fun f => (f.drop 3) ++ f.take 3) := by
  unfold rotate
  rw [mapM_frames h (G := fun f => (f.drop 3) ++ f.take 3)]
  · rfl
  · intro f hf
    rw [h4] at hf
    obtain ⟨x, y, z, w, rfl⟩ := len4 hf
    rfl

theorem fromRgb_spec (env : Env) {i : Image} (h : i.Ok) (hc : i.cs = .RGB) {dst : ColorSpace} (hd : Colored dst) (hne : dst ≠ .RGB) :
    setCs dst (fromRgb env dst i) = .ok (i.conv dst (relabel i.opaque .RGB dst)) := by
  have hpos : 0 < i.cs.numComponents := by rw [hc]; decide
  have hcount : ∀ f ∈ i.frames, f.length = 3 := fun f hf => by rw [h.count f hf, hc]; rfl
  rcases hd with rfl | rfl | rfl | rfl | rfl
  · exact absurd rfl hne
  · rw [fromRgb, addOpaque_spec h hpos]
    simp only [setCs, Image.conv, Except.ok.injEq, Image.mk.injEq, true_and, and_true]
    apply List.map_congr_left
    intro f hf
    obtain ⟨x, y, z, rfl⟩ := len3 (hcount f hf)
    rfl
  · rw [fromRgb, rgbBgr, mapM_frames h (G := relabel i.opaque .RGB .BGR)]
    · rfl
    · intro f hf
      rw [hc] at hf
      obtain ⟨x, y, z, rfl⟩ := len3 hf
      rfl
  · rw [fromRgb, rgbBgr, mapM_frames h (G := fun f => relabel i.opaque .RGB .BGR f)]
    · simp only [reduceCtorEq, or_true, and_self, if_true]
      have hok : (i.conv .RGB fun f => relabel i.opaque .RGB .BGR f).Ok :=
        conv_ok h fun f hf => relabel_spec (dst := .BGR) (Or.inl (Or.inl rfl)) (by simp [Colored]) _ f (hcount f hf)
      have e : ({ i with frames := List.map (fun f => relabel i.opaque .RGB .BGR f) i.frames } : Image) =
          i.conv .RGB fun f => relabel i.opaque .RGB .BGR f := by rw [Image.conv, ← hc]
      rw [e, addOpaque_spec hok (show 0 < 3 by decide)]
      simp only [setCs, Image.conv, List.map_map, Except.ok.injEq, Image.mk.injEq, true_and, and_true]
      apply List.map_congr_left
      intro f hf
      obtain ⟨x, y, z, rfl⟩ := len3 (hcount f hf)
      rfl
    · intro f hf
      rw [hc] at hf
      obtain ⟨x, y, z, rfl⟩ := len3 hf
      rfl
  · rw [fromRgb, rgbToArgb, addOpaque_spec h hpos]
    simp only
    have hl : ∀ f' ∈ (i.conv i.cs fun f => f ++ [i.opaque]).frames, f'.length = 4 := by
      intro f' hf'
      obtain ⟨f, hf, rfl⟩ := List.mem_map.1 hf'
      simp [hcount f hf]
    unfold rotate
    rw [mapM_isSome [] rotateFrame _ (fun f hf => by obtain ⟨x, y, z, w, rfl⟩ := len4 (hl f hf); rfl)]
    simp only [setCs, Image.conv, List.map_map, Except.ok.injEq, Image.mk.injEq, true_and, and_true]
    apply List.map_congr_left
    intro f hf
    obtain ⟨x, y, z, rfl⟩ := len3 (hcount f hf)
    rfl

theorem fromRgba_spec (env : Env) {i : Image} (h : i.Ok) (hc : i.cs = .RGBA) {dst : ColorSpace} (hd : Colored dst) (hne : dst ≠ .RGBA) :
    setCs dst (fromRgba env dst i) = .ok (i.conv dst (relabel i.opaque .RGBA dst)) := by
  have h4 : i.cs.numComponents = 4 := by rw [hc]; rfl
  rcases hd with rfl | rfl | rfl | rfl | rfl
  · rw [fromRgba, popChannel, mapM_frames h (G := relabel i.opaque .RGBA .RGB)]
    · rfl
    · intro f hf
      obtain ⟨x, y, z, w, rfl⟩ := len4 (hf.trans h4)
      rfl
  · exact absurd rfl hne
  · rw [fromRgba, rgbBgr, mapM_frames h (G := relabel i.opaque .RGBA .BGR)]
    · rfl
    · intro f hf
      obtain ⟨x, y, z, w, rfl⟩ := len4 (hf.trans h4)
      rfl
  · rw [fromRgba, rgbBgr, mapM_frames h (G := relabel i.opaque .RGBA .BGRA)]
    · rfl
    · intro f hf
      obtain ⟨x, y, z, w, rfl⟩ := len4 (hf.trans h4)
      rfl
  · rw [fromRgba, rgbaArgb, if_pos (Or.inl hc), rotate, mapM_frames h (G := relabel i.opaque .RGBA .ARGB)]
    · rfl
    · intro f hf
      obtain ⟨x, y, z, w, rfl⟩ := len4 (hf.trans h4)
      rfl

theorem relabel_self {i : Image} (h : i.Ok) (hc : Colored i.cs) : i.conv i.cs (relabel i.opaque i.cs i.cs) = i := by
  have : i.conv i.cs (relabel i.opaque i.cs i.cs) = i.conv i.cs id := by
    apply conv_congr
    intro f hf
    have hl := h.count f hf
    generalize i.cs = cs at *
    rcases hc with rfl | rfl | rfl | rfl | rfl
    · obtain ⟨x, y, z, rfl⟩ := len3 hl; rfl
    · obtain ⟨x, y, z, w, rfl⟩ := len4 hl; rfl
    · obtain ⟨x, y, z, rfl⟩ := len3 hl; rfl
    · obtain ⟨x, y, z, w, rfl⟩ := len4 hl; rfl
    · obtain ⟨x, y, z, w, rfl⟩ := len4 hl; rfl
  rw [this, Image.conv]
  simp

theorem convertColor1_spec (env : Env) {i : Image} (h : i.Ok) (hc : i.cs = .RGB ∨ i.cs = .RGBA) {dst : ColorSpace} (hd : Colored dst) :
    convertColor1 env dst i = .ok (i.conv dst (relabel i.opaque i.cs dst)) := by
  have hk : Known i.cs := by rcases hc with e | e <;> rw [e] <;> simp [Known, Colored]
  apply execute_ok h (known_pos hk) _ (relabel_ok h hk hd) (colored_pos hd)
  unfold impl1
  by_cases he : i.cs = dst
  · rw [if_pos he, ← he, relabel_self h (by rcases hc with e | e <;> rw [e] <;> simp [Colored])]
  · rw [if_neg he]
    rcases hc with e | e
    · rw [e]
      simp only
      rw [fromRgb_spec env h e hd (fun k => he (e.trans k.symm))]
    · rw [e]
      simp only
      rw [fromRgba_spec env h e hd (fun k => he (e.trans k.symm))]

/-- Going through RGB or RGBA. -/
theorem andThen_spec (env : Env) {i : Image} (h : i.Ok) {via dst : ColorSpace} (hv : via = .RGB ∨ via = .RGBA) (hs : Known i.cs)
    (hd : Colored dst) {r : Except Err Image} (hr : setCs via r = .ok (i.conv via (relabel i.opaque i.cs via)))
    (hrel : ∀ f, f.length = i.cs.numComponents →
      relabel i.opaque via dst (relabel i.opaque i.cs via f) = relabel i.opaque i.cs dst f) :
    setCs dst (andThen env via dst r) = .ok (i.conv dst (relabel i.opaque i.cs dst)) := by
  have hvc : Colored via := by rcases hv with e | e <;> rw [e] <;> simp [Colored]
  unfold andThen
  rw [hr]
  simp only
  rw [convertColor1_spec env (relabel_ok h hs hvc) hv hd]
  simp only [setCs, Image.conv, List.map_map, Except.ok.injEq, Image.mk.injEq, true_and, and_true]
  apply List.map_congr_left
  intro f hf
  exact hrel f (h.count f hf)

theorem lumaToRgb_spec {i : Image} (h : i.Ok) {dst : ColorSpace} (hd : dst = .RGB ∧ i.cs = .Luma ∨ i.cs = .LumaA ∧ (dst = .RGB ∨ dst = .RGBA)) :
    setCs dst (lumaToRgb dst i) = .ok (i.conv dst (relabel i.opaque i.cs dst)) := by
  have hm : ∀ (l : List (List Samples)), (∀ f ∈ l, f.length = i.cs.numComponents) →
      l.mapM (lumaFrame i.cs dst) = Except.ok (l.map (relabel i.opaque i.cs dst)) := by
    intro l
    induction l with
    | nil => intro _; rfl
    | cons f l ih =>
      intro hl
      have hf : lumaFrame i.cs dst f = .ok (relabel i.opaque i.cs dst f) := by
        have hlen := hl f (by simp)
        generalize i.cs = cs at *
        rcases hd with ⟨rfl, rfl⟩ | ⟨rfl, rfl | rfl⟩
        · obtain ⟨x, rfl⟩ := len1 hlen; rfl
        · obtain ⟨x, y, rfl⟩ := len2 hlen; rfl
        · obtain ⟨x, y, rfl⟩ := len2 hlen; rfl
      rw [List.mapM_cons, hf, ih (fun g hg => hl g (by simp [hg]))]
      rfl
  unfold lumaToRgb
  rw [hm _ h.count]
  rfl

theorem impl_spec (env : Env) {i : Image} (h : i.Ok) (hs : Known i.cs) (ha : i.cs ≠ .ARGB) {dst : ColorSpace} (hd : Colored dst) :
    impl env dst i = .ok (i.conv dst (relabel i.opaque i.cs dst)) := by
  unfold impl
  by_cases he : i.cs = dst
  · rw [if_pos he, ← he, relabel_self h (he ▸ hd)]
  rw [if_neg he]
  have hne : dst ≠ i.cs := fun k => he k.symm
  have hcount := h.count
  rcases hs with (e | e | e | e | e) | e | e
  · rw [e] at hne ⊢
    exact fromRgb_spec env h e hd hne
  · rw [e] at hne ⊢
    exact fromRgba_spec env h e hd hne
  · have hr : setCs .RGB (rgbBgr .BGR .RGB i) = .ok (i.conv .RGB (relabel i.opaque i.cs .RGB)) := by
      rw [rgbBgr, mapM_frames h (G := relabel i.opaque i.cs .RGB)]
      · rfl
      · intro f hf
        rw [e] at hf ⊢
        obtain ⟨x, y, z, rfl⟩ := len3 hf
        rfl
    have := andThen_spec env h (Or.inl rfl) (by rw [e]; simp [Known, Colored]) hd hr (by
      intro f hf
      rw [e] at hf ⊢
      obtain ⟨x, y, z, rfl⟩ := len3 hf
      rcases hd with rfl | rfl | rfl | rfl | rfl <;> rfl)
    rw [e] at this ⊢
    exact this
  · have hr : setCs .RGBA (rgbBgr .BGRA .RGBA i) = .ok (i.conv .RGBA (relabel i.opaque i.cs .RGBA)) := by
      rw [rgbBgr, mapM_frames h (G := relabel i.opaque i.cs .RGBA)]
      · rfl
      · intro f hf
        rw [e] at hf ⊢
        obtain ⟨x, y, z, w, rfl⟩ := len4 hf
        rfl
    have := andThen_spec env h (Or.inr rfl) (by rw [e]; simp [Known, Colored]) hd hr (by
      intro f hf
      rw [e] at hf ⊢
      obtain ⟨x, y, z, w, rfl⟩ := len4 hf
      rcases hd with rfl | rfl | rfl | rfl | rfl <;> rfl)
    rw [e] at this ⊢
    exact this
  · exact absurd e ha
  · have hr := lumaToRgb_spec h (dst := .RGB) (Or.inl ⟨rfl, e⟩)
    have key := andThen_spec env h (Or.inl rfl) (by rw [e]; simp [Known]) hd hr (by
      intro f hf
      rw [e] at hf ⊢
      obtain ⟨x, rfl⟩ := len1 hf
      rcases hd with rfl | rfl | rfl | rfl | rfl <;> rfl)
    rw [e] at key ⊢
    rw [e] at hr
    rcases hd with rfl | rfl | rfl | rfl | rfl
    · exact hr
    · exact key
    · exact key
    · exact key
    · exact key
  · have hr := fun k => lumaToRgb_spec h (dst := .RGB) (Or.inr ⟨e, k⟩)
    have hr' := lumaToRgb_spec h (dst := .RGBA) (Or.inr ⟨e, Or.inr rfl⟩)
    have key := andThen_spec env h (Or.inr rfl) (by rw [e]; simp [Known]) hd hr' (by
      intro f hf
      rw [e] at hf ⊢
      obtain ⟨x, y, rfl⟩ := len2 hf
      rcases hd with rfl | rfl | rfl | rfl | rfl <;> rfl)
    rw [e] at key ⊢
    rw [e] at hr hr'
    rcases hd with rfl | rfl | rfl | rfl | rfl
    · exact hr (Or.inl rfl)
    · exact hr'
    · exact key
    · exact key
    · exact key

theorem convert_spec (env : Env) {i : Image} (h : i.Ok) (hs : Known i.cs) (ha : i.cs ≠ .ARGB) {dst : ColorSpace} (hd : Colored dst) :
    convertColor env dst i = .ok (i.conv dst (relabel i.opaque i.cs dst)) :=
  execute_ok h (known_pos hs) (impl_spec env h hs ha hd) (relabel_ok h hs hd) (colored_pos hd)

/-! ### C63 -/

/-- **C63** (layout).  Converting a well formed image (any depth, any number of frames) from RGB, RGBA, BGR, BGRA, Luma or LumaA to
    RGB, RGBA, BGR, BGRA or ARGB succeeds, changes nothing but colour space and channels, and leaves the meaning of every
    frame unchanged: same red, green and blue planes, and alpha kept, made opaque, or dropped as the target requires.
    Missing: images in ARGB, for which it is false (`c63_argb_wrong`). -/
theorem c63_layout_partial (env : Env) (i : Image) (h : i.Ok) (hs : Known i.cs) (ha : i.cs ≠ .ARGB) (dst : ColorSpace)
    (hd : Colored dst) :
    ∃ fs, convertColor env dst i = .ok { i with cs := dst, frames := fs } ∧
      fs.length = i.frames.length ∧
      ∀ k, (hk : k < i.frames.length) → (hk' : k < fs.length) →
        ∃ p, meaning i.cs i.frames[k] = some p ∧
          meaning dst fs[k] = some { p with a := if dst.hasAlpha then some (p.a.getD i.opaque) else none } := by
  refine ⟨_, convert_spec env h hs ha hd, by simp [Image.conv], ?_⟩
  intro k hk hk'
  have hl := h.count _ (List.getElem_mem hk)
  rw [List.getElem_map]
  generalize i.frames[k] = f at *
  generalize i.opaque = o
  generalize i.cs = cs at *
  rcases hs with (rfl | rfl | rfl | rfl | rfl) | rfl | rfl
  · obtain ⟨x, y, z, rfl⟩ := len3 hl
    exact ⟨_, rfl, by rcases hd with rfl | rfl | rfl | rfl | rfl <;> rfl⟩
  · obtain ⟨x, y, z, w, rfl⟩ := len4 hl
    exact ⟨_, rfl, by rcases hd with rfl | rfl | rfl | rfl | rfl <;> rfl⟩
  · obtain ⟨x, y, z, rfl⟩ := len3 hl
    exact ⟨_, rfl, by rcases hd with rfl | rfl | rfl | rfl | rfl <;> rfl⟩
  · obtain ⟨x, y, z, w, rfl⟩ := len4 hl
    exact ⟨_, rfl, by rcases hd with rfl | rfl | rfl | rfl | rfl <;> rfl⟩
  · exact absurd rfl ha
  · obtain ⟨x, rfl⟩ := len1 hl
    exact ⟨_, rfl, by rcases hd with rfl | rfl | rfl | rfl | rfl <;> rfl⟩
  · obtain ⟨x, y, rfl⟩ := len2 hl
    exact ⟨_, rfl, by rcases hd with rfl | rfl | rfl | rfl | rfl <;> rfl⟩

/-- **C63** (disagreement, general).  Every image in ARGB converted to RGBA gets its planes rotated in the wrong direction: what is
    now called red is the blue plane, green is alpha, blue is red, and alpha is green. -/
theorem c63_argb_wrong (env : Env) (i : Image) (h : i.Ok) (hc : i.cs = .ARGB) :
    ∃ fs, convertColor env .RGBA i = .ok { i with cs := .RGBA, frames := fs } ∧ fs.length = i.frames.length ∧
      ∀ k, (hk : k < i.frames.length) → (hk' : k < fs.length) →
        ∃ r g b a, meaning .ARGB i.frames[k] = some ⟨r, g, b, some a⟩ ∧ meaning .RGBA fs[k] = some ⟨b, a, r, some g⟩ := by
  have h4 : i.cs.numComponents = 4 := by rw [hc]; rfl
  have hrot : rgbaArgb i = .ok (i.conv i.cs fun f => f.drop 3 ++ f.take 3) := by
    rw [rgbaArgb, if_pos (Or.inr hc), rotate_spec h h4]
  have hok : (i.conv .RGBA fun f => f.drop 3 ++ f.take 3).Ok := conv_ok h fun f hf => by
    obtain ⟨x, y, z, w, rfl⟩ := len4 ((h.count f hf).trans h4)
    simp [ColorSpace.numComponents]
  have himpl : impl env .RGBA i = .ok (i.conv .RGBA fun f => f.drop 3 ++ f.take 3) := by
    unfold impl
    rw [if_neg (by rw [hc]; decide)]
    simp only [hc]
    unfold andThen
    rw [hrot]
    simp only [setCs]
    rw [show ({ i.conv i.cs (fun f => f.drop 3 ++ f.take 3) with cs := ColorSpace.RGBA } : Image) =
      i.conv .RGBA fun f => f.drop 3 ++ f.take 3 from rfl,
      convertColor1_spec env hok (Or.inr rfl) (by simp [Colored])]
    have := relabel_self hok (by simp [Colored, Image.conv])
    simp only [Image.conv] at this ⊢
    rw [this]
  refine ⟨_, execute_ok h (by omega) himpl hok (show 0 < 4 by omega), by simp [Image.conv], ?_⟩
  intro k hk hk'
  have hl := (h.count _ (List.getElem_mem hk)).trans h4
  rw [List.getElem_map]
  generalize i.frames[k] = f at *
  obtain ⟨a, r, g, b, rfl⟩ := len4 hl
  exact ⟨r, g, b, a, rfl, rfl⟩

/-- A two by one image with two frames. -/
def sample (cs : ColorSpace) (f g : List Samples) : Image := ⟨cs, .eight, 2, 1, false, [f, g]⟩

/-- Any environment, for the examples. -/
def env0 (isa : Isa) : Env :=
  ⟨isa, fun r _ _ => r, fun i => .ok i, fun i => .ok i, fun i => .ok i, fun i => .ok i, fun i => .ok i, fun i => .ok i⟩

theorem ok_of {i : Image} (h0 : i.frames ≠ []) (h1 : i.frames.all fun f => f.length = i.cs.numComponents)
    (h2 : i.frames.all fun f => f.all fun c => byteLen c = i.size)
    (h3 : i.frames.all fun f => f.all fun c => match i.depth, c with
      | .eight, .u8 _ => true | .sixteen, .u16 _ => true | .float32, .f32 _ => true | _, _ => false) : i.Ok := by
  refine ⟨h0, fun f hf => by simpa using List.all_eq_true.1 h1 f hf, fun f hf c hc => ⟨?_, ?_⟩⟩
  · have := List.all_eq_true.1 (List.all_eq_true.1 h3 f hf) c hc
    revert this
    cases i.depth <;> cases c <;> simp [typed]
  · simpa using List.all_eq_true.1 (List.all_eq_true.1 h2 f hf) c hc

example : (sample .LumaA [.u8 [1, 2], .u8 [3, 4]] [.u8 [5, 6], .u8 [7, 8]]).Ok ∧
    (convertColor (env0 .scalar) .BGRA (sample .LumaA [.u8 [1, 2], .u8 [3, 4]] [.u8 [5, 6], .u8 [7, 8]])) =
      .ok (sample .BGRA [.u8 [1, 2], .u8 [1, 2], .u8 [1, 2], .u8 [3, 4]] [.u8 [5, 6], .u8 [5, 6], .u8 [5, 6], .u8 [7, 8]]) :=
  ⟨ok_of (by decide) (by decide) (by decide) (by decide), by decide +kernel⟩

example : (sample .BGR [.u8 [1, 2], .u8 [3, 4], .u8 [5, 6]] [.u8 [7, 8], .u8 [9, 10], .u8 [11, 12]]).Ok ∧
    (convertColor (env0 .scalar) .ARGB (sample .BGR [.u8 [1, 2], .u8 [3, 4], .u8 [5, 6]] [.u8 [7, 8], .u8 [9, 10], .u8 [11, 12]])) =
      .ok (sample .ARGB [.u8 [255, 255], .u8 [5, 6], .u8 [3, 4], .u8 [1, 2]]
        [.u8 [255, 255], .u8 [11, 12], .u8 [9, 10], .u8 [7, 8]]) :=
  ⟨ok_of (by decide) (by decide) (by decide) (by decide), by decide +kernel⟩

example : (sample .ARGB [.u8 [1, 2], .u8 [3, 4], .u8 [5, 6], .u8 [7, 8]] [.u8 [1, 2], .u8 [3, 4], .u8 [5, 6], .u8 [7, 8]]).Ok :=
  ok_of (by decide) (by decide) (by decide) (by decide)

/-! ### CMYK -/

/-- `n / 255` rounded to nearest. -/
def div255 (n : Nat) : Nat := (2 * n + 255) / 510

theorem blinn_nat (n : Nat) (hn : n ≤ 255 * 255) : (n + 128 + (n + 128) / 256) / 256 = (2 * n + 255) / 510 := by
  have h1 := Nat.div_add_mod (2 * n + 255) 510
  have h2 := Nat.mod_lt (2 * n + 255) (show 510 > 0 by omega)
  generalize (2 * n + 255) / 510 = q at *
  generalize (2 * n + 255) % 510 = r at *
  by_cases h : n + 128 ≥ 256 * q
  · have : (n + 128) / 256 = q := by omega
    omega
  · have : (n + 128) / 256 = q - 1 := by omega
    omega

theorem blinn_spec (x y : UInt8) : (blinn x y).toNat = div255 (x.toNat * y.toNat) := by
  have hx := x.toNat_lt
  have hy := y.toNat_lt
  have hn : x.toNat * y.toNat ≤ 255 * 255 := Nat.mul_le_mul (by omega) (by omega)
  unfold blinn div255
  simp only [Nat.shiftRight_eq_div_pow]
  generalize x.toNat * y.toNat = n at *
  rw [UInt8.toNat_ofNat', show 2 ^ 8 = 256 from rfl, blinn_nat n hn]
  omega

theorem cmykLoop_length : ∀ (c k : List UInt8), (cmykLoop c k).length = c.length
  | [], _ => by simp [cmykLoop]
  | _ :: _, [] => by simp [cmykLoop]
  | _ :: cs, _ :: ks => by simp [cmykLoop, cmykLoop_length cs ks]

theorem cmykLoop_get : ∀ (c k : List UInt8) (j : Nat) (hc : j < c.length) (hk : j < k.length) (h : j < (cmykLoop c k).length),
    (cmykLoop c k)[j] = blinn c[j] k[j]
  | c :: cs, k :: ks, 0, _, _, _ => by simp [cmykLoop]
  | c :: cs, k :: ks, j + 1, hc, hk, h => by
    simp only [cmykLoop, List.getElem_cons_succ]
    exact cmykLoop_get cs ks j _ _ _

/-- Channel of the ink `c` under black `k`: each sample is `c * k / 255` rounded. -/
def Inked (c k o : Samples) : Prop :=
  ∃ lc lk lo : List UInt8, c = .u8 lc ∧ k = .u8 lk ∧ o = .u8 lo ∧ lo.length = lc.length ∧ lk.length = lc.length ∧
    ∀ j (h1 : j < lo.length) (h2 : j < lc.length) (h3 : j < lk.length), lo[j].toNat = div255 (lc[j].toNat * lk[j].toNat)

theorem u8_of {i : Image} (hd : i.depth = .eight) {c : Samples} (h : i.Fits c) :
    ∃ l, c = .u8 l ∧ l.length = i.width * i.height := by
  obtain ⟨ht, hl⟩ := h
  cases c with
  | u8 l => exact ⟨l, rfl, by simpa [byteLen, Image.size, sizeOf, hd] using hl⟩
  | u16 l => rw [hd] at ht; exact absurd ht (by simp [typed])
  | f32 l => rw [hd] at ht; exact absurd ht (by simp [typed])

theorem inked {n : Nat} (c k : List UInt8) (hc : c.length = n) (hk : k.length = n) : Inked (.u8 c) (.u8 k) (.u8 (cmykLoop c k)) := by
  refine ⟨c, k, _, rfl, rfl, rfl, cmykLoop_length c k, by omega, ?_⟩
  intro j h1 h2 h3
  rw [cmykLoop_get c k j h2 h3 h1, blinn_spec]

/-- **C63** (CMYK).  An 8 bit CMYK image (in the inverted convention of the crate) converted to RGB has, at every pixel,
    `c * k / 255` correctly rounded to nearest, computed without a division. -/
theorem c63_cmyk (env : Env) (i : Image) (h : i.Ok) (hc : i.cs = .CMYK) (hd : i.depth = .eight) :
    ∃ fs, convertColor env .RGB i = .ok { i with cs := .RGB, frames := fs } ∧ fs.length = i.frames.length ∧
      ∀ n, (hn : n < i.frames.length) → (hn' : n < fs.length) →
        ∃ c m y k r g b, i.frames[n] = [c, m, y, k] ∧ fs[n] = [r, g, b] ∧ Inked c k r ∧ Inked m k g ∧ Inked y k b := by
  have h4 : i.cs.numComponents = 4 := by rw [hc]; rfl
  have hform : ∀ f ∈ i.frames, ∃ c m y k : List UInt8, f = [.u8 c, .u8 m, .u8 y, .u8 k] ∧ c.length = i.width * i.height ∧
      m.length = i.width * i.height ∧ y.length = i.width * i.height ∧ k.length = i.width * i.height := by
    intro f hf
    have hfit := h.fits f hf
    obtain ⟨c, m, y, k, rfl⟩ := len4 ((h.count f hf).trans h4)
    obtain ⟨c, rfl, e1⟩ := u8_of hd (hfit c (by simp))
    obtain ⟨m, rfl, e2⟩ := u8_of hd (hfit m (by simp))
    obtain ⟨y, rfl, e3⟩ := u8_of hd (hfit y (by simp))
    obtain ⟨k, rfl, e4⟩ := u8_of hd (hfit k (by simp))
    exact ⟨c, m, y, k, rfl, e1, e2, e3, e4⟩
  let G : List Samples → List Samples := fun f => (cmykFrame f).getD []
  have hG : cmykToRgb env i = .ok (i.conv i.cs G) := by
    unfold cmykToRgb
    rw [if_pos hd, mapM_isSome [] cmykFrame]
    · rfl
    · intro f hf
      obtain ⟨c, m, y, k, rfl, _⟩ := hform f hf
      rfl
  have hok : (i.conv .RGB G).Ok := by
    refine ⟨by simp [Image.conv, h.nonempty], ?_, ?_⟩
    · intro f' hf'
      obtain ⟨f, hf, rfl⟩ := List.mem_map.1 hf'
      obtain ⟨c, m, y, k, rfl, _⟩ := hform f hf
      rfl
    · intro f' hf' x hx
      obtain ⟨f, hf, rfl⟩ := List.mem_map.1 hf'
      obtain ⟨c, m, y, k, rfl, e1, e2, e3, e4⟩ := hform f hf
      simp only [G, cmykFrame, Option.getD_some, List.mem_cons, List.not_mem_nil, or_false] at hx
      unfold Image.Fits Image.size Image.conv
      simp only [hd]
      rcases hx with rfl | rfl | rfl <;> simp [typed, byteLen, sizeOf, cmykLoop_length, *]
  have himpl : impl env .RGB i = .ok (i.conv .RGB G) := by
    unfold impl
    rw [if_neg (by rw [hc]; decide)]
    simp only [hc]
    unfold andThen
    rw [hG]
    simp only [setCs]
    rw [show ({ i.conv i.cs G with cs := ColorSpace.RGB } : Image) = i.conv .RGB G from rfl,
      convertColor1_spec env hok (Or.inl rfl) (by simp [Colored])]
    have := relabel_self hok (by simp [Colored, Image.conv])
    simp only [Image.conv] at this ⊢
    rw [this]
  refine ⟨_, execute_ok h (by omega) himpl hok (show 0 < 3 by omega), by simp [Image.conv], ?_⟩
  intro n hn hn'
  obtain ⟨c, m, y, k, e, e1, e2, e3, e4⟩ := hform _ (List.getElem_mem hn)
  refine ⟨.u8 c, .u8 m, .u8 y, .u8 k, .u8 (cmykLoop c k), .u8 (cmykLoop m k), .u8 (cmykLoop y k), e, ?_, inked c k e1 e4,
    inked m k e2 e4, inked y k e3 e4⟩
  rw [List.getElem_map, e]
  rfl

example : (sample .CMYK [.u8 [200, 2], .u8 [3, 4], .u8 [5, 6], .u8 [255, 100]] [.u8 [1, 2], .u8 [3, 4], .u8 [5, 6], .u8 [7, 8]]).Ok ∧
    (sample .CMYK [.u8 [200, 2], .u8 [3, 4], .u8 [5, 6], .u8 [255, 100]] [.u8 [1, 2], .u8 [3, 4], .u8 [5, 6], .u8 [7, 8]]).depth
      = .eight := ⟨ok_of (by decide) (by decide) (by decide) (by decide), rfl⟩

/-! ### The check around every operation (C65) -/

/-- **C65** (partial: only for colour spaces without alpha are all channels checked).  Whatever the operation does, an image
    that `execute` returns has the right number of channels in each frame, and without an alpha channel each channel has the
    right size. -/
theorem c65_invariants_partial (op : Image → Except Err Image) (i j : Image) (h : execute op i = .ok j) :
    (∀ f ∈ j.frames, f.length = j.cs.numComponents) ∧
    (j.cs.hasAlpha = false → ∀ f ∈ j.frames, ∀ c ∈ f, byteLen c = sizeOf j.depth * j.width * j.height) := by
  have hc : confirm j = .ok () := by
    unfold execute at h
    split at h
    · cases h
    · split at h
      · cases h
      · split at h
        · cases h
        · split at h
          · cases h
          · rename_i hj
            cases h
            exact hj
  unfold confirm at hc
  split at hc
  · cases hc
  · rename_i hcount
    have hcount : ∀ f ∈ j.frames, f.length = j.cs.numComponents := by
      intro f hf
      by_contra hne
      exact hcount (List.any_eq_true.2 ⟨f, hf, by simpa using hne⟩)
    refine ⟨hcount, ?_⟩
    intro ha f hf c hcf
    have hs : imageSlices j.cs true j.frames = some (j.frames.map fun f => ([], f, [])) := by
      unfold imageSlices
      have : ∀ fs : List (List Samples), (∀ f ∈ fs, f.length = j.cs.numComponents) →
          fs.mapM (frameSlice j.cs true) = some (fs.map fun f => ([], f, [])) := by
        intro fs
        induction fs with
        | nil => intro _; rfl
        | cons f fs ih =>
          intro hl
          have h1 := hl f (by simp)
          have h2 : frameSlice j.cs true f = some ([], f, []) := by
            unfold frameSlice
            rw [ha, if_neg (by simp), if_neg (by omega), List.take_of_length_le (by omega), List.drop_of_length_le (by omega)]
          rw [List.mapM_cons, h2, ih (fun f hf => hl f (by simp [hf]))]
          rfl
      exact this _ hcount
    unfold colorChannels at hc
    rw [hs] at hc
    simp only [Option.map_some, List.map_map] at hc
    split at hc
    · cases hc
    · rename_i hany
      by_contra hne
      apply hany
      refine List.any_eq_true.2 ⟨c, ?_, by simpa using hne⟩
      rw [List.mem_flatten]
      exact ⟨f, List.mem_map.2 ⟨f, hf, rfl⟩, hcf⟩

/-- **C65**, what is not checked (DESIGN CS6): an alpha channel of the wrong size is passed on. -/
theorem c65_alpha_unchecked : ∃ (op : Image → Except Err Image) (i j : Image), execute op i = .ok j ∧
    ∃ f ∈ j.frames, ∃ c ∈ f, byteLen c ≠ sizeOf j.depth * j.width * j.height :=
  ⟨fun i => .ok { i with frames := [[.u8 [1, 2], .u8 [3, 4], .u8 [5, 6], .u8 []]] },
    ⟨.RGBA, .eight, 2, 1, false, [[.u8 [1, 2], .u8 [3, 4], .u8 [5, 6], .u8 [7, 8]]]⟩,
    ⟨.RGBA, .eight, 2, 1, false, [[.u8 [1, 2], .u8 [3, 4], .u8 [5, 6], .u8 []]]⟩, by decide,
    [.u8 [1, 2], .u8 [3, 4], .u8 [5, 6], .u8 []], by simp, .u8 [], by simp, by decide⟩

example : execute (fun i => .ok { i with cs := .Luma, frames := [[.u8 [1, 2]]] })
    ⟨.RGB, .eight, 2, 1, false, [[.u8 [1, 2], .u8 [3, 4], .u8 [5, 6]]]⟩ =
      .ok ⟨.Luma, .eight, 2, 1, false, [[.u8 [1, 2]]]⟩ ∧
    execute (fun i => .ok { i with cs := .Luma })
    ⟨.RGB, .eight, 2, 1, false, [[.u8 [1, 2], .u8 [3, 4], .u8 [5, 6]]]⟩ = .error .components := by decide

end Zune.Color
