/-
C138: numpy arrays.
-/
import Verif.Image.NumpyModel
import Verif.Image.Make

namespace Zune.Numpy

open Zune.Make (Image Frame fromPixels)
open Zune.Make.Spec (Shows)
open Zune.Split (swizzle split3 three Isa flatten)

variable {α F G : Type}

/-- The arrays that are pictures: height, width and, unless there is one, the number of components. -/
inductive Shape : List Nat → Nat → Nat → Nat → Prop where
  | grey (h w : Nat) : Shape [h, w] w h 1
  | colour (h w n : Nat) (hn : n = 2 ∨ n = 3 ∨ n = 4) : Shape [h, w, n] w h n

theorem back {px : List α} {w h n : Nat} {im : Image α} {fr : Frame α} (hs : Shows im w h n (fun y x c => px[(y * w + x) * n + c]?)) (hf : im.frames = [fr])
    (hl : flatten fr.channels = .ok px) (hn : 0 < n) (hpx : px.length = w * h * n) (init : List α) (hi : init.length = h * w * n) :
    toNumpy init im = .ok (if n = 1 then [h, w] else [h, w, n], px) := by
  obtain ⟨hw, hh, hc⟩ := hs.dims
  obtain ⟨k1, k2⟩ := hs.count fr (by simp [hf])
  unfold toNumpy
  rw [if_neg (by simp [hf])]
  simp only [hf, hw, hh, hc]
  by_cases h1 : n = 1
  · subst h1
    obtain ⟨c, hcc⟩ := List.length_eq_one_iff.1 k1
    rw [if_pos rfl, if_pos rfl]
    simp only [hcc]
    have : c = px := by
      rw [hcc] at hl
      simpa [flatten] using hl
    subst this
    rw [if_pos (by rw [hi, hpx, Nat.mul_comm h w])]
  · rw [if_neg h1, if_neg h1]
    obtain ⟨l, e1, e2⟩ := Split.c29_swizzle (w * h) fr.channels (by intro e; rw [e] at k1; simp at k1; omega) k2 init (by rw [hi, k1, Nat.mul_comm h w, Nat.mul_comm])
    rw [hl] at e1
    have := Except.ok.inj e1
    subst this
    rw [e2]

theorem sizes_shape {shape : List Nat} {w h n : Nat} (hs : Shape shape w h n) (sug : Option Nat) (hg : sug = none ∨ sug = some n) : sizes shape sug = some (w, h, n) ∧ 0 < n ∧
    (if n = 1 then [h, w] else [h, w, n]) = shape := by
  cases hs with
  | grey => simp [sizes]
  | colour h w n hn =>
    rcases hg with rfl | rfl <;> rcases hn with rfl | rfl | rfl <;> simp [sizes]

/-- C138: an array of bytes that is a picture becomes one, and that gives back the array. -/
theorem c138_bytes_partial (isa : Isa) (zero : F) (cast : G → F) (shape : List Nat) (w h n : Nat) (hs : Shape shape w h n) (sug : Option Nat) (hg : sug = none ∨ sug = some n)
    (px : List UInt8) (h0 : 0 < w * h * n) (h1 : w * h * n < 2 ^ 64) (h2 : px.length = w * h * n) :
    ∃ im, fromNumpy isa zero cast shape (.u8 px) sug = .ok (.u8 im) ∧ Shows im w h n (fun y x c => px[(y * w + x) * n + c]?) ∧
      ∀ init : List UInt8, init.length = h * w * n → toNumpy init im = .ok (shape, px) := by
  obtain ⟨e, hn, es⟩ := sizes_shape hs sug hg
  obtain ⟨im, fr, e1, e2, e3, e4⟩ := (Make.c124_from_bytes isa px w h n).1 ⟨h0, h1, h2⟩
  refine ⟨im, by simp only [fromNumpy, e, e1, orPanic], e2, fun init hi => ?_⟩
  rw [back e2 e3 e4 hn h2 init hi, es]

/-- C138: the same for 16 bits. -/
theorem c138_u16_partial (isa : Isa) (zero : F) (cast : G → F) (shape : List Nat) (w h n : Nat) (hs : Shape shape w h n) (sug : Option Nat) (hg : sug = none ∨ sug = some n)
    (px : List UInt16) (h0 : 0 < w * h * n) (h1 : w * h * n < 2 ^ 64) (h2 : px.length = w * h * n) :
    ∃ im, fromNumpy isa zero cast shape (.u16 px) sug = .ok (.u16 im) ∧ Shows im w h n (fun y x c => px[(y * w + x) * n + c]?) ∧
      ∀ init : List UInt16, init.length = h * w * n → toNumpy init im = .ok (shape, px) := by
  obtain ⟨e, hn, es⟩ := sizes_shape hs sug hg
  obtain ⟨im, fr, e1, e2, e3, e4⟩ := (Make.c124_from_pixels 0 px w h n).1 ⟨h0, h1, h2⟩
  refine ⟨im, by simp only [fromNumpy, e, e1, orPanic], e2, fun init hi => ?_⟩
  rw [back e2 e3 e4 hn h2 init hi, es]

/-- C138: the same for floats; those of 64 bits come back as the floats of 32 bits they are cast to. -/
theorem c138_floats_partial (isa : Isa) (zero : F) (cast : G → F) (shape : List Nat) (w h n : Nat) (hs : Shape shape w h n) (sug : Option Nat) (hg : sug = none ∨ sug = some n)
    (px : List F) (h0 : 0 < w * h * n) (h1 : w * h * n < 2 ^ 64) (h2 : px.length = w * h * n) :
    ∃ im, fromNumpy isa zero cast shape (.f32 px) sug = .ok (.f32 im) ∧ Shows im w h n (fun y x c => px[(y * w + x) * n + c]?) ∧
      (∀ qx : List G, qx.map cast = px → fromNumpy isa zero cast shape (.f64 qx) sug = .ok (.f32 im)) ∧
      ∀ init : List F, init.length = h * w * n → toNumpy init im = .ok (shape, px) := by
  obtain ⟨e, hn, es⟩ := sizes_shape hs sug hg
  obtain ⟨im, fr, e1, e2, e3, e4⟩ := (Make.c124_from_pixels zero px w h n).1 ⟨h0, h1, h2⟩
  refine ⟨im, by simp only [fromNumpy, e, e1, orPanic], e2, ?_, fun init hi => ?_⟩
  · intro qx hq
    simp only [fromNumpy, e, hq, e1, orPanic]
  · rw [back e2 e3 e4 hn h2 init hi, es]

example : Shape [2, 1, 3] 1 2 3 ∧ (0 < 1 * 2 * 3 ∧ 1 * 2 * 3 < 2 ^ 64 ∧ ([1, 2, 3, 4, 5, 6] : List UInt8).length = 1 * 2 * 3) ∧ Shape [2, 3] 3 2 1 :=
  ⟨.colour 2 1 3 (by simp), by decide, .grey 2 3⟩

/-- C138, refuted: an array with a third axis of one comes back with two. -/
theorem c138_one_wrong (isa : Isa) (zero : F) (cast : G → F) (w h : Nat) (px : List UInt8) (h0 : 0 < w * h) (h1 : w * h < 2 ^ 64) (h2 : px.length = w * h) :
    ∃ im, fromNumpy isa zero cast [h, w, 1] (.u8 px) none = .ok (.u8 im) ∧ ∀ init : List UInt8, init.length = h * w → toNumpy init im = .ok ([h, w], px) := by
  obtain ⟨im, fr, e1, e2, e3, e4⟩ := (Make.c124_from_bytes isa px w h 1).1 ⟨by omega, by omega, by omega⟩
  refine ⟨im, by simp [fromNumpy, sizes, e1, orPanic], fun init hi => ?_⟩
  rw [back e2 e3 e4 (by omega) (by omega) init (by omega), if_pos rfl]

example : 0 < 2 * 1 ∧ ([7, 8] : List UInt8).length = 2 * 1 := by decide

/-- C138, refuted: arrays of `uint32` are never taken, though the documentation (py_image.rs:799) says they are converted to 16 bits. -/
theorem c138_u32_wrong (isa : Isa) (zero : F) (cast : G → F) (shape : List Nat) (px : List UInt32) (sug : Option Nat) :
    fromNumpy isa zero cast shape (.u32 px) sug = .err := by
  unfold fromNumpy
  split <;> rfl

/-- C138: arrays of other shapes, or of another number of components than that of the colour space asked for, raise an exception. -/
theorem c138_refused (isa : Isa) (zero : F) (cast : G → F) (shape : List Nat) (data : Data F G) (sug : Option Nat)
    (h : (shape.length ≠ 2 ∧ shape.length ≠ 3) ∨ (∃ a b c, shape = [a, b, c] ∧ (c = 0 ∨ 4 < c ∨ ∃ k, sug = some k ∧ k ≠ c))) :
    fromNumpy isa zero cast shape data sug = .err := by
  have : sizes shape sug = none := by
    rcases h with ⟨h2, h3⟩ | ⟨a, b, c, rfl, hc⟩
    · unfold sizes
      split
      · simp at h2
      · simp at h3
      · rfl
    · rcases hc with rfl | hc | ⟨k, rfl, hk⟩
      · simp [sizes]
      · simp only [sizes]
        rw [if_neg (by omega)]
      · simp [sizes, hk]
  simp [fromNumpy, this]

example : ([2, 1, 3].length ≠ 2 ∧ [2, 1, 3].length ≠ 3) ∨ (∃ a b c, [2, 1, 3] = [a, b, c] ∧ (c = 0 ∨ 4 < c ∨ ∃ k, some 4 = some k ∧ k ≠ c)) :=
  Or.inr ⟨2, 1, 3, rfl, Or.inr (Or.inr ⟨4, rfl, by decide⟩)⟩

/-- C138, refuted: arrays without elements panic instead of raising an exception. -/
theorem c138_empty_wrong (isa : Isa) (zero : F) (cast : G → F) (shape : List Nat) (w h n : Nat) (hs : Shape shape w h n) (h0 : w * h = 0) :
    fromNumpy isa zero cast shape (.u8 []) none = (.panic : Res (Img F)) := by
  obtain ⟨e, hn, _⟩ := sizes_shape hs none (Or.inl rfl)
  have := (Make.c124_from_bytes isa [] w h n).2 (by simp [h0])
  simp [fromNumpy, e, this, orPanic]

example : Shape [0, 5, 3] 5 0 3 ∧ 5 * 0 = 0 := ⟨.colour 0 5 3 (by simp), rfl⟩

theorem toFrames_eq (w h n : Nat) (hn : 0 < n) : ∀ (fs : List (Frame α)) (init : List α),
    (∀ fr ∈ fs, fr.channels.length = n ∧ ∀ c ∈ fr.channels, c.length = w * h) → init.length = fs.length * (h * w * n) →
    ∃ ls : List (List α), fs.map (fun fr => flatten fr.channels) = ls.map .ok ∧ toFrames (h * w * n) fs init = .ok ls.flatten
  | [], init, _, hi => by
    refine ⟨[], rfl, ?_⟩
    have : init = [] := by simpa using hi
    simp [toFrames, this]
  | fr :: fs, init, hf, hi => by
    rw [List.length_cons, Nat.add_mul, Nat.one_mul] at hi
    obtain ⟨k1, k2⟩ := hf fr (by simp)
    obtain ⟨l, e1, e2⟩ := Split.c29_swizzle (w * h) fr.channels (by intro e; rw [e] at k1; simp at k1; omega) k2 (init.take (h * w * n))
      (by rw [List.length_take, Nat.min_eq_left (by omega), k1, Nat.mul_comm h w, Nat.mul_comm])
    obtain ⟨ls, e3, e4⟩ := toFrames_eq w h n hn fs (init.drop (h * w * n)) (fun x hx => hf x (by simp [hx])) (by rw [List.length_drop]; omega)
    refine ⟨l :: ls, by simp [e1, e3], ?_⟩
    unfold toFrames
    rw [if_neg (by omega), e2]
    simp only [e4, List.flatten_cons]

/-- C138: an animation becomes an array of four axes, frame after frame, each with its pixels in order. -/
theorem c138_animation (im : Image α) (w h n : Nat) (hd : im.width = w ∧ im.height = h ∧ im.comps = n) (h0 : 0 < h * w * n) (hf : 1 < im.frames.length)
    (hc : ∀ fr ∈ im.frames, fr.channels.length = n ∧ ∀ c ∈ fr.channels, c.length = w * h) (init : List α) (hi : init.length = im.frames.length * (h * w * n)) :
    ∃ ls : List (List α), im.frames.map (fun fr => flatten fr.channels) = ls.map .ok ∧ toNumpy init im = .ok ([im.frames.length, h, w, n], ls.flatten) := by
  obtain ⟨rfl, rfl, rfl⟩ := hd
  obtain ⟨ls, e1, e2⟩ := toFrames_eq im.width im.height im.comps (Nat.pos_of_mul_pos_left h0) im.frames init hc hi
  refine ⟨ls, e1, ?_⟩
  unfold toNumpy
  rw [if_pos hf, if_neg (by omega), e2]

example : toNumpy [0, 0, 0, 0, 0, 0, 0, 0] (⟨[⟨[[1, 2], [3, 4]], 1, 1⟩, ⟨[[5, 6], [7, 8]], 1, 1⟩], 2, 1, 2⟩ : Image UInt8) = .ok ([2, 1, 2, 2], [1, 3, 2, 4, 5, 7, 6, 8]) := by
  decide +kernel

end Zune.Numpy
