/-
**C134**: sums and differences of pictures.
-/
import Verif.Image.ArithModel
import Verif.Image.Color

namespace Zune.Arith

open Zune.Imageprocs (ColorSpace separate frameSlice imageSlices putBack)
open Zune.Depth (BitDepth Samples F32)
open Zune.Color (Image typed)

/-! ### Lemmas -/

section
variable {α : Type} (f : α → α → α)

theorem zip_nil (xs : List α) : zipKeep f xs [] = xs := by cases xs <;> rfl

theorem zip_length : ∀ xs ys : List α, (zipKeep f xs ys).length = xs.length
  | [], _ => rfl
  | _ :: _, [] => rfl
  | _ :: xs, _ :: ys => by simp [zipKeep, zip_length xs ys]

theorem zip_append : ∀ (xs ys xs' ys' : List α), xs.length = ys.length → zipKeep f (xs ++ xs') (ys ++ ys') = zipKeep f xs ys ++ zipKeep f xs' ys'
  | [], [], _, _, _ => rfl
  | [], _ :: _, _, _, h => by simp at h
  | _ :: _, [], _, _, h => by simp at h
  | x :: xs, y :: ys, xs', ys', h => by
    simp only [List.cons_append, zipKeep]
    rw [zip_append xs ys xs' ys' (by simpa using h)]

theorem zip_get : ∀ (xs ys : List α) (n : Nat) (x : α), xs[n]? = some x →
    (zipKeep f xs ys)[n]? = some (match ys[n]? with | some y => f x y | none => x)
  | [], _, _, _, h => by simp at h
  | x :: xs, [], n, v, h => by simp [zipKeep, h]
  | x :: xs, y :: ys, 0, v, h => by simp at h; simp [zipKeep, h]
  | x :: xs, y :: ys, n + 1, v, h => by
    simp only [zipKeep, List.getElem?_cons_succ] at h ⊢
    exact zip_get xs ys n v h

end

/-- Where the slice of the channels that are changed begins. -/
def lo (cs : ColorSpace) : Nat := if cs = .ARGB ∨ cs = .LumaA then 1 else 0

/-- Where it ends. -/
def hi (cs : ColorSpace) : Nat := if cs = .RGBA ∨ cs = .BGRA then 3 else cs.numComponents

/-- The slice. -/
def col (cs : ColorSpace) (f : List Samples) : List Samples := (f.drop (lo cs)).take (hi cs - lo cs)

theorem lo_hi {cs : ColorSpace} : lo cs ≤ hi cs ∧ hi cs ≤ cs.numComponents := by
  cases cs <;> simp [lo, hi, ColorSpace.numComponents]

theorem slice_at {cs : ColorSpace} {f : List Samples} (h : f.length = cs.numComponents) :
    frameSlice cs true f = some (f.take (lo cs), col cs f, f.drop (hi cs)) := by
  by_cases ha : cs.hasAlpha = true
  · cases cs <;> simp [ColorSpace.hasAlpha] at ha <;> simp only [ColorSpace.numComponents] at h
    case LumaA =>
      obtain ⟨a, b, rfl⟩ := List.length_eq_two.1 h
      rfl
    all_goals
      match f, h with
      | [a, b, c, d], _ => rfl
  · have hl : lo cs = 0 ∧ hi cs = cs.numComponents := by cases cs <;> simp_all [lo, hi, ColorSpace.hasAlpha]
    unfold frameSlice col
    rw [if_neg (by simpa using ha), if_neg (by omega), hl.1, hl.2]
    simp

theorem slices {cs : ColorSpace} : ∀ {fs : List (List Samples)}, (∀ f ∈ fs, f.length = cs.numComponents) →
    imageSlices cs true fs = some (fs.map fun f => (f.take (lo cs), col cs f, f.drop (hi cs)))
  | [], _ => rfl
  | f :: fs, h => by
    have := slices (cs := cs) (fs := fs) fun g hg => h g (by simp [hg])
    unfold imageSlices at this ⊢
    rw [List.mapM_cons, slice_at (h f (by simp)), this]
    rfl

theorem col_length {cs : ColorSpace} {f : List Samples} (h : f.length = cs.numComponents) : (col cs f).length = hi cs - lo cs := by
  have := @lo_hi cs
  simp only [col, List.length_take, List.length_drop]
  omega

theorem col_split {cs : ColorSpace} (f : List Samples) : f.take (lo cs) ++ col cs f ++ f.drop (hi cs) = f := by
  have := @lo_hi cs
  have e : f.take (lo cs) ++ col cs f = f.take (hi cs) := by
    unfold col
    rw [show hi cs = lo cs + (hi cs - lo cs) by omega, List.take_add, Nat.add_sub_cancel_left]
  rw [e, List.take_append_drop]

/-- A frame with the channels of the slice combined. -/
def frameOut (F : Samples → Samples → Samples) (cs : ColorSpace) (f g : List Samples) : List Samples :=
  f.take (lo cs) ++ zipKeep F (col cs f) (col cs g) ++ f.drop (hi cs)

theorem put_back (F : Samples → Samples → Samples) {cs : ColorSpace} : ∀ (fs gs : List (List Samples)), (∀ f ∈ fs, f.length = cs.numComponents) →
    (∀ f ∈ gs, f.length = cs.numComponents) →
    putBack (fs.map fun f => (f.take (lo cs), col cs f, f.drop (hi cs))) (zipKeep F (fs.map (col cs)).flatten (gs.map (col cs)).flatten) = zipKeep (frameOut F cs) fs gs
  | [], _, _, _ => rfl
  | f :: fs, [], h, hg => by
    have := put_back F fs [] (fun g hg => h g (by simp [hg])) hg
    simp only [List.map_nil, List.flatten_nil, zip_nil] at this ⊢
    simp only [List.map_cons, List.flatten_cons, putBack]
    rw [List.take_left, List.drop_left, this, col_split]
  | f :: fs, g :: gs, h, hg => by
    have := put_back F fs gs (fun g hg => h g (by simp [hg])) fun f hf => hg f (by simp [hf])
    simp only [List.map_cons, List.flatten_cons, putBack]
    rw [zip_append _ _ _ _ _ (by rw [col_length (h f (by simp)), col_length (hg g (by simp))]), List.take_left' (zip_length _ _ _), List.drop_left' (zip_length _ _ _), this]
    rfl

theorem frame_get (F : Samples → Samples → Samples) {cs : ColorSpace} {f g : List Samples} (hf : f.length = cs.numComponents) (hg : g.length = cs.numComponents) {n : Nat}
    {x y : Samples} (hx : f[n]? = some x) (hy : g[n]? = some y) : (frameOut F cs f g)[n]? = some (if lo cs ≤ n ∧ n < hi cs then F x y else x) := by
  have b := @lo_hi cs
  have hn : n < f.length := by rw [List.getElem?_eq_some_iff] at hx; exact hx.1
  have l1 : (f.take (lo cs)).length = lo cs := by rw [List.length_take]; omega
  have l2 : (zipKeep F (col cs f) (col cs g)).length = hi cs - lo cs := by rw [zip_length, col_length hf]
  unfold frameOut
  by_cases c1 : n < lo cs
  · rw [if_neg (by omega), List.append_assoc, List.getElem?_append_left (by omega), List.getElem?_take_of_lt c1, hx]
  · by_cases c2 : n < hi cs
    · rw [if_pos ⟨by omega, c2⟩, List.getElem?_append_left (by rw [List.length_append]; omega), List.getElem?_append_right (by omega), l1]
      have gx : ∀ (f : List Samples) x, f[n]? = some x → (col cs f)[n - lo cs]? = some x := by
        intro f x hx
        unfold col
        rw [List.getElem?_take_of_lt (by omega), List.getElem?_drop, show lo cs + (n - lo cs) = n by omega, hx]
      rw [zip_get F _ _ _ x (gx f x hx), gx g y hy]
    · rw [if_neg (by omega), List.getElem?_append_right (by rw [List.length_append]; omega), List.length_append, l1, l2, List.getElem?_drop,
        show hi cs + (n - (lo cs + (hi cs - lo cs))) = n by omega, hx]

/-- The channel a pair of channels of the type gives. -/
def both (a : Closures) (d : BitDepth) (x y : Samples) : Samples :=
  match onChannel a d x y with
  | some z => z
  | none => x

theorem onChannel_both {a : Closures} {d : BitDepth} {x y : Samples} (hx : typed d x) (hy : typed d y) : onChannel a d x y = some (both a d x y) := by
  unfold both
  cases d <;> cases x <;> cases y <;> first | rfl | exact hx.elim | exact hy.elim

theorem channels_both {a : Closures} {d : BitDepth} : ∀ (xs ys : List Samples), (∀ x ∈ xs, typed d x) → (∀ y ∈ ys, typed d y) →
    onChannels a d xs ys = some (zipKeep (both a d) xs ys)
  | [], _, _, _ => by simp [onChannels, zipKeep]
  | x :: xs, [], _, _ => by simp [onChannels, zipKeep]
  | x :: xs, y :: ys, hx, hy => by
    unfold onChannels
    rw [onChannel_both (hx x (by simp)) (hy y (by simp)), channels_both xs ys (fun x h => hx x (by simp [h])) fun y h => hy y (by simp [h])]
    rfl

theorem col_typed {i : Image} (h : i.Ok) : ∀ x ∈ (i.frames.map (col i.cs)).flatten, typed i.depth x := by
  intro x hx
  obtain ⟨l, hl, hx⟩ := List.mem_flatten.1 hx
  obtain ⟨f, hf, rfl⟩ := List.mem_map.1 hl
  exact (h.fits f hf x (List.mem_of_mem_drop (List.mem_of_mem_take hx))).1

theorem combine_eq (a : Closures) {i j : Image} (hi : i.Ok) (hj : j.Ok) (hd : i.depth = j.depth) (hw : i.width = j.width) (hh : i.height = j.height) (hc : i.cs = j.cs) :
    combine a i j = some { i with frames := zipKeep (frameOut (both a i.depth) i.cs) i.frames j.frames } := by
  unfold combine
  rw [if_neg (by simp [hd]), if_neg (by simp [hw, hh]), if_neg (by simp [hc]), slices hi.count, slices hj.count]
  simp only [List.map_map]
  have e : ∀ cs, ((fun t : List Samples × List Samples × List Samples => t.2.1) ∘ fun f => (List.take (lo cs) f, col cs f, List.drop (Arith.hi cs) f)) = col cs := fun _ => rfl
  rw [e, e, channels_both _ _ (col_typed hi) (by rw [hd]; exact col_typed hj)]
  simp only [Option.map_some]
  rw [← hc, put_back _ _ _ hi.count (by rw [hc]; exact hj.count)]

/-! ### The pictures, apart from the model -/

/-- The number of the channel with alpha. -/
def IsAlpha : ColorSpace → Nat → Prop
  | .RGBA, n => n = 3
  | .BGRA, n => n = 3
  | .ARGB, n => n = 0
  | .LumaA, n => n = 1
  | _, _ => False

/-- Two pictures that can be combined. -/
structure Match (i j : Image) : Prop where
  left : i.Ok
  right : j.Ok
  depth : i.depth = j.depth
  width : i.width = j.width
  height : i.height = j.height
  color : i.cs = j.cs

/-- The channels of the same place in two pictures and in a third. -/
structure At (i j r : Image) (k n : Nat) (x y z : Samples) : Prop where
  first : ∃ f, i.frames[k]? = some f ∧ f[n]? = some x
  second : ∃ f, j.frames[k]? = some f ∧ f[n]? = some y
  result : ∃ f, r.frames[k]? = some f ∧ f[n]? = some z

theorem in_slice {cs : ColorSpace} (hc : cs ≠ .LumaA) {n : Nat} (hn : n < cs.numComponents) : (lo cs ≤ n ∧ n < hi cs) ↔ ¬ IsAlpha cs n := by
  cases cs <;> simp_all [lo, hi, IsAlpha, ColorSpace.numComponents] <;> omega

theorem at_frames {a : Closures} {i j : Image} (h : Match i j) {k n : Nat} {f g : List Samples} {x y : Samples} (hf : i.frames[k]? = some f) (hg : j.frames[k]? = some g)
    (hx : f[n]? = some x) (hy : g[n]? = some y) :
    At i j { i with frames := zipKeep (frameOut (both a i.depth) i.cs) i.frames j.frames } k n x y (if lo i.cs ≤ n ∧ n < hi i.cs then both a i.depth x y else x) := by
  refine ⟨⟨f, hf, hx⟩, ⟨g, hg, hy⟩, frameOut (both a i.depth) i.cs f g, ?_, ?_⟩
  · simp only
    rw [zip_get _ _ _ k f hf, hg]
  · exact frame_get _ (h.left.count f (List.mem_of_getElem? hf)) (by rw [h.color]; exact h.right.count g (List.mem_of_getElem? hg)) hx hy

/-! ### Theorems -/

/-- **C134** (pictures that do not match). The operators panic when depth, size or colour space differ, and only then. -/
theorem c134_mismatch (a : Closures) (i j : Image) (hi : i.Ok) (hj : j.Ok) :
    combine a i j = none ↔ ¬ (i.depth = j.depth ∧ i.width = j.width ∧ i.height = j.height ∧ i.cs = j.cs) := by
  constructor
  · rintro h ⟨h1, h2, h3, h4⟩
    rw [combine_eq a hi hj h1 h2 h3 h4] at h
    cases h
  · intro h
    unfold combine
    by_cases h1 : i.depth = j.depth
    · rw [if_neg (by simp [h1])]
      by_cases h2 : (i.width, i.height) = (j.width, j.height)
      · rw [if_neg (by simp [h2])]
        simp only [Prod.mk.injEq] at h2
        by_cases h3 : i.cs = j.cs
        · exact absurd ⟨h1, h2.1, h2.2, h3⟩ h
        · rw [if_pos h3]
      · rw [if_pos h2]
    · rw [if_pos h1]

/-- **C134** (8 bits). Where both pictures have a frame, the sum has the sums of their colour samples, at most 255, and the difference has their differences, at least 0; alpha is that of the
first picture, and so are size, colour space, depth and number of frames.

Missing: pictures in LumaA, see `c134_lumaA_wrong`. -/
theorem c134_u8_partial (fa fs : F32 → F32 → F32) {i j : Image} (h : Match i j) (hd : i.depth = .eight) (hc : i.cs ≠ .LumaA) :
    ∃ s d, combine (add fa) i j = some s ∧ combine (sub fs) i j = some d ∧
      (s.cs, s.depth, s.width, s.height, s.frames.length) = (i.cs, i.depth, i.width, i.height, i.frames.length) ∧
      (d.cs, d.depth, d.width, d.height, d.frames.length) = (i.cs, i.depth, i.width, i.height, i.frames.length) ∧
      ∀ (k n : Nat) (f g : List Samples) (x y : List UInt8), i.frames[k]? = some f → j.frames[k]? = some g → f[n]? = some (.u8 x) → g[n]? = some (.u8 y) →
        ∃ u v : List UInt8, At i j s k n (.u8 x) (.u8 y) (.u8 u) ∧ At i j d k n (.u8 x) (.u8 y) (.u8 v) ∧ u.length = x.length ∧ v.length = x.length ∧
          (IsAlpha i.cs n → u = x ∧ v = x) ∧
          (¬ IsAlpha i.cs n → ∀ (p : Nat) (a b : UInt8), x[p]? = some a → y[p]? = some b →
            (∃ c, u[p]? = some c ∧ c.toNat = min 255 (a.toNat + b.toNat)) ∧ ∃ c, v[p]? = some c ∧ c.toNat = a.toNat - b.toNat) := by
  refine ⟨_, _, combine_eq (add fa) h.left h.right h.depth h.width h.height h.color, combine_eq (sub fs) h.left h.right h.depth h.width h.height h.color,
    by simp [zip_length], by simp [zip_length], fun k n f g x y hf hg hx hy => ?_⟩
  have hn : n < i.cs.numComponents := by
    rw [← h.left.count f (List.mem_of_getElem? hf)]
    exact (List.getElem?_eq_some_iff.1 hx).1
  have s := at_frames (a := add fa) h hf hg hx hy
  have d := at_frames (a := sub fs) h hf hg hx hy
  by_cases ha : IsAlpha i.cs n
  · rw [if_neg fun e => (in_slice hc hn).1 e ha] at s d
    exact ⟨x, x, s, d, rfl, rfl, fun _ => ⟨rfl, rfl⟩, fun e => absurd ha e⟩
  · rw [if_pos ((in_slice hc hn).2 ha)] at s d
    have e : ∀ a : Closures, both a i.depth (.u8 x) (.u8 y) = .u8 (zipKeep a.u8 x y) := by intro a; rw [hd]; rfl
    rw [e] at s d
    refine ⟨_, _, s, d, zip_length _ _ _, zip_length _ _ _, fun e => absurd e ha, fun _ p a b hp hq => ?_⟩
    have hal := a.toNat_lt
    have hbl := b.toNat_lt
    refine ⟨⟨_, zip_get _ _ _ p a hp, ?_⟩, ⟨_, zip_get _ _ _ p a hp, ?_⟩⟩
    · rw [hq]
      simp only [add]
      split
      · rw [UInt8.toNat_add]; omega
      · show 255 = _; omega
    · rw [hq]
      simp only [sub]
      split
      · rw [UInt8.toNat_sub_of_le _ _ (by rw [UInt8.le_iff_toNat_le]; omega)]
      · show 0 = _; omega

/-- **C134** (16 bits). The same with 65535. -/
theorem c134_u16_partial (fa fs : F32 → F32 → F32) {i j : Image} (h : Match i j) (hd : i.depth = .sixteen) (hc : i.cs ≠ .LumaA) :
    ∃ s d, combine (add fa) i j = some s ∧ combine (sub fs) i j = some d ∧
      (s.cs, s.depth, s.width, s.height, s.frames.length) = (i.cs, i.depth, i.width, i.height, i.frames.length) ∧
      (d.cs, d.depth, d.width, d.height, d.frames.length) = (i.cs, i.depth, i.width, i.height, i.frames.length) ∧
      ∀ (k n : Nat) (f g : List Samples) (x y : List UInt16), i.frames[k]? = some f → j.frames[k]? = some g → f[n]? = some (.u16 x) → g[n]? = some (.u16 y) →
        ∃ u v : List UInt16, At i j s k n (.u16 x) (.u16 y) (.u16 u) ∧ At i j d k n (.u16 x) (.u16 y) (.u16 v) ∧ u.length = x.length ∧ v.length = x.length ∧
          (IsAlpha i.cs n → u = x ∧ v = x) ∧
          (¬ IsAlpha i.cs n → ∀ (p : Nat) (a b : UInt16), x[p]? = some a → y[p]? = some b →
            (∃ c, u[p]? = some c ∧ c.toNat = min 65535 (a.toNat + b.toNat)) ∧ ∃ c, v[p]? = some c ∧ c.toNat = a.toNat - b.toNat) := by
  refine ⟨_, _, combine_eq (add fa) h.left h.right h.depth h.width h.height h.color, combine_eq (sub fs) h.left h.right h.depth h.width h.height h.color,
    by simp [zip_length], by simp [zip_length], fun k n f g x y hf hg hx hy => ?_⟩
  have hn : n < i.cs.numComponents := by
    rw [← h.left.count f (List.mem_of_getElem? hf)]
    exact (List.getElem?_eq_some_iff.1 hx).1
  have s := at_frames (a := add fa) h hf hg hx hy
  have d := at_frames (a := sub fs) h hf hg hx hy
  by_cases ha : IsAlpha i.cs n
  · rw [if_neg fun e => (in_slice hc hn).1 e ha] at s d
    exact ⟨x, x, s, d, rfl, rfl, fun _ => ⟨rfl, rfl⟩, fun e => absurd ha e⟩
  · rw [if_pos ((in_slice hc hn).2 ha)] at s d
    have e : ∀ a : Closures, both a i.depth (.u16 x) (.u16 y) = .u16 (zipKeep a.u16 x y) := by intro a; rw [hd]; rfl
    rw [e] at s d
    refine ⟨_, _, s, d, zip_length _ _ _, zip_length _ _ _, fun e => absurd e ha, fun _ p a b hp hq => ?_⟩
    have hal := a.toNat_lt
    have hbl := b.toNat_lt
    refine ⟨⟨_, zip_get _ _ _ p a hp, ?_⟩, ⟨_, zip_get _ _ _ p a hp, ?_⟩⟩
    · rw [hq]
      simp only [add]
      split
      · rw [UInt16.toNat_add]; omega
      · show 65535 = _; omega
    · rw [hq]
      simp only [sub]
      split
      · rw [UInt16.toNat_sub_of_le _ _ (by rw [UInt16.le_iff_toNat_le]; omega)]
      · show 0 = _; omega

/-- **C134** (frames). Frames of the first picture that have no partner in the second stay; further frames of the second are not used. -/
theorem c134_frames (a : Closures) {i j : Image} (h : Match i j) : ∃ r, combine a i j = some r ∧ r.frames.length = i.frames.length ∧
    ∀ k f, i.frames[k]? = some f → j.frames.length ≤ k → r.frames[k]? = some f := by
  refine ⟨_, combine_eq a h.left h.right h.depth h.width h.height h.color, zip_length _ _ _, fun k f hf hk => ?_⟩
  simp only
  rw [zip_get _ _ _ k f hf, List.getElem?_eq_none hk]

/-- **C134, disagreement OP1** For pictures in LumaA of 8 bits alpha is added and the grey values stay. -/
theorem c134_lumaA_wrong (fa : F32 → F32 → F32) {i j : Image} (h : Match i j) (hd : i.depth = .eight) (hc : i.cs = .LumaA) (k : Nat) (l a l' a' : List UInt8)
    (hf : i.frames[k]? = some [.u8 l, .u8 a]) (hg : j.frames[k]? = some [.u8 l', .u8 a']) :
    ∃ s, combine (add fa) i j = some s ∧ s.frames[k]? = some [.u8 l, .u8 (zipKeep (add fa).u8 a a')] := by
  refine ⟨_, combine_eq (add fa) h.left h.right h.depth h.width h.height h.color, ?_⟩
  simp only
  rw [zip_get _ _ _ k _ hf, hg, hc, hd]
  rfl

/-- Pictures of the examples. -/
def exSum (cs : ColorSpace) (f : List Samples) : Image := ⟨cs, .eight, 2, 1, false, [f]⟩

example : Match (exSum .RGBA [.u8 [1, 200], .u8 [3, 4], .u8 [5, 6], .u8 [7, 8]]) (exSum .RGBA [.u8 [9, 100], .u8 [1, 1], .u8 [6, 5], .u8 [9, 9]]) ∧
    combine (add fun x _ => x) (exSum .RGBA [.u8 [1, 200], .u8 [3, 4], .u8 [5, 6], .u8 [7, 8]]) (exSum .RGBA [.u8 [9, 100], .u8 [1, 1], .u8 [6, 5], .u8 [9, 9]]) =
      some (exSum .RGBA [.u8 [10, 255], .u8 [4, 5], .u8 [11, 11], .u8 [7, 8]]) :=
  ⟨⟨Color.ok_of (by decide) (by decide) (by decide) (by decide), Color.ok_of (by decide) (by decide) (by decide) (by decide), rfl, rfl, rfl, rfl⟩, by decide +kernel⟩

example : Match (exSum .LumaA [.u8 [10, 20], .u8 [100, 200]]) (exSum .LumaA [.u8 [1, 2], .u8 [50, 60]]) ∧
    combine (add fun x _ => x) (exSum .LumaA [.u8 [10, 20], .u8 [100, 200]]) (exSum .LumaA [.u8 [1, 2], .u8 [50, 60]]) = some (exSum .LumaA [.u8 [10, 20], .u8 [150, 255]]) :=
  ⟨⟨Color.ok_of (by decide) (by decide) (by decide) (by decide), Color.ok_of (by decide) (by decide) (by decide) (by decide), rfl, rfl, rfl, rfl⟩, by decide +kernel⟩

example : combine (sub fun x _ => x) ⟨.ARGB, .sixteen, 1, 1, false, [[.u16 [7], .u16 [10], .u16 [20], .u16 [30]], [.u16 [1], .u16 [2], .u16 [3], .u16 [4]]]⟩
    ⟨.ARGB, .sixteen, 1, 1, true, [[.u16 [9], .u16 [3], .u16 [25], .u16 [30]]]⟩ =
      some ⟨.ARGB, .sixteen, 1, 1, false, [[.u16 [7], .u16 [7], .u16 [0], .u16 [0]], [.u16 [1], .u16 [2], .u16 [3], .u16 [4]]]⟩ := by decide +kernel

end Zune.Arith
