/-
Model of `composite` of `crates/zune-imageprocs` (and of `calculate_gravity`) on 8 and 16 bit samples.
A channel is a row-major list of samples.  `f32` arithmetic is that of `Common/Float` (every result rounded to 24 bits).
-/
import Verif.Imageprocs.AreaModel
import Verif.Common.Float

namespace Zune.Imageprocs
variable {α σ : Type}
open Zune.Float (rnd)

/-- `CompositeMethod` (composite.rs:13-26). -/
inductive CompositeMethod
  | over
  | src
  | dst
  | dstIn
deriving Repr, DecidableEq

/-- The errors of `execute_impl` (composite.rs:112-124) and its panics (`unwrap`, `unreachable!`, `chunks_exact(0)`). -/
inductive CompositeErr
  | depth
  | colors
  | panic
deriving Repr, DecidableEq

/-- `Gravity` (utils.rs:46-58). -/
inductive Gravity
  | center
  | topLeft
  | topRight
  | bottomLeft
  | bottomRight
deriving Repr, DecidableEq

/-- `calculate_gravity` (utils.rs:60-85): the place (x, y) of a `ws` × `hs` picture on a `wd` × `hd` picture. -/
def calculateGravity (ws hs wd hd : Nat) : Gravity → Nat × Nat
  | .center => (wd / 2 - ws / 2, hd / 2 - hs / 2)
  | .topLeft => (0, 0)
  | .topRight => (wd - ws, 0)
  | .bottomLeft => (0, hd - hs)
  | .bottomRight => (wd - ws, hd - hs)

/-- The body of the loop over rows (composite.rs:313-326, 361-366, 385-400): `slice` is the row from `start_x` on, if there is such a part; `f`
    gives the new sample. -/
def mergeRow (f : σ → α → α) (x : Nat) (row : List α) (s : List σ) : List α :=
  if x ≤ row.length then
    let slice := row.drop x
    let n := min slice.length s.length
    row.take x ++ List.zipWith f (s.take n) (slice.take n) ++ slice.drop n
  else row

/-- The loops of `composite_alpha_channel` (composite.rs:308-327), `composite_over` (composite.rs:352-368) and `composite_over_alpha`
    (composite.rs:370-402), which differ in the function of the samples.  `none` is the panic of `chunks_exact(0)`.  The output is made of the
    rows of the destination and of what is behind its last whole row. -/
def overlay (f : σ → α → α) (src : List σ) (dest : List α) (x y ws wd : Nat) : Option (List α) :=
  if wd = 0 ∨ ws = 0 then none
  else
    some (((chunksOf wd dest).mapIdx fun i r =>
      if i < y then r else (chunksOf ws src)[i - y]?.elim r (mergeRow f x r)).flatten ++ dest.drop (dest.length / wd * wd))

/-- `T::from_f32` of a number that is not negative (traits.rs:119-121): the integer part, at most the largest sample. -/
def castSample (m : Nat) (r : Rat) : Nat := min m ⌊r⌋.toNat

/-- `src_normalized` (composite.rs:306, 319, 377, 394); `m` is the largest sample. -/
def normalized (m a : Nat) : Rat := max 0 (min 1 (rnd 24 (a * rnd 24 (1 / m))))

/-- The new sample (composite.rs:319-324, 394-398): `a` is the alpha of the source, `s` the sample of the source, `d` that of the destination. -/
def blend (m a s d : Nat) : Nat :=
  castSample m (rnd 24 (rnd 24 (normalized m a * s) + rnd 24 (rnd 24 (1 - normalized m a) * d)))

/-- A picture: colour space, largest sample, size, and for every frame its channels. -/
structure Pic where
  cs : ColorSpace
  max : Nat
  w : Nat
  h : Nat
  frames : List (List (List Nat))
deriving Repr, DecidableEq

/-- `composite` (composite.rs:330-351) on one channel; `dstIn` does not get here. -/
def compositePlain (m : CompositeMethod) (max : Nat) (src dest : List Nat) (p : Nat × Nat) (ws wd : Nat) : Option (List Nat) :=
  match m with
  | .over => overlay (fun s _ => s) src dest p.1 p.2 ws wd
  | .src => overlay (fun s _ => s) src (List.replicate dest.length max) p.1 p.2 ws wd
  | .dst => some dest
  | .dstIn => none

/-- `composite_alpha` (composite.rs:283-297): everything but `Over` is `unreachable!`.  (Simplified: the rows of the source and of its alpha
    channel are taken from the list of pairs; the two channels have the same length.) -/
def compositeAlpha (m : CompositeMethod) (max : Nat) (src alpha dest : List Nat) (p : Nat × Nat) (ws wd : Nat) : Option (List Nat) :=
  match m with
  | .over => overlay (fun (t : Nat × Nat) d => blend max t.2 t.1 d) (src.zip alpha) dest p.1 p.2 ws wd
  | _ => none

/-- `composite_alpha_channel` (composite.rs:298-329). -/
def compositeAlphaChannel (m : CompositeMethod) (max : Nat) (alpha dest : List Nat) (p : Nat × Nat) (ws wd : Nat) : Option (List Nat) :=
  match m with
  | .over => overlay (fun a d => blend max a a d) alpha dest p.1 p.2 ws wd
  | _ => some dest

/-- One frame with alpha (composite.rs:131-224): the colour channels, then the alpha channel; the channels are put back where
    `separate_color_and_alpha_mut` found them. -/
def compositeFrame (m : CompositeMethod) (max : Nat) (cs : ColorSpace) (p : Nat × Nat) (ws wd : Nat) (src dst : List (List Nat)) :
    Option (List (List Nat)) := do
  let s ← separate cs src
  let d ← separate cs dst
  let colors ← (s.colors.zip d.colors).mapM fun (a, b) => compositeAlpha m max a s.alpha b p ws wd
  let alpha ← compositeAlphaChannel m max s.alpha d.alpha p ws wd
  return if d.before.isEmpty then colors ++ [alpha] else alpha :: colors

/-- `Composite::execute_impl` (composite.rs:101-275); `p` is the place given, or that of `calculate_gravity`.  (The source compares depths; here the
    largest sample stands for the depth.) -/
def composite (m : CompositeMethod) (p : Nat × Nat) (src dst : Pic) : Except CompositeErr Pic :=
  if dst.max ≠ src.max then .error .depth
  else if dst.cs ≠ src.cs then .error .colors
  else if m = .dstIn then .ok dst
  else if dst.cs.hasAlpha then
    match (src.frames.zip dst.frames).mapM fun (a, b) => compositeFrame m dst.max dst.cs p src.w dst.w a b with
    | none => .error .panic
    | some fs => .ok { dst with frames := fs ++ dst.frames.drop fs.length }
  else
    match imageSlices src.cs false src.frames, imageSlices dst.cs false dst.frames with
    | some ss, some ds =>
      let sl := (ss.map fun t => t.2.1).flatten
      let dl := (ds.map fun t => t.2.1).flatten
      match (sl.zip dl).mapM fun (a, b) => compositePlain m dst.max a b p src.w dst.w with
      | none => .error .panic
      | some out => .ok { dst with frames := putBack ds (out ++ dl.drop out.length) }
    | _, _ => .error .panic

end Zune.Imageprocs
