/- PNG Adam7 interlacing: crates/zune-png/src/decoder.rs `decode_interlaced`. -/
import Verif.Png.Rows
import Mathlib.Tactic.IntervalCases

namespace Zune.Png

/-- A pass: horizontal and vertical origin and spacing (`XORIG[p]`, `YORIG[p]`, `XSPC[p]`, `YSPC[p]`). -/
structure Pass where
  xo : Nat
  yo : Nat
  xs : Nat
  ys : Nat

/-- crates/zune-png/src/decoder.rs:755-759: the four tables, read column by column. -/
def adam7 : List Pass :=
  [⟨0, 0, 8, 8⟩, ⟨4, 0, 8, 8⟩, ⟨0, 4, 4, 8⟩, ⟨2, 0, 4, 4⟩, ⟨0, 2, 2, 4⟩, ⟨1, 0, 2, 2⟩, ⟨0, 1, 1, 2⟩]

/-- crates/zune-png/src/decoder.rs:779-784 `x`. -/
def Pass.width (p : Pass) (w : Nat) : Nat := (w - p.xo + p.xs - 1) / p.xs

/-- crates/zune-png/src/decoder.rs:786-791 `y`. -/
def Pass.height (p : Pass) (h : Nat) : Nat := (h - p.yo + p.ys - 1) / p.ys

/-- `out.get_mut(start..start + n)` followed by `copy_from_slice`, crates/zune-png/src/decoder.rs:819-823. -/
def patch (out : List UInt8) (start : Nat) (bytes : List UInt8) : List UInt8 :=
  if start + bytes.length ≤ out.length then out.take start ++ bytes ++ out.drop (start + bytes.length) else out

/-- The loops over `j` and `i`, crates/zune-png/src/decoder.rs:811-826; `ob` is `out_bytes`, `fin` is `final_out`. -/
def place (p : Pass) (w ob x y : Nat) (fin out : List UInt8) : List UInt8 :=
  (List.range y).foldl (fun out j => (List.range x).foldl (fun out i =>
    patch out ((j * p.ys + p.yo) * w * ob + (i * p.xs + p.xo) * ob) ((fin.drop ((j * x + i) * ob)).take ob)) out) out

/-- The loop over the passes, crates/zune-png/src/decoder.rs:778-829.  `data` is the inflated data from `image_offset` on.
    Simplified: the frame has the size of the picture (no APNG frames). -/
def passLoop (c : Ctx) (w h : Nat) : List Pass → List UInt8 → List UInt8 → List UInt8 → List UInt8 → Except Err (List UInt8)
  | [], _, _, _, out => .ok out
  | p :: ps, data, scratch, fin, out =>
    let x := p.width w
    let y := p.height h
    if x ≠ 0 ∧ y ≠ 0 then
      let len := ((c.color.comps * x * c.depth + 7) / 8 + 1) * y
      if data.length < len then .error .generic
      else
        match createRaw c (data.take len) x y scratch fin with
        | .error e => .error e
        | .ok (fin, scratch) => passLoop c w h ps (data.drop len) scratch fin (place p w (c.outComps * c.bytes) x y fin out)
    else passLoop c w h ps data scratch fin out

/-- crates/zune-png/src/decoder.rs:752-832 `decode_interlaced`. -/
def decodeInterlaced (c : Ctx) (w h : Nat) (data scratch out : List UInt8) : Except Err (List UInt8) :=
  passLoop c w h adam7 data scratch (List.replicate (w * h * c.outComps * c.bytes) 0) out

namespace Spec

/-- Packed row `row` holds the given pixels (any padding bits). -/
def holds (c : Ctx) (row : List UInt8) (width : Nat) (pix : Nat → List Nat) : Prop :=
  row.length = (width * c.color.comps * c.depth + 7) / 8 ∧
  ∀ x < width, pix x = (List.range c.color.comps).map fun i => sample c.depth row (x * c.color.comps + i)

/-- The pass (RFC 2083 2.6) holding pixel `(y, x)`, counted from 0, by the 8 by 8 pattern. -/
def pattern : List (List Nat) :=
  [[1, 6, 4, 6, 2, 6, 4, 6],
   [7, 7, 7, 7, 7, 7, 7, 7],
   [5, 6, 5, 6, 5, 6, 5, 6],
   [7, 7, 7, 7, 7, 7, 7, 7],
   [3, 6, 4, 6, 3, 6, 4, 6],
   [7, 7, 7, 7, 7, 7, 7, 7],
   [5, 6, 5, 6, 5, 6, 5, 6],
   [7, 7, 7, 7, 7, 7, 7, 7]]

/-- The number of the pass pixel `(y, x)` belongs to. -/
def passOf (y x : Nat) : Nat := (pattern.getD (y % 8) []).getD (x % 8) 0

/-- The columns below `w` whose pixels in row `y` belong to pass `n`, in order. -/
def columns (n w y : Nat) : List Nat := (List.range w).filter fun x => passOf y x = n

/-- The rows of pass `n`: those which have pixels in it. -/
def lines (n w h : Nat) : List Nat := (List.range h).filter fun y => columns n w y ≠ []

end Spec
end Zune.Png
