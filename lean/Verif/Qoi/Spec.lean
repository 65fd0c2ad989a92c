/-
Specification of the QOI chunk language (https://qoiformat.org, "data chunks"), written with plain
arithmetic and independently of the decoder's bit operations and hash trick.
-/
import Verif.Qoi.Model

namespace Zune.Qoi.Spec
open Zune.Qoi

/-- index_position = (r * 3 + g * 5 + b * 7 + a * 11) % 64 -/
def hash (p : Px) : Nat := (3 * p.r.toNat + 5 * p.g.toNat + 7 * p.b.toNat + 11 * p.a.toNat) % 64

/-- channel + d, wrapping around, for `d` given with a bias. -/
def addB (x : UInt8) (d bias : Nat) : UInt8 := UInt8.ofNat ((x.toNat + d + 256 - bias) % 256)

/-- Meaning of one chunk: the pixel it denotes, how many times, and the bytes that follow; `none` if the data stops
    inside the chunk. -/
def chunk (cache : Nat → Px) (p : Px) : List UInt8 → Option (Px × Nat × List UInt8)
  | [] => none
  | b0 :: t =>
    let x := b0.toNat
    if x = 254 then
      match t with
      | r :: g :: b :: t => some (⟨r, g, b, p.a⟩, 1, t)
      | _ => none
    else if x = 255 then
      match t with
      | r :: g :: b :: a :: t => some (⟨r, g, b, a⟩, 1, t)
      | _ => none
    else if x < 64 then some (cache x, 1, t)
    else if x < 128 then
      some (⟨addB p.r (x / 16 % 4) 2, addB p.g (x / 4 % 4) 2, addB p.b (x % 4) 2, p.a⟩, 1, t)
    else if x < 192 then
      match t with
      | b1 :: t =>
        let y := b1.toNat
        -- dr-dg and db-dg are stored with a bias of 8, dg with a bias of 32
        some (⟨addB p.r (x - 128 + y / 16) 40, addB p.g (x - 128) 32, addB p.b (x - 128 + y % 16) 40, p.a⟩, 1, t)
      | [] => none
    else some (p, x - 192 + 1, t)

/-- The first `n` pixels denoted by a chunk stream, and the bytes after the last chunk used. A chunk repeating its
    pixel beyond the end of the image is cut. `fuel` bounds the number of chunks; `n` always suffices. -/
def pixels (fuel n : Nat) (cache : Nat → Px) (p : Px) (s : List UInt8) : Option (List Px × List UInt8) :=
  if n = 0 then some ([], s)
  else
    match fuel with
    | 0 => none
    | fuel + 1 =>
      match chunk cache p s with
      | none => none
      | some (q, k, s') =>
        let m := min k n
        match pixels fuel (n - m) (fun i => if i = hash q then q else cache i) q s' with
        | none => none
        | some (ps, s'') => some (List.replicate m q ++ ps, s'')

/-- Pixels of an image of `n` pixels from the bytes after the header. -/
def image (n : Nat) (s : List UInt8) : Option (List Px × List UInt8) :=
  pixels n n (fun _ => ⟨0, 0, 0, 0⟩) ⟨0, 0, 0, 255⟩ s

end Zune.Qoi.Spec
