/-
Specification vocabulary for the byte stream properties: sequences of integer fields and the
arithmetic meaning of seeks.  Independent of the reader's internals.
-/
import Verif.Bytestream.Model

namespace Zune.Bytestream

/-- One integer written to / read from a stream: endianness, size in bytes, value. -/
structure Field where
  e : Endian
  k : Nat
  v : Nat
deriving DecidableEq, Repr

/-- The value fits in its size. -/
def Field.Fits (f : Field) : Prop := f.v < 256 ^ f.k

/-- Write all fields in order; `none` as soon as one write reports an error. -/
def writeFields (w : Writer) : List Field → Option Writer
  | [] => some w
  | f :: fs =>
    match w.writeInt f.e f.k f.v with
    | (.ok _, w') => writeFields w' fs
    | (.error _, _) => none

/-- Read integers of the given shapes in order with the failing getters. -/
def readFields (c : Cursor) : List (Endian × Nat) → Option (List Nat × Cursor)
  | [] => some ([], c)
  | (e, k) :: fs =>
    match c.getIntErr e k with
    | (.ok v, c') => (readFields c' fs).map fun (vs, c'') => (v :: vs, c'')
    | (.error _, _) => none

/-- Read integers of the given shapes in order with the defaulting getters. -/
def readFieldsDef (c : Cursor) : List (Endian × Nat) → List Nat × Cursor
  | [] => ([], c)
  | (e, k) :: fs =>
    let (v, c') := c.getInt e k
    let (vs, c'') := readFieldsDef c' fs
    (v :: vs, c'')

/-- Absolute offset requested by a seek, as an integer. -/
def seekTarget (len pos : Nat) : SeekFrom → Int
  | .start n => n
  | .fromEnd o => len + o
  | .current o => pos + o

/-- Run a sequence of seeks, ignoring reported errors. -/
def runSeeks (c : Cursor) : List SeekFrom → Cursor
  | [] => c
  | s :: ss => runSeeks (c.seek s).2 ss

/-- Position after a sequence of seeks computed on integers only: a request to a representable
    non-negative offset is granted, others are ignored. -/
def seqTarget (len pos : Nat) : List SeekFrom → Nat
  | [] => pos
  | s :: ss =>
    let t := seekTarget len pos s
    seqTarget len (if 0 ≤ t ∧ t < (usizeLim : Int) then t.toNat else pos) ss

end Zune.Bytestream
