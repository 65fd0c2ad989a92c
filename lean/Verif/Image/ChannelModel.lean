/-
Model of `crates/zune-image/src/channel.rs`: a growable byte buffer over the raw allocator.

The block of memory behind `ptr` is the list `mem`; the rules of the allocator and of raw pointer writes which the Rust
compiler does not check are explicit: breaking one of them is a `Fault`.  Simplifications, everywhere in this file: `usize` is
unbounded (the `saturating_*` operations never saturate), and an allocation never fails.
-/
import Verif.Common.Bytes

namespace Zune.Chan

/-- The element types the library uses, for `TypeId` (channel.rs:287-296). -/
inductive Ty where
  | u8 | u16 | f32
  deriving DecidableEq, Repr

/-- `core::mem::size_of` of these types. -/
def Ty.size : Ty → Nat
  | .u8 => 1 | .u16 => 2 | .f32 => 4

/-- What can go wrong: three ways of undefined behaviour (documented safety conditions of `alloc_zeroed`/`realloc` and of
    `copy_from`), and the panic of the `assert_eq!` on types (channel.rs:385-390). -/
inductive Fault where
  | zeroSize | badLayout | outOfBounds | typePanic
  deriving DecidableEq, Repr

/-- `Channel` (channel.rs:84-91); `mem` is the allocated block `ptr` points to, `layout` the size in the stored `Layout`. -/
structure Channel where
  mem : List UInt8
  length : Nat
  capacity : Nat
  ty : Ty
  layout : Nat
  deriving DecidableEq, Repr

/-- The environment: what `realloc` finds in the new part of a block, and whether the allocator insists on the rule that the
    layout passed to `realloc` is the layout of the block. -/
structure Env where
  fresh : Nat → UInt8
  strict : Bool

/-- `Channel::new_with_capacity_and_type` (channel.rs:337-347) with `alloc` (channel.rs:210-218): `alloc_zeroed` must not be
    called for zero bytes. -/
def new (cap : Nat) (ty : Ty) : Except Fault Channel :=
  if cap = 0 then .error .zeroSize
  else .ok { mem := List.replicate cap 0, length := 0, capacity := cap, ty := ty, layout := cap }

/-- `Channel::new_with_length_and_type` (channel.rs:263-268). -/
def newWithLength (len : Nat) (ty : Ty) : Except Fault Channel :=
  (new len ty).map fun c => { c with length := len }

/-- `Channel::realloc` (channel.rs:221-225): the stored layout is passed to `realloc` and is not updated. -/
def Channel.realloc (env : Env) (c : Channel) (n : Nat) : Except Fault Channel :=
  if n = 0 then .error .zeroSize
  else if env.strict && c.layout != c.mem.length then .error .badLayout
  else .ok { c with
    mem := c.mem.take n ++ (List.range (n - c.mem.length)).map env.fresh
    capacity := n }

/-- `has_capacity` (channel.rs:378-380). -/
def Channel.hasCapacity (c : Channel) (extra : Nat) : Bool := c.length + extra ≤ c.capacity

/-- `self.ptr.add(self.length).copy_from(src, n)` and the new length (channel.rs:419-425, 521-531). -/
def Channel.write (c : Channel) (bytes : List UInt8) : Except Fault Channel :=
  if c.length + bytes.length ≤ c.mem.length then
    .ok { c with
      mem := c.mem.take c.length ++ bytes ++ c.mem.drop (c.length + bytes.length)
      length := c.length + bytes.length }
  else .error .outOfBounds

/-- `extend_unchecked` (channel.rs:401-426); the elements are given by their bytes. -/
def Channel.extendUnchecked (env : Env) (c : Channel) (bytes : List UInt8) : Except Fault Channel :=
  if c.hasCapacity bytes.length then c.write bytes
  else (c.realloc env (c.capacity + bytes.length + 10)).bind fun c => c.write bytes

/-- `extend` (channel.rs:384-394). -/
def Channel.extend (env : Env) (c : Channel) (ty : Ty) (bytes : List UInt8) : Except Fault Channel :=
  if ty ≠ c.ty then .error .typePanic else c.extendUnchecked env bytes

/-- `push` (channel.rs:509-532) of one element, given by its bytes. -/
def Channel.push (env : Env) (c : Channel) (elm : List UInt8) : Except Fault Channel :=
  if c.hasCapacity elm.length then c.write elm
  else (c.realloc env (c.capacity * (elm.length * 3) / 2)).bind fun c => c.write elm

/-- The stored bytes: `reinterpret_as_unchecked::<u8>` (channel.rs:454-468), `alias` (channel.rs:594-596). -/
def Channel.view (c : Channel) : List UInt8 := c.mem.take c.length

/-- `Clone` (channel.rs:101-116). -/
def Channel.clone (env : Env) (c : Channel) : Except Fault Channel :=
  (new c.capacity c.ty).bind fun d => d.extendUnchecked env c.view

/-- `PartialEq` (channel.rs:118-148). -/
def Channel.eq (a b : Channel) : Bool :=
  if a.length != b.length then false
  else if a.ty != b.ty then false
  else (a.view.zip b.view).all fun p => p.1 == p.2

/-- `ChannelErrors` (channel.rs:46-54).  `UnalignedPointer` cannot occur: the allocator honours the alignment of 64. -/
inductive ChErr where
  | uneven | differentType
  deriving DecidableEq, Repr

/-- Cutting a buffer into elements of `n` bytes (`align_to`, channel.rs:462, on an aligned buffer). -/
def elements (n : Nat) (l : List UInt8) : List (List UInt8) :=
  (List.range (l.length / n)).map fun i => (l.drop (i * n)).take n

/-- `reinterpret_as` (channel.rs:432-444) with `confirm_suspicions` (channel.rs:564-587). -/
def Channel.reinterpret (c : Channel) (ty : Ty) : Except ChErr (List (List UInt8)) :=
  if c.length % ty.size ≠ 0 then .error .uneven
  else if ty ≠ c.ty then .error .differentType
  else .ok (elements ty.size c.view)

/-- `fill` (channel.rs:550-560). -/
def Channel.fill (c : Channel) (ty : Ty) (elm : List UInt8) : Except ChErr Channel :=
  (c.reinterpret ty).map fun es =>
    { c with mem := (es.map fun _ => elm).flatten ++ c.mem.drop c.length }

/-- `from_elm` (channel.rs:365-375); `none` is the panic of `unwrap`. -/
def fromElm (n : Nat) (ty : Ty) (elm : List UInt8) : Except Fault (Option Channel) :=
  (newWithLength (n * ty.size) ty).map fun c => (c.fill ty elm).toOption

/-- One mutation of a channel. -/
inductive Op where
  | push (elm : List UInt8)
  | extend (ty : Ty) (bytes : List UInt8)
  deriving DecidableEq, Repr

/-- The bytes an operation adds. -/
def Op.bytes : Op → List UInt8
  | .push e => e
  | .extend _ b => b

/-- One operation (channel.rs:384, 509). -/
def Channel.step (env : Env) (c : Channel) : Op → Except Fault Channel
  | .push e => c.push env e
  | .extend t b => c.extend env t b

/-- A sequence of operations. -/
def Channel.run (env : Env) : Channel → List Op → Except Fault Channel
  | c, [] => .ok c
  | c, op :: ops => (c.step env op).bind fun c => c.run env ops

end Zune.Chan
