/-
Model of the memory the C interface hands out (`crates/zune-capi/src/{errno,utils,image,imread}.rs`): `malloc` and `free`, the status objects and their
messages, pictures, and the memory of decoded samples.  An address is a number, null is 0.
-/
import Mathlib.Data.List.Basic

namespace Zune.Capi

/-- What must not happen: a panic, `free` of memory that is not allocated, access through null, a drop of memory that holds no value. -/
inductive Fault where
  | panic | badFree | nullAccess | uninitialised
  deriving DecidableEq, Repr

/-- `ZStatusType` (errno.rs:11-36). -/
inductive Code where
  | ok | notEnoughSpace | generic | decodeErrors | ioErrors | mallocFailed | nullStatus | imageIsNull | operationError
  deriving DecidableEq, Repr

/-- `ZStatus` (errno.rs:52-56): the message is an address. -/
structure Status where
  code : Code
  message : Nat
  deriving DecidableEq, Repr

/-- The heap: the addresses allocated, the next one, the status objects and where pictures are. (Simplified: addresses are not used again; other contents are left out.) -/
structure Heap where
  live : List Nat
  next : Nat
  status : Nat → Option Status
  image : Nat → Bool

/-- `libc::malloc` (utils.rs:38-40); `room` says whether there is memory. -/
def malloc (room : Bool) (h : Heap) : Nat × Heap :=
  if room then (h.next, { h with live := h.next :: h.live, next := h.next + 1 }) else (0, h)

/-- `zil_free` (utils.rs:48-55): an assertion, then `libc::free`. -/
def free (p : Nat) (h : Heap) : Except Fault Heap :=
  if p = 0 then .error .panic
  else if p ∈ h.live then .ok { h with live := h.live.erase p }
  else .error .badFree

/-- `zil_free_and_null` (utils.rs:62-67) on a variable that holds `p`: what it holds afterwards. -/
def freeAndNull (p : Nat) (h : Heap) : Except Fault (Nat × Heap) :=
  match free p h with
  | .ok h => .ok (0, h)
  | .error e => .error e

/-- `ZStatus::new` (errno.rs:59-74); `strcpy` to null is an access through null. -/
def newStatus (room : Bool) (code : Code) (h : Heap) : Except Fault (Status × Heap) :=
  match malloc room h with
  | (mem, h) => if mem = 0 then .error .nullAccess else .ok (⟨code, mem⟩, h)

/-- `drop` of a status (errno.rs:81-85). -/
def dropStatus (s : Status) (h : Heap) : Except Fault Heap := free s.message h

/-- `*status = value` (for example imread.rs:321): the old value is dropped. -/
def assign (p : Nat) (s : Status) (h : Heap) : Except Fault Heap :=
  if p = 0 then .error .nullAccess
  else
    match h.status p with
    | none => .error .uninitialised
    | some old =>
      match dropStatus old h with
      | .ok h => .ok { h with status := fun q => if q = p then some s else h.status q }
      | .error e => .error e

/-- `*status = ZStatus::new(…)` (for example imread.rs:321). -/
def report (room : Bool) (p : Nat) (code : Code) (h : Heap) : Except Fault Heap :=
  match newStatus room code h with
  | .ok (s, h) => assign p s h
  | .error e => .error e

/-- `zil_status_new` (errno.rs:106-124). -/
def statusNew (room1 room2 : Bool) (h : Heap) : Nat × Heap :=
  let (ptr, h) := malloc room1 h
  let (mem, h) := malloc room2 h
  if mem = 0 then (0, h)
  else if ptr ≠ 0 then (ptr, { h with status := fun q => if q = ptr then some ⟨.ok, mem⟩ else h.status q })
  else (ptr, h)

/-- `zil_status_ok` (errno.rs:92-97). -/
def statusOk (p : Nat) (h : Heap) : Except Fault Bool :=
  if p = 0 then .ok false
  else
    match h.status p with
    | none => .error .uninitialised
    | some s => .ok (decide (s.code = .ok))

/-- `zil_status_code` (errno.rs:132-138). -/
def statusCode (p : Nat) (h : Heap) : Except Fault Code :=
  if p = 0 then .ok .nullStatus
  else
    match h.status p with
    | none => .error .uninitialised
    | some s => .ok s.code

/-- `zil_status_free` (errno.rs:161-170): the message is freed, the status is dropped in place, its memory freed. -/
def statusFree (p : Nat) (h : Heap) : Except Fault Heap :=
  if p = 0 then .ok h
  else
    match h.status p with
    | none => .error .uninitialised
    | some s =>
      match free s.message h with
      | .error e => .error e
      | .ok h =>
        match dropStatus s h with
        | .error e => .error e
        | .ok h => free p h

/-- `*image = value` (image.rs:160, 197, 235): the picture that is there is dropped. -/
def assignImage (p : Nat) (h : Heap) : Except Fault Heap :=
  if p = 0 then .error .nullAccess
  else if h.image p then .ok { h with image := fun q => if q = p then true else h.image q }
  else .error .uninitialised

/-- `zil_zimg_new` (image.rs:158-162). -/
def zimgNew (room : Bool) (h : Heap) : Except Fault (Nat × Heap) :=
  match malloc room h with
  | (ptr, h) => (assignImage ptr h).map fun h => (ptr, h)

/-- `zil_imdecode` (imread.rs:238-288): `info` says whether the headers could be read, `inner` what `zil_imdecode_into` (imread.rs:305-359) comes to: `none` for
success, or the code it reports.  The result is the pointer returned. (Simplified: sizes do not matter to the heap.) -/
def imdecode (room1 room2 : Bool) (info : Bool) (inner : Option Code) (p : Nat) (h : Heap) : Except Fault (Nat × Heap) :=
  if p = 0 then .ok (0, h)
  else if info = false then (report room2 p .decodeErrors h).map fun h => (0, h)
  else
    match malloc room1 h with
    | (output, h) =>
      if output = 0 then (report room2 p .mallocFailed h).map fun h => (0, h)
      else
        let r := match inner with
          | some code => report room2 p code h
          | none =>
            match h.status p with
            | none => .error .uninitialised
            | some s => .ok { h with status := fun q => if q = p then some { s with code := .ok } else h.status q }
        match r with
        | .error e => .error e
        | .ok h =>
          match statusOk p h with
          | .error e => .error e
          | .ok good => .ok (if good then output else 0, h)

end Zune.Capi
