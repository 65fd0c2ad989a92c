/-
Model of `crates/zune-image/src/pipelines.rs`.  Images, errors and operations are abstract: an operation maps an image to the
image it leaves behind and its result (`OperationsTrait::execute`, traits.rs:145-196, changes the image in place).
-/
import Mathlib.Data.List.Basic

namespace Zune.Pipe

variable {I E : Type}

/-- `PipelineState` (pipelines.rs:19-30). -/
inductive PState where
  | initialized | decode | operations | encode | finished
  deriving DecidableEq, Repr

/-- `PipelineState::next` (pipelines.rs:33-41). -/
def PState.next : PState → Option PState
  | .initialized => some .decode
  | .decode => some .operations
  | .operations => some .encode
  | .encode => some .finished
  | .finished => none

/-- `Pipeline` (pipelines.rs:72-77).  A decoder is represented by the result of its `into_image`. -/
structure Pipeline (I E : Type) where
  state : Option PState
  decode : Option (Except E I)
  image : List I
  operations : List (I → I × Except E Unit)

/-- `Pipeline::new` (pipelines.rs:82-89). -/
def Pipeline.new : Pipeline I E := { state := some .initialized, decode := none, image := [], operations := [] }

/-- `chain_image` (pipelines.rs:92-94). -/
def Pipeline.chainImage (p : Pipeline I E) (i : I) : Pipeline I E := { p with image := p.image ++ [i] }

/-- `chain_decoder` (pipelines.rs:101-104): the last decoder wins. -/
def Pipeline.chainDecoder (p : Pipeline I E) (d : Except E I) : Pipeline I E := { p with decode := some d }

/-- `chain_operations` (pipelines.rs:131-134). -/
def Pipeline.chainOperations (p : Pipeline I E) (op : I → I × Except E Unit) : Pipeline I E :=
  { p with operations := p.operations ++ [op] }

/-- The inner loop over the operations (pipelines.rs:197-213), on one image. -/
def runOps : List (I → I × Except E Unit) → I → I × Except E Unit
  | [], i => (i, .ok ())
  | op :: ops, i =>
    match op i with
    | (i', .error e) => (i', .error e)
    | (i', .ok _) => runOps ops i'

/-- The outer loop over the images (pipelines.rs:196-215); the third component tells whether `self.state = state.next()`
    (pipelines.rs:214, inside the loop) was executed at least once. -/
def runImages (ops : List (I → I × Except E Unit)) : List I → List I × Except E Unit × Bool
  | [] => ([], .ok (), false)
  | i :: is =>
    match runOps ops i with
    | (i', .error e) => (i' :: is, .error e, false)
    | (i', .ok _) =>
      let (is', r, _) := runImages ops is
      (i' :: is', r, true)

/-- `ImageErrors::NoImageForOperations` or an error of a decoder or operation. -/
inductive Err (E : Type) where
  | noImageForOperations
  | other (e : E)
  deriving DecidableEq, Repr

/-- `Pipeline::advance` (pipelines.rs:152-228), with logging and timing left out. -/
def Pipeline.advance (p : Pipeline I E) : Pipeline I E × Except (Err E) Unit :=
  match p.state with
  | none => (p, .ok ())
  | some .decode =>
    match p.decode with
    | none =>
      if p.image.isEmpty then ({ p with state := PState.decode.next }, .ok ())
      else (p, .error .noImageForOperations)
    | some (.error e) => ({ p with decode := none }, .error (.other e))
    | some (.ok img) => ({ p with decode := none, image := p.image ++ [img], state := PState.decode.next }, .ok ())
  | some .operations =>
    if p.image.isEmpty then (p, .error .noImageForOperations)
    else
      let (imgs, r, moved) := runImages p.operations p.image
      let p' := { p with image := imgs, state := if moved then PState.operations.next else p.state }
      match r with
      | .ok _ => (p', .ok ())
      | .error e => (p', .error (.other e))
  | some s => ({ p with state := s.next }, .ok ())

/-- Not in the Rust text: number of states still to go through, for termination of the loop. -/
def Pipeline.rank (p : Pipeline I E) : Nat :=
  match p.state with
  | none => 0
  | some .finished => 1
  | some .encode => 2
  | some .operations => 3
  | some .decode => 4
  | some .initialized => 5

theorem runImages_moved (ops : List (I → I × Except E Unit)) (is : List I) (h : is ≠ []) (hr : (runImages ops is).2.1 = .ok ()) :
    (runImages ops is).2.2 = true := by
  cases is with
  | nil => exact absurd rfl h
  | cons i is =>
    unfold runImages at hr ⊢
    rcases hro : runOps ops i with ⟨i', _ | _⟩
    · simp [hro] at hr
    · rfl

theorem advance_rank (p : Pipeline I E) (hs : p.state.isSome) (h : (p.advance).2 = .ok ()) : p.advance.1.rank < p.rank := by
  obtain ⟨st, dec, img, ops⟩ := p
  cases st with
  | none => simp at hs
  | some s =>
    cases s with
    | decode =>
      unfold Pipeline.advance at h ⊢
      cases dec with
      | none =>
        simp only at h ⊢
        split at h
        · simp_all [Pipeline.rank, PState.next]
        · simp at h
      | some d => cases d with
        | error e => simp at h
        | ok i => simp [Pipeline.rank, PState.next]
    | operations =>
      unfold Pipeline.advance at h ⊢
      simp only at h ⊢
      by_cases he : img.isEmpty
      · simp [he] at h
      · simp only [he] at h ⊢
        rcases hr : runImages ops img with ⟨imgs, r, m⟩
        rw [hr] at h
        cases r with
        | error e => simp at h
        | ok u =>
          have hm := runImages_moved ops img (by simpa using he) (by rw [hr])
          rw [hr] at hm
          simp only at hm
          subst hm
          simp [Pipeline.rank, PState.next]
    | initialized => simp [Pipeline.advance, Pipeline.rank, PState.next]
    | encode => simp [Pipeline.advance, Pipeline.rank, PState.next]
    | finished => simp [Pipeline.advance, Pipeline.rank, PState.next]

/-- `Pipeline::advance_to_end` (pipelines.rs:234-241): `while self.state.is_some() { self.advance()? }`. -/
def Pipeline.advanceToEnd (p : Pipeline I E) : Pipeline I E × Except (Err E) Unit :=
  if hs : p.state.isSome then
    match hr : p.advance with
    | (p', .ok _) => p'.advanceToEnd
    | (p', .error e) => (p', .error e)
  else (p, .ok ())
termination_by p.rank
decreasing_by
  have := advance_rank p hs (by rw [hr])
  rw [hr] at this
  exact this

end Zune.Pipe
