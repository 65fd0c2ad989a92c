/-
Model of the workflow of the command line program (`crates/zune-bin/src/workflow.rs`).
-/
import Verif.Image.FileModel
import Verif.Image.PipelineModel
import Mathlib.Logic.Function.Basic

namespace Zune.Workflow

open Zune.Guess (Format)
open Zune.Files (Features extension encoderForExtension hasEncoder)
open Zune.Pipe (Pipeline)

/-- The files by name. -/
abbrev Disk := List Char → Option (List UInt8)

variable {I E : Type}

/-- The pipeline for standard input or a file (workflow.rs:60-94); `ops` are the operations of the command line, in the order of `add_operations` (193-214). (Simplified: the format
is known and has a decoder; `dec` is the result of `ZuneMem` or `ZuneFile`, `crates/zune-bin/src/file_io.rs:28-33, 46-48`.) -/
def pipeline (stdin : Bool) (dec : Except E I) (ops : List (I → I × Except E Unit)) : Pipeline I E :=
  if stdin then Pipeline.new.chainDecoder dec
  else (ops.foldl Pipeline.chainOperations Pipeline.new).chainDecoder dec

/-- The format for the name of an output (workflow.rs:101-104). -/
def formatOf (ft : Features) (name : List Char) : Option Format :=
  match extension name with
  | none => none
  | some ext => encoderForExtension ft (String.ofList ext)

/-- The formats of the workflow (workflow.rs:98-117). -/
def formats (ft : Features) (outs : List (List Char)) : List Format :=
  outs.filterMap (formatOf ft)

/-- The loops over formats and pictures for one file (workflow.rs:143-176): each opens the file, which empties it, and writes to it. `enc` is `none` when the encoder fails, which ends the
program. (Simplified: files can be opened, there is room for them, and a failing encoder writes nothing.) -/
def writeAll (ft : Features) (enc : Format → I → Option (List UInt8)) (name : List Char) : List (Format × I) → Disk → Bool × Disk
  | [], d => (true, d)
  | (f, i) :: l, d =>
    if hasEncoder ft f then
      match enc f i with
      | none => (false, Function.update d name (some []))
      | some b => writeAll ft enc name l (Function.update d name (some b))
    else writeAll ft enc name l d

/-- The loop over outputs (workflow.rs:125-179). (Simplified: no output is `-`.) -/
def writeOuts (ft : Features) (enc : Format → I → Option (List UInt8)) (l : List (Format × I)) : List (List Char) → Disk → Bool × Disk
  | [], d => (true, d)
  | name :: outs, d =>
    match extension name with
    | none => writeOuts ft enc l outs d
    | some _ =>
      match writeAll ft enc name l d with
      | (false, d') => (false, d')
      | (true, d') => writeOuts ft enc l outs d'

/-- `create_and_exec_workflow_from_cmd` (workflow.rs:44-191) for one input, which is all that `crates/zune-bin/src/cmd_args.rs:94-100` takes. -/
def exec (ft : Features) (enc : Format → I → Option (List UInt8)) (stdin : Bool) (dec : Except E I) (ops : List (I → I × Except E Unit))
    (outs : List (List Char)) (d : Disk) : Bool × Disk :=
  match (pipeline stdin dec ops).advanceToEnd with
  | (_, .error _) => (false, d)
  | (p, .ok _) => writeOuts ft enc ((formats ft outs).flatMap fun f => p.image.map fun i => (f, i)) outs d

end Zune.Workflow
