import Verif.Model.Printer
import Verif.Model.Frame
/-!
# `qemu-run` from its start to its end

Models `notmain` and `main` of qemu-run/src/main.rs (16-86) as a program that runs at the same time as the emulator: the emulator writes to the
pipe and ends whenever it likes, and `qemu-run` reads from the pipe and asks whether it has ended. An execution is a list of events.

Simplifications: the file was read and the emulator started (24-62); reading from the pipe and waiting do not fail; the pipe has room for
everything; it is closed when the emulator ends and not before; the level is shown without colour (`frame.display(true)` on something that is not
a terminal); what goes to stderr is left out.
-/

namespace Defmt.Qemu

/-- How the emulator ended (`ExitStatus`). -/
inductive Exit where
  | code (n : Int)
  /-- killed by a signal -/
  | signal
deriving DecidableEq, Repr

/-- `ExitStatus::code` -/
def Exit.toCode : Exit → Option Int
  | .code n => some n
  | .signal => none

/-- How `qemu-run` ended. -/
inductive Result where
  /-- with this exit status -/
  | status (n : Int)
  /-- `main` returned an error -/
  | error
  | panic
deriving DecidableEq, Repr

/-- Where `qemu-run` is. -/
inductive Phase where
  /-- before `stdout.read` (main.rs:69) -/
  | reading
  /-- before `try_wait` (main.rs:73) -/
  | waiting
  /-- before `read_to_end` (main.rs:77) with the exit code of the emulator -/
  | rest (code : Option Int)
  | done (r : Result)
deriving DecidableEq, Repr

structure State where
  /-- everything the emulator has written (not seen by the program, for the specification) -/
  written : List UInt8
  /-- what is in the pipe -/
  pipe : List UInt8
  /-- `none`: the emulator runs -/
  child : Option Exit
  /-- of the stream decoder -/
  buffer : List UInt8
  /-- the lines on stdout -/
  output : List (List Char)
  phase : Phase
deriving DecidableEq, Repr

/-- What happens next. -/
inductive Event where
  | writes (bytes : List UInt8)
  | ends (e : Exit)
  /-- `qemu-run` goes on; if it reads, it gets at most `n` bytes -/
  | host (n : Nat)
deriving DecidableEq, Repr

/-- The `println!`s of `decode` (main.rs:94-96) for what the decoder yields; `false`: the display of a frame panics, after the
lines before it. -/
def printUnits (env : Env) : List (Printer.Line Frame) → List (List Char) × Bool
  | [] => ([], true)
  | .frame f :: us =>
    match f.display env with
    | none => ([], false)
    | some line => (line :: (printUnits env us).1, (printUnits env us).2)
  | .skipped :: us => printUnits env us

/-- `Drop for KillOnDrop` (main.rs:107-113) -/
def kill (s : State) : State :=
  { s with child := match s.child with
      | none => some .signal
      | some e => some e }

/-- `received` and `decode(..)?` (main.rs:70-71, 78-79, 90-105); `next` is where `qemu-run` is afterwards. -/
def feed (env : Env) (td : List UInt8 → Except DecodeError (Frame × Nat)) (enc : Encoding) (chunk : List UInt8) (next : Phase) (s : State) :
    State :=
  let buffer := Printer.received enc s.buffer chunk
  match Printer.drain td enc false (buffer.length + 1) buffer with
  | none => kill { s with phase := .done .panic }
  | some (units, after) =>
    let s := { s with output := s.output ++ (printUnits env units).1 }
    if (printUnits env units).2 then
      match after with
      | .wait buffer => { s with buffer := buffer, phase := next }
      | .abort => kill { s with phase := .done .error }
      | .panicked => kill { s with phase := .done .panic }
    else kill { s with phase := .done .panic }

/-- `main` (main.rs:16-22): without a code it returns `Ok(())`. -/
def exitStatus : Option Int → Result
  | some n => .status n
  | none => .status 0

/-- One event. -/
def step (env : Env) (td : List UInt8 → Except DecodeError (Frame × Nat)) (enc : Encoding) (s : State) : Event → State
  | .writes bytes =>
    if s.child = none then { s with written := s.written ++ bytes, pipe := s.pipe ++ bytes } else s
  | .ends e => if s.child = none then { s with child := some e } else s
  | .host n =>
    match s.phase with
    | .reading =>
      -- `read` blocks as long as there is nothing to read and the pipe is open; the buffer has 256 bytes (main.rs:66-69)
      if s.pipe = [] ∧ s.child = none then s
      else
        let size := max 1 (min n 256)
        feed env td enc (s.pipe.take size) .waiting { s with pipe := s.pipe.drop size }
    | .waiting =>
      match s.child with
      | none => { s with phase := .reading }
      | some e => { s with phase := .rest e.toCode }
    | .rest code => feed env td enc s.pipe (.done (exitStatus code)) { s with pipe := [] }
    | .done _ => s

def start : State := ⟨[], [], none, [], [], .reading⟩

/-- The state after the events. -/
def exec (env : Env) (td : List UInt8 → Except DecodeError (Frame × Nat)) (enc : Encoding) (events : List Event) : State :=
  events.foldl (step env td enc) start

end Defmt.Qemu
