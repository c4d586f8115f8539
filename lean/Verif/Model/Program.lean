import Verif.Model.Logger
/-!
# Programs that log: evaluation of arguments, formatting code that logs, panics

Models what the code around the log macros does at run time: the expansion of `info!` etc. (macros/src/function_like/log.rs:21-87),
`println!` (println.rs:17-63), `defmt::panic!` (panic_like.rs:10-49), `acquire_and_header` (defmt/src/export/mod.rs:211-226), the flag
`taken` of the global loggers (firmware/defmt-rtt/src/lib.rs:132-158, 190-215) and the panic handler `panic-probe`
(firmware/panic-probe/src/lib.rs:41-56, 70-88, 99-107).

The application is a parameter: its functions are numbers, and calling one changes the world `W` (everything that is not the logger) and
yields the statements that follow, so that any branching, looping and recursion is possible. There is one context; several contexts are the
subject of `Model/Logger.lean`. Values are left out: an argument of a log statement is the function that evaluates it and the function that
formats it.
-/

namespace Defmt.Program

/-- An argument of a log statement: the code of the expression, the code of its `Format` implementation. -/
structure Arg where
  eval : Nat
  fmt : Nat
deriving DecidableEq, Repr

/-- Statements of the application. -/
inductive Stmt where
  /-- a function is called, or any other effect -/
  | call (f : Nat)
  /-- `info!(..)` etc., `println!` -/
  | log (site : Nat) (args : List Arg)
  /-- `core::panic!(..)`; `message` is what the `Display` of the `PanicInfo` does -/
  | panic (message : Nat)
  /-- `defmt::panic!(..)` -/
  | defmtPanic (site : Nat) (args : List Arg)
deriving DecidableEq, Repr

/-- Code: a statement, or (only in `Format` implementations, and in `Display` implementations under `Display2Format`,
defmt/src/export/mod.rs:228-235) bytes are written or something else is formatted. -/
inductive Code where
  | write (bytes : List UInt8)
  | nested (fmt : Nat)
  | stmt (s : Stmt)
deriving DecidableEq, Repr

/-- The application and its configuration. -/
structure Program (W : Type) where
  body : Nat → W → W × List Stmt
  fmt : Nat → W → List Code
  /-- the function of `defmt::timestamp!` (macros/src/items/timestamp.rs:34-46) -/
  timestamp : Nat
  /-- whether `DEFMT_LOG` lets the statement pass (log.rs:45, 64); `true` for `println!` -/
  enabled : Nat → Bool
  /-- the `error!` statement of `panic-probe` with feature `print-defmt` (panic-probe/src/lib.rs:99-107) -/
  printer : Option Nat
  /-- the message "defmt logger taken reentrantly" (defmt-rtt/src/lib.rs:138-140) -/
  reentrant : Nat
  /-- the message "defmt release out of context" (defmt-rtt/src/lib.rs:191-193) -/
  outOfContext : Nat
  /-- the message of `core::panic!()` in `default_panic` (defmt/src/lib.rs:383-386) -/
  explicitPanic : Nat
  /-- there is a `#[defmt::panic_handler]` that calls `panic_probe::hard_fault` -/
  override : Bool

/-- What is still to be done. -/
inductive Op where
  | code (c : Code)
  /-- the arm of the `match` in the expansion of a log statement (log.rs:64-72) -/
  | logBody (site : Nat) (args : List Arg)
  | acquire
  /-- the index of the format string (`istr`) -/
  | header (site : Nat)
  | release
  /-- `defmt::export::panic()` (defmt/src/export/mod.rs:129-134) -/
  | exportPanic
  /-- `udf` (panic-probe/src/lib.rs:70-88) -/
  | fault
deriving DecidableEq, Repr

/-- What can be observed, in this order. -/
inductive Event where
  | call (f : Nat)
  /-- a frame is started -/
  | start
  /-- the index of a log statement is written -/
  | header (site : Nat)
  | data (bytes : List UInt8)
  /-- the frame is ended -/
  | stop
  /-- the panic handler is entered -/
  | handler
  /-- hard fault -/
  | fault
deriving DecidableEq, Repr

structure State (W : Type) where
  ops : List Op
  world : W
  taken : Bool
  panicked : Bool
  trace : List Event

/-- Evaluation of the arguments and then the body: the `match (&(arg0), &(arg1), ..)` of the expansion (log.rs:64-72, 75-85: also if the
statement is disabled at compile time) -/
def logOps (site : Nat) (args : List Arg) : List Op := args.map (fun a => .code (.stmt (.call a.eval))) ++ [.logBody site args]

/-- `acquire_and_header`, the arguments, `release` (log.rs:46-61); `acquire_header_and_release` if there are no arguments -/
def frameOps {W : Type} (p : Program W) (site : Nat) (args : List Arg) : List Op :=
  [.acquire, .header site, .code (.nested p.timestamp)] ++ args.map (fun a => .code (.nested a.fmt)) ++ [.release]

/-- The panic handler (panic-probe/src/lib.rs:42-55): what happens after `core::panic!` with this message. Nothing that was to be done is done
any more (there is no unwinding). `Display2Format(info)` is an expression without effects, so it is not evaluated by a call. -/
def handle {W : Type} (p : Program W) (message : Nat) (s : State W) : State W :=
  if s.panicked then { s with ops := [.fault], trace := s.trace ++ [.handler] }
  else { s with
    ops := (match p.printer with
      | some site => [.logBody site [⟨0, message⟩]]
      | none => []) ++ [.fault]
    panicked := true
    trace := s.trace ++ [.handler] }

/-- One step. -/
def step {W : Type} (p : Program W) (s : State W) : Option (State W) :=
  match s.ops with
  | [] => none
  | .code (.stmt (.call f)) :: rest =>
    some { s with ops := (p.body f s.world).2.map (fun st => .code (.stmt st)) ++ rest, world := (p.body f s.world).1, trace := s.trace ++ [.call f] }
  | .code (.stmt (.log site args)) :: rest => some { s with ops := logOps site args ++ rest }
  | .code (.stmt (.panic message)) :: _ => some (handle p message s)
  | .code (.stmt (.defmtPanic site args)) :: rest => some { s with ops := logOps site args ++ [.exportPanic] ++ rest }
  | .code (.write bytes) :: rest => some { s with ops := rest, trace := s.trace ++ [.data bytes] }
  | .code (.nested g) :: rest => some { s with ops := (p.fmt g s.world).map .code ++ rest }
  | .logBody site args :: rest => some { s with ops := (if p.enabled site then frameOps p site args else []) ++ rest }
  | .acquire :: rest =>
    if s.taken then some (handle p p.reentrant s)
    else some { s with ops := rest, taken := true, trace := s.trace ++ [.start] }
  | .header site :: rest => some { s with ops := rest, trace := s.trace ++ [.header site] }
  | .release :: rest =>
    if s.taken then some { s with ops := rest, taken := false, trace := s.trace ++ [.stop] }
    else some (handle p p.outOfContext s)
  | .exportPanic :: _ =>
    if p.override then some { s with ops := [.fault] } else some (handle p p.explicitPanic s)
  | .fault :: _ => some { s with ops := [], trace := s.trace ++ [.fault] }

/-- At most `n` steps. -/
def run {W : Type} (p : Program W) : Nat → State W → State W
  | 0, s => s
  | n + 1, s => match step p s with
    | none => s
    | some s' => run p n s'

/-- The program is started: `main` is called. -/
def start {W : Type} (main : Nat) (w : W) : State W := ⟨[.code (.stmt (.call main))], w, false, false, []⟩

/-- What the logger does with its encoder and what it writes to its channel: `start_frame` at the end of `acquire`, `write`, `end_frame` in
`release` (firmware/defmt-rtt/src/lib.rs:147-153, 161-169, 195-207; the encoders are those of `Model/Logger.lean`). `index` are the two bytes
of the index of a log statement (defmt/src/export/mod.rs:211-226, `istr`), given by the linker. -/
def sendEvent (enc : Logger.Encoding) (index : Nat → List UInt8) (x : Rzcobs.Encoder × List UInt8) : Event → Rzcobs.Encoder × List UInt8
  | .start => ((Logger.startFrame enc x.1).1, x.2 ++ (Logger.startFrame enc x.1).2)
  | .header site => ((Logger.writeData enc x.1 (index site)).1, x.2 ++ (Logger.writeData enc x.1 (index site)).2)
  | .data bytes => ((Logger.writeData enc x.1 bytes).1, x.2 ++ (Logger.writeData enc x.1 bytes).2)
  | .stop => ((Logger.endFrame enc x.1).1, x.2 ++ (Logger.endFrame enc x.1).2)
  | .call _ | .handler | .fault => x

/-- All that is written to the channel in a run. -/
def wire (enc : Logger.Encoding) (index : Nat → List UInt8) (trace : List Event) : List UInt8 :=
  (trace.foldl (sendEvent enc index) (.new, [])).2

end Defmt.Program
