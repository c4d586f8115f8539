import Verif.Model.System
import Verif.Model.Encoder
/-!
# When things happen

The log statements of any number of contexts together with a clock. What a log statement does, in this order (`macros/src/function_like/log.rs:52-76`,
`acquire_and_header` and `acquire_header_and_release` in `defmt/src/export/mod.rs:211-228`, `macros/src/items/timestamp.rs:34-43`): the arguments are
evaluated; `acquire`; the index is written; the expressions of `timestamp!` are evaluated (here: they are a function of the clock) and written; the
arguments are written; `release`. The shared state and the steps are those of `Model/Logger.lean` (or `Model/System.lean`, with the RTT channel and
the host); this layer adds which statement a context is in and remembers when things happened. The clock can advance between any two steps; it does
not run backwards.

Simplification: the clock is read in one step, while the logger is between two writes.
-/

namespace Defmt.Clock

open Encoder

/-- A transition system with a logger in it -/
structure Base where
  State : Type
  step : State → State → Prop
  logger : State → Logger.State

/-- one of the loggers by itself -/
def overLogger (kind : Logger.Kind) (enc : Logger.Encoding) : Base := ⟨Logger.State, fun s s' => ∃ c, Logger.Step kind enc c s s', id⟩

/-- the logger with the RTT channel and the host -/
def overRtt (cfg : Rtt.Config) (enc : Logger.Encoding) : Base := ⟨System.State, System.Step cfg enc, fun s => s.logger⟩

/-- A log statement whose arguments are evaluated -/
structure Job where
  index : Nat
  tag : Tag
  call : Call
  /-- the value of the clock when the arguments were evaluated -/
  evaluated : Nat

/-- What a context is doing -/
inductive Phase where
  /-- no log statement -/
  | outside
  /-- the arguments are evaluated -/
  | ready (job : Job)
  /-- the logger is acquired (at time `acquired`), nothing is written -/
  | header (job : Job) (acquired : Nat)
  /-- the index is written -/
  | stamping (job : Job) (acquired : Nat)
  /-- the expressions of `timestamp!` are evaluated (at time `stamp`); `more` is still to be written -/
  | rest (job : Job) (acquired stamp : Nat) (more : List UInt8)
  /-- inside of `defmt::flush` (defmt/src/lib.rs:405-418), which is between `acquire` and `release` as well -/
  | flushing

/-- A log statement that is finished -/
structure Entry where
  context : Nat
  job : Job
  acquired : Nat
  stamp : Nat
  finished : Nat

structure State (b : Base) where
  base : b.State
  clock : Nat
  phase : Nat → Phase
  log : List Entry

/-- `timestamp!` of the program: its call as a function of the clock -/
abbrev Timestamp := Option (Nat → Call)

/-- What `timestamp` writes at time `now` (defmt/src/export/mod.rs:90-97); nothing without `timestamp!` (`PROVIDE(_defmt_timestamp = ..)` in
defmt/defmt.x.in, defmt/src/lib.rs `default_timestamp`) -/
def stampBytes (ts : Timestamp) (now : Nat) : Option (List UInt8) :=
  match ts with
  | none => some []
  | some call => (call now).encode

/-- What a step of the logger does to the statements -/
inductive Effect (now : Nat) (l l' : Logger.State) (phase : Nat → Phase) (log : List Entry) : (Nat → Phase) → List Entry → Prop where
  /-- nothing is started, written or finished -/
  | quiet (hi : l'.inside = l.inside) (hp : l'.payload = l.payload) (hc : l'.completed = l.completed) : Effect now l l' phase log phase log
  /-- `acquire` has started a frame for the statement -/
  | start (c : Nat) (job : Job) (h : phase c = .ready job) (hi : l'.inside = Logger.update l.inside c true)
      (hp : l'.payload = Logger.update l.payload c []) (hc : l'.completed = l.completed) :
      Effect now l l' phase log (Logger.update phase c (.header job now)) log
  /-- `istr(s)` writes the index -/
  | header (c : Nat) (job : Job) (acquired : Nat) (h : phase c = .header job acquired) (hi : l'.inside = l.inside)
      (hp : l'.payload = Logger.update l.payload c (l.payload c ++ le 2 job.index)) (hc : l'.completed = l.completed) :
      Effect now l l' phase log (Logger.update phase c (.stamping job acquired)) log
  /-- a part of the timestamp or of the arguments is written -/
  | write (c : Nat) (job : Job) (acquired stamp : Nat) (data more : List UInt8) (h : phase c = .rest job acquired stamp (data ++ more))
      (hi : l'.inside = l.inside) (hp : l'.payload = Logger.update l.payload c (l.payload c ++ data)) (hc : l'.completed = l.completed) :
      Effect now l l' phase log (Logger.update phase c (.rest job acquired stamp more)) log
  /-- `release` ends the frame -/
  | finish (c : Nat) (job : Job) (acquired stamp : Nat) (h : phase c = .rest job acquired stamp []) (hi : l'.inside = Logger.update l.inside c false)
      (hp : l'.payload = l.payload) (hc : l'.completed = l.completed ++ [(c, l.payload c)]) :
      Effect now l l' phase log (Logger.update phase c .outside) (log ++ [⟨c, job, acquired, stamp, now⟩])
  /-- `defmt::flush()` -/
  | startFlush (c : Nat) (h : phase c = .outside) (hi : l'.inside = Logger.update l.inside c true)
      (hp : l'.payload = Logger.update l.payload c []) (hc : l'.completed = l.completed) :
      Effect now l l' phase log (Logger.update phase c .flushing) log
  /-- `defmt::flush()` is over -/
  | finishFlush (c : Nat) (h : phase c = .flushing) (hi : l'.inside = Logger.update l.inside c false)
      (hp : l'.payload = l.payload) (hc : l'.completed = l.completed ++ [(c, l.payload c)]) :
      Effect now l l' phase log (Logger.update phase c .outside) log

inductive Step (b : Base) (ts : Timestamp) : State b → State b → Prop where
  /-- time passes -/
  | tick {s : State b} (now : Nat) (h : s.clock ≤ now) : Step b ts s { s with clock := now }
  /-- a context evaluates the arguments of a log statement (log.rs:66-68: the `match` around the whole) -/
  | evaluate {s : State b} (c : Nat) (index : Nat) (tag : Tag) (call : Call) (h : s.phase c = .outside) (he : call.encode ≠ none) :
      Step b ts s { s with phase := Logger.update s.phase c (.ready ⟨index, tag, call, s.clock⟩) }
  /-- the expressions of `timestamp!` are evaluated (timestamp.rs:38) -/
  | stamp {s : State b} (c : Nat) (job : Job) (acquired : Nat) (h : s.phase c = .stamping job acquired) {d d' : List UInt8}
      (ht : stampBytes ts s.clock = some d) (ha : job.call.encode = some d') :
      Step b ts s { s with phase := Logger.update s.phase c (.rest job acquired s.clock (d ++ d')) }
  /-- a step of the logger, the channel or the host -/
  | base {s : State b} {b' : b.State} {phase : Nat → Phase} {log : List Entry} (hs : b.step s.base b')
      (he : Effect s.clock (b.logger s.base) (b.logger b') s.phase s.log phase log) :
      Step b ts s ⟨b', s.clock, phase, log⟩

/-- Everything is idle. -/
def start {b : Base} (base : b.State) (clock : Nat) : State b := ⟨base, clock, fun _ => .outside, []⟩

/-- States reachable from `s0` -/
inductive Reachable (b : Base) (ts : Timestamp) (s0 : State b) : State b → Prop where
  | refl : Reachable b ts s0 s0
  | step {s s' : State b} : Reachable b ts s0 s → Step b ts s s' → Reachable b ts s0 s'

end Defmt.Clock
