import Verif.Model.Logger
import Verif.Model.Attach
/-!
# The logger on top of the RTT channel

`firmware/defmt-rtt/src/lib.rs` as a whole: the steps of `Model/Logger.lean` (any number of contexts) hand
their bytes to `write_all` of the channel of `Model/Rtt.lean`, slice by slice, each copied byte by byte while
the host reads. All steps of all contexts, of the channel and of the host interleave in any order.

A context that is inside of an encoder call has the slices still to be written in `queue`; it continues with the
logger only when they are all written. `caller` is the context that is inside of `write_all` or `flush`.
`Model/Rtt.lean` has a single program position for the channel, so a context can call it only when it is not in
use; that this is never a restriction is proved (`C75_exclusive`). `flags` are the mode flags in memory, `rtt.flags` those
which the last call of `write_all` or `flush` has loaded (as in `Model/Attach.lean`).
-/

namespace Defmt.System

structure State where
  logger : Logger.State
  flags : Nat
  rtt : Rtt.State
  queue : Nat → List (List UInt8)
  caller : Option Nat

/-- the context is inside of an encoder call or of `flush` -/
def Busy (s : State) (c : Nat) : Prop := s.queue c ≠ [] ∨ s.caller = some c

/-- Steps of the system. -/
inductive Step (cfg : Rtt.Config) (enc : Logger.Encoding) : State → State → Prop where
  /-- A step of the logger code (lib.rs:132-206). The bytes the encoder produces in this step are passed to
  `write_all` in any number of slices (single bytes for rzCOBS, defmt/src/encoding/rzcobs.rs:27-87; one slice for
  raw, raw.rs:14-16); only `start_frame`, `write` (then `framing`) and `end_frame` (then `ended`) write. -/
  | logger {s : State} {l : Logger.State} (c : Nat) (slices : List (List UInt8)) (hfree : ¬ Busy s c)
      (hs : Logger.Step .rtt enc c s.logger l) (hw : l.wire = s.logger.wire ++ slices.flatten)
      (hp : slices ≠ [] → l.pc c = .framing ∨ l.pc c = .ended) :
      Step cfg enc s { s with logger := l, queue := Logger.update s.queue c slices }
  /-- `_SEGGER_RTT.up_channel.write_all(b)` is called (lib.rs:151, 167, 200) -/
  | call {s : State} (c : Nat) {slice : List UInt8} {rest : List (List UInt8)} (hq : s.queue c = slice :: rest)
      (hc : s.caller = none) (hr : s.rtt.target = .ready) :
      Step cfg enc s { s with
        rtt := { s.rtt with flags := s.flags, target := .attempt slice, accepted := s.rtt.accepted ++ slice }
        queue := Logger.update s.queue c rest
        caller := some c }
  /-- `_SEGGER_RTT.up_channel.flush()` is called between `acquire` and `release` (lib.rs:177-181,
  defmt/src/lib.rs:414-418); it returns at once if no host is connected -/
  | flush {s : State} {r : Rtt.State} (c : Nat) (hfree : ¬ Busy s c) (hp : s.logger.pc c = .framing) (hc : s.caller = none)
      (hr : s.rtt.target = .ready)
      (hf : (Rtt.hostIsConnected s.flags = true ∧ r = { s.rtt with flags := s.flags, target := .flushing }) ∨
        (Rtt.hostIsConnected s.flags = false ∧ r = { s.rtt with flags := s.flags })) :
      Step cfg enc s { s with rtt := r, caller := some c }
  /-- a step inside of `write_all` or `flush` -/
  | channel {s : State} {r : Rtt.State} (hr : s.rtt.target ≠ .ready) (hs : Rtt.TargetStep cfg s.rtt r) :
      Step cfg enc s { s with rtt := r }
  /-- `write_all` or `flush` has returned -/
  | returned {s : State} {c : Nat} (hc : s.caller = some c) (hr : s.rtt.target = .ready) :
      Step cfg enc s { s with caller := none }
  /-- a step of the host -/
  | host {s : State} {r : Rtt.State} (hs : Rtt.HostStep cfg s.rtt r) : Step cfg enc s { s with rtt := r }

/-- The system at start: `write`, `read` are 0 (lib.rs:92-93), the buffer is uninitialised, the host has set the
mode flags (or not). -/
def start (flags : Nat) (buffer : Nat → UInt8) : State where
  logger := Logger.initial
  flags := flags
  rtt := { flags := flags, buffer := buffer, write := 0, read := 0, target := .ready, host := .idle, accepted := [], received := [] }
  queue := fun _ => []
  caller := none

/-- States reachable from `s0`. -/
inductive Reachable (cfg : Rtt.Config) (enc : Logger.Encoding) (s0 : State) : State → Prop where
  | refl : Reachable cfg enc s0 s0
  | step {s s' : State} : Reachable cfg enc s0 s → Step cfg enc s s' → Reachable cfg enc s0 s'

/-- The host attaches: it sets the mode flags. The target may be at any place, also inside of `write_all`. The histories of the channel start
again: `accepted` with the bytes of the running call that are not yet in the buffer, `received` with nothing. -/
def attach (flags : Nat) (s : State) : State :=
  { s with flags := flags, rtt := { s.rtt with accepted := Rtt.outstanding s.rtt.target, received := [] } }

end Defmt.System
