import Verif.Model.System
import Verif.Spec.Encoder
import Verif.Spec.Printer
/-! Specification side of the logger on the RTT channel: C75, C76. -/

namespace Defmt.System
open Encoder

/-- The data of the frames completed so far, without the empty frames of `defmt::flush`. -/
def payloads (s : State) : List (List UInt8) := (s.logger.completed.map Prod.snd).filter (· ≠ [])

/-- `events` are the log statements (of all contexts) completed so far, in the order of their completion. -/
structure Logged (t : Table) (s : State) (events : List LogEvent) : Prop where
  ok : ∀ e ∈ events, e.Ok t
  data : events.map LogEvent.bytes = (payloads s).map some

/-- what `defmt-print` prints for log statements -/
def printed (events : List LogEvent) : List (Printer.Line Frame) := events.map (fun e => .frame e.frame)

end Defmt.System
