import Verif.Model.Clock
import Verif.Spec.System
/-!
Specification side of C112: the log statement that the host must see for a finished entry.
-/

namespace Defmt.Clock

open Encoder

/-- A log statement with the timestamp of the time at which it was taken -/
def Entry.event (ts : Timestamp) (e : Entry) : LogEvent := ⟨e.job.index, e.job.tag, ts.map (· e.stamp), e.job.call⟩

/-- All steps of the base are steps of the logger or leave it as it is. -/
def Base.Ok (b : Base) (kind : Logger.Kind) (enc : Logger.Encoding) : Prop :=
  ∀ s s', b.step s s' → b.logger s' = b.logger s ∨ ∃ c, Logger.Step kind enc c (b.logger s) (b.logger s')

end Defmt.Clock
