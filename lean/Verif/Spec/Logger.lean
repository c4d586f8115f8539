import Verif.Model.Logger
import Verif.Spec.Rzcobs
/-! What should be on the wire: whole frames, and at most one unfinished frame. -/

namespace Defmt.Logger
open Rzcobs

/-- The bytes on the wire after the frames `frames` have been sent one after another, each as a whole,
and the data `unfinished` of one more frame has been written (`none`: no frame is open). -/
def wireOf : Encoding → (frames : List (List UInt8)) → (unfinished : Option (List UInt8)) → List UInt8
  | .raw, frames, unfinished => frames.flatten ++ unfinished.getD []
  | .rzcobs, [], none => []
  | .rzcobs, frames, none => [0] ++ (frames.map frameBytes).flatten
  | .rzcobs, frames, some data =>
    [0] ++ (frames.map frameBytes).flatten ++ (Encoder.write { run := 0, zeros := 0, started := true } data).2

end Defmt.Logger
