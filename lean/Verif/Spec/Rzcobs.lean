import Verif.Model.Rzcobs
/-!
# Vocabulary for stating the framing properties

Only what a reader of the properties needs: "the bytes one frame puts on the wire" and "the bytes a
whole run of the program puts on the wire".
-/

namespace Defmt.Rzcobs

/-- Wire bytes of one frame (without the one-time leading separator) when the frame's data is
written by a single `write` call on an encoder that is between frames. -/
def frameBytes (payload : List UInt8) : List UInt8 :=
  let e : Encoder := { run := 0, zeros := 0, started := true }
  let (e, out₁) := e.write payload
  let (_, out₂) := e.endFrame
  out₁ ++ out₂

/-- The frame without its final separator byte: what the host hands to `rzcobs_decode`. -/
def frameBody (payload : List UInt8) : List UInt8 := (frameBytes payload).dropLast

/-- Run a whole program: a list of frames, each given by the list of its `write` calls, starting
from a freshly initialised encoder. Returns the final encoder and everything it emitted. -/
def runFrames (e : Encoder) : List (List (List UInt8)) → Encoder × List UInt8
  | [] => (e, [])
  | writes :: frames =>
    let (e, o₀) := e.startFrame
    let rec go (e : Encoder) : List (List UInt8) → Encoder × List UInt8
      | [] => (e, [])
      | w :: ws =>
        let (e, o) := e.write w
        let (e, os) := go e ws
        (e, o ++ os)
    let (e, o₁) := go e writes
    let (e, o₂) := e.endFrame
    let (e, o₃) := runFrames e frames
    (e, o₀ ++ o₁ ++ o₂ ++ o₃)

end Defmt.Rzcobs
