import Verif.Model.Stream
import Verif.Spec.Rzcobs
/-!
# What a stream of rzCOBS frames means

Independent of the decoder's buffer handling: read the bytes one by one, a `0x00` ends the current
block, empty blocks are ignored.
-/

namespace Defmt.Stream

variable {F : Type}

/-- `scan cur bytes = (complete blocks, unfinished block)`; `cur` is the block read so far. -/
def scan (cur : List UInt8) : List UInt8 → List (List UInt8) × List UInt8
  | [] => ([], cur)
  | b :: bs =>
    if b = 0 then
      let (c, u) := scan [] bs
      (if cur = [] then c else cur :: c, u)
    else scan (cur ++ [b]) bs

/-- Complete (separator terminated, nonempty) blocks of a byte stream. -/
def completeBlocks (w : List UInt8) : List (List UInt8) := (scan [] w).1

/-- The trailing block that has not been terminated yet. -/
def unfinished (w : List UInt8) : List UInt8 := (scan [] w).2

/-- What the host must report for one complete block: the frame the table decodes from the
un-rzCOBSed block, or `Malformed` if either step fails. -/
def report (td : List UInt8 → Except DecodeError (F × Nat)) (block : List UInt8) : DecodeResult F :=
  match Rzcobs.rzcobsDecode block with
  | none => .err .malformed
  | some payload =>
    match td payload with
    | .ok (f, _) => .frame f
    | .error _ => .err .malformed

/-- Reachable buffers of the rzCOBS stream decoder: any interleaving of `received` and `decode`
calls starting from a new decoder. -/
inductive Reachable (td : List UInt8 → Except DecodeError (F × Nat)) : List UInt8 → Prop
  | new : Reachable td []
  | received {raw} (data) : Reachable td raw → Reachable td (Rzcobs.received raw data)
  | decode {raw} : Reachable td raw → Reachable td (Rzcobs.decode td raw).1

end Defmt.Stream
