import Verif.Model.Qemu
import Verif.Spec.Printer
/-! Specification side of C106: what `qemu-run` has to show. -/

namespace Defmt.Qemu

open Printer Stream

/-- `Meaning td enc w fs bad`: read as a whole, the bytes `w` are the frames `fs`, and then there is something malformed (`bad`) or nothing but
an incomplete frame. -/
def Meaning (td : List UInt8 → Except DecodeError (Frame × Nat)) (enc : Encoding) (w : List UInt8) (fs : List Frame) (bad : Bool) : Prop :=
  match enc, bad with
  | .raw, false => ∃ rest, RawMeans td w fs (.wait rest)
  | .raw, true => RawMeans td w fs .abort
  | .rzcobs, false => (completeBlocks w).map (report td) = fs.map .frame
  | .rzcobs, true => ∃ rest, (completeBlocks w).map (report td) = fs.map .frame ++ .err .malformed :: rest

/-- `lines` are the texts of the frames. -/
def Shown (env : Env) (fs : List Frame) (lines : List (List Char)) : Prop := fs.map (Frame.display env) = lines.map some

end Defmt.Qemu
