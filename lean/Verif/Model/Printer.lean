import Verif.Model.Stream
/-!
# The printers

Models the main loops of `defmt-print` (print/src/main.rs:243-279) and `qemu-run`
(qemu-run/src/main.rs:64-104). The chunks are what successive calls of `read` return; the output is
the list of frames forwarded to the logger and of skipped frames. Reading, location lookup and
formatting are not part of this model.
-/

namespace Defmt

/-- `enum Encoding` (decoder/src/lib.rs:126-131). -/
inductive Encoding where
  | raw
  | rzcobs
deriving DecidableEq, Repr

/-- `Encoding::can_recover` (decoder/src/lib.rs:146-151). -/
def Encoding.canRecover : Encoding → Bool
  | .raw => false
  | .rzcobs => true

namespace Printer

open Stream

variable {F : Type}

/-- `received` of the decoder chosen by `Table::new_stream_decoder` (decoder/src/lib.rs:265-270). -/
def received : Encoding → List UInt8 → List UInt8 → List UInt8
  | .raw => Raw.received
  | .rzcobs => Rzcobs.received

/-- `decode` of the decoder chosen by `Table::new_stream_decoder` (decoder/src/lib.rs:265-270). -/
def decode (td : List UInt8 → Except DecodeError (F × Nat)) : Encoding → List UInt8 → List UInt8 × DecodeResult F
  | .raw => Raw.decode td
  | .rzcobs => Rzcobs.decode td

/-- One unit of output: a frame, or the note about a skipped frame (printed only with
`--show-skipped-frames`). -/
inductive Line (F : Type) where
  | frame (f : F)
  | skipped
deriving DecidableEq, Repr

/-- What happens after the data received so far: wait for more with the given buffer, return the
error `Malformed`, or panic. -/
inductive Next where
  | wait (buffer : List UInt8)
  | abort
  | panicked
deriving DecidableEq, Repr

/-- The inner loop (print/src/main.rs:257-276 with `recover = encoding.can_recover()`;
qemu-run/src/main.rs:91-104 with `recover = false`). `fuel` bounds the number of `decode` calls. -/
def drain (td : List UInt8 → Except DecodeError (F × Nat)) (enc : Encoding) (recover : Bool) :
    Nat → List UInt8 → Option (List (Line F) × Next)
  | 0, _ => none
  | fuel + 1, buffer =>
    match decode td enc buffer with
    | (buffer, .frame f) => (drain td enc recover fuel buffer).map (fun r => (.frame f :: r.1, r.2))
    | (buffer, .err .unexpectedEof) => some ([], .wait buffer)
    | (buffer, .err .malformed) =>
      if recover then (drain td enc recover fuel buffer).map (fun r => (.skipped :: r.1, r.2))
      else some ([], .abort)
    | (_, .panicked) => some ([], .panicked)

/-- The outer loop (print/src/main.rs:247-279, qemu-run/src/main.rs:66-86) until the end of the
input. -/
def run (td : List UInt8 → Except DecodeError (F × Nat)) (enc : Encoding) (recover : Bool) (buffer : List UInt8) :
    List (List UInt8) → Option (List (Line F) × Next)
  | [] => some ([], .wait buffer)
  | c :: cs =>
    let buffer := received enc buffer c
    match drain td enc recover (buffer.length + 1) buffer with
    | none => none
    | some (out, .wait buffer) => (run td enc recover buffer cs).map (fun r => (out ++ r.1, r.2))
    | some (out, next) => some (out, next)

/-- `defmt-print` on the table decoder `td` and the table's encoding. -/
def defmtPrint (td : List UInt8 → Except DecodeError (F × Nat)) (enc : Encoding) (chunks : List (List UInt8)) :
    Option (List (Line F) × Next) := run td enc enc.canRecover [] chunks

/-- `qemu-run`: gives up at the first malformed frame with either encoding. -/
def qemuRun (td : List UInt8 → Except DecodeError (F × Nat)) (enc : Encoding) (chunks : List (List UInt8)) :
    Option (List (Line F) × Next) := run td enc false [] chunks

end Printer
end Defmt
