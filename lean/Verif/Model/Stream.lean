import Verif.Model.Rzcobs
/-!
# Host stream decoders

Models `decoder/src/stream/rzcobs.rs` (struct `Rzcobs`) and `decoder/src/stream/raw.rs`.
The table is a parameter `td : List UInt8 → Except DecodeError (F × Nat)`, standing for
`Table::decode` (decoder/src/lib.rs:228-263): the decoded frame and the number of bytes consumed.
It is instantiated with the real decoder in `Verif.Model.Decoder`.
-/

namespace Defmt

/-- `enum DecodeError` (decoder/src/lib.rs:326-331). -/
inductive DecodeError where
  | unexpectedEof
  | malformed
deriving DecidableEq, Repr

namespace Stream

variable {F : Type}

/-- Result of one `StreamDecoder::decode` call; `panicked` is the failure of the `assert!` in
`Rzcobs::decode` (decoder/src/stream/rzcobs.rs:86). -/
inductive DecodeResult (F : Type) where
  | frame (f : F)
  | err (e : DecodeError)
  | panicked
deriving DecidableEq, Repr

/-- `while data.first() == Some(&0) { data = &data[1..] }`
(decoder/src/stream/rzcobs.rs:60-62). -/
def trimZeros : List UInt8 → List UInt8
  | [] => []
  | b :: bs => if b = 0 then trimZeros bs else b :: bs

/-- `Rzcobs::received` (decoder/src/stream/rzcobs.rs:57-66) on the buffer `raw`. -/
def Rzcobs.received (raw data : List UInt8) : List UInt8 :=
  if raw.isEmpty then raw ++ trimZeros data else raw ++ data

/-- `iter().position(p)`. -/
def position (p : UInt8 → Bool) : List UInt8 → Option Nat
  | [] => none
  | b :: bs => if p b then some 0 else (position p bs).map (· + 1)

/-- `Rzcobs::decode` (decoder/src/stream/rzcobs.rs:68-94): new buffer and result. -/
def Rzcobs.decode (td : List UInt8 → Except DecodeError (F × Nat)) (raw : List UInt8) :
    List UInt8 × DecodeResult F :=
  match position (· == 0) raw with
  | none => (raw, .err .unexpectedEof)
  | some zpos =>
    let frame := Rzcobs.rzcobsDecode (raw.take zpos)
    let raw' :=
      match position (· != 0) (raw.drop zpos) with
      | some nonzero => raw.drop (zpos + nonzero)
      | none => []
    if raw'.isEmpty ∨ raw'.head? ≠ some 0 then
      match frame with
      | none => (raw', .err .malformed)
      | some frame =>
        match td frame with
        | .ok (f, _consumed) => (raw', .frame f)
        | .error _ => (raw', .err .malformed)
    else (raw', .panicked)

/-- `Raw::received` (decoder/src/stream/raw.rs:19-21). -/
def Raw.received (data new : List UInt8) : List UInt8 := data ++ new

/-- `Raw::decode` (decoder/src/stream/raw.rs:23-31). `drain(0..consumed)` panics in Rust if
`consumed > len`. -/
def Raw.decode (td : List UInt8 → Except DecodeError (F × Nat)) (data : List UInt8) :
    List UInt8 × DecodeResult F :=
  match td data with
  | .ok (f, consumed) =>
    if consumed ≤ data.length then (data.drop consumed, .frame f) else (data, .panicked)
  | .error e => (data, .err e)

/-- The printers' inner loop (print/src/main.rs:257-276, qemu-run/src/main.rs `decode`): call
`decode` until it reports `UnexpectedEof`. Returns the buffer and everything reported before that.
For the rzCOBS decoder; `fuel` bounds the number of calls (each one removes at least one byte,
so `raw.length + 1` calls suffice, see `C08`). `none` = fuel exhausted. -/
def Rzcobs.drain (td : List UInt8 → Except DecodeError (F × Nat)) :
    Nat → List UInt8 → Option (List UInt8 × List (DecodeResult F))
  | 0, _ => none
  | fuel + 1, raw =>
    match Rzcobs.decode td raw with
    | (raw, .err .unexpectedEof) => some (raw, [])
    | (raw, r) =>
      match Rzcobs.drain td fuel raw with
      | none => none
      | some (raw, rs) => some (raw, r :: rs)

/-- Feed a list of chunks, draining after each one (print/src/main.rs:247-279). -/
def Rzcobs.feed (td : List UInt8 → Except DecodeError (F × Nat)) (raw : List UInt8) :
    List (List UInt8) → Option (List UInt8 × List (DecodeResult F))
  | [] => some (raw, [])
  | c :: cs =>
    let raw := Rzcobs.received raw c
    match Rzcobs.drain td (raw.length + 1) raw with
    | none => none
    | some (raw, rs) =>
      match Rzcobs.feed td raw cs with
      | none => none
      | some (raw, rs') => some (raw, rs ++ rs')

end Stream
end Defmt
