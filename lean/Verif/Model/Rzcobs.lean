/-!
# rzCOBS: target encoder and host frame decoder

Models `defmt/src/encoding/rzcobs.rs` and `rzcobs_decode` of `decoder/src/stream/rzcobs.rs`.
Bytes are `UInt8` (same arithmetic as Rust `u8`), the `write` callback is modelled by the list of
bytes handed to it, in order.
-/

namespace Defmt.Rzcobs

/-- `struct Encoder { run: u8, zeros: u8, started: bool }`
(defmt/src/encoding/rzcobs.rs:12-16). -/
structure Encoder where
  run : UInt8
  zeros : UInt8
  started : Bool
deriving DecidableEq, Repr

/-- `Encoder::new` (defmt/src/encoding/rzcobs.rs:19-25). -/
def Encoder.new : Encoder := { run := 0, zeros := 0, started := false }

/-- `Encoder::start_frame` (defmt/src/encoding/rzcobs.rs:27-37): new state and bytes written. -/
def Encoder.startFrame (e : Encoder) : Encoder × List UInt8 :=
  if !e.started then ({ e with started := true }, [0x00]) else (e, [])

/-- `Encoder::end_frame` (defmt/src/encoding/rzcobs.rs:39-54): new state and bytes written. -/
def Encoder.endFrame (e : Encoder) : Encoder × List UInt8 :=
  let last : List UInt8 :=
    if e.run = 0 then []
    else if 1 ≤ e.run ∧ e.run ≤ 6 then [(e.zeros ||| ((0xFF : UInt8) <<< e.run)) &&& 0x7F]
    else [(e.run - 7) ||| 0x80]
  ({ e with run := 0, zeros := 0 }, last ++ [0x00])

/-- Body of the `for &byte in data` loop of `Encoder::write`
(defmt/src/encoding/rzcobs.rs:60-85). -/
def Encoder.writeByte (e : Encoder) (byte : UInt8) : Encoder × List UInt8 :=
  if e.run < 7 then
    let (zeros, out) : UInt8 × List UInt8 :=
      if byte = 0 then (e.zeros ||| ((1 : UInt8) <<< e.run), []) else (e.zeros, [byte])
    let run := e.run + 1
    if run = 7 ∧ zeros ≠ 0x00 then
      ({ e with run := 0, zeros := 0 }, out ++ [zeros])
    else
      ({ e with run := run, zeros := zeros }, out)
  else if byte = 0 then
    ({ e with run := 0, zeros := 0 }, [(e.run - 7) ||| 0x80])
  else
    let run := e.run + 1
    if run = 134 then
      ({ e with run := 0, zeros := 0 }, [byte, 0xFF])
    else
      ({ e with run := run }, [byte])

/-- `Encoder::write` (defmt/src/encoding/rzcobs.rs:56-87): the loop over `data`. -/
def Encoder.write (e : Encoder) : List UInt8 → Encoder × List UInt8
  | [] => (e, [])
  | b :: bs =>
    let (e₁, out₁) := e.writeByte b
    let (e₂, out₂) := e₁.write bs
    (e₂, out₁ ++ out₂)

/-- `for _ in 0..n { res.push(data.next().ok_or(Malformed)?) }`
(decoder/src/stream/rzcobs.rs:26-28, 31-33). `none` is `Err(Malformed)`. -/
def takeLoop : Nat → List UInt8 → List UInt8 → Option (List UInt8 × List UInt8)
  | 0, res, data => some (res, data)
  | n + 1, res, data =>
    match data with
    | [] => none
    | b :: data => takeLoop n (res ++ [b]) data

/-- `for i in 0..7 { if x & (1 << (6 - i)) == 0 {..} else {..} }`
(decoder/src/stream/rzcobs.rs:15-21), with `k = 7 - i` iterations to go. -/
def bitLoop (x : UInt8) : Nat → List UInt8 → List UInt8 → Option (List UInt8 × List UInt8)
  | 0, res, data => some (res, data)
  | k + 1, res, data =>
    if x &&& ((1 : UInt8) <<< UInt8.ofNat k) = 0 then
      match data with
      | [] => none
      | b :: data => bitLoop x k (res ++ [b]) data
    else
      bitLoop x k (res ++ [0]) data

/-- The `while let Some(x) = data.next()` loop of `rzcobs_decode`
(decoder/src/stream/rzcobs.rs:11-36) on the reversed data. `fuel` bounds the number of
iterations; every iteration consumes at least one byte, so `data.length` suffices. -/
def decodeLoop : Nat → List UInt8 → List UInt8 → Option (List UInt8)
  | _, res, [] => some res
  | 0, _, _ :: _ => none
  | fuel + 1, res, x :: data =>
    if x = 0 then none
    else if 0x01 ≤ x ∧ x ≤ 0x7f then
      match bitLoop x 7 res data with
      | none => none
      | some (res, data) => decodeLoop fuel res data
    else if 0x80 ≤ x ∧ x ≤ 0xfe then
      let n := (x &&& 0x7f) + 7
      match takeLoop n.toNat (res ++ [0]) data with
      | none => none
      | some (res, data) => decodeLoop fuel res data
    else
      match takeLoop 134 res data with
      | none => none
      | some (res, data) => decodeLoop fuel res data

/-- `rzcobs_decode` (decoder/src/stream/rzcobs.rs:8-40). `none` is `Err(Malformed)`. -/
def rzcobsDecode (data : List UInt8) : Option (List UInt8) :=
  (decodeLoop data.length [] data.reverse).map List.reverse

end Defmt.Rzcobs
