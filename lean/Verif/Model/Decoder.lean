import Verif.Model.Parser
import Verif.Model.Stream
import Verif.Model.Utf8
/-!
# Decoding a frame with the table

Models `decoder/src/decoder.rs` and the parts of `decoder/src/lib.rs` it uses (`Tag`, `Table::_get`,
`get_with_level`, `get_without_level`, `Table::decode`, `Arg`, `FormatSliceElement`).

A function of `Decoder` works on `&mut self` with the remaining bytes in `self.bytes`; here it is a
`Dec α`: remaining bytes to result and new remaining bytes. After an error the remaining bytes are
not observable (`Table::decode` returns the error), so they are not kept.

Recursion depth is not bounded in the source; here `decodeFormat` takes a fuel argument and
`Res.outOfFuel` says it did not suffice. `Table.decode` supplies `bytes.length + 1`, and
`C31` proves that this is always enough (every nested call is preceded by reading two bytes).
-/

namespace Defmt

/-- `enum Level` (parser/src/lib.rs). -/
inductive Level where
  | trace | debug | info | warn | error
deriving DecidableEq, Repr

/-- `enum Tag` (decoder/src/lib.rs:38-63). -/
inductive Tag where
  | prim | derived | bitflags | write | str | timestamp | bitflagsValue | println
  | trace | debug | info | warn | error
deriving DecidableEq, Repr

/-- `Tag::to_level` (decoder/src/lib.rs:65-76). -/
def Tag.toLevel : Tag → Option Level
  | .trace => some .trace
  | .debug => some .debug
  | .info => some .info
  | .warn => some .warn
  | .error => some .error
  | _ => none

/-- `struct StringEntry` (decoder/src/lib.rs:100-104); the raw symbol of `TableEntry` is not used by
decoding. -/
structure Entry where
  tag : Tag
  string : List Char
deriving DecidableEq, Repr

/-- `struct Table` (decoder/src/lib.rs:152-158), the parts used by decoding. The `BTreeMap` is a
partial function. -/
structure Table where
  timestamp : Option Entry
  entries : Nat → Option Entry

/-- `Table::_get`, `get_with_level` (decoder/src/lib.rs:182-189). -/
def Table.getWithLevel (t : Table) (index : Nat) : Option (Option Level × List Char) :=
  match t.entries index with
  | none => none
  | some e => some (e.tag.toLevel, e.string)

/-- `Table::get_without_level` (decoder/src/lib.rs:191-198). -/
def Table.getWithoutLevel (t : Table) (index : Nat) : Option (List Char) :=
  match t.getWithLevel index with
  | none => none
  | some (some _, _) => none
  | some (none, s) => some s

/-- `enum Arg` (decoder/src/lib.rs:283-314). Floats are their bit patterns. A `FormatSliceElement`
(318-324) has the same fields as `Arg::Format` and is represented by `.format`. -/
inductive Arg where
  | bool (b : Bool)
  | f32 (bits : Nat)
  | f64 (bits : Nat)
  | uxx (n : Nat)
  | ixx (i : Int)
  | str (s : List Char)
  | istr (s : List Char)
  | format (format : List Char) (args : List Arg)
  | formatSlice (elements : List Arg)
  | formatSequence (args : List Arg)
  | slice (bytes : List UInt8)
  | char (c : Char)
  | preformatted (s : List Char)
deriving Repr

namespace Decoder

open Parser

/-- Outcome of a decoding step: value and remaining bytes, `DecodeError`, panic, or (model only) not
enough fuel. -/
inductive Res (α : Type) where
  | ok (a : α) (rest : List UInt8)
  | err (e : DecodeError)
  | panic
  | outOfFuel
deriving DecidableEq, Repr

/-- A decoding step. -/
def Dec (α : Type) := List UInt8 → Res α

/-- Sequencing, `?` propagates errors. -/
def Dec.bind {α β : Type} (m : Dec α) (f : α → Dec β) : Dec β := fun bs =>
  match m bs with
  | .ok a rest => f a rest
  | .err e => .err e
  | .panic => .panic
  | .outOfFuel => .outOfFuel

instance : Monad Dec where
  pure a := fun bs => .ok a bs
  bind := Dec.bind

/-- `return Err(e)` -/
def fail {α : Type} (e : DecodeError) : Dec α := fun _ => .err e

/-- `panic!()` -/
def panicked {α : Type} : Dec α := fun _ => .panic

/-- model only: fuel exhausted -/
def noFuel {α : Type} : Dec α := fun _ => .outOfFuel

/-- `opt.ok_or(DecodeError::Malformed)?` -/
def orMalformed {α : Type} : Option α → Dec α
  | some a => pure a
  | none => fail .malformed

/-- `read_exact` of `n` bytes from the remaining bytes (`byteorder::ReadBytesExt` on `&[u8]`; also
the loops `for _ in 0..n { v.push(self.bytes.read_u8()?) }`, decoder.rs:190-192, 219-221, 227-229). -/
def readBytes (n : Nat) : Dec (List UInt8) := fun bs =>
  if bs.length < n then .err .unexpectedEof else .ok (bs.take n) (bs.drop n)

/-- Value of a little endian byte string. -/
def leNat : List UInt8 → Nat
  | [] => 0
  | b :: bs => b.toNat + 256 * leNat bs

/-- `read_u8`, `read_u16::<LE>`, ... for an `n` byte integer. -/
def readUInt (n : Nat) : Dec Nat := do
  let bs ← readBytes n
  pure (leNat bs)

/-- Two's complement interpretation of an `n` byte pattern. -/
def signed (n m : Nat) : Int := if m < 2 ^ (8 * n - 1) then m else (m : Int) - 2 ^ (8 * n)

/-- `read_i8`, `read_i16::<LE>`, ... for an `n` byte integer. -/
def readInt (n : Nat) : Dec Int := do
  let m ← readUInt n
  pure (signed n m)

/-- Is the parameter a bitfield of argument `index`? -/
def isBitfieldOf (index : Nat) (p : Parameter) : Bool :=
  match p.ty with
  | .bitField _ _ => p.index = index
  | _ => false

/-- The ranges of the bitfield parameters in a list. -/
def bitRanges : List Parameter → List (Nat × Nat)
  | [] => []
  | p :: ps =>
    match p.ty with
    | .bitField s e => (s, e) :: bitRanges ps
    | _ => bitRanges ps

/-- One iteration of the loop of `merge_bitfields` (decoder.rs:275-314): remaining and merged
parameters. -/
def mergeStep (st : List Parameter × List Parameter) (index : Nat) :
    List Parameter × List Parameter :=
  match maxBitfieldRange (bitRanges (st.1.filter (isBitfieldOf index))) with
  | none => st
  | some (smallest, largest) =>
    (st.1.filter (fun p => !isBitfieldOf index p),
     st.2 ++ [{ index, ty := .bitField smallest largest, hint := none }])

/-- `merge_bitfields` (decoder.rs:266-318). `foldl max 0` is the maximum of a non-empty list. -/
def mergeBitfields (ps : List Parameter) : List Parameter :=
  if ps.isEmpty then ps
  else
    let maxIndex := (ps.map Parameter.index).foldl max 0
    let r := (List.range (maxIndex + 1)).foldl mergeStep (ps, [])
    r.1 ++ r.2

/-- Insertion of `p` into a list sorted by index, before equal indices. -/
def insertByIndex (p : Parameter) : List Parameter → List Parameter
  | [] => [p]
  | q :: qs => if p.index ≤ q.index then p :: q :: qs else q :: insertByIndex p qs

/-- `sort_by(|a, b| a.index.cmp(&b.index))` (decoder.rs:26). Rust's sort is stable, so the result is
that of (stable) insertion sort. -/
def sortByIndex : List Parameter → List Parameter
  | [] => []
  | p :: ps => insertByIndex p (sortByIndex ps)

/-- `dedup_by(|a, b| a.index == b.index)` (decoder.rs:27): drop elements with the same index as the
last kept one. -/
def dedupByIndex : List Parameter → List Parameter
  | [] => []
  | p :: ps => p :: go p.index ps
where
  go (last : Nat) : List Parameter → List Parameter
    | [] => []
    | q :: qs => if q.index = last then go last qs else q :: go q.index qs

/-- `prepare_params` (decoder.rs:21-28). -/
def prepareParams (ps : List Parameter) : List Parameter :=
  dedupByIndex (sortByIndex (mergeBitfields ps))

/-- `get_format` (decoder.rs:31-39). -/
def getFormat (t : Table) : Dec (List Char) := do
  let index ← readUInt 2
  orMalformed (t.getWithoutLevel index)

/-- Number of bytes of the discriminant read by `get_variant` (decoder.rs:47-62). -/
def discriminantSize (numVariants : Nat) : Option Nat :=
  if numVariants < 2 ^ 8 then some 1
  else if numVariants < 2 ^ 16 then some 2
  else if numVariants < 2 ^ 32 then some 4
  else if numVariants < 2 ^ 64 then some 8
  else none

/-- `get_variant` (decoder.rs:41-69). -/
def getVariant (format : List Char) : Dec (List Char) := do
  if ¬ '|' ∈ format then panicked
  else
    let size ← orMalformed (discriminantSize (format.count '|'))
    let discriminant ← readUInt size
    orMalformed (Parser.splitAt '|' format)[discriminant]?

/-- `if is_enum { self.get_variant(format)? } else { format }` (decoder.rs:81-85, 137-152). -/
def chooseVariant (format : List Char) : Dec (List Char) :=
  if '|' ∈ format then getVariant format else pure format

/-- `Vec::<FormatSliceElement>::with_capacity(n)` (decoder.rs:78) panics with "capacity overflow" if
the 40 byte elements need more than `isize::MAX` bytes. (Smaller requests that exceed the available
memory abort the process; that is not modelled.) -/
def maxElements : Nat := (2 ^ 63 - 1) / 40

/-- The loop of `decode_format_slice` (decoder.rs:79-87). `rec` is `decode_format`. -/
def decodeElements (rec : List Char → Dec (List Arg)) (format : List Char) : Nat → Dec (List Arg)
  | 0 => pure []
  | n + 1 => do
    let variant ← chooseVariant format
    let args ← rec variant
    let rest ← decodeElements rec format n
    pure (.format variant args :: rest)

/-- `decode_format_slice` (decoder.rs:71-90). -/
def decodeFormatSlice (t : Table) (rec : List Char → Dec (List Arg)) (n : Nat) :
    Dec (List Arg) := do
  let format ← getFormat t
  if n > maxElements then panicked
  else decodeElements rec format n

/-- The loop of `Type::FormatSequence` (decoder.rs:237-253); the fuel bounds the number of
iterations, each of which reads two bytes. -/
def decodeSequence (t : Table) (rec : List Char → Dec (List Arg)) : Nat → Dec (List Arg)
  | 0 => noFuel
  | fuel + 1 => do
    let index ← readUInt 2
    if index = 0 then pure []
    else
      let format ← orMalformed (t.getWithoutLevel index)
      let args ← rec format
      let rest ← decodeSequence t rec fuel
      pure (.format format args :: rest)

/-- Bytes read for a bitfield (decoder.rs:159-170): the number of octets from the one containing bit
`start` to the one containing bit `stop - 1`, rounded up to an integer type. `none` is
`unreachable!()`. -/
def bitfieldSize (start stop : Nat) : Option Nat :=
  let size := (stop - 1) / 8 - start / 8 + 1
  if size = 1 then some 1
  else if size = 2 then some 2
  else if size ≤ 4 then some 4
  else if size ≤ 8 then some 8
  else if size ≤ 16 then some 16
  else none

/-- Text up to the first `0xFF` (decoder.rs:240-250). -/
def readTerminated : Dec (List UInt8) := fun bs =>
  match Stream.position (· == 0xff) bs with
  | none => .err .unexpectedEof
  | some i => .ok (bs.take i) (bs.drop (i + 1))

/-- `char::from_u32`. -/
def charFromU32 (n : Nat) : Option Char := if n.isValidChar then some (Char.ofNat n) else none

/-- One iteration of the `for param in &params` loop (decoder.rs:107-257): the argument for one
parameter of type `ty`. `rec` is `decode_format`. -/
def decodeArg (t : Table) (rec : List Char → Dec (List Arg)) (fuel : Nat) (ty : Ty) : Dec Arg :=
  match ty with
  | .i8 => do return .ixx (← readInt 1)
  | .i16 => do return .ixx (← readInt 2)
  | .i32 => do return .ixx (← readInt 4)
  | .i64 => do return .ixx (← readInt 8)
  | .i128 => do return .ixx (← readInt 16)
  | .isize => do return .ixx (← readInt 4)
  | .u8 => do return .uxx (← readUInt 1)
  | .u16 => do return .uxx (← readUInt 2)
  | .u32 => do return .uxx (← readUInt 4)
  | .u64 => do return .uxx (← readUInt 8)
  | .u128 => do return .uxx (← readUInt 16)
  | .usize => do return .uxx (← readUInt 4)
  | .f32 => do return .f32 (← readUInt 4)
  | .f64 => do return .f64 (← readUInt 8)
  | .bool => do
    let b ← readUInt 1
    if b = 0 then return .bool false
    else if b = 1 then return .bool true
    else fail .malformed
  | .formatSlice => do
    let n ← readUInt 4
    return .formatSlice (← decodeFormatSlice t rec n)
  | .format => do
    let format ← getFormat t
    let variant ← chooseVariant format
    return .format variant (← rec variant)
  | .bitField start stop =>
    match bitfieldSize start stop with
    | none => panicked
    | some size => do
      let data ← readUInt size
      return .uxx (data * 2 ^ (8 * (start / 8)) % 2 ^ 128)
  | .str => do
    let n ← readUInt 4
    let bytes ← readBytes n
    return .str (← orMalformed (fromUtf8 bytes))
  | .istr => do
    let index ← readUInt 2
    return .istr (← orMalformed (t.getWithoutLevel index))
  | .u8Slice => do
    let n ← readUInt 4
    return .slice (← readBytes n)
  | .u8Array n => do return .slice (← readBytes n)
  | .formatArray n => do return .formatSlice (← decodeFormatSlice t rec n)
  | .char => do
    let n ← readUInt 4
    return .char (← orMalformed (charFromU32 n))
  | .debug | .display => do
    let bytes ← readTerminated
    return .preformatted (← orMalformed (fromUtf8 bytes))
  | .formatSequence => do return .formatSequence (← decodeSequence t rec fuel)

/-- The `for param in &params` loop (decoder.rs:107-257). -/
def decodeParams (t : Table) (rec : List Char → Dec (List Arg)) (fuel : Nat) :
    List Parameter → Dec (List Arg)
  | [] => pure []
  | p :: ps => do
    let a ← decodeArg t rec fuel p.ty
    let rest ← decodeParams t rec fuel ps
    pure (a :: rest)

/-- `decode_format` (decoder.rs:93-261). -/
def decodeFormat (t : Table) : Nat → List Char → Dec (List Arg)
  | 0, _ => noFuel
  | fuel + 1, format =>
    match parse format .forwardsCompatible with
    | .panic => panicked
    | .err _ => fail .malformed
    | .ok fragments =>
      decodeParams t (decodeFormat t fuel) (fuel + 1) (prepareParams (params fragments))

end Decoder

/-- `struct Frame` (decoder/src/frame.rs:57-67), without the table. -/
structure Frame where
  level : Option Level
  index : Nat
  timestampFormat : Option (List Char)
  timestampArgs : List Arg
  format : List Char
  args : List Arg

open Decoder in
/-- The timestamp part of `Table::decode` (decoder/src/lib.rs:238-244). -/
def Table.decodeTimestamp (t : Table) (fuel : Nat) : Dec (Option (List Char) × List Arg) :=
  match t.timestamp with
  | none => pure (none, [])
  | some entry => do
    let args ← decodeFormat t fuel entry.string
    pure (some entry.string, args)

open Decoder in
/-- `Table::decode` (decoder/src/lib.rs:228-263) on the remaining bytes. -/
def Table.decodeFrame (t : Table) (fuel : Nat) : Dec Frame := do
  let index ← readUInt 2
  let (timestampFormat, timestampArgs) ← t.decodeTimestamp fuel
  let (level, format) ← orMalformed (t.getWithLevel index)
  let args ← decodeFormat t fuel format
  pure { level, index, timestampFormat, timestampArgs, format, args }

/-- `Table::decode` (decoder/src/lib.rs:228-263): frame and number of bytes consumed. `none` means
the model ran out of fuel (never happens, `C31`). -/
def Table.decode (t : Table) (bytes : List UInt8) : Option (Outcome DecodeError (Frame × Nat)) :=
  match t.decodeFrame (bytes.length + 1) bytes with
  | .ok frame rest => some (.ok (frame, bytes.length - rest.length))
  | .err e => some (.err e)
  | .panic => some .panic
  | .outOfFuel => none

/-- The decoder handed to the stream layer. Panics cannot happen for safe tables (`C31_decode_total`);
they are mapped to an error here. -/
def Table.td (t : Table) (bs : List UInt8) : Except DecodeError (Frame × Nat) :=
  match t.decode bs with
  | some (.ok r) => .ok r
  | some (.err e) => .error e
  | _ => .error .malformed

end Defmt
