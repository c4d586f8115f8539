import Verif.Model.Decoder
/-!
# Displaying a frame

Models `decoder/src/frame.rs`. Output is a `List Char`; `none` is a panic (the functions return
`fmt::Result` but only write to a `String`, which does not fail).

External functions are parameters (`Env`): `ryu` (floats), `{:?}` of strings, `cbor_edn`, the `time`
crate's formatting of a date that is in range. The formatting of integers by `core::fmt` is modelled
by `padIntegral`.
-/

namespace Defmt

open Parser

/-- The key of a bitflags definition (decoder/src/lib.rs:118-133). -/
structure BitflagsKey where
  name : List Char
  package : List Char
  disambiguator : List Char
  crateName : Option (List Char)
deriving DecidableEq, Repr

/-- External functions used for displaying, and the bitflags part of the table
(decoder/src/lib.rs:157). -/
structure Env where
  /-- `ryu::Buffer::format::<f32>` on a bit pattern -/
  f32 : Nat → List Char
  f64 : Nat → List Char
  /-- `format!("{s:?}")` of a `str` -/
  debugStr : List Char → List Char
  /-- the two arms of `DisplayHint::Cbor` (frame.rs:397-406) -/
  cbor : List UInt8 → List Char
  /-- `OffsetDateTime::format` with the format description for the precision, of a unix timestamp
  in units of the precision -/
  dateTime : TimePrecision → Nat → List Char
  /-- largest width `core::fmt` accepts; larger ones panic. `2 ^ 16 - 1` since Rust 1.87, before
  `2 ^ 64 - 1`. -/
  maxWidth : Nat
  bitflags : BitflagsKey → Option (List (List Char × Nat))

namespace Display

/-- `core::fmt::Formatter::pad_integral` with the `0` flag and the given width: sign, prefix, zeros,
digits. -/
def padIntegral (env : Env) (negative : Bool) (pre digits : List Char) (width : Nat) :
    Option (List Char) :=
  if width > env.maxWidth then none
  else
    let lead := (if negative then ['-'] else []) ++ pre
    some (lead ++ List.replicate (width - (lead.length + digits.length)) '0' ++ digits)

/-- `{x}`, `{x:b}`, `{x:o}`, `{x:x}` without padding. -/
def digits (base : Nat) (x : Nat) : List Char := Nat.toDigits base x

/-- `{x:X}` -/
def upperDigits (x : Nat) : List Char := (Nat.toDigits 16 x).map Char.toUpper

/-- `{x:0width$}` for the widths written as literals (2, 3, 6) in frame.rs. -/
def zeroPadded (width x : Nat) : List Char :=
  List.replicate (width - (digits 10 x).length) '0' ++ digits 10 x

/-- `#` prefix -/
def alternatePrefix (alternate : Bool) (p : List Char) : List Char := if alternate then p else []

/-- hexadecimal digits in the requested case -/
def hexDigits (uppercase : Bool) (x : Nat) : List Char :=
  if uppercase then upperDigits x else digits 16 x

/-- `format_time` (frame.rs:431-477). -/
def formatTime (timestamp : Nat) (p : TimePrecision) : List Char :=
  let (timestamp, decimals) := match p with
    | .micros => (timestamp / 1000000, timestamp % 1000000)
    | .millis => (timestamp / 1000, timestamp % 1000)
    | .seconds => (timestamp, 0)
  let seconds := timestamp % 60
  let timestamp := timestamp / 60
  let minutes := timestamp % 60
  let timestamp := timestamp / 60
  let hours := timestamp % 24
  let days := timestamp / 24
  let hms := zeroPadded 2 hours ++ [':'] ++ zeroPadded 2 minutes ++ [':'] ++ zeroPadded 2 seconds
  let fraction := match p with
    | .micros => '.' :: zeroPadded 6 decimals
    | .millis => '.' :: zeroPadded 3 decimals
    | .seconds => []
  if days = 0 then hms ++ fraction else digits 10 days ++ [':'] ++ hms ++ fraction

/-- Is the flag shown? (frame.rs:279-286) -/
def flagShown (x value : Nat) : Bool :=
  if value = 0 ∧ x ≠ 0 then false else Nat.land x value = value

/-- `join(" | ")` -/
def joinFlags : List (List Char) → List Char
  | [] => []
  | [a] => a
  | a :: b :: rest => a ++ c!" | " ++ joinFlags (b :: rest)

/-- The bitflags arm of `format_u128` (frame.rs:262-305). -/
def formatBitflags (env : Env) (x : Nat) (key : BitflagsKey) : List Char :=
  match env.bitflags key with
  | none => digits 10 x
  | some flags =>
    let set := (flags.filter (fun f => flagShown x f.2)).map Prod.fst
    if set.isEmpty then c!"(empty)" else joinFlags set

/-- `format_u128` (frame.rs:218-311). -/
def formatU128 (env : Env) (x : Nat) (hint : Option Hint) : Option (List Char) :=
  match hint with
  | some (.noHint pad) => padIntegral env false [] (digits 10 x) pad
  | some (.binary alt pad) => padIntegral env false (alternatePrefix alt c!"0b") (digits 2 x) pad
  | some (.octal alt pad) => padIntegral env false (alternatePrefix alt c!"0o") (digits 8 x) pad
  | some (.hexadecimal alt upper pad) =>
    padIntegral env false (alternatePrefix alt c!"0x") (hexDigits upper x) pad
  | some (.seconds .micros) => some (digits 10 (x / 1000000) ++ '.' :: zeroPadded 6 (x % 1000000))
  | some (.seconds .millis) => some (digits 10 (x / 1000) ++ '.' :: zeroPadded 3 (x % 1000))
  | some (.time p) => some (formatTime x p)
  | some (.bitflags name package disambiguator crateName) =>
    some (formatBitflags env x ⟨name, package, disambiguator, crateName⟩)
  | _ => some (digits 10 x)

/-- `I128Hex` (frame.rs:12-39): the width in bits of the cast, `none` is the `panic!`. -/
def hexBits : Ty → Option Nat
  | .i8 => some 8
  | .i16 => some 16
  | .i32 => some 32
  | .i64 => some 64
  | .i128 => some 128
  | _ => none

/-- `x as uN` of an `i128` -/
def twosComplement (bits : Nat) (x : Int) : Nat := (x % 2 ^ bits).toNat

/-- `format_i128` (frame.rs:313-352). `{:b}` and `{:o}` of an `i128` show its 128 bit two's
complement. -/
def formatI128 (env : Env) (x : Int) (ty : Ty) (hint : Option Hint) : Option (List Char) :=
  match hint with
  | some (.noHint pad) => padIntegral env (x < 0) [] (digits 10 x.natAbs) pad
  | some (.binary alt pad) =>
    padIntegral env false (alternatePrefix alt c!"0b") (digits 2 (twosComplement 128 x)) pad
  | some (.octal alt pad) =>
    padIntegral env false (alternatePrefix alt c!"0o") (digits 8 (twosComplement 128 x)) pad
  | some (.hexadecimal alt upper pad) =>
    match hexBits ty with
    | none => none
    | some bits =>
      padIntegral env false (alternatePrefix alt c!"0x") (hexDigits upper (twosComplement bits x)) pad
  | _ => some ((if x < 0 then ['-'] else []) ++ digits 10 x.natAbs)

/-- `u8::is_ascii_graphic` -/
def isGraphic (b : UInt8) : Bool := 0x21 ≤ b && b ≤ 0x7e

/-- The characters for one byte in `b"..."` (frame.rs:364-381). -/
def escapeByte (b : UInt8) : List Char :=
  if b = 0x09 then c!"\\t"
  else if b = 0x0a then c!"\\n"
  else if b = 0x0d then c!"\\r"
  else if b = 0x20 then c!" "
  else if b = 0x22 then c!"\\\""
  else if b = 0x5c then c!"\\\\"
  else if isGraphic b then [Char.ofNat b.toNat]
  else c!"\\x" ++ List.replicate (2 - (digits 16 b.toNat).length) '0' ++ digits 16 b.toNat

/-- concatenation of displayed parts, `none` if one panics -/
def concat : List (Option (List Char)) → Option (List Char)
  | [] => some []
  | none :: _ => none
  | some a :: rest => (concat rest).map (a ++ ·)

/-- parts separated by `", "` -/
def commaSeparated : List (Option (List Char)) → Option (List Char)
  | [] => some []
  | [a] => a
  | a :: b :: rest =>
    match a, commaSeparated (b :: rest) with
    | some a, some r => some (a ++ c!", " ++ r)
    | _, _ => none

/-- `[` parts `]` -/
def bracketed (parts : List (Option (List Char))) : Option (List Char) :=
  (commaSeparated parts).map (fun s => '[' :: s ++ [']'])

/-- `format_bytes` (frame.rs:354-415). The default is `{bytes:?}` of a `[u8]`. -/
def formatBytes (env : Env) (bytes : List UInt8) (hint : Option Hint) : Option (List Char) :=
  match hint with
  | some .ascii => some (c!"b\"" ++ bytes.flatMap escapeByte ++ c!"\"")
  | some (.hexadecimal ..) | some (.octal ..) | some (.binary ..) =>
    bracketed (bytes.map (fun b => formatU128 env b.toNat hint))
  | some .cbor => some (env.cbor bytes)
  | _ => bracketed (bytes.map (fun b => some (digits 10 b.toNat)))

/-- `format_str` (frame.rs:417-429). -/
def formatStr (env : Env) (s : List Char) (hint : Option Hint) : List Char :=
  if hint = some .debug then env.debugStr s else s

/-- Seconds since 1970 of the last second the `time` crate can represent, 9999-12-31T23:59:59Z
(without its feature `large-dates`). -/
def maxUnixSeconds : Nat := 253402300799

/-- `format_iso8601` (frame.rs:479-503); `none` is the `unwrap` of an out of range date. -/
def formatIso8601 (env : Env) (timestamp : Nat) (p : TimePrecision) : Option (List Char) :=
  let secs := match p with
    | .micros => timestamp / 1000000
    | .millis => timestamp / 1000
    | .seconds => timestamp
  if secs > maxUnixSeconds then none else some (env.dateTime p timestamp)

/-- Isolating the bits of a bitfield (frame.rs:126-130), in 128 bit arithmetic: `<<` drops the upper
bits. -/
def displayedBits (start stop x : Nat) : Nat :=
  let leftZeroes := 128 - stop
  let rightZeroes := leftZeroes + start
  (x * 2 ^ leftZeroes % 2 ^ 128) / 2 ^ rightZeroes

/-- `to_be_bytes()` of the `n` byte number -/
def beBytes : Nat → Nat → List UInt8
  | 0, _ => []
  | n + 1, x => beBytes n (x / 256) ++ [UInt8.ofNat (x % 256)]

/-- The arm for `Arg::Uxx` (frame.rs:122-157). -/
def formatUxx (env : Env) (x : Nat) (ty : Ty) (hint parentHint : Option Hint) : Option (List Char) :=
  match ty with
  | .bitField start stop =>
    let bitfields := displayedBits start stop x
    if hint = some .ascii then
      formatBytes env ((beBytes 16 bitfields).drop ((128 - stop + start) / 8)) hint
    else formatU128 env bitfields hint
  | _ =>
    match hint with
    | some (.iso8601 p) => formatIso8601 env (x % 2 ^ 64) p
    | some .debug => formatU128 env x parentHint
    | _ => formatU128 env x hint

/-- How an argument is displayed for a parameter, given the parent's hint. -/
abbrev Shower := Parameter → Option Hint → Option (List Char)

/-- One fragment of the loop of `format_args_real` (frame.rs:114-120, 213); `args[param.index]`
panics if out of bounds. -/
def formatFragment (args : List Shower) (parentHint : Option Hint) : Fragment → Option (List Char)
  | .literal s => some s
  | .param p =>
    match args[p.index]? with
    | none => none
    | some shower => shower p parentHint

/-- `format_args` (frame.rs:102-216); the arguments are given by how they are displayed. -/
def formatArgs (format : List Char) (args : List Shower) (parentHint : Option Hint) :
    Option (List Char) :=
  match parse format .forwardsCompatible with
  | .ok fragments => concat (fragments.map (formatFragment args parentHint))
  | _ => none

/-- An element of a `FormatSlice` as a byte (frame.rs:182-190); `none` is a panic. -/
def elementByte : Arg → Option UInt8
  | .format _ [.uxx v] => if v < 256 then some (UInt8.ofNat v) else none
  | _ => none

/-- Is the format string of the element `{=u8}`? -/
def isU8Element : Arg → Bool
  | .format f _ => f = c!"{=u8}"
  | _ => false

/-- all-or-nothing traversal -/
def allBytes : List Arg → Option (List UInt8)
  | [] => some []
  | a :: as =>
    match elementByte a, allBytes as with
    | some b, some bs => some (b :: bs)
    | _, _ => none

mutual

/-- The `match &args[param.index]` of `format_args_real` (frame.rs:119-211). -/
def showArg (env : Env) : Arg → Shower
  | .bool b => fun _ _ => some (if b then c!"true" else c!"false")
  | .f32 bits => fun _ _ => some (env.f32 bits)
  | .f64 bits => fun _ _ => some (env.f64 bits)
  | .uxx x => fun p parent => formatUxx env x p.ty (p.hint <|> parent) parent
  | .ixx x => fun p parent => formatI128 env x p.ty (p.hint <|> parent)
  | .str s => fun p parent => some (formatStr env s (p.hint <|> parent))
  | .preformatted s => fun p parent => some (formatStr env s (p.hint <|> parent))
  | .istr s => fun p parent => some (formatStr env s (p.hint <|> parent))
  | .format f args =>
    let showers := showArgs env args
    fun p parent =>
      formatArgs f showers (if parent = some .ascii then parent else p.hint <|> parent)
  | .formatSequence args =>
    let showers := showArgs env args
    fun p parent => concat (showers.map (fun s => formatArgs c!"{=?}" [s] (p.hint <|> parent)))
  | .formatSlice elements =>
    let shown := showElements env elements
    fun p parent =>
      let hint := p.hint <|> parent
      if hint = some .ascii ∧ elements.any isU8Element then
        match allBytes elements with
        | none => none
        | some bytes => formatBytes env bytes hint
      else bracketed (shown.map (fun s => s hint))
  | .slice bytes => fun p parent => formatBytes env bytes (p.hint <|> parent)
  | .char c => fun _ _ => some [c]

/-- all arguments -/
def showArgs (env : Env) : List Arg → List Shower
  | [] => []
  | a :: as => showArg env a :: showArgs env as

/-- The elements of a slice: `format_args(element.format, &element.args, hint)` (frame.rs:201-205).
Elements are always `.format` (see `Arg`). -/
def showElements (env : Env) : List Arg → List (Option Hint → Option (List Char))
  | [] => []
  | .format f args :: rest =>
    let showers := showArgs env args
    (fun hint => formatArgs f showers hint) :: showElements env rest
  | _ :: rest => (fun _ => none) :: showElements env rest

end

/-- Names of the levels (frame.rs:553-559). -/
def levelText : Level → List Char
  | .trace => c!"TRACE"
  | .debug => c!"DEBUG"
  | .info => c!"INFO"
  | .warn => c!"WARN"
  | .error => c!"ERROR"

end Display

open Display

/-- `Frame::display_message` (frame.rs:90-92, 520-534). -/
def Frame.message (env : Env) (f : Frame) : Option (List Char) :=
  formatArgs f.format (showArgs env f.args) none

/-- `Frame::display_timestamp` (frame.rs:84-87, 505-518); the outer `none`: no timestamp. -/
def Frame.timestamp (env : Env) (f : Frame) : Option (Option (List Char)) :=
  f.timestampFormat.map (fun fmt => formatArgs fmt (showArgs env f.timestampArgs) none)

/-- `Frame::display(false)` (frame.rs:75-82, 541-584). With colours, the level is wrapped in escape
sequences by the crate `colored`; not modelled. -/
def Frame.display (env : Env) (f : Frame) : Option (List Char) :=
  let level := match f.level with
    | none => []
    | some l => levelText l ++ [' ']
  let timestamp := match f.timestampFormat with
    | none => some []
    | some fmt => (formatArgs fmt (showArgs env f.timestampArgs) none).map (· ++ [' '])
  match timestamp, f.message env with
  | some ts, some m => some (ts ++ level ++ m)
  | _, _ => none

end Defmt
