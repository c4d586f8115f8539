import Verif.Model.Decoder
/-!
# What the target writes

Models `macros/src/function_like/log/codegen.rs` (which export function is called for which
argument), `defmt/src/export/mod.rs`, `defmt/src/export/integers.rs` (the bytes those write),
`defmt/src/export/traits.rs` (`Truncate`), `defmt/src/traits.rs` and `defmt/src/impls/` (what
`_format_tag`/`_format_data` of the provided implementations write), and the expansion of `write!`,
`timestamp!` and the log macros (`macros/src/function_like/{write,log,println}.rs`,
`macros/src/items/timestamp.rs`).

The target code is generic Rust; `Val` represents a Rust value together with the way its type
implements `Format`. Interned strings (`Str { address }`) carry both the address and the text; that
the linker really put that text at that address of the table is a hypothesis of the theorems
(`Verif.Spec.Encoder`).
-/

namespace Defmt

/-- A Rust value as seen by defmt. -/
inductive Val where
  /-- `u8`, `u16`, `u32`, `u64`, `u128` (`size` in bytes) -/
  | uint (size n : Nat)
  /-- `i8`, ..., `i128` (`size` in bytes) -/
  | sint (size : Nat) (i : Int)
  | usize (n : Nat)
  | isize (i : Int)
  /-- `f32`/`f64` as bit pattern -/
  | f32 (bits : Nat)
  | f64 (bits : Nat)
  | bool (b : Bool)
  | char (c : Char)
  | str (s : List Char)
  /-- an interned string: address and text -/
  | istr (address : Nat) (s : List Char)
  /-- `[u8]` or `[u8; N]` -/
  | bytes (bs : List UInt8)
  /-- a value printed with `core::fmt`: its output -/
  | text (s : List Char)
  /-- a value whose type has a format string without alternatives (`_format_tag` is at address
  `tag`, text `fmt`) and which writes `args`; also one `write!(f, fmt, args)` call -/
  | formatted (tag : Nat) (fmt : List Char) (args : List Val)
  /-- a value of an enum type with at least two variants; `variants` are the `|` separated parts of
  its format string -/
  | variant (tag : Nat) (variants : List (List Char)) (idx : Nat) (args : List Val)
  /-- a value of a type with a manual `Format` implementation that makes these `write!` calls -/
  | manual (tag : Nat) (writes : List Val)
  /-- `[T]` or `[T; N]`: address and text of `T`'s format string, elements -/
  | slice (tag : Nat) (fmt : List Char) (elems : List Val)
deriving Repr

namespace Encoder

open Parser Decoder

/-- `to_le_bytes()` of the `n` byte integer with value `x` (modulo `2 ^ (8 n)`, as `as uN` does). -/
def le : Nat → Nat → List UInt8
  | 0, _ => []
  | n + 1, x => UInt8.ofNat (x % 256) :: le n (x / 256)

/-- `to_le_bytes()` of a signed integer: two's complement. -/
def leInt (n : Nat) (i : Int) : List UInt8 := le n (i % 2 ^ (8 * n)).toNat

/-- `get_max_bitfield_range(params.filter(index == arg_index))` (codegen.rs:117-119). -/
def bitfieldRange (ps : List Parameter) (i : Nat) : Option (Nat × Nat) :=
  maxBitfieldRange (bitRanges (ps.filter (fun p => p.index = i)))

/-- `encode_arg` on the parameter type (codegen.rs:62-148): the type with the ranges of a bitfield
merged decides which export function is called. `none` is a panic of the macro (`unwrap` on `None`,
`unreachable!()` for `__internal_FormatSequence`). -/
def argType (ps : List Parameter) (i : Nat) : Option Ty :=
  match ps.find? (fun p => p.index = i) with
  | none => none
  | some p =>
    match p.ty with
    | .bitField _ _ => (bitfieldRange ps i).map (fun r => .bitField r.1 r.2)
    | .formatSequence => none
    | ty => some ty

/-- `expected_arg_count` (codegen.rs:22-27). -/
def expectedArgs (ps : List Parameter) : Nat :=
  (ps.map (fun p => p.index + 1)).foldl max 0

/-- all-or-nothing traversal -/
def allSome {α : Type} : List (Option α) → Option (List α)
  | [] => some []
  | none :: _ => none
  | some a :: as => (allSome as).map (a :: ·)

/-- `Codegen::new` (codegen.rs:12-59) on the string passed to the macro: one argument type for each
argument, in index order. `none` is a compile error. -/
def argTypes (fmt : List Char) (given : Nat) : Option (List Ty) :=
  match parse fmt .strict with
  | .ok fs =>
    if given ≠ expectedArgs (params fs) then none
    else allSome ((List.range (expectedArgs (params fs))).map (argType (params fs)))
  | _ => none

/-- `_format_tag()` of a value's type: address of its format string. -/
def tagOf : Val → Option Nat
  | .formatted tag _ _ => some tag
  | .variant tag _ _ _ => some tag
  | .manual tag _ => some tag
  | _ => none

/-- The discriminant written by a derived enum with `n` variants (`DiscriminantEncoder`,
macros/src/derives/format/codegen/enum_data.rs:70-128): its size in bytes. `none`: not supported. -/
def discriminantBytes (n : Nat) : Option Nat :=
  if n = 1 then some 0
  else if n ≤ 255 then some 1
  else if n ≤ 65535 then some 2
  else if n > 2 ^ 64 - 1 then none
  else if n ≤ 2 ^ 32 - 1 then some 4
  else some 8

/-- Width of the integer sent for a bitfield argument (macros/src/function_like/log/codegen.rs:113-146); the match
over `truncated_sz`. `none` is `unreachable!()`. -/
def truncatedSize (smallestBitIndex largestBitIndex : Nat) : Option Nat :=
  let lowestByte := smallestBitIndex / 8
  let highestByte := (largestBitIndex - 1) / 8
  let truncatedSz := highestByte - lowestByte + 1
  if truncatedSz = 1 then some 1
  else if truncatedSz = 2 then some 2
  else if 3 ≤ truncatedSz ∧ truncatedSz ≤ 4 then some 4
  else if 5 ≤ truncatedSz ∧ truncatedSz ≤ 8 then some 8
  else if 9 ≤ truncatedSz ∧ truncatedSz ≤ 16 then some 16
  else none

/-- The export function called for an argument of type `ty` (codegen.rs:62-148 with
export/mod.rs:155-232, export/integers.rs). `data` is what `v._format_data()` writes. `none` means
the call does not type check. -/
def encodeArg (ty : Ty) (v : Val) (data : Option (List UInt8)) : Option (List UInt8) :=
  match ty, v with
  | .u8, .uint 1 n => some (le 1 n)
  | .u16, .uint 2 n => some (le 2 n)
  | .u32, .uint 4 n => some (le 4 n)
  | .u64, .uint 8 n => some (le 8 n)
  | .u128, .uint 16 n => some (le 16 n)
  | .i8, .sint 1 i => some (leInt 1 i)
  | .i16, .sint 2 i => some (leInt 2 i)
  | .i32, .sint 4 i => some (leInt 4 i)
  | .i64, .sint 8 i => some (leInt 8 i)
  | .i128, .sint 16 i => some (leInt 16 i)
  -- `(*b as u32)`, `(*b as i32)` (integers.rs:16-24)
  | .usize, .usize n => some (le 4 n)
  | .isize, .isize i => some (leInt 4 i)
  | .f32, .f32 b => some (le 4 b)
  | .f64, .f64 b => some (le 8 b)
  | .bool, .bool b => some (le 1 (if b then 1 else 0))
  | .char, .char c => some (le 4 c.toNat)
  | .str, .str s => some (le 4 (utf8 s).length ++ utf8 s)
  | .istr, .istr a _ => some (le 2 a)
  | .u8Slice, .bytes bs => some (le 4 bs.length ++ bs)
  | .u8Array n, .bytes bs => if bs.length = n then some bs else none
  | .debug, .text s => some (utf8 s ++ [0xff])
  | .display, .text s => some (utf8 s ++ [0xff])
  -- `truncate((*arg) >> (lowest_byte * 8))` (codegen.rs:121-146); the shift must be smaller than
  -- the width of the argument and `Truncate` only goes to types that are not wider
  | .bitField s e, .uint size n =>
    match truncatedSize s e with
    | none => none
    | some d => if d ≤ size ∧ s / 8 < size then some (le d (n / 2 ^ (8 * (s / 8)))) else none
  -- `fmt` (export/mod.rs:143-146)
  | .format, v =>
    match tagOf v, data with
    | some tag, some d => some (le 2 tag ++ d)
    | _, _ => none
  -- `fmt_slice` (export/mod.rs:149-155)
  | .formatSlice, .slice tag _ elems => data.map (fun d => le 4 elems.length ++ le 2 tag ++ d)
  -- `fmt_array` (export/mod.rs:187-192)
  | .formatArray n, .slice tag _ elems =>
    if elems.length = n then data.map (fun d => le 2 tag ++ d) else none
  | _, _ => none

mutual

/-- `_format_data` of a value (`macros/src/derives/format/codegen/*`, `defmt/src/impls/*`,
`defmt/src/traits.rs:51-55`); for a slice, the loop over the elements in `fmt_slice`/`fmt_array`. -/
def formatData : Val → Option (List UInt8)
  | .formatted _ fmt args =>
    match argTypes fmt args.length with
    | none => none
    | some tys => encodeArgs tys args
  | .variant _ variants idx args =>
    match variants[idx]?, discriminantBytes variants.length with
    | some fmt, some size =>
      match argTypes fmt args.length with
      | none => none
      | some tys => (encodeArgs tys args).map (fun d => le size idx ++ d)
    | _, _ => none
  | .manual _ writes => (encodeWrites writes).map (fun d => d ++ le 2 0)
  | .slice _ _ elems => encodeElems elems
  | _ => none

/-- The argument expressions of a macro, in index order (log.rs:61, write.rs:43). -/
def encodeArgs : List Ty → List Val → Option (List UInt8)
  | [], [] => some []
  | ty :: tys, v :: vs =>
    match encodeArg ty v (formatData v), encodeArgs tys vs with
    | some a, some b => some (a ++ b)
    | _, _ => none
  | _, _ => none

/-- The `write!` calls of a manual implementation (write.rs:38-46; also `default_format!`,
impls/mod.rs:1-9): tag, then arguments. -/
def encodeWrites : List Val → Option (List UInt8)
  | [] => some []
  | v :: vs =>
    match tagOf v, formatData v, encodeWrites vs with
    | some tag, some a, some b => some (le 2 tag ++ a ++ b)
    | _, _, _ => none

/-- `for value in values { value._format_data() }` (export/mod.rs:152-154, 189-191). -/
def encodeElems : List Val → Option (List UInt8)
  | [] => some []
  | v :: vs =>
    match formatData v, encodeElems vs with
    | some a, some b => some (a ++ b)
    | _, _ => none

end

/-- A macro call: format string and arguments. -/
structure Call where
  fmt : List Char
  args : List Val

/-- The bytes written by the argument expressions of a macro call. -/
def Call.encode (c : Call) : Option (List UInt8) :=
  match argTypes c.fmt c.args.length with
  | none => none
  | some tys => encodeArgs tys c.args

/-- The bytes written between `acquire` and `release` by a log statement or `println!`
(`acquire_and_header`, export/mod.rs:211-216, log.rs:55-62): index of the statement, timestamp,
arguments. `ts` is the `timestamp!` of the program evaluated now, if there is one. -/
def encodeLog (index : Nat) (ts : Option Call) (c : Call) : Option (List UInt8) :=
  match ts with
  | none => c.encode.map (fun d => le 2 index ++ d)
  | some ts =>
    match ts.encode, c.encode with
    | some a, some b => some (le 2 index ++ a ++ b)
    | _, _ => none

end Encoder
end Defmt
