import Verif.Model.Encoder
import Verif.Spec.Parser
/-!
# What logging means

`denote*`: the argument tree the host must show for a logged value, read off the value itself.
`*Ok`: the conditions that rustc's type checker and the linker establish: integers fit their type,
lengths match, every interned string is found in the table under its address, and the format string
of an interned type is the one the value uses.
-/

namespace Defmt.Encoder

open Parser Decoder

/-- The format string of a manual `Format` implementation (defmt/src/traits.rs:45-48). -/
def sequenceFormat : List Char := c!"{=__internal_FormatSequence}"

/-- `|` separated variants. -/
def joinVariants : List (List Char) → List Char
  | [] => []
  | [v] => v
  | v :: w :: vs => v ++ '|' :: joinVariants (w :: vs)

/-- The format string of a value's type. -/
def formatString : Val → List Char
  | .formatted _ fmt _ => fmt
  | .variant _ variants _ _ => joinVariants variants
  | .manual _ _ => sequenceFormat
  | _ => []

/-- The width of the integer for a bitfield on the wire: the smallest integer type with room for all octets from
the one with bit `start` to the one with bit `stop - 1`. -/
def wireOctets (start stop : Nat) : Option Nat :=
  [1, 2, 4, 8, 16].find? (fun size => decide ((stop - 1) / 8 < start / 8 + size))

/-- The bits of a bitfield argument that are transmitted: the octets `start / 8 ..= (stop - 1) / 8`
(possibly some more). -/
def bitfieldValue (start stop n : Nat) : Nat :=
  match wireOctets start stop with
  | none => 0
  | some d => n / 2 ^ (8 * (start / 8)) % 2 ^ (8 * d) * 2 ^ (8 * (start / 8)) % 2 ^ 128

/-- The argument the host must decode for value `v` used as parameter of type `ty`; `nested` is the
meaning of `v` as nested format. -/
def denoteArg (ty : Ty) (v : Val) (nested : Arg) : Arg :=
  match ty, v with
  | .bitField s e, .uint _ n => .uxx (bitfieldValue s e n)
  | _, .uint _ n => .uxx n
  | _, .sint _ i => .ixx i
  | _, .usize n => .uxx n
  | _, .isize i => .ixx i
  | _, .f32 b => .f32 b
  | _, .f64 b => .f64 b
  | _, .bool b => .bool b
  | _, .char c => .char c
  | _, .str s => .str s
  | _, .istr _ s => .istr s
  | _, .bytes bs => .slice bs
  | _, .text s => .preformatted s
  | _, _ => nested

mutual

/-- A value with a `Format` implementation (or a slice of them) as seen by the host. -/
def denote : Val → Arg
  | .formatted _ fmt args =>
    .format fmt (match argTypes fmt args.length with
      | none => []
      | some tys => denoteArgs tys args)
  | .variant _ variants idx args =>
    match variants[idx]? with
    | none => .format [] []
    | some fmt =>
      .format fmt (match argTypes fmt args.length with
        | none => []
        | some tys => denoteArgs tys args)
  | .manual _ writes => .format sequenceFormat [.formatSequence (denoteAll writes)]
  | .slice _ _ elems => .formatSlice (denoteAll elems)
  | _ => .format [] []

/-- Arguments, one for each argument type. -/
def denoteArgs : List Ty → List Val → List Arg
  | ty :: tys, v :: vs => denoteArg ty v (denote v) :: denoteArgs tys vs
  | _, _ => []

/-- A list of values with `Format` implementation. -/
def denoteAll : List Val → List Arg
  | [] => []
  | v :: vs => denote v :: denoteAll vs

end

/-- The string `s` is interned at `address`, and is not a log statement. -/
def Linked (t : Table) (address : Nat) (s : List Char) : Prop :=
  address < 2 ^ 16 ∧ t.getWithoutLevel address = some s

/-- `v` is a value of a type with a `Format` implementation whose format string is `s` at address
`tag`. -/
def HasFormat (tag : Nat) (s : List Char) (v : Val) : Prop :=
  tagOf v = some tag ∧ formatString v = s

/-- `v` is a legal argument for a parameter of type `ty`. `nested`: the nested value is fine. -/
def ArgOk (t : Table) (ty : Ty) (v : Val) (nested : Prop) : Prop :=
  match ty, v with
  | .u8, .uint 1 n => n < 2 ^ 8
  | .u16, .uint 2 n => n < 2 ^ 16
  | .u32, .uint 4 n => n < 2 ^ 32
  | .u64, .uint 8 n => n < 2 ^ 64
  | .u128, .uint 16 n => n < 2 ^ 128
  | .i8, .sint 1 i => -2 ^ 7 ≤ i ∧ i < 2 ^ 7
  | .i16, .sint 2 i => -2 ^ 15 ≤ i ∧ i < 2 ^ 15
  | .i32, .sint 4 i => -2 ^ 31 ≤ i ∧ i < 2 ^ 31
  | .i64, .sint 8 i => -2 ^ 63 ≤ i ∧ i < 2 ^ 63
  | .i128, .sint 16 i => -2 ^ 127 ≤ i ∧ i < 2 ^ 127
  -- pointers have 32 bits (or the value happens to fit), see C20
  | .usize, .usize n => n < 2 ^ 32
  | .isize, .isize i => -2 ^ 31 ≤ i ∧ i < 2 ^ 31
  | .f32, .f32 b => b < 2 ^ 32
  | .f64, .f64 b => b < 2 ^ 64
  | .bool, .bool _ => True
  | .char, .char _ => True
  | .str, .str s => (utf8 s).length < 2 ^ 32
  | .istr, .istr a s => Linked t a s
  | .u8Slice, .bytes bs => bs.length < 2 ^ 32
  | .u8Array n, .bytes bs => bs.length = n
  | .debug, .text _ => True
  | .display, .text _ => True
  | .bitField s e, .uint size n =>
    n < 2 ^ (8 * size) ∧ ∃ d, wireOctets s e = some d ∧ d ≤ size ∧ s / 8 < size
  | .format, v => nested ∧ ∃ tag s, HasFormat tag s v ∧ Linked t tag s
  | .formatSlice, .slice tag s elems =>
    nested ∧ elems.length < 2 ^ 32 ∧ Linked t tag s ∧ ∀ v ∈ elems, HasFormat tag s v
  | .formatArray n, .slice tag s elems =>
    nested ∧ elems.length = n ∧ n < 2 ^ 32 ∧ Linked t tag s ∧ ∀ v ∈ elems, HasFormat tag s v
  | _, _ => False

mutual

/-- `v` can be formatted as a nested value. -/
def ValOk (t : Table) : Val → Prop
  | .formatted _ fmt args =>
    '|' ∉ fmt ∧ ∃ tys, argTypes fmt args.length = some tys ∧ ArgsOk t tys args
  | .variant _ variants idx args =>
    -- at least two variants, whose names and fields contain no `|`, and not one of the numbers of
    -- variants for which the two sides use different discriminant sizes (see C24)
    2 ≤ variants.length ∧ (∀ v ∈ variants, '|' ∉ v) ∧
    variants.length ∉ [2 ^ 8, 2 ^ 16, 2 ^ 32] ∧ variants.length < 2 ^ 64 ∧
    ∃ fmt, variants[idx]? = some fmt ∧
      ∃ tys, argTypes fmt args.length = some tys ∧ ArgsOk t tys args
  | .manual _ writes => WritesOk t writes
  | .slice _ _ elems => ElemsOk t elems
  | _ => False

/-- The arguments of a macro call. -/
def ArgsOk (t : Table) : List Ty → List Val → Prop
  | [], [] => True
  | ty :: tys, v :: vs => ArgOk t ty v (ValOk t v) ∧ ArgsOk t tys vs
  | _, _ => False

/-- The `write!` calls of a manual implementation; here the format string may contain `|`. Address 0
is never used (defmt.x.in). -/
def WritesOk (t : Table) : List Val → Prop
  | [] => True
  | v :: vs =>
    (match v with
      | .formatted tag fmt args =>
        tag ≠ 0 ∧ Linked t tag fmt ∧ ∃ tys, argTypes fmt args.length = some tys ∧ ArgsOk t tys args
      | _ => False) ∧ WritesOk t vs

/-- Slice elements. -/
def ElemsOk (t : Table) : List Val → Prop
  | [] => True
  | v :: vs => ValOk t v ∧ ElemsOk t vs

end

/-- The call type checks and everything it mentions is linked. -/
def Call.Ok (t : Table) (c : Call) : Prop :=
  ∃ tys, argTypes c.fmt c.args.length = some tys ∧ ArgsOk t tys c.args

/-- The arguments of a call as seen by the host. -/
def Call.denote (c : Call) : List Arg :=
  match argTypes c.fmt c.args.length with
  | none => []
  | some tys => denoteArgs tys c.args

end Defmt.Encoder

namespace Defmt.Encoder

open Parser Decoder

/-- One executed log statement (or `println!`): its index and tag, the timestamp evaluated for it
(if the program has a `timestamp!`), format string and arguments. -/
structure LogEvent where
  index : Nat
  tag : Tag
  ts : Option Call
  call : Call

/-- The statement and the timestamp type check and the table describes the program. -/
def LogEvent.Ok (t : Table) (e : LogEvent) : Prop :=
  e.index < 2 ^ 16 ∧ t.entries e.index = some ⟨e.tag, e.call.fmt⟩ ∧ e.call.Ok t ∧
  match e.ts, t.timestamp with
  | none, none => True
  | some c, some entry => entry.string = c.fmt ∧ c.Ok t
  | _, _ => False

/-- The frame the host must recover. -/
def LogEvent.frame (e : LogEvent) : Frame where
  level := e.tag.toLevel
  index := e.index
  timestampFormat := e.ts.map Call.fmt
  timestampArgs := match e.ts with
    | none => []
    | some c => c.denote
  format := e.call.fmt
  args := e.call.denote

/-- What the target writes. -/
def LogEvent.bytes (e : LogEvent) : Option (List UInt8) := encodeLog e.index e.ts e.call

/-- The format string with a single parameter of type `ty`. -/
def oneParam (ty : Ty) : List Char := '{' :: '=' :: renderTy 0 ty ++ ['}']

/-- `sent` are the bytes that a program with the table `t` sends for the timestamp `ts`: none without
`timestamp!`. -/
def Stamped (t : Table) : Option Call → List UInt8 → Prop
  | none, sent => t.timestamp = none ∧ sent = []
  | some c, sent => (∃ tag, t.timestamp = some ⟨tag, c.fmt⟩) ∧ c.Ok t ∧ c.encode = some sent

/-- The arguments of the timestamp. -/
def stampArgs : Option Call → List Arg
  | none => []
  | some c => c.denote

/-- Logging `v` with `"{=ty}"` sends some bytes that decode to the argument `a`, whatever follows; with or
without a timestamp. -/
def Shows (t : Table) (ty : Ty) (v : Val) (a : Arg) : Prop :=
  ∀ tag index ts sent, index < 2 ^ 16 → Stamped t ts sent → t.entries index = some ⟨tag, oneParam ty⟩ →
    ∃ bytes, encodeLog index ts ⟨oneParam ty, [v]⟩ = some bytes ∧ ∀ rest,
      t.decode (bytes ++ rest) =
        some (.ok ({ level := tag.toLevel, index, timestampFormat := ts.map Call.fmt, timestampArgs := stampArgs ts,
                     format := oneParam ty, args := [a] }, bytes.length))

end Defmt.Encoder
