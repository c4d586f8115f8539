import Verif.Model.Impls
import Verif.Model.Frame
import Verif.Spec.Encoder
import Verif.Spec.Frame
/-!
# What the provided `Format` implementations should show

`Value.text`: the text of a value, given the texts of the primitive values in it. It is the text Rust's
`Debug` gives for most of the types (a tuple with one component is shown without comma; `Duration` and
IPv6 addresses have their own form; some types hide their content).
`Value.Ok`: what rustc guarantees about a value. `Value.uses`: the strings which have to be interned.
-/

namespace Defmt.Impls

open Parser Decoder Encoder Display

/-- two hexadecimal digits -/
def hexByte (b : UInt8) : List Char :=
  let digit := fun n => (c!"0123456789abcdef")[n]?.getD '?'
  [digit (b.toNat / 16), digit (b.toNat % 16)]

/-- eight groups of two bytes -/
def ipv6Text : List UInt8 → List Char
  | a :: b :: c :: rest => hexByte a ++ hexByte b ++ ':' :: ipv6Text (c :: rest)
  | bs => (bs.map hexByte).flatten

/-- The text of a value of a type with its own `format`, from the texts of its parts. `cell` is put after the
text of a `Cell`: nothing in the text that is right, see C81. -/
def Kind.text (cell : List Char) : Kind → List (List Char) → List Char
  | .range, [a, b] => a ++ c!".." ++ b
  | .rangeFrom, [a] => a ++ c!".."
  | .rangeFull, [] => c!".."
  | .rangeInclusive, [a, b] => a ++ c!"..=" ++ b
  | .rangeTo, [b] => c!".." ++ b
  | .rangeToInclusive, [b] => c!"..=" ++ b
  | .cell, [a] => c!"Cell { value: " ++ a ++ c!" }" ++ cell
  | .borrowError, [] => c!"BorrowError"
  | .borrowMutError, [] => c!"BorrowMutError"
  | .layout, [a, b] => c!"Layout { size: " ++ a ++ c!", align: " ++ b ++ c!" }"
  | .tryFromSliceError, [] => c!"TryFromSliceError(())"
  | .tryFromIntError, [] => c!"TryFromIntError(())"
  | .zip, [] => c!"Zip(..)"
  | .chunksExact, [] => c!"ChunksExact(..)"
  | .windows, [] => c!"Windows(..)"
  | .ipv4Addr, [a, b, c, d] => a ++ '.' :: b ++ '.' :: c ++ '.' :: d
  | .socketAddrV4, [ip, port] => ip ++ ':' :: port
  | .socketAddrV6, [ip, port] => '[' :: ip ++ c!"]:" ++ port
  | .ipAddr, [a] => a
  | .socketAddr, [a] => a
  | .addrParseError, [] => c!"AddrParseError(_)"
  | .nonNull, [a] => a
  | .fnPointer, [a] => a
  | .panicInfo, [a] => c!"panicked at " ++ a
  | .panicInfoUnlocated, [] => c!"panicked"
  | _, _ => []

/-- The number of parts. -/
def Kind.arity : Kind → Nat
  | .range | .rangeInclusive | .layout | .socketAddrV4 | .socketAddrV6 => 2
  | .rangeFrom | .rangeTo | .rangeToInclusive | .cell | .ipAddr | .socketAddr | .nonNull | .fnPointer | .panicInfo => 1
  | .ipv4Addr => 4
  | _ => 0

mutual

/-- The text of a value, if `leaf` gives the texts of the primitive values in it; `cell` is put after the text
of each `Cell`. -/
def Value.text (cell : List Char) (leaf : Prim → Option (List Char)) : Value → Option (List Char)
  | .prim p => leaf p
  | .unit => some c!"()"
  | .phantom => some c!"PhantomData"
  | .tuple vs => (texts cell leaf vs).map (fun ss => '(' :: separated c!", " ss ++ [')'])
  | .none => some c!"None"
  | .some v => (v.text cell leaf).map (fun s => c!"Some(" ++ s ++ c!")")
  | .err v => (v.text cell leaf).map (fun s => c!"Err(" ++ s ++ c!")")
  | .ok v => (v.text cell leaf).map (fun s => c!"Ok(" ++ s ++ c!")")
  | .borrowed => some c!"RefCell { value: <borrowed> }"
  | .refCell v => (v.text cell leaf).map (fun s => c!"RefCell { value: " ++ s ++ c!" }")
  | .slice _ vs => (texts cell leaf vs).map (fun ss => '[' :: separated c!", " ss ++ [']'])
  | .array _ vs => (texts cell leaf vs).map (fun ss => '[' :: separated c!", " ss ++ [']'])
  | .reference v => v.text cell leaf
  | .nonZero p => leaf p
  | .duration s n =>
    match leaf (.u64 s), leaf (.u32 n) with
    | some s, some n => some (c!"Duration { secs: " ++ s ++ c!", nanos: " ++ n ++ c!" }")
    | _, _ => none
  | .location f l c =>
    match leaf (.str f), leaf (.u32 l), leaf (.u32 c) with
    | some f, some l, some c => some (f ++ ':' :: l ++ ':' :: c)
    | _, _, _ => none
  | .ipv6 octets => some (ipv6Text octets)
  | .pointer a => some (c!"0x" ++ Nat.toDigits 16 a)
  | .iter _ vs =>
    (texts cell leaf vs).map (fun ss => c!"Iter { slice: [" ++ separated c!", " ss ++ c!"], position: ? }")
  | .written k vs => (texts cell leaf vs).map (k.text cell)
  | .newtype v => v.text cell leaf

/-- the texts of all values -/
def texts (cell : List Char) (leaf : Prim → Option (List Char)) : List Value → Option (List (List Char))
  | [] => some []
  | v :: vs =>
    match v.text cell leaf, texts cell leaf vs with
    | some a, some b => some (a :: b)
    | _, _ => none

end

/-- The type of the parameter for a primitive value, `{=u8}` for a `u8`. -/
def Prim.ty : Prim → Ty
  | .i8 _ => .i8 | .i16 _ => .i16 | .i32 _ => .i32 | .i64 _ => .i64 | .i128 _ => .i128 | .isize _ => .isize
  | .u8 _ => .u8 | .u16 _ => .u16 | .u32 _ => .u32 | .u64 _ => .u64 | .u128 _ => .u128 | .usize _ => .usize
  | .f32 _ => .f32 | .f64 _ => .f64 | .str _ => .str | .bool _ => .bool | .istr _ => .istr | .char _ => .char
  | .debug _ => .debug | .display _ => .display

/-- The argument the host has for it. -/
def Prim.arg : Prim → Arg
  | .i8 i | .i16 i | .i32 i | .i64 i | .i128 i | .isize i => .ixx i
  | .u8 n | .u16 n | .u32 n | .u64 n | .u128 n | .usize n => .uxx n
  | .f32 b => .f32 b | .f64 b => .f64 b | .str s => .str s | .bool b => .bool b | .istr s => .istr s
  | .char c => .char c | .debug s => .preformatted s | .display s => .preformatted s

/-- The text of a primitive value logged alone with a hint, `{=u8:#x}` or `{=str:?}`. -/
def Prim.alone (env : Env) (hint : Option Hint) (p : Prim) : Option (List Char) := showArg env p.arg ⟨0, p.ty, hint⟩ none

/-- Decimal with sign. -/
def intText (i : Int) : List Char := if i < 0 then '-' :: Nat.toDigits 10 i.natAbs else Nat.toDigits 10 i.natAbs

/-- The text of a primitive value; `quote` is applied to strings. How floats are written is a parameter
of the model. -/
def Prim.text (env : Env) (quote : List Char → List Char) : Prim → List Char
  | .i8 i | .i16 i | .i32 i | .i64 i | .i128 i | .isize i => intText i
  | .u8 n | .u16 n | .u32 n | .u64 n | .u128 n | .usize n => Nat.toDigits 10 n
  | .f32 b => env.f32 b
  | .f64 b => env.f64 b
  | .str s | .istr s | .debug s | .display s => quote s
  | .bool b => if b then c!"true" else c!"false"
  | .char c => [c]

/-- The value fits its type. (`usize` and `isize` must fit in 32 bits, see C20.) -/
def Prim.Ok : Prim → Prop
  | .i8 i => -2 ^ 7 ≤ i ∧ i < 2 ^ 7
  | .i16 i => -2 ^ 15 ≤ i ∧ i < 2 ^ 15
  | .i32 i => -2 ^ 31 ≤ i ∧ i < 2 ^ 31
  | .i64 i => -2 ^ 63 ≤ i ∧ i < 2 ^ 63
  | .i128 i => -2 ^ 127 ≤ i ∧ i < 2 ^ 127
  | .isize i => -2 ^ 31 ≤ i ∧ i < 2 ^ 31
  | .u8 n => n < 2 ^ 8
  | .u16 n => n < 2 ^ 16
  | .u32 n => n < 2 ^ 32
  | .u64 n => n < 2 ^ 64
  | .u128 n => n < 2 ^ 128
  | .usize n => n < 2 ^ 32
  | .f32 b => b < 2 ^ 32
  | .f64 b => b < 2 ^ 64
  | .str s => (utf8 s).length < 2 ^ 32
  | _ => True

mutual

/-- What rustc guarantees: numbers fit their types, elements of a slice have the same type, tuples have
1 to 12 components. Not allowed here: element types whose format string cannot be asked for (C83), a
newtype that delegates to an enum (C82). -/
def Value.Ok : Value → Prop
  | .prim p => p.Ok
  | .tuple vs => 1 ≤ vs.length ∧ vs.length ≤ 12 ∧ AllOk vs
  | .some v | .err v | .ok v | .refCell v | .reference v => v.Ok
  | .slice tag vs => (∃ t, tag = some t ∧ ∀ v ∈ vs, v.tag = t) ∧ vs.length < 2 ^ 32 ∧ AllOk vs
  | .array tag vs => (∃ t, tag = some t ∧ ∀ v ∈ vs, v.tag = t) ∧ vs.length < 2 ^ 32 ∧ AllOk vs
  | .iter tag vs => (∃ t, tag = some t ∧ ∀ v ∈ vs, v.tag = t) ∧ vs.length < 2 ^ 32 ∧ AllOk vs
  | .nonZero p => p.Ok
  | .duration s n => s < 2 ^ 64 ∧ n < 2 ^ 32
  | .location f l c => (utf8 f).length < 2 ^ 32 ∧ l < 2 ^ 32 ∧ c < 2 ^ 32
  | .ipv6 octets => octets.length = 16
  | .pointer a => a < 2 ^ 32
  | .written k vs => vs.length = k.arity ∧ AllOk vs
  | .newtype v => '|' ∉ v.tag ∧ v.Ok
  | _ => True

/-- all values -/
def AllOk : List Value → Prop
  | [] => True
  | v :: vs => v.Ok ∧ AllOk vs

end

/-- A `Cell` itself. -/
def Kind.cells : Kind → Nat
  | .cell => 1
  | _ => 0

mutual

/-- How many values of type `Cell` there are in the value. -/
def Value.cells : Value → Nat
  | .tuple vs | .slice _ vs | .array _ vs | .iter _ vs => allCells vs
  | .some v | .err v | .ok v | .refCell v | .reference v | .newtype v => v.cells
  | .written k vs => k.cells + allCells vs
  | _ => 0

/-- in all values -/
def allCells : List Value → Nat
  | [] => 0
  | v :: vs => v.cells + allCells vs

end

/-- The strings a primitive value makes the program intern. -/
def Prim.uses (p : Prim) : List (List Char) :=
  p.fmt :: (match p with
    | .istr s => [s]
    | _ => [])

mutual

/-- The strings the program interns for a value: the format string of its type, those of its parts, and
those of `write!` calls. -/
def Value.uses : Value → List (List Char)
  | .prim p => p.uses
  | .tuple vs => tupleFmt vs.length :: allUses vs
  | .some v => (Value.some v).tag :: v.uses
  | .err v => (Value.err v).tag :: v.uses
  | .ok v => (Value.ok v).tag :: v.uses
  | .refCell v => (Value.refCell v).tag :: v.uses
  | .slice tag vs => c!"{=[?]}" :: tag.toList ++ allUses vs
  | .array tag vs => arrayFmt vs.length :: tag.toList ++ allUses vs
  | .reference v => v.uses
  | .nonZero p => manualFmt :: p.uses
  | .duration _ _ => [manualFmt, durationFmt]
  | .location _ _ _ => [manualFmt, locationFmt]
  | .ipv6 _ => [manualFmt, ipv6Fmt, c!"{=u8}"]
  | .pointer _ => [manualFmt, pointerFmt, c!"{=usize}"]
  | .iter tag vs => manualFmt :: iterFmt :: tag.toList ++ allUses vs
  | .written k vs => manualFmt :: k.fmt :: allUses vs
  | .newtype v => manualFmt :: v.uses
  | .unit => [c!"()"]
  | .phantom => [c!"PhantomData"]
  | .none => [Value.none.tag]
  | .borrowed => [Value.borrowed.tag]

/-- all values -/
def allUses : List Value → List (List Char)
  | [] => []
  | v :: vs => v.uses ++ allUses vs

end

mutual

/-- Somewhere in the value there is a slice, an array or a slice iterator over `Infallible` (which is
then empty). -/
def Value.OverInfallible : Value → Prop
  | .slice tag vs | .array tag vs | .iter tag vs => tag = none ∨ AnyOverInfallible vs
  | .tuple vs | .written _ vs => AnyOverInfallible vs
  | .some v | .err v | .ok v | .refCell v | .reference v | .newtype v => v.OverInfallible
  | _ => False

/-- in one of the values -/
def AnyOverInfallible : List Value → Prop
  | [] => False
  | v :: vs => v.OverInfallible ∨ AnyOverInfallible vs

end

/-- The linker has put the string `s` at address `addr s` of the table; address 0 is never used
(defmt.x.in). -/
def Interned (t : Table) (addr : List Char → Nat) (s : List Char) : Prop := addr s ≠ 0 ∧ Linked t (addr s) s

end Defmt.Impls
