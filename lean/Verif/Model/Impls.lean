import Verif.Model.Encoder
/-!
# The provided `Format` implementations

Models `defmt/src/impls/` (primitives.rs, arrays.rs, tuples.rs, alloc_.rs, adapter.rs, core_/*.rs) with
the default methods of `defmt/src/traits.rs:46-60`: for every value of a provided type the format
string of its type (`_format_tag`) and the bytes written by `_format_data` and `format`.

`Value` is a value as far as its `Format` implementation can see it. Types with their own `format`
method get the other two methods from the trait ("manual" below); types that use `default_format!`
(impls/mod.rs:1-9) implement the other two. `addr s` is the address of the interned string `s`
(`internp!`, `write!`). `none` is a panic.

Simplified: the alternatives of a generic type parameter are not tracked, a list of elements carries
the `_format_tag()` of its element type.
-/

namespace Defmt.Impls

open Parser Decoder Encoder

/-- Values of the types in primitives.rs:23-40, and the adapters `Debug2Format`, `Display2Format`
(adapter.rs:33-43, 77-87) as the text `core::fmt` produces. -/
inductive Prim where
  | i8 (i : Int) | i16 (i : Int) | i32 (i : Int) | i64 (i : Int) | i128 (i : Int) | isize (i : Int)
  | u8 (n : Nat) | u16 (n : Nat) | u32 (n : Nat) | u64 (n : Nat) | u128 (n : Nat) | usize (n : Nat)
  | f32 (bits : Nat) | f64 (bits : Nat)
  | str (s : List Char) | bool (b : Bool) | istr (s : List Char) | char (c : Char)
  | debug (s : List Char) | display (s : List Char)
deriving Repr, DecidableEq

/-- `_format_tag` (primitives.rs:23-40, adapter.rs:36-38, 80-82). -/
def Prim.fmt : Prim → List Char
  | .i8 _ => c!"{=i8}"
  | .i16 _ => c!"{=i16}"
  | .i32 _ => c!"{=i32}"
  | .i64 _ => c!"{=i64}"
  | .i128 _ => c!"{=i128}"
  | .isize _ => c!"{=isize}"
  | .u8 _ => c!"{=u8}"
  | .u16 _ => c!"{=u16}"
  | .u32 _ => c!"{=u32}"
  | .u64 _ => c!"{=u64}"
  | .u128 _ => c!"{=u128}"
  | .usize _ => c!"{=usize}"
  | .f32 _ => c!"{=f32}"
  | .f64 _ => c!"{=f64}"
  | .str _ => c!"{=str}"
  | .bool _ => c!"{=bool}"
  | .istr _ => c!"{=istr}"
  | .char _ => c!"{=char}"
  | .debug _ => c!"{=__internal_Debug}"
  | .display _ => c!"{=__internal_Display}"

/-- `_format_data` (primitives.rs:23-40, adapter.rs:40-42, 84-86): the export functions of
`export/mod.rs:155-232` and `export/integers.rs`. -/
def Prim.write (addr : List Char → Nat) : Prim → List UInt8
  | .i8 i => leInt 1 i
  | .i16 i => leInt 2 i
  | .i32 i => leInt 4 i
  | .i64 i => leInt 8 i
  | .i128 i => leInt 16 i
  | .isize i => leInt 4 i
  | .u8 n => le 1 n
  | .u16 n => le 2 n
  | .u32 n => le 4 n
  | .u64 n => le 8 n
  | .u128 n => le 16 n
  | .usize n => le 4 n
  | .f32 b => le 4 b
  | .f64 b => le 8 b
  | .str s => le 4 (utf8 s).length ++ utf8 s
  | .bool b => le 1 (if b then 1 else 0)
  | .istr s => le 2 (addr s)
  | .char c => le 4 c.toNat
  | .debug s => utf8 s ++ [0xff]
  | .display s => utf8 s ++ [0xff]

/-- The types whose `format` is one `write!` with values of arbitrary types as arguments. -/
inductive Kind where
  | range | rangeFrom | rangeFull | rangeInclusive | rangeTo | rangeToInclusive
  | cell | borrowError | borrowMutError
  | layout | tryFromSliceError | tryFromIntError | zip | chunksExact | windows
  | ipv4Addr | socketAddrV4 | socketAddrV6 | ipAddr | socketAddr | addrParseError
  | nonNull | fnPointer
  | panicInfo | panicInfoUnlocated
deriving Repr, DecidableEq

/-- The format string of that `write!` (core_/ops.rs:8, 17, 23, 32, 41, 50; cell.rs:8, 38, 44;
alloc_.rs:9; array.rs:7; num.rs:30; core_/mod.rs:118; slice.rs:8, 30; net.rs:7, 14, 20, 52, 59-60,
68-69; ptr.rs:5, 14-47; panic.rs:8, 10). -/
def Kind.fmt : Kind → List Char
  | .range => c!"{}..{}"
  | .rangeFrom => c!"{}.."
  | .rangeFull => c!".."
  | .rangeInclusive => c!"{}..={}"
  | .rangeTo => c!"..{}"
  | .rangeToInclusive => c!"..={}"
  | .cell => c!"Cell {{ value: {=?} }})"
  | .borrowError => c!"BorrowError"
  | .borrowMutError => c!"BorrowMutError"
  | .layout => c!"Layout {{ size: {}, align: {} }}"
  | .tryFromSliceError => c!"TryFromSliceError(())"
  | .tryFromIntError => c!"TryFromIntError(())"
  | .zip => c!"Zip(..)"
  | .chunksExact => c!"ChunksExact(..)"
  | .windows => c!"Windows(..)"
  | .ipv4Addr => c!"{}.{}.{}.{}"
  | .socketAddrV4 => c!"{}:{}"
  | .socketAddrV6 => c!"[{}]:{}"
  | .ipAddr => c!"{}"
  | .socketAddr => c!"{}"
  | .addrParseError => c!"AddrParseError(_)"
  | .nonNull => c!"{}"
  | .fnPointer => c!"{}"
  | .panicInfo => c!"panicked at {}"
  | .panicInfoUnlocated => c!"panicked"

/-- A value of a provided type. -/
inductive Value where
  | prim (p : Prim)
  /-- `()` and `PhantomData` -/
  | unit
  | phantom
  | tuple (vs : List Value)
  | none
  | some (v : Value)
  | err (v : Value)
  | ok (v : Value)
  /-- `RefCell`: mutably borrowed, or with readable content -/
  | borrowed
  | refCell (v : Value)
  /-- `[T]`, `Vec<T>`, `Cow<[T]>`; `tag` is `T::_format_tag()`, `none` if that panics (`Infallible`) -/
  | slice (tag : Option (List Char)) (vs : List Value)
  /-- `[T; N]` -/
  | array (tag : Option (List Char)) (vs : List Value)
  /-- `&T`, `&mut T`, `Box<T>`, `Rc<T>`, `Arc<T>` -/
  | reference (v : Value)
  | nonZero (p : Prim)
  | duration (secs nanos : Nat)
  | location (file : List Char) (line column : Nat)
  | ipv6 (octets : List UInt8)
  /-- raw pointers, as address -/
  | pointer (address : Nat)
  /-- `core::slice::Iter` -/
  | iter (tag : Option (List Char)) (vs : List Value)
  /-- a type whose `format` is `write!(f, kind.fmt, vs...)` -/
  | written (kind : Kind) (vs : List Value)
  /-- a user's type whose `format(&self, f)` is `self.0.format(f)` (book/src/format.md, "Newtypes") -/
  | newtype (v : Value)
deriving Repr

/-- The lengths and format strings of arrays.rs:33-100. -/
def arrayTable : List (Nat × List Char) :=
  [(0, c!"{=[?;0]}"), (1, c!"{=[?;1]}"), (2, c!"{=[?;2]}"), (3, c!"{=[?;3]}"), (4, c!"{=[?;4]}"),
   (5, c!"{=[?;5]}"), (6, c!"{=[?;6]}"), (7, c!"{=[?;7]}"), (8, c!"{=[?;8]}"), (9, c!"{=[?;9]}"),
   (10, c!"{=[?;10]}"), (11, c!"{=[?;11]}"), (12, c!"{=[?;12]}"), (13, c!"{=[?;13]}"), (14, c!"{=[?;14]}"),
   (15, c!"{=[?;15]}"), (16, c!"{=[?;16]}"), (17, c!"{=[?;17]}"), (18, c!"{=[?;18]}"), (19, c!"{=[?;19]}"),
   (20, c!"{=[?;20]}"), (21, c!"{=[?;21]}"), (22, c!"{=[?;22]}"), (23, c!"{=[?;23]}"), (24, c!"{=[?;24]}"),
   (25, c!"{=[?;25]}"), (26, c!"{=[?;26]}"), (27, c!"{=[?;27]}"), (28, c!"{=[?;28]}"), (29, c!"{=[?;29]}"),
   (30, c!"{=[?;30]}"), (31, c!"{=[?;31]}"), (32, c!"{=[?;32]}"), (64, c!"{=[?;64]}"), (128, c!"{=[?;128]}"),
   (256, c!"{=[?;256]}"), (512, c!"{=[?;512]}"), (1024, c!"{=[?;1024]}"), (2048, c!"{=[?;2048]}"), (4096, c!"{=[?;4096]}"),
   (8192, c!"{=[?;8192]}"), (16384, c!"{=[?;16384]}"), (32768, c!"{=[?;32768]}"), (65536, c!"{=[?;65536]}"), (131072, c!"{=[?;131072]}"),
   (262144, c!"{=[?;262144]}"), (524288, c!"{=[?;524288]}"), (1048576, c!"{=[?;1048576]}"), (2097152, c!"{=[?;2097152]}"), (4194304, c!"{=[?;4194304]}"),
   (8388608, c!"{=[?;8388608]}"), (16777216, c!"{=[?;16777216]}"), (33554432, c!"{=[?;33554432]}"), (67108864, c!"{=[?;67108864]}"), (134217728, c!"{=[?;134217728]}"),
   (268435456, c!"{=[?;268435456]}"), (536870912, c!"{=[?;536870912]}"), (1073741824, c!"{=[?;1073741824]}"), (100, c!"{=[?;100]}"), (1000, c!"{=[?;1000]}"),
   (10000, c!"{=[?;10000]}"), (100000, c!"{=[?;100000]}"), (1000000, c!"{=[?;1000000]}"), (10000000, c!"{=[?;10000000]}"), (100000000, c!"{=[?;100000000]}"),
   (1000000000, c!"{=[?;1000000000]}")]

/-- The format strings of tuples.rs:44-55. -/
def tupleTable : List (List Char) :=
  [c!"({=?})",
   c!"({=?}, {=?})",
   c!"({=?}, {=?}, {=?})",
   c!"({=?}, {=?}, {=?}, {=?})",
   c!"({=?}, {=?}, {=?}, {=?}, {=?})",
   c!"({=?}, {=?}, {=?}, {=?}, {=?}, {=?})",
   c!"({=?}, {=?}, {=?}, {=?}, {=?}, {=?}, {=?})",
   c!"({=?}, {=?}, {=?}, {=?}, {=?}, {=?}, {=?}, {=?})",
   c!"({=?}, {=?}, {=?}, {=?}, {=?}, {=?}, {=?}, {=?}, {=?})",
   c!"({=?}, {=?}, {=?}, {=?}, {=?}, {=?}, {=?}, {=?}, {=?}, {=?})",
   c!"({=?}, {=?}, {=?}, {=?}, {=?}, {=?}, {=?}, {=?}, {=?}, {=?}, {=?})",
   c!"({=?}, {=?}, {=?}, {=?}, {=?}, {=?}, {=?}, {=?}, {=?}, {=?}, {=?}, {=?})"]

/-- `_format_tag` of `[T; N]` (arrays.rs:12-20). -/
def arrayFmt (n : Nat) : List Char := (arrayTable.lookup n).getD c!"{=[?]}"

/-- `_format_tag` of a tuple (tuples.rs:21-24). -/
def tupleFmt (n : Nat) : List Char := (tupleTable[n - 1]?).getD []

/-- `_format_tag` of types that implement only `format` (traits.rs:50-53). -/
def manualFmt : List Char := c!"{=__internal_FormatSequence}"

/-- `Ipv6Addr` (net.rs:29) -/
def ipv6Fmt : List Char :=
  c!"{:02x}{:02x}:{:02x}{:02x}:{:02x}{:02x}:{:02x}{:02x}:{:02x}{:02x}:{:02x}{:02x}:{:02x}{:02x}:{:02x}{:02x}"

/-- raw pointers (primitives.rs:81) -/
def pointerFmt : List Char := c!"0x{:x}"

/-- `Duration` (core_/mod.rs:105) -/
def durationFmt : List Char := c!"Duration {{ secs: {=u64}, nanos: {=u32} }}"

/-- `Location` (panic.rs:21) -/
def locationFmt : List Char := c!"{=str}:{=u32}:{=u32}"

/-- `core::slice::Iter` (slice.rs:19) -/
def iterFmt : List Char := c!"Iter {{ slice: {=[?]}, position: ? }}"

/-- `T::_format_tag()` where `T` is the type of the value (core_/mod.rs:29-31, 53-55, 79-81, cell.rs:19-21,
tuples.rs:8-10, 22-24, primitives.rs:49-51, arrays.rs:13-20, impls/mod.rs:19-21). -/
def Value.tag : Value → List Char
  | .prim p => p.fmt
  | .unit => c!"()"
  | .phantom => c!"PhantomData"
  | .tuple vs => tupleFmt vs.length
  | .none => c!"None|Some({=?})"
  | .some _ => c!"None|Some({=?})"
  | .err _ => c!"Err({=?})|Ok({=?})"
  | .ok _ => c!"Err({=?})|Ok({=?})"
  | .borrowed => c!"RefCell {{ value: <borrowed> }}|RefCell {{ value: {=?} }}"
  | .refCell _ => c!"RefCell {{ value: <borrowed> }}|RefCell {{ value: {=?} }}"
  | .slice _ _ => c!"{=[?]}"
  | .array _ vs => arrayFmt vs.length
  | .reference v => v.tag
  | _ => manualFmt

/-- Does the type implement only `format`? -/
def Value.isManual : Value → Bool
  | .nonZero _ | .duration _ _ | .location _ _ _ | .ipv6 _ | .pointer _ | .iter _ _ | .written _ _ | .newtype _ => true
  | .reference v => v.isManual
  | _ => false

/-- `_format_data` of a value, from what `core` gives (traits.rs:55-59: terminator after `format`). -/
def dataOf (v : Value) (c : List UInt8) : List UInt8 := if v.isManual then c ++ le 2 0 else c

/-- `format` of a value, from what `core` gives (impls/mod.rs:4-7: tag before `_format_data`). -/
def formatOf (addr : List Char → Nat) (v : Value) (c : List UInt8) : List UInt8 :=
  if v.isManual then c else le 2 (addr v.tag) ++ c

/-- `export::fmt` of a value (export/mod.rs:143-146); also the pair `istr`, `_format_data` in the
implementations. -/
def fmtOf (addr : List Char → Nat) (v : Value) (c : List UInt8) : List UInt8 := le 2 (addr v.tag) ++ dataOf v c

/-- `export::fmt_slice` (export/mod.rs:149-155) from the data of the elements. -/
def fmtSlice (addr : List Char → Nat) (tag : Option (List Char)) (len : Nat) (elems : Option (List UInt8)) :
    Option (List UInt8) :=
  match tag, elems with
  | some t, some d => some (le 4 len ++ le 2 (addr t) ++ d)
  | _, _ => none

/-- `export::fmt_array` (export/mod.rs:187-192) from the data of the elements. -/
def fmtArray (addr : List Char → Nat) (tag : Option (List Char)) (elems : Option (List UInt8)) : Option (List UInt8) :=
  match tag, elems with
  | some t, some d => some (le 2 (addr t) ++ d)
  | _, _ => none

/-- an unsigned 8 bit or pointer sized argument given to `{}` -/
def primArg (addr : List Char → Nat) (p : Prim) : List UInt8 := le 2 (addr p.fmt) ++ p.write addr

mutual

/-- The bytes of `_format_data` for types with `default_format!`, the bytes of `format` for types that
implement only that. -/
def core (addr : List Char → Nat) : Value → Option (List UInt8)
  -- primitives.rs:15-18
  | .prim p => some (p.write addr)
  -- tuples.rs:12-13, 28-34, core_/mod.rs:83-84
  | .unit => some []
  | .phantom => some []
  | .tuple vs => coreArgs addr vs
  -- core_/mod.rs:34-43, 59-72, cell.rs:24-33
  | .none => some (le 1 0)
  | .some v => (core addr v).map (fun c => le 1 1 ++ fmtOf addr v c)
  | .err v => (core addr v).map (fun c => le 1 0 ++ fmtOf addr v c)
  | .ok v => (core addr v).map (fun c => le 1 1 ++ fmtOf addr v c)
  | .borrowed => some (le 1 0)
  | .refCell v => (core addr v).map (fun c => le 1 1 ++ fmtOf addr v c)
  -- primitives.rs:54-56
  | .slice tag vs => fmtSlice addr tag vs.length (coreElems addr vs)
  -- arrays.rs:23-28
  | .array tag vs =>
    if vs.length ∈ arrayTable.map Prod.fst then fmtArray addr tag (coreElems addr vs)
    else fmtSlice addr tag vs.length (coreElems addr vs)
  -- impls/mod.rs:14-16, 24-26
  | .reference v => core addr v
  -- num.rs:8-10
  | .nonZero p => some (le 2 (addr p.fmt) ++ p.write addr)
  -- core_/mod.rs:102-109
  | .duration s n => some (le 2 (addr durationFmt) ++ (Prim.u64 s).write addr ++ (Prim.u32 n).write addr)
  -- panic.rs:18-26
  | .location f l c =>
    some (le 2 (addr locationFmt) ++ (Prim.str f).write addr ++ (Prim.u32 l).write addr ++ (Prim.u32 c).write addr)
  -- net.rs:25-47
  | .ipv6 octets => some (le 2 (addr ipv6Fmt) ++ (octets.map (fun o => primArg addr (.u8 o.toNat))).flatten)
  -- primitives.rs:80-82, 89-91
  | .pointer a => some (le 2 (addr pointerFmt) ++ primArg addr (.usize a))
  -- slice.rs:16-22
  | .iter tag vs => (fmtSlice addr tag vs.length (coreElems addr vs)).map (fun d => le 2 (addr iterFmt) ++ d)
  -- see `Kind`
  | .written k vs => (coreArgs addr vs).map (fun d => le 2 (addr k.fmt) ++ d)
  | .newtype v => (core addr v).map (formatOf addr v)

/-- arguments, each with its tag -/
def coreArgs (addr : List Char → Nat) : List Value → Option (List UInt8)
  | [] => some []
  | v :: vs =>
    match core addr v, coreArgs addr vs with
    | some a, some b => some (fmtOf addr v a ++ b)
    | _, _ => none

/-- elements of a slice, without tags -/
def coreElems (addr : List Char → Nat) : List Value → Option (List UInt8)
  | [] => some []
  | v :: vs =>
    match core addr v, coreElems addr vs with
    | some a, some b => some (dataOf v a ++ b)
    | _, _ => none

end

/-- The bytes of an argument `{}` (or `{:?}`): tag and data of the value (export/mod.rs:143-146). -/
def encode (addr : List Char → Nat) (v : Value) : Option (List UInt8) := (core addr v).map (fmtOf addr v)

end Defmt.Impls
