import Verif.Model.Encoder
/-!
# `#[derive(Format)]`

Models `macros/src/derives/format.rs`, `macros/src/derives/format/codegen.rs`,
`macros/src/derives/format/codegen/enum_data.rs` and `.../fields.rs`: from the definition of a struct
or enum, the interned format string and the statements of `_format_data`, and what these statements
write.

Not modelled here: generics and where clauses (see `DeriveGenerics.lean`), the attribute
`#[defmt(crate = ...)]` (it only changes the path of the calls), spans and texts of compile errors.
-/

namespace Defmt.Derive

open Parser Decoder Encoder

/-- `syn::Type` as far as `as_native_type` looks at it (fields.rs:154-169): a path that is a single
identifier without arguments, a reference, anything else. -/
inductive FieldTy where
  | ident (name : List Char)
  | reference (elem : FieldTy)
  | other
deriving Repr

/-- The names listed in `as_native_type` (fields.rs:160-162). -/
def nativeNames : List (List Char) :=
  [c!"u8", c!"u16", c!"u32", c!"u64", c!"u128", c!"usize", c!"i8", c!"i16", c!"i32", c!"i64",
   c!"i128", c!"isize", c!"f32", c!"f64", c!"bool", c!"str"]

/-- `as_native_type` (fields.rs:154-169). -/
def asNativeType : FieldTy → Option (List Char)
  | .ident name => if name ∈ nativeNames then some name else none
  | .reference elem => asNativeType elem
  | .other => none

/-- `FormatOption` (fields.rs:94-98). -/
inductive FormatOption where
  | debug2Format
  | display2Format
deriving DecidableEq, Repr

/-- `attr.parse_nested_meta(..)` (fields.rs:117-131): the last one given counts; the outer `none` is
a compile error. -/
def parseNestedMeta (parsed : Option FormatOption) : List (List Char) → Option (Option FormatOption)
  | [] => some parsed
  | name :: rest =>
    if name = c!"Debug2Format" then parseNestedMeta (some .debug2Format) rest
    else if name = c!"Display2Format" then parseNestedMeta (some .display2Format) rest
    else none

/-- `get_defmt_format_option` (fields.rs:103-145): `attrs` are the arguments of the `#[defmt(..)]`
attributes of the field, attribute by attribute. The outer `none` is a compile error. -/
def getFormatOption (option : Option FormatOption) :
    List (List (List Char)) → Option (Option FormatOption)
  | [] => some option
  | attr :: rest =>
    if option.isSome then none
    else
      match parseNestedMeta none attr with
      | none => none
      | some none => none
      | some (some o) => getFormatOption (some o) rest

/-- A field (`syn::Field`): name (`Ident::to_string`, so with the `r#` of a raw identifier; `None` in a tuple), type, arguments of its `defmt` attributes. -/
structure Field where
  name : List Char
  ty : FieldTy
  attrs : List (List (List Char))
deriving Repr

/-- `syn::Fields`; the names of unnamed fields are not used. -/
inductive Fields where
  | named (fields : List Field)
  | unnamed (fields : List Field)
  | unit
deriving Repr

/-- A generated statement (fields.rs:53-66). -/
inductive Stmt where
  /-- `export::fmt(&Debug2Format(&field))` -/
  | debug2Format
  /-- `export::fmt(&Display2Format(&field))` -/
  | display2Format
  /-- `export::fmt(field)` -/
  | fmt
  /-- `export::u8(field)` and so on -/
  | native (method : List Char)
deriving DecidableEq, Repr

/-- The type part of the parameter of a field (fields.rs:42-47). -/
def fieldTy (f : Field) : List Char :=
  match asNativeType f.ty with
  | some ty => ty
  | none => c!"?"

/-- The statement of a field (fields.rs:53-66); `none` is a compile error. -/
def fieldStmt (f : Field) : Option Stmt :=
  match getFormatOption none f.attrs with
  | none => none
  | some (some .debug2Format) => some .debug2Format
  | some (some .display2Format) => some .display2Format
  | some none => if fieldTy f = c!"?" then some .fmt else some (.native (fieldTy f))

/-- What is pushed to the format string for a field (fields.rs:71-82). -/
def fieldText (named : Bool) (f : Field) : List Char :=
  if named then f.name ++ c!": {=" ++ fieldTy f ++ c!":?}" else c!"{=" ++ fieldTy f ++ c!"}"

/-- The loop over the fields (fields.rs:31-83): the pushed text and the statements. -/
def fieldLoop (named isFirst : Bool) : List Field → Option (List Char × List Stmt)
  | [] => some ([], [])
  | f :: rest =>
    match fieldStmt f, fieldLoop named false rest with
    | some stmt, some (text, stmts) =>
      some ((if isFirst then [] else c!", ") ++ fieldText named f ++ text, stmt :: stmts)
    | _, _ => none

/-- `fields::codegen` (fields.rs:9-92): what is pushed to the format string, and the statements. -/
def codegen : Fields → Option (List Char × List Stmt)
  | .unit => some ([], [])
  | .named [] => some ([], [])
  | .unnamed [] => some ([], [])
  | .named fields =>
    (fieldLoop true true fields).map (fun r => (c!" {{ " ++ r.1 ++ c!" }}", r.2))
  | .unnamed fields =>
    (fieldLoop false true fields).map (fun r => (c!"(" ++ r.1 ++ c!")", r.2))

/-- A variant (`syn::Variant`). -/
structure Variant where
  name : List Char
  fields : Fields
deriving Repr

/-- The definition of a type. -/
inductive Def where
  | struct (name : List Char) (fields : Fields)
  | enum (variants : List Variant)
deriving Repr

/-- The discriminant statement of an arm (`DiscriminantEncoder::encode`, enum_data.rs:103-127):
`index as uN` in the width of the encoder. -/
def discriminantStmt (numVariants index : Nat) : Option (List UInt8) :=
  (discriminantBytes numVariants).map (fun size => le size index)

/-- An arm of the match over `self`: constant bytes of the discriminant, statements. -/
structure Arm where
  discriminant : List UInt8
  stmts : List Stmt
deriving Repr

/-- The loop over the variants (enum_data.rs:30-58); `index` is the index of the first one. -/
def variantLoop (numVariants index : Nat) (isFirst : Bool) : List Variant → Option (List Char × List Arm)
  | [] => some ([], [])
  | v :: rest =>
    match codegen v.fields, discriminantStmt numVariants index,
        variantLoop numVariants (index + 1) false rest with
    | some (text, stmts), some d, some (texts, arms) =>
      some ((if isFirst then [] else ['|']) ++ v.name ++ text ++ texts, ⟨d, stmts⟩ :: arms)
    | _, _, _ => none

/-- `encode_struct_data` (codegen.rs:18-46), `enum_data::encode` (enum_data.rs:10-71): the interned
format string and the arms of the match (a struct has one); `none` is a compile error. -/
def expand : Def → Option (List Char × List Arm)
  | .struct name fields => (codegen fields).map (fun r => (name ++ r.1, [⟨[], r.2⟩]))
  | .enum [] => some (c!"!", [])
  | .enum variants => variantLoop variants.length 0 true variants

/-! ## Running the statements -/

/-- The value of a field: as a value of a native type or with its `Format` implementation, and what
its `core::fmt::Debug` and `core::fmt::Display` implementations write (irrelevant if unused). -/
structure FieldVal where
  val : Val
  debug : List Char
  display : List Char

/-- Addresses of the interned strings `{=__internal_Debug}` and `{=__internal_Display}` of the wrappers
(defmt/src/impls/adapter.rs:36-38, 80-82). -/
structure Wrappers where
  debugTag : Nat
  displayTag : Nat

/-- `Debug2Format(&field)` as a value (impls/adapter.rs:33-43). -/
def debug2Format (w : Wrappers) (x : FieldVal) : Val :=
  .formatted w.debugTag c!"{=__internal_Debug}" [.text x.debug]

/-- `Display2Format(&field)` as a value (impls/adapter.rs:77-87). -/
def display2Format (w : Wrappers) (x : FieldVal) : Val :=
  .formatted w.displayTag c!"{=__internal_Display}" [.text x.display]

/-- The parameter type with the name of an export function (defmt/src/export/integers.rs:8-74,
export/mod.rs:68-120: the functions named after the native types). -/
def methodTy (name : List Char) : Option Ty :=
  [(c!"u8", Ty.u8), (c!"u16", .u16), (c!"u32", .u32), (c!"u64", .u64), (c!"u128", .u128),
   (c!"usize", .usize), (c!"i8", .i8), (c!"i16", .i16), (c!"i32", .i32), (c!"i64", .i64),
   (c!"i128", .i128), (c!"isize", .isize), (c!"f32", .f32), (c!"f64", .f64), (c!"bool", .bool),
   (c!"str", .str)].lookup name

/-- What a statement writes; `none`: the statement does not type check. -/
def runStmt (w : Wrappers) (s : Stmt) (x : FieldVal) : Option (List UInt8) :=
  match s with
  | .debug2Format => encodeArg .format (debug2Format w x) (formatData (debug2Format w x))
  | .display2Format => encodeArg .format (display2Format w x) (formatData (display2Format w x))
  | .fmt => encodeArg .format x.val (formatData x.val)
  | .native method =>
    match methodTy method with
    | none => none
    | some ty => encodeArg ty x.val none

/-- The statements one after the other, one for each field. -/
def runStmts (w : Wrappers) : List Stmt → List FieldVal → Option (List UInt8)
  | [], [] => some []
  | s :: ss, x :: xs =>
    match runStmt w s x, runStmts w ss xs with
    | some a, some b => some (a ++ b)
    | _, _ => none
  | _, _ => none

/-- `_format_data` of a value of the type whose variant is `idx` (0 for a struct) with the given
fields (codegen.rs:34-38, enum_data.rs:50-63). -/
def derivedData (w : Wrappers) (d : Def) (idx : Nat) (xs : List FieldVal) : Option (List UInt8) :=
  match expand d with
  | none => none
  | some (_, arms) =>
    match arms[idx]? with
    | none => none
    | some arm => (runStmts w arm.stmts xs).map (fun b => arm.discriminant ++ b)

end Defmt.Derive
