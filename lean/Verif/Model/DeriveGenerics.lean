import Verif.Model.Derive
/-!
# The where clause of `#[derive(Format)]`

Models the parts of `macros/src/derives/format.rs`, `macros/src/derives/format/codegen.rs`,
`.../enum_data.rs` and `.../fields.rs` that decide for which instances of a generic type the derived
implementation exists: the predicates collected field by field and the header of the `impl`.

Rust types are written as names, applications and references; lifetimes and constants are left out, and
so are the spans and the texts of the compile errors.
-/

namespace Defmt.Derive

open Parser Decoder Encoder

/-- A Rust type (`syn::Type`). A path with arguments is a name applied to them one by one; tuples,
arrays, slices and pointers are applications of their constructor. A type parameter is a name. -/
inductive RTy where
  | name (n : List Char)
  | app (f a : RTy)
  | ref (t : RTy)
deriving DecidableEq, Repr

/-- What `as_native_type` sees of a type (fields.rs:154-169): `get_ident` gives an identifier only for a
path without arguments. -/
def RTy.toFieldTy : RTy → FieldTy
  | .name n => .ident n
  | .app _ _ => .other
  | .ref t => .reference t.toFieldTy

/-- A trait in a predicate: `defmt::Format`, `core::fmt::Debug`, `core::fmt::Display`, or another one
written by the user. -/
inductive Bound where
  | format
  | debug
  | display
  | other (n : List Char)
deriving DecidableEq, Repr

/-- `ty: bound` (`syn::WherePredicate`). -/
abbrev Pred := RTy × Bound

/-- A field with its full type. -/
structure GField where
  name : List Char
  ty : RTy
  attrs : List (List (List Char))
deriving Repr

/-- The field as the other parts of the macro see it. -/
def GField.toField (f : GField) : Field := ⟨f.name, f.ty.toFieldTy, f.attrs⟩

/-- `syn::Fields`. -/
inductive GFields where
  | named (fields : List GField)
  | unnamed (fields : List GField)
  | unit
deriving Repr

def GFields.toFields : GFields → Fields
  | .named fs => .named (fs.map GField.toField)
  | .unnamed fs => .unnamed (fs.map GField.toField)
  | .unit => .unit

/-- `syn::Variant`. -/
structure GVariant where
  name : List Char
  fields : GFields
deriving Repr

/-- `syn::Data`, without unions (format.rs:27: a compile error). -/
inductive Body where
  | struct (fields : GFields)
  | enum (variants : List GVariant)
deriving Repr

/-- The item with the attribute `#[derive(Format)]` (`syn::DeriveInput`, format.rs:10-16): name, type
parameters, the user's bounds (those at the parameters and those of the where clause), fields. -/
structure DeriveInput where
  name : List Char
  params : List (List Char)
  wheres : List Pred
  body : Body
deriving Repr

/-- The item as the other parts of the macro see it. -/
def DeriveInput.toDef (d : DeriveInput) : Def :=
  match d.body with
  | .struct fields => .struct d.name fields.toFields
  | .enum variants => .enum (variants.map (fun v => ⟨v.name, v.fields.toFields⟩))

/-- The predicate of a field (fields.rs:40-70): `bound` by the option, `None` if the type is native.
The outer `none` is a compile error. -/
def fieldPredicate (f : GField) : Option (Option Pred) :=
  match getFormatOption none f.attrs with
  | none => none
  | some o =>
    match asNativeType f.ty.toFieldTy with
    | some _ => some none
    | none =>
      match o with
      | some .debug2Format => some (some (f.ty, .debug))
      | some .display2Format => some (some (f.ty, .display))
      | none => some (some (f.ty, .format))

/-- `where_predicates` of the loop over the fields (fields.rs:31-83). -/
def fieldPredicates : List GField → Option (List Pred)
  | [] => some []
  | f :: rest =>
    match fieldPredicate f, fieldPredicates rest with
    | some (some p), some ps => some (p :: ps)
    | some none, some ps => some ps
    | _, _ => none

/-- `where_predicates` of `fields::codegen` (fields.rs:9-92). -/
def GFields.predicates : GFields → Option (List Pred)
  | .named fs | .unnamed fs => fieldPredicates fs
  | .unit => some []

/-- `where_predicates.extend(..)` over the variants (enum_data.rs:30-47). -/
def variantPredicates : List GVariant → Option (List Pred)
  | [] => some []
  | v :: rest =>
    match v.fields.predicates, variantPredicates rest with
    | some ps, some qs => some (ps ++ qs)
    | _, _ => none

/-- `Vec::dedup_by(|a, b| a == b)` (enum_data.rs:64) after an element `last` that is kept: an element
equal to the one kept before it is dropped. -/
def dedupFrom (last : Pred) : List Pred → List Pred
  | [] => []
  | p :: ps => if p = last then dedupFrom last ps else p :: dedupFrom p ps

/-- `Vec::dedup_by(|a, b| a == b)` (enum_data.rs:64). -/
def dedup : List Pred → List Pred
  | [] => []
  | p :: ps => p :: dedupFrom p ps

/-- `EncodeData::where_predicates` (codegen.rs:27-45, enum_data.rs:15-21, 64-70). -/
def Body.predicates : Body → Option (List Pred)
  | .struct fields => fields.predicates
  | .enum [] => some []
  | .enum variants => (variantPredicates variants).map dedup

/-- `impl<params> bound for self where preds`. -/
structure Impl where
  params : List (List Char)
  self : RTy
  bound : Bound
  preds : List Pred
deriving Repr

/-- `#ident #type_generics` (format.rs:52): the name applied to the parameters. -/
def selfTy (name : List Char) (params : List (List Char)) : RTy :=
  params.foldl (fun t p => .app t (.name p)) (.name name)

/-- `Generics::codegen` and the header of the `impl` (codegen.rs:54-71, format.rs:42-52): the predicates
of the fields are appended to the user's. `none` is a compile error. -/
def derivedImpl (d : DeriveInput) : Option Impl :=
  match expand d.toDef, d.body.predicates with
  | some _, some ps => some ⟨d.params, selfTy d.name d.params, .format, d.wheres ++ ps⟩
  | _, _ => none

end Defmt.Derive
