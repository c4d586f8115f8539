import Verif.Model.Parser
/-!
# The attribute macros

Models `#[global_logger]` (macros/src/attributes/global_logger.rs), `#[panic_handler]` (macros/src/attributes/panic_handler.rs) and the
attribute `#[defmt(crate = ..)]` of the derive macro (macros/src/derives/format.rs:63-83): which items they accept and what becomes of
the item.

The items are `syn`'s syntax trees (`ItemFn`, `ItemStruct`); that `syn` parses the text into them is trusted, and an item that it does not
parse is not one here. Pieces the macros only copy (types, parameters, bodies) are lists of tokens. Texts and spans of the error
messages are left out.
-/

namespace Defmt.Attributes

open Parser

abbrev Tok := List Char
abbrev Toks := List Tok

/-- `syn::Attribute`, after the macro's own one. -/
inductive Attr where
  /-- `#[a::b rest]` -/
  | plain (path : List Tok) (rest : Toks)
  /-- `#[unsafe(attr)]` -/
  | unsafely (attr : Attr)
  /-- `#[cfg_attr(condition, attr)]`, with whether the condition holds; as the compiler hands the item to the macro if it is written after it -/
  | cfgAttr (holds : Bool) (attr : Attr)
deriving Repr, DecidableEq

/-- `Attribute::path()`: the segments. -/
def Attr.path : Attr → List Tok
  | .plain path _ => path
  | .unsafely _ => [c!"unsafe"]
  | .cfgAttr .. => [c!"cfg_attr"]

/-- `Path::get_ident` and `Ident::to_string`: only a path of one segment. -/
def getIdent : List Tok → Option Tok
  | [s] => some s
  | _ => none

/-- `syn::Visibility` as tokens; none if inherited. -/
abbrev Vis := Toks

/-- `syn::ReturnType` -/
inductive Output where
  | default
  | never
  | type (ty : Toks)
deriving Repr, DecidableEq

/-- `syn::Generics`: whether `<` and `>` are written, the parameters, the predicates after `where`. -/
structure Generics where
  angles : Bool
  params : List Toks
  whereClause : Option (List Toks)
deriving Repr, DecidableEq

/-- `syn::Signature` -/
structure Sig where
  constness : Bool
  asyncness : Bool
  unsafety : Bool
  /-- `extern` with or without a string -/
  abi : Option (Option Tok)
  ident : Tok
  generics : Generics
  inputs : List Toks
  variadic : Bool
  output : Output
deriving Repr, DecidableEq

/-- `syn::ItemFn` -/
structure ItemFn where
  attrs : List Attr
  vis : Vis
  sig : Sig
  /-- the tokens between the braces -/
  block : Toks
deriving Repr, DecidableEq

/-- `syn::Fields` -/
inductive Fields where
  | unit
  | named (fields : List Toks)
  | unnamed (fields : List Toks)
deriving Repr, DecidableEq

/-- `syn::ItemStruct` -/
structure ItemStruct where
  attrs : List Attr
  vis : Vis
  ident : Tok
  generics : Generics
  fields : Fields
deriving Repr, DecidableEq

inductive Error where
  /-- "attribute takes no arguments" -/
  | arguments
  /-- "struct must be a non-generic unit struct" -/
  | notUnit
  /-- "function must have signature `fn() -> !`" -/
  | signature
  /-- "`#[panic_handler]` attribute cannot be used together with `#[..]`" -/
  | conflict (ident : Tok)
deriving Repr, DecidableEq

/-- `validate` (global_logger.rs:18-31) -/
def validateStruct (s : ItemStruct) : Except Error Unit :=
  let isUnitStruct := match s.fields with | .unit => true | _ => false
  if !s.generics.params.isEmpty || s.generics.whereClause.isSome || !isUnitStruct then .error .notUnit
  else .ok ()

/-- What `#[global_logger]` leaves in the place of the struct (global_logger.rs:33-66): the struct, and the functions with their symbol (`#[no_mangle]`) and
the method of `Logger` of the type that they call. -/
structure LoggerItems where
  strukt : ItemStruct
  functions : List (Tok × Tok × Tok)
deriving Repr, DecidableEq

/-- `codegen` (global_logger.rs:33-66) -/
def codegenStruct (s : ItemStruct) : LoggerItems where
  strukt := { attrs := s.attrs, vis := s.vis, ident := s.ident, generics := ⟨false, [], none⟩, fields := .unit }
  functions := [(c!"_defmt_acquire", s.ident, c!"acquire"), (c!"_defmt_flush", s.ident, c!"flush"),
    (c!"_defmt_release", s.ident, c!"release"), (c!"_defmt_write", s.ident, c!"write")]

/-- `expand` (global_logger.rs:6-16) -/
def globalLogger (args : Toks) (s : ItemStruct) : Except Error LoggerItems :=
  if !args.isEmpty then .error .arguments
  else
    match validateStruct s with
    | .error e => .error e
    | .ok () => .ok (codegenStruct s)

/-- `check_for_attribute_conflicts` (panic_handler.rs:43-62) -/
def checkForAttributeConflicts (rejectList : List Tok) : List Attr → Except Error Unit
  | [] => .ok ()
  | attr :: rest =>
    match getIdent attr.path with
    | some ident => if ident ∈ rejectList then .error (.conflict ident) else checkForAttributeConflicts rejectList rest
    | none => checkForAttributeConflicts rejectList rest

/-- `validate` (panic_handler.rs:18-38) -/
def validateFn (f : ItemFn) : Except Error Unit :=
  let isDivergent := match f.sig.output with
    | .default => false
    | .never => true
    | .type _ => false
  if f.sig.constness || f.sig.asyncness || f.sig.unsafety || f.sig.abi.isSome || !f.sig.generics.params.isEmpty
      || f.sig.generics.whereClause.isSome || f.sig.variadic || !f.sig.inputs.isEmpty || !isDivergent then
    .error .signature
  else checkForAttributeConflicts [c!"export_name", c!"no_mangle"] f.attrs

/-- `codegen` (panic_handler.rs:64-79): the visibility is not copied, and the block is put into another one. -/
def codegenFn (f : ItemFn) : ItemFn where
  attrs := f.attrs ++ [.plain [c!"export_name"] [c!"=", c!"\"_defmt_panic\""], .plain [c!"inline"] [c!"(", c!"never", c!")"]]
  vis := []
  sig := ⟨false, false, false, none, f.sig.ident, ⟨false, [], none⟩, [], false, .never⟩
  block := [c!"{"] ++ f.block ++ [c!"}"]

/-- `expand` (panic_handler.rs:6-16) -/
def panicHandler (args : Toks) (f : ItemFn) : Except Error ItemFn :=
  if !args.isEmpty then .error .arguments
  else
    match validateFn f with
    | .error e => .error e
    | .ok () => .ok (codegenFn f)

/-- One entry of `#[defmt(..)]` at a type: its path, and what follows it up to the next comma. -/
structure Meta where
  path : List Tok
  /-- the tokens after the path -/
  rest : Toks
deriving Repr, DecidableEq

/-- A `#[defmt ..]` attribute at a type: without parentheses, or with its entries. `parse_nested_meta` refuses the first kind. -/
inductive DefmtAttr where
  | bare
  | list (entries : List Meta)
deriving Repr, DecidableEq

/-- The closure of `defmt_crate_path` (format.rs:69-79): the new value of `defmt_path`; `none` is a compile error. `parsePath` is
`syn::Path`'s parser on the tokens up to the next comma (more tokens than a path are an error in `parse_nested_meta`). -/
def crateMeta (parsePath : Toks → Option (List Tok)) (entry : Meta) : Option (List Tok) :=
  if (getIdent entry.path).any (· == c!"crate") then
    match entry.rest with
    | eq :: path => if eq = c!"=" then parsePath path else none
    | [] => none
  else none

/-- `Attribute::parse_nested_meta` with this closure. -/
def crateMetas (parsePath : Toks → Option (List Tok)) (defmtPath : List Tok) : List Meta → Option (List Tok)
  | [] => some defmtPath
  | entry :: rest =>
    match crateMeta parsePath entry with
    | none => none
    | some path => crateMetas parsePath path rest

/-- The `try_for_each` of `defmt_crate_path` (format.rs:65-82) over the attributes named `defmt`. -/
def crateAttrs (parsePath : Toks → Option (List Tok)) (defmtPath : List Tok) : List DefmtAttr → Option (List Tok)
  | [] => some defmtPath
  | .bare :: _ => none
  | .list entries :: rest =>
    match crateMetas parsePath defmtPath entries with
    | none => none
    | some path => crateAttrs parsePath path rest

/-- `defmt_crate_path` (format.rs:63-83) -/
def defmtCratePath (parsePath : Toks → Option (List Tok)) (attrs : List DefmtAttr) : Option (List Tok) :=
  crateAttrs parsePath [c!"defmt"] attrs

end Defmt.Attributes
