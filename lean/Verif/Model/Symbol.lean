import Verif.Model.Json
/-!
# Symbol names

Models `macros/src/construct/symbol.rs` (how the macros make the name of a symbol) and
`decoder/src/elf2table/symbol.rs` (how the decoder reads it).

The decoder reads the name with `serde_json` and `#[derive(Deserialize)]`, see `Model/Json.lean`. Simplification: the values of members that are not
known must be valid here (`serde_json` skips over them, also over strings with half a surrogate pair).
-/

namespace Defmt.Symbol

open Parser

/-- `struct Symbol` (macros/src/construct/symbol.rs:9-40). `package`, `crateName` and `disambiguator` come from the
environment of the macro; the disambiguator is a `u64`. -/
structure MacroSymbol where
  package : List Char
  tag : List Char
  data : List Char
  disambiguator : Nat
  crateName : List Char
deriving DecidableEq, Repr

/-- `Symbol::new` (macros/src/construct/symbol.rs:43-52). -/
def MacroSymbol.new (package crateName : List Char) (disambiguator : Nat) (tag data : List Char) : MacroSymbol where
  package := package
  tag := c!"defmt_" ++ tag
  data := data
  disambiguator := disambiguator
  crateName := crateName

/-- One round of the loop of `json_escape` (macros/src/construct/symbol.rs:69-75). -/
def escapeChar (c : Char) : List Char :=
  if c = '\\' then c!"\\\\"
  else if c = '"' then c!"\\\""
  else if c = '\n' then c!"\\n"
  else if isControl c || c = '@' then unicodeEscape c
  else [c]

/-- `json_escape` (macros/src/construct/symbol.rs:66-78). -/
def jsonEscape : List Char → List Char
  | [] => []
  | c :: rest => escapeChar c ++ jsonEscape rest

/-- `Symbol::mangle` (macros/src/construct/symbol.rs:54-63). -/
def MacroSymbol.mangle (s : MacroSymbol) : List Char :=
  c!"{\"package\":\"" ++ jsonEscape s.package ++ c!"\",\"tag\":\"" ++ jsonEscape s.tag ++
  c!"\",\"data\":\"" ++ jsonEscape s.data ++ c!"\",\"disambiguator\":\"" ++ Display.digits 10 s.disambiguator ++
  c!"\",\"crate_name\":\"" ++ jsonEscape s.crateName ++ c!"\"}"

/-! ### reading -/

/-- `struct Symbol` of the decoder (decoder/src/elf2table/symbol.rs:5-30). -/
structure HostSymbol where
  package : List Char
  disambiguator : List Char
  tag : List Char
  data : List Char
  crateName : Option (List Char)
deriving DecidableEq, Repr

/-- `Symbol::demangle` (decoder/src/elf2table/symbol.rs:41-44). The derived `Deserialize` also reads an array with the fields in the order of the
declaration. -/
def demangle (raw : List Char) : Option HostSymbol :=
  match Json.read raw with
  | some (.obj members) =>
    match Json.required members c!"package" Json.getString, Json.required members c!"disambiguator" Json.getString,
        Json.required members c!"tag" Json.getString, Json.required members c!"data" Json.getString,
        Json.optionalField members c!"crate_name" Json.getString with
    | some package, some disambiguator, some tag, some data, some crateName => some { package, disambiguator, tag, data, crateName }
    | _, _, _, _, _ => none
  | some (.arr [.str package, .str disambiguator, .str tag, .str data, crateName]) =>
    match crateName with
    | .null => some { package, disambiguator, tag, data, crateName := none }
    | .str crateName => some { package, disambiguator, tag, data, crateName := some crateName }
    | _ => none
  | _ => none

/-- `Symbol::tag` (decoder/src/elf2table/symbol.rs:46-63). `none` is `SymbolTag::Custom`. -/
def HostSymbol.knownTag (s : HostSymbol) : Option Tag :=
  [(c!"defmt_prim", Tag.prim), (c!"defmt_derived", .derived), (c!"defmt_bitflags", .bitflags), (c!"defmt_write", .write),
   (c!"defmt_timestamp", .timestamp), (c!"defmt_bitflags_value", .bitflagsValue), (c!"defmt_str", .str),
   (c!"defmt_println", .println), (c!"defmt_trace", .trace), (c!"defmt_debug", .debug), (c!"defmt_info", .info),
   (c!"defmt_warn", .warn), (c!"defmt_error", .error)].lookup s.tag

end Defmt.Symbol
