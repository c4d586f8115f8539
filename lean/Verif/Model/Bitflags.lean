import Verif.Model.Elf
/-!
# The `bitflags!` macro

Models `expand` and `codegen_flag_statics` (macros/src/items/bitflags.rs:13-98): the format string and the statics
with the values of the flags. The parser of the input of the macro (items/bitflags/input.rs) and the type itself
(crate `bitflags`) are not modelled.
-/

namespace Defmt.Bitflags

open Parser Symbol

/-- A flag: its name, its value, and whether its `#[cfg]` attributes are met. -/
structure Flag where
  name : List Char
  value : Nat
  enabled : Bool
deriving DecidableEq, Repr

/-- The input of the macro and its environment (`cargo::package_name()`, `cargo::crate_name()`,
`construct::crate_local_disambiguator()`). `ty` is the type as written. -/
structure Definition where
  name : List Char
  ty : List Char
  flags : List Flag
  package : List Char
  crateName : List Char
  disambiguator : Nat
deriving DecidableEq, Repr

/-- The format string (macros/src/items/bitflags.rs:19-26). -/
def Definition.formatString (d : Definition) : List Char :=
  c!"{=" ++ d.ty ++ c!":__internal_bitflags_" ++ d.name ++ c!"@" ++ d.package ++ c!"@" ++
    Display.digits 10 d.disambiguator ++ c!"@" ++ d.crateName ++ c!"}"

/-- The symbol of the format string (macros/src/items/bitflags.rs:27-33, construct.rs:83-99). -/
def Definition.formatSymbol (d : Definition) : MacroSymbol :=
  .new d.package d.crateName d.disambiguator c!"bitflags" d.formatString

/-- The symbol of the flag with number `i` (macros/src/items/bitflags.rs:77-80). -/
def Definition.flagSymbol (d : Definition) (i : Nat) (flag : List Char) : MacroSymbol :=
  .new d.package d.crateName d.disambiguator c!"bitflags_value"
    (d.name ++ c!"::" ++ Display.digits 10 i ++ c!"::" ++ flag)

/-- `input.flags().enumerate()` without the flags the compiler removes because of `#[cfg]`
(macros/src/items/bitflags.rs:70-82); `i` is the number of the first flag. -/
def enabledFlags (i : Nat) : List Flag → List (Nat × Flag)
  | [] => []
  | f :: rest => if f.enabled then (i, f) :: enabledFlags (i + 1) rest else enabledFlags (i + 1) rest

def Definition.enabled (d : Definition) : List (Nat × Flag) := enabledFlags 0 d.flags

end Defmt.Bitflags
