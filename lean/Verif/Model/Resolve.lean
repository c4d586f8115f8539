import Verif.Model.Linker
/-!
# How the linker connects the parts of defmt

The crate `defmt` calls the logger, the timestamp function and the panic handler through symbols that other crates define
(defmt/src/export/mod.rs:46-135, defmt/src/lib.rs:380-419). Models what `#[global_logger]` (macros/src/attributes/global_logger.rs:33-66),
`#[panic_handler]` (macros/src/attributes/panic_handler.rs:64-79) and `timestamp!` (macros/src/items/timestamp.rs:34-57) define, the
first lines of the linker script (defmt/defmt.x.in:1-7) and what the build script does to it (defmt/build.rs:7-9, 41-43).

The linker is not part of the repository. Modelled is what its documentation says: an object file that is named on the command line is
linked; one in an archive (a library crate) is linked if it defines a symbol that is undefined so far, in whatever order the
archives are searched; `EXTERN` makes a symbol undefined; `PROVIDE` defines a symbol as another one if it is used and not
defined; it is an error if a symbol is defined twice, or if code that stays in the program uses a symbol that is not defined. Checking
the arguments and signatures of the attributes is not modelled; the parts below are those that were accepted.
-/

namespace Defmt.Resolve

open Parser

abbrev Name := List Char

/-- What is in an object file, as far as it concerns these symbols. -/
inductive Thing where
  /-- a type with `#[global_logger]` -/
  | logger (type : List Char)
  /-- a function with `#[defmt::panic_handler]` -/
  | panicHandler (function : List Char)
  /-- `timestamp!` -/
  | timestamp (package crateName : List Char) (disambiguator : Nat) (string : List Char)
  /-- the root of the crate `defmt`, with the defaults and `flush` -/
  | defmt
  /-- a log statement -/
  | logs
  /-- the end of `defmt::panic!`, `defmt::assert!` and so on -/
  | panics
  /-- anything else -/
  | other (defines needs : List Name)
deriving DecidableEq, Repr

/-- The symbols it defines: global_logger.rs:42-63, panic_handler.rs:71, timestamp.rs:36 and 55, defmt/src/lib.rs:380-386. (The interned strings
are in `Model/Linker`.) -/
def Thing.defines : Thing → List Name
  | .logger _ => [c!"_defmt_acquire", c!"_defmt_flush", c!"_defmt_release", c!"_defmt_write"]
  | .panicHandler _ => [c!"_defmt_panic"]
  | .timestamp .. => [c!"_defmt_timestamp", c!"__DEFMT_MARKER_TIMESTAMP_WAS_DEFINED"]
  | .defmt => [c!"__defmt_default_timestamp", c!"__defmt_default_panic"]
  | .logs | .panics => []
  | .other defines _ => defines

/-- The symbols it refers to: `export::{acquire, release, write, timestamp}` (export/mod.rs:51-99), called by every log statement
(macros/src/function_like/log.rs:78-85), `export::panic` (export/mod.rs:129-134), `flush` (defmt/src/lib.rs:404-418). -/
def Thing.needs : Thing → List Name
  | .logger _ | .panicHandler _ => []
  | .timestamp .. => [c!"_defmt_write"]
  | .defmt => [c!"_defmt_acquire", c!"_defmt_flush", c!"_defmt_release", c!"_defmt_write"]
  | .logs => [c!"_defmt_acquire", c!"_defmt_timestamp", c!"_defmt_write", c!"_defmt_release"]
  | .panics => [c!"_defmt_panic"]
  | .other _ needs => needs

/-- An object file. -/
abbrev Object := List Thing

def definesOf (o : Object) : List Name := o.flatMap Thing.defines
def needsOf (o : Object) : List Name := o.flatMap Thing.needs

/-- The commands of the script that concern symbols. -/
structure Script where
  externs : List Name
  provides : List (Name × Name)

/-- defmt.x.in:1-7 -/
def scriptIn : Script where
  externs := [c!"_defmt_acquire", c!"_defmt_release", c!"__defmt_default_timestamp", c!"__DEFMT_MARKER_TIMESTAMP_WAS_DEFINED"]
  provides := [(c!"_defmt_timestamp", c!"__defmt_default_timestamp"), (c!"_defmt_panic", c!"__defmt_default_panic")]

/-- `avoid_default_panic` (build.rs:41-43): the first occurrence of the command is removed. -/
def avoidDefaultPanic (s : Script) : Script := { s with provides := s.provides.erase (c!"_defmt_panic", c!"__defmt_default_panic") }

/-- `main` of the build script (build.rs:3-9), with the feature `avoid-default-panic` or without it. -/
def script (avoid : Bool) : Script := if avoid then avoidDefaultPanic scriptIn else scriptIn

/-- The symbols that are undefined when these object files are linked. -/
def Undefined (s : Script) (linked : List Object) (n : Name) : Prop :=
  (n ∈ s.externs ∨ n ∈ linked.flatMap needsOf) ∧ n ∉ linked.flatMap definesOf

/-- Taking object files out of the archives, in any order, as long as there is one that defines an undefined symbol. -/
inductive Pulls (s : Script) (own archives : List Object) : List Object → List Object → Prop where
  | start : Pulls s own archives own archives
  | pull {linked before o after n} : Pulls s own archives linked (before ++ o :: after) → n ∈ definesOf o → Undefined s linked n →
      Pulls s own archives (linked ++ [o]) (before ++ after)

/-- The thing in the program that defines a symbol. -/
def definer (linked : List Object) (n : Name) : Option Thing := linked.flatten.find? (fun t => n ∈ t.defines)

/-- What is called by this name: the symbol and the thing it belongs to. -/
def calls (s : Script) (linked : List Object) (n : Name) : Option (Name × Thing) :=
  match definer linked n with
  | some t => some (n, t)
  | none => (s.provides.lookup n).bind (fun m => (definer linked m).map (fun t => (m, t)))

/-- Linking succeeds with these object files. `live` are the symbols to which code refers that stays in the program. -/
structure Links (s : Script) (own archives : List Object) (live : List Name) (linked : List Object) : Prop where
  pulled : ∃ rest, Pulls s own archives linked rest ∧ ∀ o ∈ rest, ∀ n ∈ definesOf o, ¬ Undefined s linked n
  once : (linked.flatMap definesOf).Nodup
  uses : ∀ n ∈ live, n ∈ linked.flatMap needsOf
  defined : ∀ n ∈ live, calls s linked n ≠ none

end Defmt.Resolve
