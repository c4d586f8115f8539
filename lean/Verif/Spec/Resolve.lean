import Verif.Model.Resolve
/-! Specification side of C103: the parts of a program that defmt connects. -/

namespace Defmt.Resolve

open Parser

/-- The loggers, timestamps and panic handlers in object files. -/
def loggers (os : List Object) : List (List Char) :=
  os.flatten.filterMap (fun t => match t with | .logger type => some type | _ => none)

def stamps (os : List Object) : List Thing :=
  os.flatten.filter (fun t => match t with | .timestamp .. => true | _ => false)

def handlers (os : List Object) : List (List Char) :=
  os.flatten.filterMap (fun t => match t with | .panicHandler f => some f | _ => none)

/-- The functions of a logger. -/
def loggerFunctions : List Name := [c!"_defmt_acquire", c!"_defmt_flush", c!"_defmt_release", c!"_defmt_write"]

/-- The names that defmt uses are not defined by anything else, and `defmt` is there. -/
structure Program (own archives : List Object) : Prop where
  reserved : ∀ ds ns, Thing.other ds ns ∈ (own ++ archives).flatten → ∀ d ∈ ds,
    d ∉ loggerFunctions ++ [c!"_defmt_panic", c!"_defmt_timestamp", c!"__DEFMT_MARKER_TIMESTAMP_WAS_DEFINED",
      c!"__defmt_default_timestamp", c!"__defmt_default_panic"]
  defmt : Thing.defmt ∈ (own ++ archives).flatten

end Defmt.Resolve
