import Verif.Spec.Linker
import Verif.Spec.HostLog
import Verif.Spec.System
/-! Specification side of C97: the log statements of a linked program that were executed, and what the user sees of them. -/

namespace Defmt.Whole

open Parser Decoder Encoder Linker Elf LogFormat HostLog

/-- What the values of a program refer to: the entries are strings of the program, each at the address that the linker gave it. -/
def StringsOf (o : Out) (strings : Table) : Prop :=
  ∀ a e, strings.entries a = some e → ∃ x s, SymbolOf x o s ∧ index s = a ∧ x.kind ≠ .timestamp ∧ e = ⟨x.kind.hostTag, x.string⟩

/-- The macros of log statements. -/
def Logs : Kind → Prop
  | .log _ | .println => True
  | _ => False

/-- The format string of the `timestamp!` of the program, or `none` if there is none. -/
def Stamp (items : List Linker.Item) (inputs : List Input) : Option (List Char) → Prop
  | none => ∀ a b c d, Linker.Item.timestamp a b c d ∉ items
  | some d => ∃ a b c, Linker.Item.timestamp a b c d ∈ items ∧ Used inputs ⟨.timestamp, a, b, c, d⟩

/-- An execution of a log statement: the macro with its format string, the address that the linker gave it, the arguments of the
timestamp and of the statement. -/
structure Execution where
  site : Interned
  address : Nat
  stampArgs : List Val
  args : List Val

/-- the timestamp with its arguments -/
def Execution.stamp (format : Option (List Char)) (x : Execution) : Option Call := format.map (fun d => ⟨d, x.stampArgs⟩)

def Execution.event (format : Option (List Char)) (x : Execution) : LogEvent :=
  ⟨x.address, x.site.kind.hostTag, x.stamp format, ⟨x.site.string, x.args⟩⟩

/-- The statement is one of the program, its arguments and those of the timestamp type check. -/
structure Execution.Ok (inputs : List Input) (o : Out) (strings : Table) (format : Option (List Char)) (x : Execution) : Prop where
  logs : Logs x.site.kind
  used : Used inputs x.site
  address : ∃ s, SymbolOf x.site o s ∧ index s = x.address
  args : Call.Ok strings ⟨x.site.string, x.args⟩
  stamp : ∀ d, format = some d → Call.Ok strings ⟨d, x.stampArgs⟩

/-- An execution with the texts of the timestamp and of the message; what is shown of the message and of the location. -/
structure Executed extends Execution where
  timestamp : List Char
  message : List Char
  shownMessage : List Char
  place : List Char

/-- The texts are what the values show (C59). As in C80 not too many of their characters are parts of escape sequences. -/
structure Executed.Ok (env : Env) (opts : Options) (inputs : List Input) (o : Out) (strings : Table) (format : Option (List Char)) (x : Executed) : Prop
    extends Execution.Ok inputs o strings format x.toExecution where
  texts : Texts env (x.event format).frame x.timestamp x.message
  fewHidden : FewHidden opts.term.maxWidth x.timestamp ∧ FewHidden opts.term.maxWidth x.message
  shown : MessageShown x.message x.shownMessage
  place : PlaceShown opts (x.event format).frame x.place

/-- What the user sees of a log statement with the default format. -/
def Executed.shown (format : Option (List Char)) (x : Executed) : List Char :=
  match x.site.kind with
  | .log level =>
    (match format with
      | none => []
      | some _ => (if x.timestamp = [] then c!"<time>" else x.timestamp) ++ c!" ") ++
    leftPadded 5 (levelText level) ++ c!" " ++ x.shownMessage ++ x.place ++ c!"\n"
  | _ => x.message ++ c!"\n"

end Defmt.Whole
