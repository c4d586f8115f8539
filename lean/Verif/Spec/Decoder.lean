import Verif.Model.Decoder
/-! Specification side of the decoder properties. -/

namespace Defmt

open Parser Decoder

/-- A format string that the host can parse without panicking, and whose arrays have lengths for
which memory can be requested at all. -/
def Fine (s : List Char) : Prop :=
  parse s .forwardsCompatible ≠ .panic ∧
  ∀ fs, parse s .forwardsCompatible = .ok fs → ∀ p ∈ params fs, ∀ n, p.ty = .formatArray n → n ≤ maxElements

/-- The strings of a table are fine, also the `|` separated alternatives. -/
def Table.Safe (t : Table) : Prop :=
  (∀ e, t.timestamp = some e → Fine e.string) ∧
  ∀ i e, t.entries i = some e → Fine e.string ∧ ∀ v ∈ Parser.splitAt '|' e.string, Fine v

/-- The tags of log statements and their levels. -/
def logTags : List (Tag × Level) :=
  [(.trace, .trace), (.debug, .debug), (.info, .info), (.warn, .warn), (.error, .error)]

/-- entry `i` exists and is not a log statement -/
def Table.Nested (t : Table) (i : Nat) (s : List Char) : Prop :=
  ∃ e, t.entries i = some e ∧ (∀ lv, (e.tag, lv) ∉ logTags) ∧ e.string = s

/-- `f` is `s`, or one of the alternatives if `s` is a list of alternatives. -/
def IsVariant (f s : List Char) : Prop := if '|' ∈ s then f ∈ Parser.splitAt '|' s else f = s

mutual

/-- All nested format strings and interned strings of an argument are (alternatives of) table
entries that are not log statements; the elements of a slice belong to one entry. -/
def Arg.From (t : Table) : Arg → Prop
  | .istr s => ∃ i, t.Nested i s
  | .format f args =>
    (∃ i s, t.Nested i s ∧ (f = s ∨ f ∈ Parser.splitAt '|' s)) ∧ Arg.AllFrom t args
  | .formatSlice elems => (∃ i s, t.Nested i s ∧ ∀ e ∈ elems, ∃ f as, e = .format f as ∧ IsVariant f s) ∧
      Arg.AllFrom t elems
  | .formatSequence args => Arg.AllFrom t args
  | _ => True

def Arg.AllFrom (t : Table) : List Arg → Prop
  | [] => True
  | a :: as => Arg.From t a ∧ Arg.AllFrom t as

end

/-- Same argument indices and types in the same order; hints and texts may differ. -/
def SameParams (fs fs' : List Fragment) : Prop :=
  (params fs).map (fun p => (p.index, p.ty)) = (params fs').map (fun p => (p.index, p.ty))

end Defmt
