import Verif.Model.MacroArgs
/-!
Specification side of C109: comma separated lists.
-/

namespace Defmt.MacroArgs

variable {E : Type}

/-- expressions with commas between them -/
def commas : List E → List (Tok E)
  | [] => []
  | [e] => [.expr e]
  | e :: es => .expr e :: .comma :: commas es

/-- `Listed es input`: the input are the expressions `es` with commas between them, and perhaps one more comma after the last. -/
def Listed (es : List E) (input : List (Tok E)) : Prop := input = commas es ∨ es ≠ [] ∧ input = commas es ++ [.comma]

/-- The expressions of a message: a literal for the format string and the arguments -/
def MessageIs (lit : E → Option (List Char)) (fmt : List Char) (args es : List E) : Prop := ∃ f, lit f = some fmt ∧ es = f :: args

end Defmt.MacroArgs
