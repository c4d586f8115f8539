import Verif.Spec.Grammar
/-! Parameters that make the parser panic. -/

namespace Defmt.Parser

/-- No beginning of the text has exactly two bytes (in UTF-8): it is too short, or a character would have to be cut. -/
def NoTwoBytes (s : List Char) : Prop := ∀ a b, s = a ++ b → (a.map Char.utf8Size).sum ≠ 2

/-- The type of a parameter starts with a number below 256 and the text after the number has no beginning of two bytes. The index, if
there is one, is in range. -/
def Misread (text : List Char) : Prop :=
  (∀ i, explicitIndex text = some i → i < 2 ^ 64) ∧
  ∃ ty n, typeText text = some ty ∧ explicitIndex ty = some n ∧ n < 256 ∧ NoTwoBytes (ty.dropWhile Char.isDigit)

end Defmt.Parser
