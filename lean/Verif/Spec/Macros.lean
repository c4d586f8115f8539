import Verif.Spec.Parser
/-!
# The panicking macros: what is said before the message
-/

namespace Defmt.Parser

/-- How many parameters of the string have no index. -/
def implicits (s : List Char) : Nat := ((paramTexts s).filter (fun t => (explicitIndex t).isNone)).length

end Defmt.Parser
