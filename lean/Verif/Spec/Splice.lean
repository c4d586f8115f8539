import Verif.Model.Splice
/-!
Specification side of C116: the grammar of expressions of Rust (the Rust reference, chapters 8.2.*), as far as
it decides how far an expression reaches: precedence is left out, and what is in braces. Array expressions with `;` are left out. The only restriction that
matters here: between `match` or `if` and the braces there is an expression without struct literals (except in parentheses or brackets), since the braces
would be taken for those of the struct.
-/

namespace Defmt.Splice

mutual

/-- The tokens are an expression; `true`: struct literals are allowed. -/
inductive IsExpr : Bool → List Tok → Prop
  | atom {k n} : IsExpr k [.ident n]
  | struct {n c} : IsExpr true [.ident n, .fields c]
  | paren {k ts} : IsList ts → IsExpr k [.paren ts]
  | «prefix» {k n ts} : IsExpr k ts → IsExpr k (.prefixOp n :: ts)
  | «infix» {k n a b} : IsExpr k a → IsExpr k b → IsExpr k (a ++ .infixOp n :: b)
  | call {k f args} : IsExpr k f → IsList args → IsExpr k (f ++ [.paren args])
  | array {k ts} : IsList ts → IsExpr k [.bracket ts]
  | index {k e ts} : IsExpr k e → IsExpr true ts → IsExpr k (e ++ [.bracket ts])
  | field {k e n} : IsExpr k e → IsExpr k (e ++ [.dot, .ident n])
  | «postfix» {k e n} : IsExpr k e → IsExpr k (e ++ [.postfixOp n])
  | «match» {k e} : IsExpr false e → IsExpr k (.kwMatch :: e ++ [.arms])
  | cond {k ts} : IsIf ts → IsExpr k ts
  | loop {k e} : IsExpr false e → IsExpr k (.kwLoop :: e ++ [.block])
  | block {k} : IsExpr k [.block]

/-- `if` with its alternatives. -/
inductive IsIf : List Tok → Prop
  | one {e} : IsExpr false e → IsIf (.kwIf :: e ++ [.block])
  | other {e} : IsExpr false e → IsIf (.kwIf :: e ++ [.block, .kwElse, .block])
  | chain {e ts} : IsExpr false e → IsIf ts → IsIf (.kwIf :: e ++ .block :: .kwElse :: ts)

/-- Expressions with commas between them and perhaps after the last one: what can be in parentheses. -/
inductive IsList : List Tok → Prop
  | nil : IsList []
  | one {e} : IsExpr true e → IsList e
  | cons {e ts} : IsExpr true e → IsList ts → IsList (e ++ .comma :: ts)

end

/-- Some struct literal is not in parentheses or brackets. -/
def Exposed (e : List Tok) : Prop := ∃ c, .fields c ∈ e

end Defmt.Splice
