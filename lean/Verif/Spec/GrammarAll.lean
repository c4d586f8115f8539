import Verif.Spec.Grammar
/-!
# What every format string means

`Means` (Spec/Grammar.lean) is about strings whose parameters do not contain `{`. The parser looks for `{` also within the text of
a parameter it has read (parser/src/lib.rs:298-342: the iterator goes on behind the `{`, not behind the `}`), so that such a text gives one
parameter for itself and one for every later single `{` in it, each up to the same `}`. That can only happen where a text with `{` is
accepted at all: with an unknown hint on the host, and in the names of bitflags.
-/

namespace Defmt.Parser

/-- A list of parameter texts and what they mean, from the left; `next` is the next implicit argument before, `last` after them. -/
inductive Numbered (m : Mode) : Nat → List (List Char) → List Fragment → Nat → Prop where
  | nil {next} : Numbered m next [] [] next
  | explicit {next text i ty hint r fs last} : ParamText m text ⟨some i, ty, hint⟩ → Numbered m next r fs last →
      Numbered m next (text :: r) (.param ⟨i, ty, hint⟩ :: fs) last
  | implicit {next text ty hint r fs last} : ParamText m text ⟨none, ty, hint⟩ → Numbered m (next + 1) r fs last →
      Numbered m next (text :: r) (.param ⟨next, ty, hint⟩ :: fs) last

/-- What the pieces mean, for all pieces: the text of a parameter stands for itself and for the parameters that begin in it. -/
inductive Stands (m : Mode) : Nat → List Piece → List Fragment → Prop where
  | nil {next} : Stands m next [] []
  | text {next raw t r fs} : TextWritten raw t → (∀ raw' r', r ≠ .text raw' :: r') → Stands m next r fs →
      Stands m next (.text raw :: r) (.literal t :: fs)
  | param {next last text r ps fs} : text.head? ≠ some '{' → '}' ∉ text → Numbered m next (text :: paramTexts text) ps last →
      Stands m last r fs → Stands m next (.param text :: r) (ps ++ fs)

end Defmt.Parser
