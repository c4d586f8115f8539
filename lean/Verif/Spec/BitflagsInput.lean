import Verif.Model.BitflagsInput
/-!
# How a call of `bitflags!` is written
-/

namespace Defmt.Bitflags

open Parser Attributes

variable {E : Type}

/-- `#[a] #[b] const NAME = value` -/
def InputFlag.text (f : InputFlag E) : List (FlagTok E) := f.attrs.map .attr ++ [.const, .ident f.ident, .eq, .expr f.value]

/-- Flags with a semicolon after each; it may be left out after the last one. -/
inductive FlagsText : List (InputFlag E) → List (FlagTok E) → Prop where
  | none : FlagsText [] []
  | last (f : InputFlag E) : FlagsText [f] f.text
  | more (f : InputFlag E) {fs : List (InputFlag E)} {rest : List (FlagTok E)} (h : FlagsText fs rest) : FlagsText (f :: fs) (f.text ++ .semi :: rest)

/-- `#[a] pub struct Name: ty { flags }` -/
def Input.Text (d : Input E) (input : List (InputTok E)) : Prop :=
  ∃ content, FlagsText d.flags content ∧
    input = d.attrs.map .attr ++ (d.vis.map .vis).toList ++ [.struct, .ident d.ident, .colon, .type d.ty, .braces content]

/-- An attribute lets the item it is on stay. -/
def keeps (eval : Toks → Bool) : Attr → Bool
  | .plain path rest => if path = [c!"cfg"] then eval rest else true
  | .unsafely a => keeps eval a
  | .cfgAttr holds a => if holds then keeps eval a else true

/-- The type has the constant: the crate `bitflags` puts all attributes of the flag on it. -/
def hasConst (eval : Toks → Bool) (f : InputFlag E) : Bool := f.attrs.all (keeps eval)

/-- The constants of the type with their position in the source. -/
def consts (eval : Toks → Bool) (fs : List (InputFlag E)) : List (Nat × List Char) :=
  ((List.range fs.length).zip fs).filterMap fun p => if hasConst eval p.2 then some (p.1, p.2.ident) else none

/-- What the compiler checks: every static that stays names a constant of the type (its value is `Name::FLAG.bits`), and no two statics of the
block have the same name. -/
structure Compiles (eval : Toks → Bool) (fs : List (InputFlag E)) : Prop where
  resolved : ∀ f ∈ fs, hasStatic eval f = true → ∃ g ∈ fs, g.ident = f.ident ∧ hasConst eval g = true
  distinct : ((fs.filter (hasStatic eval)).map InputFlag.ident).Nodup

end Defmt.Bitflags
