import Verif.Model.Attributes
import Verif.Model.Bitflags
/-!
# The input of `bitflags!`

Models `macros/src/items/bitflags/input.rs` and the use of the attributes of the flags in macros/src/items/bitflags.rs:68-98. The input is a
list of pieces as `syn` takes them: `E` are the expressions, types and visibilities are tokens; that `syn` takes the longest piece is
trusted. `none` is a compile error.
-/

namespace Defmt.Bitflags

open Parser Attributes

/-- A piece of the text between the braces. -/
inductive FlagTok (E : Type) where
  | attr (a : Attr)
  | const
  | ident (n : List Char)
  | eq
  | expr (e : E)
  | semi
deriving DecidableEq, Repr

/-- A piece of the input. -/
inductive InputTok (E : Type) where
  | attr (a : Attr)
  | vis (v : Vis)
  | struct
  | ident (n : List Char)
  | colon
  | type (ty : List Char)
  | braces (content : List (FlagTok E))
deriving Repr

/-- `Flag` (input.rs:47-55) -/
structure InputFlag (E : Type) where
  attrs : List Attr
  ident : List Char
  value : E
deriving DecidableEq, Repr

/-- `Input` (input.rs:7-17) -/
structure Input (E : Type) where
  attrs : List Attr
  vis : Option Vis
  ident : List Char
  ty : List Char
  flags : List (InputFlag E)
deriving DecidableEq, Repr

variable {E : Type}

/-- `Punctuated::<Flag, Token![;]>::parse_terminated` (input.rs:30) with `Flag::parse` (input.rs:57-69); `attrs` are the attributes read so far of the
flag that begins. -/
def parseFlags (attrs : List Attr) : List (FlagTok E) → Option (List (InputFlag E))
  | [] => if attrs.isEmpty then some [] else none
  | .attr a :: rest => parseFlags (attrs ++ [a]) rest
  | [.const, .ident n, .eq, .expr e] => some [⟨attrs, n, e⟩]
  | .const :: .ident n :: .eq :: .expr e :: .semi :: rest => (parseFlags [] rest).map (⟨attrs, n, e⟩ :: ·)
  | _ => none

/-- `Attribute::parse_outer` -/
def parseOuter : List (InputTok E) → List Attr × List (InputTok E)
  | .attr a :: rest => ((a :: (parseOuter rest).1), (parseOuter rest).2)
  | input => ([], input)

/-- `Visibility::parse`: nothing is a visibility, too. -/
def parseVis : List (InputTok E) → Option Vis × List (InputTok E)
  | .vis v :: rest => (some v, rest)
  | input => (none, input)

/-- `Input::parse` (input.rs:19-33); `parse_macro_input!` (bitflags.rs:15) refuses a rest. -/
def parseInput (input : List (InputTok E)) : Option (Input E) :=
  let (attrs, input) := parseOuter input
  let (vis, input) := parseVis input
  match input with
  | [.struct, .ident n, .colon, .type ty, .braces content] => (parseFlags [] content).map fun flags => ⟨attrs, vis, n, ty, flags⟩
  | _ => none

/-- `extract_cfgs` (input.rs:81-91) -/
def extractCfgs (attrs : List Attr) : List Attr := attrs.filter fun a => a.path == [c!"cfg"]

/-- The `static` of a flag stays in the program: the compiler removes it if a `#[cfg]` on it does not hold (`eval`). Only the attributes of
`extract_cfgs` are on the static (bitflags.rs:82-83). -/
def hasStatic (eval : Toks → Bool) (f : InputFlag E) : Bool :=
  (extractCfgs f.attrs).all fun a =>
    match a with
    | .plain _ cond => eval cond
    | _ => true

/-- The numbers and names of the flags whose static stays (bitflags.rs:68-98); `i` is the number of the first one. -/
def statics (eval : Toks → Bool) (i : Nat) : List (InputFlag E) → List (Nat × List Char)
  | [] => []
  | f :: rest => if hasStatic eval f then (i, f.ident) :: statics eval (i + 1) rest else statics eval (i + 1) rest

end Defmt.Bitflags
