import Verif.Model.Attributes
/-!
# What the attributes of defmt promise

The signature and the struct as the user wrote them, as text (tokens), and which symbol a function gets.
-/

namespace Defmt.Attributes

open Parser

/-- Several pieces with commas between them. -/
def commas : List Toks → Toks
  | [] => []
  | [x] => x
  | x :: y :: rest => x ++ [c!","] ++ commas (y :: rest)

/-- `<A, B>` -/
def Generics.angleText (g : Generics) : Toks := if g.angles then [c!"<"] ++ commas g.params ++ [c!">"] else []

/-- `where A, B` -/
def Generics.whereText (g : Generics) : Toks :=
  match g.whereClause with
  | none => []
  | some predicates => [c!"where"] ++ commas predicates

/-- The text of a signature. -/
def Sig.text (s : Sig) : Toks :=
  (if s.constness then [c!"const"] else []) ++ (if s.asyncness then [c!"async"] else []) ++ (if s.unsafety then [c!"unsafe"] else [])
    ++ (match s.abi with | none => [] | some none => [c!"extern"] | some (some abi) => [c!"extern", abi])
    ++ [c!"fn", s.ident] ++ s.generics.angleText
    ++ [c!"("] ++ commas s.inputs ++ (if s.variadic then [c!"..."] else []) ++ [c!")"]
    ++ (match s.output with | .default => [] | .never => [c!"->", c!"!"] | .type ty => [c!"->"] ++ ty)
    ++ s.generics.whereText

/-- The text of a struct, without its attributes and its visibility. -/
def ItemStruct.text (s : ItemStruct) : Toks :=
  [c!"struct", s.ident] ++ s.generics.angleText
    ++ (match s.fields with
      | .unit => s.generics.whereText ++ [c!";"]
      | .named fields => s.generics.whereText ++ [c!"{"] ++ commas fields ++ [c!"}"]
      | .unnamed fields => [c!"("] ++ commas fields ++ [c!")"] ++ s.generics.whereText ++ [c!";"])

/-- Trees that a text can have: no piece is empty, parameters are in `<` and `>`, `!` is the never type. -/
structure Generics.Proper (g : Generics) : Prop where
  angles : g.params ≠ [] → g.angles = true
  params : ∀ p ∈ g.params, p ≠ []

structure Sig.Proper (s : Sig) : Prop where
  generics : s.generics.Proper
  inputs : ∀ i ∈ s.inputs, i ≠ []
  output : ∀ ty, s.output = .type ty → ty ≠ [c!"!"]

/-- The attributes the compiler sees in the end. -/
def Attr.effective : Attr → List (List Tok × Toks)
  | .plain path rest => [(path, rest)]
  | .unsafely attr => attr.effective
  | .cfgAttr holds attr => if holds then attr.effective else []

/-- The names a function asks for with `#[export_name = ..]`. -/
def exportNames (f : ItemFn) : List Tok :=
  (f.attrs.flatMap Attr.effective).filterMap fun a =>
    match a.2 with
    | [eq, name] => if a.1 = [c!"export_name"] ∧ eq = c!"=" then some name else none
    | _ => none

/-- A function has the attribute `#[no_mangle]`. -/
def noMangle (f : ItemFn) : Prop := ∃ a ∈ f.attrs.flatMap Attr.effective, a.1 = [c!"no_mangle"]

/-- The entry is `crate = path`. -/
def GivesPath (parsePath : Toks → Option (List Tok)) (entry : Meta) (path : List Tok) : Prop :=
  entry.path = [c!"crate"] ∧ ∃ tokens, entry.rest = c!"=" :: tokens ∧ parsePath tokens = some path

/-- Every entry is `crate = path`, and `path` is the last one, or `first` if there is none. -/
def CratePath (parsePath : Toks → Option (List Tok)) (first : List Tok) (entries : List Meta) (path : List Tok) : Prop :=
  (∀ e ∈ entries, ∃ p, GivesPath parsePath e p) ∧
    (entries = [] ∧ path = first ∨ ∃ e, entries.getLast? = some e ∧ GivesPath parsePath e path)

end Defmt.Attributes
