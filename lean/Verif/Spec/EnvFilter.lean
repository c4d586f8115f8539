import Verif.Model.EnvFilter
/-!
What the contents of `DEFMT_LOG` mean, after book/src/filtering.md. A directive is a level (for everything), a
module path (everything in it is on) or `path=level`. Nothing here refers to how the filter is built.
-/

namespace Defmt.EnvFilter

/-- The name of a level, or `off`. -/
def levelName : LevelOrOff → List UInt8
  | some .trace => b!"trace"
  | some .debug => b!"debug"
  | some .info => b!"info"
  | some .warn => b!"warn"
  | some .error => b!"error"
  | none => b!"off"

/-- A logging directive. -/
inductive Directive where
  /-- Applies to everything. -/
  | all (l : LevelOrOff)
  /-- Applies to a module and what is inside of it. -/
  | inModule (path : List (List UInt8)) (l : LevelOrOff)
deriving DecidableEq, Repr

/-- `path` as it is written: segments with `::` between them. -/
def pathText : List (List UInt8) → List UInt8
  | [] => []
  | [s] => s
  | s :: s' :: rest => s ++ b!"::" ++ pathText (s' :: rest)

/-- A path that can be written in a directive. `ident` tells which segments are valid identifiers. -/
def IsPath (ident : List UInt8 → Bool) (path : List (List UInt8)) : Prop :=
  path ≠ [] ∧ pathText path ≠ [] ∧ ∀ s ∈ path, ident s = true ∧ 58 ∉ s

/-- `text` is the way to write `d`. -/
inductive Says (ident : List UInt8 → Bool) : (text : List UInt8) → (d : Directive) → Prop
  /-- `level` -/
  | all (l : LevelOrOff) : Says ident (levelName l) (.all l)
  /-- `path`: everything is on. A single identifier that is a level's name is a level. -/
  | path (p : List (List UInt8)) (hp : IsPath ident p) (heq : 61 ∉ pathText p)
      (hlevel : ∀ l, pathText p ≠ levelName l) : Says ident (pathText p) (.inModule p (some .trace))
  /-- `path=level` -/
  | pathLevel (p : List (List UInt8)) (l : LevelOrOff) (hp : IsPath ident p) :
      Says ident (pathText p ++ b!"=" ++ levelName l) (.inModule p l)

/-- The texts `ts` with commas between them. -/
def commaList : List (List UInt8) → List UInt8
  | [] => []
  | [t] => t
  | t :: t' :: rest => t ++ b!"," ++ commaList (t' :: rest)

/-- Two lists of the same length, related element by element. -/
inductive Each {α β : Type} (R : α → β → Prop) : List α → List β → Prop
  | nil : Each R [] []
  | cons {a : α} {b : β} {as : List α} {bs : List β} : R a b → Each R as bs → Each R (a :: as) (b :: bs)

/-- The contents of `DEFMT_LOG` are the directives `ds`, in this order. Between commas there may be nothing. -/
def Reads (ident : List UInt8 → Bool) (text : List UInt8) (ds : List Directive) : Prop :=
  ∃ ts : List (List UInt8), text = commaList ts ∧ (∀ t ∈ ts, 44 ∉ t) ∧
    Each (Says ident) (ts.filter (fun t => t ≠ [])) ds

/-- The level given by the last directive for exactly this path. -/
def lastFor (p : List (List UInt8)) : List Directive → Option LevelOrOff
  | [] => none
  | d :: ds => match lastFor p ds with
    | some l => some l
    | none => match d with
      | .inModule q l => if q = p then some l else none
      | .all _ => none

/-- The last level given for everything. -/
def lastGlobal : List Directive → Option LevelOrOff
  | [] => none
  | d :: ds => match lastGlobal ds with
    | some l => some l
    | none => match d with
      | .all l => some l
      | .inModule _ _ => none

/-- The level that the directives give to the module path `p` itself. The crate as a whole has the level given
for everything, or `error`, unless there is a directive for it. -/
def givenTo (ds : List Directive) (krate : List UInt8) (p : List (List UInt8)) : Option LevelOrOff :=
  match lastFor p ds with
  | some l => some l
  | none => if p = [krate] then some ((lastGlobal ds).getD (some .error)) else none

/-- The module with path `p` contains the module with path `m`, or is that module. -/
def Encloses (p m : List (List UInt8)) : Prop := ∃ inner, m = p ++ inner

/-- `l` is the level in force in the module `m`: the level given to the innermost module around `m` that has been
given a level. -/
def InForce (ds : List Directive) (krate : List UInt8) (m : List (List UInt8)) (l : LevelOrOff) : Prop :=
  ∃ p, Encloses p m ∧ givenTo ds krate p = some l ∧
    ∀ q, Encloses q m → p.length < q.length → givenTo ds krate q = none

/-- Messages of level `level` pass where the level `l` is in force. -/
def Passes : (l : LevelOrOff) → (level : Level) → Prop
  | none, _ => False
  | some .error, level => level = .error
  | some .warn, level => level = .warn ∨ level = .error
  | some .info, level => level = .info ∨ level = .warn ∨ level = .error
  | some .debug, level => level ≠ .trace
  | some .trace, _ => True

/-- `m` is the path of a module of the crate, as `module_path!()` gives it: the crate's name first, and no colons
inside of the segments. -/
def IsModule (krate : List UInt8) (m : List (List UInt8)) : Prop :=
  m.head? = some krate ∧ ∀ s ∈ m, 58 ∉ s

/-- With `DEFMT_LOG=text` (`none`: not set) the crate compiles (as far as the filter is concerned), and a log
statement of level `level` in its module `m` sends a frame. -/
def Sends (ident : List UInt8 → Bool) (text : Option (List UInt8)) (krate : List UInt8) (level : Level)
    (m : List (List UInt8)) : Prop :=
  ∃ f, EnvFilter.new ident text krate = .ok f ∧ emits f level (pathText m) = true

end Defmt.EnvFilter

namespace Defmt.EnvFilter

/-- `l'` lets at least as much pass as `l`. -/
def AtLeast (l l' : LevelOrOff) : Prop := ∀ level, Passes l level → Passes l' level

/-- The same directive with a level that lets at least as much pass. -/
inductive MoreVerbose : Directive → Directive → Prop
  | all {l l' : LevelOrOff} : AtLeast l l' → MoreVerbose (.all l) (.all l')
  | inModule (p : List (List UInt8)) {l l' : LevelOrOff} :
      AtLeast l l' → MoreVerbose (.inModule p l) (.inModule p l')

/-- What is assumed about `syn::parse_str::<Ident>`: unless there is a comment in it, an accepted text is not empty
and has no colon, no equals sign and no comma in it. -/
def IdentOk (ident : List UInt8 → Bool) : Prop :=
  ∀ s, ident s = true → 47 ∉ s → s ≠ [] ∧ 58 ∉ s ∧ 61 ∉ s ∧ 44 ∉ s

/-- For the examples: an identifier of ASCII letters, digits and underscores. -/
def asciiIdent (s : List UInt8) : Bool :=
  match s with
  | [] => false
  | b :: rest => start b && rest.all (fun c => start c || (48 ≤ c && c ≤ 57))
where start (b : UInt8) : Bool := (65 ≤ b && b ≤ 90) || (97 ≤ b && b ≤ 122) || b = 95

end Defmt.EnvFilter
