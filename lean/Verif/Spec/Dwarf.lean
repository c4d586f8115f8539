import Verif.Model.Dwarf
/-!
Specification side of the locations of log statements: C85 and C86.

The names `AttrName`, `Die`, `Dies`, `DwarfUnit`, `FileEntry` of the model are data types for debug information; nothing else of
the model is used here, except `fileIndexToPath` in `Statement` (what it means is `C85_file_exact`).
-/

namespace Defmt.Dwarf
open Parser HostLog

/-- The entry has the attribute. -/
def Die.Has (d : Die) (n : AttrName) (v : AttrValue) : Prop := (n, v) ∈ d.attrs

instance (d : Die) (n : AttrName) (v : AttrValue) : Decidable (d.Has n v) := inferInstanceAs (Decidable ((n, v) ∈ d.attrs))

/-- The name of a namespace; `none` for other entries and for a namespace without a name that can be read. -/
def Die.namespaceName (d : Die) : Option (List Char) :=
  match d.tag with
  | .namespace => d.attrs.findSome? (fun a => match a with
    | (.name, .str s) => s
    | _ => none)
  | _ => none

/-- A path below another: an absolute path stays as it is; a slash is put between the two unless one is there. -/
inductive Joined : List Char → List Char → List Char → Prop
  | absolute {p q} : q.head? = some '/' → Joined p q q
  | empty {q} : q.head? ≠ some '/' → Joined [] q q
  | slash {p q} : q.head? ≠ some '/' → p.getLast? = some '/' → Joined p q (p ++ q)
  | between {p q} : q.head? ≠ some '/' → p ≠ [] → p.getLast? ≠ some '/' → Joined p q (p ++ c!"/" ++ q)

/-- The directory of a file: relative to the one in which the compiler ran, if that is known. -/
inductive DirOf (compDir : Option (List Char)) : Option (Option (List Char)) → List Char → Prop
  | none : DirOf compDir none []
  | below {comp dir r} : compDir = some comp → Joined comp dir r → DirOf compDir (some (some dir)) r
  | alone {dir} : compDir = none → DirOf compDir (some (some dir)) dir

/-- There is no namespace among the entries and below them. -/
def Dies.NoNamespace : Dies → Prop
  | .nil => True
  | .cons d cs rest => d.namespaceName = none ∧ cs.NoNamespace ∧ rest.NoNamespace

/-- Namespaces are only in namespaces (and at the top): Rust has no others. An attribute is there at most once. -/
def Dies.WellFormed : Dies → Prop
  | .nil => True
  | .cons d cs rest => (d.attrs.map Prod.fst).Nodup ∧ (d.namespaceName = none → cs.NoNamespace) ∧ cs.WellFormed ∧ rest.WellFormed

/-- The namespace that ends last among the entries, after it the one that ends last in it, and so on. -/
def Dies.lastNamespaces : Dies → List (List Char)
  | .nil => []
  | .cons d cs rest => match rest.lastNamespaces with
    | [] => match d.namespaceName with
      | some s => s :: cs.lastNamespaces
      | none => []
    | names => names

/-- An entry with the names of the namespaces it is in. `closed` are the namespaces that ended before it in the innermost of these
(see `Dies.lastNamespaces`): it is empty if the entry comes before all nested namespaces. -/
structure Occurrence where
  die : Die
  path : List (List Char)
  closed : List (List Char)

/-- All entries that are not namespaces, in order, with the namespaces they are in. -/
def Dies.occurrences (path closed : List (List Char)) : Dies → List Occurrence
  | .nil => []
  | .cons d cs rest => match d.namespaceName with
    | some s => cs.occurrences (path ++ [s]) [] ++ rest.occurrences path (s :: cs.lastNamespaces)
    | none => ⟨d, path, closed⟩ :: (cs.occurrences path closed ++ rest.occurrences path closed)

/-- The first operation that gives an address. -/
def AddressIs (ops : List (Option Nat)) (address : Nat) : Prop :=
  ∃ n : Nat, ops[n]? = some (some address) ∧ ∀ m : Nat, m < n → ops[m]? = some none

/-- The entry declares a log statement: the static `DEFMT_LOG_STATEMENT` with a symbol, an address and a place in the source. -/
structure Statement (u : DwarfUnit) (d : Die) (symbol : List Char) (address : Nat) (file : List Char) (line : Nat) : Prop where
  tag : d.tag = .variable
  name : d.Has .name (.str (some c!"DEFMT_LOG_STATEMENT"))
  symbol : d.Has .linkageName (.str (some symbol))
  address : ∃ ops, d.Has .location (.exprloc ops) ∧ AddressIs ops address
  file : ∃ i, d.Has .declFile (.fileIndex i) ∧ fileIndexToPath u i = .ok file
  line : d.Has .declLine (.udata line)

/-- All entries of all units that are not namespaces. -/
def occurrences (units : List DwarfUnit) : List (DwarfUnit × Occurrence) :=
  units.flatMap (fun u => match u.entries with
    | none => []
    | some f => (f.occurrences [] []).map (fun o => (u, o)))

/-- The entry is the log statement at `address`, and its symbol is in the table of the program. -/
def Kept (symbols : List (List Char)) (o : DwarfUnit × Occurrence) (address : Nat) (file : List Char) (line : Nat) : Prop :=
  ∃ symbol ∈ symbols, Statement o.1 o.2.die symbol address file line

/-- The name of the namespace can be read. -/
def NamespaceReadable (d : Die) : Prop := d.tag = .namespace → ¬ d.Has .name (.str none)

/-- The entry can be read: if it is a variable with a name, a symbol, a file, a line and an address, the texts can be read; and if it
is a log statement whose symbol is in the table, it has an address and a file. -/
def VariableReadable (symbols : List (List Char)) (u : DwarfUnit) (d : Die) : Prop :=
  d.tag = .variable → ∀ name symbol i line ops, d.Has .name (.str name) → d.Has .linkageName (.str symbol) →
    d.Has .declFile (.fileIndex i) → d.Has .declLine (.udata line) → d.Has .location (.exprloc ops) →
    ∃ n s, name = some n ∧ symbol = some s ∧
      (n = c!"DEFMT_LOG_STATEMENT" → s ∈ symbols → (∃ a, AddressIs ops a) ∧ ∃ file, fileIndexToPath u i = .ok file)

/-- All entries can be read. -/
def Dies.Readable (symbols : List (List Char)) (u : DwarfUnit) : Dies → Prop
  | .nil => True
  | .cons d cs rest => NamespaceReadable d ∧ VariableReadable symbols u d ∧ cs.Readable symbols u ∧ rest.Readable symbols u

/-- Log statements of the table have different addresses. -/
def Distinct (symbols : List (List Char)) (units : List DwarfUnit) : Prop :=
  (occurrences units).Pairwise (fun x y => ∀ a f l f' l', Kept symbols x a f l → ¬ Kept symbols y a f' l')

/-- A path that can have something after a slash. -/
def NotSlashEnd (p : List Char) : Prop := p ≠ [] ∧ p.getLast? ≠ some '/'

/-- The entry of the table is the text of a log statement or of `println!`. -/
def IsMessage (e : Entry) : Prop := e.tag ∈ [Tag.println, .trace, .debug, .info, .warn, .error]

/-- The names separated by `::`. -/
def modulePath (names : List (List Char)) : List Char := c!"::".intercalate names

end Defmt.Dwarf
