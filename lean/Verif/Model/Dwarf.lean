import Verif.Model.HostLog
import Verif.Model.Elf
/-!
# Looking up the locations of log statements in the debug information

Models `get_locations`, `file_index_to_path` and `exprloc2address` (decoder/src/elf2table/mod.rs:242-456) and `Table::indices`
(decoder/src/lib.rs:200-208).

The `gimli` crate is not modelled: debug information is a list of units, a unit is the forest of entries below its root. What
`gimli` gives for an attribute is data here, including that a string cannot be read. Entries, attributes and abbreviations that
`gimli` cannot read at all (which end `get_locations` with an error) are not represented, except for a whole unit. Strings that are
not UTF-8 are strings that cannot be read: both end with an error. Paths are those of Unix.
-/

namespace Defmt.Dwarf
open Parser HostLog Elf

/-- The names of attributes (`gimli::constants::DW_AT_*`) that are looked at. -/
inductive AttrName where
  | name | declFile | declLine | location | linkageName
  | other (code : Nat)
deriving DecidableEq, Repr

/-- `gimli::AttributeValue`, as far as it is looked at. -/
inductive AttrValue where
  /-- `DebugStrRef(off)` with the result of `dwarf.string(off)` and `from_utf8`; `none` if one of them is an error -/
  | str (s : Option (List Char))
  | fileIndex (i : Nat)
  | udata (n : Nat)
  /-- `Exprloc(e)` with the results of parsing it one operation after the other: `some a` for `Operation::Address`, `none` for
  another operation or an error -/
  | exprloc (ops : List (Option Nat))
  /-- any other form -/
  | other
deriving DecidableEq, Repr

/-- `DW_TAG_*` -/
inductive DieTag where
  | namespace | variable
  | other (code : Nat)
deriving DecidableEq, Repr

/-- A debugging information entry. -/
structure Die where
  tag : DieTag
  attrs : List (AttrName × AttrValue)
deriving DecidableEq, Repr

/-- Entries that are siblings, each with the entries below it. -/
inductive Dies where
  | nil
  | cons (die : Die) (children : Dies) (rest : Dies)
deriving DecidableEq, Repr

/-- `gimli::FileEntry`: the directory and the path name, as `dwarf.attr_string` and `to_string_lossy` give them (`none` for an
error); `dir` is `none` if the entry has no directory. -/
structure FileEntry where
  dir : Option (Option (List Char))
  name : Option (List Char)
deriving DecidableEq, Repr

/-- What is used of a `gimli::Unit`. -/
structure DwarfUnit where
  /-- the entries below the root; `none` if there is no root -/
  entries : Option Dies
  /-- `unit.line_program` with `header.file` -/
  lineProgram : Option (Nat → Option FileEntry)
  /-- `unit.comp_dir` -/
  compDir : Option (List Char)

/-- The errors, in the order of the source. -/
inductive DwarfError where
  | unit | empty | string | collision | fileZero | noLineProgram | noFile | noAddress
deriving DecidableEq, Repr

/-! ### the order in which `gimli` visits the entries -/

/-- The entries in depth first order with their depth. -/
def flatten : Nat → Dies → List (Nat × Die)
  | _, .nil => []
  | depth, .cons die children rest => (depth, die) :: (flatten (depth + 1) children ++ flatten depth rest)

/-- What `EntriesCursor::next_dfs` returns: the entries with the change of the depth since the entry before. -/
def deltas : Nat → List (Nat × Die) → List (Int × Die)
  | _, [] => []
  | prev, (depth, die) :: rest => ((depth : Int) - (prev : Int), die) :: deltas depth rest

/-! ### paths and addresses -/

/-- `Path::is_absolute` -/
def isAbsolute (p : List Char) : Bool := p.head? == some '/'

/-- `PathBuf::push` -/
def push (p q : List Char) : List Char :=
  if isAbsolute q then q
  else if p ≠ [] ∧ p.getLast? ≠ some '/' then p ++ '/' :: q
  else p ++ q

/-- the directory part of `file_index_to_path` (mod.rs:419-431) -/
def dirPath (compDir : Option (List Char)) : Option (Option (List Char)) → Except DwarfError (List Char)
  | none => .ok []
  | some none => .error .string
  | some (some dir) =>
    if !isAbsolute dir then
      match compDir with
      | some comp => .ok (push (push [] comp) dir)
      | none => .ok (push [] dir)
    else .ok (push [] dir)

/-- `file_index_to_path` (mod.rs:397-440) -/
def fileIndexToPath (u : DwarfUnit) (index : Nat) : Except DwarfError (List Char) :=
  if index = 0 then .error .fileZero
  else match u.lineProgram with
    | none => .error .noLineProgram
    | some files => match files index with
      | none => .error .noFile
      | some file => match dirPath u.compDir file.dir with
        | .error e => .error e
        | .ok p => match file.name with
          | none => .error .string
          | some name => .ok (push p name)

/-- `exprloc2address` (mod.rs:442-456) -/
def exprlocToAddress : List (Option Nat) → Except DwarfError Nat
  | [] => .error .noAddress
  | some address :: _ => .ok address
  | none :: rest => exprlocToAddress rest

/-! ### the walk -/

/-- `depth as usize` for an `isize`; that `depth` overflows, which needs `2 ^ 63` nested entries, is not modelled -/
def toUsize (depth : Int) : Nat := if depth < 0 then (2 ^ 64 + depth).toNat else depth.toNat

/-- `for _ in (depth as usize)..segments.len() + 1 { segments.pop(); }` (mod.rs:311-313) -/
def popTo (depth : Int) (segments : List (List Char)) : List (List Char) :=
  segments.take (segments.length - (segments.length + 1 - toUsize depth))

/-- The attributes of a namespace (mod.rs:305-317). -/
def visitNamespace (depth : Int) : List (AttrName × AttrValue) → List (List Char) → Except DwarfError (List (List Char))
  | [], segments => .ok segments
  | (.name, .str s) :: rest, segments =>
    match s with
    | none => .error .string
    | some s => visitNamespace depth rest (popTo depth segments ++ [s])
  | _ :: rest, segments => visitNamespace depth rest segments

/-- "what we are after" (mod.rs:322-327) -/
structure Found where
  declFile : Option Nat := none
  declLine : Option Nat := none
  name : Option (Option (List Char)) := none
  linkageName : Option (Option (List Char)) := none
  location : Option (List (Option Nat)) := none

/-- The attributes of a variable (mod.rs:329-358). -/
def collect : List (AttrName × AttrValue) → Found → Found
  | [], f => f
  | (.name, .str s) :: rest, f => collect rest { f with name := some s }
  | (.declFile, .fileIndex i) :: rest, f => collect rest { f with declFile := some i }
  | (.declLine, .udata n) :: rest, f => collect rest { f with declLine := some n }
  | (.location, .exprloc ops) :: rest, f => collect rest { f with location := some ops }
  | (.linkageName, .str s) :: rest, f => collect rest { f with linkageName := some s }
  | _ :: rest, f => collect rest f

/-- `segments.join("::")` -/
def joinColons : List (List Char) → List Char
  | [] => []
  | [s] => s
  | s :: rest => s ++ c!"::" ++ joinColons rest

/-- `Locations` -/
abbrev Locations := Nat → Option Loc

/-- `map.insert(addr, loc)` with the check that there was none (mod.rs:381-383) -/
def insert (map : Locations) (address : Nat) (loc : Loc) : Except DwarfError Locations :=
  match map address with
  | some _ => .error .collision
  | none => .ok (fun a => if a = address then some loc else map a)

/-- A variable (mod.rs:319-389); `symbols` are the `raw_symbols` of the table. -/
def visitVariable (u : DwarfUnit) (symbols : List (List Char)) (segments : List (List Char)) (die : Die) (map : Locations) :
    Except DwarfError Locations :=
  let f := collect die.attrs {}
  match f.name, f.linkageName, f.declFile, f.declLine, f.location with
  | some name, some linkageName, some fileIndex, some line, some loc =>
    match name with
    | none => .error .string
    | some name => match linkageName with
      | none => .error .string
      | some linkageName =>
        if name = c!"DEFMT_LOG_STATEMENT" then
          if symbols.any (· = linkageName) then
            match exprlocToAddress loc with
            | .error e => .error e
            | .ok address => match fileIndexToPath u fileIndex with
              | .error e => .error e
              | .ok file => insert map address ⟨file, line, joinColons segments⟩
          else .ok map
        else .ok map
  | _, _, _, _, _ => .ok map

/-- The loop over the entries of a unit (mod.rs:298-391). -/
def visit (u : DwarfUnit) (symbols : List (List Char)) : List (Int × Die) → Int → List (List Char) → Locations →
    Except DwarfError Locations
  | [], _, _, map => .ok map
  | (delta, die) :: rest, depth, segments, map =>
    if die.tag = .namespace then
      match visitNamespace (depth + delta) die.attrs segments with
      | .error e => .error e
      | .ok segments => visit u symbols rest (depth + delta) segments map
    else if die.tag = .variable then
      match visitVariable u symbols segments die map with
      | .error e => .error e
      | .ok map => visit u symbols rest (depth + delta) segments map
    else visit u symbols rest (depth + delta) segments map

/-- The loop over the units (mod.rs:289-392); a unit that cannot be read is `none`. -/
def visitUnits (symbols : List (List Char)) : List (Option DwarfUnit) → Locations → Except DwarfError Locations
  | [], map => .ok map
  | none :: _, _ => .error .unit
  | some u :: rest, map =>
    match u.entries with
    | none => .error .empty
    | some entries => match visit u symbols (deltas 0 (flatten 1 entries)) 0 [] map with
      | .error e => .error e
      | .ok map => visitUnits symbols rest map

/-- `get_locations` (mod.rs:259-395) -/
def getLocations (units : List (Option DwarfUnit)) (symbols : List (List Char)) : Except DwarfError Locations :=
  visitUnits symbols units (fun _ => none)

/-- `Table::indices` (decoder/src/lib.rs:200-208) for one entry: messages that have a level and `println`. -/
def isIndex (e : Entry) : Bool := e.tag.toLevel.isSome || e.tag == .println

end Defmt.Dwarf
