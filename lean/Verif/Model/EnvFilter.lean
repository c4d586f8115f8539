import Verif.Model.Decoder
/-!
# The `DEFMT_LOG` filter

Models `macros/src/function_like/log/env_filter.rs` and `macros/src/function_like/log/env_filter/parse.rs`,
and the part of `macros/src/function_like/log.rs` that uses the filter.

A `&str` is the list of its bytes, as in Rust: the separators `,`, `=` and `::` are ASCII, so splitting a
UTF-8 string at them is splitting its bytes, and both `Ord for String` and the comparison of the generated
code compare bytes.

`syn::parse_str::<Ident>(segment).is_ok()` is the parameter `ident`.

`panic!` in the source is `abort_call_site!`: it ends the expansion with a compile error. It is the error
value here.
-/

namespace Defmt

/-- `b!"abc"` is the list of the (ASCII) bytes of `abc`. -/
syntax:max "b!" str : term
open Lean in
macro_rules
  | `(b! $s:str) => do
    let mut acc : TSyntax `term ← `(([] : List UInt8))
    for c in s.getString.toList.reverse do
      let n : TSyntax `term := ⟨Syntax.mkNumLit (toString c.toNat)⟩
      acc ← `(List.cons ($n : UInt8) $acc)
    return acc

namespace EnvFilter

/-- Position of a level in the derived `PartialOrd for Level` (parser/src/lib.rs:101-108): declaration order. -/
def rank : Level → Nat
  | .trace => 0
  | .debug => 1
  | .info => 2
  | .warn => 3
  | .error => 4

/-- `type LogLevelOrOff` (parse.rs:8). `none` is `off`. -/
abbrev LevelOrOff := Option Level

/-- `struct ModulePath` (parse.rs:11-14). -/
abbrev ModulePath := List (List UInt8)

/-- `enum Entry` (parse.rs:44-52). -/
inductive Entry where
  | logLevel (l : LevelOrOff)
  | modulePath (p : ModulePath)
  | modulePathLogLevel (p : ModulePath) (l : LevelOrOff)
deriving DecidableEq, Repr

/-- The compile errors (parse.rs:26-32, 56-60, 66-68, 101-104). -/
inductive FilterError where
  | unknownLevel (text : List UInt8)
  | emptyPath
  | invalidIdentifier (text : List UInt8)
deriving DecidableEq, Repr

/-- `str::split(c)` for an ASCII character: the pieces between the occurrences of `sep`. -/
def split (sep : UInt8) : List UInt8 → List (List UInt8)
  | [] => [[]]
  | b :: rest =>
    if b = sep then [] :: split sep rest
    else match split sep rest with
      | [] => [[b]]
      | piece :: pieces => (b :: piece) :: pieces

/-- `str::split("::")`: occurrences are found from the left and do not overlap. -/
def splitPath : List UInt8 → List (List UInt8)
  | [] => [[]]
  | [b] => [[b]]
  | b :: b' :: rest =>
    if b = 58 ∧ b' = 58 then [] :: splitPath rest
    else match splitPath (b' :: rest) with
      | [] => [[b]]
      | piece :: pieces => (b :: piece) :: pieces

/-- `str::rsplit_once(c)`: what is before and after the last occurrence of `sep`. -/
def rsplitOnce (sep : UInt8) : List UInt8 → Option (List UInt8 × List UInt8)
  | [] => none
  | b :: rest =>
    match rsplitOnce sep rest with
    | some (before, after) => some (b :: before, after)
    | none => if b = sep then some ([], rest) else none

/-- `parse_log_level` (parse.rs:89-99). -/
def parseLogLevel (input : List UInt8) : Option LevelOrOff :=
  if input = b!"debug" then some (some .debug)
  else if input = b!"error" then some (some .error)
  else if input = b!"info" then some (some .info)
  else if input = b!"off" then some none
  else if input = b!"trace" then some (some .trace)
  else if input = b!"warn" then some (some .warn)
  else none

/-- `input.split("::").for_each(validate_identifier)` (parse.rs:70, 101-104). -/
def validate (ident : List UInt8 → Bool) : List (List UInt8) → Except FilterError Unit
  | [] => .ok ()
  | s :: rest => if ident s then validate ident rest else .error (.invalidIdentifier s)

/-- `ModulePath::parse` (parse.rs:65-78). -/
def ModulePath.parse (ident : List UInt8 → Bool) (input : List UInt8) : Except FilterError ModulePath :=
  if input = [] then .error .emptyPath
  else match validate ident (splitPath input) with
    | .error e => .error e
    | .ok () => .ok (splitPath input)

/-- `ModulePath::from_crate_name` (parse.rs:55-63). Its condition `is_empty() && contains("::")` is never true;
it ends in `parse`. -/
def ModulePath.fromCrateName (ident : List UInt8 → Bool) (input : List UInt8) : Except FilterError ModulePath :=
  ModulePath.parse ident input

/-- `impl Display for ModulePath` (parse.rs:85-89): `segments.join("::")`. -/
def ModulePath.display : ModulePath → List UInt8
  | [] => []
  | [s] => s
  | s :: rest => s ++ [58, 58] ++ ModulePath.display rest

/-- The closure of `defmt_log` (parse.rs:21-41). -/
def parseEntry (ident : List UInt8 → Bool) (entry : List UInt8) : Except FilterError Entry :=
  match rsplitOnce 61 entry with
  | some (path, level) =>
    match ModulePath.parse ident path with
    | .error e => .error e
    | .ok modulePath =>
      match parseLogLevel level with
      | none => .error (.unknownLevel level)
      | some logLevel => .ok (.modulePathLogLevel modulePath logLevel)
  | none =>
    match parseLogLevel entry with
    | some logLevel => .ok (.logLevel logLevel)
    | none =>
      match ModulePath.parse ident entry with
      | .error e => .error e
      | .ok modulePath => .ok (.modulePath modulePath)

/-- The non-empty pieces from right to left: `input.rsplit(',').filter(..)` (parse.rs:18-20). -/
def pieces (input : List UInt8) : List (List UInt8) :=
  ((split 44 input).reverse).filter (fun e => e ≠ [])

/-- `BTreeMap<ModulePath, V>` as the list of its entries in iteration order (ascending keys). `insert`:
replaces the value of an equal key. -/
def mapInsert {V : Type} (p : ModulePath) (v : V) : List (ModulePath × V) → List (ModulePath × V)
  | [] => [(p, v)]
  | (q, w) :: rest =>
    if p = q then (p, v) :: rest
    else if p < q then (p, v) :: (q, w) :: rest
    else (q, w) :: mapInsert p v rest

/-- `BTreeMap::contains_key`. -/
def mapContains {V : Type} (p : ModulePath) (m : List (ModulePath × V)) : Bool :=
  m.any (fun e => e.1 = p)

/-- `struct EnvFilter` (env_filter.rs:15-19). -/
abbrev Filter := List (ModulePath × LevelOrOff)

/-- `modpath.crate_name() == caller_crate` (env_filter.rs:56, parse.rs:80-82). -/
def inCrate (krate : List UInt8) (p : ModulePath) : Bool := p.head? = some krate

/-- `if modpath.crate_name() == caller_crate && !entries.contains_key(&modpath) { entries.insert(..) }`
(env_filter.rs:56-58). -/
def addEntry (krate : List UInt8) (entries : Filter) (p : ModulePath) (l : LevelOrOff) : Filter :=
  if inCrate krate p && !mapContains p entries then mapInsert p l entries else entries

/-- The loop of `EnvFilter::new` (env_filter.rs:40-60) over the remaining pieces of the input, with the entries
and the fallback level so far. The iterator is lazy: a piece is parsed when the loop gets to it. -/
def loop (ident : List UInt8 → Bool) (krate : List UInt8) :
    List (List UInt8) → Filter → Option LevelOrOff → Except FilterError (Filter × Option LevelOrOff)
  | [], entries, fallback => .ok (entries, fallback)
  | piece :: rest, entries, fallback =>
    match parseEntry ident piece with
    | .error e => .error e
    | .ok (.logLevel l) => loop ident krate rest entries (some (fallback.getD l))
    | .ok (.modulePath p) => loop ident krate rest (addEntry krate entries p (some .trace)) fallback
    | .ok (.modulePathLogLevel p l) => loop ident krate rest (addEntry krate entries p l) fallback

/-- `entries.entry(modpath).or_insert_with(..)` (env_filter.rs:63-66). -/
def finish (entries : Filter) (p : ModulePath) (fallback : Option LevelOrOff) : Filter :=
  if mapContains p entries then entries else mapInsert p (fallback.getD (some .error)) entries

/-- `EnvFilter::new` (env_filter.rs:30-69). -/
def EnvFilter.new (ident : List UInt8 → Bool) (defmtLog : Option (List UInt8)) (krate : List UInt8) :
    Except FilterError Filter :=
  match loop ident krate (pieces (defmtLog.getD [])) [] none with
  | .error e => .error e
  | .ok (entries, fallback) =>
    match ModulePath.fromCrateName ident krate with
    | .error e => .error e
    | .ok p => .ok (finish entries p fallback)

/-- `modules_on_for` (env_filter.rs:127-142). -/
def modulesOnFor (filter : Filter) (level : Level) : List ModulePath :=
  filter.filterMap (fun e => match e.2 with
    | some min => if rank min ≤ rank level then some e.1 else none
    | none => none)

/-- `always_off_modules` (env_filter.rs:145-158). -/
def alwaysOffModules (filter : Filter) : List ModulePath :=
  filter.filterMap (fun e => match e.2 with
    | none => some e.1
    | some _ => none)

/-- `collect::<BTreeMap<_, _>>()`. -/
def collect {V : Type} (l : List (ModulePath × V)) : List (ModulePath × V) :=
  l.foldl (fun m e => mapInsert e.1 e.2 m) []

/-- The list of checks `path_check` generates (env_filter.rs:76-111): what to compare `module_path!()` with, and
what to return if it is inside of it. `none`: no statement of this level of the crate is compiled in. -/
def pathCheck (filter : Filter) (level : Level) : Option (List (List UInt8 × Bool)) :=
  if modulesOnFor filter level = [] then none
  else some <|
    ((collect ((modulesOnFor filter level).map (·, true) ++ (alwaysOffModules filter).map (·, false))).reverse).map
      (fun e => (ModulePath.display e.1, e.2))

/-- The `#(#byte_checks &&)*` of `codegen_is_inside_of_check` (env_filter.rs:168-172, 179). Indexing is in bounds
because of the length check before it. -/
def startsWith : (parent modulePath : List UInt8) → Bool
  | [], _ => true
  | _ :: _, [] => false
  | b :: parent, b' :: modulePath => b' = b && startsWith parent modulePath

/-- `codegen_is_inside_of_check` (env_filter.rs:165-197). -/
def isInsideOf (parent modulePath : List UInt8) : Bool :=
  if parent.length > modulePath.length then false
  else startsWith parent modulePath &&
    (if parent.length = modulePath.length then true else modulePath[parent.length]? = some 58)

/-- `const fn check` (env_filter.rs:113-121). -/
def check (modulePath : List UInt8) : List (List UInt8 × Bool) → Bool
  | [] => false
  | (parent, ret) :: rest => if isInsideOf parent modulePath then ret else check modulePath rest

/-- Does a log statement of `level` in a function of the module with `module_path!() == modulePath` send its
frame? (log.rs:47-84) -/
def emits (filter : Filter) (level : Level) (modulePath : List UInt8) : Bool :=
  match pathCheck filter level with
  | none => false
  | some checks => check modulePath checks

end EnvFilter
end Defmt
