/-!
# Format string parser

Models `parser/src/lib.rs`, `parser/src/types.rs`, `parser/src/display_hint.rs`.

Strings are `List Char`. Rust works with byte offsets; the only place where the difference between
byte and character offsets is observable is the slice in `parse_range`, which is modelled with the
UTF-8 length of the characters. Everywhere else offsets are obtained from `find`/`char_indices`
(always character boundaries) and are only compared with each other.

`usize` is the 64 bit `usize` of the host (the parser runs on the host and inside the macros).
-/

namespace Defmt

/-- `c!"abc"` is the explicit character list `['a', 'b', 'c']`. -/
syntax:max "c!" str : term
open Lean in
macro_rules
  | `(c! $s:str) => do
    let mut acc : TSyntax `term ← `(([] : List Char))
    for c in s.getString.toList.reverse do
      let ch : TSyntax `term := ⟨Syntax.mkCharLit c⟩
      acc ← `(List.cons $ch $acc)
    return acc

/-- Result of a Rust function that returns `Result<α, ε>` and may panic. -/
inductive Outcome (ε α : Type) where
  | ok (a : α)
  | err (e : ε)
  | panic
deriving DecidableEq, Repr

namespace Parser

/-- `enum Type` (parser/src/types.rs:4-46). -/
inductive Ty where
  | bitField (start stop : Nat)
  | bool
  | char
  | debug
  | display
  | formatSequence
  | f32
  | f64
  | format
  | formatArray (len : Nat)
  | formatSlice
  | i8 | i16 | i32 | i64 | i128 | isize
  | istr
  | str
  | u8 | u16 | u32 | u64 | u128 | usize
  | u8Slice
  | u8Array (len : Nat)
deriving DecidableEq, Repr

/-- `enum TimePrecision` (parser/src/display_hint.rs:131-135). -/
inductive TimePrecision where
  | micros | millis | seconds
deriving DecidableEq, Repr

/-- `enum DisplayHint` (parser/src/display_hint.rs:6-58). -/
inductive Hint where
  | noHint (zeroPad : Nat)
  | hexadecimal (alternate uppercase : Bool) (zeroPad : Nat)
  | octal (alternate : Bool) (zeroPad : Nat)
  | binary (alternate : Bool) (zeroPad : Nat)
  | ascii
  | debug
  | seconds (p : TimePrecision)
  | time (p : TimePrecision)
  | iso8601 (p : TimePrecision)
  | bitflags (name package disambiguator : List Char) (crateName : Option (List Char))
  | cbor
  | unknown (s : List Char)
deriving DecidableEq, Repr

/-- `enum Error` (parser/src/lib.rs:25-50). The payload of `InvalidInteger` (which integer error)
is dropped. -/
inductive Error where
  | invalidTypeSpecifier (s : List Char)
  | invalidInteger
  | invalidArraySpecifierMissingLength
  | invalidArraySpecifierMissingBracket
  | trailingDataAfterBitfieldRange
  | malformedFormatString
  | unknownDisplayHint (s : List Char)
  | unexpectedContentInFormatString (s : List Char)
  | unmatchedOpenBracket
  | unmatchedCloseBracket
  | conflictingTypes (index : Nat) (a b : Ty)
  | unusedArgument (index : Nat)
deriving DecidableEq, Repr

/-- `struct Parameter` (parser/src/lib.rs:53-61). -/
structure Parameter where
  index : Nat
  ty : Ty
  hint : Option Hint
deriving DecidableEq, Repr

/-- `enum Fragment` (parser/src/lib.rs:64-71). -/
inductive Fragment where
  | literal (s : List Char)
  | param (p : Parameter)
deriving DecidableEq, Repr

/-- `struct Param` (parser/src/lib.rs:93-97). -/
structure Param where
  index : Option Nat
  ty : Ty
  hint : Option Hint
deriving DecidableEq, Repr

/-- `enum ParserMode` (parser/src/lib.rs:179-185). -/
inductive Mode where
  | strict
  | forwardsCompatible
deriving DecidableEq, Repr

/-- `char::is_ascii_digit`. -/
def isDigit (c : Char) : Bool := '0' ≤ c && c ≤ '9'

/-- Value of a digit string, most significant digit first. -/
def digitsValue (ds : List Char) : Nat := ds.foldl (fun n c => n * 10 + (c.toNat - '0'.toNat)) 0

/-- `str::parse::<u8/usize>()` on a string that only contains ASCII digits:
error on the empty string and on overflow (`max` is the number of representable values). -/
def parseDigits (max : Nat) (ds : List Char) : Option Nat :=
  if ds = [] then none
  else if digitsValue ds < max then some (digitsValue ds) else none

/-- `str::strip_prefix`. -/
def stripPrefix : List Char → List Char → Option (List Char)
  | [], s => some s
  | _ :: _, [] => none
  | p :: ps, c :: cs => if p = c then stripPrefix ps cs else none

/-- `FromStr for Type` (parser/src/types.rs:49-81), as the table of its match arms. -/
def typeNames : List (List Char × Ty) :=
  [(c!"u8", .u8), (c!"u16", .u16), (c!"u32", .u32), (c!"u64", .u64), (c!"u128", .u128),
   (c!"usize", .usize), (c!"i8", .i8), (c!"i16", .i16), (c!"i32", .i32), (c!"i64", .i64),
   (c!"i128", .i128), (c!"isize", .isize), (c!"f32", .f32), (c!"f64", .f64), (c!"bool", .bool),
   (c!"str", .str), (c!"istr", .istr), (c!"__internal_Debug", .debug),
   (c!"__internal_Display", .display), (c!"__internal_FormatSequence", .formatSequence),
   (c!"[u8]", .u8Slice), (c!"?", .format), (c!"[?]", .formatSlice), (c!"char", .char)]

/-- `Type::from_str` (parser/src/types.rs:52-80). -/
def typeFromStr (s : List Char) : Option Ty := typeNames.lookup s

/-- `s[n..n + 2]` of `parse_range` after the digits: the first two *bytes* of the rest of the
string. `none` is a panic (out of bounds or not a character boundary). -/
def firstTwoBytes : List Char → Option (List Char)
  | [] => none
  | c :: cs =>
    if c.utf8Size = 2 then some [c]
    else if c.utf8Size = 1 then
      match cs with
      | [] => none
      | d :: _ => if d.utf8Size = 1 then some [c, d] else none
    else none

/-- `parse_range` (parser/src/lib.rs:122-151). `.ok none` is Rust's `None`; the consumed length
is in characters (all consumed characters are ASCII). -/
def parseRange (s : List Char) : Outcome Empty (Option (Nat × Nat × Nat)) :=
  let startDigits := s.takeWhile isDigit
  match parseDigits 256 startDigits with
  | none => .ok none
  | some start =>
    let s := s.dropWhile isDigit
    match firstTwoBytes s with
    | none => .panic
    | some two =>
      if two ≠ c!".." then .ok none
      else
        let s := s.drop 2
        let endDigits := s.takeWhile isDigit
        match parseDigits 256 endDigits with
        | none => .ok none
        | some stop =>
          if stop ≤ start ∨ start ≥ 128 ∨ stop > 128 then .ok none
          else .ok (some (start, stop, startDigits.length + endDigits.length + 2))

/-- `parse_array` (parser/src/lib.rs:156-176). -/
def parseArray (s : List Char) : Except Error Nat :=
  let s := s.dropWhile (· = ' ')
  if s = [] then .error .invalidArraySpecifierMissingLength
  else
    let lenDigits := s.takeWhile isDigit
    let rest := s.dropWhile isDigit
    if rest = [] then .error .invalidArraySpecifierMissingBracket
    else
      match parseDigits (2 ^ 64) lenDigits with
      | none => .error .invalidInteger
      | some len =>
        if rest ≠ c!"]" then .error .invalidArraySpecifierMissingBracket else .ok len

/-- The type part of `parse_param` (parser/src/lib.rs:219-234). `input` is only used for the error
message. -/
def parseType (input fragment : List Char) : Outcome Error Ty :=
  match typeFromStr fragment with
  | some ty => .ok ty
  | none =>
    match stripPrefix c!"[u8;" fragment with
    | some s =>
      match parseArray s with
      | .ok n => .ok (.u8Array n)
      | .error e => .err e
    | none =>
      match stripPrefix c!"[?;" fragment with
      | some s =>
        match parseArray s with
        | .ok n => .ok (.formatArray n)
        | .error e => .err e
      | none =>
        match parseRange fragment with
        | .panic => .panic
        | .ok (some (start, stop, used)) =>
          if used ≠ fragment.length then .err .trailingDataAfterBitfieldRange
          else .ok (.bitField start stop)
        | .ok none => .err (.invalidTypeSpecifier input)

/-- `parse_integer::<usize>` (parser/src/display_hint.rs:142-151). -/
def parseInteger (s : List Char) : Option (List Char × Nat) :=
  match parseDigits (2 ^ 64) (s.takeWhile isDigit) with
  | none => none
  | some n => some (s.dropWhile isDigit, n)

/-- `str::split('@')`. -/
def splitAt (sep : Char) : List Char → List (List Char)
  | [] => [[]]
  | c :: cs =>
    if c = sep then [] :: splitAt sep cs
    else
      match splitAt sep cs with
      | [] => [[c]]
      | w :: ws => (c :: w) :: ws

/-- The final `match s` of `DisplayHint::parse` (parser/src/display_hint.rs:97-126). -/
def hintFromStr (alternate : Bool) (zeroPad : Nat) (s : List Char) : Option Hint :=
  [(c!"", Hint.noHint zeroPad), (c!"us", .seconds .micros), (c!"ms", .seconds .millis),
   (c!"tus", .time .micros), (c!"tms", .time .millis), (c!"ts", .time .seconds),
   (c!"a", .ascii), (c!"b", .binary alternate zeroPad), (c!"o", .octal alternate zeroPad),
   (c!"x", .hexadecimal alternate false zeroPad), (c!"X", .hexadecimal alternate true zeroPad),
   (c!"iso8601ms", .iso8601 .millis), (c!"iso8601s", .iso8601 .seconds), (c!"cbor", .cbor),
   (c!"?", .debug)].lookup s

/-- `BITFLAGS_HINT_START` (parser/src/display_hint.rs:63). -/
def bitflagsHintStart : List Char := c!"__internal_bitflags_"

/-- The bitflags part of `DisplayHint::parse` (parser/src/display_hint.rs:83-95); `s` is the hint
text (for `Unknown`), `stripped` the text after the prefix. -/
def parseBitflagsHint (s stripped : List Char) : Hint :=
  match splitAt '@' stripped with
  | [name, package, disambiguator] => .bitflags name package disambiguator none
  | [name, package, disambiguator, crateName] =>
    .bitflags name package disambiguator (some crateName)
  | _ => .unknown s

/-- `DisplayHint::parse` (parser/src/display_hint.rs:61-127). -/
def parseHint (s : List Char) : Option Hint :=
  let (alternate, s) :=
    match stripPrefix c!"#" s with
    | some rest => (true, rest)
    | none => (false, s)
  let padded : Option (List Char × Nat) :=
    match stripPrefix c!"0" s with
    | some rest => parseInteger rest
    | none => some (s, 0)
  match padded with
  | none => none
  | some (s, zeroPad) =>
    match stripPrefix bitflagsHintStart s with
    | some stripped => some (parseBitflagsHint s stripped)
    | none => hintFromStr alternate zeroPad s

/-- The hint part of `parse_param` (parser/src/lib.rs:239-256). -/
def parseHintPart (mode : Mode) (input : List Char) : Except Error (Option Hint) :=
  match stripPrefix c!":" input with
  | some input =>
    if input = [] then .error .malformedFormatString
    else
      match parseHint input, mode with
      | some a, _ => .ok (some a)
      | none, .strict => .error (.unknownDisplayHint input)
      | none, .forwardsCompatible => .ok (some (.unknown input))
  | none =>
    if input ≠ [] then .error (.unexpectedContentInFormatString input) else .ok none

/-- Type and hint part of `parse_param` (parser/src/lib.rs:204-258). -/
def parseTypeHint (mode : Mode) (index : Option Nat) (input : List Char) : Outcome Error Param :=
  match stripPrefix c!"=" input with
  | some input =>
    match parseType input (input.takeWhile (· ≠ ':')) with
    | .panic => .panic
    | .err e => .err e
    | .ok ty =>
      match parseHintPart mode (input.dropWhile (· ≠ ':')) with
      | .error e => .err e
      | .ok hint => .ok { index, ty, hint }
  | none =>
    match parseHintPart mode input with
    | .error e => .err e
    | .ok hint => .ok { index, ty := .format, hint }

/-- `parse_param` (parser/src/lib.rs:190-259). -/
def parseParam (mode : Mode) (input : List Char) : Outcome Error Param :=
  let indexDigits := input.takeWhile isDigit
  let rest := input.dropWhile isDigit
  if indexDigits = [] then parseTypeHint mode none rest
  else
    match parseDigits (2 ^ 64) indexDigits with
    | none => .err .invalidInteger
    | some i => parseTypeHint mode (some i) rest

/-- The scan for single braces in `push_literal` (parser/src/lib.rs:265-282). -/
def checkBraces : Bool → Bool → List Char → Option Error
  | lastOpen, lastClose, [] =>
    if lastOpen then some .unmatchedOpenBracket
    else if lastClose then some .unmatchedCloseBracket
    else none
  | lastOpen, lastClose, c :: cs =>
    if c = '{' then checkBraces (!lastOpen) lastClose cs
    else if c = '}' then checkBraces lastOpen (!lastClose) cs
    else if lastOpen then some .unmatchedOpenBracket
    else if lastClose then some .unmatchedCloseBracket
    else checkBraces lastOpen lastClose cs

/-- `str::replace(cc, c)` for a doubled character (parser/src/lib.rs:285): left to right, non
overlapping. -/
def undouble (c : Char) : List Char → List Char
  | [] => []
  | [a] => [a]
  | a :: b :: rest =>
    if a = c ∧ b = c then c :: undouble c rest else a :: undouble c (b :: rest)

/-- `push_literal` (parser/src/lib.rs:261-288). -/
def pushLiteral (frags : List Fragment) (unescaped : List Char) : Except Error (List Fragment) :=
  match checkBraces false false unescaped with
  | some e => .error e
  | none => .ok (frags ++ [.literal (undouble '}' (undouble '{' unescaped))])

/-- `&s[a..b]`, in characters. Only used with `a ≤ b ≤ s.length`. -/
def slice (s : List Char) (a b : Nat) : List Char := (s.drop a).take (b - a)

/-- The `while let Some((brace_pos, ch)) = chars.next()` loop of `parse`
(parser/src/lib.rs:327-370). `rest` are the remaining characters of `s`, `pos` the position of the
first of them, `skip` says that the next character is the second `{` of an escape (the inner
`chars.next()` of line 336). Returns the fragments so far and `end_pos`. -/
def scanLoop (mode : Mode) (s : List Char) :
    List Char → Bool → Nat → Nat → Nat → List Fragment → Outcome Error (List Fragment × Nat)
  | [], _, _, endPos, _, frags => .ok (frags, endPos)
  | ch :: rest, skip, pos, endPos, nextIndex, frags =>
    if skip then scanLoop mode s rest false (pos + 1) endPos nextIndex frags
    else if ch ≠ '{' then scanLoop mode s rest false (pos + 1) endPos nextIndex frags
    else if rest.head? = some '{' then
      scanLoop mode s rest true (pos + 1) endPos nextIndex frags
    else
      match (if pos > endPos then pushLiteral frags (slice s endPos pos) else .ok frags) with
      | .error e => .err e
      | .ok frags =>
        if '}' ∉ rest then .err .unmatchedOpenBracket
        else
          let paramStr := rest.takeWhile (· ≠ '}')
          let endPos := pos + 1 + paramStr.length + 1
          match parseParam mode paramStr with
          | .panic => .panic
          | .err e => .err e
          | .ok param =>
            match param.index with
            | some index =>
              scanLoop mode s rest false (pos + 1) endPos nextIndex
                (frags ++ [.param { index, ty := param.ty, hint := param.hint }])
            | none =>
              scanLoop mode s rest false (pos + 1) endPos (nextIndex + 1)
                (frags ++ [.param { index := nextIndex, ty := param.ty, hint := param.hint }])

/-- Largest length of a `Vec<Option<Type>>` (16 byte elements, allocations are at most
`isize::MAX` bytes); `Vec::resize` panics with "capacity overflow" above it. Smaller requests that
exceed the available memory abort the process; that is not modelled. -/
def maxArgs : Nat := (2 ^ 63 - 1) / 16

/-- One iteration of the type conflict check (parser/src/lib.rs:379-396). -/
def checkArg (args : List (Option Ty)) (p : Parameter) : Outcome Error (List (Option Ty)) :=
  if args.length ≤ p.index ∧ p.index + 1 > maxArgs then .panic
  else
    let args :=
      if args.length ≤ p.index then
        args ++ List.replicate (p.index + 1 - args.length) none
      else args
    match args[p.index]? with
    | none => .panic
    | some none => .ok (args.set p.index (some p.ty))
    | some (some other) =>
      match other, p.ty with
      | .bitField _ _, .bitField _ _ => .ok args
      | a, b => if a ≠ b then .err (.conflictingTypes p.index a b) else .ok args

/-- The `for frag in &fragments` loop (parser/src/lib.rs:378-398). -/
def checkArgs : List (Option Ty) → List Fragment → Outcome Error (List (Option Ty))
  | args, [] => .ok args
  | args, .literal _ :: fs => checkArgs args fs
  | args, .param p :: fs =>
    match checkArg args p with
    | .panic => .panic
    | .err e => .err e
    | .ok args => checkArgs args fs

/-- The density check (parser/src/lib.rs:401-405): first index without a type. -/
def firstUnused : Nat → List (Option Ty) → Option Nat
  | _, [] => none
  | i, none :: _ => some i
  | i, some _ :: rest => firstUnused (i + 1) rest

/-- `parse` (parser/src/lib.rs:318-408). -/
def parse (s : List Char) (mode : Mode) : Outcome Error (List Fragment) :=
  match scanLoop mode s s false 0 0 0 [] with
  | .panic => .panic
  | .err e => .err e
  | .ok (frags, endPos) =>
    match (if endPos ≠ s.length then pushLiteral frags (s.drop endPos) else .ok frags) with
    | .error e => .err e
    | .ok frags =>
      match checkArgs [] frags with
      | .panic => .panic
      | .err e => .err e
      | .ok args =>
        match firstUnused 0 args with
        | some i => .err (.unusedArgument i)
        | none => .ok frags

/-- The parameters of a fragment list, in order. -/
def params : List Fragment → List Parameter
  | [] => []
  | .literal _ :: fs => params fs
  | .param p :: fs => p :: params fs

/-- `get_max_bitfield_range` (parser/src/lib.rs:292-316) on the ranges of the parameters (the
`unreachable!()` for other types is a panic in the callers' model). -/
def maxBitfieldRange : List (Nat × Nat) → Option (Nat × Nat)
  | [] => none
  | (s, e) :: rest =>
    match maxBitfieldRange rest with
    | none => some (s, e)
    | some (s', e') => some (min s s', max e e')

end Parser
end Defmt
