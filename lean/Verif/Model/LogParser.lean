import Verif.Model.LogFormat
/-!
# The `--log-format` strings

Models `decoder/src/log/format/parser.rs`. The combinators of `nom` 7 that are used are written out:
`alt` goes on after an `Error` but not after a `Failure`, `map_res` gives an `Error`, `many0` stops at an
`Error`, and `Parser::and_then` throws away what the second parser leaves.
-/

namespace Defmt.LogFormat

open Parser

/-- `IResult<&str, α, ()>`, with a crash: a panic, or (only in the model) no fuel left. -/
inductive PResult (α : Type) where
  | ok (rest : List Char) (a : α)
  | error
  | failure
  | crash
deriving DecidableEq, Repr

/-- `IntermediateOutput` (parser.rs:134-140). -/
inductive Item where
  | metadata (m : Metadata)
  | width (w : Nat) (p : Padding) (a : Option Alignment)
  | color (c : LogColor)
  | style (s : Style)
  | nested (s : Segment)

/-- `take_until_unbalanced('{', '}')` (parser.rs:146-190). `seen` is `&i[0..index]`, `depth` is
`bracket_counter`. A backslash skips the next character; as the last character it moves `index` past the end
of the text, and the next `&i[index..]` panics. The counter is an `i32`; its overflow is left out. -/
def takeUntilUnbalanced (depth : Nat) (seen : List Char) : List Char → PResult (List Char)
  | [] => if depth = 0 then .ok [] seen else .error
  | c :: rest =>
    if c = '\\' then
      match rest with
      | [] => .crash
      | d :: rest => takeUntilUnbalanced depth (seen ++ [c, d]) rest
    else if c = '{' then takeUntilUnbalanced (depth + 1) (seen ++ [c]) rest
    else if c = '}' then
      if depth = 0 then .ok (c :: rest) seen
      else takeUntilUnbalanced (depth - 1) (seen ++ [c]) rest
    else takeUntilUnbalanced depth (seen ++ [c]) rest

/-- `nom::branch::alt` of two parsers -/
def alt {α : Type} (p q : List Char → PResult α) (i : List Char) : PResult α :=
  match p i with
  | .error => q i
  | r => r

/-- `nom::multi::many0` -/
def many0Loop {α : Type} (p : List Char → PResult α) : Nat → List Char → List α → PResult (List α)
  | 0, _, _ => .crash
  | fuel + 1, i, acc =>
    match p i with
    | .error => .ok i acc
    | .failure => .failure
    | .crash => .crash
    | .ok rest a =>
      if rest.length = i.length then .error else many0Loop p fuel rest (acc ++ [a])

/-- `nom::multi::many0` -/
def many0 {α : Type} (p : List Char → PResult α) (i : List Char) : PResult (List α) :=
  many0Loop p (i.length + 1) i []

/-- The loop of `nom::multi::separated_list1` after the first element. -/
def separatedLoop {α : Type} (sep : Char) (p : List Char → PResult α) :
    Nat → List Char → List α → PResult (List α)
  | 0, _, _ => .crash
  | fuel + 1, i, acc =>
    match i with
    | [] => .ok i acc
    | c :: rest =>
      if c ≠ sep then .ok i acc
      else
        match p rest with
        | .error => .ok i acc
        | .failure => .failure
        | .crash => .crash
        | .ok rest' a => separatedLoop sep p fuel rest' (acc ++ [a])

/-- `nom::multi::separated_list1(char(sep), p)` -/
def separatedList1 {α : Type} (sep : Char) (p : List Char → PResult α) (i : List Char) :
    PResult (List α) :=
  match p i with
  | .ok rest a => separatedLoop sep p (rest.length + 1) rest [a]
  | .error => .error
  | .failure => .failure
  | .crash => .crash

/-- `map_res(take_while(char::is_alphabetic), f)` -/
def word {α : Type} (t : Term) (f : List Char → Option α) (i : List Char) : PResult α :=
  match f (i.takeWhile t.alphabetic) with
  | none => .error
  | some a => .ok (i.dropWhile t.alphabetic) a

/-- The `match` of `parse_metadata` (parser.rs:194-209). The number of `f`s is cast to `u8`. -/
def metadataOf (s : List Char) : Option Metadata :=
  if s = c!"c" then some .crateName
  else if s = c!"F" then some .filePath
  else if s = c!"l" then some .lineNumber
  else if s = c!"s" then some .log
  else if s = c!"L" then some .logLevel
  else if s = c!"m" then some .modulePath
  else if s = c!"t" then some .timestamp
  else if s ≠ [] ∧ s = List.replicate s.length 'f' then some (.fileName (s.length % 256))
  else none

/-- `parse_metadata` (parser.rs:192-214). -/
def parseMetadata (t : Term) (i : List Char) : PResult Item :=
  word t (fun s => (metadataOf s).map Item.metadata) i

/-- The `match` of `parse_color` (parser.rs:218-225). -/
def colorOf (t : Term) (s : List Char) : Option LogColor :=
  if s = c!"severity" then some .severity
  else if s = c!"werror" then some .warnError
  else (t.colorFromStr s).map LogColor.color

/-- `parse_color` (parser.rs:216-230). -/
def parseColor (t : Term) (i : List Char) : PResult Item :=
  word t (fun s => (colorOf t s).map Item.color) i

/-- The `match` of `parse_style` (parser.rs:234-241). -/
def styleFromStr (s : List Char) : Option Style :=
  if s = c!"bold" then some .bold
  else if s = c!"italic" then some .italic
  else if s = c!"underline" then some .underline
  else if s = c!"strike" then some .strike
  else if s = c!"dimmed" then some .dimmed
  else none

/-- `parse_style` (parser.rs:232-246). -/
def parseStyle (t : Term) (i : List Char) : PResult Item :=
  word t (fun s => (styleFromStr s).map Item.style) i

/-- `opt(map_res(one_of("<^>"), …))` (parser.rs:249-254). -/
def optAlignment : List Char → List Char × Option Alignment
  | [] => ([], none)
  | c :: rest =>
    if c = '^' then (rest, some .center)
    else if c = '<' then (rest, some .left)
    else if c = '>' then (rest, some .right)
    else (c :: rest, none)

/-- `parse_width_and_alignment` (parser.rs:248-272). `digit1` takes ASCII digits, at least one. -/
def parseWidth (i : List Char) : PResult Item :=
  let (i, alignment) := optAlignment i
  let digits := i.takeWhile isDigit
  if digits = [] then .error
  else
    match parseDigits (2 ^ 64) digits with
    | none => .error
    | some w =>
      .ok (i.dropWhile isDigit)
        (.width w (if digits.head? = some '0' then .zero else .space) alignment)

/-- `parse_format::<false>` (parser.rs:274-285). -/
def parseFormat (t : Term) : List Char → PResult Item :=
  alt (parseColor t) (alt (parseStyle t) parseWidth)

/-- `parse_format::<true>` (parser.rs:274-285). -/
def parseFormatOrFail (t : Term) (i : List Char) : PResult Item :=
  match parseFormat t i with
  | .ok rest a => .ok rest a
  | .crash => .crash
  | _ => .failure

/-- The variables of `build_log_segment` (parser.rs:290-294). -/
structure Builder where
  metadata : Option Metadata := none
  color : Option LogColor := none
  style : Option (List Style) := none
  width : Option (Nat × Padding × Option Alignment) := none
  nested : Option (List Segment) := none

/-- One round of the loop of `build_log_segment` (parser.rs:295-320). -/
def Builder.add (b : Builder) : Item → Option Builder
  | .metadata m => if b.metadata.isNone then some { b with metadata := some m } else none
  | .color c => if b.color.isNone then some { b with color := some c } else none
  | .style s =>
    if (b.style.getD []).contains s then none
    else some { b with style := some (b.style.getD [] ++ [s]) }
  | .width w p a => if b.width.isNone then some { b with width := some (w, p, a) } else none
  | .nested s => some { b with nested := some (b.nested.getD [] ++ [s]) }

/-- The loop of `build_log_segment` (parser.rs:295-320). -/
def Builder.addAll (b : Builder) : List Item → Option Builder
  | [] => some b
  | i :: is =>
    match b.add i with
    | none => none
    | some b => b.addAll is

/-- The `LogFormat` of `build_log_segment` (parser.rs:360-373). -/
def Builder.format (b : Builder) : Format where
  color := b.color
  style := b.style
  width := b.width.map fun w => w.1
  padding := b.width.map fun w => w.2.1
  alignment := match b.width with | some w => w.2.2 | none => none

/-- `LogMetadata::is_metadata_specifier` (mod.rs:84-89). -/
def Segment.isSpecifier : Segment → Bool
  | .field _ _ => true
  | _ => false

/-- `build_log_segment::<true>` (parser.rs:287-374); `none` is the `Failure`. A group cannot have a metadata
of its own: `parse_nested` does not give one, and if there were one it would be overwritten. -/
def buildGroup (items : List Item) : Option Segment :=
  match ({} : Builder).addAll items with
  | none => none
  | some b =>
    match b.nested with
    | none => none
    | some segments =>
      if segments.any Segment.isSpecifier then some (.nested segments b.format) else none

/-- `build_log_segment::<false>` (parser.rs:287-374); `none` is the `Failure`. -/
def buildField1 (items : List Item) : Option Segment :=
  match ({} : Builder).addAll items with
  | none => none
  | some b =>
    match b.nested with
    | some [s] => if b.metadata.isSome then none else some s
    | some _ => none
    | none =>
      match b.metadata with
      | none => none
      | some m => some (.field m b.format)

/-- `parse_string_segment` (parser.rs:417-422). -/
def parseString (i : List Char) : PResult Segment :=
  let s := i.takeWhile fun c => decide (c ≠ '{' ∧ c ≠ '%')
  if s = [] then .error
  else .ok (i.dropWhile fun c => decide (c ≠ '{' ∧ c ≠ '%')) (.text s)

/-- `map_res(p, |s| Ok(NestedLogSegment(s)))` (parser.rs:425-430). -/
def mapNested (p : List Char → PResult Segment) (i : List Char) : PResult Item :=
  match p i with
  | .ok rest s => .ok rest (.nested s)
  | .error => .error
  | .failure => .failure
  | .crash => .crash

/-- `preceded(char('%'), parse_format::<true>)` (parser.rs:431). -/
def parsePercent (t : Term) : List Char → PResult Item
  | '%' :: rest => parseFormatOrFail t rest
  | _ => .error

/-- `parse_nested` (parser.rs:424-441); `arg` is `parse_argument::<NEST>`. -/
def parseNested (t : Term) (arg : List Char → PResult Segment) (i : List Char) : PResult Item :=
  match many0 (alt (mapNested arg) (alt (mapNested parseString) (parsePercent t))) i with
  | .ok rest items =>
    (match buildGroup items with
      | none => .failure
      | some s => .ok rest (.nested s))
  | .error => .error
  | .failure => .failure
  | .crash => .crash

/-- `parse_nested_log_segment` (parser.rs:383-391). The failure of `build_log_segment` within `map_res` is an
error. -/
def parseNestedLogSegment (t : Term) (i : List Char) : PResult Item :=
  match separatedList1 ':' (alt (parseMetadata t) (parseFormat t)) i with
  | .ok rest items =>
    (match buildField1 items with
      | none => .error
      | some s => .ok rest (.nested s))
  | .error => .error
  | .failure => .failure
  | .crash => .crash

/-- `parse_log_segment::<nest>` (parser.rs:376-405); `arg` is `parse_argument`. -/
def parseLogSegment (t : Term) (arg : Bool → List Char → PResult Segment) (nest : Bool)
    (i : List Char) : PResult Segment :=
  let items :=
    if nest then
      separatedList1 '%'
        (alt (parseNestedLogSegment t) (alt (parseFormat t) (parseNested t (arg false)))) i
    else
      separatedList1 ':' (alt (parseMetadata t) (alt (parseFormat t) (parseNested t (arg true)))) i
  match items with
  | .ok rest items =>
    (match buildField1 items with
      | none => .failure
      | some s => .ok rest s)
  | .error => .error
  | .failure => .failure
  | .crash => .crash

/-- `parse_argument::<nest>` (parser.rs:407-414). What `parse_log_segment` leaves of the text between the
brackets is thrown away. -/
def parseArgument (t : Term) : Nat → Bool → List Char → PResult Segment
  | 0, _, _ => .crash
  | fuel + 1, nest, i =>
    match i with
    | [] => .error
    | c :: rest =>
      if c ≠ '{' then .error
      else
        match takeUntilUnbalanced 0 [] rest with
        | .ok [] _ => .error
        | .ok (_ :: rest) content =>
          (match parseLogSegment t (parseArgument t fuel) nest content with
            | .ok _ s => .ok rest s
            | .error => .error
            | .failure => .failure
            | .crash => .crash)
        | .error => .error
        | .failure => .failure
        | .crash => .crash

mutual

/-- `format_contains_log_specifier` (parser.rs:443-456). -/
def containsLog : List Segment → Bool
  | [] => false
  | s :: ss => segmentContainsLog s || containsLog ss

/-- The loop body of `format_contains_log_specifier` (parser.rs:445-453). -/
def segmentContainsLog : Segment → Bool
  | .field m _ => m = .log
  | .text _ => false
  | .nested ss _ => containsLog ss

end

/-- `parse` (parser.rs:458-470); the error messages are left out. What `many0` leaves is thrown away. -/
def parse (t : Term) (i : List Char) : Outcome Unit (List Segment) :=
  match many0 (alt (parseArgument t (i.length + 1) false) parseString) i with
  | .ok _ segments => if containsLog segments then .ok segments else .err ()
  | .error => .err ()
  | .failure => .err ()
  | .crash => .panic

/-- `FormatterFormat` (mod.rs:276-299). -/
inductive FormatterFormat where
  | default (withLocation : Bool)
  | oneLine (withLocation : Bool)
  | custom (s : List Char)
deriving DecidableEq, Repr

/-- `DefaultStyle` with `get_string` (mod.rs:338-356). -/
def defaultStyle (withLocation hasTimestamp : Bool) : List Char :=
  match withLocation, hasTimestamp with
  | false, false => c!"{L} {s}"
  | false, true => c!"{t} {L} {s}"
  | true, false => c!"{L} {s}\n└─ {m} @ {F}:{l}"
  | true, true => c!"{t} {L} {s}\n└─ {m} @ {F}:{l}"

/-- `OneLineStyle` with `get_string` (mod.rs:338-346, 361-366). -/
def oneLineStyle (withLocation hasTimestamp : Bool) : List Char :=
  match withLocation, hasTimestamp with
  | false, false => c!"{[{L}]%bold} {s}"
  | false, true => c!"{t} {[{L}]%bold} {s}"
  | true, false => c!"{[{L}]%bold} {s} {({c:bold} {fff}:{l:1})%dimmed}"
  | true, true => c!"{t} {[{L}]%bold} {s} {({c:bold} {fff}:{l:1})%dimmed}"

/-- The format string of `InternalFormatter::new` (mod.rs:426-449). -/
def formatString (format : FormatterFormat) (isTimestampAvailable : Bool) (source : Source) :
    List Char :=
  match format with
  | .default withLocation =>
    (if source = .host then c!"(HOST) " else []) ++ defaultStyle withLocation isTimestampAvailable
  | .oneLine withLocation =>
    (if source = .host then c!"(HOST) " else []) ++ oneLineStyle withLocation isTimestampAvailable
  | .custom s => s

/-- `InternalFormatter::new` (mod.rs:425-471), which is `Formatter::new` and `HostFormatter::new`; `none` is a panic:
the `expect` on the result of `parse`, or a panic of `parse`. The warnings about timestamps are left out. -/
def newFormatter (t : Term) (format : FormatterFormat) (isTimestampAvailable : Bool) (source : Source) :
    Option (List Segment) :=
  match parse t (formatString format isTimestampAvailable source) with
  | .ok segments => some segments
  | .err _ => none
  | .panic => none

end Defmt.LogFormat
