import Verif.Model.Elf
import Verif.Model.Frame
import Verif.Model.Utf8
/-!
# Turning a log record into a line of output

Models `decoder/src/log/format/mod.rs` and `create_module_path` of `decoder/src/log/json_logger.rs`.

External code: the `colored` crate (which names are colours, the codes of colours and styles, whether
colours are on), `dissimilar::diff`, `char::is_alphabetic` and the largest width `core::fmt` accepts
are parameters (`Term`). How `colored` writes a styled text with padding, `core::fmt`'s padding of a
`str`, `regex` on the one pattern used, `str::lines` and `Path::iter` (Unix) are written out here.
-/

namespace Defmt.LogFormat

open Parser Elf

/-- `colored::Color`, the variants that `FromStr` can give. -/
inductive Color where
  | black | red | green | yellow | blue | magenta | cyan | white
  | brightBlack | brightRed | brightGreen | brightYellow | brightBlue | brightMagenta | brightCyan
  | brightWhite
deriving DecidableEq, Repr

/-- `colored::Styles`, the variants `parse_style` can give (log/format/parser.rs:232-246). -/
inductive Style where
  | bold | italic | underline | strike | dimmed
deriving DecidableEq, Repr

/-- `enum LogColor` (mod.rs:94-110). -/
inductive LogColor where
  | color (c : Color)
  | severity
  | warnError
deriving DecidableEq, Repr

/-- `enum Alignment` (mod.rs:114-118). -/
inductive Alignment where
  | center | left | right
deriving DecidableEq, Repr

/-- `enum Padding` (mod.rs:121-124). -/
inductive Padding where
  | space | zero
deriving DecidableEq, Repr

/-- `struct LogFormat` (mod.rs:134-140). -/
structure Format where
  width : Option Nat := none
  color : Option LogColor := none
  style : Option (List Style) := none
  alignment : Option Alignment := none
  padding : Option Padding := none
deriving DecidableEq, Repr

/-- The metadata specifiers of `enum LogMetadata` (mod.rs:14-79). -/
inductive Metadata where
  | crateName
  | fileName (n : Nat)
  | filePath
  | lineNumber
  | log
  | logLevel
  | modulePath
  | timestamp
deriving DecidableEq, Repr

/-- `struct LogSegment` with `enum LogMetadata` (mod.rs:14-79, 128-131). A `String` segment always has
the default format, which is not used, so it is left out. -/
inductive Segment where
  | field (m : Metadata) (f : Format)
  | text (s : List Char)
  | nested (segments : List Segment) (f : Format)

/-- `dissimilar::Chunk` -/
inductive Chunk where
  | equal (s : List Char)
  | delete (s : List Char)
  | insert (s : List Char)
deriving DecidableEq, Repr

/-- The external functions. -/
structure Term where
  /-- `colored::Color::from_str` -/
  colorFromStr : List Char → Option Color
  /-- `char::is_alphabetic` -/
  alphabetic : Char → Bool
  /-- does `colored` write escape sequences (it looks at the environment and the terminal)? -/
  colorize : Bool
  /-- what `ColoredString::compute_style` writes between `ESC [` and `m` -/
  codes : Option Color → List Style → List Char
  /-- largest width `core::fmt` accepts -/
  maxWidth : Nat
  /-- `dissimilar::diff` -/
  diff : List Char → List Char → List Chunk

/-- `\x1b` -/
def esc : Char := Char.ofNat 27

/-! ## Escape sequences -/

/-- Where the regex `\x1b\[[0-9;]*m` is within a possible match. -/
inductive AnsiState where
  | text
  | esc
  | params (seen : List Char)

/-- The characters of the possible match so far. -/
def AnsiState.pending : AnsiState → List Char
  | .text => []
  | .esc => [LogFormat.esc]
  | .params seen => LogFormat.esc :: '[' :: seen

/-- One character: the next state and the characters that are known not to be part of a match. -/
def ansiStep (st : AnsiState) (c : Char) : AnsiState × List Char :=
  match st with
  | .text => if c = esc then (.esc, []) else (.text, [c])
  | .esc =>
    if c = '[' then (.params [], [])
    else if c = esc then (.esc, [esc])
    else (.text, [esc, c])
  | .params seen =>
    if c = 'm' then (.text, [])
    else if isDigit c ∨ c = ';' then (.params (seen ++ [c]), [])
    else if c = esc then (.esc, esc :: '[' :: seen)
    else (.text, esc :: '[' :: seen ++ [c])

/-- `string_excluding_ansi` (mod.rs:853-859) from the middle of a possible match. -/
def stripFrom (st : AnsiState) : List Char → List Char
  | [] => st.pending
  | c :: rest => (ansiStep st c).2 ++ stripFrom (ansiStep st c).1 rest

/-- `string_excluding_ansi` (mod.rs:853-859): every match of `\x1b\[[0-9;]*m` is taken out. -/
def stripAnsi (s : List Char) : List Char := stripFrom .text s

/-! ## `colored` -/

/-- What ends a styled text. -/
def reset : List Char := [esc, '[', '0', 'm']

/-- `ColoredString::compute_style` of a string that is not plain -/
def styleOf (t : Term) (fg : Option Color) (styles : List Style) : List Char :=
  esc :: '[' :: t.codes fg styles ++ ['m']

/-- `ColoredString::escape_inner_reset_sequences`: the style is started again after each reset in the
text. -/
def escapeInner (style : List Char) : List Char → List Char
  | a :: b :: c :: d :: rest =>
    if [a, b, c, d] = reset then reset ++ style ++ escapeInner style rest
    else a :: escapeInner style (b :: c :: d :: rest)
  | s => s

/-- `Display for ColoredString`; `pad` is what the formatter does with a `str`. -/
def writeColored (t : Term) (fg : Option Color) (styles : List Style)
    (pad : List Char → List Char) (s : List Char) : List Char :=
  if t.colorize = false ∨ (fg = none ∧ styles = []) then pad s
  else styleOf t fg styles ++ pad (escapeInner (styleOf t fg styles) s) ++ reset

/-- `core::fmt::Formatter::pad`: widths count characters. -/
def padTo (width : Nat) (alignment : Alignment) (fill : Char) (s : List Char) : List Char :=
  let n := width - s.length
  match alignment with
  | .left => s ++ List.replicate n fill
  | .right => List.replicate n fill ++ s
  | .center => List.replicate (n / 2) fill ++ s ++ List.replicate ((n + 1) / 2) fill

/-- `color_for_log_level` (mod.rs:751-759). -/
def colorForLevel : Level → Color
  | .error => .red
  | .warn => .yellow
  | .info => .green
  | .debug => .brightWhite
  | .trace => .brightBlack

/-- `apply_color` (mod.rs:761-780): the foreground colour that is set. -/
def applyColor (color : Option LogColor) (level : Option Level) : Option Color :=
  match color with
  | some (.color c) => some c
  | some .severity => level.map colorForLevel
  | some .warnError =>
    match level with
    | some .warn => some (colorForLevel .warn)
    | some .error => some (colorForLevel .error)
    | _ => none
  | none => none

/-- The fill character of `Padding` (mod.rs:825-832). -/
def fillOf : Padding → Char
  | .space => ' '
  | .zero => '0'

/-- `build_formatted_string` (mod.rs:805-835). `none` is a panic: the addition overflows (as built with
overflow checks) or `core::fmt` does not accept the width. `apply_styles` (782-803) sets the styles of the
list. The lengths are lengths in bytes. -/
def buildFormatted (t : Term) (s : List Char) (f : Format) (defaultWidth : Nat) (level : Option Level)
    (color : Option LogColor) : Option (List Char) :=
  let ansi := (utf8 s).length - (utf8 (stripAnsi s)).length
  let fg := applyColor color level
  let styles := f.style.getD []
  let width := f.width.getD defaultWidth + ansi
  if 2 ^ 64 ≤ width ∨ t.maxWidth < width then none
  else
    some (writeColored t fg styles
      (padTo width (f.alignment.getD .left) (fillOf (f.padding.getD .space))) s)

/-! ## The output of `assert_eq!` -/

/-- The lines of a text that is not at the end of a text yet: `\n` and a `\r` before it go. -/
def stripCr (line : List Char) : List Char :=
  if line.getLast? = some '\r' then line.dropLast else line

/-- The pieces between `\n`s to lines: the last one has no `\n` and only counts if there is text. -/
def piecesToLines : List (List Char) → List (List Char)
  | [] => []
  | [last] => if last = [] then [] else [last]
  | piece :: pieces => stripCr piece :: piecesToLines pieces

/-- `str::lines` -/
def lines (s : List Char) : List (List Char) := piecesToLines (splitAt '\n' s)

/-- `[&str]::join("\n")` -/
def joinLines : List (List Char) → List Char
  | [] => []
  | [l] => l
  | l :: ls => l ++ '\n' :: joinLines ls

def leftStart : List Char := c!" left: `"
def rightStart : List Char := c!"right: `"

/-- ``starts_with(start) && ends_with("`")`` (mod.rs:696-699). -/
def isQuoted (start line : List Char) : Bool :=
  (stripPrefix start line).isSome && line.getLast? == some '`'

/-- `&line[start.len()..line.len() - END.len()]` (mod.rs:702-703); `none` is the panic when the start of the
range is after its end. Only used on lines that start with `start`, so the range is at character boundaries;
the model counts characters. -/
def quoted (start line : List Char) : Option (List Char) :=
  if line.length - 1 < start.length then none
  else some ((line.drop start.length).take (line.length - 1 - start.length))

/-- Text styled by `colored` without a width. -/
def paint (t : Term) (fg : Option Color) (styles : List Style) (s : List Char) : List Char :=
  writeColored t fg styles id s

/-- One chunk of the line of the left value (mod.rs:719-729). -/
def leftChunk (t : Term) : Chunk → List Char
  | .equal s => paint t (some .red) [] s
  | .insert _ => []
  | .delete s => paint t (some .red) [.bold] s

/-- One chunk of the line of the right value (mod.rs:733-743). -/
def rightChunk (t : Term) : Chunk → List Char
  | .equal s => paint t (some .green) [] s
  | .delete _ => []
  | .insert s => paint t (some .green) [.bold] s

/-- The text of `color_diff` for the lines of an `assert_eq!` (mod.rs:705-744). -/
def diffText (t : Term) (before : List (List Char)) (left right : List Char) : List Char :=
  paint t none [.bold] (joinLines before) ++ c!"\n" ++
  paint t none [.bold] c!"diff" ++ c!" " ++ paint t (some .red) [] c!"< left" ++ c!" / " ++
  paint t (some .green) [] c!"right >" ++ c!"\n" ++
  paint t (some .red) [] c!"<" ++ (t.diff left right).flatMap (leftChunk t) ++ c!"\n" ++
  paint t (some .green) [] c!">" ++ (t.diff left right).flatMap (rightChunk t)

/-- `color_diff` (mod.rs:686-749). The lines come in reverse order from `colorDiff`. -/
def colorDiffLines (t : Term) (text : List Char) : List (List Char) → Outcome (List Char) (List Char)
  | right :: left :: before =>
    if before = [] then .err text
    else if isQuoted leftStart left && isQuoted rightStart right then
      match quoted leftStart left, quoted rightStart right with
      | some l, some r => .ok (diffText t before.reverse l r)
      | _, _ => .panic
    else .err text
  | _ => .err text

/-- `color_diff` (mod.rs:686-749). -/
def colorDiff (t : Term) (text : List Char) : Outcome (List Char) (List Char) :=
  colorDiffLines t text (lines text).reverse

/-! ## Segments -/

inductive Source where
  | defmt
  | host
deriving DecidableEq, Repr

/-- `enum Record` (mod.rs:269-272): what the formatter reads of a record (`log::Record`,
`DefmtRecord`, log/mod.rs:61-117). A host record always has a level. -/
structure Record where
  source : Source
  level : Option Level
  timestamp : List Char
  args : List Char
  file : Option (List Char)
  line : Option Nat
  modulePath : Option (List Char)
deriving DecidableEq, Repr

/-- `Display for log::Level` -/
def levelName : Level → List Char
  | .error => c!"ERROR"
  | .warn => c!"WARN"
  | .info => c!"INFO"
  | .debug => c!"DEBUG"
  | .trace => c!"TRACE"

/-- `create_module_path` (json_logger.rs:79-99): crate, modules and function. -/
def createModulePath (modulePath : Option (List Char)) :
    Option (List Char × List (List Char) × List Char) :=
  match modulePath with
  | none => none
  | some p =>
    match splitColons p with
    | crateName :: rest =>
      if rest = [] then none
      else some (crateName, rest.dropLast, rest.getLast?.getD [])
    | [] => none

/-- The text of `build_crate_name` (mod.rs:631-642). -/
def crateNameText (modulePath : Option (List Char)) : List Char :=
  match modulePath with
  | none => c!"<crate>"
  | some p =>
    match splitColons p with
    | crateName :: _ :: _ => crateName
    | _ => c!"<crate>"

/-- `Path::new(file).iter()` on Unix: the root, then the pieces between slashes without empty ones and without
`.`, except a `.` at the start. -/
def pathComponents (file : List Char) : List (List Char) :=
  match splitAt '/' file with
  | [] => []
  | first :: rest =>
    let rest := rest.filter fun piece => decide (piece ≠ [] ∧ piece ≠ c!".")
    if first = [] then
      (match file with
        | [] => []
        | _ :: _ => c!"/" :: rest)
    else first :: rest

/-- `fold` and `strip_suffix('/').unwrap()` of `build_file_name` (mod.rs:599-607); `none` is the panic. -/
def fileNameText (n : Nat) (file : List Char) : Option (List Char) :=
  let components := pathComponents file
  let joined := components.drop (components.length - min components.length n)
  let s := joined.flatMap fun piece => piece ++ c!"/"
  if s.getLast? = some '/' then some s.dropLast else none

/-- `build_log` (mod.rs:664-673). -/
def buildLog (t : Term) (r : Record) (f : Format) : Option (List Char) :=
  match r.source with
  | .defmt =>
    match colorDiff t r.args with
    | .ok s => some s
    | .err s => buildFormatted t s f 0 r.level f.color
    | .panic => none
  | .host => some r.args

/-- The `build_…` functions of the metadata specifiers (mod.rs:536-673). -/
def buildField (t : Term) (r : Record) (m : Metadata) (f : Format) : Option (List Char) :=
  match m with
  | .timestamp =>
    buildFormatted t (if r.source = .defmt ∧ r.timestamp ≠ [] then r.timestamp else c!"<time>") f 0
      r.level f.color
  | .logLevel =>
    buildFormatted t (match r.level with | some l => levelName l | none => c!"<lvl>") f 5 r.level
      (some (f.color.getD .severity))
  | .filePath => buildFormatted t (r.file.getD c!"<file>") f 0 r.level f.color
  | .fileName n =>
    match r.file with
    | none => buildFormatted t c!"<file>" f 0 r.level f.color
    | some file =>
      match fileNameText n file with
      | none => none
      | some s => buildFormatted t s f 0 r.level f.color
  | .modulePath => buildFormatted t (r.modulePath.getD c!"<mod path>") f 0 r.level f.color
  | .crateName => buildFormatted t (crateNameText r.modulePath) f 0 r.level f.color
  | .lineNumber => buildFormatted t (Display.digits 10 (r.line.getD 0)) f 4 r.level f.color
  | .log => buildLog t r f

mutual

/-- `build_segment` and the loop body of `build_nested` (mod.rs:490-534). -/
def buildSegment (t : Term) (r : Record) : Segment → Option (List Char)
  | .text s => some s
  | .field m f => buildField t r m f
  | .nested segments f =>
    match buildSegments t r segments with
    | none => none
    | some s => buildFormatted t s f 0 r.level f.color

/-- The loops of `format` and `build_nested` (mod.rs:478-481, 508-525). -/
def buildSegments (t : Term) (r : Record) : List Segment → Option (List Char)
  | [] => some []
  | s :: ss =>
    match buildSegment t r s, buildSegments t r ss with
    | some a, some b => some (a ++ b)
    | _, _ => none

end

/-- `InternalFormatter::format` (mod.rs:473-488). -/
def formatRecord (t : Term) (segments : List Segment) (r : Record) : Option (List Char) :=
  if r.level.isSome then buildSegments t r segments
  else buildLog t r {}

end Defmt.LogFormat
