import Verif.Model.LogParser
/-!
# What the log output is expected to look like

Written from the chapter "Customizing the log output" of the book. Uses from the model only the data types
(records, segments, the record of external functions).
-/

namespace Defmt.LogFormat

open Parser

/-! ## Assumptions about external code -/

/-- The names of colours (`colored::Color::from_str`, which also ignores the case). -/
def colorNames : List (List Char × Color) :=
  [(c!"black", .black), (c!"red", .red), (c!"green", .green), (c!"yellow", .yellow),
   (c!"blue", .blue), (c!"magenta", .magenta), (c!"purple", .magenta), (c!"cyan", .cyan),
   (c!"white", .white), (c!"bright black", .brightBlack), (c!"bright red", .brightRed),
   (c!"bright green", .brightGreen), (c!"bright yellow", .brightYellow),
   (c!"bright blue", .brightBlue), (c!"bright magenta", .brightMagenta),
   (c!"bright purple", .brightMagenta), (c!"bright cyan", .brightCyan),
   (c!"bright white", .brightWhite)]

/-- The chunks of a difference are the left text without the insertions, the right text without the
deletions. -/
inductive IsDiff : List Char → List Char → List Chunk → Prop
  | nil : IsDiff [] [] []
  | equal {l r cs} (s) : IsDiff l r cs → IsDiff (s ++ l) (s ++ r) (.equal s :: cs)
  | delete {l r cs} (s) : IsDiff l r cs → IsDiff (s ++ l) r (.delete s :: cs)
  | insert {l r cs} (s) : IsDiff l r cs → IsDiff l (s ++ r) (.insert s :: cs)

/-- What is assumed about the external functions. -/
structure Term.Ok (t : Term) : Prop where
  /-- `char::is_alphabetic` on ASCII -/
  alphabetic : ∀ c : Char, c.toNat < 128 → t.alphabetic c = c.isAlpha
  /-- `colored::Color::from_str` on ASCII -/
  colors : ∀ s : List Char, (∀ c ∈ s, c.toNat < 128) →
    t.colorFromStr s = colorNames.lookup (s.map Char.toLower)
  /-- codes are numbers separated by semicolons -/
  codes : ∀ fg styles, ∀ c ∈ t.codes fg styles, isDigit c = true ∨ c = ';'
  /-- a colour or a style is not the code that ends them -/
  notReset : ∀ fg styles, ¬ (fg = none ∧ styles = []) → t.codes fg styles ≠ ['0']
  diff : ∀ l r, IsDiff l r (t.diff l r)
  /-- widths are `usize` -/
  maxWidth : t.maxWidth < 2 ^ 64

/-! ## Visible characters -/

/-- A terminal sequence that selects colours and styles: `ESC [`, numbers and semicolons, `m`. -/
inductive Sequence : List Char → Prop
  | mk (params : List Char) (h : ∀ c ∈ params, isDigit c = true ∨ c = ';') :
      Sequence (Char.ofNat 27 :: '[' :: params ++ ['m'])

/-- `Visible s v`: `v` are the characters of `s` that are seen, the sequences are not. -/
inductive Visible : List Char → List Char → Prop
  | nil : Visible [] []
  | sequence {q s v} : Sequence q → Visible s v → Visible (q ++ s) v
  | char {c s v} : (∀ q rest, Sequence q → c :: s ≠ q ++ rest) → Visible s v → Visible (c :: s) (c :: v)

/-! ## Padding -/

/-- `v` with fill characters: in total at least `width` characters and no more than needed, on the side(s)
away from where the text is aligned to; centred means that both sides have the same number, or the right side
has one more. -/
def Padded {α : Type} (width : Nat) (alignment : Alignment) (fill : α) (v shown : List α) : Prop :=
  ∃ before after : Nat,
    shown = List.replicate before fill ++ v ++ List.replicate after fill ∧
    shown.length = max v.length width ∧
    match alignment with
    | .left => before = 0
    | .right => after = 0
    | .center => before ≤ after ∧ after ≤ before + 1

/-! ## Module paths -/

/-- A module path from its names. -/
def pathText : List (List Char) → List Char
  | [] => []
  | [n] => n
  | n :: ns => n ++ c!"::" ++ pathText ns

/-! ## Output of `assert_eq!` -/

/-- A text from its lines -/
def textOfLines : List (List Char) → List Char
  | [] => []
  | [l] => l
  | l :: ls => l ++ c!"\n" ++ textOfLines ls

/-- Lines without line breaks -/
def PlainLine (l : List Char) : Prop := '\n' ∉ l ∧ '\r' ∉ l

/-- The lines of a text: each ends with a line feed, or a carriage return and a line feed, or is the last. -/
inductive LinesOf : List Char → List (List Char) → Prop
  | nil : LinesOf [] []
  | last {l} : '\n' ∉ l → l ≠ [] → LinesOf l [l]
  | lf {l s ls} : '\n' ∉ l → l.getLast? ≠ some '\r' → LinesOf s ls → LinesOf (l ++ '\n' :: s) (l :: ls)
  | crlf {l s ls} : '\n' ∉ l → LinesOf s ls → LinesOf (l ++ '\r' :: '\n' :: s) (l :: ls)

/-- `Value start v line`: the line is `start`, then `v`, then a backtick. -/
def Value (start v line : List Char) : Prop := line = start ++ v ++ c!"`"

/-- The text shown for a failed `assert_eq!` -/
def diffShown (before : List (List Char)) (left right : List Char) : List Char :=
  textOfLines before ++ c!"\ndiff < left / right >\n<" ++ left ++ c!"\n>" ++ right

/-- The message looks like the one of a failed `assert_eq!`: at least three lines, the last two start with the words
for the values and end with a backtick. -/
def LikeDiff (m : List Char) : Prop :=
  ∃ before left right, LinesOf m (before ++ [left, right]) ∧ before ≠ [] ∧
    (left = c!" left: `" ∨ ∃ v, Value c!" left: `" v left) ∧ (right = c!"right: `" ∨ ∃ v, Value c!"right: `" v right)

/-! ## Paths of files -/

/-- A path from the names of the directories and the file. -/
def fileText : List (List Char) → List Char
  | [] => []
  | [n] => n
  | n :: ns => n ++ c!"/" ++ fileText ns

/-- A name in a path -/
def PathName (n : List Char) : Prop := n ≠ [] ∧ '/' ∉ n ∧ n ≠ c!"."

/-- The parts of a path that is cut at its slashes into `pieces`: `/` for an absolute path, then the pieces without empty
ones and without `.`, except a `.` at the start. -/
def pathParts : List (List Char) → List (List Char)
  | [] => []
  | first :: rest => (if first = [] then c!"/" else first) :: rest.filter fun piece => piece ≠ [] ∧ piece ≠ c!"."

/-- The last `n` elements -/
def lastOnes {α : Type} (n : Nat) (l : List α) : List α := l.drop (l.length - n)

/-! ## Log formats -/

/-- A format parameter -/
inductive Param where
  | color (c : LogColor)
  | style (s : Style)
  | width (w : Nat) (p : Padding) (a : Option Alignment)

/-- `<`, `^`, `>` or nothing -/
def alignmentText : Option Alignment → List Char
  | none => []
  | some .left => c!"<"
  | some .center => c!"^"
  | some .right => c!">"

/-- How a parameter is written. A colour is one word: see `C64_bright`. -/
inductive ParamText : List Char → Param → Prop
  | severity : ParamText c!"severity" (.color .severity)
  | werror : ParamText c!"werror" (.color .warnError)
  | color {name c} : (name, c) ∈ colorNames → ' ' ∉ name → ParamText name (.color (.color c))
  | bold : ParamText c!"bold" (.style .bold)
  | italic : ParamText c!"italic" (.style .italic)
  | underline : ParamText c!"underline" (.style .underline)
  | strike : ParamText c!"strike" (.style .strike)
  | dimmed : ParamText c!"dimmed" (.style .dimmed)
  /-- a width, padded with spaces -/
  | width (a : Option Alignment) (w : Nat) : 0 < w → w < 2 ^ 64 →
      ParamText (alignmentText a ++ Nat.toDigits 10 w) (.width w .space a)
  /-- a width after a zero, padded with zeros -/
  | zeroWidth (a : Option Alignment) (w : Nat) : w < 2 ^ 64 →
      ParamText (alignmentText a ++ '0' :: Nat.toDigits 10 w) (.width w .zero a)

/-- Parameters, each after a separator -/
inductive ParamsText (sep : Char) : List Char → List Param → Prop
  | nil : ParamsText sep [] []
  | cons {s p ss ps} : ParamText s p → ParamsText sep ss ps → ParamsText sep (sep :: s ++ ss) (p :: ps)

def Param.color? : Param → Option LogColor
  | .color c => some c
  | _ => none

def Param.style? : Param → Option Style
  | .style s => some s
  | _ => none

def Param.width? : Param → Option (Nat × Padding × Option Alignment)
  | .width w p a => some (w, p, a)
  | _ => none

/-- At most one colour and one width, no style twice. -/
def ParamsAllowed (ps : List Param) : Prop :=
  (ps.filterMap Param.color?).length ≤ 1 ∧ (ps.filterMap Param.width?).length ≤ 1 ∧
  (ps.filterMap Param.style?).Nodup

instance (ps : List Param) : Decidable (ParamsAllowed ps) := by unfold ParamsAllowed; infer_instance

/-- The format asked for with parameters -/
def formatOf (ps : List Param) : Format where
  color := (ps.filterMap Param.color?).head?
  style := if ps.filterMap Param.style? = [] then none else some (ps.filterMap Param.style?)
  width := (ps.filterMap Param.width?).head?.map fun w => w.1
  padding := (ps.filterMap Param.width?).head?.map fun w => w.2.1
  alignment := (ps.filterMap Param.width?).head?.bind fun w => w.2.2

/-- How a metadata specifier is written. -/
inductive MetadataText : List Char → Metadata → Prop
  | crateName : MetadataText c!"c" .crateName
  | filePath : MetadataText c!"F" .filePath
  | lineNumber : MetadataText c!"l" .lineNumber
  | log : MetadataText c!"s" .log
  | logLevel : MetadataText c!"L" .logLevel
  | modulePath : MetadataText c!"m" .modulePath
  | timestamp : MetadataText c!"t" .timestamp
  | fileName (n : Nat) : 0 < n → n < 256 → MetadataText (List.replicate n 'f') (.fileName n)

/-- Text between specifiers: no curly brackets and no `%`; in a group also no backslash. -/
def PlainText (inGroup : Bool) (s : List Char) : Prop :=
  s ≠ [] ∧ ∀ c ∈ s, c ≠ '{' ∧ c ≠ '}' ∧ c ≠ '%' ∧ (inGroup = true → c ≠ '\\')

/-- A word that is not a specifier, a colour or a style -/
def NoKeyword (t : Term) (w : List Char) : Prop :=
  w ∉ [c!"c", c!"F", c!"l", c!"s", c!"L", c!"m", c!"t"] ∧ (w = [] ∨ ∃ c ∈ w, c ≠ 'f') ∧
  w ≠ c!"severity" ∧ w ≠ c!"werror" ∧ t.colorFromStr w = none ∧
  w ∉ [c!"bold", c!"italic", c!"underline", c!"strike", c!"dimmed"]

/-- A group must not start with text that could be taken for a specifier or a parameter: such a word, or a number,
also after `<`, `^`, `>`. See `C64_ignored`. -/
def StartsGroup (t : Term) (s : List Char) : Prop :=
  (∀ w rest, s = w ++ rest → (∀ c ∈ w, t.alphabetic c = true) →
    (∀ c, rest.head? = some c → t.alphabetic c = false) → NoKeyword t w) ∧
  ∀ a d rest, s = alignmentText a ++ d :: rest → isDigit d = false

mutual

/-- `Written t s seg`: `s` is a specifier or a group, written as the book says, that stands for `seg`. -/
inductive Written (t : Term) : List Char → Segment → Prop
  | field {name m params ps} : MetadataText name m → ParamsText ':' params ps → ParamsAllowed ps →
      Written t ('{' :: name ++ params ++ ['}']) (.field m (formatOf ps))
  | group {body segments params ps} : WrittenAll t true body segments → StartsGroup t body →
      (∃ m f, Segment.field m f ∈ segments) →
      ParamsText '%' params ps → ParamsAllowed ps →
      Written t ('{' :: body ++ params ++ ['}']) (.nested segments (formatOf ps))

/-- A sequence of specifiers, groups and texts. -/
inductive WrittenAll (t : Term) : Bool → List Char → List Segment → Prop
  | nil {g} : WrittenAll t g [] []
  | segment {g s seg rest segs} : Written t s seg → WrittenAll t g rest segs →
      WrittenAll t g (s ++ rest) (seg :: segs)
  /-- text at the end -/
  | lastText {g s} : PlainText g s → WrittenAll t g s [.text s]
  /-- text before a specifier or group -/
  | text {g s s' seg rest segs} : PlainText g s → Written t s' seg → WrittenAll t g rest segs →
      WrittenAll t g (s ++ (s' ++ rest)) (.text s :: seg :: segs)

end

/-- `Refused t s`: `s` is a specifier or a group written by the rules of the book, except that at one place a colour or a
width is given twice, a style is repeated, there are two specifiers in one pair of brackets, or a group has no specifier
of its own. -/
inductive Refused (t : Term) : List Char → Prop
  | field {name m params ps} : MetadataText name m → ParamsText ':' params ps → ¬ ParamsAllowed ps →
      Refused t ('{' :: name ++ params ++ ['}'])
  | second {name m params ps name' m' params' ps'} : MetadataText name m → ParamsText ':' params ps →
      MetadataText name' m' → ParamsText ':' params' ps' →
      Refused t ('{' :: name ++ params ++ ':' :: name' ++ params' ++ ['}'])
  | group {body segments params ps} : WrittenAll t true body segments → StartsGroup t body →
      ParamsText '%' params ps → ¬ ParamsAllowed ps → Refused t ('{' :: body ++ params ++ ['}'])
  | noSpecifier {body segments params ps} : WrittenAll t true body segments → StartsGroup t body →
      (∀ m f, Segment.field m f ∉ segments) → ParamsText '%' params ps → Refused t ('{' :: body ++ params ++ ['}'])
  /-- a part of a group -/
  | inside {body segments s body' segments' params ps} : WrittenAll t true body segments → StartsGroup t body →
      Refused t s → WrittenAll t true body' segments' → ParamsText '%' params ps →
      Refused t ('{' :: body ++ s ++ body' ++ params ++ ['}'])

/-- `{s}` is somewhere in the format. -/
inductive HasLog : List Segment → Prop
  | field {segments f} : Segment.field .log f ∈ segments → HasLog segments
  | nested {segments segments' f} : Segment.nested segments' f ∈ segments → HasLog segments' → HasLog segments

/-! ## Any string -/

/-- `Inside s n`: `s` comes after an opening bracket and does not close it; `n` brackets opened in `s` are still open. A
backslash takes its meaning from the character after it. -/
inductive Inside : List Char → Nat → Prop
  | nil : Inside [] 0
  | plain {s n c} : Inside s n → c ≠ '\\' → c ≠ '{' → c ≠ '}' → Inside (s ++ [c]) n
  | escape {s n} (c) : Inside s n → Inside (s ++ ['\\', c]) n
  | opened {s n} : Inside s n → Inside (s ++ ['{']) (n + 1)
  | closed {s n} : Inside s (n + 1) → Inside (s ++ ['}']) n

/-- `Parts accepts s segs`: `s` consists of texts and of pairs of brackets that stand for the segments `segs`, where
`accepts b seg` says that the pair of brackets `b` stands for `seg`. -/
inductive Parts (accepts : List Char → Segment → Prop) : List Char → List Segment → Prop
  | nil : Parts accepts [] []
  | text {w rest segs} : w ≠ [] → (∀ c ∈ w, c ≠ '{' ∧ c ≠ '%') → (∀ c, rest.head? = some c → c = '{') →
      Parts accepts rest segs → Parts accepts (w ++ rest) (.text w :: segs)
  | bracket {content seg rest segs} : Inside content 0 → accepts ('{' :: content ++ ['}']) seg →
      Parts accepts rest segs → Parts accepts ('{' :: content ++ ['}'] ++ rest) (seg :: segs)

/-- `Ignored rest`: from here on the string is ignored: it is over, there is a percent sign, or a bracket that is never
closed. -/
inductive Ignored : List Char → Prop
  | nil : Ignored []
  | percent (rest) : Ignored ('%' :: rest)
  | unclosed {s n} : Inside s n → Ignored ('{' :: s)

/-! ## A line of output -/

def levelText : Level → List Char
  | .trace => c!"TRACE"
  | .debug => c!"DEBUG"
  | .info => c!"INFO"
  | .warn => c!"WARN"
  | .error => c!"ERROR"

/-- `FieldText r m w v`: for record `r` the specifier `m` stands for the text `v`, and is padded to width `w` if the
format has no width. -/
inductive FieldText (r : Record) : Metadata → Nat → List Char → Prop
  | timestamp : r.source = .defmt → r.timestamp ≠ [] → FieldText r .timestamp 0 r.timestamp
  | noTimestamp : r.source = .host ∨ r.timestamp = [] → FieldText r .timestamp 0 c!"<time>"
  | level {l} : r.level = some l → FieldText r .logLevel 5 (levelText l)
  | filePath {path} : r.file = some path → FieldText r .filePath 0 path
  | noFilePath : r.file = none → FieldText r .filePath 0 c!"<file>"
  /-- the last `names.length` names of a relative path -/
  | fileName {dirs names} : r.file = some (fileText (dirs ++ names)) → (∀ n ∈ dirs ++ names, PathName n) →
      names ≠ [] → FieldText r (.fileName names.length) 0 (fileText names)
  /-- the last `names.length` names of an absolute path -/
  | fileNameAbsolute {dirs names} : r.file = some ('/' :: fileText (dirs ++ names)) →
      (∀ n ∈ dirs ++ names, PathName n) → names ≠ [] →
      FieldText r (.fileName names.length) 0 (fileText names)
  /-- a relative path with fewer names than asked for -/
  | fileNameShort {names n} : r.file = some (fileText names) → (∀ n ∈ names, PathName n) → names ≠ [] →
      names.length < n → FieldText r (.fileName n) 0 (fileText names)
  | noFileName {n} : r.file = none → FieldText r (.fileName n) 0 c!"<file>"
  | modulePath {path} : r.modulePath = some path → FieldText r .modulePath 0 path
  | noModulePath : r.modulePath = none → FieldText r .modulePath 0 c!"<mod path>"
  | crateName {names name} : r.modulePath = some (pathText (name :: names)) → names ≠ [] →
      (∀ n ∈ name :: names, ':' ∉ n) → FieldText r .crateName 0 name
  | noCrateName : r.modulePath = none → FieldText r .crateName 0 c!"<crate>"
  | lineNumber {n} : r.line = some n → FieldText r .lineNumber 4 (Nat.toDigits 10 n)
  | noLineNumber : r.line = none → FieldText r .lineNumber 4 c!"0"

/-- The character to pad with -/
def fillText (f : Format) : Char :=
  match f.padding with
  | some .zero => '0'
  | _ => ' '

/-- The text `v` in format `f` on a terminal without colours: `shown`. The width is not larger than `max`. -/
def Fits (max : Nat) (f : Format) (defaultWidth : Nat) (v shown : List Char) : Prop :=
  f.width.getD defaultWidth ≤ max ∧
  Padded (f.width.getD defaultWidth) (f.alignment.getD .left) (fillText f) v shown

mutual

/-- `Shows max r seg out`: what a segment of the format shows for a record. Escape characters in the texts of the
format and the record are not covered; neither are messages of `assert_eq!` (see `C67`). -/
inductive Shows (max : Nat) (r : Record) : Segment → List Char → Prop
  | text {s} : Char.ofNat 27 ∉ s → Shows max r (.text s) s
  | field {m f w v out} : FieldText r m w v → Char.ofNat 27 ∉ v → Fits max f w v out →
      Shows max r (.field m f) out
  | message {f out} : r.source = .defmt → Char.ofNat 27 ∉ r.args → ¬ LikeDiff r.args →
      Fits max f 0 r.args out → Shows max r (.field .log f) out
  /-- the message of a failed `assert_eq!`; it is not padded -/
  | diff {f before left right x y} : r.source = .defmt → LinesOf r.args (before ++ [left, right]) → before ≠ [] →
      Value c!" left: `" x left → Value c!"right: `" y right → Char.ofNat 27 ∉ r.args →
      Shows max r (.field .log f) (diffShown before x y)
  /-- the messages of the host are never padded -/
  | hostMessage {f} : r.source = .host → Char.ofNat 27 ∉ r.args → Shows max r (.field .log f) r.args
  | group {segments f v out} : ShowsAll max r segments v → Fits max f 0 v out →
      Shows max r (.nested segments f) out

/-- One segment after the other -/
inductive ShowsAll (max : Nat) (r : Record) : List Segment → List Char → Prop
  | nil : ShowsAll max r [] []
  | cons {s ss a b} : Shows max r s a → ShowsAll max r ss b → ShowsAll max r (s :: ss) (a ++ b)

end

/-- No group that has a colour or a style also has a width. -/
inductive GroupsSimple : List Segment → Prop
  | nil : GroupsSimple []
  | text {s ss} : GroupsSimple ss → GroupsSimple (.text s :: ss)
  | field {m f ss} : GroupsSimple ss → GroupsSimple (.field m f :: ss)
  | group {inner f ss} : (f.width = none ∨ f.color = none ∧ f.style = none) → GroupsSimple inner →
      GroupsSimple ss → GroupsSimple (.nested inner f :: ss)

/-! ## Colours and styles -/

/-- `ESC [ 0 m`: ends all colours and styles. -/
def endSequence : List Char := Char.ofNat 27 :: c!"[0m"

/-- The text `s`, with any characters, in format `f` on a terminal without colours: `out`. The characters of sequences in the text are not seen and not
counted. -/
def Widened (max : Nat) (f : Format) (defaultWidth : Nat) (s out : List Char) : Prop :=
  ∃ seen, Visible s seen ∧ f.width.getD defaultWidth + (s.length - seen.length) ≤ max ∧
    Padded (f.width.getD defaultWidth + (s.length - seen.length)) (f.alignment.getD .left) (fillText f) s out

/-- Not too many characters of the text are parts of sequences. -/
def FewHidden (max : Nat) (s : List Char) : Prop := ∃ seen, Visible s seen ∧ s.length - seen.length ≤ max

/-- What is shown for a message: the message, or both values one below the other if it is the one of a failed `assert_eq!`. (Nothing is said about the
messages of `C57_panics_iff`.) -/
inductive MessageShown (m : List Char) : List Char → Prop
  | plain : ¬ LikeDiff m → MessageShown m m
  | diff {before left right x y} : LinesOf m (before ++ [left, right]) → before ≠ [] → Value c!" left: `" x left → Value c!"right: `" y right →
      MessageShown m (diffShown before x y)

mutual

/-- `Prints max r seg out`: what is printed for a segment of the format on a terminal without colours, whatever the characters in the texts of the format
and of the record. -/
inductive Prints (max : Nat) (r : Record) : Segment → List Char → Prop
  | text {s} : Prints max r (.text s) s
  | field {m f w s out} : FieldText r m w s → Widened max f w s out → Prints max r (.field m f) out
  | message {f out} : r.source = .defmt → ¬ LikeDiff r.args → Widened max f 0 r.args out → Prints max r (.field .log f) out
  /-- the message of a failed `assert_eq!`; it is not padded -/
  | diff {f before left right x y} : r.source = .defmt → LinesOf r.args (before ++ [left, right]) → before ≠ [] →
      Value c!" left: `" x left → Value c!"right: `" y right → Prints max r (.field .log f) (diffShown before x y)
  /-- the messages of the host are never padded -/
  | hostMessage {f} : r.source = .host → Prints max r (.field .log f) r.args
  | group {segments f s out} : PrintsAll max r segments s → Widened max f 0 s out → Prints max r (.nested segments f) out

/-- One segment after the other -/
inductive PrintsAll (max : Nat) (r : Record) : List Segment → List Char → Prop
  | nil : PrintsAll max r [] []
  | cons {s ss a b} : Prints max r s a → PrintsAll max r ss b → PrintsAll max r (s :: ss) (a ++ b)

end

/-- A character on the terminal, with the sequences that are in effect. -/
abbrev Cell := Char × List (List Char)

/-- `Rendered active s cells active'`: when the sequences `active` are in effect and `s` is printed, `cells` are shown
and `active'` are in effect. -/
inductive Rendered : List (List Char) → List Char → List Cell → List (List Char) → Prop
  | nil {active} : Rendered active [] [] active
  | reset {active s cells active'} : Rendered [] s cells active' →
      Rendered active (endSequence ++ s) cells active'
  | sequence {active q s cells active'} : Sequence q → q ≠ endSequence →
      Rendered (active ++ [q]) s cells active' → Rendered active (q ++ s) cells active'
  | char {active c s cells active'} : (∀ q rest, Sequence q → c :: s ≠ q ++ rest) →
      Rendered active s cells active' → Rendered active (c :: s) ((c, active) :: cells) active'

/-- The colours of the levels -/
def levelColor : Level → Color
  | .error => .red
  | .warn => .yellow
  | .info => .green
  | .debug => .brightWhite
  | .trace => .brightBlack

/-- The colour for a level: `severity` is the colour of the level, `werror` too, but only for warnings and errors. -/
def wantedColor : Option LogColor → Level → Option Color
  | none, _ => none
  | some (.color c), _ => some c
  | some .severity, l => some (levelColor l)
  | some .warnError, .warn => some (levelColor .warn)
  | some .warnError, .error => some (levelColor .error)
  | some .warnError, _ => none

/-- The sequences for a colour and styles: none if there is no colour and no style, or if the terminal has no colours. -/
def wantedStyle (t : Term) (fg : Option Color) (styles : List Style) : List (List Char) :=
  if t.colorize = false ∨ (fg = none ∧ styles = []) then []
  else [Char.ofNat 27 :: '[' :: t.codes fg styles ++ ['m']]

/-- The colour of a specifier: the level has the colour `severity` if no other is given. -/
def fieldColor (m : Metadata) (f : Format) : Option LogColor :=
  if m = .logLevel ∧ f.color = none then some .severity else f.color

/-- Text in a colour and a style -/
def styledText (t : Term) (fg : Option Color) (styles : List Style) (s : List Char) : List Cell :=
  s.map fun c => (c, wantedStyle t fg styles)

/-- The left value of a failed `assert_eq!` is red, the right one is green; what the other value does not have is bold. -/
def leftCells (t : Term) : Chunk → List Cell
  | .equal s => styledText t (some .red) [] s
  | .delete s => styledText t (some .red) [.bold] s
  | .insert _ => []

def rightCells (t : Term) : Chunk → List Cell
  | .equal s => styledText t (some .green) [] s
  | .delete _ => []
  | .insert s => styledText t (some .green) [.bold] s

/-- What is shown for a failed `assert_eq!` -/
def diffCells (t : Term) (before : List (List Char)) (left right : List Char) : List Cell :=
  styledText t none [.bold] (textOfLines before) ++ [('\n', [])] ++
  styledText t none [.bold] c!"diff" ++ [(' ', [])] ++ styledText t (some .red) [] c!"< left" ++ [(' ', []), ('/', []), (' ', [])] ++
  styledText t (some .green) [] c!"right >" ++ [('\n', [])] ++
  styledText t (some .red) [] c!"<" ++ (t.diff left right).flatMap (leftCells t) ++ [('\n', [])] ++
  styledText t (some .green) [] c!">" ++ (t.diff left right).flatMap (rightCells t)

mutual

/-- `Paints t r l seg cells`: what a segment of the format shows for a record with level `l`, in which colours and
styles. Restrictions as for `Shows`. -/
inductive Paints (t : Term) (r : Record) (l : Level) : Segment → List Cell → Prop
  | text {s} : Char.ofNat 27 ∉ s → Paints t r l (.text s) (s.map fun c => (c, []))
  | field {m f w v out} : FieldText r m w v → Char.ofNat 27 ∉ v → Fits t.maxWidth f w v out →
      Paints t r l (.field m f)
        (out.map fun c => (c, wantedStyle t (wantedColor (fieldColor m f) l) (f.style.getD [])))
  | message {f out} : r.source = .defmt → Char.ofNat 27 ∉ r.args → ¬ LikeDiff r.args →
      Fits t.maxWidth f 0 r.args out →
      Paints t r l (.field .log f)
        (out.map fun c => (c, wantedStyle t (wantedColor f.color l) (f.style.getD [])))
  /-- the message of a failed `assert_eq!`; the colour and the style of the specifier have no effect -/
  | diff {f before left right x y} : r.source = .defmt → LinesOf r.args (before ++ [left, right]) → before ≠ [] →
      Value c!" left: `" x left → Value c!"right: `" y right → Char.ofNat 27 ∉ r.args →
      Paints t r l (.field .log f) (diffCells t before x y)
  /-- the messages of the host never have a colour or a style -/
  | hostMessage {f} : r.source = .host → Char.ofNat 27 ∉ r.args →
      Paints t r l (.field .log f) (r.args.map fun c => (c, []))
  /-- the colour and the styles of a group are in effect for its parts, together with their own -/
  | group {segments f v out} : PaintsAll t r l segments v →
      Padded (f.width.getD 0) (f.alignment.getD .left) (fillText f, []) v out →
      Paints t r l (.nested segments f)
        (out.map fun c => (c.1, wantedStyle t (wantedColor f.color l) (f.style.getD []) ++ c.2))

/-- One segment after the other -/
inductive PaintsAll (t : Term) (r : Record) (l : Level) : List Segment → List Cell → Prop
  | nil : PaintsAll t r l [] []
  | cons {s ss a b} : Paints t r l s a → PaintsAll t r l ss b → PaintsAll t r l (s :: ss) (a ++ b)

end

/-! ## The predefined formats -/

/-- the text before each line of the host -/
def hostText (source : Source) : List Char := if source = .host then c!"(HOST) " else []

def hostSegments (source : Source) : List Segment := if source = .host then [.text c!"(HOST) "] else []

/-- the segments of the default format -/
def defaultSegments (withLocation hasTimestamp : Bool) : List Segment :=
  (if hasTimestamp then [.field .timestamp {}, .text c!" "] else []) ++
  [.field .logLevel {}, .text c!" ", .field .log {}] ++
  (if withLocation then [.text c!"\n└─ ", .field .modulePath {}, .text c!" @ ", .field .filePath {}, .text c!":",
    .field .lineNumber {}] else [])

/-- the group `{({c:bold} {fff}:{l:1})%dimmed}` -/
def locationGroup : Segment :=
  .nested [.text c!"(", .field .crateName { style := some [.bold] }, .text c!" ", .field (.fileName 3) {},
    .text c!":", .field .lineNumber { width := some 1, padding := some .space }, .text c!")"] { style := some [.dimmed] }

def levelGroup : Segment := .nested [.text c!"[", .field .logLevel {}, .text c!"]"] { style := some [.bold] }

/-- the segments of the format for one line -/
def oneLineSegments (withLocation hasTimestamp : Bool) : List Segment :=
  (if hasTimestamp then [.field .timestamp {}, .text c!" "] else []) ++
  [levelGroup, .text c!" ", .field .log {}] ++
  (if withLocation then [.text c!" ", locationGroup] else [])

/-- `v` followed by spaces up to a width -/
def leftPadded (w : Nat) (v : List Char) : List Char := v ++ List.replicate (w - v.length) ' '

/-- What the record shows for the timestamp -/
def timestampText (r : Record) : List Char :=
  if r.source = .defmt ∧ r.timestamp ≠ [] then r.timestamp else c!"<time>"

/-- What the record shows for the message -/
def ArgsShown (max : Nat) (r : Record) (shown : List Char) : Prop :=
  match r.source with
  | .defmt => MessageShown r.args shown ∧ FewHidden max r.args
  | .host => shown = r.args

/-- The location in the default format -/
def locationText (r : Record) : List Char :=
  c!"\n└─ " ++ r.modulePath.getD c!"<mod path>" ++ c!" @ " ++ r.file.getD c!"<file>" ++ c!":" ++
  leftPadded 4 (Nat.toDigits 10 (r.line.getD 0))

end Defmt.LogFormat
