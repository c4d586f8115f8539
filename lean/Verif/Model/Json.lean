import Verif.Model.JsonString
/-!
# JSON

What `serde_json` writes (`to_writer` with the compact formatter, `Display` of a `Value`) and reads (`from_str`), as used by
`decoder/src/log/mod.rs` and `decoder/src/log/json_logger.rs`. `serde_json` is not part of the repository; reading is
modelled after RFC 8259. Numbers with a fraction or an exponent are kept as text (feature `arbitrary_precision`, decoder/Cargo.toml:44).
Simplifications: `-0` is read as the integer 0; the limit on the depth of nesting (128) is not modelled (what is written here has depth 4).
-/

namespace Defmt.Json
open Parser Symbol

inductive Json where
  | null
  | bool (b : Bool)
  | num (n : Int)
  /-- a number with a fraction or an exponent -/
  | decimal (text : List Char)
  | str (s : List Char)
  | arr (elements : List Json)
  | obj (members : List (List Char × Json))

/-! ### writing -/

/-- `ESCAPE` and `format_escaped_str_contents` of `serde_json`: quotes, backslashes and control characters below 0x20 are
escaped, the latter with a letter if there is one. -/
def escapeChar (c : Char) : List Char :=
  if c = '"' then c!"\\\""
  else if c = '\\' then c!"\\\\"
  else if c = Char.ofNat 8 then c!"\\b"
  else if c = '\t' then c!"\\t"
  else if c = '\n' then c!"\\n"
  else if c = Char.ofNat 12 then c!"\\f"
  else if c = '\r' then c!"\\r"
  else if c.toNat < 0x20 then unicodeEscape c
  else [c]

/-- `format_escaped_str` -/
def writeString (s : List Char) : List Char := '"' :: (s.flatMap escapeChar ++ ['"'])

/-- `itoa` -/
def writeNumber : Int → List Char
  | .ofNat n => Display.digits 10 n
  | .negSucc n => '-' :: Display.digits 10 (n + 1)

mutual

/-- `Serialize for Value` with `CompactFormatter` -/
def write : Json → List Char
  | .null => c!"null"
  | .bool true => c!"true"
  | .bool false => c!"false"
  | .num n => writeNumber n
  | .decimal text => text
  | .str s => writeString s
  | .arr es => '[' :: (writeElements es ++ [']'])
  | .obj ms => '{' :: (writeMembers ms ++ ['}'])

def writeElements : List Json → List Char
  | [] => []
  | e :: es => write e ++ writeMoreElements es

def writeMoreElements : List Json → List Char
  | [] => []
  | e :: es => ',' :: (write e ++ writeMoreElements es)

def writeMembers : List (List Char × Json) → List Char
  | [] => []
  | (k, v) :: ms => writeString k ++ ':' :: (write v ++ writeMoreMembers ms)

def writeMoreMembers : List (List Char × Json) → List Char
  | [] => []
  | (k, v) :: ms => ',' :: (writeString k ++ ':' :: (write v ++ writeMoreMembers ms))

end

/-! ### reading -/

/-- `int` (RFC 8259, section 6): no leading zeros -/
def readInt (s : List Char) : Option (List Char × List Char) :=
  let ds := s.takeWhile isDigit
  if ds = [] then none
  else if ds.head? = some '0' ∧ ds ≠ ['0'] then none
  else some (ds, s.dropWhile isDigit)

/-- `[ frac ]` -/
def readFraction : List Char → Option (List Char × List Char)
  | [] => some ([], [])
  | c :: s =>
    if c = '.' then
      if s.takeWhile isDigit = [] then none else some ('.' :: s.takeWhile isDigit, s.dropWhile isDigit)
    else some ([], c :: s)

/-- `[ minus / plus ]` -/
def readSign : List Char → List Char × List Char
  | [] => ([], [])
  | c :: s => if c = '+' ∨ c = '-' then ([c], s) else ([], c :: s)

/-- `[ exp ]` -/
def readExponent : List Char → Option (List Char × List Char)
  | [] => some ([], [])
  | c :: s =>
    if c = 'e' ∨ c = 'E' then
      let r := readSign s
      if r.2.takeWhile isDigit = [] then none else some (c :: r.1 ++ r.2.takeWhile isDigit, r.2.dropWhile isDigit)
    else some ([], c :: s)

/-- A number, after the sign `sign`. -/
def readNumber (sign : List Char) (s : List Char) : Option (Json × List Char) :=
  match readInt s with
  | none => none
  | some (ds, s) =>
    match readFraction s with
    | none => none
    | some (fraction, s) =>
      match readExponent s with
      | none => none
      | some (exponent, s) =>
        if fraction = [] ∧ exponent = [] then
          some (.num (if sign = [] then digitsValue ds else - (digitsValue ds : Int)), s)
        else some (.decimal (sign ++ ds ++ fraction ++ exponent), s)

/-- A literal name. -/
def readName (name : List Char) (j : Json) (s : List Char) : Option (Json × List Char) :=
  match stripPrefix name s with
  | none => none
  | some rest => some (j, rest)

mutual

/-- A value, after any white space. `fuel` bounds the nesting and the numbers of elements. -/
def readValue : Nat → List Char → Option (Json × List Char)
  | 0, _ => none
  | fuel + 1, s =>
    match skipSpace s with
    | [] => none
    | c :: rest =>
      if c = '"' then
        match readString .normal rest with
        | none => none
        | some (t, rest) => some (.str t, rest)
      else if c = '[' then
        match expect ']' rest with
        | some rest => some (.arr [], rest)
        | none =>
          match readElements fuel rest with
          | none => none
          | some (es, rest) => some (.arr es, rest)
      else if c = '{' then
        match expect '}' rest with
        | some rest => some (.obj [], rest)
        | none =>
          match readFields fuel rest with
          | none => none
          | some (ms, rest) => some (.obj ms, rest)
      else if c = 'n' then readName c!"ull" .null rest
      else if c = 't' then readName c!"rue" (.bool true) rest
      else if c = 'f' then readName c!"alse" (.bool false) rest
      else if c = '-' then readNumber ['-'] rest
      else readNumber [] (c :: rest)

/-- The elements of an array that is not empty, up to the closing bracket. -/
def readElements : Nat → List Char → Option (List Json × List Char)
  | 0, _ => none
  | fuel + 1, s =>
    match readValue fuel s with
    | none => none
    | some (e, s) =>
      match expect ',' s with
      | some s =>
        match readElements fuel s with
        | none => none
        | some (es, s) => some (e :: es, s)
      | none =>
        match expect ']' s with
        | some s => some ([e], s)
        | none => none

/-- The members of an object that is not empty, up to the closing brace. -/
def readFields : Nat → List Char → Option (List (List Char × Json) × List Char)
  | 0, _ => none
  | fuel + 1, s =>
    match readQuoted s with
    | none => none
    | some (k, s) =>
      match expect ':' s with
      | none => none
      | some s =>
        match readValue fuel s with
        | none => none
        | some (v, s) =>
          match expect ',' s with
          | some s =>
            match readFields fuel s with
            | none => none
            | some (ms, s) => some ((k, v) :: ms, s)
          | none =>
            match expect '}' s with
            | some s => some ([(k, v)], s)
            | none => none

end

/-- `serde_json::from_str` to a `Value`: only white space may follow. -/
def read (s : List Char) : Option Json :=
  match readValue (2 * s.length + 1) s with
  | none => none
  | some (j, rest) => if skipSpace rest = [] then some j else none

/-! ### derived `Deserialize` -/

/-- A field of a derived `Deserialize`: it must not be there twice. Members that are not fields are ignored. -/
def field (members : List (List Char × Json)) (key : List Char) : Option (Option Json) :=
  match members.filter (fun m => m.1 = key) with
  | [] => some none
  | [m] => some (some m.2)
  | _ => none

/-- A field of type `T`. -/
def required {T : Type} (members : List (List Char × Json)) (key : List Char) (get : Json → Option T) : Option T :=
  match field members key with
  | some (some j) => get j
  | _ => none

/-- A field of type `Option<T>`: missing and `null` are `None`. -/
def optionalField {T : Type} (members : List (List Char × Json)) (key : List Char) (get : Json → Option T) : Option (Option T) :=
  match field members key with
  | none => none
  | some none => some none
  | some (some .null) => some none
  | some (some j) => (get j).map some

/-- `String` -/
def getString : Json → Option (List Char)
  | .str s => some s
  | _ => none

/-- An integer type with the values from `low` to `high`. -/
def getInteger (low high : Int) : Json → Option Int
  | .num n => if low ≤ n ∧ n ≤ high then some n else none
  | _ => none

/-- `Vec<String>` -/
def getStrings : Json → Option (List (List Char))
  | .arr es => es.mapM getString
  | _ => none

end Defmt.Json
