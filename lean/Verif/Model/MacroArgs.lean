import Verif.Model.Macros
/-!
# The arguments of the macros

Models how the function-like macros take their arguments apart (`syn::parse::Parse for Args`). The input is what the user wrote between the
parentheses, as a list of expressions and of the commas between them; `E` are the expressions. That `syn` takes the longest expression is
trusted: between two commas there is exactly one. (A call in which two expressions follow each other without a comma is an error in `syn` as it
is here.) A parser takes the start of the input and gives back the rest; `none` is a compile error.
-/

namespace Defmt.MacroArgs

/-- A piece of the input: a comma or an expression. -/
inductive Tok (E : Type) where
  | comma
  | expr (e : E)
deriving DecidableEq, Repr

variable {E : Type}

/-- `input.parse::<Expr>()` -/
def parseExpr : List (Tok E) → Option (E × List (Tok E))
  | .expr e :: rest => some (e, rest)
  | _ => none

/-- `input.parse::<Token![,]>()` -/
def parseComma : List (Tok E) → Option (List (Tok E))
  | .comma :: rest => some rest
  | _ => none

/-- `input.parse::<LitStr>()`; `lit` says which expressions are string literals, and their value. An expression that only starts with a literal
(`"a".len()`) is an error after the literal, where a comma or the end is expected; here it is an error at once. -/
def parseLitStr (lit : E → Option (List Char)) : List (Tok E) → Option (List Char × List (Tok E))
  | .expr e :: rest => (lit e).map fun s => (s, rest)
  | _ => none

/-- `Punctuated::<Expr, Token![,]>::parse_terminated(input)`: expressions and commas alternate until the end of the input. -/
def parseTerminated : List (Tok E) → Option (List E)
  | [] => some []
  | [.expr e] => some [e]
  | .expr e :: .comma :: rest => (parseTerminated rest).map (e :: ·)
  | _ => none

/-- `log::Args` (log/args.rs:7-10). `formatting_args: None` and no arguments are treated alike everywhere (log.rs:27-30,
println.rs:26-29). -/
structure LogArgs (E : Type) where
  formatString : List Char
  formattingArgs : Option (List E)
deriving DecidableEq, Repr

/-- `Parse for log::Args` (log/args.rs:12-24): the arguments of the log macros, `println!` and `timestamp!`. -/
def parseLog (lit : E → Option (List Char)) (input : List (Tok E)) : Option (LogArgs E) :=
  match parseLitStr lit input with
  | none => none
  | some (formatString, input) =>
    if input.isEmpty then some ⟨formatString, none⟩
    else
      match parseComma input with
      | none => none
      | some input => (parseTerminated input).map fun es => ⟨formatString, some es⟩

/-- `panic_like::expand` (panic_like.rs:15-24): `panic!`, `todo!`, `unimplemented!`, `unreachable!`; `none` inside is the message without
arguments. -/
def parsePanic (lit : E → Option (List Char)) (input : List (Tok E)) : Option (Option (LogArgs E)) :=
  if input.isEmpty then some none else (parseLog lit input).map some

/-- `Parse for assert_like::Args` (assert_like.rs:16-43): `assert!` and `unwrap!`. -/
def parseAssert (lit : E → Option (List Char)) (input : List (Tok E)) : Option (E × Option (LogArgs E)) :=
  match parseExpr input with
  | none => none
  | some (condition, input) =>
    if input.isEmpty then some (condition, none)
    else
      match parseComma input with
      | none => none
      | some input =>
        if input.isEmpty then some (condition, none)
        else (parseLog lit input).map fun m => (condition, some m)

/-- `Parse for assert_binop::Args` (assert_binop/args.rs:14-47): `assert_eq!` and `assert_ne!`. -/
def parseBinop (lit : E → Option (List Char)) (input : List (Tok E)) : Option (E × E × Option (LogArgs E)) :=
  match parseExpr input with
  | none => none
  | some (left, input) =>
    match parseComma input with
    | none => none
    | some input =>
      match parseExpr input with
      | none => none
      | some (right, input) =>
        if input.isEmpty then some (left, right, none)
        else
          match parseComma input with
          | none => none
          | some input =>
            if input.isEmpty then some (left, right, none)
            else (parseLog lit input).map fun m => (left, right, some m)

/-- `Parse for write::Args` (write/args.rs:14-22) -/
def parseWrite (lit : E → Option (List Char)) (input : List (Tok E)) : Option (E × LogArgs E) :=
  match parseExpr input with
  | none => none
  | some (formatter, input) =>
    match parseComma input with
    | none => none
    | some input => (parseLog lit input).map fun m => (formatter, m)

/-- `Parse for dbg::Args` (dbg/args.rs:11-17) -/
def parseDbg (input : List (Tok E)) : Option (List E) := parseTerminated input

/-- `intern!` and `internp!` (intern.rs:6-7, internp.rs:7-8): a literal and nothing after it (`parse_macro_input!` takes the whole input). -/
def parseIntern (lit : E → Option (List Char)) (input : List (Tok E)) : Option (List Char) :=
  match parseLitStr lit input with
  | some (s, []) => some s
  | _ => none

/-- `formatting_args.map(..).unwrap_or_default()` (log.rs:27-30) -/
def LogArgs.args (m : LogArgs E) : List E := m.formattingArgs.getD []

end Defmt.MacroArgs
