/-!
# The expressions of the user inside of the generated code

What the macros generate is a sequence of tokens, which the compiler parses anew; the expressions of the user are spliced in as they were written,
without invisible parentheses around them (`quote!` with a `syn::Expr`). Here are the places at which they are put, so that it can be said which
expressions can stand there.

Modelled: macros/src/function_like/log.rs:64-72, 75-85, println.rs:51-57, assert_like/assert.rs:33-38, assert_like/unwrap.rs:37-45,
assert_binop.rs:65-77, dbg.rs:25-40, and `&(..)` around the arguments. The bodies of the generated arms and blocks contain no expressions of
the user but those in inner macros of the same form; they are opaque (`arms`, `block`). The formatter of `write!` stands before a semicolon
(write.rs:39) and is left out.
-/

namespace Defmt.Splice

/-- Tokens of Rust. Groups are one token, with the tokens in them; what is in braces is left out. -/
inductive Tok where
  /-- a path, a literal, a macro call, `self`, .. -/
  | ident (n : Nat)
  /-- `!`, `-`, `*`, `&`, `return`, `|x, y|` of a closure, `..` in `..b`, `unsafe` or a label before a block, .. -/
  | prefixOp (n : Nat)
  /-- `+`, `==`, `=`, `..`, .. -/
  | infixOp (n : Nat)
  /-- `?`, `.await`, `as T`, `..` in `a..` -/
  | postfixOp (n : Nat)
  | dot
  | comma
  | kwMatch
  /-- `if`, also with `let` and a pattern up to `=` -/
  | kwIf
  | kwElse
  /-- `while`, also with `let` and a pattern up to `=`; `for` with a pattern up to `in` -/
  | kwLoop
  | paren (content : List Tok)
  /-- `[ .. ]` -/
  | bracket (content : List Tok)
  /-- `{ x: 1 }` after the name of a struct -/
  | fields (n : Nat)
  /-- the braces of a `match` -/
  | arms
  /-- `{ .. }` -/
  | block

/-- `#(#es),*` -/
def commas : List (List Tok) → List Tok
  | [] => []
  | [e] => e
  | e :: es => e ++ .comma :: commas es

/-- `&` and `!` -/
def refOp : Tok := .prefixOp 0
def notOp : Tok := .prefixOp 1
/-- `defmt::export::into_result` -/
def intoResult : Tok := .ident 0

/-- log macros, `println!` and the messages of the other macros: `match (#(&(#formatting_exprs)),*) { .. }` -/
def logCode (es : List (List Tok)) : List Tok := [.kwMatch, .paren (commas (es.map fun e => [refOp, .paren e])), .arms]

/-- `assert!`: `if !(#condition) { .. }` -/
def assertCode (condition : List Tok) : List Tok := [.kwIf, notOp, .paren condition, .block]

/-- `assert_eq!`, `assert_ne!`: `match (&(#left), &(#right)) { .. }` -/
def binopCode (left right : List Tok) : List Tok := [.kwMatch, .paren (commas [[refOp, .paren left], [refOp, .paren right]]), .arms]

/-- `unwrap!`: `match defmt::export::into_result(#condition) { .. }` -/
def unwrapCode (condition : List Tok) : List Tok := [.kwMatch, intoResult, .paren condition, .arms]

/-- `dbg!` with expressions: `( #(match #expr { tmp => { .. } }),* )` -/
def dbgCode (es : List (List Tok)) : List Tok := [.paren (commas (es.map fun e => .kwMatch :: e ++ [.arms]))]

end Defmt.Splice
