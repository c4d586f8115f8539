import Verif.Model.Encoder
/-!
# The panicking and asserting macros

Models `macros/src/function_like/{panic_like,assert_like,assert_binop,dbg}.rs`,
`macros/src/function_like/assert_like/{assert,unwrap}.rs`, the entry points in `macros/src/lib.rs` and
`escaped_expr_string` (`macros/src/construct.rs`): the format string and arguments of the log
statement, and what happens when the expanded code runs.

An expression is represented by its tokens as text (`quote!(#expr).to_string()`), where the macro uses
it, and by its value. A user's message is a `Call`: format string and values of the arguments. Not
modelled: order of evaluation of the arguments, spans.
-/

namespace Defmt.Macros

open Encoder

/-- `str::replace(c, cc)` for a single character. -/
def double (c : Char) : List Char → List Char
  | [] => []
  | a :: r => if a = c then c :: c :: double c r else a :: double c r

/-- `escaped_expr_string` (construct.rs:22-27). -/
def escapedExprString (expr : List Char) : List Char := double '}' (double '{' expr)

/-- `panic_like::expand` (panic_like.rs:10-33), on the two closure arguments. -/
def panicLike (zeroArgs : List Char) (transform : List Char → List Char) : Option Call → Call
  | none => ⟨zeroArgs, []⟩
  | some c => ⟨transform c.fmt, c.args⟩

/-- `panic_` (lib.rs:155-161). -/
def panicCall : Option Call → Call :=
  panicLike c!"panicked at 'explicit panic'" (fun s => c!"panicked at '" ++ s ++ c!"'")

/-- `todo_` (lib.rs:163-169). -/
def todoCall : Option Call → Call :=
  panicLike c!"panicked at 'not yet implemented'" (fun s => c!"panicked at 'not yet implemented: " ++ s ++ c!"'")

/-- `unreachable_` (lib.rs:171-184). -/
def unreachableCall : Option Call → Call :=
  panicLike c!"panicked at 'internal error: entered unreachable code'"
    (fun s => c!"panicked at 'internal error: entered unreachable code: " ++ s ++ c!"'")

/-- The log statement of `assert!` (assert_like/assert.rs:11-31). -/
def assertCall (condition : List Char) : Option Call → Call
  | some c => ⟨c!"panicked at '" ++ c.fmt ++ c!"'", c.args⟩
  | none => ⟨c!"panicked at 'assertion failed: " ++ escapedExprString condition ++ c!"'", []⟩

/-- The log statement of `unwrap!` (assert_like/unwrap.rs:11-34). -/
def unwrapCall (expr : List Char) (unwrapErr : Val) : Option Call → Call
  | some c => ⟨c!"panicked at '" ++ c.fmt ++ c!"'", c.args⟩
  | none => ⟨c!"panicked at 'unwrap failed: " ++ escapedExprString expr ++ c!"'\nerror: `{:?}`", [unwrapErr]⟩

/-- `BinOp` (assert_binop.rs:86-90). -/
inductive BinOp where
  | eq
  | ne
deriving DecidableEq, Repr

/-- The format string of `assert_eq!`/`assert_ne!` (assert_binop.rs:25-57). -/
def binopFmt (op : BinOp) (message : Option (List Char)) : List Char :=
  let extra := match message with
    | some s => c!": " ++ s
    | none => []
  match op with
  | .eq => c!"panicked at 'assertion failed: `(left == right)`" ++ extra ++ c!"'\n left: `{:?}`\nright: `{:?}`"
  | .ne => c!"panicked at 'assertion failed: `(left != right)`" ++ extra ++ c!"'\nleft/right: `{:?}`"

/-- The values after the arguments of the message (assert_binop.rs:36-43). -/
def binopVals (op : BinOp) (left right : Val) : List Val :=
  match op with
  | .eq => [left, right]
  | .ne => [left]

/-- The log statement of `assert_eq!`/`assert_ne!` (assert_binop.rs:25-63). -/
def binopCall (op : BinOp) (left right : Val) (message : Option Call) : Call :=
  ⟨binopFmt op (message.map Call.fmt), (match message with | some c => c.args | none => []) ++ binopVals op left right⟩

/-- The log statement of `dbg!` for one expression (dbg.rs:22-30). -/
def dbgCall (expr : List Char) (tmp : Val) : Call := ⟨escapedExprString expr ++ c!" = {}", [tmp]⟩

/-! ## Running -/

/-- What the expanded code does: log statements executed, then the result; `none` is
`defmt::export::panic()`. -/
structure Run (α : Type) where
  logs : List (Level × Call)
  result : Option α

/-- A log statement (log.rs:45-83): nothing if `DEFMT_LOG` disables the level here. -/
def logStmt (enabled : Level → Bool) (level : Level) (c : Call) : List (Level × Call) :=
  if enabled level then [(level, c)] else []

/-- `{ #log_stmt; defmt::export::panic() }` (panic_like.rs:35-40). -/
def panicWith {α : Type} (enabled : Level → Bool) (c : Call) : Run α := ⟨logStmt enabled .error c, none⟩

/-- `assert!` (assert_like/assert.rs:33-39). -/
def runAssert (enabled : Level → Bool) (condition : List Char) (value : Bool) (message : Option Call) : Run Unit :=
  if !value then panicWith enabled (assertCall condition message) else ⟨[], some ()⟩

/-- What `unwrap!` is applied to. -/
inductive Unwrapped where
  | ok (v : Val)
  | err (e : Val)
  | some (v : Val)
  | none

/-- `into_result` (export/traits.rs:64-82); `NoneError` has an interned string at address `tag`
(traits.rs:40-52). -/
def intoResult (tag : Nat) : Unwrapped → Except Val Val
  | .ok v => .ok v
  | .err e => .error e
  | .some v => .ok v
  | .none => .error (.formatted tag c!"Unwrap of a None option value" [])

/-- `unwrap!` (assert_like/unwrap.rs:36-44). -/
def runUnwrap (enabled : Level → Bool) (tag : Nat) (expr : List Char) (value : Unwrapped) (message : Option Call) : Run Val :=
  match intoResult tag value with
  | .ok res => ⟨[], some res⟩
  | .error e => panicWith enabled (unwrapCall expr e message)

/-- `assert_eq!`/`assert_ne!` (assert_binop.rs:65-83); `equal` is `*left_val == *right_val`. -/
def runBinop (enabled : Level → Bool) (op : BinOp) (left right : Val) (equal : Bool) (message : Option Call) : Run Unit :=
  let cond := match op with
    | .eq => !equal
    | .ne => equal
  if cond then panicWith enabled (binopCall op left right message) else ⟨[], some ()⟩

/-- The `debug_` variants (lib.rs:67-96): `if cfg!(debug_assertions) { ... }`. -/
def runDebug (debugAssertions : Bool) (r : Run Unit) : Run Unit := if debugAssertions then r else ⟨[], some ()⟩

/-- `dbg!` (dbg.rs:17-41) on expressions with their values; the values are returned. -/
def runDbg (enabled : Level → Bool) : List (List Char × Val) → Run (List Val)
  | [] => ⟨logStmt enabled .trace ⟨[], []⟩, some []⟩
  | es => ⟨(es.map (fun e => logStmt enabled .trace (dbgCall e.1 e.2))).flatten, some (es.map Prod.snd)⟩

end Defmt.Macros
