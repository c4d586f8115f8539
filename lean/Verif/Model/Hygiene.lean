import Verif.Model.Macros
/-!
# The code the macros expand to, with its names

`Model/Macros.lean` says which format string and which values a macro sends, `Model/Program.lean` in which order things happen; here is the
code that the macros generate, with the names it binds, so that it can be said what the names in the expressions of the user refer to.

All identifiers the macros generate have the span of the call (`quote!`, `format_ident!`, `construct::variable`, construct.rs:100-103): they
are in no way different from those the user writes, and a binding of the macro around an expression of the user is visible in it.

An expression of the user is a function of the variables in scope where it stands and of the state of the program `S` (anything: memory,
what was sent); it gives a value, or does not return (`none`: panic, `return`, `break`). The value of `&(e)` is taken to be that of `e`.
Not modelled: types; that a constant, static or unit struct of the user with the name of a pattern of the macro makes the program
ill-formed.
-/

namespace Defmt.Hygiene

open Macros

abbrev Name := List Char

/-- The variables in scope. -/
abbrev Env (V : Type) := Name → Option V

/-- a variable is declared -/
def Env.set {V : Type} (ρ : Env V) (x : Name) (v : V) : Env V := fun y => if y = x then some v else ρ y

/-- An expression of the user. -/
abbrev UserExp (V S : Type) := Env V → S → Option V × S

/-- What is sent. -/
inductive Sent where
  | log (level : Level)
  | println
  /-- in an implementation of `Format` -/
  | write
  | timestamp
deriving DecidableEq, Repr

/-- What the rest of the world does with the generated code. -/
structure Lang (V S : Type) where
  /-- `acquire_and_header`, the arguments, `release`; for `write!` index and arguments, for `timestamp!` the arguments -/
  emit : Sent → List Char → List V → S → S
  /-- `defmt::export::panic()` -/
  panic : S → S
  unit : V
  tuple : List V → V
  truth : V → Bool
  /-- `*left_val == *right_val` -/
  equal : V → V → Bool
  /-- `defmt::export::into_result` -/
  intoResult : V → Except V V
  /-- a `u8` of value 0 -/
  zero : V
  /-- the argument of the timestamp function -/
  formatter : V

/-- Generated code. -/
inductive Exp (V S : Type) where
  | user (e : UserExp V S)
  | var (x : Name)
  /-- `match (&(e0), &(e1), ..) { (x0, x1, ..) => body }` -/
  | bind (es : List (Exp V S)) (xs : List Name) (body : Exp V S)
  /-- `match (&(e0), &(e1), ..) { _ => {} }` -/
  | discard (es : List (Exp V S))
  /-- `match into_result(e) { Ok(x) => a, Err(y) => b }` -/
  | result (e : Exp V S) (x : Name) (a : Exp V S) (y : Name) (b : Exp V S)
  /-- `if *x == *y { a }`, or `if !(*x == *y) { a }` -/
  | compare (negated : Bool) (x y : Name) (a : Exp V S)
  /-- `if !(c) { a }` -/
  | unless (c a : Exp V S)
  /-- something is sent, with the variables as arguments -/
  | send (what : Sent) (fmt : List Char) (xs : List Name)
  | seq (a b : Exp V S)
  /-- `(e0, e1, ..)`; `(e)` is `e` -/
  | tuple (es : List (Exp V S))
  | panic
  | unit

/-- if there is a value, go on -/
def next {S α β : Type} (r : Option α × S) (f : α → S → Option β × S) : Option β × S :=
  match r with
  | (some a, s) => f a s
  | (none, s) => (none, s)

/-- the patterns are bound, from left to right -/
def bindAll {V : Type} : List Name → List V → Env V → Env V
  | x :: xs, v :: vs, ρ => bindAll xs vs (ρ.set x v)
  | _, _, ρ => ρ

/-- the values of variables -/
def lookups {V : Type} (ρ : Env V) : List Name → Option (List V)
  | [] => some []
  | x :: xs =>
    match ρ x, lookups ρ xs with
    | some v, some vs => some (v :: vs)
    | _, _ => none

mutual

/-- Execution of generated code. -/
def eval {V S : Type} (l : Lang V S) : Exp V S → Env V → S → Option V × S
  | .user e, ρ, s => e ρ s
  | .var x, ρ, s => (ρ x, s)
  | .bind es xs body, ρ, s => next (evalAll l es ρ s) fun vs s => eval l body (bindAll xs vs ρ) s
  | .discard es, ρ, s => next (evalAll l es ρ s) fun _ s => (some l.unit, s)
  | .result e x a y b, ρ, s => next (eval l e ρ s) fun v s =>
      match l.intoResult v with
      | .ok v => eval l a (ρ.set x v) s
      | .error v => eval l b (ρ.set y v) s
  | .compare negated x y a, ρ, s =>
    match ρ x, ρ y with
    | some v, some w => if l.equal v w != negated then eval l a ρ s else (some l.unit, s)
    | _, _ => (none, s)
  | .unless c a, ρ, s => next (eval l c ρ s) fun v s => if l.truth v then (some l.unit, s) else eval l a ρ s
  | .send what fmt xs, ρ, s =>
    match lookups ρ xs with
    | some vs => (some l.unit, l.emit what fmt vs s)
    | none => (none, s)
  | .seq a b, ρ, s => next (eval l a ρ s) fun _ s => eval l b ρ s
  | .tuple es, ρ, s => next (evalAll l es ρ s) fun vs s =>
      match vs with
      | [v] => (some v, s)
      | vs => (some (l.tuple vs), s)
  | .panic, _, s => (none, l.panic s)
  | .unit, _, s => (some l.unit, s)

/-- from left to right -/
def evalAll {V S : Type} (l : Lang V S) : List (Exp V S) → Env V → S → Option (List V) × S
  | [], _, s => (some [], s)
  | e :: es, ρ, s => next (eval l e ρ s) fun v s => next (evalAll l es ρ s) fun vs s => (some (v :: vs), s)

end

/-! ## The expansions -/

/-- `format_ident!("arg{}", arg_index)` (log/codegen.rs:47) -/
def argName (i : Nat) : Name := c!"arg" ++ Nat.toDigits 10 i

/-- the patterns of a macro with this number of arguments (log/codegen.rs:43-57) -/
def patterns (n : Nat) : List Name := (List.range n).map argName

/-- Format string and arguments, `log::Args` (log/args.rs:7-10). That the numbers of parameters and arguments agree is checked at compile time
(log/codegen.rs:22-41, C25). -/
structure Message (E : Type) where
  fmt : List Char
  args : List E

/-- `log::expand_parsed` (log.rs:21-87). `filter` is `path_check`: `none` if no module of the crate logs at this level, otherwise the constant
`CHECK` (C45). -/
def logExpansion {V S : Type} (filter : Option Bool) (level : Level) (m : Message (Exp V S)) : Exp V S :=
  match filter with
  | some check => .bind m.args (patterns m.args.length) (if check then .send (.log level) m.fmt (patterns m.args.length) else .unit)
  | none => .discard m.args

/-- `println::expand_parsed` (println.rs:15-63) -/
def printlnExpansion {V S : Type} (m : Message (Exp V S)) : Exp V S :=
  .bind m.args (patterns m.args.length) (.send .println m.fmt (patterns m.args.length))

/-- `panic_like::expand` (panic_like.rs:10-43); `fmt` is the transformed format string (`Model/Macros.lean`). -/
def panicExpansion {V S : Type} (filter : Option Bool) (m : Message (Exp V S)) : Exp V S :=
  .seq (logExpansion filter .error m) .panic

/-- `assert!` (assert_like/assert.rs:33-39) -/
def assertExpansion {V S : Type} (filter : Option Bool) (condition : Exp V S) (m : Message (Exp V S)) : Exp V S :=
  .unless condition (.seq (logExpansion filter .error m) .panic)

/-- `construct::variable` (construct.rs:100-103) -/
def variable_ {V S : Type} (name : Name) : Exp V S := .var name

/-- `unwrap!` (assert_like/unwrap.rs:8-47): without a message, the error is the argument. -/
def unwrapExpansion {V S : Type} (filter : Option Bool) (text : List Char) (e : Exp V S) (m : Option (Message (Exp V S))) : Exp V S :=
  let log : Message (Exp V S) := match m with
    | some m => ⟨c!"panicked at '" ++ m.fmt ++ c!"'", m.args⟩
    | none => ⟨c!"panicked at 'unwrap failed: " ++ escapedExprString text ++ c!"'\nerror: `{:?}`", [variable_ c!"_unwrap_err"]⟩
  .result e c!"res" (.var c!"res") c!"_unwrap_err" (.seq (logExpansion filter .error log) .panic)

/-- `assert_eq!` and `assert_ne!` (assert_binop.rs:20-84) -/
def binopExpansion {V S : Type} (filter : Option Bool) (op : BinOp) (left right : Exp V S) (m : Option (Message (Exp V S))) : Exp V S :=
  let given := match m with
    | some m => m.args
    | none => []
  let vals := match op with
    | .eq => [c!"left_val", c!"right_val"]
    | .ne => [c!"left_val"]
  let log : Message (Exp V S) := ⟨binopFmt op (m.map Message.fmt), given ++ vals.map variable_⟩
  .bind [left, right] [c!"left_val", c!"right_val"]
    (.compare (op = .eq) c!"left_val" c!"right_val" (.seq (logExpansion filter .error log) .panic))

/-- `dbg!` (dbg.rs:17-41): every expression with its text. -/
def dbgExpansion {V S : Type} (filter : Option Bool) (es : List (List Char × Exp V S)) : Exp V S :=
  match es with
  | [] => logExpansion filter .trace ⟨[], []⟩
  | es => .tuple (es.map fun e => .bind [e.2] [c!"tmp"]
    (.seq (logExpansion filter .trace ⟨escapedExprString e.1 ++ c!" = {}", [variable_ c!"tmp"]⟩) (.var c!"tmp")))

/-- `write!` (write.rs:38-47) -/
def writeExpansion {V S : Type} (formatter : Exp V S) (m : Message (Exp V S)) : Exp V S :=
  .bind [formatter] [c!"_typecheck_formatter"]
    (.bind m.args (patterns m.args.length) (.send .write m.fmt (patterns m.args.length)))

/-- `timestamp!` (items/timestamp.rs:34-58): the function in the scope of the static variable `S`. Executed is its body: `fmt` is its
parameter, `S` the static, whose value is 0. -/
def timestampExpansion {V S : Type} (m : Message (Exp V S)) : Exp V S :=
  .bind m.args (patterns m.args.length) (.send .timestamp m.fmt (patterns m.args.length))

/-- The timestamp is taken: `ρ` is what can be seen where `timestamp!` stands. -/
def evalTimestamp {V S : Type} (l : Lang V S) (m : Message (Exp V S)) (ρ : Env V) (s : S) : Option V × S :=
  eval l (timestampExpansion m) ((ρ.set c!"S" l.zero).set c!"fmt" l.formatter) s

end Defmt.Hygiene
