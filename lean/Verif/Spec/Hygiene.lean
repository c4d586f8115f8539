import Verif.Model.Hygiene
/-!
Specification side of C108: what a macro does with the expressions it is given, in terms of the scopes in which they are evaluated, without
the generated code.
-/

namespace Defmt.Hygiene

/-- The values of expressions that are all evaluated in the scope `ρ`, once each, from left to right. -/
def inOrder {V S : Type} (ρ : Env V) : List (UserExp V S) → S → Option (List V) × S
  | [], s => (some [], s)
  | e :: es, s =>
    match e ρ s with
    | (none, s) => (none, s)
    | (some v, s) =>
      match inOrder ρ es s with
      | (none, s) => (none, s)
      | (some vs, s) => (some (v :: vs), s)

/-- The expressions are evaluated in the scope `ρ`; then, if logging is on, their values and those of `more` are sent. -/
def said {V S : Type} (l : Lang V S) (on : Bool) (what : Sent) (fmt : List Char) (ρ : Env V) (es : List (UserExp V S)) (more : List V)
    (s : S) : Option V × S :=
  match inOrder ρ es s with
  | (none, s) => (none, s)
  | (some vs, s) => (some l.unit, if on then l.emit what fmt (vs ++ more) s else s)

/-- Afterwards there is a panic. -/
def thenPanics {V S : Type} (l : Lang V S) (r : Option V × S) : Option V × S := (none, if r.1.isSome then l.panic r.2 else r.2)

/-- `assert!` -/
def assertMeans {V S : Type} (l : Lang V S) (on : Bool) (fmt : List Char) (ρ : Env V) (condition : UserExp V S) (es : List (UserExp V S))
    (s : S) : Option V × S :=
  match condition ρ s with
  | (none, s) => (none, s)
  | (some v, s) => if l.truth v then (some l.unit, s) else thenPanics l (said l on (.log .error) fmt ρ es [] s)

/-- `unwrap!` with a message; its arguments are evaluated in the scope `inner`, which may depend on the error -/
def unwrapMeans {V S : Type} (l : Lang V S) (on : Bool) (fmt : List Char) (ρ : Env V) (inner : V → Env V) (e : UserExp V S)
    (es : List (UserExp V S)) (more : V → List V) (s : S) : Option V × S :=
  match e ρ s with
  | (none, s) => (none, s)
  | (some v, s) =>
    match l.intoResult v with
    | .ok v => (some v, s)
    | .error v => thenPanics l (said l on (.log .error) fmt (inner v) es (more v) s)

/-- `assert_eq!` and `assert_ne!`; `fails` says when the assertion fails, `more` which values are shown after those of the message -/
def binopMeans {V S : Type} (l : Lang V S) (on : Bool) (fmt : List Char) (ρ : Env V) (inner : V → V → Env V) (left right : UserExp V S)
    (fails : V → V → Bool) (es : List (UserExp V S)) (more : V → V → List V) (s : S) : Option V × S :=
  match left ρ s with
  | (none, s) => (none, s)
  | (some a, s) =>
    match right ρ s with
    | (none, s) => (none, s)
    | (some b, s) => if fails a b then thenPanics l (said l on (.log .error) fmt (inner a b) es (more a b) s) else (some l.unit, s)

/-- `dbg!`: each expression is evaluated and its value shown before the next one. -/
def dbgMeans {V S : Type} (l : Lang V S) (on : Bool) (ρ : Env V) : List (List Char × UserExp V S) → S → Option (List V) × S
  | [], s => (some [], s)
  | (text, e) :: es, s =>
    match e ρ s with
    | (none, s) => (none, s)
    | (some v, s) =>
      match dbgMeans l on ρ es (if on then l.emit (.log .trace) (Macros.escapedExprString text ++ c!" = {}") [v] s else s) with
      | (none, s) => (none, s)
      | (some vs, s) => (some (v :: vs), s)

/-- An expression in which the name `x` does not occur (freely): it is the same whatever `x` is. -/
def Ignores {V S : Type} (e : UserExp V S) (x : Name) : Prop := ∀ ρ v s, e (Env.set ρ x v) s = e ρ s

end Defmt.Hygiene
