import Verif.Model.Parser
/-!
# The test harness `defmt-test`

Models the macro `#[tests]` (`tests_impl`, firmware/defmt-test/macros/src/lib.rs:28-552, `check_fn_sig`, `get_mutable_reference_type`,
`extract_cfgs`, 595-637) and the run time part (firmware/defmt-test/src/export.rs, `TestOutcome` in firmware/defmt-test/src/lib.rs).

A module is the list of its items; of a function its name, its attributes and its signature are kept. Types are their text. The code
that the macro generates is a list of statements, which is then executed; what the functions of the module do is a parameter. Spans and
texts of compile errors are not modelled, nor that the module must be inline and that the attribute takes no arguments.
-/

namespace Defmt.Harness
open Parser

/-- The attributes of a function. A `#[cfg]` is replaced by whether it holds. -/
inductive FnAttr where
  | init | teardown | test | beforeEach | afterEach | shouldError | ignore
  | cfg (holds : Bool)
  | other
deriving DecidableEq, Repr

/-- A parameter of a function: `x: &mut T` or another. -/
inductive Param where
  | mutRef (ty : List Char)
  | other
deriving DecidableEq, Repr

structure Fn where
  name : List Char
  attrs : List FnAttr
  /-- `check_fn_sig` (lib.rs:595-608): not `const`, `async`, `unsafe`, `extern`, generic or variadic -/
  plain : Bool
  inputs : List Param
  output : Option (List Char)
deriving DecidableEq, Repr

inductive Item where
  | fn (f : Fn)
  /-- other items are passed on as they are -/
  | other
deriving DecidableEq, Repr

/-- `enum Attr` (lib.rs:554-561) -/
inductive Role where
  | afterEach | beforeEach | init | teardown | test
deriving DecidableEq, Repr

inductive MacroError where
  | noRole
  | duplicate (r : Role)
  | shouldErrorNotAllowed (r : Role)
  | ignoreNotAllowed (r : Role)
  | signature (r : Role)
  | notMutRef (r : Role)
  | stateType (r : Role)
  | noState (r : Role)
  /-- the compiler does not find a function that is called by the generated code -/
  | unresolved (r : Role)
deriving DecidableEq, Repr

/-- the closure of `f.attrs.retain` (lib.rs:60-85): the last role wins -/
def scanAttrs : List FnAttr → Option Role × Bool × Bool → Option Role × Bool × Bool
  | [], s => s
  | .init :: rest, (_, e, i) => scanAttrs rest (some .init, e, i)
  | .teardown :: rest, (_, e, i) => scanAttrs rest (some .teardown, e, i)
  | .test :: rest, (_, e, i) => scanAttrs rest (some .test, e, i)
  | .beforeEach :: rest, (_, e, i) => scanAttrs rest (some .beforeEach, e, i)
  | .afterEach :: rest, (_, e, i) => scanAttrs rest (some .afterEach, e, i)
  | .shouldError :: rest, (r, _, i) => scanAttrs rest (r, true, i)
  | .ignore :: rest, (r, e, _) => scanAttrs rest (r, e, true)
  | _ :: rest, s => scanAttrs rest s

/-- `extract_cfgs` (lib.rs:627-637), and whether all hold: what has these attributes is compiled -/
def enabled (attrs : List FnAttr) : Bool := attrs.all (fun a => match a with
  | .cfg b => b
  | _ => true)

/-- `Init`, `Teardown`, `BeforeEach`, `AfterEach` (lib.rs:563-581); for `Init` the type is that of the state -/
structure Hook where
  func : Fn
  ty : Option (List Char)
deriving DecidableEq, Repr

/-- `Test` (lib.rs:583-589) -/
structure Test where
  func : Fn
  input : Option (List Char)
  shouldError : Bool
  ignore : Bool
deriving DecidableEq, Repr

/-- the variables of the first loop (lib.rs:47-52) -/
structure Collected where
  init : Option Hook := none
  teardown : Option Hook := none
  beforeEach : Option Hook := none
  afterEach : Option Hook := none
  tests : List Test := []
deriving DecidableEq, Repr

/-- the parameter of a test, a teardown, before-each or after-each function (e.g. lib.rs:164-181) -/
def stateParam (r : Role) (f : Fn) : Except MacroError (Option (List Char)) :=
  match f.inputs with
  | [p] => match p with
    | .mutRef ty => .ok (some ty)
    | .other => .error (.notMutRef r)
  | _ => .ok none

/-- the arms for `Teardown`, `BeforeEach` and `AfterEach` (lib.rs:135-184, 219-267, 268-316), `old` is what was found before -/
def checkHook (r : Role) (old : Option Hook) (f : Fn) (shouldError ignore : Bool) : Except MacroError Hook :=
  if old.isSome then .error (.duplicate r)
  else if shouldError then .error (.shouldErrorNotAllowed r)
  else if ignore then .error (.ignoreNotAllowed r)
  else if !f.plain || decide (f.inputs.length > 1) then .error (.signature r)
  else match stateParam r f with
    | .error e => .error e
    | .ok ty => .ok ⟨f, ty⟩

/-- the arm for `Init` (lib.rs:98-133) -/
def checkInit (old : Option Hook) (f : Fn) (shouldError ignore : Bool) : Except MacroError Hook :=
  if old.isSome then .error (.duplicate .init)
  else if shouldError then .error (.shouldErrorNotAllowed .init)
  else if ignore then .error (.ignoreNotAllowed .init)
  else if !f.plain || !f.inputs.isEmpty then .error (.signature .init)
  else .ok ⟨f, f.output⟩

/-- the arm for `Test` (lib.rs:185-218) -/
def checkTest (f : Fn) (shouldError ignore : Bool) : Except MacroError Test :=
  if !f.plain || decide (f.inputs.length > 1) then .error (.signature .test)
  else match stateParam .test f with
    | .error e => .error e
    | .ok ty => .ok ⟨f, ty, shouldError, ignore⟩

/-- one function of the first loop (lib.rs:55-318) -/
def collectFn (c : Collected) (f : Fn) : Except MacroError Collected :=
  match scanAttrs f.attrs (none, false, false) with
  | (none, _, _) => .error .noRole
  | (some .init, e, i) => match checkInit c.init f e i with
    | .error err => .error err
    | .ok h => .ok { c with init := some h }
  | (some .teardown, e, i) => match checkHook .teardown c.teardown f e i with
    | .error err => .error err
    | .ok h => .ok { c with teardown := some h }
  | (some .test, e, i) => match checkTest f e i with
    | .error err => .error err
    | .ok t => .ok { c with tests := c.tests ++ [t] }
  | (some .beforeEach, e, i) => match checkHook .beforeEach c.beforeEach f e i with
    | .error err => .error err
    | .ok h => .ok { c with beforeEach := some h }
  | (some .afterEach, e, i) => match checkHook .afterEach c.afterEach f e i with
    | .error err => .error err
    | .ok h => .ok { c with afterEach := some h }

/-- the first loop (lib.rs:53-324) -/
def collectItems : List Item → Collected → Except MacroError Collected
  | [], c => .ok c
  | .other :: rest, c => collectItems rest c
  | .fn f :: rest, c => match collectFn c f with
    | .error e => .error e
    | .ok c => collectItems rest c

/-- A call in the generated code: `f()` or `f(&mut state)`. -/
structure Call where
  name : List Char
  state : Bool
deriving DecidableEq, Repr

/-- the call of a function with or without the state (e.g. lib.rs:347-369); `stateTy` is what `init` returns -/
def makeCall (r : Role) (stateTy : Option (List Char)) (name : List Char) (input : Option (List Char)) : Except MacroError Call :=
  match input with
  | some ty => match stateTy with
    | some state => if ty ≠ state then .error (.stateType r) else .ok ⟨name, true⟩
    | none => .error (.noState r)
  | none => .ok ⟨name, false⟩

/-- the call of an optional function (lib.rs:342-439) -/
def hookCall (r : Role) (stateTy : Option (List Char)) : Option Hook → Except MacroError (Option Call)
  | none => .ok none
  | some h => match makeCall r stateTy h.func.name h.ty with
    | .error e => .error e
    | .ok c => .ok (some c)

/-- The statements of the generated function `__defmt_test_entry`. -/
inductive Stmt where
  /-- `let mut state = f();` -/
  | init (name : List Char)
  /-- `f();` or `f(&mut state);` -/
  | call (c : Call)
  /-- `let _ = f();` -/
  | callIgnored (c : Call)
  /-- `check_outcome(f(), should_error);` -/
  | check (c : Call) (shouldError : Bool)
  /-- `defmt::println!("({=usize}/{=usize}) running `f`...", __defmt_test_number, DEFMT_TEST_COUNT);` -/
  | progress (ignored : Bool) (name : List Char)
  /-- `__defmt_test_number += 1;` -/
  | next
  /-- `defmt::println!("all tests passed!");` -/
  | passed
  /-- `exit()` -/
  | exit
deriving DecidableEq, Repr

/-- `unit_test_calls` for one test (lib.rs:441-478) -/
def testCalls (stateTy : Option (List Char)) (before after : Option Call) (t : Test) : Except MacroError (List Stmt) :=
  match makeCall .test stateTy t.func.name t.input with
  | .error e => .error e
  | .ok c =>
    if t.ignore then .ok [.callIgnored c]
    else .ok ((before.toList.map .call) ++ [.check c t.shouldError] ++ (after.toList.map .call))

/-- the block for one test (lib.rs:499-511, 523-529): it has the `#[cfg]`s of the test -/
def testBlock (t : Test) (calls : List Stmt) : List Stmt :=
  if enabled t.func.attrs then .progress t.ignore t.func.name :: calls ++ [.next] else []

/-- the blocks of all tests -/
def testBlocks (stateTy : Option (List Char)) (before after : Option Call) : List Test → Except MacroError (List Stmt)
  | [] => .ok []
  | t :: rest => match testCalls stateTy before after t with
    | .error e => .error e
    | .ok calls => match testBlocks stateTy before after rest with
      | .error e => .error e
      | .ok stmts => .ok (testBlock t calls ++ stmts)

/-- What the macro generates: `DEFMT_TEST_COUNT` (lib.rs:482-498) and the body of the entry function. -/
structure Program where
  count : Nat
  body : List Stmt
deriving DecidableEq, Repr

/-- A hook that is called is compiled (the compiler complains otherwise). Hooks are only called by tests, if there are any. -/
def resolve (r : Role) (called : Bool) : Option Hook → Except MacroError Unit
  | none => .ok ()
  | some h => if called && !enabled h.func.attrs then .error (.unresolved r) else .ok ()

/-- the second part of `tests_impl` (lib.rs:326-552) -/
def generate (c : Collected) : Except MacroError Program :=
  let stateTy := c.init.bind (·.ty)
  match hookCall .teardown stateTy c.teardown with
  | .error e => .error e
  | .ok teardown => match hookCall .beforeEach stateTy c.beforeEach with
    | .error e => .error e
    | .ok before => match hookCall .afterEach stateTy c.afterEach with
      | .error e => .error e
      | .ok after => match testBlocks stateTy before after c.tests with
        | .error e => .error e
        | .ok tests => .ok {
            count := (c.tests.filter (fun t => enabled t.func.attrs)).length
            body := (c.init.toList.map (fun h => .init h.func.name)) ++ tests ++ [.passed] ++ (teardown.toList.map .call) ++ [.exit] }

/-- That the functions which the generated code calls are compiled: the compiler checks this afterwards. -/
def link (c : Collected) : Except MacroError Unit :=
  let running := c.tests.any (fun t => enabled t.func.attrs && !t.ignore)
  match resolve .init true c.init with
  | .error e => .error e
  | .ok _ => match resolve .teardown true c.teardown with
    | .error e => .error e
    | .ok _ => match resolve .beforeEach running c.beforeEach with
      | .error e => .error e
      | .ok _ => resolve .afterEach running c.afterEach

/-- `tests_impl` (lib.rs:28-552), and compiling the result. -/
def expand (items : List Item) : Except MacroError Program :=
  match collectItems items {} with
  | .error e => .error e
  | .ok c => match generate c with
    | .error e => .error e
    | .ok p => match link c with
      | .error e => .error e
      | .ok _ => .ok p

/-! ### running -/

/-- What an observer of the device sees. -/
inductive Event where
  /-- a function of the module is called -/
  | call (c : Call)
  /-- ``(3/7) running `f`...`` or ``(3/7) ignoring `f`...`` -/
  | progress (number count : Nat) (ignored : Bool) (name : List Char)
  /-- the panic of `check_outcome` -/
  | failed (shouldError : Bool)
  | passed
  /-- the application exits with status code 0 -/
  | exit
deriving DecidableEq, Repr

/-- What the functions of the module do with the world `W` (which includes the state): `none` is a panic (or that the function does not
return), otherwise whether the outcome is a success (`TestOutcome::is_success`) and the new world. -/
abbrev Behaviour (W : Type) := List Char → W → Option (Bool × W)

/-- The execution of `__defmt_test_entry` (lib.rs:516-536) and `check_outcome`, `exit` (export.rs:9-26). After a panic nothing follows. -/
def exec {W : Type} (b : Behaviour W) (count : Nat) : List Stmt → Nat → W → List Event
  | [], _, _ => []
  | .init name :: rest, n, w => .call ⟨name, false⟩ :: match b name w with
    | none => []
    | some (_, w) => exec b count rest n w
  | .call c :: rest, n, w => .call c :: match b c.name w with
    | none => []
    | some (_, w) => exec b count rest n w
  | .callIgnored c :: rest, n, w => .call c :: match b c.name w with
    | none => []
    | some (_, w) => exec b count rest n w
  | .check c shouldError :: rest, n, w => .call c :: match b c.name w with
    | none => []
    | some (success, w) => if success == shouldError then [.failed shouldError] else exec b count rest n w
  | .progress ignored name :: rest, n, w => .progress n count ignored name :: exec b count rest n w
  | .next :: rest, n, w => exec b count rest (n + 1) w
  | .passed :: rest, n, w => .passed :: exec b count rest n w
  | .exit :: _, _, _ => [.exit]

/-- running the tests -/
def Program.run {W : Type} (p : Program) (b : Behaviour W) (w : W) : List Event := exec b p.count p.body 1 w

end Defmt.Harness
