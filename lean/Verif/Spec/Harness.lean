import Verif.Model.Harness
/-!
Specification side of the test harness: C87 to C89. Of the model only the data types for modules (`Item`, `Fn`, …), calls and events
are used, and `Behaviour`: what the functions do.
-/

namespace Defmt.Harness

/-! ### what the author of a module writes -/

/-- The functions of a module. -/
def functions (items : List Item) : List Fn := items.filterMap (fun i => match i with
  | .fn f => some f
  | .other => none)

/-- The role an attribute gives to a function. -/
def FnAttr.role : FnAttr → Option Role
  | .init => some .init
  | .teardown => some .teardown
  | .test => some .test
  | .beforeEach => some .beforeEach
  | .afterEach => some .afterEach
  | _ => none

/-- The roles given to a function. -/
def Fn.roles (f : Fn) : List Role := f.attrs.filterMap FnAttr.role

/-- The role of a function; if it has been given several, the last one counts. -/
def Fn.role (f : Fn) : Option Role := f.roles.getLast?

def Fn.isIgnored (f : Fn) : Bool := FnAttr.ignore ∈ f.attrs

def Fn.shouldError (f : Fn) : Bool := FnAttr.shouldError ∈ f.attrs

/-- The function is compiled: it has no `#[cfg]` that does not hold. -/
def Fn.isCompiled (f : Fn) : Bool := FnAttr.cfg false ∉ f.attrs

/-- The functions with a role, in the order of the source. -/
def withRole (r : Role) (items : List Item) : List Fn := (functions items).filter (fun f => f.role = some r)

/-- The tests that are compiled, in the order of the source. -/
def tests (items : List Item) : List Fn := (withRole .test items).filter Fn.isCompiled

/-- The parameter list is empty or `(state: &mut T)`. -/
def Fn.TakesState (f : Fn) (ty : List Char) : Prop := f.inputs = [.mutRef ty]

/-- What the README asks of a function, apart from what concerns the others. -/
structure Fn.Ok (f : Fn) : Prop where
  role : f.role ≠ none
  plain : f.plain = true
  inputs : f.inputs = [] ∨ ∃ ty, f.TakesState ty
  init : f.role = some .init → f.inputs = []
  attrs : f.role ≠ some .test → FnAttr.shouldError ∉ f.attrs ∧ FnAttr.ignore ∉ f.attrs

/-- The modules that are accepted. -/
structure Accepted (items : List Item) : Prop where
  each : ∀ f ∈ functions items, f.Ok
  once : ∀ r ≠ Role.test, (withRole r items).length ≤ 1
  /-- the state is what the init function returns -/
  state : ∀ f ∈ functions items, ∀ ty, f.TakesState ty → ∃ g ∈ withRole .init items, g.output = some ty
  /-- functions that are called are there -/
  compiled : ∀ f ∈ functions items, f.role = some .init ∨ f.role = some .teardown ∨
      ((f.role = some .beforeEach ∨ f.role = some .afterEach) ∧ ∃ t ∈ tests items, t.isIgnored = false) → f.isCompiled = true

/-! ### what happens on the device -/

/-- The call of a function by the harness. -/
def Fn.toCall (f : Fn) : Call := ⟨f.name, f.inputs ≠ []⟩

/-- A step of a test run. -/
inductive Step where
  /-- something is shown -/
  | event (e : Event)
  /-- a function is called that only has to return -/
  | hook (c : Call)
  /-- a test is called -/
  | test (c : Call) (shouldError : Bool)

def hooks (r : Role) (items : List Item) : List Step := (withRole r items).map (fun f => .hook f.toCall)

/-- The steps for the `i`-th of `n` tests: it is announced, then called between the before-each and the after-each function. A test that is
ignored is announced as such; it is not called, unless `callIgnored`. -/
def testSteps (callIgnored : Bool) (items : List Item) (n i : Nat) (f : Fn) : List Step :=
  .event (.progress i n f.isIgnored f.name) ::
    if f.isIgnored then (if callIgnored then [.hook f.toCall] else [])
    else hooks .beforeEach items ++ [.test f.toCall f.shouldError] ++ hooks .afterEach items

/-- The tests that follow, with numbers from `i`. -/
def testsFrom (callIgnored : Bool) (items : List Item) (n : Nat) : Nat → List Fn → List Step
  | _, [] => []
  | i, f :: rest => testSteps callIgnored items n i f ++ testsFrom callIgnored items n (i + 1) rest

/-- The init function and all tests. -/
def suite (callIgnored : Bool) (items : List Item) : List Step :=
  hooks .init items ++ testsFrom callIgnored items (tests items).length 1 (tests items)

/-- All steps of a test run. -/
def allSteps (callIgnored : Bool) (items : List Item) : List Step :=
  suite callIgnored items ++ [.event .passed] ++ hooks .teardown items ++ [.event .exit]

/-- The events of a run with the given steps: it stops at the first call that panics and at the first test with the wrong outcome. -/
inductive Follows {W : Type} (b : Behaviour W) : W → List Step → List Event → Prop
  | done {w} : Follows b w [] []
  | event {w e s t} : Follows b w s t → Follows b w (.event e :: s) (e :: t)
  | returns {w c x w' s t} : b c.name w = some (x, w') → Follows b w' s t → Follows b w (.hook c :: s) (.call c :: t)
  | passes {w c e x w' s t} : b c.name w = some (x, w') → x ≠ e → Follows b w' s t → Follows b w (.test c e :: s) (.call c :: t)
  | panicsHook {w c s} : b c.name w = none → Follows b w (.hook c :: s) [.call c]
  | panicsTest {w c e s} : b c.name w = none → Follows b w (.test c e :: s) [.call c]
  | fails {w c e w' s} : b c.name w = some (e, w') → Follows b w (.test c e :: s) [.call c, .failed e]

/-- All functions return and all tests have the outcome that is wanted: success, or an error for `#[should_error]`. -/
inductive AllPass {W : Type} (b : Behaviour W) : W → List Step → Prop
  | done {w} : AllPass b w []
  | event {w e s} : AllPass b w s → AllPass b w (.event e :: s)
  | hook {w c x w' s} : b c.name w = some (x, w') → AllPass b w' s → AllPass b w (.hook c :: s)
  | success {w c w' s} : b c.name w = some (true, w') → AllPass b w' s → AllPass b w (.test c false :: s)
  | error {w c w' s} : b c.name w = some (false, w') → AllPass b w' s → AllPass b w (.test c true :: s)

end Defmt.Harness
