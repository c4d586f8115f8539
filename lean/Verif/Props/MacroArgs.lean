import Verif.Lemmas.MacroArgs
/-!
# C109: which calls of the macros are accepted, and what is taken for what

In all theorems `E` are expressions and `lit` says which of them are string literals; nothing is assumed about them.
-/

namespace Defmt

open MacroArgs

variable {E : Type}

/-- C109 A comma separated list is the list of exactly one sequence of expressions: what the theorems below say is taken from a call is the only
thing that can be taken from it. -/
theorem C109_unique {es es' : List E} {input : List (Tok E)} (h : Listed es input) (h' : Listed es' input) : es = es' := by
  have := (parseTerminated_iff.mpr h).symm.trans (parseTerminated_iff.mpr h')
  simpa using this

/-- C109 Log macros, `println!` and `timestamp!`: accepted exactly if the input is a comma separated list (a trailing comma is fine) whose first
element is a string literal; the literal is the format string and the other elements are the arguments, in this order. -/
theorem C109_log (lit : E → Option (List Char)) (input : List (Tok E)) (fmt : List Char) (args : List E) :
    (∃ m, parseLog lit input = some m ∧ m.formatString = fmt ∧ m.args = args) ↔ ∃ f, lit f = some fmt ∧ Listed (f :: args) input := by
  rw [parseLog_iff]
  constructor
  · rintro ⟨es, ⟨f, hf, rfl⟩, h⟩; exact ⟨f, hf, h⟩
  · rintro ⟨f, hf, h⟩; exact ⟨_, ⟨f, hf, rfl⟩, h⟩

/-- C109 `panic!`, `todo!`, `unimplemented!`, `unreachable!`: the message without arguments exactly if nothing is given, otherwise as the log
macros. -/
theorem C109_panic (lit : E → Option (List Char)) (input : List (Tok E)) :
    (parsePanic lit input = some none ↔ input = []) ∧
    ∀ fmt args, (∃ m, parsePanic lit input = some (some m) ∧ m.formatString = fmt ∧ m.args = args) ↔
      ∃ f, lit f = some fmt ∧ Listed (f :: args) input := by
  cases input with
  | nil =>
    refine ⟨by simp [parsePanic], fun fmt args => ?_⟩
    simp [parsePanic, listed_cons']
  | cons t ts =>
    refine ⟨?_, fun fmt args => ?_⟩
    · simp [parsePanic]
    · rw [← C109_log]
      simp [parsePanic]

/-- C109 `assert!` and `unwrap!`: accepted exactly if the input is a comma separated list that consists of the expression alone or of the
expression, a string literal and arguments. -/
theorem C109_assert (lit : E → Option (List Char)) (input : List (Tok E)) (c : E) :
    (parseAssert lit input = some (c, none) ↔ Listed [c] input) ∧
    ∀ fmt args, (∃ m, parseAssert lit input = some (c, some m) ∧ m.formatString = fmt ∧ m.args = args) ↔
      ∃ f, lit f = some fmt ∧ Listed (c :: f :: args) input := by
  have key : ∀ fmt args, (∃ f, lit f = some fmt ∧ Listed (c :: f :: args) input) ↔
      ∃ rest, input = .expr c :: .comma :: rest ∧ ∃ m, parseLog lit rest = some m ∧ m.formatString = fmt ∧ m.args = args := by
    intro fmt args
    constructor
    · rintro ⟨f, hf, h⟩
      obtain ⟨rest, rfl, hl⟩ := (listed_cons (by simp)).mp h
      exact ⟨rest, rfl, (C109_log lit rest fmt args).mpr ⟨f, hf, hl⟩⟩
    · rintro ⟨rest, rfl, h⟩
      obtain ⟨f, hf, h⟩ := (C109_log lit rest fmt args).mp h
      exact ⟨f, hf, (listed_cons (by simp)).mpr ⟨rest, rfl, h⟩⟩
  refine ⟨?_, fun fmt args => ?_⟩
  · rw [listed_one]
    match input with
    | [] => simp [parseAssert, parseExpr]
    | .comma :: _ => simp [parseAssert, parseExpr]
    | [.expr e] => simp [parseAssert, parseExpr]
    | .expr _ :: .expr _ :: _ => simp [parseAssert, parseExpr, parseComma]
    | [.expr e, .comma] => simp [parseAssert, parseExpr, parseComma]
    | .expr e :: .comma :: _ :: _ => simp [parseAssert, parseExpr, parseComma]
  · rw [key]
    match input with
    | [] => simp [parseAssert, parseExpr]
    | .comma :: _ => simp [parseAssert, parseExpr]
    | [.expr e] => simp [parseAssert, parseExpr]
    | .expr _ :: .expr _ :: _ => simp [parseAssert, parseExpr, parseComma]
    | [.expr e, .comma] => simp [parseAssert, parseExpr, parseComma, parseLog, parseLitStr]
    | .expr e :: .comma :: t :: ts =>
      simp only [parseAssert, parseExpr, parseComma, List.isEmpty_cons, Bool.false_eq_true, if_false, Option.map_eq_some_iff, Prod.mk.injEq,
        Option.some.injEq, List.cons.injEq, Tok.expr.injEq, true_and]
      constructor
      · rintro ⟨m, ⟨m', hm, rfl, rfl⟩, h⟩; exact ⟨_, ⟨rfl, rfl⟩, m', hm, h⟩
      · rintro ⟨_, ⟨rfl, rfl⟩, m, hm, h⟩; exact ⟨m, ⟨m, hm, rfl, rfl⟩, h⟩

/-- C109 `assert_eq!` and `assert_ne!`: accepted exactly if the input is a comma separated list of two expressions, or of two expressions, a
string literal and arguments; the first is the left one. -/
theorem C109_binop (lit : E → Option (List Char)) (input : List (Tok E)) (l r : E) :
    (parseBinop lit input = some (l, r, none) ↔ Listed [l, r] input) ∧
    ∀ fmt args, (∃ m, parseBinop lit input = some (l, r, some m) ∧ m.formatString = fmt ∧ m.args = args) ↔
      ∃ f, lit f = some fmt ∧ Listed (l :: r :: f :: args) input := by
  have step : ∀ e rest, parseBinop lit (.expr e :: .comma :: rest) = (parseAssert lit rest).map fun x => (e, x.1, x.2) := by
    intro e rest
    match rest with
    | [] => simp [parseBinop, parseAssert, parseExpr, parseComma]
    | .comma :: _ => simp [parseBinop, parseAssert, parseExpr, parseComma]
    | [.expr _] => simp [parseBinop, parseAssert, parseExpr, parseComma]
    | .expr _ :: .expr _ :: _ => simp [parseBinop, parseAssert, parseExpr, parseComma]
    | [.expr _, .comma] => simp [parseBinop, parseAssert, parseExpr, parseComma]
    | .expr _ :: .comma :: _ :: _ => simp [parseBinop, parseAssert, parseExpr, parseComma, Function.comp_def]
  have other : (∀ e rest, input ≠ .expr e :: .comma :: rest) → parseBinop lit input = none := by
    intro h
    match input with
    | [] => simp [parseBinop, parseExpr]
    | .comma :: _ => simp [parseBinop, parseExpr]
    | [.expr e] => simp [parseBinop, parseExpr, parseComma]
    | .expr _ :: .expr _ :: _ => simp [parseBinop, parseExpr, parseComma]
    | .expr e :: .comma :: rest => exact absurd rfl (h e rest)
  by_cases hi : ∃ e rest, input = .expr e :: .comma :: rest
  · obtain ⟨e, rest, rfl⟩ := hi
    rw [step]
    refine ⟨?_, fun fmt args => ?_⟩
    · rw [listed_cons (by simp)]
      constructor
      · intro h
        obtain ⟨⟨r', m⟩, h, he⟩ := Option.map_eq_some_iff.mp h
        simp only [Prod.mk.injEq] at he
        obtain ⟨rfl, rfl, rfl⟩ := he
        exact ⟨rest, rfl, (C109_assert lit rest r').1.mp h⟩
      · rintro ⟨rest', hr, h⟩
        cases hr
        rw [(C109_assert lit rest r).1.mpr h]
        rfl
    · constructor
      · rintro ⟨m, h, hm⟩
        obtain ⟨⟨r', m'⟩, h, he⟩ := Option.map_eq_some_iff.mp h
        simp only [Prod.mk.injEq] at he
        obtain ⟨rfl, rfl, rfl⟩ := he
        obtain ⟨f, hf, h⟩ := ((C109_assert lit rest r').2 fmt args).mp ⟨m, h, hm⟩
        exact ⟨f, hf, (listed_cons (by simp)).mpr ⟨rest, rfl, h⟩⟩
      · rintro ⟨f, hf, h⟩
        obtain ⟨rest', hr, h⟩ := (listed_cons (by simp)).mp h
        cases hr
        obtain ⟨m, h, hm⟩ := ((C109_assert lit rest r).2 fmt args).mpr ⟨f, hf, h⟩
        exact ⟨m, by rw [h]; rfl, hm⟩
  · have hi' : ∀ e rest, input ≠ .expr e :: .comma :: rest := fun e rest h => hi ⟨e, rest, h⟩
    rw [other hi']
    refine ⟨?_, fun fmt args => ?_⟩
    · simp only [reduceCtorEq, false_iff]
      intro h
      obtain ⟨rest, h, _⟩ := (listed_cons (by simp)).mp h
      exact hi' _ _ h
    · simp only [reduceCtorEq, false_and, exists_false, false_iff]
      rintro ⟨f, _, h⟩
      obtain ⟨rest, h, _⟩ := (listed_cons (by simp)).mp h
      exact hi' _ _ h

/-- C109 `write!`: accepted exactly if the input is a comma separated list of the formatter, a string literal and arguments. -/
theorem C109_write (lit : E → Option (List Char)) (input : List (Tok E)) (fm : E) (fmt : List Char) (args : List E) :
    (∃ m, parseWrite lit input = some (fm, m) ∧ m.formatString = fmt ∧ m.args = args) ↔
      ∃ f, lit f = some fmt ∧ Listed (fm :: f :: args) input := by
  rw [← ((C109_assert lit input fm).2 fmt args)]
  match input with
  | [] => simp [parseWrite, parseAssert, parseExpr]
  | .comma :: _ => simp [parseWrite, parseAssert, parseExpr]
  | [.expr e] => simp [parseWrite, parseAssert, parseExpr, parseComma]
  | .expr _ :: .expr _ :: _ => simp [parseWrite, parseAssert, parseExpr, parseComma]
  | [.expr e, .comma] => simp [parseWrite, parseAssert, parseExpr, parseComma, parseLog, parseLitStr]
  | .expr e :: .comma :: t :: ts => simp [parseWrite, parseAssert, parseExpr, parseComma]

/-- C109 `dbg!`: accepted exactly if the input is a comma separated list, perhaps empty. -/
theorem C109_dbg (input : List (Tok E)) (es : List E) : parseDbg input = some es ↔ Listed es input := parseTerminated_iff

/-- C109 `intern!` and `internp!`: one string literal and nothing else; the only macros that refuse a trailing comma. -/
theorem C109_intern (lit : E → Option (List Char)) (input : List (Tok E)) (s : List Char) :
    parseIntern lit input = some s ↔ ∃ f, lit f = some s ∧ input = [.expr f] := by
  match input with
  | [] => simp [parseIntern, parseLitStr]
  | .comma :: _ => simp [parseIntern, parseLitStr]
  | [.expr e] =>
    cases h : lit e with
    | none => simp [parseIntern, parseLitStr, h]
    | some t => simp [parseIntern, parseLitStr, h]
  | .expr e :: _ :: _ =>
    cases h : lit e <;> simp [parseIntern, parseLitStr, h]

/-- C109 A trailing comma never changes what a macro other than `intern!` takes from its input (if there is an expression before it). -/
theorem C109_trailing (lit : E → Option (List Char)) (es : List E) (hes : es ≠ []) :
    (parseDbg (commas es ++ [.comma]) = parseDbg (commas es)) ∧
    (∀ fmt args, (∃ m, parseLog lit (commas es ++ [.comma]) = some m ∧ m.formatString = fmt ∧ m.args = args) ↔
      ∃ m, parseLog lit (commas es) = some m ∧ m.formatString = fmt ∧ m.args = args) := by
  have h1 : Listed es (commas es) := Or.inl rfl
  have h2 : Listed es (commas es ++ [.comma]) := Or.inr ⟨hes, rfl⟩
  refine ⟨?_, fun fmt args => ?_⟩
  · rw [(C109_dbg _ _).mpr h1, (C109_dbg _ _).mpr h2]
  · rw [C109_log, C109_log]
    constructor
    · rintro ⟨f, hf, h⟩; exact ⟨f, hf, C109_unique h2 h ▸ h1⟩
    · rintro ⟨f, hf, h⟩; exact ⟨f, hf, C109_unique h1 h ▸ h2⟩

/-! Concrete cases: numbers are expressions, 0 is the literal `"a"`. -/

/-- 0 is the literal `"a"`, 9 is the literal `"b"`, other expressions are not literals -/
def demoIsLit : Nat → Option (List Char)
  | 0 => some ['a']
  | 9 => some ['b']
  | _ => none

/-- `info!("a", 1, 2,)` -/
example : parseLog demoIsLit [.expr 0, .comma, .expr 1, .comma, .expr 2, .comma] = some ⟨['a'], some [1, 2]⟩ := by decide
/-- `info!("a",)` -/
example : parseLog demoIsLit [.expr 0, .comma] = some ⟨['a'], some []⟩ := by decide
/-- `info!("a",, 1)`, `info!(, "a")`, `info!()`, `info!(1)`, `info!("a", 1,,)` -/
example : parseLog demoIsLit [.expr 0, .comma, .comma, .expr 1] = none ∧ parseLog demoIsLit [.comma, .expr 0] = none ∧
    parseLog demoIsLit [] = none ∧ parseLog demoIsLit [.expr 1] = none ∧
    parseLog demoIsLit [.expr 0, .comma, .expr 1, .comma, .comma] = none := by decide
/-- `assert!(1,)`, `assert!(1, "a", 2)`, `assert!(1, 2)` -/
example : parseAssert demoIsLit [.expr 1, .comma] = some (1, none) ∧
    parseAssert demoIsLit [.expr 1, .comma, .expr 0, .comma, .expr 2] = some (1, some ⟨['a'], some [2]⟩) ∧
    parseAssert demoIsLit [.expr 1, .comma, .expr 2] = none := by decide
/-- `assert_eq!(1, 2, "b")`, `assert_eq!("a", "b")`: literals are compared, not logged, and `assert_eq!(1)` is refused -/
example : parseBinop demoIsLit [.expr 1, .comma, .expr 2, .comma, .expr 9] = some (1, 2, some ⟨['b'], none⟩) ∧
    parseBinop demoIsLit [.expr 0, .comma, .expr 9] = some (0, 9, none) ∧ parseBinop demoIsLit [.expr 1] = none := by decide
/-- `write!(1, "a", 2)`, `write!(1)`, `write!(1,)` -/
example : parseWrite demoIsLit [.expr 1, .comma, .expr 0, .comma, .expr 2] = some (1, ⟨['a'], some [2]⟩) ∧
    parseWrite demoIsLit [.expr 1] = none ∧ parseWrite demoIsLit [.expr 1, .comma] = none := by decide
/-- `panic!()`, `panic!(,)`, `dbg!()`, `dbg!(,)`, `intern!("a",)` -/
example : parsePanic demoIsLit [] = some none ∧ parsePanic demoIsLit [.comma] = none ∧ parseDbg ([] : List (Tok Nat)) = some [] ∧
    parseDbg ([.comma] : List (Tok Nat)) = none ∧ parseIntern demoIsLit [.expr 0, .comma] = none := by decide

end Defmt
