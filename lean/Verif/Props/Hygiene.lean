import Verif.Lemmas.Hygiene
/-!
# C108: the expressions given to a macro mean what they mean where the macro stands

For the log macros, `println!`, `panic!` and the like, `assert!` and `dbg!` this holds without condition: every expression is evaluated once, from left
to right, in the scope of the call, also if the log level is disabled. For `assert_eq!`, `assert_ne!`, `unwrap!`, `write!` and `timestamp!` it does not:
the arguments of the message are evaluated within the bindings of the generated code.
-/

namespace Defmt

open Hygiene

variable {V S : Type}

/-- **C108** (log macros): the arguments are evaluated in the scope `ρ` of the call, whatever the filter is. -/
theorem C108_log (l : Lang V S) (filter : Option Bool) (level : Level) (fmt : List Char) (args : List (UserExp V S)) (ρ : Env V) (s : S) :
    eval l (logExpansion filter level ⟨fmt, args.map .user⟩) ρ s = said l (filter = some true) (.log level) fmt ρ args [] s :=
  log_plain l filter level fmt args ρ s

/-- **C108** (`println!`) -/
theorem C108_println (l : Lang V S) (fmt : List Char) (args : List (UserExp V S)) (ρ : Env V) (s : S) :
    eval l (printlnExpansion ⟨fmt, args.map .user⟩) ρ s = said l true .println fmt ρ args [] s :=
  send_said l .println fmt args ρ s

/-- **C108** (`panic!`, `todo!`, `unreachable!`) -/
theorem C108_panic (l : Lang V S) (filter : Option Bool) (fmt : List Char) (args : List (UserExp V S)) (ρ : Env V) (s : S) :
    eval l (panicExpansion filter ⟨fmt, args.map .user⟩) ρ s = thenPanics l (said l (filter = some true) (.log .error) fmt ρ args [] s) := by
  rw [panicExpansion, seq_panic, log_plain]

/-- **C108** (`assert!`): the condition, then, if it does not hold, the arguments of the message, all in the scope of the call. -/
theorem C108_assert (l : Lang V S) (filter : Option Bool) (condition : UserExp V S) (fmt : List Char) (args : List (UserExp V S)) (ρ : Env V)
    (s : S) :
    eval l (assertExpansion filter (.user condition) ⟨fmt, args.map .user⟩) ρ s = assertMeans l (filter = some true) fmt ρ condition args s := by
  rw [assertExpansion, eval, eval, assertMeans]
  rcases condition ρ s with ⟨_ | v, s'⟩
  · rfl
  · rw [next_some]
    by_cases h : l.truth v = true
    · simp [h]
    · simp only [h]
      rw [if_neg (by simp), if_neg (by simp), seq_panic, log_plain]

/-- **C108** (`dbg!`): each expression is evaluated in the scope of the call and its value shown before the next one is evaluated; the result is
the value of the only expression, or the tuple of the values. -/
theorem C108_dbg (l : Lang V S) (filter : Option Bool) (e : List Char × UserExp V S) (es : List (List Char × UserExp V S)) (ρ : Env V) (s : S) :
    eval l (dbgExpansion filter ((e :: es).map fun e => (e.1, .user e.2))) ρ s =
      ((dbgMeans l (filter = some true) ρ (e :: es) s).1.map (fun vs => if h : vs.length = 1 then vs[0] else l.tuple vs),
        (dbgMeans l (filter = some true) ρ (e :: es) s).2) := by
  have hd := dbg_all l filter ρ (e :: es) s
  rw [← hd]
  show eval l (.tuple (((e :: es).map fun e => (e.1, Exp.user e.2)).map (dbgOne filter))) ρ s = _
  rw [eval]
  generalize evalAll l (((e :: es).map fun e => (e.1, Exp.user e.2)).map (dbgOne filter)) ρ s = r
  rcases r with ⟨_ | vs, s'⟩
  · rfl
  · rw [next_some]
    match vs with
    | [] => rfl
    | [v] => rfl
    | _ :: _ :: _ => rfl

/-- `dbg!()` sends an empty message. -/
theorem C108_dbg_nothing (l : Lang V S) (filter : Option Bool) (ρ : Env V) (s : S) :
    eval l (dbgExpansion filter []) ρ s = (some l.unit, if filter = some true then l.emit (.log .trace) [] [] s else s) := by
  have := log_plain l filter .trace [] [] ρ s
  rw [List.map_nil] at this
  rw [dbgExpansion, this]
  simp [said, inOrder]

/-- The values `assert_eq!` (both) and `assert_ne!` (one, as they are equal) show after those of the message. -/
def shown (op : Macros.BinOp) (a b : V) : List V :=
  match op with
  | .eq => [a, b]
  | .ne => [a]

/-- When the assertion fails. -/
def assertionFails (l : Lang V S) (op : Macros.BinOp) (a b : V) : Bool :=
  match op with
  | .eq => !l.equal a b
  | .ne => l.equal a b

/-- **C108** (`assert_eq!`, `assert_ne!`, exactly): the compared expressions are evaluated in the scope of the call, the arguments of the message in a
scope in which `left_val` and `right_val` are the compared values. -/
theorem C108_binop_exact (l : Lang V S) (filter : Option Bool) (op : Macros.BinOp) (left right : UserExp V S) (fmt : List Char)
    (args : List (UserExp V S)) (ρ : Env V) (s : S) :
    eval l (binopExpansion filter op (.user left) (.user right) (some ⟨fmt, args.map .user⟩)) ρ s =
      binopMeans l (filter = some true) (Macros.binopFmt op (some fmt)) ρ (fun a b => (ρ.set c!"left_val" a).set c!"right_val" b) left right
        (assertionFails l op) args (shown op) s := by
  rw [binopExpansion.eq_def, binopMeans]
  simp only []
  rw [eval]
  simp only [evalAll, eval]
  rcases left ρ s with ⟨_ | a, s1⟩
  · rfl
  · simp only [next_some]
    rcases right ρ s1 with ⟨_ | b, s2⟩
    · rfl
    · simp only [next_some, bindAll]
      have h1 : ((ρ.set c!"left_val" a).set c!"right_val" b) c!"left_val" = some a := by simp [Env.set]
      have h2 : ((ρ.set c!"left_val" a).set c!"right_val" b) c!"right_val" = some b := by simp [Env.set]
      rw [h1, h2]
      have hf : (l.equal a b != decide (op = .eq)) = assertionFails l op a b := by
        cases op <;> cases h : l.equal a b <;> simp [assertionFails, h]
      simp only [hf]
      by_cases h : assertionFails l op a b = true
      · simp only [h, if_true]
        cases op with
        | eq =>
          rw [← log_said l filter .error _ args [c!"left_val", c!"right_val"] (shown .eq a b) _ s2 (by simp [lookups, h1, h2, shown]),
            ← seq_panic, eval]
          simp only [eval]
          rfl
        | ne =>
          rw [← log_said l filter .error _ args [c!"left_val"] (shown .ne a b) _ s2 (by simp [lookups, h1, shown]), ← seq_panic, eval]
          simp only [eval]
          rfl
      · simp [h]

/-- **C108** (`assert_eq!` and `assert_ne!` without a message) -/
theorem C108_binop_plain (l : Lang V S) (filter : Option Bool) (op : Macros.BinOp) (left right : UserExp V S) (ρ : Env V) (s : S) :
    eval l (binopExpansion filter op (.user left) (.user right) none) ρ s =
      binopMeans l (filter = some true) (Macros.binopFmt op none) ρ (fun _ _ => ρ) left right (assertionFails l op) [] (shown op) s := by
  rw [binopMeans]
  rw [binopExpansion.eq_def]
  simp only []
  rw [eval]
  simp only [evalAll, eval]
  rcases left ρ s with ⟨_ | a, s1⟩
  · rfl
  · simp only [next_some]
    rcases right ρ s1 with ⟨_ | b, s2⟩
    · rfl
    · simp only [next_some, bindAll]
      have h1 : ((ρ.set c!"left_val" a).set c!"right_val" b) c!"left_val" = some a := by simp [Env.set]
      have h2 : ((ρ.set c!"left_val" a).set c!"right_val" b) c!"right_val" = some b := by simp [Env.set]
      rw [h1, h2]
      have hf : (l.equal a b != decide (op = .eq)) = assertionFails l op a b := by
        cases op <;> cases h : l.equal a b <;> simp [assertionFails, h]
      simp only [hf]
      by_cases h : assertionFails l op a b = true
      · simp only [h, if_true]
        rw [said_congr l _ _ _ (ρ := ρ) (ρ' := (ρ.set c!"left_val" a).set c!"right_val" b) [] (by simp)]
        cases op with
        | eq =>
          rw [← log_said l filter .error _ [] [c!"left_val", c!"right_val"] (shown .eq a b) _ s2 (by simp [lookups, h1, h2, shown]),
            ← seq_panic, eval]
          simp only [eval]
          rfl
        | ne =>
          rw [← log_said l filter .error _ [] [c!"left_val"] (shown .ne a b) _ s2 (by simp [lookups, h1, shown]), ← seq_panic, eval]
          simp only [eval]
          rfl
      · simp [h]

/-- **C108** (`assert_eq!`, `assert_ne!`), for messages whose arguments do not mention `left_val` and `right_val`. -/
theorem C108_binop_partial (l : Lang V S) (filter : Option Bool) (op : Macros.BinOp) (left right : UserExp V S) (fmt : List Char)
    (args : List (UserExp V S)) (ρ : Env V) (s : S) (hl : ∀ e ∈ args, Ignores e c!"left_val") (hr : ∀ e ∈ args, Ignores e c!"right_val") :
    eval l (binopExpansion filter op (.user left) (.user right) (some ⟨fmt, args.map .user⟩)) ρ s =
      binopMeans l (filter = some true) (Macros.binopFmt op (some fmt)) ρ (fun _ _ => ρ) left right (assertionFails l op) args (shown op) s := by
  rw [C108_binop_exact, binopMeans, binopMeans]
  rcases left ρ s with ⟨_ | a, s1⟩
  · rfl
  · simp only []
    rcases right ρ s1 with ⟨_ | b, s2⟩
    · rfl
    · simp only []
      rw [said_congr l _ _ _ (ρ' := ρ) args (fun e he s => by rw [hr e he, hl e he])]

/-- **C108** (`unwrap!` with a message, exactly): the arguments of the message are evaluated in a scope in which `_unwrap_err` is the error. -/
theorem C108_unwrap_exact (l : Lang V S) (filter : Option Bool) (text : List Char) (e : UserExp V S) (fmt : List Char) (args : List (UserExp V S))
    (ρ : Env V) (s : S) :
    eval l (unwrapExpansion filter text (.user e) (some ⟨fmt, args.map .user⟩)) ρ s =
      unwrapMeans l (filter = some true) (c!"panicked at '" ++ fmt ++ c!"'") ρ (fun err => ρ.set c!"_unwrap_err" err) e args (fun _ => []) s := by
  rw [unwrapExpansion, eval, eval, unwrapMeans]
  rcases e ρ s with ⟨_ | v, s1⟩
  · rfl
  · rw [next_some]
    simp only []
    cases l.intoResult v with
    | ok w => simp [eval, Env.set]
    | error w =>
      simp only []
      rw [seq_panic, log_plain]

/-- **C108** (`unwrap!` without a message): the error is shown. -/
theorem C108_unwrap_plain (l : Lang V S) (filter : Option Bool) (text : List Char) (e : UserExp V S) (ρ : Env V) (s : S) :
    eval l (unwrapExpansion filter text (.user e) none) ρ s =
      unwrapMeans l (filter = some true) (c!"panicked at 'unwrap failed: " ++ Macros.escapedExprString text ++ c!"'\nerror: `{:?}`") ρ (fun _ => ρ) e []
        (fun err => [err]) s := by
  rw [unwrapExpansion, eval, eval, unwrapMeans]
  rcases e ρ s with ⟨_ | v, s1⟩
  · rfl
  · rw [next_some]
    simp only []
    cases l.intoResult v with
    | ok w => simp [eval, Env.set]
    | error w =>
      simp only []
      rw [seq_panic, said_congr l _ _ _ (ρ := ρ) (ρ' := ρ.set c!"_unwrap_err" w) [] (by simp)]
      rw [← log_said l filter .error _ [] [c!"_unwrap_err"] [w] _ s1 (by simp [lookups, Env.set])]
      rfl

/-- **C108** (`unwrap!`), for messages whose arguments do not mention `_unwrap_err`. -/
theorem C108_unwrap_partial (l : Lang V S) (filter : Option Bool) (text : List Char) (e : UserExp V S) (fmt : List Char) (args : List (UserExp V S))
    (ρ : Env V) (s : S) (h : ∀ e ∈ args, Ignores e c!"_unwrap_err") :
    eval l (unwrapExpansion filter text (.user e) (some ⟨fmt, args.map .user⟩)) ρ s =
      unwrapMeans l (filter = some true) (c!"panicked at '" ++ fmt ++ c!"'") ρ (fun _ => ρ) e args (fun _ => []) s := by
  rw [C108_unwrap_exact, unwrapMeans, unwrapMeans]
  rcases e ρ s with ⟨_ | v, s1⟩
  · rfl
  · simp only []
    cases l.intoResult v with
    | ok w => rfl
    | error w =>
      simp only []
      rw [said_congr l _ _ _ (ρ' := ρ) args (fun e he s => by rw [h e he])]

/-- `write!`: the formatter, then the arguments in the scope `inner`. -/
def writeMeans (l : Lang V S) (fmt : List Char) (ρ : Env V) (inner : V → Env V) (formatter : UserExp V S) (args : List (UserExp V S)) (s : S) :
    Option V × S :=
  match formatter ρ s with
  | (none, s) => (none, s)
  | (some f, s) => said l true .write fmt (inner f) args [] s

/-- **C108** (`write!`, exactly): the arguments are evaluated in a scope in which `_typecheck_formatter` is the formatter. -/
theorem C108_write_exact (l : Lang V S) (formatter : UserExp V S) (fmt : List Char) (args : List (UserExp V S)) (ρ : Env V) (s : S) :
    eval l (writeExpansion (.user formatter) ⟨fmt, args.map .user⟩) ρ s =
      writeMeans l fmt ρ (fun f => ρ.set c!"_typecheck_formatter" f) formatter args s := by
  rw [writeExpansion, eval, writeMeans]
  simp only [evalAll]
  rw [eval]
  rcases formatter ρ s with ⟨_ | f, s1⟩
  · rfl
  · simp only [next_some, bindAll]
    exact send_said l .write fmt args _ s1

/-- **C108** (`write!`), for arguments that do not mention `_typecheck_formatter`. -/
theorem C108_write_partial (l : Lang V S) (formatter : UserExp V S) (fmt : List Char) (args : List (UserExp V S)) (ρ : Env V) (s : S)
    (h : ∀ e ∈ args, Ignores e c!"_typecheck_formatter") :
    eval l (writeExpansion (.user formatter) ⟨fmt, args.map .user⟩) ρ s = writeMeans l fmt ρ (fun _ => ρ) formatter args s := by
  rw [C108_write_exact, writeMeans, writeMeans]
  rcases formatter ρ s with ⟨_ | f, s1⟩
  · rfl
  · simp only []
    rw [said_congr l _ _ _ (ρ' := ρ) args (fun e he s => by rw [h e he])]

/-- **C108** (`timestamp!`, exactly): the arguments are evaluated in a scope in which `S` is a zero and `fmt` a formatter. -/
theorem C108_timestamp_exact (l : Lang V S) (fmt : List Char) (args : List (UserExp V S)) (ρ : Env V) (s : S) :
    evalTimestamp l ⟨fmt, args.map .user⟩ ρ s = said l true .timestamp fmt ((ρ.set c!"S" l.zero).set c!"fmt" l.formatter) args [] s :=
  send_said l .timestamp fmt args _ s

/-- **C108** (`timestamp!`), for arguments that mention neither `S` nor `fmt`. -/
theorem C108_timestamp_partial (l : Lang V S) (fmt : List Char) (args : List (UserExp V S)) (ρ : Env V) (s : S)
    (hS : ∀ e ∈ args, Ignores e c!"S") (hf : ∀ e ∈ args, Ignores e c!"fmt") :
    evalTimestamp l ⟨fmt, args.map .user⟩ ρ s = said l true .timestamp fmt ρ args [] s := by
  rw [C108_timestamp_exact, said_congr l _ _ _ (ρ' := ρ) args (fun e he s => by rw [hf e he, hS e he])]

/-! ## Counterexamples -/

/-- values are numbers (0 is false, an odd number an error), the state is what was sent -/
def demoLang : Lang Nat (List (Sent × List Char × List Nat)) where
  emit what fmt vs s := s ++ [(what, fmt, vs)]
  panic s := s ++ [(.println, c!"panic", [])]
  unit := 0
  tuple vs := vs.sum
  truth v := v != 0
  equal v w := v == w
  intoResult v := if v % 2 = 0 then .ok v else .error v
  zero := 0
  formatter := 1000

/-- the expression that is a number -/
def demoLit (n : Nat) : UserExp Nat (List (Sent × List Char × List Nat)) := fun _ s => (some n, s)

/-- the expression that is a variable -/
def demoVar (x : Name) : UserExp Nat (List (Sent × List Char × List Nat)) := fun ρ s => (ρ x, s)

/-- the scope of the call: the user has variables `left_val`, `_unwrap_err`, `S`, `arg0` and `arg1` -/
def demoScope : Env Nat := ((((Env.set (fun _ => none) c!"left_val" 7).set c!"_unwrap_err" 8).set c!"S" 9).set c!"arg0" 10).set c!"arg1" 11

/-- **C108 fails for `assert_eq!`**: with `let left_val = 7;`, `assert_eq!(1, 2, "{}", left_val)` shows 1 as its message. -/
theorem C108_fails :
    eval demoLang (binopExpansion (some true) .eq (.user (demoLit 1)) (.user (demoLit 2)) (some ⟨c!"{}", [.user (demoVar c!"left_val")]⟩)) demoScope [] =
      (none, [(.log .error, Macros.binopFmt .eq (some c!"{}"), [1, 1, 2]), (.println, c!"panic", [])]) ∧
    binopMeans demoLang true (Macros.binopFmt .eq (some c!"{}")) demoScope (fun _ _ => demoScope) (demoLit 1) (demoLit 2)
        (assertionFails demoLang .eq) [demoVar c!"left_val"] (shown .eq) [] =
      (none, [(.log .error, Macros.binopFmt .eq (some c!"{}"), [7, 1, 2]), (.println, c!"panic", [])]) := by decide +kernel

/-- **C108 fails for `unwrap!`**: with `let _unwrap_err = 8;`, `unwrap!(Err(5), "{}", _unwrap_err)` shows 5. -/
theorem C108_fails_unwrap :
    eval demoLang (unwrapExpansion (some true) c!"Err(5)" (.user (demoLit 5)) (some ⟨c!"{}", [.user (demoVar c!"_unwrap_err")]⟩)) demoScope [] =
      (none, [(.log .error, c!"panicked at '{}'", [5]), (.println, c!"panic", [])]) ∧
    unwrapMeans demoLang true c!"panicked at '{}'" demoScope (fun _ => demoScope) (demoLit 5) [demoVar c!"_unwrap_err"] (fun _ => []) [] =
      (none, [(.log .error, c!"panicked at '{}'", [8]), (.println, c!"panic", [])]) := by decide +kernel

/-- **C108 fails for `timestamp!`**: with `static S: u8 = 9;`, `timestamp!("{}", S)` is always 0. -/
theorem C108_fails_timestamp :
    evalTimestamp demoLang ⟨c!"{}", [.user (demoVar c!"S")]⟩ demoScope [] = (some 0, [(.timestamp, c!"{}", [0])]) ∧
    said demoLang true .timestamp c!"{}" demoScope [demoVar c!"S"] [] [] = (some 0, [(.timestamp, c!"{}", [9])]) := by decide +kernel

/-! ## Examples -/

/-- The variables `arg1` and `arg0` of the user are not confused with those of the macro. -/
example : eval demoLang (logExpansion (some true) .info ⟨c!"{} {}", [demoVar c!"arg1", demoVar c!"arg0"].map .user⟩) demoScope [] =
    (some 0, [(.log .info, c!"{} {}", [11, 10])]) := by decide +kernel

/-- Disabled: evaluated (`x` is not defined: no value), but not sent. -/
example : eval demoLang (logExpansion none .info ⟨c!"{}", [demoVar c!"arg1"].map .user⟩) demoScope [] = (some 0, []) ∧
    eval demoLang (logExpansion none .info ⟨c!"{}", [demoVar c!"x"].map .user⟩) demoScope [] = (none, []) := by decide +kernel

/-- The conditions of the partial theorems hold. -/
example : (∀ e ∈ [demoVar c!"arg0", demoLit 3], Ignores e c!"left_val") ∧ (∀ e ∈ [demoVar c!"arg0", demoLit 3], Ignores e c!"right_val") ∧
    eval demoLang (binopExpansion (some true) .ne (.user (demoLit 2)) (.user (demoLit 2)) (some ⟨c!"{} {}", [demoVar c!"arg0", demoLit 3].map .user⟩))
      demoScope [] = (none, [(.log .error, Macros.binopFmt .ne (some c!"{} {}"), [10, 3, 2]), (.println, c!"panic", [])]) := by
  refine ⟨?_, ?_, by decide +kernel⟩ <;> intro e he <;> simp at he <;> rcases he with rfl | rfl <;> intro ρ v s <;> simp [demoVar, demoLit, Env.set]

/-- as are those for `unwrap!`, `write!` and `timestamp!` -/
example : Ignores (demoVar c!"arg0") c!"_unwrap_err" ∧ Ignores (demoVar c!"arg0") c!"_typecheck_formatter" ∧ Ignores (demoVar c!"arg0") c!"S" ∧
    Ignores (demoVar c!"arg0") c!"fmt" ∧ ¬ Ignores (demoVar c!"S") c!"S" := by
  refine ⟨?_, ?_, ?_, ?_, fun h => ?_⟩
  iterate 4 (intro ρ v s; simp [demoVar, Env.set])
  have := h demoScope 0 []
  revert this
  decide +kernel

/-- `dbg!(2, arg0)` shows both and gives the tuple (here the sum); `dbg!(arg0)` gives the value. -/
example : eval demoLang (dbgExpansion (some true) ([(c!"2", demoLit 2), (c!"arg0", demoVar c!"arg0")].map fun e => (e.1, .user e.2))) demoScope [] =
      (some 12, [(.log .trace, c!"2 = {}", [2]), (.log .trace, c!"arg0 = {}", [10])]) ∧
    eval demoLang (dbgExpansion (some false) ([(c!"arg0", demoVar c!"arg0")].map fun e => (e.1, .user e.2))) demoScope [] = (some 10, []) := by
  decide +kernel

end Defmt
