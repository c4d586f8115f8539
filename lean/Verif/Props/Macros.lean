import Verif.Lemmas.Macros
import Verif.Lemmas.Derive
import Verif.Props.RoundTrip
import Verif.Props.Display
import Verif.Spec.Macros
/-!
# C73, C74: the panicking and asserting macros

`{ e with call := c }` is the log statement `e` with format string and arguments of `c` instead: what
`error!(c)` in the place of the macro would have logged.
-/

namespace Defmt

open Parser Encoder Display Macros

/-! ### With a message -/

/-- **C73** `panic!`, `todo!`, `unreachable!`, `assert!` and `unwrap!` with a message accept exactly
the messages `error!` accepts, send the same bytes, and the host shows the message (exactly as it would
show it for `error!`) between the heading and a quote. No hypothesis about the message. -/
theorem C73_message (condition expr : List Char) (unwrapErr : Val) (mac : Option Call → Call) (heading : List Char)
    (h : (mac, heading) ∈ [(panicCall, c!"panicked at '"), (todoCall, c!"panicked at 'not yet implemented: "),
      (unreachableCall, c!"panicked at 'internal error: entered unreachable code: "),
      (assertCall condition, c!"panicked at '"), (unwrapCall expr unwrapErr, c!"panicked at '")]) (c : Call) :
    (mac (some c)).encode = c.encode ∧ (∀ t, (mac (some c)).Ok t ↔ c.Ok t) ∧
    ∀ env (e : LogEvent) m, e.call = mac (some c) →
      (e.frame.message env = some m ↔
        ∃ m0, ({ e with call := c } : LogEvent).frame.message env = some m0 ∧ m = heading ++ m0 ++ c!"'") := by
  have key : mac (some c) = ⟨heading ++ c.fmt ++ c!"'", c.args⟩ ∧ NoBraces heading ∧ heading ≠ [] := by
    simp only [List.mem_cons, List.not_mem_nil, or_false, Prod.mk.injEq] at h
    rcases h with ⟨rfl, rfl⟩ | ⟨rfl, rfl⟩ | ⟨rfl, rfl⟩ | ⟨rfl, rfl⟩ | ⟨rfl, rfl⟩ <;>
      exact ⟨rfl, by unfold NoBraces; decide, by decide⟩
  obtain ⟨hm, hb, h0⟩ := key
  have hq : NoBraces c!"'" := by unfold NoBraces; decide
  have hty := fun n => argTypes_around (q := c!"'") c.fmt n hb h0 hq (by decide)
  refine ⟨?_, ?_, ?_⟩
  · unfold Call.encode; rw [hm]; simp only [hty]
  · intro t; unfold Call.Ok; rw [hm]; simp only [hty]
  · intro env e m he
    have := text_around env c.fmt e.frame (by unfold LogEvent.frame; rw [he, hm]) hb h0 hq (by decide) m
    rw [this]
    have hd : e.frame.args = c.denote := by
      unfold LogEvent.frame Call.denote; simp only [he, hm, hty]
    have : ({ e.frame with format := c.fmt } : Frame) = ({ e with call := c } : LogEvent).frame := by
      have := hd
      unfold LogEvent.frame at this ⊢
      simp only at this
      rw [this]
    rw [this]

/-! ### Without a message -/

/-- a format string without parameters -/
theorem constant_text (text : List Char) (h0 : text ≠ []) (e : LogEvent) (he : e.call = ⟨escape text, []⟩) :
    (∀ t, e.call.Ok t) ∧ ∀ env, e.frame.message env = some text := by
  have hp := C14_text_roundtrip .strict text h0
  refine ⟨?_, ?_⟩
  · intro t
    rw [he]
    refine ⟨[], ?_, trivial⟩
    unfold argTypes
    rw [hp]
    rfl
  · intro env
    rw [message_of_parse hp env e.frame (by unfold LogEvent.frame; rw [he]), filled_literal]

/-- **C73** Without a message the text is fixed; `assert!` shows the condition as it is written,
whatever characters (braces, quotes) it contains. -/
theorem C73_default (condition : List Char) (call : Call) (text : List Char)
    (h : (call, text) ∈ [(panicCall none, c!"panicked at 'explicit panic'"), (todoCall none, c!"panicked at 'not yet implemented'"),
      (unreachableCall none, c!"panicked at 'internal error: entered unreachable code'"),
      (assertCall condition none, c!"panicked at 'assertion failed: " ++ condition ++ c!"'")])
    (e : LogEvent) (he : e.call = call) : (∀ t, e.call.Ok t) ∧ ∀ env, e.frame.message env = some text := by
  have key : call = ⟨escape text, []⟩ ∧ text ≠ [] := by
    simp only [List.mem_cons, List.not_mem_nil, or_false, Prod.mk.injEq] at h
    rcases h with ⟨rfl, rfl⟩ | ⟨rfl, rfl⟩ | ⟨rfl, rfl⟩ | ⟨rfl, rfl⟩
    · exact ⟨rfl, by decide⟩
    · exact ⟨rfl, by decide⟩
    · exact ⟨rfl, by decide⟩
    · refine ⟨?_, by simp⟩
      rw [Derive.escape_append, Derive.escape_append]
      unfold assertCall
      rw [escapedExprString_eq]
      rfl
  exact constant_text text key.2 e (by rw [he, key.1])

theorem one_value (text q : List Char) (hint : Option Hint) (hh : hint = none ∨ hint = some .debug) (h0 : text ≠ []) (v : Val) (e : LogEvent)
    (he : e.call = ⟨escape text ++ ('{' :: hintPart hint ++ ['}']) ++ escape q, [v]⟩) :
    (∀ t, e.call.Ok t ↔ (⟨c!"{:?}", [v]⟩ : Call).Ok t) ∧
    ∀ env m, e.frame.message env = some m ↔
      ∃ s, ({ e with call := ⟨'{' :: hintPart hint ++ ['}'], [v]⟩ } : LogEvent).frame.message env = some s ∧ m = text ++ s ++ q := by
  have hone : ∀ hint, hint = none ∨ hint = some Hint.debug → parse ('{' :: hintPart hint ++ ['}']) .strict = .ok [.param ⟨0, .format, hint⟩] := by
    rintro _ (rfl | rfl) <;> decide +kernel
  have hv : (⟨none, none, 0, hint⟩ : Written).Valid .strict := by
    rcases hh with rfl | rfl <;> simp [Written.Valid, Hint.Valid]
  have hp : parse (escape text ++ ('{' :: hintPart hint ++ ['}']) ++ escape q) .strict =
      .ok ([.literal text, .param ⟨0, .format, hint⟩] ++ (if q = [] then [] else [.literal q])) := by
    have := C18_write_then_parse .strict ([.text text, .param ⟨none, none, 0, hint⟩] ++ (if q = [] then [] else [.text q])) 1
      (by split <;> simp [ItemsValid, *])
      (by split <;> exact ⟨by simp [meaning, params], by intro i hi; have : i = 0 := by omega
                                                         subst this; simp [meaning, params]⟩)
      (by split <;> (intro a ha b hb _; simp [meaning, params] at ha hb; subst ha; subst hb; exact SameKind.refl _))
      (by decide)
    split at this
    · rename_i hq; subst hq
      simpa [render, meaning, Written.text, indexPart, typePart, escape, Written.type] using this
    · rename_i hq
      simpa [render, meaning, Written.text, indexPart, typePart, escape, Written.type, hq] using this
  have hpar : params ([.literal text, .param ⟨0, .format, hint⟩] ++ (if q = [] then [] else [.literal q])) = [⟨0, .format, hint⟩] := by
    split <;> rfl
  have hty : argTypes (escape text ++ ('{' :: hintPart hint ++ ['}']) ++ escape q) 1 = some [.format] := by
    unfold argTypes; rw [hp]; simp only [hpar]; rfl
  have hty1 : ∀ hint, hint = none ∨ hint = some Hint.debug → argTypes ('{' :: hintPart hint ++ ['}']) 1 = some [.format] := by
    intro hint hh; unfold argTypes; rw [hone _ hh]; rfl
  refine ⟨?_, ?_⟩
  · intro t
    rw [he]
    unfold Call.Ok
    simp only [List.length_cons, List.length_nil]
    rw [hty, show c!"{:?}" = '{' :: hintPart (some .debug) ++ ['}'] from rfl, hty1 _ (.inr rfl)]
  · intro env m
    have ha : e.frame.args = [denoteArg .format v (denote v)] := by
      unfold LogEvent.frame Call.denote
      simp only [he, List.length_cons, List.length_nil]
      rw [hty]; rfl
    have ha1 : ({ e with call := ⟨'{' :: hintPart hint ++ ['}'], [v]⟩ } : LogEvent).frame.args = [denoteArg .format v (denote v)] := by
      unfold LogEvent.frame Call.denote
      simp only [List.length_cons, List.length_nil]
      rw [hty1 _ hh]; rfl
    rw [message_of_parse hp env e.frame (by unfold LogEvent.frame; rw [he])]
    have h1 : ∀ s, ({ e with call := ⟨'{' :: hintPart hint ++ ['}'], [v]⟩ } : LogEvent).frame.message env = some s ↔
        ShownFor env [denoteArg .format v (denote v)] none ⟨0, .format, hint⟩ s := by
      intro s
      rw [message_of_parse (hone _ hh) env _ rfl, ha1, filled_param]
    simp only [h1, ha]
    rw [List.cons_append, List.cons_append, List.nil_append, filled_literal_cons]
    simp only [filled_param_cons]
    have hlast : ∀ r, Filled (ShownFor env [denoteArg .format v (denote v)] none) (if q = [] then [] else [Fragment.literal q]) r ↔ r = q := by
      intro r
      split
      · rename_i hq; subst hq; exact filled_nil
      · exact filled_literal
    simp only [hlast]
    constructor
    · rintro ⟨_, ⟨s, _, hs, rfl, rfl⟩, rfl⟩; exact ⟨s, hs, by simp⟩
    · rintro ⟨s, hs, rfl⟩; exact ⟨_, ⟨s, _, hs, rfl, rfl⟩, by simp⟩

/-- **C73** `unwrap!(expr)` without a message shows the expression as it is written and the error as
`{:?}` would. -/
theorem C73_unwrap_default (expr : List Char) (err : Val) (e : LogEvent) (he : e.call = unwrapCall expr err none) :
    (∀ t, e.call.Ok t ↔ (⟨c!"{:?}", [err]⟩ : Call).Ok t) ∧
    ∀ env m, e.frame.message env = some m ↔
      ∃ s, ({ e with call := ⟨c!"{:?}", [err]⟩ } : LogEvent).frame.message env = some s ∧
        m = c!"panicked at 'unwrap failed: " ++ expr ++ c!"'\nerror: `" ++ s ++ c!"`" := by
  refine one_value (c!"panicked at 'unwrap failed: " ++ expr ++ c!"'\nerror: `") c!"`" (some .debug) (.inr rfl) (by simp) err e ?_
  rw [he]
  unfold unwrapCall
  rw [escapedExprString_eq, Derive.escape_append, Derive.escape_append]
  simp [escape, hintPart, renderHint]

/-- **C73** `dbg!(expr)` shows the expression as it is written and the value as `{}` would. -/
theorem C73_dbg (expr : List Char) (v : Val) (e : LogEvent) (he : e.call = dbgCall expr v) :
    (∀ t, e.call.Ok t ↔ (⟨c!"{:?}", [v]⟩ : Call).Ok t) ∧
    ∀ env m, e.frame.message env = some m ↔
      ∃ s, ({ e with call := ⟨c!"{}", [v]⟩ } : LogEvent).frame.message env = some s ∧ m = expr ++ c!" = " ++ s := by
  have := one_value (expr ++ c!" = ") [] none (.inl rfl) (by simp) v e (by
    rw [he]
    unfold dbgCall
    rw [escapedExprString_eq, Derive.escape_append]
    simp [escape, hintPart])
  simpa [hintPart] using this

/-! ### `assert_eq!` and `assert_ne!` -/

/-- `error!("{:?}", v)` is accepted -/
abbrev Debuggable (t : Table) (v : Val) : Prop := (⟨c!"{:?}", [v]⟩ : Call).Ok t

/-- the text `error!("{:?}", v)` shows in the place of the log statement `e` -/
abbrev debugShown (env : Env) (e : LogEvent) (v : Val) (s : List Char) : Prop :=
  ({ e with call := ⟨c!"{:?}", [v]⟩ } : LogEvent).frame.message env = some s

theorem argTypes_debug : argTypes c!"{:?}" 1 = some [.format] := by decide +kernel

theorem debuggable_iff (t : Table) (v : Val) : Debuggable t v ↔ ArgOk t .format v (ValOk t v) := by
  unfold Debuggable Call.Ok
  simp only [List.length_cons, List.length_nil]
  rw [argTypes_debug]
  simp [ArgsOk]

theorem debugShown_iff (env : Env) (e : LogEvent) (v : Val) (s : List Char) (i : Nat) :
    debugShown env e v s ↔ showArg env (denoteArg .format v (denote v)) ⟨i, .format, some .debug⟩ none = some s := by
  unfold debugShown
  rw [message_of_parse (fmt := c!"{:?}") (fs := [.param ⟨0, .format, some .debug⟩]) (by decide +kernel) env _ rfl, filled_param]
  have : ({ e with call := ⟨c!"{:?}", [v]⟩ } : LogEvent).frame.args = [denoteArg .format v (denote v)] := by
    unfold LogEvent.frame Call.denote
    simp only [List.length_cons, List.length_nil]
    rw [argTypes_debug]; rfl
  rw [this, index_irrelevant env _ i 0]
  simp [ShownFor]

theorem argsOk_append {t : Table} : ∀ {tys tys' : List Ty} {vs vs' : List Val}, tys.length = vs.length →
    (ArgsOk t (tys ++ tys') (vs ++ vs') ↔ ArgsOk t tys vs ∧ ArgsOk t tys' vs')
  | [], _, [], _, _ => by simp [ArgsOk]
  | [], _, _ :: _, _, h => by simp at h
  | _ :: _, _, [], _, h => by simp at h
  | ty :: tys, tys', v :: vs, vs', h => by
    simp only [List.cons_append, ArgsOk, argsOk_append (t := t) (tys' := tys') (vs' := vs') (Nat.succ.inj h), and_assoc]

theorem denoteArgs_append : ∀ {tys tys' : List Ty} {vs vs' : List Val}, tys.length = vs.length →
    denoteArgs (tys ++ tys') (vs ++ vs') = denoteArgs tys vs ++ denoteArgs tys' vs'
  | [], _, [], _, _ => by simp [denoteArgs]
  | [], _, _ :: _, _, h => by simp at h
  | _ :: _, _, [], _, h => by simp at h
  | ty :: tys, tys', v :: vs, vs', h => by
    simp only [List.cons_append, denoteArgs, denoteArgs_append (tys' := tys') (vs' := vs') (Nat.succ.inj h)]

theorem denoteArgs_length : ∀ {tys : List Ty} {vs : List Val}, tys.length = vs.length → (denoteArgs tys vs).length = vs.length
  | [], [], _ => rfl
  | [], _ :: _, h => by simp at h
  | _ :: _, [], h => by simp at h
  | _ :: tys, _ :: vs, h => by simp [denoteArgs, denoteArgs_length (Nat.succ.inj h)]

theorem argTypes_length {fmt : List Char} {n : Nat} {tys : List Ty} (h : argTypes fmt n = some tys) : tys.length = n := by
  obtain ⟨fs, _, _, _, h⟩ := argTypes_some h
  have := allSome_eq h
  have := congrArg List.length this
  simpa using this.symm

/-- what follows the message: text, values, text after each value -/
def binopQ : BinOp → List Char
  | .eq => c!"'\n left: `"
  | .ne => c!"'\nleft/right: `"

def binopQs : BinOp → List (List Char)
  | .eq => [c!"`\nright: `", c!"`"]
  | .ne => [c!"`"]

def binopPre : BinOp → List Char
  | .eq => c!"panicked at 'assertion failed: `(left == right)`: "
  | .ne => c!"panicked at 'assertion failed: `(left != right)`: "

theorem binopFmt_eq (op : BinOp) (msg : List Char) : binopFmt op (some msg) = binopPre op ++ msg ++ (binopQ op ++ Parser.valuesText (binopQs op)) := by
  cases op <;> simp [binopFmt, binopPre, binopQ, binopQs, Parser.valuesText]

theorem binop_side (op : BinOp) : NoBraces (binopPre op) ∧ binopPre op ≠ [] ∧ NoBraces (binopQ op) ∧ binopQ op ≠ [] ∧
    (∀ x ∈ binopQs op, NoBraces x ∧ x ≠ []) ∧ binopQs op ≠ [] := by
  unfold NoBraces; cases op <;> decide

theorem binop_bad (op : BinOp) {msg : List Char} (hb : ¬ c!"__internal_bitflags_" <:+: msg) :
    ∀ x, x <:+ msg → ∀ p, parseParam .strict (x ++ (binopQ op ++ c!"{:?")) ≠ .ok p := by
  cases op
  · exact not_bad (q := c!"\n left: `") hb (by decide)
  · exact not_bad (q := c!"\nleft/right: `") hb (by decide)

theorem binop_types (op : BinOp) {msg : List Char} {k : Nat} {tys tys' : List Ty} (hb : ¬ c!"__internal_bitflags_" <:+: msg)
    (h : argTypes msg k = some tys) (hk : k + 2 ≤ maxArgs) :
    argTypes (binopFmt op (some msg)) (k + (binopQs op).length) = some tys' ↔
      implicits msg = k ∧ tys' = tys ++ List.replicate (binopQs op).length .format := by
  obtain ⟨h1, h2, h3, h4, h5, h6⟩ := binop_side op
  rw [binopFmt_eq]
  exact argTypes_values h1 h2 h3 h4 h5 h6 (binop_bad op hb) h (by cases op <;> simp [binopQs] <;> omega)

theorem binop_args (op : BinOp) (l r : Val) (c : Call) :
    (binopCall op l r (some c)).args.length = c.args.length + (binopQs op).length := by
  cases op <;> simp [binopCall, binopVals, binopQs]

/-- **C73** The full claim for `assert_eq!` and `assert_ne!` is that they accept every message `error!`
accepts (for values that can be shown). They accept it if and only if no argument of the message is
referred to by explicit index only, more precisely: if the message has as many parameters without
index as arguments. -/
theorem C73_binop_accepted_partial (op : BinOp) (left right : Val) (c : Call) (t : Table) (hc : c.Ok t)
    (hk : c.args.length + 2 ≤ maxArgs) (hb : ¬ c!"__internal_bitflags_" <:+: c.fmt) :
    (binopCall op left right (some c)).Ok t ↔
      implicits c.fmt = c.args.length ∧ Debuggable t left ∧ (op = .eq → Debuggable t right) := by
  obtain ⟨tys, hty, hargs⟩ := hc
  have hlen := argTypes_length hty
  have hok : ∀ tys', argTypes (binopFmt op (some c.fmt)) (binopCall op left right (some c)).args.length = some tys' ↔
      implicits c.fmt = c.args.length ∧ tys' = tys ++ List.replicate (binopQs op).length .format := by
    intro tys'
    rw [binop_args]
    exact binop_types op hb hty hk
  have hvals : ArgsOk t (tys ++ List.replicate (binopQs op).length .format) (c.args ++ binopVals op left right) ↔
      Debuggable t left ∧ (op = .eq → Debuggable t right) := by
    rw [argsOk_append hlen, debuggable_iff, debuggable_iff]
    cases op <;> simp [binopQs, binopVals, ArgsOk, hargs, List.replicate]
  constructor
  · rintro ⟨tys', h1, h2⟩
    obtain ⟨h3, rfl⟩ := (hok tys').mp h1
    exact ⟨h3, hvals.mp h2⟩
  · rintro ⟨h1, h2⟩
    exact ⟨_, (hok _).mpr ⟨h1, rfl⟩, hvals.mpr h2⟩

theorem binop_message (op : BinOp) {left right : Val} {c : Call} {tys : List Ty} (hc : argTypes c.fmt c.args.length = some tys)
    (hk : c.args.length + 2 ≤ maxArgs) (hb : ¬ c!"__internal_bitflags_" <:+: c.fmt) (hj : implicits c.fmt = c.args.length)
    (env : Env) {e : LogEvent} (he : e.call = binopCall op left right (some c)) (m : List Char) :
    e.frame.message env = some m ↔ ∃ m0 t, ({ e with call := c } : LogEvent).frame.message env = some m0 ∧
      ValuesText (ShownFor env (c.denote ++ (binopVals op left right).map (fun v => denoteArg .format v (denote v))) none)
        c.denote.length (binopQs op) t ∧ m = binopPre op ++ m0 ++ binopQ op ++ t := by
  obtain ⟨h1, h2, h3, h4, h5, h6⟩ := binop_side op
  have hlen := argTypes_length hc
  have hden : c.denote = denoteArgs tys c.args := by unfold Call.denote; rw [hc]
  have hdl : c.denote.length = c.args.length := by rw [hden]; exact denoteArgs_length hlen
  have hargs : e.frame.args = c.denote ++ (binopVals op left right).map (fun v => denoteArg .format v (denote v)) := by
    have ht := (binop_types op hb hc hk).mpr ⟨hj, rfl⟩
    rw [← binop_args op left right c] at ht
    unfold LogEvent.frame
    simp only [he]
    unfold Call.denote
    rw [show (binopCall op left right (some c)).fmt = binopFmt op (some c.fmt) from rfl, ht, hc]
    rw [show (binopCall op left right (some c)).args = c.args ++ binopVals op left right from rfl]
    simp only
    rw [denoteArgs_append hlen]
    cases op <;> rfl
  have := text_values env (k := c.denote.length) h1 h2 h3 h4 h5 (binop_bad op hb) (by rw [hdl]; exact hc)
    (by rw [hdl]; cases op <;> simp [binopQs] <;> omega) (by rw [hdl]; exact hj) e.frame
    (by unfold LogEvent.frame; rw [he, ← binopFmt_eq]; rfl) c.denote _ hargs rfl m
  rw [this]
  rfl

/-- **C73** The text of `assert_eq!` with a message: the message exactly as `error!` would show it, the
left value and the right value exactly as `error!("{:?}", value)` would show them. -/
theorem C73_assert_eq_text (left right : Val) (c : Call) (t : Table) (hc : c.Ok t)
    (hk : c.args.length + 2 ≤ maxArgs) (hb : ¬ c!"__internal_bitflags_" <:+: c.fmt) (hj : implicits c.fmt = c.args.length)
    (env : Env) (e : LogEvent) (he : e.call = binopCall .eq left right (some c)) (m : List Char) :
    e.frame.message env = some m ↔ ∃ m0 l r, ({ e with call := c } : LogEvent).frame.message env = some m0 ∧
      debugShown env e left l ∧ debugShown env e right r ∧
      m = c!"panicked at 'assertion failed: `(left == right)`: " ++ m0 ++ c!"'\n left: `" ++ l ++ c!"`\nright: `" ++ r ++ c!"`" := by
  obtain ⟨tys, hc, _⟩ := hc
  rw [binop_message .eq hc hk hb hj env he m]
  have hs : ∀ s, ShownFor env (c.denote ++ (binopVals .eq left right).map (fun v => denoteArg .format v (denote v))) none
      ⟨c.denote.length, .format, some .debug⟩ s ↔ debugShown env e left s := by
    intro s
    rw [debugShown_iff env e left s c.denote.length]
    simp [ShownFor, binopVals]
  have hs' : ∀ s, ShownFor env (c.denote ++ (binopVals .eq left right).map (fun v => denoteArg .format v (denote v))) none
      ⟨c.denote.length + 1, .format, some .debug⟩ s ↔ debugShown env e right s := by
    intro s
    rw [debugShown_iff env e right s (c.denote.length + 1)]
    simp [ShownFor, binopVals]
  constructor
  · rintro ⟨m0, _, hm, hv, rfl⟩
    cases hv with
    | cons hl hv =>
      cases hv with
      | cons hr hv =>
        cases hv
        exact ⟨m0, _, _, hm, (hs _).mp hl, (hs' _).mp hr, by simp [binopPre, binopQ]⟩
  · rintro ⟨m0, l, r, hm, hl, hr, rfl⟩
    exact ⟨m0, _, hm, .cons ((hs _).mpr hl) (.cons ((hs' _).mpr hr) .nil), by simp [binopPre, binopQ]⟩

/-- **C73** The text of `assert_ne!` with a message. -/
theorem C73_assert_ne_text (left right : Val) (c : Call) (t : Table) (hc : c.Ok t)
    (hk : c.args.length + 2 ≤ maxArgs) (hb : ¬ c!"__internal_bitflags_" <:+: c.fmt) (hj : implicits c.fmt = c.args.length)
    (env : Env) (e : LogEvent) (he : e.call = binopCall .ne left right (some c)) (m : List Char) :
    e.frame.message env = some m ↔ ∃ m0 l, ({ e with call := c } : LogEvent).frame.message env = some m0 ∧
      debugShown env e left l ∧
      m = c!"panicked at 'assertion failed: `(left != right)`: " ++ m0 ++ c!"'\nleft/right: `" ++ l ++ c!"`" := by
  obtain ⟨tys, hc, _⟩ := hc
  rw [binop_message .ne hc hk hb hj env he m]
  have hs : ∀ s, ShownFor env (c.denote ++ (binopVals .ne left right).map (fun v => denoteArg .format v (denote v))) none
      ⟨c.denote.length, .format, some .debug⟩ s ↔ debugShown env e left s := by
    intro s
    rw [debugShown_iff env e left s c.denote.length]
    simp [ShownFor, binopVals]
  constructor
  · rintro ⟨m0, _, hm, hv, rfl⟩
    cases hv with
    | cons hl hv =>
      cases hv
      exact ⟨m0, _, hm, (hs _).mp hl, by simp [binopPre, binopQ]⟩
  · rintro ⟨m0, l, hm, hl, rfl⟩
    exact ⟨m0, _, hm, .cons ((hs _).mpr hl) .nil, by simp [binopPre, binopQ]⟩

/-- **C73** `assert_ne!` without a message. -/
theorem C73_assert_ne_default (left right : Val) (e : LogEvent) (he : e.call = binopCall .ne left right none) :
    (∀ t, e.call.Ok t ↔ Debuggable t left) ∧
    ∀ env m, e.frame.message env = some m ↔ ∃ l, debugShown env e left l ∧
      m = c!"panicked at 'assertion failed: `(left != right)`'\nleft/right: `" ++ l ++ c!"`" :=
  one_value c!"panicked at 'assertion failed: `(left != right)`'\nleft/right: `" c!"`" (some .debug) (.inr rfl) (by simp) left e (by rw [he]; rfl)

/-- **C73** `assert_eq!` without a message. -/
theorem C73_assert_eq_default (left right : Val) (e : LogEvent) (he : e.call = binopCall .eq left right none) :
    (∀ t, e.call.Ok t ↔ Debuggable t left ∧ Debuggable t right) ∧
    ∀ env m, e.frame.message env = some m ↔ ∃ l r, debugShown env e left l ∧ debugShown env e right r ∧
      m = c!"panicked at 'assertion failed: `(left == right)`'\n left: `" ++ l ++ c!"`\nright: `" ++ r ++ c!"`" := by
  have hp : parse (binopFmt .eq none) .strict = .ok [.literal c!"panicked at 'assertion failed: `(left == right)`'\n left: `",
      .param ⟨0, .format, some .debug⟩, .literal c!"`\nright: `", .param ⟨1, .format, some .debug⟩, .literal c!"`"] := by decide +kernel
  have hty : argTypes (binopFmt .eq none) 2 = some [.format, .format] := by unfold argTypes; rw [hp]; rfl
  have hcall : binopCall .eq left right none = ⟨binopFmt .eq none, [left, right]⟩ := rfl
  rw [hcall] at he
  refine ⟨?_, ?_⟩
  · intro t
    rw [debuggable_iff, debuggable_iff, he]
    unfold Call.Ok
    simp only [List.length_cons, List.length_nil]
    rw [hty]
    simp [ArgsOk]
  · intro env m
    have ha : e.frame.args = [denoteArg .format left (denote left), denoteArg .format right (denote right)] := by
      unfold LogEvent.frame Call.denote
      simp only [he, List.length_cons, List.length_nil]
      rw [hty]; rfl
    rw [message_of_parse hp env e.frame (by unfold LogEvent.frame; rw [he]), ha]
    simp only [filled_literal_cons, filled_param_cons, filled_nil]
    have hs : ∀ s, ShownFor env [denoteArg .format left (denote left), denoteArg .format right (denote right)] none
        ⟨0, .format, some .debug⟩ s ↔ debugShown env e left s := by
      intro s; rw [debugShown_iff env e left s 0]; simp [ShownFor]
    have hs' : ∀ s, ShownFor env [denoteArg .format left (denote left), denoteArg .format right (denote right)] none
        ⟨1, .format, some .debug⟩ s ↔ debugShown env e right s := by
      intro s; rw [debugShown_iff env e right s 1]; simp [ShownFor]
    simp only [hs, hs']
    constructor
    · rintro ⟨_, ⟨l, _, hl, ⟨_, ⟨r, _, hr, ⟨_, rfl, rfl⟩, rfl⟩, rfl⟩, rfl⟩, rfl⟩
      exact ⟨l, r, hl, hr, by simp⟩
    · rintro ⟨l, r, hl, hr, rfl⟩
      exact ⟨_, ⟨l, _, hl, ⟨_, ⟨r, _, hr, ⟨_, rfl, rfl⟩, rfl⟩, rfl⟩, rfl⟩, by simp⟩

/-! ### Running -/

/-- What every asserting macro must do: if the assertion fails, log the error (if errors are enabled
here) and panic; otherwise log nothing and return the value. -/
def Asserts {α : Type} (enabled : Level → Bool) (fails : Prop) (call : Call) (value : α) (r : Run α) : Prop :=
  (fails → r.result = none ∧ (enabled .error = true → r.logs = [(.error, call)]) ∧ (enabled .error = false → r.logs = [])) ∧
  (¬ fails → r.result = some value ∧ r.logs = [])

/-- **C74** `assert!`, `assert_eq!`, `assert_ne!`, `unwrap!` panic exactly if the assertion fails,
whether or not error messages are compiled in; the `debug_` variants do the same with debug assertions
and nothing without. -/
theorem C74_panics (enabled : Level → Bool) (message : Option Call) :
    (∀ condition value, Asserts enabled (value = false) (assertCall condition message) () (runAssert enabled condition value message)) ∧
    (∀ left right equal, Asserts enabled (equal = false) (binopCall .eq left right message) () (runBinop enabled .eq left right equal message)) ∧
    (∀ left right equal, Asserts enabled (equal = true) (binopCall .ne left right message) () (runBinop enabled .ne left right equal message)) ∧
    (∀ tag expr v err, Asserts enabled False (unwrapCall expr err message) v (runUnwrap enabled tag expr (.ok v) message) ∧
      Asserts enabled False (unwrapCall expr err message) v (runUnwrap enabled tag expr (.some v) message) ∧
      Asserts enabled True (unwrapCall expr err message) v (runUnwrap enabled tag expr (.err err) message) ∧
      Asserts enabled True (unwrapCall expr (.formatted tag c!"Unwrap of a None option value" []) message) v
        (runUnwrap enabled tag expr .none message)) ∧
    ∀ r, runDebug true r = r ∧ runDebug false r = ⟨[], some ()⟩ := by
  refine ⟨?_, ?_, ?_, ?_, ?_⟩
  · intro condition value
    cases value <;> cases he : enabled .error <;> simp [Asserts, runAssert, panicWith, logStmt, he]
  · intro left right equal
    cases equal <;> cases he : enabled .error <;> simp [Asserts, runBinop, panicWith, logStmt, he]
  · intro left right equal
    cases equal <;> cases he : enabled .error <;> simp [Asserts, runBinop, panicWith, logStmt, he]
  · intro tag expr v err
    cases he : enabled .error <;> simp [Asserts, runUnwrap, intoResult, panicWith, logStmt, he]
  · intro r; exact ⟨rfl, rfl⟩

/-- **C74** `dbg!` returns the values, in order, and logs each of them once at TRACE (if enabled);
without arguments an empty text. -/
theorem C74_dbg_values (enabled : Level → Bool) (es : List (List Char × Val)) :
    (runDbg enabled es).result = some (es.map Prod.snd) ∧
    (enabled .trace = false → (runDbg enabled es).logs = []) ∧
    (enabled .trace = true → (runDbg enabled es).logs =
      if es = [] then [(.trace, ⟨[], []⟩)] else es.map (fun e => (.trace, dbgCall e.1 e.2))) := by
  cases es with
  | nil => cases he : enabled .trace <;> simp [runDbg, logStmt, he]
  | cons e es =>
    refine ⟨rfl, ?_, ?_⟩
    · intro he
      simp [runDbg, logStmt, he]
    · intro he
      simp only [runDbg, logStmt, he, if_true]
      rw [if_neg (by simp)]
      generalize e :: es = l
      induction l with
      | nil => rfl
      | cons a l ih => simp only [List.map_cons, List.flatten_cons, ih]; rfl

/-! ### Where the full claim fails -/

/-- table of a program that shows `u8` values -/
def macrosTable : Table where
  timestamp := none
  entries := fun i => if i = 2 then some ⟨.prim, c!"{=u8}"⟩ else none

/-- a `u8` -/
def byte (n : Nat) : Val := .formatted 2 c!"{=u8}" [.uint 1 n]

theorem byte_ok (n : Nat) (h : n < 256) : ArgOk macrosTable .format (byte n) (ValOk macrosTable (byte n)) := by
  unfold byte
  simp only [ArgOk, ValOk]
  refine ⟨⟨by decide, [.u8], (by decide +kernel : argTypes c!"{=u8}" 1 = some [.u8]), ?_⟩, 2, c!"{=u8}", ⟨rfl, rfl⟩, by decide, rfl⟩
  simp only [ArgsOk, ArgOk]
  exact ⟨h, trivial⟩

/-- **C73 does not hold** for `assert_eq!(a, b, "{0}", x)`: `error!("{0}", x)` is accepted, the
`assert_eq!` is not, since the left value takes the place of `x`. -/
theorem C73_fails (op : BinOp) (left right : Val) :
    (⟨c!"{0}", [byte 7]⟩ : Call).Ok macrosTable ∧ ¬ (binopCall op left right (some ⟨c!"{0}", [byte 7]⟩)).Ok macrosTable := by
  have hok : (⟨c!"{0}", [byte 7]⟩ : Call).Ok macrosTable :=
    ⟨[.format], by decide +kernel, by simp only [ArgsOk]; exact ⟨byte_ok 7 (by decide), trivial⟩⟩
  refine ⟨hok, ?_⟩
  rw [C73_binop_accepted_partial op left right _ _ hok (by simp [maxArgs]) (by simp only []; decide)]
  rintro ⟨h, _⟩
  revert h
  show ¬ implicits c!"{0}" = 1
  decide

/-- **C73 does not hold**: `assert_eq!(1, 2, "{2} {3}", 7, 8)` is accepted, though
`error!("{2} {3}", 7, 8)` is not, and says that the left value is 7 and the right value 8. -/
theorem C73_fails_mixed_up (env : Env) :
    ¬ (⟨c!"{2} {3}", [byte 7, byte 8]⟩ : Call).Ok macrosTable ∧
    (binopCall .eq (byte 1) (byte 2) (some ⟨c!"{2} {3}", [byte 7, byte 8]⟩)).Ok macrosTable ∧
    (LogEvent.mk 1 .error none (binopCall .eq (byte 1) (byte 2) (some ⟨c!"{2} {3}", [byte 7, byte 8]⟩))).frame.message env =
      some c!"panicked at 'assertion failed: `(left == right)`: 1 2'\n left: `7`\nright: `8`" := by
  refine ⟨?_, ?_, ?_⟩
  · rintro ⟨tys, h, _⟩
    have : argTypes c!"{2} {3}" 2 = none := by decide +kernel
    rw [show ([byte 7, byte 8]).length = 2 from rfl, this] at h
    cases h
  · refine ⟨[.format, .format, .format, .format], by decide +kernel, ?_⟩
    show ArgsOk macrosTable [.format, .format, .format, .format] [byte 7, byte 8, byte 1, byte 2]
    simp only [ArgsOk]
    exact ⟨byte_ok 7 (by decide), byte_ok 8 (by decide), byte_ok 1 (by decide), byte_ok 2 (by decide), trivial⟩
  · rfl

/-! ### Examples -/

/-- the hypotheses of the theorems about `assert_eq!` hold for `assert_eq!(a, b, "x = {} {{}}", x)` -/
example : (⟨c!"x = {} {{}}", [byte 7]⟩ : Call).Ok macrosTable ∧ implicits c!"x = {} {{}}" = 1 ∧
    (binopCall .eq (byte 1) (byte 2) (some ⟨c!"x = {} {{}}", [byte 7]⟩)).Ok macrosTable := by
  have hok : (⟨c!"x = {} {{}}", [byte 7]⟩ : Call).Ok macrosTable :=
    ⟨[.format], by decide +kernel, by simp only [ArgsOk]; exact ⟨byte_ok 7 (by decide), trivial⟩⟩
  refine ⟨hok, by decide, (C73_binop_accepted_partial .eq _ _ _ _ hok (by simp [maxArgs]) (by simp only []; decide)).mpr
    ⟨by simp only []; decide, (debuggable_iff _ _).mpr (byte_ok 1 (by decide)), fun _ => (debuggable_iff _ _).mpr (byte_ok 2 (by decide))⟩⟩

example : (LogEvent.mk 1 .error none (binopCall .eq (byte 1) (byte 2) (some ⟨c!"x = {} {{}}", [byte 7]⟩))).frame.message demoEnv =
    some c!"panicked at 'assertion failed: `(left == right)`: x = 7 {}'\n left: `1`\nright: `2`" := by rfl

example : (LogEvent.mk 1 .error none (assertCall c!"match x { Some(_) => true, None => false, }" none)).frame.message demoEnv =
    some c!"panicked at 'assertion failed: match x { Some(_) => true, None => false, }'" := by rfl

/-- the other macros: with a message, without, and `dbg!` -/
example : (LogEvent.mk 1 .error none (unreachableCall (some ⟨c!"state {=u8:x}", [.uint 1 0x2a]⟩))).frame.message demoEnv =
      some c!"panicked at 'internal error: entered unreachable code: state 2a'" ∧
    (LogEvent.mk 1 .error none (todoCall none)).frame.message demoEnv = some c!"panicked at 'not yet implemented'" ∧
    (LogEvent.mk 1 .error none (unwrapCall c!"f({})" (byte 7) none)).frame.message demoEnv = some c!"panicked at 'unwrap failed: f({})'\nerror: `7`" ∧
    (LogEvent.mk 1 .trace none (dbgCall c!"a + {b}" (byte 7))).frame.message demoEnv = some c!"a + {b} = 7" ∧
    (LogEvent.mk 1 .error none (binopCall .ne (byte 1) (byte 1) (some ⟨c!"x = {}", [byte 7]⟩))).frame.message demoEnv =
      some c!"panicked at 'assertion failed: `(left != right)`: x = 7'\nleft/right: `1`" ∧
    (LogEvent.mk 1 .error none (binopCall .eq (byte 1) (byte 2) none)).frame.message demoEnv =
      some c!"panicked at 'assertion failed: `(left == right)`'\n left: `1`\nright: `2`" := by decide +kernel

end Defmt
