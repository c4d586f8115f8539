import Verif.Spec.Impls
import Verif.Lemmas.RoundTrip
import Verif.Props.Message
/-!
# Lemmas about the provided `Format` implementations

`toVal` describes a value of a provided type in the terms of the general encoder model
(`Verif.Model.Encoder`); `Good` collects what has to be shown about it.
-/

namespace Defmt.Impls

open Parser Decoder Encoder Display

/-! ### Primitive values -/

def Prim.val (addr : List Char → Nat) : Prim → Val
  | .i8 i => .sint 1 i | .i16 i => .sint 2 i | .i32 i => .sint 4 i | .i64 i => .sint 8 i | .i128 i => .sint 16 i
  | .isize i => .isize i
  | .u8 n => .uint 1 n | .u16 n => .uint 2 n | .u32 n => .uint 4 n | .u64 n => .uint 8 n | .u128 n => .uint 16 n
  | .usize n => .usize n
  | .f32 b => .f32 b | .f64 b => .f64 b | .str s => .str s | .bool b => .bool b | .istr s => .istr (addr s) s
  | .char c => .char c | .debug s => .text s | .display s => .text s

/-- the text of a primitive value under a hint of the surrounding parameter -/
def leaf (env : Env) (h : Option Hint) (p : Prim) : Option (List Char) := showArg env p.arg ⟨0, p.ty, none⟩ h

def primTable : List (List Char × Ty) :=
  [(c!"{=i8}", .i8), (c!"{=i16}", .i16), (c!"{=i32}", .i32), (c!"{=i64}", .i64), (c!"{=i128}", .i128), (c!"{=isize}", .isize),
   (c!"{=u8}", .u8), (c!"{=u16}", .u16), (c!"{=u32}", .u32), (c!"{=u64}", .u64), (c!"{=u128}", .u128), (c!"{=usize}", .usize),
   (c!"{=f32}", .f32), (c!"{=f64}", .f64), (c!"{=str}", .str), (c!"{=bool}", .bool), (c!"{=istr}", .istr), (c!"{=char}", .char),
   (c!"{=__internal_Debug}", .debug), (c!"{=__internal_Display}", .display)]

theorem primTable_ok : ∀ e ∈ primTable, parse e.1 .forwardsCompatible = .ok [.param ⟨0, e.2, none⟩] ∧
    argTypes e.1 1 = some [e.2] ∧ '|' ∉ e.1 := by decide +kernel

theorem prim_ok (p : Prim) : parse p.fmt .forwardsCompatible = .ok [.param ⟨0, p.ty, none⟩] ∧
    argTypes p.fmt 1 = some [p.ty] ∧ '|' ∉ p.fmt := by
  have : (p.fmt, p.ty) ∈ primTable := by cases p <;> simp [primTable, Prim.fmt, Prim.ty]
  exact primTable_ok _ this

theorem prim_encode (addr : List Char → Nat) (p : Prim) (d : Option (List UInt8)) :
    encodeArg p.ty (p.val addr) d = some (p.write addr) := by
  cases p <;> rfl

theorem prim_argOk {t : Table} {addr : List Char → Nat} {p : Prim} {n : Prop} (h : p.Ok)
    (hu : ∀ s ∈ p.uses, Interned t addr s) : ArgOk t p.ty (p.val addr) n := by
  cases p <;> first
    | exact h
    | exact trivial
    | exact (hu _ (by simp [Prim.uses])).2

theorem prim_denote (addr : List Char → Nat) (p : Prim) (a : Arg) : denoteArg p.ty (p.val addr) a = p.arg := by
  cases p <;> rfl

theorem leaf_index (env : Env) (h : Option Hint) (p : Prim) (i : Nat) :
    showArg env p.arg ⟨i, p.ty, none⟩ h = leaf env h p := by
  cases p <;> rfl

theorem formatArgs_prim (env : Env) (h : Option Hint) (p : Prim) :
    formatArgs p.fmt (showArgs env [p.arg]) h = leaf env h p := by
  unfold formatArgs
  rw [(prim_ok p).1]
  simp only [List.map, formatFragment, showArgs, List.getElem?_cons_zero, leaf]
  cases showArg env p.arg ⟨0, p.ty, none⟩ h <;> simp [concat]

theorem denoteArgs_one (ty : Ty) (v : Val) : denoteArgs [ty] [v] = [denoteArg ty v (denote v)] := by simp [denoteArgs]

theorem none_hint (h : Option Hint) : (none <|> h) = h := by cases h <;> rfl

/-! ### Values -/

/-- the `write!` calls that `format` makes -/
def writesOf : Val → List Val
  | .manual _ ws => ws
  | v => [v]

/-- a `u8` argument of `{}` -/
def octet (addr : List Char → Nat) (o : UInt8) : Val := .formatted (addr c!"{=u8}") c!"{=u8}" [.uint 1 o.toNat]

mutual

def toVal (addr : List Char → Nat) : Value → Val
  | .prim p => .formatted (addr p.fmt) p.fmt [p.val addr]
  | .unit => .formatted (addr c!"()") c!"()" []
  | .phantom => .formatted (addr c!"PhantomData") c!"PhantomData" []
  | .tuple vs => .formatted (addr (tupleFmt vs.length)) (tupleFmt vs.length) (toVals addr vs)
  | .none => .variant (addr c!"None|Some({=?})") [c!"None", c!"Some({=?})"] 0 []
  | .some v => .variant (addr c!"None|Some({=?})") [c!"None", c!"Some({=?})"] 1 [toVal addr v]
  | .err v => .variant (addr c!"Err({=?})|Ok({=?})") [c!"Err({=?})", c!"Ok({=?})"] 0 [toVal addr v]
  | .ok v => .variant (addr c!"Err({=?})|Ok({=?})") [c!"Err({=?})", c!"Ok({=?})"] 1 [toVal addr v]
  | .borrowed => .variant (addr c!"RefCell {{ value: <borrowed> }}|RefCell {{ value: {=?} }}")
      [c!"RefCell {{ value: <borrowed> }}", c!"RefCell {{ value: {=?} }}"] 0 []
  | .refCell v => .variant (addr c!"RefCell {{ value: <borrowed> }}|RefCell {{ value: {=?} }}")
      [c!"RefCell {{ value: <borrowed> }}", c!"RefCell {{ value: {=?} }}"] 1 [toVal addr v]
  | .slice tag vs => .formatted (addr c!"{=[?]}") c!"{=[?]}" [.slice (addr (tag.getD [])) (tag.getD []) (toVals addr vs)]
  | .array tag vs =>
    .formatted (addr (arrayFmt vs.length)) (arrayFmt vs.length) [.slice (addr (tag.getD [])) (tag.getD []) (toVals addr vs)]
  | .reference v => toVal addr v
  | .nonZero p => .manual (addr manualFmt) [.formatted (addr p.fmt) p.fmt [p.val addr]]
  | .duration s n => .manual (addr manualFmt) [.formatted (addr durationFmt) durationFmt [.uint 8 s, .uint 4 n]]
  | .location f l c => .manual (addr manualFmt) [.formatted (addr locationFmt) locationFmt [.str f, .uint 4 l, .uint 4 c]]
  | .ipv6 octets => .manual (addr manualFmt) [.formatted (addr ipv6Fmt) ipv6Fmt (octets.map (octet addr))]
  | .pointer a => .manual (addr manualFmt) [.formatted (addr pointerFmt) pointerFmt
      [.formatted (addr c!"{=usize}") c!"{=usize}" [.usize a]]]
  | .iter tag vs => .manual (addr manualFmt) [.formatted (addr iterFmt) iterFmt
      [.slice (addr (tag.getD [])) (tag.getD []) (toVals addr vs)]]
  | .written k vs => .manual (addr manualFmt) [.formatted (addr k.fmt) k.fmt (toVals addr vs)]
  | .newtype v => .manual (addr manualFmt) (writesOf (toVal addr v))

def toVals (addr : List Char → Nat) : List Value → List Val
  | [] => []
  | v :: vs => toVal addr v :: toVals addr vs

end

theorem toVals_length (addr : List Char → Nat) : ∀ vs, (toVals addr vs).length = vs.length
  | [] => rfl
  | v :: vs => by simp [toVals, toVals_length addr vs]

/-- what holds for a value -/
structure Good (t : Table) (addr : List Char → Nat) (env : Env) (v : Value) : Prop where
  tag : tagOf (toVal addr v) = some (addr v.tag)
  string : formatString (toVal addr v) = v.tag
  linked : Linked t (addr v.tag) v.tag
  data : ∃ c, core addr v = some c ∧ formatData (toVal addr v) = some (dataOf v c)
  manual : v.isManual = true → v.tag = manualFmt ∧ ∃ ws, toVal addr v = .manual (addr manualFmt) ws ∧ encodeWrites ws = core addr v
  plain : v.isManual = false → '|' ∉ v.tag →
    addr v.tag ≠ 0 ∧ ∃ args, toVal addr v = .formatted (addr v.tag) v.tag args
  ok : ValOk t (toVal addr v)
  shown : ∃ f as, denote (toVal addr v) = .format f as ∧
    ∀ h, h ≠ some .ascii → formatArgs f (showArgs env as) h = v.text c!")" (leaf env h)

section lists
variable {t : Table} {addr : List Char → Nat} {env : Env}

theorem good_arg {v : Value} (g : Good t addr env v) :
    ∃ c, core addr v = some c ∧ encodeArg .format (toVal addr v) (formatData (toVal addr v)) = some (fmtOf addr v c) := by
  obtain ⟨c, h1, h2⟩ := g.data
  refine ⟨c, h1, ?_⟩
  unfold encodeArg
  have := g.tag
  cases hv : toVal addr v <;> rw [hv] at this h2 <;> simp_all [tagOf, fmtOf]

theorem good_argOk {v : Value} (g : Good t addr env v) : ArgOk t .format (toVal addr v) (ValOk t (toVal addr v)) := by
  have : ∀ (x : Val) (n : Prop), (n ∧ ∃ tag s, HasFormat tag s x ∧ Linked t tag s) → ArgOk t .format x n := by
    intro x n h; cases x <;> exact h
  exact this _ _ ⟨g.ok, _, _, ⟨g.tag, g.string⟩, g.linked⟩

theorem good_denote {v : Value} (g : Good t addr env v) (a : Ty) (ha : a = .format) :
    denoteArg a (toVal addr v) (denote (toVal addr v)) = denote (toVal addr v) := by
  subst ha
  have := g.tag
  cases hv : toVal addr v <;> rw [hv] at this <;> first | rfl | cases this

theorem args_good : ∀ {vs : List Value}, (∀ v ∈ vs, Good t addr env v) →
    (∃ d, coreArgs addr vs = some d ∧ encodeArgs (List.replicate vs.length .format) (toVals addr vs) = some d) ∧
    ArgsOk t (List.replicate vs.length .format) (toVals addr vs) ∧
    denoteArgs (List.replicate vs.length .format) (toVals addr vs) = vs.map (fun v => denote (toVal addr v))
  | [], _ => ⟨⟨[], rfl, rfl⟩, trivial, rfl⟩
  | v :: vs, h => by
    obtain ⟨⟨d, h1, h2⟩, h3, h4⟩ := args_good (vs := vs) (fun v hv => h v (by simp [hv]))
    have g := h v (by simp)
    obtain ⟨c, h5, h6⟩ := good_arg g
    refine ⟨⟨fmtOf addr v c ++ d, ?_, ?_⟩, ?_, ?_⟩
    · rw [coreArgs, h5, h1]
    · rw [List.length_cons, List.replicate_succ, toVals, encodeArgs, h6, h2]
    · rw [List.length_cons, List.replicate_succ, toVals, ArgsOk]
      exact ⟨good_argOk g, h3⟩
    · rw [List.length_cons, List.replicate_succ, toVals, denoteArgs, good_denote g _ rfl, h4, List.map_cons]

theorem elems_good : ∀ {vs : List Value}, (∀ v ∈ vs, Good t addr env v) →
    (∃ d, coreElems addr vs = some d ∧ encodeElems (toVals addr vs) = some d) ∧ ElemsOk t (toVals addr vs) ∧
    denoteAll (toVals addr vs) = vs.map (fun v => denote (toVal addr v))
  | [], _ => ⟨⟨[], rfl, rfl⟩, trivial, rfl⟩
  | v :: vs, h => by
    obtain ⟨⟨d, h1, h2⟩, h3, h4⟩ := elems_good (vs := vs) (fun v hv => h v (by simp [hv]))
    have g := h v (by simp)
    obtain ⟨c, h5, h6⟩ := g.data
    refine ⟨⟨dataOf v c ++ d, ?_, ?_⟩, ?_, ?_⟩
    · rw [coreElems, h5, h1]
    · rw [toVals, encodeElems, h6, h2]
    · rw [toVals, ElemsOk]; exact ⟨g.ok, h3⟩
    · rw [toVals, denoteAll, h4, List.map_cons]

/-- a nested value in a parameter without or with hint -/
theorem good_shown {v : Value} (g : Good t addr env v) {i : Nat} {ty : Ty} {ph h : Option Hint} (h1 : ph ≠ some .ascii)
    (h2 : h ≠ some .ascii) : showArg env (denote (toVal addr v)) ⟨i, ty, ph⟩ h = v.text c!")" (leaf env (ph <|> h)) := by
  obtain ⟨f, as, e, hs⟩ := g.shown
  rw [e, showArg]
  simp only [if_neg h2]
  apply hs
  cases ph with
  | none => exact h2
  | some x => exact h1

theorem showArgs_map (as : List Arg) : showArgs env as = as.map (showArg env) := by
  induction as with
  | nil => rfl
  | cons a as ih => rw [showArgs, ih, List.map_cons]

theorem texts_map (cell : List Char) (leaf : Prim → Option (List Char)) : ∀ (vs : List Value) (m : List (List Char)),
    texts cell leaf vs = some m ↔ vs.map (Value.text cell leaf) = m.map some
  | [], m => by rw [texts]; cases m <;> simp
  | v :: vs, m => by
    have ih := texts_map cell leaf vs
    rw [texts]
    cases m with
    | nil =>
      simp only [List.map_cons, List.map_nil, reduceCtorEq, iff_false]
      split <;> simp
    | cons a m =>
      rw [List.map_cons, List.map_cons, List.cons.injEq, ← ih]
      cases v.text cell leaf <;> cases texts cell leaf vs <;> simp

theorem texts_none (cell : List Char) (leaf : Prim → Option (List Char)) : ∀ (vs : List Value),
    texts cell leaf vs = none ↔ ∃ v ∈ vs, v.text cell leaf = none
  | [] => by simp [texts]
  | v :: vs => by
    have ih := texts_none cell leaf vs
    rw [texts]
    simp only [List.mem_cons, exists_eq_or_imp]
    rw [← ih]
    cases v.text cell leaf <;> cases texts cell leaf vs <;> simp

theorem comma_none {xs : List (Option (List Char))} (h : none ∈ xs) : commaSeparated xs = none := by
  cases hc : commaSeparated xs with
  | none => rfl
  | some m =>
    obtain ⟨ss, rfl, _⟩ := comma_iff.mp hc
    simp at h

theorem concat_none {xs : List (Option (List Char))} (h : none ∈ xs) : concat xs = none := by
  cases hc : concat xs with
  | none => rfl
  | some m =>
    obtain ⟨ss, rfl, _⟩ := concat_iff.mp hc
    simp at h

/-- `[a, b]` -/
theorem bracketed_texts (cell : List Char) (leaf : Prim → Option (List Char)) (vs : List Value) :
    bracketed (vs.map (Value.text cell leaf)) = (texts cell leaf vs).map (fun ss => '[' :: separated c!", " ss ++ [']']) := by
  cases ht : texts cell leaf vs with
  | none =>
    obtain ⟨v, hv, he⟩ := (texts_none cell leaf vs).mp ht
    have : none ∈ vs.map (Value.text cell leaf) := List.mem_map.mpr ⟨v, hv, he⟩
    rw [bracketed, comma_none this]; rfl
  | some ss =>
    rw [Option.map_some]
    exact bracketed_iff.mpr ⟨ss, (texts_map cell leaf vs ss).mp ht, rfl⟩

theorem showElements_map : ∀ {vs : List Value}, (∀ v ∈ vs, Good t addr env v) → ∀ h, h ≠ some .ascii →
    (showElements env (vs.map (fun v => denote (toVal addr v)))).map (fun s => s h) = vs.map (Value.text c!")" (leaf env h))
  | [], _, _, _ => rfl
  | v :: vs, hg, h, hh => by
    obtain ⟨f, as, e, hs⟩ := (hg v (by simp)).shown
    rw [List.map_cons, e, showElements]
    simp only [List.map_cons]
    rw [hs h hh, showElements_map (fun v hv => hg v (by simp [hv])) h hh]

/-- a slice in a parameter without hint -/
theorem slice_shown {vs : List Value} (hg : ∀ v ∈ vs, Good t addr env v) {i : Nat} {ty : Ty} {h : Option Hint}
    (hh : h ≠ some .ascii) : showArg env (.formatSlice (vs.map (fun v => denote (toVal addr v)))) ⟨i, ty, none⟩ h =
      (texts c!")" (leaf env h) vs).map (fun ss => '[' :: separated c!", " ss ++ [']']) := by
  rw [showArg]
  simp only [none_hint]
  rw [if_neg (by rintro ⟨h1, _⟩; exact hh h1), showElements_map hg h hh, bracketed_texts]

theorem hasFormat_elems {vs : List Value} (hg : ∀ v ∈ vs, Good t addr env v) {s : List Char} (hs : ∀ v ∈ vs, v.tag = s) :
    ∀ x ∈ toVals addr vs, HasFormat (addr s) s x := by
  induction vs with
  | nil => intro x hx; simp [toVals] at hx
  | cons v vs ih =>
    intro x hx
    rw [toVals, List.mem_cons] at hx
    rcases hx with rfl | hx
    · have := hs v (by simp)
      have g := hg v (by simp)
      exact ⟨by rw [g.tag, this], by rw [g.string, this]⟩
    · exact ih (fun v hv => hg v (by simp [hv])) (fun v hv => hs v (by simp [hv])) x hx

/-! ### building blocks -/

/-- a manual implementation with one `write!` -/
theorem manual_data {ws : List Val} {c : List UInt8} (hw : encodeWrites ws = some c) (tag : Nat) :
    formatData (.manual tag ws) = some (c ++ le 2 0) := by
  rw [formatData, hw]; rfl

theorem sequence_parse : parse manualFmt .forwardsCompatible = .ok [.param ⟨0, .formatSequence, none⟩] := by decide +kernel

theorem format_parse : parse c!"{=?}" .forwardsCompatible = .ok [.param ⟨0, .format, none⟩] := by decide +kernel

/-- a manual implementation whose calls are shown as `texts` -/
theorem manual_shown {as : List Arg} {h : Option Hint} {x : Option (List Char)}
    (hx : concat (as.map (fun a => showArg env a ⟨0, .format, none⟩ h)) = x) :
    formatArgs sequenceFormat (showArgs env [.formatSequence as]) h = x := by
  unfold formatArgs
  rw [show sequenceFormat = manualFmt from rfl, sequence_parse]
  simp only [List.map, formatFragment, showArgs, List.getElem?_cons_zero]
  rw [showArg]
  simp only [none_hint, showArgs_map, List.map_map]
  have : (fun s : Shower => formatArgs c!"{=?}" [s] h) ∘ showArg env = fun a => showArg env a ⟨0, .format, none⟩ h := by
    funext a
    simp only [Function.comp, formatArgs]
    rw [format_parse]
    simp only [List.map, formatFragment, List.getElem?_cons_zero]
    cases showArg env a ⟨0, .format, none⟩ h <;> simp [concat]
  rw [this, hx]
  cases x <;> simp [concat]

/-- one `write!` -/
theorem write_shown {f : List Char} {as : List Arg} {h : Option Hint} :
    concat ([Arg.format f as].map (fun a => showArg env a ⟨0, .format, none⟩ h)) = formatArgs f (showArgs env as) h := by
  simp only [List.map, showArg, none_hint, ite_self]
  cases formatArgs f (showArgs env as) h <;> simp_all [concat]

/-- a type with a format string without alternatives, whose arguments are arbitrary values -/
theorem good_formatted {v : Value} {args : List Val} {tys : List Ty} {d : List UInt8}
    (h1 : toVal addr v = .formatted (addr v.tag) v.tag args) (h2 : v.isManual = false) (h3 : '|' ∉ v.tag)
    (h4 : argTypes v.tag args.length = some tys) (h5 : Interned t addr v.tag) (h6 : ArgsOk t tys args)
    (h7 : core addr v = some d) (h8 : encodeArgs tys args = some d)
    (h9 : ∀ h, h ≠ some .ascii → formatArgs v.tag (showArgs env (denoteArgs tys args)) h = v.text c!")" (leaf env h)) :
    Good t addr env v where
  tag := by rw [h1]; rfl
  string := by rw [h1]; rfl
  linked := h5.2
  data := ⟨d, h7, by rw [h1, formatData, h4, dataOf, h2]; exact h8⟩
  manual := by rw [h2]; intro h; cases h
  plain := fun _ _ => ⟨h5.1, args, h1⟩
  ok := by rw [h1, ValOk]; exact ⟨h3, tys, h4, h6⟩
  shown := ⟨v.tag, denoteArgs tys args, by rw [h1, denote, h4], h9⟩

/-- a type with two alternatives -/
theorem good_variant {v : Value} {a b fmt : List Char} {i : Nat} {args : List Val} {tys : List Ty} {d : List UInt8}
    (h1 : toVal addr v = .variant (addr v.tag) [a, b] i args) (h0 : v.tag = a ++ '|' :: b) (h2 : v.isManual = false)
    (h3 : '|' ∉ a ∧ '|' ∉ b) (hi : [a, b][i]? = some fmt)
    (h4 : argTypes fmt args.length = some tys) (h5 : Interned t addr v.tag) (h6 : ArgsOk t tys args)
    (h7 : core addr v = some (le 1 i ++ d)) (h8 : encodeArgs tys args = some d)
    (h9 : ∀ h, h ≠ some .ascii → formatArgs fmt (showArgs env (denoteArgs tys args)) h = v.text c!")" (leaf env h)) :
    Good t addr env v where
  tag := by rw [h1]; rfl
  string := by rw [h1, formatString, joinVariants, joinVariants, h0]
  linked := h5.2
  data := ⟨_, h7, by
    rw [h1, formatData, dataOf, h2]
    have hd : discriminantBytes [a, b].length = some 1 := rfl
    simp only [hi, hd, h4, h8, Option.map_some]
    rfl⟩
  manual := by rw [h2]; intro h; cases h
  plain := by intro _ h; rw [h0] at h; simp at h
  ok := by
    rw [h1, ValOk]
    refine ⟨by simp, ?_, by simp, by simp, fmt, hi, tys, h4, h6⟩
    intro x hx
    simp at hx
    rcases hx with rfl | rfl
    · exact h3.1
    · exact h3.2
  shown := ⟨fmt, denoteArgs tys args, by rw [h1, denote, hi]; simp only [h4], h9⟩

/-- a type whose `format` is one `write!` -/
theorem good_manual {v : Value} {fmt : List Char} {args : List Val} {tys : List Ty} {d : List UInt8}
    (h1 : toVal addr v = .manual (addr manualFmt) [.formatted (addr fmt) fmt args]) (h0 : v.tag = manualFmt)
    (h2 : v.isManual = true)
    (h4 : argTypes fmt args.length = some tys) (h5 : Interned t addr manualFmt) (h5' : Interned t addr fmt)
    (h6 : ArgsOk t tys args) (h7 : core addr v = some (le 2 (addr fmt) ++ d)) (h8 : encodeArgs tys args = some d)
    (h9 : ∀ h, h ≠ some .ascii → formatArgs fmt (showArgs env (denoteArgs tys args)) h = v.text c!")" (leaf env h)) :
    Good t addr env v where
  tag := by rw [h1, h0]; rfl
  string := by rw [h1, h0]; rfl
  linked := by rw [h0]; exact h5.2
  data := ⟨_, h7, by
    rw [h1, dataOf, h2, if_pos rfl]
    apply manual_data
    simp only [encodeWrites, tagOf, formatData, h4, h8, List.append_nil]⟩
  manual := fun _ => ⟨h0, _, h1, by rw [h7]; simp only [encodeWrites, tagOf, formatData, h4, h8, List.append_nil]⟩
  plain := by rw [h2]; intro h; cases h
  ok := by
    rw [h1, ValOk, WritesOk]
    exact ⟨⟨h5'.1, h5'.2, tys, h4, h6⟩, by rw [WritesOk]; trivial⟩
  shown := ⟨sequenceFormat, _, by rw [h1, denote], by
    intro h hh
    apply manual_shown
    rw [denoteAll, denoteAll, denote, h4]
    simp only
    rw [write_shown, h9 h hh]⟩

/-- a newtype that delegates -/
theorem good_newtype {v : Value} (g : Good t addr env v) (hv : '|' ∉ v.tag) (h5 : Interned t addr manualFmt) :
    Good t addr env (.newtype v) := by
  have ht : (Value.newtype v).tag = manualFmt := rfl
  have hm : (Value.newtype v).isManual = true := rfl
  obtain ⟨c, g1, g2⟩ := g.data
  have core_eq : core addr (.newtype v) = some (formatOf addr v c) := by rw [core, g1]; rfl
  have htext : ∀ l, (Value.newtype v).text c!")" l = v.text c!")" l := fun l => by rw [Value.text]
  cases hm' : v.isManual with
  | true =>
    obtain ⟨m1, ws, m2, m3⟩ := g.manual hm'
    have e : toVal addr (.newtype v) = toVal addr v := by rw [toVal, m2]; rfl
    have ew : encodeWrites ws = core addr (.newtype v) := by
      rw [core_eq, m3, g1, formatOf, hm']; rfl
    exact {
      tag := by rw [e, g.tag, m1, ht]
      string := by rw [e, g.string, m1, ht]
      linked := by rw [ht]; exact h5.2
      data := ⟨_, core_eq, by rw [e, g2, dataOf, dataOf, hm, hm', formatOf, hm']; rfl⟩
      manual := fun _ => ⟨rfl, ws, by rw [e, m2], ew⟩
      plain := by intro h; cases h
      ok := by rw [e]; exact g.ok
      shown := by
        obtain ⟨f, as, s1, s2⟩ := g.shown
        exact ⟨f, as, by rw [e, s1], fun h hh => by rw [s2 h hh, htext]⟩ }
  | false =>
    obtain ⟨p1, args, p2⟩ := g.plain hm' hv
    have e : toVal addr (.newtype v) = .manual (addr manualFmt) [toVal addr v] := by rw [toVal, p2]; rfl
    have ew : encodeWrites [toVal addr v] = core addr (.newtype v) := by
      rw [core_eq]
      simp only [encodeWrites, g.tag, g2, formatOf, hm', dataOf, List.append_nil]
      rfl
    exact {
      tag := by rw [e]; rfl
      string := by rw [e]; rfl
      linked := h5.2
      data := ⟨_, core_eq, by
        rw [e, dataOf, hm, if_pos rfl]
        apply manual_data
        rw [ew, core_eq]⟩
      manual := fun _ => ⟨rfl, _, e, ew⟩
      plain := by intro h; cases h
      ok := by
        have := g.ok
        rw [p2, ValOk] at this
        rw [e, p2, ValOk, WritesOk]
        exact ⟨⟨p1, g.linked, this.2⟩, by rw [WritesOk]; trivial⟩
      shown := by
        obtain ⟨f, as, s1, s2⟩ := g.shown
        refine ⟨sequenceFormat, _, by rw [e, denote], fun h hh => ?_⟩
        apply manual_shown
        rw [denoteAll, denoteAll, s1, write_shown, s2 h hh, htext] }

/-! ### The format strings -/

/-- fragments of the format string of a kind -/
def Kind.frags : Kind → List Fragment
  | .range => [.param ⟨0, .format, none⟩, .literal c!"..", .param ⟨1, .format, none⟩]
  | .rangeFrom => [.param ⟨0, .format, none⟩, .literal c!".."]
  | .rangeFull => [.literal c!".."]
  | .rangeInclusive => [.param ⟨0, .format, none⟩, .literal c!"..=", .param ⟨1, .format, none⟩]
  | .rangeTo => [.literal c!"..", .param ⟨0, .format, none⟩]
  | .rangeToInclusive => [.literal c!"..=", .param ⟨0, .format, none⟩]
  | .cell => [.literal c!"Cell { value: ", .param ⟨0, .format, none⟩, .literal c!" })"]
  | .borrowError => [.literal c!"BorrowError"]
  | .borrowMutError => [.literal c!"BorrowMutError"]
  | .layout => [.literal c!"Layout { size: ", .param ⟨0, .format, none⟩, .literal c!", align: ", .param ⟨1, .format, none⟩, .literal c!" }"]
  | .tryFromSliceError => [.literal c!"TryFromSliceError(())"]
  | .tryFromIntError => [.literal c!"TryFromIntError(())"]
  | .zip => [.literal c!"Zip(..)"]
  | .chunksExact => [.literal c!"ChunksExact(..)"]
  | .windows => [.literal c!"Windows(..)"]
  | .ipv4Addr => [.param ⟨0, .format, none⟩, .literal c!".", .param ⟨1, .format, none⟩, .literal c!".",
      .param ⟨2, .format, none⟩, .literal c!".", .param ⟨3, .format, none⟩]
  | .socketAddrV4 => [.param ⟨0, .format, none⟩, .literal c!":", .param ⟨1, .format, none⟩]
  | .socketAddrV6 => [.literal c!"[", .param ⟨0, .format, none⟩, .literal c!"]:", .param ⟨1, .format, none⟩]
  | .ipAddr => [.param ⟨0, .format, none⟩]
  | .socketAddr => [.param ⟨0, .format, none⟩]
  | .addrParseError => [.literal c!"AddrParseError(_)"]
  | .nonNull => [.param ⟨0, .format, none⟩]
  | .fnPointer => [.param ⟨0, .format, none⟩]
  | .panicInfo => [.literal c!"panicked at ", .param ⟨0, .format, none⟩]
  | .panicInfoUnlocated => [.literal c!"panicked"]

theorem kind_ok (k : Kind) : parse k.fmt .forwardsCompatible = .ok k.frags ∧
    argTypes k.fmt k.arity = some (List.replicate k.arity .format) := by
  cases k <;> decide +kernel

/-- fragments of a tuple's format string after the first component -/
def tupleRest : Nat → Nat → List Fragment
  | _, 0 => [.literal c!")"]
  | i, n + 1 => .literal c!", " :: .param ⟨i, .format, none⟩ :: tupleRest (i + 1) n

theorem tuple_ok : ∀ n < 12, parse (tupleFmt (n + 1)) .forwardsCompatible =
      .ok (.literal c!"(" :: .param ⟨0, .format, none⟩ :: tupleRest 1 n) ∧
    argTypes (tupleFmt (n + 1)) (n + 1) = some (List.replicate (n + 1) .format) ∧ '|' ∉ tupleFmt (n + 1) := by
  decide +kernel

theorem arrayTable_ok : ∀ e ∈ arrayTable, parse e.2 .forwardsCompatible = .ok [.param ⟨0, .formatArray e.1, none⟩] ∧
    argTypes e.2 1 = some [.formatArray e.1] ∧ '|' ∉ e.2 := by decide +kernel

theorem slice_ok : parse c!"{=[?]}" .forwardsCompatible = .ok [.param ⟨0, .formatSlice, none⟩] ∧
    argTypes c!"{=[?]}" 1 = some [.formatSlice] ∧ '|' ∉ c!"{=[?]}" := by decide +kernel

theorem lookup_cases {β : Type} (n : Nat) : ∀ l : List (Nat × β),
    (∃ x, l.lookup n = some x ∧ (n, x) ∈ l ∧ n ∈ l.map Prod.fst) ∨ (l.lookup n = none ∧ n ∉ l.map Prod.fst)
  | [] => .inr ⟨rfl, by simp⟩
  | (m, y) :: l => by
    rw [List.lookup_cons]
    by_cases h : n = m
    · subst h; left; exact ⟨y, by simp, by simp, by simp⟩
    · have hb : (n == m) = false := by simp [h]
      rw [hb]
      rcases lookup_cases n l with ⟨x, h1, h2, h3⟩ | ⟨h1, h2⟩
      · left; exact ⟨x, h1, by simp [h2], by simp only [List.map_cons, List.mem_cons]; exact .inr h3⟩
      · right; exact ⟨h1, by simp only [List.map_cons, List.mem_cons, not_or]; exact ⟨h, h2⟩⟩

/-- the two ways an array is sent -/
theorem array_ok (n : Nat) : ∃ ty, (ty = .formatArray n ∧ n ∈ arrayTable.map Prod.fst ∨
      ty = .formatSlice ∧ n ∉ arrayTable.map Prod.fst) ∧
    parse (arrayFmt n) .forwardsCompatible = .ok [.param ⟨0, ty, none⟩] ∧ argTypes (arrayFmt n) 1 = some [ty] ∧
    '|' ∉ arrayFmt n := by
  rcases lookup_cases n arrayTable with ⟨x, h1, h2, h3⟩ | ⟨h1, h2⟩
  · refine ⟨.formatArray n, .inl ⟨rfl, h3⟩, ?_⟩
    have : arrayFmt n = x := by rw [arrayFmt, h1]; rfl
    rw [this]
    exact arrayTable_ok _ h2
  · refine ⟨.formatSlice, .inr ⟨rfl, h2⟩, ?_⟩
    have : arrayFmt n = c!"{=[?]}" := by rw [arrayFmt, h1]; rfl
    rw [this]
    exact slice_ok

/-- one parameter, nothing else -/
theorem formatArgs_one {fmt : List Char} {p : Parameter} (hp : parse fmt .forwardsCompatible = .ok [.param p]) (h0 : p.index = 0)
    (a : Arg) (h : Option Hint) : formatArgs fmt (showArgs env [a]) h = showArg env a p h := by
  unfold formatArgs
  rw [hp]
  simp only [List.map, formatFragment, showArgs, h0, List.getElem?_cons_zero]
  cases showArg env a p h <;> simp [concat]

theorem kind_shown {k : Kind} {vs : List Value} (hl : vs.length = k.arity)
    (hg : ∀ v ∈ vs, Good t addr env v) {h : Option Hint} (hh : h ≠ some .ascii) :
    formatArgs k.fmt (showArgs env (vs.map (fun v => denote (toVal addr v)))) h = (texts c!")" (leaf env h) vs).map (k.text c!")") := by
  have key : ∀ v ∈ vs, ∀ i, showArg env (denote (toVal addr v)) ⟨i, .format, none⟩ h = v.text c!")" (leaf env h) := by
    intro v hv i
    have := good_shown (hg v hv) (i := i) (ty := .format) (ph := none) (h := h) (by simp) hh
    rw [this, none_hint]
  unfold formatArgs
  rw [(kind_ok k).1]
  have e0 : ∀ {vs : List Value}, vs.length = 0 → vs = [] := by intro vs h; cases vs; rfl; cases h
  have e1 : ∀ {vs : List Value}, vs.length = 1 → ∃ a, vs = [a] := by
    intro vs h
    match vs, h with
    | [a], _ => exact ⟨a, rfl⟩
  have e2 : ∀ {vs : List Value}, vs.length = 2 → ∃ a b, vs = [a, b] := by
    intro vs h
    match vs, h with
    | [a, b], _ => exact ⟨a, b, rfl⟩
  have e4 : ∀ {vs : List Value}, vs.length = 4 → ∃ a b c d, vs = [a, b, c, d] := by
    intro vs h
    match vs, h with
    | [a, b, c, d], _ => exact ⟨a, b, c, d, rfl⟩
  have c0 : vs.length = 0 ∨ vs.length = 1 ∨ vs.length = 2 ∨ vs.length = 4 := by rw [hl]; cases k <;> simp [Kind.arity]
  rcases c0 with hc | hc | hc | hc
  · obtain rfl := e0 hc
    cases k <;> first | (cases hl; done) | simp [Kind.frags, formatFragment, concat, texts, Kind.text]
  · obtain ⟨a, rfl⟩ := e1 hc
    have ka := key a (by simp)
    cases k <;> first | (cases hl; done) | exact absurd rfl hk | skip
    all_goals
      simp only [Kind.frags, List.map, formatFragment, showArgs, List.getElem?_cons_zero, ka, texts]
      cases a.text c!")" (leaf env h) <;> simp [concat, Kind.text]
  · obtain ⟨a, b, rfl⟩ := e2 hc
    have ka := key a (by simp)
    have kb := key b (by simp)
    cases k <;> first | (cases hl; done) | skip
    all_goals
      simp only [Kind.frags, List.map, formatFragment, showArgs, List.getElem?_cons_zero, List.getElem?_cons_succ, ka, kb, texts]
      cases a.text c!")" (leaf env h) <;> cases b.text c!")" (leaf env h) <;> simp [concat, Kind.text]
  · obtain ⟨a, b, c, d, rfl⟩ := e4 hc
    have ka := key a (by simp)
    have kb := key b (by simp)
    have kc := key c (by simp)
    have kd := key d (by simp)
    cases k <;> first | (cases hl; done) | skip
    all_goals
      simp only [Kind.frags, List.map, formatFragment, showArgs, List.getElem?_cons_zero, List.getElem?_cons_succ, ka, kb, kc, kd, texts]
      cases a.text c!")" (leaf env h) <;> cases b.text c!")" (leaf env h) <;> cases c.text c!")" (leaf env h) <;>
        cases d.text c!")" (leaf env h) <;> simp [concat, Kind.text]

theorem tuple_rest_shown (as : List Shower) (h : Option Hint) : ∀ (n i : Nat) (ts : List (List Char)), ts.length = n →
    (∀ j (hj : j < ts.length), formatFragment as h (.param ⟨i + j, .format, none⟩) = some ts[j]) →
    concat ((tupleRest i n).map (formatFragment as h)) = some ((ts.map (fun s => c!", " ++ s)).flatten ++ [')'])
  | 0, i, ts, hl, _ => by
    obtain rfl : ts = [] := by cases ts; rfl; cases hl
    simp [tupleRest, formatFragment, concat]
  | n + 1, i, s :: ts, hl, hk => by
    have ih := tuple_rest_shown as h n (i + 1) ts (by simpa using hl) (by
      intro j hj
      have := hk (j + 1) (by simp; omega)
      rw [show i + 1 + j = i + (j + 1) by omega, this]; rfl)
    have h0 := hk 0 (by simp)
    simp only [tupleRest, List.map_cons]
    rw [show i + 0 = i from rfl] at h0
    rw [h0]
    simp [formatFragment, concat, ih]

theorem separated_flatten (s : List Char) : ∀ ts : List (List Char),
    separated c!", " (s :: ts) = s ++ (ts.map (fun s => c!", " ++ s)).flatten
  | [] => by simp [separated]
  | x :: ts => by rw [separated, separated_flatten x ts] <;> simp

theorem tuple_shown {vs : List Value} (h1 : 1 ≤ vs.length) (h12 : vs.length ≤ 12)
    (hg : ∀ v ∈ vs, Good t addr env v) {h : Option Hint} (hh : h ≠ some .ascii) :
    formatArgs (tupleFmt vs.length) (showArgs env (vs.map (fun v => denote (toVal addr v)))) h =
      (texts c!")" (leaf env h) vs).map (fun ss => '(' :: separated c!", " ss ++ [')']) := by
  have key : ∀ v ∈ vs, ∀ i, showArg env (denote (toVal addr v)) ⟨i, .format, none⟩ h = v.text c!")" (leaf env h) := by
    intro v hv i
    have := good_shown (hg v hv) (i := i) (ty := .format) (ph := none) (h := h) (by simp) hh
    rw [this, none_hint]
  obtain ⟨n, hn⟩ : ∃ n, vs.length = n + 1 := ⟨vs.length - 1, by omega⟩
  have hfrag : ∀ i (hi : i < vs.length), formatFragment (showArgs env (vs.map (fun v => denote (toVal addr v)))) h
      (.param ⟨i, .format, none⟩) = vs[i].text c!")" (leaf env h) := by
    intro i hi
    simp only [formatFragment, showArgs_map, List.map_map, List.getElem?_map, List.getElem?_eq_getElem hi, Option.map_some,
      Function.comp]
    exact key _ (by simp) _
  unfold formatArgs
  rw [hn, (tuple_ok n (by omega)).1]
  simp only [List.map_cons]
  cases ht : texts c!")" (leaf env h) vs with
  | some ss =>
    have hm := (texts_map _ _ _ _).mp ht
    have hlen : ss.length = n + 1 := by have := congrArg List.length hm; simp at this; omega
    match ss, hlen with
    | s :: ss, hlen =>
      have hat : ∀ i (hi : i < vs.length) (hi' : i < (s :: ss).length), vs[i].text c!")" (leaf env h) = some (s :: ss)[i] := by
        intro i hi hi'
        have := congrArg (fun l => l[i]?) hm
        simp only [List.getElem?_map, List.getElem?_eq_getElem hi, List.getElem?_eq_getElem hi', Option.map_some] at this
        exact Option.some.inj this
      rw [hfrag 0 (by omega), hat 0 (by omega) (by simp)]
      have := tuple_rest_shown (showArgs env (vs.map (fun v => denote (toVal addr v)))) h n 1 ss (by simpa using hlen) (by
        intro j hj
        rw [show 1 + j = j + 1 by omega, hfrag (j + 1) (by simp at hlen; omega), hat (j + 1) (by simp at hlen; omega) (by simpa using hj)]
        rfl)
      simp only [formatFragment, concat]
      rw [this]
      simp [separated_flatten]
  | none =>
    obtain ⟨v, hv, he⟩ := (texts_none _ _ _).mp ht
    obtain ⟨i, hi, rfl⟩ := List.mem_iff_getElem.mp hv
    have hf := hfrag i hi
    rw [he] at hf
    rw [Option.map_none]
    apply concat_none
    have mem : ∀ (n i j : Nat), j < n → Fragment.param ⟨i + j, .format, none⟩ ∈ tupleRest i n := by
      intro n
      induction n with
      | zero => intro i j h; omega
      | succ n ih =>
        intro i j h
        rw [tupleRest]
        cases j with
        | zero => simp
        | succ j =>
          have := ih (i + 1) j (by omega)
          rw [show i + 1 + j = i + (j + 1) by omega] at this
          simp [this]
    cases i with
    | zero => simp [hf]
    | succ i =>
      have := mem n 1 i (by omega)
      rw [show 1 + i = i + 1 by omega] at this
      simp only [List.mem_cons, List.mem_map]
      exact .inr (.inr ⟨_, this, hf⟩)

theorem ipv6_ok : parse ipv6Fmt .forwardsCompatible = .ok (
      let x := fun i => Fragment.param ⟨i, .format, some (.hexadecimal false false 2)⟩
      let c := Fragment.literal c!":"
      [x 0, x 1, c, x 2, x 3, c, x 4, x 5, c, x 6, x 7, c, x 8, x 9, c, x 10, x 11, c, x 12, x 13, c, x 14, x 15]) ∧
    argTypes ipv6Fmt 16 = some (List.replicate 16 .format) := by decide +kernel

theorem pointer_ok : parse pointerFmt .forwardsCompatible =
      .ok [.literal c!"0x", .param ⟨0, .format, some (.hexadecimal false false 0)⟩] ∧
    argTypes pointerFmt 1 = some [.format] := by decide +kernel

theorem duration_ok : parse durationFmt .forwardsCompatible = .ok [.literal c!"Duration { secs: ", .param ⟨0, .u64, none⟩,
      .literal c!", nanos: ", .param ⟨1, .u32, none⟩, .literal c!" }"] ∧
    argTypes durationFmt 2 = some [.u64, .u32] := by decide +kernel

theorem location_ok : parse locationFmt .forwardsCompatible = .ok [.param ⟨0, .str, none⟩, .literal c!":",
      .param ⟨1, .u32, none⟩, .literal c!":", .param ⟨2, .u32, none⟩] ∧
    argTypes locationFmt 3 = some [.str, .u32, .u32] := by decide +kernel

theorem iter_ok : parse iterFmt .forwardsCompatible = .ok [.literal c!"Iter { slice: ", .param ⟨0, .formatSlice, none⟩,
      .literal c!", position: ? }"] ∧
    argTypes iterFmt 1 = some [.formatSlice] := by decide +kernel

theorem none_ok : parse c!"None" .forwardsCompatible = .ok [.literal c!"None"] ∧ argTypes c!"None" 0 = some [] := by decide +kernel

theorem borrowed_ok : parse c!"RefCell {{ value: <borrowed> }}" .forwardsCompatible =
      .ok [.literal c!"RefCell { value: <borrowed> }"] ∧
    argTypes c!"RefCell {{ value: <borrowed> }}" 0 = some [] := by decide +kernel

theorem some_ok : parse c!"Some({=?})" .forwardsCompatible = .ok [.literal c!"Some(", .param ⟨0, .format, none⟩, .literal c!")"] ∧
    argTypes c!"Some({=?})" 1 = some [.format] := by decide +kernel

theorem err_ok : parse c!"Err({=?})" .forwardsCompatible = .ok [.literal c!"Err(", .param ⟨0, .format, none⟩, .literal c!")"] ∧
    argTypes c!"Err({=?})" 1 = some [.format] := by decide +kernel

theorem ok_ok : parse c!"Ok({=?})" .forwardsCompatible = .ok [.literal c!"Ok(", .param ⟨0, .format, none⟩, .literal c!")"] ∧
    argTypes c!"Ok({=?})" 1 = some [.format] := by decide +kernel

theorem refCell_ok : parse c!"RefCell {{ value: {=?} }}" .forwardsCompatible =
      .ok [.literal c!"RefCell { value: ", .param ⟨0, .format, none⟩, .literal c!" }"] ∧
    argTypes c!"RefCell {{ value: {=?} }}" 1 = some [.format] := by decide +kernel

theorem unit_ok : parse c!"()" .forwardsCompatible = .ok [.literal c!"()"] ∧ argTypes c!"()" 0 = some [] ∧
    '|' ∉ c!"()" := by decide +kernel

theorem phantom_ok : parse c!"PhantomData" .forwardsCompatible = .ok [.literal c!"PhantomData"] ∧
    argTypes c!"PhantomData" 0 = some [] ∧ '|' ∉ c!"PhantomData" := by decide +kernel

/-- text, one nested value, text -/
theorem wrapped_shown {fmt a b : List Char} {v : Value} (g : Good t addr env v)
    (hp : parse fmt .forwardsCompatible = .ok [.literal a, .param ⟨0, .format, none⟩, .literal b])
    {h : Option Hint} (hh : h ≠ some .ascii) :
    formatArgs fmt (showArgs env (denoteArgs [.format] [toVal addr v])) h =
      (v.text c!")" (leaf env h)).map (fun s => a ++ s ++ b) := by
  unfold formatArgs
  rw [hp, denoteArgs_one, good_denote g _ rfl]
  simp only [List.map, formatFragment, showArgs, List.getElem?_cons_zero]
  rw [good_shown g (by simp) hh, none_hint]
  cases v.text c!")" (leaf env h) <;> simp [concat]

theorem hexByte_eq : ∀ n < 256, List.replicate (2 - (Nat.toDigits 16 n).length) '0' ++ Nat.toDigits 16 n =
    hexByte (UInt8.ofNat n) := by decide +kernel

/-- an octet in `{:02x}` -/
theorem octet_shown (hw : 2 ≤ env.maxWidth) (o : UInt8) (i : Nat) {h : Option Hint} (hh : h ≠ some .ascii) :
    showArg env (denote (octet addr o)) ⟨i, .format, some (.hexadecimal false false 2)⟩ h = some (hexByte o) := by
  have e : denote (octet addr o) = .format c!"{=u8}" [(Prim.u8 o.toNat).arg] := by
    rw [octet, denote, show argTypes c!"{=u8}" [Val.uint 1 o.toNat].length = some [.u8] from (prim_ok (.u8 0)).2.1]; rfl
  rw [e, showArg]
  simp only [if_neg hh]
  have := formatArgs_prim env (some (.hexadecimal false false 2)) (.u8 o.toNat)
  have hor : (some (Hint.hexadecimal false false 2) <|> h) = some (.hexadecimal false false 2) := rfl
  rw [hor, show c!"{=u8}" = (Prim.u8 o.toNat).fmt from rfl, this]
  simp only [leaf, Prim.arg, showArg, Prim.ty, none_hint, formatUxx, formatU128]
  unfold padIntegral
  rw [if_neg (by omega)]
  have := hexByte_eq o.toNat o.toNat_lt
  simp only [UInt8.ofNat_toNat] at this
  rw [← this]
  simp [alternatePrefix, hexDigits, digits]

theorem pointer_shown (a i : Nat) {h : Option Hint} (hh : h ≠ some .ascii) :
    showArg env (denote (.formatted (addr c!"{=usize}") c!"{=usize}" [.usize a])) ⟨i, .format, some (.hexadecimal false false 0)⟩ h =
      some (Nat.toDigits 16 a) := by
  have e : denote (.formatted (addr c!"{=usize}") c!"{=usize}" [.usize a]) = .format c!"{=usize}" [(Prim.usize a).arg] := by
    rw [denote, show argTypes c!"{=usize}" [Val.usize a].length = some [.usize] from (prim_ok (.usize 0)).2.1]; rfl
  rw [e, showArg]
  simp only [if_neg hh]
  have := formatArgs_prim env (some (.hexadecimal false false 0)) (.usize a)
  have hor : (some (Hint.hexadecimal false false 0) <|> h) = some (.hexadecimal false false 0) := rfl
  rw [hor, show c!"{=usize}" = (Prim.usize a).fmt from rfl, this]
  simp only [leaf, Prim.arg, showArg, Prim.ty, none_hint, formatUxx, formatU128]
  unfold padIntegral
  rw [if_neg (by omega)]
  simp [alternatePrefix, hexDigits, digits]

theorem denote_octet (o : UInt8) (a : Arg) : denoteArg .format (octet addr o) a = a := rfl

theorem octets_args (hu : Interned t addr c!"{=u8}") : ∀ os : List UInt8,
    encodeArgs (List.replicate os.length .format) (os.map (octet addr)) =
      some ((os.map (fun o => primArg addr (.u8 o.toNat))).flatten) ∧
    ArgsOk t (List.replicate os.length .format) (os.map (octet addr)) ∧
    denoteArgs (List.replicate os.length .format) (os.map (octet addr)) = os.map (fun o => denote (octet addr o))
  | [] => ⟨rfl, trivial, rfl⟩
  | o :: os => by
    obtain ⟨h1, h2, h3⟩ := octets_args hu os
    have hty : argTypes c!"{=u8}" [Val.uint 1 o.toNat].length = some [.u8] := (prim_ok (.u8 0)).2.1
    have hd : formatData (octet addr o) = some (le 1 o.toNat) := by
      rw [octet, formatData, hty]; rfl
    refine ⟨?_, ?_, ?_⟩
    · rw [List.length_cons, List.replicate_succ, List.map_cons, encodeArgs, hd, h1]
      rfl
    · rw [List.length_cons, List.replicate_succ, List.map_cons, ArgsOk]
      refine ⟨⟨?_, _, _, ⟨rfl, rfl⟩, hu.2⟩, h2⟩
      rw [octet, ValOk]
      refine ⟨(prim_ok (.u8 0)).2.2, _, hty, ?_⟩
      rw [ArgsOk, ArgsOk]
      exact ⟨o.toNat_lt, trivial⟩
    · rw [List.length_cons, List.replicate_succ, List.map_cons, denoteArgs, denote_octet, h3, List.map_cons]

theorem ipv6_shown (hw : 2 ≤ env.maxWidth) {os : List UInt8} (hl : os.length = 16) {h : Option Hint} (hh : h ≠ some .ascii) :
    formatArgs ipv6Fmt (showArgs env (os.map (fun o => denote (octet addr o)))) h = some (ipv6Text os) := by
  match os, hl with
  | [a0, a1, a2, a3, a4, a5, a6, a7, a8, a9, a10, a11, a12, a13, a14, a15], _ =>
    unfold formatArgs
    rw [ipv6_ok.1]
    simp only [List.map, formatFragment, showArgs, List.getElem?_cons_zero, List.getElem?_cons_succ, octet_shown hw _ _ hh]
    simp [concat, ipv6Text]

/-- a slice of values as an argument -/
theorem slice_args {vs : List Value} (hg : ∀ v ∈ vs, Good t addr env v) {s : List Char} (hs : ∀ v ∈ vs, v.tag = s)
    (hl : vs.length < 2 ^ 32) (hi : Linked t (addr s) s) {ty : Ty} (hty : ty = .formatSlice ∨ ty = .formatArray vs.length) :
    ∃ d, coreElems addr vs = some d ∧
      encodeArgs [ty] [.slice (addr s) s (toVals addr vs)] =
        some ((if ty = .formatSlice then le 4 vs.length else []) ++ le 2 (addr s) ++ d) ∧
      ArgsOk t [ty] [.slice (addr s) s (toVals addr vs)] ∧
      denoteArgs [ty] [.slice (addr s) s (toVals addr vs)] = [.formatSlice (vs.map (fun v => denote (toVal addr v)))] := by
  obtain ⟨⟨d, h1, h2⟩, h3, h4⟩ := elems_good hg
  have hf := hasFormat_elems hg hs
  refine ⟨d, h1, ?_, ?_, ?_⟩
  · rw [encodeArgs, encodeArgs, formatData, h2]
    rcases hty with rfl | rfl <;> simp [encodeArg, toVals_length]
  · rw [ArgsOk, ArgsOk]
    refine ⟨?_, trivial⟩
    rcases hty with rfl | rfl
    · exact ⟨by rw [ValOk]; exact h3, by rw [toVals_length]; exact hl, hi, hf⟩
    · exact ⟨by rw [ValOk]; exact h3, toVals_length addr vs, hl, hi, hf⟩
  · rw [denoteArgs_one, denote, h4]
    rcases hty with rfl | rfl <;> rfl

end lists

section main
variable {t : Table} {addr : List Char → Nat} {env : Env}

theorem list_uses {vs : List Value} (h : ∀ s ∈ allUses vs, Interned t addr s) : ∀ v ∈ vs, ∀ s ∈ v.uses, Interned t addr s := by
  induction vs with
  | nil => simp
  | cons v vs ih =>
    simp only [allUses, List.mem_append] at h
    intro x hx
    rcases List.mem_cons.mp hx with rfl | hx
    · exact fun s hs => h s (.inl hs)
    · exact ih (fun s hs => h s (.inr hs)) x hx

mutual

theorem good (hw : 2 ≤ env.maxWidth) : ∀ {v : Value}, v.Ok → (∀ s ∈ v.uses, Interned t addr s) → Good t addr env v
  | .prim p, ho, hu => by
    rw [Value.Ok] at ho
    rw [Value.uses] at hu
    obtain ⟨h1, h2, h3⟩ := prim_ok p
    refine good_formatted (args := [p.val addr]) (tys := [p.ty]) (d := p.write addr) (by rw [toVal]; rfl) rfl h3 h2
      (hu _ (by simp [Prim.uses, Value.tag])) ?_ (by rw [core]) ?_ ?_
    · rw [ArgsOk, ArgsOk]; exact ⟨prim_argOk ho hu, trivial⟩
    · rw [encodeArgs, encodeArgs, prim_encode]; simp
    · intro h _
      rw [denoteArgs_one, prim_denote, Value.text]
      exact formatArgs_prim env h p
  | .unit, _, hu => by
    rw [Value.uses] at hu
    refine good_formatted (args := []) (tys := []) (d := []) (by rw [toVal]; rfl) rfl unit_ok.2.2 unit_ok.2.1
      (hu _ (by simp [Value.tag])) trivial (by rw [core]) rfl ?_
    intro h _
    rw [Value.text]
    simp only [Value.tag, formatArgs, unit_ok.1]
    rfl
  | .phantom, _, hu => by
    rw [Value.uses] at hu
    refine good_formatted (args := []) (tys := []) (d := []) (by rw [toVal]; rfl) rfl phantom_ok.2.2 phantom_ok.2.1
      (hu _ (by simp [Value.tag])) trivial (by rw [core]) rfl ?_
    intro h _
    rw [Value.text]
    simp only [Value.tag, formatArgs, phantom_ok.1]
    rfl
  | .tuple vs, ho, hu => by
    rw [Value.Ok] at ho
    rw [Value.uses] at hu
    have hg := good_all hw ho.2.2 (fun s hs => hu s (by simp [hs]))
    obtain ⟨⟨d, a1, a2⟩, a3, a4⟩ := args_good hg
    obtain ⟨n, hn⟩ : ∃ n, vs.length = n + 1 := ⟨vs.length - 1, by omega⟩
    have ht := tuple_ok n (by omega)
    rw [← hn] at ht
    refine good_formatted (args := toVals addr vs) (tys := List.replicate vs.length .format) (d := d) (by rw [toVal]; rfl) rfl ht.2.2
      (by rw [toVals_length]; exact ht.2.1) (hu _ (by simp [Value.tag])) a3 (by rw [core, a1]) a2 ?_
    intro h hh
    rw [a4, Value.text]
    exact tuple_shown ho.1 ho.2.1 hg hh
  | .none, _, hu => by
    rw [Value.uses] at hu
    refine good_variant (a := c!"None") (b := c!"Some({=?})") (fmt := c!"None") (i := 0) (args := []) (tys := []) (d := [])
      (by rw [toVal]; rfl) rfl rfl (by decide) rfl none_ok.2 (hu _ (by simp)) trivial (by rw [core]; rfl) rfl ?_
    intro h _
    rw [Value.text]
    simp only [formatArgs, none_ok.1]
    rfl
  | .borrowed, _, hu => by
    rw [Value.uses] at hu
    refine good_variant (a := c!"RefCell {{ value: <borrowed> }}") (b := c!"RefCell {{ value: {=?} }}")
      (fmt := c!"RefCell {{ value: <borrowed> }}") (i := 0) (args := []) (tys := []) (d := [])
      (by rw [toVal]; rfl) rfl rfl (by decide) rfl borrowed_ok.2 (hu _ (by simp)) trivial (by rw [core]; rfl) rfl ?_
    intro h _
    rw [Value.text]
    simp only [formatArgs, borrowed_ok.1]
    rfl
  | .some v, ho, hu => by
    rw [Value.Ok] at ho
    rw [Value.uses] at hu
    have g := good hw ho (fun s hs => hu s (by simp [hs]))
    obtain ⟨c, c1, c2⟩ := good_arg g
    refine good_variant (a := c!"None") (b := c!"Some({=?})") (fmt := c!"Some({=?})") (i := 1) (args := [toVal addr v])
      (tys := [.format]) (d := fmtOf addr v c)
      (by rw [toVal]; rfl) rfl rfl (by decide) rfl some_ok.2 (hu _ (by simp))
      (by rw [ArgsOk, ArgsOk]; exact ⟨good_argOk g, trivial⟩) (by rw [core, c1]; rfl) (by rw [encodeArgs, encodeArgs, c2]; simp) ?_
    intro h hh
    rw [Value.text]
    exact wrapped_shown g some_ok.1 hh
  | .err v, ho, hu => by
    rw [Value.Ok] at ho
    rw [Value.uses] at hu
    have g := good hw ho (fun s hs => hu s (by simp [hs]))
    obtain ⟨c, c1, c2⟩ := good_arg g
    refine good_variant (a := c!"Err({=?})") (b := c!"Ok({=?})") (fmt := c!"Err({=?})") (i := 0) (args := [toVal addr v])
      (tys := [.format]) (d := fmtOf addr v c)
      (by rw [toVal]; rfl) rfl rfl (by decide) rfl err_ok.2 (hu _ (by simp))
      (by rw [ArgsOk, ArgsOk]; exact ⟨good_argOk g, trivial⟩) (by rw [core, c1]; rfl) (by rw [encodeArgs, encodeArgs, c2]; simp) ?_
    intro h hh
    rw [Value.text]
    exact wrapped_shown g err_ok.1 hh
  | .ok v, ho, hu => by
    rw [Value.Ok] at ho
    rw [Value.uses] at hu
    have g := good hw ho (fun s hs => hu s (by simp [hs]))
    obtain ⟨c, c1, c2⟩ := good_arg g
    refine good_variant (a := c!"Err({=?})") (b := c!"Ok({=?})") (fmt := c!"Ok({=?})") (i := 1) (args := [toVal addr v])
      (tys := [.format]) (d := fmtOf addr v c)
      (by rw [toVal]; rfl) rfl rfl (by decide) rfl ok_ok.2 (hu _ (by simp))
      (by rw [ArgsOk, ArgsOk]; exact ⟨good_argOk g, trivial⟩) (by rw [core, c1]; rfl) (by rw [encodeArgs, encodeArgs, c2]; simp) ?_
    intro h hh
    rw [Value.text]
    exact wrapped_shown g ok_ok.1 hh
  | .refCell v, ho, hu => by
    rw [Value.Ok] at ho
    rw [Value.uses] at hu
    have g := good hw ho (fun s hs => hu s (by simp [hs]))
    obtain ⟨c, c1, c2⟩ := good_arg g
    refine good_variant (a := c!"RefCell {{ value: <borrowed> }}") (b := c!"RefCell {{ value: {=?} }}")
      (fmt := c!"RefCell {{ value: {=?} }}") (i := 1) (args := [toVal addr v])
      (tys := [.format]) (d := fmtOf addr v c)
      (by rw [toVal]; rfl) rfl rfl (by decide) rfl refCell_ok.2 (hu _ (by simp))
      (by rw [ArgsOk, ArgsOk]; exact ⟨good_argOk g, trivial⟩) (by rw [core, c1]; rfl) (by rw [encodeArgs, encodeArgs, c2]; simp) ?_
    intro h hh
    rw [Value.text]
    exact wrapped_shown g refCell_ok.1 hh
  | .slice tag vs, ho, hu => by
    rw [Value.Ok] at ho
    rw [Value.uses] at hu
    obtain ⟨⟨s, rfl, hs⟩, hl, ho⟩ := ho
    have hg := good_all hw ho (fun s hs => hu s (by simp [hs]))
    obtain ⟨d, a1, a2, a3, a4⟩ := slice_args (ty := .formatSlice) hg hs hl (hu s (by simp)).2 (.inl rfl)
    refine good_formatted (args := [.slice (addr s) s (toVals addr vs)]) (tys := [.formatSlice]) (by rw [toVal]; rfl) rfl slice_ok.2.2
      slice_ok.2.1 (hu _ (by simp [Value.tag])) a3 (by rw [core, a1]; rfl) a2 ?_
    intro h hh
    rw [a4, Value.text]
    exact (formatArgs_one slice_ok.1 rfl _ h).trans (slice_shown hg hh)
  | .array tag vs, ho, hu => by
    rw [Value.Ok] at ho
    rw [Value.uses] at hu
    obtain ⟨⟨s, rfl, hs⟩, hl, ho⟩ := ho
    have hg := good_all hw ho (fun s hs => hu s (by simp [hs]))
    obtain ⟨ty, hty, p1, p2, p3⟩ := array_ok vs.length
    obtain ⟨d, a1, a2, a3, a4⟩ := slice_args (ty := ty) hg hs hl (hu s (by simp)).2
      (by rcases hty with ⟨h, _⟩ | ⟨h, _⟩; exact .inr h; exact .inl h)
    refine good_formatted (args := [.slice (addr s) s (toVals addr vs)]) (tys := [ty]) (by rw [toVal]; rfl) rfl p3
      p2 (hu _ (by simp [Value.tag])) a3 ?_ a2 ?_
    · rw [core, a1]
      rcases hty with ⟨rfl, hm⟩ | ⟨rfl, hm⟩
      · rw [if_pos hm]; rfl
      · rw [if_neg hm]; rfl
    · intro h hh
      rw [a4, Value.text]
      exact (formatArgs_one p1 rfl _ h).trans (slice_shown hg hh)
  | .reference v, ho, hu => by
    rw [Value.Ok] at ho
    rw [Value.uses] at hu
    have g := good hw ho hu
    have e : toVal addr (.reference v) = toVal addr v := by rw [toVal]
    have ht : (Value.reference v).tag = v.tag := by rw [Value.tag]
    have hm : (Value.reference v).isManual = v.isManual := by rw [Value.isManual]
    have hc : core addr (.reference v) = core addr v := by rw [core]
    exact {
      tag := by rw [e, ht]; exact g.tag
      string := by rw [e, ht]; exact g.string
      linked := by rw [ht]; exact g.linked
      data := by
        obtain ⟨c, c1, c2⟩ := g.data
        exact ⟨c, by rw [hc, c1], by rw [e, c2, dataOf, dataOf, hm]⟩
      manual := by rw [hm, ht, e, hc]; exact g.manual
      plain := by rw [hm, ht, e]; exact g.plain
      ok := by rw [e]; exact g.ok
      shown := by
        obtain ⟨f, as, s1, s2⟩ := g.shown
        exact ⟨f, as, by rw [e, s1], fun h hh => by rw [s2 h hh, Value.text]⟩ }
  | .nonZero p, ho, hu => by
    rw [Value.Ok] at ho
    rw [Value.uses] at hu
    obtain ⟨h1, h2, h3⟩ := prim_ok p
    have hup : ∀ s ∈ p.uses, Interned t addr s := fun s hs => hu s (by simp [hs])
    refine good_manual (fmt := p.fmt) (args := [p.val addr]) (tys := [p.ty]) (d := p.write addr) (by rw [toVal]) rfl rfl h2
      (hu _ (by simp)) (hup _ (by simp [Prim.uses])) ?_ (by rw [core]) ?_ ?_
    · rw [ArgsOk, ArgsOk]; exact ⟨prim_argOk ho hup, trivial⟩
    · rw [encodeArgs, encodeArgs, prim_encode]; simp
    · intro h _
      rw [denoteArgs_one, prim_denote, Value.text]
      exact formatArgs_prim env h p
  | .duration s n, ho, hu => by
    rw [Value.Ok] at ho
    rw [Value.uses] at hu
    refine good_manual (fmt := durationFmt) (args := [.uint 8 s, .uint 4 n]) (tys := [.u64, .u32])
      (d := (Prim.u64 s).write addr ++ (Prim.u32 n).write addr) (by rw [toVal]) rfl rfl duration_ok.2
      (hu _ (by simp)) (hu _ (by simp)) ?_ (by rw [core]; simp) ?_ ?_
    · rw [ArgsOk, ArgsOk, ArgsOk]; exact ⟨ho.1, ho.2, trivial⟩
    · simp only [encodeArgs, encodeArg, List.append_nil, Prim.write]
    · intro h _
      have e : denoteArgs [.u64, .u32] [.uint 8 s, .uint 4 n] = [(Prim.u64 s).arg, (Prim.u32 n).arg] := rfl
      rw [e, Value.text]
      simp only [formatArgs, duration_ok.1, List.map, formatFragment, showArgs, List.getElem?_cons_zero, List.getElem?_cons_succ]
      have l1 := leaf_index env h (.u64 s) 0
      have l2 := leaf_index env h (.u32 n) 1
      simp only [Prim.ty] at l1 l2
      rw [l1, l2]
      cases leaf env h (.u64 s) <;> cases leaf env h (.u32 n) <;> simp [concat]
  | .location f l c, ho, hu => by
    rw [Value.Ok] at ho
    rw [Value.uses] at hu
    refine good_manual (fmt := locationFmt) (args := [.str f, .uint 4 l, .uint 4 c]) (tys := [.str, .u32, .u32])
      (d := (Prim.str f).write addr ++ (Prim.u32 l).write addr ++ (Prim.u32 c).write addr) (by rw [toVal]) rfl rfl location_ok.2
      (hu _ (by simp)) (hu _ (by simp)) ?_ (by rw [core]; simp) ?_ ?_
    · rw [ArgsOk, ArgsOk, ArgsOk, ArgsOk]; exact ⟨ho.1, ho.2.1, ho.2.2, trivial⟩
    · simp only [encodeArgs, encodeArg, List.append_nil, Prim.write, List.append_assoc]
    · intro h _
      have e : denoteArgs [.str, .u32, .u32] [.str f, .uint 4 l, .uint 4 c] =
        [(Prim.str f).arg, (Prim.u32 l).arg, (Prim.u32 c).arg] := rfl
      rw [e, Value.text]
      simp only [formatArgs, location_ok.1, List.map, formatFragment, showArgs, List.getElem?_cons_zero, List.getElem?_cons_succ]
      have l1 := leaf_index env h (.str f) 0
      have l2 := leaf_index env h (.u32 l) 1
      have l3 := leaf_index env h (.u32 c) 2
      simp only [Prim.ty] at l1 l2 l3
      rw [l1, l2, l3]
      cases leaf env h (.str f) <;> cases leaf env h (.u32 l) <;> cases leaf env h (.u32 c) <;> simp [concat]
  | .ipv6 os, ho, hu => by
    rw [Value.Ok] at ho
    rw [Value.uses] at hu
    obtain ⟨a1, a2, a3⟩ := octets_args (t := t) (addr := addr) (hu _ (by simp)) os
    rw [ho] at a1 a2 a3
    refine good_manual (fmt := ipv6Fmt) (tys := List.replicate 16 .format) (by rw [toVal]) rfl rfl (by rw [List.length_map, ho]; exact ipv6_ok.2)
      (hu _ (by simp)) (hu _ (by simp)) a2 (by rw [core]) a1 ?_
    intro h hh
    rw [a3, Value.text]
    exact ipv6_shown hw ho hh
  | .pointer a, ho, hu => by
    rw [Value.Ok] at ho
    rw [Value.uses] at hu
    have hty : argTypes c!"{=usize}" [Val.usize a].length = some [.usize] := (prim_ok (.usize 0)).2.1
    have hu' := hu c!"{=usize}" (by simp)
    have hd : formatData (.formatted (addr c!"{=usize}") c!"{=usize}" [.usize a]) = some (le 4 a) := by
      rw [formatData, hty]; rfl
    refine good_manual (fmt := pointerFmt) (args := [.formatted (addr c!"{=usize}") c!"{=usize}" [.usize a]]) (tys := [.format]) (by rw [toVal]) rfl rfl pointer_ok.2
      (hu _ (by simp)) (hu _ (by simp)) ?_ (by rw [core]) ?_ ?_
    · rw [ArgsOk, ArgsOk]
      refine ⟨⟨?_, _, _, ⟨rfl, rfl⟩, hu'.2⟩, trivial⟩
      rw [ValOk]
      refine ⟨(prim_ok (.usize 0)).2.2, _, hty, ?_⟩
      rw [ArgsOk, ArgsOk]
      exact ⟨ho, trivial⟩
    · rw [encodeArgs, encodeArgs, hd]
      simp [encodeArg, tagOf, primArg, Prim.write, Prim.fmt]
    · intro h hh
      rw [denoteArgs_one, Value.text]
      simp only [denoteArg, formatArgs, pointer_ok.1, List.map, formatFragment, showArgs, List.getElem?_cons_zero]
      rw [pointer_shown a 0 hh]
      simp [concat]
  | .iter tag vs, ho, hu => by
    rw [Value.Ok] at ho
    rw [Value.uses] at hu
    obtain ⟨⟨s, rfl, hs⟩, hl, ho⟩ := ho
    have hg := good_all hw ho (fun s hs => hu s (by simp [hs]))
    obtain ⟨d, a1, a2, a3, a4⟩ := slice_args (ty := .formatSlice) hg hs hl (hu s (by simp)).2 (.inl rfl)
    refine good_manual (fmt := iterFmt) (args := [.slice (addr s) s (toVals addr vs)]) (tys := [.formatSlice]) (by rw [toVal]; rfl) rfl rfl
      iter_ok.2 (hu _ (by simp)) (hu _ (by simp)) a3 (by rw [core, a1]; rfl) a2 ?_
    intro h hh
    rw [a4, Value.text]
    simp only [formatArgs, iter_ok.1, List.map, formatFragment, showArgs, List.getElem?_cons_zero]
    rw [slice_shown hg hh]
    cases texts c!")" (leaf env h) vs <;> simp [concat]
  | .written k vs, ho, hu => by
    rw [Value.Ok] at ho
    rw [Value.uses] at hu
    have hg := good_all hw ho.2 (fun s hs => hu s (by simp [hs]))
    obtain ⟨⟨d, a1, a2⟩, a3, a4⟩ := args_good hg
    refine good_manual (fmt := k.fmt) (args := toVals addr vs) (tys := List.replicate vs.length .format) (by rw [toVal]) rfl rfl
      (by rw [toVals_length, ho.1]; exact (kind_ok k).2) (hu _ (by simp)) (hu _ (by simp)) a3 (by rw [core, a1]; rfl) a2 ?_
    intro h hh
    rw [a4, Value.text]
    exact kind_shown ho.1 hg hh
  | .newtype v, ho, hu => by
    rw [Value.Ok] at ho
    rw [Value.uses] at hu
    exact good_newtype (good hw ho.2 (fun s hs => hu s (by simp [hs]))) ho.1 (hu _ (by simp))

theorem good_all (hw : 2 ≤ env.maxWidth) : ∀ {vs : List Value}, AllOk vs → (∀ s ∈ allUses vs, Interned t addr s) →
    ∀ v ∈ vs, Good t addr env v
  | [], _, _ => by simp
  | v :: vs, ho, hu => by
    rw [AllOk] at ho
    rw [allUses] at hu
    have g := good hw ho.1 (fun s hs => hu s (by simp [hs]))
    have gs := good_all hw ho.2 (fun s hs => hu s (by simp [hs]))
    intro x hx
    rcases List.mem_cons.mp hx with rfl | hx
    · exact g
    · exact gs x hx

end

end main

end Defmt.Impls
