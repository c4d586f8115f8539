import Verif.Lemmas.Derive
import Verif.Props.Message
import Verif.Props.Display
/-!
# Properties of `#[derive(Format)]`: C28, C70, C71
-/

namespace Defmt

open Parser Decoder Encoder Derive Display

/-! ### C28 -/

theorem discriminant_some {n i : Nat} : (∃ d, discriminantStmt n i = some d) ↔ n < 2 ^ 64 := by
  unfold discriminantStmt discriminantBytes
  repeat' split
  all_goals (simp only [Option.map_some, Option.map_none, Option.some.injEq, exists_eq', true_iff, reduceCtorEq, exists_false, false_iff]; omega)

theorem loop_some {n : Nat} : ∀ {vs : List Variant} {i : Nat} {first : Bool},
    (∃ r, variantLoop n i first vs = some r) ↔
      (vs ≠ [] → n < 2 ^ 64) ∧ ∀ v ∈ vs, ∀ f ∈ v.fields.all, ∃ o, Asks f o
  | [], i, first => by simp [variantLoop]
  | v :: vs, i, first => by
    have ih := loop_some (n := n) (vs := vs) (i := i + 1) (first := false)
    have hc := codegen_some (fields := v.fields)
    have hd := discriminant_some (n := n) (i := i)
    simp only [List.mem_cons, forall_eq_or_imp, ne_eq, reduceCtorEq, not_false_eq_true, forall_const]
    rw [← hc, ← hd]
    rw [variantLoop]
    constructor
    · rintro ⟨r, h⟩
      cases h1 : codegen v.fields with
      | none => rw [h1] at h; cases h
      | some a =>
        cases h2 : discriminantStmt n i with
        | none => rw [h1, h2] at h; cases h
        | some b =>
          cases h3 : variantLoop n (i + 1) false vs with
          | none => rw [h1, h2, h3] at h; cases h
          | some c => exact ⟨⟨b, rfl⟩, ⟨a, rfl⟩, (ih.mp ⟨c, h3⟩).2⟩
    · rintro ⟨⟨b, h2⟩, ⟨a, h1⟩, h3⟩
      obtain ⟨c, hc⟩ := ih.mpr ⟨fun _ => hd.mp ⟨b, h2⟩, h3⟩
      rw [h1, h2, hc]
      exact ⟨_, rfl⟩

/-- **C28** Which definitions are accepted: every field has no `defmt` attribute or a single one whose
arguments are `Debug2Format` and `Display2Format`, and there are less than 2^64 variants. -/
theorem C28_accepted (d : Def) :
    (∃ r, expand d = some r) ↔ d.count < 2 ^ 64 ∧ ∀ f, d.HasField f → ∃ o, Asks f o := by
  match d with
  | .struct name fields =>
    have h : (∃ r, expand (.struct name fields) = some r) ↔ ∃ r, codegen fields = some r := by
      rw [expand]; cases codegen fields <;> simp
    rw [h, codegen_some]
    constructor
    · intro h
      refine ⟨by simp [Def.count], ?_⟩
      rintro f ⟨i, n, fs, hv, hf⟩
      match i, hv with
      | 0, hv => cases hv; exact h f hf
    · rintro ⟨_, h⟩ f hf
      exact h f ⟨0, name, fields, rfl, hf⟩
  | .enum [] =>
    refine ⟨fun _ => ⟨by decide, ?_⟩, fun _ => ⟨_, rfl⟩⟩
    rintro f ⟨i, n, fs, hv, _⟩
    simp [Def.variant] at hv
  | .enum (v :: vs) =>
    show (∃ r, variantLoop _ 0 true (v :: vs) = some r) ↔ _
    rw [loop_some]
    constructor
    · rintro ⟨h1, h2⟩
      refine ⟨h1 (by simp), ?_⟩
      rintro f ⟨i, n, fs, hv, hf⟩
      rw [Def.variant, Option.map_eq_some_iff] at hv
      obtain ⟨v', hv', e⟩ := hv
      cases e
      exact h2 v' (List.mem_of_getElem? hv') f hf
    · rintro ⟨h1, h2⟩
      refine ⟨fun _ => h1, ?_⟩
      intro v' hv' f hf
      obtain ⟨i, hi⟩ := List.mem_iff_getElem?.mp hv'
      exact h2 f ⟨i, v'.name, v'.fields, by rw [Def.variant, hi]; rfl, hf⟩

theorem count_pos {d : Def} {i : Nat} {x : List Char × Fields} (h : d.variant i = some x) : d.count ≠ 0 := by
  cases d with
  | struct => simp [Def.count]
  | enum vs =>
    cases vs with
    | nil => simp [Def.variant] at h
    | cons => simp [Def.count]

theorem parts_length (d : Def) : (parts d).length = d.count := by cases d <;> simp [parts, Def.count]

theorem variant_of_part {d : Def} {p : List Char} (h : p ∈ parts d) :
    ∃ i name fields, d.variant i = some (name, fields) ∧ p = name ++ fieldsText fields := by
  cases d with
  | struct n f => simp [parts] at h; exact ⟨0, n, f, rfl, h⟩
  | enum vs =>
    simp only [parts, List.mem_map] at h
    obtain ⟨v, hv, rfl⟩ := h
    obtain ⟨i, hi⟩ := List.mem_iff_getElem?.mp hv
    exact ⟨i, v.name, v.fields, by rw [Def.variant, hi]; rfl, rfl⟩

theorem isPart_intro {d : Def} (hn : d.Named) {s : List Char} {arms : List Arm} (he : expand d = some (s, arms))
    {i : Nat} {name : List Char} {fields : Fields} (hv : d.variant i = some (name, fields)) :
    IsPart s d.count i (name ++ fieldsText fields) := by
  obtain ⟨h1, h2⟩ := expand_spec he (count_pos hv)
  refine ⟨parts d, parts_length d, ?_, h1, (h2 i name fields hv).1⟩
  intro p hp
  obtain ⟨j, n, fs, hj, rfl⟩ := variant_of_part hp
  obtain ⟨a, b, c⟩ := hn j n fs hj
  exact part_noBar a c

theorem isPart_unique {s : List Char} {n i : Nat} {p q : List Char} (h : IsPart s n i p) (h' : IsPart s n i q) : p = q := by
  obtain ⟨ps, h1, h2, h3, h4⟩ := h
  obtain ⟨qs, g1, g2, g3, g4⟩ := h'
  have ne : ∀ {ps : List (List Char)}, ps[i]? = some p ∨ ps[i]? = some q → ps ≠ [] := by
    rintro ps h rfl; simp at h
  have a := (joinVariants_spec ps (ne (.inl h4)) h2).1
  have b := (joinVariants_spec qs (ne (.inr g4)) g2).1
  rw [← h3, g3, b] at a
  rw [a, h4] at g4
  exact Option.some.inj g4

/-- **C28** The format string of every accepted type has one part for each variant, separated by `|`
(the whole string for a struct), and each part parses, both in the macros and on the host, to one
parameter for each field, in field order, of the field's type. -/
theorem C28_types (d : Def) (hn : d.Named) (s : List Char) (arms : List Arm) (he : expand d = some (s, arms))
    (i : Nat) (name : List Char) (fields : Fields) (hv : d.variant i = some (name, fields)) :
    ∃ part tys, IsPart s d.count i part ∧ HasTys fields.all tys ∧
      ∀ mode, ∃ fs, parse part mode = .ok fs ∧ params fs = paramsFrom fields.hint 0 tys := by
  obtain ⟨a, b, c⟩ := hn i name fields hv
  obtain ⟨tys, ht⟩ := hasTys_exists fields.all
  exact ⟨_, tys, isPart_intro hn he hv, ht, fun m => ⟨_, part_parse m ht a c b, part_params ht⟩⟩

/-- an enum with three kinds of variants, and a struct -/
def demoEnum : Def := .enum [⟨c!"A", .unit⟩,
  ⟨c!"B", .named [⟨c!"x", .reference (.ident c!"u16"), []⟩, ⟨c!"y", .ident c!"Foo", [[c!"Debug2Format"]]⟩]⟩,
  ⟨c!"C", .unnamed [⟨[], .other, []⟩, ⟨[], .ident c!"bool", []⟩]⟩]

example : (expand demoEnum).map Prod.fst = some c!"A|B {{ x: {=u16:?}, y: {=?:?} }}|C({=?}, {=bool})" := by decide +kernel

theorem demoEnum_named : demoEnum.Named := by
  have id : ∀ s ∈ [c!"A", c!"B", c!"C", c!"x", c!"y"], IsIdent s := by
    unfold IsIdent; decide +kernel
  intro i name fields h
  match i, h with
  | 0, h => cases h; exact ⟨id _ (by simp), by decide, by simp⟩
  | 1, h =>
    cases h
    refine ⟨id _ (by simp), by decide, ?_⟩
    intro fs e f hf
    cases e
    simp only [List.mem_cons, List.not_mem_nil, or_false] at hf
    rcases hf with rfl | rfl <;> exact id _ (by simp)
  | 2, h => cases h; exact ⟨id _ (by simp), by decide, by simp⟩
  | n + 3, h => simp [Def.variant, demoEnum] at h

/-- **C28** (partial) A value of a derived type, logged as `{=?}`, is decoded to the part of its variant
and the values of its fields in order, whatever follows. Missing: fields of a native type with an
attribute (see `C28_fails`; excluded by `FieldsOk`), enums with 2^8, 2^16 or 2^32 variants (see
`C24_fails`). -/
theorem C28_roundtrip_partial (t : Table) (w : Wrappers) (d : Def) (hn : d.Named)
    (hc : d.count ∉ [2 ^ 8, 2 ^ 16, 2 ^ 32])
    (s : List Char) (arms : List Arm) (he : expand d = some (s, arms)) (tag : Nat) (hl : Linked t tag s)
    (i : Nat) (name : List Char) (fields : Fields) (hv : d.variant i = some (name, fields))
    (xs : List FieldVal) (as : List Arg) (hf : FieldsOk t w fields.all xs as)
    (ts : Option Call) (sent : List UInt8) (hts : Stamped t ts sent) (index : Nat) (hi : index < 2 ^ 16)
    (stmt : Tag) (hx : t.entries index = some ⟨stmt, c!"{=?}"⟩) :
    ∃ data part, derivedData w d i xs = some data ∧ IsPart s d.count i part ∧ ∀ rest,
      t.decode (le 2 index ++ sent ++ (le 2 tag ++ data) ++ rest) =
        some (.ok ({ level := stmt.toLevel, index, timestampFormat := ts.map Call.fmt, timestampArgs := stampArgs ts,
                     format := c!"{=?}", args := [.format part as] }, 4 + sent.length + data.length)) := by
  obtain ⟨tys, vs, stmts, f1, f2, f3, f4, rfl, f6⟩ := fieldsOk_args hf
  obtain ⟨a, b, c⟩ := hn i name fields hv
  obtain ⟨e1, e2⟩ := expand_spec he (count_pos hv)
  obtain ⟨e3, arm, e4, e5, e6⟩ := e2 i name fields hv
  have ht : argTypes (name ++ fieldsText fields) vs.length = some tys := by rw [f6]; exact part_argTypes f1 a c b
  have hcount : d.count < 2 ^ 64 := discriminant_some.mp ⟨_, e6⟩
  have hst : arm.stmts = stmts := by rw [f2] at e5; exact (Option.some.inj e5).symm
  have hbar : ∀ p ∈ parts d, '|' ∉ p := by
    intro p hp
    obtain ⟨j, n, fs, hj, rfl⟩ := variant_of_part hp
    obtain ⟨a, b, c⟩ := hn j n fs hj
    exact part_noBar a c
  have hdd : derivedData w d i xs = (encodeArgs tys vs).map (fun b => arm.discriminant ++ b) := by
    unfold derivedData
    rw [he]
    simp only [e4]
    rw [hst, f3]
  -- the value as seen by the encoder
  have key : ∃ v, HasFormat tag s v ∧ ValOk t v ∧ formatData v = derivedData w d i xs ∧
      denote v = .format (name ++ fieldsText fields) (denoteArgs tys vs) := by
    by_cases h1 : d.count = 1
    · refine ⟨.formatted tag s vs, ⟨rfl, rfl⟩, ?_⟩
      have hs : s = name ++ fieldsText fields := by
        have hpl := parts_length d
        rw [h1] at hpl
        match hps : parts d, hpl with
        | [p], _ =>
          rw [hps] at e1 e3
          match i, e3 with
          | 0, e3 => simp at e3; rw [e1, joinVariants, e3]
      subst hs
      refine ⟨?_, ?_, ?_⟩
      · rw [ValOk]
        exact ⟨part_noBar a c, tys, ht, f4⟩
      · rw [formatData, ht, hdd]
        simp only
        rw [h1] at e6
        have e7 : arm.discriminant = [] := (Option.some.inj e6).symm
        rw [e7]
        cases encodeArgs tys vs <;> rfl
      · rw [denote, ht]
    · have h2 : 2 ≤ (parts d).length := by have := count_pos hv; rw [parts_length]; omega
      refine ⟨.variant tag (parts d) i vs, ⟨rfl, by rw [formatString, e1]⟩, ?_, ?_, ?_⟩
      · rw [ValOk]
        exact ⟨h2, hbar, by rw [parts_length]; exact hc, by rw [parts_length]; exact hcount, _, e3, tys, ht, f4⟩
      · rw [formatData, hdd]
        unfold discriminantStmt at e6
        rw [Option.map_eq_some_iff] at e6
        obtain ⟨size, e6, e7⟩ := e6
        simp only [e3, parts_length, e6, ht, e7]
      · rw [denote, e3]
        simp only [ht]
  obtain ⟨v, v1, v2, v3, v4⟩ := key
  have htype : argTypes c!"{=?}" 1 = some [.format] := by decide +kernel
  have hok : Call.Ok t ⟨c!"{=?}", [v]⟩ := ⟨[.format], htype, by rw [ArgsOk, ArgsOk]; exact ⟨⟨v2, tag, s, v1, hl⟩, trivial⟩⟩
  obtain ⟨_, hb, _⟩ := call_ok hok
  simp only [Call.encode, List.length_singleton, htype, encodeArgs, encodeArg, v1.1, v3] at hb
  cases hdata : derivedData w d i xs with
  | none => rw [hdata] at hb; cases hb
  | some data =>
    refine ⟨data, _, rfl, isPart_intro hn he hv, ?_⟩
    intro rest
    rw [log_stamped hts hi (c := ⟨c!"{=?}", [v]⟩) hx hok (d := le 2 tag ++ data)
      (by simp [Call.encode, htype, encodeArgs, encodeArg, v1.1, v3, hdata]) rest]
    simp only [Call.denote, List.length_singleton, htype, denoteArgs, List.length_append, le_length]
    have hden : denoteArg .format v (denote v) = .format (name ++ fieldsText fields) (denoteArgs tys vs) := by
      rw [← v4]
      have := v1.1
      cases v <;> first | rfl | cases this
    rw [hden]
    simp only [Option.some.injEq, Outcome.ok.injEq, Prod.mk.injEq, true_and]
    omega

/-- example: `B { x: 513, y: Foo }` -/
example : derivedData ⟨7, 8⟩ demoEnum 1 [⟨.uint 2 513, [], []⟩, ⟨.manual 9 [], c!"Foo", []⟩] =
    some [1, 1, 2, 7, 0, 0x46, 0x6f, 0x6f, 0xff] := by rfl

/-- the hypotheses of the theorem for this value -/
example (t : Table) (h : Linked t 7 c!"{=__internal_Debug}") : FieldsOk t ⟨7, 8⟩
    [⟨c!"x", .reference (.ident c!"u16"), []⟩, ⟨c!"y", .ident c!"Foo", [[c!"Debug2Format"]]⟩]
    [⟨.uint 2 513, [], []⟩, ⟨.manual 9 [], c!"Foo", []⟩]
    [.uxx 513, .format c!"{=__internal_Debug}" [.preformatted c!"Foo"]] := by
  refine .cons (.native (ty := .u16) (.nothing rfl) (.reference (IsNative.base (ty := .u16) (by decide))) (by simp [ArgOk]))
    (.cons (.debug (.wrapper (before := []) (o := .debug2Format) rfl) ?_ h) .nil)
  intro ty hty
  have := asNative_some hty
  cases this

/-- **C28 does not hold** for a field of a native type with an attribute: the format string says `u8`,
the generated code writes a nested value. `S { x: 7 }` with `#[defmt(Debug2Format)] x: u8` is shown as
`S { x: 4 }` (the low byte of the address of an interned string), the rest of the data is left over. -/
theorem C28_fails :
    let d : Def := .struct c!"S" (.named [⟨c!"x", .ident c!"u8", [[c!"Debug2Format"]]⟩])
    let t : Table := ⟨none, fun i =>
      if i = 1 then some ⟨.info, c!"{=?}"⟩
      else if i = 2 then some ⟨.derived, c!"S {{ x: {=u8:?} }}"⟩
      else if i = 4 then some ⟨.prim, c!"{=__internal_Debug}"⟩ else none⟩
    (expand d).map Prod.fst = some c!"S {{ x: {=u8:?} }}" ∧
    derivedData ⟨4, 5⟩ d 0 [⟨.uint 1 7, c!"7", c!"7"⟩] = some [4, 0, 0x37, 0xff] ∧
    t.decode ([1, 0, 2, 0] ++ [4, 0, 0x37, 0xff]) =
      some (.ok ({ level := some .info, index := 1, timestampFormat := none, timestampArgs := [],
                   format := c!"{=?}", args := [.format c!"S {{ x: {=u8:?} }}" [.uxx 4]] }, 5)) := by
  refine ⟨by decide +kernel, by rfl, by rfl⟩

/-! ### C70 -/

theorem separated_cons (sep a : List Char) (as : List (List Char)) :
    separated sep (a :: as) = a ++ (as.map (fun b => sep ++ b)).flatten := by
  induction as generalizing a with
  | nil => simp [separated]
  | cons b as ih => rw [separated, ih] <;> simp

theorem filled_later {shown : Parameter → List Char → Prop} {named : Bool} {hint : Option Hint} {close : List Char} :
    ∀ {fs : List Field} {tys : List Ty}, HasTys fs tys → ∀ (i : Nat) (m : List Char),
    Filled shown (laterFragments named hint close i fs tys) m ↔
      ∃ texts, Each shown (paramsFrom hint i tys) texts ∧
        m = (List.zipWith (fun f s => c!", " ++ (label named f ++ s)) fs texts).flatten ++ close := by
  intro fs tys h
  induction h with
  | nil =>
    intro i m
    simp only [laterFragments, paramsFrom]
    constructor
    · intro h
      cases h with
      | literal h => cases h; exact ⟨[], .nil, by simp⟩
    · rintro ⟨texts, h, rfl⟩
      cases h
      have := Filled.literal (text := m) (Filled.nil (shown := shown))
      simpa using this
  | @cons f fs ty tys _ _ ih =>
    intro i m
    simp only [laterFragments, paramsFrom]
    constructor
    · intro h
      cases h with
      | literal h =>
        cases h with
        | param h1 h2 =>
          obtain ⟨texts, h3, rfl⟩ := (ih _ _).mp h2
          exact ⟨_ :: texts, .cons h1 h3, by simp⟩
    · rintro ⟨texts, h, rfl⟩
      cases h with
      | @cons _ s _ ss h1 h3 =>
        have := Filled.literal (text := c!", " ++ label named f) (Filled.param h1 ((ih _ _).mpr ⟨_, h3, rfl⟩))
        simpa using this

theorem each_length {α : Type} {shown : α → List Char → Prop} {as : List α} {ss : List (List Char)}
    (h : Each shown as ss) : ss.length = as.length := by
  induction h with
  | nil => rfl
  | cons _ _ ih => simp [ih]

theorem filled_part {shown : Parameter → List Char → Prop} {name : List Char} {fields : Fields} {tys : List Ty}
    (h : HasTys fields.all tys) (m : List Char) :
    Filled shown (partFragments name fields tys) m ↔
      ∃ texts, Each shown (paramsFrom fields.hint 0 tys) texts ∧ m = debugText name fields texts := by
  have unit : ∀ hint, (Filled shown [.literal name] m ↔ ∃ texts, Each shown (paramsFrom hint 0 []) texts ∧ m = name) := by
    intro hint
    constructor
    · intro h
      cases h with
      | literal h => cases h; exact ⟨[], .nil, by simp⟩
    · rintro ⟨_, _, rfl⟩
      have := Filled.literal (text := m) (Filled.nil (shown := shown))
      simpa using this
  match fields, h with
  | .unit, h => cases h; exact unit _
  | .named [], h => cases h; exact unit _
  | .unnamed [], h => cases h; exact unit _
  | .named (f :: fs), h =>
    cases h with
    | @cons _ _ ty tys h0 hs =>
      simp only [partFragments, Fields.hint, paramsFrom]
      have tx : ∀ (fs : List Field) (ss : List (List Char)),
          (List.zipWith (fun f s => c!", " ++ (label true f ++ s)) fs ss) =
          (List.zipWith (fun f s => f ++ c!": " ++ s) (fs.map Field.name) ss).map (fun b => c!", " ++ b) := by
        intro fs
        induction fs with
        | nil => intro ss; simp
        | cons f fs ih => intro ss; cases ss <;> simp_all [label]
      constructor
      · intro h
        cases h with
        | literal h =>
          cases h with
          | param h1 h2 =>
            obtain ⟨texts, h3, rfl⟩ := (filled_later hs _ _).mp h2
            refine ⟨_ :: texts, .cons h1 h3, ?_⟩
            simp only [debugText, List.isEmpty_cons, Bool.false_eq_true, if_false, List.map_cons, List.zipWith_cons_cons]
            rw [separated_cons, ← tx]
            simp [label]
      · rintro ⟨texts, h, rfl⟩
        cases h with
        | @cons _ s _ ss h1 h3 =>
          have := Filled.literal (text := name ++ c!" { " ++ label true f)
            (Filled.param h1 ((filled_later (named := true) (close := c!" }") hs _ _).mpr ⟨_, h3, rfl⟩))
          simp only [debugText, List.isEmpty_cons, Bool.false_eq_true, if_false, List.map_cons, List.zipWith_cons_cons]
          rw [separated_cons, ← tx]
          simpa [label] using this
  | .unnamed (f :: fs), h =>
    cases h with
    | @cons _ _ ty tys h0 hs =>
      simp only [partFragments, Fields.hint, paramsFrom]
      have tx : ∀ (fs : List Field) (ss : List (List Char)), fs.length = ss.length →
          (List.zipWith (fun f s => c!", " ++ (label false f ++ s)) fs ss) = ss.map (fun b => c!", " ++ b) := by
        intro fs
        induction fs with
        | nil => intro ss h; cases ss <;> simp_all
        | cons f fs ih => intro ss h; cases ss <;> simp_all [label]
      have len : ∀ i, (paramsFrom none i tys).length = fs.length := by
        rw [← hasTys_length hs]
        generalize tys = l
        induction l with
        | nil => intro i; rfl
        | cons _ l ih => intro i; simp [paramsFrom, ih]
      constructor
      · intro h
        cases h with
        | literal h =>
          cases h with
          | param h1 h2 =>
            obtain ⟨texts, h3, rfl⟩ := (filled_later hs _ _).mp h2
            refine ⟨_ :: texts, .cons h1 h3, ?_⟩
            simp only [debugText, List.isEmpty_cons, Bool.false_eq_true, if_false]
            rw [separated_cons, tx fs texts (by rw [each_length h3, len])]
            simp [label]
      · rintro ⟨texts, h, rfl⟩
        cases h with
        | @cons _ s _ ss h1 h3 =>
          have := Filled.literal (text := name ++ c!"(" ++ label false f)
            (Filled.param h1 ((filled_later (named := false) (close := c!")") hs _ _).mpr ⟨_, h3, rfl⟩))
          simp only [debugText, List.isEmpty_cons, Bool.false_eq_true, if_false]
          rw [separated_cons, ← tx fs ss (by rw [each_length h3, len])]
          simpa [label] using this

/-- **C70** The text shown for a value of a derived type is the text `#[derive(Debug)]` would produce
on one line: `Name`, `Name(a, b)` or `Name { x: a, y: b }`, where the text of each field is what the
field's argument is shown as with its type; named fields with the hint `:?`, fields of tuples with the
hint of the value. This is all that can be shown. -/
theorem C70_debug_text (env : Env) (d : Def) (hn : d.Named) (s : List Char) (arms : List Arm)
    (he : expand d = some (s, arms)) (i : Nat) (name : List Char) (fields : Fields)
    (hv : d.variant i = some (name, fields)) (part : List Char) (hp : IsPart s d.count i part)
    (as : List Arg) (p : Parameter) (parent : Option Hint) (m : List Char) :
    showArg env (.format part as) p parent = some m ↔
      ∃ tys texts, HasTys fields.all tys ∧
        Each (ShownFor env as (if parent = some .ascii then parent else p.hint <|> parent))
          (paramsFrom fields.hint 0 tys) texts ∧ m = debugText name fields texts := by
  obtain ⟨a, b, c⟩ := hn i name fields hv
  have := isPart_unique hp (isPart_intro hn he hv)
  subst this
  rw [C59_nested]
  constructor
  · rintro ⟨fs, h1, h2⟩
    obtain ⟨tys, ht⟩ := hasTys_exists fields.all
    rw [part_parse .forwardsCompatible ht a c b] at h1
    injection h1 with h1
    subst h1
    obtain ⟨texts, h3, h4⟩ := (filled_part ht m).mp h2
    exact ⟨tys, texts, ht, h3, h4⟩
  · rintro ⟨tys, texts, ht, h3, h4⟩
    exact ⟨_, part_parse .forwardsCompatible ht a c b, (filled_part ht m).mpr ⟨texts, h3, h4⟩⟩

example : showArg demoEnv (.format c!"C({=?}, {=bool})" [.format c!"A" [], .bool true]) ⟨0, .format, none⟩ none =
    some c!"C(A, true)" := by decide +kernel

/-! ### C71 -/

/-- the two wrappers as decoded -/
def wrapped (w : FormatOption) (s : List Char) : Arg :=
  match w with
  | .debug2Format => .format c!"{=__internal_Debug}" [.preformatted s]
  | .display2Format => .format c!"{=__internal_Display}" [.preformatted s]

theorem wrapped_show (env : Env) (o : FormatOption) (s : List Char) (p : Parameter) (parent : Option Hint) :
    showArg env (wrapped o s) p parent =
      some (formatStr env s (if parent = some .ascii then parent else p.hint <|> parent)) := by
  have h1 : parse c!"{=__internal_Debug}" .forwardsCompatible = .ok [.param ⟨0, .debug, none⟩] := by decide +kernel
  have h2 : parse c!"{=__internal_Display}" .forwardsCompatible = .ok [.param ⟨0, .display, none⟩] := by decide +kernel
  cases o <;>
    simp [wrapped, showArg, showArgs, formatArgs, h1, h2, formatFragment, concat]

/-- **C71** (partial) Text formatted on the target through `Debug2Format` or `Display2Format` is shown as it
is, whatever hint the parameter or the surrounding value has, except for the hint `?` (see
`C71_fails`). -/
theorem C71_verbatim_partial (env : Env) (o : FormatOption) (s : List Char) (p : Parameter) (parent : Option Hint)
    (h : p.hint ≠ some .debug) (h' : p.hint = none → parent ≠ some .debug) :
    showArg env (wrapped o s) p parent = some s := by
  rw [wrapped_show]
  unfold formatStr
  rw [if_neg]
  split
  · rename_i e; rw [e]; simp
  · cases hp : p.hint with
    | none => simpa using h' hp
    | some x => rw [hp] at h; simpa using h

/-- **C71** Exactly what is shown: the text is quoted and escaped once more if the hint in force is `?`, that of the parameter
(unless the surrounding value has the hint `a`) or, if it has none, that of the surrounding value; otherwise it is shown as it is. -/
theorem C71_exact (env : Env) (o : FormatOption) (s : List Char) (p : Parameter) (parent : Option Hint) :
    (((p.hint = some .debug ∧ parent ≠ some .ascii) ∨ (p.hint = none ∧ parent = some .debug)) →
      showArg env (wrapped o s) p parent = some (env.debugStr s)) ∧
    (¬ ((p.hint = some .debug ∧ parent ≠ some .ascii) ∨ (p.hint = none ∧ parent = some .debug)) →
      showArg env (wrapped o s) p parent = some s) := by
  rw [wrapped_show]
  unfold formatStr
  constructor
  · rintro (⟨h1, h2⟩ | ⟨h1, rfl⟩)
    · simp [h1, h2]
    · simp [h1]
  · intro h
    rw [if_neg]
    intro hd
    split at hd
    · simp_all
    · cases hp : p.hint with
      | none => rw [hp] at hd; exact h (.inr ⟨hp, by simpa using hd⟩)
      | some x => rw [hp] at hd; rename_i hn; exact h (.inl ⟨by rw [hp]; simpa using hd, hn⟩)

/-- **C71 does not hold** for the hint `?`: the text is quoted and escaped once more. In particular this
is how a named field with `#[defmt(Debug2Format)]` is shown. -/
theorem C71_fails (env : Env) (o : FormatOption) (s : List Char) (i : Nat) (ty : Ty) :
    showArg env (wrapped o s) ⟨i, ty, some .debug⟩ none = some (env.debugStr s) := by
  rw [wrapped_show]
  simp [formatStr]

/-- `S { y: "Foo" }` instead of `S { y: Foo }` -/
example : showArg { demoEnv with debugStr := fun s => '"' :: s ++ ['"'] }
    (.format c!"S {{ y: {=?:?} }}" [wrapped .debug2Format c!"Foo"]) ⟨0, .format, none⟩ none = some c!"S { y: \"Foo\" }" := by
  decide +kernel

end Defmt
