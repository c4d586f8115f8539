import Verif.Spec.Derive
import Verif.Props.RoundTrip
/-! Lemmas about derived implementations. -/

namespace Defmt.Derive

open Parser Decoder Encoder

/-! ### types of fields -/

theorem names_native : ∀ n ∈ nativeNames, ∃ ty ∈ nativeTys, renderTy 0 ty = n := by decide +kernel

theorem native_names : ∀ ty ∈ nativeTys,
    renderTy 0 ty ∈ nativeNames ∧ methodTy (renderTy 0 ty) = some ty ∧ renderTy 0 ty ≠ c!"?" := by decide +kernel

theorem asNative_some {ft : FieldTy} {ty : Ty} (h : IsNative ft ty) : asNativeType ft = some (renderTy 0 ty) := by
  induction h with
  | base h => rw [asNativeType, if_pos (native_names _ h).1]
  | reference _ ih => rw [asNativeType, ih]

theorem native_mem {ft : FieldTy} {ty : Ty} (h : IsNative ft ty) : ty ∈ nativeTys := by
  induction h with
  | base h => exact h
  | reference _ ih => exact ih

theorem asNative_of_some : ∀ {ft : FieldTy} {n : List Char}, asNativeType ft = some n →
    ∃ ty, IsNative ft ty ∧ n = renderTy 0 ty
  | .ident name, n, h => by
    rw [asNativeType] at h
    split at h
    · rename_i hm
      cases h
      obtain ⟨ty, hty, rfl⟩ := names_native _ hm
      exact ⟨ty, .base hty, rfl⟩
    · cases h
  | .reference e, n, h => by
    rw [asNativeType] at h
    obtain ⟨ty, h1, h2⟩ := asNative_of_some h
    exact ⟨ty, .reference h1, h2⟩
  | .other, n, h => by cases h

theorem asNative_none {ft : FieldTy} (h : ∀ ty, ¬ IsNative ft ty) : asNativeType ft = none := by
  cases hn : asNativeType ft with
  | none => rfl
  | some n =>
    obtain ⟨ty, h', _⟩ := asNative_of_some hn
    exact absurd h' (h ty)

theorem native_unique {ft : FieldTy} {ty ty' : Ty} (h : IsNative ft ty) (h' : IsNative ft ty') : ty = ty' := by
  have e := asNative_some h
  rw [asNative_some h'] at e
  have a := (native_names _ (native_mem h)).2.1
  have b := (native_names _ (native_mem h')).2.1
  injection e with e
  rw [← e, b] at a
  exact (Option.some.inj a).symm

theorem hasTy_exists (f : Field) : ∃ ty, HasTy f ty := by
  cases hn : asNativeType f.ty with
  | some n =>
    obtain ⟨ty, h, _⟩ := asNative_of_some hn
    exact ⟨ty, .inl h⟩
  | none =>
    refine ⟨.format, .inr ⟨rfl, fun ty h => ?_⟩⟩
    rw [asNative_some h] at hn
    cases hn

theorem fieldTy_eq {f : Field} {ty : Ty} (h : HasTy f ty) : fieldTy f = renderTy 0 ty := by
  unfold fieldTy
  rcases h with h | ⟨rfl, h⟩
  · rw [asNative_some h]
  · rw [asNative_none h]; rfl

theorem hasTy_mem {f : Field} {ty : Ty} (h : HasTy f ty) : ty ∈ Ty.format :: nativeTys := by
  rcases h with h | ⟨rfl, _⟩
  · exact List.mem_cons_of_mem _ (native_mem h)
  · simp

theorem hasTys_exists : ∀ fs : List Field, ∃ tys, HasTys fs tys
  | [] => ⟨[], .nil⟩
  | f :: fs =>
    let ⟨ty, h⟩ := hasTy_exists f
    let ⟨tys, h'⟩ := hasTys_exists fs
    ⟨ty :: tys, .cons h h'⟩

theorem hasTys_length {fs : List Field} {tys : List Ty} (h : HasTys fs tys) : tys.length = fs.length := by
  induction h with
  | nil => rfl
  | cons _ _ ih => simp [ih]

theorem hasTys_mem {fs : List Field} {tys : List Ty} (h : HasTys fs tys) :
    ∀ ty ∈ tys, ty ∈ Ty.format :: nativeTys := by
  induction h with
  | nil => simp
  | cons h _ ih =>
    intro ty' hm
    rcases List.mem_cons.mp hm with rfl | hm
    · exact hasTy_mem h
    · exact ih _ hm

/-! ### attributes -/

theorem nested_names (o : Option FormatOption) : ∀ l : List FormatOption,
    parseNestedMeta o (l.map FormatOption.name) = some (match l.getLast? with | none => o | some x => some x)
  | [] => rfl
  | x :: l => by
    have ih := nested_names (some x) l
    have e : parseNestedMeta o ((x :: l).map FormatOption.name) = parseNestedMeta (some x) (l.map FormatOption.name) := by
      cases x <;> simp [parseNestedMeta, FormatOption.name]
    rw [e, ih, List.getLast?_cons]
    cases l.getLast? <;> rfl

theorem nested_inv : ∀ (l : List (List Char)) (o : Option FormatOption) (r), parseNestedMeta o l = some r →
    ∃ l' : List FormatOption, l = l'.map FormatOption.name
  | [], _, _, _ => ⟨[], rfl⟩
  | n :: l, o, r, h => by
    rw [parseNestedMeta] at h
    split at h
    · rename_i e
      obtain ⟨l', rfl⟩ := nested_inv l _ _ h
      exact ⟨.debug2Format :: l', by rw [e]; rfl⟩
    · split at h
      · rename_i e
        obtain ⟨l', rfl⟩ := nested_inv l _ _ h
        exact ⟨.display2Format :: l', by rw [e]; rfl⟩
      · cases h

theorem option_asks {f : Field} {o : Option FormatOption} : getFormatOption none f.attrs = some o ↔ Asks f o := by
  constructor
  · intro h
    cases ha : f.attrs with
    | nil => rw [ha] at h; cases h; exact .nothing ha
    | cons a rest =>
      rw [ha, getFormatOption] at h
      simp only [Option.isSome_none, Bool.false_eq_true, if_false] at h
      cases hp : parseNestedMeta none a with
      | none => rw [hp] at h; cases h
      | some r =>
        obtain ⟨l, rfl⟩ := nested_inv _ _ _ hp
        rw [hp] at h
        rw [nested_names] at hp
        injection hp with hp
        subst hp
        rcases List.eq_nil_or_concat l with rfl | ⟨before, x, rfl⟩
        · simp at h
        · simp only [List.concat_eq_append, List.getLast?_append, List.getLast?_singleton, Option.some_or] at h
          cases rest with
          | cons b rest => simp [getFormatOption] at h
          | nil =>
            simp only [getFormatOption, Option.some.injEq] at h
            subst h
            exact .wrapper (before := before) (by rw [ha]; simp)
  · intro h
    cases h with
    | nothing h => rw [h]; rfl
    | @wrapper before x h =>
      rw [h, getFormatOption]
      have := nested_names none (before ++ [x])
      rw [List.map_append] at this
      simp only [List.map_cons, List.map_nil] at this
      simp only [Option.isSome_none, Bool.false_eq_true, if_false]
      rw [this]
      simp [getFormatOption]

theorem asks_unique {f : Field} {o o' : Option FormatOption} (h : Asks f o) (h' : Asks f o') : o = o' := by
  have a := option_asks.mpr h
  rw [option_asks.mpr h'] at a
  exact (Option.some.inj a).symm

theorem stmt_some {f : Field} : (∃ s, fieldStmt f = some s) ↔ ∃ o, Asks f o := by
  constructor
  · rintro ⟨s, h⟩
    cases ho : getFormatOption none f.attrs with
    | none => unfold fieldStmt at h; rw [ho] at h; cases h
    | some o => exact ⟨o, option_asks.mp ho⟩
  · rintro ⟨o, h⟩
    unfold fieldStmt
    rw [option_asks.mpr h]
    match o with
    | none => simp only; split <;> exact ⟨_, rfl⟩
    | some .debug2Format => exact ⟨_, rfl⟩
    | some .display2Format => exact ⟨_, rfl⟩

/-! ### the format string -/

/-- text of the fields after the first -/
def laterText (named : Bool) : List Field → List Char
  | [] => []
  | f :: fs => c!", " ++ fieldText named f ++ laterText named fs

theorem fieldLoop_eq (named : Bool) : ∀ (fs : List Field),
    fieldLoop named false fs = (allSome (fs.map fieldStmt)).map (fun ss => (laterText named fs, ss))
  | [] => rfl
  | f :: fs => by
    rw [fieldLoop, fieldLoop_eq named fs, List.map_cons]
    cases fieldStmt f with
    | none => rfl
    | some s =>
      rw [allSome]
      cases allSome (fs.map fieldStmt) with
      | none => rfl
      | some ss => simp [laterText]

theorem fieldLoop_first (named : Bool) (f : Field) (fs : List Field) :
    fieldLoop named true (f :: fs) =
      (allSome ((f :: fs).map fieldStmt)).map (fun ss => (fieldText named f ++ laterText named fs, ss)) := by
  rw [fieldLoop, fieldLoop_eq named fs, List.map_cons]
  cases fieldStmt f with
  | none => rfl
  | some s =>
    rw [allSome]
    cases allSome (fs.map fieldStmt) with
    | none => rfl
    | some ss => simp

/-- what `codegen` pushes -/
def fieldsText : Fields → List Char
  | .unit | .named [] | .unnamed [] => []
  | .named (f :: fs) => c!" {{ " ++ (fieldText true f ++ laterText true fs) ++ c!" }}"
  | .unnamed (f :: fs) => c!"(" ++ (fieldText false f ++ laterText false fs) ++ c!")"

theorem codegen_eq (fields : Fields) :
    codegen fields = (allSome (fields.all.map fieldStmt)).map (fun ss => (fieldsText fields, ss)) := by
  match fields with
  | .unit => rfl
  | .named [] => rfl
  | .unnamed [] => rfl
  | .named (f :: fs) =>
    rw [codegen, fieldLoop_first]
    · simp only [Fields.all, Option.map_map, Function.comp_def, fieldsText]
    · simp
  | .unnamed (f :: fs) =>
    rw [codegen, fieldLoop_first]
    · simp only [Fields.all, Option.map_map, Function.comp_def, fieldsText]
    · simp

theorem allSome_isSome {α : Type} : ∀ {l : List (Option α)}, (∃ r, allSome l = some r) ↔ ∀ o ∈ l, ∃ a, o = some a
  | [] => by simp [allSome]
  | none :: l => by simp [allSome]
  | some a :: l => by
    rw [allSome]
    have := allSome_isSome (l := l)
    simp only [List.mem_cons, forall_eq_or_imp, Option.some.injEq, exists_eq', true_and]
    rw [← this]
    cases allSome l <;> simp

theorem codegen_some {fields : Fields} : (∃ r, codegen fields = some r) ↔ ∀ f ∈ fields.all, ∃ o, Asks f o := by
  rw [codegen_eq]
  have : (∃ r, (allSome (fields.all.map fieldStmt)).map (fun ss => (fieldsText fields, ss)) = some r) ↔
      ∃ r, allSome (fields.all.map fieldStmt) = some r := by
    cases allSome (fields.all.map fieldStmt) <;> simp
  rw [this, allSome_isSome]
  simp only [List.mem_map, forall_exists_index, and_imp, forall_apply_eq_imp_iff₂]
  exact forall_congr' fun f => imp_congr_right fun _ => stmt_some

/-! ### parsing the part of a variant -/

def fieldItem (hint : Option Hint) (ty : Ty) : Item := .param ⟨none, some ty, 0, hint⟩

/-- what is written before the parameter -/
def label (named : Bool) (f : Field) : List Char := if named then f.name ++ c!": " else []

def laterItems (named : Bool) (hint : Option Hint) (close : List Char) : List Field → List Ty → List Item
  | f :: fs, ty :: tys => .text (c!", " ++ label named f) :: fieldItem hint ty :: laterItems named hint close fs tys
  | _, _ => [.text close]

/-- the part of a variant as text and parameters -/
def partItems (name : List Char) : Fields → List Ty → List Item
  | .named (f :: fs), ty :: tys =>
    .text (name ++ c!" { " ++ label true f) :: fieldItem (some .debug) ty :: laterItems true (some .debug) c!" }" fs tys
  | .unnamed (f :: fs), ty :: tys =>
    .text (name ++ c!"(" ++ label false f) :: fieldItem none ty :: laterItems false none c!")" fs tys
  | _, _ => [.text name]

theorem escape_append (a b : List Char) : escape (a ++ b) = escape a ++ escape b := by
  induction a with
  | nil => rfl
  | cons c a ih =>
    rw [List.cons_append, escape, escape, ih]
    split <;> simp

theorem escape_plain {a : List Char} (h : ∀ c ∈ a, c ≠ '{' ∧ c ≠ '}') : escape a = a := by
  induction a with
  | nil => rfl
  | cons c a ih =>
    have := h c (by simp)
    rw [escape, if_neg (by simp [this]), ih (fun c hc => h c (by simp [hc]))]

theorem escape_ident {a : List Char} (h : IsIdent a) : escape a = a :=
  escape_plain fun c hc => ⟨(h.2 c hc).1, (h.2 c hc).2.1⟩

theorem fieldText_eq {named : Bool} {f : Field} {ty : Ty} (h : HasTy f ty) (hn : named = true → IsIdent f.name) :
    fieldText named f = escape (label named f) ++
      ('{' :: Written.text ⟨none, some ty, 0, if named then some .debug else none⟩ ++ ['}']) := by
  unfold fieldText label
  rw [fieldTy_eq h]
  cases named with
  | false => simp [Written.text, indexPart, typePart, hintPart, escape]
  | true =>
    simp only [if_true]
    rw [escape_append, escape_ident (hn rfl)]
    simp [Written.text, indexPart, typePart, hintPart, escape, renderHint]

theorem later_render {named : Bool} {close : List Char} : ∀ {fs : List Field} {tys : List Ty}, HasTys fs tys →
    (named = true → ∀ f ∈ fs, IsIdent f.name) →
    render (laterItems named (if named then some .debug else none) close fs tys) = laterText named fs ++ escape close := by
  intro fs tys h hn
  induction h with
  | nil => simp [laterItems, laterText, render]
  | @cons f fs ty tys h hs ih =>
    rw [laterItems, laterText, fieldText_eq h (fun e => hn e f (by simp)), fieldItem, render, render,
      ih (fun e f hf => hn e f (by simp [hf])), escape_append]
    simp [escape]

theorem part_render {name : List Char} {fields : Fields} {tys : List Ty} (h : HasTys fields.all tys)
    (hi : IsIdent name) (hn : ∀ fs, fields = .named fs → ∀ f ∈ fs, IsIdent f.name) :
    render (partItems name fields tys) = name ++ fieldsText fields := by
  match fields, h with
  | .unit, h => cases h; simp [partItems, fieldsText, render, escape_ident hi]
  | .named [], h => cases h; simp [partItems, fieldsText, render, escape_ident hi]
  | .unnamed [], h => cases h; simp [partItems, fieldsText, render, escape_ident hi]
  | .named (f :: fs), h =>
    cases h with
    | @cons _ _ ty tys h0 hs =>
      have hn := hn _ rfl
      rw [partItems, fieldsText, fieldText_eq (named := true) h0 (fun _ => hn f (by simp)), fieldItem, render, render]
      have hl := later_render (named := true) (close := c!" }") hs (fun _ f hf => hn f (by simp [hf]))
      simp only [if_true] at hl ⊢
      rw [hl, escape_append, escape_append, escape_ident hi]
      simp [escape]
  | .unnamed (f :: fs), h =>
    cases h with
    | @cons _ _ ty tys h0 hs =>
      rw [partItems, fieldsText, fieldText_eq (named := false) h0 (by simp), fieldItem, render, render]
      have hl := later_render (named := false) (close := c!")") hs (by simp)
      simp only [Bool.false_eq_true, if_false] at hl ⊢
      rw [hl, escape_append, escape_append, escape_ident hi]
      simp [escape]

/-- the fragments of the part of a variant -/
def laterFragments (named : Bool) (hint : Option Hint) (close : List Char) : Nat → List Field → List Ty → List Fragment
  | i, f :: fs, ty :: tys => .literal (c!", " ++ label named f) :: .param ⟨i, ty, hint⟩ ::
      laterFragments named hint close (i + 1) fs tys
  | _, _, _ => [.literal close]

def partFragments (name : List Char) : Fields → List Ty → List Fragment
  | .named (f :: fs), ty :: tys =>
    .literal (name ++ c!" { " ++ label true f) :: .param ⟨0, ty, some .debug⟩ ::
      laterFragments true (some .debug) c!" }" 1 fs tys
  | .unnamed (f :: fs), ty :: tys =>
    .literal (name ++ c!"(" ++ label false f) :: .param ⟨0, ty, none⟩ :: laterFragments false none c!")" 1 fs tys
  | _, _ => [.literal name]

theorem later_meaning {named hint close} : ∀ (fs : List Field) (tys : List Ty) (i : Nat),
    meaning i (laterItems named hint close fs tys) = laterFragments named hint close i fs tys
  | [], _, i => by simp [laterItems, laterFragments, meaning]
  | f :: fs, [], i => by simp [laterItems, laterFragments, meaning]
  | f :: fs, ty :: tys, i => by
    simp [laterItems, laterFragments, meaning, fieldItem, later_meaning fs tys (i + 1), Written.type]

theorem part_meaning (name : List Char) (fields : Fields) (tys : List Ty) :
    meaning 0 (partItems name fields tys) = partFragments name fields tys := by
  unfold partItems partFragments
  split <;> simp [meaning, fieldItem, later_meaning, Written.type]

theorem later_params {named hint close} : ∀ {fs : List Field} {tys : List Ty}, HasTys fs tys → ∀ i,
    params (laterFragments named hint close i fs tys) = paramsFrom hint i tys := by
  intro fs tys h
  induction h with
  | nil => intro i; rfl
  | cons _ _ ih => intro i; simp [laterFragments, params, paramsFrom, ih]

theorem part_params {name : List Char} {fields : Fields} {tys : List Ty} (h : HasTys fields.all tys) :
    params (partFragments name fields tys) = paramsFrom fields.hint 0 tys := by
  match fields, h with
  | .unit, h => cases h; rfl
  | .named [], h => cases h; rfl
  | .unnamed [], h => cases h; rfl
  | .named (f :: fs), h => cases h with | cons h hs => simp [partFragments, params, paramsFrom, later_params hs, Fields.hint]
  | .unnamed (f :: fs), h => cases h with | cons h hs => simp [partFragments, params, paramsFrom, later_params hs, Fields.hint]

theorem paramsFrom_mem {hint : Option Hint} : ∀ {tys : List Ty} {i : Nat} {p : Parameter},
    p ∈ paramsFrom hint i tys ↔ i ≤ p.index ∧ tys[p.index - i]? = some p.ty ∧ p.hint = hint
  | [], i, p => by simp [paramsFrom]
  | ty :: tys, i, p => by
    rw [paramsFrom, List.mem_cons, paramsFrom_mem (tys := tys)]
    obtain ⟨ix, pt, ph⟩ := p
    simp only [Parameter.mk.injEq]
    constructor
    · rintro (⟨rfl, rfl, rfl⟩ | ⟨h1, h2, h3⟩)
      · simp
      · refine ⟨by omega, ?_, h3⟩
        rw [show ix - i = (ix - (i + 1)) + 1 by omega, List.getElem?_cons_succ]; exact h2
    · rintro ⟨h1, h2, h3⟩
      by_cases e : ix = i
      · subst e; simp at h2; exact .inl ⟨rfl, h2.symm, h3⟩
      · refine .inr ⟨by omega, ?_, h3⟩
        rw [show ix - i = (ix - (i + 1)) + 1 by omega, List.getElem?_cons_succ] at h2; exact h2

theorem paramsFrom_dense (hint : Option Hint) (tys : List Ty) : Dense (paramsFrom hint 0 tys) tys.length := by
  constructor
  · intro p hp
    have := (paramsFrom_mem.mp hp).2.1
    exact (List.getElem?_eq_some_iff.mp this).1
  · intro i hi
    exact ⟨⟨i, tys[i], hint⟩, paramsFrom_mem.mpr ⟨by simp, by simp [hi], rfl⟩, rfl⟩

theorem paramsFrom_consistent (hint : Option Hint) (tys : List Ty) : Consistent (paramsFrom hint 0 tys) := by
  intro p hp q hq e
  have a := (paramsFrom_mem.mp hp).2.1
  have b := (paramsFrom_mem.mp hq).2.1
  rw [e, b] at a
  exact .inl (Option.some.inj a).symm

theorem native_valid : ∀ ty ∈ Ty.format :: nativeTys, ty.Valid ∧ ty ≠ .formatSequence ∧ ∀ s e, ty ≠ .bitField s e := by
  intro ty h
  simp only [nativeTys, List.mem_cons, List.not_mem_nil, or_false] at h
  rcases h with rfl | rfl | rfl | rfl | rfl | rfl | rfl | rfl | rfl | rfl | rfl | rfl | rfl | rfl | rfl | rfl | rfl <;>
    simp [Ty.Valid]

theorem later_valid {m named hint close} (hh : ∀ h ∈ hint, Hint.Valid m h) (hc : close ≠ []) :
    ∀ {fs : List Field} {tys : List Ty}, HasTys fs tys →
    ItemsValid m (laterItems named hint close fs tys) := by
  intro fs tys h
  induction h with
  | nil => simp [laterItems, ItemsValid, hc]
  | @cons f fs ty tys h _ ih =>
    rw [laterItems, ItemsValid]
    refine ⟨by simp, by simp [fieldItem], ?_⟩
    rw [fieldItem, ItemsValid]
    exact ⟨⟨by simp, by simpa using (native_valid ty (hasTy_mem h)).1, hh⟩, ih⟩

theorem part_valid {m : Mode} {name : List Char} {fields : Fields} {tys : List Ty} (h : HasTys fields.all tys)
    (hi : IsIdent name) : ItemsValid m (partItems name fields tys) := by
  match fields, h with
  | .unit, h => cases h; simp [partItems, ItemsValid, hi.1]
  | .named [], h => cases h; simp [partItems, ItemsValid, hi.1]
  | .unnamed [], h => cases h; simp [partItems, ItemsValid, hi.1]
  | .named (f :: fs), h =>
    cases h with
    | @cons _ _ ty tys h0 hs =>
      rw [partItems, ItemsValid]
      refine ⟨by simp, by simp [fieldItem], ?_⟩
      rw [fieldItem, ItemsValid]
      exact ⟨⟨by simp, by simpa using (native_valid ty (hasTy_mem h0)).1, by simp [Hint.Valid]⟩,
        later_valid (by simp [Hint.Valid]) (by simp) hs⟩
  | .unnamed (f :: fs), h =>
    cases h with
    | @cons _ _ ty tys h0 hs =>
      rw [partItems, ItemsValid]
      refine ⟨by simp, by simp [fieldItem], ?_⟩
      rw [fieldItem, ItemsValid]
      exact ⟨⟨by simp, by simpa using (native_valid ty (hasTy_mem h0)).1, by simp⟩,
        later_valid (by simp) (by simp) hs⟩

theorem part_parse (m : Mode) {name : List Char} {fields : Fields} {tys : List Ty} (h : HasTys fields.all tys)
    (hi : IsIdent name) (hn : ∀ fs, fields = .named fs → ∀ f ∈ fs, IsIdent f.name)
    (hl : fields.all.length ≤ maxArgs) :
    parse (name ++ fieldsText fields) m = .ok (partFragments name fields tys) := by
  have := C18_write_then_parse m (partItems name fields tys) tys.length (part_valid h hi)
    (by rw [part_meaning, part_params h]; exact paramsFrom_dense _ _)
    (by rw [part_meaning, part_params h]; exact paramsFrom_consistent _ _)
    (by rw [hasTys_length h]; exact hl)
  rw [part_render h hi hn, part_meaning] at this
  exact this

theorem part_argTypes {name : List Char} {fields : Fields} {tys : List Ty} (h : HasTys fields.all tys)
    (hi : IsIdent name) (hn : ∀ fs, fields = .named fs → ∀ f ∈ fs, IsIdent f.name)
    (hl : fields.all.length ≤ maxArgs) :
    argTypes (name ++ fieldsText fields) tys.length = some tys := by
  unfold argTypes
  rw [part_parse .strict h hi hn hl]
  simp only
  rw [part_params h, expectedArgs_dense (paramsFrom_dense _ _), if_neg (by simp)]
  have : (List.range tys.length).map (argType (paramsFrom fields.hint 0 tys)) = tys.map some := by
    apply List.ext_getElem?
    intro i
    by_cases hlt : i < tys.length
    · simp only [List.getElem?_map, List.getElem?_range hlt, Option.map_some, List.getElem?_eq_getElem hlt, Option.some.injEq]
      unfold argType
      cases hf : (paramsFrom fields.hint 0 tys).find? (fun p => p.index = i) with
      | none =>
        rw [List.find?_eq_none] at hf
        have := hf ⟨i, tys[i], fields.hint⟩ (paramsFrom_mem.mpr ⟨by simp, by simp [hlt], rfl⟩)
        simp at this
      | some p =>
        have hp := List.mem_of_find?_eq_some hf
        have hpi : p.index = i := by simpa using List.find?_some hf
        have hty := (paramsFrom_mem.mp hp).2.1
        rw [hpi] at hty
        simp only [Nat.sub_zero, List.getElem?_eq_getElem hlt, Option.some.injEq] at hty
        have hv := native_valid tys[i] (hasTys_mem h _ (List.getElem_mem hlt))
        rw [hty] at hv ⊢
        simp only
        split
        · rename_i s e he; exact absurd he (hv.2.2 s e)
        · rename_i he; exact absurd he hv.2.1
        · rfl
    · simp only [List.getElem?_map]
      rw [List.getElem?_eq_none (by simpa using hlt), List.getElem?_eq_none (by omega)]; rfl
  rw [this]
  clear this
  generalize tys = l
  induction l with
  | nil => rfl
  | cons a l ih => rw [List.map_cons, allSome, ih]; rfl

/-! ### the whole string -/

theorem loop_eq (n : Nat) : ∀ (vs : List Variant) (i : Nat) (r : List Char × List Arm),
    variantLoop n i false vs = some r →
      r.1 = (vs.map (fun v => '|' :: (v.name ++ fieldsText v.fields))).flatten ∧ r.2.length = vs.length ∧
      ∀ j v, vs[j]? = some v → ∃ arm, r.2[j]? = some arm ∧ allSome (v.fields.all.map fieldStmt) = some arm.stmts ∧
        discriminantStmt n (i + j) = some arm.discriminant
  | [], i, r, h => by cases h; simp
  | v :: vs, i, r, h => by
    rw [variantLoop, codegen_eq] at h
    cases hc : allSome (v.fields.all.map fieldStmt) with
    | none => rw [hc] at h; cases h
    | some stmts =>
      cases hd : discriminantStmt n i with
      | none => rw [hc, hd] at h; cases h
      | some d =>
        cases hr : variantLoop n (i + 1) false vs with
        | none => rw [hc, hd, hr] at h; cases h
        | some r' =>
          rw [hc, hd, hr] at h
          simp only [Option.map_some, Bool.false_eq_true, if_false, Option.some.injEq] at h
          obtain ⟨h1, h2, h3⟩ := loop_eq n vs (i + 1) r' hr
          subst h
          refine ⟨by simp [h1], by simp [h2], ?_⟩
          intro j v' hj
          cases j with
          | zero => simp at hj; subst hj; exact ⟨_, rfl, hc, by simpa using hd⟩
          | succ j =>
            simp only [List.getElem?_cons_succ] at hj ⊢
            obtain ⟨arm, a, b, c⟩ := h3 j v' hj
            exact ⟨arm, a, b, by rw [← c]; congr 1; omega⟩

theorem join_eq (p : List Char) (ps : List (List Char)) :
    joinVariants (p :: ps) = p ++ (ps.map (fun q => '|' :: q)).flatten := by
  induction ps generalizing p with
  | nil => simp [joinVariants]
  | cons q ps ih => rw [joinVariants, ih]; simp

theorem loop_first {n : Nat} {v : Variant} {vs : List Variant} {r : List Char × List Arm}
    (h : variantLoop n 0 true (v :: vs) = some r) :
      r.1 = joinVariants ((v :: vs).map (fun v => v.name ++ fieldsText v.fields)) ∧
      ∀ j v', (v :: vs)[j]? = some v' → ∃ arm, r.2[j]? = some arm ∧
        allSome (v'.fields.all.map fieldStmt) = some arm.stmts ∧
        discriminantStmt n j = some arm.discriminant := by
  rw [variantLoop, codegen_eq] at h
  cases hc : allSome (v.fields.all.map fieldStmt) with
  | none => rw [hc] at h; cases h
  | some stmts =>
    cases hd : discriminantStmt n 0 with
    | none => rw [hc, hd] at h; cases h
    | some d =>
      cases hr : variantLoop n 1 false vs with
      | none => rw [hc, hd] at h; simp only [Nat.zero_add] at h; rw [hr] at h; cases h
      | some r' =>
        rw [hc, hd] at h
        simp only [Nat.zero_add, hr, Option.map_some, if_true, Option.some.injEq] at h
        obtain ⟨h1, h2, h3⟩ := loop_eq n vs 1 r' hr
        subst h
        refine ⟨?_, ?_⟩
        · rw [List.map_cons, join_eq, h1]; simp [Function.comp_def]
        · intro j v' hj
          cases j with
          | zero => simp at hj; subst hj; exact ⟨_, rfl, hc, by simpa using hd⟩
          | succ j =>
            simp only [List.getElem?_cons_succ] at hj ⊢
            obtain ⟨arm, a, b, c⟩ := h3 j v' hj
            exact ⟨arm, a, b, by rw [← c]; congr 1; omega⟩

/-- the parts of the format string, one for each variant -/
def parts : Def → List (List Char)
  | .struct name fields => [name ++ fieldsText fields]
  | .enum variants => variants.map (fun v => v.name ++ fieldsText v.fields)

theorem expand_spec {d : Def} {s : List Char} {arms : List Arm} (h : expand d = some (s, arms)) (h0 : d.count ≠ 0) :
    s = joinVariants (parts d) ∧ ∀ j name fields, d.variant j = some (name, fields) →
      (parts d)[j]? = some (name ++ fieldsText fields) ∧ ∃ arm, arms[j]? = some arm ∧
        allSome (fields.all.map fieldStmt) = some arm.stmts ∧ discriminantStmt d.count j = some arm.discriminant := by
  match d, h0 with
  | .struct name fields, _ =>
    rw [expand, codegen_eq] at h
    cases hc : allSome (fields.all.map fieldStmt) with
    | none => rw [hc] at h; cases h
    | some ss =>
      rw [hc] at h
      simp only [Option.map_some, Option.some.injEq, Prod.mk.injEq] at h
      obtain ⟨rfl, rfl⟩ := h
      refine ⟨by simp [parts, joinVariants], ?_⟩
      intro j n f hj
      match j, hj with
      | 0, hj => cases hj; exact ⟨rfl, _, rfl, hc, rfl⟩
  | .enum [], h0 => exact absurd rfl h0
  | .enum (v :: vs), _ =>
    obtain ⟨h1, h2⟩ := loop_first (show variantLoop (v :: vs).length 0 true (v :: vs) = some (s, arms) from h)
    refine ⟨h1, ?_⟩
    intro j name fields hj
    rw [Def.variant, Option.map_eq_some_iff] at hj
    obtain ⟨v', hv, e⟩ := hj
    cases e
    refine ⟨by simp only [parts, List.getElem?_map, hv, Option.map_some], h2 j v' hv⟩

theorem text_noBar {named : Bool} {f : Field} (hn : named = true → IsIdent f.name) : '|' ∉ fieldText named f := by
  obtain ⟨ty, hty⟩ := hasTy_exists f
  unfold fieldText
  rw [fieldTy_eq hty]
  have hm : '|' ∉ renderTy 0 ty := by
    have : ∀ ty ∈ Ty.format :: nativeTys, '|' ∉ renderTy 0 ty := by decide +kernel
    exact this ty (hasTy_mem hty)
  cases named with
  | false => simp [hm]
  | true =>
    have : '|' ∉ f.name := fun h => ((hn rfl).2 _ h).2.2 rfl
    simp [hm, this]

theorem later_noBar {named : Bool} : ∀ {fs : List Field}, (named = true → ∀ f ∈ fs, IsIdent f.name) →
    '|' ∉ laterText named fs
  | [], _ => by simp [laterText]
  | f :: fs, h => by
    have a := text_noBar (named := named) (f := f) (fun e => h e f (by simp))
    have b := later_noBar (named := named) (fs := fs) (fun e f hf => h e f (by simp [hf]))
    simp [laterText, a, b]

theorem part_noBar {name : List Char} {fields : Fields} (hi : IsIdent name)
    (hn : ∀ fs, fields = .named fs → ∀ f ∈ fs, IsIdent f.name) : '|' ∉ name ++ fieldsText fields := by
  have h0 : '|' ∉ name := fun h => (hi.2 _ h).2.2 rfl
  match fields with
  | .unit => simp [fieldsText, h0]
  | .named [] => simp [fieldsText, h0]
  | .unnamed [] => simp [fieldsText, h0]
  | .named (f :: fs) =>
    have hn := hn _ rfl
    simp [fieldsText, h0, text_noBar (named := true) (fun _ => hn f (by simp)),
      later_noBar (named := true) (fs := fs) (fun _ f hf => hn f (by simp [hf]))]
  | .unnamed (f :: fs) =>
    simp [fieldsText, h0, text_noBar (named := false) (f := f) (by simp),
      later_noBar (named := false) (fs := fs) (by simp)]

/-! ### running the statements -/

/-- the value a statement passes to its export function -/
def argOf (w : Wrappers) : Option FormatOption → FieldVal → Val
  | none, x => x.val
  | some .debug2Format, x => debug2Format w x
  | some .display2Format, x => display2Format w x

theorem debug_types : argTypes c!"{=__internal_Debug}" 1 = some [.debug] := by decide +kernel
theorem display_types : argTypes c!"{=__internal_Display}" 1 = some [.display] := by decide +kernel

theorem encode_native {ty : Ty} (h : ty ∈ nativeTys) (v : Val) (d d' : Option (List UInt8)) :
    encodeArg ty v d = encodeArg ty v d' := by
  simp only [nativeTys, List.mem_cons, List.not_mem_nil, or_false] at h
  rcases h with rfl | rfl | rfl | rfl | rfl | rfl | rfl | rfl | rfl | rfl | rfl | rfl | rfl | rfl | rfl | rfl <;>
    (unfold encodeArg; split <;> first | rfl | simp_all)

/-- A statement of a field that is not a wrapped native one writes what the log macros write for a
parameter of the field's type. -/
theorem run_eq {w : Wrappers} {f : Field} {ty : Ty} {s : Stmt} {o : Option FormatOption} (hty : HasTy f ty) (hs : fieldStmt f = some s)
    (ho : Asks f o) (hw : o = none ∨ ∀ ty, ¬ IsNative f.ty ty) (x : FieldVal) :
    runStmt w s x = encodeArg ty (argOf w o x) (formatData (argOf w o x)) := by
  unfold fieldStmt at hs
  rw [option_asks.mpr ho] at hs
  match o with
  | some .debug2Format =>
    cases hs
    rcases hw with hw | hw
    · cases hw
    · rcases hty with h | ⟨rfl, _⟩
      · exact absurd h (hw _)
      · rfl
  | some .display2Format =>
    cases hs
    rcases hw with hw | hw
    · cases hw
    · rcases hty with h | ⟨rfl, _⟩
      · exact absurd h (hw _)
      · rfl
  | none =>
    simp only [fieldTy_eq hty] at hs
    rcases hty with h | ⟨rfl, h⟩
    · have hm := native_mem h
      rw [if_neg (native_names _ hm).2.2] at hs
      cases hs
      rw [runStmt, (native_names _ hm).2.1]
      exact encode_native hm _ _ _
    · rw [if_pos (by rfl)] at hs
      cases hs
      rfl

theorem fieldOk_arg {t : Table} {w : Wrappers} {f : Field} {x : FieldVal} {a : Arg} (h : FieldOk t w f x a) :
    ∃ o ty, Asks f o ∧ HasTy f ty ∧ (o = none ∨ ∀ ty, ¬ IsNative f.ty ty) ∧
      ArgOk t ty (argOf w o x) (ValOk t (argOf w o x)) ∧ a = denoteArg ty (argOf w o x) (denote (argOf w o x)) := by
  cases h with
  | native h1 h2 h3 => exact ⟨none, _, h1, .inl h2, .inl rfl, h3, rfl⟩
  | format h1 h2 h3 =>
    refine ⟨none, .format, h1, .inr ⟨rfl, h2⟩, .inl rfl, h3, ?_⟩
    obtain ⟨_, tag, s, ⟨ht, _⟩, _⟩ := h3
    show denote x.val = denoteArg .format x.val (denote x.val)
    cases hv : x.val <;> rw [hv] at ht <;> first | rfl | cases ht
  | debug h1 h2 h3 =>
    refine ⟨_, .format, h1, .inr ⟨rfl, h2⟩, .inr h2, ⟨?_, _, _, ⟨rfl, rfl⟩, h3⟩, ?_⟩
    · show ValOk t (.formatted w.debugTag c!"{=__internal_Debug}" [.text x.debug])
      rw [ValOk]
      refine ⟨by decide, [.debug], debug_types, ?_⟩
      rw [ArgsOk, ArgsOk]
      exact ⟨trivial, trivial⟩
    · simp only [argOf, debug2Format, denoteArg, denote, List.length_singleton, debug_types, denoteArgs]
  | display h1 h2 h3 =>
    refine ⟨_, .format, h1, .inr ⟨rfl, h2⟩, .inr h2, ⟨?_, _, _, ⟨rfl, rfl⟩, h3⟩, ?_⟩
    · show ValOk t (.formatted w.displayTag c!"{=__internal_Display}" [.text x.display])
      rw [ValOk]
      refine ⟨by decide, [.display], display_types, ?_⟩
      rw [ArgsOk, ArgsOk]
      exact ⟨trivial, trivial⟩
    · simp only [argOf, display2Format, denoteArg, denote, List.length_singleton, display_types, denoteArgs]

theorem fieldsOk_args {t : Table} {w : Wrappers} {fs : List Field} {xs : List FieldVal} {as : List Arg}
    (h : FieldsOk t w fs xs as) :
    ∃ (tys : List Ty) (vs : List Val) (stmts : List Stmt), HasTys fs tys ∧ allSome (fs.map fieldStmt) = some stmts ∧
      runStmts w stmts xs = encodeArgs tys vs ∧ ArgsOk t tys vs ∧ as = denoteArgs tys vs ∧ vs.length = tys.length := by
  induction h with
  | nil => exact ⟨[], [], [], .nil, rfl, by rw [runStmts, encodeArgs], by rw [ArgsOk]; trivial, rfl, rfl⟩
  | @cons f fs x xs a as h _ ih =>
    obtain ⟨tys, vs, stmts, h1, h2, h3, h4, rfl, h6⟩ := ih
    obtain ⟨o, ty, a1, a2, a3, a4, rfl⟩ := fieldOk_arg h
    obtain ⟨s, hs⟩ := stmt_some.mpr ⟨o, a1⟩
    refine ⟨ty :: tys, argOf w o x :: vs, s :: stmts, .cons a2 h1, ?_, ?_, by rw [ArgsOk]; exact ⟨a4, h4⟩, rfl, by simp [h6]⟩
    · rw [List.map_cons, hs, allSome, h2]; rfl
    · rw [runStmts, encodeArgs, h3, run_eq a2 hs a1 a3 x]
      cases encodeArg ty (argOf w o x) (formatData (argOf w o x)) with
      | none => rfl
      | some _ => cases encodeArgs tys vs <;> rfl

end Defmt.Derive
