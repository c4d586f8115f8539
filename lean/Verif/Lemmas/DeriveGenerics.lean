import Verif.Spec.DeriveGenerics
import Verif.Lemmas.Derive
/-! # Lemmas about the where clause of `#[derive(Format)]` -/

namespace Defmt.Derive

open Parser Decoder Encoder

theorem builtins_eq : nativeNames = builtins := rfl

theorem native_iff {n : List Char} : ∀ {ty : RTy}, asNativeType ty.toFieldTy = some n ↔ n ∈ builtins ∧ RefTo n ty
  | .name m => by
    rw [RTy.toFieldTy, asNativeType, builtins_eq]
    constructor
    · intro h
      split at h
      · rename_i hm
        cases h
        exact ⟨hm, .base⟩
      · cases h
    · rintro ⟨h, h'⟩
      cases h'
      rw [if_pos h]
  | .app f a => by
    rw [RTy.toFieldTy, asNativeType]
    exact ⟨(by intro h; cases h), (by rintro ⟨_, h⟩; cases h)⟩
  | .ref t => by
    rw [RTy.toFieldTy, asNativeType, native_iff (ty := t)]
    exact ⟨fun h => ⟨h.1, .ref h.2⟩, (by rintro ⟨h, h'⟩; cases h'; exact ⟨h, by assumption⟩)⟩

theorem predicate_iff {f : GField} {p : Pred} : fieldPredicate f = some (some p) ↔
    p.1 = f.ty ∧ Needs f p.2 ∧ ¬ ∃ n ∈ builtins, RefTo n f.ty := by
  obtain ⟨ty, b⟩ := p
  constructor
  · intro h
    rw [fieldPredicate] at h
    cases ho : getFormatOption none f.attrs with
    | none => rw [ho] at h; cases h
    | some o =>
      have hask : Asks f.toField o := option_asks.mp ho
      cases hn : asNativeType f.ty.toFieldTy with
      | some n => rw [ho, hn] at h; cases h
      | none =>
        have hnn : ¬ ∃ n ∈ builtins, RefTo n f.ty := by
          rintro ⟨n, h1, h2⟩
          rw [native_iff.mpr ⟨h1, h2⟩] at hn
          cases hn
        rw [ho, hn] at h
        match o with
        | none => cases h; exact ⟨rfl, .format hask, hnn⟩
        | some .debug2Format => cases h; exact ⟨rfl, .debug hask, hnn⟩
        | some .display2Format => cases h; exact ⟨rfl, .display hask, hnn⟩
  · rintro ⟨rfl, h, hnn⟩
    have hn : asNativeType f.ty.toFieldTy = none := by
      cases hn : asNativeType f.ty.toFieldTy with
      | none => rfl
      | some n => exact absurd ⟨n, native_iff.mp hn⟩ hnn
    cases h with
    | format h => rw [fieldPredicate, show f.attrs = f.toField.attrs from rfl, option_asks.mpr h, hn]
    | debug h => rw [fieldPredicate, show f.attrs = f.toField.attrs from rfl, option_asks.mpr h, hn]
    | display h => rw [fieldPredicate, show f.attrs = f.toField.attrs from rfl, option_asks.mpr h, hn]

theorem fieldPredicates_mem : ∀ {fs : List GField} {ps : List Pred}, fieldPredicates fs = some ps →
    ∀ p, p ∈ ps ↔ ∃ f ∈ fs, fieldPredicate f = some (some p)
  | [], _, h, p => by cases h; simp
  | f :: fs, ps, h, p => by
    rw [fieldPredicates] at h
    cases hf : fieldPredicate f with
    | none => rw [hf] at h; cases h
    | some q =>
      cases hr : fieldPredicates fs with
      | none => rw [hf, hr] at h; cases q <;> cases h
      | some qs =>
        have ih := fieldPredicates_mem hr p
        cases q with
        | none =>
          rw [hf, hr] at h
          cases h
          rw [ih]
          simp [hf]
        | some q =>
          rw [hf, hr] at h
          cases h
          rw [List.mem_cons, ih]
          simp only [List.mem_cons, exists_eq_or_imp, hf, Option.some.injEq]
          exact or_congr ⟨Eq.symm, Eq.symm⟩ Iff.rfl

theorem gfields_mem {fields : GFields} {ps : List Pred} (h : fields.predicates = some ps) (p : Pred) :
    p ∈ ps ↔ ∃ f ∈ fields.all, fieldPredicate f = some (some p) := by
  cases fields with
  | named fs => exact fieldPredicates_mem h p
  | unnamed fs => exact fieldPredicates_mem h p
  | unit => cases h; simp [GFields.all]

theorem variantPredicates_mem : ∀ {vs : List GVariant} {ps : List Pred}, variantPredicates vs = some ps →
    ∀ p, p ∈ ps ↔ ∃ f, (∃ v ∈ vs, f ∈ v.fields.all) ∧ fieldPredicate f = some (some p)
  | [], _, h, p => by cases h; simp
  | v :: vs, ps, h, p => by
    rw [variantPredicates] at h
    cases hv : v.fields.predicates with
    | none => rw [hv] at h; cases h
    | some qs =>
      cases hr : variantPredicates vs with
      | none => rw [hv, hr] at h; cases h
      | some rs =>
        rw [hv, hr] at h
        cases h
        rw [List.mem_append, gfields_mem hv, variantPredicates_mem hr]
        constructor
        · rintro (⟨f, h1, h2⟩ | ⟨f, ⟨w, h0, h1⟩, h2⟩)
          · exact ⟨f, ⟨v, by simp, h1⟩, h2⟩
          · exact ⟨f, ⟨w, by simp [h0], h1⟩, h2⟩
        · rintro ⟨f, ⟨w, h0, h1⟩, h2⟩
          rcases List.mem_cons.mp h0 with rfl | h0
          · exact .inl ⟨f, h1, h2⟩
          · exact .inr ⟨f, ⟨w, h0, h1⟩, h2⟩

theorem dedupFrom_mem : ∀ (last : Pred) (ps : List Pred) (p : Pred), p ∈ last :: dedupFrom last ps ↔ p ∈ last :: ps
  | last, [], p => Iff.rfl
  | last, q :: ps, p => by
    rw [dedupFrom]
    split
    · rename_i hq
      subst hq
      rw [dedupFrom_mem]
      simp
    · rw [List.mem_cons, dedupFrom_mem q ps p]
      simp

theorem dedup_mem (ps : List Pred) (p : Pred) : p ∈ dedup ps ↔ p ∈ ps := by
  cases ps with
  | nil => rfl
  | cons q ps => exact dedupFrom_mem q ps p

theorem body_mem {d : DeriveInput} {ps : List Pred} (h : d.body.predicates = some ps) (p : Pred) :
    p ∈ ps ↔ ∃ f, d.HasField f ∧ fieldPredicate f = some (some p) := by
  unfold DeriveInput.HasField
  cases hb : d.body with
  | struct fields =>
    rw [hb] at h
    exact gfields_mem h p
  | enum vs =>
    rw [hb] at h
    cases vs with
    | nil => cases h; simp
    | cons v vs =>
      rw [Body.predicates] at h
      cases hv : variantPredicates (v :: vs) with
      | none => rw [hv] at h; cases h
      | some qs =>
        rw [hv] at h
        cases h
        rw [dedup_mem, variantPredicates_mem hv]
      · simp

theorem derived_inv {d : DeriveInput} {i : Impl} (h : derivedImpl d = some i) :
    ∃ r ps, expand d.toDef = some r ∧ d.body.predicates = some ps ∧
      i = ⟨d.params, selfTy d.name d.params, .format, d.wheres ++ ps⟩ := by
  rw [derivedImpl] at h
  cases he : expand d.toDef with
  | none => rw [he] at h; cases h
  | some r =>
    cases hp : d.body.predicates with
    | none => rw [he, hp] at h; cases h
    | some ps =>
      rw [he, hp] at h
      cases h
      exact ⟨r, ps, rfl, rfl, rfl⟩

theorem inst_foldl (params : List (List Char)) (σ : List Char → RTy) : ∀ (l : List (List Char)) (t : RTy),
    (l.foldl (fun t p => RTy.app t (.name p)) t).inst params σ =
      (l.map (fun p => (RTy.name p).inst params σ)).foldl RTy.app (t.inst params σ)
  | [], _ => rfl
  | p :: l, t => by
    rw [List.foldl_cons, inst_foldl params σ l]
    rfl

theorem inst_self {name : List Char} {params : List (List Char)} (hn : name ∉ params) (σ : List Char → RTy) :
    (selfTy name params).inst params σ = (params.map σ).foldl RTy.app (.name name) := by
  rw [selfTy, inst_foldl, RTy.inst, if_neg hn]
  congr 1
  apply List.map_congr_left
  intro p hp
  rw [RTy.inst, if_pos hp]

/-- the arguments of an application -/
def RTy.args : RTy → List RTy
  | .app f a => f.args ++ [a]
  | _ => []

theorem args_foldl : ∀ (l : List RTy) (t : RTy), (l.foldl RTy.app t).args = t.args ++ l
  | [], t => by simp
  | a :: l, t => by rw [List.foldl_cons, args_foldl l, RTy.args, List.append_assoc]; rfl

theorem foldl_app_inj {n : List Char} {l l' : List RTy}
    (h : l.foldl RTy.app (.name n) = l'.foldl RTy.app (.name n)) : l = l' := by
  have := congrArg RTy.args h
  rw [args_foldl, args_foldl] at this
  exact this

theorem inst_congr {params : List (List Char)} {σ σ' : List Char → RTy} (h : ∀ p ∈ params, σ p = σ' p) :
    ∀ t : RTy, t.inst params σ = t.inst params σ'
  | .name n => by
    rw [RTy.inst, RTy.inst]
    split
    · exact h n (by assumption)
    · rfl
  | .app f a => by rw [RTy.inst, RTy.inst, inst_congr h f, inst_congr h a]
  | .ref t => by rw [RTy.inst, RTy.inst, inst_congr h t]

theorem inst_refTo {params : List (List Char)} {n : List Char} (hn : n ∉ params) (σ : List Char → RTy) {t : RTy}
    (h : RefTo n t) : RefTo n (t.inst params σ) := by
  induction h with
  | base => rw [RTy.inst, if_neg hn]; exact .base
  | ref _ ih => exact .ref ih

theorem map_eq_on {α β : Type} {σ σ' : α → β} : ∀ {l : List α}, l.map σ = l.map σ' → ∀ p ∈ l, σ p = σ' p := by
  intro l h p hp
  exact List.map_inj_left.mp h p hp

theorem toFields_all (fields : GFields) : fields.toFields.all = fields.all.map GField.toField := by
  cases fields <;> rfl

theorem toDef_variant {d : DeriveInput} {k : Nat} {fs : List GField} (h : d.variants[k]? = some fs) :
    ∃ name fields, d.toDef.variant k = some (name, fields) ∧ fields.all = fs.map GField.toField := by
  unfold DeriveInput.variants at h
  unfold DeriveInput.toDef
  cases hb : d.body with
  | struct fields =>
    rw [hb] at h
    match k, h with
    | 0, h =>
      cases h
      exact ⟨_, _, rfl, toFields_all fields⟩
  | enum vs =>
    rw [hb] at h
    simp only [List.getElem?_map, Option.map_eq_some_iff] at h
    obtain ⟨v, hv, rfl⟩ := h
    refine ⟨v.name, v.fields.toFields, ?_, toFields_all _⟩
    simp [Def.variant, hv]

theorem toDef_hasField {d : DeriveInput} {f : Field} : d.toDef.HasField f ↔ ∃ g, d.HasField g ∧ g.toField = f := by
  unfold Def.HasField DeriveInput.HasField DeriveInput.toDef
  cases hb : d.body with
  | struct fields =>
    constructor
    · rintro ⟨i, n, fs, hv, hf⟩
      match i, hv with
      | 0, hv =>
        cases hv
        rw [toFields_all, List.mem_map] at hf
        exact hf
    · rintro ⟨g, hg, rfl⟩
      exact ⟨0, _, _, rfl, by rw [toFields_all]; exact List.mem_map_of_mem hg⟩
  | enum vs =>
    constructor
    · rintro ⟨i, n, fs, hv, hf⟩
      simp only [Def.variant, List.getElem?_map, Option.map_map, Option.map_eq_some_iff] at hv
      obtain ⟨v, hv, h⟩ := hv
      cases h
      rw [toFields_all, List.mem_map] at hf
      obtain ⟨g, hg, h⟩ := hf
      exact ⟨g, ⟨v, List.mem_of_getElem? hv, hg⟩, h⟩
    · rintro ⟨g, ⟨v, hv, hg⟩, rfl⟩
      obtain ⟨i, hi⟩ := List.getElem?_of_mem hv
      refine ⟨i, v.name, v.fields.toFields, by simp [Def.variant, hi], ?_⟩
      rw [toFields_all]
      exact List.mem_map_of_mem hg

theorem variants_hasField {d : DeriveInput} {k : Nat} {fs : List GField} (h : d.variants[k]? = some fs) {f : GField}
    (hf : f ∈ fs) : d.HasField f := by
  unfold DeriveInput.variants at h
  unfold DeriveInput.HasField
  cases hb : d.body with
  | struct fields =>
    rw [hb] at h
    match k, h with
    | 0, h => cases h; exact hf
  | enum vs =>
    rw [hb] at h
    simp only [List.getElem?_map, Option.map_eq_some_iff] at h
    obtain ⟨v, hv, rfl⟩ := h
    exact ⟨v, List.mem_of_getElem? hv, hf⟩

theorem fieldPredicate_some {f : GField} {o : Option FormatOption} (h : Asks f.toField o) :
    ∃ r, fieldPredicate f = some r := by
  rw [fieldPredicate, show f.attrs = f.toField.attrs from rfl, option_asks.mpr h]
  cases asNativeType f.ty.toFieldTy with
  | some n => exact ⟨_, rfl⟩
  | none =>
    match o with
    | none => exact ⟨_, rfl⟩
    | some .debug2Format => exact ⟨_, rfl⟩
    | some .display2Format => exact ⟨_, rfl⟩

theorem fieldPredicates_some : ∀ {fs : List GField}, (∀ f ∈ fs, ∃ o, Asks f.toField o) →
    ∃ ps, fieldPredicates fs = some ps
  | [], _ => ⟨[], rfl⟩
  | f :: fs, h => by
    obtain ⟨o, ho⟩ := h f (by simp)
    obtain ⟨r, hr⟩ := fieldPredicate_some ho
    obtain ⟨ps, hps⟩ := fieldPredicates_some (fs := fs) (fun g hg => h g (by simp [hg]))
    rw [fieldPredicates, hr, hps]
    cases r with
    | none => exact ⟨_, rfl⟩
    | some p => exact ⟨_, rfl⟩

theorem gfields_some {fields : GFields} (h : ∀ f ∈ fields.all, ∃ o, Asks f.toField o) :
    ∃ ps, fields.predicates = some ps := by
  cases fields with
  | named fs => exact fieldPredicates_some h
  | unnamed fs => exact fieldPredicates_some h
  | unit => exact ⟨[], rfl⟩

theorem variantPredicates_some : ∀ {vs : List GVariant}, (∀ v ∈ vs, ∀ f ∈ v.fields.all, ∃ o, Asks f.toField o) →
    ∃ ps, variantPredicates vs = some ps
  | [], _ => ⟨[], rfl⟩
  | v :: vs, h => by
    obtain ⟨ps, hps⟩ := gfields_some (h v (by simp))
    obtain ⟨qs, hqs⟩ := variantPredicates_some (vs := vs) (fun w hw => h w (by simp [hw]))
    rw [variantPredicates, hps, hqs]
    exact ⟨_, rfl⟩

theorem predicates_some {d : DeriveInput} (h : ∀ f, d.HasField f → ∃ o, Asks f.toField o) :
    ∃ ps, d.body.predicates = some ps := by
  unfold DeriveInput.HasField at h
  cases hb : d.body with
  | struct fields =>
    rw [hb] at h
    exact gfields_some h
  | enum vs =>
    rw [hb] at h
    cases vs with
    | nil => exact ⟨[], rfl⟩
    | cons v vs =>
      obtain ⟨ps, hps⟩ := variantPredicates_some (vs := v :: vs) (fun w hw f hf => h f ⟨w, hw, hf⟩)
      rw [Body.predicates, hps]
      · exact ⟨_, rfl⟩
      · simp

theorem allSome_get {α : Type} : ∀ {l : List (Option α)} {r : List α}, allSome l = some r →
    r.length = l.length ∧ ∀ (m : Nat) a, r[m]? = some a → l[m]? = some (some a)
  | [], r, h => by cases h; simp
  | none :: l, r, h => by cases h
  | some a :: l, r, h => by
    rw [allSome] at h
    cases hl : allSome l with
    | none => rw [hl] at h; cases h
    | some r' =>
      rw [hl] at h
      cases h
      obtain ⟨h1, h2⟩ := allSome_get hl
      refine ⟨by simp [h1], ?_⟩
      intro m b hm
      cases m with
      | zero => cases hm; rfl
      | succ m => exact h2 m b hm

/-- the statement of a field type checks -/
theorem stmt_checks {d : DeriveInput} {ps : List Pred} (hp : d.body.predicates = some ps)
    (hs : ∀ n ∈ builtins, n ∉ d.params) {f : GField} (hf : d.HasField f) {s : Stmt}
    (h : fieldStmt f.toField = some s) : Checks d.params (d.wheres ++ ps) s f.ty := by
  have hin : ∀ b, Needs f b → (∃ n ∈ builtins, RefTo n f.ty) ∨ (f.ty, b) ∈ d.wheres ++ ps := by
    intro b hb
    by_cases hnat : ∃ n ∈ builtins, RefTo n f.ty
    · exact .inl hnat
    · exact .inr (List.mem_append.mpr (.inr
        ((body_mem hp _).mpr ⟨f, hf, predicate_iff.mpr ⟨rfl, hb, hnat⟩⟩)))
  obtain ⟨o, ho⟩ := stmt_some.mp ⟨s, h⟩
  rw [fieldStmt, option_asks.mpr ho] at h
  match o with
  | some .debug2Format =>
    cases h
    refine .debug ?_
    rcases hin _ (.debug ho) with ⟨n, h1, h2⟩ | h1
    · exact .inr ⟨n, h1, hs n h1, h2⟩
    · exact .inl h1
  | some .display2Format =>
    cases h
    refine .display ?_
    rcases hin _ (.display ho) with ⟨n, h1, h2⟩ | h1
    · exact .inr ⟨n, h1, hs n h1, h2⟩
    · exact .inl h1
  | none =>
    simp only at h
    cases hn : asNativeType f.ty.toFieldTy with
    | some n =>
      have hft : fieldTy f.toField = n := by rw [fieldTy, show f.toField.ty = f.ty.toFieldTy from rfl, hn]
      obtain ⟨h1, h2⟩ := native_iff.mp hn
      rw [hft, if_neg (by rintro rfl; revert h1; decide)] at h
      cases h
      exact .native h1 (hs n h1) h2
    | none =>
      have hft : fieldTy f.toField = c!"?" := by rw [fieldTy, show f.toField.ty = f.ty.toFieldTy from rfl, hn]
      rw [hft, if_pos rfl] at h
      cases h
      rcases hin _ (.format ho) with ⟨n, h1, h2⟩ | h1
      · rw [native_iff.mpr ⟨h1, h2⟩] at hn; cases hn
      · exact .fmt h1

theorem inst_nil (σ : List Char → RTy) : ∀ t : RTy, t.inst [] σ = t
  | .name n => by rw [RTy.inst, if_neg (by simp)]
  | .app f a => by rw [RTy.inst, inst_nil σ f, inst_nil σ a]
  | .ref t => by rw [RTy.inst, inst_nil σ t]

/-- the name at the head of a type -/
def RTy.head : RTy → Option (List Char)
  | .name n => some n
  | .app f _ => f.head
  | .ref _ => none

theorem head_foldl : ∀ (l : List RTy) (t : RTy), (l.foldl RTy.app t).head = t.head
  | [], _ => rfl
  | a :: l, t => by rw [List.foldl_cons, head_foldl l]; rfl

theorem head_inst {params : List (List Char)} (σ : List Char → RTy) : ∀ {t : RTy}, (∀ n ∈ t.head, n ∉ params) →
    (t.inst params σ).head = t.head
  | .name n, h => by rw [RTy.inst, if_neg (h n rfl)]
  | .app f a, h => by rw [RTy.inst]; exact head_inst σ (t := f) h
  | .ref t, _ => rfl

theorem only_intro {d : DeriveInput} {i : Impl} {rest : List Impl}
    (h : ∀ j ∈ rest, (∀ n ∈ j.self.head, n ∉ j.params) ∧ j.self.head ≠ some d.name) : OnlyImpl (i :: rest) d i := by
  refine ⟨by simp, fun j hj σ args _ hs => ?_⟩
  rcases List.mem_cons.mp hj with rfl | hj
  · rfl
  · have := congrArg RTy.head hs
    rw [head_foldl, head_inst σ (h j hj).1] at this
    exact absurd this (h j hj).2

theorem wrapper_intro {impls : List Impl} {w p : List Char} (h : ∀ j ∈ impls, j.bound = .format →
    (∀ n ∈ j.self.head, n ∉ j.params) ∧ (j.self.head = some w → j.self = .app (.name w) (.name p) ∧
      (RTy.name p, Bound.format) ∈ j.preds)) : Wrapper impls w := by
  intro j hj σ t hb hs
  obtain ⟨h1, h2⟩ := h j hj hb
  have := congrArg RTy.head hs
  rw [head_inst σ h1] at this
  obtain ⟨h3, h5⟩ := h2 this
  rw [h3, RTy.inst, RTy.app.injEq] at hs
  exact ⟨_, h5, hs.2, rfl⟩

end Defmt.Derive
