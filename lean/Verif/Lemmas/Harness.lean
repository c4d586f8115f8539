import Verif.Spec.Harness
/-! Lemmas for C87 to C89. -/

namespace Defmt.Harness

theorem scanAttrs_eq (attrs : List FnAttr) (r : Option Role) (e i : Bool) :
    scanAttrs attrs (r, e, i) =
      ((attrs.filterMap FnAttr.role).getLast?.or r, e || decide (FnAttr.shouldError ∈ attrs), i || decide (FnAttr.ignore ∈ attrs)) := by
  induction attrs generalizing r e i with
  | nil => simp [scanAttrs]
  | cons a rest ih =>
    cases a <;> simp [scanAttrs, ih, FnAttr.role, List.getLast?_cons]
    all_goals
      cases (rest.filterMap FnAttr.role).getLast? <;> simp

theorem scanAttrs_fn (f : Fn) : scanAttrs f.attrs (none, false, false) = (f.role, f.shouldError, f.isIgnored) := by
  rw [scanAttrs_eq]
  simp [Fn.role, Fn.roles, Fn.shouldError, Fn.isIgnored]

theorem enabled_eq (f : Fn) : enabled f.attrs = f.isCompiled := by
  unfold enabled Fn.isCompiled
  rw [Bool.eq_iff_iff]
  simp only [List.all_eq_true, decide_eq_true_eq]
  constructor
  · intro h hm
    have := h _ hm
    simp at this
  · intro h a ha
    split
    · rename_i b
      cases b with
      | true => rfl
      | false => exact absurd ha h
    · rfl

/-- The type of the state a function takes. -/
def paramTy (f : Fn) : Option (List Char) := match f.inputs with
  | [.mutRef ty] => some ty
  | _ => none

theorem paramTy_iff (f : Fn) (ty : List Char) : paramTy f = some ty ↔ f.TakesState ty := by
  unfold paramTy Fn.TakesState
  split
  · rename_i t h; rw [h]; simp
  · rename_i h
    constructor
    · intro h'; cases h'
    · intro h'; exact absurd h' (h ty)

theorem inputs_iff (r : Role) (f : Fn) (ty : Option (List Char)) :
    (decide (f.inputs.length > 1) = false ∧ stateParam r f = .ok ty) ↔
      (f.inputs = [] ∨ ∃ ty, f.TakesState ty) ∧ ty = paramTy f := by
  unfold stateParam paramTy Fn.TakesState
  cases hi : f.inputs with
  | nil => simp; constructor <;> exact fun h => h.symm
  | cons p rest =>
    cases rest with
    | nil =>
      cases p with
      | mutRef t => simp; constructor <;> exact fun h => h.symm
      | other => simp
    | cons q rest => simp

theorem checkHook_iff (r : Role) (old : Option Hook) (f : Fn) (h : Hook) :
    checkHook r old f f.shouldError f.isIgnored = .ok h ↔
      old = none ∧ (FnAttr.shouldError ∉ f.attrs ∧ FnAttr.ignore ∉ f.attrs) ∧ f.plain = true ∧
      (f.inputs = [] ∨ ∃ ty, f.TakesState ty) ∧ h = ⟨f, paramTy f⟩ := by
  unfold checkHook
  cases old with
  | some o => simp
  | none =>
    have e1 : (f.shouldError = true) ↔ FnAttr.shouldError ∈ f.attrs := by simp [Fn.shouldError]
    have e2 : (f.isIgnored = true) ↔ FnAttr.ignore ∈ f.attrs := by simp [Fn.isIgnored]
    simp only [Option.isSome_none, Bool.false_eq_true, if_false, e1, e2]
    split
    · rename_i h; simp [h]
    · rename_i h1
      split
      · rename_i h; simp [h]
      · rename_i h2
        cases hp : f.plain with
        | false => simp
        | true =>
          simp only [Bool.not_true, Bool.false_or]
          have := inputs_iff r f
          split
          · rename_i hlen
            simp only [reduceCtorEq, true_and, false_iff]
            rintro ⟨_, hi, _⟩
            have := ((this (paramTy f)).mpr ⟨hi, rfl⟩).1
            rw [this] at hlen; cases hlen
          · rename_i hlen
            have hlen : decide (f.inputs.length > 1) = false := by simpa using hlen
            cases hs : stateParam r f with
            | error e =>
              simp only [reduceCtorEq, true_and, false_iff]
              rintro ⟨_, hi, _⟩
              have := ((this (paramTy f)).mpr ⟨hi, rfl⟩).2
              rw [hs] at this; cases this
            | ok ty =>
              have := (this ty).mp ⟨hlen, hs⟩
              simp only [this.1, this.2, h1, h2, not_false_eq_true, true_and, Except.ok.injEq]
              exact ⟨fun h => h.symm, fun h => h.symm⟩

theorem checkInit_iff (old : Option Hook) (f : Fn) (h : Hook) :
    checkInit old f f.shouldError f.isIgnored = .ok h ↔
      old = none ∧ (FnAttr.shouldError ∉ f.attrs ∧ FnAttr.ignore ∉ f.attrs) ∧ f.plain = true ∧ f.inputs = [] ∧ h = ⟨f, f.output⟩ := by
  unfold checkInit
  cases old with
  | some o => simp
  | none =>
    have e1 : (f.shouldError = true) ↔ FnAttr.shouldError ∈ f.attrs := by simp [Fn.shouldError]
    have e2 : (f.isIgnored = true) ↔ FnAttr.ignore ∈ f.attrs := by simp [Fn.isIgnored]
    simp only [Option.isSome_none, Bool.false_eq_true, if_false, e1, e2]
    split
    · rename_i h; simp [h]
    · rename_i h1
      split
      · rename_i h; simp [h]
      · rename_i h2
        cases hp : f.plain with
        | false => simp
        | true =>
          cases hi : f.inputs with
          | nil => simp [h1, h2]; exact ⟨fun h => h.symm, fun h => h.symm⟩
          | cons a b => simp

theorem checkTest_iff (f : Fn) (t : Test) :
    checkTest f f.shouldError f.isIgnored = .ok t ↔
      f.plain = true ∧ (f.inputs = [] ∨ ∃ ty, f.TakesState ty) ∧ t = ⟨f, paramTy f, f.shouldError, f.isIgnored⟩ := by
  unfold checkTest
  cases hp : f.plain with
  | false => simp
  | true =>
    simp only [Bool.not_true, Bool.false_or]
    have := inputs_iff .test f
    split
    · rename_i hlen
      simp only [reduceCtorEq, true_and, false_iff]
      rintro ⟨hi, _⟩
      have := ((this (paramTy f)).mpr ⟨hi, rfl⟩).1
      rw [this] at hlen; cases hlen
    · rename_i hlen
      have hlen : decide (f.inputs.length > 1) = false := by simpa using hlen
      cases hs : stateParam .test f with
      | error e =>
        simp only [reduceCtorEq, true_and, false_iff]
        rintro ⟨hi, _⟩
        have := ((this (paramTy f)).mpr ⟨hi, rfl⟩).2
        rw [hs] at this; cases this
      | ok ty =>
        have := (this ty).mp ⟨hlen, hs⟩
        simp only [this.1, this.2, true_and, Except.ok.injEq]
        exact ⟨fun h => h.symm, fun h => h.symm⟩

/-- What has been found for a role. -/
def Collected.hook (c : Collected) : Role → Option Hook
  | .init => c.init
  | .teardown => c.teardown
  | .beforeEach => c.beforeEach
  | .afterEach => c.afterEach
  | .test => none

def hookOf (f : Fn) : Hook := ⟨f, if f.role = some .init then f.output else paramTy f⟩

def testOf (f : Fn) : Test := ⟨f, paramTy f, f.shouldError, f.isIgnored⟩

def Collected.add (c : Collected) (f : Fn) : Collected := match f.role with
  | some .init => { c with init := some (hookOf f) }
  | some .teardown => { c with teardown := some (hookOf f) }
  | some .beforeEach => { c with beforeEach := some (hookOf f) }
  | some .afterEach => { c with afterEach := some (hookOf f) }
  | some .test => { c with tests := c.tests ++ [testOf f] }
  | none => c

theorem collectFn_iff (c : Collected) (f : Fn) (c' : Collected) :
    collectFn c f = .ok c' ↔ f.Ok ∧ (∀ r, f.role = some r → c.hook r = none) ∧ c' = c.add f := by
  unfold collectFn Collected.add
  rw [scanAttrs_fn]
  cases hr : f.role with
  | none => simp; intro h; exact absurd hr h.role
  | some r =>
    cases r with
    | init =>
      simp only
      have key := checkInit_iff c.init f
      have okI : f.Ok ↔ (FnAttr.shouldError ∉ f.attrs ∧ FnAttr.ignore ∉ f.attrs) ∧ f.plain = true ∧ f.inputs = [] := by
        constructor
        · intro h; exact ⟨h.attrs (by simp [hr]), h.plain, h.init hr⟩
        · rintro ⟨h1, h2, h3⟩; exact ⟨by simp [hr], h2, .inl h3, fun _ => h3, fun _ => h1⟩
      cases hc : checkInit c.init f f.shouldError f.isIgnored with
      | error e =>
        simp only [reduceCtorEq, false_iff]
        rintro ⟨h1, h2, _⟩
        have h1 := okI.mp h1
        have := (key ⟨f, f.output⟩).mpr ⟨h2 _ rfl, h1.1, h1.2.1, h1.2.2, rfl⟩
        rw [hc] at this; cases this
      | ok h =>
        have := (key h).mp hc
        have hk : hookOf f = h := by rw [this.2.2.2.2]; simp [hookOf, hr]
        simp only [Except.ok.injEq, hk]
        constructor
        · intro e; exact ⟨okI.mpr ⟨this.2.1, this.2.2.1, this.2.2.2.1⟩, by intro r hr; cases hr; exact this.1, e.symm⟩
        · rintro ⟨_, _, e⟩; exact e.symm
    | test =>
      simp only
      have key := checkTest_iff f
      have okI : f.Ok ↔ f.plain = true ∧ (f.inputs = [] ∨ ∃ ty, f.TakesState ty) := by
        constructor
        · intro h; exact ⟨h.plain, h.inputs⟩
        · rintro ⟨h2, h3⟩; exact ⟨by simp [hr], h2, h3, by simp [hr], by simp [hr]⟩
      cases hc : checkTest f f.shouldError f.isIgnored with
      | error e =>
        simp only [reduceCtorEq, false_iff]
        rintro ⟨h1, h2, _⟩
        have h1 := okI.mp h1
        have := (key _).mpr ⟨h1.1, h1.2, rfl⟩
        rw [hc] at this; cases this
      | ok t =>
        have := (key t).mp hc
        simp only [Except.ok.injEq, testOf, ← this.2.2]
        constructor
        · intro e; exact ⟨okI.mpr ⟨this.1, this.2.1⟩, by intro r hr; cases hr; rfl, e.symm⟩
        · rintro ⟨_, _, e⟩; exact e.symm
    | _ =>
      simp only
      have key := fun r old => checkHook_iff r old f
      have okI : f.Ok ↔ (FnAttr.shouldError ∉ f.attrs ∧ FnAttr.ignore ∉ f.attrs) ∧ f.plain = true ∧
          (f.inputs = [] ∨ ∃ ty, f.TakesState ty) := by
        constructor
        · intro h; exact ⟨h.attrs (by simp [hr]), h.plain, h.inputs⟩
        · rintro ⟨h1, h2, h3⟩; exact ⟨by simp [hr], h2, h3, by simp [hr], fun _ => h1⟩
      split
      · rename_i e hc
        simp only [reduceCtorEq, false_iff]
        rintro ⟨h1, h2, _⟩
        have h1 := okI.mp h1
        have h2 := h2 _ rfl
        simp only [Collected.hook] at h2
        rw [(key _ _ ⟨f, paramTy f⟩).mpr ⟨h2, h1.1, h1.2.1, h1.2.2, rfl⟩] at hc
        cases hc
      · rename_i h hc
        have := (key _ _ h).mp hc
        have hk : hookOf f = h := by rw [this.2.2.2.2]; simp [hookOf, hr]
        simp only [Except.ok.injEq, hk]
        constructor
        · intro e; exact ⟨okI.mpr ⟨this.2.1, this.2.2.1, this.2.2.2.1⟩, by intro r hr; cases hr; exact this.1, e.symm⟩
        · rintro ⟨_, _, e⟩; exact e.symm

/-- The functions with a role among `fs`. -/
def ofRole (r : Role) (fs : List Fn) : List Fn := fs.filter (fun f => f.role = some r)

/-- What is known after the functions `fs`. -/
def Collected.addAll (c : Collected) (fs : List Fn) : Collected where
  init := c.init.or ((ofRole .init fs).head?.map hookOf)
  teardown := c.teardown.or ((ofRole .teardown fs).head?.map hookOf)
  beforeEach := c.beforeEach.or ((ofRole .beforeEach fs).head?.map hookOf)
  afterEach := c.afterEach.or ((ofRole .afterEach fs).head?.map hookOf)
  tests := c.tests ++ (ofRole .test fs).map testOf

theorem functions_cons_fn (f : Fn) (rest : List Item) : functions (.fn f :: rest) = f :: functions rest := rfl

theorem functions_cons_other (rest : List Item) : functions (.other :: rest) = functions rest := rfl

/-- At most one function for each role, and none if there is already one. -/
def Once (c : Collected) (fs : List Fn) : Prop :=
  ∀ r, r ≠ Role.test → (c.hook r).toList.length + (ofRole r fs).length ≤ 1

theorem hook_add (c : Collected) (f : Fn) (r r' : Role) (hr : f.role = some r) (h : r ≠ .test) :
    (c.add f).hook r' = if r' = r then some (hookOf f) else c.hook r' := by
  unfold Collected.add
  rw [hr]
  cases r <;> cases r' <;> first | rfl | exact absurd rfl h

theorem hook_add_test (c : Collected) (f : Fn) (r' : Role) (hr : f.role = some .test) :
    (c.add f).hook r' = c.hook r' := by
  unfold Collected.add
  rw [hr]
  cases r' <;> rfl

theorem once_cons (c : Collected) (f : Fn) (fs : List Fn) (hf : f.role ≠ none) :
    Once c (f :: fs) ↔ (∀ r, f.role = some r → c.hook r = none) ∧ Once (c.add f) fs := by
  obtain ⟨r, hr⟩ := Option.ne_none_iff_exists'.mp hf
  by_cases ht : r = .test
  · subst ht
    have e : ∀ r, r ≠ Role.test → ofRole r (f :: fs) = ofRole r fs := by
      intro r h
      simp [ofRole, hr, Ne.symm h]
    constructor
    · intro h
      refine ⟨fun r h' => ?_, fun r h' => ?_⟩
      · rw [hr] at h'; cases h'; rfl
      · rw [hook_add_test c f r hr, ← e r h']; exact h r h'
    · rintro ⟨_, h⟩ r h'
      have := h r h'
      rw [hook_add_test c f r hr, ← e r h'] at this; exact this
  · have e : ∀ r', ofRole r' (f :: fs) = if r' = r then f :: ofRole r' fs else ofRole r' fs := by
      intro r'
      by_cases h : r' = r
      · simp [ofRole, hr, h]
      · simp [ofRole, hr, h, Ne.symm h]
    constructor
    · intro h
      refine ⟨fun r' h' => ?_, fun r' h' => ?_⟩
      · rw [hr] at h'; cases h'
        have := h r ht
        rw [e, if_pos rfl] at this
        cases hc : c.hook r with
        | none => rfl
        | some x => rw [hc] at this; simp only [Option.toList_some, List.length_cons, List.length_nil] at this; omega
      · have := h r' h'
        rw [e] at this
        rw [hook_add c f r r' hr ht]
        by_cases hrr : r' = r
        · rw [if_pos hrr] at this ⊢
          simp only [List.length_cons, Option.toList_some, List.length_nil] at this ⊢
          omega
        · rw [if_neg hrr] at this ⊢; exact this
    · rintro ⟨h1, h⟩ r' h'
      have := h r' h'
      rw [e]
      rw [hook_add c f r r' hr ht] at this
      by_cases hrr : r' = r
      · rw [if_pos hrr] at this ⊢
        rw [hrr, h1 r hr]
        rw [hrr] at this
        simp only [List.length_cons, Option.toList_some, Option.toList_none, List.length_nil] at this ⊢
        omega
      · rw [if_neg hrr] at this ⊢; exact this

theorem addAll_cons (c : Collected) (f : Fn) (fs : List Fn) (h : ∀ r, f.role = some r → c.hook r = none) :
    c.addAll (f :: fs) = (c.add f).addAll fs := by
  unfold Collected.addAll Collected.add ofRole
  cases hr : f.role with
  | none => simp [List.filter_cons, hr]
  | some r =>
    have h := h r hr
    cases r <;> simp_all [List.filter_cons, Collected.hook]

theorem collectItems_iff (items : List Item) (c c' : Collected) :
    collectItems items c = .ok c' ↔
      (∀ f ∈ functions items, f.Ok) ∧ Once c (functions items) ∧ c' = c.addAll (functions items) := by
  induction items generalizing c with
  | nil =>
    simp only [collectItems, functions, List.filterMap_nil, List.not_mem_nil, false_implies, implies_true, true_and, Except.ok.injEq,
      Collected.addAll, ofRole, List.filter_nil, List.head?_nil, Option.map_none, Option.or_none, List.map_nil, List.append_nil]
    constructor
    · intro h
      refine ⟨fun r _ => ?_, h.symm⟩
      simp only [ofRole, List.filter_nil, List.length_nil, Nat.add_zero]
      cases c.hook r <;> simp
    · exact fun h => h.2.symm
  | cons i rest ih =>
    cases i with
    | other => rw [functions_cons_other, ← ih]; rfl
    | fn f =>
      rw [functions_cons_fn]
      simp only [collectItems]
      have key := collectFn_iff c f
      cases hc : collectFn c f with
      | error e =>
        simp only [reduceCtorEq, false_iff]
        rintro ⟨h1, h2, _⟩
        have hf := h1 f (List.mem_cons_self ..)
        have := (key (c.add f)).mpr ⟨hf, ((once_cons c f _ hf.role).mp h2).1, rfl⟩
        rw [hc] at this; cases this
      | ok c1 =>
        obtain ⟨h1, h2, h3⟩ := (key c1).mp hc
        simp only [ih]
        subst h3
        rw [once_cons c f _ h1.role, addAll_cons c f _ h2]
        simp only [List.mem_cons, forall_eq_or_imp]
        constructor
        · rintro ⟨a, b, d⟩; exact ⟨⟨h1, a⟩, ⟨h2, b⟩, d⟩
        · rintro ⟨⟨_, a⟩, ⟨_, b⟩, d⟩; exact ⟨a, b, d⟩

/-! ### the generated code -/

/-- The state that a function takes is there. -/
def StateOk (st : Option (List Char)) (f : Fn) : Prop := ∀ ty, f.TakesState ty → st = some ty

theorem toCall_none (f : Fn) (h : f.Ok) (hp : paramTy f = none) : f.toCall = ⟨f.name, false⟩ := by
  rcases h.inputs with hi | ⟨ty, hty⟩
  · simp [Fn.toCall, hi]
  · rw [(paramTy_iff f ty).mpr hty] at hp; cases hp

theorem toCall_some (f : Fn) (ty : List Char) (hp : paramTy f = some ty) : f.toCall = ⟨f.name, true⟩ := by
  have := (paramTy_iff f ty).mp hp
  simp [Fn.toCall, show f.inputs = _ from this]

theorem makeCall_iff (r : Role) (st : Option (List Char)) (f : Fn) (h : f.Ok) (c : Call) :
    makeCall r st f.name (paramTy f) = .ok c ↔ StateOk st f ∧ c = f.toCall := by
  unfold makeCall StateOk
  cases hp : paramTy f with
  | none =>
    rw [toCall_none f h hp]
    simp only [Except.ok.injEq]
    constructor
    · intro e
      exact ⟨fun ty hty => (by rw [(paramTy_iff f ty).mpr hty] at hp; cases hp), e.symm⟩
    · exact fun e => e.2.symm
  | some ty =>
    rw [toCall_some f ty hp]
    have e : (∀ ty, f.TakesState ty → st = some ty) ↔ st = some ty := by
      constructor
      · intro h; exact h ty ((paramTy_iff f ty).mp hp)
      · intro h ty' h'
        rw [(paramTy_iff f ty').mpr h'] at hp
        cases hp; exact h
    rw [e]
    cases st with
    | none => simp
    | some s =>
      simp only
      by_cases hts : ty = s
      · subst hts; simp; exact ⟨fun h => h.symm, fun h => h.symm⟩
      · simp [hts, Ne.symm hts]

theorem hookOf_ty (f : Fn) (h : f.role ≠ some .init) : hookOf f = ⟨f, paramTy f⟩ := by
  simp [hookOf, h]

theorem hookCall_iff (r : Role) (st : Option (List Char)) (o : Option Fn) (h : ∀ f ∈ o, f.Ok) (hr : ∀ f ∈ o, f.role ≠ some .init)
    (c : Option Call) : hookCall r st (o.map hookOf) = .ok c ↔ (∀ f ∈ o, StateOk st f) ∧ c = o.map Fn.toCall := by
  cases o with
  | none => simp [hookCall]; exact ⟨fun h => h.symm, fun h => h.symm⟩
  | some f =>
    simp only [Option.mem_def, Option.some.injEq, forall_eq'] at h hr
    simp only [Option.map_some, hookCall, hookOf_ty f hr, Option.mem_def, Option.some.injEq, forall_eq']
    have key := makeCall_iff r st f h
    cases hm : makeCall r st f.name (paramTy f) with
    | error e =>
      simp only [reduceCtorEq, false_iff]
      rintro ⟨h1, _⟩
      rw [(key f.toCall).mpr ⟨h1, rfl⟩] at hm; cases hm
    | ok d =>
      obtain ⟨h1, h2⟩ := (key d).mp hm
      simp only [Except.ok.injEq, h1, h2, true_and]
      exact ⟨fun h => h.symm, fun h => h.symm⟩

/-- The statements for a test. -/
def stmtsOf (before after : Option Call) (f : Fn) : List Stmt :=
  testBlock (testOf f) (if f.isIgnored then [.callIgnored f.toCall]
    else (before.toList.map .call) ++ [.check f.toCall f.shouldError] ++ (after.toList.map .call))

theorem testCalls_iff (st : Option (List Char)) (before after : Option Call) (f : Fn) (h : f.Ok) (calls : List Stmt) :
    testCalls st before after (testOf f) = .ok calls ↔ StateOk st f ∧
      calls = if f.isIgnored then [.callIgnored f.toCall]
        else (before.toList.map .call) ++ [.check f.toCall f.shouldError] ++ (after.toList.map .call) := by
  unfold testCalls testOf
  simp only
  have key := makeCall_iff .test st f h
  cases hm : makeCall .test st f.name (paramTy f) with
  | error e =>
    simp only [reduceCtorEq, false_iff]
    rintro ⟨h1, _⟩
    rw [(key f.toCall).mpr ⟨h1, rfl⟩] at hm; cases hm
  | ok d =>
    obtain ⟨h1, h2⟩ := (key d).mp hm
    subst h2
    simp only [h1, true_and]
    split <;> (simp only [Except.ok.injEq]; exact ⟨fun h => h.symm, fun h => h.symm⟩)

theorem testBlocks_iff (st : Option (List Char)) (before after : Option Call) (fs : List Fn) (h : ∀ f ∈ fs, f.Ok) (stmts : List Stmt) :
    testBlocks st before after (fs.map testOf) = .ok stmts ↔
      (∀ f ∈ fs, StateOk st f) ∧ stmts = fs.flatMap (stmtsOf before after) := by
  induction fs generalizing stmts with
  | nil => simp [testBlocks, eq_comm]
  | cons f rest ih =>
    simp only [List.mem_cons, forall_eq_or_imp] at h
    simp only [List.map_cons, testBlocks, List.mem_cons, forall_eq_or_imp, List.flatMap_cons]
    have key := testCalls_iff st before after f h.1
    cases hm : testCalls st before after (testOf f) with
    | error e =>
      simp only [reduceCtorEq, false_iff]
      rintro ⟨⟨h1, _⟩, _⟩
      rw [(key _).mpr ⟨h1, rfl⟩] at hm; cases hm
    | ok calls =>
      obtain ⟨h1, h2⟩ := (key _).mp hm
      simp only
      cases hr : testBlocks st before after (rest.map testOf) with
      | error e =>
        simp only [reduceCtorEq, false_iff]
        rintro ⟨⟨_, h3⟩, _⟩
        rw [(ih h.2 _).mpr ⟨h3, rfl⟩] at hr; cases hr
      | ok s =>
        obtain ⟨h3, h4⟩ := (ih h.2 _).mp hr
        simp only [Except.ok.injEq, stmtsOf, ← h2, h1, ← h4]
        exact ⟨fun e => ⟨⟨trivial, h3⟩, e.symm⟩, fun e => e.2.symm⟩

theorem resolve_iff (r : Role) (called : Bool) (o : Option Fn) :
    resolve r called (o.map hookOf) = .ok () ↔ (called = true → ∀ f ∈ o, f.isCompiled = true) := by
  cases o with
  | none => simp [resolve]
  | some f =>
    simp only [Option.map_some, resolve, hookOf, enabled_eq, Option.mem_def, Option.some.injEq, forall_eq']
    cases called <;> cases f.isCompiled <;> simp

/-- What is known of all functions. -/
def start (fs : List Fn) : Collected := Collected.addAll {} fs

/-- The type of the state. -/
def stateOf (fs : List Fn) : Option (List Char) := (ofRole .init fs).head?.bind (·.output)

theorem start_init (fs : List Fn) : (start fs).init = (ofRole .init fs).head?.map hookOf := by simp [start, Collected.addAll]
theorem start_teardown (fs : List Fn) : (start fs).teardown = (ofRole .teardown fs).head?.map hookOf := by simp [start, Collected.addAll]
theorem start_before (fs : List Fn) : (start fs).beforeEach = (ofRole .beforeEach fs).head?.map hookOf := by simp [start, Collected.addAll]
theorem start_after (fs : List Fn) : (start fs).afterEach = (ofRole .afterEach fs).head?.map hookOf := by simp [start, Collected.addAll]
theorem start_tests (fs : List Fn) : (start fs).tests = (ofRole .test fs).map testOf := by simp [start, Collected.addAll]

theorem mem_ofRole {r : Role} {fs : List Fn} {f : Fn} : f ∈ ofRole r fs ↔ f ∈ fs ∧ f.role = some r := by
  simp [ofRole]

theorem start_state (fs : List Fn) : (start fs).init.bind (·.ty) = stateOf fs := by
  rw [start_init]
  unfold stateOf
  cases h : (ofRole .init fs).head? with
  | none => rfl
  | some f =>
    have := (mem_ofRole.mp (List.mem_of_mem_head? h)).2
    simp [hookOf, this]

/-- The hooks of a role as statements. -/
def hookStmts (r : Role) (fs : List Fn) : Option Call := (ofRole r fs).head?.map Fn.toCall

def programOf (fs : List Fn) : Program where
  count := ((ofRole .test fs).filter Fn.isCompiled).length
  body := ((ofRole .init fs).head?.toList.map (fun f => .init f.name)) ++
    (ofRole .test fs).flatMap (stmtsOf (hookStmts .beforeEach fs) (hookStmts .afterEach fs)) ++ [.passed] ++
    ((hookStmts .teardown fs).toList.map .call) ++ [.exit]

theorem head_props {r : Role} {fs : List Fn} (hr : r ≠ .init) (h : ∀ f ∈ fs, f.Ok) :
    (∀ f ∈ (ofRole r fs).head?, f.Ok) ∧ (∀ f ∈ (ofRole r fs).head?, f.role ≠ some .init) := by
  constructor
  · intro f hf; exact h f (mem_ofRole.mp (List.mem_of_mem_head? hf)).1
  · intro f hf
    rw [(mem_ofRole.mp (List.mem_of_mem_head? hf)).2]
    simpa using hr

theorem generate_iff (fs : List Fn) (h : ∀ f ∈ fs, f.Ok) (p : Program) :
    generate (start fs) = .ok p ↔
      ((∀ f ∈ (ofRole .teardown fs).head?, StateOk (stateOf fs) f) ∧ (∀ f ∈ (ofRole .beforeEach fs).head?, StateOk (stateOf fs) f) ∧
        (∀ f ∈ (ofRole .afterEach fs).head?, StateOk (stateOf fs) f) ∧ (∀ f ∈ ofRole .test fs, StateOk (stateOf fs) f)) ∧
      p = programOf fs := by
  unfold generate
  simp only [start_state, start_teardown, start_before, start_after, start_tests]
  have ht : ∀ f ∈ ofRole .test fs, f.Ok := fun f hf => h f (mem_ofRole.mp hf).1
  have k1 := hookCall_iff .teardown (stateOf fs) _ (head_props (r := .teardown) (by decide) h).1 (head_props (by decide) h).2
  have k2 := hookCall_iff .beforeEach (stateOf fs) _ (head_props (r := .beforeEach) (by decide) h).1 (head_props (by decide) h).2
  have k3 := hookCall_iff .afterEach (stateOf fs) _ (head_props (r := .afterEach) (by decide) h).1 (head_props (by decide) h).2
  have k4 := fun b a => testBlocks_iff (stateOf fs) b a _ ht
  cases h1 : hookCall Role.teardown (stateOf fs) (Option.map hookOf (ofRole Role.teardown fs).head?) with
  | error e =>
    simp only [reduceCtorEq, false_iff]
    rintro ⟨⟨a, _⟩, _⟩
    rw [(k1 _).mpr ⟨a, rfl⟩] at h1; cases h1
  | ok c1 =>
  simp only
  cases h2 : hookCall Role.beforeEach (stateOf fs) (Option.map hookOf (ofRole Role.beforeEach fs).head?) with
  | error e =>
    simp only [reduceCtorEq, false_iff]
    rintro ⟨⟨_, a, _⟩, _⟩
    rw [(k2 _).mpr ⟨a, rfl⟩] at h2; cases h2
  | ok c2 =>
  simp only
  cases h3 : hookCall Role.afterEach (stateOf fs) (Option.map hookOf (ofRole Role.afterEach fs).head?) with
  | error e =>
    simp only [reduceCtorEq, false_iff]
    rintro ⟨⟨_, _, a, _⟩, _⟩
    rw [(k3 _).mpr ⟨a, rfl⟩] at h3; cases h3
  | ok c3 =>
  simp only
  cases h4 : testBlocks (stateOf fs) c2 c3 (List.map testOf (ofRole Role.test fs)) with
  | error e =>
    simp only [reduceCtorEq, false_iff]
    rintro ⟨⟨_, _, _, a⟩, _⟩
    rw [(k4 _ _ _).mpr ⟨a, rfl⟩] at h4; cases h4
  | ok stmts =>
    have h1 := (k1 _).mp h1
    have h2 := (k2 _).mp h2
    have h3 := (k3 _).mp h3
    have h4 := (k4 _ _ _).mp h4
    simp only [Except.ok.injEq]
    have hp : programOf fs = ⟨(List.filter (fun t => enabled t.func.attrs) (List.map testOf (ofRole Role.test fs))).length,
        List.map (fun h => Stmt.init h.func.name) (start fs).init.toList ++ stmts ++ [Stmt.passed] ++
          List.map Stmt.call c1.toList ++ [Stmt.exit]⟩ := by
      unfold programOf
      congr 1
      · simp only [List.filter_map, List.length_map]
        congr 2
        funext f
        exact (enabled_eq f).symm
      · rw [h1.2, h4.2, h2.2, h3.2, start_init]
        cases (ofRole .init fs).head? <;> rfl
    rw [hp]
    exact ⟨fun e => ⟨⟨h1.1, h2.1, h3.1, h4.1⟩, e.symm⟩, fun e => e.2.symm⟩

theorem withRole_eq (r : Role) (items : List Item) : withRole r items = ofRole r (functions items) := rfl

theorem once_start (fs : List Fn) : Once {} fs ↔ ∀ r, r ≠ Role.test → (ofRole r fs).length ≤ 1 := by
  unfold Once
  have : ∀ r, Collected.hook {} r = none := by intro r; cases r <;> rfl
  simp [this]

theorem head_of_once {l : List Fn} (h : l.length ≤ 1) (f : Fn) : f ∈ l.head? ↔ f ∈ l := by
  cases l with
  | nil => simp
  | cons a rest =>
    have : rest = [] := List.length_eq_zero_iff.mp (by simp only [List.length_cons] at h; omega)
    subst this
    simp [eq_comm]

theorem stateOf_iff (fs : List Fn) (h : (ofRole .init fs).length ≤ 1) (ty : List Char) :
    stateOf fs = some ty ↔ ∃ g ∈ ofRole .init fs, g.output = some ty := by
  unfold stateOf
  simp only [Option.bind_eq_some_iff]
  constructor
  · rintro ⟨g, h1, h2⟩; exact ⟨g, (head_of_once h g).mp h1, h2⟩
  · rintro ⟨g, h1, h2⟩; exact ⟨g, (head_of_once h g).mpr h1, h2⟩

theorem link_iff (fs : List Fn) :
    link (start fs) = .ok () ↔
      (∀ f ∈ (ofRole .init fs).head?, f.isCompiled = true) ∧ (∀ f ∈ (ofRole .teardown fs).head?, f.isCompiled = true) ∧
      ((∃ t ∈ (ofRole .test fs).filter Fn.isCompiled, t.isIgnored = false) →
        (∀ f ∈ (ofRole .beforeEach fs).head?, f.isCompiled = true) ∧ (∀ f ∈ (ofRole .afterEach fs).head?, f.isCompiled = true)) := by
  unfold link
  simp only [start_init, start_teardown, start_before, start_after, start_tests]
  generalize hrun : (List.map testOf (ofRole Role.test fs)).any (fun t => enabled t.func.attrs && !t.ignore) = run
  have hrun : run = true ↔ ∃ t ∈ (ofRole .test fs).filter Fn.isCompiled, t.isIgnored = false := by
    rw [← hrun, List.any_eq_true]
    constructor
    · rintro ⟨t, h1, h2⟩
      obtain ⟨f, h3, rfl⟩ := List.mem_map.mp h1
      simp only [testOf, enabled_eq, Bool.and_eq_true, Bool.not_eq_true'] at h2
      exact ⟨f, List.mem_filter.mpr ⟨h3, h2.1⟩, h2.2⟩
    · rintro ⟨f, h1, h2⟩
      have h1 := List.mem_filter.mp h1
      exact ⟨testOf f, List.mem_map.mpr ⟨f, h1.1, rfl⟩, by simp [testOf, enabled_eq, h1.2, h2]⟩
  rw [← hrun]
  have k1 := resolve_iff .init true (ofRole .init fs).head?
  have k2 := resolve_iff .teardown true (ofRole .teardown fs).head?
  have k3 := resolve_iff .beforeEach run (ofRole .beforeEach fs).head?
  have k4 := resolve_iff .afterEach run (ofRole .afterEach fs).head?
  simp only [true_implies] at k1 k2
  cases h1 : resolve .init true ((ofRole .init fs).head?.map hookOf) with
  | error e =>
    simp only [reduceCtorEq, false_iff]
    rintro ⟨a, _⟩
    rw [k1.mpr a] at h1; cases h1
  | ok u =>
  simp only
  cases h2 : resolve .teardown true ((ofRole .teardown fs).head?.map hookOf) with
  | error e =>
    simp only [reduceCtorEq, false_iff]
    rintro ⟨_, a, _⟩
    rw [k2.mpr a] at h2; cases h2
  | ok u =>
  simp only
  cases h3 : resolve .beforeEach run ((ofRole .beforeEach fs).head?.map hookOf) with
  | error e =>
    simp only [reduceCtorEq, false_iff]
    rintro ⟨_, _, a⟩
    rw [k3.mpr (fun h => (a h).1)] at h3; cases h3
  | ok u =>
    simp only
    rw [k4]
    have h1 := k1.mp h1
    have h2 := k2.mp h2
    have h3 := k3.mp h3
    exact ⟨fun h => ⟨h1, h2, fun r => ⟨h3 r, h r⟩⟩, fun h r => (h.2.2 r).2⟩

theorem expand_iff (items : List Item) (p : Program) :
    expand items = .ok p ↔ Accepted items ∧ p = programOf (functions items) := by
  unfold expand
  have key := collectItems_iff items {}
  cases hc : collectItems items {} with
  | error e =>
    simp only [reduceCtorEq, false_iff]
    rintro ⟨a, _⟩
    rw [(key _).mpr ⟨a.each, (once_start _).mpr (fun r h => a.once r h), rfl⟩] at hc; cases hc
  | ok c =>
    obtain ⟨h1, h2, h3⟩ := (key c).mp hc
    have h2 := (once_start _).mp h2
    subst h3
    have kg := generate_iff (functions items) h1
    have kl := link_iff (functions items)
    have hh : ∀ r, r ≠ Role.test → ∀ f, f ∈ (ofRole r (functions items)).head? ↔ f ∈ ofRole r (functions items) :=
      fun r h f => head_of_once (h2 r h) f
    simp only [hh _ (show Role.teardown ≠ Role.test by decide), hh _ (show Role.beforeEach ≠ Role.test by decide),
      hh _ (show Role.afterEach ≠ Role.test by decide)] at kg
    simp only [hh _ (show Role.teardown ≠ Role.test by decide), hh _ (show Role.beforeEach ≠ Role.test by decide),
      hh _ (show Role.afterEach ≠ Role.test by decide), hh _ (show Role.init ≠ Role.test by decide)] at kl
    have hst : ∀ ty, stateOf (functions items) = some ty ↔ ∃ g ∈ withRole .init items, g.output = some ty :=
      stateOf_iff _ (h2 .init (by decide))
    simp only
    rw [show Collected.addAll {} (functions items) = start (functions items) from rfl]
    cases hg : generate (start (functions items)) with
    | error e =>
      simp only [reduceCtorEq, false_iff]
      rintro ⟨a, _⟩
      have st : ∀ r, ∀ f ∈ ofRole r (functions items), StateOk (stateOf (functions items)) f := by
        intro r f hf ty hty
        exact (hst ty).mpr (a.state f (mem_ofRole.mp hf).1 ty hty)
      rw [(kg _).mpr ⟨⟨st _, st _, st _, st _⟩, rfl⟩] at hg; cases hg
    | ok q =>
      obtain ⟨⟨g1, g2, g3, g4⟩, rfl⟩ := (kg q).mp hg
      simp only
      cases hl : link (start (functions items)) with
      | error e =>
        simp only [reduceCtorEq, false_iff]
        rintro ⟨a, _⟩
        have := a.compiled
        rw [kl.mpr ⟨?_, ?_, ?_⟩] at hl
        · cases hl
        · intro f hf
          have hf := mem_ofRole.mp hf
          exact a.compiled f hf.1 (.inl hf.2)
        · intro f hf
          have hf := mem_ofRole.mp hf
          exact a.compiled f hf.1 (.inr (.inl hf.2))
        · intro ht
          constructor
          · intro f hf
            have hf := mem_ofRole.mp hf
            exact a.compiled f hf.1 (.inr (.inr ⟨.inl hf.2, ht⟩))
          · intro f hf
            have hf := mem_ofRole.mp hf
            exact a.compiled f hf.1 (.inr (.inr ⟨.inr hf.2, ht⟩))
      | ok u =>
        obtain ⟨l1, l2, l3⟩ := kl.mp hl
        simp only [Except.ok.injEq]
        refine ⟨fun e => ⟨⟨h1, h2, ?_, ?_⟩, e.symm⟩, fun e => e.2.symm⟩
        · intro f hf ty hty
          rw [← hst]
          cases hr : f.role with
          | none => exact absurd hr (h1 f hf).role
          | some r =>
            have hm := mem_ofRole.mpr ⟨hf, hr⟩
            cases r with
            | init =>
              have := (h1 f hf).init hr
              rw [show f.inputs = _ from hty] at this
              cases this
            | teardown => exact g1 f hm ty hty
            | beforeEach => exact g2 f hm ty hty
            | afterEach => exact g3 f hm ty hty
            | test => exact g4 f hm ty hty
        · rintro f hf (hr | hr | ⟨hr | hr, ht⟩)
          · exact l1 f (mem_ofRole.mpr ⟨hf, hr⟩)
          · exact l2 f (mem_ofRole.mpr ⟨hf, hr⟩)
          · exact (l3 ht).1 f (mem_ofRole.mpr ⟨hf, hr⟩)
          · exact (l3 ht).2 f (mem_ofRole.mpr ⟨hf, hr⟩)

/-! ### running -/

theorem exec_check {W : Type} (b : Behaviour W) (n : Nat) (c : Call) (e : Bool) (rest : List Stmt) (i : Nat) (w : W) :
    exec b n (.check c e :: rest) i w = .call c :: match b c.name w with
      | none => []
      | some (success, w) => if success == e then [.failed e] else exec b n rest i w := rfl

/-- Statements that have a step. -/
inductive Does : Stmt → Step → Prop
  | init {f : Fn} : f.inputs = [] → Does (.init f.name) (.hook f.toCall)
  | call {c} : Does (.call c) (.hook c)
  | ignored {c} : Does (.callIgnored c) (.hook c)
  | check {c e} : Does (.check c e) (.test c e)

/-- If the rest follows, so does the whole. -/
theorem follows_cons {W : Type} (b : Behaviour W) (n : Nat) (st : Stmt) (sp : Step) (rest : List Stmt) (steps : List Step) (i : Nat)
    (hd : Does st sp) (h : ∀ w, Follows b w steps (exec b n rest i w)) (w : W) :
    Follows b w (sp :: steps) (exec b n (st :: rest) i w) := by
  cases hd with
  | @init f hi =>
    have : f.toCall = ⟨f.name, false⟩ := by simp [Fn.toCall, hi]
    rw [this]
    simp only [exec]
    cases hb : b f.name w with
    | none => exact .panicsHook (c := ⟨f.name, false⟩) hb
    | some x => exact .returns (c := ⟨f.name, false⟩) (x := x.1) (w' := x.2) hb (h _)
  | @call c =>
    simp only [exec]
    cases hb : b c.name w with
    | none => exact .panicsHook hb
    | some x => exact .returns (x := x.1) (w' := x.2) hb (h _)
  | @ignored c =>
    simp only [exec]
    cases hb : b c.name w with
    | none => exact .panicsHook hb
    | some x => exact .returns (x := x.1) (w' := x.2) hb (h _)
  | @check c e =>
    rw [exec_check]
    cases hb : b c.name w with
    | none => exact .panicsTest hb
    | some x =>
      obtain ⟨s, w'⟩ := x
      simp only
      by_cases hse : s = e
      · subst hse
        simp only [BEq.rfl, if_true]
        exact .fails hb
      · have : (s == e) = false := by simpa using hse
        simp only [this, Bool.false_eq_true, if_false]
        exact .passes hb hse (h _)

/-- The same for several statements. -/
theorem follows_append {W : Type} (b : Behaviour W) (n : Nat) (rest : List Stmt) (steps : List Step) (i : Nat)
    (h : ∀ w, Follows b w steps (exec b n rest i w)) (l : List (Stmt × Step)) (hl : ∀ x ∈ l, Does x.1 x.2) (w : W) :
    Follows b w (l.map Prod.snd ++ steps) (exec b n (l.map Prod.fst ++ rest) i w) := by
  induction l generalizing w with
  | nil => exact h w
  | cons x l ih =>
    simp only [List.mem_cons, forall_eq_or_imp] at hl
    exact follows_cons b n x.1 x.2 _ _ i hl.1 (ih hl.2) w

theorem map_head {l : List Fn} (h : l.length ≤ 1) : (l.head?.map Fn.toCall).toList = l.map Fn.toCall := by
  cases l with
  | nil => rfl
  | cons a rest =>
    have : rest = [] := List.length_eq_zero_iff.mp (by simp only [List.length_cons] at h; omega)
    subst this; rfl

/-- Calls of hooks. -/
theorem follows_hooks {W : Type} (b : Behaviour W) (n : Nat) (rest : List Stmt) (steps : List Step) (i : Nat)
    (h : ∀ w, Follows b w steps (exec b n rest i w)) (r : Role) (items : List Item) (hr : (withRole r items).length ≤ 1) (w : W) :
    Follows b w (hooks r items ++ steps) (exec b n (((hookStmts r (functions items)).toList.map .call) ++ rest) i w) := by
  have := follows_append b n rest steps i h ((withRole r items).map (fun f => (Stmt.call f.toCall, Step.hook f.toCall)))
    (by
      intro x hx
      obtain ⟨f, _, rfl⟩ := List.mem_map.mp hx
      exact .call) w
  rw [List.map_map, List.map_map] at this
  unfold hooks hookStmts
  rw [map_head (by exact hr), List.map_map]
  exact this

/-- One test. -/
theorem follows_test {W : Type} (b : Behaviour W) (n : Nat) (rest : List Stmt) (steps : List Step) (i : Nat)
    (h : ∀ w, Follows b w steps (exec b n rest (i + 1) w)) (items : List Item) (ha : Accepted items) (f : Fn) (hf : f.isCompiled = true)
    (w : W) :
    Follows b w (testSteps true items n i f ++ steps)
      (exec b n (stmtsOf (hookStmts .beforeEach (functions items)) (hookStmts .afterEach (functions items)) f ++ rest) i w) := by
  have hnext : ∀ w, Follows b w steps (exec b n (.next :: rest) i w) := h
  unfold stmtsOf testBlock testSteps
  rw [show (testOf f).func.attrs = f.attrs from rfl, enabled_eq, hf]
  simp only [if_true, testOf, List.cons_append, exec]
  refine .event ?_
  cases hi : f.isIgnored with
  | true =>
    simp only [if_true]
    exact follows_append b n _ steps i hnext [(.callIgnored f.toCall, .hook f.toCall)] (by
      intro x hx
      rw [List.mem_singleton] at hx
      subst hx
      exact .ignored) w
  | false =>
    simp only [Bool.false_eq_true, if_false, List.append_assoc]
    refine follows_hooks b n _ _ i (fun w => ?_) .beforeEach items (ha.once _ (by decide)) w
    simp only [List.cons_append, List.nil_append]
    refine follows_cons b n _ _ _ _ i .check (fun w => ?_) w
    exact follows_hooks b n _ _ i hnext .afterEach items (ha.once _ (by decide)) w

/-- The tests. -/
theorem follows_tests {W : Type} (b : Behaviour W) (n : Nat) (rest : List Stmt) (steps : List Step)
    (h : ∀ i w, Follows b w steps (exec b n rest i w)) (items : List Item) (ha : Accepted items) (fs : List Fn) (i : Nat) (w : W) :
    Follows b w (testsFrom true items n i (fs.filter Fn.isCompiled) ++ steps)
      (exec b n (fs.flatMap (stmtsOf (hookStmts .beforeEach (functions items)) (hookStmts .afterEach (functions items))) ++ rest) i w) := by
  induction fs generalizing i w with
  | nil => exact h i w
  | cons f fs ih =>
    simp only [List.flatMap_cons, List.append_assoc]
    cases hf : f.isCompiled with
    | false =>
      have : stmtsOf (hookStmts .beforeEach (functions items)) (hookStmts .afterEach (functions items)) f = [] := by
        unfold stmtsOf testBlock
        rw [show (testOf f).func.attrs = f.attrs from rfl, enabled_eq, hf]
        rfl
      rw [this, List.filter_cons_of_neg (by simp [hf])]
      exact ih i w
    | true =>
      rw [List.filter_cons_of_pos hf]
      simp only [testsFrom, List.append_assoc]
      exact follows_test b n _ _ i (fun w => ih (i + 1) w) items ha f hf w

theorem follows_program {W : Type} (b : Behaviour W) (items : List Item) (ha : Accepted items) (w : W) :
    Follows b w (allSteps true items) ((programOf (functions items)).run b w) := by
  unfold allSteps suite Program.run
  rw [show (programOf (functions items)).count = (tests items).length from rfl]
  unfold programOf
  simp only [List.append_assoc]
  generalize (tests items).length = n
  have hinit : ((ofRole .init (functions items)).head?.toList.map (fun f => Stmt.init f.name)) =
      (withRole .init items).map (fun f => Stmt.init f.name) := by
    have := ha.once .init (by decide)
    rw [withRole_eq] at this ⊢
    revert this
    cases ofRole .init (functions items) with
    | nil => intro _; rfl
    | cons a rest =>
      intro h
      have : rest = [] := List.length_eq_zero_iff.mp (by simp only [List.length_cons] at h; omega)
      subst this; rfl
  rw [hinit]
  have e1 : (withRole .init items).map (fun f => Stmt.init f.name) =
      ((withRole .init items).map (fun f => (Stmt.init f.name, Step.hook f.toCall))).map Prod.fst := by
    rw [List.map_map]; rfl
  have e2 : hooks .init items =
      ((withRole .init items).map (fun f => (Stmt.init f.name, Step.hook f.toCall))).map Prod.snd := by
    rw [List.map_map]; rfl
  rw [e1, e2]
  refine follows_append b n _ _ 1 ?_ _ ?_ w
  · intro w
    refine follows_tests b n _ _ (fun i w => ?_) items ha _ 1 w
    refine .event ?_
    refine follows_hooks b n _ _ i (fun w => ?_) .teardown items (ha.once _ (by decide)) w
    exact .event .done
  · intro x hx
    obtain ⟨f, hf, rfl⟩ := List.mem_map.mp hx
    have hf := mem_ofRole.mp hf
    exact .init ((ha.each f hf.1).init hf.2)

end Defmt.Harness
