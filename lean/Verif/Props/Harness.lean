import Verif.Lemmas.Harness
/-!
# C87 to C89: the test harness

A module that is accepted is run in the order of its source: init; for each test its announcement, before-each, the test, after-each; the
verdict; teardown; exit. The verdict is positive exactly if everything returned and every test had the outcome that was wanted. The
modules that are accepted are those the README describes.

Two things differ from the README. A test with `#[ignore]` is called nevertheless, only its outcome does not count: if it panics, the run
ends (`C87_fails`). A function with two roles is accepted and has the last one only (`C89_fails`).
-/

namespace Defmt
open Harness

/-! ### a module -/

def demoModule : List Item :=
  [.other,
   .fn ⟨c!"setup", [.init], true, [], some c!"State"⟩,
   .fn ⟨c!"reset", [.beforeEach], true, [.mutRef c!"State"], none⟩,
   .fn ⟨c!"add", [.other, .test], true, [.mutRef c!"State"], none⟩,
   .fn ⟨c!"nightly", [.cfg false, .test], true, [], none⟩,
   .fn ⟨c!"div", [.test, .shouldError], true, [], some c!"Result<(), ()>"⟩,
   .fn ⟨c!"slow", [.test, .ignore], true, [], none⟩,
   .fn ⟨c!"done", [.teardown], true, [], none⟩]

/-- Without the ignored test. -/
def demoModule2 : List Item := demoModule.take 6 ++ demoModule.drop 7

/-- `div` returns an error, `slow` panics, the others succeed; the world counts calls. -/
def demoFns : Behaviour Nat := fun name n =>
  if name = c!"div" then some (false, n + 1) else if name = c!"slow" then none else some (true, n + 1)

/-! ### C87: the order -/

/-- The run of a module, ignored tests being called. -/
theorem C87_exact {W : Type} (items : List Item) (p : Program) (h : expand items = .ok p) (b : Behaviour W) (w : W) :
    Follows b w (allSteps true items) (p.run b w) := by
  obtain ⟨ha, rfl⟩ := (expand_iff items p).mp h
  exact follows_program b items ha w

/-- The run is as specified (`allSteps false`, where ignored tests are not called) if no test that is compiled is ignored. Missing: modules
with ignored tests, where it is not (`C87_fails`). -/
theorem C87_order_partial {W : Type} (items : List Item) (p : Program) (h : expand items = .ok p)
    (hi : ∀ f ∈ tests items, f.isIgnored = false) (b : Behaviour W) (w : W) :
    Follows b w (allSteps false items) (p.run b w) := by
  have key : ∀ n i (l : List Fn), (∀ f ∈ l, f.isIgnored = false) → testsFrom true items n i l = testsFrom false items n i l := by
    intro n i l
    induction l generalizing i with
    | nil => intro _; rfl
    | cons f rest ih =>
      intro hl
      simp only [List.mem_cons, forall_eq_or_imp] at hl
      simp only [testsFrom, ih (i + 1) hl.2, testSteps, hl.1, Bool.false_eq_true, if_false]
  have := C87_exact items p h b w
  unfold allSteps suite at this ⊢
  rw [key _ _ _ hi] at this
  exact this

/-- What is observed is determined by the steps: with `C87_exact` every other sequence of events is excluded. -/
theorem C87_deterministic {W : Type} (b : Behaviour W) (w : W) (s : List Step) (t t' : List Event)
    (h : Follows b w s t) (h' : Follows b w s t') : t = t' := by
  induction h generalizing t' with
  | done => cases h'; rfl
  | event _ ih => cases h' with | event h' => rw [ih _ h']
  | returns hb _ ih =>
    cases h' with
    | returns hb' h' => rw [hb] at hb'; cases hb'; rw [ih _ h']
    | panicsHook hb' => rw [hb] at hb'; cases hb'
  | passes hb hx _ ih =>
    cases h' with
    | passes hb' _ h' => rw [hb] at hb'; cases hb'; rw [ih _ h']
    | panicsTest hb' => rw [hb] at hb'; cases hb'
    | fails hb' => rw [hb] at hb'; cases hb'; exact absurd rfl hx
  | panicsHook hb =>
    cases h' with
    | returns hb' _ => rw [hb] at hb'; cases hb'
    | panicsHook _ => rfl
  | panicsTest hb =>
    cases h' with
    | passes hb' _ _ => rw [hb] at hb'; cases hb'
    | panicsTest _ => rfl
    | fails hb' => rw [hb] at hb'; cases hb'
  | fails hb =>
    cases h' with
    | passes hb' hx _ => rw [hb] at hb'; cases hb'; exact absurd rfl hx
    | panicsTest hb' => rw [hb] at hb'; cases hb'
    | fails _ => rfl

/-- An ignored test is called; here it panics and the tests do not pass, although all others do. -/
theorem C87_fails : ∃ p, expand demoModule = .ok p ∧
    .progress 3 3 true c!"slow" ∈ p.run demoFns 0 ∧ .call ⟨c!"slow", false⟩ ∈ p.run demoFns 0 ∧ .passed ∉ p.run demoFns 0 ∧
    ¬ Follows demoFns 0 (allSteps false demoModule) (p.run demoFns 0) := by
  refine ⟨programOf (functions demoModule), rfl, by decide, by decide, by decide, fun h => ?_⟩
  let want : List Event :=
    [.call ⟨c!"setup", false⟩, .progress 1 3 false c!"add", .call ⟨c!"reset", true⟩, .call ⟨c!"add", true⟩,
     .progress 2 3 false c!"div", .call ⟨c!"reset", true⟩, .call ⟨c!"div", false⟩, .progress 3 3 true c!"slow", .passed,
     .call ⟨c!"done", false⟩, .exit]
  have h' : Follows demoFns 0 (allSteps false demoModule) want :=
    .returns (x := true) (w' := 1) rfl (.event (.returns (x := true) (w' := 2) rfl (.passes (x := true) (w' := 3) rfl (by decide)
      (.event (.returns (x := true) (w' := 4) rfl (.passes (x := false) (w' := 5) rfl (by decide) (.event (.event
        (.returns (x := true) (w' := 6) rfl (.event .done))))))))))
  have := C87_deterministic _ _ _ _ _ h h'
  revert this
  decide

-- the run of a module without ignored tests
example : ∃ p, expand demoModule2 = .ok p ∧ (∀ f ∈ tests demoModule2, f.isIgnored = false) ∧ p.run demoFns 0 =
    [.call ⟨c!"setup", false⟩, .progress 1 2 false c!"add", .call ⟨c!"reset", true⟩, .call ⟨c!"add", true⟩,
     .progress 2 2 false c!"div", .call ⟨c!"reset", true⟩, .call ⟨c!"div", false⟩, .passed, .call ⟨c!"done", false⟩, .exit] :=
  ⟨programOf (functions demoModule2), rfl, by decide, rfl⟩

/-! ### C88: the verdict -/

/-- An event that comes neither from a call nor from a failure is seen only if everything before its step passed. -/
theorem Harness.verdict_iff {W : Type} (b : Behaviour W) (w : W) (s1 s2 : List Step) (e : Event) (t : List Event)
    (h : Follows b w (s1 ++ .event e :: s2) t) (hc : ∀ c, e ≠ .call c) (hf : ∀ x, e ≠ .failed x)
    (h1 : ∀ e', .event e' ∈ s1 → e' ≠ e) : e ∈ t ↔ AllPass b w s1 := by
  induction s1 generalizing w t with
  | nil =>
    cases h with
    | event _ => exact ⟨fun _ => .done, fun _ => List.mem_cons_self ..⟩
  | cons s s1 ih =>
    have h1' : ∀ e', .event e' ∈ s1 → e' ≠ e := fun e' hm => h1 e' (List.mem_cons_of_mem _ hm)
    simp only [List.cons_append] at h
    cases h with
    | @event _ e' _ t' h =>
      have := ih w t' h h1'
      have hne := h1 e' (List.mem_cons_self ..)
      rw [List.mem_cons, this]
      constructor
      · rintro (h | h)
        · exact absurd h.symm hne
        · exact .event h
      · intro h; cases h with | event h => exact .inr h
    | @returns _ c x w' _ t' hb h =>
      rw [List.mem_cons, ih w' t' h h1']
      constructor
      · rintro (h | h)
        · exact absurd h (hc _)
        · exact .hook hb h
      · intro h; cases h with | hook hb' h => rw [hb] at hb'; cases hb'; exact .inr h
    | @passes _ c e' x w' _ t' hb hx h =>
      rw [List.mem_cons, ih w' t' h h1']
      constructor
      · rintro (h | h)
        · exact absurd h (hc _)
        · cases e' <;> cases x
          · exact absurd rfl hx
          · exact .success hb h
          · exact .error hb h
          · exact absurd rfl hx
      · intro h
        cases h with
        | success hb' h => rw [hb] at hb'; cases hb'; exact .inr h
        | error hb' h => rw [hb] at hb'; cases hb'; exact .inr h
    | panicsHook hb =>
      rw [List.mem_singleton]
      constructor
      · intro h; exact absurd h (hc _)
      · intro h; cases h with | hook hb' _ => rw [hb] at hb'; cases hb'
    | panicsTest hb =>
      rw [List.mem_singleton]
      constructor
      · intro h; exact absurd h (hc _)
      · intro h
        cases h with
        | success hb' _ => rw [hb] at hb'; cases hb'
        | error hb' _ => rw [hb] at hb'; cases hb'
    | fails hb =>
      simp only [List.mem_cons, List.not_mem_nil, or_false]
      constructor
      · rintro (h | h)
        · exact absurd h (hc _)
        · exact absurd h (hf _)
      · intro h
        cases h with
        | success hb' _ => rw [hb] at hb'; cases hb'
        | error hb' _ => rw [hb] at hb'; cases hb'

theorem Harness.hooks_events (r : Role) (items : List Item) (e : Event) : Step.event e ∉ hooks r items := by
  simp [hooks]

theorem Harness.tests_events (items : List Item) (n i : Nat) (l : List Fn) (e : Event) (h : Step.event e ∈ testsFrom true items n i l) :
    ∃ j ig name, e = .progress j n ig name := by
  induction l generalizing i with
  | nil => cases h
  | cons f rest ih =>
    simp only [testsFrom, testSteps, List.cons_append, List.mem_cons, List.mem_append] at h
    rcases h with h | h | h
    · cases h; exact ⟨_, _, _, rfl⟩
    · split at h
      · simp at h
      · simp [hooks] at h
    · exact ih _ h

theorem Harness.suite_events (items : List Item) (e : Event) (h : Step.event e ∈ suite true items) :
    ∃ j ig name, e = .progress j (tests items).length ig name := by
  simp only [suite, List.mem_append] at h
  rcases h with h | h
  · exact absurd h (hooks_events _ _ _)
  · exact tests_events _ _ _ _ _ h

/-- "all tests passed!" is shown exactly if the init function, the tests and the functions before and after them return and the tests have
the outcome that is wanted; ignored tests have to return as well. -/
theorem C88_verdict {W : Type} (items : List Item) (p : Program) (h : expand items = .ok p) (b : Behaviour W) (w : W) :
    .passed ∈ p.run b w ↔ AllPass b w (suite true items) := by
  have := C87_exact items p h b w
  unfold allSteps at this
  simp only [List.append_assoc, List.cons_append, List.nil_append] at this
  refine verdict_iff b w _ _ _ _ this (fun _ h => by cases h) (fun _ h => by cases h) (fun e he => ?_)
  obtain ⟨_, _, _, rfl⟩ := suite_events items e he
  intro h; cases h

/-- The same with ignored tests left out of account, as specified. Missing: modules with ignored tests (`C87_fails`). -/
theorem C88_verdict_partial {W : Type} (items : List Item) (p : Program) (h : expand items = .ok p)
    (hi : ∀ f ∈ tests items, f.isIgnored = false) (b : Behaviour W) (w : W) :
    .passed ∈ p.run b w ↔ AllPass b w (suite false items) := by
  have := C87_order_partial items p h hi b w
  unfold allSteps at this
  simp only [List.append_assoc, List.cons_append, List.nil_append] at this
  refine verdict_iff b w _ _ _ _ this (fun _ h => by cases h) (fun _ h => by cases h) (fun e he => ?_)
  have key : Step.event e ∈ suite true items := by
    simp only [suite, List.mem_append] at he ⊢
    rcases he with h | h
    · exact .inl h
    · refine .inr ?_
      clear this hi
      generalize (tests items).length = n at h ⊢
      generalize 1 = i at h ⊢
      generalize tests items = l at h ⊢
      induction l generalizing i with
      | nil => cases h
      | cons f rest ih =>
        simp only [testsFrom, testSteps, List.cons_append, List.mem_cons, List.mem_append] at h ⊢
        rcases h with h | h | h
        · exact .inl h
        · split at h
          · simp at h
          · rename_i hi; rw [if_neg hi]; exact .inr (.inl h)
        · exact .inr (.inr (ih _ h))
  obtain ⟨_, _, _, rfl⟩ := suite_events items e key
  intro h; cases h

/-- The application exits with status 0 exactly if moreover the teardown function returns. -/
theorem C88_exit {W : Type} (items : List Item) (p : Program) (h : expand items = .ok p) (b : Behaviour W) (w : W) :
    .exit ∈ p.run b w ↔ AllPass b w (suite true items ++ .event .passed :: hooks .teardown items) := by
  have := C87_exact items p h b w
  unfold allSteps at this
  have e : suite true items ++ [Step.event Event.passed] ++ hooks .teardown items ++ [.event .exit] =
      (suite true items ++ .event .passed :: hooks .teardown items) ++ .event .exit :: [] := by simp
  rw [e] at this
  refine verdict_iff b w _ _ _ _ this (fun _ h => by cases h) (fun _ h => by cases h) (fun e he => ?_)
  simp only [List.mem_append, List.mem_cons] at he
  rcases he with he | he | he
  · obtain ⟨_, _, _, rfl⟩ := suite_events items e he
    intro h; cases h
  · cases he; intro h; cases h
  · exact absurd he (hooks_events _ _ _)

-- `div` succeeds although an error is wanted: the tests do not pass
example : ∃ p, expand demoModule2 = .ok p ∧ .passed ∈ p.run demoFns 0 ∧ .exit ∈ p.run demoFns 0 ∧
    .passed ∉ p.run (fun _ n => some (true, n)) 0 ∧ .failed true ∈ p.run (fun _ n => some (true, n)) 0 :=
  ⟨programOf (functions demoModule2), rfl, by decide, by decide, by decide, by decide⟩

/-! ### C89: the modules that are accepted -/

/-- A module is accepted exactly if every function has a role (the last one counts), init, teardown, before-each and after-each functions
occur once at most and without `#[should_error]` and `#[ignore]`, the signatures are plain with no parameter or one `&mut T` where `T` is
what init returns, and no function that is called is left out by a `#[cfg]`. Missing: that functions with several roles are rejected
(`C89_fails`). -/
theorem C89_accepted_partial (items : List Item) : (∃ p, expand items = .ok p) ↔ Accepted items := by
  constructor
  · rintro ⟨p, h⟩; exact ((expand_iff items p).mp h).1
  · intro h; exact ⟨_, (expand_iff items _).mpr ⟨h, rfl⟩⟩

/-- A function that is marked as a test and as a before-each function is accepted, and is not run as a test: no test fails because there is
none. -/
theorem C89_fails : ∃ f p, expand [.fn f] = .ok p ∧ FnAttr.test ∈ f.attrs ∧ FnAttr.beforeEach ∈ f.attrs ∧
    p.run (fun _ () => none) () = [.passed, .exit] :=
  ⟨⟨c!"check", [.test, .beforeEach], true, [], none⟩, programOf [⟨c!"check", [.test, .beforeEach], true, [], none⟩], rfl, by decide,
    by decide, rfl⟩

-- the module above is accepted; with a second init function, a state of another type, or without a role it is not
example : Accepted demoModule := (C89_accepted_partial _).mp ⟨programOf (functions demoModule), rfl⟩
example : expand (.fn ⟨c!"setup2", [.init], true, [], none⟩ :: demoModule) = .error (.duplicate .init) := rfl
example : expand (.fn ⟨c!"t", [.test], true, [.mutRef c!"Other"], none⟩ :: demoModule) = .error (.stateType .test) := rfl
example : expand (.fn ⟨c!"helper", [], true, [], none⟩ :: demoModule) = .error .noRole := rfl

end Defmt
