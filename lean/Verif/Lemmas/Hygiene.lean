import Verif.Spec.Hygiene
/-!
# Lemmas about the generated code
-/

namespace Defmt.Hygiene

variable {V S : Type}

theorem next_none {α β : Type} (s : S) (f : α → S → Option β × S) : next (none, s) f = (none, s) := rfl
theorem next_some {α β : Type} (a : α) (s : S) (f : α → S → Option β × S) : next (some a, s) f = f a s := rfl

theorem evalAll_user (l : Lang V S) (ρ : Env V) : ∀ (es : List (UserExp V S)) (s : S), evalAll l (es.map .user) ρ s = inOrder ρ es s := by
  intro es
  induction es with
  | nil => intro s; simp [evalAll, inOrder]
  | cons e es ih =>
    intro s
    rw [List.map_cons, evalAll, eval, inOrder]
    rcases e ρ s with ⟨_ | v, s⟩
    · rfl
    · simp only [next_some]
      rw [ih]
      rcases inOrder ρ es s with ⟨_ | vs, s⟩ <;> rfl

theorem evalAll_append (l : Lang V S) (ρ : Env V) : ∀ (as bs : List (Exp V S)) (s : S),
    evalAll l (as ++ bs) ρ s = next (evalAll l as ρ s) fun vs s => next (evalAll l bs ρ s) fun ws s => (some (vs ++ ws), s) := by
  intro as
  induction as with
  | nil =>
    intro bs s
    simp only [List.nil_append, evalAll, next_some]
    rcases evalAll l bs ρ s with ⟨_ | v, s⟩ <;> rfl
  | cons a as ih =>
    intro bs s
    rw [List.cons_append, evalAll, evalAll]
    rcases eval l a ρ s with ⟨_ | v, s⟩
    · rfl
    · simp only [next_some]
      rw [ih]
      rcases evalAll l as ρ s with ⟨_ | vs, s⟩
      · rfl
      · simp only [next_some]
        rcases evalAll l bs ρ s with ⟨_ | ws, s⟩ <;> rfl

theorem evalAll_vars (l : Lang V S) (ρ : Env V) : ∀ (xs : List Name) (vs : List V) (s : S), lookups ρ xs = some vs →
    evalAll l (xs.map .var) ρ s = (some vs, s) := by
  intro xs
  induction xs with
  | nil => intro vs s h; simp [lookups] at h; subst h; rfl
  | cons x xs ih =>
    intro vs s h
    rw [lookups] at h
    rw [List.map_cons, evalAll, eval]
    cases h1 : ρ x with
    | none => rw [h1] at h; cases h
    | some v =>
      cases h2 : lookups ρ xs with
      | none => rw [h1, h2] at h; cases h
      | some ws =>
        rw [h1, h2] at h
        cases h
        rw [next_some, ih _ _ h2]
        rfl

theorem inOrder_length (ρ : Env V) : ∀ (es : List (UserExp V S)) (s s' : S) (vs : List V), inOrder ρ es s = (some vs, s') → vs.length = es.length := by
  intro es
  induction es with
  | nil => intro s s' vs h; cases h; rfl
  | cons e es ih =>
    intro s s' vs h
    rw [inOrder] at h
    rcases he : e ρ s with ⟨_ | v, s1⟩
    · rw [he] at h; cases h
    · rw [he] at h
      simp only at h
      rcases hi : inOrder ρ es s1 with ⟨_ | ws, s2⟩
      · rw [hi] at h; cases h
      · rw [hi] at h
        cases h
        simp [ih _ _ _ hi]

theorem bindAll_other : ∀ (xs : List Name) (vs : List V) (ρ : Env V) (x : Name), x ∉ xs → bindAll xs vs ρ x = ρ x := by
  intro xs
  induction xs with
  | nil => intros; rfl
  | cons y xs ih =>
    intro vs ρ x h
    simp only [List.mem_cons, not_or] at h
    cases vs with
    | nil => rfl
    | cons v vs =>
      rw [bindAll, ih _ _ _ h.2]
      simp [Env.set, h.1]

theorem lookups_congr {ρ ρ' : Env V} : ∀ (xs : List Name), (∀ x ∈ xs, ρ x = ρ' x) → lookups ρ xs = lookups ρ' xs := by
  intro xs
  induction xs with
  | nil => intro _; rfl
  | cons x xs ih =>
    intro h
    rw [lookups, lookups, h x (by simp), ih (fun y hy => h y (by simp [hy]))]

theorem lookups_bindAll : ∀ (xs : List Name) (vs : List V) (ρ : Env V), xs.Nodup → vs.length = xs.length → lookups (bindAll xs vs ρ) xs = some vs := by
  intro xs
  induction xs with
  | nil => intro vs ρ _ h; cases vs with | nil => rfl | cons _ _ => cases h
  | cons x xs ih =>
    intro vs ρ hn h
    cases vs with
    | nil => cases h
    | cons v vs =>
      obtain ⟨h1, h2⟩ := List.nodup_cons.mp hn
      rw [bindAll, lookups, bindAll_other _ _ _ _ h1, ih _ _ h2 (by simpa using h)]
      simp [Env.set]

theorem argName_inj {i j : Nat} (h : argName i = argName j) : i = j := by
  unfold argName at h
  have h := List.append_cancel_left h
  have := congrArg (fun d => Nat.ofDigitChars 10 d 0) h
  simpa using this

theorem patterns_nodup (n : Nat) : (patterns n).Nodup := by
  unfold patterns
  exact List.Pairwise.map _ (fun _ _ h e => h (argName_inj e)) List.nodup_range

theorem patterns_length (n : Nat) : (patterns n).length = n := by simp [patterns]

/-- the statement that sends, after its arguments -/
theorem send_patterns (l : Lang V S) (what : Sent) (fmt : List Char) (vs : List V) (n : Nat) (h : vs.length = n) (ρ : Env V) (s : S) :
    eval l (.send what fmt (patterns n)) (bindAll (patterns n) vs ρ) s = (some l.unit, l.emit what fmt vs s) := by
  rw [eval, lookups_bindAll _ _ _ (patterns_nodup n) (by rw [patterns_length, h])]

/-- a statement with any arguments -/
theorem bind_send (l : Lang V S) (what : Sent) (fmt : List Char) (es : List (Exp V S)) (ρ : Env V) (s : S)
    (hl : ∀ vs s', evalAll l es ρ s = (some vs, s') → vs.length = es.length) :
    eval l (.bind es (patterns es.length) (.send what fmt (patterns es.length))) ρ s =
      match evalAll l es ρ s with
      | (none, s) => (none, s)
      | (some vs, s) => (some l.unit, l.emit what fmt vs s) := by
  rw [eval]
  rcases h : evalAll l es ρ s with ⟨_ | vs, s'⟩
  · rfl
  · rw [next_some]
    exact send_patterns l what fmt vs _ (hl _ _ h) ρ s'

/-- a log statement with any arguments -/
theorem log_expansion (l : Lang V S) (filter : Option Bool) (level : Level) (m : Message (Exp V S)) (ρ : Env V) (s : S)
    (hl : ∀ vs s', evalAll l m.args ρ s = (some vs, s') → vs.length = m.args.length) :
    eval l (logExpansion filter level m) ρ s =
      match evalAll l m.args ρ s with
      | (none, s) => (none, s)
      | (some vs, s) => (some l.unit, if filter = some true then l.emit (.log level) m.fmt vs s else s) := by
  cases filter with
  | none =>
    rw [logExpansion, eval]
    rcases evalAll l m.args ρ s with ⟨_ | vs, s'⟩ <;> simp [next]
  | some check =>
    cases check with
    | true =>
      rw [logExpansion]
      simp only [if_true]
      exact bind_send l _ _ _ _ _ hl
    | false =>
      rw [logExpansion]
      simp only [Bool.false_eq_true, if_false]
      rw [eval]
      rcases evalAll l m.args ρ s with ⟨_ | vs, s'⟩ <;> simp [next, eval]

/-- a log statement whose arguments are expressions of the user and then variables of the macro -/
theorem log_said (l : Lang V S) (filter : Option Bool) (level : Level) (fmt : List Char) (es : List (UserExp V S)) (xs : List Name) (more : List V)
    (ρ : Env V) (s : S) (hx : lookups ρ xs = some more) :
    eval l (logExpansion filter level ⟨fmt, es.map .user ++ xs.map .var⟩) ρ s = said l (filter = some true) (.log level) fmt ρ es more s := by
  have he : evalAll l (es.map .user ++ xs.map .var) ρ s = match inOrder ρ es s with
      | (none, s) => (none, s)
      | (some vs, s) => (some (vs ++ more), s) := by
    rw [evalAll_append, evalAll_user]
    rcases inOrder ρ es s with ⟨_ | vs, s'⟩
    · rfl
    · rw [next_some, evalAll_vars l ρ xs more _ hx]; rfl
  have hlen : more.length = xs.length := by
    clear he
    induction xs generalizing more with
    | nil => simp [lookups] at hx; subst hx; rfl
    | cons x xs ih =>
      rw [lookups] at hx
      cases h1 : ρ x with
      | none => rw [h1] at hx; cases hx
      | some v =>
        cases h2 : lookups ρ xs with
        | none => rw [h1, h2] at hx; cases hx
        | some ws => rw [h1, h2] at hx; cases hx; simp [ih _ h2]
  rw [log_expansion, said]
  · simp only [he]
    rcases inOrder ρ es s with ⟨_ | vs, s'⟩
    · rfl
    · simp
  · intro vs s' h
    rw [he] at h
    rcases hi : inOrder ρ es s with ⟨_ | ws, s1⟩
    · rw [hi] at h; cases h
    · rw [hi] at h
      cases h
      simp [inOrder_length _ _ _ _ _ hi, hlen]

theorem log_plain (l : Lang V S) (filter : Option Bool) (level : Level) (fmt : List Char) (es : List (UserExp V S)) (ρ : Env V) (s : S) :
    eval l (logExpansion filter level ⟨fmt, es.map .user⟩) ρ s = said l (filter = some true) (.log level) fmt ρ es [] s := by
  have := log_said l filter level fmt es [] [] ρ s rfl
  simpa using this

theorem seq_panic (l : Lang V S) (a : Exp V S) (ρ : Env V) (s : S) : eval l (.seq a .panic) ρ s = thenPanics l (eval l a ρ s) := by
  rw [eval]
  rcases eval l a ρ s with ⟨_ | v, s'⟩
  · rfl
  · simp [next, eval, thenPanics]

theorem send_said (l : Lang V S) (what : Sent) (fmt : List Char) (es : List (UserExp V S)) (ρ : Env V) (s : S) :
    eval l (.bind (es.map .user) (patterns (es.map (Exp.user (V := V))).length) (.send what fmt (patterns (es.map (Exp.user (V := V))).length))) ρ s =
      said l true what fmt ρ es [] s := by
  rw [bind_send, evalAll_user, said]
  · rcases inOrder ρ es s with ⟨_ | vs, s'⟩ <;> simp
  · intro vs s' h
    rw [evalAll_user] at h
    simp [inOrder_length _ _ _ _ _ h]

theorem inOrder_congr {ρ ρ' : Env V} : ∀ (es : List (UserExp V S)), (∀ e ∈ es, ∀ s, e ρ s = e ρ' s) → ∀ s, inOrder ρ es s = inOrder ρ' es s := by
  intro es
  induction es with
  | nil => intro _ s; rfl
  | cons e es ih =>
    intro h s
    rw [inOrder, inOrder, h e (by simp)]
    rcases e ρ' s with ⟨_ | v, s'⟩
    · rfl
    · simp only
      rw [ih (fun e he => h e (by simp [he]))]

theorem said_congr (l : Lang V S) (on : Bool) (what : Sent) (fmt : List Char) {ρ ρ' : Env V} (es : List (UserExp V S))
    (h : ∀ e ∈ es, ∀ s, e ρ s = e ρ' s) (more : List V) (s : S) : said l on what fmt ρ es more s = said l on what fmt ρ' es more s := by
  rw [said, said, inOrder_congr es h]

/-- one expression of `dbg!` -/
def dbgOne (filter : Option Bool) (e : List Char × Exp V S) : Exp V S :=
  .bind [e.2] [c!"tmp"] (.seq (logExpansion filter .trace ⟨Macros.escapedExprString e.1 ++ c!" = {}", [variable_ c!"tmp"]⟩) (.var c!"tmp"))

theorem dbgOne_eval (l : Lang V S) (filter : Option Bool) (text : List Char) (e : UserExp V S) (ρ : Env V) (s : S) :
    eval l (dbgOne filter (text, .user e)) ρ s =
      match e ρ s with
      | (none, s) => (none, s)
      | (some v, s) => (some v, if filter = some true then l.emit (.log .trace) (Macros.escapedExprString text ++ c!" = {}") [v] s else s) := by
  rw [dbgOne, eval]
  simp only [evalAll, eval]
  rcases e ρ s with ⟨_ | v, s'⟩
  · rfl
  · simp only [next_some, bindAll]
    have := log_said l filter .trace (Macros.escapedExprString text ++ c!" = {}") [] [c!"tmp"] [v] (ρ.set c!"tmp" v) s' (by simp [lookups, Env.set])
    simp only [List.map_nil, List.nil_append, List.map_cons] at this
    rw [show (variable_ c!"tmp" : Exp V S) = .var c!"tmp" from rfl, this]
    simp [said, inOrder, next, Env.set]

theorem dbg_all (l : Lang V S) (filter : Option Bool) (ρ : Env V) : ∀ (es : List (List Char × UserExp V S)) (s : S),
    evalAll l ((es.map fun e => (e.1, Exp.user e.2)).map (dbgOne filter)) ρ s = dbgMeans l (filter = some true) ρ es s := by
  intro es
  induction es with
  | nil => intro s; rfl
  | cons e es ih =>
    intro s
    obtain ⟨text, e⟩ := e
    rw [List.map_cons, List.map_cons, evalAll, dbgOne_eval, dbgMeans]
    simp only []
    rcases e ρ s with ⟨_ | v, s'⟩
    · rfl
    · simp only [next_some, decide_eq_true_eq]
      rw [ih]
      generalize dbgMeans l _ ρ es _ = r
      rcases r with ⟨_ | vs, s2⟩ <;> rfl

end Defmt.Hygiene
