import Verif.Lemmas.EnvFilter
/-!
# C43-C47, C61: the `DEFMT_LOG` filter

`ident` is `syn::parse_str::<Ident>(..).is_ok()`; nothing is assumed about it, except where `IdentOk` is a
hypothesis. `Reads ident text ds` says that the environment variable contains the directives `ds`; `m` is
the module path of the log statement, `krate` its first segment.
-/

namespace Defmt
open EnvFilter

theorem EnvFilter.rank_passes {min level : Level} : rank min ≤ rank level ↔ Passes (some min) level := by
  cases min <;> cases level <;> simp [rank, Passes]

theorem EnvFilter.head_of_encloses {p m : ModulePath} {krate : List UInt8} (hm : m.head? = some krate)
    (h : Encloses p m) : p = [] ∨ p.head? = some krate := by
  obtain ⟨r, rfl⟩ := h
  cases p with
  | nil => exact .inl rfl
  | cons s p => exact .inr (by simpa using hm)

theorem EnvFilter.givenTo_nil {ident : List UInt8 → Bool} {text krate : List UInt8} {ds : List Directive}
    (hr : Reads ident text ds) : givenTo ds krate [] = none := by
  obtain ⟨ts, -, -, hds⟩ := hr
  unfold givenTo
  have : lastFor [] ds = none := by
    generalize ts.filter _ = us at hds
    induction hds with
    | nil => rfl
    | @cons t d ts ds h _ ih =>
      simp only [lastFor, ih]
      cases h with
      | all l => rfl
      | path p hp => simp only [if_neg hp.1]
      | pathLevel p l hp => simp only [if_neg hp.1]
  rw [this]
  simp

/-- What the filter does, exactly: a statement is compiled in if its level reaches the level given to some module
around it, and no module further inside is `off`. -/
theorem C45_exact (ident : List UInt8 → Bool) (text krate : List UInt8) (ds : List Directive) (level : Level)
    (m : List (List UInt8)) (hr : Reads ident text ds) (hk : IsPath ident [krate]) (hm : IsModule krate m) :
    Sends ident (some text) krate level m ↔
      ∃ p l, Encloses p m ∧ givenTo ds krate p = some l ∧ Passes l level ∧
        ∀ q, Encloses q m → p.length < q.length → givenTo ds krate q ≠ some none := by
  obtain ⟨f, h1, h2, h3, h4⟩ := new_spec hr hk
  have hmne : m ≠ [] := by intro h; rw [h] at hm; cases hm.1
  have hlook : ∀ q, Encloses q m → lookup q f = givenTo ds krate q := by
    intro q hq
    rcases head_of_encloses hm.1 hq with rfl | hh
    · rw [givenTo_nil hr]
      cases hl : lookup [] f with
      | none => rfl
      | some l => exact absurd rfl (h3 _ (lookup_some_mem hl)).1
    · exact h4 q hh
  have he := emits_iff h2 h3 hmne hm.2 level
  constructor
  · rintro ⟨f', hf', hs⟩
    rw [h1] at hf'
    cases hf'
    obtain ⟨p, min, a, b, c, d⟩ := he.mp hs
    refine ⟨p, some min, c, by rw [← hlook p c, a], rank_passes.mp b, fun q hq hlen hoff => ?_⟩
    have := d q (by rw [hlook q hq, hoff]) hq
    omega
  · rintro ⟨p, l, hp, hl, hpass, hall⟩
    refine ⟨f, h1, he.mpr ?_⟩
    cases l with
    | none => exact hpass.elim
    | some min =>
      refine ⟨p, min, by rw [hlook p hp, hl], rank_passes.mpr hpass, hp, fun q hq henc => ?_⟩
      rw [hlook q henc] at hq
      exact Nat.le_of_not_lt (fun hlt => hall q henc hlt hq)

/-- **C45** What the level in force lets pass is compiled in. -/
theorem C45_passes (ident : List UInt8 → Bool) (text krate : List UInt8) (ds : List Directive) (level : Level)
    (m : List (List UInt8)) (hr : Reads ident text ds) (hk : IsPath ident [krate]) (hm : IsModule krate m)
    (l : LevelOrOff) (hl : InForce ds krate m l) (hp : Passes l level) : Sends ident (some text) krate level m := by
  obtain ⟨p, h1, h2, h3⟩ := hl
  exact (C45_exact ident text krate ds level m hr hk hm).mpr
    ⟨p, l, h1, h2, hp, fun q hq hlen h => by rw [h3 q hq hlen] at h; cases h⟩

/-- **C45** Where `off` is in force, nothing is compiled in. -/
theorem C45_off (ident : List UInt8 → Bool) (text krate : List UInt8) (ds : List Directive) (level : Level)
    (m : List (List UInt8)) (hr : Reads ident text ds) (hk : IsPath ident [krate]) (hm : IsModule krate m)
    (hl : InForce ds krate m none) : ¬ Sends ident (some text) krate level m := by
  obtain ⟨p, h1, h2, h3⟩ := hl
  rw [C45_exact ident text krate ds level m hr hk hm]
  rintro ⟨q, l, a, b, c, d⟩
  rcases Nat.lt_trichotomy p.length q.length with h | h | h
  · rw [h3 q a h] at b; cases b
  · have := eq_of_length h1 a h.symm
    subst this
    rw [h2] at b
    cases b
    exact c
  · exact d p h1 h h2

/-- **C45** A statement is compiled in exactly if the level in force lets it pass, provided that no module around
it has been given a level that lets more pass than the level in force.

`_partial`: without the last hypothesis this is false (`C45_disagrees`); the statement is then compiled in although
the level in force does not let it pass. `C45_exact` says what happens in all cases. -/
theorem C45_most_specific_partial (ident : List UInt8 → Bool) (text krate : List UInt8) (ds : List Directive)
    (level : Level) (m : List (List UInt8)) (hr : Reads ident text ds) (hk : IsPath ident [krate])
    (hm : IsModule krate m) (l : LevelOrOff) (hl : InForce ds krate m l)
    (houter : l = none ∨ ∀ p l', Encloses p m → givenTo ds krate p = some l' → AtLeast l' l) :
    Sends ident (some text) krate level m ↔ Passes l level := by
  refine ⟨fun hs => ?_, C45_passes ident text krate ds level m hr hk hm l hl⟩
  rcases houter with rfl | houter
  · exact absurd hs (C45_off ident text krate ds level m hr hk hm hl)
  · obtain ⟨p, l', h1, h2, h3, -⟩ := (C45_exact ident text krate ds level m hr hk hm).mp hs
    exact houter p l' h1 h2 level h3

/-- `DEFMT_LOG=warn,app::noisy=info` meets the hypotheses in `app::noisy::inner`. -/
example (level : Level) : Sends asciiIdent (some b!"warn,app::noisy=info") b!"app" level [b!"app", b!"noisy", b!"inner"] ↔
    Passes (some .info) level := by
  refine C45_most_specific_partial _ _ _ [.all (some .warn), .inModule [b!"app", b!"noisy"] (some .info)] _ _
    ⟨[b!"warn", b!"app::noisy=info"], rfl, by decide, .cons (.all (some .warn)) (.cons (.pathLevel [b!"app", b!"noisy"] (some .info)
      ⟨by decide, by decide, by decide⟩) .nil)⟩
    ⟨by decide, by decide, by decide⟩ ⟨rfl, by decide⟩ _ ⟨[b!"app", b!"noisy"], ⟨[b!"inner"], rfl⟩, by decide, ?_⟩ (.inr ?_)
  · rintro q ⟨r, hr⟩ hlen
    simp only [List.length_cons, List.length_nil] at hlen
    match q, hlen with
    | [a, b, c], _ =>
      simp only [List.cons_append, List.cons.injEq] at hr
      rw [← hr.1, ← hr.2.1, ← hr.2.2.1]
      decide
    | a :: b :: c :: d :: q, _ => simp at hr
  · intro p l' hp hl level h
    unfold givenTo at hl
    simp only [lastFor] at hl
    split at hl
    · rename_i l hl1
      cases hl
      split at hl1
      · rename_i h2
        split at h2
        · cases h2; cases hl1; exact h
        · cases h2
      · cases hl1
    · split at hl
      · cases hl
        simp only [lastGlobal, Option.getD_some, Passes] at h ⊢
        rcases h with h | h
        · exact .inr (.inl h)
        · exact .inr (.inr h)
      · cases hl

/-- Some level is always in force in a module of the crate. -/
theorem C45_some_level (ds : List Directive) (krate : List UInt8) (m : List (List UInt8)) (hm : IsModule krate m) :
    ∃ l, InForce ds krate m l := by
  have hk : ∃ l, givenTo ds krate [krate] = some l := by
    unfold givenTo
    cases lastFor [krate] ds with
    | some l => exact ⟨l, rfl⟩
    | none => exact ⟨_, if_pos rfl⟩
  have henc : Encloses [krate] m := by
    cases m with
    | nil => cases hm.1
    | cons s m =>
      have : s = krate := by simpa using hm.1
      exact ⟨m, by rw [this]; rfl⟩
  have key : ∀ n p, Encloses p m → m.length - p.length = n → (∃ l, givenTo ds krate p = some l) →
      ∃ l, InForce ds krate m l := by
    intro n
    induction n using Nat.strongRecOn with
    | ind n ih =>
      rintro p hp hn ⟨l, hl⟩
      by_cases hex : ∃ q, Encloses q m ∧ p.length < q.length ∧ ∃ l, givenTo ds krate q = some l
      · obtain ⟨q, hq, hlt, hl'⟩ := hex
        have hqm : q.length ≤ m.length := by obtain ⟨r, rfl⟩ := hq; simp
        exact ih (m.length - q.length) (by omega) q hq rfl hl'
      · refine ⟨l, p, hp, hl, fun q hq hlt => ?_⟩
        cases hg : givenTo ds krate q with
        | none => rfl
        | some l' => exact absurd ⟨q, hq, hlt, l', hg⟩ hex
  exact key _ [krate] henc rfl hk

/-- The example of the section "Overrides" of the book, `DEFMT_LOG=trace,app::inner=error`: "`app::inner` emits
ERROR level log messages". It also emits TRACE level messages. -/
theorem C45_disagrees :
    Reads asciiIdent b!"trace,app::inner=error"
      [.all (some .trace), .inModule [b!"app", b!"inner"] (some .error)] ∧
    IsPath asciiIdent [b!"app"] ∧ IsModule b!"app" [b!"app", b!"inner"] ∧
    InForce [.all (some .trace), .inModule [b!"app", b!"inner"] (some .error)] b!"app" [b!"app", b!"inner"]
      (some .error) ∧
    ¬ Passes (some .error) .trace ∧
    Sends asciiIdent (some b!"trace,app::inner=error") b!"app" .trace [b!"app", b!"inner"] := by
  refine ⟨⟨[b!"trace", b!"app::inner=error"], by decide, by decide, ?_⟩, ?_, ?_, ?_, ?_, ?_⟩
  · exact .cons (.all (some .trace)) (.cons (.pathLevel [b!"app", b!"inner"] (some .error)
      ⟨by decide, by decide, by decide⟩) .nil)
  · exact ⟨by decide, by decide, by decide⟩
  · exact ⟨by decide, by decide⟩
  · refine ⟨[b!"app", b!"inner"], ⟨[], rfl⟩, by decide, ?_⟩
    rintro q ⟨r, hr⟩ hlen
    have : q.length + r.length = 2 := by rw [← List.length_append, ← hr]; rfl
    simp only [List.length_cons, List.length_nil] at hlen
    omega
  · simp [Passes]
  · exact ⟨[([b!"app"], some .trace), ([b!"app", b!"inner"], some .error)], rfl, by decide +kernel⟩

/-- **C43** Without a directive for the crate or a module of it, exactly the statements that the last level for
everything (`error`, if there is none) lets pass are compiled in, in every module. -/
theorem C43_global (ident : List UInt8 → Bool) (text krate : List UInt8) (ds : List Directive) (level : Level)
    (m : List (List UInt8)) (hr : Reads ident text ds) (hk : IsPath ident [krate]) (hm : IsModule krate m)
    (hno : ∀ p l, .inModule p l ∈ ds → p.head? ≠ some krate) :
    Sends ident (some text) krate level m ↔ Passes ((lastGlobal ds).getD (some .error)) level := by
  have hlast : ∀ (p : List (List UInt8)), p.head? = some krate → lastFor p ds = none := by
    intro p hp
    clear hr
    induction ds with
    | nil => rfl
    | cons d ds ih =>
      simp only [lastFor]
      rw [ih (fun q l hq => hno q l (List.mem_cons_of_mem _ hq))]
      cases d with
      | all l => rfl
      | inModule q l =>
        simp only
        rw [if_neg]
        rintro rfl
        exact hno q l (by simp) hp
  have hgiven : ∀ q, Encloses q m → givenTo ds krate q =
      if q = [krate] then some ((lastGlobal ds).getD (some .error)) else none := by
    intro q hq
    rcases head_of_encloses hm.1 hq with rfl | hh
    · rw [givenTo_nil hr]; simp
    · unfold givenTo; rw [hlast q hh]
  rw [C45_exact ident text krate ds level m hr hk hm]
  constructor
  · rintro ⟨p, l, h1, h2, h3, -⟩
    rw [hgiven p h1] at h2
    split at h2
    · cases h2; exact h3
    · cases h2
  · intro h
    have henc : Encloses [krate] m := by
      cases m with
      | nil => cases hm.1
      | cons s m =>
        have : s = krate := by simpa using hm.1
        exact ⟨m, by rw [this]; rfl⟩
    refine ⟨[krate], _, henc, by rw [hgiven _ henc, if_pos rfl], h, fun q hq hlen => ?_⟩
    rw [hgiven q hq, if_neg]
    · simp
    · rintro rfl; omega

/-- **C43** If `DEFMT_LOG` is not set, exactly the `error!` statements are compiled in. -/
theorem C43_unset (ident : List UInt8 → Bool) (krate : List UInt8) (level : Level) (m : List (List UInt8))
    (hk : IsPath ident [krate]) (hm : IsModule krate m) :
    Sends ident none krate level m ↔ level = .error :=
  C43_global ident [] krate [] level m ⟨[], rfl, by simp, .nil⟩ hk hm (by simp)

example : Sends asciiIdent (some b!"warn") b!"app" .error [b!"app", b!"inner"] ∧
    ¬ Sends asciiIdent (some b!"warn") b!"app" .info [b!"app", b!"inner"] := by
  have hr : Reads asciiIdent b!"warn" [.all (some .warn)] :=
    ⟨[b!"warn"], rfl, by decide, .cons (.all (some .warn)) .nil⟩
  have hk : IsPath asciiIdent [b!"app"] := ⟨by decide, by decide, by decide⟩
  have hm : IsModule b!"app" [b!"app", b!"inner"] := ⟨rfl, by decide⟩
  constructor
  · rw [C43_global _ _ _ _ _ _ hr hk hm (by simp)]; simp [lastGlobal, Passes]
  · rw [C43_global _ _ _ _ _ _ hr hk hm (by simp)]; simp [lastGlobal, Passes]

/-! ### C44 -/

theorem EnvFilter.pieces_comma (a b : List UInt8) : pieces (a ++ 44 :: b) = pieces b ++ pieces a := by
  have : split 44 (a ++ 44 :: b) = split 44 a ++ split 44 b := by
    induction a with
    | nil => simp [split]
    | cons c a ih =>
      rw [List.cons_append, split, split, ih]
      split
      · simp
      · cases hs : split 44 a with
        | nil => exact absurd hs (split_ne_nil _ _)
        | cons p ps => simp
  unfold pieces
  rw [this, List.reverse_append, List.filter_append]

theorem EnvFilter.says_ne_nil {ident : List UInt8 → Bool} {t : List UInt8} {d : Directive} (h : Says ident t d) :
    t ≠ [] := by
  cases h with
  | all l => exact levelName_ne_nil l
  | path p hp => exact hp.2.1
  | pathLevel p l hp => simp

theorem EnvFilter.pieces_single {t : List UInt8} (h : 44 ∉ t) (hne : t ≠ []) : pieces t = [t] := by
  unfold pieces
  rw [split_no_sep h]
  simp [hne]

theorem EnvFilter.loop_append (ident : List UInt8 → Bool) (krate : List UInt8) (a b : List (List UInt8)) (f : Filter)
    (fb : Option LevelOrOff) :
    loop ident krate (a ++ b) f fb = match loop ident krate a f fb with
      | .error e => .error e
      | .ok (f', fb') => loop ident krate b f' fb' := by
  induction a generalizing f fb with
  | nil => rfl
  | cons t a ih =>
    rw [List.cons_append]
    simp only [loop]
    cases parseEntry ident t with
    | error e => rfl
    | ok e => cases e <;> exact ih _ _

theorem EnvFilter.loop_keeps {ident : List UInt8 → Bool} {krate : List UInt8} {a : List (List UInt8)} {f f' : Filter}
    {fb fb' : Option LevelOrOff} (h : loop ident krate a f fb = .ok (f', fb')) :
    (∀ p, mapContains p f = true → mapContains p f' = true) ∧ (fb.isSome = true → fb'.isSome = true) := by
  induction a generalizing f fb with
  | nil =>
    simp only [loop, Except.ok.injEq, Prod.mk.injEq] at h
    rw [h.1, h.2]
    exact ⟨fun _ h => h, fun h => h⟩
  | cons t a ih =>
    rw [loop.eq_def] at h
    simp only at h
    have hadd : ∀ q l p, mapContains p f = true → mapContains p (addEntry krate f q l) = true := by
      intro q l p hp
      rw [mapContains_iff] at hp ⊢
      rw [lookup_addEntry]
      cases hl : lookup p f with
      | none => rw [hl] at hp; cases hp
      | some x => rfl
    cases hp : parseEntry ident t with
    | error e => rw [hp] at h; cases h
    | ok e =>
      rw [hp] at h
      cases e with
      | logLevel l => exact ⟨(ih h).1, fun _ => (ih h).2 rfl⟩
      | modulePath p => exact ⟨fun q hq => (ih h).1 q (hadd _ _ _ hq), (ih h).2⟩
      | modulePathLogLevel p l => exact ⟨fun q hq => (ih h).1 q (hadd _ _ _ hq), (ih h).2⟩

/-- Going over a directive changes nothing if its path is of another crate or there already. -/
theorem EnvFilter.loop_skip {ident : List UInt8 → Bool} {krate t : List UInt8} {p : ModulePath} {l : LevelOrOff}
    (h : Says ident t (.inModule p l)) {f : Filter} {fb : Option LevelOrOff}
    (hskip : p.head? ≠ some krate ∨ mapContains p f = true) (rest : List (List UInt8)) :
    loop ident krate (t :: rest) f fb = loop ident krate rest f fb := by
  obtain ⟨e, he, hm⟩ := parseEntry_says h
  have hadd : ∀ l, addEntry krate f p l = f := by
    intro l
    unfold addEntry inCrate
    rcases hskip with h | h
    · simp [h]
    · simp [h]
  rw [loop.eq_def]
  simp only
  rw [he]
  cases e with
  | logLevel l => cases hm
  | modulePath q =>
    simp only [Entry.means, Directive.inModule.injEq] at hm
    rw [hm.1]; simp only; rw [hadd]
  | modulePathLogLevel q l =>
    simp only [Entry.means, Directive.inModule.injEq] at hm
    rw [hm.1]; simp only; rw [hadd]

theorem EnvFilter.loop_adds {ident : List UInt8 → Bool} {krate t : List UInt8} {p : ModulePath} {l : LevelOrOff}
    (h : Says ident t (.inModule p l)) {f : Filter} {fb : Option LevelOrOff} :
    ∃ f', (∀ rest, loop ident krate (t :: rest) f fb = loop ident krate rest f' fb) ∧
      (p.head? ≠ some krate ∨ mapContains p f' = true) := by
  obtain ⟨e, he, hm⟩ := parseEntry_says h
  have hadd : ∀ l, p.head? ≠ some krate ∨ mapContains p (addEntry krate f p l) = true := by
    intro l
    by_cases hk : p.head? = some krate
    · right
      rw [mapContains_iff, lookup_addEntry]
      cases lookup p f with
      | some x => rfl
      | none => simp [hk]
    · exact .inl hk
  cases e with
  | logLevel l => cases hm
  | modulePath q =>
    simp only [Entry.means, Directive.inModule.injEq] at hm
    rw [hm.1] at he
    refine ⟨addEntry krate f p (some .trace), fun rest => ?_, hadd _⟩
    rw [loop.eq_def]; simp only; rw [he]
  | modulePathLogLevel q l =>
    simp only [Entry.means, Directive.inModule.injEq] at hm
    rw [hm.1] at he
    refine ⟨addEntry krate f p l, fun rest => ?_, hadd _⟩
    rw [loop.eq_def]; simp only; rw [he]

/-- **C44** Of two directives for the same path, the earlier one can be dropped: `a,first,b,second,c` and
`a,b,second,c` give the same filter (or the same error), whatever `a`, `b` and `c` are. -/
theorem C44_later_overrides (ident : List UInt8 → Bool) (krate a b c first second : List UInt8) (p : List (List UInt8))
    (l l' : LevelOrOff) (h1 : Says ident first (.inModule p l)) (h2 : Says ident second (.inModule p l'))
    (hc1 : 44 ∉ first) (hc2 : 44 ∉ second) :
    EnvFilter.new ident (some (commaList [a, first, b, second, c])) krate =
      EnvFilter.new ident (some (commaList [a, b, second, c])) krate := by
  have key : ∀ f fb, loop ident krate (pieces (commaList [a, first, b, second, c])) f fb =
      loop ident krate (pieces (commaList [a, b, second, c])) f fb := by
    intro f fb
    simp only [commaList, List.append_assoc, List.cons_append, List.nil_append]
    simp only [pieces_comma, pieces_single hc1 (says_ne_nil h1), pieces_single hc2 (says_ne_nil h2), List.append_assoc,
      List.cons_append, List.nil_append]
    rw [loop_append, loop_append (b := second :: (pieces b ++ pieces a))]
    cases hl : loop ident krate (pieces c) f fb with
    | error e => rfl
    | ok x =>
      obtain ⟨f1, fb1⟩ := x
      simp only
      obtain ⟨f2, h3, h4⟩ := loop_adds (krate := krate) h2 (f := f1) (fb := fb1)
      rw [h3, h3, loop_append, loop_append]
      cases hl2 : loop ident krate (pieces b) f2 fb1 with
      | error e => rfl
      | ok x =>
        obtain ⟨f3, fb3⟩ := x
        simp only
        exact loop_skip h1 (h4.imp id ((loop_keeps hl2).1 p)) _
  unfold EnvFilter.new
  simp only [Option.getD_some]
  rw [key]

/-- **C44** Of two levels for everything, the earlier one can be dropped. -/
theorem C44_later_level_overrides (ident : List UInt8 → Bool) (krate a b c : List UInt8) (l l' : LevelOrOff) :
    EnvFilter.new ident (some (commaList [a, levelName l, b, levelName l', c])) krate =
      EnvFilter.new ident (some (commaList [a, b, levelName l', c])) krate := by
  have hstep : ∀ (l : LevelOrOff) rest f fb, loop ident krate (levelName l :: rest) f fb =
      loop ident krate rest f (some (fb.getD l)) := by
    intro l rest f fb
    obtain ⟨e, he, hm⟩ := parseEntry_says (ident := ident) (.all l)
    rw [loop.eq_def]; simp only; rw [he]
    cases e with
    | logLevel l' => cases hm; rfl
    | modulePath q => cases hm
    | modulePathLogLevel q l' => cases hm
  have key : ∀ f fb, loop ident krate (pieces (commaList [a, levelName l, b, levelName l', c])) f fb =
      loop ident krate (pieces (commaList [a, b, levelName l', c])) f fb := by
    intro f fb
    simp only [commaList, List.append_assoc, List.cons_append, List.nil_append]
    simp only [pieces_comma, pieces_single (levelName_no_comma _) (levelName_ne_nil _), List.append_assoc,
      List.cons_append, List.nil_append]
    rw [loop_append, loop_append (b := levelName l' :: (pieces b ++ pieces a))]
    cases hl : loop ident krate (pieces c) f fb with
    | error e => rfl
    | ok x =>
      obtain ⟨f1, fb1⟩ := x
      simp only
      rw [hstep, hstep, loop_append, loop_append]
      cases hl2 : loop ident krate (pieces b) f1 (some (fb1.getD l')) with
      | error e => rfl
      | ok x =>
        obtain ⟨f3, fb3⟩ := x
        simp only
        rw [hstep]
        have := (loop_keeps hl2).2 rfl
        cases fb3 with
        | none => cases this
        | some x => rfl
  unfold EnvFilter.new
  simp only [Option.getD_some]
  rw [key]

/-- **C44** A directive for another crate can be dropped. -/
theorem C44_other_crates (ident : List UInt8 → Bool) (krate a b t : List UInt8) (p : List (List UInt8))
    (l : LevelOrOff) (h : Says ident t (.inModule p l)) (hc : 44 ∉ t) (hp : p.head? ≠ some krate) :
    EnvFilter.new ident (some (commaList [a, t, b])) krate = EnvFilter.new ident (some (commaList [a, b])) krate := by
  have key : ∀ f fb, loop ident krate (pieces (commaList [a, t, b])) f fb =
      loop ident krate (pieces (commaList [a, b])) f fb := by
    intro f fb
    simp only [commaList, List.append_assoc, List.cons_append, List.nil_append]
    simp only [pieces_comma, pieces_single hc (says_ne_nil h), List.append_assoc, List.cons_append, List.nil_append]
    rw [loop_append, loop_append]
    cases hl : loop ident krate (pieces b) f fb with
    | error e => rfl
    | ok x => exact loop_skip h (.inl hp) _
  unfold EnvFilter.new
  simp only [Option.getD_some]
  rw [key]

example : Says asciiIdent b!"app=info" (.inModule [b!"app"] (some .info)) ∧
    Says asciiIdent b!"app" (.inModule [b!"app"] (some .trace)) ∧
    EnvFilter.new asciiIdent (some b!"warn,app=info,,app,other=off") b!"app" = .ok [([b!"app"], some .trace)] := by
  refine ⟨.pathLevel [b!"app"] (some .info) ⟨by decide, by decide, by decide⟩,
    .path [b!"app"] ⟨by decide, by decide, by decide⟩ (by decide) ?_, rfl⟩
  intro l
  rcases l with _ | l
  · decide
  · cases l <;> decide

/-! ### C46 -/

/-- **C46** The comparison of the generated code, on the texts of the two paths, is: equal or an ancestor, segment by
segment. -/
theorem C46_whole_segments (p m : List (List UInt8)) (hp : p ≠ []) (hm : m ≠ []) (hpc : ∀ s ∈ p, 58 ∉ s)
    (hmc : ∀ s ∈ m, 58 ∉ s) : isInsideOf (pathText p) (pathText m) = true ↔ Encloses p m :=
  isInsideOf_pathText hp hm hpc hmc

example : isInsideOf b!"foo::bar" b!"foo::bar::baz" = true ∧ isInsideOf b!"foo::bar" b!"foo::bar" = true ∧
    isInsideOf b!"foo::bar" b!"foo::barbaz" = false ∧ isInsideOf b!"foo::bar" b!"foo" = false := by decide +kernel

theorem EnvFilter.reads_append {ident : List UInt8 → Bool} {a b : List UInt8} {da db : List Directive}
    (ha : Reads ident a da) (hb : Reads ident b db) : Reads ident (commaList [a, b]) (da ++ db) := by
  obtain ⟨ta, rfl, ha1, ha2⟩ := ha
  obtain ⟨tb, rfl, hb1, hb2⟩ := hb
  have happ : ∀ {x y : List (List UInt8)} {d e : List Directive}, Each (Says ident) x d → Each (Says ident) y e →
      Each (Says ident) (x ++ y) (d ++ e) := by
    intro x y d e h1 h2
    induction h1 with
    | nil => exact h2
    | cons h _ ih => exact .cons h ih
  have hjoin : ∀ (x y : List (List UInt8)), x ≠ [] → y ≠ [] →
      commaList (x ++ y) = commaList x ++ b!"," ++ commaList y := by
    intro x y hx hy
    induction x with
    | nil => exact absurd rfl hx
    | cons t x ih =>
      cases x with
      | nil => cases y with
        | nil => exact absurd rfl hy
        | cons u y => rfl
      | cons t' x =>
        have := ih (by simp)
        simp only [List.cons_append] at this ⊢
        rw [commaList, this]
        simp [commaList]
  -- an empty list of texts is the same as one empty text
  have hne : ∀ (x : List (List UInt8)), ∃ y, y ≠ [] ∧ commaList y = commaList x ∧
      y.filter (fun t => t ≠ []) = x.filter (fun t => t ≠ []) ∧ ((∀ t ∈ x, 44 ∉ t) → ∀ t ∈ y, 44 ∉ t) := by
    intro x
    cases x with
    | nil => exact ⟨[[]], by simp, rfl, rfl, by simp⟩
    | cons t x => exact ⟨t :: x, by simp, rfl, rfl, fun h => h⟩
  obtain ⟨xa, na, ea, fa, ca⟩ := hne ta
  obtain ⟨xb, nb, eb, fb, cb⟩ := hne tb
  refine ⟨xa ++ xb, ?_, ?_, ?_⟩
  · rw [hjoin xa xb na nb, ea, eb]; rfl
  · intro t ht
    rcases List.mem_append.mp ht with ht | ht
    · exact ca ha1 t ht
    · exact cb hb1 t ht
  · rw [List.filter_append, fa, fb]; exact happ ha2 hb2

theorem EnvFilter.lastFor_append (p : List (List UInt8)) (a b : List Directive) :
    lastFor p (a ++ b) = match lastFor p b with
      | some l => some l
      | none => lastFor p a := by
  induction a with
  | nil => cases h : lastFor p b <;> simp [lastFor, h]
  | cons d a ih =>
    simp only [List.cons_append, lastFor, ih]
    cases h : lastFor p b with
    | some l => rfl
    | none => rfl

theorem EnvFilter.lastGlobal_append (a b : List Directive) :
    lastGlobal (a ++ b) = match lastGlobal b with
      | some l => some l
      | none => lastGlobal a := by
  induction a with
  | nil => cases h : lastGlobal b <;> simp [lastGlobal, h]
  | cons d a ih =>
    simp only [List.cons_append, lastGlobal, ih]
    cases h : lastGlobal b with
    | some l => rfl
    | none => rfl

/-- **C46** A directive whose path is not the module's path or an ancestor of it has no effect on the module. -/
theorem C46_no_effect_outside (ident : List UInt8 → Bool) (krate a b t : List UInt8) (da db : List Directive)
    (p : List (List UInt8)) (l : LevelOrOff) (level : Level) (m : List (List UInt8))
    (ha : Reads ident a da) (hb : Reads ident b db) (ht : Says ident t (.inModule p l)) (hc : 44 ∉ t)
    (hk : IsPath ident [krate]) (hm : IsModule krate m) (hout : ¬ Encloses p m) :
    Sends ident (some (commaList [a, t, b])) krate level m ↔ Sends ident (some (commaList [a, b])) krate level m := by
  have hrt : Reads ident t [.inModule p l] := ⟨[t], rfl, by simpa using hc, by
    rw [List.filter_cons_of_pos (by simpa using says_ne_nil ht)]; exact .cons ht .nil⟩
  have h1 : Reads ident (commaList [a, t, b]) (da ++ ([.inModule p l] ++ db)) := by
    have := reads_append ha (reads_append hrt hb)
    simpa [commaList] using this
  have h2 := reads_append ha hb
  have hg : ∀ q, Encloses q m → givenTo (da ++ ([.inModule p l] ++ db)) krate q = givenTo (da ++ db) krate q := by
    intro q hq
    have hpq : p ≠ q := fun h => hout (h ▸ hq)
    unfold givenTo
    rw [lastFor_append, lastFor_append, lastFor_append, lastGlobal_append, lastGlobal_append, lastGlobal_append]
    simp only [lastFor, lastGlobal, hpq, if_false]
    cases lastFor q db with
    | some l => rfl
    | none =>
      simp only
      cases lastFor q da with
      | some l => rfl
      | none => simp only; cases lastGlobal db <;> rfl
  rw [C45_exact _ _ _ _ _ _ h1 hk hm, C45_exact _ _ _ _ _ _ h2 hk hm]
  constructor
  · rintro ⟨q, l', e1, e2, e3, e4⟩
    exact ⟨q, l', e1, by rw [← hg q e1, e2], e3, fun r hr hlen => by rw [← hg r hr]; exact e4 r hr hlen⟩
  · rintro ⟨q, l', e1, e2, e3, e4⟩
    exact ⟨q, l', e1, by rw [hg q e1, e2], e3, fun r hr hlen => by rw [hg r hr]; exact e4 r hr hlen⟩

/-! ### C47 -/

theorem EnvFilter.passes_mono {l : LevelOrOff} {level level' : Level} (h : Passes l level) (hle : rank level ≤ rank level') :
    Passes l level' := by
  cases l with
  | none => exact h
  | some min => exact rank_passes.mp (Nat.le_trans (rank_passes.mpr h) hle)

/-- **C47** If a statement is compiled in, a statement of higher severity in the same module is compiled in too.
`Passes (some level) level'`: `level'` is `level` or a higher severity. -/
theorem C47_severity (ident : List UInt8 → Bool) (text krate : List UInt8) (ds : List Directive)
    (level level' : Level) (m : List (List UInt8)) (hr : Reads ident text ds) (hk : IsPath ident [krate])
    (hm : IsModule krate m) (hle : Passes (some level) level') (h : Sends ident (some text) krate level m) :
    Sends ident (some text) krate level' m := by
  rw [C45_exact _ _ _ _ _ _ hr hk hm] at h ⊢
  obtain ⟨p, l, h1, h2, h3, h4⟩ := h
  exact ⟨p, l, h1, h2, passes_mono h3 (rank_passes.mpr hle), h4⟩

theorem EnvFilter.atLeast_off {l : LevelOrOff} (h : AtLeast l none) : l = none := by
  cases l with
  | none => rfl
  | some min => exact (h .error (rank_passes.mp (by cases min <;> decide))).elim

theorem EnvFilter.lastFor_verbose (p : List (List UInt8)) {ds ds' : List Directive} (h : Each MoreVerbose ds ds') :
    (lastFor p ds = none ∧ lastFor p ds' = none) ∨
    ∃ l l', lastFor p ds = some l ∧ lastFor p ds' = some l' ∧ AtLeast l l' := by
  induction h with
  | nil => exact .inl ⟨rfl, rfl⟩
  | @cons d d' ds ds' hd _ ih =>
    rcases ih with ⟨h1, h2⟩ | ⟨l, l', h1, h2, h3⟩
    · simp only [lastFor, h1, h2]
      cases hd with
      | all _ => exact .inl ⟨rfl, rfl⟩
      | @inModule q l l' ha =>
        simp only
        by_cases hq : q = p
        · exact .inr ⟨l, l', by simp [hq], by simp [hq], ha⟩
        · exact .inl ⟨by simp [hq], by simp [hq]⟩
    · exact .inr ⟨l, l', by simp only [lastFor, h1], by simp only [lastFor, h2], h3⟩

theorem EnvFilter.lastGlobal_verbose {ds ds' : List Directive} (h : Each MoreVerbose ds ds') :
    AtLeast ((lastGlobal ds).getD (some .error)) ((lastGlobal ds').getD (some .error)) ∧
      ((lastGlobal ds).isSome = (lastGlobal ds').isSome) := by
  induction h with
  | nil => exact ⟨fun _ h => h, rfl⟩
  | @cons d d' ds ds' hd _ ih =>
    simp only [lastGlobal]
    cases h1 : lastGlobal ds with
    | none =>
      rw [h1] at ih
      cases h2 : lastGlobal ds' with
      | some l => rw [h2] at ih; cases ih.2
      | none =>
        cases hd with
        | all ha => exact ⟨ha, rfl⟩
        | inModule _ _ => exact ⟨fun _ h => h, rfl⟩
    | some l =>
      rw [h1] at ih
      cases h2 : lastGlobal ds' with
      | none => rw [h2] at ih; cases ih.2
      | some l' => rw [h2] at ih; exact ⟨ih.1, rfl⟩

/-- **C47** Changing levels in `DEFMT_LOG` so that they let more pass never removes a message. -/
theorem C47_raising (ident : List UInt8 → Bool) (text text' krate : List UInt8) (ds ds' : List Directive)
    (level : Level) (m : List (List UInt8)) (hr : Reads ident text ds) (hr' : Reads ident text' ds')
    (hk : IsPath ident [krate]) (hm : IsModule krate m) (hv : Each MoreVerbose ds ds')
    (h : Sends ident (some text) krate level m) : Sends ident (some text') krate level m := by
  have hg : ∀ q, (givenTo ds krate q = none ∧ givenTo ds' krate q = none) ∨
      ∃ l l', givenTo ds krate q = some l ∧ givenTo ds' krate q = some l' ∧ AtLeast l l' := by
    intro q
    unfold givenTo
    rcases lastFor_verbose q hv with ⟨h1, h2⟩ | ⟨l, l', h1, h2, h3⟩
    · rw [h1, h2]
      simp only
      by_cases hq : q = [krate]
      · exact .inr ⟨_, _, if_pos hq, if_pos hq, (lastGlobal_verbose hv).1⟩
      · exact .inl ⟨if_neg hq, if_neg hq⟩
    · rw [h1, h2]; exact .inr ⟨l, l', rfl, rfl, h3⟩
  rw [C45_exact _ _ _ _ _ _ hr hk hm] at h
  rw [C45_exact _ _ _ _ _ _ hr' hk hm]
  obtain ⟨p, l, h1, h2, h3, h4⟩ := h
  rcases hg p with ⟨ha, -⟩ | ⟨l0, l', ha, hb, hc⟩
  · rw [ha] at h2; cases h2
  · rw [ha] at h2
    cases h2
    refine ⟨p, l', h1, hb, hc level h3, fun q hq hlen hoff => ?_⟩
    rcases hg q with ⟨-, hd⟩ | ⟨l1, l1', hd, he, hf⟩
    · rw [hd] at hoff; cases hoff
    · rw [he] at hoff
      cases hoff
      rw [atLeast_off hf] at hd
      exact h4 q hq hlen hd

example : Each MoreVerbose [.all none, .inModule [b!"app"] (some .warn)] [.all (some .info), .inModule [b!"app"] (some .warn)] :=
  .cons (.all (fun _ h => h.elim)) (.cons (.inModule _ (fun _ h => h)) .nil)

/-! ### C61 -/

theorem EnvFilter.parseEntry_ok {ident : List UInt8 → Bool} (hi : IdentOk ident) {t : List UInt8} (hc : 47 ∉ t) {e : Entry}
    (h : parseEntry ident t = .ok e) : Says ident t e.means := by
  have hmem : ∀ {s x : List UInt8} {b : UInt8}, s ∈ splitPath x → b ∈ s → b ∈ x := by
    intro s x b hs hb
    fun_induction splitPath x generalizing s with
    | case1 => simp only [List.mem_singleton] at hs; rw [hs] at hb; exact hb
    | case2 => simp only [List.mem_singleton] at hs; rw [hs] at hb; exact hb
    | case3 c c' rest hcc ih =>
      rcases List.mem_cons.mp hs with hs | hs
      · rw [hs] at hb; cases hb
      · exact List.mem_cons_of_mem _ (List.mem_cons_of_mem _ (ih hs hb))
    | case4 c c' rest hcc hsp ih => exact absurd hsp (splitPath_ne_nil _)
    | case5 c c' rest hcc piece ps hsp ih =>
      rw [hsp] at ih
      rcases List.mem_cons.mp hs with hs | hs
      · rw [hs] at hb
        rcases List.mem_cons.mp hb with hb | hb
        · rw [hb]; simp
        · exact List.mem_cons_of_mem _ (ih (by simp) hb)
      · exact List.mem_cons_of_mem _ (ih (List.mem_cons_of_mem _ hs) hb)
  have hpath : ∀ {x : List UInt8} {p : ModulePath}, 47 ∉ x → ModulePath.parse ident x = .ok p →
      IsPath ident p ∧ pathText p = x := by
    intro x p hx hp
    obtain ⟨h1, h2, h3⟩ := parse_ok.mp hp
    subst h2
    refine ⟨⟨splitPath_ne_nil _, by rw [pathText_splitPath]; exact h1, fun s hs => ⟨h3 s hs, ?_⟩⟩, pathText_splitPath _⟩
    exact (hi s (h3 s hs) (fun h => hx (hmem hs h))).2.1
  unfold parseEntry at h
  cases hr : rsplitOnce 61 t with
  | some xy =>
    obtain ⟨x, y⟩ := xy
    rw [hr] at h
    simp only at h
    obtain ⟨ht, -⟩ := rsplitOnce_some.mp hr
    have hx : 47 ∉ x := fun hx => hc (by rw [ht]; simp [hx])
    cases hp : ModulePath.parse ident x with
    | error e => rw [hp] at h; cases h
    | ok p =>
      rw [hp] at h
      simp only at h
      obtain ⟨hip, hpt⟩ := hpath hx hp
      cases hl : parseLogLevel y with
      | none => rw [hl] at h; cases h
      | some l =>
        rw [hl] at h
        cases h
        rw [ht, ← hpt, parseLogLevel_some.mp hl]
        have := Says.pathLevel p l hip
        simpa [Entry.means] using this
  | none =>
    rw [hr] at h
    simp only at h
    have hne := rsplitOnce_none.mp hr
    cases hl : parseLogLevel t with
    | some l =>
      rw [hl] at h
      cases h
      rw [parseLogLevel_some.mp hl]
      exact .all l
    | none =>
      rw [hl] at h
      simp only at h
      cases hp : ModulePath.parse ident t with
      | error e => rw [hp] at h; cases h
      | ok p =>
        rw [hp] at h
        cases h
        obtain ⟨hip, hpt⟩ := hpath hc hp
        subst hpt
        refine .path p hip hne (fun l hl' => ?_)
        rw [parseLogLevel_some.mpr hl'] at hl
        cases hl

theorem EnvFilter.loop_ok {ident : List UInt8 → Bool} (hi : IdentOk ident) {krate : List UInt8} {ps : List (List UInt8)}
    (hc : ∀ t ∈ ps, 47 ∉ t) {f : Filter} {fb : Option LevelOrOff} {r : Filter × Option LevelOrOff}
    (h : loop ident krate ps f fb = .ok r) : ∃ ds, Each (Says ident) ps ds := by
  induction ps generalizing f fb with
  | nil => exact ⟨[], .nil⟩
  | cons t ps ih =>
    rw [loop.eq_def] at h
    simp only at h
    cases hp : parseEntry ident t with
    | error e => rw [hp] at h; cases h
    | ok e =>
      rw [hp] at h
      have hs := parseEntry_ok hi (hc t (by simp)) hp
      have hc' : ∀ t ∈ ps, 47 ∉ t := fun t ht => hc t (List.mem_cons_of_mem _ ht)
      cases e <;> (obtain ⟨ds, hds⟩ := ih hc' h; exact ⟨_ :: ds, .cons hs hds⟩)

/-- **C61** A `DEFMT_LOG` in which something between two commas is not a directive (unknown level, no valid path) is a
compile error; nothing is silently ignored. -/
theorem C61_malformed_rejected (ident : List UInt8 → Bool) (hi : IdentOk ident) (text krate : List UInt8)
    (hk : IsPath ident [krate]) (hslash : 47 ∉ text) :
    (∃ f, EnvFilter.new ident (some text) krate = .ok f) ↔ ∃ ds, Reads ident text ds := by
  constructor
  · rintro ⟨f, hf⟩
    unfold EnvFilter.new at hf
    simp only [Option.getD_some] at hf
    cases hl : loop ident krate (pieces text) [] none with
    | error e => rw [hl] at hf; cases hf
    | ok r =>
      have hpc : ∀ t ∈ pieces text, 47 ∉ t := by
        intro t ht
        unfold pieces at ht
        rw [List.mem_filter, List.mem_reverse] at ht
        exact fun h => hslash (mem_of_split ht.1 h)
      obtain ⟨ds, hds⟩ := loop_ok hi hpc hl
      refine ⟨ds.reverse, split 44 text, (commaList_split text).symm, fun t ht => no_sep_of_split ht, ?_⟩
      have := forall2_reverse hds
      rw [pieces, List.filter_reverse, List.reverse_reverse] at this
      exact this
  · rintro ⟨ds, hr⟩
    obtain ⟨f, hf, -⟩ := new_spec hr hk
    exact ⟨f, hf⟩

/-- The identifiers of the examples are such. -/
example : IdentOk asciiIdent := by
  intro s hs hc
  cases s with
  | nil => cases hs
  | cons b rest =>
    simp only [asciiIdent, Bool.and_eq_true, List.all_eq_true] at hs
    have hn : ∀ c ∈ b :: rest, c ≠ 58 ∧ c ≠ 61 ∧ c ≠ 44 := by
      intro c hc'
      rcases List.mem_cons.mp hc' with rfl | hc'
      · refine ⟨?_, ?_, ?_⟩ <;> (rintro rfl; exact absurd hs.1 (by decide))
      · have := hs.2 c hc'
        refine ⟨?_, ?_, ?_⟩ <;> (rintro rfl; exact absurd this (by decide))
    exact ⟨by simp, fun h => (hn _ h).1 rfl, fun h => (hn _ h).2.1 rfl, fun h => (hn _ h).2.2 rfl⟩

example : EnvFilter.new asciiIdent (some b!"app=loud") b!"app" = .error (.unknownLevel b!"loud") ∧
    EnvFilter.new asciiIdent (some b!"info,my-app=info") b!"app" = .error (.invalidIdentifier b!"my-app") ∧
    EnvFilter.new asciiIdent (some b!"=info") b!"app" = .error .emptyPath := ⟨rfl, rfl, rfl⟩

/-- `C45_off`: the hypotheses are met by a module that is switched off; `C46_no_effect_outside`: and its sibling sends what it sent before -/
example (level : Level) : ¬ Sends asciiIdent (some b!"info,app::noisy=off") b!"app" level [b!"app", b!"noisy"] ∧
    (Sends asciiIdent (some (commaList [b!"info", b!"app::noisy=off", b!"other"])) b!"app" level [b!"app", b!"noisy2"] ↔
      Sends asciiIdent (some (commaList [b!"info", b!"other"])) b!"app" level [b!"app", b!"noisy2"]) := by
  have hs : Says asciiIdent b!"app::noisy=off" (.inModule [b!"app", b!"noisy"] none) := .pathLevel [b!"app", b!"noisy"] none ⟨by decide, by decide, by decide⟩
  have hk : IsPath asciiIdent [b!"app"] := ⟨by decide, by decide, by decide⟩
  refine ⟨C45_off _ _ _ [.all (some .info), .inModule [b!"app", b!"noisy"] none] _ _
    ⟨[b!"info", b!"app::noisy=off"], rfl, by decide, .cons (.all (some .info)) (.cons hs .nil)⟩ hk ⟨rfl, by decide⟩
    ⟨[b!"app", b!"noisy"], ⟨[], rfl⟩, by decide, ?_⟩, ?_⟩
  · rintro q ⟨r, hr⟩ hlen
    have := congrArg List.length hr
    simp only [List.length_append, List.length_cons, List.length_nil] at this hlen
    omega
  · refine C46_no_effect_outside _ _ b!"info" b!"other" b!"app::noisy=off" [.all (some .info)] [.inModule [b!"other"] (some .trace)] _ _ _ _
      ⟨[b!"info"], rfl, by decide, .cons (.all (some .info)) .nil⟩
      ⟨[b!"other"], rfl, by decide, .cons (.path [b!"other"] ⟨by decide, by decide, by decide⟩ (by decide) ?_) .nil⟩ hs (by decide) hk ⟨rfl, by decide⟩ ?_
    · intro l; rcases l with _ | l
      · decide
      · cases l <;> decide
    · rintro ⟨r, hr⟩
      simp at hr

end Defmt
