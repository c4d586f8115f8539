import Verif.Lemmas.Parser
/-! Lemmas about the argument checks of the parser, and inversion lemmas for the scanner. -/

namespace Defmt.Parser

theorem SameKind.refl (a : Ty) : SameKind a a := Or.inl rfl

theorem SameKind.symm {a b : Ty} (h : SameKind a b) : SameKind b a := by
  rcases h with rfl | ⟨s, e, s', e', rfl, rfl⟩
  · exact Or.inl rfl
  · exact Or.inr ⟨_, _, _, _, rfl, rfl⟩

theorem SameKind.trans {a b c : Ty} (h : SameKind a b) (h' : SameKind b c) : SameKind a c := by
  rcases h with rfl | ⟨s, e, s', e', rfl, rfl⟩
  · exact h'
  · rcases h' with rfl | ⟨s, e, s', e', h1, rfl⟩
    · exact Or.inr ⟨_, _, _, _, rfl, rfl⟩
    · exact Or.inr ⟨_, _, _, _, rfl, rfl⟩

/-- invariant of the argument table -/
structure AInv (args : List (Option Ty)) (ps : List Parameter) : Prop where
  typed : ∀ p ∈ ps, ∃ t, args[p.index]? = some (some t) ∧ SameKind t p.ty
  used : ∀ i t, args[i]? = some (some t) → ∃ p ∈ ps, p.index = i ∧ p.ty = t
  last : args = [] ∨ ∃ p ∈ ps, p.index + 1 = args.length

/-- the table after `resize` -/
def grown (args : List (Option Ty)) (i : Nat) : List (Option Ty) :=
  if args.length ≤ i then args ++ List.replicate (i + 1 - args.length) none else args

theorem grown_get (args : List (Option Ty)) (i j : Nat) (t : Ty) :
    (grown args i)[j]? = some (some t) ↔ args[j]? = some (some t) := by
  unfold grown
  split
  · by_cases h : j < args.length
    · rw [List.getElem?_append_left h]
    · rw [List.getElem?_append_right (by omega), List.getElem?_eq_none (l := args) (by omega)]
      simp [List.getElem?_replicate]
  · rfl

theorem grown_len (args : List (Option Ty)) (i : Nat) : (grown args i).length = max args.length (i + 1) := by
  unfold grown
  split
  · simp; omega
  · omega

theorem checkArg_eq (args : List (Option Ty)) (p : Parameter) :
    checkArg args p =
      if args.length ≤ p.index ∧ p.index + 1 > maxArgs then .panic
      else match (grown args p.index)[p.index]? with
        | none => .panic
        | some none => .ok ((grown args p.index).set p.index (some p.ty))
        | some (some other) =>
          match other, p.ty with
          | .bitField _ _, .bitField _ _ => .ok (grown args p.index)
          | a, b => if a ≠ b then .err (.conflictingTypes p.index a b) else .ok (grown args p.index) := rfl

theorem checkArg_cases (args : List (Option Ty)) (p : Parameter) :
    (args.length ≤ p.index ∧ p.index + 1 > maxArgs ∧ checkArg args p = .panic) ∨
    (¬(args.length ≤ p.index ∧ p.index + 1 > maxArgs) ∧
     (((grown args p.index)[p.index]? = some none ∧
        checkArg args p = .ok ((grown args p.index).set p.index (some p.ty))) ∨
      (∃ t, (grown args p.index)[p.index]? = some (some t) ∧ SameKind t p.ty ∧
        checkArg args p = .ok (grown args p.index)) ∨
      (∃ t, (grown args p.index)[p.index]? = some (some t) ∧ ¬ SameKind t p.ty ∧
        checkArg args p = .err (.conflictingTypes p.index t p.ty)))) := by
  by_cases hb : args.length ≤ p.index ∧ p.index + 1 > maxArgs
  · left; refine ⟨hb.1, hb.2, ?_⟩; rw [checkArg_eq, if_pos hb]
  · right; refine ⟨hb, ?_⟩
    rw [checkArg_eq, if_neg hb]
    have hlt : p.index < (grown args p.index).length := by rw [grown_len]; omega
    cases hg : (grown args p.index)[p.index]? with
    | none => rw [List.getElem?_eq_none_iff] at hg; omega
    | some o =>
      cases o with
      | none => left; exact ⟨rfl, rfl⟩
      | some t =>
        right
        by_cases hk : SameKind t p.ty
        · left; refine ⟨t, rfl, hk, ?_⟩
          rcases hk with rfl | ⟨s, e, s', e', rfl, h2⟩
          · simp only; split
            · rfl
            · simp_all
          · rw [h2]
        · right; refine ⟨t, rfl, hk, ?_⟩
          have hne : t ≠ p.ty := fun h => hk (Or.inl h)
          simp only
          split
          · rename_i h1 h2
            exact absurd (Or.inr ⟨_, _, _, _, rfl, h2⟩) hk
          · rw [if_pos hne]

theorem checkArg_inv {args args' : List (Option Ty)} {ps : List Parameter} {p : Parameter}
    (h : AInv args ps) (hc : checkArg args p = .ok args') : AInv args' (ps ++ [p]) := by
  have hlt : p.index < (grown args p.index).length := by rw [grown_len]; omega
  have hlast : ∃ q ∈ ps ++ [p], q.index + 1 = (grown args p.index).length := by
    rw [grown_len]
    by_cases hle : args.length ≤ p.index
    · exact ⟨p, by simp, by omega⟩
    · rcases h.last with rfl | ⟨q, hq, hl⟩
      · simp at hle
      · exact ⟨q, by simp [hq], by omega⟩
  rcases checkArg_cases args p with ⟨_, _, h1⟩ | ⟨_, ⟨hg, h1⟩ | ⟨t, hg, hk, h1⟩ | ⟨t, hg, hk, h1⟩⟩
  · rw [h1] at hc; simp at hc
  · rw [h1] at hc
    simp only [Outcome.ok.injEq] at hc; subst hc
    refine ⟨?_, ?_, ?_⟩
    · intro q hq
      by_cases hqi : q.index = p.index
      · refine ⟨p.ty, by rw [hqi]; simp [hlt], ?_⟩
        rcases List.mem_append.mp hq with hq | hq
        · obtain ⟨t, ht, hs⟩ := h.typed q hq
          rw [← grown_get args p.index, hqi, hg] at ht; simp at ht
        · simp at hq; subst hq; exact SameKind.refl _
      · rcases List.mem_append.mp hq with hq | hq
        · obtain ⟨t, ht, hs⟩ := h.typed q hq
          refine ⟨t, ?_, hs⟩
          rw [List.getElem?_set_ne (fun hh => hqi hh.symm), grown_get]; exact ht
        · simp at hq; subst hq; exact absurd rfl hqi
    · intro i t ht
      by_cases hi : p.index = i
      · subst hi
        rw [List.getElem?_set_self hlt] at ht
        simp at ht
        exact ⟨p, by simp, rfl, ht⟩
      · rw [List.getElem?_set_ne hi, grown_get] at ht
        obtain ⟨q, hq, h1, h2⟩ := h.used i t ht
        exact ⟨q, by simp [hq], h1, h2⟩
    · right; simpa using hlast
  · rw [h1] at hc
    simp only [Outcome.ok.injEq] at hc; subst hc
    refine ⟨?_, ?_, Or.inr hlast⟩
    · intro q hq
      rcases List.mem_append.mp hq with hq | hq
      · obtain ⟨t, ht, hs⟩ := h.typed q hq
        exact ⟨t, by rw [grown_get]; exact ht, hs⟩
      · simp at hq; subst hq; exact ⟨t, hg, hk⟩
    · intro i t ht
      rw [grown_get] at ht
      obtain ⟨q, hq, h1, h2⟩ := h.used i t ht
      exact ⟨q, by simp [hq], h1, h2⟩
  · rw [h1] at hc; simp at hc

theorem params_append (a b : List Fragment) : params (a ++ b) = params a ++ params b := by
  induction a with
  | nil => rfl
  | cons f fs ih => cases f <;> simp [params, ih]

theorem checkArgs_inv (fs : List Fragment) : ∀ {args args' : List (Option Ty)} {ps : List Parameter},
    AInv args ps → checkArgs args fs = .ok args' → AInv args' (ps ++ params fs) := by
  induction fs with
  | nil => intro args args' ps h hc; simp only [checkArgs, Outcome.ok.injEq] at hc; subst hc; simpa [params] using h
  | cons f fs ih =>
    intro args args' ps h hc
    cases f with
    | literal t => exact ih h hc
    | param p =>
      simp only [checkArgs] at hc
      cases hca : checkArg args p with
      | ok a =>
        rw [hca] at hc
        have := ih (checkArg_inv h hca) hc
        simpa [params] using this
      | err e => rw [hca] at hc; simp at hc
      | panic => rw [hca] at hc; simp at hc

theorem AInv.nil : AInv [] [] := ⟨by simp, by simp, Or.inl rfl⟩

theorem checkArgs_complete (fs : List Fragment) : ∀ {args : List (Option Ty)} {ps : List Parameter},
    AInv args ps → Consistent (ps ++ params fs) → (∀ p ∈ params fs, p.index + 1 ≤ maxArgs) →
    ∃ args', checkArgs args fs = .ok args' := by
  induction fs with
  | nil => intro args ps _ _ _; exact ⟨args, rfl⟩
  | cons f fs ih =>
    intro args ps h hc hm
    cases f with
    | literal t => exact ih h hc hm
    | param p =>
      have hm' := hm p (by simp [params])
      simp only [checkArgs]
      rcases checkArg_cases args p with ⟨_, h0, h1⟩ | ⟨_, ⟨hg, h1⟩ | ⟨t, hg, hk, h1⟩ | ⟨t, hg, hk, h1⟩⟩
      · omega
      · have hi := checkArg_inv h h1
        rw [h1]
        exact ih hi (by simpa [params] using hc) (fun q hq => hm q (by simp [params, hq]))
      · have hi := checkArg_inv h h1
        rw [h1]
        exact ih hi (by simpa [params] using hc) (fun q hq => hm q (by simp [params, hq]))
      · rw [grown_get] at hg
        obtain ⟨q, hq, h2, h3⟩ := h.used _ _ hg
        exact absurd (h3 ▸ hc q (by simp [hq]) p (by simp [params]) h2) hk

theorem checkArgs_no_panic (fs : List Fragment) : ∀ (args : List (Option Ty)),
    (∀ p ∈ params fs, p.index + 1 ≤ maxArgs) → checkArgs args fs ≠ .panic := by
  induction fs with
  | nil => intro args _; simp [checkArgs]
  | cons f fs ih =>
    intro args hm
    cases f with
    | literal t => exact ih args hm
    | param p =>
      have hm' := hm p (by simp [params])
      have hrec := fun a => ih a (fun q hq => hm q (by simp [params, hq]))
      simp only [checkArgs]
      rcases checkArg_cases args p with ⟨_, h0, h1⟩ | ⟨_, ⟨hg, h1⟩ | ⟨t, hg, hk, h1⟩ | ⟨t, hg, hk, h1⟩⟩
      · omega
      · rw [h1]; exact hrec _
      · rw [h1]; exact hrec _
      · rw [h1]; simp

theorem firstUnused_none (i : Nat) (args : List (Option Ty)) :
    firstUnused i args = none ↔ ∀ j, j < args.length → ∃ t, args[j]? = some (some t) := by
  induction args generalizing i with
  | nil => simp [firstUnused]
  | cons a as ih =>
    cases a with
    | none =>
      simp only [firstUnused, reduceCtorEq, List.length_cons, false_iff]
      intro h
      obtain ⟨t, ht⟩ := h 0 (by omega)
      simp at ht
    | some t =>
      simp only [firstUnused, ih (i + 1)]
      constructor
      · intro h j hj
        cases j with
        | zero => exact ⟨t, rfl⟩
        | succ j => simpa using h j (by simpa using hj)
      · intro h j hj
        simpa using h (j + 1) (by simpa using hj)

/-! ### Inversion of `parse` -/

theorem parse_ok {s : List Char} {m : Mode} {fs : List Fragment} (h : parse s m = .ok fs) :
    ∃ fr e args, scanLoop m s s false 0 0 0 [] = .ok (fr, e) ∧
      (if e ≠ s.length then pushLiteral fr (s.drop e) else .ok fr) = .ok fs ∧
      checkArgs [] fs = .ok args ∧ firstUnused 0 args = none := by
  unfold parse at h
  cases hs : scanLoop m s s false 0 0 0 [] with
  | panic => rw [hs] at h; simp at h
  | err e => rw [hs] at h; simp at h
  | ok r =>
    obtain ⟨fr, e⟩ := r
    rw [hs] at h
    simp only at h
    cases ht : (if e ≠ s.length then pushLiteral fr (s.drop e) else .ok fr) with
    | error e => rw [ht] at h; simp at h
    | ok fs' =>
      rw [ht] at h
      simp only at h
      cases hc : checkArgs [] fs' with
      | panic => rw [hc] at h; simp at h
      | err e => rw [hc] at h; simp at h
      | ok args =>
        rw [hc] at h
        simp only at h
        cases hu : firstUnused 0 args with
        | some i => rw [hu] at h; simp at h
        | none =>
          rw [hu] at h
          simp only [Outcome.ok.injEq] at h
          subst h
          exact ⟨fr, e, args, rfl, ht, hc, hu⟩

theorem parse_intro {s : List Char} {m : Mode} {fr fs : List Fragment} {e : Nat} {args}
    (hs : scanLoop m s s false 0 0 0 [] = .ok (fr, e))
    (ht : (if e ≠ s.length then pushLiteral fr (s.drop e) else .ok fr) = .ok fs)
    (hc : checkArgs [] fs = .ok args) (hu : firstUnused 0 args = none) : parse s m = .ok fs := by
  unfold parse
  rw [hs]
  simp only
  rw [ht]
  simp only
  rw [hc]
  simp only
  rw [hu]

theorem pushLiteral_params {fr fs : List Fragment} {t} (h : pushLiteral fr t = .ok fs) :
    params fs = params fr := by
  unfold pushLiteral at h
  split at h
  · simp at h
  · simp only [Except.ok.injEq] at h; subst h; simp [params_append, params]

/-! ### One step of the scanner -/

theorem litStep_params {c : Prop} [Decidable c] {fr fs : List Fragment} {t}
    (h : (if c then pushLiteral fr t else .ok fr) = .ok fs) : params fs = params fr := by
  split at h
  · exact pushLiteral_params h
  · simp only [Except.ok.injEq] at h; rw [h]

/-- induction principle for successful scans -/
theorem scan_ok_step {m : Mode} {s rest : List Char} {pos e n : Nat} {fr : List Fragment} {r}
    (hh : rest.head? ≠ some '{')
    (h : scanLoop m s ('{' :: rest) false pos e n fr = .ok r) :
    ∃ fr' p, (if pos > e then pushLiteral fr (slice s e pos) else .ok fr) = .ok fr' ∧
      '}' ∈ rest ∧ parseParam m (rest.takeWhile (· ≠ '}')) = .ok p ∧
      scanLoop m s rest false (pos + 1) (pos + 1 + (rest.takeWhile (· ≠ '}')).length + 1)
        (match p.index with | some _ => n | none => n + 1)
        (fr' ++ [.param { index := (match p.index with | some i => i | none => n), ty := p.ty, hint := p.hint }]) = .ok r := by
  rw [scanLoop] at h
  simp only [Bool.false_eq_true, if_false, ne_eq, not_true, hh] at h
  split at h
  · simp at h
  · rename_i fr' hl
    split at h
    · simp at h
    · rename_i hmem
      split at h
      · simp at h
      · simp at h
      · rename_i p hp
        refine ⟨fr', p, hl, by simpa using hmem, hp, ?_⟩
        split at h
        · rename_i hi; rw [hi]; exact h
        · rename_i hi; rw [hi]; exact h

theorem explicitIndex_parse {m : Mode} {t : List Char} {p : Param} (h : parseParam m t = .ok p) :
    explicitIndex t = p.index := by
  unfold parseParam at h
  have key : ∀ ix r q, parseTypeHint m ix r = .ok q → q.index = ix := by
    intro ix r q hq
    unfold parseTypeHint at hq
    split at hq
    · split at hq
      · simp at hq
      · simp at hq
      · split at hq
        · simp at hq
        · simp only [Outcome.ok.injEq] at hq; rw [← hq]
    · split at hq
      · simp at hq
      · simp only [Outcome.ok.injEq] at hq; rw [← hq]
  unfold explicitIndex
  rw [← isDigit_eq']
  simp only at h ⊢
  split at h
  · rename_i hd
    rw [if_pos hd, key _ _ _ h]
  · rename_i hd
    rw [if_neg hd]
    split at h
    · simp at h
    · rename_i i hi
      rw [key _ _ _ h]
      unfold parseDigits at hi
      split at hi
      · simp at hi
      · split at hi
        · rw [← digitsValue_eq]; exact hi
        · simp at hi

theorem paramTexts_open {rest : List Char} (hh : rest.head? ≠ some '{') :
    paramTexts ('{' :: rest) = rest.takeWhile (· ≠ '}') :: paramTexts rest := by
  cases rest with
  | nil => simp [paramTexts]
  | cons c cs =>
    have hc : c ≠ '{' := by intro hh'; subst hh'; simp at hh
    rw [paramTexts]
    intro r hr; simp at hr; exact hc hr.1

theorem paramTexts_esc (rest : List Char) :
    paramTexts ('{' :: '{' :: rest) = paramTexts rest := by
  simp [paramTexts]

theorem paramTexts_other {c : Char} (hc : c ≠ '{') (rest : List Char) :
    paramTexts (c :: rest) = paramTexts rest := by
  rw [paramTexts]
  all_goals (intros; simp_all)

theorem scan_params (m : Mode) (s : List Char) : ∀ (rest : List Char) (skip : Bool) (pos e n : Nat)
    (fr fr' : List Fragment) (e' : Nat),
    scanLoop m s rest skip pos e n fr = .ok (fr', e') →
    (params fr').map Parameter.index =
      (params fr).map Parameter.index ++
        number n ((paramTexts (if skip then rest.tail else rest)).map explicitIndex) := by
  intro rest
  induction rest with
  | nil =>
    intro skip pos e n fr fr' e' h
    simp only [scanLoop, Outcome.ok.injEq, Prod.mk.injEq] at h
    rw [h.1]
    cases skip <;> simp [paramTexts, number]
  | cons c rest ih =>
    intro skip pos e n fr fr' e' h
    cases skip with
    | true =>
      rw [scanLoop] at h
      simp only [if_true] at h
      have := ih false _ _ _ _ _ _ h
      simpa using this
    | false =>
      simp only [Bool.false_eq_true, if_false]
      by_cases hc : c = '{'
      · subst hc
        by_cases hh : rest.head? = some '{'
        · rw [scanLoop] at h
          simp only [Bool.false_eq_true, if_false, ne_eq, not_true, hh, if_true] at h
          have := ih true _ _ _ _ _ _ h
          simp only [if_true] at this
          cases rest with
          | nil => simp at hh
          | cons d ds =>
            simp at hh; subst hh
            rw [paramTexts_esc]; simpa using this
        · obtain ⟨fr1, p, h1, h2, h3, h4⟩ := scan_ok_step hh h
          have := ih false _ _ _ _ _ _ h4
          rw [paramTexts_open hh, this, params_append, litStep_params h1]
          simp only [List.map_cons, explicitIndex_parse h3, params]
          cases hpi : p.index with
          | none => simp [number]
          | some i => simp [number]
      · rw [scanLoop] at h
        simp only [Bool.false_eq_true, if_false, ne_eq, hc, not_false_eq_true, if_true] at h
        have := ih false _ _ _ _ _ _ h
        rw [paramTexts_other hc]; simpa using this

/-! ### Modes -/

theorem parseHintPart_mode {input o} (h : parseHintPart .strict input = .ok o) :
    parseHintPart .forwardsCompatible input = .ok o := by
  unfold parseHintPart at h ⊢
  split at h
  · split at h
    · simp at h
    · rename_i hne
      rw [if_neg hne]
      split at h
      · rename_i hp; rw [hp]; exact h
      · simp at h
      · rename_i hm; simp at hm
  · exact h

theorem parseTypeHint_mode {ix input p} (h : parseTypeHint .strict ix input = .ok p) :
    parseTypeHint .forwardsCompatible ix input = .ok p := by
  unfold parseTypeHint at h ⊢
  split at h
  · split at h
    · simp at h
    · simp at h
    · split at h
      · simp at h
      · rename_i hp; rw [parseHintPart_mode hp]; exact h
  · split at h
    · simp at h
    · rename_i hp; rw [parseHintPart_mode hp]; exact h

theorem parseParam_mode {t p} (h : parseParam .strict t = .ok p) :
    parseParam .forwardsCompatible t = .ok p := by
  unfold parseParam at h ⊢
  simp only at h ⊢
  split at h
  · rename_i hd; rw [if_pos hd]; exact parseTypeHint_mode h
  · rename_i hd; rw [if_neg hd]
    split at h
    · simp at h
    · exact parseTypeHint_mode h

theorem scan_mode (s : List Char) : ∀ (rest : List Char) (skip : Bool) (pos e n : Nat)
    (fr : List Fragment) r,
    scanLoop .strict s rest skip pos e n fr = .ok r →
    scanLoop .forwardsCompatible s rest skip pos e n fr = .ok r := by
  intro rest
  induction rest with
  | nil => intro skip pos e n fr r h; exact h
  | cons c rest ih =>
    intro skip pos e n fr r h
    cases skip with
    | true => rw [scanLoop] at h ⊢; exact ih _ _ _ _ _ _ h
    | false =>
      by_cases hc : c = '{'
      · subst hc
        by_cases hh : rest.head? = some '{'
        · rw [scanLoop] at h ⊢
          simp only [Bool.false_eq_true, if_false, ne_eq, not_true, hh, if_true] at h ⊢
          exact ih _ _ _ _ _ _ h
        · obtain ⟨fr1, p, h1, h2, h3, h4⟩ := scan_ok_step hh h
          have h4' := ih _ _ _ _ _ _ h4
          rw [scanLoop]
          simp only [Bool.false_eq_true, if_false, ne_eq, not_true, hh]
          rw [h1]
          simp only [h2, not_true, if_false]
          rw [parseParam_mode h3]
          simp only
          cases hpi : p.index with
          | none => rw [hpi] at h4'; exact h4'
          | some i => rw [hpi] at h4'; exact h4'
      · rw [scanLoop] at h ⊢
        simp only [Bool.false_eq_true, if_false, ne_eq, hc, not_false_eq_true, if_true] at h ⊢
        exact ih _ _ _ _ _ _ h

/-! ### Braces in literals -/

theorem checkBraces_unmixed : ∀ (k : Nat) (raw : List Char), raw.length ≤ k →
    checkBraces false false raw = none → Unmixed raw → ∃ t, raw = escape t := by
  intro k
  induction k with
  | zero => intro raw hl _ _; exact ⟨[], by cases raw with | nil => rfl | cons => simp at hl⟩
  | succ k ih =>
    intro raw hl hc hu
    cases raw with
    | nil => exact ⟨[], rfl⟩
    | cons c cs =>
      simp only [List.length_cons] at hl
      have tailU : ∀ (a : Char) (l : List Char), Unmixed (a :: l) → Unmixed l := by
        intro a l h
        cases l with
        | nil => trivial
        | cons b l => exact h.2.2
      by_cases h1 : c = '{'
      · subst h1
        simp only [checkBraces, if_true, Bool.not_false] at hc
        cases cs with
        | nil => simp [checkBraces] at hc
        | cons d ds =>
          by_cases hd : d = '{'
          · subst hd
            simp only [checkBraces, if_true, Bool.not_true] at hc
            obtain ⟨t, ht⟩ := ih ds (by simp at hl; omega) hc (tailU _ _ (tailU _ _ hu))
            exact ⟨'{' :: t, by simp [escape, ht]⟩
          · by_cases hd2 : d = '}'
            · subst hd2; exact absurd ⟨rfl, rfl⟩ hu.1
            · simp [checkBraces, hd, hd2] at hc
      · by_cases h2 : c = '}'
        · subst h2
          simp only [checkBraces, h1, if_false, if_true, Bool.not_false] at hc
          cases cs with
          | nil => simp [checkBraces] at hc
          | cons d ds =>
            by_cases hd : d = '}'
            · subst hd
              simp only [checkBraces, h1, if_false, if_true, Bool.not_true] at hc
              obtain ⟨t, ht⟩ := ih ds (by simp at hl; omega) hc (tailU _ _ (tailU _ _ hu))
              exact ⟨'}' :: t, by simp [escape, ht]⟩
            · by_cases hd2 : d = '{'
              · subst hd2; exact absurd ⟨rfl, rfl⟩ hu.2.1
              · simp [checkBraces, hd, hd2] at hc
        · simp only [checkBraces, h1, h2, if_false, Bool.false_eq_true] at hc
          obtain ⟨t, ht⟩ := ih cs (by omega) hc (tailU _ _ hu)
          exact ⟨c :: t, by simp [escape, h1, h2, ht]⟩

/-- `t` is the unescaped form of a stretch of `s` between parameters -/
def LitFrom (s t : List Char) : Prop :=
  ∃ pre raw post, s = pre ++ raw ++ post ∧ raw ≠ [] ∧
    (pre = [] ∨ pre.getLast? = some '}') ∧ (post = [] ∨ post.head? = some '{') ∧
    checkBraces false false raw = none ∧ t = undouble '}' (undouble '{' raw)

/-- `e` is a possible value of `end_pos` -/
def EndOk (s : List Char) (e : Nat) : Prop :=
  e ≤ s.length ∧ (e = 0 ∨ (s.take e).getLast? = some '}')

theorem takeWhile_mem_split (rest : List Char) (h : '}' ∈ rest) :
    ∃ post, rest = rest.takeWhile (· ≠ '}') ++ '}' :: post := by
  induction rest with
  | nil => simp at h
  | cons c cs ih =>
    by_cases hc : c = '}'
    · subst hc; exact ⟨cs, by simp⟩
    · have : '}' ∈ cs := by
        rcases List.mem_cons.mp h with h | h
        · exact absurd h.symm hc
        · exact h
      obtain ⟨post, hp⟩ := ih this
      refine ⟨post, ?_⟩
      simp only [List.takeWhile, ne_eq, hc, not_false_eq_true, decide_true, List.cons_append]
      rw [← hp]

theorem endOk_mid (A B post : List Char) :
    EndOk (A ++ '{' :: (B ++ '}' :: post)) (A.length + 1 + B.length + 1) := by
  have h1 : A ++ '{' :: (B ++ '}' :: post) = ((A ++ '{' :: B) ++ ['}']) ++ post := by simp
  have h2 : A.length + 1 + B.length + 1 = ((A ++ '{' :: B) ++ ['}']).length := by
    simp only [List.length_append, List.length_cons, List.length_nil]; omega
  rw [h1, h2]
  refine ⟨by simp, Or.inr ?_⟩
  rw [List.take_left, List.getLast?_concat]

theorem scan_literals (m : Mode) (s : List Char) : ∀ (rest : List Char) (skip : Bool) (pos e n : Nat)
    (fr fr' : List Fragment) (e' : Nat),
    scanLoop m s rest skip pos e n fr = .ok (fr', e') → rest = s.drop pos → pos ≤ s.length →
    EndOk s e → (∀ t, .literal t ∈ fr → LitFrom s t) →
    EndOk s e' ∧ ∀ t, .literal t ∈ fr' → LitFrom s t := by
  intro rest
  induction rest with
  | nil =>
    intro skip pos e n fr fr' e' h _ _ he hl
    simp only [scanLoop, Outcome.ok.injEq, Prod.mk.injEq] at h
    rw [← h.1, ← h.2]; exact ⟨he, hl⟩
  | cons c rest ih =>
    intro skip pos e n fr fr' e' h hr hp he hl
    have hlen : pos < s.length := by
      by_cases hh : pos < s.length
      · exact hh
      · rw [List.drop_eq_nil_of_le (by omega)] at hr; simp at hr
    have hr' : rest = s.drop (pos + 1) := by
      have := congrArg (List.drop 1) hr
      simpa [List.drop_drop, Nat.add_comm] using this
    have hp' : pos + 1 ≤ s.length := hlen
    by_cases hsk : skip = true
    · subst hsk
      rw [scanLoop] at h; simp only [if_true] at h
      exact ih _ _ _ _ _ _ _ h hr' hp' he hl
    · have hsk : skip = false := by simpa using hsk
      subst hsk
      by_cases hc : c = '{'
      · subst hc
        by_cases hh : rest.head? = some '{'
        · rw [scanLoop] at h
          simp only [Bool.false_eq_true, if_false, ne_eq, not_true, hh, if_true] at h
          exact ih _ _ _ _ _ _ _ h hr' hp' he hl
        · obtain ⟨fr1, p, h1, h2, h3, h4⟩ := scan_ok_step hh h
          have hfr1 : ∀ t, .literal t ∈ fr1 → LitFrom s t := by
            split at h1
            · rename_i hgt
              unfold pushLiteral at h1
              split at h1
              · simp at h1
              · rename_i hb
                simp only [Except.ok.injEq] at h1
                intro t ht
                rw [← h1] at ht
                simp only [List.mem_append, List.mem_singleton, Fragment.literal.injEq] at ht
                rcases ht with ht | ht
                · exact hl t ht
                · refine ⟨s.take e, slice s e pos, s.drop pos, ?_, ?_, ?_, ?_, hb, ht⟩
                  · unfold slice
                    have h5 : s.drop pos = (s.drop e).drop (pos - e) := by
                      rw [List.drop_drop]; congr 1; omega
                    rw [h5, List.append_assoc, List.take_append_drop, List.take_append_drop]
                  · intro hnil
                    have := congrArg List.length hnil
                    simp [slice] at this; omega
                  · rcases he.2 with rfl | h6
                    · left; simp
                    · right; exact h6
                  · right; rw [← hr]; rfl
            · simp only [Except.ok.injEq] at h1; rw [← h1]; exact hl
          refine ih _ _ _ _ _ _ _ h4 hr' hp' ?_ ?_
          · obtain ⟨post, hpost⟩ := takeWhile_mem_split rest h2
            have hs : s = s.take pos ++ '{' :: (rest.takeWhile (· ≠ '}') ++ '}' :: post) := by
              rw [← hpost, hr, List.take_append_drop]
            have hlp : (s.take pos).length = pos := by simp; omega
            have := endOk_mid (s.take pos) (rest.takeWhile (· ≠ '}')) post
            rw [hlp, ← hs] at this
            exact this
          · intro t ht
            simp only [List.mem_append, List.mem_singleton, reduceCtorEq, or_false] at ht
            exact hfr1 t ht
      · rw [scanLoop] at h
        simp only [Bool.false_eq_true, if_false, ne_eq, hc, not_false_eq_true, if_true] at h
        exact ih _ _ _ _ _ _ _ h hr' hp' he hl

/-! ### Panics -/

theorem parseRange_panic {ty : List Char} (h : parseRange ty = .panic) : ¬ RangeLike ty := by
  intro hr
  unfold parseRange at h
  simp only at h
  split at h
  · simp at h
  · rename_i start hst
    have hne : ty.takeWhile isDigit ≠ [] := by
      intro hh; rw [hh] at hst; simp [parseDigits] at hst
    cases ty with
    | nil => simp at hne
    | cons d r =>
      have hd : isDigit d = true := by
        cases hd : isDigit d with
        | true => rfl
        | false => simp [List.takeWhile, hd] at hne
      obtain ⟨rest, hrest⟩ := hr d r rfl (by rw [← isDigit_eq]; exact hd)
      rw [← isDigit_eq'] at hrest
      rw [hrest] at h
      have h2 : firstTwoBytes ('.' :: '.' :: rest) = some c!".." := by
        have : Char.utf8Size '.' = 1 := by decide
        simp [firstTwoBytes, this]
      rw [h2] at h
      simp only at h
      split at h
      · simp at h
      · split at h
        · simp at h
        · split at h <;> simp at h

theorem parseParam_panic {m : Mode} {t : List Char} (h : parseParam m t = .panic) :
    ∃ ty ∈ typeText t, ¬ RangeLike ty := by
  have key : ∀ ix, parseTypeHint m ix (t.dropWhile isDigit) = .panic →
      ∃ ty ∈ typeText t, ¬ RangeLike ty := by
    intro ix h
    unfold parseTypeHint at h
    split at h
    · rename_i input hin
      have := stripPrefix_eq hin
      refine ⟨input.takeWhile (· ≠ ':'), ?_, ?_⟩
      · unfold typeText
        rw [← isDigit_eq', this]; rfl
      · split at h
        · rename_i hp
          unfold parseType at hp
          split at hp
          · simp at hp
          · split at hp
            · split at hp <;> simp at hp
            · split at hp
              · split at hp <;> simp at hp
              · split at hp
                · rename_i hpr; exact parseRange_panic hpr
                · split at hp <;> simp at hp
                · simp at hp
        · simp at h
        · split at h <;> simp at h
    · split at h <;> simp at h
  unfold parseParam at h
  simp only at h
  split at h
  · exact key _ h
  · split at h
    · simp at h
    · exact key _ h

theorem scan_panic (m : Mode) (s : List Char) : ∀ (rest : List Char) (skip : Bool) (pos e n : Nat)
    (fr : List Fragment), scanLoop m s rest skip pos e n fr = .panic →
    ∃ text ∈ paramTexts (if skip then rest.tail else rest), parseParam m text = .panic := by
  intro rest
  induction rest with
  | nil => intro skip pos e n fr h; simp [scanLoop] at h
  | cons c rest ih =>
    intro skip pos e n fr h
    cases skip with
    | true =>
      rw [scanLoop] at h; simp only [if_true] at h
      simpa using ih _ _ _ _ _ h
    | false =>
      simp only [Bool.false_eq_true, if_false]
      by_cases hc : c = '{'
      · subst hc
        by_cases hh : rest.head? = some '{'
        · rw [scanLoop] at h
          simp only [Bool.false_eq_true, if_false, ne_eq, not_true, hh, if_true] at h
          have := ih _ _ _ _ _ h
          cases rest with
          | nil => simp at hh
          | cons d ds =>
            simp at hh; subst hh
            rw [paramTexts_esc]; simpa using this
        · rw [paramTexts_open hh]
          rw [scanLoop] at h
          simp only [Bool.false_eq_true, if_false, ne_eq, not_true, hh] at h
          split at h
          · simp at h
          · split at h
            · simp at h
            · split at h
              · rename_i hp; exact ⟨_, by simp, hp⟩
              · simp at h
              · split at h
                · obtain ⟨text, h1, h2⟩ := ih _ _ _ _ _ h
                  exact ⟨text, by simp at h1; simp [h1], h2⟩
                · obtain ⟨text, h1, h2⟩ := ih _ _ _ _ _ h
                  exact ⟨text, by simp at h1; simp [h1], h2⟩
      · rw [scanLoop] at h
        simp only [Bool.false_eq_true, if_false, ne_eq, hc, not_false_eq_true, if_true] at h
        have := ih _ _ _ _ _ h
        rw [paramTexts_other hc]; simpa using this

theorem number_mem : ∀ (l : List (Option Nat)) (n i : Nat), i ∈ number n l →
    some i ∈ l ∨ i < n + l.length := by
  intro l
  induction l with
  | nil => intro n i h; simp [number] at h
  | cons o l ih =>
    intro n i h
    cases o with
    | none =>
      simp only [number, List.mem_cons] at h
      rcases h with rfl | h
      · right; simp
      · rcases ih _ _ h with h1 | h1
        · left; simp [h1]
        · right; simp; omega
    | some j =>
      simp only [number, List.mem_cons] at h
      rcases h with rfl | h
      · left; simp
      · rcases ih _ _ h with h1 | h1
        · left; simp [h1]
        · right; simp; omega

end Defmt.Parser
