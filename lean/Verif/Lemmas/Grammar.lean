import Verif.Spec.Grammar
import Verif.Lemmas.Parser
import Verif.Lemmas.ParserCheck
/-!
# The parser follows the grammar
-/

namespace Defmt.Parser

theorem parseDigits_iff {b : Nat} {ds : List Char} {n : Nat} (hd : ∀ c ∈ ds, isDigit c = true) :
    parseDigits b ds = some n ↔ Number b ds n := by
  unfold parseDigits Number
  rw [digitsValue_eq]
  rw [isDigit_eq'] at hd
  constructor
  · intro h
    split at h
    · cases h
    · split at h
      · rename_i h1 h2
        injection h with h
        subst h
        exact ⟨h1, hd, rfl, h2⟩
      · cases h
  · rintro ⟨h1, _, rfl, h2⟩
    rw [if_neg h1, if_pos h2]

theorem Number.digits {b : Nat} {s : List Char} {n : Nat} (h : Number b s n) : ∀ c ∈ s, isDigit c = true := by
  rw [isDigit_eq']; exact h.2.1

theorem Number.parse {b : Nat} {s : List Char} {n : Nat} (h : Number b s n) : parseDigits b s = some n :=
  (parseDigits_iff h.digits).mpr h

theorem mem_takeWhile {α : Type} {p : α → Bool} : ∀ {s : List α} {c : α}, c ∈ s.takeWhile p → p c = true
  | [], c, h => by simp at h
  | d :: s, c, h => by
    rw [List.takeWhile_cons] at h
    split at h
    · rcases List.mem_cons.mp h with rfl | h
      · assumption
      · exact mem_takeWhile h
    · simp at h

theorem takeDigits (s : List Char) : ∀ c ∈ s.takeWhile isDigit, isDigit c = true := fun _ h => mem_takeWhile h

theorem lookup_mem {β : Type} {l : List (List Char × β)} {s : List Char} {b : β} (h : l.lookup s = some b) : (s, b) ∈ l := by
  induction l with
  | nil => cases h
  | cons e l ih =>
    obtain ⟨k, v⟩ := e
    rw [List.lookup] at h
    split at h
    · rename_i hk
      injection h with h
      simp only [beq_iff_eq] at hk
      subst hk h
      simp
    · exact List.mem_cons_of_mem _ (ih h)

theorem typeFromStr_iff {s : List Char} {t : Ty} : typeFromStr s = some t ↔ t.Word ∧ s = renderTy 0 t := by
  constructor
  · intro h
    have := lookup_mem h
    simp only [typeNames, List.mem_cons, Prod.mk.injEq, List.not_mem_nil, or_false] at this
    rcases this with ⟨rfl, rfl⟩ | this
    · exact ⟨trivial, rfl⟩
    repeat (rcases this with ⟨rfl, rfl⟩ | this; exact ⟨trivial, rfl⟩)
    obtain ⟨rfl, rfl⟩ := this
    exact ⟨trivial, rfl⟩
  · rintro ⟨h, rfl⟩
    cases t <;> first | rfl | cases h

theorem notDigit_bracket : ∀ x, (c!"]").head? = some x → isDigit x = false := by decide

theorem parseArray_iff {s : List Char} {n : Nat} :
    parseArray s = .ok n ↔ ∃ k ds, Number (2 ^ 64) ds n ∧ s = List.replicate k ' ' ++ ds ++ c!"]" := by
  constructor
  · intro h
    unfold parseArray at h
    simp only at h
    split at h
    · cases h
    · split at h
      · cases h
      · split at h
        · cases h
        · rename_i len hl
          split at h
          · cases h
          · rename_i hr
            injection h with h
            subst h
            refine ⟨(s.takeWhile (· = ' ')).length, _, (parseDigits_iff (takeDigits _)).mp hl, ?_⟩
            have e1 : s.takeWhile (· = ' ') = List.replicate (s.takeWhile (· = ' ')).length ' ' := by
              apply List.eq_replicate_of_mem
              intro b hb
              have := mem_takeWhile hb
              simpa using this
            rw [← e1]
            have e2 := List.takeWhile_append_dropWhile (p := isDigit) (l := s.dropWhile (· = ' '))
            rw [Decidable.not_not.mp hr] at e2
            rw [List.append_assoc, e2, List.takeWhile_append_dropWhile]
  · rintro ⟨k, ds, h, rfl⟩
    obtain ⟨d, ds', rfl⟩ : ∃ d ds', ds = d :: ds' := by
      cases ds with
      | nil => exact absurd rfl h.1
      | cons d ds' => exact ⟨d, ds', rfl⟩
    have h1 : (List.replicate k ' ' ++ (d :: ds' ++ c!"]")).dropWhile (· = ' ') = d :: ds' ++ c!"]" := by
      apply dropWhile_app
      · intro x hx; simp [List.eq_of_mem_replicate hx]
      · intro x hx
        simp only [List.cons_append, List.head?_cons, Option.some.injEq] at hx
        subst hx
        have := h.digits d (by simp)
        simp only [decide_eq_false_iff_not]
        intro hh; subst hh; revert this; decide
    unfold parseArray
    rw [List.append_assoc, h1]
    simp only [takeWhile_app isDigit _ _ h.digits notDigit_bracket, dropWhile_app isDigit _ _ h.digits notDigit_bracket, h.parse]
    simp

theorem two_dots {s : List Char} (h : firstTwoBytes s = some c!"..") : ∃ r, s = '.' :: '.' :: r := by
  match s, h with
  | [], h => cases h
  | [c], h => simp only [firstTwoBytes] at h; repeat' split at h <;> simp_all
  | c :: d :: r, h =>
    simp only [firstTwoBytes] at h
    split at h
    · simp at h
    · split at h
      · split at h
        · simp only [Option.some.injEq, List.cons.injEq, and_true] at h
          obtain ⟨rfl, rfl⟩ := h
          exact ⟨r, rfl⟩
        · cases h
      · cases h

theorem parseRange_iff {s : List Char} {a b : Nat} :
    (∃ k, parseRange s = .ok (some (a, b, k)) ∧ k = s.length) ↔
      ∃ x y, Number 256 x a ∧ Number 256 y b ∧ a < b ∧ b ≤ 128 ∧ s = x ++ c!".." ++ y := by
  constructor
  · rintro ⟨k, h, rfl⟩
    unfold parseRange at h
    simp only at h
    split at h
    · cases h
    · rename_i start hs
      split at h
      · cases h
      · rename_i two ht
        split at h
        · cases h
        · rename_i h2
          rw [Decidable.not_not.mp h2] at ht
          obtain ⟨r, hr⟩ := two_dots ht
          split at h
          · cases h
          · rename_i stop he
            split at h
            · cases h
            · rename_i hc
              simp only [Outcome.ok.injEq, Option.some.injEq, Prod.mk.injEq] at h
              obtain ⟨rfl, rfl, hk⟩ := h
              rw [hr] at he hk
              simp only [List.drop_succ_cons, List.drop_zero] at he hk
              refine ⟨_, _, (parseDigits_iff (takeDigits _)).mp hs, (parseDigits_iff (takeDigits _)).mp he, by omega, by omega, ?_⟩
              have e1 := List.takeWhile_append_dropWhile (p := isDigit) (l := s)
              rw [hr] at e1
              have e2 := List.takeWhile_append_dropWhile (p := isDigit) (l := r)
              have l1 := congrArg List.length e1
              have l2 := congrArg List.length e2
              simp only [List.length_append, List.length_cons] at l1 l2
              have : r.dropWhile isDigit = [] := by
                apply List.length_eq_zero_iff.mp; omega
              rw [this, List.append_nil] at e2
              rw [e2]
              simpa using e1.symm
  · rintro ⟨x, y, hx, hy, h1, h2, rfl⟩
    have hr : ∀ c, (c!".." ++ y).head? = some c → isDigit c = false := by
      intro c hc
      simp only [List.cons_append, List.head?_cons, Option.some.injEq] at hc
      subst hc; decide
    have he0 : y.takeWhile isDigit = y := by
      have := takeWhile_app isDigit y [] hy.digits (by simp)
      simpa using this
    refine ⟨x.length + y.length + 2, ?_, by simp; omega⟩
    unfold parseRange
    rw [List.append_assoc]
    simp only [takeWhile_app isDigit _ _ hx.digits hr, dropWhile_app isDigit _ _ hx.digits hr, hx.parse]
    have h2' : firstTwoBytes (c!".." ++ y) = some c!".." := by
      simp only [List.cons_append, List.nil_append, firstTwoBytes]
      have : Char.utf8Size '.' = 1 := by decide
      simp [this]
    simp only [h2']
    have hd : (c!".." ++ y).drop 2 = y := by simp
    simp only [hd, he0, hy.parse]
    rw [if_neg (by simp), if_neg (by omega)]

theorem parseType_iff {input s : List Char} {t : Ty} : parseType input s = .ok t ↔ TypeText s t := by
  constructor
  · intro h
    unfold parseType at h
    split at h
    · rename_i ty ht
      injection h with h
      subst h
      obtain ⟨h1, rfl⟩ := typeFromStr_iff.mp ht
      exact .word h1
    · split at h
      · rename_i r hr
        have := stripPrefix_eq hr
        subst this
        split at h
        · rename_i n hn
          injection h with h
          subst h
          obtain ⟨k, ds, hd, rfl⟩ := parseArray_iff.mp hn
          simpa using TypeText.u8Array (k := k) hd
        · cases h
      · split at h
        · rename_i r hr
          have := stripPrefix_eq hr
          subst this
          split at h
          · rename_i n hn
            injection h with h
            subst h
            obtain ⟨k, ds, hd, rfl⟩ := parseArray_iff.mp hn
            simpa using TypeText.formatArray (k := k) hd
          · cases h
        · split at h
          · cases h
          · rename_i a b k hk
            split at h
            · cases h
            · rename_i hl
              injection h with h
              subst h
              obtain ⟨x, y, hx, hy, h1, h2, rfl⟩ := parseRange_iff.mp ⟨k, hk, Decidable.not_not.mp hl⟩
              exact .bits hx hy h1 h2
          · cases h
  · intro h
    cases h with
    | word h => unfold parseType; rw [typeFromStr_iff.mpr ⟨h, rfl⟩]
    | @u8Array k ds n h =>
      have h1 : typeFromStr (c!"[u8;" ++ List.replicate k ' ' ++ ds ++ c!"]") = none := by
        simp [typeFromStr, typeNames, List.lookup]
      unfold parseType
      rw [h1]
      simp only
      rw [List.append_assoc, List.append_assoc, stripPrefix_append]
      simp only
      rw [parseArray_iff.mpr ⟨k, ds, h, by simp⟩]
    | @formatArray k ds n h =>
      have h1 : typeFromStr (c!"[?;" ++ List.replicate k ' ' ++ ds ++ c!"]") = none := by
        simp [typeFromStr, typeNames, List.lookup]
      have h2 : stripPrefix c!"[u8;" (c!"[?;" ++ List.replicate k ' ' ++ ds ++ c!"]") = none := by
        simp [stripPrefix]
      unfold parseType
      rw [h1, h2]
      simp only
      rw [List.append_assoc, List.append_assoc, stripPrefix_append]
      simp only
      rw [parseArray_iff.mpr ⟨k, ds, h, by simp⟩]
    | @bits a b s e ha hb h1 h2 =>
      obtain ⟨k, hk, hl⟩ := parseRange_iff.mpr ⟨a, b, ha, hb, h1, h2, rfl⟩
      unfold parseType
      rw [hk]
      cases a with
      | nil => exact absurd rfl ha.1
      | cons d ds =>
        have hdd : isDigit d = true := ha.digits d (by simp)
        simp only [List.cons_append] at hl ⊢
        rw [typeFromStr_digit d _ hdd, stripPrefix_bracket_digit _ d _ hdd, stripPrefix_bracket_digit _ d _ hdd]
        simp only
        rw [if_neg (by simp [hl])]

/-! ### Hints -/

theorem splitAt_spec (sep : Char) : ∀ (s : List Char), (splitAt sep s).length = s.count sep + 1 ∧ ∀ w ∈ splitAt sep s, sep ∉ w
  | [] => by simp [splitAt]
  | c :: cs => by
    obtain ⟨h1, h2⟩ := splitAt_spec sep cs
    rw [splitAt]
    split
    · rename_i h
      subst h
      refine ⟨by simp [h1], ?_⟩
      intro w hw
      rcases List.mem_cons.mp hw with rfl | hw
      · simp
      · exact h2 w hw
    · rename_i h
      rw [List.count_cons_of_ne (by simpa using h)]
      cases hs : splitAt sep cs with
      | nil => rw [hs] at h1; simp at h1
      | cons w ws =>
        rw [hs] at h1 h2
        refine ⟨by simpa using h1, ?_⟩
        intro v hv
        rcases List.mem_cons.mp hv with rfl | hv
        · simp only [List.mem_cons, not_or]
          exact ⟨fun e => h e.symm, h2 w (by simp)⟩
        · exact h2 v (by simp [hv])

theorem splitAt_join (sep : Char) : ∀ (s w : List Char) (ws : List (List Char)), splitAt sep s = w :: ws →
    s = w ++ (ws.map (fun v => sep :: v)).flatten
  | [], w, ws, h => by simp [splitAt] at h; obtain ⟨rfl, rfl⟩ := h; simp
  | c :: cs, w, ws, h => by
    rw [splitAt] at h
    cases hs : splitAt sep cs with
    | nil => have := (splitAt_spec sep cs).1; rw [hs] at this; simp at this
    | cons v vs =>
      have ih := splitAt_join sep cs v vs hs
      rw [hs] at h
      split at h
      · rename_i hc
        injection h with h1 h2
        subst h1 h2 hc
        simp [← ih]
      · injection h with h1 h2
        subst h1 h2
        simp [← ih]

theorem parseBitflags_iff {full s : List Char} {h : Hint} (hf : full = bitflagsHintStart ++ s) :
    parseBitflagsHint full s = h ↔ FlagsText s h := by
  have hl := (splitAt_spec '@' s).1
  have hm := (splitAt_spec '@' s).2
  constructor
  · rintro rfl
    unfold parseBitflagsHint
    split
    · rename_i a b c e
      have := splitAt_join _ _ _ _ e
      rw [e] at hm
      simp only [List.mem_cons, List.not_mem_nil, or_false, forall_eq_or_imp, forall_eq] at hm
      simp only [List.map_cons, List.map_nil, List.flatten_cons, List.flatten_nil, List.append_nil] at this
      rw [this]
      simpa using FlagsText.noCrate hm.1 hm.2.1 hm.2.2
    · rename_i a b c d e
      have := splitAt_join _ _ _ _ e
      rw [e] at hm
      simp only [List.mem_cons, List.not_mem_nil, or_false, forall_eq_or_imp, forall_eq] at hm
      simp only [List.map_cons, List.map_nil, List.flatten_cons, List.flatten_nil, List.append_nil] at this
      rw [this]
      simpa using FlagsText.withCrate hm.1 hm.2.1 hm.2.2.1 hm.2.2.2
    · rename_i h3 h4
      rw [hf]
      apply FlagsText.other
      · intro hc
        rw [hc] at hl
        match hs : splitAt '@' s, hl with
        | [a, b, c], _ => exact h3 a b c hs
      · intro hc
        rw [hc] at hl
        match hs : splitAt '@' s, hl with
        | [a, b, c, d], _ => exact h4 a b c d hs
  · intro h
    cases h with
    | noCrate h1 h2 h3 =>
      unfold parseBitflagsHint
      rw [show ∀ n p d : List Char, n ++ c!"@" ++ p ++ c!"@" ++ d = n ++ '@' :: (p ++ '@' :: d) by simp]
      rw [splitAt_append _ _ _ h1, splitAt_append _ _ _ h2, splitAt_plain _ _ h3]
    | withCrate h1 h2 h3 h4 =>
      unfold parseBitflagsHint
      rw [show ∀ n p d c : List Char, n ++ c!"@" ++ p ++ c!"@" ++ d ++ c!"@" ++ c = n ++ '@' :: (p ++ '@' :: (d ++ '@' :: c)) by simp]
      rw [splitAt_append _ _ _ h1, splitAt_append _ _ _ h2, splitAt_append _ _ _ h3, splitAt_plain _ _ h4]
    | other h1 h2 =>
      unfold parseBitflagsHint
      split
      · rename_i e; rw [e] at hl; simp at hl; omega
      · rename_i e; rw [e] at hl; simp at hl; omega
      · rw [hf]; rfl

/-- the part of `parseHint` after `#` -/
def afterAlt (alternate : Bool) (s : List Char) : Option Hint :=
  match (match stripPrefix c!"0" s with
    | some rest => parseInteger rest
    | none => some (s, 0)) with
  | none => none
  | some (s, zeroPad) =>
    match stripPrefix bitflagsHintStart s with
    | some stripped => some (parseBitflagsHint s stripped)
    | none => hintFromStr alternate zeroPad s

theorem parseHint_alt (s : List Char) : parseHint s = match stripPrefix c!"#" s with
    | some rest => afterAlt true rest
    | none => afterAlt false s := by
  unfold parseHint afterAlt
  cases stripPrefix c!"#" s <;> rfl

/-- the part of `parseHint` after the padding -/
def afterPad (alternate : Bool) (pad : Nat) (s : List Char) : Option Hint :=
  match stripPrefix bitflagsHintStart s with
  | some stripped => some (parseBitflagsHint s stripped)
  | none => hintFromStr alternate pad s

theorem hintFromStr_iff {a : Bool} {n : Nat} {s : List Char} {h : Hint} : hintFromStr a n s = some h ↔ (s, h) ∈ hintWords a n := by
  constructor
  · intro hh
    have := lookup_mem hh
    simp only [List.mem_cons, Prod.mk.injEq, List.not_mem_nil, or_false] at this
    simp only [hintWords, List.mem_cons, Prod.mk.injEq, List.not_mem_nil, or_false]
    rcases this with h | h | h | h | h | h | h | h | h | h | h | h | h | h | h <;> simp [h.1, h.2]
  · intro hh
    simp only [hintWords, List.mem_cons, Prod.mk.injEq, List.not_mem_nil, or_false] at hh
    rcases hh with h | h | h | h | h | h | h | h | h | h | h | h | h | h | h <;> (rw [h.1, h.2]; rfl)

/-- what can follow the padding -/
inductive Tail (a : Bool) (n : Nat) : List Char → Hint → Prop where
  | word {s h} : (s, h) ∈ hintWords a n → Tail a n s h
  | flags {s h} : FlagsText s h → Tail a n (c!"__internal_bitflags_" ++ s) h

theorem words_head {a : Bool} {n : Nat} {s : List Char} {h : Hint} (hm : (s, h) ∈ hintWords a n) (x : Char)
    (hx : s.head? = some x) : isDigit x = false ∧ x ≠ '#' ∧ x ≠ '_' := by
  simp only [hintWords, List.mem_cons, Prod.mk.injEq, List.not_mem_nil, or_false] at hm
  rcases hm with e | e | e | e | e | e | e | e | e | e | e | e | e | e | e <;>
    (rw [e.1] at hx; simp only [List.head?_cons, List.head?_nil, Option.some.injEq, reduceCtorEq] at hx; try (subst hx; decide))

theorem Tail.head {a : Bool} {n : Nat} {s : List Char} {h : Hint} (ht : Tail a n s h) (x : Char)
    (hx : s.head? = some x) : isDigit x = false ∧ x ≠ '#' := by
  cases ht with
  | word hm => exact ⟨(words_head hm x hx).1, (words_head hm x hx).2.1⟩
  | flags _ => simp at hx; subst hx; decide

theorem afterPad_iff {a : Bool} {n : Nat} {s : List Char} {h : Hint} : afterPad a n s = some h ↔ Tail a n s h := by
  unfold afterPad
  constructor
  · intro hh
    split at hh
    · rename_i r hr
      have := stripPrefix_eq hr
      injection hh with hh
      rw [this]
      exact .flags ((parseBitflags_iff this).mp hh)
    · exact .word (hintFromStr_iff.mp hh)
  · intro ht
    cases ht with
    | flags hf =>
      rw [show c!"__internal_bitflags_" = bitflagsHintStart from rfl, stripPrefix_append]
      simp only
      rw [(parseBitflags_iff rfl).mpr hf]
    | word hm =>
      have : stripPrefix bitflagsHintStart s = none := by
        cases s with
        | nil => rfl
        | cons x xs =>
          have := (words_head hm x rfl).2.2
          have : ¬ '_' = x := fun hh => this hh.symm
          simp [bitflagsHintStart, stripPrefix, this]
      rw [this]
      exact hintFromStr_iff.mpr hm

theorem strip_none {c : Char} {s : List Char} (h : ∀ x, s.head? = some x → x ≠ c) : stripPrefix [c] s = none := by
  cases s with
  | nil => rfl
  | cons x xs =>
    have : ¬ c = x := fun hh => h x rfl hh.symm
    simp [stripPrefix, this]

theorem afterAlt_iff {a : Bool} {s : List Char} {h : Hint} :
    afterAlt a s = some h ↔ ∃ p n r, PadText p n ∧ Tail a n r h ∧ s = p ++ r := by
  have e : afterAlt a s = match (match stripPrefix c!"0" s with
      | some rest => parseInteger rest
      | none => some (s, 0)) with
    | none => none
    | some (s, n) => afterPad a n s := by unfold afterAlt afterPad; rfl
  rw [e]
  constructor
  · intro hh
    cases h0 : stripPrefix c!"0" s with
    | none =>
      rw [h0] at hh
      exact ⟨[], 0, s, .none, afterPad_iff.mp hh, by simp⟩
    | some r =>
      rw [h0] at hh
      simp only at hh
      unfold parseInteger at hh
      cases hd : parseDigits (2 ^ 64) (r.takeWhile isDigit) with
      | none => rw [hd] at hh; cases hh
      | some n =>
        rw [hd] at hh
        refine ⟨_, n, _, .width ((parseDigits_iff (takeDigits _)).mp hd), afterPad_iff.mp hh, ?_⟩
        rw [stripPrefix_eq h0]
        simp [List.takeWhile_append_dropWhile]
  · rintro ⟨p, n, r, hp, ht, rfl⟩
    cases hp with
    | none =>
      rw [List.nil_append, strip_none]
      · exact afterPad_iff.mpr ht
      · intro x hx hc
        have := (ht.head x hx).1
        subst hc
        revert this; decide
    | @width ds _ hn =>
      have hr : ∀ x, r.head? = some x → isDigit x = false := fun x hx => (ht.head x hx).1
      have : stripPrefix c!"0" ('0' :: ds ++ r) = some (ds ++ r) := by simp [stripPrefix]
      rw [this]
      simp only
      unfold parseInteger
      rw [takeWhile_app isDigit _ _ hn.digits hr, dropWhile_app isDigit _ _ hn.digits hr, hn.parse]
      exact afterPad_iff.mpr ht

theorem knownHint_iff {s : List Char} {h : Hint} :
    KnownHint s h ↔ ∃ a alt p n r, AltText a alt ∧ PadText p n ∧ Tail alt n r h ∧ s = a ++ p ++ r := by
  constructor
  · intro hh
    cases hh with
    | word ha hp hm => exact ⟨_, _, _, _, _, ha, hp, .word hm, rfl⟩
    | flags ha hp hf => exact ⟨_, _, _, _, _, ha, hp, .flags hf, rfl⟩
  · rintro ⟨a, alt, p, n, r, ha, hp, ht, rfl⟩
    cases ht with
    | word hm => exact .word ha hp hm
    | flags hf => exact .flags ha hp hf

theorem parseHint_iff {s : List Char} {h : Hint} : parseHint s = some h ↔ KnownHint s h := by
  rw [parseHint_alt, knownHint_iff]
  constructor
  · intro hh
    cases hs : stripPrefix c!"#" s with
    | none =>
      rw [hs] at hh
      obtain ⟨p, n, r, hp, ht, e⟩ := afterAlt_iff.mp hh
      exact ⟨[], false, p, n, r, .no, hp, ht, by simpa using e⟩
    | some q =>
      rw [hs] at hh
      obtain ⟨p, n, r, hp, ht, e⟩ := afterAlt_iff.mp hh
      refine ⟨_, true, p, n, r, .yes, hp, ht, ?_⟩
      rw [stripPrefix_eq hs, e]; simp
  · rintro ⟨a, alt, p, n, r, ha, hp, ht, rfl⟩
    cases ha with
    | no =>
      rw [List.nil_append, strip_none]
      · exact afterAlt_iff.mpr ⟨p, n, r, hp, ht, rfl⟩
      · intro x hx
        cases hp with
        | none => exact (ht.head x hx).2
        | width _ => simp at hx; subst hx; decide
    | yes =>
      rw [List.append_assoc, stripPrefix_append]
      exact afterAlt_iff.mpr ⟨p, n, r, hp, ht, rfl⟩

theorem parseHint_none {s : List Char} : parseHint s = none ↔ ∀ h, ¬ KnownHint s h := by
  constructor
  · intro h1 h h2
    rw [parseHint_iff.mpr h2] at h1
    cases h1
  · intro h
    cases hs : parseHint s with
    | none => rfl
    | some x => exact absurd (parseHint_iff.mp hs) (h x)

theorem hintText_iff {m : Mode} {s : List Char} {h : Hint} :
    HintText m s h ↔ s ≠ [] ∧ (parseHint s = some h ∨ (m = .forwardsCompatible ∧ parseHint s = none ∧ h = .unknown s)) := by
  rw [parseHint_iff, parseHint_none]
  constructor
  · intro hh
    cases hh with
    | known h1 h2 => exact ⟨h1, .inl h2⟩
    | unknown h1 h2 h3 => exact ⟨h2, .inr ⟨h1, h3, rfl⟩⟩
  · rintro ⟨h1, h2 | ⟨h2, h3, rfl⟩⟩
    · exact .known h1 h2
    · exact .unknown h2 h1 h3

theorem parseHintPart_iff {m : Mode} {s : List Char} {o : Option Hint} : parseHintPart m s = .ok o ↔ HintPart m s o := by
  unfold parseHintPart
  constructor
  · intro h
    split at h
    · rename_i r hr
      rw [stripPrefix_eq hr]
      split at h
      · cases h
      · rename_i hne
        split at h
        · rename_i a ha
          injection h with h
          subst h
          exact .some (hintText_iff.mpr ⟨hne, .inl ha⟩)
        · cases h
        · rename_i ha
          injection h with h
          subst h
          exact .some (hintText_iff.mpr ⟨hne, .inr ⟨rfl, ha, rfl⟩⟩)
    · split at h
      · cases h
      · rename_i hne
        injection h with h
        subst h
        rw [Decidable.not_not.mp hne]
        exact .none
  · intro h
    cases h with
    | none => rfl
    | @some s h hh =>
      have : stripPrefix c!":" (':' :: s) = some s := by simp [stripPrefix]
      obtain ⟨h1, h2 | ⟨rfl, h2, rfl⟩⟩ := hintText_iff.mp hh
      · rw [this]; simp only [if_neg h1, h2]
      · rw [this]; simp only [if_neg h1, h2]

theorem typeText_noColon {s : List Char} {t : Ty} (h : TypeText s t) : ':' ∉ s := by
  have nd : ∀ {b s n}, Number b s n → ':' ∉ s := by
    intro b s n h hm
    have := h.digits _ hm
    revert this; decide
  cases h with
  | word h => exact renderTy_notMem 0 t ':' (Or.inl rfl)
  | u8Array h => simp only [List.mem_append, List.mem_replicate, not_or]; exact ⟨⟨⟨by decide, by rintro ⟨_, h⟩; revert h; decide⟩, nd h⟩, by decide⟩
  | formatArray h => simp only [List.mem_append, List.mem_replicate, not_or]; exact ⟨⟨⟨by decide, by rintro ⟨_, h⟩; revert h; decide⟩, nd h⟩, by decide⟩
  | bits h1 h2 => simp only [List.mem_append, not_or]; exact ⟨⟨nd h1, by decide⟩, nd h2⟩

theorem hintPart_head {m : Mode} {s : List Char} {o : Option Hint} (h : HintPart m s o) : ∀ x, s.head? = some x → x = ':' := by
  cases h with
  | none => simp
  | some => simp

theorem parseTypeHint_iff {m : Mode} {ix : Option Nat} {s : List Char} {p : Param} :
    parseTypeHint m ix s = .ok p ↔ ∃ b c, TypePart b p.ty ∧ HintPart m c p.hint ∧ p.index = ix ∧ s = b ++ c := by
  unfold parseTypeHint
  constructor
  · intro h
    split at h
    · rename_i r hr
      split at h
      · cases h
      · cases h
      · rename_i ty ht
        split at h
        · cases h
        · rename_i hint hh
          injection h with h
          subst h
          refine ⟨_, _, .some (parseType_iff.mp ht), parseHintPart_iff.mp hh, rfl, ?_⟩
          rw [stripPrefix_eq hr]
          simp [List.takeWhile_append_dropWhile]
    · split at h
      · cases h
      · rename_i hint hh
        injection h with h
        subst h
        exact ⟨[], s, .none, parseHintPart_iff.mp hh, rfl, rfl⟩
  · rintro ⟨b, c, hb, hc, rfl, rfl⟩
    obtain ⟨index, ty, hint⟩ := p
    have hcc := hintPart_head hc
    cases hb with
    | none =>
      rw [List.nil_append, strip_none (fun x hx => by rw [hcc x hx]; decide)]
      simp only
      rw [parseHintPart_iff.mpr hc]
    | @some s _ ht =>
      have h1 : ∀ x ∈ s, decide (x ≠ ':') = true := by
        intro x hx
        simp only [ne_eq, decide_eq_true_eq]
        rintro rfl
        exact typeText_noColon ht hx
      have h2 : ∀ x, c.head? = some x → decide (x ≠ ':') = false := by
        intro x hx; rw [hcc x hx]; decide
      have : stripPrefix c!"=" ('=' :: s ++ c) = some (s ++ c) := by simp [stripPrefix]
      rw [this]
      simp only
      rw [takeWhile_app _ _ _ h1 h2, dropWhile_app _ _ _ h1 h2, parseType_iff.mpr ht]
      simp only
      rw [parseHintPart_iff.mpr hc]

/-- The parser of parameters follows the grammar. -/
theorem parseParam_iff {m : Mode} {s : List Char} {p : Param} : parseParam m s = .ok p ↔ ParamText m s p := by
  constructor
  · intro h
    unfold parseParam at h
    simp only at h
    have e := List.takeWhile_append_dropWhile (p := isDigit) (l := s)
    obtain ⟨index, ty, hint⟩ := p
    split at h
    · rename_i h0
      rw [h0] at e
      obtain ⟨b, c, hb, hc, hi, hs⟩ := parseTypeHint_iff.mp h
      rw [← e, hs]
      simp only at hb hc hi
      subst hi
      rw [← List.append_assoc]
      exact .mk .none hb hc
    · split at h
      · cases h
      · rename_i i hi'
        obtain ⟨b, c, hb, hc, hi, hs⟩ := parseTypeHint_iff.mp h
        rw [← e, hs]
        simp only at hb hc hi
        subst hi
        rw [← List.append_assoc]
        exact .mk (.some ((parseDigits_iff (takeDigits _)).mp hi')) hb hc
  · intro h
    cases h with
    | @mk a b c index ty hint ha hb hc =>
      have hr : ∀ x, (b ++ c).head? = some x → isDigit x = false := by
        intro x hx
        cases hb with
        | none => rw [List.nil_append] at hx; rw [hintPart_head hc x hx]; decide
        | some _ => simp at hx; subst hx; decide
      have ht : ∀ ix, parseTypeHint m ix (b ++ c) = .ok ⟨ix, ty, hint⟩ := fun ix =>
        parseTypeHint_iff.mpr ⟨b, c, hb, hc, rfl, rfl⟩
      rw [List.append_assoc]
      cases ha with
      | none => rw [List.nil_append, parseParam_none m _ hr, ht]
      | some hn =>
        unfold parseParam
        simp only [takeWhile_app isDigit _ _ hn.digits hr, dropWhile_app isDigit _ _ hn.digits hr, hn.parse, if_neg hn.1, ht]

/-! ### Text -/

theorem checkBraces_run (b : List Char) : ∀ (o c : Bool), checkBraces o c b = none ↔
    ((braces b).count '{' % 2 = if o then 1 else 0) ∧ ((braces b).count '}' % 2 = if c then 1 else 0) ∧
      checkBraces false false (b.dropWhile (fun c => c = '{' ∨ c = '}')) = none := by
  induction b with
  | nil => intro o c; cases o <;> cases c <;> simp [checkBraces, braces]
  | cons d b ih =>
    intro o c
    rw [checkBraces]
    by_cases h1 : d = '{'
    · subst h1
      rw [if_pos rfl, ih]
      simp only [braces, List.takeWhile_cons, decide_true, true_or, if_true, List.count_cons_self, List.dropWhile_cons]
      rw [List.count_cons_of_ne (by decide)]
      cases o <;> simp <;> omega
    · by_cases h2 : d = '}'
      · subst h2
        rw [if_neg h1, if_pos rfl, ih]
        simp only [braces, List.takeWhile_cons, decide_true, or_true, if_true, List.count_cons_self, List.dropWhile_cons]
        rw [List.count_cons_of_ne (by decide)]
        cases c <;> simp <;> omega
      · rw [if_neg h1, if_neg h2]
        have e1 : braces (d :: b) = [] := by simp [braces, h1, h2]
        have e2 : (d :: b).dropWhile (fun c => decide (c = '{' ∨ c = '}')) = d :: b := by simp [h1, h2]
        rw [e1, e2, checkBraces, if_neg h1, if_neg h2]
        cases o <;> cases c <;> simp

theorem evenRuns_cons {d : Char} {b : List Char} (hd : d ≠ '{' ∧ d ≠ '}') : EvenRuns (d :: b) ↔ EvenRuns b := by
  constructor
  · intro h a b' e hl
    refine h (d :: a) b' (by rw [e]; rfl) ?_
    intro c hc
    cases a with
    | nil => simp at hc; subst hc; exact hd
    | cons x xs => rw [List.getLast?_cons_cons] at hc; exact hl c hc
  · intro h a b' e hl
    cases a with
    | nil =>
      simp at e
      subst e
      simp [braces, hd.1, hd.2]
    | cons x xs =>
      simp at e
      obtain ⟨rfl, e⟩ := e
      refine h xs b' e ?_
      intro c hc
      cases xs with
      | nil => simp at hc
      | cons y ys => exact hl c (by rw [List.getLast?_cons_cons]; exact hc)

theorem checkBraces_even : ∀ (k : Nat) (b : List Char), b.length ≤ k → (checkBraces false false b = none ↔ EvenRuns b)
  | 0, b, hk => by
    have : b = [] := List.length_eq_zero_iff.mp (by omega)
    subst this
    simp only [checkBraces, Bool.false_eq_true, if_false, true_iff]
    intro a b' e _
    have := List.append_eq_nil_iff.mp e.symm
    simp [this.2, braces]
  | k + 1, b, hk => by
    by_cases hr : braces b = []
    · match b, hk, hr with
      | [], hk, hr => exact checkBraces_even k [] (by simp)
      | d :: b, hk, hr =>
        have hd : d ≠ '{' ∧ d ≠ '}' := by
          constructor <;> (rintro rfl; simp [braces] at hr)
        rw [evenRuns_cons hd, ← checkBraces_even k b (by simpa using hk), checkBraces, if_neg hd.1, if_neg hd.2]
        simp
    · have hsplit := List.takeWhile_append_dropWhile (p := fun c => decide (c = '{' ∨ c = '}')) (l := b)
      have hlen := congrArg List.length hsplit
      rw [List.length_append] at hlen
      have hpos : 0 < (b.takeWhile (fun c => decide (c = '{' ∨ c = '}'))).length := List.length_pos_iff.mpr hr
      rw [checkBraces_run b false false]
      simp only [Bool.false_eq_true, if_false]
      have hdrop : checkBraces false false (b.dropWhile (fun c => decide (c = '{' ∨ c = '}'))) = none ↔
          EvenRuns (b.dropWhile (fun c => decide (c = '{' ∨ c = '}'))) := checkBraces_even k _ (by omega)
      rw [hdrop]
      generalize hrun : b.takeWhile (fun c => decide (c = '{' ∨ c = '}')) = run at *
      generalize hrest : b.dropWhile (fun c => decide (c = '{' ∨ c = '}')) = rest at *
      have hbr : braces b = run := hrun
      have hall : ∀ c ∈ run, c = '{' ∨ c = '}' := by
        intro c hc
        rw [← hrun] at hc
        have := mem_takeWhile hc
        simpa using this
      have hhead : ∀ c, rest.head? = some c → c ≠ '{' ∧ c ≠ '}' := by
        intro c hc
        rw [← hrest] at hc
        have := List.head?_dropWhile_not (fun c => decide (c = '{' ∨ c = '}')) b
        rw [hc] at this
        simpa using this
      constructor
      · rintro ⟨h1, h2, h3⟩ a b' e hl
        -- the split point is at the start, or inside rest
        by_cases ha : a = []
        · subst ha
          simp at e
          subst e
          exact ⟨h1, h2⟩
        · -- a does not end inside the run
          rw [← hsplit] at e
          rcases List.append_eq_append_iff.mp e with ⟨x, hx, hy⟩ | ⟨x, hx, hy⟩
          · -- a = run ++ x, rest = x ++ b'
            refine h3 x b' hy ?_
            intro c hc
            refine hl c ?_
            rw [hx, List.getLast?_append, hc]; rfl
          · -- run = a ++ x : last of a is a brace
            exfalso
            obtain ⟨c, hc⟩ : ∃ c, a.getLast? = some c := by
              cases hg : a.getLast? with
              | none => exact absurd (List.getLast?_eq_none_iff.mp hg) ha
              | some c => exact ⟨c, rfl⟩
            have hm : c ∈ run := by rw [hx]; exact List.mem_append_left _ (List.mem_of_getLast? hc)
            rcases hall c hm with rfl | rfl
            · exact (hl _ hc).1 rfl
            · exact (hl _ hc).2 rfl
      · intro h
        have h0 := h [] b rfl (by simp)
        refine ⟨h0.1, h0.2, ?_⟩
        -- rest starts with a character that is not a brace
        cases rest with
        | nil =>
          intro a b' e _
          have := List.append_eq_nil_iff.mp e.symm
          simp [this.2, braces]
        | cons d r =>
          have hd := hhead d rfl
          rw [evenRuns_cons hd]
          intro a b' e hl
          refine h (run ++ d :: a) b' (by rw [← hsplit, e]; simp) ?_
          intro c hc
          rw [List.getLast?_append] at hc
          cases a with
          | nil => simp at hc; subst hc; exact hd
          | cons x xs =>
            rw [List.getLast?_cons_cons] at hc
            cases hg : (x :: xs).getLast? with
            | none => simp at hg
            | some c' =>
              rw [hg] at hc
              simp at hc
              subst hc
              exact hl c' hg

theorem undouble_eq (c : Char) (s : List Char) : undouble c s = single c s := by
  fun_induction undouble c s with
  | case1 => rfl
  | case2 => rfl
  | case3 => rw [single, if_pos (by assumption)]; simp_all
  | case4 a b rest h ih => rw [single, if_neg h, ih]

theorem pushLiteral_iff {fr fs : List Fragment} {raw : List Char} : pushLiteral fr raw = .ok fs ↔
    EvenRuns raw ∧ fs = fr ++ [.literal (single '}' (single '{' raw))] := by
  unfold pushLiteral
  rw [← checkBraces_even raw.length raw (Nat.le_refl _)]
  cases h : checkBraces false false raw with
  | none => simp [undouble_eq]; exact eq_comm
  | some e => simp

theorem scan_raw (m : Mode) (s : List Char) : ∀ (raw r : List Char), paramTexts raw = [] → ∀ (pos e n : Nat) (fr : List Fragment),
    scanLoop m s (raw ++ r) false pos e n fr = scanLoop m s r false (pos + raw.length) e n fr := by
  intro raw
  fun_induction paramTexts raw with
  | case1 => intro r _ pos e n fr; simp
  | case2 rest ih =>
    intro r h pos e n fr
    simp only [List.cons_append]
    rw [scanLoop]
    simp only [Bool.false_eq_true, if_false, ne_eq, not_true, List.head?_cons, if_true]
    rw [scanLoop]
    simp only [if_true]
    rw [ih r h]
    congr 1
    simp; omega
  | case3 => intro r h; cases h
  | case4 c rest h1 h2 ih =>
    intro r h pos e n fr
    have hc : c ≠ '{' := by rintro rfl; exact h2 rfl
    simp only [List.cons_append]
    rw [scanLoop]
    simp only [Bool.false_eq_true, if_false, ne_eq, hc, not_false_eq_true, if_true]
    rw [ih r h]
    congr 1
    simp; omega

theorem paramTexts_raw : ∀ (raw r : List Char), paramTexts raw = [] → paramTexts (raw ++ r) = paramTexts r := by
  intro raw
  fun_induction paramTexts raw with
  | case1 => intro r _; simp
  | case2 rest ih => intro r h; simp only [List.cons_append]; rw [paramTexts_esc]; exact ih r h
  | case3 => intro r h; cases h
  | case4 c rest h1 h2 ih =>
    intro r h
    have hc : c ≠ '{' := by rintro rfl; exact h2 rfl
    simp only [List.cons_append]
    rw [paramTexts_other hc]
    exact ih r h

theorem paramTexts_inner : ∀ (a r : List Char), '{' ∉ a → paramTexts (a ++ r) = paramTexts r
  | [], r, _ => rfl
  | c :: a, r, h => by
    simp only [List.mem_cons, not_or] at h
    rw [List.cons_append, paramTexts_other (fun e => h.1 e.symm), paramTexts_inner a r h.2]

/-- what remains to be done after the scan -/
def finish (s : List Char) (r : List Fragment × Nat) : Except Error (List Fragment) :=
  if r.2 ≠ s.length then pushLiteral r.1 (s.drop r.2) else .ok r.1

theorem split_param {r : List Char} (h : '}' ∈ r) : r = r.takeWhile (· ≠ '}') ++ '}' :: (r.dropWhile (· ≠ '}')).tail := by
  have e := List.takeWhile_append_dropWhile (p := fun c => decide (c ≠ '}')) (l := r)
  cases hd : r.dropWhile (fun c => decide (c ≠ '}')) with
  | nil =>
    rw [hd, List.append_nil] at e
    rw [← e] at h
    have := mem_takeWhile h
    simp at this
  | cons x xs =>
    have := List.head?_dropWhile_not (fun c => decide (c ≠ '}')) r
    rw [hd] at this
    simp at this
    subst this
    rw [List.tail_cons, ← hd, e]

theorem scan_means (m : Mode) (s : List Char) : ∀ (k : Nat) (pre raw rest : List Char) (n : Nat) (fr : List Fragment) (r) (out),
    rest.length ≤ k → s = pre ++ raw ++ rest → paramTexts raw = [] → (∀ text ∈ paramTexts rest, '{' ∉ text) →
    scanLoop m s rest false (pre.length + raw.length) pre.length n fr = .ok r → finish s r = .ok out →
    ∃ pieces fs, raw ++ rest = glue pieces ∧ Means m n pieces fs ∧ out = fr ++ fs := by
  intro k
  induction k with
  | zero =>
    intro pre raw rest n fr r out hk hs hraw hno hsc hf
    have : rest = [] := List.length_eq_zero_iff.mp (by omega)
    subst this
    rw [scanLoop] at hsc
    injection hsc with hsc
    subst hsc
    unfold finish at hf
    simp only at hf
    subst hs
    by_cases h0 : raw = []
    · subst h0
      simp at hf
      exact ⟨[], [], rfl, .nil, by simp [hf]⟩
    · have : pre.length ≠ (pre ++ raw ++ []).length := by
        have := List.length_pos_iff.mpr h0
        simp only [List.length_append, List.length_nil]; omega
      rw [if_pos this] at hf
      have e : (pre ++ raw ++ []).drop pre.length = raw := by simp
      rw [e] at hf
      obtain ⟨h1, h2⟩ := pushLiteral_iff.mp hf
      exact ⟨[.text raw], _, by simp [glue], .text ⟨h0, hraw, h1, rfl⟩ (by simp) .nil, h2⟩
  | succ k ih =>
    intro pre raw rest n fr r out hk hs hraw hno hsc hf
    match rest, hk, hs, hno, hsc with
    | [], _, hs, hno, hsc => exact ih pre raw [] n fr r out (by simp) hs hraw hno hsc hf
    | c :: rest, hk, hs, hno, hsc =>
      simp only [List.length_cons] at hk
      by_cases hc : c = '{'
      · subst hc
        by_cases hh : rest.head? = some '{'
        · obtain ⟨r', rfl⟩ : ∃ r', rest = '{' :: r' := by
            cases rest with
            | nil => cases hh
            | cons x xs => simp at hh; subst hh; exact ⟨xs, rfl⟩
          rw [show '{' :: '{' :: r' = c!"{{" ++ r' from rfl, scan_raw m s c!"{{" r' (by rfl)] at hsc
          obtain ⟨pieces, fs, h1, h2, h3⟩ := ih pre (raw ++ c!"{{") r' n fr r out (by simp at hk; omega) (by rw [hs]; simp)
            (by rw [paramTexts_raw _ _ hraw]; rfl) (by rw [paramTexts_esc] at hno; exact hno)
            (by rw [← hsc]; congr 1; simp; try omega) hf
          exact ⟨pieces, fs, by rw [← h1]; simp, h2, h3⟩
        · obtain ⟨fr', p, hl, hm, hp, hsc⟩ := scan_ok_step hh hsc
          have ht := split_param hm
          have hcl : '}' ∉ rest.takeWhile (· ≠ '}') := by
            intro h
            have := mem_takeWhile h
            simp at this
          rw [paramTexts_open hh] at hno
          generalize rest.takeWhile (· ≠ '}') = text at *
          generalize (rest.dropWhile (· ≠ '}')).tail = rest' at *
          subst ht
          have hop := hno text (by simp)
          rw [show text ++ '}' :: rest' = (text ++ ['}']) ++ rest' by simp,
            scan_inner m s _ rest' (by simp [hop])] at hsc
          have hlen : (pre ++ raw ++ '{' :: (text ++ ['}'])).length = pre.length + raw.length + 1 + text.length + 1 := by
            simp; omega
          have hsc' : scanLoop m s rest' false ((pre ++ raw ++ '{' :: (text ++ ['}'])).length + ([] : List Char).length)
              (pre ++ raw ++ '{' :: (text ++ ['}'])).length (match p.index with | some _ => n | none => n + 1)
              (fr' ++ [.param { index := (match p.index with | some i => i | none => n), ty := p.ty, hint := p.hint }]) = .ok r := by
            rw [← hsc, hlen]
            congr 1
            simp; omega
          obtain ⟨pieces, fs, h1, h2, h3⟩ := ih _ [] rest' _ _ r out (by simp at hk; omega) (by rw [hs]; simp) rfl
            (by
              intro t htt
              refine hno t (List.mem_cons_of_mem _ ?_)
              rw [paramTexts_inner _ _ hop, paramTexts_other (by decide)]
              exact htt) hsc' hf
          rw [List.nil_append] at h1
          -- the parameter
          have hpar : Means m n (.param text :: pieces)
              (.param { index := (match p.index with | some i => i | none => n), ty := p.ty, hint := p.hint } :: fs) := by
            have hpt := parseParam_iff.mp hp
            obtain ⟨index, ty, hint⟩ := p
            cases index with
            | none => exact .implicit hop hcl hpt h2
            | some i => exact .explicit hop hcl hpt h2
          by_cases h0 : raw = []
          · subst h0
            simp at hl
            subst hl
            exact ⟨_, _, by simp [glue, h1], hpar, by rw [h3]; simp⟩
          · have hpos := List.length_pos_iff.mpr h0
            rw [if_pos (by omega), hs, slice_mid] at hl
            obtain ⟨g1, g2⟩ := pushLiteral_iff.mp hl
            exact ⟨.text raw :: .param text :: pieces, _, by simp [glue, h1], .text ⟨h0, hraw, g1, rfl⟩ (by simp) hpar,
              by rw [h3, g2]; simp⟩
      · rw [show c :: rest = [c] ++ rest from rfl, scan_raw m s [c] rest (paramTexts_other hc [])] at hsc
        obtain ⟨pieces, fs, h1, h2, h3⟩ := ih pre (raw ++ [c]) rest n fr r out (by omega) (by rw [hs]; simp)
          (by rw [paramTexts_raw _ _ hraw]; exact paramTexts_other hc []) (by rw [paramTexts_other hc] at hno; exact hno)
          (by rw [← hsc]; congr 1; simp; try omega) hf
        exact ⟨pieces, fs, by rw [← h1]; simp, h2, h3⟩

/-- all parameter texts of an accepted string are accepted -/
theorem scan_all (m : Mode) (s : List Char) : ∀ (rest : List Char) (skip : Bool) (pos e n : Nat) (fr : List Fragment) (r),
    scanLoop m s rest skip pos e n fr = .ok r →
    ∀ text ∈ paramTexts (if skip then rest.tail else rest), ∃ p, parseParam m text = .ok p := by
  intro rest
  induction rest with
  | nil => intro skip pos e n fr r _ text ht; cases skip <;> simp [paramTexts] at ht
  | cons c rest ih =>
    intro skip pos e n fr r h text ht
    cases skip with
    | true =>
      rw [scanLoop] at h
      simp only [if_true] at h
      exact ih false _ _ _ _ _ h text ht
    | false =>
      simp only [Bool.false_eq_true, if_false] at ht
      by_cases hc : c = '{'
      · subst hc
        by_cases hh : rest.head? = some '{'
        · rw [scanLoop] at h
          simp only [Bool.false_eq_true, if_false, ne_eq, not_true, hh, if_true] at h
          refine ih true _ _ _ _ _ h text ?_
          cases rest with
          | nil => cases hh
          | cons x xs =>
            simp at hh
            subst hh
            rw [paramTexts_esc] at ht
            exact ht
        · obtain ⟨fr', p, hl, hm, hp, hsc⟩ := scan_ok_step hh h
          rw [paramTexts_open hh] at ht
          rcases List.mem_cons.mp ht with rfl | ht
          · exact ⟨p, hp⟩
          · exact ih false _ _ _ _ _ hsc text ht
      · rw [scanLoop] at h
        simp only [Bool.false_eq_true, if_false, ne_eq, hc, not_false_eq_true, if_true] at h
        rw [paramTexts_other hc] at ht
        exact ih false _ _ _ _ _ h text ht

theorem renderTy_noOpen {t : Ty} (h : t.Word) : '{' ∉ renderTy 0 t := by
  cases t <;> first | decide | cases h

theorem Number.noOpen {b : Nat} {s : List Char} {n : Nat} (h : Number b s n) : '{' ∉ s := by
  intro hm
  have := h.digits _ hm
  revert this; decide

/-- only a bitflags hint can contain an opening brace -/
theorem strict_open {text : List Char} {p : Param} (h : ParamText .strict text p) (hb : '{' ∈ text) :
    c!"__internal_bitflags_" <:+: text := by
  have hpad : ∀ {a n}, PadText a n → '{' ∉ a := by
    intro a n h
    cases h with
    | width hn => simp only [List.mem_cons, not_or]; exact ⟨by decide, hn.noOpen⟩
    | none => simp
  have halt : ∀ {a n}, AltText a n → '{' ∉ a := by
    intro a n h
    cases h <;> decide
  cases h with
  | @mk a b c index ty hint ha hb' hc =>
    have h1 : '{' ∉ a := by
      cases ha with
      | none => simp
      | some hn => exact hn.noOpen
    have h2 : '{' ∉ b := by
      cases hb' with
      | none => simp
      | some ht =>
        simp only [List.mem_cons, not_or]
        refine ⟨by decide, ?_⟩
        cases ht with
        | word h => exact renderTy_noOpen h
        | u8Array h => simp only [List.mem_append, List.mem_replicate, not_or]; exact ⟨⟨⟨by decide, by rintro ⟨_, h⟩; revert h; decide⟩, h.noOpen⟩, by decide⟩
        | formatArray h => simp only [List.mem_append, List.mem_replicate, not_or]; exact ⟨⟨⟨by decide, by rintro ⟨_, h⟩; revert h; decide⟩, h.noOpen⟩, by decide⟩
        | bits h1 h2 => simp only [List.mem_append, not_or]; exact ⟨⟨h1.noOpen, by decide⟩, h2.noOpen⟩
    simp only [List.mem_append, h1, h2, false_or] at hb
    cases hc with
    | none => simp at hb
    | some ht =>
      simp only [List.mem_cons, show ¬ ('{' = ':') by decide, false_or] at hb
      cases ht with
      | unknown hm => cases hm
      | known _ hk =>
        cases hk with
        | word ha hp hw =>
          exfalso
          simp only [List.mem_append, halt ha, hpad hp, false_or] at hb
          simp only [hintWords, List.mem_cons, Prod.mk.injEq, List.not_mem_nil, or_false] at hw
          rcases hw with e | e | e | e | e | e | e | e | e | e | e | e | e | e | e <;> (rw [e.1] at hb; revert hb; decide)
        | @flags a' p' s' _ _ _ ha hp hf => exact ⟨a ++ b ++ ':' :: (a' ++ p'), s', by simp⟩

theorem paramTexts_infix (s : List Char) : ∀ text ∈ paramTexts s, text <:+: s := by
  fun_induction paramTexts s with
  | case1 => simp
  | case2 r ih => intro t ht; exact (ih t ht).trans ⟨c!"{{", [], by simp⟩
  | case3 r h ih =>
    intro t ht
    rcases List.mem_cons.mp ht with rfl | ht
    · exact (List.takeWhile_prefix _).isInfix.trans ⟨['{'], [], by simp⟩
    · exact (ih t ht).trans ⟨['{'], [], by simp⟩
  | case4 c r h1 h2 ih => intro t ht; exact (ih t ht).trans ⟨[c], [], by simp⟩

theorem checkArg_bound {args args' : List (Option Ty)} {p : Parameter} (h : checkArg args p = .ok args')
    (hb : args.length ≤ maxArgs) : args'.length ≤ maxArgs := by
  unfold checkArg at h
  split at h
  · cases h
  · rename_i hn
    have key : ∀ a : List (Option Ty), a = (if args.length ≤ p.index then args ++ List.replicate (p.index + 1 - args.length) none else args) →
        a.length ≤ maxArgs := by
      intro a ha
      subst ha
      split
      · simp; omega
      · exact hb
    simp only at h
    generalize hg : (if args.length ≤ p.index then args ++ List.replicate (p.index + 1 - args.length) none else args) = a at h
    have hk := key a hg.symm
    split at h
    · cases h
    · injection h with h; subst h; simpa using hk
    · split at h
      · injection h with h; subst h; exact hk
      · split at h
        · cases h
        · injection h with h; subst h; exact hk

theorem checkArgs_bound' (fs : List Fragment) : ∀ {args args' : List (Option Ty)}, checkArgs args fs = .ok args' →
    args.length ≤ maxArgs → args'.length ≤ maxArgs := by
  induction fs with
  | nil => intro args args' h hb; simp only [checkArgs, Outcome.ok.injEq] at h; subst h; exact hb
  | cons f fs ih =>
    intro args args' h hb
    cases f with
    | literal t => exact ih h hb
    | param p =>
      rw [checkArgs] at h
      split at h
      · cases h
      · cases h
      · rename_i a ha
        exact ih h (checkArg_bound ha hb)

theorem checkArgs_bound {fs : List Fragment} {args : List (Option Ty)} (h : checkArgs [] fs = .ok args) :
    args.length ≤ maxArgs := checkArgs_bound' fs h (by simp)

/-- the pending text as fragments -/
def pending (raw : List Char) : List Fragment := if raw = [] then [] else [.literal (single '}' (single '{' raw))]

theorem means_scan_param (m : Mode) (s : List Char) {pre raw text rest : List Char} {p : Param} {n : Nat} {fr : List Fragment}
    (hs : s = pre ++ raw ++ ('{' :: text ++ '}' :: rest)) (he : EvenRuns raw) (hop : '{' ∉ text) (hcl : '}' ∉ text)
    (hp : ParamText m text p) :
    scanLoop m s ('{' :: text ++ '}' :: rest) false (pre.length + raw.length) pre.length n fr =
      scanLoop m s rest false ((pre ++ raw ++ '{' :: (text ++ ['}'])).length + ([] : List Char).length)
              (pre ++ raw ++ '{' :: (text ++ ['}'])).length (match p.index with | some _ => n | none => n + 1)
              (fr ++ pending raw ++ [.param { index := (match p.index with | some i => i | none => n), ty := p.ty, hint := p.hint }]) := by
  have hlen : (pre ++ raw ++ '{' :: (text ++ ['}'])).length = pre.length + raw.length + 1 + text.length + 1 := by
    simp; omega
  have hlit : (if pre.length + raw.length > pre.length then pushLiteral fr (slice s pre.length (pre.length + raw.length)) else .ok fr) =
      .ok (fr ++ pending raw) := by
    by_cases h0 : raw = []
    · subst h0; simp [pending]
    · have hpos := List.length_pos_iff.mpr h0
      rw [if_pos (by omega), hs, slice_mid]
      exact pushLiteral_iff.mpr ⟨he, by simp [pending, h0]⟩
  have htw : (text ++ '}' :: rest).takeWhile (· ≠ '}') = text := by
    apply takeWhile_app
    · intro x hx
      simp only [ne_eq, decide_eq_true_eq]
      rintro rfl
      exact hcl hx
    · simp
  have hh : (text ++ '}' :: rest).head? ≠ some '{' := by
    cases text with
    | nil => simp
    | cons x xs => simp only [List.mem_cons, not_or] at hop; simp; exact fun e => hop.1 e.symm
  rw [List.cons_append, scanLoop]
  simp only [Bool.false_eq_true, if_false, ne_eq, not_true, hh, hlit]
  have hm : '}' ∈ text ++ '}' :: rest := by simp
  rw [if_neg (by simp)]
  simp only [ne_eq] at htw
  rw [htw, parseParam_iff.mpr hp]
  simp only
  have hin : ∀ e n fr, scanLoop m s (text ++ '}' :: rest) false (pre.length + raw.length + 1) e n fr =
      scanLoop m s rest false (pre.length + raw.length + 1 + text.length + 1) e n fr := by
    intro e n fr
    rw [show text ++ '}' :: rest = (text ++ ['}']) ++ rest by simp, scan_inner m s _ rest (by simp [hop])]
    congr 1
    simp; omega
  rw [hlen]
  simp only [List.length_nil, Nat.add_zero]
  cases p.index with
  | none => simp only [hin]
  | some i => simp only [hin]

theorem means_scan (m : Mode) (s : List Char) {n : Nat} {pieces : List Piece} {fs : List Fragment} (h : Means m n pieces fs) :
    ∀ (pre raw : List Char) (fr : List Fragment), s = pre ++ raw ++ glue pieces → paramTexts raw = [] → EvenRuns raw →
    (raw ≠ [] → ∀ raw' r', pieces ≠ .text raw' :: r') →
    ∃ r, scanLoop m s (glue pieces) false (pre.length + raw.length) pre.length n fr = .ok r ∧
      finish s r = .ok (fr ++ pending raw ++ fs) := by
  induction h with
  | nil =>
    intro pre raw fr hs hraw he _
    refine ⟨(fr, pre.length), rfl, ?_⟩
    unfold finish
    simp only [glue, List.append_nil] at hs ⊢
    by_cases h0 : raw = []
    · subst h0; subst hs; simp [pending]
    · have hpos := List.length_pos_iff.mpr h0
      rw [if_pos (by rw [hs]; simp only [List.length_append]; omega)]
      have e : s.drop pre.length = raw := by rw [hs]; simp
      rw [e]
      exact pushLiteral_iff.mpr ⟨he, by simp [pending, h0]⟩
  | @text next raw' t r fs hw hadj hm ih =>
    intro pre raw fr hs hraw he hne
    have h0 : raw = [] := Classical.byContradiction fun h0 => hne h0 _ _ rfl
    subst h0
    obtain ⟨w1, w2, w3, w4⟩ := hw
    obtain ⟨res, h1, h2⟩ := ih pre raw' fr (by rw [hs]; simp [glue]) w2 w3 (fun _ => hadj)
    refine ⟨res, ?_, ?_⟩
    · rw [glue, scan_raw m s raw' _ w2]
      simpa using h1
    · rw [h2, w4]; simp [pending, w1]
  | @explicit next text i ty hint r fs hop hcl hp hm ih =>
    intro pre raw fr hs hraw he hne
    obtain ⟨res, h1, h2⟩ := ih (pre ++ raw ++ '{' :: (text ++ ['}'])) [] _ (by rw [hs]; simp [glue]) rfl
      (by intro a b e _; have := List.append_eq_nil_iff.mp e.symm; simp [this.2, braces]) (by simp)
    refine ⟨res, ?_, h2.trans ?_⟩
    · rw [glue, means_scan_param m s (by rw [hs]; rfl) he hop hcl hp]; exact h1
    · simp [pending]
  | @implicit next text ty hint r fs hop hcl hp hm ih =>
    intro pre raw fr hs hraw he hne
    obtain ⟨res, h1, h2⟩ := ih (pre ++ raw ++ '{' :: (text ++ ['}'])) [] _ (by rw [hs]; simp [glue]) rfl
      (by intro a b e _; have := List.append_eq_nil_iff.mp e.symm; simp [this.2, braces]) (by simp)
    refine ⟨res, ?_, h2.trans ?_⟩
    · rw [glue, means_scan_param m s (by rw [hs]; rfl) he hop hcl hp]; exact h1
    · simp [pending]

end Defmt.Parser
