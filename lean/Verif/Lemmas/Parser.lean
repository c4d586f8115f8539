import Verif.Spec.Parser
/-! Lemmas about the format string parser. -/

namespace Defmt.Parser

/-! ### Characters and digits -/

theorem isDigit_eq (c : Char) : isDigit c = c.isDigit := by
  simp only [isDigit, Char.isDigit]
  rfl

theorem isDigit_eq' : isDigit = Char.isDigit := funext isDigit_eq

theorem digitsValue_eq (ds : List Char) : digitsValue ds = Nat.ofDigitChars 10 ds 0 := by
  simp only [digitsValue, Nat.ofDigitChars]
  congr 1
  funext n c
  rw [Nat.mul_comm]

theorem decimal_digits (n : Nat) : ∀ c ∈ decimal n, isDigit c = true := by
  intro c hc
  rw [isDigit_eq]
  exact Nat.isDigit_of_mem_toDigits (by decide) (by decide) hc

theorem decimal_ne (n : Nat) : decimal n ≠ [] := Nat.toDigits_ne_nil

theorem parseDigits_decimal {n m : Nat} (h : n < m) : parseDigits m (decimal n) = some n := by
  simp only [parseDigits, decimal_ne, if_false, digitsValue_eq]
  have : Nat.ofDigitChars 10 (decimal n) 0 = n := Nat.ofDigitChars_ten_toDigits
  rw [this]; simp [h]

theorem takeWhile_app {α : Type} (p : α → Bool) (a r : List α) (ha : ∀ x ∈ a, p x = true)
    (hr : ∀ x, r.head? = some x → p x = false) : (a ++ r).takeWhile p = a := by
  induction a with
  | nil =>
    cases r with
    | nil => rfl
    | cons x xs => simp [List.takeWhile, hr x rfl]
  | cons x xs ih =>
    simp only [List.cons_append, List.takeWhile, ha x (by simp)]
    rw [ih (fun y hy => ha y (by simp [hy]))]

theorem dropWhile_app {α : Type} (p : α → Bool) (a r : List α) (ha : ∀ x ∈ a, p x = true)
    (hr : ∀ x, r.head? = some x → p x = false) : (a ++ r).dropWhile p = r := by
  induction a with
  | nil =>
    cases r with
    | nil => rfl
    | cons x xs => simp [List.dropWhile, hr x rfl]
  | cons x xs ih =>
    simp only [List.cons_append, List.dropWhile, ha x (by simp)]
    rw [ih (fun y hy => ha y (by simp [hy]))]

theorem stripPrefix_append (p s : List Char) : stripPrefix p (p ++ s) = some s := by
  induction p with
  | nil => simp [stripPrefix]
  | cons c cs ih => simp [stripPrefix, ih]

theorem stripPrefix_eq {p s r : List Char} (h : stripPrefix p s = some r) : s = p ++ r := by
  induction p generalizing s with
  | nil => simpa [stripPrefix] using h
  | cons c cs ih =>
    cases s with
    | nil => simp [stripPrefix] at h
    | cons d ds =>
      simp only [stripPrefix] at h
      split at h
      · rename_i hcd; subst hcd; simp [ih h]
      · simp at h

theorem lookup_none {β : Type} (l : List (List Char × β)) (s : List Char)
    (h : ∀ e ∈ l, e.1 ≠ s) : l.lookup s = none := by
  induction l with
  | nil => rfl
  | cons e l ih =>
    have h1 : (s == e.1) = false := by
      have := h e (by simp)
      simp only [beq_eq_false_iff_ne]
      exact fun hh => this hh.symm
    simp only [List.lookup, h1]
    exact ih (fun e' he' => h e' (by simp [he']))

/-! ### Types -/

theorem typeFromStr_digit (d : Char) (ds : List Char) (hd : isDigit d = true) :
    typeFromStr (d :: ds) = none := by
  apply lookup_none
  have key : ∀ e ∈ typeNames, ∀ c, e.1.head? = some c → isDigit c = false := by decide
  intro e he h
  have := key e he d (by rw [h]; rfl)
  rw [hd] at this; simp at this

theorem stripPrefix_bracket_digit (p : List Char) (d : Char) (ds : List Char) (hd : isDigit d = true) :
    stripPrefix ('[' :: p) (d :: ds) = none := by
  have : ¬ '[' = d := by
    intro h; subst h; revert hd; decide
  simp [stripPrefix, this]

theorem parseArray_render (sp n : Nat) (h : n < 2 ^ 64) :
    parseArray (List.replicate sp ' ' ++ decimal n ++ c!"]") = .ok n := by
  have h1 : (List.replicate sp ' ' ++ (decimal n ++ c!"]")).dropWhile (· = ' ') =
      decimal n ++ c!"]" := by
    apply dropWhile_app
    · intro x hx; simp [List.eq_of_mem_replicate hx]
    · intro x hx
      have hne := decimal_ne n
      have hd := decimal_digits n
      cases hdn : decimal n with
      | nil => exact absurd hdn hne
      | cons d ds =>
        rw [hdn] at hx hd
        simp only [List.cons_append, List.head?_cons, Option.some.injEq] at hx
        subst hx
        have := hd d (by simp)
        simp only [decide_eq_false_iff_not]
        intro hh; subst hh; revert this; decide
  have hr : ∀ x, (c!"]").head? = some x → isDigit x = false := by decide
  unfold parseArray
  rw [List.append_assoc, h1]
  simp only [takeWhile_app isDigit _ _ (decimal_digits n) hr,
    dropWhile_app isDigit _ _ (decimal_digits n) hr, parseDigits_decimal h]
  simp

theorem parseRange_render (s e : Nat) (h : s < e) (he : e ≤ 128) :
    parseRange (decimal s ++ c!".." ++ decimal e) =
      .ok (some (s, e, (decimal s).length + (decimal e).length + 2)) := by
  have hr : ∀ x, (c!".." ++ decimal e).head? = some x → isDigit x = false := by
    intro x hx
    simp only [List.cons_append, List.head?_cons, Option.some.injEq] at hx
    subst hx; decide
  have he0 : (decimal e).takeWhile isDigit = decimal e := by
    have := takeWhile_app isDigit (decimal e) [] (decimal_digits e) (by simp)
    simpa using this
  unfold parseRange
  rw [List.append_assoc]
  simp only [takeWhile_app isDigit _ _ (decimal_digits s) hr,
    dropWhile_app isDigit _ _ (decimal_digits s) hr, parseDigits_decimal (show s < 256 by omega)]
  have h2 : firstTwoBytes (c!".." ++ decimal e) = some c!".." := by
    simp only [List.cons_append, List.nil_append, firstTwoBytes]
    have : Char.utf8Size '.' = 1 := by decide
    simp [this]
  simp only [h2]
  have hd : (c!".." ++ decimal e).drop 2 = decimal e := by simp
  simp only [hd, he0, parseDigits_decimal (show e < 256 by omega)]
  rw [if_neg (by simp), if_neg (by omega)]

theorem parseType_render (input : List Char) (sp : Nat) (t : Ty) (h : t.Valid) :
    parseType input (renderTy sp t) = .ok t := by
  cases t with
  | bitField s e =>
    obtain ⟨h1, h2⟩ := h
    have hd := decimal_digits s
    have hr := parseRange_render s e h1 h2
    have hl : (decimal s ++ c!".." ++ decimal e).length =
        (decimal s).length + (decimal e).length + 2 := by simp; omega
    show parseType input (decimal s ++ c!".." ++ decimal e) = _
    unfold parseType
    rw [hr]
    cases hs : decimal s with
    | nil => exact absurd hs (decimal_ne s)
    | cons d ds =>
      have hdd : isDigit d = true := hd d (by rw [hs]; simp)
      rw [hs] at hl
      simp only [hs, List.cons_append] at hl ⊢
      rw [typeFromStr_digit d _ hdd, stripPrefix_bracket_digit _ d _ hdd,
        stripPrefix_bracket_digit _ d _ hdd]
      simp only
      rw [if_neg (by simpa using hl.symm)]
  | formatArray n =>
    have h1 : typeFromStr (renderTy sp (.formatArray n)) = none := by
      simp [typeFromStr, typeNames, List.lookup, renderTy]
    have h2 : stripPrefix c!"[u8;" (renderTy sp (.formatArray n)) = none := by
      simp [stripPrefix, renderTy]
    have h3 : stripPrefix c!"[?;" (renderTy sp (.formatArray n)) =
        some (List.replicate sp ' ' ++ decimal n ++ c!"]") := by
      simp only [renderTy]
      rw [List.append_assoc, List.append_assoc, stripPrefix_append, List.append_assoc]
    unfold parseType
    rw [h1, h2, h3]
    simp only [parseArray_render sp n h]
  | u8Array n =>
    have h1 : typeFromStr (renderTy sp (.u8Array n)) = none := by
      simp [typeFromStr, typeNames, List.lookup, renderTy]
    have h3 : stripPrefix c!"[u8;" (renderTy sp (.u8Array n)) =
        some (List.replicate sp ' ' ++ decimal n ++ c!"]") := by
      simp only [renderTy]
      rw [List.append_assoc, List.append_assoc, stripPrefix_append, List.append_assoc]
    unfold parseType
    rw [h1, h3]
    simp only [parseArray_render sp n h]
  | _ => rfl

/-! ### Hints -/

theorem splitAt_plain (sep : Char) (s : List Char) (h : sep ∉ s) : splitAt sep s = [s] := by
  induction s with
  | nil => rfl
  | cons c cs ih =>
    simp only [List.mem_cons, not_or] at h
    have : ¬ c = sep := fun hh => h.1 hh.symm
    simp [splitAt, this, ih h.2]

theorem splitAt_append (sep : Char) (s r : List Char) (h : sep ∉ s) :
    splitAt sep (s ++ sep :: r) = s :: splitAt sep r := by
  induction s with
  | nil => simp [splitAt]
  | cons c cs ih =>
    simp only [List.mem_cons, not_or] at h
    have : ¬ c = sep := fun hh => h.1 hh.symm
    simp [splitAt, this, ih h.2]

theorem parseInteger_decimal (n : Nat) (r : List Char) (h : n < 2 ^ 64)
    (hr : ∀ x, r.head? = some x → isDigit x = false) :
    parseInteger (decimal n ++ r) = some (r, n) := by
  unfold parseInteger
  rw [takeWhile_app isDigit _ _ (decimal_digits n) hr, dropWhile_app isDigit _ _ (decimal_digits n) hr,
    parseDigits_decimal h]

/-- parsing the prefix `#`, padding and then a text that starts with neither -/
theorem parseHint_prefix (a : Bool) (n : Nat) (r : List Char) (h : n < 2 ^ 64)
    (hr : ∀ x, r.head? = some x → isDigit x = false ∧ x ≠ '#' ∧ x ≠ '_') :
    parseHint (renderAlt a ++ renderPad n ++ r) = hintFromStr a n r := by
  have hr' : ∀ x, r.head? = some x → isDigit x = false := fun x hx => (hr x hx).1
  have hb : stripPrefix bitflagsHintStart r = none := by
    cases r with
    | nil => rfl
    | cons x xs =>
      have := (hr x rfl).2.2
      have : ¬ '_' = x := fun hh => this hh.symm
      simp [bitflagsHintStart, stripPrefix, this]
  have h0 : stripPrefix c!"0" r = none := by
    cases r with
    | nil => rfl
    | cons x xs =>
      have : ¬ '0' = x := by
        intro hh; have := (hr x rfl).1; subst hh; revert this; decide
      simp [stripPrefix, this]
  have hh : stripPrefix c!"#" r = none := by
    cases r with
    | nil => rfl
    | cons x xs =>
      have : ¬ '#' = x := fun hh => (hr x rfl).2.1 hh.symm
      simp [stripPrefix, this]
  by_cases hn : n = 0
  · subst hn
    cases a
    · simp only [renderAlt, renderPad, if_true, Bool.false_eq_true, if_false, List.nil_append]
      unfold parseHint
      rw [hh]; simp only; rw [h0]; simp only; rw [hb]
    · simp only [renderAlt, renderPad, if_true, List.append_nil]
      unfold parseHint
      rw [stripPrefix_append]; simp only; rw [h0]; simp only; rw [hb]
  · have hp : renderPad n = '0' :: decimal n := by simp [renderPad, hn]
    have hs : stripPrefix c!"0" ('0' :: (decimal n ++ r)) = some (decimal n ++ r) := by
      simp [stripPrefix]
    have hs' : stripPrefix c!"#" ('0' :: (decimal n ++ r)) = none := by
      simp [stripPrefix]
    rw [hp]
    cases a
    · simp only [renderAlt, Bool.false_eq_true, if_false, List.nil_append, List.cons_append]
      unfold parseHint
      rw [hs']; simp only; rw [hs]; simp only; rw [parseInteger_decimal n r h hr']; simp only
      rw [hb]
    · simp only [renderAlt, if_true, List.append_assoc, List.cons_append]
      unfold parseHint
      have : stripPrefix c!"#" ('#' :: ('0' :: (decimal n ++ r))) = some ('0' :: (decimal n ++ r)) := by
        simp [stripPrefix]
      rw [List.nil_append, this]; simp only; rw [hs]; simp only
      rw [parseInteger_decimal n r h hr']; simp only
      rw [hb]

theorem parseHint_render (mode : Mode) (h : Hint) (hv : h.Valid mode) :
    parseHint (renderHint h) = some h ∨
      (∃ s, h = .unknown s ∧ mode = .forwardsCompatible ∧ parseHint (renderHint h) = none) := by
  cases h with
  | unknown s => right; exact ⟨s, rfl, hv.1, hv.2.2.2.2⟩
  | noHint n =>
    left
    by_cases hn : n = 0
    · subst hn; decide
    · have := parseHint_prefix false n [] hv (by simp)
      simp only [renderAlt, renderPad, hn, if_false, List.append_nil, Bool.false_eq_true,
        List.nil_append] at this
      simp only [renderHint]; rw [this]; rfl
  | hexadecimal a u n =>
    left
    simp only [renderHint]
    cases u
    · have := parseHint_prefix a n c!"x" hv (by decide)
      simp only [Bool.false_eq_true, if_false]; rw [this]; rfl
    · have := parseHint_prefix a n c!"X" hv (by decide)
      simp only [if_true]; rw [this]; rfl
  | octal a n => left; simp only [renderHint]; rw [parseHint_prefix a n c!"o" hv (by decide)]; rfl
  | binary a n => left; simp only [renderHint]; rw [parseHint_prefix a n c!"b" hv (by decide)]; rfl
  | ascii => left; decide
  | debug => left; decide
  | cbor => left; decide
  | seconds p => left; cases p <;> first | decide | exact absurd rfl hv
  | time p => left; cases p <;> decide
  | iso8601 p => left; cases p <;> first | decide | exact absurd rfl hv
  | bitflags n p d c =>
    left
    obtain ⟨hn, hp, hd, hc⟩ := hv
    have key : ∀ x, parseHint (bitflagsHintStart ++ x) = some (parseBitflagsHint (bitflagsHintStart ++ x) x) := by
      intro x
      unfold parseHint
      have h1 : stripPrefix c!"#" (bitflagsHintStart ++ x) = none := by
        simp [stripPrefix, bitflagsHintStart]
      have h2 : stripPrefix c!"0" (bitflagsHintStart ++ x) = none := by
        simp [stripPrefix, bitflagsHintStart]
      rw [h1]; simp only; rw [h2]; simp only; rw [stripPrefix_append]
    cases c with
    | none =>
      have : renderHint (.bitflags n p d none) = bitflagsHintStart ++ (n ++ '@' :: (p ++ '@' :: d)) := by
        simp [renderHint, bitflagsHintStart]
      rw [this, key]
      unfold parseBitflagsHint
      rw [splitAt_append _ _ _ hn.1, splitAt_append _ _ _ hp.1, splitAt_plain _ _ hd.1]
    | some c =>
      have hc' := hc c rfl
      have : renderHint (.bitflags n p d (some c)) =
          bitflagsHintStart ++ (n ++ '@' :: (p ++ '@' :: (d ++ '@' :: c))) := by
        simp [renderHint, bitflagsHintStart]
      rw [this, key]
      unfold parseBitflagsHint
      rw [splitAt_append _ _ _ hn.1, splitAt_append _ _ _ hp.1, splitAt_append _ _ _ hd.1,
        splitAt_plain _ _ hc'.1]

theorem renderHint_ne (mode : Mode) (h : Hint) (hv : h.Valid mode) : renderHint h ≠ [] := by
  cases h with
  | unknown s => exact hv.2.1
  | seconds p => cases p <;> first | (simp [renderHint]; done) | exact absurd rfl hv
  | iso8601 p => cases p <;> first | (simp [renderHint]; done) | exact absurd rfl hv
  | time p => cases p <;> simp [renderHint]
  | hexadecimal a u n => cases u <;> simp [renderHint]
  | bitflags => simp [renderHint]
  | _ => simp [renderHint]

/-! ### Parameters -/

theorem digit_ne {c d : Char} (hc : isDigit c = true) (hd : isDigit d = false) : c ≠ d := by
  intro h; subst h; rw [hc] at hd; simp at hd

theorem decimal_notMem (n : Nat) (d : Char) (hd : isDigit d = false) : d ∉ decimal n :=
  fun h => digit_ne (decimal_digits n d h) hd rfl

theorem renderTy_notMem (sp : Nat) (t : Ty) (d : Char) (hd : d = ':' ∨ d = '{' ∨ d = '}') :
    d ∉ renderTy sp t := by
  have hdd : isDigit d = false := by rcases hd with rfl | rfl | rfl <;> decide
  have hsp : ∀ k, d ∉ List.replicate k ' ' := by
    intro k hk
    have := List.eq_of_mem_replicate hk
    rcases hd with rfl | rfl | rfl <;> exact absurd this (by decide)
  cases t <;> simp only [renderTy, List.mem_append, not_or]
  case bitField s e =>
    exact ⟨⟨decimal_notMem _ _ hdd, by rcases hd with rfl | rfl | rfl <;> decide⟩, decimal_notMem _ _ hdd⟩
  case formatArray n =>
    refine ⟨⟨⟨?_, hsp _⟩, decimal_notMem _ _ hdd⟩, ?_⟩ <;> rcases hd with rfl | rfl | rfl <;> decide
  case u8Array n =>
    refine ⟨⟨⟨?_, hsp _⟩, decimal_notMem _ _ hdd⟩, ?_⟩ <;> rcases hd with rfl | rfl | rfl <;> decide
  all_goals rcases hd with rfl | rfl | rfl <;> decide

theorem parseHintPart_render (mode : Mode) (o : Option Hint) (hv : ∀ h ∈ o, h.Valid mode) :
    parseHintPart mode (hintPart o) = .ok o := by
  cases o with
  | none => rfl
  | some h =>
    have hv := hv h rfl
    have hne := renderHint_ne mode h hv
    unfold parseHintPart hintPart
    simp only
    have : stripPrefix c!":" (':' :: renderHint h) = some (renderHint h) := by simp [stripPrefix]
    rw [this]
    simp only [hne, if_false]
    rcases parseHint_render mode h hv with h1 | ⟨s, hs, hm, h1⟩
    · rw [h1]
    · rw [h1, hm, hs]; rfl

theorem parseParam_none (mode : Mode) (r : List Char)
    (hr : ∀ x, r.head? = some x → isDigit x = false) :
    parseParam mode r = parseTypeHint mode none r := by
  have h1 := takeWhile_app isDigit [] r (by simp) hr
  have h2 := dropWhile_app isDigit [] r (by simp) hr
  simp only [List.nil_append] at h1 h2
  unfold parseParam
  simp only [h1, h2, if_true]

theorem parseParam_some (mode : Mode) (i : Nat) (r : List Char) (hi : i < 2 ^ 64)
    (hr : ∀ x, r.head? = some x → isDigit x = false) :
    parseParam mode (decimal i ++ r) = parseTypeHint mode (some i) r := by
  unfold parseParam
  simp only [takeWhile_app isDigit _ _ (decimal_digits i) hr,
    dropWhile_app isDigit _ _ (decimal_digits i) hr, parseDigits_decimal hi, decimal_ne, if_false]

theorem parseParam_render (mode : Mode) (w : Written) (hv : w.Valid mode) :
    parseParam mode w.text = .ok ⟨w.index, w.type, w.hint⟩ := by
  obtain ⟨hi, ht, hh⟩ := hv
  -- the part after the index
  have tail : ∀ ix, parseTypeHint mode ix
      ((typePart w.spaces w.ty) ++
        (hintPart w.hint)) =
      .ok ⟨ix, w.type, w.hint⟩ := by
    intro ix
    have hp := parseHintPart_render mode w.hint hh
    have hhead : ∀ x, (hintPart w.hint).head? = some x →
        (decide (x ≠ ':')) = false := by
      cases w.hint with
      | none => simp [hintPart]
      | some h => simp [hintPart]
    cases hty : w.ty with
    | none =>
      have hstr : stripPrefix c!"=" (hintPart w.hint) = none := by
        cases w.hint with
        | none => rfl
        | some h => simp [stripPrefix, hintPart]
      simp only [typePart, List.nil_append]
      unfold parseTypeHint
      rw [hstr]; simp only; rw [hp]
      simp [Written.type, hty]
    | some t =>
      have hr := parseType_render
        (renderTy w.spaces t ++ (hintPart w.hint))
        w.spaces t (ht t hty)
      have hnm : ∀ x ∈ renderTy w.spaces t, decide (x ≠ ':') = true := by
        intro x hx
        simp only [ne_eq, decide_eq_true_eq]
        intro hh; subst hh
        exact renderTy_notMem w.spaces t ':' (Or.inl rfl) hx
      unfold parseTypeHint
      simp only [typePart, List.cons_append, stripPrefix, if_true]
      rw [takeWhile_app _ _ _ hnm hhead, dropWhile_app _ _ _ hnm hhead, hr]
      simp only; rw [hp]
      simp [Written.type, hty]
  have hhead : ∀ x, ((typePart w.spaces w.ty) ++
        (hintPart w.hint)).head? = some x →
      isDigit x = false := by
    cases w.ty with
    | none =>
      cases w.hint with
      | none => simp [typePart, hintPart]
      | some h => simp only [typePart, hintPart, List.nil_append, List.head?_cons, Option.some.injEq]; rintro x rfl; decide
    | some t => simp only [typePart, List.cons_append, List.head?_cons, Option.some.injEq]; rintro x rfl; decide
  unfold Written.text
  rw [List.append_assoc]
  cases hix : w.index with
  | none =>
    simp only [indexPart, List.nil_append]
    rw [parseParam_none mode _ hhead, tail]
  | some i =>
    simp only [indexPart]
    rw [parseParam_some mode i _ (hi i hix) hhead, tail]

/-! ### Text -/

theorem checkBraces_escape (t : List Char) : checkBraces false false (escape t) = none := by
  induction t with
  | nil => rfl
  | cons c cs ih =>
    simp only [escape]
    by_cases h1 : c = '{'
    · subst h1; simp [checkBraces, ih]
    · by_cases h2 : c = '}'
      · subst h2; simp [checkBraces, ih]
      · simp [checkBraces, h1, h2, ih]

theorem undouble_ne {c a : Char} (h : a ≠ c) (r : List Char) :
    undouble c (a :: r) = a :: undouble c r := by
  cases r with
  | nil => rfl
  | cons b r => simp [undouble, h]

theorem undouble_pair (c : Char) (r : List Char) : undouble c (c :: c :: r) = c :: undouble c r := by
  simp [undouble]

/-- doubling only closing braces -/
def escapeClose : List Char → List Char
  | [] => []
  | c :: cs => if c = '}' then c :: c :: escapeClose cs else c :: escapeClose cs

theorem undouble_escape (t : List Char) : undouble '}' (undouble '{' (escape t)) = t := by
  have h1 : ∀ t, undouble '{' (escape t) = escapeClose t := by
    intro t
    induction t with
    | nil => rfl
    | cons c cs ih =>
      simp only [escape, escapeClose]
      by_cases h1 : c = '{'
      · subst h1; simp only [true_or, if_true, undouble_pair, ih]; simp
      · by_cases h2 : c = '}'
        · subst h2; simp [undouble_ne, ih]
        · simp [h1, h2, undouble_ne h1, ih]
  have h2 : ∀ t, undouble '}' (escapeClose t) = t := by
    intro t
    induction t with
    | nil => rfl
    | cons c cs ih =>
      simp only [escapeClose]
      by_cases h2 : c = '}'
      · subst h2; simp only [if_true, undouble_pair, ih]
      · simp [h2, undouble_ne h2, ih]
  rw [h1, h2]

theorem pushLiteral_escape (fr : List Fragment) (t : List Char) :
    pushLiteral fr (escape t) = .ok (fr ++ [.literal t]) := by
  unfold pushLiteral
  rw [checkBraces_escape, undouble_escape]

theorem escape_eq_nil {t : List Char} : escape t = [] ↔ t = [] := by
  cases t with
  | nil => simp [escape]
  | cons c cs => simp only [escape]; split <;> simp

/-! ### The scanner -/

theorem scan_text (m : Mode) (s t r : List Char) (pos e n fr) :
    scanLoop m s (escape t ++ r) false pos e n fr =
      scanLoop m s r false (pos + (escape t).length) e n fr := by
  induction t generalizing pos with
  | nil => simp [escape]
  | cons c cs ih =>
    simp only [escape]
    by_cases h1 : c = '{'
    · subst h1
      simp only [true_or, if_true, List.cons_append, List.length_cons]
      rw [scanLoop]
      simp only [Bool.false_eq_true, if_false, ne_eq, not_true, List.head?_cons, if_true]
      rw [scanLoop]
      simp only [if_true]
      rw [ih]; congr 1; omega
    · by_cases h2 : c = '}'
      · subst h2
        simp only [or_true, if_true, List.cons_append, List.length_cons]
        rw [scanLoop]
        simp only [Bool.false_eq_true, if_false, ne_eq, h1, not_false_eq_true, if_true]
        rw [scanLoop]
        simp only [Bool.false_eq_true, if_false, ne_eq, h1, not_false_eq_true, if_true]
        rw [ih]; congr 1; omega
      · simp only [h1, h2, or_self, if_false, List.cons_append, List.length_cons]
        rw [scanLoop]
        simp only [Bool.false_eq_true, if_false, ne_eq, h1, not_false_eq_true, if_true]
        rw [ih]; congr 1; omega

theorem scan_inner (m : Mode) (s a r : List Char) (ha : '{' ∉ a) (pos e n fr) :
    scanLoop m s (a ++ r) false pos e n fr = scanLoop m s r false (pos + a.length) e n fr := by
  induction a generalizing pos with
  | nil => simp
  | cons c cs ih =>
    simp only [List.mem_cons, not_or] at ha
    have h1 : c ≠ '{' := fun h => ha.1 h.symm
    simp only [List.cons_append, List.length_cons]
    rw [scanLoop]
    simp only [Bool.false_eq_true, if_false, ne_eq, h1, not_false_eq_true, if_true]
    rw [ih ha.2]; congr 1; omega

theorem renderHint_notMem (mode : Mode) (h : Hint) (hv : h.Valid mode) (d : Char)
    (hd : d = '{' ∨ d = '}') : d ∉ renderHint h := by
  have hdd : isDigit d = false := by rcases hd with rfl | rfl <;> decide
  have hpad : ∀ n, d ∉ renderPad n := by
    intro n; unfold renderPad; split
    · simp
    · simp only [List.mem_cons, not_or]
      exact ⟨fun h => by rcases hd with rfl | rfl <;> exact absurd h (by decide), decimal_notMem _ _ hdd⟩
  have halt : ∀ a, d ∉ renderAlt a := by
    intro a; cases a <;> rcases hd with rfl | rfl <;> decide
  have hpl : ∀ s, Plain s → d ∉ s := by
    intro s hs; rcases hd with rfl | rfl
    · exact hs.2.1
    · exact hs.2.2
  cases h with
  | unknown s => rcases hd with rfl | rfl; exact hv.2.2.1; exact hv.2.2.2.1
  | noHint n =>
    simp only [renderHint, List.mem_cons, not_or]
    exact ⟨fun h => by rcases hd with rfl | rfl <;> exact absurd h (by decide), decimal_notMem _ _ hdd⟩
  | hexadecimal a u n =>
    simp only [renderHint, List.mem_append, not_or]
    refine ⟨⟨halt a, hpad n⟩, ?_⟩
    cases u <;> rcases hd with rfl | rfl <;> decide
  | octal a n =>
    simp only [renderHint, List.mem_append, not_or]
    refine ⟨⟨halt a, hpad n⟩, ?_⟩
    rcases hd with rfl | rfl <;> decide
  | binary a n =>
    simp only [renderHint, List.mem_append, not_or]
    refine ⟨⟨halt a, hpad n⟩, ?_⟩
    rcases hd with rfl | rfl <;> decide
  | ascii => rcases hd with rfl | rfl <;> decide
  | debug => rcases hd with rfl | rfl <;> decide
  | cbor => rcases hd with rfl | rfl <;> decide
  | seconds p => cases p <;> rcases hd with rfl | rfl <;> decide
  | time p => cases p <;> rcases hd with rfl | rfl <;> decide
  | iso8601 p => cases p <;> rcases hd with rfl | rfl <;> decide
  | bitflags n p d' c =>
    obtain ⟨hn, hp, hd', hc⟩ := hv
    have hat : d ∉ c!"@" := by rcases hd with rfl | rfl <;> decide
    have hst : d ∉ c!"__internal_bitflags_" := by rcases hd with rfl | rfl <;> decide
    simp only [renderHint, List.mem_append, not_or]
    refine ⟨⟨⟨⟨⟨⟨hst, hpl _ hn⟩, hat⟩, hpl _ hp⟩, hat⟩, hpl _ hd'⟩, ?_⟩
    cases c with
    | none => simp
    | some c => simp only [List.mem_append, not_or]; exact ⟨hat, hpl _ (hc c rfl)⟩

theorem text_notMem (mode : Mode) (w : Written) (hv : w.Valid mode) (d : Char)
    (hd : d = '{' ∨ d = '}') : d ∉ w.text := by
  have hdd : isDigit d = false := by rcases hd with rfl | rfl <;> decide
  have hne : ∀ x : Char, x ≠ '{' → x ≠ '}' → d ≠ x := by
    intro x h1 h2 h; subst h; rcases hd with rfl | rfl <;> contradiction
  unfold Written.text
  simp only [List.mem_append, not_or]
  refine ⟨⟨?_, ?_⟩, ?_⟩
  · cases w.index with
    | none => simp [indexPart]
    | some i => exact decimal_notMem _ _ hdd
  · cases w.ty with
    | none => simp [typePart]
    | some t =>
      simp only [typePart, List.mem_cons, not_or]
      exact ⟨hne _ (by decide) (by decide), renderTy_notMem _ _ _ (Or.inr hd)⟩
  · cases hh : w.hint with
    | none => simp [hintPart]
    | some h =>
      simp only [hintPart, List.mem_cons, not_or]
      exact ⟨hne _ (by decide) (by decide), renderHint_notMem mode h (hv.2.2 h hh) d hd⟩

theorem slice_mid (pre mid post : List Char) :
    slice (pre ++ mid ++ post) pre.length (pre.length + mid.length) = mid := by
  unfold slice
  simp

/-- optional literal fragment -/
def optLit (t : List Char) : List Fragment := if t = [] then [] else [.literal t]

theorem scan_render (m : Mode) (s : List Char) (items : List Item) :
    ∀ (pre t : List Char) (n : Nat) (fr : List Fragment), ItemsValid m items →
    (t ≠ [] → ∀ t' r', items ≠ .text t' :: r') →
    s = pre ++ escape t ++ render items →
    ∃ fr' e' t', scanLoop m s (render items) false (pre.length + (escape t).length) pre.length n fr =
        .ok (fr', e') ∧ e' ≤ s.length ∧ s.drop e' = escape t' ∧
      fr' ++ optLit t' = fr ++ optLit t ++ meaning n items := by
  induction items with
  | nil =>
    intro pre t n fr _ _ hs
    refine ⟨fr, pre.length, t, by simp [render, scanLoop], ?_, ?_, ?_⟩
    · rw [hs]; simp
    · rw [hs]; simp [render]
    · simp [meaning]
  | cons it r ih =>
    intro pre t n fr hv hadj hs
    cases it with
    | text t1 =>
      have ht : t = [] := by
        by_cases ht : t = []
        · exact ht
        · exact absurd rfl (hadj ht t1 r)
      subst ht
      obtain ⟨hne, hadj', hv'⟩ := hv
      have := ih pre t1 n fr hv' (fun _ => hadj') (by rw [hs]; simp [render, escape])
      obtain ⟨fr', e', t', h1, h2, h3, h4⟩ := this
      refine ⟨fr', e', t', ?_, h2, h3, ?_⟩
      · simp only [render, escape, List.length_nil, Nat.add_zero]
        rw [scan_text, h1]
      · rw [h4]; simp [optLit, hne, meaning]
    | param w =>
      obtain ⟨hw, hv'⟩ := hv
      have hpt := parseParam_render m w hw
      have hno : '{' ∉ w.text ++ ['}'] := by
        simp only [List.mem_append, not_or]
        exact ⟨text_notMem m w hw _ (Or.inl rfl), by decide⟩
      have hhead : (w.text ++ '}' :: render r).head? ≠ some '{' := by
        intro h
        have : '{' ∈ w.text ++ ['}'] := by
          cases hwt : w.text with
          | nil => rw [hwt] at h; simp at h
          | cons c cs => rw [hwt] at h; simp at h; simp [h]
        exact hno this
      have htake : (w.text ++ '}' :: render r).takeWhile (· ≠ '}') = w.text := by
        apply takeWhile_app
        · intro x hx
          simp only [ne_eq, decide_eq_true_eq]
          intro h; subst h; exact text_notMem m w hw _ (Or.inr rfl) hx
        · intro x hx; simp at hx; simp [← hx]
      have hmem : '}' ∈ w.text ++ '}' :: render r := by simp
      -- one step at the brace
      have hlit : (if pre.length + (escape t).length > pre.length then
          pushLiteral fr (slice s pre.length (pre.length + (escape t).length))
        else .ok fr : Except Error (List Fragment)) = .ok (fr ++ optLit t) := by
        by_cases ht : t = []
        · subst ht; simp [escape, optLit]
        · have hlen : 0 < (escape t).length := by
            apply List.length_pos_iff.mpr; exact fun h => ht (escape_eq_nil.mp h)
          rw [if_pos (by omega), hs, slice_mid, pushLiteral_escape]
          simp [optLit, ht]
      have hrest : ∀ n fr, ∃ fr' e' t',
          scanLoop m s (w.text ++ '}' :: render r) false (pre.length + (escape t).length + 1)
            (pre.length + (escape t).length + 1 + w.text.length + 1) n fr = .ok (fr', e') ∧
          e' ≤ s.length ∧ s.drop e' = escape t' ∧ fr' ++ optLit t' = fr ++ meaning n r := by
        intro n fr
        have := ih (pre ++ escape t ++ '{' :: w.text ++ ['}']) [] n fr hv' (by simp)
          (by rw [hs]; simp [render, escape])
        obtain ⟨fr', e', t', h1, h2, h3, h4⟩ := this
        refine ⟨fr', e', t', ?_, h2, h3, ?_⟩
        · have hsp : w.text ++ '}' :: render r = (w.text ++ ['}']) ++ render r := by simp
          rw [hsp, scan_inner m s _ _ hno, ← h1]
          congr 1 <;> simp [escape] <;> omega
        · rw [h4]; simp [optLit]
      cases hix : w.index with
      | none =>
        obtain ⟨fr', e', t', h1, h2, h3, h4⟩ :=
          hrest (n + 1) (fr ++ optLit t ++ [.param ⟨n, w.type, w.hint⟩])
        refine ⟨fr', e', t', ?_, h2, h3, ?_⟩
        · simp only [render, List.cons_append]
          rw [scanLoop]
          simp only [Bool.false_eq_true, if_false, ne_eq, not_true, hhead, hlit, hmem,
            htake, hpt, hix]
          exact h1
        · rw [h4]; simp [meaning, hix]
      | some i =>
        obtain ⟨fr', e', t', h1, h2, h3, h4⟩ :=
          hrest n (fr ++ optLit t ++ [.param ⟨i, w.type, w.hint⟩])
        refine ⟨fr', e', t', ?_, h2, h3, ?_⟩
        · simp only [render, List.cons_append]
          rw [scanLoop]
          simp only [Bool.false_eq_true, if_false, ne_eq, not_true, hhead, hlit, hmem,
            htake, hpt, hix]
          exact h1
        · rw [h4]; simp [meaning, hix]

end Defmt.Parser
