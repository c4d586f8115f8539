import Verif.Lemmas.LogGrammar
import Verif.Spec.LogFormat
/-!
The parser of log formats takes any string apart into texts and pairs of brackets.
-/

namespace Defmt.LogFormat

open Parser

/-! ## The end of a bracket -/

theorem take_inside {s : List Char} {n : Nat} (h : Inside s n) (rest : List Char) :
    takeUntilUnbalanced 0 [] (s ++ rest) = takeUntilUnbalanced n s rest := by
  have e1 : ('{' : Char) ≠ '\\' := by decide
  have e2 : ('}' : Char) ≠ '\\' := by decide
  have e3 : ('}' : Char) ≠ '{' := by decide
  induction h generalizing rest with
  | nil => rfl
  | plain _ h1 h2 h3 ih =>
    rw [List.append_assoc, ih, List.singleton_append, takeUntilUnbalanced.eq_def]
    simp only [if_neg h1, if_neg h2, if_neg h3]
  | escape c _ ih =>
    rw [List.append_assoc, ih, List.cons_append, List.cons_append, List.nil_append, takeUntilUnbalanced.eq_def]
    simp only [if_pos]
  | opened _ ih =>
    rw [List.append_assoc, ih, List.singleton_append, takeUntilUnbalanced.eq_def]
    simp only [if_neg e1, if_pos]
  | closed _ ih =>
    rw [List.append_assoc, ih, List.singleton_append, takeUntilUnbalanced.eq_def]
    simp only [if_neg e2, if_neg e3, if_pos]
    rw [if_neg (by omega)]
    rfl

/-- What the search for the end of a bracket finds. -/
theorem take_result (i : List Char) : ∀ s n, Inside s n →
    (takeUntilUnbalanced n s i = .crash ∧ ∃ s' n', Inside s' n' ∧ s ++ i = s' ++ ['\\']) ∨
    ((takeUntilUnbalanced n s i = .error ∨ ∃ content, takeUntilUnbalanced n s i = .ok [] content) ∧
      ∃ n', Inside (s ++ i) n') ∨
    (∃ content rest, takeUntilUnbalanced n s i = .ok ('}' :: rest) content ∧ Inside content 0 ∧
      s ++ i = content ++ '}' :: rest) := by
  fun_induction dangling i with
  | case1 =>
    intro s n h
    refine Or.inr (Or.inl ⟨?_, n, by simpa using h⟩)
    simp only [takeUntilUnbalanced]
    split
    · exact Or.inr ⟨_, rfl⟩
    · exact Or.inl rfl
  | case2 =>
    intro s n h
    exact Or.inl ⟨by simp [takeUntilUnbalanced], s, n, h, rfl⟩
  | case3 d rest ih =>
    intro s n h
    have := ih _ _ (Inside.escape d h)
    simp only [takeUntilUnbalanced, if_pos]
    simpa using this
  | case4 c rest hc ih =>
    intro s n h
    rw [takeUntilUnbalanced.eq_def]
    simp only [if_neg hc]
    have e : s ++ c :: rest = s ++ [c] ++ rest := by simp
    rw [e]
    split
    · rename_i h1
      subst h1
      exact ih _ _ (Inside.opened h)
    · rename_i h1
      split
      · rename_i h2
        subst h2
        split
        · rename_i h3
          subst h3
          exact Or.inr (Or.inr ⟨s, rest, rfl, h, by simp⟩)
        · rename_i h3
          obtain ⟨m, rfl⟩ := Nat.exists_eq_succ_of_ne_zero h3
          exact ih _ _ (Inside.closed h)
      · rename_i h2
        exact ih _ _ (Inside.plain h hc h1 h2)

theorem take_closed {content : List Char} (h : Inside content 0) (rest : List Char) :
    takeUntilUnbalanced 0 [] (content ++ '}' :: rest) = .ok ('}' :: rest) content := by
  have h2 : ('}' : Char) ≠ '\\' := by decide
  have h3 : ('}' : Char) ≠ '{' := by decide
  rw [take_inside h, takeUntilUnbalanced.eq_def]
  simp only [if_neg h2, if_neg h3, if_pos]

theorem take_unfinished {s : List Char} {n : Nat} (h : Inside s n) :
    takeUntilUnbalanced 0 [] (s ++ ['\\']) = .crash := by
  rw [take_inside h, takeUntilUnbalanced.eq_def]
  simp only [if_pos]

theorem take_unclosed {s : List Char} {n : Nat} (h : Inside s n) :
    takeUntilUnbalanced 0 [] s = .error ∨ ∃ content, takeUntilUnbalanced 0 [] s = .ok [] content := by
  have := take_inside h []
  rw [List.append_nil] at this
  rw [this, takeUntilUnbalanced]
  split
  · exact Or.inr ⟨_, rfl⟩
  · exact Or.inl rfl

theorem inside_fine {content : List Char} (h : Inside content 0) {n : Nat} (hn : content.length < n) : Fine n content := by
  obtain ⟨mid, h1, -, h3⟩ := take_ok _ _ _ _ _ (take_closed h [])
  simp only [List.nil_append] at h1
  subst h1
  exact ⟨fun a b hab => dangling_after_brace content h3 a b hab, hn⟩

/-! ## More fuel changes nothing -/

/-- two parsers that agree on the texts of a set -/
def Agree {α : Type} (D : List Char → Prop) (p q : List Char → PResult α) : Prop := ∀ i, D i → p i = q i

theorem agree_alt {α : Type} {D : List Char → Prop} {p q p' q' : List Char → PResult α} (hp : Agree D p p')
    (hq : Agree D q q') : Agree D (alt p q) (alt p' q') := by
  intro i hi
  simp only [alt, hp i hi, hq i hi]

theorem agree_refl {α : Type} {D : List Char → Prop} {p : List Char → PResult α} : Agree D p p := fun _ _ => rfl

theorem agree_many0Loop {α : Type} {D : List Char → Prop} (hD : Closed' D) {p q : List Char → PResult α}
    (hp : Good D p) (h : Agree D p q) : ∀ fuel i acc, D i → many0Loop p fuel i acc = many0Loop q fuel i acc := by
  intro fuel
  induction fuel with
  | zero => intros; rfl
  | succ fuel ih =>
    intro i acc hi
    simp only [many0Loop, ← h i hi]
    cases hx : p i with
    | ok r a =>
      simp only
      rw [ih r _ (hD i r hi ((hp i hi).2 r a hx))]
    | _ => rfl

theorem agree_many0 {α : Type} {D : List Char → Prop} (hD : Closed' D) {p q : List Char → PResult α}
    (hp : Good D p) (h : Agree D p q) : Agree D (many0 p) (many0 q) :=
  fun i hi => agree_many0Loop hD hp h _ i _ hi

theorem agree_separatedLoop {α : Type} {D : List Char → Prop} (hD : Closed' D) {p q : List Char → PResult α}
    (hp : Good D p) (h : Agree D p q) (sep : Char) :
    ∀ fuel i acc, D i → separatedLoop sep p fuel i acc = separatedLoop sep q fuel i acc := by
  intro fuel
  induction fuel with
  | zero => intros; rfl
  | succ fuel ih =>
    intro i acc hi
    cases i with
    | nil => rfl
    | cons c r =>
      have hr : D r := hD _ _ hi (List.suffix_cons _ _)
      simp only [separatedLoop, ← h r hr]
      cases hx : p r with
      | ok r' a =>
        simp only
        rw [ih r' _ (hD r r' hr ((hp r hr).2 r' a hx))]
      | _ => rfl

theorem agree_separatedList1 {α : Type} {D : List Char → Prop} (hD : Closed' D) {p q : List Char → PResult α}
    (hp : Good D p) (h : Agree D p q) (sep : Char) : Agree D (separatedList1 sep p) (separatedList1 sep q) := by
  intro i hi
  simp only [separatedList1, ← h i hi]
  cases hx : p i with
  | ok r a =>
    simp only
    rw [agree_separatedLoop hD hp h sep _ r _ (hD i r hi ((hp i hi).2 r a hx))]
  | _ => rfl

theorem agree_mapNested {D : List Char → Prop} {p q : List Char → PResult Segment} (h : Agree D p q) :
    Agree D (mapNested p) (mapNested q) := by
  intro i hi
  simp only [mapNested, h i hi]

theorem agree_nested {D : List Char → Prop} (hD : Closed' D) (t : Term) {arg arg' : List Char → PResult Segment}
    (ha : Good D arg) (h : Agree D arg arg') : Agree D (parseNested t arg) (parseNested t arg') := by
  intro i hi
  simp only [parseNested]
  rw [agree_many0 hD (good_alt (good_mapNested ha) (good_alt (good_mapNested (good_string D)) (good_percent hD t)))
    (agree_alt (agree_mapNested h) agree_refl) i hi]

theorem agree_logSegment {D : List Char → Prop} (hD : Closed' D) (t : Term)
    {arg arg' : Bool → List Char → PResult Segment} (ha : ∀ b, Good D (arg b)) (h : ∀ b, Agree D (arg b) (arg' b))
    (nest : Bool) : Agree D (parseLogSegment t arg nest) (parseLogSegment t arg' nest) := by
  intro i hi
  unfold parseLogSegment
  cases nest with
  | true =>
    simp only [if_true]
    rw [agree_separatedList1 hD (good_alt (good_nestedLogSegment hD t)
      (good_alt (good_format D t) (good_nested hD t (ha false))))
      (agree_alt agree_refl (agree_alt agree_refl (agree_nested hD t (ha false) (h false)))) '%' i hi]
  | false =>
    simp only [Bool.false_eq_true, if_false]
    have hm : Good D (parseMetadata t) := good_word D t _
    rw [agree_separatedList1 hD (good_alt hm
      (good_alt (good_format D t) (good_nested hD t (ha true))))
      (agree_alt agree_refl (agree_alt agree_refl (agree_nested hD t (ha true) (h true)))) ':' i hi]

theorem agree_argument (t : Term) : ∀ fuel fuel' nest, fuel ≤ fuel' →
    Agree (Fine fuel) (parseArgument t fuel nest) (parseArgument t fuel' nest) := by
  intro fuel
  induction fuel with
  | zero => intro fuel' nest _ i hi; exact absurd hi.2 (by omega)
  | succ fuel ih =>
    intro fuel' nest hle i hi
    obtain ⟨fuel', rfl⟩ := Nat.exists_eq_succ_of_ne_zero (show fuel' ≠ 0 by omega)
    unfold parseArgument
    cases i with
    | nil => rfl
    | cons c r =>
      simp only
      split
      · rfl
      · cases htake : takeUntilUnbalanced 0 [] r with
        | ok rest content =>
          cases rest with
          | nil => rfl
          | cons x rest =>
            obtain ⟨mid, h1, h2, h3⟩ := take_ok _ _ _ _ _ htake
            simp only [List.nil_append] at h1
            subst h1
            have hfine : Fine fuel content := by
              refine ⟨fun a b hab => dangling_after_brace content h3 a b hab, ?_⟩
              have := hi.2
              rw [h2] at this
              simp only [List.length_cons, List.length_append] at this
              omega
            simp only
            rw [agree_logSegment (fine_closed fuel) t (good_argument t fuel) (fun b => ih fuel' b (by omega)) nest content hfine]
        | _ => rfl

/-! ## The parts of a format -/

/-- What the text inside of a pair of brackets gives. -/
def contentResult (t : Term) (content : List Char) : PResult Segment :=
  parseLogSegment t (parseArgument t (content.length + 1)) false content

theorem contentResult_eq (t : Term) {content : List Char} (h : Inside content 0) {fuel : Nat} (hf : content.length < fuel) :
    parseLogSegment t (parseArgument t fuel) false content = contentResult t content :=
  (agree_logSegment (fine_closed (content.length + 1)) t (good_argument t _)
    (fun b => agree_argument t _ fuel b (by omega)) false content (inside_fine h (by omega))).symm

theorem contentResult_crash (t : Term) {content : List Char} (h : Inside content 0) : contentResult t content ≠ .crash :=
  (good_logSegment (fine_closed (content.length + 1)) t (good_argument t _) false content (inside_fine h (by omega))).1

/-! ## A closed pair of brackets is accepted or refused -/

/-- something is read -/
def Progress {α : Type} (p : List Char → PResult α) : Prop := ∀ i rest a, p i = .ok rest a → rest.length < i.length

theorem many0Loop_not_error {α : Type} {p : List Char → PResult α} (hp : Progress p) : ∀ fuel i acc, many0Loop p fuel i acc ≠ .error := by
  intro fuel
  induction fuel with
  | zero => intro i acc h; cases h
  | succ fuel ih =>
    intro i acc h
    rw [many0Loop] at h
    cases hx : p i with
    | error => simp only [hx] at h; cases h
    | failure => simp only [hx] at h; cases h
    | crash => simp only [hx] at h; cases h
    | ok r a =>
      simp only [hx] at h
      rw [if_neg (by have := hp _ _ _ hx; omega)] at h
      exact ih _ _ h

theorem progress_argument (t : Term) (fuel : Nat) (nest : Bool) : Progress (parseArgument t fuel nest) := by
  intro i rest a h
  cases fuel with
  | zero => cases h
  | succ fuel =>
    cases i with
    | nil => cases h
    | cons c i =>
      simp only [parseArgument] at h
      split at h
      · cases h
      · split at h
        · cases h
        · rename_i c' rest' content htake
          obtain ⟨mid, -, h2, -⟩ := take_ok _ _ _ _ _ htake
          split at h
          · cases h
            have := congrArg List.length h2
            simp at this ⊢
            omega
          all_goals cases h
        all_goals cases h

theorem progress_alt {α : Type} {p q : List Char → PResult α} (hp : Progress p) (hq : Progress q) : Progress (alt p q) := by
  intro i rest a h
  simp only [alt] at h
  split at h
  · exact hq _ _ _ h
  · exact hp _ _ _ h

theorem progress_mapNested {p : List Char → PResult Segment} (hp : Progress p) : Progress (mapNested p) := by
  intro i rest a h
  simp only [mapNested] at h
  split at h
  · rename_i hx; cases h; exact hp _ _ _ hx
  all_goals cases h

theorem progress_string : Progress parseString := by
  intro i rest a h
  simp only [parseString] at h
  split at h
  · cases h
  · rename_i hne
    cases h
    have h1 := congrArg List.length (List.takeWhile_append_dropWhile (p := fun c => decide (c ≠ '{' ∧ c ≠ '%')) (l := i))
    have h2 := List.length_pos_iff.mpr hne
    rw [List.length_append] at h1
    omega

theorem progress_percent (t : Term) : Progress (parsePercent t) := by
  intro i rest a h
  unfold parsePercent at h
  split at h
  · rename_i r
    have := (good_formatOrFail (fun _ => True) t r trivial).2 rest a h
    have := this.length_le
    simp
    omega
  · cases h

theorem nested_not_error (t : Term) (fuel : Nat) (nest : Bool) (i : List Char) :
    parseNested t (parseArgument t fuel nest) i ≠ .error := by
  intro h
  have hm := many0Loop_not_error (progress_alt (progress_mapNested (progress_argument t fuel nest))
    (progress_alt (progress_mapNested progress_string) (progress_percent t))) (i.length + 1) i []
  rw [parseNested, many0] at h
  split at h
  · split at h <;> cases h
  · rename_i hx; exact hm hx
  · cases h
  · cases h

theorem list_not_error {p : List Char → PResult Item} (sep : Char) {i : List Char} (hp : p i ≠ .error) :
    separatedList1 sep p i ≠ .error := by
  have hloop : ∀ fuel i acc, separatedLoop sep p fuel i acc ≠ .error := by
    intro fuel
    induction fuel with
    | zero => intro i acc h; cases h
    | succ fuel ih =>
      intro i acc h
      rw [separatedLoop.eq_def] at h
      simp only at h
      split at h
      · cases h
      · split at h
        · cases h
        · split at h
          · cases h
          · cases h
          · cases h
          · exact ih _ _ h
  intro h
  rw [separatedList1] at h
  split at h
  · exact hloop _ _ _ h
  · rename_i hx; exact hp hx
  · cases h
  · cases h

theorem alt_not_error {α : Type} {p q : List Char → PResult α} {i : List Char} (hq : q i ≠ .error) : alt p q i ≠ .error := by
  intro h
  simp only [alt] at h
  split at h
  · exact hq h
  · rename_i hx; exact hx h

theorem logSegment_not_error (t : Term) (fuel : Nat) (nest : Bool) (i : List Char) :
    parseLogSegment t (parseArgument t fuel) nest i ≠ .error := by
  intro h
  unfold parseLogSegment at h
  have h1 : (if nest then
      separatedList1 '%'
        (alt (parseNestedLogSegment t) (alt (parseFormat t) (parseNested t (parseArgument t fuel false)))) i
    else
      separatedList1 ':' (alt (parseMetadata t) (alt (parseFormat t) (parseNested t (parseArgument t fuel true)))) i) ≠ .error := by
    cases nest
    · exact list_not_error _ (alt_not_error (alt_not_error (nested_not_error _ _ _ _)))
    · exact list_not_error _ (alt_not_error (alt_not_error (nested_not_error _ _ _ _)))
  simp only at h
  split at h
  · split at h <;> cases h
  · rename_i hx; exact h1 hx
  · cases h
  · cases h

theorem contentResult_not_error (t : Term) (content : List Char) : contentResult t content ≠ .error :=
  logSegment_not_error t _ _ _

/-- The parser of the parts of a format, with the result of a pair of brackets. -/
def top (t : Term) (fuel : Nat) : List Char → PResult Segment := alt (parseArgument t fuel false) parseString

theorem top_bracket (t : Term) {content : List Char} (h : Inside content 0) (rest : List Char) {fuel : Nat}
    (hf : content.length + 1 < fuel) :
    top t fuel ('{' :: content ++ ['}'] ++ rest) = (match contentResult t content with
      | .ok _ seg => .ok rest seg
      | .error => .error
      | .failure => .failure
      | .crash => .crash) := by
  obtain ⟨fuel, rfl⟩ := Nat.exists_eq_succ_of_ne_zero (show fuel ≠ 0 by omega)
  have he : '{' :: content ++ ['}'] ++ rest = '{' :: (content ++ '}' :: rest) := by simp
  rw [he]
  simp only [top, alt, parseArgument]
  rw [take_closed h, if_neg (by simp)]
  simp only
  rw [contentResult_eq t h (by omega)]
  cases contentResult t content <;> simp [parseString]

theorem top_unclosed (t : Term) {s : List Char} {n : Nat} (h : Inside s n) {fuel : Nat} (hf : 0 < fuel) :
    top t fuel ('{' :: s) = .error := by
  obtain ⟨fuel, rfl⟩ := Nat.exists_eq_succ_of_ne_zero (show fuel ≠ 0 by omega)
  simp only [top, alt, parseArgument]
  rw [if_neg (by simp)]
  rcases take_unclosed h with h | ⟨c, h⟩ <;> rw [h] <;> simp [parseString]

theorem top_unfinished (t : Term) {s : List Char} {n : Nat} (h : Inside s n) {fuel : Nat} (hf : 0 < fuel) :
    top t fuel ('{' :: (s ++ ['\\'])) = .crash := by
  obtain ⟨fuel, rfl⟩ := Nat.exists_eq_succ_of_ne_zero (show fuel ≠ 0 by omega)
  simp only [top, alt, parseArgument]
  rw [if_neg (by simp), take_unfinished h]

theorem top_text (t : Term) {w rest : List Char} (hne : w ≠ []) (hw : ∀ c ∈ w, c ≠ '{' ∧ c ≠ '%') (hr : AfterText rest)
    {fuel : Nat} (hf : 0 < fuel) : top t fuel (w ++ rest) = .ok rest (.text w) := by
  obtain ⟨fuel, rfl⟩ := Nat.exists_eq_succ_of_ne_zero (show fuel ≠ 0 by omega)
  unfold top
  rw [alt, argument_not_brace t fuel false (by
    cases w with
    | nil => exact absurd rfl hne
    | cons c w => intro hc; simp at hc; exact (hw c (by simp)).1 hc)]
  simp only [parseString]
  have hs : ∀ c ∈ w, decide (c ≠ '{' ∧ c ≠ '%') = true := by
    intro c hc
    simpa using hw c hc
  have hr' : ∀ c, rest.head? = some c → decide (c ≠ '{' ∧ c ≠ '%') = false := by
    intro c hc
    rcases hr c hc with h | h <;> subst h <;> decide
  rw [takeWhile_app _ _ _ hs hr', dropWhile_app _ _ _ hs hr', if_neg hne]

theorem top_nil (t : Term) {fuel : Nat} (hf : 0 < fuel) : top t fuel [] = .error := by
  obtain ⟨fuel, rfl⟩ := Nat.exists_eq_succ_of_ne_zero (show fuel ≠ 0 by omega)
  rfl

theorem top_percent (t : Term) (rest : List Char) {fuel : Nat} (hf : 0 < fuel) : top t fuel ('%' :: rest) = .error := by
  obtain ⟨fuel, rfl⟩ := Nat.exists_eq_succ_of_ne_zero (show fuel ≠ 0 by omega)
  unfold top
  rw [alt, argument_not_brace t fuel false (by simp)]
  simp [parseString]

/-- a pair of brackets stands for a segment -/
def AcceptsC (t : Term) (b : List Char) (seg : Segment) : Prop :=
  ∃ content r, b = '{' :: content ++ ['}'] ∧ contentResult t content = .ok r seg

/-- a pair of brackets is refused -/
def RefusesC (t : Term) (b : List Char) : Prop := ∃ content, b = '{' :: content ++ ['}'] ∧ contentResult t content = .failure

/-- Where the parts of a string end. -/
inductive Stops (t : Term) : List Char → PResult Unit → Prop
  | ignored {rest} : Ignored rest → Stops t rest .error
  | refused {content} (rest) : Inside content 0 → RefusesC t ('{' :: content ++ ['}']) →
      Stops t ('{' :: content ++ ['}'] ++ rest) .failure
  | unfinished {s n} : Inside s n → Stops t ('{' :: (s ++ ['\\'])) .crash

theorem bracket_inj {a b : List Char} (h : '{' :: a ++ ['}'] = '{' :: b ++ ['}']) : a = b := by simpa using h

theorem top_ignored (t : Term) {rest : List Char} (h : Ignored rest) {fuel : Nat} (hf : rest.length < fuel) :
    top t fuel rest = .error := by
  cases h with
  | nil => exact top_nil t (by omega)
  | percent r => exact top_percent t r (by omega)
  | unclosed h => exact top_unclosed t h (by omega)

theorem top_stops (t : Term) {rest : List Char} {e : PResult Unit} (h : Stops t rest e) {fuel : Nat} (hf : rest.length < fuel) :
    top t fuel rest = (match e with | .crash => .crash | .failure => .failure | _ => .error) := by
  cases h with
  | ignored h => exact top_ignored t h hf
  | refused r h1 h2 =>
    obtain ⟨c, hc, hres⟩ := h2
    have := bracket_inj hc
    subst this
    simp only [List.length_append, List.length_cons] at hf
    show _ = PResult.failure
    rw [top_bracket t h1 r (by omega), hres]
  | unfinished h => exact top_unfinished t h (by omega)

theorem stops_head (t : Term) {rest : List Char} {e : PResult Unit} (h : Stops t rest e) : AfterText rest := by
  intro c hc
  cases h with
  | ignored h =>
    cases h with
    | nil => simp at hc
    | percent => simp at hc; exact Or.inr hc.symm
    | unclosed => simp at hc; exact Or.inl hc.symm
  | refused => simp at hc; exact Or.inl hc.symm
  | unfinished => simp at hc; exact Or.inl hc.symm

/-- Every string consists of parts and an end. -/
theorem parts_exist (t : Term) : ∀ (n : Nat) (s : List Char), s.length ≤ n → ∃ before segs rest e,
    s = before ++ rest ∧ Parts (AcceptsC t) before segs ∧ Stops t rest e := by
  intro n
  induction n with
  | zero =>
    intro s hs
    have : s = [] := List.eq_nil_of_length_eq_zero (by omega)
    subst this
    exact ⟨[], [], [], _, rfl, .nil, .ignored .nil⟩
  | succ n ih =>
    intro s hs
    cases s with
    | nil => exact ⟨[], [], [], _, rfl, .nil, .ignored .nil⟩
    | cons c s =>
      simp only [List.length_cons] at hs
      by_cases hc : c = '{'
      · subst hc
        rcases take_result s [] 0 .nil with ⟨-, s', n', h, he⟩ | ⟨-, n', h⟩ | ⟨content, rest, -, h, he⟩
        · simp only [List.nil_append] at he
          subst he
          exact ⟨[], [], _, _, rfl, .nil, .unfinished h⟩
        · exact ⟨[], [], _, _, rfl, .nil, .ignored (.unclosed h)⟩
        · simp only [List.nil_append] at he
          subst he
          have he : '{' :: (content ++ '}' :: rest) = '{' :: content ++ ['}'] ++ rest := by simp
          rw [he]
          clear he
          cases hres : contentResult t content with
          | crash => exact absurd hres (contentResult_crash t h)
          | error => exact absurd hres (contentResult_not_error t content)
          | failure => exact ⟨[], [], _, _, rfl, .nil, .refused rest h ⟨content, rfl, hres⟩⟩
          | ok r seg =>
            simp only [List.length_append, List.length_cons] at hs
            obtain ⟨before, segs, rest', e, h1, h2, h3⟩ := ih rest (by omega)
            subst h1
            refine ⟨'{' :: content ++ ['}'] ++ before, seg :: segs, rest', e, by simp, ?_, h3⟩
            exact .bracket h ⟨content, r, rfl, hres⟩ h2
      · by_cases hp : c = '%'
        · subst hp
          exact ⟨[], [], _, _, rfl, .nil, .ignored (.percent s)⟩
        · let p : Char → Bool := fun c => decide (c ≠ '{' ∧ c ≠ '%')
          have hsplit : (c :: s).takeWhile p ++ (c :: s).dropWhile p = c :: s := List.takeWhile_append_dropWhile
          have hpc : p c = true := by simp [p, hc, hp]
          have hne : (c :: s).takeWhile p ≠ [] := by rw [List.takeWhile_cons_of_pos hpc]; simp
          have hlen : ((c :: s).dropWhile p).length ≤ n := by
            rw [List.dropWhile_cons_of_pos hpc]
            have := (List.dropWhile_suffix (l := s) p).length_le
            omega
          have hall : ∀ x ∈ (c :: s).takeWhile p, x ≠ '{' ∧ x ≠ '%' := by
            intro x hx
            have := List.all_takeWhile (p := p) (l := c :: s)
            rw [List.all_eq_true] at this
            simpa [p] using this x hx
          obtain ⟨before, segs, rest', e, h1, h2, h3⟩ := ih _ hlen
          have hd : AfterText ((c :: s).dropWhile p) := by
            intro x hx
            have := List.head?_dropWhile_not p (c :: s)
            rw [hx] at this
            simp only [p] at this
            by_cases hx1 : x = '{'
            · exact Or.inl hx1
            · by_cases hx2 : x = '%'
              · exact Or.inr hx2
              · simp [hx1, hx2] at this
          have hb : ∀ x, before.head? = some x → x = '{' := by
            intro x hx
            cases h2 with
            | nil => simp at hx
            | @text w rest segs' hw0 hw1 _ _ =>
              exfalso
              have hx' : ((c :: s).dropWhile p).head? = some x := by
                rw [h1]
                cases w with
                | nil => exact absurd rfl hw0
                | cons y w => simpa using hx
              have hxw : x ∈ w := by
                cases w with
                | nil => exact absurd rfl hw0
                | cons y w => simp at hx; simp [hx]
              rcases hd x hx' with h | h
              · exact (hw1 x hxw).1 h
              · exact (hw1 x hxw).2 h
            | bracket _ _ _ => simp at hx; exact hx.symm
          refine ⟨(c :: s).takeWhile p ++ before, _, rest', e, ?_, .text hne hall hb h2, h3⟩
          rw [List.append_assoc, ← h1, hsplit]

/-- The parts are read one after the other. -/
theorem loop_parts (t : Term) {before : List Char} {segs : List Segment} (h : Parts (AcceptsC t) before segs)
    {rest : List Char} {e : PResult Unit} (hs : Stops t rest e) (fuel : Nat) :
    ∀ acc, (before ++ rest).length < fuel → ∀ mfuel, (before ++ rest).length < mfuel →
    many0Loop (top t fuel) mfuel (before ++ rest) acc = (match e with
      | .crash => .crash
      | .failure => .failure
      | _ => .ok rest (acc ++ segs)) := by
  induction h with
  | nil =>
    intro acc hf mfuel hm
    obtain ⟨mfuel, rfl⟩ := Nat.exists_eq_succ_of_ne_zero (show mfuel ≠ 0 by omega)
    simp only [List.nil_append] at hf ⊢
    rw [many0Loop, top_stops t hs hf]
    cases e <;> simp
  | text h1 h2 h3 _ ih =>
    rename_i w rest' segs' _
    intro acc hf mfuel hm
    obtain ⟨mfuel, rfl⟩ := Nat.exists_eq_succ_of_ne_zero (show mfuel ≠ 0 by omega)
    have hw : 0 < w.length := List.length_pos_iff.mpr h1
    simp only [List.append_assoc, List.length_append] at hf hm ⊢
    have ha : AfterText (rest' ++ rest) := by
      intro c hc
      cases hr : rest' with
      | nil => rw [hr] at hc; exact stops_head t hs c hc
      | cons x r => rw [hr] at hc; exact Or.inl (h3 c (by rw [hr]; simpa using hc))
    rw [many0_step hw (top_text t h1 h2 ha (by omega))]
    rw [ih _ (by rw [List.length_append]; omega) _ (by rw [List.length_append]; omega)]
    simp
  | bracket h1 h2 _ ih =>
    rename_i content seg rest' segs' _
    intro acc hf mfuel hm
    obtain ⟨mfuel, rfl⟩ := Nat.exists_eq_succ_of_ne_zero (show mfuel ≠ 0 by omega)
    obtain ⟨c, r, hc, hres⟩ := h2
    have := bracket_inj hc
    subst this
    have hlen : (('{' :: content ++ ['}'] ++ rest') ++ rest).length = content.length + 2 + rest'.length + rest.length := by
      simp; omega
    rw [hlen] at hf hm
    have e : ('{' :: content ++ ['}'] ++ rest') ++ rest = ('{' :: content ++ ['}']) ++ (rest' ++ rest) := by simp
    rw [e, many0_step (a := seg) (by simp) (by
      rw [top_bracket t h1 _ (by omega), hres])]
    rw [ih _ (by rw [List.length_append]; omega) _ (by rw [List.length_append]; omega)]
    simp

/-- What `parse` gives. -/
theorem parse_parts (t : Term) {before : List Char} {segs : List Segment} (h : Parts (AcceptsC t) before segs)
    {rest : List Char} {e : PResult Unit} (hs : Stops t rest e) :
    parse t (before ++ rest) = (match e with
      | .crash => .panic
      | .failure => .err ()
      | _ => if containsLog segs then .ok segs else .err ()) := by
  have := loop_parts t h hs ((before ++ rest).length + 1) [] (by omega) ((before ++ rest).length + 1) (by omega)
  unfold parse many0
  rw [show (alt (parseArgument t ((before ++ rest).length + 1) false) parseString) = top t ((before ++ rest).length + 1) from rfl, this]
  cases e <;> simp

/-! ## Pairs of brackets, seen from outside -/

theorem content_log {t : Term} (ht : t.Ok) : contentResult t c!"s" = .ok [] (.field .log {}) := by
  have h := argument_of_content (t := t) (s := c!"s") (seg := .field .log {}) (fuel := 2) (nest := false)
  have hm : parseMetadata t c!"s" = .ok [] (.metadata .log) := parse_metadata_word ht .log (rest := []) (by intro c hc; simp at hc)
  simp [contentResult, parseLogSegment, separatedList1, alt, hm, separatedLoop, buildField1, Builder.addAll, Builder.add,
    Builder.format]

theorem inside_log : Inside c!"s" 0 := .plain (s := []) .nil (by decide) (by decide) (by decide)

theorem accepts_iff {t : Term} (ht : t.Ok) {content : List Char} (h : Inside content 0) (seg : Segment) :
    AcceptsC t ('{' :: content ++ ['}']) seg ↔ parse t ('{' :: content ++ ['}'] ++ c!"{s}") = .ok [seg, .field .log {}] := by
  have hlog : Parts (AcceptsC t) (c!"{s}" ++ []) [.field .log {}] := .bracket inside_log ⟨c!"s", [], rfl, content_log ht⟩ .nil
  have hok : ∀ r seg', contentResult t content = .ok r seg' →
      parse t ('{' :: content ++ ['}'] ++ c!"{s}") = .ok [seg', .field .log {}] := by
    intro r seg' hr
    have := parse_parts t (.bracket h ⟨content, r, rfl, hr⟩ hlog) (.ignored .nil)
    simp only [List.append_nil] at this
    rw [this, if_pos]
    simp [containsLog, segmentContainsLog]
  constructor
  · rintro ⟨c, r, hc, hr⟩
    have := bracket_inj hc
    subst this
    exact hok r seg hr
  · intro hp
    cases hr : contentResult t content with
    | crash => exact absurd hr (contentResult_crash t h)
    | error => exact absurd hr (contentResult_not_error t content)
    | failure =>
      have := parse_parts t .nil (.refused c!"{s}" h ⟨content, rfl, hr⟩)
      simp only [List.nil_append] at this
      rw [this] at hp
      cases hp
    | ok r seg' =>
      rw [hok r seg' hr] at hp
      simp only [Outcome.ok.injEq, List.cons.injEq, and_true] at hp
      subst hp
      exact ⟨content, r, rfl, hr⟩

theorem parts_congr {P Q : List Char → Segment → Prop}
    (h : ∀ content seg, Inside content 0 → P ('{' :: content ++ ['}']) seg → Q ('{' :: content ++ ['}']) seg)
    {s : List Char} {segs : List Segment} (hp : Parts P s segs) : Parts Q s segs := by
  induction hp with
  | nil => exact .nil
  | text h1 h2 h3 _ ih => exact .text h1 h2 h3 ih
  | bracket h1 h2 _ ih => exact .bracket h1 (h _ _ h1 h2) ih

end Defmt.LogFormat
