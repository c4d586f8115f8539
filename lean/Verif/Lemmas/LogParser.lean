import Verif.Lemmas.LogFormat
import Verif.Lemmas.Parser
import Verif.Lemmas.Frame
/-!
Lemmas about the parser of log formats.
-/

namespace Defmt.LogFormat

open Parser

/-! ## No crash -/

/-- the last backslash has no character to skip -/
def dangling : List Char → Bool
  | [] => false
  | c :: rest =>
    if c = '\\' then
      match rest with
      | [] => true
      | _ :: rest => dangling rest
    else dangling rest

theorem take_crash (i : List Char) : ∀ depth seen, takeUntilUnbalanced depth seen i = .crash → dangling i = true := by
  fun_induction dangling i with
  | case1 => intro depth seen h; simp only [takeUntilUnbalanced] at h; split at h <;> cases h
  | case2 => intros; rfl
  | case3 d rest ih => intro depth seen h; simp only [takeUntilUnbalanced, if_pos] at h; exact ih _ _ h
  | case4 c rest hc ih =>
    intro depth seen h
    rw [takeUntilUnbalanced.eq_def] at h
    simp only [if_neg hc] at h
    split at h
    · exact ih _ _ h
    · split at h
      · split at h
        · cases h
        · exact ih _ _ h
      · exact ih _ _ h

theorem take_failure (i : List Char) : ∀ depth seen, takeUntilUnbalanced depth seen i ≠ .failure := by
  fun_induction dangling i with
  | case1 => intro depth seen; simp only [takeUntilUnbalanced]; split <;> simp
  | case2 => intro depth seen; simp [takeUntilUnbalanced]
  | case3 d rest ih => intro depth seen; simp only [takeUntilUnbalanced, if_pos]; exact ih _ _
  | case4 c rest hc ih =>
    intro depth seen
    rw [takeUntilUnbalanced.eq_def]
    simp only [if_neg hc]
    split
    · exact ih _ _
    · split
      · split
        · simp
        · exact ih _ _
      · exact ih _ _

theorem take_ok (i : List Char) : ∀ depth seen rest a, takeUntilUnbalanced depth seen i = .ok rest a →
    ∃ mid, a = seen ++ mid ∧ i = mid ++ rest ∧ dangling mid = false := by
  fun_induction dangling i with
  | case1 =>
    intro depth seen rest a h
    simp only [takeUntilUnbalanced] at h
    split at h
    · cases h; exact ⟨[], by simp, rfl, rfl⟩
    · cases h
  | case2 => intro depth seen rest a h; simp [takeUntilUnbalanced] at h
  | case3 d r ih =>
    intro depth seen rest a h
    simp only [takeUntilUnbalanced, if_pos] at h
    obtain ⟨mid, h1, h2, h3⟩ := ih _ _ _ _ h
    refine ⟨'\\' :: d :: mid, ?_, ?_, ?_⟩
    · rw [h1]; simp
    · rw [h2]; rfl
    · simpa [dangling] using h3
  | case4 c r hc ih =>
    intro depth seen rest a h
    rw [takeUntilUnbalanced.eq_def] at h
    simp only [if_neg hc] at h
    have step : ∀ depth', takeUntilUnbalanced depth' (seen ++ [c]) r = .ok rest a →
        ∃ mid, a = seen ++ mid ∧ c :: r = mid ++ rest ∧ dangling mid = false := by
      intro depth' h
      obtain ⟨mid, h1, h2, h3⟩ := ih _ _ _ _ h
      refine ⟨c :: mid, ?_, ?_, ?_⟩
      · rw [h1]; simp
      · rw [h2]; rfl
      · rw [dangling.eq_def]; simp only [if_neg hc]; exact h3
    split at h
    · exact step _ h
    · split at h
      · split at h
        · cases h; exact ⟨[], by simp, rfl, rfl⟩
        · exact step _ h
      · exact step _ h

theorem dangling_after_brace (i : List Char) : dangling i = false → ∀ a b, i = a ++ '{' :: b → dangling b = false := by
  fun_induction dangling i with
  | case1 => intro _ a b h; simp at h
  | case2 => intro h; cases h
  | case3 d rest ih =>
    intro h a b hab
    cases a with
    | nil => simp at hab
    | cons x a =>
      cases a with
      | nil =>
        simp only [List.cons_append, List.nil_append, List.cons.injEq] at hab
        rw [← hab.2.2]; exact h
      | cons y a =>
        simp only [List.cons_append, List.cons.injEq] at hab
        exact ih h a b hab.2.2
  | case4 c rest hc ih =>
    intro h a b hab
    cases a with
    | nil =>
      simp only [List.nil_append, List.cons.injEq] at hab
      rw [← hab.2]; exact h
    | cons x a =>
      simp only [List.cons_append, List.cons.injEq] at hab
      exact ih h a b hab.2

theorem dangling_last (i : List Char) (h : dangling i = true) : i.getLast? = some '\\' := by
  fun_induction dangling i with
  | case1 => cases h
  | case2 => rfl
  | case3 d rest ih =>
    have := ih h
    cases rest with
    | nil => cases h
    | cons x r => simpa using this
  | case4 c rest hc ih =>
    have := ih h
    cases rest with
    | nil => cases h
    | cons x r => simpa using this

/-- a parser that does not crash on the texts of a set and leaves an end of the text -/
def Good {α : Type} (D : List Char → Prop) (p : List Char → PResult α) : Prop :=
  ∀ i, D i → p i ≠ .crash ∧ ∀ rest a, p i = .ok rest a → rest <:+ i

/-- with a text also its ends -/
def Closed' (D : List Char → Prop) : Prop := ∀ i j, D i → j <:+ i → D j

theorem good_alt {α : Type} {D : List Char → Prop} {p q : List Char → PResult α} (hp : Good D p)
    (hq : Good D q) : Good D (alt p q) := by
  intro i hi
  have h1 := hp i hi
  have h2 := hq i hi
  simp only [alt]
  cases h : p i with
  | error => exact h2
  | ok r a => rw [h] at h1; exact h1
  | failure => rw [h] at h1; exact h1
  | crash => exact absurd h h1.1

theorem good_many0Loop {α : Type} {D : List Char → Prop} (hD : Closed' D) {p : List Char → PResult α}
    (hp : Good D p) : ∀ fuel i acc, D i → i.length < fuel →
    many0Loop p fuel i acc ≠ .crash ∧ ∀ rest a, many0Loop p fuel i acc = .ok rest a → rest <:+ i := by
  intro fuel
  induction fuel with
  | zero => intro i acc _ h; omega
  | succ fuel ih =>
    intro i acc hi hlen
    have h1 := hp i hi
    simp only [many0Loop]
    cases h : p i with
    | error =>
      simp only
      exact ⟨by simp, fun rest a h' => by cases h'; exact List.suffix_refl _⟩
    | failure => simp
    | crash => exact absurd h h1.1
    | ok r a =>
      have hs := h1.2 r a h
      simp only
      split
      · simp
      · rename_i hne
        have hl := hs.length_le
        have := ih r (acc ++ [a]) (hD i r hi hs) (by omega)
        exact ⟨this.1, fun rest a h' => (this.2 rest a h').trans hs⟩

theorem good_many0 {α : Type} {D : List Char → Prop} (hD : Closed' D) {p : List Char → PResult α}
    (hp : Good D p) : Good D (many0 p) := by
  intro i hi
  exact good_many0Loop hD hp _ i [] hi (by omega)

theorem good_separatedLoop {α : Type} {D : List Char → Prop} (hD : Closed' D) {p : List Char → PResult α}
    (hp : Good D p) (sep : Char) : ∀ fuel i acc, D i → i.length < fuel →
    separatedLoop sep p fuel i acc ≠ .crash ∧
      ∀ rest a, separatedLoop sep p fuel i acc = .ok rest a → rest <:+ i := by
  intro fuel
  induction fuel with
  | zero => intro i acc _ h; omega
  | succ fuel ih =>
    intro i acc hi hlen
    have self : ∀ (j : List Char) (x : List α), (PResult.ok j x ≠ .crash ∧
        ∀ rest a, PResult.ok j x = .ok rest a → rest <:+ j) := by
      intro j x
      exact ⟨by simp, fun rest a h' => by cases h'; exact List.suffix_refl _⟩
    cases i with
    | nil => simp only [separatedLoop]; exact self _ _
    | cons c r =>
      simp only [separatedLoop]
      split
      · exact self _ _
      · have hr : D r := hD _ _ hi (List.suffix_cons _ _)
        have h1 := hp r hr
        cases h : p r with
        | error => simp only; exact self _ _
        | failure => simp
        | crash => exact absurd h h1.1
        | ok r' a =>
          have hs := h1.2 r' a h
          have hl := hs.length_le
          simp only [List.length_cons] at hlen
          have := ih r' (acc ++ [a]) (hD r r' hr hs) (by omega)
          exact ⟨this.1, fun rest a h' => ((this.2 rest a h').trans hs).trans (List.suffix_cons _ _)⟩

theorem good_separatedList1 {α : Type} {D : List Char → Prop} (hD : Closed' D) {p : List Char → PResult α}
    (hp : Good D p) (sep : Char) : Good D (separatedList1 sep p) := by
  intro i hi
  have h1 := hp i hi
  simp only [separatedList1]
  cases h : p i with
  | error => simp
  | failure => simp
  | crash => exact absurd h h1.1
  | ok r a =>
    have hs := h1.2 r a h
    have := good_separatedLoop hD hp sep (r.length + 1) r [a] (hD i r hi hs) (by omega)
    exact ⟨this.1, fun rest a h' => (this.2 rest a h').trans hs⟩

theorem good_word {α : Type} (D : List Char → Prop) (t : Term) (f : List Char → Option α) : Good D (word t f) := by
  intro i _
  simp only [word]
  split
  · simp
  · exact ⟨by simp, fun rest a h' => by cases h'; exact List.dropWhile_suffix _⟩

theorem optAlignment_suffix (i : List Char) : (optAlignment i).1 <:+ i := by
  cases i with
  | nil => simp [optAlignment]
  | cons c r =>
    simp only [optAlignment]
    split
    · exact List.suffix_cons _ _
    · split
      · exact List.suffix_cons _ _
      · split
        · exact List.suffix_cons _ _
        · exact List.suffix_refl _

theorem good_width (D : List Char → Prop) : Good D parseWidth := by
  intro i _
  simp only [parseWidth]
  split
  · simp
  · split
    · simp
    · refine ⟨by simp, fun rest a h' => ?_⟩
      cases h'
      exact (List.dropWhile_suffix _).trans (optAlignment_suffix i)

theorem good_format (D : List Char → Prop) (t : Term) : Good D (parseFormat t) :=
  good_alt (good_word D t _) (good_alt (good_word D t _) (good_width D))

theorem good_formatOrFail (D : List Char → Prop) (t : Term) : Good D (parseFormatOrFail t) := by
  intro i hi
  have h1 := good_format D t i hi
  simp only [parseFormatOrFail]
  cases h : parseFormat t i with
  | ok r a => rw [h] at h1; exact h1
  | crash => exact absurd h h1.1
  | error => simp
  | failure => simp

theorem good_percent {D : List Char → Prop} (hD : Closed' D) (t : Term) : Good D (parsePercent t) := by
  intro i hi
  unfold parsePercent
  split
  · rename_i r
    have := good_formatOrFail D t r (hD _ _ hi (List.suffix_cons _ _))
    exact ⟨this.1, fun rest a h' => (this.2 rest a h').trans (List.suffix_cons _ _)⟩
  · simp

theorem good_string (D : List Char → Prop) : Good D parseString := by
  intro i _
  simp only [parseString]
  split
  · simp
  · exact ⟨by simp, fun rest a h' => by cases h'; exact List.dropWhile_suffix _⟩

theorem good_mapNested {D : List Char → Prop} {p : List Char → PResult Segment} (hp : Good D p) :
    Good D (mapNested p) := by
  intro i hi
  have h1 := hp i hi
  simp only [mapNested]
  cases h : p i with
  | ok r a =>
    exact ⟨by simp, fun rest a' h' => by cases h'; exact h1.2 _ _ h⟩
  | error => simp
  | failure => simp
  | crash => exact absurd h h1.1

theorem good_nested {D : List Char → Prop} (hD : Closed' D) (t : Term) {arg : List Char → PResult Segment}
    (ha : Good D arg) : Good D (parseNested t arg) := by
  intro i hi
  have h1 := good_many0 hD
    (good_alt (good_mapNested ha) (good_alt (good_mapNested (good_string D)) (good_percent hD t))) i hi
  simp only [parseNested]
  revert h1
  generalize many0 (alt (mapNested arg) (alt (mapNested parseString) (parsePercent t))) i = res
  intro h1
  cases res with
  | ok r items =>
    cases hb : buildGroup items with
    | none => simp [hb]
    | some s =>
      simp only [hb]
      exact ⟨by simp, fun rest a h' => by cases h'; exact h1.2 _ _ rfl⟩
  | error => simp
  | failure => simp
  | crash => exact absurd rfl h1.1

theorem good_nestedLogSegment {D : List Char → Prop} (hD : Closed' D) (t : Term) :
    Good D (parseNestedLogSegment t) := by
  intro i hi
  have hm : Good D (parseMetadata t) := good_word D t _
  have h1 := good_separatedList1 hD (good_alt hm (good_format D t)) ':' i hi
  simp only [parseNestedLogSegment]
  revert h1
  generalize separatedList1 ':' (alt (parseMetadata t) (parseFormat t)) i = res
  intro h1
  cases res with
  | ok r items =>
    cases hb : buildField1 items with
    | none => simp [hb]
    | some s =>
      simp only [hb]
      exact ⟨by simp, fun rest a h' => by cases h'; exact h1.2 _ _ rfl⟩
  | error => simp
  | failure => simp
  | crash => exact absurd rfl h1.1

theorem good_logSegment {D : List Char → Prop} (hD : Closed' D) (t : Term)
    {arg : Bool → List Char → PResult Segment} (ha : ∀ b, Good D (arg b)) (nest : Bool) :
    Good D (parseLogSegment t arg nest) := by
  intro i hi
  have key : ∀ res : PResult (List Item), (res ≠ .crash ∧ ∀ rest a, res = .ok rest a → rest <:+ i) →
      ((match res with
        | .ok rest items => (match buildField1 items with | none => .failure | some s => .ok rest s)
        | .error => .error
        | .failure => .failure
        | .crash => .crash : PResult Segment) ≠ .crash ∧
      ∀ rest a, (match res with
        | .ok rest items => (match buildField1 items with | none => .failure | some s => .ok rest s)
        | .error => .error
        | .failure => .failure
        | .crash => .crash : PResult Segment) = .ok rest a → rest <:+ i) := by
    intro res h1
    cases res with
    | ok r items =>
      cases hb : buildField1 items with
      | none => simp [hb]
      | some s =>
        simp only [hb]
        exact ⟨by simp, fun rest a h' => by cases h'; exact h1.2 _ _ rfl⟩
    | error => simp
    | failure => simp
    | crash => exact absurd rfl h1.1
  unfold parseLogSegment
  apply key
  cases nest with
  | true =>
    exact good_separatedList1 hD (good_alt (good_nestedLogSegment hD t)
      (good_alt (good_format D t) (good_nested hD t (ha false)))) '%' i hi
  | false =>
    exact good_separatedList1 hD (good_alt (good_word D t _)
      (good_alt (good_format D t) (good_nested hD t (ha true)))) ':' i hi

/-- no bracket is followed by a text that ends in an escape, and there is fuel -/
def Fine (n : Nat) (i : List Char) : Prop :=
  (∀ a b, i = a ++ '{' :: b → dangling b = false) ∧ i.length < n

theorem fine_closed (n : Nat) : Closed' (Fine n) := by
  rintro i j ⟨h1, h2⟩ ⟨p, hp⟩
  refine ⟨?_, ?_⟩
  · intro a b hab
    apply h1 (p ++ a) b
    rw [← hp, hab, List.append_assoc]
  · rw [← hp, List.length_append] at h2; omega

theorem good_argument (t : Term) : ∀ fuel nest, Good (Fine fuel) (parseArgument t fuel nest) := by
  intro fuel
  induction fuel with
  | zero => intro nest i hi; exact absurd hi.2 (by omega)
  | succ fuel ih =>
    intro nest i hi
    unfold parseArgument
    cases i with
    | nil => simp
    | cons c r =>
      simp only
      split
      · simp
      · rename_i hc
        have hc : c = '{' := by simpa using hc
        subst hc
        have hr : dangling r = false := hi.1 [] r rfl
        cases htake : takeUntilUnbalanced 0 [] r with
        | crash =>
          rw [take_crash _ _ _ htake] at hr
          cases hr
        | error => simp
        | failure => exact absurd htake (take_failure _ _ _)
        | ok rest content =>
          cases rest with
          | nil => simp
          | cons x rest =>
            obtain ⟨mid, h1, h2, h3⟩ := take_ok _ _ _ _ _ htake
            simp only [List.nil_append] at h1
            subst h1
            have hfine : Fine fuel content := by
              refine ⟨fun a b hab => dangling_after_brace content h3 a b hab, ?_⟩
              have := hi.2
              rw [h2] at this
              simp only [List.length_cons, List.length_append] at this
              omega
            have hseg := good_logSegment (fine_closed fuel) t ih nest content hfine
            simp only
            cases hs : parseLogSegment t (parseArgument t fuel) nest content with
            | ok r' s =>
              simp only
              refine ⟨by simp, fun rest' a h' => ?_⟩
              cases h'
              rw [h2]
              exact ⟨'{' :: content ++ [x], by simp⟩
            | error => simp
            | failure => simp
            | crash => exact absurd hs hseg.1

theorem parse_not_panic (t : Term) {s : List Char} (h : s.getLast? ≠ some '\\') : parse t s ≠ .panic := by
  have hfine : Fine (s.length + 1) s := by
    refine ⟨fun a b hab => ?_, by omega⟩
    cases hd : dangling b with
    | false => rfl
    | true =>
      have := dangling_last b hd
      exfalso
      apply h
      rw [hab]
      cases b with
      | nil => cases hd
      | cons x b =>
        rw [List.getLast?_append, List.getLast?_cons_cons, this]
        rfl
  have hgood := good_many0 (fine_closed _) (good_alt (good_argument t (s.length + 1) false) (good_string _)) s hfine
  unfold parse
  revert hgood
  generalize many0 (alt (parseArgument t (s.length + 1) false) parseString) s = res
  intro hgood
  cases res with
  | ok r segs => simp only; split <;> simp
  | error => simp
  | failure => simp
  | crash => exact absurd rfl hgood.1

end Defmt.LogFormat
