import Verif.Lemmas.LogGrammar
/-!
# Log formats that are not accepted
-/

namespace Defmt.LogFormat

open Parser hiding parse Written

/-! ## Parameters given twice -/

theorem addAll_refused (ps : List Param) : ∀ b : Builder,
    ¬ ((b.color.toList ++ ps.filterMap Param.color?).length ≤ 1 ∧
      (b.width.toList ++ ps.filterMap Param.width?).length ≤ 1 ∧
      (b.style.getD [] ++ ps.filterMap Param.style?).Nodup) → (b.style.getD []).Nodup →
    b.addAll (ps.map itemOf) = none := by
  induction ps with
  | nil =>
    intro b h hs
    exfalso
    apply h
    simp only [List.filterMap_nil, List.append_nil]
    exact ⟨by cases b.color <;> simp, by cases b.width <;> simp, hs⟩
  | cons p ps ih =>
    intro b h hs
    cases p with
    | color c =>
      rw [Param.colors_cons_color, Param.widths_cons_color, Param.styles_cons_color] at h
      cases hc : b.color with
      | some x => simp [itemOf, Builder.addAll, Builder.add, hc]
      | none =>
        simp only [List.map_cons, itemOf, Builder.addAll, Builder.add, hc, Option.isNone_none, if_true]
        apply ih
        · rw [hc] at h
          exact h
        · exact hs
    | width w p a =>
      rw [Param.colors_cons_width, Param.widths_cons_width, Param.styles_cons_width] at h
      cases hc : b.width with
      | some x => simp [itemOf, Builder.addAll, Builder.add, hc]
      | none =>
        simp only [List.map_cons, itemOf, Builder.addAll, Builder.add, hc, Option.isNone_none, if_true]
        apply ih
        · rw [hc] at h
          exact h
        · exact hs
    | style s =>
      rw [Param.colors_cons_style, Param.widths_cons_style, Param.styles_cons_style] at h
      by_cases hc : (b.style.getD []).contains s
      · simp only [List.map_cons, itemOf, Builder.addAll, Builder.add, hc, if_true]
      · simp only [List.map_cons, itemOf, Builder.addAll, Builder.add, hc, if_false]
        apply ih
        · simpa using h
        · simp only [Option.getD_some]
          rw [List.contains_eq_mem, decide_eq_true_eq] at hc
          rw [List.nodup_append]
          refine ⟨hs, by simp, ?_⟩
          intro a ha b hb
          simp at hb
          subst hb
          rintro rfl
          exact hc ha

theorem buildField1_refused {m : Metadata} {ps : List Param} (h : ¬ ParamsAllowed ps) :
    buildField1 (.metadata m :: ps.map itemOf) = none := by
  have := addAll_refused ps { metadata := some m } (by simpa [ParamsAllowed] using h) (by simp)
  simp only [buildField1, Builder.addAll, Builder.add, Option.isNone_none, if_true, this]

/-- a specifier is never removed -/
theorem addAll_metadata (is : List Item) : ∀ b b' : Builder, b.metadata.isSome = true → b.addAll is = some b' →
    b'.metadata.isSome = true := by
  induction is with
  | nil => intro b b' h e; simp [Builder.addAll] at e; rw [← e]; exact h
  | cons i is ih =>
    intro b b' h e
    simp only [Builder.addAll] at e
    cases hb : b.add i with
    | none => simp [hb] at e
    | some b1 =>
      simp only [hb] at e
      refine ih b1 b' ?_ e
      cases i with
      | metadata m =>
        simp only [Builder.add] at hb
        split at hb
        · simp at hb; rw [← hb]; rfl
        · simp at hb
      | color c =>
        simp only [Builder.add] at hb
        split at hb
        · simp at hb; rw [← hb]; exact h
        · simp at hb
      | style c =>
        simp only [Builder.add] at hb
        split at hb
        · simp at hb
        · simp at hb; rw [← hb]; exact h
      | width w p a =>
        simp only [Builder.add] at hb
        split at hb
        · simp at hb; rw [← hb]; exact h
        · simp at hb
      | nested s =>
        simp only [Builder.add] at hb
        simp at hb; rw [← hb]; exact h

theorem buildField1_second {m m' : Metadata} (xs ys : List Item) :
    buildField1 (.metadata m :: (xs ++ .metadata m' :: ys)) = none := by
  have key : ({} : Builder).addAll (.metadata m :: (xs ++ .metadata m' :: ys)) = none := by
    simp only [Builder.addAll, Builder.add, Option.isNone_none, if_true, addAll_append]
    cases h : Builder.addAll { metadata := some m } xs with
    | none => rfl
    | some b =>
      have := addAll_metadata xs _ b (by rfl) h
      simp only [Option.bind_some, Builder.addAll, Builder.add]
      cases hb : b.metadata with
      | none => rw [hb] at this; cases this
      | some x => simp
  simp only [buildField1, key]

theorem buildGroup_refused {segs : List Segment} {ps : List Param} (h : ¬ ParamsAllowed ps) :
    buildGroup (segs.map Item.nested ++ ps.map itemOf) = none := by
  cases segs with
  | nil =>
    have := addAll_refused ps {} (by simpa [ParamsAllowed] using h) (by simp)
    simp only [List.map_nil, List.nil_append, buildGroup, this]
  | cons s segs =>
    have hn := addAll_nested (s :: segs) {} (by simp)
    have := addAll_refused ps { nested := some (s :: segs) } (by simpa [ParamsAllowed] using h) (by simp)
    simp only [buildGroup, addAll_append, hn, Option.bind_some, Option.getD_none, List.nil_append]
    simp only [this]

theorem buildGroup_no_specifier {segs : List Segment} {ps : List Param} (h : ∀ m f, Segment.field m f ∉ segs) :
    buildGroup (segs.map Item.nested ++ ps.map itemOf) = none := by
  by_cases ha : ParamsAllowed ps
  · cases segs with
    | nil =>
      have := addAll_params ps {} (by simpa using ha.1) (by simpa using ha.2.1) (by simpa using ha.2.2)
      simp only [List.map_nil, List.nil_append, buildGroup, this]
      rfl
    | cons s segs =>
      have hn := addAll_nested (s :: segs) {} (by simp)
      have := addAll_params ps { nested := some (s :: segs) } (by simpa using ha.1) (by simpa using ha.2.1) (by simpa using ha.2.2)
      simp only [buildGroup, addAll_append, hn, Option.bind_some, Option.getD_none, List.nil_append]
      simp only [this]
      have hnest : (withParams { nested := some (s :: segs) } ps).nested = some (s :: segs) := rfl
      simp only [hnest]
      rw [if_neg]
      rw [List.any_eq_true]
      rintro ⟨x, hx, hs⟩
      cases x with
      | field m f => exact h m f hx
      | text _ => cases hs
      | nested _ _ => cases hs
  · exact buildGroup_refused ha

/-! ## Specifiers -/

theorem separated_params_tail {t : Term} (ht : t.Ok) {p : List Char → PResult Item} {s : List Char} {ps : List Param}
    (h : ParamsText ':' s ps)
    (hp : ∀ i rest a, parseMetadata t i = .error → parseFormat t i = .ok rest a → p i = .ok rest a)
    {tail : List Char} (htail : Stop tail) :
    ∀ fuel acc, (s ++ tail).length < fuel → ∃ fuel', tail.length < fuel' ∧
      separatedLoop ':' p fuel (s ++ tail) acc = separatedLoop ':' p fuel' tail (acc ++ ps.map itemOf) := by
  induction h with
  | nil =>
    intro fuel acc hf
    exact ⟨fuel, hf, by simp⟩
  | @cons s q ss qs hq hs ih =>
    intro fuel acc hf
    cases fuel with
    | zero => omega
    | succ fuel =>
      have hstop : Stop (ss ++ tail) := by
        cases hs with
        | nil => exact htail
        | cons _ _ => intro c hc; simp at hc; exact Or.inl hc.symm
      obtain ⟨h1, h2⟩ := parse_param ht hq hstop
      obtain ⟨f', hf', he⟩ := ih fuel (acc ++ [itemOf q]) (by simp at hf ⊢; omega)
      refine ⟨f', hf', ?_⟩
      simp only [List.cons_append, List.append_assoc, separatedLoop]
      rw [if_neg (by simp), hp _ _ _ h1 h2]
      simp only
      rw [he]
      simp

theorem separated_second {t : Term} (ht : t.Ok) {p : List Char → PResult Item} {name : List Char} {m : Metadata}
    {s : List Char} {ps : List Param} {name' : List Char} {m' : Metadata} {s' : List Char} {ps' : List Param}
    (hn : MetadataText name m) (h : ParamsText ':' s ps) (hn' : MetadataText name' m') (h' : ParamsText ':' s' ps')
    (hm : ∀ i rest a, parseMetadata t i = .ok rest a → p i = .ok rest a)
    (hp : ∀ i rest a, parseMetadata t i = .error → parseFormat t i = .ok rest a → p i = .ok rest a) :
    separatedList1 ':' p (name ++ (s ++ ':' :: (name' ++ s'))) =
      .ok [] (.metadata m :: (ps.map itemOf ++ .metadata m' :: ps'.map itemOf)) := by
  have htail : Stop (':' :: (name' ++ s')) := by intro c hc; simp at hc; exact Or.inl hc.symm
  have hstop : Stop (s ++ ':' :: (name' ++ s')) := by
    cases h with
    | nil => exact htail
    | cons _ _ => intro c hc; simp at hc; exact Or.inl hc.symm
  have h1 := parse_metadata_word ht hn hstop
  have h2 := parse_metadata_word ht hn' (stop_params (Or.inl rfl) h')
  simp only [separatedList1, hm _ _ _ h1]
  obtain ⟨f', hf', he⟩ := separated_params_tail ht h hp htail ((s ++ ':' :: (name' ++ s')).length + 1) [.metadata m]
    (by omega)
  rw [he]
  cases f' with
  | zero => omega
  | succ f' =>
    simp only [separatedLoop]
    rw [if_neg (by simp), hm _ _ _ h2]
    simp only
    rw [separated_params ht h' hp _ _ (by simp at hf'; omega)]
    simp

/-- text without specifiers is not a group -/
theorem nested_plain {t : Term} {fuel : Nat} {nest : Bool} {s : List Char} (h : PlainText true s) :
    parseNested t (parseArgument t (fuel + 1) nest) s = .failure := by
  have hlen0 : 0 < s.length := List.length_pos_iff.mpr h.1
  have hp := groupParser t fuel nest
  have hone := hp.text s [] h (by intro c hc; cases hc)
  rw [List.append_nil] at hone
  simp only [parseNested, many0]
  obtain ⟨n, hn⟩ : ∃ n, s.length = n + 1 := ⟨s.length - 1, by omega⟩
  rw [hn]
  have hstep := many0_step (p := alt (mapNested (parseArgument t (fuel + 1) nest)) (alt (mapNested parseString) (parsePercent t)))
    (s := s) (rest := []) hlen0 (by rw [List.append_nil]; exact hone) (n + 1) []
  rw [List.append_nil, List.nil_append] at hstep
  rw [hstep]
  have hnil : alt (mapNested (parseArgument t (fuel + 1) nest)) (alt (mapNested parseString) (parsePercent t)) []
      = .error := by
    rw [alt_second (by rw [mapNested, argument_not_brace t fuel nest (by simp)])]
    rw [alt_second (by simp [mapNested, parseString])]
    rfl
  rw [many0Loop, hnil]
  rfl

theorem color_not_f : ∀ x ∈ colorNames, ∃ c ∈ x.1, c ≠ 'f' := by decide

theorem lookup_none {xs : List (List Char × Color)} {s : List Char} (h : ∀ x ∈ xs, x.1 ≠ s) : xs.lookup s = none := by
  induction xs with
  | nil => rfl
  | cons x xs ih =>
    obtain ⟨k, v⟩ := x
    have hk : k ≠ s := h (k, v) (by simp)
    have : (s == k) = false := by simp [Ne.symm hk]
    rw [List.lookup, this]
    exact ih fun y hy => h y (List.mem_cons_of_mem _ hy)

/-- a specifier is not a colour or a style -/
theorem metadata_not_format {t : Term} (ht : t.Ok) {name : List Char} {m : Metadata} (h : MetadataText name m) :
    colorOf t name = none ∧ styleFromStr name = none := by
  have hf : ∀ n, ∀ s : List Char, (∃ c ∈ s, c ≠ 'f') → List.replicate n 'f' ≠ s := by
    rintro n s ⟨c, hc, hne⟩ rfl
    exact hne (List.mem_replicate.mp hc).2
  have hasc := letters_ascii (metadata_words h).1
  cases h with
  | fileName n h0 h =>
    constructor
    · rw [colorOf_ascii ht hasc (hf n _ (by decide)) (hf n _ (by decide))]
      have e : (List.replicate n 'f').map Char.toLower = List.replicate n 'f' := by
        rw [List.map_replicate]; rfl
      rw [e, lookup_none]
      · rfl
      · intro x hx he
        obtain ⟨c, hc, hne⟩ := color_not_f x hx
        exact hf n x.1 ⟨c, hc, hne⟩ he.symm
    · simp only [styleFromStr]
      rw [if_neg (hf n _ (by decide)), if_neg (hf n _ (by decide)), if_neg (hf n _ (by decide)),
        if_neg (hf n _ (by decide)), if_neg (hf n _ (by decide))]
  | _ => exact ⟨by rw [colorOf_ascii ht (by decide) (by decide) (by decide)]; decide, by decide⟩

theorem metadata_head {name : List Char} {m : Metadata} (h : MetadataText name m) :
    ∃ c r, name = c :: r ∧ c.isAlpha = true := by
  cases h with
  | fileName n h0 h =>
    cases n with
    | zero => omega
    | succ n => exact ⟨'f', List.replicate n 'f', rfl, by decide⟩
  | _ => exact ⟨_, _, rfl, by decide⟩

theorem format_of_metadata {t : Term} (ht : t.Ok) {name : List Char} {m : Metadata} (h : MetadataText name m)
    {rest : List Char} (hr : Stop rest) : parseFormat t (name ++ rest) = .error := by
  obtain ⟨h1, h2⟩ := metadata_not_format ht h
  have ha := letters_alphabetic ht (metadata_words h).1
  have hr' := stop_alphabetic ht hr
  obtain ⟨c, r, hname, hc⟩ := metadata_head h
  rw [parseFormat, alt_second, alt_second]
  · apply parseWidth_error
    intro a d rest' he
    rw [hname] at he
    cases a with
    | none =>
      simp [alignmentText] at he
      rw [← he.1]
      cases hd : isDigit c with
      | false => rfl
      | true => rw [digit_not_alpha hd] at hc; cases hc
    | some a =>
      exfalso
      have : ∃ x, alignmentText (some a) = [x] ∧ x.isAlpha = false := by cases a <;> exact ⟨_, rfl, by decide⟩
      obtain ⟨x, hx, hx'⟩ := this
      rw [hx] at he
      simp at he
      rw [he.1, hx'] at hc
      cases hc
  · rw [parseStyle, word_app _ ha hr']; simp [h2]
  · rw [parseColor, word_app _ ha hr']; simp [h1]

theorem paramText_no_percent {s : List Char} {p : Param} (h : ParamText s p) : ∀ c ∈ s, c ≠ '%' := by
  have digit : ∀ c, isDigit c = true → c ≠ '%' := by
    intro c hc; rintro rfl; revert hc; decide
  have align : ∀ (a : Option Alignment), ∀ c ∈ alignmentText a, c ≠ '%' := by
    intro a
    cases a with
    | none => intro c hc; cases hc
    | some a => cases a <;> decide
  cases h with
  | color hmem hsp =>
    have key : ∀ x ∈ colorNames, ∀ c ∈ x.1, c ≠ '%' := by decide
    exact key _ hmem
  | width a w _ _ =>
    intro c hc
    simp only [List.mem_append] at hc
    rcases hc with hc | hc
    · exact align a c hc
    · exact digit c (decimal_digits w c hc)
  | zeroWidth a w _ =>
    intro c hc
    simp only [List.mem_append, List.mem_cons] at hc
    rcases hc with hc | hc | hc
    · exact align a c hc
    · subst hc; decide
    · exact digit c (decimal_digits w c hc)
  | _ => decide

theorem paramsText_no_percent {s : List Char} {ps : List Param}
    (h : ParamsText ':' s ps) : ∀ c ∈ s, c ≠ '%' := by
  induction h with
  | nil => intro c hc; cases hc
  | cons hp _ ih =>
    intro c hc
    simp only [List.cons_append, List.mem_cons, List.mem_append] at hc
    rcases hc with hc | hc | hc
    · subst hc; decide
    · exact paramText_no_percent hp c hc
    · exact ih c hc

theorem metadataText_no_percent {name : List Char} {m : Metadata} (h : MetadataText name m) :
    ∀ c ∈ name, c ≠ '%' := by
  cases h with
  | fileName n _ _ =>
    intro c hc
    rw [(List.mem_replicate.mp hc).2]; decide
  | _ => decide

/-- what stands for the specifier is refused -/
theorem logSegment_refused {t : Term} (ht : t.Ok) {fuel : Nat} (nest : Bool) {name : List Char} {m : Metadata}
    {rest : List Char} {items : List Item} (hn : MetadataText name m) (hstop : Stop rest)
    (hplain : PlainText true (name ++ rest))
    (hsep : ∀ p : List Char → PResult Item, (∀ i rest a, parseMetadata t i = .ok rest a → p i = .ok rest a) →
      (∀ i rest a, parseMetadata t i = .error → parseFormat t i = .ok rest a → p i = .ok rest a) →
      separatedList1 ':' p (name ++ rest) = .ok [] items)
    (hb : buildField1 items = none) :
    parseLogSegment t (parseArgument t (fuel + 1)) nest (name ++ rest) = .failure := by
  cases nest with
  | false =>
    simp only [parseLogSegment]
    rw [if_neg (by simp), hsep _ (fun i rest a h => alt_first h)
      (fun i rest a h1 h2 => by rw [alt_second h1]; exact alt_first h2)]
    simp [hb]
  | true =>
    have hin : parseNestedLogSegment t (name ++ rest) = .error := by
      simp only [parseNestedLogSegment]
      rw [hsep _ (fun i rest a h => alt_first h)
        (fun i rest a h1 h2 => by rw [alt_second h1]; exact h2)]
      simp [hb]
    simp only [parseLogSegment, separatedList1]
    rw [if_pos trivial, alt_second hin, alt_second (format_of_metadata ht hn hstop), nested_plain hplain]

/-! ## Groups -/

/-- something refused is not parsed -/
def SegmentRefused (t : Term) (s : List Char) : Prop :=
  Balanced s ∧ (∃ r, s = '{' :: r) ∧
  ∀ fuel nest rest, s.length ≤ fuel → parseArgument t fuel nest (s ++ rest) = .failure

theorem argument_refused {t : Term} {s : List Char} (hb : Balanced s)
    (h : ∀ fuel nest, s.length ≤ fuel + 1 → parseLogSegment t (parseArgument t (fuel + 1)) nest s = .failure)
    : SegmentRefused t ('{' :: s ++ ['}']) := by
  refine ⟨by simpa using balanced_bracket hb, ⟨_, rfl⟩, ?_⟩
  intro fuel nest rest hf
  simp only [List.cons_append, List.length_cons, List.length_append, List.length_nil] at hf
  obtain ⟨n, rfl⟩ : ∃ n, fuel = n + 1 + 1 := ⟨fuel - 2, by omega⟩
  have he : '{' :: s ++ ['}'] ++ rest = '{' :: (s ++ '}' :: rest) := by simp
  rw [he, parseArgument]
  simp only [take_balanced hb, h n nest (by omega)]
  rfl

theorem logSegment_group_refused {t : Term} (ht : t.Ok) {fuel : Nat} (nest : Bool) {body tail : List Char}
    (hstart : StartsGroup t body) (htail : AfterText tail)
    (hn : ∀ nest, parseNested t (parseArgument t (fuel + 1) nest) (body ++ tail) = .failure) :
    parseLogSegment t (parseArgument t (fuel + 1)) nest (body ++ tail) = .failure := by
  obtain ⟨hm, hfmt⟩ := group_start_tail ht hstart htail
  cases nest with
  | false =>
    simp only [parseLogSegment, separatedList1]
    rw [if_neg (by simp), alt_second hm, alt_second hfmt, hn]
  | true =>
    have hin : parseNestedLogSegment t (body ++ tail) = .error := by
      simp only [parseNestedLogSegment, separatedList1]
      rw [alt_second hm, hfmt]
    simp only [parseLogSegment, separatedList1]
    rw [if_pos trivial, alt_second hin, alt_second hfmt, hn]

theorem nested_group_refused {t : Term} (ht : t.Ok) {fuel : Nat} {nest : Bool} {body params : List Char}
    {segs : List Segment} {ps : List Param} (hb : PartsParsed t true body segs)
    (hp : ParamsText '%' params ps) (ha : buildGroup (segs.map Item.nested ++ ps.map itemOf) = none)
    (hlen : body.length ≤ fuel + 1) :
    parseNested t (parseArgument t (fuel + 1) nest) (body ++ params) = .failure := by
  obtain ⟨mf, h1, h2⟩ := hb Item (fuel + 1) nest _ _ (groupParser t fuel nest) hlen params (afterText_params hp)
    ((body ++ params).length + 1) [] (by omega)
  have h3 := many0_params ht hp
    (p := alt (mapNested (parseArgument t (fuel + 1) nest)) (alt (mapNested parseString) (parsePercent t)))
    (by
      rw [alt_second (by rw [mapNested, argument_not_brace t fuel nest (by simp)])]
      rw [alt_second (by simp [mapNested, parseString])]
      rfl)
    (by
      intro i
      rw [alt_second (by rw [mapNested, argument_not_brace t fuel nest (by simp)])]
      rw [alt_second (by simp [mapNested, parseString])])
    mf (segs.map Item.nested) h1
  simp only [parseNested, many0]
  rw [h2, List.nil_append, h3]
  simp [ha]

/-- parts before something refused -/
theorem many0_refused {t : Term} {α : Type} {fuel : Nat} {nest g : Bool} {p : List Char → PResult α} {w : Segment → α}
    {body s rest : List Char} {segs : List Segment} (hb : PartsParsed t g body segs) (hs : SegmentRefused t s)
    (hp : PartParser t fuel nest g p w) (hf : body.length + s.length ≤ fuel)
    (hpf : ∀ i, parseArgument t fuel nest i = .failure → p i = .failure) :
    ∀ mfuel acc, (body ++ (s ++ rest)).length < mfuel → many0Loop p mfuel (body ++ (s ++ rest)) acc = .failure := by
  intro mfuel acc hm
  obtain ⟨r, hr⟩ := hs.2.1
  have htail : AfterText (s ++ rest) := by
    intro c hc; rw [hr] at hc; simp at hc; exact Or.inl hc.symm
  obtain ⟨mf, h1, h2⟩ := hb α fuel nest p w hp (by omega) (s ++ rest) htail mfuel acc hm
  rw [h2]
  cases mf with
  | zero => omega
  | succ mf =>
    rw [many0Loop, hpf _ (hs.2.2 fuel nest rest (by omega))]

theorem refused {t : Term} (ht : t.Ok) {s : List Char} (h : Refused t s) : SegmentRefused t s := by
  induction h with
  | @field name m params ps hn hp ha =>
    have hb : Balanced (name ++ params) :=
      (balanced_plain (metadataText_plain hn)).append (balanced_plain (paramsText_plain (Or.inl rfl) hp))
    obtain ⟨c, r, hname, _⟩ := metadata_head hn
    have hplain : PlainText true (name ++ params) := by
      refine ⟨by rw [hname]; simp, ?_⟩
      intro c hc
      simp only [List.mem_append] at hc
      rcases hc with hc | hc
      · have := metadataText_plain hn c hc
        exact ⟨this.1, this.2.1, metadataText_no_percent hn c hc, fun _ => this.2.2⟩
      · have := paramsText_plain (Or.inl rfl) hp c hc
        exact ⟨this.1, this.2.1, paramsText_no_percent hp c hc, fun _ => this.2.2⟩
    have := argument_refused (t := t) hb (fun fuel nest _ => logSegment_refused ht nest hn
      (stop_params (Or.inl rfl) hp) hplain (fun p h1 h2 => separated_field ht hn hp h1 h2) (buildField1_refused ha))
    simpa using this
  | @second name m params ps name' m' params' ps' hn hp hn' hp' =>
    have hall : ∀ c ∈ name ++ (params ++ ':' :: (name' ++ params')), c ≠ '{' ∧ c ≠ '}' ∧ c ≠ '\\' ∧ c ≠ '%' := by
      intro c hc
      simp only [List.mem_append, List.mem_cons] at hc
      rcases hc with hc | hc | hc | hc | hc
      · have := metadataText_plain hn c hc
        exact ⟨this.1, this.2.1, this.2.2, metadataText_no_percent hn c hc⟩
      · have := paramsText_plain (Or.inl rfl) hp c hc
        exact ⟨this.1, this.2.1, this.2.2, paramsText_no_percent hp c hc⟩
      · subst hc; decide
      · have := metadataText_plain hn' c hc
        exact ⟨this.1, this.2.1, this.2.2, metadataText_no_percent hn' c hc⟩
      · have := paramsText_plain (Or.inl rfl) hp' c hc
        exact ⟨this.1, this.2.1, this.2.2, paramsText_no_percent hp' c hc⟩
    have hb : Balanced (name ++ (params ++ ':' :: (name' ++ params'))) :=
      balanced_plain fun c hc => ⟨(hall c hc).1, (hall c hc).2.1, (hall c hc).2.2.1⟩
    obtain ⟨c, r, hname, _⟩ := metadata_head hn
    have hplain : PlainText true (name ++ (params ++ ':' :: (name' ++ params'))) :=
      ⟨by rw [hname]; simp, fun c hc =>
        ⟨(hall c hc).1, (hall c hc).2.1, (hall c hc).2.2.2, fun _ => (hall c hc).2.2.1⟩⟩
    have hstop : Stop (params ++ ':' :: (name' ++ params')) := by
      cases hp with
      | nil => intro c hc; simp at hc; exact Or.inl hc.symm
      | cons _ _ => intro c hc; simp at hc; exact Or.inl hc.symm
    have := argument_refused (t := t) hb (fun fuel nest _ => logSegment_refused ht nest hn hstop hplain
      (fun p h1 h2 => separated_second ht hn hp hn' hp' h1 h2) (buildField1_second _ _))
    simpa using this
  | @group body segs params ps hall hstart hp ha =>
    obtain ⟨hbal, hparts⟩ := writtenAll_parsed ht hall
    have hb : Balanced (body ++ params) :=
      (hbal rfl).append (balanced_plain (paramsText_plain (Or.inr rfl) hp))
    have := argument_refused (t := t) hb (fun fuel nest hf => logSegment_group_refused ht nest hstart
      (afterText_params hp) (fun nest => nested_group_refused ht hparts hp (buildGroup_refused ha)
        (by rw [List.length_append] at hf; omega)))
    simpa using this
  | @noSpecifier body segs params ps hall hstart hno hp =>
    obtain ⟨hbal, hparts⟩ := writtenAll_parsed ht hall
    have hb : Balanced (body ++ params) :=
      (hbal rfl).append (balanced_plain (paramsText_plain (Or.inr rfl) hp))
    have := argument_refused (t := t) hb (fun fuel nest hf => logSegment_group_refused ht nest hstart
      (afterText_params hp) (fun nest => nested_group_refused ht hparts hp (buildGroup_no_specifier hno)
        (by rw [List.length_append] at hf; omega)))
    simpa using this
  | @inside body segs s body' segs' params ps hall hstart hs hall' hp ih =>
    obtain ⟨hbal, hparts⟩ := writtenAll_parsed ht hall
    obtain ⟨hbal', hparts'⟩ := writtenAll_parsed ht hall'
    obtain ⟨r, hr⟩ := ih.2.1
    have hb : Balanced (body ++ (s ++ (body' ++ params))) :=
      (hbal rfl).append (ih.1.append ((hbal' rfl).append (balanced_plain (paramsText_plain (Or.inr rfl) hp))))
    have := argument_refused (t := t) hb (fun fuel nest hf => logSegment_group_refused ht nest hstart
      (by intro c hc; rw [hr] at hc; simp at hc; exact Or.inl hc.symm)
      (fun nest => by
        simp only [List.length_append] at hf
        simp only [parseNested, many0]
        rw [many0_refused hparts ih (groupParser t fuel nest) (by omega) (by
          intro i hi
          simp [alt, mapNested, hi]) _ _ (by omega)]))
    simpa using this

theorem parse_refused {t : Term} (ht : t.Ok) {before s : List Char} {segs : List Segment}
    (hw : WrittenAll t false before segs) (h : Refused t s) (rest : List Char) :
    parse t (before ++ s ++ rest) = .err () := by
  have hp := (writtenAll_parsed ht hw).2
  rw [List.append_assoc]
  simp only [parse, many0]
  rw [many0_refused hp (refused ht h) (topParser t _) (by simp only [List.length_append]; omega) (by
    intro i hi; rw [alt, hi]) _ _ (by omega)]

end Defmt.LogFormat
