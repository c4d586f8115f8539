import Verif.Lemmas.LogField
/-!
# Lemmas about the text between a pair of brackets: groups
-/

namespace Defmt.LogFormat

open Parser hiding parse Written

/-! ## What the pieces of a list become -/

def Item.asMeta : Item → Option Metadata
  | .metadata m => some m
  | _ => none

def Item.asSeg : Item → Option Segment
  | .nested s => some s
  | _ => none

def Item.asParam : Item → Option Param
  | .color c => some (.color c)
  | .style s => some (.style s)
  | .width w p a => some (.width w p a)
  | _ => none

def metasOf (items : List Item) : List Metadata := items.filterMap Item.asMeta
def segsOf (items : List Item) : List Segment := items.filterMap Item.asSeg
def paramsOf (items : List Item) : List Param := items.filterMap Item.asParam

theorem addAll_comm (ps : List Param) : ∀ (b : Builder) (m : Option Metadata) (n : Option (List Segment)),
    (({ b with metadata := m, nested := n } : Builder).addAll (ps.map itemOf)) =
      (b.addAll (ps.map itemOf)).map fun b => { b with metadata := m, nested := n } := by
  induction ps with
  | nil => intro b m n; rfl
  | cons p ps ih =>
    intro b m n
    cases p with
    | color c =>
      simp only [List.map_cons, itemOf, Builder.addAll, Builder.add]
      split
      · rename_i h1; split at h1 <;> simp_all
      · rename_i h1; split at h1
        · cases h1; simp_all [← ih]
        · cases h1
    | style c =>
      simp only [List.map_cons, itemOf, Builder.addAll, Builder.add]
      split
      · rename_i h1; split at h1 <;> simp_all
      · rename_i h1; split at h1
        · cases h1
        · cases h1; simp_all [← ih]
    | width w p a =>
      simp only [List.map_cons, itemOf, Builder.addAll, Builder.add]
      split
      · rename_i h1; split at h1 <;> simp_all
      · rename_i h1; split at h1
        · cases h1; simp_all [← ih]
        · cases h1

theorem addAll_items (items : List Item) : ∀ (b : Builder),
    b.addAll items =
      if (b.metadata.toList ++ metasOf items).length ≤ 1 then
        (b.addAll ((paramsOf items).map itemOf)).map fun b' => { b' with
          metadata := (b.metadata.toList ++ metasOf items).head?
          nested := if segsOf items = [] then b.nested else some (b.nested.getD [] ++ segsOf items) }
      else none := by
  have param : ∀ (p : Param) (items : List Item),
      (∀ (b : Builder), b.addAll items =
        if (b.metadata.toList ++ metasOf items).length ≤ 1 then
          (b.addAll ((paramsOf items).map itemOf)).map fun b' => { b' with
            metadata := (b.metadata.toList ++ metasOf items).head?
            nested := if segsOf items = [] then b.nested else some (b.nested.getD [] ++ segsOf items) }
        else none) → ∀ b : Builder, b.addAll (itemOf p :: items) =
        if (b.metadata.toList ++ metasOf items).length ≤ 1 then
          (b.addAll ((p :: paramsOf items).map itemOf)).map fun b' => { b' with
            metadata := (b.metadata.toList ++ metasOf items).head?
            nested := if segsOf items = [] then b.nested else some (b.nested.getD [] ++ segsOf items) }
        else none := by
    intro p items ih b
    simp only [List.map_cons, Builder.addAll]
    have hkeep : ∀ b', b.add (itemOf p) = some b' → b'.metadata = b.metadata ∧ b'.nested = b.nested := by
      intro b' h
      cases p with
      | color c => simp only [itemOf, Builder.add] at h; split at h <;> cases h; exact ⟨rfl, rfl⟩
      | style c => simp only [itemOf, Builder.add] at h; split at h <;> cases h; exact ⟨rfl, rfl⟩
      | width w p a => simp only [itemOf, Builder.add] at h; split at h <;> cases h; exact ⟨rfl, rfl⟩
    cases hb : b.add (itemOf p) with
    | none => simp
    | some b' =>
      have h1 := ih b'
      rw [(hkeep b' hb).1, (hkeep b' hb).2] at h1
      exact h1
  induction items with
  | nil =>
    intro b
    obtain ⟨m, c, s, w, n⟩ := b
    cases m <;> simp [Builder.addAll, metasOf, segsOf, paramsOf]
  | cons x items ih =>
    intro b
    cases x with
    | color c => exact param (.color c) items ih b
    | style c => exact param (.style c) items ih b
    | width w p a => exact param (.width w p a) items ih b
    | nested s =>
      have e1 : metasOf (.nested s :: items) = metasOf items := rfl
      have e2 : segsOf (.nested s :: items) = s :: segsOf items := rfl
      have e3 : paramsOf (.nested s :: items) = paramsOf items := rfl
      rw [e1, e2, e3]
      simp only [Builder.addAll, Builder.add]
      rw [ih]
      have hc := addAll_comm (paramsOf items) b b.metadata (some (b.nested.getD [] ++ [s]))
      have hb : ({ b with nested := some (b.nested.getD [] ++ [s]) } : Builder) =
        { b with metadata := b.metadata, nested := some (b.nested.getD [] ++ [s]) } := rfl
      rw [hb, hc]
      simp only [Option.map_map]
      congr 1
      congr 1
      funext b'
      by_cases hs : segsOf items = [] <;> simp [hs]
    | metadata m =>
      have e1 : metasOf (.metadata m :: items) = m :: metasOf items := rfl
      have e2 : segsOf (.metadata m :: items) = segsOf items := rfl
      have e3 : paramsOf (.metadata m :: items) = paramsOf items := rfl
      rw [e1, e2, e3]
      simp only [Builder.addAll, Builder.add]
      cases hm : b.metadata with
      | some m' => simp
      | none =>
        simp only [Option.isNone_none, if_true]
        rw [ih]
        have hc := addAll_comm (paramsOf items) b (some m) b.nested
        have hb : ({ b with metadata := some m } : Builder) = { b with metadata := some m, nested := b.nested } := rfl
        rw [hb, hc]
        simp only [Option.map_map]
        rfl

theorem addAll_empty (items : List Item) (b : Builder) : ({} : Builder).addAll items = some b ↔
    (metasOf items).length ≤ 1 ∧ ParamsAllowed (paramsOf items) ∧
      b = { withParams {} (paramsOf items) with
        metadata := (metasOf items).head?, nested := if segsOf items = [] then none else some (segsOf items) } := by
  have key := addAll_items items {}
  by_cases h1 : (metasOf items).length ≤ 1
  · have key := key.trans (if_pos (show (([] : List Metadata) ++ metasOf items).length ≤ 1 from h1))
    rw [key]
    by_cases h2 : ParamsAllowed (paramsOf items)
    · rw [addAll_params _ _ (by simpa using h2.1) (by simpa using h2.2.1) (by simpa using h2.2.2)]
      simp only [Option.map_some, Option.some.injEq, h1, h2, true_and]
      constructor
      · intro h; rw [← h]; rfl
      · intro h; rw [h]; rfl
    · rw [addAll_refused _ _ (by simpa [ParamsAllowed] using h2) (by simp)]
      simp [h2]
  · have key := key.trans (if_neg (show ¬ (([] : List Metadata) ++ metasOf items).length ≤ 1 from h1))
    rw [key]
    simp [h1]

theorem format_items (b : Builder) (ps : List Param) (m : Option Metadata) (n : Option (List Segment))
    (h : b = { withParams {} ps with metadata := m, nested := n }) : b.format = formatOf ps := by
  subst h
  exact withParams_format {} rfl rfl rfl ps

theorem buildField1_segment (items : List Item) (hs : segsOf items ≠ [] ∨ metasOf items = []) (seg : Segment) :
    buildField1 items = some seg ↔ segsOf items = [seg] ∧ metasOf items = [] ∧ ParamsAllowed (paramsOf items) := by
  rw [buildField1]
  cases hb : ({} : Builder).addAll items with
  | none =>
    simp only [reduceCtorEq, false_iff]
    rintro ⟨-, h2, h3⟩
    rw [(addAll_empty items _).mpr ⟨by rw [h2]; simp, h3, rfl⟩] at hb
    cases hb
  | some b =>
    obtain ⟨h1, h2, rfl⟩ := (addAll_empty items b).mp hb
    simp only [h2, and_true]
    match hseg : segsOf items with
    | [] =>
      rw [hseg] at hs
      have hm : metasOf items = [] := hs.resolve_left (by simp)
      simp [hm]
    | [s] =>
      match hm : metasOf items with
      | [] => simp
      | m :: ms => simp
    | s :: s' :: ss => simp

theorem buildGroup_items (items : List Item) (hm : metasOf items = []) (seg : Segment) :
    buildGroup items = some seg ↔ (∃ m f, Segment.field m f ∈ segsOf items) ∧ ParamsAllowed (paramsOf items) ∧
      seg = .nested (segsOf items) (formatOf (paramsOf items)) := by
  rw [buildGroup]
  cases hb : ({} : Builder).addAll items with
  | none =>
    simp only [reduceCtorEq, false_iff]
    rintro ⟨-, h3, -⟩
    rw [(addAll_empty items _).mpr ⟨by rw [hm]; simp, h3, rfl⟩] at hb
    cases hb
  | some b =>
    obtain ⟨h1, h2, hbe⟩ := (addAll_empty items b).mp hb
    have hf := format_items b _ _ _ hbe
    have hn : b.nested = if segsOf items = [] then none else some (segsOf items) := by rw [hbe]
    simp only [hn, hf, h2, true_and]
    have hany : (segsOf items).any Segment.isSpecifier = true ↔ ∃ m f, Segment.field m f ∈ segsOf items := by
      rw [List.any_eq_true]
      constructor
      · rintro ⟨x, hx, hs⟩
        cases x with
        | field m f => exact ⟨m, f, hx⟩
        | text _ => cases hs
        | nested _ _ => cases hs
      · rintro ⟨m, f, h⟩; exact ⟨_, h, rfl⟩
    by_cases hs : segsOf items = []
    · simp [hs]
    · simp only [hs, if_false]
      by_cases ha : (segsOf items).any Segment.isSpecifier = true
      · rw [if_pos ha]
        simp only [hany.mp ha, true_and, Option.some.injEq]
        exact ⟨fun h => h.symm, fun h => h.symm⟩
      · rw [if_neg ha]
        simp only [reduceCtorEq, false_iff]
        rintro ⟨h, -⟩
        exact ha (hany.mpr h)

/-! ## Lists -/

/-- how a list with separators goes on -/
inductive SepRun (p : List Char → PResult Item) (sep : Char) : List Char → List Item → List Char → Prop
  | stop {i} : (∀ i', i = sep :: i' → p i' = .error) → SepRun p sep i [] i
  | step {i r a items rest} : p i = .ok r a → SepRun p sep r items rest → SepRun p sep (sep :: i) (a :: items) rest

theorem sepLoop_iff {D : List Char → Prop} (hD : Closed' D) {p : List Char → PResult Item} (hp : Good D p) (sep : Char) :
    ∀ fuel i acc rest items, D i → i.length < fuel →
    (separatedLoop sep p fuel i acc = .ok rest items ↔ ∃ xs, items = acc ++ xs ∧ SepRun p sep i xs rest) := by
  intro fuel
  induction fuel with
  | zero => intro i acc rest items _ h; omega
  | succ fuel ih =>
    intro i acc rest items hi hf
    rw [separatedLoop.eq_def]
    cases i with
    | nil =>
      simp only [PResult.ok.injEq]
      constructor
      · rintro ⟨rfl, rfl⟩
        exact ⟨[], by simp, .stop (by intro i' h; cases h)⟩
      · rintro ⟨xs, rfl, h⟩
        cases h; simp
    | cons c i =>
      simp only
      by_cases hc : c = sep
      · subst hc
        rw [if_neg (by simp)]
        have hi' : D i := hD _ _ hi (List.suffix_cons _ _)
        cases hx : p i with
        | error =>
          simp only [PResult.ok.injEq]
          constructor
          · rintro ⟨rfl, rfl⟩
            exact ⟨[], by simp, .stop (by intro i' h; cases h; exact hx)⟩
          · rintro ⟨xs, rfl, h⟩
            cases h with
            | stop _ => simp
            | step h1 _ => rw [hx] at h1; cases h1
        | failure =>
          simp only [reduceCtorEq, false_iff]
          rintro ⟨xs, rfl, h⟩
          cases h with
          | stop h1 => have := h1 _ rfl; rw [hx] at this; cases this
          | step h1 _ => rw [hx] at h1; cases h1
        | crash =>
          simp only [reduceCtorEq, false_iff]
          rintro ⟨xs, rfl, h⟩
          cases h with
          | stop h1 => have := h1 _ rfl; rw [hx] at this; cases this
          | step h1 _ => rw [hx] at h1; cases h1
        | ok r a =>
          have hs := (hp i hi').2 r a hx
          simp only
          rw [ih r _ rest items (hD _ _ hi' hs) (by have := hs.length_le; simp at hf; omega)]
          constructor
          · rintro ⟨xs, rfl, h⟩
            exact ⟨a :: xs, by simp, .step hx h⟩
          · rintro ⟨xs, rfl, h⟩
            cases h with
            | stop h1 => have := h1 _ rfl; rw [hx] at this; cases this
            | step h1 h2 =>
              rw [hx] at h1
              cases h1
              exact ⟨_, by simp, h2⟩
      · rw [if_pos hc]
        simp only [PResult.ok.injEq]
        constructor
        · rintro ⟨rfl, rfl⟩
          exact ⟨[], by simp, .stop (by intro i' h; cases h; exact absurd rfl hc)⟩
        · rintro ⟨xs, rfl, h⟩
          cases h with
          | stop _ => simp
          | step h1 _ => exact absurd rfl hc

theorem sepList_iff {D : List Char → Prop} (hD : Closed' D) {p : List Char → PResult Item} (hp : Good D p) (sep : Char)
    {i rest : List Char} {items : List Item} (hi : D i) :
    separatedList1 sep p i = .ok rest items ↔ ∃ r a xs, p i = .ok r a ∧ items = a :: xs ∧ SepRun p sep r xs rest := by
  rw [separatedList1]
  cases hx : p i with
  | ok r a =>
    simp only
    rw [sepLoop_iff hD hp sep _ r _ rest items (hD _ _ hi ((hp i hi).2 r a hx)) (by omega)]
    constructor
    · rintro ⟨xs, rfl, h⟩; exact ⟨r, a, xs, rfl, rfl, h⟩
    · rintro ⟨r', a', xs, h1, rfl, h⟩
      cases h1
      exact ⟨xs, rfl, h⟩
  | _ => simp

/-! ## Parameters -/

theorem metadataOf_word {t : Term} (ht : t.Ok) {w : List Char} {m : Metadata} (h : metadataOf w = some m) :
    colorOf t w = none ∧ styleFromStr w = none ∧ ∃ c r, w = c :: r ∧ c.isAlpha = true := by
  rcases metadataOf_some h with h | ⟨n, hn, rfl, rfl⟩
  · exact ⟨(metadata_not_format ht h).1, (metadata_not_format ht h).2, metadata_head h⟩
  · have hf : ∀ s : List Char, (∃ c ∈ s, c ≠ 'f') → List.replicate n 'f' ≠ s := by
      rintro s ⟨c, hc, hne⟩ rfl
      exact hne (List.mem_replicate.mp hc).2
    refine ⟨?_, ?_, ?_⟩
    · simp only [colorOf]
      rw [if_neg (hf _ (by decide)), if_neg (hf _ (by decide)), files_not_color ht]
      rfl
    · simp only [styleFromStr]
      rw [if_neg (hf _ (by decide)), if_neg (hf _ (by decide)), if_neg (hf _ (by decide)),
        if_neg (hf _ (by decide)), if_neg (hf _ (by decide))]
    · obtain ⟨n, rfl⟩ := Nat.exists_eq_succ_of_ne_zero (show n ≠ 0 by omega)
      exact ⟨'f', List.replicate n 'f', rfl, by decide⟩

theorem format_metadata {t : Term} (ht : t.Ok) {i : List Char} {m : Metadata}
    (h : metadataOf (i.takeWhile t.alphabetic) = some m) : parseFormat t i = .error := by
  obtain ⟨h1, h2, c, r, hw, hc⟩ := metadataOf_word ht h
  rw [parseFormat, alt_second, alt_second]
  · apply parseWidth_error
    intro a d rest' he
    have hi : ∃ r', i = c :: r' := by
      have := List.takeWhile_append_dropWhile (p := t.alphabetic) (l := i)
      rw [hw] at this
      exact ⟨_, this.symm⟩
    obtain ⟨r', rfl⟩ := hi
    cases a with
    | none =>
      simp [alignmentText] at he
      rw [← he.1]
      cases hd : isDigit c with
      | false => rfl
      | true => rw [digit_not_alpha hd] at hc; cases hc
    | some a =>
      exfalso
      have : ∃ x, alignmentText (some a) = [x] ∧ x.isAlpha = false := by cases a <;> exact ⟨_, rfl, by decide⟩
      obtain ⟨x, hx, hx'⟩ := this
      rw [hx] at he
      simp at he
      rw [he.1, hx'] at hc
      cases hc
  · simp [parseStyle, word, h2]
  · simp [parseColor, word, h1]

theorem format_iff {t : Term} (ht : t.Ok) {i rest : List Char} {a : Item} :
    parseFormat t i = .ok rest a ↔ ∃ w p, i = w ++ rest ∧ Piece t w (.inr p) rest ∧ a = itemOf p := by
  have hpiece : piece t i = match metadataOf (i.takeWhile t.alphabetic) with
      | some m => .ok (i.dropWhile t.alphabetic) (.metadata m)
      | none => parseFormat t i := by
    cases hm : metadataOf (i.takeWhile t.alphabetic) with
    | some m => simp [piece, alt, parseMetadata, word, hm]
    | none => simp [piece, alt, parseMetadata, word, hm]
  constructor
  · intro h
    have hp : piece t i = .ok rest a := by
      cases hm : metadataOf (i.takeWhile t.alphabetic) with
      | some m => rw [format_metadata ht hm] at h; cases h
      | none => rw [hpiece, hm]; exact h
    obtain ⟨w, x, h1, h2, h3⟩ := (piece_iff ht).mp hp
    obtain ⟨⟨p, hp'⟩, -⟩ := parseFormat_item h
    cases x with
    | inl m => rw [h3] at hp'; cases p <;> cases hp'
    | inr q => exact ⟨w, q, h1, h2, h3⟩
  · rintro ⟨w, p, h1, h2, rfl⟩
    have hp := (piece_iff ht).mpr ⟨w, .inr p, h1, h2, rfl⟩
    rw [hpiece] at hp
    cases hm : metadataOf (i.takeWhile t.alphabetic) with
    | some m => rw [hm] at hp; cases p <;> cases hp
    | none => rw [hm] at hp; exact hp

theorem format_cases (t : Term) (i : List Char) : parseFormat t i = .error ∨ ∃ rest a, parseFormat t i = .ok rest a := by
  rcases hf : parseFormat t i with ⟨r, a⟩ | _ | _ | _
  · exact .inr ⟨_, _, rfl⟩
  · exact .inl rfl
  all_goals
    exfalso
    simp only [parseFormat, alt, parseColor, parseStyle, word] at hf
    cases hc : colorOf t (i.takeWhile t.alphabetic) with
    | some c => simp only [hc, Option.map_some] at hf; cases hf
    | none =>
      cases hs' : styleFromStr (i.takeWhile t.alphabetic) with
      | some c => simp only [hc, hs', Option.map_some, Option.map_none] at hf; cases hf
      | none =>
        simp only [hc, hs', Option.map_none, parseWidth] at hf
        split at hf
        · cases hf
        · split at hf <;> cases hf

/-! ## A field in a group -/

theorem good_piece (D : List Char → Prop) (t : Term) : Good D (piece t) :=
  good_alt (good_word D t _) (good_format D t)

theorem sepRun_pieces {t : Term} (ht : t.Ok) {i rest : List Char} {items : List Item} (h : SepRun (piece t) ':' i items rest) :
    (∀ w x r, Piece t w x r → rest ≠ ':' :: (w ++ r)) ∧
    ((items = [] ∧ rest = i) ∨ ∃ s xs, i = ':' :: s ∧ Reads t s xs rest ∧ items = xs.map pieceItem) := by
  induction h with
  | @stop i h =>
    refine ⟨?_, .inl ⟨rfl, rfl⟩⟩
    intro w x r hp he
    have := h _ he
    rw [(piece_iff ht).mpr ⟨w, x, rfl, hp, rfl⟩] at this
    cases this
  | step h1 _ ih =>
    refine ⟨ih.1, .inr ?_⟩
    obtain ⟨w, x, rfl, hp, rfl⟩ := (piece_iff ht).mp h1
    rcases ih.2 with ⟨rfl, rfl⟩ | ⟨s, xs, rfl, hr, rfl⟩
    · exact ⟨_, [x], rfl, .last hp, rfl⟩
    · exact ⟨_, x :: xs, rfl, .more hp hr, rfl⟩

theorem reads_sepRun {t : Term} {p : List Char → PResult Item} (ht : t.Ok)
    (hpp : ∀ i r a, piece t i = .ok r a → p i = .ok r a) {s rest : List Char} {xs : List (Metadata ⊕ Param)} (h : Reads t s xs rest)
    (hstop : SepRun p ':' rest [] rest) : SepRun p ':' (':' :: s) (xs.map pieceItem) rest := by
  induction h with
  | last hp => exact .step (hpp _ _ _ ((piece_iff ht).mpr ⟨_, _, rfl, hp, rfl⟩)) hstop
  | more hp _ ih => exact .step (hpp _ _ _ ((piece_iff ht).mpr ⟨_, _, rfl, hp, rfl⟩)) (ih hstop)

theorem pieces_iff {t : Term} (ht : t.Ok) {s rest : List Char} {items : List Item} :
    separatedList1 ':' (piece t) s = .ok rest items ↔
      ∃ xs, Reads t s xs rest ∧ (∀ w x r, Piece t w x r → rest ≠ ':' :: (w ++ r)) ∧ items = xs.map pieceItem := by
  rw [sepList_iff (D := fun _ => True) (fun _ _ _ _ => trivial) (good_piece _ t) ':' trivial]
  constructor
  · rintro ⟨r, a, xs, h1, rfl, h2⟩
    obtain ⟨w, x, rfl, hp, rfl⟩ := (piece_iff ht).mp h1
    obtain ⟨h3, h4⟩ := sepRun_pieces ht h2
    rcases h4 with ⟨rfl, rfl⟩ | ⟨s, ys, rfl, hr, rfl⟩
    · exact ⟨[x], .last hp, h3, rfl⟩
    · exact ⟨x :: ys, .more hp hr, h3, rfl⟩
  · rintro ⟨xs, h1, h2, rfl⟩
    have hstop : SepRun (piece t) ':' rest [] rest := by
      refine .stop ?_
      intro i' he
      rcases piece_cases t i' with hp | ⟨r', a, hp⟩
      · exact hp
      · obtain ⟨w, x, rfl, hpc, -⟩ := (piece_iff ht).mp hp
        exact absurd he (h2 w x r' hpc)
    cases h1 with
    | last hp => exact ⟨_, _, [], (piece_iff ht).mpr ⟨_, _, rfl, hp, rfl⟩, rfl, hstop⟩
    | more hp hr =>
      exact ⟨_, _, _, (piece_iff ht).mpr ⟨_, _, rfl, hp, rfl⟩, rfl, reads_sepRun ht (fun _ _ _ h => h) hr hstop⟩

theorem nls_iff {t : Term} (ht : t.Ok) {i rest : List Char} {a : Item} :
    parseNestedLogSegment t i = .ok rest a ↔ ∃ seg, FieldRead t i seg rest ∧ a = .nested seg := by
  have hdef : parseNestedLogSegment t i = match separatedList1 ':' (piece t) i with
    | .ok rest items => (match buildField1 items with | none => .error | some s => .ok rest (.nested s))
    | .error => .error
    | .failure => .failure
    | .crash => .crash := rfl
  rw [hdef]
  constructor
  · intro h
    cases hl : separatedList1 ':' (piece t) i with
    | ok r items =>
      rw [hl] at h
      obtain ⟨xs, h1, h2, rfl⟩ := (pieces_iff ht).mp hl
      simp only at h
      cases hb : buildField1 (xs.map pieceItem) with
      | none => rw [hb] at h; cases h
      | some s =>
        rw [hb] at h
        cases h
        obtain ⟨m, ps, h3, rfl⟩ := (buildField1_pieces xs _).mp hb
        exact ⟨_, ⟨xs, m, ps, h1, h2, h3, rfl⟩, rfl⟩
    | _ => rw [hl] at h; cases h
  · rintro ⟨seg, ⟨xs, m, ps, h1, h2, h3, rfl⟩, rfl⟩
    rw [(pieces_iff ht).mpr ⟨xs, h1, h2, rfl⟩]
    simp only
    rw [(buildField1_pieces xs _).mpr ⟨m, ps, h3, rfl⟩]

theorem nls_cases (t : Term) (i : List Char) :
    parseNestedLogSegment t i = .error ∨ ∃ rest a, parseNestedLogSegment t i = .ok rest a := by
  have hloop : ∀ fuel i acc, separatedLoop ':' (piece t) fuel i acc = .crash ∨
      ∃ rest items, separatedLoop ':' (piece t) fuel i acc = .ok rest items := by
    intro fuel
    induction fuel with
    | zero => intro i acc; exact .inl rfl
    | succ fuel ih =>
      intro i acc
      rw [separatedLoop.eq_def]
      cases i with
      | nil => exact .inr ⟨_, _, rfl⟩
      | cons c r =>
        simp only
        split
        · exact .inr ⟨_, _, rfl⟩
        · rcases piece_cases t r with hp | ⟨r', a, hp⟩
          · rw [hp]; exact .inr ⟨_, _, rfl⟩
          · rw [hp]; exact ih _ _
  have hg := good_nestedLogSegment (D := fun _ => True) (fun _ _ _ _ => trivial) t i trivial
  cases h : parseNestedLogSegment t i with
  | ok r a => exact .inr ⟨_, _, rfl⟩
  | error => exact .inl rfl
  | crash => exact absurd h hg.1
  | failure =>
    exfalso
    have hdef : parseNestedLogSegment t i = match separatedList1 ':' (piece t) i with
      | .ok rest items => (match buildField1 items with | none => .error | some s => .ok rest (.nested s))
      | .error => .error
      | .failure => .failure
      | .crash => .crash := rfl
    rw [hdef, separatedList1] at h
    rcases piece_cases t i with hp | ⟨r', a, hp⟩
    · rw [hp] at h; cases h
    · rw [hp] at h
      simp only at h
      rcases hloop (r'.length + 1) r' [a] with hl | ⟨rest, items, hl⟩
      · rw [hl] at h; cases h
      · rw [hl] at h
        simp only at h
        split at h <;> cases h

/-! ## The inside of a group -/

/-- what the text between a pair of brackets gives -/
def Gives (t : Term) (fuel : Nat) (nest : Bool) (content : List Char) (seg : Segment) : Prop :=
  ∃ r, parseLogSegment t (parseArgument t fuel) nest content = .ok r seg

/-- the parser of the parts of a group -/
def groupPart (t : Term) (fuel : Nat) (nest : Bool) : List Char → PResult Item :=
  alt (mapNested (parseArgument t (fuel + 1) nest)) (alt (mapNested parseString) (parsePercent t))

theorem groupPart_bracket (t : Term) (fuel : Nat) (nest : Bool) {content rest : List Char} (h : Inside content 0) :
    groupPart t fuel nest ('{' :: content ++ ['}'] ++ rest) =
      match parseLogSegment t (parseArgument t fuel) nest content with
      | .ok _ seg => .ok rest (.nested seg)
      | .error => .error
      | .failure => .failure
      | .crash => .crash := by
  have he : '{' :: content ++ ['}'] ++ rest = '{' :: (content ++ '}' :: rest) := by simp
  rw [he]
  simp only [groupPart, alt, mapNested, parseArgument]
  rw [take_closed h, if_neg (by simp)]
  simp only
  cases parseLogSegment t (parseArgument t fuel) nest content <;> simp [parseString, parsePercent]

theorem groupPart_unclosed (t : Term) (fuel : Nat) (nest : Bool) {s : List Char}
    (h : takeUntilUnbalanced 0 [] s = .error ∨ ∃ content, takeUntilUnbalanced 0 [] s = .ok [] content) :
    groupPart t fuel nest ('{' :: s) = .error := by
  simp only [groupPart, alt, mapNested, parseArgument]
  rw [if_neg (by simp)]
  rcases h with h | ⟨c, h⟩ <;> rw [h] <;> simp [parseString, parsePercent]

theorem groupPart_unfinished (t : Term) (fuel : Nat) (nest : Bool) {s : List Char} (h : takeUntilUnbalanced 0 [] s = .crash) :
    groupPart t fuel nest ('{' :: s) = .crash := by
  simp only [groupPart, alt, mapNested, parseArgument]
  rw [if_neg (by simp), h]

theorem groupPart_text (t : Term) (fuel : Nat) (nest : Bool) {w rest : List Char} (hne : w ≠ [])
    (hw : ∀ c ∈ w, c ≠ '{' ∧ c ≠ '%') (hr : AfterText rest) : groupPart t fuel nest (w ++ rest) = .ok rest (.nested (.text w)) := by
  have hs : ∀ c ∈ w, decide (c ≠ '{' ∧ c ≠ '%') = true := by
    intro c hc
    simpa using hw c hc
  have hr' : ∀ c, rest.head? = some c → decide (c ≠ '{' ∧ c ≠ '%') = false := by
    intro c hc
    rcases hr c hc with h | h <;> subst h <;> decide
  have ha := argument_not_brace t fuel nest (i := w ++ rest) (by
    cases w with
    | nil => exact absurd rfl hne
    | cons c w => intro hc; simp at hc; exact (hw c (by simp)).1 hc)
  unfold groupPart
  rw [alt_second (by rw [mapNested, ha]), alt_first (a := .nested (.text w)) (rest := rest)]
  simp only [mapNested, parseString]
  rw [takeWhile_app _ _ _ hs hr', dropWhile_app _ _ _ hs hr', if_neg hne]

theorem groupPart_percent (t : Term) (fuel : Nat) (nest : Bool) (s : List Char) :
    groupPart t fuel nest ('%' :: s) = match parseFormat t s with
      | .ok rest a => .ok rest a
      | .crash => .crash
      | _ => .failure := by
  unfold groupPart
  rw [alt_second (by rw [mapNested, argument_not_brace t fuel nest (by simp)]), alt_second (by simp [mapNested, parseString])]
  simp only [parsePercent, parseFormatOrFail]
  cases parseFormat t s <;> rfl

/-- the start of any text -/
theorem start_cases (i : List Char) : i = [] ∨ (∃ s, i = '{' :: s) ∨ (∃ s, i = '%' :: s) ∨
    ∃ w rest, i = w ++ rest ∧ w ≠ [] ∧ (∀ c ∈ w, c ≠ '{' ∧ c ≠ '%') ∧ AfterText rest := by
  cases i with
  | nil => exact .inl rfl
  | cons c s =>
    by_cases hc : c = '{'
    · exact .inr (.inl ⟨s, by rw [hc]⟩)
    by_cases hp : c = '%'
    · exact .inr (.inr (.inl ⟨s, by rw [hp]⟩))
    refine .inr (.inr (.inr ?_))
    let p : Char → Bool := fun c => decide (c ≠ '{' ∧ c ≠ '%')
    have hpc : p c = true := by simp [p, hc, hp]
    refine ⟨(c :: s).takeWhile p, (c :: s).dropWhile p, List.takeWhile_append_dropWhile.symm, ?_, ?_, ?_⟩
    · rw [List.takeWhile_cons_of_pos hpc]; simp
    · intro x hx
      simpa [p] using takeWhile_all p _ x hx
    · intro x hx
      have := dropWhile_head p _ x hx
      simp only [p, decide_eq_false_iff_not] at this
      by_cases hx1 : x = '{'
      · exact .inl hx1
      · exact .inr (Classical.byContradiction fun hx2 => this ⟨hx1, hx2⟩)

theorem asMeta_itemOf (p : Param) : (itemOf p).asMeta = none := by cases p <;> rfl
theorem asSeg_itemOf (p : Param) : (itemOf p).asSeg = none := by cases p <;> rfl
theorem asParam_itemOf (p : Param) : (itemOf p).asParam = some p := by cases p <;> rfl

theorem metasOf_param (p : Param) (items : List Item) : metasOf (itemOf p :: items) = metasOf items := by
  rw [metasOf, List.filterMap_cons_none (asMeta_itemOf p)]; rfl
theorem segsOf_param (p : Param) (items : List Item) : segsOf (itemOf p :: items) = segsOf items := by
  rw [segsOf, List.filterMap_cons_none (asSeg_itemOf p)]; rfl
theorem paramsOf_param (p : Param) (items : List Item) : paramsOf (itemOf p :: items) = p :: paramsOf items := by
  rw [paramsOf, List.filterMap_cons_some (asParam_itemOf p)]; rfl
theorem metasOf_nested (s : Segment) (items : List Item) : metasOf (.nested s :: items) = metasOf items := rfl
theorem segsOf_nested (s : Segment) (items : List Item) : segsOf (.nested s :: items) = s :: segsOf items := rfl
theorem paramsOf_nested (s : Segment) (items : List Item) : paramsOf (.nested s :: items) = paramsOf items := rfl

theorem many0_body {t : Term} (ht : t.Ok) (fuel : Nat) (nest : Bool) : ∀ mf i acc rest items,
    many0Loop (groupPart t fuel nest) mf i acc = .ok rest items → (rest = [] ∨ rest.head? = some '{') ∧
    ∃ xs, items = acc ++ xs ∧ metasOf xs = [] ∧ Body (Gives t fuel nest) t i (segsOf xs) (paramsOf xs) := by
  intro mf
  induction mf with
  | zero => intro i acc rest items h; cases h
  | succ mf ih =>
    intro i acc rest items h
    have hstep : ∀ r a, groupPart t fuel nest i = .ok r a → many0Loop (groupPart t fuel nest) mf r (acc ++ [a]) = .ok rest items := by
      intro r a hp
      rw [many0Loop, hp] at h
      simp only at h
      split at h
      · cases h
      · exact h
    have hend : groupPart t fuel nest i = .error → rest = i ∧ items = acc := by
      intro hp
      rw [many0Loop, hp] at h
      cases h
      exact ⟨rfl, rfl⟩
    have hno : ∀ {e}, groupPart t fuel nest i = e → e = .failure ∨ e = .crash → False := by
      intro e hp he
      rw [many0Loop, hp] at h
      rcases he with rfl | rfl <;> cases h
    rcases start_cases i with rfl | ⟨s, rfl⟩ | ⟨s, rfl⟩ | ⟨w, r, rfl, hne, hw, hr⟩
    · obtain ⟨rfl, rfl⟩ := hend rfl
      exact ⟨.inl rfl, [], by simp, rfl, .nil⟩
    · rcases take_result s [] 0 .nil with ⟨h1, -⟩ | ⟨h1, n', h2⟩ | ⟨content, r, -, h2, he⟩
      · exact (hno (groupPart_unfinished t fuel nest h1) (.inr rfl)).elim
      · obtain ⟨rfl, rfl⟩ := hend (groupPart_unclosed t fuel nest h1)
        exact ⟨.inr rfl, [], by simp, rfl, .unclosed h2⟩
      · simp only [List.nil_append] at he
        subst he
        have he : '{' :: (content ++ '}' :: r) = '{' :: content ++ ['}'] ++ r := by simp
        have hp := groupPart_bracket t fuel nest (rest := r) h2
        rw [← he] at hp
        cases hres : parseLogSegment t (parseArgument t fuel) nest content with
        | error => exact absurd hres (logSegment_not_error t fuel nest content)
        | failure => rw [hres] at hp; exact (hno hp (.inl rfl)).elim
        | crash => rw [hres] at hp; exact (hno hp (.inr rfl)).elim
        | ok r' seg =>
          rw [hres] at hp
          obtain ⟨h3, xs, rfl, h4, h5⟩ := ih _ _ _ _ (hstep _ _ hp)
          refine ⟨h3, .nested seg :: xs, by simp, h4, ?_⟩
          rw [he]
          exact .bracket h2 ⟨_, hres⟩ h5
    · have hp := groupPart_percent t fuel nest s
      rcases format_cases t s with hf | ⟨r, a, hf⟩
      · rw [hf] at hp; exact (hno hp (.inl rfl)).elim
      · rw [hf] at hp
        obtain ⟨w, p, rfl, hpc, rfl⟩ := (format_iff ht).mp hf
        obtain ⟨h3, xs, rfl, h4, h5⟩ := ih _ _ _ _ (hstep _ _ hp)
        refine ⟨h3, itemOf p :: xs, by simp, by rw [metasOf_param]; exact h4, ?_⟩
        rw [segsOf_param, paramsOf_param]
        exact .param hpc h5
    · obtain ⟨h3, xs, rfl, h4, h5⟩ := ih _ _ _ _ (hstep _ _ (groupPart_text t fuel nest hne hw hr))
      exact ⟨h3, .nested (.text w) :: xs, by simp, h4, .text hne hw hr h5⟩

theorem body_many0 {t : Term} (ht : t.Ok) (fuel : Nat) (nest : Bool) {i : List Char} {segs : List Segment} {ps : List Param}
    (h : Body (Gives t fuel nest) t i segs ps) : ∀ mf acc, i.length < mf → ∃ rest xs,
      many0Loop (groupPart t fuel nest) mf i acc = .ok rest (acc ++ xs) ∧ metasOf xs = [] ∧ segsOf xs = segs ∧ paramsOf xs = ps := by
  induction h with
  | nil =>
    intro mf acc hm
    obtain ⟨mf, rfl⟩ := Nat.exists_eq_succ_of_ne_zero (show mf ≠ 0 by omega)
    exact ⟨[], [], by rw [List.append_nil]; rfl, rfl, rfl, rfl⟩
  | @unclosed s n hi =>
    intro mf acc hm
    obtain ⟨mf, rfl⟩ := Nat.exists_eq_succ_of_ne_zero (show mf ≠ 0 by omega)
    refine ⟨'{' :: s, [], ?_, rfl, rfl, rfl⟩
    rw [many0Loop, groupPart_unclosed t fuel nest (take_unclosed hi)]
    simp only [List.append_nil]
  | @text w rest segs ps hne hw hr _ ih =>
    intro mf acc hm
    obtain ⟨mf, rfl⟩ := Nat.exists_eq_succ_of_ne_zero (show mf ≠ 0 by omega)
    have hl := List.length_pos_iff.mpr hne
    rw [List.length_append] at hm
    obtain ⟨r, xs, h1, h2, h3, h4⟩ := ih mf (acc ++ [.nested (.text w)]) (by omega)
    refine ⟨r, .nested (.text w) :: xs, ?_, h2, by rw [segsOf_nested, h3], h4⟩
    rw [many0_step hl (groupPart_text t fuel nest hne hw hr), h1]
    simp
  | @bracket content seg rest segs ps hi hg _ ih =>
    intro mf acc hm
    obtain ⟨mf, rfl⟩ := Nat.exists_eq_succ_of_ne_zero (show mf ≠ 0 by omega)
    obtain ⟨r', hg⟩ := hg
    have hlen : ('{' :: content ++ ['}'] ++ rest).length = content.length + 2 + rest.length := by simp; omega
    rw [hlen] at hm
    obtain ⟨r, xs, h1, h2, h3, h4⟩ := ih mf (acc ++ [.nested seg]) (by omega)
    refine ⟨r, .nested seg :: xs, ?_, h2, by rw [segsOf_nested, h3], h4⟩
    have hp := groupPart_bracket t fuel nest (rest := rest) hi
    rw [hg] at hp
    rw [many0_step (by simp) hp, h1]
    simp
  | @param w p rest segs ps hpc _ ih =>
    intro mf acc hm
    obtain ⟨mf, rfl⟩ := Nat.exists_eq_succ_of_ne_zero (show mf ≠ 0 by omega)
    simp only [List.length_cons, List.length_append] at hm
    obtain ⟨r, xs, h1, h2, h3, h4⟩ := ih mf (acc ++ [itemOf p]) (by omega)
    refine ⟨r, itemOf p :: xs, ?_, by rw [metasOf_param]; exact h2, by rw [segsOf_param]; exact h3,
      by rw [paramsOf_param, h4]⟩
    have hp := groupPart_percent t fuel nest (w ++ rest)
    rw [(format_iff ht).mpr ⟨w, p, rfl, hpc, rfl⟩] at hp
    have := many0_step (s := '%' :: w) (rest := rest) (by simp) hp mf acc
    rw [show '%' :: (w ++ rest) = '%' :: w ++ rest from rfl, this, h1]
    simp

theorem nested_rest {t : Term} (ht : t.Ok) {fuel : Nat} {nest : Bool} {i rest : List Char} {a : Item}
    (h : parseNested t (parseArgument t (fuel + 1) nest) i = .ok rest a) : rest = [] ∨ rest.head? = some '{' := by
  rw [parseNested] at h
  split at h
  · rename_i r items hm
    split at h
    · cases h
    · cases h
      exact (many0_body ht fuel nest _ _ _ _ _ hm).1
  all_goals cases h

theorem nested_iff {t : Term} (ht : t.Ok) (fuel : Nat) (nest : Bool) (i : List Char) (a : Item) :
    (∃ rest, parseNested t (parseArgument t (fuel + 1) nest) i = .ok rest a) ↔ ∃ segs ps, Body (Gives t fuel nest) t i segs ps ∧
      (∃ m f, Segment.field m f ∈ segs) ∧ ParamsAllowed ps ∧ a = .nested (.nested segs (formatOf ps)) := by
  have hdef : parseNested t (parseArgument t (fuel + 1) nest) i = match many0Loop (groupPart t fuel nest) (i.length + 1) i [] with
    | .ok rest items => (match buildGroup items with | none => .failure | some s => .ok rest (.nested s))
    | .error => .error
    | .failure => .failure
    | .crash => .crash := rfl
  rw [hdef]
  constructor
  · rintro ⟨rest, h⟩
    cases hm : many0Loop (groupPart t fuel nest) (i.length + 1) i [] with
    | ok r items =>
      rw [hm] at h
      obtain ⟨-, xs, he, h1, h2⟩ := many0_body ht fuel nest _ _ _ _ _ hm
      rw [List.nil_append] at he
      rw [he] at h
      simp only at h
      cases hb : buildGroup xs with
      | none => rw [hb] at h; cases h
      | some s =>
        rw [hb] at h
        cases h
        obtain ⟨h3, h4, rfl⟩ := (buildGroup_items xs h1 s).mp hb
        exact ⟨_, _, h2, h3, h4, rfl⟩
    | _ => rw [hm] at h; cases h
  · rintro ⟨segs, ps, h1, h2, h3, rfl⟩
    obtain ⟨rest, xs, h4, h5, rfl, rfl⟩ := body_many0 ht fuel nest h1 (i.length + 1) [] (by omega)
    refine ⟨rest, ?_⟩
    rw [h4]
    simp only [List.nil_append]
    rw [(buildGroup_items xs h5 _).mpr ⟨h2, h3, rfl⟩]

theorem body_congr {t : Term} {P Q : List Char → Segment → Prop} {i : List Char} {segs : List Segment} {ps : List Param}
    (h : Body P t i segs ps) (hpq : ∀ content seg, Inside content 0 → content.length + 2 ≤ i.length → P content seg → Q content seg) :
    Body Q t i segs ps := by
  induction h with
  | nil => exact .nil
  | unclosed h => exact .unclosed h
  | text h1 h2 h3 _ ih =>
    exact .text h1 h2 h3 (ih fun c s hc hl => hpq c s hc (by rw [List.length_append]; omega))
  | @bracket content seg rest segs ps h1 h2 _ ih =>
    have hlen : ('{' :: content ++ ['}'] ++ rest).length = content.length + 2 + rest.length := by simp; omega
    exact .bracket h1 (hpq _ _ h1 (by rw [hlen]; omega) h2) (ih fun c s hc hl => hpq c s hc (by rw [hlen]; omega))
  | param h1 _ ih =>
    exact .param h1 (ih fun c s hc hl => hpq c s hc (by simp only [List.length_cons, List.length_append]; omega))

/-! ## Outside groups -/

/-- the parser of a piece outside groups -/
def colonPart (t : Term) (fuel : Nat) : List Char → PResult Item :=
  alt (parseMetadata t) (alt (parseFormat t) (parseNested t (parseArgument t (fuel + 1) true)))

theorem colonPart_eq (t : Term) (fuel : Nat) (i : List Char) : colonPart t fuel i =
    match piece t i with
    | .error => parseNested t (parseArgument t (fuel + 1) true) i
    | r => r := by
  unfold colonPart piece
  simp only [alt]
  cases parseMetadata t i <;> simp
  cases parseFormat t i <;> simp

theorem colonPart_not_error (t : Term) (fuel : Nat) (i : List Char) : colonPart t fuel i ≠ .error :=
  alt_not_error (alt_not_error (nested_not_error _ _ _ _))

theorem colonPart_cases {t : Term} (ht : t.Ok) {fuel : Nat} {i r : List Char} {a : Item} :
    colonPart t fuel i = .ok r a ↔ (∃ w x, i = w ++ r ∧ Piece t w x r ∧ a = pieceItem x) ∨
      (NoPiece t i ∧ parseNested t (parseArgument t (fuel + 1) true) i = .ok r a) := by
  rw [colonPart_eq]
  rcases piece_cases t i with h | ⟨r', a', h⟩
  · have hno : NoPiece t i := by
      intro w x rest hp he
      rw [(piece_iff ht).mpr ⟨w, x, he, hp, rfl⟩] at h
      cases h
    rw [h]
    constructor
    · intro h'; exact .inr ⟨hno, h'⟩
    · rintro (⟨w, x, he, hp, -⟩ | ⟨-, h'⟩)
      · exact absurd he (hno w x r hp)
      · exact h'
  · rw [h]
    obtain ⟨w', x', he', hp', ha'⟩ := (piece_iff ht).mp h
    constructor
    · intro h'
      cases h'
      exact .inl ⟨w', x', he', hp', ha'⟩
    · rintro (h' | ⟨hno, -⟩)
      · rw [(piece_iff ht).mpr h'] at h
        rw [← h]
      · exact absurd he' (hno w' x' r' hp')

theorem good_colonPart (t : Term) (fuel : Nat) : Good (Fine (fuel + 1)) (colonPart t fuel) :=
  good_alt (good_word _ t _) (good_alt (good_format _ t) (good_nested (fine_closed _) t (good_argument t _ _)))

theorem sepRun_colon {t : Term} (ht : t.Ok) {fuel : Nat} {i rest : List Char} {items : List Item}
    (h : SepRun (colonPart t fuel) ':' i items rest) :
    (items = [] ∧ rest = i ∧ i.head? ≠ some ':') ∨
    (∃ s xs, i = ':' :: s ∧ Reads t s xs rest ∧ rest.head? ≠ some ':' ∧ items = xs.map pieceItem) ∨
    (∃ s lead g a, i = ':' :: s ∧ Leads t s lead g ∧ NoPiece t g ∧ parseNested t (parseArgument t (fuel + 1) true) g = .ok rest a ∧
      items = lead.map pieceItem ++ [a]) := by
  induction h with
  | @stop i h =>
    refine .inl ⟨rfl, rfl, ?_⟩
    intro hh
    cases i with
    | nil => cases hh
    | cons c i =>
      simp at hh
      exact colonPart_not_error t fuel i (h i (by rw [hh]))
  | @step i r a items rest h1 h2 ih =>
    rcases (colonPart_cases ht).mp h1 with ⟨w, x, rfl, hp, rfl⟩ | ⟨hno, hn⟩
    · rcases ih with ⟨rfl, rfl, h3⟩ | ⟨s, xs, rfl, h3, h4, rfl⟩ | ⟨s, lead, g, a, rfl, h3, h4, h5, rfl⟩
      · exact .inr (.inl ⟨_, [x], rfl, .last hp, h3, rfl⟩)
      · exact .inr (.inl ⟨_, x :: xs, rfl, .more hp h3, h4, rfl⟩)
      · exact .inr (.inr ⟨_, x :: lead, g, a, rfl, .cons hp h3, h4, h5, rfl⟩)
    · have hr : r.head? ≠ some ':' := by
        rcases nested_rest ht hn with rfl | h
        · simp
        · rw [h]; simp
      rcases ih with ⟨rfl, rfl, h3⟩ | ⟨s, xs, rfl, -⟩ | ⟨s, lead, g, a, rfl, -⟩
      · exact .inr (.inr ⟨i, [], i, a, rfl, .nil, hno, hn, rfl⟩)
      · exact absurd rfl hr
      · exact absurd rfl hr

theorem list_colon {t : Term} (ht : t.Ok) {fuel : Nat} {s rest : List Char} {items : List Item} (hs : Fine (fuel + 1) s) :
    separatedList1 ':' (colonPart t fuel) s = .ok rest items ↔
      (∃ xs, Reads t s xs rest ∧ rest.head? ≠ some ':' ∧ items = xs.map pieceItem) ∨
      (∃ lead g a, Leads t s lead g ∧ NoPiece t g ∧ parseNested t (parseArgument t (fuel + 1) true) g = .ok rest a ∧
        items = lead.map pieceItem ++ [a]) := by
  rw [sepList_iff (fine_closed _) (good_colonPart t fuel) ':' hs]
  have hpp : ∀ i r a, piece t i = .ok r a → colonPart t fuel i = .ok r a := by
    intro i r a h
    rw [colonPart_eq, h]
  have hstop : ∀ rest : List Char, rest.head? ≠ some ':' → SepRun (colonPart t fuel) ':' rest [] rest := by
    intro rest h
    exact .stop (by rintro i' rfl; exact absurd rfl h)
  have hlead : ∀ {s lead g a}, Leads t s lead g → NoPiece t g →
      parseNested t (parseArgument t (fuel + 1) true) g = .ok rest a → rest.head? ≠ some ':' →
      SepRun (colonPart t fuel) ':' (':' :: s) (lead.map pieceItem ++ [a]) rest := by
    intro s lead g a h hno hn hr
    induction h with
    | nil => exact .step ((colonPart_cases ht).mpr (.inr ⟨hno, hn⟩)) (hstop _ hr)
    | cons hp _ ih => exact .step (hpp _ _ _ ((piece_iff ht).mpr ⟨_, _, rfl, hp, rfl⟩)) (ih hno hn)
  constructor
  · rintro ⟨r, a, xs, h1, rfl, h2⟩
    have h3 := sepRun_colon ht (.step h1 h2)
    rcases h3 with ⟨h3, -⟩ | ⟨s', xs', he, h3, h4, h5⟩ | ⟨s', lead, g, a', he, h3, h4, h5, h6⟩
    · cases h3
    · cases he; exact .inl ⟨xs', h3, h4, h5⟩
    · cases he; exact .inr ⟨lead, g, a', h3, h4, h5, h6⟩
  · intro h
    have hrun : SepRun (colonPart t fuel) ':' (':' :: s) items rest := by
      rcases h with ⟨xs, h1, h2, rfl⟩ | ⟨lead, g, a, h1, h2, h3, rfl⟩
      · exact reads_sepRun ht hpp h1 (hstop _ h2)
      · refine hlead h1 h2 h3 ?_
        rcases nested_rest ht h3 with rfl | h
        · simp
        · rw [h]; simp
    cases hrun with
    | stop h' => exact absurd (h' s rfl) (colonPart_not_error t fuel s)
    | step h1 h2 => exact ⟨_, _, _, h1, rfl, h2⟩

theorem metasOf_pieces (xs : List (Metadata ⊕ Param)) (s : Segment) :
    metasOf (xs.map pieceItem ++ [.nested s]) = xs.filterMap Sum.getLeft? := by
  induction xs with
  | nil => rfl
  | cons x xs ih =>
    cases x with
    | inl m => exact congrArg (m :: ·) ih
    | inr p => exact (metasOf_param p _).trans ih

theorem segsOf_pieces (xs : List (Metadata ⊕ Param)) (s : Segment) : segsOf (xs.map pieceItem ++ [.nested s]) = [s] := by
  induction xs with
  | nil => rfl
  | cons x xs ih =>
    cases x with
    | inl m => exact ih
    | inr p => exact (segsOf_param p _).trans ih

theorem paramsOf_pieces (xs : List (Metadata ⊕ Param)) (s : Segment) :
    paramsOf (xs.map pieceItem ++ [.nested s]) = xs.filterMap Sum.getRight? := by
  induction xs with
  | nil => rfl
  | cons x xs ih =>
    cases x with
    | inl m => exact ih
    | inr p => exact (paramsOf_param p _).trans (congrArg (p :: ·) ih)

theorem no_left {xs : List (Metadata ⊕ Param)} (h : xs.filterMap Sum.getLeft? = []) : xs = (xs.filterMap Sum.getRight?).map .inr := by
  induction xs with
  | nil => rfl
  | cons x xs ih =>
    cases x with
    | inl m => cases h
    | inr p => exact congrArg (Sum.inr p :: ·) (ih h)

theorem left_inr (ps : List Param) : (ps.map (Sum.inr (α := Metadata))).filterMap Sum.getLeft? = [] := by
  induction ps with
  | nil => rfl
  | cons p ps ih => exact ih

theorem right_inr (ps : List Param) : (ps.map (Sum.inr (α := Metadata))).filterMap Sum.getRight? = ps := by
  induction ps with
  | nil => rfl
  | cons p ps ih => exact congrArg (p :: ·) ih

theorem gives_outside {t : Term} (ht : t.Ok) {fuel : Nat} {s : List Char} (hs : Fine (fuel + 1) s) (seg : Segment) :
    Gives t (fuel + 1) false s seg ↔
      (∃ xs rest m ps, Reads t s xs rest ∧ rest.head? ≠ some ':' ∧ FieldOf xs m ps ∧ seg = .field m (formatOf ps)) ∨
      (∃ ps g segs qs, Leads t s (ps.map .inr) g ∧ ParamsAllowed ps ∧ NoPiece t g ∧ Body (Gives t fuel true) t g segs qs ∧
        (∃ m f, Segment.field m f ∈ segs) ∧ ParamsAllowed qs ∧ seg = .nested segs (formatOf qs)) := by
  have hdef : parseLogSegment t (parseArgument t (fuel + 1)) false s = match separatedList1 ':' (colonPart t fuel) s with
      | .ok rest items => (match buildField1 items with | none => .failure | some s => .ok rest s)
      | .error => .error
      | .failure => .failure
      | .crash => .crash := rfl
  unfold Gives
  rw [hdef]
  constructor
  · rintro ⟨r, h⟩
    cases hl : separatedList1 ':' (colonPart t fuel) s with
    | ok rest items =>
      rw [hl] at h
      rcases (list_colon ht hs).mp hl with ⟨xs, h1, h2, rfl⟩ | ⟨lead, g, a, h1, h2, h3, rfl⟩
      · simp only at h
        cases hb : buildField1 (xs.map pieceItem) with
        | none => rw [hb] at h; cases h
        | some s =>
          rw [hb] at h
          cases h
          obtain ⟨m, ps, h3, rfl⟩ := (buildField1_pieces xs _).mp hb
          exact .inl ⟨xs, _, m, ps, h1, h2, h3, rfl⟩
      · simp only at h
        obtain ⟨segs, qs, h4, h5, h6, rfl⟩ := (nested_iff ht fuel true g a).mp ⟨_, h3⟩
        cases hb : buildField1 (lead.map pieceItem ++ [.nested (.nested segs (formatOf qs))]) with
        | none => rw [hb] at h; cases h
        | some s =>
          rw [hb] at h
          cases h
          obtain ⟨h7, h8, h9⟩ := (buildField1_segment _ (by rw [segsOf_pieces]; simp) _).mp hb
          rw [segsOf_pieces] at h7
          rw [metasOf_pieces] at h8
          rw [paramsOf_pieces] at h9
          rw [no_left h8] at h1
          simp only [List.cons.injEq, and_true] at h7
          exact .inr ⟨_, g, segs, qs, h1, h9, h2, h4, h5, h6, h7.symm⟩
    | _ => rw [hl] at h; cases h
  · rintro (⟨xs, rest, m, ps, h1, h2, h3, rfl⟩ | ⟨ps, g, segs, qs, h1, h2, h3, h4, h5, h6, rfl⟩)
    · refine ⟨rest, ?_⟩
      rw [(list_colon ht hs).mpr (.inl ⟨xs, h1, h2, rfl⟩)]
      simp only
      rw [(buildField1_pieces xs _).mpr ⟨m, ps, h3, rfl⟩]
    · obtain ⟨rest, hn⟩ := (nested_iff ht fuel true g _).mpr ⟨segs, qs, h4, h5, h6, rfl⟩
      refine ⟨rest, ?_⟩
      rw [(list_colon ht hs).mpr (.inr ⟨_, g, _, h1, h3, hn, rfl⟩)]
      simp only
      rw [(buildField1_segment _ (by rw [segsOf_pieces]; simp) (.nested segs (formatOf qs))).mpr
        ⟨segsOf_pieces _ _, by rw [metasOf_pieces, left_inr], by rw [paramsOf_pieces, right_inr]; exact h2⟩]

/-! ## In a group -/

/-- the parser of an item in a group -/
def percentPart (t : Term) (fuel : Nat) : List Char → PResult Item :=
  alt (parseNestedLogSegment t) (alt (parseFormat t) (parseNested t (parseArgument t (fuel + 1) false)))

theorem percentPart_not_error (t : Term) (fuel : Nat) (i : List Char) : percentPart t fuel i ≠ .error :=
  alt_not_error (alt_not_error (nested_not_error _ _ _ _))

theorem good_percentPart (t : Term) (fuel : Nat) : Good (Fine (fuel + 1)) (percentPart t fuel) :=
  good_alt (good_nestedLogSegment (fine_closed _) t)
    (good_alt (good_format _ t) (good_nested (fine_closed _) t (good_argument t _ _)))

theorem percentPart_cases {t : Term} (ht : t.Ok) {fuel : Nat} {i r : List Char} {a : Item} :
    percentPart t fuel i = .ok r a ↔ (∃ seg, FieldRead t i seg r ∧ a = .nested seg) ∨
      ((∀ seg r, ¬ FieldRead t i seg r) ∧ ∃ w p, i = w ++ r ∧ Piece t w (.inr p) r ∧ a = itemOf p) ∨
      ((∀ seg r, ¬ FieldRead t i seg r) ∧ (∀ w p rest, Piece t w (.inr p) rest → i ≠ w ++ rest) ∧
        parseNested t (parseArgument t (fuel + 1) false) i = .ok r a) := by
  unfold percentPart
  rcases nls_cases t i with h | ⟨r', a', h⟩
  · have hno : ∀ seg r, ¬ FieldRead t i seg r := by
      intro seg r hf
      rw [(nls_iff ht).mpr ⟨seg, hf, rfl⟩] at h
      cases h
    rw [alt_second h]
    rcases format_cases t i with h1 | ⟨r1, a1, h1⟩
    · have hno1 : ∀ w p rest, Piece t w (.inr p) rest → i ≠ w ++ rest := by
        intro w p rest hp he
        rw [(format_iff ht).mpr ⟨w, p, he, hp, rfl⟩] at h1
        cases h1
      rw [alt_second h1]
      constructor
      · intro h'; exact .inr (.inr ⟨hno, hno1, h'⟩)
      · rintro (⟨seg, hf, -⟩ | ⟨-, w, p, he, hp, -⟩ | ⟨-, -, h'⟩)
        · exact absurd hf (hno seg r)
        · exact absurd he (hno1 w p r hp)
        · exact h'
    · rw [alt_first h1]
      constructor
      · intro h'
        cases h'
        exact .inr (.inl ⟨hno, (format_iff ht).mp h1⟩)
      · rintro (⟨seg, hf, -⟩ | ⟨-, h'⟩ | ⟨-, hno1, -⟩)
        · exact absurd hf (hno seg r)
        · rw [(format_iff ht).mpr h'] at h1
          exact h1.symm
        · obtain ⟨w, p, he, hp, -⟩ := (format_iff ht).mp h1
          exact absurd he (hno1 w p r1 hp)
  · rw [alt_first h]
    obtain ⟨seg, hf, ha⟩ := (nls_iff ht).mp h
    constructor
    · intro h'
      cases h'
      exact .inl ⟨seg, hf, ha⟩
    · rintro (h' | ⟨hno, -⟩ | ⟨hno, -⟩)
      · rw [(nls_iff ht).mpr h'] at h
        exact h.symm
      · exact absurd hf (hno seg r')
      · exact absurd hf (hno seg r')

theorem item_step {t : Term} (ht : t.Ok) {fuel : Nat} {i r : List Char} {a : Item} {items : List Item}
    (h : percentPart t fuel i = .ok r a)
    (hr : (items = [] ∧ r.head? ≠ some '%') ∨ ∃ s, r = '%' :: s ∧ metasOf items = [] ∧
      Items (Gives t fuel false) t s (segsOf items) (paramsOf items)) :
    metasOf (a :: items) = [] ∧ Items (Gives t fuel false) t i (segsOf (a :: items)) (paramsOf (a :: items)) := by
  rcases (percentPart_cases ht).mp h with ⟨seg, hf, rfl⟩ | ⟨hno, w, p, rfl, hp, rfl⟩ | ⟨hno, hno1, hn⟩
  · rcases hr with ⟨rfl, hr⟩ | ⟨s, rfl, h1, h2⟩
    · exact ⟨rfl, .lastField hf hr⟩
    · exact ⟨h1, .field hf h2⟩
  · rw [metasOf_param, segsOf_param, paramsOf_param]
    rcases hr with ⟨rfl, hr⟩ | ⟨s, rfl, h1, h2⟩
    · exact ⟨rfl, .lastParam hno hp hr⟩
    · exact ⟨h1, .param hno hp h2⟩
  · have hr' : r.head? ≠ some '%' := by
      rcases nested_rest ht hn with rfl | h
      · simp
      · rw [h]; simp
    rcases hr with ⟨rfl, hr⟩ | ⟨s, rfl, -⟩
    · obtain ⟨segs, qs, h4, h5, h6, rfl⟩ := (nested_iff ht fuel false i a).mp ⟨_, hn⟩
      exact ⟨rfl, .group hno hno1 h4 h5 h6⟩
    · exact absurd rfl hr'

theorem sepRun_percent {t : Term} (ht : t.Ok) {fuel : Nat} {i rest : List Char} {items : List Item}
    (h : SepRun (percentPart t fuel) '%' i items rest) :
    (items = [] ∧ i.head? ≠ some '%') ∨ ∃ s, i = '%' :: s ∧ metasOf items = [] ∧
      Items (Gives t fuel false) t s (segsOf items) (paramsOf items) := by
  induction h with
  | @stop i h =>
    refine .inl ⟨rfl, ?_⟩
    intro hh
    cases i with
    | nil => cases hh
    | cons c i =>
      simp at hh
      exact percentPart_not_error t fuel i (h i (by rw [hh]))
  | step h1 _ ih =>
    obtain ⟨h3, h4⟩ := item_step ht h1 ih
    exact .inr ⟨_, rfl, h3, h4⟩

theorem items_run {t : Term} (ht : t.Ok) {fuel : Nat} {s : List Char} {segs : List Segment} {ps : List Param}
    (h : Items (Gives t fuel false) t s segs ps) : ∃ rest items, SepRun (percentPart t fuel) '%' ('%' :: s) items rest ∧
      metasOf items = [] ∧ segsOf items = segs ∧ paramsOf items = ps := by
  have hstop : ∀ rest : List Char, rest.head? ≠ some '%' → SepRun (percentPart t fuel) '%' rest [] rest := by
    intro rest h
    exact .stop (by rintro i' rfl; exact absurd rfl h)
  induction h with
  | lastField hf hr =>
    exact ⟨_, _, .step ((percentPart_cases ht).mpr (.inl ⟨_, hf, rfl⟩)) (hstop _ hr), rfl, rfl, rfl⟩
  | field hf _ ih =>
    obtain ⟨rest, items, h1, h2, rfl, rfl⟩ := ih
    exact ⟨_, _, .step ((percentPart_cases ht).mpr (.inl ⟨_, hf, rfl⟩)) h1, h2, rfl, rfl⟩
  | lastParam hno hp hr =>
    refine ⟨_, _, .step ((percentPart_cases ht).mpr (.inr (.inl ⟨hno, _, _, rfl, hp, rfl⟩))) (hstop _ hr), ?_, ?_, ?_⟩
    · rw [metasOf_param]; rfl
    · rw [segsOf_param]; rfl
    · rw [paramsOf_param]; rfl
  | param hno hp _ ih =>
    obtain ⟨rest, items, h1, h2, rfl, rfl⟩ := ih
    refine ⟨_, _, .step ((percentPart_cases ht).mpr (.inr (.inl ⟨hno, _, _, rfl, hp, rfl⟩))) h1, ?_, ?_, ?_⟩
    · rw [metasOf_param]; exact h2
    · rw [segsOf_param]
    · rw [paramsOf_param]
  | group hno hno1 hb hf ha =>
    obtain ⟨rest, hn⟩ := (nested_iff ht fuel false _ _).mpr ⟨_, _, hb, hf, ha, rfl⟩
    refine ⟨_, _, .step ((percentPart_cases ht).mpr (.inr (.inr ⟨hno, hno1, hn⟩))) (hstop _ ?_), rfl, rfl, rfl⟩
    rcases nested_rest ht hn with rfl | h
    · simp
    · rw [h]; simp

theorem gives_inside {t : Term} (ht : t.Ok) {fuel : Nat} {s : List Char} (hs : Fine (fuel + 1) s) (seg : Segment) :
    Gives t (fuel + 1) true s seg ↔ ∃ ps, Items (Gives t fuel false) t s [seg] ps ∧ ParamsAllowed ps := by
  have hdef : parseLogSegment t (parseArgument t (fuel + 1)) true s = match separatedList1 '%' (percentPart t fuel) s with
      | .ok rest items => (match buildField1 items with | none => .failure | some s => .ok rest s)
      | .error => .error
      | .failure => .failure
      | .crash => .crash := rfl
  unfold Gives
  rw [hdef]
  constructor
  · rintro ⟨r, h⟩
    cases hl : separatedList1 '%' (percentPart t fuel) s with
    | ok rest items =>
      rw [hl] at h
      obtain ⟨r', a, xs, h1, rfl, h2⟩ := (sepList_iff (fine_closed _) (good_percentPart t fuel) '%' hs).mp hl
      obtain ⟨h3, h4⟩ := item_step ht h1 (sepRun_percent ht h2)
      simp only at h
      cases hb : buildField1 (a :: xs) with
      | none => rw [hb] at h; cases h
      | some s =>
        rw [hb] at h
        cases h
        obtain ⟨h5, -, h6⟩ := (buildField1_segment _ (.inr h3) _).mp hb
        rw [h5] at h4
        exact ⟨_, h4, h6⟩
    | _ => rw [hl] at h; cases h
  · rintro ⟨ps, h1, h2⟩
    obtain ⟨rest, items, h3, h4, h5, rfl⟩ := items_run ht h1
    refine ⟨rest, ?_⟩
    have hl : separatedList1 '%' (percentPart t fuel) s = .ok rest items := by
      rw [sepList_iff (fine_closed _) (good_percentPart t fuel) '%' hs]
      cases h3 with
      | stop h' => exact absurd (h' s rfl) (percentPart_not_error t fuel s)
      | step h6 h7 => exact ⟨_, _, _, h6, rfl, h7⟩
    rw [hl]
    simp only
    rw [(buildField1_segment _ (.inr h4) _).mpr ⟨h5, h4, h2⟩]

/-! ## Any text -/

theorem reads_length {t : Term} {s rest : List Char} {xs : List (Metadata ⊕ Param)} (h : Reads t s xs rest) :
    rest.length ≤ s.length := by
  induction h with
  | last _ => rw [List.length_append]; omega
  | more _ _ ih => rw [List.length_append, List.length_cons]; omega

theorem leads_length {t : Term} {s g : List Char} {xs : List (Metadata ⊕ Param)} (h : Leads t s xs g) : g.length ≤ s.length := by
  induction h with
  | nil => omega
  | cons _ _ ih => rw [List.length_append, List.length_cons]; omega

theorem items_congr {t : Term} {P Q : List Char → Segment → Prop} {i : List Char} {segs : List Segment} {ps : List Param}
    (h : Items P t i segs ps) (hpq : ∀ content seg, Inside content 0 → content.length + 2 ≤ i.length → P content seg → Q content seg) :
    Items Q t i segs ps := by
  induction h with
  | lastField h1 h2 => exact .lastField h1 h2
  | field h1 _ ih =>
    refine .field h1 (ih fun c s hc hl => hpq c s hc ?_)
    obtain ⟨_, _, _, h, -⟩ := h1
    have := reads_length h
    rw [List.length_cons] at this
    omega
  | lastParam h1 h2 h3 => exact .lastParam h1 h2 h3
  | param h1 h2 _ ih => exact .param h1 h2 (ih fun c s hc hl => hpq c s hc (by rw [List.length_append, List.length_cons]; omega))
  | group h1 h2 h3 h4 h5 => exact .group h1 h2 (body_congr h3 hpq) h4 h5

theorem between_iff {t : Term} (ht : t.Ok) : ∀ n (s : List Char), s.length ≤ n → Inside s 0 → ∀ fuel nest seg, s.length ≤ fuel →
    (Gives t (fuel + 1) nest s seg ↔ Between t nest s seg) := by
  intro n
  induction n using Nat.strongRecOn with | ind n ih => ?_
  intro s hs hi fuel nest seg hf
  have hfine : Fine (fuel + 1) s := inside_fine hi (by omega)
  have hsub : ∀ nest content seg, Inside content 0 → content.length + 2 ≤ s.length →
      (Gives t fuel nest content seg ↔ Between t nest content seg) := by
    intro nest c seg hc hl
    obtain ⟨fuel, rfl⟩ := Nat.exists_eq_succ_of_ne_zero (show fuel ≠ 0 by omega)
    exact ih c.length (by omega) c (by omega) hc fuel nest seg (by omega)
  cases nest with
  | false =>
    rw [gives_outside ht hfine]
    constructor
    · rintro (⟨xs, rest, m, ps, h1, h2, h3, rfl⟩ | ⟨ps, g, segs, qs, h1, h2, h3, h4, h5, h6, rfl⟩)
      · exact .field h1 h2 h3
      · have := leads_length h1
        exact .group h1 h2 h3 (body_congr h4 fun c s hc hl h => (hsub true c s hc (by omega)).mp h) h5 h6
    · intro h
      cases h with
      | field h1 h2 h3 => exact .inl ⟨_, _, _, _, h1, h2, h3, rfl⟩
      | group h1 h2 h3 h4 h5 h6 =>
        have := leads_length h1
        exact .inr ⟨_, _, _, _, h1, h2, h3,
          body_congr h4 (fun c s hc hl h => (hsub true c s hc (by omega)).mpr h), h5, h6, rfl⟩
  | true =>
    rw [gives_inside ht hfine]
    constructor
    · rintro ⟨ps, h1, h2⟩
      exact .item (items_congr h1 fun c s hc hl h => (hsub false c s hc hl).mp h) h2
    · intro h
      cases h with
      | item h1 h2 => exact ⟨_, items_congr h1 (fun c s hc hl h => (hsub false c s hc hl).mpr h), h2⟩

theorem content_iff {t : Term} (ht : t.Ok) {s : List Char} (hs : Inside s 0) (seg : Segment) :
    (∃ r, contentResult t s = .ok r seg) ↔ Between t false s seg :=
  between_iff ht s.length s (by omega) hs s.length false seg (by omega)

end Defmt.LogFormat
