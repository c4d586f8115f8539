import Verif.Spec.LogField
import Verif.Lemmas.LogRefused
import Verif.Lemmas.LogParts
import Verif.Lemmas.Grammar
/-!
# Lemmas about the text between a pair of brackets
-/

namespace Defmt.LogFormat

open Parser hiding parse Written

def pieceItem : Metadata ⊕ Param → Item
  | .inl m => .metadata m
  | .inr p => itemOf p

/-- the first two parsers of a list -/
def piece (t : Term) : List Char → PResult Item := alt (parseMetadata t) (parseFormat t)

theorem metadataOf_some {w : List Char} {m : Metadata} (h : metadataOf w = some m) :
    MetadataText w m ∨ ∃ n, 256 ≤ n ∧ w = List.replicate n 'f' ∧ m = .fileName (n % 256) := by
  unfold metadataOf at h
  split at h
  · cases h; rename_i e; subst e; exact .inl .crateName
  split at h
  · cases h; rename_i e; subst e; exact .inl .filePath
  split at h
  · cases h; rename_i e; subst e; exact .inl .lineNumber
  split at h
  · cases h; rename_i e; subst e; exact .inl .log
  split at h
  · cases h; rename_i e; subst e; exact .inl .logLevel
  split at h
  · cases h; rename_i e; subst e; exact .inl .modulePath
  split at h
  · cases h; rename_i e; subst e; exact .inl .timestamp
  split at h
  · rename_i e
    cases h
    by_cases hn : w.length < 256
    · left
      have h0 : 0 < w.length := List.length_pos_iff.mpr e.1
      have := MetadataText.fileName w.length h0 hn
      rw [← e.2] at this
      rwa [Nat.mod_eq_of_lt hn]
    · exact .inr ⟨w.length, by omega, e.2, rfl⟩
  · cases h

theorem metadataOf_files {n : Nat} (h : 0 < n) : metadataOf (List.replicate n 'f') = some (.fileName (n % 256)) := by
  have hne : List.replicate n 'f' ≠ [] := by
    intro h'
    have := congrArg List.length h'
    simp at this; omega
  have key : ∀ c : Char, c ≠ 'f' → List.replicate n 'f' ≠ [c] := by
    intro c hc he
    have hmem : c ∈ List.replicate n 'f' := by rw [he]; simp
    exact hc (List.mem_replicate.mp hmem).2
  simp only [metadataOf]
  rw [if_neg (key _ (by decide)), if_neg (key _ (by decide)), if_neg (key _ (by decide)),
    if_neg (key _ (by decide)), if_neg (key _ (by decide)), if_neg (key _ (by decide)),
    if_neg (key _ (by decide)), if_pos ⟨hne, by simp⟩]
  simp

/-- what a word gives -/
def wordOf (t : Term) (w : List Char) : Option (Metadata ⊕ Param) :=
  match metadataOf w with
  | some m => some (.inl m)
  | none =>
    match colorOf t w with
    | some c => some (.inr (.color c))
    | none => (styleFromStr w).map fun s => .inr (.style s)

theorem files_not_color {t : Term} (ht : t.Ok) (n : Nat) : t.colorFromStr (List.replicate n 'f') = none := by
  rw [ht.colors _ (by intro c hc; rw [(List.mem_replicate.mp hc).2]; decide)]
  have e : (List.replicate n 'f').map Char.toLower = List.replicate n 'f' := by
    rw [List.map_replicate]; rfl
  rw [e, lookup_none]
  intro x hx he
  obtain ⟨c, hc, hne⟩ := color_not_f x hx
  rw [he] at hc
  exact hne (List.mem_replicate.mp hc).2

theorem colorOf_none {t : Term} {w : List Char} (h : colorOf t w = none) : t.colorFromStr w = none := by
  unfold colorOf at h
  split at h
  · cases h
  split at h
  · cases h
  · simpa using h

theorem wordOf_iff {t : Term} (ht : t.Ok) {w : List Char} (hw : ∀ c ∈ w, t.alphabetic c = true) {x : Metadata ⊕ Param} :
    wordOf t w = some x ↔ WordText t w x := by
  constructor
  · intro h
    unfold wordOf at h
    split at h
    · rename_i m hm
      cases h
      rcases metadataOf_some hm with h | ⟨n, hn, rfl, rfl⟩
      · exact .metadata h
      · exact .files n hn
    · split at h
      · rename_i c hc
        cases h
        unfold colorOf at hc
        split at hc
        · cases hc; rename_i e; subst e; exact .severity
        split at hc
        · cases hc; rename_i e; subst e; exact .werror
        · cases hcs : t.colorFromStr w with
          | none => simp [hcs] at hc
          | some c' =>
            simp [hcs] at hc
            subst hc
            exact .color hw hcs
      · unfold styleFromStr at h
        repeat' split at h
        all_goals first | (cases h; done) | (cases h; rename_i e; subst e; first | exact .bold | exact .italic | exact .underline | exact .strike | exact .dimmed)
  · intro h
    have hcol : ∀ w : List Char, (∀ c ∈ w, c.toNat < 128) → colorNames.lookup (w.map Char.toLower) = none → t.colorFromStr w = none := by
      intro w h1 h2
      rw [ht.colors _ h1, h2]
    unfold wordOf
    cases h with
    | metadata h => rw [(metadata_words h).2]
    | files n hn => rw [metadataOf_files (by omega)]
    | severity => rfl
    | werror => rfl
    | @color _ c h1 h2 =>
      have hm : metadataOf w = none := by
        cases hm : metadataOf w with
        | none => rfl
        | some m =>
          exfalso
          rcases metadataOf_some hm with h | ⟨n, hn, rfl, rfl⟩
          · have := colorOf_none (metadata_not_format ht h).1
            rw [h2] at this; cases this
          · rw [files_not_color ht] at h2; cases h2
      have h3 : colorOf t w = some (.color c) := by
        unfold colorOf
        rw [if_neg, if_neg, h2]
        · rfl
        · rintro rfl
          rw [hcol _ (by decide) (by decide)] at h2; cases h2
        · rintro rfl
          rw [hcol _ (by decide) (by decide)] at h2; cases h2
      simp only [hm, h3]
    | bold => simp only [show metadataOf c!"bold" = none from by decide, colorOf, hcol c!"bold" (by decide) (by decide)]; rfl
    | italic => simp only [show metadataOf c!"italic" = none from by decide, colorOf, hcol c!"italic" (by decide) (by decide)]; rfl
    | underline => simp only [show metadataOf c!"underline" = none from by decide, colorOf, hcol c!"underline" (by decide) (by decide)]; rfl
    | strike => simp only [show metadataOf c!"strike" = none from by decide, colorOf, hcol c!"strike" (by decide) (by decide)]; rfl
    | dimmed => simp only [show metadataOf c!"dimmed" = none from by decide, colorOf, hcol c!"dimmed" (by decide) (by decide)]; rfl

/-- the parser in terms of the word at the start -/
theorem piece_eq (t : Term) (i : List Char) :
    piece t i = match wordOf t (i.takeWhile t.alphabetic) with
      | some x => .ok (i.dropWhile t.alphabetic) (pieceItem x)
      | none => parseWidth i := by
  cases hm : metadataOf (i.takeWhile t.alphabetic) with
  | some m => simp [piece, alt, parseMetadata, word, wordOf, hm, pieceItem]
  | none =>
    cases hc : colorOf t (i.takeWhile t.alphabetic) with
    | some c => simp [piece, alt, parseMetadata, parseFormat, parseColor, word, wordOf, hm, hc, pieceItem, itemOf]
    | none =>
      cases hs : styleFromStr (i.takeWhile t.alphabetic) <;>
        simp [piece, alt, parseMetadata, parseFormat, parseColor, parseStyle, word, wordOf, hm, hc, hs, pieceItem, itemOf]

theorem takeWhile_all {α : Type} (p : α → Bool) (l : List α) : ∀ x ∈ l.takeWhile p, p x = true := by
  intro x hx
  exact List.all_eq_true.mp List.all_takeWhile x hx

theorem dropWhile_head {α : Type} (p : α → Bool) (l : List α) : ∀ x, (l.dropWhile p).head? = some x → p x = false := by
  induction l with
  | nil => intro x hx; cases hx
  | cons a l ih =>
    intro x hx
    rw [List.dropWhile] at hx
    split at hx
    · exact ih x hx
    · simp at hx; subst hx; simpa using ‹_›

theorem wordText_alphabetic {t : Term} (ht : t.Ok) {w : List Char} {x : Metadata ⊕ Param} (h : WordText t w x) :
    ∀ c ∈ w, t.alphabetic c = true := by
  cases h with
  | metadata h => exact letters_alphabetic ht (metadata_words h).1
  | files n hn =>
    intro c hc
    rw [(List.mem_replicate.mp hc).2, ht.alphabetic _ (by decide)]; decide
  | color h _ => exact h
  | _ => exact letters_alphabetic ht (by decide)

theorem optAlignment_split (i : List Char) : i = alignmentText (optAlignment i).2 ++ (optAlignment i).1 := by
  cases i with
  | nil => rfl
  | cons c r =>
    simp only [optAlignment]
    split
    · rename_i e; subst e; rfl
    split
    · rename_i e; subst e; rfl
    split
    · rename_i e; subst e; rfl
    · rfl

theorem wordOf_nil {t : Term} (ht : t.Ok) : wordOf t [] = none := by
  cases h : wordOf t [] with
  | none => rfl
  | some x =>
    exfalso
    have := (wordOf_iff ht (w := []) (by simp)).mp h
    generalize hw : ([] : List Char) = w at this
    cases this with
    | metadata hmt =>
      obtain ⟨c, r, hcr, -⟩ := metadata_head hmt
      rw [← hw] at hcr; cases hcr
    | files n hn => have := congrArg List.length hw; simp at this; omega
    | color h1 h2 =>
      subst hw
      rw [ht.colors _ (by simp), show colorNames.lookup (([] : List Char).map Char.toLower) = none from by decide] at h2
      cases h2
    | _ => cases hw

/-- the parser reads exactly a piece -/
theorem piece_iff {t : Term} (ht : t.Ok) {i rest : List Char} {a : Item} :
    piece t i = .ok rest a ↔ ∃ w x, i = w ++ rest ∧ Piece t w x rest ∧ a = pieceItem x := by
  constructor
  · intro h
    rw [piece_eq] at h
    split at h
    · rename_i x hx
      cases h
      refine ⟨_, x, (List.takeWhile_append_dropWhile).symm, .word ((wordOf_iff ht (takeWhile_all _ _)).mp hx) (dropWhile_head _ _), rfl⟩
    · simp only [parseWidth] at h
      split at h
      · cases h
      · split at h
        · cases h
        · rename_i n hn
          cases h
          refine ⟨alignmentText (optAlignment i).2 ++ (optAlignment i).1.takeWhile isDigit, _, ?_,
            .number _ ((parseDigits_iff (takeWhile_all _ _)).mp hn) (dropWhile_head _ _), rfl⟩
          rw [List.append_assoc, List.takeWhile_append_dropWhile]
          exact optAlignment_split i
  · rintro ⟨w, x, rfl, h, rfl⟩
    cases h with
    | word h hr =>
      have ha := wordText_alphabetic ht h
      rw [piece_eq, takeWhile_app _ _ _ ha hr, dropWhile_app _ _ _ ha hr, (wordOf_iff ht ha).mpr h]
    | @number a ds n _ hn hr =>
      have hd := hn.digits
      have hn' := (parseDigits_iff hd).mpr hn
      have hne : ds ≠ [] := by
        rintro rfl
        simp [parseDigits] at hn'
      rw [piece_eq, takeWhile_none (width_head ht a hne hd rest), wordOf_nil ht]
      simp only [parseWidth, optAlignment_text a hne hd]
      rw [takeWhile_app _ _ _ hd hr, dropWhile_app _ _ _ hd hr, if_neg hne, hn']
      rfl

theorem piece_cases (t : Term) (i : List Char) : piece t i = .error ∨ ∃ rest a, piece t i = .ok rest a := by
  rw [piece_eq]
  split
  · exact .inr ⟨_, _, rfl⟩
  · simp only [parseWidth]
    split
    · exact .inl rfl
    · split
      · exact .inl rfl
      · exact .inr ⟨_, _, rfl⟩

theorem pieceItem_inj {x y : Metadata ⊕ Param} (h : pieceItem x = pieceItem y) : x = y := by
  rcases x with x | x <;> rcases y with y | y <;> try cases x <;> try cases y
  all_goals first | (cases h; rfl) | (cases y <;> cases h <;> rfl) | (cases x <;> cases y <;> cases h <;> rfl) | (cases h)

theorem pieceItems_inj {xs ys : List (Metadata ⊕ Param)} (h : xs.map pieceItem = ys.map pieceItem) : xs = ys := by
  induction xs generalizing ys with
  | nil => cases ys with
    | nil => rfl
    | cons y ys => cases h
  | cons x xs ih => cases ys with
    | nil => cases h
    | cons y ys =>
      simp only [List.map_cons, List.cons.injEq] at h
      rw [pieceItem_inj h.1, ih h.2]

/-! ## Lists of pieces -/

theorem reads_run {t : Term} (ht : t.Ok) {p : List Char → PResult Item}
    (hp : ∀ i rest a, piece t i = .ok rest a → p i = .ok rest a) {s rest : List Char} {xs : List (Metadata ⊕ Param)}
    (h : Reads t s xs rest) : ∀ fuel acc, s.length + 1 < fuel → ∃ fuel', rest.length < fuel' ∧
      separatedLoop ':' p fuel (':' :: s) acc = separatedLoop ':' p fuel' rest (acc ++ xs.map pieceItem) := by
  induction h with
  | @last w x rest h =>
    intro fuel acc hf
    obtain ⟨fuel, rfl⟩ := Nat.exists_eq_succ_of_ne_zero (show fuel ≠ 0 by omega)
    refine ⟨fuel, by simp at hf; omega, ?_⟩
    rw [separatedLoop]
    simp only [ne_eq, not_true_eq_false, if_false, hp _ _ _ ((piece_iff ht).mpr ⟨w, x, rfl, h, rfl⟩)]
    rfl
  | @more w x s xs rest h _ ih =>
    intro fuel acc hf
    obtain ⟨fuel, rfl⟩ := Nat.exists_eq_succ_of_ne_zero (show fuel ≠ 0 by omega)
    obtain ⟨f', h1, h2⟩ := ih fuel (acc ++ [pieceItem x]) (by simp at hf; omega)
    refine ⟨f', h1, ?_⟩
    rw [separatedLoop]
    simp only [ne_eq, not_true_eq_false, if_false, hp _ _ _ ((piece_iff ht).mpr ⟨w, x, rfl, h, rfl⟩), h2]
    simp

theorem reads_list {t : Term} (ht : t.Ok) {p : List Char → PResult Item}
    (hp : ∀ i rest a, piece t i = .ok rest a → p i = .ok rest a) {s rest : List Char} {xs : List (Metadata ⊕ Param)}
    (h : Reads t s xs rest) : ∃ fuel', rest.length < fuel' ∧
      separatedList1 ':' p s = separatedLoop ':' p fuel' rest (xs.map pieceItem) := by
  cases h with
  | @last w x rest h =>
    exact ⟨rest.length + 1, by omega, by
      simp only [separatedList1, hp _ _ _ ((piece_iff ht).mpr ⟨w, x, rfl, h, rfl⟩)]; rfl⟩
  | @more w x s xs rest h h' =>
    obtain ⟨f', h1, h2⟩ := reads_run ht hp h' (s.length + 2) [pieceItem x] (by omega)
    refine ⟨f', h1, ?_⟩
    simp only [separatedList1, hp _ _ _ ((piece_iff ht).mpr ⟨w, x, rfl, h, rfl⟩)]
    simpa using h2

theorem reads_inv {t : Term} (ht : t.Ok) {p : List Char → PResult Item}
    (hp : ∀ i rest a, p i = .ok rest a → Simple i → piece t i = .ok rest a) : ∀ fuel s acc rest items, Simple s →
    separatedLoop ':' p fuel s acc = .ok rest items →
    (∀ s', rest = ':' :: s' → p s' = .error) ∧
    ((rest = s ∧ items = acc) ∨ ∃ s' xs, s = ':' :: s' ∧ Reads t s' xs rest ∧ items = acc ++ xs.map pieceItem) := by
  intro fuel
  induction fuel with
  | zero => intro s acc rest items _ h; cases h
  | succ fuel ih =>
    intro s acc rest items hs h
    cases s with
    | nil => cases h; exact ⟨(by intro s' h; cases h), .inl ⟨rfl, rfl⟩⟩
    | cons c s =>
      rw [separatedLoop] at h
      by_cases hc : c = ':'
      · subst hc
        have hs' : Simple s := fun c hc => hs c (List.mem_cons_of_mem _ hc)
        simp only [ne_eq, not_true_eq_false, if_false] at h
        cases hx : p s with
        | error =>
          simp only [hx] at h
          cases h
          exact ⟨by intro s' h; cases h; exact hx, .inl ⟨rfl, rfl⟩⟩
        | failure => simp only [hx] at h; cases h
        | crash => simp only [hx] at h; cases h
        | ok r a =>
          simp only [hx] at h
          obtain ⟨w, x, rfl, hpc, rfl⟩ := (piece_iff ht).mp (hp _ _ _ hx hs')
          have hr : Simple r := fun c hc => hs' c (List.mem_append.mpr (.inr hc))
          obtain ⟨h1, h2⟩ := ih r _ rest items hr h
          refine ⟨h1, .inr ?_⟩
          rcases h2 with ⟨rfl, rfl⟩ | ⟨s', xs, rfl, h2, rfl⟩
          · exact ⟨_, [x], rfl, .last hpc, rfl⟩
          · exact ⟨_, x :: xs, rfl, .more hpc h2, by simp⟩
      · rw [if_pos hc] at h
        cases h
        exact ⟨by intro s' h; cases h; exact absurd rfl hc, .inl ⟨rfl, rfl⟩⟩

theorem reads_list_inv {t : Term} (ht : t.Ok) {p : List Char → PResult Item}
    (hp : ∀ i rest a, p i = .ok rest a → Simple i → piece t i = .ok rest a) {s rest : List Char} {items : List Item}
    (hs : Simple s) (h : separatedList1 ':' p s = .ok rest items) :
    (∀ s', rest = ':' :: s' → p s' = .error) ∧ ∃ xs, Reads t s xs rest ∧ items = xs.map pieceItem := by
  rw [separatedList1] at h
  cases hx : p s with
  | error => simp only [hx] at h; cases h
  | failure => simp only [hx] at h; cases h
  | crash => simp only [hx] at h; cases h
  | ok r a =>
    simp only [hx] at h
    obtain ⟨w, x, rfl, hpc, rfl⟩ := (piece_iff ht).mp (hp _ _ _ hx hs)
    have hr : Simple r := fun c hc => hs c (List.mem_append.mpr (.inr hc))
    obtain ⟨h1, h2⟩ := reads_inv ht hp _ r _ rest items hr h
    refine ⟨h1, ?_⟩
    rcases h2 with ⟨rfl, rfl⟩ | ⟨s', xs, rfl, h2, rfl⟩
    · exact ⟨[x], .last hpc, rfl⟩
    · exact ⟨x :: xs, .more hpc h2, by simp⟩

/-! ## Specifier and parameters -/

theorem addAll_pieces (xs : List (Metadata ⊕ Param)) : ∀ (b : Builder),
    b.addAll (xs.map pieceItem) =
      if (b.metadata.toList ++ xs.filterMap Sum.getLeft?).length ≤ 1 then
        (({ b with metadata := (b.metadata.toList ++ xs.filterMap Sum.getLeft?).head? } : Builder).addAll
          ((xs.filterMap Sum.getRight?).map itemOf))
      else none := by
  have comm : ∀ (ps : List Param) (b : Builder) (m : Option Metadata),
      (({ b with metadata := m } : Builder).addAll (ps.map itemOf)) =
        (b.addAll (ps.map itemOf)).map fun b => { b with metadata := m } := by
    intro ps
    induction ps with
    | nil => intro b m; rfl
    | cons p ps ih =>
      intro b m
      cases p with
      | color c =>
        simp only [List.map_cons, itemOf, Builder.addAll, Builder.add]
        split
        · rename_i h1; split at h1 <;> simp_all
        · rename_i h1; split at h1
          · cases h1; simp_all [← ih]
          · cases h1
      | style c =>
        simp only [List.map_cons, itemOf, Builder.addAll, Builder.add]
        split
        · rename_i h1; split at h1 <;> simp_all
        · rename_i h1; split at h1
          · cases h1
          · cases h1; simp_all [← ih]
      | width w p a =>
        simp only [List.map_cons, itemOf, Builder.addAll, Builder.add]
        split
        · rename_i h1; split at h1 <;> simp_all
        · rename_i h1; split at h1
          · cases h1; simp_all [← ih]
          · cases h1
  induction xs with
  | nil =>
    intro b
    obtain ⟨m, c, s, w, n⟩ := b
    cases m <;> simp [Builder.addAll]
  | cons x xs ih =>
    intro b
    cases x with
    | inl m =>
      simp only [List.map_cons, pieceItem, Builder.addAll, Builder.add]
      cases hm : b.metadata with
      | none =>
        have e1 : (Sum.inl m :: xs : List (Metadata ⊕ Param)).filterMap Sum.getLeft? = m :: xs.filterMap Sum.getLeft? := rfl
        have e2 : (Sum.inl m :: xs : List (Metadata ⊕ Param)).filterMap Sum.getRight? = xs.filterMap Sum.getRight? := rfl
        rw [e1, e2]
        simp only [ih, Option.isNone_none, if_true, Option.toList_some, Option.toList_none, List.nil_append, List.cons_append]
        rfl
      | some m' => simp [Sum.getLeft?]
    | inr p =>
      simp only [List.map_cons, pieceItem, Builder.addAll]
      have hmeta : ∀ b', b.add (itemOf p) = some b' → b'.metadata = b.metadata := by
        intro b' h
        cases p with
        | color c => simp only [itemOf, Builder.add] at h; split at h <;> cases h; rfl
        | style c => simp only [itemOf, Builder.add] at h; split at h <;> cases h; rfl
        | width w p a => simp only [itemOf, Builder.add] at h; split at h <;> cases h; rfl
      have hcons := comm (p :: xs.filterMap Sum.getRight?) b (b.metadata.toList ++ xs.filterMap Sum.getLeft?).head?
      have e1 : (Sum.inr p :: xs : List (Metadata ⊕ Param)).filterMap Sum.getLeft? = xs.filterMap Sum.getLeft? := rfl
      have e2 : (Sum.inr p :: xs : List (Metadata ⊕ Param)).filterMap Sum.getRight? = p :: xs.filterMap Sum.getRight? := rfl
      rw [e1, e2, hcons]
      simp only [List.map_cons, Builder.addAll]
      cases hb : b.add (itemOf p) with
      | none => simp
      | some b' =>
        have h1 := ih b'
        have h2 := comm (xs.filterMap Sum.getRight?) b' (b.metadata.toList ++ xs.filterMap Sum.getLeft?).head?
        rw [hmeta b' hb, h2] at h1
        exact h1

theorem buildField1_pieces (xs : List (Metadata ⊕ Param)) (seg : Segment) :
    buildField1 (xs.map pieceItem) = some seg ↔ ∃ m ps, FieldOf xs m ps ∧ seg = .field m (formatOf ps) := by
  have key := addAll_pieces xs {}
  have key1 : (xs.filterMap Sum.getLeft?).length ≤ 1 → ({} : Builder).addAll (xs.map pieceItem) =
      (({ metadata := (xs.filterMap Sum.getLeft?).head? } : Builder).addAll ((xs.filterMap Sum.getRight?).map itemOf)) := by
    intro h
    exact key.trans (if_pos h)
  have key2 : ¬ (xs.filterMap Sum.getLeft?).length ≤ 1 → ({} : Builder).addAll (xs.map pieceItem) = none := by
    intro h
    exact key.trans (if_neg h)
  match hm : xs.filterMap Sum.getLeft? with
  | [] =>
    rw [hm] at key1
    have key := key1 (by simp)
    constructor
    · intro h
      exfalso
      rw [buildField1, key] at h
      simp only [List.head?_nil] at h
      by_cases ha : ParamsAllowed (xs.filterMap Sum.getRight?)
      · rw [addAll_params _ _ (by simpa using ha.1) (by simpa using ha.2.1) (by simpa using ha.2.2)] at h
        simp [withParams] at h
      · rw [addAll_refused _ _ (by simpa [ParamsAllowed] using ha) (by simp)] at h
        simp at h
    · rintro ⟨m, ps, ⟨h, -⟩, -⟩
      rw [hm] at h; cases h
  | [m] =>
    rw [hm] at key1
    have key := key1 (by simp)
    simp only [List.head?_cons] at key
    have e : ({} : Builder).addAll (xs.map pieceItem) =
        ({} : Builder).addAll (.metadata m :: (xs.filterMap Sum.getRight?).map itemOf) := by
      rw [key]; rfl
    have e' : buildField1 (xs.map pieceItem) = buildField1 (.metadata m :: (xs.filterMap Sum.getRight?).map itemOf) := by
      simp only [buildField1, e]
    rw [e']
    by_cases ha : ParamsAllowed (xs.filterMap Sum.getRight?)
    · rw [buildField1_params ha]
      constructor
      · intro h; cases h; exact ⟨m, _, ⟨hm, rfl, ha⟩, rfl⟩
      · rintro ⟨m', ps, ⟨h, rfl, -⟩, rfl⟩
        rw [hm] at h; cases h; rfl
    · rw [buildField1_refused ha]
      constructor
      · intro h; cases h
      · rintro ⟨m', ps, ⟨h, rfl, h'⟩, rfl⟩
        exact absurd h' ha
  | m :: m' :: ms =>
    rw [hm] at key2
    have key := key2 (by simp)
    constructor
    · intro h
      rw [buildField1, key] at h
      cases h
    · rintro ⟨m, ps, ⟨h, -⟩, -⟩
      rw [hm] at h; cases h

/-! ## A pair of brackets on its own -/

theorem simple_inside {s : List Char} (h : Simple s) : Inside s 0 := by
  have key : ∀ n (s : List Char), s.length = n → Simple s → Inside s 0 := by
    intro n
    induction n with
    | zero => intro s hs _; rw [List.eq_nil_of_length_eq_zero hs]; exact .nil
    | succ n ih =>
      intro s hs h
      have hne : s ≠ [] := by rintro rfl; cases hs
      rw [← List.dropLast_concat_getLast hne]
      obtain ⟨h1, h2, -, h3⟩ := h _ (List.getLast_mem hne)
      exact .plain (ih _ (by simp [hs]) fun c hc => h c ((List.dropLast_sublist s).subset hc)) h3 h1 h2
  exact key _ s rfl h

/-- a text without brackets is not a group -/
theorem nested_simple (t : Term) (fuel : Nat) (nest : Bool) {s : List Char} (h : Simple s) :
    parseNested t (parseArgument t (fuel + 1) nest) s = .failure := by
  cases s with
  | nil => rfl
  | cons c s => exact nested_plain ⟨by simp, fun x hx => ⟨(h x hx).1, (h x hx).2.1, (h x hx).2.2.1, fun _ => (h x hx).2.2.2⟩⟩

/-- the parser of a piece outside groups -/
def pieceTop (t : Term) (fuel : Nat) : List Char → PResult Item :=
  alt (parseMetadata t) (alt (parseFormat t) (parseNested t (parseArgument t (fuel + 1) true)))

theorem pieceTop_eq (t : Term) (fuel : Nat) {s : List Char} (h : Simple s) :
    pieceTop t fuel s = match piece t s with | .error => .failure | r => r := by
  have hn := nested_simple t fuel true h
  unfold pieceTop piece
  simp only [alt, hn]
  cases parseMetadata t s <;> simp
  cases parseFormat t s <;> simp

theorem pieceTop_ok (t : Term) (fuel : Nat) (i rest : List Char) (a : Item) (h : piece t i = .ok rest a) :
    pieceTop t fuel i = .ok rest a := by
  unfold pieceTop
  unfold piece at h
  simp only [alt] at h ⊢
  cases hm : parseMetadata t i <;> simp_all

theorem content_simple {t : Term} (ht : t.Ok) {s : List Char} (hs : Simple s) (seg : Segment) :
    (∃ r, contentResult t s = .ok r seg) ↔ ∃ xs rest m ps, Reads t s xs rest ∧ rest.head? ≠ some ':' ∧ FieldOf xs m ps ∧
      seg = .field m (formatOf ps) := by
  have hdef : contentResult t s = match separatedList1 ':' (pieceTop t s.length) s with
      | .ok rest items => (match buildField1 items with | none => .failure | some s => .ok rest s)
      | .error => .error
      | .failure => .failure
      | .crash => .crash := rfl
  have hinv : ∀ i rest a, pieceTop t s.length i = .ok rest a → Simple i → piece t i = .ok rest a := by
    intro i rest a h hi
    rw [pieceTop_eq t _ hi] at h
    rcases piece_cases t i with he | ⟨r, b, he⟩ <;> rw [he] at h <;> simp at h
    rw [he, h.1, h.2]
  constructor
  · rintro ⟨r, h⟩
    rw [hdef] at h
    cases hl : separatedList1 ':' (pieceTop t s.length) s with
    | error => rw [hl] at h; cases h
    | failure => rw [hl] at h; cases h
    | crash => rw [hl] at h; cases h
    | ok rest items =>
      rw [hl] at h
      obtain ⟨h1, xs, h2, rfl⟩ := reads_list_inv ht hinv hs hl
      simp only at h
      split at h
      · cases h
      · rename_i seg' hb
        cases h
        obtain ⟨m, ps, hf, rfl⟩ := (buildField1_pieces xs _).mp hb
        refine ⟨xs, r, m, ps, h2, ?_, hf, rfl⟩
        intro hh
        cases r with
        | nil => cases hh
        | cons c r =>
          simp at hh
          subst hh
          have := h1 r rfl
          have hr : Simple r := by
            intro c hc
            have hsub : ∀ {s xs rest}, Reads t s xs rest → ∀ c ∈ rest, c ∈ s := by
              intro s xs rest h
              induction h with
              | last _ => intro c hc; exact List.mem_append.mpr (.inr hc)
              | more _ _ ih => intro c hc; exact List.mem_append.mpr (.inr (List.mem_cons_of_mem _ (ih c hc)))
            exact hs c (hsub h2 c (List.mem_cons_of_mem _ hc))
          rw [pieceTop_eq t _ hr] at this
          split at this
          · cases this
          · rename_i hne; exact hne this
  · rintro ⟨xs, rest, m, ps, h1, h2, h3, rfl⟩
    obtain ⟨f', hf, he⟩ := reads_list ht (pieceTop_ok t s.length) h1
    obtain ⟨f', rfl⟩ := Nat.exists_eq_succ_of_ne_zero (show f' ≠ 0 by omega)
    have hstop : separatedLoop ':' (pieceTop t s.length) (f' + 1) rest (xs.map pieceItem) = .ok rest (xs.map pieceItem) := by
      rw [separatedLoop.eq_def]
      cases rest with
      | nil => rfl
      | cons c r =>
        simp only
        rw [if_pos (by rintro rfl; exact h2 rfl)]
    refine ⟨rest, ?_⟩
    rw [hdef, he, hstop]
    simp only
    rw [(buildField1_pieces xs _).mpr ⟨m, ps, h3, rfl⟩]

/-! ## A pair of brackets in a group -/

theorem reads_mem {t : Term} {s rest : List Char} {xs : List (Metadata ⊕ Param)} (h : Reads t s xs rest) : ∀ c ∈ rest, c ∈ s := by
  induction h with
  | last _ => intro c hc; exact List.mem_append.mpr (.inr hc)
  | more _ _ ih => intro c hc; exact List.mem_append.mpr (.inr (List.mem_cons_of_mem _ (ih c hc)))

/-- a list of pieces is read as far as possible -/
theorem pieces_ok {t : Term} (ht : t.Ok) {s : List Char} (hs : Simple s) {rest : List Char} {items : List Item} :
    separatedList1 ':' (piece t) s = .ok rest items ↔
      ∃ xs, Reads t s xs rest ∧ (∀ w x r, Piece t w x r → rest ≠ ':' :: (w ++ r)) ∧ items = xs.map pieceItem := by
  constructor
  · intro h
    obtain ⟨h1, xs, h2, rfl⟩ := reads_list_inv ht (fun _ _ _ h _ => h) hs h
    refine ⟨xs, h2, ?_, rfl⟩
    intro w x r hp he
    have := h1 _ he
    rw [(piece_iff ht).mpr ⟨w, x, rfl, hp, rfl⟩] at this
    cases this
  · rintro ⟨xs, h1, h2, rfl⟩
    obtain ⟨f', hf, he⟩ := reads_list ht (p := piece t) (fun _ _ _ h => h) h1
    obtain ⟨f', rfl⟩ := Nat.exists_eq_succ_of_ne_zero (show f' ≠ 0 by omega)
    rw [he, separatedLoop.eq_def]
    cases rest with
    | nil => rfl
    | cons c r =>
      simp only
      by_cases hc : c = ':'
      · subst hc
        rw [if_neg (by simp)]
        rcases piece_cases t r with hp | ⟨r', a, hp⟩
        · rw [hp]
        · obtain ⟨w, x, rfl, hpc, rfl⟩ := (piece_iff ht).mp hp
          exact absurd rfl (h2 w x r' hpc)
      · rw [if_pos hc]

/-- the parser of an item in a group -/
def pieceGroup (t : Term) (fuel : Nat) : List Char → PResult Item :=
  alt (parseNestedLogSegment t) (alt (parseFormat t) (parseNested t (parseArgument t (fuel + 1) false)))

theorem parseFormat_item {t : Term} {i rest : List Char} {a : Item} (h : parseFormat t i = .ok rest a) :
    (∃ p, a = itemOf p) ∧ ∀ c ∈ rest, c ∈ i := by
  have drop : ∀ (p : Char → Bool) (l : List Char), ∀ c ∈ l.dropWhile p, c ∈ l :=
    fun p l c hc => (List.dropWhile_sublist p).subset hc
  simp only [parseFormat, alt, parseColor, parseStyle, word] at h
  cases hc : colorOf t (i.takeWhile t.alphabetic) with
  | some c => simp only [hc, Option.map_some] at h; cases h; exact ⟨⟨.color c, rfl⟩, drop _ _⟩
  | none =>
    cases hs : styleFromStr (i.takeWhile t.alphabetic) with
    | some c => simp only [hc, hs, Option.map_some, Option.map_none] at h; cases h; exact ⟨⟨.style c, rfl⟩, drop _ _⟩
    | none =>
      simp only [hc, hs, Option.map_none, parseWidth] at h
      split at h
      · cases h
      · split at h
        · cases h
        · cases h
          refine ⟨⟨.width _ _ _, rfl⟩, ?_⟩
          intro c hc
          have := drop _ _ c hc
          rw [optAlignment_split i]
          exact List.mem_append.mpr (.inr this)

theorem separatedLoop_stop {p : List Char → PResult Item} {sep : Char} {rest : List Char} (h : sep ∉ rest) (fuel : Nat) (acc : List Item) :
    separatedLoop sep p (fuel + 1) rest acc = .ok rest acc := by
  rw [separatedLoop.eq_def]
  cases rest with
  | nil => rfl
  | cons c r =>
    simp only
    rw [if_pos (by rintro rfl; exact h (by simp))]

theorem group_simple {t : Term} (ht : t.Ok) (fuel : Nat) {s : List Char} (hs : Simple s) :
    (∃ r seg, parseLogSegment t (parseArgument t (fuel + 1)) true s = .ok r seg ∧
      ∃ xs rest m ps, Reads t s xs rest ∧ (∀ w x r, Piece t w x r → rest ≠ ':' :: (w ++ r)) ∧ FieldOf xs m ps ∧
        seg = .field m (formatOf ps)) ∨
    (parseLogSegment t (parseArgument t (fuel + 1)) true s = .failure ∧
      ¬ ∃ xs rest m ps, Reads t s xs rest ∧ (∀ w x r, Piece t w x r → rest ≠ ':' :: (w ++ r)) ∧ FieldOf xs m ps) := by
  have hdef : parseLogSegment t (parseArgument t (fuel + 1)) true s = match separatedList1 '%' (pieceGroup t fuel) s with
      | .ok rest items => (match buildField1 items with | none => .failure | some s => .ok rest s)
      | .error => .error
      | .failure => .failure
      | .crash => .crash := rfl
  have hnp : '%' ∉ s := fun h => (hs _ h).2.2.1 rfl
  by_cases hx : ∃ xs rest m ps, Reads t s xs rest ∧ (∀ w x r, Piece t w x r → rest ≠ ':' :: (w ++ r)) ∧ FieldOf xs m ps
  · left
    obtain ⟨xs, rest, m, ps, h1, h2, h3⟩ := hx
    refine ⟨rest, .field m (formatOf ps), ?_, xs, rest, m, ps, h1, h2, h3, rfl⟩
    have hl := (pieces_ok ht hs).mpr ⟨xs, h1, h2, rfl⟩
    have hseg : parseNestedLogSegment t s = .ok rest (.nested (.field m (formatOf ps))) := by
      unfold parseNestedLogSegment
      rw [show separatedList1 ':' (alt (parseMetadata t) (parseFormat t)) s = _ from hl]
      simp only
      rw [(buildField1_pieces xs _).mpr ⟨m, ps, h3, rfl⟩]
    have hg : pieceGroup t fuel s = .ok rest (.nested (.field m (formatOf ps))) := alt_first hseg
    rw [hdef, separatedList1, hg]
    simp only
    rw [separatedLoop_stop (fun h => hnp (reads_mem h1 _ h))]
    rfl
  · right
    refine ⟨?_, hx⟩
    have hseg : parseNestedLogSegment t s = .error := by
      unfold parseNestedLogSegment
      have hcases : separatedList1 ':' (piece t) s = .error ∨ ∃ rest items, separatedList1 ':' (piece t) s = .ok rest items := by
        have hloop : ∀ fuel i acc, i.length < fuel → ∃ rest items, separatedLoop ':' (piece t) fuel i acc = .ok rest items := by
          intro fuel
          induction fuel with
          | zero => intro i acc h; omega
          | succ fuel ih =>
            intro i acc h
            rw [separatedLoop.eq_def]
            cases i with
            | nil => exact ⟨_, _, rfl⟩
            | cons c r =>
              simp only
              split
              · exact ⟨_, _, rfl⟩
              · rcases piece_cases t r with hp | ⟨r', a, hp⟩
                · rw [hp]; exact ⟨_, _, rfl⟩
                · rw [hp]
                  obtain ⟨w, x, rfl, -, -⟩ := (piece_iff ht).mp hp
                  exact ih _ _ (by simp at h; omega)
        rw [separatedList1]
        rcases piece_cases t s with hp | ⟨r', a, hp⟩
        · rw [hp]; exact .inl rfl
        · rw [hp]; exact .inr (hloop _ _ _ (by omega))
      rcases hcases with h | ⟨rest, items, h⟩
      · rw [show separatedList1 ':' (alt (parseMetadata t) (parseFormat t)) s = _ from h]
      · rw [show separatedList1 ':' (alt (parseMetadata t) (parseFormat t)) s = _ from h]
        obtain ⟨xs, h1, h2, rfl⟩ := (pieces_ok ht hs).mp h
        simp only
        cases hb : buildField1 (xs.map pieceItem) with
        | none => rfl
        | some seg =>
          obtain ⟨m, ps, h3, -⟩ := (buildField1_pieces xs _).mp hb
          exact absurd ⟨xs, rest, m, ps, h1, h2, h3⟩ hx
    have hgdef : pieceGroup t fuel s = alt (parseFormat t) (parseNested t (parseArgument t (fuel + 1) false)) s := alt_second hseg
    rw [hdef, separatedList1, hgdef, alt]
    have hn := nested_simple t fuel false hs
    have hpf : parseFormat t s = .error ∨ ∃ rest a, parseFormat t s = .ok rest a := by
      rcases hf : parseFormat t s with ⟨r, a⟩ | _ | _ | _
      · exact .inr ⟨_, _, rfl⟩
      · exact .inl rfl
      all_goals
        exfalso
        simp only [parseFormat, alt, parseColor, parseStyle, word] at hf
        cases hc : colorOf t (s.takeWhile t.alphabetic) with
        | some c => simp only [hc, Option.map_some] at hf; cases hf
        | none =>
          cases hs' : styleFromStr (s.takeWhile t.alphabetic) with
          | some c => simp only [hc, hs', Option.map_some, Option.map_none] at hf; cases hf
          | none =>
            simp only [hc, hs', Option.map_none, parseWidth] at hf
            split at hf
            · cases hf
            · split at hf <;> cases hf
    rcases hpf with hf | ⟨rest, a, hf⟩
    · rw [hf]; simp only [hn]
    · obtain ⟨⟨p, rfl⟩, hmem⟩ := parseFormat_item hf
      rw [hf]
      simp only
      rw [separatedLoop_stop (fun h => hnp (hmem _ h))]
      simp only
      have := (buildField1_pieces [.inr p])
      cases hb : buildField1 [itemOf p] with
      | none => rfl
      | some seg =>
        obtain ⟨m, ps, h3, -⟩ := (buildField1_pieces [.inr p] seg).mp hb
        have := h3.1
        cases this

theorem reads_unique {t : Term} (ht : t.Ok) {s rest rest' : List Char} {xs xs' : List (Metadata ⊕ Param)} (hs : Simple s)
    (h : Reads t s xs rest) (hm : ∀ w x r, Piece t w x r → rest ≠ ':' :: (w ++ r))
    (h' : Reads t s xs' rest') (hm' : ∀ w x r, Piece t w x r → rest' ≠ ':' :: (w ++ r)) : xs = xs' ∧ rest = rest' := by
  have h1 := (pieces_ok ht hs).mpr ⟨xs, h, hm, rfl⟩
  have h2 := (pieces_ok ht hs).mpr ⟨xs', h', hm', rfl⟩
  rw [h1] at h2
  simp only [PResult.ok.injEq] at h2
  exact ⟨pieceItems_inj h2.2, h2.1⟩

theorem inside_append {a b : List Char} {n m : Nat} (ha : Inside a n) (hb : Inside b m) : Inside (a ++ b) (n + m) := by
  induction hb with
  | nil => simpa using ha
  | plain _ h1 h2 h3 ih => rw [← List.append_assoc]; exact .plain ih h1 h2 h3
  | escape c _ ih => rw [← List.append_assoc]; exact .escape c ih
  | opened _ ih => rw [← List.append_assoc]; exact .opened ih
  | closed _ ih => rw [← List.append_assoc]; exact .closed ih

theorem inside_group {s : List Char} (hs : Simple s) : Inside (c!"-{" ++ s ++ c!"}") 0 := by
  have h1 : Inside c!"-{" 1 := .opened (s := c!"-") (.plain (s := []) .nil (by decide) (by decide) (by decide))
  have h2 := inside_append h1 (simple_inside hs)
  exact .closed (n := 0) h2

/-- the text `-` and a pair of brackets in a group -/
theorem content_group {t : Term} (ht : t.Ok) {s : List Char} (hs : Simple s) :
    contentResult t (c!"-{" ++ s ++ c!"}") =
      match parseLogSegment t (parseArgument t (s.length + 3)) true s with
      | .ok _ seg => if seg.isSpecifier then .ok [] (.nested [.text c!"-", seg] {}) else .failure
      | .error => .failure
      | .failure => .failure
      | .crash => .crash := by
  have hc : c!"-{" ++ s ++ c!"}" = c!"-" ++ ('{' :: s ++ ['}'] ++ []) := by simp
  have hhead : ∀ c, (c!"-" ++ ('{' :: s ++ ['}'] ++ [])).head? = some c → t.alphabetic c = false := by
    intro c hc
    simp at hc
    subst hc
    rw [ht.alphabetic _ (by decide)]; decide
  have hw : parseWidth (c!"-" ++ ('{' :: s ++ ['}'] ++ [])) = .error := by
    apply parseWidth_error
    intro a d rest he
    cases a with
    | none => simp [alignmentText] at he; rw [← he.1]; decide
    | some a => cases a <;> simp [alignmentText] at he
  have hlen : (c!"-{" ++ s ++ c!"}").length = s.length + 3 := by simp
  have hlen2 : (c!"-" ++ ('{' :: s ++ ['}'] ++ [])).length = (s.length + 1) + 1 + 1 := by simp
  unfold contentResult
  rw [hlen, hc]
  rw [parseLogSegment]
  simp only [Bool.false_eq_true, if_false]
  rw [separatedList1, alt_second (metadata_none hhead), alt_second (by rw [format_not_word ht hhead, hw])]
  have harg : ∀ rest, parseArgument t (s.length + 3 + 1) true ('{' :: s ++ ['}'] ++ rest) =
      match parseLogSegment t (parseArgument t (s.length + 3)) true s with
      | .ok _ seg => .ok rest seg
      | .error => .error
      | .failure => .failure
      | .crash => .crash := by
    intro rest
    have he : '{' :: s ++ ['}'] ++ rest = '{' :: (s ++ '}' :: rest) := by simp
    rw [he, parseArgument]
    simp only [ne_eq, not_true_eq_false, if_false, take_closed (simple_inside hs)]
    cases parseLogSegment t (parseArgument t (s.length + 3)) true s <;> rfl
  have hp := groupParser t (s.length + 3) true
  have htext := hp.text c!"-" ('{' :: s ++ ['}'] ++ []) ⟨by simp, by decide⟩ (by intro c hc; simp at hc; exact .inl hc.symm)
  have hstep := fun mf => many0_step (by simp) htext mf []
  have harg' := harg []
  have hnil : (alt (mapNested (parseArgument t (s.length + 3 + 1) true)) (alt (mapNested parseString) (parsePercent t))) [] = .error := rfl
  cases hres : parseLogSegment t (parseArgument t (s.length + 3)) true s with
  | ok r seg =>
    rw [hres] at harg'
    have h2 := hp.segment _ _ _ harg'
    have hstep2 := fun mf acc => many0_step (rest := []) (by simp) h2 mf acc
    have hmany : many0 (alt (mapNested (parseArgument t (s.length + 3 + 1) true)) (alt (mapNested parseString) (parsePercent t)))
        (c!"-" ++ ('{' :: s ++ ['}'] ++ [])) = .ok [] [.nested (.text c!"-"), .nested seg] := by
      rw [many0, hstep]
      rw [hlen2]
      rw [hstep2, many0Loop, hnil]
      rfl
    simp only [parseNested, hmany]
    cases seg <;> rfl
  | error =>
    rw [hres] at harg'
    have h2 : (alt (mapNested (parseArgument t (s.length + 3 + 1) true)) (alt (mapNested parseString) (parsePercent t))) ('{' :: s ++ ['}'] ++ []) = .error := by
      rw [alt_second (by rw [mapNested, harg']), alt_second (by simp [mapNested, parseString])]
      rfl
    have hmany : many0 (alt (mapNested (parseArgument t (s.length + 3 + 1) true)) (alt (mapNested parseString) (parsePercent t)))
        (c!"-" ++ ('{' :: s ++ ['}'] ++ [])) = .ok ('{' :: s ++ ['}'] ++ []) [.nested (.text c!"-")] := by
      rw [many0, hstep]
      rw [hlen2]
      rw [many0Loop, h2]
      rfl
    simp only [parseNested, hmany]
    rfl
  | failure =>
    rw [hres] at harg'
    have h2 : (alt (mapNested (parseArgument t (s.length + 3 + 1) true)) (alt (mapNested parseString) (parsePercent t))) ('{' :: s ++ ['}'] ++ []) = .failure := by
      rw [alt, mapNested, harg']
    have hmany : many0 (alt (mapNested (parseArgument t (s.length + 3 + 1) true)) (alt (mapNested parseString) (parsePercent t)))
        (c!"-" ++ ('{' :: s ++ ['}'] ++ [])) = .failure := by
      rw [many0, hstep]
      rw [hlen2]
      rw [many0Loop, h2]
    simp only [parseNested, hmany]
  | crash =>
    rw [hres] at harg'
    have h2 : (alt (mapNested (parseArgument t (s.length + 3 + 1) true)) (alt (mapNested parseString) (parsePercent t))) ('{' :: s ++ ['}'] ++ []) = .crash := by
      rw [alt, mapNested, harg']
    have hmany : many0 (alt (mapNested (parseArgument t (s.length + 3 + 1) true)) (alt (mapNested parseString) (parsePercent t)))
        (c!"-" ++ ('{' :: s ++ ['}'] ++ [])) = .crash := by
      rw [many0, hstep]
      rw [hlen2]
      rw [many0Loop, h2]
    simp only [parseNested, hmany]

end Defmt.LogFormat
