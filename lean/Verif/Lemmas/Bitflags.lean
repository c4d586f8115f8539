import Verif.Lemmas.Elf
import Verif.Lemmas.Parser
import Verif.Lemmas.RoundTrip
/-! Lemmas about the statics of `bitflags!` in the table. -/

namespace Defmt.Elf

open Parser Symbol Bitflags

theorem demangle_of_isSkipped {name : List Char} (h : isSkipped name = true) : demangle name = none := by
  have key : ∀ c rest, name = c :: rest → c = '$' ∨ c = '_' → demangle name = none := by
    intro c rest hn hc
    subst hn
    unfold demangle Json.read
    rcases hc with rfl | rfl <;> rw [Json.readValue] <;> rfl
  unfold isSkipped at h
  simp only [Bool.or_eq_true, decide_eq_true_eq, hasPrefix_iff] at h
  rcases h with (h | h | ⟨r, h⟩) | ⟨r, h⟩ | ⟨r, h⟩
  · subst h; rfl
  · exact key _ _ h (by simp)
  · exact key _ _ h (by simp)
  · exact key _ _ h (by simp)
  · exact key _ _ h (by simp)

/-- What `symbolItem` does with a JSON name in the section. -/
theorem symbolItem_parts {data : Option (List UInt8)} {s : ElfSymbol} {h : HostSymbol} (hp : HasParts s h) :
    ∃ n, s.name = some n ∧ symbolItem data s = (match h.knownTag with
        | some .timestamp => .ok (.timestamp ⟨⟨.timestamp, h.data⟩, n⟩)
        | some .bitflagsValue => flagItem data s h
        | some tag => .ok (.entry s.address ⟨⟨tag, h.data⟩, n⟩)
        | none => .ok .skip) := by
  obtain ⟨h1, n, h2, h3⟩ := hp
  refine ⟨n, h2, ?_⟩
  have hs : isSkipped n = false := by
    cases hx : isSkipped n with
    | false => rfl
    | true => rw [demangle_of_isSkipped hx] at h3; cases h3
  unfold symbolItem
  rw [h2]
  simp only
  rw [hs, h1, h3]
  rfl

theorem stamp_iff {data : Option (List UInt8)} (s : ElfSymbol) :
    IsTimestampSymbol s ↔ ((okItem (symbolItem data s)).bind Item.stamp?).isSome = true := by
  constructor
  · rintro ⟨h, hp, ht⟩
    obtain ⟨n, -, hi⟩ := symbolItem_parts (data := data) hp
    rw [(knownTag_tagName .timestamp h).mpr ht] at hi
    rw [hi]; rfl
  · intro h
    cases hi : symbolItem data s with
    | err e => rw [hi] at h; cases h
    | panic => rw [hi] at h; cases h
    | ok i =>
      rw [hi] at h
      cases i with
      | timestamp e =>
        obtain ⟨h, h1, h2, h3, h4, -⟩ := symbolItem_stamp hi
        exact ⟨h, ⟨h2, _, h1, h3⟩, (knownTag_tagName .timestamp h).mp h4⟩
      | skip => cases h
      | flag _ _ _ _ => cases h
      | entry _ _ => cases h

theorem stamps_eq {data : Option (List UInt8)} (l : List ElfSymbol) :
    (itemsOf data l).filterMap Item.stamp? = l.filterMap (fun s => (okItem (symbolItem data s)).bind Item.stamp?) := by
  unfold itemsOf
  rw [List.filterMap_filterMap]

/-! ### Values of flags -/

theorem splitColons_none {s : List Char} (h : ':' ∉ s) : splitColons s = [s] := by
  induction s with
  | nil => rfl
  | cons c s ih =>
    cases s with
    | nil => rfl
    | cons d s =>
      simp only [List.mem_cons, not_or] at h
      unfold splitColons
      rw [if_neg (by rintro ⟨hc, -⟩; exact h.1 hc.symm), ih (by simp [h.2.1, h.2.2])]

theorem splitColons_append {s : List Char} (h : ':' ∉ s) (rest : List Char) :
    splitColons (s ++ c!"::" ++ rest) = s :: splitColons rest := by
  induction s with
  | nil => simp only [List.nil_append, List.cons_append]; rw [splitColons]; simp
  | cons c s ih =>
    simp only [List.mem_cons, not_or] at h
    have := ih h.2
    cases hs : s with
    | nil =>
      rw [hs] at this
      simp only [List.nil_append, List.cons_append] at this ⊢
      rw [splitColons, if_neg (by rintro ⟨hc, -⟩; exact h.1 hc.symm), this]
    | cons d s' =>
      rw [hs] at this
      simp only [List.cons_append] at this ⊢
      rw [splitColons, if_neg (by rintro ⟨hc, -⟩; exact h.1 hc.symm), this]

/-- Splitting and joining. -/
theorem splitColons_join (s : List Char) {a : List Char} {b : List Char} {l : List (List Char)}
    (h : splitColons s = a :: b :: l) : ∃ rest, s = a ++ c!"::" ++ rest := by
  induction s using splitColons.induct generalizing a with
  | case1 => simp [splitColons] at h
  | case2 c => simp [splitColons] at h
  | case3 c c' rest hc ih =>
    rw [splitColons, if_pos hc] at h
    simp only [List.cons.injEq] at h
    refine ⟨rest, ?_⟩
    rw [← h.1, hc.1, hc.2]; rfl
  | case4 c c' rest hc hnil ih =>
    rw [splitColons, if_neg hc, hnil] at h
    simp at h
  | case5 c c' rest hc piece pieces hp ih =>
    rw [splitColons, if_neg hc, hp] at h
    simp only [List.cons.injEq] at h
    obtain ⟨rest', hr⟩ := ih (by rw [hp, h.2])
    refine ⟨rest', ?_⟩
    rw [← h.1, hr]; rfl

theorem isDigit_colon : isDigit ':' = false := by decide

theorem digits_no_colon (n : Nat) : ':' ∉ Display.digits 10 n := by
  intro h
  have := digits_plain n ':' h
  rw [isDigit_colon] at this; cases this

theorem parseU128_digits {n : Nat} (h : n < 2 ^ 128) : parseU128 (Display.digits 10 n) = some n := by
  have hd : ∀ c ∈ Display.digits 10 n, isDigit c = true := digits_plain n
  have hplus : stripPrefix c!"+" (Display.digits 10 n) = none := by
    cases hs : stripPrefix c!"+" (Display.digits 10 n) with
    | none => rfl
    | some r =>
      have := stripPrefix_iff.mp hs
      have h2 := hd '+' (by rw [this]; simp)
      exact absurd h2 (by decide)
  unfold parseU128
  rw [hplus]
  simp only
  unfold parseU128Digits
  rw [if_pos (by rw [List.all_eq_true]; exact hd)]
  exact parseDigits_decimal h

/-- The key of a definition. -/
def keyOf (d : Definition) : BitflagsKey := ⟨d.name, d.package, Display.digits 10 d.disambiguator, some d.crateName⟩

theorem name_no_colon {s : List Char} (h : IsName s) : ':' ∉ s := fun hc => (h _ hc).2.2.2 rfl

theorem symbolItem_flag {d : Definition} (hd : d.Ok) {data : List UInt8} {s : ElfSymbol} {i value : Nat} {name : List Char}
    (hi : i < 2 ^ 128) (hn : IsName name) (hm : MadeBy (d.flagSymbol i name) s) (hv : HoldsValue data s value) :
    symbolItem (some data) s = .ok (.flag (keyOf d) name i value) := by
  obtain ⟨v1, v2, v3, v4, v5⟩ := hv
  have hp : HasParts s ⟨d.package, Display.digits 10 d.disambiguator, c!"defmt_bitflags_value",
      d.name ++ c!"::" ++ Display.digits 10 i ++ c!"::" ++ name, some d.crateName⟩ :=
    ⟨hm.2, _, hm.1, demangle_mangle _⟩
  obtain ⟨n, -, h⟩ := symbolItem_parts (data := some data) hp
  rw [(knownTag_tagName .bitflagsValue _).mpr rfl] at h
  rw [h]
  simp only
  unfold flagItem
  rw [if_neg (by simpa using v1)]
  simp only
  rw [if_neg (by omega)]
  unfold getValue
  rw [if_pos v2, v5, Encoder.leNat_le, Nat.mod_eq_of_lt v4]
  simp only
  have hsplit : splitColons (d.name ++ c!"::" ++ Display.digits 10 i ++ c!"::" ++ name) = [d.name, Display.digits 10 i, name] := by
    have h1 := splitColons_append (name_no_colon hd.name) (Display.digits 10 i ++ c!"::" ++ name)
    rw [splitColons_append (digits_no_colon i), splitColons_none (name_no_colon hn)] at h1
    simpa using h1
  rw [hsplit]
  simp only
  rw [parseU128_digits hi]
  rfl

/-- Where a flag comes from. -/
theorem isFlagOf_of_item {d : Definition} {data : Option (List UInt8)} {s : ElfSymbol} {n : List Char} {i v : Nat}
    (h : symbolItem data s = .ok (.flag (keyOf d) n i v)) : IsFlagOf d s := by
  unfold symbolItem at h
  cases hn : s.name with
  | none => rw [hn] at h; cases h
  | some name =>
    rw [hn] at h
    simp only at h
    split at h
    · cases h
    split at h
    · cases h
    rename_i hin
    cases hm : demangle name with
    | none => rw [hm] at h; cases h
    | some hs =>
      rw [hm] at h
      simp only at h
      have hin' : s.inDefmt = true := by simpa using hin
      cases ht : hs.knownTag with
      | none => rw [ht] at h; cases h
      | some tag =>
        rw [ht] at h
        cases tag with
        | bitflagsValue =>
          simp only at h
          have htag := (knownTag_tagName .bitflagsValue hs).mp ht
          refine ⟨hs, ⟨hin', name, hn, hm⟩, htag, ?_⟩
          unfold flagItem at h
          split at h
          · cases h
          split at h
          · cases h
          split at h
          · cases h
          split at h
          · cases h
          split at h
          · rename_i heq
            split at h
            · cases h
            · simp only [Outcome.ok.injEq, Item.flag.injEq, keyOf, BitflagsKey.mk.injEq] at h
              obtain ⟨⟨k1, k2, k3, k4⟩, -⟩ := h
              obtain ⟨rest, hr⟩ := splitColons_join _ heq
              exact ⟨k2, k4, k3, rest, by rw [hr, k1]⟩
          · cases h
        | _ => cases h

theorem flagsOf_others {d : Definition} {data : Option (List UInt8)} {l : List ElfSymbol} (h : ∀ s ∈ l, ¬ IsFlagOf d s) :
    (itemsOf data l).filterMap (Item.flag? (keyOf d)) = [] := by
  rw [List.filterMap_eq_nil_iff]
  intro i hi
  obtain ⟨s, hs, hsi⟩ := mem_itemsOf hi
  cases i with
  | flag k n ix v =>
    simp only [Item.flag?]
    split
    · rename_i hk
      subst hk
      exact absurd (isFlagOf_of_item hsi) (h s hs)
    · rfl
  | _ => rfl

theorem enabledFlags_bound (i : Nat) (l : List Flag) : ∀ x ∈ enabledFlags i l, i ≤ x.1 ∧ x.1 < i + l.length ∧ x.2 ∈ l := by
  induction l generalizing i with
  | nil => intro x hx; cases hx
  | cons f l ih =>
    intro x hx
    unfold enabledFlags at hx
    have hrec : x ∈ enabledFlags (i + 1) l → i ≤ x.1 ∧ x.1 < i + (f :: l).length ∧ x.2 ∈ f :: l := by
      intro hx
      obtain ⟨h1, h2, h3⟩ := ih (i + 1) x hx
      exact ⟨by omega, by simp only [List.length_cons]; omega, List.mem_cons_of_mem _ h3⟩
    split at hx
    · rcases List.mem_cons.mp hx with rfl | hx
      · exact ⟨Nat.le_refl _, by simp, by simp⟩
      · exact hrec hx
    · exact hrec hx

theorem enabledFlags_increasing (i : Nat) (l : List Flag) : (enabledFlags i l).Pairwise (fun a b => a.1 < b.1) := by
  induction l generalizing i with
  | nil => exact List.Pairwise.nil
  | cons f l ih =>
    unfold enabledFlags
    split
    · refine List.Pairwise.cons ?_ (ih (i + 1))
      intro x hx
      have := (enabledFlags_bound (i + 1) l x hx).1
      show i < x.1
      omega
    · exact ih (i + 1)

theorem flagsOf_statics {d : Definition} (hd : d.Ok) {data : List UInt8} {static : Nat → ElfSymbol} (l : List (Nat × Flag))
    (hl : ∀ x ∈ l, x.1 < 2 ^ 128 ∧ IsName x.2.name ∧ MadeBy (d.flagSymbol x.1 x.2.name) (static x.1) ∧
      HoldsValue data (static x.1) x.2.value) :
    (itemsOf (some data) (l.map (fun x => static x.1))).filterMap (Item.flag? (keyOf d)) =
      l.map (fun x => (x.2.name, x.1, x.2.value)) := by
  induction l with
  | nil => rfl
  | cons x l ih =>
    obtain ⟨h1, h2, h3, h4⟩ := hl x (by simp)
    have := symbolItem_flag hd h1 h2 h3 h4
    have ih := ih (fun y hy => hl y (List.mem_cons_of_mem _ hy))
    simp only [itemsOf, List.map_cons] at ih ⊢
    rw [List.filterMap_cons, this]
    show List.filterMap (Item.flag? (keyOf d)) (_ :: _) = _
    rw [List.filterMap_cons, ih]
    simp only [Item.flag?, if_true]

theorem sortFlags_sorted {l : List (List Char × Nat × Nat)} (h : l.Pairwise (fun a b => a.2.1 < b.2.1)) :
    sortFlags l = l.map (fun v => (v.1, v.2.2)) := by
  unfold sortFlags
  rw [List.mergeSort_of_pairwise]
  exact h.imp (fun hab => by simp only [decide_eq_true_eq]; omega)

end Defmt.Elf
