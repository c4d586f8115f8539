import Verif.Lemmas.Bitflags
import Verif.Props.Parser
import Verif.Props.Display
import Verif.Props.RoundTrip
/-!
# Properties C40–C42, C62, C63: symbols and the table

`MadeBy`, `HasParts`, `NoTwo`, `ExactlyOne`, `DistinctAddresses`, ... are in `Verif.Spec.Elf`.
-/

namespace Defmt

open Parser Symbol Elf Bitflags

/-! ### C40 -/

/-- **C40** The decoder reads from the name of a symbol the parts the macro put in. -/
theorem C40_round_trip (s : MacroSymbol) :
    demangle s.mangle = some { package := s.package, disambiguator := decimal s.disambiguator, tag := s.tag, data := s.data,
                               crateName := some s.crateName } :=
  demangle_mangle s

example : (MacroSymbol.new c!"p" c!"c" 42 c!"info" c!"say \"{=str}\"\n@\\").mangle =
    c!"{\"package\":\"p\",\"tag\":\"defmt_info\",\"data\":\"say \\\"{=str}\\\"\\n\\u0040\\\\\",\"disambiguator\":\"42\",\"crate_name\":\"c\"}" := by
  decide +kernel

/-- **C40** Symbols with different parts have different names: no two messages share a symbol. -/
theorem C40_injective (s s' : MacroSymbol) (h : s.mangle = s'.mangle) : s = s' := by
  have h1 := C40_round_trip s
  rw [h, C40_round_trip s'] at h1
  simp only [Option.some.injEq, HostSymbol.mk.injEq] at h1
  obtain ⟨p, d, t, x, c⟩ := h1
  have hd : s'.disambiguator = s.disambiguator := by
    have a := parseDigits_decimal (n := s'.disambiguator) (m := s'.disambiguator + s.disambiguator + 1) (by omega)
    have b := parseDigits_decimal (n := s.disambiguator) (m := s'.disambiguator + s.disambiguator + 1) (by omega)
    rw [d, b] at a
    simpa using a.symm
  cases s; cases s'; simp_all

/-- **C40** The name contains no `@` (which ELF uses for symbol versions) and no control characters. -/
theorem C40_no_special_characters (s : MacroSymbol) : ∀ c ∈ s.mangle, c ≠ '@' ∧ ¬ c.toNat < 0x20 ∧ ¬ (0x7f ≤ c.toNat ∧ c.toNat ≤ 0x9f) := by
  have key : ∀ c ∈ s.mangle, Harmless c := by
    have lit : ∀ l : List Char, (l.all (fun c => c ≠ '@' && !isControl c)) = true → ∀ c ∈ l, Harmless c := by
      intro l hl c hc
      have := List.all_eq_true.mp hl c hc
      simp only [ne_eq, decide_not, Bool.and_eq_true, Bool.not_eq_true', decide_eq_false_iff_not] at this
      exact this
    have dig : ∀ c ∈ Display.digits 10 s.disambiguator, Harmless c := by
      intro c hc
      have := isDigit_plain (digits_plain _ c hc)
      exact ⟨this.2.2.2.1, this.2.2.2.2⟩
    intro c hc
    unfold MacroSymbol.mangle at hc
    rw [List.mem_append, List.mem_append, List.mem_append, List.mem_append, List.mem_append, List.mem_append, List.mem_append,
      List.mem_append, List.mem_append, List.mem_append] at hc
    rcases hc with (((((((((hc | hc) | hc) | hc) | hc) | hc) | hc) | hc) | hc) | hc) | hc
    · exact lit _ (by decide) c hc
    · exact jsonEscape_harmless _ c hc
    · exact lit _ (by decide) c hc
    · exact jsonEscape_harmless _ c hc
    · exact lit _ (by decide) c hc
    · exact jsonEscape_harmless _ c hc
    · exact lit _ (by decide) c hc
    · exact dig c hc
    · exact lit _ (by decide) c hc
    · exact jsonEscape_harmless _ c hc
    · exact lit _ (by decide) c hc
  intro c hc
  obtain ⟨h1, h2⟩ := key c hc
  refine ⟨h1, ?_⟩
  unfold isControl at h2
  simp only [Bool.or_eq_false_iff, decide_eq_false_iff_not, Bool.and_eq_false_iff] at h2
  exact ⟨h2.1, by omega⟩

/-! ### C41 -/

/-- **C41** The table does not depend on the order of the symbols, if messages have different addresses and the flags
of a bitflags type have different numbers. -/
theorem C41_order (f g : ElfFile) (check : Bool) (hp : f.symbols.Perm g.symbols) (hs : f.defmtSection = g.defmtSection)
    (ha : DistinctAddresses f) (hi : DistinctIndices f) (t : FullTable) (h : parseImpl f check = .ok (some t)) :
    parseImpl g check = .ok (some t) := by
  rw [parseImpl_some] at h ⊢
  obtain ⟨data, v, e, enc, h1, h2, h3, h4, h5, h6, h7, rfl⟩ := h
  have hit : (itemsOf data f.symbols).Perm (itemsOf data g.symbols) := itemsOf_perm hp
  have hst := hit.filterMap Item.stamp?
  refine ⟨data, v, e, enc, by rw [← hs, h1], ?_, ?_, h4, h5, fun s hs => h6 s (hp.symm.subset hs), ?_, ?_⟩
  · have := hp.filterMap (fun s => s.name.bind tryGetVersion)
    unfold versionsOf at h2 ⊢
    rw [h2] at this
    exact List.perm_singleton.mp this.symm
  · have := hp.filterMap (fun s => s.name.bind tryGetEncoding)
    unfold encodingsOf at h3 ⊢
    rw [h3] at this
    exact List.perm_singleton.mp this.symm
  · rw [← hst.length_eq]; exact h7
  · unfold tableOf
    congr 1
    · cases hl : (itemsOf data f.symbols).filterMap Item.stamp? with
      | nil => rw [hl] at hst; rw [List.nil_perm.mp hst]
      | cons a l =>
        have : l = [] := by rw [hl] at h7; simp only [List.length_cons] at h7; exact List.length_eq_zero_iff.mp (by omega)
        subst this
        rw [hl] at hst
        rw [List.perm_singleton.mp hst.symm]
    · funext a
      apply getLast_of_all_eq (hit.filterMap (Item.entry? a))
      have src : ∀ x ∈ (itemsOf data f.symbols).filterMap (Item.entry? a), ∃ s ∈ f.symbols, symbolItem data s = .ok (.entry a x) := by
        intro x hx
        obtain ⟨i, him, hix⟩ := List.mem_filterMap.mp hx
        obtain ⟨s, hsm, hsi⟩ := mem_itemsOf him
        cases i with
        | entry b y =>
          simp only [Item.entry?] at hix
          split at hix
          · rename_i hab; subst hab; simp only [Option.some.injEq] at hix; subst hix; exact ⟨s, hsm, hsi⟩
          · cases hix
        | _ => cases hix
      intro x hx y hy
      obtain ⟨s, hsm, hsi⟩ := src x hx
      obtain ⟨s', hsm', hsi'⟩ := src y hy
      obtain ⟨d, tag, n1, n2, n3, n4, n5, n6, -⟩ := symbolItem_entry hsi
      obtain ⟨d', tag', m1, m2, m3, m4, m5, m6, -⟩ := symbolItem_entry hsi'
      have hraw := ha s hsm s' hsm' _ _ n2 m2 n1 m1 (by rw [n4]; simp) (by rw [m4]; simp) (by rw [n3, m3])
      rw [hraw, m4] at n4
      cases n4
      rw [m5] at n5
      cases n5
      cases x; cases y
      simp_all
    · funext k
      have hfl := hit.filterMap (Item.flag? k)
      have hnil : (itemsOf data f.symbols).filterMap (Item.flag? k) = [] ↔ (itemsOf data g.symbols).filterMap (Item.flag? k) = [] := by
        constructor
        · intro h0; rw [h0] at hfl; exact List.nil_perm.mp hfl
        · intro h0; rw [h0] at hfl; exact List.perm_nil.mp hfl
      have hsort := sortFlags_perm hfl (by
        have src : ∀ x ∈ (itemsOf data f.symbols).filterMap (Item.flag? k), ∃ s ∈ f.symbols,
            symbolItem data s = .ok (.flag k x.1 x.2.1 x.2.2) := by
          intro x hx
          obtain ⟨i, him, hix⟩ := List.mem_filterMap.mp hx
          obtain ⟨s, hsm, hsi⟩ := mem_itemsOf him
          cases i with
          | flag b n ix v =>
            simp only [Item.flag?] at hix
            split at hix
            · rename_i hab; subst hab; simp only [Option.some.injEq] at hix; subst hix; exact ⟨s, hsm, hsi⟩
            · cases hix
          | _ => cases hix
        intro x hx y hy hxy
        obtain ⟨s, hsm, hsi⟩ := src x hx
        obtain ⟨s', hsm', hsi'⟩ := src y hy
        rw [← hxy] at hsi'
        obtain ⟨q1, q2⟩ := hi data h1 s hsm s' hsm' k _ _ _ _ _ hsi hsi'
        obtain ⟨x1, x2, x3⟩ := x
        obtain ⟨y1, y2, y3⟩ := y
        simp_all)
      simp only [hnil, hsort]

/-- **C41** The same for errors and files without defmt data: a file that is rejected is rejected in every order. -/
theorem C41_rejected (f g : ElfFile) (check : Bool) (hp : f.symbols.Perm g.symbols) (hs : f.defmtSection = g.defmtSection)
    (ha : DistinctAddresses f) (hi : DistinctIndices f) :
    (parseImpl f check = .ok none ↔ parseImpl g check = .ok none) ∧
    ((∃ t, parseImpl f check = .ok t) ↔ ∃ t, parseImpl g check = .ok t) := by
  have hnone : ∀ f g : ElfFile, f.symbols.Perm g.symbols → f.defmtSection = g.defmtSection →
      parseImpl f check = .ok none → parseImpl g check = .ok none := by
    intro f g hp hs h
    rw [parseImpl_none] at h ⊢
    obtain ⟨h1, h2, h3⟩ := h
    refine ⟨by rw [← hs, h1], ?_, ?_⟩
    · have := hp.filterMap (fun s => s.name.bind tryGetVersion)
      unfold versionsOf at h2 ⊢
      rw [h2] at this
      exact List.nil_perm.mp this
    · have := hp.filterMap (fun s => s.name.bind tryGetEncoding)
      unfold encodingsOf at h3 ⊢
      rw [← this.length_eq]; exact h3
  have ha' : DistinctAddresses g := fun s h s' h' => ha s (hp.symm.subset h) s' (hp.symm.subset h')
  have hi' : DistinctIndices g := fun data hd s h s' h' => hi data (by rw [hs, hd]) s (hp.symm.subset h) s' (hp.symm.subset h')
  refine ⟨⟨hnone f g hp hs, hnone g f hp.symm hs.symm⟩, ?_, ?_⟩
  · rintro ⟨t | t, h⟩
    · exact ⟨_, hnone f g hp hs h⟩
    · exact ⟨_, C41_order f g check hp hs ha hi t h⟩
  · rintro ⟨t | t, h⟩
    · exact ⟨_, hnone g f hp.symm hs.symm h⟩
    · exact ⟨_, C41_order g f check hp.symm hs.symm ha' hi' t h⟩

/-- The symbols of a small program: version, encoding, two messages, a timestamp. -/
def demoSymbols : List ElfSymbol :=
  [⟨some c!"_defmt_version_ = 4", false, 0, 0⟩, ⟨some c!"_defmt_encoding_ = rzcobs", false, 0, 0⟩,
   ⟨some (MacroSymbol.new c!"p" c!"c" 1 c!"info" c!"hello {=u8}").mangle, true, 1, 1⟩,
   ⟨some (MacroSymbol.new c!"p" c!"c" 2 c!"error" c!"bye").mangle, true, 2, 1⟩,
   ⟨some (MacroSymbol.new c!"p" c!"c" 3 c!"timestamp" c!"{=u32:us}").mangle, true, 3, 1⟩]

def demoFile : ElfFile := ⟨demoSymbols, some (some [0, 0, 0, 0])⟩

theorem demoFile_distinct : DistinctAddresses demoFile ∧ DistinctIndices demoFile := by
  have hmem : ∀ s ∈ demoFile.symbols, s ∈ demoSymbols := fun s h => h
  constructor
  · intro s hs s' hs' n n' d1 d2 h1 h2 h3 h4 h5
    replace hs := hmem s hs
    replace hs' := hmem s' hs'
    simp only [demoSymbols, List.mem_cons, List.not_mem_nil, or_false] at hs hs'
    rcases hs with rfl | rfl | rfl | rfl | rfl <;> rcases hs' with rfl | rfl | rfl | rfl | rfl <;>
      simp_all
  · intro data hd s hs s' hs' key n n' i v v' h1 h2
    exfalso
    simp only [demoFile, Option.some.injEq] at hd
    subst hd
    replace hs := hmem s hs
    simp only [demoSymbols, List.mem_cons, List.not_mem_nil, or_false] at hs
    rcases hs with rfl | rfl | rfl | rfl | rfl
    · cases h1
    · cases h1
    · rw [symbolItem_made (m := .new c!"p" c!"c" 1 c!"info" c!"hello {=u8}") (tag := .info) ⟨rfl, rfl⟩ rfl (by decide) (by decide)] at h1
      cases h1
    · rw [symbolItem_made (m := .new c!"p" c!"c" 2 c!"error" c!"bye") (tag := .error) ⟨rfl, rfl⟩ rfl (by decide) (by decide)] at h1
      cases h1
    · rw [symbolItem_made_stamp (m := .new c!"p" c!"c" 3 c!"timestamp" c!"{=u32:us}") ⟨rfl, rfl⟩ rfl] at h1
      cases h1

/-- The hypotheses are met: reading it in reverse order gives the same table. -/
example (t : FullTable) (h : parseImpl demoFile true = .ok (some t)) :
    parseImpl ⟨demoSymbols.reverse, some (some [0, 0, 0, 0])⟩ true = .ok (some t) :=
  C41_order demoFile ⟨demoSymbols.reverse, some (some [0, 0, 0, 0])⟩ true (List.reverse_perm _).symm rfl demoFile_distinct.1 demoFile_distinct.2 t h

/-- Two messages at the same address. -/
def clash (data : List Char) (n : Nat) : ElfSymbol := ⟨some (MacroSymbol.new c!"p" c!"c" n c!"info" data).mangle, true, 7, 1⟩

theorem clash_table (a b : ElfSymbol) (x y : List Char) (i j : Nat) (ha : a = clash x i) (hb : b = clash y j) :
    ∃ t, parseImpl ⟨[⟨some c!"_defmt_version_ = 4", false, 0, 0⟩, ⟨some c!"_defmt_encoding_ = raw", false, 0, 0⟩, a, b],
      some (some [])⟩ true = .ok (some t) ∧ (t.entries 7).map (·.string) = some ⟨.info, y⟩ := by
  subst ha hb
  have h1 := symbolItem_made (data := some []) (s := clash x i) (m := .new c!"p" c!"c" i c!"info" x) (tag := .info)
    ⟨rfl, rfl⟩ rfl (by decide) (by decide)
  have h2 := symbolItem_made (data := some []) (s := clash y j) (m := .new c!"p" c!"c" j c!"info" y) (tag := .info)
    ⟨rfl, rfl⟩ rfl (by decide) (by decide)
  refine ⟨_, parseImpl_some.mpr ⟨some [], c!"4", c!"raw", .raw, rfl, ?_, ?_, fun _ => by decide, rfl, ?_, ?_, rfl⟩, ?_⟩
  · simp only [versionsOf, List.filterMap_cons, List.filterMap_nil, Option.bind_some, tryGetVersion_mangle, clash]
    decide
  · simp only [encodingsOf, List.filterMap_cons, List.filterMap_nil, Option.bind_some, tryGetEncoding_mangle, clash]
    decide
  · intro s hs
    simp only [List.mem_cons, List.not_mem_nil, or_false] at hs
    rcases hs with rfl | rfl | rfl | rfl
    · exact ⟨_, rfl⟩
    · exact ⟨_, rfl⟩
    · exact ⟨_, h1⟩
    · exact ⟨_, h2⟩
  · simp only [itemsOf, List.filterMap_cons, List.filterMap_nil, h1, h2]
    exact Nat.zero_le 1
  · simp only [tableOf, itemsOf, List.filterMap_cons, List.filterMap_nil, h1, h2]
    rfl

/-- Without different addresses the order matters: the last message at an address stays. -/
theorem C41_same_address : ∃ (f g : ElfFile) (t t' : FullTable), f.symbols.Perm g.symbols ∧ f.defmtSection = g.defmtSection ∧
    parseImpl f true = .ok (some t) ∧ parseImpl g true = .ok (some t') ∧ t.entries 7 ≠ t'.entries 7 := by
  obtain ⟨t, h1, h2⟩ := clash_table _ _ c!"x" c!"y" 1 2 rfl rfl
  obtain ⟨t', h1', h2'⟩ := clash_table _ _ c!"y" c!"x" 2 1 rfl rfl
  refine ⟨_, _, t, t', ?_, ?_, h1, h1', ?_⟩
  · exact .cons _ (.cons _ (.swap _ _ _))
  · rfl
  · intro h
    rw [h, h2'] at h2
    revert h2; decide

/-- **C41** The flags of a bitflags type are those of its symbols, in the order of their numbers. -/
theorem C41_flags_sorted (f : ElfFile) (check : Bool) (t : FullTable) (h : parseImpl f check = .ok (some t))
    (key : BitflagsKey) (flags : List (List Char × Nat)) (hf : t.bitflags key = some flags) :
    ∃ numbered : List (List Char × Nat × Nat), flags = numbered.map (fun x => (x.1, x.2.2)) ∧
      numbered.Pairwise (fun a b => a.2.1 ≤ b.2.1) ∧
      ∀ n i v, (n, i, v) ∈ numbered ↔
        ∃ data, f.defmtSection = some data ∧ ∃ s ∈ f.symbols, symbolItem data s = .ok (.flag key n i v) := by
  rw [parseImpl_some] at h
  obtain ⟨data, v, e, enc, h1, h2, h3, h4, h5, h6, h7, rfl⟩ := h
  simp only [tableOf] at hf
  split at hf
  · cases hf
  simp only [Option.some.injEq] at hf
  refine ⟨_, hf.symm, ?_, ?_⟩
  · have := List.pairwise_mergeSort (le := fun (a b : List Char × Nat × Nat) => decide (a.2.1 ≤ b.2.1))
      (by intro a b c h1 h2; simp only [decide_eq_true_eq] at *; omega)
      (by intro a b; simp only [Bool.or_eq_true, decide_eq_true_eq]; omega)
      ((itemsOf data f.symbols).filterMap (Item.flag? key))
    exact this.imp (fun hab => by simpa using hab)
  · intro n i v
    rw [List.mem_mergeSort, List.mem_filterMap]
    constructor
    · rintro ⟨x, hx, hxi⟩
      obtain ⟨s, hs, hsi⟩ := mem_itemsOf hx
      refine ⟨data, h1, s, hs, ?_⟩
      cases x with
      | flag b n' ix v' =>
        simp only [Item.flag?] at hxi
        split at hxi
        · rename_i hab
          subst hab
          simp only [Option.some.injEq, Prod.mk.injEq] at hxi
          obtain ⟨q1, q2, q3⟩ := hxi
          subst q1 q2 q3
          exact hsi
        · cases hxi
      | _ => cases hxi
    · rintro ⟨data', hd', s, hs, hsi⟩
      rw [h1] at hd'
      cases hd'
      exact ⟨_, mem_itemsOf_of hs hsi, by simp [Item.flag?]⟩

/-! ### C42 -/

/-- **C42** A table is only produced for a file with a `.defmt` section, exactly one version, exactly one encoding and at
most one timestamp, in which every symbol of the section is a symbol made by the macros or one that is known to be
unrelated. -/
theorem C42_unambiguous (f : ElfFile) (check : Bool) (t : FullTable) (h : parseImpl f check = .ok (some t)) :
    f.defmtSection ≠ none ∧ ExactlyOne IsVersionSymbol f.symbols ∧ ExactlyOne IsEncodingSymbol f.symbols ∧
    NoTwo IsTimestampSymbol f.symbols ∧ ∀ s ∈ f.symbols, Unrelated s ∨ ∃ h, HasParts s h := by
  rw [parseImpl_some] at h
  obtain ⟨data, v, e, enc, h1, h2, h3, h4, h5, h6, h7, rfl⟩ := h
  refine ⟨by rw [h1]; simp, (exactlyOne_iff isVersionSymbol_iff _).mpr ⟨v, h2⟩,
    (exactlyOne_iff isEncodingSymbol_iff _).mpr ⟨e, h3⟩, ?_, ?_⟩
  · rw [noTwo_iff (stamp_iff (data := data)), ← stamps_eq]
    exact h7
  · intro s hs
    obtain ⟨i, hi⟩ := h6 s hs
    unfold symbolItem at hi
    cases hn : s.name with
    | none => exact .inl (.inr (.inl hn))
    | some name =>
      rw [hn] at hi
      simp only at hi
      split at hi
      · rename_i hsk
        left
        unfold isSkipped at hsk
        simp only [Bool.or_eq_true, decide_eq_true_eq, hasPrefix_iff] at hsk
        unfold Unrelated
        rw [hn]
        rcases hsk with (hsk | hsk | ⟨r, hsk⟩) | ⟨r, hsk⟩ | ⟨r, hsk⟩ <;> subst hsk
        · simp
        · simp
        · exact .inr (.inr (.inr (.inr ⟨r, .inl rfl⟩)))
        · exact .inr (.inr (.inr (.inr ⟨r, .inr (.inl rfl)⟩)))
        · exact .inr (.inr (.inr (.inr ⟨r, .inr (.inr rfl)⟩)))
      · split at hi
        · rename_i hin
          exact .inl (.inl (by simpa using hin))
        · rename_i hin
          cases hm : demangle name with
          | none => rw [hm] at hi; cases hi
          | some x => exact .inr ⟨x, by simpa using hin, name, hn, hm⟩

theorem trimStart_of_not (p : List Char) (n : Nat) (s : List Char) (h : stripPrefix p s = none) : trimStart p n s = s := by
  cases n with
  | zero => rfl
  | succ n => unfold trimStart; rw [h]

theorem trimEnd_none {c : Char} {s : List Char} (h : s.getLast? ≠ some c) : trimEnd c s = s := by
  unfold trimEnd
  have : (s.reverse.dropWhile (· = c)) = s.reverse := by
    cases hr : s.reverse with
    | nil => rfl
    | cons a l =>
      rw [List.dropWhile_cons]
      have ha : s.getLast? = some a := by
        rw [List.getLast?_eq_head?_reverse, hr]; rfl
      rw [if_neg]
      simp only [decide_eq_true_eq]
      intro hac
      rw [ha, hac] at h
      exact h rfl
  rw [this, List.reverse_reverse]

/-- The version of a symbol name, with or without the quotes. -/
theorem tryGetVersion_text (w : List Char) (hq : '"' ∉ w) (hp : ¬ c!"_defmt_version_ = " <+: w) :
    tryGetVersion (c!"_defmt_version_ = " ++ w) = some w ∧
    tryGetVersion (c!"\"_defmt_version_ = " ++ w ++ c!"\"") = some w := by
  have hnone : ∀ {p s : List Char}, ¬ p <+: s → stripPrefix p s = none := by
    intro p s h
    cases h' : stripPrefix p s with
    | none => rfl
    | some r => exact absurd ⟨r, (stripPrefix_iff.mp h').symm⟩ h
  have hv' : stripPrefix versionPrefix (w ++ c!"\"") = none := by
    refine hnone ?_
    rintro ⟨r, hr⟩
    rcases List.eq_nil_or_concat r with rfl | ⟨r', x, rfl⟩
    · have := congrArg List.getLast? hr
      simp [versionPrefix] at this
    · rw [List.concat_eq_append, ← List.append_assoc] at hr
      exact hp ⟨r', (List.append_inj' hr rfl).1⟩
  have hlast : w.getLast? ≠ some '"' := fun h => hq (List.mem_of_getLast? h)
  have hquote : ∀ x, stripPrefix quotedVersionPrefix (c!"_defmt_version_ = " ++ x) = none := by
    intro x
    refine hnone ?_
    rintro ⟨r, hr⟩
    simp [quotedVersionPrefix] at hr
  constructor
  · unfold tryGetVersion
    rw [if_pos (by simp only [Bool.or_eq_true]; exact .inr (hasPrefix_iff.mpr ⟨_, rfl⟩))]
    simp only
    rw [trimStart_of_not _ _ _ (hquote _)]
    have : (c!"_defmt_version_ = " ++ w).length = w.length + 17 + 1 := by simp
    rw [this, trimStart, show stripPrefix versionPrefix (c!"_defmt_version_ = " ++ w) = some w from stripPrefix_iff.mpr rfl]
    simp only
    rw [trimStart_of_not versionPrefix _ _ (hnone hp), trimEnd_none hlast]
  · have hq2 : stripPrefix quotedVersionPrefix (w ++ c!"\"") = none := by
      refine hnone ?_
      rintro ⟨r, hr⟩
      cases w with
      | nil => simp [quotedVersionPrefix] at hr
      | cons c w =>
        simp only [quotedVersionPrefix, List.cons_append, List.cons.injEq] at hr
        exact hq (by rw [← hr.1]; simp)
    unfold tryGetVersion
    rw [if_pos (by simp only [Bool.or_eq_true]; exact .inl (hasPrefix_iff.mpr ⟨w ++ c!"\"", by simp [quotedVersionPrefix]⟩))]
    simp only
    have hlen : (c!"\"_defmt_version_ = " ++ w ++ c!"\"").length = w.length + 19 + 1 := by simp
    rw [hlen, trimStart, show stripPrefix quotedVersionPrefix (c!"\"_defmt_version_ = " ++ w ++ c!"\"") =
      some (w ++ c!"\"") from stripPrefix_iff.mpr (by simp [quotedVersionPrefix])]
    simp only
    rw [trimStart_of_not _ _ _ hq2, trimStart_of_not _ _ _ hv']
    have : trimEnd '"' (w ++ c!"\"") = trimEnd '"' w := by
      unfold trimEnd
      rw [List.reverse_append]
      simp only [List.reverse_cons, List.reverse_nil, List.nil_append, List.cons_append, List.dropWhile_cons, decide_true, if_true]
    rw [this, trimEnd_none hlast]

theorem mem_versionsOf {f : ElfFile} {s : ElfSymbol} (hs : s ∈ f.symbols) {n v : List Char} (hn : s.name = some n)
    (hv : tryGetVersion n = some v) : v ∈ versionsOf f.symbols :=
  List.mem_filterMap.mpr ⟨s, hs, by rw [hn]; exact hv⟩

/-- **C42** A file whose version is neither 3 nor 4 is rejected, unless the check is turned off. (A version with quotes in it, or one that
itself begins with `_defmt_version_ = `, is not covered.) -/
theorem C42_version (f : ElfFile) (t : FullTable) (h : parseImpl f true = .ok (some t)) (s : ElfSymbol) (hs : s ∈ f.symbols)
    (v : List Char) (hq : '"' ∉ v) (hp : ¬ c!"_defmt_version_ = " <+: v)
    (hn : s.name = some (c!"_defmt_version_ = " ++ v) ∨ s.name = some (c!"\"_defmt_version_ = " ++ v ++ c!"\"")) :
    v = c!"3" ∨ v = c!"4" := by
  rw [parseImpl_some] at h
  obtain ⟨data, ver, e, enc, h1, h2, h3, h4, h5, h6, h7, rfl⟩ := h
  obtain ⟨a, b⟩ := tryGetVersion_text v hq hp
  have hver : v ∈ versionsOf f.symbols := by
    rcases hn with hn | hn
    · exact mem_versionsOf hs hn a
    · exact mem_versionsOf hs hn b
  rw [h2, List.mem_singleton] at hver
  subst hver
  simpa [supportedVersions] using h4 rfl

/-- **C42** The encoding of the table is the one the file names. -/
theorem C42_encoding (f : ElfFile) (check : Bool) (t : FullTable) (h : parseImpl f check = .ok (some t)) (s : ElfSymbol)
    (hs : s ∈ f.symbols) (e : List Char) (hn : s.name = some (c!"_defmt_encoding_ = " ++ e)) :
    (e = c!"raw" ∧ t.encoding = .raw) ∨ (e = c!"rzcobs" ∧ t.encoding = .rzcobs) := by
  rw [parseImpl_some] at h
  obtain ⟨data, ver, e', enc, h1, h2, h3, h4, h5, h6, h7, rfl⟩ := h
  have : e ∈ encodingsOf f.symbols :=
    List.mem_filterMap.mpr ⟨s, hs, by rw [hn]; exact stripPrefix_iff.mpr rfl⟩
  rw [h3] at this
  cases List.mem_singleton.mp this
  unfold Encoding.fromStr at h5
  split at h5
  · rename_i hr; cases h5; exact .inl ⟨hr, rfl⟩
  · split at h5
    · rename_i hr; cases h5; exact .inr ⟨hr, rfl⟩
    · cases h5

/-- **C42** A file without any defmt data is not an error: there is no table. (And this is the only case without one.) -/
theorem C42_not_used (f : ElfFile) (check : Bool) :
    parseImpl f check = .ok none ↔
      f.defmtSection = none ∧ (∀ s ∈ f.symbols, ¬ IsVersionSymbol s) ∧ NoTwo IsEncodingSymbol f.symbols := by
  rw [parseImpl_none, noTwo_iff isEncodingSymbol_iff]
  have : versionsOf f.symbols = [] ↔ ∀ s ∈ f.symbols, ¬ IsVersionSymbol s := by
    have := exists_iff isVersionSymbol_iff f.symbols
    constructor
    · intro h s hs hp
      exact this.mp ⟨s, hs, hp⟩ h
    · intro h
      cases hv : versionsOf f.symbols with
      | nil => rfl
      | cons a b =>
        obtain ⟨s, hs, hp⟩ := this.mpr (by unfold versionsOf at hv; rw [hv]; simp)
        exact absurd hp (h s hs)
  rw [this]
  rfl

example : parseImpl ⟨[⟨some c!"main", false, 0x8000, 4⟩, ⟨none, false, 0, 0⟩], none⟩ true = .ok none := by
  rw [C42_not_used]
  refine ⟨rfl, ?_, ?_⟩
  · intro s hs
    rw [isVersionSymbol_iff]
    simp only [List.mem_cons, List.not_mem_nil, or_false] at hs
    rcases hs with rfl | rfl <;> decide
  · rw [noTwo_iff isEncodingSymbol_iff]
    decide

/-! ### C62 -/

/-- A symbol that the decoder can read: unrelated, a message, timestamp or string made by a macro, a flag, or a symbol
with the tag of another tool. -/
def Readable (data : List UInt8) (s : ElfSymbol) : Prop :=
  Unrelated s ∨ (∃ m, MadeBy m s ∧ m.tag ≠ c!"defmt_bitflags_value") ∨
  ∃ (d : Definition) (i : Nat) (name : List Char) (value : Nat), d.Ok ∧ i < 2 ^ 128 ∧ IsName name ∧
    MadeBy (d.flagSymbol i name) s ∧ HoldsValue data s value

/-- **C62** Every file that the macros and the linker script make is accepted: one version that is supported, one encoding, at
most one timestamp, and only readable symbols. -/
theorem C62_accepted (f : ElfFile) (check : Bool) (data : List UInt8) (hd : f.defmtSection = some (some data))
    (hv : ExactlyOne IsVersionSymbol f.symbols) (he : ExactlyOne IsEncodingSymbol f.symbols)
    (ht : NoTwo IsTimestampSymbol f.symbols)
    (hv' : ∃ s ∈ f.symbols, s.name = some c!"_defmt_version_ = 3" ∨ s.name = some c!"_defmt_version_ = 4" ∨
      s.name = some c!"\"_defmt_version_ = 3\"" ∨ s.name = some c!"\"_defmt_version_ = 4\"")
    (he' : ∃ s ∈ f.symbols, s.name = some c!"_defmt_encoding_ = raw" ∨ s.name = some c!"_defmt_encoding_ = rzcobs")
    (hr : ∀ s ∈ f.symbols, Readable data s) :
    ∃ t, parseImpl f check = .ok (some t) := by
  obtain ⟨v, hv⟩ := (exactlyOne_iff isVersionSymbol_iff _).mp hv
  obtain ⟨e, he⟩ := (exactlyOne_iff isEncodingSymbol_iff _).mp he
  have hsup : v ∈ supportedVersions := by
    obtain ⟨s, hs, hn⟩ := hv'
    rcases hn with hn | hn | hn | hn
    · have := mem_versionsOf hs hn (v := c!"3") (by decide)
      unfold versionsOf at this; rw [hv] at this; rw [← List.mem_singleton.mp this]; decide
    · have := mem_versionsOf hs hn (v := c!"4") (by decide)
      unfold versionsOf at this; rw [hv] at this; rw [← List.mem_singleton.mp this]; decide
    · have := mem_versionsOf hs hn (v := c!"3") (by decide)
      unfold versionsOf at this; rw [hv] at this; rw [← List.mem_singleton.mp this]; decide
    · have := mem_versionsOf hs hn (v := c!"4") (by decide)
      unfold versionsOf at this; rw [hv] at this; rw [← List.mem_singleton.mp this]; decide
  have henc : ∃ enc, Encoding.fromStr e = some enc := by
    obtain ⟨s, hs, hn⟩ := he'
    rcases hn with hn | hn
    · have : c!"raw" ∈ f.symbols.filterMap (fun s => s.name.bind tryGetEncoding) :=
        List.mem_filterMap.mpr ⟨s, hs, by rw [hn]; decide⟩
      rw [he] at this; rw [← List.mem_singleton.mp this]; exact ⟨.raw, rfl⟩
    · have : c!"rzcobs" ∈ f.symbols.filterMap (fun s => s.name.bind tryGetEncoding) :=
        List.mem_filterMap.mpr ⟨s, hs, by rw [hn]; decide⟩
      rw [he] at this; rw [← List.mem_singleton.mp this]; exact ⟨.rzcobs, rfl⟩
  obtain ⟨enc, henc⟩ := henc
  refine ⟨_, parseImpl_some.mpr ⟨some data, v, e, enc, hd, hv, he, fun _ => hsup, henc, ?_, ?_, rfl⟩⟩
  · intro s hs
    rcases hr s hs with hu | ⟨m, hm, ht⟩ | ⟨d, i, name, value, h1, h2, h3, h4, h5⟩
    · have hsk : ∀ n, s.name = some n → isSkipped n = true → ∃ i, symbolItem (some data) s = .ok i := by
        intro n hn hk
        refine ⟨.skip, ?_⟩
        unfold symbolItem
        rw [hn]
        simp only
        rw [if_pos hk]
      rcases hu with hu | hu | hu | hu | ⟨r, hu | hu | hu⟩
      · refine ⟨.skip, ?_⟩
        unfold symbolItem
        cases hn : s.name with
        | none => rfl
        | some n =>
          simp only
          split
          · rfl
          · rw [hu]; rfl
      · exact ⟨.skip, by unfold symbolItem; rw [hu]⟩
      · exact hsk _ hu (by decide)
      · exact hsk _ hu (by decide)
      · exact hsk _ hu (by
          have : hasPrefix c!"$d." (c!"$d." ++ r) = true := hasPrefix_iff.mpr ⟨r, rfl⟩
          simp only [isSkipped, this, Bool.or_true, Bool.true_or])
      · exact hsk _ hu (by
          have : hasPrefix c!"_defmt" (c!"_defmt" ++ r) = true := hasPrefix_iff.mpr ⟨r, rfl⟩
          simp only [isSkipped, this, Bool.or_true, Bool.true_or])
      · exact hsk _ hu (by
          have : hasPrefix c!"__DEFMT_MARKER" (c!"__DEFMT_MARKER" ++ r) = true := hasPrefix_iff.mpr ⟨r, rfl⟩
          simp only [isSkipped, this, Bool.or_true])
    · have hp : HasParts s ⟨m.package, Display.digits 10 m.disambiguator, m.tag, m.data, some m.crateName⟩ :=
        ⟨hm.2, _, hm.1, demangle_mangle m⟩
      obtain ⟨n, -, hi⟩ := symbolItem_parts (data := some data) hp
      cases hk : (HostSymbol.mk m.package (Display.digits 10 m.disambiguator) m.tag m.data (some m.crateName)).knownTag with
      | none => rw [hk] at hi; exact ⟨_, hi⟩
      | some tag =>
        rw [hk] at hi
        cases tag with
        | bitflagsValue => exact absurd ((knownTag_tagName .bitflagsValue _).mp hk) ht
        | _ => exact ⟨_, hi⟩
    · exact ⟨_, symbolItem_flag h1 h2 h3 h4 h5⟩
  · rw [stamps_eq]
    exact (noTwo_iff (stamp_iff (data := some data)) _).mp ht

/-- The small program is accepted. -/
theorem demoFile_accepted : ∃ t, parseImpl demoFile true = .ok (some t) := by
  have hv : demoSymbols.filterMap (fun s => s.name.bind tryGetVersion) = [c!"4"] := by
    simp only [demoSymbols, List.filterMap_cons, List.filterMap_nil, Option.bind_some, tryGetVersion_mangle]
    decide
  have he : demoSymbols.filterMap (fun s => s.name.bind tryGetEncoding) = [c!"rzcobs"] := by
    simp only [demoSymbols, List.filterMap_cons, List.filterMap_nil, Option.bind_some, tryGetEncoding_mangle]
    decide
  refine C62_accepted demoFile true [0, 0, 0, 0] rfl ((exactlyOne_iff isVersionSymbol_iff _).mpr ⟨_, hv⟩)
    ((exactlyOne_iff isEncodingSymbol_iff _).mpr ⟨_, he⟩) ?_ ⟨⟨some c!"_defmt_version_ = 4", false, 0, 0⟩, ?_, .inr (.inl rfl)⟩
    ⟨⟨some c!"_defmt_encoding_ = rzcobs", false, 0, 0⟩, ?_, .inr rfl⟩ ?_
  · show NoTwo IsTimestampSymbol demoSymbols
    have hno : ∀ m : MacroSymbol, m.tag ≠ c!"defmt_timestamp" → ∀ a z, ¬ IsTimestampSymbol ⟨some m.mangle, true, a, z⟩ := by
      rintro m hm a z ⟨h, ⟨-, n, hn, hd⟩, ht⟩
      simp only [Option.some.injEq] at hn
      rw [← hn, demangle_mangle] at hd
      cases hd
      exact hm ht
    have hout : ∀ n a z, ¬ IsTimestampSymbol ⟨n, false, a, z⟩ := by
      rintro n a z ⟨h, ⟨hin, -⟩, -⟩
      cases hin
    unfold NoTwo demoSymbols
    refine .cons (fun b _ h => hout _ _ _ h.1) (.cons (fun b _ h => hout _ _ _ h.1) (.cons (fun b _ h => hno _ (by decide) _ _ h.1)
      (.cons (fun b _ h => hno _ (by decide) _ _ h.1) (.cons (fun b hb => by cases hb) .nil))))
  · simp [demoFile, demoSymbols]
  · simp [demoFile, demoSymbols]
  · intro s hs
    replace hs : s ∈ demoSymbols := hs
    simp only [demoSymbols, List.mem_cons, List.not_mem_nil, or_false] at hs
    rcases hs with rfl | rfl | rfl | rfl | rfl
    · exact .inl (.inl rfl)
    · exact .inl (.inl rfl)
    · exact .inr (.inl ⟨_, ⟨rfl, rfl⟩, by decide⟩)
    · exact .inr (.inl ⟨_, ⟨rfl, rfl⟩, by decide⟩)
    · exact .inr (.inl ⟨_, ⟨rfl, rfl⟩, by decide⟩)

/-- **C62** Every message (or interned string, or format string of a type) is in the table at the address of its symbol,
with its level and text. -/
theorem C62_messages (f : ElfFile) (check : Bool) (t : FullTable) (h : parseImpl f check = .ok (some t))
    (ha : DistinctAddresses f) (s : ElfSymbol) (hs : s ∈ f.symbols) (m : MacroSymbol) (hm : MadeBy m s) (tag : Tag)
    (ht : m.tag = tagName tag) (h1 : tag ≠ .timestamp) (h2 : tag ≠ .bitflagsValue) :
    t.entries s.address = some ⟨⟨tag, m.data⟩, m.mangle⟩ := by
  rw [parseImpl_some] at h
  obtain ⟨data, v, e, enc, hd, -, -, -, -, h6, -, rfl⟩ := h
  have hi := symbolItem_made (data := data) hm ht h1 h2
  have hmem : (⟨⟨tag, m.data⟩, m.mangle⟩ : TableEntry) ∈ (itemsOf data f.symbols).filterMap (Item.entry? s.address) :=
    List.mem_filterMap.mpr ⟨_, mem_itemsOf_of hs hi, by simp [Item.entry?]⟩
  simp only [tableOf]
  cases hl : ((itemsOf data f.symbols).filterMap (Item.entry? s.address)).getLast? with
  | none => rw [List.getLast?_eq_none_iff.mp hl] at hmem; cases hmem
  | some x =>
    obtain ⟨i, him, hix⟩ := List.mem_filterMap.mp (List.mem_of_getLast? hl)
    obtain ⟨s', hsm, hsi⟩ := mem_itemsOf him
    cases i with
    | entry b y =>
      simp only [Item.entry?] at hix
      split at hix
      · rename_i hab
        simp only [Option.some.injEq] at hix
        subst hix
        obtain ⟨d, tag', n1, n2, n3, n4, n5, n6, -⟩ := symbolItem_entry hsi
        have hraw := ha s' hsm s hs _ _ n2 hm.2 n1 hm.1 (by rw [n4]; simp) (by rw [demangle_mangle]; simp) (by rw [n3, hab])
        rw [hraw, demangle_mangle] at n4
        cases n4
        rw [(knownTag_tagName tag _).mpr ht] at n5
        cases n5
        cases y
        simp_all
      · cases hix
    | _ => cases hix

/-- **C62** The timestamp of the table is the timestamp of the program. -/
theorem C62_timestamp (f : ElfFile) (check : Bool) (t : FullTable) (h : parseImpl f check = .ok (some t)) :
    (∀ s ∈ f.symbols, ∀ m, MadeBy m s → m.tag = c!"defmt_timestamp" → t.timestamp = some ⟨⟨.timestamp, m.data⟩, m.mangle⟩) ∧
    ((∀ s ∈ f.symbols, ¬ IsTimestampSymbol s) → t.timestamp = none) := by
  have hone := (C42_unambiguous f check t h).2.2.2.1
  rw [parseImpl_some] at h
  obtain ⟨data, v, e, enc, hd, -, -, -, -, h6, h7, rfl⟩ := h
  constructor
  · intro s hs m hm ht
    have hi := symbolItem_made_stamp (data := data) hm ht
    have hmem : (⟨⟨.timestamp, m.data⟩, m.mangle⟩ : TableEntry) ∈ (itemsOf data f.symbols).filterMap Item.stamp? :=
      List.mem_filterMap.mpr ⟨_, mem_itemsOf_of hs hi, by simp [Item.stamp?]⟩
    simp only [tableOf]
    match hl : (itemsOf data f.symbols).filterMap Item.stamp?, h7 with
    | [], _ => rw [hl] at hmem; cases hmem
    | [x], _ =>
      rw [hl] at hmem
      rw [List.mem_singleton.mp hmem]; rfl
  · intro hno
    simp only [tableOf]
    rw [stamps_eq]
    have : f.symbols.filterMap (fun s => (okItem (symbolItem data s)).bind Item.stamp?) = [] := by
      rw [List.filterMap_eq_nil_iff]
      intro s hs
      cases hx : (okItem (symbolItem data s)).bind Item.stamp? with
      | none => rfl
      | some y => exact absurd ((stamp_iff (data := data) s).mpr (by rw [hx]; rfl)) (hno s hs)
    rw [this]; rfl

/-- **C62** Nothing else is in the table. -/
theorem C62_only_symbols (f : ElfFile) (check : Bool) (t : FullTable) (h : parseImpl f check = .ok (some t)) (a : Nat)
    (e : TableEntry) (he : t.entries a = some e) :
    ∃ s ∈ f.symbols, ∃ x, HasParts s x ∧ s.address = a ∧ s.name = some e.rawSymbol ∧ x.tag = tagName e.string.tag ∧
      x.data = e.string.string := by
  rw [parseImpl_some] at h
  obtain ⟨data, v, enc, _, hd, -, -, -, -, h6, h7, rfl⟩ := h
  simp only [tableOf] at he
  obtain ⟨i, him, hix⟩ := List.mem_filterMap.mp (List.mem_of_getLast? he)
  obtain ⟨s, hsm, hsi⟩ := mem_itemsOf him
  cases i with
  | entry b y =>
    simp only [Item.entry?] at hix
    split at hix
    · rename_i hab
      simp only [Option.some.injEq] at hix
      subst hix
      obtain ⟨d, tag', n1, n2, n3, n4, n5, n6, -⟩ := symbolItem_entry hsi
      refine ⟨s, hsm, d, ⟨n2, _, n1, n4⟩, by rw [n3, hab], n1, ?_, ?_⟩
      · rw [n6]; exact (knownTag_tagName _ _).mp n5
      · rw [n6]
    · cases hix
  | _ => cases hix

/-- The table lists format strings of types and interned strings for use as arguments. -/
theorem C62_linked (f : ElfFile) (check : Bool) (t : FullTable) (h : parseImpl f check = .ok (some t))
    (ha : DistinctAddresses f) (s : ElfSymbol) (hs : s ∈ f.symbols) (m : MacroSymbol) (hm : MadeBy m s) (tag : Tag)
    (ht : m.tag = tagName tag) (htag : tag ∈ [Tag.prim, .derived, .bitflags, .write, .str]) (hi : s.address < 2 ^ 16) :
    Encoder.Linked t.decoding s.address m.data := by
  have h1 : tag ≠ .timestamp := by rintro rfl; simp at htag
  have h2 : tag ≠ .bitflagsValue := by rintro rfl; simp at htag
  have := C62_messages f check t h ha s hs m hm tag ht h1 h2
  refine ⟨hi, ?_⟩
  unfold Table.getWithoutLevel Table.getWithLevel FullTable.decoding
  simp only
  rw [this]
  simp only [List.mem_cons, List.not_mem_nil, or_false] at htag
  rcases htag with rfl | rfl | rfl | rfl | rfl <;> rfl

/-- What the program's timestamp is. -/
def TimestampIs (f : ElfFile) (t : FullTable) : Option Encoder.Call → Prop
  | none => ∀ s ∈ f.symbols, ¬ IsTimestampSymbol s
  | some c => (∃ s ∈ f.symbols, ∃ m, MadeBy m s ∧ m.tag = c!"defmt_timestamp" ∧ m.data = c.fmt) ∧ c.Ok t.decoding

/-- **C62** From the source code to the host: what a log statement of the program sends is decoded, with the table read
from the ELF file, to the level, text and arguments of the statement. -/
theorem C62_end_to_end (f : ElfFile) (check : Bool) (t : FullTable) (h : parseImpl f check = .ok (some t))
    (ha : DistinctAddresses f) (s : ElfSymbol) (hs : s ∈ f.symbols) (m : MacroSymbol) (hm : MadeBy m s) (tag : Tag)
    (ht : m.tag = tagName tag) (htag : tag ∈ [Tag.println, .trace, .debug, .info, .warn, .error]) (hi : s.address < 2 ^ 16)
    (ts : Option Encoder.Call) (hts : TimestampIs f t ts) (args : List Val) (hargs : Encoder.Call.Ok t.decoding ⟨m.data, args⟩) :
    let e : Encoder.LogEvent := ⟨s.address, tag, ts, ⟨m.data, args⟩⟩
    ∃ bytes, e.bytes = some bytes ∧ ∀ rest, t.decoding.decode (bytes ++ rest) = some (.ok (e.frame, bytes.length)) := by
  have h1 : tag ≠ .timestamp := by rintro rfl; simp at htag
  have h2 : tag ≠ .bitflagsValue := by rintro rfl; simp at htag
  have hm' := C62_messages f check t h ha s hs m hm tag ht h1 h2
  have htime := C62_timestamp f check t h
  apply C23_log_roundtrip
  refine ⟨hi, ?_, hargs, ?_⟩
  · simp only [FullTable.decoding, hm', Option.map_some]
  · cases ts with
    | none =>
      have : t.decoding.timestamp = none := by simp only [FullTable.decoding, htime.2 hts, Option.map_none]
      simp only [this]
    | some c =>
      obtain ⟨⟨s', hs', m', hm1, hm2, hm3⟩, hc⟩ := hts
      have : t.decoding.timestamp = some ⟨.timestamp, m'.data⟩ := by
        simp only [FullTable.decoding, htime.1 s' hs' m' hm1 hm2, Option.map_some]
      simp only [this]
      exact ⟨hm3, hc⟩

/-! ### C63 -/

/-- The hint that the format string of a bitflags type contains. -/
def hintOf (d : Definition) : Hint := .bitflags d.name d.package (decimal d.disambiguator) (some d.crateName)

/-- **C63** The format string of a bitflags type is one parameter of its integer type, with the hint for its flags. -/
theorem C63_format_string (d : Definition) (hd : d.Ok) (mode : Mode) :
    ∃ ty, (d.ty, ty) ∈ reprs ∧ parse d.formatString mode = .ok [.param ⟨0, ty, some (hintOf d)⟩] := by
  obtain ⟨ty, hty⟩ := hd.ty
  refine ⟨ty, hty, ?_⟩
  have hplain : ∀ {s : List Char}, IsName s → Plain s := fun h =>
    ⟨fun hc => (h _ hc).1 rfl, fun hc => (h _ hc).2.1 rfl, fun hc => (h _ hc).2.2.1 rfl⟩
  have hdig : Plain (decimal d.disambiguator) := by
    have := decimal_digits d.disambiguator
    exact ⟨fun hc => absurd (this _ hc) (by decide), fun hc => absurd (this _ hc) (by decide),
      fun hc => absurd (this _ hc) (by decide)⟩
  have hren : renderTy 0 ty = d.ty ∧ ty.Valid := by
    generalize d.ty = dty at hty
    simp only [reprs, List.mem_cons, List.not_mem_nil, or_false, Prod.mk.injEq] at hty
    rcases hty with ⟨rfl, rfl⟩ | ⟨rfl, rfl⟩ | ⟨rfl, rfl⟩ | ⟨rfl, rfl⟩ | ⟨rfl, rfl⟩ <;> exact ⟨rfl, trivial⟩
  have := C18_single_parameter mode ⟨none, some ty, 0, some (hintOf d)⟩
    ⟨by simp, by simpa using hren.2, by
      intro h hh
      simp only [Option.mem_def, Option.some.injEq] at hh
      subst hh
      exact ⟨hplain hd.name, hplain hd.package, hdig, by
        intro c hc; simp only [Option.mem_def, Option.some.injEq] at hc; subst hc; exact hplain hd.crateName⟩⟩ (.inl rfl)
  have htext : ('{' :: (⟨none, some ty, 0, some (hintOf d)⟩ : Written).text ++ ['}']) = d.formatString := by
    simp only [Written.text, indexPart, typePart, hintPart, hren.1, hintOf, renderHint, Definition.formatString, Display.digits, decimal]
    simp
  rw [htext] at this
  exact this

/-- **C63** The table contains the flags of the definition with their names and values, in the order of definition,
whatever the order of the symbols and the `#[cfg]` attributes. -/
theorem C63_flags (d : Definition) (hd : d.Ok) (f : ElfFile) (hp : d.Placed f) (check : Bool) (t : FullTable)
    (h : parseImpl f check = .ok (some t)) :
    t.bitflags ⟨d.name, d.package, decimal d.disambiguator, some d.crateName⟩ =
      if d.flags.filter (·.enabled) = [] then none
      else some ((d.flags.filter (·.enabled)).map (fun x => (x.name, x.value))) := by
  obtain ⟨data, static, others, hdata, hperm, hst, hoth⟩ := hp
  rw [parseImpl_some] at h
  obtain ⟨data', v, e, enc, hd', -, -, -, -, h6, h7, rfl⟩ := h
  rw [hdata] at hd'
  cases hd'
  have hfl := (itemsOf_perm (data := some data) hperm).filterMap (Item.flag? (keyOf d))
  have happ : itemsOf (some data) (d.enabled.map (fun x => static x.1) ++ others) =
      itemsOf (some data) (d.enabled.map (fun x => static x.1)) ++ itemsOf (some data) others := by
    simp only [itemsOf, List.filterMap_append]
  rw [happ, List.filterMap_append, flagsOf_others hoth, List.append_nil, flagsOf_statics hd d.enabled (by
    intro x hx
    obtain ⟨b1, b2, b3⟩ := enabledFlags_bound 0 d.flags x hx
    have := hd.count
    exact ⟨by omega, hd.flags _ b3, hst x hx⟩)] at hfl
  have hinc := enabledFlags_increasing 0 d.flags
  have hsorted : (d.enabled.map (fun x => (x.2.name, x.1, x.2.value))).Pairwise (fun a b => a.2.1 < b.2.1) :=
    List.pairwise_map.mpr (hinc.imp (fun h => h))
  have hsort := sortFlags_perm hfl.symm (by
    intro a ha b hb hab
    obtain ⟨x, hx, rfl⟩ := List.mem_map.mp ha
    obtain ⟨y, hy, rfl⟩ := List.mem_map.mp hb
    have hne : ∀ (l : List (Nat × Flag)), l.Pairwise (fun a b => a.1 < b.1) → ∀ x ∈ l, ∀ y ∈ l, x.1 = y.1 → x = y := by
      intro l hl
      induction hl with
      | nil => intro x hx; cases hx
      | cons h1 _ ih =>
        intro x hx y hy hxy
        rcases List.mem_cons.mp hx with hx1 | hx1 <;> rcases List.mem_cons.mp hy with hy1 | hy1
        · rw [hx1, hy1]
        · subst hx1; have := h1 _ hy1; omega
        · subst hy1; have := h1 _ hx1; omega
        · exact ih x hx1 y hy1 hxy
    rw [hne _ hinc x hx y hy hab])
  rw [sortFlags_sorted hsorted, List.map_map] at hsort
  have hen : ∀ (i : Nat) (l : List Flag), (enabledFlags i l).map Prod.snd = l.filter (·.enabled) := by
    intro i l
    induction l generalizing i with
    | nil => rfl
    | cons g l ih =>
      unfold enabledFlags
      cases hg : g.enabled with
      | true => rw [List.filter_cons_of_pos hg, if_pos rfl, List.map_cons, ih]
      | false => rw [List.filter_cons_of_neg (by simp [hg]), if_neg (by simp), ih]
  have hmap : d.enabled.map ((fun v : List Char × Nat × Nat => (v.1, v.2.2)) ∘ fun x => (x.2.name, x.1, x.2.value)) =
      (d.flags.filter (·.enabled)).map (fun x => (x.name, x.value)) := by
    rw [← hen 0 d.flags, List.map_map]; rfl
  rw [hmap] at hsort
  have hnil : (itemsOf (some data) f.symbols).filterMap (Item.flag? (keyOf d)) = [] ↔ d.flags.filter (·.enabled) = [] := by
    rw [← hen 0 d.flags]
    constructor
    · intro h0
      rw [h0] at hfl
      have := List.nil_perm.mp hfl
      rw [List.map_eq_nil_iff] at this ⊢
      exact this
    · intro h0
      rw [List.map_eq_nil_iff] at h0
      have h0' : d.enabled = [] := h0
      rw [h0'] at hfl
      exact List.perm_nil.mp hfl
  show (if (itemsOf (some data) f.symbols).filterMap (Item.flag? (keyOf d)) = [] then none else
    some (sortFlags ((itemsOf (some data) f.symbols).filterMap (Item.flag? (keyOf d))))) = _
  by_cases h0 : d.flags.filter (·.enabled) = []
  · rw [if_pos (hnil.mpr h0), if_pos h0]
  · rw [if_neg (fun h => h0 (hnil.mp h)), if_neg h0, hsort]

/-- **C63** The value is shown as the names of the flags that are set, in the order of definition. -/
theorem C63_shown (d : Definition) (hd : d.Ok) (f : ElfFile) (hp : d.Placed f) (check : Bool) (t : FullTable)
    (h : parseImpl f check = .ok (some t)) (env : Env) (henv : env.bitflags = t.bitflags) (x : Nat)
    (hne : ∃ g ∈ d.flags, g.enabled = true) :
    ∃ shown : List Flag, shown.Sublist d.flags ∧
      (∀ g ∈ d.flags, g ∈ shown ↔ g.enabled = true ∧ FlagSet x g.value) ∧ (∀ g ∈ shown, g.enabled = true ∧ FlagSet x g.value) ∧
      Display.formatU128 env x (some (hintOf d)) =
        some (if shown = [] then c!"(empty)" else Display.separated c!" | " (shown.map Flag.name)) := by
  have hflags := C63_flags d hd f hp check t h
  have hne' : d.flags.filter (·.enabled) ≠ [] := by
    obtain ⟨g, hg, he⟩ := hne
    intro h0
    have : g ∈ d.flags.filter (·.enabled) := List.mem_filter.mpr ⟨hg, he⟩
    rw [h0] at this; cases this
  rw [if_neg hne'] at hflags
  have hsub : ∀ (p : Nat → Bool) (l : List Flag), ((l.map (fun x => (x.name, x.value))).filter (fun y => p y.2)) =
      (l.filter (fun g => p g.value)).map (fun x => (x.name, x.value)) := by
    intro p l
    rw [List.filter_map]; rfl
  refine ⟨(d.flags.filter (·.enabled)).filter (fun g => Display.flagShown x g.value),
    List.filter_sublist.trans List.filter_sublist, ?_, ?_, ?_⟩
  all_goals have hiff : ∀ v, Display.flagShown x v = true ↔ FlagSet x v := flagShown_iff x
  · intro g hg
    rw [List.mem_filter, List.mem_filter, hiff]
    exact ⟨fun h => ⟨h.1.2, h.2⟩, fun h => ⟨⟨hg, h.1⟩, h.2⟩⟩
  · intro g hg
    rw [List.mem_filter, List.mem_filter, hiff] at hg
    exact ⟨hg.1.2, hg.2⟩
  · simp only [Display.formatU128, hintOf, Display.formatBitflags, henv, hflags, hsub, joinFlags_eq, List.map_map, List.isEmpty_iff,
      List.map_eq_nil_iff]
    rfl

/-- A type with three flags, one of which is not compiled. -/
def demoFlags : Definition :=
  ⟨c!"F", c!"u8", [⟨c!"A", 1, true⟩, ⟨c!"B", 2, false⟩, ⟨c!"C", 4, true⟩], c!"my-pkg", c!"my_crate", 77⟩

theorem demoFlags_ok : demoFlags.Ok where
  ty := ⟨.u8, by decide⟩
  name := by decide
  flags := by decide
  package := by decide
  crateName := by decide
  count := by decide

def demoStatic (i : Nat) : ElfSymbol :=
  ⟨some (demoFlags.flagSymbol i (if i = 0 then c!"A" else c!"C")).mangle, true, if i = 0 then 16 else 0, 16⟩

/-- The statics are in the other order than the flags. -/
def demoFlagsFile : ElfFile where
  symbols := [⟨some c!"_defmt_version_ = 4", false, 0, 0⟩, demoStatic 2, ⟨some c!"_defmt_encoding_ = raw", false, 0, 0⟩, demoStatic 0]
  defmtSection := some (some (Encoder.le 16 4 ++ Encoder.le 16 1))

theorem demoFlags_placed : demoFlags.Placed demoFlagsFile := by
  refine ⟨_, demoStatic, [⟨some c!"_defmt_version_ = 4", false, 0, 0⟩, ⟨some c!"_defmt_encoding_ = raw", false, 0, 0⟩], rfl, ?_, ?_, ?_⟩
  · show List.Perm _ [demoStatic 0, demoStatic 2, _, _]
    refine .trans (.cons _ (.cons _ (.swap _ _ _))) ?_
    refine .trans (.cons _ (.swap _ _ _)) ?_
    refine .trans (.swap _ _ _) ?_
    refine .cons _ ?_
    exact .swap _ _ _
  · intro x hx
    replace hx : x ∈ [(0, (⟨c!"A", 1, true⟩ : Flag)), (2, ⟨c!"C", 4, true⟩)] := hx
    simp only [List.mem_cons, List.not_mem_nil, or_false] at hx
    rcases hx with rfl | rfl
    · exact ⟨⟨rfl, rfl⟩, rfl, by decide, by decide, by decide, by decide⟩
    · exact ⟨⟨rfl, rfl⟩, rfl, by decide, by decide, by decide, by decide⟩
  · intro s hs
    simp only [List.mem_cons, List.not_mem_nil, or_false] at hs
    rcases hs with rfl | rfl
    · rintro ⟨h, ⟨hin, -⟩, -⟩; cases hin
    · rintro ⟨h, ⟨hin, -⟩, -⟩; cases hin

example : ∃ t, parseImpl demoFlagsFile true = .ok (some t) ∧
    t.bitflags ⟨c!"F", c!"my-pkg", c!"77", some c!"my_crate"⟩ = some [(c!"A", 1), (c!"C", 4)] := by
  have hi : ∀ i, i = 0 ∨ i = 2 → ∃ v, symbolItem (some (Encoder.le 16 4 ++ Encoder.le 16 1)) (demoStatic i) =
      .ok (.flag (keyOf demoFlags) (if i = 0 then c!"A" else c!"C") i v) := by
    rintro i (rfl | rfl)
    · exact ⟨1, symbolItem_flag demoFlags_ok (by decide) (by decide) ⟨rfl, rfl⟩ ⟨rfl, by decide, by decide, by decide, by decide⟩⟩
    · exact ⟨4, symbolItem_flag demoFlags_ok (by decide) (by decide) ⟨rfl, rfl⟩ ⟨rfl, by decide, by decide, by decide, by decide⟩⟩
  obtain ⟨v0, h0⟩ := hi 0 (.inl rfl)
  obtain ⟨v2, h2⟩ := hi 2 (.inr rfl)
  have hp : ∃ t, parseImpl demoFlagsFile true = .ok (some t) := by
    refine ⟨_, parseImpl_some.mpr ⟨_, c!"4", c!"raw", .raw, rfl, ?_, ?_, fun _ => by decide, rfl, ?_, ?_, rfl⟩⟩
    · simp only [demoFlagsFile, versionsOf, List.filterMap_cons, List.filterMap_nil, Option.bind_some, tryGetVersion_mangle, demoStatic]
      decide
    · simp only [demoFlagsFile, encodingsOf, List.filterMap_cons, List.filterMap_nil, Option.bind_some, tryGetEncoding_mangle, demoStatic]
      decide
    · intro s hs
      simp only [demoFlagsFile, List.mem_cons, List.not_mem_nil, or_false] at hs
      rcases hs with rfl | rfl | rfl | rfl
      · exact ⟨_, rfl⟩
      · exact ⟨_, h2⟩
      · exact ⟨_, rfl⟩
      · exact ⟨_, h0⟩
    · simp only [demoFlagsFile, itemsOf, List.filterMap_cons, List.filterMap_nil, h0, h2]
      exact Nat.zero_le 1
  obtain ⟨t, ht⟩ := hp
  exact ⟨t, ht, C63_flags demoFlags demoFlags_ok demoFlagsFile demoFlags_placed true t ht⟩

/-- The small program of C41: its first message is in the table, and what it sends is decoded. -/
example (t : FullTable) (h : parseImpl demoFile true = .ok (some t)) :
    t.entries 1 = some ⟨⟨.info, c!"hello {=u8}"⟩, (MacroSymbol.new c!"p" c!"c" 1 c!"info" c!"hello {=u8}").mangle⟩ :=
  C62_messages demoFile true t h demoFile_distinct.1
    ⟨some (MacroSymbol.new c!"p" c!"c" 1 c!"info" c!"hello {=u8}").mangle, true, 1, 1⟩ (by simp [demoFile, demoSymbols])
    (.new c!"p" c!"c" 1 c!"info" c!"hello {=u8}") ⟨rfl, rfl⟩ .info rfl (by decide) (by decide)

/-- the hypotheses of `C62_end_to_end` are met by that message, with a timestamp -/
example (t : FullTable) (h : parseImpl demoFile true = .ok (some t)) :
    let e : Encoder.LogEvent := ⟨1, .info, some ⟨c!"{=u32:us}", [.uint 4 1000]⟩, ⟨c!"hello {=u8}", [.uint 1 7]⟩⟩
    ∃ bytes, e.bytes = some bytes ∧ ∀ rest, t.decoding.decode (bytes ++ rest) = some (.ok (e.frame, bytes.length)) := by
  refine C62_end_to_end demoFile true t h demoFile_distinct.1
    ⟨some (MacroSymbol.new c!"p" c!"c" 1 c!"info" c!"hello {=u8}").mangle, true, 1, 1⟩ (by simp [demoFile, demoSymbols])
    (.new c!"p" c!"c" 1 c!"info" c!"hello {=u8}") ⟨rfl, rfl⟩ .info rfl (by simp) (by decide) (some ⟨c!"{=u32:us}", [.uint 4 1000]⟩)
    ⟨⟨⟨some (MacroSymbol.new c!"p" c!"c" 3 c!"timestamp" c!"{=u32:us}").mangle, true, 3, 1⟩, by simp [demoFile, demoSymbols], _, ⟨rfl, rfl⟩, rfl, rfl⟩,
      [.u32], by decide +kernel, ?_⟩ [.uint 1 7] ⟨[.u8], by decide +kernel, ?_⟩
  · simp only [Encoder.ArgsOk, Encoder.ArgOk]; exact ⟨by decide, trivial⟩
  · simp only [Encoder.ArgsOk, Encoder.ArgOk]; exact ⟨by decide, trivial⟩

end Defmt
