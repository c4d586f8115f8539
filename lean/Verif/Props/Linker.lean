import Verif.Lemmas.Linker
import Verif.Props.Elf
/-!
# Properties C93–C95: linking

`Compiled`, `Used`, `SymbolOf`, `IsFileOf` are in `Verif.Spec.Linker`.
-/

namespace Defmt

open Parser Symbol Elf Bitflags Decoder Linker

/-! ### C93 -/

/-- **C93** Every string in use has a symbol, whose address is an index from 1 to 65533 (0 is the terminator of format
sequences), and the 16 bits that the program sends are the whole address. -/
theorem C93_index (t : Target) (items : List Linker.Item) (inputs : List Input) (hc : Compiled t items inputs) (o : Out)
    (h : link inputs = .ok o) (x : Interned) (hx : Used inputs x) :
    ∃ s, SymbolOf x o s ∧ 1 ≤ index s ∧ index s < 65534 ∧ index s = s.address ∧ ∀ s', SymbolOf x o s' → s' = s := by
  have hl := linked h
  have hpre := compiled_prefix hc
  obtain ⟨i, hi, hr, hn, hst⟩ := hx
  have hal : i ∈ alive inputs := List.mem_filter.mpr ⟨hi, by simp [hr]⟩
  obtain ⟨e, he, h1, h2, h3⟩ := hl.to hpre hal hst
  have hname : e.name = some x.symbol.mangle := by rw [h1]; rfl
  have ha := (hl.from_ he).1
  have hs := hl.small
  have hidx : index e = e.address := Nat.mod_eq_of_lt (by omega)
  have h2' : e.address + 1 ≤ o.bytes.length := h2
  refine ⟨e, ⟨he, hname⟩, by omega, by omega, hidx, ?_⟩
  rintro s' ⟨h4, h5⟩
  exact hl.unique hpre h4 he (by rw [h5, hname])

/-- **C93** The statics do not overlap: no two symbols of statics have the same address. -/
theorem C93_disjoint (t : Target) (ht : t.Ok) (items : List Linker.Item) (inputs : List Input) (hc : Compiled t items inputs) (o : Out)
    (h : link inputs = .ok o) :
    (∀ s ∈ o.symbols, 1 ≤ s.size ∧ s.address + s.size ≤ o.bytes.length) ∧
    o.symbols.Pairwise (fun a b => a.address + a.size ≤ b.address) ∧
    ∀ a ∈ o.symbols, ∀ b ∈ o.symbols, a.address = b.address → a = b := by
  have hl := linked h
  have hz := hl.sizes ht hc
  refine ⟨fun s hs => ⟨hz s hs, ?_⟩, hl.sorted, fun a ha b hb => sorted_inj hl.sorted hz ha hb⟩
  obtain ⟨-, p, -, h1, h2, -⟩ := hl.from_ hs
  have : s.size = p.2.bytes.length := by rw [h1]
  omega

/-- **C93** Different strings (or the same string in different places) have different indices. -/
theorem C93_distinct (t : Target) (ht : t.Ok) (items : List Linker.Item) (inputs : List Input) (hc : Compiled t items inputs) (o : Out)
    (h : link inputs = .ok o) (x y : Interned) (s r : ElfSymbol) (hs : SymbolOf x o s) (hr : SymbolOf y o r) (hxy : index s = index r) :
    x.symbol = y.symbol := by
  have hl := linked h
  have hd := C93_disjoint t ht items inputs hc o h
  have b1 := hd.1 s hs.1
  have b2 := hd.1 r hr.1
  have := hl.small
  have e1 : index s = s.address := Nat.mod_eq_of_lt (by omega)
  have e2 : index r = r.address := Nat.mod_eq_of_lt (by omega)
  have heq := hd.2.2 s hs.1 r hr.1 (by omega)
  have := hs.2
  rw [heq, hr.2] at this
  simp only [Option.some.injEq] at this
  exact C40_injective _ _ this.symm

/-- the symbols of the file -/
theorem file_cases {t : Target} {items : List Linker.Item} {inputs : List Input} (hc : Compiled t items inputs) {o : Out}
    (hl : Linked inputs o) {f : ElfFile} (hf : IsFileOf o f) {s : ElfSymbol} (hs : s ∈ f.symbols) :
    (s ∈ o.symbols ∧ ∃ p ∈ items.flatMap (Linker.Item.parts t), Holds o.bytes p.2 s) ∨
    (∃ m rest, s = ⟨some (c!"__DEFMT_MARKER" ++ rest), true, m, 0⟩) ∨
    (s.inDefmt = false ∧ ¬ IsVersionSymbol s ∧ ¬ IsEncodingSymbol s) := by
  obtain ⟨-, others, hperm, ho⟩ := hf
  have hs := hperm.mem_iff.mp hs
  rw [Out.allSymbols, List.mem_append, List.mem_append] at hs
  rcases hs with (hs | hs) | hs
  · obtain ⟨-, p, hp, h⟩ := hl.from_ hs
    exact .inl ⟨hs, p, hc.1.mem_iff.mp hp, h⟩
  · refine .inr (.inl ?_)
    obtain ⟨p⟩ := hl.phases
    rw [p.markers] at hs
    simp only [List.map_cons, List.map_nil, List.mem_cons, List.not_mem_nil, or_false] at hs
    rcases hs with rfl | rfl | rfl | rfl | rfl | rfl | rfl | rfl | rfl | rfl | rfl
    · exact ⟨_, c!"_TRACE_START", rfl⟩
    · exact ⟨_, c!"_TRACE_END", rfl⟩
    · exact ⟨_, c!"_DEBUG_START", rfl⟩
    · exact ⟨_, c!"_DEBUG_END", rfl⟩
    · exact ⟨_, c!"_INFO_START", rfl⟩
    · exact ⟨_, c!"_INFO_END", rfl⟩
    · exact ⟨_, c!"_WARN_START", rfl⟩
    · exact ⟨_, c!"_WARN_END", rfl⟩
    · exact ⟨_, c!"_ERROR_START", rfl⟩
    · exact ⟨_, c!"_ERROR_END", rfl⟩
    · exact ⟨_, c!"_END", rfl⟩
  · exact .inr (.inr (ho s hs))

theorem marker_skipped (rest : List Char) : demangle (c!"__DEFMT_MARKER" ++ rest) = none :=
  demangle_of_isSkipped (by simp only [isSkipped]; rfl)

theorem defmt_skipped (rest : List Char) : demangle (c!"_defmt" ++ rest) = none :=
  demangle_of_isSkipped (by simp only [isSkipped]; rfl)

/-- **C93** In a file that the linker made, no two messages share an address (the hypothesis of C41 and C62). -/
theorem C93_addresses (t : Target) (ht : t.Ok) (items : List Linker.Item) (inputs : List Input) (hc : Compiled t items inputs) (o : Out)
    (h : link inputs = .ok o) (f : ElfFile) (hf : IsFileOf o f) : DistinctAddresses f := by
  have hl := linked h
  intro s hs s' hs' n n' hin hin' hn hn' hd hd' ha
  rcases file_cases hc hl hf hs with ⟨h1, -⟩ | ⟨m, rest, rfl⟩ | ⟨h1, -⟩
  · rcases file_cases hc hl hf hs' with ⟨h2, -⟩ | ⟨m, rest, rfl⟩ | ⟨h2, -⟩
    · have := (C93_disjoint t ht items inputs hc o h).2.2 s h1 s' h2 ha
      rw [this, hn'] at hn
      cases hn; rfl
    · cases hn'; exact absurd (marker_skipped rest) hd'
    · rw [h2] at hin'; cases hin'
  · cases hn; exact absurd (marker_skipped rest) hd
  · rw [h1] at hin; cases hin

/-- **C93** The host finds at the index that a statement sends the string and the level of the statement. -/
theorem C93_table (t : Target) (ht : t.Ok) (items : List Linker.Item) (inputs : List Input) (hc : Compiled t items inputs) (o : Out)
    (h : link inputs = .ok o) (f : ElfFile) (hf : IsFileOf o f) (check : Bool) (table : FullTable) (hp : parseImpl f check = .ok (some table))
    (x : Interned) (hk : x.kind ≠ .timestamp) (s : ElfSymbol) (hs : SymbolOf x o s) :
    table.entries (index s) = some ⟨⟨x.kind.hostTag, x.string⟩, x.symbol.mangle⟩ := by
  have hl := linked h
  have hd := C93_disjoint t ht items inputs hc o h
  have b1 := hd.1 s hs.1
  have := hl.small
  have e1 : index s = s.address := Nat.mod_eq_of_lt (by omega)
  rw [e1]
  have hmem : s ∈ f.symbols := by
    obtain ⟨-, others, hperm, -⟩ := hf
    exact hperm.mem_iff.mpr (List.mem_append_left _ (List.mem_append_left _ hs.1))
  have hin : s.inDefmt = true := by
    obtain ⟨-, p, -, h1, -⟩ := hl.from_ hs.1
    rw [h1]
  refine C62_messages f check table hp (C93_addresses t ht items inputs hc o h f hf) s hmem x.symbol ⟨hs.2, hin⟩ x.kind.hostTag
    (interned_tag x) ?_ (hostTag_ne_value _)
  obtain ⟨kind, a, b, c, d⟩ := x
  cases kind with
  | log level => cases level <;> simp [Kind.hostTag]
  | timestamp => exact absurd rfl hk
  | _ => simp [Kind.hostTag]

/-- **C93** Two `timestamp!` in the crates of a program cannot be linked, nor can two copies of this version of `defmt`. -/
theorem C93_one_timestamp (t : Target) (items : List Linker.Item) (inputs : List Input) (hc : Compiled t items inputs) (o : Out)
    (h : link inputs = .ok o) :
    items.Pairwise (fun a b => ¬ (a.IsTimestamp ∧ b.IsTimestamp)) ∧ items.Pairwise (fun a b => ∀ r r', ¬ (a = .defmt r ∧ b = .defmt r')) := by
  have hl := linked h
  refine ⟨one_timestamp hc hl, (pairwise_of_nodup_flatMap _ (nodup_items hc hl)).imp ?_⟩
  rintro a b hab r r' ⟨rfl, rfl⟩
  exact hab c!"_defmt_version_ = 4" (by simp [Linker.Item.parts]) (by simp [Linker.Item.parts])

/-- a part whose symbol starts with something -/
theorem holds_name {bytes : List UInt8} {st : Static} {s : ElfSymbol} (h : Holds bytes st s) : s.name = some st.symbol ∧ s.inDefmt = true ∧ s.size = st.bytes.length := by
  obtain ⟨h1, -⟩ := h
  rw [h1]; exact ⟨rfl, rfl, rfl⟩

theorem not_version {s : List Char} (h : s.head? ≠ some '_' ∧ s.head? ≠ some '"') (e : ElfSymbol) (he : e.name = some s) :
    ¬ IsVersionSymbol e ∧ ¬ IsEncodingSymbol e := by
  constructor
  · rintro ⟨rest, hr | hr⟩
    · rw [he] at hr; cases hr; exact h.1 rfl
    · rw [he] at hr; cases hr; exact h.2 rfl
  · rintro ⟨rest, hr⟩
    rw [he] at hr; cases hr; exact h.1 rfl

theorem mangle_head (m : MacroSymbol) : m.mangle.head? = some '{' := rfl

/-- which symbols carry version and encoding -/
theorem version_name {t : Target} {items : List Linker.Item} {inputs : List Input} (hc : Compiled t items inputs) {o : Out}
    (hl : Linked inputs o) {f : ElfFile} (hf : IsFileOf o f) {s : ElfSymbol} (hs : s ∈ f.symbols) :
    (IsVersionSymbol s → s ∈ o.symbols ∧ s.name = some c!"_defmt_version_ = 4") ∧
    (IsEncodingSymbol s → s ∈ o.symbols ∧ (s.name = some c!"_defmt_encoding_ = raw" ∨ s.name = some c!"_defmt_encoding_ = rzcobs")) := by
  rcases file_cases hc hl hf hs with ⟨h1, p, hp, hh⟩ | ⟨m, rest, rfl⟩ | ⟨h1, h2, h3⟩
  · obtain ⟨hn, -, -⟩ := holds_name hh
    have hne : ∀ m : MacroSymbol, p.2.symbol = m.mangle → ¬ IsVersionSymbol s ∧ ¬ IsEncodingSymbol s := by
      intro m hm
      exact not_version (s := m.mangle) (by rw [mangle_head]; simp) s (by rw [hn, hm])
    rcases parts_cases hp with ⟨x, hx, -⟩ | hx | ⟨d, x, -, -, hx⟩ | hx | hx | hx
    · have := hne x.symbol (by rw [hx]; rfl)
      exact ⟨fun h => absurd h this.1, fun h => absurd h this.2⟩
    · rw [hx] at hn
      constructor
      · rintro ⟨r, hr | hr⟩
        · rw [hn] at hr; cases hr
        · rw [hn] at hr; cases hr
      · rintro ⟨r, hr⟩
        rw [hn] at hr; cases hr
    · have := hne (d.flagSymbol x.1 x.2.name) (by rw [hx]; rfl)
      exact ⟨fun h => absurd h this.1, fun h => absurd h this.2⟩
    · refine ⟨fun _ => ⟨h1, by rw [hn, hx]⟩, ?_⟩
      rintro ⟨r, hr⟩
      rw [hn, hx] at hr; cases hr
    · refine ⟨?_, fun _ => ⟨h1, .inl (by rw [hn, hx])⟩⟩
      rintro ⟨r, hr | hr⟩
      · rw [hn, hx] at hr; cases hr
      · rw [hn, hx] at hr; cases hr
    · refine ⟨?_, fun _ => ⟨h1, .inr (by rw [hn, hx])⟩⟩
      rintro ⟨r, hr | hr⟩
      · rw [hn, hx] at hr; cases hr
      · rw [hn, hx] at hr; cases hr
  · constructor
    · rintro ⟨r, hr | hr⟩
      · cases hr
      · cases hr
    · rintro ⟨r, hr⟩
      cases hr
  · exact ⟨fun h => absurd h h2, fun h => absurd h h3⟩

theorem noTwo_of {P : ElfSymbol → Prop} {o : Out} {f : ElfFile} {others : List ElfSymbol} (hperm : f.symbols.Perm (o.symbols ++ others))
    (hnd : o.symbols.Nodup) (h1 : ∀ a ∈ o.symbols, ∀ b ∈ o.symbols, P a → P b → a = b) (h2 : ∀ s ∈ others, ¬ P s) : NoTwo P f.symbols := by
  unfold NoTwo
  refine (List.Perm.pairwise_iff (R := fun a b => ¬ (P a ∧ P b)) (fun h k => h ⟨k.2, k.1⟩) hperm).mpr ?_
  refine List.pairwise_append.mpr ⟨hnd.imp_of_mem ?_, ?_, ?_⟩
  · intro a b ha hb hne ⟨pa, pb⟩
    exact hne (h1 a ha b hb pa pb)
  · exact List.Pairwise.imp_of_mem (R := fun _ _ => True) (fun ha _ _ h => h2 _ ha h.1) (List.pairwise_of_forall (fun _ _ => trivial))
  · intro a _ b hb h
    exact h2 b hb h.2

theorem nodup_of_names {l : List ElfSymbol} (h : (l.map (·.name)).Nodup) : l.Nodup := by
  exact (List.pairwise_map.mp h).imp (fun hne heq => hne (by rw [heq]))

/-- what else is in the file -/
theorem file_perm {inputs : List Input} {o : Out} (hl : Linked inputs o) {f : ElfFile} (hf : IsFileOf o f) :
    ∃ others, f.symbols.Perm (o.symbols ++ others) ∧ ∀ s ∈ others, (∃ m rest, s = ⟨some (c!"__DEFMT_MARKER" ++ rest), true, m, 0⟩) ∨
      (s.inDefmt = false ∧ ¬ IsVersionSymbol s ∧ ¬ IsEncodingSymbol s) := by
  obtain ⟨hd, others, hperm, ho⟩ := hf
  refine ⟨o.markers.map (fun m => ⟨some m.1, true, m.2, 0⟩) ++ others, ?_, ?_⟩
  · rw [Out.allSymbols, List.append_assoc] at hperm
    exact hperm
  · intro s hs
    rcases List.mem_append.mp hs with hs | hs
    · obtain ⟨p⟩ := hl.phases
      rw [p.markers] at hs
      simp only [List.map_cons, List.map_nil, List.mem_cons, List.not_mem_nil, or_false] at hs
      rcases hs with rfl | rfl | rfl | rfl | rfl | rfl | rfl | rfl | rfl | rfl | rfl
      · exact .inl ⟨_, c!"_TRACE_START", rfl⟩
      · exact .inl ⟨_, c!"_TRACE_END", rfl⟩
      · exact .inl ⟨_, c!"_DEBUG_START", rfl⟩
      · exact .inl ⟨_, c!"_DEBUG_END", rfl⟩
      · exact .inl ⟨_, c!"_INFO_START", rfl⟩
      · exact .inl ⟨_, c!"_INFO_END", rfl⟩
      · exact .inl ⟨_, c!"_WARN_START", rfl⟩
      · exact .inl ⟨_, c!"_WARN_END", rfl⟩
      · exact .inl ⟨_, c!"_ERROR_START", rfl⟩
      · exact .inl ⟨_, c!"_ERROR_END", rfl⟩
      · exact .inl ⟨_, c!"_END", rfl⟩
    · exact .inr (ho s hs)

/-- a symbol of a kept section is in the file -/
theorem kept_symbol {t : Target} {items : List Linker.Item} {inputs : List Input} (hc : Compiled t items inputs) {o : Out}
    (hl : Linked inputs o) {p : Part} (hp : p ∈ items.flatMap (Linker.Item.parts t)) (hn : p.1 = c!".defmt.end") :
    ∃ e ∈ o.symbols, Holds o.bytes p.2 e := by
  obtain ⟨i, hi, h1, h2⟩ := mem_partsOf.mp (hc.1.mem_iff.mpr hp)
  exact hl.to (compiled_prefix hc) (alive_of_end hi (h1.trans hn)) h2

/-- the timestamps among the symbols -/
theorem timestamp_symbol {t : Target} {items : List Linker.Item} (hok : ∀ it ∈ items, it.Ok) {inputs : List Input}
    (hc : Compiled t items inputs) {o : Out} (hl : Linked inputs o) {s : ElfSymbol} (hs : s ∈ o.symbols) (hts : IsTimestampSymbol s) :
    ∃ a b c d, Linker.Item.timestamp a b c d ∈ items ∧ s.name = some (⟨.timestamp, a, b, c, d⟩ : Interned).symbol.mangle := by
  obtain ⟨hh, ⟨-, n, hn, hdem⟩, htag⟩ := hts
  obtain ⟨-, p, hp, hold⟩ := hl.from_ hs
  obtain ⟨hname, -, -⟩ := holds_name hold
  rw [hname] at hn
  simp only [Option.some.injEq] at hn
  rcases parts_cases (hc.1.mem_iff.mp hp) with ⟨x, hx, hx'⟩ | hx | ⟨d, x, -, -, hx⟩ | hx | hx | hx
  · have e : p.2.symbol = x.symbol.mangle := by rw [hx]; rfl
    rw [← hn, e, demangle_mangle] at hdem
    cases hdem
    have hkind : x.kind.hostTag = .timestamp := tagName_inj (by rw [← interned_tag]; exact htag)
    have hk : x.kind = .timestamp := by
      revert hkind
      cases x.kind with
      | log level => cases level <;> simp [Kind.hostTag]
      | _ => simp [Kind.hostTag]
    rcases hx' with hx' | ⟨a, b, c, d, hx', rfl⟩ | ⟨d, -, rfl⟩
    · exact absurd hk (hok _ hx')
    · exact ⟨a, b, c, d, hx', by rw [hname, e]⟩
    · cases hk
  · rw [← hn, hx] at hdem
    have : demangle (timestampMarker t).2.symbol = none := marker_skipped c!"_TIMESTAMP_WAS_DEFINED"
    rw [this] at hdem; cases hdem
  · rw [← hn, hx] at hdem
    have : demangle (flagPart t d x).2.symbol = demangle (d.flagSymbol x.1 x.2.name).mangle := rfl
    rw [this, demangle_mangle] at hdem
    cases hdem
    exact absurd (tagName_inj (a := .bitflagsValue) (b := .timestamp) htag) (by decide)
  · rw [← hn, hx] at hdem
    have : demangle c!"_defmt_version_ = 4" = none := defmt_skipped c!"_version_ = 4"
    rw [this] at hdem; cases hdem
  · rw [← hn, hx] at hdem
    have : demangle c!"_defmt_encoding_ = raw" = none := defmt_skipped c!"_encoding_ = raw"
    rw [this] at hdem; cases hdem
  · rw [← hn, hx] at hdem
    have : demangle c!"_defmt_encoding_ = rzcobs" = none := defmt_skipped c!"_encoding_ = rzcobs"
    rw [this] at hdem; cases hdem

/-- the encoding symbols are those of the one `defmt` crate -/
theorem encoding_symbol {t : Target} {items : List Linker.Item} {inputs : List Input}
    (hc : Compiled t items inputs) {o : Out} (hl : Linked inputs o) {raw : Bool} (hr : .defmt raw ∈ items) {s : ElfSymbol} (hs : s ∈ o.symbols)
    {e : List Char} (hn : s.name = some e) (he : e = c!"_defmt_encoding_ = raw" ∨ e = c!"_defmt_encoding_ = rzcobs") :
    e = if raw then c!"_defmt_encoding_ = raw" else c!"_defmt_encoding_ = rzcobs" := by
  obtain ⟨-, p, hp, hold⟩ := hl.from_ hs
  obtain ⟨hname, -, -⟩ := holds_name hold
  rw [hn] at hname
  simp only [Option.some.injEq] at hname
  have hm : ∀ m : MacroSymbol, p.2.symbol ≠ m.mangle := by
    intro m hm
    rw [← hname] at hm
    rcases he with he | he <;> (rw [he] at hm; exact absurd (congrArg List.head? hm) (by rw [mangle_head]; decide))
  obtain ⟨it, hit, hpi⟩ := List.mem_flatMap.mp (hc.1.mem_iff.mp hp)
  have hit' : ∃ r, it = .defmt r := by
    cases it with
    | interned x => rw [List.mem_singleton.mp hpi] at hm; exact absurd rfl (hm x.symbol)
    | timestamp a b c d =>
      simp only [Linker.Item.parts, List.mem_cons, List.not_mem_nil, or_false] at hpi
      rcases hpi with rfl | rfl
      · exact absurd rfl (hm (⟨.timestamp, a, b, c, d⟩ : Interned).symbol)
      · exfalso
        rcases he with he | he <;> (rw [he] at hname; exact absurd hname (by simp [timestampMarker]))
    | bitflags d =>
      simp only [Linker.Item.parts, List.mem_cons, List.mem_map] at hpi
      rcases hpi with rfl | ⟨x, hx, rfl⟩
      · exact absurd rfl (hm (flagsInterned d).symbol)
      · exact absurd rfl (hm (d.flagSymbol x.1 x.2.name))
    | defmt r => exact ⟨r, rfl⟩
  obtain ⟨r, rfl⟩ := hit'
  have hpw := (pairwise_of_nodup_flatMap _ (nodup_items hc hl))
  have : Linker.Item.defmt r = .defmt raw := by
    refine eq_of_pairwise_not (P := fun it => ∃ r, it = Linker.Item.defmt r) (hpw.imp ?_) hit hr ⟨_, rfl⟩ ⟨_, rfl⟩
    rintro a b hab ⟨⟨r, rfl⟩, ⟨r', rfl⟩⟩
    exact hab c!"_defmt_version_ = 4" (by simp [Linker.Item.parts]) (by simp [Linker.Item.parts])
  cases this
  simp only [Linker.Item.parts, List.mem_cons, List.not_mem_nil, or_false] at hpi
  rcases hpi with rfl | rfl
  · rcases he with rfl | rfl <;> cases hname
  · rw [hname]

/-- the values of the flags are where the host looks for them -/
theorem flag_value {t : Target} {items : List Linker.Item} {inputs : List Input}
    (hc : Compiled t items inputs) {o : Out} (hl : Linked inputs o) {d : Definition} (hd : .bitflags d ∈ items)
    (hv : ∀ f ∈ d.flags, f.value < 2 ^ 128) {x : Nat × Flag} (hx : x ∈ d.enabled) :
    ∃ e ∈ o.symbols, MadeBy (d.flagSymbol x.1 x.2.name) e ∧ HoldsValue o.bytes e x.2.value := by
  obtain ⟨e, he, hold⟩ := kept_symbol hc hl (p := flagPart t d x) (List.mem_flatMap.mpr ⟨_, hd, by
    simp only [Linker.Item.parts, List.mem_cons, List.mem_map]; exact .inr ⟨x, hx, rfl⟩⟩) rfl
  obtain ⟨h1, h2, h3⟩ := holds_name hold
  obtain ⟨-, h5, h6⟩ := hold
  have hlen : (flagPart t d x).2.bytes.length = 16 := rfl
  rw [hlen] at h3 h5 h6
  have := hl.small
  exact ⟨e, he, ⟨h1, h2⟩, h3, h5, by omega, hv _ (enabledFlags_bound 0 d.flags x hx).2.2, h6⟩

/-- **C93** The host accepts every program that was linked: with a `defmt` crate in it, whatever else is logged, there is a
table, with the encoding of the program. -/
theorem C93_accepted (t : Target) (items : List Linker.Item) (hok : ∀ it ∈ items, it.Ok) (inputs : List Input)
    (hc : Compiled t items inputs) (o : Out) (h : link inputs = .ok o) (f : ElfFile) (hf : IsFileOf o f) (check raw : Bool)
    (hr : .defmt raw ∈ items) : ∃ table, parseImpl f check = .ok (some table) ∧ table.encoding = if raw then .raw else .rzcobs := by
  have hl := linked h
  have hpre := compiled_prefix hc
  have hnd : o.symbols.Nodup := nodup_of_names (hl.names hpre)
  obtain ⟨others, hperm, ho⟩ := file_perm hl hf
  have hmem : ∀ s ∈ o.symbols, s ∈ f.symbols := fun s hs => hperm.mem_iff.mpr (List.mem_append_left _ hs)
  obtain ⟨ev, hev, hhv⟩ := kept_symbol hc hl (p := (c!".defmt.end", ⟨c!"_defmt_version_ = 4", 1, [0]⟩))
    (List.mem_flatMap.mpr ⟨_, hr, by simp [Linker.Item.parts]⟩) rfl
  obtain ⟨ee, hee, hhe⟩ := kept_symbol hc hl (p := (c!".defmt.end", ⟨if raw then c!"_defmt_encoding_ = raw" else c!"_defmt_encoding_ = rzcobs", 1, [0]⟩))
    (List.mem_flatMap.mpr ⟨_, hr, by simp [Linker.Item.parts]⟩) rfl
  have nv := (holds_name hhv).1
  have ne := (holds_name hhe).1
  have hmark : ∀ m rest, ¬ IsVersionSymbol ⟨some (c!"__DEFMT_MARKER" ++ rest), true, m, 0⟩ ∧ ¬ IsEncodingSymbol ⟨some (c!"__DEFMT_MARKER" ++ rest), true, m, 0⟩ := by
    intro m rest
    constructor
    · rintro ⟨r, hr | hr⟩
      · cases hr
      · cases hr
    · rintro ⟨r, hr⟩
      cases hr
  have hex : ∃ table, parseImpl f check = .ok (some table) := by
    refine C62_accepted f check o.bytes hf.1 ⟨?_, ev, hmem _ hev, c!"4", .inl nv⟩ ⟨?_, ee, hmem _ hee, ?_⟩ ?_ ⟨ev, hmem _ hev, .inr (.inl nv)⟩
      ⟨ee, hmem _ hee, ?_⟩ ?_
    · refine noTwo_of hperm hnd ?_ ?_
      · intro a ha b hb pa pb
        have h1 := ((version_name hc hl hf (hmem a ha)).1 pa).2
        have h2 := ((version_name hc hl hf (hmem b hb)).1 pb).2
        exact hl.unique hpre ha hb (h1.trans h2.symm)
      · intro s hs
        rcases ho s hs with ⟨m, rest, rfl⟩ | h
        · exact (hmark m rest).1
        · exact h.2.1
    · refine noTwo_of hperm hnd ?_ ?_
      · intro a ha b hb pa pb
        have h1 := ((version_name hc hl hf (hmem a ha)).2 pa).2
        have h2 := ((version_name hc hl hf (hmem b hb)).2 pb).2
        have k : ∀ s ∈ o.symbols, (s.name = some c!"_defmt_encoding_ = raw" ∨ s.name = some c!"_defmt_encoding_ = rzcobs") →
            s.name = some (if raw then c!"_defmt_encoding_ = raw" else c!"_defmt_encoding_ = rzcobs") := by
          intro s hs hn
          rcases hn with hn | hn
          · rw [hn, ← encoding_symbol hc hl hr hs hn (.inl rfl)]
          · rw [hn, ← encoding_symbol hc hl hr hs hn (.inr rfl)]
        exact hl.unique hpre ha hb ((k a ha h1).trans (k b hb h2).symm)
      · intro s hs
        rcases ho s hs with ⟨m, rest, rfl⟩ | h
        · exact (hmark m rest).2
        · exact h.2.2
    · cases raw
      · exact ⟨c!"rzcobs", ne⟩
      · exact ⟨c!"raw", ne⟩
    · refine noTwo_of hperm hnd ?_ ?_
      · intro a ha b hb pa pb
        obtain ⟨a1, a2, a3, a4, i1, n1⟩ := timestamp_symbol hok hc hl ha pa
        obtain ⟨b1, b2, b3, b4, i2, n2⟩ := timestamp_symbol hok hc hl hb pb
        have := eq_of_pairwise_not (one_timestamp hc hl) i1 i2 trivial trivial
        cases this
        exact hl.unique hpre ha hb (n1.trans n2.symm)
      · rintro s hs ⟨hh, ⟨hin, n, hn, hdem⟩, -⟩
        rcases ho s hs with ⟨m, rest, rfl⟩ | h
        · cases hn; rw [marker_skipped] at hdem; cases hdem
        · rw [h.1] at hin; cases hin
    · cases raw
      · exact .inr ne
      · exact .inl ne
    · intro s hs
      rcases List.mem_append.mp (hperm.mem_iff.mp hs) with hs | hs
      · obtain ⟨-, p, hp, hold⟩ := hl.from_ hs
        obtain ⟨hname, hin, -⟩ := holds_name hold
        rcases parts_cases (hc.1.mem_iff.mp hp) with ⟨x, hx, -⟩ | hx | ⟨d, x, hd, hxe, hx⟩ | hx | hx | hx
        · refine .inr (.inl ⟨x.symbol, ⟨by rw [hname, hx]; rfl, hin⟩, ?_⟩)
          rw [interned_tag]
          intro h
          exact hostTag_ne_value x.kind (tagName_inj (b := .bitflagsValue) h)
        · exact .inl (.inr (.inr (.inr (.inr ⟨c!"_TIMESTAMP_WAS_DEFINED", .inr (.inr (by rw [hname, hx]; rfl))⟩))))
        · have hdok := hok _ hd
          obtain ⟨e, he, h1, h2⟩ := flag_value hc hl hd hdok.2 hxe
          have hse : s = e := hl.unique hpre hs he (by rw [hname, h1.1, hx]; rfl)
          subst hse
          obtain ⟨b1, b2, b3⟩ := enabledFlags_bound 0 d.flags x hxe
          have := hdok.1.count
          exact .inr (.inr ⟨d, x.1, x.2.name, x.2.value, hdok.1, by omega, hdok.1.flags _ b3, h1, h2⟩)
        · exact .inl (.inr (.inr (.inr (.inr ⟨c!"_version_ = 4", .inr (.inl (by rw [hname, hx]; rfl))⟩))))
        · exact .inl (.inr (.inr (.inr (.inr ⟨c!"_encoding_ = raw", .inr (.inl (by rw [hname, hx]; rfl))⟩))))
        · exact .inl (.inr (.inr (.inr (.inr ⟨c!"_encoding_ = rzcobs", .inr (.inl (by rw [hname, hx]; rfl))⟩))))
      · rcases ho s hs with ⟨m, rest, rfl⟩ | h
        · exact .inl (.inr (.inr (.inr (.inr ⟨rest, .inr (.inr rfl)⟩))))
        · exact .inl (.inl h.1)
  obtain ⟨table, htab⟩ := hex
  refine ⟨table, htab, ?_⟩
  cases raw
  · rcases C42_encoding f check table htab ee (hmem _ hee) c!"rzcobs" ne with ⟨h1, -⟩ | ⟨-, h2⟩
    · exact absurd h1 (by decide)
    · exact h2
  · rcases C42_encoding f check table htab ee (hmem _ hee) c!"raw" ne with ⟨-, h2⟩ | ⟨h1, -⟩
    · exact h2
    · exact absurd h1 (by decide)

theorem decimal_injective {n m : Nat} (h : Display.digits 10 n = Display.digits 10 m) : n = m := by
  have a := parseDigits_decimal (n := n) (m := n + m + 1) (by omega)
  have b := parseDigits_decimal (n := m) (m := n + m + 1) (by omega)
  have h' : decimal n = decimal m := h
  rw [h', b] at a
  simpa using a.symm

theorem flag_data (name : List Char) (hn : IsName name) (i : Nat) (flag : List Char) :
    splitColons (name ++ c!"::" ++ Display.digits 10 i ++ c!"::" ++ flag) = name :: Display.digits 10 i :: splitColons flag := by
  have e : name ++ c!"::" ++ Display.digits 10 i ++ c!"::" ++ flag = (name ++ c!"::") ++ ((Display.digits 10 i ++ c!"::") ++ flag) := by
    simp only [List.append_assoc]
  rw [e, splitColons_append (name_no_colon hn), splitColons_append (digits_no_colon i)]

/-- flags with different numbers have different symbols -/
theorem flagSymbol_inj {d : Definition} (hn : IsName d.name) {i j : Nat} {a b : List Char}
    (h : (d.flagSymbol i a).mangle = (d.flagSymbol j b).mangle) : i = j := by
  have := congrArg MacroSymbol.data (C40_injective _ _ h)
  simp only [Definition.flagSymbol, MacroSymbol.new] at this
  have := congrArg splitColons this
  rw [flag_data _ hn, flag_data _ hn] at this
  simp only [List.cons.injEq, true_and] at this
  exact decimal_injective this.1

/-- **C93** The table has the flags of every `bitflags!` type of the program, with their values, in the order of the definition. (Types are told
apart by package, crate, invocation and name.) -/
theorem C93_flags (t : Target) (items : List Linker.Item) (hok : ∀ it ∈ items, it.Ok) (inputs : List Input)
    (hc : Compiled t items inputs) (o : Out) (h : link inputs = .ok o) (f : ElfFile) (hf : IsFileOf o f) (check : Bool) (table : FullTable)
    (hp : parseImpl f check = .ok (some table)) (d : Definition) (hd : .bitflags d ∈ items)
    (hkey : ∀ d', .bitflags d' ∈ items → d'.package = d.package → d'.crateName = d.crateName → d'.disambiguator = d.disambiguator →
      d'.name = d.name → d' = d) :
    table.bitflags ⟨d.name, d.package, decimal d.disambiguator, some d.crateName⟩ =
      if d.flags.filter (·.enabled) = [] then none
      else some ((d.flags.filter (·.enabled)).map (fun x => (x.name, x.value))) := by
  have hl := linked h
  have hpre := compiled_prefix hc
  have hnd : o.symbols.Nodup := nodup_of_names (hl.names hpre)
  have hdok := hok _ hd
  obtain ⟨others, hperm, ho⟩ := file_perm hl hf
  refine C63_flags d hdok.1 f ?_ check table hp
  have hinc := enabledFlags_increasing 0 d.flags
  have hnd' : (d.enabled.map (·.1)).Nodup := List.pairwise_map.mpr (hinc.imp (fun h => Nat.ne_of_lt h))
  -- the symbol of a flag
  have hex : ∀ n, ∃ e : ElfSymbol, ∀ x ∈ d.enabled, x.1 = n → e ∈ o.symbols ∧ MadeBy (d.flagSymbol x.1 x.2.name) e ∧ HoldsValue o.bytes e x.2.value := by
    intro n
    by_cases hn : ∃ x ∈ d.enabled, x.1 = n
    · obtain ⟨x, hx, rfl⟩ := hn
      obtain ⟨e, he, h1, h2⟩ := flag_value hc hl hd hdok.2 hx
      refine ⟨e, fun y hy hxy => ?_⟩
      rw [inj_of_nodup hnd' hy hx hxy]
      exact ⟨he, h1, h2⟩
    · exact ⟨⟨none, false, 0, 0⟩, fun x hx hxn => absurd ⟨x, hx, hxn⟩ hn⟩
  let static : Nat → ElfSymbol := fun n => Classical.choose (hex n)
  have hst : ∀ x ∈ d.enabled, static x.1 ∈ o.symbols ∧ MadeBy (d.flagSymbol x.1 x.2.name) (static x.1) ∧ HoldsValue o.bytes (static x.1) x.2.value :=
    fun x hx => Classical.choose_spec (hex x.1) x hx rfl
  have hinj : ∀ x ∈ d.enabled, ∀ y ∈ d.enabled, static x.1 = static y.1 → x.1 = y.1 := by
    intro x hx y hy hxy
    have h1 := (hst x hx).2.1.1
    rw [hxy, (hst y hy).2.1.1] at h1
    simp only [Option.some.injEq] at h1
    exact (flagSymbol_inj hdok.1.name h1).symm
  have hmine : (d.enabled.map (fun x => static x.1)).Nodup := by
    refine List.pairwise_map.mpr (hinc.imp_of_mem ?_)
    intro x y hx hy hlt heq
    have := hinj x hx y hy heq
    omega
  have hsplit : o.symbols.Perm (d.enabled.map (fun x => static x.1) ++ o.symbols.filter (fun s => !decide (s ∈ d.enabled.map (fun x => static x.1)))) := by
    refine (List.filter_append_perm (fun s => decide (s ∈ d.enabled.map (fun x => static x.1))) o.symbols).symm.trans (List.Perm.append_right _ ?_)
    refine (List.perm_ext_iff_of_nodup (List.Nodup.sublist List.filter_sublist hnd) hmine).mpr ?_
    intro a
    rw [List.mem_filter, decide_eq_true_eq]
    refine ⟨fun h => h.2, fun h => ⟨?_, h⟩⟩
    obtain ⟨x, hx, rfl⟩ := List.mem_map.mp h
    exact (hst x hx).1
  refine ⟨o.bytes, static, o.symbols.filter (fun s => !decide (s ∈ d.enabled.map (fun x => static x.1))) ++ others, hf.1, ?_, fun x hx => (hst x hx).2, ?_⟩
  · rw [← List.append_assoc]
    exact hperm.trans (List.Perm.append_right _ hsplit)
  · rintro s hs ⟨hh, ⟨hin, n, hn, hdem⟩, htag, hpk, hcr, hdis, rest, hrest⟩
    rcases List.mem_append.mp hs with hs | hs
    · rw [List.mem_filter] at hs
      obtain ⟨hs', hnot⟩ := hs
      simp only [Bool.not_eq_true', decide_eq_false_iff_not] at hnot
      apply hnot
      obtain ⟨-, p, hpp, hold⟩ := hl.from_ hs'
      obtain ⟨hname, -, -⟩ := holds_name hold
      rw [hname] at hn
      simp only [Option.some.injEq] at hn
      rcases parts_cases (hc.1.mem_iff.mp hpp) with ⟨x, hx, hx'⟩ | hx | ⟨d', x, hd', hxe, hx⟩ | hx | hx | hx
      · exfalso
        have e : p.2.symbol = x.symbol.mangle := by rw [hx]; rfl
        rw [← hn, e, demangle_mangle] at hdem
        cases hdem
        exact hostTag_ne_value x.kind (tagName_inj (b := .bitflagsValue) (by rw [← interned_tag]; exact htag))
      · exfalso
        rw [← hn, hx] at hdem
        have : demangle (timestampMarker t).2.symbol = none := marker_skipped c!"_TIMESTAMP_WAS_DEFINED"
        rw [this] at hdem; cases hdem
      · have e : p.2.symbol = (d'.flagSymbol x.1 x.2.name).mangle := by rw [hx]; rfl
        rw [← hn, e, demangle_mangle] at hdem
        cases hdem
        have hd'ok := hok _ hd'
        have hnm : d'.name = d.name := by
          have h1 : d'.name ++ c!"::" ++ Display.digits 10 x.1 ++ c!"::" ++ x.2.name = d.name ++ c!"::" ++ rest := hrest
          have := congrArg splitColons h1
          rw [flag_data _ hd'ok.1.name, splitColons_append (name_no_colon hdok.1.name)] at this
          exact (List.cons.inj this).1
        have hcr' : d'.crateName = d.crateName := by
          have h1 : some d'.crateName = some d.crateName := hcr
          exact Option.some.inj h1
        have hdis' : d'.disambiguator = d.disambiguator := decimal_injective hdis
        have := hkey d' hd' hpk hcr' hdis' hnm
        subst this
        refine List.mem_map.mpr ⟨x, hxe, ?_⟩
        exact hl.unique hpre (hst x hxe).1 hs' (by rw [(hst x hxe).2.1.1, hname, e])
      · exfalso
        rw [← hn, hx] at hdem
        have : demangle c!"_defmt_version_ = 4" = none := defmt_skipped c!"_version_ = 4"
        rw [this] at hdem; cases hdem
      · exfalso
        rw [← hn, hx] at hdem
        have : demangle c!"_defmt_encoding_ = raw" = none := defmt_skipped c!"_encoding_ = raw"
        rw [this] at hdem; cases hdem
      · exfalso
        rw [← hn, hx] at hdem
        have : demangle c!"_defmt_encoding_ = rzcobs" = none := defmt_skipped c!"_encoding_ = rzcobs"
        rw [this] at hdem; cases hdem
    · rcases ho s hs with ⟨m, rest', rfl⟩ | h
      · cases hn; rw [marker_skipped] at hdem; cases hdem
      · rw [h.1] at hin; cases hin

/-- a symbol of a static is in the file -/
theorem symbol_in_file {o : Out} {f : ElfFile} (hf : IsFileOf o f) {s : ElfSymbol} (hs : s ∈ o.symbols) : s ∈ f.symbols := by
  obtain ⟨-, others, hperm, -⟩ := hf
  exact hperm.mem_iff.mpr (List.mem_append_left _ (List.mem_append_left _ hs))

theorem symbol_made {inputs : List Input} {o : Out} (hl : Linked inputs o) {x : Interned} {s : ElfSymbol} (hs : SymbolOf x o s) : MadeBy x.symbol s := by
  obtain ⟨-, p, -, hold⟩ := hl.from_ hs.1
  exact ⟨hs.2, (holds_name hold).2.1⟩

/-- **C93** The timestamp of the program is the timestamp of the table; without one there is none. -/
theorem C93_timestamp (t : Target) (items : List Linker.Item) (hok : ∀ it ∈ items, it.Ok) (inputs : List Input)
    (hc : Compiled t items inputs) (o : Out) (h : link inputs = .ok o) (f : ElfFile) (hf : IsFileOf o f) (check : Bool) (table : FullTable)
    (hp : parseImpl f check = .ok (some table)) :
    (∀ a b c d, Linker.Item.timestamp a b c d ∈ items → Used inputs ⟨.timestamp, a, b, c, d⟩ →
      table.timestamp.map (·.string) = some ⟨.timestamp, d⟩) ∧
    ((∀ a b c d, Linker.Item.timestamp a b c d ∉ items) → table.timestamp = none) := by
  have hl := linked h
  have ht := C62_timestamp f check table hp
  constructor
  · intro a b c d hit hu
    obtain ⟨s, hs, -⟩ := C93_index t items inputs hc o h _ hu
    rw [ht.1 s (symbol_in_file hf hs.1) _ (symbol_made hl hs) rfl]
    rfl
  · intro hno
    apply ht.2
    intro s hs hts
    rcases file_cases hc hl hf hs with ⟨h1, -⟩ | ⟨m, rest, rfl⟩ | ⟨h1, -⟩
    · obtain ⟨a, b, c, d, hi, -⟩ := timestamp_symbol hok hc hl h1 hts
      exact hno a b c d hi
    · obtain ⟨hh, ⟨-, n, hn, hdem⟩, -⟩ := hts
      cases hn; rw [marker_skipped] at hdem; cases hdem
    · obtain ⟨hh, ⟨hin, -⟩, -⟩ := hts
      rw [h1] at hin; cases hin

/-- The statements that log. -/
def IsLogKind : Kind → Prop
  | .log _ | .println => True
  | _ => False

/-- **C93** From the source through compiler and linker to the host: what a log statement of a linked program sends is decoded with the table of the
file to the level, the text and the arguments of this statement. -/
theorem C93_end_to_end (t : Target) (ht : t.Ok) (items : List Linker.Item) (inputs : List Input) (hc : Compiled t items inputs) (o : Out)
    (h : link inputs = .ok o) (f : ElfFile) (hf : IsFileOf o f) (check : Bool) (table : FullTable) (hp : parseImpl f check = .ok (some table))
    (x : Interned) (hk : IsLogKind x.kind) (hx : Used inputs x) (ts : Option Encoder.Call) (hts : TimestampIs f table ts) (args : List Val)
    (hargs : Encoder.Call.Ok table.decoding ⟨x.string, args⟩) :
    ∃ s, SymbolOf x o s ∧ ∃ bytes, (⟨index s, x.kind.hostTag, ts, ⟨x.string, args⟩⟩ : Encoder.LogEvent).bytes = some bytes ∧
      ∀ rest, table.decoding.decode (bytes ++ rest) =
        some (.ok ((⟨index s, x.kind.hostTag, ts, ⟨x.string, args⟩⟩ : Encoder.LogEvent).frame, bytes.length)) := by
  obtain ⟨s, hs, h1, h2, h3, -⟩ := C93_index t items inputs hc o h x hx
  refine ⟨s, hs, ?_⟩
  rw [h3]
  refine C62_end_to_end f check table hp (C93_addresses t ht items inputs hc o h f hf) s (symbol_in_file hf hs.1) x.symbol
    (symbol_made (linked h) hs) x.kind.hostTag (interned_tag x) ?_ (by omega) ts hts args hargs
  revert hk
  cases x.kind with
  | log level => intro _; cases level <;> simp [Kind.hostTag]
  | println => intro _; simp [Kind.hostTag]
  | _ => intro h; exact h.elim

/-! ### C94 -/

/-- where the rules put the sections of the macros -/
theorem rule_of (x : Interned) (level : Level) :
    hasPrefix (c!".defmt." ++ levelName level ++ c!".") x.part.1 = decide (x.kind = .log level) := by
  obtain ⟨kind, a, b, c, d⟩ := x
  cases kind with
  | log l => cases l <;> cases level <;> rfl
  | _ => cases level <;> rfl

/-- The place of the symbol of an interned string among the phases: the markers around it. -/
theorem symbol_phase {inputs : List Input} {o : Out} (hl : Linked inputs o) (p : Phases (alive inputs) o) {x : Interned}
    (hx : x.part ∈ partsOf inputs) {s : ElfSymbol} (hs : SymbolOf x o s) :
    (hasPrefix c!".defmt.prim." x.part.1 = true ∧ s.address + 1 ≤ p.o1.bytes.length) ∨
    (x.kind = .log .trace ∧ p.o1.bytes.length ≤ s.address ∧ s.address + 1 ≤ p.o2.bytes.length) ∨
    (x.kind = .log .debug ∧ p.o2.bytes.length ≤ s.address ∧ s.address + 1 ≤ p.o3.bytes.length) ∨
    (x.kind = .log .info ∧ p.o3.bytes.length ≤ s.address ∧ s.address + 1 ≤ p.o4.bytes.length) ∨
    (x.kind = .log .warn ∧ p.o4.bytes.length ≤ s.address ∧ s.address + 1 ≤ p.o5.bytes.length) ∨
    (x.kind = .log .error ∧ p.o5.bytes.length ≤ s.address ∧ s.address + 1 ≤ p.o6.bytes.length) ∨
    ((∀ level, x.kind ≠ .log level) ∧ p.o6.bytes.length ≤ s.address) := by
  have hsym := (p.prim.trans (p.trace.trans (p.debug.trans (p.info.trans (p.warn.trans (p.error.trans p.rest)))))).symbols
  rw [p.start.2, List.nil_append, ← p.final.2] at hsym
  have hmem := hs.1
  rw [hsym] at hmem
  simp only [List.mem_append] at hmem
  -- the input is that of the string
  have key : ∀ i ∈ alive inputs, ∀ st ∈ i.statics, s = ⟨some st.symbol, true, s.address, st.bytes.length⟩ →
      i.name = x.part.1 ∧ st.bytes.length = 1 := by
    intro i hi st hst he
    have hn : st.symbol = x.part.2.symbol := by
      have := hs.2
      rw [he] at this
      simp only [Option.some.injEq] at this
      exact this
    have := hl.part (p := (i.name, st)) (q := x.part) (mem_partsOf.mpr ⟨i, alive_sub hi, rfl, hst⟩) hx hn
    rw [← this]
    refine ⟨rfl, ?_⟩
    have h2 : st = x.part.2 := by rw [← this]
    rw [h2]; rfl
  have tk : ∀ p l, ∀ i ∈ taken p l, i ∈ l ∧ hasPrefix p i.name = true := fun p l i hi => List.mem_filter.mp hi
  have lf : ∀ p l, ∀ i ∈ left p l, i ∈ l ∧ hasPrefix p i.name = false := fun p l i hi => by
    have := List.mem_filter.mp hi
    exact ⟨this.1, by simpa using this.2⟩
  rcases hmem with hm | hm | hm | hm | hm | hm | hm
  · obtain ⟨i, hi, st, hst, he, h1, h2⟩ := p.prim.mem s hm
    obtain ⟨hi, hr⟩ := tk _ _ _ hi
    obtain ⟨hn, hlen⟩ := key i hi st hst he
    rw [hn] at hr
    exact .inl ⟨hr, by omega⟩
  · obtain ⟨i, hi, st, hst, he, h1, h2⟩ := p.trace.mem s hm
    obtain ⟨hi, hr⟩ := tk _ _ _ hi
    obtain ⟨hi, -⟩ := lf _ _ _ hi
    obtain ⟨hn, hlen⟩ := key i hi st hst he
    rw [hn] at hr
    have hk := rule_of x .trace
    exact .inr (.inl ⟨of_decide_eq_true (hk.symm.trans hr), h1, by omega⟩)
  · obtain ⟨i, hi, st, hst, he, h1, h2⟩ := p.debug.mem s hm
    obtain ⟨hi, hr⟩ := tk _ _ _ hi
    obtain ⟨hi, -⟩ := lf _ _ _ hi
    obtain ⟨hi, -⟩ := lf _ _ _ hi
    obtain ⟨hn, hlen⟩ := key i hi st hst he
    rw [hn] at hr
    have hk := rule_of x .debug
    exact .inr (.inr (.inl ⟨of_decide_eq_true (hk.symm.trans hr), h1, by omega⟩))
  · obtain ⟨i, hi, st, hst, he, h1, h2⟩ := p.info.mem s hm
    obtain ⟨hi, hr⟩ := tk _ _ _ hi
    obtain ⟨hi, -⟩ := lf _ _ _ hi
    obtain ⟨hi, -⟩ := lf _ _ _ hi
    obtain ⟨hi, -⟩ := lf _ _ _ hi
    obtain ⟨hn, hlen⟩ := key i hi st hst he
    rw [hn] at hr
    have hk := rule_of x .info
    exact .inr (.inr (.inr (.inl ⟨of_decide_eq_true (hk.symm.trans hr), h1, by omega⟩)))
  · obtain ⟨i, hi, st, hst, he, h1, h2⟩ := p.warn.mem s hm
    obtain ⟨hi, hr⟩ := tk _ _ _ hi
    obtain ⟨hi, -⟩ := lf _ _ _ hi
    obtain ⟨hi, -⟩ := lf _ _ _ hi
    obtain ⟨hi, -⟩ := lf _ _ _ hi
    obtain ⟨hi, -⟩ := lf _ _ _ hi
    obtain ⟨hn, hlen⟩ := key i hi st hst he
    rw [hn] at hr
    have hk := rule_of x .warn
    exact .inr (.inr (.inr (.inr (.inl ⟨of_decide_eq_true (hk.symm.trans hr), h1, by omega⟩))))
  · obtain ⟨i, hi, st, hst, he, h1, h2⟩ := p.error.mem s hm
    obtain ⟨hi, hr⟩ := tk _ _ _ hi
    obtain ⟨hi, -⟩ := lf _ _ _ hi
    obtain ⟨hi, -⟩ := lf _ _ _ hi
    obtain ⟨hi, -⟩ := lf _ _ _ hi
    obtain ⟨hi, -⟩ := lf _ _ _ hi
    obtain ⟨hi, -⟩ := lf _ _ _ hi
    obtain ⟨hn, hlen⟩ := key i hi st hst he
    rw [hn] at hr
    have hk := rule_of x .error
    exact .inr (.inr (.inr (.inr (.inr (.inl ⟨of_decide_eq_true (hk.symm.trans hr), h1, by omega⟩)))))
  · obtain ⟨i, hi, st, hst, he, h1, h2⟩ := p.rest.mem s hm
    obtain ⟨hi, -⟩ := tk _ _ _ hi
    obtain ⟨hi, r1⟩ := lf _ _ _ hi
    obtain ⟨hi, r2⟩ := lf _ _ _ hi
    obtain ⟨hi, r3⟩ := lf _ _ _ hi
    obtain ⟨hi, r4⟩ := lf _ _ _ hi
    obtain ⟨hi, r5⟩ := lf _ _ _ hi
    obtain ⟨hi, -⟩ := lf _ _ _ hi
    obtain ⟨hn, hlen⟩ := key i hi st hst he
    rw [hn] at r1 r2 r3 r4 r5
    refine .inr (.inr (.inr (.inr (.inr (.inr ⟨?_, h1⟩)))))
    intro level hk
    have := rule_of x level
    rw [hk] at this
    cases level
    · exact absurd (r5.symm.trans this) (by simp)
    · exact absurd (r4.symm.trans this) (by simp)
    · exact absurd (r3.symm.trans this) (by simp)
    · exact absurd (r2.symm.trans this) (by simp)
    · exact absurd (r1.symm.trans this) (by simp)

theorem prim_rule {x : Interned} (h : hasPrefix c!".defmt.prim." x.part.1 = true) (level : Level) : x.kind ≠ .log level := by
  obtain ⟨kind, a, b, c, d⟩ := x
  rintro rfl
  cases level <;> cases h

/-- the markers -/
theorem idRange_eq {live : List Input} {o : Out} (p : Phases live o) (hs : o.bytes.length < 65534) (level : Level) :
    idRange o level = (match level with
      | .trace => (p.o1.bytes.length, p.o2.bytes.length)
      | .debug => (p.o2.bytes.length, p.o3.bytes.length)
      | .info => (p.o3.bytes.length, p.o4.bytes.length)
      | .warn => (p.o4.bytes.length, p.o5.bytes.length)
      | .error => (p.o5.bytes.length, p.o6.bytes.length)) := by
  have h2 := p.trace.le
  have h3 := p.debug.le
  have h4 := p.info.le
  have h5 := p.warn.le
  have h6 := p.error.le
  have h7 := p.rest.le
  rw [p.final.1] at hs
  unfold idRange Out.marker
  rw [p.markers]
  cases level
  · show (p.o1.bytes.length % 2 ^ 16, p.o2.bytes.length % 2 ^ 16) = _
    rw [Nat.mod_eq_of_lt (by omega), Nat.mod_eq_of_lt (by omega)]
  · show (p.o2.bytes.length % 2 ^ 16, p.o3.bytes.length % 2 ^ 16) = _
    rw [Nat.mod_eq_of_lt (by omega), Nat.mod_eq_of_lt (by omega)]
  · show (p.o3.bytes.length % 2 ^ 16, p.o4.bytes.length % 2 ^ 16) = _
    rw [Nat.mod_eq_of_lt (by omega), Nat.mod_eq_of_lt (by omega)]
  · show (p.o4.bytes.length % 2 ^ 16, p.o5.bytes.length % 2 ^ 16) = _
    rw [Nat.mod_eq_of_lt (by omega), Nat.mod_eq_of_lt (by omega)]
  · show (p.o5.bytes.length % 2 ^ 16, p.o6.bytes.length % 2 ^ 16) = _
    rw [Nat.mod_eq_of_lt (by omega), Nat.mod_eq_of_lt (by omega)]

/-- **C94** The index of a string is in the range of a level if and only if it is a log statement of this level. -/
theorem C94_levels (inputs : List Input) (o : Out) (h : link inputs = .ok o) (x : Interned) (hx : Used inputs x) (s : ElfSymbol)
    (hs : SymbolOf x o s) (level : Level) :
    ((idRange o level).1 ≤ index s ∧ index s < (idRange o level).2) ↔ x.kind = .log level := by
  have hl := linked h
  obtain ⟨p⟩ := hl.phases
  have hx' : x.part ∈ partsOf inputs := by
    obtain ⟨i, hi, -, h1, h2⟩ := hx
    exact mem_partsOf.mpr ⟨i, hi, h1, h2⟩
  obtain ⟨-, q, hq, -, hb, -⟩ := hl.from_ hs.1
  have hsmall := hl.small
  have hidx : index s = s.address := Nat.mod_eq_of_lt (by omega)
  have hph := symbol_phase hl p hx' hs
  have h2 := p.trace.le
  have h3 := p.debug.le
  have h4 := p.info.le
  have h5 := p.warn.le
  have h6 := p.error.le
  rw [hidx, idRange_eq p hsmall]
  rcases hph with ⟨hk, hb⟩ | ⟨hk, hb, hb'⟩ | ⟨hk, hb, hb'⟩ | ⟨hk, hb, hb'⟩ | ⟨hk, hb, hb'⟩ | ⟨hk, hb, hb'⟩ | ⟨hk, hb⟩
  · have := prim_rule hk level
    simp only [this, iff_false]
    cases level <;> simp only <;> omega
  · rw [hk]; cases level <;> simp <;> omega
  · rw [hk]; cases level <;> simp <;> omega
  · rw [hk]; cases level <;> simp <;> omega
  · rw [hk]; cases level <;> simp <;> omega
  · rw [hk]; cases level <;> simp <;> omega
  · simp only [hk level, iff_false]
    cases level <;> simp only <;> omega

/-- The levels by severity. -/
def severity : Level → Nat
  | .trace => 0
  | .debug => 1
  | .info => 2
  | .warn => 3
  | .error => 4

/-- **C94** The ranges are in the order of the severity: a single comparison tells the messages of at least some level. -/
theorem C94_order (inputs : List Input) (o : Out) (h : link inputs = .ok o) (a b : Level) (hab : severity a < severity b) :
    (idRange o a).1 ≤ (idRange o a).2 ∧ (idRange o a).2 ≤ (idRange o b).1 ∧ (idRange o b).1 ≤ (idRange o b).2 := by
  have hl := linked h
  obtain ⟨p⟩ := hl.phases
  have h2 := p.trace.le
  have h3 := p.debug.le
  have h4 := p.info.le
  have h5 := p.warn.le
  have h6 := p.error.le
  rw [idRange_eq p hl.small, idRange_eq p hl.small]
  cases a <;> cases b <;> simp [severity] at hab ⊢ <;> omega

/-! ### C95 -/

theorem hasPrefix_take (p s : List Char) : hasPrefix p s = (s.take p.length == p) := by
  rw [Bool.eq_iff_iff, Linker.hasPrefix_iff, beq_iff_eq]
  constructor
  · rintro ⟨r, rfl⟩; simp
  · intro h
    exact ⟨s.drop p.length, by conv => lhs; rw [← List.take_append_drop p.length s, h]⟩

theorem staying_eq (inputs : List Input) : staying inputs = alive inputs := by
  unfold staying alive
  congr 1
  funext i
  rw [kept_eq, hasPrefix_take, Bool.or_assoc]
  congr 2
  rw [Bool.eq_iff_iff, beq_iff_eq, decide_eq_true_eq]

/-- **C95** Nothing is behind the marker of the end: the last rule of the script has no effect, because `*(.defmt.*)` before it
also takes the sections that are meant for it. -/
theorem C95_end (inputs : List Input) : (section_ inputs).marker c!"__DEFMT_MARKER_END" = (section_ inputs).bytes.length := by
  obtain ⟨p⟩ := phases (alive inputs)
  exact p.end_marker

theorem sum_append_map (l : List Input) (g : Static → Nat) :
    (l.map (fun i => (i.statics.map g).sum)).sum = ((partsOf l).map (fun p => g p.2)).sum := by
  induction l with
  | nil => rfl
  | cons i l ih =>
    simp only [partsOf, List.flatMap_cons, List.map_append, List.sum_append, List.map_cons, List.sum_cons, List.map_map] at ih ⊢
    rw [ih]
    rfl

theorem align_le (l : List Static) (a : Nat) : l.foldl (fun a s => max a s.align) a ≤ a + (l.map (fun s => s.align - 1)).sum ∨
    l.foldl (fun a s => max a s.align) a ≤ 1 + (l.map (fun s => s.align - 1)).sum := by
  induction l generalizing a with
  | nil => simp
  | cons s l ih =>
    simp only [List.foldl_cons, List.map_cons, List.sum_cons]
    rcases ih (max a s.align) with h | h
    · by_cases hm : s.align ≤ a
      · rw [Nat.max_eq_left hm] at h ⊢; left; omega
      · rw [Nat.max_eq_right (by omega)] at h ⊢; right; omega
    · right; omega

theorem input_align_le (i : Input) : i.align - 1 ≤ (i.statics.map (fun s => s.align - 1)).sum := by
  have := align_le i.statics 1
  unfold Input.align
  omega

theorem sum_le {α : Type} (l : List α) (f g : α → Nat) (h : ∀ x ∈ l, f x ≤ g x) : (l.map f).sum ≤ (l.map g).sum := by
  induction l with
  | nil => simp
  | cons a l ih =>
    have := h a (by simp)
    have := ih (fun x hx => h x (by simp [hx]))
    simp only [List.map_cons, List.sum_cons]; omega

theorem sum_add {α : Type} (l : List α) (f g : α → Nat) : (l.map (fun x => f x + g x)).sum = (l.map f).sum + (l.map g).sum := by
  induction l with
  | nil => simp
  | cons a l ih => simp only [List.map_cons, List.sum_cons, ih]; omega

/-- the size of the section, by statics -/
theorem size_bounds (inputs : List Input) (hp : ∀ i ∈ inputs, hasPrefix c!".defmt." i.name = true) :
    1 + ((partsOf (staying inputs)).map (fun p => p.2.bytes.length)).sum ≤ (section_ inputs).bytes.length ∧
    (section_ inputs).bytes.length ≤ 1 + ((partsOf (staying inputs)).map (fun p => p.2.bytes.length + 2 * (p.2.align - 1))).sum := by
  have h := section_size inputs hp
  rw [← staying_eq] at h
  have e := sum_append_map (staying inputs) (fun s => s.bytes.length)
  have e2 := sum_append_map (staying inputs) (fun s => s.bytes.length + 2 * (s.align - 1))
  rw [← e, ← e2]
  refine ⟨h.1, Nat.le_trans h.2 (Nat.add_le_add_left (sum_le _ _ _ ?_) 1)⟩
  intro i _
  have := input_align_le i
  have e3 := sum_add i.statics (fun s => s.bytes.length + (s.align - 1)) (fun s => s.align - 1)
  have e4 : (fun s : Static => s.bytes.length + 2 * (s.align - 1)) = fun s => s.bytes.length + (s.align - 1) + (s.align - 1) := by
    funext s; omega
  unfold roomOf
  rw [e4, e3]
  omega

/-- **C95** Sufficient for linking, for all programs: no symbol twice, and the bytes of the statics that stay, with the gaps before them, are
fewer than 65533. The full statement (only the strings count) is false, see `C95_fails`. -/
theorem C95_partial (t : Target) (items : List Linker.Item) (inputs : List Input) (hc : Compiled t items inputs)
    (hn : ((partsOf inputs).map (fun p => p.2.symbol)).Nodup)
    (hs : ((partsOf (staying inputs)).map (fun p => p.2.bytes.length + 2 * (p.2.align - 1))).sum < 65533) :
    link inputs = .ok (section_ inputs) := by
  have hb := (size_bounds inputs (compiled_prefix hc)).2
  unfold link
  rw [symbols_eq, if_pos hn, if_pos (by rw [C95_end]; omega)]

/-- The items that only intern strings. -/
def StringsOnly : Linker.Item → Prop
  | .interned _ | .defmt _ => True
  | _ => False

/-- **C95** Without `bitflags!` and `timestamp!`, a program links if and only if no symbol occurs twice and at most 65532
statics stay: the strings in use and the two of `defmt`. The message of the linker script names 65534. -/
theorem C95_exact (t : Target) (items : List Linker.Item) (hi : ∀ it ∈ items, StringsOnly it) (inputs : List Input)
    (hc : Compiled t items inputs) :
    link inputs =
      if ((partsOf inputs).map (fun p => p.2.symbol)).Nodup then
        if (partsOf (staying inputs)).length ≤ 65532 then .ok (section_ inputs) else .error .tooMany
      else .error .duplicateSymbol := by
  have hb := size_bounds inputs (compiled_prefix hc)
  have hone : ∀ p ∈ partsOf (staying inputs), p.2.bytes.length = 1 ∧ p.2.align = 1 := by
    intro p hp
    obtain ⟨i, hi', h1, h2⟩ := mem_partsOf.mp hp
    rw [staying_eq] at hi'
    have hp' : p ∈ items.flatMap (Linker.Item.parts t) := hc.1.mem_iff.mp (mem_partsOf.mpr ⟨i, alive_sub hi', h1, h2⟩)
    obtain ⟨it, hit, hp'⟩ := List.mem_flatMap.mp hp'
    have := hi it hit
    cases it with
    | interned x => simp only [Linker.Item.parts, List.mem_singleton] at hp'; rw [hp']; exact ⟨rfl, rfl⟩
    | defmt raw =>
      simp only [Linker.Item.parts, List.mem_cons, List.not_mem_nil, or_false] at hp'
      rcases hp' with rfl | rfl <;> exact ⟨rfl, rfl⟩
    | timestamp a b c d => exact this.elim
    | bitflags d => exact this.elim
  have e1 : ((partsOf (staying inputs)).map (fun p => p.2.bytes.length)).sum = (partsOf (staying inputs)).length := by
    rw [List.map_congr_left (g := fun _ => 1) (fun p hp => (hone p hp).1)]; rw [List.map_const', List.sum_replicate_nat]; omega
  have e2 : ((partsOf (staying inputs)).map (fun p => p.2.bytes.length + 2 * (p.2.align - 1))).sum = (partsOf (staying inputs)).length := by
    rw [List.map_congr_left (g := fun _ => 1) (fun p hp => by rw [(hone p hp).1, (hone p hp).2])]
    rw [List.map_const', List.sum_replicate_nat]; omega
  rw [e1, e2] at hb
  unfold link
  rw [symbols_eq, C95_end]
  by_cases h : (partsOf (staying inputs)).length ≤ 65532
  · rw [if_pos (show (section_ inputs).bytes.length < 65534 by omega), if_pos h]
  · rw [if_neg (show ¬ (section_ inputs).bytes.length < 65534 by omega), if_neg h]

/-- the bytes in sections with the name `.defmt.end` -/
def endBytes (l : List Part) : Nat := (l.map (fun p => if p.1 = c!".defmt.end" then p.2.bytes.length else 0)).sum

theorem endBytes_append (l m : List Part) : endBytes (l ++ m) = endBytes l + endBytes m := by simp [endBytes]

theorem endBytes_perm {l m : List Part} (h : l.Perm m) : endBytes l = endBytes m := perm_sum (h.map _)

theorem endBytes_staying (inputs : List Input) : endBytes (partsOf (staying inputs)) = endBytes (partsOf inputs) := by
  unfold staying
  induction inputs with
  | nil => rfl
  | cons i l ih =>
    have e : partsOf (i :: l) = i.statics.map (fun s => (i.name, s)) ++ partsOf l := rfl
    rw [e, List.filter_cons]
    by_cases h : (i.referenced || i.name == c!".defmt.end" || i.name.take 11 == c!".defmt.end.") = true
    · rw [if_pos h]
      have e2 : ∀ m, partsOf (i :: m) = i.statics.map (fun s => (i.name, s)) ++ partsOf m := fun _ => rfl
      rw [e2, endBytes_append, endBytes_append, ih]
    · rw [if_neg h, endBytes_append, ih]
      have hne : i.name ≠ c!".defmt.end" := by
        intro hn; apply h; simp [hn]
      have : endBytes (i.statics.map (fun s => (i.name, s))) = 0 := by
        unfold endBytes
        rw [List.map_map]
        have : ((fun p : Part => if p.1 = c!".defmt.end" then p.2.bytes.length else 0) ∘ fun s => (i.name, s)) = fun _ => 0 := by
          funext s; simp only [Function.comp]; exact if_neg hne
        rw [this, List.map_const', List.sum_replicate_nat, Nat.mul_zero]
      omega

theorem endBytes_flags (t : Target) (d : Definition) (l : List (Nat × Flag)) : endBytes (l.map (flagPart t d)) = 16 * l.length := by
  induction l with
  | nil => rfl
  | cons x l ih =>
    have : endBytes ((x :: l).map (flagPart t d)) = 16 + endBytes (l.map (flagPart t d)) := by
      simp only [endBytes, List.map_cons, List.sum_cons]
      congr 1
    rw [this, ih, List.length_cons]; omega

theorem enabled_length (d : Definition) : d.enabled.length = (d.flags.filter (·.enabled)).length := by
  unfold Definition.enabled
  generalize 0 = i
  induction d.flags generalizing i with
  | nil => rfl
  | cons f l ih =>
    unfold enabledFlags
    rw [List.filter_cons]
    by_cases h : f.enabled = true <;> simp [h, ih]

/-- **C95, the finding** A program with a `bitflags!` of 4096 flags does not link, even if it uses no string at all: each flag takes 16
of the 65534 places for strings. -/
theorem C95_fails (t : Target) (items : List Linker.Item) (inputs : List Input) (hc : Compiled t items inputs)
    (hn : ((partsOf inputs).map (fun p => p.2.symbol)).Nodup) (d : Definition)
    (hd : .bitflags d ∈ items) (hf : 4096 ≤ (d.flags.filter (·.enabled)).length) : link inputs = .error .tooMany := by
  have hb := (size_bounds inputs (compiled_prefix hc)).1
  have h1 : endBytes (partsOf (staying inputs)) ≤ ((partsOf (staying inputs)).map (fun p => p.2.bytes.length)).sum :=
    sum_le _ _ _ (fun p _ => by split <;> omega)
  rw [endBytes_staying, endBytes_perm hc.1] at h1
  obtain ⟨l1, l2, rfl⟩ := List.append_of_mem hd
  rw [List.flatMap_append, List.flatMap_cons, endBytes_append, endBytes_append] at h1
  have h2 : endBytes (Linker.Item.parts t (.bitflags d)) = 16 * d.enabled.length := by
    have e : Linker.Item.parts t (.bitflags d) = [(flagsInterned d).part] ++ d.enabled.map (flagPart t d) := rfl
    rw [e, endBytes_append, endBytes_flags]
    have : endBytes [(flagsInterned d).part] = 0 := by
      simp only [endBytes, List.map_cons, List.map_nil, List.sum_cons, List.sum_nil, Nat.add_zero]
      exact if_neg (fun h => by cases h)
    omega
  rw [enabled_length] at h2
  unfold link
  rw [symbols_eq, if_pos hn, if_neg (by rw [C95_end]; omega)]

/-! ### Concrete programs -/

/-- one input section for every static, as the compiler makes with `-Z function-sections`, all in use -/
def separate (t : Target) (items : List Linker.Item) (used : Bool) : List Input :=
  (items.flatMap (Linker.Item.parts t)).map (fun p => ⟨p.1, [p.2], used⟩)

theorem partsOf_separate (l : List Part) (used : Bool) : partsOf (l.map (fun p => ⟨p.1, [p.2], used⟩)) = l := by
  induction l with
  | nil => rfl
  | cons p l ih =>
    have : partsOf ((p :: l).map (fun p => ⟨p.1, [p.2], used⟩)) = p :: partsOf (l.map (fun p => ⟨p.1, [p.2], used⟩)) := rfl
    rw [this, ih]

theorem separate_compiled (t : Target) (items : List Linker.Item) (used : Bool) : Compiled t items (separate t items used) := by
  refine ⟨by rw [separate, partsOf_separate], ?_⟩
  intro i hi
  obtain ⟨p, -, rfl⟩ := List.mem_map.mp hi
  simp

/-- a type with `n` flags -/
def manyFlags (n : Nat) : Definition := ⟨c!"F", c!"u32", List.replicate n ⟨c!"A", 1, true⟩, c!"p", c!"c", 7⟩

/-- the symbols of `defmt` and a `bitflags!` with any number of flags are different -/
theorem manyFlags_nodup (t : Target) (n : Nat) :
    ((partsOf (separate t [.defmt false, .bitflags (manyFlags n)] false)).map (fun p => p.2.symbol)).Nodup := by
  rw [separate, partsOf_separate]
  have e : ([.defmt false, .bitflags (manyFlags n)] : List Linker.Item).flatMap (Linker.Item.parts t) =
    Linker.Item.parts t (.defmt false) ++ ((flagsInterned (manyFlags n)).part :: (manyFlags n).enabled.map (flagPart t (manyFlags n))) := by
    simp [List.flatMap_cons, Linker.Item.parts]
  rw [e, List.map_append, List.map_cons, List.map_map, List.nodup_append]
  refine ⟨by simp [Linker.Item.parts], ?_, ?_⟩
  · refine List.nodup_cons.mpr ⟨?_, List.pairwise_map.mpr ((enabledFlags_increasing 0 (manyFlags n).flags).imp ?_)⟩
    · intro h
      obtain ⟨x, -, hx⟩ := List.mem_map.mp h
      have := congrArg MacroSymbol.tag (C40_injective _ _ hx)
      simp only [Definition.flagSymbol, MacroSymbol.new, flagsInterned, Interned.symbol, Kind.tag] at this
      revert this
      decide
    · intro a b hab heq
      have := flagSymbol_inj (d := manyFlags n) (by show IsName c!"F"; decide) heq
      omega
  · intro a ha b hb hab
    subst hab
    simp only [Linker.Item.parts, List.map_cons, List.map_nil, List.mem_cons, List.not_mem_nil, or_false] at ha
    have hne : ∀ m : MacroSymbol, m.mangle ≠ a := by
      intro m
      rcases ha with rfl | rfl <;> exact mangle_ne (by decide)
    rcases List.mem_cons.mp hb with hb | hb
    · exact hne _ hb.symm
    · obtain ⟨x, -, hx⟩ := List.mem_map.mp hb
      exact hne _ hx

/-- the finding, concretely: nothing but `defmt` and a `bitflags!` that nobody formats -/
example (t : Target) : link (separate t [.defmt false, .bitflags (manyFlags 4096)] false) = .error .tooMany :=
  C95_fails t _ _ (separate_compiled t _ _) (manyFlags_nodup t 4096) (manyFlags 4096) (by simp)
    (by rw [show (manyFlags 4096).flags.filter (·.enabled) = (manyFlags 4096).flags from by
      unfold manyFlags; rw [List.filter_replicate]; rfl]; exact Nat.le_of_eq (List.length_replicate).symm)

/-- with fewer flags it links -/
example : ∃ o, link (separate ⟨8, 4⟩ [.defmt false, .bitflags (manyFlags 3)] false) = .ok o :=
  ⟨_, C95_partial ⟨8, 4⟩ _ _ (separate_compiled _ _ _) (manyFlags_nodup _ 3) (by decide +kernel)⟩

def demoItems : List Linker.Item := [.defmt false, .interned ⟨.log .info, c!"p", c!"c", 1, c!"x={=u8}"⟩,
  .interned ⟨.log .error, c!"p", c!"c", 2, c!"no"⟩, .interned ⟨.log .info, c!"p", c!"c", 3, c!"y"⟩, .interned ⟨.prim, c!"p", c!"c", 4, c!"{=u8}"⟩,
  .bitflags (manyFlags 2), .timestamp c!"p" c!"c" 5 c!"{=u32:us}"]

def demoInputs : List Input := separate ⟨8, 4⟩ demoItems true

theorem demo_links : link demoInputs = .ok (section_ demoInputs) :=
  C95_partial ⟨8, 4⟩ _ _ (separate_compiled _ _ _) (by decide +kernel) (by decide +kernel)

example : Used demoInputs ⟨.log .info, c!"p", c!"c", 1, c!"x={=u8}"⟩ :=
  ⟨⟨_, [_], true⟩, List.mem_map.mpr ⟨(⟨.log .info, c!"p", c!"c", 1, c!"x={=u8}"⟩ : Interned).part, by simp [demoItems, Linker.Item.parts], rfl⟩,
    rfl, rfl, by simp⟩

example : (section_ demoInputs).symbols.map (fun s => (s.address, s.size)) =
    [(1, 1), (2, 1), (3, 1), (4, 1), (5, 1), (6, 1), (7, 1), (8, 16), (24, 16), (40, 1), (44, 4)] := by decide +kernel

example : idRange (section_ demoInputs) .info = (2, 4) ∧ idRange (section_ demoInputs) .error = (4, 5) := by decide +kernel

example : ∀ it ∈ demoItems, it.Ok := by
  intro it hit
  simp only [demoItems, List.mem_cons, List.not_mem_nil, or_false] at hit
  rcases hit with rfl | rfl | rfl | rfl | rfl | rfl | rfl
  · trivial
  · exact fun h => by cases h
  · exact fun h => by cases h
  · exact fun h => by cases h
  · exact fun h => by cases h
  · refine ⟨⟨⟨.u32, by decide⟩, by decide, by decide, by decide, by decide, by decide⟩, by decide⟩
  · trivial

/-- the host accepts the file of the demo, and knows the flags and the timestamp -/
example (f : ElfFile) (hf : IsFileOf (section_ demoInputs) f) (hok : ∀ it ∈ demoItems, it.Ok) :
    ∃ table, parseImpl f true = .ok (some table) ∧ table.encoding = .rzcobs ∧
      table.bitflags ⟨c!"F", c!"p", c!"7", some c!"c"⟩ = some [(c!"A", 1), (c!"A", 1)] := by
  obtain ⟨table, h1, h2⟩ := C93_accepted ⟨8, 4⟩ demoItems hok demoInputs (separate_compiled _ _ _) _ demo_links f hf true false (by simp [demoItems])
  refine ⟨table, h1, h2, ?_⟩
  have := C93_flags ⟨8, 4⟩ demoItems hok demoInputs (separate_compiled _ _ _) _ demo_links f hf true table h1 (manyFlags 2) (by simp [demoItems])
    (by intro d' hd'; simp only [demoItems, List.mem_cons, List.not_mem_nil, or_false, reduceCtorEq, false_or] at hd'; intros; cases hd'; rfl)
  exact this

end Defmt
