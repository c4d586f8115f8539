import Verif.Lemmas.ElfExact
import Verif.Props.Elf
/-!
# Property C62: exactly which ELF files are accepted

`HeaderOk`, `CanBeRead`, ... are in `Verif.Spec.ElfExact`.
-/

namespace Defmt

open Parser Symbol Elf Bitflags

/-- **C62** A table is made exactly from the files with a `.defmt` section, one supported version, one known encoding, at most
one timestamp, and symbols in that section that can all be read. -/
theorem C62_exact (f : ElfFile) (check : Bool) :
    (∃ t, parseImpl f check = .ok (some t)) ↔ ∃ bytes, f.defmtSection = some bytes ∧ HeaderOk check f.symbols ∧
      NoTwo IsTimestampSymbol f.symbols ∧ ∀ s ∈ f.symbols, CanBeRead bytes s := by
  constructor
  · rintro ⟨t, h⟩
    obtain ⟨data, v, e, enc, h1, h2, h3, h4, h5, h6, h7, rfl⟩ := parseImpl_some.mp h
    refine ⟨data, h1, header_iff.mpr ⟨v, e, enc, h2, h3, h4, h5⟩, ?_, fun s hs => canBeRead_iff.mp (h6 s hs)⟩
    rw [noTwo_iff (stamp_iff (data := data)), ← stamps_eq]
    exact h7
  · rintro ⟨data, h1, hh, ht, hs⟩
    obtain ⟨v, e, enc, h2, h3, h4, h5⟩ := header_iff.mp hh
    refine ⟨_, parseImpl_some.mpr ⟨data, v, e, enc, h1, h2, h3, h4, h5, fun s hm => canBeRead_iff.mpr (hs s hm), ?_, rfl⟩⟩
    rw [stamps_eq]
    exact (noTwo_iff (stamp_iff (data := data)) _).mp ht

/-- the small program meets the conditions -/
example : ∃ bytes, demoFile.defmtSection = some bytes ∧ HeaderOk true demoFile.symbols ∧
    NoTwo IsTimestampSymbol demoFile.symbols ∧ ∀ s ∈ demoFile.symbols, CanBeRead bytes s :=
  (C62_exact demoFile true).mp demoFile_accepted

/-- **C62** The decoder panics exactly if, with everything before it in order, a flag says that it ends at or behind the last
address. (No linker makes such a file.) -/
theorem C62_panics (f : ElfFile) (check : Bool) :
    parseImpl f check = .panic ↔ ∃ bytes, f.defmtSection = some (some bytes) ∧ HeaderOk check f.symbols ∧
      ∃ before s after, f.symbols = before ++ s :: after ∧ (∀ x ∈ before, CanBeRead (some bytes) x) ∧
        NoTwo IsTimestampSymbol before ∧ (∃ data, IsFlagSymbol s data) ∧ s.size = 16 ∧ 2 ^ 64 ≤ s.address + 16 := by
  rw [parseImpl_panic]
  constructor
  · rintro ⟨data, v, e, enc, h1, h2, h3, h4, h5, h6⟩
    obtain ⟨b, s, a, hs, ⟨p, hp⟩, hpanic⟩ := secondPass_panic.mp h6
    obtain ⟨hf, hsize, hdata, haddr⟩ := symbolItem_panic.mp hpanic
    cases data with
    | none => exact absurd rfl hdata
    | some bytes =>
      obtain ⟨q1, q2, -⟩ := secondPass_ok.mp hp
      refine ⟨bytes, h1, header_iff.mpr ⟨v, e, enc, h2, h3, h4, h5⟩, b, s, a, hs, fun x hx => canBeRead_iff.mp (q1 x hx), ?_,
        hf, hsize, haddr⟩
      rw [noTwo_iff (stamp_iff (data := some bytes)), ← stamps_eq]
      simpa [emptyPass] using q2
  · rintro ⟨bytes, h1, hh, b, s, a, hs, hb, ht, hf, hsize, haddr⟩
    obtain ⟨v, e, enc, h2, h3, h4, h5⟩ := header_iff.mp hh
    refine ⟨some bytes, v, e, enc, h1, h2, h3, h4, h5, secondPass_panic.mpr ⟨b, s, a, hs, ?_, ?_⟩⟩
    · refine ⟨_, secondPass_ok.mpr ⟨fun x hx => canBeRead_iff.mpr (hb x hx), ?_, rfl⟩⟩
      have := (noTwo_iff (stamp_iff (data := some bytes)) b).mp ht
      rw [← stamps_eq] at this
      simpa [emptyPass] using this
    · exact symbolItem_panic.mpr ⟨hf, hsize, by simp, haddr⟩

/-- The symbol of a flag at the last address. -/
def lateFlag (address : Nat) : ElfSymbol :=
  ⟨some (MacroSymbol.mangle ⟨c!"app", c!"defmt_bitflags_value", c!"Flags::0::A", 1, c!"app"⟩), true, address, 16⟩

/-- A flag that ends at the last address: a panic. One byte before: an error. -/
example : parseImpl ⟨[⟨some c!"_defmt_version_ = 4", false, 0, 0⟩, ⟨some c!"_defmt_encoding_ = raw", false, 0, 0⟩,
    lateFlag (2 ^ 64 - 16)], some (some [])⟩ true = .panic := by
  rw [C62_panics]
  refine ⟨[], rfl, ?_, [⟨some c!"_defmt_version_ = 4", false, 0, 0⟩, ⟨some c!"_defmt_encoding_ = raw", false, 0, 0⟩], _, [], rfl,
    ?_, ?_, ?_, rfl, by decide⟩
  · rw [header_iff]
    refine ⟨c!"4", c!"raw", .raw, ?_, ?_, by decide, rfl⟩
    · simp only [versionsOf, lateFlag, List.filterMap_cons, List.filterMap_nil, Option.bind_some, tryGetVersion_mangle]
      decide
    · simp only [encodingsOf, lateFlag, List.filterMap_cons, List.filterMap_nil, Option.bind_some, tryGetEncoding_mangle]
      decide
  · intro x hx
    simp only [List.mem_cons, List.not_mem_nil, or_false] at hx
    rcases hx with rfl | rfl <;> exact .inl (.inl rfl)
  · refine .cons ?_ (.cons (fun b hb => by cases hb) .nil)
    rintro b - ⟨⟨h, ⟨hin, -⟩, -⟩, -⟩
    cases hin
  · exact ⟨_, _, ⟨rfl, _, rfl, demangle_mangle _⟩, rfl, rfl⟩

end Defmt
