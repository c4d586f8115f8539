import Verif.Spec.Symbol
import Verif.Lemmas.Symbol
import Verif.Lemmas.HostLog
import Verif.Props.HostLog
/-! # Properties of the reader of JSON -/

namespace Defmt

open Parser Symbol Json

/-! ### helpers -/

theorem field_one {ms : List (List Char × Json)} {key : List Char} {v : Json} : field ms key = some (some v) ↔ Once ms key v := by
  unfold field
  constructor
  · intro h
    split at h
    · cases h
    · rename_i m hm
      simp only [Option.some.injEq] at h
      obtain ⟨a, b, rfl, h1, h2⟩ := List.filter_eq_cons_iff.mp hm
      have hk : m.1 = key := by simpa using h2.1
      refine ⟨a, b, ?_, ?_, ?_⟩
      · rw [← h, ← hk]
      · intro x hx; simpa using h1 x hx
      · intro x hx
        have := List.filter_eq_nil_iff.mp h2.2 x hx
        simpa using this
    · cases h
  · rintro ⟨a, b, rfl, h1, h2⟩
    have ha : a.filter (fun m => m.1 = key) = [] := List.filter_eq_nil_iff.mpr (fun x hx => by simpa using h1 x hx)
    have hb : b.filter (fun m => m.1 = key) = [] := List.filter_eq_nil_iff.mpr (fun x hx => by simpa using h2 x hx)
    rw [List.filter_append, List.filter_cons_of_pos (by simp), ha, hb]
    rfl

theorem field_none {ms : List (List Char × Json)} {key : List Char} : field ms key = some none ↔ Missing ms key := by
  unfold field
  constructor
  · intro h
    split at h
    · rename_i hm
      intro x hx
      have := List.filter_eq_nil_iff.mp hm x hx
      simpa using this
    · cases h
    · cases h
  · intro h
    have ha : ms.filter (fun m => m.1 = key) = [] := List.filter_eq_nil_iff.mpr (fun x hx => by simpa using h x hx)
    rw [ha]

theorem getString_some {j : Json} {s : List Char} : getString j = some s ↔ j = .str s := by
  cases j <;> simp [getString]

theorem required_string {ms : List (List Char × Json)} {key s : List Char} :
    required ms key getString = some s ↔ Once ms key (.str s) := by
  rw [← field_one]
  unfold required
  constructor
  · intro h
    split at h
    · rename_i j hj
      rw [hj, getString_some.mp h]
    · cases h
  · intro h
    rw [h]
    rfl

theorem optional_string {ms : List (List Char × Json)} {key : List Char} {o : Option (List Char)} :
    optionalField ms key getString = some o ↔
      ((Missing ms key ∧ o = none) ∨ (Once ms key .null ∧ o = none) ∨ ∃ name, Once ms key (.str name) ∧ o = some name) := by
  simp only [← field_one, ← field_none]
  unfold optionalField
  constructor
  · intro h
    cases hf : field ms key with
    | none => rw [hf] at h; cases h
    | some f =>
      rw [hf] at h
      cases f with
      | none => cases h; exact .inl ⟨rfl, rfl⟩
      | some j =>
        cases j <;> simp [getString] at h
        · exact .inr (.inl ⟨rfl, h.symm⟩)
        · rename_i s; exact .inr (.inr ⟨s, rfl, h.symm⟩)
  · rintro (⟨h, rfl⟩ | ⟨h, rfl⟩ | ⟨name, h, rfl⟩) <;> rw [h] <;> rfl

/-! ### C100 -/

/-- **C100** A text is read as JSON exactly if it is a JSON text of RFC 8259, and with the value it has there. -/
theorem C100_json (s : List Char) (j : Json) : read s = some j ↔ JsonText s j := read_iff s j

/-- **C100** The name of a symbol is understood exactly if it is a JSON text that describes a symbol. -/
theorem C100_symbol (raw : List Char) (h : HostSymbol) : demangle raw = some h ↔ ∃ j, JsonText raw j ∧ Describes j h := by
  constructor
  · intro hd
    unfold demangle at hd
    cases hr : read raw with
    | none => rw [hr] at hd; cases hd
    | some j =>
      rw [hr] at hd
      refine ⟨j, (read_iff _ _).mp hr, ?_⟩
      split at hd
      · rename_i ms hm
        cases hm
        split at hd
        · rename_i h1 h2 h3 h4 h5
          cases hd
          exact .object (required_string.mp h1) (required_string.mp h2) (required_string.mp h3) (required_string.mp h4) (optional_string.mp h5)
        · cases hd
      · rename_i hm
        cases hm
        split at hd
        · cases hd; exact .array (.inl ⟨rfl, rfl⟩)
        · cases hd; exact .array (.inr ⟨_, rfl, rfl⟩)
        · cases hd
      · cases hd
  · rintro ⟨j, hj, hd⟩
    unfold demangle
    rw [(read_iff _ _).mpr hj]
    cases hd with
    | object h1 h2 h3 h4 h5 =>
      dsimp only
      rw [required_string.mpr h1, required_string.mpr h2, required_string.mpr h3, required_string.mpr h4, optional_string.mpr h5]
    | array h =>
      rcases h with ⟨rfl, rfl⟩ | ⟨name, rfl, rfl⟩ <;> rfl

/-- **C100** A text has at most one value, and at most one symbol. -/
theorem C100_unique {s : List Char} {i j : Json} (h1 : JsonText s i) (h2 : JsonText s j) : i = j := by
  have a := (read_iff _ _).mpr h1
  have b := (read_iff _ _).mpr h2
  rw [a] at b
  exact Option.some.inj b

/-- **C100** What the macros write is a JSON text, whatever the names of packages and crates and the texts in it. -/
theorem C100_written (s : MacroSymbol) : ∃ j, JsonText s.mangle j ∧ Describes j
    { package := s.package, disambiguator := decimal s.disambiguator, tag := s.tag, data := s.data, crateName := some s.crateName } :=
  (C100_symbol _ _).mp (demangle_mangle s)

open HostLog in
/-- **C100** Every line of `--json` is a JSON text, whatever characters the texts of the frame have. -/
theorem C100_line (env : Env) (o : Options) (hj : o.json = true) (fmt : Formatters) (now : Int) (f : Frame) (ts m : List Char)
    (h : Texts env f ts m) : ∃ ws line j, forwardToLogger env o fmt now f = some ws ∧ textOf .stdout ws = line ++ c!"\n" ∧ JsonText line j := by
  obtain ⟨ws, line, j, h1, h2, -, -, h3, -⟩ := C78_line env o hj fmt now f ts m h
  unfold readFrame at h3
  cases hr : read line with
  | none => rw [hr] at h3; cases h3
  | some v => exact ⟨ws, line, v, h1, h2, (read_iff _ _).mp hr⟩

/-- white space, escapes, a surrogate pair, numbers -/
example : read c!" [ \"\\u0041\\n\\uD83D\\uDE00/\\/\" , -12, 1.50e+3, { } ,[]]\n" =
    some (.arr [.str ['A', '\n', Char.ofNat 0x1F600, '/', '/'], .num (-12), .decimal c!"1.50e+3", .obj [], .arr []]) := by rfl
/-- not JSON: a comma at the end, leading zeros, half a surrogate pair, a control character in a string, something after the value -/
example : read c!"[1,]" = none ∧ read c!"01" = none ∧ read c!"\"\\uD83Dx\"" = none ∧ read c!"\"\\uD83D\\n\"" = none ∧
    read c!"\"\\uD83D\\u0041\"" = none ∧ read c!"\"a\tb\"" = none ∧ read c!"1 2" = none ∧ read c!"1." = none ∧ read c!"+1" = none :=
  ⟨rfl, rfl, rfl, rfl, rfl, rfl, rfl, rfl, rfl⟩
/-- other members are ignored, the order does not matter, old symbols have no crate -/
example : demangle c!"{\"tag\":\"defmt_info\",\"data\":\"Hi\",\"future\":[1],\"package\":\"p\",\"disambiguator\":\"1\"}" =
    some ⟨c!"p", c!"1", c!"defmt_info", c!"Hi", none⟩ := by rfl
/-- an array is understood too -/
example : demangle c!"[\"p\",\"1\",\"defmt_info\",\"Hi\",null]" = some ⟨c!"p", c!"1", c!"defmt_info", c!"Hi", none⟩ := by rfl
/-- a member twice, or with another type, is not -/
example : demangle c!"{\"tag\":\"a\",\"tag\":\"a\",\"data\":\"Hi\",\"package\":\"p\",\"disambiguator\":\"1\"}" = none ∧
    demangle c!"{\"tag\":\"a\",\"data\":\"Hi\",\"package\":\"p\",\"disambiguator\":1}" = none ∧
    demangle c!"[\"p\",\"1\",\"defmt_info\",\"Hi\"]" = none := ⟨rfl, rfl, rfl⟩

end Defmt
