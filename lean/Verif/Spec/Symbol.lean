import Verif.Spec.Json
import Verif.Model.Symbol
/-! Which JSON values are the names of symbols. -/

namespace Defmt.Symbol

open Parser Json

/-- The member `key` is there exactly once, with the value `v`. -/
def Once (members : List (List Char × Json)) (key : List Char) (v : Json) : Prop :=
  ∃ before after, members = before ++ (key, v) :: after ∧ (∀ m ∈ before, m.1 ≠ key) ∧ ∀ m ∈ after, m.1 ≠ key

/-- There is no member `key`. -/
def Missing (members : List (List Char × Json)) (key : List Char) : Prop := ∀ m ∈ members, m.1 ≠ key

/-- The JSON value `j` describes the symbol `s`. -/
inductive Describes : Json → HostSymbol → Prop where
  /-- an object, in any order, perhaps with other members; old versions do not write the name of the crate -/
  | object {members package disambiguator tag data crateName} :
      Once members c!"package" (.str package) → Once members c!"disambiguator" (.str disambiguator) →
      Once members c!"tag" (.str tag) → Once members c!"data" (.str data) →
      ((Missing members c!"crate_name" ∧ crateName = none) ∨ (Once members c!"crate_name" .null ∧ crateName = none) ∨
        ∃ name, Once members c!"crate_name" (.str name) ∧ crateName = some name) →
      Describes (.obj members) { package, disambiguator, tag, data, crateName }
  /-- an array with five elements -/
  | array {package disambiguator tag data v crateName} :
      ((v = .null ∧ crateName = none) ∨ ∃ name, v = .str name ∧ crateName = some name) →
      Describes (.arr [.str package, .str disambiguator, .str tag, .str data, v]) { package, disambiguator, tag, data, crateName }

end Defmt.Symbol
