import Verif.Spec.Json
import Verif.Spec.Symbol
import Verif.Model.HostLog
/-! What the target of a record must look like after `defmt@`: C79. -/

namespace Defmt.HostLog
open Json Parser Symbol

/-- The name of a level, in capital or small letters or both. -/
def NameOf (s : List Char) (l : Level) : Prop :=
  (l, s.map Char.toUpper) ∈ [(Level.error, c!"ERROR"), (.warn, c!"WARN"), (.info, c!"INFO"), (.debug, c!"DEBUG"), (.trace, c!"TRACE")]

/-- The name as a string, or `{"name": null}`. -/
inductive IsLevel : Json → Level → Prop
  | name {s l} : NameOf s l → IsLevel (.str s) l
  | member {s l} : NameOf s l → IsLevel (.obj [(s, .null)]) l

/-- A level, or `null` for none. -/
inductive IsLevelOrNull : Json → Option Level → Prop
  | null : IsLevelOrNull .null none
  | level {j l} : IsLevel j l → IsLevelOrNull j (some l)

/-- An object with a `timestamp` and perhaps a `level`, perhaps among other members; or an array of level and timestamp. -/
inductive IsPayload : Json → Option Level → List Char → Prop
  | noLevel {members timestamp} : Missing members c!"level" → Once members c!"timestamp" (.str timestamp) →
      IsPayload (.obj members) none timestamp
  | object {members j level timestamp} : Once members c!"level" j → IsLevelOrNull j level →
      Once members c!"timestamp" (.str timestamp) → IsPayload (.obj members) level timestamp
  | array {j level timestamp} : IsLevelOrNull j level → IsPayload (.arr [j, .str timestamp]) level timestamp

end Defmt.HostLog
