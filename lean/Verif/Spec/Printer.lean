import Verif.Model.Printer
import Verif.Spec.Stream
/-! Specification side of the printers: C09, C54. -/

namespace Defmt.Printer

variable {F : Type}

/-- `RawMeans td w fs e`: read as a whole, the bytes `w` are the frames `fs` one directly after the
other, followed by an incomplete frame or by something malformed. -/
inductive RawMeans (td : List UInt8 → Except DecodeError (F × Nat)) : List UInt8 → List F → Next → Prop where
  | incomplete {w} : td w = .error .unexpectedEof → RawMeans td w [] (.wait w)
  | malformed {w} : td w = .error .malformed → RawMeans td w [] .abort
  | frame {w f n fs e} : td w = .ok (f, n) → RawMeans td (w.drop n) fs e → RawMeans td w (f :: fs) e

/-- output for a decoding result -/
def lineOf : Stream.DecodeResult F → Line F
  | .frame f => .frame f
  | _ => .skipped

/-- Properties of the table decoder on which the raw encoding relies (proved for `Table::decode` in
`C10`): it uses at least one and at most all bytes, and a result other than "more data needed" does
not change when more data follow. -/
structure Settled (td : List UInt8 → Except DecodeError (F × Nat)) : Prop where
  used : ∀ {w f n}, td w = .ok (f, n) → 0 < n ∧ n ≤ w.length
  ok : ∀ {w f n}, td w = .ok (f, n) → ∀ more, td (w ++ more) = .ok (f, n)
  malformed : ∀ {w}, td w = .error .malformed → ∀ more, td (w ++ more) = .error .malformed

end Defmt.Printer
