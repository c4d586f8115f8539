import Verif.Model.Program
/-! Specification side of C92: what panics, and with which message. -/

namespace Defmt.Program

/-- The next thing to be done is a panic with this message: an explicit one, a log statement while a frame is written, or the one of
`defmt::panic!` (and the like) after its message, if there is no `#[defmt::panic_handler]`. -/
inductive Panics {W : Type} (p : Program W) (s : State W) : Nat → Prop
  | explicit {message rest} : s.ops = .code (.stmt (.panic message)) :: rest → Panics p s message
  | reentrant {rest} : s.ops = .acquire :: rest → s.taken = true → Panics p s p.reentrant
  | afterMessage {rest} : s.ops = .exportPanic :: rest → p.override = false → Panics p s p.explicitPanic

end Defmt.Program
