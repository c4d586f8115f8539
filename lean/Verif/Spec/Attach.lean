import Verif.Model.Attach
/-! Specification side of hosts that attach: C76, C101. -/

namespace Defmt.Attach
open Rtt (blocking Writing distance outstanding)

/-- The host is not reading, and the target is not in a call, or in a call of `write_all` that does not block and has room for its remaining
bytes besides the unread ones (one position of the buffer always stays free). -/
structure Joinable (cfg : Rtt.Config) (r : Rtt.State) : Prop where
  idle : r.host = .idle
  room : r.target = .ready ∨
    (blocking cfg r = false ∧ Writing r.target ∧ distance cfg.size r.read r.write + (outstanding r.target).length < cfg.size)

end Defmt.Attach
