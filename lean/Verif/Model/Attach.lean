import Verif.Model.Rtt
import Verif.Spec.Rtt
/-!
# The RTT channel and hosts that come and go

`Model/Rtt.lean` has mode flags that do not change. Here the host may change them at any moment. `write_all` and `flush` look at them once,
when they are called (channel.rs:26-33, 92-96), so the call that is running goes on in the mode in which it started.
-/

namespace Defmt.Attach

/-- `flags` are the flags in memory, `channel.flags` those which the running call has loaded. -/
structure State where
  flags : Nat
  channel : Rtt.State

/-- the mode of the next call (channel.rs:29-33) -/
def blocks (cfg : Rtt.Config) (flags : Nat) : Bool := !cfg.disableBlocking && Rtt.hostIsConnected flags

/-- Steps of target and host that leave the flags alone. -/
inductive Step (cfg : Rtt.Config) : State → State → Prop where
  /-- `write_all` or `flush` is called and loads the flags -/
  | enter {s : State} {r : Rtt.State} (h : s.channel.target = .ready) (hs : Rtt.TargetStep cfg { s.channel with flags := s.flags } r) :
      Step cfg s { s with channel := r }
  /-- a step inside of `write_all` or `flush` -/
  | inside {s : State} {r : Rtt.State} (h : s.channel.target ≠ .ready) (hs : Rtt.TargetStep cfg s.channel r) : Step cfg s { s with channel := r }
  /-- a step of the host -/
  | host {s : State} {r : Rtt.State} (hs : Rtt.HostStep cfg s.channel r) : Step cfg s { s with channel := r }

/-- States reachable while the flags stay as they are. -/
inductive Steady (cfg : Rtt.Config) (s : State) : State → Prop where
  | refl : Steady cfg s s
  | step {s' s'' : State} : Steady cfg s s' → Step cfg s' s'' → Steady cfg s s''

/-- States reachable while the host changes the flags at any time, any number of times. -/
inductive Reachable (cfg : Rtt.Config) (s : State) : State → Prop where
  | refl : Reachable cfg s s
  | step {s' s'' : State} : Reachable cfg s s' → Step cfg s' s'' → Reachable cfg s s''
  | setFlags {s' : State} (flags : Nat) : Reachable cfg s s' → Reachable cfg s { s' with flags := flags }

/-- A host attaches: it sets the flags. The histories start again: `accepted` with the bytes of the running call that are not yet in the
buffer, `received` with nothing. -/
def attach (flags : Nat) (s : State) : State :=
  { flags := flags, channel := { s.channel with accepted := Rtt.outstanding s.channel.target, received := [] } }

end Defmt.Attach
