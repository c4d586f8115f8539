import Verif.Model.Rtt
/-! Specification side of the RTT channel: C48-C52. -/

namespace Defmt.Rtt

/-- number of bytes from cursor `a` to cursor `b` in a ring -/
def distance (size a b : Nat) : Nat := if a ≤ b then b - a else b + size - a

/-- the bytes between the read and the write cursor -/
def unread (cfg : Config) (s : State) : List UInt8 :=
  (List.range (distance cfg.size s.read s.write)).map (fun i => s.buffer ((s.read + i) % cfg.size))

/-- the bytes of the current `write_all` call that are not yet in the buffer -/
def outstanding : Target → List UInt8
  | .attempt rest | .loadedRead rest _ | .copying rest _ _ _ => rest
  | .ready | .flushing | .flushLoaded _ => []

/-- the target is inside of `write_all` -/
def Writing : Target → Prop
  | .attempt _ | .loadedRead _ _ | .copying _ _ _ _ => True
  | .ready | .flushing | .flushLoaded _ => False

/-- the target is inside of `flush` -/
def Flushing : Target → Prop
  | .flushing | .flushLoaded _ => True
  | _ => False

/-- A state between calls: the cursors are inside of the buffer, target and host are idle. The buffer
may contain anything. -/
structure Between (cfg : Config) (s : State) : Prop where
  read : s.read < cfg.size
  write : s.write < cfg.size
  target : s.target = .ready
  host : s.host = .idle
  accepted : s.accepted = []
  received : s.received = []

/-- the `n` bytes before the write cursor -/
def lastBytes (cfg : Config) (s : State) (n : Nat) : List UInt8 :=
  (List.range n).map (fun i => s.buffer ((s.write + cfg.size - n + i) % cfg.size))

/-- An infinite execution: every step is a step of the target, of the host, or nothing happens. -/
def Run (cfg : Config) (σ : Nat → State) : Prop := ∀ i, Step cfg (σ i) (σ (i + 1)) ∨ σ (i + 1) = σ i

/-- The target is never stopped forever. -/
def TargetRuns (cfg : Config) (σ : Nat → State) : Prop := ∀ i, ∃ j ≥ i, TargetStep cfg (σ j) (σ (j + 1))

/-- While there are unread bytes the host eventually reads some. -/
def HostReads (cfg : Config) (σ : Nat → State) : Prop :=
  ∀ i, unread cfg (σ i) ≠ [] → ∃ j ≥ i, (σ j).received ≠ (σ i).received

end Defmt.Rtt
