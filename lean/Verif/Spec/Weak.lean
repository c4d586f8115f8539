import Verif.Model.Weak
import Verif.Spec.Rtt
/-! Specification side of the RTT channel with store buffers: C102. -/

namespace Defmt.Weak
open Rtt (Config)

/-- the buffer once all waiting stores have become visible -/
def settle (memory : Nat → UInt8) : List Store → Nat → UInt8
  | [] => memory
  | .byte p b :: rest => settle (fun i => if i = p then b else memory i) rest
  | .cursor _ :: rest => settle memory rest

/-- The channel once all waiting stores have become visible. -/
def settled (s : State) : Rtt.State :=
  { flags := s.flags, buffer := settle s.memory s.stores, write := s.write, read := s.read, target := s.target,
    host := s.host, accepted := s.accepted, received := s.received }

/-- A state between calls with nothing waiting in a store buffer: the cursors are inside of the buffer, target and
host are idle. The buffer may contain anything. -/
structure Between (cfg : Config) (s : State) : Prop where
  read : s.read < cfg.size
  write : s.write < cfg.size
  target : s.target = .ready
  host : s.host = .idle
  accepted : s.accepted = []
  received : s.received = []
  stores : s.stores = []
  acks : s.acks = []
  writeSeen : s.writeSeen = s.write
  readSeen : s.readSeen = s.read

/-- the bytes between the cursors of `s` (`Rtt.unread`), in the buffer with all stores visible -/
def unread (cfg : Config) (s : State) : List UInt8 := Rtt.unread cfg (settled s)

/-- An infinite execution: every step is a step of the target, of the host or of the memory, or nothing happens. -/
def Run (cfg : Config) (σ : Nat → State) : Prop := ∀ i, Step .release cfg (σ i) (σ (i + 1)) ∨ σ (i + 1) = σ i

/-- The target is never stopped forever. -/
def TargetRuns (cfg : Config) (σ : Nat → State) : Prop := ∀ i, ∃ j ≥ i, TargetStep cfg (σ j) (σ (j + 1))

/-- Every stored value of the write cursor becomes visible to the host some time. -/
def WritesSeen (σ : Nat → State) : Prop := ∀ i, ∃ j ≥ i, (σ j).writeSeen = (σ i).write

/-- Every stored value of the read cursor becomes visible to the target some time. -/
def ReadsSeen (σ : Nat → State) : Prop := ∀ i, ∃ j ≥ i, (σ j).readSeen = (σ i).read

/-- While the host sees unread bytes it eventually reads some. -/
def HostReads (σ : Nat → State) : Prop :=
  ∀ i, (σ i).writeSeen ≠ (σ i).read → ∃ j ≥ i, (σ j).received ≠ (σ i).received

end Defmt.Weak
