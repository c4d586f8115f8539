import Verif.Model.Rtt
/-!
# The RTT channel with memory that is not sequentially consistent

Models the memory orderings of `firmware/defmt-rtt/src/channel.rs` (lines 49-50, 63, 84-85 and 99-101).
`Model/Rtt.lean` lets target and host see every store at once. Here a store of one side first waits
in a store buffer and becomes visible to the other side later:

* stores of the target (bytes of the buffer and the write cursor) become visible to the host in any order,
  except that two stores to the same place keep their order and, because the write cursor is stored with
  `Ordering::Release`, a store of the write cursor does not become visible before the stores that
  precede it. Stores that follow it may overtake it.
* stores of the host (the read cursor) become visible to the target in their order.

Simplifications: the target does not make a store visible before the loads that decide about the
store (it does not write into the buffer on speculation; the number of bytes to copy depends on the
loaded read cursor); the host loads the write cursor before the bytes and the bytes before it stores the
read cursor, as a debug probe does. The connection status does not change.
-/

namespace Defmt.Weak
open Rtt (Config Target Host availableBufferSize writeImpl hostIsConnected)

/-- A store of the target that the host does not see yet. -/
inductive Store where
  | byte (position : Nat) (value : UInt8)
  | cursor (value : Nat)
deriving DecidableEq

/-- `Ordering` of the store of the write cursor (channel.rs:84-85); the code has `release`, `relaxed` is
here to show that it matters. -/
inductive Order where
  | release
  | relaxed
deriving DecidableEq

/-- `memory` and `writeSeen` are the buffer and the write cursor as the host sees them, `stores` what the
target has stored since (oldest first), `write` the last value it has stored to the write cursor. `readSeen` is
the read cursor as the target sees it, `acks` what the host has stored since, `read` the last value it
has stored. The other fields are as in `Rtt.State`. -/
structure State where
  flags : Nat
  memory : Nat → UInt8
  writeSeen : Nat
  stores : List Store
  write : Nat
  readSeen : Nat
  acks : List Nat
  read : Nat
  target : Target
  host : Host
  accepted : List UInt8
  received : List UInt8

/-- The choice of `write_all` (channel.rs:29-33). -/
def blocking (cfg : Config) (s : State) : Bool := !cfg.disableBlocking && hostIsConnected s.flags

/-- Steps of the target: those of `Rtt.TargetStep`, with `read` loaded as far as it is visible and stores
put into the store buffer. -/
inductive TargetStep (cfg : Config) : State → State → Prop where
  /-- `write_all(bytes)` is called (channel.rs:26) -/
  | call {s : State} (bytes : List UInt8) (h : s.target = .ready) :
      TargetStep cfg s { s with target := .attempt bytes, accepted := s.accepted ++ bytes }
  /-- nothing left, `write_all` returns (channel.rs:35) -/
  | return_ {s : State} (h : s.target = .attempt []) : TargetStep cfg s { s with target := .ready }
  /-- `blocking_write` loads `read` (channel.rs:49) -/
  | loadRead {s : State} {rest : List UInt8} (h : s.target = .attempt rest) (hne : rest ≠ []) (hb : blocking cfg s = true) :
      TargetStep cfg s { s with target := .loadedRead rest s.readSeen }
  /-- the buffer is full (channel.rs:50-56) -/
  | full {s : State} {rest : List UInt8} {read : Nat} (h : s.target = .loadedRead rest read)
      (ha : availableBufferSize cfg.size read s.write = 0) : TargetStep cfg s { s with target := .attempt rest }
  /-- `blocking_write` calls `write_impl` (channel.rs:50-58, 69) -/
  | start {s : State} {rest : List UInt8} {read : Nat} (h : s.target = .loadedRead rest read)
      (ha : availableBufferSize cfg.size read s.write ≠ 0) :
      TargetStep cfg s { s with target := writeImpl cfg rest s.write (availableBufferSize cfg.size read s.write) }
  /-- `nonblocking_write` calls `write_impl` (channel.rs:61-66, 69) -/
  | startNonblocking {s : State} {rest : List UInt8} (h : s.target = .attempt rest) (hne : rest ≠ [])
      (hb : blocking cfg s = false) :
      TargetStep cfg s { s with target := writeImpl cfg rest s.write cfg.size }
  /-- one byte is copied, in any order (channel.rs:73-81) -/
  | copy {s : State} {rest : List UInt8} {cursor len : Nat} {before after : List (Nat × UInt8)} {p : Nat} {b : UInt8}
      (h : s.target = .copying rest cursor len (before ++ (p, b) :: after)) :
      TargetStep cfg s { s with stores := s.stores ++ [.byte p b], target := .copying rest cursor len (before ++ after) }
  /-- the write cursor is stored (channel.rs:84-89, 36-39) -/
  | store {s : State} {rest : List UInt8} {cursor len : Nat} (h : s.target = .copying rest cursor len []) :
      TargetStep cfg s { s with
        stores := s.stores ++ [.cursor ((cursor + len) % cfg.size)]
        write := (cursor + len) % cfg.size
        target := .attempt (rest.drop len) }
  /-- `flush` returns because no host is connected (channel.rs:92-96) -/
  | flushNoHost {s : State} (h : s.target = .ready) (hb : hostIsConnected s.flags = false) : TargetStep cfg s s
  /-- `flush` is called (channel.rs:92) -/
  | flush {s : State} (h : s.target = .ready) (hb : hostIsConnected s.flags = true) :
      TargetStep cfg s { s with target := .flushing }
  /-- `flush` loads `read` (channel.rs:99, 101) -/
  | flushLoad {s : State} (h : s.target = .flushing) : TargetStep cfg s { s with target := .flushLoaded s.readSeen }
  /-- the cursors differ (channel.rs:101) -/
  | flushAgain {s : State} {read : Nat} (h : s.target = .flushLoaded read) (hd : read ≠ s.write) :
      TargetStep cfg s { s with target := .flushing }
  /-- the cursors agree, `flush` returns (channel.rs:101-102) -/
  | flushReturn {s : State} {read : Nat} (h : s.target = .flushLoaded read) (he : read = s.write) :
      TargetStep cfg s { s with target := .ready }

/-- Steps of the host: those of `Rtt.HostStep`, with the write cursor and the bytes loaded as far as they are
visible. -/
inductive HostStep (cfg : Config) : State → State → Prop where
  | load {s : State} (h : s.host = .idle) : HostStep cfg s { s with host := .reading s.writeSeen s.read [] }
  | byte {s : State} {write pos : Nat} {got : List UInt8} (h : s.host = .reading write pos got) (hp : pos ≠ write) :
      HostStep cfg s { s with host := .reading write ((pos + 1) % cfg.size) (got ++ [s.memory pos]) }
  | store {s : State} {write pos : Nat} {got : List UInt8} (h : s.host = .reading write pos got) :
      HostStep cfg s { s with acks := s.acks ++ [pos], read := pos, host := .idle, received := s.received ++ got }

/-- Steps of the memory: one store becomes visible to the other side. -/
inductive MemoryStep (order : Order) : State → State → Prop where
  /-- a byte, unless an older store to the same position is still waiting -/
  | byte {s : State} {before after : List Store} {p : Nat} {b : UInt8} (h : s.stores = before ++ .byte p b :: after)
      (ho : ∀ c, .byte p c ∉ before) :
      MemoryStep order s { s with memory := fun i => if i = p then b else s.memory i, stores := before ++ after }
  /-- the write cursor, stored with `Release`: nothing older is still waiting -/
  | release {s : State} {after : List Store} {w : Nat} (hr : order = .release) (h : s.stores = .cursor w :: after) :
      MemoryStep order s { s with writeSeen := w, stores := after }
  /-- the write cursor, if it were stored with `Relaxed`: only the order of its own values is kept -/
  | relaxed {s : State} {before after : List Store} {w : Nat} (hr : order = .relaxed)
      (h : s.stores = before ++ .cursor w :: after) (ho : ∀ v, .cursor v ∉ before) :
      MemoryStep order s { s with writeSeen := w, stores := before ++ after }
  /-- the read cursor -/
  | ack {s : State} {r : Nat} {after : List Nat} (h : s.acks = r :: after) :
      MemoryStep order s { s with readSeen := r, acks := after }

/-- One step of the system. -/
def Step (order : Order) (cfg : Config) (s s' : State) : Prop :=
  TargetStep cfg s s' ∨ HostStep cfg s s' ∨ MemoryStep order s s'

/-- States reachable from `s`. -/
inductive Reachable (order : Order) (cfg : Config) (s : State) : State → Prop where
  | refl : Reachable order cfg s s
  | step {s' s'' : State} : Reachable order cfg s s' → Step order cfg s' s'' → Reachable order cfg s s''

end Defmt.Weak
