/-!
# The RTT channel

Models `firmware/defmt-rtt/src/channel.rs` as a transition system: one target context (the logger
runs inside a critical section, see `Model/Logger.lean`) and one host that reads the target's memory
through the debug probe. Every load and store of a cursor, and the copy of every single byte, is a
step of its own; target and host steps interleave in any order.

Simplifications: steps are sequentially consistent (`Model/Weak.lean` is the same with stores that become
visible late); cursors are unbounded numbers (they stay below `2 * BUF_SIZE`, see `C49`); the
connection status does not change here; `Model/Attach.lean` lets it change at any moment.
-/

namespace Defmt.Rtt

/-- build time configuration: `BUF_SIZE` (firmware/defmt-rtt/build.rs:6-11) and the Cargo feature
`disable-blocking-mode` -/
structure Config where
  size : Nat
  disableBlocking : Bool
deriving DecidableEq, Repr

/-- `MODE_MASK` (firmware/defmt-rtt/src/lib.rs:53) -/
def modeMask : Nat := 3

/-- `MODE_BLOCK_IF_FULL` (firmware/defmt-rtt/src/lib.rs:56) -/
def modeBlockIfFull : Nat := 2

/-- `host_is_connected` (channel.rs:104-107) -/
def hostIsConnected (flags : Nat) : Bool := flags &&& modeMask = modeBlockIfFull

/-- `available_buffer_size` (channel.rs:111-119); no subtraction underflows while the cursors are
below `size`. -/
def availableBufferSize (size readCursor writeCursor : Nat) : Nat :=
  if readCursor > writeCursor then readCursor - writeCursor - 1
  else if readCursor = 0 then size - writeCursor - 1
  else size - writeCursor

/-- `ptr::copy_nonoverlapping(bytes, buffer.add(start), bytes.len())` as single byte copies -/
def place (start : Nat) : List UInt8 → List (Nat × UInt8)
  | [] => []
  | b :: bs => (start, b) :: place (start + 1) bs

/-- The copies of `write_impl` (channel.rs:73-81). -/
def copies (size : Nat) (bytes : List UInt8) (cursor len : Nat) : List (Nat × UInt8) :=
  if cursor + len > size then
    let pivot := size - cursor
    place cursor (bytes.take pivot) ++ place 0 ((bytes.drop pivot).take (len - pivot))
  else place cursor (bytes.take len)

/-- Where the target is in `write_all` or `flush`; `rest` is the variable `bytes` of `write_all`. -/
inductive Target where
  /-- outside of `write_all` and `flush` -/
  | ready
  /-- at the loop condition of `write_all` (channel.rs:35) -/
  | attempt (rest : List UInt8)
  /-- in `blocking_write` after loading `read` (channel.rs:49) -/
  | loadedRead (rest : List UInt8) (read : Nat)
  /-- in `write_impl`, with the copies still to be made -/
  | copying (rest : List UInt8) (cursor len : Nat) (pending : List (Nat × UInt8))
  /-- at the loop condition of `flush` (channel.rs:101) -/
  | flushing
  /-- in the loop condition of `flush` after loading `read` -/
  | flushLoaded (read : Nat)

/-- Where the host is: idle, or reading after having loaded the write cursor; `pos` is the next
position to be read, `got` the bytes read since. -/
inductive Host where
  | idle
  | reading (write pos : Nat) (got : List UInt8)

/-- Memory shared by target and host, program positions, and two histories: `accepted` are all
bytes passed to `write_all` so far, `received` all bytes the host has read and acknowledged by moving
the read cursor. -/
structure State where
  flags : Nat
  buffer : Nat → UInt8
  write : Nat
  read : Nat
  target : Target
  host : Host
  accepted : List UInt8
  received : List UInt8

/-- The choice of `write_all` (channel.rs:29-33). -/
def blocking (cfg : Config) (s : State) : Bool := !cfg.disableBlocking && hostIsConnected s.flags

/-- Entry of `write_impl` (channel.rs:68-81). -/
def writeImpl (cfg : Config) (bytes : List UInt8) (cursor available : Nat) : Target :=
  .copying bytes cursor (min bytes.length available) (copies cfg.size bytes cursor (min bytes.length available))

/-- Steps of the target. -/
inductive TargetStep (cfg : Config) : State → State → Prop where
  /-- `write_all(bytes)` is called (channel.rs:26) -/
  | call {s : State} (bytes : List UInt8) (h : s.target = .ready) :
      TargetStep cfg s { s with target := .attempt bytes, accepted := s.accepted ++ bytes }
  /-- nothing left, `write_all` returns (channel.rs:35) -/
  | return_ {s : State} (h : s.target = .attempt []) : TargetStep cfg s { s with target := .ready }
  /-- `blocking_write` loads `read` (channel.rs:49) -/
  | loadRead {s : State} {rest : List UInt8} (h : s.target = .attempt rest) (hne : rest ≠ []) (hb : blocking cfg s = true) :
      TargetStep cfg s { s with target := .loadedRead rest s.read }
  /-- `blocking_write` loads `write`, the buffer is full (channel.rs:50-56) -/
  | full {s : State} {rest : List UInt8} {read : Nat} (h : s.target = .loadedRead rest read)
      (ha : availableBufferSize cfg.size read s.write = 0) : TargetStep cfg s { s with target := .attempt rest }
  /-- `blocking_write` loads `write` and calls `write_impl` (channel.rs:50-58, 69) -/
  | start {s : State} {rest : List UInt8} {read : Nat} (h : s.target = .loadedRead rest read)
      (ha : availableBufferSize cfg.size read s.write ≠ 0) :
      TargetStep cfg s { s with target := writeImpl cfg rest s.write (availableBufferSize cfg.size read s.write) }
  /-- `nonblocking_write` loads `write` and calls `write_impl` (channel.rs:61-66, 69) -/
  | startNonblocking {s : State} {rest : List UInt8} (h : s.target = .attempt rest) (hne : rest ≠ [])
      (hb : blocking cfg s = false) :
      TargetStep cfg s { s with target := writeImpl cfg rest s.write cfg.size }
  /-- one byte is copied; a `memcpy` may copy in any order (channel.rs:73-81) -/
  | copy {s : State} {rest : List UInt8} {cursor len : Nat} {before after : List (Nat × UInt8)} {p : Nat} {b : UInt8}
      (h : s.target = .copying rest cursor len (before ++ (p, b) :: after)) :
      TargetStep cfg s { s with
        buffer := fun i => if i = p then b else s.buffer i
        target := .copying rest cursor len (before ++ after) }
  /-- the write cursor is stored, back to the loop (channel.rs:84-89, 36-39) -/
  | store {s : State} {rest : List UInt8} {cursor len : Nat} (h : s.target = .copying rest cursor len []) :
      TargetStep cfg s { s with write := (cursor + len) % cfg.size, target := .attempt (rest.drop len) }
  /-- `flush` is called and returns because no host is connected (channel.rs:92-96) -/
  | flushNoHost {s : State} (h : s.target = .ready) (hb : hostIsConnected s.flags = false) : TargetStep cfg s s
  /-- `flush` is called (channel.rs:92) -/
  | flush {s : State} (h : s.target = .ready) (hb : hostIsConnected s.flags = true) :
      TargetStep cfg s { s with target := .flushing }
  /-- `flush` loads `read` (channel.rs:101) -/
  | flushLoad {s : State} (h : s.target = .flushing) : TargetStep cfg s { s with target := .flushLoaded s.read }
  /-- `flush` loads `write`, the cursors differ (channel.rs:101) -/
  | flushAgain {s : State} {read : Nat} (h : s.target = .flushLoaded read) (hd : read ≠ s.write) :
      TargetStep cfg s { s with target := .flushing }
  /-- `flush` loads `write`, the cursors agree, `flush` returns (channel.rs:101-102) -/
  | flushReturn {s : State} {read : Nat} (h : s.target = .flushLoaded read) (he : read = s.write) :
      TargetStep cfg s { s with target := .ready }

/-- Steps of the host, which follows the RTT protocol: load the write cursor, read bytes between the
cursors, store the read cursor. -/
inductive HostStep (cfg : Config) : State → State → Prop where
  | load {s : State} (h : s.host = .idle) : HostStep cfg s { s with host := .reading s.write s.read [] }
  | byte {s : State} {write pos : Nat} {got : List UInt8} (h : s.host = .reading write pos got) (hp : pos ≠ write) :
      HostStep cfg s { s with host := .reading write ((pos + 1) % cfg.size) (got ++ [s.buffer pos]) }
  | store {s : State} {write pos : Nat} {got : List UInt8} (h : s.host = .reading write pos got) :
      HostStep cfg s { s with read := pos, host := .idle, received := s.received ++ got }

/-- One step of the system. -/
def Step (cfg : Config) (s s' : State) : Prop := TargetStep cfg s s' ∨ HostStep cfg s s'

/-- States reachable from `s`. -/
inductive Reachable (cfg : Config) (s : State) : State → Prop where
  | refl : Reachable cfg s s
  | step {s' s'' : State} : Reachable cfg s s' → Step cfg s' s'' → Reachable cfg s s''

end Defmt.Rtt
