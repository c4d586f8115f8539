import Verif.Model.Rzcobs
/-!
# The global loggers

Models `acquire`, `write` and `release` of `firmware/defmt-rtt/src/lib.rs`,
`firmware/defmt-semihosting/src/lib.rs` and `firmware/defmt-itm/src/lib.rs` as used by the log macros
(`macros/src/function_like/log.rs`: `acquire_and_header`, the arguments, `release`) as a transition
system with any number of contexts (tasks, interrupts, cores). Every access to shared state is a step,
and the steps of the contexts interleave in any order.

`critical_section::acquire` / `release` are the external calls; they are modelled by their contract: a
lock that can be taken again by the context that has it, `acquire` returns whether the context had it
already, `release` gets that value back. (Interrupt masking on one core allows fewer interleavings.)

Simplifications: an encoder call and its output are one step; the sink (`write_all`, `itm::write_all`)
takes all bytes (for RTT this is `Model/Rtt.lean`); contexts take critical sections of their own only
outside of log statements; a panic is a state from which the context only can log again (the panic
handler).
-/

namespace Defmt.Logger

/-- The three global loggers. -/
inductive Kind where
  | rtt
  | semihosting
  | itm
deriving DecidableEq, Repr

/-- `encoding-raw` or `encoding-rzcobs` (defmt/src/encoding/mod.rs:1-6) -/
inductive Encoding where
  | raw
  | rzcobs
deriving DecidableEq, Repr

/-- `write` checks `taken` (firmware/defmt-semihosting/src/lib.rs:117-119; there is no check in
firmware/defmt-rtt/src/lib.rs:161-170 and firmware/defmt-itm/src/lib.rs:98-104). -/
def Kind.checksWrite : Kind → Bool
  | .semihosting => true
  | .rtt | .itm => false

/-- `release` checks `taken` (firmware/defmt-rtt/src/lib.rs:191-193,
firmware/defmt-semihosting/src/lib.rs:94-96; no check in firmware/defmt-itm/src/lib.rs:79-96). -/
def Kind.checksRelease : Kind → Bool
  | .rtt | .semihosting => true
  | .itm => false

/-- `Encoder::start_frame` (defmt/src/encoding/raw.rs:10, rzcobs.rs:27-37) -/
def startFrame (enc : Encoding) (e : Rzcobs.Encoder) : Rzcobs.Encoder × List UInt8 :=
  match enc with
  | .raw => (e, [])
  | .rzcobs => e.startFrame

/-- `Encoder::write` (defmt/src/encoding/raw.rs:14-16, rzcobs.rs:56-87) -/
def writeData (enc : Encoding) (e : Rzcobs.Encoder) (data : List UInt8) : Rzcobs.Encoder × List UInt8 :=
  match enc with
  | .raw => (e, data)
  | .rzcobs => e.write data

/-- `Encoder::end_frame` (defmt/src/encoding/raw.rs:12, rzcobs.rs:39-54) -/
def endFrame (enc : Encoding) (e : Rzcobs.Encoder) : Rzcobs.Encoder × List UInt8 :=
  match enc with
  | .raw => (e, [])
  | .rzcobs => e.endFrame

/-- Where a context is. -/
inductive Pc where
  /-- outside of log statements -/
  | idle
  /-- in `acquire`, critical section taken; `restore` is the restore state -/
  | entered (restore : Bool)
  /-- in `acquire`, `taken` was false -/
  | checked (restore : Bool)
  /-- in `acquire`, `taken` stored -/
  | stored (restore : Bool)
  /-- in `acquire`, restore state stored -/
  | saved
  /-- `acquire` has returned, the arguments of the log statement are written -/
  | framing
  /-- in `release`, before `end_frame` -/
  | releasing
  /-- in `release`, after `end_frame` -/
  | ended
  /-- in `release`, restore state loaded (rtt and semihosting: before `taken` is cleared) -/
  | restoring (restore : Bool)
  /-- in `release`, `taken` cleared, restore state not loaded yet (itm) -/
  | cleared
  /-- in `release`, before `critical_section::release` -/
  | leaving (restore : Bool)
  /-- panicked in `acquire`, `write` or `release` -/
  | panicked
deriving DecidableEq, Repr

/-- Shared state (`owner` is the critical section), positions and critical sections of the contexts, and
histories: `inside` and `payload` tell whether a context has an unfinished frame and what it has passed
to `write` for it, `completed` are the frames (context and data) that were ended so far. -/
structure State where
  owner : Option Nat
  taken : Bool
  restore : Bool
  encoder : Rzcobs.Encoder
  wire : List UInt8
  pc : Nat → Pc
  sections : Nat → List Bool
  inside : Nat → Bool
  payload : Nat → List UInt8
  completed : List (Nat × List UInt8)

def update (f : Nat → α) (c : Nat) (x : α) : Nat → α := fun i => if i = c then x else f i

/-- `TAKEN = false` etc.: the statics at start (firmware/defmt-rtt/src/lib.rs:123-129,
firmware/defmt-semihosting/src/lib.rs:52-59, firmware/defmt-itm/src/lib.rs:43-45) -/
def initial : State :=
  { owner := none, taken := false, restore := false, encoder := .new, wire := [], pc := fun _ => .idle,
    sections := fun _ => [], inside := fun _ => false, payload := fun _ => [], completed := [] }

/-- What `critical_section::release(restore)` leaves. -/
def leave (owner : Option Nat) (restore : Bool) : Option Nat := if restore then owner else none

/-- Steps of context `c`. -/
inductive Step (kind : Kind) (enc : Encoding) (c : Nat) : State → State → Prop where
  /-- the program takes a critical section of its own -/
  | enterSection {s : State} (h : s.pc c = .idle) (ho : s.owner = none ∨ s.owner = some c) :
      Step kind enc c s { s with
        owner := some c
        sections := update s.sections c ((s.owner == some c) :: s.sections c) }
  /-- the program leaves its critical section -/
  | leaveSection {s : State} {restore : Bool} {rest : List Bool} (h : s.pc c = .idle)
      (hs : s.sections c = restore :: rest) :
      Step kind enc c s { s with
        owner := leave s.owner restore
        sections := update s.sections c rest }
  /-- `acquire` takes the critical section (rtt 134, semihosting 64, itm 50): from a log statement, from a
  log statement inside of a log statement (a `Format` implementation that logs), or from the panic
  handler -/
  | acquire {s : State} (h : s.pc c = .idle ∨ s.pc c = .framing ∨ s.pc c = .panicked)
      (ho : s.owner = none ∨ s.owner = some c) :
      Step kind enc c s { s with owner := some c, pc := update s.pc c (.entered (s.owner == some c)) }
  /-- taken already (rtt 138-140, semihosting 68-70, itm 53-55) -/
  | reentered {s : State} {restore : Bool} (h : s.pc c = .entered restore) (ht : s.taken = true) :
      Step kind enc c s { s with pc := update s.pc c .panicked }
  /-- not taken yet -/
  | check {s : State} {restore : Bool} (h : s.pc c = .entered restore) (ht : s.taken = false) :
      Step kind enc c s { s with pc := update s.pc c (.checked restore) }
  /-- `taken` := true (rtt 143, semihosting 73, itm 58) -/
  | take {s : State} {restore : Bool} (h : s.pc c = .checked restore) :
      Step kind enc c s { s with taken := true, pc := update s.pc c (.stored restore) }
  /-- the restore state is stored (rtt 148, semihosting 78, itm 61) -/
  | save {s : State} {restore : Bool} (h : s.pc c = .stored restore) :
      Step kind enc c s { s with restore := restore, pc := update s.pc c .saved }
  /-- `start_frame` (rtt 150-152, semihosting 84-88, itm 64-67) -/
  | start {s : State} (h : s.pc c = .saved) :
      Step kind enc c s { s with
        encoder := (startFrame enc s.encoder).1
        wire := s.wire ++ (startFrame enc s.encoder).2
        pc := update s.pc c .framing
        inside := update s.inside c true
        payload := update s.payload c [] }
  /-- `write(data)` (rtt 161-170, semihosting 116-132, itm 98-104) -/
  | write {s : State} (data : List UInt8) (h : s.pc c = .framing) (ht : kind.checksWrite = false ∨ s.taken = true) :
      Step kind enc c s { s with
        encoder := (writeData enc s.encoder data).1
        wire := s.wire ++ (writeData enc s.encoder data).2
        payload := update s.payload c (s.payload c ++ data) }
  /-- `write` outside of a frame panics (semihosting 117-119) -/
  | writeOutside {s : State} (h : s.pc c = .framing) (ht : kind.checksWrite = true ∧ s.taken = false) :
      Step kind enc c s { s with pc := update s.pc c .panicked }
  /-- `release` is called -/
  | release {s : State} (h : s.pc c = .framing) (ht : kind.checksRelease = false ∨ s.taken = true) :
      Step kind enc c s { s with pc := update s.pc c .releasing }
  /-- `release` outside of a frame panics (rtt 191-193, semihosting 94-96) -/
  | releaseOutside {s : State} (h : s.pc c = .framing) (ht : kind.checksRelease = true ∧ s.taken = false) :
      Step kind enc c s { s with pc := update s.pc c .panicked }
  /-- `end_frame` (rtt 199-201, semihosting 103-107, itm 81-84) -/
  | finish {s : State} (h : s.pc c = .releasing) :
      Step kind enc c s { s with
        encoder := (endFrame enc s.encoder).1
        wire := s.wire ++ (endFrame enc s.encoder).2
        pc := update s.pc c .ended
        inside := update s.inside c false
        completed := s.completed ++ [(c, s.payload c)] }
  /-- the restore state is loaded (rtt 202, semihosting 108) -/
  | load {s : State} (hk : kind ≠ .itm) (h : s.pc c = .ended) :
      Step kind enc c s { s with pc := update s.pc c (.restoring s.restore) }
  /-- `taken` := false (rtt 203, semihosting 109) -/
  | clear {s : State} {restore : Bool} (hk : kind ≠ .itm) (h : s.pc c = .restoring restore) :
      Step kind enc c s { s with taken := false, pc := update s.pc c (.leaving restore) }
  /-- `TAKEN` := false (itm 87) -/
  | clearItm {s : State} (hk : kind = .itm) (h : s.pc c = .ended) :
      Step kind enc c s { s with taken := false, pc := update s.pc c .cleared }
  /-- the restore state is loaded (itm 90) -/
  | loadItm {s : State} (hk : kind = .itm) (h : s.pc c = .cleared) :
      Step kind enc c s { s with pc := update s.pc c (.leaving s.restore) }
  /-- `critical_section::release` (rtt 205, semihosting 111, itm 93-95) -/
  | leave {s : State} {restore : Bool} (h : s.pc c = .leaving restore) :
      Step kind enc c s { s with owner := Logger.leave s.owner restore, pc := update s.pc c .idle }

/-- States reachable from the start by any interleaving. -/
inductive Reachable (kind : Kind) (enc : Encoding) : State → Prop where
  | initial : Reachable kind enc initial
  | step {s s' : State} (c : Nat) : Reachable kind enc s → Step kind enc c s s' → Reachable kind enc s'

end Defmt.Logger
