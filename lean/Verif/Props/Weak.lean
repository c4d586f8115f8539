import Verif.Lemmas.WeakLive
/-!
# C102: the RTT channel when stores become visible late

As C48-C52, but every store of target and host waits in a store buffer for any time before the other side sees
it (`Model/Weak.lean`). `s0` is any state between calls, `s` any state reached from it by any interleaving of
steps of target, host and memory. `Order.release` is the memory ordering in the code.
-/

namespace Defmt
open Rtt (Config outstanding Flushing Writing)
open Weak

/-- a buffer with three bytes, cursors at the last position -/
def weakStart : State :=
  { flags := 2, memory := fun _ => 0, writeSeen := 2, stores := [], write := 2, readSeen := 2, acks := [], read := 2,
    target := .ready, host := .idle, accepted := [], received := [] }

def weakConfig : Config := { size := 3, disableBlocking := false }

theorem weakStart_between : Between weakConfig weakStart := ⟨by decide, by decide, rfl, rfl, rfl, rfl, rfl, rfl, rfl, rfl⟩

/-- Three bytes are written in three rounds. The second byte becomes visible before the first write cursor. The
host reads the first byte; the target writes the third byte before the host sees the second write cursor. -/
theorem weak_example : ∃ s, Reachable .release weakConfig weakStart s ∧ s.received = [1] ∧ s.accepted = [1, 2, 3] ∧
    s.stores = [.cursor 1, .byte 1 3, .cursor 2] ∧ s.writeSeen = 0 ∧ s.memory 0 = 2 := by
  refine ⟨_, .step (.step (.step (.step (.step (.step (.step (.step (.step (.step (.step (.step (.step (.step (.step (.step (.step (.step (.step (.step .refl
    (.inl (.call [1, 2, 3] rfl))) (.inl (.loadRead rfl (by simp) rfl))) (.inl (.start rfl (by decide))))
    (.inl (.copy (before := []) rfl))) (.inl (.store rfl)))
    (.inl (.loadRead rfl (by decide) rfl))) (.inl (.start rfl (by decide))))
    (.inl (.copy (before := []) rfl)))
    (.inr (.inr (.byte (before := [.byte 2 1, .cursor 0]) (p := 0) (b := 2) rfl (by simp)))))
    (.inl (.store rfl)))
    (.inr (.inr (.byte (before := []) (p := 2) (b := 1) rfl (by simp)))))
    (.inr (.inr (.release rfl rfl))))
    (.inr (.inl (.load rfl)))) (.inr (.inl (.byte rfl (by decide))))) (.inr (.inl (.store rfl))))
    (.inr (.inr (.ack rfl)))) (.inl (.loadRead rfl (by decide) rfl))) (.inl (.start rfl (by decide)))) (.inl (.copy (before := []) rfl)))
    (.inl (.store rfl)), ?_, ?_, ?_, ?_, ?_⟩
  · rfl
  · rfl
  · rfl
  · rfl
  · rfl

/-- C102: with a connected host, however late stores become visible, the bytes the host has read, followed by the
bytes between the cursors, followed by the bytes still to be written, are exactly what was unread at the start
followed by everything written since. -/
theorem C102_nothing_lost (cfg : Config) (s0 s : State) (h0 : Between cfg s0) (hb : blocking cfg s0 = true)
    (hr : Reachable .release cfg s0 s) :
    s.received ++ unread cfg s ++ outstanding s.target = unread cfg s0 ++ s.accepted :=
  (Safe.reachable h0 hb hr).1.strong.data

/-- C102: what the host has read is a prefix of what the target has written. -/
theorem C102_prefix (cfg : Config) (s0 s : State) (h0 : Between cfg s0) (hb : blocking cfg s0 = true)
    (hr : Reachable .release cfg s0 s) : s.received <+: unread cfg s0 ++ s.accepted :=
  ⟨_, by rw [← C102_nothing_lost cfg s0 s h0 hb hr, List.append_assoc]⟩

/-- C102: no store of a byte that becomes visible, now or later, changes a byte the host may be reading: a
position between the read cursor and the write cursor the host sees. -/
theorem C102_stores_miss_visible (cfg : Config) (s0 s : State) (h0 : Between cfg s0) (hb : blocking cfg s0 = true)
    (hr : Reachable .release cfg s0 s) (p : Nat) (b : UInt8) (hm : .byte p b ∈ s.stores) (i : Nat)
    (hi : i < Rtt.distance cfg.size s.read s.writeSeen) : (s.read + i) % cfg.size ≠ p := by
  have hs := (Safe.reachable h0 hb hr).1
  obtain ⟨k, h1, h2, _⟩ := hs.stores
  have hread := hs.strong.bounded.read
  have hlt := Rtt.distance_lt hread hs.strong.bounded.write
  have hle := h2.le
  have hk : Rtt.distance cfg.size s.read s.writeSeen = k := Rtt.distance_eq hread (Nat.lt_of_le_of_lt hle hlt) h1.symm
  obtain ⟨j, h4, h5, h6⟩ := h2.mem hm
  intro he
  have := Rtt.ring_inj (by omega) h5 (he.trans h6)
  omega

/-- C102: when `flush` returns with the host connected in blocking mode, the host has read everything written
before, although `flush` may load an old read cursor. -/
theorem C102_flush (cfg : Config) (s0 s s' : State) (h0 : Between cfg s0) (hb : blocking cfg s0 = true)
    (hr : Reachable .release cfg s0 s) (hf : Flushing s.target) (hs : TargetStep cfg s s') (hd : s'.target = .ready) :
    s'.received = unread cfg s0 ++ s'.accepted := by
  have hi := (Safe.reachable h0 hb hr).1.strong
  have hdata := hi.data
  cases hs with
  | @flushReturn read ht he =>
    have h1 := hi.flushed _ ht
    have h2 : Rtt.distance cfg.size read s.write = 0 := by rw [he, distance_self]
    have h3 : Rtt.unread cfg (settled s) = [] := by
      rw [Rtt.unread_eq, Rtt.ring_eq_nil]
      exact Nat.le_zero.1 (h2 ▸ h1)
    rw [h3, show (settled s).target = .flushLoaded read from ht] at hdata
    simp only [outstanding, List.append_nil] at hdata
    exact hdata
  | flushLoad ht => cases hd
  | flushAgain ht _ => cases hd
  | call bytes h => cases hd
  | return_ h => rw [h] at hf; exact hf.elim
  | loadRead h _ _ => cases hd
  | full h ha => cases hd
  | start h ha => cases hd
  | startNonblocking h hne hb' => cases hd
  | copy h => cases hd
  | store h => cases hd
  | flushNoHost h _ => rw [h] at hf; exact hf.elim
  | flush h _ => cases hd

/-- C102: in both modes, and even if the write cursor were stored with `Relaxed`, all cursors stay inside of the buffer,
also the old values the target may load, and every byte is stored inside of the buffer. -/
theorem C102_bounds (order : Order) (cfg : Config) (s0 s : State) (h0 : Between cfg s0) (hr : Reachable order cfg s0 s) :
    s.read < cfg.size ∧ s.write < cfg.size ∧ s.readSeen < cfg.size ∧ (∀ r ∈ s.acks, r < cfg.size) ∧
    (∀ p b, .byte p b ∈ s.stores → p < cfg.size) ∧ (∀ w pos got, s.host = .reading w pos got → pos < cfg.size) :=
  have h := h0.inside.reachable hr
  ⟨h.bounded.read, h.bounded.write, h.reads _ (List.mem_cons_self ..), fun r hm => h.reads r (List.mem_cons_of_mem _ hm),
    h.bytes, h.bounded.host⟩

/-- C102: once all stores are visible, host and target agree about the cursors, so that the host sees all bytes
written and not read yet. -/
theorem C102_agree (cfg : Config) (s0 s : State) (h0 : Between cfg s0) (hb : blocking cfg s0 = true)
    (hr : Reachable .release cfg s0 s) (hs : s.stores = []) (ha : s.acks = []) :
    s.writeSeen = s.write ∧ s.readSeen = s.read ∧ (settled s).buffer = s.memory := by
  have h := (Safe.reachable h0 hb hr).1
  obtain ⟨k, h1, h2, _⟩ := h.stores
  rw [hs] at h2
  have h3 := h.latest
  rw [ha] at h3
  refine ⟨?_, Option.some.inj h3, by simp [settled, hs, settle]⟩
  rw [h1, show k = _ from h2]
  exact Rtt.distance_add h.strong.bounded.read h.strong.bounded.write

/-- C102: a waiting store can always become visible: the oldest one. -/
theorem C102_memory_never_stuck (s : State) (h : s.stores ≠ [] ∨ s.acks ≠ []) : ∃ s', MemoryStep .release s s' := by
  cases hs : s.stores with
  | cons x rest =>
    cases x with
    | byte p b => exact ⟨_, .byte (before := []) hs (by simp)⟩
    | cursor w => exact ⟨_, .release rfl hs⟩
  | nil =>
    cases ha : s.acks with
    | cons r rest => exact ⟨_, .ack ha⟩
    | nil => exact absurd hs (h.resolve_right (fun h => h ha))

/-- C102: every call of `write_all` and of `flush` returns, provided the buffer has at least two bytes, the target
keeps running, every stored cursor becomes visible some time, and the host reads while it sees unread bytes. -/
theorem C102_returns (cfg : Config) (s0 : State) (σ : Nat → State) (h2 : 2 ≤ cfg.size) (h0 : Between cfg s0)
    (hb : blocking cfg s0 = true) (hstart : Reachable .release cfg s0 (σ 0)) (hrun : Run cfg σ)
    (hfair : TargetRuns cfg σ) (hws : WritesSeen σ) (hrs : ReadsSeen σ) (hhost : HostReads σ) (i : Nat) :
    ∃ j ≥ i, (σ j).target = .ready := by
  obtain ⟨h3, h4⟩ := Safe.reachable h0 hb hstart
  have hl0 : Live cfg (unread cfg s0) (σ 0) :=
    ⟨h3, (congrArg (fun f => !cfg.disableBlocking && Rtt.hostIsConnected f) h4).trans hb⟩
  exact returns h2 hrun hfair hws hrs hhost
    (hrun.induct (P := Live cfg (unread cfg s0)) (i := 0) (fun _ _ h hs => h.step hs) hl0 i (Nat.zero_le _))

/-- C102, the ordering is needed: if the write cursor were stored with `Relaxed`, the host could read a byte the
target has never written. -/
theorem C102_relaxed_fails : ∃ cfg s0 s, Between cfg s0 ∧ blocking cfg s0 = true ∧ Reachable .relaxed cfg s0 s ∧
    unread cfg s0 = [] ∧ s.accepted = [7] ∧ s.received = [0] := by
  refine ⟨weakConfig, weakStart, _, weakStart_between, rfl, .step (.step (.step (.step (.step (.step (.step (.step (.step .refl
    (.inl (.call [7] rfl))) (.inl (.loadRead rfl (by simp) rfl))) (.inl (.start rfl (by decide))))
    (.inl (.copy (before := []) rfl))) (.inl (.store rfl)))
    (.inr (.inr (.relaxed (before := [.byte 2 7]) (after := []) (w := 0) rfl rfl (by simp)))))
    (.inr (.inl (.load rfl)))) (.inr (.inl (.byte rfl (by decide))))) (.inr (.inl (.store rfl))), rfl, rfl, rfl⟩

example : ∃ s, Between weakConfig weakStart ∧ blocking weakConfig weakStart = true ∧ Reachable .release weakConfig weakStart s ∧
    s.received = [1] ∧ s.accepted = [1, 2, 3] := by
  obtain ⟨s, h1, h2, h3, _⟩ := weak_example
  exact ⟨s, weakStart_between, rfl, h1, h2, h3⟩

/-- a flush that loads an old read cursor, goes on, and returns once the new one is visible -/
example : ∃ s s', Reachable .release weakConfig weakStart s ∧ Flushing s.target ∧ TargetStep weakConfig s s' ∧
    s'.target = .ready ∧ s'.accepted = [9] ∧ s'.received = [9] := by
  refine ⟨_, _, .step (.step (.step (.step (.step (.step (.step (.step (.step (.step (.step (.step (.step (.step (.step (.step .refl
    (.inl (.call [9] rfl))) (.inl (.loadRead rfl (by simp) rfl))) (.inl (.start rfl (by decide))))
    (.inl (.copy (before := []) rfl))) (.inl (.store rfl))) (.inl (.return_ rfl))) (.inl (.flush rfl rfl)))
    (.inr (.inr (.byte (before := []) rfl (by simp))))) (.inr (.inr (.release rfl rfl))))
    (.inr (.inl (.load rfl)))) (.inr (.inl (.byte rfl (by decide))))) (.inr (.inl (.store rfl))))
    (.inl (.flushLoad rfl))) (.inl (.flushAgain rfl (by decide)))) (.inr (.inr (.ack rfl)))) (.inl (.flushLoad rfl)),
    trivial, .flushReturn rfl rfl, rfl, rfl, rfl⟩

/-- One byte is written, becomes visible, is read; the read cursor becomes visible; then empty writes. -/
def weakRun : Nat → State
  | 0 => weakStart
  | 1 => { weakStart with target := .attempt [9], accepted := [9] }
  | 2 => { weakStart with target := .loadedRead [9] 2, accepted := [9] }
  | 3 => { weakStart with target := .copying [9] 2 1 [(2, 9)], accepted := [9] }
  | 4 => { weakStart with target := .copying [9] 2 1 [], accepted := [9], stores := [.byte 2 9] }
  | 5 => { weakStart with target := .attempt [], accepted := [9], stores := [.byte 2 9, .cursor 0], write := 0 }
  | 6 => { weakStart with target := .attempt [], accepted := [9], stores := [.cursor 0], write := 0, memory := fun i => if i = 2 then 9 else 0 }
  | 7 => { weakStart with target := .attempt [], accepted := [9], write := 0, writeSeen := 0, memory := fun i => if i = 2 then 9 else 0 }
  | 8 => { weakStart with target := .attempt [], accepted := [9], write := 0, writeSeen := 0, memory := fun i => if i = 2 then 9 else 0, host := .reading 0 2 [] }
  | 9 => { weakStart with target := .attempt [], accepted := [9], write := 0, writeSeen := 0, memory := fun i => if i = 2 then 9 else 0, host := .reading 0 0 [9] }
  | 10 => { weakStart with target := .attempt [], accepted := [9], write := 0, writeSeen := 0, memory := fun i => if i = 2 then 9 else 0,
                           read := 0, acks := [0], received := [9] }
  | n + 11 => { weakStart with
      target := if n % 2 = 0 then .attempt [] else .ready
      accepted := [9], write := 0, writeSeen := 0, memory := fun i => if i = 2 then 9 else 0, read := 0, readSeen := 0, received := [9] }

theorem weakRun_step (i : Nat) : Step .release weakConfig (weakRun i) (weakRun (i + 1)) ∧
    (11 ≤ i → TargetStep weakConfig (weakRun i) (weakRun (i + 1))) := by
  match i with
  | 0 => exact ⟨.inl (.call [9] rfl), by omega⟩
  | 1 => exact ⟨.inl (.loadRead rfl (by simp) rfl), by omega⟩
  | 2 => exact ⟨.inl (.start (s := weakRun 2) rfl (by decide)), by omega⟩
  | 3 => exact ⟨.inl (.copy (s := weakRun 3) (before := []) (after := []) (rest := [9]) (cursor := 2) (len := 1) (p := 2) (b := 9) rfl), by omega⟩
  | 4 => exact ⟨.inl (.store (s := weakRun 4) rfl), by omega⟩
  | 5 => exact ⟨.inr (.inr (.byte (s := weakRun 5) (before := []) (after := [.cursor 0]) (p := 2) (b := 9) rfl (by simp))), by omega⟩
  | 6 => exact ⟨.inr (.inr (.release (s := weakRun 6) rfl rfl)), by omega⟩
  | 7 => exact ⟨.inr (.inl (.load rfl)), by omega⟩
  | 8 => exact ⟨.inr (.inl (.byte (s := weakRun 8) (write := 0) (pos := 2) (got := []) rfl (by decide))), by omega⟩
  | 9 => exact ⟨.inr (.inl (.store (s := weakRun 9) (write := 0) (pos := 0) (got := [9]) rfl)), by omega⟩
  | 10 => exact ⟨.inr (.inr (.ack (s := weakRun 10) (r := 0) (after := []) rfl)), by omega⟩
  | n + 11 =>
    have key : TargetStep weakConfig (weakRun (n + 11)) (weakRun (n + 1 + 11)) := by
      rcases Nat.mod_two_eq_zero_or_one n with h | h
      · have e1 : weakRun (n + 11) = weakRun 11 := by simp [weakRun, h]
        have e2 : weakRun (n + 1 + 11) = { weakRun 11 with target := .ready } := by
          simp [weakRun, show (n + 1) % 2 = 1 by omega]
        rw [e1, e2]
        exact .return_ rfl
      · have e1 : weakRun (n + 11) = { weakRun 11 with target := .ready } := by simp [weakRun, h]
        have e2 : weakRun (n + 1 + 11) = weakRun 11 := by simp [weakRun, show (n + 1) % 2 = 0 by omega]
        rw [e1, e2]
        exact .call (s := { weakRun 11 with target := .ready }) [] rfl
    exact ⟨.inl key, fun _ => key⟩

/-- an execution that satisfies the hypotheses of `C102_returns` -/
example : 2 ≤ weakConfig.size ∧ Between weakConfig (weakRun 0) ∧ blocking weakConfig (weakRun 0) = true ∧ Run weakConfig weakRun ∧
    TargetRuns weakConfig weakRun ∧ WritesSeen weakRun ∧ ReadsSeen weakRun ∧ HostReads weakRun ∧ Writing (weakRun 1).target := by
  refine ⟨by decide, weakStart_between, rfl, fun i => .inl (weakRun_step i).1,
    fun i => ⟨i + 11, by omega, (weakRun_step (i + 11)).2 (by omega)⟩, ?_, ?_, ?_, trivial⟩
  · intro i
    match i with
    | 0 | 1 | 2 | 3 | 4 => exact ⟨5, by omega, rfl⟩
    | 5 | 6 | 7 | 8 | 9 | 10 => exact ⟨11, by omega, rfl⟩
    | n + 11 => exact ⟨n + 11, Nat.le_refl _, rfl⟩
  · intro i
    match i with
    | 0 | 1 | 2 | 3 | 4 | 5 | 6 | 7 | 8 | 9 => exact ⟨10, by omega, rfl⟩
    | 10 => exact ⟨11, by omega, rfl⟩
    | n + 11 => exact ⟨n + 11, Nat.le_refl _, rfl⟩
  · intro i hu
    match i with
    | 0 | 1 | 2 | 3 | 4 | 5 | 6 => exact absurd rfl hu
    | 7 | 8 | 9 => exact ⟨11, by omega, by decide⟩
    | 10 => exact absurd rfl hu
    | n + 11 => exact absurd rfl hu

end Defmt
