import Verif.Lemmas.RttLive
/-!
# C48-C52: the RTT channel

`s0` is any state between calls (anything may be in the buffer, the cursors may be anywhere inside of
it), `s` any state reached from it by any interleaving of single steps of target and host.
-/

namespace Defmt
open Rtt

/-! ### Concrete executions for the examples -/

/-- a buffer with three bytes, cursors at the last position -/
def rttStart : State := { flags := 2, buffer := fun _ => 0, write := 2, read := 2, target := .ready, host := .idle, accepted := [], received := [] }

def rttConfig : Config := { size := 3, disableBlocking := false }

theorem rttStart_between : Between rttConfig rttStart := ⟨by decide, by decide, rfl, rfl, rfl, rfl⟩

/-- Three bytes are written, the write wraps around, the host has read the first two while the third is
still being written. -/
theorem rtt_example : ∃ s, Reachable rttConfig rttStart s ∧ s.received = [1, 2] ∧ s.accepted = [1, 2, 3] ∧
    outstanding s.target = [3] := by
  refine ⟨_, .step (.step (.step (.step (.step (.step (.step (.step (.step (.step (.step (.step (.step (.refl)
    (.inl (.call [1, 2, 3] rfl))) (.inl (.loadRead rfl (by simp) rfl))) (.inl (.start rfl (by decide))))
    (.inl (.copy (before := []) rfl))) (.inl (.store rfl)))
    (.inl (.loadRead rfl (by decide) rfl))) (.inl (.start rfl (by decide))))
    (.inl (.copy (before := []) rfl))) (.inl (.store rfl)))
    (.inr (.load rfl))) (.inr (.byte rfl (by decide)))) (.inr (.byte rfl (by decide)))) (.inr (.store rfl)), ?_, ?_, ?_⟩
  · rfl
  · rfl
  · rfl

/-- The mode: writes block exactly when the feature `disable-blocking-mode` is off and the lower two bits of
the flags are 2 (whatever the other bits are). -/
theorem C50_mode (cfg : Config) (s : State) :
    blocking cfg s = true ↔ cfg.disableBlocking = false ∧ s.flags % 4 = 2 := by
  have h : s.flags &&& 3 = s.flags % 4 := Nat.and_two_pow_sub_one_eq_mod s.flags 2
  unfold blocking hostIsConnected modeMask modeBlockIfFull
  rw [h]
  simp

/-! ### C48 -/

/-- C48: with a connected host, under every interleaving, the bytes the host has read, followed by the
unread bytes in the buffer, followed by the bytes still to be written, are exactly what was unread at the
start followed by everything written since. -/
theorem C48_nothing_lost (cfg : Config) (s0 s : State) (h0 : Between cfg s0) (hb : blocking cfg s0 = true)
    (hr : Reachable cfg s0 s) :
    s.received ++ unread cfg s ++ outstanding s.target = unread cfg s0 ++ s.accepted :=
  (Blocking.reachable h0 hb hr).data

/-- C48: what the host has read is a prefix of what the target has written. -/
theorem C48_prefix (cfg : Config) (s0 s : State) (h0 : Between cfg s0) (hb : blocking cfg s0 = true)
    (hr : Reachable cfg s0 s) : s.received <+: unread cfg s0 ++ s.accepted :=
  ⟨_, by rw [← C48_nothing_lost cfg s0 s h0 hb hr, List.append_assoc]⟩

/-- C48: no step of the target changes unread data: whatever is unread before the step is still there
afterwards, at most followed by new data. -/
theorem C48_unread_kept (cfg : Config) (s0 s s' : State) (h0 : Between cfg s0) (hb : blocking cfg s0 = true)
    (hr : Reachable cfg s0 s) (hs : TargetStep cfg s s') : unread cfg s <+: unread cfg s' := by
  have h1 := (Blocking.reachable h0 hb hr).data
  have h2 := (Blocking.reachable h0 hb (.step hr (.inl hs))).data
  rw [targetStep_received hs] at h2
  have hlen : (unread cfg s).length ≤ (unread cfg s').length := by
    have e1 := congrArg List.length h1
    have e2 := congrArg List.length h2
    simp only [List.length_append] at e1 e2
    have hgrow : s.accepted.length + (outstanding s'.target).length ≤ s'.accepted.length + (outstanding s.target).length := by
      cases hs with
      | call bytes ht => rw [ht]; simp [outstanding]
      | return_ ht => rw [ht]; simp [outstanding]
      | loadRead ht _ _ => rw [ht]; simp [outstanding]
      | full ht _ => rw [ht]; simp [outstanding]
      | start ht _ => rw [ht]; simp [outstanding, writeImpl]
      | startNonblocking ht _ _ => rw [ht]; simp [outstanding, writeImpl]
      | copy ht => rw [ht]; simp [outstanding]
      | store ht => rw [ht]; simp [outstanding]
      | flushNoHost ht _ => simp
      | flush ht _ => rw [ht]; simp [outstanding]
      | flushLoad ht => rw [ht]; simp [outstanding]
      | flushAgain ht _ => rw [ht]; simp [outstanding]
      | flushReturn ht _ => rw [ht]; simp [outstanding]
    omega
  have hacc : s.accepted <+: s'.accepted := by
    cases hs <;> first | exact List.prefix_append _ _ | exact List.prefix_refl _
  obtain ⟨x, hx⟩ := hacc
  rw [← hx, ← List.append_assoc, ← h1] at h2
  simp only [List.append_assoc] at h2
  have h3 := List.append_cancel_left h2
  rw [List.append_eq_append_iff] at h3
  rcases h3 with ⟨a, h4, h5⟩ | ⟨a, h4, h5⟩
  · have e := congrArg List.length h4
    rw [List.length_append] at e
    have : a = [] := by rw [← List.length_eq_zero_iff]; omega
    subst this
    exact ⟨[], by rw [h4]; simp⟩
  · exact ⟨a, h4.symm⟩

/-- C48: a byte that is being copied never hits a position between the cursors. -/
theorem C48_copies_miss_unread (cfg : Config) (s0 s : State) (h0 : Between cfg s0) (hb : blocking cfg s0 = true)
    (hr : Reachable cfg s0 s) (rest : List UInt8) (cursor len : Nat) (pending : List (Nat × UInt8))
    (ht : s.target = .copying rest cursor len pending) (p : Nat) (b : UInt8) (hm : (p, b) ∈ pending)
    (i : Nat) (hi : i < distance cfg.size s.read s.write) : (s.read + i) % cfg.size ≠ p :=
  (Blocking.reachable h0 hb hr).disjoint ht hm hi

example : ∃ s, Between rttConfig rttStart ∧ blocking rttConfig rttStart = true ∧ Reachable rttConfig rttStart s ∧
    s.received = [1, 2] := by
  obtain ⟨s, h1, h2, _⟩ := rtt_example
  exact ⟨s, rttStart_between, rfl, h1, h2⟩

/-! ### C49 -/

/-- C49: in both modes the cursors stay inside of the buffer. -/
theorem C49_cursors (cfg : Config) (s0 s : State) (h0 : Between cfg s0) (hr : Reachable cfg s0 s) :
    s.read < cfg.size ∧ s.write < cfg.size :=
  ⟨(h0.bounded.reachable hr).read, (h0.bounded.reachable hr).write⟩

/-- C49: in both modes every copy goes to a position inside of the buffer, reads only bytes that were
passed in, and is at most one round: `cursor + len` is at most twice the size, and the subtraction
`size - cursor` does not underflow. -/
theorem C49_copies (cfg : Config) (s0 s : State) (h0 : Between cfg s0) (hr : Reachable cfg s0 s)
    (rest : List UInt8) (cursor len : Nat) (pending : List (Nat × UInt8))
    (ht : s.target = .copying rest cursor len pending) :
    cursor < cfg.size ∧ 1 ≤ len ∧ len ≤ cfg.size ∧ len ≤ rest.length ∧ cursor + len < 2 * cfg.size + 1 ∧
    (∀ p b, (p, b) ∈ pending → p < cfg.size ∧ b ∈ rest.take len) := by
  have hb := h0.bounded.reachable hr
  have hc := hb.copying _ _ _ _ ht
  have h1 := hb.write
  have h2 := hc.cursor
  have h3 := hc.fits
  refine ⟨by omega, hc.pos, h3, hc.enough, by omega, ?_⟩
  intro p b hm
  obtain ⟨j, hj, hp, hb⟩ := hc.sound p b hm
  refine ⟨by rw [hp]; exact Nat.mod_lt _ (by omega), ?_⟩
  apply List.mem_of_getElem? (i := j)
  rw [List.getElem?_take, if_pos hj, hb]

/-- C49: the computation of the free space does not underflow, and never promises more than there is. -/
theorem C49_available (size read write : Nat) (hr : read < size) (hw : write < size) :
    (read > write → write + 1 ≤ read) ∧ (write + 1 ≤ size) ∧
    availableBufferSize size read write + distance size read write + 1 ≤ size :=
  ⟨fun h => h, hw, available_le hr hw⟩

/-- C49: the host as well only reads inside of the buffer. -/
theorem C49_host (cfg : Config) (s0 s : State) (h0 : Between cfg s0) (hr : Reachable cfg s0 s)
    (w pos : Nat) (got : List UInt8) (ht : s.host = .reading w pos got) : pos < cfg.size :=
  (h0.bounded.reachable hr).host _ _ _ ht

/-- the buffer with three bytes, no host, after a copy of four bytes has begun -/
example : ∃ s, Reachable rttConfig { rttStart with flags := 1 } s ∧
    s.target = .copying [1, 2, 3, 4] 2 3 [(2, 1), (0, 2), (1, 3)] :=
  ⟨_, .step (.step .refl (.inl (.call [1, 2, 3, 4] rfl))) (.inl (.startNonblocking rfl (by simp) rfl)), rfl⟩

/-! ### C50 -/

/-- C50: without a connected host (or with blocking disabled), whatever a host does, a write completes
provided the target keeps running. -/
theorem C50_no_host (cfg : Config) (σ : Nat → State) (hsize : 1 ≤ cfg.size) (hrun : Run cfg σ)
    (hfair : TargetRuns cfg σ) (i : Nat) (hb : blocking cfg (σ i) = false) (hw : Writing (σ i).target) :
    ∃ j ≥ i, (σ j).target = .ready :=
  hrun.eventually hfair (P := fun s => blocking cfg s = false ∧ Writing s.target)
    (Q := fun s => s.target = .ready) (μ := fun s => toGo s.target)
    (by
      rintro s s' ⟨p1, p2⟩ hs
      rcases toGo_step hsize p1 p2 hs with h | ⟨h1, h2⟩
      · exact .inl h
      · exact .inr ⟨⟨by unfold blocking at p1 ⊢; rw [hs.flags]; exact p1, h1⟩, h2⟩)
    (by
      rintro s s' ⟨p1, p2⟩ hs
      right
      rw [hostStep_target hs]
      exact ⟨⟨by unfold blocking at p1 ⊢; rw [hs.flags]; exact p1, p2⟩, Nat.le_refl _⟩)
    _ i ⟨hb, hw⟩ (Nat.le_refl _)

/-- target steps in a row -/
inductive TargetSteps (cfg : Config) : Nat → State → State → Prop where
  | zero {s : State} : TargetSteps cfg 0 s s
  | succ {n : Nat} {s s' s'' : State} : TargetStep cfg s s' → TargetSteps cfg n s' s'' → TargetSteps cfg (n + 1) s s''

/-- C50: without a connected host, `write_all(bytes)` takes at most `3 * len + 1` steps: a longer sequence
of target steps has passed through the return of `write_all`. -/
theorem C50_no_host_bound (cfg : Config) (hsize : 1 ≤ cfg.size) (bytes : List UInt8) (n : Nat) (s s' : State)
    (hb : blocking cfg s = false) (ht : s.target = .attempt bytes) (hs : TargetSteps cfg n s s')
    (hn : 3 * bytes.length + 1 ≤ n) : ∃ k sk, k ≤ 3 * bytes.length + 1 ∧ TargetSteps cfg k s sk ∧ sk.target = .ready := by
  have key : ∀ m n s s', blocking cfg s = false → Writing s.target → toGo s.target ≤ m → TargetSteps cfg n s s' →
      m ≤ n → ∃ k sk, k ≤ m ∧ TargetSteps cfg k s sk ∧ sk.target = .ready := by
    intro m
    induction m with
    | zero =>
      intro n s s' _ hw hm _ _
      cases htt : s.target <;> rw [htt] at hw hm <;> simp [Writing, toGo] at hw hm
    | succ m ih =>
      intro n s s' hb hw hm hs hn
      cases hs with
      | zero => omega
      | @succ n _ s1 _ h1 h2 =>
        rcases toGo_step hsize hb hw h1 with h | ⟨h3, h4⟩
        · exact ⟨1, s1, by omega, .succ h1 .zero, h⟩
        · obtain ⟨k, sk, hk, h5, h6⟩ := ih n s1 s' (by unfold blocking at hb ⊢; rw [h1.flags]; exact hb) h3 (by omega) h2 (by omega)
          exact ⟨k + 1, sk, by omega, .succ h1 h5, h6⟩
  exact key _ n s s' hb (by rw [ht]; trivial) (by rw [ht]; exact Nat.le_refl _) hs hn

/-- C50: the target can always take a step, so it is never deadlocked (it may wait in a loop). -/
theorem C50_never_stuck (cfg : Config) (s : State) : ∃ s', TargetStep cfg s s' := never_stuck s

/-- C50: with a connected host that keeps reading, and a buffer of at least two bytes, every write
completes. -/
theorem C50_connected (cfg : Config) (s0 : State) (σ : Nat → State) (h2 : 2 ≤ cfg.size) (h0 : Between cfg s0)
    (hb : blocking cfg s0 = true) (hstart : Reachable cfg s0 (σ 0)) (hrun : Run cfg σ)
    (hfair : TargetRuns cfg σ) (hhost : HostReads cfg σ) (i : Nat) (hw : Writing (σ i).target) :
    ∃ j ≥ i, (σ j).target = .ready := by
  have hl0 : Live cfg (unread cfg s0) (σ 0) := ⟨Blocking.reachable h0 hb hstart, hstart.blocking.trans hb⟩
  have hl := hrun.induct (P := Live cfg (unread cfg s0)) (fun _ _ h hs => h.step hs) hl0 i (Nat.zero_le _)
  exact completes h2 hrun hfair hhost _ _ i hl hw (Nat.le_refl _) (Nat.le_refl _)

/-- One byte is written and read by the host while `write_all` has not returned yet, then empty writes. -/
def liveRun : Nat → State
  | 0 => rttStart
  | 1 => { rttStart with target := .attempt [9], accepted := [9] }
  | 2 => { rttStart with target := .loadedRead [9] 2, accepted := [9] }
  | 3 => { rttStart with target := .copying [9] 2 1 [(2, 9)], accepted := [9] }
  | 4 => { rttStart with target := .copying [9] 2 1 [], accepted := [9], buffer := fun i => if i = 2 then 9 else 0 }
  | 5 => { rttStart with target := .attempt [], accepted := [9], buffer := fun i => if i = 2 then 9 else 0, write := 0 }
  | 6 => { rttStart with target := .attempt [], accepted := [9], buffer := fun i => if i = 2 then 9 else 0, write := 0, host := .reading 0 2 [] }
  | 7 => { rttStart with target := .attempt [], accepted := [9], buffer := fun i => if i = 2 then 9 else 0, write := 0, host := .reading 0 0 [9] }
  | n + 8 => { rttStart with
      target := if n % 2 = 0 then .attempt [] else .ready
      accepted := [9], buffer := fun i => if i = 2 then 9 else 0, write := 0, read := 0, received := [9] }

theorem liveRun_step (i : Nat) : Step rttConfig (liveRun i) (liveRun (i + 1)) ∧
    (8 ≤ i → TargetStep rttConfig (liveRun i) (liveRun (i + 1))) := by
  match i with
  | 0 => exact ⟨.inl (.call [9] rfl), by omega⟩
  | 1 => exact ⟨.inl (.loadRead rfl (by simp) rfl), by omega⟩
  | 2 => exact ⟨.inl (.start (s := liveRun 2) rfl (by decide)), by omega⟩
  | 3 => exact ⟨.inl (.copy (s := liveRun 3) (before := []) (after := []) (rest := [9]) (cursor := 2) (len := 1) (p := 2) (b := 9) rfl), by omega⟩
  | 4 => exact ⟨.inl (.store (s := liveRun 4) rfl), by omega⟩
  | 5 => exact ⟨.inr (.load rfl), by omega⟩
  | 6 => exact ⟨.inr (.byte (s := liveRun 6) (write := 0) (pos := 2) (got := []) rfl (by decide)), by omega⟩
  | 7 => exact ⟨.inr (.store (s := liveRun 7) (write := 0) (pos := 0) (got := [9]) rfl), by omega⟩
  | n + 8 =>
    have key : TargetStep rttConfig (liveRun (n + 8)) (liveRun (n + 1 + 8)) := by
      rcases Nat.mod_two_eq_zero_or_one n with h | h
      · have e1 : liveRun (n + 8) = liveRun 8 := by simp [liveRun, h]
        have e2 : liveRun (n + 1 + 8) = { liveRun 8 with target := .ready } := by
          simp [liveRun, show (n + 1) % 2 = 1 by omega]
        rw [e1, e2]
        exact .return_ rfl
      · have e1 : liveRun (n + 8) = { liveRun 8 with target := .ready } := by simp [liveRun, h]
        have e2 : liveRun (n + 1 + 8) = liveRun 8 := by simp [liveRun, show (n + 1) % 2 = 0 by omega]
        rw [e1, e2]
        exact .call (s := { liveRun 8 with target := .ready }) [] rfl
    exact ⟨.inl key, fun _ => key⟩

/-- an execution that satisfies the hypotheses of `C50_connected` -/
example : 2 ≤ rttConfig.size ∧ Between rttConfig (liveRun 0) ∧ blocking rttConfig (liveRun 0) = true ∧ Run rttConfig liveRun ∧
    TargetRuns rttConfig liveRun ∧ HostReads rttConfig liveRun ∧ Writing (liveRun 1).target := by
  refine ⟨by decide, rttStart_between, rfl, fun i => .inl (liveRun_step i).1,
    fun i => ⟨i + 8, by omega, (liveRun_step (i + 8)).2 (by omega)⟩, ?_, trivial⟩
  intro i hu
  match i with
  | 0 | 1 | 2 | 3 | 4 => exact absurd rfl hu
  | 5 | 6 | 7 => exact ⟨8, by omega, by decide⟩
  | n + 8 => exact absurd rfl hu

/-- the run of `C50_size_one` -/
def stuckRun (i : Nat) : State :=
  { flags := 2, buffer := fun _ => 0, write := 0, read := 0,
    target := if i = 0 then .ready else if i % 2 = 1 then .attempt [7] else .loadedRead [7] 0
    host := .idle, accepted := if i = 0 then [] else [7], received := [] }

/-- C50, the proviso is needed: with a buffer of a single byte a write never completes although target and
host keep running. -/
theorem C50_size_one : ∃ cfg σ, cfg.size = 1 ∧ Between cfg (σ 0) ∧ blocking cfg (σ 0) = true ∧ Run cfg σ ∧
    TargetRuns cfg σ ∧ HostReads cfg σ ∧ ∀ j, 1 ≤ j → Writing (σ j).target := by
  have hstep : ∀ i, TargetStep { size := 1, disableBlocking := false } (stuckRun i) (stuckRun (i + 1)) := by
    intro i
    by_cases h0 : i = 0
    · subst h0
      exact .call [7] rfl
    · by_cases h1 : i % 2 = 1
      · have h2 : ¬ (i + 1) % 2 = 1 := by omega
        have e1 : stuckRun i = { stuckRun 1 with target := .attempt [7] } := by simp [stuckRun, h0, h1]
        have e2 : stuckRun (i + 1) = { stuckRun 1 with target := .loadedRead [7] 0 } := by simp [stuckRun, h2]
        rw [e1, e2]
        exact .loadRead (s := { stuckRun 1 with target := .attempt [7] }) (rest := [7]) rfl (by simp) rfl
      · have h2 : (i + 1) % 2 = 1 := by omega
        have e1 : stuckRun i = { stuckRun 1 with target := .loadedRead [7] 0 } := by simp [stuckRun, h0, h1]
        have e2 : stuckRun (i + 1) = { stuckRun 1 with target := .attempt [7] } := by simp [stuckRun, h2]
        rw [e1, e2]
        exact .full (s := { stuckRun 1 with target := .loadedRead [7] 0 }) (rest := [7]) (read := 0) rfl rfl
  refine ⟨{ size := 1, disableBlocking := false }, stuckRun, rfl, ⟨?_, ?_, rfl, rfl, rfl, rfl⟩, rfl,
    fun i => .inl (.inl (hstep i)), fun i => ⟨i, Nat.le_refl _, hstep i⟩, ?_, ?_⟩
  · exact Nat.one_pos
  · exact Nat.one_pos
  · intro i hu; exact absurd rfl hu
  · intro j hj
    simp only [stuckRun]
    rw [if_neg (by omega)]
    split <;> trivial

/-- a target that writes one byte and then flushes nothing, without host: an execution that satisfies the
hypotheses of `C50_no_host` -/
example : ∃ σ, Run rttConfig σ ∧ blocking rttConfig (σ 1) = false ∧ Writing (σ 1).target ∧ TargetRuns rttConfig σ := by
  let s0 : State := { rttStart with flags := 1 }
  let s1 : State := { s0 with target := .attempt [], accepted := [] }
  have h01 : TargetStep rttConfig s0 s1 := .call [] rfl
  have h10 : TargetStep rttConfig s1 s0 := .return_ rfl
  have hstep : ∀ i, TargetStep rttConfig (if i % 2 = 0 then s0 else s1) (if (i + 1) % 2 = 0 then s0 else s1) := by
    intro i
    rcases Nat.mod_two_eq_zero_or_one i with h | h
    · rw [if_pos h, if_neg (by omega)]; exact h01
    · rw [if_neg (by omega), if_pos (by omega)]; exact h10
  exact ⟨fun i => if i % 2 = 0 then s0 else s1, fun i => .inl (.inl (hstep i)), by decide, trivial, fun i => ⟨i, Nat.le_refl _, hstep i⟩⟩

/-! ### C51 -/

/-- C51: after any writes (in both modes, whatever the host does) the bytes before the write cursor are
the most recent `min total size` bytes written. -/
theorem C51_newest (cfg : Config) (s0 s : State) (h0 : Between cfg s0) (hr : Reachable cfg s0 s)
    (hout : ¬ Writing s.target) :
    lastBytes cfg s (min s.accepted.length cfg.size) = s.accepted.drop (s.accepted.length - cfg.size) := by
  obtain ⟨done, hn⟩ := Newest.reachable h0 hr
  have hout' : outstanding s.target = [] ∧ overwritten s.target = 0 := by
    cases ht : s.target <;> rw [ht] at hout <;> simp [Writing] at hout <;> exact ⟨rfl, rfl⟩
  have hsplit := hn.split
  have hholds := hn.holds
  rw [hout'.1, List.append_nil] at hsplit
  rw [hout'.2] at hholds
  rw [hsplit]
  have hsz := h0.write
  have hpos : 0 < cfg.size := by omega
  apply List.ext_getElem?
  intro i
  rw [List.getElem?_drop]
  unfold lastBytes
  rw [List.getElem?_map]
  by_cases hi : i < min done.length cfg.size
  · rw [List.getElem?_range hi]
    have h3 := hholds (cfg.size - min done.length cfg.size + i) (Nat.zero_le _) (by omega) (by omega)
    rw [show done.length - cfg.size + i = done.length + (cfg.size - min done.length cfg.size + i) - cfg.size by omega, h3]
    simp only [Option.map_some]
    rw [show s.write + cfg.size - min done.length cfg.size + i = s.write + (cfg.size - min done.length cfg.size + i) by omega]
  · rw [List.getElem?_eq_none (by simpa using hi), List.getElem?_eq_none (by omega)]
    rfl

/-- five bytes into a buffer of three: the buffer holds the last three -/
example : ∃ s, Between rttConfig { rttStart with flags := 1 } ∧ Reachable rttConfig { rttStart with flags := 1 } s ∧
    ¬ Writing s.target ∧ s.accepted = [1, 2, 3, 4, 5] ∧ lastBytes rttConfig s 3 = [3, 4, 5] := by
  refine ⟨_, ⟨by decide, by decide, rfl, rfl, rfl, rfl⟩, .step (.step (.step (.step (.step (.step (.step (.step (.step (.step (.step .refl
    (.inl (.call [1, 2, 3, 4, 5] rfl))) (.inl (.startNonblocking rfl (by simp) rfl)))
    (.inl (.copy (before := []) rfl))) (.inl (.copy (before := []) rfl))) (.inl (.copy (before := []) rfl)))
    (.inl (.store rfl))) (.inl (.startNonblocking rfl (by decide) rfl)))
    (.inl (.copy (before := []) rfl))) (.inl (.copy (before := []) rfl))) (.inl (.store rfl))) (.inl (.return_ rfl)), ?_, ?_, ?_⟩
  · exact fun h => h
  · rfl
  · rfl

/-! ### C52 -/

/-- C52: when `flush` returns with the host connected in blocking mode, the host has read everything
written before. -/
theorem C52_flush (cfg : Config) (s0 s s' : State) (h0 : Between cfg s0) (hb : blocking cfg s0 = true)
    (hr : Reachable cfg s0 s) (hf : Flushing s.target) (hs : TargetStep cfg s s') (hd : s'.target = .ready) :
    s'.received = unread cfg s0 ++ s'.accepted := by
  have hi := Blocking.reachable h0 hb hr
  have hdata := hi.data
  cases hs with
  | @flushReturn read ht he =>
    have h1 := hi.flushed _ ht
    have h2 : distance cfg.size read s.write = 0 := by rw [he]; unfold distance; split <;> omega
    have h3 : unread cfg s = [] := by rw [unread_eq, ring_eq_nil]; omega
    rw [ht, h3] at hdata
    simpa [outstanding] using hdata
  | flushLoad ht => cases hd
  | flushAgain ht _ => cases hd
  | call bytes h => cases hd
  | return_ h => rw [h] at hf; exact hf.elim
  | loadRead h _ _ => cases hd
  | full h ha => cases hd
  | start h ha => cases hd
  | startNonblocking h hne hb' => cases hd
  | copy h => cases hd
  | store h => cases hd
  | flushNoHost h _ => rw [h] at hf; exact hf.elim
  | flush h _ => cases hd

/-- C52: `flush` does return if the host keeps reading. -/
theorem C52_flush_returns (cfg : Config) (s0 : State) (σ : Nat → State) (h0 : Between cfg s0)
    (hb : blocking cfg s0 = true) (hstart : Reachable cfg s0 (σ 0)) (hrun : Run cfg σ)
    (hfair : TargetRuns cfg σ) (hhost : HostReads cfg σ) (i : Nat) (hf : Flushing (σ i).target) :
    ∃ j ≥ i, (σ j).target = .ready := by
  have hl0 : Live cfg (unread cfg s0) (σ 0) := ⟨Blocking.reachable h0 hb hstart, hstart.blocking.trans hb⟩
  have hl := hrun.induct (P := Live cfg (unread cfg s0)) (fun _ _ h hs => h.step hs) hl0 i (Nat.zero_le _)
  exact flushes hrun hfair hhost _ i hl hf (Nat.le_refl _)

/-- C52: without a connected host `flush` returns at once. -/
theorem C52_no_host (cfg : Config) (s s' : State) (hb : hostIsConnected s.flags = false) (h : s.target = .ready)
    (hs : TargetStep cfg s s') : ¬ Flushing s'.target := by
  cases hs with
  | flush _ hb' => rw [hb] at hb'; cases hb'
  | call bytes h => exact fun h => h
  | flushNoHost _ _ => rw [h]; exact fun h => h
  | return_ h' => rw [h] at h'; cases h'
  | loadRead h' _ _ => rw [h] at h'; cases h'
  | full h' _ => rw [h] at h'; cases h'
  | start h' _ => rw [h] at h'; cases h'
  | startNonblocking h' _ _ => rw [h] at h'; cases h'
  | copy h' => rw [h] at h'; cases h'
  | store h' => rw [h] at h'; cases h'
  | flushLoad h' => rw [h] at h'; cases h'
  | flushAgain h' _ => rw [h] at h'; cases h'
  | flushReturn h' _ => rw [h] at h'; cases h'

/-- C52 needs blocking mode: with the feature `disable-blocking-mode` a connected host may have read
nothing when `flush` returns. -/
theorem C52_fails_disable_blocking : ∃ cfg s0 s s', Between cfg s0 ∧ hostIsConnected s0.flags = true ∧
    unread cfg s0 = [] ∧ Reachable cfg s0 s ∧ Flushing s.target ∧ TargetStep cfg s s' ∧ s'.target = .ready ∧
    s'.accepted = [1, 2, 3] ∧ s'.received = [] := by
  refine ⟨{ size := 3, disableBlocking := true }, rttStart, _, _, ⟨by decide, by decide, rfl, rfl, rfl, rfl⟩, rfl, rfl,
    .step (.step (.step (.step (.step (.step (.step (.step (.step .refl
    (.inl (.call [1, 2, 3] rfl))) (.inl (.startNonblocking rfl (by simp) rfl)))
    (.inl (.copy (before := []) rfl))) (.inl (.copy (before := []) rfl))) (.inl (.copy (before := []) rfl)))
    (.inl (.store rfl))) (.inl (.return_ rfl))) (.inl (.flush rfl rfl))) (.inl (.flushLoad rfl)), trivial, .flushReturn rfl rfl, rfl, rfl, rfl⟩

/-- a flush that returns after the host has read the byte -/
example : ∃ s s', Reachable rttConfig rttStart s ∧ Flushing s.target ∧ TargetStep rttConfig s s' ∧
    s'.target = .ready ∧ s'.accepted = [9] ∧ s'.received = [9] := by
  refine ⟨_, _, .step (.step (.step (.step (.step (.step (.step (.step (.step (.step (.step .refl
    (.inl (.call [9] rfl))) (.inl (.loadRead rfl (by simp) rfl))) (.inl (.start rfl (by decide))))
    (.inl (.copy (before := []) rfl))) (.inl (.store rfl))) (.inl (.return_ rfl))) (.inl (.flush rfl rfl)))
    (.inr (.load rfl))) (.inr (.byte rfl (by decide)))) (.inr (.store rfl))) (.inl (.flushLoad rfl)),
    trivial, .flushReturn rfl rfl, rfl, rfl, rfl⟩

end Defmt
