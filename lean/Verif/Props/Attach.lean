import Verif.Lemmas.Attach
import Verif.Props.Rtt
/-!
# C101: hosts that attach and detach at any moment
-/

namespace Defmt
open Attach Rtt

/-! ### The mode of a call -/

/-- **C101** A call of `write_all` or `flush` that starts has the mode of the flags at that moment. -/
theorem C101_enter (cfg : Config) (s s' : Attach.State) (h : s.channel.target = .ready) (hs : Attach.Step cfg s s')
    (hs' : s'.channel.target ≠ .ready) : blocking cfg s'.channel = blocks cfg s.flags ∧ s'.channel.flags = s.flags := by
  cases hs with
  | enter _ hs =>
    have hf := Rtt.Step.flags (.inl hs)
    exact ⟨by unfold blocking blocks; rw [hf], hf⟩
  | inside h' _ => exact absurd h h'
  | host hs => rw [hostStep_target hs] at hs'; exact absurd h hs'

/-- **C101** The mode of a call does not change while it runs, whatever happens to the flags. -/
theorem C101_mode (cfg : Config) (s s' : Attach.State) (h : s.channel.target ≠ .ready) (hs : Attach.Step cfg s s') :
    blocking cfg s'.channel = blocking cfg s.channel ∧ s'.flags = s.flags := by
  cases hs with
  | enter h' _ => exact absurd h' h
  | inside _ hs => exact ⟨by unfold blocking; rw [Rtt.Step.flags (.inl hs)], rfl⟩
  | host hs => exact ⟨by unfold blocking; rw [Rtt.Step.flags (.inr hs)], rfl⟩

/-! ### No access outside of the buffer -/

/-- **C101** Whatever the host does to the flags and whenever it does it, target and host access the buffer only inside of its bounds. -/
theorem C101_bounds (cfg : Config) (s0 s : Attach.State) (h0 : Between cfg s0.channel) (hr : Attach.Reachable cfg s0 s) :
    s.channel.read < cfg.size ∧ s.channel.write < cfg.size ∧
    (∀ rest cursor len pending, s.channel.target = .copying rest cursor len pending →
      cursor + len ≤ 2 * cfg.size ∧ len ≤ rest.length ∧ ∀ x ∈ pending, x.1 < cfg.size) ∧
    (∀ w pos got, s.channel.host = .reading w pos got → pos < cfg.size) := by
  have hb := ((Any.between h0).reachable hr).bounded
  refine ⟨hb.read, hb.write, ?_, fun w pos got h => hb.host w pos got h⟩
  intro rest cursor len pending ht
  have hc := hb.copying _ _ _ _ ht
  have hcur := hc.cursor
  have hw := hb.write
  have hf := hc.fits
  refine ⟨by omega, hc.enough, ?_⟩
  intro x hx
  obtain ⟨j, hj, hp, _⟩ := hc.sound x.1 x.2 hx
  rw [hp]
  exact Nat.mod_lt _ (by omega)

/-! ### Attaching -/

/-- **C101** A host attaches (sets the flags so that calls block) at any moment when it is not reading and the target is either not in a
call or in a call that does not block and has room for its remaining bytes. From then on nothing is lost, repeated or reordered: what the
host reads, what is unread and what the running call has still to write is what was unread at that moment and what has been written since.

The full statement drops the condition on the room; it is false, see `C101_fails`. -/
theorem C101_attach_partial (cfg : Config) (s0 s1 s2 : Attach.State) (flags : Nat) (h0 : Between cfg s0.channel)
    (h1 : Attach.Reachable cfg s0 s1) (hj : Joinable cfg s1.channel)
    (hblocks : blocks cfg flags = true) (h2 : Steady cfg (attach flags s1) s2) :
    s2.channel.received ++ unread cfg s2.channel ++ outstanding s2.channel.target = unread cfg s1.channel ++ s2.channel.accepted :=
  (Safe.steady (safe_attach ((Any.between h0).reachable h1) hj hblocks) h2).inv.data

/-- **C101** So what the host reads is a part, from the start, of what was unread and what was written. -/
theorem C101_prefix_partial (cfg : Config) (s0 s1 s2 : Attach.State) (flags : Nat) (h0 : Between cfg s0.channel)
    (h1 : Attach.Reachable cfg s0 s1) (hj : Joinable cfg s1.channel)
    (hblocks : blocks cfg flags = true) (h2 : Steady cfg (attach flags s1) s2) :
    s2.channel.received <+: unread cfg s1.channel ++ s2.channel.accepted := by
  rw [← C101_attach_partial cfg s0 s1 s2 flags h0 h1 hj hblocks h2, List.append_assoc]
  exact List.prefix_append _ _

/-- **C101** Nothing is lost when the call finishes, too: a host that attached and reads until the buffer is empty while no call runs has got
everything. -/
theorem C101_complete_partial (cfg : Config) (s0 s1 s2 : Attach.State) (flags : Nat) (h0 : Between cfg s0.channel)
    (h1 : Attach.Reachable cfg s0 s1) (hj : Joinable cfg s1.channel)
    (hblocks : blocks cfg flags = true) (h2 : Steady cfg (attach flags s1) s2) (hr : s2.channel.target = .ready)
    (he : s2.channel.read = s2.channel.write) :
    s2.channel.received = unread cfg s1.channel ++ s2.channel.accepted := by
  have := C101_attach_partial cfg s0 s1 s2 flags h0 h1 hj hblocks h2
  rw [hr] at this
  simpa [outstanding, unread, distance, he] using this

/-- **C101** When `flush` returns the host that attached has got everything. -/
theorem C101_flush_partial (cfg : Config) (s0 s1 s s' : Attach.State) (flags : Nat) (h0 : Between cfg s0.channel)
    (h1 : Attach.Reachable cfg s0 s1) (hj : Joinable cfg s1.channel) (hblocks : blocks cfg flags = true) (h2 : Steady cfg (attach flags s1) s)
    (hf : Flushing s.channel.target) (hs : Attach.Step cfg s s') (hd : s'.channel.target = .ready) :
    s'.channel.received = unread cfg s1.channel ++ s'.channel.accepted :=
  (Safe.steady (safe_attach ((Any.between h0).reachable h1) hj hblocks) h2).flushed hf hs hd

def attachConfig : Config := ⟨4, false⟩

/-- nothing written, no host -/
def attachStart : Attach.State :=
  ⟨0, { flags := 0, buffer := fun _ => 0, write := 0, read := 0, target := .ready, host := .idle, accepted := [], received := [] }⟩

theorem attachStart_between : Between attachConfig attachStart.channel := ⟨by decide, by decide, rfl, rfl, rfl, rfl⟩

/-- Two bytes are being written into a buffer of four when the host attaches: one is copied, none is visible. It gets both of them and what comes
later. -/
example : ∃ s1 s2, Attach.Reachable attachConfig attachStart s1 ∧ Joinable attachConfig s1.channel ∧ Writing s1.channel.target ∧
    outstanding s1.channel.target = [1, 2] ∧ blocks attachConfig 2 = true ∧ Steady attachConfig (attach 2 s1) s2 ∧
    s2.channel.received = [1, 2, 3] ∧ s2.channel.target = .ready := by
  refine ⟨_, _, .step (.step (.step .refl
    (.enter rfl (.call [1, 2] rfl)))
    (.inside (by simp) (.startNonblocking rfl (by simp) rfl)))
    (.inside (by simp [writeImpl]) (.copy (before := []) rfl)),
    ⟨rfl, .inr ⟨rfl, trivial, by decide⟩⟩, trivial, rfl, rfl,
    .step (.step (.step (.step (.step (.step (.step (.step (.step (.step (.step (.step (.step (.step (.step (.step .refl
    (.host (.load rfl)))
    (.inside (by simp [attach, writeImpl]) (.copy (before := []) rfl)))
    (.inside (by simp [attach, writeImpl]) (.store rfl)))
    (.host (.store rfl)))
    (.inside (by simp [attach, writeImpl]) (.return_ rfl)))
    (.enter rfl (.call [3] rfl)))
    (.inside (by simp) (.loadRead rfl (by simp) rfl)))
    (.inside (by simp) (.start rfl (by decide))))
    (.inside (by simp [writeImpl]) (.copy (before := []) rfl)))
    (.inside (by simp [writeImpl]) (.store rfl)))
    (.inside (by simp) (.return_ rfl)))
    (.host (.load rfl)))
    (.host (.byte rfl (by decide)))) (.host (.byte rfl (by decide)))) (.host (.byte rfl (by decide)))) (.host (.store rfl)), rfl, rfl⟩

/-- **C101** Without the room it is false. Three of the four bytes of the buffer are unread and a call that does not block writes one more when
the host attaches. The call makes the write cursor meet the read cursor, so the next call, which blocks, takes the buffer for empty and
overwrites bytes that the host is reading: the host reads `efcdef` instead of `abcdef`. -/
theorem C101_fails : ∃ cfg s0 s1 s2 flags, Between cfg s0.channel ∧ Attach.Reachable cfg s0 s1 ∧ s1.channel.host = .idle ∧
    blocking cfg s1.channel = false ∧ Writing s1.channel.target ∧
    distance cfg.size s1.channel.read s1.channel.write + (outstanding s1.channel.target).length = cfg.size ∧
    blocks cfg flags = true ∧ Steady cfg (attach flags s1) s2 ∧
    unread cfg s1.channel ++ s2.channel.accepted = [0x61, 0x62, 0x63, 0x64, 0x65, 0x66] ∧ s2.channel.received = [0x65, 0x66, 0x63, 0x64, 0x65, 0x66] ∧
    ¬ s2.channel.received <+: unread cfg s1.channel ++ s2.channel.accepted := by
  refine ⟨attachConfig, attachStart, _, _, 2, attachStart_between, .step (.step (.step (.step (.step (.step (.step (.step .refl
    (.enter rfl (.call [0x61, 0x62, 0x63] rfl)))
    (.inside (by simp) (.startNonblocking rfl (by simp) rfl)))
    (.inside (by simp [writeImpl]) (.copy (before := []) rfl)))
    (.inside (by simp [writeImpl]) (.copy (before := []) rfl)))
    (.inside (by simp [writeImpl]) (.copy (before := []) rfl)))
    (.inside (by simp [writeImpl]) (.store rfl)))
    (.inside (by simp) (.return_ rfl)))
    (.enter rfl (.call [0x64] rfl)),
    rfl, rfl, trivial, by decide, rfl,
    .step (.step (.step (.step (.step (.step (.step (.step (.step (.step (.step (.step (.step (.step (.step (.step (.step (.step (.step (.step (.step .refl
    (.host (.load rfl)))
    (.inside (by simp [attach]) (.startNonblocking rfl (by simp) rfl)))
    (.inside (by simp [attach, writeImpl]) (.copy (before := []) rfl)))
    (.inside (by simp [attach, writeImpl]) (.store rfl)))
    (.inside (by simp) (.return_ rfl)))
    (.enter rfl (.call [0x65, 0x66] rfl)))
    (.inside (by simp) (.loadRead rfl (by simp) rfl)))
    (.inside (by simp) (.start rfl (by decide))))
    (.inside (by simp [writeImpl]) (.copy (before := []) rfl)))
    (.inside (by simp [writeImpl]) (.copy (before := []) rfl)))
    (.inside (by simp [writeImpl]) (.store rfl)))
    (.inside (by simp) (.return_ rfl)))
    (.host (.byte rfl (by decide)))) (.host (.byte rfl (by decide)))) (.host (.byte rfl (by decide)))) (.host (.store rfl)))
    (.host (.load rfl)))
    (.host (.byte rfl (by decide)))) (.host (.byte rfl (by decide)))) (.host (.byte rfl (by decide)))) (.host (.store rfl)), rfl, rfl, by decide⟩

/-! ### Detaching -/

/-- The target runs and the flags are changed at any time, but nobody reads (every step of a host changes its position). -/
inductive Alone (cfg : Config) (s : Attach.State) : Attach.State → Prop where
  | refl : Alone cfg s s
  | step {s' s'' : Attach.State} : Alone cfg s s' → Attach.Step cfg s' s'' → s''.channel.host = s'.channel.host → Alone cfg s s''
  | setFlags {s' : Attach.State} (flags : Nat) : Alone cfg s s' → Alone cfg s { s' with flags := flags }

/-- **C101** A host that detaches during a call that blocks leaves the target in this call for ever if the buffer is full, whatever is done to
the flags: the mode is looked up once per call. -/
theorem C101_detach (cfg : Config) (s s' : Attach.State) (rest : List UInt8)
    (ht : s.channel.target = .attempt rest) (hne : rest ≠ []) (hb : blocking cfg s.channel = true)
    (hfull : availableBufferSize cfg.size s.channel.read s.channel.write = 0) (ha : Alone cfg s s') :
    Writing s'.channel.target ∧ outstanding s'.channel.target = rest ∧ unread cfg s'.channel = unread cfg s.channel := by
  have key : (s'.channel.target = .attempt rest ∨ s'.channel.target = .loadedRead rest s.channel.read) ∧ s'.channel.read = s.channel.read ∧
      s'.channel.write = s.channel.write ∧ s'.channel.buffer = s.channel.buffer ∧ blocking cfg s'.channel = true := by
    induction ha with
    | refl => exact ⟨.inl ht, rfl, rfl, rfl, hb⟩
    | setFlags f _ ih => exact ih
    | @step t t' _ hs hh ih =>
      obtain ⟨h1, h2, h3, h4, h5⟩ := ih
      cases hs with
      | enter h' _ => rcases h1 with h1 | h1 <;> (rw [h'] at h1; cases h1)
      | host hs =>
        exfalso
        cases hs with
        | load h' => rw [h'] at hh; cases hh
        | byte h' _ => rw [h'] at hh; simp at hh
        | store h' => rw [h'] at hh; cases hh
      | @inside r h' hs =>
        cases hs with
        | call _ h' => rcases h1 with h1 | h1 <;> (rw [h'] at h1; cases h1)
        | return_ h' =>
          rcases h1 with h1 | h1
          · rw [h'] at h1; cases h1; exact absurd rfl hne
          · rw [h'] at h1; cases h1
        | @loadRead rest' h' _ _ =>
          rcases h1 with h1 | h1
          · rw [h'] at h1; cases h1
            exact ⟨.inr (by rw [← h2]), h2, h3, h4, h5⟩
          · rw [h'] at h1; cases h1
        | full h' _ =>
          rcases h1 with h1 | h1
          · rw [h'] at h1; cases h1
          · rw [h'] at h1; cases h1
            exact ⟨.inl rfl, h2, h3, h4, h5⟩
        | start h' hav =>
          rcases h1 with h1 | h1
          · rw [h'] at h1; cases h1
          · rw [h'] at h1; cases h1
            rw [h3] at hav
            exact absurd hfull hav
        | startNonblocking _ _ hn => rw [h5] at hn; cases hn
        | copy h' => rcases h1 with h1 | h1 <;> (rw [h'] at h1; cases h1)
        | store h' => rcases h1 with h1 | h1 <;> (rw [h'] at h1; cases h1)
        | flushNoHost h' _ => rcases h1 with h1 | h1 <;> (rw [h'] at h1; cases h1)
        | flush h' _ => rcases h1 with h1 | h1 <;> (rw [h'] at h1; cases h1)
        | flushLoad h' => rcases h1 with h1 | h1 <;> (rw [h'] at h1; cases h1)
        | flushAgain h' _ => rcases h1 with h1 | h1 <;> (rw [h'] at h1; cases h1)
        | flushReturn h' _ => rcases h1 with h1 | h1 <;> (rw [h'] at h1; cases h1)
  obtain ⟨h1, h2, h3, h4, _⟩ := key
  refine ⟨?_, ?_, ?_⟩
  · rcases h1 with h1 | h1 <;> (rw [h1]; trivial)
  · rcases h1 with h1 | h1 <;> rw [h1] <;> rfl
  · unfold unread; rw [h2, h3, h4]

/-- A host connects, three of four bytes are written, and it disappears during the next call. -/
example : ∃ s s', Attach.Reachable attachConfig { attachStart with flags := 2 } s ∧ s.channel.target = .attempt [4] ∧
    blocking attachConfig s.channel = true ∧ availableBufferSize attachConfig.size s.channel.read s.channel.write = 0 ∧
    Alone attachConfig s s' ∧ blocks attachConfig s'.flags = false := by
  refine ⟨_, _, .step (.step (.step (.step (.step (.step (.step (.step (.step .refl
    (.enter rfl (.call [1, 2, 3] rfl)))
    (.inside (by simp) (.loadRead rfl (by simp) rfl)))
    (.inside (by simp) (.start rfl (by decide))))
    (.inside (by simp [writeImpl]) (.copy (before := []) rfl)))
    (.inside (by simp [writeImpl]) (.copy (before := []) rfl)))
    (.inside (by simp [writeImpl]) (.copy (before := []) rfl)))
    (.inside (by simp [writeImpl]) (.store rfl)))
    (.inside (by simp) (.return_ rfl)))
    (.enter rfl (.call [4] rfl)), rfl, rfl, by decide, .setFlags 0 .refl, rfl⟩

end Defmt
