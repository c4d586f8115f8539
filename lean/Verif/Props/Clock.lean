import Verif.Lemmas.Clock
import Verif.Props.System
/-!
# C112: the order of the timestamps
-/

namespace Defmt

open Clock Encoder

/-- **C112** With any logger and any number of contexts: frames do not overlap in time. A frame ends before the next one of any context begins. -/
theorem C112_disjoint (kind : Logger.Kind) (enc : Logger.Encoding) (ts : Timestamp) (clock : Nat) (s : Clock.State (overLogger kind enc))
    (h : Clock.Reachable (overLogger kind enc) ts (Clock.start Logger.initial clock) s) :
    s.log.Pairwise (fun a b => a.finished ≤ b.acquired) :=
  ((Clock.Inv.start ts rfl clock).reachable (overLogger_ok kind enc) h).disjoint

/-- **C112** The timestamp is taken during the frame, the arguments are evaluated before. -/
theorem C112_during (kind : Logger.Kind) (enc : Logger.Encoding) (ts : Timestamp) (clock : Nat) (s : Clock.State (overLogger kind enc))
    (h : Clock.Reachable (overLogger kind enc) ts (Clock.start Logger.initial clock) s) :
    ∀ e ∈ s.log, e.job.evaluated ≤ e.acquired ∧ e.acquired ≤ e.stamp ∧ e.stamp ≤ e.finished ∧ e.finished ≤ s.clock :=
  ((Clock.Inv.start ts rfl clock).reachable (overLogger_ok kind enc) h).past

theorem stamps_sorted {l : List Clock.Entry} (h : l.Pairwise (fun a b => a.finished ≤ b.acquired))
    (hp : ∀ e ∈ l, e.acquired ≤ e.stamp ∧ e.stamp ≤ e.finished) : (l.map Clock.Entry.stamp).Pairwise (· ≤ ·) := by
  rw [List.pairwise_map]
  refine List.Pairwise.imp_of_mem ?_ h
  intro a b ha hb hab
  exact Nat.le_trans (hp a ha).2 (Nat.le_trans hab (hp b hb).1)

/-- **C112** The frames on the wire, of all contexts, are in the order of their timestamps; they hold what was to be logged and the timestamp taken. -/
theorem C112_order (kind : Logger.Kind) (enc : Logger.Encoding) (ts : Timestamp) (clock : Nat) (s : Clock.State (overLogger kind enc))
    (h : Clock.Reachable (overLogger kind enc) ts (Clock.start Logger.initial clock) s) :
    (s.log.map Clock.Entry.stamp).Pairwise (· ≤ ·) ∧
      s.log.map (fun e => (e.event ts).bytes) = ((s.base.completed.map Prod.snd).filter (· ≠ [])).map some := by
  have hi := (Clock.Inv.start ts rfl clock).reachable (overLogger_ok kind enc) h
  exact ⟨stamps_sorted hi.disjoint (fun e he => ⟨(hi.past e he).2.1, (hi.past e he).2.2.1⟩), hi.bytes⟩

/-- **C112** What is printed (RTT, rzCOBS, blocking mode): at every moment, the first log statements in the order of completion, with timestamps that
never go back, whatever the contexts, the channel and the host do. -/
theorem C112_printed (cfg : Rtt.Config) (flags : Nat) (buffer : Nat → UInt8) (ts : Timestamp) (clock : Nat) (s : Clock.State (overRtt cfg .rzcobs))
    (hsize : 1 ≤ cfg.size) (hb : Rtt.blocking cfg (System.start flags buffer).rtt = true)
    (h : Clock.Reachable (overRtt cfg .rzcobs) ts (Clock.start (System.start flags buffer) clock) s) (t : Table)
    (hok : ∀ e ∈ s.log, (e.event ts).Ok t) (chunks : List (List UInt8)) (hc : chunks.flatten = s.base.rtt.received) :
    ∃ shown : List Clock.Entry, shown <+: s.log ∧ (shown.map Clock.Entry.stamp).Pairwise (· ≤ ·) ∧
      ∃ rest, Printer.defmtPrint t.td .rzcobs chunks = some (System.printed (shown.map (Clock.Entry.event ts)), .wait rest) := by
  have hi := (Clock.Inv.start (kind := .rtt) (enc := .rzcobs) ts rfl clock).reachable (overRtt_ok cfg .rzcobs) h
  have hl : System.Logged t s.base (s.log.map (Clock.Entry.event ts)) := by
    refine ⟨fun e he => ?_, ?_⟩
    · obtain ⟨x, hx, rfl⟩ := List.mem_map.mp he
      exact hok x hx
    · rw [List.map_map]; exact hi.bytes
  obtain ⟨k, rest, hp⟩ := C75_printed cfg flags buffer s.base hsize hb h.system t _ hl chunks hc
  refine ⟨s.log.take k, List.take_prefix _ _, ?_, rest, ?_⟩
  · have := stamps_sorted hi.disjoint (fun e he => ⟨(hi.past e he).2.1, (hi.past e he).2.2.1⟩)
    rw [List.map_take]
    exact this.sublist (List.take_sublist _ _)
  · rw [hp, List.map_take]

/-- A context that has evaluated its arguments, and finds the logger free, can finish its statement. -/
theorem statement_runs {enc : Logger.Encoding} {ts : Timestamp} {s : Clock.State (overLogger .rtt enc)} {c : Nat} {job : Job} {d d' : List UInt8}
    (ho : Logger.State.owner s.base = none) (ht : Logger.State.taken s.base = false) (hp : Logger.State.pc s.base c = .idle)
    (hj : s.phase c = .ready job) (hd : stampBytes ts s.clock = some d) (hd' : job.call.encode = some d') :
    ∃ s', Clock.Reachable (overLogger .rtt enc) ts s s' ∧ s'.log = s.log ++ [⟨c, job, s.clock, s.clock, s.clock⟩] ∧
      Logger.State.owner s'.base = none ∧ Logger.State.taken s'.base = false ∧ s'.clock = s.clock ∧
      (∀ x, x ≠ c → Logger.State.pc s'.base x = Logger.State.pc s.base x ∧ s'.phase x = s.phase x) := by
  obtain ⟨base, clock, phase, log⟩ := s
  have r1 : Clock.Reachable (overLogger .rtt enc) ts ⟨base, clock, phase, log⟩ _ := .step .refl (.base ⟨c, .acquire (.inl hp) (.inl ho)⟩ (.quiet rfl rfl rfl))
  have r2 := r1.step (.base ⟨c, .check (restore := false) (by rw [show Logger.State.owner base = none from ho]; exact Logger.update_same) ht⟩ (.quiet rfl rfl rfl))
  have r3 := r2.step (.base ⟨c, .take (restore := false) (by simp [Logger.update])⟩ (.quiet rfl rfl rfl))
  have r4 := r3.step (.base ⟨c, .save (restore := false) (by simp [Logger.update])⟩ (.quiet rfl rfl rfl))
  have r5 := r4.step (.base ⟨c, .start (by simp [Logger.update])⟩ (.start c job hj rfl rfl rfl))
  have r6 := r5.step (.base ⟨c, .write (le 2 job.index) (by simp [Logger.update]) (.inl rfl)⟩
    (.header c job clock (by simp [Logger.update]) rfl rfl rfl))
  have r7 := r6.step (.stamp c job clock (by simp [Logger.update]) hd hd')
  have r8 := r7.step (.base ⟨c, .write (d ++ d') (by simp [Logger.update]) (.inl rfl)⟩
    (.write c job clock clock (d ++ d') [] (by simp [Logger.update]) rfl rfl rfl))
  have r9 := r8.step (.base ⟨c, .release (by simp [Logger.update]) (.inr rfl)⟩ (.quiet rfl rfl rfl))
  have r10 := r9.step (.base ⟨c, .finish (by simp [Logger.update])⟩ (.finish c job clock clock (by simp [Logger.update]) rfl rfl rfl))
  have r11 := r10.step (.base ⟨c, .load (by simp) (by simp [Logger.update])⟩ (.quiet rfl rfl rfl))
  have r12 := r11.step (.base ⟨c, .clear (restore := false) (by simp) (by simp [Logger.update])⟩ (.quiet rfl rfl rfl))
  have r13 := r12.step (.base ⟨c, .leave (restore := false) (by simp [Logger.update])⟩ (.quiet rfl rfl rfl))
  refine ⟨_, r13, rfl, rfl, rfl, rfl, fun x hx => ⟨?_, ?_⟩⟩
  · simp [Logger.update, hx]
  · simp [Logger.update, hx]

theorem Reachable_trans {b : Base} {ts : Timestamp} {s1 s2 s3 : Clock.State b} (h : Clock.Reachable b ts s1 s2) (h' : Clock.Reachable b ts s2 s3) :
    Clock.Reachable b ts s1 s3 := by
  induction h' with
  | refl => exact h
  | step _ hs ih => exact .step ih hs

/-- the time as an argument -/
def demoNow (now : Nat) : Call := ⟨c!"{=u8}", [.uint 1 now]⟩

/-- Context 0 has evaluated its argument at time 0, context 1 at time 5. -/
def demoPhases : Nat → Phase := Logger.update (Logger.update (fun _ => .outside) 0 (.ready ⟨1, .info, demoNow 0, 0⟩)) 1 (.ready ⟨2, .info, demoNow 5, 5⟩)

/-- **C112** For a time that is an argument of the message this does not hold: it can be older than the one in a message before. (A statement is
interrupted after the evaluation of its arguments, and the interrupt logs.) -/
theorem C112_arguments_unordered : ∃ s : Clock.State (overLogger .rtt .rzcobs),
    Clock.Reachable (overLogger .rtt .rzcobs) (some demoNow) (Clock.start Logger.initial 0) s ∧
    s.log.map (fun e => (e.job.call, e.stamp)) = [(demoNow 5, 5), (demoNow 0, 5)] := by
  have h1 : Clock.Reachable (overLogger .rtt .rzcobs) (some demoNow) (Clock.start Logger.initial 0) _ :=
    .step .refl (.evaluate 0 1 .info (demoNow 0) rfl (by decide +kernel))
  have h2 := h1.step (.tick 5 (Nat.zero_le _))
  have h3 : Clock.Reachable (overLogger .rtt .rzcobs) (some demoNow) (Clock.start Logger.initial 0) ⟨Logger.initial, 5, demoPhases, []⟩ :=
    h2.step (.evaluate 1 2 .info (demoNow 5) rfl (by decide +kernel))
  obtain ⟨s1, r1, l1, o1, t1, c1, p1⟩ := statement_runs (enc := .rzcobs) (ts := some demoNow) (c := 1) (d := [5]) (d' := [5])
    (s := ⟨Logger.initial, 5, demoPhases, []⟩) (job := ⟨2, .info, demoNow 5, 5⟩) rfl rfl rfl rfl (by decide +kernel) (by decide +kernel)
  have p0 := p1 0 (by decide)
  obtain ⟨s2, r2, l2, _⟩ := statement_runs (enc := .rzcobs) (ts := some demoNow) (c := 0) (d := [5]) (d' := [0]) (s := s1)
    (job := ⟨1, .info, demoNow 0, 0⟩) o1 t1 (by rw [p0.1]; rfl) (by rw [p0.2]; rfl) (by rw [c1]; decide +kernel) (by decide +kernel)
  refine ⟨s2, Reachable_trans h3 (Reachable_trans r1 r2), ?_⟩
  rw [l2, l1, c1]
  rfl

end Defmt
