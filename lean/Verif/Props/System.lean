import Verif.Spec.System
import Verif.Lemmas.System
import Verif.Props.Logger
import Verif.Props.Attach
import Verif.Props.Printer
/-!
# C75, C76: from the log statements of concurrent contexts over the RTT channel to the printed lines
-/

namespace Defmt
open System Printer _root_.Defmt.Decoder _root_.Defmt.Encoder
open Rtt (blocking unread Between Flushing)

/-- **C75** At most one context is inside of `write_all` or `flush` of the channel or about to call it: a context
never finds the channel in use. -/
theorem C75_exclusive (cfg : Rtt.Config) (enc : Logger.Encoding) (flags : Nat) (buffer : Nat → UInt8) (s : System.State)
    (hr : System.Reachable cfg enc (start flags buffer) s) (c d : Nat) (hc : Busy s c) (hd : Busy s d) : c = d := by
  have hi := (Inv.start cfg enc flags buffer).reachable hr
  refine Classical.byContradiction fun hne => ?_
  exact hi.others hd (by exact hne) hc

/-- the bytes: what is read is a part of what is written -/
theorem received_wire {cfg : Rtt.Config} {enc : Logger.Encoding} {base : List UInt8} {s0 s : System.State} (hi : Inv cfg enc base s0.attached s)
    (hf : s0.rtt.flags = s0.flags) (h0 : Between cfg s0.rtt) (hb : blocking cfg s0.rtt = true) :
    ∃ more, base ++ s.rtt.accepted ++ more = s.logger.wire ∧ s.rtt.received <+: unread cfg s0.rtt ++ s.rtt.accepted := by
  obtain ⟨p, h1, _⟩ := hi.pending
  exact ⟨p, h1, C48_prefix cfg _ _ h0 hb (hi.same hf)⟩

/-- **C75** What the host has read is always a prefix of the bytes of the logger, whatever the contexts, the channel
and the host do. -/
theorem C75_received_prefix (cfg : Rtt.Config) (enc : Logger.Encoding) (flags : Nat) (buffer : Nat → UInt8) (s : System.State)
    (hsize : 1 ≤ cfg.size) (hb : blocking cfg (start flags buffer).rtt = true)
    (hr : System.Reachable cfg enc (start flags buffer) s) : s.rtt.received <+: s.logger.wire := by
  obtain ⟨h1, h2⟩ := between_start cfg flags buffer hsize
  obtain ⟨p, h3, h4⟩ := received_wire ((Inv.start cfg enc flags buffer).reachable hr) rfl h1 hb
  rw [h2, List.nil_append] at h4
  rw [← h3, List.nil_append]
  exact h4.trans (List.prefix_append _ _)

theorem completeBlocks_prefix {a b : List UInt8} (h : a <+: b) : Stream.completeBlocks a <+: Stream.completeBlocks b := by
  obtain ⟨c, rfl⟩ := h
  unfold Stream.completeBlocks
  rw [Stream.scan_append]
  exact List.prefix_append _ _

theorem report_event {t : Table} {e : LogEvent} (h : e.Ok t) {p : List UInt8} (hp : e.bytes = some p) :
    lineOf (Stream.report t.td (Rzcobs.frameBody p)) = .frame e.frame := by
  obtain ⟨b, h1, h2⟩ := C23_log_roundtrip t e h
  rw [hp] at h1
  cases h1
  obtain ⟨k, _, h3⟩ := C01_frame_roundtrip p
  unfold Stream.report Table.td
  rw [h3]
  simp only [h2]
  rfl

theorem lines_of_payloads {t : Table} (events : List LogEvent) (ps : List (List UInt8)) (hok : ∀ e ∈ events, e.Ok t)
    (hd : events.map LogEvent.bytes = ps.map some) :
    (ps.map Rzcobs.frameBody).map (fun b => lineOf (Stream.report t.td b)) = printed events := by
  induction events generalizing ps with
  | nil =>
    cases ps with
    | nil => rfl
    | cons _ _ => cases hd
  | cons e es ih =>
    cases ps with
    | nil => cases hd
    | cons p ps =>
      simp only [List.map_cons, List.cons.injEq] at hd
      have := ih ps (fun e he => hok e (by simp [he])) hd.2
      simp only [List.map_cons, this, report_event (hok e (by simp)) hd.1]
      rfl

/-- all lines of the wire -/
theorem wire_lines {cfg : Rtt.Config} {base : List UInt8} {a0 : Attach.State} {s : System.State} (hi : Inv cfg .rzcobs base a0 s)
    {t : Table} {events : List LogEvent} (hl : Logged t s events) :
    (Stream.completeBlocks s.logger.wire).map (fun b => lineOf (Stream.report t.td b)) = printed events := by
  obtain ⟨rest, hw⟩ := wire_blocks .rtt s.logger hi.logger
  unfold Stream.completeBlocks
  rw [hw]
  exact lines_of_payloads events _ hl.ok hl.data

/-- **C75** (rzCOBS) At every moment, for every way in which the host passes on what it has read, `defmt-print`
has printed exactly the first `k` log statements, for some `k`, as they were logged: no statement is missing,
duplicated, mixed up with another one, or reported as malformed. -/
theorem C75_printed (cfg : Rtt.Config) (flags : Nat) (buffer : Nat → UInt8) (s : System.State)
    (hsize : 1 ≤ cfg.size) (hb : blocking cfg (start flags buffer).rtt = true)
    (hr : System.Reachable cfg .rzcobs (start flags buffer) s) (t : Table) (events : List LogEvent) (hl : Logged t s events)
    (chunks : List (List UInt8)) (hc : chunks.flatten = s.rtt.received) :
    ∃ k rest, defmtPrint t.td .rzcobs chunks = some (printed (events.take k), .wait rest) := by
  have hp := C75_received_prefix cfg .rzcobs flags buffer s hsize hb hr
  have hw := wire_lines ((Inv.start cfg .rzcobs flags buffer).reachable hr) hl
  rw [C54_rzcobs, hc]
  have h1 := List.IsPrefix.map (f := fun b => lineOf (Stream.report t.td b)) (completeBlocks_prefix hp)
  rw [hw] at h1
  refine ⟨((Stream.completeBlocks s.rtt.received).map (fun b => lineOf (Stream.report t.td b))).length,
    Stream.unfinished s.rtt.received, ?_⟩
  conv => lhs; rw [List.prefix_iff_eq_take.1 h1]
  unfold printed
  rw [List.map_take]

/-- **C75** (rzCOBS) If the host has read everything that was written, all completed log statements are printed. -/
theorem C75_all_printed (cfg : Rtt.Config) (flags : Nat) (buffer : Nat → UInt8) (s : System.State)
    (hr : System.Reachable cfg .rzcobs (start flags buffer) s) (t : Table) (events : List LogEvent) (hl : Logged t s events)
    (hall : s.rtt.received = s.logger.wire) (chunks : List (List UInt8)) (hc : chunks.flatten = s.rtt.received) :
    ∃ rest, defmtPrint t.td .rzcobs chunks = some (printed events, .wait rest) := by
  have hw := wire_lines ((Inv.start cfg .rzcobs flags buffer).reachable hr) hl
  rw [C54_rzcobs, hc, hall, hw]
  exact ⟨_, rfl⟩

/-- **C75** When `flush` of the channel returns, the host has read every byte of the logger. -/
theorem C75_flush (cfg : Rtt.Config) (enc : Logger.Encoding) (flags : Nat) (buffer : Nat → UInt8) (s s' : System.State)
    (hsize : 1 ≤ cfg.size) (hb : blocking cfg (start flags buffer).rtt = true)
    (hr : System.Reachable cfg enc (start flags buffer) s) (hf : Flushing s.rtt.target) (hs : System.Step cfg enc s s')
    (hd : s'.rtt.target = .ready) : s'.rtt.received = s'.logger.wire := by
  obtain ⟨h1, h2⟩ := between_start cfg flags buffer hsize
  have hi := (Inv.start cfg enc flags buffer).reachable hr
  have hq := hi.flushing hf
  obtain ⟨p, h3, h4⟩ := hi.pending
  rw [h4 hq, List.append_nil, List.nil_append] at h3
  have hne : s.rtt.target ≠ .ready := by intro h; rw [h] at hf; exact hf
  cases hs with
  | channel hr' hs =>
    have h5 := C52_flush cfg _ _ _ h1 hb (hi.same rfl) hf hs hd
    rw [h2, List.nil_append, call_accepted hr' hs] at h5
    exact h5.trans h3
  | logger c slices hfree hs hw hp => exact absurd hd hne
  | call c hq hc hr => exact absurd hr hne
  | flush c hfree hp hc hr hf => exact absurd hr hne
  | returned hc hr => exact absurd hr hne
  | host hs => rw [Rtt.hostStep_target hs] at hd; exact absurd hd hne

/-- **C75** `defmt::flush` (rzCOBS): when it returns, all log statements completed before are printed. -/
theorem C75_flush_printed (cfg : Rtt.Config) (flags : Nat) (buffer : Nat → UInt8) (s s' : System.State)
    (hsize : 1 ≤ cfg.size) (hb : blocking cfg (start flags buffer).rtt = true)
    (hr : System.Reachable cfg .rzcobs (start flags buffer) s) (hf : Flushing s.rtt.target) (hs : System.Step cfg .rzcobs s s')
    (hd : s'.rtt.target = .ready) (t : Table) (events : List LogEvent) (hl : Logged t s' events)
    (chunks : List (List UInt8)) (hc : chunks.flatten = s'.rtt.received) :
    ∃ rest, defmtPrint t.td .rzcobs chunks = some (printed events, .wait rest) :=
  C75_all_printed cfg flags buffer s' (.step hr hs) t events hl
    (C75_flush cfg .rzcobs flags buffer s s' hsize hb hr hf hs hd) chunks hc

/-- **C75** No deadlock: a context inside of a log statement always can go on, whatever the other contexts and
the host are doing: with the next step of the logger, or, while there are bytes to be written, with a step of its
own call of the channel. -/
theorem C75_not_blocked (cfg : Rtt.Config) (enc : Logger.Encoding) (flags : Nat) (buffer : Nat → UInt8) (s : System.State)
    (hr : System.Reachable cfg enc (start flags buffer) s) (c : Nat) (hc : s.logger.pc c ≠ .idle) :
    (¬ Busy s c → ∃ l, Logger.Step .rtt enc c s.logger l) ∧
    (Busy s c → ∃ s', System.Step cfg enc s s' ∧ s'.logger = s.logger ∧ s'.rtt.host = s.rtt.host ∧
      (s'.rtt.target ≠ s.rtt.target ∨ s'.caller ≠ s.caller)) := by
  have hi := (Inv.start cfg enc flags buffer).reachable hr
  refine ⟨fun _ => C53_not_blocked .rtt enc s.logger hi.logger c hc, fun hbusy => ?_⟩
  by_cases ht : s.rtt.target = .ready
  · cases hcall : s.caller with
    | some d => exact ⟨_, .returned hcall ht, rfl, rfl, .inr (by simp)⟩
    | none =>
      cases hq : s.queue c with
      | nil =>
        rcases hbusy with h | h
        · exact absurd hq h
        · rw [hcall] at h; cases h
      | cons slice rest => exact ⟨_, .call c hq hcall ht, rfl, rfl, .inr (by simp)⟩
  · obtain ⟨r, hr⟩ := channel_step cfg s.rtt ht
    obtain ⟨h1, h2⟩ := channel_moves ht hr
    exact ⟨_, .channel ht hr, rfl, h2, .inl h1⟩

/-! ### the raw encoding -/

theorem raw_prefix (t : Table) (events : List LogEvent) (ps : List (List UInt8)) (hok : ∀ e ∈ events, e.Ok t)
    (hd : events.map LogEvent.bytes = ps.map some) (w : List UInt8) (hw : w <+: ps.flatten) :
    ∃ k rest, RawMeans t.td w ((events.take k).map LogEvent.frame) (.wait rest) := by
  induction events generalizing ps w with
  | nil =>
    cases ps with
    | nil =>
      have : w = [] := by simpa using hw
      subst this
      exact ⟨0, [], .incomplete rfl⟩
    | cons _ _ => cases hd
  | cons e es ih =>
    cases ps with
    | nil => cases hd
    | cons p ps =>
      simp only [List.map_cons, List.cons.injEq] at hd
      obtain ⟨b, h4, h5⟩ := C23_log_roundtrip t e (hok e (by simp))
      rw [hd.1] at h4
      cases h4
      rw [List.flatten_cons] at hw
      by_cases hlen : p.length ≤ w.length
      · have hpw : p <+: w := List.prefix_of_prefix_length_le (List.prefix_append _ _) hw hlen
        obtain ⟨w', rfl⟩ := hpw
        obtain ⟨k, rest, hk⟩ := ih ps (fun e he => hok e (by simp [he])) hd.2 w' ((List.prefix_append_right_inj _).1 hw)
        refine ⟨k + 1, rest, .frame (n := p.length) ?_ ?_⟩
        · unfold Table.td; rw [h5]
        · simpa using hk
      · have hwp : w <+: p := List.prefix_of_prefix_length_le hw (List.prefix_append _ _) (by omega)
        have h6 := (C10_consumed_exact t p e.frame p.length (by simpa using h5 [])).2.2 w.length (by omega)
        rw [← List.prefix_iff_eq_take.1 hwp] at h6
        exact ⟨0, w, .incomplete (by unfold Table.td; rw [h6])⟩

theorem filter_flatten (ps : List (List UInt8)) : (ps.filter (· ≠ [])).flatten = ps.flatten := by
  induction ps with
  | nil => rfl
  | cons p ps ih =>
    by_cases hp : p = []
    · subst hp; simpa using ih
    · rw [List.filter_cons_of_pos (by simpa using hp), List.flatten_cons, List.flatten_cons, ih]

/-- **C75** (raw encoding) The same: at every moment exactly the first `k` log statements are printed, where the
statement that a context is just writing may already be among them when all of its data is written. -/
theorem C75_raw_printed (cfg : Rtt.Config) (flags : Nat) (buffer : Nat → UInt8) (s : System.State)
    (hsize : 1 ≤ cfg.size) (hb : blocking cfg (start flags buffer).rtt = true)
    (hr : System.Reachable cfg .raw (start flags buffer) s) (t : Table) (ht : t.Safe) (events : List LogEvent) (hl : Logged t s events)
    (current : LogEvent) (hcur : current.Ok t)
    (hin : ∀ c, s.logger.inside c = true → ∃ p, current.bytes = some p ∧ s.logger.payload c <+: p)
    (chunks : List (List UInt8)) (hc : chunks.flatten = s.rtt.received) :
    ∃ k rest, defmtPrint t.td .raw chunks = some (printed ((events ++ [current]).take k), .wait rest) ∧
      ((∀ c, s.logger.inside c = false) → k ≤ events.length) := by
  have hp := C75_received_prefix cfg .raw flags buffer s hsize hb hr
  have hi := (Inv.start cfg .raw flags buffer).reachable hr
  obtain ⟨fs, e, h3, h4⟩ := C09_raw_stream t ht chunks
  rw [hc] at h3
  have fin : ∀ {evs : List LogEvent} {k rest}, RawMeans t.td s.rtt.received ((evs.take k).map LogEvent.frame) (.wait rest) →
      defmtPrint t.td .raw chunks = some (printed (evs.take k), .wait rest) := by
    intro evs k rest h
    obtain ⟨rfl, rfl⟩ := RawMeans.unique h h3
    rw [h4, List.map_map]
    rfl
  have hpay : (payloads s).flatten = (s.logger.completed.map Prod.snd).flatten := filter_flatten _
  rcases C53_whole_frames .rtt .raw s.logger hi.logger with ⟨hno, hw⟩ | ⟨c, hic, _, hw⟩
  · have hw' : s.logger.wire = (payloads s).flatten := by rw [hw, hpay]; simp [Logger.wireOf]
    rw [hw'] at hp
    obtain ⟨k, rest, hk⟩ := raw_prefix t events (payloads s) hl.ok hl.data _ hp
    have hk' : events.take k = (events ++ [current]).take (min k events.length) := by
      rw [List.take_append_of_le_length (by omega)]
      by_cases h : k ≤ events.length
      · rw [Nat.min_eq_left h]
      · rw [Nat.min_eq_right (by omega), List.take_of_length_le (by omega), List.take_length]
    rw [hk'] at hk
    exact ⟨min k events.length, rest, fin hk, fun _ => by omega⟩
  · obtain ⟨p, hp1, hp2⟩ := hin c hic
    have hw' : s.logger.wire <+: (payloads s ++ [p]).flatten := by
      rw [hw, List.flatten_append, hpay]
      simpa [Logger.wireOf] using hp2
    obtain ⟨k, rest, hk⟩ := raw_prefix t (events ++ [current]) (payloads s ++ [p])
      (by intro e he; rcases List.mem_append.1 he with he | he; exact hl.ok e he; simp at he; subst he; exact hcur)
      (by rw [List.map_append, List.map_append, hl.data]; simp [hp1]) _ (hp.trans hw')
    exact ⟨k, rest, fin hk, fun h => by rw [h c] at hic; cases hic⟩

/-! ### A concrete execution -/

/-- the table of a program with one log statement -/
def systemTable : Table := ⟨none, fun i => if i = 1 then some ⟨.info, c!"hi"⟩ else none⟩

def systemEvent : LogEvent := ⟨1, .info, none, ⟨c!"hi", []⟩⟩

/-- A context logs `hi`, the host has read all bytes but the last one. -/
theorem system_example : ∃ s, System.Reachable ⟨8, false⟩ .rzcobs (start 2 (fun _ => 0)) s ∧ s.logger.completed = [(0, [1, 0])] ∧
    s.logger.wire = [0, 1, 0x7e, 0] ∧ s.rtt.received = [0, 1, 0x7e] := by
  refine ⟨_, .step (.step (.step (.step (.step (.step (.step (.step (.step (.step (.step (.step (.step (.step (.step (.step (.step (.step (.step (.step (.step (.step (.step (.step (.step (.step (.step (.step (.step (.step (.step (.step (.step (.step (.step (.step (.step (.step (.step (.step (.step (.refl)
    (.logger 0 [] (by simp [Busy, start, Logger.update]) (.acquire (.inl rfl) (.inl rfl)) rfl (by simp)))
    (.logger 0 [] (by simp [Busy, start, Logger.update]) (.check rfl rfl) rfl (by simp)))
    (.logger 0 [] (by simp [Busy, start, Logger.update]) (.take rfl) rfl (by simp)))
    (.logger 0 [] (by simp [Busy, start, Logger.update]) (.save rfl) rfl (by simp)))
    (.logger 0 [[0]] (by simp [Busy, start, Logger.update]) (.start rfl) rfl (by simp [Logger.update])))
    (.call 0 rfl rfl rfl))
    (.channel (by simp) (.loadRead rfl (by simp) rfl)))
    (.channel (by simp [Rtt.writeImpl]) (.start rfl (by decide))))
    (.channel (by simp [Rtt.writeImpl]) (.copy (before := []) rfl)))
    (.channel (by simp [Rtt.writeImpl]) (.store rfl)))
    (.channel (by simp) (.return_ rfl)))
    (.returned rfl rfl))
    (.logger 0 [[1]] (by simp [Busy, start, Logger.update]) (.write [1, 0] rfl (.inl rfl)) rfl (by simp [Logger.update])))
    (.call 0 rfl rfl rfl))
    (.channel (by simp) (.loadRead rfl (by simp) rfl)))
    (.channel (by simp [Rtt.writeImpl]) (.start rfl (by decide))))
    (.channel (by simp [Rtt.writeImpl]) (.copy (before := []) rfl)))
    (.channel (by simp [Rtt.writeImpl]) (.store rfl)))
    (.channel (by simp) (.return_ rfl)))
    (.returned rfl rfl))
    (.logger 0 [] (by simp [Busy, start, Logger.update]) (.release rfl (.inr rfl)) rfl (by simp)))
    (.logger 0 [[0x7e], [0]] (by simp [Busy, start, Logger.update]) (.finish rfl) rfl (by simp [Logger.update])))
    (.call 0 rfl rfl rfl))
    (.channel (by simp) (.loadRead rfl (by simp) rfl)))
    (.channel (by simp [Rtt.writeImpl]) (.start rfl (by decide))))
    (.channel (by simp [Rtt.writeImpl]) (.copy (before := []) rfl)))
    (.channel (by simp [Rtt.writeImpl]) (.store rfl)))
    (.channel (by simp) (.return_ rfl)))
    (.returned rfl rfl))
    (.call 0 rfl rfl rfl))
    (.channel (by simp) (.loadRead rfl (by simp) rfl)))
    (.channel (by simp [Rtt.writeImpl]) (.start rfl (by decide))))
    (.channel (by simp [Rtt.writeImpl]) (.copy (before := []) rfl)))
    (.channel (by simp [Rtt.writeImpl]) (.store rfl)))
    (.channel (by simp) (.return_ rfl)))
    (.returned rfl rfl))
    (.host (.load rfl)))
    (.host (.byte rfl (by decide))))
    (.host (.byte rfl (by decide))))
    (.host (.byte rfl (by decide))))
    (.host (.store rfl)), ?_, ?_, ?_⟩ <;> rfl

theorem systemEvent_ok : systemEvent.Ok systemTable :=
  ⟨by decide, rfl, ⟨[], by decide +kernel, trivial⟩, trivial⟩

/-- the hypotheses of `C75_printed` are met -/
example : ∃ s, System.Reachable ⟨8, false⟩ .rzcobs (start 2 (fun _ => 0)) s ∧ blocking ⟨8, false⟩ (start 2 (fun _ => 0)).rtt = true ∧
    Logged systemTable s [systemEvent] ∧ s.rtt.received = [0, 1, 0x7e] := by
  obtain ⟨s, h1, h2, _, h3⟩ := system_example
  refine ⟨s, h1, rfl, ⟨?_, ?_⟩, h3⟩
  · intro e he
    simp only [List.mem_singleton] at he
    subst he
    exact systemEvent_ok
  · unfold payloads; rw [h2]; rfl

/-! ### C76 -/

/-- A host attaches, at any moment at which it can (`Attach.Joinable`), to a running program from whose buffer nothing was read before. -/
structure Attached (cfg : Rtt.Config) (enc : Logger.Encoding) (flags flags' : Nat) (buffer : Nat → UInt8) (s1 s2 : System.State) : Prop where
  size : 1 ≤ cfg.size
  before : System.Reachable cfg enc (start flags buffer) s1
  untouched : s1.rtt.received = [] ∧ s1.rtt.read = 0
  joinable : Attach.Joinable cfg s1.rtt
  blocks : Attach.blocks cfg flags' = true
  after : System.Reachable cfg enc (attach flags' s1) s2

/-- what is in the buffer: the newest bytes, as many as the write cursor says -/
theorem attached_unread {cfg : Rtt.Config} {enc : Logger.Encoding} {flags flags' : Nat} {buffer : Nat → UInt8} {s1 s2 : System.State}
    (h : Attached cfg enc flags flags' buffer s1 s2) : ∃ done, s1.rtt.accepted = done ++ Rtt.outstanding s1.rtt.target ∧
    unread cfg s1.rtt = done.drop (done.length - done.length % cfg.size) := by
  have hi := (Inv.start cfg enc flags buffer).reachable h.before
  obtain ⟨h0, _⟩ := between_start cfg flags buffer h.size
  have hsz := h.size
  have hreach : Rtt.Reachable cfg (start flags buffer).rtt s1.rtt := hi.same rfl
  obtain ⟨n, hn, hwr⟩ := write_cursor h0 rfl hreach
  obtain ⟨done, hnew⟩ := Rtt.Newest.reachable h0 hreach
  refine ⟨done, hnew.split, ?_⟩
  have hn' : done.length = n := by
    have := congrArg List.length hnew.split
    rw [List.length_append] at this
    omega
  have hlt : s1.rtt.write < cfg.size := by rw [hwr]; exact Nat.mod_lt _ (by omega)
  have hle : s1.rtt.write ≤ done.length := by rw [hn', hwr]; exact Nat.mod_le _ _
  have hread := h.untouched.2
  have hany : Attach.Any cfg s1.attached := (Attach.Any.between (s := (start flags buffer).attached) h0).steady hi.rtt
  -- the bytes that are being overwritten are not between the cursors
  have hover : s1.rtt.write + Rtt.overwritten s1.rtt.target ≤ cfg.size := by
    rcases h.joinable.room with hr | ⟨hn, _, hr⟩
    · rw [hr]; simp only [Rtt.overwritten]; omega
    · rw [hread] at hr
      cases ht : s1.rtt.target with
      | copying rest cursor len pending =>
        have := hany.copying _ _ _ _ ht hn
        rw [ht] at hr
        simp only [Rtt.outstanding, Rtt.distance, Nat.zero_le, if_true, Nat.sub_zero] at hr
        simp only [Rtt.overwritten]
        omega
      | _ => simp only [Rtt.overwritten]; omega
  rw [hn', ← hwr, ← hn']
  apply List.ext_getElem?
  intro i
  simp only [unread, hread, Rtt.distance, Nat.zero_le, if_true, Nat.sub_zero, Nat.zero_add, List.getElem?_drop, List.getElem?_map]
  by_cases hi : i < s1.rtt.write
  · have h3 := hnew.holds (cfg.size - s1.rtt.write + i) (by omega) (by omega) (by omega)
    rw [List.getElem?_range hi, show done.length - s1.rtt.write + i = done.length + (cfg.size - s1.rtt.write + i) - cfg.size by omega, h3]
    simp only [Option.map_some]
    rw [show s1.rtt.write + (cfg.size - s1.rtt.write + i) = i + cfg.size by omega, Nat.add_mod_right]
  · rw [List.getElem?_eq_none (by simp; omega), List.getElem?_eq_none (by omega)]
    rfl

/-- the channel after the host attached -/
theorem attached_safe {cfg : Rtt.Config} {enc : Logger.Encoding} {flags flags' : Nat} {buffer : Nat → UInt8} {s1 s2 : System.State}
    (h : Attached cfg enc flags flags' buffer s1 s2) {done : List UInt8} (hd : s1.rtt.accepted = done ++ Rtt.outstanding s1.rtt.target) :
    Attach.Safe cfg (unread cfg s1.rtt) s2.attached ∧ Inv cfg enc done (attach flags' s1).attached s2 := by
  have hi1 := (Inv.start cfg enc flags buffer).reachable h.before
  have hany := (Attach.Any.between (s := (start flags buffer).attached) (between_start cfg flags buffer h.size).1).steady hi1.rtt
  have hi2 := (hi1.attach hd flags').reachable h.after
  exact ⟨(Attach.safe_attach hany h.joinable h.blocks).steady hi2.rtt, hi2⟩

/-- **C76** A host that attaches to a running program, also in the middle of `write_all`, gets, from the bytes that were in the buffer when it
attached (all that were written but those of the running call), exactly the newest `total % size` bytes, and everything written
afterwards, in order, without a gap. -/
theorem C76_attach_bytes (cfg : Rtt.Config) (enc : Logger.Encoding) (flags flags' : Nat) (buffer : Nat → UInt8) (s1 s2 : System.State)
    (h : Attached cfg enc flags flags' buffer s1 s2) :
    ∃ lost total, total + (Rtt.outstanding s1.rtt.target).length = s1.rtt.accepted.length ∧ lost.length = total - total % cfg.size ∧
      lost <+: s1.logger.wire ∧ lost ++ s2.rtt.received <+: s2.logger.wire := by
  have hi1 := (Inv.start cfg enc flags buffer).reachable h.before
  obtain ⟨done, hd, hu⟩ := attached_unread h
  obtain ⟨hsafe, hi2⟩ := attached_safe h hd
  obtain ⟨p1, hp1, _⟩ := hi1.pending
  obtain ⟨p2, hp2, _⟩ := hi2.pending
  have hrec : s2.rtt.received <+: unread cfg s1.rtt ++ s2.rtt.accepted := by
    have := hsafe.inv.data
    change s2.rtt.received ++ _ ++ _ = _ ++ s2.rtt.accepted at this
    rw [← this, List.append_assoc]
    exact List.prefix_append _ _
  rw [hu] at hrec
  refine ⟨done.take (done.length - done.length % cfg.size), done.length, ?_, ?_, ?_, ?_⟩
  · rw [hd, List.length_append]
  · rw [List.length_take]; omega
  · rw [← hp1, List.nil_append, hd, List.append_assoc]
    exact (List.take_prefix _ _).trans (List.prefix_append _ _)
  · rw [← hp2]
    refine List.IsPrefix.trans ?_ (List.prefix_append _ _)
    conv => rhs; rw [← List.take_append_drop (done.length - done.length % cfg.size) done]
    rw [List.append_assoc]
    exact (List.prefix_append_right_inj _).2 hrec

/-- the lines of a part of the wire -/
theorem cut_lines {cfg : Rtt.Config} {base : List UInt8} {a0 a1 : Attach.State} {s1 s2 : System.State} (hi1 : Inv cfg .rzcobs [] a0 s1)
    (hi2 : Inv cfg .rzcobs base a1 s2) {lost got : List UInt8} (hlost : lost <+: s1.logger.wire) (hgot : lost ++ got <+: s2.logger.wire)
    {t : Table} {events : List LogEvent} (hl : Logged t s2 events) :
    ∃ (junk : List (Line Frame)) (m n : Nat), junk.length ≤ 1 ∧ m ≤ (payloads s1).length + 1 ∧
      (Stream.completeBlocks got).map (fun b => lineOf (Stream.report t.td b)) = (junk ++ printed (events.drop m)).take n ∧
      (lost ++ got = s2.logger.wire → (junk ++ printed (events.drop m)).length ≤ n) := by
  have hw := wire_lines hi2 hl
  obtain ⟨more, hmore⟩ := hgot
  obtain ⟨junk, k, h1, h2, h3⟩ := completeBlocks_cut lost (got ++ more)
  rw [← List.append_assoc, hmore] at h3
  have hlen : (Stream.completeBlocks lost).length ≤ (payloads s1).length := by
    have := (completeBlocks_prefix hlost).length_le
    obtain ⟨rest, hw1⟩ := wire_blocks .rtt s1.logger hi1.logger
    unfold Stream.completeBlocks at this
    rw [hw1] at this
    simpa [payloads, Stream.completeBlocks] using this
  have hpre := completeBlocks_prefix (List.prefix_append got more)
  have hlines : (Stream.completeBlocks (got ++ more)).map (fun b => lineOf (Stream.report t.td b)) =
      junk.map (fun b => lineOf (Stream.report t.td b)) ++ printed (events.drop ((Stream.completeBlocks lost).length + k)) := by
    rw [h3, List.map_append, List.map_drop, hw]
    unfold printed
    rw [List.map_drop]
  have hp := List.IsPrefix.map (f := fun b => lineOf (Stream.report t.td b)) hpre
  rw [hlines] at hp
  refine ⟨junk.map (fun b => lineOf (Stream.report t.td b)), _, _, by simpa using Nat.le_trans h1 h2, ?_,
    List.prefix_iff_eq_take.1 hp, ?_⟩
  · omega
  · intro hall
    rw [← hmore] at hall
    have : more = [] := by
      have := congrArg List.length hall
      simp at this
      exact this
    subst this
    rw [← hlines]
    simp

/-- **C76** What is printed for a host that attaches to a running program (rzCOBS): at most one line that is not
one of the log statements (the rest of a frame that was cut), then the log statements in order without a gap,
starting at the latest with the second one that is completed after the host attached. -/
theorem C76_printed (cfg : Rtt.Config) (flags flags' : Nat) (buffer : Nat → UInt8) (s1 s2 : System.State)
    (h : Attached cfg .rzcobs flags flags' buffer s1 s2) (t : Table) (events : List LogEvent) (hl : Logged t s2 events)
    (chunks : List (List UInt8)) (hc : chunks.flatten = s2.rtt.received) :
    ∃ (junk : List (Line Frame)) (m n : Nat) (rest : List UInt8), junk.length ≤ 1 ∧ m ≤ (payloads s1).length + 1 ∧
      defmtPrint t.td .rzcobs chunks = some ((junk ++ printed (events.drop m)).take n, .wait rest) := by
  have hi1 := (Inv.start cfg .rzcobs flags buffer).reachable h.before
  obtain ⟨done, hd, _⟩ := attached_unread h
  obtain ⟨_, hi2⟩ := attached_safe h hd
  obtain ⟨lost, _, _, _, h2, h3⟩ := C76_attach_bytes cfg .rzcobs flags flags' buffer s1 s2 h
  obtain ⟨junk, m, n, h4, h5, h6, _⟩ := cut_lines hi1 hi2 h2 h3 hl
  refine ⟨junk, m, n, Stream.unfinished s2.rtt.received, h4, h5, ?_⟩
  rw [C54_rzcobs, hc, h6]

/-- **C76** When `flush` returns, the host that attached has read everything but the bytes lost before, and all of
these log statements are printed. -/
theorem C76_flush_printed (cfg : Rtt.Config) (flags flags' : Nat) (buffer : Nat → UInt8) (s1 s s' : System.State)
    (h : Attached cfg .rzcobs flags flags' buffer s1 s) (hf : Flushing s.rtt.target) (hs : System.Step cfg .rzcobs s s')
    (hd : s'.rtt.target = .ready) (t : Table) (events : List LogEvent) (hl : Logged t s' events)
    (chunks : List (List UInt8)) (hc : chunks.flatten = s'.rtt.received) :
    ∃ (junk : List (Line Frame)) (m : Nat) (rest : List UInt8), junk.length ≤ 1 ∧ m ≤ (payloads s1).length + 1 ∧
      defmtPrint t.td .rzcobs chunks = some (junk ++ printed (events.drop m), .wait rest) := by
  have hi1 := (Inv.start cfg .rzcobs flags buffer).reachable h.before
  obtain ⟨done, hdone, hu⟩ := attached_unread h
  obtain ⟨hsafe, hi⟩ := attached_safe h hdone
  have hi' := hi.step hs
  have hne : s.rtt.target ≠ .ready := by intro h; rw [h] at hf; exact hf
  obtain ⟨p, hp, hpn⟩ := hi.pending
  rw [hpn (hi.flushing hf), List.append_nil] at hp
  have hrec : s'.rtt.received = unread cfg s1.rtt ++ s'.rtt.accepted ∧ s'.rtt.accepted = s.rtt.accepted ∧ s'.logger = s.logger := by
    cases hs with
    | channel hr' hs => exact ⟨hsafe.flushed hf (.inside hr' hs) hd, call_accepted hr' hs, rfl⟩
    | logger c slices hfree hs hw hp => exact absurd hd hne
    | call c hq hc hr => exact absurd hr hne
    | flush c hfree hp hc hr hf => exact absurd hr hne
    | returned hc hr => exact absurd hr hne
    | host hs => rw [Rtt.hostStep_target hs] at hd; exact absurd hd hne
  obtain ⟨hrec, hacc, hlog⟩ := hrec
  have hwire : done.take (done.length - done.length % cfg.size) ++ s'.rtt.received = s'.logger.wire := by
    rw [hrec, hu, hacc, hlog, ← List.append_assoc, List.take_append_drop, hp]
  obtain ⟨p1, hp1, _⟩ := hi1.pending
  obtain ⟨junk, m, n, h4, h5, h6, h7⟩ := cut_lines hi1 hi'
    (lost := done.take (done.length - done.length % cfg.size)) (got := s'.rtt.received)
    (by rw [← hp1, List.nil_append, hdone, List.append_assoc]; exact (List.take_prefix _ _).trans (List.prefix_append _ _))
    (by rw [hwire]; exact List.prefix_refl _) hl
  refine ⟨junk, m, Stream.unfinished s'.rtt.received, h4, h5, ?_⟩
  rw [C54_rzcobs, hc, h6, List.take_of_length_le (h7 hwire)]

/-- A host attaches after a frame of four bytes was written into a buffer of three bytes: it gets one of them. -/
example : ∃ s1 s2, Attached ⟨3, false⟩ .rzcobs 0 2 (fun _ => 0) s1 s2 ∧ s1.logger.wire = [0, 1, 0x7e, 0] ∧ s2.rtt.received = [0] := by
  refine ⟨_, _, ⟨by decide, .step (.step (.step (.step (.step (.step (.step (.step (.step (.step (.step (.step (.step (.step (.step (.step (.step (.step (.step (.step (.step (.step (.step (.step (.step (.step (.step (.refl)
    (.logger 0 [] (by simp [Busy, start, Logger.update]) (.acquire (.inl rfl) (.inl rfl)) rfl (by simp)))
    (.logger 0 [] (by simp [Busy, start, Logger.update]) (.check rfl rfl) rfl (by simp)))
    (.logger 0 [] (by simp [Busy, start, Logger.update]) (.take rfl) rfl (by simp)))
    (.logger 0 [] (by simp [Busy, start, Logger.update]) (.save rfl) rfl (by simp)))
    (.logger 0 [[0]] (by simp [Busy, start, Logger.update]) (.start rfl) rfl (by simp [Logger.update])))
    (.call 0 rfl rfl rfl))
    (.channel (by simp) (.startNonblocking rfl (by simp) rfl)))
    (.channel (by simp [Rtt.writeImpl]) (.copy (before := []) rfl)))
    (.channel (by simp [Rtt.writeImpl]) (.store rfl)))
    (.channel (by simp) (.return_ rfl)))
    (.returned rfl rfl))
    (.logger 0 [[1]] (by simp [Busy, start, Logger.update]) (.write [1, 0] rfl (.inl rfl)) rfl (by simp [Logger.update])))
    (.call 0 rfl rfl rfl))
    (.channel (by simp) (.startNonblocking rfl (by simp) rfl)))
    (.channel (by simp [Rtt.writeImpl]) (.copy (before := []) rfl)))
    (.channel (by simp [Rtt.writeImpl]) (.store rfl)))
    (.channel (by simp) (.return_ rfl)))
    (.returned rfl rfl))
    (.logger 0 [] (by simp [Busy, start, Logger.update]) (.release rfl (.inr rfl)) rfl (by simp)))
    (.logger 0 [[0x7e, 0]] (by simp [Busy, start, Logger.update]) (.finish rfl) rfl (by simp [Logger.update])))
    (.call 0 rfl rfl rfl))
    (.channel (by simp) (.startNonblocking rfl (by simp) rfl)))
    (.channel (by simp [Rtt.writeImpl]) (.copy (before := []) rfl)))
    (.channel (by simp [Rtt.writeImpl]) (.copy (before := []) rfl)))
    (.channel (by simp [Rtt.writeImpl]) (.store rfl)))
    (.channel (by simp) (.return_ rfl)))
    (.returned rfl rfl),
    ⟨rfl, rfl⟩, ⟨rfl, .inl rfl⟩, rfl, .step (.step (.step (.refl)
    (.host (.load rfl)))
    (.host (.byte rfl (by decide))))
    (.host (.store rfl))⟩, ?_, ?_⟩ <;> rfl

/-- A host attaches while the last two bytes of a frame are being written, one of them is copied: it gets the whole frame. -/
example : ∃ s1 s2, Attached ⟨8, false⟩ .rzcobs 0 2 (fun _ => 0) s1 s2 ∧ Rtt.outstanding s1.rtt.target = [0x7e, 0] ∧
    s2.rtt.received = [0, 1, 0x7e, 0] := by
  refine ⟨_, _, ⟨by decide, .step (.step (.step (.step (.step (.step (.step (.step (.step (.step (.step (.step (.step (.step (.step (.step (.step (.step (.step (.step (.step (.step (.step (.refl)
    (.logger 0 [] (by simp [Busy, start, Logger.update]) (.acquire (.inl rfl) (.inl rfl)) rfl (by simp)))
    (.logger 0 [] (by simp [Busy, start, Logger.update]) (.check rfl rfl) rfl (by simp)))
    (.logger 0 [] (by simp [Busy, start, Logger.update]) (.take rfl) rfl (by simp)))
    (.logger 0 [] (by simp [Busy, start, Logger.update]) (.save rfl) rfl (by simp)))
    (.logger 0 [[0]] (by simp [Busy, start, Logger.update]) (.start rfl) rfl (by simp [Logger.update])))
    (.call 0 rfl rfl rfl))
    (.channel (by simp) (.startNonblocking rfl (by simp) rfl)))
    (.channel (by simp [Rtt.writeImpl]) (.copy (before := []) rfl)))
    (.channel (by simp [Rtt.writeImpl]) (.store rfl)))
    (.channel (by simp) (.return_ rfl)))
    (.returned rfl rfl))
    (.logger 0 [[1]] (by simp [Busy, start, Logger.update]) (.write [1, 0] rfl (.inl rfl)) rfl (by simp [Logger.update])))
    (.call 0 rfl rfl rfl))
    (.channel (by simp) (.startNonblocking rfl (by simp) rfl)))
    (.channel (by simp [Rtt.writeImpl]) (.copy (before := []) rfl)))
    (.channel (by simp [Rtt.writeImpl]) (.store rfl)))
    (.channel (by simp) (.return_ rfl)))
    (.returned rfl rfl))
    (.logger 0 [] (by simp [Busy, start, Logger.update]) (.release rfl (.inr rfl)) rfl (by simp)))
    (.logger 0 [[0x7e, 0]] (by simp [Busy, start, Logger.update]) (.finish rfl) rfl (by simp [Logger.update])))
    (.call 0 rfl rfl rfl))
    (.channel (by simp) (.startNonblocking rfl (by simp) rfl)))
    (.channel (by simp [Rtt.writeImpl]) (.copy (before := []) rfl)),
    ⟨rfl, rfl⟩, ⟨rfl, .inr ⟨rfl, trivial, by decide⟩⟩, rfl, .step (.step (.step (.step (.step (.step (.step (.step (.refl)
    (.channel (by simp [System.attach, Rtt.writeImpl]) (.copy (before := []) rfl)))
    (.channel (by simp [System.attach, Rtt.writeImpl]) (.store rfl)))
    (.host (.load rfl)))
    (.host (.byte rfl (by decide))))
    (.host (.byte rfl (by decide))))
    (.host (.byte rfl (by decide))))
    (.host (.byte rfl (by decide))))
    (.host (.store rfl))⟩, ?_, ?_⟩ <;> rfl

end Defmt
