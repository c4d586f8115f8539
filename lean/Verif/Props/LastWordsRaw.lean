import Verif.Props.LastWords
/-!
# C115 with the raw encoding

Without rzCOBS there is no end of a frame on the wire. What is shown at any moment is again a beginning of what was logged, but the log statement
that is being written can be among it, namely when all of its data is there: also if its formatting code panics afterwards.
-/

namespace Defmt
open Program Printer _root_.Defmt.Decoder _root_.Defmt.Encoder
open System (printed)

variable {W : Type}

/-- Outside of log statements the channel has the data of the executed ones and nothing else. -/
theorem C115_raw_wire (p : Program W) (main : Nat) (w : W) (n : Nat) (index : Nat → List UInt8)
    (h : (run p n (start main w)).taken = false) :
    wire .raw index (run p n (start main w)).trace = (payloads index (run p n (start main w)).trace).flatten := by
  obtain ⟨u, h1, h2⟩ := C115_whole_frames p main w n .raw index
  rw [h, Option.isSome_eq_false_iff, Option.isNone_iff_eq_none] at h2
  rw [h1, h2]
  simp [Logger.wireOf]

private theorem map_some_inj {α : Type} {l l' : List α} (h : l.map some = l'.map some) : l = l' := by
  have := congrArg (List.filterMap id) h
  simpa [List.filterMap_map] using this

private theorem raw_shown {t : Table} (ht : t.Safe) {events : List LogEvent} {ps : List (List UInt8)} (hok : ∀ e ∈ events, e.Ok t)
    (hd : events.map LogEvent.bytes = ps.map some) {chunks : List (List UInt8)} (h : chunks.flatten <+: ps.flatten) :
    ∃ k rest, defmtPrint t.td .raw chunks = some (printed (events.take k), .wait rest) := by
  obtain ⟨k, rest, hk⟩ := raw_prefix t events ps hok hd _ h
  obtain ⟨fs, e, h3, h4⟩ := C09_raw_stream t ht chunks
  obtain ⟨rfl, rfl⟩ := RawMeans.unique hk h3
  exact ⟨k, rest, by rw [h4, List.map_map]; rfl⟩

/-- **C115** (raw encoding) What is shown at any moment. Outside of log statements: exactly the first `k` of those executed, and all of them once
the host has read all. While one is written (`current` is what would be shown of it if it were written as a whole): exactly the first `k` of those
executed and this one. -/
theorem C115_raw_shown (p : Program W) (main : Nat) (w : W) (n : Nat) (index : Nat → List UInt8) (t : Table) (ht : t.Safe) (events : List LogEvent)
    (hok : ∀ e ∈ events, e.Ok t) (hd : events.map LogEvent.bytes = (payloads index (run p n (start main w)).trace).map some)
    (chunks : List (List UInt8)) :
    ((run p n (start main w)).taken = false →
      (chunks.flatten <+: wire .raw index (run p n (start main w)).trace →
        ∃ k rest, defmtPrint t.td .raw chunks = some (printed (events.take k), .wait rest)) ∧
      (chunks.flatten = wire .raw index (run p n (start main w)).trace →
        defmtPrint t.td .raw chunks = some (printed events, .wait []))) ∧
    ∀ (current : LogEvent) (data : List UInt8), current.Ok t → current.bytes = some data →
      wire .raw index (run p n (start main w)).trace <+: (payloads index (run p n (start main w)).trace).flatten ++ data →
      chunks.flatten <+: wire .raw index (run p n (start main w)).trace →
        ∃ k rest, defmtPrint t.td .raw chunks = some (printed ((events ++ [current]).take k), .wait rest) := by
  refine ⟨fun hk => ?_, fun current data hc hb hw hp => ?_⟩
  · rw [C115_raw_wire p main w n index hk]
    refine ⟨fun h => raw_shown ht hok hd h, fun h => ?_⟩
    obtain ⟨ps, h1, h2⟩ := C32_raw_end_to_end t ht events hok
    rw [hd] at h1
    rw [map_some_inj h1] at h
    exact h2 chunks h
  · refine raw_shown (ps := payloads index (run p n (start main w)).trace ++ [data]) ht ?_ ?_ (hp.trans ?_)
    · intro x hx
      rcases List.mem_append.mp hx with hx | hx
      · exact hok x hx
      · rw [List.mem_singleton.mp hx]; exact hc
    · rw [List.map_append, List.map_append, hd]; simp [hb]
    · simpa using hw

/-- **C115** (raw encoding) The message of a panic outside of log statements is the last line. -/
theorem C115_raw_panic (p : Program W) (main : Nat) (w0 : W) (site message : Nat) (hp : p.printer = some site) (he : p.enabled site = true)
    (n0 : Nat) (rest : List Op) (w w' : W) (tr t : List Event)
    (hpanic : run p n0 (start main w0) = ⟨.code (.stmt (.panic message)) :: rest, w, false, false, tr⟩)
    (hm : Runs p true [.nested p.timestamp, .nested message] w t w')
    (index : Nat → List UInt8) (table : Table) (ht : table.Safe) (events : List LogEvent) (hok : ∀ e ∈ events, e.Ok table)
    (hd : events.map LogEvent.bytes = (payloads index tr).map some)
    (e : LogEvent) (hoke : e.Ok table) (hde : e.bytes = some (index site ++ written t)) :
    ∃ n1, ∀ n, n1 ≤ n → ∀ chunks : List (List UInt8), chunks.flatten = wire .raw index (run p n (start main w0)).trace →
      defmtPrint table.td .raw chunks = some (printed (events ++ [e]), .wait []) := by
  obtain ⟨m, hrun⟩ := C92_shown_partial p site message hp he w w' t hm rest tr
  refine ⟨n0 + m, fun n hn chunks hc => ?_⟩
  have hall := (run_add (p := p) n0 m (start main w0)).trans ((congrArg (Program.run p m) hpanic).trans hrun)
  have hrn := run_from hall rfl n hn
  refine ((C115_raw_shown p main w0 n index table ht (events ++ [e]) ?_ ?_ chunks).1 (by rw [hrn])).2 hc
  · intro x hx
    rcases List.mem_append.mp hx with hx | hx
    · exact hok x hx
    · rw [List.mem_singleton.mp hx]; exact hoke
  · rw [hrn]
    have := payloads_frame p index tr site hm [.handler] [.fault] (fun _ => rfl) (fun _ => rfl)
    simp only [List.cons_append, List.nil_append, List.append_assoc] at this ⊢
    rw [this, List.map_append, List.map_append, hd]
    simp [hde]

theorem wordsTable_safe : wordsTable.Safe := by
  have fine : ∀ s ∈ [c!"n = {=u8}", c!"bad {=u8}", c!"{=str}"], Fine s := by
    intro s hs
    have hb : (match Parser.parse s .forwardsCompatible with
        | .ok fs => (Parser.params fs).all (fun p => match p.ty with | .formatArray n => decide (n ≤ maxElements) | _ => true)
        | .err _ => true
        | .panic => false) = true := by
      revert s; decide +kernel
    unfold Fine
    cases hp : Parser.parse s .forwardsCompatible with
    | ok fs =>
      rw [hp] at hb
      refine ⟨by simp, fun fs' h p hpm n hn => ?_⟩
      injection h with h
      subst h
      have := List.all_eq_true.mp hb p hpm
      rw [hn] at this
      simpa using this
    | err e => exact ⟨by simp, by simp⟩
    | panic => rw [hp] at hb; cases hb
  refine ⟨fun e h => (by cases h), fun i e h => ?_⟩
  have hs : e.string ∈ [c!"n = {=u8}", c!"bad {=u8}", c!"{=str}"] := by
    simp only [wordsTable] at h
    repeat' split at h
    all_goals first | (cases h; decide) | (cases h)
  have hv : ∀ s ∈ [c!"n = {=u8}", c!"bad {=u8}", c!"{=str}"], Parser.splitAt '|' s = [s] := by decide +kernel
  refine ⟨fine _ hs, fun v hm => ?_⟩
  rw [hv _ hs, List.mem_singleton] at hm
  subst hm
  exact fine _ hs

/-- With the raw encoding a log statement is shown that was not completed: its formatting code panics after all of the data is written. With
rzCOBS it is not (`C115_lost`). -/
theorem C115_raw_unfinished :
    payloads wordsIndex (run wordsProgram 40 (start 4 0)).trace = [[1, 0, 2]] ∧ (run wordsProgram 40 (start 4 0)).ops = [] ∧
    defmtPrint wordsTable.td .raw [wire .raw wordsIndex (run wordsProgram 40 (start 4 0)).trace] =
      some (printed [wordsInfo 2, wordsInfo 6], .wait []) := by
  refine ⟨by decide +kernel, by decide +kernel, ?_⟩
  obtain ⟨ps, h1, h2⟩ := C32_raw_end_to_end wordsTable wordsTable_safe [wordsInfo 2, wordsInfo 6] (by simp [wordsInfo_ok])
  refine h2 _ ?_
  have e : ([wordsInfo 2, wordsInfo 6].map LogEvent.bytes) = [some [1, 0, 2], some [1, 0, 6]] := by decide +kernel
  rw [e] at h1
  have : ps = [[1, 0, 2], [1, 0, 6]] := (map_some_inj (show ([[1, 0, 2], [1, 0, 6]] : List (List UInt8)).map some = ps.map some from h1)).symm
  subst this
  decide +kernel

/-- what is shown of a program that panics outside of log statements -/
example : defmtPrint wordsTable.td .raw [wire .raw wordsIndex (run wordsProgram 40 (start 0 0)).trace] =
    some (printed [wordsInfo 2, wordsPanic c!"oops"], .wait []) :=
  ((C115_raw_shown wordsProgram 0 0 40 wordsIndex wordsTable wordsTable_safe [wordsInfo 2, wordsPanic c!"oops"]
    (by simp [wordsInfo_ok, wordsPanic_ok]) (by decide +kernel) _).1 (by decide +kernel)).2 (by simp)

end Defmt
