import Verif.Lemmas.LastWords
import Verif.Props.Program
import Verif.Props.System
/-!
# C115: the last words of a program

What `defmt-print` shows of a program (C90 to C92) that sends its log with rzCOBS encoding, at any moment: the log statements that have been
executed as a whole. After a panic outside of log statements its message is the last line; a panic in formatting code leaves nothing.
-/

namespace Defmt
open Program Printer _root_.Defmt.Decoder _root_.Defmt.Encoder
open System (printed)

variable {W : Type}

/-! ### lines -/

theorem bytes_ne_nil {t : Table} {e : LogEvent} (h : e.Ok t) {b : List UInt8} (hb : e.bytes = some b) : b ≠ [] := by
  obtain ⟨b', h1, h2⟩ := C23_log_roundtrip t e h
  rw [hb] at h1
  cases h1
  have h3 := h2 []
  obtain ⟨_, _, _, _, h4, _⟩ := C29_frame_from_entry _ _ _ _ h3
  intro h5
  rw [h5] at h4
  cases h4

/-- the lines of what has been written -/
theorem program_lines (p : Program W) (main : Nat) (w : W) (n : Nat) (index : Nat → List UInt8) (t : Table) (events : List LogEvent)
    (hok : ∀ e ∈ events, e.Ok t) (hd : events.map LogEvent.bytes = (payloads index (run p n (start main w)).trace).map some) :
    (Stream.completeBlocks (wire .rzcobs index (run p n (start main w)).trace)).map (fun b => lineOf (Stream.report t.td b)) = printed events := by
  have hi := wireInv_run (p := p) n (wireInv_start .rzcobs index main w)
  have hw : wire .rzcobs index (run p n (start main w)).trace = _ := congrArg Prod.snd hi.wire
  rw [hw]
  obtain ⟨rest, hs⟩ := scan_wireOf (payloads index (run p n (start main w)).trace) ((run p n (start main w)).trace.foldl (logged index) ([], none)).2
  have hne : (payloads index (run p n (start main w)).trace).filter (· ≠ []) = payloads index (run p n (start main w)).trace := by
    rw [List.filter_eq_self]
    intro x hx
    have : some x ∈ events.map LogEvent.bytes := by rw [hd]; exact List.mem_map_of_mem hx
    obtain ⟨e, he, hb⟩ := List.mem_map.mp this
    simpa using bytes_ne_nil (hok e he) hb
  rw [hne] at hs
  unfold Stream.completeBlocks
  show List.map _ (Stream.scan [] (Logger.wireOf .rzcobs (payloads index (run p n (start main w)).trace) _)).1 = _
  rw [hs]
  exact lines_of_payloads events _ hok hd

/-- **C115** In every run of every program, whatever it does in formatting code and whether it panics or not: what the logger has written
to its channel are whole frames, one after another, and the beginning of one more frame exactly while the logger is taken. -/
theorem C115_whole_frames (p : Program W) (main : Nat) (w : W) (n : Nat) (enc : Logger.Encoding) (index : Nat → List UInt8) :
    ∃ unfinished, wire enc index (run p n (start main w)).trace =
        Logger.wireOf enc (payloads index (run p n (start main w)).trace) unfinished ∧
      unfinished.isSome = (run p n (start main w)).taken := by
  have hi := wireInv_run (p := p) n (wireInv_start enc index main w)
  exact ⟨_, congrArg Prod.snd hi.wire, hi.isOpen⟩

/-- **C115** What is shown at any moment: exactly the first `k` of the log statements whose frames were ended, and all of them once the host
has read all that was written. -/
theorem C115_shown (p : Program W) (main : Nat) (w : W) (n : Nat) (index : Nat → List UInt8) (t : Table) (events : List LogEvent)
    (hok : ∀ e ∈ events, e.Ok t) (hd : events.map LogEvent.bytes = (payloads index (run p n (start main w)).trace).map some)
    (chunks : List (List UInt8)) :
    (chunks.flatten <+: wire .rzcobs index (run p n (start main w)).trace →
      ∃ k rest, defmtPrint t.td .rzcobs chunks = some (printed (events.take k), .wait rest)) ∧
    (chunks.flatten = wire .rzcobs index (run p n (start main w)).trace →
      ∃ rest, defmtPrint t.td .rzcobs chunks = some (printed events, .wait rest)) := by
  have hl := program_lines p main w n index t events hok hd
  constructor
  · intro hp
    have h1 := List.IsPrefix.map (f := fun b => lineOf (Stream.report t.td b)) (completeBlocks_prefix hp)
    rw [hl] at h1
    rw [C54_rzcobs]
    refine ⟨((Stream.completeBlocks chunks.flatten).map (fun b => lineOf (Stream.report t.td b))).length, Stream.unfinished chunks.flatten, ?_⟩
    conv => lhs; rw [List.prefix_iff_eq_take.1 h1]
    unfold printed
    rw [List.map_take]
  · intro hc
    rw [C54_rzcobs, hc, hl]
    exact ⟨_, rfl⟩

/-! ### panics -/

/-- what a frame adds to the log -/
theorem payloads_frame (p : Program W) (index : Nat → List UInt8) (tr : List Event) (site : Nat) {codes : List Code} {w w' : W} {t : List Event}
    (ht : Runs p true codes w t w') (before after : List Event) (hb : ∀ x, before.foldl (logged index) x = x)
    (ha : ∀ x, after.foldl (logged index) x = x) :
    payloads index (tr ++ (before ++ [.start, .header site] ++ t ++ [.stop] ++ after)) =
      payloads index tr ++ [index site ++ written t] := by
  unfold payloads
  simp only [List.foldl_append, hb, List.foldl_cons, List.foldl_nil, logged, Option.map_some, List.nil_append,
    logged_runs ht index rfl, ha, Option.toList_some]

/-- **C115** A panic outside of log statements, with `panic-probe` and `print-defmt`: from some moment on and for ever, what is shown is what
was shown before and the message of the panic as the last line. (`e` is the line: its data is the index of the statement of `panic-probe` and what
the formatting code of the timestamp and of the message writes.) -/
theorem C115_panic (p : Program W) (main : Nat) (w0 : W) (site message : Nat) (hp : p.printer = some site) (he : p.enabled site = true)
    (n0 : Nat) (rest : List Op) (w w' : W) (tr t : List Event)
    (hpanic : run p n0 (start main w0) = ⟨.code (.stmt (.panic message)) :: rest, w, false, false, tr⟩)
    (hm : Runs p true [.nested p.timestamp, .nested message] w t w')
    (index : Nat → List UInt8) (table : Table) (events : List LogEvent) (hok : ∀ e ∈ events, e.Ok table)
    (hd : events.map LogEvent.bytes = (payloads index tr).map some)
    (e : LogEvent) (hoke : e.Ok table) (hde : e.bytes = some (index site ++ written t)) :
    ∃ n1, ∀ n, n1 ≤ n → ∀ chunks : List (List UInt8), chunks.flatten = wire .rzcobs index (run p n (start main w0)).trace →
      ∃ unfinished, defmtPrint table.td .rzcobs chunks = some (printed (events ++ [e]), .wait unfinished) := by
  obtain ⟨m, hrun⟩ := C92_shown_partial p site message hp he w w' t hm rest tr
  refine ⟨n0 + m, fun n hn chunks hc => ?_⟩
  have hall := (run_add (p := p) n0 m (start main w0)).trans ((congrArg (Program.run p m) hpanic).trans hrun)
  have hrn := run_from hall rfl n hn
  refine (C115_shown p main w0 n index table (events ++ [e]) ?_ ?_ chunks).2 hc
  · intro x hx
    rcases List.mem_append.mp hx with hx | hx
    · exact hok x hx
    · rw [List.mem_singleton.mp hx]; exact hoke
  · rw [hrn]
    have := payloads_frame p index tr site hm [.handler] [.fault] (fun _ => rfl) (fun _ => rfl)
    simp only [List.cons_append, List.nil_append, List.append_assoc] at this ⊢
    rw [this, List.map_append, List.map_append, hd]
    simp [hde]

/-- **C115** A panic while a log statement is written: for ever, nothing more is shown than the log statements before that one. -/
theorem C115_lost (p : Program W) (main : Nat) (w0 : W) (site message : Nat) (hp : p.printer = some site) (he : p.enabled site = true)
    (n0 : Nat) (rest : List Op) (w : W) (tr : List Event)
    (hpanic : run p n0 (start main w0) = ⟨.code (.stmt (.panic message)) :: rest, w, true, false, tr⟩)
    (index : Nat → List UInt8) (table : Table) (events : List LogEvent) (hok : ∀ e ∈ events, e.Ok table)
    (hd : events.map LogEvent.bytes = (payloads index tr).map some) :
    ∃ n1, ∀ n, n1 ≤ n → ∀ chunks : List (List UInt8), chunks.flatten = wire .rzcobs index (run p n (start main w0)).trace →
      ∃ unfinished, defmtPrint table.td .rzcobs chunks = some (printed events, .wait unfinished) := by
  obtain ⟨m, hrun⟩ := C92_lost p site message hp he w rest tr
  refine ⟨n0 + m, fun n hn chunks hc => ?_⟩
  have hall := (run_add (p := p) n0 m (start main w0)).trans ((congrArg (Program.run p m) hpanic).trans hrun)
  have hrn := run_from hall rfl n hn
  refine (C115_shown p main w0 n index table events hok ?_ chunks).2 hc
  rw [hrn, hd]
  unfold payloads
  simp [List.foldl_append, logged]

/-- **C115** `defmt::panic!`: with a `#[defmt::panic_handler]` that calls `hard_fault` its message is the last line; without it, one more line
follows (`m`: the message of `core::panic!()`, printed by `panic-probe`) and that is the last one. (`ta`: what the arguments do, which can log too.) -/
theorem C115_defmt_panic (p : Program W) (main : Nat) (w0 : W) (site : Nat) (he : p.enabled site = true)
    (args : List Program.Arg) (n0 : Nat) (rest : List Op) (w w1 w2 : W) (tr ta t : List Event)
    (hpanic : run p n0 (start main w0) = ⟨.code (.stmt (.defmtPanic site args)) :: rest, w, false, false, tr⟩)
    (hargs : Runs p false (args.map (fun a => .stmt (.call a.eval))) w ta w1)
    (hm : Runs p true (.nested p.timestamp :: args.map (fun a => .nested a.fmt)) w1 t w2)
    (index : Nat → List UInt8) (table : Table) (events : List LogEvent) (hok : ∀ e ∈ events, e.Ok table)
    (hd : events.map LogEvent.bytes = (payloads index (tr ++ ta)).map some)
    (e : LogEvent) (hoke : e.Ok table) (hde : e.bytes = some (index site ++ written t)) :
    (p.override = true →
      ∃ n1, ∀ n, n1 ≤ n → ∀ chunks : List (List UInt8), chunks.flatten = wire .rzcobs index (run p n (start main w0)).trace →
        ∃ unfinished, defmtPrint table.td .rzcobs chunks = some (printed (events ++ [e]), .wait unfinished)) ∧
    (∀ probe w3 t' m, p.override = false → p.printer = some probe → p.enabled probe = true →
      Runs p true [.nested p.timestamp, .nested p.explicitPanic] w2 t' w3 → LogEvent.Ok table m → m.bytes = some (index probe ++ written t') →
      ∃ n1, ∀ n, n1 ≤ n → ∀ chunks : List (List UInt8), chunks.flatten = wire .rzcobs index (run p n (start main w0)).trace →
        ∃ unfinished, defmtPrint table.td .rzcobs chunks = some (printed (events ++ [e, m]), .wait unfinished)) := by
  obtain ⟨hover, hnot⟩ := C92_defmt_panic p site he args w w1 w2 ta t hargs hm rest tr
  have hframe := fun after (ha : ∀ x, List.foldl (logged index) x after = x) =>
    payloads_frame p index (tr ++ ta) site hm [] after (fun _ => rfl) ha
  constructor
  · intro ho
    obtain ⟨m, hrun⟩ := hover ho
    refine ⟨n0 + m, fun n hn chunks hc => ?_⟩
    have hall := (run_add (p := p) n0 m (start main w0)).trans ((congrArg (Program.run p m) hpanic).trans hrun)
    have hrn := run_from hall rfl n hn
    refine (C115_shown p main w0 n index table (events ++ [e]) ?_ ?_ chunks).2 hc
    · intro x hx
      rcases List.mem_append.mp hx with hx | hx
      · exact hok x hx
      · rw [List.mem_singleton.mp hx]; exact hoke
    · rw [hrn]
      have := hframe [.fault] (fun _ => rfl)
      simp only [List.cons_append, List.nil_append, List.append_assoc] at this ⊢
      rw [this, List.map_append, List.map_append]
      rw [hd]
      simp [hde]
  · intro probe w3 t' m ho hp hep hm' hokm hdm
    obtain ⟨m1, rest', hrun⟩ := hnot ho
    have hrun2 : Reaches p (handle p p.explicitPanic ⟨rest', w2, false, false, tr ++ (ta ++ [.start, .header site] ++ t ++ [.stop])⟩)
        ⟨[], w3, false, true, (tr ++ (ta ++ [.start, .header site] ++ t ++ [.stop])) ++
          ([.handler] ++ [.start, .header probe] ++ t' ++ [.stop] ++ [.fault])⟩ := by
      have h0 : handle p p.explicitPanic ⟨rest', w2, false, false, tr ++ (ta ++ [.start, .header site] ++ t ++ [.stop])⟩ =
          ⟨[.logBody probe [⟨0, p.explicitPanic⟩], .fault], w2, false, true,
            (tr ++ (ta ++ [.start, .header site] ++ t ++ [.stop])) ++ [.handler]⟩ := by simp [handle, hp]
      rw [h0]
      refine .trans (frame_reaches (args := [⟨0, p.explicitPanic⟩]) hep (runs_reaches hm') _ _ _) ?_
      refine .step rfl ?_
      refine .to (.refl _) ?_
      simp
    obtain ⟨m2, hrun2⟩ := hrun2
    refine ⟨n0 + m1 + m2, fun n hn chunks hc => ?_⟩
    have hall := (run_add (p := p) (n0 + m1) m2 (start main w0)).trans ((congrArg (Program.run p m2) ((run_add (p := p) n0 m1 (start main w0)).trans
      ((congrArg (Program.run p m1) hpanic).trans hrun))).trans hrun2)
    have hrn := run_from hall rfl n hn
    refine (C115_shown p main w0 n index table (events ++ [e, m]) ?_ ?_ chunks).2 hc
    · intro x hx
      simp only [List.mem_append, List.mem_cons, List.not_mem_nil, or_false] at hx
      rcases hx with hx | rfl | rfl
      · exact hok x hx
      · exact hoke
      · exact hokm
    · rw [hrn]
      have h1 := payloads_frame p index (tr ++ (ta ++ [.start, .header site] ++ t ++ [.stop])) probe hm' [.handler] [.fault] (fun _ => rfl)
        (fun _ => rfl)
      have h2 := hframe [] (fun _ => rfl)
      simp only [List.cons_append, List.nil_append, List.append_assoc, List.append_nil] at h1 h2 ⊢
      rw [h1, h2]
      simp only [List.map_append]
      rw [hd]
      simp [hde, hdm]

/-- **C115** If formatting code only formats, then every panic is shown: in every run in which the panic handler is entered, from some moment on
and for ever the log is what it was when the panic happened and one more frame, with the message of that panic, and the program has ended. -/
theorem C115_every_panic (p : Program W) (hp : PureFormats p) (site : Nat) (hs : p.printer = some site) (he : p.enabled site = true)
    (main : Nat) (w0 : W) (n : Nat) (hn : .handler ∈ (run p n (start main w0)).trace) (index : Nat → List UInt8) :
    ∃ n0 message t, .handler ∉ (run p n0 (start main w0)).trace ∧
      Runs p true [.nested p.timestamp, .nested message] (run p n0 (start main w0)).world t (run p n0 (start main w0)).world ∧
      (run p (n0 + 1) (start main w0)).trace = (run p n0 (start main w0)).trace ++ [.handler] ∧
      ∃ n1, ∀ m, n1 ≤ m → (run p m (start main w0)).ops = [] ∧
        payloads index (run p m (start main w0)).trace = payloads index (run p n0 (start main w0)).trace ++ [index site ++ written t] := by
  obtain ⟨n0, message, s1, h1, h2, hk, hpan, hh⟩ := sim_panic hp n (sim_start main w0) rfl (by simp [start]) hn
  subst h1
  generalize hs1 : run p n0 (start main w0) = s1 at *
  obtain ⟨t, ht, _⟩ := pure_runs (p := p) (w := s1.world) (codes := [.nested p.timestamp, .nested message])
    (.nested (hp _ _) (.nested (hp _ _) .done))
  have hh2 : handle p message s1 = ⟨[.logBody site [⟨0, message⟩], .fault], s1.world, false, true, s1.trace ++ [.handler]⟩ := by
    obtain ⟨ops, w, k, pan, tr⟩ := s1
    simp only at hk hpan
    subst hk hpan
    simp [handle, hs]
  have hrun : Reaches p (handle p message s1) ⟨[], s1.world, false, true, s1.trace ++ ([.handler] ++ [.start, .header site] ++ t ++ [.stop] ++ [.fault])⟩ := by
    rw [hh2]
    refine .trans (frame_reaches (args := [⟨0, message⟩]) he (runs_reaches ht) _ _ _) ?_
    refine .step rfl ?_
    refine .to (.refl _) ?_
    simp
  obtain ⟨m, hm⟩ := hrun
  refine ⟨n0, message, t, by rw [hs1]; exact hh, by rw [hs1]; exact ht, by rw [h2, hh2, hs1], n0 + 1 + m, fun k hk => ?_⟩
  have hall := (run_add (p := p) (n0 + 1) m (start main w0)).trans ((congrArg (Program.run p m) h2).trans hm)
  rw [run_from hall rfl k hk, hs1]
  exact ⟨rfl, payloads_frame p index s1.trace site ht [.handler] [.fault] (fun _ => rfl) (fun _ => rfl)⟩

/-! ### a program -/

/-- `main` logs `info!("n = {=u8}", ..)` (site 1) and panics: with the function 0 in a function, with 4 in a `Format` implementation, with 7 by
`defmt::panic!("bad {=u8}", ..)` (site 2). There is no timestamp (format function 0 writes nothing). -/
def wordsProgram : Program Nat where
  body f w := (w + 1, match f with
    | 0 => [.log 1 [⟨1, 1⟩], .panic 5, .call 3]
    | 4 => [.log 1 [⟨1, 1⟩], .log 1 [⟨1, 6⟩], .call 3]
    | 7 => [.log 1 [⟨1, 1⟩], .defmtPanic 2 [⟨1, 1⟩], .call 3]
    | _ => [])
  fmt g w := match g with
    | 1 => [.write [UInt8.ofNat w]]
    | 5 => [.write [4, 0, 0, 0], .write [111, 111, 112, 115]]
    | 6 => [.write [6], .stmt (.panic 5)]
    | 10 => [.write [1, 0, 0, 0], .write [33]]
    | _ => []
  timestamp := 0
  enabled _ := true
  printer := some 3
  reentrant := 8
  outOfContext := 9
  explicitPanic := 10
  override := false

def wordsIndex (site : Nat) : List UInt8 := [UInt8.ofNat site, 0]

def wordsTable : Table where
  timestamp := none
  entries := fun i =>
    if i = 1 then some ⟨.info, c!"n = {=u8}"⟩ else if i = 2 then some ⟨.error, c!"bad {=u8}"⟩
    else if i = 3 then some ⟨.error, c!"{=str}"⟩ else none

def wordsInfo (n : Nat) : LogEvent := ⟨1, .info, none, ⟨c!"n = {=u8}", [.uint 1 n]⟩⟩
def wordsBad (n : Nat) : LogEvent := ⟨2, .error, none, ⟨c!"bad {=u8}", [.uint 1 n]⟩⟩
def wordsPanic (text : List Char) : LogEvent := ⟨3, .error, none, ⟨c!"{=str}", [.str text]⟩⟩

theorem wordsInfo_ok (n : Nat) (h : n < 256) : (wordsInfo n).Ok wordsTable :=
  ⟨by simp [wordsInfo], rfl, ⟨[.u8], by decide +kernel +revert, by simpa [wordsInfo, ArgsOk, ArgOk] using h⟩, trivial⟩
theorem wordsBad_ok (n : Nat) (h : n < 256) : (wordsBad n).Ok wordsTable :=
  ⟨by simp [wordsBad], rfl, ⟨[.u8], by decide +kernel +revert, by simpa [wordsBad, ArgsOk, ArgOk] using h⟩, trivial⟩

theorem wordsPanic_ok : (wordsPanic c!"oops").Ok wordsTable :=
  ⟨by decide, rfl, ⟨[.str], by decide +kernel, by simp only [wordsPanic, ArgsOk, ArgOk]; decide +kernel⟩, trivial⟩
theorem wordsBang_ok : (wordsPanic c!"!").Ok wordsTable :=
  ⟨by decide, rfl, ⟨[.str], by decide +kernel, by simp only [wordsPanic, ArgsOk, ArgOk]; decide +kernel⟩, trivial⟩

/-- the hypotheses of `C115_panic` -/
example : (∃ n0 rest, run wordsProgram n0 (start 0 0) = ⟨.code (.stmt (.panic 5)) :: rest, 2, false, false,
      [.call 0, .call 1, .start, .header 1, .data [2], .stop]⟩) ∧
    Runs wordsProgram true [.nested 0, .nested 5] 2 [.data [4, 0, 0, 0], .data [111, 111, 112, 115]] 2 ∧
    [wordsInfo 2].map LogEvent.bytes = (payloads wordsIndex [.call 0, .call 1, .start, .header 1, .data [2], .stop]).map some ∧
    (wordsPanic c!"oops").Ok wordsTable ∧
    (wordsPanic c!"oops").bytes = some (wordsIndex 3 ++ written [.data [4, 0, 0, 0], .data [111, 111, 112, 115]]) :=
  ⟨⟨10, _, rfl⟩, .nested (t := []) .done (.nested (t := [.data [4, 0, 0, 0], .data [111, 111, 112, 115]]) (t' := []) (.write (.write .done)) .done), by decide +kernel,
    wordsPanic_ok, by decide +kernel⟩

/-- the hypotheses of `C115_lost` -/
example : (∃ n0 rest, run wordsProgram n0 (start 4 0) = ⟨.code (.stmt (.panic 5)) :: rest, 3, true, false,
      [.call 4, .call 1, .start, .header 1, .data [2], .stop, .call 1, .start, .header 1, .data [6]]⟩) ∧
    [wordsInfo 2].map LogEvent.bytes = (payloads wordsIndex
      [.call 4, .call 1, .start, .header 1, .data [2], .stop, .call 1, .start, .header 1, .data [6]]).map some :=
  ⟨⟨18, _, rfl⟩, by decide +kernel⟩

/-- what is shown of the three programs, from the bytes on the channel -/
example : ∃ rest, defmtPrint wordsTable.td .rzcobs [wire .rzcobs wordsIndex (run wordsProgram 40 (start 0 0)).trace] =
    some (printed [wordsInfo 2, wordsPanic c!"oops"], .wait rest) :=
  (C115_shown wordsProgram 0 0 40 wordsIndex wordsTable [wordsInfo 2, wordsPanic c!"oops"]
    (by simp [wordsInfo_ok, wordsPanic_ok]) (by decide +kernel) _).2 (by simp)
example : ∃ rest, defmtPrint wordsTable.td .rzcobs [wire .rzcobs wordsIndex (run wordsProgram 40 (start 4 0)).trace] =
    some (printed [wordsInfo 2], .wait rest) :=
  (C115_shown wordsProgram 4 0 40 wordsIndex wordsTable [wordsInfo 2] (by simp [wordsInfo_ok]) (by decide +kernel) _).2 (by simp)
example : ∃ rest, defmtPrint wordsTable.td .rzcobs [wire .rzcobs wordsIndex (run wordsProgram 60 (start 7 0)).trace] =
    some (printed [wordsInfo 2, wordsBad 3, wordsPanic c!"!"], .wait rest) :=
  (C115_shown wordsProgram 7 0 60 wordsIndex wordsTable [wordsInfo 2, wordsBad 3, wordsPanic c!"!"]
    (by simp [wordsInfo_ok, wordsBad_ok, wordsBang_ok]) (by decide +kernel) _).2 (by simp)

end Defmt
