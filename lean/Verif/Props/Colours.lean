import Verif.Lemmas.Colours
import Verif.Props.Whole
/-!
# C114: the colours on the terminal
-/

namespace Defmt

open LogFormat HostLog
open Parser hiding parse Written
open Rtt (blocking)

/-- **C114** The default format on a terminal with or without colours: whatever the chunks in which the bytes of a program's log statements arrive, the user
sees, statement after statement, the timestamp, the level in its colour and the message (and with `-v` the location), the texts with no colours but their
own. -/
theorem C114_default (env : Env) (o : Options) (hj : o.json = false) (hlf : o.logFormat = none)
    (hhf : o.hostLogFormat = none) (ht : o.term.Ok) (hmax : 5 ≤ o.term.maxWidth)
    (hloc : ∀ i loc, o.locations i = some loc → loc.line < 2 ^ 32 ∧ FewHidden o.term.maxWidth (o.relative loc.file) ∧ FewHidden o.term.maxWidth loc.module)
    (t : Table) (statements : List Painted) (hs : ∀ s ∈ statements, s.Ok env o t) (enc : Encoding) (now : Nat → Int)
    (chunks : List (List UInt8)) (next : Printer.Next)
    (hu : Printer.defmtPrint t.td enc chunks = some (statements.map (fun s => .frame s.event.frame), next)) :
    ∃ ws, HostLog.defmtPrint env o t.td t.timestamp.isSome enc now chunks = some (ws, next) ∧
      Rendered [] (textOf .stdout ws) (statements.flatMap (Painted.cells o t.timestamp.isSome)) [] ∧ textOf .stderr ws = [] := by
  have key : ∃ text, HostLog.PlainText env o (defaultSegments o.verbose t.timestamp.isSome) (noteText o)
      (statements.map (fun s => .frame s.event.frame)) text ∧ Shown text (statements.flatMap (Painted.cells o t.timestamp.isSome)) := by
    clear hu
    induction statements with
    | nil => exact ⟨[], .nil, shown_plain (by simp)⟩
    | cons s ss ih =>
      obtain ⟨text, h1, h2⟩ := ih (fun s hs' => hs s (by simp [hs']))
      rw [List.map_cons, List.flatMap_cons]
      exact painted_statement ht hmax (hs s (by simp)) (fun loc h => hloc _ _ h.2) h1 h2
  obtain ⟨text, h1, h2⟩ := key
  obtain ⟨ws, h3, h4, h5⟩ := C80_text env o hj t.td t.timestamp.isSome enc now chunks _ _ (default_formatters ht hlf hhf _) _ next hu
    (fun f loc _ h => (hloc _ _ h.2).1) text h1
  exact ⟨ws, h3, by rw [h4]; exact h2.rendered, h5⟩

/-- **C114** The whole way: whatever the contexts of the program, the RTT channel and the host do, at every moment the user sees the lines of
the first `k` log statements completed, each level in its colour, for some `k`, and nothing else. -/
theorem C114_system (cfg : Rtt.Config) (flags : Nat) (buffer : Nat → UInt8) (s : System.State)
    (hsize : 1 ≤ cfg.size) (hb : blocking cfg (System.start flags buffer).rtt = true)
    (hr : System.Reachable cfg .rzcobs (System.start flags buffer) s)
    (env : Env) (o : Options) (hj : o.json = false) (hlf : o.logFormat = none)
    (hhf : o.hostLogFormat = none) (ht : o.term.Ok) (hmax : 5 ≤ o.term.maxWidth)
    (hloc : ∀ i loc, o.locations i = some loc → loc.line < 2 ^ 32 ∧ FewHidden o.term.maxWidth (o.relative loc.file) ∧ FewHidden o.term.maxWidth loc.module)
    (t : Table) (statements : List Painted) (hs : ∀ s ∈ statements, s.Ok env o t)
    (hl : System.Logged t s (statements.map Painted.event)) (now : Nat → Int)
    (chunks : List (List UInt8)) (hc : chunks.flatten = s.rtt.received) :
    ∃ k ws rest, HostLog.defmtPrint env o t.td t.timestamp.isSome .rzcobs now chunks = some (ws, .wait rest) ∧
      Rendered [] (textOf .stdout ws) ((statements.take k).flatMap (Painted.cells o t.timestamp.isSome)) [] ∧ textOf .stderr ws = [] ∧
      (s.rtt.received = s.logger.wire → statements.take k = statements) := by
  by_cases hall : s.rtt.received = s.logger.wire
  · obtain ⟨rest, hk⟩ := C75_all_printed cfg flags buffer s hr t _ hl hall chunks hc
    have hk' : Printer.defmtPrint t.td .rzcobs chunks = some (statements.map (fun s => .frame s.event.frame), .wait rest) := by
      rw [hk]; simp [System.printed]
    obtain ⟨ws, h1, h2, h3⟩ := C114_default env o hj hlf hhf ht hmax hloc t statements hs .rzcobs now chunks _ hk'
    exact ⟨statements.length, ws, rest, h1, by rw [List.take_length]; exact h2, h3, fun _ => List.take_length⟩
  · obtain ⟨k, rest, hk⟩ := C75_printed cfg flags buffer s hsize hb hr t _ hl chunks hc
    have hk' : Printer.defmtPrint t.td .rzcobs chunks = some ((statements.take k).map (fun s => .frame s.event.frame), .wait rest) := by
      rw [hk, ← List.map_take, System.printed, List.map_map]; rfl
    obtain ⟨ws, h1, h2, h3⟩ := C114_default env o hj hlf hhf ht hmax hloc t (statements.take k)
      (fun s h => hs s (List.mem_of_mem_take h)) .rzcobs now chunks _ hk'
    exact ⟨k, ws, rest, h1, h2, h3, fun h => absurd h hall⟩

/-- **C114** From the source code to a terminal with or without colours: as `C97_terminal`, each level in its colour. -/
theorem C114_terminal (t : Linker.Target) (ht : t.Ok) (items : List Linker.Item) (hok : ∀ it ∈ items, it.Ok) (hdefmt : .defmt false ∈ items)
    (inputs : List Linker.Input) (hc : Linker.Compiled t items inputs) (o : Linker.Out) (h : Linker.link inputs = .ok o) (b : Run.Binary)
    (hf : Linker.IsFileOf o b.elf)
    (cfg : Rtt.Config) (flags : Nat) (buffer : Nat → UInt8) (s : System.State) (hsize : 1 ≤ cfg.size)
    (hb : blocking cfg (System.start flags buffer).rtt = true) (hr : System.Reachable cfg .rzcobs (System.start flags buffer) s)
    (env : Env) (opts : Options) (table : Elf.FullTable) (env' : Env) (opts' : Options) (hld : Run.Loaded env opts b table env' opts')
    (strings : Table) (hstr : Whole.StringsOf o strings) (format : Option (List Char)) (hfm : Whole.Stamp items inputs format)
    (executed : List Whole.Coloured) (hx : ∀ x ∈ executed, x.Ok env' opts' inputs o strings format)
    (hl : executed.map (fun x => (x.event format).bytes) = (System.payloads s).map some)
    (hj : opts.json = false) (hlf : opts.logFormat = none)
    (hhf : opts.hostLogFormat = none) (hterm : opts.term.Ok) (hmax : 5 ≤ opts.term.maxWidth)
    (hloc : ∀ i loc, opts'.locations i = some loc →
      loc.line < 2 ^ 32 ∧ FewHidden opts'.term.maxWidth (opts'.relative loc.file) ∧ FewHidden opts'.term.maxWidth loc.module)
    (source : Run.Source) (watch : Bool) (now : Nat → Int) (chunks : List (List UInt8)) (hch : chunks.flatten = s.rtt.received) :
    Run.Reading (Run.runEvents env opts source watch now (some b) (chunks.map .data)) ∧
    ∃ k, Rendered [] (textOf .stdout (Run.runEvents env opts source watch now (some b) (chunks.map .data)).output)
        ((executed.take k).flatMap (Whole.Coloured.cells opts format)) [] ∧
      textOf .stderr (Run.runEvents env opts source watch now (some b) (chunks.map .data)).output = [] ∧
      (s.rtt.received = s.logger.wire → executed.take k = executed) := by
  have hp := hld.table
  have hst : ∀ st ∈ executed.map (Whole.Coloured.painted format), st.Ok env' opts' table.decoding := by
    intro st hst
    obtain ⟨x, hx', rfl⟩ := List.mem_map.mp hst
    exact coloured_painted (execution_event t ht items hok inputs hc o h b.elf hf true table hp strings hstr format hfm x.toExecution (hx x hx').toOk) (hx x hx')
  have hlog : System.Logged table.decoding s ((executed.map (Whole.Coloured.painted format)).map Painted.event) := by
    refine ⟨?_, ?_⟩
    · intro e he
      obtain ⟨st, hst', rfl⟩ := List.mem_map.mp he
      exact (hst st hst').event
    · rw [← hl, List.map_map, List.map_map]; rfl
  obtain ⟨locs, indices, ho, -⟩ := hld.opts
  obtain ⟨k, ws, rest, h1, h2, h3, h4⟩ := C114_system cfg flags buffer s hsize hb hr env' opts' (by rw [ho]; exact hj)
    (by rw [ho]; exact hlf) (by rw [ho]; exact hhf) (by rw [ho]; exact hterm) (by rw [ho]; exact hmax) hloc
    table.decoding _ hst hlog now chunks hch
  have hsome := stamp_isSome t items hok inputs hc o h b.elf hf true table hp format hfm
  obtain ⟨hrd, hout⟩ := shown_run t items hok hdefmt inputs hc o h b hf env opts table env' opts' hld source watch now chunks h1
  rw [hout]
  refine ⟨hrd, k, ?_, h3, ?_⟩
  · have key : ∀ l : List Whole.Coloured, (∀ x ∈ l, Whole.Logs x.site.kind) →
        l.flatMap (fun x => Painted.cells opts' format.isSome (x.painted format)) = l.flatMap (Whole.Coloured.cells opts format) := by
      intro l
      induction l with
      | nil => intro _; rfl
      | cons x l ih =>
        intro hl
        have he : Painted.cells opts' format.isSome (x.painted format) = x.cells opts format := by
          rw [coloured_cells _ format x (hl x (by simp))]
          unfold Whole.Coloured.cells
          rw [ho]
        rw [List.flatMap_cons, List.flatMap_cons, he, ih (fun y hy => hl y (by simp [hy]))]
    rw [hsome, ← List.map_take, List.flatMap_map, key _ (fun x hx' => (hx x (List.mem_of_mem_take hx')).logs)] at h2
    exact h2
  · intro hall
    have := congrArg List.length (h4 hall)
    rw [List.length_take, List.length_map] at this
    rw [List.take_of_length_le (by omega)]

/-! ### Concrete cases -/

/-- a terminal with colours -/
def colourOptions (verbose : Bool) : Options := { hostOptions false with term := demoTerm true, verbose := verbose }

def colourStatement (verbose : Bool) : Painted :=
  ⟨systemEvent, [], c!"hi", [], plainCells c!"hi", if verbose then plainCells c!"\n└─ app::tasks::blink @ src/main.rs:42  " else []⟩

theorem colourStatement_ok (verbose : Bool) : (colourStatement verbose).Ok demoEnv (colourOptions verbose) systemTable where
  event := systemEvent_ok
  texts := ⟨.inr ⟨rfl, rfl⟩, by decide +revert +kernel⟩
  fewHidden := ⟨fewHidden_plain _ (by decide +revert), fewHidden_plain _ (by decide +revert)⟩
  timestamp := contained_plain (s := []) (by decide)
  message _ := .plain (LogFormat.not_likeDiff (by decide +revert)) (contained_plain (s := c!"hi") (by decide))
  printed h := by cases h
  place := by
    cases verbose with
    | false => exact .quiet rfl
    | true =>
      have := PlaceCells.located (o := colourOptions true) rfl (host_located (colourOptions true) rfl rfl)
        (contained_plain (s := c!"app::tasks::blink") (by decide +kernel)) (contained_plain (s := (hostOptions false).relative c!"/home/me/app/src/main.rs") (by decide +kernel))
      refine cast ?_ this
      congr 1

/-- the hypotheses of `C114_system` are met -/
example (verbose : Bool) : ∃ s, System.Reachable ⟨8, false⟩ .rzcobs (System.start 2 (fun _ => 0)) s ∧
    blocking ⟨8, false⟩ (System.start 2 (fun _ => 0)).rtt = true ∧
    System.Logged systemTable s ([colourStatement verbose].map Painted.event) ∧
    (∀ s ∈ [colourStatement verbose], s.Ok demoEnv (colourOptions verbose) systemTable) ∧ (colourOptions verbose).term.Ok ∧
    (∀ i loc, (colourOptions verbose).locations i = some loc →
      loc.line < 2 ^ 32 ∧ FewHidden 65535 ((colourOptions verbose).relative loc.file) ∧ FewHidden 65535 loc.module) := by
  obtain ⟨s, h1, h2, _, h3⟩ := system_example
  refine ⟨s, h1, rfl, ⟨?_, ?_⟩, ?_, demoTerm_ok true, ?_⟩
  · intro e he
    simp only [List.map_cons, List.map_nil, List.mem_singleton] at he
    subst he
    exact systemEvent_ok
  · unfold System.payloads; rw [h2]; cases verbose <;> rfl
  · intro s hs
    simp only [List.mem_singleton] at hs
    subst hs
    exact colourStatement_ok verbose
  · intro i loc h
    simp only [colourOptions, hostOptions] at h
    split at h
    · cases h
      exact ⟨by decide, fewHidden_plain _ (by decide +revert +kernel), fewHidden_plain _ (by decide +kernel)⟩
    · cases h

/-- the level is green, the message has no colour -/
example : (colourStatement false).cells (colourOptions false) false =
    (c!"INFO ".map fun c => (c, [Char.ofNat 27 :: c!"[32m"])) ++ plainCells c!" hi\n" := by decide +kernel

set_option maxRecDepth 100000 in
/-- and so it is printed -/
example : (HostLog.defmtPrint demoEnv (colourOptions false) systemTable.td false .rzcobs (fun k => k) [[0, 1], [0x7e, 0]]).map
    (fun r => textOf .stdout r.1) = some (Char.ofNat 27 :: c!"[32mINFO " ++ Char.ofNat 27 :: c!"[0m hi\n") := by decide +kernel

/-- a message with a red word of its own, and one of `assert_eq!` -/
example : MessageCells (demoTerm true) (c!"a " ++ Char.ofNat 27 :: c!"[31mb" ++ Char.ofNat 27 :: c!"[0m")
    (plainCells c!"a " ++ [('b', [Char.ofNat 27 :: c!"[31m"])]) :=
  .plain (LogFormat.not_likeDiff (by decide +kernel)) (contained_of_shown ⟨rfl, by decide +kernel, by decide +kernel⟩)

/-- the execution of the example of C97, in colours -/
def hiColoured : Whole.Coloured := ⟨⟨hiSite, 1, [], []⟩, [], c!"hi", [], plainCells c!"hi", []⟩

/-- the hypotheses of `C114_terminal` about the statements are met -/
example (env : Env) (opts : Options) (hv : opts.verbose = false) : hiColoured.Ok env opts hiInputs hiOut ⟨none, fun _ => none⟩ none where
  toOk := (hiExecuted_ok env opts hv).toOk
  texts := (hiExecuted_ok env opts hv).texts
  fewHidden := (hiExecuted_ok env opts hv).fewHidden
  timestamp := contained_plain (s := []) (by decide)
  message _ := .plain (LogFormat.not_likeDiff (by decide)) (contained_plain (s := c!"hi") (by decide))
  printed h := by cases h
  place := .quiet hv

set_option maxRecDepth 100000 in
/-- and the output is in colours -/
example : textOf .stdout (Run.runEvents demoEnv (colourOptions false) .stdin false (fun k => k) (some hiBinary) ([[0, 1], [0x7e, 0]].map .data)).output =
    Char.ofNat 27 :: c!"[32mINFO " ++ Char.ofNat 27 :: c!"[0m hi\n" := by decide +kernel

end Defmt
