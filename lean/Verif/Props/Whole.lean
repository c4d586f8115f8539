import Verif.Props.Run
import Verif.Spec.Whole
import Verif.Props.Linker
import Verif.Props.HostLog
/-!
# C97: from the source code to the terminal
-/

namespace Defmt

open Symbol Elf Bitflags Decoder Linker Whole HostLog _root_.Defmt.Encoder
open Parser hiding parse Written
open LogFormat (levelText leftPadded)
open Rtt (blocking)

/-! ### More strings in the table do not matter -/

/-- `t'` has all strings of `t` that are not log statements -/
def Extends (t t' : Table) : Prop := ∀ a s, t.getWithoutLevel a = some s → t'.getWithoutLevel a = some s

theorem Extends.linked {t t' : Table} (h : Extends t t') {a : Nat} {s : List Char} (hl : Encoder.Linked t a s) : Encoder.Linked t' a s :=
  ⟨hl.1, h _ _ hl.2⟩

theorem Extends.argOk {t t' : Table} (h : Extends t t') {ty : Ty} {v : Val} {n n' : Prop} (hn : n → n') (ha : ArgOk t ty v n) :
    ArgOk t' ty v n' := by
  unfold ArgOk at ha ⊢
  split at ha <;> try exact ha
  · exact h.linked ha
  · obtain ⟨h1, tag, s, h2, h3⟩ := ha
    exact ⟨hn h1, tag, s, h2, h.linked h3⟩
  · obtain ⟨h1, h2, h3, h4⟩ := ha
    exact ⟨hn h1, h2, h.linked h3, h4⟩
  · obtain ⟨h1, h2, h3, h4, h5⟩ := ha
    exact ⟨hn h1, h2, h3, h.linked h4, h5⟩

mutual

theorem Extends.valOk {t t' : Table} (h : Extends t t') : (v : Val) → ValOk t v → ValOk t' v
  | .formatted _ fmt args => fun hv => by
    simp only [ValOk] at hv ⊢
    obtain ⟨h1, tys, h2, h3⟩ := hv
    exact ⟨h1, tys, h2, h.argsOk tys args h3⟩
  | .variant _ variants idx args => fun hv => by
    simp only [ValOk] at hv ⊢
    obtain ⟨h1, h2, h3, h4, fmt, h5, tys, h6, h7⟩ := hv
    exact ⟨h1, h2, h3, h4, fmt, h5, tys, h6, h.argsOk tys args h7⟩
  | .manual _ writes => fun hv => by
    simp only [ValOk] at hv ⊢
    exact h.writesOk writes hv
  | .slice _ _ elems => fun hv => by
    simp only [ValOk] at hv ⊢
    exact h.elemsOk elems hv
  | .uint .. | .sint .. | .usize _ | .isize _ | .f32 _ | .f64 _ | .bool _ | .char _ | .str _ | .istr .. | .bytes _ | .text _ => fun hv => by
    simp only [ValOk] at hv

theorem Extends.argsOk {t t' : Table} (h : Extends t t') : (tys : List Ty) → (vs : List Val) → ArgsOk t tys vs → ArgsOk t' tys vs
  | [], [] => fun _ => by simp only [ArgsOk]
  | ty :: tys, v :: vs => fun hv => by
    simp only [ArgsOk] at hv ⊢
    exact ⟨h.argOk (h.valOk v) hv.1, h.argsOk tys vs hv.2⟩
  | [], _ :: _ => fun hv => by simp only [ArgsOk] at hv
  | _ :: _, [] => fun hv => by simp only [ArgsOk] at hv

theorem Extends.writesOk {t t' : Table} (h : Extends t t') : (vs : List Val) → WritesOk t vs → WritesOk t' vs
  | [] => fun _ => by simp only [WritesOk]
  | .formatted tag fmt args :: vs => fun hv => by
    simp only [WritesOk] at hv ⊢
    obtain ⟨⟨h1, h2, tys, h3, h4⟩, h5⟩ := hv
    exact ⟨⟨h1, h.linked h2, tys, h3, h.argsOk tys args h4⟩, h.writesOk vs h5⟩
  | .variant .. :: _ | .manual .. :: _ | .slice .. :: _ | .uint .. :: _ | .sint .. :: _ | .usize _ :: _ | .isize _ :: _ | .f32 _ :: _
  | .f64 _ :: _ | .bool _ :: _ | .char _ :: _ | .str _ :: _ | .istr .. :: _ | .bytes _ :: _ | .text _ :: _ => fun hv => by
    simp only [WritesOk, false_and] at hv

theorem Extends.elemsOk {t t' : Table} (h : Extends t t') : (vs : List Val) → ElemsOk t vs → ElemsOk t' vs
  | [] => fun _ => by simp only [ElemsOk]
  | v :: vs => fun hv => by
    simp only [ElemsOk] at hv ⊢
    exact ⟨h.valOk v hv.1, h.elemsOk vs hv.2⟩

end

theorem Extends.callOk {t t' : Table} (h : Extends t t') {c : Call} (hc : c.Ok t) : c.Ok t' := by
  obtain ⟨tys, h1, h2⟩ := hc
  exact ⟨tys, h1, h.argsOk _ _ h2⟩

/-! ### The statements of the program and the table of the host -/

/-- the strings of the program are in the table of the host -/
theorem extends_strings (t : Target) (ht : t.Ok) (items : List Linker.Item) (inputs : List Input) (hc : Compiled t items inputs) (o : Out)
    (h : link inputs = .ok o) (f : ElfFile) (hf : IsFileOf o f) (check : Bool) (table : FullTable) (hp : parseImpl f check = .ok (some table))
    (strings : Table) (hs : StringsOf o strings) : Extends strings table.decoding := by
  intro a s ha
  unfold Table.getWithoutLevel Table.getWithLevel at ha ⊢
  cases he : strings.entries a with
  | none => rw [he] at ha; cases ha
  | some e =>
    obtain ⟨x, sym, h1, h2, h3, rfl⟩ := hs a e he
    have := C93_table t ht items inputs hc o h f hf check table hp x h3 sym h1
    rw [h2] at this
    rw [he] at ha
    simp only [FullTable.decoding, this, Option.map_some]
    exact ha

theorem logs_ne {k : Kind} (h : Logs k) : k ≠ .timestamp := by rintro rfl; exact h

/-- the statement that C80 speaks about -/
def Whole.Executed.statement (format : Option (List Char)) (x : Executed) : Statement := ⟨x.event format, x.timestamp, x.message, x.shownMessage, x.place⟩

theorem execution_event (t : Target) (ht : t.Ok) (items : List Linker.Item) (hok : ∀ it ∈ items, it.Ok) (inputs : List Input)
    (hc : Compiled t items inputs) (o : Out) (h : link inputs = .ok o) (f : ElfFile) (hf : IsFileOf o f) (check : Bool) (table : FullTable)
    (hp : parseImpl f check = .ok (some table)) (strings : Table) (hs : StringsOf o strings) (format : Option (List Char))
    (hfm : Stamp items inputs format) (x : Execution) (hx : x.Ok inputs o strings format) :
    (x.event format).Ok table.decoding := by
  have hext := extends_strings t ht items inputs hc o h f hf check table hp strings hs
  have hts := C93_timestamp t items hok inputs hc o h f hf check table hp
  obtain ⟨s, hs1, hs2⟩ := hx.address
  obtain ⟨s', h1, h2, h3, h4, h5⟩ := C93_index t items inputs hc o h x.site hx.used
  have := h5 s hs1
  subst this
  refine ⟨?_, ?_, hext.callOk hx.args, ?_⟩
  · show x.address < _
    omega
  · show table.decoding.entries x.address = _
    rw [← hs2]
    simp only [FullTable.decoding, C93_table t ht items inputs hc o h f hf check table hp x.site (logs_ne hx.logs) s hs1, Option.map_some]
    rfl
  · cases format with
    | none =>
      have : table.decoding.timestamp = none := by simp only [FullTable.decoding, hts.2 hfm, Option.map_none]
      simp [Whole.Execution.event, Whole.Execution.stamp, this]
    | some d =>
      obtain ⟨a, b, c, hi, hu⟩ := hfm
      have : table.decoding.timestamp = some ⟨.timestamp, d⟩ := hts.1 a b c d hi hu
      simp only [Whole.Execution.event, Whole.Execution.stamp, this, Option.map_some]
      exact ⟨trivial, hext.callOk (hx.stamp d rfl)⟩

theorem executed_statement (t : Target) (ht : t.Ok) (items : List Linker.Item) (hok : ∀ it ∈ items, it.Ok) (inputs : List Input)
    (hc : Compiled t items inputs) (o : Out) (h : link inputs = .ok o) (f : ElfFile) (hf : IsFileOf o f) (check : Bool) (table : FullTable)
    (hp : parseImpl f check = .ok (some table)) (strings : Table) (hs : StringsOf o strings) (format : Option (List Char))
    (hfm : Stamp items inputs format) (env : Env) (opts : Options) (x : Executed) (hx : x.Ok env opts inputs o strings format) :
    (x.statement format).Ok env opts table.decoding where
  event := execution_event t ht items hok inputs hc o h f hf check table hp strings hs format hfm x.toExecution hx.toOk
  texts := hx.texts
  fewHidden := hx.fewHidden
  shown := hx.shown
  place := hx.place

theorem stamp_isSome (t : Target) (items : List Linker.Item) (hok : ∀ it ∈ items, it.Ok) (inputs : List Input)
    (hc : Compiled t items inputs) (o : Out) (h : link inputs = .ok o) (f : ElfFile) (hf : IsFileOf o f) (check : Bool) (table : FullTable)
    (hp : parseImpl f check = .ok (some table)) (format : Option (List Char)) (hfm : Stamp items inputs format) :
    table.decoding.timestamp.isSome = format.isSome := by
  have hts := C93_timestamp t items hok inputs hc o h f hf check table hp
  cases format with
  | none => simp only [FullTable.decoding, hts.2 hfm, Option.map_none]; rfl
  | some d =>
    obtain ⟨a, b, c, hi, hu⟩ := hfm
    have : table.decoding.timestamp = some ⟨.timestamp, d⟩ := hts.1 a b c d hi hu
    rw [this]; rfl

theorem statement_shown (format : Option (List Char)) (x : Executed) (hx : Logs x.site.kind) :
    (x.statement format).shown format.isSome = x.shown format := by
  unfold Statement.shown Whole.Executed.shown
  have : (x.statement format).event.tag = x.site.kind.hostTag := rfl
  rw [this]
  cases hk : x.site.kind with
  | log level => cases level <;> cases format <;> rfl
  | println => rfl
  | _ => rw [hk] at hx; exact hx.elim

/-! ### C97 -/

/-- **C97** The file of a program that was compiled and linked is loaded by `defmt-print` if its debug information can be read. -/
theorem C97_loaded (t : Target) (items : List Linker.Item) (hok : ∀ it ∈ items, it.Ok) (hdefmt : .defmt false ∈ items)
    (inputs : List Input) (hc : Compiled t items inputs) (o : Out) (h : link inputs = .ok o) (b : Run.Binary) (hf : IsFileOf o b.elf)
    (hd : ∀ symbols, ∃ locs, Dwarf.getLocations b.units symbols = .ok locs) (env : Env) (opts : Options) :
    ∃ table env' opts', Run.Loaded env opts b table env' opts' ∧ table.encoding = .rzcobs := by
  obtain ⟨table, hp, henc⟩ := C93_accepted t items hok inputs hc o h b.elf hf true false hdefmt
  obtain ⟨locs, hl⟩ := hd (Run.rawSymbols b.elf table)
  exact ⟨table, _, _, ⟨hp, rfl, locs, Run.indices b.elf table, rfl, Run.mem_indices hp, _, Run.mem_rawSymbols hp, hl⟩, henc⟩

/-- the life of `defmt-print` when nothing happens but that bytes arrive -/
theorem data_history (source : Run.Source) (watch : Bool) (b : Run.Binary) (chunks : List (List UInt8)) :
    Run.History source watch (some b) (chunks.map .data) (some b) [(b, chunks)] := by
  induction chunks using Run.snoc_induction with
  | h0 => exact .start rfl
  | h1 cs c ih =>
    rw [List.map_append]
    exact .data (ps := []) ih

/-- `defmt-print` with the file of the program shows what its decoder and its printer give for the bytes -/
theorem shown_run (t : Target) (items : List Linker.Item) (hok : ∀ it ∈ items, it.Ok) (hdefmt : .defmt false ∈ items)
    (inputs : List Input) (hc : Compiled t items inputs) (o : Out) (h : link inputs = .ok o) (b : Run.Binary) (hf : IsFileOf o b.elf)
    (env : Env) (opts : Options) (table : FullTable) (env' : Env) (opts' : Options) (hld : Run.Loaded env opts b table env' opts')
    (source : Run.Source) (watch : Bool) (now : Nat → Int) (chunks : List (List UInt8)) {ws : Writes} {rest : List UInt8}
    (h1 : HostLog.defmtPrint env' opts' table.decoding.td table.decoding.timestamp.isSome .rzcobs now chunks = some (ws, .wait rest)) :
    Run.Reading (Run.runEvents env opts source watch now (some b) (chunks.map .data)) ∧
      (Run.runEvents env opts source watch now (some b) (chunks.map .data)).output = ws := by
  have henc : table.encoding = .rzcobs := by
    obtain ⟨table', hp', henc⟩ := C93_accepted t items hok inputs hc o h b.elf hf true false hdefmt
    have := hld.table.symm.trans hp'
    simp only [Outcome.ok.injEq, Option.some.injEq] at this
    rw [this]; exact henc
  have hts : table.timestamp.isSome = table.decoding.timestamp.isSome := by
    unfold FullTable.decoding; cases table.timestamp <;> rfl
  have henc' : Run.streamEncoding table.encoding = .rzcobs := by rw [henc]; rfl
  obtain ⟨fmt, units, ws', -, hpr, -, -⟩ := Run.defmtPrint_parts h1
  have htr : Run.Transcript env opts now [(b, chunks)] ws (0 + units.length) := by
    refine .part (ps := []) (ws := []) .nil hld (rest := rest) ?_ ?_
    · simp only [Nat.zero_add]
      rw [henc', hts]; exact h1
    · rw [henc']; exact hpr
  obtain ⟨hrd, hout, -⟩ := (C98_exact env opts source watch now (some b) (chunks.map .data) ws _).mpr
    ⟨_, _, data_history source watch b chunks, htr⟩
  exact ⟨hrd, hout⟩

/-- **C97** From the source code to the terminal. A program is compiled and linked, and runs; its contexts log through the RTT channel (in
blocking mode); `defmt-print` is started with the ELF file and receives the bytes in any chunks. Then at every moment it is waiting for input and has
shown to the user the lines of the first `k` log statements executed, for some `k`, and nothing else; all of them, if the host has
received all that was written. -/
theorem C97_terminal (t : Target) (ht : t.Ok) (items : List Linker.Item) (hok : ∀ it ∈ items, it.Ok) (hdefmt : .defmt false ∈ items)
    (inputs : List Input) (hc : Compiled t items inputs) (o : Out) (h : link inputs = .ok o) (b : Run.Binary) (hf : IsFileOf o b.elf)
    (cfg : Rtt.Config) (flags : Nat) (buffer : Nat → UInt8) (s : System.State) (hsize : 1 ≤ cfg.size)
    (hb : blocking cfg (System.start flags buffer).rtt = true) (hr : System.Reachable cfg .rzcobs (System.start flags buffer) s)
    (env : Env) (opts : Options) (table : FullTable) (env' : Env) (opts' : Options) (hld : Run.Loaded env opts b table env' opts')
    (strings : Table) (hstr : StringsOf o strings) (format : Option (List Char)) (hfm : Stamp items inputs format)
    (executed : List Executed) (hx : ∀ x ∈ executed, x.Ok env' opts' inputs o strings format)
    (hl : executed.map (fun x => (x.event format).bytes) = (System.payloads s).map some)
    (hj : opts.json = false) (hlf : opts.logFormat = none)
    (hhf : opts.hostLogFormat = none) (hterm : opts.term.Ok) (hoff : opts.term.colorize = false) (hmax : 5 ≤ opts.term.maxWidth)
    (hloc : ∀ i loc, opts'.locations i = some loc →
      loc.line < 2 ^ 32 ∧ LogFormat.FewHidden opts'.term.maxWidth (opts'.relative loc.file) ∧ LogFormat.FewHidden opts'.term.maxWidth loc.module)
    (source : Run.Source) (watch : Bool) (now : Nat → Int) (chunks : List (List UInt8)) (hch : chunks.flatten = s.rtt.received) :
    Run.Reading (Run.runEvents env opts source watch now (some b) (chunks.map .data)) ∧
    ∃ k, textOf .stdout (Run.runEvents env opts source watch now (some b) (chunks.map .data)).output =
        (executed.take k).flatMap (Executed.shown format) ∧
      textOf .stderr (Run.runEvents env opts source watch now (some b) (chunks.map .data)).output = [] ∧
      (s.rtt.received = s.logger.wire → executed.take k = executed) := by
  have hp := hld.table
  have hst : ∀ st ∈ executed.map (Executed.statement format), st.Ok env' opts' table.decoding := by
    intro st hst
    obtain ⟨x, hx', rfl⟩ := List.mem_map.mp hst
    exact executed_statement t ht items hok inputs hc o h b.elf hf true table hp strings hstr format hfm env' opts' x (hx x hx')
  have hlog : System.Logged table.decoding s ((executed.map (Executed.statement format)).map Statement.event) := by
    refine ⟨?_, ?_⟩
    · intro e he
      obtain ⟨st, hst', rfl⟩ := List.mem_map.mp he
      exact (hst st hst').event
    · rw [← hl, List.map_map, List.map_map]; rfl
  obtain ⟨locs, indices, ho, -⟩ := hld.opts
  obtain ⟨k, ws, rest, h1, h2, h3, h4⟩ := C80_system cfg flags buffer s hsize hb hr env' opts' (by rw [ho]; exact hj)
    (by rw [ho]; exact hlf) (by rw [ho]; exact hhf) (by rw [ho]; exact hterm) (by rw [ho]; exact hoff) (by rw [ho]; exact hmax) hloc
    table.decoding _ hst hlog now chunks hch
  have hsome := stamp_isSome t items hok inputs hc o h b.elf hf true table hp format hfm
  obtain ⟨hrd, hout⟩ := shown_run t items hok hdefmt inputs hc o h b hf env opts table env' opts' hld source watch now chunks h1
  rw [hout]
  refine ⟨hrd, k, ?_, h3, ?_⟩
  · rw [h2, hsome, ← List.map_take, List.flatMap_map]
    have : ∀ l : List Executed, (∀ x ∈ l, Logs x.site.kind) →
        l.flatMap (fun x => Statement.shown format.isSome (x.statement format)) = l.flatMap (Executed.shown format) := by
      intro l
      induction l with
      | nil => intro _; rfl
      | cons x l ih =>
        intro hl
        rw [List.flatMap_cons, List.flatMap_cons, statement_shown format x (hl x (by simp)), ih (fun y hy => hl y (by simp [hy]))]
    exact this _ (fun x hx' => (hx x (List.mem_of_mem_take hx')).logs)
  · intro hall
    have := congrArg List.length (h4 hall)
    rw [List.length_take, List.length_map] at this
    rw [List.take_of_length_le (by omega)]

end Defmt

namespace Defmt

open Symbol Elf Bitflags Decoder Linker Whole HostLog _root_.Defmt.Encoder
open Parser hiding parse Written
open Rtt (blocking)

/-! ### An example -/

/-- `info!("hi")` -/
def hiSite : Interned := ⟨.log .info, c!"p", c!"c", 1, c!"hi"⟩

def hiItems : List Linker.Item := [.defmt false, .interned hiSite]

def hiInputs : List Input := separate ⟨8, 4⟩ hiItems true

def hiOut : Out := section_ hiInputs

theorem hi_links : link hiInputs = .ok hiOut := C95_partial ⟨8, 4⟩ _ _ (separate_compiled _ _ _) (by decide +kernel) (by decide +kernel)

def hiBinary : Run.Binary := ⟨⟨hiOut.allSymbols, some (some hiOut.bytes)⟩, []⟩

theorem hi_file : IsFileOf hiOut hiBinary.elf := ⟨rfl, [], by rw [List.append_nil]; exact .refl _, by simp⟩

def hiExecuted : Executed := ⟨⟨hiSite, 1, [], []⟩, [], c!"hi", c!"hi", []⟩

theorem hi_item_ok : ∀ it ∈ hiItems, it.Ok := by
  intro it hit
  simp only [hiItems, List.mem_cons, List.not_mem_nil, or_false] at hit
  rcases hit with rfl | rfl
  · trivial
  · exact fun h => by cases h

theorem hiExecuted_ok (env : Env) (opts : Options) (hv : opts.verbose = false) : hiExecuted.Ok env opts hiInputs hiOut ⟨none, fun _ => none⟩ none where
  logs := trivial
  used := ⟨⟨_, [_], true⟩, List.mem_map.mpr ⟨hiSite.part, by simp [hiItems, Linker.Item.parts], rfl⟩, rfl, rfl, by simp [hiExecuted]⟩
  address := ⟨hiOut.symbols[0]'(by decide +kernel), ⟨List.getElem_mem _, by decide +kernel⟩, by decide +kernel⟩
  args := ⟨[], by decide +kernel, trivial⟩
  stamp := by intro d hd; cases hd
  texts := ⟨.inr ⟨rfl, rfl⟩, rfl⟩
  fewHidden := ⟨LogFormat.fewHidden_plain _ (by decide), LogFormat.fewHidden_plain _ (by decide)⟩
  shown := .plain (LogFormat.not_likeDiff (by decide))
  place := .quiet hv

/-- the hypotheses of `C97_terminal` are met: a context has logged `hi` and the host has read all bytes but the last one -/
example : ∃ (s : System.State) (k : Nat), s.rtt.received = [0, 1, 0x7e] ∧
    textOf .stdout (Run.runEvents demoEnv (hostOptions false) .stdin false (fun k => k) (some hiBinary) ([[0, 1], [0x7e]].map .data)).output =
      ([hiExecuted].take k).flatMap (Executed.shown none) := by
  obtain ⟨s, h1, h2, _, h3⟩ := system_example
  obtain ⟨table, env', opts', hl, -⟩ := C97_loaded ⟨8, 4⟩ hiItems hi_item_ok (by simp [hiItems]) hiInputs (separate_compiled _ _ _) hiOut hi_links hiBinary hi_file
    (fun _ => ⟨_, rfl⟩) demoEnv (hostOptions false)
  obtain ⟨-, k, hk, -⟩ := C97_terminal ⟨8, 4⟩ ⟨by decide, by decide⟩ hiItems hi_item_ok (by simp [hiItems]) hiInputs (separate_compiled _ _ _) hiOut hi_links hiBinary hi_file
    ⟨8, false⟩ 2 (fun _ => 0) s (by decide) rfl h1 demoEnv (hostOptions false) table env' opts' hl ⟨none, fun _ => none⟩ (by intro a e h; cases h) none
    (by intro a b c d h; simp [hiItems] at h) [hiExecuted] (by intro x hx; rw [List.mem_singleton.mp hx]; exact hiExecuted_ok env' opts' (by obtain ⟨locs, l, rfl, -⟩ := hl.opts; rfl))
    (by unfold System.payloads; rw [h2]; rfl) rfl rfl rfl (demoTerm_ok false) rfl (by decide)
    (by
      intro i loc h
      obtain ⟨locs, l, rfl, -, symbols, -, h2⟩ := hl.opts
      have : locs = fun _ => none := by have h2 : Except.ok (fun _ => none) = _ := h2; cases h2; rfl
      subst this
      cases h) .stdin false (fun k => k) [[0, 1], [0x7e]] h3.symm
  exact ⟨s, k, h3, hk⟩

/-- what the user of the example sees -/
def runOutput (watch : Bool) (es : List Run.Event) : List Char :=
  textOf .stdout (Run.runEvents demoEnv (hostOptions false) .stdin watch (fun k => k) (some hiBinary) es).output

set_option maxRecDepth 100000 in
/-- the whole way: the program of the example, its file and its bytes -/
example : textOf .stdout (Run.runEvents demoEnv (hostOptions false) .stdin false (fun k => k) (some hiBinary) ([[0, 1], [0x7e, 0]].map .data)).output =
    c!"INFO  hi\n" := by decide +kernel

set_option maxRecDepth 100000 in
/-- a change of the file in the middle of a frame (C98_lost), seen by a program that watches the file -/
example : (runOutput true [.data [0, 1, 0x7e, 0, 0, 1], .file (some hiBinary) true, .data [0x7e, 0, 0, 1, 0x7e, 0]]) = c!"INFO  hi\nINFO  hi\n" := by
  decide +kernel

set_option maxRecDepth 100000 in
/-- when nobody watches the file, nothing is lost -/
example : (runOutput false [.data [0, 1, 0x7e, 0, 0, 1], .file (some hiBinary) true, .data [0x7e, 0, 0, 1, 0x7e, 0]]) =
    c!"INFO  hi\nINFO  hi\nINFO  hi\n" := by decide +kernel

set_option maxRecDepth 100000 in
/-- a file that is removed, seen by a program that watches it (C99_failed) -/
example : match (Run.runEvents demoEnv (hostOptions false) .tcp true (fun k => k) (some hiBinary) [.file none true, .data [0, 1, 0x7e, 0]]).status with
    | .failed .file => True
    | _ => False := by trivial

end Defmt
