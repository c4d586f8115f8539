import Verif.Lemmas.HostLog
import Verif.Props.System
import Verif.Props.LogParser
import Verif.Props.Display
/-!
# C77 to C80: from frames to what the user sees
-/

namespace Defmt
open HostLog LogFormat Json _root_.Defmt.Encoder
open Parser hiding parse Written
open Rtt (blocking)

/-! ### C77 -/

/-- **C77** What `log_defmt` passes through the `log` crate arrives: whatever characters the texts have, the logger gets back exactly the
level, the timestamp, the message and the location of the frame. -/
theorem C77_kept (env : Env) (f : Frame) (ts m : List Char) (h : Texts env f ts m) (file : Option (List Char)) (line : Option Nat)
    (modulePath : Option (List Char)) :
    ∃ r, logDefmt env f file line modulePath = some r ∧ isDefmtFrame r.target = true ∧
      defmtRecord r = some (some ⟨.defmt, f.level, ts, m, file, line, modulePath⟩) :=
  ⟨_, logDefmt_texts h file line modulePath, isDefmtFrame_marker _, defmtRecord_texts _ _ _ _ _ _⟩

/-- **C77** The only panic of `log_defmt` is that of a timestamp or of a message that cannot be displayed (C33). -/
theorem C77_panics (env : Env) (f : Frame) (file : Option (List Char)) (line : Option Nat) (modulePath : Option (List Char)) :
    logDefmt env f file line modulePath = none ↔ ¬ ∃ ts m, Texts env f ts m := by
  constructor
  · rintro h ⟨ts, m, ht⟩
    rw [logDefmt_texts ht] at h
    cases h
  · intro h
    unfold logDefmt timestampAndLevel
    cases hm : f.message env with
    | none => split <;> first | rfl | simp_all
    | some m =>
      cases ht : f.timestamp env with
      | none => exact absurd ⟨[], m, .inr ⟨ht, rfl⟩, hm⟩ h
      | some o =>
        cases o with
        | none => rfl
        | some ts => exact absurd ⟨ts, m, .inl ht, hm⟩ h

/-- **C77** Without `--json`, a frame with a level is printed to stdout as one text of the formatter, whose record has the texts and the
location of the frame. -/
theorem C77_frame (env : Env) (o : Options) (hj : o.json = false) (fmt : Formatters) (now : Int) (f : Frame) (ts m : List Char)
    (h : Texts env f ts m) (l : Level) (hl : f.level = some l) :
    ∃ r, RecordOf o f ts m r ∧
      forwardToLogger env o fmt now f = (formatRecord fmt.term fmt.formatter r).map (fun s => [(.stdout, s ++ c!"\n")]) := by
  refine ⟨recordOf o f ts m, recordOf_ok o f ts m, ?_⟩
  rw [forward_text h hj, printDefmtRecord, if_pos]
  simp [recordOf, hl]

/-- **C77** Without `--json`, a frame of `println!` is printed to stdout as it is, with any formatter. -/
theorem C77_println (env : Env) (o : Options) (hj : o.json = false) (fmt : Formatters) (now : Int) (f : Frame) (ts m : List Char)
    (h : Texts env f ts m) (hl : f.level = none) : forwardToLogger env o fmt now f = some [(.stdout, m ++ c!"\n")] := by
  rw [forward_text h hj, printDefmtRecord, if_neg]
  · rfl
  · simp [recordOf, hl]

/-- **C77** A frame whose texts do not exist ends `defmt-print` (with a panic), in both kinds of output; with `--json` no other frame does. -/
theorem C77_no_text (env : Env) (o : Options) (fmt : Formatters) (now : Int) (f : Frame) :
    ((¬ ∃ ts m, Texts env f ts m) → forwardToLogger env o fmt now f = none) ∧
    (o.json = true → (forwardToLogger env o fmt now f = none ↔ ¬ ∃ ts m, Texts env f ts m)) := by
  have h1 : (¬ ∃ ts m, Texts env f ts m) → forwardToLogger env o fmt now f = none := by
    intro h
    unfold forwardToLogger
    rw [(C77_panics env f _ _ _).mpr h]
  refine ⟨h1, fun hj => ⟨fun h ⟨ts, m, ht⟩ => ?_, h1⟩⟩
  rw [forward_json ht hj] at h
  cases h

/-- **C77** A log record of the host is hidden unless `--verbose` is given; then it is printed to stderr, never to stdout, with and
without `--json`. -/
theorem C77_host (o : Options) (fmt : Formatters) (now : Int) (r : LogRecord) (h : ¬ c!"defmt@" <+: r.target) :
    (o.verbose = false → log o fmt now r = some []) ∧
    (o.verbose = true → log o fmt now r =
      (formatRecord fmt.term fmt.hostFormatter ⟨.host, some r.level, [], r.args, r.file, r.line, r.modulePath⟩).map
        (fun s => [(.stderr, s ++ c!"\n")])) := by
  have h1 : isDefmtFrame r.target = false := by
    unfold isDefmtFrame
    cases hp : marker.isPrefixOf r.target with
    | false => rfl
    | true => exact absurd (List.isPrefixOf_iff_prefix.mp hp) h
  have h2 : defmtRecord r = some none := by
    unfold defmtRecord
    cases hs : stripPrefix marker r.target with
    | none => rfl
    | some rest =>
      refine absurd ?_ h
      rw [stripPrefix_eq hs]
      exact List.prefix_append _ _
  constructor
  · intro hv
    have : shouldLog o r.target = false := by unfold shouldLog; rw [hv]; exact h1
    unfold log jsonLog stdoutLog
    simp [this]
  · intro hv
    have : shouldLog o r.target = true := by unfold shouldLog; rw [hv]
    unfold log jsonLog stdoutLog
    simp only [this, h2]
    cases o.json <;> rfl

/-! ### C79 -/

/-- **C79** fails: a log record of the host (from any crate of the process) whose target starts with `defmt@` makes the
logger panic, with all options. -/
theorem C79_fails : ∃ r : LogRecord, r.target = c!"defmt@rtt" ∧ ∀ o fmt now, log o fmt now r = none := by
  refine ⟨⟨c!"defmt@rtt", .info, c!"attached", none, none, none⟩, rfl, ?_⟩
  intro o fmt now
  have h1 : shouldLog o c!"defmt@rtt" = true := shouldLog_marker o c!"rtt"
  have h2 : defmtRecord ⟨c!"defmt@rtt", .info, c!"attached", none, none, none⟩ = none := by
    unfold defmtRecord
    have : read c!"rtt" = none := by decide +kernel
    have hs : stripPrefix marker c!"defmt@rtt" = some c!"rtt" := rfl
    simp only [hs, this]
    rfl
  unfold log jsonLog stdoutLog
  simp only [h1, h2]
  cases o.json <;> rfl

/-- **C79** (part: for the other targets) No log record of the host makes the logger panic unless the formatter does. -/
theorem C79_no_panic_partial (o : Options) (fmt : Formatters) (now : Int) (r : LogRecord) (h : ¬ c!"defmt@" <+: r.target)
    (hf : formatRecord fmt.term fmt.hostFormatter ⟨.host, some r.level, [], r.args, r.file, r.line, r.modulePath⟩ ≠ none) :
    log o fmt now r ≠ none := by
  obtain ⟨h1, h2⟩ := C77_host o fmt now r h
  cases hv : o.verbose with
  | false => rw [h1 hv]; simp
  | true =>
    rw [h2 hv]
    simpa using hf

/-! ### C78 -/

theorem reported (o : Options) (f : Frame) (now : Int) (ts m : List Char) :
    Reported o f now ts m (createJsonFrame (recordOf o f ts m) (hostTimestamp now)) where
  data := rfl
  level := rfl
  targetTimestamp := rfl
  hostTimestamp := fun h1 h2 => hostTimestamp_eq h1 h2
  late := fun h => hostTimestamp_late h
  file := fun loc h => by simp only [createJsonFrame, recordOf, locationInfo_located h]
  line := fun loc h hl => by simp only [createJsonFrame, recordOf, locationInfo_located h, Nat.mod_eq_of_lt hl]
  modulePath := fun loc h crateName modules function he hn => by
    simp only [createJsonFrame, recordOf, locationInfo_located h, he, C55_recovers hn, Option.map_some]
  notLocated := fun h => by simp only [createJsonFrame, recordOf, locationInfo_not h]; rfl

/-- **C78** With `--json`, a frame is printed to stdout as one line of JSON, whatever characters its texts have, from which a program that
uses the schema gets back everything. -/
theorem C78_line (env : Env) (o : Options) (hj : o.json = true) (fmt : Formatters) (now : Int) (f : Frame) (ts m : List Char)
    (h : Texts env f ts m) :
    ∃ ws line j, forwardToLogger env o fmt now f = some ws ∧ textOf .stdout ws = line ++ c!"\n" ∧ textOf .stderr ws = [] ∧
      '\n' ∉ line ∧ readFrame line = some j ∧ Reported o f now ts m j := by
  have hr := hostTimestamp_range now
  exact ⟨_, _, _, forward_json h hj, by simp [textOf], by simp [textOf], write_no_newline _ (JsonFrame.good _),
    readFrame_write _ (fun n hn => locationInfo_line o f n hn) hr.1 hr.2, reported o f now ts m⟩

/-- lines of JSON and notes -/
theorem json_lines (env : Env) (o : Options) (hj : o.json = true)
    (fmt : Formatters) (units : List (Printer.Line Frame)) (h : ∀ f, .frame f ∈ units → ∃ ts m, Texts env f ts m)
    (now : Nat → Int) :
    ∃ ws lines, printLines env o fmt now units = some ws ∧ textOf .stdout ws = textLines lines ∧ textOf .stderr ws = [] ∧
      JsonLines env o (noteLines o) now units lines := by
  induction units generalizing now with
  | nil => exact ⟨[], [], rfl, rfl, rfl, .nil⟩
  | cons u units ih =>
    obtain ⟨ws, lines, h1, h2, h3, h4⟩ := ih (fun f hf => h f (by simp [hf])) (fun k => now (k + 1))
    cases u with
    | skipped =>
      refine ⟨skippedNote o ++ ws, noteLines o ++ lines, by simp only [printLines, h1, Option.map_some], ?_, ?_, .skipped h4⟩
      · rw [textOf_append, h2]
        unfold skippedNote noteLines
        cases o.showSkipped <;> cases o.verbose <;> simp [textOf, textLines]
      · rw [textOf_append, h3]
        unfold skippedNote
        cases o.showSkipped <;> cases o.verbose <;> simp [textOf]
    | frame f =>
      obtain ⟨ts, m, ht⟩ := h f (by simp)
      obtain ⟨w, line, j, e1, e2, e3, e4, e5, e6⟩ := C78_line env o hj fmt (now 0) f ts m ht
      refine ⟨w ++ ws, line :: lines, ?_, ?_, ?_, .frame ht e4 e5 e6 h4⟩
      · simp [printLines, e1, h1]
      · rw [textOf_append, e2, h2]; simp [textLines]
      · rw [textOf_append, e3, h3]; rfl

/-- the line with the version of the schema -/
def versionLine : List Char := c!"{\"schema_version\":1}"

theorem init_json (o : Options) (hj : o.json = true) :
    textOf .stdout (initLogger o) = textLines [versionLine] ∧ textOf .stderr (initLogger o) = [] := by
  simp only [initLogger, hj, if_true]
  exact ⟨by decide +kernel, by decide +kernel⟩

/-- **C78** (exact, for all options) With `--json`, stdout is the line with the version of the schema, then in order one line of JSON for
every frame, and the two lines of text for every frame that was skipped if the user asked for them. Nothing else is written. -/
theorem C78_stream_exact (env : Env) (o : Options) (hj : o.json = true)
    (fmt : Formatters) (units : List (Printer.Line Frame)) (h : ∀ f, .frame f ∈ units → ∃ ts m, Texts env f ts m)
    (now : Nat → Int) :
    ∃ ws lines, printLines env o fmt now units = some ws ∧
      textOf .stdout (initLogger o ++ ws) = textLines (c!"{\"schema_version\":1}" :: lines) ∧
      textOf .stderr (initLogger o ++ ws) = [] ∧
      readVersion c!"{\"schema_version\":1}" = some 1 ∧ JsonLines env o (noteLines o) now units lines := by
  obtain ⟨ws, lines, h1, h2, h3, h4⟩ := json_lines env o hj fmt units h now
  obtain ⟨e1, e2⟩ := init_json o hj
  refine ⟨ws, lines, h1, ?_, ?_, by decide +kernel, h4⟩
  · rw [textOf_append, e1, h2]; simp [textLines, versionLine]
  · rw [textOf_append, e2, h3]; rfl

/-- **C78** (part: without the notes about skipped frames) With `--json`, stdout is a sequence of lines of JSON: the version of the schema,
then one line for every frame, in order. -/
theorem C78_stream_partial (env : Env) (o : Options) (hj : o.json = true) (hs : o.showSkipped = false) (hv : o.verbose = false)
    (fmt : Formatters) (units : List (Printer.Line Frame)) (h : ∀ f, .frame f ∈ units → ∃ ts m, Texts env f ts m)
    (now : Nat → Int) :
    ∃ ws lines, printLines env o fmt now units = some ws ∧
      textOf .stdout (initLogger o ++ ws) = textLines (c!"{\"schema_version\":1}" :: lines) ∧
      textOf .stderr (initLogger o ++ ws) = [] ∧
      readVersion c!"{\"schema_version\":1}" = some 1 ∧ JsonLines env o [] now units lines := by
  have := C78_stream_exact env o hj fmt units h now
  rwa [show noteLines o = [] by simp [noteLines, hs, hv]] at this

/-- **C78** A reader of the output learns every version of the schema that fits in 32 bits. -/
theorem C78_version (n : Nat) :
    readVersion (c!"{\"schema_version\":" ++ Display.digits 10 n ++ c!"}") = if n < 2 ^ 32 then some (n : Int) else none := by
  have hw : write (.obj [(c!"schema_version", .num n)]) = c!"{\"schema_version\":" ++ Display.digits 10 n ++ c!"}" := by
    simp only [write, writeMembers, writeMoreMembers, List.append_nil]
    rw [show writeString c!"schema_version" = c!"\"schema_version\"" from by decide +kernel]
    simp [writeNumber]
  have hg : Json.Good (.obj [(c!"schema_version", .num n)]) := by simp [Json.Good, Json.Good.members]
  have hr : ∀ get : Json → Option Int, required [(c!"schema_version", Json.num n)] c!"schema_version" get = get (.num n) := by
    intro get
    simp [required, field]
  rw [← hw, readVersion, read_write _ hg]
  simp only [hr, getInteger]
  by_cases h : n < 2 ^ 32
  · rw [if_pos h, if_pos (by omega)]
  · rw [if_neg h, if_neg (by omega)]

/-- **C78** fails: with `--json` and `--show-skipped-frames` (or `--verbose`), the note about a skipped frame is in the output, and it is not
JSON. -/
theorem C78_fails_skipped (env : Env) (o : Options) (hj : o.json = true) (hs : o.showSkipped = true ∨ o.verbose = true)
    (fmt : Formatters) (now : Nat → Int) :
    ∃ ws, printLines env o fmt now [.skipped] = some ws ∧
      textOf .stdout (initLogger o ++ ws) =
        textLines [c!"{\"schema_version\":1}", c!"(HOST) malformed frame skipped", c!"└─ " ++ o.place] ∧
      read c!"(HOST) malformed frame skipped" = none ∧ ∀ place, read (c!"└─ " ++ place) = none := by
  have hb : (o.showSkipped || o.verbose) = true := by rcases hs with h | h <;> simp [h]
  refine ⟨skippedNote o, by simp [printLines], ?_, by decide +kernel, ?_⟩
  · rw [textOf_append, (init_json o hj).1]
    simp only [skippedNote, hb, if_true]
    simp [textLines, textOf, versionLine]
  · intro place
    simp only [Json.read, readValue]
    rfl

/-! ### C80 -/

/-- the text for a list of units -/
theorem plain_text (env : Env) (o : Options) (hj : o.json = false) (fmt : Formatters) (hterm : fmt.term = o.term)
    (units : List (Printer.Line Frame)) (text : List Char) (h : HostLog.PlainText env o fmt.formatter (noteText o) units text)
    (hdet : ∀ f loc, .frame f ∈ units → Located o f loc → loc.line < 2 ^ 32)
    (now : Nat → Int) :
    ∃ ws, printLines env o fmt now units = some ws ∧ textOf .stdout ws = text ∧ textOf .stderr ws = [] := by
  induction h generalizing now with
  | nil => exact ⟨[], rfl, rfl, rfl⟩
  | @frame f ts m r l s rest text ht hl hr hf _ ih =>
    obtain ⟨ws, h1, h2, h3⟩ := ih (fun f loc hf => hdet f loc (by simp [hf])) (fun k => now (k + 1))
    obtain ⟨r', hr', hw⟩ := C77_frame env o hj fmt (now 0) f ts m ht l hl
    have hrr : r' = r := by
      have e1 : r'.file = r.file ∧ r'.line = r.line ∧ r'.modulePath = r.modulePath := by
        by_cases hloc : NotLocated o f
        · obtain ⟨a1, a2, a3⟩ := hr.notLocated hloc
          obtain ⟨b1, b2, b3⟩ := hr'.notLocated hloc
          simp [a1, a2, a3, b1, b2, b3]
        · simp only [NotLocated, Classical.not_forall, Classical.not_not] at hloc
          obtain ⟨loc, hloc⟩ := hloc
          obtain ⟨a1, a2, a3⟩ := hr.located loc hloc
          obtain ⟨b1, b2, b3⟩ := hr'.located loc hloc
          have := hdet f loc (by simp) hloc
          simp [a1, a2 this, a3, b1, b2 this, b3]
      obtain ⟨e1, e2, e3⟩ := e1
      cases r; cases r'
      have := hr.source; have := hr'.source; have := hr.level; have := hr'.level
      have := hr.timestamp; have := hr'.timestamp; have := hr.args; have := hr'.args
      simp_all
    rw [hrr, hterm, hf] at hw
    refine ⟨[(.stdout, s ++ c!"\n")] ++ ws, by simp only [printLines, hw, h1, Option.map_some], ?_, ?_⟩
    · rw [textOf_append, h2]; simp [textOf]
    · rw [textOf_append, h3]; simp [textOf]
  | @print f ts m rest text ht hl _ ih =>
    obtain ⟨ws, h1, h2, h3⟩ := ih (fun f loc hf => hdet f loc (by simp [hf])) (fun k => now (k + 1))
    have hw := C77_println env o hj fmt (now 0) f ts m ht hl
    refine ⟨[(.stdout, m ++ c!"\n")] ++ ws, by simp only [printLines, hw, h1], ?_, ?_⟩
    · rw [textOf_append, h2]; simp [textOf]
    · rw [textOf_append, h3]; simp [textOf]
  | @skipped rest text _ ih =>
    obtain ⟨ws, h1, h2, h3⟩ := ih (fun f loc hf => hdet f loc (by simp [hf])) (fun k => now (k + 1))
    refine ⟨skippedNote o ++ ws, by simp only [printLines, h1, Option.map_some], ?_, ?_⟩
    · rw [textOf_append, h2]
      congr 1
      unfold skippedNote noteText
      cases o.showSkipped <;> cases o.verbose <;> simp [textOf, textLines]
    · rw [textOf_append, h3]
      unfold skippedNote
      cases o.showSkipped <;> cases o.verbose <;> simp [textOf]

/-- **C80** What `defmt-print` prints to stdout for the frames it has decoded, without `--json`: for each, in order, the text of its formatter,
with the texts and the location of the frame; nothing goes to stderr. -/
theorem C80_text (env : Env) (o : Options) (hj : o.json = false) (td : List UInt8 → Except DecodeError (Frame × Nat)) (hasTimestamp : Bool)
    (enc : Encoding) (now : Nat → Int) (chunks : List (List UInt8)) (formatter hostFormatter : List Segment)
    (hf : newFormatters o hasTimestamp = some ⟨o.term, formatter, hostFormatter⟩)
    (units : List (Printer.Line Frame)) (next : Printer.Next) (hu : Printer.defmtPrint td enc chunks = some (units, next))
    (hline : ∀ f loc, .frame f ∈ units → Located o f loc → loc.line < 2 ^ 32)
    (text : List Char) (h : HostLog.PlainText env o formatter (noteText o) units text) :
    ∃ ws, HostLog.defmtPrint env o td hasTimestamp enc now chunks = some (ws, next) ∧ textOf .stdout ws = text ∧ textOf .stderr ws = [] := by
  obtain ⟨ws, h1, h2, h3⟩ := plain_text env o hj ⟨o.term, formatter, hostFormatter⟩ rfl units text h hline now
  refine ⟨ws, ?_, h2, h3⟩
  simp only [HostLog.defmtPrint, hf, hu, h1, Option.map_some, initLogger, hj]
  rfl

/-- the default formatters -/
theorem default_formatters {o : Options} (ht : o.term.Ok) (hlf : o.logFormat = none) (hhf : o.hostLogFormat = none)
    (hasTimestamp : Bool) :
    newFormatters o hasTimestamp =
      some ⟨o.term, defaultSegments o.verbose hasTimestamp, hostSegments .host ++ defaultSegments o.verbose false⟩ := by
  have e : formatOption none o.verbose = .default o.verbose := by unfold formatOption; cases o.verbose <;> rfl
  simp only [newFormatters, hlf, hhf, e, C58_default ht]
  rfl

/-- the location of the record of a statement -/
theorem place_text {env : Env} {o : Options} {t : Table} {s : Statement} (hs : s.Ok env o t) {M : Nat}
    (hesc : ∀ loc, Located o s.event.frame loc → loc.line < 2 ^ 32 ∧ FewHidden M (o.relative loc.file) ∧ FewHidden M loc.module) :
    (if o.verbose then locationText (recordOf o s.event.frame s.timestamp s.message) else []) = s.place ∧
    FewHidden M ((recordOf o s.event.frame s.timestamp s.message).file.getD []) ∧
    FewHidden M ((recordOf o s.event.frame s.timestamp s.message).modulePath.getD []) := by
  have hr := recordOf_ok o s.event.frame s.timestamp s.message
  have hnil : FewHidden M [] := fewHidden_plain _ (by simp)
  refine ⟨?_, ?_, ?_⟩
  · have hp := hs.place
    unfold locationText
    cases hplace : s.place with
    | nil =>
      rw [hplace] at hp
      cases hp with
      | quiet hv => rw [hv]; rfl
    | cons c cs =>
      rw [hplace] at hp
      generalize c :: cs = p at hp
      cases hp with
      | quiet hv => rw [hv]; rfl
      | located hv hloc =>
        have hl := hr.located _ hloc
        rw [hv, hl.1, hl.2.1 (hesc _ hloc).1, hl.2.2]
        rfl
      | notLocated hv hloc =>
        have hl := hr.notLocated hloc
        rw [hv, hl.1, hl.2.1, hl.2.2]
        decide +kernel
  · by_cases hloc : NotLocated o s.event.frame
    · rw [(hr.notLocated hloc).1]; exact hnil
    · simp only [NotLocated, Classical.not_forall, Classical.not_not] at hloc
      obtain ⟨loc, hloc⟩ := hloc
      rw [(hr.located loc hloc).1]
      exact (hesc loc hloc).2.1
  · by_cases hloc : NotLocated o s.event.frame
    · rw [(hr.notLocated hloc).2.2]; exact hnil
    · simp only [NotLocated, Classical.not_forall, Classical.not_not] at hloc
      obtain ⟨loc, hloc⟩ := hloc
      rw [(hr.located loc hloc).2.2]
      exact (hesc loc hloc).2.2

/-- the line of a statement in the default format -/
theorem plain_statement {env : Env} {o : Options} (ht : o.term.Ok) (hoff : o.term.colorize = false) (hmax : 5 ≤ o.term.maxWidth)
    {t : Table} {s : Statement} (hs : s.Ok env o t) {hasTimestamp : Bool} {note : List Char}
    (hesc : ∀ loc, Located o s.event.frame loc → loc.line < 2 ^ 32 ∧ FewHidden o.term.maxWidth (o.relative loc.file) ∧ FewHidden o.term.maxWidth loc.module)
    {rest : List (Printer.Line Frame)} {text : List Char}
    (h : HostLog.PlainText env o (defaultSegments o.verbose hasTimestamp) note rest text) :
    HostLog.PlainText env o (defaultSegments o.verbose hasTimestamp) note (.frame s.event.frame :: rest) (s.shown hasTimestamp ++ text) := by
  unfold Statement.shown
  cases hl : s.event.tag.toLevel with
  | none => exact .print hs.texts hl h
  | some l =>
    have hr := recordOf_ok o s.event.frame s.timestamp s.message
    obtain ⟨hplace, hfile, hmod⟩ := place_text hs hesc
    have hd := C65_default ht hoff hmax o.verbose hasTimestamp .defmt (r := recordOf o s.event.frame s.timestamp s.message) (l := l) hl
      (message := s.shownMessage) ⟨hs.shown, hs.fewHidden.2⟩ hs.fewHidden.1 hfile hmod
    rw [C58_default ht, hplace] at hd
    have := HostLog.PlainText.frame hs.texts hl hr hd h
    refine cast ?_ this
    congr 1
    simp only [hostText, timestampText, recordOf, true_and, ite_not]
    cases hasTimestamp <;> simp

/-- **C80** The default format on a terminal without colours: whatever the chunks in which the bytes of a program's log statements
arrive, the user sees, statement after statement, the timestamp, the level and the message (and with `-v` the location). -/
theorem C80_default (env : Env) (o : Options) (hj : o.json = false) (hlf : o.logFormat = none)
    (hhf : o.hostLogFormat = none) (ht : o.term.Ok) (hoff : o.term.colorize = false) (hmax : 5 ≤ o.term.maxWidth)
    (hloc : ∀ i loc, o.locations i = some loc → loc.line < 2 ^ 32 ∧ FewHidden o.term.maxWidth (o.relative loc.file) ∧ FewHidden o.term.maxWidth loc.module)
    (t : Table) (statements : List Statement) (hs : ∀ s ∈ statements, s.Ok env o t) (enc : Encoding) (now : Nat → Int)
    (chunks : List (List UInt8)) (next : Printer.Next)
    (hu : Printer.defmtPrint t.td enc chunks = some (statements.map (fun s => .frame s.event.frame), next)) :
    ∃ ws, HostLog.defmtPrint env o t.td t.timestamp.isSome enc now chunks = some (ws, next) ∧
      textOf .stdout ws = statements.flatMap (Statement.shown t.timestamp.isSome) ∧ textOf .stderr ws = [] := by
  refine C80_text env o hj t.td t.timestamp.isSome enc now chunks _ _ (default_formatters ht hlf hhf _) _ next hu ?_ _ ?_
  · intro f loc _ h
    exact (hloc _ _ h.2).1
  · clear hu
    induction statements with
    | nil => exact .nil
    | cons s ss ih =>
      rw [List.map_cons, List.flatMap_cons]
      exact plain_statement ht hoff hmax (hs s (by simp)) (fun loc h => hloc _ _ h.2) (ih (fun s hs' => hs s (by simp [hs'])))

/-- **C80** The whole way: whatever the contexts of the program, the RTT channel and the host do, at every moment the user sees the lines of
the first `k` log statements completed (in the order of their completion), for some `k`, and of no others. -/
theorem C80_system (cfg : Rtt.Config) (flags : Nat) (buffer : Nat → UInt8) (s : System.State)
    (hsize : 1 ≤ cfg.size) (hb : blocking cfg (System.start flags buffer).rtt = true)
    (hr : System.Reachable cfg .rzcobs (System.start flags buffer) s)
    (env : Env) (o : Options) (hj : o.json = false) (hlf : o.logFormat = none)
    (hhf : o.hostLogFormat = none) (ht : o.term.Ok) (hoff : o.term.colorize = false) (hmax : 5 ≤ o.term.maxWidth)
    (hloc : ∀ i loc, o.locations i = some loc → loc.line < 2 ^ 32 ∧ FewHidden o.term.maxWidth (o.relative loc.file) ∧ FewHidden o.term.maxWidth loc.module)
    (t : Table) (statements : List Statement) (hs : ∀ s ∈ statements, s.Ok env o t)
    (hl : System.Logged t s (statements.map Statement.event)) (now : Nat → Int)
    (chunks : List (List UInt8)) (hc : chunks.flatten = s.rtt.received) :
    ∃ k ws rest, HostLog.defmtPrint env o t.td t.timestamp.isSome .rzcobs now chunks = some (ws, .wait rest) ∧
      textOf .stdout ws = (statements.take k).flatMap (Statement.shown t.timestamp.isSome) ∧ textOf .stderr ws = [] ∧
      (s.rtt.received = s.logger.wire → statements.take k = statements) := by
  by_cases hall : s.rtt.received = s.logger.wire
  · obtain ⟨rest, hk⟩ := C75_all_printed cfg flags buffer s hr t _ hl hall chunks hc
    have hk' : Printer.defmtPrint t.td .rzcobs chunks = some (statements.map (fun s => .frame s.event.frame), .wait rest) := by
      rw [hk]; simp [System.printed]
    obtain ⟨ws, h1, h2, h3⟩ := C80_default env o hj hlf hhf ht hoff hmax hloc t statements hs .rzcobs now chunks _ hk'
    exact ⟨statements.length, ws, rest, h1, by rw [List.take_length]; exact h2, h3, fun _ => List.take_length⟩
  · obtain ⟨k, rest, hk⟩ := C75_printed cfg flags buffer s hsize hb hr t _ hl chunks hc
    have hk' : Printer.defmtPrint t.td .rzcobs chunks = some ((statements.take k).map (fun s => .frame s.event.frame), .wait rest) := by
      rw [hk, ← List.map_take, System.printed, List.map_map]; rfl
    obtain ⟨ws, h1, h2, h3⟩ := C80_default env o hj hlf hhf ht hoff hmax hloc t (statements.take k)
      (fun s h => hs s (List.mem_of_mem_take h)) .rzcobs now chunks _ hk'
    exact ⟨k, ws, rest, h1, h2, h3, fun h => absurd h hall⟩

/-- **C80** The same for `--json`: at every moment, stdout is the line with the version of the schema and a line of JSON for each of the first
`k` log statements completed. -/
theorem C80_system_json (cfg : Rtt.Config) (flags : Nat) (buffer : Nat → UInt8) (s : System.State)
    (hsize : 1 ≤ cfg.size) (hb : blocking cfg (System.start flags buffer).rtt = true)
    (hr : System.Reachable cfg .rzcobs (System.start flags buffer) s)
    (env : Env) (o : Options) (hj : o.json = true) (hv : o.verbose = false) (hsk : o.showSkipped = false)
    (t : Table) (hf : newFormatters o t.timestamp.isSome ≠ none) (events : List LogEvent)
    (htexts : ∀ e ∈ events, ∃ ts m, Texts env (LogEvent.frame e) ts m) (hl : System.Logged t s events) (now : Nat → Int)
    (chunks : List (List UInt8)) (hc : chunks.flatten = s.rtt.received) :
    ∃ k ws rest lines, HostLog.defmtPrint env o t.td t.timestamp.isSome .rzcobs now chunks = some (ws, .wait rest) ∧
      textOf .stdout ws = textLines (c!"{\"schema_version\":1}" :: lines) ∧ textOf .stderr ws = [] ∧
      JsonLines env o [] now (System.printed (events.take k)) lines ∧
      (s.rtt.received = s.logger.wire → events.take k = events) := by
  have key : ∀ k rest, Printer.defmtPrint t.td .rzcobs chunks = some (System.printed (events.take k), .wait rest) →
      ∃ ws lines, HostLog.defmtPrint env o t.td t.timestamp.isSome .rzcobs now chunks = some (ws, .wait rest) ∧
        textOf .stdout ws = textLines (c!"{\"schema_version\":1}" :: lines) ∧ textOf .stderr ws = [] ∧
        JsonLines env o [] now (System.printed (events.take k)) lines := by
    intro k rest hk
    cases hfm : newFormatters o t.timestamp.isSome with
    | none => exact absurd hfm hf
    | some fmt =>
      obtain ⟨ws, lines, h1, h2, h3, _, h4⟩ := C78_stream_partial env o hj hsk hv fmt (System.printed (events.take k)) (by
        intro f hfm
        simp only [System.printed, List.mem_map, Printer.Line.frame.injEq] at hfm
        obtain ⟨e, he, rfl⟩ := hfm
        exact htexts e (List.mem_of_mem_take he)) now
      refine ⟨_, lines, ?_, h2, h3, h4⟩
      simp only [HostLog.defmtPrint, hfm, hk, h1, Option.map_some]
  by_cases hall : s.rtt.received = s.logger.wire
  · obtain ⟨rest, hk⟩ := C75_all_printed cfg flags buffer s hr t _ hl hall chunks hc
    obtain ⟨ws, lines, h⟩ := key events.length rest (by rw [hk, List.take_length])
    exact ⟨_, ws, rest, lines, h.1, h.2.1, h.2.2.1, h.2.2.2, fun _ => List.take_length⟩
  · obtain ⟨k, rest, hk⟩ := C75_printed cfg flags buffer s hsize hb hr t _ hl chunks hc
    obtain ⟨ws, lines, h⟩ := key k rest hk
    exact ⟨k, ws, rest, lines, h.1, h.2.1, h.2.2.1, h.2.2.2, fun h => absurd h hall⟩

/-! ### Concrete cases -/

def hostOptions (json : Bool) : Options where
  json := json
  verbose := false
  showSkipped := false
  logFormat := none
  hostLogFormat := none
  term := demoTerm false
  locations := fun i => if i = 1 then some ⟨c!"/home/me/app/src/main.rs", 42, c!"app::tasks::blink"⟩ else none
  indices := [1]
  relative := fun s => (stripPrefix c!"/home/me/app/" s).getD s
  place := c!"defmt-print @ print/src/main.rs:272"

def hostStatement (verbose : Bool) : Statement :=
  ⟨systemEvent, [], c!"hi", c!"hi", if verbose then c!"\n└─ app::tasks::blink @ src/main.rs:42  " else []⟩

theorem host_located (o : Options) (h1 : o.locations = (hostOptions false).locations) (h2 : o.indices = [1]) :
    Located o systemEvent.frame ⟨c!"/home/me/app/src/main.rs", 42, c!"app::tasks::blink"⟩ := by
  rw [Located, h1, h2]
  refine ⟨?_, rfl⟩
  intro i hi
  rw [List.mem_singleton] at hi
  subst hi
  exact ⟨_, rfl⟩

theorem hostStatement_ok (verbose : Bool) : (hostStatement verbose).Ok demoEnv { hostOptions false with verbose } systemTable where
  event := systemEvent_ok
  texts := ⟨.inr ⟨rfl, rfl⟩, by decide +revert +kernel⟩
  fewHidden := ⟨LogFormat.fewHidden_plain _ (by decide +revert), LogFormat.fewHidden_plain _ (by decide +revert)⟩
  shown := .plain (LogFormat.not_likeDiff (by decide +revert))
  place := by
    cases verbose with
    | false => exact .quiet rfl
    | true =>
      have := PlaceShown.located (o := { hostOptions false with verbose := true }) rfl (host_located { hostOptions false with verbose := true } rfl rfl)
      refine cast ?_ this
      congr 1

/-- the hypotheses of `C80_system` are met -/
example (verbose : Bool) : ∃ s, System.Reachable ⟨8, false⟩ .rzcobs (System.start 2 (fun _ => 0)) s ∧
    blocking ⟨8, false⟩ (System.start 2 (fun _ => 0)).rtt = true ∧
    System.Logged systemTable s ([hostStatement verbose].map Statement.event) ∧
    (∀ s ∈ [hostStatement verbose], s.Ok demoEnv { hostOptions false with verbose } systemTable) ∧ (hostOptions false).term.Ok ∧
    (∀ i loc, (hostOptions false).locations i = some loc →
      loc.line < 2 ^ 32 ∧ FewHidden 65535 ((hostOptions false).relative loc.file) ∧ FewHidden 65535 loc.module) := by
  obtain ⟨s, h1, h2, _, h3⟩ := system_example
  refine ⟨s, h1, rfl, ⟨?_, ?_⟩, ?_, demoTerm_ok false, ?_⟩
  · intro e he
    simp only [List.map_cons, List.map_nil, List.mem_singleton] at he
    subst he
    exact systemEvent_ok
  · unfold System.payloads; rw [h2]; cases verbose <;> rfl
  · intro s hs
    simp only [List.mem_singleton] at hs
    subst hs
    exact hostStatement_ok verbose
  · intro i loc h
    simp only [hostOptions] at h
    split at h
    · cases h
      exact ⟨by decide, fewHidden_plain _ (by decide +kernel), fewHidden_plain _ (by decide +kernel)⟩
    · cases h

set_option maxRecDepth 100000 in
/-- two log statements and something malformed, as text -/
example : (HostLog.defmtPrint demoEnv (hostOptions false) systemTable.td false .rzcobs (fun k => k) [[0, 1], [0x7e, 0, 5, 0, 1], [0x7e, 0]]).map
    (fun r => textOf .stdout r.1) = some c!"INFO  hi\nINFO  hi\n" := by decide +kernel

set_option maxRecDepth 100000 in
/-- and as JSON -/
example : (HostLog.defmtPrint demoEnv (hostOptions true) systemTable.td false .rzcobs (fun k => 7 + k) [[0, 1], [0x7e, 0]]).map
    (fun r => textOf .stdout r.1) = some (c!"{\"schema_version\":1}\n" ++
      c!"{\"data\":\"hi\",\"host_timestamp\":7,\"level\":\"INFO\",\"location\":{\"file\":\"src/main.rs\",\"line\":42," ++
      c!"\"module_path\":{\"crate_name\":\"app\",\"modules\":[\"tasks\"],\"function\":\"blink\"}},\"target_timestamp\":\"\"}\n") := by
  decide +kernel

/-- a frame with a timestamp and an argument, whose message has characters that JSON escapes -/
def hostFrame : Frame := ⟨some .warn, 1, some c!"{=u32:us}", [.uxx 1000], c!"\"{=u8}\"\n", [.uxx 7]⟩

/-- the hypotheses of `C77_kept`, `C77_frame` and `C78_line` are met by that frame -/
example : Texts demoEnv hostFrame c!"0.001000" c!"\"7\"\n" := ⟨.inl (by decide +kernel), by decide +kernel⟩

/-- what is printed for it, as text and as JSON -/
example : (newFormatters (hostOptions false) true).bind (fun fmt => forwardToLogger demoEnv (hostOptions false) fmt 5 hostFrame) =
      some [(.stdout, c!"0.001000 WARN  \"7\"\n\n")] ∧
    (newFormatters (hostOptions true) true).bind (fun fmt => forwardToLogger demoEnv (hostOptions true) fmt 5 hostFrame) =
      some [(.stdout, c!"{\"data\":\"\\\"7\\\"\\n\",\"host_timestamp\":5,\"level\":\"WARN\",\"location\":{\"file\":\"src/main.rs\",\"line\":42," ++
        c!"\"module_path\":{\"crate_name\":\"app\",\"modules\":[\"tasks\"],\"function\":\"blink\"}},\"target_timestamp\":\"0.001000\"}"),
        (.stdout, c!"\n")] := by decide +kernel

/-- `C77_println`: the hypotheses are met by a frame without a level -/
example : Texts demoEnv { hostFrame with level := none } c!"0.001000" c!"\"7\"\n" ∧
    forwardToLogger demoEnv (hostOptions false) ⟨demoTerm false, [], []⟩ 5 { hostFrame with level := none } = some [(.stdout, c!"\"7\"\n\n")] :=
  ⟨⟨.inl (by decide +kernel), by decide +kernel⟩, by decide +kernel⟩

/-- `C77_no_text`: a frame without the argument that its message needs -/
example : ¬ ∃ ts m, Texts demoEnv { hostFrame with args := [] } ts m := by
  rintro ⟨ts, m, -, h⟩
  have : Frame.message demoEnv { hostFrame with args := [] } = none := by decide +kernel
  rw [this] at h
  cases h

/-- a log record of the host that meets the hypotheses of `C77_host` and `C79_no_panic_partial` -/
def hostRecord : LogRecord := ⟨c!"defmt_decoder::elf2table", .debug, c!"parsing", none, none, none⟩

example : ¬ c!"defmt@" <+: hostRecord.target ∧
    (newFormatters { hostOptions false with verbose := true } true).bind (fun fmt =>
      log { hostOptions false with verbose := true } fmt 5 hostRecord) = some [(.stderr, c!"(HOST) DEBUG parsing\n└─ <mod path> @ <file>:0   \n")] ∧
    (newFormatters (hostOptions false) true).bind (fun fmt => log (hostOptions false) fmt 5 hostRecord) = some [] := by decide +kernel

/-- `C78_stream_exact`, `C78_stream_partial`: two frames and one that was skipped between them -/
example : ∀ f, Printer.Line.frame f ∈ [Printer.Line.frame hostFrame, .skipped, .frame systemEvent.frame] → ∃ ts m, Texts demoEnv f ts m := by
  intro f hf
  simp only [List.mem_cons, Printer.Line.frame.injEq, List.not_mem_nil, or_false, reduceCtorEq, false_or] at hf
  rcases hf with rfl | rfl
  · exact ⟨c!"0.001000", c!"\"7\"\n", .inl (by decide +kernel), by decide +kernel⟩
  · exact ⟨[], c!"hi", .inr ⟨rfl, rfl⟩, by decide +kernel⟩

end Defmt
