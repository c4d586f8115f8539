import Verif.Lemmas.Run
import Verif.Props.Printer
import Verif.Props.HostLog
/-! Properties C98 and C99: the life of `defmt-print`. -/

namespace Defmt

open Run HostLog Elf Dwarf Parser

/-! ### lemmas -/

theorem drain_fuel {td : List UInt8 → Except DecodeError (F × Nat)} (hs : Printer.Settled td) (enc : Encoding) :
    ∀ (fuel : Nat) (buffer : List UInt8), buffer.length < fuel →
      ∃ units next, Printer.drain td enc enc.canRecover fuel buffer = some (units, next) ∧ next ≠ .panicked := by
  cases enc with
  | raw =>
    intro fuel buffer hl
    obtain ⟨fs, e, h1, h2⟩ := drain_raw hs fuel buffer hl
    exact ⟨_, _, h2, by rcases h1.no_panic with rfl | ⟨_, rfl, -⟩ <;> simp⟩
  | rzcobs =>
    intro fuel
    induction fuel with
    | zero => intro _ h; omega
    | succ fuel ih =>
      intro buffer hl
      rw [Printer.drain]
      show ∃ units next, (match Stream.Rzcobs.decode td buffer with
        | (buffer, .frame f) => (Printer.drain td .rzcobs true fuel buffer).map (fun r => (.frame f :: r.1, r.2))
        | (buffer, .err .unexpectedEof) => some ([], .wait buffer)
        | (buffer, .err .malformed) =>
          if true then (Printer.drain td .rzcobs true fuel buffer).map (fun r => (.skipped :: r.1, r.2))
          else some ([], .abort)
        | (_, .panicked) => some ([], .panicked)) = some (units, next) ∧ next ≠ .panicked
      cases hp : Stream.position (· == 0) buffer with
      | none =>
        rw [Stream.decode_none td buffer ((Stream.position_zero_none buffer).mp hp)]
        exact ⟨[], _, rfl, by simp⟩
      | some k =>
        obtain ⟨rest, h1, -, h3⟩ := Stream.decode_some td buffer k hp
        have hlen : (Stream.trimZeros rest).length < fuel := by
          have := Stream.trimZeros_len rest
          have := congrArg List.length h1
          simp only [List.length_append, List.length_cons] at this
          omega
        obtain ⟨units, next, h4, h5⟩ := ih _ hlen
        have h4 : Printer.drain td .rzcobs true fuel (Stream.trimZeros rest) = some (units, next) := h4
        rw [h3]
        rcases report_cases td (buffer.take k) with ⟨f, hf⟩ | hf
        · rw [hf]
          exact ⟨.frame f :: units, next, by simp only [h4, Option.map_some], h5⟩
        · rw [hf]
          exact ⟨.skipped :: units, next, by simp only [h4, Option.map_some, ↓reduceIte], h5⟩

theorem decode_eof {td : List UInt8 → Except DecodeError (F × Nat)} {enc : Encoding} {b b' : List UInt8}
    (h : Printer.decode td enc b = (b', .err .unexpectedEof)) : b' = b := by
  cases enc with
  | raw =>
    simp only [Printer.decode, Stream.Raw.decode] at h
    split at h
    · split at h <;> simp at h
    · simp only [Prod.mk.injEq] at h; exact h.1.symm
  | rzcobs =>
    simp only [Printer.decode] at h
    cases hp : Stream.position (· == 0) b with
    | none =>
      rw [Stream.decode_none td b ((Stream.position_zero_none b).mp hp)] at h
      simp only [Prod.mk.injEq, and_true] at h
      exact h.symm
    | some k =>
      obtain ⟨rest, -, -, h3⟩ := Stream.decode_some td b k hp
      rw [h3] at h
      simp only [Prod.mk.injEq] at h
      exact absurd h.2 (Stream.report_ne_eof td _)

theorem drain_wait {td : List UInt8 → Except DecodeError (F × Nat)} {enc : Encoding} {recover : Bool} :
    ∀ {fuel : Nat} {b b' : List UInt8} {units : List (Printer.Line F)}, Printer.drain td enc recover fuel b = some (units, .wait b') →
      Printer.decode td enc b' = (b', .err .unexpectedEof) := by
  intro fuel
  induction fuel with
  | zero => intro b b' units h; cases h
  | succ fuel ih =>
    intro b b' units h
    rw [Printer.drain] at h
    cases hd : Printer.decode td enc b with
    | mk b1 r =>
      rw [hd] at h
      cases r with
      | frame f =>
        dsimp only at h
        cases hr : Printer.drain td enc recover fuel b1 with
        | none => rw [hr] at h; cases h
        | some q =>
          rw [hr] at h
          simp only [Option.map_some, Option.some.injEq, Prod.mk.injEq] at h
          exact ih (units := q.1) (by rw [hr, ← h.2])
      | err e =>
        cases e with
        | unexpectedEof =>
          simp only [Option.some.injEq, Prod.mk.injEq, Printer.Next.wait.injEq] at h
          obtain ⟨-, rfl⟩ := h
          have := decode_eof hd
          subst this
          exact hd
        | malformed =>
          dsimp only at h
          cases recover with
          | false => simp at h
          | true =>
            simp only [↓reduceIte] at h
            cases hr : Printer.drain td enc true fuel b1 with
            | none => rw [hr] at h; cases h
            | some q =>
              rw [hr] at h
              simp only [Option.map_some, Option.some.injEq, Prod.mk.injEq] at h
              exact ih (units := q.1) (by rw [hr, ← h.2])
      | panicked => simp at h

theorem decode_empty (t : Table) (enc : Encoding) : Printer.decode t.td enc [] = ([], .err .unexpectedEof) := by
  cases enc with
  | raw => rfl
  | rzcobs => rfl

variable {env : Env} {o : Options} {source : Source} {watch : Bool} {now : Nat → Int} {first : Option Binary}

/-- the buffer is drained -/
def Drained (s : Session) : Prop :=
  Printer.decode s.table.decoding.td (streamEncoding s.table.encoding) s.buffer = (s.buffer, .err .unexpectedEof)

theorem setup_drained {file : Option Binary} {s : Session} (h : (setup env o file).1 = .reading s) : Drained s := by
  have : setup env o file = (.reading s, (setup env o file).2) := by rw [← h]
  obtain ⟨b, h1, h2, h3, h4, h5⟩ := setup_reading this
  unfold Drained
  rw [h4]
  exact decode_empty _ _

theorem feed_drained {s s' : Session} {st : State} {bytes : List UInt8} (h : (feed now bytes s st).status = .reading s') : Drained s' := by
  obtain ⟨us, wsn, buf, hd, hp, rfl, he⟩ := feed_reading h
  exact drain_wait hd

theorem run_drained (es : List Event) : ∀ s, (runEvents env o source watch now first es).status = .reading s → Drained s := by
  induction es using snoc_induction with
  | h0 =>
    intro s h
    have h : (start env o watch first).status = .reading s := h
    unfold start at h
    split at h
    · cases h
    · exact setup_drained h
  | h1 es e ih =>
    intro s' h
    rw [runEvents_snoc] at h
    obtain ⟨s, hs⟩ := step_reading h
    have hd := ih s hs
    unfold step at h
    rw [hs] at h
    cases e with
    | data bytes => exact feed_drained h
    | closed =>
      dsimp only at h
      split at h
      · split at h
        · exact setup_drained h
        · cases h
      · exact feed_drained h
    | broken => cases h
    | file f n =>
      dsimp only at h
      split at h
      · exact setup_drained h
      · have h : Status.reading s = .reading s' := h
        cases h; exact hd

theorem received_nil (enc : Encoding) (b : List UInt8) : Printer.received enc b [] = b := by
  cases enc with
  | raw => exact List.append_nil b
  | rzcobs => cases b <;> simp [Printer.received, Stream.Rzcobs.received, Stream.trimZeros]

theorem feed_nothing {s : Session} {st : State} (h : Drained s) (hs : st.status = .reading s) : feed now [] s st = st := by
  unfold feed
  simp only [received_nil, Printer.drain]
  unfold Drained at h
  rw [h]
  simp only [printLines, List.append_nil, List.length_nil, Nat.add_zero]
  rw [← hs]

theorem runEvents_append (es es' : List Event) :
    runEvents env o source watch now first (es ++ es') = es'.foldl (step env o source watch now) (runEvents env o source watch now first es) := by
  simp only [runEvents, List.foldl_append]

/-- once the program does not read it is over -/
theorem foldl_over {st : State} (h : ¬ Reading st) (es : List Event) :
    (es.foldl (step env o source watch now) st).status = st.status ∧ (es.foldl (step env o source watch now) st).output = st.output ∧
      (es.foldl (step env o source watch now) st).count = st.count := by
  induction es generalizing st with
  | nil => exact ⟨rfl, rfl, rfl⟩
  | cons e es ih =>
    have hstep : (step env o source watch now st e).status = st.status ∧ (step env o source watch now st e).output = st.output ∧
        (step env o source watch now st e).count = st.count := by
      unfold step
      cases hs : st.status with
      | reading s => exact absurd ⟨s, hs⟩ h
      | _ => cases e <;> simp [hs]
    have hn : ¬ Reading (step env o source watch now st e) := by
      rintro ⟨s, hs⟩
      exact h ⟨s, by rw [← hstep.1, hs]⟩
    obtain ⟨h1, h2, h3⟩ := ih hn
    simp only [List.foldl_cons]
    exact ⟨h1.trans hstep.1, h2.trans hstep.2.1, h3.trans hstep.2.2⟩

/-- where the program ended -/
theorem ended (es : List Event) (h : ¬ Reading (runEvents env o source watch now first es)) :
    ¬ Reading (start env o watch first) ∧ (runEvents env o source watch now first es).status = (start env o watch first).status ∨
    ∃ pre e post, es = pre ++ e :: post ∧ Reading (runEvents env o source watch now first pre) ∧
      ¬ Reading (runEvents env o source watch now first (pre ++ [e])) ∧
      (runEvents env o source watch now first es).status = (step env o source watch now (runEvents env o source watch now first pre) e).status := by
  induction es using snoc_induction with
  | h0 => exact .inl ⟨h, rfl⟩
  | h1 es e ih =>
    by_cases hr : Reading (runEvents env o source watch now first es)
    · exact .inr ⟨es, e, [], rfl, hr, h, by rw [runEvents_snoc]⟩
    · have hst : (runEvents env o source watch now first (es ++ [e])).status = (runEvents env o source watch now first es).status := by
        rw [runEvents_append]; exact (foldl_over hr [e]).1
      rcases ih hr with ⟨h1, h2⟩ | ⟨pre, e', post, rfl, h2, h3, h4⟩
      · exact .inl ⟨h1, hst.trans h2⟩
      · exact .inr ⟨pre, e', post ++ [e], by simp, h2, h3, hst.trans h4⟩

/-- the other way round -/
theorem ended_at {pre post : List Event} {e : Event} {x : Status} (hx : ∀ s, x ≠ .reading s)
    (h : (step env o source watch now (runEvents env o source watch now first pre) e).status = x) :
    (runEvents env o source watch now first (pre ++ e :: post)).status = x := by
  rw [runEvents_append, List.foldl_cons]
  have hn : ¬ Reading (step env o source watch now (runEvents env o source watch now first pre) e) := by
    rintro ⟨s, hs⟩; exact hx s (h.symm.trans hs)
  exact (foldl_over hn post).1.trans h

theorem start_at {es : List Event} {x : Status} (hx : ∀ s, x ≠ .reading s) (h : (start env o watch first).status = x) :
    (runEvents env o source watch now first es).status = x := by
  have hn : ¬ Reading (start env o watch first) := by rintro ⟨s, hs⟩; exact hx s (h.symm.trans hs)
  exact (foldl_over hn es).1.trans h

theorem feed_not_finished {s : Session} {st : State} {bytes : List UInt8} : (feed now bytes s st).status ≠ .finished := by
  unfold feed
  dsimp only
  split
  · simp
  · split
    · simp
    · dsimp only; split <;> simp

theorem setup_not_finished {file : Option Binary} : (setup env o file).1 ≠ .finished := by
  unfold setup
  repeat' (first | split | (dsimp only; split))
  all_goals simp

theorem feed_failed {s : Session} {st : State} {bytes : List UInt8} {x : Failure} (h : (feed now bytes s st).status = .failed x) :
    x = .malformed := by
  unfold feed at h
  dsimp only at h
  split at h
  · cases h
  · split at h
    · cases h
    · dsimp only at h
      split at h <;> cases h
      rfl

theorem setup_failed {file : Option Binary} {x : Failure} : (setup env o file).1 = .failed x ↔ LoadFails file x := by
  constructor
  · intro h
    unfold setup at h
    split at h
    · cases h; exact .missing
    · rename_i b
      split at h
      · rename_i e he; cases h; exact .table he
      · cases h
      · rename_i he; cases h; exact .notFound he
      · rename_i t he
        split at h
        · rename_i e hg; cases h; exact .locations he (mem_rawSymbols he) hg
        · dsimp only at h
          split at h <;> cases h
  · intro h
    cases h with
    | missing => rfl
    | table h => simp only [setup, h]
    | notFound h => simp only [setup, h]
    | @locations b t e symbols h1 h2 h3 =>
      have hc := getLocations_congr (l := rawSymbols b.elf t) (l' := symbols) (fun s => by rw [h2, mem_rawSymbols h1]) b.units
      rw [h3] at hc
      simp only [setup, h1, hc]

theorem start_failed {x : Failure} : (start env o watch first).status = .failed x ↔ LoadFails first x ∧ (watch = true → first ≠ none) := by
  unfold start
  split
  · rename_i h
    simp only [Bool.and_eq_true, Option.isNone_iff_eq_none] at h
    constructor
    · intro h'; cases h'
    · rintro ⟨-, h2⟩; exact absurd h.2 (h2 h.1)
  · rename_i h
    simp only [Bool.and_eq_true, Option.isNone_iff_eq_none, not_and] at h
    constructor
    · intro h'; exact ⟨setup_failed.mp h', h⟩
    · rintro ⟨h1, -⟩; exact setup_failed.mpr h1

/-! ### A concrete life -/

/-- an ELF file with one statement, `info!("hi")`, and the encoding given -/
def lifeBinary (encoding : List Char) : Binary where
  elf := ⟨[⟨some c!"{\"package\":\"p\",\"tag\":\"defmt_info\",\"data\":\"hi\",\"disambiguator\":\"1\",\"crate_name\":\"c\"}", true, 1, 1⟩,
    ⟨some c!"_defmt_version_ = 4", true, 2, 1⟩, ⟨some (c!"_defmt_encoding_ = " ++ encoding), true, 3, 1⟩], some (some [0, 0, 0, 0])⟩
  units := []

/-- `defmt-print` on that file, without colours -/
def life (encoding : List Char) (source : Source) (watch json : Bool) (es : List Event) : State :=
  runEvents demoEnv (hostOptions json) source watch (fun k => k) (some (lifeBinary encoding)) es

/-- waiting, as a test -/
def waiting (st : State) : Bool := match st.status with
  | .reading _ => true
  | _ => false

theorem waiting_iff (st : State) : waiting st = true ↔ Reading st := by
  unfold waiting Reading
  cases st.status <;> simp

/-! ### C98 -/

/-- **C98** What `defmt-print` has written at any moment of its life, with all changes of the ELF file: it is waiting for input exactly if all
frames could be displayed and every time the file was loaded it could be loaded; the output is then that of the parts of its life, each as
if its file and its bytes were all there ever was, one after another. -/
theorem C98_exact (env : Env) (o : Options) (source : Source) (watch : Bool) (now : Nat → Int) (first : Option Binary) (es : List Event)
    (ws : Writes) (n : Nat) :
    (Reading (runEvents env o source watch now first es) ∧ (runEvents env o source watch now first es).output = ws ∧
      (runEvents env o source watch now first es).count = n) ↔
    ∃ f parts, History source watch first es f parts ∧ Transcript env o now parts ws n := by
  constructor
  · rintro ⟨⟨s, hs⟩, rfl, rfl⟩
    obtain ⟨ps, b, cs, ws0, n, ws, hi⟩ := inv_run es s hs
    exact ⟨_, _, hi.history, by rw [hi.output]; exact hi.current.transcript hi.before⟩
  · rintro ⟨f, parts, h1, h2⟩
    obtain ⟨hf, s, ps, b, cs, ws0, n0, ws', rfl, hi⟩ := history_inv h1 h2
    obtain ⟨h3, h4⟩ := h2.unique (hi.current.transcript hi.before)
    exact ⟨⟨s, hi.status⟩, by rw [hi.output, h3], h4⟩

/-- two lives that meet the left side: one frame, then a new file in the middle of the next -/
example : Reading (life c!"rzcobs" .stdin true false [.data [0, 1, 0x7e, 0, 0, 1], .file (some (lifeBinary c!"raw")) true, .data [1, 0]]) ∧
    textOf .stdout (life c!"rzcobs" .stdin true false [.data [0, 1, 0x7e, 0, 0, 1], .file (some (lifeBinary c!"raw")) true, .data [1, 0]]).output =
      c!"INFO  hi\nINFO  hi\n" := by
  rw [← waiting_iff]; decide +kernel

/-- **C98** The loop that decodes what was received ends, and the stream decoder does not panic. -/
theorem C98_fuel (s : Session) (bytes : List UInt8) :
    ∃ units next, Printer.drain s.table.decoding.td (streamEncoding s.table.encoding) (streamEncoding s.table.encoding).canRecover
      ((Printer.received (streamEncoding s.table.encoding) s.buffer bytes).length + 1)
      (Printer.received (streamEncoding s.table.encoding) s.buffer bytes) = some (units, next) ∧ next ≠ .panicked :=
  drain_fuel (settled_table _) _ _ _ (Nat.lt_succ_self _)

/-- **C98** A frame of which only a part was read when the change of the file is noticed is lost, even if the file is the same as before:
what was read of it might as well not have been sent. -/
theorem C98_lost (env : Env) (o : Options) (source : Source) (now : Nat → Int) (first : Option Binary) (es : List Event) (bytes : List UInt8)
    (hr : Reading (runEvents env o source true now first (es ++ [.data bytes])))
    (hc : (runEvents env o source true now first (es ++ [.data bytes])).count = (runEvents env o source true now first es).count)
    (f : Option Binary) (rest : List Event) :
    runEvents env o source true now first (es ++ .data bytes :: .file f true :: rest) =
      runEvents env o source true now first (es ++ .file f true :: rest) := by
  obtain ⟨s', hs'⟩ := hr
  rw [runEvents_snoc] at hs' hc
  obtain ⟨s, hs⟩ := step_reading hs'
  rw [runEvents_append, runEvents_append, List.foldl_cons, List.foldl_cons, List.foldl_cons]
  congr 1
  have hd : step env o source true now (runEvents env o source true now first es) (.data bytes) =
      feed now bytes s (runEvents env o source true now first es) := by unfold step; rw [hs]
  rw [hd] at hs' hc ⊢
  obtain ⟨us, wsn, buf, -, hp, rfl, he⟩ := feed_reading hs'
  rw [he] at hc ⊢
  have : us = [] := by
    dsimp only at hc
    exact List.length_eq_zero_iff.mp (by omega)
  subst this
  cases hp
  unfold step
  rw [hs]
  simp only [Bool.and_self, ↓reduceIte, restart, List.append_nil, List.length_nil, Nat.add_zero]

/-- the hypotheses are met: of a second frame only a part was read -/
example : Reading (life c!"rzcobs" .tcp true false ([.data [0, 1, 0x7e, 0]] ++ [.data [1, 0x7e]])) ∧
    (life c!"rzcobs" .tcp true false ([.data [0, 1, 0x7e, 0]] ++ [.data [1, 0x7e]])).count = (life c!"rzcobs" .tcp true false [.data [0, 1, 0x7e, 0]]).count ∧
    textOf .stdout (life c!"rzcobs" .tcp true false [.data [0, 1, 0x7e, 0], .data [1, 0x7e], .file (some (lifeBinary c!"rzcobs")) true,
      .data [0, 1, 0x7e, 0]]).output = c!"INFO  hi\nINFO  hi\n" := by
  rw [← waiting_iff]; decide +kernel

/-- **C98** When watching and the change is noticed, the program goes on exactly if the file is there and complete (and the formats are accepted). -/
theorem C98_reload (env : Env) (o : Options) (source : Source) (now : Nat → Int) (first : Option Binary) (es : List Event)
    (hr : Reading (runEvents env o source true now first es)) (f : Option Binary) :
    Reading (runEvents env o source true now first (es ++ [.file f true])) ↔
      ∃ b t env' o', f = some b ∧ Loaded env o b t env' o' ∧ newFormatters o' t.timestamp.isSome ≠ none := by
  obtain ⟨s, hs⟩ := hr
  have hst : (step env o source true now (runEvents env o source true now first es) (.file f true)).status = (setup env o f).1 := by
    unfold step; rw [hs]; simp only [Bool.and_self, ↓reduceIte]; rfl
  rw [runEvents_snoc]
  unfold Reading
  rw [hst]
  constructor
  · rintro ⟨s', hs'⟩
    have : setup env o f = (.reading s', (setup env o f).2) := by rw [← hs']
    obtain ⟨b, h1, h2, h3, h4, h5⟩ := setup_reading this
    exact ⟨b, _, _, _, h1, h2, by rw [h3]; simp⟩
  · rintro ⟨b, t, env', o', rfl, h2, h3⟩
    obtain ⟨fmt, hf⟩ := Option.ne_none_iff_exists'.mp h3
    exact setup_of_loaded h2 hf

/-- a file that can be loaded, and one that cannot -/
example : Reading (life c!"rzcobs" .tcp true false []) ∧ Reading (life c!"rzcobs" .tcp true false ([] ++ [.file (some (lifeBinary c!"raw")) true])) ∧
    ¬ Reading (life c!"rzcobs" .tcp true false ([] ++ [.file (some (lifeBinary c!"cobs")) true])) := by
  simp only [← waiting_iff]; decide +kernel

/-! ### C99 -/

/-- **C99** `defmt-print` ends without an error exactly if it reads from the standard input, does not watch the file, and the input is closed. -/
theorem C99_finished (env : Env) (o : Options) (source : Source) (watch : Bool) (now : Nat → Int) (first : Option Binary) (es : List Event) :
    (runEvents env o source watch now first es).status = .finished ↔
      source = .stdin ∧ watch = false ∧ ∃ pre post, es = pre ++ .closed :: post ∧ Reading (runEvents env o source watch now first pre) := by
  constructor
  · intro h
    rcases ended es (by rintro ⟨s, hs⟩; rw [h] at hs; cases hs) with ⟨-, h2⟩ | ⟨pre, e, post, rfl, ⟨s, hs⟩, h3, h4⟩
    · rw [h] at h2
      unfold start at h2
      split at h2
      · cases h2
      · exact absurd h2.symm setup_not_finished
    · rw [h] at h4
      unfold step at h4
      rw [hs] at h4
      cases e with
      | data bytes => exact absurd h4.symm feed_not_finished
      | broken => cases h4
      | file f n =>
        dsimp only at h4
        split at h4
        · exact absurd h4.symm setup_not_finished
        · cases h4
      | closed =>
        dsimp only at h4
        split at h4
        · rename_i hsrc
          split at h4
          · exact absurd h4.symm setup_not_finished
          · rename_i hw
            exact ⟨hsrc, by simpa using hw, pre, post, rfl, s, hs⟩
        · exact absurd h4.symm feed_not_finished
  · rintro ⟨rfl, rfl, pre, post, rfl, s, hs⟩
    refine ended_at (by simp) ?_
    unfold step
    rw [hs]
    rfl

/-- the program ends when its input does -/
example : (life c!"raw" .stdin false false [.data [1, 0, 1], .closed, .data [0]]).status = .finished ∧
    textOf .stdout (life c!"raw" .stdin false false [.data [1, 0, 1], .closed, .data [0]]).output = c!"INFO  hi\n" :=
  ⟨rfl, by decide +kernel⟩

/-- **C99** When it does not wait for input any more, the program is over: nothing happens, whatever is sent. -/
theorem C99_over (env : Env) (o : Options) (source : Source) (watch : Bool) (now : Nat → Int) (first : Option Binary) (es rest : List Event)
    (h : ¬ Reading (runEvents env o source watch now first es)) :
    (runEvents env o source watch now first (es ++ rest)).status = (runEvents env o source watch now first es).status ∧
    (runEvents env o source watch now first (es ++ rest)).output = (runEvents env o source watch now first es).output := by
  rw [runEvents_append]
  exact ⟨(foldl_over h rest).1, (foldl_over h rest).2.1⟩

/-- the hypothesis is met after an error of the input -/
example : ¬ Reading (life c!"raw" .tcp false false [.data [1, 0], .broken]) ∧
    textOf .stdout (life c!"raw" .tcp false false [.data [1, 0], .broken, .data [1, 0]]).output = c!"INFO  hi\n" := by
  rw [← waiting_iff]; decide +kernel

/-- **C99** The causes of an error other than a malformed frame: the input cannot be read, or the file cannot be loaded, at the start, when a change is
noticed, or at the end of the standard input when watching. -/
theorem C99_failed (env : Env) (o : Options) (source : Source) (watch : Bool) (now : Nat → Int) (first : Option Binary) (es : List Event)
    (x : Failure) (hx : x ≠ .malformed) :
    (runEvents env o source watch now first es).status = .failed x ↔
      (LoadFails first x ∧ (watch = true → first ≠ none)) ∨
      ∃ pre post, Reading (runEvents env o source watch now first pre) ∧
        ((x = .input ∧ es = pre ++ .broken :: post) ∨
         (watch = true ∧ ∃ f, es = pre ++ .file f true :: post ∧ LoadFails f x) ∨
         (watch = true ∧ source = .stdin ∧ es = pre ++ .closed :: post ∧
            LoadFails (runEvents env o source watch now first pre).file x)) := by
  constructor
  · intro h
    rcases ended es (by rintro ⟨s, hs⟩; rw [h] at hs; cases hs) with ⟨-, h2⟩ | ⟨pre, e, post, rfl, ⟨s, hs⟩, h3, h4⟩
    · rw [h] at h2
      exact .inl (start_failed.mp h2.symm)
    · refine .inr ⟨pre, post, ⟨s, hs⟩, ?_⟩
      rw [h] at h4
      unfold step at h4
      rw [hs] at h4
      cases e with
      | data bytes => exact absurd (feed_failed h4.symm) hx
      | broken => cases h4; exact .inl ⟨rfl, rfl⟩
      | file f n =>
        dsimp only at h4
        split at h4
        · rename_i hw
          simp only [Bool.and_eq_true] at hw
          obtain ⟨hw, rfl⟩ := hw
          exact .inr (.inl ⟨hw, f, rfl, setup_failed.mp h4.symm⟩)
        · cases h4
      | closed =>
        dsimp only at h4
        split at h4
        · rename_i hsrc
          split at h4
          · rename_i hw
            exact .inr (.inr ⟨hw, hsrc, rfl, setup_failed.mp h4.symm⟩)
          · cases h4
        · exact absurd (feed_failed h4.symm) hx
  · rintro (h | ⟨pre, post, ⟨s, hs⟩, ⟨rfl, rfl⟩ | ⟨rfl, f, rfl, hf⟩ | ⟨rfl, rfl, rfl, hf⟩⟩)
    · exact start_at (by simp) (start_failed.mpr h)
    · refine ended_at (by simp) ?_
      unfold step; rw [hs]
    · refine ended_at (by simp) ?_
      unfold step; rw [hs]
      simp only [Bool.and_self, ↓reduceIte]
      exact setup_failed.mpr hf
    · refine ended_at (by simp) ?_
      unfold step; rw [hs]
      simp only [↓reduceIte]
      exact setup_failed.mpr hf

/-- the four causes -/
example : (runEvents demoEnv (hostOptions false) .stdin false (fun k => k) none []).status = .failed .file ∧
    (life c!"raw" .serial false false [.data [1, 0], .broken]).status = .failed .input ∧
    (life c!"raw" .serial true false [.data [1, 0], .file none true]).status = .failed .file ∧
    (life c!"raw" .stdin true false [.data [1, 0], .file none false, .closed]).status = .failed .file :=
  ⟨rfl, rfl, rfl, rfl⟩

/-- **C99** An error for a malformed frame: only with the raw encoding, and exactly if the bytes read since the file was loaded are malformed when
read as a whole (C09). -/
theorem C99_malformed (env : Env) (o : Options) (source : Source) (watch : Bool) (now : Nat → Int) (first : Option Binary) (pre : List Event)
    (f : Option Binary) (parts : List Part) (b : Binary) (cs : List (List UInt8)) (ws : Writes) (n : Nat)
    (hh : History source watch first pre f (parts ++ [(b, cs)])) (ht : Transcript env o now (parts ++ [(b, cs)]) ws n)
    (bytes : List UInt8) (t : FullTable) (env' : Env) (o' : Options) (hl : Loaded env o b t env' o') :
    ((runEvents env o source watch now first (pre ++ [.data bytes])).status = .failed .malformed →
      t.encoding = .raw ∧ ∃ fs, Printer.RawMeans t.decoding.td (cs ++ [bytes]).flatten fs .abort) ∧
    (t.encoding = .raw → (∃ fs, Printer.RawMeans t.decoding.td (cs ++ [bytes]).flatten fs .abort) →
      (runEvents env o source watch now first (pre ++ [.data bytes])).status = .failed .malformed ∨
      (runEvents env o source watch now first (pre ++ [.data bytes])).status = .panicked) := by
  obtain ⟨hf, s, ps, b', cs', ws0, n0, ws', he, hi⟩ := history_inv hh ht
  obtain ⟨rfl, hbc⟩ := List.append_inj' he rfl
  simp only [List.cons.injEq, Prod.mk.injEq, and_true] at hbc
  obtain ⟨rfl, rfl⟩ := hbc
  obtain ⟨h1, h2, units, w1, h3, h4, rfl, h6⟩ := hi.current
  obtain ⟨rfl, -, -⟩ := h1.unique hl
  have hstep : step env o source watch now (runEvents env o source watch now first pre) (.data bytes) =
      feed now bytes s (runEvents env o source watch now first pre) := by unfold step; rw [hi.status]
  rw [runEvents_snoc, hstep]
  have hsn := run_snoc s.table.decoding.td (streamEncoding s.table.encoding) (streamEncoding s.table.encoding).canRecover bytes cs [] units s.buffer h3
  obtain ⟨us, next, hd, hnp⟩ := C98_fuel s bytes
  rw [hd] at hsn
  constructor
  · intro h
    have hab : next = .abort := by
      unfold feed at h
      simp only [hd] at h
      split at h
      · cases h
      · dsimp only at h
        split at h <;> first | rfl | cases h
    subst hab
    cases hen : s.table.encoding with
    | rzcobs =>
      exfalso
      rw [hen] at hsn
      have := C54_rzcobs s.table.decoding.td (cs ++ [bytes])
      unfold Printer.defmtPrint at this
      rw [show streamEncoding .rzcobs = Encoding.rzcobs from rfl] at hsn
      rw [this] at hsn
      simp at hsn
    | raw =>
      rw [hen] at hsn
      obtain ⟨fs, e, h7, h8⟩ := run_raw (settled_table s.table.decoding) (cs ++ [bytes]) [] rfl
      rw [show streamEncoding .raw = Encoding.raw from rfl] at hsn
      rw [show Encoding.raw.canRecover = false from rfl] at hsn
      rw [h8] at hsn
      simp only [Option.map_some, Option.some.injEq, Prod.mk.injEq] at hsn
      rw [hsn.2] at h7
      exact ⟨rfl, fs, h7⟩
  · intro hen ⟨fs, hm⟩
    rw [hen] at hsn
    obtain ⟨fs', e, h7, h8⟩ := run_raw (settled_table s.table.decoding) (cs ++ [bytes]) [] rfl
    rw [show streamEncoding .raw = Encoding.raw from rfl] at hsn
    rw [show Encoding.raw.canRecover = false from rfl] at hsn
    rw [h8] at hsn
    obtain ⟨-, rfl⟩ := hm.unique h7
    simp only [Option.map_some, Option.some.injEq, Prod.mk.injEq] at hsn
    obtain ⟨-, rfl⟩ := hsn
    unfold feed
    simp only [hd]
    split
    · exact .inr rfl
    · exact .inl rfl

/-- an index that is not in the table ends the program with the raw encoding, but not with rzCOBS -/
example : (life c!"raw" .tcp false false ([.data [1, 0]] ++ [.data [9, 9]])).status = .failed .malformed ∧
    Reading (life c!"rzcobs" .tcp false false ([.data [0, 1, 0x7e, 0]] ++ [.data [9, 0x7e, 0]])) :=
  ⟨rfl, by rw [← waiting_iff]; decide +kernel⟩

/-- **C99** A connection that is closed does not end the program: it goes on reading nothing, for ever and without a pause. -/
theorem C99_connection (env : Env) (o : Options) (source : Source) (hs : source ≠ .stdin) (watch : Bool) (now : Nat → Int) (first : Option Binary)
    (es rest : List Event) :
    runEvents env o source watch now first (es ++ .closed :: rest) = runEvents env o source watch now first (es ++ rest) := by
  rw [runEvents_append, runEvents_append, List.foldl_cons]
  congr 1
  by_cases hr : Reading (runEvents env o source watch now first es)
  · obtain ⟨s, h⟩ := hr
    have := feed_nothing (now := now) (run_drained es s h) h
    unfold step
    rw [h]
    simp only [hs, ↓reduceIte]
    exact this
  · unfold step
    cases h : (runEvents env o source watch now first es).status with
    | reading s => exact absurd ⟨s, h⟩ hr
    | _ => rfl

/-- a connection that is closed between the parts of a frame -/
example : textOf .stdout (life c!"raw" .tcp false false [.data [1], .closed, .closed, .data [0]]).output = c!"INFO  hi\n" := by decide +kernel

/-- **C99** When watching, the end of the standard input does not end the program either: it loads the file again, for ever, and with
`--json` it prints the line with the version of the schema each time. -/
theorem C99_again (env : Env) (o : Options) (now : Nat → Int) (first : Option Binary) (es : List Event)
    (h : Reading (runEvents env o .stdin true now first (es ++ [.closed]))) (k : Nat) :
    Reading (runEvents env o .stdin true now first (es ++ List.replicate k .closed)) ∧
    (runEvents env o .stdin true now first (es ++ List.replicate k .closed)).output =
      (runEvents env o .stdin true now first es).output ++ (List.replicate k (if o.json then printSchemaVersion else [])).flatten := by
  obtain ⟨s', hs'⟩ := h
  rw [runEvents_snoc] at hs'
  obtain ⟨s, hs⟩ := step_reading hs'
  have hstep : ∀ st : State, Reading st → step env o .stdin true now st .closed = restart env o st := by
    rintro st ⟨s, h⟩; unfold step; rw [h]; rfl
  rw [hstep _ ⟨s, hs⟩] at hs'
  have hs' : (setup env o (runEvents env o .stdin true now first es).file).1 = .reading s' := hs'
  have hw : (setup env o (runEvents env o .stdin true now first es).file).2 = if o.json then printSchemaVersion else [] := by
    have : setup env o (runEvents env o .stdin true now first es).file = (.reading s', (setup env o (runEvents env o .stdin true now first es).file).2) := by
      rw [← hs']
    obtain ⟨b, -, h2, -, -, h5⟩ := setup_reading this
    obtain ⟨locs, l, e, -⟩ := h2.opts
    rw [h5, initLogger, e]
  have : ∀ k, Reading (runEvents env o .stdin true now first (es ++ List.replicate k .closed)) ∧
      (runEvents env o .stdin true now first (es ++ List.replicate k .closed)).file = (runEvents env o .stdin true now first es).file ∧
      (runEvents env o .stdin true now first (es ++ List.replicate k .closed)).output =
        (runEvents env o .stdin true now first es).output ++ (List.replicate k (if o.json then printSchemaVersion else [])).flatten := by
    intro k
    induction k with
    | zero => simp only [List.replicate_zero, List.append_nil, List.flatten_nil]; exact ⟨⟨s, hs⟩, trivial, trivial⟩
    | succ k ih =>
      obtain ⟨i1, i2, i3⟩ := ih
      rw [List.replicate_succ', ← List.append_assoc, runEvents_snoc, hstep _ i1]
      refine ⟨⟨s', ?_⟩, i2, ?_⟩
      · show (setup env o (runEvents env o .stdin true now first (es ++ List.replicate k .closed)).file).1 = _
        rw [i2, hs']
      · show (runEvents env o .stdin true now first (es ++ List.replicate k .closed)).output ++
          (setup env o (runEvents env o .stdin true now first (es ++ List.replicate k .closed)).file).2 = _
        rw [i2, i3, hw, List.replicate_succ', List.flatten_append, List.append_assoc]
        simp
  exact ⟨(this k).1, (this k).2.2⟩

/-- the hypothesis is met, and the version of the schema is printed three times -/
example : Reading (life c!"raw" .stdin true true ([] ++ [.closed])) ∧
    (life c!"raw" .stdin true true ([] ++ List.replicate 2 .closed)).output = (List.replicate 3 printSchemaVersion).flatten := by
  rw [← waiting_iff]; decide +kernel

end Defmt
