import Verif.Spec.Printer
import Verif.Props.Framing
import Verif.Props.RoundTrip
/-!
# Properties of raw streams and of the printers: C09, C54
-/

namespace Defmt

open Printer _root_.Defmt.Stream _root_.Defmt.Decoder _root_.Defmt.Encoder

variable {F : Type}

/-! ### the raw encoding -/

theorem Printer.RawMeans.unique {td : List UInt8 → Except DecodeError (F × Nat)} {w : List UInt8} {fs fs' : List F} {e e' : Next}
    (h : RawMeans td w fs e) (h' : RawMeans td w fs' e') : fs = fs' ∧ e = e' := by
  induction h generalizing fs' e' with
  | incomplete h1 =>
    cases h' with
    | incomplete _ => exact ⟨rfl, rfl⟩
    | malformed h2 => rw [h1] at h2; cases h2
    | frame h2 _ => rw [h1] at h2; cases h2
  | malformed h1 =>
    cases h' with
    | incomplete h2 => rw [h1] at h2; cases h2
    | malformed _ => exact ⟨rfl, rfl⟩
    | frame h2 _ => rw [h1] at h2; cases h2
  | frame h1 _ ih =>
    cases h' with
    | incomplete h2 => rw [h1] at h2; cases h2
    | malformed h2 => rw [h1] at h2; cases h2
    | frame h2 h3 =>
      rw [h1] at h2
      cases h2
      obtain ⟨rfl, rfl⟩ := ih h3
      exact ⟨rfl, rfl⟩

/-- More data after the frames: what was settled stays. -/
theorem Printer.RawMeans.append {td : List UInt8 → Except DecodeError (F × Nat)} (hs : Settled td) {w : List UInt8} {fs : List F}
    {e : Next} (h : RawMeans td w fs e) (more : List UInt8) :
    (e = .abort → RawMeans td (w ++ more) fs .abort) ∧
    ∀ rest, e = .wait rest → ∀ fs' e', RawMeans td (rest ++ more) fs' e' → RawMeans td (w ++ more) (fs ++ fs') e' := by
  induction h with
  | incomplete h1 =>
    refine ⟨fun h => (by cases h), ?_⟩
    intro rest hr fs' e' h'
    cases hr
    exact h'
  | malformed h1 => exact ⟨fun _ => .malformed (hs.malformed h1 more), fun _ h => by cases h⟩
  | @frame w f n fs e h1 _ ih =>
    have hn := (hs.used h1).2
    have hd : (w ++ more).drop n = w.drop n ++ more := by rw [List.drop_append_of_le_length hn]
    refine ⟨fun h => .frame (hs.ok h1 more) (by rw [hd]; exact ih.1 h), ?_⟩
    intro rest hr fs' e' h'
    exact .frame (hs.ok h1 more) (by rw [hd]; exact ih.2 rest hr fs' e' h')

theorem drain_raw {td : List UInt8 → Except DecodeError (F × Nat)} (hs : Settled td) :
    ∀ (fuel : Nat) (w : List UInt8), w.length < fuel →
    ∃ fs e, RawMeans td w fs e ∧ drain td .raw false fuel w = some (fs.map .frame, e) := by
  intro fuel
  induction fuel with
  | zero => intro w h; omega
  | succ fuel ih =>
    intro w hw
    rw [drain]
    simp only [decode, Raw.decode]
    cases ht : td w with
    | error err =>
      cases err with
      | unexpectedEof => exact ⟨[], .wait w, .incomplete ht, rfl⟩
      | malformed => exact ⟨[], .abort, .malformed ht, rfl⟩
    | ok r =>
      obtain ⟨f, n⟩ := r
      obtain ⟨h1, h2⟩ := hs.used ht
      obtain ⟨fs, e, h3, h4⟩ := ih (w.drop n) (by simp; omega)
      refine ⟨f :: fs, e, .frame ht h3, ?_⟩
      simp only [if_pos h2, h4]
      rfl

theorem Printer.RawMeans.no_panic {td : List UInt8 → Except DecodeError (F × Nat)} {w : List UInt8} {fs : List F} {e : Next}
    (h : RawMeans td w fs e) : e = .abort ∨ ∃ rest, e = .wait rest ∧ td rest = .error .unexpectedEof := by
  induction h with
  | incomplete h => exact Or.inr ⟨_, rfl, h⟩
  | malformed _ => exact Or.inl rfl
  | frame _ _ ih => exact ih

theorem run_raw {td : List UInt8 → Except DecodeError (F × Nat)} (hs : Settled td) (chunks : List (List UInt8)) :
    ∀ buf, td buf = .error .unexpectedEof →
    ∃ fs e, RawMeans td (buf ++ chunks.flatten) fs e ∧ run td .raw false buf chunks = some (fs.map .frame, e) := by
  induction chunks with
  | nil =>
    intro buf hb
    exact ⟨[], .wait buf, by simpa using RawMeans.incomplete hb, rfl⟩
  | cons c cs ih =>
    intro buf hb
    have hrec : received .raw buf c = buf ++ c := rfl
    obtain ⟨fs, e, h1, h2⟩ := drain_raw hs ((buf ++ c).length + 1) (buf ++ c) (by omega)
    rw [run]
    simp only [hrec, h2]
    rcases h1.no_panic with rfl | ⟨rest, rfl, hr⟩
    · refine ⟨fs, .abort, ?_, rfl⟩
      have := (RawMeans.append hs h1 cs.flatten).1 rfl
      simpa using this
    · obtain ⟨fs', e', h3, h4⟩ := ih rest hr
      refine ⟨fs ++ fs', e', ?_, ?_⟩
      · have := (RawMeans.append hs h1 cs.flatten).2 rest rfl fs' e' h3
        simpa using this
      · simp only [h4, Option.map_some, List.map_append]

/-- The table decoder is settled. -/
theorem settled_table (t : Table) : Settled t.td where
  used := by
    intro w f n h
    have hd : t.decode w = some (.ok (f, n)) := by
      unfold Table.td at h
      split at h
      · rename_i hd; rw [hd]; cases h; rfl
      · cases h
      · cases h
    obtain ⟨h1, h2, h3⟩ := C10_consumed_exact t w f n hd
    refine ⟨?_, h1⟩
    rcases Nat.eq_zero_or_pos n with rfl | hp
    · have := h2 []
      obtain ⟨_, _, _, _, h7, _⟩ := C29_frame_from_entry t _ _ _ this
      simp at h7
    · exact hp
  ok := by
    intro w f n h more
    have hd : t.decode w = some (.ok (f, n)) := by
      unfold Table.td at h
      split at h
      · rename_i hd; rw [hd]; cases h; rfl
      · cases h
      · cases h
    obtain ⟨_, h2, _⟩ := C10_consumed_exact t w f n hd
    have := h2 (w.drop n ++ more)
    rw [← List.append_assoc, List.take_append_drop] at this
    unfold Table.td
    rw [this]
  malformed := by
    intro w h more
    have hfuel : t.decodeFrame ((w ++ more).length + 1) w = t.decodeFrame (w.length + 1) w := by
      rw [decodeFrame_fuel t w _ (by simp; omega), decodeFrame_fuel t w (w.length + 1) (by omega)]
    have st := Stable.decodeFrame t ((w ++ more).length + 1)
    unfold Table.td Table.decode at h ⊢
    cases hm : t.decodeFrame (w.length + 1) w with
    | ok a r => rw [hm] at h; cases h
    | err e =>
      rw [hm] at h
      cases h
      rw [st.malformed (hfuel.trans hm) more]
    | panic =>
      rw [st.panic (hfuel.trans hm) more]
    | outOfFuel =>
      exact absurd hm (Enough.decodeFrame t _ w (by omega))

/-- **C09** With the raw encoding, `defmt-print` prints exactly the frames that the received bytes are
when read as a whole, and stops with an error exactly if the bytes are malformed when read as a
whole; nothing depends on how the bytes are cut into chunks. -/
theorem C09_raw_stream (t : Table) (_ : t.Safe) (chunks : List (List UInt8)) :
    ∃ fs e, RawMeans t.td chunks.flatten fs e ∧ defmtPrint t.td .raw chunks = some (fs.map .frame, e) := by
  have h : t.td [] = .error .unexpectedEof := rfl
  simpa [defmtPrint, Encoding.canRecover] using run_raw (settled_table t) chunks [] h

/-- **C09** Chunking does not matter. -/
theorem C09_chunking_irrelevant (t : Table) (hs : t.Safe) (chunks chunks' : List (List UInt8))
    (h : chunks.flatten = chunks'.flatten) : defmtPrint t.td .raw chunks = defmtPrint t.td .raw chunks' := by
  obtain ⟨fs, e, h1, h2⟩ := C09_raw_stream t hs chunks
  obtain ⟨fs', e', h1', h2'⟩ := C09_raw_stream t hs chunks'
  rw [← h] at h1'
  obtain ⟨rfl, rfl⟩ := RawMeans.unique h1 h1'
  rw [h2, h2']

/-! ### C54 -/

theorem report_cases (td : List UInt8 → Except DecodeError (F × Nat)) (b : List UInt8) :
    (∃ f, report td b = .frame f) ∨ report td b = .err .malformed := by
  unfold report
  split
  · exact Or.inr rfl
  · split
    · exact Or.inl ⟨_, rfl⟩
    · exact Or.inr rfl

/-- the printers' loop in terms of the results of the decoder -/
theorem drain_rzcobs (td : List UInt8 → Except DecodeError (F × Nat)) :
    ∀ (fuel : Nat) (raw raw' : List UInt8) (rs : List (DecodeResult F)), Stream.Rzcobs.drain td fuel raw = some (raw', rs) →
    (∀ r ∈ rs, (∃ f, r = .frame f) ∨ r = .err .malformed) →
    drain td .rzcobs true fuel raw = some (rs.map lineOf, .wait raw') ∧
    (∀ fs : List F, rs = fs.map .frame → drain td .rzcobs false fuel raw = some (fs.map .frame, .wait raw')) ∧
    ∀ (fs : List F) rest, rs = fs.map .frame ++ .err .malformed :: rest →
      drain td .rzcobs false fuel raw = some (fs.map .frame, .abort) := by
  intro fuel
  induction fuel with
  | zero => intro raw raw' rs h; cases h
  | succ fuel ih =>
    intro raw raw' rs h hrs
    rw [Stream.Rzcobs.drain] at h
    rw [drain, drain]
    simp only [decode]
    cases hd : Stream.Rzcobs.decode td raw with
    | mk buf r =>
      rw [hd] at h
      cases r with
      | frame f =>
        simp only at h
        cases hr : Stream.Rzcobs.drain td fuel buf with
        | none => rw [hr] at h; cases h
        | some p =>
          obtain ⟨raw1, rs1⟩ := p
          rw [hr] at h
          simp only [Option.some.injEq, Prod.mk.injEq] at h
          obtain ⟨rfl, rfl⟩ := h
          obtain ⟨h1, h2, h3⟩ := ih buf raw1 rs1 hr (fun r hr => hrs r (by simp [hr]))
          refine ⟨by simp [h1, lineOf], ?_, ?_⟩
          · intro fs hfs
            cases fs with
            | nil => cases hfs
            | cons g gs =>
              simp only [List.map_cons, List.cons.injEq, DecodeResult.frame.injEq] at hfs
              obtain ⟨rfl, hfs⟩ := hfs
              simp [h2 gs hfs]
          · intro fs rest hfs
            cases fs with
            | nil => simp at hfs
            | cons g gs =>
              simp only [List.map_cons, List.cons_append, List.cons.injEq, DecodeResult.frame.injEq] at hfs
              obtain ⟨rfl, hfs⟩ := hfs
              simp [h3 gs rest hfs]
      | err e =>
        cases e with
        | unexpectedEof =>
          simp only [Option.some.injEq, Prod.mk.injEq] at h
          obtain ⟨rfl, rfl⟩ := h
          refine ⟨rfl, ?_, ?_⟩
          · intro fs hfs
            cases fs with
            | nil => rfl
            | cons _ _ => cases hfs
          · intro fs rest hfs
            simp at hfs
        | malformed =>
          simp only at h
          cases hr : Stream.Rzcobs.drain td fuel buf with
          | none => rw [hr] at h; cases h
          | some p =>
            obtain ⟨raw1, rs1⟩ := p
            rw [hr] at h
            simp only [Option.some.injEq, Prod.mk.injEq] at h
            obtain ⟨rfl, rfl⟩ := h
            obtain ⟨h1, _, _⟩ := ih buf raw1 rs1 hr (fun r hr => hrs r (by simp [hr]))
            refine ⟨by simp [h1, lineOf], ?_, ?_⟩
            · intro fs hfs
              cases fs with
              | nil => cases hfs
              | cons g gs => simp at hfs
            · intro fs rest hfs
              cases fs with
              | nil => simp
              | cons g gs => simp at hfs
      | panicked =>
        simp only at h
        cases hr : Stream.Rzcobs.drain td fuel buf with
        | none => rw [hr] at h; cases h
        | some p =>
          obtain ⟨raw1, rs1⟩ := p
          rw [hr] at h
          simp only [Option.some.injEq, Prod.mk.injEq] at h
          obtain ⟨rfl, rfl⟩ := h
          rcases hrs .panicked (by simp) with ⟨f, hf⟩ | hf <;> cases hf

theorem reports_fine (td : List UInt8 → Except DecodeError (F × Nat)) (blocks : List (List UInt8)) :
    ∀ r ∈ blocks.map (report td), (∃ f, r = .frame f) ∨ r = .err .malformed := by
  intro r hr
  obtain ⟨b, _, rfl⟩ := List.mem_map.mp hr
  exact report_cases td b

theorem run_rzcobs (td : List UInt8 → Except DecodeError (F × Nat)) (chunks : List (List UInt8)) :
    ∀ u, (∀ b ∈ u, b ≠ 0) →
    run td .rzcobs true u chunks =
      some ((scan u chunks.flatten).1.map (fun b => lineOf (report td b)), .wait (scan u chunks.flatten).2) ∧
    (∀ fs : List F, (scan u chunks.flatten).1.map (report td) = fs.map .frame →
      run td .rzcobs false u chunks = some (fs.map .frame, .wait (scan u chunks.flatten).2)) ∧
    ∀ (fs : List F) rest, (scan u chunks.flatten).1.map (report td) = fs.map .frame ++ .err .malformed :: rest →
      run td .rzcobs false u chunks = some (fs.map .frame, .abort) := by
  induction chunks with
  | nil =>
    intro u _
    refine ⟨rfl, ?_, ?_⟩
    · intro fs h
      cases fs with
      | nil => rfl
      | cons _ _ => cases h
    · intro fs rest h
      simp [scan] at h
  | cons c cs ih =>
    intro u hu
    have hdr := drain_spec td ((Stream.Rzcobs.received u c).length + 1) _ (received_inv (nzInv hu) c) (by omega)
    have h1 : scan [] (Stream.Rzcobs.received u c) = scan u c := by
      rw [received_scan u c hu, scan_append, scan_nonzero u hu]; simp
    rw [h1] at hdr
    obtain ⟨d1, d2, d3⟩ := drain_rzcobs td _ _ _ _ hdr (reports_fine td _)
    obtain ⟨i1, i2, i3⟩ := ih (scan u c).2 (scan_unfinished_nz c u hu)
    have hrec : received .rzcobs u c = Stream.Rzcobs.received u c := rfl
    refine ⟨?_, ?_, ?_⟩
    · rw [run]
      simp only [hrec, d1, i1, List.flatten_cons, scan_append, List.map_append, Option.map_some, List.map_map]
      rfl
    · intro fs h
      simp only [List.flatten_cons, scan_append, List.map_append] at h ⊢
      obtain ⟨fs1, fs2, rfl, ha, hb⟩ := List.map_eq_append_iff.mp h.symm
      rw [run]
      simp only [hrec, d2 fs1 ha.symm, i2 fs2 hb.symm, Option.map_some, List.map_append]
    · intro fs rest h
      simp only [List.flatten_cons, scan_append, List.map_append] at h
      rcases List.append_eq_append_iff.mp h with ⟨as, ha, hb⟩ | ⟨as, ha, hb⟩
      · -- the chunk consists of frames only
        obtain ⟨fs1, fs2, rfl, hc, hd⟩ := List.map_eq_append_iff.mp ha
        rw [run]
        rw [← hd] at hb
        simp only [hrec, d2 fs1 hc.symm, i3 fs2 rest hb, Option.map_some, List.map_append]
      · cases as with
        | nil =>
          simp only [List.nil_append] at hb
          rw [List.append_nil] at ha
          rw [run]
          simp only [hrec, d2 fs ha]
          have := i3 [] rest (by simpa using hb.symm)
          simp [this]
        | cons x as =>
          simp only [List.cons_append, List.cons.injEq] at hb
          obtain ⟨rfl, hb⟩ := hb
          rw [run]
          simp only [hrec, d3 fs as ha]

/-- **C54** With rzCOBS, `defmt-print` prints every complete block of the input in order: the frame if
it can be decoded, otherwise it is skipped; then it waits for more data with the unfinished block. -/
theorem C54_rzcobs (td : List UInt8 → Except DecodeError (F × Nat)) (chunks : List (List UInt8)) :
    defmtPrint td .rzcobs chunks =
      some ((completeBlocks chunks.flatten).map (fun b => lineOf (report td b)), .wait (unfinished chunks.flatten)) :=
  (run_rzcobs td chunks [] (by simp)).1

/-- **C54** With the raw encoding, `defmt-print` prints all frames before the first malformed one and
then stops with an error. -/
theorem C54_raw (t : Table) (hs : t.Safe) (chunks : List (List UInt8)) (fs : List Frame) :
    defmtPrint t.td .raw chunks = some (fs.map .frame, .abort) ↔ RawMeans t.td chunks.flatten fs .abort := by
  obtain ⟨fs', e, h1, h2⟩ := C09_raw_stream t hs chunks
  constructor
  · intro h
    rw [h2] at h
    simp only [Option.some.injEq, Prod.mk.injEq] at h
    obtain ⟨hm, rfl⟩ := h
    have : fs' = fs := by
      have hinj : Function.Injective (Line.frame (F := Frame)) := fun a b h => by cases h; rfl
      exact (List.map_inj_right (fun a b h => hinj h)).mp hm
    exact this ▸ h1
  · intro h
    obtain ⟨rfl, rfl⟩ := RawMeans.unique h h1
    exact h2

/-- **C54** `qemu-run` prints the frames before the first malformed block and then stops, or waits for
more data if there is no malformed block. -/
theorem C54_qemu_run (td : List UInt8 → Except DecodeError (F × Nat)) (chunks : List (List UInt8)) :
    (∀ fs : List F, (completeBlocks chunks.flatten).map (report td) = fs.map .frame →
      qemuRun td .rzcobs chunks = some (fs.map .frame, .wait (unfinished chunks.flatten))) ∧
    ∀ (fs : List F) rest, (completeBlocks chunks.flatten).map (report td) = fs.map .frame ++ .err .malformed :: rest →
      qemuRun td .rzcobs chunks = some (fs.map .frame, .abort) :=
  (run_rzcobs td chunks [] (by simp)).2

/-- **C32** for the raw encoding: the log statements of a program, written one directly after the
other, are printed in order as exactly the frames logged. -/
theorem C32_raw_end_to_end (t : Table) (hs : t.Safe) (events : List LogEvent) (hok : ∀ e ∈ events, e.Ok t) :
    ∃ payloads : List (List UInt8), events.map LogEvent.bytes = payloads.map some ∧
      ∀ chunks : List (List UInt8), chunks.flatten = payloads.flatten →
        defmtPrint t.td .raw chunks = some (events.map (fun e => .frame e.frame), .wait []) := by
  have key : ∃ payloads : List (List UInt8), events.map LogEvent.bytes = payloads.map some ∧
      RawMeans t.td payloads.flatten (events.map LogEvent.frame) (.wait []) := by
    induction events with
    | nil => exact ⟨[], rfl, .incomplete rfl⟩
    | cons e es ih =>
      obtain ⟨ps, h1, h2⟩ := ih (fun e he => hok e (by simp [he]))
      obtain ⟨b, h4, h5⟩ := C23_log_roundtrip t e (hok e (by simp))
      refine ⟨b :: ps, by rw [List.map_cons, List.map_cons, h1, h4], ?_⟩
      refine .frame (n := b.length) ?_ ?_
      · rw [List.flatten_cons]
        unfold Table.td
        rw [h5]
      · simpa using h2
  obtain ⟨ps, h1, h2⟩ := key
  refine ⟨ps, h1, ?_⟩
  intro chunks hc
  obtain ⟨fs', e, h3, h4⟩ := C09_raw_stream t hs chunks
  rw [hc] at h3
  obtain ⟨rfl, rfl⟩ := RawMeans.unique h2 h3
  rw [h4, List.map_map]
  rfl

/-- a block that is not a frame -/
example : defmtPrint demoTable.td .rzcobs [[1], [2, 0]] = some ([.skipped], .wait []) := by rfl

/-- two frames, then something malformed, in chunks that cut a frame -/
example : defmtPrint (Table.td ⟨none, fun i => if i = 1 then some ⟨.info, c!"{=u8}"⟩ else none⟩) .raw
    [[1, 0, 5, 1], [0, 6, 9], [9, 9]] =
    some ([.frame ⟨some .info, 1, none, [], c!"{=u8}", [.uxx 5]⟩, .frame ⟨some .info, 1, none, [], c!"{=u8}", [.uxx 6]⟩],
      .abort) := by rfl

example : ∃ payloads : List (List UInt8), [demoEvent, demoEvent].map LogEvent.bytes = payloads.map some :=
  (C32_raw_end_to_end demoTable demoTable_safe [demoEvent, demoEvent] (by simp [demoEvent_ok])).imp fun _ h => h.1

end Defmt
