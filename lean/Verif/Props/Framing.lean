import Verif.Spec.Stream
import Verif.Lemmas.Stream
/-!
# Properties C01–C08: framing

`frameBytes`, `frameBody`, `runFrames` are in `Verif.Spec.Rzcobs`; `completeBlocks`, `unfinished`,
`report`, `Reachable` in `Verif.Spec.Stream`.
-/

namespace Defmt

open _root_.Defmt.Rzcobs _root_.Defmt.Stream

/-- **C01** Decoding the body of any frame gives back the payload, followed by fewer than seven
zero bytes. -/
theorem C01_frame_roundtrip (payload : List UInt8) :
    ∃ k, k < 7 ∧ rzcobsDecode (frameBody payload) = some (payload ++ List.replicate k 0) := by
  obtain ⟨body, k, h1, h2, h3, h4, h5⟩ := frame_facts payload
  refine ⟨k, by omega, ?_⟩
  have hb : frameBody payload = body := by simp [frameBody, h1]
  have := h3 [] []
  rw [List.append_nil, dl_nil] at this
  rw [hb, rzcobsDecode_eq, this]
  simp

/-- non-trivial instance of C01: zeros at both ends and a run longer than seven bytes -/
example : rzcobsDecode (frameBody [0, 1, 2, 3, 4, 5, 6, 7, 8, 9, 10, 11, 12, 13, 14, 15, 16, 0]) =
    some [0, 1, 2, 3, 4, 5, 6, 7, 8, 9, 10, 11, 12, 13, 14, 15, 16, 0] := by decide +kernel

/-- **C02** A finished frame is a zero-free body and one final zero. -/
theorem C02_separator_unambiguous (payload : List UInt8) :
    frameBytes payload = frameBody payload ++ [0] ∧ ∀ b ∈ frameBody payload, b ≠ 0 := by
  obtain ⟨body, k, h1, h2, h3, h4, h5⟩ := frame_facts payload
  have hb : frameBody payload = body := by simp [frameBody, h1]
  rw [hb]
  exact ⟨h1, h4⟩

/-- **C02** (unfinished frames) As long as a frame is not ended no zero byte is emitted for it:
whatever is written after the previous frame's end, the bytes emitted are all nonzero. -/
theorem C02_unfinished_frame_has_no_separator (payload : List UInt8) (started : Bool) :
    ∀ b ∈ (Encoder.write { run := 0, zeros := 0, started := started } payload).2, b ≠ 0 := by
  have h := (Inv.write payload (Inv.start started))
  simp only [List.nil_append] at h
  obtain ⟨q, t, oq, hp, ho, hd, hnz, -⟩ := h.ex
  rw [ho]
  intro b hb
  rcases List.mem_append.mp hb with hb | hb
  · exact hnz b hb
  · exact nz_ne _ b hb

/-- **C03** Splitting the data of frames into `write` calls differently does not change anything on
the wire (from any encoder state). -/
theorem C03_write_splitting_irrelevant (e : Encoder) (frames frames' : List (List (List UInt8)))
    (h : frames.map List.flatten = frames'.map List.flatten) :
    runFrames e frames = runFrames e frames' := by
  induction frames generalizing e frames' with
  | nil =>
    cases frames' with
    | nil => rfl
    | cons _ _ => simp at h
  | cons f fs ih =>
    cases frames' with
    | nil => simp at h
    | cons f' fs' =>
      simp only [List.map_cons, List.cons.injEq] at h
      simp only [runFrames, go_eq, h.1]
      rw [ih _ fs' h.2]

example : runFrames Encoder.new [[[1, 2], [], [0, 3]]] = runFrames Encoder.new [[[1], [2, 0, 3]]] :=
  C03_write_splitting_irrelevant _ _ _ (by decide)

/-- encoding a list of frames with an encoder between frames -/
theorem runFrames_between (frames : List (List (List UInt8))) :
    runFrames { run := 0, zeros := 0, started := true } frames =
      ({ run := 0, zeros := 0, started := true }, (frames.map (fun ws => frameBytes ws.flatten)).flatten) := by
  induction frames with
  | nil => rfl
  | cons f fs ih =>
    have hst := Encoder.write_started { run := 0, zeros := 0, started := true } f.flatten
    have h := (Inv.write f.flatten (Inv.start true))
    simp only [List.nil_append] at h
    obtain ⟨body, k, h1, -, -, -, -, h6⟩ := h.endFrame
    have hs : (Encoder.startFrame { run := 0, zeros := 0, started := true }) =
        ({ run := 0, zeros := 0, started := true }, []) := rfl
    simp only [runFrames, go_eq, hs, h6, hst, ih, List.map_cons, List.flatten_cons, List.nil_append]
    simp [frameBytes]

/-- **C04** Starting from a fresh encoder, everything on the wire is one separator followed by the
frames, each encoded as if it were alone; and the encoder is then ready for the next frame. -/
theorem C04_frames_independent (frames : List (List (List UInt8))) (hne : frames ≠ []) :
    runFrames Encoder.new frames =
      ({ run := 0, zeros := 0, started := true },
        [0] ++ (frames.map (fun writes => frameBytes writes.flatten)).flatten) := by
  cases frames with
  | nil => exact absurd rfl hne
  | cons f fs =>
    have h := runFrames_between (f :: fs)
    simp only [runFrames, go_eq] at h ⊢
    have hs : (Encoder.startFrame { run := 0, zeros := 0, started := true }) =
        ({ run := 0, zeros := 0, started := true }, []) := rfl
    have hn : Encoder.new.startFrame = ({ run := 0, zeros := 0, started := true }, [0]) := rfl
    rw [hn]
    rw [hs] at h
    simp only [List.nil_append, Prod.mk.injEq] at h ⊢
    refine ⟨h.1, ?_⟩
    rw [← h.2]; simp

example : (runFrames Encoder.new [[[1]], [[0, 2], [3]]]).2 = [0, 1, 0x7e, 0, 2, 3, 0x79, 0] := by
  decide +kernel

/-- **C05** Size of an encoded frame body. -/
theorem C05_overhead_bound (payload : List UInt8) :
    (frameBody payload).length ≤ payload.length + payload.length / 134 + 1 := by
  obtain ⟨body, k, h1, h2, h3, h4, h5⟩ := frame_facts payload
  have hb : frameBody payload = body := by simp [frameBody, h1]
  rw [hb]; exact h5

/-- the bound of C05 is attained -/
example : (frameBody [1, 2, 3, 4, 5, 6]).length = 6 + 6 / 134 + 1 := by decide +kernel

variable {F : Type}

/-- **C06** For every byte sequence and every way to cut it into chunks, draining after each chunk
reports exactly one result per complete block of the sequence, in order, and keeps exactly the
unfinished block. (`feed` returns `none` if the drain loop did not terminate.) -/
theorem C06_stream_meaning (td : List UInt8 → Except DecodeError (F × Nat))
    (chunks : List (List UInt8)) :
    Rzcobs.feed td [] chunks =
      some (unfinished chunks.flatten, (completeBlocks chunks.flatten).map (report td)) :=
  feed_spec td chunks [] (by simp)

/-- **C06** Chunking does not matter. -/
theorem C06_chunking_irrelevant (td : List UInt8 → Except DecodeError (F × Nat))
    (chunks chunks' : List (List UInt8)) (h : chunks.flatten = chunks'.flatten) :
    Rzcobs.feed td [] chunks = Rzcobs.feed td [] chunks' := by
  rw [C06_stream_meaning, C06_stream_meaning, h]

example : Rzcobs.feed (F := Nat) (fun b => .ok (b.length, b.length)) []
      [[0, 1, 2], [0x7c, 0, 0], [5, 0x7e], [0, 9]] =
    some ([9], [.frame 7, .frame 7]) := by decide +kernel

theorem completeBlocks_frames (payloads : List (List UInt8)) (hne : ∀ p ∈ payloads, p ≠ []) :
    scan [] (payloads.map frameBytes).flatten = (payloads.map frameBody, []) := by
  induction payloads with
  | nil => rfl
  | cons p ps ih =>
    obtain ⟨h1, h2⟩ := C02_separator_unambiguous p
    have hb : frameBody p ≠ [] := by
      intro h
      obtain ⟨k, hk, h3⟩ := C01_frame_roundtrip p
      rw [h] at h3
      have : p ++ List.replicate k 0 = [] := by
        simpa [rzcobsDecode, decodeLoop] using h3.symm
      exact hne p (by simp) (List.append_eq_nil_iff.mp this).1
    simp only [List.map_cons, List.flatten_cons]
    rw [h1, List.append_assoc, List.singleton_append, scan_block _ _ h2 hb,
      ih (fun q hq => hne q (by simp [hq]))]

/-- **C07** Any garbage, then a separator, then intact frames, in any chunks: the results are those
of the garbage alone followed by one result per frame in order, each decoded from the payload plus
zero padding; nothing is left over. -/
theorem C07_resynchronise (td : List UInt8 → Except DecodeError (F × Nat))
    (garbage : List UInt8) (payloads : List (List UInt8)) (hne : ∀ p ∈ payloads, p ≠ [])
    (chunks : List (List UInt8))
    (hc : chunks.flatten = garbage ++ [0] ++ (payloads.map frameBytes).flatten) :
    ∃ pad : List UInt8 → Nat, (∀ p, pad p < 7) ∧
    Rzcobs.feed td [] chunks =
      some ([], (completeBlocks (garbage ++ [0])).map (report td) ++
        payloads.map (fun p =>
          match td (p ++ List.replicate (pad p) 0) with
          | .ok (f, _) => .frame f
          | .error _ => .err .malformed)) := by
  have hpad : ∃ pad : List UInt8 → Nat, ∀ p, pad p < 7 ∧
      rzcobsDecode (frameBody p) = some (p ++ List.replicate (pad p) 0) :=
    ⟨fun p => (C01_frame_roundtrip p).choose, fun p => (C01_frame_roundtrip p).choose_spec⟩
  obtain ⟨pad, hpad⟩ := hpad
  refine ⟨pad, fun p => (hpad p).1, ?_⟩
  rw [C06_stream_meaning, hc]
  have hu : (scan [] (garbage ++ [0])).2 = [] := by rw [scan_append]; simp [scan]
  have hs := scan_append (garbage ++ [0]) [] (payloads.map frameBytes).flatten
  rw [hu, completeBlocks_frames payloads hne] at hs
  simp only [unfinished, completeBlocks, hs, List.map_append, List.map_map]
  congr 3
  apply List.map_congr_left
  intro p _
  show report td (frameBody p) = _
  unfold report
  rw [(hpad p).2]
  dsimp only
  cases td (p ++ List.replicate (pad p) 0) <;> rfl

/-- C07 with garbage that swallows a separator-less fragment; both frames come through -/
example : Rzcobs.feed (F := List UInt8) (fun b => .ok (b, b.length)) []
      [[7, 7, 0x42], [7, 0] ++ frameBytes [1, 2], frameBytes [3]] =
    some ([], [.err .malformed, .frame [1, 2, 0, 0, 0, 0, 0], .frame [3, 0, 0, 0, 0, 0, 0]]) := by
  decide +kernel

/-- **C08** In every reachable state, for every table: the assertion in `decode` holds, a call that
does not ask for more data shrinks the buffer, and a call that asks for more data leaves the buffer
unchanged and there is no separator in it; a buffer never starts with a separator. -/
theorem C08_progress (td : List UInt8 → Except DecodeError (F × Nat)) (raw : List UInt8)
    (h : Reachable td raw) :
    (raw.head? ≠ some 0) ∧ (Rzcobs.decode td raw).2 ≠ .panicked ∧
    ((Rzcobs.decode td raw).2 ≠ .err .unexpectedEof →
      (Rzcobs.decode td raw).1.length < raw.length) ∧
    ((Rzcobs.decode td raw).2 = .err .unexpectedEof →
      (Rzcobs.decode td raw).1 = raw ∧ ∀ b ∈ raw, b ≠ 0) := by
  refine ⟨by rcases reachable_inv td h with rfl | h <;> simp_all, ?_⟩
  cases hp : position (· == 0) raw with
  | none =>
    have hz := (position_zero_none raw).mp hp
    rw [decode_none td raw hz]
    exact ⟨by simp, by simp, fun _ => ⟨rfl, hz⟩⟩
  | some k =>
    obtain ⟨rest, h1, h2, h3⟩ := decode_some td raw k hp
    rw [h3]
    refine ⟨report_ne_panicked td _, fun _ => ?_, fun h => absurd h (report_ne_eof td _)⟩
    have hl : raw.length = (raw.take k).length + 1 + rest.length := by
      have := congrArg List.length h1
      simp only [List.length_append, List.length_cons] at this
      omega
    have := trimZeros_len rest
    simp only; omega

/-- a reachable state with a frame in it -/
example : Reachable (F := Nat) (fun b => .ok (b.length, b.length))
    (Rzcobs.received [] [0, 0, 1, 0x7e, 0, 4]) := .received _ .new

end Defmt
