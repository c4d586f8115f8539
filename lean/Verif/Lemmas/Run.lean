import Verif.Spec.Run
import Verif.Lemmas.Elf
import Verif.Props.Dwarf
/-! Lemmas for C98 and C99. -/

namespace Defmt.Run

open HostLog Elf Dwarf Parser

/-- the keys of the table are addresses of symbols -/
theorem entry_address {f : ElfFile} {check : Bool} {t : FullTable} (h : parseImpl f check = .ok (some t)) {i : Nat} {e : TableEntry}
    (he : t.entries i = some e) : ∃ s ∈ f.symbols, s.address = i := by
  rw [parseImpl_some] at h
  obtain ⟨data, v, en, enc, -, -, -, -, -, -, -, rfl⟩ := h
  have hm := List.mem_of_getLast? he
  obtain ⟨it, hit, hx⟩ := List.mem_filterMap.mp hm
  obtain ⟨s, hs, hi⟩ := List.mem_filterMap.mp hit
  cases it with
  | entry a x =>
    simp only [Item.entry?] at hx
    split at hx
    · rename_i hia
      refine ⟨s, hs, ?_⟩
      have : symbolItem data s = .ok (.entry a x) := by
        cases hq : symbolItem data s with
        | ok y => rw [hq] at hi; simp only [okItem, Option.some.injEq] at hi; rw [hi]
        | err _ => rw [hq] at hi; cases hi
        | panic => rw [hq] at hi; cases hi
      unfold symbolItem at this
      repeat' split at this
      all_goals first
        | (cases this; done)
        | (simp only [Outcome.ok.injEq, Item.entry.injEq] at this; omega)
        | (exfalso; unfold flagItem at this; repeat' split at this
           all_goals simp at this)
    · cases hx
  | _ => simp [Item.entry?] at hx

theorem mem_rawSymbols {f : ElfFile} {check : Bool} {t : FullTable} (h : parseImpl f check = .ok (some t)) (s : List Char) :
    s ∈ rawSymbols f t ↔ ∃ i e, t.entries i = some e ∧ s = e.rawSymbol := by
  unfold rawSymbols
  rw [List.mem_filterMap]
  constructor
  · rintro ⟨x, -, hx⟩
    cases he : t.entries x.address with
    | none => rw [he] at hx; cases hx
    | some e => rw [he] at hx; cases hx; exact ⟨_, e, he, rfl⟩
  · rintro ⟨i, e, he, rfl⟩
    obtain ⟨x, hx, rfl⟩ := entry_address h he
    exact ⟨x, hx, by rw [he]; rfl⟩

theorem mem_indices {f : ElfFile} {check : Bool} {t : FullTable} (h : parseImpl f check = .ok (some t)) (i : Nat) :
    i ∈ indices f t ↔ ∃ e, t.entries i = some e ∧ IsMessage e.string := by
  unfold indices
  rw [List.mem_filter]
  constructor
  · rintro ⟨-, hi⟩
    cases he : t.entries i with
    | none => rw [he] at hi; cases hi
    | some e => rw [he] at hi; exact ⟨e, rfl, (isIndex_iff _).mp hi⟩
  · rintro ⟨e, he, hm⟩
    obtain ⟨x, hx, rfl⟩ := entry_address h he
    refine ⟨List.mem_map.mpr ⟨x, hx, rfl⟩, ?_⟩
    rw [he]
    exact (isIndex_iff _).mpr hm

/-- what `setup` reads -/
theorem setup_reading {env : Env} {o : Options} {file : Option Binary} {s : Session} {ws : Writes}
    (h : setup env o file = (.reading s, ws)) :
    ∃ b, file = some b ∧ Loaded env o b s.table s.env s.opts ∧ newFormatters s.opts s.table.timestamp.isSome = some s.fmt ∧
      s.buffer = [] ∧ ws = initLogger s.opts := by
  unfold setup at h
  split at h
  · cases h
  · rename_i b
    refine ⟨b, rfl, ?_⟩
    cases hp : parseImpl b.elf true with
    | err e => rw [hp] at h; cases h
    | panic => rw [hp] at h; cases h
    | ok r =>
      cases r with
      | none => rw [hp] at h; cases h
      | some t =>
        rw [hp] at h
        dsimp only at h
        cases hg : getLocations b.units (rawSymbols b.elf t) with
        | error e => rw [hg] at h; cases h
        | ok locs =>
          rw [hg] at h
          dsimp only at h
          cases hn : newFormatters { o with locations := locs, indices := indices b.elf t } t.timestamp.isSome with
          | none => rw [hn] at h; cases h
          | some fmt =>
            rw [hn] at h
            cases h
            exact ⟨⟨hp, rfl, locs, _, rfl, mem_indices hp, _, mem_rawSymbols hp, hg⟩, hn, rfl, rfl⟩

/-- `getLocations` depends on the set of symbols only -/
theorem visitVariable_congr {u : DwarfUnit} {l l' : List (List Char)} (h : ∀ s, s ∈ l ↔ s ∈ l') (segs : List (List Char)) (d : Die)
    (m : Locations) : visitVariable u l segs d m = visitVariable u l' segs d m := by
  have e : ∀ x, (l.any (fun s => s = x)) = (l'.any (fun s => s = x)) := by
    intro x
    rw [Bool.eq_iff_iff]
    simp only [List.any_eq_true, decide_eq_true_eq]
    constructor
    · rintro ⟨s, hs, rfl⟩; exact ⟨s, (h _).mp hs, rfl⟩
    · rintro ⟨s, hs, rfl⟩; exact ⟨s, (h _).mpr hs, rfl⟩
  unfold visitVariable
  simp only [e]

theorem visit_congr {u : DwarfUnit} {l l' : List (List Char)} (h : ∀ s, s ∈ l ↔ s ∈ l') (ds : List (Int × Die)) :
    ∀ (depth : Int) (segs : List (List Char)) (m : Locations), visit u l ds depth segs m = visit u l' ds depth segs m := by
  induction ds with
  | nil => intro _ _ _; rfl
  | cons d ds ih =>
    intro depth segs m
    obtain ⟨delta, die⟩ := d
    simp only [visit, visitVariable_congr h, ih]

theorem visitUnits_congr {l l' : List (List Char)} (h : ∀ s, s ∈ l ↔ s ∈ l') (us : List (Option DwarfUnit)) :
    ∀ m : Locations, visitUnits l us m = visitUnits l' us m := by
  induction us with
  | nil => intro _; rfl
  | cons u us ih =>
    intro m
    cases u with
    | none => rfl
    | some u => simp only [visitUnits, visit_congr h, ih]

theorem getLocations_congr {l l' : List (List Char)} (h : ∀ s, s ∈ l ↔ s ∈ l') (us : List (Option DwarfUnit)) :
    getLocations us l = getLocations us l' := visitUnits_congr h us _

/-- the indices of the table can be listed in any way -/
theorem locs_congr {o : Options} {l l' : List Nat} (h : ∀ i, i ∈ l ↔ i ∈ l') : locs { o with indices := l } = locs { o with indices := l' } := by
  have e : (l.all fun i => (o.locations i).isSome) = (l'.all fun i => (o.locations i).isSome) := by
    rw [Bool.eq_iff_iff]
    simp only [List.all_eq_true]
    exact ⟨fun k i hi => k i ((h i).mpr hi), fun k i hi => k i ((h i).mp hi)⟩
  unfold locs
  simp only [e]

/-! ### the printer on one more chunk -/

variable {F : Type}

theorem run_snoc (td : List UInt8 → Except DecodeError (F × Nat)) (enc : Encoding) (recover : Bool) (c : List UInt8) (cs : List (List UInt8)) :
    ∀ (buffer : List UInt8) (units : List (Printer.Line F)) (b : List UInt8), Printer.run td enc recover buffer cs = some (units, .wait b) →
      Printer.run td enc recover buffer (cs ++ [c]) =
        (Printer.drain td enc recover ((Printer.received enc b c).length + 1) (Printer.received enc b c)).map
          (fun r => (units ++ r.1, r.2)) := by
  induction cs with
  | nil =>
    intro buffer units b h
    simp only [Printer.run, Option.some.injEq, Prod.mk.injEq, Printer.Next.wait.injEq] at h
    obtain ⟨rfl, rfl⟩ := h
    simp only [List.nil_append, Printer.run]
    cases Printer.drain td enc recover ((Printer.received enc buffer c).length + 1) (Printer.received enc buffer c) with
    | none => rfl
    | some r =>
      obtain ⟨us, next⟩ := r
      cases next <;> simp
  | cons d cs ih =>
    intro buffer units b h
    simp only [Printer.run, List.cons_append] at h ⊢
    cases hd : Printer.drain td enc recover ((Printer.received enc buffer d).length + 1) (Printer.received enc buffer d) with
    | none => rw [hd] at h; cases h
    | some r =>
      obtain ⟨us, next⟩ := r
      rw [hd] at h
      cases next with
      | wait buf =>
        dsimp only at h ⊢
        cases hr : Printer.run td enc recover buf cs with
        | none => rw [hr] at h; cases h
        | some q =>
          rw [hr] at h
          simp only [Option.map_some, Option.some.injEq, Prod.mk.injEq] at h
          obtain ⟨rfl, hq⟩ := h
          have : Printer.run td enc recover buf cs = some (q.1, .wait b) := by rw [hr, ← hq]
          rw [ih buf q.1 b this]
          cases Printer.drain td enc recover ((Printer.received enc b c).length + 1) (Printer.received enc b c) with
          | none => rfl
          | some x => simp
      | abort => cases h
      | panicked => cases h

theorem printLines_append (env : Env) (o : Options) (fmt : Formatters) (us vs : List (Printer.Line Frame)) :
    ∀ (now : Nat → Int) (ws ws' : Writes), printLines env o fmt now us = some ws →
      printLines env o fmt (fun k => now (us.length + k)) vs = some ws' → printLines env o fmt now (us ++ vs) = some (ws ++ ws') := by
  induction us with
  | nil =>
    intro now ws ws' h h'
    simp only [printLines, Option.some.injEq] at h
    subst h
    simpa using h'
  | cons u us ih =>
    intro now ws ws' h h'
    have e : (fun k => now ((u :: us).length + k)) = (fun k => (fun j => now (j + 1)) (us.length + k)) := by
      funext k
      simp only [List.length_cons]
      congr 1
      omega
    rw [e] at h'
    cases u with
    | frame f =>
      simp only [printLines, List.cons_append] at h ⊢
      cases h1 : forwardToLogger env o fmt (now 0) f with
      | none => rw [h1] at h; cases h
      | some w =>
        cases h2 : printLines env o fmt (fun k => now (k + 1)) us with
        | none => rw [h1, h2] at h; cases h
        | some w2 =>
          rw [h1, h2] at h
          simp only [Option.some.injEq] at h
          subst h
          rw [ih _ w2 ws' h2 h']
          simp
    | skipped =>
      simp only [printLines, List.cons_append] at h ⊢
      cases h2 : printLines env o fmt (fun k => now (k + 1)) us with
      | none => rw [h2] at h; cases h
      | some w2 =>
        rw [h2] at h
        simp only [Option.map_some, Option.some.injEq] at h
        subst h
        rw [ih _ w2 ws' h2 h']
        simp

end Defmt.Run

namespace Defmt.Run

open HostLog Elf Dwarf Parser

/-! ### the invariant -/

/-- the part of the life since the file was loaded last -/
structure Current (env : Env) (o : Options) (now : Nat → Int) (s : Session) (b : Binary) (cs : List (List UInt8)) (n : Nat) (ws : Writes)
    (m : Nat) : Prop where
  loaded : Loaded env o b s.table s.env s.opts
  fmt : newFormatters s.opts s.table.timestamp.isSome = some s.fmt
  printed : ∃ units ws', Printer.defmtPrint s.table.decoding.td (streamEncoding s.table.encoding) cs = some (units, .wait s.buffer) ∧
    printLines s.env s.opts s.fmt (fun k => now (n + k)) units = some ws' ∧ ws = initLogger s.opts ++ ws' ∧ m = n + units.length

theorem Current.start {env : Env} {o : Options} (now : Nat → Int) {file : Option Binary} {s : Session} {ws : Writes} (n : Nat)
    (h : setup env o file = (.reading s, ws)) : ∃ b, file = some b ∧ Current env o now s b [] n ws n := by
  obtain ⟨b, h1, h2, h3, h4, h5⟩ := setup_reading h
  exact ⟨b, h1, h2, h3, [], [], by rw [h4]; rfl, rfl, by rw [h5]; simp, rfl⟩

theorem Current.transcript {env : Env} {o : Options} {now : Nat → Int} {s : Session} {b : Binary} {cs : List (List UInt8)} {n m : Nat}
    {ws : Writes} (h : Current env o now s b cs n ws m) {ps : List Part} {ws0 : Writes} (ht : Transcript env o now ps ws0 n) :
    Transcript env o now (ps ++ [(b, cs)]) (ws0 ++ ws) m := by
  obtain ⟨h1, h2, units, ws', h3, h4, rfl, rfl⟩ := h
  refine .part ht h1 (rest := s.buffer) ?_ h3
  simp only [HostLog.defmtPrint, h2, h3, h4, Option.map_some]

/-- a chunk after which the program still reads -/
theorem feed_reading {now : Nat → Int} {s s' : Session} {st : State} {bytes : List UInt8} (h : (feed now bytes s st).status = .reading s') :
    ∃ units ws buf, Printer.drain s.table.decoding.td (streamEncoding s.table.encoding) (streamEncoding s.table.encoding).canRecover
        ((Printer.received (streamEncoding s.table.encoding) s.buffer bytes).length + 1) (Printer.received (streamEncoding s.table.encoding) s.buffer bytes) =
          some (units, .wait buf) ∧
      printLines s.env s.opts s.fmt (fun k => now (st.count + k)) units = some ws ∧ s' = { s with buffer := buf } ∧
      feed now bytes s st = { st with output := st.output ++ ws, count := st.count + units.length, status := .reading s' } := by
  unfold feed at h ⊢
  dsimp only at h ⊢
  cases hd : Printer.drain s.table.decoding.td (streamEncoding s.table.encoding) (streamEncoding s.table.encoding).canRecover
        ((Printer.received (streamEncoding s.table.encoding) s.buffer bytes).length + 1) (Printer.received (streamEncoding s.table.encoding) s.buffer bytes) with
  | none => rw [hd] at h; cases h
  | some r =>
    obtain ⟨units, next⟩ := r
    rw [hd] at h
    dsimp only at h
    cases hp : printLines s.env s.opts s.fmt (fun k => now (st.count + k)) units with
    | none => rw [hp] at h; cases h
    | some ws =>
      rw [hp] at h
      dsimp only at h
      cases next with
      | wait buf => cases h; exact ⟨units, ws, buf, rfl, hp, rfl, by dsimp only; rw [hp]⟩
      | abort => cases h
      | panicked => cases h

/-- one more chunk -/
theorem Current.feed {env : Env} {o : Options} {now : Nat → Int} {s : Session} {b : Binary} {cs : List (List UInt8)} {n : Nat}
    {ws ws0 : Writes} {st : State} (h : Current env o now s b cs n ws st.count) (ho : st.output = ws0 ++ ws) (bytes : List UInt8)
    (s' : Session) (hs : (feed now bytes s st).status = .reading s') :
    (feed now bytes s st).file = st.file ∧
      ∃ ws1, Current env o now s' b (cs ++ [bytes]) n ws1 (Run.feed now bytes s st).count ∧ (Run.feed now bytes s st).output = ws0 ++ ws1 := by
  obtain ⟨us, wsn, buf, hd, hp, rfl, he⟩ := feed_reading hs
  obtain ⟨h1, h2, units, ws', h3, h4, rfl, h6⟩ := h
  rw [he]
  refine ⟨rfl, initLogger s.opts ++ (ws' ++ wsn), ⟨h1, h2, units ++ us, ws' ++ wsn, ?_, ?_, rfl, ?_⟩, ?_⟩
  · have := run_snoc s.table.decoding.td (streamEncoding s.table.encoding) (streamEncoding s.table.encoding).canRecover bytes cs [] units s.buffer h3
    unfold Printer.defmtPrint
    rw [this, hd]
    rfl
  · refine printLines_append _ _ _ _ _ _ _ _ h4 ?_
    rw [← hp, h6]
    congr 1
    funext k
    congr 1
    omega
  · simp only [List.length_append]; omega
  · simp only [ho, List.append_assoc]

/-- the invariant of the program -/
structure Inv (env : Env) (o : Options) (source : Source) (watch : Bool) (now : Nat → Int) (first : Option Binary) (es : List Event) (st : State)
    (s : Session) (ps : List Part) (b : Binary) (cs : List (List UInt8)) (ws0 : Writes) (n : Nat) (ws : Writes) : Prop where
  status : st.status = .reading s
  history : History source watch first es st.file (ps ++ [(b, cs)])
  before : Transcript env o now ps ws0 n
  current : Current env o now s b cs n ws st.count
  output : st.output = ws0 ++ ws

variable {env : Env} {o : Options} {source : Source} {watch : Bool} {now : Nat → Int} {first : Option Binary}

theorem restart_reading {st : State} {s : Session} (h : (restart env o st).status = .reading s) :
    ∃ b ws, st.file = some b ∧ Current env o now s b [] st.count ws st.count ∧ (restart env o st).output = st.output ++ ws ∧
      (restart env o st).count = st.count ∧ (restart env o st).file = st.file := by
  have : setup env o st.file = (.reading s, (setup env o st.file).2) := by rw [← show (setup env o st.file).1 = .reading s from h]
  obtain ⟨b, h1, h2⟩ := Current.start now st.count this
  exact ⟨b, _, h1, h2, rfl, rfl, rfl⟩

theorem inv_start {s : Session} (h : (start env o watch first).status = .reading s) :
    ∃ b ws, Inv env o source watch now first [] (start env o watch first) s [] b [] [] 0 ws := by
  unfold start at h ⊢
  split at h
  · cases h
  · obtain ⟨b, ws, h1, h2, h3, h4, h5⟩ := restart_reading (now := now) h
    rw [if_neg (by assumption)]
    refine ⟨b, ws, h, ?_, .nil, ?_, h3⟩
    · rw [h5]; exact .start h1
    · rw [h4]; exact h2

theorem inv_step {es : List Event} {st : State} {s s' : Session} {ps : List Part} {b : Binary} {cs : List (List UInt8)} {ws0 ws : Writes} {n : Nat}
    (h : Inv env o source watch now first es st s ps b cs ws0 n ws) (e : Event) (hs : (step env o source watch now st e).status = .reading s') :
    ∃ ps' b' cs' ws0' n' ws', Inv env o source watch now first (es ++ [e]) (step env o source watch now st e) s' ps' b' cs' ws0' n' ws' := by
  have hst := h.status
  unfold step at hs ⊢
  rw [hst] at hs ⊢
  cases e with
  | data bytes =>
    dsimp only at hs ⊢
    obtain ⟨h1, ws1, h2, h3⟩ := h.current.feed h.output bytes s' hs
    exact ⟨ps, b, _, ws0, n, ws1, hs, by rw [h1]; exact .data h.history, h.before, h2, h3⟩
  | closed =>
    dsimp only at hs ⊢
    by_cases h1 : source = .stdin
    · rw [if_pos h1] at hs ⊢
      by_cases h2 : watch = true
      · rw [if_pos h2] at hs ⊢
        obtain ⟨b', ws', k1, k2, k3, k4, k5⟩ := restart_reading (now := now) hs
        refine ⟨_, b', [], _, st.count, ws', hs, ?_, h.current.transcript h.before, by rw [k4]; exact k2, by rw [k3, h.output]⟩
        rw [k5, k1]
        have := h.history
        rw [k1] at this
        exact .again this h2 h1
      · rw [if_neg h2] at hs
        cases hs
    · rw [if_neg h1] at hs ⊢
      obtain ⟨k1, ws1, k2, k3⟩ := h.current.feed h.output [] s' hs
      exact ⟨ps, b, _, ws0, n, ws1, hs, by rw [k1]; exact .nothing h.history h1, h.before, k2, k3⟩
  | broken => cases hs
  | file f notified =>
    dsimp only at hs ⊢
    cases hw : (watch && notified) with
    | false =>
      rw [hw] at hs
      simp only [Bool.false_eq_true, ↓reduceIte] at hs ⊢
      cases hs
      exact ⟨ps, b, cs, ws0, n, ws, rfl, .unnoticed h.history hw, h.before, h.current, h.output⟩
    | true =>
      rw [hw] at hs
      simp only [↓reduceIte] at hs ⊢
      obtain ⟨b', ws', k1, k2, k3, k4, k5⟩ := restart_reading (now := now) hs
      dsimp only at k1 k2 k3 k4 k5
      subst k1
      rw [Bool.and_eq_true] at hw
      refine ⟨_, b', [], _, st.count, ws', hs, ?_, h.current.transcript h.before, by rw [k4]; exact k2, by rw [k3, h.output]⟩
      rw [k5, hw.2]
      exact .noticed h.history hw.1

theorem runEvents_snoc (file : Option Binary) (es : List Event) (e : Event) :
    runEvents env o source watch now file (es ++ [e]) = step env o source watch now (runEvents env o source watch now file es) e := by
  simp [runEvents, List.foldl_append]

/-- only a state that reads leads to one -/
theorem step_reading {st : State} {e : Event} {s' : Session} (hs : (step env o source watch now st e).status = .reading s') : ∃ s, st.status = .reading s := by
  cases h : st.status with
  | reading s => exact ⟨s, rfl⟩
  | _ =>
    unfold step at hs
    rw [h] at hs
    cases e <;> (dsimp only at hs; first | (rw [h] at hs; cases hs) | cases hs)

/-- induction from the end of a list -/
theorem snoc_induction {α : Type} {P : List α → Prop} (h0 : P []) (h1 : ∀ l a, P l → P (l ++ [a])) (l : List α) : P l := by
  have : ∀ n (l : List α), l.length = n → P l := by
    intro n
    induction n with
    | zero => intro l hl; rw [List.length_eq_zero_iff.mp hl]; exact h0
    | succ n ih =>
      intro l hl
      rcases List.eq_nil_or_concat l with rfl | ⟨l', a, rfl⟩
      · cases hl
      · rw [List.concat_eq_append] at hl ⊢
        exact h1 _ _ (ih _ (by simpa using hl))
  exact this _ l rfl

theorem inv_run (es : List Event) : ∀ s, (runEvents env o source watch now first es).status = .reading s →
    ∃ ps b cs ws0 n ws, Inv env o source watch now first es (runEvents env o source watch now first es) s ps b cs ws0 n ws := by
  induction es using snoc_induction with
  | h0 =>
    intro s h
    obtain ⟨b, ws, hi⟩ := inv_start (source := source) (now := now) (s := s) (show (start env o watch first).status = _ from h)
    exact ⟨[], b, [], [], 0, ws, hi⟩
  | h1 es e ih =>
    intro s' h
    rw [runEvents_snoc] at h
    obtain ⟨s, hs⟩ := step_reading h
    obtain ⟨ps, b, cs, ws0, n, ws, hi⟩ := ih s hs
    have := inv_step hi e h
    rw [← runEvents_snoc] at this
    exact this

/-! ### the converse -/

theorem transcript_snoc {ps : List Part} {b : Binary} {cs : List (List UInt8)} {ws : Writes} {n : Nat}
    (h : Transcript env o now (ps ++ [(b, cs)]) ws n) :
    ∃ ws0 n0 t env' o' ws' rest units, Transcript env o now ps ws0 n0 ∧ Loaded env o b t env' o' ∧
      HostLog.defmtPrint env' o' t.decoding.td t.timestamp.isSome (streamEncoding t.encoding) (fun k => now (n0 + k)) cs = some (ws', .wait rest) ∧
      Printer.defmtPrint t.decoding.td (streamEncoding t.encoding) cs = some (units, .wait rest) ∧ ws = ws0 ++ ws' ∧ n = n0 + units.length := by
  generalize hq : ps ++ [(b, cs)] = qs at h
  cases h with
  | nil => simp at hq
  | @part ps' ws0 n0 b' cs' t env' o' ws' rest units h1 h2 h3 h4 =>
    obtain ⟨rfl, h5⟩ := List.append_inj' hq rfl
    simp only [List.cons.injEq, Prod.mk.injEq, and_true] at h5
    obtain ⟨rfl, rfl⟩ := h5
    exact ⟨ws0, n0, t, env', o', ws', rest, units, h1, h2, h3, h4, rfl, rfl⟩

theorem locationInfo_congr {o : Options} {l l' : List Nat} (h : ∀ i, i ∈ l ↔ i ∈ l') (f : Frame) :
    locationInfo { o with indices := l } f = locationInfo { o with indices := l' } f := by
  unfold locationInfo
  rw [locs_congr h]

theorem printLines_congr {env : Env} {o : Options} {l l' : List Nat} (h : ∀ i, i ∈ l ↔ i ∈ l') (fmt : Formatters) (us : List (Printer.Line Frame)) :
    ∀ now : Nat → Int, printLines env { o with indices := l } fmt now us = printLines env { o with indices := l' } fmt now us := by
  induction us with
  | nil => intro _; rfl
  | cons u us ih =>
    intro now
    cases u with
    | frame f =>
      have e : forwardToLogger env { o with indices := l } fmt (now 0) f = forwardToLogger env { o with indices := l' } fmt (now 0) f := by
        unfold forwardToLogger
        rw [locationInfo_congr h]
        rfl
      simp only [printLines, e, ih]
    | skipped =>
      have e : skippedNote { o with indices := l } = skippedNote { o with indices := l' } := rfl
      simp only [printLines, e, ih]

theorem defmtPrint_congr {env : Env} {o : Options} {l l' : List Nat} (h : ∀ i, i ∈ l ↔ i ∈ l')
    (td : List UInt8 → Except DecodeError (Frame × Nat)) (ts : Bool) (enc : Defmt.Encoding) (now : Nat → Int) (cs : List (List UInt8)) :
    HostLog.defmtPrint env { o with indices := l } td ts enc now cs = HostLog.defmtPrint env { o with indices := l' } td ts enc now cs := by
  have e : newFormatters { o with indices := l } ts = newFormatters { o with indices := l' } ts := rfl
  have e' : initLogger { o with indices := l } = initLogger { o with indices := l' } := rfl
  unfold HostLog.defmtPrint
  simp only [e, e', printLines_congr h]

/-- a file is loaded in one way -/
theorem Loaded.unique {b : Binary} {t t' : FullTable} {e e' : Env} {p p' : Options} (h : Loaded env o b t e p) (h' : Loaded env o b t' e' p') :
    t' = t ∧ e' = e ∧ ∃ locs l l', p = { o with locations := locs, indices := l } ∧ p' = { o with locations := locs, indices := l' } ∧
      ∀ i, i ∈ l ↔ i ∈ l' := by
  have ht : t' = t := by
    have := h.table.symm.trans h'.table
    simp only [Outcome.ok.injEq, Option.some.injEq] at this
    exact this.symm
  subst ht
  obtain ⟨locs, l, h1, h2, syms, h3, h4⟩ := h.opts
  obtain ⟨locs', l', k1, k2, syms', k3, k4⟩ := h'.opts
  have : locs' = locs := by
    have hc := getLocations_congr (l := syms) (l' := syms') (fun s => by rw [h3, k3]) b.units
    rw [h4, k4] at hc
    exact (Except.ok.inj hc).symm
  subst this
  exact ⟨rfl, by rw [h.env, h'.env], locs', l, l', h1, k1, fun i => by rw [h2, k2]⟩

theorem Transcript.unique {ps : List Part} : ∀ {ws ws' : Writes} {n n' : Nat}, Transcript env o now ps ws n → Transcript env o now ps ws' n' →
    ws' = ws ∧ n' = n := by
  induction ps using snoc_induction with
  | h0 =>
    intro ws ws' n n' h h'
    have key : ∀ {ws : Writes} {n : Nat}, Transcript env o now [] ws n → ws = [] ∧ n = 0 := by
      intro ws n h
      generalize hq : ([] : List Part) = qs at h
      cases h with
      | nil => exact ⟨rfl, rfl⟩
      | part => simp at hq
    obtain ⟨rfl, rfl⟩ := key h
    obtain ⟨rfl, rfl⟩ := key h'
    exact ⟨rfl, rfl⟩
  | h1 ps p ih =>
    obtain ⟨b, cs⟩ := p
    intro ws ws' n n' h h'
    obtain ⟨ws0, n0, t, e1, o1, w1, r1, u1, a1, a2, a3, a4, rfl, rfl⟩ := transcript_snoc h
    obtain ⟨ws0', n0', t', e2, o2, w2, r2, u2, b1, b2, b3, b4, rfl, rfl⟩ := transcript_snoc h'
    obtain ⟨rfl, rfl⟩ := ih a1 b1
    obtain ⟨rfl, rfl, locs, l, l', rfl, rfl, hl⟩ := a2.unique b2
    rw [defmtPrint_congr (o := { o with locations := locs }) hl] at a3
    have e3 := a3.symm.trans b3
    have e4 := a4.symm.trans b4
    simp only [Option.some.injEq, Prod.mk.injEq] at e3 e4
    rw [e3.1, e4.1]
    exact ⟨rfl, rfl⟩

theorem run_prefix {F : Type} (td : List UInt8 → Except DecodeError (F × Nat)) (enc : Encoding) (recover : Bool) (c : List UInt8) (cs : List (List UInt8)) :
    ∀ (buffer : List UInt8) (units : List (Printer.Line F)) (r : List UInt8), Printer.run td enc recover buffer (cs ++ [c]) = some (units, .wait r) →
      ∃ units' r', Printer.run td enc recover buffer cs = some (units', .wait r') := by
  induction cs with
  | nil => intro buffer _ _ _; exact ⟨[], buffer, rfl⟩
  | cons d cs ih =>
    intro buffer units r h
    simp only [List.cons_append, Printer.run] at h ⊢
    cases hd : Printer.drain td enc recover ((Printer.received enc buffer d).length + 1) (Printer.received enc buffer d) with
    | none => rw [hd] at h; cases h
    | some x =>
      obtain ⟨us, next⟩ := x
      rw [hd] at h
      cases next with
      | wait buf =>
        dsimp only at h ⊢
        cases hr : Printer.run td enc recover buf (cs ++ [c]) with
        | none => rw [hr] at h; cases h
        | some q =>
          rw [hr] at h
          simp only [Option.map_some, Option.some.injEq, Prod.mk.injEq] at h
          obtain ⟨u', r', hu⟩ := ih buf q.1 r (by rw [hr, ← h.2])
          exact ⟨us ++ u', r', by rw [hu]; rfl⟩
      | abort => cases h
      | panicked => cases h

theorem printLines_split {env : Env} {o : Options} {fmt : Formatters} {us vs : List (Printer.Line Frame)} :
    ∀ {now : Nat → Int} {ws : Writes}, printLines env o fmt now (us ++ vs) = some ws →
      ∃ w1 w2, printLines env o fmt now us = some w1 ∧ printLines env o fmt (fun k => now (us.length + k)) vs = some w2 := by
  induction us with
  | nil => intro now ws h; exact ⟨[], ws, rfl, by simpa using h⟩
  | cons u us ih =>
    intro now ws h
    have e : (fun k => now ((u :: us).length + k)) = (fun k => (fun j => now (j + 1)) (us.length + k)) := by
      funext k
      simp only [List.length_cons]
      congr 1
      omega
    rw [e]
    cases u with
    | frame f =>
      simp only [printLines, List.cons_append] at h ⊢
      cases h1 : forwardToLogger env o fmt (now 0) f with
      | none => rw [h1] at h; cases h
      | some w =>
        cases h2 : printLines env o fmt (fun k => now (k + 1)) (us ++ vs) with
        | none => rw [h1, h2] at h; cases h
        | some w2 =>
          obtain ⟨a, b, ha, hb⟩ := ih h2
          exact ⟨w ++ a, b, by rw [ha], hb⟩
    | skipped =>
      simp only [printLines, List.cons_append] at h ⊢
      cases h2 : printLines env o fmt (fun k => now (k + 1)) (us ++ vs) with
      | none => rw [h2] at h; cases h
      | some w2 =>
        obtain ⟨a, b, ha, hb⟩ := ih h2
        exact ⟨skippedNote o ++ a, b, by rw [ha]; rfl, hb⟩

/-- what `HostLog.defmtPrint` is made of -/
theorem defmtPrint_parts {env : Env} {o : Options} {td : List UInt8 → Except DecodeError (Frame × Nat)} {ts : Bool} {enc : Defmt.Encoding}
    {now : Nat → Int} {cs : List (List UInt8)} {ws : Writes} {next : Printer.Next} (h : HostLog.defmtPrint env o td ts enc now cs = some (ws, next)) :
    ∃ fmt units ws', newFormatters o ts = some fmt ∧ Printer.defmtPrint td enc cs = some (units, next) ∧
      printLines env o fmt now units = some ws' ∧ ws = initLogger o ++ ws' := by
  unfold HostLog.defmtPrint at h
  cases h1 : newFormatters o ts with
  | none => rw [h1] at h; cases h
  | some fmt =>
    rw [h1] at h
    cases h2 : Printer.defmtPrint td enc cs with
    | none => rw [h2] at h; cases h
    | some r =>
      obtain ⟨units, nx⟩ := r
      rw [h2] at h
      dsimp only at h
      cases h3 : printLines env o fmt now units with
      | none => rw [h3] at h; cases h
      | some ws' =>
        rw [h3] at h
        simp only [Option.map_some, Option.some.injEq, Prod.mk.injEq] at h
        obtain ⟨rfl, rfl⟩ := h
        exact ⟨fmt, units, ws', rfl, rfl, h3, rfl⟩

theorem setup_of_loaded {b : Binary} {t : FullTable} {env' : Env} {o' : Options} (h : Loaded env o b t env' o') {fmt : Formatters}
    (hf : newFormatters o' t.timestamp.isSome = some fmt) : ∃ s, (setup env o (some b)).1 = .reading s := by
  obtain ⟨locs, l, rfl, h2, syms, h3, h4⟩ := h.opts
  have hc := getLocations_congr (l := rawSymbols b.elf t) (l' := syms) (fun s => by rw [h3, mem_rawSymbols h.table]) b.units
  rw [h4] at hc
  have hf' : newFormatters { o with locations := locs, indices := indices b.elf t } t.timestamp.isSome = some fmt := hf
  simp only [setup, h.table, hc, hf']
  exact ⟨_, rfl⟩

/-- a transcript of a part is one of its beginning -/
theorem transcript_prefix {ps : List Part} {b : Binary} {cs : List (List UInt8)} {c : List UInt8} {ws : Writes} {n : Nat}
    (h : Transcript env o now (ps ++ [(b, cs ++ [c])]) ws n) : ∃ ws' n', Transcript env o now (ps ++ [(b, cs)]) ws' n' := by
  obtain ⟨ws0, n0, t, e1, o1, w1, r1, u1, a1, a2, a3, a4, rfl, rfl⟩ := transcript_snoc h
  obtain ⟨fmt, units, ws', b1, b2, b3, rfl⟩ := defmtPrint_parts a3
  obtain ⟨u', r', c1⟩ := run_prefix _ _ _ c cs _ _ _ b2
  have c2 := run_snoc _ _ _ c cs _ _ _ c1
  have hu : ∃ v, units = u' ++ v := by
    unfold Printer.defmtPrint at b2
    rw [b2] at c2
    cases hd : Printer.drain t.decoding.td (streamEncoding t.encoding) (streamEncoding t.encoding).canRecover
        ((Printer.received (streamEncoding t.encoding) r' c).length + 1) (Printer.received (streamEncoding t.encoding) r' c) with
    | none => rw [hd] at c2; cases c2
    | some x =>
      rw [hd] at c2
      simp only [Option.map_some, Option.some.injEq, Prod.mk.injEq] at c2
      exact ⟨_, c2.1⟩
  obtain ⟨v, rfl⟩ := hu
  obtain ⟨x1, x2, y1, y2⟩ := printLines_split b3
  refine ⟨_, _, .part a1 a2 (ws' := initLogger o1 ++ x1) (rest := r') ?_ c1⟩
  have c1' : Printer.defmtPrint t.decoding.td (streamEncoding t.encoding) cs = some (u', .wait r') := c1
  simp only [HostLog.defmtPrint, b1, c1', y1, Option.map_some]

/-- after a chunk that the transcript knows, the program still reads -/
theorem feed_of_transcript {st : State} {s : Session} {ps : List Part} {b : Binary} {cs : List (List UInt8)} {ws0 ws wsx : Writes} {n m : Nat}
    (h : Current env o now s b cs n ws st.count) (hb : Transcript env o now ps ws0 n) {c : List UInt8}
    (ht : Transcript env o now (ps ++ [(b, cs ++ [c])]) wsx m) : ∃ s', (feed now c s st).status = .reading s' := by
  obtain ⟨ws0', n0, t, e1, o1, w1, r1, u1, a1, a2, a3, a4, rfl, rfl⟩ := transcript_snoc ht
  obtain ⟨rfl, rfl⟩ := hb.unique a1
  obtain ⟨fmt, units, ws', b1, b2, b3, rfl⟩ := defmtPrint_parts a3
  obtain ⟨h1, h2, u0, w0, h3, h4, rfl, h6⟩ := h
  obtain ⟨rfl, rfl, locs, l, l', e2, rfl, hl⟩ := h1.unique a2
  have c2 := run_snoc _ _ _ c cs _ _ _ h3
  unfold Printer.defmtPrint at b2
  rw [b2] at c2
  cases hd : Printer.drain s.table.decoding.td (streamEncoding s.table.encoding) (streamEncoding s.table.encoding).canRecover
      ((Printer.received (streamEncoding s.table.encoding) s.buffer c).length + 1) (Printer.received (streamEncoding s.table.encoding) s.buffer c) with
  | none => rw [hd] at c2; cases c2
  | some x =>
    obtain ⟨v, next⟩ := x
    rw [hd] at c2
    simp only [Option.map_some, Option.some.injEq, Prod.mk.injEq] at c2
    obtain ⟨rfl, rfl⟩ := c2
    obtain ⟨x1, x2, y1, y2⟩ := printLines_split b3
    have hfm : fmt = s.fmt := by
      have : newFormatters s.opts s.table.timestamp.isSome = some fmt := by rw [e2]; exact b1
      rw [h2] at this
      exact (Option.some.inj this).symm
    subst hfm
    have y3 : printLines s.env s.opts s.fmt (fun k => now (st.count + k)) v = some x2 := by
      rw [e2, printLines_congr (o := { o with locations := locs }) hl, ← y2]
      congr 1
      funext k
      rw [h6]
      congr 1
      omega
    unfold feed
    simp only [hd, y3]
    exact ⟨_, rfl⟩

theorem history_snoc {es : List Event} {f : Option Binary} {ps : List Part} (h : History source watch first es f ps) :
    ∃ ps' b cs, ps = ps' ++ [(b, cs)] := by
  induction h with
  | start h => exact ⟨[], _, [], rfl⟩
  | data _ _ => exact ⟨_, _, _, rfl⟩
  | unnoticed _ _ ih => exact ih
  | noticed _ _ _ => exact ⟨_, _, _, rfl⟩
  | again _ _ _ _ => exact ⟨_, _, _, rfl⟩
  | nothing _ _ _ => exact ⟨_, _, _, rfl⟩

theorem history_inv {es : List Event} {f : Option Binary} {ps0 : List Part} (h : History source watch first es f ps0) :
    ∀ {ws : Writes} {n : Nat}, Transcript env o now ps0 ws n →
      (runEvents env o source watch now first es).file = f ∧
      ∃ s ps b cs ws0 n0 ws', ps0 = ps ++ [(b, cs)] ∧
        Inv env o source watch now first es (runEvents env o source watch now first es) s ps b cs ws0 n0 ws' := by
  induction h with
  | @start b hb =>
    intro ws n ht
    obtain ⟨ws0', n0, t, e1, o1, w1, r1, u1, a1, a2, a3, a4, rfl, rfl⟩ := transcript_snoc (ps := []) ht
    obtain ⟨fmt, units, ws', b1, b2, b3, rfl⟩ := defmtPrint_parts a3
    obtain ⟨s, hs⟩ := setup_of_loaded a2 b1
    have hst : (start env o watch first).status = .reading s := by
      unfold start
      rw [hb]
      simp only [Option.isNone_some, Bool.and_false, Bool.false_eq_true, ↓reduceIte]
      exact hs
    have hfile : (start env o watch first).file = first := by unfold start; split <;> rfl
    obtain ⟨b', ws, hi⟩ := inv_start (source := source) (now := now) hst
    refine ⟨hfile, s, [], b', [], [], 0, ws, ?_, hi⟩
    have := hi.history
    rw [hfile] at this
    generalize hq : [] ++ [(b', [])] = q at this
    generalize hes : ([] : List Event) = es at this
    cases this with
    | start h => rw [hb] at h; cases h; rfl
    | unnoticed => simp at hes
    | _ => simp at hes
  | @data es f ps b cs bytes h ih =>
    intro ws n ht
    obtain ⟨w1, n1, h1⟩ := transcript_prefix ht
    obtain ⟨hf, s, ps', b', cs', ws0, n0, ws', he, hi⟩ := ih h1
    obtain ⟨rfl, hbc⟩ := List.append_inj' he rfl
    simp only [List.cons.injEq, Prod.mk.injEq, and_true] at hbc
    obtain ⟨rfl, rfl⟩ := hbc
    obtain ⟨s', hs'⟩ := feed_of_transcript hi.current hi.before ht
    obtain ⟨k1, ws1, k2, k3⟩ := hi.current.feed hi.output bytes s' hs'
    rw [runEvents_snoc]
    have hstep : step env o source watch now (runEvents env o source watch now first es) (.data bytes) =
        feed now bytes s (runEvents env o source watch now first es) := by
      unfold step; rw [hi.status]
    rw [hstep]
    exact ⟨by rw [k1, hf], s', ps, b, _, ws0, n0, ws1, rfl, hs', by rw [k1]; exact .data hi.history, hi.before, k2, k3⟩
  | @unnoticed es f ps f' nt h hw ih =>
    intro ws n ht
    obtain ⟨hf, s, ps', b', cs', ws0, n0, ws', he, hi⟩ := ih ht
    rw [runEvents_snoc]
    have hstep : step env o source watch now (runEvents env o source watch now first es) (.file f' nt) =
        { runEvents env o source watch now first es with file := f' } := by
      unfold step; rw [hi.status]; simp only [hw, Bool.false_eq_true, ↓reduceIte, hi.status]
    rw [hstep]
    exact ⟨rfl, s, ps', b', cs', ws0, n0, ws', he, hi.status, .unnoticed hi.history hw, hi.before, hi.current, hi.output⟩
  | @noticed es f ps b h hw ih =>
    intro ws n ht
    obtain ⟨wsa, na, t, e1, o1, w1, r1, u1, a1, a2, a3, a4, rfl, rfl⟩ := transcript_snoc ht
    obtain ⟨fmt, units, wsb, b1, b2, b3, rfl⟩ := defmtPrint_parts a3
    obtain ⟨hf, s, ps', b', cs', ws0, n0, ws', rfl, hi⟩ := ih a1
    obtain ⟨s', hs'⟩ := setup_of_loaded a2 b1
    have hstep : step env o source watch now (runEvents env o source watch now first es) (.file (some b) true) =
        restart env o { runEvents env o source watch now first es with file := some b } := by
      unfold step; rw [hi.status]; simp only [hw, Bool.and_self, ↓reduceIte]; rfl
    rw [runEvents_snoc]
    have hr : (step env o source watch now (runEvents env o source watch now first es) (.file (some b) true)).status = .reading s' := by
      rw [hstep]; exact hs'
    refine ⟨by rw [hstep]; rfl, ?_⟩
    rw [hstep] at hr ⊢
    obtain ⟨b2, wsn, k1, k2, k3, k4, k5⟩ := restart_reading (now := now) hr
    cases k1
    exact ⟨s', _, b, [], _, _, wsn, rfl, hr, by rw [k5]; exact .noticed hi.history hw, hi.current.transcript hi.before, by rw [k4]; exact k2,
      by rw [k3, ← hi.output]⟩
  | @again es b ps h hw hsrc ih =>
    intro ws n ht
    obtain ⟨wsa, na, t, e1, o1, w1, r1, u1, a1, a2, a3, a4, rfl, rfl⟩ := transcript_snoc ht
    obtain ⟨fmt, units, wsb, b1, b2, b3, rfl⟩ := defmtPrint_parts a3
    obtain ⟨hf, s, ps', b', cs', ws0, n0, ws', rfl, hi⟩ := ih a1
    obtain ⟨s', hs'⟩ := setup_of_loaded a2 b1
    have hstep : step env o source watch now (runEvents env o source watch now first es) .closed =
        restart env o (runEvents env o source watch now first es) := by
      unfold step; rw [hi.status]; simp only [hw, hsrc, ↓reduceIte]
    rw [runEvents_snoc]
    have hr : (step env o source watch now (runEvents env o source watch now first es) .closed).status = .reading s' := by
      rw [hstep]; unfold restart; rw [hf]; exact hs'
    refine ⟨by rw [hstep]; exact hf, ?_⟩
    rw [hstep] at hr ⊢
    obtain ⟨b2, wsn, k1, k2, k3, k4, k5⟩ := restart_reading (now := now) hr
    rw [hf] at k1
    cases k1
    have hh := hi.history
    rw [hf] at hh
    exact ⟨s', _, b, [], _, _, wsn, rfl, hr, by rw [k5, hf]; exact .again hh hw hsrc, hi.current.transcript hi.before, by rw [k4]; exact k2,
      by rw [k3, ← hi.output]⟩
  | @nothing es f ps b cs h hsrc ih =>
    intro ws n ht
    obtain ⟨w1, n1, h1⟩ := transcript_prefix ht
    obtain ⟨hf, s, ps', b', cs', ws0, n0, ws', he, hi⟩ := ih h1
    obtain ⟨rfl, hbc⟩ := List.append_inj' he rfl
    simp only [List.cons.injEq, Prod.mk.injEq, and_true] at hbc
    obtain ⟨rfl, rfl⟩ := hbc
    obtain ⟨s', hs'⟩ := feed_of_transcript hi.current hi.before ht
    obtain ⟨k1, ws1, k2, k3⟩ := hi.current.feed hi.output [] s' hs'
    rw [runEvents_snoc]
    have hstep : step env o source watch now (runEvents env o source watch now first es) .closed =
        feed now [] s (runEvents env o source watch now first es) := by
      unfold step; rw [hi.status]; simp only [hsrc, ↓reduceIte]
    rw [hstep]
    exact ⟨by rw [k1, hf], s', ps, b, _, ws0, n0, ws1, rfl, hs', by rw [k1]; exact .nothing hi.history hsrc, hi.before, k2, k3⟩

end Defmt.Run
