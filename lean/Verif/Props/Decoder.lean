import Verif.Spec.Decoder
import Verif.Lemmas.DecodeSafe
/-!
# Properties of decoding: C10, C17, C29, C30, C31
-/

namespace Defmt

open Parser Decoder

/-! ### fuel -/

/-- Any two recursion bounds that are at least half the input length give the same result. -/
theorem decodeFrame_fuel (t : Table) (bs : List UInt8) (k : Nat) (hk : bs.length < 2 * k) :
    t.decodeFrame k bs = t.decodeFrame (bs.length + 1) bs := by
  have e1 := Enough.decodeFrame t k bs hk
  have e2 := Enough.decodeFrame t (bs.length + 1) bs (by omega)
  rcases Nat.le_total k (bs.length + 1) with h | h
  · exact (Refines.decodeFrame t _ _ h bs e1).symm
  · exact Refines.decodeFrame t _ _ h bs e2

theorem decode_ok {t : Table} {bs : List UInt8} {f : Frame} {n : Nat}
    (h : t.decode bs = some (.ok (f, n))) :
    ∃ rest, t.decodeFrame (bs.length + 1) bs = .ok f rest ∧ n = bs.length - rest.length := by
  unfold Table.decode at h
  split at h
  · rename_i f' rest hd
    simp only [Option.some.injEq, Outcome.ok.injEq, Prod.mk.injEq] at h
    obtain ⟨rfl, rfl⟩ := h
    exact ⟨rest, hd, rfl⟩
  all_goals simp at h

theorem decode_of_ok {t : Table} {bs rest : List UInt8} {f : Frame} {k : Nat}
    (hk : bs.length < 2 * k) (h : t.decodeFrame k bs = .ok f rest) :
    t.decode bs = some (.ok (f, bs.length - rest.length)) := by
  unfold Table.decode
  rw [← decodeFrame_fuel t bs k hk, h]

/-! ### C10 -/

/-- **C10** A successful decode uses exactly the `n` bytes it reports: any input that starts with
them gives the same frame and count, and any shorter prefix asks for more data. -/
theorem C10_consumed_exact (t : Table) (bs : List UInt8) (f : Frame) (n : Nat)
    (h : t.decode bs = some (.ok (f, n))) :
    n ≤ bs.length ∧ (∀ ext, t.decode (bs.take n ++ ext) = some (.ok (f, n))) ∧
      ∀ m < n, t.decode (bs.take m) = some (.err .unexpectedEof) := by
  obtain ⟨rest, hd, rfl⟩ := decode_ok h
  obtain ⟨used, e1, e2, e3⟩ := (Stable.decodeFrame t _).ok hd
  have hl : bs.length - rest.length = used.length := by rw [e1]; simp
  have ht : bs.take (bs.length - rest.length) = used := by rw [hl]; conv => lhs; rw [e1]; simp
  have hn : bs.length - rest.length ≤ bs.length := by omega
  refine ⟨hn, ?_, ?_⟩
  · intro ext
    rw [ht]
    have hbig : t.decodeFrame (bs.length + (used ++ ext).length + 1) (used ++ ext) = .ok f ext := by
      have := Refines.decodeFrame t (bs.length + 1) (bs.length + (used ++ ext).length + 1) (by omega)
        (used ++ ext) (by rw [e2]; simp)
      rw [this, e2]
    rw [decode_of_ok (by omega) hbig, hl]
    simp
  · intro m hm
    have hpre : bs.take m = used.take m := by
      rw [← ht, List.take_take, Nat.min_eq_left (by omega)]
    have := e3 (bs.take m) (used.drop m) (by rw [hpre, List.take_append_drop]) (by
      intro hh
      have := congrArg List.length hh
      simp at this; omega)
    unfold Table.decode
    rw [← decodeFrame_fuel t (bs.take m) (bs.length + 1) (by rw [List.length_take]; omega), this]

/-- a table with one log statement and one nested type, used in the examples -/
def exampleTable : Table where
  timestamp := some ⟨.timestamp, c!"{=u8:us}"⟩
  entries := fun i =>
    if i = 1 then some ⟨.info, c!"x={=u8} y={=?}"⟩
    else if i = 2 then some ⟨.derived, c!"A|B({=bool})"⟩
    else none

example : exampleTable.decode [1, 0, 7, 42, 2, 0, 1, 1, 99] =
    some (.ok ({ level := some .info, index := 1, timestampFormat := some c!"{=u8:us}",
                 timestampArgs := [.uxx 7], format := c!"x={=u8} y={=?}",
                 args := [.uxx 42, .format c!"B({=bool})" [.bool true]] }, 8)) := by rfl

example : exampleTable.decode [1, 0, 7, 42, 2, 0, 1] = some (.err .unexpectedEof) := by rfl

/-! ### C31 -/

theorem recSafe {t : Table} (hs : t.Safe) (fuel : Nat) :
    (∀ e, t.timestamp = some e → NoPanic (decodeFormat t fuel e.string)) ∧
    ∀ i e, t.entries i = some e → ∀ v ∈ pieces e.string, NoPanic (decodeFormat t fuel v) := by
  have key : ∀ (fuel : Nat) (s : List Char), Fine s →
      RecSafe t (decodeFormat t (fuel - 1)) → NoPanic (decodeFormat t fuel s) := by
    intro fuel s hf hr
    cases fuel with
    | zero => exact NoPanic.noFuel
    | succ fuel =>
      unfold decodeFormat
      split
      · rename_i hp; exact absurd hp hf.1
      · exact NoPanic.fail _
      · rename_i fs hp
        apply NoPanic.decodeParams hr
        intro p hp'
        rcases prepared_ty hp hp' with ⟨q, hq, hq'⟩ | ⟨a, b, h1, h2, h3⟩
        · exact ⟨fun s e h => parse_bit hp q hq s e (by rw [hq', h]), fun n h => hf.2 fs hp q hq n (by rw [hq', h])⟩
        · refine ⟨fun s e h => ?_, fun n h => by rw [h1] at h; cases h⟩
          rw [h1] at h; cases h; exact ⟨h2, h3⟩
  have hall : ∀ fuel i e, t.entries i = some e → ∀ v ∈ pieces e.string, NoPanic (decodeFormat t fuel v) := by
    intro fuel
    induction fuel with
    | zero => intro i e _ v _; exact NoPanic.noFuel
    | succ fuel ih =>
      intro i e he v hv
      apply key
      · rcases List.mem_cons.mp hv with rfl | hv
        · exact (hs.2 i e he).1
        · exact (hs.2 i e he).2 v hv
      · intro j f hf w hw
        unfold Table.getWithoutLevel Table.getWithLevel at hf
        cases hj : t.entries j with
        | none => rw [hj] at hf; simp at hf
        | some e' =>
          rw [hj] at hf
          simp only at hf
          cases htl : e'.tag.toLevel with
          | some l => rw [htl] at hf; simp at hf
          | none =>
            rw [htl] at hf
            simp only [Option.some.injEq] at hf
            subst hf
            exact ih j e' hj w hw
  refine ⟨?_, hall fuel⟩
  intro e he
  apply key fuel _ (hs.1 e he)
  intro j f hf w hw
  unfold Table.getWithoutLevel Table.getWithLevel at hf
  cases hj : t.entries j with
  | none => rw [hj] at hf; simp at hf
  | some e' =>
    rw [hj] at hf
    simp only at hf
    cases htl : e'.tag.toLevel with
    | some l => rw [htl] at hf; simp at hf
    | none =>
      rw [htl] at hf
      simp only [Option.some.injEq] at hf
      subst hf
      exact hall _ j e' hj w hw

/-- **C31** Decoding any bytes with a table whose strings parse without panicking terminates with a
frame or an error. -/
theorem C31_decode_total (t : Table) (hs : t.Safe) (bs : List UInt8) :
    (∃ f n, t.decode bs = some (.ok (f, n))) ∨ ∃ e, t.decode bs = some (.err e) := by
  have hnf := Enough.decodeFrame t (bs.length + 1) bs (by omega)
  have hnp : NoPanic (t.decodeFrame (bs.length + 1)) := by
    refine NoPanic.bind (NoPanic.readUInt 2) fun _ i _ _ => NoPanic.bind ?_ fun _ _ _ _ =>
      NoPanic.bind (NoPanic.orMalformed _) fun _ lf _ h => NoPanic.bind ?_ fun _ _ _ _ => NoPanic.pure _
    · unfold Table.decodeTimestamp
      split
      · exact NoPanic.pure _
      · rename_i e he
        exact NoPanic.bind ((recSafe hs _).1 e he) fun _ _ _ _ => NoPanic.pure _
    · have := orMalformed_ok h
      unfold Table.getWithLevel at this
      split at this
      · cases this
      · rename_i e he
        simp only [Option.some.injEq] at this
        rw [← this]
        exact (recSafe hs _).2 i e he _ (by simp [pieces])
  unfold Table.decode
  cases hd : t.decodeFrame (bs.length + 1) bs with
  | ok f r => exact Or.inl ⟨_, _, rfl⟩
  | err e => exact Or.inr ⟨_, rfl⟩
  | panic => exact absurd hd (hnp bs)
  | outOfFuel => exact absurd hd hnf

/-- **C31** Nesting: a recursion limit of `k` levels is never reached by inputs of less than `2 k`
bytes, whatever the table, and then has no effect on the result. -/
theorem C31_depth (t : Table) (bs : List UInt8) (k : Nat) (hk : bs.length < 2 * k) :
    t.decodeFrame k bs ≠ .outOfFuel ∧ ∀ j ≥ k, t.decodeFrame j bs = t.decodeFrame k bs := by
  refine ⟨Enough.decodeFrame t k bs hk, ?_⟩
  intro j hj
  rw [decodeFrame_fuel t bs k hk, decodeFrame_fuel t bs j (by omega)]

/-- the bound is needed: a table whose type contains itself -/
example : Table.decodeFrame ⟨none, fun i => if i ≤ 1 then some ⟨.derived, c!"{=?}"⟩ else none⟩ 3
    [0, 0, 1, 0, 1, 0, 1, 0] = .outOfFuel := by rfl

theorem exampleTable_safe : exampleTable.Safe := by
  have fine : ∀ s fs, parse s .forwardsCompatible = .ok fs →
      (∀ p ∈ params fs, ∀ n, p.ty ≠ .formatArray n) → Fine s := by
    intro s fs h hp
    refine ⟨by rw [h]; simp, ?_⟩
    intro fs' h' p hp' n hn
    rw [h] at h'; cases h'
    exact absurd hn (hp p hp' n)
  refine ⟨?_, ?_⟩
  · intro e he
    simp only [exampleTable, Option.some.injEq] at he
    subst he
    exact fine _ [.param ⟨0, .u8, some (.seconds .micros)⟩] (by decide +kernel) (by simp [params])
  · intro i e he
    simp only [exampleTable] at he
    split at he
    · simp only [Option.some.injEq] at he
      subst he
      have h : Fine c!"x={=u8} y={=?}" := fine _ [.literal c!"x=", .param ⟨0, .u8, none⟩, .literal c!" y=",
        .param ⟨1, .format, none⟩] (by decide +kernel) (by simp [params])
      refine ⟨h, ?_⟩
      intro v hv
      have : Parser.splitAt '|' c!"x={=u8} y={=?}" = [c!"x={=u8} y={=?}"] := by decide +kernel
      simp only [this, List.mem_singleton] at hv
      rw [hv]; exact h
    · split at he
      · simp only [Option.some.injEq] at he
        subst he
        refine ⟨fine _ [.literal c!"A|B(", .param ⟨0, .bool, none⟩, .literal c!")"] (by decide +kernel)
          (by simp [params]), ?_⟩
        intro v hv
        have : Parser.splitAt '|' c!"A|B({=bool})" = [c!"A", c!"B({=bool})"] := by decide +kernel
        simp only [this, List.mem_cons, List.not_mem_nil, or_false] at hv
        rcases hv with rfl | rfl
        · exact fine _ [.literal c!"A"] (by decide +kernel) (by simp [params])
        · exact fine _ [.literal c!"B(", .param ⟨0, .bool, none⟩, .literal c!")"] (by decide +kernel)
            (by simp [params])
      · cases he

/-! ### C29 -/

/-- **C29** A decoded frame is about the table entry named by the first two bytes: level, index and
format string are those of the entry; after the index come the timestamp arguments (of the
program's timestamp format, if any), then the arguments of the entry's format string. -/
theorem C29_frame_from_entry (t : Table) (bs : List UInt8) (f : Frame) (n : Nat)
    (h : t.decode bs = some (.ok (f, n))) :
    ∃ b0 b1 afterIndex afterTimestamp, bs = b0 :: b1 :: afterIndex ∧ f.index = b0.toNat + 256 * b1.toNat ∧
      (∃ e, t.entries f.index = some e ∧ f.level = e.tag.toLevel ∧ f.format = e.string) ∧
      f.timestampFormat = t.timestamp.map Entry.string ∧
      (match t.timestamp with
        | none => f.timestampArgs = [] ∧ afterTimestamp = afterIndex
        | some e => decodeFormat t (bs.length + 1) e.string afterIndex = .ok f.timestampArgs afterTimestamp) ∧
      decodeFormat t (bs.length + 1) f.format afterTimestamp = .ok f.args (bs.drop n) := by
  have hst := (C10_consumed_exact t bs f n h).1
  obtain ⟨rest, hd, hn⟩ := decode_ok h
  obtain ⟨used, e1, _, _⟩ := (Stable.decodeFrame t _).ok hd
  have hdrop : bs.drop n = rest := by
    have : n = used.length := by rw [hn, e1]; simp
    rw [this]; conv => lhs; rw [e1]; simp
  unfold Table.decodeFrame at hd
  obtain ⟨i, r1, h1, h2⟩ := bind_ok hd
  obtain ⟨ts, r2, h3, h4⟩ := bind_ok h2
  obtain ⟨lf, r3, h5, h6⟩ := bind_ok h4
  obtain ⟨as, r4, h7, h8⟩ := bind_ok h6
  rw [pure_apply] at h8
  simp only [Res.ok.injEq] at h8
  obtain ⟨rfl, rfl⟩ := h8
  have hr3 : r3 = r2 := by
    have := orMalformed_ok h5
    rw [this] at h5; cases h5; rfl
  subst hr3
  have hlf := orMalformed_ok h5
  obtain ⟨b, rb, hb1, hb2⟩ := bind_ok h1
  obtain ⟨hb3, hb4⟩ := readBytes_ok hb1
  rw [pure_apply] at hb2
  simp only [Res.ok.injEq] at hb2
  obtain ⟨rfl, rfl⟩ := hb2
  obtain ⟨b0, b1, rfl⟩ : ∃ b0 b1, b = [b0, b1] := by
    match b, hb4 with
    | [b0, b1], _ => exact ⟨b0, b1, rfl⟩
  refine ⟨b0, b1, rb, r3, by simpa using hb3, by simp [leNat], ?_, ?_, ?_, ?_⟩
  · unfold Table.getWithLevel at hlf
    split at hlf
    · cases hlf
    · rename_i e he
      simp only [Option.some.injEq] at hlf
      exact ⟨e, he, by rw [← hlf], by rw [← hlf]⟩
  · unfold Table.decodeTimestamp at h3
    cases ht : t.timestamp with
    | none => rw [ht] at h3; cases h3; rfl
    | some e =>
      rw [ht] at h3
      obtain ⟨a, r, h9, h10⟩ := bind_ok h3
      cases h10
      rfl
  · unfold Table.decodeTimestamp at h3
    cases ht : t.timestamp with
    | none => rw [ht] at h3; cases h3; exact ⟨rfl, rfl⟩
    | some e =>
      rw [ht] at h3
      obtain ⟨a, r, h9, h10⟩ := bind_ok h3
      cases h10
      exact h9
  · rw [hdrop]; exact h7

theorem toLevel_iff (tag : Tag) (lv : Level) : tag.toLevel = some lv ↔ (tag, lv) ∈ logTags := by
  cases tag <;> cases lv <;> decide

theorem toLevel_none {tag : Tag} : tag.toLevel = none ↔ ∀ lv, (tag, lv) ∉ logTags := by
  constructor
  · intro h lv hm
    rw [(toLevel_iff _ _).mpr hm] at h
    cases h
  · intro h
    cases ht : tag.toLevel with
    | none => rfl
    | some lv => exact absurd ((toLevel_iff _ _).mp ht) (h lv)

/-- **C29** The level shown is the one of the statement; `println!` has none. -/
theorem C29_level (t : Table) (bs : List UInt8) (f : Frame) (n : Nat) (h : t.decode bs = some (.ok (f, n))) :
    ∃ e, t.entries f.index = some e ∧ ∀ lv, f.level = some lv ↔ (e.tag, lv) ∈ logTags := by
  obtain ⟨_, _, _, _, _, _, ⟨e, h1, h2, _⟩, _⟩ := C29_frame_from_entry t bs f n h
  exact ⟨e, h1, fun lv => by rw [h2]; exact toLevel_iff _ _⟩

/-- **C29** If the first two bytes name no entry, nothing is decoded. -/
theorem C29_unknown_index (t : Table) (b0 b1 : UInt8) (rest : List UInt8)
    (h : t.entries (b0.toNat + 256 * b1.toNat) = none) (f : Frame) (n : Nat) :
    t.decode (b0 :: b1 :: rest) ≠ some (.ok (f, n)) := by
  intro hd
  obtain ⟨c0, c1, _, _, h1, h2, ⟨e, h3, _⟩, _⟩ := C29_frame_from_entry t _ f n hd
  simp only [List.cons.injEq] at h1
  obtain ⟨rfl, rfl, _⟩ := h1
  rw [h2, h] at h3
  cases h3

/-! ### C30 -/

theorem getWithoutLevel_eq {t : Table} {i : Nat} {s : List Char} :
    t.getWithoutLevel i = some s ↔ t.Nested i s := by
  unfold Table.getWithoutLevel Table.getWithLevel Table.Nested
  constructor
  · intro h
    cases hj : t.entries i with
    | none => rw [hj] at h; simp at h
    | some e =>
      rw [hj] at h
      simp only at h
      cases htl : e.tag.toLevel with
      | some l => rw [htl] at h; simp at h
      | none => rw [htl] at h; simp only [Option.some.injEq] at h; exact ⟨e, rfl, toLevel_none.mp htl, h⟩
  · rintro ⟨e, h1, h2, h3⟩
    simp [h1, toLevel_none.mpr h2, h3]

/-- every value produced by `m` satisfies `P` -/
def Always {α : Type} (m : Dec α) (P : α → Prop) : Prop := ∀ bs a r, m bs = .ok a r → P a

theorem Always.bind {α β : Type} {m : Dec α} {f : α → Dec β} {P : α → Prop} {Q : β → Prop} (hm : Always m P)
    (hf : ∀ a, P a → Always (f a) Q) : Always (m >>= f) Q := by
  intro bs b r h
  obtain ⟨a, r1, h1, h2⟩ := bind_ok h
  exact hf a (hm _ _ _ h1) _ _ _ h2

theorem Always.pure {α : Type} {a : α} {P : α → Prop} (h : P a) : Always (pure a : Dec α) P := by
  intro bs b r hb; cases hb; exact h

theorem Always.trivial {α : Type} (m : Dec α) : Always m (fun _ => True) := fun _ _ _ _ => True.intro

theorem Always.fail {α : Type} {P : α → Prop} (e : DecodeError) : Always (fail e : Dec α) P := by
  intro bs a r h; cases h

theorem Always.getFormat (t : Table) : Always (getFormat t) (fun f => ∃ i, t.Nested i f) := by
  intro bs f r h
  obtain ⟨i, hi⟩ := getFormat_mem h
  exact ⟨i, getWithoutLevel_eq.mp hi⟩

theorem Always.chooseVariant (f : List Char) : Always (chooseVariant f) (fun v => IsVariant v f) := by
  unfold IsVariant Decoder.chooseVariant
  split
  · rename_i hb
    unfold getVariant
    rw [if_neg (by simpa using hb)]
    refine Always.bind (Always.trivial _) fun _ _ => Always.bind (Always.trivial _) fun _ _ => ?_
    intro bs g r h
    have := orMalformed_ok h
    exact List.mem_of_getElem? this
  · exact Always.pure rfl

theorem IsVariant.or {f s : List Char} (h : IsVariant f s) : f = s ∨ f ∈ Parser.splitAt '|' s := by
  unfold IsVariant at h
  split at h
  · exact Or.inr h
  · exact Or.inl h

section
variable {t : Table} {rec : List Char → Dec (List Arg)}

theorem Always.decodeElements {f : List Char} {i : Nat} (hf : t.Nested i f)
    (hr : ∀ f, Always (rec f) (Arg.AllFrom t)) (n : Nat) :
    Always (decodeElements rec f n) (fun es => (∀ e ∈ es, ∃ g as, e = .format g as ∧ IsVariant g f) ∧
      Arg.AllFrom t es) := by
  induction n with
  | zero =>
    exact Always.pure ⟨by simp, True.intro⟩
  | succ n ih =>
    exact Always.bind (Always.chooseVariant f) fun v hv => Always.bind (hr v) fun as ha =>
      Always.bind ih fun rs hrs => Always.pure (by
        rw [Arg.AllFrom, Arg.From]
        refine ⟨?_, ⟨⟨i, f, hf, hv.or⟩, ha⟩, hrs.2⟩
        intro e he
        rcases List.mem_cons.mp he with rfl | he
        · exact ⟨v, as, rfl, hv⟩
        · exact hrs.1 e he)

theorem Always.decodeFormatSlice (hr : ∀ f, Always (rec f) (Arg.AllFrom t)) (n : Nat) :
    Always (decodeFormatSlice t rec n) (fun es => Arg.From t (.formatSlice es)) := by
  refine Always.bind (Always.getFormat t) fun f ⟨i, hi⟩ => ?_
  split
  · intro bs a r h; cases h
  · intro bs es r h
    rw [Arg.From]
    have := Always.decodeElements hi hr n bs es r h
    exact ⟨⟨i, f, hi, this.1⟩, this.2⟩

theorem Always.orMalformed {α : Type} (o : Option α) : Always (orMalformed o) (fun a => o = some a) :=
  fun _ _ _ h => orMalformed_ok h

theorem Always.decodeSequence (hr : ∀ f, Always (rec f) (Arg.AllFrom t)) (n : Nat) :
    Always (decodeSequence t rec n) (Arg.AllFrom t) := by
  induction n with
  | zero => intro bs a r h; cases h
  | succ n ih =>
    refine Always.bind (Always.trivial _) fun i _ => ?_
    split
    · exact Always.pure True.intro
    · exact Always.bind (Always.orMalformed _) fun f hf => Always.bind (hr f) fun as ha =>
        Always.bind ih fun rs hrs => Always.pure (by
          rw [Arg.AllFrom, Arg.From]
          exact ⟨⟨⟨i, f, getWithoutLevel_eq.mp hf, Or.inl rfl⟩, ha⟩, hrs⟩)

theorem Always.decodeArg (hr : ∀ f, Always (rec f) (Arg.AllFrom t)) (fuel : Nat) (ty : Ty) :
    Always (decodeArg t rec fuel ty) (Arg.From t) := by
  cases ty with
  | formatSlice =>
    exact Always.bind (Always.trivial _) fun n _ => Always.bind (Always.decodeFormatSlice hr n)
      fun es hes => Always.pure hes
  | formatArray n =>
    exact Always.bind (Always.decodeFormatSlice hr n)
      fun es hes => Always.pure hes
  | formatSequence =>
    exact Always.bind (Always.decodeSequence hr fuel)
      fun es hes => Always.pure (by rw [Arg.From]; exact hes)
  | format =>
    exact Always.bind (Always.getFormat t) fun f ⟨i, hf⟩ => Always.bind (Always.chooseVariant f)
      fun v hv => Always.bind (hr v) fun as ha => Always.pure (by rw [Arg.From]; exact ⟨⟨i, f, hf, hv.or⟩, ha⟩)
  | istr =>
    exact Always.bind (Always.trivial _) fun i _ => Always.bind (Always.orMalformed _) fun s hs =>
      Always.pure (by rw [Arg.From]; exact ⟨i, getWithoutLevel_eq.mp hs⟩)
  | bool =>
    refine Always.bind (Always.trivial _) fun b _ => ?_
    split
    · exact Always.pure (by simp [Arg.From])
    · split
      · exact Always.pure (by simp [Arg.From])
      · exact Always.fail _
  | bitField s e =>
    rw [Decoder.decodeArg]
    split
    · intro bs a r h; cases h
    · exact Always.bind (Always.trivial _) fun _ _ => Always.pure (by simp [Arg.From])
  | str =>
    exact Always.bind (Always.trivial _) fun _ _ => Always.bind (Always.trivial _) fun _ _ =>
      Always.bind (Always.trivial _) fun _ _ => Always.pure (by simp [Arg.From])
  | u8Slice =>
    exact Always.bind (Always.trivial _) fun _ _ => Always.bind (Always.trivial _) fun _ _ =>
      Always.pure (by simp [Arg.From])
  | char =>
    exact Always.bind (Always.trivial _) fun _ _ => Always.bind (Always.trivial _) fun _ _ =>
      Always.pure (by simp [Arg.From])
  | debug =>
    exact Always.bind (Always.trivial _) fun _ _ => Always.bind (Always.trivial _) fun _ _ =>
      Always.pure (by simp [Arg.From])
  | display =>
    exact Always.bind (Always.trivial _) fun _ _ => Always.bind (Always.trivial _) fun _ _ =>
      Always.pure (by simp [Arg.From])
  | _ => exact Always.bind (Always.trivial _) fun _ _ => Always.pure (by simp [Arg.From])

theorem Always.decodeParams (hr : ∀ f, Always (rec f) (Arg.AllFrom t)) (fuel : Nat) (ps : List Parameter) :
    Always (decodeParams t rec fuel ps) (Arg.AllFrom t) := by
  induction ps with
  | nil =>
    exact Always.pure True.intro
  | cons p ps ih =>
    exact Always.bind (Always.decodeArg hr fuel p.ty) fun a ha => Always.bind ih fun as has =>
      Always.pure (by rw [Arg.AllFrom]; exact ⟨ha, has⟩)

end

theorem Always.decodeFormat (t : Table) (fuel : Nat) : ∀ f, Always (decodeFormat t fuel f) (Arg.AllFrom t) := by
  induction fuel with
  | zero => intro f bs a r h; cases h
  | succ fuel ih =>
    intro f
    unfold Decoder.decodeFormat
    split
    · intro bs a r h; cases h
    · exact Always.fail _
    · exact Always.decodeParams ih _ _

/-- **C30** In a decoded frame, every nested format string and every interned string, at any depth,
comes from a table entry that is not a log statement. -/
theorem C30_nested_not_log (t : Table) (bs : List UInt8) (f : Frame) (n : Nat)
    (h : t.decode bs = some (.ok (f, n))) : Arg.AllFrom t f.timestampArgs ∧ Arg.AllFrom t f.args := by
  obtain ⟨b0, b1, r1, r2, _, _, _, _, h1, h2⟩ := C29_frame_from_entry t bs f n h
  refine ⟨?_, Always.decodeFormat t _ _ _ _ _ h2⟩
  split at h1
  · rw [h1.1]; exact True.intro
  · exact Always.decodeFormat t _ _ _ _ _ h1

/-- **C30** Where a nested format or an interned string is expected, the index of a log statement or
of no entry at all is reported as malformed. -/
theorem C30_bad_index_malformed (t : Table) (b0 b1 : UInt8) (rest : List UInt8)
    (h : ∀ s, ¬ t.Nested (b0.toNat + 256 * b1.toNat) s)
    (rec : List Char → Dec (List Arg)) (fuel n : Nat) :
    decodeArg t rec fuel .format (b0 :: b1 :: rest) = .err .malformed ∧
    decodeArg t rec fuel .istr (b0 :: b1 :: rest) = .err .malformed ∧
    decodeArg t rec fuel (.formatArray n) (b0 :: b1 :: rest) = .err .malformed ∧
    (∀ l0 l1 l2 l3 : UInt8,
      decodeArg t rec fuel .formatSlice (l0 :: l1 :: l2 :: l3 :: b0 :: b1 :: rest) = .err .malformed) ∧
    (b0.toNat + 256 * b1.toNat ≠ 0 →
      decodeArg t rec (fuel + 1) .formatSequence (b0 :: b1 :: rest) = .err .malformed) := by
  have hn : t.getWithoutLevel (b0.toNat + 256 * b1.toNat) = none := by
    cases hg : t.getWithoutLevel (b0.toNat + 256 * b1.toNat) with
    | none => rfl
    | some s => exact absurd (getWithoutLevel_eq.mp hg) (h s)
  have hr : readUInt 2 (b0 :: b1 :: rest) = .ok (b0.toNat + 256 * b1.toNat) rest := by
    have h2 := readBytes_append [b0, b1] rest
    unfold readUInt
    rw [show b0 :: b1 :: rest = [b0, b1] ++ rest from rfl,
      bind_of_ok (show readBytes 2 ([b0, b1] ++ rest) = .ok [b0, b1] rest from h2), pure_apply]
    simp [leNat]
  have hg : getFormat t (b0 :: b1 :: rest) = .err .malformed := by
    unfold getFormat
    rw [bind_of_ok hr, hn]; rfl
  have hbind : ∀ {α β : Type} (m : Dec α) (f : α → Dec β) bs, m bs = .err .malformed →
      (m >>= f) bs = .err .malformed := by
    intro α β m f bs hm; rw [bind_apply, hm]
  refine ⟨hbind _ _ _ hg, ?_, hbind _ _ _ (hbind _ _ _ hg), ?_, ?_⟩
  · rw [decodeArg, bind_of_ok hr, hn]; rfl
  · intro l0 l1 l2 l3
    have h4 := readBytes_append [l0, l1, l2, l3] (b0 :: b1 :: rest)
    have : readUInt 4 (l0 :: l1 :: l2 :: l3 :: b0 :: b1 :: rest) = .ok (leNat [l0, l1, l2, l3]) (b0 :: b1 :: rest) := by
      unfold readUInt
      rw [show l0 :: l1 :: l2 :: l3 :: b0 :: b1 :: rest = [l0, l1, l2, l3] ++ (b0 :: b1 :: rest) from rfl,
        bind_of_ok (show readBytes 4 _ = .ok [l0, l1, l2, l3] (b0 :: b1 :: rest) from h4), pure_apply]
    rw [decodeArg, bind_of_ok this]
    exact hbind _ _ _ (hbind _ _ _ hg)
  · intro h0
    rw [decodeArg]
    apply hbind
    rw [decodeSequence, bind_of_ok hr, if_neg h0, hn]; rfl

/-- in the example table entry 1 is a log statement and entry 3 does not exist -/
example : (exampleTable.decode [1, 0, 7, 42, 1, 0] = some (.err .malformed)) ∧
    exampleTable.decode [1, 0, 7, 42, 3, 0] = some (.err .malformed) := ⟨rfl, rfl⟩

/-! ### C17 -/

theorem tyAt_congr {ps ps' : List Parameter}
    (h : ps.map (fun p => (p.index, p.ty)) = ps'.map (fun p => (p.index, p.ty))) (i : Nat) :
    tyAt ps i = tyAt ps' i := by
  have hf : ∀ (ps ps' : List Parameter), ps.map (fun p => (p.index, p.ty)) = ps'.map (fun p => (p.index, p.ty)) →
      (firstAt i ps).map (fun p => (p.index, p.ty)) = (firstAt i ps').map (fun p => (p.index, p.ty)) ∧
      bitRanges (ps.filter (fun p => p.index = i)) = bitRanges (ps'.filter (fun p => p.index = i)) := by
    intro ps
    induction ps with
    | nil =>
      intro ps' h
      cases ps' with
      | nil => exact ⟨rfl, rfl⟩
      | cons _ _ => simp at h
    | cons p ps ih =>
      intro ps' h
      cases ps' with
      | nil => simp at h
      | cons p' ps' =>
        simp only [List.map_cons, List.cons.injEq, Prod.mk.injEq] at h
        obtain ⟨⟨h1, h2⟩, h3⟩ := h
        obtain ⟨i1, i2⟩ := ih ps' h3
        unfold firstAt at i1 ⊢
        by_cases hi : p.index = i
        · refine ⟨?_, ?_⟩
          · rw [List.find?_cons_of_pos (by simpa using hi), List.find?_cons_of_pos (by simpa [← h1] using hi)]
            simp [h1, h2]
          · rw [List.filter_cons_of_pos (by simpa using hi), List.filter_cons_of_pos (by simpa [← h1] using hi)]
            unfold bitRanges
            rw [h2, i2]
        · refine ⟨?_, ?_⟩
          · rw [List.find?_cons_of_neg (by simpa using hi), List.find?_cons_of_neg (by simpa [← h1] using hi), i1]
          · rw [List.filter_cons_of_neg (by simpa using hi), List.filter_cons_of_neg (by simpa [← h1] using hi), i2]
  obtain ⟨h1, h2⟩ := hf ps ps' h
  unfold tyAt
  rw [h2]
  cases hx : firstAt i ps with
  | none =>
    cases hy : firstAt i ps' with
    | none => rfl
    | some q => rw [hx, hy] at h1; simp at h1
  | some p =>
    cases hy : firstAt i ps' with
    | none => rw [hx, hy] at h1; simp at h1
    | some q =>
      rw [hx, hy] at h1
      simp only [Option.map_some, Option.some.injEq, Prod.mk.injEq] at h1
      simp only [h1.2]

/-- **C17** Format strings with the same parameter indices and types decode every byte string to the
same arguments with the same remaining bytes (or the same error), whatever their hints. -/
theorem C17_hints_irrelevant (t : Table) (s s' : List Char) (fs fs' : List Fragment)
    (h : parse s .forwardsCompatible = .ok fs) (h' : parse s' .forwardsCompatible = .ok fs')
    (hp : SameParams fs fs') (fuel : Nat) (bs : List UInt8) :
    decodeFormat t fuel s bs = decodeFormat t fuel s' bs := by
  have hd : ∀ (ps ps' : List Parameter) (rec : List Char → Dec (List Arg)) (k : Nat),
      ps.map (fun p => some p.ty) = ps'.map (fun p => some p.ty) → decodeParams t rec k ps = decodeParams t rec k ps' := by
    intro ps
    induction ps with
    | nil =>
      intro ps' rec k h
      cases ps' with
      | nil => rfl
      | cons _ _ => simp at h
    | cons p ps ih =>
      intro ps' rec k h
      cases ps' with
      | nil => simp at h
      | cons q ps' =>
        simp only [List.map_cons, List.cons.injEq, Option.some.injEq] at h
        simp only [decodeParams, h.1, ih ps' rec k h.2]
  cases fuel with
  | zero => rfl
  | succ fuel =>
    rw [decodeFormat, decodeFormat, h, h']
    simp only
    obtain ⟨⟨n, hd1⟩, hc1⟩ := C12_indices_dense_types_consistent _ _ _ h
    obtain ⟨⟨n', hd2⟩, hc2⟩ := C12_indices_dense_types_consistent _ _ _ h'
    have hidx : ∀ p ∈ params fs, ∃ q ∈ params fs', q.index = p.index := by
      intro p hpm
      have : (p.index, p.ty) ∈ (params fs').map (fun p => (p.index, p.ty)) := by
        rw [← hp]; exact List.mem_map_of_mem (f := fun p : Parameter => (p.index, p.ty)) hpm
      obtain ⟨q, hq, hq'⟩ := List.mem_map.mp this
      exact ⟨q, hq, by simp at hq'; exact hq'.1⟩
    have hidx' : ∀ p ∈ params fs', ∃ q ∈ params fs, q.index = p.index := by
      intro p hpm
      have : (p.index, p.ty) ∈ (params fs).map (fun p => (p.index, p.ty)) := by
        rw [hp]; exact List.mem_map_of_mem (f := fun p : Parameter => (p.index, p.ty)) hpm
      obtain ⟨q, hq, hq'⟩ := List.mem_map.mp this
      exact ⟨q, hq, by simp at hq'; exact hq'.1⟩
    have hnn : n = n' := by
      apply Nat.le_antisymm
      · apply Nat.le_of_not_lt; intro hlt
        obtain ⟨p, hpm, hpi⟩ := hd1.2 n' hlt
        obtain ⟨q, hq, hqi⟩ := hidx p hpm
        have := hd2.1 q hq; omega
      · apply Nat.le_of_not_lt; intro hlt
        obtain ⟨p, hpm, hpi⟩ := hd2.2 n hlt
        obtain ⟨q, hq, hqi⟩ := hidx' p hpm
        have := hd1.1 q hq; omega
    subst hnn
    rw [hd _ (prepareParams (params fs')) _ _ (by
      rw [prepare_types hd1 hc1, prepare_types hd2 hc2]
      apply List.map_congr_left
      intro i _
      exact tyAt_congr hp i)]

/-- **C17** At the level of frames: if an entry's format string is replaced by one with the same
parameter indices and types, frames of that entry decode to the same arguments and length (or the
same error). -/
theorem C17_frame (t : Table) (i : Nat) (tag : Tag) (s s' : List Char) (fs fs' : List Fragment)
    (hi : t.entries i = some ⟨tag, s⟩) (hl : tag.toLevel.isSome)
    (h : parse s .forwardsCompatible = .ok fs) (h' : parse s' .forwardsCompatible = .ok fs')
    (hp : SameParams fs fs') (rest : List UInt8) (hi2 : i < 2 ^ 16) :
    let t' : Table := { t with entries := fun j => if j = i then some ⟨tag, s'⟩ else t.entries j }
    let bs := UInt8.ofNat (i % 256) :: UInt8.ofNat (i / 256) :: rest
    (∀ f n, t.decode bs = some (.ok (f, n)) → t'.decode bs = some (.ok ({ f with format := s' }, n))) ∧
    (∀ e, t.decode bs = some (.err e) → t'.decode bs = some (.err e)) := by
  intro t' bs
  have hg : t'.getWithoutLevel = t.getWithoutLevel := by
    funext j
    unfold Table.getWithoutLevel Table.getWithLevel
    by_cases hj : j = i
    · subst hj
      obtain ⟨l, hl⟩ := Option.isSome_iff_exists.mp hl
      simp [t', hi, hl]
    · simp [t', hj]
  have hA : ∀ rec fuel ty, decodeArg t' rec fuel ty = decodeArg t rec fuel ty := by
    intro rec fuel ty
    have hS : ∀ fuel, decodeSequence t' rec fuel = decodeSequence t rec fuel := by
      intro fuel
      induction fuel with
      | zero => rfl
      | succ n ih => simp only [decodeSequence, ih, hg]
    cases ty <;> simp only [decodeArg, getFormat, decodeFormatSlice, hg, hS]
  have hP : ∀ rec fuel ps, decodeParams t' rec fuel ps = decodeParams t rec fuel ps := by
    intro rec fuel ps
    induction ps with
    | nil => rfl
    | cons p ps ih => simp only [decodeParams, hA, ih]
  have hF : ∀ fuel f, decodeFormat t' fuel f = decodeFormat t fuel f := by
    intro fuel
    induction fuel with
    | zero => intro f; rfl
    | succ n ih =>
      intro f
      have : decodeFormat t' n = decodeFormat t n := funext ih
      simp only [decodeFormat, this, hP]
  have hT : ∀ fuel, t'.decodeTimestamp fuel = t.decodeTimestamp fuel := by
    intro fuel; unfold Table.decodeTimestamp; simp only [hF, t']
  have hr : readUInt 2 bs = .ok i rest := by
    have h2 := readBytes_append [UInt8.ofNat (i % 256), UInt8.ofNat (i / 256)] rest
    unfold readUInt
    rw [show bs = [UInt8.ofNat (i % 256), UInt8.ofNat (i / 256)] ++ rest from rfl,
      bind_of_ok (show readBytes 2 _ = .ok _ rest from h2), pure_apply]
    congr 1
    have h1 : (UInt8.ofNat (i % 256)).toNat = i % 256 := by rw [UInt8.toNat_ofNat']; omega
    have h2 : (UInt8.ofNat (i / 256)).toNat = i / 256 := by rw [UInt8.toNat_ofNat']; omega
    simp only [leNat, h1, h2]
    omega
  have hw : t.getWithLevel i = some (tag.toLevel, s) := by unfold Table.getWithLevel; rw [hi]
  have hw' : t'.getWithLevel i = some (tag.toLevel, s') := by unfold Table.getWithLevel; simp [t']
  have hframe : t'.decodeFrame (bs.length + 1) bs = match t.decodeFrame (bs.length + 1) bs with
      | .ok f r => .ok { f with format := s' } r
      | .err e => .err e
      | .panic => .panic
      | .outOfFuel => .outOfFuel := by
    unfold Table.decodeFrame
    rw [bind_of_ok hr, bind_of_ok hr, hT, bind_apply, bind_apply]
    cases t.decodeTimestamp (bs.length + 1) rest with
    | err e => rfl
    | panic => rfl
    | outOfFuel => rfl
    | ok ts r2 =>
      simp only [hw, hw']
      rw [bind_of_ok (show orMalformed (some (tag.toLevel, s)) r2 = .ok (tag.toLevel, s) r2 from rfl),
        bind_of_ok (show orMalformed (some (tag.toLevel, s')) r2 = .ok (tag.toLevel, s') r2 from rfl)]
      simp only [hF]
      rw [bind_apply, bind_apply, C17_hints_irrelevant t s s' fs fs' h h' hp]
      cases decodeFormat t (bs.length + 1) s' r2 <;> rfl
  refine ⟨?_, ?_⟩
  · intro f n hd
    unfold Table.decode at hd ⊢
    rw [hframe]
    cases hx : t.decodeFrame (bs.length + 1) bs with
    | ok f' r =>
      rw [hx] at hd
      simp only [Option.some.injEq, Outcome.ok.injEq, Prod.mk.injEq] at hd
      obtain ⟨rfl, rfl⟩ := hd
      rfl
    | err e => rw [hx] at hd; simp at hd
    | panic => rw [hx] at hd; simp at hd
    | outOfFuel => rw [hx] at hd; simp at hd
  · intro e hd
    unfold Table.decode at hd ⊢
    rw [hframe]
    cases hx : t.decodeFrame (bs.length + 1) bs with
    | ok f' r => rw [hx] at hd; simp at hd
    | err e' => rw [hx] at hd; simpa using hd
    | panic => rw [hx] at hd; simp at hd
    | outOfFuel => rw [hx] at hd; simp at hd

/-- **C17** A hint the host does not know (any text without braces that is not a hint) is harmless:
the parameter parses, with the same type. -/
theorem C17_unknown_hint (ty : Ty) (spaces : Nat) (hint : List Char) (hv : ty.Valid)
    (hne : hint ≠ []) (h1 : '{' ∉ hint) (h2 : '}' ∉ hint) (hu : parseHint hint = none)
    (t : Table) (fuel : Nat) (bs : List UInt8) :
    decodeFormat t fuel ('{' :: '=' :: renderTy spaces ty ++ ':' :: hint ++ ['}']) bs =
      decodeFormat t fuel ('{' :: '=' :: renderTy spaces ty ++ ['}']) bs := by
  have a := C18_single_parameter .forwardsCompatible ⟨none, some ty, spaces, some (.unknown hint)⟩
    ⟨by simp, by simpa using hv, by simp [Hint.Valid, hne, h1, h2, hu]⟩ (Or.inl rfl)
  have b := C18_single_parameter .forwardsCompatible ⟨none, some ty, spaces, none⟩
    ⟨by simp, by simpa using hv, by simp⟩ (Or.inl rfl)
  simp only [Written.text, indexPart, typePart, hintPart, renderHint, Written.type, List.nil_append, List.append_nil,
    List.cons_append, List.append_assoc] at a b
  have := C17_hints_irrelevant t _ _ _ _ a b rfl fuel bs
  simpa using this

example : parse c!"{=u16:wibble}" .forwardsCompatible = .ok [.param ⟨0, .u16, some (.unknown c!"wibble")⟩] := by
  decide +kernel

end Defmt
