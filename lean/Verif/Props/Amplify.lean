import Verif.Spec.Amplify
import Verif.Props.Decoder
import Verif.Lemmas.RoundTrip
/-!
# Property C96: how much memory a decoded frame needs
-/

namespace Defmt

open Parser Decoder

/-! ### bounds for decoding steps -/

/-- what a step makes is paid for by the bytes it reads -/
def Paid {α : Type} (w : α → Nat) (m : Dec α) : Prop := ∀ bs a r, m bs = .ok a r → r.length + w a ≤ bs.length

theorem Paid.bind {α β : Type} {w : α → Nat} {v : β → Nat} {m : Dec α} {f : α → Dec β} (hm : Paid w m)
    (hf : ∀ a, Paid (fun b => v b - w a) (f a)) : Paid v (m >>= f) := by
  intro bs b r h
  obtain ⟨a, r1, h1, h2⟩ := bind_ok h
  have e1 := hm _ _ _ h1
  have e2 : r.length + (v b - w a) ≤ r1.length := hf a _ _ _ h2
  omega

theorem Paid.mono {α : Type} {w v : α → Nat} {m : Dec α} (h : Paid w m) (hv : ∀ a, v a ≤ w a) : Paid v m := by
  intro bs a r he
  have := h bs a r he
  have := hv a
  omega

theorem Paid.pure {α : Type} {w : α → Nat} {a : α} (h : w a = 0) : Paid w (pure a : Dec α) := by
  intro bs b r he
  rw [pure_apply] at he
  cases he
  omega

theorem Paid.stable {α : Type} {m : Dec α} (h : Stable m) : Paid (fun _ => 0) m := by
  intro bs a r he
  obtain ⟨used, e, -⟩ := h.ok he
  rw [e]; simp

theorem Paid.readBytes (n : Nat) : Paid (fun _ => n) (readBytes n) := by
  intro bs a r h
  obtain ⟨h1, h2⟩ := readBytes_ok h
  rw [h1]; simp; omega

theorem Paid.readUInt (n : Nat) : Paid (fun _ => n) (readUInt n) :=
  Paid.bind (Paid.readBytes n) fun _ => Paid.pure (by omega)

theorem Paid.readInt (n : Nat) : Paid (fun _ => n) (readInt n) :=
  Paid.bind (Paid.readUInt n) fun _ => Paid.pure (by omega)

theorem Paid.orMalformed {α : Type} (o : Option α) : Paid (fun _ => 0) (orMalformed o) := Paid.stable (Stable.orMalformed o)

/-- for results that depend on the option -/
theorem Paid.orMalformed_some {α : Type} {w : α → Nat} (o : Option α) (h : ∀ a, o = some a → w a = 0) : Paid w (Decoder.orMalformed o) := by
  intro bs a r he
  have := h a (orMalformed_ok he)
  have := Paid.orMalformed o bs a r he
  omega

theorem Paid.getFormat (t : Table) : Paid (fun _ => 2) (getFormat t) :=
  Paid.bind (Paid.readUInt 2) fun _ => (Paid.orMalformed _).mono (by intro a; omega)

theorem fromUtf8_length {bs : List UInt8} : ∀ {s : List Char}, fromUtf8 bs = some s → s.length ≤ bs.length := by
  fun_induction fromUtf8 bs with
  | case1 => intro s h; cases h; simp
  | _ =>
    intro s h
    first
    | cases h
    | (obtain ⟨s', h1, h2⟩ := Option.map_eq_some_iff.mp h
       subst h2
       rename_i ih
       have := ih h1
       simp only [List.length_cons]
       omega)

theorem readTerminated_paid : Paid (fun (b : List UInt8) => b.length + 1) readTerminated := by
  intro bs a r h
  unfold readTerminated at h
  split at h
  · cases h
  · rename_i i hi
    cases h
    obtain ⟨b, rest, -, -, -, -, h5⟩ := position_some hi
    simp only [List.length_drop, List.length_take]
    omega

theorem Paid.decodeElements {rec : List Char → Dec (List Arg)} (hr : ∀ f, Paid Arg.contents (rec f)) (format : List Char) (n : Nat) :
    Paid Arg.elementContents (decodeElements rec format n) := by
  induction n with
  | zero => exact Paid.pure rfl
  | succ n ih =>
    unfold Decoder.decodeElements
    refine Paid.bind (Paid.stable (Stable.chooseVariant format)) fun v => ?_
    refine Paid.bind ((hr v).mono (fun _ => Nat.le_refl _)) fun args => ?_
    refine Paid.bind (ih.mono (fun _ => Nat.le_refl _)) fun es => Paid.pure ?_
    simp only [Arg.elementContents]; omega

theorem Paid.decodeFormatSlice {t : Table} {rec : List Char → Dec (List Arg)} (hr : ∀ f, Paid Arg.contents (rec f)) (n : Nat) :
    Paid (fun es => 2 + Arg.elementContents es) (decodeFormatSlice t rec n) := by
  unfold Decoder.decodeFormatSlice
  refine Paid.bind (Paid.getFormat t) fun f => ?_
  split
  · intro bs a r h; cases h
  · exact (Paid.decodeElements hr f n).mono (fun a => by omega)

theorem Paid.decodeSequence {t : Table} {rec : List Char → Dec (List Arg)} (hr : ∀ f, Paid Arg.contents (rec f)) (fuel : Nat) :
    Paid (fun es => 1 + Arg.contents es) (decodeSequence t rec fuel) := by
  induction fuel with
  | zero => intro bs a r h; cases h
  | succ fuel ih =>
    unfold Decoder.decodeSequence
    refine Paid.bind (Paid.readUInt 2) fun index => ?_
    split
    · exact Paid.pure (by simp [Arg.contents])
    · refine Paid.bind (Paid.orMalformed _) fun format => ?_
      refine Paid.bind (hr format) fun args => ?_
      refine Paid.bind ih fun rest => Paid.pure ?_
      simp only [Arg.contents, Arg.content]; omega

theorem Paid.decodeArg {t : Table} {rec : List Char → Dec (List Arg)} (hr : ∀ f, Paid Arg.contents (rec f)) (fuel : Nat) (ty : Ty) :
    Paid Arg.content (decodeArg t rec fuel ty) := by
  have int : ∀ n, 1 ≤ n → Paid Arg.content (do return .ixx (← Decoder.readInt n)) := fun n hn =>
    Paid.bind (Paid.readInt n) fun _ => Paid.pure (by simp only [Arg.content]; omega)
  have uint : ∀ n (c : Nat → Arg), 1 ≤ n → (∀ m, (c m).content = 1) → Paid Arg.content (do return c (← Decoder.readUInt n)) := fun n c hn hc =>
    Paid.bind (Paid.readUInt n) fun m => Paid.pure (by rw [hc]; omega)
  cases ty with
  | i8 => exact int 1 (by omega)
  | i16 => exact int 2 (by omega)
  | i32 => exact int 4 (by omega)
  | i64 => exact int 8 (by omega)
  | i128 => exact int 16 (by omega)
  | isize => exact int 4 (by omega)
  | u8 => exact uint 1 .uxx (by omega) (fun _ => rfl)
  | u16 => exact uint 2 .uxx (by omega) (fun _ => rfl)
  | u32 => exact uint 4 .uxx (by omega) (fun _ => rfl)
  | u64 => exact uint 8 .uxx (by omega) (fun _ => rfl)
  | u128 => exact uint 16 .uxx (by omega) (fun _ => rfl)
  | usize => exact uint 4 .uxx (by omega) (fun _ => rfl)
  | f32 => exact uint 4 .f32 (by omega) (fun _ => rfl)
  | f64 => exact uint 8 .f64 (by omega) (fun _ => rfl)
  | bool =>
    refine Paid.bind (Paid.readUInt 1) fun b => ?_
    split
    · exact Paid.pure (by simp [Arg.content])
    · split
      · exact Paid.pure (by simp [Arg.content])
      · intro bs a r h; cases h
  | formatSlice =>
    refine Paid.bind (Paid.readUInt 4) fun n => ?_
    refine Paid.bind (Paid.decodeFormatSlice hr n) fun es => Paid.pure ?_
    simp only [Arg.content]; omega
  | format =>
    refine Paid.bind (Paid.getFormat t) fun f => ?_
    refine Paid.bind (Paid.stable (Stable.chooseVariant f)) fun v => ?_
    refine Paid.bind (hr v) fun args => Paid.pure ?_
    simp only [Arg.content]; omega
  | bitField s e =>
    show Paid Arg.content (match bitfieldSize s e with
      | none => panicked
      | some size => do
        let data ← Decoder.readUInt size
        return .uxx (data * 2 ^ (8 * (s / 8)) % 2 ^ 128))
    cases hb : bitfieldSize s e with
    | none => intro bs a r h; cases h
    | some size =>
      have : 1 ≤ size := by
        unfold bitfieldSize at hb
        simp only at hb
        repeat' split at hb
        all_goals first | (cases hb; omega) | cases hb
      exact uint size (fun data => .uxx (data * 2 ^ (8 * (s / 8)) % 2 ^ 128)) this (fun _ => rfl)
  | str =>
    refine Paid.bind (Paid.readUInt 4) fun n => ?_
    intro bs a r h
    obtain ⟨b, r1, h1, h2⟩ := bind_ok h
    obtain ⟨s, r2, h3, h4⟩ := bind_ok h2
    have e1 : r1.length + n ≤ _ := Paid.readBytes n _ _ _ h1
    have e0 := readBytes_ok h1
    have e2 : r2.length + 0 ≤ r1.length := Paid.orMalformed _ _ _ _ h3
    have e3 := fromUtf8_length (orMalformed_ok h3)
    rw [pure_apply] at h4
    cases h4
    simp only [Arg.content]
    omega
  | istr =>
    refine Paid.bind (Paid.readUInt 2) fun n => ?_
    refine Paid.bind (Paid.orMalformed _) fun s => Paid.pure ?_
    simp [Arg.content]
  | u8Slice =>
    refine Paid.bind (Paid.readUInt 4) fun n => ?_
    intro bs a r h
    obtain ⟨b, r1, h1, h2⟩ := bind_ok h
    obtain ⟨e0, e1⟩ := readBytes_ok h1
    rw [pure_apply] at h2
    cases h2
    rw [e0]
    simp only [Arg.content, List.length_append]
    omega
  | u8Array n =>
    intro bs a r h
    obtain ⟨b, r1, h1, h2⟩ := bind_ok h
    obtain ⟨e0, e1⟩ := readBytes_ok h1
    rw [pure_apply] at h2
    cases h2
    rw [e0]
    simp only [Arg.content, List.length_append]
    omega
  | formatArray n =>
    refine Paid.bind (Paid.decodeFormatSlice hr n) fun es => Paid.pure ?_
    simp only [Arg.content]; omega
  | char =>
    refine Paid.bind (Paid.readUInt 4) fun n => ?_
    refine Paid.bind (Paid.orMalformed _) fun s => Paid.pure ?_
    simp [Arg.content]
  | debug =>
    intro bs a r h
    obtain ⟨b, r1, h1, h2⟩ := bind_ok h
    obtain ⟨s, r2, h3, h4⟩ := bind_ok h2
    have e1 : r1.length + (b.length + 1) ≤ _ := readTerminated_paid _ _ _ h1
    have e2 : r2.length + 0 ≤ r1.length := Paid.orMalformed _ _ _ _ h3
    have e3 := fromUtf8_length (orMalformed_ok h3)
    rw [pure_apply] at h4
    cases h4
    simp only [Arg.content]
    omega
  | display =>
    intro bs a r h
    obtain ⟨b, r1, h1, h2⟩ := bind_ok h
    obtain ⟨s, r2, h3, h4⟩ := bind_ok h2
    have e1 : r1.length + (b.length + 1) ≤ _ := readTerminated_paid _ _ _ h1
    have e2 : r2.length + 0 ≤ r1.length := Paid.orMalformed _ _ _ _ h3
    have e3 := fromUtf8_length (orMalformed_ok h3)
    rw [pure_apply] at h4
    cases h4
    simp only [Arg.content]
    omega
  | formatSequence =>
    refine Paid.bind (Paid.decodeSequence hr fuel) fun es => Paid.pure ?_
    simp only [Arg.content]; omega

theorem Paid.decodeParams {t : Table} {rec : List Char → Dec (List Arg)} (hr : ∀ f, Paid Arg.contents (rec f)) (fuel : Nat)
    (ps : List Parameter) : Paid Arg.contents (decodeParams t rec fuel ps) := by
  induction ps with
  | nil => exact Paid.pure rfl
  | cons p ps ih =>
    refine Paid.bind (Paid.decodeArg hr fuel p.ty) fun a => ?_
    refine Paid.bind (ih.mono (fun _ => Nat.le_refl _)) fun rest => Paid.pure ?_
    simp only [Arg.contents]; omega

theorem Paid.decodeFormat (t : Table) (fuel : Nat) : ∀ f, Paid Arg.contents (decodeFormat t fuel f) := by
  induction fuel with
  | zero => intro f bs a r h; cases h
  | succ fuel ih =>
    intro f
    unfold Decoder.decodeFormat
    split
    · intro bs a r h; cases h
    · intro bs a r h; cases h
    · exact Paid.decodeParams ih _ _

/-! ### C96 -/

/-- **C96** What a decoded frame contains is bounded by the bytes it was decoded from, for all tables and all bytes, except for elements of
slices without contents (their number is not bounded: `C96_fails`). -/
theorem C96_content_partial (t : Table) (bs : List UInt8) (f : Frame) (n : Nat) (h : t.decode bs = some (.ok (f, n))) :
    2 + Arg.contents f.timestampArgs + Arg.contents f.args ≤ n := by
  obtain ⟨rest, hd, rfl⟩ := decode_ok h
  have key : Paid (fun f : Frame => 2 + Arg.contents f.timestampArgs + Arg.contents f.args) (t.decodeFrame (bs.length + 1)) := by
    unfold Table.decodeFrame
    refine Paid.bind (Paid.readUInt 2) fun i => ?_
    refine Paid.bind (w := fun x => Arg.contents x.2) ?_ fun x => ?_
    · unfold Table.decodeTimestamp
      split
      · exact Paid.pure rfl
      · refine Paid.bind (Paid.decodeFormat t _ _) fun args => Paid.pure ?_
        simp
    · obtain ⟨tf, ta⟩ := x
      refine Paid.bind (Paid.orMalformed _) fun y => ?_
      obtain ⟨level, format⟩ := y
      refine Paid.bind ((Paid.decodeFormat t _ format).mono (fun _ => Nat.le_refl _)) fun args => Paid.pure ?_
      simp; omega
  have : rest.length + (2 + Arg.contents f.timestampArgs + Arg.contents f.args) ≤ bs.length := key _ _ _ hd
  omega

/-- **C96, the finding** Eight bytes can make any number of elements: if a program logs a slice (`{=[?]}` without timestamp) and its table has any
string without parameters and alternatives (such as that of a type without fields, or an interned string), then for every `n` below
2^32 there is a frame of eight bytes that decodes to a slice of `n` elements. -/
theorem C96_fails (t : Table) (i j n : Nat) (s : List Char) (tag : Tag) (level : Level) (fs : List Fragment) (ht : t.timestamp = none) (hi : i < 2 ^ 16)
    (hj : j < 2 ^ 16) (hn : n < 2 ^ 32) (hlog : t.entries i = some ⟨tag, c!"{=[?]}"⟩) (htag : (tag, level) ∈ logTags)
    (hstr : t.Nested j s) (hs : parse s .forwardsCompatible = .ok fs) (hp : params fs = []) (hbar : '|' ∉ s) :
    ∃ bs f, bs.length = 8 ∧ t.decode bs = some (.ok (f, 8)) ∧ f.args = [.formatSlice (List.replicate n (.format s []))] := by
  have hel : ∀ (fuel k : Nat) (bs : List UInt8), decodeElements (decodeFormat t (fuel + 1)) s k bs = .ok (List.replicate k (.format s [])) bs := by
    intro fuel k bs
    induction k with
    | zero => rfl
    | succ k ih =>
      unfold decodeElements
      rw [bind_of_ok (show chooseVariant s bs = .ok s bs by unfold chooseVariant; rw [if_neg hbar]; rfl)]
      have e : decodeFormat t (fuel + 1) s bs = .ok [] bs := by
        unfold decodeFormat
        rw [hs]
        show decodeParams _ _ _ (prepareParams (params fs)) bs = _
        rw [hp]; rfl
      rw [bind_of_ok e, bind_of_ok ih]
      rfl
  have hlv : t.getWithLevel i = some (some level, c!"{=[?]}") := by
    unfold Table.getWithLevel
    rw [hlog]
    simp only [logTags, List.mem_cons, Prod.mk.injEq, List.not_mem_nil, or_false] at htag
    rcases htag with ⟨rfl, rfl⟩ | ⟨rfl, rfl⟩ | ⟨rfl, rfl⟩ | ⟨rfl, rfl⟩ | ⟨rfl, rfl⟩ <;> rfl
  have hfr : t.decodeFrame 9 (Encoder.le 2 i ++ (Encoder.le 4 n ++ (Encoder.le 2 j ++ []))) =
      .ok ⟨some level, i, none, [], c!"{=[?]}", [.formatSlice (List.replicate n (.format s []))]⟩ [] := by
    unfold Table.decodeFrame
    rw [bind_of_ok (Encoder.readUInt_le' (by simpa using hi) _)]
    rw [bind_of_ok (show t.decodeTimestamp 9 _ = .ok (none, []) _ by unfold Table.decodeTimestamp; rw [ht]; rfl)]
    show ((orMalformed (t.getWithLevel i)) >>= fun x => _) _ = _
    rw [hlv, bind_of_ok (show orMalformed (some (some level, c!"{=[?]}")) _ = .ok (some level, c!"{=[?]}") _ from rfl)]
    have e : decodeFormat t 9 c!"{=[?]}" (Encoder.le 4 n ++ (Encoder.le 2 j ++ [])) = .ok [.formatSlice (List.replicate n (.format s []))] [] := by
      show (decodeArg t (decodeFormat t 8) 9 .formatSlice >>= fun a => _) _ = _
      have e2 : decodeArg t (decodeFormat t 8) 9 .formatSlice (Encoder.le 4 n ++ (Encoder.le 2 j ++ [])) =
          .ok (.formatSlice (List.replicate n (.format s []))) [] := by
        show (readUInt 4 >>= fun n => _) _ = _
        rw [bind_of_ok (Encoder.readUInt_le' (by simpa using hn) _)]
        have e3 : decodeFormatSlice t (decodeFormat t 8) n (Encoder.le 2 j ++ []) = .ok (List.replicate n (.format s [])) [] := by
          unfold decodeFormatSlice
          rw [bind_of_ok (Encoder.getFormat_ok ⟨hj, getWithoutLevel_eq.mpr hstr⟩ _)]
          rw [if_neg (by unfold maxElements; omega)]
          exact hel 7 n []
        rw [bind_of_ok e3]; rfl
      rw [bind_of_ok e2]; rfl
    exact bind_of_ok e
  have hlen : (Encoder.le 2 i ++ (Encoder.le 4 n ++ (Encoder.le 2 j ++ []))).length = 8 := by simp [Encoder.le_length]
  have := decode_of_ok (by omega) hfr
  rw [hlen] at this
  exact ⟨_, _, hlen, this, rfl⟩

/-- a program that logs a slice and has a type without fields -/
def sliceTable : Table := ⟨none, fun i => if i = 1 then some ⟨.info, c!"{=[?]}"⟩ else if i = 2 then some ⟨.derived, c!"Unit"⟩ else none⟩

/-- with it, eight bytes give four thousand million elements -/
example : ∃ bs f, bs.length = 8 ∧ sliceTable.decode bs = some (.ok (f, 8)) ∧
    f.args = [.formatSlice (List.replicate 4294967295 (.format c!"Unit" []))] :=
  C96_fails sliceTable 1 2 4294967295 c!"Unit" .info .info _ rfl (by decide) (by decide) (by decide) rfl (by decide)
    ⟨⟨.derived, c!"Unit"⟩, rfl, by intro lv; cases lv <;> decide, rfl⟩ rfl rfl (by decide)

/-- a frame for which the bound is reached up to the length field -/
example : sliceTable.decode [1, 0, 2, 0, 0, 0, 2, 0] = some (.ok (⟨some .info, 1, none, [], c!"{=[?]}",
    [.formatSlice [.format c!"Unit" [], .format c!"Unit" []]]⟩, 8)) := by rfl

/-- the values in such a frame -/
theorem nodes_replicate (n : Nat) (s : List Char) : Arg.nodes (.formatSlice (List.replicate n (.format s []))) = n + 1 := by
  have : Arg.nodesOf (List.replicate n (.format s [])) = n := by
    induction n with
    | zero => rfl
    | succ n ih => simp only [List.replicate_succ, Arg.nodesOf, Arg.nodes, ih]; omega
  simp only [Arg.nodes, this]; omega

/-- **C96, the finding** No factor below 2^28 bounds the number of values by the number of bytes. -/
theorem C96_factor (k : Nat) (hk : k < 2 ^ 28) : ∃ (t : Table) (bs : List UInt8) (f : Frame) (n : Nat),
    t.Safe ∧ t.decode bs = some (.ok (f, n)) ∧ k * n < Arg.nodesOf f.args := by
  obtain ⟨bs, f, -, h2, h3⟩ := C96_fails sliceTable 1 2 (8 * k) c!"Unit" .info .info _ rfl (by decide) (by decide) (by omega) rfl (by decide)
    ⟨⟨.derived, c!"Unit"⟩, rfl, by intro lv; cases lv <;> decide, rfl⟩ rfl rfl (by decide)
  refine ⟨sliceTable, bs, f, 8, ?_, h2, ?_⟩
  · refine And.intro (fun e h => by injection h) ?_
    have fine : ∀ s fs, parse s .forwardsCompatible = .ok fs → (∀ p ∈ params fs, ∀ n, p.ty ≠ .formatArray n) → Fine s := by
      intro s fs h hp
      refine ⟨by rw [h]; simp, ?_⟩
      intro fs' h' p hp' n hn
      rw [h] at h'
      cases h'
      exact absurd hn (hp p hp' n)
    have f1 : Fine c!"{=[?]}" := fine _ [.param ⟨0, .formatSlice, none⟩] rfl (by intro p hp; simp [params] at hp; subst hp; simp)
    have f2 : Fine c!"Unit" := fine _ [.literal c!"Unit"] rfl (by intro p hp; simp [params] at hp)
    intro i e h
    unfold sliceTable at h
    simp only at h
    split at h
    · cases h; exact ⟨f1, by intro v hv; rw [show Parser.splitAt '|' c!"{=[?]}" = [c!"{=[?]}"] from rfl] at hv; simp at hv; subst hv; exact f1⟩
    · split at h
      · cases h; exact ⟨f2, by intro v hv; rw [show Parser.splitAt '|' c!"Unit" = [c!"Unit"] from rfl] at hv; simp at hv; subst hv; exact f2⟩
      · cases h
  · rw [h3]
    simp only [Arg.nodesOf, nodes_replicate]
    omega

end Defmt
