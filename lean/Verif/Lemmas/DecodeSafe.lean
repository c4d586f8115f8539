import Verif.Lemmas.Prepare
import Verif.Lemmas.Decoder
import Verif.Props.Parser
/-! Helper lemmas: valid types out of the parser, panic freedom, origin of nested formats. -/

namespace Defmt.Parser

theorem parseType_valid {i f : List Char} {ty : Ty} (h : parseType i f = .ok ty) (hf : ∀ n, ty ≠ .formatArray n) :
    ∀ s e, ty = .bitField s e → s < e ∧ e ≤ 128 := by
  intro s e he
  subst he
  unfold parseType at h
  split at h
  · rename_i t ht
    simp only [Outcome.ok.injEq] at h
    subst h
    have key : ∀ (l : List (List Char × Ty)), l.lookup f = some (.bitField s e) → (.bitField s e) ∈ l.map Prod.snd := by
      intro l
      induction l with
      | nil => intro h; cases h
      | cons x l ih =>
        intro h
        rw [List.lookup_cons] at h
        split at h
        · simp only [Option.some.injEq] at h; simp [h]
        · simp [ih h]
    have := key _ ht
    simp [typeNames] at this
  · split at h
    · split at h <;> simp at h
    · split at h
      · split at h <;> simp at h
      · split at h
        · simp at h
        · rename_i a b c hr
          split at h
          · simp at h
          · simp only [Outcome.ok.injEq, Ty.bitField.injEq] at h
            unfold parseRange at hr
            simp only at hr
            repeat' split at hr
            all_goals (first | (simp only [Outcome.ok.injEq, Option.some.injEq, Prod.mk.injEq] at hr; omega) | simp at hr)
        · simp at h

def BitOk (ty : Ty) : Prop := ∀ s e, ty = .bitField s e → s < e ∧ e ≤ 128

theorem parseParam_bit {m : Mode} {t : List Char} {p : Param} (h : parseParam m t = .ok p) : BitOk p.ty := by
  have key : ∀ ix r q, parseTypeHint m ix r = .ok q → BitOk q.ty := by
    intro ix r q hq
    unfold parseTypeHint at hq
    split at hq
    · split at hq
      · simp at hq
      · simp at hq
      · rename_i ty hty
        split at hq
        · simp at hq
        · simp only [Outcome.ok.injEq] at hq
          subst hq
          intro s e he
          exact parseType_valid hty (by rw [show ty = .bitField s e from he]; simp) s e he
    · split at hq
      · simp at hq
      · simp only [Outcome.ok.injEq] at hq
        subst hq
        intro s e he; simp at he
  unfold parseParam at h
  simp only at h
  split at h
  · exact key _ _ _ h
  · split at h
    · simp at h
    · exact key _ _ _ h

theorem scan_bit (m : Mode) (s : List Char) : ∀ (rest : List Char) (skip : Bool) (pos e n : Nat)
    (fr fr' : List Fragment) (e' : Nat),
    scanLoop m s rest skip pos e n fr = .ok (fr', e') → (∀ p ∈ params fr, BitOk p.ty) →
    ∀ p ∈ params fr', BitOk p.ty := by
  intro rest
  induction rest with
  | nil =>
    intro skip pos e n fr fr' e' h hp
    simp only [scanLoop, Outcome.ok.injEq, Prod.mk.injEq] at h
    rw [← h.1]; exact hp
  | cons c rest ih =>
    intro skip pos e n fr fr' e' h hp
    cases skip with
    | true =>
      rw [scanLoop] at h
      simp only [if_true] at h
      exact ih false _ _ _ _ _ _ h hp
    | false =>
      by_cases hc : c = '{'
      · subst hc
        by_cases hh : rest.head? = some '{'
        · rw [scanLoop] at h
          simp only [Bool.false_eq_true, if_false, ne_eq, not_true, hh, if_true] at h
          exact ih true _ _ _ _ _ _ h hp
        · obtain ⟨fr1, p, h1, h2, h3, h4⟩ := scan_ok_step hh h
          apply ih false _ _ _ _ _ _ h4
          rw [params_append, litStep_params h1]
          intro q hq
          rcases List.mem_append.mp hq with hq | hq
          · exact hp q hq
          · simp only [params, List.mem_singleton] at hq
            subst hq
            exact parseParam_bit h3
      · rw [scanLoop] at h
        simp only [Bool.false_eq_true, if_false, ne_eq, hc, not_false_eq_true, if_true] at h
        exact ih false _ _ _ _ _ _ h hp

/-- bit ranges of an accepted string are non-empty and within 128 bits -/
theorem parse_bit {s : List Char} {m : Mode} {fs : List Fragment} (h : parse s m = .ok fs) :
    ∀ p ∈ params fs, BitOk p.ty := by
  obtain ⟨fr, e, args, h1, h2, h3, h4⟩ := parse_ok h
  rw [litStep_params h2]
  exact scan_bit _ _ _ _ _ _ _ _ _ _ h1 (by simp [params])

theorem maxRange_some {l : List (Nat × Nat)} {s e : Nat} (h : maxBitfieldRange l = some (s, e)) :
    (∃ e', (s, e') ∈ l) ∧ (∃ s', (s', e) ∈ l) ∧ ∀ r ∈ l, s ≤ r.1 ∧ r.2 ≤ e := by
  induction l generalizing s e with
  | nil => simp [maxBitfieldRange] at h
  | cons a l ih =>
    obtain ⟨a1, a2⟩ := a
    unfold maxBitfieldRange at h
    cases hl : maxBitfieldRange l with
    | none =>
      rw [hl] at h
      simp only [Option.some.injEq, Prod.mk.injEq] at h
      obtain ⟨rfl, rfl⟩ := h
      have := Decoder.maxRange_none.mp hl
      subst this
      simp
    | some r =>
      obtain ⟨r1, r2⟩ := r
      rw [hl] at h
      simp only [Option.some.injEq, Prod.mk.injEq] at h
      obtain ⟨rfl, rfl⟩ := h
      obtain ⟨⟨e', h1⟩, ⟨s', h2⟩, h3⟩ := ih hl
      refine ⟨?_, ?_, ?_⟩
      · rcases Nat.le_total a1 r1 with h | h
        · exact ⟨a2, by simp [Nat.min_eq_left h]⟩
        · exact ⟨e', by simp [Nat.min_eq_right h, h1]⟩
      · rcases Nat.le_total a2 r2 with h | h
        · exact ⟨s', by simp [Nat.max_eq_right h, h2]⟩
        · exact ⟨a1, by simp [Nat.max_eq_left h]⟩
      · intro r hr
        rcases List.mem_cons.mp hr with rfl | hr
        · simp only; omega
        · have := h3 r hr; omega

end Defmt.Parser

namespace Defmt.Decoder

open Parser

theorem bitRanges_mem {ps : List Parameter} {r : Nat × Nat} (h : r ∈ bitRanges ps) :
    ∃ p ∈ ps, p.ty = .bitField r.1 r.2 := by
  induction ps with
  | nil => simp [bitRanges] at h
  | cons p ps ih =>
    unfold bitRanges at h
    split at h
    · rename_i s e hs
      rcases List.mem_cons.mp h with rfl | h
      · exact ⟨p, by simp, hs⟩
      · obtain ⟨q, hq, hq'⟩ := ih h; exact ⟨q, by simp [hq], hq'⟩
    · obtain ⟨q, hq, hq'⟩ := ih h; exact ⟨q, by simp [hq], hq'⟩

/-- types of the prepared parameters: a type of the string, or a merged bit range -/
theorem prepared_ty {s : List Char} {m : Mode} {fs : List Fragment} (h : parse s m = .ok fs)
    {p : Parameter} (hp : p ∈ prepareParams (params fs)) :
    (∃ q ∈ params fs, q.ty = p.ty) ∨
      ∃ a b, p.ty = .bitField a b ∧ a < b ∧ b ≤ 128 := by
  obtain ⟨⟨n, hd⟩, hc⟩ := C12_indices_dense_types_consistent _ _ _ h
  have ht := prepare_types hd hc
  have : some p.ty ∈ (List.range n).map (tyAt (params fs)) := by
    rw [← ht]; exact List.mem_map_of_mem (f := fun p : Parameter => some p.ty) hp
  rw [List.mem_map] at this
  obtain ⟨i, _, hi⟩ := this
  unfold tyAt at hi
  split at hi
  · cases hi
  · rename_i q hq
    split at hi
    · simp only [Option.map_eq_some_iff] at hi
      obtain ⟨r, hr, hr'⟩ := hi
      obtain ⟨⟨e', h1⟩, ⟨s', h2⟩, h3⟩ := maxRange_some hr
      obtain ⟨q1, hq1, hq1'⟩ := bitRanges_mem h1
      obtain ⟨q2, hq2, hq2'⟩ := bitRanges_mem h2
      have b1 := parse_bit h q1 (List.mem_filter.mp hq1 |>.1) _ _ hq1'
      have b2 := parse_bit h q2 (List.mem_filter.mp hq2 |>.1) _ _ hq2'
      have := h3 _ h2
      exact Or.inr ⟨r.1, r.2, hr'.symm, by simp at *; omega, by simp at *; omega⟩
    · rename_i hnb
      simp only [Option.some.injEq] at hi
      exact Or.inl ⟨q, (firstAt_some hq).1, hi⟩

theorem bitfieldSize_some {s e : Nat} (h : s < e) (he : e ≤ 128) : ∃ d, bitfieldSize s e = some d := by
  unfold bitfieldSize
  simp only
  repeat' split
  all_goals (first | exact ⟨_, rfl⟩ | omega)

/-! ### Panic freedom -/

def NoPanic {α : Type} (m : Dec α) : Prop := ∀ bs, m bs ≠ .panic

variable {α β : Type}

theorem NoPanic.bind {m : Dec α} {f : α → Dec β} (hm : NoPanic m)
    (hf : ∀ bs a r, m bs = .ok a r → NoPanic (f a)) : NoPanic (m >>= f) := by
  intro bs
  rw [bind_apply]
  cases h : m bs with
  | ok a r => exact hf _ _ _ h r
  | err e => simp
  | panic => exact absurd h (hm bs)
  | outOfFuel => simp

theorem NoPanic.pure (a : α) : NoPanic (pure a : Dec α) := by intro bs h; cases h
theorem NoPanic.fail (e : DecodeError) : NoPanic (fail e : Dec α) := by intro bs h; cases h
theorem NoPanic.noFuel : NoPanic (noFuel : Dec α) := by intro bs h; cases h
theorem NoPanic.orMalformed (o : Option α) : NoPanic (orMalformed o) := by
  cases o <;> (intro bs h; cases h)
theorem NoPanic.readBytes (n : Nat) : NoPanic (readBytes n) := by
  intro bs h; unfold Decoder.readBytes at h; split at h <;> cases h
theorem NoPanic.readTerminated : NoPanic readTerminated := by
  intro bs h; unfold Decoder.readTerminated at h; split at h <;> cases h
theorem NoPanic.readUInt (n : Nat) : NoPanic (readUInt n) :=
  NoPanic.bind (NoPanic.readBytes n) fun _ _ _ _ => NoPanic.pure _
theorem NoPanic.readInt (n : Nat) : NoPanic (readInt n) :=
  NoPanic.bind (NoPanic.readUInt n) fun _ _ _ _ => NoPanic.pure _
theorem NoPanic.getFormat (t : Table) : NoPanic (getFormat t) :=
  NoPanic.bind (NoPanic.readUInt 2) fun _ _ _ _ => NoPanic.orMalformed _

theorem orMalformed_ok {o : Option α} {bs r : List UInt8} {a : α} (h : orMalformed o bs = .ok a r) : o = some a := by
  cases o with
  | none => cases h
  | some b => cases h; rfl

theorem NoPanic.chooseVariant (f : List Char) : NoPanic (chooseVariant f) := by
  unfold Decoder.chooseVariant
  split
  · rename_i h
    unfold getVariant
    rw [if_neg (by simpa using h)]
    exact NoPanic.bind (NoPanic.orMalformed _) fun _ _ _ _ => NoPanic.bind (NoPanic.readUInt _) fun _ _ _ _ =>
      NoPanic.orMalformed _
  · exact NoPanic.pure _

/-- a string or one of its variants -/
def pieces (s : List Char) : List (List Char) := s :: Parser.splitAt '|' s

theorem chooseVariant_ok {f v : List Char} {bs r : List UInt8} (h : chooseVariant f bs = .ok v r) :
    v ∈ pieces f := by
  unfold chooseVariant at h
  split at h
  · rename_i hm
    unfold getVariant at h
    rw [if_neg (by simpa using hm)] at h
    obtain ⟨size, r1, h1, h2⟩ := bind_ok h
    obtain ⟨d, r2, h3, h4⟩ := bind_ok h2
    have := orMalformed_ok h4
    exact List.mem_cons_of_mem _ (List.mem_of_getElem? this)
  · cases h; simp [pieces]

theorem getFormat_mem {t : Table} {f : List Char} {bs r : List UInt8} (h : getFormat t bs = .ok f r) :
    ∃ i, t.getWithoutLevel i = some f := by
  obtain ⟨i, r1, _, h2⟩ := bind_ok h
  exact ⟨i, orMalformed_ok h2⟩

section
variable {t : Table} {rec : List Char → Dec (List Arg)}

/-- `rec` does not panic on nested strings of the table -/
def RecSafe (t : Table) (rec : List Char → Dec (List Arg)) : Prop :=
  ∀ i f, t.getWithoutLevel i = some f → ∀ v ∈ pieces f, NoPanic (rec v)

theorem NoPanic.decodeElements {f : List Char} (hr : ∀ v ∈ pieces f, NoPanic (rec v)) (n : Nat) :
    NoPanic (decodeElements rec f n) := by
  induction n with
  | zero => exact NoPanic.pure _
  | succ n ih =>
    exact NoPanic.bind (NoPanic.chooseVariant f) fun _ _ _ h => NoPanic.bind (hr _ (chooseVariant_ok h))
      fun _ _ _ _ => NoPanic.bind ih fun _ _ _ _ => NoPanic.pure _

theorem NoPanic.decodeFormatSlice (hr : RecSafe t rec) {n : Nat} (hn : n ≤ maxElements) :
    NoPanic (decodeFormatSlice t rec n) := by
  refine NoPanic.bind (NoPanic.getFormat t) fun bs f r h => ?_
  rw [if_neg (by omega)]
  obtain ⟨i, hi⟩ := getFormat_mem h
  exact NoPanic.decodeElements (hr i f hi) n

theorem NoPanic.decodeSequence (hr : RecSafe t rec) (n : Nat) : NoPanic (decodeSequence t rec n) := by
  induction n with
  | zero => exact NoPanic.noFuel
  | succ n ih =>
    refine NoPanic.bind (NoPanic.readUInt 2) fun bs i r _ => ?_
    split
    · exact NoPanic.pure _
    · exact NoPanic.bind (NoPanic.orMalformed _) fun _ f _ h =>
        NoPanic.bind (hr i f (orMalformed_ok h) f (by simp [pieces])) fun _ _ _ _ =>
          NoPanic.bind ih fun _ _ _ _ => NoPanic.pure _

theorem readUInt_lt {n x : Nat} {bs r : List UInt8} (h : readUInt n bs = .ok x r) : x < 2 ^ (8 * n) := by
  obtain ⟨b, r1, h1, h2⟩ := bind_ok h
  obtain ⟨_, h3⟩ := readBytes_ok h1
  cases h2
  have key : ∀ (b : List UInt8), leNat b < 2 ^ (8 * b.length) := by
    intro b
    induction b with
    | nil => simp [leNat]
    | cons a b ih =>
      have h2 : 2 ^ (8 * (b.length + 1)) = 256 * 2 ^ (8 * b.length) := by
        rw [Nat.mul_succ, Nat.pow_add]; omega
      have := a.toNat_lt
      rw [List.length_cons, leNat, h2]
      omega
  rw [← h3]; exact key b

theorem NoPanic.decodeArg (hr : RecSafe t rec) (fuel : Nat) {ty : Ty}
    (hb : ∀ s e, ty = .bitField s e → s < e ∧ e ≤ 128) (ha : ∀ n, ty = .formatArray n → n ≤ maxElements) :
    NoPanic (decodeArg t rec fuel ty) := by
  have ri : ∀ (k : Nat) (f : Int → Arg), NoPanic (do return f (← Decoder.readInt k) : Dec Arg) := fun k f =>
    NoPanic.bind (NoPanic.readInt k) fun _ _ _ _ => NoPanic.pure _
  have ru : ∀ (k : Nat) (f : Nat → Arg), NoPanic (do return f (← Decoder.readUInt k) : Dec Arg) := fun k f =>
    NoPanic.bind (NoPanic.readUInt k) fun _ _ _ _ => NoPanic.pure _
  cases ty with
  | bool =>
    refine NoPanic.bind (NoPanic.readUInt 1) fun _ _ _ _ => ?_
    split
    · exact NoPanic.pure _
    · split
      · exact NoPanic.pure _
      · exact NoPanic.fail _
  | formatSlice =>
    refine NoPanic.bind (NoPanic.readUInt 4) fun _ n _ h => ?_
    have := readUInt_lt h
    exact NoPanic.bind (NoPanic.decodeFormatSlice hr (by unfold maxElements; omega)) fun _ _ _ _ => NoPanic.pure _
  | format =>
    refine NoPanic.bind (NoPanic.getFormat t) fun _ f _ h => NoPanic.bind (NoPanic.chooseVariant f) fun _ v _ hv => ?_
    obtain ⟨i, hi⟩ := getFormat_mem h
    exact NoPanic.bind (hr i f hi v (chooseVariant_ok hv)) fun _ _ _ _ => NoPanic.pure _
  | bitField s e =>
    obtain ⟨h1, h2⟩ := hb s e rfl
    obtain ⟨d, hd⟩ := bitfieldSize_some h1 h2
    rw [Decoder.decodeArg, hd]
    exact ru _ _
  | str => exact NoPanic.bind (NoPanic.readUInt 4) fun _ _ _ _ => NoPanic.bind (NoPanic.readBytes _) fun _ _ _ _ =>
      NoPanic.bind (NoPanic.orMalformed _) fun _ _ _ _ => NoPanic.pure _
  | istr => exact NoPanic.bind (NoPanic.readUInt 2) fun _ _ _ _ =>
      NoPanic.bind (NoPanic.orMalformed _) fun _ _ _ _ => NoPanic.pure _
  | u8Slice => exact NoPanic.bind (NoPanic.readUInt 4) fun _ _ _ _ => NoPanic.bind (NoPanic.readBytes _) fun _ _ _ _ =>
      NoPanic.pure _
  | u8Array n => exact NoPanic.bind (NoPanic.readBytes _) fun _ _ _ _ => NoPanic.pure _
  | formatArray n => exact NoPanic.bind (NoPanic.decodeFormatSlice hr (ha n rfl)) fun _ _ _ _ => NoPanic.pure _
  | char => exact NoPanic.bind (NoPanic.readUInt 4) fun _ _ _ _ =>
      NoPanic.bind (NoPanic.orMalformed _) fun _ _ _ _ => NoPanic.pure _
  | debug => exact NoPanic.bind NoPanic.readTerminated fun _ _ _ _ =>
      NoPanic.bind (NoPanic.orMalformed _) fun _ _ _ _ => NoPanic.pure _
  | display => exact NoPanic.bind NoPanic.readTerminated fun _ _ _ _ =>
      NoPanic.bind (NoPanic.orMalformed _) fun _ _ _ _ => NoPanic.pure _
  | formatSequence => exact NoPanic.bind (NoPanic.decodeSequence hr fuel) fun _ _ _ _ => NoPanic.pure _
  | i8 => exact ri _ _
  | i16 => exact ri _ _
  | i32 => exact ri _ _
  | i64 => exact ri _ _
  | i128 => exact ri _ _
  | isize => exact ri _ _
  | u8 => exact ru _ _
  | u16 => exact ru _ _
  | u32 => exact ru _ _
  | u64 => exact ru _ _
  | u128 => exact ru _ _
  | usize => exact ru _ _
  | f32 => exact ru _ _
  | f64 => exact ru _ _

theorem NoPanic.decodeParams (hr : RecSafe t rec) (fuel : Nat) (ps : List Parameter)
    (h : ∀ p ∈ ps, (∀ s e, p.ty = .bitField s e → s < e ∧ e ≤ 128) ∧
      ∀ n, p.ty = .formatArray n → n ≤ maxElements) : NoPanic (decodeParams t rec fuel ps) := by
  induction ps with
  | nil => exact NoPanic.pure _
  | cons p ps ih =>
    have hp := h p (by simp)
    exact NoPanic.bind (NoPanic.decodeArg hr fuel hp.1 hp.2) fun _ _ _ _ =>
      NoPanic.bind (ih fun q hq => h q (by simp [hq])) fun _ _ _ _ => NoPanic.pure _

end

end Defmt.Decoder
