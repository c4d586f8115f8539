import Verif.Model.Decoder
import Verif.Lemmas.Utf8
/-! Prefix stability and fuel of the decoder. -/

namespace Defmt.Decoder

open Parser

variable {α β : Type}

/-- The behaviour of a decoding step only depends on the bytes it uses: a success is independent of
what follows and is reached by waiting for more data, a failure stays a failure. -/
structure Stable (m : Dec α) : Prop where
  ok : ∀ {bs a rest}, m bs = .ok a rest → ∃ used, bs = used ++ rest ∧
    (∀ ext, m (used ++ ext) = .ok a ext) ∧
    ∀ pre q, used = pre ++ q → q ≠ [] → m pre = .err .unexpectedEof
  malformed : ∀ {bs}, m bs = .err .malformed → ∀ ext, m (bs ++ ext) = .err .malformed
  panic : ∀ {bs}, m bs = .panic → ∀ ext, m (bs ++ ext) = .panic
  fuel : ∀ {bs}, m bs = .outOfFuel → ∀ ext, m (bs ++ ext) = .outOfFuel

theorem bind_apply (m : Dec α) (f : α → Dec β) (bs : List UInt8) :
    (m >>= f) bs = match m bs with
      | .ok a rest => f a rest
      | .err e => .err e
      | .panic => .panic
      | .outOfFuel => .outOfFuel := rfl

theorem pure_apply (a : α) (bs : List UInt8) : (pure a : Dec α) bs = .ok a bs := rfl

theorem bind_ok {m : Dec α} {f : α → Dec β} {bs r : List UInt8} {b : β} (h : (m >>= f) bs = .ok b r) :
    ∃ a r1, m bs = .ok a r1 ∧ f a r1 = .ok b r := by
  rw [bind_apply] at h
  cases hm : m bs with
  | ok a r1 => rw [hm] at h; exact ⟨a, r1, rfl, h⟩
  | err e => rw [hm] at h; simp at h
  | panic => rw [hm] at h; simp at h
  | outOfFuel => rw [hm] at h; simp at h

theorem bind_of_ok {m : Dec α} {f : α → Dec β} {bs r : List UInt8} {a : α} (h : m bs = .ok a r) :
    (m >>= f) bs = f a r := by
  rw [bind_apply, h]

theorem Stable.pure (a : α) : Stable (pure a : Dec α) where
  ok := by
    intro bs b rest h
    rw [pure_apply] at h
    cases h
    exact ⟨[], rfl, fun _ => rfl, fun pre q h hq => by simp at h; exact absurd h.2 hq⟩
  malformed := by intro bs h; rw [pure_apply] at h; cases h
  panic := by intro bs h; rw [pure_apply] at h; cases h
  fuel := by intro bs h; rw [pure_apply] at h; cases h

theorem Stable.fail (e : DecodeError) : Stable (fail e : Dec α) where
  ok := by intro bs a rest h; cases h
  malformed := by intro bs h ext; exact h
  panic := by intro bs h; cases h
  fuel := by intro bs h; cases h

theorem Stable.panicked : Stable (panicked : Dec α) where
  ok := by intro bs a rest h; cases h
  malformed := by intro bs h; cases h
  panic := by intro bs h ext; rfl
  fuel := by intro bs h; cases h

theorem Stable.noFuel : Stable (noFuel : Dec α) where
  ok := by intro bs a rest h; cases h
  malformed := by intro bs h; cases h
  panic := by intro bs h; cases h
  fuel := by intro bs h ext; rfl

theorem Stable.orMalformed (o : Option α) : Stable (orMalformed o) := by
  cases o
  · exact Stable.fail _
  · exact Stable.pure _

theorem append_split {a b c d : List UInt8} (h : a ++ b = c ++ d) :
    (∃ e, e ≠ [] ∧ a = c ++ e ∧ d = e ++ b) ∨ ∃ e, c = a ++ e ∧ b = e ++ d := by
  rcases List.append_eq_append_iff.mp h with ⟨e, h1, h2⟩ | ⟨e, h1, h2⟩
  · right; exact ⟨e, h1, h2⟩
  · by_cases he : e = []
    · right; subst he; exact ⟨[], by simp_all, by simp_all⟩
    · left; exact ⟨e, he, h1, h2⟩

theorem Stable.bind {m : Dec α} {f : α → Dec β} (hm : Stable m) (hf : ∀ a, Stable (f a)) :
    Stable (m >>= f) where
  ok := by
    intro bs b rest h
    obtain ⟨a, r1, h1, h2⟩ := bind_ok h
    obtain ⟨u1, e1, x1, p1⟩ := hm.ok h1
    obtain ⟨u2, e2, x2, p2⟩ := (hf a).ok h2
    refine ⟨u1 ++ u2, by rw [e1, e2]; simp, ?_, ?_⟩
    · intro ext
      rw [List.append_assoc, bind_of_ok (x1 _)]
      exact x2 ext
    · intro pre q hq hne
      rcases append_split hq with ⟨e, he, h3, h4⟩ | ⟨e, h3, h4⟩
      · rw [bind_apply, p1 pre e h3 he]
      · rw [h3, bind_of_ok (x1 _)]
        exact p2 e q h4 hne
  malformed := by
    intro bs h ext
    rw [bind_apply] at h ⊢
    cases hm' : m bs with
    | ok a r1 =>
      rw [hm'] at h
      obtain ⟨u1, e1, x1, _⟩ := hm.ok hm'
      rw [e1, List.append_assoc, x1]
      exact (hf a).malformed h ext
    | err e =>
      rw [hm'] at h
      simp only [Res.err.injEq] at h
      subst h
      rw [hm.malformed hm']
    | panic => rw [hm'] at h; simp at h
    | outOfFuel => rw [hm'] at h; simp at h
  panic := by
    intro bs h ext
    rw [bind_apply] at h ⊢
    cases hm' : m bs with
    | ok a r1 =>
      rw [hm'] at h
      obtain ⟨u1, e1, x1, _⟩ := hm.ok hm'
      rw [e1, List.append_assoc, x1]
      exact (hf a).panic h ext
    | err e => rw [hm'] at h; simp at h
    | panic => rw [hm.panic hm']
    | outOfFuel => rw [hm'] at h; simp at h
  fuel := by
    intro bs h ext
    rw [bind_apply] at h ⊢
    cases hm' : m bs with
    | ok a r1 =>
      rw [hm'] at h
      obtain ⟨u1, e1, x1, _⟩ := hm.ok hm'
      rw [e1, List.append_assoc, x1]
      exact (hf a).fuel h ext
    | err e => rw [hm'] at h; simp at h
    | panic => rw [hm'] at h; simp at h
    | outOfFuel => rw [hm.fuel hm']

theorem readBytes_append (used rest : List UInt8) :
    readBytes used.length (used ++ rest) = .ok used rest := by
  simp [readBytes]

theorem readBytes_ok {n : Nat} {bs a rest : List UInt8} (h : readBytes n bs = .ok a rest) :
    bs = a ++ rest ∧ a.length = n := by
  unfold readBytes at h
  split at h
  · cases h
  · simp only [Res.ok.injEq] at h
    rw [← h.1, ← h.2]
    exact ⟨by simp, by simp; omega⟩

theorem Stable.readBytes (n : Nat) : Stable (readBytes n) where
  ok := by
    intro bs a rest h
    obtain ⟨h1, h2⟩ := readBytes_ok h
    refine ⟨a, h1, ?_, ?_⟩
    · intro ext; rw [← h2]; exact readBytes_append a ext
    · intro pre q hq hne
      have hl := congrArg List.length hq
      have := List.length_pos_iff.mpr hne
      simp only [List.length_append] at hl
      unfold Decoder.readBytes
      rw [if_pos (by omega)]
  malformed := by intro bs h; unfold Decoder.readBytes at h; split at h <;> cases h
  panic := by intro bs h; unfold Decoder.readBytes at h; split at h <;> cases h
  fuel := by intro bs h; unfold Decoder.readBytes at h; split at h <;> cases h

theorem Stable.readUInt (n : Nat) : Stable (readUInt n) :=
  Stable.bind (Stable.readBytes n) (fun _ => Stable.pure _)

theorem Stable.readInt (n : Nat) : Stable (readInt n) :=
  Stable.bind (Stable.readUInt n) (fun _ => Stable.pure _)

theorem position_some {p : UInt8 → Bool} {bs : List UInt8} : ∀ {i : Nat}, Stream.position p bs = some i →
    ∃ b rest, bs = bs.take i ++ b :: rest ∧ rest = bs.drop (i + 1) ∧ p b = true ∧
      (∀ c ∈ bs.take i, p c = false) ∧ i < bs.length := by
  induction bs with
  | nil => intro i h; cases h
  | cons c cs ih =>
    intro i h
    unfold Stream.position at h
    split at h
    · simp only [Option.some.injEq] at h; subst h
      rename_i hc
      exact ⟨c, cs, by simp, by simp, hc, by simp, by simp⟩
    · rename_i hc
      simp only [Option.map_eq_some_iff] at h
      obtain ⟨j, hj, rfl⟩ := h
      obtain ⟨b, rest, h1, h2, h3, h4, h5⟩ := ih hj
      refine ⟨b, rest, by simpa using h1, by simpa using h2, h3, ?_, by simpa using h5⟩
      intro d hd
      rw [List.take_succ_cons, List.mem_cons] at hd
      rcases hd with rfl | hd
      · simpa using hc
      · exact h4 d hd

theorem position_of_none {p : UInt8 → Bool} {bs : List UInt8} (h : ∀ b ∈ bs, p b = false) :
    Stream.position p bs = none := by
  induction bs with
  | nil => rfl
  | cons c cs ih =>
    unfold Stream.position
    rw [if_neg (by simp [h c]), ih (fun b hb => h b (by simp [hb]))]
    rfl

theorem position_append {p : UInt8 → Bool} {pre : List UInt8} {b : UInt8} {rest : List UInt8}
    (h : ∀ c ∈ pre, p c = false) (hb : p b = true) :
    Stream.position p (pre ++ b :: rest) = some pre.length := by
  induction pre with
  | nil => simp [Stream.position, hb]
  | cons c cs ih =>
    rw [List.cons_append]
    unfold Stream.position
    rw [if_neg (by simp [h c]), ih (fun b hb => h b (by simp [hb]))]
    rfl

theorem readTerminated_append {pre : List UInt8} {rest : List UInt8} (h : ∀ c ∈ pre, c ≠ 0xff) :
    readTerminated (pre ++ 0xff :: rest) = .ok pre rest := by
  have hp := position_append (p := (· == 0xff)) (pre := pre) (b := 0xff) (rest := rest)
    (by intro c hc; simpa using h c hc) (by simp)
  simp only [readTerminated, hp]
  simp

theorem Stable.readTerminated : Stable readTerminated where
  ok := by
    intro bs a rest h
    cases hp : Stream.position (· == 0xff) bs with
    | none => simp [Decoder.readTerminated, hp] at h
    | some i =>
      obtain ⟨b, r, h1, h2, h3, h4, h5⟩ := position_some hp
      simp only [Decoder.readTerminated, hp, Res.ok.injEq] at h
      have hb : b = 0xff := by simpa using h3
      subst hb
      obtain ⟨rfl, rfl⟩ := h
      have h4' : ∀ c ∈ bs.take i, c ≠ 0xff := by intro c hc; simpa using h4 c hc
      refine ⟨bs.take i ++ [0xff], ?_, ?_, ?_⟩
      · rw [List.append_assoc, List.singleton_append, ← h2]; exact h1
      · intro ext
        rw [List.append_assoc, List.singleton_append]
        exact readTerminated_append h4'
      · intro pre q hq hne
        have hmem : ∀ c ∈ pre, (c == 0xff) = false := by
          intro c hc
          rcases append_split hq with ⟨e, _, h6, _⟩ | ⟨e, h6, h7⟩
          · exact h4 c (by rw [h6]; simp [hc])
          · have : e = [] := by
              have hl := congrArg List.length h7
              have := List.length_pos_iff.mpr hne
              simp only [List.length_append, List.length_singleton] at hl
              exact List.length_eq_zero_iff.mp (by omega)
            subst this
            exact h4 c (by rw [h6] at hc; simpa using hc)
        simp [Decoder.readTerminated, position_of_none hmem]
  malformed := by intro bs h; unfold Decoder.readTerminated at h; split at h <;> cases h
  panic := by intro bs h; unfold Decoder.readTerminated at h; split at h <;> cases h
  fuel := by intro bs h; unfold Decoder.readTerminated at h; split at h <;> cases h

theorem Stable.ite {c : Prop} [Decidable c] {m m' : Dec α} (h : Stable m) (h' : Stable m') :
    Stable (if c then m else m') := by split <;> assumption

theorem Stable.getFormat (t : Table) : Stable (getFormat t) :=
  Stable.bind (Stable.readUInt 2) (fun _ => Stable.orMalformed _)

theorem Stable.getVariant (f : List Char) : Stable (getVariant f) :=
  Stable.ite Stable.panicked
    (Stable.bind (Stable.orMalformed _) fun _ => Stable.bind (Stable.readUInt _) fun _ => Stable.orMalformed _)

theorem Stable.chooseVariant (f : List Char) : Stable (chooseVariant f) :=
  Stable.ite (Stable.getVariant f) (Stable.pure f)

theorem Stable.decodeElements {rec : List Char → Dec (List Arg)} (hr : ∀ f, Stable (rec f))
    (f : List Char) (n : Nat) : Stable (decodeElements rec f n) := by
  induction n with
  | zero => exact Stable.pure _
  | succ n ih =>
    exact Stable.bind (Stable.chooseVariant f) fun v => Stable.bind (hr v) fun _ =>
      Stable.bind ih fun _ => Stable.pure _

theorem Stable.decodeFormatSlice {t : Table} {rec : List Char → Dec (List Arg)} (hr : ∀ f, Stable (rec f))
    (n : Nat) : Stable (decodeFormatSlice t rec n) :=
  Stable.bind (Stable.getFormat t) fun f => Stable.ite Stable.panicked (Stable.decodeElements hr f n)

theorem Stable.decodeSequence {t : Table} {rec : List Char → Dec (List Arg)} (hr : ∀ f, Stable (rec f))
    (n : Nat) : Stable (decodeSequence t rec n) := by
  induction n with
  | zero => exact Stable.noFuel
  | succ n ih =>
    exact Stable.bind (Stable.readUInt 2) fun i => Stable.ite (Stable.pure _)
      (Stable.bind (Stable.orMalformed _) fun f => Stable.bind (hr f) fun _ =>
        Stable.bind ih fun _ => Stable.pure _)

theorem Stable.decodeArg {t : Table} {rec : List Char → Dec (List Arg)} (hr : ∀ f, Stable (rec f))
    (n : Nat) (ty : Ty) : Stable (decodeArg t rec n ty) := by
  have hi : ∀ k, Stable (do return Arg.ixx (← Decoder.readInt k)) := fun k =>
    Stable.bind (Stable.readInt k) fun _ => Stable.pure _
  have hu : ∀ k, Stable (do return Arg.uxx (← Decoder.readUInt k)) := fun k =>
    Stable.bind (Stable.readUInt k) fun _ => Stable.pure _
  have hpre : Stable (do
      let bytes ← Decoder.readTerminated
      return Arg.preformatted (← Decoder.orMalformed (fromUtf8 bytes))) :=
    Stable.bind Stable.readTerminated fun _ => Stable.bind (Stable.orMalformed _) fun _ => Stable.pure _
  cases ty with
  | bitField s e =>
    simp only [Decoder.decodeArg]
    split
    · exact Stable.panicked
    · exact Stable.bind (Stable.readUInt _) fun _ => Stable.pure _
  | bool =>
    exact Stable.bind (Stable.readUInt 1) fun b => Stable.ite (Stable.pure _)
      (Stable.ite (Stable.pure _) (Stable.fail _))
  | char => exact Stable.bind (Stable.readUInt 4) fun b => Stable.bind (Stable.orMalformed _) fun _ => Stable.pure _
  | debug => exact hpre
  | display => exact hpre
  | formatSequence => exact Stable.bind (Stable.decodeSequence hr n) fun _ => Stable.pure _
  | f32 => exact Stable.bind (Stable.readUInt 4) fun _ => Stable.pure _
  | f64 => exact Stable.bind (Stable.readUInt 8) fun _ => Stable.pure _
  | format =>
    exact Stable.bind (Stable.getFormat t) fun f => Stable.bind (Stable.chooseVariant f) fun v =>
      Stable.bind (hr v) fun _ => Stable.pure _
  | formatArray k => exact Stable.bind (Stable.decodeFormatSlice hr k) fun _ => Stable.pure _
  | formatSlice =>
    exact Stable.bind (Stable.readUInt 4) fun k => Stable.bind (Stable.decodeFormatSlice hr k) fun _ =>
      Stable.pure _
  | istr => exact Stable.bind (Stable.readUInt 2) fun i => Stable.bind (Stable.orMalformed _) fun _ => Stable.pure _
  | str =>
    exact Stable.bind (Stable.readUInt 4) fun k => Stable.bind (Stable.readBytes k) fun _ =>
      Stable.bind (Stable.orMalformed _) fun _ => Stable.pure _
  | u8Slice => exact Stable.bind (Stable.readUInt 4) fun k => Stable.bind (Stable.readBytes k) fun _ => Stable.pure _
  | u8Array k => exact Stable.bind (Stable.readBytes k) fun _ => Stable.pure _
  | i8 | i16 | i32 | i64 | i128 | isize => exact hi _
  | u8 | u16 | u32 | u64 | u128 | usize => exact hu _

theorem Stable.decodeParams {t : Table} {rec : List Char → Dec (List Arg)} (hr : ∀ f, Stable (rec f))
    (n : Nat) (ps : List Parameter) : Stable (decodeParams t rec n ps) := by
  induction ps with
  | nil => exact Stable.pure _
  | cons p ps ih => exact Stable.bind (Stable.decodeArg hr n p.ty) fun _ => Stable.bind ih fun _ => Stable.pure _

theorem Stable.decodeFormat (t : Table) (fuel : Nat) : ∀ f, Stable (decodeFormat t fuel f) := by
  induction fuel with
  | zero => intro f; exact Stable.noFuel
  | succ n ih =>
    intro f
    unfold Decoder.decodeFormat
    split
    · exact Stable.panicked
    · exact Stable.fail _
    · exact Stable.decodeParams ih _ _

theorem Stable.decodeTimestamp (t : Table) (fuel : Nat) : Stable (t.decodeTimestamp fuel) := by
  unfold Table.decodeTimestamp
  split
  · exact Stable.pure _
  · exact Stable.bind (Stable.decodeFormat t fuel _) fun _ => Stable.pure _

theorem Stable.decodeFrame (t : Table) (fuel : Nat) : Stable (t.decodeFrame fuel) :=
  Stable.bind (Stable.readUInt 2) fun _ => Stable.bind (Stable.decodeTimestamp t fuel) fun _ =>
    Stable.bind (Stable.orMalformed _) fun _ => Stable.bind (Stable.decodeFormat t fuel _) fun _ =>
      Stable.pure _

/-! ### Fuel -/

/-- `m'` does at least what `m` does: same result unless `m` ran out of fuel -/
def Refines (m m' : Dec α) : Prop := ∀ bs, m bs ≠ .outOfFuel → m' bs = m bs

theorem Refines.refl (m : Dec α) : Refines m m := fun _ _ => rfl

theorem Refines.bind {m m' : Dec α} {f f' : α → Dec β} (hm : Refines m m')
    (hf : ∀ a, Refines (f a) (f' a)) : Refines (m >>= f) (m' >>= f') := by
  intro bs h
  rw [bind_apply] at h ⊢
  rw [bind_apply]
  cases hmb : m bs with
  | ok a r =>
    rw [hmb] at h
    rw [hm bs (by rw [hmb]; simp), hmb]
    exact hf a r h
  | err e => rw [hm bs (by rw [hmb]; simp), hmb]
  | panic => rw [hm bs (by rw [hmb]; simp), hmb]
  | outOfFuel => rw [hmb] at h; exact absurd rfl h

theorem Refines.ite {c : Prop} [Decidable c] {m m' k k' : Dec α} (h : Refines m m') (h' : Refines k k') :
    Refines (if c then m else k) (if c then m' else k') := by split <;> assumption

theorem Refines.noFuel (m : Dec α) : Refines noFuel m := fun _ h => absurd rfl h

section
variable {t : Table} {rec rec' : List Char → Dec (List Arg)}

theorem Refines.decodeElements (hr : ∀ f, Refines (rec f) (rec' f)) (f : List Char) (n : Nat) :
    Refines (decodeElements rec f n) (decodeElements rec' f n) := by
  induction n with
  | zero => exact Refines.refl _
  | succ n ih =>
    exact Refines.bind (Refines.refl _) fun v => Refines.bind (hr v) fun _ =>
      Refines.bind ih fun _ => Refines.refl _

theorem Refines.decodeFormatSlice (hr : ∀ f, Refines (rec f) (rec' f)) (n : Nat) :
    Refines (decodeFormatSlice t rec n) (decodeFormatSlice t rec' n) :=
  Refines.bind (Refines.refl _) fun f => Refines.ite (Refines.refl _) (Refines.decodeElements hr f n)

theorem Refines.decodeSequence (hr : ∀ f, Refines (rec f) (rec' f)) : ∀ (n k : Nat), n ≤ k →
    Refines (decodeSequence t rec n) (decodeSequence t rec' k) := by
  intro n
  induction n with
  | zero => intro k _; exact Refines.noFuel _
  | succ n ih =>
    intro k hk
    obtain ⟨k, rfl⟩ : ∃ j, k = j + 1 := ⟨k - 1, by omega⟩
    exact Refines.bind (Refines.refl _) fun i => Refines.ite (Refines.refl _)
      (Refines.bind (Refines.refl _) fun f => Refines.bind (hr f) fun _ =>
        Refines.bind (ih k (by omega)) fun _ => Refines.refl _)

theorem Refines.decodeArg (hr : ∀ f, Refines (rec f) (rec' f)) (n k : Nat) (h : n ≤ k) (ty : Ty) :
    Refines (decodeArg t rec n ty) (decodeArg t rec' k ty) := by
  cases ty with
  | formatSequence => exact Refines.bind (Refines.decodeSequence hr n k h) fun _ => Refines.refl _
  | format =>
    exact Refines.bind (Refines.refl _) fun f => Refines.bind (Refines.refl _) fun v =>
      Refines.bind (hr v) fun _ => Refines.refl _
  | formatArray j => exact Refines.bind (Refines.decodeFormatSlice hr j) fun _ => Refines.refl _
  | formatSlice =>
    exact Refines.bind (Refines.refl _) fun j => Refines.bind (Refines.decodeFormatSlice hr j) fun _ =>
      Refines.refl _
  | _ => exact Refines.refl _

theorem Refines.decodeParams (hr : ∀ f, Refines (rec f) (rec' f)) (n k : Nat) (h : n ≤ k)
    (ps : List Parameter) : Refines (decodeParams t rec n ps) (decodeParams t rec' k ps) := by
  induction ps with
  | nil => exact Refines.refl _
  | cons p ps ih =>
    exact Refines.bind (Refines.decodeArg hr n k h p.ty) fun _ => Refines.bind ih fun _ => Refines.refl _

end

theorem Refines.decodeFormat (t : Table) : ∀ (n k : Nat), n ≤ k → ∀ f,
    Refines (decodeFormat t n f) (decodeFormat t k f) := by
  intro n
  induction n with
  | zero => intro k _ f; exact Refines.noFuel _
  | succ n ih =>
    intro k hk f
    obtain ⟨k, rfl⟩ : ∃ j, k = j + 1 := ⟨k - 1, by omega⟩
    unfold Decoder.decodeFormat
    split
    · exact Refines.refl _
    · exact Refines.refl _
    · exact Refines.decodeParams (ih k (by omega)) _ _ (by omega) _

theorem Refines.decodeFrame (t : Table) (n k : Nat) (h : n ≤ k) :
    Refines (t.decodeFrame n) (t.decodeFrame k) := by
  refine Refines.bind (Refines.refl _) fun _ => Refines.bind ?_ fun _ =>
    Refines.bind (Refines.refl _) fun _ => Refines.bind (Refines.decodeFormat t n k h _) fun _ =>
      Refines.refl _
  unfold Table.decodeTimestamp
  split
  · exact Refines.refl _
  · exact Refines.bind (Refines.decodeFormat t n k h _) fun _ => Refines.refl _

/-- `m` does not run out of fuel on inputs shorter than `n` -/
def Enough (n : Nat) (m : Dec α) : Prop := ∀ bs, bs.length < n → m bs ≠ .outOfFuel

/-- `m` removes at least `k` bytes -/
def Removes (k : Nat) (m : Dec α) : Prop := ∀ bs a r, m bs = .ok a r → r.length + k ≤ bs.length

theorem Stable.removes {m : Dec α} (h : Stable m) : Removes 0 m := by
  intro bs a r hm
  obtain ⟨u, rfl, _⟩ := h.ok hm
  simp

theorem Removes.readUInt (n : Nat) : Removes n (readUInt n) := by
  intro bs a r h
  obtain ⟨b, r1, h1, h2⟩ := bind_ok h
  obtain ⟨h3, h4⟩ := readBytes_ok h1
  cases h2
  rw [h3]; simp; omega

theorem Enough.bind {n k : Nat} {m : Dec α} {f : α → Dec β} (hm : Enough n m) (hr : Removes k m)
    (hf : ∀ a, Enough (n - k) (f a)) : Enough n (m >>= f) := by
  intro bs hl h
  rw [bind_apply] at h
  cases hmb : m bs with
  | ok a r =>
    rw [hmb] at h
    have := hr bs a r hmb
    exact hf a r (by omega) h
  | err e => rw [hmb] at h; cases h
  | panic => rw [hmb] at h; cases h
  | outOfFuel => exact hm bs hl hmb

theorem Enough.bind0 {n : Nat} {m : Dec α} {f : α → Dec β} (hm : Enough n m) (hr : Stable m)
    (hf : ∀ a, Enough n (f a)) : Enough n (m >>= f) :=
  Enough.bind hm hr.removes (by simpa using hf)

theorem Enough.pure (n : Nat) (a : α) : Enough n (pure a : Dec α) := by
  intro bs _ h; rw [pure_apply] at h; cases h

theorem Enough.fail (n : Nat) (e : DecodeError) : Enough n (fail e : Dec α) := by
  intro bs _ h; cases h

theorem Enough.panicked (n : Nat) : Enough n (panicked : Dec α) := by
  intro bs _ h; cases h

theorem Enough.orMalformed (n : Nat) (o : Option α) : Enough n (orMalformed o) := by
  cases o
  · exact Enough.fail _ _
  · exact Enough.pure _ _

theorem Enough.readBytes (n k : Nat) : Enough n (readBytes k) := by
  intro bs _ h; unfold Decoder.readBytes at h; split at h <;> cases h

theorem Enough.readUInt (n k : Nat) : Enough n (readUInt k) :=
  Enough.bind0 (Enough.readBytes n k) (Stable.readBytes k) fun _ => Enough.pure _ _

theorem Enough.readInt (n k : Nat) : Enough n (readInt k) :=
  Enough.bind0 (Enough.readUInt n k) (Stable.readUInt k) fun _ => Enough.pure _ _

theorem Enough.readTerminated (n : Nat) : Enough n readTerminated := by
  intro bs _ h; unfold Decoder.readTerminated at h; split at h <;> cases h

theorem Enough.ite {n : Nat} {c : Prop} [Decidable c] {m m' : Dec α} (h : Enough n m) (h' : Enough n m') :
    Enough n (if c then m else m') := by split <;> assumption

theorem Enough.mono {n k : Nat} {m : Dec α} (h : Enough n m) (hk : k ≤ n) : Enough k m :=
  fun bs hl => h bs (by omega)

theorem Enough.chooseVariant (n : Nat) (f : List Char) : Enough n (chooseVariant f) :=
  Enough.ite (Enough.ite (Enough.panicked _)
    (Enough.bind0 (Enough.orMalformed _ _) (Stable.orMalformed _) fun _ =>
      Enough.bind0 (Enough.readUInt _ _) (Stable.readUInt _) fun _ => Enough.orMalformed _ _))
    (Enough.pure _ _)

theorem Enough.getFormat (n : Nat) (t : Table) : Enough n (getFormat t) :=
  Enough.bind0 (Enough.readUInt _ _) (Stable.readUInt 2) fun _ => Enough.orMalformed _ _

theorem Removes.getFormat (t : Table) : Removes 2 (getFormat t) := by
  intro bs a r h
  obtain ⟨b, r1, h1, h2⟩ := bind_ok h
  have := Removes.readUInt 2 bs b r1 h1
  have := (Stable.orMalformed _).removes _ _ _ h2
  omega

section
variable {t : Table} {rec : List Char → Dec (List Arg)} {n : Nat}

theorem Enough.decodeElements (hs : ∀ f, Stable (rec f)) (hr : ∀ f, Enough n (rec f)) (f : List Char)
    (k : Nat) : Enough n (decodeElements rec f k) := by
  induction k with
  | zero => exact Enough.pure _ _
  | succ k ih =>
    exact Enough.bind0 (Enough.chooseVariant _ _) (Stable.chooseVariant _) fun v =>
      Enough.bind0 (hr v) (hs v) fun _ => Enough.bind0 ih (Stable.decodeElements hs f k) fun _ => Enough.pure _ _

theorem Enough.decodeFormatSlice (hs : ∀ f, Stable (rec f)) (hr : ∀ f, Enough (n - 2) (rec f)) (k : Nat) :
    Enough n (decodeFormatSlice t rec k) :=
  Enough.bind (Enough.getFormat _ _) (Removes.getFormat t) fun f =>
    Enough.ite (Enough.panicked _) (Enough.decodeElements hs hr f k)

theorem Enough.decodeSequence (hs : ∀ f, Stable (rec f)) : ∀ (fuel n : Nat),
    (∀ f, Enough (n - 2) (rec f)) → n ≤ 2 * fuel → Enough n (decodeSequence t rec fuel) := by
  intro fuel
  induction fuel with
  | zero => intro n hr hn bs hl; omega
  | succ fuel ih =>
    intro n hr hn
    refine Enough.bind (Enough.readUInt _ _) (Removes.readUInt 2) fun i => Enough.ite (Enough.pure _ _) ?_
    refine Enough.bind0 (Enough.orMalformed _ _) (Stable.orMalformed _) fun f =>
      Enough.bind0 (hr f) (hs f) fun _ => Enough.bind0 ?_ (Stable.decodeSequence hs fuel) fun _ => Enough.pure _ _
    exact ih (n - 2) (fun f => (hr f).mono (by omega)) (by omega)

theorem Enough.decodeArg (hs : ∀ f, Stable (rec f)) (hr : ∀ f, Enough (n - 2) (rec f)) (fuel : Nat)
    (hf : n ≤ 2 * fuel) (ty : Ty) : Enough n (decodeArg t rec fuel ty) := by
  have hi : ∀ k, Enough n (do return Arg.ixx (← Decoder.readInt k)) := fun k =>
    Enough.bind0 (Enough.readInt n k) (Stable.readInt k) fun _ => Enough.pure _ _
  have hu : ∀ k, Enough n (do return Arg.uxx (← Decoder.readUInt k)) := fun k =>
    Enough.bind0 (Enough.readUInt n k) (Stable.readUInt k) fun _ => Enough.pure _ _
  have hpre : Enough n (do
      let bytes ← Decoder.readTerminated
      return Arg.preformatted (← Decoder.orMalformed (fromUtf8 bytes))) :=
    Enough.bind0 (Enough.readTerminated n) Stable.readTerminated fun _ =>
      Enough.bind0 (Enough.orMalformed _ _) (Stable.orMalformed _) fun _ => Enough.pure _ _
  cases ty with
  | bitField s e =>
    simp only [Decoder.decodeArg]
    split
    · exact Enough.panicked _
    · exact Enough.bind0 (Enough.readUInt _ _) (Stable.readUInt _) fun _ => Enough.pure _ _
  | bool =>
    exact Enough.bind0 (Enough.readUInt _ 1) (Stable.readUInt 1) fun b => Enough.ite (Enough.pure _ _)
      (Enough.ite (Enough.pure _ _) (Enough.fail _ _))
  | char =>
    exact Enough.bind0 (Enough.readUInt _ 4) (Stable.readUInt 4) fun b =>
      Enough.bind0 (Enough.orMalformed _ _) (Stable.orMalformed _) fun _ => Enough.pure _ _
  | debug => exact hpre
  | display => exact hpre
  | formatSequence =>
    exact Enough.bind0 (Enough.decodeSequence hs fuel n hr hf) (Stable.decodeSequence hs fuel) fun _ => Enough.pure _ _
  | f32 => exact Enough.bind0 (Enough.readUInt _ 4) (Stable.readUInt 4) fun _ => Enough.pure _ _
  | f64 => exact Enough.bind0 (Enough.readUInt _ 8) (Stable.readUInt 8) fun _ => Enough.pure _ _
  | format =>
    exact Enough.bind (Enough.getFormat _ t) (Removes.getFormat t) fun f =>
      Enough.bind0 (Enough.chooseVariant _ f) (Stable.chooseVariant f) fun v =>
      Enough.bind0 (hr v) (hs v) fun _ => Enough.pure _ _
  | formatArray k =>
    exact Enough.bind0 (Enough.decodeFormatSlice hs hr k) (Stable.decodeFormatSlice hs k) fun _ => Enough.pure _ _
  | formatSlice =>
    exact Enough.bind0 (Enough.readUInt _ 4) (Stable.readUInt 4) fun k =>
      Enough.bind0 (Enough.decodeFormatSlice hs hr k) (Stable.decodeFormatSlice hs k) fun _ => Enough.pure _ _
  | istr =>
    exact Enough.bind0 (Enough.readUInt _ 2) (Stable.readUInt 2) fun i =>
      Enough.bind0 (Enough.orMalformed _ _) (Stable.orMalformed _) fun _ => Enough.pure _ _
  | str =>
    exact Enough.bind0 (Enough.readUInt _ 4) (Stable.readUInt 4) fun k =>
      Enough.bind0 (Enough.readBytes _ k) (Stable.readBytes k) fun _ =>
      Enough.bind0 (Enough.orMalformed _ _) (Stable.orMalformed _) fun _ => Enough.pure _ _
  | u8Slice =>
    exact Enough.bind0 (Enough.readUInt _ 4) (Stable.readUInt 4) fun k =>
      Enough.bind0 (Enough.readBytes _ k) (Stable.readBytes k) fun _ => Enough.pure _ _
  | u8Array k => exact Enough.bind0 (Enough.readBytes _ k) (Stable.readBytes k) fun _ => Enough.pure _ _
  | i8 | i16 | i32 | i64 | i128 | isize => exact hi _
  | u8 | u16 | u32 | u64 | u128 | usize => exact hu _

theorem Enough.decodeParams (hs : ∀ f, Stable (rec f)) (hr : ∀ f, Enough (n - 2) (rec f)) (fuel : Nat)
    (hf : n ≤ 2 * fuel) (ps : List Parameter) : Enough n (decodeParams t rec fuel ps) := by
  induction ps with
  | nil => exact Enough.pure _ _
  | cons p ps ih =>
    exact Enough.bind0 (Enough.decodeArg hs hr fuel hf p.ty) (Stable.decodeArg hs fuel p.ty) fun _ =>
      Enough.bind0 ih (Stable.decodeParams hs fuel ps) fun _ => Enough.pure _ _

end

/-- `fuel` suffices for inputs of less than `2 * fuel` bytes -/
theorem Enough.decodeFormat (t : Table) (fuel : Nat) : ∀ f, Enough (2 * fuel) (decodeFormat t fuel f) := by
  induction fuel with
  | zero => intro f bs hl; omega
  | succ fuel ih =>
    intro f
    unfold Decoder.decodeFormat
    split
    · exact Enough.panicked _
    · exact Enough.fail _ _
    · exact Enough.decodeParams (Stable.decodeFormat t fuel) (fun g => (ih g).mono (by omega)) _ (by omega) _

theorem Enough.decodeFrame (t : Table) (fuel : Nat) : Enough (2 * fuel) (t.decodeFrame fuel) := by
  refine Enough.bind0 (Enough.readUInt _ 2) (Stable.readUInt 2) fun _ =>
    Enough.bind0 ?_ (Stable.decodeTimestamp t fuel) fun _ =>
    Enough.bind0 (Enough.orMalformed _ _) (Stable.orMalformed _) fun _ =>
    Enough.bind0 (Enough.decodeFormat t fuel _) (Stable.decodeFormat t fuel _) fun _ => Enough.pure _ _
  unfold Table.decodeTimestamp
  split
  · exact Enough.pure _ _
  · exact Enough.bind0 (Enough.decodeFormat t fuel _) (Stable.decodeFormat t fuel _) fun _ => Enough.pure _ _

end Defmt.Decoder
