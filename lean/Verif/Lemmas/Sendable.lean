import Verif.Lemmas.RoundTrip
import Verif.Spec.Sendable
/-! Decoded bytes are the bytes of what was decoded. -/

namespace Defmt

theorem utf8Char_ofNat (n : Nat) (h : n.isValidChar) : (Char.ofNat n).toNat = n := by
  simp [Char.ofNat, h, Char.toNat, Char.ofNatAux]

theorem ofNat8_toNat (b : UInt8) (n : Nat) (h : n = b.toNat) : UInt8.ofNat n = b := by
  subst h; simp

theorem utf8_of_fromUtf8 {bs : List UInt8} : ∀ {s : List Char}, fromUtf8 bs = some s → bs = utf8 s := by
  fun_induction fromUtf8 bs with
  | case1 => intro s h; cases h; rfl
  | case2 a r ha ih =>
    intro s h
    obtain ⟨s', hs', rfl⟩ := Option.map_eq_some_iff.mp h
    have hv : (Char.ofNat a.toNat).toNat = a.toNat := utf8Char_ofNat _ (Or.inl (by omega))
    rw [utf8, ← ih hs', utf8Char]
    simp only [hv, if_pos ha]
    simp
  | case3 => intro s h; cases h
  | case4 a ha b r hc ih =>
    intro s h
    obtain ⟨s', hs', rfl⟩ := Option.map_eq_some_iff.mp h
    simp only [byteIn, Bool.and_eq_true, decide_eq_true_eq] at hc
    have hv := utf8Char_ofNat ((a.toNat - 192) * 64 + (b.toNat - 128)) (Or.inl (by omega))
    rw [utf8, ← ih hs', utf8Char]
    simp only [hv]
    rw [if_neg (by omega), if_pos (by omega), ofNat8_toNat a _ (by omega), ofNat8_toNat b _ (by omega)]
    rfl
  | case5 => intro s h; cases h
  | case6 a ha b hc c r hc' ih =>
    intro s h
    obtain ⟨s', hs', rfl⟩ := Option.map_eq_some_iff.mp h
    simp only [byteIn, utf8Start3, Bool.and_eq_true, Bool.or_eq_true, decide_eq_true_eq] at hc'
    have hv := utf8Char_ofNat ((a.toNat - 224) * 4096 + (b.toNat - 128) * 64 + (c.toNat - 128)) (by unfold Nat.isValidChar; omega)
    rw [utf8, ← ih hs', utf8Char]
    simp only [hv]
    rw [if_neg (by omega), if_neg (by omega), if_pos (by omega), ofNat8_toNat a _ (by omega), ofNat8_toNat b _ (by omega),
      ofNat8_toNat c _ (by omega)]
    rfl
  | case7 => intro s h; cases h
  | case8 a ha b hc c hc' d r hd ih =>
    intro s h
    obtain ⟨s', hs', rfl⟩ := Option.map_eq_some_iff.mp h
    simp only [byteIn, utf8Start4, Bool.and_eq_true, Bool.or_eq_true, decide_eq_true_eq] at hd
    have hv := utf8Char_ofNat ((a.toNat - 240) * 262144 + (b.toNat - 128) * 4096 + (c.toNat - 128) * 64 + (d.toNat - 128))
      (by unfold Nat.isValidChar; omega)
    rw [utf8, ← ih hs', utf8Char]
    simp only [hv]
    rw [if_neg (by omega), if_neg (by omega), if_neg (by omega), ofNat8_toNat a _ (by omega), ofNat8_toNat b _ (by omega),
      ofNat8_toNat c _ (by omega), ofNat8_toNat d _ (by omega)]
    rfl
  | case9 => intro s h; cases h

namespace Encoder

open Parser Decoder

theorem le_leNat (bs : List UInt8) : le bs.length (leNat bs) = bs := by
  induction bs with
  | nil => rfl
  | cons b bs ih =>
    have hb := b.toNat_lt
    rw [List.length_cons, le, leNat, ofNat8_toNat b _ (by omega), show (b.toNat + 256 * leNat bs) / 256 = leNat bs by omega, ih]

theorem leNat_lt (bs : List UInt8) : leNat bs < 2 ^ (8 * bs.length) := by
  induction bs with
  | nil => decide
  | cons b bs ih =>
    have hb := b.toNat_lt
    have h2 : 2 ^ (8 * (b :: bs).length) = 256 * 2 ^ (8 * bs.length) := by
      rw [List.length_cons, Nat.mul_add, Nat.pow_add, Nat.mul_comm]
    rw [leNat, h2]
    have : leNat bs + 1 ≤ 2 ^ (8 * bs.length) := ih
    omega

theorem readUInt_inv {n m : Nat} {bs rest : List UInt8} (h : readUInt n bs = .ok m rest) : bs = le n m ++ rest ∧ m < 2 ^ (8 * n) := by
  obtain ⟨x, r1, h1, h2⟩ := bind_ok h
  cases h2
  obtain ⟨h3, h4⟩ := readBytes_ok h1
  subst h3
  rw [← h4]
  exact ⟨by rw [le_leNat], leNat_lt x⟩

theorem readInt_inv {n : Nat} (hn : 0 < n) {i : Int} {bs rest : List UInt8} (h : readInt n bs = .ok i rest) :
    bs = leInt n i ++ rest ∧ -2 ^ (8 * n - 1) ≤ i ∧ i < 2 ^ (8 * n - 1) := by
  obtain ⟨m, r1, h1, h2⟩ := bind_ok h
  cases h2
  obtain ⟨h3, h4⟩ := readUInt_inv h1
  subst h3
  have hp : (2 : Int) ^ (8 * n) = 2 * 2 ^ (8 * n - 1) := by
    have : 8 * n = (8 * n - 1) + 1 := by omega
    conv => lhs; rw [this]
    rw [Int.pow_succ]; omega
  have hpn : (2 : Nat) ^ (8 * n) = 2 * 2 ^ (8 * n - 1) := by
    have : 8 * n = (8 * n - 1) + 1 := by omega
    conv => lhs; rw [this]
    rw [Nat.pow_succ]; omega
  have hc : ((2 ^ (8 * n - 1) : Nat) : Int) = 2 ^ (8 * n - 1) := by simp
  have hpos : 0 < (2 : Nat) ^ (8 * n - 1) := Nat.two_pow_pos _
  unfold leInt signed
  split
  · rename_i hlt
    refine ⟨?_, by omega, by omega⟩
    have : ((m : Int) % 2 ^ (8 * n)).toNat = m := by
      rw [Int.emod_eq_of_lt (by omega) (by omega)]; simp
    rw [this]
  · rename_i hlt
    refine ⟨?_, by omega, by omega⟩
    have : (((m : Int) - 2 ^ (8 * n)) % 2 ^ (8 * n)).toNat = m := by
      rw [Int.sub_emod_right, Int.emod_eq_of_lt (by omega) (by omega)]; simp
    rw [this]

theorem readTerminated_inv {a bs rest : List UInt8} (h : readTerminated bs = .ok a rest) : bs = a ++ [0xff] ++ rest := by
  unfold readTerminated at h
  split at h
  · cases h
  · rename_i i hi
    cases h
    have key : ∀ (bs : List UInt8) (i : Nat), Stream.position (· == 0xff) bs = some i → bs = bs.take i ++ [0xff] ++ bs.drop (i + 1) := by
      intro bs
      induction bs with
      | nil => intro i hi; simp [Stream.position] at hi
      | cons b bs ih =>
        intro i hi
        rw [Stream.position] at hi
        split at hi
        · rename_i hb
          cases hi
          simp only [beq_iff_eq] at hb
          simp [hb]
        · obtain ⟨j, hj, rfl⟩ := Option.map_eq_some_iff.mp hi
          have := ih j hj
          conv => lhs; rw [this]
          simp
    exact key bs i hi

theorem orMalformed_inv {α : Type} {o : Option α} {a : α} {bs rest : List UInt8} (h : orMalformed o bs = .ok a rest) :
    o = some a ∧ bs = rest := by
  cases o with
  | none => cases h
  | some b => cases h; exact ⟨rfl, rfl⟩

theorem getFormat_inv {t : Table} (ht : Strings t) {s : List Char} {bs rest : List UInt8} (h : getFormat t bs = .ok s rest) :
    ∃ tag, bs = le 2 tag ++ rest ∧ Linked t tag s := by
  obtain ⟨tag, r1, h1, h2⟩ := bind_ok h
  obtain ⟨h3, h4⟩ := readUInt_inv h1
  obtain ⟨h5, rfl⟩ := orMalformed_inv h2
  exact ⟨tag, h3, by simpa using h4, h5⟩

theorem Linked.entry {t : Table} {a : Nat} {s : List Char} (h : Linked t a s) : ∃ e, t.entries a = some e ∧ e.string = s := by
  have h2 := h.2
  unfold Table.getWithoutLevel Table.getWithLevel at h2
  cases he : t.entries a with
  | none => rw [he] at h2; cases h2
  | some e =>
    rw [he] at h2
    refine ⟨e, rfl, ?_⟩
    cases hl : e.tag.toLevel with
    | none => simpa [hl] using h2
    | some l => simp [hl] at h2

theorem flatAll_iff {as : List Arg} : FlatAll as ↔ ∀ a ∈ as, Flat a := by
  induction as with
  | nil => simp [FlatAll]
  | cons a as ih => simp [FlatAll, ih]

/-- A nested value can be read back. -/
def NestedInv (t : Table) (fuel : Nat) : Prop :=
  ∀ tag s bs a rest, Linked t tag s → decodeNested t fuel s bs = .ok a rest → Flat a →
    ∃ v d, HasFormat tag s v ∧ ValOk t v ∧ formatData v = some d ∧ bs = d ++ rest ∧ denote v = a

/-- The arguments of a format string can be read back. -/
def FormatInv (t : Table) (fuel : Nat) : Prop :=
  ∀ s bs as rest, Accepted s → decodeFormat t fuel s bs = .ok as rest → FlatAll as →
    ∃ tys vs d, argTypes s vs.length = some tys ∧ ArgsOk t tys vs ∧ encodeArgs tys vs = some d ∧ bs = d ++ rest ∧ denoteArgs tys vs = as

theorem elements_inv {t : Table} {fuel : Nat} (hn : NestedInv t fuel) {tag : Nat} {s : List Char} (hl : Linked t tag s) (n : Nat) :
    ∀ (bs : List UInt8) (as : List Arg) (rest : List UInt8), decodeElements (decodeFormat t fuel) s n bs = .ok as rest → FlatAll as →
    ∃ vs d, vs.length = n ∧ (∀ v ∈ vs, HasFormat tag s v) ∧ ElemsOk t vs ∧ encodeElems vs = some d ∧ bs = d ++ rest ∧ denoteAll vs = as := by
  induction n with
  | zero => intro bs as rest h _; cases h; exact ⟨[], [], rfl, by simp, trivial, rfl, rfl, rfl⟩
  | succ n ih =>
    intro bs as rest h hf
    obtain ⟨variant, r1, h1, h⟩ := bind_ok h
    obtain ⟨args, r2, h2, h⟩ := bind_ok h
    obtain ⟨as', r3, h3, h⟩ := bind_ok h
    cases h
    have hnd : decodeNested t fuel s bs = .ok (.format variant args) r2 := by
      unfold decodeNested
      rw [bind_of_ok h1, bind_of_ok h2]; rfl
    rw [FlatAll] at hf
    obtain ⟨v, d, a1, a2, a3, a4, a5⟩ := hn tag s _ _ _ hl hnd hf.1
    obtain ⟨vs, d', b1, b2, b3, b4, b5, b6⟩ := ih _ _ _ h3 hf.2
    refine ⟨v :: vs, d ++ d', by simp [b1], ?_, ?_, ?_, ?_, ?_⟩
    · intro w hw
      rcases List.mem_cons.mp hw with rfl | hw
      · exact a1
      · exact b2 w hw
    · rw [ElemsOk]; exact ⟨a2, b3⟩
    · rw [encodeElems, a3, b4]
    · rw [a4, b5]; simp
    · rw [denoteAll, a5, b6]

theorem slice_inv {t : Table} (ht : Strings t) {fuel : Nat} (hn : NestedInv t fuel) (n : Nat)
    (bs : List UInt8) (as : List Arg) (rest : List UInt8) (h : decodeFormatSlice t (decodeFormat t fuel) n bs = .ok as rest) (hf : FlatAll as) :
    ∃ tag s vs d, vs.length = n ∧ Linked t tag s ∧ (∀ v ∈ vs, HasFormat tag s v) ∧ ElemsOk t vs ∧ encodeElems vs = some d ∧
      bs = le 2 tag ++ d ++ rest ∧ denoteAll vs = as := by
  obtain ⟨s, r1, h1, h⟩ := bind_ok h
  obtain ⟨tag, h2, h3⟩ := getFormat_inv ht h1
  split at h
  · cases h
  · obtain ⟨vs, d, b1, b2, b3, b4, b5, b6⟩ := elements_inv hn h3 n _ _ _ h hf
    exact ⟨tag, s, vs, d, b1, h3, b2, b3, b4, by rw [h2, b5]; simp, b6⟩

theorem sequence_inv {t : Table} (ht : Strings t) {fuel : Nat} (hn : FormatInv t fuel) (k : Nat) :
    ∀ (bs : List UInt8) (as : List Arg) (rest : List UInt8), decodeSequence t (decodeFormat t fuel) k bs = .ok as rest → FlatAll as →
    (∀ a ∈ as, ∀ bs, a ≠ .format sequenceFormat bs) →
    ∃ vs d, WritesOk t vs ∧ encodeWrites vs = some d ∧ bs = d ++ le 2 0 ++ rest ∧ denoteAll vs = as := by
  induction k with
  | zero => intro bs as rest h; cases h
  | succ k ih =>
    intro bs as rest h hf hb
    obtain ⟨index, r1, h1, h⟩ := bind_ok h
    obtain ⟨e1, e2⟩ := readUInt_inv h1
    by_cases h0 : index = 0
    · rw [if_pos h0] at h
      cases h
      subst h0
      exact ⟨[], [], trivial, rfl, by rw [e1]; rfl, rfl⟩
    · rw [if_neg h0] at h
      obtain ⟨fmt, r2, h2, h⟩ := bind_ok h
      obtain ⟨e3, rfl⟩ := orMalformed_inv h2
      obtain ⟨args, r3, h3, h⟩ := bind_ok h
      obtain ⟨as', r4, h4, h⟩ := bind_ok h
      cases h
      have hl : Linked t index fmt := ⟨by simpa using e2, e3⟩
      obtain ⟨e, he, hs⟩ := hl.entry
      have hacc : Accepted fmt := by
        rcases (ht.fromMacro _ _ he).whole with h | h
        · rw [hs] at h; subst h
          exact absurd rfl (hb _ (List.mem_cons_self ..) args)
        · rwa [hs] at h
      rw [FlatAll] at hf
      obtain ⟨tys, vs, d, a1, a2, a3, a4, a5⟩ := hn fmt _ _ _ hacc h3 (by simpa [Flat] using hf.1)
      obtain ⟨ws, d', b1, b2, b3, b4⟩ := ih _ _ _ h4 hf.2 (fun a ha => hb a (List.mem_cons_of_mem _ ha))
      refine ⟨.formatted index fmt vs :: ws, le 2 index ++ d ++ d', ?_, ?_, ?_, ?_⟩
      · rw [WritesOk]; exact ⟨⟨h0, hl, tys, a1, a2⟩, b1⟩
      · rw [encodeWrites, tagOf, formatData, a1, b2]; simp only [a3]
      · rw [e1, a4, b3]; simp
      · simp only [denoteAll, denote, a1, b4, a5]

theorem arg_inv {t : Table} (ht : Strings t) {fuel k : Nat} (hn : NestedInv t fuel) (ty : Ty) (hty : ExactTy ty) (hseq : ty ≠ .formatSequence)
    (bs : List UInt8) (a : Arg) (rest : List UInt8) (h : decodeArg t (decodeFormat t fuel) k ty bs = .ok a rest) (hf : Flat a) :
    ∃ v d, ArgOk t ty v (ValOk t v) ∧ encodeArg ty v (formatData v) = some d ∧ bs = d ++ rest ∧ denoteArg ty v (denote v) = a := by
  have hu : ∀ (n : Nat) (f : Nat → Arg), (do return f (← readUInt n) : Dec Arg) bs = .ok a rest →
      ∃ m, m < 2 ^ (8 * n) ∧ bs = le n m ++ rest ∧ f m = a := by
    intro n f h
    obtain ⟨m, r1, h1, h2⟩ := bind_ok h
    cases h2
    exact ⟨m, (readUInt_inv h1).2, (readUInt_inv h1).1, rfl⟩
  have hi : ∀ (n : Nat) (f : Int → Arg), 0 < n → (do return f (← readInt n) : Dec Arg) bs = .ok a rest →
      ∃ i, (-2 ^ (8 * n - 1) ≤ i ∧ i < 2 ^ (8 * n - 1)) ∧ bs = leInt n i ++ rest ∧ f i = a := by
    intro n f hn h
    obtain ⟨m, r1, h1, h2⟩ := bind_ok h
    cases h2
    exact ⟨m, (readInt_inv hn h1).2, (readInt_inv hn h1).1, rfl⟩
  cases ty with
  | u8 => obtain ⟨m, h1, h2, h3⟩ := hu 1 .uxx h; exact ⟨.uint 1 m, _, h1, rfl, h2, h3⟩
  | u16 => obtain ⟨m, h1, h2, h3⟩ := hu 2 .uxx h; exact ⟨.uint 2 m, _, h1, rfl, h2, h3⟩
  | u32 => obtain ⟨m, h1, h2, h3⟩ := hu 4 .uxx h; exact ⟨.uint 4 m, _, h1, rfl, h2, h3⟩
  | u64 => obtain ⟨m, h1, h2, h3⟩ := hu 8 .uxx h; exact ⟨.uint 8 m, _, h1, rfl, h2, h3⟩
  | u128 => obtain ⟨m, h1, h2, h3⟩ := hu 16 .uxx h; exact ⟨.uint 16 m, _, h1, rfl, h2, h3⟩
  | usize => obtain ⟨m, h1, h2, h3⟩ := hu 4 .uxx h; exact ⟨.usize m, _, h1, rfl, h2, h3⟩
  | f32 => obtain ⟨m, h1, h2, h3⟩ := hu 4 .f32 h; exact ⟨.f32 m, _, h1, rfl, h2, h3⟩
  | f64 => obtain ⟨m, h1, h2, h3⟩ := hu 8 .f64 h; exact ⟨.f64 m, _, h1, rfl, h2, h3⟩
  | i8 => obtain ⟨m, h1, h2, h3⟩ := hi 1 .ixx (by decide) h; exact ⟨.sint 1 m, _, h1, rfl, h2, h3⟩
  | i16 => obtain ⟨m, h1, h2, h3⟩ := hi 2 .ixx (by decide) h; exact ⟨.sint 2 m, _, h1, rfl, h2, h3⟩
  | i32 => obtain ⟨m, h1, h2, h3⟩ := hi 4 .ixx (by decide) h; exact ⟨.sint 4 m, _, h1, rfl, h2, h3⟩
  | i64 => obtain ⟨m, h1, h2, h3⟩ := hi 8 .ixx (by decide) h; exact ⟨.sint 8 m, _, h1, rfl, h2, h3⟩
  | i128 => obtain ⟨m, h1, h2, h3⟩ := hi 16 .ixx (by decide) h; exact ⟨.sint 16 m, _, h1, rfl, h2, h3⟩
  | isize => obtain ⟨m, h1, h2, h3⟩ := hi 4 .ixx (by decide) h; exact ⟨.isize m, _, h1, rfl, h2, h3⟩
  | bool =>
    obtain ⟨m, r1, h1, h⟩ := bind_ok h
    obtain ⟨e1, e2⟩ := readUInt_inv h1
    by_cases h0 : m = 0
    · rw [if_pos h0] at h; cases h; subst h0; exact ⟨.bool false, _, trivial, rfl, e1, rfl⟩
    · rw [if_neg h0] at h
      by_cases hm : m = 1
      · rw [if_pos hm] at h; cases h; subst hm; exact ⟨.bool true, _, trivial, rfl, e1, rfl⟩
      · rw [if_neg hm] at h; cases h
  | char =>
    obtain ⟨m, r1, h1, h⟩ := bind_ok h
    obtain ⟨e1, e2⟩ := readUInt_inv h1
    obtain ⟨c, r2, h2, h⟩ := bind_ok h
    obtain ⟨e3, rfl⟩ := orMalformed_inv h2
    cases h
    unfold charFromU32 at e3
    split at e3
    · rename_i hv
      cases e3
      refine ⟨.char (Char.ofNat m), _, trivial, rfl, ?_, rfl⟩
      rw [utf8Char_ofNat m hv]; exact e1
    · cases e3
  | str =>
    obtain ⟨m, r1, h1, h⟩ := bind_ok h
    obtain ⟨e1, e2⟩ := readUInt_inv h1
    obtain ⟨x, r2, h2, h⟩ := bind_ok h
    obtain ⟨e3, e4⟩ := readBytes_ok h2
    obtain ⟨s, r3, h3, h⟩ := bind_ok h
    obtain ⟨e5, rfl⟩ := orMalformed_inv h3
    cases h
    have := utf8_of_fromUtf8 e5
    subst this
    subst e4
    exact ⟨.str s, _, by simpa [ArgOk] using e2, rfl, by rw [e1, e3]; simp, rfl⟩
  | istr =>
    obtain ⟨m, r1, h1, h⟩ := bind_ok h
    obtain ⟨e1, e2⟩ := readUInt_inv h1
    obtain ⟨s, r2, h2, h⟩ := bind_ok h
    obtain ⟨e5, rfl⟩ := orMalformed_inv h2
    cases h
    exact ⟨.istr m s, _, ⟨by simpa using e2, e5⟩, rfl, e1, rfl⟩
  | u8Slice =>
    obtain ⟨m, r1, h1, h⟩ := bind_ok h
    obtain ⟨e1, e2⟩ := readUInt_inv h1
    obtain ⟨x, r2, h2, h⟩ := bind_ok h
    obtain ⟨e3, e4⟩ := readBytes_ok h2
    cases h
    subst e4
    exact ⟨.bytes x, _, by simpa [ArgOk] using e2, rfl, by rw [e1, e3]; simp, rfl⟩
  | u8Array n =>
    obtain ⟨x, r2, h2, h⟩ := bind_ok h
    obtain ⟨e3, e4⟩ := readBytes_ok h2
    cases h
    subst e4
    exact ⟨.bytes x, x, rfl, by rw [encodeArg, if_pos rfl], by rw [e3], rfl⟩
  | debug =>
    obtain ⟨x, r2, h2, h⟩ := bind_ok h
    have e1 := readTerminated_inv h2
    obtain ⟨s, r3, h3, h⟩ := bind_ok h
    obtain ⟨e5, rfl⟩ := orMalformed_inv h3
    cases h
    have := utf8_of_fromUtf8 e5
    subst this
    exact ⟨.text s, _, trivial, rfl, e1, rfl⟩
  | display =>
    obtain ⟨x, r2, h2, h⟩ := bind_ok h
    have e1 := readTerminated_inv h2
    obtain ⟨s, r3, h3, h⟩ := bind_ok h
    obtain ⟨e5, rfl⟩ := orMalformed_inv h3
    cases h
    have := utf8_of_fromUtf8 e5
    subst this
    exact ⟨.text s, _, trivial, rfl, e1, rfl⟩
  | bitField s e =>
    obtain ⟨d, hd, hle⟩ := hty
    rw [decodeArg, host_octets, hd] at h
    obtain ⟨m, r1, h1, h⟩ := bind_ok h
    obtain ⟨e1, e2⟩ := readUInt_inv h1
    cases h
    have hpow : 2 ^ (8 * d) * 2 ^ (8 * (s / 8)) ≤ 2 ^ 128 := by
      rw [← Nat.pow_add]
      exact Nat.pow_le_pow_right (by decide) (by omega)
    have hpos : 0 < 2 ^ (8 * (s / 8)) := Nat.two_pow_pos _
    have hlt : m * 2 ^ (8 * (s / 8)) < 2 ^ 128 := Nat.lt_of_lt_of_le (Nat.mul_lt_mul_of_pos_right e2 hpos) hpow
    have hd1 : 1 ≤ d := by
      rw [wireOctets_eq] at hd
      repeat' split at hd
      all_goals (cases hd; try decide)
    refine ⟨.uint 16 (m * 2 ^ (8 * (s / 8))), le d m, ⟨by simpa using hlt, d, hd, by omega, by omega⟩, ?_, e1, ?_⟩
    · rw [encodeArg, device_octets, hd]
      simp only
      rw [if_pos ⟨by omega, by omega⟩, Nat.mul_div_cancel _ hpos]
    · rw [denoteArg, bitfieldValue, hd]
      simp only
      rw [Nat.mul_div_cancel _ hpos, Nat.mod_eq_of_lt e2]
  | format =>
    obtain ⟨s, r1, h1, h⟩ := bind_ok h
    obtain ⟨tag, e1, e2⟩ := getFormat_inv ht h1
    obtain ⟨v, d, a1, a2, a3, a4, a5⟩ := hn tag s r1 a rest e2 h hf
    refine ⟨v, le 2 tag ++ d, ?_, ?_, by rw [e1, a4]; simp, ?_⟩
    · have h2 := a1.1
      cases v <;> first | exact ⟨a2, tag, s, a1, e2⟩ | simp [tagOf] at h2
    · have h2 := a1.1
      rw [a3]; cases v <;> first | (simp only [tagOf] at h2; cases h2; rfl) | simp [tagOf] at h2
    · have h2 := a1.1
      rw [← a5]; cases v <;> first | rfl | simp [tagOf] at h2
  | formatSlice =>
    obtain ⟨m, r1, h1, h⟩ := bind_ok h
    obtain ⟨e1, e2⟩ := readUInt_inv h1
    obtain ⟨as, r2, h2, h⟩ := bind_ok h
    cases h
    rw [Flat] at hf
    obtain ⟨tag, s, vs, d, b1, b2, b3, b4, b5, b6, b7⟩ := slice_inv ht hn _ _ _ _ h2 hf
    subst b1
    refine ⟨.slice tag s vs, le 4 vs.length ++ le 2 tag ++ d, ⟨by rw [ValOk]; exact b4, by simpa using e2, b2, b3⟩, ?_, by rw [e1, b6]; simp, ?_⟩
    · rw [encodeArg, formatData, b5]; rfl
    · rw [denoteArg, denote, b7]
      all_goals simp
  | formatArray n =>
    obtain ⟨as, r2, h2, h⟩ := bind_ok h
    cases h
    rw [Flat] at hf
    obtain ⟨tag, s, vs, d, b1, b2, b3, b4, b5, b6, b7⟩ := slice_inv ht hn _ _ _ _ h2 hf
    subst b1
    refine ⟨.slice tag s vs, le 2 tag ++ d, ⟨by rw [ValOk]; exact b4, rfl, hty, b2, b3⟩, ?_, by rw [b6], ?_⟩
    · rw [encodeArg, if_pos rfl, formatData, b5]; rfl
    · rw [denoteArg, denote, b7]
      all_goals simp
  | formatSequence => exact absurd rfl hseq

theorem args_inv {t : Table} (ht : Strings t) {fuel k : Nat} (hn : NestedInv t fuel) (tys : List Ty) :
    (∀ ty ∈ tys, ExactTy ty) → .formatSequence ∉ tys →
    ∀ (bs : List UInt8) (as : List Arg) (rest : List UInt8), decodeTys t (decodeFormat t fuel) k tys bs = .ok as rest → FlatAll as →
    ∃ vs d, vs.length = tys.length ∧ ArgsOk t tys vs ∧ encodeArgs tys vs = some d ∧ bs = d ++ rest ∧ denoteArgs tys vs = as := by
  induction tys with
  | nil => intro _ _ bs as rest h _; cases h; exact ⟨[], [], rfl, by rw [ArgsOk]; trivial, rfl, rfl, rfl⟩
  | cons ty tys ih =>
    intro hex hseq bs as rest h hf
    obtain ⟨a, r1, h1, h⟩ := bind_ok h
    obtain ⟨as', r2, h2, h⟩ := bind_ok h
    cases h
    rw [FlatAll] at hf
    obtain ⟨v, d, a1, a2, a3, a4⟩ := arg_inv ht hn ty (hex ty (by simp)) (by rintro rfl; simp at hseq) _ _ _ h1 hf.1
    obtain ⟨vs, d', b1, b2, b3, b4, b5⟩ := ih (fun ty h => hex ty (by simp [h])) (by simp at hseq; exact hseq.2) _ _ _ h2 hf.2
    refine ⟨v :: vs, d ++ d', by simp [b1], by rw [ArgsOk]; exact ⟨a1, b2⟩, by rw [encodeArgs, a2, b3], by rw [a3, b4]; simp,
      by rw [denoteArgs, a4, b5]⟩

theorem argTypes_no_sequence {s : List Char} {n : Nat} {tys : List Ty} (h : argTypes s n = some tys) : .formatSequence ∉ tys := by
  unfold argTypes at h
  split at h
  · split at h
    · cases h
    · have hl := allSome_eq h
      intro hm
      have : some Ty.formatSequence ∈ tys.map some := List.mem_map.mpr ⟨_, hm, rfl⟩
      rw [← hl] at this
      obtain ⟨i, -, hi⟩ := List.mem_map.mp this
      unfold argType at hi
      split at hi
      · cases hi
      · split at hi
        · obtain ⟨r, -, hr⟩ := Option.map_eq_some_iff.mp hi
          cases hr
        · cases hi
        · rename_i hne
          exact hne (Option.some.inj hi)
  · cases h

theorem joinVariants_split (s : List Char) : joinVariants (Parser.splitAt '|' s) = s ∧ ∀ v ∈ Parser.splitAt '|' s, '|' ∉ v := by
  induction s with
  | nil => simp [Parser.splitAt, joinVariants]
  | cons c s ih =>
    have hne : Parser.splitAt '|' s ≠ [] := by
      cases s with
      | nil => simp [Parser.splitAt]
      | cons d s =>
        rw [Parser.splitAt]
        split
        · simp
        · split <;> simp
    rw [Parser.splitAt]
    cases hsp : Parser.splitAt '|' s with
    | nil => exact absurd hsp hne
    | cons v vs =>
      rw [hsp] at ih
      split
      · rename_i hc
        subst hc
        refine ⟨by rw [joinVariants, ih.1]; rfl, fun w hw => ?_⟩
        rcases List.mem_cons.mp hw with rfl | hw
        · simp
        · exact ih.2 w hw
      · rename_i hc
        refine ⟨?_, fun w hw => ?_⟩
        · have h1 := ih.1
          cases vs with
          | nil => simp only [joinVariants] at h1 ⊢; rw [h1]
          | cons w ws => simp only [joinVariants, List.cons_append] at h1 ⊢; rw [h1]
        · rcases List.mem_cons.mp hw with rfl | hw
          · intro hm
            rcases List.mem_cons.mp hm with h | h
            · exact hc h.symm
            · exact ih.2 v (by simp) h
          · exact ih.2 w (by simp [hw])

theorem format_step {t : Table} (ht : Strings t) {fuel : Nat} (hn : NestedInv t fuel) : FormatInv t (fuel + 1) := by
  rintro s bs as rest ⟨n, tys, h1, h2⟩ h hf
  obtain ⟨hlen, fs, hp, hty⟩ := argTypes_spec h1
  rw [decodeFormat_succ hp, hty] at h
  obtain ⟨vs, d, b1, b2, b3, b4, b5⟩ := args_inv ht hn tys h2 (argTypes_no_sequence h1) _ _ _ h hf
  exact ⟨tys, vs, d, by rw [b1, hlen]; exact h1, b2, b3, b4, b5⟩

theorem nested_step {t : Table} (ht : Strings t) {fuel : Nat} (hn : FormatInv t fuel) (hn' : FormatInv t (fuel + 1)) : NestedInv t (fuel + 1) := by
  intro tag s bs a rest hl h hf
  obtain ⟨variant, r1, h1, h⟩ := bind_ok h
  obtain ⟨args, r2, h2, h⟩ := bind_ok h
  cases h
  obtain ⟨e, he, hs⟩ := hl.entry
  have hm := ht.fromMacro _ _ he
  rw [hs] at hm
  by_cases hb : '|' ∈ s
  · rw [chooseVariant, if_pos hb] at h1
    unfold getVariant at h1
    rw [if_neg (by simpa using hb)] at h1
    obtain ⟨size, r3, h3, h1⟩ := bind_ok h1
    obtain ⟨e3, rfl⟩ := orMalformed_inv h3
    obtain ⟨idx, r4, h4, h1⟩ := bind_ok h1
    obtain ⟨e4, e5⟩ := readUInt_inv h4
    obtain ⟨e6, rfl⟩ := orMalformed_inv h1
    obtain ⟨hj1, hj2⟩ := joinVariants_split s
    have h2len : 2 ≤ (Parser.splitAt '|' s).length := by
      match hsp : Parser.splitAt '|' s with
      | [] => rw [hsp] at hj1; rw [← hj1] at hb; simp [joinVariants] at hb
      | [v] => rw [hsp] at hj1 hj2; rw [← hj1] at hb; exact absurd hb (hj2 v (by simp))
      | v :: w :: vs => simp
    have hcount : s.count '|' = (Parser.splitAt '|' s).length - 1 := by
      have := (joinVariants_spec (Parser.splitAt '|' s) (by intro e; rw [e] at h2len; simp at h2len) hj2).2
      rwa [hj1] at this
    rw [hcount] at e3
    obtain ⟨size', hs1, hs2⟩ := discriminant_agree h2len hm.count.1 hm.count.2
    rw [e3] at hs2
    cases hs2
    have hacc : Accepted variant := by
      rcases hm.parts hb variant (List.mem_of_getElem? e6) with h | h
      · exact h
      · rw [decodeFormat] at h2
        cases hp : parse variant .forwardsCompatible with
        | ok fs => exact absurd hp (h fs)
        | err x => rw [hp] at h2; cases h2
        | panic => rw [hp] at h2; cases h2
    obtain ⟨tys, vs, d, a1, a2, a3, a4, a5⟩ := hn' variant _ _ _ hacc h2 (by simpa [Flat] using hf)
    refine ⟨.variant tag (Parser.splitAt '|' s) idx vs, le size idx ++ d, ⟨rfl, hj1⟩, ?_, ?_, by rw [e4, a4]; simp, ?_⟩
    · rw [ValOk]; exact ⟨h2len, hj2, hm.count.1, hm.count.2, variant, e6, tys, a1, a2⟩
    · simp only [formatData, e6, hs1, a1, a3, Option.map_some]
    · simp only [denote, e6, a1, a5]
  · rw [chooseVariant, if_neg hb] at h1
    cases h1
    rcases hm.whole with rfl | hacc
    · obtain ⟨fs, hp, hty⟩ := sequence_types
      rw [decodeFormat_succ hp, hty] at h2
      obtain ⟨x, r3, h3, h2⟩ := bind_ok h2
      obtain ⟨y, r4, h4, h2⟩ := bind_ok h2
      cases h4
      cases h2
      obtain ⟨as, r5, h5, h3⟩ := bind_ok h3
      cases h3
      simp only [Flat, FlatAll] at hf
      obtain ⟨vs, d, b1, b2, b3, b4⟩ := sequence_inv ht hn _ _ _ _ h5 hf.1.1 hf.1.2
      exact ⟨.manual tag vs, d ++ le 2 0, ⟨rfl, rfl⟩, by rw [ValOk]; exact b1, by rw [formatData, b2]; rfl, b3, by rw [denote, b4]⟩
    · obtain ⟨tys, vs, d, a1, a2, a3, a4, a5⟩ := hn' s _ _ _ hacc h2 (by simpa [Flat] using hf)
      exact ⟨.formatted tag s vs, d, ⟨rfl, rfl⟩, by rw [ValOk]; exact ⟨hb, tys, a1, a2⟩, by rw [formatData, a1]; exact a3, a4,
        by simp only [denote, a1, a5]⟩

/-! ### what is sent is flat -/

theorem arg_flat {t : Table} {ty : Ty} {v : Val} (h : ArgOk t ty v (ValOk t v)) (hv : ValOk t v → Flat (denote v)) :
    Flat (denoteArg ty v (denote v)) := by
  unfold ArgOk at h
  split at h
  case h_24 =>
    have := hv h.1
    obtain ⟨-, tag, s, ⟨h2, -⟩, -⟩ := h
    cases v <;> first | exact this | simp [tagOf] at h2
  case h_25 => exact hv h.1
  case h_26 => exact hv h.1
  case h_27 => exact h.elim
  all_goals trivial

mutual

theorem val_flat (t : Table) : ∀ (v : Val), ValOk t v → Flat (denote v)
  | .formatted tag fmt args, hv => by
    rw [ValOk] at hv
    obtain ⟨hb, tys, ht, ha⟩ := hv
    simp only [denote, ht, Flat]
    exact args_flat t tys args ha
  | .variant tag variants idx args, hv => by
    rw [ValOk] at hv
    obtain ⟨h2, hb, hn, hn', fmt, hi, tys, ht, ha⟩ := hv
    simp only [denote, ht, hi, Flat]
    exact args_flat t tys args ha
  | .manual tag writes, hv => by
    rw [ValOk] at hv
    simp only [denote, Flat, FlatAll, and_true]
    exact writes_flat t writes hv
  | .slice _ _ elems, hv => by
    rw [ValOk] at hv
    simp only [denote, Flat]
    exact elems_flat t elems hv
  | .uint .., h => by simp only [ValOk] at h
  | .sint .., h => by simp only [ValOk] at h
  | .usize .., h => by simp only [ValOk] at h
  | .isize .., h => by simp only [ValOk] at h
  | .f32 .., h => by simp only [ValOk] at h
  | .f64 .., h => by simp only [ValOk] at h
  | .bool .., h => by simp only [ValOk] at h
  | .char .., h => by simp only [ValOk] at h
  | .str .., h => by simp only [ValOk] at h
  | .istr .., h => by simp only [ValOk] at h
  | .bytes .., h => by simp only [ValOk] at h
  | .text .., h => by simp only [ValOk] at h

theorem args_flat (t : Table) : ∀ (tys : List Ty) (vs : List Val), ArgsOk t tys vs → FlatAll (denoteArgs tys vs)
  | [], [], _ => trivial
  | [], _ :: _, h => by rw [ArgsOk] at h; exact h.elim; all_goals simp
  | _ :: _, [], h => by rw [ArgsOk] at h; exact h.elim; all_goals simp
  | ty :: tys, v :: vs, h => by
    rw [ArgsOk] at h
    rw [denoteArgs, FlatAll]
    exact ⟨arg_flat h.1 (val_flat t v), args_flat t tys vs h.2⟩

theorem writes_flat (t : Table) : ∀ (vs : List Val), WritesOk t vs →
    FlatAll (denoteAll vs) ∧ ∀ a ∈ denoteAll vs, ∀ bs, a ≠ .format sequenceFormat bs
  | [], _ => ⟨trivial, by simp [denoteAll]⟩
  | .formatted tag fmt args :: vs, h => by
    rw [WritesOk] at h
    obtain ⟨⟨h0, hl, tys, ht, ha⟩, h⟩ := h
    obtain ⟨i1, i2⟩ := writes_flat t vs h
    simp only [denoteAll, denote, ht, Flat, FlatAll]
    refine ⟨⟨args_flat t tys args ha, i1⟩, fun a hm bs => ?_⟩
    rcases List.mem_cons.mp hm with rfl | hm
    · intro e
      cases e
      have hno := argTypes_no_sequence ht
      obtain ⟨_, fs, hp, hty⟩ := argTypes_spec ht
      obtain ⟨fs', hp', hty'⟩ := sequence_types
      rw [hp] at hp'
      cases hp'
      rw [hty] at hty'
      subst hty'
      exact hno (by simp)
    · exact i2 a hm bs
  | .variant .. :: _, h => by rw [WritesOk] at h; exact h.1.elim; all_goals simp
  | .manual .. :: _, h => by rw [WritesOk] at h; exact h.1.elim; all_goals simp
  | .slice .. :: _, h => by rw [WritesOk] at h; exact h.1.elim; all_goals simp
  | .uint .. :: _, h => by rw [WritesOk] at h; exact h.1.elim; all_goals simp
  | .sint .. :: _, h => by rw [WritesOk] at h; exact h.1.elim; all_goals simp
  | .usize .. :: _, h => by rw [WritesOk] at h; exact h.1.elim; all_goals simp
  | .isize .. :: _, h => by rw [WritesOk] at h; exact h.1.elim; all_goals simp
  | .f32 .. :: _, h => by rw [WritesOk] at h; exact h.1.elim; all_goals simp
  | .f64 .. :: _, h => by rw [WritesOk] at h; exact h.1.elim; all_goals simp
  | .bool .. :: _, h => by rw [WritesOk] at h; exact h.1.elim; all_goals simp
  | .char .. :: _, h => by rw [WritesOk] at h; exact h.1.elim; all_goals simp
  | .str .. :: _, h => by rw [WritesOk] at h; exact h.1.elim; all_goals simp
  | .istr .. :: _, h => by rw [WritesOk] at h; exact h.1.elim; all_goals simp
  | .bytes .. :: _, h => by rw [WritesOk] at h; exact h.1.elim; all_goals simp
  | .text .. :: _, h => by rw [WritesOk] at h; exact h.1.elim; all_goals simp

theorem elems_flat (t : Table) : ∀ (vs : List Val), ElemsOk t vs → FlatAll (denoteAll vs)
  | [], _ => trivial
  | v :: vs, h => by
    rw [ElemsOk] at h
    rw [denoteAll, FlatAll]
    exact ⟨val_flat t v h.1, elems_flat t vs h.2⟩

end

theorem call_flat {t : Table} {c : Call} (h : c.Ok t) : FlatAll c.denote := by
  obtain ⟨tys, h1, h2⟩ := h
  unfold Call.denote
  simp only [h1]
  exact args_flat t tys _ h2

theorem format_inv {t : Table} (ht : Strings t) (fuel : Nat) : FormatInv t fuel ∧ NestedInv t fuel := by
  induction fuel with
  | zero =>
    refine ⟨fun s bs as rest _ h => (by rw [decodeFormat] at h; cases h), fun tag s bs a rest _ h => ?_⟩
    obtain ⟨variant, r1, h1, h⟩ := bind_ok h
    obtain ⟨args, r2, h2, h⟩ := bind_ok h
    rw [decodeFormat] at h2
    cases h2
  | succ fuel ih => exact ⟨format_step ht ih.2, nested_step ht ih.1 (format_step ht ih.2)⟩

end Encoder
end Defmt
