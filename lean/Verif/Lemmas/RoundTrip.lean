import Verif.Spec.Encoder
import Verif.Props.Parser
import Verif.Lemmas.Prepare
import Verif.Lemmas.Decoder
import Verif.Lemmas.Utf8
/-! Helper lemmas for the encode/decode round trip. -/

namespace Defmt.Encoder

open Parser Decoder

/-! ### bitfields -/

theorem wireOctets_eq (s e : Nat) : wireOctets s e =
    if (e - 1) / 8 < s / 8 + 1 then some 1 else if (e - 1) / 8 < s / 8 + 2 then some 2
    else if (e - 1) / 8 < s / 8 + 4 then some 4 else if (e - 1) / 8 < s / 8 + 8 then some 8
    else if (e - 1) / 8 < s / 8 + 16 then some 16 else none := by
  unfold wireOctets
  repeat' split
  all_goals simp [List.find?, *]

theorem device_octets (s e : Nat) : truncatedSize s e = wireOctets s e := by
  rw [wireOctets_eq]
  unfold truncatedSize
  simp only
  generalize (e - 1) / 8 = a
  generalize s / 8 = b
  repeat' split
  all_goals first | rfl | omega

theorem host_octets (s e : Nat) : bitfieldSize s e = wireOctets s e := by
  rw [wireOctets_eq]
  unfold bitfieldSize
  simp only
  generalize (e - 1) / 8 = a
  generalize s / 8 = b
  repeat' split
  all_goals first | rfl | omega

/-! ### integers -/

theorem le_length (n : Nat) : ∀ x, (le n x).length = n := by
  induction n with
  | zero => intro x; rfl
  | succ n ih => intro x; simp [le, ih]

theorem leNat_le (n : Nat) : ∀ x, leNat (le n x) = x % 2 ^ (8 * n) := by
  induction n with
  | zero => intro x; simp [le, leNat]; omega
  | succ n ih =>
    intro x
    have h1 : (UInt8.ofNat (x % 256)).toNat = x % 256 := by
      rw [UInt8.toNat_ofNat']; omega
    have h2 : 2 ^ (8 * (n + 1)) = 256 * 2 ^ (8 * n) := by
      rw [Nat.mul_succ, Nat.pow_add]; omega
    rw [le, leNat, ih, h1, h2, Nat.mod_mul]

theorem readUInt_le (n x : Nat) (rest : List UInt8) :
    readUInt n (le n x ++ rest) = .ok (x % 2 ^ (8 * n)) rest := by
  have h : readBytes n (le n x ++ rest) = .ok (le n x) rest := by
    have := readBytes_append (le n x) rest
    rwa [le_length] at this
  unfold readUInt
  rw [bind_of_ok h, pure_apply, leNat_le]

theorem readUInt_le' {n x : Nat} (h : x < 2 ^ (8 * n)) (rest : List UInt8) :
    readUInt n (le n x ++ rest) = .ok x rest := by
  rw [readUInt_le, Nat.mod_eq_of_lt h]

theorem readInt_le {n : Nat} {i : Int} (h0 : 0 < n) (h1 : -2 ^ (8 * n - 1) ≤ i) (h2 : i < 2 ^ (8 * n - 1))
    (rest : List UInt8) : readInt n (leInt n i ++ rest) = .ok i rest := by
  have hp : (2 : Int) ^ (8 * n) = 2 * 2 ^ (8 * n - 1) := by
    have : 8 * n = (8 * n - 1) + 1 := by omega
    conv => lhs; rw [this]
    rw [Int.pow_succ]; omega
  have hpn : (2 : Nat) ^ (8 * n) = 2 * 2 ^ (8 * n - 1) := by
    have : 8 * n = (8 * n - 1) + 1 := by omega
    conv => lhs; rw [this]
    rw [Nat.pow_succ]; omega
  have hc : ((2 ^ (8 * n - 1) : Nat) : Int) = 2 ^ (8 * n - 1) := by simp
  have hc' : ((2 ^ (8 * n) : Nat) : Int) = 2 ^ (8 * n) := by simp
  unfold readInt leInt
  have hlt : (i % 2 ^ (8 * n)).toNat < 2 ^ (8 * n) := by
    have := Int.emod_lt_of_pos i (b := 2 ^ (8 * n)) (by omega)
    have := Int.emod_nonneg i (b := 2 ^ (8 * n)) (by omega)
    omega
  rw [bind_of_ok (readUInt_le' hlt rest), pure_apply]
  congr 1
  unfold signed
  by_cases hi : 0 ≤ i
  · have : i % 2 ^ (8 * n) = i := Int.emod_eq_of_lt hi (by omega)
    rw [this, if_pos (by omega)]
    omega
  · have : i % 2 ^ (8 * n) = i + 2 ^ (8 * n) := by
      rw [← Int.add_emod_right]
      exact Int.emod_eq_of_lt (by omega) (by omega)
    rw [this, if_neg (by omega)]
    omega

/-! ### argument types -/

/-- `decodeParams` on the types only -/
def decodeTys (t : Table) (rec : List Char → Dec (List Arg)) (fuel : Nat) : List Ty → Dec (List Arg)
  | [] => pure []
  | ty :: tys => do
    let a ← decodeArg t rec fuel ty
    let rest ← decodeTys t rec fuel tys
    pure (a :: rest)

theorem decodeParams_eq (t : Table) (rec : List Char → Dec (List Arg)) (fuel : Nat) (ps : List Parameter) :
    decodeParams t rec fuel ps = decodeTys t rec fuel (ps.map Parameter.ty) := by
  induction ps with
  | nil => rfl
  | cons p ps ih => simp only [decodeParams, List.map_cons, decodeTys, ih]

theorem allSome_eq {α : Type} {l : List (Option α)} {as : List α} (h : allSome l = some as) :
    l = as.map some := by
  induction l generalizing as with
  | nil => simp only [allSome, Option.some.injEq] at h; subst h; rfl
  | cons o l ih =>
    cases o with
    | none => simp [allSome] at h
    | some a =>
      simp only [allSome, Option.map_eq_some_iff] at h
      obtain ⟨bs, h1, rfl⟩ := h
      rw [ih h1]; rfl

theorem argType_tyAt {ps : List Parameter} {i : Nat} {ty : Ty} (h : argType ps i = some ty) :
    tyAt ps i = some ty := by
  unfold argType at h
  unfold tyAt firstAt
  split at h
  · cases h
  · rename_i p hp
    rw [hp]
    simp only
    split at h
    · rename_i s e hs; rw [hs]; exact h
    · cases h
    · rename_i hnb _
      split
      · rename_i s e hs; exact absurd hs (hnb s e)
      · exact h

theorem expectedArgs_dense {ps : List Parameter} {n : Nat} (hd : Dense ps n) : expectedArgs ps = n := by
  have hle : ∀ (l : List Nat) (a n : Nat), a ≤ n → (∀ x ∈ l, x ≤ n) → l.foldl max a ≤ n := by
    intro l
    induction l with
    | nil => intro a n h _; exact h
    | cons b l ih =>
      intro a n h hl
      rw [List.foldl_cons]
      have := hl b (by simp)
      exact ih _ _ (by omega) (fun x hx => hl x (by simp [hx]))
  apply Nat.le_antisymm
  · apply hle _ _ _ (Nat.zero_le _)
    intro x hx
    rw [List.mem_map] at hx
    obtain ⟨p, hp, rfl⟩ := hx
    exact hd.1 p hp
  · cases n with
    | zero => exact Nat.zero_le _
    | succ n =>
      obtain ⟨p, hp, hpi⟩ := hd.2 n (by omega)
      apply foldl_max_le
      left
      rw [List.mem_map]
      exact ⟨p, hp, by omega⟩

theorem argTypes_spec {fmt : List Char} {n : Nat} {tys : List Ty} (h : argTypes fmt n = some tys) :
    tys.length = n ∧ ∃ fs, parse fmt .forwardsCompatible = .ok fs ∧
      (prepareParams (params fs)).map Parameter.ty = tys := by
  unfold argTypes at h
  split at h
  · rename_i fs hfs
    obtain ⟨⟨k, hd⟩, hc⟩ := C12_indices_dense_types_consistent _ _ _ hfs
    rw [expectedArgs_dense hd] at h
    split at h
    · cases h
    · rename_i hn
      have hn : n = k := by omega
      subst hn
      have hl := allSome_eq h
      have hlen : tys.length = n := by
        have := congrArg List.length hl
        simpa using this.symm
      refine ⟨hlen, fs, C11_host_accepts_target_strings _ _ hfs, ?_⟩
      have h1 := prepare_types hd hc
      have h2 : (List.range n).map (tyAt (params fs)) = tys.map some := by
        rw [← hl]
        apply List.map_congr_left
        intro i hi
        have hlt : i < n := List.mem_range.mp hi
        have : argType (params fs) i = some (tys[i]'(by omega)) := by
          have := congrArg (fun l => l[i]?) hl
          simp only [List.getElem?_map, List.getElem?_range hlt, Option.map_some] at this
          rw [List.getElem?_eq_getElem (by omega)] at this
          simpa using this
        rw [this, argType_tyAt this]
      rw [h2] at h1
      have : ((prepareParams (params fs)).map Parameter.ty).map some = tys.map some := by
        rw [List.map_map]; exact h1
      exact (List.map_inj_right (fun _ _ h => Option.some.inj h)).mp this
  · cases h

theorem decodeFormat_succ {t : Table} {fmt : List Char} {fs : List Fragment}
    (h : parse fmt .forwardsCompatible = .ok fs) (fuel : Nat) :
    decodeFormat t (fuel + 1) fmt =
      decodeTys t (decodeFormat t fuel) (fuel + 1) ((prepareParams (params fs)).map Parameter.ty) := by
  rw [decodeFormat, h]
  exact decodeParams_eq _ _ _ _

/-! ### variants -/

theorem splitAt_none {s : List Char} (h : '|' ∉ s) : Parser.splitAt '|' s = [s] := by
  induction s with
  | nil => rfl
  | cons c s ih =>
    have hc : c ≠ '|' := fun e => h (by simp [e])
    have hs : '|' ∉ s := fun e => h (by simp [e])
    simp only [Parser.splitAt, ih hs]
    simp [hc]

theorem splitAt_append {s r : List Char} (h : '|' ∉ s) :
    Parser.splitAt '|' (s ++ '|' :: r) = s :: Parser.splitAt '|' r := by
  induction s with
  | nil => simp [Parser.splitAt]
  | cons c s ih =>
    have hc : c ≠ '|' := fun e => h (by simp [e])
    have hs : '|' ∉ s := fun e => h (by simp [e])
    rw [List.cons_append, Parser.splitAt, ih hs]
    simp [hc]

theorem joinVariants_spec : ∀ (vs : List (List Char)), vs ≠ [] → (∀ v ∈ vs, '|' ∉ v) →
    Parser.splitAt '|' (joinVariants vs) = vs ∧ (joinVariants vs).count '|' = vs.length - 1 := by
  intro vs
  induction vs with
  | nil => intro h; exact absurd rfl h
  | cons v vs ih =>
    intro _ hv
    have hv0 := hv v (by simp)
    cases vs with
    | nil =>
      simp only [joinVariants]
      exact ⟨splitAt_none hv0, by simpa using List.count_eq_zero.mpr hv0⟩
    | cons w ws =>
      obtain ⟨h1, h2⟩ := ih (by simp) (fun x hx => hv x (by simp [hx]))
      simp only [joinVariants]
      refine ⟨by rw [splitAt_append hv0, h1], ?_⟩
      rw [List.count_append, List.count_cons, h2, List.count_eq_zero.mpr hv0]
      simp

theorem joinVariants_mem {vs : List (List Char)} (h : 2 ≤ vs.length) : '|' ∈ joinVariants vs := by
  match vs, h with
  | v :: w :: vs, _ => simp [joinVariants]

theorem discriminantSize_lt {n size : Nat} (h : discriminantSize n = some size) {i : Nat} (hi : i ≤ n) :
    i < 2 ^ (8 * size) := by
  unfold discriminantSize at h
  repeat' split at h
  all_goals (cases h; try (simp only [Nat.reduceMul]; omega))

theorem getVariant_ok {vs : List (List Char)} (h2 : 2 ≤ vs.length) (hv : ∀ v ∈ vs, '|' ∉ v) {size : Nat}
    (hs : discriminantSize (vs.length - 1) = some size) {idx : Nat} {fmt : List Char}
    (hi : vs[idx]? = some fmt) (rest : List UInt8) :
    chooseVariant (joinVariants vs) (le size idx ++ rest) = .ok fmt rest := by
  obtain ⟨j1, j2⟩ := joinVariants_spec vs (by intro e; subst e; simp at h2) hv
  have hm := joinVariants_mem h2
  unfold chooseVariant
  rw [if_pos hm]
  unfold getVariant
  rw [if_neg (by simpa using hm), j2, hs, j1]
  have hlt : idx < 2 ^ (8 * size) := by
    apply discriminantSize_lt hs
    have := (List.getElem?_eq_some_iff.mp hi).1
    omega
  show (orMalformed (some size) >>= _) _ = _
  rw [bind_of_ok (show orMalformed (some size) _ = .ok size _ from rfl), bind_of_ok (readUInt_le' hlt rest), hi]
  rfl

/-! ### interned strings -/

theorem getFormat_ok {t : Table} {a : Nat} {s : List Char} (h : Linked t a s) (rest : List UInt8) :
    getFormat t (le 2 a ++ rest) = .ok s rest := by
  unfold getFormat
  rw [bind_of_ok (readUInt_le' (by simpa using h.1) rest), h.2]
  rfl

/-- a nested value with format string `s` -/
def decodeNested (t : Table) (fuel : Nat) (s : List Char) : Dec Arg := do
  let variant ← chooseVariant s
  let args ← decodeFormat t fuel variant
  pure (.format variant args)

theorem sequence_types : ∃ fs, parse sequenceFormat .forwardsCompatible = .ok fs ∧
    (prepareParams (params fs)).map Parameter.ty = [.formatSequence] :=
  ⟨[.param ⟨0, .formatSequence, none⟩], by decide +kernel, by decide +kernel⟩

/-! ### the mutual induction -/

theorem fmt_ok {t : Table} {fmt : List Char} {n : Nat} {tys : List Ty} (h : argTypes fmt n = some tys)
    {d : List UInt8} {as : List Arg} {N : Nat}
    (hd : ∀ f1 ≥ N, ∀ f2 ≥ N, ∀ rest, decodeTys t (decodeFormat t f1) f2 tys (d ++ rest) = .ok as rest) :
    ∀ fuel ≥ N + 1, ∀ rest, decodeFormat t fuel fmt (d ++ rest) = .ok as rest := by
  intro fuel hf rest
  obtain ⟨_, fs, hp, ht⟩ := argTypes_spec h
  match fuel, hf with
  | k + 1, hf => rw [decodeFormat_succ hp, ht]; exact hd k (by omega) (k + 1) (by omega) rest

theorem discriminant_agree {n : Nat} (h2 : 2 ≤ n) (hn : n ∉ [2 ^ 8, 2 ^ 16, 2 ^ 32]) (hn' : n < 2 ^ 64) :
    ∃ size, discriminantBytes n = some size ∧ discriminantSize (n - 1) = some size := by
  simp at hn
  unfold discriminantBytes discriminantSize
  repeat' split
  all_goals (first | omega | exact ⟨_, rfl, rfl⟩)

def NestedOk (t : Table) (v : Val) : Prop :=
  ∃ d, formatData v = some d ∧ ∃ N, ∀ fuel ≥ N, ∀ rest,
      decodeNested t fuel (formatString v) (d ++ rest) = .ok (denote v) rest

def ElementsOk (t : Table) (vs : List Val) : Prop :=
    ∃ d, encodeElems vs = some d ∧ ∃ N, ∀ fuel ≥ N, ∀ s, (∀ v ∈ vs, tagOf v ≠ none ∧ formatString v = s) →
      ∀ rest, decodeElements (decodeFormat t fuel) s vs.length (d ++ rest) = .ok (denoteAll vs) rest

theorem arg_ok {t : Table} {ty : Ty} {v : Val} (h : ArgOk t ty v (ValOk t v))
    (hv : ValOk t v → tagOf v ≠ none → NestedOk t v)
    (he : ∀ tag s elems, v = .slice tag s elems → ElemsOk t elems → ElementsOk t elems) :
    ∃ d, encodeArg ty v (formatData v) = some d ∧ ∃ N, ∀ f1 ≥ N, ∀ f2 ≥ N, ∀ rest,
      decodeArg t (decodeFormat t f1) f2 ty (d ++ rest) = .ok (denoteArg ty v (denote v)) rest := by
  have hu : ∀ (n x : Nat) (f : Nat → Arg) (rest : List UInt8), x < 2 ^ (8 * n) →
      (do return f (← readUInt n) : Dec Arg) (le n x ++ rest) = .ok (f x) rest := by
    intro n x f rest hx
    rw [bind_of_ok (readUInt_le' hx rest)]; rfl
  have hi : ∀ (n : Nat) (x : Int) (f : Int → Arg) (rest : List UInt8), 0 < n → -2 ^ (8 * n - 1) ≤ x →
      x < 2 ^ (8 * n - 1) → (do return f (← readInt n) : Dec Arg) (leInt n x ++ rest) = .ok (f x) rest := by
    intro n x f rest h0 h1 h2
    rw [bind_of_ok (readInt_le h0 h1 h2 rest)]; rfl
  unfold ArgOk at h
  split at h
  · exact ⟨_, rfl, 0, fun _ _ _ _ rest => hu 1 _ _ rest h⟩
  · exact ⟨_, rfl, 0, fun _ _ _ _ rest => hu 2 _ _ rest h⟩
  · exact ⟨_, rfl, 0, fun _ _ _ _ rest => hu 4 _ _ rest h⟩
  · exact ⟨_, rfl, 0, fun _ _ _ _ rest => hu 8 _ _ rest h⟩
  · exact ⟨_, rfl, 0, fun _ _ _ _ rest => hu 16 _ _ rest h⟩
  · exact ⟨_, rfl, 0, fun _ _ _ _ rest => hi 1 _ _ rest (by decide) h.1 h.2⟩
  · exact ⟨_, rfl, 0, fun _ _ _ _ rest => hi 2 _ _ rest (by decide) h.1 h.2⟩
  · exact ⟨_, rfl, 0, fun _ _ _ _ rest => hi 4 _ _ rest (by decide) h.1 h.2⟩
  · exact ⟨_, rfl, 0, fun _ _ _ _ rest => hi 8 _ _ rest (by decide) h.1 h.2⟩
  · exact ⟨_, rfl, 0, fun _ _ _ _ rest => hi 16 _ _ rest (by decide) h.1 h.2⟩
  · exact ⟨_, rfl, 0, fun _ _ _ _ rest => hu 4 _ _ rest h⟩
  · exact ⟨_, rfl, 0, fun _ _ _ _ rest => hi 4 _ _ rest (by decide) h.1 h.2⟩
  · exact ⟨_, rfl, 0, fun _ _ _ _ rest => hu 4 _ _ rest h⟩
  · exact ⟨_, rfl, 0, fun _ _ _ _ rest => hu 8 _ _ rest h⟩
  · rename_i b
    refine ⟨_, rfl, 0, fun _ _ _ _ rest => ?_⟩
    rw [decodeArg, bind_of_ok (readUInt_le' (by cases b <;> decide) rest)]
    cases b <;> rfl
  · rename_i c
    refine ⟨_, rfl, 0, fun _ _ _ _ rest => ?_⟩
    have hc : c.toNat < 2 ^ (8 * 4) := by
      have := char_range c
      omega
    rw [decodeArg, bind_of_ok (readUInt_le' hc rest)]
    have : charFromU32 c.toNat = some c := by
      unfold charFromU32
      rw [if_pos (show c.toNat.isValidChar from c.valid)]
      simp
    rw [this]; rfl
  · rename_i s
    refine ⟨_, rfl, 0, fun _ _ _ _ rest => ?_⟩
    rw [decodeArg, List.append_assoc, bind_of_ok (readUInt_le' (by simpa using h) _),
      bind_of_ok (readBytes_append _ _), fromUtf8_utf8]
    rfl
  · refine ⟨_, rfl, 0, fun _ _ _ _ rest => ?_⟩
    rw [decodeArg, bind_of_ok (readUInt_le' (by simpa using h.1) _), h.2]
    rfl
  · refine ⟨_, rfl, 0, fun _ _ _ _ rest => ?_⟩
    rw [decodeArg, List.append_assoc, bind_of_ok (readUInt_le' (by simpa using h) _),
      bind_of_ok (readBytes_append _ _)]
    rfl
  · rename_i n bs
    refine ⟨bs, by rw [encodeArg, if_pos h], 0, fun _ _ _ _ rest => ?_⟩
    rw [decodeArg, ← h, bind_of_ok (readBytes_append _ _)]
    rfl
  · rename_i s
    refine ⟨_, rfl, 0, fun _ _ _ _ rest => ?_⟩
    rw [decodeArg, List.append_assoc, List.singleton_append, bind_of_ok (readTerminated_append ?_), fromUtf8_utf8]
    · rfl
    · intro c hc e; have := utf8_lt s c hc; subst e; exact absurd this (by decide)
  · rename_i s
    refine ⟨_, rfl, 0, fun _ _ _ _ rest => ?_⟩
    rw [decodeArg, List.append_assoc, List.singleton_append, bind_of_ok (readTerminated_append ?_), fromUtf8_utf8]
    · rfl
    · intro c hc e; have := utf8_lt s c hc; subst e; exact absurd this (by decide)
  · rename_i s e size n
    obtain ⟨h1, d, h2, h3, h4⟩ := h
    refine ⟨_, by rw [encodeArg, device_octets, h2]; exact if_pos ⟨h3, h4⟩, 0, fun _ _ _ _ rest => ?_⟩
    rw [decodeArg, host_octets, h2]
    show (readUInt d >>= _) _ = _
    rw [bind_of_ok (readUInt_le _ _ _), denoteArg, bitfieldValue, h2]
    rfl
  · obtain ⟨h1, tag, s, ⟨h2, h3⟩, h4⟩ := h
    obtain ⟨d, hd, N, hN⟩ := hv h1 (by rw [h2]; simp)
    have hden : denoteArg .format v (denote v) = denote v := by
      cases v <;> first | rfl | simp [tagOf] at h2
    have henc : encodeArg .format v (formatData v) = some (le 2 tag ++ d) := by
      rw [hd]; cases v <;> first | (simp only [tagOf] at h2; cases h2; rfl) | simp [tagOf] at h2
    refine ⟨le 2 tag ++ d, henc, N, ?_⟩
    intro f1 hf1 f2 hf2 rest
    rw [decodeArg, List.append_assoc, bind_of_ok (getFormat_ok h4 _), hden, ← hN f1 hf1 rest, h3]
    rfl
  · rename_i tag s elems
    obtain ⟨h1, h2, h3, h4⟩ := h
    rw [ValOk] at h1
    obtain ⟨d, hd, N, hN⟩ := he tag s elems rfl h1
    refine ⟨le 4 elems.length ++ le 2 tag ++ d, by rw [encodeArg, formatData, hd]; rfl, N, ?_⟩
    intro f1 hf1 f2 hf2 rest
    have hs := hN f1 hf1 s (fun v hv => ⟨by rw [(h4 v hv).1]; simp, (h4 v hv).2⟩) rest
    have hsl : decodeFormatSlice t (decodeFormat t f1) elems.length (le 2 tag ++ (d ++ rest)) =
        .ok (denoteAll elems) rest := by
      unfold decodeFormatSlice
      rw [bind_of_ok (getFormat_ok h3 _), if_neg (by unfold maxElements; omega), hs]
    rw [decodeArg, List.append_assoc, List.append_assoc, bind_of_ok (readUInt_le' (by simpa using h2) _),
      bind_of_ok hsl, denoteArg, denote]
    · rfl
    all_goals simp
  · rename_i n tag s elems
    obtain ⟨h1, h2, h2', h3, h4⟩ := h
    rw [ValOk] at h1
    obtain ⟨d, hd, N, hN⟩ := he tag s elems rfl h1
    refine ⟨le 2 tag ++ d, by rw [encodeArg, if_pos h2, formatData, hd]; rfl, N, ?_⟩
    intro f1 hf1 f2 hf2 rest
    have hs := hN f1 hf1 s (fun v hv => ⟨by rw [(h4 v hv).1]; simp, (h4 v hv).2⟩) rest
    have hsl : decodeFormatSlice t (decodeFormat t f1) n (le 2 tag ++ (d ++ rest)) =
        .ok (denoteAll elems) rest := by
      unfold decodeFormatSlice
      rw [bind_of_ok (getFormat_ok h3 _), if_neg (by unfold maxElements; omega), ← h2, hs]
    rw [decodeArg, List.append_assoc, bind_of_ok hsl, denoteArg, denote]
    · rfl
    all_goals simp
  · exact h.elim

mutual

theorem val_ok (t : Table) : ∀ (v : Val), ValOk t v → tagOf v ≠ none →
    ∃ d, formatData v = some d ∧ ∃ N, ∀ fuel ≥ N, ∀ rest,
      decodeNested t fuel (formatString v) (d ++ rest) = .ok (denote v) rest
  | .formatted tag fmt args, hv, _ => by
    rw [ValOk] at hv
    obtain ⟨hb, tys, ht, ha⟩ := hv
    obtain ⟨d, hd, N, hN⟩ := args_ok t tys args ha
    refine ⟨d, by rw [formatData, ht]; exact hd, N + 1, ?_⟩
    intro fuel hf rest
    unfold decodeNested
    rw [formatString, chooseVariant, if_neg hb, bind_of_ok (pure_apply _ _),
      bind_of_ok (fmt_ok ht hN fuel hf rest), pure_apply, denote, ht]
  | .variant tag variants idx args, hv, _ => by
    rw [ValOk] at hv
    obtain ⟨h2, hb, hn, hn', fmt, hi, tys, ht, ha⟩ := hv
    obtain ⟨d, hd, N, hN⟩ := args_ok t tys args ha
    obtain ⟨size, hs, hsz⟩ := discriminant_agree h2 hn hn'
    refine ⟨le size idx ++ d, by simp only [formatData, hi, hs, ht, hd, Option.map_some], N + 1, ?_⟩
    intro fuel hf rest
    unfold decodeNested
    rw [formatString, List.append_assoc, bind_of_ok (getVariant_ok h2 hb hsz hi _),
      bind_of_ok (fmt_ok ht hN fuel hf rest), pure_apply, denote, hi]
    simp only [ht]
  | .manual tag writes, hv, _ => by
    rw [ValOk] at hv
    obtain ⟨d, hd, N, hN⟩ := writes_ok t writes hv
    refine ⟨d ++ le 2 0, by rw [formatData, hd]; rfl, N + 2, ?_⟩
    intro fuel hf rest
    obtain ⟨fs, hp, ht⟩ := sequence_types
    unfold decodeNested
    rw [formatString, chooseVariant, if_neg (by decide), bind_of_ok (pure_apply _ _)]
    match fuel, hf with
    | k + 1, hf =>
      rw [decodeFormat_succ hp, ht, List.append_assoc]
      have h1 : decodeArg t (decodeFormat t k) (k + 1) .formatSequence (d ++ (le 2 0 ++ rest)) =
          .ok (.formatSequence (denoteAll writes)) rest := by
        rw [decodeArg, bind_of_ok (hN k (by omega) (k + 1) (by omega) rest), pure_apply]
      rw [decodeTys, bind_of_ok (a := [.formatSequence (denoteAll writes)]) (r := rest)
        (by rw [bind_of_ok h1]; rfl), pure_apply, denote]
  | .slice .., _, h => absurd rfl h
  | .uint .., _, h => absurd rfl h
  | .sint .., _, h => absurd rfl h
  | .usize .., _, h => absurd rfl h
  | .isize .., _, h => absurd rfl h
  | .f32 .., _, h => absurd rfl h
  | .f64 .., _, h => absurd rfl h
  | .bool .., _, h => absurd rfl h
  | .char .., _, h => absurd rfl h
  | .str .., _, h => absurd rfl h
  | .istr .., _, h => absurd rfl h
  | .bytes .., _, h => absurd rfl h
  | .text .., _, h => absurd rfl h

theorem args_ok (t : Table) : ∀ (tys : List Ty) (vs : List Val), ArgsOk t tys vs →
    ∃ d, encodeArgs tys vs = some d ∧ ∃ N, ∀ f1 ≥ N, ∀ f2 ≥ N, ∀ rest,
      decodeTys t (decodeFormat t f1) f2 tys (d ++ rest) = .ok (denoteArgs tys vs) rest
  | [], [], _ => ⟨[], rfl, 0, fun _ _ _ _ rest => rfl⟩
  | [], _ :: _, h => by rw [ArgsOk] at h; exact h.elim; all_goals simp
  | _ :: _, [], h => by rw [ArgsOk] at h; exact h.elim; all_goals simp
  | ty :: tys, v :: vs, h => by
    rw [ArgsOk] at h
    obtain ⟨h1, h2⟩ := h
    obtain ⟨d2, hd2, N2, hN2⟩ := args_ok t tys vs h2
    obtain ⟨d1, hd1, N1, hN1⟩ := arg_ok h1 (val_ok t v) (fun tag s elems e h => elems_ok t elems h)
    refine ⟨d1 ++ d2, by rw [encodeArgs, hd1, hd2], max N1 N2, ?_⟩
    intro f1 hf1 f2 hf2 rest
    rw [decodeTys, denoteArgs, List.append_assoc, bind_of_ok (hN1 f1 (by omega) f2 (by omega) _),
      bind_of_ok (hN2 f1 (by omega) f2 (by omega) _), pure_apply]

theorem writes_ok (t : Table) : ∀ (vs : List Val), WritesOk t vs →
    ∃ d, encodeWrites vs = some d ∧ ∃ N, ∀ f1 ≥ N, ∀ f2 ≥ N, ∀ rest,
      decodeSequence t (decodeFormat t f1) f2 (d ++ (le 2 0 ++ rest)) = .ok (denoteAll vs) rest
  | [], _ => by
    refine ⟨[], rfl, 1, ?_⟩
    intro f1 _ f2 hf2 rest
    match f2, hf2 with
    | k + 1, _ =>
      rw [decodeSequence, List.nil_append, bind_of_ok (readUInt_le' (by decide) _), if_pos rfl]
      rfl
  | .formatted tag fmt args :: vs, h => by
    rw [WritesOk] at h
    obtain ⟨⟨h0, hl, tys, ht, ha⟩, h2⟩ := h
    obtain ⟨d1, hd1, N1, hN1⟩ := args_ok t tys args ha
    obtain ⟨d2, hd2, N2, hN2⟩ := writes_ok t vs h2
    refine ⟨le 2 tag ++ d1 ++ d2, by rw [encodeWrites, tagOf, formatData, ht]; simp only [hd1, hd2],
      max N1 N2 + 1, ?_⟩
    intro f1 hf1 f2 hf2 rest
    match f2, hf2 with
    | k + 1, hf2 =>
      rw [decodeSequence, List.append_assoc, List.append_assoc, bind_of_ok (readUInt_le' (by simpa using hl.1) _),
        if_neg h0, hl.2, bind_of_ok (show orMalformed (some fmt) _ = .ok fmt _ from rfl),
        bind_of_ok (fmt_ok ht hN1 f1 (by omega) _), bind_of_ok (hN2 f1 (by omega) k (by omega) rest),
        pure_apply, denoteAll, denote]
      simp only [ht]
  | .variant .. :: _, h => by simp [WritesOk] at h
  | .manual .. :: _, h => by simp [WritesOk] at h
  | .slice .. :: _, h => by simp [WritesOk] at h
  | .uint .. :: _, h => by simp [WritesOk] at h
  | .sint .. :: _, h => by simp [WritesOk] at h
  | .usize .. :: _, h => by simp [WritesOk] at h
  | .isize .. :: _, h => by simp [WritesOk] at h
  | .f32 .. :: _, h => by simp [WritesOk] at h
  | .f64 .. :: _, h => by simp [WritesOk] at h
  | .bool .. :: _, h => by simp [WritesOk] at h
  | .char .. :: _, h => by simp [WritesOk] at h
  | .str .. :: _, h => by simp [WritesOk] at h
  | .istr .. :: _, h => by simp [WritesOk] at h
  | .bytes .. :: _, h => by simp [WritesOk] at h
  | .text .. :: _, h => by simp [WritesOk] at h

theorem elems_ok (t : Table) : ∀ (vs : List Val), ElemsOk t vs → ElementsOk t vs
  | [], _ => ⟨[], rfl, 0, fun _ _ _ _ rest => rfl⟩
  | v :: vs, h => by
    rw [ElemsOk] at h
    obtain ⟨d2, hd2, N2, hN2⟩ := elems_ok t vs h.2
    by_cases hv : tagOf v = none
    · have : ∃ d1, formatData v = some d1 := by
        cases v <;> simp [tagOf] at hv
        all_goals (first | (rename_i elems; obtain ⟨d, hd, _⟩ := elems_ok t elems (by simpa [ValOk] using h.1)
                            exact ⟨d, by rw [formatData, hd]⟩) | simp [ValOk] at h)
      obtain ⟨d1, hd1⟩ := this
      refine ⟨d1 ++ d2, by rw [encodeElems, hd1, hd2], 0, ?_⟩
      intro fuel _ s hs
      exact absurd hv (hs v (by simp)).1
    · obtain ⟨d1, hd1, N1, hN1⟩ := val_ok t v h.1 hv
      refine ⟨d1 ++ d2, by rw [encodeElems, hd1, hd2], max N1 N2, ?_⟩
      intro fuel hf s hs rest
      have e1 := hN1 fuel (by omega) (d2 ++ rest)
      rw [(hs v (by simp)).2] at e1
      have e2 := hN2 fuel (by omega) s (fun w hw => hs w (by simp [hw])) rest
      unfold decodeNested at e1
      obtain ⟨variant, r1, e3, e4⟩ := bind_ok e1
      obtain ⟨args, r2, e5, e6⟩ := bind_ok e4
      rw [pure_apply] at e6
      simp only [Res.ok.injEq] at e6
      obtain ⟨e6, rfl⟩ := e6
      rw [List.length_cons, decodeElements, List.append_assoc, bind_of_ok e3, bind_of_ok e5, bind_of_ok e2,
        pure_apply, denoteAll, e6]
end

end Defmt.Encoder
