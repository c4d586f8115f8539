import Verif.Lemmas.Glue
import Verif.Lemmas.RoundTrip
import Verif.Model.Macros
import Verif.Props.Parser
import Verif.Props.Message
/-!
# Lemmas about the panicking macros
-/

namespace Defmt.Macros

open Parser Encoder Display

theorem escapedExprString_eq (s : List Char) : escapedExprString s = escape s := by
  unfold escapedExprString
  induction s with
  | nil => rfl
  | cons a s ih =>
    rw [double, escape]
    by_cases h1 : a = '{'
    · subst h1; simp [double, ih]
    · by_cases h2 : a = '}'
      · subst h2; simp [double, ih]
      · simp [double, h1, h2, ih]

theorem scanned_unique {m : Mode} {s : List Char} {a b : List Fragment} (ha : Scanned m s a) (hb : Scanned m s b) : a = b := by
  obtain ⟨r, h1, h2⟩ := ha
  obtain ⟨r', h1', h2'⟩ := hb
  rw [h1] at h1'
  injection h1' with h1'
  subst h1'
  rw [h2] at h2'
  injection h2'

/-- a message with text around it -/
theorem parse_around (m : Mode) {pre q : List Char} (msg : List Char) (hpre : NoBraces pre) (h0 : pre ≠ []) (hq : NoBraces q) (hq0 : q ≠ []) :
    (∀ fs', parse (pre ++ msg ++ q) m = .ok fs' → ∃ fs, parse msg m = .ok fs ∧ Around pre q fs fs') ∧
    (∀ fs, parse msg m = .ok fs → ∃ fs', parse (pre ++ msg ++ q) m = .ok fs' ∧ Around pre q fs fs') := by
  obtain ⟨h1, h2⟩ := parse_values m (msg := msg) (qs := []) hpre h0 hq hq0 (by simp) (.inl rfl)
  simp only [valuesText, List.append_nil, valuesMeaning] at h1 h2
  refine ⟨?_, ?_⟩
  · intro fs' h
    obtain ⟨hs, hg⟩ := parse_iff.mp h
    obtain ⟨fs, f1, h3, h4, rfl⟩ := h1 fs' hs
    exact ⟨fs, parse_iff.mpr ⟨h3, by rw [← h4.par]; exact hg⟩, h4⟩
  · intro fs h
    obtain ⟨hs, hg⟩ := parse_iff.mp h
    obtain ⟨f1, h3, h4⟩ := h2 fs hs
    exact ⟨f1, parse_iff.mpr ⟨h3, by rw [h4.par]; exact hg⟩, h4⟩

theorem argTypes_around {pre q : List Char} (msg : List Char) (n : Nat) (hpre : NoBraces pre) (h0 : pre ≠ []) (hq : NoBraces q) (hq0 : q ≠ []) :
    argTypes (pre ++ msg ++ q) n = argTypes msg n := by
  obtain ⟨h1, h2⟩ := parse_around .strict msg hpre h0 hq hq0
  unfold argTypes
  cases hp : parse msg .strict with
  | ok fs =>
    obtain ⟨fs', h3, h4⟩ := h2 fs hp
    rw [h3]
    simp only [h4.par]
  | err e =>
    cases hp' : parse (pre ++ msg ++ q) .strict with
    | ok fs' => obtain ⟨fs, h3, _⟩ := h1 fs' hp'; rw [hp] at h3; cases h3
    | err _ => rfl
    | panic => rfl
  | panic =>
    cases hp' : parse (pre ++ msg ++ q) .strict with
    | ok fs' => obtain ⟨fs, h3, _⟩ := h1 fs' hp'; rw [hp] at h3; cases h3
    | err _ => rfl
    | panic => rfl

theorem text_around (env : Env) {pre q : List Char} (msg : List Char) (f : Frame) (hf : f.format = pre ++ msg ++ q) (hpre : NoBraces pre)
    (h0 : pre ≠ []) (hq : NoBraces q) (hq0 : q ≠ []) (m : List Char) :
    f.message env = some m ↔ ∃ m0, ({ f with format := msg } : Frame).message env = some m0 ∧ m = pre ++ m0 ++ q := by
  obtain ⟨h1, h2⟩ := parse_around .forwardsCompatible msg hpre h0 hq hq0
  simp only [C59_message, hf]
  constructor
  · rintro ⟨fs', hp, hm⟩
    obtain ⟨fs, h3, h4⟩ := h1 fs' hp
    obtain ⟨m0, h5, rfl⟩ := (h4.fill _ m).mp hm
    exact ⟨m0, ⟨fs, h3, h5⟩, rfl⟩
  · rintro ⟨m0, ⟨fs, h3, h5⟩, rfl⟩
    obtain ⟨fs', h6, h4⟩ := h2 fs h3
    exact ⟨fs', h6, (h4.fill _ _).mpr ⟨m0, h5, rfl⟩⟩

/-! ### Values -/

/-- the parameters of the values -/
def valueParams (n v : Nat) : List Parameter := (List.range v).map (fun i => ⟨n + i, .format, some .debug⟩)

theorem params_values (n : Nat) (qs : List (List Char)) : params (valuesMeaning n qs) = valueParams n qs.length := by
  induction qs generalizing n with
  | nil => rfl
  | cons q qs ih =>
    simp only [valuesMeaning, params, ih, valueParams, List.length_cons, List.range_succ_eq_map, List.map_cons, List.map_map, Nat.add_zero]
    congr 1
    apply List.map_congr_left
    intro i _
    simp only [Function.comp, Nat.succ_eq_add_one]
    congr 1
    omega

theorem number_count : ∀ (l : List (Option Nat)) (n i : Nat), i < (l.filter Option.isNone).length → n + i ∈ number n l
  | [], n, i, h => by simp at h
  | none :: l, n, i, h => by
    simp only [number, List.mem_cons]
    cases i with
    | zero => left; rfl
    | succ i =>
      right
      have := number_count l (n + 1) i (by simpa using h)
      rwa [show n + 1 + i = n + (i + 1) by omega] at this
  | some j :: l, n, i, h => by
    simp only [number, List.mem_cons]
    right
    exact number_count l n i (by simpa using h)

theorem implicits_le {s : List Char} {m : Mode} {fs : List Fragment} {k : Nat} (h : parse s m = .ok fs) (hd : Dense (params fs) k) :
    implicits s ≤ k := by
  have h13 := C13_implicit_numbering s m fs h
  cases hi : implicits s with
  | zero => omega
  | succ j =>
    have hc : ((((paramTexts s).map explicitIndex)).filter Option.isNone).length = j + 1 := by
      rw [← hi, List.filter_map, List.length_map]
      rfl
    have := number_count ((paramTexts s).map explicitIndex) 0 j (by omega)
    rw [← h13, Nat.zero_add] at this
    obtain ⟨p, hp, hpi⟩ := List.mem_map.mp this
    have := hd.1 p hp
    omega

theorem good_values {ps : List Parameter} {k v : Nat} (hd : Dense ps k) (hc : Consistent ps) (hk : k + v ≤ maxArgs) :
    GoodParams (ps ++ valueParams k v) ∧ Dense (ps ++ valueParams k v) (k + v) := by
  have hmem : ∀ p, p ∈ valueParams k v ↔ ∃ i, i < v ∧ p = ⟨k + i, .format, some .debug⟩ := by
    intro p
    unfold valueParams
    simp only [List.mem_map, List.mem_range]
    constructor
    · rintro ⟨i, h, rfl⟩; exact ⟨i, h, rfl⟩
    · rintro ⟨i, h, rfl⟩; exact ⟨i, h, rfl⟩
  have hd' : Dense (ps ++ valueParams k v) (k + v) := by
    refine ⟨?_, ?_⟩
    · intro p hp
      rcases List.mem_append.mp hp with hp | hp
      · have := hd.1 p hp; omega
      · obtain ⟨i, hi, rfl⟩ := (hmem p).mp hp; simp; omega
    · intro i hi
      by_cases h : i < k
      · obtain ⟨p, hp, hpi⟩ := hd.2 i h
        exact ⟨p, List.mem_append_left _ hp, hpi⟩
      · exact ⟨_, List.mem_append_right _ ((hmem _).mpr ⟨i - k, by omega, rfl⟩), by simp; omega⟩
  refine ⟨⟨⟨k + v, hk, hd'⟩, ?_⟩, hd'⟩
  intro p hp q hq hpq
  rcases List.mem_append.mp hp with hp | hp <;> rcases List.mem_append.mp hq with hq | hq
  · exact hc p hp q hq hpq
  · obtain ⟨i, hi, rfl⟩ := (hmem q).mp hq
    have := hd.1 p hp
    simp at hpq; omega
  · obtain ⟨i, hi, rfl⟩ := (hmem p).mp hp
    have := hd.1 q hq
    simp at hpq; omega
  · obtain ⟨i, hi, rfl⟩ := (hmem p).mp hp
    obtain ⟨j, hj, rfl⟩ := (hmem q).mp hq
    exact .inl rfl

theorem find_none_of {ps : List Parameter} {i : Nat} (h : ∀ p ∈ ps, p.index ≠ i) : ps.find? (fun p => p.index = i) = none := by
  rw [List.find?_eq_none]
  intro p hp
  simpa using h p hp

theorem filter_nil_of {ps : List Parameter} {i : Nat} (h : ∀ p ∈ ps, p.index ≠ i) : ps.filter (fun p => p.index = i) = [] := by
  rw [List.filter_eq_nil_iff]
  intro p hp
  simpa using h p hp

theorem argType_old {ps : List Parameter} {k v i : Nat} (hd : Dense ps k) (hi : i < k) :
    argType (ps ++ valueParams k v) i = argType ps i := by
  have hno : ∀ p ∈ valueParams k v, p.index ≠ i := by
    intro p hp
    unfold valueParams at hp
    simp only [List.mem_map, List.mem_range] at hp
    obtain ⟨j, _, rfl⟩ := hp
    simp; omega
  have hf : (ps ++ valueParams k v).find? (fun p => p.index = i) = ps.find? (fun p => p.index = i) := by
    rw [List.find?_append, find_none_of hno]
    cases ps.find? (fun p => p.index = i) <;> rfl
  have hb : bitfieldRange (ps ++ valueParams k v) i = bitfieldRange ps i := by
    unfold bitfieldRange
    rw [List.filter_append, filter_nil_of hno, List.append_nil]
  unfold argType
  rw [hf, hb]

theorem argType_new {ps : List Parameter} {k v i : Nat} (hd : Dense ps k) (hi : i < v) :
    argType (ps ++ valueParams k v) (k + i) = some .format := by
  have hno : ∀ p ∈ ps, p.index ≠ k + i := by
    intro p hp
    have := hd.1 p hp
    omega
  have hex : ∃ p, (valueParams k v).find? (fun p => p.index = k + i) = some p ∧ p.ty = .format := by
    cases hf : (valueParams k v).find? (fun p => p.index = k + i) with
    | none =>
      rw [List.find?_eq_none] at hf
      have := hf ⟨k + i, .format, some .debug⟩ (by unfold valueParams; simp; exact hi)
      simp at this
    | some p =>
      refine ⟨p, rfl, ?_⟩
      have := List.mem_of_find?_eq_some hf
      unfold valueParams at this
      simp only [List.mem_map, List.mem_range] at this
      obtain ⟨j, _, rfl⟩ := this
      rfl
  obtain ⟨p, hf, ht⟩ := hex
  have hf' : (ps ++ valueParams k v).find? (fun p => p.index = k + i) = some p := by
    rw [List.find?_append, find_none_of hno, hf]; rfl
  unfold argType
  rw [hf']
  simp only [ht]

theorem allSome_append' {α : Type} (a b : List (Option α)) :
    allSome (a ++ b) = match allSome a, allSome b with
      | some x, some y => some (x ++ y)
      | _, _ => none := by
  induction a with
  | nil => cases h : allSome b <;> simp [allSome, h]
  | cons o a ih =>
    cases o with
    | none => simp [allSome]
    | some x =>
      simp only [List.cons_append, allSome, ih]
      cases allSome a <;> cases allSome b <;> simp

theorem types_values {ps : List Parameter} {k v : Nat} (hd : Dense ps k) :
    allSome ((List.range (k + v)).map (argType (ps ++ valueParams k v))) =
      (allSome ((List.range k).map (argType ps))).map (· ++ List.replicate v .format) := by
  have h1 : (List.range (k + v)).map (argType (ps ++ valueParams k v)) =
      (List.range k).map (argType ps) ++ List.replicate v (some .format) := by
    rw [List.range_add, List.map_append]
    congr 1
    · apply List.map_congr_left
      intro i hi
      exact argType_old hd (List.mem_range.mp hi)
    · rw [List.map_map]
      apply List.ext_getElem
      · simp
      · intro i h1 h2
        simp only [List.length_map, List.length_range] at h1
        simp [argType_new hd h1]
  have h2 : ∀ v, allSome (List.replicate v (some Ty.format)) = some (List.replicate v .format) := by
    intro v
    induction v with
    | zero => rfl
    | succ v ih => rw [List.replicate_succ, allSome, ih]; rfl
  rw [h1, allSome_append', h2]
  cases allSome ((List.range k).map (argType ps)) <;> rfl

/-- what is known if the message alone is accepted -/
theorem argTypes_some {fmt : List Char} {k : Nat} {tys : List Ty} (h : argTypes fmt k = some tys) :
    ∃ fs, parse fmt .strict = .ok fs ∧ Dense (params fs) k ∧ Consistent (params fs) ∧
      allSome ((List.range k).map (argType (params fs))) = some tys := by
  unfold argTypes at h
  split at h
  · rename_i fs hfs
    obtain ⟨⟨n, hd⟩, hc⟩ := C12_indices_dense_types_consistent _ _ _ hfs
    rw [expectedArgs_dense hd] at h
    split at h
    · cases h
    · rename_i hn
      have hn : k = n := by omega
      subst hn
      exact ⟨fs, hfs, hd, hc, h⟩
  · cases h

theorem argTypes_values {pre q : List Char} {qs : List (List Char)} {msg : List Char} {k : Nat} {tys tys' : List Ty}
    (hpre : NoBraces pre) (h0 : pre ≠ []) (hq : NoBraces q) (hq0 : q ≠ []) (hqs : ∀ x ∈ qs, NoBraces x ∧ x ≠ []) (hne : qs ≠ [])
    (hbad : ∀ x, x <:+ msg → ∀ p, parseParam .strict (x ++ (q ++ c!"{:?")) ≠ .ok p)
    (h : argTypes msg k = some tys) (hk : k + qs.length ≤ maxArgs) :
    argTypes (pre ++ msg ++ (q ++ valuesText qs)) (k + qs.length) = some tys' ↔
      implicits msg = k ∧ tys' = tys ++ List.replicate qs.length .format := by
  obtain ⟨fs, hfs, hd, hc, hty⟩ := argTypes_some h
  obtain ⟨h1, h2⟩ := parse_values .strict (msg := msg) hpre h0 hq hq0 hqs (.inr hbad)
  obtain ⟨hsc, hgood⟩ := parse_iff.mp hfs
  obtain ⟨f1, h3, h4⟩ := h2 fs hsc
  have hpar : params (f1 ++ valuesMeaning (implicits msg) qs) = params fs ++ valueParams (implicits msg) qs.length := by
    rw [params_append', h4.par, params_values]
  have hv : 0 < qs.length := List.length_pos_iff.mpr hne
  constructor
  · intro ha
    obtain ⟨fs', hfs', hd', hc', hty'⟩ := argTypes_some ha
    have : fs' = f1 ++ valuesMeaning (implicits msg) qs := scanned_unique (parse_iff.mp hfs').1 h3
    subst this
    rw [hpar] at hd' hty'
    have hle := implicits_le hfs hd
    have hge : k ≤ implicits msg := by
      obtain ⟨p, hp, hpi⟩ := hd'.2 (k + qs.length - 1) (by omega)
      rcases List.mem_append.mp hp with hp | hp
      · have := hd.1 p hp; omega
      · unfold valueParams at hp
        simp only [List.mem_map, List.mem_range] at hp
        obtain ⟨i, hi, rfl⟩ := hp
        simp at hpi
        omega
    have hj : implicits msg = k := by omega
    refine ⟨hj, ?_⟩
    rw [hj, types_values hd, hty] at hty'
    simpa using hty'.symm
  · rintro ⟨hj, rfl⟩
    rw [hj] at hpar h3
    obtain ⟨hg, hd'⟩ := good_values hd hc hk
    have hp : parse (pre ++ msg ++ (q ++ valuesText qs)) .strict = .ok (f1 ++ valuesMeaning k qs) :=
      parse_iff.mpr ⟨h3, by rw [hpar]; exact hg⟩
    unfold argTypes
    rw [hp]
    simp only
    rw [hpar, expectedArgs_dense hd', if_neg (by omega), types_values hd, hty]
    rfl

/-- the values are filled in in order -/
inductive ValuesText (P : Parameter → List Char → Prop) : Nat → List (List Char) → List Char → Prop where
  | nil {n} : ValuesText P n [] []
  | cons {n q qs s m} : P ⟨n, .format, some .debug⟩ s → ValuesText P (n + 1) qs m → ValuesText P n (q :: qs) (s ++ q ++ m)

theorem filled_values {P : Parameter → List Char → Prop} (qs : List (List Char)) : ∀ (n : Nat) (m : List Char),
    Filled P (valuesMeaning n qs) m ↔ ValuesText P n qs m := by
  induction qs with
  | nil =>
    intro n m
    constructor
    · intro h; cases h; exact .nil
    · intro h; cases h; exact .nil
  | cons q qs ih =>
    intro n m
    constructor
    · intro h
      cases h with
      | param hp h =>
        cases h with
        | literal h =>
          rw [← List.append_assoc]
          exact .cons hp ((ih _ _).mp h)
    · intro h
      cases h with
      | cons hp h =>
        rw [List.append_assoc]
        exact .param hp (.literal ((ih _ _).mpr h))

theorem text_values (env : Env) {pre q : List Char} {qs : List (List Char)} {msg : List Char} {k : Nat} {tys : List Ty}
    (hpre : NoBraces pre) (h0 : pre ≠ []) (hq : NoBraces q) (hq0 : q ≠ []) (hqs : ∀ x ∈ qs, NoBraces x ∧ x ≠ [])
    (hbad : ∀ x, x <:+ msg → ∀ p, parseParam .strict (x ++ (q ++ c!"{:?")) ≠ .ok p)
    (h : argTypes msg k = some tys) (hk : k + qs.length ≤ maxArgs) (hj : implicits msg = k)
    (f : Frame) (hf : f.format = pre ++ msg ++ (q ++ valuesText qs)) (args vals : List Arg) (ha : f.args = args ++ vals)
    (hlen : args.length = k) (m : List Char) :
    f.message env = some m ↔ ∃ m0 t, ({ f with format := msg, args := args } : Frame).message env = some m0 ∧
      ValuesText (ShownFor env (args ++ vals) none) k qs t ∧ m = pre ++ m0 ++ q ++ t := by
  obtain ⟨fs, hfs, hd, hc, _⟩ := argTypes_some h
  obtain ⟨h1, h2⟩ := parse_values .strict (msg := msg) hpre h0 hq hq0 hqs (.inr hbad)
  obtain ⟨hsc, _⟩ := parse_iff.mp hfs
  obtain ⟨f1, h3, h4⟩ := h2 fs hsc
  rw [hj] at h3
  have hpar : params (f1 ++ valuesMeaning k qs) = params fs ++ valueParams k qs.length := by
    rw [params_append', h4.par, params_values]
  obtain ⟨hg, _⟩ := good_values (v := qs.length) hd hc hk
  have hp : parse (pre ++ msg ++ (q ++ valuesText qs)) .forwardsCompatible = .ok (f1 ++ valuesMeaning k qs) :=
    C11_host_accepts_target_strings _ _ (parse_iff.mpr ⟨h3, by rw [hpar]; exact hg⟩)
  have hpm := C11_host_accepts_target_strings _ _ hfs
  have hold : ∀ m0, Filled (ShownFor env (args ++ vals) none) fs m0 ↔ Filled (ShownFor env args none) fs m0 := by
    intro m0
    have hix : ∀ p ∈ params fs, (args ++ vals)[p.index]? = args[p.index]? := by
      intro p hp
      have := hd.1 p hp
      rw [List.getElem?_append_left (by omega)]
    constructor <;> (apply filled_congr; intro p hp s; unfold ShownFor; rw [hix p hp]; exact id)
  simp only [C59_message, hf, ha, hp, hpm, Outcome.ok.injEq, exists_eq_left']
  rw [filled_append]
  simp only [h4.fill, filled_values, hold]
  constructor
  · rintro ⟨_, t, ⟨m0, hm0, rfl⟩, ht, rfl⟩; exact ⟨m0, t, hm0, ht, rfl⟩
  · rintro ⟨m0, t, hm0, ht, rfl⟩; exact ⟨_, t, ⟨m0, hm0, rfl⟩, ht, rfl⟩

/-- a word does not cross a character it does not have -/
theorem infix_split {α : Type} [DecidableEq α] {w a b : List α} {c : α} (hc : c ∉ w) (h : w <:+: a ++ c :: b) : w <:+: a ∨ w <:+: b := by
  obtain ⟨x, y, e⟩ := h
  rw [List.append_assoc] at e
  rcases List.append_eq_append_iff.mp e with ⟨u, hu, hv⟩ | ⟨u, hu, hv⟩
  · -- a = x ++ u, w ++ y = u ++ c :: b
    rcases List.append_eq_append_iff.mp hv with ⟨z, hz, hz'⟩ | ⟨z, hz, hz'⟩
    · -- u = w ++ z
      left
      exact ⟨x, z, by rw [hu, hz]; simp⟩
    · -- w = u ++ z, c :: b = z ++ y
      cases z with
      | nil => left; exact ⟨x, [], by rw [hu, hz]; simp⟩
      | cons d z =>
        simp only [List.cons_append, List.cons.injEq] at hz'
        exact absurd (by rw [hz, hz'.1]; simp) hc
  · -- x = a ++ u, c :: b = u ++ (w ++ y)
    cases u with
    | nil =>
      simp only [List.nil_append] at hv
      cases w with
      | nil => left; exact ⟨[], a, by simp⟩
      | cons d w =>
        simp only [List.cons_append, List.cons.injEq] at hv
        exact absurd (by rw [hv.1]; simp) hc
    | cons d u =>
      simp only [List.cons_append, List.cons.injEq] at hv
      right
      exact ⟨u, y, by rw [hv.2]; simp⟩

theorem not_bad {msg q : List Char} (hm : ¬ c!"__internal_bitflags_" <:+: msg) (hq : ¬ c!"__internal_bitflags_" <:+: (q ++ c!"{:?")) :
    ∀ x, x <:+ msg → ∀ p, parseParam .strict (x ++ ('\'' :: q ++ c!"{:?")) ≠ .ok p := by
  intro x hx p hp
  have := strict_open (parseParam_iff.mp hp) (by simp)
  rw [List.cons_append] at this
  rcases infix_split (by decide) this with h | h
  · exact hm (h.trans hx.isInfix)
  · exact hq h

end Defmt.Macros

namespace Defmt.Macros

open Parser Encoder Display

theorem index_irrelevant (env : Env) (a : Arg) (i j : Nat) (ty : Ty) (h parent : Option Hint) :
    showArg env a ⟨i, ty, h⟩ parent = showArg env a ⟨j, ty, h⟩ parent := by
  cases a <;> simp only [showArg]

theorem filled_nil {P : Parameter → List Char → Prop} {m : List Char} : Filled P [] m ↔ m = [] := by
  constructor
  · intro h; cases h; rfl
  · rintro rfl; exact .nil

theorem filled_literal_cons {P : Parameter → List Char → Prop} {t m : List Char} {fs : List Fragment} :
    Filled P (.literal t :: fs) m ↔ ∃ r, Filled P fs r ∧ m = t ++ r := by
  constructor
  · intro h; cases h with | literal h => exact ⟨_, h, rfl⟩
  · rintro ⟨r, h, rfl⟩; exact .literal h

theorem filled_param_cons {P : Parameter → List Char → Prop} {p : Parameter} {m : List Char} {fs : List Fragment} :
    Filled P (.param p :: fs) m ↔ ∃ s r, P p s ∧ Filled P fs r ∧ m = s ++ r := by
  constructor
  · intro h; cases h with | param hp h => exact ⟨_, _, hp, h, rfl⟩
  · rintro ⟨s, r, hp, h, rfl⟩; exact .param hp h

theorem message_of_parse {fmt : List Char} {fs : List Fragment} (hp : parse fmt .strict = .ok fs) (env : Env) (f : Frame) (hf : f.format = fmt)
    (m : List Char) : f.message env = some m ↔ Filled (ShownFor env f.args none) fs m := by
  rw [C59_message, hf, C11_host_accepts_target_strings _ _ hp]
  simp

end Defmt.Macros
