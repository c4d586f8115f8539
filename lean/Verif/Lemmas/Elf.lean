import Verif.Spec.Elf
import Verif.Lemmas.Symbol
/-! Lemmas about reading the table from the symbols. -/

namespace Defmt.Elf

open Parser Symbol

/-! ### First pass -/

def versionsOf (l : List ElfSymbol) : List (List Char) := l.filterMap (fun s => s.name.bind tryGetVersion)
def encodingsOf (l : List ElfSymbol) : List (List Char) := l.filterMap (fun s => s.name.bind tryGetEncoding)

theorem setOnce_ok {e : ElfError} {old new r : Option (List Char)} :
    setOnce e old new = .ok r ↔ (old.toList ++ new.toList).length ≤ 1 ∧ r = (old.toList ++ new.toList).head? := by
  unfold setOnce
  cases new <;> cases old <;> simp [eq_comm]

theorem length_head (a b : List (List Char)) (h : a.length ≤ 1) : a.head?.toList ++ b = a ++ b := by
  match a, h with
  | [], _ => rfl
  | [x], _ => rfl

theorem firstPass_ok {l : List ElfSymbol} {v e v' e' : Option (List Char)} :
    firstPass l v e = .ok (v', e') ↔
      (v.toList ++ versionsOf l).length ≤ 1 ∧ (e.toList ++ encodingsOf l).length ≤ 1 ∧
      v' = (v.toList ++ versionsOf l).head? ∧ e' = (e.toList ++ encodingsOf l).head? := by
  induction l generalizing v e with
  | nil =>
    simp only [firstPass, versionsOf, encodingsOf, List.filterMap_nil, List.append_nil, Except.ok.injEq, Prod.mk.injEq]
    cases v <;> cases e <;> simp [eq_comm]
  | cons s l ih =>
    unfold firstPass
    cases hn : s.name with
    | none =>
      simp only
      rw [ih]
      simp [versionsOf, encodingsOf, hn]
    | some name =>
      simp only
      have hv : versionsOf (s :: l) = (tryGetVersion name).toList ++ versionsOf l := by
        simp only [versionsOf, List.filterMap_cons, hn, Option.bind_some]
        cases tryGetVersion name <;> rfl
      have he : encodingsOf (s :: l) = (tryGetEncoding name).toList ++ encodingsOf l := by
        simp only [encodingsOf, List.filterMap_cons, hn, Option.bind_some]
        cases tryGetEncoding name <;> rfl
      rw [hv, he, ← List.append_assoc, ← List.append_assoc]
      cases h1 : setOnce .multipleVersions v (tryGetVersion name) with
      | error x =>
        simp only [reduceCtorEq, false_iff]
        rintro ⟨hl, -⟩
        have hle : (v.toList ++ (tryGetVersion name).toList).length ≤ 1 := by
          simp only [List.length_append] at hl ⊢; omega
        rw [setOnce_ok.mpr ⟨hle, rfl⟩] at h1
        cases h1
      | ok v1 =>
        obtain ⟨hle1, rfl⟩ := setOnce_ok.mp h1
        simp only
        cases h2 : setOnce .multipleEncodings e (tryGetEncoding name) with
        | error x =>
          simp only [reduceCtorEq, false_iff]
          rintro ⟨-, hl, -⟩
          have hle : (e.toList ++ (tryGetEncoding name).toList).length ≤ 1 := by
            simp only [List.length_append] at hl ⊢; omega
          rw [setOnce_ok.mpr ⟨hle, rfl⟩] at h2
          cases h2
        | ok e1 =>
          obtain ⟨hle2, rfl⟩ := setOnce_ok.mp h2
          simp only
          rw [ih, length_head _ _ hle1, length_head _ _ hle2]

/-! ### Second pass -/

def okItem : Outcome ElfError Item → Option Item
  | .ok i => some i
  | _ => none

def itemsOf (data : Option (List UInt8)) (l : List ElfSymbol) : List Item := l.filterMap (fun s => okItem (symbolItem data s))

def Item.stamp? : Item → Option TableEntry
  | .timestamp e => some e
  | _ => none

def Item.flag? (key : BitflagsKey) : Item → Option (List Char × Nat × Nat)
  | .flag k n i v => if key = k then some (n, i, v) else none
  | _ => none

def Item.entry? (a : Nat) : Item → Option TableEntry
  | .entry b e => if a = b then some e else none
  | _ => none

/-- The state after the items, given the state before. -/
def after (p : Pass) (items : List Item) : Pass where
  map := fun a => match (items.filterMap (Item.entry? a)).getLast? with
    | some e => some e
    | none => p.map a
  flags := fun k => p.flags k ++ items.filterMap (Item.flag? k)
  timestamp := (p.timestamp.toList ++ items.filterMap Item.stamp?).head?

theorem after_cons (p : Pass) (i : Item) (items : List Item) (p1 : Pass) (h : addItem p i = .ok p1) :
    after p1 items = after p (i :: items) := by
  cases i with
  | skip =>
    cases h
    simp [after, Item.entry?, Item.flag?, Item.stamp?, List.filterMap_cons]
  | timestamp e =>
    cases ht : p.timestamp with
    | some x => simp only [addItem, ht] at h; cases h
    | none =>
      simp only [addItem, ht] at h
      cases h
      simp [after, Item.entry?, Item.flag?, Item.stamp?, List.filterMap_cons, ht]
  | flag key n ix v =>
    cases h
    simp only [after, List.filterMap_cons, Item.entry?, Item.stamp?, Pass.mk.injEq, true_and, and_true]
    funext k
    by_cases hk : k = key
    · simp [Item.flag?, hk]
    · simp [Item.flag?, hk]
  | entry b e =>
    cases h
    simp only [after, List.filterMap_cons, Item.flag?, Item.stamp?, Pass.mk.injEq, and_true]
    funext a
    by_cases ha : a = b
    · subst ha
      simp only [Item.entry?, if_true]
      cases hl : (items.filterMap (Item.entry? a)).getLast? with
      | some x => rw [List.getLast?_cons, hl]; rfl
      | none => rw [List.getLast?_cons, hl]; rfl
    · simp only [Item.entry?, ha, if_false]

theorem secondPass_ok {data : Option (List UInt8)} {l : List ElfSymbol} {p p' : Pass} :
    secondPass data l p = .ok p' ↔
      (∀ s ∈ l, ∃ i, symbolItem data s = .ok i) ∧
      (p.timestamp.toList ++ (itemsOf data l).filterMap Item.stamp?).length ≤ 1 ∧
      p' = after p (itemsOf data l) := by
  induction l generalizing p with
  | nil =>
    simp only [secondPass, itemsOf, List.filterMap_nil, List.append_nil, after, List.getLast?_nil]
    cases p with
    | mk m f t => cases t <;> simp [eq_comm]
  | cons s l ih =>
    unfold secondPass
    cases hs : symbolItem data s with
    | err e =>
      simp only [reduceCtorEq, false_iff]
      rintro ⟨h, -⟩
      obtain ⟨i, hi⟩ := h s (by simp)
      rw [hs] at hi; cases hi
    | panic =>
      simp only [reduceCtorEq, false_iff]
      rintro ⟨h, -⟩
      obtain ⟨i, hi⟩ := h s (by simp)
      rw [hs] at hi; cases hi
    | ok i =>
      simp only
      have hitems : itemsOf data (s :: l) = i :: itemsOf data l := by simp [itemsOf, hs, okItem]
      have hall : (∀ x ∈ s :: l, ∃ i, symbolItem data x = .ok i) ↔ ∀ x ∈ l, ∃ i, symbolItem data x = .ok i :=
        ⟨fun h x hx => h x (List.mem_cons_of_mem _ hx), fun h x hx => by
          rcases List.mem_cons.mp hx with rfl | hx
          · exact ⟨i, hs⟩
          · exact h x hx⟩
      rw [hall, hitems]
      cases ha : addItem p i with
      | error e =>
        simp only [reduceCtorEq, false_iff]
        rintro ⟨-, hlen, -⟩
        cases i with
        | skip => cases ha
        | flag _ _ _ _ => cases ha
        | entry _ _ => cases ha
        | timestamp x =>
          cases ht : p.timestamp with
          | none => simp only [addItem, ht] at ha; cases ha
          | some y =>
            rw [ht] at hlen
            simp only [Option.toList_some, List.filterMap_cons, Item.stamp?, List.cons_append, List.nil_append,
              List.length_cons] at hlen
            omega
      | ok p1 =>
        simp only
        rw [ih, after_cons p i _ p1 ha]
        have hst : p1.timestamp.toList ++ (itemsOf data l).filterMap Item.stamp? =
            p.timestamp.toList ++ (i :: itemsOf data l).filterMap Item.stamp? := by
          cases i with
          | skip => cases ha; simp [List.filterMap_cons, Item.stamp?]
          | flag _ _ _ _ => cases ha; simp [List.filterMap_cons, Item.stamp?]
          | entry _ _ => cases ha; simp [List.filterMap_cons, Item.stamp?]
          | timestamp x =>
            cases ht : p.timestamp with
            | none => simp only [addItem, ht] at ha; cases ha; simp [List.filterMap_cons, Item.stamp?, ht]
            | some y => simp only [addItem, ht] at ha; cases ha
        rw [hst]

/-! ### The whole -/

def emptyPass : Pass := { map := fun _ => none, flags := fun _ => [], timestamp := none }

/-- The table of a file. -/
def tableOf (data : Option (List UInt8)) (l : List ElfSymbol) (encoding : Encoding) : FullTable where
  timestamp := ((itemsOf data l).filterMap Item.stamp?).head?
  entries := fun a => ((itemsOf data l).filterMap (Item.entry? a)).getLast?
  bitflags := fun k => if (itemsOf data l).filterMap (Item.flag? k) = [] then none
    else some (sortFlags ((itemsOf data l).filterMap (Item.flag? k)))
  encoding := encoding

theorem after_empty (items : List Item) : after emptyPass items =
    { map := fun a => (items.filterMap (Item.entry? a)).getLast?, flags := fun k => items.filterMap (Item.flag? k),
      timestamp := (items.filterMap Item.stamp?).head? } := by
  simp only [after, emptyPass, List.nil_append, Option.toList_none, Pass.mk.injEq, and_true]
  funext a
  cases (items.filterMap (Item.entry? a)).getLast? <;> rfl

theorem parseImpl_some {f : ElfFile} {check : Bool} {t : FullTable} :
    parseImpl f check = .ok (some t) ↔
      ∃ data v e enc, f.defmtSection = some data ∧ versionsOf f.symbols = [v] ∧ encodingsOf f.symbols = [e] ∧
        (check = true → v ∈ supportedVersions) ∧ Encoding.fromStr e = some enc ∧
        (∀ s ∈ f.symbols, ∃ i, symbolItem data s = .ok i) ∧
        ((itemsOf data f.symbols).filterMap Item.stamp?).length ≤ 1 ∧
        t = tableOf data f.symbols enc := by
  have hone : ∀ {l : List (List Char)} {v}, l.length ≤ 1 → l.head? = some v → l = [v] := by
    intro l v h1 h2
    match l, h1 with
    | [], _ => cases h2
    | [x], _ => simpa using h2
  constructor
  · intro h
    unfold parseImpl at h
    cases h1 : firstPass f.symbols none none with
    | error e => rw [h1] at h; cases h
    | ok x =>
      obtain ⟨v', e'⟩ := x
      rw [h1] at h
      simp only at h
      obtain ⟨a1, a2, a3, a4⟩ := firstPass_ok.mp h1
      simp only [Option.toList_none, List.nil_append] at a1 a2 a3 a4
      cases hd : f.defmtSection with
      | none => rw [hd] at h; cases hv : v' <;> (rw [hv] at h; cases h)
      | some data =>
        rw [hd] at h
        cases hv : v' with
        | none => rw [hv] at h; cases h
        | some v =>
          rw [hv] at h
          simp only at h
          split at h
          · cases h
          · rename_i hc
            cases he : e' with
            | none => rw [he] at h; cases h
            | some e =>
              rw [he] at h
              simp only at h
              cases hf : Encoding.fromStr e with
              | none => rw [hf] at h; cases h
              | some enc =>
                rw [hf] at h
                simp only at h
                cases hp : secondPass data f.symbols emptyPass with
                | err x => unfold emptyPass at hp; rw [hp] at h; cases h
                | panic => unfold emptyPass at hp; rw [hp] at h; cases h
                | ok p =>
                  obtain ⟨b1, b2, rfl⟩ := secondPass_ok.mp hp
                  unfold emptyPass at hp
                  rw [hp] at h
                  simp only [Outcome.ok.injEq, Option.some.injEq] at h
                  refine ⟨data, v, e, enc, rfl, hone a1 (by rw [← a3, hv]), hone a2 (by rw [← a4, he]), ?_, hf, b1, ?_, ?_⟩
                  · intro hck
                    rw [hck] at hc
                    simpa using hc
                  · simpa [emptyPass] using b2
                  · rw [← h]
                    have := after_empty (itemsOf data f.symbols)
                    unfold emptyPass at this
                    rw [this]
                    rfl
  · rintro ⟨data, v, e, enc, hd, hv, he, hc, hf, hall, hst, rfl⟩
    have h1 : firstPass f.symbols none none = .ok (some v, some e) := by
      rw [firstPass_ok]
      simp [hv, he]
    have hp : secondPass data f.symbols emptyPass = .ok (after emptyPass (itemsOf data f.symbols)) := by
      rw [secondPass_ok]
      exact ⟨hall, by simpa [emptyPass] using hst, rfl⟩
    unfold parseImpl
    rw [h1]
    simp only
    rw [hd]
    simp only
    rw [if_neg]
    · rw [hf]
      simp only
      have := after_empty (itemsOf data f.symbols)
      unfold emptyPass at hp this
      rw [hp]
      simp only
      rw [this]
      rfl
    · cases check with
      | false => simp
      | true => have := hc rfl; simpa using this

theorem parseImpl_none {f : ElfFile} {check : Bool} :
    parseImpl f check = .ok none ↔
      f.defmtSection = none ∧ versionsOf f.symbols = [] ∧ (encodingsOf f.symbols).length ≤ 1 := by
  constructor
  · intro h
    unfold parseImpl at h
    cases h1 : firstPass f.symbols none none with
    | error e => rw [h1] at h; cases h
    | ok x =>
      obtain ⟨v', e'⟩ := x
      rw [h1] at h
      simp only at h
      obtain ⟨a1, a2, a3, a4⟩ := firstPass_ok.mp h1
      simp only [Option.toList_none, List.nil_append] at a1 a2 a3 a4
      cases hd : f.defmtSection with
      | none =>
        rw [hd] at h
        cases hv : v' with
        | none =>
          refine ⟨rfl, ?_, a2⟩
          rw [hv] at a3
          cases hl : versionsOf f.symbols with
          | nil => rfl
          | cons a b => rw [hl] at a3; cases a3
        | some v => rw [hv] at h; cases h
      | some data =>
        rw [hd] at h
        cases hv : v' with
        | none => rw [hv] at h; cases h
        | some v =>
          rw [hv] at h
          simp only at h
          split at h
          · cases h
          · cases he : e' with
            | none => rw [he] at h; cases h
            | some e =>
              rw [he] at h
              simp only at h
              cases hf : Encoding.fromStr e with
              | none => rw [hf] at h; cases h
              | some enc =>
                rw [hf] at h
                simp only at h
                split at h <;> cases h
  · rintro ⟨hd, hv, he⟩
    have h1 : firstPass f.symbols none none = .ok (none, (encodingsOf f.symbols).head?) := by
      rw [firstPass_ok]
      simp [hv, he]
    unfold parseImpl
    rw [h1]
    simp only
    rw [hd]

/-! ### Order of the symbols -/

theorem itemsOf_perm {data : Option (List UInt8)} {l l' : List ElfSymbol} (h : l.Perm l') :
    (itemsOf data l).Perm (itemsOf data l') := h.filterMap _

theorem getLast_of_all_eq {l l' : List TableEntry} (h : l.Perm l') (heq : ∀ a ∈ l, ∀ b ∈ l, a = b) :
    l.getLast? = l'.getLast? := by
  cases hl : l.getLast? with
  | none =>
    have : l = [] := List.getLast?_eq_none_iff.mp hl
    rw [this] at h
    rw [List.nil_perm.mp h]; rfl
  | some a =>
    cases hl' : l'.getLast? with
    | none =>
      have : l' = [] := List.getLast?_eq_none_iff.mp hl'
      rw [this] at h
      rw [List.perm_nil.mp h] at hl
      cases hl
    | some b =>
      have ha := List.mem_of_getLast? hl
      have hb := h.symm.subset (List.mem_of_getLast? hl')
      rw [heq a ha b hb]

theorem sortFlags_perm {l l' : List (List Char × Nat × Nat)} (h : l.Perm l')
    (heq : ∀ a ∈ l, ∀ b ∈ l, a.2.1 = b.2.1 → a = b) : sortFlags l = sortFlags l' := by
  unfold sortFlags
  congr 1
  have htrans : ∀ (a b c : List Char × Nat × Nat), decide (a.2.1 ≤ b.2.1) = true → decide (b.2.1 ≤ c.2.1) = true →
      decide (a.2.1 ≤ c.2.1) = true := by
    intro a b c h1 h2
    simp only [decide_eq_true_eq] at *
    omega
  have htotal : ∀ (a b : List Char × Nat × Nat), (decide (a.2.1 ≤ b.2.1) || decide (b.2.1 ≤ a.2.1)) = true := by
    intro a b
    simp only [Bool.or_eq_true, decide_eq_true_eq]
    omega
  refine List.Perm.eq_of_pairwise (le := fun a b => decide (a.2.1 ≤ b.2.1) = true) ?_
    (List.pairwise_mergeSort htrans htotal l) (List.pairwise_mergeSort htrans htotal l')
    ((List.mergeSort_perm l _).trans (h.trans (List.mergeSort_perm l' _).symm))
  intro a b ha hb h1 h2
  rw [List.mem_mergeSort] at ha hb
  simp only [decide_eq_true_eq] at h1 h2
  exact heq a ha b (h.symm.subset hb) (by omega)

theorem mem_itemsOf {data : Option (List UInt8)} {l : List ElfSymbol} {i : Item} (h : i ∈ itemsOf data l) :
    ∃ s ∈ l, symbolItem data s = .ok i := by
  unfold itemsOf at h
  obtain ⟨s, hs, hi⟩ := List.mem_filterMap.mp h
  refine ⟨s, hs, ?_⟩
  cases hx : symbolItem data s with
  | ok j => rw [hx] at hi; simp only [okItem, Option.some.injEq] at hi; rw [hi]
  | err e => rw [hx] at hi; cases hi
  | panic => rw [hx] at hi; cases hi

theorem mem_itemsOf_of {data : Option (List UInt8)} {l : List ElfSymbol} {s : ElfSymbol} {i : Item} (hs : s ∈ l)
    (h : symbolItem data s = .ok i) : i ∈ itemsOf data l :=
  List.mem_filterMap.mpr ⟨s, hs, by rw [h]; rfl⟩

/-- Where an entry comes from. -/
theorem symbolItem_entry {data : Option (List UInt8)} {s : ElfSymbol} {a : Nat} {e : TableEntry}
    (h : symbolItem data s = .ok (.entry a e)) :
    ∃ h tag, s.name = some e.rawSymbol ∧ s.inDefmt = true ∧ s.address = a ∧ demangle e.rawSymbol = some h ∧
      h.knownTag = some tag ∧ e.string = ⟨tag, h.data⟩ ∧ tag ≠ .timestamp ∧ tag ≠ .bitflagsValue := by
  unfold symbolItem at h
  cases hn : s.name with
  | none => rw [hn] at h; cases h
  | some name =>
    rw [hn] at h
    simp only at h
    split at h
    · cases h
    split at h
    · cases h
    rename_i hin
    cases hm : demangle name with
    | none => rw [hm] at h; cases h
    | some hs =>
      rw [hm] at h
      simp only at h
      have hin' : s.inDefmt = true := by simpa using hin
      cases ht : hs.knownTag with
      | none => rw [ht] at h; cases h
      | some tag =>
        rw [ht] at h
        have hflag : ∀ {r}, flagItem data s hs = .ok r → ∃ k n i v, r = .flag k n i v := by
          intro r hr
          unfold flagItem at hr
          repeat' split at hr
          all_goals first
            | cases hr; exact ⟨_, _, _, _, rfl⟩
            | cases hr
        cases tag with
        | timestamp => cases h
        | bitflagsValue => obtain ⟨k, n, i, v, hr⟩ := hflag h; cases hr
        | _ => cases h; exact ⟨hs, _, rfl, hin', rfl, hm, ht, rfl, by decide, by decide⟩

theorem symbolItem_stamp {data : Option (List UInt8)} {s : ElfSymbol} {e : TableEntry}
    (h : symbolItem data s = .ok (.timestamp e)) :
    ∃ h, s.name = some e.rawSymbol ∧ s.inDefmt = true ∧ demangle e.rawSymbol = some h ∧
      h.knownTag = some .timestamp ∧ e.string = ⟨.timestamp, h.data⟩ := by
  unfold symbolItem at h
  cases hn : s.name with
  | none => rw [hn] at h; cases h
  | some name =>
    rw [hn] at h
    simp only at h
    split at h
    · cases h
    split at h
    · cases h
    rename_i hin
    cases hm : demangle name with
    | none => rw [hm] at h; cases h
    | some hs =>
      rw [hm] at h
      simp only at h
      have hin' : s.inDefmt = true := by simpa using hin
      cases ht : hs.knownTag with
      | none => rw [ht] at h; cases h
      | some tag =>
        rw [ht] at h
        have hflag : ∀ {r}, flagItem data s hs = .ok r → ∃ k n i v, r = .flag k n i v := by
          intro r hr
          unfold flagItem at hr
          repeat' split at hr
          all_goals first
            | cases hr; exact ⟨_, _, _, _, rfl⟩
            | cases hr
        cases tag with
        | timestamp => cases h; exact ⟨hs, rfl, hin', hm, ht, rfl⟩
        | bitflagsValue => obtain ⟨k, n, i, v, hr⟩ := hflag h; cases hr
        | _ => cases h

/-! ### Symbols made by the macros -/

theorem isSkipped_mangle (m : MacroSymbol) : isSkipped m.mangle = false := by
  unfold MacroSymbol.mangle
  simp [isSkipped, hasPrefix, stripPrefix]

theorem tryGetVersion_mangle (m : MacroSymbol) : tryGetVersion m.mangle = none := by
  unfold MacroSymbol.mangle
  simp [tryGetVersion, hasPrefix, stripPrefix, quotedVersionPrefix, versionPrefix]

theorem tryGetEncoding_mangle (m : MacroSymbol) : tryGetEncoding m.mangle = none := by
  unfold MacroSymbol.mangle
  simp [tryGetEncoding, stripPrefix, encodingPrefix]

theorem stripPrefix_iff {p s r : List Char} : stripPrefix p s = some r ↔ s = p ++ r := by
  induction p generalizing s with
  | nil => simp [stripPrefix, eq_comm]
  | cons c p ih =>
    cases s with
    | nil => simp [stripPrefix]
    | cons d s =>
      unfold stripPrefix
      by_cases h : c = d
      · rw [if_pos h, ih, h]; simp
      · rw [if_neg h]
        simp only [reduceCtorEq, List.cons_append, List.cons.injEq, false_iff, not_and]
        exact fun hd => absurd hd.symm h

theorem hasPrefix_iff {p s : List Char} : hasPrefix p s = true ↔ ∃ r, s = p ++ r := by
  unfold hasPrefix
  constructor
  · intro h
    cases hs : stripPrefix p s with
    | none => rw [hs] at h; cases h
    | some r => exact ⟨r, stripPrefix_iff.mp hs⟩
  · rintro ⟨r, h⟩
    rw [stripPrefix_iff.mpr h]; rfl

theorem isVersionSymbol_iff (s : ElfSymbol) : IsVersionSymbol s ↔ (s.name.bind tryGetVersion).isSome = true := by
  unfold IsVersionSymbol
  cases hn : s.name with
  | none => simp
  | some name =>
    simp only [Option.some.injEq, Option.bind_some]
    unfold tryGetVersion
    constructor
    · rintro ⟨rest, h | h⟩
      · have : hasPrefix versionPrefix name = true := hasPrefix_iff.mpr ⟨rest, h⟩
        simp [this]
      · have : hasPrefix quotedVersionPrefix name = true := hasPrefix_iff.mpr ⟨rest, h⟩
        simp [this]
    · intro h
      split at h
      · rename_i hp
        simp only [Bool.or_eq_true] at hp
        rcases hp with hp | hp
        · obtain ⟨r, hr⟩ := hasPrefix_iff.mp hp; exact ⟨r, .inr hr⟩
        · obtain ⟨r, hr⟩ := hasPrefix_iff.mp hp; exact ⟨r, .inl hr⟩
      · cases h

theorem isEncodingSymbol_iff (s : ElfSymbol) : IsEncodingSymbol s ↔ (s.name.bind tryGetEncoding).isSome = true := by
  unfold IsEncodingSymbol
  cases hn : s.name with
  | none => simp
  | some name =>
    simp only [Option.some.injEq, Option.bind_some]
    exact hasPrefix_iff.symm

/-- Counting by position and counting the results. -/
theorem noTwo_iff {P : ElfSymbol → Prop} {α : Type} {g : ElfSymbol → Option α} (hP : ∀ s, P s ↔ (g s).isSome = true)
    (l : List ElfSymbol) : NoTwo P l ↔ (l.filterMap g).length ≤ 1 := by
  unfold NoTwo
  induction l with
  | nil => simp
  | cons s l ih =>
    rw [List.pairwise_cons, ih]
    cases hg : g s with
    | none =>
      have : ¬ P s := by rw [hP, hg]; simp
      simp [List.filterMap_cons, hg, this]
    | some x =>
      have hps : P s := by rw [hP, hg]; rfl
      simp only [List.filterMap_cons, hg, List.length_cons]
      constructor
      · rintro ⟨h1, -⟩
        have : l.filterMap g = [] := by
          rw [List.filterMap_eq_nil_iff]
          intro a ha
          cases hga : g a with
          | none => rfl
          | some y => exact absurd ⟨hps, (hP a).mpr (by rw [hga]; rfl)⟩ (h1 a ha)
        rw [this]; simp
      · intro h
        have hnil : l.filterMap g = [] := List.length_eq_zero_iff.mp (by omega)
        refine ⟨fun a ha hpa => ?_, by rw [hnil]; simp⟩
        have := List.filterMap_eq_nil_iff.mp hnil a ha
        have h2 := (hP a).mp hpa.2
        rw [this] at h2; cases h2

theorem exists_iff {P : ElfSymbol → Prop} {α : Type} {g : ElfSymbol → Option α} (hP : ∀ s, P s ↔ (g s).isSome = true)
    (l : List ElfSymbol) : (∃ s ∈ l, P s) ↔ l.filterMap g ≠ [] := by
  constructor
  · rintro ⟨s, hs, hp⟩ hnil
    have := List.filterMap_eq_nil_iff.mp hnil s hs
    rw [hP, this] at hp; cases hp
  · intro h
    cases hl : l.filterMap g with
    | nil => exact absurd hl h
    | cons a b =>
      obtain ⟨s, hs, hg⟩ := List.mem_filterMap.mp (show a ∈ l.filterMap g by rw [hl]; simp)
      exact ⟨s, hs, (hP s).mpr (by rw [hg]; rfl)⟩

theorem exactlyOne_iff {P : ElfSymbol → Prop} {α : Type} {g : ElfSymbol → Option α} (hP : ∀ s, P s ↔ (g s).isSome = true)
    (l : List ElfSymbol) : ExactlyOne P l ↔ ∃ x, l.filterMap g = [x] := by
  unfold ExactlyOne
  rw [noTwo_iff hP, exists_iff hP]
  constructor
  · rintro ⟨h1, h2⟩
    match hl : l.filterMap g, h1, h2 with
    | [], _, h2 => exact absurd rfl h2
    | [x], _, _ => exact ⟨x, rfl⟩
  · rintro ⟨x, h⟩
    rw [h]; simp

theorem knownTag_tagName (tag : Tag) (h : HostSymbol) : h.knownTag = some tag ↔ h.tag = tagName tag := by
  unfold HostSymbol.knownTag
  constructor
  · intro hl
    simp only [List.lookup] at hl
    repeat' split at hl
    all_goals first
      | (cases hl; rename_i he; simpa [tagName] using he)
      | cases hl
  · intro hl
    rw [hl]
    cases tag <;> rfl

theorem symbolItem_made {data : Option (List UInt8)} {s : ElfSymbol} {m : MacroSymbol} (h : MadeBy m s) {tag : Tag}
    (ht : m.tag = tagName tag) (h1 : tag ≠ .timestamp) (h2 : tag ≠ .bitflagsValue) :
    symbolItem data s = .ok (.entry s.address ⟨⟨tag, m.data⟩, m.mangle⟩) := by
  unfold symbolItem
  rw [h.1]
  simp only
  rw [isSkipped_mangle, h.2]
  simp only [Bool.false_eq_true, if_false, Bool.not_true]
  rw [demangle_mangle]
  simp only
  rw [(knownTag_tagName tag _).mpr ht]
  cases tag <;> first
    | rfl
    | exact absurd rfl h1
    | exact absurd rfl h2

theorem symbolItem_made_stamp {data : Option (List UInt8)} {s : ElfSymbol} {m : MacroSymbol} (h : MadeBy m s)
    (ht : m.tag = c!"defmt_timestamp") : symbolItem data s = .ok (.timestamp ⟨⟨.timestamp, m.data⟩, m.mangle⟩) := by
  unfold symbolItem
  rw [h.1]
  simp only
  rw [isSkipped_mangle, h.2]
  simp only [Bool.false_eq_true, if_false, Bool.not_true]
  rw [demangle_mangle]
  simp only
  rw [(knownTag_tagName .timestamp _).mpr ht]

end Defmt.Elf
