import Verif.Spec.Dwarf
/-! Lemmas for C85 and C86: the walk with its depth and its stack of names visits the entries with the namespaces they are in. -/

namespace Defmt.Dwarf
open Parser HostLog

/-! ### attributes -/

theorem collect_name (attrs : List (AttrName × AttrValue)) (f : Found) (hn : (attrs.map Prod.fst).Nodup) (s : Option (List Char)) :
    (collect attrs f).name = some s ↔ (.name, .str s) ∈ attrs ∨ ((∀ t, (AttrName.name, AttrValue.str t) ∉ attrs) ∧ f.name = some s) := by
  fun_induction collect attrs f <;> simp_all
  all_goals grind

theorem collect_linkage (attrs : List (AttrName × AttrValue)) (f : Found) (hn : (attrs.map Prod.fst).Nodup) (s : Option (List Char)) :
    (collect attrs f).linkageName = some s ↔
      (.linkageName, .str s) ∈ attrs ∨ ((∀ t, (AttrName.linkageName, AttrValue.str t) ∉ attrs) ∧ f.linkageName = some s) := by
  fun_induction collect attrs f <;> simp_all
  all_goals grind

theorem collect_file (attrs : List (AttrName × AttrValue)) (f : Found) (hn : (attrs.map Prod.fst).Nodup) (i : Nat) :
    (collect attrs f).declFile = some i ↔
      (.declFile, .fileIndex i) ∈ attrs ∨ ((∀ t, (AttrName.declFile, AttrValue.fileIndex t) ∉ attrs) ∧ f.declFile = some i) := by
  fun_induction collect attrs f <;> simp_all
  all_goals grind

theorem collect_line (attrs : List (AttrName × AttrValue)) (f : Found) (hn : (attrs.map Prod.fst).Nodup) (i : Nat) :
    (collect attrs f).declLine = some i ↔
      (.declLine, .udata i) ∈ attrs ∨ ((∀ t, (AttrName.declLine, AttrValue.udata t) ∉ attrs) ∧ f.declLine = some i) := by
  fun_induction collect attrs f <;> simp_all
  all_goals grind

theorem collect_location (attrs : List (AttrName × AttrValue)) (f : Found) (hn : (attrs.map Prod.fst).Nodup) (i : List (Option Nat)) :
    (collect attrs f).location = some i ↔
      (.location, .exprloc i) ∈ attrs ∨ ((∀ t, (AttrName.location, AttrValue.exprloc t) ∉ attrs) ∧ f.location = some i) := by
  fun_induction collect attrs f <;> simp_all
  all_goals grind

theorem exprlocToAddress_iff (ops : List (Option Nat)) (a : Nat) : exprlocToAddress ops = .ok a ↔ AddressIs ops a := by
  fun_induction exprlocToAddress ops with
  | case1 => simp [AddressIs]
  | case2 b rest =>
    constructor
    · rintro ⟨⟩
      exact ⟨0, rfl, by omega⟩
    · rintro ⟨n, h1, h2⟩
      cases n with
      | zero => simp at h1; simp [h1]
      | succ n => have := h2 0 (by omega); simp at this
  | case3 rest ih =>
    rw [ih]
    constructor
    · rintro ⟨n, h1, h2⟩
      refine ⟨n + 1, by simpa using h1, fun m hm => ?_⟩
      cases m with
      | zero => rfl
      | succ m => simpa using h2 m (by omega)
    · rintro ⟨n, h1, h2⟩
      cases n with
      | zero => simp at h1
      | succ n => exact ⟨n, by simpa using h1, fun m hm => by simpa using h2 (m + 1) (by omega)⟩

theorem joinColons_eq (names : List (List Char)) : joinColons names = modulePath names := by
  fun_induction joinColons names with
  | case1 => rfl
  | case2 s => simp [modulePath]
  | case3 s rest h ih =>
    rw [ih]
    cases rest with
    | nil => exact absurd rfl h
    | cons a b => simp [modulePath, List.intercalate, List.intersperse]

/-! ### one variable -/

/-- What a variable adds to the locations. -/
def effect (u : DwarfUnit) (symbols segments : List (List Char)) (die : Die) : Except DwarfError (Option (Nat × Loc)) :=
  let f := collect die.attrs {}
  match f.name, f.linkageName, f.declFile, f.declLine, f.location with
  | some name, some linkageName, some fileIndex, some line, some loc =>
    match name with
    | none => .error .string
    | some name => match linkageName with
      | none => .error .string
      | some linkageName =>
        if name = c!"DEFMT_LOG_STATEMENT" then
          if symbols.any (· = linkageName) then
            match exprlocToAddress loc with
            | .error e => .error e
            | .ok address => match fileIndexToPath u fileIndex with
              | .error e => .error e
              | .ok file => .ok (some (address, ⟨file, line, joinColons segments⟩))
          else .ok none
        else .ok none
  | _, _, _, _, _ => .ok none

/-- Adding it. -/
def add (map : Locations) : Except DwarfError (Option (Nat × Loc)) → Except DwarfError Locations
  | .error e => .error e
  | .ok none => .ok map
  | .ok (some (a, loc)) => insert map a loc

theorem visitVariable_eq (u : DwarfUnit) (symbols segments : List (List Char)) (die : Die) (map : Locations) :
    visitVariable u symbols segments die map = add map (effect u symbols segments die) := by
  unfold visitVariable effect
  simp only
  generalize collect die.attrs {} = f
  obtain ⟨a, b, c, d, e⟩ := f
  cases c with
  | none => rfl
  | some c => cases d with
    | none => rfl
    | some d => cases a with
      | none => rfl
      | some a => cases b with
        | none => rfl
        | some b => cases e with
          | none => rfl
          | some e => cases c with
            | none => rfl
            | some c => cases d with
              | none => rfl
              | some d =>
                simp only
                split
                · split
                  · cases exprlocToAddress e with
                    | error => rfl
                    | ok => cases fileIndexToPath u a <;> rfl
                  · rfl
                · rfl

/-- The effect of a variable that has all attributes. -/
def effectFound (u : DwarfUnit) (symbols segments : List (List Char)) (name linkage : Option (List Char)) (i line : Nat)
    (ops : List (Option Nat)) : Except DwarfError (Option (Nat × Loc)) :=
  match name with
  | none => .error .string
  | some name => match linkage with
    | none => .error .string
    | some linkage =>
      if name = c!"DEFMT_LOG_STATEMENT" then
        if symbols.any (· = linkage) then
          match exprlocToAddress ops with
          | .error e => .error e
          | .ok address => match fileIndexToPath u i with
            | .error e => .error e
            | .ok file => .ok (some (address, ⟨file, line, joinColons segments⟩))
        else .ok none
      else .ok none

theorem effect_found {u : DwarfUnit} {symbols segments : List (List Char)} {die : Die} {name linkage : Option (List Char)}
    {i line : Nat} {ops : List (Option Nat)} (h1 : (collect die.attrs {}).name = some name)
    (h2 : (collect die.attrs {}).linkageName = some linkage) (h3 : (collect die.attrs {}).declFile = some i)
    (h4 : (collect die.attrs {}).declLine = some line) (h5 : (collect die.attrs {}).location = some ops) :
    effect u symbols segments die = effectFound u symbols segments name linkage i line ops := by
  unfold effect effectFound
  simp only [h1, h2, h3, h4, h5]

theorem effect_not_found {u : DwarfUnit} {symbols segments : List (List Char)} {die : Die}
    (h : ¬ ∃ name linkage i line ops, (collect die.attrs {}).name = some name ∧
      (collect die.attrs {}).linkageName = some linkage ∧ (collect die.attrs {}).declFile = some i ∧
      (collect die.attrs {}).declLine = some line ∧ (collect die.attrs {}).location = some ops) :
    effect u symbols segments die = .ok none := by
  unfold effect
  simp only
  split
  · rename_i a b c d e h1 h2 h3 h4 h5
    exact absurd ⟨a, b, c, d, e, h1, h2, h3, h4, h5⟩ h
  · rfl

theorem effect_iff {u : DwarfUnit} {symbols : List (List Char)} {o : Occurrence} (ht : o.die.tag = .variable)
    (hn : (o.die.attrs.map Prod.fst).Nodup) (a : Nat) (loc : Loc) :
    effect u symbols (o.path ++ o.closed) o.die = .ok (some (a, loc)) ↔
      Kept symbols (u, o) a loc.file loc.line ∧ loc.module = modulePath (o.path ++ o.closed) := by
  have c1 := collect_name o.die.attrs {} hn
  have c2 := collect_linkage o.die.attrs {} hn
  have c3 := collect_file o.die.attrs {} hn
  have c4 := collect_line o.die.attrs {} hn
  have c5 := collect_location o.die.attrs {} hn
  simp only [reduceCtorEq, and_false, or_false] at c1 c2 c3 c4 c5
  by_cases h : ∃ name linkage i line ops, (collect o.die.attrs {}).name = some name ∧
      (collect o.die.attrs {}).linkageName = some linkage ∧ (collect o.die.attrs {}).declFile = some i ∧
      (collect o.die.attrs {}).declLine = some line ∧ (collect o.die.attrs {}).location = some ops
  · obtain ⟨name, linkage, i, line, ops, h1, h2, h3, h4, h5⟩ := h
    rw [effect_found h1 h2 h3 h4 h5]
    unfold effectFound
    constructor
    · intro h
      cases name with
      | none => cases h
      | some name =>
        cases linkage with
        | none => cases h
        | some linkage =>
          simp only at h
          split at h
          · rename_i hname
            split at h
            · rename_i hsym
              split at h
              · cases h
              · rename_i address haddr
                split at h
                · cases h
                · rename_i file hfile
                  simp only [Except.ok.injEq, Option.some.injEq, Prod.mk.injEq] at h
                  obtain ⟨rfl, rfl⟩ := h
                  simp only [List.any_eq_true, decide_eq_true_eq] at hsym
                  obtain ⟨_, hsym, rfl⟩ := hsym
                  subst hname
                  refine ⟨⟨_, hsym, ht, (c1 _).mp h1, (c2 _).mp h2, ⟨ops, (c5 _).mp h5, (exprlocToAddress_iff _ _).mp haddr⟩,
                    ⟨i, (c3 _).mp h3, hfile⟩, (c4 _).mp h4⟩, joinColons_eq _⟩
            · cases h
          · cases h
    · rintro ⟨⟨symbol, hsym, hs⟩, hm⟩
      have e1 := ((c1 _).mpr hs.name).symm.trans h1
      have e2 := ((c2 _).mpr hs.symbol).symm.trans h2
      have e4 := ((c4 _).mpr hs.line).symm.trans h4
      obtain ⟨ops', hops, haddr⟩ := hs.address
      obtain ⟨i', hi, hfile⟩ := hs.file
      have e3 := ((c3 _).mpr hi).symm.trans h3
      have e5 := ((c5 _).mpr hops).symm.trans h5
      cases e1; cases e2; cases e3; cases e4; cases e5
      have hany : symbols.any (· = symbol) = true := by
        simp only [List.any_eq_true, decide_eq_true_eq]
        exact ⟨symbol, hsym, rfl⟩
      simp only [if_true, hany, (exprlocToAddress_iff _ _).mpr haddr, hfile, joinColons_eq, ← hm]
  · rw [effect_not_found h]
    constructor
    · intro h; cases h
    · rintro ⟨⟨symbol, hsym, hs⟩, hm⟩
      obtain ⟨ops, hops, haddr⟩ := hs.address
      obtain ⟨i, hi, hfile⟩ := hs.file
      exact absurd ⟨_, _, _, _, _, (c1 _).mpr hs.name, (c2 _).mpr hs.symbol, (c3 _).mpr hi, (c4 _).mpr hs.line, (c5 _).mpr hops⟩ h

theorem effect_ok {u : DwarfUnit} {symbols segments : List (List Char)} {d : Die} (ht : d.tag = .variable)
    (hn : (d.attrs.map Prod.fst).Nodup) :
    (∃ e, effect u symbols segments d = .ok e) ↔ VariableReadable symbols u d := by
  have c1 := collect_name d.attrs {} hn
  have c2 := collect_linkage d.attrs {} hn
  have c3 := collect_file d.attrs {} hn
  have c4 := collect_line d.attrs {} hn
  have c5 := collect_location d.attrs {} hn
  simp only [reduceCtorEq, and_false, or_false] at c1 c2 c3 c4 c5
  by_cases h : ∃ name linkage i line ops, (collect d.attrs {}).name = some name ∧
      (collect d.attrs {}).linkageName = some linkage ∧ (collect d.attrs {}).declFile = some i ∧
      (collect d.attrs {}).declLine = some line ∧ (collect d.attrs {}).location = some ops
  · obtain ⟨name, linkage, i, line, ops, h1, h2, h3, h4, h5⟩ := h
    rw [effect_found h1 h2 h3 h4 h5]
    unfold effectFound
    have hr : VariableReadable symbols u d ↔ ∃ n s, name = some n ∧ linkage = some s ∧
        (n = c!"DEFMT_LOG_STATEMENT" → s ∈ symbols → (∃ a, AddressIs ops a) ∧ ∃ file, fileIndexToPath u i = .ok file) := by
      constructor
      · intro h
        exact h ht name linkage i line ops ((c1 _).mp h1) ((c2 _).mp h2) ((c3 _).mp h3) ((c4 _).mp h4) ((c5 _).mp h5)
      · intro h _ name' linkage' i' line' ops' g1 g2 g3 g4 g5
        have e1 := ((c1 _).mpr g1).symm.trans h1
        have e2 := ((c2 _).mpr g2).symm.trans h2
        have e3 := ((c3 _).mpr g3).symm.trans h3
        have e5 := ((c5 _).mpr g5).symm.trans h5
        cases e1; cases e2; cases e3; cases e5
        exact h
    rw [hr]
    cases name with
    | none => simp
    | some name =>
      cases linkage with
      | none => simp
      | some linkage =>
        simp only [Option.some.injEq]
        have hany : symbols.any (· = linkage) = true ↔ linkage ∈ symbols := by
          simp
        constructor
        · rintro ⟨e, h⟩
          refine ⟨_, _, rfl, rfl, fun hname hsym => ?_⟩
          rw [if_pos hname, if_pos (hany.mpr hsym)] at h
          split at h
          · cases h
          · rename_i haddr
            split at h
            · cases h
            · rename_i hfile
              exact ⟨⟨_, (exprlocToAddress_iff _ _).mp haddr⟩, _, hfile⟩
        · rintro ⟨_, _, rfl, rfl, h⟩
          by_cases hname : name = c!"DEFMT_LOG_STATEMENT"
          · by_cases hsym : linkage ∈ symbols
            · obtain ⟨⟨a, ha⟩, file, hf⟩ := h hname hsym
              rw [if_pos hname, if_pos (hany.mpr hsym), (exprlocToAddress_iff _ _).mpr ha, hf]
              exact ⟨_, rfl⟩
            · rw [if_pos hname, if_neg (fun h => hsym (hany.mp h))]
              exact ⟨_, rfl⟩
          · rw [if_neg hname]
            exact ⟨_, rfl⟩
  · rw [effect_not_found h]
    refine ⟨fun _ _ name' linkage' i' line' ops' g1 g2 g3 g4 g5 => ?_, fun _ => ⟨_, rfl⟩⟩
    exact absurd ⟨_, _, _, _, _, (c1 _).mpr g1, (c2 _).mpr g2, (c3 _).mpr g3, (c4 _).mpr g4, (c5 _).mpr g5⟩ h

/-! ### the walk -/

/-- The walk with depths instead of changes of depth. -/
def visitAbs (u : DwarfUnit) (symbols : List (List Char)) : List (Nat × Die) → List (List Char) → Locations →
    Except DwarfError Locations
  | [], _, map => .ok map
  | (depth, die) :: rest, segments, map =>
    if die.tag = .namespace then
      match visitNamespace depth die.attrs segments with
      | .error e => .error e
      | .ok segments => visitAbs u symbols rest segments map
    else if die.tag = .variable then
      match visitVariable u symbols segments die map with
      | .error e => .error e
      | .ok map => visitAbs u symbols rest segments map
    else visitAbs u symbols rest segments map

theorem visitAbs_cons (u : DwarfUnit) (symbols : List (List Char)) (depth : Nat) (die : Die) (rest : List (Nat × Die))
    (segments : List (List Char)) (map : Locations) : visitAbs u symbols ((depth, die) :: rest) segments map =
    if die.tag = .namespace then
      match visitNamespace depth die.attrs segments with
      | .error e => .error e
      | .ok segments => visitAbs u symbols rest segments map
    else if die.tag = .variable then
      match visitVariable u symbols segments die map with
      | .error e => .error e
      | .ok map => visitAbs u symbols rest segments map
    else visitAbs u symbols rest segments map := rfl

theorem visit_deltas (u : DwarfUnit) (symbols : List (List Char)) (l : List (Nat × Die)) (prev : Nat) (segments : List (List Char))
    (map : Locations) : visit u symbols (deltas prev l) prev segments map = visitAbs u symbols l segments map := by
  induction l generalizing prev segments map with
  | nil => rfl
  | cons x rest ih =>
    obtain ⟨depth, die⟩ := x
    have hd : (prev : Int) + ((depth : Int) - (prev : Int)) = depth := by omega
    simp only [deltas, visit, visitAbs, hd, ih]
    split
    · cases visitNamespace depth die.attrs segments <;> rfl
    · split
      · cases visitVariable u symbols segments die map <;> rfl
      · rfl

/-- The effect of an entry that is not a namespace. -/
def occEffect (symbols : List (List Char)) (o : DwarfUnit × Occurrence) : Except DwarfError (Option (Nat × Loc)) :=
  if o.2.die.tag = .variable then effect o.1 symbols (o.2.path ++ o.2.closed) o.2.die else .ok none

/-- The effects, one after the other. -/
def addAll : List (Except DwarfError (Option (Nat × Loc))) → Locations → Except DwarfError Locations
  | [], map => .ok map
  | e :: rest, map => match add map e with
    | .error err => .error err
    | .ok map => addAll rest map

theorem addAll_append (l l' : List (Except DwarfError (Option (Nat × Loc)))) (map : Locations) :
    addAll (l ++ l') map = match addAll l map with
      | .error e => .error e
      | .ok map => addAll l' map := by
  induction l generalizing map with
  | nil => rfl
  | cons e rest ih =>
    simp only [List.cons_append, addAll]
    cases add map e with
    | error e => rfl
    | ok m => exact ih m

theorem popTo_path (path closed : List (List Char)) : popTo ((path.length + 1 : Nat) : Int) (path ++ closed) = path := by
  have : toUsize ((path.length + 1 : Nat) : Int) = path.length + 1 := by
    unfold toUsize
    rw [if_neg (by omega)]
    rfl
  unfold popTo
  rw [this]
  have h2 : (path ++ closed).length - ((path ++ closed).length + 1 - (path.length + 1)) = path.length := by
    rw [List.length_append]; omega
  rw [h2, List.take_left]

theorem visitNamespace_none (depth : Int) (attrs : List (AttrName × AttrValue)) (segments : List (List Char))
    (h : ∀ s, (AttrName.name, AttrValue.str s) ∉ attrs) : visitNamespace depth attrs segments = .ok segments := by
  fun_induction visitNamespace depth attrs segments with
  | case1 => rfl
  | case2 => exact absurd (List.mem_cons_self ..) (h _)
  | case3 => exact absurd (List.mem_cons_self ..) (h _)
  | case4 segs x rest hx ih => exact ih (fun s hs => h s (List.mem_cons_of_mem _ hs))

theorem visitNamespace_error (depth : Int) (attrs : List (AttrName × AttrValue)) (segments : List (List Char))
    (h : (AttrName.name, AttrValue.str none) ∈ attrs) : ∃ e, visitNamespace depth attrs segments = .error e := by
  fun_induction visitNamespace depth attrs segments with
  | case1 => simp at h
  | case2 => exact ⟨_, rfl⟩
  | case3 segs rest s ih => exact ih (by simpa using h)
  | case4 segs x rest hx ih =>
    rcases List.mem_cons.mp h with h | h
    · exact absurd h.symm (hx _)
    · exact ih h

theorem visitNamespace_some (depth : Int) (attrs : List (AttrName × AttrValue)) (segments : List (List Char)) (s : List Char)
    (hn : (attrs.map Prod.fst).Nodup) (h : (AttrName.name, AttrValue.str (some s)) ∈ attrs) :
    visitNamespace depth attrs segments = .ok (popTo depth segments ++ [s]) := by
  fun_induction visitNamespace depth attrs segments with
  | case1 => simp at h
  | case2 segs rest => simp_all
  | case3 segs rest s' ih =>
    simp only [List.map_cons, List.nodup_cons, List.mem_map, not_exists, not_and] at hn
    rcases List.mem_cons.mp h with h | h
    · cases h
      exact visitNamespace_none _ _ _ (fun t ht => hn.1 _ ht rfl)
    · exact absurd rfl (hn.1 _ h)
  | case4 segs x rest hx ih =>
    simp only [List.map_cons, List.nodup_cons] at hn
    rcases List.mem_cons.mp h with h | h
    · exact absurd h.symm (by intro h; exact hx _ h)
    · exact ih hn.2 h

theorem namespaceName_some {d : Die} {s : List Char} (h : d.namespaceName = some s) :
    d.tag = .namespace ∧ (AttrName.name, AttrValue.str (some s)) ∈ d.attrs := by
  unfold Die.namespaceName at h
  split at h
  · rename_i ht
    refine ⟨ht, ?_⟩
    obtain ⟨a, ha, hs⟩ := List.exists_of_findSome?_eq_some h
    split at hs
    · subst hs; exact ha
    · cases hs
  · cases h

theorem namespaceName_none {d : Die} (h : d.namespaceName = none) (ht : d.tag = .namespace) (s : List Char) :
    (AttrName.name, AttrValue.str (some s)) ∉ d.attrs := by
  intro hs
  unfold Die.namespaceName at h
  rw [ht] at h
  simp only at h
  have := List.findSome?_eq_none_iff.mp h _ hs
  simp at this

/-- The names of all namespaces can be read. -/
def Dies.NamesReadable : Dies → Prop
  | .nil => True
  | .cons d cs rest => NamespaceReadable d ∧ cs.NamesReadable ∧ rest.NamesReadable

/-- One entry that is not a namespace. -/
theorem visitAbs_other {u : DwarfUnit} {symbols : List (List Char)} {depth : Nat} {d : Die} {l : List (Nat × Die)}
    {path closed : List (List Char)} {map : Locations} (hd : d.namespaceName = none) (hr : NamespaceReadable d) :
    visitAbs u symbols ((depth, d) :: l) (path ++ closed) map =
      match add map (occEffect symbols (u, ⟨d, path, closed⟩)) with
      | .error e => .error e
      | .ok map => visitAbs u symbols l (path ++ closed) map := by
  rw [visitAbs_cons]
  unfold occEffect
  by_cases ht : d.tag = .namespace
  · rw [if_pos ht, if_neg (by simp [ht]), visitNamespace_none _ _ _ (fun s hs => ?_)]
    · rfl
    · cases s with
      | none => exact hr ht hs
      | some s => exact namespaceName_none hd ht s hs
  · rw [if_neg ht]
    by_cases ht' : d.tag = .variable
    · rw [if_pos ht', if_pos ht', visitVariable_eq]
    · rw [if_neg ht', if_neg ht']
      rfl

theorem visitAbs_noNamespace {u : DwarfUnit} {symbols : List (List Char)} (f : Dies) (hf : f.NoNamespace) (hr : f.NamesReadable)
    (depth : Nat) (l : List (Nat × Die)) (path closed : List (List Char)) (map : Locations) :
    visitAbs u symbols (flatten depth f ++ l) (path ++ closed) map =
      match addAll ((f.occurrences path closed).map (fun o => occEffect symbols (u, o))) map with
      | .error e => .error e
      | .ok map => visitAbs u symbols l (path ++ closed) map := by
  induction f generalizing depth l map with
  | nil => rfl
  | cons d cs rest ih1 ih2 =>
    obtain ⟨h1, h2, h3⟩ := hf
    obtain ⟨r1, r2, r3⟩ := hr
    unfold flatten Dies.occurrences
    rw [h1]
    simp only [List.cons_append, List.append_assoc, List.map_cons, List.map_append, addAll]
    rw [visitAbs_other h1 r1]
    cases add map (occEffect symbols (u, ⟨d, path, closed⟩)) with
    | error e => rfl
    | ok m =>
      simp only
      rw [ih1 h2 r2, addAll_append]
      cases addAll ((cs.occurrences path closed).map (fun o => occEffect symbols (u, o))) m with
      | error e => rfl
      | ok m => exact ih2 h3 r3 depth l m

theorem visitAbs_forest {u : DwarfUnit} {symbols : List (List Char)} (f : Dies) (hf : f.WellFormed) (hr : f.NamesReadable)
    (l : List (Nat × Die)) (path closed : List (List Char)) (map : Locations) :
    visitAbs u symbols (flatten (path.length + 1) f ++ l) (path ++ closed) map =
      match addAll ((f.occurrences path closed).map (fun o => occEffect symbols (u, o))) map with
      | .error e => .error e
      | .ok map => visitAbs u symbols l (path ++ (if f.lastNamespaces = [] then closed else f.lastNamespaces)) map := by
  induction f generalizing path closed l map with
  | nil => rfl
  | cons d cs rest ih1 ih2 =>
    obtain ⟨w1, w2, w3, w4⟩ := hf
    obtain ⟨r1, r2, r3⟩ := hr
    have e1 : ∀ path closed, Dies.occurrences path closed (.cons d cs rest) = match d.namespaceName with
      | some s => cs.occurrences (path ++ [s]) [] ++ rest.occurrences path (s :: cs.lastNamespaces)
      | none => ⟨d, path, closed⟩ :: (cs.occurrences path closed ++ rest.occurrences path closed) := fun _ _ => rfl
    have e2 : Dies.lastNamespaces (.cons d cs rest) = match rest.lastNamespaces with
      | [] => match d.namespaceName with
        | some s => s :: cs.lastNamespaces
        | none => []
      | names => names := rfl
    rw [e1, e2]
    unfold flatten
    cases hd : d.namespaceName with
    | some s =>
      obtain ⟨ht, hs⟩ := namespaceName_some hd
      simp only [List.cons_append, List.append_assoc, List.map_append]
      rw [visitAbs_cons, if_pos ht, visitNamespace_some _ _ _ s w1 hs, popTo_path, addAll_append]
      simp only
      have h1 := ih1 w3 r2 (flatten (path.length + 1) rest ++ l) (path ++ [s]) [] map
      simp only [List.length_append, List.length_singleton, List.append_nil] at h1
      rw [h1]
      cases addAll ((cs.occurrences (path ++ [s]) []).map (fun o => occEffect symbols (u, o))) map with
      | error e => rfl
      | ok m =>
        have hsegs : path ++ [s] ++ (if cs.lastNamespaces = [] then [] else cs.lastNamespaces) = path ++ s :: cs.lastNamespaces := by
          split
          · rename_i h; rw [h]; simp
          · simp
        simp only [hsegs]
        rw [ih2 w4 r3]
        cases addAll ((rest.occurrences path (s :: cs.lastNamespaces)).map (fun o => occEffect symbols (u, o))) m with
        | error e => rfl
        | ok m =>
          cases rest.lastNamespaces with
          | nil => rfl
          | cons a b => rfl
    | none =>
      simp only [List.cons_append, List.append_assoc, List.map_cons, List.map_append, addAll]
      rw [visitAbs_other hd r1]
      cases add map (occEffect symbols (u, ⟨d, path, closed⟩)) with
      | error e => rfl
      | ok m =>
        simp only
        rw [visitAbs_noNamespace cs (w2 hd) r2, addAll_append]
        cases addAll ((cs.occurrences path closed).map (fun o => occEffect symbols (u, o))) m with
        | error e => rfl
        | ok m =>
          simp only
          rw [ih2 w4 r3]
          cases addAll ((rest.occurrences path closed).map (fun o => occEffect symbols (u, o))) m with
          | error e => rfl
          | ok m =>
            cases rest.lastNamespaces with
            | nil => rfl
            | cons a b => rfl

theorem visitAbs_ok {u : DwarfUnit} {symbols : List (List Char)} (l : List (Nat × Die)) (segments : List (List Char))
    (map map' : Locations) (h : visitAbs u symbols l segments map = .ok map') : ∀ x ∈ l, NamespaceReadable x.2 := by
  induction l generalizing segments map with
  | nil => simp
  | cons x rest ih =>
    obtain ⟨depth, d⟩ := x
    rw [visitAbs_cons] at h
    intro y hy
    split at h
    · rename_i ht
      split at h
      · cases h
      · rename_i segs hs
        rcases List.mem_cons.mp hy with rfl | hy
        · intro _ hn
          obtain ⟨e, he⟩ := visitNamespace_error depth d.attrs segments hn
          rw [he] at hs; cases hs
        · exact ih _ _ h y hy
    · rename_i ht
      have hd : NamespaceReadable d := fun h => absurd h ht
      split at h
      · split at h
        · cases h
        · rcases List.mem_cons.mp hy with rfl | hy
          · exact hd
          · exact ih _ _ h y hy
      · rcases List.mem_cons.mp hy with rfl | hy
        · exact hd
        · exact ih _ _ h y hy

theorem namesReadable_flatten (f : Dies) (depth : Nat) (h : ∀ x ∈ flatten depth f, NamespaceReadable x.2) : f.NamesReadable := by
  induction f generalizing depth with
  | nil => trivial
  | cons d cs rest ih1 ih2 =>
    unfold flatten at h
    exact ⟨h _ (List.mem_cons_self ..), ih1 (depth + 1) (fun x hx => h x (by simp [hx])),
      ih2 depth (fun x hx => h x (by simp [hx]))⟩

/-- The result of a unit. -/
theorem visit_unit (u : DwarfUnit) (symbols : List (List Char)) (f : Dies) (hf : f.WellFormed) (map map' : Locations) :
    visit u symbols (deltas 0 (flatten 1 f)) 0 [] map = .ok map' ↔
      f.NamesReadable ∧ addAll ((f.occurrences [] []).map (fun o => occEffect symbols (u, o))) map = .ok map' := by
  have h0 : visit u symbols (deltas 0 (flatten 1 f)) 0 [] map = visitAbs u symbols (flatten 1 f) [] map :=
    visit_deltas u symbols _ 0 [] map
  rw [h0]
  have h1 : ∀ hr : f.NamesReadable, visitAbs u symbols (flatten 1 f) [] map =
      addAll ((f.occurrences [] []).map (fun o => occEffect symbols (u, o))) map := by
    intro hr
    have := visitAbs_forest (u := u) (symbols := symbols) f hf hr [] [] [] map
    simp only [List.length_nil, List.append_nil, List.nil_append, Nat.zero_add] at this
    rw [this]
    cases addAll ((f.occurrences [] []).map (fun o => occEffect symbols (u, o))) map <;> rfl
  constructor
  · intro h
    have hr := namesReadable_flatten f 1 (visitAbs_ok _ _ _ _ h)
    exact ⟨hr, by rw [← h1 hr]; exact h⟩
  · rintro ⟨hr, h⟩
    rw [h1 hr]; exact h

/-! ### all units -/

/-- A unit that is there, with its entries. -/
def WellFormedUnits (units : List DwarfUnit) : Prop := ∀ u ∈ units, ∀ f, u.entries = some f → f.WellFormed

theorem visitUnits_iff (symbols : List (List Char)) (units : List (Option DwarfUnit)) 
    (hw : ∀ u, some u ∈ units → ∀ f, u.entries = some f → f.WellFormed) (map map' : Locations) :
    visitUnits symbols units map = .ok map' ↔
      ∃ us : List DwarfUnit, units = us.map some ∧ (∀ u ∈ us, ∃ f, u.entries = some f ∧ f.NamesReadable) ∧
        addAll ((occurrences us).map (occEffect symbols)) map = .ok map' := by
  induction units generalizing map with
  | nil =>
    simp only [visitUnits]
    constructor
    · intro h
      exact ⟨[], rfl, by simp, h⟩
    · rintro ⟨us, h1, _, h3⟩
      cases us with
      | nil => exact h3
      | cons a b => cases h1
  | cons x rest ih =>
    cases x with
    | none =>
      simp only [visitUnits, reduceCtorEq, false_iff]
      rintro ⟨us, h1, _⟩
      cases us with
      | nil => cases h1
      | cons a b => cases h1
    | some u =>
      have ih := ih (fun u hu => hw u (List.mem_cons_of_mem _ hu))
      simp only [visitUnits]
      cases hu : u.entries with
      | none =>
        simp only [reduceCtorEq, false_iff]
        rintro ⟨us, h1, h2, _⟩
        cases us with
        | nil => cases h1
        | cons a b =>
          cases h1
          obtain ⟨f, hf, _⟩ := h2 u (List.mem_cons_self ..)
          rw [hu] at hf; cases hf
      | some f =>
        have hwf := hw u (List.mem_cons_self ..) f hu
        have hun := visit_unit u symbols f hwf map
        have hocc : ∀ b, (occurrences (u :: b)).map (occEffect symbols) =
            (f.occurrences [] []).map (fun o => occEffect symbols (u, o)) ++ (occurrences b).map (occEffect symbols) := by
          intro b
          simp only [occurrences, List.flatMap_cons, hu, List.map_append, List.map_map]
          rfl
        simp only
        constructor
        · intro h
          split at h
          · cases h
          · rename_i m hm
            obtain ⟨us, h1, h2, h3⟩ := (ih m).mp h
            obtain ⟨g1, g2⟩ := (hun m).mp hm
            refine ⟨u :: us, by rw [h1]; rfl, ?_, ?_⟩
            · intro v hv
              rcases List.mem_cons.mp hv with rfl | hv
              · exact ⟨f, hu, g1⟩
              · exact h2 v hv
            · rw [hocc, addAll_append, g2]
              exact h3
        · rintro ⟨us, h1, h2, h3⟩
          cases us with
          | nil => cases h1
          | cons v b =>
            simp only [List.map_cons, List.cons.injEq, Option.some.injEq] at h1
            obtain ⟨rfl, rfl⟩ := h1
            obtain ⟨f', hf', hnr⟩ := h2 u (List.mem_cons_self ..)
            rw [hu] at hf'; cases hf'
            rw [hocc, addAll_append] at h3
            split at h3
            · cases h3
            · rename_i m hm
              rw [(hun m).mpr ⟨hnr, hm⟩]
              exact (ih m).mpr ⟨b, rfl, fun w hw => h2 w (List.mem_cons_of_mem _ hw), h3⟩

/-! ### the map -/

theorem addAll_iff (l : List (Except DwarfError (Option (Nat × Loc)))) (map map' : Locations) :
    addAll l map = .ok map' ↔
      (∀ x ∈ l, ∃ e, x = .ok e) ∧
      l.Pairwise (fun x y => ∀ a loc loc', x = .ok (some (a, loc)) → y ≠ .ok (some (a, loc'))) ∧
      (∀ a loc, .ok (some (a, loc)) ∈ l → map a = none) ∧
      ∀ a loc, map' a = some loc ↔ map a = some loc ∨ .ok (some (a, loc)) ∈ l := by
  induction l generalizing map with
  | nil =>
    simp only [addAll, List.not_mem_nil, or_false, false_imp_iff, implies_true, List.Pairwise.nil, true_and]
    constructor
    · rintro ⟨⟩ a loc; rfl
    · intro h
      congr 1
      funext a
      cases hm : map a with
      | none =>
        cases hm' : map' a with
        | none => rfl
        | some loc => rw [(h a loc).mp hm'] at hm; cases hm
      | some loc => exact ((h a loc).mpr hm).symm
  | cons x rest ih =>
    simp only [addAll, List.mem_cons, forall_eq_or_imp, List.pairwise_cons]
    cases x with
    | error e => simp [add]
    | ok x =>
      cases x with
      | none =>
        simp only [add, ih, Except.ok.injEq, reduceCtorEq, false_or, exists_eq', true_and, false_imp_iff, implies_true]
      | some x =>
        obtain ⟨a, loc⟩ := x
        simp only [add, insert]
        cases hm : map a with
        | some old =>
          simp only [reduceCtorEq, false_iff]
          rintro ⟨_, _, h, _⟩
          have := h a loc (.inl rfl)
          rw [hm] at this; cases this
        | none =>
          simp only [ih, Except.ok.injEq, exists_eq', true_and, Option.some.injEq, Prod.mk.injEq]
          constructor
          · rintro ⟨h1, h2, h3, h4⟩
            refine ⟨h1, ⟨?_, h2⟩, ?_, ?_⟩
            · rintro y hy b l l' ⟨rfl, rfl⟩ rfl
              have := h3 a l' hy
              simp at this
            · rintro b l (⟨rfl, rfl⟩ | h)
              · exact hm
              · have := h3 b l h
                split at this
                · cases this
                · exact this
            · intro b l
              rw [h4]
              split
              · rename_i hb
                subst hb
                simp only [hm, reduceCtorEq, false_or, true_and, Option.some.injEq]
                constructor
                · rintro (rfl | h)
                  · exact .inl rfl
                  · exact .inr h
                · rintro (rfl | h)
                  · exact .inl rfl
                  · exact .inr h
              · rename_i hb
                simp only [hb, false_and, false_or]
          · rintro ⟨h1, ⟨h2, h2'⟩, h3, h4⟩
            refine ⟨h1, h2', ?_, ?_⟩
            · intro b l hl
              split
              · rename_i hb
                subst hb
                exact absurd rfl (h2 _ hl b loc l ⟨rfl, rfl⟩)
              · exact h3 b l (.inr hl)
            · intro b l
              rw [h4]
              split
              · rename_i hb
                subst hb
                simp only [hm, reduceCtorEq, false_or, true_and, Option.some.injEq]
                constructor
                · rintro (rfl | h)
                  · exact .inl rfl
                  · exact .inr h
                · rintro (rfl | h)
                  · exact .inl rfl
                  · exact .inr h
              · rename_i hb
                simp only [hb, false_and, false_or]

end Defmt.Dwarf
