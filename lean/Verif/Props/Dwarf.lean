import Verif.Lemmas.Dwarf
import Verif.Props.HostLog
/-! # C85, C86: the locations of log statements -/

namespace Defmt
open Parser HostLog Elf Dwarf

theorem mem_occurrences_wf {us : List DwarfUnit} (hw : WellFormedUnits us) {o : DwarfUnit × Occurrence} (ho : o ∈ occurrences us) :
    (o.2.die.attrs.map Prod.fst).Nodup := by
  have key : ∀ (f : Dies) (hf : f.WellFormed) (path closed : List (List Char)) (x : Occurrence),
      x ∈ f.occurrences path closed → (x.die.attrs.map Prod.fst).Nodup := by
    intro f
    induction f with
    | nil => intro _ _ _ x hx; cases hx
    | cons d cs rest ih1 ih2 =>
      intro hf path closed x hx
      obtain ⟨w1, w2, w3, w4⟩ := hf
      unfold Dies.occurrences at hx
      split at hx
      · rcases List.mem_append.mp hx with hx | hx
        · exact ih1 w3 _ _ x hx
        · exact ih2 w4 _ _ x hx
      · rcases List.mem_cons.mp hx with rfl | hx
        · exact w1
        · rcases List.mem_append.mp hx with hx | hx
          · exact ih1 w3 _ _ x hx
          · exact ih2 w4 _ _ x hx
  obtain ⟨u, hu, ho⟩ := List.mem_flatMap.mp ho
  cases hf : u.entries with
  | none => rw [hf] at ho; cases ho
  | some f =>
    rw [hf] at ho
    obtain ⟨x, hx, rfl⟩ := List.mem_map.mp ho
    exact key f (hw u hu f hf) _ _ x hx

theorem occEffect_iff {us : List DwarfUnit} {symbols : List (List Char)} (hw : WellFormedUnits us) {o : DwarfUnit × Occurrence}
    (ho : o ∈ occurrences us) (a : Nat) (loc : Loc) : occEffect symbols o = .ok (some (a, loc)) ↔
      Kept symbols o a loc.file loc.line ∧ loc.module = modulePath (o.2.path ++ o.2.closed) := by
  unfold occEffect
  by_cases ht : o.2.die.tag = .variable
  · rw [if_pos ht]
    exact effect_iff ht (mem_occurrences_wf hw ho) a loc
  · rw [if_neg ht]
    constructor
    · intro h; cases h
    · rintro ⟨⟨_, _, hs⟩, _⟩
      exact absurd hs.tag ht

theorem getLocations_ok {units : List (Option DwarfUnit)} {us : List DwarfUnit} {symbols : List (List Char)} {locs : Locations}
    (hu : units = us.map some) (hw : WellFormedUnits us) :
    getLocations units symbols = .ok locs ↔ (∀ u ∈ us, ∃ f, u.entries = some f ∧ f.NamesReadable) ∧
      addAll ((occurrences us).map (occEffect symbols)) (fun _ => none) = .ok locs := by
  unfold getLocations
  rw [visitUnits_iff]
  · constructor
    · rintro ⟨us', h1, h2⟩
      have : us' = us := (List.map_inj_right (fun _ _ h => Option.some.inj h)).mp (h1.symm.trans hu)
      exact this ▸ h2
    · intro h
      exact ⟨us, hu, h⟩
  · intro u hmem f hf
    rw [hu] at hmem
    obtain ⟨v, hv, he⟩ := List.mem_map.mp hmem
    cases he
    exact hw u hv f hf

/-! ### C85 -/

/-- **C85** What `get_locations` returns, exactly: a location for the address of every log statement that is in the table, with its file
and its line. The module path is that of the namespaces the statement is in, followed by those that ended just before it. -/
theorem C85_exact (us : List DwarfUnit) (symbols : List (List Char)) (hw : WellFormedUnits us) (locs : Locations)
    (h : getLocations (us.map some) symbols = .ok locs) (a : Nat) (loc : Loc) :
    locs a = some loc ↔ ∃ o ∈ occurrences us, Kept symbols o a loc.file loc.line ∧
      loc.module = modulePath (o.2.path ++ o.2.closed) := by
  obtain ⟨_, h2⟩ := (getLocations_ok rfl hw).mp h
  obtain ⟨_, _, _, h4⟩ := (addAll_iff _ _ _).mp h2
  rw [h4]
  simp only [reduceCtorEq, false_or, List.mem_map]
  constructor
  · rintro ⟨o, ho, he⟩
    exact ⟨o, ho, (occEffect_iff hw ho a loc).mp he⟩
  · rintro ⟨o, ho, he⟩
    exact ⟨o, ho, (occEffect_iff hw ho a loc).mpr he⟩

/-- **C85** The location of a log statement is its file, its line and the path of the namespaces (modules and functions) it is in. Missing:
the module path is only right if no nested namespace comes before the statement in the innermost namespace (`C85_fails`). -/
theorem C85_location_partial (us : List DwarfUnit) (symbols : List (List Char)) (hw : WellFormedUnits us) (locs : Locations)
    (h : getLocations (us.map some) symbols = .ok locs) (o : DwarfUnit × Occurrence) (ho : o ∈ occurrences us) (a : Nat)
    (file : List Char) (line : Nat) (hk : Kept symbols o a file line) :
    ∃ m, locs a = some ⟨file, line, m⟩ ∧ (o.2.closed = [] → m = modulePath o.2.path) := by
  refine ⟨modulePath (o.2.path ++ o.2.closed), (C85_exact us symbols hw locs h a _).mpr ⟨o, ho, hk, rfl⟩, ?_⟩
  intro hc
  rw [hc, List.append_nil]

/-- **C85** Nothing else has a location: no variable that is not a log statement, and no log statement that the linker removed. -/
theorem C85_only_statements (us : List DwarfUnit) (symbols : List (List Char)) (hw : WellFormedUnits us) (locs : Locations)
    (h : getLocations (us.map some) symbols = .ok locs) (a : Nat) (loc : Loc) (hl : locs a = some loc) :
    ∃ o ∈ occurrences us, ∃ symbol ∈ symbols, Statement o.1 o.2.die symbol a loc.file loc.line := by
  obtain ⟨o, ho, ⟨s, hs, hst⟩, _⟩ := (C85_exact us symbols hw locs h a loc).mp hl
  exact ⟨o, ho, s, hs, hst⟩

/-- A log statement, as the macros and `rustc` describe it. -/
def statementDie (symbol : List Char) (address line : Nat) : Die where
  tag := .variable
  attrs := [(.name, .str (some c!"DEFMT_LOG_STATEMENT")), (.other 73, .other), (.declFile, .fileIndex 1), (.declLine, .udata line),
    (.other 136, .udata 1), (.location, .exprloc [some address]), (.linkageName, .str (some symbol))]

def namespaceDie (name : List Char) : Die := ⟨.namespace, [(.name, .str (some name))]⟩

/-- ```
mod app { fn run() { let f = || info!("x"); info!("y") } }    fn main() { info!("z") }
``` -/
def demoEntries : Dies :=
  .cons (namespaceDie c!"app")
    (.cons (namespaceDie c!"run")
      (.cons (namespaceDie c!"{closure#0}") (.cons (statementDie c!"x" 1 10) .nil .nil)
        (.cons (statementDie c!"y" 2 20) .nil .nil))
      (.cons (namespaceDie c!"main")
        (.cons ⟨.variable, [(.name, .str (some c!"COUNTER"))]⟩ .nil
          (.cons (statementDie c!"z" 3 30) .nil (.cons (statementDie c!"gone" 3 40) .nil .nil)))
        (.cons ⟨.other 52, []⟩ .nil .nil)))
    .nil

def demoUnit : DwarfUnit where
  entries := some demoEntries
  lineProgram := some (fun i => if i = 1 then some ⟨some (some c!"src"), some c!"main.rs"⟩ else none)
  compDir := some c!"/home/me/app"

theorem demoUnit_wf : WellFormedUnits [demoUnit] := by
  intro u hu f hf
  cases List.mem_singleton.mp hu
  cases hf
  unfold demoEntries Dies.WellFormed Dies.WellFormed
  simp [Dies.WellFormed, Dies.NoNamespace, namespaceDie, statementDie, Die.namespaceName]

/-- the result for the example -/
def demoLocs : Locations := fun a =>
  if a = 3 then some ⟨c!"/home/me/app/src/main.rs", 30, c!"app::main"⟩
  else if a = 2 then some ⟨c!"/home/me/app/src/main.rs", 20, c!"app::run::{closure#0}"⟩
  else if a = 1 then some ⟨c!"/home/me/app/src/main.rs", 10, c!"app::run::{closure#0}"⟩
  else none

theorem demoLocs_eq : getLocations [some demoUnit] [c!"x", c!"y", c!"z"] = .ok demoLocs := rfl

/-- **C85** is false in general: the statement with the line 20 is in the function `run`, but its location says that it is in the closure
that comes before it. -/
theorem C85_fails : WellFormedUnits [demoUnit] ∧ getLocations [some demoUnit] [c!"x", c!"y", c!"z"] = .ok demoLocs ∧
    ∃ o ∈ occurrences [demoUnit], Statement o.1 o.2.die c!"y" 2 c!"/home/me/app/src/main.rs" 20 ∧
      o.2.path = [c!"app", c!"run"] ∧
      demoLocs 2 = some ⟨c!"/home/me/app/src/main.rs", 20, c!"app::run::{closure#0}"⟩ := by
  refine ⟨demoUnit_wf, rfl, ⟨demoUnit, statementDie c!"y" 2 20, [c!"app", c!"run"], [c!"{closure#0}"]⟩, ?_, ?_, rfl, rfl⟩
  · exact List.mem_of_getElem? (i := 1) rfl
  · exact ⟨rfl, by decide, by decide, ⟨[some 2], by decide, 0, rfl, by omega⟩, ⟨1, by decide, rfl⟩, by decide⟩

/-- The other statements of the example meet the hypotheses of `C85_location_partial` with no namespace before them; the one that the linker
removed has no location although it has the address of another. -/
example : ∃ o ∈ occurrences [demoUnit], o.2.closed = [] ∧ o.2.path = [c!"app", c!"main"] ∧
    Kept [c!"x", c!"y", c!"z"] o 3 c!"/home/me/app/src/main.rs" 30 := by
  refine ⟨⟨demoUnit, statementDie c!"z" 3 30, [c!"app", c!"main"], []⟩, List.mem_of_getElem? (i := 3) rfl, rfl, rfl, c!"z", by decide, ?_⟩
  exact ⟨rfl, by decide, by decide, ⟨[some 3], by decide, 0, rfl, by omega⟩, ⟨1, by decide, rfl⟩, by decide⟩

/-- **C85** The file of a location: the name of the file in its directory; a relative directory is below the directory in which the
compiler ran. -/
theorem C85_file (u : DwarfUnit) (i : Nat) (files : Nat → Option FileEntry) (dir name : List Char) (hi : i ≠ 0)
    (hl : u.lineProgram = some files) (hf : files i = some ⟨some (some dir), some name⟩) (hd : NotSlashEnd dir)
    (hn : name.head? ≠ some '/') :
    (dir.head? = some '/' → fileIndexToPath u i = .ok (dir ++ c!"/" ++ name)) ∧
    (dir.head? ≠ some '/' → ∀ comp, u.compDir = some comp → NotSlashEnd comp →
      fileIndexToPath u i = .ok (comp ++ c!"/" ++ dir ++ c!"/" ++ name)) ∧
    (dir.head? ≠ some '/' → u.compDir = none → fileIndexToPath u i = .ok (dir ++ c!"/" ++ name)) := by
  have abs : ∀ p : List Char, (isAbsolute p = true) ↔ p.head? = some '/' := by
    intro p; simp [isAbsolute]
  have pn : ∀ p : List Char, NotSlashEnd p → push p name = p ++ '/' :: name := by
    intro p hp
    unfold push
    rw [if_neg (fun h => hn ((abs _).mp h)), if_pos ⟨hp.1, hp.2⟩]
  have p0 : ∀ p, push [] p = p := by
    intro p
    unfold push
    split
    · rfl
    · simp
  unfold fileIndexToPath
  rw [if_neg hi, hl]
  simp only [hf, dirPath, p0]
  refine ⟨fun h => ?_, fun h comp hc hcs => ?_, fun h hc => ?_⟩
  · rw [(abs dir).mpr h]
    simp [pn dir hd]
  · have hb : isAbsolute dir = false := by
      cases hb : isAbsolute dir with
      | false => rfl
      | true => exact absurd ((abs _).mp hb) h
    have pd : push comp dir = comp ++ '/' :: dir := by
      unfold push
      rw [if_neg (by simp [hb]), if_pos ⟨hcs.1, hcs.2⟩]
    have hcd : NotSlashEnd (comp ++ '/' :: dir) := by
      refine ⟨by simp, ?_⟩
      rw [List.getLast?_append]
      obtain ⟨h1, h2⟩ := hd
      cases dir with
      | nil => exact absurd rfl h1
      | cons c cs => simpa [List.getLast?_cons_cons] using h2
    simp [hb, hc, pd, pn _ hcd]
  · have hb : isAbsolute dir = false := by
      cases hb : isAbsolute dir with
      | false => rfl
      | true => exact absurd ((abs _).mp hb) h
    simp [hb, hc, pn _ hd]

/-- **C85** An absolute file name is the file, whatever the directory is. -/
theorem C85_file_absolute (u : DwarfUnit) (i : Nat) (files : Nat → Option FileEntry) (dir name : List Char) (hi : i ≠ 0)
    (hl : u.lineProgram = some files) (hf : files i = some ⟨some (some dir), some name⟩) (hn : name.head? = some '/') :
    fileIndexToPath u i = .ok name := by
  have hp : ∀ p, push p name = name := by
    intro p
    unfold push
    rw [if_pos (by simp [isAbsolute, hn])]
  unfold fileIndexToPath
  rw [if_neg hi, hl]
  simp only [hf]
  have : ∃ p, dirPath u.compDir (some (some dir)) = .ok p := by
    simp only [dirPath]
    split
    · cases u.compDir <;> exact ⟨_, rfl⟩
    · exact ⟨_, rfl⟩
  obtain ⟨p, h⟩ := this
  rw [h]
  simp [hp]

theorem push_iff (p q r : List Char) : push p q = r ↔ Joined p q r := by
  have abs : (isAbsolute q = true) ↔ q.head? = some '/' := by simp [isAbsolute]
  constructor
  · rintro rfl
    unfold push
    by_cases h : q.head? = some '/'
    · rw [if_pos (abs.mpr h)]; exact .absolute h
    · rw [if_neg (fun h' => h (abs.mp h'))]
      by_cases hp : p = []
      · subst hp; simpa using Joined.empty h
      · by_cases hl : p.getLast? = some '/'
        · rw [if_neg (by simp [hl])]; exact .slash h hl
        · rw [if_pos ⟨hp, hl⟩]; simpa using Joined.between h hp hl
  · intro h
    unfold push
    cases h with
    | absolute h => rw [if_pos (abs.mpr h)]
    | empty h => rw [if_neg (fun h' => h (abs.mp h'))]; simp
    | slash h hl => rw [if_neg (fun h' => h (abs.mp h')), if_neg (by simp [hl])]
    | between h hp hl => rw [if_neg (fun h' => h (abs.mp h')), if_pos ⟨hp, hl⟩]; simp

theorem push_nil (p : List Char) : push [] p = p := by
  unfold push
  split
  · rfl
  · simp

theorem dirPath_iff (compDir : Option (List Char)) (d : Option (Option (List Char))) (r : List Char) :
    dirPath compDir d = .ok r ↔ DirOf compDir d r := by
  rcases d with _ | _ | dir
  · simp only [dirPath, Except.ok.injEq]
    exact ⟨fun h => h ▸ .none, fun h => by cases h; rfl⟩
  · simp only [dirPath]
    exact ⟨(by intro h; cases h), (by intro h; cases h)⟩
  · simp only [dirPath, push_nil]
    constructor
    · intro h
      cases hc : compDir with
      | none =>
        rw [hc] at h
        simp only [ite_self, Except.ok.injEq] at h
        exact h ▸ .alone rfl
      | some comp =>
        rw [hc] at h
        refine .below rfl ((push_iff _ _ _).mp ?_)
        split at h
        · exact Except.ok.inj h
        · rename_i hb
          rw [← Except.ok.inj h, push, if_pos (by simpa using hb)]
    · intro h
      cases h with
      | alone hc => simp [hc]
      | below hc hj =>
        rw [hc]
        have := (push_iff _ _ _).mpr hj
        simp only
        split
        · rw [this]
        · rename_i hb
          rw [← this, push, if_pos (by simpa using hb)]

/-- **C85** The file of a location, for all debug information: there is one exactly if the entry of the file and its texts can be
read, and it is the name of the file below its directory. -/
theorem C85_file_exact (u : DwarfUnit) (i : Nat) (path : List Char) :
    fileIndexToPath u i = .ok path ↔
      i ≠ 0 ∧ ∃ files file name dir, u.lineProgram = some files ∧ files i = some file ∧ file.name = some name ∧
        DirOf u.compDir file.dir dir ∧ Joined dir name path := by
  unfold fileIndexToPath
  constructor
  · intro h
    split at h
    · cases h
    · rename_i hi
      refine ⟨hi, ?_⟩
      cases hl : u.lineProgram with
      | none => rw [hl] at h; cases h
      | some files =>
        rw [hl] at h
        cases hf : files i with
        | none => simp only [hf] at h; cases h
        | some file =>
          simp only [hf] at h
          cases hd : dirPath u.compDir file.dir with
          | error e => rw [hd] at h; cases h
          | ok p =>
            cases hn : file.name with
            | none => simp only [hd, hn] at h; cases h
            | some name =>
              simp only [hd, hn, Except.ok.injEq] at h
              exact ⟨files, file, name, p, rfl, hf, hn, (dirPath_iff _ _ _).mp hd, (push_iff _ _ _).mp h⟩
  · rintro ⟨hi, files, file, name, dir, hl, hf, hn, hd, hj⟩
    rw [if_neg hi, hl]
    simp only [hf, (dirPath_iff _ _ _).mpr hd, hn, (push_iff _ _ _).mpr hj]

/-- a file without a directory, a directory with a slash at its end -/
example : Joined [] c!"main.rs" c!"main.rs" ∧ Joined c!"src/" c!"main.rs" c!"src/main.rs" ∧ DirOf (some c!"/home") none [] ∧
    DirOf (some c!"/home") (some (some c!"src")) c!"/home/src" :=
  ⟨.empty (by decide), .slash (by decide) (by decide), .none, .below rfl (.between (by decide) (by decide) (by decide))⟩

example : fileIndexToPath demoUnit 1 = .ok c!"/home/me/app/src/main.rs" := rfl

/-! ### C86 -/

theorem namesReadable_of_readable {symbols : List (List Char)} {u : DwarfUnit} (f : Dies) (h : f.Readable symbols u) : f.NamesReadable := by
  induction f with
  | nil => trivial
  | cons d cs rest ih1 ih2 => exact ⟨h.1, ih1 h.2.2.1, ih2 h.2.2.2⟩

theorem readable_iff {symbols : List (List Char)} {u : DwarfUnit} (f : Dies) (hn : f.NamesReadable) (path closed : List (List Char)) :
    f.Readable symbols u ↔ ∀ o ∈ f.occurrences path closed, VariableReadable symbols u o.die := by
  induction f generalizing path closed with
  | nil => simp [Dies.Readable, Dies.occurrences]
  | cons d cs rest ih1 ih2 =>
    unfold Dies.Readable Dies.occurrences
    cases hd : d.namespaceName with
    | some s =>
      have hv : VariableReadable symbols u d := fun ht => by rw [(namespaceName_some hd).1] at ht; cases ht
      rw [ih1 hn.2.1 (path ++ [s]) [], ih2 hn.2.2 path (s :: cs.lastNamespaces)]
      simp only [hn.1, hv, true_and, List.mem_append]
      constructor
      · rintro ⟨h1, h2⟩ o (h | h)
        · exact h1 o h
        · exact h2 o h
      · intro h
        exact ⟨fun o ho => h o (.inl ho), fun o ho => h o (.inr ho)⟩
    | none =>
      rw [ih1 hn.2.1 path closed, ih2 hn.2.2 path closed]
      simp only [hn.1, true_and, List.mem_cons, List.mem_append]
      constructor
      · rintro ⟨h1, h2, h3⟩ o (rfl | h | h)
        · exact h1
        · exact h2 o h
        · exact h3 o h
      · intro h
        exact ⟨h ⟨d, path, closed⟩ (.inl rfl), fun o ho => h o (.inr (.inl ho)), fun o ho => h o (.inr (.inr ho))⟩

/-- **C86** The lookup succeeds exactly if all units can be read, the texts of namespaces and variables can be read, every log statement of
the table has an address and a file, and no two of them have the same address: it never picks one of two locations. -/
theorem C86_succeeds_iff (units : List (Option DwarfUnit)) (symbols : List (List Char))
    (hw : ∀ u, some u ∈ units → ∀ f, u.entries = some f → f.WellFormed) :
    (∃ locs, getLocations units symbols = .ok locs) ↔
      ∃ us : List DwarfUnit, units = us.map some ∧ (∀ u ∈ us, ∃ f, u.entries = some f ∧ f.Readable symbols u) ∧ Distinct symbols us := by
  have hwu : ∀ us : List DwarfUnit, units = us.map some → WellFormedUnits us := by
    rintro us rfl u hu f hf
    exact hw u (List.mem_map.mpr ⟨u, hu, rfl⟩) f hf
  have hpair : ∀ us : List DwarfUnit, WellFormedUnits us →
      (((occurrences us).map (occEffect symbols)).Pairwise
        (fun x y => ∀ a loc loc', x = .ok (some (a, loc)) → y ≠ .ok (some (a, loc'))) ↔ Distinct symbols us) := by
    intro us hwf
    rw [List.pairwise_map]
    constructor
    · intro h
      refine List.Pairwise.imp_of_mem ?_ h
      intro x y hx hy h a f l f' l' k1 k2
      exact h a ⟨f, l, _⟩ ⟨f', l', _⟩ ((occEffect_iff hwf hx a ⟨f, l, _⟩).mpr ⟨k1, rfl⟩)
        ((occEffect_iff hwf hy a ⟨f', l', _⟩).mpr ⟨k2, rfl⟩)
    · intro h
      refine List.Pairwise.imp_of_mem ?_ h
      intro x y hx hy h a loc loc' e1 e2
      exact h a _ _ _ _ ((occEffect_iff hwf hx a loc).mp e1).1 ((occEffect_iff hwf hy a loc').mp e2).1
  have hread : ∀ us : List DwarfUnit, WellFormedUnits us → (∀ u ∈ us, ∃ f, u.entries = some f ∧ f.NamesReadable) →
      ((∀ x ∈ (occurrences us).map (occEffect symbols), ∃ e, x = .ok e) ↔
        ∀ u ∈ us, ∃ f, u.entries = some f ∧ f.Readable symbols u) := by
    intro us hwf hn
    have hocc : ∀ o ∈ occurrences us, (∃ e, occEffect symbols o = .ok e) ↔ VariableReadable symbols o.1 o.2.die := by
      intro o ho
      unfold occEffect
      by_cases ht : o.2.die.tag = .variable
      · rw [if_pos ht]
        exact effect_ok ht (mem_occurrences_wf hwf ho)
      · rw [if_neg ht]
        exact ⟨fun _ h => absurd h ht, fun _ => ⟨_, rfl⟩⟩
    constructor
    · intro h u hu
      obtain ⟨f, hf, hnr⟩ := hn u hu
      refine ⟨f, hf, (readable_iff f hnr [] []).mpr ?_⟩
      intro o ho
      have hmem : (u, o) ∈ occurrences us := by
        refine List.mem_flatMap.mpr ⟨u, hu, ?_⟩
        rw [hf]
        exact List.mem_map.mpr ⟨o, ho, rfl⟩
      exact (hocc _ hmem).mp (h _ (List.mem_map.mpr ⟨_, hmem, rfl⟩))
    · intro h x hx
      obtain ⟨o, ho, rfl⟩ := List.mem_map.mp hx
      refine (hocc o ho).mpr ?_
      obtain ⟨u, hu, ho⟩ := List.mem_flatMap.mp ho
      obtain ⟨f, hf, hr⟩ := h u hu
      rw [hf] at ho
      obtain ⟨y, hy, rfl⟩ := List.mem_map.mp ho
      exact (readable_iff f (namesReadable_of_readable f hr) [] []).mp hr y hy
  constructor
  · rintro ⟨locs, h⟩
    obtain ⟨us, h1, h2, h3⟩ := (visitUnits_iff symbols units hw _ locs).mp h
    obtain ⟨a1, a2, _⟩ := (addAll_iff _ _ _).mp h3
    exact ⟨us, h1, (hread us (hwu us h1) h2).mp a1, (hpair us (hwu us h1)).mp a2⟩
  · rintro ⟨us, h1, h2, h3⟩
    have hn : ∀ u ∈ us, ∃ f, u.entries = some f ∧ f.NamesReadable := by
      intro u hu
      obtain ⟨f, hf, hr⟩ := h2 u hu
      exact ⟨f, hf, namesReadable_of_readable f hr⟩
    have a1 := (hread us (hwu us h1) hn).mpr h2
    have a2 := (hpair us (hwu us h1)).mpr h3
    have key : ∀ (l : List (Except DwarfError (Option (Nat × Loc)))) (map : Locations), (∀ x ∈ l, ∃ e, x = .ok e) →
        l.Pairwise (fun x y => ∀ a loc loc', x = .ok (some (a, loc)) → y ≠ .ok (some (a, loc'))) →
        (∀ a loc, .ok (some (a, loc)) ∈ l → map a = none) → ∃ map', addAll l map = .ok map' := by
      intro l
      induction l with
      | nil => intro map _ _ _; exact ⟨map, rfl⟩
      | cons x rest ih =>
        intro map b1 b2 b3
        obtain ⟨e, rfl⟩ := b1 x (List.mem_cons_self ..)
        rw [List.pairwise_cons] at b2
        cases e with
        | none => exact ih map (fun y hy => b1 y (List.mem_cons_of_mem _ hy)) b2.2 (fun a loc hm => b3 a loc (List.mem_cons_of_mem _ hm))
        | some e =>
          obtain ⟨a, loc⟩ := e
          have hm := b3 a loc (List.mem_cons_self ..)
          obtain ⟨map', h⟩ := ih (fun b => if b = a then some loc else map b) (fun y hy => b1 y (List.mem_cons_of_mem _ hy)) b2.2
            (fun b l hb => by
              split
              · rename_i hab
                subst hab
                exact absurd rfl (b2.1 _ hb b loc l rfl)
              · exact b3 b l (List.mem_cons_of_mem _ hb))
          exact ⟨map', by simp only [addAll, add, Dwarf.insert, hm, h]⟩
    obtain ⟨locs, h⟩ := key _ (fun _ => none) a1 a2 (fun _ _ _ => rfl)
    exact ⟨locs, (visitUnits_iff symbols units hw _ locs).mpr ⟨us, h1, hn, h⟩⟩

theorem isIndex_iff (e : Entry) : isIndex e = true ↔ IsMessage e := by
  unfold isIndex IsMessage
  cases e.tag <;> decide

/-- The program with the table `t` was compiled with debug information: every log statement of the table is declared in it, with the symbol
and the address it has in the table. -/
def DebugInfo (t : FullTable) (us : List DwarfUnit) : Prop :=
  ∀ i e, t.entries i = some e → IsMessage e.string →
    ∃ o ∈ occurrences us, ∃ file line, Statement o.1 o.2.die e.rawSymbol i file line

/-- The options of `defmt-print` for the table and the locations. -/
structure OptionsFor (t : FullTable) (locs : Locations) (o : Options) : Prop where
  locations : o.locations = locs
  indices : ∀ i, i ∈ o.indices ↔ ∃ e, t.entries i = some e ∧ isIndex e.string = true

/-- **C86** With debug information, every frame of a log statement (or of `println!`) is shown with the file and the line of its statement.
(For the module path see C85.) -/
theorem C86_located (t : FullTable) (symbols : List (List Char)) (hs : ∀ i e, t.entries i = some e → e.rawSymbol ∈ symbols)
    (us : List DwarfUnit) (hw : WellFormedUnits us) (hd : DebugInfo t us) (locs : Locations)
    (h : getLocations (us.map some) symbols = .ok locs) (o : Options) (ho : OptionsFor t locs o) (f : Frame) (e : TableEntry)
    (he : t.entries f.index = some e) (hi : IsMessage e.string) (x : DwarfUnit × Occurrence) (hx : x ∈ occurrences us)
    (file : List Char) (line : Nat) (hst : Statement x.1 x.2.die e.rawSymbol f.index file line) :
    ∃ m, Located o f ⟨file, line, m⟩ ∧ (x.2.closed = [] → m = modulePath x.2.path) := by
  obtain ⟨m, h1, h2⟩ := C85_location_partial us symbols hw locs h x hx f.index file line ⟨_, hs _ e he, hst⟩
  refine ⟨m, ⟨fun i hi => ?_, by rw [ho.locations]; exact h1⟩, h2⟩
  obtain ⟨e', he', hi'⟩ := (ho.indices i).mp hi
  obtain ⟨y, hy, file', line', hst'⟩ := hd i e' he' ((isIndex_iff _).mp hi')
  obtain ⟨m', hm', _⟩ := C85_location_partial us symbols hw locs h y hy i file' line' ⟨_, hs _ e' he', hst'⟩
  exact ⟨_, by rw [ho.locations]; exact hm'⟩

/-- **C86** If one log statement of the table has no declaration, no frame is shown with a location. -/
theorem C86_incomplete (t : FullTable) (symbols : List (List Char)) (us : List DwarfUnit) (hw : WellFormedUnits us) (locs : Locations)
    (h : getLocations (us.map some) symbols = .ok locs) (o : Options) (ho : OptionsFor t locs o) (i : Nat) (e : TableEntry)
    (he : t.entries i = some e) (hi : IsMessage e.string)
    (hno : ∀ x ∈ occurrences us, ∀ symbol file line, ¬ Statement x.1 x.2.die symbol i file line) (f : Frame) : NotLocated o f := by
  rintro loc ⟨hall, _⟩
  obtain ⟨l, hl⟩ := hall i ((ho.indices i).mpr ⟨e, he, (isIndex_iff _).mpr hi⟩)
  rw [ho.locations] at hl
  obtain ⟨x, hx, s, _, hst⟩ := C85_only_statements us symbols hw locs h i l hl
  exact hno x hx s _ _ hst

/-- The example has readable entries, different addresses and a table with all its statements. -/
def demoDwarfTable : FullTable where
  timestamp := none
  entries := fun i =>
    if i = 1 then some ⟨⟨.info, c!"x"⟩, c!"x"⟩
    else if i = 2 then some ⟨⟨.println, c!"y"⟩, c!"y"⟩
    else if i = 3 then some ⟨⟨.error, c!"z"⟩, c!"z"⟩
    else none
  bitflags := fun _ => none
  encoding := .raw

example : ∃ us : List DwarfUnit, [some demoUnit] = us.map some ∧
    (∀ u ∈ us, ∃ f, u.entries = some f ∧ f.Readable [c!"x", c!"y", c!"z"] u) ∧ Distinct [c!"x", c!"y", c!"z"] us :=
  (C86_succeeds_iff [some demoUnit] [c!"x", c!"y", c!"z"]
    (by intro u hu; cases List.mem_singleton.mp hu; exact demoUnit_wf demoUnit (List.mem_singleton.mpr rfl))).mp ⟨_, demoLocs_eq⟩

theorem demo_debugInfo : DebugInfo demoDwarfTable [demoUnit] := by
  intro i e he hi
  simp only [demoDwarfTable] at he
  split at he
  · rename_i h; subst h; cases he
    exact ⟨⟨demoUnit, statementDie c!"x" 1 10, _, _⟩, List.mem_of_getElem? (i := 0) rfl, c!"/home/me/app/src/main.rs", 10,
      rfl, by decide, by decide, ⟨[some 1], by decide, 0, rfl, by omega⟩, ⟨1, by decide, rfl⟩, by decide⟩
  · split at he
    · rename_i h; subst h; cases he
      exact ⟨⟨demoUnit, statementDie c!"y" 2 20, _, _⟩, List.mem_of_getElem? (i := 1) rfl, c!"/home/me/app/src/main.rs", 20,
        rfl, by decide, by decide, ⟨[some 2], by decide, 0, rfl, by omega⟩, ⟨1, by decide, rfl⟩, by decide⟩
    · split at he
      · rename_i h; subst h; cases he
        exact ⟨⟨demoUnit, statementDie c!"z" 3 30, _, _⟩, List.mem_of_getElem? (i := 3) rfl, c!"/home/me/app/src/main.rs", 30,
          rfl, by decide, by decide, ⟨[some 3], by decide, 0, rfl, by omega⟩, ⟨1, by decide, rfl⟩, by decide⟩
      · cases he

/-- Two declarations of one statement, for example in two codegen units, end the lookup with an error. -/
example : getLocations [some demoUnit, some demoUnit] [c!"x", c!"y", c!"z"] = .error .collision := rfl

end Defmt
