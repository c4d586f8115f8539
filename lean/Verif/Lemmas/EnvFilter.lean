import Verif.Spec.EnvFilter
/-! Lemmas about the `DEFMT_LOG` filter. -/

namespace Defmt.EnvFilter

/-! ### Texts -/

theorem display_eq (p : ModulePath) : ModulePath.display p = pathText p := by
  induction p with
  | nil => rfl
  | cons s rest ih =>
    cases rest with
    | nil => rfl
    | cons s' rest => simp only [ModulePath.display, pathText, ih]

theorem split_ne_nil (sep : UInt8) (t : List UInt8) : split sep t ≠ [] := by
  cases t with
  | nil => simp [split]
  | cons b rest =>
    unfold split
    split
    · simp
    · split <;> simp

theorem split_no_sep {sep : UInt8} {t : List UInt8} (h : sep ∉ t) : split sep t = [t] := by
  induction t with
  | nil => rfl
  | cons b rest ih =>
    simp only [List.mem_cons, not_or] at h
    unfold split
    rw [if_neg (fun hb => h.1 hb.symm), ih h.2]

theorem split_append {sep : UInt8} {t : List UInt8} (h : sep ∉ t) (r : List UInt8) :
    split sep (t ++ sep :: r) = t :: split sep r := by
  induction t with
  | nil => simp [split]
  | cons b rest ih =>
    simp only [List.mem_cons, not_or] at h
    rw [List.cons_append, split, if_neg (fun hb => h.1 hb.symm), ih h.2]

theorem split_commaList {ts : List (List UInt8)} (h : ∀ t ∈ ts, 44 ∉ t) (hne : ts ≠ []) :
    split 44 (commaList ts) = ts := by
  induction ts with
  | nil => exact absurd rfl hne
  | cons t rest ih =>
    cases rest with
    | nil => exact split_no_sep (h t (by simp))
    | cons t' rest =>
      simp only [commaList, List.append_assoc, List.cons_append, List.nil_append]
      rw [split_append (h t (by simp)), ih (fun u hu => h u (List.mem_cons_of_mem _ hu)) (by simp)]

theorem pieces_commaList {ts : List (List UInt8)} (h : ∀ t ∈ ts, 44 ∉ t) :
    pieces (commaList ts) = (ts.filter (fun t => t ≠ [])).reverse := by
  cases ts with
  | nil => rfl
  | cons t rest =>
    unfold pieces
    rw [split_commaList h (by simp), List.filter_reverse]

theorem commaList_split (t : List UInt8) : commaList (split 44 t) = t := by
  induction t with
  | nil => rfl
  | cons b rest ih =>
    unfold split
    split
    · rename_i hb
      cases hs : split 44 rest with
      | nil => exact absurd hs (split_ne_nil _ _)
      | cons piece ps =>
        rw [hs] at ih
        simp only [commaList, List.nil_append, List.cons_append, ih, hb]
    · cases hs : split 44 rest with
      | nil => exact absurd hs (split_ne_nil _ _)
      | cons piece ps =>
        rw [hs] at ih
        cases ps with
        | nil => simp only [commaList] at ih ⊢; rw [ih]
        | cons p' ps => simp only [commaList, List.cons_append] at ih ⊢; rw [ih]

theorem no_sep_of_split {sep : UInt8} {t piece : List UInt8} (h : piece ∈ split sep t) : sep ∉ piece := by
  induction t generalizing piece with
  | nil => simp only [split, List.mem_singleton] at h; rw [h]; simp
  | cons b rest ih =>
    unfold split at h
    split at h
    · rcases List.mem_cons.mp h with h | h
      · rw [h]; simp
      · exact ih h
    · rename_i hb
      cases hs : split sep rest with
      | nil => exact absurd hs (split_ne_nil _ _)
      | cons p ps =>
        rw [hs] at h ih
        rcases List.mem_cons.mp h with h | h
        · rw [h]
          simp only [List.mem_cons, not_or]
          exact ⟨fun h => hb h.symm, ih (by simp)⟩
        · exact ih (List.mem_cons_of_mem _ h)

theorem mem_of_split {sep : UInt8} {t piece : List UInt8} (h : piece ∈ split sep t) {b : UInt8} (hb : b ∈ piece) :
    b ∈ t := by
  induction t generalizing piece with
  | nil => simp only [split, List.mem_singleton] at h; rw [h] at hb; cases hb
  | cons c rest ih =>
    unfold split at h
    split at h
    · rcases List.mem_cons.mp h with h | h
      · rw [h] at hb; cases hb
      · exact List.mem_cons_of_mem _ (ih h hb)
    · cases hs : split sep rest with
      | nil => exact absurd hs (split_ne_nil _ _)
      | cons p ps =>
        rw [hs] at h ih
        rcases List.mem_cons.mp h with h | h
        · rw [h] at hb
          rcases List.mem_cons.mp hb with hb | hb
          · rw [hb]; simp
          · exact List.mem_cons_of_mem _ (ih (by simp) hb)
        · exact List.mem_cons_of_mem _ (ih (List.mem_cons_of_mem _ h) hb)

/-! ### Module paths -/

theorem splitPath_ne_nil (t : List UInt8) : splitPath t ≠ [] := by
  fun_cases splitPath t <;> simp

theorem splitPath_no_colon {t : List UInt8} (h : 58 ∉ t) : splitPath t = [t] := by
  fun_induction splitPath t with
  | case1 => rfl
  | case2 => rfl
  | case3 b b' rest hb => simp [hb.1] at h
  | case4 b b' rest hb hs ih => exact absurd hs (splitPath_ne_nil _)
  | case5 b b' rest hb piece ps hs ih =>
    simp only [List.mem_cons, not_or] at h
    have := ih (by simp only [List.mem_cons, not_or]; exact h.2)
    rw [hs] at this
    simp only [List.cons.injEq] at this
    rw [this.1, this.2]

theorem splitPath_append {s : List UInt8} (h : 58 ∉ s) (r : List UInt8) :
    splitPath (s ++ 58 :: 58 :: r) = s :: splitPath r := by
  induction s with
  | nil => simp [splitPath]
  | cons b rest ih =>
    simp only [List.mem_cons, not_or] at h
    have ih := ih h.2
    have hb : b ≠ 58 := fun hb => h.1 hb.symm
    cases rest with
    | nil =>
      simp only [List.nil_append, List.cons_append] at ih ⊢
      rw [splitPath, if_neg (fun hh => hb hh.1), ih]
    | cons c rest =>
      simp only [List.cons_append] at ih ⊢
      rw [splitPath, if_neg (fun hh => hb hh.1), ih]

theorem splitPath_pathText {p : List (List UInt8)} (hne : p ≠ []) (h : ∀ s ∈ p, 58 ∉ s) :
    splitPath (pathText p) = p := by
  induction p with
  | nil => exact absurd rfl hne
  | cons s rest ih =>
    cases rest with
    | nil => exact splitPath_no_colon (h s (by simp))
    | cons s' rest =>
      simp only [pathText, List.append_assoc, List.cons_append, List.nil_append]
      rw [splitPath_append (h s (by simp)), ih (by simp) (fun u hu => h u (List.mem_cons_of_mem _ hu))]

theorem pathText_splitPath (t : List UInt8) : pathText (splitPath t) = t := by
  fun_induction splitPath t with
  | case1 => rfl
  | case2 => rfl
  | case3 b b' rest hb ih =>
    cases hs : splitPath rest with
    | nil => exact absurd hs (splitPath_ne_nil _)
    | cons p ps =>
      rw [hs] at ih
      simp only [pathText, List.nil_append, List.cons_append, ih, hb.1, hb.2]
  | case4 b b' rest hb hs ih => exact absurd hs (splitPath_ne_nil _)
  | case5 b b' rest hb piece ps hs ih =>
    rw [hs] at ih
    cases ps with
    | nil => simp only [pathText] at ih ⊢; rw [ih]
    | cons p' ps => simp only [pathText, List.cons_append] at ih ⊢; rw [ih]

theorem validate_ok {ident : List UInt8 → Bool} {ss : List (List UInt8)} :
    validate ident ss = .ok () ↔ ∀ s ∈ ss, ident s = true := by
  induction ss with
  | nil => simp [validate]
  | cons s rest ih =>
    unfold validate
    by_cases h : ident s = true
    · simp [h, ih]
    · simp [h]

theorem parse_ok {ident : List UInt8 → Bool} {t : List UInt8} {p : ModulePath} :
    ModulePath.parse ident t = .ok p ↔ t ≠ [] ∧ p = splitPath t ∧ ∀ s ∈ p, ident s = true := by
  unfold ModulePath.parse
  by_cases ht : t = []
  · simp [ht]
  · rw [if_neg ht]
    cases hv : validate ident (splitPath t) with
    | error e =>
      simp only [reduceCtorEq, false_iff, not_and]
      rintro - rfl hall
      rw [validate_ok.mpr hall] at hv
      cases hv
    | ok u =>
      have := validate_ok.mp hv
      simp only [Except.ok.injEq]
      constructor
      · rintro rfl; exact ⟨ht, rfl, this⟩
      · rintro ⟨-, rfl, -⟩; rfl

theorem parse_isPath {ident : List UInt8 → Bool} {p : List (List UInt8)} (h : IsPath ident p) :
    ModulePath.parse ident (pathText p) = .ok p :=
  parse_ok.mpr ⟨h.2.1, (splitPath_pathText h.1 (fun s hs => (h.2.2 s hs).2)).symm, fun s hs => (h.2.2 s hs).1⟩

/-! ### Directives -/

theorem rsplitOnce_none {sep : UInt8} {t : List UInt8} : rsplitOnce sep t = none ↔ sep ∉ t := by
  induction t with
  | nil => simp [rsplitOnce]
  | cons b rest ih =>
    unfold rsplitOnce
    cases hr : rsplitOnce sep rest with
    | some x =>
      have : ¬ sep ∉ rest := fun h => by rw [ih.mpr h] at hr; cases hr
      simp only [reduceCtorEq, List.mem_cons, not_or, false_iff, not_and]
      exact fun _ => this
    | none =>
      have := ih.mp hr
      by_cases hb : b = sep
      · simp [hb]
      · simp only [hb, if_false, List.mem_cons, not_or, true_iff]
        exact ⟨fun h => hb h.symm, this⟩

theorem rsplitOnce_some {sep : UInt8} {t x y : List UInt8} :
    rsplitOnce sep t = some (x, y) ↔ t = x ++ sep :: y ∧ sep ∉ y := by
  induction t generalizing x with
  | nil => simp [rsplitOnce]
  | cons b rest ih =>
    unfold rsplitOnce
    cases hr : rsplitOnce sep rest with
    | some xy =>
      obtain ⟨x', y'⟩ := xy
      have hmem : sep ∈ rest := Classical.byContradiction fun h => by rw [rsplitOnce_none.mpr h] at hr; cases hr
      simp only [Option.some.injEq, Prod.mk.injEq]
      constructor
      · rintro ⟨rfl, rfl⟩
        rw [hr] at ih
        have := ih.mp rfl
        exact ⟨by rw [this.1]; rfl, this.2⟩
      · rintro ⟨h1, h2⟩
        cases x with
        | nil =>
          simp only [List.nil_append, List.cons.injEq] at h1
          rw [h1.2] at hmem
          exact absurd hmem h2
        | cons c x =>
          simp only [List.cons_append, List.cons.injEq] at h1
          have := (ih (x := x)).mpr ⟨h1.2, h2⟩
          rw [hr] at this
          simp only [Option.some.injEq, Prod.mk.injEq] at this
          exact ⟨by rw [h1.1, this.1], this.2⟩
    | none =>
      have hmem : sep ∉ rest := rsplitOnce_none.mp hr
      by_cases hb : b = sep
      · simp only [hb, if_true, Option.some.injEq, Prod.mk.injEq]
        constructor
        · rintro ⟨rfl, rfl⟩
          exact ⟨rfl, hmem⟩
        · rintro ⟨h1, h2⟩
          cases x with
          | nil =>
            simp only [List.nil_append, List.cons.injEq] at h1
            exact ⟨rfl, h1.2⟩
          | cons c x =>
            simp only [List.cons_append, List.cons.injEq] at h1
            exact absurd (by rw [h1.2]; simp) hmem
      · simp only [hb, if_false, reduceCtorEq, false_iff, not_and]
        intro h1 h2
        cases x with
        | nil =>
          simp only [List.nil_append, List.cons.injEq] at h1
          exact hb h1.1
        | cons c x =>
          simp only [List.cons_append, List.cons.injEq] at h1
          exact hmem (by rw [h1.2]; simp)

theorem parseLogLevel_some {t : List UInt8} {l : LevelOrOff} : parseLogLevel t = some l ↔ t = levelName l := by
  unfold parseLogLevel
  constructor
  · intro h
    repeat' split at h
    all_goals first
      | (simp only [Option.some.injEq] at h; subst h; assumption)
      | cases h
  · rintro rfl
    rcases l with _ | l
    · rfl
    · cases l <;> rfl

theorem levelName_inj {l l' : LevelOrOff} (h : levelName l = levelName l') : l = l' := by
  have h1 := parseLogLevel_some.mpr (rfl : levelName l = levelName l)
  have h2 := parseLogLevel_some.mpr h
  rw [h1] at h2
  exact Option.some.inj h2

theorem levelName_no_eq (l : LevelOrOff) : 61 ∉ levelName l := by
  rcases l with _ | l
  · decide
  · cases l <;> decide

theorem levelName_ne_nil (l : LevelOrOff) : levelName l ≠ [] := by
  rcases l with _ | l
  · decide
  · cases l <;> decide

theorem levelName_no_comma (l : LevelOrOff) : 44 ∉ levelName l := by
  rcases l with _ | l
  · decide
  · cases l <;> decide

/-- What a directive becomes. -/
def entryOf : Directive → Bool → Entry
  | .all l, _ => .logLevel l
  | .inModule p _, false => .modulePath p
  | .inModule p l, true => .modulePathLogLevel p l

/-- The entry stands for the directive. -/
def Entry.means : Entry → Directive
  | .logLevel l => .all l
  | .modulePath p => .inModule p (some .trace)
  | .modulePathLogLevel p l => .inModule p l

theorem parseEntry_says {ident : List UInt8 → Bool} {t : List UInt8} {d : Directive} (h : Says ident t d) :
    ∃ e, parseEntry ident t = .ok e ∧ e.means = d := by
  cases h with
  | all l =>
    refine ⟨.logLevel l, ?_, rfl⟩
    unfold parseEntry
    rw [rsplitOnce_none.mpr (levelName_no_eq l)]
    simp only
    rw [parseLogLevel_some.mpr rfl]
  | path p hp heq hlevel =>
    refine ⟨.modulePath p, ?_, rfl⟩
    unfold parseEntry
    rw [rsplitOnce_none.mpr heq]
    simp only
    cases hl : parseLogLevel (pathText p) with
    | some l => exact absurd (parseLogLevel_some.mp hl) (hlevel l)
    | none => simp only; rw [parse_isPath hp]
  | pathLevel p l hp =>
    refine ⟨.modulePathLogLevel p l, ?_, rfl⟩
    unfold parseEntry
    rw [(rsplitOnce_some (x := pathText p) (y := levelName l)).mpr ⟨by simp, levelName_no_eq l⟩]
    simp only
    rw [parse_isPath hp]
    simp only
    rw [parseLogLevel_some.mpr rfl]

/-! ### Order of paths -/

instance : Trans (α := List UInt8) (· < ·) (· < ·) (· < ·) := ⟨fun h1 h2 => List.lt_trans h1 h2⟩

theorem path_lt_trans {p q r : ModulePath} (h1 : p < q) (h2 : q < r) : p < r := List.lt_trans h1 h2

theorem bytes_lt_irrefl (p : List UInt8) : ¬ p < p := List.lt_irrefl p

theorem path_lt_irrefl (p : ModulePath) : ¬ p < p := by
  intro h
  induction p with
  | nil => cases h
  | cons s rest ih =>
    rcases List.cons_lt_cons_iff.mp h with h | h
    · exact bytes_lt_irrefl _ h
    · exact ih h.2

theorem bytes_trichotomy (p q : List UInt8) : p = q ∨ p < q ∨ q < p := by
  induction p generalizing q with
  | nil => cases q with
    | nil => exact .inl rfl
    | cons b q => exact .inr (.inl (List.nil_lt_cons _ _))
  | cons a p ih => cases q with
    | nil => exact .inr (.inr (List.nil_lt_cons _ _))
    | cons b q =>
      by_cases hab : a = b
      · subst hab
        rcases ih q with h | h | h
        · exact .inl (by rw [h])
        · exact .inr (.inl (List.cons_lt_cons_iff.mpr (.inr ⟨rfl, h⟩)))
        · exact .inr (.inr (List.cons_lt_cons_iff.mpr (.inr ⟨rfl, h⟩)))
      · by_cases hlt : a < b
        · exact .inr (.inl (List.cons_lt_cons_iff.mpr (.inl hlt)))
        · refine .inr (.inr (List.cons_lt_cons_iff.mpr (.inl ?_)))
          rw [UInt8.lt_iff_toNat_lt] at hlt ⊢
          have : a.toNat ≠ b.toNat := fun h => hab (UInt8.toNat_inj.mp h)
          omega

theorem path_trichotomy (p q : ModulePath) : p = q ∨ p < q ∨ q < p := by
  induction p generalizing q with
  | nil => cases q with
    | nil => exact .inl rfl
    | cons b q => exact .inr (.inl (List.nil_lt_cons _ _))
  | cons a p ih => cases q with
    | nil => exact .inr (.inr (List.nil_lt_cons _ _))
    | cons b q =>
      rcases bytes_trichotomy a b with hab | hab | hab
      · subst hab
        rcases ih q with h | h | h
        · exact .inl (by rw [h])
        · exact .inr (.inl (List.cons_lt_cons_iff.mpr (.inr ⟨rfl, h⟩)))
        · exact .inr (.inr (List.cons_lt_cons_iff.mpr (.inr ⟨rfl, h⟩)))
      · exact .inr (.inl (List.cons_lt_cons_iff.mpr (.inl hab)))
      · exact .inr (.inr (List.cons_lt_cons_iff.mpr (.inl hab)))

/-- Enclosing modules come first. -/
theorem lt_append (p : ModulePath) {r : ModulePath} (h : r ≠ []) : p < p ++ r := by
  induction p with
  | nil => cases r with
    | nil => exact absurd rfl h
    | cons s r => exact List.nil_lt_cons _ _
  | cons s p ih => exact List.cons_lt_cons_iff.mpr (.inr ⟨rfl, ih⟩)

/-- Of two modules around the same module, the one that is greater is longer. -/
theorem length_le_of_lt {p q m : ModulePath} (hp : Encloses p m) (hq : Encloses q m) (h : q < p) :
    q.length ≤ p.length := by
  obtain ⟨a, ha⟩ := hp
  obtain ⟨b, hb⟩ := hq
  rcases List.append_eq_append_iff.mp (ha.symm.trans hb) with ⟨c, hc, -⟩ | ⟨c, hc, -⟩
  · by_cases hcn : c = []
    · rw [hc, hcn]; simp
    · exact absurd (path_lt_trans h (hc ▸ lt_append p hcn)) (path_lt_irrefl _)
  · rw [hc]; simp

theorem eq_of_length {p q m : ModulePath} (hp : Encloses p m) (hq : Encloses q m) (h : q.length = p.length) : q = p := by
  obtain ⟨a, ha⟩ := hp
  obtain ⟨b, hb⟩ := hq
  exact (List.append_inj (hb.symm.trans ha) h).1

/-! ### Maps -/

/-- `BTreeMap::get`. -/
def lookup {V : Type} (p : ModulePath) : List (ModulePath × V) → Option V
  | [] => none
  | (q, v) :: rest => if q = p then some v else lookup p rest

/-- Keys ascend. -/
def Sorted {V : Type} (m : List (ModulePath × V)) : Prop := m.Pairwise (fun a b => a.1 < b.1)

theorem lookup_insert_same {V : Type} (p : ModulePath) (v : V) (m : List (ModulePath × V)) :
    lookup p (mapInsert p v m) = some v := by
  induction m with
  | nil => simp [mapInsert, lookup]
  | cons e rest ih =>
    obtain ⟨q, w⟩ := e
    unfold mapInsert
    split
    · simp [lookup]
    · rename_i hne
      split
      · simp [lookup]
      · simp only [lookup]; rw [if_neg (fun h => hne h.symm), ih]

theorem lookup_insert_ne {V : Type} {p q : ModulePath} (h : p ≠ q) (v : V) (m : List (ModulePath × V)) :
    lookup q (mapInsert p v m) = lookup q m := by
  induction m with
  | nil => simp [mapInsert, lookup, h]
  | cons e rest ih =>
    obtain ⟨r, w⟩ := e
    unfold mapInsert
    split
    · rename_i hr; simp only [lookup]; rw [if_neg h, if_neg (hr ▸ h)]
    · split
      · simp only [lookup]; rw [if_neg h]
      · simp only [lookup]; rw [ih]

theorem mem_insert {V : Type} {p : ModulePath} {v : V} {m : List (ModulePath × V)} {e : ModulePath × V}
    (h : e ∈ mapInsert p v m) : e = (p, v) ∨ e ∈ m := by
  induction m with
  | nil => simpa [mapInsert] using h
  | cons d rest ih =>
    obtain ⟨q, w⟩ := d
    unfold mapInsert at h
    split at h
    · rcases List.mem_cons.mp h with h | h
      · exact .inl h
      · exact .inr (List.mem_cons_of_mem _ h)
    · split at h
      · rcases List.mem_cons.mp h with h | h
        · exact .inl h
        · exact .inr h
      · rcases List.mem_cons.mp h with h | h
        · exact .inr (h ▸ List.mem_cons_self ..)
        · exact (ih h).imp id (List.mem_cons_of_mem _)

theorem sorted_insert {V : Type} (p : ModulePath) (v : V) {m : List (ModulePath × V)} (h : Sorted m) :
    Sorted (mapInsert p v m) := by
  induction m with
  | nil => simp [mapInsert, Sorted]
  | cons d rest ih =>
    obtain ⟨q, w⟩ := d
    have hc := List.pairwise_cons.mp h
    unfold mapInsert
    split
    · rename_i hpq
      exact List.pairwise_cons.mpr ⟨fun e he => by simpa [hpq] using hc.1 e he, hc.2⟩
    · rename_i hne
      split
      · rename_i hlt
        refine List.pairwise_cons.mpr ⟨fun e he => ?_, h⟩
        rcases List.mem_cons.mp he with he | he
        · rw [he]; exact hlt
        · exact path_lt_trans hlt (hc.1 e he)
      · rename_i hnlt
        refine List.pairwise_cons.mpr ⟨fun e he => ?_, ih hc.2⟩
        rcases mem_insert he with he | he
        · rw [he]
          rcases path_trichotomy p q with h | h | h
          · exact absurd h hne
          · exact absurd h hnlt
          · exact h
        · exact hc.1 e he

theorem lookup_some_mem {V : Type} {p : ModulePath} {v : V} {m : List (ModulePath × V)} (h : lookup p m = some v) :
    (p, v) ∈ m := by
  induction m with
  | nil => cases h
  | cons d rest ih =>
    obtain ⟨q, w⟩ := d
    simp only [lookup] at h
    split at h
    · rename_i hq; simp only [Option.some.injEq] at h; rw [hq, h]; simp
    · exact List.mem_cons_of_mem _ (ih h)

theorem mem_iff_lookup {V : Type} {p : ModulePath} {v : V} {m : List (ModulePath × V)} (hs : Sorted m) :
    (p, v) ∈ m ↔ lookup p m = some v := by
  refine ⟨fun h => ?_, lookup_some_mem⟩
  induction m with
  | nil => cases h
  | cons d rest ih =>
    obtain ⟨q, w⟩ := d
    have hc := List.pairwise_cons.mp hs
    simp only [lookup]
    rcases List.mem_cons.mp h with h | h
    · injection h with h1 h2; rw [if_pos h1.symm, h2]
    · rw [if_neg (fun hq => path_lt_irrefl p ?_), ih hc.2 h]
      have := hc.1 _ h
      simpa [hq] using this

theorem mapContains_iff {V : Type} {p : ModulePath} {m : List (ModulePath × V)} :
    mapContains p m = (lookup p m).isSome := by
  induction m with
  | nil => rfl
  | cons d rest ih =>
    obtain ⟨q, w⟩ := d
    simp only [mapContains, List.any_cons, lookup] at ih ⊢
    by_cases hq : q = p
    · simp [hq]
    · simp [hq, ih]

/-! ### The filter -/

theorem addEntry_sorted {krate : List UInt8} {f : Filter} (p : ModulePath) (l : LevelOrOff) (h : Sorted f) :
    Sorted (addEntry krate f p l) := by
  unfold addEntry
  split
  · exact sorted_insert _ _ h
  · exact h

theorem mem_addEntry {krate : List UInt8} {f : Filter} {p : ModulePath} {l : LevelOrOff} {e : ModulePath × LevelOrOff}
    (h : e ∈ addEntry krate f p l) : e = (p, l) ∨ e ∈ f := by
  unfold addEntry at h
  split at h
  · exact mem_insert h
  · exact .inr h

theorem lookup_addEntry {krate : List UInt8} (f : Filter) (p : ModulePath) (l : LevelOrOff) (q : ModulePath) :
    lookup q (addEntry krate f p l) =
      match lookup q f with
      | some l' => some l'
      | none => if q = p ∧ p.head? = some krate then some l else none := by
  unfold addEntry
  by_cases hc : inCrate krate p = true
  · have hk : p.head? = some krate := by simpa [inCrate] using hc
    cases hm : mapContains p f with
    | true =>
      simp only [hc, Bool.not_true, Bool.and_false, Bool.false_eq_true, if_false]
      cases hq : lookup q f with
      | some l' => rfl
      | none =>
        simp only
        rw [if_neg]
        rintro ⟨rfl, -⟩
        rw [mapContains_iff, hq] at hm
        cases hm
    | false =>
      simp only [hc, Bool.not_false, Bool.and_true, if_true]
      have hn : lookup p f = none := by
        rw [mapContains_iff] at hm
        cases h : lookup p f with
        | none => rfl
        | some x => rw [h] at hm; cases hm
      by_cases hpq : p = q
      · subst hpq; rw [lookup_insert_same, hn]; simp [hk]
      · rw [lookup_insert_ne hpq]
        cases lookup q f with
        | some l' => rfl
        | none => simp only; rw [if_neg (fun h => hpq h.1.symm)]
  · simp only [hc, Bool.false_and, Bool.false_eq_true, if_false]
    cases hq : lookup q f with
    | some l' => rfl
    | none =>
      simp only
      rw [if_neg]
      rintro ⟨-, h⟩
      exact hc (by simpa [inCrate] using h)

/-- The level of the first directive of a list for exactly this path. -/
def firstFor (p : ModulePath) : List Directive → Option LevelOrOff
  | [] => none
  | .all _ :: ds => firstFor p ds
  | .inModule q l :: ds => if q = p then some l else firstFor p ds

def firstGlobal : List Directive → Option LevelOrOff
  | [] => none
  | .all l :: _ => some l
  | .inModule _ _ :: ds => firstGlobal ds

theorem firstFor_append (p : ModulePath) (a b : List Directive) :
    firstFor p (a ++ b) = match firstFor p a with
      | some l => some l
      | none => firstFor p b := by
  induction a with
  | nil => rfl
  | cons d a ih =>
    cases d with
    | all l => simpa [firstFor] using ih
    | inModule q l =>
      simp only [List.cons_append, firstFor]
      split
      · rfl
      · exact ih

theorem firstGlobal_append (a b : List Directive) :
    firstGlobal (a ++ b) = match firstGlobal a with
      | some l => some l
      | none => firstGlobal b := by
  induction a with
  | nil => rfl
  | cons d a ih =>
    cases d with
    | all l => rfl
    | inModule q l => simpa [firstGlobal] using ih

theorem lastFor_eq (p : ModulePath) (ds : List Directive) : lastFor p ds = firstFor p ds.reverse := by
  induction ds with
  | nil => rfl
  | cons d ds ih =>
    rw [List.reverse_cons, firstFor_append, ← ih]
    simp only [lastFor]
    cases lastFor p ds with
    | some l => rfl
    | none => cases d <;> rfl

theorem lastGlobal_eq (ds : List Directive) : lastGlobal ds = firstGlobal ds.reverse := by
  induction ds with
  | nil => rfl
  | cons d ds ih =>
    rw [List.reverse_cons, firstGlobal_append, ← ih]
    simp only [lastGlobal]
    cases lastGlobal ds with
    | some l => rfl
    | none => cases d <;> rfl

theorem loop_spec {ident : List UInt8 → Bool} {krate : List UInt8} {ps : List (List UInt8)} {ds : List Directive}
    (h : Each (fun t d => ∃ e, parseEntry ident t = .ok e ∧ e.means = d) ps ds) (f : Filter)
    (fb : Option LevelOrOff) (hf : Sorted f) :
    ∃ f', loop ident krate ps f fb =
        .ok (f', match fb with
          | some l => some l
          | none => firstGlobal ds) ∧ Sorted f' ∧
      (∀ e ∈ f', e ∈ f ∨ ∃ l, .inModule e.1 l ∈ ds) ∧
      ∀ q, lookup q f' = match lookup q f with
        | some l => some l
        | none => if q.head? = some krate then firstFor q ds else none := by
  induction h generalizing f fb with
  | nil =>
    refine ⟨f, ?_, hf, fun e he => .inl he, fun q => ?_⟩
    · unfold loop; cases fb <;> rfl
    · cases lookup q f <;> simp [firstFor]
  | @cons t d ps ds hd _ ih =>
    obtain ⟨e, he, rfl⟩ := hd
    unfold loop
    rw [he]
    cases e with
    | logLevel l =>
      obtain ⟨f', h1, h2, h4, h3⟩ := ih f (some (fb.getD l)) hf
      refine ⟨f', ?_, h2, fun e he => (h4 e he).imp id (fun ⟨l, hl⟩ => ⟨l, List.mem_cons_of_mem _ hl⟩), ?_⟩
      · simp only; rw [h1]; cases fb <;> rfl
      · exact h3
    | modulePath p =>
      obtain ⟨f', h1, h2, h4, h3⟩ := ih (addEntry krate f p (some .trace)) fb (addEntry_sorted _ _ hf)
      refine ⟨f', h1, h2, fun e he => ?_, fun q => ?_⟩
      · rcases h4 e he with he | ⟨l, hl⟩
        · rcases mem_addEntry he with he | he
          · exact .inr ⟨_, by rw [he]; exact List.mem_cons_self ..⟩
          · exact .inl he
        · exact .inr ⟨l, List.mem_cons_of_mem _ hl⟩
      rw [h3 q, lookup_addEntry]
      cases lookup q f with
      | some l => rfl
      | none =>
        simp only [Entry.means, firstFor]
        by_cases hqp : q = p
        · subst hqp
          by_cases hk : q.head? = some krate <;> simp [hk]
        · have hpq : p ≠ q := fun h => hqp h.symm
          simp only [hqp, hpq, false_and, if_false]
    | modulePathLogLevel p l =>
      obtain ⟨f', h1, h2, h4, h3⟩ := ih (addEntry krate f p l) fb (addEntry_sorted _ _ hf)
      refine ⟨f', h1, h2, fun e he => ?_, fun q => ?_⟩
      · rcases h4 e he with he | ⟨l, hl⟩
        · rcases mem_addEntry he with he | he
          · exact .inr ⟨_, by rw [he]; exact List.mem_cons_self ..⟩
          · exact .inl he
        · exact .inr ⟨l, List.mem_cons_of_mem _ hl⟩
      rw [h3 q, lookup_addEntry]
      cases lookup q f with
      | some l => rfl
      | none =>
        simp only [Entry.means, firstFor]
        by_cases hqp : q = p
        · subst hqp
          by_cases hk : q.head? = some krate <;> simp [hk]
        · have hpq : p ≠ q := fun h => hqp h.symm
          simp only [hqp, hpq, false_and, if_false]

theorem each_snoc {α β : Type} {R : α → β → Prop} {x : α} {y : β} (h : R x y) {a : List α} {b : List β}
    (hab : Each R a b) : Each R (a ++ [x]) (b ++ [y]) := by
  induction hab with
  | nil => exact .cons h .nil
  | cons h1 _ ih => exact .cons h1 ih

theorem forall2_reverse {α β : Type} {R : α → β → Prop} {a : List α} {b : List β} (h : Each R a b) :
    Each R a.reverse b.reverse := by
  induction h with
  | nil => exact .nil
  | cons h1 _ ih =>
    rw [List.reverse_cons, List.reverse_cons]
    exact each_snoc h1 ih

theorem forall2_imp {α β : Type} {R S : α → β → Prop} (hi : ∀ a b, R a b → S a b) {a : List α} {b : List β}
    (h : Each R a b) : Each S a b := by
  induction h with
  | nil => exact .nil
  | cons h1 _ ih => exact .cons (hi _ _ h1) ih

theorem each_mem {α β : Type} {R : α → β → Prop} {a : List α} {b : List β} (h : Each R a b) {y : β} (hy : y ∈ b) :
    ∃ x ∈ a, R x y := by
  induction h with
  | nil => cases hy
  | cons h1 _ ih =>
    rcases List.mem_cons.mp hy with rfl | hy
    · exact ⟨_, List.mem_cons_self .., h1⟩
    · obtain ⟨x, hx, hr⟩ := ih hy
      exact ⟨x, List.mem_cons_of_mem _ hx, hr⟩

theorem says_isPath {ident : List UInt8 → Bool} {t : List UInt8} {p : ModulePath} {l : LevelOrOff}
    (h : Says ident t (.inModule p l)) : IsPath ident p := by
  cases h with
  | path _ hp => exact hp
  | pathLevel _ _ hp => exact hp

/-- The filter is what the directives say. -/
theorem new_spec {ident : List UInt8 → Bool} {text krate : List UInt8} {ds : List Directive}
    (hr : Reads ident text ds) (hk : IsPath ident [krate]) :
    ∃ f, EnvFilter.new ident (some text) krate = .ok f ∧ Sorted f ∧
      (∀ e ∈ f, e.1 ≠ [] ∧ ∀ s ∈ e.1, 58 ∉ s) ∧
      ∀ q : ModulePath, q.head? = some krate → lookup q f = givenTo ds krate q := by
  obtain ⟨ts, rfl, hts, hds⟩ := hr
  have hp := forall2_reverse (forall2_imp (fun _ _ => parseEntry_says) hds)
  obtain ⟨f', h1, h2, h4, h3⟩ := loop_spec (krate := krate) hp [] none .nil
  have hk' : ModulePath.parse ident krate = .ok [krate] := parse_isPath hk
  have hkeys : ∀ e ∈ f', e.1 ≠ [] ∧ ∀ s ∈ e.1, 58 ∉ s := by
    intro e he
    rcases h4 e he with he | ⟨l, hl⟩
    · cases he
    · obtain ⟨t, -, ht⟩ := each_mem hds (List.mem_reverse.mp hl)
      have := says_isPath ht
      exact ⟨this.1, fun s hs => (this.2.2 s hs).2⟩
  refine ⟨finish f' [krate] (firstGlobal ds.reverse), ?_, ?_, ?_, fun q hq => ?_⟩
  · unfold EnvFilter.new
    simp only [Option.getD_some]
    rw [pieces_commaList hts, h1]
    simp only [ModulePath.fromCrateName]
    rw [hk']
  · unfold finish
    split
    · exact h2
    · exact sorted_insert _ _ h2
  · intro e he
    unfold finish at he
    split at he
    · exact hkeys e he
    · rcases mem_insert he with rfl | he
      · exact ⟨hk.1, fun s hs => (hk.2.2 s hs).2⟩
      · exact hkeys e he
  · have hq' : lookup q f' = firstFor q ds.reverse := by rw [h3 q]; simp [lookup, hq]
    unfold givenTo finish
    rw [lastFor_eq, lastGlobal_eq]
    by_cases hqk : q = [krate]
    · subst hqk
      rw [mapContains_iff, hq']
      cases hf : firstFor [krate] ds.reverse with
      | some l => simp only [Option.isSome_some, if_true]; rw [hq', hf]
      | none =>
        simp only [Option.isSome_none, Bool.false_eq_true, if_false]
        rw [lookup_insert_same, if_pos trivial]
    · have : lookup q (if mapContains [krate] f' = true then f'
          else mapInsert [krate] ((firstGlobal ds.reverse).getD (some .error)) f') = lookup q f' := by
        split
        · rfl
        · exact lookup_insert_ne (fun h => hqk h.symm) _ _
      rw [this, hq']
      cases firstFor q ds.reverse with
      | some l => rfl
      | none => simp only; rw [if_neg hqk]

/-! ### The check -/

theorem startsWith_iff {p m : List UInt8} : startsWith p m = true ↔ ∃ r, m = p ++ r := by
  induction p generalizing m with
  | nil => simp [startsWith]
  | cons b p ih =>
    cases m with
    | nil => simp [startsWith]
    | cons c m => simp [startsWith, ih]

theorem isInsideOf_iff {p m : List UInt8} :
    isInsideOf p m = true ↔ ∃ r, m = p ++ r ∧ (r = [] ∨ r.head? = some 58) := by
  unfold isInsideOf
  constructor
  · intro h
    split at h
    · cases h
    · rename_i hlen
      simp only [Bool.and_eq_true] at h
      obtain ⟨r, rfl⟩ := startsWith_iff.mp h.1
      refine ⟨r, rfl, ?_⟩
      have h2 := h.2
      split at h2
      · rename_i hl
        simp only [List.length_append] at hl
        exact .inl (List.length_eq_zero_iff.mp (by omega))
      · right
        have : (p ++ r)[p.length]? = some 58 := by simpa using h2
        rw [List.getElem?_append_right (Nat.le_refl _)] at this
        simp only [Nat.sub_self] at this
        rw [List.head?_eq_getElem?]; exact this
  · rintro ⟨r, rfl, hr⟩
    rw [if_neg (by simp)]
    simp only [Bool.and_eq_true]
    refine ⟨startsWith_iff.mpr ⟨r, rfl⟩, ?_⟩
    rcases hr with rfl | hr
    · simp
    · cases r with
      | nil => cases hr
      | cons b r =>
        simp only [List.head?_cons, Option.some.injEq] at hr
        simp [hr]

/-- Cut a text at the first colon. -/
theorem cut_colon {a b x y : List UInt8} (ha : 58 ∉ a) (hb : 58 ∉ b) (h : a ++ 58 :: x = b ++ 58 :: y) : a = b ∧ x = y := by
  induction a generalizing b with
  | nil =>
    cases b with
    | nil => simpa using h
    | cons c b => simp only [List.nil_append, List.cons_append, List.cons.injEq] at h; simp [← h.1] at hb
  | cons c a ih =>
    cases b with
    | nil => simp only [List.nil_append, List.cons_append, List.cons.injEq] at h; simp [h.1] at ha
    | cons d b =>
      simp only [List.cons_append, List.cons.injEq] at h
      simp only [List.mem_cons, not_or] at ha hb
      obtain ⟨h1, h2⟩ := ih ha.2 hb.2 h.2
      exact ⟨by rw [h.1, h1], h2⟩

theorem isInsideOf_pathText {p m : List (List UInt8)} (hp : p ≠ []) (hm : m ≠ []) (hpc : ∀ s ∈ p, 58 ∉ s)
    (hmc : ∀ s ∈ m, 58 ∉ s) : isInsideOf (pathText p) (pathText m) = true ↔ Encloses p m := by
  rw [isInsideOf_iff]
  induction p generalizing m with
  | nil => exact absurd rfl hp
  | cons s p ih =>
    cases m with
    | nil => exact absurd rfl hm
    | cons t m =>
      have hs := hpc s (by simp)
      have ht := hmc t (by simp)
      cases p with
      | nil =>
        cases m with
        | nil =>
          simp only [pathText, Encloses, List.cons_append, List.nil_append, List.cons.injEq]
          constructor
          · rintro ⟨r, rfl, rfl | hr⟩
            · exact ⟨[], by simp, rfl⟩
            · cases r with
              | nil => cases hr
              | cons b r => simp only [List.head?_cons, Option.some.injEq] at hr; simp [hr] at ht
          · rintro ⟨inner, rfl, -⟩
            exact ⟨[], by simp, .inl rfl⟩
        | cons t' m =>
          simp only [pathText, Encloses, List.cons_append, List.nil_append, List.cons.injEq, List.append_assoc]
          constructor
          · rintro ⟨r, h, rfl | hr⟩
            · simp only [List.append_nil] at h
              rw [← h] at hs
              simp at hs
            · cases r with
              | nil => cases hr
              | cons b r =>
                simp only [List.head?_cons, Option.some.injEq] at hr
                rw [hr] at h
                exact ⟨t' :: m, (cut_colon ht hs h).1, rfl⟩
          · rintro ⟨inner, rfl, -⟩
            exact ⟨_, rfl, .inr rfl⟩
      | cons s' p =>
        cases m with
        | nil =>
          simp only [pathText, Encloses, List.cons_append, List.nil_append, List.cons.injEq, List.append_assoc]
          constructor
          · rintro ⟨r, h, -⟩
            rw [h] at ht; simp at ht
          · rintro ⟨inner, -, h⟩; cases h
        | cons t' m =>
          have ih := ih (m := t' :: m) (by simp) (by simp) (fun u hu => hpc u (List.mem_cons_of_mem _ hu))
            (fun u hu => hmc u (List.mem_cons_of_mem _ hu))
          have e1 : pathText (s :: s' :: p) = s ++ 58 :: 58 :: pathText (s' :: p) := by simp [pathText]
          have e2 : pathText (t :: t' :: m) = t ++ 58 :: 58 :: pathText (t' :: m) := by simp [pathText]
          rw [e1, e2]
          constructor
          · rintro ⟨r, h, hr⟩
            simp only [List.append_assoc, List.cons_append] at h
            obtain ⟨h1, h2⟩ := cut_colon ht hs h
            simp only [List.cons.injEq, true_and] at h2
            obtain ⟨inner, hi⟩ := ih.mp ⟨r, h2, hr⟩
            exact ⟨inner, by rw [h1, hi]; rfl⟩
          · rintro ⟨inner, h⟩
            simp only [List.cons_append, List.cons.injEq] at h
            obtain ⟨r, h2, hr⟩ := ih.mpr ⟨inner, by simpa using h.2⟩
            exact ⟨r, by rw [h.1, h2]; simp, hr⟩

theorem check_iff {m : ModulePath} (hm : m ≠ []) (hmc : ∀ s ∈ m, 58 ∉ s) {l : List (ModulePath × Bool)}
    (hs : l.Pairwise (fun a b => b.1 < a.1)) (hl : ∀ e ∈ l, e.1 ≠ [] ∧ ∀ s ∈ e.1, 58 ∉ s) :
    check (pathText m) (l.map (fun e => (ModulePath.display e.1, e.2))) = true ↔
      ∃ p, (p, true) ∈ l ∧ Encloses p m ∧ ∀ q, (q, false) ∈ l → Encloses q m → q.length ≤ p.length := by
  induction l with
  | nil => simp [check]
  | cons e rest ih =>
    obtain ⟨p, v⟩ := e
    have hc := List.pairwise_cons.mp hs
    have ih := ih hc.2 (fun e he => hl e (List.mem_cons_of_mem _ he))
    have hpe := hl (p, v) (by simp)
    simp only [List.map_cons, check, display_eq] at ih ⊢
    by_cases hin : isInsideOf (pathText p) (pathText m) = true
    · rw [if_pos hin]
      have henc := (isInsideOf_pathText hpe.1 hm hpe.2 hmc).mp hin
      constructor
      · rintro rfl
        refine ⟨p, by simp, henc, fun q hq hqm => ?_⟩
        rcases List.mem_cons.mp hq with hq | hq
        · cases hq
        · exact length_le_of_lt henc hqm (hc.1 _ hq)
      · rintro ⟨q, hq, hqm, hall⟩
        cases v with
        | true => rfl
        | false =>
          have h1 := hall p (by simp) henc
          rcases List.mem_cons.mp hq with hq | hq
          · cases hq
          · have hlt := hc.1 _ hq
            have h2 : q.length ≤ p.length := length_le_of_lt henc hqm hlt
            have := eq_of_length henc hqm (Nat.le_antisymm h2 h1)
            subst this
            exact absurd hlt (path_lt_irrefl _)
    · rw [if_neg hin, ih]
      have hnot : ¬ Encloses p m := fun h => hin ((isInsideOf_pathText hpe.1 hm hpe.2 hmc).mpr h)
      constructor
      · rintro ⟨q, hq, hqm, hall⟩
        refine ⟨q, List.mem_cons_of_mem _ hq, hqm, fun r hr hrm => ?_⟩
        rcases List.mem_cons.mp hr with hr | hr
        · injection hr with h1 h2; rw [h1] at hrm; exact absurd hrm hnot
        · exact hall r hr hrm
      · rintro ⟨q, hq, hqm, hall⟩
        rcases List.mem_cons.mp hq with hq | hq
        · injection hq with h1 h2; rw [h1] at hqm; exact absurd hqm hnot
        · exact ⟨q, hq, hqm, fun r hr hrm => hall r (List.mem_cons_of_mem _ hr) hrm⟩

theorem collect_sorted {V : Type} (l : List (ModulePath × V)) : Sorted (collect l) := by
  unfold collect
  have : ∀ (l m : List (ModulePath × V)), Sorted m → Sorted (l.foldl (fun m e => mapInsert e.1 e.2 m) m) := by
    intro l
    induction l with
    | nil => exact fun _ h => h
    | cons e l ih => exact fun m h => ih _ (sorted_insert _ _ h)
  exact this l [] .nil

theorem lookup_collect {V : Type} (l : List (ModulePath × V)) (q : ModulePath) :
    lookup q (collect l) = lookup q l.reverse := by
  unfold collect
  rw [← List.foldr_reverse]
  induction l.reverse with
  | nil => rfl
  | cons e l ih =>
    obtain ⟨p, v⟩ := e
    simp only [List.foldr_cons, lookup]
    by_cases h : p = q
    · subst h; rw [lookup_insert_same, if_pos rfl]
    · rw [lookup_insert_ne h, if_neg h, ih]

theorem lookup_append {V : Type} (a b : List (ModulePath × V)) (q : ModulePath) :
    lookup q (a ++ b) = match lookup q a with
      | some v => some v
      | none => lookup q b := by
  induction a with
  | nil => rfl
  | cons e a ih =>
    obtain ⟨p, v⟩ := e
    simp only [List.cons_append, lookup]
    split
    · rfl
    · exact ih

theorem lookup_map_const {V : Type} (l : List ModulePath) (v : V) (q : ModulePath) :
    lookup q (l.map (·, v)) = if q ∈ l then some v else none := by
  induction l with
  | nil => rfl
  | cons p l ih =>
    simp only [List.map_cons, lookup, ih, List.mem_cons]
    by_cases h : p = q
    · simp [h]
    · have h' : q ≠ p := fun hh => h hh.symm
      simp only [h, h', if_false, false_or]

theorem mem_modulesOnFor {f : Filter} (hs : Sorted f) {level : Level} {p : ModulePath} :
    p ∈ modulesOnFor f level ↔ ∃ min, lookup p f = some (some min) ∧ rank min ≤ rank level := by
  unfold modulesOnFor
  rw [List.mem_filterMap]
  constructor
  · rintro ⟨⟨q, l⟩, he, h⟩
    cases l with
    | none => cases h
    | some min =>
      simp only at h
      split at h
      · rename_i hr
        simp only [Option.some.injEq] at h
        subst h
        exact ⟨min, (mem_iff_lookup hs).mp he, hr⟩
      · cases h
  · rintro ⟨min, h, hr⟩
    exact ⟨(p, some min), (mem_iff_lookup hs).mpr h, by simp [hr]⟩

theorem mem_alwaysOff {f : Filter} (hs : Sorted f) {p : ModulePath} :
    p ∈ alwaysOffModules f ↔ lookup p f = some none := by
  unfold alwaysOffModules
  rw [List.mem_filterMap]
  constructor
  · rintro ⟨⟨q, l⟩, he, h⟩
    cases l with
    | none => simp only [Option.some.injEq] at h; subst h; exact (mem_iff_lookup hs).mp he
    | some min => cases h
  · intro h
    exact ⟨(p, none), (mem_iff_lookup hs).mpr h, rfl⟩

/-- Exactly when a statement is compiled in: some module around it has been given a level that the statement
reaches, and no module further inside is off. -/
theorem emits_iff {f : Filter} (hs : Sorted f) (hf : ∀ e ∈ f, e.1 ≠ [] ∧ ∀ s ∈ e.1, 58 ∉ s) {m : ModulePath}
    (hm : m ≠ []) (hmc : ∀ s ∈ m, 58 ∉ s) (level : Level) :
    emits f level (pathText m) = true ↔
      ∃ p min, lookup p f = some (some min) ∧ rank min ≤ rank level ∧ Encloses p m ∧
        ∀ q, lookup q f = some none → Encloses q m → q.length ≤ p.length := by
  have key : ∀ (p : ModulePath) (v : Bool),
      (p, v) ∈ collect ((modulesOnFor f level).map (·, true) ++ (alwaysOffModules f).map (·, false)) ↔
        if v then p ∈ modulesOnFor f level else p ∈ alwaysOffModules f := by
    intro p v
    rw [mem_iff_lookup (collect_sorted _), lookup_collect, List.reverse_append, ← List.map_reverse,
      ← List.map_reverse, lookup_append, lookup_map_const, lookup_map_const]
    have hdis : p ∈ alwaysOffModules f → p ∉ modulesOnFor f level := by
      intro h1 h2
      rw [mem_alwaysOff hs] at h1
      obtain ⟨min, h2, -⟩ := (mem_modulesOnFor hs).mp h2
      rw [h1] at h2; cases h2
    by_cases h1 : p ∈ alwaysOffModules f
    · have h2 := hdis h1
      cases v <;> simp [h1, h2]
    · by_cases h2 : p ∈ modulesOnFor f level <;> cases v <;> simp [h1, h2]
  unfold emits pathCheck
  by_cases hnil : modulesOnFor f level = []
  · rw [if_pos hnil]
    simp only [Bool.false_eq_true, false_iff]
    rintro ⟨p, min, h1, h2, -⟩
    have := (mem_modulesOnFor hs).mpr ⟨min, h1, h2⟩
    rw [hnil] at this; cases this
  · rw [if_neg hnil]
    simp only
    rw [check_iff hm hmc]
    · constructor
      · rintro ⟨p, hp, henc, hall⟩
        rw [List.mem_reverse, key] at hp
        obtain ⟨min, h1, h2⟩ := (mem_modulesOnFor hs).mp hp
        refine ⟨p, min, h1, h2, henc, fun q hq => hall q ?_⟩
        rw [List.mem_reverse, key]
        exact (mem_alwaysOff hs).mpr hq
      · rintro ⟨p, min, h1, h2, henc, hall⟩
        refine ⟨p, ?_, henc, fun q hq => hall q ?_⟩
        · rw [List.mem_reverse, key]; exact (mem_modulesOnFor hs).mpr ⟨min, h1, h2⟩
        · rw [List.mem_reverse, key] at hq; exact (mem_alwaysOff hs).mp hq
    · rw [List.pairwise_reverse]; exact collect_sorted _
    · rintro ⟨p, v⟩ he
      rw [List.mem_reverse, key] at he
      cases v with
      | true =>
        obtain ⟨min, h1, -⟩ := (mem_modulesOnFor hs).mp he
        exact hf _ (lookup_some_mem h1)
      | false => exact hf _ (lookup_some_mem ((mem_alwaysOff hs).mp he))

end Defmt.EnvFilter
