import Verif.Spec.Linker
import Verif.Lemmas.Elf
/-! Lemmas about the linker model. -/

namespace Defmt.Linker

open Parser Symbol Elf Bitflags Decoder

/-! ### Patterns -/

theorem mem_suffixes_nil (s : List Char) : [] ∈ suffixes s := by
  induction s with
  | nil => simp [suffixes]
  | cons c cs ih => simp [suffixes, ih]

theorem glob_star (s : List Char) : glob ['*'] s = true := by
  simp only [glob, if_true, List.any_eq_true]
  exact ⟨[], mem_suffixes_nil s, rfl⟩

/-- a pattern with one star, at its end -/
theorem glob_prefix (p : List Char) (hp : '*' ∉ p) (s : List Char) : glob (p ++ ['*']) s = hasPrefix p s := by
  induction p generalizing s with
  | nil =>
    rw [List.nil_append, glob_star]
    cases s <;> rfl
  | cons c cs ih =>
    have hc : c ≠ '*' := fun h => hp (by simp [h])
    have hcs : '*' ∉ cs := fun h => hp (by simp [h])
    cases s with
    | nil => simp [glob, hc, hasPrefix, stripPrefix]
    | cons d ds =>
      simp only [List.cons_append, glob, if_neg hc, ih hcs, hasPrefix, stripPrefix]
      by_cases hcd : c = d
      · simp [hcd]
      · simp [hcd]

/-- the patterns of the script -/
def rule (p : List Char) (i : Input) : Bool := hasPrefix p i.name

theorem matchesAny_one (p : List Char) (hp : '*' ∉ p) (name : List Char) : matchesAny [p ++ ['*']] name = hasPrefix p name := by
  simp [matchesAny, glob_prefix p hp]

theorem matches_prim (name) : matchesAny [c!".defmt.prim.*"] name = hasPrefix c!".defmt.prim." name :=
  matchesAny_one c!".defmt.prim." (by decide) name
theorem matches_trace (name) : matchesAny [c!".defmt.trace.*"] name = hasPrefix c!".defmt.trace." name :=
  matchesAny_one c!".defmt.trace." (by decide) name
theorem matches_debug (name) : matchesAny [c!".defmt.debug.*"] name = hasPrefix c!".defmt.debug." name :=
  matchesAny_one c!".defmt.debug." (by decide) name
theorem matches_info (name) : matchesAny [c!".defmt.info.*"] name = hasPrefix c!".defmt.info." name :=
  matchesAny_one c!".defmt.info." (by decide) name
theorem matches_warn (name) : matchesAny [c!".defmt.warn.*"] name = hasPrefix c!".defmt.warn." name :=
  matchesAny_one c!".defmt.warn." (by decide) name
theorem matches_error (name) : matchesAny [c!".defmt.error.*"] name = hasPrefix c!".defmt.error." name :=
  matchesAny_one c!".defmt.error." (by decide) name
theorem matches_all (name) : matchesAny [c!".defmt.*"] name = hasPrefix c!".defmt." name :=
  matchesAny_one c!".defmt." (by decide) name

theorem glob_literal (p : List Char) (hp : '*' ∉ p) (s : List Char) : glob p s = decide (s = p) := by
  induction p generalizing s with
  | nil => cases s <;> rfl
  | cons c cs ih =>
    have hc : c ≠ '*' := fun h => hp (by simp [h])
    have hcs : '*' ∉ cs := fun h => hp (by simp [h])
    cases s with
    | nil => simp [glob, hc]
    | cons d ds =>
      simp only [glob, if_neg hc, ih hcs]
      by_cases hcd : c = d
      · simp [hcd]
      · simp [hcd, Ne.symm hcd]

theorem matches_end (name) : matchesAny [c!".defmt.end", c!".defmt.end.*"] name =
    (decide (name = c!".defmt.end") || hasPrefix c!".defmt.end." name) := by
  have h1 := glob_literal c!".defmt.end" (by decide) name
  have h2 := glob_prefix c!".defmt.end." (by decide) name
  simp only [matchesAny, List.any_cons, List.any_nil, Bool.or_false, h1]
  exact congrArg _ h2

theorem kept_eq (name) : kept name = (decide (name = c!".defmt.end") || hasPrefix c!".defmt.end." name) := by
  rw [← matches_end]
  simp [kept, script]

theorem hasPrefix_iff {p s : List Char} : hasPrefix p s = true ↔ ∃ r, s = p ++ r := by
  unfold hasPrefix
  cases h : stripPrefix p s with
  | none =>
    simp only [Option.isSome_none, Bool.false_eq_true, false_iff]
    rintro ⟨r, hr⟩
    rw [stripPrefix_iff.mpr hr] at h
    cases h
  | some r =>
    simp only [Option.isSome_some, true_iff]
    exact ⟨r, stripPrefix_iff.mp h⟩

/-! ### Placing -/

/-- A static is in the contents at the place of its symbol. -/
def Holds (bytes : List UInt8) (s : Static) (e : ElfSymbol) : Prop :=
  e = ⟨some s.symbol, true, e.address, s.bytes.length⟩ ∧ e.address + s.bytes.length ≤ bytes.length ∧
  (bytes.drop e.address).take s.bytes.length = s.bytes

theorem Holds.append {bytes : List UInt8} {s : Static} {e : ElfSymbol} (h : Holds bytes s e) (more : List UInt8) :
    Holds (bytes ++ more) s e := by
  obtain ⟨h1, h2, h3⟩ := h
  refine ⟨h1, by simp; omega, ?_⟩
  rw [List.drop_append_of_le_length (by omega), List.take_append_of_le_length (by simp; omega), h3]

/-- `o'` is `o` with the statics placed after what is there. -/
structure Emitted (o o' : Out) (statics : List Static) (ss : List ElfSymbol) : Prop where
  bytes : ∃ bs, o'.bytes = o.bytes ++ bs
  symbols : o'.symbols = o.symbols ++ ss
  names : ss.map (·.name) = statics.map (fun s => some s.symbol)
  from_ : ∀ e ∈ ss, o.bytes.length ≤ e.address ∧ ∃ s ∈ statics, Holds o'.bytes s e
  to : ∀ s ∈ statics, ∃ e ∈ ss, Holds o'.bytes s e
  sorted : ss.Pairwise (fun a b => a.address + a.size ≤ b.address)

theorem Emitted.nil (o o' : Out) (h1 : ∃ bs, o'.bytes = o.bytes ++ bs) (h2 : o'.symbols = o.symbols) : Emitted o o' [] [] where
  bytes := h1
  symbols := by simp [h2]
  names := rfl
  from_ := by simp
  to := by simp
  sorted := .nil

theorem Emitted.trans {o o' o'' : Out} {p q : List Static} {ss tt : List ElfSymbol} (h : Emitted o o' p ss) (k : Emitted o' o'' q tt) :
    Emitted o o'' (p ++ q) (ss ++ tt) := by
  obtain ⟨bs, hb⟩ := h.bytes
  obtain ⟨cs, hc⟩ := k.bytes
  refine ⟨⟨bs ++ cs, by rw [hc, hb, List.append_assoc]⟩, by rw [k.symbols, h.symbols, List.append_assoc], by
    rw [List.map_append, List.map_append, h.names, k.names], ?_, ?_, ?_⟩
  · intro e he
    rcases List.mem_append.mp he with he | he
    · obtain ⟨h1, s, hs, h2⟩ := h.from_ e he
      exact ⟨h1, s, List.mem_append_left _ hs, by rw [hc]; exact h2.append _⟩
    · obtain ⟨h1, s, hs, h2⟩ := k.from_ e he
      refine ⟨?_, s, List.mem_append_right _ hs, h2⟩
      rw [hb, List.length_append] at h1; omega
  · intro s hs
    rcases List.mem_append.mp hs with hs | hs
    · obtain ⟨e, he, h2⟩ := h.to s hs
      exact ⟨e, List.mem_append_left _ he, by rw [hc]; exact h2.append _⟩
    · obtain ⟨e, he, h2⟩ := k.to s hs
      exact ⟨e, List.mem_append_right _ he, h2⟩
  · refine List.pairwise_append.mpr ⟨h.sorted, k.sorted, ?_⟩
    intro a ha b hb'
    obtain ⟨-, s, -, ⟨h1, h2, -⟩⟩ := h.from_ a ha
    have h3 := (k.from_ b hb').1
    have : a.size = s.bytes.length := by rw [h1]
    omega

theorem emitStatic_emitted (o : Out) (s : Static) :
    ∃ ss, Emitted o (emitStatic o s) [s] ss := by
  refine ⟨[⟨some s.symbol, true, (pad s.align o.bytes).length, s.bytes.length⟩], ⟨?_, rfl, rfl, ?_, ?_, List.pairwise_singleton _ _⟩⟩
  · refine ⟨List.replicate ((s.align - o.bytes.length % s.align) % s.align) 0 ++ s.bytes, ?_⟩
    show pad _ _ ++ _ = _
    rw [pad, List.append_assoc]
  · intro e he
    rw [List.mem_singleton.mp he]
    refine ⟨by simp [pad], s, by simp, rfl, ?_, ?_⟩
    · simp [emitStatic]
    · simp [emitStatic]
  · intro s' hs'
    rw [List.mem_singleton.mp hs']
    refine ⟨⟨some s.symbol, true, (pad s.align o.bytes).length, s.bytes.length⟩, List.mem_singleton.mpr rfl, rfl, ?_, ?_⟩
    · simp [emitStatic]
    · simp [emitStatic]

theorem foldl_emitStatic (l : List Static) (o : Out) : ∃ ss, Emitted o (l.foldl emitStatic o) l ss := by
  induction l generalizing o with
  | nil => exact ⟨[], .nil _ _ ⟨[], by simp⟩ rfl⟩
  | cons s l ih =>
    obtain ⟨ss, h1⟩ := emitStatic_emitted o s
    obtain ⟨tt, h2⟩ := ih (emitStatic o s)
    exact ⟨ss ++ tt, h1.trans h2⟩

theorem emitInput_emitted (o : Out) (i : Input) : ∃ ss, Emitted o (emitInput o i) i.statics ss := by
  obtain ⟨ss, h⟩ := foldl_emitStatic i.statics { o with bytes := pad i.align o.bytes }
  have h0 : Emitted o { o with bytes := pad i.align o.bytes } [] [] := .nil _ _ ⟨_, rfl⟩ rfl
  exact ⟨[] ++ ss, h0.trans h⟩

theorem foldl_emitInput (l : List Input) (o : Out) : ∃ ss, Emitted o (l.foldl emitInput o) (l.flatMap (·.statics)) ss := by
  induction l generalizing o with
  | nil => exact ⟨[], .nil _ _ ⟨[], by simp⟩ rfl⟩
  | cons i l ih =>
    obtain ⟨ss, h1⟩ := emitInput_emitted o i
    obtain ⟨tt, h2⟩ := ih (emitInput o i)
    exact ⟨ss ++ tt, by rw [List.flatMap_cons]; exact h1.trans h2⟩

theorem markers_foldl_static (l : List Static) (o : Out) : (l.foldl emitStatic o).markers = o.markers := by
  induction l generalizing o with
  | nil => rfl
  | cons s l ih => rw [List.foldl_cons, ih]; rfl

theorem markers_emitInput (o : Out) (i : Input) : (emitInput o i).markers = o.markers := markers_foldl_static _ _

theorem markers_foldl (l : List Input) (o : Out) : (l.foldl emitInput o).markers = o.markers := by
  induction l generalizing o with
  | nil => rfl
  | cons i l ih => rw [List.foldl_cons, ih, markers_emitInput]

/-! ### The phases of the script -/

/-- the inputs of a rule, and what is left for the rules after it -/
def taken (p : List Char) (l : List Input) : List Input := l.filter (fun i => hasPrefix p i.name)
def left (p : List Char) (l : List Input) : List Input := l.filter (fun i => !hasPrefix p i.name)

/-- The output after each of the rules, and the markers. -/
structure Phases (live : List Input) (o : Out) where
  (o0 o1 o2 o3 o4 o5 o6 o7 : Out)
  (s1 s2 s3 s4 s5 s6 s7 : List ElfSymbol)
  start : o0.bytes = [0] ∧ o0.symbols = []
  prim : Emitted o0 o1 ((taken c!".defmt.prim." live).flatMap (·.statics)) s1
  trace : Emitted o1 o2 ((taken c!".defmt.trace." (left c!".defmt.prim." live)).flatMap (·.statics)) s2
  debug : Emitted o2 o3 ((taken c!".defmt.debug." (left c!".defmt.trace." (left c!".defmt.prim." live))).flatMap (·.statics)) s3
  info : Emitted o3 o4 ((taken c!".defmt.info." (left c!".defmt.debug." (left c!".defmt.trace." (left c!".defmt.prim." live)))).flatMap (·.statics)) s4
  warn : Emitted o4 o5 ((taken c!".defmt.warn." (left c!".defmt.info." (left c!".defmt.debug." (left c!".defmt.trace." (left c!".defmt.prim." live))))).flatMap (·.statics)) s5
  error : Emitted o5 o6 ((taken c!".defmt.error." (left c!".defmt.warn." (left c!".defmt.info." (left c!".defmt.debug." (left c!".defmt.trace." (left c!".defmt.prim." live)))))).flatMap (·.statics)) s6
  rest : Emitted o6 o7 ((taken c!".defmt." (left c!".defmt.error." (left c!".defmt.warn." (left c!".defmt.info." (left c!".defmt.debug." (left c!".defmt.trace." (left c!".defmt.prim." live))))))).flatMap (·.statics)) s7
  final : o.bytes = o7.bytes ∧ o.symbols = o7.symbols
  markers : o.markers = [
    (c!"__DEFMT_MARKER_TRACE_START", o1.bytes.length), (c!"__DEFMT_MARKER_TRACE_END", o2.bytes.length),
    (c!"__DEFMT_MARKER_DEBUG_START", o2.bytes.length), (c!"__DEFMT_MARKER_DEBUG_END", o3.bytes.length),
    (c!"__DEFMT_MARKER_INFO_START", o3.bytes.length), (c!"__DEFMT_MARKER_INFO_END", o4.bytes.length),
    (c!"__DEFMT_MARKER_WARN_START", o4.bytes.length), (c!"__DEFMT_MARKER_WARN_END", o5.bytes.length),
    (c!"__DEFMT_MARKER_ERROR_START", o5.bytes.length), (c!"__DEFMT_MARKER_ERROR_END", o6.bytes.length),
    (c!"__DEFMT_MARKER_END", o7.bytes.length)]

theorem end_taken (l : List Input) :
    ((l.filter (fun i => !hasPrefix c!".defmt." i.name)).filter (fun i => matchesAny [c!".defmt.end", c!".defmt.end.*"] i.name)) = [] := by
  rw [List.filter_eq_nil_iff]
  intro i hi
  have h := (List.mem_filter.mp hi).2
  rw [matches_end]
  intro hc
  have : hasPrefix c!".defmt." i.name = true := by
    rw [Bool.or_eq_true, decide_eq_true_eq] at hc
    rcases hc with hc | hc
    · rw [hc]; rfl
    · obtain ⟨r, hr⟩ := hasPrefix_iff.mp hc
      exact hasPrefix_iff.mpr ⟨c!"end." ++ r, by rw [hr]; rfl⟩
  rw [this] at h
  cases h

theorem run_emit (pats : List (List Char)) (k : Bool) (cs : List Command) (ins : List Input) (o : Out) (p : List Char)
    (hp : ∀ n, matchesAny pats n = hasPrefix p n) :
    ∃ o' ss, Emitted o o' ((taken p ins).flatMap (·.statics)) ss ∧ o'.markers = o.markers ∧
      run (.input k pats :: cs) ins o = run cs (left p ins) o' := by
  obtain ⟨ss, h⟩ := foldl_emitInput (taken p ins) o
  refine ⟨_, ss, h, markers_foldl _ _, ?_⟩
  show run cs _ _ = _
  simp only [hp]
  rfl

theorem run_marker (m : List Char) (cs : List Command) (ins : List Input) (o : Out) :
    run (.marker m :: cs) ins o = run cs ins ⟨o.bytes, o.symbols, o.markers ++ [(m, o.bytes.length)]⟩ := rfl

theorem phases (live : List Input) : Nonempty (Phases live (run script live ⟨[], [], []⟩)) := by
  have h0 : run script live ⟨[], [], []⟩ = run script.tail live ⟨[0], [], []⟩ := rfl
  rw [h0]; clear h0
  obtain ⟨o1, s1, e1, m1, r1⟩ := run_emit _ false (script.drop 2) live ⟨[0], [], []⟩ _ matches_prim
  have : script.tail = .input false [c!".defmt.prim.*"] :: script.drop 2 := rfl
  rw [this, r1]; clear this r1
  have : script.drop 2 = .marker c!"__DEFMT_MARKER_TRACE_START" :: .input false [c!".defmt.trace.*"] :: script.drop 4 := rfl
  rw [this, run_marker]; clear this
  obtain ⟨o2, s2, e2, m2, r2⟩ := run_emit _ false (script.drop 4) (left c!".defmt.prim." live)
    ⟨o1.bytes, o1.symbols, o1.markers ++ [(c!"__DEFMT_MARKER_TRACE_START", o1.bytes.length)]⟩ _ matches_trace
  rw [r2]; clear r2
  have : script.drop 4 = .marker c!"__DEFMT_MARKER_TRACE_END" :: .marker c!"__DEFMT_MARKER_DEBUG_START" :: .input false [c!".defmt.debug.*"] :: script.drop 7 := rfl
  rw [this, run_marker, run_marker]; clear this
  obtain ⟨o3, s3, e3, m3, r3⟩ := run_emit _ false (script.drop 7) (left c!".defmt.trace." (left c!".defmt.prim." live))
    ⟨o2.bytes, o2.symbols, o2.markers ++ [(c!"__DEFMT_MARKER_TRACE_END", o2.bytes.length)] ++ [(c!"__DEFMT_MARKER_DEBUG_START", o2.bytes.length)]⟩ _ matches_debug
  rw [r3]; clear r3
  have : script.drop 7 = .marker c!"__DEFMT_MARKER_DEBUG_END" :: .marker c!"__DEFMT_MARKER_INFO_START" :: .input false [c!".defmt.info.*"] :: script.drop 10 := rfl
  rw [this, run_marker, run_marker]; clear this
  obtain ⟨o4, s4, e4, m4, r4⟩ := run_emit _ false (script.drop 10) (left c!".defmt.debug." (left c!".defmt.trace." (left c!".defmt.prim." live)))
    ⟨o3.bytes, o3.symbols, o3.markers ++ [(c!"__DEFMT_MARKER_DEBUG_END", o3.bytes.length)] ++ [(c!"__DEFMT_MARKER_INFO_START", o3.bytes.length)]⟩ _ matches_info
  rw [r4]; clear r4
  have : script.drop 10 = .marker c!"__DEFMT_MARKER_INFO_END" :: .marker c!"__DEFMT_MARKER_WARN_START" :: .input false [c!".defmt.warn.*"] :: script.drop 13 := rfl
  rw [this, run_marker, run_marker]; clear this
  obtain ⟨o5, s5, e5, m5, r5⟩ := run_emit _ false (script.drop 13) (left c!".defmt.info." (left c!".defmt.debug." (left c!".defmt.trace." (left c!".defmt.prim." live))))
    ⟨o4.bytes, o4.symbols, o4.markers ++ [(c!"__DEFMT_MARKER_INFO_END", o4.bytes.length)] ++ [(c!"__DEFMT_MARKER_WARN_START", o4.bytes.length)]⟩ _ matches_warn
  rw [r5]; clear r5
  have : script.drop 13 = .marker c!"__DEFMT_MARKER_WARN_END" :: .marker c!"__DEFMT_MARKER_ERROR_START" :: .input false [c!".defmt.error.*"] :: script.drop 16 := rfl
  rw [this, run_marker, run_marker]; clear this
  obtain ⟨o6, s6, e6, m6, r6⟩ := run_emit _ false (script.drop 16) (left c!".defmt.warn." (left c!".defmt.info." (left c!".defmt.debug." (left c!".defmt.trace." (left c!".defmt.prim." live)))))
    ⟨o5.bytes, o5.symbols, o5.markers ++ [(c!"__DEFMT_MARKER_WARN_END", o5.bytes.length)] ++ [(c!"__DEFMT_MARKER_ERROR_START", o5.bytes.length)]⟩ _ matches_error
  rw [r6]; clear r6
  have : script.drop 16 = .marker c!"__DEFMT_MARKER_ERROR_END" :: .input false [c!".defmt.*"] :: script.drop 18 := rfl
  rw [this, run_marker]; clear this
  obtain ⟨o7, s7, e7, m7, r7⟩ := run_emit _ false (script.drop 18) (left c!".defmt.error." (left c!".defmt.warn." (left c!".defmt.info." (left c!".defmt.debug." (left c!".defmt.trace." (left c!".defmt.prim." live))))))
    ⟨o6.bytes, o6.symbols, o6.markers ++ [(c!"__DEFMT_MARKER_ERROR_END", o6.bytes.length)]⟩ _ matches_all
  rw [r7]; clear r7
  have : script.drop 18 = [.marker c!"__DEFMT_MARKER_END", .input true [c!".defmt.end", c!".defmt.end.*"]] := rfl
  rw [this, run_marker]; clear this
  have hlast : ∀ l o, run [.input true [c!".defmt.end", c!".defmt.end.*"]] (left c!".defmt." l) o = o := by
    intro l o
    simp only [run, left, end_taken, List.foldl_nil]
  rw [hlast]
  exact ⟨⟨⟨[0], [], []⟩, o1, o2, o3, o4, o5, o6, o7, s1, s2, s3, s4, s5, s6, s7, ⟨rfl, rfl⟩, e1, ⟨e2.1, e2.2, e2.3, e2.4, e2.5, e2.6⟩,
    ⟨e3.1, e3.2, e3.3, e3.4, e3.5, e3.6⟩, ⟨e4.1, e4.2, e4.3, e4.4, e4.5, e4.6⟩, ⟨e5.1, e5.2, e5.3, e5.4, e5.5, e5.6⟩,
    ⟨e6.1, e6.2, e6.3, e6.4, e6.5, e6.6⟩, ⟨e7.1, e7.2, e7.3, e7.4, e7.5, e7.6⟩, ⟨rfl, rfl⟩, by simp [m1, m2, m3, m4, m5, m6, m7]⟩⟩

/-- the inputs in the order of the output -/
def ordered (live : List Input) : List Input :=
  taken c!".defmt.prim." live ++ (taken c!".defmt.trace." (left c!".defmt.prim." live) ++
  (taken c!".defmt.debug." (left c!".defmt.trace." (left c!".defmt.prim." live)) ++
  (taken c!".defmt.info." (left c!".defmt.debug." (left c!".defmt.trace." (left c!".defmt.prim." live))) ++
  (taken c!".defmt.warn." (left c!".defmt.info." (left c!".defmt.debug." (left c!".defmt.trace." (left c!".defmt.prim." live)))) ++
  (taken c!".defmt.error." (left c!".defmt.warn." (left c!".defmt.info." (left c!".defmt.debug." (left c!".defmt.trace." (left c!".defmt.prim." live))))) ++
  taken c!".defmt." (left c!".defmt.error." (left c!".defmt.warn." (left c!".defmt.info." (left c!".defmt.debug." (left c!".defmt.trace." (left c!".defmt.prim." live)))))))))))

theorem split_perm (p : List Char) (l m : List Input) (h : m.Perm (left p l)) : (taken p l ++ m).Perm l :=
  (List.Perm.append_left _ h).trans (List.filter_append_perm _ _)

theorem ordered_perm (live : List Input) (h : ∀ i ∈ live, hasPrefix c!".defmt." i.name = true) : (ordered live).Perm live := by
  refine split_perm _ _ _ (split_perm _ _ _ (split_perm _ _ _ (split_perm _ _ _ (split_perm _ _ _ (split_perm _ _ _ ?_)))))
  unfold taken
  rw [List.filter_eq_self.mpr]
  intro i hi
  apply h
  have : ∀ p l, ∀ i ∈ left p l, i ∈ l := fun p l i hi => (List.mem_filter.mp hi).1
  exact this _ _ _ (this _ _ _ (this _ _ _ (this _ _ _ (this _ _ _ (this _ _ _ hi)))))

theorem Phases.all {live : List Input} {o : Out} (p : Phases live o) :
    Emitted ⟨[0], [], []⟩ o ((ordered live).flatMap (·.statics)) o.symbols := by
  have h := (p.prim.trans (p.trace.trans (p.debug.trans (p.info.trans (p.warn.trans (p.error.trans p.rest))))))
  have hs := h.symbols
  rw [p.start.2, List.nil_append, ← p.final.2] at hs
  rw [← hs] at h
  refine ⟨?_, rfl, ?_, ?_, ?_, h.sorted⟩
  · obtain ⟨bs, hb⟩ := h.bytes
    exact ⟨bs, by rw [p.final.1, hb, p.start.1]⟩
  · rw [h.names]; simp [ordered]
  · intro e he
    obtain ⟨h1, s, h2, h3⟩ := h.from_ e he
    rw [p.start.1] at h1
    refine ⟨h1, s, by simpa [ordered] using h2, by rw [p.final.1]; exact h3⟩
  · intro s hs'
    obtain ⟨e, h1, h2⟩ := h.to s (by simpa [ordered] using hs')
    exact ⟨e, h1, by rw [p.final.1]; exact h2⟩

theorem Emitted.mem {o o' : Out} {l : List Input} {ss : List ElfSymbol} (h : Emitted o o' (l.flatMap (·.statics)) ss) (e : ElfSymbol)
    (he : e ∈ ss) : ∃ i ∈ l, ∃ st ∈ i.statics, e = ⟨some st.symbol, true, e.address, st.bytes.length⟩ ∧
      o.bytes.length ≤ e.address ∧ e.address + st.bytes.length ≤ o'.bytes.length := by
  obtain ⟨h1, st, h2, h3, h4, h5⟩ := h.from_ e he
  obtain ⟨i, hi, hst⟩ := List.mem_flatMap.mp h2
  exact ⟨i, hi, st, hst, h3, h1, h4⟩

theorem Emitted.le {o o' : Out} {l : List Static} {ss : List ElfSymbol} (h : Emitted o o' l ss) : o.bytes.length ≤ o'.bytes.length := by
  obtain ⟨bs, hb⟩ := h.bytes
  rw [hb]; simp

/-! ### What the macros make -/

theorem interned_prefix (x : Interned) : hasPrefix c!".defmt." x.part.1 = true := by
  obtain ⟨kind, a, b, c, d⟩ := x
  cases kind with
  | log level => cases level <;> rfl
  | _ => rfl

theorem parts_prefix {t : Target} {items : List Item} {p : Part} (h : p ∈ items.flatMap (Item.parts t)) : hasPrefix c!".defmt." p.1 = true := by
  obtain ⟨it, -, hp⟩ := List.mem_flatMap.mp h
  cases it with
  | interned x => rw [List.mem_singleton.mp hp]; exact interned_prefix x
  | timestamp a b c d =>
    simp only [Item.parts, List.mem_cons, List.not_mem_nil, or_false] at hp
    rcases hp with rfl | rfl
    · exact interned_prefix _
    · rfl
  | bitflags d =>
    simp only [Item.parts, List.mem_cons, List.mem_map] at hp
    rcases hp with rfl | ⟨x, -, rfl⟩
    · exact interned_prefix _
    · rfl
  | defmt raw =>
    simp only [Item.parts, List.mem_cons, List.not_mem_nil, or_false] at hp
    rcases hp with rfl | rfl <;> rfl

theorem parts_nonempty {t : Target} (ht : t.Ok) {items : List Item} {p : Part} (h : p ∈ items.flatMap (Item.parts t)) :
    1 ≤ p.2.bytes.length := by
  obtain ⟨it, -, hp⟩ := List.mem_flatMap.mp h
  cases it with
  | interned x => rw [List.mem_singleton.mp hp]; exact Nat.le_refl 1
  | timestamp a b c d =>
    simp only [Item.parts, List.mem_cons, List.not_mem_nil, or_false] at hp
    rcases hp with rfl | rfl
    · exact Nat.le_refl 1
    · simpa [timestampMarker] using ht.pointer
  | bitflags d =>
    simp only [Item.parts, List.mem_cons, List.mem_map] at hp
    rcases hp with rfl | ⟨x, -, rfl⟩
    · exact Nat.le_refl 1
    · simp [flagPart, Encoder.le]
  | defmt raw =>
    simp only [Item.parts, List.mem_cons, List.not_mem_nil, or_false] at hp
    rcases hp with rfl | rfl <;> exact Nat.le_refl 1

/-! ### Linking -/

theorem mem_partsOf {inputs : List Input} {p : Part} : p ∈ partsOf inputs ↔ ∃ i ∈ inputs, i.name = p.1 ∧ p.2 ∈ i.statics := by
  unfold partsOf
  rw [List.mem_flatMap]
  constructor
  · rintro ⟨i, hi, h⟩
    obtain ⟨s, hs, rfl⟩ := List.mem_map.mp h
    exact ⟨i, hi, rfl, hs⟩
  · rintro ⟨i, hi, h1, h2⟩
    exact ⟨i, hi, List.mem_map.mpr ⟨p.2, h2, by rw [h1]⟩⟩

theorem symbols_eq (inputs : List Input) :
    inputs.flatMap (fun i => i.statics.map (·.symbol)) = (partsOf inputs).map (fun p => p.2.symbol) := by
  unfold partsOf
  rw [List.map_flatMap]
  congr 1
  funext i
  simp

/-- the inputs that stay -/
def alive (inputs : List Input) : List Input := inputs.filter (fun i => i.referenced || kept i.name)

theorem link_ok {inputs : List Input} {o : Out} : link inputs = .ok o ↔
    ((partsOf inputs).map (fun p => p.2.symbol)).Nodup ∧ o = section_ inputs ∧ o.marker c!"__DEFMT_MARKER_END" < 65534 := by
  unfold link
  rw [symbols_eq]
  by_cases h1 : ((partsOf inputs).map (fun p => p.2.symbol)).Nodup
  · rw [if_pos h1]
    by_cases h2 : (section_ inputs).marker c!"__DEFMT_MARKER_END" < 65534
    · rw [if_pos h2]
      constructor
      · intro h; cases h; exact ⟨h1, rfl, h2⟩
      · rintro ⟨-, rfl, -⟩; rfl
    · rw [if_neg h2]
      constructor
      · intro h; cases h
      · rintro ⟨-, rfl, h⟩; exact absurd h h2
  · rw [if_neg h1]
    constructor
    · intro h; cases h
    · rintro ⟨h, -⟩; exact absurd h h1

theorem inj_of_nodup {α β : Type} {f : α → β} {l : List α} (h : (l.map f).Nodup) {a b : α} (ha : a ∈ l) (hb : b ∈ l) (hab : f a = f b) :
    a = b := by
  induction l with
  | nil => cases ha
  | cons x l ih =>
    rw [List.map_cons, List.nodup_cons] at h
    rcases List.mem_cons.mp ha with ha | ha
    · rcases List.mem_cons.mp hb with hb | hb
      · rw [ha, hb]
      · exact absurd (List.mem_map.mpr ⟨b, hb, by rw [← hab, ha]⟩) h.1
    · rcases List.mem_cons.mp hb with hb | hb
      · exact absurd (List.mem_map.mpr ⟨a, ha, by rw [hab, hb]⟩) h.1
      · exact ih h.2 ha hb

/-- What linking gives. -/
structure Linked (inputs : List Input) (o : Out) : Prop where
  nodup : ((partsOf inputs).map (fun p => p.2.symbol)).Nodup
  phases : Nonempty (Phases (alive inputs) o)
  small : o.bytes.length < 65534

theorem Phases.end_marker {live : List Input} {o : Out} (p : Phases live o) : o.marker c!"__DEFMT_MARKER_END" = o.bytes.length := by
  unfold Out.marker
  rw [p.markers, p.final.1]
  rfl

theorem linked {inputs : List Input} {o : Out} (h : link inputs = .ok o) : Linked inputs o := by
  obtain ⟨h1, rfl, h3⟩ := link_ok.mp h
  have := phases (alive inputs)
  refine ⟨h1, this, ?_⟩
  obtain ⟨p⟩ := this
  exact p.end_marker ▸ h3

theorem alive_sub {inputs : List Input} {i : Input} (h : i ∈ alive inputs) : i ∈ inputs := (List.mem_filter.mp h).1

theorem ordered_sub {live : List Input} {i : Input} (h : i ∈ ordered live) : i ∈ live := by
  have t : ∀ p l, ∀ i ∈ taken p l, i ∈ l := fun p l i hi => (List.mem_filter.mp hi).1
  have l : ∀ p l, ∀ i ∈ left p l, i ∈ l := fun p l i hi => (List.mem_filter.mp hi).1
  simp only [ordered, List.mem_append] at h
  rcases h with h | h | h | h | h | h | h
  · exact t _ _ _ h
  · exact l _ _ _ (t _ _ _ h)
  · exact l _ _ _ (l _ _ _ (t _ _ _ h))
  · exact l _ _ _ (l _ _ _ (l _ _ _ (t _ _ _ h)))
  · exact l _ _ _ (l _ _ _ (l _ _ _ (l _ _ _ (t _ _ _ h))))
  · exact l _ _ _ (l _ _ _ (l _ _ _ (l _ _ _ (l _ _ _ (t _ _ _ h)))))
  · exact l _ _ _ (l _ _ _ (l _ _ _ (l _ _ _ (l _ _ _ (l _ _ _ (t _ _ _ h))))))

/-- Every symbol of the output is that of a static. -/
theorem Linked.from_ {inputs : List Input} {o : Out} (h : Linked inputs o) {e : ElfSymbol} (he : e ∈ o.symbols) :
    1 ≤ e.address ∧ ∃ p ∈ partsOf inputs, Holds o.bytes p.2 e := by
  obtain ⟨p⟩ := h.phases
  obtain ⟨h1, st, h2, h3⟩ := p.all.from_ e he
  obtain ⟨i, hi, hst⟩ := List.mem_flatMap.mp h2
  exact ⟨h1, (i.name, st), mem_partsOf.mpr ⟨i, alive_sub (ordered_sub hi), rfl, hst⟩, h3⟩

/-- Every static of an input that stays is there. -/
theorem Linked.to {inputs : List Input} {o : Out} (h : Linked inputs o) (hp : ∀ i ∈ inputs, hasPrefix c!".defmt." i.name = true)
    {i : Input} (hi : i ∈ alive inputs) {st : Static} (hst : st ∈ i.statics) : ∃ e ∈ o.symbols, Holds o.bytes st e := by
  obtain ⟨p⟩ := h.phases
  have hperm := ordered_perm (alive inputs) (fun i hi => hp i (alive_sub hi))
  exact p.all.to st (List.mem_flatMap.mpr ⟨i, hperm.mem_iff.mpr hi, hst⟩)

theorem Linked.sorted {inputs : List Input} {o : Out} (h : Linked inputs o) :
    o.symbols.Pairwise (fun a b => a.address + a.size ≤ b.address) := by
  obtain ⟨p⟩ := h.phases
  exact p.all.sorted

/-- Symbols with a size have different addresses. -/
theorem sorted_inj {l : List ElfSymbol} (h : l.Pairwise (fun a b => a.address + a.size ≤ b.address)) (hs : ∀ e ∈ l, 1 ≤ e.size)
    {a b : ElfSymbol} (ha : a ∈ l) (hb : b ∈ l) (hab : a.address = b.address) : a = b := by
  induction l with
  | nil => cases ha
  | cons x l ih =>
    rw [List.pairwise_cons] at h
    have hx := hs x (by simp)
    rcases List.mem_cons.mp ha with ha | ha
    · rcases List.mem_cons.mp hb with hb | hb
      · rw [ha, hb]
      · have := h.1 b hb; rw [← ha] at hx this; omega
    · rcases List.mem_cons.mp hb with hb | hb
      · have := h.1 a ha; rw [← hb] at hx this; omega
      · exact ih h.2 (fun e he => hs e (by simp [he])) ha hb

theorem compiled_prefix {t : Target} {items : List Item} {inputs : List Input} (hc : Compiled t items inputs) :
    ∀ i ∈ inputs, hasPrefix c!".defmt." i.name = true := by
  intro i hi
  cases hs : i.statics with
  | nil => exact absurd hs (hc.2 i hi)
  | cons st rest => exact parts_prefix (p := (i.name, st)) (hc.1.mem_iff.mp (mem_partsOf.mpr ⟨i, hi, rfl, by rw [hs]; simp⟩))

theorem Linked.sizes {t : Target} (ht : t.Ok) {items : List Item} {inputs : List Input} (hc : Compiled t items inputs) {o : Out}
    (h : Linked inputs o) : ∀ e ∈ o.symbols, 1 ≤ e.size := by
  intro e he
  obtain ⟨-, p, hp, h1, -⟩ := h.from_ he
  rw [h1]
  exact parts_nonempty ht (hc.1.mem_iff.mp hp)

theorem flatMap_sublist {α β : Type} (g : α → List β) {l l' : List α} (h : l.Sublist l') : (l.flatMap g).Sublist (l'.flatMap g) := by
  induction h with
  | slnil => exact .slnil
  | cons a _ ih => rw [List.flatMap_cons]; exact ih.trans (List.sublist_append_right _ _)
  | cons_cons a _ ih => rw [List.flatMap_cons, List.flatMap_cons]; exact List.Sublist.append_left ih _

theorem Linked.names {inputs : List Input} {o : Out} (hp : ∀ i ∈ inputs, hasPrefix c!".defmt." i.name = true) (h : Linked inputs o) :
    (o.symbols.map (·.name)).Nodup := by
  obtain ⟨p⟩ := h.phases
  rw [p.all.names]
  have hperm := ordered_perm (alive inputs) (fun i hi => hp i (alive_sub hi))
  have h1 : ((ordered (alive inputs)).flatMap (·.statics)).Perm ((alive inputs).flatMap (·.statics)) := hperm.flatMap_right _
  refine ((h1.map (fun s => some s.symbol)).nodup_iff).mpr ?_
  have h2 : ((alive inputs).flatMap (·.statics)).map (fun s => some s.symbol) =
      ((partsOf (alive inputs)).map (fun p => p.2.symbol)).map some := by
    unfold partsOf
    rw [List.map_map, List.map_flatMap, List.map_flatMap]
    congr 1
    funext i
    simp
  rw [h2]
  have h3 : ((partsOf (alive inputs)).map (fun p => p.2.symbol)).Nodup :=
    List.Nodup.sublist ((flatMap_sublist _ List.filter_sublist).map _) h.nodup
  exact List.Pairwise.map _ (fun a b hab => fun h => hab (by cases h; rfl)) h3

/-- Symbols with the same name are the same. -/
theorem Linked.unique {inputs : List Input} {o : Out} (hp : ∀ i ∈ inputs, hasPrefix c!".defmt." i.name = true) (h : Linked inputs o)
    {a b : ElfSymbol} (ha : a ∈ o.symbols) (hb : b ∈ o.symbols) (hab : a.name = b.name) : a = b :=
  inj_of_nodup (h.names hp) ha hb hab

/-- Parts with the same symbol are the same. -/
theorem Linked.part {inputs : List Input} {o : Out} (h : Linked inputs o) {p q : Part} (hp : p ∈ partsOf inputs) (hq : q ∈ partsOf inputs)
    (hpq : p.2.symbol = q.2.symbol) : p = q :=
  inj_of_nodup h.nodup hp hq hpq

/-! ### The parts of the items -/

theorem parts_cases {t : Target} {items : List Item} {p : Part} (h : p ∈ items.flatMap (Item.parts t)) :
    (∃ x : Interned, p = x.part ∧ (Item.interned x ∈ items ∨ (∃ a b c d, Item.timestamp a b c d ∈ items ∧ x = ⟨.timestamp, a, b, c, d⟩) ∨
      ∃ d, Item.bitflags d ∈ items ∧ x = flagsInterned d)) ∨
    (p = timestampMarker t) ∨
    (∃ d x, Item.bitflags d ∈ items ∧ x ∈ d.enabled ∧ p = flagPart t d x) ∨
    p.2.symbol = c!"_defmt_version_ = 4" ∨ p.2.symbol = c!"_defmt_encoding_ = raw" ∨ p.2.symbol = c!"_defmt_encoding_ = rzcobs" := by
  obtain ⟨it, hit, hp⟩ := List.mem_flatMap.mp h
  cases it with
  | interned x => exact .inl ⟨x, List.mem_singleton.mp hp, .inl hit⟩
  | timestamp a b c d =>
    simp only [Item.parts, List.mem_cons, List.not_mem_nil, or_false] at hp
    rcases hp with hp | hp
    · exact .inl ⟨_, hp, .inr (.inl ⟨a, b, c, d, hit, rfl⟩)⟩
    · exact .inr (.inl hp)
  | bitflags d =>
    simp only [Item.parts, List.mem_cons, List.mem_map] at hp
    rcases hp with hp | ⟨x, hx, rfl⟩
    · exact .inl ⟨_, hp, .inr (.inr ⟨d, hit, rfl⟩)⟩
    · exact .inr (.inr (.inl ⟨d, x, hit, hx, rfl⟩))
  | defmt raw =>
    simp only [Item.parts, List.mem_cons, List.not_mem_nil, or_false] at hp
    rcases hp with rfl | rfl
    · exact .inr (.inr (.inr (.inl rfl)))
    · cases raw
      · exact .inr (.inr (.inr (.inr (.inr rfl))))
      · exact .inr (.inr (.inr (.inr (.inl rfl))))

theorem tag_hostTag (k : Kind) : c!"defmt_" ++ k.tag = tagName k.hostTag := by
  cases k with
  | log level => cases level <;> rfl
  | _ => rfl

theorem hostTag_ne_value (k : Kind) : k.hostTag ≠ .bitflagsValue := by
  cases k with
  | log level => cases level <;> simp [Kind.hostTag]
  | _ => simp [Kind.hostTag]

theorem tagName_inj {a b : Tag} (h : tagName a = tagName b) : a = b := by
  cases a <;> cases b <;> first | rfl | (exact absurd h (by decide))

theorem interned_tag (x : Interned) : x.symbol.tag = tagName x.kind.hostTag := tag_hostTag x.kind

/-- two items cannot share a symbol -/
theorem pairwise_of_nodup_flatMap {α β : Type} (g : α → List β) {l : List α} (h : (l.flatMap g).Nodup) :
    l.Pairwise (fun a b => ∀ z ∈ g a, z ∉ g b) := by
  induction l with
  | nil => exact .nil
  | cons a l ih =>
    rw [List.flatMap_cons, List.nodup_append] at h
    refine .cons ?_ (ih h.2.1)
    intro b hb z hz hz'
    exact h.2.2 z hz z (List.mem_flatMap.mpr ⟨b, hb, hz'⟩) rfl

theorem eq_of_pairwise_not {α : Type} {P : α → Prop} {l : List α} (h : l.Pairwise (fun a b => ¬ (P a ∧ P b))) {a b : α} (ha : a ∈ l) (hb : b ∈ l)
    (pa : P a) (pb : P b) : a = b := by
  induction l with
  | nil => cases ha
  | cons x l ih =>
    rw [List.pairwise_cons] at h
    rcases List.mem_cons.mp ha with ha | ha
    · rcases List.mem_cons.mp hb with hb | hb
      · rw [ha, hb]
      · exact absurd ⟨ha ▸ pa, pb⟩ (h.1 b hb)
    · rcases List.mem_cons.mp hb with hb | hb
      · exact absurd ⟨hb ▸ pb, pa⟩ (h.1 a ha)
      · exact ih h.2 ha hb

/-- the item is a timestamp -/
def Item.IsTimestamp : Item → Prop
  | .timestamp .. => True
  | _ => False

theorem nodup_items {t : Target} {items : List Item} {inputs : List Input} (hc : Compiled t items inputs) {o : Out} (h : Linked inputs o) :
    (items.flatMap (fun it => (it.parts t).map (fun p => p.2.symbol))).Nodup := by
  have := (hc.1.map (fun p => p.2.symbol)).nodup_iff.mp h.nodup
  rwa [List.map_flatMap] at this

theorem one_timestamp {t : Target} {items : List Item} {inputs : List Input} (hc : Compiled t items inputs) {o : Out} (h : Linked inputs o) :
    items.Pairwise (fun a b => ¬ (a.IsTimestamp ∧ b.IsTimestamp)) := by
  refine (pairwise_of_nodup_flatMap _ (nodup_items hc h)).imp ?_
  intro a b hab ⟨h1, h2⟩
  cases a with
  | timestamp =>
    cases b with
    | timestamp => exact hab (timestampMarker t).2.symbol (by simp [Item.parts]) (by simp [Item.parts])
    | _ => exact h2
  | _ => exact h1

theorem alive_of_end {inputs : List Input} {i : Input} (hi : i ∈ inputs) (hn : i.name = c!".defmt.end") : i ∈ alive inputs := by
  refine List.mem_filter.mpr ⟨hi, ?_⟩
  rw [kept_eq, hn]
  simp

theorem mangle_ne {m : MacroSymbol} {s : List Char} (hs : s.head? ≠ some '{') : m.mangle ≠ s := by
  rintro rfl
  exact hs rfl

end Defmt.Linker

namespace Defmt.Linker

open Parser Symbol Elf Bitflags Decoder

/-! ### Sizes -/

/-- bytes of the statics -/
def sizeOf (l : List Static) : Nat := (l.map (fun s => s.bytes.length)).sum

/-- an upper bound that includes the bytes for alignment -/
def roomOf (l : List Static) : Nat := (l.map (fun s => s.bytes.length + (s.align - 1))).sum

theorem pad_length (a : Nat) (b : List UInt8) : b.length ≤ (pad a b).length ∧ (pad a b).length ≤ b.length + (a - 1) := by
  simp only [pad, List.length_append, List.length_replicate]
  refine ⟨by omega, ?_⟩
  cases a with
  | zero => simp
  | succ a => have := Nat.mod_lt (a + 1 - b.length % (a + 1)) (show a + 1 > 0 by omega); omega

theorem foldl_static_size (l : List Static) (o : Out) :
    o.bytes.length + sizeOf l ≤ (l.foldl emitStatic o).bytes.length ∧ (l.foldl emitStatic o).bytes.length ≤ o.bytes.length + roomOf l := by
  induction l generalizing o with
  | nil => simp [sizeOf, roomOf]
  | cons s l ih =>
    have h := ih (emitStatic o s)
    have hp := pad_length s.align o.bytes
    have e : (emitStatic o s).bytes.length = (pad s.align o.bytes).length + s.bytes.length := by simp [emitStatic]
    simp only [List.foldl_cons, sizeOf, roomOf, List.map_cons, List.sum_cons] at *
    omega

theorem foldl_input_size (l : List Input) (o : Out) :
    o.bytes.length + (l.map (fun i => sizeOf i.statics)).sum ≤ (l.foldl emitInput o).bytes.length ∧
    (l.foldl emitInput o).bytes.length ≤ o.bytes.length + (l.map (fun i => roomOf i.statics + (i.align - 1))).sum := by
  induction l generalizing o with
  | nil => simp
  | cons i l ih =>
    have h := ih (emitInput o i)
    have hp := pad_length i.align o.bytes
    have h2 := foldl_static_size i.statics { o with bytes := pad i.align o.bytes }
    have e : (emitInput o i).bytes.length = (List.foldl emitStatic { o with bytes := pad i.align o.bytes } i.statics).bytes.length := rfl
    simp only [List.foldl_cons, List.map_cons, List.sum_cons] at *
    omega

/-- lower and upper bound of the location counter, for any script without `. = n` -/
theorem run_size (cs : List Command) (hcs : ∀ n, Command.dot n ∉ cs) (l : List Input) (o : Out) :
    ∃ done later : List Input, (done ++ later).Perm l ∧
    o.bytes.length + (done.map (fun i => sizeOf i.statics)).sum ≤ (run cs l o).bytes.length ∧
    (run cs l o).bytes.length ≤ o.bytes.length + (done.map (fun i => roomOf i.statics + (i.align - 1))).sum ∧
    ∀ i ∈ later, ∀ k ps, Command.input k ps ∈ cs → matchesAny ps i.name = false := by
  induction cs generalizing l o with
  | nil => exact ⟨[], l, .refl _, by simp [run], by simp [run], by simp⟩
  | cons c cs ih =>
    have hcs' : ∀ n, Command.dot n ∉ cs := fun n h => hcs n (by simp [h])
    cases c with
    | dot n => exact absurd (by simp) (hcs n)
    | marker m =>
      obtain ⟨d, r, h1, h2, h3, h4⟩ := ih hcs' l { o with markers := o.markers ++ [(m, o.bytes.length)] }
      exact ⟨d, r, h1, h2, h3, fun i hi k ps h => h4 i hi k ps (by simpa using h)⟩
    | input k0 ps0 =>
      obtain ⟨d, r, h1, h2, h3, h4⟩ := ih hcs' (l.filter (fun i => !matchesAny ps0 i.name))
        ((l.filter (fun i => matchesAny ps0 i.name)).foldl emitInput o)
      have hz := foldl_input_size (l.filter (fun i => matchesAny ps0 i.name)) o
      refine ⟨l.filter (fun i => matchesAny ps0 i.name) ++ d, r, ?_, ?_, ?_, ?_⟩
      · rw [List.append_assoc]
        exact (List.Perm.append_left _ h1).trans (List.filter_append_perm _ _)
      · simp only [run, List.map_append, List.sum_append]; omega
      · simp only [run, List.map_append, List.sum_append]; omega
      · intro i hi k ps h
        rcases List.mem_cons.mp h with h | h
        · cases h
          have hm : i ∈ l.filter (fun i => !matchesAny ps0 i.name) := h1.mem_iff.mp (List.mem_append_right _ hi)
          have := (List.mem_filter.mp hm).2
          simpa using this
        · exact h4 i hi k ps h

theorem perm_sum {l l' : List Nat} (h : l.Perm l') : l.sum = l'.sum := h.sum_nat

/-- bounds of the size of the section -/
theorem section_size (inputs : List Input) (hp : ∀ i ∈ inputs, hasPrefix c!".defmt." i.name = true) :
    1 + ((alive inputs).map (fun i => sizeOf i.statics)).sum ≤ (section_ inputs).bytes.length ∧
    (section_ inputs).bytes.length ≤ 1 + ((alive inputs).map (fun i => roomOf i.statics + (i.align - 1))).sum := by
  obtain ⟨d, r, h1, h2, h3, h4⟩ := run_size script.tail (by intro n; simp [script]) (alive inputs) ⟨[0], [], []⟩
  have hr : r = [] := by
    cases r with
    | nil => rfl
    | cons i r =>
      have := h4 i (by simp) false [c!".defmt.*"] (by simp [script])
      rw [matches_all] at this
      have hi : i ∈ alive inputs := h1.mem_iff.mp (by simp)
      rw [hp i (alive_sub hi)] at this
      cases this
  subst hr
  rw [List.append_nil] at h1
  have e : section_ inputs = run script.tail (alive inputs) ⟨[0], [], []⟩ := rfl
  rw [e]
  rw [perm_sum (h1.map _)] at h2 h3
  exact ⟨h2, h3⟩

end Defmt.Linker
