import Verif.Spec.HostPayload
import Verif.Props.Json
/-! # C79: which log records make the loggers panic -/

namespace Defmt
open HostLog LogFormat Json Symbol _root_.Defmt.Encoder
open Parser hiding parse Written

theorem levelOfName_iff (s : List Char) (l : Level) : levelOfName s = some l ↔ NameOf s l := by
  unfold levelOfName NameOf
  constructor
  · intro h
    have h1 := List.find?_some h
    simp only [decide_eq_true_eq] at h1
    rw [← h1]
    cases l <;> simp [levelName]
  · intro h
    simp only [List.mem_cons, Prod.mk.injEq, List.not_mem_nil, or_false] at h
    rcases h with ⟨rfl, h⟩ | ⟨rfl, h⟩ | ⟨rfl, h⟩ | ⟨rfl, h⟩ | ⟨rfl, h⟩ <;> rw [h] <;> decide +kernel

theorem getLevel_iff (j : Json) (l : Level) : getLevel j = some l ↔ IsLevel j l := by
  constructor
  · intro h
    unfold getLevel at h
    split at h
    · exact .name ((levelOfName_iff _ _).mp h)
    · exact .member ((levelOfName_iff _ _).mp h)
    · cases h
  · intro h
    cases h with
    | name h => exact (levelOfName_iff _ _).mpr h
    | member h => exact (levelOfName_iff _ _).mpr h

theorem level_null {l : Level} : ¬ IsLevel .null l := by
  intro h; cases h

theorem optional_level {ms : List (List Char × Json)} {key : List Char} {o : Option Level} :
    optionalField ms key getLevel = some o ↔ ((Missing ms key ∧ o = none) ∨ ∃ j, Once ms key j ∧ IsLevelOrNull j o) := by
  simp only [← field_one, ← field_none]
  unfold optionalField
  constructor
  · intro h
    cases hf : field ms key with
    | none => rw [hf] at h; cases h
    | some f =>
      rw [hf] at h
      cases f with
      | none => cases h; exact .inl ⟨rfl, rfl⟩
      | some j =>
        refine .inr ⟨j, rfl, ?_⟩
        by_cases hj : j = .null
        · subst hj; cases h; exact .null
        · split at h
          · cases ‹some (some j) = none›
          · cases ‹some (some j) = some none›
          · rename_i e; cases e; exact absurd rfl hj
          · rename_i e
            cases e
            rw [Option.map_eq_some_iff] at h
            obtain ⟨l, h1, rfl⟩ := h
            exact .level ((getLevel_iff _ _).mp h1)
  · rintro (⟨h, rfl⟩ | ⟨j, h, hl⟩)
    · rw [h]
    · rw [h]
      cases hl with
      | null => rfl
      | level hl =>
        rename_i l
        have := (getLevel_iff j l).mpr hl
        split
        · cases ‹some (some j) = none›
        · cases ‹some (some j) = some none›
        · rename_i e; cases e; exact absurd hl level_null
        · rename_i e; cases e; rw [this]; rfl

theorem payload_iff (j : Json) (level : Option Level) (timestamp : List Char) :
    Payload.ofJson j = some ⟨level, timestamp⟩ ↔ IsPayload j level timestamp := by
  constructor
  · intro h
    unfold Payload.ofJson at h
    split at h
    · split at h
      · rename_i l ts h1 h2
        cases h
        rcases optional_level.mp h1 with ⟨h3, rfl⟩ | ⟨j, h3, h4⟩
        · exact .noLevel h3 (required_string.mp h2)
        · exact .object h3 h4 (required_string.mp h2)
      · cases h
    · cases h; exact .array .null
    · rw [Option.map_eq_some_iff] at h
      obtain ⟨l, h1, h2⟩ := h
      cases h2
      exact .array (.level ((getLevel_iff _ _).mp h1))
    · cases h
  · intro h
    cases h with
    | noLevel h1 h2 =>
      simp only [Payload.ofJson, optional_level.mpr (.inl ⟨h1, rfl⟩), required_string.mpr h2]
    | object h1 h2 h3 =>
      simp only [Payload.ofJson, optional_level.mpr (.inr ⟨_, h1, h2⟩), required_string.mpr h3]
    | array h =>
      cases h with
      | null => rfl
      | level h =>
        rename_i j l
        have h1 := (getLevel_iff j l).mpr h
        cases h <;> (simp only [Payload.ofJson]; rw [h1]; rfl)

/-- what `DefmtRecord::new` makes of a target -/
theorem defmtRecord_payload (r : LogRecord) (payload : List Char) (h : r.target = c!"defmt@" ++ payload) :
    (defmtRecord r = none ∧ ¬ ∃ j level timestamp, JsonText payload j ∧ IsPayload j level timestamp) ∨
    ∃ j level timestamp, JsonText payload j ∧ IsPayload j level timestamp ∧
      defmtRecord r = some (some ⟨.defmt, level, timestamp, r.args, r.file, r.line, r.modulePath⟩) := by
  have hs : stripPrefix marker r.target = some payload := by rw [h]; exact marker_strip payload
  unfold defmtRecord
  simp only [hs]
  cases hb : (read payload).bind Payload.ofJson with
  | none =>
    refine .inl ⟨rfl, ?_⟩
    rintro ⟨j, l, ts, h1, h2⟩
    rw [(read_iff _ _).mpr h1, Option.bind_some, (payload_iff _ _ _).mpr h2] at hb
    cases hb
  | some p =>
    rw [Option.bind_eq_some_iff] at hb
    obtain ⟨j, h1, h2⟩ := hb
    exact .inr ⟨j, p.level, p.timestamp, (read_iff _ _).mp h1, (payload_iff _ _ _).mp h2, rfl⟩

/-- **C79** Exactly which records of the host make the logger panic: those whose target is `defmt@` followed by anything but the JSON
that `log_defmt` puts there (`IsPayload`); besides, only those which the formatter that is in charge of them cannot show. -/
theorem C79_exact (o : Options) (fmt : Formatters) (now : Int) (r : LogRecord) :
    log o fmt now r = none ↔
      (¬ c!"defmt@" <+: r.target ∧ o.verbose = true ∧
        formatRecord fmt.term fmt.hostFormatter ⟨.host, some r.level, [], r.args, r.file, r.line, r.modulePath⟩ = none) ∨
      ∃ payload, r.target = c!"defmt@" ++ payload ∧
        ((¬ ∃ j level timestamp, JsonText payload j ∧ IsPayload j level timestamp) ∨
        ∃ j level timestamp, JsonText payload j ∧ IsPayload j (some level) timestamp ∧ o.json = false ∧
          formatRecord fmt.term fmt.formatter ⟨.defmt, some level, timestamp, r.args, r.file, r.line, r.modulePath⟩ = none) := by
  by_cases hp : c!"defmt@" <+: r.target
  · obtain ⟨payload, hp'⟩ := hp
    have ht : r.target = c!"defmt@" ++ payload := hp'.symm
    have hs : shouldLog o r.target = true := by rw [ht]; exact shouldLog_marker o payload
    have huniq : ∀ q, r.target = c!"defmt@" ++ q → q = payload := fun q hq => List.append_cancel_left (hq.symm.trans ht)
    have hl : log o fmt now r = (match defmtRecord r with
        | none => none
        | some (some record) => if o.json then some [(.stdout, write (createJsonFrame record (hostTimestamp now)).toJson), (.stdout, ['\n'])]
          else printDefmtRecord fmt record
        | some none => printHostRecord fmt r) := by
      unfold log jsonLog stdoutLog
      simp only [hs]
      cases o.json <;> rcases defmtRecord r with _ | _ | _ <;> rfl
    rw [hl]
    rcases defmtRecord_payload r payload ht with ⟨h1, h2⟩ | ⟨j, level, ts, h1, h2, h3⟩
    · rw [h1]
      exact ⟨fun _ => .inr ⟨payload, ht, .inl h2⟩, fun _ => rfl⟩
    · rw [h3]
      constructor
      · intro h
        refine .inr ⟨payload, ht, .inr ?_⟩
        cases hj : o.json with
        | true => simp [hj] at h
        | false =>
          simp only [hj, Bool.false_eq_true, if_false, printDefmtRecord] at h
          cases level with
          | none => simp at h
          | some l =>
            simp only [Option.isSome_some, if_true, Option.map_eq_none_iff] at h
            exact ⟨j, l, ts, h1, h2, rfl, h⟩
      · rintro (⟨h, _⟩ | ⟨q, hq, h⟩)
        · exact absurd ⟨payload, ht.symm⟩ h
        · obtain rfl := huniq q hq
          rcases h with h | ⟨j', l, ts', g1, g2, g3, g4⟩
          · exact absurd ⟨j, level, ts, h1, h2⟩ h
          · obtain rfl := C100_unique h1 g1
            have e := ((payload_iff _ _ _).mpr h2).symm.trans ((payload_iff _ _ _).mpr g2)
            cases e
            simp only [g3, Bool.false_eq_true, if_false, printDefmtRecord, Option.isSome_some, if_true, g4, Option.map_none]
  · obtain ⟨h1, h2⟩ := C77_host o fmt now r hp
    constructor
    · intro h
      cases hv : o.verbose with
      | false => rw [h1 hv] at h; cases h
      | true =>
        rw [h2 hv, Option.map_eq_none_iff] at h
        exact .inl ⟨hp, rfl, h⟩
    · rintro (⟨_, hv, h⟩ | ⟨q, hq, _⟩)
      · rw [h2 hv, h]; rfl
      · exact absurd ⟨q, hq.symm⟩ hp

/-- accepted besides the text of `log_defmt`: `defmt@["info", "1"]`, `defmt@{"timestamp": "1", "x": 2}` -/
example : IsPayload (.arr [.str c!"info", .str c!"1"]) (some .info) c!"1" ∧
    IsPayload (.obj [(c!"timestamp", .str c!"1"), (c!"x", .num 2)]) none c!"1" ∧
    ∀ l ts, ¬ IsPayload (.obj [(c!"level", .str c!"loud"), (c!"timestamp", .str c!"1")]) l ts := by
  refine ⟨(payload_iff _ _ _).mp rfl, (payload_iff _ _ _).mp rfl, fun l ts h => ?_⟩
  have h1 := (payload_iff _ _ _).mpr h
  rw [show Payload.ofJson (.obj [(c!"level", .str c!"loud"), (c!"timestamp", .str c!"1")]) = none from rfl] at h1
  cases h1

end Defmt
