import Verif.Spec.HostLog
import Verif.Lemmas.Json
/-! Lemmas about the output of `defmt-print`. -/

namespace Defmt.HostLog
open Json Parser LogFormat

theorem getLevel_levelJson (l : Level) : getLevel (levelJson l) = some l := by
  cases l <;> decide +kernel

theorem optional_optionJson {T : Type} {ms : List (List Char × Json)} {key : List Char} {get : Json → Option T} {f : T → Json}
    {o : Option T} (hf : field ms key = some (some (optionJson f o))) (hn : ∀ a, f a ≠ .null)
    (hg : ∀ a, o = some a → get (f a) = some a) : optionalField ms key get = some o := by
  unfold optionalField
  rw [hf]
  cases o with
  | none => rfl
  | some a =>
    have h1 := hg a rfl
    have h2 := hn a
    simp only [optionJson]
    cases hfa : f a with
    | null => exact absurd hfa h2
    | _ => rw [hfa] at h1; simp [h1]

theorem Payload.ofJson_toJson (p : Payload) : Payload.ofJson p.toJson = some p := by
  have h : optionalField [(c!"level", optionJson levelJson p.level), (c!"timestamp", .str p.timestamp)] c!"level" getLevel = some p.level :=
    optional_optionJson rfl (fun a => by simp [levelJson]) (fun a _ => getLevel_levelJson a)
  simp only [Payload.toJson, Payload.ofJson, h]
  rfl

theorem getStrings_map (ss : List (List Char)) : getStrings (.arr (ss.map .str)) = some ss := by
  unfold getStrings
  induction ss with
  | nil => rfl
  | cons s ss ih =>
    simp only at ih
    simp [ih, getString]

theorem ModulePath.ofJson_toJson (m : ModulePath) : ModulePath.ofJson m.toJson = some m := by
  have h : required [(c!"crate_name", .str m.crateName), (c!"modules", .arr (m.modules.map .str)), (c!"function", .str m.function)]
      c!"modules" getStrings = some m.modules := by
    unfold required field
    exact getStrings_map m.modules
  simp only [ModulePath.toJson, ModulePath.ofJson, h]
  rfl

theorem Location.ofJson_toJson (l : Location) (h : ∀ n, l.line = some n → n < 2 ^ 32) : Location.ofJson l.toJson = some l := by
  unfold Location.toJson Location.ofJson
  have h1 : ∀ ms, field ms c!"file" = some (some (optionJson .str l.file)) → optionalField ms c!"file" getString = some l.file :=
    fun ms hm => optional_optionJson hm (fun a => by simp) (fun a _ => rfl)
  have h2 : ∀ ms, field ms c!"line" = some (some (optionJson (fun n => .num (Int.ofNat n)) l.line)) →
      optionalField ms c!"line" (getInteger 0 (2 ^ 32 - 1)) = some (l.line.map Int.ofNat) := by
    intro ms hm
    have hm' : field ms c!"line" = some (some (optionJson (fun n => .num n) (l.line.map Int.ofNat))) := by
      rw [hm]; cases l.line <;> rfl
    refine optional_optionJson hm' (fun a => by simp) (fun a ha => ?_)
    cases hl : l.line with
    | none => rw [hl] at ha; cases ha
    | some n =>
      rw [hl] at ha
      cases ha
      have := h n hl
      simp only [getInteger]
      rw [if_pos]
      constructor <;> simp only [Int.ofNat_eq_natCast] <;> omega
  have h3 : ∀ ms, field ms c!"module_path" = some (some (optionJson ModulePath.toJson l.modulePath)) →
      optionalField ms c!"module_path" ModulePath.ofJson = some l.modulePath :=
    fun ms hm => optional_optionJson hm (fun a => by simp [ModulePath.toJson]) (fun a _ => ModulePath.ofJson_toJson a)
  simp only
  rw [h1, h2, h3] <;> try rfl
  cases l with
  | mk f n m => cases n <;> rfl

theorem JsonFrame.ofJson_toJson (f : JsonFrame) (h : ∀ n, f.location.line = some n → n < 2 ^ 32)
    (hlow : - 2 ^ 63 ≤ f.hostTimestamp) (hhigh : f.hostTimestamp < 2 ^ 63) : JsonFrame.ofJson f.toJson = some f := by
  unfold JsonFrame.toJson JsonFrame.ofJson
  have h1 : ∀ ms, field ms c!"level" = some (some (optionJson levelJson f.level)) → optionalField ms c!"level" getLevel = some f.level :=
    fun ms hm => optional_optionJson hm (fun a => by simp [levelJson]) (fun a _ => getLevel_levelJson a)
  have h2 : ∀ ms, field ms c!"location" = some (some f.location.toJson) → required ms c!"location" Location.ofJson = some f.location := by
    intro ms hm
    unfold required
    rw [hm]
    exact Location.ofJson_toJson _ h
  have h3 : ∀ ms, field ms c!"host_timestamp" = some (some (.num f.hostTimestamp)) →
      required ms c!"host_timestamp" (getInteger (- 2 ^ 63) (2 ^ 63 - 1)) = some f.hostTimestamp := by
    intro ms hm
    unfold required
    rw [hm]
    simp only [getInteger]
    rw [if_pos (by omega)]
  simp only
  rw [h1, h2, h3] <;> rfl

theorem good_strings (ss : List (List Char)) : Good.elements (ss.map .str) := by
  induction ss with
  | nil => exact True.intro
  | cons s ss ih => exact ⟨True.intro, ih⟩

theorem optionJson_good {T : Type} {f : T → Json} (h : ∀ a, Good (f a)) (o : Option T) : Good (optionJson f o) := by
  cases o with
  | none => exact True.intro
  | some a => exact h a

theorem Payload.good (p : Payload) : Good p.toJson :=
  ⟨optionJson_good (f := levelJson) (fun _ => True.intro) _, True.intro, True.intro⟩

theorem Location.good (l : Location) : Good l.toJson :=
  ⟨optionJson_good (f := .str) (fun _ => True.intro) _, optionJson_good (f := fun n => .num (Int.ofNat n)) (fun _ => True.intro) _,
    optionJson_good (f := ModulePath.toJson) (fun m => ⟨True.intro, good_strings m.modules, True.intro, True.intro⟩) _, True.intro⟩

theorem JsonFrame.good (f : JsonFrame) : Good f.toJson :=
  ⟨True.intro, True.intro, optionJson_good (f := levelJson) (fun _ => True.intro) _, f.location.good, True.intro, True.intro⟩

theorem readFrame_write (f : JsonFrame) (h : ∀ n, f.location.line = some n → n < 2 ^ 32)
    (hlow : - 2 ^ 63 ≤ f.hostTimestamp) (hhigh : f.hostTimestamp < 2 ^ 63) : readFrame (write f.toJson) = some f := by
  unfold readFrame
  rw [read_write _ f.good]
  exact JsonFrame.ofJson_toJson f h hlow hhigh

theorem write_no_newline (j : Json) (hj : Good j) : '\n' ∉ write j := fun h => write_printable j hj '\n' h (by decide)

theorem hostTimestamp_range (now : Int) : - 2 ^ 63 ≤ hostTimestamp now ∧ hostTimestamp now < 2 ^ 63 := by
  unfold hostTimestamp
  constructor
  · exact BitVec.le_toInt _
  · exact BitVec.toInt_lt

theorem hostTimestamp_eq {now : Int} (h1 : - 2 ^ 63 ≤ now) (h2 : now < 2 ^ 63) : hostTimestamp now = now := by
  unfold hostTimestamp
  rw [BitVec.toInt_ofInt, Int.min_eq_left (by omega)]
  apply Int.bmod_eq_of_le <;> omega

theorem hostTimestamp_late {now : Int} (h : 2 ^ 63 ≤ now) : hostTimestamp now = 2 ^ 63 - 1 := by
  unfold hostTimestamp
  rw [Int.min_eq_right (by omega)]
  decide

/-! ### locations -/

theorem locs_some (o : Options) (h : ∀ i ∈ o.indices, ∃ l, o.locations i = some l) : locs o = some o.locations := by
  unfold locs
  rw [if_pos]
  rw [List.all_eq_true]
  intro i hi
  obtain ⟨l, hl⟩ := h i hi
  rw [hl]; rfl

theorem locationInfo_located {o : Options} {f : Frame} {loc : Loc} (h : Located o f loc) :
    locationInfo o f = (some (o.relative loc.file), some (loc.line % 2 ^ 32), some loc.module) := by
  unfold locationInfo
  rw [locs_some o h.1]
  simp only [h.2]

theorem locationInfo_not {o : Options} {f : Frame} (h : NotLocated o f) : locationInfo o f = (none, none, none) := by
  unfold locationInfo
  by_cases ha : ∀ i ∈ o.indices, ∃ l, o.locations i = some l
  · rw [locs_some o ha]
    cases hl : o.locations f.index with
    | none => simp only [hl]
    | some loc => exact absurd ⟨ha, hl⟩ (h loc)
  · have : locs o = none := by
      unfold locs
      rw [if_neg]
      intro hall
      refine ha fun i hi => ?_
      exact Option.isSome_iff_exists.mp (List.all_eq_true.mp hall i hi)
    rw [this]

theorem locationInfo_line (o : Options) (f : Frame) : ∀ n, (locationInfo o f).2.1 = some n → n < 2 ^ 32 := by
  intro n h
  unfold locationInfo at h
  split at h
  · cases h
  · split at h
    · cases h
    · cases h
      exact Nat.mod_lt _ (by decide)

/-! ### records -/

theorem timestampAndLevel_texts {env : Env} {f : Frame} {ts m : List Char} (h : Texts env f ts m) :
    timestampAndLevel env f = some ⟨f.level, ts⟩ := by
  unfold timestampAndLevel
  rcases h.timestamp with h1 | ⟨h1, rfl⟩ <;> rw [h1]

/-- the record of a frame with these texts -/
def recordOf (o : Options) (f : Frame) (ts m : List Char) : Record :=
  ⟨.defmt, f.level, ts, m, (locationInfo o f).1, (locationInfo o f).2.1, (locationInfo o f).2.2⟩

theorem recordOf_ok (o : Options) (f : Frame) (ts m : List Char) : RecordOf o f ts m (recordOf o f ts m) where
  source := rfl
  level := rfl
  timestamp := rfl
  args := rfl
  located := by
    intro loc h
    simp only [recordOf, locationInfo_located h, true_and, and_true]
    intro hl
    rw [Nat.mod_eq_of_lt hl]
  notLocated := by
    intro h
    simp only [recordOf, locationInfo_not h, and_self]

theorem marker_strip (s : List Char) : stripPrefix marker (marker ++ s) = some s := stripPrefix_append marker s

theorem logDefmt_texts {env : Env} {f : Frame} {ts m : List Char} (h : Texts env f ts m) (file : Option (List Char))
    (line : Option Nat) (modulePath : Option (List Char)) :
    logDefmt env f file line modulePath =
      some ⟨marker ++ write (Payload.toJson ⟨f.level, ts⟩), .info, m, file, line, modulePath⟩ := by
  unfold logDefmt
  rw [timestampAndLevel_texts h, h.message]

theorem defmtRecord_texts (p : Payload) (level : Level) (m : List Char) (file : Option (List Char)) (line : Option Nat)
    (modulePath : Option (List Char)) :
    defmtRecord ⟨marker ++ write p.toJson, level, m, file, line, modulePath⟩ =
      some (some ⟨.defmt, p.level, p.timestamp, m, file, line, modulePath⟩) := by
  unfold defmtRecord
  simp only [marker_strip, read_write _ p.good, Option.bind_some, Payload.ofJson_toJson]

theorem isDefmtFrame_marker (s : List Char) : isDefmtFrame (marker ++ s) = true := by
  unfold isDefmtFrame
  rw [List.isPrefixOf_iff_prefix]
  exact List.prefix_append _ _

theorem shouldLog_marker (o : Options) (s : List Char) : shouldLog o (marker ++ s) = true := by
  unfold shouldLog
  split
  · exact isDefmtFrame_marker s
  · rfl

theorem forward_text {env : Env} {o : Options} {fmt : Formatters} {now : Int} {f : Frame} {ts m : List Char}
    (h : Texts env f ts m) (hj : o.json = false) : forwardToLogger env o fmt now f = printDefmtRecord fmt (recordOf o f ts m) := by
  unfold forwardToLogger
  rw [logDefmt_texts h]
  simp only [log, hj, stdoutLog, shouldLog_marker, defmtRecord_texts, Bool.not_true, Bool.false_eq_true, if_false]
  rfl

theorem forward_json {env : Env} {o : Options} {fmt : Formatters} {now : Int} {f : Frame} {ts m : List Char}
    (h : Texts env f ts m) (hj : o.json = true) : forwardToLogger env o fmt now f =
      some [(.stdout, write (createJsonFrame (recordOf o f ts m) (hostTimestamp now)).toJson), (.stdout, ['\n'])] := by
  unfold forwardToLogger
  rw [logDefmt_texts h]
  simp only [log, hj, jsonLog, shouldLog_marker, defmtRecord_texts, Bool.not_true, Bool.false_eq_true, if_false, if_true]
  rfl

theorem textOf_append (sink : Sink) (a b : Writes) : textOf sink (a ++ b) = textOf sink a ++ textOf sink b := by
  simp [textOf]

end Defmt.HostLog
