import Verif.Lemmas.Resolve
import Verif.Props.Whole
/-!
# C103: the parts that defmt connects
-/

namespace Defmt

open Parser hiding parse Written
open Resolve

theorem script_externs (avoid : Bool) : (script avoid).externs = scriptIn.externs := by cases avoid <;> rfl

theorem provides_stamp (avoid : Bool) : (script avoid).provides.lookup c!"_defmt_timestamp" = some c!"__defmt_default_timestamp" := by
  cases avoid <;> decide

theorem provides_panic (avoid : Bool) :
    (script avoid).provides.lookup c!"_defmt_panic" = if avoid then none else some c!"__defmt_default_panic" := by
  cases avoid <;> decide

theorem calls_of_carriers {s : Script} {linked : List Object} {n : Name} {t : Thing} (h : carriers linked.flatten n = [t]) :
    calls s linked n = some (n, t) := by
  unfold calls
  rw [definer_eq, h]
  rfl

theorem calls_of_nil {s : Script} {linked : List Object} {n : Name} (h : carriers linked.flatten n = []) :
    calls s linked n = (s.provides.lookup n).bind (fun m => (definer linked m).map (fun t => (m, t))) := by
  unfold calls
  rw [definer_eq, h]
  rfl

theorem defmt_linked {avoid : Bool} {own archives linked : List Object} {live : List Name} (hp : Program own archives)
    (h : Links (script avoid) own archives live linked) {n : Name} (hn : n ∈ [c!"__defmt_default_timestamp", c!"__defmt_default_panic"]) :
    definer linked n = some .defmt := by
  have hc := clean hp (ts := linked.flatten) (fun t ht => h.mem ht)
  have hd : .defmt ∈ linked.flatten := by
    rcases h.things c!"__defmt_default_timestamp" with h0 | ⟨t, ht⟩
    · have := h.nowhere (.inl (by rw [script_externs]; decide)) h0
      exact absurd hp.defmt (fun hm => by
        have : Thing.defmt ∈ carriers (own ++ archives).flatten c!"__defmt_default_timestamp" := mem_carriers.mpr ⟨hm, by decide⟩
        simp_all)
    · have := hc.defmt c!"__defmt_default_timestamp" (by decide) t (by simp [ht])
      subst this
      exact (mem_carriers.mp (by rw [ht]; simp : Thing.defmt ∈ carriers linked.flatten c!"__defmt_default_timestamp")).1
  have hm : Thing.defmt ∈ carriers linked.flatten n := mem_carriers.mpr ⟨hd, hn⟩
  rcases h.things n with h0 | ⟨t, ht⟩
  · rw [h0] at hm; cases hm
  · rw [ht, List.mem_singleton] at hm
    subst hm
    rw [definer_eq, ht]; rfl

/-- **C103** One logger: in a program that links, acquiring, writing, releasing and flushing are done by one and the same logger. (If there is
none, nothing in the program uses one, and there is none in the libraries either.) -/
theorem C103_logger (avoid : Bool) (own archives : List Object) (live : List Name) (linked : List Object) (hp : Program own archives)
    (h : Links (script avoid) own archives live linked) :
    (∃ type ∈ loggers (own ++ archives), loggers linked = [type] ∧
      ∀ n ∈ loggerFunctions, calls (script avoid) linked n = some (n, .logger type)) ∨
    (loggers (own ++ archives) = [] ∧ loggers linked = [] ∧ ∀ n ∈ loggerFunctions, n ∉ live) := by
  have hc := clean hp (ts := linked.flatten) (fun t ht => h.mem ht)
  have hc' := clean hp (ts := (own ++ archives).flatten) (fun t ht => ht)
  have hacq : c!"_defmt_acquire" ∈ loggerFunctions := by decide
  rcases h.things c!"_defmt_acquire" with h0 | ⟨t, ht⟩
  · right
    have hn := h.nowhere (.inl (by rw [script_externs]; decide)) h0
    rw [hc'.loggers hacq] at hn
    rw [hc.loggers hacq] at h0
    have h1 : loggers linked = [] := by simpa using h0
    refine ⟨by simpa using hn, h1, fun n hn hlive => h.defined n hlive ?_⟩
    rw [calls_of_nil (by rw [hc.loggers hn, h1]; rfl)]
    have : (script avoid).provides.lookup n = none := by
      revert hn
      simp only [loggerFunctions, List.mem_cons, List.not_mem_nil, or_false]
      rintro (rfl | rfl | rfl | rfl) <;> cases avoid <;> decide
    rw [this]; rfl
  · left
    rw [hc.loggers hacq] at ht
    obtain ⟨type, hl, -⟩ : ∃ type, loggers linked = [type] ∧ .logger type = t := by
      cases hl : loggers linked with
      | nil => rw [hl] at ht; simp at ht
      | cons a l => rw [hl] at ht; simp at ht; exact ⟨a, by simp [ht.2], ht.1⟩
    refine ⟨type, ?_, hl, fun n hn => calls_of_carriers (by rw [hc.loggers hn, hl]; rfl)⟩
    have : Thing.logger type ∈ carriers linked.flatten c!"_defmt_acquire" := by rw [hc.loggers hacq, hl]; simp
    have : Thing.logger type ∈ carriers (own ++ archives).flatten c!"_defmt_acquire" :=
      mem_carriers.mpr ⟨h.mem (mem_carriers.mp this).1, (mem_carriers.mp this).2⟩
    rw [hc'.loggers hacq] at this
    simpa using this

/-- **C103** Timestamps: in a program that links, log statements call the function of a `timestamp!` if there is one anywhere in the program, also
in a library that nothing refers to, and then no other `timestamp!` is linked; and the function that writes nothing if there is none. -/
theorem C103_timestamp (avoid : Bool) (own archives : List Object) (live : List Name) (linked : List Object) (hp : Program own archives)
    (h : Links (script avoid) own archives live linked) :
    (∃ a b c d, .timestamp a b c d ∈ stamps (own ++ archives) ∧ stamps linked = [.timestamp a b c d] ∧
      calls (script avoid) linked c!"_defmt_timestamp" = some (c!"_defmt_timestamp", .timestamp a b c d)) ∨
    (stamps (own ++ archives) = [] ∧ stamps linked = [] ∧
      calls (script avoid) linked c!"_defmt_timestamp" = some (c!"__defmt_default_timestamp", .defmt)) := by
  have hc := clean hp (ts := linked.flatten) (fun t ht => h.mem ht)
  have hc' := clean hp (ts := (own ++ archives).flatten) (fun t ht => ht)
  rcases h.things c!"__DEFMT_MARKER_TIMESTAMP_WAS_DEFINED" with h0 | ⟨t, ht⟩
  · right
    have hn := h.nowhere (.inl (by rw [script_externs]; decide)) h0
    rw [hc'.stamps (by decide)] at hn
    rw [hc.stamps (by decide)] at h0
    refine ⟨hn, h0, ?_⟩
    rw [calls_of_nil (by rw [hc.stamps (by decide), h0]), provides_stamp]
    simp [defmt_linked hp h (n := c!"__defmt_default_timestamp") (by decide)]
  · left
    obtain ⟨a, b, c, d, rfl⟩ := hc.stamp c!"__DEFMT_MARKER_TIMESTAMP_WAS_DEFINED" (by decide) t (by rw [ht]; simp)
    have hm : Thing.timestamp a b c d ∈ carriers (own ++ archives).flatten c!"__DEFMT_MARKER_TIMESTAMP_WAS_DEFINED" := by
      have : Thing.timestamp a b c d ∈ carriers linked.flatten c!"__DEFMT_MARKER_TIMESTAMP_WAS_DEFINED" := by rw [ht]; simp
      exact mem_carriers.mpr ⟨h.mem (mem_carriers.mp this).1, (mem_carriers.mp this).2⟩
    rw [hc'.stamps (by decide)] at hm
    rw [hc.stamps (by decide)] at ht
    exact ⟨a, b, c, d, hm, ht, calls_of_carriers (by rw [hc.stamps (by decide), ht])⟩

/-- **C103** Panics: if the program uses `defmt::panic!` or the like, these end in the function with `#[defmt::panic_handler]` if there is one
anywhere in the program; otherwise in the default one, and with the feature `avoid-default-panic` the program does not link. -/
theorem C103_panic (avoid : Bool) (own archives : List Object) (live : List Name) (linked : List Object) (hp : Program own archives)
    (h : Links (script avoid) own archives live linked) (hlive : c!"_defmt_panic" ∈ live) :
    (∃ f ∈ handlers (own ++ archives), handlers linked = [f] ∧
      calls (script avoid) linked c!"_defmt_panic" = some (c!"_defmt_panic", .panicHandler f)) ∨
    (handlers (own ++ archives) = [] ∧ avoid = false ∧
      calls (script avoid) linked c!"_defmt_panic" = some (c!"__defmt_default_panic", .defmt)) := by
  have hc := clean hp (ts := linked.flatten) (fun t ht => h.mem ht)
  have hc' := clean hp (ts := (own ++ archives).flatten) (fun t ht => ht)
  rcases h.things c!"_defmt_panic" with h0 | ⟨t, ht⟩
  · right
    have hn := h.nowhere (.inr (h.uses _ hlive)) h0
    rw [hc'.handlers] at hn
    have hd := h.defined _ hlive
    rw [calls_of_nil h0, provides_panic] at hd ⊢
    cases avoid with
    | true => exact absurd rfl hd
    | false =>
      refine ⟨by simpa using hn, rfl, ?_⟩
      simp [defmt_linked hp h (n := c!"__defmt_default_panic") (by decide)]
  · left
    obtain ⟨f, rfl⟩ := hc.panic t (by rw [ht]; simp)
    have hm : Thing.panicHandler f ∈ carriers (own ++ archives).flatten c!"_defmt_panic" := by
      have : Thing.panicHandler f ∈ carriers linked.flatten c!"_defmt_panic" := by rw [ht]; simp
      exact mem_carriers.mpr ⟨h.mem (mem_carriers.mp this).1, (mem_carriers.mp this).2⟩
    refine ⟨f, ?_, ?_, calls_of_carriers ht⟩
    · rw [hc'.handlers] at hm; simpa using hm
    · rw [hc.handlers] at ht
      cases hh : handlers linked with
      | nil => rw [hh] at ht; simp at ht
      | cons a l => rw [hh] at ht; simp at ht; simp [ht]

/-- **C103** The host decodes the timestamps by the format of the function that is called: with the strings of the object files that are linked
(`items`), the table has the format string of the `timestamp!` that log statements call, and none if they call the default. -/
theorem C103_host (avoid : Bool) (own archives : List Object) (live : List Name) (linked : List Object) (hp : Program own archives)
    (h : Links (script avoid) own archives live linked)
    (t : Linker.Target) (items : List Linker.Item) (hok : ∀ it ∈ items, it.Ok)
    (hitems : ∀ a b c d, Linker.Item.timestamp a b c d ∈ items ↔ .timestamp a b c d ∈ stamps linked)
    (inputs : List Linker.Input) (hc : Linker.Compiled t items inputs) (o : Linker.Out) (hl : Linker.link inputs = .ok o)
    (hu : ∀ a b c d, Linker.Item.timestamp a b c d ∈ items → Linker.Used inputs ⟨.timestamp, a, b, c, d⟩)
    (f : Elf.ElfFile) (hf : Linker.IsFileOf o f) (check : Bool) (table : Elf.FullTable) (ht : Elf.parseImpl f check = .ok (some table)) :
    (∃ a b c d, calls (script avoid) linked c!"_defmt_timestamp" = some (c!"_defmt_timestamp", .timestamp a b c d) ∧
      Whole.Stamp items inputs (some d) ∧ table.timestamp.map (·.string) = some ⟨.timestamp, d⟩) ∨
    (calls (script avoid) linked c!"_defmt_timestamp" = some (c!"__defmt_default_timestamp", .defmt) ∧
      Whole.Stamp items inputs none ∧ table.timestamp = none) := by
  have hts := C93_timestamp t items hok inputs hc o hl f hf check table ht
  rcases C103_timestamp avoid own archives live linked hp h with ⟨a, b, c, d, -, h2, h3⟩ | ⟨-, h2, h3⟩
  · have hi : Linker.Item.timestamp a b c d ∈ items := (hitems a b c d).mpr (by rw [h2]; simp)
    exact .inl ⟨a, b, c, d, h3, ⟨a, b, c, hi, hu a b c d hi⟩, hts.1 a b c d hi (hu a b c d hi)⟩
  · have hno : ∀ a b c d, Linker.Item.timestamp a b c d ∉ items := by
      intro a b c d hi
      rw [hitems, h2] at hi
      cases hi
    exact .inr ⟨h3, hno, hts.2 hno⟩

/-- Taking object files out of the archives comes to an end. -/
theorem pulls_end (s : Script) (own archives : List Object) :
    ∃ linked rest, Pulls s own archives linked rest ∧ ∀ o ∈ rest, ∀ n ∈ definesOf o, ¬ Undefined s linked n := by
  have key : ∀ k linked rest, rest.length = k → Pulls s own archives linked rest →
      ∃ linked rest, Pulls s own archives linked rest ∧ ∀ o ∈ rest, ∀ n ∈ definesOf o, ¬ Undefined s linked n := by
    intro k
    induction k with
    | zero =>
      intro linked rest hk hp
      cases rest with
      | nil => exact ⟨linked, [], hp, by simp⟩
      | cons => simp at hk
    | succ k ih =>
      intro linked rest hk hp
      by_cases hex : ∃ o ∈ rest, ∃ n ∈ definesOf o, Undefined s linked n
      · obtain ⟨o, ho, n, hn, hun⟩ := hex
        obtain ⟨before, after, rfl⟩ := List.append_of_mem ho
        exact ih _ (before ++ after) (by simp at hk ⊢; omega) (.pull hp hn hun)
      · exact ⟨linked, rest, hp, fun o ho n hn hun => hex ⟨o, ho, n, hn, hun⟩⟩
  exact key _ own archives rfl .start

/-- **C103** What has to be there links: if no symbol is defined twice in the whole program, then it links, as long as every symbol that is used is
defined somewhere, or is the one for the timestamp, or the one for panics (without the feature `avoid-default-panic`). -/
theorem C103_links (avoid : Bool) (own archives : List Object) (hp : Program own archives)
    (hnd : ((own ++ archives).flatMap definesOf).Nodup) :
    ∃ linked, (∀ o ∈ own, o ∈ linked) ∧ ∀ live : List Name, (∀ n ∈ live, n ∈ linked.flatMap needsOf) →
      (∀ n ∈ live, n ∈ (own ++ archives).flatMap definesOf ∨ n = c!"_defmt_timestamp" ∨ (n = c!"_defmt_panic" ∧ avoid = false)) →
      Links (script avoid) own archives live linked := by
  obtain ⟨linked, rest, h1, h2⟩ := pulls_end (script avoid) own archives
  have hperm := h1.perm
  have honce : (linked.flatMap definesOf).Nodup := by
    have : ((linked ++ rest).flatMap definesOf).Nodup := ((hperm.flatMap_right definesOf).nodup_iff).mpr hnd
    rw [List.flatMap_append] at this
    exact (List.nodup_append.mp this).1
  have h0 : Links (script avoid) own archives [] linked := ⟨⟨rest, h1, h2⟩, honce, by simp, by simp⟩
  refine ⟨linked, h1.own_sub, fun live hlive hdef => ⟨⟨rest, h1, h2⟩, honce, hlive, fun n hn => ?_⟩⟩
  rcases h0.things n with hnil | ⟨t, ht⟩
  · have := h0.nowhere (.inr (hlive n hn)) hnil
    rw [carriers_nil, ← flatMap_definesOf] at this
    rw [calls_of_nil hnil]
    rcases hdef n hn with hd | rfl | ⟨rfl, rfl⟩
    · exact absurd hd this
    · rw [provides_stamp]
      simp [defmt_linked hp h0 (n := c!"__defmt_default_timestamp") (by decide)]
    · rw [provides_panic]
      simp [defmt_linked hp h0 (n := c!"__defmt_default_panic") (by decide)]
  · rw [calls_of_carriers ht]; simp

/-- **C103** A program with a logger links: if no symbol is defined twice in the whole program, there is a logger, everything that the rest of the program
refers to is defined, and panics end somewhere (in a handler, or in the default one), then it links, even if all of its code stays in it. -/
theorem C103_complete (avoid : Bool) (own archives : List Object) (hp : Program own archives)
    (hnd : ((own ++ archives).flatMap definesOf).Nodup) (hlogger : loggers (own ++ archives) ≠ [])
    (hother : ∀ ds ns, Thing.other ds ns ∈ (own ++ archives).flatten → ∀ n ∈ ns, n ∈ (own ++ archives).flatMap definesOf)
    (hpanic : Thing.panics ∈ (own ++ archives).flatten → handlers (own ++ archives) ≠ [] ∨ avoid = false) :
    ∃ linked, (∀ o ∈ own, o ∈ linked) ∧ Links (script avoid) own archives (linked.flatMap needsOf) linked := by
  obtain ⟨linked, h1, h2⟩ := C103_links avoid own archives hp hnd
  have hmem : ∀ t ∈ linked.flatten, t ∈ (own ++ archives).flatten := fun t ht =>
    (h2 [] (by simp) (by simp)).mem ht
  refine ⟨linked, h1, h2 _ (fun _ h => h) fun n hn => ?_⟩
  rw [flatMap_needsOf, List.mem_flatMap] at hn
  obtain ⟨t, ht, hn⟩ := hn
  have ht' := hmem t ht
  have hlog : ∀ n ∈ loggerFunctions, n ∈ (own ++ archives).flatMap definesOf := by
    intro n hn
    obtain ⟨type, l, hl⟩ := List.exists_cons_of_ne_nil hlogger
    have : type ∈ loggers (own ++ archives) := by rw [hl]; simp
    obtain ⟨x, hx, hxt⟩ := List.mem_filterMap.mp this
    rw [flatMap_definesOf, List.mem_flatMap]
    refine ⟨x, hx, ?_⟩
    cases x <;> simp at hxt
    exact hn
  cases t with
  | logger _ => cases hn
  | panicHandler _ => cases hn
  | timestamp a b c d => exact .inl (hlog n (by revert hn; simp only [Thing.needs, loggerFunctions]; decide +revert))
  | defmt => exact .inl (hlog n hn)
  | logs =>
    simp only [Thing.needs, List.mem_cons, List.not_mem_nil, or_false] at hn
    rcases hn with rfl | rfl | rfl | rfl
    · exact .inl (hlog _ (by decide))
    · exact .inr (.inl rfl)
    · exact .inl (hlog _ (by decide))
    · exact .inl (hlog _ (by decide))
  | panics =>
    simp only [Thing.needs, List.mem_cons, List.not_mem_nil, or_false] at hn
    subst hn
    rcases hpanic ht' with hh | hh
    · obtain ⟨f, l, hl⟩ := List.exists_cons_of_ne_nil hh
      have : f ∈ handlers (own ++ archives) := by rw [hl]; simp
      obtain ⟨x, hx, hxt⟩ := List.mem_filterMap.mp this
      refine .inl ?_
      rw [flatMap_definesOf, List.mem_flatMap]
      refine ⟨x, hx, ?_⟩
      cases x <;> simp at hxt
      simp [Thing.defines]
    · exact .inr (.inr ⟨rfl, hh⟩)
  | other ds ns => exact .inl (hother ds ns ht' n hn)

/-- **C103** The order in which the libraries are searched does not matter, if no symbol is defined twice in the whole program. -/
theorem C103_order (avoid : Bool) (own archives : List Object) (hnd : ((own ++ archives).flatMap definesOf).Nodup)
    (live live' : List Name) (linked linked' : List Object) (h : Links (script avoid) own archives live linked)
    (h' : Links (script avoid) own archives live' linked') (o : Object) : o ∈ linked ↔ o ∈ linked' := by
  have key : ∀ live (linked linked' rest' : List Object), Links (script avoid) own archives live linked →
      Pulls (script avoid) own archives linked' rest' → ∀ o ∈ linked', o ∈ linked := by
    intro live linked linked' rest' h hp
    obtain ⟨rest, hp1, hclosed⟩ := h.pulled
    induction hp with
    | start => exact hp1.own_sub
    | @pull l before o after n hp hn hun ih =>
      intro x hx
      rcases List.mem_append.mp hx with hx | hx
      · exact ih x hx
      · rw [List.mem_singleton] at hx
        subst hx
        have hxall : x ∈ linked ++ rest := hp1.perm.mem_iff.mpr (hp.perm.mem_iff.mp (by simp))
        rcases List.mem_append.mp hxall with hx | hx
        · exact hx
        · exfalso
          refine hclosed x hx n hn ⟨?_, ?_⟩
          · rcases hun.1 with he | he
            · exact .inl he
            · obtain ⟨y, hy, hny⟩ := List.mem_flatMap.mp he
              exact .inr (List.mem_flatMap.mpr ⟨y, ih y hy, hny⟩)
          · intro hm
            have : ((linked ++ rest).flatMap definesOf).Nodup := ((hp1.perm.flatMap_right definesOf).nodup_iff).mpr hnd
            rw [List.flatMap_append, List.nodup_append] at this
            exact this.2.2 n hm n (List.mem_flatMap.mpr ⟨x, hx, hn⟩) rfl
  obtain ⟨rest, hp1, -⟩ := h.pulled
  obtain ⟨rest', hp1', -⟩ := h'.pulled
  exact ⟨key _ _ _ _ h' hp1 o, key _ _ _ _ h hp1' o⟩

theorem pulls_prefix {s : Script} {own archives linked rest : List Object} (h : Pulls s own archives linked rest) : own <+: linked := by
  induction h with
  | start => exact List.prefix_refl _
  | pull _ _ _ ih => exact ih.trans (List.prefix_append _ _)

/-- **C103** (part: in the object files of the application itself) Two loggers, two `timestamp!` or two panic handlers do not link. -/
theorem C103_two_refused_partial (avoid : Bool) (own archives : List Object)
    (h2 : 2 ≤ (loggers own).length ∨ 2 ≤ (stamps own).length ∨ 2 ≤ (handlers own).length) (live : List Name) (linked : List Object) :
    ¬ Links (script avoid) own archives live linked := by
  intro h
  obtain ⟨rest, hp, -⟩ := h.pulled
  obtain ⟨more, rfl⟩ := pulls_prefix hp
  have hnd : (own.flatten.flatMap Thing.defines).Nodup := by
    have := h.once
    rw [List.flatMap_append, List.nodup_append] at this
    rw [← flatMap_definesOf]; exact this.1
  have key : ∀ (ts : List Thing), (ts.flatMap Thing.defines).Nodup → ∀ (p : Thing → Bool) (n : Name), (∀ t, p t = true → n ∈ t.defines) →
      (ts.filter p).length ≤ 1 := by
    intro ts hnd p n hpn
    have hsub : (ts.filter p).Sublist (carriers ts n) := by
      have : ts.filter p = (carriers ts n).filter p := by
        unfold carriers
        rw [List.filter_filter]
        refine List.filter_congr fun t _ => ?_
        cases hp : p t with
        | false => simp
        | true => simp [hpn t hp]
      rw [this]
      exact List.filter_sublist
    have := hsub.length_le
    rcases carriers_le hnd n with h0 | ⟨t, ht⟩
    · rw [h0] at this; exact Nat.le_trans this (Nat.zero_le _)
    · rw [ht] at this; simpa using this
  have hf : ∀ {β : Type} (f : Thing → Option β) (ts : List Thing), (ts.filterMap f).length = (ts.filter (fun t => (f t).isSome)).length := by
    intro β f ts
    induction ts with
    | nil => rfl
    | cons t ts ih => cases hft : f t <;> simp [hft, ih]
  rcases h2 with h2 | h2 | h2
  · have := key _ hnd (fun t => (match t with | .logger type => some type | _ => none : Option (List Char)).isSome) c!"_defmt_acquire"
      (by intro t ht; cases t <;> simp_all [Thing.defines])
    unfold loggers at h2
    rw [hf] at h2
    exact Nat.not_succ_le_self 1 (Nat.le_trans h2 this)
  · have := key _ hnd (fun t => match t with | .timestamp .. => true | _ => false) c!"_defmt_timestamp"
      (by intro t ht; cases t <;> simp_all [Thing.defines])
    unfold stamps at h2
    exact Nat.not_succ_le_self 1 (Nat.le_trans h2 this)
  · have := key _ hnd (fun t => (match t with | .panicHandler f => some f | _ => none : Option (List Char)).isSome) c!"_defmt_panic"
      (by intro t ht; cases t <;> simp_all [Thing.defines])
    unfold handlers at h2
    rw [hf] at h2
    exact Nat.not_succ_le_self 1 (Nat.le_trans h2 this)

example : 2 ≤ (stamps [[.timestamp c!"app" c!"app" 1 c!"{=u32:us}"], [.logs, .timestamp c!"app" c!"app" 2 c!"{=u64}"]]).length := by decide

/-! ### A program -/

instance (s : Script) (linked : List Object) (n : Name) : Decidable (Undefined s linked n) := by unfold Undefined; infer_instance

/-- an application that logs and panics, and the libraries it is linked with -/
def app : List Object := [[.logs, .panics, .other [c!"main"] []]]
def clock : Object := [.timestamp c!"clock" c!"clock" 1 c!"{=u32:us}", .other [c!"now"] []]
def clock1 : Object := [.timestamp c!"clock" c!"clock" 1 c!"{=u32:us}"]
def clock2 : Object := [.timestamp c!"rtc" c!"rtc" 2 c!"{=u64}"]
def libs : List Object := [[.panicHandler c!"on_panic"], [.defmt], [.logger c!"Logger", .other [c!"_SEGGER_RTT"] []], clock]
def appNeeds : List Name := [c!"_defmt_acquire", c!"_defmt_timestamp", c!"_defmt_write", c!"_defmt_release", c!"_defmt_panic"]

theorem libs_program : Program app libs := by
  refine ⟨fun ds ns hm d hd => ?_, by decide⟩
  simp only [app, libs, clock, List.flatten_append, List.flatten_cons, List.flatten_nil, List.append_nil, List.mem_append, List.mem_cons,
    List.not_mem_nil, or_false, reduceCtorEq, false_or, Thing.other.injEq] at hm
  rcases hm with ⟨rfl, rfl⟩ | ⟨rfl, rfl⟩ | ⟨rfl, rfl⟩ <;>
    (simp only [List.mem_cons, List.not_mem_nil, or_false] at hd; subst hd; decide)

theorem libs_link : Links (script true) app libs appNeeds
    (app ++ [[.defmt], [.logger c!"Logger", .other [c!"_SEGGER_RTT"] []], clock, [.panicHandler c!"on_panic"]]) where
  pulled := by
    refine ⟨[], ?_, by simp⟩
    have h0 : Pulls (script true) app libs app libs := .start
    have h1 := Pulls.pull (before := [[.panicHandler c!"on_panic"]]) (o := [.defmt])
      (after := [[.logger c!"Logger", .other [c!"_SEGGER_RTT"] []], clock]) (n := c!"__defmt_default_timestamp") h0 (by decide) (by decide)
    have h2 := Pulls.pull (before := [[.panicHandler c!"on_panic"]]) (o := [.logger c!"Logger", .other [c!"_SEGGER_RTT"] []]) (after := [clock])
      (n := c!"_defmt_write") h1 (by decide) (by decide)
    have h3 := Pulls.pull (before := [[.panicHandler c!"on_panic"]]) (o := clock) (after := [])
      (n := c!"_defmt_timestamp") h2 (by decide) (by decide)
    exact Pulls.pull (before := []) (o := [.panicHandler c!"on_panic"]) (after := []) (n := c!"_defmt_panic") h3 (by decide) (by decide)
  once := by decide
  uses := by decide
  defined := by decide

example : calls (script true) (app ++ [[.defmt], [.logger c!"Logger", .other [c!"_SEGGER_RTT"] []], clock, [.panicHandler c!"on_panic"]])
    c!"_defmt_timestamp" = some (c!"_defmt_timestamp", .timestamp c!"clock" c!"clock" 1 c!"{=u32:us}") := by decide

/-- the hypotheses of `C103_links` hold for this program, so that it links whatever the order of the libraries -/
example : Program app libs ∧ ((app ++ libs).flatMap definesOf).Nodup := ⟨libs_program, by decide⟩

/-- and so do those of `C103_complete` -/
example : ∃ linked, (∀ o ∈ app, o ∈ linked) ∧ Links (script true) app libs (linked.flatMap needsOf) linked :=
  C103_complete true app libs libs_program (by decide) (by decide) (by
    intro ds ns hm n hn
    simp only [app, libs, clock, List.flatten_append, List.flatten_cons, List.flatten_nil, List.append_nil, List.mem_append, List.mem_cons,
      List.not_mem_nil, or_false, reduceCtorEq, false_or, Thing.other.injEq] at hm
    rcases hm with ⟨rfl, rfl⟩ | ⟨rfl, rfl⟩ | ⟨rfl, rfl⟩ <;> cases hn) (by decide)

/-- **C103** fails in one respect: the symbol `__DEFMT_MARKER_TIMESTAMP_WAS_DEFINED` is meant to prevent that there are two `timestamp!` in a
program (timestamp.rs:50-52), but if both are in libraries, the linker takes the first one that it finds and does not notice the other one. Which of the
two is used depends on the order in which it looks. (Host and target still agree, `C103_host`.) -/
theorem C103_fails_two_timestamps : ∃ own archives linked linked', Program own archives ∧ (stamps (own ++ archives)).length = 2 ∧
    Links (script false) own archives appNeeds linked ∧ Links (script false) own archives appNeeds linked' ∧
    calls (script false) linked c!"_defmt_timestamp" ≠ calls (script false) linked' c!"_defmt_timestamp" := by
  refine ⟨app ++ [[.defmt, .logger c!"Logger"]], [clock1, clock2], app ++ [[.defmt, .logger c!"Logger"]] ++ [clock1],
    app ++ [[.defmt, .logger c!"Logger"]] ++ [clock2], ⟨fun ds ns hm d hd => ?_, by decide⟩, by decide, ⟨⟨[clock2], ?_, by decide⟩, by decide, by decide, by decide⟩,
    ⟨⟨[clock1], ?_, by decide⟩, by decide, by decide, by decide⟩, by decide⟩
  · simp only [app, clock1, clock2, List.flatten_append, List.flatten_cons, List.flatten_nil, List.append_nil, List.mem_append, List.mem_cons,
      List.not_mem_nil, or_false, reduceCtorEq, false_or, Thing.other.injEq] at hm
    obtain ⟨rfl, rfl⟩ := hm
    simp only [List.mem_cons, List.not_mem_nil, or_false] at hd
    subst hd
    decide
  · exact Pulls.pull (before := []) (o := clock1) (after := [clock2]) (n := c!"_defmt_timestamp") .start (by decide) (by decide)
  · exact Pulls.pull (before := [clock1]) (o := clock2) (after := []) (n := c!"_defmt_timestamp") .start (by decide) (by decide)

end Defmt
