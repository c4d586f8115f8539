import Verif.Spec.Resolve
/-! Lemmas about the linking of object files. -/

namespace Defmt.Resolve

open Parser

theorem flatMap_definesOf (os : List Object) : os.flatMap definesOf = os.flatten.flatMap Thing.defines := by
  induction os with
  | nil => rfl
  | cons o os ih => simp [definesOf, ih]

theorem flatMap_needsOf (os : List Object) : os.flatMap needsOf = os.flatten.flatMap Thing.needs := by
  induction os with
  | nil => rfl
  | cons o os ih => simp [needsOf, ih]

theorem Pulls.perm {s : Script} {own archives linked rest : List Object} (h : Pulls s own archives linked rest) :
    (linked ++ rest).Perm (own ++ archives) := by
  induction h with
  | start => exact List.Perm.refl _
  | pull _ _ _ ih =>
    refine List.Perm.trans ?_ ih
    rw [List.append_assoc]
    refine List.Perm.append_left _ ?_
    simp only [List.singleton_append]
    exact List.perm_middle.symm

theorem Pulls.own_sub {s : Script} {own archives linked rest : List Object} (h : Pulls s own archives linked rest) :
    ∀ o ∈ own, o ∈ linked := by
  induction h with
  | start => exact fun _ h => h
  | pull _ _ _ ih => exact fun o ho => List.mem_append_left _ (ih o ho)

/-- The things that define a symbol. -/
def carriers (ts : List Thing) (n : Name) : List Thing := ts.filter (fun t => n ∈ t.defines)

theorem carriers_nil {ts : List Thing} {n : Name} : carriers ts n = [] ↔ n ∉ ts.flatMap Thing.defines := by
  simp [carriers, List.filter_eq_nil_iff]

theorem carriers_le {ts : List Thing} (h : (ts.flatMap Thing.defines).Nodup) (n : Name) : carriers ts n = [] ∨ ∃ t, carriers ts n = [t] := by
  induction ts with
  | nil => exact .inl rfl
  | cons t ts ih =>
    rw [List.flatMap_cons, List.nodup_append] at h
    obtain ⟨h1, h2, h3⟩ := h
    by_cases hn : n ∈ t.defines
    · right
      refine ⟨t, ?_⟩
      have : carriers ts n = [] := by
        rw [carriers_nil]
        exact fun hm => h3 n hn n hm rfl
      unfold carriers at this ⊢
      rw [List.filter_cons_of_pos (by simpa using hn), this]
    · unfold carriers at ih ⊢
      rw [List.filter_cons_of_neg (by simpa using hn)]
      exact ih h2

theorem definer_eq (linked : List Object) (n : Name) : definer linked n = (carriers linked.flatten n).head? := by
  unfold definer carriers
  rw [List.head?_filter]

theorem Links.things {s : Script} {own archives linked : List Object} {live : List Name} (h : Links s own archives live linked)
    (n : Name) : carriers linked.flatten n = [] ∨ ∃ t, carriers linked.flatten n = [t] :=
  carriers_le (by rw [← flatMap_definesOf]; exact h.once) n

theorem Links.mem {s : Script} {own archives linked : List Object} {live : List Name} (h : Links s own archives live linked) {t : Thing}
    (ht : t ∈ linked.flatten) : t ∈ (own ++ archives).flatten := by
  obtain ⟨rest, hp, -⟩ := h.pulled
  rw [List.mem_flatten] at ht ⊢
  obtain ⟨o, ho, hto⟩ := ht
  exact ⟨o, hp.perm.mem_iff.mp (List.mem_append_left _ ho), hto⟩

/-- A symbol that is asked for and not defined in the program is defined nowhere. -/
theorem Links.nowhere {s : Script} {own archives linked : List Object} {live : List Name} (h : Links s own archives live linked) {n : Name}
    (hn : n ∈ s.externs ∨ n ∈ linked.flatMap needsOf) (hc : carriers linked.flatten n = []) : carriers (own ++ archives).flatten n = [] := by
  obtain ⟨rest, hp, hr⟩ := h.pulled
  have hnd : n ∉ linked.flatMap definesOf := by rw [flatMap_definesOf, ← carriers_nil]; exact hc
  rw [carriers_nil, ← flatMap_definesOf]
  intro hm
  obtain ⟨o, ho, hno⟩ := List.mem_flatMap.mp hm
  rcases List.mem_append.mp (hp.perm.mem_iff.mpr ho) with ho | ho
  · exact hnd (List.mem_flatMap.mpr ⟨o, ho, hno⟩)
  · exact hr o ho n hno ⟨hn, hnd⟩

theorem mem_carriers {ts : List Thing} {n : Name} {t : Thing} : t ∈ carriers ts n ↔ t ∈ ts ∧ n ∈ t.defines := by
  simp [carriers]

/-- Where the names of defmt are defined. -/
structure Clean (ts : List Thing) : Prop where
  logger : ∀ n ∈ loggerFunctions, ∀ t ∈ carriers ts n, ∃ type, t = .logger type
  panic : ∀ t ∈ carriers ts c!"_defmt_panic", ∃ f, t = .panicHandler f
  stamp : ∀ n ∈ [c!"_defmt_timestamp", c!"__DEFMT_MARKER_TIMESTAMP_WAS_DEFINED"], ∀ t ∈ carriers ts n, ∃ a b c d, t = .timestamp a b c d
  defmt : ∀ n ∈ [c!"__defmt_default_timestamp", c!"__defmt_default_panic"], ∀ t ∈ carriers ts n, t = .defmt

theorem clean {own archives : List Object} (hp : Program own archives) {ts : List Thing} (hs : ∀ t ∈ ts, t ∈ (own ++ archives).flatten) :
    Clean ts := by
  have key : ∀ t n, t ∈ carriers ts n → n ∈ loggerFunctions ++ [c!"_defmt_panic", c!"_defmt_timestamp", c!"__DEFMT_MARKER_TIMESTAMP_WAS_DEFINED",
      c!"__defmt_default_timestamp", c!"__defmt_default_panic"] → (∀ ds ns, t ≠ .other ds ns) := by
    rintro t n ht hn ds ns rfl
    rw [mem_carriers] at ht
    exact hp.reserved ds ns (hs _ ht.1) n ht.2 hn
  constructor
  · intro n hn t ht
    have := key t n ht (List.mem_append_left _ hn)
    rw [mem_carriers] at ht
    cases t with
    | logger type => exact ⟨type, rfl⟩
    | other ds ns => exact absurd rfl (this ds ns)
    | _ =>
      exfalso
      revert hn
      have h2 := ht.2
      simp only [Thing.defines, List.mem_cons, List.not_mem_nil, or_false] at h2
      all_goals first | (rcases h2 with rfl | rfl <;> decide) | (subst h2; decide)
  · intro t ht
    have := key t _ ht (by decide)
    rw [mem_carriers] at ht
    cases t with
    | panicHandler f => exact ⟨f, rfl⟩
    | other ds ns => exact absurd rfl (this ds ns)
    | _ => exact absurd ht.2 (by simp [Thing.defines])
  · intro n hn t ht
    have := key t n ht (by revert hn; simp only [List.mem_cons, List.not_mem_nil, or_false]; rintro (rfl | rfl) <;> decide)
    rw [mem_carriers] at ht
    cases t with
    | timestamp a b c d => exact ⟨a, b, c, d, rfl⟩
    | other ds ns => exact absurd rfl (this ds ns)
    | _ =>
      simp only [List.mem_cons, List.not_mem_nil, or_false] at hn
      rcases hn with rfl | rfl <;> exact absurd ht.2 (by simp [Thing.defines])
  · intro n hn t ht
    have := key t n ht (by revert hn; simp only [List.mem_cons, List.not_mem_nil, or_false]; rintro (rfl | rfl) <;> decide)
    rw [mem_carriers] at ht
    cases t with
    | defmt => rfl
    | other ds ns => exact absurd rfl (this ds ns)
    | _ =>
      simp only [List.mem_cons, List.not_mem_nil, or_false] at hn
      rcases hn with rfl | rfl <;> exact absurd ht.2 (by simp [Thing.defines])

theorem Clean.loggers {ts : List Object} (h : Clean ts.flatten) {n : Name} (hn : n ∈ loggerFunctions) :
    carriers ts.flatten n = (loggers ts).map .logger := by
  have hl : ∀ type, n ∈ (Thing.logger type).defines := fun _ => hn
  have := h.logger n hn
  unfold Resolve.loggers
  generalize ts.flatten = l at this
  clear h
  induction l with
  | nil => rfl
  | cons t l ih =>
    have hc : ∀ x ∈ carriers l n, x ∈ carriers (t :: l) n := by
      intro x hx
      rw [mem_carriers] at hx ⊢
      exact ⟨List.mem_cons_of_mem _ hx.1, hx.2⟩
    have ih := ih (fun x hx => this x (hc x hx))
    by_cases ht : n ∈ t.defines
    · obtain ⟨type, rfl⟩ := this t (mem_carriers.mpr ⟨List.mem_cons_self .., ht⟩)
      unfold carriers at ih ⊢
      rw [List.filter_cons_of_pos (by simpa using ht), ih]
      simp
    · unfold carriers at ih ⊢
      rw [List.filter_cons_of_neg (by simpa using ht), ih]
      cases t with
      | logger type => exact absurd (hl type) ht
      | _ => simp

theorem Clean.handlers {ts : List Object} (h : Clean ts.flatten) :
    carriers ts.flatten c!"_defmt_panic" = (handlers ts).map .panicHandler := by
  have hl : ∀ f, c!"_defmt_panic" ∈ (Thing.panicHandler f).defines := fun _ => by simp [Thing.defines]
  have := h.panic
  unfold Resolve.handlers
  generalize ts.flatten = l at this
  clear h
  induction l with
  | nil => rfl
  | cons t l ih =>
    have hc : ∀ x ∈ carriers l c!"_defmt_panic", x ∈ carriers (t :: l) c!"_defmt_panic" := by
      intro x hx
      rw [mem_carriers] at hx ⊢
      exact ⟨List.mem_cons_of_mem _ hx.1, hx.2⟩
    have ih := ih (fun x hx => this x (hc x hx))
    by_cases ht : c!"_defmt_panic" ∈ t.defines
    · obtain ⟨type, rfl⟩ := this t (mem_carriers.mpr ⟨List.mem_cons_self .., ht⟩)
      unfold carriers at ih ⊢
      rw [List.filter_cons_of_pos (by simpa using ht), ih]
      simp
    · unfold carriers at ih ⊢
      rw [List.filter_cons_of_neg (by simpa using ht), ih]
      cases t with
      | panicHandler type => exact absurd (hl type) ht
      | _ => simp

theorem Clean.stamps {ts : List Object} (h : Clean ts.flatten) {n : Name}
    (hn : n ∈ [c!"_defmt_timestamp", c!"__DEFMT_MARKER_TIMESTAMP_WAS_DEFINED"]) : carriers ts.flatten n = stamps ts := by
  unfold carriers Resolve.stamps
  refine List.filter_congr ?_
  intro t ht
  by_cases hd : n ∈ t.defines
  · obtain ⟨a, b, c, d, rfl⟩ := h.stamp n hn t (mem_carriers.mpr ⟨ht, hd⟩)
    simpa using hd
  · cases t with
    | timestamp a b c d => exact absurd hn hd
    | _ => simpa using hd

end Defmt.Resolve
