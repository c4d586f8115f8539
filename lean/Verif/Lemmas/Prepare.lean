import Verif.Model.Encoder
import Verif.Lemmas.ParserCheck
/-! `prepare_params` on the host and `Codegen::new` on the target choose the same argument types. -/

namespace Defmt.Decoder

open Parser

/-- first parameter with an index -/
def firstAt (i : Nat) (ps : List Parameter) : Option Parameter := ps.find? (fun p => p.index = i)

/-- The type of argument `i`: that of the first parameter with this index, bitfields merged. -/
def tyAt (ps : List Parameter) (i : Nat) : Option Ty :=
  match firstAt i ps with
  | none => none
  | some p =>
    match p.ty with
    | .bitField _ _ =>
      (maxBitfieldRange (bitRanges (ps.filter (fun p => p.index = i)))).map (fun r => .bitField r.1 r.2)
    | ty => some ty

def isBitfield (p : Parameter) : Bool :=
  match p.ty with
  | .bitField _ _ => true
  | _ => false

theorem isBitfieldOf_eq (i : Nat) (p : Parameter) :
    isBitfieldOf i p = (isBitfield p && decide (p.index = i)) := by
  unfold isBitfieldOf isBitfield
  split
  · rename_i h; simp [h]
  · rename_i h
    split
    · rename_i h'; exact absurd h' (by simpa using h _ _)
    · simp

theorem maxRange_none {l : List (Nat × Nat)} : maxBitfieldRange l = none ↔ l = [] := by
  cases l with
  | nil => simp [maxBitfieldRange]
  | cons a l =>
    obtain ⟨s, e⟩ := a
    simp only [maxBitfieldRange]
    cases maxBitfieldRange l <;> simp

theorem bitRanges_filter (ps : List Parameter) (i : Nat) :
    bitRanges (ps.filter (isBitfieldOf i)) = bitRanges (ps.filter (fun p => p.index = i)) := by
  induction ps with
  | nil => rfl
  | cons p ps ih =>
    by_cases hi : p.index = i
    · by_cases hb : isBitfield p
      · rw [List.filter_cons_of_pos (by simp [isBitfieldOf_eq, hb, hi]),
          List.filter_cons_of_pos (by simpa using hi)]
        unfold bitRanges
        split <;> simp [ih]
      · rw [List.filter_cons_of_neg (by simp [isBitfieldOf_eq, hb]), List.filter_cons_of_pos (by simpa using hi),
          ih]
        conv => rhs; unfold bitRanges
        unfold isBitfield at hb
        split at hb
        · simp at hb
        · split
          · simp_all
          · rfl
    · rw [List.filter_cons_of_neg (by simp [isBitfieldOf_eq, hi]), List.filter_cons_of_neg (by simpa using hi), ih]

theorem bitRanges_nil {ps : List Parameter} {i : Nat} :
    bitRanges (ps.filter (isBitfieldOf i)) = [] ↔ ∀ p ∈ ps, isBitfieldOf i p = false := by
  induction ps with
  | nil => simp [bitRanges]
  | cons p ps ih =>
    by_cases h : isBitfieldOf i p
    · rw [List.filter_cons_of_pos h]
      unfold bitRanges
      have : isBitfield p = true := by rw [isBitfieldOf_eq] at h; simp at h; exact h.1
      unfold isBitfield at this
      split at this
      · rename_i hp
        simp [hp, h]
      · simp at this
    · rw [List.filter_cons_of_neg h, ih]
      simp [h]

/-- the merged parameter of an index -/
def mergedParam (ps : List Parameter) (i : Nat) : Option Parameter :=
  (maxBitfieldRange (bitRanges (ps.filter (isBitfieldOf i)))).map
    (fun r => { index := i, ty := .bitField r.1 r.2, hint := none })

theorem merge_fold (ps : List Parameter) (k : Nat) :
    (List.range k).foldl mergeStep (ps, []) =
      (ps.filter (fun p => !(isBitfield p && decide (p.index < k))),
       (List.range k).filterMap (mergedParam ps)) := by
  induction k with
  | zero =>
    have : ps.filter (fun p => !(isBitfield p && decide (p.index < 0))) = ps := by
      rw [List.filter_eq_self]; intro p _; simp
    rw [this]; rfl
  | succ k ih =>
    rw [List.range_succ, List.foldl_append, ih, List.filterMap_append]
    simp only [List.foldl_cons, List.foldl_nil, List.filterMap_cons, List.filterMap_nil]
    have hf : (ps.filter (fun p => !(isBitfield p && decide (p.index < k)))).filter (isBitfieldOf k) =
        ps.filter (isBitfieldOf k) := by
      rw [List.filter_filter]
      apply List.filter_congr
      intro p _
      rw [isBitfieldOf_eq]
      by_cases h : p.index = k
      · subst h; simp
      · simp [h]
    unfold mergeStep
    simp only [hf, mergedParam]
    cases hm : maxBitfieldRange (bitRanges (ps.filter (isBitfieldOf k))) with
    | none =>
      simp only [Option.map_none, List.append_nil, Prod.mk.injEq, and_true]
      rw [maxRange_none, bitRanges_nil] at hm
      apply List.filter_congr
      intro p hp
      have := hm p hp
      rw [isBitfieldOf_eq] at this
      by_cases h : p.index = k
      · simp [h] at this; simp [this]
      · have : (p.index < k + 1) = (p.index < k) := by simp; omega
        simp [this]
    | some r =>
      obtain ⟨a, b⟩ := r
      simp only [Option.map_some, Prod.mk.injEq, and_true]
      rw [List.filter_filter]
      apply List.filter_congr
      intro p _
      rw [isBitfieldOf_eq]
      by_cases hb : isBitfield p
      · simp only [hb, Bool.true_and]
        by_cases h : p.index = k
        · subst h; simp
        · have : (p.index < k + 1) ↔ (p.index < k) := by omega
          simp [h, this]
      · simp [hb]

theorem foldl_max_le (l : List Nat) : ∀ (a x : Nat), x ∈ l ∨ x ≤ a → x ≤ l.foldl max a := by
  induction l with
  | nil => intro a x h; simpa using h
  | cons b l ih =>
    intro a x h
    simp only [List.foldl_cons]
    apply ih
    simp only [List.mem_cons] at h
    rcases h with (rfl | h) | h
    · right; omega
    · left; exact h
    · right; omega

theorem mergeBitfields_eq (ps : List Parameter) :
    mergeBitfields ps = ps.filter (fun p => !isBitfield p) ++
      (List.range ((ps.map Parameter.index).foldl max 0 + 1)).filterMap (mergedParam ps) := by
  unfold mergeBitfields
  split
  · rename_i h
    have : ps = [] := by simpa using h
    subst this
    simp [mergedParam, bitRanges, maxBitfieldRange]
  · simp only [merge_fold]
    congr 1
    apply List.filter_congr
    intro p hp
    have : p.index < (ps.map Parameter.index).foldl max 0 + 1 := by
      have := foldl_max_le (ps.map Parameter.index) 0 p.index (Or.inl (List.mem_map_of_mem hp))
      omega
    simp [this]

theorem firstAt_filterMap_merged (ps : List Parameter) (i : Nat) : ∀ (l : List Nat), l.Nodup →
    firstAt i (l.filterMap (mergedParam ps)) = if i ∈ l then mergedParam ps i else none := by
  intro l
  induction l with
  | nil => intro _; rfl
  | cons k l ih =>
    intro hn
    have hn' := List.nodup_cons.mp hn
    cases hk : mergedParam ps k with
    | none =>
      rw [List.filterMap_cons_none hk, ih hn'.2]
      by_cases h : i = k
      · subst h; simp [hn'.1, hk]
      · simp [h]
    | some p =>
      rw [List.filterMap_cons_some hk]
      have hp : p.index = k := by
        unfold mergedParam at hk
        simp only [Option.map_eq_some_iff] at hk
        obtain ⟨r, _, rfl⟩ := hk
        rfl
      unfold firstAt at ih ⊢
      by_cases h : i = k
      · subst h
        rw [List.find?_cons_of_pos (by simpa using hp)]
        simp [hk]
      · rw [List.find?_cons_of_neg (by simp [hp]; omega), ih hn'.2]
        simp [h]

theorem firstAt_append (i : Nat) (a b : List Parameter) :
    firstAt i (a ++ b) = (firstAt i a).or (firstAt i b) := by
  unfold firstAt; rw [List.find?_append]

theorem firstAt_filter {i : Nat} {ps : List Parameter} {f : Parameter → Bool}
    (h : ∀ p ∈ ps, p.index = i → f p = true) : firstAt i (ps.filter f) = firstAt i ps := by
  induction ps with
  | nil => rfl
  | cons p ps ih =>
    have ih := ih (fun q hq => h q (by simp [hq]))
    unfold firstAt at ih ⊢
    by_cases hi : p.index = i
    · have := h p (by simp) hi
      rw [List.filter_cons_of_pos this, List.find?_cons_of_pos (by simpa using hi),
        List.find?_cons_of_pos (by simpa using hi)]
    · rw [List.find?_cons_of_neg (by simpa using hi), ← ih]
      by_cases hf : f p
      · rw [List.filter_cons_of_pos hf, List.find?_cons_of_neg (by simpa using hi)]
      · rw [List.filter_cons_of_neg hf]

theorem firstAt_filter_none {i : Nat} {ps : List Parameter} {f : Parameter → Bool}
    (h : ∀ p ∈ ps, p.index = i → f p = false) : firstAt i (ps.filter f) = none := by
  unfold firstAt
  rw [List.find?_eq_none]
  intro p hp hi
  rw [List.mem_filter] at hp
  have := h p hp.1 (by simpa using hi)
  rw [this] at hp; simp at hp

theorem firstAt_some {i : Nat} {ps : List Parameter} {p : Parameter} (h : firstAt i ps = some p) :
    p ∈ ps ∧ p.index = i := by
  unfold firstAt at h
  exact ⟨List.mem_of_find?_eq_some h, by simpa using List.find?_some h⟩

theorem isBitfield_iff {p : Parameter} : isBitfield p = true ↔ ∃ s e, p.ty = .bitField s e := by
  unfold isBitfield
  split
  · rename_i s e h; simp [h]
  · rename_i h; simp; exact h

/-- the merged list has, at each index, the canonical type -/
theorem firstAt_merge {ps : List Parameter} (hc : Consistent ps) (i : Nat) :
    (firstAt i (mergeBitfields ps)).map Parameter.ty = tyAt ps i := by
  rw [mergeBitfields_eq, firstAt_append, firstAt_filterMap_merged _ _ _ List.nodup_range]
  unfold tyAt
  cases hf : firstAt i ps with
  | none =>
    have hn : ∀ p ∈ ps, p.index ≠ i := by
      unfold firstAt at hf
      rw [List.find?_eq_none] at hf
      intro p hp; simpa using hf p hp
    have h1 : firstAt i (ps.filter (fun p => !isBitfield p)) = none := by
      rw [firstAt_filter (fun p hp h => absurd h (hn p hp)), hf]
    have h2 : mergedParam ps i = none := by
      unfold mergedParam
      rw [Option.map_eq_none_iff, maxRange_none, bitRanges_nil]
      intro p hp; rw [isBitfieldOf_eq]; simp [hn p hp]
    simp [h1, h2]
  | some p =>
    obtain ⟨hp, hi⟩ := firstAt_some hf
    by_cases hb : isBitfield p
    · have hall : ∀ q ∈ ps, q.index = i → isBitfield q = true := by
        intro q hq hqi
        obtain ⟨s, e, hs⟩ := isBitfield_iff.mp hb
        rcases hc p hp q hq (by omega) with h | ⟨_, _, s', e', _, h⟩
        · exact isBitfield_iff.mpr ⟨s, e, by rw [← h, hs]⟩
        · exact isBitfield_iff.mpr ⟨s', e', h⟩
      rw [firstAt_filter_none (fun q hq hqi => by simp [hall q hq hqi])]
      have hmem : i ∈ List.range ((ps.map Parameter.index).foldl max 0 + 1) := by
        have := foldl_max_le (ps.map Parameter.index) 0 p.index (Or.inl (List.mem_map_of_mem hp))
        rw [List.mem_range]; omega
      rw [if_pos hmem]
      obtain ⟨s, e, hs⟩ := isBitfield_iff.mp hb
      simp only [hs, mergedParam, Option.none_or, bitRanges_filter, Option.map_map]
      rfl
    · have hall : ∀ q ∈ ps, q.index = i → isBitfield q = false := by
        intro q hq hqi
        cases hbq : isBitfield q with
        | false => rfl
        | true =>
          exfalso; apply hb
          obtain ⟨s, e, hs⟩ := isBitfield_iff.mp hbq
          rcases hc p hp q hq (by omega) with h | ⟨s', e', _, _, h, _⟩
          · exact isBitfield_iff.mpr ⟨s, e, by rw [h, hs]⟩
          · exact isBitfield_iff.mpr ⟨s', e', h⟩
      rw [firstAt_filter (fun q hq hqi => by simp [hall q hq hqi]), hf]
      simp only [Option.some_or, Option.map_some]
      split
      · rename_i s e hs; exact absurd (isBitfield_iff.mpr ⟨s, e, hs⟩) hb
      · rfl

/-! ### sorting -/

theorem firstAt_insert (i : Nat) (p : Parameter) (l : List Parameter) :
    firstAt i (insertByIndex p l) = if p.index = i then some p else firstAt i l := by
  induction l with
  | nil => simp [insertByIndex, firstAt, List.find?_cons]; split <;> simp_all
  | cons q l ih =>
    unfold insertByIndex
    split
    · unfold firstAt; rw [List.find?_cons]; split <;> simp_all
    · rename_i h
      unfold firstAt at ih ⊢
      rw [List.find?_cons, ih, List.find?_cons]
      by_cases hq : q.index = i
      · simp [hq]; omega
      · simp [hq]

theorem firstAt_sort (i : Nat) (l : List Parameter) : firstAt i (sortByIndex l) = firstAt i l := by
  induction l with
  | nil => rfl
  | cons p l ih =>
    rw [sortByIndex, firstAt_insert, ih]
    unfold firstAt; rw [List.find?_cons]; split <;> simp_all

def Sorted (l : List Parameter) : Prop := l.Pairwise (fun a b => a.index ≤ b.index)

theorem mem_insert {p q : Parameter} {l : List Parameter} : q ∈ insertByIndex p l ↔ q = p ∨ q ∈ l := by
  induction l with
  | nil => simp [insertByIndex]
  | cons a l ih =>
    unfold insertByIndex
    split
    · simp
    · simp only [List.mem_cons, ih]
      constructor <;> (intro h; rcases h with h | h | h <;> simp [h])

theorem sorted_insert {p : Parameter} {l : List Parameter} (h : Sorted l) : Sorted (insertByIndex p l) := by
  unfold Sorted at *
  induction l with
  | nil => simp [insertByIndex]
  | cons a l ih =>
    unfold insertByIndex
    have h' := List.pairwise_cons.mp h
    split
    · rename_i hle
      refine List.pairwise_cons.mpr ⟨?_, h⟩
      intro b hb
      rcases List.mem_cons.mp hb with rfl | hb
      · exact hle
      · have := h'.1 b hb; omega
    · rename_i hle
      refine List.pairwise_cons.mpr ⟨?_, ih h'.2⟩
      intro b hb
      rcases mem_insert.mp hb with rfl | hb
      · omega
      · exact h'.1 b hb

theorem sorted_sort (l : List Parameter) : Sorted (sortByIndex l) := by
  induction l with
  | nil => simp [sortByIndex, Sorted]
  | cons p l ih => exact sorted_insert ih

theorem go_spec (l : List Parameter) : ∀ last, Sorted l → (∀ p ∈ l, last ≤ p.index) →
    (dedupByIndex.go last l).Pairwise (fun a b => a.index < b.index) ∧
    (∀ p ∈ dedupByIndex.go last l, last < p.index) ∧
    ∀ i, firstAt i (dedupByIndex.go last l) = if i = last then none else firstAt i l := by
  induction l with
  | nil => intro last _ _; simp [dedupByIndex.go, firstAt]
  | cons q l ih =>
    intro last hs hl
    have hs' := List.pairwise_cons.mp hs
    unfold dedupByIndex.go
    split
    · rename_i h
      obtain ⟨h1, h2, h3⟩ := ih last hs'.2 (fun p hp => hl p (by simp [hp]))
      refine ⟨h1, h2, ?_⟩
      intro i
      rw [h3]
      by_cases hi : i = last
      · simp [hi]
      · rw [if_neg hi, if_neg hi]
        unfold firstAt
        rw [List.find?_cons_of_neg (by simp; omega)]
    · rename_i h
      have hql := hl q (by simp)
      obtain ⟨h1, h2, h3⟩ := ih q.index hs'.2 (fun p hp => hs'.1 p hp)
      refine ⟨List.pairwise_cons.mpr ⟨h2, h1⟩, ?_, ?_⟩
      · intro p hp
        rcases List.mem_cons.mp hp with rfl | hp
        · omega
        · have := h2 p hp; omega
      · intro i
        unfold firstAt at h3 ⊢
        by_cases hi : q.index = i
        · rw [List.find?_cons_of_pos (by simpa using hi), List.find?_cons_of_pos (by simpa using hi),
            if_neg (by omega)]
        · rw [List.find?_cons_of_neg (by simpa using hi), List.find?_cons_of_neg (by simpa using hi), h3,
            if_neg (by omega)]
          by_cases hil : i = last
          · rw [if_pos hil, List.find?_eq_none]
            intro p hp
            have := hs'.1 p hp
            simp; omega
          · rw [if_neg hil]

theorem dedup_spec (l : List Parameter) (hs : Sorted l) :
    (dedupByIndex l).Pairwise (fun a b => a.index < b.index) ∧
    ∀ i, firstAt i (dedupByIndex l) = firstAt i l := by
  cases l with
  | nil => simp [dedupByIndex]
  | cons p l =>
    have hs' := List.pairwise_cons.mp hs
    obtain ⟨h1, h2, h3⟩ := go_spec l p.index hs'.2 (fun q hq => hs'.1 q hq)
    refine ⟨List.pairwise_cons.mpr ⟨h2, h1⟩, ?_⟩
    intro i
    unfold dedupByIndex
    unfold firstAt at h3 ⊢
    by_cases hi : p.index = i
    · rw [List.find?_cons_of_pos (by simpa using hi), List.find?_cons_of_pos (by simpa using hi)]
    · rw [List.find?_cons_of_neg (by simpa using hi), List.find?_cons_of_neg (by simpa using hi), h3,
        if_neg (by omega)]

theorem index_range (n : Nat) : ∀ (a : Nat) (l : List Parameter), l.Pairwise (fun a b => a.index < b.index) →
    (∀ p ∈ l, a ≤ p.index ∧ p.index < a + n) → (∀ i, a ≤ i → i < a + n → ∃ p ∈ l, p.index = i) →
    l.map Parameter.index = List.range' a n := by
  induction n with
  | zero =>
    intro a l _ h _
    cases l with
    | nil => rfl
    | cons p l => have := h p (by simp); omega
  | succ n ih =>
    intro a l hs hb ha
    obtain ⟨p0, hp0, hi0⟩ := ha a (by omega) (by omega)
    cases l with
    | nil => cases hp0
    | cons p l =>
      have hs' := List.pairwise_cons.mp hs
      have hpa : p.index = a := by
        rcases List.mem_cons.mp hp0 with rfl | h
        · exact hi0
        · have := hs'.1 p0 h; have := hb p (by simp); omega
      rw [List.map_cons, hpa, List.range'_succ]
      congr 1
      apply ih (a + 1) l hs'.2
      · intro q hq
        have := hs'.1 q hq
        have := hb q (by simp [hq])
        omega
      · intro i h1 h2
        obtain ⟨q, hq, hqi⟩ := ha i (by omega) (by omega)
        rcases List.mem_cons.mp hq with rfl | hq
        · omega
        · exact ⟨q, hq, hqi⟩

theorem firstAt_strict {l : List Parameter} (hs : l.Pairwise (fun a b => a.index < b.index)) :
    ∀ p ∈ l, firstAt p.index l = some p := by
  induction l with
  | nil => intro p hp; cases hp
  | cons q l ih =>
    intro p hp
    have hs' := List.pairwise_cons.mp hs
    unfold firstAt at ih ⊢
    rcases List.mem_cons.mp hp with rfl | hp
    · rw [List.find?_cons_of_pos (by simp)]
    · have := hs'.1 p hp
      rw [List.find?_cons_of_neg (by simp; omega)]
      exact ih hs'.2 p hp

theorem strict_map {n : Nat} {l : List Parameter} (hs : l.Pairwise (fun a b => a.index < b.index))
    (hi : l.map Parameter.index = List.range n) :
    l.map (fun p => some p.ty) = (List.range n).map (fun i => (firstAt i l).map Parameter.ty) := by
  rw [← hi, List.map_map]
  apply List.map_congr_left
  intro p hp
  simp [firstAt_strict hs p hp]

/-- the argument types used by the host -/
theorem prepare_types {ps : List Parameter} {n : Nat} (hd : Dense ps n) (hc : Consistent ps) :
    (prepareParams ps).map (fun p => some p.ty) = (List.range n).map (tyAt ps) := by
  have hfirst : ∀ i, (firstAt i (prepareParams ps)).map Parameter.ty = tyAt ps i := by
    intro i
    unfold prepareParams
    rw [(dedup_spec _ (sorted_sort _)).2, firstAt_sort, firstAt_merge hc]
  have hst : (prepareParams ps).Pairwise (fun a b => a.index < b.index) :=
    (dedup_spec _ (sorted_sort (mergeBitfields ps))).1
  have hmem : ∀ i, (∃ p ∈ prepareParams ps, p.index = i) ↔ tyAt ps i ≠ none := by
    intro i
    rw [← hfirst]
    constructor
    · rintro ⟨p, hp, rfl⟩
      rw [firstAt_strict hst p hp]; simp
    · intro h
      cases hf : firstAt i (prepareParams ps) with
      | none => rw [hf] at h; simp at h
      | some p => exact ⟨p, firstAt_some hf⟩
  have hty : ∀ i, tyAt ps i ≠ none ↔ i < n := by
    intro i
    constructor
    · intro h
      unfold tyAt at h
      cases hf : firstAt i ps with
      | none => simp [hf] at h
      | some p => obtain ⟨hp, rfl⟩ := firstAt_some hf; exact hd.1 p hp
    · intro h
      obtain ⟨p, hp, hpi⟩ := hd.2 i h
      unfold tyAt
      cases hf : firstAt i ps with
      | none =>
        unfold firstAt at hf
        rw [List.find?_eq_none] at hf
        have := hf p hp; simp [hpi] at this
      | some q =>
        obtain ⟨hq, hqi⟩ := firstAt_some hf
        simp only
        split
        · rename_i s e hs
          rw [Ne, Option.map_eq_none_iff, maxRange_none, ← bitRanges_filter, bitRanges_nil]
          intro hall
          have := hall q hq
          rw [isBitfieldOf_eq, isBitfield_iff.mpr ⟨s, e, hs⟩, hqi] at this
          simp at this
        · simp
  have hi : (prepareParams ps).map Parameter.index = List.range n := by
    rw [List.range_eq_range']
    apply index_range n 0 _ hst
    · intro p hp
      have := (hty p.index).mp ((hmem p.index).mp ⟨p, hp, rfl⟩)
      omega
    · intro i _ h
      exact (hmem i).mpr ((hty i).mpr (by omega))
  rw [strict_map hst hi]
  apply List.map_congr_left
  intro i _
  exact hfirst i

end Defmt.Decoder
