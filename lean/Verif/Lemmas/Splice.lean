import Verif.Spec.Splice
/-! Helper lemmas for C116. -/

namespace Defmt.Splice

def isMatch : Tok → Bool
  | .kwMatch => true
  | _ => false
def isArms : Tok → Bool
  | .arms => true
  | _ => false

/-- every `match` has its braces, and they come after it -/
structure Ballot (ts : List Tok) : Prop where
  all : ts.countP isArms = ts.countP isMatch
  part : ∀ n, (ts.take n).countP isArms ≤ (ts.take n).countP isMatch

theorem Ballot.append {a b : List Tok} (ha : Ballot a) (hb : Ballot b) : Ballot (a ++ b) := by
  refine ⟨by rw [List.countP_append, List.countP_append, ha.all, hb.all], fun n => ?_⟩
  rw [List.take_append, List.countP_append, List.countP_append]
  exact Nat.add_le_add (ha.part n) (hb.part _)

theorem Ballot.nil : Ballot [] := ⟨rfl, fun n => by simp⟩

theorem Ballot.cons {x : Tok} {b : List Tok} (hx : isArms x = false) (hy : isMatch x = false) (hb : Ballot b) : Ballot (x :: b) := by
  refine ⟨by simp [hx, hy, hb.all], fun n => ?_⟩
  cases n with
  | zero => simp
  | succ n => simpa [hx, hy] using hb.part n

theorem Ballot.match {e : List Tok} (he : Ballot e) : Ballot (.kwMatch :: e ++ [.arms]) := by
  refine ⟨by simp [List.countP_cons, isArms, isMatch, he.all], fun n => ?_⟩
  cases n with
  | zero => simp
  | succ n =>
    have h1 : ∀ m, ([Tok.arms].take m).countP isArms ≤ 1 := by
      intro m; cases m <;> simp [isArms]
    have h2 : ∀ m, ([Tok.arms].take m).countP isMatch = 0 := by
      intro m; cases m <;> simp [isMatch]
    have := he.part n
    have h3 := h1 (n - e.length)
    have h4 := h2 (n - e.length)
    simp only [List.cons_append, List.take_succ_cons, List.take_append, List.countP_cons, List.countP_append, isArms, isMatch,
      Bool.false_eq_true, if_false, if_true, h4]
    omega

theorem IsExpr.ballot {k : Bool} {ts : List Tok} (h : IsExpr k ts) : Ballot ts := by
  induction h using IsExpr.rec (motive_2 := fun ts _ => Ballot ts) (motive_3 := fun _ _ => True) with
  | atom => exact .cons rfl rfl .nil
  | struct => exact .cons rfl rfl (.cons rfl rfl .nil)
  | paren => exact .cons rfl rfl .nil
  | «prefix» _ ih => exact .cons rfl rfl ih
  | «infix» _ _ ih1 ih2 => exact ih1.append (.cons rfl rfl ih2)
  | call _ _ ih => exact ih.append (.cons rfl rfl .nil)
  | field _ ih => exact ih.append (.cons rfl rfl (.cons rfl rfl .nil))
  | «match» _ ih => exact ih.match
  | array => exact .cons rfl rfl .nil
  | index _ _ ih => exact ih.append (.cons rfl rfl .nil)
  | «postfix» _ ih => exact ih.append (.cons rfl rfl .nil)
  | cond _ ih => exact ih
  | loop _ ih => exact .cons rfl rfl (ih.append (.cons rfl rfl .nil))
  | block => exact .cons rfl rfl .nil
  | one _ ih => exact .cons rfl rfl (ih.append (.cons rfl rfl .nil))
  | other _ ih => exact .cons rfl rfl (ih.append (.cons rfl rfl (.cons rfl rfl (.cons rfl rfl .nil))))
  | chain _ _ ih1 ih2 => exact .cons rfl rfl (ih1.append (.cons rfl rfl (.cons rfl rfl ih2)))
  | _ => trivial

theorem IsExpr.ne_nil {k : Bool} {ts : List Tok} (h : IsExpr k ts) : ts ≠ [] := by
  cases h
  case cond h => cases h <;> simp
  all_goals simp

theorem IsExpr.no_comma {k : Bool} {ts : List Tok} (h : IsExpr k ts) : .comma ∉ ts := by
  induction h using IsExpr.rec (motive_2 := fun ts _ => .comma ∉ ts) (motive_3 := fun _ _ => True) <;> simp_all

theorem IsExpr.not_exposed {k : Bool} {ts : List Tok} (h : IsExpr k ts) (hk : k = false) : ¬ Exposed ts := by
  induction h using IsExpr.rec (motive_2 := fun ts _ => ¬ Exposed ts) (motive_3 := fun _ _ => True) <;> simp_all [Exposed]

theorem IsExpr.restrict {k : Bool} {ts : List Tok} (h : IsExpr k ts) (hx : ¬ Exposed ts) : IsExpr false ts := by
  induction h using IsExpr.rec (motive_2 := fun _ _ => True) (motive_3 := fun _ _ => True) with
  | atom => exact .atom
  | @struct n c => exact absurd ⟨c, by simp⟩ hx
  | paren h => exact .paren h
  | «prefix» _ ih => exact .prefix (ih (fun ⟨c, hc⟩ => hx ⟨c, by simp [hc]⟩))
  | «infix» _ _ ih1 ih2 =>
    exact .infix (ih1 (fun ⟨c, hc⟩ => hx ⟨c, by simp [hc]⟩)) (ih2 (fun ⟨c, hc⟩ => hx ⟨c, by simp [hc]⟩))
  | call _ h ih => exact .call (ih (fun ⟨c, hc⟩ => hx ⟨c, by simp [hc]⟩)) h
  | field _ ih => exact .field (ih (fun ⟨c, hc⟩ => hx ⟨c, by simp [hc]⟩))
  | «match» h _ => exact .match h
  | array h => exact .array h
  | index _ h ih => exact .index (ih (fun ⟨c, hc⟩ => hx ⟨c, by simp [hc]⟩)) h
  | «postfix» _ ih => exact .postfix (ih (fun ⟨c, hc⟩ => hx ⟨c, by simp [hc]⟩))
  | cond h => exact .cond h
  | loop h _ => exact .loop h
  | block => exact .block
  | _ => trivial

/-- the tokens between `match` and the braces at the end are the expression that is looked at -/
theorem match_inv {k : Bool} {e : List Tok} (he : IsExpr true e) (h : IsExpr k (.kwMatch :: e ++ [.arms])) : IsExpr false e := by
  generalize hts : (Tok.kwMatch :: e ++ [.arms] : List Tok) = ts at h
  cases h with
  | atom => simp at hts
  | struct => simp at hts
  | paren => simp at hts
  | «prefix» => simp at hts
  | @«infix» _ n a b ha hb =>
    exfalso
    cases a with
    | nil => exact ha.ne_nil rfl
    | cons x a' =>
      simp only [List.cons_append, List.cons.injEq] at hts
      obtain ⟨rfl, hts⟩ := hts
      have hlen : a'.length ≤ e.length := by
        have h1 := congrArg List.length hts
        have h2 : b ≠ [] := hb.ne_nil
        have h3 : 0 < b.length := List.length_pos_iff.mpr h2
        simp at h1
        omega
      have htake : e.take a'.length = a' := by
        have h1 := congrArg (List.take a'.length) hts
        rw [List.take_append_of_le_length hlen] at h1
        simpa using h1
      have h1 := ha.ballot.all
      have h2 := he.ballot.part a'.length
      rw [htake] at h2
      simp only [List.countP_cons, isArms, isMatch, Bool.false_eq_true, if_false, if_true] at h1
      omega
  | @call _ f args hf _ =>
    have h1 := congrArg List.getLast? hts
    rw [List.getLast?_append, List.getLast?_append] at h1
    cases h1
  | @field _ f n hf =>
    have h1 := congrArg List.getLast? hts
    rw [List.getLast?_append, List.getLast?_append] at h1
    cases h1
  | @«match» _ e' h' =>
    simp only [List.cons_append, List.cons.injEq, true_and, List.append_cancel_right_eq] at hts
    subst hts
    exact h'
  | array => simp at hts
  | @index _ f ts hf _ =>
    have h1 := congrArg List.getLast? hts
    rw [List.getLast?_append, List.getLast?_append] at h1
    cases h1
  | @«postfix» _ f n hf =>
    have h1 := congrArg List.getLast? hts
    rw [List.getLast?_append, List.getLast?_append] at h1
    cases h1
  | cond h => cases h <;> simp at hts
  | loop => simp at hts
  | block => simp at hts

/-- the first element of a list ends at the first comma -/
theorem split_comma {a a' b b' : List Tok} (ha : .comma ∉ a) (ha' : .comma ∉ a') (h : a ++ .comma :: b = a' ++ .comma :: b') : a = a' ∧ b = b' := by
  induction a generalizing a' with
  | nil =>
    cases a' with
    | nil => simpa using h
    | cons x a' =>
      simp only [List.nil_append, List.cons_append, List.cons.injEq] at h
      exact absurd (by simp [← h.1]) ha'
  | cons x a ih =>
    cases a' with
    | nil =>
      simp only [List.nil_append, List.cons_append, List.cons.injEq] at h
      exact absurd (by simp [h.1]) ha
    | cons y a' =>
      simp only [List.cons_append, List.cons.injEq] at h
      obtain ⟨h1, h2⟩ := ih (by simp_all) (by simp_all) h.2
      exact ⟨by rw [h.1, h1], h2⟩

theorem list_one {e : List Tok} (he : .comma ∉ e) (hne : e ≠ []) (h : IsList e) : IsExpr true e := by
  cases h with
  | nil => exact absurd rfl hne
  | one h => exact h
  | cons => simp at he

theorem list_cons {e ts : List Tok} (he : .comma ∉ e) (h : IsList (e ++ .comma :: ts)) : IsExpr true e ∧ IsList ts := by
  generalize hts : e ++ Tok.comma :: ts = l at h
  cases h with
  | nil => simp at hts
  | one h => exact absurd (by rw [← hts]; simp) h.no_comma
  | cons h h' =>
    obtain ⟨rfl, rfl⟩ := split_comma he h.no_comma hts
    exact ⟨h, h'⟩

theorem list_commas {es : List (List Tok)} (hes : ∀ e ∈ es, .comma ∉ e ∧ e ≠ []) : IsList (commas es) ↔ ∀ e ∈ es, IsExpr true e := by
  fun_induction commas es with
  | case1 => simp [IsList.nil]
  | case2 e => exact ⟨fun h => by simpa using list_one (hes e (by simp)).1 (hes e (by simp)).2 h, fun h => .one (h e (by simp))⟩
  | case3 e es _ ih =>
    have ih := ih (fun e he => hes e (by simp [he]))
    constructor
    · intro h
      obtain ⟨h1, h2⟩ := list_cons (hes e (by simp)).1 h
      intro x hx
      rcases List.mem_cons.mp hx with rfl | hx
      · exact h1
      · exact ih.mp h2 x hx
    · intro h
      exact .cons (h e (by simp)) (ih.mpr fun x hx => h x (by simp [hx]))

end Defmt.Splice
