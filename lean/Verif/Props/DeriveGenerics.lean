import Verif.Lemmas.DeriveGenerics
import Verif.Props.Derive
/-! # C107: the where clause of `#[derive(Format)]` -/

namespace Defmt

open Parser Decoder Encoder Derive Display

/-! ### C107 -/

/-- An instance of a type with `#[derive(Format)]` implements `Format` exactly if the user's bounds hold
and the type of each field implements what is needed for it: `Format`, or `Debug` or `Display` if an
attribute asks for it. Nothing is required of the type parameters themselves. -/
theorem C107_exact (d : DeriveInput) (i : Impl) (hd : derivedImpl d = some i) (hn : d.name ∉ d.params)
    (hs : ∀ n ∈ builtins, n ∉ d.params) (impls : List Impl) (ho : OnlyImpl impls d i)
    (hb : ∀ n ∈ builtins, ∀ ty, RefTo n ty → ∀ b ∈ [Bound.format, .debug, .display], Holds impls ty b)
    (σ : List Char → RTy) :
    Holds impls ((d.params.map σ).foldl RTy.app (.name d.name)) .format ↔
      (∀ p ∈ d.wheres, Holds impls (p.1.inst d.params σ) p.2) ∧
      ∀ f, d.HasField f → ∀ b, Needs f b → Holds impls (f.ty.inst d.params σ) b := by
  obtain ⟨r, ps, he, hp, rfl⟩ := derived_inv hd
  constructor
  · intro h
    generalize ht : (d.params.map σ).foldl RTy.app (.name d.name) = ty at h
    generalize hbd : Bound.format = b at h
    cases h with
    | @intro j τ _ _ hj hself hbound hpreds =>
      have hji := ho.2 j hj τ (d.params.map σ) (by rw [hbound, hbd]) (by rw [hself, ht])
      subst hji
      rw [← ht, inst_self hn] at hself
      have hστ := map_eq_on (foldl_app_inj hself)
      have hinst := inst_congr hστ
      refine ⟨fun p hp => ?_, fun f hf b hbn => ?_⟩
      · rw [← hinst]
        exact hpreds p (by simp [hp])
      · by_cases hnat : ∃ n ∈ builtins, RefTo n f.ty
        · obtain ⟨n, h1, h2⟩ := hnat
          exact hb n h1 _ (inst_refTo (hs n h1) σ h2) b (by cases hbn <;> simp)
        · rw [← hinst]
          refine hpreds (f.ty, b) (List.mem_append.mpr (.inr ?_))
          exact (body_mem hp _).mpr ⟨f, hf, predicate_iff.mpr ⟨rfl, hbn, hnat⟩⟩
  · rintro ⟨h1, h2⟩
    refine .intro (σ := σ) ho.1 (inst_self hn σ) rfl ?_
    intro p hpm
    rcases List.mem_append.mp hpm with h | h
    · exact h1 p h
    · obtain ⟨f, hf, hfp⟩ := (body_mem hp p).mp h
      obtain ⟨h3, h4, _⟩ := predicate_iff.mp hfp
      rw [h3]
      exact h2 f hf _ h4

/-- The derived code type checks whatever the type parameters are: each statement, for each field of each
variant, is justified by the where clause or by the built-in types. -/
theorem C107_checks (d : DeriveInput) (i : Impl) (hd : derivedImpl d = some i) (hs : ∀ n ∈ builtins, n ∉ d.params) :
    ∃ s arms, expand d.toDef = some (s, arms) ∧ ∀ (k : Nat) fs, d.variants[k]? = some fs →
      ∃ arm, arms[k]? = some arm ∧ arm.stmts.length = fs.length ∧
        ∀ (m : Nat) stmt f, arm.stmts[m]? = some stmt → fs[m]? = some f → Checks d.params i.preds stmt f.ty := by
  obtain ⟨⟨s, arms⟩, ps, he, hp, rfl⟩ := derived_inv hd
  refine ⟨s, arms, he, fun k fs hk => ?_⟩
  obtain ⟨name, fields, hv, hall⟩ := toDef_variant hk
  obtain ⟨_, h2⟩ := expand_spec he (by
    have := count_pos hv
    omega)
  obtain ⟨_, arm, harm, hst, _⟩ := h2 k name fields hv
  rw [hall, List.map_map] at hst
  obtain ⟨h3, h4⟩ := allSome_get hst
  refine ⟨arm, harm, by simpa using h3, fun m stmt f hm hf => ?_⟩
  have h5 := h4 m stmt hm
  rw [List.getElem?_map, hf] at h5
  simp only [Option.map_some, Function.comp, Option.some.injEq] at h5
  exact stmt_checks hp hs (variants_hasField hk (List.mem_of_getElem? hf)) h5

theorem toDef_shape (d : DeriveInput) (k : Nat) : d.toDef.variant k = (d.shape k).map (fun x => (x.1, x.2.toFields)) := by
  unfold DeriveInput.toDef DeriveInput.shape
  cases d.body with
  | struct fields => cases k <;> simp [Def.variant]
  | enum vs => simp only [Def.variant, List.getElem?_map, Option.map_map]; rfl

theorem written_debug (name : List Char) (fields : GFields) (texts : List (List Char)) :
    debugText name fields.toFields texts = writtenText name fields texts := by
  match fields with
  | .unit => rfl
  | .named [] => rfl
  | .unnamed [] => rfl
  | .unnamed (f :: fs) => rfl
  | .named (f :: fs) =>
    simp only [GFields.toFields, debugText, writtenText, List.map_map, List.isEmpty_map, List.isEmpty_cons, Bool.false_eq_true, if_false]
    rw [show (Field.name ∘ GField.toField) = GField.name from rfl, List.zipWith_map_left]

theorem hasTys_length {fs : List Field} {tys : List Ty} (h : HasTys fs tys) : fs.length = tys.length := by
  induction h <;> simp [*]

/-- Whatever is shown for a value of a type, generic or not, is the name of the type (or of the variant) with the names of the fields
in the order of the definition, and one text for each field. -/
theorem C107_text (env : Env) (d : DeriveInput)
    (hn : ∀ k name fields, d.shape k = some (name, fields) → IsIdent name ∧ fields.all.length ≤ maxArgs ∧
      ∀ fs, fields = .named fs → ∀ f ∈ fs, IsIdent f.name)
    (s : List Char) (arms : List Arm) (he : expand d.toDef = some (s, arms)) (k : Nat) (name : List Char) (fields : GFields)
    (hk : d.shape k = some (name, fields)) (part : List Char) (hp : IsPart s d.variants.length k part)
    (as : List Arg) (p : Parameter) (parent : Option Hint) (m : List Char) (hm : showArg env (.format part as) p parent = some m) :
    ∃ texts, texts.length = fields.all.length ∧ m = writtenText name fields texts := by
  have hd : d.toDef.Named := by
    intro i n fs hv
    rw [toDef_shape, Option.map_eq_some_iff] at hv
    obtain ⟨⟨n', gs⟩, h1, h2⟩ := hv
    cases h2
    obtain ⟨a, b, c⟩ := hn i n' gs h1
    refine ⟨a, by rw [toFields_all]; simpa using b, fun fs hfs f hf => ?_⟩
    cases gs with
    | named l =>
      simp only [GFields.toFields, Fields.named.injEq] at hfs
      subst hfs
      obtain ⟨g, hg, rfl⟩ := List.mem_map.mp hf
      exact c l rfl g hg
    | unnamed l => simp [GFields.toFields] at hfs
    | unit => simp [GFields.toFields] at hfs
  have hc : d.toDef.count = d.variants.length := by
    unfold DeriveInput.toDef DeriveInput.variants
    cases d.body <;> simp [Def.count]
  have hv : d.toDef.variant k = some (name, fields.toFields) := by rw [toDef_shape, hk]; rfl
  obtain ⟨tys, texts, h1, h2, h3⟩ := (C70_debug_text env d.toDef hd s arms he k name _ hv part (by rw [hc]; exact hp) as p parent m).mp hm
  refine ⟨texts, ?_, by rw [h3, written_debug]⟩
  have e1 := hasTys_length h1
  have e2 := each_length h2
  have e3 : ∀ (h : Option Hint) i (l : List Ty), (paramsFrom h i l).length = l.length := by
    intro h i l
    induction l generalizing i with
    | nil => rfl
    | cons a l ih => simp [paramsFrom, ih]
  rw [e3] at e2
  rw [toFields_all, List.length_map] at e1
  omega

/-- `struct S<T> { x: T, y: u8 }` -/
example :
    let d : DeriveInput := ⟨c!"S", [c!"T"], [], .struct (.named [⟨c!"x", .name c!"T", []⟩, ⟨c!"y", .name c!"u8", []⟩])⟩
    (expand d.toDef).map Prod.fst = some c!"S {{ x: {=?:?}, y: {=u8:?} }}" ∧
    showArg demoEnv (.format c!"S {{ x: {=?:?}, y: {=u8:?} }}" [.format c!"A" [], .uxx 5]) ⟨0, .format, none⟩ none =
      some c!"S { x: A, y: 5 }" := by decide +kernel

/-- Each predicate of the where clause is one of the user's, or is required by the statement of a field:
nothing superfluous restricts the implementation. -/
theorem C107_minimal (d : DeriveInput) (i : Impl) (hd : derivedImpl d = some i) (p : Pred) (hp : p ∈ i.preds) :
    p ∈ d.wheres ∨ ∃ f, d.HasField f ∧ p.1 = f.ty ∧ Needs f p.2 ∧ ¬ ∃ n ∈ builtins, RefTo n f.ty := by
  obtain ⟨r, ps, he, hb, rfl⟩ := derived_inv hd
  rcases List.mem_append.mp hp with h | h
  · exact .inl h
  · obtain ⟨f, hf, hfp⟩ := (body_mem hb p).mp h
    exact .inr ⟨f, hf, predicate_iff.mp hfp⟩

/-- The where clause adds no compile error: the `impl` is generated exactly if the code is. -/
theorem C107_accepted (d : DeriveInput) : (∃ i, derivedImpl d = some i) ↔ ∃ r, expand d.toDef = some r := by
  constructor
  · rintro ⟨i, h⟩
    obtain ⟨r, ps, he, _, _⟩ := derived_inv h
    exact ⟨r, he⟩
  · rintro ⟨r, h⟩
    have hall := ((C28_accepted d.toDef).mp ⟨r, h⟩).2
    obtain ⟨ps, hps⟩ := predicates_some (d := d)
      (fun f hf => hall f.toField (toDef_hasField.mpr ⟨f, hf, rfl⟩))
    rw [derivedImpl, h, hps]
    exact ⟨_, rfl⟩

/-- No type with `#[derive(Format)]` that contains itself, in any number of wrappers like `Option` and
`Box`, implements `Format`, unless the field has an attribute. -/
theorem C107_recursive (d : DeriveInput) (i : Impl) (hd : derivedImpl d = some i) (hp : d.params = [])
    (impls : List Impl) (ho : OnlyImpl impls d i) (hname : d.name ∉ builtins)
    (f : GField) (hf : d.HasField f) (ha : f.attrs = []) (hw : Wrapped impls (.name d.name) f.ty) :
    ¬ Holds impls (.name d.name) .format := by
  obtain ⟨r, ps, he, hb, rfl⟩ := derived_inv hd
  have hnat : ¬ ∃ n ∈ builtins, RefTo n f.ty := by
    rintro ⟨n, h1, h2⟩
    generalize f.ty = ty at hw h2
    cases hw with
    | here => cases h2; exact hname h1
    | app _ _ => cases h2
  have hmem : (f.ty, Bound.format) ∈ d.wheres ++ ps :=
    List.mem_append.mpr (.inr ((body_mem hb _).mpr ⟨f, hf, predicate_iff.mpr ⟨rfl, .format (.nothing ha), hnat⟩⟩))
  have key : ∀ ty b, Holds impls ty b → b = .format → Wrapped impls (.name d.name) ty → False := by
    intro ty b h
    induction h with
    | @intro j σ ty b hj hself hbd _ ih =>
      intro hfmt hwr
      subst hfmt
      cases hwr with
      | here =>
        have hji := ho.2 j hj σ [] hbd hself
        subst hji
        refine ih _ hmem rfl ?_
        simp only [hp, inst_nil]
        exact hw
      | app hwr hin =>
        obtain ⟨p, h1, h2, h3⟩ := hwr j hj σ _ hbd hself
        exact ih p h1 h3 (by rw [h2]; exact hin)
  exact fun h => key _ _ h rfl .here

/-- the `impl`s of defmt for `Option`, `Box` and `PhantomData` (impls/core_/mod.rs:22-25, 75,
impls/alloc_.rs:3-6) -/
def demoImpls : List Impl :=
  [⟨[c!"T"], .app (.name c!"Option") (.name c!"T"), .format, [(.name c!"T", .format)]⟩,
   ⟨[c!"T"], .app (.name c!"Box") (.name c!"T"), .format, [(.name c!"T", .format)]⟩,
   ⟨[c!"T"], .app (.name c!"PhantomData") (.name c!"T"), .format, []⟩]

/-- `struct Node { value: u32, next: Option<Box<Node>> }` -/
def demoNode : DeriveInput :=
  ⟨c!"Node", [], [], .struct (.named [⟨c!"value", .name c!"u32", []⟩,
    ⟨c!"next", .app (.name c!"Option") (.app (.name c!"Box") (.name c!"Node")), []⟩])⟩

/-- `enum E<T, U> where T: Copy { A(T), B(T, &'static u8), C { x: PhantomData<U>, #[defmt(Debug2Format)] y: U } }` -/
def demoGeneric : DeriveInput :=
  ⟨c!"E", [c!"T", c!"U"], [(.name c!"T", .other c!"Copy")], .enum
    [⟨c!"A", .unnamed [⟨[], .name c!"T", []⟩]⟩,
     ⟨c!"B", .unnamed [⟨[], .name c!"T", []⟩, ⟨[], .ref (.name c!"u8"), []⟩]⟩,
     ⟨c!"C", .named [⟨c!"x", .app (.name c!"PhantomData") (.name c!"U"), []⟩,
       ⟨c!"y", .name c!"U", [[c!"Debug2Format"]]⟩]⟩]⟩

example : derivedImpl demoGeneric = some ⟨[c!"T", c!"U"],
    .app (.app (.name c!"E") (.name c!"T")) (.name c!"U"), .format,
    [(.name c!"T", .other c!"Copy"), (.name c!"T", .format),
     (.app (.name c!"PhantomData") (.name c!"U"), .format), (.name c!"U", .debug)]⟩ := by rfl

/-- the `impl`s of the native types -/
def demoNative : List Impl :=
  builtins.flatMap (fun n => [⟨[], .name n, .format, []⟩, ⟨[], .name n, .debug, []⟩, ⟨[], .name n, .display, []⟩]) ++
  [⟨[c!"T"], .ref (.name c!"T"), .format, [(.name c!"T", .format)]⟩,
   ⟨[c!"T"], .ref (.name c!"T"), .debug, [(.name c!"T", .debug)]⟩,
   ⟨[c!"T"], .ref (.name c!"T"), .display, [(.name c!"T", .display)]⟩]

/-- the program with the derived `impl` of an item -/
def demoCrate (i : Impl) : List Impl := i :: (demoImpls ++ demoNative)

theorem demo_native (i : Impl) : ∀ n ∈ builtins, ∀ ty, RefTo n ty → ∀ b ∈ [Bound.format, .debug, .display],
    Holds (demoCrate i) ty b := by
  intro n hn ty h b hb
  induction h with
  | base =>
    refine .intro (i := ⟨[], .name n, b, []⟩) (σ := fun _ => .name []) ?_ (inst_nil _ _) rfl (by simp)
    refine List.mem_cons_of_mem _ (List.mem_append.mpr (.inr (List.mem_append.mpr (.inl ?_))))
    rw [List.mem_flatMap]
    refine ⟨n, hn, ?_⟩
    simp only [List.mem_cons, List.not_mem_nil, or_false] at hb ⊢
    rcases hb with rfl | rfl | rfl <;> simp
  | @ref t h ih =>
    refine .intro (i := ⟨[c!"T"], .ref (.name c!"T"), b, [(.name c!"T", b)]⟩) (σ := fun _ => t) ?_ rfl rfl ?_
    · refine List.mem_cons_of_mem _ (List.mem_append.mpr (.inr (List.mem_append.mpr (.inr ?_))))
      simp only [List.mem_cons, List.not_mem_nil, or_false] at hb ⊢
      rcases hb with rfl | rfl | rfl <;> simp
    · intro p hp
      simp only [List.mem_cons, List.not_mem_nil, or_false] at hp
      subst hp
      exact ih

/-- `struct P<U> { n: &u8, x: PhantomData<U> }` -/
def demoPhantom : DeriveInput :=
  ⟨c!"P", [c!"U"], [], .struct (.named [⟨c!"n", .ref (.name c!"u8"), []⟩,
    ⟨c!"x", .app (.name c!"PhantomData") (.name c!"U"), []⟩])⟩

/-- `P<U>` implements `Format` for all `U`, also if `U` does not. -/
example (U : RTy) : ∃ i, derivedImpl demoPhantom = some i ∧
    Holds (demoCrate i) (.app (.name c!"P") U) .format := by
  refine ⟨_, rfl, ?_⟩
  have h := C107_exact demoPhantom _ rfl (by decide +kernel) (by decide +kernel) (demoCrate _)
    (only_intro (by decide +kernel)) (demo_native _) (fun _ => U)
  refine h.mpr ⟨by simp [demoPhantom], fun f hf b hb => ?_⟩
  have hf : f = ⟨c!"n", .ref (.name c!"u8"), []⟩ ∨ f = ⟨c!"x", .app (.name c!"PhantomData") (.name c!"U"), []⟩ := by
    simpa [DeriveInput.HasField, demoPhantom, GFields.all] using hf
  rcases hf with rfl | rfl
  · exact demo_native _ c!"u8" (by decide) _ (.ref .base) b (by cases hb <;> simp)
  · cases hb with
    | format _ =>
      exact .intro (i := ⟨[c!"T"], .app (.name c!"PhantomData") (.name c!"T"), .format, []⟩) (σ := fun _ => U)
        (by simp [demoCrate, demoImpls]) rfl rfl (by simp)
    | debug h => cases h with | wrapper h => cases h
    | display h => cases h with | wrapper h => cases h

/-- `Node` cannot implement `Format`: the derived `impl` requires `Option<Box<Node>>: Format`, which
requires `Node: Format`. The macro accepts the type. -/
theorem C107_fails_recursive : ∃ i, derivedImpl demoNode = some i ∧
    ¬ Holds (demoCrate i) (.name c!"Node") .format := by
  refine ⟨_, rfl, ?_⟩
  refine C107_recursive demoNode _ rfl rfl _ (only_intro (by decide +kernel)) (by decide +kernel)
    ⟨c!"next", .app (.name c!"Option") (.app (.name c!"Box") (.name c!"Node")), []⟩ ?_ rfl ?_
  · exact List.mem_cons_of_mem _ (List.mem_cons_self ..)
  · refine .app (wrapper_intro (p := c!"T") ?_) (.app (wrapper_intro (p := c!"T") ?_) .here)
    · decide +kernel
    · decide +kernel

/-- A type parameter with the name of a native type is taken for the native type: the statement does not
type check. -/
theorem C107_fails_shadow :
    let d : DeriveInput := ⟨c!"S", [c!"u8"], [], .struct (.unnamed [⟨[], .name c!"u8", []⟩])⟩
    derivedImpl d = some ⟨[c!"u8"], .app (.name c!"S") (.name c!"u8"), .format, []⟩ ∧
    (∃ s, expand d.toDef = some (s, [⟨[], [.native c!"u8"]⟩])) ∧
    ¬ Checks d.params [] (.native c!"u8") (.name c!"u8") := by
  refine ⟨rfl, ⟨_, rfl⟩, ?_⟩
  intro h
  cases h with
  | native _ h _ => exact h (by decide)

end Defmt
