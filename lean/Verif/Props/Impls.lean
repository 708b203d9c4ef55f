import Verif.Model.Impls
import Verif.Props.Glue
import Verif.Props.Header
/-!
# C106: the generated implementations are complete, and use no names of the item
-/
namespace Deluxe

/-! ## What the traits ask for, core/parse_meta.rs:76-247 -/

/-- The trait that a function or constant belongs to. -/
inductive BelongsTo : TraitFn → ImplTrait → Prop
  | parse : BelongsTo .parse .item
  | inline : BelongsTo .inline .item
  | flag : BelongsTo .flag .item
  | named : BelongsTo .named .item
  | missing : BelongsTo .missing .item
  | flatNamed : BelongsTo .flatNamed .flatNamed
  | fieldNames : BelongsTo .fieldNames .flatNamed
  | acceptsAll : BelongsTo .acceptsAll .flatNamed
  | flatUnnamed : BelongsTo .flatUnnamed .flatUnnamed
  | fieldCount : BelongsTo .fieldCount .flatUnnamed
  | rest : BelongsTo .rest .rest
  | append : BelongsTo .append .append

/-- The functions with a body in the trait, and the constant with a value. -/
def HasDefaultBody : TraitFn → Prop
  | .inline | .flag | .named | .missing | .acceptsAll => True
  | _ => False

/-- An implementation that the compiler takes: everything in it belongs to the trait, nothing is there twice, and
nothing is missing that the trait has no default for. -/
structure ImplDecl.WellFormed (i : ImplDecl) : Prop where
  belongs : ∀ x ∈ i.items, BelongsTo x.fn i.trait
  once : (i.items.map (·.fn)).Nodup
  complete : ∀ fn, BelongsTo fn i.trait → HasDefaultBody fn ∨ fn ∈ i.items.map (·.fn)
  some : i.items ≠ []

theorem itemImpl_wf (flag missing : Bool) : (itemImpl flag missing).WellFormed := by
  constructor
  · intro x hx
    cases flag <;> cases missing <;>
      simp only [itemImpl, Bool.false_eq_true, if_true, if_false, List.append_nil, List.cons_append, List.nil_append, List.mem_cons,
        List.not_mem_nil, or_false] at hx <;>
      (repeat' rcases hx with rfl | hx) <;> (try subst hx) <;> constructor
  · cases flag <;> cases missing <;> decide
  · intro fn h
    cases h
    · exact .inr List.mem_cons_self
    all_goals exact .inl trivial
  · simp [itemImpl]

theorem flatNamedImpl_wf (a : Bool) : (flatNamedImpl a).WellFormed := by
  constructor
  · intro x hx
    cases a <;>
      simp only [flatNamedImpl, Bool.false_eq_true, if_true, if_false, List.cons_append, List.nil_append, List.mem_cons,
        List.not_mem_nil, or_false] at hx <;>
      (repeat' rcases hx with rfl | hx) <;> (try subst hx) <;> constructor
  · cases a <;> decide
  · intro fn h
    cases h
    · exact .inr (by cases a <;> decide)
    · exact .inr (by cases a <;> decide)
    · exact .inl trivial
  · cases a <;> simp [flatNamedImpl]

theorem flatUnnamedImpl_wf : flatUnnamedImpl.WellFormed := by
  constructor
  · intro x hx
    simp only [flatUnnamedImpl, List.mem_cons, List.not_mem_nil, or_false] at hx
    rcases hx with rfl | rfl <;> constructor
  · decide
  · intro fn h
    cases h <;> exact .inr (by decide)
  · simp [flatUnnamedImpl]

theorem furtherImpls_wf (t : TransparentD) : ∀ i ∈ t.impls, i.WellFormed := by
  intro i hi
  simp only [TransparentD.impls, List.mem_append] at hi
  rcases hi with ((hi | hi) | hi) | hi <;> split at hi <;> simp only [List.mem_singleton, List.not_mem_nil] at hi <;>
    subst hi
  · refine ⟨?_, by decide, ?_, by simp⟩
    · intro x hx
      simp only [List.mem_cons, List.not_mem_nil, or_false] at hx
      rcases hx with rfl | rfl | rfl <;> constructor
    · intro fn h
      cases h <;> exact .inr (by decide)
  · refine ⟨?_, by decide, ?_, by simp⟩
    · intro x hx
      simp only [List.mem_cons, List.not_mem_nil, or_false] at hx
      rcases hx with rfl | rfl <;> constructor
    · intro fn h
      cases h <;> exact .inr (by decide)
  · refine ⟨?_, by decide, ?_, by simp⟩
    · intro x hx
      simp only [List.mem_cons, List.not_mem_nil, or_false] at hx
      subst hx
      constructor
    · intro fn h
      cases h
      exact .inr (by decide)
  · refine ⟨?_, by decide, ?_, by simp⟩
    · intro x hx
      simp only [List.mem_cons, List.not_mem_nil, or_false] at hx
      subst hx
      constructor
    · intro fn h
      cases h
      exact .inr (by decide)

/-- C106: every implementation that the derive of `ParseMetaItem` emits is well-formed: for structures and enums, for
all attributes, and also if they were rejected. -/
theorem c106_well_formed (item : ItemIn) (code : Option Decl) : ∀ i ∈ metaImpls item code, i.WellFormed := by
  intro i hi
  cases item with
  | union => simp [metaImpls] at hi
  | enum e =>
    simp only [metaImpls, enumImpls, List.mem_cons, List.not_mem_nil, or_false] at hi
    rcases hi with rfl | rfl | rfl
    · exact itemImpl_wf _ _
    · exact flatNamedImpl_wf _
    · exact flatUnnamedImpl_wf
  | struct s =>
    simp only [metaImpls] at hi
    have kind : ∀ a, i ∈ kindImpls s.shape a → i.WellFormed := by
      intro a hi
      unfold kindImpls at hi
      split at hi <;> simp only [List.mem_cons, List.not_mem_nil, or_false] at hi
      · rcases hi with rfl | rfl
        · exact flatNamedImpl_wf _
        · exact flatUnnamedImpl_wf
      · subst hi
        exact flatUnnamedImpl_wf
    unfold structImpls at hi
    split at hi
    · rcases List.mem_cons.1 hi with rfl | hi
      · exact itemImpl_wf _ _
      · exact kind _ hi
    · rcases List.mem_cons.1 hi with rfl | hi
      · exact itemImpl_wf _ _
      · split at hi
        · rename_i d _ _ _
          cases ht : d.transparent with
          | none => simp [ht] at hi
          | some t => exact furtherImpls_wf t i (by simpa [ht] using hi)
        · exact kind _ hi

/-! ## Which implementations -/

/-- The implementations are for the traits of C73. -/
theorem structImpls_traits (shape : Shape) (d : Option StructDecl) :
    (structImpls shape d).map (·.trait) = structTraits shape d := by
  cases d with
  | none => cases shape <;> rfl
  | some d =>
    unfold structImpls structTraits
    simp only [Option.any_some, List.map_cons]
    rcases Bool.eq_false_or_eq_true d.isTransparent with h | h
    · have ht : ∃ t, d.transparent = some t := by
        unfold StructDecl.isTransparent at h
        cases hd : d.transparent with
        | none => simp [hd] at h
        | some t => exact ⟨t, rfl⟩
      obtain ⟨t, ht⟩ := ht
      simp only [h, ht, if_true, Option.map_some, Option.getD_some, TransparentD.impls, Option.bind_some, Bool.true_and,
        List.map_append]
      congr 1
      cases t.flattenNamed.getD false <;> cases t.flattenUnnamed.getD false <;> cases t.rest.getD false <;>
        cases t.append.getD false <;> rfl
    · simp only [h, Bool.false_and, Bool.false_eq_true, if_false]
      cases shape <;> rfl

theorem structTraits_nodup (shape : Shape) (d : Option StructDecl) : (structTraits shape d).Nodup := by
  unfold structTraits
  cases d.any (·.isTransparent)
  · simp only [Bool.false_and, Bool.false_eq_true, if_false]
    cases shape <;> decide
  · simp only [Bool.true_and, if_true]
    cases ((d.bind (·.transparent)).bind (·.flattenNamed)).getD false <;>
      cases ((d.bind (·.transparent)).bind (·.flattenUnnamed)).getD false <;>
      cases ((d.bind (·.transparent)).bind (·.rest)).getD false <;>
      cases ((d.bind (·.transparent)).bind (·.append)).getD false <;> decide

/-- C106: no trait is implemented twice. -/
theorem c106_once (item : ItemIn) (code : Option Decl) : ((metaImpls item code).map (·.trait)).Nodup := by
  cases item with
  | union => simp [metaImpls]
  | enum e => exact (by decide : [ImplTrait.item, .flatNamed, .flatUnnamed].Nodup)
  | struct s => exact structImpls_traits _ _ ▸ structTraits_nodup _ _

/-- C106: these are the implementations in the output of the macro. -/
theorem c106_output [Env] {lib : SynLib} {found : FoundCrate} {item : ItemIn} {out : DeriveOut} {g : Generated}
    (h : deriveMacro lib found .metaItem (.ok item) = .ok out) (hg : out.impls = some g) :
    g.traits = (metaImpls item g.code).map (·.trait) := by
  simp only [deriveMacro, Errors.pushResult] at h
  cases hi : implItem lib found .metaItem item Errors.new with
  | err => simp [hi] at h
  | panic => simp [hi] at h
  | ok r =>
    obtain ⟨errs, impls⟩ := r
    rw [hi] at h
    obtain rfl := Res.ok.inj h
    obtain rfl : impls = some g := hg
    cases item with
    | union sp =>
      simp only [implItem, Res.ok.injEq, Prod.mk.injEq] at hi
      exact nomatch hi.2
    | struct s =>
      simp only [implItem, implStruct] at hi
      cases hr : s.read lib with
      | panic => simp [hr, pushRes] at hi
      | err e =>
        simp only [hr, pushRes, Res.ok.injEq, Prod.mk.injEq, Option.map_eq_some_iff] at hi
        obtain ⟨-, c, -, rfl⟩ := hi
        exact (structImpls_traits s.shape none).symm
      | ok r =>
        simp only [hr, pushRes, Res.ok.injEq, Prod.mk.injEq, Option.map_eq_some_iff] at hi
        obtain ⟨-, c, -, rfl⟩ := hi
        exact (structImpls_traits s.shape (some r)).symm
    | enum s =>
      simp only [implItem, implEnum] at hi
      cases hr : s.read lib with
      | panic => simp [hr, pushRes] at hi
      | err e =>
        simp only [hr, pushRes] at hi
        split at hi
        · simp at hi
        · split at hi
          · simp at hi
          · simp only [Res.ok.injEq, Prod.mk.injEq, Option.some.injEq] at hi
            obtain ⟨-, rfl⟩ := hi
            rfl
      | ok r =>
        simp only [hr, pushRes] at hi
        split at hi
        · simp at hi
        · split at hi
          · simp at hi
          · simp only [Res.ok.injEq, Prod.mk.injEq, Option.some.injEq] at hi
            obtain ⟨-, rfl⟩ := hi
            rfl

/-! ## Functions that are left to the trait -/

/-- The implementation of `ParseMetaItem` has the function. -/
def HasFn (impls : List ImplDecl) (fn : TraitFn) : Prop := ∃ i ∈ impls, i.trait = .item ∧ fn ∈ i.items.map (·.fn)

theorem hasFn_item {shape : Shape} {d : StructDecl} {fn : TraitFn}
    (h : ¬HasFn (structImpls shape (some d)) fn) : fn ∉ (itemImpl d.hasFlag d.default.isSome).items.map (·.fn) :=
  fun hm => h ⟨_, List.mem_cons_self, rfl, hm⟩

section
variable [Env] {V : Type}

/-- C106: where no `parse_meta_item_flag` is generated, the behaviour is that of the trait: a flag is an error. -/
theorem c106_flag (sem : StructSem V) {d : StructDecl} (h : ¬HasFn (structImpls d.shape (some d)) .flag) (sp : Span) :
    (d.toMetaDef sem).dict.flag sp = .err (flagDisallowedError sp) := by
  have hf : d.hasFlag = false := by
    have := hasFn_item h
    cases hh : d.hasFlag
    · rfl
    · rw [hh] at this
      exact absurd (by cases d.default.isSome <;> decide) this
  simp only [StructDecl.hasFlag, Bool.or_eq_false_iff, bne_eq_false_iff_eq] at hf
  obtain ⟨⟨⟨h1, h2⟩, h3⟩, h4⟩ := hf
  have ht := toMetaDef_transparent sem d
  rw [h1] at ht
  have hs : (d.toMetaDef sem).shape = .unnamed := h2
  have hd : (d.toMetaDef sem).default.isSome = false := by
    show (d.default.map sem.default).isSome = false
    rw [Option.isSome_map, h3]
  have ha : ((d.toMetaDef sem).fields.filter (·.isParsable)).all (fun f => f.isFlat || f.default.isSome) = false := by
    rw [← h4, List.all_filter, List.all_filter]
    show ((d.fields.map fillContainer).zipIdx.map fun x => x.1.toField (sem.field x.2)).all _ = _
    generalize d.fields.map fillContainer = fs
    have : ∀ (fs : List FieldDecl) (n : Nat), ((fs.zipIdx n).map fun x => x.1.toField (sem.field x.2)).all
        (fun f => !f.isParsable || (f.isFlat || f.default.isSome)) =
        fs.all fun f => !f.isParsable || (f.isFlat || f.default.isSome) := by
      intro fs
      induction fs with
      | nil => intro n; rfl
      | cons f fs ih =>
        intro n
        rw [List.zipIdx_cons, List.map_cons, List.all_cons, List.all_cons, ih, FieldDecl.toField_isFlat]
        congr 3
        show (f.default.map _).isSome = _
        rw [Option.isSome_map]
    exact this fs 0
  unfold StructDef.dict
  rw [ht, hs]
  simp only [Bool.false_eq_true, if_false, Dict.mk', hd, ha, Bool.or_self]

omit [Env] in
/-- C106: where no `missing_meta_item` is generated, a missing field of this type is an error. -/
theorem c106_missing (sem : StructSem V) {d : StructDecl} (h : ¬HasFn (structImpls d.shape (some d)) .missing)
    (name : Str) (sp : Span) : (d.toMetaDef sem).missing name sp = .err (missingFieldError name sp) := by
  have hf : d.default.isSome = false := by
    have := hasFn_item h
    cases hh : d.default.isSome
    · rfl
    · rw [hh] at this
      exact absurd (by cases d.hasFlag <;> decide) this
  have hd : (d.toMetaDef sem).default = none := by
    show d.default.map sem.default = none
    cases hx : d.default
    · rfl
    · simp [hx] at hf
  simp [StructDef.missing, hd]

end

/-! ## Names -/

/-- One of the functions declares a type parameter with this name.  Inside of the function the name means the
parameter. -/
def TakesName (impls : List ImplDecl) (x : Str) : Prop := ∃ i ∈ impls, ∃ f ∈ i.items, DeclaresName f.generics x

/-- One of the functions declares a lifetime with this name. -/
def TakesLifetime (impls : List ImplDecl) (x : Str) : Prop := ∃ i ∈ impls, ∃ f ∈ i.items, .lifetime x ∈ f.generics

/-- The name starts with four underscores. -/
def Marked (x : Str) : Prop := ∃ y, x = txt "____" ++ y

theorem marked_generics {p : GParam} (h : p ∈ markedGenerics) :
    (∃ x, p = .lifetime x ∧ Marked x) ∨ ∃ x, p = .type x ∧ Marked x := by
  simp only [markedGenerics, List.mem_cons, List.not_mem_nil, or_false] at h
  rcases h with rfl | rfl
  · exact .inl ⟨_, rfl, txt "s", rfl⟩
  · exact .inr ⟨_, rfl, txt "S", rfl⟩

/-- The functions in the list declare marked names only. -/
def OnlyMarked (impls : List ImplDecl) : Prop :=
  ∀ i ∈ impls, ∀ f ∈ i.items, f.generics = [] ∨ f.generics = markedGenerics

theorem OnlyMarked.names {impls : List ImplDecl} (h : OnlyMarked impls) {x : Str} (hx : ¬Marked x) :
    ¬TakesName impls x ∧ ¬TakesLifetime impls x := by
  constructor
  · rintro ⟨i, hi, f, hf, hn⟩
    rcases h i hi f hf with h | h <;> rw [h] at hn
    · rcases hn with hn | hn <;> cases hn
    · rcases hn with hn | hn <;> rcases marked_generics hn with ⟨y, e, hy⟩ | ⟨y, e, hy⟩ <;> cases e
      exact hx hy
  · rintro ⟨i, hi, f, hf, hn⟩
    rcases h i hi f hf with h | h <;> rw [h] at hn
    · cases hn
    · rcases marked_generics hn with ⟨y, e, hy⟩ | ⟨y, e, hy⟩ <;> cases e
      exact hx hy

theorem onlyMarked_item (flag missing : Bool) : OnlyMarked [itemImpl flag missing] := by
  intro i hi f hf
  rw [List.mem_singleton.1 hi] at hf
  cases flag <;> cases missing <;>
    simp only [itemImpl, Bool.false_eq_true, if_true, if_false, List.append_nil, List.cons_append, List.nil_append, List.mem_cons,
      List.not_mem_nil, or_false] at hf <;>
    (repeat' rcases hf with rfl | hf) <;> (try subst hf) <;> first | exact .inl rfl | exact .inr rfl

theorem onlyMarked_kind (shape : Shape) (a : Bool) : OnlyMarked (kindImpls shape a) := by
  intro i hi f hf
  unfold kindImpls at hi
  cases shape <;> simp only [List.mem_cons, List.not_mem_nil, or_false] at hi
  · rcases hi with rfl | rfl
    · cases a <;>
        simp only [flatNamedImpl, Bool.false_eq_true, if_true, if_false, List.cons_append, List.nil_append,
          List.mem_cons, List.not_mem_nil, or_false] at hf <;>
        (repeat' rcases hf with rfl | hf) <;> (try subst hf) <;> first | exact .inl rfl | exact .inr rfl
    · simp only [flatUnnamedImpl, List.mem_cons, List.not_mem_nil, or_false] at hf
      rcases hf with rfl | rfl <;> first | exact .inl rfl | exact .inr rfl
  · subst hi
    simp only [flatUnnamedImpl, List.mem_cons, List.not_mem_nil, or_false] at hf
    rcases hf with rfl | rfl <;> first | exact .inl rfl | exact .inr rfl

theorem OnlyMarked.append {xs ys : List ImplDecl} (h : OnlyMarked xs) (h' : OnlyMarked ys) : OnlyMarked (xs ++ ys) :=
  fun i hi => (List.mem_append.1 hi).elim (h i) (h' i)

/-- C106: the functions that the derive generates for an enum, for a structure that is not transparent, or for a
rejected definition declare no name that the item could use: their generic parameters start with four underscores.

Missing: transparent structures that ask for further traits, see `c106_names_violated`; what they take is in
`c106_transparent_names`. -/
theorem c106_names_partial (item : ItemIn) (code : Option Decl) (ht : ∀ d, code = some (.struct d) → d.isTransparent = false)
    {x : Str} (hx : ¬Marked x) : ¬TakesName (metaImpls item code) x ∧ ¬TakesLifetime (metaImpls item code) x := by
  refine OnlyMarked.names ?_ hx
  cases item with
  | union => intro i hi; simp [metaImpls] at hi
  | enum e => exact (onlyMarked_item _ _).append (onlyMarked_kind .named false)
  | struct s =>
    simp only [metaImpls]
    cases code with
    | none => exact (onlyMarked_item true false).append (onlyMarked_kind s.shape false)
    | some c =>
      cases c with
      | enum e => exact (onlyMarked_item true false).append (onlyMarked_kind s.shape false)
      | struct d =>
        have := ht d rfl
        simp only [Option.bind_some, structImpls, this, Bool.false_eq_true, if_false]
        exact (onlyMarked_item _ _).append (onlyMarked_kind s.shape _)

/-- The further traits that a transparent structure asks for. -/
inductive AsksFor (t : TransparentD) : ImplTrait → Prop
  | flatNamed : t.flattenNamed = some true → AsksFor t .flatNamed
  | flatUnnamed : t.flattenUnnamed = some true → AsksFor t .flatUnnamed
  | rest : t.rest = some true → AsksFor t .rest
  | append : t.append = some true → AsksFor t .append

theorem getD_true {o : Option Bool} (h : o.getD false = true) : o = some true := by
  cases o with
  | none => cases h
  | some b => cases b <;> first | rfl | cases h

theorem impls_cases {t : TransparentD} {i : ImplDecl} (hi : i ∈ t.impls) :
    (AsksFor t i.trait ∧ i.trait ≠ .append ∧ ∀ f ∈ i.items, f.generics = [] ∨ f.generics = plainGenerics) ∨
      (t.append = some true ∧ i = ⟨.append, [⟨.append, appendGenerics⟩]⟩) := by
  simp only [TransparentD.impls, List.mem_append] at hi
  rcases hi with ((hi | hi) | hi) | hi <;> split at hi <;> simp only [List.mem_singleton, List.not_mem_nil] at hi <;>
    subst hi <;> rename_i h
  · refine .inl ⟨.flatNamed (getD_true h), by decide, ?_⟩
    intro f hf
    simp only [List.mem_cons, List.not_mem_nil, or_false] at hf
    rcases hf with rfl | rfl | rfl <;> first | exact .inl rfl | exact .inr rfl
  · refine .inl ⟨.flatUnnamed (getD_true h), by decide, ?_⟩
    intro f hf
    simp only [List.mem_cons, List.not_mem_nil, or_false] at hf
    rcases hf with rfl | rfl <;> first | exact .inl rfl | exact .inr rfl
  · refine .inl ⟨.rest (getD_true h), by decide, ?_⟩
    intro f hf
    simp only [List.mem_cons, List.not_mem_nil, or_false] at hf
    subst hf
    exact .inr rfl
  · exact .inr ⟨getD_true h, rfl⟩

/-- C106: exactly the names `S`, with `append` also `I` and `P`, and the lifetime `'s` are taken in a transparent
structure that asks for further traits, besides those with four underscores. -/
theorem c106_transparent_names {shape : Shape} {d : StructDecl} (h : d.isTransparent = true) {t : TransparentD}
    (ht : d.transparent = some t) {x : Str} (hx : ¬Marked x) :
    (TakesName (structImpls shape (some d)) x ↔
      ((∃ tr, AsksFor t tr) ∧ x = txt "S") ∨ (t.append = some true ∧ (x = txt "I" ∨ x = txt "P"))) ∧
    (TakesLifetime (structImpls shape (some d)) x ↔ (∃ tr, AsksFor t tr) ∧ x = txt "s") := by
  have e : structImpls shape (some d) = [itemImpl d.hasFlag d.default.isSome] ++ t.impls := by
    simp [structImpls, h, ht]
  have hm := (onlyMarked_item d.hasFlag d.default.isSome).names hx
  have hn : TakesName (structImpls shape (some d)) x ↔ TakesName t.impls x := by
    rw [e]
    constructor
    · rintro ⟨i, hi, r⟩
      rcases List.mem_append.1 hi with hi | hi
      · exact absurd ⟨i, hi, r⟩ hm.1
      · exact ⟨i, hi, r⟩
    · rintro ⟨i, hi, r⟩
      exact ⟨i, List.mem_append_right _ hi, r⟩
  have hl : TakesLifetime (structImpls shape (some d)) x ↔ TakesLifetime t.impls x := by
    rw [e]
    constructor
    · rintro ⟨i, hi, r⟩
      rcases List.mem_append.1 hi with hi | hi
      · exact absurd ⟨i, hi, r⟩ hm.2
      · exact ⟨i, hi, r⟩
    · rintro ⟨i, hi, r⟩
      exact ⟨i, List.mem_append_right _ hi, r⟩
  have asked : (∃ tr, AsksFor t tr) → ∃ i ∈ t.impls, ∃ f ∈ i.items, .type (txt "S") ∈ f.generics ∧ .lifetime (txt "s") ∈ f.generics := by
    rintro ⟨tr, ha⟩
    cases ha with
    | flatNamed h =>
      refine ⟨⟨.flatNamed, [⟨.acceptsAll, []⟩, ⟨.fieldNames, []⟩, ⟨.flatNamed, plainGenerics⟩]⟩, ?_, ⟨.flatNamed, plainGenerics⟩, List.mem_cons_of_mem _ (List.mem_cons_of_mem _ List.mem_cons_self), by decide, by decide⟩
      simp only [TransparentD.impls, h, Option.getD_some, if_true]
      exact List.mem_append_left _ (List.mem_append_left _ (List.mem_append_left _ List.mem_cons_self))
    | flatUnnamed h =>
      refine ⟨⟨.flatUnnamed, [⟨.fieldCount, []⟩, ⟨.flatUnnamed, plainGenerics⟩]⟩, ?_, ⟨.flatUnnamed, plainGenerics⟩, List.mem_cons_of_mem _ List.mem_cons_self, by decide, by decide⟩
      simp only [TransparentD.impls, h, Option.getD_some, if_true]
      exact List.mem_append_left _ (List.mem_append_left _ (List.mem_append_right _ List.mem_cons_self))
    | rest h =>
      refine ⟨⟨.rest, [⟨.rest, plainGenerics⟩]⟩, ?_, ⟨.rest, plainGenerics⟩, List.mem_cons_self, by decide, by decide⟩
      simp only [TransparentD.impls, h, Option.getD_some, if_true]
      exact List.mem_append_left _ (List.mem_append_right _ List.mem_cons_self)
    | append h =>
      refine ⟨⟨.append, [⟨.append, appendGenerics⟩]⟩, ?_, ⟨.append, appendGenerics⟩, List.mem_cons_self, by decide, by decide⟩
      simp only [TransparentD.impls, h, Option.getD_some, if_true]
      exact List.mem_append_right _ List.mem_cons_self
  rw [hn, hl]
  constructor
  · constructor
    · rintro ⟨i, hi, f, hf, hd⟩
      rcases impls_cases hi with ⟨ha, -, hg⟩ | ⟨ha, rfl⟩
      · rcases hg f hf with hg | hg <;> rw [hg] at hd
        · rcases hd with hd | hd <;> cases hd
        · refine .inl ⟨⟨_, ha⟩, ?_⟩
          rcases hd with hd | hd <;> simp [plainGenerics] at hd
          exact hd
      · obtain rfl := List.mem_singleton.1 hf
        rcases hd with hd | hd <;> simp [plainGenerics, appendGenerics] at hd
        rcases hd with hd | hd
        · exact .inl ⟨⟨_, .append ha⟩, hd⟩
        · exact .inr ⟨ha, hd⟩
    · rintro (⟨ha, rfl⟩ | ⟨ha, hx⟩)
      · obtain ⟨i, hi, f, hf, h1, -⟩ := asked ha
        exact ⟨i, hi, f, hf, .inl h1⟩
      · refine ⟨⟨.append, [⟨.append, appendGenerics⟩]⟩, ?_, _, List.mem_cons_self, ?_⟩
        · simp only [TransparentD.impls, ha, Option.getD_some, if_true]
          exact List.mem_append_right _ List.mem_cons_self
        · rcases hx with rfl | rfl <;> exact .inl (by decide)
  · constructor
    · rintro ⟨i, hi, f, hf, hd⟩
      rcases impls_cases hi with ⟨ha, -, hg⟩ | ⟨ha, rfl⟩
      · rcases hg f hf with hg | hg <;> rw [hg] at hd
        · cases hd
        · refine ⟨⟨_, ha⟩, ?_⟩
          simp [plainGenerics] at hd
          exact hd
      · obtain rfl := List.mem_singleton.1 hf
        simp [plainGenerics, appendGenerics] at hd
        exact ⟨⟨_, .append ha⟩, hd⟩
    · rintro ⟨ha, rfl⟩
      obtain ⟨i, hi, f, hf, -, h2⟩ := asked ha
      exact ⟨i, hi, f, hf, h2⟩

/-- C106: no function declares a name that is also a generic parameter of the item, if those do not start with four
underscores.

Missing: transparent structures that ask for further traits, see `c106_redeclared_violated`. -/
theorem c106_redeclared_partial (item : ItemIn) (code : Option Decl)
    (ht : ∀ d, code = some (.struct d) → d.isTransparent = false) (params : List GParam)
    (hp : ∀ x, DeclaresName params x ∨ .lifetime x ∈ params → ¬Marked x) :
    ∀ i ∈ metaImpls item code, ∀ f ∈ i.items, ∀ x,
      ¬(DeclaresName params x ∧ DeclaresName f.generics x) ∧ ¬(.lifetime x ∈ params ∧ .lifetime x ∈ f.generics) := by
  intro i hi f hf x
  refine ⟨fun ⟨h1, h2⟩ => ?_, fun ⟨h1, h2⟩ => ?_⟩
  · exact (c106_names_partial item code ht (hp x (.inl h1))).1 ⟨i, hi, f, hf, h2⟩
  · exact (c106_names_partial item code ht (hp x (.inr h1))).2 ⟨i, hi, f, hf, h2⟩

/-! ## Transparent structures -/

/-- `#[deluxe(transparent(flatten_named))] struct W(..);` -/
def forwardingIn : StructIn :=
  ⟨.unnamed, [⟨none, []⟩], [deluxeList [.ident (txt "transparent") 3, .group .paren [.ident (txt "flatten_named") 4] 5 6]]⟩

theorem forwardingIn_read [Env] : ∃ d t, StructIn.read demoLib forwardingIn = .ok d ∧ d.isTransparent = true ∧
    d.transparent = some t ∧ t.flattenNamed = some true ∧ d.crate = none :=
  ⟨_, _, rfl, rfl, rfl, rfl, rfl⟩

theorem not_marked {c : Char} (h : c ≠ '_') : ¬Marked [c] := by
  rintro ⟨y, hy⟩
  injection hy with h1
  exact h h1

/-- The code violates: in `#[deluxe(transparent(flatten_named))] struct W(S);` the type `S` of the field is captured.
The definition is accepted without an error, and in the body of `parse_meta_flat_named` the name means the type of the
inputs. -/
theorem c106_names_violated [Env] : ∃ out g, deriveMacro demoLib .itself .metaItem (.ok (.struct forwardingIn)) = .ok out ∧
    out.errors.flatten = [] ∧ out.impls = some g ∧ TakesName (metaImpls (.struct forwardingIn) g.code) (txt "S") := by
  obtain ⟨d, t, h1, h2, h3, h4, h5⟩ := forwardingIn_read
  obtain ⟨out, g, e1, e2, e3, -, -, -, e4⟩ := c73_accepted (.struct h1) trivial (found := .itself)
    (show CrateAt .itself d.crate _ by rw [h5]; exact .itself rfl) .metaItem .struct
  refine ⟨out, g, e1, e4, e2, ?_⟩
  rw [e3]
  exact ((c106_transparent_names h2 h3 (not_marked (by decide))).1).2 (.inl ⟨⟨_, .flatNamed h4⟩, rfl⟩)

/-- The code violates: in `#[deluxe(transparent(flatten_named))] struct W<'s, S>(&'s S);` the function declares both
parameters again, which the compiler does not allow. -/
theorem c106_redeclared_violated [Env] : ∃ d, StructIn.read demoLib forwardingIn = .ok d ∧
    ∃ i ∈ metaImpls (.struct forwardingIn) (some (.struct d)), ∃ f ∈ i.items,
      .lifetime (txt "s") ∈ f.generics ∧ .type (txt "S") ∈ f.generics := by
  obtain ⟨d, t, h1, h2, h3, h4, -⟩ := forwardingIn_read
  refine ⟨d, h1, ⟨.flatNamed, [⟨.acceptsAll, []⟩, ⟨.fieldNames, []⟩, ⟨.flatNamed, plainGenerics⟩]⟩, ?_, ⟨.flatNamed, plainGenerics⟩,
    List.mem_cons_of_mem _ (List.mem_cons_of_mem _ List.mem_cons_self), by decide, by decide⟩
  show _ ∈ structImpls _ (some d)
  simp only [structImpls, h2, h3, if_true, Option.map_some, Option.getD_some, TransparentD.impls, h4]
  exact List.mem_cons_of_mem _ (List.mem_append_left _ (List.mem_append_left _ (List.mem_append_left _ List.mem_cons_self)))

/-! ## Examples -/

/-- C106: a tuple structure with a field that has to be given has no function for flags; with a default for the
field it has one. -/
example (d : StructDecl) (f : FieldDecl) (hs : d.shape = .unnamed) (hf : d.fields = [f]) (ht : d.transparent = none)
    (hd : d.default = none) (h1 : f.isParsable = true) (h2 : f.isFlat = false) (h3 : f.container = none)
    (h4 : f.default = none) : ¬HasFn (structImpls d.shape (some d)) .flag := by
  have h : d.hasFlag = false := by
    have e : fillContainer f = f := by simp [fillContainer, h3]
    simp [StructDecl.hasFlag, StructDecl.isTransparent, hs, hf, ht, hd, e, h1, h2, h4]
  rintro ⟨i, hi, ht', hm⟩
  simp only [structImpls, StructDecl.isTransparent, ht, hs, kindImpls, h, hd, Option.any_none, Bool.false_and,
    Bool.false_eq_true, if_false, List.mem_cons, List.not_mem_nil, or_false] at hi
  rcases hi with rfl | rfl
  · exact absurd hm (by decide)
  · cases ht'

/-- C106: the names `S` and `T` are free in all implementations for a named structure without attributes. -/
example [Env] : ∃ d, StructIn.read demoLib ⟨.named, [⟨some (txt "a", 1), []⟩], []⟩ = .ok d ∧
    ∀ x, x = txt "S" ∨ x = txt "T" →
      ¬TakesName (metaImpls (.struct ⟨.named, [⟨some (txt "a", 1), []⟩], []⟩) (some (.struct d))) x := by
  refine ⟨_, rfl, fun x hx => ?_⟩
  refine (c106_names_partial _ _ (fun d h => ?_) ?_).1
  · cases h
    rfl
  · rcases hx with rfl | rfl <;> exact not_marked (by decide)

end Deluxe
