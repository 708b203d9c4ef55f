import Verif.Props.Impls
import Verif.Props.Calls
/-!
# Which functions the generated implementations have (C104, C106)

`Props/Impls` shows that the implementations are complete, and that what they leave to the trait is what the definition
means.  Here is the other side: exactly when each of the functions that a trait has a body for is generated, and that
the implementations for transparent structures ask the field for every function they define.
-/
namespace Deluxe

/-- The implementation of the trait has the function. -/
def HasFnIn (impls : List ImplDecl) (tr : ImplTrait) (fn : TraitFn) : Prop :=
  ∃ i ∈ impls, i.trait = tr ∧ fn ∈ i.items.map (·.fn)

/-- The field has to be in the input: it is read, and takes part under its own name, without a default. -/
def FieldDecl.Wanted (f : FieldDecl) : Prop := f.isParsable = true ∧ f.isFlat = false ∧ f.default = none

theorem structImpls_item {shape : Shape} {d : StructDecl} {i : ImplDecl} (hi : i ∈ structImpls shape (some d))
    (ht : i.trait = .item) : i = itemImpl d.hasFlag d.default.isSome := by
  simp only [structImpls, List.mem_cons] at hi
  rcases hi with rfl | hi
  · rfl
  · exfalso
    split at hi
    · cases htr : d.transparent with
      | none => rw [htr] at hi; cases hi
      | some t =>
        rw [htr] at hi
        rcases impls_cases (t := t) (by simpa using hi) with ⟨h, -⟩ | ⟨-, rfl⟩
        · rw [ht] at h
          cases h
        · cases ht
    · cases shape <;> simp only [kindImpls, List.mem_cons, List.not_mem_nil, or_false] at hi
      · rcases hi with rfl | rfl <;> cases ht
      · subst hi; cases ht

theorem hasFnIn_item {shape : Shape} {d : StructDecl} {fn : TraitFn} :
    HasFnIn (structImpls shape (some d)) .item fn ↔ fn ∈ (itemImpl d.hasFlag d.default.isSome).items.map (·.fn) := by
  constructor
  · rintro ⟨i, hi, ht, hm⟩
    rwa [structImpls_item hi ht] at hm
  · exact fun h => ⟨_, List.mem_cons_self, rfl, h⟩

theorem itemImpl_flag (flag missing : Bool) : .flag ∈ (itemImpl flag missing).items.map (·.fn) ↔ flag = true := by
  cases flag <;> cases missing <;> decide

theorem itemImpl_missing (flag missing : Bool) : .missing ∈ (itemImpl flag missing).items.map (·.fn) ↔ missing = true := by
  cases flag <;> cases missing <;> decide

/-- C106: `parse_meta_item_flag` is generated for a structure exactly if it is transparent or not a tuple structure, or
has a default, or none of its fields has to be given. -/
theorem c106_flag_iff (d : StructDecl) : HasFnIn (structImpls d.shape (some d)) .item .flag ↔
    d.isTransparent = true ∨ d.shape ≠ .unnamed ∨ d.default ≠ none ∨ ∀ f ∈ d.fields, ¬f.Wanted := by
  rw [hasFnIn_item, itemImpl_flag]
  have key : ((d.fields.map fillContainer).filter (·.isParsable)).all (fun f => f.isFlat || f.default.isSome) = true ↔
      ∀ f ∈ d.fields, ¬f.Wanted := by
    rw [List.all_eq_true]
    have same : ∀ f : FieldDecl, f.isContainer = false → fillContainer f = f := by
      intro f hc
      rcases fillContainer_eq f with h | ⟨h, -⟩
      · exact h
      · rw [hc] at h
        cases h
    have cont : ∀ f : FieldDecl, f.isParsable = true → f.isContainer = false := by
      intro f hp
      cases hc : f.isContainer with
      | false => rfl
      | true => simp [FieldDecl.isParsable, hc] at hp
    constructor
    · rintro h f hf ⟨hp, hfl, hd⟩
      have := h f (List.mem_filter.2 ⟨List.mem_map.2 ⟨f, hf, same f (cont f hp)⟩, hp⟩)
      simp [hfl, hd] at this
    · intro h x hx
      obtain ⟨hx, hp⟩ := List.mem_filter.1 hx
      obtain ⟨f, hf, rfl⟩ := List.mem_map.1 hx
      have hc := cont _ hp
      have e : fillContainer f = f := by
        rcases fillContainer_eq f with e | ⟨h', sp, e⟩
        · exact e
        · rw [e] at hc
          exact absurd (show f.isContainer = false from hc) (by rw [h']; decide)
      rw [e] at hp ⊢
      cases hfl : f.isFlat with
      | true => rfl
      | false =>
        cases hd : f.default with
        | some => rfl
        | none => exact absurd ⟨hp, hfl, hd⟩ (h f hf)
  simp only [StructDecl.hasFlag, Bool.or_eq_true, key, bne_iff_ne, or_assoc]
  cases d.default <;> simp

/-- C106: `missing_meta_item` is generated for a structure exactly if it has a default; it is not passed on to the field of
a transparent structure. -/
theorem c106_missing_iff (d : StructDecl) :
    HasFnIn (structImpls d.shape (some d)) .item .missing ↔ d.default ≠ none := by
  rw [hasFnIn_item, itemImpl_missing]
  cases d.default <;> simp

/-- C106: an enum has the function for flags always, and `missing_meta_item` exactly if it has a default. -/
theorem c106_enum_fns (d : EnumDecl) : HasFnIn (enumImpls (some d)) .item .flag ∧
    (HasFnIn (enumImpls (some d)) .item .missing ↔ d.default ≠ none) ∧
    ¬HasFnIn (enumImpls (some d)) .flatNamed .acceptsAll := by
  have one : ∀ fn, HasFnIn (enumImpls (some d)) .item fn ↔ fn ∈ (itemImpl true d.default.isSome).items.map (·.fn) := by
    intro fn
    constructor
    · rintro ⟨i, hi, ht, hm⟩
      simp only [enumImpls, List.mem_cons, List.not_mem_nil, or_false] at hi
      rcases hi with rfl | rfl | rfl
      · exact hm
      · cases ht
      · cases ht
    · exact fun h => ⟨_, List.mem_cons_self, rfl, h⟩
  refine ⟨(one _).2 ((itemImpl_flag ..).2 rfl), ?_, ?_⟩
  · rw [one, itemImpl_missing]
    cases d.default <;> simp
  · rintro ⟨i, hi, ht, hm⟩
    simp only [enumImpls, List.mem_cons, List.not_mem_nil, or_false] at hi
    rcases hi with rfl | rfl | rfl
    · cases ht
    · revert hm; decide
    · cases ht

/-- C106: what an enum leaves to the traits is what it means: without a default a missing field of this type is an
error, and it does not accept all keys. -/
theorem c106_enum_left [Env] {V : Type} (sem : EnumSem V) (d : EnumDecl) :
    (¬HasFnIn (enumImpls (some d)) .item .missing → ∀ name sp,
      (d.toDef sem).dict.missing name sp = .err (missingFieldError name sp)) ∧
    (d.toDef sem).flatNamed.acceptsAll = false := by
  refine ⟨fun h name sp => ?_, rfl⟩
  have hd : d.default = none := Classical.byContradiction fun hn => h ((c106_enum_fns d).2.1.2 hn)
  have hd : (d.toDef sem).default = none := by
    show d.default.map _ = none
    rw [hd]
    rfl
  simp [EnumDef.dict, Dict.mk', hd]

/-- C106: `ACCEPTS_ALL` is generated for a named structure exactly if it allows unknown fields or has a rest field or a
flattened field. -/
theorem c106_accepts_all_iff {d : StructDecl} (ht : d.isTransparent = false) (hs : d.shape = .named) :
    HasFnIn (structImpls d.shape (some d)) .flatNamed .acceptsAll ↔
      d.allowUnknown = some true ∨ ∃ f ∈ d.fields, f.isRest = true ∨ f.isFlatten = true := by
  have key : HasFnIn (structImpls d.shape (some d)) .flatNamed .acceptsAll ↔ d.saysAcceptsAll = true := by
    simp only [structImpls, ht, Bool.false_eq_true, if_false, hs, kindImpls]
    constructor
    · rintro ⟨i, hi, htr, hm⟩
      simp only [List.mem_cons, List.not_mem_nil, or_false] at hi
      rcases hi with rfl | rfl | rfl
      · cases htr
      · cases hh : d.saysAcceptsAll with
        | true => rfl
        | false =>
          rw [hh] at hm
          revert hm
          decide
      · cases htr
    · intro h
      refine ⟨_, List.mem_cons_of_mem _ List.mem_cons_self, rfl, ?_⟩
      rw [h]
      decide
  rw [key]
  simp only [StructDecl.saysAcceptsAll, Bool.or_eq_true, List.any_eq_true]
  constructor
  · rintro ((h | ⟨f, h1, h2⟩) | ⟨f, h1, h2⟩)
    · exact .inl (getD_true h)
    · exact .inr ⟨f, h1, .inl h2⟩
    · exact .inr ⟨f, h1, .inr h2⟩
  · rintro (h | ⟨f, h1, h2 | h2⟩)
    · rw [h]
      exact .inl (.inl rfl)
    · exact .inl (.inr ⟨f, h1, h2⟩)
    · exact .inr ⟨f, h1, h2⟩

/-- C106: where no `ACCEPTS_ALL` is generated, the structure does not accept all keys. -/
theorem c106_accepts_all [Env] {V : Type} (sem : StructSem V) {d : StructDecl} (ht : d.isTransparent = false)
    (hs : d.shape = .named) (h : ¬HasFnIn (structImpls d.shape (some d)) .flatNamed .acceptsAll) :
    (d.toMetaDef sem).flatNamed.acceptsAll = false := by
  rw [c106_accepts_all_iff ht hs, not_or] at h
  obtain ⟨h1, h2⟩ := h
  show (d.allowUnknown.getD false ||
    Field.acceptsAll ((d.fields.map fillContainer).zipIdx.map fun x => x.1.toField (sem.field x.2))) = false
  have hall : ∀ x ∈ (d.fields.map fillContainer).zipIdx.map (fun x => x.1.toField (sem.field x.2)),
      x.rest.getD false = false ∧ x.isFlatten = false := by
    intro x hx
    obtain ⟨⟨y, k⟩, hy, rfl⟩ := List.mem_map.1 hx
    obtain ⟨f, hf, rfl⟩ := List.mem_map.1 (List.mem_of_getElem? (List.mem_zipIdx_iff_getElem?.1 hy))
    have hn : f.isRest = false ∧ f.isFlatten = false :=
      ⟨Bool.not_eq_true _ ▸ fun h => h2 ⟨f, hf, .inl h⟩, Bool.not_eq_true _ ▸ fun h => h2 ⟨f, hf, .inr h⟩⟩
    have he : (fillContainer f).rest = f.rest ∧ (fillContainer f).flatten = f.flatten := by
      rcases fillContainer_eq f with e | ⟨-, sp, e⟩ <;> rw [e] <;> exact ⟨rfl, rfl⟩
    constructor
    · show (((fillContainer f).rest).map (·.value)).getD false = false
      rw [he.1]
      exact hn.1
    · have := hn.2
      unfold FieldDecl.isFlatten at this
      show Field.isFlatten _ = false
      unfold Field.isFlatten FieldDecl.toField
      dsimp only
      rw [he.2]
      cases hfl : f.flatten with
      | none => rfl
      | some x =>
        rw [hfl] at this
        exact this
  have hu : d.allowUnknown.getD false = false := by
    cases hx : d.allowUnknown with
    | none => rfl
    | some b =>
      cases b with
      | false => rfl
      | true => exact absurd hx h1
  rw [hu, Bool.false_or]
  unfold Field.acceptsAll
  rw [Bool.or_eq_false_iff, List.any_eq_false, List.any_eq_false]
  exact ⟨fun x hx => by rw [(hall x hx).1]; decide, fun x hx => by rw [(hall x hx).2, Bool.false_and]; decide⟩

/-! ## Transparent structures ask the field -/

/-- The functions that an implementation for a transparent structure defines, without the default of the structure. -/
theorem forwarded_fns {d : StructDecl} {t : TransparentD} (ht : d.isTransparent = true) (hsome : d.transparent = some t)
    {i : ImplDecl} (hi : i ∈ structImpls d.shape (some d)) {x : FnDecl} (hx : x ∈ i.items) (hm : x.fn ≠ .missing) :
    x.fn ∈ [TraitFn.parse, .inline, .flag] ++ t.furtherFns := by
  simp only [structImpls, List.mem_cons, ht, if_true, hsome, Option.map_some, Option.getD_some] at hi
  rcases hi with rfl | hi
  · refine List.mem_append_left _ ?_
    simp only [itemImpl, List.mem_append, List.mem_cons, List.not_mem_nil, or_false] at hx
    rcases hx with ((rfl | rfl) | hx) | hx
    · decide
    · decide
    · split at hx
      · rw [List.mem_singleton] at hx
        subst hx
        decide
      · cases hx
    · split at hx
      · rw [List.mem_singleton] at hx
        subst hx
        exact absurd rfl hm
      · cases hx
  · refine List.mem_append_right _ ?_
    simp only [TransparentD.impls, List.mem_append] at hi
    simp only [TransparentD.furtherFns, List.mem_append]
    rcases hi with ((hi | hi) | hi) | hi
    · refine .inl (.inl (.inl ?_))
      split at hi
      · rw [List.mem_singleton] at hi
        subst hi
        rename_i h
        rw [if_pos h]
        simp only [List.mem_cons, List.not_mem_nil, or_false] at hx
        rcases hx with rfl | rfl | rfl <;> decide
      · cases hi
    · refine .inl (.inl (.inr ?_))
      split at hi
      · rw [List.mem_singleton] at hi
        subst hi
        rename_i h
        rw [if_pos h]
        simp only [List.mem_cons, List.not_mem_nil, or_false] at hx
        rcases hx with rfl | rfl <;> decide
      · cases hi
    · refine .inl (.inr ?_)
      split at hi
      · rw [List.mem_singleton] at hi
        subst hi
        rename_i h
        rw [if_pos h]
        rw [List.mem_singleton] at hx
        subst hx
        decide
      · cases hi
    · refine .inr ?_
      split at hi
      · rw [List.mem_singleton] at hi
        subst hi
        rename_i h
        rw [if_pos h]
        rw [List.mem_singleton] at hx
        subst hx
        decide
      · cases hi

/-- C104: every function that the implementations for a transparent structure define is asked of the one field that is
read, from the module given by `with` or from its type; only the default of the structure is not. -/
theorem c104_forwards [Env] {lib : SynLib} {s : StructIn} {d : StructDecl} (h : s.read lib = .ok d)
    (hw : ShapeIs s.shape s.fields) (ht : d.isTransparent = true) :
    ∃ (k : Nat) (f : FieldDecl), d.fields[k]? = some f ∧ f.isParsable = true ∧ f.isFlat = false ∧
      ∀ i ∈ structImpls d.shape (some d), ∀ x ∈ i.items, x.fn ≠ .missing →
        ⟨k, if f.with_ = none then .type else .module, x.fn⟩ ∈ d.calls .metaItem := by
  obtain ⟨t, hsome⟩ := isTransparent_some ht
  have hone := ((fieldsFine_of h hw).one ht).2
  have keep : ∀ f : FieldDecl, (fillContainer f).isParsable = f.isParsable ∧ (fillContainer f).isFlat = f.isFlat ∧
      (fillContainer f).with_ = f.with_ := by
    intro f
    rcases fillContainer_eq f with e | ⟨-, sp, e⟩ <;> rw [e] <;> exact ⟨rfl, rfl, rfl⟩
  cases hfind : (d.fields.map fillContainer).zipIdx.find? fun x => x.1.isParsable && !x.1.isFlat with
  | none =>
    exfalso
    rw [Option.isSome_iff_exists] at hone
    obtain ⟨n, hn⟩ := hone
    obtain ⟨hlt, hp, -⟩ := List.findIdx?_eq_some_iff_getElem.1 hn
    rw [List.find?_eq_none] at hfind
    refine hfind (fillContainer d.fields[n], n) (List.mem_zipIdx_iff_getElem?.2 ?_) ?_
    · simp [hlt]
    · rw [(keep _).1, (keep _).2.1]
      exact hp
  | some p =>
    obtain ⟨g, k⟩ := p
    have hmem := List.mem_of_find?_eq_some hfind
    have hp := List.find?_some hfind
    have hk : (d.fields.map fillContainer)[k]? = some g := List.mem_zipIdx_iff_getElem?.1 hmem
    rw [List.getElem?_map, Option.map_eq_some_iff] at hk
    obtain ⟨f, hk, rfl⟩ := hk
    dsimp only at hp
    rw [(keep f).1, (keep f).2.1, Bool.and_eq_true, Bool.not_eq_true'] at hp
    refine ⟨k, f, hk, hp.1, hp.2, fun i hi x hx hm => ?_⟩
    show _ ∈ d.metaCalls
    unfold StructDecl.metaCalls
    dsimp only
    rw [if_pos ht, hsome]
    refine List.mem_append_left _ ?_
    unfold transparentCalls
    rw [hfind]
    refine List.mem_map.2 ⟨x.fn, forwarded_fns ht hsome hi hx hm, ?_⟩
    rw [(keep f).2.2]
    cases f.with_ <;> rfl

/-! ## Examples -/

/-- C104: `#[deluxe(transparent(flatten_named))] struct W(..);` asks the type of its field for the names of the fields. -/
example [Env] : ∃ d, StructIn.read demoLib forwardingIn = .ok d ∧
    ⟨0, .type, .fieldNames⟩ ∈ d.calls .metaItem ∧ ⟨0, .type, .flag⟩ ∈ d.calls .metaItem := by
  obtain ⟨d, t, h1, h2, h3, h4, -⟩ := forwardingIn_read
  obtain ⟨k, f, hk, hp, hfl, hall⟩ := c104_forwards h1 (by simp [ShapeIs, forwardingIn]) h2
  have h1' := h1
  cases h1'
  cases k with
  | zero =>
    cases hk
    refine ⟨_, h1, hall ⟨.flatNamed, [⟨.acceptsAll, []⟩, ⟨.fieldNames, []⟩, ⟨.flatNamed, plainGenerics⟩]⟩ ?_
      ⟨.fieldNames, []⟩ (List.mem_cons_of_mem _ List.mem_cons_self) (by decide), hall (itemImpl true false) List.mem_cons_self
      ⟨.flag, []⟩ (by simp [itemImpl]) (by decide)⟩
    exact List.mem_cons_of_mem _ List.mem_cons_self
  | succ k => cases hk

/-- C106: a named structure without attributes has a function for flags, and none for missing values. -/
example [Env] : ∃ d, StructIn.read demoLib ⟨.named, [⟨some (txt "a", 1), []⟩], []⟩ = .ok d ∧
    HasFnIn (structImpls d.shape (some d)) .item .flag ∧ ¬HasFnIn (structImpls d.shape (some d)) .item .missing ∧
    ¬HasFnIn (structImpls d.shape (some d)) .flatNamed .acceptsAll := by
  refine ⟨_, rfl, (c106_flag_iff _).2 (.inr (.inl (show Shape.named ≠ .unnamed by decide))), fun h => (c106_missing_iff _).1 h rfl, fun h => ?_⟩
  rcases (c106_accepts_all_iff rfl rfl).1 h with h | ⟨f, hf, h⟩
  · cases h
  · rcases List.mem_singleton.1 hf with rfl
    rcases h with h | h <;> cases h

end Deluxe
