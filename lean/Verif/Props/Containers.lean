import Verif.Lemmas.Unparsed
import Verif.Model.Container
import Verif.Props.Attributes
import Verif.Props.Glue
/-!
# C37, C92, C93: fields that are not read, and what container fields hold
-/
namespace Deluxe

variable {V : Type} [Env]

/-! ## C37 -/

section
variable {i : Nat} {f : Field V}

theorem inline_unread {d : StructDef V} (hf : d.fields[i]? = some f) (hp : f.isParsable = false)
    (ha : Accepted d.data) (mode : Mode) (pre : Str) (validate : Bool) :
    OkAll (fun vs => ∃ vs0, runThens d.andThens vs0 = .ok vs ∧ Unread d.data i f vs0)
      (d.flatNamed.parse mode pre validate) :=
  OkAll.mapOk (namedFlat_unread (d := d.data) hf hp (ha.filled f (List.mem_of_getElem? hf) hp) ha.target _ _ _ _)
    fun r vs hr h => by
      obtain ⟨b, hb, h⟩ := (runAndThens_runThens _ _ _).1 h
      exact ⟨b, h, hr b hb⟩

theorem inlineUnnamed_unread {d : StructDef V} (hf : d.fields[i]? = some f) (hp : f.isParsable = false)
    (ha : Accepted d.data) (mode : Mode) (index : Nat) :
    OkAll (fun vs => ∃ vs0, runThens d.andThens vs0 = .ok vs ∧ Unread d.data i f vs0)
      (d.flatUnnamed.parse mode index) := by
  unfold StructDef.flatUnnamed
  split
  · exact inline_unread hf hp ha _ _ _
  · exact OkAll.mapOk (unnamedFlat_unread (d := d.data) hf hp (ha.filled f (List.mem_of_getElem? hf) hp) ha.target _ _)
      fun r vs hr h => by
        obtain ⟨b, hb, h⟩ := (runAndThens_runThens _ _ _).1 h
        exact ⟨b, h, hr b hb⟩

/-- C37: in a structure of any shape, transparent or not, and in every way it is read, a skipped or container
field holds its default with its transforms applied, or its part of the default of the structure. -/
theorem c37_struct {d : StructDef V} (ha : Accepted d.data) (hu : d.shape = .unit → d.fields = [])
    (hf : d.fields[i]? = some f) (hp : f.isParsable = false) :
    d.dict.OkAll (fun vs => ∃ vs0, runThens d.andThens vs0 = .ok vs ∧ Unread d.data i f vs0) := by
  unfold StructDef.dict
  split
  · split
    · rename_i g k hg
      exact .mk' (fun m => .mapRes (transparentPost_unread d hf hp ha.target hg))
        (fun m => .mapRes (transparentPost_unread d hf hp ha.target hg))
        (fun sp v h => transparentPost_unread d hf hp ha.target hg _ _ h)
    · exact .mk' (fun _ _ _ h => by cases h) (fun _ => .first fun _ _ h => by cases h) (fun _ _ h => by cases h)
  · split
    · exact .mk' (fun m => (inline_unread hf hp ha m _ _).single.delimited _) (fun m => inline_unread hf hp ha m _ _)
        (fun sp v h => (inline_unread hf hp ha _ _ _).single.empty h)
    · refine .mk' (fun m => (inlineUnnamed_unread hf hp ha m _).single.delimited _)
        (fun m => inlineUnnamed_unread hf hp ha m _) (fun sp v h => ?_)
      split at h
      · exact (inlineUnnamed_unread hf hp ha _ _).single.empty h
      · cases h
    · rename_i hs
      rw [hu hs] at hf
      cases hf

/-- C37: the same in attributes, where a container field holds the container. -/
theorem c37_attributes {d : StructDef V} {site : Site V} (ha : Accepted (d.attrData site))
    (hu : d.shape = .unit → d.fields = []) (hf : d.fields[i]? = some f) (hp : f.isParsable = false) (mode : Mode) :
    OkAll (fun vs => ∃ vs0, runThens d.andThens vs0 = .ok vs ∧ Unread (d.attrData site) i f vs0)
      (d.attrBody site mode) := by
  have hfill := ha.filled f (List.mem_of_getElem? hf) hp
  unfold StructDef.attrBody
  split
  · split
    · rename_i g k hg
      exact .mapRes (attrTransparentPost_unread d site hf hp ha.target hg)
    · exact fun _ _ h => by cases h
  · split
    · exact OkAll.mapOk (namedFlat_unread (d := d.attrData site) hf hp hfill ha.target _ _ _ _)
        fun r vs hr h => by
          obtain ⟨b, hb, h⟩ := (runAndThens_runThens _ _ _).1 h
          exact ⟨b, h, hr b hb⟩
    · exact OkAll.mapOk (unnamedFlat_unread (d := d.attrData site) hf hp hfill ha.target _ _)
        fun r vs hr h => by
          obtain ⟨b, hb, h⟩ := (runAndThens_runThens _ _ _).1 h
          exact ⟨b, h, hr b hb⟩
    · rename_i hs
      rw [hu hs] at hf
      cases hf
end

/-- The fields of the variant of a value that are not read. -/
def UnreadVariant (e : EnumDef V) (site : Site V) (x : EnumVal V) : Prop :=
  e.default = some x ∨ ∃ v, e.variants[x.1]? = some v ∧ v.isSkipped = false ∧
    ∀ i f, v.fields[i]? = some f → f.isParsable = false → Unread (v.data site callSite) i f x.2

/-- C37: in every value of an enum but its default, a skipped or container field of the variant holds the
container or its default, with its transforms applied. -/
theorem c37_enum {e : EnumDef V} {site : Site V} (ha : e.Accepted site)
    (hu : ∀ v ∈ e.variants, v.shape = .unit → v.fields = []) (mode : Mode) (pre : Str) (validate : Bool) :
    OkAll (fun y => ∃ x, runThens e.andThens x = .ok y ∧ UnreadVariant e site x)
      (enumFlat e site mode pre validate) := by
  refine enumFlat_okAll (fun x hx => .inl hx) ?_ ?_ mode pre validate
  · intro k v hv hb pre p sp s x hx
    have hm := List.mem_of_getElem? hv
    refine .inr ⟨v, hv, hb.2, fun i f hf hp => ?_⟩
    have hacc := (ha v hm hb.2).data sp
    have hfill := hacc.filled f (List.mem_of_getElem? hf) hp
    revert x s
    show OkAll (Unread (v.data site callSite) i f) (v.item site pre p sp)
    unfold Variant.item
    split
    · split
      · rename_i g k hg
        exact .mapRes (variantPost_unread v site sp hf hp hg)
      · exact fun _ _ h => by cases h
    · have hinl : ∀ mode, OkAll (Unread (v.data site callSite) i f) (v.inline site pre sp mode) := by
        intro mode
        unfold Variant.inline
        split
        · exact namedFlat_unread (d := v.data site sp) hf hp hfill hacc.target _ _ _ _
        · exact unnamedFlat_unread (d := v.data site sp) hf hp hfill hacc.target _ _
        · rename_i hs
          rw [hu v hm hs] at hf
          cases hf
      refine .namedWith (fun m => (hinl m).single.delimited _) hinl (fun sp' x h => ?_) _
      unfold Variant.flag at h
      split at h
      · exact (hinl _).single.empty h
      · split at h
        · exact (hinl _).single.empty h
        · cases h
      · rename_i hs
        rw [hu v hm hs] at hf
        cases hf
  · intro k v hv hb allowed mode pre validate sp l x hx
    have hm := List.mem_of_getElem? hv
    refine .inr ⟨v, hv, hb.2, fun i f hf hp => ?_⟩
    have hacc := (ha v hm hb.2).data sp
    exact namedFlat_unread (d := v.data site sp) hf hp (hacc.filled f (List.mem_of_getElem? hf) hp) hacc.target
      _ _ _ _ l x hx

/-- `struct S(A, #[deluxe(skip, default = v)] B);` -/
def skipTuple (item : Dict V) (v : V) : StructDef V :=
  ⟨.unnamed, [{ plainField (txt "0") item with ident := none, idents := [] },
    { plainField (txt "1") item with ident := none, idents := [], skip := some true, default := some v }],
    none, none, none, []⟩

/-- C37: `(w)` is read as `S(w, v)`. -/
example (item : Dict V) (v : V) : Accepted (skipTuple item v).data ∧
    (skipTuple item v).fields[1]?.map Field.isParsable = some false ∧
    ((skipTuple (boolDict.map fun _ => v) v).dict.parse .unnamed
      ⟨[.group .paren [.ident (txt "true") 2] 1 1], 9, none⟩).1 = .ok [v, v] :=
  ⟨⟨fun f hf hp => by
    simp only [StructDef.data, skipTuple, List.mem_cons, List.not_mem_nil, or_false] at hf
    rcases hf with rfl | rfl
    · cases hp
    · exact .inl rfl, fun t ht => by cases ht⟩, rfl, rfl⟩

/-! ## C93 -/

section
variable {O : Type}

/-- The values of a structure without transforms in its container field. -/
theorem attributes_container {d : StructDef V} (ha : d.AttrAccepted)
    (hu : d.shape = .unit → d.fields = []) {i : Nat} {f : Field V} (hf : d.fields[i]? = some f)
    (hc : f.isContainer = true) (ht : f.transforms = []) (attributes : List (List Str)) (x : V)
    {entries : List (List Tok × Str × Span)} {vs : List V}
    (h : parseStructAttrTokens entries ((d.attrTarget attributes).func x) = .ok vs) :
    ∃ vs0, runThens d.andThens vs0 = .ok vs ∧ vs0[i]? = some x := by
  have hp : f.isParsable = false := by simp [Field.isParsable, hc]
  refine OkAll.attrTokens (Q := fun vs => ∃ vs0, runThens d.andThens vs0 = .ok vs ∧ vs0[i]? = some x)
    (fun ps l vs hvs => ?_) h
  obtain ⟨vs0, h1, h2⟩ := c37_attributes (ha.data _ _) hu hf hp _ l vs hvs
  refine ⟨vs0, h1, ?_⟩
  rcases h2 with ⟨b, v, hb, hr, hv⟩ | ⟨hn, -⟩
  · rw [ht] at hr
    cases hr
    rcases hb with ⟨-, hb⟩ | ⟨hn, -⟩
    · cases hb
      exact hv
    · exact absurd ⟨hc, rfl⟩ hn
  · exact absurd ⟨hc, rfl⟩ hn

/-- C93: whenever a structure is parsed from the attributes of an object, its container field holds what
`container_from` makes of that object; when it is extracted, what `container_from_mut` makes of the object
without the attributes that are taken out of it.  (Then the `and_then` functions of the structure run.) -/
theorem c93_struct {d : StructDef V} (ha : d.AttrAccepted)
    (hu : d.shape = .unit → d.fields = []) {i : Nat} {f : Field V} (hf : d.fields[i]? = some f)
    (hc : f.isContainer = true) (ht : f.transforms = []) (attributes : List (List Str)) (h : HasAttrs O)
    (value : Held O → V) (ty : ContainerTy) (o : O) :
    (∀ vs, (d.attrTarget attributes).parseAttributes h (fun o => value (containerFrom ty o)) o = .ok vs →
      ∃ vs0, runThens d.andThens vs0 = .ok vs ∧ vs0[i]? = some (value (containerFrom ty o))) ∧
    (∀ vs o', (d.attrTarget attributes).extractAttributes h (fun o => value (containerFromMut ty o)) o = (.ok vs, o') →
      ∃ vs0, runThens d.andThens vs0 = .ok vs ∧ vs0[i]? = some (value (containerFromMut ty o'))) := by
  constructor
  · intro vs hvs
    exact attributes_container ha hu hf hc ht attributes _ hvs
  · intro vs o' hvs
    unfold AttrTarget.extractAttributes at hvs
    cases hm : h.attrsMut o with
    | error e => rw [hm] at hvs; cases hvs
    | ok z =>
      obtain ⟨attrs, put⟩ := z
      rw [hm] at hvs
      simp only [Prod.mk.injEq] at hvs
      obtain ⟨h1, rfl⟩ := hvs
      exact attributes_container ha hu hf hc ht attributes _ h1

/-- The values of an enum without transforms in its container fields. -/
theorem enum_container {e : EnumDef V} (ha : ∀ site : Site V, site.obj.isSome = true → e.Accepted site)
    (hu : ∀ v ∈ e.variants, v.shape = .unit → v.fields = [])
    (ht : ∀ v ∈ e.variants, ∀ f ∈ v.fields, f.isContainer = true → f.transforms = [])
    (attributes : List (List Str)) (x : V) {entries : List (List Tok × Str × Span)} {y : EnumVal V}
    (h : parseStructAttrTokens entries ((e.attrTarget attributes).func x) = .ok y) :
    ∃ y0, runThens e.andThens y0 = .ok y ∧ (e.default = some y0 ∨ ∃ v, e.variants[y0.1]? = some v ∧
      ∀ (i : Nat) (f : Field V), v.fields[i]? = some f → f.isContainer = true → y0.2[i]? = some x) := by
  refine OkAll.attrTokens (Q := fun y => ∃ y0, runThens e.andThens y0 = .ok y ∧ (e.default = some y0 ∨
    ∃ v, e.variants[y0.1]? = some v ∧
      ∀ (i : Nat) (f : Field V), v.fields[i]? = some f → f.isContainer = true → y0.2[i]? = some x))
    (fun ps l y hy => ?_) h
  obtain ⟨y0, h1, h2⟩ := c37_enum (ha _ rfl) hu _ _ _ l y hy
  refine ⟨y0, h1, ?_⟩
  rcases h2 with h2 | ⟨v, hv, -, h2⟩
  · exact .inl h2
  · refine .inr ⟨v, hv, fun i f hf hc => ?_⟩
    have ht' := ht v (List.mem_of_getElem? hv) f (List.mem_of_getElem? hf) hc
    rcases h2 i f hf (by simp [Field.isParsable, hc]) with ⟨b, w, hb, hr, hw⟩ | ⟨hn, -⟩
    · rw [ht'] at hr
      cases hr
      rcases hb with ⟨-, hb⟩ | ⟨hn, -⟩
      · cases hb
        exact hw
      · exact absurd ⟨hc, rfl⟩ hn
    · exact absurd ⟨hc, rfl⟩ hn

/-- C93: the same for the container fields of the variants of an enum; only the default of the enum has its own
values. -/
theorem c93_enum {e : EnumDef V} (ha : ∀ site : Site V, site.obj.isSome = true → e.Accepted site)
    (hu : ∀ v ∈ e.variants, v.shape = .unit → v.fields = [])
    (ht : ∀ v ∈ e.variants, ∀ f ∈ v.fields, f.isContainer = true → f.transforms = [])
    (attributes : List (List Str)) (h : HasAttrs O) (value : Held O → V) (ty : ContainerTy) (o : O) :
    (∀ y, (e.attrTarget attributes).parseAttributes h (fun o => value (containerFrom ty o)) o = .ok y →
      ∃ y0, runThens e.andThens y0 = .ok y ∧ (e.default = some y0 ∨ ∃ v, e.variants[y0.1]? = some v ∧
        ∀ (i : Nat) (f : Field V), v.fields[i]? = some f → f.isContainer = true →
          y0.2[i]? = some (value (containerFrom ty o)))) ∧
    (∀ y o', (e.attrTarget attributes).extractAttributes h (fun o => value (containerFromMut ty o)) o = (.ok y, o') →
      ∃ y0, runThens e.andThens y0 = .ok y ∧ (e.default = some y0 ∨ ∃ v, e.variants[y0.1]? = some v ∧
        ∀ (i : Nat) (f : Field V), v.fields[i]? = some f → f.isContainer = true →
          y0.2[i]? = some (value (containerFromMut ty o')))) := by
  constructor
  · intro y hy
    exact enum_container ha hu ht attributes _ hy
  · intro y o' hy
    unfold AttrTarget.extractAttributes at hy
    cases hm : h.attrsMut o with
    | error e => rw [hm] at hy; cases hy
    | ok z =>
      obtain ⟨attrs, put⟩ := z
      rw [hm] at hy
      simp only [Prod.mk.injEq] at hy
      obtain ⟨h1, rfl⟩ := hy
      exact enum_container ha hu ht attributes _ h1

/-- C93: for a structure that the derive accepts. -/
theorem c93_derived {lib : SynLib} {d : StructIn} {r : StructDecl} (h : d.read lib = .ok r)
    (hw : ShapeFits d.shape d.fields) (hu : r.shape = .unit → r.fields = []) {sem : StructSem V}
    (hd : sem.Fits r.fields.length) {i : Nat} {f : FieldDecl} (hf : r.fields[i]? = some f) (hc : f.isContainer = true)
    (ht : f.transforms = []) (attributes : List (List Str)) (a : HasAttrs O) (value : Held O → V) (ty : ContainerTy)
    (o : O) :
    (∀ vs, ((r.toDef sem).attrTarget attributes).parseAttributes a (fun o => value (containerFrom ty o)) o = .ok vs →
      ∃ vs0, runThens (r.toDef sem).andThens vs0 = .ok vs ∧ vs0[i]? = some (value (containerFrom ty o))) ∧
    (∀ vs o', ((r.toDef sem).attrTarget attributes).extractAttributes a (fun o => value (containerFromMut ty o)) o =
        (.ok vs, o') →
      ∃ vs0, runThens (r.toDef sem).andThens vs0 = .ok vs ∧ vs0[i]? = some (value (containerFromMut ty o'))) := by
  refine c93_struct (f := f.toField (sem.field i)) (c69_struct_attr h hw hd) (fun hs => ?_) ?_ hc
    (by simp [FieldDecl.toField, ht]) attributes a value ty o
  · simp only [StructDecl.toDef, hu hs]
    rfl
  · simp [StructDecl.toDef, hf]

omit [Env] in
/-- C93: `container_from` and `container_from_mut` give the object itself, or `Some` of it for an `Option`; but
`container_from` is not implemented for the two types with a mutable reference. -/
theorem c93_held (o : O) (ty : ContainerTy) :
    (ty = .mut ∨ ty = .optionMut ↔ containerFrom ty o = .unimplemented) ∧
    (ty = .owned ∨ ty = .ref → containerFrom ty o = .it o) ∧
    (ty = .option ∨ ty = .optionRef → containerFrom ty o = .some o) ∧
    (ty = .owned ∨ ty = .ref ∨ ty = .mut → containerFromMut ty o = .it o) ∧
    (ty = .option ∨ ty = .optionRef ∨ ty = .optionMut → containerFromMut ty o = .some o) := by
  cases ty <;> simp [containerFrom, containerFromMut]

/-- `#[deluxe(container)] c: C` -/
def containerOnly (item : Dict V) : List (Field V) :=
  [{ plainField (txt "c") item with container := some true }]

/-- C93: for an enum that the derive accepts. -/
theorem c93_derived_enum {lib : SynLib} {d : EnumIn} {r : EnumDecl} (h : d.read lib = .ok r)
    (hw : ∀ v ∈ d.variants, ShapeFits v.shape v.fields) (hT : r.TransparentFine) {sem : EnumSem V}
    (hu : ∀ v ∈ (r.toDef sem).variants, v.shape = .unit → v.fields = [])
    (ht : ∀ v ∈ (r.toDef sem).variants, ∀ f ∈ v.fields, f.isContainer = true → f.transforms = [])
    (attributes : List (List Str)) (a : HasAttrs O) (value : Held O → V) (ty : ContainerTy) (o : O) {y : EnumVal V}
    (hy : ((r.toDef sem).attrTarget attributes).parseAttributes a (fun o => value (containerFrom ty o)) o = .ok y) :
    ∃ y0, runThens (r.toDef sem).andThens y0 = .ok y ∧ ((r.toDef sem).default = some y0 ∨
      ∃ v, (r.toDef sem).variants[y0.1]? = some v ∧
        ∀ (i : Nat) (f : Field V), v.fields[i]? = some f → f.isContainer = true →
          y0.2[i]? = some (value (containerFrom ty o))) :=
  (c93_enum (fun _ hs => enum_accepted h hw hT (.inl hs)) hu ht attributes a value ty o).1 y hy

/-- `enum E { A { #[deluxe(container)] c: C } }` -/
def containerEnum (item : Dict V) : EnumDef V :=
  ⟨[⟨txt "A", .named, (containerOnly item), [txt "a"], none, none, none, none⟩], none, none, []⟩

/-- C93: `#[e(a)]` is read as `A` holding the object. -/
example (item : Dict V) (value : Held (List Attr) → V) :
    (∀ site : Site V, site.obj.isSome = true → (containerEnum item).Accepted site) ∧
    (let o : List Attr := [⟨⟨false, [(txt "e", false)], 1⟩, .list .paren [.ident (txt "a") 2]⟩]
     ((containerEnum item).attrTarget [[txt "e"]]).parseAttributes HasAttrs.vec
        (fun o => value (containerFrom .ref o)) o = .ok (0, [value (.it o)])) :=
  ⟨fun site hs v hv _ => by
    simp only [containerEnum, List.mem_singleton] at hv
    subst hv
    exact ⟨fun f hf _ => .inr (by simp only [containerOnly, List.mem_singleton] at hf; subst hf; exact ⟨rfl, hs⟩),
      fun ht => (by cases ht), fun ht => (by cases ht), fun _ => rfl⟩, rfl⟩

/-- `struct S { #[deluxe(container)] c: C }` -/
def onlyContainer (item : Dict V) : StructDef V :=
  ⟨.named, containerOnly item, none, none, none, []⟩

/-- C93: it is read from an object without attributes, and holds the object. -/
example (item : Dict V) (value : Held (List Attr) → V) : (onlyContainer item).AttrAccepted ∧
    ((onlyContainer item).attrTarget [[txt "a"]]).parseAttributes HasAttrs.vec
        (fun o => value (containerFrom .ref o)) [] = .ok [value (.it [])] ∧
    ((onlyContainer item).attrTarget [[txt "a"]]).extractAttributes HasAttrs.vec
        (fun o => value (containerFromMut .option o)) [] = (.ok [value (.some [])], []) :=
  ⟨⟨fun f hf _ => .inr (.inr (by simp only [onlyContainer, containerOnly, List.mem_singleton] at hf; subst hf; rfl)),
    fun t ht => (by cases ht), fun ht => (by cases ht), fun hs => (by cases hs)⟩, rfl, by
      have ht : ∀ m, takeTokens m [] = ([], []) := fun m => by unfold takeTokens takeLoop; rfl
      unfold AttrTarget.extractAttributes
      simp only [HasAttrs.vec, ht]
      rfl⟩

/-- C93 does not hold for a container field with a mutable reference in the `ParseAttributes` derive: whatever the
attributes, a value could only be made with the result of a call that panics. -/
theorem c93_mut_violated {d : StructDef V} (ha : d.AttrAccepted)
    (hu : d.shape = .unit → d.fields = []) {i : Nat} {f : Field V} (hf : d.fields[i]? = some f)
    (hc : f.isContainer = true) (ht : f.transforms = []) (attributes : List (List Str)) (h : HasAttrs O)
    (value : Held O → V) {ty : ContainerTy} (hty : ty = .mut ∨ ty = .optionMut) (o : O) {vs : List V}
    (hvs : (d.attrTarget attributes).parseAttributes h (fun o => value (containerFrom ty o)) o = .ok vs) :
    ∃ vs0, runThens d.andThens vs0 = .ok vs ∧ vs0[i]? = some (value .unimplemented) := by
  rw [← (c93_held o ty).1.1 hty]
  exact (c93_struct ha hu hf hc ht attributes h value ty o).1 vs hvs

end

/-! ## C92 -/

/-- C92: in the `ParseMetaItem` derive a container field of a structure needs no `default`; in every way of reading
the structure, it gets the value of `#[deluxe(default)]`, also if the structure has a default of its own; with a
`default` at the field it gets the value of that. -/
theorem c92_struct {lib : SynLib} {d : StructIn} {r : StructDecl} (h : d.read lib = .ok r)
    (hw : ShapeFits d.shape d.fields) (hu : r.shape = .unit → r.fields = []) {sem : StructSem V}
    (hd : sem.Fits r.fields.length) {i : Nat} {f : FieldDecl} (hf : r.fields[i]? = some f) {c : ContainerD}
    (hc : f.container = some c) (hv : c.value = true) (ht : f.transforms = []) :
    (r.toMetaDef sem).dict.OkAll (fun vs => ∃ vs0, runThens (r.toMetaDef sem).andThens vs0 = .ok vs ∧
      vs0[i]? = some ((sem.field i).default (f.default.getD (.default c.span)))) := by
  have hfill : fillContainer f = { f with default := some (f.default.getD (.default c.span)) } := by
    unfold fillContainer
    cases hn : f.default with
    | none => simp [hc, hv]
    | some e =>
      obtain ⟨⟩ := f
      cases hn
      cases hc
      simp
  have hget : (r.toMetaDef sem).fields[i]? = some ((fillContainer f).toField (sem.field i)) := by
    simp [StructDecl.toMetaDef, StructDecl.toDef, hf]
  have hcont : ((fillContainer f).toField (sem.field i)).isContainer = true := by
    rw [hfill]
    simp [Field.isContainer, FieldDecl.toField, hc, hv]
  have hok := c37_struct (d := r.toMetaDef sem) (c69_struct_meta h hw hd).fields
    (fun hs => by
      have : r.fields = [] := hu hs
      simp [StructDecl.toMetaDef, StructDecl.toDef, this]) hget
    (by simp [Field.isParsable, hcont])
  have imp : ∀ vs, Unread (r.toMetaDef sem).data i ((fillContainer f).toField (sem.field i)) vs →
      vs[i]? = some ((sem.field i).default (f.default.getD (.default c.span))) := by
    intro vs hvs
    rw [hfill] at hvs
    rcases hvs with ⟨b, v, hb, hr, hv⟩ | ⟨-, hb, -⟩
    · rcases hb with ⟨-, hb⟩ | ⟨-, hb⟩
      · cases hb
      · simp only [FieldDecl.toField, ht, List.map_nil, runTransforms, Option.map_some, Except.ok.injEq,
          Option.some.injEq] at hb hr
        rw [hv, ← hr, ← hb]
    · cases hb
  exact ⟨fun m s v hv => (hok.parse m s v hv).imp fun _ h => ⟨h.1, imp _ h.2⟩,
    fun m s v hv => (hok.inline m s v hv).imp fun _ h => ⟨h.1, imp _ h.2⟩,
    fun sp v hv => (hok.flag sp v hv).imp fun _ h => ⟨h.1, imp _ h.2⟩,
    fun n sp s v hv => (hok.named n sp s v hv).imp fun _ h => ⟨h.1, imp _ h.2⟩⟩

/-- `#[deluxe(container)] c: C` -/
def containerIn : FieldIn := ⟨some (txt "c", 1), [deluxeList [.ident (txt "container") 2]]⟩

/-- C92: `struct S { #[deluxe(container)] c: C }` is such a structure. -/
example : ∃ r f c, StructIn.read demoLib ⟨.named, [containerIn], []⟩ = .ok r ∧ r.shape = .named ∧
    r.fields[0]? = some f ∧ f.container = some c ∧ c.value = true ∧ f.default = none ∧ f.transforms = [] ∧
    ∀ (sem : StructSem V), (r.toMetaDef sem).dict.flag 7 = .ok [(sem.field 0).default (.default c.span)] :=
  ⟨_, _, _, rfl, rfl, rfl, rfl, rfl, rfl, rfl, fun _ => rfl⟩

/-- C92 does not hold for enums: the attribute derives accept `enum E { A { #[deluxe(container)] c: C } }`, but
the `ParseMetaItem` derive asks for a `default` at the container field. -/
theorem c92_enum_violated : ∃ out out',
    deriveMacro demoLib .itself (.attrs .parse)
      (.ok (.enum ⟨[⟨(txt "A", 8), 8, .named, [containerIn], []⟩], []⟩)) = .ok out ∧ out.errors = [] ∧
    deriveMacro demoLib .itself .metaItem
      (.ok (.enum ⟨[⟨(txt "A", 8), 8, .named, [containerIn], []⟩], []⟩)) = .ok out' ∧
    out'.errors = [[⟨2, .custom (txt "derive(ParseMetaItem) requires container field to have `default`")⟩]] :=
  ⟨_, _, rfl, rfl, rfl, rfl⟩

end Deluxe
