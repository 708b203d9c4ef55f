import Verif.Props.SwitchOff
/-!
# C81 for enums

`flatten = false`, `transparent = false`, `skip = false` and `allow_unknown_fields = false` on variants,
`allow_unknown_fields = false` on the enum, and what is switched off on the fields of variants.
macros/types/variant.rs:37-54, 121-126, 523-665, macros/types/enum.rs:44-165, 189-225.
-/
namespace Deluxe

section
variable {V : Type}

/-- The variant without the attributes that are switched off. -/
def Variant.norm (v : Variant V) : Variant V :=
  { v with
    fields := v.fields.map Field.norm
    flatten := v.flatten.filter id
    transparent := v.transparent.filter id
    skip := v.skip.filter id
    allowUnknown := v.allowUnknown.filter id }

/-- The enum without the attributes that are switched off. -/
def EnumDef.norm (e : EnumDef V) : EnumDef V :=
  { e with variants := e.variants.map Variant.norm, allowUnknown := e.allowUnknown.filter id }

namespace Variant
variable (v : Variant V)

theorem norm_isFlatten : v.norm.isFlatten = v.isFlatten := filter_getD _
theorem norm_isSkipped : v.norm.isSkipped = v.isSkipped := filter_getD _
theorem norm_isTransparent : v.norm.isTransparent = v.isTransparent := filter_getD _
theorem norm_allow : v.norm.allowUnknown.getD false = v.allowUnknown.getD false := filter_getD _
theorem norm_fieldKey : v.norm.fieldKey = v.fieldKey := by
  simp only [fieldKey, norm, List.filterMap_map]
  congr 2
  funext f
  simp only [Function.comp, Field.norm_isFlat, Field.norm_isParsable]
  rfl
theorem norm_acceptsAll : v.norm.acceptsAll = v.acceptsAll := by
  simp only [acceptsAll, norm_allow]
  rw [show v.norm.fields = v.fields.map Field.norm from rfl, Field.acceptsAll_norm]

theorem norm_match {β : Type} (f : Field V) (a : Option Str → β) (b : β) :
    (match f.norm.flatten with | some ⟨true, p⟩ => a p | _ => b) =
      (match f.flatten with | some ⟨true, p⟩ => a p | _ => b) := by
  simp only [Field.norm]
  rcases f.flatten with _ | ⟨_ | _, _ | _⟩ <;> rfl

theorem norm_flatNames : v.norm.flatNames = v.flatNames := by
  simp only [flatNames, norm_isFlatten]
  rw [show v.norm.fields = v.fields.map Field.norm from rfl, List.map_map]
  congr 2
  funext f
  simp only [Function.comp, Field.norm]
  rcases f.flatten with _ | ⟨_ | _, _ | _⟩ <;> rfl

theorem norm_names : v.norm.names = v.names := by
  simp only [names, norm_isFlatten, norm_isSkipped]
  rw [show v.norm.fields = v.fields.map Field.norm from rfl, List.flatMap_map, List.flatMap_map]
  congr 2
  · congr 1
    funext f
    simp only [Field.norm]
    rcases f.flatten with _ | ⟨_ | _, _ | _⟩ <;> rfl
  · congr 1
    funext f
    simp only [Field.norm_isFlatten]
    rfl

theorem norm_data (site : Site V) (span : Span) : v.norm.data site span = (v.data site span).norm := by
  simp only [data, norm_isTransparent, norm_allow, Fields.norm]
  rfl

variable [Env]

theorem norm_inline (site : Site V) (pre : Str) (span : Span) (mode : Mode) :
    v.norm.inline site pre span mode = v.inline site pre span mode := by
  simp only [inline, norm_data, norm_acceptsAll]
  rw [show v.norm.fields = v.fields.map Field.norm from rfl, show v.norm.shape = v.shape from rfl]
  simp only [namedFlat_norm, unnamedFlat_norm, Field.fieldNames_norm]

theorem norm_parse (site : Site V) (pre : Str) (span : Span) (mode : Mode) :
    v.norm.parse site pre span mode = v.parse site pre span mode := by
  simp only [parse, norm_inline]
  rfl

theorem norm_flag (site : Site V) (pre : Str) (span : Span) :
    v.norm.flag site pre span = v.flag site pre span := by
  have ha : ((v.fields.map Field.norm).filter (·.isParsable)).all (fun f => f.isFlat || f.default.isSome) =
      (v.fields.filter (·.isParsable)).all (fun f => f.isFlat || f.default.isSome) := by
    rw [List.filter_map, List.all_map]
    have : ((fun f : Field V => f.isParsable) ∘ Field.norm) = fun f => f.isParsable := funext Field.norm_isParsable
    rw [this]
    congr 1
    funext f
    simp only [Function.comp, Field.norm_isFlat]
    rfl
  simp only [flag, norm_inline]
  rw [show v.norm.fields = v.fields.map Field.norm from rfl, show v.norm.shape = v.shape from rfl, ha]

omit [Env] in
theorem norm_transparentPost (site : Site V) (span : Span) (k : Nat) :
    v.norm.transparentPost site span k = v.transparentPost site span k := by
  funext r
  cases r with
  | ok x =>
    have h1 : (v.data site span).norm.init = (v.data site span).init := by simp [Fields.init, Fields.norm]
    have h2 : ∀ (fs : List (Field V)) (sts : Slots V),
        List.zipWith (containerSet (v.data site span).norm) (fs.map Field.norm) sts =
          List.zipWith (containerSet (v.data site span)) fs sts := by
      intro fs sts
      rw [List.zipWith_map_left]
      congr 1
      funext f st
      simp only [containerSet, Field.norm_isContainer, Fields.norm]
    simp only [transparentPost, norm_data]
    rw [show v.norm.fields = v.fields.map Field.norm from rfl]
    simp only [setPass_norm, h1, h2]
  | err e => rfl
  | panic => rfl

theorem norm_item (site : Site V) (pre p : Str) (span : Span) :
    v.norm.item site pre p span = v.item site pre p span := by
  have hp : (fun x : Field V × Nat => x.1.isParsable && !x.1.isFlat) ∘ (fun x : Field V × Nat => (x.1.norm, x.2)) =
      fun x => x.1.isParsable && !x.1.isFlat := by
    funext x
    simp only [Function.comp, Field.norm_isParsable, Field.norm_isFlat]
  have hf : (v.fields.map Field.norm).zipIdx.find? (fun x => x.1.isParsable && !x.1.isFlat) =
      (v.fields.zipIdx.find? fun x => x.1.isParsable && !x.1.isFlat).map fun x => (x.1.norm, x.2) := by
    rw [zipIdx_map_norm, List.find?_map, hp]
  have h1 : v.norm.parse site pre span = v.parse site pre span := funext fun m => v.norm_parse site pre span m
  have h2 : v.norm.inline site pre span = v.inline site pre span := funext fun m => v.norm_inline site pre span m
  simp only [item, norm_isTransparent, h1, h2, norm_flag, norm_transparentPost]
  rw [show v.norm.fields = v.fields.map Field.norm from rfl, hf]
  cases v.fields.zipIdx.find? fun x => x.1.isParsable && !x.1.isFlat with
  | none => rfl
  | some x => rfl
end Variant

theorem zipIdx_map_vnorm (vs : List (Variant V)) :
    (vs.map Variant.norm).zipIdx = vs.zipIdx.map fun x => (x.1.norm, x.2) := zipIdx_map' _ _ _

namespace EnumDef
variable (e : EnumDef V)

theorem norm_unknownOk : e.norm.unknownOk = e.unknownOk := filter_getD _
theorem norm_fieldNames : e.norm.fieldNames = e.fieldNames := by
  simp only [fieldNames, norm, List.flatMap_map]
  congr 1
  exact funext Variant.norm_names
theorem norm_acceptsAll : e.norm.acceptsAll = e.acceptsAll := by
  simp only [acceptsAll, norm_unknownOk]
  rw [show e.norm.variants = e.variants.map Variant.norm from rfl, List.any_map, List.any_map]
  congr 2
  · congr 1
    funext v
    simp only [Function.comp, Variant.norm_isSkipped, Variant.norm_isFlatten, Variant.norm_allow]
  · funext v
    simp only [Function.comp, Variant.norm_isFlatten]
    rw [show v.norm.fields = v.fields.map Field.norm from rfl, Field.acceptsAll_norm]
theorem norm_anyFlat : e.norm.anyFlat = e.anyFlat := by
  simp only [anyFlat]
  rw [show e.norm.variants = e.variants.map Variant.norm from rfl, List.any_map]
  congr 1
  funext v
  simp only [Function.comp, Variant.norm_isSkipped, Variant.norm_isFlatten]
theorem norm_keyMsgs : e.norm.keyMsgs = e.keyMsgs := by
  simp only [keyMsgs]
  rw [show e.norm.variants = e.variants.map Variant.norm from rfl, List.filter_map, List.map_map]
  have : ((fun v : Variant V => !v.isSkipped) ∘ Variant.norm) = fun v => !v.isSkipped := by
    funext v
    simp only [Function.comp, Variant.norm_isSkipped]
  rw [this]
  congr 1
  funext v
  simp only [Function.comp, Variant.norm_isFlatten, Variant.norm_fieldKey]
  rfl
end EnumDef

/-- The order of the keys does not depend on the values. -/
theorem btInsert_map {κ α β : Type} (cmp : κ → κ → Ordering) (f : α → β) (k : κ) (a : α) (l : List (κ × α)) :
    btInsert cmp k (f a) (l.map fun x => (x.1, f x.2)) = (btInsert cmp k a l).map fun x => (x.1, f x.2) := by
  induction l with
  | nil => rfl
  | cons x l ih =>
    simp only [List.map_cons, btInsert]
    split <;> simp_all

theorem btMap_map {κ α β : Type} (cmp : κ → κ → Ordering) (f : α → β) (l : List (κ × α)) :
    btMap cmp (l.map fun x => (x.1, f x.2)) = (btMap cmp l).map fun x => (x.1, f x.2) := by
  have h : ∀ (l : List (κ × α)) (m : List (κ × α)),
      (l.map fun x => (x.1, f x.2)).foldl (fun m x => btInsert cmp x.1 x.2 m) (m.map fun x => (x.1, f x.2)) =
        (l.foldl (fun m x => btInsert cmp x.1 x.2 m) m).map fun x => (x.1, f x.2) := by
    intro l
    induction l with
    | nil => intro m; rfl
    | cons x l ih => intro m; simp only [List.map_cons, List.foldl_cons, btInsert_map, ih]
  exact h l []

theorem EnumDef.norm_flatMatches (e : EnumDef V) :
    e.norm.flatMatches = e.flatMatches.map fun x => (x.1, (x.2.1.norm, x.2.2)) := by
  simp only [EnumDef.flatMatches]
  rw [show e.norm.variants = e.variants.map Variant.norm from rfl, zipIdx_map_vnorm, List.filter_map, List.map_map]
  have h1 : ((fun x : Variant V × Nat => !x.1.isSkipped && x.1.isFlatten) ∘ fun x : Variant V × Nat => (x.1.norm, x.2)) =
      fun x => !x.1.isSkipped && x.1.isFlatten := by
    funext x
    simp only [Function.comp, Variant.norm_isSkipped, Variant.norm_isFlatten]
  rw [h1, ← btMap_map cmpKey (fun x : Variant V × Nat => (x.1.norm, x.2)), List.map_map]
  congr 2
  funext x
  simp only [Function.comp, Variant.norm_fieldKey]

variable [Env]

omit [Env] in
theorem findVariant_norm (vs : List (Variant V)) (k : Str) :
    findVariant (vs.map Variant.norm) k = (findVariant vs k).map fun x => (x.1.norm, x.2) := by
  simp only [findVariant, zipIdx_map_vnorm, List.find?_map]
  congr 2
  funext x
  simp only [Function.comp, Variant.norm_isFlatten, Variant.norm_isSkipped]
  rfl

theorem enumStep_norm (e : EnumDef V) (site : Site V) (pre : Str) : enumStep e.norm site pre = enumStep e site pre := by
  funext p span st
  obtain ⟨acc, s⟩ := st
  simp only [enumStep, EnumDef.norm_anyFlat]
  rw [show e.norm.variants = e.variants.map Variant.norm from rfl]
  cases stripPrefix pre p with
  | none => rfl
  | some k =>
    simp only [Option.bind_some, findVariant_norm]
    cases findVariant e.variants k with
    | none => rfl
    | some x => simp only [Option.map_some, Variant.norm_item, Variant.norm_isTransparent]

theorem validatePass_norm (e : EnumDef V) (validate : Bool) (errs : Errors) (l : List Stream) :
    validatePass e.norm validate errs l = validatePass e validate errs l := by
  simp only [validatePass, EnumDef.norm_unknownOk, EnumDef.norm_fieldNames]

omit [Env] in
theorem otherFlatNames_norm (e : EnumDef V) (i : Option Nat) : otherFlatNames e.norm i = otherFlatNames e i := by
  simp only [otherFlatNames]
  rw [show e.norm.variants = e.variants.map Variant.norm from rfl, zipIdx_map_vnorm, List.flatMap_map]
  congr 1
  funext x
  simp only [Variant.norm_flatNames]

theorem flatBlock_norm (e : EnumDef V) (site : Site V) (pre : Str) (span : Span) (paths : PathMap) (v : Variant V)
    (i : Nat) (empty : Bool) (errs : Errors) (l : List Stream) :
    flatBlock e.norm site pre span paths v.norm i empty errs l = flatBlock e site pre span paths v i empty errs l := by
  have h1 : emptyCheck e.norm v.norm pre span errs l = emptyCheck e v pre span errs l := by
    simp only [emptyCheck, EnumDef.norm_keyMsgs]
    rw [show v.norm.fields = v.fields.map Field.norm from rfl, Field.fieldNames_norm]
  simp only [flatBlock, h1, Variant.norm_acceptsAll, Variant.norm_allow, Variant.norm_data, namedFlat_norm,
    EnumDef.norm_unknownOk, Variant.norm_flatNames, otherFlatNames_norm]
  rw [show v.norm.fields = v.fields.map Field.norm from rfl, Field.fieldNames_norm]
  rfl

theorem pickFlat_norm (e : EnumDef V) (site : Site V) (pre : Str) (span : Span) (validate : Bool) (paths : PathMap)
    (errs : Errors) (l : List Stream) :
    pickFlat e.norm site pre span validate paths errs l = pickFlat e site pre span validate paths errs l := by
  simp only [pickFlat, EnumDef.norm_flatMatches, List.find?_map, validatePass_norm, EnumDef.norm_keyMsgs]
  rw [show ((fun x : VKey × Variant V × Nat => !x.1.isEmpty && hasPaths paths x.1) ∘
      fun x : VKey × Variant V × Nat => (x.1, x.2.1.norm, x.2.2)) = fun x => !x.1.isEmpty && hasPaths paths x.1 from rfl,
    show ((fun x : VKey × Variant V × Nat => x.1.isEmpty) ∘
      fun x : VKey × Variant V × Nat => (x.1, x.2.1.norm, x.2.2)) = fun x => x.1.isEmpty from rfl]
  cases e.flatMatches.find? fun x => !x.1.isEmpty && hasPaths paths x.1 with
  | some x => exact flatBlock_norm ..
  | none =>
    cases e.flatMatches.find? fun x => x.1.isEmpty with
    | some x => exact flatBlock_norm ..
    | none => rfl

theorem pick_norm (e : EnumDef V) (site : Site V) (pre : Str) (span : Span) (validate : Bool) (st : EnumSt V)
    (errs : Errors) (l : List Stream) :
    pick e.norm site pre span validate st errs l = pick e site pre span validate st errs l := by
  simp only [pick, pickFlat_norm, validatePass_norm, otherFlatNames_norm, EnumDef.norm_anyFlat, EnumDef.norm_unknownOk]

theorem enumFlat_norm (e : EnumDef V) (site : Site V) (mode : Mode) (pre : Str) (validate : Bool) :
    enumFlat e.norm site mode pre validate = enumFlat e site mode pre validate := by
  funext l
  simp only [enumFlat, enumStep_norm, pick_norm, EnumDef.norm_anyFlat, EnumDef.norm_unknownOk]
  rfl

theorem EnumDef.norm_flatNamed (e : EnumDef V) : e.norm.flatNamed = e.flatNamed := by
  simp only [EnumDef.flatNamed, EnumDef.norm_fieldNames, enumFlat_norm]

theorem EnumDef.norm_flatUnnamed (e : EnumDef V) : e.norm.flatUnnamed = e.flatUnnamed := by
  simp only [EnumDef.flatUnnamed, EnumDef.norm_flatNamed]

theorem EnumDef.norm_dict (e : EnumDef V) : e.norm.dict = e.dict := by
  unfold EnumDef.dict
  rw [EnumDef.norm_flatNamed]
  rfl

theorem EnumDef.norm_attrBody (e : EnumDef V) : e.norm.attrBody = e.attrBody := by
  funext site mode
  simp only [EnumDef.attrBody, enumFlat_norm, EnumDef.norm_acceptsAll]

/-! ## In definitions -/

omit [Env] in
/-- The attribute is switched off. -/
def VariantAttr.off : VariantAttr → Bool
  | .transparent x | .flatten x => x.any fun b => !b.value
  | .skip x => !x.value
  | .allowUnknown x => !x
  | _ => false

omit [Env] in
/-- The attribute is switched off. -/
def EnumAttr.off : EnumAttr → Bool
  | .allowUnknown x => !x
  | _ => false

end

section
variable {V : Type} [Env]

/-- The two variants have the same name, fields and attributes, but in the second the attributes that are switched off
are left out. -/
structure VariantWithoutOff (lib : SynLib) (v w : VariantIn) : Prop where
  ident : v.ident = w.ident
  span : v.span = w.span
  shape : v.shape = w.shape
  length : v.fields.length = w.fields.length
  fields : ∀ (i : Nat) f g, v.fields[i]? = some f → w.fields[i]? = some g → WithoutOff lib f g
  attrs : ∃ ss ss' bs, ListStreams (deluxeAttrs v.attrs) ss ∧ ItemsAll VariantSeg ss bs ∧
    ListStreams (deluxeAttrs w.attrs) ss' ∧ ItemsAll VariantSeg ss' (bs.filter fun b => !b.off)

omit [Env] in
/-- The declaration without what is switched off. -/
def VariantDecl.norm (v : VariantDecl) : VariantDecl :=
  { v with
    fields := v.fields.map FieldDecl.norm
    flatten := v.flatten.filter id
    transparent := v.transparent.filter id
    skip := v.skip.filter (·.value)
    allowUnknown := v.allowUnknown.filter id }

omit [Env] in
theorem filter_map_value (o : Option (Spanned Bool)) :
    (o.filter (·.value)).map (·.value) = (o.map (·.value)).filter id := by
  rcases o with _ | ⟨_ | _, _⟩ <;> rfl

omit [Env] in
theorem declaredVariant_off {lib : SynLib} {v w : VariantIn} (hi : v.ident = w.ident) (hsp : v.span = w.span)
    (hsh : v.shape = w.shape) {ds : List FieldDecl} {bs : List VariantAttr} (hok : VariantListOk v ds bs) :
    declaredVariant lib w (ds.map FieldDecl.norm) (bs.filter fun b => !b.off) = (declaredVariant lib v ds bs).norm := by
  have h1 := findSome_off (get := VariantAttr.flatten?) (val := (·.value)) (off := VariantAttr.off)
    (key := VariantAttr.key) (name := "flatten") (by decide)
    (by intro b x h; cases b <;> simp_all [VariantAttr.flatten?, VariantAttr.key, VariantAttr.off]) bs hok.once
  have h2 := findSome_off (get := VariantAttr.transparent?) (val := (·.value)) (off := VariantAttr.off)
    (key := VariantAttr.key) (name := "transparent") (by decide)
    (by intro b x h; cases b <;> simp_all [VariantAttr.transparent?, VariantAttr.key, VariantAttr.off]) bs hok.once
  have h3 := findSome_off (get := VariantAttr.skip?) (val := (·.value)) (off := VariantAttr.off)
    (key := VariantAttr.key) (name := "skip") (by decide)
    (by intro b x h; cases b <;> simp_all [VariantAttr.skip?, VariantAttr.key, VariantAttr.off]) bs hok.once
  have h4 := findSome_off (get := VariantAttr.allowUnknown?) (val := id) (off := VariantAttr.off)
    (key := VariantAttr.key) (name := "allow_unknown_fields") (by decide)
    (by intro b x h; cases b <;> simp_all [VariantAttr.allowUnknown?, VariantAttr.key, VariantAttr.off]) bs hok.once
  have h5 := findSome_keep (get := VariantAttr.rename?) (off := VariantAttr.off)
    (by intro b h; cases b <;> simp_all [VariantAttr.rename?, VariantAttr.off]) bs
  have h6 := filterMap_off (get := VariantAttr.alias?) (off := VariantAttr.off)
    (by intro b h; cases b <;> simp_all [VariantAttr.alias?, VariantAttr.off]) bs
  have h7 : (ds.map FieldDecl.norm).map withSkipDefault = (ds.map withSkipDefault).map FieldDecl.norm := by
    simp only [List.map_map]
    apply List.map_congr_left
    intro x _
    exact FieldDecl.norm_withSkipDefault x
  simp only [declaredVariant, VariantDecl.norm, h1, h2, h3, h4, h5, h6, h7, hi, hsp, hsh, filter_map_value, filter_getD]

/-- C81: if a variant is accepted, it is also accepted without the attributes that are switched off, and declares the
same apart from them. -/
theorem c81_variant {lib : SynLib} {v w : VariantIn} (h : VariantWithoutOff lib v w) {r : VariantDecl}
    (hr : v.read lib = .ok r) : w.read lib = .ok r.norm := by
  obtain ⟨ss, ss', bs, h1, h2, h3, h4⟩ := h.attrs
  obtain ⟨ds, hf, hok, hown, hcompat, hc, hd, rfl⟩ := (c48_variant h1 h2 r).1 hr
  have hs : (bs.filter fun b => !b.off).Sublist bs := List.filter_sublist
  have hk := (hs.map VariantAttr.key).subset
  refine (c48_variant h3 h4 _).2 ⟨ds.map FieldDecl.norm, fields_off _ _ h.length h.fields ds hf, ?_, ?_, ?_, ?_, ?_,
    (declaredVariant_off h.ident h.span h.shape hok).symm⟩
  · refine ⟨hok.once.sublist ((hs.map _).filter _), fun hx hm => hok.tuple (h.shape ▸ hx) (hk hm), fun hm => ?_,
      hok.names.sublist ((hs.filterMap _).map _), fun b hb n hn => h.ident ▸ hok.own b (hs.subset hb) n hn⟩
    obtain ⟨f, hp, ha, hb⟩ := hok.transparent (hk hm)
    refine ⟨f.norm, ?_, by rw [FieldDecl.norm_isFlatten, ha], by rw [FieldDecl.norm_isAppend, hb]⟩
    rw [List.filter_map]
    have : ((fun f : FieldDecl => f.isParsable) ∘ FieldDecl.norm) = fun f => f.isParsable :=
      funext FieldDecl.norm_isParsable
    rw [this, hp]
    rfl
  · intro hr hfl
    rw [← h.ident]
    have h5 := findSome_keep (get := VariantAttr.rename?) (off := VariantAttr.off)
      (by intro b h; cases b <;> simp_all [VariantAttr.rename?, VariantAttr.off]) bs
    have h6 := findSome_off (get := VariantAttr.flatten?) (val := (·.value)) (off := VariantAttr.off)
      (key := VariantAttr.key) (name := "flatten") (by decide)
      (by intro b x h; cases b <;> simp_all [VariantAttr.flatten?, VariantAttr.key, VariantAttr.off]) bs hok.once
    refine hown (h5 ▸ hr) fun hx => hfl ?_
    rw [h6, filter_map_value, hx]
    rfl
  · intro hx
    have h6 := findSome_off (get := VariantAttr.flatten?) (val := (·.value)) (off := VariantAttr.off)
      (key := VariantAttr.key) (name := "flatten") (by decide)
      (by intro b x h; cases b <;> simp_all [VariantAttr.flatten?, VariantAttr.key, VariantAttr.off]) bs hok.once
    rw [h6] at hx
    have : (bs.findSome? VariantAttr.flatten?).isSome = true := by
      cases hy : bs.findSome? VariantAttr.flatten? with
      | none => rw [hy] at hx; cases hx
      | some y => rfl
    have hz := hcompat this
    have hq := hs.filterMap VariantAttr.name?
    rw [hz] at hq
    exact List.sublist_nil.1 hq
  · refine Nat.le_trans ?_ hc
    simp only [VariantDecl.norm]
    rw [List.filter_map, List.length_map]
    rw [← List.countP_eq_length_filter, ← List.countP_eq_length_filter]
    refine List.countP_mono_left fun f _ hx => ?_
    simp only [Function.comp, FieldDecl.norm] at hx
    revert hx
    cases f.container <;> simp
  · intro hx
    have := hd (h.shape ▸ hx)
    simp only [VariantDecl.norm, DefaultsLast, List.pairwise_map]
    refine this.imp ?_
    intro f g hfg a b c
    simp only [FieldDecl.takesItem, FieldDecl.norm_isParsable, FieldDecl.norm_isFlat] at a b
    exact hfg a b c

/-! ## Enums -/

omit [Env] in
/-- The enum without what is switched off. -/
def EnumDecl.norm (e : EnumDecl) : EnumDecl :=
  { e with variants := e.variants.map VariantDecl.norm, allowUnknown := e.allowUnknown.filter id }

omit [Env] in
theorem VariantDecl.norm_toVariant (v : VariantDecl) (sem : Nat → FieldSem V) :
    v.norm.toVariant sem = (v.toVariant sem).norm := by
  simp only [VariantDecl.toVariant, VariantDecl.norm, Variant.norm, zipIdx_map', List.map_map, filter_map_value]
  congr 1
  apply List.map_congr_left
  intro x _
  exact FieldDecl.norm_toField _ _

omit [Env] in
theorem EnumDecl.norm_toDef (e : EnumDecl) (sem : EnumSem V) : e.norm.toDef sem = (e.toDef sem).norm := by
  simp only [EnumDecl.toDef, EnumDecl.norm, EnumDef.norm, zipIdx_map', List.map_map]
  congr 1
  apply List.map_congr_left
  intro x _
  exact VariantDecl.norm_toVariant _ _

omit [Env] in
theorem EnumDecl.norm_metaCheck (e : EnumDecl) (errs : Errors) : e.norm.metaCheck errs = e.metaCheck errs := by
  simp only [EnumDecl.metaCheck, EnumDecl.norm, VariantDecl.norm, List.foldl_map]
  congr 1
  funext errs v
  congr 1
  funext errs f
  simp only [FieldDecl.norm_isContainer]
  rcases hc : f.container with _ | c
  · simp [FieldDecl.norm, hc]
  · cases hv : c.value <;> simp [FieldDecl.norm, FieldDecl.isContainer, hc, hv, Option.filter]

/-- The two enums have the same variants and attributes, but in the second the attributes that are switched off are
left out. -/
structure EnumWithoutOff (lib : SynLib) (d e : EnumIn) : Prop where
  length : d.variants.length = e.variants.length
  variants : ∀ (i : Nat) v w, d.variants[i]? = some v → e.variants[i]? = some w → VariantWithoutOff lib v w
  attrs : ∃ ss ss' bs, ListStreams (deluxeAttrs d.attrs) ss ∧ ItemsAll (EnumDefSeg lib) ss bs ∧
    ListStreams (deluxeAttrs e.attrs) ss' ∧ ItemsAll (EnumDefSeg lib) ss' (bs.filter fun b => !b.off)

theorem variants_off {lib : SynLib} (vs ws : List VariantIn) (hl : vs.length = ws.length)
    (h : ∀ (i : Nat) v w, vs[i]? = some v → ws[i]? = some w → VariantWithoutOff lib v w) (ds : List VariantDecl)
    (hr : vs.map (VariantIn.read lib) = ds.map .ok) :
    ws.map (VariantIn.read lib) = (ds.map VariantDecl.norm).map .ok := by
  induction vs generalizing ws ds with
  | nil =>
    cases ws with
    | nil =>
      cases ds with
      | nil => rfl
      | cons => cases hr
    | cons => cases hl
  | cons v vs ih =>
    cases ws with
    | nil => cases hl
    | cons w ws =>
      cases ds with
      | nil => cases hr
      | cons d ds =>
        simp only [List.map_cons, List.cons.injEq] at hr ⊢
        exact ⟨c81_variant (h 0 v w rfl rfl) hr.1,
          by simpa using ih ws (Nat.succ.inj hl) (fun i => h (i + 1)) ds hr.2⟩

omit [Env] in
theorem VariantDecl.norm_isFlatten (v : VariantDecl) : v.norm.isFlatten = v.isFlatten := filter_getD _

omit [Env] in
theorem VariantDecl.norm_required (v : VariantDecl) : v.norm.required = v.required.map FieldDecl.norm := by
  simp only [VariantDecl.required, VariantDecl.norm, List.filter_map]
  congr 2
  funext f
  simp only [Function.comp, FieldDecl.norm_isFlat, FieldDecl.norm_isParsable]
  rfl

omit [Env] in
theorem VariantDecl.norm_hasContainer (v : VariantDecl) (c : ContainerD) : v.norm.HasContainer c ↔ v.HasContainer c := by
  have h : ∀ fs : List FieldDecl, ((fs.map FieldDecl.norm).filterMap (·.container)).find? (·.value) =
      (fs.filterMap (·.container)).find? (·.value) := by
    intro fs
    induction fs with
    | nil => rfl
    | cons f fs ih =>
      rw [List.map_cons, List.filterMap_cons, List.filterMap_cons]
      rcases hc : f.container with _ | c
      · simpa [FieldDecl.norm, hc] using ih
      · cases hv : c.value with
        | true => simp [FieldDecl.norm, hc, hv, Option.filter]
        | false => simpa [FieldDecl.norm, hc, hv, Option.filter] using ih
  simp only [VariantDecl.HasContainer, VariantDecl.norm, h]

omit [Env] in
theorem sameRequired_norm (fs gs : List FieldDecl) :
    SameRequired (fs.map FieldDecl.norm) (gs.map FieldDecl.norm) ↔ SameRequired fs gs := by
  have h : ∀ (gs : List FieldDecl) (p : FieldDecl → Prop), (∃ g ∈ gs.map FieldDecl.norm, p g) ↔ ∃ g ∈ gs, p g.norm := by
    intro gs p
    constructor
    · rintro ⟨g, hg, hp⟩
      obtain ⟨k, hk, rfl⟩ := List.mem_map.1 hg
      exact ⟨k, hk, hp⟩
    · rintro ⟨k, hk, hp⟩
      exact ⟨_, List.mem_map_of_mem hk, hp⟩
  simp only [SameRequired, List.forall_mem_map, h]
  rfl

omit [Env] in
theorem variantsOk_norm {vs : List VariantDecl} {b : Bool} (h : VariantsOk vs b) :
    VariantsOk (vs.map VariantDecl.norm) b := by
  refine ⟨?_, ?_, ?_, ?_, ?_, ?_⟩
  · have : variantNames (vs.map VariantDecl.norm) = variantNames vs := by
      simp only [variantNames, List.filter_map, List.flatMap_map]
      have : ((fun v : VariantDecl => !v.isFlatten) ∘ VariantDecl.norm) = fun v => !v.isFlatten := by
        funext v
        simp only [Function.comp, VariantDecl.norm_isFlatten]
      rw [this]
      rfl
    rw [this]
    exact h.names
  · rw [List.pairwise_map]
    refine h.container.imp fun {v w} hvw b c hb hc => ?_
    exact hvw b c ((VariantDecl.norm_hasContainer v b).1 hb) ((VariantDecl.norm_hasContainer w c).1 hc)
  · intro v hv hf
    obtain ⟨u, hu, rfl⟩ := List.mem_map.1 hv
    exact h.flatNamed u hu (u.norm_isFlatten ▸ hf)
  · rw [List.pairwise_map]
    refine h.flatKeys.imp fun {v w} hvw hv hw => ?_
    rw [VariantDecl.norm_required, VariantDecl.norm_required, sameRequired_norm]
    exact hvw (v.norm_isFlatten ▸ hv) (w.norm_isFlatten ▸ hw)
  · intro v hv hf w hw hfw
    obtain ⟨u, hu, rfl⟩ := List.mem_map.1 hv
    obtain ⟨x, hx, rfl⟩ := List.mem_map.1 hw
    rw [VariantDecl.norm_required]
    rintro ⟨h1, h2⟩
    refine h.flatNames u hu (u.norm_isFlatten ▸ hf) x hx (x.norm_isFlatten ▸ hfw) ⟨fun h3 => h1 (by rw [h3]; rfl), ?_⟩
    intro f hf y
    exact h2 f.norm (List.mem_map_of_mem hf) y
  · intro hb v hv hf
    obtain ⟨u, hu, rfl⟩ := List.mem_map.1 hv
    rw [VariantDecl.norm_required]
    intro h3
    exact h.default hb u hu (u.norm_isFlatten ▸ hf) (List.map_eq_nil_iff.1 h3)

omit [Env] in
theorem declaredEnum_off {vs : List VariantDecl} {bs : List EnumAttr} (hok : EnumListOk bs) :
    declaredEnum (vs.map VariantDecl.norm) (bs.filter fun b => !b.off) = (declaredEnum vs bs).norm := by
  have h1 := findSome_off (get := EnumAttr.allowUnknown?) (val := id) (off := EnumAttr.off)
    (key := EnumAttr.key) (name := "allow_unknown_fields") (by decide)
    (by intro b x h; cases b <;> simp_all [EnumAttr.allowUnknown?, EnumAttr.key, EnumAttr.off]) bs hok
  have h2 := findSome_keep (get := EnumAttr.default?) (off := EnumAttr.off)
    (by intro b h; cases b <;> simp_all [EnumAttr.default?, EnumAttr.off]) bs
  have h3 := findSome_keep (get := EnumAttr.crate?) (off := EnumAttr.off)
    (by intro b h; cases b <;> simp_all [EnumAttr.crate?, EnumAttr.off]) bs
  have h4 := filterMap_off (get := EnumAttr.andThen?) (off := EnumAttr.off)
    (by intro b h; cases b <;> simp_all [EnumAttr.andThen?, EnumAttr.off]) bs
  have h5 : (bs.filter fun b => !b.off).flatMap EnumAttr.paths = bs.flatMap EnumAttr.paths := by
    clear h1 h2 h3 h4 hok
    induction bs with
    | nil => rfl
    | cons b bs ih =>
      rw [List.filter_cons, List.flatMap_cons]
      have hb : b.off = true → b.paths = [] := by cases b <;> simp [EnumAttr.off, EnumAttr.paths]
      cases ho : b.off with
      | true => rw [hb ho]; exact ih
      | false => simp only [Bool.not_false, if_true, List.flatMap_cons, ih]
  simp only [declaredEnum, EnumDecl.norm, h1, h2, h3, h4, h5]

/-- C81: if an enum is accepted, it is also accepted without the attributes that are switched off, in it, in its
variants and in their fields, and then it is parsed in the same way: as a value, flattened into a structure, and from
attributes; the `ParseMetaItem` derive reports the same of its container fields.  The full claim would be an
equivalence; it is violated, see `c81_variant_violated`. -/
theorem c81_enum_partial {lib : SynLib} {d e : EnumIn} (h : EnumWithoutOff lib d e) {r : EnumDecl}
    (hr : d.read lib = .ok r) (sem : EnumSem V) :
    ∃ q, e.read lib = .ok q ∧ (q.toDef sem).dict = (r.toDef sem).dict ∧
      (q.toDef sem).flatNamed = (r.toDef sem).flatNamed ∧
      (q.toDef sem).flatUnnamed = (r.toDef sem).flatUnnamed ∧
      (q.toDef sem).attrBody = (r.toDef sem).attrBody ∧
      ∀ errs, q.metaCheck errs = r.metaCheck errs := by
  obtain ⟨ss, ss', bs, h1, h2, h3, h4⟩ := h.attrs
  obtain ⟨vs, hv, hok, hvs, rfl⟩ := (c68_enum h1 h2 r).1 hr
  refine ⟨(declaredEnum vs bs).norm, (c68_enum h3 h4 _).2 ⟨vs.map VariantDecl.norm,
    variants_off _ _ h.length h.variants vs hv, ?_, variantsOk_norm hvs, (declaredEnum_off hok).symm⟩, ?_, ?_, ?_, ?_, ?_⟩
  · exact List.Nodup.sublist ((List.filter_sublist.map _).filter _) hok
  · rw [EnumDecl.norm_toDef, EnumDef.norm_dict]
  · rw [EnumDecl.norm_toDef, EnumDef.norm_flatNamed]
  · rw [EnumDecl.norm_toDef, EnumDef.norm_flatUnnamed]
  · rw [EnumDecl.norm_toDef, EnumDef.norm_attrBody]
  · exact fun errs => EnumDecl.norm_metaCheck _ errs

/-! ## Where it is not so -/

/-- `#[deluxe(flatten = false, rename = b)] A` -/
def variantOff : VariantIn :=
  ⟨(txt "A", 9), 9, .unit, [], [deluxeList (.ident (txt "flatten") 2 :: offToks 3 ++
    [.punct ',' false 4, .ident (txt "rename") 5, .punct '=' false 6, .ident (txt "b") 7])]⟩

/-- C81 is violated by variants as by fields: `#[deluxe(rename = b)] A` is accepted,
`#[deluxe(flatten = false, rename = b)] A` is not. -/
theorem c81_variant_violated :
    (∃ d, VariantIn.read demoLib ⟨(txt "A", 9), 9, .unit, [], [deluxeList [.ident (txt "rename") 5,
      .punct '=' false 6, .ident (txt "b") 7]]⟩ = .ok d) ∧
    ∀ d, VariantIn.read demoLib variantOff ≠ .ok d := by
  refine ⟨⟨_, rfl⟩, fun d hd => ?_⟩
  have hf : ∃ x : Spanned Bool, ReadsFully ((optionDict (spannedDict boolDict)).named (txt "flatten") 2) (offToks 3)
      [.punct ',' false 4, .ident (txt "rename") 5, .punct '=' false 6, .ident (txt "b") 7] callSite (some x) :=
    ⟨⟨false, (Env.join 4 3).getD 3⟩, fun u => rfl⟩
  obtain ⟨x, hx⟩ := hf
  obtain ⟨ds, -, -, -, hc, -⟩ := (c48_variant (v := variantOff) (bs := [.flatten (some x), .rename 5 (txt "b", 7)])
    (.list .nil) (.cons (bs := [_, _])
      (.cons (v := .ident (txt "flatten") 2 :: offToks 3) (c := .punct ',' false 4) ⟨false, 4, rfl⟩
        (.flatten (.mk (pt := [.ident (txt "flatten") 2]) (.plain (.one _ _)) (by simp [StartsColon2])) hx)
        (.last (by simp) (.rename (sp := 5) (vt := [.punct '=' false 6, .ident (txt "b") 7])
          (.mk (pt := [.ident (txt "rename") 5]) (.plain (.one _ _)) (by simp [StartsColon2])) fun u => rfl))) .nil) d).1 hd
  exact absurd (hc rfl) (by simp [VariantAttr.name?])

/-- C81: `c81_enum_partial` applies to
`#[deluxe(allow_unknown_fields = false)] enum E { #[deluxe(allow_unknown_fields = false)] A { #[deluxe(flatten = false)] a: T }, B }`,
which is accepted, and `enum E { A { a: T }, B }`. -/
example : EnumWithoutOff demoLib
      ⟨[⟨(txt "A", 9), 9, .named, [flatOff "a" 1], [deluxeList (.ident (txt "allow_unknown_fields") 10 :: offToks 11)]⟩,
        ⟨(txt "B", 20), 20, .unit, [], []⟩], [deluxeList (.ident (txt "allow_unknown_fields") 6 :: offToks 7)]⟩
      ⟨[⟨(txt "A", 9), 9, .named, [plainIn "a" 1], []⟩, ⟨(txt "B", 20), 20, .unit, [], []⟩], []⟩ ∧
    ∃ r, EnumIn.read demoLib
      ⟨[⟨(txt "A", 9), 9, .named, [flatOff "a" 1], [deluxeList (.ident (txt "allow_unknown_fields") 10 :: offToks 11)]⟩,
        ⟨(txt "B", 20), 20, .unit, [], []⟩], [deluxeList (.ident (txt "allow_unknown_fields") 6 :: offToks 7)]⟩ = .ok r := by
  refine ⟨⟨rfl, ?_, _, _, [.allowUnknown false], .list .nil, .cons (bs := [_]) (.last (by simp) ?_) .nil, .nil, .nil⟩,
    _, rfl⟩
  · intro i v w hv hw
    match i with
    | 0 =>
      cases hv; cases hw
      refine ⟨rfl, rfl, rfl, rfl, ?_, _, _, [.allowUnknown false], .list .nil, .cons (bs := [_]) (.last (by simp) ?_) .nil,
        .nil, .nil⟩
      · intro i f g hf hg
        match i with
        | 0 =>
          cases hf; cases hg
          refine ⟨rfl, _, _, [.flatten ⟨3, false, none⟩], .list .nil, .cons (bs := [_]) (.last (by simp) ?_) .nil, .nil, .nil⟩
          exact .flatten (sp := 2) (vt := offToks 3) (.mk (pt := [.ident (txt "flatten") 2]) (.plain (.one _ _))
            (by simp [StartsColon2])) fun u => rfl
        | i + 1 => cases hf
      · exact .allowUnknown (sp := 10) (vt := offToks 11) (.mk (pt := [.ident (txt "allow_unknown_fields") 10])
          (.plain (.one _ _)) (by simp [StartsColon2])) fun u => rfl
    | 1 => cases hv; cases hw; exact ⟨rfl, rfl, rfl, rfl, (by intro i f g hf; cases hf), _, _, [], .nil, .nil, .nil, .nil⟩
    | i + 2 => cases hv
  · exact .allowUnknown (sp := 6) (vt := offToks 7) (.mk (pt := [.ident (txt "allow_unknown_fields") 6])
      (.plain (.one _ _)) (by simp [StartsColon2])) fun u => rfl

end
end Deluxe
