import Verif.Props.DefFields
import Verif.Props.Defs
/-!
# C81: an attribute that is switched off is as if it was not there

`flatten = false`, `append = false`, `rest = false`, `container = false`, `skip = false`, `transparent = false`.
macros/types/field.rs:252-264, 1182-1189, macros/types/struct.rs:117-127, 426-446, 530-536.
-/
namespace Deluxe

section
variable {V : Type}

/-- The field without the attributes that are switched off. -/
def Field.norm (f : Field V) : Field V :=
  { f with
    flatten := f.flatten.filter (·.value)
    append := f.append.filter id
    rest := f.rest.filter id
    container := f.container.filter id
    skip := f.skip.filter id }

theorem filter_getD (o : Option Bool) : (o.filter id).getD false = o.getD false := by
  rcases o with _ | _ | _ <;> rfl

namespace Field
variable (f : Field V)

theorem norm_isFlatten : f.norm.isFlatten = f.isFlatten := by
  simp only [isFlatten, norm]
  rcases f.flatten with _ | ⟨_ | _, _⟩ <;> rfl

theorem norm_append : f.norm.append.getD false = f.append.getD false := filter_getD _
theorem norm_rest : f.norm.rest.getD false = f.rest.getD false := filter_getD _
theorem norm_isFlat : f.norm.isFlat = f.isFlat := by simp only [isFlat, norm_isFlatten, norm_append, norm_rest]
theorem norm_isContainer : f.norm.isContainer = f.isContainer := filter_getD _
theorem norm_isParsable : f.norm.isParsable = f.isParsable := by
  simp only [isParsable, norm_isContainer]
  rw [show f.norm.skip.getD false = f.skip.getD false from filter_getD _]
theorem norm_flatParsable : f.norm.flatParsable = f.flatParsable := by
  simp only [flatParsable, norm_isFlat, norm_isParsable]
theorem norm_matchesKey (k : Str) : f.norm.matchesKey k = f.matchesKey k := by
  simp only [matchesKey, norm_isFlat, norm_isParsable]; rfl
theorem norm_names : f.norm.names = f.names := by
  simp only [names, norm]
  rcases f.flatten with _ | ⟨_ | _, _ | _⟩ <;> rfl
theorem norm_flatCall (h : f.isFlat = true) (pre : Str) (span : Span) (allowed : List Str) :
    f.norm.flatCall pre span allowed = f.flatCall pre span allowed := by
  simp only [flatCall, norm_append, norm_rest]
  simp only [isFlat, Bool.or_eq_true] at h
  split
  · rfl
  · split
    · rfl
    · rename_i h1 h2
      have h3 : f.isFlatten = true := by
        rcases h with (h | h) | h
        · exact h
        · exact absurd h h1
        · exact absurd h h2
      have : f.norm.flatten = f.flatten := by
        simp only [isFlatten] at h3
        simp only [norm]
        rcases hf : f.flatten with _ | ⟨_ | _, _⟩ <;> rw [hf] at h3
        · cases h3
        · cases h3
        · rfl
      rw [this]
      rfl
theorem norm_set (st : FieldStatus V) (errs : Errors) : f.norm.set st errs = f.set st errs := rfl

theorem any_norm (fs : List (Field V)) : (fs.map norm).any (·.flatParsable) = fs.any (·.flatParsable) := by
  rw [List.any_map]
  congr 1
  funext f
  exact f.norm_flatParsable

theorem fieldNames_norm (fs : List (Field V)) : fieldNames (fs.map norm) = fieldNames fs := by
  simp only [fieldNames, List.filter_map, List.flatMap_map]
  have : ((fun f : Field V => f.isParsable) ∘ norm) = fun f => f.isParsable := funext norm_isParsable
  rw [this]
  congr 1
  exact funext norm_names

theorem acceptsAll_norm (fs : List (Field V)) : acceptsAll (fs.map norm) = acceptsAll fs := by
  simp only [acceptsAll, List.any_map]
  congr 1
  · congr 1
    exact funext norm_rest
  · congr 1
    funext f
    simp only [Function.comp, norm_isFlatten]
    rfl
end Field

variable [Env]

/-- A list of fields without the attributes that are switched off. -/
def Fields.norm (d : Fields V) : Fields V := { d with fields := d.fields.map Field.norm }

omit [Env] in
theorem zipIdx_map_norm (fs : List (Field V)) (n : Nat) :
    (fs.map Field.norm).zipIdx n = (fs.zipIdx n).map fun x => (x.1.norm, x.2) := by
  induction fs generalizing n with
  | nil => rfl
  | cons f fs ih => simp only [List.map_cons, List.zipIdx_cons, ih]

omit [Env] in
theorem findArm_norm (fs : List (Field V)) (k : Str) :
    findArm (fs.map Field.norm) k = (findArm fs k).map fun x => (x.1.norm, x.2) := by
  simp only [findArm, zipIdx_map_norm, List.find?_map]
  congr 2
  funext x
  exact x.1.norm_matchesKey k

theorem namedStep_norm (d : Fields V) (allowed : List Str) (pre : Str) (validate : Bool) :
    namedStep d.norm allowed pre validate = namedStep d allowed pre validate := by
  funext p span st
  obtain ⟨acc, s⟩ := st
  simp only [namedStep, Fields.norm]
  cases stripPrefix pre p with
  | none => rfl
  | some k =>
    simp only [Option.bind_some, findArm_norm]
    cases findArm d.fields k with
    | none => rfl
    | some x => rfl

omit [Env] in
theorem flatPass_norm (pre : Str) (span : Span) (allowed : List Str) (fs : List (Field V)) (sts : Slots V) (errs : Errors)
    (l : List Stream) :
    flatPass pre span allowed (fs.map Field.norm) sts errs l = flatPass pre span allowed fs sts errs l := by
  induction fs generalizing sts errs l with
  | nil => simp only [List.map_nil, flatPass]
  | cons f fs ih =>
    cases sts with
    | nil => simp only [List.map_cons, flatPass]
    | cons st sts =>
      simp only [List.map_cons, flatPass, Field.norm_flatParsable, Field.any_norm]
      split
      · rename_i h
        have h' : f.isFlat = true := ((flatParsable_iff f).1 h).1
        rw [f.norm_flatCall h']
        simp only [ih]
      · simp only [ih]

omit [Env] in
theorem missingPass_norm (d : Fields V) (pre : Str) (span : Span) (fs : List (Field V)) (sts : Slots V) (errs : Errors) :
    missingPass d.norm pre span (fs.map Field.norm) sts errs = missingPass d pre span fs sts errs := by
  induction fs generalizing sts errs with
  | nil => simp only [List.map_nil, missingPass]
  | cons f fs ih =>
    cases sts with
    | nil => simp only [List.map_cons, missingPass]
    | cons st sts =>
      have h1 : ∀ st, containerSet d.norm f.norm st = containerSet d f st := by
        intro st
        simp only [containerSet, Field.norm_isContainer, Fields.norm]
      have h2 : ∀ st, missingNamed d.norm pre span f.norm st errs = missingNamed d pre span f st errs := by
        intro st
        simp only [missingNamed, Field.norm_isContainer, Field.norm_isFlat]
        rfl
      simp only [List.map_cons, missingPass, h1, h2, ih]

omit [Env] in
theorem setPass_norm (fs : List (Field V)) (sts : Slots V) (errs : Errors) :
    setPass (fs.map Field.norm) sts errs = setPass fs sts errs := by
  induction fs generalizing sts errs with
  | nil => rfl
  | cons f fs ih =>
    cases sts with
    | nil => rfl
    | cons st sts =>
      simp only [List.map_cons, setPass, Field.norm_set, ih]

theorem namedFlat_norm (d : Fields V) (allowed : List Str) (mode : Mode) (pre : Str) (validate : Bool) :
    namedFlat d.norm allowed mode pre validate = namedFlat d allowed mode pre validate := by
  funext l
  have h1 : d.norm.init = d.init := by simp [Fields.init, Fields.norm]
  have h2 : ∀ sp slots errs, postNamed d.norm pre sp slots errs = postNamed d pre sp slots errs := by
    intro sp slots errs
    have h3 : ∀ slots errs, finish d.norm slots errs = finish d slots errs := fun _ _ => rfl
    simp only [postNamed]
    rw [show d.norm.fields = d.fields.map Field.norm from rfl, missingPass_norm]
    simp only [setPass_norm, h3]
  simp only [namedFlat, namedStep_norm, h1, h2]
  rw [show d.norm.fields = d.fields.map Field.norm from rfl]
  simp only [Field.any_norm, flatPass_norm]

/-! ## Tuple structures -/

omit [Env] in
theorem nthArm_norm (fs : List (Field V)) (i : Nat) :
    nthArm (fs.map Field.norm) i = (nthArm fs i).map fun x => (x.1.norm, x.2) := by
  simp only [nthArm, zipIdx_map_norm, List.filter_map, List.getElem?_map]
  congr 3
  funext x
  simp only [Function.comp, Field.norm_isParsable, Field.norm_append, Field.norm_rest]

omit [Env] in
theorem unnamedCall_norm (f : Field V) (index : Nat) : unnamedCall f.norm index = unnamedCall f index := by
  funext l
  simp only [unnamedCall, Field.norm_isFlat]
  rfl

omit [Env] in
theorem unnamedStep_norm (d : Fields V) : unnamedStep d.norm = unnamedStep d := by
  funext i st
  obtain ⟨acc, l⟩ := st
  have h : ∀ f index, tupleIncrement d.norm f.norm index = tupleIncrement d f index := by
    intro f index
    simp only [tupleIncrement, Fields.norm, Field.any_norm, Field.norm_isFlat]
    rfl
  simp only [unnamedStep]
  rw [show d.norm.fields = d.fields.map Field.norm from rfl, nthArm_norm]
  cases nthArm d.fields i with
  | none => rfl
  | some x => simp only [Option.map_some, h, unnamedCall_norm]

theorem missingUnnamed_norm (d : Fields V) (mode : Mode) (l : List Stream) (fs : List (Field V)) (sts : Slots V)
    (errs : Errors) (index cur extra : Nat) :
    missingUnnamed d.norm mode l (fs.map Field.norm) sts errs index cur extra =
      missingUnnamed d mode l fs sts errs index cur extra := by
  induction fs generalizing sts errs index cur extra with
  | nil => simp only [List.map_nil, missingUnnamed]
  | cons f fs ih =>
    cases sts with
    | nil => simp only [List.map_cons, missingUnnamed]
    | cons st sts =>
      have h1 : containerSet d.norm f.norm st = containerSet d f st := by
        simp only [containerSet, Field.norm_isContainer, Fields.norm]
      simp only [List.map_cons, missingUnnamed, h1, ih, Field.norm_isContainer, Field.norm_isFlat, Field.norm_isFlatten]
      rfl

theorem unnamedFlat_norm (d : Fields V) (mode : Mode) (index : Nat) : unnamedFlat d.norm mode index = unnamedFlat d mode index := by
  funext l
  have h1 : d.norm.init = d.init := by simp [Fields.init, Fields.norm]
  have h2 : ∀ l slots index errs, postUnnamed d.norm mode l slots index errs = postUnnamed d mode l slots index errs := by
    intro l slots index errs
    have h3 : ∀ slots errs, finish d.norm slots errs = finish d slots errs := fun _ _ => rfl
    simp only [postUnnamed]
    rw [show d.norm.fields = d.fields.map Field.norm from rfl, missingUnnamed_norm]
    simp only [setPass_norm, h3]
  have h4 : d.norm.fields.countP (·.isParsable) = d.fields.countP (·.isParsable) := by
    rw [show d.norm.fields = d.fields.map Field.norm from rfl, List.countP_map]
    congr 1
    exact funext Field.norm_isParsable
  simp only [unnamedFlat, h1, h2, h4, unnamedStep_norm]

/-! ## Structures -/

/-- The structure without the attributes that are switched off. -/
def StructDef.norm (d : StructDef V) : StructDef V :=
  { d with fields := d.fields.map Field.norm, transparent := d.transparent.filter id, allowUnknown := d.allowUnknown.filter id }

omit [Env] in
theorem StructDef.norm_isTransparent (d : StructDef V) : d.norm.isTransparent = d.isTransparent := by
  have h : ∀ fs : List (Field V), (fs.map Field.norm).filter (fun f => f.isParsable && !f.isFlat) =
      (fs.filter fun f => f.isParsable && !f.isFlat).map Field.norm := by
    intro fs
    rw [List.filter_map]
    congr 2
    funext f
    simp only [Function.comp, Field.norm_isParsable, Field.norm_isFlat]
  simp only [StructDef.isTransparent, StructDef.norm, filter_getD, h]
  rw [← List.map_take, List.length_map]

omit [Env] in
theorem StructDef.norm_acceptsAll (d : StructDef V) : d.norm.acceptsAll = d.acceptsAll := by
  simp only [StructDef.acceptsAll, StructDef.norm, filter_getD, Field.acceptsAll_norm]

omit [Env] in
theorem StructDef.norm_data (d : StructDef V) : d.norm.data = d.data.norm := by
  simp only [StructDef.data, StructDef.norm_isTransparent, Fields.norm]
  simp only [StructDef.norm, filter_getD]

theorem StructDef.norm_flatNamed (d : StructDef V) : d.norm.flatNamed = d.flatNamed := by
  simp only [StructDef.flatNamed, StructDef.norm_acceptsAll, StructDef.norm_data, namedFlat_norm]
  rw [show d.norm.fields = d.fields.map Field.norm from rfl, Field.fieldNames_norm]
  rfl

theorem StructDef.norm_flatUnnamed (d : StructDef V) : d.norm.flatUnnamed = d.flatUnnamed := by
  simp only [StructDef.flatUnnamed, StructDef.norm_flatNamed, StructDef.norm_data, unnamedFlat_norm]
  rw [show d.norm.fields = d.fields.map Field.norm from rfl, show d.norm.shape = d.shape from rfl]
  have h1 : ((d.fields.map Field.norm).filter fun f => !f.isFlat).length = (d.fields.filter fun f => !f.isFlat).length := by
    rw [List.filter_map, List.length_map]
    congr 2
    funext f
    simp only [Function.comp, Field.norm_isFlat]
  have h2 : ((d.fields.map Field.norm).filter (·.isFlat)).map (fun f => f.flatUnnamed.fieldCount.getD 0) =
      (d.fields.filter (·.isFlat)).map fun f => f.flatUnnamed.fieldCount.getD 0 := by
    rw [List.filter_map, List.map_map]
    have : ((fun f : Field V => f.isFlat) ∘ Field.norm) = fun f => f.isFlat := funext Field.norm_isFlat
    rw [this]
    rfl
  rw [h1, h2]
  rfl

omit [Env] in
theorem mk'_congr {α : Type} {p p' : Mode → M Stream α} {i i' : Mode → M (List Stream) α} {g g' : Span → Res α}
    {ms ms' : Str → Span → Res α} (h1 : p = p') (h2 : i = i') (h3 : g = g') (h4 : ms = ms') :
    Dict.mk' p i g ms = Dict.mk' p' i' g' ms' := by rw [h1, h2, h3, h4]

theorem StructDef.norm_dict (d : StructDef V) : d.norm.dict = d.dict := by
  have ha : ((d.fields.map Field.norm).filter (·.isParsable)).all (fun f => f.isFlat || f.default.isSome) =
      (d.fields.filter (·.isParsable)).all (fun f => f.isFlat || f.default.isSome) := by
    rw [List.filter_map, List.all_map]
    have : ((fun f : Field V => f.isParsable) ∘ Field.norm) = fun f => f.isParsable := funext Field.norm_isParsable
    rw [this]
    congr 1
    funext f
    simp only [Function.comp, Field.norm_isFlat]
    rfl
  have ht : ∀ k r, transparentPost d.norm k r = transparentPost d k r := by
    intro k r
    cases r with
    | ok v =>
      simp only [transparentPost, StructDef.norm_data]
      rw [show d.norm.fields = d.fields.map Field.norm from rfl]
      have h1 : d.data.norm.init = d.data.init := by simp [Fields.init, Fields.norm]
      have h3 : ∀ slots errs, finish d.data.norm slots errs = finish d.data slots errs := fun _ _ => rfl
      simp only [setPass_norm, h1, h3]
      rfl
    | err e => rfl
    | panic => rfl
  have hp : (fun x : Field V × Nat => x.1.isParsable && !x.1.isFlat) ∘ (fun x : Field V × Nat => (x.1.norm, x.2)) =
      fun x => x.1.isParsable && !x.1.isFlat := by
    funext x
    simp only [Function.comp, Field.norm_isParsable, Field.norm_isFlat]
  have hf : (d.fields.map Field.norm).zipIdx.find? (fun x => x.1.isParsable && !x.1.isFlat) =
      (d.fields.zipIdx.find? fun x => x.1.isParsable && !x.1.isFlat).map fun x => (x.1.norm, x.2) := by
    rw [zipIdx_map_norm, List.find?_map, hp]
  have ht' : ∀ k, transparentPost d.norm k = transparentPost d k := fun k => funext (ht k)
  simp only [StructDef.dict, StructDef.norm_isTransparent]
  rw [show d.norm.fields = d.fields.map Field.norm from rfl, show d.norm.shape = d.shape from rfl, hf]
  split
  · cases d.fields.zipIdx.find? fun x => x.1.isParsable && !x.1.isFlat with
    | none => rfl
    | some x =>
      exact mk'_congr (funext fun m => by simp only [ht']; rfl) (funext fun m => by simp only [ht']; rfl)
        (funext fun m => by simp only [ht']; rfl) rfl
  · cases d.shape with
    | named =>
      exact mk'_congr (funext fun m => by simp only [StructDef.norm_flatNamed, StructDef.norm_acceptsAll])
        (funext fun m => by simp only [StructDef.norm_flatNamed, StructDef.norm_acceptsAll])
        (funext fun m => by simp only [StructDef.norm_flatNamed, StructDef.norm_acceptsAll]) rfl
    | unnamed =>
      exact mk'_congr (funext fun m => by simp only [StructDef.norm_flatUnnamed])
        (funext fun m => by simp only [StructDef.norm_flatUnnamed])
        (funext fun m => by simp only [StructDef.norm_flatUnnamed, ha]; rfl) rfl
    | unit => rfl

/-- The attribute derives make the same of it. -/
theorem StructDef.norm_attrBody (d : StructDef V) : d.norm.attrBody = d.attrBody := by
  funext site mode
  have hd : d.norm.attrData site = (d.attrData site).norm := by
    simp only [StructDef.attrData, StructDef.norm_data]; rfl
  have ht : ∀ k, d.norm.attrTransparentPost site k = d.attrTransparentPost site k := by
    intro k
    funext r
    cases r with
    | ok v =>
      have h1 : d.data.norm.init = d.data.init := by simp [Fields.init, Fields.norm]
      have h3 : ∀ slots errs, finish d.data.norm slots errs = finish d.data slots errs := fun _ _ => rfl
      have h2 : ∀ (fs : List (Field V)) (sts : Slots V),
          List.zipWith (containerSet (d.attrData site).norm) (fs.map Field.norm) sts =
            List.zipWith (containerSet (d.attrData site)) fs sts := by
        intro fs sts
        rw [List.zipWith_map_left]
        congr 1
        funext f st
        simp only [containerSet, Field.norm_isContainer, Fields.norm]
      simp only [StructDef.attrTransparentPost, StructDef.norm_data, hd]
      rw [show d.norm.fields = d.fields.map Field.norm from rfl]
      simp only [setPass_norm, h1, h2, h3]
      rfl
    | err e => rfl
    | panic => rfl
  have hp : (fun x : Field V × Nat => x.1.isParsable && !x.1.isFlat) ∘ (fun x : Field V × Nat => (x.1.norm, x.2)) =
      fun x => x.1.isParsable && !x.1.isFlat := by
    funext x
    simp only [Function.comp, Field.norm_isParsable, Field.norm_isFlat]
  have hf : (d.fields.map Field.norm).zipIdx.find? (fun x => x.1.isParsable && !x.1.isFlat) =
      (d.fields.zipIdx.find? fun x => x.1.isParsable && !x.1.isFlat).map fun x => (x.1.norm, x.2) := by
    rw [zipIdx_map_norm, List.find?_map, hp]
  simp only [StructDef.attrBody, StructDef.norm_isTransparent]
  rw [show d.norm.fields = d.fields.map Field.norm from rfl, show d.norm.shape = d.shape from rfl, hf]
  split
  · cases d.fields.zipIdx.find? fun x => x.1.isParsable && !x.1.isFlat with
    | none => rfl
    | some x => simp only [Option.map_some, ht]; rfl
  · cases d.shape with
    | named => simp only [hd, namedFlat_norm, Field.fieldNames_norm, StructDef.norm_acceptsAll]; rfl
    | unnamed => simp only [hd, unnamedFlat_norm]; rfl
    | unit => rfl

/-! ## In definitions -/

omit [Env] in
/-- The attribute is switched off. -/
def FieldAttr.off : FieldAttr → Bool
  | .flatten x => !x.value
  | .append x | .rest x | .skip x => !x.value
  | .container x => !x.value
  | _ => false

omit [Env] in
/-- The attribute is switched off. -/
def StructAttr.off : StructAttr → Bool
  | .transparent x => !x.value
  | .allowUnknown x => !x
  | _ => false

end

section
variable {V : Type} [Env]

/-- The two fields have the same name and the same attributes, but in the second those that are switched off are left
out. -/
def WithoutOff (lib : SynLib) (f g : FieldIn) : Prop :=
  f.ident = g.ident ∧ ∃ ss ss' bs, ListStreams (deluxeAttrs f.attrs) ss ∧ ItemsAll (FieldSeg lib) ss bs ∧
    ListStreams (deluxeAttrs g.attrs) ss' ∧ ItemsAll (FieldSeg lib) ss' (bs.filter fun b => !b.off)

omit [Env] in
/-- The declaration without what is switched off. -/
def FieldDecl.norm (d : FieldDecl) : FieldDecl :=
  { d with
    flatten := d.flatten.filter (·.value)
    append := d.append.filter (·.value)
    rest := d.rest.filter (·.value)
    container := d.container.filter (·.value)
    skip := d.skip.filter (·.value) }

omit [Env] in
/-- What is left of the only attribute with a key. -/
theorem findSome_off {A α : Type} {get : A → Option α} {val : α → Bool} {off : A → Bool} {key : A → String}
    {name : String} {p : String → Bool} (hp : p name = true) (hk : ∀ b x, get b = some x → key b = name ∧ off b = !val x)
    (bs : List A) (hn : ((bs.map key).filter p).Nodup) :
    (bs.filter fun b => !off b).findSome? get = (bs.findSome? get).filter val := by
  induction bs with
  | nil => rfl
  | cons b bs ih =>
    have hn' : ((bs.map key).filter p).Nodup := by
      rw [List.map_cons, List.filter_cons] at hn
      split at hn
      · exact (List.nodup_cons.1 hn).2
      · exact hn
    cases hg : get b with
    | none =>
      rw [List.findSome?_cons, hg, ← ih hn', List.filter_cons]
      split
      · rw [List.findSome?_cons, hg]
      · rfl
    | some x =>
      obtain ⟨h1, h2⟩ := hk b x hg
      rw [List.findSome?_cons, hg, List.filter_cons, h2]
      cases hv : val x with
      | true => simp [hg, Option.filter, hv]
      | false =>
        have hnone : ∀ c ∈ bs, get c = none := by
          intro c hc
          cases hgc : get c with
          | none => rfl
          | some y =>
            exfalso
            rw [List.map_cons, List.filter_cons, h1, hp] at hn
            exact (List.nodup_cons.1 hn).1 (List.mem_filter.2 ⟨(hk c y hgc).1 ▸ List.mem_map_of_mem hc, hp⟩)
        simp only [Bool.not_false, Bool.not_true, Option.filter, hv]
        exact List.findSome?_eq_none_iff.2 fun c hc => hnone c (List.mem_filter.1 hc).1

omit [Env] in
theorem filterMap_off {A α : Type} {get : A → Option α} {off : A → Bool} (h : ∀ b, off b = true → get b = none)
    (bs : List A) : (bs.filter fun b => !off b).filterMap get = bs.filterMap get := by
  induction bs with
  | nil => rfl
  | cons b bs ih =>
    rw [List.filter_cons, List.filterMap_cons]
    cases hb : off b with
    | true => simp only [Bool.not_true, h b hb]; exact ih
    | false => simp only [Bool.not_false, if_true, List.filterMap_cons, ih]

omit [Env] in
theorem findSome_keep {A α : Type} {get : A → Option α} {off : A → Bool} (h : ∀ b, off b = true → get b = none)
    (bs : List A) : (bs.filter fun b => !off b).findSome? get = bs.findSome? get := by
  induction bs with
  | nil => rfl
  | cons b bs ih =>
    rw [List.filter_cons, List.findSome?_cons]
    cases hb : off b with
    | true => simp only [Bool.not_true, h b hb]; exact ih
    | false => simp only [Bool.not_false, if_true, List.findSome?_cons, ih]

omit [Env] in
theorem declared_off {f g : FieldIn} (hid : f.ident = g.ident) {bs : List FieldAttr} (hok : FieldListOk f bs) :
    declared g (bs.filter fun b => !b.off) = (declared f bs).norm := by
  have h1 := findSome_off (get := FieldAttr.flatten?) (val := (·.value)) (off := FieldAttr.off) (key := FieldAttr.key)
    (name := "flatten") (by decide) (by intro b x h; cases b <;> simp_all [FieldAttr.flatten?, FieldAttr.key, FieldAttr.off])
    bs hok.once
  have h2 := findSome_off (get := FieldAttr.append?) (val := (·.value)) (off := FieldAttr.off) (key := FieldAttr.key)
    (name := "append") (by decide) (by intro b x h; cases b <;> simp_all [FieldAttr.append?, FieldAttr.key, FieldAttr.off])
    bs hok.once
  have h3 := findSome_off (get := FieldAttr.rest?) (val := (·.value)) (off := FieldAttr.off) (key := FieldAttr.key)
    (name := "rest") (by decide) (by intro b x h; cases b <;> simp_all [FieldAttr.rest?, FieldAttr.key, FieldAttr.off])
    bs hok.once
  have h4 := findSome_off (get := FieldAttr.container?) (val := (·.value)) (off := FieldAttr.off) (key := FieldAttr.key)
    (name := "container") (by decide) (by intro b x h; cases b <;> simp_all [FieldAttr.container?, FieldAttr.key, FieldAttr.off])
    bs hok.once
  have h5 := findSome_off (get := FieldAttr.skip?) (val := (·.value)) (off := FieldAttr.off) (key := FieldAttr.key)
    (name := "skip") (by decide) (by intro b x h; cases b <;> simp_all [FieldAttr.skip?, FieldAttr.key, FieldAttr.off])
    bs hok.once
  have h6 := findSome_keep (get := FieldAttr.rename?) (off := FieldAttr.off)
    (by intro b h; cases b <;> simp_all [FieldAttr.rename?, FieldAttr.off]) bs
  have h7 := findSome_keep (get := FieldAttr.default?) (off := FieldAttr.off)
    (by intro b h; cases b <;> simp_all [FieldAttr.default?, FieldAttr.off]) bs
  have h8 := findSome_keep (get := FieldAttr.with?) (off := FieldAttr.off)
    (by intro b h; cases b <;> simp_all [FieldAttr.with?, FieldAttr.off]) bs
  have h9 := filterMap_off (get := FieldAttr.alias?) (off := FieldAttr.off)
    (by intro b h; cases b <;> simp_all [FieldAttr.alias?, FieldAttr.off]) bs
  have h10 := filterMap_off (get := FieldAttr.transform?) (off := FieldAttr.off)
    (by intro b h; cases b <;> simp_all [FieldAttr.transform?, FieldAttr.off]) bs
  have h11 : ∀ o : Option FlattenD, ((o.filter (·.value)).map (·.value)).getD false = (o.map (·.value)).getD false := by
    intro o
    rcases o with _ | ⟨_, _ | _, _⟩ <;> rfl
  simp only [declared, FieldDecl.norm, h1, h2, h3, h4, h5, h6, h7, h8, h9, h10, h11, hid]

omit [Env] in
theorem fieldListOk_off {f g : FieldIn} (hid : f.ident = g.ident) {bs : List FieldAttr} (hok : FieldListOk f bs) :
    FieldListOk g (bs.filter fun b => !b.off) := by
  have hs : (bs.filter fun b => !b.off).Sublist bs := List.filter_sublist
  refine ⟨hok.once.sublist ((hs.map _).filter _), fun h b hb => hok.tuple (hid ▸ h) b (hs.subset hb),
    hok.names.sublist ((hs.filterMap _).map _), fun b hb n hn => hid ▸ hok.own b (hs.subset hb) n hn⟩

omit [Env] in
theorem compatible_off {bs : List FieldAttr} (h : Compatible bs) : Compatible (bs.filter fun b => !b.off) := by
  intro p hp ⟨h1, h2⟩
  have hs : ((bs.filter fun b => !b.off).map FieldAttr.key).Sublist (bs.map FieldAttr.key) := List.filter_sublist.map _
  exact h p hp ⟨hs.subset h1, hs.subset h2⟩

/-- C81: if a field is accepted, it is also accepted without the attributes that are switched off, and declares the
same apart from them. -/
theorem c81_field {lib : SynLib} {f g : FieldIn} (h : WithoutOff lib f g) {d : FieldDecl} (hr : f.read lib = .ok d) :
    g.read lib = .ok d.norm := by
  obtain ⟨hid, ss, ss', bs, h1, h2, h3, h4⟩ := h
  obtain ⟨hok, hc, rfl⟩ := (c47_field h1 h2 d).1 hr
  exact (c47_field h3 h4 _).2 ⟨fieldListOk_off hid hok, compatible_off hc, (declared_off hid hok).symm⟩

namespace FieldDecl
omit [Env]
variable (f : FieldDecl)

theorem filter_value {α : Type} (val : α → Bool) (o : Option α) :
    ((o.filter val).map val).getD false = (o.map val).getD false := by
  rcases o with _ | x
  · rfl
  · cases h : val x <;> simp [Option.filter, h]

theorem norm_isFlatten : f.norm.isFlatten = f.isFlatten := filter_value _ _
theorem norm_isAppend : f.norm.isAppend = f.isAppend := filter_value _ _
theorem norm_isRest : f.norm.isRest = f.isRest := filter_value _ _
theorem norm_isSkipped : f.norm.isSkipped = f.isSkipped := filter_value _ _
theorem norm_isContainer : f.norm.isContainer = f.isContainer := filter_value _ _
theorem norm_isFlat : f.norm.isFlat = f.isFlat := by
  simp only [isFlat, norm_isFlatten, norm_isAppend, norm_isRest]
theorem norm_isParsable : f.norm.isParsable = f.isParsable := by
  simp only [isParsable, norm_isContainer, norm_isSkipped]
theorem norm_withSkipDefault : withSkipDefault f.norm = (withSkipDefault f).norm := by
  rcases f with ⟨a, b, c, d, e, f, g, h, i, j⟩
  rcases i with _ | ⟨_ | _, _⟩ <;> rfl
theorem norm_toField {V : Type} (sem : FieldSem V) : f.norm.toField sem = (f.toField sem).norm := by
  rcases f with ⟨a, b, c, d, e, f, g, h, i, j⟩
  have h1 : ∀ {α β : Type} (v : α → Bool) (w : β → Bool) (k : α → β) (hk : ∀ x, w (k x) = v x) (o : Option α),
      (o.filter v).map k = (o.map k).filter w := by
    intro α β v w k hk o
    rcases o with _ | x
    · rfl
    · simp only [Option.filter, Option.map_some, hk]
      split <;> rfl
  simp only [toField, norm, Field.norm]
  congr 1
  · exact h1 _ Flatten.value _ (fun _ => rfl) _
  all_goals exact h1 _ id _ (fun _ => rfl) _
theorem norm_fillContainer : fillContainer f.norm = (fillContainer f).norm := by
  rcases f with ⟨a, b, c, d, e, f, g, h, i, j⟩
  rcases h with _ | ⟨s, _ | _, l, t⟩
  · rfl
  · rfl
  · cases c <;> rfl
end FieldDecl

omit [Env] in
/-- The structure without what is switched off. -/
def StructDecl.norm (d : StructDecl) : StructDecl :=
  { d with
    fields := d.fields.map FieldDecl.norm
    transparent := d.transparent.filter (·.value)
    allowUnknown := d.allowUnknown.filter id }

omit [Env] in
theorem zipIdx_map' {α β : Type} (f : α → β) (fs : List α) (n : Nat) :
    (fs.map f).zipIdx n = (fs.zipIdx n).map fun x => (f x.1, x.2) := by
  induction fs generalizing n with
  | nil => rfl
  | cons f fs ih => simp only [List.map_cons, List.zipIdx_cons, ih]

omit [Env] in
theorem StructDecl.norm_toDef (d : StructDecl) (sem : StructSem V) : d.norm.toDef sem = (d.toDef sem).norm := by
  have h1 : ∀ o : Option TransparentD, (o.filter (·.value)).map (·.value) = (o.map (·.value)).filter id := by
    intro o
    rcases o with _ | ⟨_, _ | _⟩ <;> rfl
  simp only [StructDecl.toDef, StructDecl.norm, StructDef.norm, h1, zipIdx_map', List.map_map]
  congr 1
  apply List.map_congr_left
  intro x _
  exact FieldDecl.norm_toField _ _

omit [Env] in
theorem StructDecl.norm_toMetaDef (d : StructDecl) (sem : StructSem V) :
    d.norm.toMetaDef sem = (d.toMetaDef sem).norm := by
  rw [StructDecl.toMetaDef, StructDecl.toMetaDef, ← StructDecl.norm_toDef]
  congr 1
  simp only [StructDecl.norm, List.map_map]
  congr 1
  apply List.map_congr_left
  intro x _
  exact FieldDecl.norm_fillContainer _

/-- The two structures have the same fields and attributes, but in the second the attributes that are switched off are
left out. -/
structure StructWithoutOff (lib : SynLib) (d e : StructIn) : Prop where
  shape : d.shape = e.shape
  length : d.fields.length = e.fields.length
  fields : ∀ (i : Nat) f g, d.fields[i]? = some f → e.fields[i]? = some g → WithoutOff lib f g
  attrs : ∃ ss ss' bs, ListStreams (deluxeAttrs d.attrs) ss ∧ ItemsAll (StructDefSeg lib) ss bs ∧
    ListStreams (deluxeAttrs e.attrs) ss' ∧ ItemsAll (StructDefSeg lib) ss' (bs.filter fun b => !b.off)

theorem fields_off {lib : SynLib} (fs gs : List FieldIn) (hl : fs.length = gs.length)
    (h : ∀ (i : Nat) f g, fs[i]? = some f → gs[i]? = some g → WithoutOff lib f g) (ds : List FieldDecl)
    (hr : fs.map (FieldIn.read lib) = ds.map .ok) :
    gs.map (FieldIn.read lib) = (ds.map FieldDecl.norm).map .ok := by
  induction fs generalizing gs ds with
  | nil =>
    cases gs with
    | nil =>
      cases ds with
      | nil => rfl
      | cons => cases hr
    | cons => cases hl
  | cons f fs ih =>
    cases gs with
    | nil => cases hl
    | cons g gs =>
      cases ds with
      | nil => cases hr
      | cons d ds =>
        simp only [List.map_cons, List.cons.injEq] at hr ⊢
        exact ⟨c81_field (h 0 f g rfl rfl) hr.1,
          by simpa using ih gs (Nat.succ.inj hl) (fun i => h (i + 1)) ds hr.2⟩

omit [Env] in
theorem declaredStruct_off {shape : Shape} {ds : List FieldDecl} {bs : List StructAttr} (hok : StructListOk shape ds bs) :
    declaredStruct shape (ds.map FieldDecl.norm) (bs.filter fun b => !b.off) = (declaredStruct shape ds bs).norm := by
  have h1 := findSome_off (get := StructAttr.transparent?) (val := (·.value)) (off := StructAttr.off)
    (key := StructAttr.key) (name := "transparent") (by decide)
    (by intro b x h; cases b <;> simp_all [StructAttr.transparent?, StructAttr.key, StructAttr.off]) bs hok.once
  have h2 := findSome_off (get := StructAttr.allowUnknown?) (val := id) (off := StructAttr.off)
    (key := StructAttr.key) (name := "allow_unknown_fields") (by decide)
    (by intro b x h; cases b <;> simp_all [StructAttr.allowUnknown?, StructAttr.key, StructAttr.off]) bs hok.once
  have h3 := findSome_keep (get := StructAttr.default?) (off := StructAttr.off)
    (by intro b h; cases b <;> simp_all [StructAttr.default?, StructAttr.off]) bs
  have h4 := findSome_keep (get := StructAttr.crate?) (off := StructAttr.off)
    (by intro b h; cases b <;> simp_all [StructAttr.crate?, StructAttr.off]) bs
  have h5 := filterMap_off (get := StructAttr.andThen?) (off := StructAttr.off)
    (by intro b h; cases b <;> simp_all [StructAttr.andThen?, StructAttr.off]) bs
  have h6 : (bs.filter fun b => !b.off).flatMap StructAttr.paths = bs.flatMap StructAttr.paths := by
    clear h1 h2 h3 h4 h5 hok
    induction bs with
    | nil => rfl
    | cons b bs ih =>
      rw [List.filter_cons, List.flatMap_cons]
      have hb : b.off = true → b.paths = [] := by cases b <;> simp [StructAttr.off, StructAttr.paths]
      cases ho : b.off with
      | true => rw [hb ho]; exact ih
      | false => simp only [Bool.not_false, if_true, List.flatMap_cons, ih]
  have h7 : (ds.map FieldDecl.norm).map withSkipDefault = (ds.map withSkipDefault).map FieldDecl.norm := by
    simp only [List.map_map]
    apply List.map_congr_left
    intro x _
    exact FieldDecl.norm_withSkipDefault x
  simp only [declaredStruct, StructDecl.norm, h1, h2, h3, h4, h5, h6, h7]
  congr 1
  split <;> rfl

/-- C81: if a structure is accepted, it is also accepted without the attributes that are switched off, in it and in its
fields, and then it is parsed in the same way: as a value, flattened into another structure, and from attributes.
The full claim would be an equivalence; it is violated, see `c81_excluded_violated`, `c81_container_violated` and
`c81_transparent_violated`. -/
theorem c81_struct_partial {lib : SynLib} {d e : StructIn} (h : StructWithoutOff lib d e) {r : StructDecl}
    (hr : d.read lib = .ok r) (sem : StructSem V) :
    ∃ q, e.read lib = .ok q ∧ (q.toMetaDef sem).dict = (r.toMetaDef sem).dict ∧
      (q.toMetaDef sem).flatNamed = (r.toMetaDef sem).flatNamed ∧
      (q.toMetaDef sem).flatUnnamed = (r.toMetaDef sem).flatUnnamed ∧
      (q.toDef sem).attrBody = (r.toDef sem).attrBody := by
  obtain ⟨ss, ss', bs, h1, h2, h3, h4⟩ := h.attrs
  obtain ⟨ds, hf, hok, hn, hc, hd, rfl⟩ := (c46_struct h1 h2 r).1 hr
  refine ⟨(declaredStruct d.shape ds bs).norm, (c46_struct h3 h4 _).2 ⟨ds.map FieldDecl.norm,
    fields_off _ _ h.length h.fields ds hf, ?_, ?_, ?_, ?_, ?_⟩, ?_, ?_, ?_, ?_⟩
  · have hs : (bs.filter fun b => !b.off).Sublist bs := List.filter_sublist
    have hk := (hs.map StructAttr.key).subset
    refine ⟨hok.once.sublist ((hs.map _).filter _), fun hx hm => hok.tuple (h.shape ▸ hx) (hk hm),
      fun hx hm => hok.unit (h.shape ▸ hx) (hk hm), fun hm => ?_⟩
    obtain ⟨f, hp, ha, hb⟩ := hok.transparent (hk hm)
    refine ⟨f.norm, ?_, by rw [FieldDecl.norm_isFlatten, ha], by rw [FieldDecl.norm_isAppend, hb]⟩
    rw [List.filter_map]
    have : ((fun f : FieldDecl => f.isParsable) ∘ FieldDecl.norm) = fun f => f.isParsable :=
      funext FieldDecl.norm_isParsable
    rw [this, hp]
    rfl
  · have : fieldNames (ds.map FieldDecl.norm) = fieldNames ds := by
      simp only [fieldNames, List.flatMap_map]
      rfl
    rw [this]
    exact hn
  · refine Nat.le_trans ?_ hc
    simp only [StructDecl.norm]
    rw [List.filter_map, List.length_map]
    rw [← List.countP_eq_length_filter, ← List.countP_eq_length_filter]
    refine List.countP_mono_left fun f _ hx => ?_
    simp only [Function.comp, FieldDecl.norm] at hx
    revert hx
    cases f.container <;> simp
  · intro hx
    have := hd (h.shape ▸ hx)
    simp only [StructDecl.norm, DefaultsLast, List.pairwise_map]
    refine this.imp ?_
    intro f g hfg a b c
    simp only [FieldDecl.takesItem, FieldDecl.norm_isParsable, FieldDecl.norm_isFlat] at a b
    exact hfg a b c
  · rw [← h.shape, declaredStruct_off hok]
  · rw [StructDecl.norm_toMetaDef, StructDef.norm_dict]
  · rw [StructDecl.norm_toMetaDef, StructDef.norm_flatNamed]
  · rw [StructDecl.norm_toMetaDef, StructDef.norm_flatUnnamed]
  · rw [StructDecl.norm_toDef, StructDef.norm_attrBody]


/-! ## Where it is not so -/

/-- `= false` -/
def offToks (sp : Span) : List Tok := [.punct '=' false sp, .ident (txt "false") sp]

/-- `#[deluxe(flatten = false, rename = b)] a: T` -/
def flattenOff : FieldIn :=
  ⟨some (txt "a", 9), [deluxeList (.ident (txt "flatten") 2 :: offToks 3 ++
    [.punct ',' false 4, .ident (txt "rename") 5, .punct '=' false 6, .ident (txt "b") 7])]⟩

/-- C81 is violated by attributes that exclude each other: they are looked at although they are switched off.
`#[deluxe(rename = b)] a: T` is accepted, `#[deluxe(flatten = false, rename = b)] a: T` is not. -/
theorem c81_excluded_violated :
    (∃ d, FieldIn.read demoLib ⟨some (txt "a", 9), [deluxeList [.ident (txt "rename") 5, .punct '=' false 6,
      .ident (txt "b") 7]]⟩ = .ok d) ∧
    ∃ e names, FieldIn.read demoLib flattenOff = .err e ∧ "flatten".toList ∈ names ∧ "rename".toList ∈ names ∧
      ⟨3, .onlyOneOf names⟩ ∈ e.toList ∧ ⟨5, .onlyOneOf names⟩ ∈ e.toList := by
  refine ⟨⟨_, rfl⟩, c47_reported (f := flattenOff) (bs := [.flatten ⟨3, false, none⟩, .rename 5 (txt "b", 7)])
    (x := "flatten") (y := "rename") (.list .nil) (.cons (bs := [_, _])
      (.cons (v := .ident (txt "flatten") 2 :: offToks 3) (c := .punct ',' false 4) ⟨false, 4, rfl⟩ ?_ (.last (by simp) ?_)) .nil) ?_
    (by simp [exclusivePairs]) rfl rfl⟩
  · exact .flatten (sp := 2) (vt := offToks 3) (.mk (pt := [.ident (txt "flatten") 2]) (.plain (.one _ _))
      (by simp [StartsColon2])) fun u => rfl
  · exact .rename (sp := 5) (vt := [.punct '=' false 6, .ident (txt "b") 7])
      (.mk (pt := [.ident (txt "rename") 5]) (.plain (.one _ _)) (by simp [StartsColon2])) fun u => rfl
  · refine ⟨by simp [FieldAttr.key, repeatable], by simp [flattenOff], List.pairwise_singleton _ _, ?_⟩
    intro b hb n hn
    simp only [List.mem_cons, List.not_mem_nil, or_false] at hb
    rcases hb with rfl | rfl
    · cases hn
    · cases hn; exact fun h => absurd h (by decide)

/-- `#[deluxe(container = false)] a: T` -/
def containerOff (n : String) (sp : Span) : FieldIn :=
  ⟨some (txt n, sp), [deluxeList (.ident (txt "container") (sp + 1) :: offToks (sp + 2))]⟩

/-- C81 is violated by `container = false` on two fields: that is taken for two containers. -/
theorem c81_container_violated :
    (∃ d, StructIn.read demoLib ⟨.named, [plainIn "a" 1, plainIn "b" 2], []⟩ = .ok d) ∧
    ∃ e, StructIn.read demoLib ⟨.named, [containerOff "a" 1, containerOff "b" 5], []⟩ = .err e ∧ e.toList ≠ [] :=
  ⟨⟨_, rfl⟩, _, rfl, by simp [SynErr.toList]⟩

/-- C81 is violated by `transparent = false` on a structure that cannot be transparent. -/
theorem c81_transparent_violated :
    (∃ d, StructIn.read demoLib ⟨.named, [plainIn "a" 1, plainIn "b" 2], []⟩ = .ok d) ∧
    ∃ e, StructIn.read demoLib ⟨.named, [plainIn "a" 1, plainIn "b" 2],
      [deluxeList (.ident (txt "transparent") 3 :: offToks 4)]⟩ = .err e ∧ e.toList ≠ [] :=
  ⟨⟨_, rfl⟩, _, rfl, by simp [SynErr.toList]⟩


/-- `#[deluxe(flatten = false)] a: T` -/
def flatOff (n : String) (sp : Span) : FieldIn :=
  ⟨some (txt n, sp), [deluxeList (.ident (txt "flatten") (sp + 1) :: offToks (sp + 2))]⟩

/-- C81: `c81_struct_partial` applies to
`#[deluxe(allow_unknown_fields = false)] struct S { #[deluxe(flatten = false)] a: T, b: T }`, which is accepted, and
`struct S { a: T, b: T }`. -/
example : StructWithoutOff demoLib
      ⟨.named, [flatOff "a" 1, plainIn "b" 5], [deluxeList (.ident (txt "allow_unknown_fields") 6 :: offToks 7)]⟩
      ⟨.named, [plainIn "a" 1, plainIn "b" 5], []⟩ ∧
    ∃ r, StructIn.read demoLib ⟨.named, [flatOff "a" 1, plainIn "b" 5],
      [deluxeList (.ident (txt "allow_unknown_fields") 6 :: offToks 7)]⟩ = .ok r := by
  refine ⟨⟨rfl, rfl, ?_, _, _, [.allowUnknown false], .list .nil, .cons (bs := [_]) (.last (by simp) ?_) .nil, .nil, .nil⟩,
    _, rfl⟩
  · intro i f g hf hg
    match i with
    | 0 =>
      cases hf; cases hg
      refine ⟨rfl, _, _, [.flatten ⟨3, false, none⟩], .list .nil, .cons (bs := [_]) (.last (by simp) ?_) .nil, .nil, .nil⟩
      exact .flatten (sp := 2) (vt := offToks 3) (.mk (pt := [.ident (txt "flatten") 2]) (.plain (.one _ _))
        (by simp [StartsColon2])) fun u => rfl
    | 1 => cases hf; cases hg; exact ⟨rfl, _, _, [], .nil, .nil, .nil, .nil⟩
    | i + 2 => cases hf
  · exact .allowUnknown (sp := 6) (vt := offToks 7) (.mk (pt := [.ident (txt "allow_unknown_fields") 6])
      (.plain (.one _ _)) (by simp [StartsColon2])) fun u => rfl

end
end Deluxe
