import Verif.Lemmas.RelocDerive
/-!
# Derived enums and attributes do not look at locations
-/
namespace Deluxe

variable {f : Span → Span} {V W : Type} {v : V → W}

/-! ## Key sets -/

/-- The keys with other locations. -/
abbrev relocPaths (f : Span → Span) (m : PathMap) : PathMap := m.map fun x => (x.1, f x.2)

theorem PathMap.get_reloc (m : PathMap) (k : Str) : PathMap.get (relocPaths f m) k = (PathMap.get m k).map f := by
  induction m with
  | nil => rfl
  | cons x m ih =>
    simp only [relocPaths, List.map_cons, PathMap.get]
    split
    · rfl
    · exact ih

theorem PathMap.contains_reloc (m : PathMap) (k : Str) : PathMap.contains (relocPaths f m) k = PathMap.contains m k := by
  simp only [PathMap.contains, PathMap.get_reloc, Option.isSome_map]

theorem PathMap.remove_reloc (m : PathMap) (k : Str) :
    PathMap.remove (relocPaths f m) k = relocPaths f (PathMap.remove m k) := by
  simp only [PathMap.remove, relocPaths, List.filter_map]
  rfl

theorem PathMap.insert_reloc (m : PathMap) (k : Str) (sp : Span) :
    PathMap.insert (relocPaths f m) k (f sp) = relocPaths f (PathMap.insert m k sp) := by
  simp only [PathMap.insert, PathMap.remove_reloc]
  rfl

theorem hasPaths_reloc (m : PathMap) (keys : List (List Str)) : hasPaths (relocPaths f m) keys = hasPaths m keys := by
  simp only [hasPaths, PathMap.contains_reloc]

theorem removePaths_reloc (m : PathMap) (keys : List (Str × List Str)) :
    removePaths (relocPaths f m) keys = relocPaths f (removePaths m keys) := by
  have inner : ∀ (p : Str) (l : List Str) (m : PathMap),
      l.foldl (fun m path => PathMap.remove m (joinPath p path)) (relocPaths f m) =
        relocPaths f (l.foldl (fun m path => PathMap.remove m (joinPath p path)) m) := by
    intro p l
    induction l with
    | nil => exact fun _ => rfl
    | cons a l ih =>
      intro m
      simp only [List.foldl_cons, PathMap.remove_reloc]
      exact ih _
  simp only [removePaths]
  induction keys generalizing m with
  | nil => rfl
  | cons k keys ih =>
    simp only [List.foldl_cons, inner]
    exact ih _

theorem foldl_reloc {α : Type} {g g' : Errors → α → Errors} (h : ∀ e a, g' (e.reloc f) a = (g e a).reloc f)
    (l : List α) (e : Errors) : l.foldl g' (e.reloc f) = (l.foldl g e).reloc f := by
  induction l generalizing e with
  | nil => rfl
  | cons a l ih =>
    simp only [List.foldl_cons, h]
    exact ih _

theorem disallowPaths_reloc (m : PathMap) (keys : List (Str × List Str)) (cur : Str) (e : Errors) :
    disallowPaths (relocPaths f m) keys cur (e.reloc f) = (disallowPaths m keys cur e).reloc f := by
  simp only [disallowPaths]
  apply foldl_reloc
  intro e k
  apply foldl_reloc
  intro e a
  simp only [PathMap.get_reloc]
  cases PathMap.get m (joinPath k.1 a) with
  | none => rfl
  | some sp => exact Errors.reloc_push e sp (.notAllowedWith (joinPath k.1 a) cur)

theorem onlyOneVariant_reloc (sp : Span) (pre a b : Str) (e : Errors) :
    onlyOneVariant (f sp) pre a b (e.reloc f) = (onlyOneVariant sp pre a b e).reloc f :=
  Errors.reloc_push e sp (.onlyOneVariant _ _)

theorem variantRequired_reloc (sp : Span) (pre : Str) (l : List (List (List Str))) (e : Errors) :
    variantRequired (f sp) pre l (e.reloc f) = (variantRequired sp pre l e).reloc f :=
  Errors.reloc_push e sp (.expectedOneOf _)

/-! ## Variants -/

namespace Variant.Reloc
variable {x : Variant V} {y : Variant W} (h : x.Reloc f v y)
include h

theorem isFlatten : y.isFlatten = x.isFlatten := by simp only [Variant.isFlatten, h.flatten]
theorem isSkipped : y.isSkipped = x.isSkipped := by simp only [Variant.isSkipped, h.skip]
theorem isTransparent : y.isTransparent = x.isTransparent := by simp only [Variant.isTransparent, h.transparent]

theorem fieldKey : y.fieldKey = x.fieldKey := by
  simp only [Variant.fieldKey]
  exact congrArg (btSet _) (h.fields.filterMap_eq fun a b h => by
    simp only [h.default_isSome, h.isFlat, h.isParsable, h.idents])

theorem acceptsAll : y.acceptsAll = x.acceptsAll := by
  simp only [Variant.acceptsAll, h.allowUnknown, acceptsAll_reloc h.fields]

theorem flatNames : y.flatNames = x.flatNames := by
  simp only [Variant.flatNames, h.isFlatten]
  split
  · exact h.fields.map_eq fun a b h => by simp only [h.flatten, h.flatNamed.fieldNames, h.idents]
  · rfl

theorem names : y.names = x.names := by
  simp only [Variant.names, h.isFlatten, h.isSkipped, h.idents]
  split
  · congr 1
    · exact h.fields.flatMap_eq fun a b h => by simp only [h.flatten, h.flatNamed.fieldNames]
    · exact h.fields.flatMap_eq fun a b h => by simp only [h.isFlatten, h.idents]
  · rfl

theorem data {site : Site V} {site' : Site W} (hs : site.Reloc v site') (sp : Span) :
    (x.data site sp).Reloc f v (y.data site' (f sp)) where
  fields := h.fields
  target := rfl
  transparent := h.isTransparent
  allowUnknown := by simp only [Variant.data, h.allowUnknown]
  obj := hs.obj
  attrName := hs.attrName
  emptySpan := rfl

variable {E' E : Env} (R : Relocates E E' f) {site : Site V} {site' : Site W} (hs : site.Reloc v site')
include R hs

theorem inline (pre : Str) (sp : Span) (m : Mode) :
    RelocL f (List.map v) (x.inline site pre sp m) (@Variant.inline W E' y site' pre (f sp) (m.reloc f)) := by
  simp only [Variant.inline, h.shape, fieldNames_reloc h.fields, h.acceptsAll]
  cases x.shape with
  | named => exact namedFlat_reloc (h.data hs sp) R _ m pre _
  | unnamed => exact unnamedFlat_reloc (h.data hs sp) R m 0
  | unit => exact fun _ => rfl

theorem parse (pre : Str) (sp : Span) (m : Mode) :
    RelocS f (List.map v) (x.parse site pre sp m) (@Variant.parse W E' y site' pre (f sp) (m.reloc f)) := by
  simp only [Variant.parse, h.shape]
  exact parseDelimitedWith_reloc _ (single_reloc (h.inline R hs pre sp m))

theorem flag (pre : Str) (sp : Span) :
    @Variant.flag W E' y site' pre (f sp) = (x.flag site pre sp).reloc f (List.map v) := by
  have e1 : (y.fields.filter (·.isParsable)).all (fun f => f.isFlat || f.default.isSome) =
      (x.fields.filter (·.isParsable)).all (fun f => f.isFlat || f.default.isSome) :=
    (h.fields.filter fun _ _ h => h.isParsable).all fun _ _ h => by simp only [h.isFlat, h.default_isSome]
  simp only [Variant.flag, h.shape, e1]
  cases x.shape with
  | named => exact parseEmpty_reloc R.site (single_reloc (h.inline R hs pre sp (.named sp))) sp
  | unnamed =>
    simp only
    split
    · exact parseEmpty_reloc R.site (single_reloc (h.inline R hs pre sp .unnamed)) sp
    · rfl
  | unit => rfl

omit R in
theorem transparentPost (sp : Span) (k : Nat) (r : Res V) :
    y.transparentPost site' (f sp) k (r.reloc f v) = (x.transparentPost site sp k r).reloc f (List.map v) := by
  cases r with
  | ok a =>
    have hz : ∀ {l : List (Field V)} {l' : List (Field W)}, All2 (Field.Reloc f v) l l' → ∀ sts : Slots V,
        List.zipWith (containerSet (y.data site' (f sp))) l' (relocSlots v sts) =
          relocSlots v (List.zipWith (containerSet (x.data site sp)) l sts) := by
      intro l
      induction l with
      | nil =>
        intro l' hl sts
        cases l' with
        | nil => rfl
        | cons b l' => exact hl.elim
      | cons a l ih =>
        intro l' hl sts
        cases l' with
        | nil => exact hl.elim
        | cons b l' =>
          cases sts with
          | nil => rfl
          | cons st sts =>
            have := ih hl.2 sts
            simp only [relocSlots] at this
            simp only [relocSlots, List.map_cons, List.zipWith_cons_cons, containerSet_reloc (h.data hs sp) hl.1, this]
    have e1 : (relocSlots v (x.data site sp).init).set k (.some (v a)) =
        relocSlots v ((x.data site sp).init.set k (.some a)) := by
      simp only [relocSlots, List.map_set]
      rfl
    simp only [Variant.transparentPost, Res.reloc_ok, (h.data hs sp).init, e1, hz h.fields]
    have hp := setPass_reloc h.fields
      (List.zipWith (containerSet (x.data site sp)) x.fields ((x.data site sp).init.set k (.some a))) Errors.new
    simp only [Errors.reloc_new] at hp
    rw [hp]
    exact unwrapAll_reloc _
  | err e => rfl
  | panic => rfl

theorem item (pre p : Str) (sp : Span) :
    RelocS f (List.map v) (x.item site pre p sp) (@Variant.item W E' y site' pre p (f sp)) := by
  simp only [Variant.item, h.isTransparent]
  split
  · generalize ho : (x.fields.zipIdx.find? fun x => x.1.isParsable && !x.1.isFlat) = o
    generalize ho' : (y.fields.zipIdx.find? fun x => x.1.isParsable && !x.1.isFlat) = o'
    have hr := (h.fields.zipIdx 0).find (p := fun x => x.1.isParsable && !x.1.isFlat)
      (q := fun x => x.1.isParsable && !x.1.isFlat) fun _ _ h => by simp only [h.1.isParsable, h.1.isFlat]
    rw [ho, ho'] at hr
    cases hr with
    | none => exact RelocM.panic
    | some hx =>
      rename_i a b
      obtain ⟨a, k⟩ := a
      obtain ⟨b, k'⟩ := b
      obtain ⟨hx, rfl⟩ := hx
      simp only at hx
      exact (hx.item.named p sp).mapRes (h.transparentPost hs sp k')
  · exact parseNamedWith_reloc (h.parse R hs pre sp) (h.inline R hs pre sp) (fun _ => h.flag R hs pre sp) sp

end Variant.Reloc

/-! ## Enums -/

/-- A value of an enum with other locations. -/
abbrev relocEnumVal (v : V → W) : EnumVal V → EnumVal W := Prod.map id (List.map v)

def EnumSt.reloc (f : Span → Span) (v : V → W) (st : EnumSt V) : EnumSt W :=
  ⟨st.key, st.value.map (relocEnumVal v), relocPaths f st.paths⟩

/-- Entries of `flatMatches`. -/
def KV (f : Span → Span) (v : V → W) (x : VKey × (Variant V × Nat)) (y : VKey × (Variant W × Nat)) : Prop :=
  y.1 = x.1 ∧ AtPos (Variant.Reloc f v) x.2 y.2

theorem btInsert_reloc {κ α β : Type} {P : α → β → Prop} (cmp : κ → κ → Ordering) (k : κ) {a : α} {b : β} (hab : P a b)
    {l : List (κ × α)} {l' : List (κ × β)} (h : All2 (fun x y => y.1 = x.1 ∧ P x.2 y.2) l l') :
    All2 (fun x y => y.1 = x.1 ∧ P x.2 y.2) (btInsert cmp k a l) (btInsert cmp k b l') := by
  induction l generalizing l' with
  | nil =>
    cases l' with
    | nil => exact ⟨⟨rfl, hab⟩, trivial⟩
    | cons y l' => exact h.elim
  | cons x l ih =>
    cases l' with
    | nil => exact h.elim
    | cons y l' =>
      obtain ⟨x1, x2⟩ := x
      obtain ⟨y1, y2⟩ := y
      obtain ⟨⟨rfl, hp⟩, h2⟩ := h
      simp only [btInsert]
      split
      · exact ⟨⟨rfl, hab⟩, ⟨rfl, hp⟩, h2⟩
      · exact ⟨⟨rfl, hab⟩, h2⟩
      · exact ⟨⟨rfl, hp⟩, ih h2⟩

theorem btMap_reloc {κ α β : Type} {P : α → β → Prop} (cmp : κ → κ → Ordering)
    {l : List (κ × α)} {l' : List (κ × β)} (h : All2 (fun x y => y.1 = x.1 ∧ P x.2 y.2) l l') :
    All2 (fun x y => y.1 = x.1 ∧ P x.2 y.2) (btMap cmp l) (btMap cmp l') := by
  have key : ∀ {l : List (κ × α)} {l' : List (κ × β)}, All2 (fun x y => y.1 = x.1 ∧ P x.2 y.2) l l' →
      ∀ {m : List (κ × α)} {m' : List (κ × β)}, All2 (fun x y => y.1 = x.1 ∧ P x.2 y.2) m m' →
      All2 (fun x y => y.1 = x.1 ∧ P x.2 y.2) (l.foldl (fun m x => btInsert cmp x.1 x.2 m) m)
        (l'.foldl (fun m x => btInsert cmp x.1 x.2 m) m') := by
    intro l
    induction l with
    | nil =>
      intro l' h m m' hm
      cases l' with
      | nil => exact hm
      | cons y l' => exact h.elim
    | cons x l ih =>
      intro l' h m m' hm
      cases l' with
      | nil => exact h.elim
      | cons y l' =>
        obtain ⟨x1, x2⟩ := x
        obtain ⟨y1, y2⟩ := y
        obtain ⟨⟨rfl, hp⟩, h2⟩ := h
        exact ih h2 (btInsert_reloc cmp _ hp hm)
  exact key h (m := []) (m' := []) trivial

section
variable {e : EnumDef V} {e' : EnumDef W} (h : e.Reloc f v e')
include h

theorem EnumDef.Reloc.unknownOk : e'.unknownOk = e.unknownOk := by simp only [EnumDef.unknownOk, h.allowUnknown]
theorem EnumDef.Reloc.fieldNames : e'.fieldNames = e.fieldNames := h.variants.flatMap_eq fun _ _ h => h.names
theorem EnumDef.Reloc.anyFlat : e'.anyFlat = e.anyFlat :=
  h.variants.any fun _ _ h => by simp only [h.isFlatten, h.isSkipped]
theorem EnumDef.Reloc.acceptsAll : e'.acceptsAll = e.acceptsAll := by
  simp only [EnumDef.acceptsAll, h.unknownOk]
  rw [h.variants.any (p := fun v => !v.isSkipped && v.isFlatten && v.allowUnknown.getD false)
      fun _ _ h => by simp only [h.isFlatten, h.isSkipped, h.allowUnknown],
    h.variants.any (p := fun v => v.isFlatten && Field.acceptsAll v.fields)
      fun _ _ h => by simp only [h.isFlatten, acceptsAll_reloc h.fields]]
theorem EnumDef.Reloc.keyMsgs : e'.keyMsgs = e.keyMsgs := by
  simp only [EnumDef.keyMsgs]
  exact (h.variants.filter fun _ _ h => by simp only [h.isSkipped]).map_eq fun _ _ h => by
    simp only [h.isFlatten, h.fieldKey, h.ident, h.idents]
theorem EnumDef.Reloc.flatMatches : All2 (KV f v) e.flatMatches e'.flatMatches :=
  btMap_reloc cmpKey (((h.variants.zipIdx 0).filter fun _ _ h => by simp only [h.1.isSkipped, h.1.isFlatten]).map
    fun _ _ h => ⟨h.1.fieldKey, h⟩)

theorem otherFlatNames_reloc (i : Option Nat) : otherFlatNames e' i = otherFlatNames e i :=
  (h.variants.zipIdx 0).flatMap_eq fun _ _ h => by simp only [h.2, h.1.flatNames]

theorem findVariant_reloc (k : Str) :
    OptRel (AtPos (Variant.Reloc f v)) (findVariant e.variants k) (findVariant e'.variants k) :=
  (h.variants.zipIdx 0).find fun _ _ h => by simp only [h.1.isFlatten, h.1.isSkipped, h.1.idents]

omit h in
theorem enumAndThens_reloc {fs : List (EnumVal V → Except SynErr (EnumVal V))}
    {fs' : List (EnumVal W → Except SynErr (EnumVal W))}
    (h : All2 (fun g g' => ∀ x, g' (relocEnumVal v x) = relocExcept f (relocEnumVal v) (g x)) fs fs')
    (x : Option (EnumVal V)) (errs : Errors) :
    enumAndThens fs' (x.map (relocEnumVal v)) (errs.reloc f) =
      ((enumAndThens fs x errs).1.map (relocEnumVal v), (enumAndThens fs x errs).2.reloc f) := by
  simp only [enumAndThens]
  induction fs generalizing fs' x errs with
  | nil =>
    cases fs' with
    | nil => rfl
    | cons b l' => exact h.elim
  | cons g fs ih =>
    cases fs' with
    | nil => exact h.elim
    | cons g' fs' =>
      simp only [List.foldl_cons]
      cases x with
      | none => exact ih h.2 none errs
      | some a =>
        simp only [Option.map_some]
        rw [h.1 a]
        cases g a with
        | ok b => exact ih h.2 (some b) errs
        | error er =>
          simp only [relocExcept, Errors.reloc_pushSyn]
          exact ih h.2 none _

variable {E' E : Env} (R : Relocates E E' f)
include R

omit h in
theorem checkKeys_reloc (allowed : List Str) (errs : Errors) (l : List Stream) :
    @checkKeys E' allowed (errs.reloc f) (l.map (Stream.reloc f)) =
      ((checkKeys allowed errs l).1.reloc f (Errors.reloc f), (checkKeys allowed errs l).2.map (Stream.reloc f)) := by
  have hstep : ∀ p sp, RelocM f (Prod.map (Acc.reloc f (id : Unit → Unit)) (Stream.reloc f)) id
      (checkStep allowed p sp) (@checkStep E' allowed p (f sp)) := by
    rintro p sp ⟨acc, s⟩
    have := checkUnknownAttribute_reloc R p sp allowed acc.errs
    simp only [checkStep, Prod.map_apply, Acc.reloc, this, skipMetaItem_reloc]
    rfl
  have := parseStruct_reloc R hstep (⟨(), errs⟩, l)
  simp only [Prod.map_apply, Acc.reloc, id] at this
  simp only [checkKeys, this]
  rcases parseStruct (checkStep allowed) (⟨(), errs⟩, l) with ⟨_ | _ | _, acc, l'⟩ <;> rfl

theorem validatePass_reloc (validate : Bool) (errs : Errors) (l : List Stream) :
    @validatePass W E' e' validate (errs.reloc f) (l.map (Stream.reloc f)) =
      ((validatePass e validate errs l).1.reloc f (Errors.reloc f),
        (validatePass e validate errs l).2.map (Stream.reloc f)) := by
  simp only [validatePass, h.unknownOk, h.fieldNames]
  split
  · exact checkKeys_reloc R _ _ _
  · rfl

theorem emptyCheck_reloc {x : Variant V} {y : Variant W} (hx : x.Reloc f v y) (pre : Str) (sp : Span) (errs : Errors)
    (l : List Stream) : @emptyCheck W E' e' y pre (f sp) (errs.reloc f) (l.map (Stream.reloc f)) =
      (emptyCheck e x pre sp errs l).reloc f (Errors.reloc f) := by
  simp only [emptyCheck, Errors.reloc_isEmpty, forkInputs_reloc, fieldNames_reloc hx.fields, checkKeys_reloc R,
    h.keyMsgs]
  split
  · exact Errors.reloc_bail _ _
  · rcases (checkKeys (Field.fieldNames x.fields) errs (forkInputs l)).1 with errs' | _ | _
    · simp only [Res.reloc_ok, Errors.reloc_isEmpty, variantRequired_reloc]
      split
      · rfl
      · exact Errors.reloc_bail _ _
    · rfl
    · rfl

variable {site : Site V} {site' : Site W} (hs : site.Reloc v site')
include hs

theorem enumStep_reloc (pre p : Str) (sp : Span) :
    RelocM f (Prod.map (Acc.reloc f (EnumSt.reloc f v)) (Stream.reloc f)) id (enumStep e site pre p sp)
      (@enumStep W E' e' site' pre p (f sp)) := by
  rintro ⟨⟨⟨key, value, paths⟩, errs⟩, s⟩
  simp only [enumStep, Prod.map_apply, Acc.reloc, EnumSt.reloc, h.anyFlat]
  cases stripPrefix pre p with
  | none =>
    simp only [Option.bind_none, skipMetaItem_reloc]
    rfl
  | some k =>
    have hp : (if e.anyFlat then PathMap.insert (relocPaths f paths) k (f sp) else relocPaths f paths) =
        relocPaths f (if e.anyFlat then PathMap.insert paths k sp else paths) := by
      split
      · exact PathMap.insert_reloc _ _ _
      · rfl
    simp only [Option.bind_some, hp]
    generalize (if e.anyFlat then PathMap.insert paths k sp else paths) = paths'
    generalize ho : findVariant e.variants k = o
    generalize ho' : findVariant e'.variants k = o'
    have hr := findVariant_reloc h k
    rw [ho, ho'] at hr
    cases hr with
    | none =>
      simp only [Option.map_none, skipMetaItem_reloc]
      rfl
    | some hx =>
      rename_i a b
      obtain ⟨a, i⟩ := a
      obtain ⟨b, i'⟩ := b
      obtain ⟨hx, rfl⟩ := hx
      simp only at hx
      have he : (match key with | some key => onlyOneVariant (f sp) pre key k (errs.reloc f) | none => errs.reloc f) =
          Errors.reloc f (match key with | some key => onlyOneVariant sp pre key k errs | none => errs) := by
        cases key
        · rfl
        · exact onlyOneVariant_reloc _ _ _ _ _
      simp only [Option.map_some, hx.item R hs pre p sp s, hx.isTransparent, FieldStatus.isSome_map,
        FieldStatus.isNone_map]
      cases key with
      | none =>
        rcases a.item site pre p sp s with ⟨x | er | _, s'⟩
        · simp only [Res.reloc_ok, id, Prod.map_apply, Acc.reloc, EnumSt.reloc]
          congr 3
          split <;> rfl
        · simp only [Res.reloc_err, Res.reloc_ok, id, Prod.map_apply, Acc.reloc, EnumSt.reloc, Errors.reloc_pushSyn,
            skipMetaItem_reloc]
          congr 3
          split <;> rfl
        · rfl
      | some key =>
        simp only [onlyOneVariant_reloc]
        rcases a.item site pre p sp s with ⟨x | er | _, s'⟩
        · simp only [Res.reloc_ok, id, Prod.map_apply, Acc.reloc, EnumSt.reloc]
          congr 3
          split <;> rfl
        · simp only [Res.reloc_err, Res.reloc_ok, id, Prod.map_apply, Acc.reloc, EnumSt.reloc, Errors.reloc_pushSyn,
            skipMetaItem_reloc]
          congr 3
          split <;> rfl
        · rfl

theorem flatBlock_reloc {x : Variant V} {y : Variant W} (hx : x.Reloc f v y) (pre : Str) (sp : Span) (paths : PathMap)
    (i : Nat) (empty : Bool) (errs : Errors) (l : List Stream) :
    @flatBlock W E' e' site' pre (f sp) (relocPaths f paths) y i empty (errs.reloc f) (l.map (Stream.reloc f)) =
      ((flatBlock e site pre sp paths x i empty errs l).1.reloc f
          (Prod.map (FieldStatus.map · (relocEnumVal v)) (Errors.reloc f)),
        (flatBlock e site pre sp paths x i empty errs l).2.map (Stream.reloc f)) := by
  have hf : ∀ errs : Errors, (if e.unknownOk || x.allowUnknown.getD false || !x.acceptsAll then errs.reloc f
      else disallowPaths (removePaths (relocPaths f paths) x.flatNames) (otherFlatNames e (some i)) x.ident
        (errs.reloc f)) =
      (if e.unknownOk || x.allowUnknown.getD false || !x.acceptsAll then errs
      else disallowPaths (removePaths paths x.flatNames) (otherFlatNames e (some i)) x.ident errs).reloc f := by
    intro errs
    split
    · rfl
    · rw [removePaths_reloc, disallowPaths_reloc]
  have hc : (if empty && !x.allowUnknown.getD false && !x.acceptsAll then
        @emptyCheck W E' e' y pre (f sp) (errs.reloc f) (l.map (Stream.reloc f)) else .ok (errs.reloc f)) =
      (if empty && !x.allowUnknown.getD false && !x.acceptsAll then emptyCheck e x pre sp errs l
        else .ok errs).reloc f (Errors.reloc f) := by
    split
    · exact emptyCheck_reloc h R hx _ _ _ _
    · rfl
  simp only [flatBlock, hx.acceptsAll, hx.allowUnknown, hc, h.unknownOk, hx.flatNames, otherFlatNames_reloc h, hx.ident,
    fieldNames_reloc hx.fields]
  rcases (if empty && !x.allowUnknown.getD false && !x.acceptsAll then emptyCheck e x pre sp errs l
        else .ok errs) with errs' | _ | _
  · have hn := namedFlat_reloc (hx.data hs sp) R (Field.fieldNames x.fields) (.named sp) pre
      (!x.acceptsAll && !(empty && !x.allowUnknown.getD false)) l
    simp only [Mode.reloc_named] at hn
    simp only [Res.reloc_ok, hn]
    rcases namedFlat (x.data site sp) (Field.fieldNames x.fields) (.named sp) pre
      (!x.acceptsAll && !(empty && !x.allowUnknown.getD false)) l with ⟨a | er | _, l1⟩
    · simp only [Res.reloc_ok, hf]
      rfl
    · simp only [Res.reloc_err, Res.reloc_ok, Errors.reloc_pushSyn, hf]
      rfl
    · rfl
  · rfl
  · rfl

theorem pickFlat_reloc (pre : Str) (sp : Span) (validate : Bool) (paths : PathMap) (errs : Errors) (l : List Stream) :
    @pickFlat W E' e' site' pre (f sp) validate (relocPaths f paths) (errs.reloc f) (l.map (Stream.reloc f)) =
      ((pickFlat e site pre sp validate paths errs l).1.reloc f
          (Prod.map (FieldStatus.map · (relocEnumVal v)) (Errors.reloc f)),
        (pickFlat e site pre sp validate paths errs l).2.map (Stream.reloc f)) := by
  simp only [pickFlat, hasPaths_reloc]
  generalize ho : (e.flatMatches.find? fun x => !x.1.isEmpty && hasPaths paths x.1) = o
  generalize ho' : (e'.flatMatches.find? fun x => !x.1.isEmpty && hasPaths paths x.1) = o'
  have hr := h.flatMatches.find (p := fun x => !x.1.isEmpty && hasPaths paths x.1)
    (q := fun x => !x.1.isEmpty && hasPaths paths x.1) fun _ _ h => by simp only [h.1]
  rw [ho, ho'] at hr
  cases hr with
  | some hx =>
    rename_i a b
    obtain ⟨k, a, i⟩ := a
    obtain ⟨k', b, i'⟩ := b
    obtain ⟨rfl, hx, rfl⟩ := hx
    exact flatBlock_reloc h R hs hx _ _ _ _ _ _ _
  | none =>
    simp only
    generalize ho2 : (e.flatMatches.find? fun x => x.1.isEmpty) = o2
    generalize ho2' : (e'.flatMatches.find? fun x => x.1.isEmpty) = o2'
    have hr := h.flatMatches.find (p := fun x => x.1.isEmpty) (q := fun x => x.1.isEmpty) fun _ _ h => by
      simp only [h.1]
    rw [ho2, ho2'] at hr
    cases hr with
    | some hx =>
      rename_i a b
      obtain ⟨k, a, i⟩ := a
      obtain ⟨k', b, i'⟩ := b
      obtain ⟨rfl, hx, rfl⟩ := hx
      exact flatBlock_reloc h R hs hx _ _ _ _ _ _ _
    | none =>
      simp only [h.default]
      cases e.default with
      | some x => rfl
      | none =>
        simp only [Option.map_none, validatePass_reloc h R, h.keyMsgs]
        rcases validatePass e validate errs l with ⟨errs' | _ | _, l1⟩
        · simp only [Res.reloc_ok, variantRequired_reloc]
          rfl
        · rfl
        · rfl

theorem pick_reloc (pre : Str) (sp : Span) (validate : Bool) (st : EnumSt V) (errs : Errors) (l : List Stream) :
    @pick W E' e' site' pre (f sp) validate (st.reloc f v) (errs.reloc f) (l.map (Stream.reloc f)) =
      ((pick e site pre sp validate st errs l).1.reloc f
          (Prod.map (FieldStatus.map · (relocEnumVal v)) (Errors.reloc f)),
        (pick e site pre sp validate st errs l).2.map (Stream.reloc f)) := by
  obtain ⟨key, value, paths⟩ := st
  cases value with
  | none => exact pickFlat_reloc h R hs pre sp validate paths errs l
  | parseError => rfl
  | some x =>
    cases key with
    | none => rfl
    | some key =>
      have he : (if e.anyFlat && !e.unknownOk && !validate then
            disallowPaths (PathMap.remove (relocPaths f paths) key) (otherFlatNames e none) key (errs.reloc f)
          else errs.reloc f) =
          (if e.anyFlat && !e.unknownOk && !validate then
            disallowPaths (PathMap.remove paths key) (otherFlatNames e none) key errs
          else errs).reloc f := by
        split
        · rw [PathMap.remove_reloc, disallowPaths_reloc]
        · rfl
      simp only [EnumSt.reloc, pick, FieldStatus.map, h.anyFlat, h.unknownOk, otherFlatNames_reloc h, he,
        validatePass_reloc h R]
      generalize (if e.anyFlat && !e.unknownOk && !validate then
        disallowPaths (PathMap.remove paths key) (otherFlatNames e none) key errs else errs) = errs'
      rcases validatePass e validate errs' l with ⟨errs'' | _ | _, l1⟩ <;> rfl

theorem enumFlat_reloc (mode : Mode) (pre : Str) (validate : Bool) :
    RelocL f (relocEnumVal v) (enumFlat e site mode pre validate)
      (@enumFlat W E' e' site' (mode.reloc f) pre validate) := by
  intro l
  have hp := parseStruct_reloc R (enumStep_reloc h R hs pre)
    (⟨⟨none, .none, []⟩, Errors.new⟩, if e.anyFlat || !e.unknownOk then forkInputs l else l)
  have e0 : Acc.reloc f (EnumSt.reloc f v) ⟨⟨none, .none, []⟩, Errors.new⟩ = ⟨⟨none, .none, []⟩, Errors.new⟩ := rfl
  have e1 : (if e.anyFlat || !e.unknownOk then forkInputs (l.map (Stream.reloc f)) else l.map (Stream.reloc f)) =
      (if e.anyFlat || !e.unknownOk then forkInputs l else l).map (Stream.reloc f) := by
    split
    · exact forkInputs_reloc l
    · rfl
  simp only [Prod.map_apply, e0] at hp
  simp only [enumFlat, h.anyFlat, h.unknownOk, e1, hp, Mode.reloc_toFullSpan R]
  generalize parseStruct _ (_, _) = X
  obtain ⟨r, acc, l1⟩ := X
  simp only [Prod.map_apply, Acc.reloc]
  have e2 : (if e.anyFlat || !e.unknownOk then l.map (Stream.reloc f) else l1.map (Stream.reloc f)) =
      (if e.anyFlat || !e.unknownOk then l else l1).map (Stream.reloc f) := by split <;> rfl
  simp only [e2]
  generalize (if e.anyFlat || !e.unknownOk then l else l1) = l1'
  have fin : ∀ (value : FieldStatus (EnumVal V)) (errs : Errors),
      (match (enumAndThens e'.andThens (value.map (relocEnumVal v)).intoOption (errs.reloc f)).2.check with
        | .ok () =>
          match (enumAndThens e'.andThens (value.map (relocEnumVal v)).intoOption (errs.reloc f)).1 with
          | some x => .ok x
          | none => .panic
        | .err x => .err x
        | .panic => .panic) =
      Res.reloc f (relocEnumVal v) (match (enumAndThens e.andThens value.intoOption errs).2.check with
        | .ok () =>
          match (enumAndThens e.andThens value.intoOption errs).1 with
          | some x => .ok x
          | none => .panic
        | .err x => .err x
        | .panic => .panic) := by
    intro value errs
    have e3 : (value.map (relocEnumVal v)).intoOption = value.intoOption.map (relocEnumVal v) := by cases value <;> rfl
    rw [e3, enumAndThens_reloc h.andThens]
    generalize enumAndThens e.andThens value.intoOption errs = X
    obtain ⟨o, er⟩ := X
    simp only [Errors.reloc_check]
    rcases er.check with _ | _ | _
    · cases o <;> rfl
    · rfl
    · rfl
  rcases r with _ | er | _
  · simp only [Res.reloc_ok, pick_reloc h R hs]
    rcases pick e site pre (mode.toFullSpan l) validate acc.val acc.errs l1' with ⟨⟨value, errs⟩ | _ | _, l2⟩
    · simp only [Res.reloc_ok, Prod.map_apply, skipAll_reloc]
      exact congrArg (·, _) (fin value errs)
    · rfl
    · rfl
  · simp only [Res.reloc_err, Errors.reloc_pushSyn, pick_reloc h R hs]
    rcases pick e site pre (mode.toFullSpan l) validate acc.val (acc.errs.pushSyn er) l1' with
      ⟨⟨value, errs⟩ | _ | _, l2⟩
    · simp only [Res.reloc_ok, Prod.map_apply, skipAll_reloc]
      exact congrArg (·, _) (fin value errs)
    · rfl
    · rfl
  · rfl

omit hs site site'

theorem EnumDef.Reloc.flatNamed : e.flatNamed.Reloc f (relocEnumVal v) (@EnumDef.flatNamed W E' e') :=
  ⟨rfl, h.fieldNames, fun m p b => enumFlat_reloc h R (⟨rfl, rfl⟩ : Site.meta.Reloc v Site.meta) m p b⟩

theorem EnumDef.Reloc.flatUnnamed : e.flatUnnamed.Reloc f (relocEnumVal v) (@EnumDef.flatUnnamed W E' e') :=
  ⟨rfl, fun m _ => (h.flatNamed R).parse m [] true⟩

theorem EnumDef.Reloc.dict : e.dict.Reloc f (relocEnumVal v) (@EnumDef.dict W E' e') := by
  have hi := fun m => (h.flatNamed R).parse m [] (!false)
  refine .mk'_all (fun m s => ?_) hi (fun sp => parseEmptyMetaItem_reloc R.site (hi (.named sp)) sp) fun n sp => ?_
  · have := parseDelimitedMetaItem_reloc .brace (m := fun m => e.flatNamed.parse m [] (!false))
      (m' := fun m => (@EnumDef.flatNamed W E' e').parse m [] (!false)) (m.toNamed s) (hi (m.toNamed s)) s
    rw [← Mode.reloc_toNamed] at this
    exact this
  · simp only [h.default]
    cases e.default <;> rfl

end
end Deluxe
