import Verif.Props.VariantItems
/-!
# C126, C127, C128 for enums

The name of a variant with named fields and the items in its parentheses, as input of the whole enum.
-/
namespace Deluxe

section
variable [Env] {V : Type}

/-- The item in the parentheses is read up to their end, whether it is accepted or not. -/
theorem Variant.NamedFine.item_group {v : Variant V} (h : v.NamedFine) (p : Str) (k : Span) (ts : List Tok) (a b sc : Span) :
    ∃ u', (v.item .meta [] p k ⟨[.group .paren ts a b], sc, none⟩).2 = ⟨[], sc, u'⟩ := by
  rw [h.item_eq p p]
  have hd : v.asStruct.dict.named p k ⟨[.group .paren ts a b], sc, none⟩ = parseDelimitedMetaItem .paren
      (fun mode => v.asStruct.flatNamed.parse mode [] (!v.asStruct.acceptsAll)) (.named k)
      ⟨[.group .paren ts a b], sc, none⟩ := by
    simp only [StructDef.dict, h.opaque, show v.asStruct.shape = .named from h.shape]
    rfl
  rw [hd]
  exact ⟨_, rfl⟩

/-- The only item of an enum names a variant with named fields: the enum has a value exactly if the name is known, the
variant accepts the items in the parentheses and the functions of the enum succeed. -/
theorem enum_one_group {e : EnumDef V} (ha : e.Accepted .meta) (hg : e.FieldsFine) (hn : e.Infallible) (m : Mode)
    {lead segs pt} (hpt : PathToks lead segs pt) {k : Str} {w : Variant V} {i : Nat}
    (hsel : Selects e.variants [] (keyString segs) k w i) (hw : w.NamedFine) (ts : List Tok) (a b sc : Span)
    (y : EnumVal V) :
    (e.dict.inline m [⟨pt ++ [.group .paren ts a b], sc, none⟩]).1 = .ok y ↔
      (e.unknownOk = false → keyString segs ∈ e.fieldNames) ∧
        ∃ vs, (w.item .meta [] (keyString segs) (pathSpan pt) ⟨[.group .paren ts a b], sc, none⟩).1 = .ok vs ∧
          runThens e.andThens (i, vs) = .ok y := by
  have hb := e.byNameGood ha hg hn
  have hc2 : ¬ StartsColon2 [Tok.group .paren ts a b] := by
    rintro ⟨_, _, _, _, h⟩
    cases h
  have hkt : KeyToks segs (pathSpan pt) (pt ++ [.group .paren ts a b]) [.group .paren ts a b] := .mk hpt hc2
  have hnc : NoComma [Tok.group .paren ts a b] := by
    intro t ht
    simp only [List.mem_singleton] at ht
    subst ht
    rintro ⟨_, _, hc⟩
    cases hc
  obtain ⟨u', hu⟩ := hw.item_group (keyString segs) (pathSpan pt) ts a b sc
  have hnp := (hb w hsel.mem.1 hsel.mem.2.1 [] (keyString segs) (pathSpan pt) ⟨[.group .paren ts a b], sc, none⟩).1
  have hkey : keyString segs = k := by simpa using hsel.1
  have hne : pt ++ [Tok.group .paren ts a b] ≠ [] := by simp
  -- the item
  have hitem : ∃ x s1, enumItem e .meta [] ⟨pt ++ [.group .paren ts a b], sc, none⟩ =
        (.ok (.variant i k (pathSpan pt) x), s1) ∧ s1.toks = [] ∧
      ∀ vs, x = .ok vs ↔
        (w.item .meta [] (keyString segs) (pathSpan pt) ⟨[.group .paren ts a b], sc, none⟩).1 = .ok vs := by
    have h1 := keyed_key (enumValue e .meta []) hkt (rest := []) (.inl rfl) sc none
    simp only [List.append_nil] at h1
    have h2 : enumItem e .meta [] ⟨pt ++ [.group .paren ts a b], sc, none⟩ =
        (recover (w.item .meta [] (keyString segs) (pathSpan pt))).map (EItem.variant i k (pathSpan pt))
          ⟨[.group .paren ts a b], sc, none⟩ := by
      rw [enumItem, h1, enumValue, (selected_some _ _ _ _ _ _).2 hsel]
    rw [h2]
    simp only [M.map, recover]
    cases hr : w.item .meta [] (keyString segs) (pathSpan pt) ⟨[.group .paren ts a b], sc, none⟩ with
    | mk r s1 =>
      rw [hr] at hu hnp
      simp only at hu hnp
      subst hu
      cases r with
      | ok vs => exact ⟨.ok vs, _, rfl, rfl, fun ws => by simp⟩
      | err z => exact ⟨.error z, _, rfl, rfl, fun ws => by simp⟩
      | panic => exact absurd rfl hnp
  obtain ⟨x, s1, h1, h2, h3⟩ := hitem
  have hreads : ReadsAll (enumItem e .meta []) (if e.anyFlat || !e.unknownOk then
        forkInputs [⟨pt ++ [.group .paren ts a b], sc, none⟩] else [⟨pt ++ [.group .paren ts a b], sc, none⟩])
      [(.variant i k (pathSpan pt) x, ⟨pt ++ [.group .paren ts a b], sc, none⟩, s1)] none [s1] := by
    have : (if e.anyFlat || !e.unknownOk then
        forkInputs [⟨pt ++ [.group .paren ts a b], sc, none⟩] else [⟨pt ++ [.group .paren ts a b], sc, none⟩]) =
        [⟨pt ++ [.group .paren ts a b], sc, none⟩] := by
      split <;> rfl
    rw [this]
    exact .cons (rs2 := []) (.last hne h1 h2) .nil
  obtain ⟨errs, q1, q2⟩ := enumFlat_eq hb m [] true hreads
  have hkeys : e.unknownOk = false → ∃ rs l', ReadsAll keyItem (afterLoop e [⟨pt ++ [.group .paren ts a b], sc, none⟩] [s1])
      rs none l' ∧ rs.map (·.1) = allKeys [] [EItem.variant i k (pathSpan pt) x] := by
    intro hu
    have : afterLoop e [⟨pt ++ [.group .paren ts a b], sc, none⟩] [s1] = [⟨pt ++ [.group .paren ts a b], sc, none⟩] := by
      simp [afterLoop, hu]
    rw [this]
    have h' : ItemsAll KeySeg [⟨pt ++ [.group .paren ts a b], sc, none⟩] (allKeys [] [EItem.variant i k (pathSpan pt) x]) :=
      items_all (.last hne ⟨_, _, hkt, hsel.1.symm, hnc⟩)
    obtain ⟨rs, l', r1, r2, _⟩ := h'.reads keyItem_seg
    exact ⟨rs, l', r1, r2⟩
  have hdict : e.dict.inline m = enumFlat e .meta m [] true := rfl
  rw [hdict, q2]
  simp only [List.map_cons, List.map_nil] at q1 ⊢
  have hnamed : named [EItem.variant i k (pathSpan pt) x] = [(i, k, pathSpan pt, x)] := rfl
  cases x with
  | ok vs =>
    obtain ⟨errs', b1, b2⟩ := pick_one (site := .meta) (m.toFullSpan [⟨pt ++ [.group .paren ts a b], sc, none⟩]) true
      (e := e) hnamed errs hkeys
    have hf := conclude_some e (i, vs) errs'
    rw [b2, q1, variantMsgs_one hnamed] at hf
    simp only [stopMsgs, Bool.not_true, Bool.false_and, Bool.false_eq_true, if_false, List.nil_append] at hf
    generalize hp : pick e .meta [] (m.toFullSpan [⟨pt ++ [.group .paren ts a b], sc, none⟩]) true _ errs _ = z at b1 ⊢
    obtain ⟨r, l2⟩ := z
    simp only at b1
    subst b1
    simp only
    rw [finishes_ok hf, checkMsgs_nil, (h3 vs).1 rfl]
    simp [allKeys, hkey]
  | error z =>
    have hv : (afterItems e [] [EItem.variant i k (pathSpan pt) (.error z)]).val.value = .parseError :=
      enumAdd_value_one e [] _ _ hnamed rfl
    have hr : errs.toList ≠ [] := by
      rw [q1]
      have := enumAdd_reported e [] [EItem.variant i k (pathSpan pt) (.error z)] ⟨⟨none, .none, []⟩, Errors.new⟩ (by simp) hv
      rw [enumAdd_msgs] at this
      simpa [stopMsgs] using this
    simp only [pick, hv]
    obtain ⟨z', hz, _⟩ := conclude_none e (value := .parseError) rfl hr
    rw [hz]
    refine ⟨fun h => (by cases h), ?_⟩
    rintro ⟨_, vs, hvs, _⟩
    cases (h3 vs).2 hvs

/-- **C126.**  If an enum accepts a variant with items in its parentheses, it accepts the variant without any of the items
of those fields that may be omitted, and the other fields have the same values. -/
theorem c126_enum {e : EnumDef V} (ha : e.Accepted .meta) (hg : e.FieldsFine) (hn : e.Infallible) (hat : e.andThens = [])
    (m : Mode) {lead segs pt} (hpt : PathToks lead segs pt) {k : Str} {w : Variant V} {i : Nat}
    (hsel : Selects e.variants [] (keyString segs) k w i) (hw : w.NamedFine) {P : Str → Prop}
    (hP : ∀ key, P key → ∀ f j, Owns w.fields [] key f j → MayOmit w.asStruct.data [] (pathSpan pt) f j)
    (hfl : ∀ f ∈ w.fields, f.flatParsable = true →
      PlainIgnores P (f.flatCall [] (pathSpan pt) (Field.fieldNames w.fields)) ∨
        (PlainSpares P (f.flatCall [] (pathSpan pt) (Field.fieldNames w.fields)) ∧ f.transforms = []))
    {ts ts' : List Tok} (hd : Dropped P ts ts') (a b sc : Span) (y : EnumVal V)
    (h : (e.dict.inline m [⟨pt ++ [.group .paren ts a b], sc, none⟩]).1 = .ok y) :
    ∃ vs', (e.dict.inline m [⟨pt ++ [.group .paren ts' a b], sc, none⟩]).1 = .ok (i, vs') ∧
      y.1 = i ∧ ∀ j, LeftAlone w.asStruct (pathSpan pt) P j → vs'[j]? = y.2[j]? := by
  obtain ⟨h1, vs, h2, h3⟩ := (enum_one_group ha hg hn m hpt hsel hw ts a b sc y).1 h
  rw [hat] at h3
  cases h3
  obtain ⟨vs', h4, h5⟩ := c126_variant w hw _ hP hfl hd _ a b [] sc vs h2
  exact ⟨vs', (enum_one_group ha hg hn m hpt hsel hw ts' a b sc _).2 ⟨h1, vs', h4, by rw [hat]; rfl⟩, rfl, h5⟩

/-- **C127.**  If an enum accepts a variant with items in its parentheses and one of them is exchanged for another of the
same field, this is accepted exactly if the new item can be read on its own, and then only this field changes. -/
theorem c127_enum {e : EnumDef V} (ha : e.Accepted .meta) (hg : e.FieldsFine) (hn : e.Infallible) (hat : e.andThens = [])
    (m : Mode) {lead names pt} (hpt : PathToks lead names pt) {k : Str} {v : Variant V} {i : Nat}
    (hsel : Selects e.variants [] (keyString names) k v i) (hv : v.NamedFine) {segs segs' sp sp' x xt w wt}
    (hx : KeyToks segs sp x xt) (hw : KeyToks segs' sp' w wt) (n1 : NoComma xt) (n2 : NoComma wt) {f : Field V} {j : Nat}
    (ho : Owns v.fields [] (keyString segs) f j) (ho' : Owns v.fields [] (keyString segs') f j)
    (hfl : ∀ f ∈ v.fields, f.flatParsable = true → PlainIgnores (fun key => key = keyString segs ∨ key = keyString segs')
      (f.flatCall [] (pathSpan pt) (Field.fieldNames v.fields)))
    {ts ts' : List Tok} (hd : Swapped x w ts ts') (a b sc : Span) (y y' : EnumVal V)
    (h : (e.dict.inline m [⟨pt ++ [.group .paren ts a b], sc, none⟩]).1 = .ok y) :
    (e.dict.inline m [⟨pt ++ [.group .paren ts' a b], sc, none⟩]).1 = .ok y' ↔
      ∃ z, TakesAlone f b sp' wt z ∧ y' = (y.1, y.2.set j z) := by
  obtain ⟨h1, vs, h2, h3⟩ := (enum_one_group ha hg hn m hpt hsel hv ts a b sc y).1 h
  rw [hat] at h3
  cases h3
  have key := fun vs' => c127_variant v hv (pathSpan pt) hx hw n1 n2 ho ho' hfl hd (keyString names) a b [] sc vs vs' h2
  rw [enum_one_group ha hg hn m hpt hsel hv ts' a b sc y', hat]
  constructor
  · rintro ⟨_, vs', h4, h5⟩
    cases h5
    obtain ⟨z, h6, rfl⟩ := (key vs').1 h4
    exact ⟨z, h6, rfl⟩
  · rintro ⟨z, h6, rfl⟩
    exact ⟨h1, _, (key _).2 ⟨z, h6, rfl⟩, rfl⟩

/-- **C128.**  If an enum accepts a variant with items in its parentheses and an item of one of the fields is added there,
this is accepted exactly if the field had none yet and the new item can be read on its own; then only this field
changes. -/
theorem c128_enum {e : EnumDef V} (ha : e.Accepted .meta) (hg : e.FieldsFine) (hn : e.Infallible) (hat : e.andThens = [])
    (m : Mode) {lead names pt} (hpt : PathToks lead names pt) {k : Str} {v : Variant V} {i : Nat}
    (hsel : Selects e.variants [] (keyString names) k v i) (hv : v.NamedFine) {segs sp w wt} (hw : KeyToks segs sp w wt)
    (n1 : NoComma wt) {f : Field V} {j : Nat} (ho : Owns v.fields [] (keyString segs) f j)
    (hfl : ∀ f ∈ v.fields, f.flatParsable = true → PlainIgnores (fun key => key = keyString segs)
      (f.flatCall [] (pathSpan pt) (Field.fieldNames v.fields)))
    {ts ts' : List Tok} (hd : Inserted w ts ts') (a b sc : Span) (y y' : EnumVal V)
    (h : (e.dict.inline m [⟨pt ++ [.group .paren ts a b], sc, none⟩]).1 = .ok y) :
    (e.dict.inline m [⟨pt ++ [.group .paren ts' a b], sc, none⟩]).1 = .ok y' ↔
      NotYet v.fields [] j [⟨ts, b, none⟩] ∧ ∃ z, TakesAlone f b sp wt z ∧ y' = (y.1, y.2.set j z) := by
  obtain ⟨h1, vs, h2, h3⟩ := (enum_one_group ha hg hn m hpt hsel hv ts a b sc y).1 h
  rw [hat] at h3
  cases h3
  have key := fun vs' => c128_variant v hv (pathSpan pt) hw n1 ho hfl hd (keyString names) a b [] sc vs vs' h2
  rw [enum_one_group ha hg hn m hpt hsel hv ts' a b sc y', hat]
  constructor
  · rintro ⟨_, vs', h4, h5⟩
    cases h5
    obtain ⟨h0, z, h6, rfl⟩ := (key vs').1 h4
    exact ⟨h0, z, h6, rfl⟩
  · rintro ⟨h0, z, h6, rfl⟩
    exact ⟨h1, _, (key _).2 ⟨h0, z, h6, rfl⟩, rfl⟩

/-! ## Concrete cases -/

/-- An enum with the variant of `omittableVariant`. -/
def omittableEnum : EnumDef (List Bool) := ⟨[omittableVariant], none, none, []⟩

/-- The name `v` selects the variant, and the conditions about the enum and the variant are met; those about the items are
those of `omittable_meets` and of the cases beside C127 and C128. -/
example : Selects omittableEnum.variants [] ['v'] ['v'] omittableVariant 0 ∧ omittableVariant.NamedFine ∧
    omittableEnum.andThens = [] ∧ omittableEnum.Accepted .meta ∧ omittableEnum.FieldsFine ∧ omittableEnum.Infallible := by
  obtain ⟨h1, _, _, _, h5, h6, h7, _⟩ := omittable_meets 0
  have hone : ∀ v ∈ omittableEnum.variants, v = omittableVariant := fun v hv => by
    simpa only [omittableEnum, List.mem_singleton] using hv
  refine ⟨⟨rfl, rfl, ⟨rfl, rfl⟩, .head _, fun j w hj => absurd hj (by omega)⟩, ⟨rfl, rfl, h1, h5, h6, h7⟩, rfl, ?_, ?_, ?_⟩
  · intro v hv _
    rw [hone v hv]
    refine ⟨?_, fun h => (by cases h), fun h => (by cases h), fun _ => rfl⟩
    intro f hf hp
    simp only [omittableVariant, omittable, List.mem_cons, List.not_mem_nil, or_false] at hf
    rcases hf with rfl | rfl | rfl <;> cases hp
  · intro v hv _
    rw [hone v hv]
    exact ⟨h5.item, h5.flat, h5.flatUnnamed⟩
  · intro v hv _ ht
    rw [hone v hv] at ht
    cases ht

/-- `v(p, b, q)` without `b`, with `a = false` in the place of `b`, and with both. -/
example : letI : Env := ⟨fun a _ => some a, fun _ _ => 0, 1⟩
    ((omittableEnum.dict.inline (.named 0) [⟨[.ident ['v'] 0, .group .paren [.ident ['p'] 1, .punct ',' false 2,
      .ident ['b'] 3, .punct ',' false 4, .ident ['q'] 5] 8 9], 0, none⟩]).1 matches .ok (0, [[true], [true, true], []])) ∧
    ((omittableEnum.dict.inline (.named 0) [⟨[.ident ['v'] 0, .group .paren [.ident ['p'] 1, .punct ',' false 2,
      .ident ['q'] 5] 8 9], 0, none⟩]).1 matches .ok (0, [[], [true, true], []])) ∧
    ((omittableEnum.dict.inline (.named 0) [⟨[.ident ['v'] 0, .group .paren [.ident ['p'] 1, .punct ',' false 2,
      .ident ['a'] 3, .punct '=' false 6, .ident "false".toList 7, .punct ',' false 4, .ident ['q'] 5] 8 9], 0,
      none⟩]).1 matches .ok (0, [[false], [true, true], []])) ∧
    ((omittableEnum.dict.inline (.named 0) [⟨[.ident ['v'] 0, .group .paren [.ident ['b'] 1, .punct ',' false 2,
      .ident ['p'] 1, .punct ',' false 2, .ident ['a'] 3, .punct '=' false 6, .ident "false".toList 7,
      .punct ',' false 4, .ident ['q'] 5] 8 9], 0, none⟩]).1 matches .err _) := by
  decide +kernel

end
end Deluxe
