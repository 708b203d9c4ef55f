import Verif.Lemmas.Grow
import Verif.Props.ReorderFlat
/-!
# C119: extending a definition keeps the old inputs valid

A structure with named fields is extended when fields are added at its end that may be left out, when its fields get
further names, when required fields get a default and when unknown keys are no longer refused.  Whatever was accepted
before is accepted afterwards, and the old fields have the same values.  This needs that the new names were no names of
the structure before, and that the old structure refused unknown keys: one that accepts them may have been given an item
with a new name, which now must be a value of the new field.
-/
namespace Deluxe

variable {V : Type}

/-- `d'` is the structure `d`, extended.  The functions run at the end must not refuse what they accepted. -/
structure StructDef.Grows (d d' : StructDef V) : Prop where
  named : d.shape = .named
  named' : d'.shape = .named
  fields : d.data.Grows d'.data
  fresh : ∀ k, NewName d.fields d'.fields k → k ∉ Field.fieldNames d.fields
  thens : ∀ vs ws v, vs <+: ws → runAndThens d.andThens (.ok vs) = .ok v →
    ∃ w, runAndThens d'.andThens (.ok ws) = .ok w ∧ v <+: w

section
variable [Env] {d d' : StructDef V}

omit [Env] in
theorem mem_fieldNames {fields : List (Field V)} {g : Field V} (hm : g ∈ fields) (hp : g.Plain) {k : Str}
    (hk : k ∈ g.idents) : k ∈ Field.fieldNames fields := by
  refine List.mem_flatMap.2 ⟨g, List.mem_filter.2 ⟨hm, hp.2⟩, ?_⟩
  have h1 : g.isFlatten = false := by
    have := hp.1
    simp only [Field.isFlat, Bool.or_eq_false_iff] at this
    exact this.1.1
  unfold Field.names
  split
  · rename_i h; simp [Field.isFlatten, h] at h1
  · rename_i h; simp [Field.isFlatten, h] at h1
  · exact hk

omit [Env] in
theorem StructDef.Grows.unused (h : d.Grows d') :
    ∀ k, NewName d.fields d'.fields k → ∀ g ∈ d.fields, g.Plain → k ∉ g.idents :=
  fun k hk _ hm hp hi => h.fresh k hk (mem_fieldNames hm hp hi)

omit [Env] in
theorem no_rest (ha : Field.acceptsAll d.fields = false) {f : Field V} (hf : f ∈ d.fields) (pre : Str) (span : Span)
    (allowed allowed' : List Str) : f.flatCall pre span allowed' = f.flatCall pre span allowed := by
  have h : f.rest.getD false = false := by
    simp only [Field.acceptsAll, Bool.or_eq_false_iff, List.any_eq_false] at ha
    simpa using ha.1 f hf
  unfold Field.flatCall
  rw [h]
  rfl

omit [Env] in
theorem acceptsAll_false (h : d.acceptsAll = false) :
    d.allowUnknown.getD false = false ∧ Field.acceptsAll d.fields = false := by
  simpa [StructDef.acceptsAll] using h

/-- The field data of the derive of `ParseMetaItem` or of that of `ParseAttributes`. -/
theorem StructDef.Grows.checked (h : d.Grows d') (site : Site V) (hgr : (d.attrData site).Grows (d'.attrData site))
    (ha : Deluxe.Accepted (d.attrData site)) (ha' : Deluxe.Accepted (d'.attrData site)) (hg : d.FieldsFine) (hg' : d'.FieldsFine)
    (ht : d.isTransparent = false) (ht' : d'.isTransparent = false) (hu : d.acceptsAll = false) (mode : Mode)
    (validate' : Bool) {l : List Stream} {vs : List V}
    (hok : (namedFlat (d.attrData site) (Field.fieldNames d.fields) mode [] true l).1 = .ok vs) :
    ∃ ws, (namedFlat (d'.attrData site) (Field.fieldNames d'.fields) mode [] validate' l).1 = .ok ws ∧ vs <+: ws := by
  obtain ⟨hu1, hu2⟩ := acceptsAll_false hu
  obtain ⟨rs, fatal, l1, hr⟩ := ReadsAll.exists (structItem_good (hg.good h.named).named [])
    (if d.fields.any (·.flatParsable) then forkInputs l else l)
  refine hgr.reads ha ha' ht ht' (hg.good h.named) (hg'.good h.named') h.unused hgr.fieldNames mode [] (fun _ => ?_)
    (fun f hf _ span => no_rest hu2 hf _ _ _ _) hr (fun hi key sp hm k hk he => ?_) hok
  · show (!d.allowUnknown.getD false && true) = true
    rw [hu1]
    rfl
  · refine h.fresh k hk ?_
    rw [List.nil_append] at he
    rw [← he]
    refine hi.known key sp hm ?_
    show (!d.allowUnknown.getD false && true) = true
    rw [hu1]
    rfl

omit [Env] in
theorem Fields.Grows.flatDrain {d d' : Fields V} (h : d.Grows d') (hf : FlatDrain d.fields) : FlatDrain d'.fields := by
  intro f' hm hp
  obtain ⟨i, hi⟩ := List.getElem?_of_mem hm
  by_cases hlt : i < d.fields.length
  · obtain ⟨f, h1, h2⟩ := h.at hi hlt
    have hp' : f.flatParsable = true := h2.flatParsable ▸ hp
    rw [h2.flatCall hp']
    exact hf f (List.mem_of_getElem? h1) hp'
  · have := (h.added i f' (Nat.le_of_not_lt hlt) hi).1
    simp [Field.flatParsable, this] at hp

/-- C119: whatever the fields of a structure that refuses unknown keys are read from, those of the extended structure are
read from too. -/
theorem c119_struct (h : d.Grows d') (ha : d.Accepted) (ha' : d'.Accepted) (hg : d.FieldsFine) (hg' : d'.FieldsFine)
    (ht : d.isTransparent = false) (ht' : d'.isTransparent = false) (hu : d.acceptsAll = false) (mode : Mode)
    {l : List Stream} {vs : List V} (hok : (d.dict.inline mode l).1 = .ok vs) :
    ∃ ws, (d'.dict.inline mode l).1 = .ok ws ∧ vs <+: ws := by
  unfold StructDef.dict at hok ⊢
  simp only [ht, ht', h.named, h.named', Bool.false_eq_true, if_false, Dict.mk', StructDef.flatNamed, M.mapRes, hu,
    Bool.not_false] at hok ⊢
  obtain ⟨us, h1⟩ := runAndThens_from hok
  rw [h1] at hok
  obtain ⟨ws, h2, h3⟩ := h.checked ⟨none, none⟩ h.fields ha.fields ha'.fields hg hg' ht ht' hu mode (!d'.acceptsAll) h1
  obtain ⟨w, h4, h5⟩ := h.thens us ws vs h3 hok
  refine ⟨w, ?_, h5⟩
  have h2 : (namedFlat d'.data (Field.fieldNames d'.fields) mode [] (!d'.acceptsAll) l).1 = .ok ws := h2
  rw [h2]
  exact h4

omit [Env] in
theorem drains_thens {m : M (List Stream) (List V)} (h : Drains m) (thens : List (List V → Except SynErr (List V))) :
    Drains (M.mapRes (runAndThens thens) m) := by
  intro l hl a ha
  obtain ⟨b, hb⟩ := runAndThens_from ha
  exact h l hl b hb

/-- C119: in every form, and both leave the same of the input, if the fields read all of what they are given: alone, in
braces, after `=`, in parentheses, as a flag, and left out. -/
theorem c119_item (h : d.Grows d') (ha : d.Accepted) (ha' : d'.Accepted) (hg : d.FieldsFine) (hg' : d'.FieldsFine)
    (ht : d.isTransparent = false) (ht' : d'.isTransparent = false) (hu : d.acceptsAll = false)
    (hp : PlainTidy d.fields) (hp' : PlainTidy d'.fields) (hf : FlatDrain d.fields) :
    d.dict.ImpFresh (· <+: ·) d'.dict := by
  have k1 : ∀ mode, M.ImpOn Fresh (· <+: ·) (d.flatNamed.parse mode [] true)
      (d'.flatNamed.parse mode [] (!d'.acceptsAll)) := by
    intro mode l hl vs hok
    have key := c119_struct h ha ha' hg hg' ht ht' hu mode (l := l) (vs := vs)
    unfold StructDef.dict at key
    simp only [ht, ht', h.named, h.named', Bool.false_eq_true, if_false, Dict.mk', hu, Bool.not_false] at key
    obtain ⟨ws, h1, h2⟩ := key hok
    refine ⟨ws, h1, h2, ?_⟩
    exact (drains_thens (namedFlat_drains_all (d := d.data) (hg.good h.named) hp hf _ _ _ _) _ l hl vs hok).trans
      (drains_thens (namedFlat_drains_all (d := d'.data) (hg'.good h.named') hp' (h.fields.flatDrain hf) _ _ _ _) _ l hl ws
        h1).symm
  unfold StructDef.dict
  simp only [ht, ht', h.named, h.named', Bool.false_eq_true, if_false, Dict.mk', hu, Bool.not_false]
  have p := fun m => (k1 m).single.delimited .brace
  have f := fun sp => (k1 (.named sp)).single.parseEmpty sp
  refine ⟨p, k1, f, fun n sp => M.ImpOn.namedItem p k1 f sp, fun n sp v hv => ?_⟩
  dsimp only [StructDef.missing] at hv ⊢
  rcases h.fields.target with ⟨h1, h2⟩ | ⟨t, u, h1, h2⟩
  · have h1 : d.default = none := h1
    rw [h1] at hv
    cases hv
  · have h1 : d.default = some t := h1
    have h2 : d'.default = some (t ++ u) := h2
    rw [h1] at hv
    rw [h2]
    cases hv
    exact ⟨_, rfl, List.prefix_append _ _⟩

/-- C119: the attributes of an object. -/
theorem c119_attributes {O : Type} (h : d.Grows d') (ha : d.AttrAccepted) (ha' : d'.AttrAccepted) (hg : d.FieldsFine)
    (hg' : d'.FieldsFine) (ht : d.isTransparent = false) (ht' : d'.isTransparent = false) (hu : d.acceptsAll = false)
    (hp : PlainTidy d.fields) (hp' : PlainTidy d'.fields) (hf : FlatDrain d.fields) (attributes : List (List Str))
    (attrs : HasAttrs O) (container : O → V) (o : O)
    (hgr : ∀ obj name, (d.attrData ⟨some obj, name⟩).Grows (d'.attrData ⟨some obj, name⟩)) :
    Res.Imp (· <+: ·) ((d.attrTarget attributes).parseAttributes attrs container o)
        ((d'.attrTarget attributes).parseAttributes attrs container o) ∧
      Res.Imp (· <+: ·) ((d.attrTarget attributes).extractAttributes attrs container o).1
        ((d'.attrTarget attributes).extractAttributes attrs container o).1 := by
  have k1 : ∀ obj name mode, M.ImpOn Fresh (· <+: ·) (d.attrBody ⟨some obj, name⟩ mode)
      (d'.attrBody ⟨some obj, name⟩ mode) := by
    intro obj name mode l hl vs hok
    unfold StructDef.attrBody at hok ⊢
    simp only [ht, ht', h.named, h.named', Bool.false_eq_true, if_false, hu, Bool.not_false] at hok ⊢
    have hok' : runAndThens d.andThens (namedFlat (d.attrData ⟨some obj, name⟩) (Field.fieldNames d.fields) mode [] true
        l).1 = .ok vs := hok
    obtain ⟨us, h1⟩ := runAndThens_from hok'
    rw [h1] at hok'
    obtain ⟨ws, h2, h3⟩ := h.checked _ (hgr obj name) (ha.data _ _) (ha'.data _ _) hg hg' ht ht' hu mode (!d'.acceptsAll) h1
    obtain ⟨w, h4, h5⟩ := h.thens us ws vs h3 hok'
    have h6 : (M.mapRes (runAndThens d'.andThens) (namedFlat (d'.attrData ⟨some obj, name⟩)
        (Field.fieldNames d'.fields) mode [] (!d'.acceptsAll)) l).1 = .ok w := by
      simp only [M.mapRes, h2]
      exact h4
    refine ⟨w, h6, h5, ?_⟩
    exact (drains_thens (namedFlat_drains_all (d := d.attrData _) (hg.good h.named) hp hf _ _ _ _) _ l hl vs hok).trans
      (drains_thens (namedFlat_drains_all (d := d'.attrData _) (hg'.good h.named') hp' ((hgr obj name).flatDrain hf) _ _ _ _) _ l
        hl w h6).symm
  have key := fun obj toks => parseStructAttrTokens_imp (R := (· <+: ·)) (func := (d.attrTarget attributes).func obj)
    (func' := (d'.attrTarget attributes).func obj) (fun ps => k1 _ _ _) toks
  refine ⟨key _ _, ?_⟩
  unfold AttrTarget.extractAttributes
  cases attrs.attrsMut o with
  | error e => exact fun a ha => (nomatch ha)
  | ok x => exact key _ _

/-- C119: the fields of the structure on well-formed input if unknown keys are not refused, as part of another structure
for example (`pre` is the prefix of its keys): if no item that belongs to no field has one of the new names, and the
structure has no field for the rest of the items. -/
theorem c119_unchecked (h : d.Grows d') (ha : d.Accepted) (ha' : d'.Accepted) (hg : d.FieldsFine) (hg' : d'.FieldsFine)
    (ht : d.isTransparent = false) (ht' : d'.isTransparent = false) (hr : ∀ f ∈ d.fields, f.rest.getD false = false)
    (mode : Mode) (pre : Str) {l : List Stream} {bs : List (SItem V)} (hi : ItemsAll (StructSeg d.fields pre) l bs)
    (hk : ∀ key sp, .other key sp ∈ bs → ∀ k, NewName d.fields d'.fields k → key ≠ pre ++ k) {vs : List V}
    (hok : (d.flatNamed.parse mode pre false l).1 = .ok vs) :
    ∃ ws, (d'.flatNamed.parse mode pre false l).1 = .ok ws ∧ vs <+: ws := by
  simp only [StructDef.flatNamed, M.mapRes] at hok ⊢
  obtain ⟨us, h1⟩ := runAndThens_from hok
  rw [h1] at hok
  obtain ⟨rs, l1, h6, rfl⟩ := structItems (d.fields.any (·.flatParsable)) hi
  obtain ⟨ws, h2, h3⟩ := h.fields.reads ha.fields ha'.fields ht ht' (hg.good h.named) (hg'.good h.named') h.unused
    h.fields.fieldNames mode pre (validate' := false) (by simp) (fun f hf _ span => by
      unfold Field.flatCall
      rw [hr f hf]
      rfl) h6 (fun _ => hk) h1
  obtain ⟨w, h4, h5⟩ := h.thens us ws vs h3 hok
  refine ⟨w, ?_, h5⟩
  have h2 : (namedFlat d'.data (Field.fieldNames d'.fields) mode pre false l).1 = .ok ws := h2
  rw [h2]
  exact h4

omit [Env] in
/-- C119: a field with a default may be left out, if its functions accept the default. -/
theorem c119_default {d : Fields V} {f : Field V} (hf : f.isContainer = false) (hn : f.isFlat = false) {i : Nat} {v w : V}
    (hd : f.default = some v) (hw : runTransforms f.transforms v = .ok w) : MayBeLeftOut d f i := by
  refine fun n sp => ⟨w, .inl ⟨v, .default ?_ hd, hw⟩⟩
  cases hp : f.isParsable with
  | true => exact .inl ⟨⟨hn, hp⟩, rfl⟩
  | false => exact .inr ⟨hp, by simp [hf]⟩

omit [Env] in
/-- C119: so may a field whose type may be missing. -/
theorem c119_optional {d : Fields V} {f : Field V} (hf : f.Plain) {i : Nat} (hd : f.default = none) (ht : d.target = none)
    (hm : ∀ n sp, ∃ v w, f.item.missing n sp = .ok v ∧ runTransforms f.transforms v = .ok w) : MayBeLeftOut d f i := by
  intro n sp
  obtain ⟨v, w, h1, h2⟩ := hm n sp
  exact ⟨w, .inl ⟨v, .missing hf rfl hd ht h1, h2⟩⟩

/-! ## Cases -/

/-- `struct { a: bool, b: bool }` -/
def oldDef : StructDef Bool := ⟨.named, [plainField ['a'] boolDict, plainField ['b'] boolDict], none, none, none, []⟩

/-- `struct { #[deluxe(alias = aa)] a: bool, #[deluxe(default)] b: bool, #[deluxe(default = true)] c: bool }`, which allows
unknown fields. -/
def newDef : StructDef Bool :=
  ⟨.named, [{ plainField ['a'] boolDict with idents := [['a'], ['a', 'a']] },
    { plainField ['b'] boolDict with default := some false }, { plainField ['c'] boolDict with default := some true }],
    none, none, some true, []⟩

/-- A structure that allows unknown fields, before and after it gets a further field. -/
def openBefore : StructDef Bool := ⟨.named, [plainField ['a'] boolDict], none, none, some true, []⟩

def openAfter : StructDef Bool :=
  ⟨.named, [plainField ['a'] boolDict, { plainField ['c'] boolDict with default := some true }], none, none, some true, []⟩

omit [Env] in
/-- C119: `oldDef` grows to `newDef`. -/
theorem oldDef_grows : oldDef.Grows newDef where
  named := rfl
  named' := rfl
  fields := by
    refine ⟨fun i f hf => ?_, fun i f' hi hf' => ?_, .inl ⟨rfl, rfl⟩, rfl, rfl, fun h => (by cases h)⟩
    · match i with
      | 0 => cases hf; exact ⟨_, rfl, rfl, rfl, by simp [plainField], fun h => (by cases h), .inl rfl⟩
      | 1 =>
        cases hf
        exact ⟨_, rfl, rfl, rfl, by simp [plainField], fun h => (by cases h), .inr ⟨⟨rfl, rfl⟩, rfl, rfl, fun n sp v h => (by cases h)⟩⟩
      | n + 2 => cases hf
    · match i with
      | 0 => simp [oldDef, StructDef.data] at hi
      | 1 => simp [oldDef, StructDef.data] at hi
      | 2 => cases hf'; exact ⟨rfl, c119_default rfl rfl rfl rfl⟩
      | n + 3 => cases hf'
  fresh := by
    rintro k ⟨i, f', hf', -, hk, hn⟩ hm
    have hm : k = ['a'] ∨ k = ['b'] := by simpa [oldDef, Field.fieldNames, Field.isParsable, Field.isContainer, Field.names,
      plainField] using hm
    match i with
    | 0 => cases hf'; have := hn _ rfl; simp [plainField] at hk this; rcases hm with rfl | rfl <;> simp at hk this
    | 1 => cases hf'; have := hn _ rfl; simp [plainField] at hk this; exact this hk
    | 2 => cases hf'; simp [plainField] at hk; rcases hm with rfl | rfl <;> simp at hk
    | n + 3 => cases hf'
  thens := fun vs ws v hp hv => ⟨ws, rfl, by cases hv; exact hp⟩

/-- C119: the other hypotheses hold of them. -/
example : oldDef.Accepted ∧ newDef.Accepted ∧ oldDef.FieldsFine ∧ newDef.FieldsFine ∧ oldDef.isTransparent = false ∧
    newDef.isTransparent = false ∧ oldDef.acceptsAll = false ∧ PlainTidy oldDef.fields ∧ PlainTidy newDef.fields ∧
    FlatDrain oldDef.fields := by
  have hb : ∀ {p : Field Bool → Prop}, (∀ f ∈ oldDef.fields, p f) ↔ p (plainField ['a'] boolDict) ∧ p (plainField ['b'] boolDict) := by
    simp [oldDef]
  have ha : ∀ {p : Field Bool → Prop}, (∀ f ∈ newDef.fields, p f) ↔
      p { plainField ['a'] boolDict with idents := [['a'], ['a', 'a']] } ∧
      p { plainField ['b'] boolDict with default := some false } ∧ p { plainField ['c'] boolDict with default := some true } := by
    simp [newDef]
  have hg := boolDict_good
  have ht : ∀ n sp, Tidy (boolDict.named n sp) := boolDict_tidy
  exact ⟨⟨⟨hb.2 ⟨fun h => (by cases h), fun h => (by cases h)⟩, fun _ h => (by cases h)⟩, fun h => (by cases h), fun h => (by cases h)⟩,
    ⟨⟨ha.2 ⟨fun h => (by cases h), fun h => (by cases h), fun h => (by cases h)⟩, fun _ h => (by cases h)⟩, fun h => (by cases h),
      fun h => (by cases h)⟩,
    ⟨hb.2 ⟨hg, hg⟩, fun _ => hb.2 ⟨fun h => (by cases h), fun h => (by cases h)⟩, fun h => (by cases h)⟩,
    ⟨ha.2 ⟨hg, hg, hg⟩, fun _ => ha.2 ⟨fun h => (by cases h), fun h => (by cases h), fun h => (by cases h)⟩, fun h => (by cases h)⟩,
    rfl, rfl, rfl, hb.2 ⟨fun _ _ => ht, fun _ _ => ht⟩, ha.2 ⟨fun _ _ => ht, fun _ _ => ht, fun _ _ => ht⟩,
    hb.2 ⟨fun h => (by cases h), fun h => (by cases h)⟩⟩

/-- C119: `b = false, a` before and after the extension. -/
example :
    (oldDef.dict.inline .unnamed [⟨[.ident ['b'] 1, .punct '=' false 2, .ident "false".toList 3, .punct ',' false 4,
      .ident ['a'] 5], 0, none⟩]).1 = .ok [true, false] ∧
    (newDef.dict.inline .unnamed [⟨[.ident ['b'] 1, .punct '=' false 2, .ident "false".toList 3, .punct ',' false 4,
      .ident ['a'] 5], 0, none⟩]).1 = .ok [true, false, true] := ⟨rfl, rfl⟩

/-- C119 fails for structures that allow unknown keys: `a, c = x` was accepted, with the value of `c` ignored.  With a
field `c` of its own it is refused. -/
theorem c119_unknown_violated : ∃ (d d' : StructDef Bool) (l : List Stream), d.Grows d' ∧
    (∃ vs, (d.dict.inline .unnamed l).1 = .ok vs) ∧ ∃ e, (d'.dict.inline .unnamed l).1 = .err e := by
  refine ⟨openBefore, openAfter, [⟨[.ident ['a'] 1, .punct ',' false 2, .ident ['c'] 3, .punct '=' false 4, .ident ['x'] 5], 0,
    none⟩], ⟨rfl, rfl, ⟨fun i f hf => ?_, fun i f' hi hf' => ?_, .inl ⟨rfl, rfl⟩, rfl, rfl, fun h => rfl⟩, ?_, ?_⟩,
    ⟨_, rfl⟩, ⟨_, rfl⟩⟩
  · match i with
    | 0 => cases hf; exact ⟨_, rfl, rfl, rfl, by simp [plainField], fun h => (by cases h), .inl rfl⟩
    | n + 1 => cases hf
  · match i with
    | 0 => simp [openBefore, StructDef.data] at hi
    | 1 => cases hf'; exact ⟨rfl, c119_default rfl rfl rfl rfl⟩
    | n + 2 => cases hf'
  · rintro k ⟨i, f', hf', -, hk, hn⟩ hm
    have hm : k = ['a'] := by simpa [openBefore, Field.fieldNames, Field.isParsable, Field.isContainer, Field.names,
      plainField] using hm
    subst hm
    match i with
    | 0 => cases hf'; exact hn _ rfl hk
    | 1 => cases hf'; simp [plainField] at hk
    | n + 2 => cases hf'
  · exact fun vs ws v hp hv => ⟨ws, rfl, by cases hv; exact hp⟩

end

end Deluxe
