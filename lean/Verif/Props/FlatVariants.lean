import Verif.Props.Variants
import Verif.Props.Enums
/-!
# C116: a flattened variant is read like a structure with its fields

macros/types/variant.rs:37-53, 285-470; macros/types/enum.rs:68-165.  The fields that select a flattened variant are those
without a default (`Field.Required`). The type of a field plays no role, so a field `Option<T>` is among them.
-/
namespace Deluxe

variable {V : Type}

section
variable [Env]

theorem Variant.asStruct_inline {v : Variant V} (hs : v.shape = .named) (ht : v.isTransparent = false) (sp : Span) (m : Mode) :
    v.asStruct.dict.inline m = namedFlat (v.data .meta sp) (Field.fieldNames v.fields) m [] (!v.acceptsAll) := by
  have ht' : v.asStruct.isTransparent = false := by
    have : v.transparent.getD false = false := ht
    simp [StructDef.isTransparent, Variant.asStruct, this]
  have : v.data .meta sp = { v.asStruct.data with emptySpan := sp } := by
    simp only [Variant.data, StructDef.data, ht, ht']; rfl
  rw [this, namedFlat_emptySpan]
  unfold StructDef.dict
  rw [ht', show v.asStruct.shape = .named from hs]
  show v.asStruct.flatNamed.parse m [] (!v.asStruct.acceptsAll) = _
  simp only [StructDef.flatNamed]
  rw [show v.asStruct.andThens = [] from rfl, mapRes_nil]
  rfl

/-- C116, for a flattened variant of whose fields all are given that have no default, if this is true of no other: the enum
has the value that a structure with these fields has, and if the structure is not accepted, the enum is not accepted
either, with the same messages. For variants with a field that takes any key this is for enums or variants that allow
unknown fields; otherwise the keys of the other variants are reported besides. -/
theorem c116_same_partial {e : EnumDef V} (ha : e.Accepted .meta) (hg : e.FieldsFine) (hn : e.Infallible)
    (hd : e.DistinctKeys) (mode : Mode) (validate : Bool) {l bs} (h : ItemsAll (EnumSeg e .meta []) l bs) (h0 : named bs = [])
    {i : Nat} {v : Variant V} (h1 : Applies e ((seenKeys [] bs).map (·.1)) i v)
    (hu : ∀ j w, Applies e ((seenKeys [] bs).map (·.1)) j w → j = i)
    (hx : v.acceptsAll = false ∨ v.allowUnknown = some true ∨ e.unknownOk = true) :
    (∀ y, (enumFlat e .meta mode [] validate l).1 = .ok y ↔
      ∃ vs, (v.asStruct.dict.inline (.named (mode.toFullSpan l)) l).1 = .ok vs ∧ runThens e.andThens (i, vs) = .ok y) ∧
    ∀ err, (v.asStruct.dict.inline (.named (mode.toFullSpan l)) l).1 = .err err →
      ∃ err', (enumFlat e .meta mode [] validate l).1 = .err err' ∧ err'.toList = err.toList := by
  have hm := List.mem_of_getElem? h1.at_
  have hacc := ha v hm h1.flat.2
  have ht : v.isTransparent = false := by
    cases h : v.isTransparent with
    | false => rfl
    | true => have := h1.flat.1; rw [(hacc.transparent h).1] at this; cases this
  have key := c45_unique ha hg hn hd mode [] validate h h0 h1 hu
  rw [← Variant.asStruct_inline (hacc.flatten h1.flat.1) ht] at key
  have he : v.extraMsgs e i (seenKeys [] bs) = [] := by
    unfold Variant.extraMsgs
    rcases hx with hx | hx | hx <;> simp [hx]
  rw [he] at key
  generalize hr : (v.asStruct.dict.inline (.named (mode.toFullSpan l)) l).1 = r at key
  cases r with
  | ok vs =>
    refine ⟨fun y => ?_, fun err h => nomatch h⟩
    rw [finishes_ok key]
    simp
  | err err =>
    simp only [FlatOut, List.append_nil] at key
    obtain ⟨err', h2, h3⟩ := key
    refine ⟨fun y => ?_, fun err2 h => by cases h; exact ⟨err', h2, h3⟩⟩
    rw [h2]; simp
  | panic => exact key.elim

/-- C116 fails for fields that may be left out because of their type: if some field without default is not given, be it an
`Option` or not, in each of the flattened variants, then the enum is not accepted, unless it has a default. -/
theorem c116_optional_violated {e : EnumDef V} (ha : e.Accepted .meta) (hg : e.FieldsFine) (hn : e.Infallible)
    (mode : Mode) (pre : Str) (validate : Bool) {l bs} (h : ItemsAll (EnumSeg e .meta pre) l bs) (h0 : named bs = [])
    (hf : ∀ v ∈ e.variants, v.ByFields → ∃ f ∈ v.fields, f.Required ∧ f.idents ≠ [] ∧
      ∀ k ∈ f.idents, k ∉ (seenKeys pre bs).map (·.1)) (hdef : e.default = none) :
    FailsWith (enumFlat e .meta mode pre validate l).1
      (checkMsgs (!e.unknownOk && validate) e.fieldNames (allKeys pre bs) ++
        [⟨mode.toFullSpan l, .expectedOneOf (e.keyMsgs.map (·.map (·.map (joinPath pre))))⟩]) := by
  refine c54_required ha hg hn mode pre validate h h0 (fun i v ha => ?_) (fun i v hv hb hk => ?_) hdef
  · obtain ⟨f, h1, h2, h3, h4⟩ := hf v (List.mem_of_getElem? ha.at_) ha.flat
    obtain ⟨k, h5, h6⟩ := ha.present f h1 h2 h3
    exact h4 k h5 h6
  · obtain ⟨f, h1, h2, h3, _⟩ := hf v (List.mem_of_getElem? hv) hb
    exact h3 (hk f h1 h2)

/-! ## Examples -/

/-- `enum E { #[deluxe(flatten)] D { a: bool, b: Option<bool> } }`, where the field `b` has the given default -/
def optionalVariant (b : Option (List Bool)) : Variant (List Bool) where
  ident := "D".toList
  shape := .named
  fields := [plainField "a".toList (boolDict.map ([·])),
    { plainField "b".toList ((optionDict boolDict).map Option.toList) with default := b }]
  idents := ["d".toList]
  flatten := some true
  transparent := none
  skip := none
  allowUnknown := none

def optionalEnum (b : Option (List Bool)) : EnumDef (List Bool) := ⟨[optionalVariant b], none, none, []⟩

/-- The tokens `a = true` -/
def aTrue : List Tok := [.ident "a".toList 1, .punct '=' false 2, .ident "true".toList 3]

/-- C116 is violated: the structure may be written `a = true`, the flattened variant may not. With the attribute `default`
on the field of type `Option` it may. -/
theorem c116_violated :
    (∀ m, ((optionalVariant none).asStruct.dict.inline m [⟨aTrue, 4, none⟩]).1 = .ok [[true], []]) ∧
    (∃ err, (enumFlat (optionalEnum none) .meta (.named 0) [] true [⟨aTrue, 4, none⟩]).1 = .err err ∧
      err.toList = [⟨0, .expectedOneOf [[["`a`".toList], ["`b`".toList]]]⟩]) ∧
    (enumFlat (optionalEnum (some [])) .meta (.named 0) [] true [⟨aTrue, 4, none⟩]).1 = .ok (0, [[true], []]) :=
  ⟨fun _ => rfl, ⟨_, rfl, rfl⟩, rfl⟩

omit [Env] in
theorem optionalEnum_fine (b : Option (List Bool)) :
    (optionalEnum b).Accepted .meta ∧ (optionalEnum b).FieldsFine ∧ (optionalEnum b).Infallible := by
  refine ⟨fun v hv _ => ?_, fun v hv _ => ?_, fun v hv _ ht => ?_⟩ <;>
    simp only [optionalEnum, List.mem_cons, List.not_mem_nil, or_false] at hv <;> subst hv
  · refine ⟨fun f hf hp => ?_, fun hs => by simp [optionalVariant] at hs,
      fun ht => by simp [optionalVariant, Variant.isTransparent] at ht, fun _ => rfl⟩
    simp only [optionalVariant, List.mem_cons, List.not_mem_nil, or_false] at hf
    rcases hf with rfl | rfl <;> simp [plainField, Field.isParsable, Field.isContainer] at hp
  · refine ⟨fun f hf => ?_, fun _ f hf hp => ?_, fun hs => by simp [optionalVariant] at hs⟩ <;>
      simp only [optionalVariant, List.mem_cons, List.not_mem_nil, or_false] at hf <;> rcases hf with rfl | rfl
    · exact Dict.map_good _ boolDict_good
    · exact Dict.map_good _ (optionDict_good boolDict_good)
    · simp [plainField, Field.flatParsable, Field.isFlat, Field.isFlatten] at hp
    · simp [plainField, Field.flatParsable, Field.isFlat, Field.isFlatten] at hp
  · simp [optionalVariant, Variant.isTransparent] at ht

theorem optionalEnum_items (b : Option (List Bool)) :
    ItemsAll (EnumSeg (optionalEnum b) .meta []) [⟨aTrue, 4, none⟩] [.other "a".toList 1] := by
  refine .cons (bs := [_]) (.last (by simp [aTrue]) ?_) .nil
  exact .other (segs := ["a".toList]) (vt := [.punct '=' false 2, .ident "true".toList 3])
    (.mk (pt := [.ident "a".toList 1]) (.plain (.one _ _)) (by simp [StartsColon2]))
    ((selected_none _ _ _).1 rfl) (by simp [NoComma, Comma])

/-- C116: with the default the variant is read like a structure. -/
example : (enumFlat (optionalEnum (some [])) .meta (.named 0) [] true [⟨aTrue, 4, none⟩]).1 = .ok (0, [[true], []]) := by
  obtain ⟨h1, h2, h3⟩ := optionalEnum_fine (some [])
  refine ((c116_same_partial h1 h2 h3 (distinct_of (by decide)) (.named 0) true (optionalEnum_items _) rfl (i := 0)
    (v := optionalVariant (some [])) ⟨rfl, ⟨rfl, rfl⟩, fun h => ?_, fun f hf hr _ => ?_⟩ (fun j w hw => ?_) (.inl rfl)).1 _).2
    ⟨[[true], []], rfl, rfl⟩
  · have := h _ List.mem_cons_self ⟨rfl, rfl, rfl⟩
    cases this
  · simp only [optionalVariant, List.mem_cons, List.not_mem_nil, or_false] at hf
    rcases hf with rfl | rfl
    · exact ⟨_, List.mem_cons_self, List.mem_cons_self⟩
    · exact absurd hr.2.2 (by simp)
  · match j with
    | 0 => rfl
    | j + 1 => have := hw.at_; simp [optionalEnum] at this

/-- C116: without it the enum is not accepted. -/
example : FailsWith (enumFlat (optionalEnum none) .meta (.named 0) [] true [⟨aTrue, 4, none⟩]).1
    [⟨0, .expectedOneOf [[["`a`".toList], ["`b`".toList]]]⟩] := by
  obtain ⟨h1, h2, h3⟩ := optionalEnum_fine none
  refine c116_optional_violated h1 h2 h3 (.named 0) [] true (optionalEnum_items _) rfl (fun v hv _ => ?_) rfl
  simp only [optionalEnum, List.mem_cons, List.not_mem_nil, or_false] at hv
  subst hv
  exact ⟨_, List.mem_cons_of_mem _ List.mem_cons_self, ⟨rfl, rfl, rfl⟩, by simp [plainField], by decide⟩

end
end Deluxe
