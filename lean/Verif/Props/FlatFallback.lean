import Verif.Props.FlatVariants
import Verif.Props.WriteFlatEnum
/-!
# C116, continued: the fallback variant, and variants that take any key

macros/types/variant.rs:285-470; macros/types/enum.rs:68-165.  A flattened variant without a required field is read if no
other variant is there.  A flattened variant that takes any key is read like a structure, unless keys of other flattened
variants are written beside it.
-/
namespace Deluxe

variable {V : Type}

section
variable [Env]

/-- The key of an item is determined by its tokens. -/
theorem KeyToks.key_eq {segs segs' : List Str} {sp sp' : Span} {v vt vt' : List Tok} (h : KeyToks segs sp v vt)
    (h' : KeyToks segs' sp' v vt') : keyString segs = keyString segs' := by
  have h1 := keyed_key (fun key _ s => ((Res.ok key, s) : Res Str × Stream)) h (rest := []) (.inl rfl) 0 none
  rw [keyed_key (fun key _ s => ((Res.ok key, s) : Res Str × Stream)) h' (rest := []) (.inl rfl) 0 none] at h1
  have := congrArg Prod.fst h1
  exact (Res.ok.inj this).symm

omit [Env] in
theorem Items.each {β : Type} {seg : List Tok → List Tok → Span → β → Prop} {sc v bs} (h : Items seg sc v bs) :
    ∀ b ∈ bs, ∃ v rest sc, seg v rest sc b := by
  induction h with
  | nil => simp
  | last h1 h2 => simpa using ⟨_, _, _, h2⟩
  | cons h1 h2 _ ih =>
    intro b hb
    rcases List.mem_cons.1 hb with rfl | hb
    · exact ⟨_, _, _, h2⟩
    · exact ih b hb

omit [Env] in
theorem ItemsAll.each {β : Type} {seg : List Tok → List Tok → Span → β → Prop} {l bs} (h : ItemsAll seg l bs) :
    ∀ b ∈ bs, ∃ v rest sc, seg v rest sc b := by
  induction h with
  | nil => simp
  | cons h1 _ ih =>
    intro b hb
    rcases List.mem_append.1 hb with hb | hb
    · exact h1.each b hb
    · exact ih b hb

omit [Env] in
theorem named_nil {bs : List (EItem V)} (h : named bs = []) : ∀ b ∈ bs, ∃ key sp, b = .other key sp := by
  induction bs with
  | nil => simp
  | cons b bs ih =>
    cases b with
    | variant i k sp x => simp [named] at h
    | other key sp =>
      intro c hc
      rcases List.mem_cons.1 hc with rfl | hc
      · exact ⟨_, _, rfl⟩
      · exact ih h c hc

/-- Messages about the items do not depend on the check if every key is allowed. -/
theorem itemMsgs_allowed {allowed : List Str} {bs : List (SItem V)} (h : ∀ key sp, .other key sp ∈ bs → key ∈ allowed)
    (check check' : Bool) (seen : List Nat) : itemMsgs check allowed seen bs = itemMsgs check' allowed seen bs := by
  induction bs generalizing seen with
  | nil => rfl
  | cons b bs ih =>
    have ih := fun seen => ih (fun key sp hm => h key sp (List.mem_cons_of_mem _ hm)) seen
    cases b with
    | field i name sp x => simp only [itemMsgs, ih]
    | other key sp =>
      have hk := h key sp List.mem_cons_self
      simp only [itemMsgs, ih, unknownMsgs, hk, not_true_eq_false, and_false, if_false]

/-- If all keys are allowed it does not matter whether they are checked. -/
theorem namedFlat_allowed (d : Fields V) (hg : FieldsGood d.fields) {allowed : List Str} (mode : Mode) (pre : Str)
    {l bs} (h : ItemsAll (StructSeg d.fields pre) l bs) (hk : ∀ key sp, .other key sp ∈ bs → key ∈ allowed)
    (validate validate' : Bool) :
    (namedFlat d allowed mode pre validate l).1 = (namedFlat d allowed mode pre validate' l).1 := by
  obtain ⟨rs, l1, h1, rfl⟩ := structItems (d.fields.any (·.flatParsable)) h
  obtain ⟨e1, _, a1, a2, _⟩ := namedFlat_reads d hg allowed mode pre validate h1
  obtain ⟨e2, _, b1, b2, _⟩ := namedFlat_reads d hg allowed mode pre validate' h1
  rw [itemMsgs_allowed hk _ (!d.allowUnknown && validate')] at a2
  rw [a1, b1, Errors.ext_toList (a2.trans b2.symm)]

/-- None of the keys belongs to another flattened variant only. -/
def NoOtherVariant (e : EnumDef V) (i : Nat) (v : Variant V) (keys : List Str) : Prop :=
  ∀ (j : Nat) (w : Variant V) (n : Str), e.variants[j]? = some w → j ≠ i → n ∈ w.spelled → n ∈ keys → n ∈ v.spelled

omit [Env] in
theorem extraMsgs_nil {e : EnumDef V} {i : Nat} {v : Variant V} {ks : List (Str × Span)} :
    v.extraMsgs e i ks = [] ↔
      (v.acceptsAll = true → v.allowUnknown.getD false = false → e.unknownOk = false →
        NoOtherVariant e i v (ks.map (·.1))) := by
  unfold Variant.extraMsgs
  by_cases hc : (v.acceptsAll && !v.allowUnknown.getD false && !e.unknownOk) = true
  · rw [if_pos hc]
    simp only [Bool.and_eq_true, Bool.not_eq_true'] at hc
    simp only [hc.1.1, hc.1.2, hc.2, forall_const]
    constructor
    · intro h j w n hw hji hn hk
      simp only [otherMsgs, List.filterMap_eq_nil_iff, List.mem_flatMap] at h
      have h1 := h n ⟨(w, j), List.mem_zipIdx_iff_getElem?.2 hw, by simpa [hji] using hn⟩
      by_cases hs : n ∈ v.spelled
      · exact hs
      · rw [if_neg hs] at h1
        have h2 := (lastSpan_isSome ks n).2 hk
        cases hl : lastSpan ks n with
        | none => rw [hl] at h2; cases h2
        | some x => rw [hl] at h1; cases h1
    · intro h
      refine otherMsgs_some_nil fun j u n hu hji hn => ?_
      by_cases hs : n ∈ v.spelled
      · rw [if_pos hs]
      · rw [if_neg hs]
        cases hl : lastSpan ks n with
        | none => rfl
        | some x => exact absurd (h j u n hu hji hn ((lastSpan_isSome ks n).1 (by rw [hl]; rfl))) hs
  · rw [if_neg hc]
    refine ⟨fun _ h1 h2 h3 => ?_, fun _ => rfl⟩
    rw [h1, h2, h3] at hc
    simp at hc

omit [Env] in
theorem flatOut_same {e : EnumDef V} {i : Nat} {r : Res (List V)} {extra : List Msg} {out : Res (EnumVal V)}
    (h : FlatOut e i r extra out) :
    (∀ y, out = .ok y ↔ ∃ vs, r = .ok vs ∧ extra = [] ∧ runThens e.andThens (i, vs) = .ok y) ∧
    ∀ err, r = .err err → FailsWith out (err.toList ++ extra) := by
  cases r with
  | ok vs =>
    refine ⟨fun y => ?_, fun err h => nomatch h⟩
    rw [finishes_ok h]
    simp
  | err err =>
    refine ⟨fun y => ?_, fun err2 h2 => by cases h2; exact h⟩
    obtain ⟨err', h2, _⟩ := h
    rw [h2]
    simp
  | panic => exact h.elim

/-- C116 for every flattened variant all of whose fields without default are given, if this is true of no other: the enum
is accepted exactly if a structure with these fields is, and, for a variant that takes any key where unknown fields are
not allowed, no key of another flattened variant is there. Messages of the structure come first. -/
theorem c116_beside {e : EnumDef V} (ha : e.Accepted .meta) (hg : e.FieldsFine) (hn : e.Infallible)
    (hd : e.DistinctKeys) (mode : Mode) (validate : Bool) {l bs} (h : ItemsAll (EnumSeg e .meta []) l bs) (h0 : named bs = [])
    {i : Nat} {v : Variant V} (h1 : Applies e ((seenKeys [] bs).map (·.1)) i v)
    (hu : ∀ j w, Applies e ((seenKeys [] bs).map (·.1)) j w → j = i) :
    (∀ y, (enumFlat e .meta mode [] validate l).1 = .ok y ↔
      ∃ vs, (v.asStruct.dict.inline (.named (mode.toFullSpan l)) l).1 = .ok vs ∧
        (v.acceptsAll = true → v.allowUnknown.getD false = false → e.unknownOk = false →
          NoOtherVariant e i v ((seenKeys [] bs).map (·.1))) ∧ runThens e.andThens (i, vs) = .ok y) ∧
    ∀ err, (v.asStruct.dict.inline (.named (mode.toFullSpan l)) l).1 = .err err →
      ∃ more, FailsWith (enumFlat e .meta mode [] validate l).1 (err.toList ++ more) := by
  have hm := List.mem_of_getElem? h1.at_
  have hacc := ha v hm h1.flat.2
  have ht : v.isTransparent = false := by
    cases h : v.isTransparent with
    | false => rfl
    | true => have := h1.flat.1; rw [(hacc.transparent h).1] at this; cases this
  have key := c45_unique ha hg hn hd mode [] validate h h0 h1 hu
  rw [← Variant.asStruct_inline (hacc.flatten h1.flat.1) ht] at key
  obtain ⟨k1, k2⟩ := flatOut_same key
  refine ⟨fun y => (k1 y).trans ?_, fun err he => ⟨_, k2 err he⟩⟩
  simp only [extraMsgs_nil]

/-- C116 for the fallback, the flattened variant without required fields: where no variant is named and no other one
applies, and all keys are its own or it takes any key, the enum is accepted exactly if a structure with its fields is, with
the same value, and for a variant that takes any key with no key of other flattened variants where unknown fields are not
allowed. -/
theorem c116_fallback {e : EnumDef V} (ha : e.Accepted .meta) (hg : e.FieldsFine) (hn : e.Infallible)
    (hd : e.DistinctKeys) (mode : Mode) (validate : Bool) {i : Nat} {v : Variant V} {l : List Stream}
    {bs : List (EItem V × SItem V)}
    (h : ItemsAll (fun toks rest sc b => EnumSeg e .meta [] toks rest sc b.1 ∧ StructSeg v.fields [] toks rest sc b.2) l bs)
    (h0 : named (bs.map (·.1)) = []) (h1 : ∀ j w, ¬ Applies e ((seenKeys [] (bs.map (·.1))).map (·.1)) j w)
    (hv : e.variants[i]? = some v) (hf : v.ByFields) (hk : v.Keyless)
    (hown : v.acceptsAll = true ∨ ∀ k ∈ allKeys [] (bs.map (·.1)), k.1 ∈ Field.fieldNames v.fields) :
    (∀ y, (enumFlat e .meta mode [] validate l).1 = .ok y ↔
      ∃ vs, (v.asStruct.dict.inline (.named (mode.toFullSpan l)) l).1 = .ok vs ∧
        (v.acceptsAll = true → v.allowUnknown.getD false = false → e.unknownOk = false →
          NoOtherVariant e i v ((seenKeys [] (bs.map (·.1))).map (·.1))) ∧ runThens e.andThens (i, vs) = .ok y) ∧
    ∀ err, (v.asStruct.dict.inline (.named (mode.toFullSpan l)) l).1 = .err err →
      ∃ more, FailsWith (enumFlat e .meta mode [] validate l).1 (err.toList ++ more) := by
  have hm := List.mem_of_getElem? hv
  have hacc := ha v hm hf.2
  have hfine := hg v hm hf.2
  have hs := hacc.flatten hf.1
  have ht : v.isTransparent = false := by
    cases h : v.isTransparent with
    | false => rfl
    | true => have := hf.1; rw [(hacc.transparent h).1] at this; cases this
  have he := h.map (seg' := EnumSeg e .meta []) (f := (·.1)) fun _ _ _ _ hb => hb.1
  have key := c45_keyless ha hg hn hd mode [] validate he h0 h1 hv hf hk hown
  have hsame : (namedFlat (v.data .meta (mode.toFullSpan l)) (Field.fieldNames v.fields)
      (.named (mode.toFullSpan l)) [] false l).1 =
      (namedFlat (v.data .meta (mode.toFullSpan l)) (Field.fieldNames v.fields)
        (.named (mode.toFullSpan l)) [] (!v.acceptsAll) l).1 := by
    rcases hown with hall | hown
    · rw [hall]; rfl
    · have hgood : FieldsGood (v.data .meta (mode.toFullSpan l)).fields :=
        ⟨fun f hf _ n sp => (hfine.item f hf).named n sp, fun f hf n sp => (hfine.item f hf).missing n sp, hfine.flat hs⟩
      refine namedFlat_allowed _ hgood _ [] (h.map (seg' := StructSeg v.fields []) (f := (·.2)) fun _ _ _ _ hb => hb.2)
        (fun key sp hkey => ?_) _ _
      have hall : ∀ b ∈ bs, ∀ key sp, b.2 = .other key sp → ∃ sp', b.1 = .other key sp' := by
        intro b hb key sp hb2
        obtain ⟨key', sp', hb1⟩ := named_nil h0 b.1 (List.mem_map_of_mem hb)
        obtain ⟨toks, rest, sc, h2, h3⟩ := h.each b hb
        rw [hb1] at h2
        rw [hb2] at h3
        cases h2 with
        | other q1 _ _ =>
          cases h3 with
          | other q2 _ _ => exact ⟨sp', by rw [hb1, q1.key_eq q2]⟩
      obtain ⟨b, hb, hb2⟩ := List.mem_map.1 hkey
      obtain ⟨sp', hb1⟩ := hall b hb key sp hb2
      refine hown (key, sp') (List.mem_map.2 ⟨_, List.mem_map.2 ⟨b, hb, hb1⟩, rfl⟩)
  rw [hsame, ← Variant.asStruct_inline hs ht] at key
  obtain ⟨k1, k2⟩ := flatOut_same key
  refine ⟨fun y => (k1 y).trans ?_, fun err he => ⟨_, k2 err he⟩⟩
  simp only [extraMsgs_nil]

/-! ## Example -/

/-- `enum E { #[deluxe(flatten)] D { #[deluxe(default)] a: bool, #[deluxe(default)] b: Option<bool> } }` -/
def fallbackVariant : Variant (List Bool) :=
  { optionalVariant (some []) with
    fields := [{ plainField "a".toList (boolDict.map ([·])) with default := some [false] },
      { plainField "b".toList ((optionDict boolDict).map Option.toList) with default := some [] }] }

def fallbackEnum : EnumDef (List Bool) := ⟨[fallbackVariant], none, none, []⟩

omit [Env] in
theorem fallbackEnum_fine : fallbackEnum.Accepted .meta ∧ fallbackEnum.FieldsFine ∧ fallbackEnum.Infallible := by
  refine ⟨fun v hv _ => ?_, fun v hv _ => ?_, fun v hv _ ht => ?_⟩ <;>
    simp only [fallbackEnum, List.mem_cons, List.not_mem_nil, or_false] at hv <;> subst hv
  · refine ⟨fun f hf hp => ?_, fun hs => by simp [fallbackVariant, optionalVariant] at hs,
      fun ht => by simp [fallbackVariant, optionalVariant, Variant.isTransparent] at ht, fun _ => rfl⟩
    simp only [fallbackVariant, List.mem_cons, List.not_mem_nil, or_false] at hf
    rcases hf with rfl | rfl <;> simp [plainField, Field.isParsable, Field.isContainer] at hp
  · refine ⟨fun f hf => ?_, fun _ f hf hp => ?_, fun hs => by simp [fallbackVariant, optionalVariant] at hs⟩ <;>
      simp only [fallbackVariant, List.mem_cons, List.not_mem_nil, or_false] at hf <;> rcases hf with rfl | rfl
    · exact Dict.map_good _ boolDict_good
    · exact Dict.map_good _ (optionDict_good boolDict_good)
    · simp [plainField, Field.flatParsable, Field.isFlat, Field.isFlatten] at hp
    · simp [plainField, Field.flatParsable, Field.isFlat, Field.isFlatten] at hp
  · simp [fallbackVariant, optionalVariant, Variant.isTransparent] at ht

omit [Env] in
theorem fallback_keyless : fallbackVariant.Keyless := by
  intro f hf hr
  simp only [fallbackVariant, List.mem_cons, List.not_mem_nil, or_false] at hf
  rcases hf with rfl | rfl <;> cases hr.2.2

/-- C116: the fallback is read from `a = true` like the structure. -/
example : (enumFlat fallbackEnum .meta (.named 0) [] true [⟨aTrue, 4, none⟩]).1 = .ok (0, [[true], []]) := by
  obtain ⟨h1, h2, h3⟩ := fallbackEnum_fine
  have hk : KeyToks ["a".toList] 1 aTrue [.punct '=' false 2, .ident "true".toList 3] :=
    .mk (pt := [.ident "a".toList 1]) (.plain (.one _ _)) (by simp [StartsColon2])
  have hi : ItemsAll (fun toks rest sc b => EnumSeg fallbackEnum .meta [] toks rest sc b.1 ∧
      StructSeg fallbackVariant.fields [] toks rest sc b.2) [⟨aTrue, 4, none⟩]
      [(.other "a".toList 1, .field 0 "a".toList 1 (.ok [true]))] := by
    refine .cons (bs := [_]) (.last (by simp [aTrue]) ⟨?_, ?_⟩) .nil
    · exact .other (segs := ["a".toList]) hk ((selected_none _ _ _).1 rfl) (by simp [NoComma, Comma])
    · refine .field (segs := ["a".toList]) (f := fallbackVariant.fields.head (by simp [fallbackVariant])) hk ?_ ?_
      · exact ⟨"a".toList, rfl, rfl, ⟨rfl, rfl⟩, List.mem_cons_self, fun j g hj => absurd hj (Nat.not_lt_zero j)⟩
      · exact fun u => ⟨u, rfl⟩
  refine ((c116_fallback h1 h2 h3 (distinct_of (by decide)) (.named 0) true (i := 0) (v := fallbackVariant) hi rfl
    (fun j w hw => ?_) rfl ⟨rfl, rfl⟩ fallback_keyless (.inr (by decide))).1 _).2
    ⟨[[true], []], rfl, fun h => (by cases h), rfl⟩
  match j with
  | 0 => have := hw.at_; cases this; exact hw.required fallback_keyless
  | j + 1 => have := hw.at_; simp [fallbackEnum] at this

end
end Deluxe
