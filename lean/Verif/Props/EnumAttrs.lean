import Verif.Props.Attributes
import Verif.Props.Enums
/-!
# C58, C65, C89: what parsing reads of an object, enums from attributes, and keys that are dropped there
-/
namespace Deluxe

/-! ## C58: what is read -/

section
variable {V α : Type}

/-- C58: parsing from a slice, a single attribute or a node is parsing from the list of its attributes. -/
theorem c58_one_list [Env] {K R : Type} (t : AttrTarget V α) :
    (∀ container l, t.parseAttributes .slice container l = t.parseAttributes .vec container l) ∧
    (∀ container a, t.parseAttributes .single container a =
      t.parseAttributes .vec (fun _ => container a) [a]) ∧
    (∀ container (n : Node K R), t.parseAttributes .node container n =
      t.parseAttributes .vec (fun _ => container n) n.attrs) := by
  simp only [parseAttributes_eq]
  exact ⟨fun _ _ => rfl, fun _ _ => rfl, fun _ _ => rfl⟩

/-- Parsing reads the attributes of a node of the kinds `shown`, and none of one of the kinds `hidden`. -/
def ReadsKinds (t : AttrTarget V α) {K R : Type} (h : HasAttrs (Node K R)) (hidden : K → Prop) : Prop :=
  ∀ container (n : Node K R),
    (¬ hidden n.kind → t.parseAttributes h container n =
      t.parseAttributes .vec (fun _ => container n) n.attrs) ∧
    (hidden n.kind → t.parseAttributes h container n = t.parseAttributes .vec (fun _ => container n) [])

theorem readsKinds (t : AttrTarget V α) {K R : Type} {reads : K → Bool} {writes : K → Option Str}
    {hidden : K → Prop} (h1 : ∀ k, hidden k ↔ reads k = false) :
    ReadsKinds t (HasAttrs.kinds reads writes : HasAttrs (Node K R)) hidden := by
  intro container n
  rw [h1]
  simp only [parseAttributes_eq, HasAttrs.kinds, HasAttrs.vec]
  cases reads n.kind <;> simp

/-- C58: the attributes of expressions, items and patterns are read, except those of `Verbatim` nodes and of
kinds that the crate does not know: these are parsed as if they had none. -/
theorem c58_kinds {R : Type} (t : AttrTarget V α) :
    ReadsKinds t (.kinds ExprKind.reads ExprKind.writes : HasAttrs (Node _ R))
      (fun k => k = .verbatim ∨ k = .unknown) ∧
    ReadsKinds t (.kinds ForeignItemKind.reads ForeignItemKind.writes : HasAttrs (Node _ R))
      (fun k => k = .verbatim ∨ k = .unknown) ∧
    ReadsKinds t (.kinds ImplItemKind.reads ImplItemKind.writes : HasAttrs (Node _ R))
      (fun k => k = .verbatim ∨ k = .unknown) ∧
    ReadsKinds t (.kinds ItemKind.reads ItemKind.writes : HasAttrs (Node _ R))
      (fun k => k = .verbatim ∨ k = .unknown) ∧
    ReadsKinds t (.kinds PatKind.reads PatKind.writes : HasAttrs (Node _ R))
      (fun k => k = .verbatim ∨ k = .unknown) ∧
    ReadsKinds t (.kinds TraitItemKind.reads TraitItemKind.writes : HasAttrs (Node _ R))
      (fun k => k = .verbatim ∨ k = .unknown) := by
  refine ⟨readsKinds t ?_, readsKinds t ?_, readsKinds t ?_, readsKinds t ?_, readsKinds t ?_, readsKinds t ?_⟩ <;>
    intro k <;> cases k <;>
    simp [ExprKind.reads, ForeignItemKind.reads, ImplItemKind.reads, ItemKind.reads, PatKind.reads,
      TraitItemKind.reads]

end

/-! ## C65: enums -/

section
variable {V O : Type} [Env]

theorem enumAttrs_out {e : EnumDef V} {container : O → V} {o : O} {attributes : List (List Str)} {h : HasAttrs O}
    (ha : ∀ x n, e.Accepted ⟨some x, n⟩) (hg : e.FieldsFine) (hn : e.Infallible)
    {ss : List Stream} (hm : ListStreams (matching attributes (h.attrs o)) ss)
    {label : Option Str} {span : Span} (hlabel : label = attrLabel attributes (h.attrs o))
    (hspan : span = attrSpan attributes (h.attrs o))
    (hc : Clean ((e.attrTarget attributes).body ⟨some (container o), label⟩ (.named span) ss).2) :
    (e.attrTarget attributes).parseAttributes h container o =
      (enumFlat e ⟨some (container o), label⟩ (.named span) [] (!e.acceptsAll) ss).1 := by
  subst hlabel hspan
  have hgood := fun n mode l => e.attrBody_good (container o) n (ha _ n) hg hn mode l
  rw [parseAttributes_eq]
  refine attrTokens_out (ss := ss)
    (ss' := ((e.attrTarget attributes).body ⟨some (container o), attrLabel attributes (h.attrs o)⟩
      (.named (attrSpan attributes (h.attrs o))) ss).2)
    (fun ps l => AdvL.length (hgood _ _ _).2) (hm.attrStreams (AdvL.length (hgood _ _ _).2) hc) hc ?_ (hgood _ _ _).1
  exact congrFun (func_eq (e.attrTarget attributes) (container o) (h.attrs o)) ss

/-- Some flattened variant takes any key: it has a `rest` field, a flattened field that takes any key, or the
attribute `allow_unknown_fields`. -/
def EnumDef.SomeTakesAny (e : EnumDef V) : Prop :=
  ∃ v ∈ e.variants, v.isFlatten = true ∧ (v.isSkipped = false ∧ v.allowUnknown = some true ∨
    Field.acceptsAll v.fields = true)

omit [Env] in
theorem EnumDef.acceptsAll_iff (e : EnumDef V) :
    e.acceptsAll = true ↔ e.unknownOk = true ∨ e.SomeTakesAny := by
  simp only [EnumDef.acceptsAll, EnumDef.SomeTakesAny, Bool.or_eq_true, List.any_eq_true, Bool.and_eq_true,
    Bool.not_eq_true', or_assoc]
  refine or_congr_right ⟨?_, ?_⟩
  · rintro (⟨v, hv, ⟨h1, h2⟩, h3⟩ | ⟨v, hv, h1, h2⟩)
    · refine ⟨v, hv, h2, .inl ⟨h1, ?_⟩⟩
      cases hu : v.allowUnknown <;> simp_all
    · exact ⟨v, hv, h1, .inr h2⟩
  · rintro ⟨v, hv, h1, ⟨h2, h3⟩ | h2⟩
    · exact .inl ⟨v, hv, ⟨h2, h1⟩, by simp [h3]⟩
    · exact .inr ⟨v, hv, h1, h2⟩

/-- The keys `keys` may be given beside the variant named `k` in attributes. -/
def EnumDef.KeysOk (e : EnumDef V) (k : Str) (keys : List Str) : Prop :=
  e.unknownOk = true ∨
  (¬ e.SomeTakesAny ∧ ∀ key ∈ keys, key ∈ e.fieldNames) ∨
  (e.SomeTakesAny ∧ ((∃ v ∈ e.variants, v.ByFields) →
    ∀ key ∈ keys, key ≠ k → ∀ v ∈ e.variants, key ∉ v.spelled))

omit [Env] in
theorem lastSpan_none {ks : List (Str × Span)} {k : Str} : lastSpan ks k = none ↔ k ∉ ks.map (·.1) := by
  simp only [lastSpan, Option.map_eq_none_iff, List.getLast?_eq_none_iff, List.filter_eq_nil_iff, List.mem_map,
    decide_eq_true_eq, not_exists, not_and]

omit [Env] in
theorem otherMsgs_nil {e : EnumDef V} {k : Str} {ks : List (Str × Span)} :
    (otherMsgs e none k fun n => if n = k then none else lastSpan ks n) = [] ↔
      ∀ key ∈ ks.map (·.1), key ≠ k → ∀ v ∈ e.variants, key ∉ v.spelled := by
  simp only [otherMsgs, List.filterMap_eq_nil_iff, List.mem_flatMap, reduceCtorEq, if_false,
    Option.map_eq_none_iff, forall_exists_index, and_imp]
  constructor
  · intro h key hk hne v hv hm
    obtain ⟨j, hj⟩ := List.getElem?_of_mem hv
    have := h key (v, j) (List.mem_zipIdx_iff_getElem?.2 hj) hm
    rw [if_neg hne] at this
    exact lastSpan_none.1 this hk
  · intro h n x hx hm
    split
    · rfl
    · rename_i hne
      refine lastSpan_none.2 fun hk => h n hk hne x.1 ?_ hm
      exact List.mem_of_getElem? (List.mem_zipIdx_iff_getElem?.1 hx)

omit [Env] in
theorem seenKeys_nil (bs : List (EItem V)) : seenKeys [] bs = allKeys [] bs := by
  induction bs with
  | nil => rfl
  | cons b bs ih => cases b <;> simp [seenKeys, allKeys, ih] <;> rfl

/-- C65: an enum is parsed from the items of all its attributes together.  With one variant named, its fields
must parse and the other keys must be allowed beside it. -/
theorem c65_enum {e : EnumDef V} {container : O → V} {o : O} {attributes : List (List Str)} {h : HasAttrs O}
    (ha : ∀ x n, e.Accepted ⟨some x, n⟩) (hg : e.FieldsFine) (hn : e.Infallible)
    {ss : List Stream} (hm : ListStreams (matching attributes (h.attrs o)) ss)
    {label : Option Str} {span : Span} (hlabel : label = attrLabel attributes (h.attrs o))
    (hspan : span = attrSpan attributes (h.attrs o)) {bs : List (EItem V)}
    (hi : ItemsAll (EnumSeg e ⟨some (container o), label⟩ []) ss bs)
    (hc : Clean ((e.attrTarget attributes).body ⟨some (container o), label⟩ (.named span) ss).2)
    {i k sp vs} (h1 : named bs = [(i, k, sp, .ok vs)]) (y : EnumVal V) :
    (e.attrTarget attributes).parseAttributes h container o = .ok y ↔
      e.KeysOk k ((allKeys [] bs).map (·.1)) ∧ runThens e.andThens (i, vs) = .ok y := by
  rw [enumAttrs_out ha hg hn hm hlabel hspan hc,
    finishes_ok (c43_one (ha _ _) hg hn (.named span) [] (!e.acceptsAll) hi h1)]
  refine and_congr_left fun _ => ?_
  have hacc := e.acceptsAll_iff
  have hany : e.anyFlat = true ↔ ∃ v ∈ e.variants, v.ByFields := by
    simp [EnumDef.anyFlat, Variant.ByFields, List.any_eq_true]
  unfold EnumDef.KeysOk
  rw [seenKeys_nil, List.append_eq_nil_iff, checkMsgs_nil]
  cases hu : e.unknownOk with
  | true =>
    rw [hacc.2 (.inl hu)]
    simp
  | false =>
    cases hs : e.acceptsAll with
    | true =>
      have h3 : e.SomeTakesAny := by simpa [hu, hs] using hacc
      cases hf : e.anyFlat with
      | true =>
        have := hany.1 hf
        simp only [Bool.not_true, Bool.not_false, Bool.and_self, if_true, otherMsgs_nil,
          Bool.false_eq_true, false_or, h3, not_true, false_and, true_and, this, true_implies]
        simp
      | false =>
        have := mt hany.2 (by simp [hf])
        simp [h3, this]
    | false =>
      have h3 : ¬ e.SomeTakesAny := by simpa [hu, hs] using hacc
      simp [h3]

/-! ## C89: keys beside a named variant -/

/-- C89, where no flattened variant takes any key: in attributes the same keys may stand beside the name of a
variant as in a value of the type, whatever the fields and whatever the functions of `and_then` make of them. -/
theorem c89_same_partial {e : EnumDef V} {container : O → V} {o : O} {attributes : List (List Str)} {h : HasAttrs O}
    (ha : ∀ site, e.Accepted site) (hg : e.FieldsFine) (hn : e.Infallible) (hs : ¬ e.SomeTakesAny)
    {ss : List Stream} (hm : ListStreams (matching attributes (h.attrs o)) ss)
    {label : Option Str} {span : Span} (hlabel : label = attrLabel attributes (h.attrs o))
    (hspan : span = attrSpan attributes (h.attrs o)) {bs bs' : List (EItem V)}
    (hi : ItemsAll (EnumSeg e ⟨some (container o), label⟩ []) ss bs)
    (hi' : ItemsAll (EnumSeg e .meta []) ss bs') (hk : allKeys [] bs = allKeys [] bs')
    (hc : Clean ((e.attrTarget attributes).body ⟨some (container o), label⟩ (.named span) ss).2)
    {i k sp vs vs'} (h1 : named bs = [(i, k, sp, .ok vs)]) (h1' : named bs' = [(i, k, sp, .ok vs')])
    {y y'} (hr : runThens e.andThens (i, vs) = .ok y) (hr' : runThens e.andThens (i, vs') = .ok y') (mode : Mode) :
    (e.attrTarget attributes).parseAttributes h container o = .ok y ↔ (e.dict.inline mode ss).1 = .ok y' := by
  rw [c65_enum (fun _ _ => ha _) hg hn hm hlabel hspan hi hc h1]
  have : (e.dict.inline mode ss).1 = (enumFlat e .meta mode [] true ss).1 := rfl
  rw [this, c43_one_ok (ha _) hg hn mode [] hi' h1', hr, ← hk]
  unfold EnumDef.KeysOk
  cases hu : e.unknownOk <;> simp [hs, hr']

/-- C89 fails otherwise: if some flattened variant takes any key, attributes with the name of another variant
are accepted whatever unknown keys stand beside it, and these are dropped. -/
theorem c89_dropped_violated {e : EnumDef V} {container : O → V} {o : O} {attributes : List (List Str)}
    {h : HasAttrs O}
    (ha : ∀ x n, e.Accepted ⟨some x, n⟩) (hg : e.FieldsFine) (hn : e.Infallible) (hs : e.SomeTakesAny)
    {ss : List Stream} (hm : ListStreams (matching attributes (h.attrs o)) ss)
    {label : Option Str} {span : Span} (hlabel : label = attrLabel attributes (h.attrs o))
    (hspan : span = attrSpan attributes (h.attrs o)) {bs : List (EItem V)}
    (hi : ItemsAll (EnumSeg e ⟨some (container o), label⟩ []) ss bs)
    (hc : Clean ((e.attrTarget attributes).body ⟨some (container o), label⟩ (.named span) ss).2)
    {i k sp vs} (h1 : named bs = [(i, k, sp, .ok vs)]) {y} (hr : runThens e.andThens (i, vs) = .ok y)
    (hk : ∀ key ∈ allKeys [] bs, key.1 ≠ k → key.1 ∉ e.fieldNames ∧ ∀ v ∈ e.variants, key.1 ∉ v.spelled) :
    (e.attrTarget attributes).parseAttributes h container o = .ok y := by
  refine (c65_enum ha hg hn hm hlabel hspan hi hc h1 _).2 ⟨.inr (.inr ⟨hs, fun _ key hkey hne => ?_⟩), hr⟩
  obtain ⟨x, hx, rfl⟩ := List.mem_map.1 hkey
  exact (hk x hx hne).2

/-- C89: in a value of the type the same keys are reported. -/
theorem c89_reported {e : EnumDef V} (ha : e.Accepted .meta) (hg : e.FieldsFine) (hn : e.Infallible)
    {ss : List Stream} {bs : List (EItem V)} (hi : ItemsAll (EnumSeg e .meta []) ss bs)
    {i k sp vs} (h1 : named bs = [(i, k, sp, .ok vs)]) (hu : e.unknownOk = false) (mode : Mode) {key sp'}
    (hk : (key, sp') ∈ allKeys [] bs) (hk' : key ∉ e.fieldNames) :
    ∃ err c, (e.dict.inline mode ss).1 = .err err ∧ ⟨sp', .unknownField key c⟩ ∈ err.toList :=
  c63_beside_variant ha hg hn mode [] hi h1 hu hk hk'

/-- `enum E { A { x: bool }, #[deluxe(flatten, allow_unknown_fields)] D { p: bool } }` -/
def anyEnum : EnumDef Bool where
  variants :=
    [boolVariant "A" ["a"] false [("x", none)],
      { boolVariant "D" ["d"] true [("p", none)] with allowUnknown := some true }]
  default := none
  allowUnknown := none
  andThens := []

/-- The tokens `a(x = true), bogus`. -/
def anyEnumToks : List Tok :=
  [.ident "a".toList 1, .group .paren [.ident "x".toList 2, .punct '=' false 3, .ident "true".toList 4] 5 6,
    .punct ',' false 7, .ident "bogus".toList 8]

omit [Env] in
theorem anyEnum_fine (site : Site Bool) : anyEnum.Accepted site ∧ anyEnum.FieldsFine ∧ anyEnum.Infallible := by
  refine ⟨fun v hv _ => ?_, fun v hv _ => ?_, fun v hv _ ht => ?_⟩ <;>
    simp only [anyEnum, List.mem_cons, List.not_mem_nil, or_false] at hv
  · refine ⟨fun f hf hp => ?_, ?_, ?_, ?_⟩ <;> rcases hv with rfl | rfl
    any_goals simp [boolVariant, Variant.isTransparent]
    all_goals
      simp only [boolVariant, List.mem_map] at hf
      obtain ⟨x, _, rfl⟩ := hf
      simp [plainField, Field.isParsable, Field.isContainer] at hp
  · refine ⟨fun f hf => ?_, fun _ f hf hp => ?_, ?_⟩ <;> rcases hv with rfl | rfl
    any_goals simp [boolVariant]
    all_goals
      simp only [boolVariant, List.mem_map] at hf
      obtain ⟨x, _, rfl⟩ := hf
    · exact boolDict_good
    · exact boolDict_good
    · simp [plainField, Field.flatParsable, Field.isFlat, Field.isFlatten] at hp
    · simp [plainField, Field.flatParsable, Field.isFlat, Field.isFlatten] at hp
  · rcases hv with rfl | rfl <;> simp [boolVariant, Variant.isTransparent] at ht

omit [Env] in
theorem anyEnum_takesAny : anyEnum.SomeTakesAny :=
  ⟨_, List.mem_cons_of_mem _ List.mem_cons_self, rfl, .inl ⟨rfl, rfl⟩⟩

/-- The items of these tokens. -/
theorem anyEnum_items (site : Site Bool) : ItemsAll (EnumSeg anyEnum site []) [⟨anyEnumToks, callSite, none⟩]
    [.variant 0 "a".toList 1 (.ok [true]), .other "bogus".toList 8] := by
  refine .cons (bs := [_, _]) (.cons (v := [.ident "a".toList 1, .group .paren _ 5 6]) ⟨_, _, rfl⟩ ?_
    (.last (by simp) ?_)) .nil
  · exact .variant (segs := ["a".toList]) (vt := [.group .paren _ 5 6])
      (.mk (pt := [.ident "a".toList 1]) (.plain (.one _ _)) (by simp [StartsColon2]))
      ((selected_some _ _ _ _ _ _).1 rfl) (by simp [NoComma, Comma]) (fun u => by
        obtain ⟨x | x, n⟩ := site <;> exact ⟨_, rfl⟩)
  · exact .other (segs := ["bogus".toList]) (vt := [])
      (.mk (pt := [.ident "bogus".toList 8]) (.plain (.one _ _)) (by simp [StartsColon2]))
      ((selected_none _ _ _).1 rfl) (by simp [NoComma])

/-- C89: `#[e(a(x = true), bogus)]` is accepted; the same tokens as a value are not. -/
example : (anyEnum.attrTarget [["e".toList]]).parseAttributes HasAttrs.vec (fun _ => true)
      [⟨⟨false, [("e".toList, false)], 9⟩, .list .paren anyEnumToks⟩] = .ok (0, [true]) ∧
    ∃ err c, (anyEnum.dict.inline (.named 0) [⟨anyEnumToks, callSite, none⟩]).1 = .err err ∧
      ⟨8, .unknownField "bogus".toList c⟩ ∈ err.toList := by
  refine ⟨?_, c89_reported (anyEnum_fine _).1 (anyEnum_fine .meta).2.1 (anyEnum_fine .meta).2.2
    (anyEnum_items _) rfl rfl (.named 0) (key := "bogus".toList) (sp' := 8) (by simp [allKeys])
    (by decide)⟩
  refine c89_dropped_violated (label := some "e".toList) (span := 9) (fun _ _ => (anyEnum_fine _).1)
    (anyEnum_fine .meta).2.1 (anyEnum_fine .meta).2.2 anyEnum_takesAny (ss := [⟨anyEnumToks, callSite, none⟩]) ?_ rfl rfl (anyEnum_items _) ?_ rfl rfl ?_
  · exact .list .nil
  · intro s hs
    have : s ∈ [(⟨[], callSite, none⟩ : Stream)] := hs
    simp only [List.mem_cons, List.not_mem_nil, or_false] at this
    subst this
    exact ⟨rfl, rfl⟩
  · intro key hkey hne
    simp only [allKeys, List.map_cons, List.map_nil, List.mem_cons, List.not_mem_nil, or_false, List.nil_append] at hkey
    rcases hkey with rfl | rfl
    · exact absurd rfl hne
    · exact ⟨by decide, by decide⟩

end

end Deluxe
