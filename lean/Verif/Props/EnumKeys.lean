import Verif.Props.RestField
import Verif.Props.Enums
/-!
# C77: keys of other variants beside the selected one are reported

macros/types/enum.rs:68-165; macros/types/variant.rs:285-470.  Two variants that are given by name are in `c43_two`, keys
of flattened variants beside a named one in an enum that does not check its keys in `c54_disallowed`.
-/
namespace Deluxe

variable {V : Type}

/-- The key selects a variant by its name, or is a key of a flattened variant. -/
def EnumDef.Knows (e : EnumDef V) (key : Str) : Prop :=
  ∃ v ∈ e.variants, (v.ByName ∧ key ∈ v.idents) ∨ key ∈ v.spelled

/-- C77: the names that an enum announces are those of its variants and of the fields of its flattened variants. -/
theorem c77_names (e : EnumDef V) (key : Str) : key ∈ e.fieldNames ↔ e.Knows key := by
  simp only [EnumDef.fieldNames, List.mem_flatMap, EnumDef.Knows]
  refine exists_congr fun v => and_congr_right fun _ => ?_
  cases hf : v.isFlatten
  · cases hs : v.isSkipped <;>
      simp [Variant.names, Variant.spelled, Variant.ByName, hf, hs]
  · simp only [Variant.names, Variant.spelled, Variant.ByName, hf, if_true, Bool.true_eq_false, false_and, false_or,
      List.mem_append, List.mem_flatMap]
    constructor
    · rintro (⟨f, h1, h2⟩ | ⟨f, h1, h2⟩) <;> refine ⟨f, h1, ?_⟩ <;>
        rcases hfl : f.flatten with _ | ⟨_ | _, _ | p⟩ <;>
        simp_all [Field.isFlatten, joinPaths, joinPath]
    · rintro ⟨f, h1, h2⟩
      rcases hfl : f.flatten with _ | ⟨_ | _, _ | p⟩ <;> rw [hfl] at h2
      · exact .inr ⟨f, h1, by simpa [Field.isFlatten, hfl] using h2⟩
      · exact .inr ⟨f, h1, by simpa [Field.isFlatten, hfl] using h2⟩
      · exact .inr ⟨f, h1, by simpa [Field.isFlatten, hfl] using h2⟩
      · exact .inl ⟨f, h1, by simpa [hfl, joinPath] using h2⟩
      · exact .inl ⟨f, h1, by simpa [hfl, joinPaths] using h2⟩

/-- Whatever holds for each segment holds for each item. -/
theorem items_mem {β : Type} {seg : List Tok → List Tok → Span → β → Prop} {P : β → Prop}
    (hp : ∀ v rest sc b, seg v rest sc b → P b) {sc toks} {bs : List β} (h : Items seg sc toks bs) :
    ∀ b ∈ bs, P b := by
  induction h with
  | nil => intro b hb; cases hb
  | last _ h1 =>
    intro b hb
    simp only [List.mem_cons, List.not_mem_nil, or_false] at hb
    subst hb
    exact hp _ _ _ _ h1
  | cons _ h1 _ ih =>
    intro b hb
    rcases List.mem_cons.1 hb with rfl | hb
    · exact hp _ _ _ _ h1
    · exact ih b hb

theorem itemsAll_mem {β : Type} {seg : List Tok → List Tok → Span → β → Prop} {P : β → Prop} {l} {bs : List β}
    (h : ItemsAll seg l bs) {b : β} (hb : b ∈ bs) (hp : ∀ v rest sc b, seg v rest sc b → P b) : P b := by
  induction h with
  | nil => cases hb
  | cons hi _ ih =>
    rcases List.mem_append.1 hb with hb | hb
    · exact items_mem hp hi b hb
    · exact ih hb

section
variable [Env]

omit [Env] in
/-- Messages of the fields of a flattened variant are messages of the enum. -/
theorem flatOut_mem {e : EnumDef V} {i : Nat} {err : SynErr} {extra : List Msg} {out : Res (EnumVal V)}
    (h : FlatOut e i (.err err) extra out) {m : Msg} (hm : m ∈ err.toList) :
    ∃ e', out = .err e' ∧ m ∈ e'.toList := by
  obtain ⟨e', h1, h2⟩ := h
  exact ⟨e', h1, by rw [h2]; exact List.mem_append_left _ hm⟩

/-- C77 beside a flattened variant: of the variants whose fields are given, one is selected, and each key that is
not one of its fields is reported, be it a key of another variant or not.  This is for variants that do not take
any key. -/
theorem c77_beside_flattened {e : EnumDef V} {site : Site V} (ha : e.Accepted site) (hg : e.FieldsFine)
    (hn : e.Infallible) (hd : e.DistinctKeys) (mode : Mode) (validate : Bool) {l bs}
    (h : ItemsAll (EnumSeg e site []) l bs) (h0 : named bs = [])
    (h1 : ∃ i v, Applies e ((seenKeys [] bs).map (·.1)) i v) :
    ∃ i v, Applies e ((seenKeys [] bs).map (·.1)) i v ∧
      (v.acceptsAll = false → v.isTransparent = false →
        ∀ bs', ItemsAll (StructSeg v.fields []) l bs' → ∀ key sp, .other key sp ∈ bs' →
          ¬ FieldKey v.fields key →
          ∃ err c, (enumFlat e site mode [] validate l).1 = .err err ∧ ⟨sp, .unknownField key c⟩ ∈ err.toList) := by
  obtain ⟨i, v, h2, -, h3⟩ := c45_applies ha hg hn hd mode [] validate h h0 h1
  refine ⟨i, v, h2, fun hv ht bs' hb key sp hm hk => ?_⟩
  have hmem := List.mem_of_getElem? h2.at_
  have hacc := ha v hmem h2.flat.2
  have hfine := hg v hmem h2.flat.2
  have hk' : key ∉ Field.fieldNames v.fields := fun h => hk ((c39_names _ _).1 h)
  have hu : (v.allowUnknown.getD false) = false := by
    simp only [Variant.acceptsAll, Bool.or_eq_false_iff] at hv
    exact hv.1
  obtain ⟨err, c, h4, h5, -⟩ := c34_unknown_reported (v.data site (mode.toFullSpan l)) (hacc.data _) ht
    ⟨fun f hf _ n sp => (hfine.item f hf).named n sp, fun f hf n sp => (hfine.item f hf).missing n sp,
      hfine.flat (hacc.flatten h2.flat.1)⟩ (Field.fieldNames v.fields) (.named (mode.toFullSpan l)) [] hu hb hm hk'
  rw [hv, Bool.not_false, h4] at h3
  obtain ⟨e', h6, h7⟩ := flatOut_mem h3 h5
  exact ⟨e', c, h6, h7⟩

/-- C77 beside a flattened variant with a field that takes any key: the keys of the other flattened variants are
reported, unless the variant has such a field too or allows unknown fields. -/
theorem c77_beside_rest {e : EnumDef V} {site : Site V} (ha : e.Accepted site) (hg : e.FieldsFine)
    (hn : e.Infallible) (hd : e.DistinctKeys) (mode : Mode) (pre : Str) (validate : Bool) {l bs}
    (h : ItemsAll (EnumSeg e site pre) l bs) (h0 : named bs = []) (hu : e.unknownOk = false)
    (h1 : ∃ i v, Applies e ((seenKeys pre bs).map (·.1)) i v) :
    ∃ i v, Applies e ((seenKeys pre bs).map (·.1)) i v ∧
      (v.acceptsAll = true → v.allowUnknown.getD false = false →
        ∀ j w n sp, e.variants[j]? = some w → j ≠ i → n ∈ w.spelled → n ∉ v.spelled →
          lastSpan (seenKeys pre bs) n = some sp →
          ∃ err, (enumFlat e site mode pre validate l).1 = .err err ∧
            ⟨sp, .notAllowedWith n v.ident⟩ ∈ err.toList) := by
  obtain ⟨i, v, h2, -, h3⟩ := c45_applies ha hg hn hd mode pre validate h h0 h1
  refine ⟨i, v, h2, fun hv hvu j w n sp hw hj hnw hnv hsp => ?_⟩
  have hm : (⟨sp, .notAllowedWith n v.ident⟩ : Msg) ∈ v.extraMsgs e i (seenKeys pre bs) := by
    simp only [Variant.extraMsgs, hv, hvu, hu, Bool.not_false, Bool.and_self, if_true, otherMsgs]
    refine List.mem_filterMap.2 ⟨n, List.mem_flatMap.2 ⟨(w, j), List.mem_zipIdx_iff_getElem?.2 hw, ?_⟩, ?_⟩
    · rw [if_neg (by simpa using hj)]
      exact hnw
    · simp [hnv, hsp]
  unfold FlatOut at h3
  split at h3
  · exact finishes_mem h3 hm
  · obtain ⟨e', h4, h5⟩ := h3
    exact ⟨e', h4, by rw [h5]; exact List.mem_append_right _ hm⟩
  · exact h3.elim

/-- C77 is violated beside a variant that is given by name, in every enum that checks its keys: whatever keys of
flattened variants are beside it, the outcome is that of the named variant alone. -/
theorem c77_beside_named_violated {e : EnumDef V} {site : Site V} (ha : e.Accepted site) (hg : e.FieldsFine)
    (hn : e.Infallible) (ht : e.andThens = []) (mode : Mode) {l bs} (h : ItemsAll (EnumSeg e site []) l bs)
    {i k sp x} (h1 : named bs = [(i, k, sp, .ok x)])
    (hk : ∀ key sp, .other key sp ∈ bs → ∃ v ∈ e.variants, v.isFlatten = true ∧ key ∈ v.spelled) :
    (enumFlat e site mode [] true l).1 = .ok (i, x) := by
  refine (c43_one_ok ha hg hn mode [] h h1 _).2 ⟨fun _ key hkey => ?_, x, rfl, by rw [ht]; rfl⟩
  rw [c77_names]
  simp only [allKeys, List.mem_map] at hkey
  obtain ⟨b, hb, rfl⟩ := hkey
  cases b with
  | other key sp =>
    obtain ⟨v, hv, -, hs⟩ := hk key sp hb
    exact ⟨v, hv, .inr hs⟩
  | variant j k' sp' x' =>
    obtain ⟨v, hv, h2, h3⟩ := itemsAll_mem h hb (P := fun b => ∀ j k s x, b = .variant j k s x →
        ∃ v ∈ e.variants, v.ByName ∧ k ∈ v.idents) (by
      intro v rest sc b hb j k s x hx
      cases hb with
      | variant _ hs _ _ =>
        cases hx
        exact ⟨_, List.mem_of_getElem? hs.2.1, hs.2.2.1, hs.2.2.2.1⟩
      | other => cases hx) j k' sp' x' rfl
    exact ⟨v, hv, .inl ⟨h2, by simpa using h3⟩⟩

/-- The hypotheses of `c77_beside_named_violated` hold for the enum `demoEnum` and `aa(x = true), p = false`, where `p`
is a field of the flattened variant `D`. -/
example : (enumFlat demoEnum .meta (.named 0) [] true [⟨demoEnumToks, 11, none⟩]).1 = .ok (0, [true]) :=
  c77_beside_named_violated demoEnum_fine.1 demoEnum_fine.2.1 demoEnum_fine.2.2 rfl (.named 0) demoEnum_items rfl
    fun key sp hk => by
      simp only [List.mem_cons, reduceCtorEq, EItem.other.injEq, List.not_mem_nil, or_false, false_or] at hk
      exact ⟨boolVariant "D" ["d"] true [("p", none), ("q", some false)], by simp [demoEnum], rfl, by
        rw [hk.1]; decide⟩

/-- `enum E { A, #[deluxe(flatten, skip)] B { x: bool } }` -/
def skippedFlat : EnumDef Bool where
  variants := [
    { boolVariant "A" ["a"] false [] with shape := .unit },
    { boolVariant "B" [] true [("x", none)] with skip := some true }]
  default := none
  allowUnknown := none
  andThens := []

/-- C77 is violated for the fields of skipped variants: no variant of this enum has a key `x`, and `a, x` is accepted. -/
theorem c77_skipped_violated : (∀ v ∈ skippedFlat.variants, v.isSkipped = false → "x".toList ∉ v.spelled ++ v.idents) ∧
    (skippedFlat.dict.inline (.named 0) [anyKeyInput]).1 = .ok (0, []) :=
  ⟨by decide, rfl⟩

/-- `p, r`, which the enum `demoEnum` gives to `D`; `r` is a field of the flattened variant `F`. -/
def flatKeys : List Tok := [.ident "p".toList 1, .punct ',' false 2, .ident "r".toList 3]

/-- The hypotheses of `c77_beside_flattened` hold for it: the key `r` is reported. -/
example : ∃ err c, (enumFlat demoEnum .meta (.named 0) [] true [⟨flatKeys, 4, none⟩]).1 = .err err ∧
    ⟨3, .unknownField "r".toList c⟩ ∈ err.toList := by
  have hitems : ItemsAll (EnumSeg demoEnum .meta []) [⟨flatKeys, 4, none⟩]
      [.other "p".toList 1, .other "r".toList 3] := by
    refine .cons (bs := [_, _]) (.cons (v := [.ident "p".toList 1]) ⟨_, _, rfl⟩ ?_ (.last (by simp) ?_)) .nil
    · exact .other (segs := ["p".toList]) (vt := []) (.mk (pt := [.ident "p".toList 1]) (.plain (.one _ _))
        (by simp [StartsColon2])) ((selected_none _ _ _).1 rfl) (by simp [NoComma])
    · exact .other (segs := ["r".toList]) (vt := []) (.mk (pt := [.ident "r".toList 3]) (.plain (.one _ _))
        (by simp [StartsColon2])) ((selected_none _ _ _).1 rfl) (by simp [NoComma])
  have happ : Applies demoEnum ["p".toList, "r".toList] 2
      (boolVariant "D" ["d"] true [("p", none), ("q", some false)]) := by
    refine ⟨rfl, ⟨rfl, rfl⟩, fun h => ?_, fun f hf hr _ => ?_⟩
    · have := h _ List.mem_cons_self ⟨rfl, rfl, rfl⟩
      cases this
    · simp only [boolVariant, List.map_cons, List.map_nil, List.mem_cons, List.not_mem_nil, or_false] at hf
      rcases hf with rfl | rfl
      · exact ⟨_, List.mem_cons_self, List.mem_cons_self⟩
      · exact absurd hr.2.2 (by simp)
  obtain ⟨i, v, h1, h2⟩ := c77_beside_flattened demoEnum_fine.1 demoEnum_fine.2.1 demoEnum_fine.2.2 demoEnum_distinct
    (.named 0) true hitems rfl ⟨_, _, happ⟩
  have hi : i = 2 := by
    obtain ⟨⟨ht, hf, hr, -⟩⟩ := And.intro h1 True.intro
    rcases i with _ | _ | _ | _ | i
    · cases ht; cases hf.1
    · cases ht; cases hf.1
    · rfl
    · cases ht
      exact absurd (fun f hf hq => by
        simp only [boolVariant, List.map_cons, List.map_nil, List.mem_cons, List.not_mem_nil, or_false] at hf
        subst hf
        exact absurd hq.2.2 (by simp)) hr
    · cases ht
  subst hi
  cases h1.at_
  refine h2 rfl rfl [.field 0 "p".toList 1 (.ok true), .other "r".toList 3] ?_ _ _
    (List.mem_cons_of_mem _ List.mem_cons_self) ?_
  · refine .cons (bs := [_, _]) (.cons (v := [.ident "p".toList 1]) ⟨_, _, rfl⟩ ?_ (.last (by simp) ?_)) .nil
    · have hown : Owns (boolVariant "D" ["d"] true [("p", none), ("q", some false)]).fields [] "p".toList
          (plainField "p".toList boolDict) 0 := (owner_some _ _ _ _ _).1 rfl
      exact .field (segs := ["p".toList]) (vt := []) (.mk (pt := [.ident "p".toList 1]) (.plain (.one _ _))
        (by simp [StartsColon2])) hown (fun u => ⟨_, rfl⟩)
    · exact .other (segs := ["r".toList]) (vt := []) (.mk (pt := [.ident "r".toList 3]) (.plain (.one _ _))
        (by simp [StartsColon2])) ((owner_none _ _ _).1 rfl) (by simp [NoComma])
  · rw [FieldKey, ← c39_names]
    decide

end
end Deluxe
