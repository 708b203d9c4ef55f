import Verif.Props.Aliases
/-!
# C122, continued: it does not matter under which of its names a variant is written

Only for the value: if several variants are given, the messages mention the names as they were written.
-/
namespace Deluxe

variable {V : Type}

/-! ## Specification -/

/-- Both keys are, after the prefix, names of the same variant. -/
def SameVariantName (vs : List (Variant V)) (pre : Str) (k k' : Str) : Prop :=
  ∃ v ∈ vs, v.ByName ∧ ∃ n ∈ v.idents, ∃ n' ∈ v.idents, k = pre ++ n ∧ k' = pre ++ n'

/-- No two variants have a name in common. -/
def VariantsApart (vs : List (Variant V)) : Prop :=
  ∀ (i j : Nat) (v w : Variant V) (n : Str), vs[i]? = some v → vs[j]? = some w → v.ByName → w.ByName →
    n ∈ v.idents → n ∈ w.idents → i = j

section
variable [Env]

/-! ## Items -/

theorem variantItem_local {v : Variant V} (h : v.isTransparent = true → ∀ f ∈ v.fields, f.item.Local) (site : Site V)
    (pre p : Str) (sp : Span) : Local (v.item site pre p sp) := by
  unfold Variant.item
  split
  · rename_i ht
    split
    · rename_i f k hf
      have hm : f ∈ v.fields := by
        have := List.mem_of_find?_eq_some hf
        exact List.mem_of_getElem? (List.mem_zipIdx_iff_getElem?.1 this)
      exact ((h ht f hm).named p sp).mapRes _
    · exact Local.lift _
  · exact parseNamedWith_local (fun m => parseDelimitedWith_local _ _) sp

/-- What an enum does with an item, apart from the names. -/
def EItem.view : EItem V → Option (Nat × Span × Except SynErr (List V))
  | .variant i _ sp x => some (i, sp, x)
  | .other _ _ => none

/-- The value of the item does not depend on the name under which it is written. -/
def Variant.NameBlind (v : Variant V) : Prop :=
  v.isTransparent = true → ∀ f ∈ v.fields, ∀ n n' sp, f.item.named n sp = f.item.named n' sp

theorem variantItem_blind {v : Variant V} (h : v.NameBlind) (site : Site V) (pre p p' : Str) (sp : Span) :
    v.item site pre p sp = v.item site pre p' sp := by
  unfold Variant.item
  split
  · rename_i ht
    split
    · rename_i f k hf
      have hm : f ∈ v.fields := by
        have := List.mem_of_find?_eq_some hf
        exact List.mem_of_getElem? (List.mem_zipIdx_iff_getElem?.1 this)
      rw [h ht f hm p p' sp]
    · rfl
  · rfl

omit [Env] in
theorem selects_apart {vs : List (Variant V)} (ha : VariantsApart vs) (pre n k : Str) (v : Variant V) (i : Nat) :
    Selects vs pre (pre ++ n) k v i ↔ n = k ∧ vs[i]? = some v ∧ v.ByName ∧ n ∈ v.idents := by
  constructor
  · rintro ⟨hm, h1, h2, h3, _⟩
    obtain rfl := List.append_cancel_left hm
    exact ⟨rfl, h1, h2, h3⟩
  · rintro ⟨rfl, h1, h2, h3⟩
    refine ⟨rfl, h1, h2, h3, fun j w hj hw hwb hn => ?_⟩
    have := ha j i w v n hw h1 hwb h2 hn h3
    omega

theorem enumItem_unseeing {e : EnumDef V} {site : Site V} (hb : ByNameGood e site)
    (hl : ∀ v ∈ e.variants, v.isTransparent = true → ∀ f ∈ v.fields, f.item.Local) (hn : ∀ v ∈ e.variants, v.NameBlind)
    (ha : VariantsApart e.variants) (pre : Str) :
    Unseeing (SameVariantName e.variants pre) EItem.view (enumItem e site pre) := by
  refine { (keyed_unseeing (R := SameVariantName e.variants pre) (view := EItem.view) (q := enumValue e site pre)
    (fun k sp => ?_) (fun k sp => ?_) (fun k k' sp hR s => ?_)) with }
  · unfold enumValue
    split
    · rename_i k' v i heq
      have ho := ((selected_some _ _ _ _ _ _).1 heq).mem
      exact Good.map _ (recover_good (hb v ho.1 ho.2.1 _ _ _))
    · exact fun s => ⟨by simp, skipMetaItem_adv s⟩
  · unfold enumValue
    split
    · rename_i k' v i heq
      have ho := ((selected_some _ _ _ _ _ _).1 heq).mem
      exact (recover_local (variantItem_local (hl v ho.1) _ _ _ _)).map _
    · exact skip_local _
  · obtain ⟨v, hv, hvb, n, h1, n', h2, rfl, rfl⟩ := hR
    obtain ⟨i, hi⟩ := List.getElem?_of_mem hv
    have hv1 : ∀ n ∈ v.idents, enumValue e site pre (pre ++ n) sp =
        M.map (EItem.variant i n sp) (recover (v.item site pre (pre ++ n) sp)) := by
      intro n hm
      unfold enumValue
      rw [(selected_some _ _ _ _ _ _).2 ((selects_apart ha pre n n v i).2 ⟨rfl, hi, hvb, hm⟩)]
    rw [hv1 n h1, hv1 n' h2, variantItem_blind (hn v hv) site pre (pre ++ n) (pre ++ n')]
    simp only [M.map]
    generalize recover (v.item site pre (pre ++ n') sp) s = x
    obtain ⟨r, s'⟩ := x
    cases r <;> exact ⟨trivial, rfl⟩

/-! ## The state after the items -/

omit [Env] in
theorem view_value (e : EnumDef V) (pre : Str) {bs bs' : List (EItem V)} (h : bs.map EItem.view = bs'.map EItem.view) :
    ∀ (a a' : Acc (EnumSt V)), a.val.value = a'.val.value → a.val.key.isSome = a'.val.key.isSome →
      (bs.foldl (enumAdd e pre) a).val.value = (bs'.foldl (enumAdd e pre) a').val.value ∧
      (bs.foldl (enumAdd e pre) a).val.key.isSome = (bs'.foldl (enumAdd e pre) a').val.key.isSome := by
  induction bs generalizing bs' with
  | nil =>
    cases bs' with
    | nil => exact fun a a' h1 h2 => ⟨h1, h2⟩
    | cons b bs' => simp at h
  | cons b bs ih =>
    cases bs' with
    | nil => simp at h
    | cons b' bs' =>
      simp only [List.map_cons, List.cons.injEq] at h
      intro a a' h1 h2
      simp only [List.foldl_cons]
      cases b with
      | variant i k sp x =>
        cases b' with
        | other k' sp' => cases h.1
        | variant i' k' sp' x' =>
          have := h.1
          simp only [EItem.view, Option.some.injEq, Prod.mk.injEq] at this
          obtain ⟨rfl, rfl, rfl⟩ := this
          exact ih h.2 _ _ (by simp only [enumAdd, h1]) (by simp only [enumAdd, Option.isSome_some])
      | other k sp =>
        cases b' with
        | variant i' k' sp' x' => cases h.1
        | other k' sp' => exact ih h.2 _ _ h1 h2

omit [Env] in
theorem view_noMsgs (pre : Str) {bs bs' : List (EItem V)} (h : bs.map EItem.view = bs'.map EItem.view) :
    ∀ first first' : Option Str, first.isSome = first'.isSome →
      (variantMsgs pre first bs = [] ↔ variantMsgs pre first' bs' = []) := by
  induction bs generalizing bs' with
  | nil =>
    cases bs' with
    | nil => exact fun _ _ _ => Iff.rfl
    | cons b bs' => simp at h
  | cons b bs ih =>
    cases bs' with
    | nil => simp at h
    | cons b' bs' =>
      simp only [List.map_cons, List.cons.injEq] at h
      intro first first' hf
      cases b with
      | variant i k sp x =>
        cases b' with
        | other k' sp' => cases h.1
        | variant i' k' sp' x' =>
          have := h.1
          simp only [EItem.view, Option.some.injEq, Prod.mk.injEq] at this
          obtain ⟨rfl, rfl, rfl⟩ := this
          have hi := ih h.2 (some (first.getD k)) (some (first'.getD k')) rfl
          cases first <;> cases first' <;> simp_all [variantMsgs]
      | other k sp =>
        cases b' with
        | variant i' k' sp' x' => cases h.1
        | other k' sp' => exact ih h.2 first first' hf

/-! ## Keys -/

theorem keyItem_unseeing {allowed : List Str} {R : Str → Str → Prop} (h : ∀ k k', R k k' → k ∈ allowed ∧ k' ∈ allowed) :
    Unseeing R (fun x : Str × Span => unknownMsgs true allowed x.1 x.2) keyItem := by
  refine keyed_unseeing (fun k sp s => ⟨by simp, skipMetaItem_adv s⟩) (fun k sp => skip_local _) (fun k k' sp hR s => ?_)
  obtain ⟨h1, h2⟩ := h k k' hR
  refine ⟨rfl, ?_⟩
  simp [Res.map, unknownMsgs, h1, h2]

theorem checkKeys_blind {allowed : List Str} {R : Str → Str → Prop} (h : ∀ k k', R k k' → k ∈ allowed ∧ k' ∈ allowed)
    (errs : Errors) {l l' : List Stream} (hr : RespeltAll R l l') :
    (checkKeys allowed errs l).1 = (checkKeys allowed errs l').1 := by
  obtain ⟨rs, rs', fatal, l1, l1', h1, h2, h3⟩ := hr.reads (keyItem_unseeing h)
  obtain ⟨e1, q1, p1⟩ := checkKeys_reads allowed errs h1
  obtain ⟨e2, q2, p2⟩ := checkKeys_reads allowed errs h2
  rw [q1, q2]
  have : e1 = e2 := by
    apply Errors.eq_of_toList
    rw [p1, p2]
    congr 1
    have e3 : ∀ rs : List ((Str × Span) × Stream × Stream), checkMsgs true allowed (rs.map (·.1)) =
        (rs.map fun x => unknownMsgs true allowed x.1.1 x.1.2).flatten := by
      intro rs
      simp [checkMsgs, List.flatMap_def, List.map_map, Function.comp_def]
    rw [e3, e3]
    exact congrArg List.flatten h3
  rw [this]

/-- **C122.**  The value of an enum without flattened variants is the same under whichever of its names a variant is
written. -/
theorem c122_enum {e : EnumDef V} {site : Site V} (ha : e.Accepted site) (hg : e.FieldsFine) (hinf : e.Infallible)
    (hf : e.anyFlat = false) (hl : ∀ v ∈ e.variants, v.isTransparent = true → ∀ f ∈ v.fields, f.item.Local)
    (hn : ∀ v ∈ e.variants, v.NameBlind) (hap : VariantsApart e.variants) (k : Span) (pre : Str) (validate : Bool)
    (hpre : validate = true → pre = []) {l l' : List Stream} (hr : RespeltAll (SameVariantName e.variants pre) l l')
    (y : EnumVal V) :
    (enumFlat e site (.named k) pre validate l).1 = .ok y ↔ (enumFlat e site (.named k) pre validate l').1 = .ok y := by
  have hb := EnumDef.byNameGood ha hg hinf
  have hr' : RespeltAll (SameVariantName e.variants pre) (if e.anyFlat || !e.unknownOk then forkInputs l else l)
      (if e.anyFlat || !e.unknownOk then forkInputs l' else l') := by
    split
    · exact hr.fork
    · exact hr
  obtain ⟨rs, rs', fatal, l1, l1', h1, h2, h3⟩ := hr'.reads (enumItem_unseeing hb hl hn hap pre)
  obtain ⟨errs, q1, q2⟩ := enumFlat_eq hb (.named k) pre validate h1
  obtain ⟨errs', q1', q2'⟩ := enumFlat_eq hb (.named k) pre validate h2
  have h3' : (rs.map (·.1)).map EItem.view = (rs'.map (·.1)).map EItem.view := by simpa [Function.comp_def] using h3
  obtain ⟨hval, hkey⟩ := view_value e pre h3' ⟨⟨none, .none, []⟩, Errors.new⟩ ⟨⟨none, .none, []⟩, Errors.new⟩ rfl rfl
  have hmsg : errs.toList = [] ↔ errs'.toList = [] := by
    rw [q1, q1', List.append_eq_nil_iff, List.append_eq_nil_iff, view_noMsgs pre h3' none none rfl]
  have hk : ∀ l, (Mode.named k).toFullSpan l = k := fun _ => rfl
  have hends : ∀ {st : EnumSt V} {errs : Errors} {l l2 : List Stream}, enumFlat e site (.named k) pre validate l =
      (match pick e site pre k validate st errs l2 with
        | (.ok (value, errs), l2) => (conclude e value errs, skipAll l2)
        | (.err x, l2) => (.err x, l2)
        | (.panic, l2) => (.panic, l2)) →
      (enumFlat e site (.named k) pre validate l).1 = enumEnds e site pre k validate st errs l2 := by
    intro st errs l l2 h
    rw [h]
    unfold enumEnds
    generalize pick e site pre k validate st errs l2 = z
    obtain ⟨r, l2⟩ := z
    cases r <;> rfl
  rw [hk] at q2 q2'
  rw [hends q2, hends q2']
  have hm : e.flatMatches = [] := by
    cases h : e.flatMatches with
    | nil => rfl
    | cons z zs =>
      obtain ⟨_, h1, h2⟩ := mem_flatMatches (y := z) (by rw [h]; exact .head _)
      have : e.anyFlat = true := List.any_eq_true.2 ⟨z.2.1, List.mem_of_getElem? h1, by simp [h2.1, h2.2]⟩
      rw [hf] at this
      cases this
  have hvp : ∀ errs, (validatePass e validate errs (afterLoop e l l1)).1 = (validatePass e validate errs (afterLoop e l' l1')).1 := by
    intro errs
    unfold validatePass
    by_cases hc : (!e.unknownOk && validate) = true
    · rw [if_pos hc, if_pos hc]
      simp only [Bool.and_eq_true, Bool.not_eq_true'] at hc
      have hal : ∀ l l1, afterLoop e l l1 = l := fun l l1 => by simp [afterLoop, hc.1]
      rw [hal, hal]
      refine checkKeys_blind ?_ errs hr
      rintro key key' ⟨v, hv, hvb, n, h1, n', h2, e1, e2⟩
      rw [e1, e2, hpre hc.2]
      have hmem : ∀ n ∈ v.idents, [] ++ n ∈ e.fieldNames := by
        intro n hn
        refine List.mem_flatMap.2 ⟨v, hv, ?_⟩
        simp only [Variant.names, hvb.1, hvb.2, Bool.false_eq_true, if_false]
        exact hn
      exact ⟨hmem n h1, hmem n' h2⟩
    · rw [if_neg hc, if_neg hc]
  by_cases he : errs.toList = []
  · have he' := hmsg.1 he
    have e1 : errs = Errors.new := Errors.eq_of_toList he
    have e2 : errs' = Errors.new := Errors.eq_of_toList he'
    subst e1; subst e2
    change (afterItems e pre (rs.map (·.1))).val.value = (afterItems e pre (rs'.map (·.1))).val.value at hval
    change (afterItems e pre (rs.map (·.1))).val.key.isSome = (afterItems e pre (rs'.map (·.1))).val.key.isSome at hkey
    have hp : (pick e site pre k validate (afterItems e pre (rs.map (·.1))).val Errors.new (afterLoop e l l1)).1 =
        (pick e site pre k validate (afterItems e pre (rs'.map (·.1))).val Errors.new (afterLoop e l' l1')).1 := by
      generalize (afterItems e pre (rs.map (·.1))).val = st at hval hkey ⊢
      generalize (afterItems e pre (rs'.map (·.1))).val = st' at hval hkey ⊢
      obtain ⟨key, value, paths⟩ := st
      obtain ⟨key', value', paths'⟩ := st'
      simp only at hval hkey
      subst hval
      have hv := hvp Errors.new
      cases value with
      | parseError => rfl
      | some x =>
        cases key with
        | none =>
          cases key' with
          | none => rfl
          | some a => cases hkey
        | some a =>
          cases key' with
          | none => cases hkey
          | some b =>
            simp only [pick, hf, Bool.false_and, Bool.false_eq_true, if_false]
            generalize validatePass e validate Errors.new (afterLoop e l l1) = z at hv ⊢
            generalize validatePass e validate Errors.new (afterLoop e l' l1') = z' at hv ⊢
            obtain ⟨r, m⟩ := z
            obtain ⟨r', m'⟩ := z'
            simp only at hv
            subst hv
            cases r <;> rfl
      | none =>
        simp only [pick, pickFlat, hm, List.find?_nil]
        cases e.default with
        | some d => rfl
        | none =>
          simp only
          generalize validatePass e validate Errors.new (afterLoop e l l1) = z at hv ⊢
          generalize validatePass e validate Errors.new (afterLoop e l' l1') = z' at hv ⊢
          obtain ⟨r, m⟩ := z
          obtain ⟨r', m'⟩ := z'
          simp only at hv
          subst hv
          cases r <;> rfl
    unfold enumEnds
    rw [hp]
  · constructor
    · exact fun h => absurd (enumEnds_ok h) he
    · exact fun h => absurd (hmsg.2 (enumEnds_ok h)) he

/-- `enum E { #[deluxe(alias = aa)] A { x: bool }, B {} }` -/
def twoNames : EnumDef Bool where
  variants := [boolVariant "A" ["a", "aa"] false [("x", none)], boolVariant "B" ["b"] false []]
  default := none
  allowUnknown := none
  andThens := []

/-- C122: the conditions are met, and `a {x}` and `aa {x}` are the same but for the name of the variant. -/
example : twoNames.Accepted .meta ∧ twoNames.FieldsFine ∧ twoNames.Infallible ∧ twoNames.anyFlat = false ∧
    (∀ v ∈ twoNames.variants, v.isTransparent = true → ∀ f ∈ v.fields, f.item.Local) ∧
    (∀ v ∈ twoNames.variants, v.NameBlind) ∧ VariantsApart twoNames.variants ∧
    Respelt (SameVariantName twoNames.variants []) [.ident ['a'] 1, .group .brace [.ident ['x'] 2] 3 4]
      [.ident ['a', 'a'] 1, .group .brace [.ident ['x'] 2] 3 4] := by
  have hv : ∀ v ∈ twoNames.variants, ∃ a b c d, v = boolVariant a b c d := by
    intro v hv
    simp only [twoNames, List.mem_cons, List.not_mem_nil, or_false] at hv
    rcases hv with rfl | rfl <;> exact ⟨_, _, _, _, rfl⟩
  obtain ⟨h1, h2, h3⟩ := boolEnum_fine (e := twoNames) hv
  have ht : ∀ v ∈ twoNames.variants, v.isTransparent = false := by
    intro v h
    obtain ⟨a, b, c, d, rfl⟩ := hv v h
    rfl
  have key : ∀ (s : Str) (sp : Span), KeyToks [s] sp (.ident s sp :: [.group .brace [.ident ['x'] 2] 3 4])
      [.group .brace [.ident ['x'] 2] 3 4] := fun s sp => .mk (pt := [.ident s sp]) (.plain (.one _ _)) (by simp [StartsColon2])
  refine ⟨h1, h2, h3, rfl, fun v hv h => ?_, fun v hv h => ?_, ?_, .last (key _ _) (key _ _) ?_ (by simp [NoComma, Comma])⟩
  · rw [ht v hv] at h; cases h
  · rw [ht v hv] at h; cases h
  · intro i j v w n hi hj _ _ h1 h2
    match i, j, hi, hj with
    | 0, 0, _, _ => rfl
    | 1, 1, _, _ => rfl
    | 0, 1, hi, hj =>
      cases hi; cases hj
      simp [boolVariant] at h1 h2
      subst h2
      simp at h1
    | 1, 0, hi, hj =>
      cases hi; cases hj
      simp [boolVariant] at h1 h2
      subst h1
      simp at h2
    | _ + 2, _, hi, _ => cases hi
    | _, _ + 2, _, hj => cases hj
  · exact ⟨_, List.mem_cons_self, ⟨rfl, rfl⟩, ['a'], by simp [boolVariant], ['a', 'a'], by simp [boolVariant], rfl, rfl⟩

/-- C122: `{a {x}}` and `{aa {x}}` give the same; `{a {x}, b {}}` and `{aa {x}, b {}}` are both rejected, but the messages
differ. -/
example : letI : Env := ⟨fun a _ => some a, fun _ _ => 0, 1⟩
    ((twoNames.dict.parse (.named 0) ⟨[.group .brace [.ident ['a'] 1, .group .paren [.ident ['x'] 2] 3 4] 8 9], 0, none⟩).1
      matches .ok (0, [true])) ∧
    ((twoNames.dict.parse (.named 0) ⟨[.group .brace [.ident ['a', 'a'] 1, .group .paren [.ident ['x'] 2] 3 4] 8 9], 0, none⟩).1
      matches .ok (0, [true])) ∧
    ((twoNames.dict.parse (.named 0) ⟨[.group .brace [.ident ['a'] 1, .group .paren [.ident ['x'] 2] 3 4, .punct ',' false 5,
      .ident ['b'] 6, .group .paren [] 3 4] 8 9], 0, none⟩).1 matches .err ⟨⟨_, .onlyOneVariant ['a'] ['b']⟩, _⟩) ∧
    ((twoNames.dict.parse (.named 0) ⟨[.group .brace [.ident ['a', 'a'] 1, .group .paren [.ident ['x'] 2] 3 4, .punct ',' false 5,
      .ident ['b'] 6, .group .paren [] 3 4] 8 9], 0, none⟩).1 matches .err ⟨⟨_, .onlyOneVariant ['a', 'a'] ['b']⟩, _⟩) := by
  decide +kernel

end
end Deluxe
