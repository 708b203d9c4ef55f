import Verif.Props.Ignored
import Verif.Props.AliasesEnum
/-!
# C124, continued: an item that an enum ignores is as if it was not written
-/
namespace Deluxe

variable {V : Type}

section
variable [Env]

/-- What an enum keeps: the items for its variants. -/
def EItem.kept : EItem V → Option (EItem V)
  | .variant i k sp x => some (.variant i k sp x)
  | .other _ _ => none

theorem enumItem_ignoring {e : EnumDef V} {site : Site V} (hb : ByNameGood e site)
    (hl : ∀ v ∈ e.variants, v.isTransparent = true → ∀ f ∈ v.fields, f.item.Local) {pre : Str} {P : Str → Prop}
    (h : ∀ key, P key → ∀ k v i, ¬ Selects e.variants pre key k v i) :
    Ignoring P EItem.kept (enumItem e site pre) := by
  refine { (keyed_ignoring (P := P) (view := EItem.kept) (q := enumValue e site pre)
    (fun k sp => ?_) (fun k sp => ?_) (fun k sp hP => ?_)) with }
  · unfold enumValue
    split
    · rename_i k' v i heq
      have ho := ((selected_some _ _ _ _ _ _).1 heq).mem
      exact Good.map _ (recover_good (hb v ho.1 ho.2.1 _ _ _))
    · exact fun s => ⟨by simp, skipMetaItem_adv s⟩
  · unfold enumValue
    split
    · rename_i k' v i heq
      have ho := ((selected_some _ _ _ _ _ _).1 heq).mem
      exact (recover_local (variantItem_local (hl v ho.1) _ _ _ _)).map _
    · exact skip_local _
  · refine ⟨.other k sp, rfl, fun s => ?_⟩
    unfold enumValue
    rw [(selected_none _ _ _).2 (h k hP)]

omit [Env] in
theorem kept_variantMsgs (pre : Str) (bs : List (EItem V)) (first : Option Str) :
    variantMsgs pre first bs = variantMsgs pre first (bs.filterMap EItem.kept) := by
  induction bs generalizing first with
  | nil => rfl
  | cons b bs ih =>
    cases b with
    | variant i k sp x => simp only [List.filterMap_cons, EItem.kept, variantMsgs, ih]
    | other k sp => simp only [List.filterMap_cons, EItem.kept, variantMsgs, ih]

omit [Env] in
theorem kept_state {e : EnumDef V} (hf : e.anyFlat = false) (pre : Str) (bs : List (EItem V)) (a : Acc (EnumSt V)) :
    bs.foldl (enumAdd e pre) a = (bs.filterMap EItem.kept).foldl (enumAdd e pre) a := by
  induction bs generalizing a with
  | nil => rfl
  | cons b bs ih =>
    cases b with
    | variant i k sp x => simp only [List.filterMap_cons, EItem.kept, List.foldl_cons, ih]
    | other k sp =>
      have : enumAdd e pre a (.other k sp) = a := by
        simp only [enumAdd, nextPaths, hf, Bool.false_eq_true, if_false]
        split <;> rfl
      simp only [List.filterMap_cons, EItem.kept, List.foldl_cons, this, ih]

theorem checkKeys_ignores {allowed : List Str} {P : Str → Prop} (h : ∀ k, P k → k ∈ allowed) (errs : Errors)
    {l l' : List Stream} (hr : DroppedAll P l l') : (checkKeys allowed errs l).1 = (checkKeys allowed errs l').1 := by
  have hi : Ignoring P (fun x : Str × Span => if unknownMsgs true allowed x.1 x.2 = [] then none else
      some (unknownMsgs true allowed x.1 x.2)) keyItem := by
    refine keyed_ignoring (fun k sp s => ⟨by simp, skipMetaItem_adv s⟩) (fun k sp => skip_local _) (fun k sp hP => ?_)
    exact ⟨(k, sp), by simp [unknownMsgs, h k hP], fun s => rfl⟩
  obtain ⟨rs, rs', fatal, l1, l1', h1, h2, h3⟩ := hr.reads hi
  obtain ⟨e1, q1, p1⟩ := checkKeys_reads allowed errs h1
  obtain ⟨e2, q2, p2⟩ := checkKeys_reads allowed errs h2
  rw [q1, q2]
  have : e1 = e2 := by
    apply Errors.eq_of_toList
    rw [p1, p2]
    congr 1
    have e3 : ∀ rs : List ((Str × Span) × Stream × Stream), checkMsgs true allowed (rs.map (·.1)) =
        (rs.filterMap fun x => if unknownMsgs true allowed x.1.1 x.1.2 = [] then none else
          some (unknownMsgs true allowed x.1.1 x.1.2)).flatten := by
      intro rs
      induction rs with
      | nil => rfl
      | cons r rs ih =>
        have hc : checkMsgs true allowed ((r :: rs).map (·.1)) =
            unknownMsgs true allowed r.1.1 r.1.2 ++ checkMsgs true allowed (rs.map (·.1)) := by
          simp [checkMsgs]
        rw [hc, ih]
        by_cases hu : unknownMsgs true allowed r.1.1 r.1.2 = [] <;> simp [hu]
    rw [e3, e3]
    exact congrArg List.flatten h3
  rw [this]

/-- **C124.**  The result of an enum without flattened variants, with all its messages, is the same without the items
whose keys select none of its variants and are not reported. -/
theorem c124_enum {e : EnumDef V} {site : Site V} (ha : e.Accepted site) (hg : e.FieldsFine) (hinf : e.Infallible)
    (hf : e.anyFlat = false) (hl : ∀ v ∈ e.variants, v.isTransparent = true → ∀ f ∈ v.fields, f.item.Local)
    (k : Span) (pre : Str) (validate : Bool) {P : Str → Prop}
    (hs : ∀ key, P key → ∀ k v i, ¬ Selects e.variants pre key k v i)
    (hk : ∀ key, P key → e.unknownOk = false → validate = true → key ∈ e.fieldNames) :
    Ignores P (enumFlat e site (.named k) pre validate) := by
  intro l l' hr
  have hb := EnumDef.byNameGood ha hg hinf
  have hr' : DroppedAll P (if e.anyFlat || !e.unknownOk then forkInputs l else l)
      (if e.anyFlat || !e.unknownOk then forkInputs l' else l') := by
    split
    · exact hr.fork
    · exact hr
  obtain ⟨rs, rs', fatal, l1, l1', h1, h2, h3⟩ := hr'.reads (enumItem_ignoring hb hl hs)
  obtain ⟨errs, q1, q2⟩ := enumFlat_eq hb (.named k) pre validate h1
  obtain ⟨errs', q1', q2'⟩ := enumFlat_eq hb (.named k) pre validate h2
  have h3' : (rs.map (·.1)).filterMap EItem.kept = (rs'.map (·.1)).filterMap EItem.kept := by
    simpa [List.filterMap_map, Function.comp_def] using h3
  have hst : afterItems e pre (rs.map (·.1)) = afterItems e pre (rs'.map (·.1)) := by
    unfold afterItems
    rw [kept_state hf, h3', ← kept_state hf]
  have herr : errs = errs' := by
    apply Errors.eq_of_toList
    rw [q1, q1', kept_variantMsgs, h3', ← kept_variantMsgs]
  have hsp : ∀ l, (Mode.named k).toFullSpan l = k := fun _ => rfl
  have hm : e.flatMatches = [] := by
    cases h : e.flatMatches with
    | nil => rfl
    | cons z zs =>
      obtain ⟨_, h1, h2⟩ := mem_flatMatches (y := z) (by rw [h]; exact .head _)
      have : e.anyFlat = true := List.any_eq_true.2 ⟨z.2.1, List.mem_of_getElem? h1, by simp [h2.1, h2.2]⟩
      rw [hf] at this
      cases this
  have hv : ∀ errs, (validatePass e validate errs (afterLoop e l l1)).1 =
      (validatePass e validate errs (afterLoop e l' l1')).1 := by
    intro errs
    unfold validatePass
    by_cases hc : (!e.unknownOk && validate) = true
    · rw [if_pos hc, if_pos hc]
      simp only [Bool.and_eq_true, Bool.not_eq_true'] at hc
      have hal : ∀ l l1, afterLoop e l l1 = l := fun l l1 => by simp [afterLoop, hc.1]
      rw [hal, hal]
      exact checkKeys_ignores (fun key hP => hk key hP hc.1 hc.2) errs hr
    · rw [if_neg hc, if_neg hc]
  rw [q2, q2', hst, herr]
  simp only [hsp]
  clear q2 q2' hst herr q1 q1'
  have hp : ∀ st errs, (pick e site pre k validate st errs (afterLoop e l l1)).1 =
      (pick e site pre k validate st errs (afterLoop e l' l1')).1 := by
    intro st errs
    obtain ⟨key, value, paths⟩ := st
    have hv := hv errs
    cases value with
    | parseError => rfl
    | some x =>
      cases key with
      | none => rfl
      | some a =>
        simp only [pick, hf, Bool.false_and, Bool.false_eq_true, if_false]
        generalize validatePass e validate errs (afterLoop e l l1) = z at hv ⊢
        generalize validatePass e validate errs (afterLoop e l' l1') = z' at hv ⊢
        obtain ⟨r, m⟩ := z
        obtain ⟨r', m'⟩ := z'
        simp only at hv
        subst hv
        cases r <;> rfl
    | none =>
      simp only [pick, pickFlat, hm, List.find?_nil]
      cases e.default with
      | some d => rfl
      | none =>
        simp only
        generalize validatePass e validate errs (afterLoop e l l1) = z at hv ⊢
        generalize validatePass e validate errs (afterLoop e l' l1') = z' at hv ⊢
        obtain ⟨r, m⟩ := z
        obtain ⟨r', m'⟩ := z'
        simp only at hv
        subst hv
        cases r <;> rfl
  have hp := hp (afterItems e pre (rs'.map (·.1))).val errs'
  generalize pick e site pre k validate _ errs' (afterLoop e l l1) = z at hp ⊢
  generalize pick e site pre k validate _ errs' (afterLoop e l' l1') = z' at hp ⊢
  obtain ⟨r, m⟩ := z
  obtain ⟨r', m'⟩ := z'
  simp only at hp
  subst hp
  cases r <;> rfl

/-- The enum `twoNames`, with `#[deluxe(allow_unknown_fields)]`. -/
def freeEnum : EnumDef Bool := { twoNames with allowUnknown := some true }

/-- C124: the conditions are met for every key but `a`, `aa` and `b`. -/
example : freeEnum.Accepted .meta ∧ freeEnum.FieldsFine ∧ freeEnum.Infallible ∧ freeEnum.anyFlat = false ∧
    (∀ v ∈ freeEnum.variants, v.isTransparent = true → ∀ f ∈ v.fields, f.item.Local) ∧
    (∀ key, key ∉ [['a'], ['a', 'a'], ['b']] → ∀ k v i, ¬ Selects freeEnum.variants [] key k v i) ∧
    freeEnum.unknownOk = true := by
  have hv : ∀ v ∈ freeEnum.variants, ∃ a b c d, v = boolVariant a b c d := by
    intro v hv
    simp only [freeEnum, twoNames, List.mem_cons, List.not_mem_nil, or_false] at hv
    rcases hv with rfl | rfl <;> exact ⟨_, _, _, _, rfl⟩
  obtain ⟨h1, h2, h3⟩ := boolEnum_fine (e := freeEnum) hv
  refine ⟨h1, h2, h3, rfl, fun v h ht => ?_, ?_, rfl⟩
  · obtain ⟨a, b, c, d, rfl⟩ := hv v h
    cases ht
  · rintro key hk k v i ⟨rfl, hi, -, hn, -⟩
    refine hk ?_
    match i, hi with
    | 0, hi =>
      cases hi
      simp only [boolVariant, List.map_cons, List.map_nil, List.mem_cons, List.not_mem_nil, or_false] at hn
      rcases hn with rfl | rfl <;> simp
    | 1, hi =>
      cases hi
      simp only [boolVariant, List.map_cons, List.map_nil, List.mem_cons, List.not_mem_nil, or_false] at hn
      subst hn
      simp
    | _ + 2, hi => cases hi

/-- C124: `{z = 1, a(x)}` gives the same as `{a(x)}`, and `{z = 1}` the same as `{}`, an error. -/
example : letI : Env := ⟨fun a _ => some a, fun _ _ => 0, 1⟩
    ((freeEnum.dict.parse (.named 0) ⟨[.group .brace [.ident ['z'] 1, .punct '=' false 2, .ident ['c'] 3, .punct ',' false 5,
      .ident ['a'] 1, .group .paren [.ident ['x'] 2] 3 4] 8 9], 0, none⟩).1 matches .ok (0, [true])) ∧
    ((freeEnum.dict.parse (.named 0) ⟨[.group .brace [.ident ['a'] 1, .group .paren [.ident ['x'] 2] 3 4] 8 9], 0, none⟩).1
      matches .ok (0, [true])) ∧
    ((freeEnum.dict.parse (.named 0) ⟨[.group .brace [.ident ['z'] 1, .punct '=' false 2, .ident ['c'] 3] 8 9], 0, none⟩).1
      matches .err ⟨⟨0, .expectedOneOf _⟩, []⟩) ∧
    ((freeEnum.dict.parse (.named 0) ⟨[.group .brace [] 8 9], 0, none⟩).1 matches
      .err ⟨⟨0, .expectedOneOf _⟩, []⟩) := by
  decide +kernel

end
end Deluxe
