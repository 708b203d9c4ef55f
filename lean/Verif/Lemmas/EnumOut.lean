import Verif.Lemmas.Enum
/-!
# Derived enums: the outcome
-/
namespace Deluxe

variable {V : Type}

/-! ## Items -/

theorem Items.map {β γ : Type} {seg : List Tok → List Tok → Span → β → Prop}
    {seg' : List Tok → List Tok → Span → γ → Prop} {f : β → γ}
    (hs : ∀ v rest sc b, seg v rest sc b → seg' v rest sc (f b)) {sc v bs} (h : Items seg sc v bs) :
    Items seg' sc v (bs.map f) := by
  induction h with
  | nil => exact .nil
  | last h1 h2 => exact .last h1 (hs _ _ _ _ h2)
  | cons h1 h2 _ ih => exact .cons h1 (hs _ _ _ _ h2) ih

theorem ItemsAll.map {β γ : Type} {seg : List Tok → List Tok → Span → β → Prop}
    {seg' : List Tok → List Tok → Span → γ → Prop} {f : β → γ}
    (hs : ∀ v rest sc b, seg v rest sc b → seg' v rest sc (f b)) {l bs} (h : ItemsAll seg l bs) :
    ItemsAll seg' l (bs.map f) := by
  induction h with
  | nil => exact .nil
  | cons h1 _ ih => rw [List.map_append]; exact .cons (h1.map hs) ih

section
variable [Env]

/-- A key and tokens without comma. -/
def KeySeg (v _rest : List Tok) (_sc : Span) (b : Str × Span) : Prop :=
  ∃ segs vt, KeyToks segs b.2 v vt ∧ b.1 = keyString segs ∧ NoComma vt

theorem keyItem_seg : SegSound keyItem KeySeg := by
  rintro v rest sc ⟨key, sp⟩ hr hne ⟨segs, vt, hk, rfl, hc⟩ u
  have h := keyed_key (fun key sp (s : Stream) => ((Res.ok (key, sp), skipMetaItem s) : Res (Str × Span) × Stream)) (sc := sc) (u := u) hk hr
  exact ⟨u, by rw [keyItem]; refine h.trans ?_; simp only [skipMetaItem, skipToks_boundary hc hr]⟩

theorem enumKeys {e : EnumDef V} {site : Site V} {pre : Str} {l bs}
    (h : ItemsAll (EnumSeg e site pre) l bs) :
    ∃ rs l', ReadsAll keyItem l rs none l' ∧ rs.map (·.1) = allKeys pre bs := by
  have h' : ItemsAll KeySeg l (allKeys pre bs) := by
    refine h.map fun v rest sc b hb => ?_
    cases hb with
    | variant hk ho hc hx => exact ⟨_, _, hk, ho.1.symm, hc⟩
    | other hk ho hc => exact ⟨_, _, hk, rfl, hc⟩
  obtain ⟨rs, l', h1, h2, _⟩ := h'.reads keyItem_seg
  exact ⟨rs, l', h1, h2⟩

theorem enumItems {e : EnumDef V} {site : Site V} {pre : Str} {l bs} (b : Bool)
    (h : ItemsAll (EnumSeg e site pre) l bs) :
    ∃ rs l1, ReadsAll (enumItem e site pre) (if b then forkInputs l else l) rs none l1 ∧
      rs.map (·.1) = bs := by
  have h' : ItemsAll (EnumSeg e site pre) (if b then forkInputs l else l) bs := by
    cases b
    · exact h
    · exact itemsAll_fork h
  obtain ⟨rs, l1, h1, h2, _⟩ := h'.reads (enumItem_seg e site pre)
  exact ⟨rs, l1, h1, h2⟩

/-! ## The end -/

/-- What follows the choice of the value. -/
def conclude (e : EnumDef V) (value : FieldStatus (EnumVal V)) (errs : Errors) : Res (EnumVal V) :=
  match (enumAndThens e.andThens value.intoOption errs).2.check with
  | .ok () =>
    match (enumAndThens e.andThens value.intoOption errs).1 with
    | some x => .ok x
    | none => .panic
  | .err x => .err x
  | .panic => .panic

omit [Env] in
theorem enumAndThens_eq (fs : List (EnumVal V → Except SynErr (EnumVal V))) (x : EnumVal V)
    (errs : Errors) : enumAndThens fs (some x) errs = match runThens fs x with
      | .ok y => (some y, errs)
      | .error err => (none, errs.pushSyn err) := by
  have none_eq : ∀ (fs : List (EnumVal V → Except SynErr (EnumVal V))) errs,
      enumAndThens fs none errs = (none, errs) := by
    intro fs errs
    unfold enumAndThens
    induction fs with
    | nil => rfl
    | cons f fs ih => exact ih
  induction fs generalizing x with
  | nil => rfl
  | cons f fs ih =>
    simp only [runThens]
    cases h : f x with
    | ok y =>
      rw [← ih y]
      simp only [enumAndThens, List.foldl_cons, h]
    | error err =>
      simp only
      rw [← none_eq fs]
      simp only [enumAndThens, List.foldl_cons, h]

omit [Env] in
theorem check_cases (errs : Errors) :
    (errs.toList = [] ∧ errs.check = .ok ()) ∨ (∃ x, errs.toList = x.toList ∧ errs.check = .err x) := by
  rcases errs with ⟨_ | e⟩
  · exact .inl ⟨rfl, rfl⟩
  · exact .inr ⟨e, rfl, rfl⟩

omit [Env] in
theorem conclude_some (e : EnumDef V) (x : EnumVal V) (errs : Errors) :
    Finishes e x errs.toList (conclude e (.some x) errs) := by
  unfold Finishes conclude
  simp only [FieldStatus.intoOption, enumAndThens_eq]
  cases h : runThens e.andThens x with
  | ok y =>
    simp only
    rcases check_cases errs with ⟨h1, h2⟩ | ⟨x, h1, h2⟩
    · simp only [h2]
      exact ⟨fun _ => rfl, fun hn => absurd h1 hn⟩
    · simp only [h2]
      exact ⟨fun hn => by rw [h1] at hn; simp [SynErr.toList] at hn, fun _ => ⟨x, rfl, h1.symm⟩⟩
  | error err =>
    simp only
    rcases check_cases (errs.pushSyn err) with ⟨h1, h2⟩ | ⟨x, h1, h2⟩
    · simp [SynErr.toList] at h1
    · simp only [h2]
      exact ⟨x, rfl, by rw [← h1]; simp⟩

omit [Env] in
theorem conclude_none (e : EnumDef V) {value : FieldStatus (EnumVal V)} {errs : Errors}
    (hv : value.intoOption = none) (he : errs.toList ≠ []) :
    FailsWith (conclude e value errs) errs.toList := by
  have : enumAndThens e.andThens none errs = (none, errs) := by
    unfold enumAndThens
    induction e.andThens with
    | nil => rfl
    | cons f fs ih => exact ih
  unfold conclude
  rw [hv, this]
  rcases check_cases errs with ⟨h1, h2⟩ | ⟨x, h1, h2⟩
  · exact absurd h1 he
  · simp only [h2]
    exact ⟨x, rfl, h1.symm⟩

omit [Env] in
theorem conclude_msgs (e : EnumDef V) {value : FieldStatus (EnumVal V)} {errs : Errors} {ms}
    (hm : ms ≠ []) (he : ms.Sublist errs.toList) :
    ∃ x, conclude e value errs = .err x ∧ ms.Sublist x.toList := by
  have hne : errs.toList ≠ [] := fun h => by
    rw [h] at he
    exact hm (List.sublist_nil.1 he)
  cases hv : value.intoOption with
  | none =>
    obtain ⟨x, h1, h2⟩ := conclude_none e hv hne
    exact ⟨x, h1, h2 ▸ he⟩
  | some y =>
    have : value = .some y := by cases value <;> simp_all [FieldStatus.intoOption]
    subst this
    have h := conclude_some e y errs
    unfold Finishes at h
    cases hr : runThens e.andThens y with
    | ok z =>
      rw [hr] at h
      obtain ⟨x, h1, h2⟩ := h.2 hne
      exact ⟨x, h1, h2 ▸ he⟩
    | error err =>
      rw [hr] at h
      obtain ⟨x, h1, h2⟩ := h
      exact ⟨x, h1, h2 ▸ he.trans (List.sublist_append_left _ _)⟩

/-- The streams as the loop leaves them. -/
def afterLoop (e : EnumDef V) (l l1 : List Stream) : List Stream :=
  if e.anyFlat || !e.unknownOk then l else l1

theorem enumFlat_eq {e : EnumDef V} {site : Site V} (hb : ByNameGood e site) (mode : Mode) (pre : Str)
    (validate : Bool) {l rs fatal l1}
    (h : ReadsAll (enumItem e site pre) (if e.anyFlat || !e.unknownOk then forkInputs l else l) rs fatal l1) :
    ∃ errs, errs.toList = variantMsgs pre none (rs.map (·.1)) ++ stopMsgs fatal ∧
      enumFlat e site mode pre validate l =
        match pick e site pre (mode.toFullSpan l) validate (afterItems e pre (rs.map (·.1))).val errs
          (afterLoop e l l1) with
        | (.ok (value, errs), l2) => (conclude e value errs, skipAll l2)
        | (.err x, l2) => (.err x, l2)
        | (.panic, l2) => (.panic, l2) := by
  have hm := enumAdd_msgs e pre (rs.map (·.1)) ⟨⟨none, .none, []⟩, Errors.new⟩
  cases fatal with
  | none =>
    refine ⟨(afterItems e pre (rs.map (·.1))).errs, by simpa [stopMsgs, afterItems] using hm, ?_⟩
    simp only [enumFlat]
    rw [enumLoop_reads e site hb pre h]
    rfl
  | some x =>
    refine ⟨(afterItems e pre (rs.map (·.1))).errs.pushSyn x, ?_, ?_⟩
    · simp only [afterItems, Errors.toList_pushSyn, hm]; simp [stopMsgs]
    · simp only [enumFlat]
      rw [enumLoop_reads e site hb pre h]
      rfl

theorem validatePass_msgs (e : EnumDef V) (validate : Bool) (errs : Errors) {l : List Stream} {ks}
    (h : e.unknownOk = false → ∃ rs l', ReadsAll keyItem l rs none l' ∧ rs.map (·.1) = ks) :
    ∃ errs' l', validatePass e validate errs l = (.ok errs', l') ∧
      errs'.toList = errs.toList ++ checkMsgs (!e.unknownOk && validate) e.fieldNames ks := by
  unfold validatePass
  split
  · rename_i hc
    obtain ⟨rs, l', h1, rfl⟩ := h (by simp at hc; exact hc.1)
    obtain ⟨errs', h2, h3⟩ := checkKeys_reads e.fieldNames errs h1
    exact ⟨errs', l', h2, by rw [h3, hc]⟩
  · rename_i hc
    refine ⟨errs, l, rfl, ?_⟩
    have : (!e.unknownOk && validate) = false := by simpa using hc
    simp [checkMsgs, unknownMsgs, this]

/-! ## The choice -/

theorem enum_setup {e : EnumDef V} {site : Site V} (hb : ByNameGood e site) (mode : Mode) (pre : Str)
    (validate : Bool) {l bs} (h : ItemsAll (EnumSeg e site pre) l bs) :
    ∃ errs l1, errs.toList = variantMsgs pre none bs ∧
      (e.unknownOk = false → ∃ rs l', ReadsAll keyItem l1 rs none l' ∧ rs.map (·.1) = allKeys pre bs) ∧
      (e.anyFlat = true → l1 = l) ∧
      (enumFlat e site mode pre validate l).1 =
        match (pick e site pre (mode.toFullSpan l) validate (afterItems e pre bs).val errs l1).1 with
        | .ok (value, errs) => conclude e value errs
        | .err x => .err x
        | .panic => .panic := by
  obtain ⟨rs, l1, h1, rfl⟩ := enumItems (e.anyFlat || !e.unknownOk) h
  obtain ⟨errs, h2, h3⟩ := enumFlat_eq hb mode pre validate h1
  refine ⟨errs, afterLoop e l l1, by simpa [stopMsgs] using h2, fun hu => ?_, fun hf => ?_, ?_⟩
  · have : afterLoop e l l1 = l := by simp [afterLoop, hu]
    rw [this]
    exact enumKeys h
  · simp [afterLoop, hf]
  · rw [h3]
    generalize pick e site pre (mode.toFullSpan l) validate (afterItems e pre (rs.map (·.1))).val errs
      (afterLoop e l l1) = x
    obtain ⟨r, l2⟩ := x
    cases r <;> rfl

omit [Env] in
theorem spelled_eq (v : Variant V) :
    v.flatNames.flatMap (fun pk => pk.2.map (joinPath pk.1)) = v.spelled := by
  have hj : ∀ s : Str, joinPath [] s = s := fun s => rfl
  unfold Variant.flatNames Variant.spelled
  split
  · rw [List.flatMap_map]
    congr 1
    funext f
    split
    · rename_i h; rw [h]
    · rename_i h
      have : joinPath [] = id := by funext s; exact hj s
      simp [this]
  · rfl

omit [Env] in
theorem otherMsgs_eq (e : EnumDef V) (skip : Option Nat) (cur : Str) (m : PathMap) (errs : Errors) :
    (disallowPaths m (otherFlatNames e skip) cur errs).toList =
      errs.toList ++ otherMsgs e skip cur m.get := by
  rw [c59_disallow_paths, otherMsgs, otherFlatNames, List.flatMap_assoc]
  congr 3
  funext x
  split
  · rfl
  · exact spelled_eq _

omit [Env] in
theorem variantMsgs_one {pre : Str} {bs : List (EItem V)} {i k sp x}
    (h : named bs = [(i, k, sp, .ok x)]) : variantMsgs pre none bs = [] := by
  have none_eq : ∀ (bs : List (EItem V)) first, named bs = [] → variantMsgs pre first bs = [] := by
    intro bs
    induction bs with
    | nil => intro _ _; rfl
    | cons b bs ih =>
      intro first h
      cases b with
      | variant i k sp x => simp [named] at h
      | other key sp => exact ih first h
  induction bs with
  | nil => rfl
  | cons b bs ih =>
    cases b with
    | variant i' k' sp' x' =>
      simp only [named, List.cons.injEq, Prod.mk.injEq] at h
      obtain ⟨⟨rfl, rfl, rfl, rfl⟩, h2⟩ := h
      simp [variantMsgs, none_eq _ _ h2]
    | other key sp => exact ih h

omit [Env] in
theorem variantMsgs_nil {pre : Str} {bs : List (EItem V)} (h : named bs = []) :
    variantMsgs pre none bs = [] := by
  induction bs with
  | nil => rfl
  | cons b bs ih =>
    cases b with
    | variant i k sp x => simp [named] at h
    | other key sp => exact ih h

omit [Env] in
theorem afterItems_paths {e : EnumDef V} (hf : e.anyFlat = true) (pre : Str) (bs : List (EItem V))
    (k : Str) : (afterItems e pre bs).val.paths.get k = lastSpan (seenKeys pre bs) k := by
  rw [afterItems, seenKeys_get e hf]
  simp [PathMap.get]

omit [Env] in
theorem lastSpan_isSome (ks : List (Str × Span)) (k : Str) :
    (lastSpan ks k).isSome = true ↔ k ∈ ks.map (·.1) := by
  rw [lastSpan, Option.isSome_map, Option.isSome_iff_ne_none, ne_eq, List.getLast?_eq_none_iff,
    List.filter_eq_nil_iff]
  simp

theorem pick_one {e : EnumDef V} {site : Site V} {pre : Str} (span : Span) (validate : Bool)
    {bs : List (EItem V)} {i k sp x} (h : named bs = [(i, k, sp, .ok x)]) (errs : Errors) {l1}
    (hk : e.unknownOk = false → ∃ rs l', ReadsAll keyItem l1 rs none l' ∧ rs.map (·.1) = allKeys pre bs) :
    ∃ errs', (pick e site pre span validate (afterItems e pre bs).val errs l1).1 =
        .ok (.some (i, x), errs') ∧
      errs'.toList = errs.toList ++
        (if !validate && !e.unknownOk && e.anyFlat then
          otherMsgs e none k fun n => if n = k then none else lastSpan (seenKeys pre bs) n else []) ++
        checkMsgs (!e.unknownOk && validate) e.fieldNames (allKeys pre bs) := by
  have hv : (afterItems e pre bs).val.value = .some (i, x) :=
    enumAdd_value_one e pre bs _ h rfl
  have hkey : (afterItems e pre bs).val.key = some k := by
    rw [afterItems, enumAdd_key, h]; rfl
  unfold pick
  rw [hv]
  simp only [hkey]
  obtain ⟨errs', l', h1, h2⟩ := validatePass_msgs e validate
    (if e.anyFlat && !e.unknownOk && !validate then
      disallowPaths ((afterItems e pre bs).val.paths.remove k) (otherFlatNames e none) k errs
    else errs) hk
  rw [h1]
  refine ⟨errs', rfl, ?_⟩
  rw [h2]
  congr 1
  by_cases hc : (e.anyFlat && !e.unknownOk && !validate) = true
  · have hc' : (!validate && !e.unknownOk && e.anyFlat) = true := by
      simp only [Bool.and_eq_true] at hc ⊢
      exact ⟨⟨hc.2, hc.1.2⟩, hc.1.1⟩
    simp only [hc, hc', if_true]
    rw [otherMsgs_eq]
    congr 2
    funext n
    rw [PathMap.get_remove, afterItems_paths (by simp only [Bool.and_eq_true] at hc; exact hc.1.1)]
  · have hc' : ¬ (!validate && !e.unknownOk && e.anyFlat) = true := by
      simp only [Bool.and_eq_true] at hc ⊢
      exact fun h => hc ⟨⟨h.2, h.1.2⟩, h.1.1⟩
    simp only [hc, hc', if_false, Bool.false_eq_true, List.append_nil]

/-- The messages of the loop are kept. -/
theorem pick_keeps {e : EnumDef V} {site : Site V} (pre : Str) (span : Span) (validate : Bool)
    (st : EnumSt V) (errs : Errors) (l : List Stream) (hn : st.value.isNone = false)
    (hk : st.key.isSome = true) :
    ∃ value errs' ms, (pick e site pre span validate st errs l).1 = .ok (value, errs') ∧
      errs'.toList = errs.toList ++ ms := by
  unfold pick
  split
  · rename_i x hx
    split
    · rename_i h; simp [h] at hk
    · rename_i key h
      simp only
      have hvp : ∀ errs : Errors, ∃ errs' l' ms, validatePass e validate errs l = (.ok errs', l') ∧
          errs'.toList = errs.toList ++ ms := by
        intro errs
        unfold validatePass
        split
        · obtain ⟨rs, fatal, l', h⟩ := ReadsAll.exists keyItem_good l
          obtain ⟨errs', h1, h2⟩ := checkKeys_reads e.fieldNames errs h
          exact ⟨errs', l', _, h1, h2⟩
        · exact ⟨errs, l, [], rfl, by simp⟩
      obtain ⟨errs', l', ms, h1, h2⟩ := hvp (if e.anyFlat && !e.unknownOk && !validate then
          disallowPaths (st.paths.remove key) (otherFlatNames e none) key errs else errs)
      rw [h1]
      split at h2
      · obtain ⟨ms', h3⟩ := disallow_msgs (st.paths.remove key) (otherFlatNames e none) key errs
        exact ⟨_, errs', ms' ++ ms, rfl, by rw [h2, h3]; simp⟩
      · exact ⟨_, errs', ms, rfl, h2⟩
  · exact ⟨_, errs, [], rfl, by simp⟩
  · rename_i h; simp [h, FieldStatus.isNone] at hn

theorem flatBlock_out {e : EnumDef V} {site : Site V} {v : Variant V} (ha : v.Accepted site)
    (hg : v.FieldsFine) (hf : v.ByFields) (hef : e.anyFlat = true) (pre : Str) (span : Span)
    (bs : List (EItem V)) (i : Nat) (empty : Bool) {errs : Errors} (he : errs.toList = []) (l : List Stream)
    (hc : (empty && !v.acceptsAll) = true → checkMsgs true (Field.fieldNames v.fields) (allKeys pre bs) = [])
    (hk : ∃ rs l', ReadsAll keyItem (forkInputs l) rs none l' ∧ rs.map (·.1) = allKeys pre bs) :
    ∃ value errs', (flatBlock e site pre span (afterItems e pre bs).val.paths v i empty errs l).1 =
        .ok (value, errs') ∧
      FlatOut e i (namedFlat (v.data site span) (Field.fieldNames v.fields) (.named span) pre
          (!empty && !v.acceptsAll) l).1 (v.extraMsgs e i (seenKeys pre bs)) (conclude e value errs') := by
  have ht : v.isTransparent = false := by
    cases h : v.isTransparent with
    | false => rfl
    | true => have := hf.1; rw [(ha.transparent h).1] at this; cases this
  have hs := ha.flatten hf.1
  have hau : v.allowUnknown.getD false = true → v.acceptsAll = true := by
    intro h; simp [Variant.acceptsAll, h]
  have hval : (!v.acceptsAll && !(empty && !v.allowUnknown.getD false)) = (!empty && !v.acceptsAll) := by
    cases h1 : v.acceptsAll <;> cases h2 : v.allowUnknown.getD false <;> cases empty <;> simp_all
  have herrs : ∃ errs1 : Errors, errs1.toList = [] ∧
      (if (empty && !v.allowUnknown.getD false && !v.acceptsAll) = true then
        emptyCheck e v pre span errs l else Res.ok errs) = .ok errs1 := by
    split
    · rename_i h
      have h' : (empty && !v.acceptsAll) = true := by
        simp only [Bool.and_eq_true] at h ⊢
        exact ⟨h.1.1, h.2⟩
      obtain ⟨rs, l', h1, h2⟩ := hk
      obtain ⟨errs1, h3, h4⟩ := checkKeys_reads (Field.fieldNames v.fields) errs h1
      rw [h2, hc h', he] at h4
      refine ⟨errs1, by simpa using h4, ?_⟩
      have e1 : errs.isEmpty = true := by
        rcases errs with ⟨_ | x⟩
        · rfl
        · simp [Errors.toList, SynErr.toList] at he
      have e2 : errs1.isEmpty = true := by
        rcases errs1 with ⟨_ | x⟩
        · rfl
        · simp [Errors.toList, SynErr.toList] at h4
      simp [emptyCheck, e1, h3, e2]
    · exact ⟨errs, he, rfl⟩
  obtain ⟨errs1, he1, hr1⟩ := herrs
  have hgood := (v.namedFlat_good ha hg ht hs span (Field.fieldNames v.fields) (.named span) pre
    (!empty && !v.acceptsAll) l).1
  simp only [flatBlock]
  rw [hr1]
  simp only [hval]
  have hfin : ∀ errs : Errors, (if (e.unknownOk || v.allowUnknown.getD false || !v.acceptsAll) = true then errs
      else disallowPaths (removePaths (afterItems e pre bs).val.paths v.flatNames)
        (otherFlatNames e (some i)) v.ident errs).toList =
      errs.toList ++ v.extraMsgs e i (seenKeys pre bs) := by
    intro errs
    unfold Variant.extraMsgs
    by_cases hx : (e.unknownOk || v.allowUnknown.getD false || !v.acceptsAll) = true
    · have : ¬ (v.acceptsAll && !v.allowUnknown.getD false && !e.unknownOk) = true := by
        revert hx
        cases v.acceptsAll <;> cases v.allowUnknown.getD false <;> cases e.unknownOk <;> simp
      simp only [hx, this, if_true, Bool.false_eq_true, if_false, List.append_nil]
    · have : (v.acceptsAll && !v.allowUnknown.getD false && !e.unknownOk) = true := by
        revert hx
        cases v.acceptsAll <;> cases v.allowUnknown.getD false <;> cases e.unknownOk <;> simp
      simp only [hx, this, if_true, Bool.false_eq_true, if_false]
      rw [otherMsgs_eq]
      congr 2
      funext n
      obtain ⟨r1, r2⟩ := c59_remove_paths (afterItems e pre bs).val.paths v.flatNames n
      have hsp : (∃ pk ∈ v.flatNames, ∃ m ∈ pk.2, n = joinPath pk.1 m) ↔ n ∈ v.spelled := by
        rw [← spelled_eq]
        simp [List.mem_flatMap, eq_comm]
      by_cases hn : n ∈ v.spelled
      · rw [r1 (hsp.2 hn), if_pos hn]
      · rw [r2 (fun h => hn (hsp.1 h)), if_neg hn, afterItems_paths hef]
  generalize namedFlat (v.data site span) (Field.fieldNames v.fields) (.named span) pre
          (!empty && !v.acceptsAll) l = y at hgood ⊢
  obtain ⟨r, l2⟩ := y
  cases r with
  | panic => exact absurd rfl hgood
  | ok x =>
    refine ⟨_, _, rfl, ?_⟩
    have := conclude_some e (i, x) (if (e.unknownOk || v.allowUnknown.getD false || !v.acceptsAll) = true then errs1
      else disallowPaths (removePaths (afterItems e pre bs).val.paths v.flatNames)
        (otherFlatNames e (some i)) v.ident errs1)
    rw [hfin, he1] at this
    exact this
  | err x =>
    refine ⟨_, _, rfl, ?_⟩
    have := conclude_none e (value := .parseError) (errs := (if (e.unknownOk || v.allowUnknown.getD false || !v.acceptsAll) = true then errs1.pushSyn x
      else disallowPaths (removePaths (afterItems e pre bs).val.paths v.flatNames)
        (otherFlatNames e (some i)) v.ident (errs1.pushSyn x))) rfl (by rw [hfin]; simp [SynErr.toList])
    rw [hfin, Errors.toList_pushSyn, he1] at this
    exact this

end

end Deluxe
