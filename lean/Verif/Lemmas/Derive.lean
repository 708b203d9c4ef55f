import Verif.Lemmas.Reads
import Verif.Lemmas.Keys
import Verif.Props.Paths
import Verif.Spec.Struct
/-!
# Derived structures: the loop over the items
-/
namespace Deluxe

variable {V : Type}

theorem matchesKey_iff (f : Field V) (k : Str) : f.matchesKey k = true ↔ f.Plain ∧ k ∈ f.idents := by
  simp [Field.matchesKey, Field.Plain, and_assoc]

theorem findArm_some (fields : List (Field V)) (k : Str) (f : Field V) (i : Nat) :
    findArm fields k = some (f, i) ↔ fields[i]? = some f ∧ f.Plain ∧ k ∈ f.idents ∧
      ∀ j g, j < i → fields[j]? = some g → g.Plain → k ∉ g.idents := by
  have gen : ∀ (fs : List (Field V)) (n : Nat),
      (fs.zipIdx n).find? (fun x => x.1.matchesKey k) = some (f, i) ↔
        ∃ m, i = n + m ∧ fs[m]? = some f ∧ f.Plain ∧ k ∈ f.idents ∧
          ∀ j g, j < m → fs[j]? = some g → g.Plain → k ∉ g.idents := by
    intro fs
    induction fs with
    | nil => intro n; simp
    | cons g fs ih =>
      intro n
      rw [List.zipIdx_cons, List.find?_cons]
      by_cases hg : g.matchesKey k = true
      · simp only [hg, Option.some.injEq, Prod.mk.injEq]
        have hg' := (matchesKey_iff g k).1 hg
        constructor
        · rintro ⟨rfl, rfl⟩
          exact ⟨0, rfl, rfl, hg'.1, hg'.2, by omega⟩
        · rintro ⟨m, rfl, h1, _, _, h4⟩
          cases m with
          | zero => simp at h1; exact ⟨h1, rfl⟩
          | succ m => exact absurd hg'.2 (h4 0 g (by omega) rfl hg'.1)
      · simp only [hg]
        rw [ih]
        have hg' := fun h => hg ((matchesKey_iff g k).2 h)
        constructor
        · rintro ⟨m, rfl, h1, h2, h3, h4⟩
          refine ⟨m + 1, by omega, by simpa using h1, h2, h3, ?_⟩
          intro j x hj hx hp hk
          cases j with
          | zero => simp at hx; subst hx; exact hg' ⟨hp, hk⟩
          | succ j => exact h4 j x (by omega) (by simpa using hx) hp hk
        · rintro ⟨m, rfl, h1, h2, h3, h4⟩
          cases m with
          | zero => simp at h1; subst h1; exact absurd ⟨h2, h3⟩ hg'
          | succ m =>
            exact ⟨m, by omega, by simpa using h1, h2, h3,
              fun j x hj hx => h4 (j + 1) x (by omega) (by simpa using hx)⟩
  simpa [findArm] using gen fields 0

theorem owner_some (fields : List (Field V)) (pre key : Str) (f : Field V) (i : Nat) :
    (stripPrefix pre key).bind (findArm fields) = some (f, i) ↔ Owns fields pre key f i := by
  rw [Option.bind_eq_some_iff]
  constructor
  · rintro ⟨k, h1, h2⟩
    exact ⟨k, (stripPrefix_iff _ _ _).1 h1, (findArm_some _ _ _ _).1 h2⟩
  · rintro ⟨k, h1, h2⟩
    exact ⟨k, (stripPrefix_iff _ _ _).2 h1, (findArm_some _ _ _ _).2 h2⟩

theorem owner_none (fields : List (Field V)) (pre key : Str) :
    (stripPrefix pre key).bind (findArm fields) = none ↔ ∀ f i, ¬ Owns fields pre key f i := by
  constructor
  · intro h f i ho
    rw [(owner_some _ _ _ _ _).2 ho] at h
    cases h
  · intro h
    cases hx : (stripPrefix pre key).bind (findArm fields) with
    | none => rfl
    | some x => exact absurd ((owner_some _ _ _ _ _).1 hx) (h x.1 x.2)

section
variable [Env]

/-- The item reader of a structure after the key. -/
def structValue (fields : List (Field V)) (pre key : Str) (sp : Span) : M Stream (SItem V) :=
  match (stripPrefix pre key).bind (findArm fields) with
  | some (f, i) =>
    (recover (f.item.named (f.idents.headD []) sp)).map (.field i (f.idents.headD []) sp)
  | none => fun s => (.ok (.other key sp), skipMetaItem s)

/-- The item reader of a structure. -/
def structItem (fields : List (Field V)) (pre : Str) : M Stream (SItem V) :=
  keyed (structValue fields pre)

/-- The status of a field from what was given. -/
def slotOf : Option (Except SynErr V) → FieldStatus V
  | none => .none
  | some (.ok v) => .some v
  | some (.error _) => .parseError

/-- Adds an item to the slots. -/
def structAdd (check : Bool) (allowed : List Str) (acc : Acc (Slots V)) : SItem V → Acc (Slots V)
  | .field i name sp x =>
    let st := acc.val.getD i .none
    let errs := if st.isNone then acc.errs else acc.errs.push sp (.duplicateAttr name)
    { val := acc.val.set i (if st.isNone then slotOf (some x) else st)
      errs := match x with
        | .ok _ => errs
        | .error e => errs.pushSyn e }
  | .other key sp =>
    { acc with errs :=
        if check then (checkUnknownAttribute key sp allowed acc.errs).1 else acc.errs }

/-- The types of the plain fields parse without panic. -/
def PlainGood (fields : List (Field V)) : Prop :=
  ∀ f ∈ fields, f.Plain → ∀ n sp, Good (f.item.named n sp)

omit [Env] in
theorem Owns.mem {fields : List (Field V)} {pre key f i} (h : Owns fields pre key f i) :
    f ∈ fields ∧ f.Plain ∧ i < fields.length := by
  obtain ⟨k, _, h1, h2, _⟩ := h
  exact ⟨List.mem_of_getElem? h1, h2, (List.getElem?_eq_some_iff.1 h1).1⟩

theorem structItem_good {fields : List (Field V)} (hg : PlainGood fields) (pre : Str) :
    Good (structItem fields pre) := by
  refine keyed_good fun key sp => ?_
  unfold structValue
  split
  · rename_i f i h
    have ho := ((owner_some _ _ _ _ _).1 h).mem
    exact (recover_good (hg f ho.1 ho.2.1 _ _)).map _
  · exact fun s => ⟨by simp, skipMetaItem_adv s⟩

theorem structItem_seg (fields : List (Field V)) (pre : Str) :
    SegSound (structItem fields pre) (StructSeg fields pre) := by
  intro v rest sc b hr hne hseg u
  cases hseg with
  | @field segs sp vt f i x hk ho hx =>
    rw [structItem, keyed_key _ hk hr]
    simp only [structValue, (owner_some _ _ _ _ _).2 ho]
    by_cases hv : vt ++ rest = []
    · have h1 : vt = [] := (List.append_eq_nil_iff.1 hv).1
      have h2 : rest = [] := (List.append_eq_nil_iff.1 hv).2
      subst h1 h2
      cases x with
      | ok a =>
        obtain ⟨u', h⟩ := hx u
        exact ⟨u', by simp only [M.map, recover, h, Res.map]⟩
      | error e =>
        obtain ⟨v', u', hv', h⟩ := hx u
        exact ⟨u', by
          simp only [M.map, recover, h, Res.map, skipMetaItem, skipToks_boundary hv' hr]⟩
    · obtain ⟨u', h⟩ := recover_segSound _ vt rest sc x hr hv hx u
      exact ⟨u', by simp only [M.map, h, Res.map]⟩
  | @other segs sp vt hk ho hc =>
    rw [structItem, keyed_key _ hk hr]
    simp only [structValue, (owner_none _ _ _).2 ho]
    exact ⟨u, by simp only [skipMetaItem, skipToks_boundary hc hr]⟩

theorem namedStep_eq (d : Fields V) (hg : PlainGood d.fields) (allowed : List Str) (pre : Str)
    (validate : Bool) :
    keyStep (namedStep d allowed pre validate) =
      foldStep (structItem d.fields pre)
        (fun k b _ _ => structAdd (!d.allowUnknown && validate) allowed k b) := by
  funext st
  obtain ⟨acc, s⟩ := st
  rw [keyStep_eq]
  simp only [foldStep, structItem, keyed]
  cases hp : parseAnyPath s with
  | mk r s1 =>
    cases r with
    | err e => rfl
    | panic => rfl
    | ok p =>
      simp only [namedStep, structValue]
      cases hx : (stripPrefix pre (keyString p.segs)).bind (findArm d.fields) with
      | none => rfl
      | some x =>
        obtain ⟨f, i⟩ := x
        simp only [FieldStatus.parseNamedItemWith, M.map, recover]
        cases hq : f.item.named (f.idents.headD []) p.span s1 with
        | mk r s2 =>
          cases r with
          | ok v => simp [structAdd, Res.map, slotOf]
          | err e => simp [structAdd, Res.map, slotOf]
          | panic =>
            have ho := ((owner_some _ _ _ _ _).1 hx).mem
            have := (hg f ho.1 ho.2.1 (f.idents.headD []) p.span s1).1
            rw [hq] at this
            exact absurd rfl this

/-! ## What the items leave in the slots -/

omit [Env] in
theorem slotOf_isNone (x : Except SynErr V) : (slotOf (some x)).isNone = false := by
  cases x <;> rfl

theorem structAdd_length (check : Bool) (allowed : List Str) (acc : Acc (Slots V)) (b : SItem V) :
    (structAdd check allowed acc b).val.length = acc.val.length := by
  cases b <;> simp [structAdd]

/-- The positions of the items are positions of fields. -/
def InRange (n : Nat) (bs : List (SItem V)) : Prop :=
  ∀ i name sp x, SItem.field i name sp x ∈ bs → i < n

theorem structAdd_fold (check : Bool) (allowed : List Str) (bs : List (SItem V)) :
    ∀ (acc : Acc (Slots V)) (seen : List Nat), InRange acc.val.length bs →
      (∀ i, i < acc.val.length → (i ∈ seen ↔ (acc.val.getD i .none).isNone = false)) →
      (bs.foldl (structAdd check allowed) acc).errs.toList =
          acc.errs.toList ++ itemMsgs check allowed seen bs ∧
        (bs.foldl (structAdd check allowed) acc).val.length = acc.val.length ∧
        ∀ i, i < acc.val.length → (bs.foldl (structAdd check allowed) acc).val.getD i .none =
          if (acc.val.getD i .none).isNone then slotOf (given i bs) else acc.val.getD i .none := by
  induction bs with
  | nil =>
    intro acc seen _ _
    refine ⟨by simp [itemMsgs], rfl, fun i _ => ?_⟩
    simp only [List.foldl_nil, given, slotOf]
    cases acc.val.getD i .none <;> rfl
  | cons b bs ih =>
    intro acc seen hr hs
    rw [List.foldl_cons]
    have hl := structAdd_length check allowed acc b
    cases b with
    | other key sp =>
      obtain ⟨h1, h2, h3⟩ := ih (structAdd check allowed acc (.other key sp)) seen
        (by rw [hl]; exact fun i n s x h => hr i n s x (List.mem_cons_of_mem _ h))
        (by rw [hl]; exact hs)
      refine ⟨?_, h2.trans hl, ?_⟩
      · rw [h1]
        simp only [structAdd, itemMsgs, unknownMsgs, checkUnknownAttribute]
        cases check with
        | false => simp
        | true =>
          by_cases hk : key ∈ allowed <;> simp [hk, List.append_assoc]
      · rw [hl] at h3; exact h3
    | field i name sp x =>
      have hi : i < acc.val.length := hr i name sp x (by simp)
      have hget : ∀ j, j < acc.val.length →
          (structAdd check allowed acc (.field i name sp x)).val.getD j .none =
            if i = j ∧ (acc.val.getD j .none).isNone = true then slotOf (some x)
            else acc.val.getD j .none := by
        intro j hj
        simp only [structAdd]
        rw [List.getD_eq_getElem?_getD, List.getElem?_set]
        by_cases hij : i = j
        · subst hij
          simp only [hi, if_true, true_and]
          cases hn : (acc.val.getD i .none).isNone <;> simp
        · simp [hij]
      obtain ⟨h1, h2, h3⟩ := ih (structAdd check allowed acc (.field i name sp x)) (i :: seen)
        (by rw [hl]; exact fun i n s x h => hr i n s x (List.mem_cons_of_mem _ h))
        (by
          rw [hl]
          intro j hj
          rw [hget j hj, List.mem_cons]
          by_cases hij : i = j
          · subst hij
            cases hn : (acc.val.getD i .none).isNone <;>
              simp [hn, slotOf_isNone, -List.getD_eq_getElem?_getD]
          · have : ¬ j = i := fun h => hij h.symm
            simp only [hij, this, false_and, if_false, false_or]
            exact hs j hj)
      refine ⟨?_, h2.trans hl, ?_⟩
      · rw [h1]
        simp only [itemMsgs, structAdd]
        have := hs i hi
        cases hn : (acc.val.getD i .none).isNone with
        | true =>
          have h0 : i ∉ seen := by rw [this, hn]; simp
          cases x <;> simp [h0, List.append_assoc]
        | false =>
          have h0 : i ∈ seen := by rw [this, hn]
          cases x <;> simp [h0, List.append_assoc]
      · intro j hj
        rw [h3 j (by rw [hl]; exact hj), hget j hj]
        by_cases hij : i = j
        · subst hij
          cases hn : (acc.val.getD i .none).isNone <;>
            simp [hn, slotOf_isNone, given, -List.getD_eq_getElem?_getD]
        · simp [hij, given]
/-! ## After the items -/

/-- The result of each flat field on the items, `none` for a field that is not flat: all but the last
are given forks. -/
def flatOuts (pre : Str) (span : Span) (allowed : List Str) (l : List Stream) :
    List (Field V) → List (Option (Res V))
  | [] => []
  | f :: fs =>
    (if f.flatParsable then
      some (f.flatCall pre span allowed (if fs.any (·.flatParsable) then forkInputs l else l)).1
    else none) :: flatOuts pre span allowed l fs

/-- The slot of a field after the flat pass. -/
def flatSlot (st : FieldStatus V) : Option (Res V) → FieldStatus V
  | some (.ok v) => .some v
  | some (.err _) => .parseError
  | _ => st

/-- The messages of the flat pass. -/
def flatMsg : Option (Res V) → List Msg
  | some (.err e) => e.toList
  | _ => []

/-- A field after the pass over the missing fields, with its messages. -/
def missOut (d : Fields V) (ms : Res V) (f : Field V) (st : FieldStatus V) :
    FieldStatus V × List Msg :=
  let st := containerSet d f st
  if f.isContainer || d.transparent then (st, [])
  else if f.default.isNone && d.target.isNone && !f.isFlat && st.isNone then
    match ms with
    | .ok v => (.some v, [])
    | .err e => (st, e.toList)
    | .panic => (st, [])
  else (st, [])

/-- A slot after transforms, with the messages. -/
def transOut (ts : List (Transform V)) : FieldStatus V → FieldStatus V × List Msg
  | .some v =>
    match runTransforms ts v with
    | .ok v' => (.some v', [])
    | .error e => (.parseError, e.toList)
  | st => (st, [])

/-- A slot after the default of the field. -/
def withDefault (f : Field V) (st : FieldStatus V) : FieldStatus V :=
  match f.default with
  | some d => st.orElse fun _ => .some d
  | none => st

/-- A field after its default and its transforms, with its messages. -/
def setOut (f : Field V) (st : FieldStatus V) : FieldStatus V × List Msg :=
  transOut f.transforms (withDefault f st)

omit [Env] in
theorem transforms_fold (ts : List (Transform V)) (v : V) (errs : Errors) :
    ∃ errs', ts.foldl (fun x t => Field.transform t x.1 x.2) (.some v, errs) =
        ((match runTransforms ts v with | .ok v' => .some v' | .error _ => .parseError), errs') ∧
      errs'.toList = errs.toList ++
        (match runTransforms ts v with | .ok _ => [] | .error e => e.toList) := by
  have stop : ∀ (ts : List (Transform V)) (errs : Errors),
      ts.foldl (fun x t => Field.transform t x.1 x.2) (FieldStatus.parseError, errs) =
        (.parseError, errs) := by
    intro ts
    induction ts with
    | nil => intro errs; rfl
    | cons t ts ih => intro errs; rw [List.foldl_cons]; exact ih errs
  induction ts generalizing v with
  | nil => exact ⟨errs, rfl, by simp [runTransforms]⟩
  | cons t ts ih =>
    rw [List.foldl_cons]
    cases t with
    | map g =>
      simp only [Field.transform, runTransforms, Transform.apply]
      exact ih (g v)
    | andThen g =>
      cases hg : g v with
      | ok v' =>
        simp only [Field.transform, runTransforms, Transform.apply, hg]
        exact ih v'
      | error e =>
        simp only [Field.transform, runTransforms, Transform.apply, hg]
        exact ⟨_, stop ts _, by simp⟩

omit [Env] in
theorem transforms_none (ts : List (Transform V)) {st : FieldStatus V} (hs : ∀ v, st ≠ .some v)
    (errs : Errors) :
    ts.foldl (fun x t => Field.transform t x.1 x.2) (st, errs) = (st, errs) := by
  induction ts with
  | nil => rfl
  | cons t ts ih =>
    rw [List.foldl_cons]
    cases st with
    | some v => exact absurd rfl (hs v)
    | none => exact ih
    | parseError => exact ih

omit [Env] in
theorem transforms_eq (ts : List (Transform V)) (st : FieldStatus V) (errs : Errors) :
    ∃ errs', ts.foldl (fun x t => Field.transform t x.1 x.2) (st, errs) =
        ((transOut ts st).1, errs') ∧
      errs'.toList = errs.toList ++ (transOut ts st).2 := by
  cases st with
  | some v =>
    obtain ⟨errs', h1, h2⟩ := transforms_fold ts v errs
    refine ⟨errs', ?_⟩
    cases hr : runTransforms ts v with
    | ok v' => simp only [hr, transOut] at h1 h2 ⊢; exact ⟨h1, h2⟩
    | error e => simp only [hr, transOut] at h1 h2 ⊢; exact ⟨h1, h2⟩
  | none => exact ⟨errs, transforms_none _ (by simp) _, by simp [transOut]⟩
  | parseError => exact ⟨errs, transforms_none _ (by simp) _, by simp [transOut]⟩

omit [Env] in
theorem set_eq (f : Field V) (st : FieldStatus V) (errs : Errors) :
    ∃ errs', f.set st errs = ((setOut f st).1, errs') ∧
      errs'.toList = errs.toList ++ (setOut f st).2 :=
  transforms_eq f.transforms (withDefault f st) errs

omit [Env] in
theorem setPass_eq (fs : List (Field V)) (sts : Slots V) (errs : Errors) :
    ∃ errs', setPass fs sts errs = (List.zipWith (fun f st => (setOut f st).1) fs sts, errs') ∧
      errs'.toList = errs.toList ++ (List.zipWith (fun f st => (setOut f st).2) fs sts).flatten := by
  induction fs generalizing sts errs with
  | nil => exact ⟨errs, by simp [setPass], by simp⟩
  | cons f fs ih =>
    cases sts with
    | nil => exact ⟨errs, by simp [setPass], by simp⟩
    | cons st sts =>
      obtain ⟨e1, h1, h2⟩ := set_eq f st errs
      obtain ⟨e2, h3, h4⟩ := ih sts e1
      exact ⟨e2, by simp [setPass, h1, h3], by simp [h4, h2]⟩

omit [Env] in
theorem missingNamed_eq (d : Fields V) (pre : Str) (span : Span) (f : Field V)
    (hm : ∀ n sp, f.item.missing n sp ≠ .panic) (st : FieldStatus V) (errs : Errors) :
    ∃ errs', missingNamed d pre span f (containerSet d f st) errs =
        .ok ((missOut d (f.item.missing (missingName d pre f) span) f st).1, errs') ∧
      errs'.toList = errs.toList ++ (missOut d (f.item.missing (missingName d pre f) span) f st).2 := by
  simp only [missingNamed, missOut]
  split
  · exact ⟨errs, rfl, by simp⟩
  · split
    · have := hm (missingName d pre f) span
      cases hx : f.item.missing (missingName d pre f) span with
      | ok v => exact ⟨errs, rfl, by simp⟩
      | err e => exact ⟨_, rfl, by simp⟩
      | panic => exact absurd hx this
    · exact ⟨errs, rfl, by simp⟩

omit [Env] in
theorem missingPass_eq (d : Fields V) (pre : Str) (span : Span) (fs : List (Field V))
    (hm : ∀ f ∈ fs, ∀ n sp, f.item.missing n sp ≠ .panic) (sts : Slots V) (errs : Errors) :
    ∃ errs', missingPass d pre span fs sts errs =
        .ok (List.zipWith (fun f st => (missOut d (f.item.missing (missingName d pre f) span) f st).1) fs sts, errs') ∧
      errs'.toList = errs.toList ++
        (List.zipWith (fun f st => (missOut d (f.item.missing (missingName d pre f) span) f st).2) fs sts).flatten := by
  induction fs generalizing sts errs with
  | nil => exact ⟨errs, by simp [missingPass], by simp⟩
  | cons f fs ih =>
    cases sts with
    | nil => exact ⟨errs, by simp [missingPass], by simp⟩
    | cons st sts =>
      obtain ⟨e1, h1, h2⟩ := missingNamed_eq d pre span f (hm f (by simp)) st errs
      obtain ⟨e2, h3, h4⟩ := ih (fun g hg => hm g (by simp [hg])) sts e1
      exact ⟨e2, by simp [missingPass, h1, h3], by simp [h4, h2]⟩

omit [Env] in
theorem flatOuts_none {fs : List (Field V)} (h : fs.any (·.flatParsable) = false) (pre : Str)
    (span : Span) (allowed : List Str) (l : List Stream) :
    flatOuts pre span allowed l fs = fs.map fun _ => none := by
  induction fs with
  | nil => rfl
  | cons f fs ih =>
    simp only [List.any_cons, Bool.or_eq_false_iff] at h
    simp [flatOuts, h.1, ih h.2]

omit [Env] in
theorem flatPass_none {fs : List (Field V)} (h : fs.any (·.flatParsable) = false) (pre : Str)
    (span : Span) (allowed : List Str) (sts : Slots V) (hl : sts.length = fs.length)
    (errs : Errors) (l : List Stream) :
    flatPass pre span allowed fs sts errs l = (.ok (sts, errs), l) := by
  induction fs generalizing sts with
  | nil => cases sts <;> simp_all [flatPass]
  | cons f fs ih =>
    simp only [List.any_cons, Bool.or_eq_false_iff] at h
    cases sts with
    | nil => simp at hl
    | cons st sts => simp [flatPass, h.1, ih h.2 sts (by simpa using hl), Res.map]

omit [Env] in
theorem flatSlot_none (fs : List (Field V)) (sts : Slots V) (hl : sts.length = fs.length) :
    List.zipWith flatSlot sts (fs.map fun _ => (none : Option (Res V))) = sts := by
  induction sts generalizing fs with
  | nil => simp
  | cons st sts ih =>
    cases fs with
    | nil => simp at hl
    | cons f fs => simp [flatSlot, ih fs (by simpa using hl)]

omit [Env] in
theorem flatPass_eq (pre : Str) (span : Span) (allowed : List Str) (fs : List (Field V))
    (hf : ∀ f ∈ fs, f.flatParsable = true → Good (f.flatCall pre span allowed))
    (sts : Slots V) (hl : sts.length = fs.length) (errs : Errors) (l : List Stream) :
    ∃ errs' l', flatPass pre span allowed fs sts errs l =
        (.ok (List.zipWith flatSlot sts (flatOuts pre span allowed l fs), errs'), l') ∧
      errs'.toList = errs.toList ++ ((flatOuts pre span allowed l fs).map flatMsg).flatten ∧
      AdvL l' l := by
  induction fs generalizing sts errs with
  | nil =>
    have : sts = [] := by simpa using hl
    subst this
    exact ⟨errs, l, by simp [flatPass], by simp [flatOuts], .refl l⟩
  | cons f fs ih =>
    cases sts with
    | nil => simp at hl
    | cons st sts =>
      have hl' : sts.length = fs.length := by simpa using hl
      have hf' : ∀ g ∈ fs, g.flatParsable = true → Good (g.flatCall pre span allowed) :=
        fun g hg => hf g (by simp [hg])
      by_cases hp : f.flatParsable = true
      · have hgood := hf f (by simp) hp
        by_cases ha : fs.any (·.flatParsable) = true
        · have hn := (hgood (forkInputs l)).1
          simp only [flatPass, flatOuts, hp, ha, if_true]
          cases hx : (f.flatCall pre span allowed (forkInputs l)).1 with
          | panic => exact absurd hx hn
          | ok v =>
            obtain ⟨e', l', h1, h2, h3⟩ := ih hf' sts hl' errs
            exact ⟨e', l', by simp [h1, Res.map, flatSlot], by simp [h2, flatMsg], h3⟩
          | err e =>
            obtain ⟨e', l', h1, h2, h3⟩ := ih hf' sts hl' (errs.pushSyn e)
            exact ⟨e', l', by simp [h1, Res.map, flatSlot], by simp [h2, flatMsg], h3⟩
        · have ha' : fs.any (·.flatParsable) = false := by simpa using ha
          have hn := hgood l
          simp only [flatPass, flatOuts, hp, ha', if_true, Bool.false_eq_true, if_false]
          cases hx : f.flatCall pre span allowed l with
          | mk r l1 =>
            rw [hx] at hn
            have hz := flatSlot_none fs sts hl'
            have hm : ((fs.map fun _ => (none : Option (Res V))).map flatMsg).flatten = [] := by
              simp [flatMsg]
            cases r with
            | panic => exact absurd rfl hn.1
            | ok v =>
              exact ⟨errs, l1, by
                simp [flatPass_none ha' pre span allowed sts hl', Res.map, flatSlot,
                  flatOuts_none ha', hz], by
                rw [flatOuts_none ha', List.map_cons, List.flatten_cons, hm]; simp [flatMsg], hn.2⟩
            | err e =>
              exact ⟨errs.pushSyn e, l1, by
                simp [flatPass_none ha' pre span allowed sts hl', Res.map, flatSlot,
                  flatOuts_none ha', hz], by
                rw [flatOuts_none ha', List.map_cons, List.flatten_cons, hm]; simp [flatMsg], hn.2⟩
      · have hp' : f.flatParsable = false := by simpa using hp
        obtain ⟨e', l', h1, h2, h3⟩ := ih hf' sts hl' errs
        exact ⟨e', l', by simp [flatPass, flatOuts, hp', h1, Res.map, flatSlot],
          by simp [flatOuts, hp', h2, flatMsg], h3⟩

/-! ## The whole parser -/

/-- The types of the fields parse without panic. -/
structure FieldsGood (fields : List (Field V)) : Prop where
  named : PlainGood fields
  missing : ∀ f ∈ fields, ∀ n sp, f.item.missing n sp ≠ .panic
  flat : ∀ f ∈ fields, f.flatParsable = true → ∀ pre sp allowed, Good (f.flatCall pre sp allowed)

/-- The slots after the items. -/
def itemSlots (n : Nat) (bs : List (SItem V)) : Slots V :=
  (List.range n).map fun i => slotOf (given i bs)

/-- The slots after the flat pass. -/
def flatSlots (d : Fields V) (allowed : List Str) (pre : Str) (span : Span) (l : List Stream)
    (bs : List (SItem V)) : Slots V :=
  List.zipWith flatSlot (itemSlots d.fields.length bs) (flatOuts pre span allowed l d.fields)

/-- The slots after the pass over the missing fields. -/
def missSlots (d : Fields V) (pre : Str) (span : Span) (sts : Slots V) : Slots V :=
  List.zipWith (fun f st => (missOut d (f.item.missing (missingName d pre f) span) f st).1) d.fields sts

/-- The messages of the flat fields. -/
def flatMsgs (d : Fields V) (allowed : List Str) (pre : Str) (span : Span) (l : List Stream) :
    List Msg :=
  ((flatOuts pre span allowed l d.fields).map flatMsg).flatten

/-- The messages of the missing fields. -/
def missMsgs (d : Fields V) (pre : Str) (span : Span) (sts : Slots V) : List Msg :=
  (List.zipWith (fun f st => (missOut d (f.item.missing (missingName d pre f) span) f st).2) d.fields sts).flatten

/-- The slots after defaults and transforms. -/
def setSlots (d : Fields V) (sts : Slots V) : Slots V :=
  List.zipWith (fun f st => (setOut f st).1) d.fields sts

/-- The messages of the transforms. -/
def setMsgsOf (d : Fields V) (sts : Slots V) : List Msg :=
  (List.zipWith (fun f st => (setOut f st).2) d.fields sts).flatten

/-- The messages of an error that stopped the loop. -/
def stopMsgs : Option SynErr → List Msg
  | some e => e.toList
  | none => []

omit [Env] in
theorem Reads.mem {β : Type} {item : M Stream β} {s rs fatal s'} (h : Reads item s rs fatal s') :
    ∀ x ∈ rs, item x.2.1 = (.ok x.1, x.2.2) := by
  induction h with
  | done => simp
  | last _ hi _ => simpa using hi
  | more _ hi _ _ _ ih =>
    intro x hx
    rcases List.mem_cons.1 hx with rfl | hx
    · exact hi
    · exact ih x hx
  | failItem => simp
  | failSep _ hi _ _ => simpa using hi

omit [Env] in
theorem ReadsAll.mem {β : Type} {item : M Stream β} {l rs fatal l'}
    (h : ReadsAll item l rs fatal l') : ∀ x ∈ rs, item x.2.1 = (.ok x.1, x.2.2) := by
  induction h with
  | nil => simp
  | cons h1 _ ih =>
    intro x hx
    rcases List.mem_append.1 hx with hx | hx
    · exact h1.mem x hx
    · exact ih x hx
  | fail h1 => exact h1.mem

theorem structItem_owner {fields : List (Field V)} {pre : Str} {s s' : Stream} {i name sp x}
    (h : structItem fields pre s = (.ok (.field i name sp x), s')) :
    ∃ f key, Owns fields pre key f i ∧ name = f.idents.headD [] := by
  simp only [structItem, keyed] at h
  split at h
  · rename_i p s1 hp
    simp only [structValue] at h
    cases hj : (stripPrefix pre (keyString p.segs)).bind (findArm fields) with
    | none => rw [hj] at h; simp at h
    | some y =>
      obtain ⟨f, j⟩ := y
      rw [hj] at h
      have ho := (owner_some _ _ _ _ _).1 hj
      simp only [M.map] at h
      cases hr : recover (f.item.named (f.idents.headD []) p.span) s1 with
      | mk r s2 =>
        rw [hr] at h
        cases r with
        | ok y =>
          simp only [Res.map, Prod.mk.injEq, Res.ok.injEq, SItem.field.injEq] at h
          rw [← h.1.1, ← h.1.2.1]
          exact ⟨f, _, ho, rfl⟩
        | err e => simp [Res.map] at h
        | panic => simp [Res.map] at h
  · simp at h
  · simp at h

theorem structItem_range {fields : List (Field V)} {pre : Str} {s s' : Stream} {i name sp x}
    (h : structItem fields pre s = (.ok (.field i name sp x), s')) : i < fields.length := by
  obtain ⟨f, key, ho, _⟩ := structItem_owner h
  exact ho.mem.2.2

theorem ReadsAll.inRange {fields : List (Field V)} {pre : Str} {l rs fatal l'}
    (h : ReadsAll (structItem fields pre) l rs fatal l') : InRange fields.length (rs.map (·.1)) := by
  intro i name sp x hx
  obtain ⟨y, hy, he⟩ := List.mem_map.1 hx
  have := h.mem y hy
  rw [he] at this
  exact structItem_range this

omit [Env] in
theorem itemSlots_ext {n : Nat} {bs : List (SItem V)} {sts : Slots V} (hl : sts.length = n)
    (h : ∀ i, i < n → sts.getD i .none = slotOf (given i bs)) : sts = itemSlots n bs := by
  apply List.ext_getElem?
  intro i
  by_cases hi : i < n
  · have := h i hi
    rw [List.getD_eq_getElem?_getD, List.getElem?_eq_getElem (by omega)] at this
    simp only [Option.getD_some] at this
    rw [List.getElem?_eq_getElem (by omega), this]
    simp [itemSlots, hi]
  · rw [List.getElem?_eq_none (by omega), List.getElem?_eq_none (by simp [itemSlots]; omega)]

theorem parseStruct_reads (d : Fields V) (hg : PlainGood d.fields) (allowed : List Str) (pre : Str)
    (validate : Bool) {l rs fatal l'} (h : ReadsAll (structItem d.fields pre) l rs fatal l') :
    ∃ errs, parseStruct (namedStep d allowed pre validate) (⟨d.init, Errors.new⟩, l) =
        (stopped fatal, (⟨itemSlots d.fields.length (rs.map (·.1)), errs⟩, l')) ∧
      errs.toList = itemMsgs (!d.allowUnknown && validate) allowed [] (rs.map (·.1)) := by
  rw [parseStruct_eq, namedStep_eq d hg]
  have hrun := (fold_iff (structItem_good hg pre)
    (fun k b _ _ => structAdd (!d.allowUnknown && validate) allowed k b) ⟨d.init, Errors.new⟩ _ l l'
    _).2 ⟨rs, fatal, h, rfl, rfl⟩
  rw [hrun]
  have hlen : d.init.length = d.fields.length := by simp [Fields.init]
  have hnone : ∀ i, d.init.getD i .none = .none := by
    intro i
    simp only [Fields.init, List.getD_eq_getElem?_getD, List.getElem?_map]
    cases d.fields[i]? <;> rfl
  obtain ⟨h1, h2, h3⟩ := structAdd_fold (!d.allowUnknown && validate) allowed (rs.map (·.1))
    ⟨d.init, Errors.new⟩ [] (by simp only [hlen]; exact h.inRange)
    (by intro i _; simp [hnone, FieldStatus.isNone, -List.getD_eq_getElem?_getD])
  have hfold : foldReads (fun k b _ _ => structAdd (!d.allowUnknown && validate) allowed k b)
      ⟨d.init, Errors.new⟩ rs =
      (rs.map (·.1)).foldl (structAdd (!d.allowUnknown && validate) allowed)
        ⟨d.init, Errors.new⟩ := by
    simp [foldReads, List.foldl_map]
  rw [hfold]
  have hv := itemSlots_ext (bs := rs.map (·.1)) (h2.trans hlen) (fun i hi => by
    rw [h3 i (by simp only [hlen]; exact hi)]
    simp [hnone, FieldStatus.isNone, -List.getD_eq_getElem?_getD])
  refine ⟨_, ?_, by rw [h1]; simp⟩
  rw [← hv]

omit [Env] in
theorem postNamed_eq (d : Fields V) (hm : ∀ f ∈ d.fields, ∀ n sp, f.item.missing n sp ≠ .panic)
    (pre : Str) (span : Span) (sts : Slots V) (errs : Errors) :
    ∃ errs', postNamed d pre span sts errs =
        finish d (setSlots d (missSlots d pre span sts)) errs' ∧
      errs'.toList = errs.toList ++ missMsgs d pre span sts ++
        setMsgsOf d (missSlots d pre span sts) := by
  obtain ⟨e1, h1, h2⟩ := missingPass_eq d pre span d.fields hm sts errs
  obtain ⟨e2, h3, h4⟩ := setPass_eq d.fields (missSlots d pre span sts) e1
  refine ⟨e2, ?_, by rw [h4, h2]; rfl⟩
  simp only [postNamed, h1]
  change (match setPass d.fields (missSlots d pre span sts) e1 with
    | (slots, errs) => finish d slots errs) = _
  rw [h3]
  rfl

/-- What a derived named structure does on any input. -/
theorem namedFlat_reads (d : Fields V) (hg : FieldsGood d.fields) (allowed : List Str) (mode : Mode)
    (pre : Str) (validate : Bool) {l rs fatal l1}
    (h : ReadsAll (structItem d.fields pre)
      (if d.fields.any (·.flatParsable) then forkInputs l else l) rs fatal l1) :
    ∃ errs l', namedFlat d allowed mode pre validate l =
        (finish d (setSlots d (missSlots d pre (mode.toFullSpan l)
          (flatSlots d allowed pre (mode.toFullSpan l) l (rs.map (·.1))))) errs, l') ∧
      errs.toList = itemMsgs (!d.allowUnknown && validate) allowed [] (rs.map (·.1)) ++
        stopMsgs fatal ++ flatMsgs d allowed pre (mode.toFullSpan l) l ++
        missMsgs d pre (mode.toFullSpan l)
          (flatSlots d allowed pre (mode.toFullSpan l) l (rs.map (·.1))) ++
        setMsgsOf d (missSlots d pre (mode.toFullSpan l)
          (flatSlots d allowed pre (mode.toFullSpan l) l (rs.map (·.1)))) ∧
      (d.fields.any (·.flatParsable) = false → l' = l1) ∧
      (d.fields.any (·.flatParsable) = true → AdvL l' l) := by
  obtain ⟨e0, h1, h2⟩ := parseStruct_reads d hg.named allowed pre validate h
  have hlen : (itemSlots d.fields.length (rs.map (·.1))).length = d.fields.length := by
    simp [itemSlots]
  let l2 := if d.fields.any (·.flatParsable) then l else l1
  have hsl : flatSlots d allowed pre (mode.toFullSpan l) l (rs.map (·.1)) =
      List.zipWith flatSlot (itemSlots d.fields.length (rs.map (·.1)))
        (flatOuts pre (mode.toFullSpan l) allowed l2 d.fields) ∧
      flatMsgs d allowed pre (mode.toFullSpan l) l =
        ((flatOuts pre (mode.toFullSpan l) allowed l2 d.fields).map flatMsg).flatten := by
    cases ha : d.fields.any (·.flatParsable) with
    | true => simp [l2, ha, flatSlots, flatMsgs]
    | false => simp [flatSlots, flatMsgs, flatOuts_none ha]
  let e1 := match stopped fatal with
    | .err e => e0.pushSyn e
    | _ => e0
  have he1 : e1.toList = e0.toList ++ stopMsgs fatal := by
    cases fatal <;> simp [e1, stopped, stopMsgs]
  obtain ⟨e2, l', h3, h4, h5⟩ := flatPass_eq pre (mode.toFullSpan l) allowed d.fields
    (fun f hf hp => hg.flat f hf hp _ _ _) _ hlen e1 l2
  obtain ⟨e3, h6, h7⟩ := postNamed_eq d hg.missing pre (mode.toFullSpan l)
    (flatSlots d allowed pre (mode.toFullSpan l) l (rs.map (·.1))) e2
  refine ⟨e3, l', ?_, ?_, ?_, ?_⟩
  · simp only [namedFlat, h1]
    rw [← h6, hsl.1]
    cases fatal with
    | none =>
      simp only [stopped]
      change (match flatPass pre (mode.toFullSpan l) allowed d.fields _ e1 l2 with
        | (.ok (slots, errs), l2) => (postNamed d pre (mode.toFullSpan l) slots errs, l2)
        | (.err e, l2) => (.err e, l2)
        | (.panic, l2) => (.panic, l2)) = _
      rw [h3]
    | some e =>
      simp only [stopped]
      change (match flatPass pre (mode.toFullSpan l) allowed d.fields _ e1 l2 with
        | (.ok (slots, errs), l2) => (postNamed d pre (mode.toFullSpan l) slots errs, l2)
        | (.err e, l2) => (.err e, l2)
        | (.panic, l2) => (.panic, l2)) = _
      rw [h3]
  · rw [h7, h4, he1, h2, hsl.2]
  · intro ha
    have hn := flatPass_none ha pre (mode.toFullSpan l) allowed _ hlen e1 l2
    rw [hn] at h3
    simp only [Prod.mk.injEq] at h3
    rw [← h3.2]
    simp [l2, ha]
  · intro ha
    simpa [l2, ha] using h5

end

end Deluxe
