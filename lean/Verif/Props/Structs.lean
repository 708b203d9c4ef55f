import Verif.Lemmas.Struct
/-!
# C30 to C38, C42: derived structures with named fields

`namedFlat d allowed mode pre validate` is the parser generated for a structure with named fields.  The
input is given by its items (`ItemsAll (StructSeg d.fields pre) l bs`), see `Verif/Spec/Struct.lean`.
-/
namespace Deluxe

variable {V : Type}

/-! ## Lemmas -/

theorem itemsAll_fork {β : Type} {seg : List Tok → List Tok → Span → β → Prop} {l bs}
    (h : ItemsAll seg l bs) : ItemsAll seg (forkInputs l) bs := by
  induction h with
  | nil => exact .nil
  | cons h1 _ ih => exact .cons (s := Stream.fork _) h1 ih

section
variable [Env]

theorem structItems {fields : List (Field V)} {pre : Str} {l bs} (b : Bool)
    (h : ItemsAll (StructSeg fields pre) l bs) :
    ∃ rs l1, ReadsAll (structItem fields pre) (if b then forkInputs l else l) rs none l1 ∧
      rs.map (·.1) = bs := by
  have h' : ItemsAll (StructSeg fields pre) (if b then forkInputs l else l) bs := by
    cases b
    · exact h
    · exact itemsAll_fork h
  obtain ⟨rs, l1, h1, h2, _⟩ := h'.reads (structItem_seg fields pre)
  exact ⟨rs, l1, h1, h2⟩

/-! ## C30 -/

/-- C30 (named fields): on any input the parser returns a value or an error, never panics. -/
theorem c30_named (d : Fields V) (ha : Accepted d) (ht : d.transparent = false)
    (hg : FieldsGood d.fields) (allowed : List Str) (mode : Mode) (pre : Str) (validate : Bool)
    (l : List Stream) : (namedFlat d allowed mode pre validate l).1 ≠ .panic := by
  obtain ⟨rs, fatal, l1, h⟩ := ReadsAll.exists (structItem_good hg.named pre)
    (if d.fields.any (·.flatParsable) then forkInputs l else l)
  obtain ⟨trans, _, _, h3⟩ := namedFlat_msgs d ha ht hg allowed mode pre validate h
  obtain ⟨h4, h5⟩ := h3 _ rfl
  intro hp
  by_cases hn : itemMsgs (!d.allowUnknown && validate) allowed [] (rs.map (·.1)) ++
          stopMsgs fatal ++
          eachField d.fields (flatFailMsgs d.fields pre (mode.toFullSpan l) allowed l) ++
          eachField d.fields (missingMsgs d pre (mode.toFullSpan l) (rs.map (·.1))) ++
          trans.flatten = []
  · obtain ⟨vs, hv⟩ := h5 hn
    rw [hp] at hv
    cases hv
  · obtain ⟨e, he, _⟩ := h4 hn
    rw [hp] at he
    cases he

/-! ## C31 -/

/-- C31: on well-formed input a structure is parsed exactly if no field is given twice, every given value
parses, every other key is allowed (or keys are not checked), and every field has a value: from its
item, its own parser (flat fields), the container, its default, its fallback for missing items or the
struct default, with its transforms applied.  The result then has these values. -/
theorem c31_struct (d : Fields V) (ha : Accepted d) (ht : d.transparent = false)
    (hg : FieldsGood d.fields) (allowed : List Str) (mode : Mode) (pre : Str) (validate : Bool)
    {l bs} (h : ItemsAll (StructSeg d.fields pre) l bs) (vs : List V) :
    (namedFlat d allowed mode pre validate l).1 = .ok vs ↔
      ItemsOk (!d.allowUnknown && validate) allowed bs ∧
        vs.length = d.fields.length ∧ ∀ i f, d.fields[i]? = some f → ∃ v, vs[i]? = some v ∧
          Holds d allowed pre (mode.toFullSpan l) l bs f i v := by
  obtain ⟨rs, l1, h1, rfl⟩ := structItems (d.fields.any (·.flatParsable)) h
  rw [namedFlat_ok d ha ht hg allowed mode pre validate h1 vs]
  simp

/-! ## C35 -/

/-- C35: on well-formed input, all messages together: those about the items, in order; then those of the
flat fields, of the missing fields and of the transforms, each in declaration order.  If there are none
the structure is parsed. -/
theorem c35_messages (d : Fields V) (ha : Accepted d) (ht : d.transparent = false)
    (hg : FieldsGood d.fields) (allowed : List Str) (mode : Mode) (pre : Str) (validate : Bool)
    {l bs} (h : ItemsAll (StructSeg d.fields pre) l bs) :
    ∃ trans : List (List Msg), trans.length = d.fields.length ∧
      (∀ i f, d.fields[i]? = some f → ∃ m, trans[i]? = some m ∧
        TransformMsgs d allowed pre (mode.toFullSpan l) l bs f i m) ∧
      ∀ msgs, msgs = itemMsgs (!d.allowUnknown && validate) allowed [] bs ++
          eachField d.fields (flatFailMsgs d.fields pre (mode.toFullSpan l) allowed l) ++
          eachField d.fields (missingMsgs d pre (mode.toFullSpan l) bs) ++ trans.flatten →
        (msgs ≠ [] → FailsWith (namedFlat d allowed mode pre validate l).1 msgs) ∧
        (msgs = [] → ∃ vs, (namedFlat d allowed mode pre validate l).1 = .ok vs) := by
  obtain ⟨rs, l1, h1, rfl⟩ := structItems (d.fields.any (·.flatParsable)) h
  have := namedFlat_msgs d ha ht hg allowed mode pre validate h1
  simpa [stopMsgs] using this

omit [Env] in
theorem eachField_sublist {fields : List (Field V)} {g : Field V → Nat → List Msg} {i f}
    (h : fields[i]? = some f) : (g f i).Sublist (eachField fields g) :=
  List.sublist_flatten_of_mem (List.mem_map.2 ⟨(f, i), List.mem_of_getElem? (i := i)
    (by simp [List.getElem?_zipIdx, h]), rfl⟩)

theorem itemMsgs_value {check : Bool} {allowed : List Str} {bs : List (SItem V)} {i name sp e}
    (h : .field i name sp (.error e) ∈ bs) (seen : List Nat) :
    e.toList.Sublist (itemMsgs check allowed seen bs) := by
  induction bs generalizing seen with
  | nil => cases h
  | cons b bs ih =>
    rcases List.mem_cons.1 h with rfl | hm
    · simp only [itemMsgs, List.append_assoc]
      exact (List.sublist_append_left _ _).trans (List.sublist_append_right _ _)
    · cases b with
      | other k s =>
        exact (ih hm seen).trans (List.sublist_append_right _ _)
      | field j n s x =>
        exact (ih hm _).trans (List.sublist_append_right _ _)

theorem itemMsgs_unknown {check : Bool} {allowed : List Str} {bs : List (SItem V)} {key sp}
    (h : .other key sp ∈ bs) (seen : List Nat) :
    (unknownMsgs check allowed key sp).Sublist (itemMsgs check allowed seen bs) := by
  induction bs generalizing seen with
  | nil => cases h
  | cons b bs ih =>
    rcases List.mem_cons.1 h with rfl | hm
    · exact List.sublist_append_left _ _
    · cases b with
      | other k s => exact (ih hm seen).trans (List.sublist_append_right _ _)
      | field j n s x => exact (ih hm _).trans (List.sublist_append_right _ _)

/-- One duplicate message for each item of field `i` after its first. -/
def repeatMsgs (i : Nat) : Bool → List (SItem V) → List Msg
  | _, [] => []
  | seen, .field j name sp _ :: bs =>
    if j = i then (if seen then [⟨sp, .duplicateAttr name⟩] else []) ++ repeatMsgs i true bs
    else repeatMsgs i seen bs
  | seen, .other _ _ :: bs => repeatMsgs i seen bs

theorem itemMsgs_repeat (check : Bool) (allowed : List Str) (bs : List (SItem V)) (i : Nat)
    (seen : List Nat) :
    (repeatMsgs i (decide (i ∈ seen)) bs).Sublist (itemMsgs check allowed seen bs) := by
  induction bs generalizing seen with
  | nil => exact .slnil
  | cons b bs ih =>
    cases b with
    | other k s => exact (ih seen).trans (List.sublist_append_right _ _)
    | field j n s x =>
      simp only [repeatMsgs, itemMsgs, List.append_assoc]
      have := ih (j :: seen)
      split
      · rename_i hj
        subst hj
        have e1 : decide (j ∈ j :: seen) = true := by simp
        rw [e1] at this
        by_cases hm : j ∈ seen
        · simp only [hm, decide_true, if_true]
          exact (List.Sublist.refl _).append (this.trans (List.sublist_append_right _ _))
        · simp only [hm, decide_false, if_false, Bool.false_eq_true, List.nil_append]
          exact this.trans (List.sublist_append_right _ _)
      · rename_i hj
        have e1 : decide (i ∈ j :: seen) = decide (i ∈ seen) := by
          have : i ≠ j := fun h => hj h.symm
          simp [this]
        rw [e1] at this
        exact (this.trans (List.sublist_append_right _ _)).trans (List.sublist_append_right _ _)

/-- All the messages as a list of which every kind is a part. -/
theorem struct_fails (d : Fields V) (ha : Accepted d) (ht : d.transparent = false)
    (hg : FieldsGood d.fields) (allowed : List Str) (mode : Mode) (pre : Str) (validate : Bool)
    {l bs} (h : ItemsAll (StructSeg d.fields pre) l bs) {ms : List Msg} (hn : ms ≠ [])
    (hs : ms.Sublist (itemMsgs (!d.allowUnknown && validate) allowed [] bs) ∨
      ms.Sublist (eachField d.fields (flatFailMsgs d.fields pre (mode.toFullSpan l) allowed l)) ∨
      ms.Sublist (eachField d.fields (missingMsgs d pre (mode.toFullSpan l) bs))) :
    ∃ e, (namedFlat d allowed mode pre validate l).1 = .err e ∧ ms.Sublist e.toList := by
  obtain ⟨trans, _, _, h3⟩ := c35_messages d ha ht hg allowed mode pre validate h
  have key : ∀ all : List Msg, ms.Sublist all → all ≠ [] := by
    rintro all hs rfl
    exact hn (List.sublist_nil.1 hs)
  obtain ⟨h4, _⟩ := h3 _ rfl
  have hsub : ms.Sublist (itemMsgs (!d.allowUnknown && validate) allowed [] bs ++
          eachField d.fields (flatFailMsgs d.fields pre (mode.toFullSpan l) allowed l) ++
          eachField d.fields (missingMsgs d pre (mode.toFullSpan l) bs) ++ trans.flatten) := by
    rcases hs with hs | hs | hs
    · rw [List.append_assoc, List.append_assoc]
      exact hs.trans (List.sublist_append_left _ _)
    · rw [List.append_assoc, List.append_assoc]
      exact (hs.trans (List.sublist_append_left _ _)).trans (List.sublist_append_right _ _)
    · rw [List.append_assoc]
      exact (hs.trans (List.sublist_append_left _ _)).trans (List.sublist_append_right _ _)
  obtain ⟨e, he, hm⟩ := h4 (key _ hsub)
  exact ⟨e, he, hm ▸ hsub⟩

/-- C35: a failing value, a flat field that fails, and a field that is missing are each reported with all
their messages, whatever else is wrong. -/
theorem c35_nothing_hidden (d : Fields V) (ha : Accepted d) (ht : d.transparent = false)
    (hg : FieldsGood d.fields) (allowed : List Str) (mode : Mode) (pre : Str) (validate : Bool)
    {l bs} (h : ItemsAll (StructSeg d.fields pre) l bs) (e : SynErr)
    (hw : (∃ i name sp, .field i name sp (.error e) ∈ bs) ∨
      (∃ i f, d.fields[i]? = some f ∧ f.flatParsable = true ∧
        flatOut d.fields pre (mode.toFullSpan l) allowed l f i = .err e) ∨
      (∃ i f, d.fields[i]? = some f ∧ f.Plain ∧ given i bs = none ∧ f.default = none ∧
        d.target = none ∧ f.item.missing (missingName d pre f) (mode.toFullSpan l) = .err e)) :
    ∃ e', (namedFlat d allowed mode pre validate l).1 = .err e' ∧ e.toList.Sublist e'.toList := by
  refine struct_fails d ha ht hg allowed mode pre validate h (by simp [SynErr.toList]) ?_
  rcases hw with ⟨i, name, sp, hm⟩ | ⟨i, f, hf, hp, he⟩ | ⟨i, f, hf, hp, hn, hd, htg, he⟩
  · exact .inl (itemMsgs_value hm [])
  · refine .inr (.inl ?_)
    have := eachField_sublist (g := flatFailMsgs d.fields pre (mode.toFullSpan l) allowed l) hf
    simpa [flatFailMsgs, hp, he] using this
  · refine .inr (.inr ?_)
    have := eachField_sublist (g := missingMsgs d pre (mode.toFullSpan l) bs) hf
    simpa [missingMsgs, hp.1, hp.2, hn, hd, htg, he] using this

/-! ## C33 -/

omit [Env] in
theorem repeatMsgs_length (i : Nat) (bs : List (SItem V)) (seen : Bool) :
    (repeatMsgs i seen bs).length = (owners bs).count i - (if seen then 0 else 1) := by
  induction bs generalizing seen with
  | nil => cases seen <;> rfl
  | cons b bs ih =>
    cases b with
    | other k s => exact ih seen
    | field j n s x =>
      simp only [repeatMsgs, owners, List.count_cons]
      by_cases hj : j = i
      · simp only [hj, if_true, List.length_append, ih, beq_self_eq_true]
        cases seen <;> simp <;> omega
      · simp [hj, ih]

/-- C33: if a field is given more than once, by whatever of its names, parsing fails and there is one
duplicate message per item after the first. -/
theorem c33_duplicates (d : Fields V) (ha : Accepted d) (ht : d.transparent = false)
    (hg : FieldsGood d.fields) (allowed : List Str) (mode : Mode) (pre : Str) (validate : Bool)
    {l bs} (h : ItemsAll (StructSeg d.fields pre) l bs) (i : Nat) (hi : 2 ≤ (owners bs).count i) :
    (repeatMsgs i false bs).length = (owners bs).count i - 1 ∧
    ∃ e, (namedFlat d allowed mode pre validate l).1 = .err e ∧
      (repeatMsgs i false bs).Sublist e.toList := by
  have hl := repeatMsgs_length i bs false
  refine ⟨by simpa using hl, struct_fails d ha ht hg allowed mode pre validate h ?_ (.inl ?_)⟩
  · intro hn
    rw [hn] at hl
    simp at hl
    omega
  · simpa using itemMsgs_repeat (!d.allowUnknown && validate) allowed bs i []

/-! ## C34 -/

/-- C34: with keys checked, an item whose key no field takes and which is not an allowed name is
reported, with the closest allowed name if one is similar. -/
theorem c34_unknown_reported (d : Fields V) (ha : Accepted d) (ht : d.transparent = false)
    (hg : FieldsGood d.fields) (allowed : List Str) (mode : Mode) (pre : Str)
    (hu : d.allowUnknown = false) {l bs} (h : ItemsAll (StructSeg d.fields pre) l bs) {key sp}
    (hm : .other key sp ∈ bs) (hk : key ∉ allowed) :
    ∃ e c, (namedFlat d allowed mode pre true l).1 = .err e ∧ ⟨sp, .unknownField key c⟩ ∈ e.toList ∧
      (c = none ↔ ∀ g ∈ allowed, Env.sim key g ≤ Env.simMin) ∧
      (∀ f, c = some f → IsClosest key allowed f) := by
  obtain ⟨errors', c, h1, h2, h3, h4⟩ := (c16_unknown key sp allowed Errors.new).2 hk
  have hc : c = (closestLoop key none allowed).map (·.2) := by
    simp only [checkUnknownAttribute, List.contains_iff_mem, hk, if_false, Prod.mk.injEq, and_true]
      at h1
    rw [← h1] at h2
    simpa [unknownError, Errors.pushSyn, Errors.toList, Errors.new, SynErr.new, SynErr.toList] using h2.symm
  obtain ⟨e, he, hs⟩ := struct_fails d ha ht hg allowed mode pre true h
    (ms := unknownMsgs (!d.allowUnknown && true) allowed key sp)
    (by simp [unknownMsgs, hu, hk, SynErr.toList]) (.inl (itemMsgs_unknown hm []))
  refine ⟨e, c, he, hs.subset ?_, h3, h4⟩
  simp [unknownMsgs, hu, hk, unknownError, SynErr.new, SynErr.toList, hc]

omit [Env] in
/-- The items with an owner. -/
def ownedItems (bs : List (SItem V)) : List (SItem V) :=
  bs.filter fun b => match b with | .field .. => true | .other .. => false

omit [Env] in
theorem given_owned (i : Nat) (bs : List (SItem V)) : given i (ownedItems bs) = given i bs := by
  induction bs with
  | nil => rfl
  | cons b bs ih =>
    cases b with
    | other k s => simpa [ownedItems, given] using ih
    | field j n s x =>
      simp only [ownedItems] at ih
      simp [ownedItems, given, ih]

theorem itemMsgs_owned (allowed : List Str) (bs : List (SItem V)) (seen : List Nat) :
    itemMsgs false allowed seen (ownedItems bs) = itemMsgs false allowed seen bs := by
  induction bs generalizing seen with
  | nil => rfl
  | cons b bs ih =>
    cases b with
    | other k s => simpa [ownedItems, itemMsgs, unknownMsgs] using ih seen
    | field j n s x =>
      have := ih (j :: seen)
      simp only [ownedItems] at this
      simp [ownedItems, itemMsgs, this]

omit [Env] in
theorem Errors.ext_toList {a b : Errors} (h : a.toList = b.toList) : a = b := by
  rcases a with ⟨_ | ⟨h1, t1⟩⟩ <;> rcases b with ⟨_ | ⟨h2, t2⟩⟩ <;>
    simp_all [Errors.toList, SynErr.toList]

/-- The outcome of a structure without flat fields depends only on the items. -/
theorem struct_congr (d : Fields V) (hg : FieldsGood d.fields)
    (hflat : ∀ f ∈ d.fields, f.flatParsable = false) (allowed : List Str) (mode : Mode) (pre : Str)
    (validate : Bool) {l l' bs bs'} (h : ItemsAll (StructSeg d.fields pre) l bs)
    (h' : ItemsAll (StructSeg d.fields pre) l' bs') (hspan : mode.toFullSpan l = mode.toFullSpan l')
    (hgiven : ∀ i, given i bs = given i bs')
    (hmsgs : itemMsgs (!d.allowUnknown && validate) allowed [] bs =
      itemMsgs (!d.allowUnknown && validate) allowed [] bs') :
    (namedFlat d allowed mode pre validate l).1 = (namedFlat d allowed mode pre validate l').1 := by
  obtain ⟨rs, l1, h1, rfl⟩ := structItems (d.fields.any (·.flatParsable)) h
  obtain ⟨rs', l1', h1', rfl⟩ := structItems (d.fields.any (·.flatParsable)) h'
  obtain ⟨errs, l2, e1, e2, _⟩ := namedFlat_reads d hg allowed mode pre validate h1
  obtain ⟨errs', l2', e1', e2', _⟩ := namedFlat_reads d hg allowed mode pre validate h1'
  have hany : d.fields.any (·.flatParsable) = false := by
    rw [List.any_eq_false]
    intro f hf
    simp [hflat f hf]
  have hitem : itemSlots d.fields.length (rs.map (·.1)) = itemSlots d.fields.length (rs'.map (·.1)) := by
    simp only [itemSlots, hgiven]
  have hfl : ∀ sp, flatSlots d allowed pre sp l (rs.map (·.1)) =
      flatSlots d allowed pre sp l' (rs'.map (·.1)) := by
    intro sp
    rw [flatSlots, flatSlots, flatOuts_none hany, flatOuts_none hany, hitem]
  have hfm : ∀ sp, flatMsgs d allowed pre sp l = flatMsgs d allowed pre sp l' := by
    intro sp
    rw [flatMsgs, flatMsgs, flatOuts_none hany, flatOuts_none hany]
  rw [e1, e1']
  simp only
  rw [hspan] at e2 ⊢
  rw [hfl] at e2 ⊢
  rw [hfm, hmsgs, ← e2'] at e2
  rw [Errors.ext_toList e2]

/-- C34: with unknown keys allowed, or keys not checked, the items without owner have no influence. -/
theorem c34_unknown_ignored (d : Fields V) (hg : FieldsGood d.fields)
    (hflat : ∀ f ∈ d.fields, f.flatParsable = false) (allowed : List Str) (mode : Mode) (pre : Str)
    (validate : Bool) (hu : d.allowUnknown = true ∨ validate = false) {l l' bs bs'}
    (h : ItemsAll (StructSeg d.fields pre) l bs) (h' : ItemsAll (StructSeg d.fields pre) l' bs')
    (hsame : ownedItems bs = ownedItems bs') (hspan : mode.toFullSpan l = mode.toFullSpan l') :
    (namedFlat d allowed mode pre validate l).1 = (namedFlat d allowed mode pre validate l').1 := by
  refine struct_congr d hg hflat allowed mode pre validate h h' hspan ?_ ?_
  · intro i
    rw [← given_owned, hsame, given_owned]
  · have hc : (!d.allowUnknown && validate) = false := by
      rcases hu with hu | hu <;> simp [hu]
    rw [hc, ← itemMsgs_owned, hsame, itemMsgs_owned]

/-! ## C36 -/

/-- A field of a derived structure without attributes. -/
def plainField {V : Type} (name : Str) (item : Dict V) : Field V where
  ident := some name
  idents := [name]
  default := none
  flatten := none
  append := none
  rest := none
  container := none
  skip := none
  transforms := []
  item := item
  flatNamed := ⟨false, [], fun _ _ _ => M.panic⟩
  flatUnnamed := ⟨none, fun _ _ => M.panic⟩
  appendP := fun _ => M.panic
  restP := fun _ => M.panic

/-- C36, for fields that are not renamed (their Rust name is their primary name): a field that is not
given, has no default and whose type has no fallback is reported as missing, under its primary name
joined to the prefix. -/
theorem c36_missing_partial (d : Fields V) (ha : Accepted d) (ht : d.transparent = false)
    (hg : FieldsGood d.fields) (allowed : List Str) (mode : Mode) (pre : Str) (validate : Bool)
    {l bs} (h : ItemsAll (StructSeg d.fields pre) l bs) {i : Nat} {f : Field V} (hf : d.fields[i]? = some f)
    (hp : f.Plain) (hn : given i bs = none) (hd : f.default = none) (htg : d.target = none)
    (hm : ∀ n sp, f.item.missing n sp = .err (missingFieldError n sp)) {name : Str}
    (hname : f.idents.head? = some name) (hrename : f.ident = f.idents.head?)
    (hattr : d.attrName = none) :
    ∃ e, (namedFlat d allowed mode pre validate l).1 = .err e ∧
      ⟨mode.toFullSpan l, .missingField ("`".toList ++ joinPath pre name ++ "`".toList)⟩ ∈ e.toList := by
  obtain ⟨e', h1, h2⟩ := c35_nothing_hidden d ha ht hg allowed mode pre validate h
    (missingFieldError (missingName d pre f) (mode.toFullSpan l))
    (.inr (.inr ⟨i, f, hf, hp, hn, hd, htg, hm _ _⟩))
  refine ⟨e', h1, h2.subset ?_⟩
  simp [missingFieldError, SynErr.new, SynErr.toList, missingName, hrename, hname, hattr]

/-- The structure `struct S { #[deluxe(rename = b)] a: bool }`. -/
def renamed : Fields Bool where
  fields := [{ plainField "a".toList boolDict with idents := ["b".toList] }]
  target := none
  transparent := false
  allowUnknown := false
  obj := none
  attrName := none

/-- C36 does not hold for renamed fields: on empty input `renamed` reports that `a` is missing, which it
does not accept as a key. -/
theorem c36_renamed_violated :
    namedFlat renamed (Field.fieldNames renamed.fields) (.named 1) [] true [] =
        (.err (missingFieldError "`a`".toList 1), []) ∧
      "a".toList ∉ Field.fieldNames renamed.fields ∧
      renamed.fields.head?.bind (·.idents.head?) = some "b".toList ∧
      ∃ e, (namedFlat renamed (Field.fieldNames renamed.fields) (.named 1) [] true
          [⟨[.ident "a".toList 2], 3, none⟩]).1 = .err e ∧
        ∃ c, ⟨2, .unknownField "a".toList c⟩ ∈ e.toList := by
  refine ⟨rfl, by simp [Field.fieldNames, renamed, Field.names, plainField], rfl, _, rfl,
    (closestLoop "a".toList none (Field.fieldNames renamed.fields)).map (·.2), ?_⟩
  exact List.mem_cons_self

/-! ## C37 -/

omit [Env] in
/-- C37: no key belongs to a skipped or container field. -/
theorem c37_not_owned {fields : List (Field V)} {pre key : Str} {f : Field V} {i : Nat}
    (hp : f.isParsable = false) : ¬ Owns fields pre key f i := by
  intro h
  have := h.mem.2.1.2
  rw [hp] at this
  cases this

/-- C37: a key that is the name of no parsed field is reported as unknown. -/
theorem c37_unknown (d : Fields V) (ha : Accepted d) (ht : d.transparent = false)
    (hg : FieldsGood d.fields) (mode : Mode) (pre : Str) (hu : d.allowUnknown = false) {l bs}
    (h : ItemsAll (StructSeg d.fields pre) l bs) {key sp} (hm : .other key sp ∈ bs)
    (hk : ∀ f ∈ d.fields, f.isParsable = true → key ∉ f.names) :
    ∃ e c, (namedFlat d (Field.fieldNames d.fields) mode pre true l).1 = .err e ∧
      ⟨sp, .unknownField key c⟩ ∈ e.toList := by
  have : key ∉ Field.fieldNames d.fields := by
    simp only [Field.fieldNames, List.mem_flatMap, List.mem_filter, not_exists, not_and]
    intro f hf
    exact hk f hf.1 hf.2
  obtain ⟨e, c, h1, h2, _⟩ := c34_unknown_reported d ha ht hg _ mode pre hu h hm this
  exact ⟨e, c, h1, h2⟩

/-- C37: whatever the tokens, a skipped or container field gets the container value, its default or its
part of the struct default, the first two with the transforms applied. -/
theorem c37_value (d : Fields V) (ha : Accepted d) (ht : d.transparent = false)
    (hg : FieldsGood d.fields) (allowed : List Str) (mode : Mode) (pre : Str) (validate : Bool)
    (l : List Stream) {i : Nat} {f : Field V} (hf : d.fields[i]? = some f) (hp : f.isParsable = false) {vs}
    (h : (namedFlat d allowed mode pre validate l).1 = .ok vs) :
    (∃ b v, (f.isContainer = true ∧ d.obj = some b ∨
        ¬ (f.isContainer = true ∧ d.obj.isSome = true) ∧ f.default = some b) ∧
      runTransforms f.transforms b = .ok v ∧ vs[i]? = some v) ∨
    (¬ (f.isContainer = true ∧ d.obj.isSome = true) ∧ f.default = none ∧
      ∃ t, d.target = some t ∧ vs[i]? = t[i]?) := by
  obtain ⟨rs, fatal, l1, hr⟩ := ReadsAll.exists (structItem_good hg.named pre)
    (if d.fields.any (·.flatParsable) then forkInputs l else l)
  obtain ⟨_, _, _, h1⟩ := (namedFlat_ok d ha ht hg allowed mode pre validate hr vs).1 h
  obtain ⟨v, hv, hh⟩ := h1 i f hf
  have np : ∀ {o}, Base d allowed pre (mode.toFullSpan l) l (rs.map (·.1)) f i o →
      (∃ b, o = some b ∧ (f.isContainer = true ∧ d.obj = some b ∨
        ¬ (f.isContainer = true ∧ d.obj.isSome = true) ∧ f.default = some b)) ∨
      (o = none ∧ ¬ (f.isContainer = true ∧ d.obj.isSome = true) ∧ f.default = none) := by
    intro o hb
    have absurd1 : ∀ {p : Prop}, f.Plain → p := fun hpl => by
      have := hpl.2
      rw [hp] at this
      cases this
    cases hb with
    | item hpl _ => exact absurd1 hpl
    | flat hfl _ => exact absurd ((flatParsable_iff f).1 hfl).2 (by simp [hp])
    | container hc ho => exact .inl ⟨_, rfl, .inl ⟨hc, ho⟩⟩
    | default hn hd =>
      rcases hn with ⟨hpl, _⟩ | ⟨_, hn⟩
      · exact absurd1 hpl
      · exact .inl ⟨_, rfl, .inr ⟨hn, hd⟩⟩
    | missing hpl => exact absurd1 hpl
    | target hn hd _ =>
      rcases hn with ⟨hpl, _⟩ | ⟨_, hn⟩
      · exact absurd1 hpl
      · exact .inr ⟨rfl, hn, hd⟩
  rcases hh with ⟨b, hb, hrun⟩ | ⟨hb, t, htg, htv⟩
  · rcases np hb with ⟨b', hb', hc⟩ | ⟨hb', _⟩
    · cases hb'
      exact .inl ⟨b, v, hc, hrun, hv⟩
    · cases hb'
  · rcases np hb with ⟨b', hb', _⟩ | ⟨_, hc, hd⟩
    · cases hb'
    · exact .inr ⟨hc, hd, t, htg, by rw [hv, htv]⟩

/-! ## C38 -/

/-- C38: the transforms run from left to right on the value that was given, or the default; the first
failing one stops them.  A field left to the struct default is not transformed. -/
theorem c38_transforms (d : Fields V) (ha : Accepted d) (ht : d.transparent = false)
    (hg : FieldsGood d.fields) (allowed : List Str) (mode : Mode) (pre : Str) (validate : Bool)
    {l bs} (h : ItemsAll (StructSeg d.fields pre) l bs) {i : Nat} {f : Field V} (hf : d.fields[i]? = some f)
    (hp : f.Plain) {b} (hb : given i bs = some (.ok b) ∨ given i bs = none ∧ f.default = some b) :
    (∀ vs, (namedFlat d allowed mode pre validate l).1 = .ok vs →
      ∃ v, vs[i]? = some v ∧ runTransforms f.transforms b = .ok v) ∧
    (∀ e, runTransforms f.transforms b = .error e → ∃ e',
      (namedFlat d allowed mode pre validate l).1 = .err e' ∧ e.toList.Sublist e'.toList) := by
  have hbase : Base d allowed pre (mode.toFullSpan l) l bs f i (some b) := by
    rcases hb with hb | ⟨hb, hd⟩
    · exact .item hp hb
    · exact .default (.inl ⟨hp, hb⟩) hd
  obtain ⟨rs, l1, h1, hrs⟩ := structItems (d.fields.any (·.flatParsable)) h
  have ho := h1.owned
  rw [hrs] at ho
  have huniq : ∀ o, Base d allowed pre (mode.toFullSpan l) l bs f i o → o = some b := by
    intro o ho'
    have e1 := (base_slot d ht (ho.plain hf) hbase).2.2
    have e2 := (base_slot d ht (ho.plain hf) ho').2.2
    rw [e1] at e2
    cases o <;> simp [FieldStatus.ofOption] at e2 ⊢
    exact e2.symm
  constructor
  · intro vs hvs
    obtain ⟨_, _, hh⟩ := (c31_struct d ha ht hg allowed mode pre validate h vs).1 hvs
    obtain ⟨v, hv, hh⟩ := hh i f hf
    rcases hh with ⟨b', hb', hr⟩ | ⟨hb', _⟩
    · cases huniq _ hb'
      exact ⟨v, hv, hr⟩
    · cases huniq _ hb'
  · intro e he
    obtain ⟨trans, hl, h2, h3⟩ := c35_messages d ha ht hg allowed mode pre validate h
    obtain ⟨m, hm1, hm2⟩ := h2 i f hf
    have hme : m = e.toList := by
      rcases hm2 with ⟨b', e', hb', hr, hm2⟩ | ⟨_, hn⟩
      · cases huniq _ hb'
        rw [he] at hr
        cases hr
        exact hm2
      · exact absurd he (hn b e hbase)
    have hsub : e.toList.Sublist (itemMsgs (!d.allowUnknown && validate) allowed [] bs ++
          eachField d.fields (flatFailMsgs d.fields pre (mode.toFullSpan l) allowed l) ++
          eachField d.fields (missingMsgs d pre (mode.toFullSpan l) bs) ++ trans.flatten) :=
      (hme ▸ List.sublist_flatten_of_mem (List.mem_of_getElem? hm1)).trans
        (List.sublist_append_right _ _)
    obtain ⟨e', he', hme'⟩ := (h3 _ rfl).1 (fun hn => by
      rw [hn] at hsub
      simp [SynErr.toList] at hsub)
    exact ⟨e', he', hme' ▸ hsub⟩

/-! ## C42 -/

/-- C42: with a struct default there are no missing fields: if the items are fine and no transform or flat
field fails, the structure is parsed. -/
theorem c42_never_missing (d : Fields V) (ha : Accepted d) (ht : d.transparent = false)
    (hg : FieldsGood d.fields) (allowed : List Str) (mode : Mode) (pre : Str) (validate : Bool)
    {l bs} (h : ItemsAll (StructSeg d.fields pre) l bs) {t} (htg : d.target = some t)
    (hi : ItemsOk (!d.allowUnknown && validate) allowed bs)
    (hfl : ∀ f ∈ d.fields, f.flatParsable = false) (htr : ∀ f ∈ d.fields, f.transforms = []) :
    ∃ vs, (namedFlat d allowed mode pre validate l).1 = .ok vs := by
  obtain ⟨trans, hl, h2, h3⟩ := c35_messages d ha ht hg allowed mode pre validate h
  refine (h3 _ rfl).2 ?_
  have e1 : itemMsgs (!d.allowUnknown && validate) allowed [] bs = [] :=
    (itemMsgs_eq_nil _ _ _ _).2 ⟨hi, by simp⟩
  have e2 : eachField d.fields (flatFailMsgs d.fields pre (mode.toFullSpan l) allowed l) = [] := by
    rw [eachField, List.flatten_eq_nil_iff]
    intro m hm
    obtain ⟨⟨f, i⟩, hfi, rfl⟩ := List.mem_map.1 hm
    simp [flatFailMsgs, hfl f (List.fst_mem_of_mem_zipIdx hfi)]
  have e3 : eachField d.fields (missingMsgs d pre (mode.toFullSpan l) bs) = [] := by
    rw [eachField, List.flatten_eq_nil_iff]
    intro m hm
    obtain ⟨⟨f, i⟩, hfi, rfl⟩ := List.mem_map.1 hm
    simp [missingMsgs, htg]
  have e4 : trans.flatten = [] := by
    rw [List.flatten_eq_nil_iff]
    intro m hm
    obtain ⟨i, hi'⟩ := List.getElem?_of_mem hm
    have hlt := (List.getElem?_eq_some_iff.1 hi').1
    obtain ⟨m', hm1, hm2⟩ := h2 i _ (List.getElem?_eq_getElem (by omega))
    rw [hi'] at hm1
    cases hm1
    rcases hm2 with ⟨b, e, _, hr, _⟩ | ⟨hm2, _⟩
    · rw [htr _ (List.getElem_mem _)] at hr
      cases hr
    · exact hm2
  rw [e1, e2, e3, e4]
  rfl

/-- C42: an omitted field without a default of its own takes its value in the struct default. -/
theorem c42_omitted (d : Fields V) (ha : Accepted d) (ht : d.transparent = false)
    (hg : FieldsGood d.fields) (allowed : List Str) (mode : Mode) (pre : Str) (validate : Bool)
    {l bs} (h : ItemsAll (StructSeg d.fields pre) l bs) {t} (htg : d.target = some t) {i f}
    (hf : d.fields[i]? = some f) (hp : f.Plain) (hn : given i bs = none) (hd : f.default = none) {vs}
    (hvs : (namedFlat d allowed mode pre validate l).1 = .ok vs) : vs[i]? = t[i]? := by
  obtain ⟨_, _, hh⟩ := (c31_struct d ha ht hg allowed mode pre validate h vs).1 hvs
  obtain ⟨v, hv, hh⟩ := hh i f hf
  have hb : Base d allowed pre (mode.toFullSpan l) l bs f i none := .target (.inl ⟨hp, hn⟩) hd htg
  obtain ⟨rs, l1, h1, hrs⟩ := structItems (d.fields.any (·.flatParsable)) h
  have ho := h1.owned
  rw [hrs] at ho
  rcases hh with ⟨b', hb', hr⟩ | ⟨_, t', ht', hv'⟩
  · have e1 := (base_slot d ht (ho.plain hf) hb).2.2
    have e2 := (base_slot d ht (ho.plain hf) hb').2.2
    rw [e1] at e2
    simp [FieldStatus.ofOption] at e2
  · rw [htg] at ht'
    cases ht'
    rw [hv, hv']

/-! ## C32 -/

omit [Env] in
theorem owners_perm {bs bs' : List (SItem V)} (h : bs.Perm bs') : (owners bs).Perm (owners bs') := by
  induction h with
  | nil => exact .refl _
  | cons b _ ih => cases b <;> simp [owners, ih]
  | swap a b _ =>
    cases a <;> cases b <;> simp only [owners] <;> first | exact .refl _ | exact .swap _ _ _
  | trans _ _ ih1 ih2 => exact ih1.trans ih2

omit [Env] in
theorem given_iff {bs : List (SItem V)} (h : (owners bs).Nodup) (i : Nat) (x : Except SynErr V) :
    given i bs = some x ↔ ∃ name sp, .field i name sp x ∈ bs := by
  constructor
  · exact given_mem
  · induction bs with
    | nil => simp
    | cons b bs ih =>
      cases b with
      | other k s => simpa [given, owners] using ih h
      | field j n s y =>
        simp only [owners, List.nodup_cons] at h
        rintro ⟨name, sp, hm⟩
        rcases List.mem_cons.1 hm with heq | hm
        · cases heq
          simp [given]
        · have hj : j ≠ i := by
            rintro rfl
            exact h.1 (owners_mem hm)
          simp only [given, hj, if_false]
          exact ih h.2 ⟨name, sp, hm⟩
where
  owners_mem {bs : List (SItem V)} {i name sp x} (hm : .field i name sp x ∈ bs) : i ∈ owners bs := by
    induction bs with
    | nil => cases hm
    | cons b bs ih =>
      rcases List.mem_cons.1 hm with rfl | hm'
      · simp [owners]
      · cases b <;> simp [owners, ih hm']

omit [Env] in
theorem itemsOk_perm {check : Bool} {allowed : List Str} {bs bs' : List (SItem V)} (h : bs.Perm bs') :
    ItemsOk check allowed bs → ItemsOk check allowed bs' := fun hi =>
  ⟨(owners_perm h).nodup_iff.1 hi.once, fun i n s x hm => hi.values i n s x (h.mem_iff.2 hm),
    fun k s hm => hi.known k s (h.mem_iff.2 hm)⟩

omit [Env] in
theorem given_perm {check : Bool} {allowed : List Str} {bs bs' : List (SItem V)} (h : bs.Perm bs')
    (hi : ItemsOk check allowed bs) (i : Nat) : given i bs = given i bs' := by
  have hi' := itemsOk_perm h hi
  cases hg : given i bs' with
  | some x =>
    obtain ⟨n, s, hm⟩ := (given_iff hi'.once i x).1 hg
    exact (given_iff hi.once i x).2 ⟨n, s, h.mem_iff.2 hm⟩
  | none =>
    cases hg' : given i bs with
    | none => rfl
    | some x =>
      obtain ⟨n, s, hm⟩ := (given_iff hi.once i x).1 hg'
      rw [(given_iff hi'.once i x).2 ⟨n, s, h.mem_iff.1 hm⟩] at hg
      cases hg

omit [Env] in
theorem holds_congr {d : Fields V} {allowed : List Str} {pre : Str} {span : Span} {l l' : List Stream}
    {bs bs' : List (SItem V)} {f : Field V} {i : Nat} {v : V} (hg : given i bs = given i bs')
    (hfl : f.flatParsable = true → ∀ w, flatOut d.fields pre span allowed l f i = .ok w →
      flatOut d.fields pre span allowed l' f i = .ok w)
    (h : Holds d allowed pre span l bs f i v) : Holds d allowed pre span l' bs' f i v := by
  have hb : ∀ {o}, Base d allowed pre span l bs f i o → Base d allowed pre span l' bs' f i o := by
    intro o hb
    have hn : NotGiven d f (given i bs) → NotGiven d f (given i bs') := by
      rintro (⟨h1, h2⟩ | h)
      · exact .inl ⟨h1, hg ▸ h2⟩
      · exact .inr h
    cases hb with
    | item h1 h2 => exact .item h1 (hg ▸ h2)
    | flat h1 h2 => exact .flat h1 (hfl h1 _ h2)
    | container h1 h2 => exact .container h1 h2
    | default h1 h2 => exact .default (hn h1) h2
    | missing h1 h2 h3 h4 h5 => exact .missing h1 (hg ▸ h2) h3 h4 h5
    | target h1 h2 h3 => exact .target (hn h1) h2 h3
  rcases h with ⟨b, h1, h2⟩ | ⟨h1, h2⟩
  · exact .inl ⟨b, hb h1, h2⟩
  · exact .inr ⟨hb h1, h2⟩

/-- C32: the order of the items does not matter, neither for success nor for the value.  The flat fields
are parsed by their own types, for which the same is required. -/
theorem c32_order (d : Fields V) (ha : Accepted d) (ht : d.transparent = false)
    (hg : FieldsGood d.fields) (allowed : List Str) (mode : Mode) (pre : Str) (validate : Bool)
    {l l' bs bs'} (h : ItemsAll (StructSeg d.fields pre) l bs)
    (h' : ItemsAll (StructSeg d.fields pre) l' bs') (hp : bs.Perm bs')
    (hspan : mode.toFullSpan l = mode.toFullSpan l')
    (hfl : ∀ i f, d.fields[i]? = some f → f.flatParsable = true → ∀ v,
      flatOut d.fields pre (mode.toFullSpan l) allowed l f i = .ok v ↔
        flatOut d.fields pre (mode.toFullSpan l) allowed l' f i = .ok v) (vs : List V) :
    (namedFlat d allowed mode pre validate l).1 = .ok vs ↔
      (namedFlat d allowed mode pre validate l').1 = .ok vs := by
  rw [c31_struct d ha ht hg allowed mode pre validate h,
    c31_struct d ha ht hg allowed mode pre validate h', ← hspan]
  constructor
  · rintro ⟨h1, h2, h3⟩
    refine ⟨itemsOk_perm hp h1, h2, fun i f hf => ?_⟩
    obtain ⟨v, hv, hh⟩ := h3 i f hf
    exact ⟨v, hv, holds_congr (given_perm hp h1 i) (fun hfp w hw => (hfl i f hf hfp w).1 hw) hh⟩
  · rintro ⟨h1, h2, h3⟩
    refine ⟨itemsOk_perm hp.symm h1, h2, fun i f hf => ?_⟩
    obtain ⟨v, hv, hh⟩ := h3 i f hf
    exact ⟨v, hv, holds_congr (given_perm hp.symm h1 i) (fun hfp w hw => (hfl i f hf hfp w).2 hw) hh⟩

/-! ## Non-trivial cases -/

/-- `struct S { a: bool, #[deluxe(alias = bb, default)] b: bool, #[deluxe(skip, default = true)] s: bool,
#[deluxe(map = |x| !x)] c: bool }` -/
def demo : Fields Bool where
  fields :=
    [plainField "a".toList boolDict,
      { plainField "b".toList boolDict with idents := ["b".toList, "bb".toList], default := some false },
      { plainField "s".toList boolDict with skip := some true, default := some true },
      { plainField "c".toList boolDict with transforms := [.map (!·)] }]
  target := none
  transparent := false
  allowUnknown := false
  obj := none
  attrName := none

omit [Env] in
theorem demo_accepted : Accepted demo := by
  refine ⟨fun f hf hp => ?_, by simp [demo]⟩
  simp only [demo, List.mem_cons, List.not_mem_nil, or_false] at hf
  rcases hf with rfl | rfl | rfl | rfl <;> simp [plainField, Field.isParsable, Field.isContainer] at hp ⊢

omit [Env] in
theorem demo_good : FieldsGood demo.fields := by
  have hb := boolDict_good
  refine ⟨fun f hf _ n sp => ?_, fun f hf n sp => ?_, fun f hf hp => ?_⟩ <;>
    simp only [demo, List.mem_cons, List.not_mem_nil, or_false] at hf
  · rcases hf with rfl | rfl | rfl | rfl <;> exact hb.named n sp
  · rcases hf with rfl | rfl | rfl | rfl <;> exact hb.missing n sp
  · rcases hf with rfl | rfl | rfl | rfl <;> simp [plainField, Field.flatParsable, Field.isFlat,
      Field.isFlatten] at hp

/-- The tokens `a, bb = true, c = false`. -/
def demoToks : List Tok :=
  [.ident "a".toList 1, .punct ',' false 2, .ident "bb".toList 3, .punct '=' false 4,
    .ident "true".toList 5, .punct ',' false 6, .ident "c".toList 7, .punct '=' false 8,
    .ident "false".toList 9]

/-- C30, C31, C38: `demo` on these tokens. -/
example : (namedFlat demo (Field.fieldNames demo.fields) (.named 0) [] true
    [⟨demoToks, 10, none⟩]).1 = .ok [true, true, true, true] := rfl

/-- C33, C34, C35: `demo` on `x, b, bb` reports the unknown key, the duplicate and both missing fields. -/
example : ∃ e c, (namedFlat demo (Field.fieldNames demo.fields) (.named 0) [] true
    [⟨[.ident "x".toList 1, .punct ',' false 2, .ident "b".toList 3, .punct ',' false 4,
      .ident "bb".toList 5], 10, none⟩]).1 = .err e ∧
    e.toList = [⟨1, .unknownField "x".toList c⟩, ⟨5, .duplicateAttr "b".toList⟩,
      ⟨0, .missingField "`a`".toList⟩, ⟨0, .missingField "`c`".toList⟩] :=
  ⟨_, _, rfl, rfl⟩

omit [Env] in
theorem demo_owns {key : Str} {i : Nat} {f : Field Bool}
    (h : (stripPrefix [] key).bind (findArm demo.fields) = some (f, i)) :
    Owns demo.fields [] key f i := (owner_some _ _ _ _ _).1 h

/-- The items of these tokens. -/
theorem demo_items : ItemsAll (StructSeg demo.fields []) [⟨demoToks, 10, none⟩]
    [.field 0 "a".toList 1 (.ok true), .field 1 "b".toList 3 (.ok true),
      .field 3 "c".toList 7 (.ok false)] := by
  refine .cons (bs := [_, _, _]) (.cons (v := [.ident "a".toList 1]) ⟨_, _, rfl⟩ ?_
    (.cons (v := [.ident "bb".toList 3, .punct '=' false 4, .ident "true".toList 5]) ⟨_, _, rfl⟩ ?_
      (.last (by simp) ?_))) .nil
  · exact .field (segs := ["a".toList]) (vt := []) (.mk (pt := [.ident "a".toList 1]) (.plain (.one _ _))
      (by simp [StartsColon2])) (demo_owns rfl) (fun u => ⟨u, rfl⟩)
  · exact .field (segs := ["bb".toList]) (vt := [.punct '=' false 4, .ident "true".toList 5])
      (.mk (pt := [.ident "bb".toList 3]) (.plain (.one _ _)) (by simp [StartsColon2])) (demo_owns rfl)
      (fun u => ⟨u, rfl⟩)
  · exact .field (segs := ["c".toList]) (vt := [.punct '=' false 8, .ident "false".toList 9])
      (.mk (pt := [.ident "c".toList 7]) (.plain (.one _ _)) (by simp [StartsColon2])) (demo_owns rfl)
      (fun u => ⟨u, rfl⟩)

end

end Deluxe
