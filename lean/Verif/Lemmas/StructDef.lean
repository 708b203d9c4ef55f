import Verif.Lemmas.TupleStruct
import Verif.Props.Structs
import Verif.Props.AttrTokens
/-!
# Derived structures of every shape do not panic and only move forward
-/
namespace Deluxe

variable {V : Type}

theorem Reads.adv {β : Type} {item : M Stream β} (hi : Good item) {s rs fatal s'}
    (h : Reads item s rs fatal s') : Adv s' s := by
  have step : ∀ {s r s1}, item s = (r, s1) → Adv s1 s := by
    intro s r s1 h
    have := (hi s).2
    rw [h] at this
    exact this
  induction h with
  | done => exact .refl _
  | last _ h1 _ => exact step h1
  | @more s b s1 c rest rs fatal s2 _ h1 h2 _ _ ih =>
    exact (ih.trans (.toks_of s1 (by rw [h2]; exact List.suffix_cons _ _))).trans (step h1)
  | failItem _ h1 => exact step h1
  | failSep _ h1 => exact step h1

theorem ReadsAll.adv {β : Type} {item : M Stream β} (hi : Good item) {l rs fatal l'}
    (h : ReadsAll item l rs fatal l') : AdvL l' l := by
  induction h with
  | nil => exact .nil
  | cons h1 _ ih => exact .cons (h1.adv hi) ih
  | fail h1 => exact .cons (h1.adv hi) (.refl _)

section
variable [Env]

/-- A structure with named fields. -/
theorem namedFlat_good (d : Fields V) (ha : Accepted d) (ht : d.transparent = false)
    (hg : FieldsGood d.fields) (allowed : List Str) (mode : Mode) (pre : Str) (validate : Bool) :
    Good (namedFlat d allowed mode pre validate) := by
  intro l
  refine ⟨c30_named d ha ht hg allowed mode pre validate l, ?_⟩
  obtain ⟨rs, fatal, l1, h⟩ := ReadsAll.exists (structItem_good hg.named pre)
    (if d.fields.any (·.flatParsable) then forkInputs l else l)
  obtain ⟨errs, l', h1, _, h2, h3⟩ := namedFlat_reads d hg allowed mode pre validate h
  rw [h1]
  show AdvL l' l
  cases hf : d.fields.any (·.flatParsable) with
  | true => exact h3 hf
  | false =>
    rw [h2 hf]
    rw [hf] at h
    exact h.adv (structItem_good hg.named pre)

/-! ## Tuple structures, with or without flattened fields -/

/-- The types of the fields of a tuple structure parse without panic. -/
structure TupleGood (fields : List (Field V)) : Prop where
  noAppendRest : NoAppendRest fields
  item : ∀ f ∈ fields, f.Plain → Good (f.item.parse .unnamed)
  flat : ∀ f ∈ fields, f.flatParsable = true → ∀ i, Good (f.flatUnnamed.parse .unnamed i)
  missing : ∀ f ∈ fields, ∀ n sp, f.item.missing n sp ≠ .panic

omit [Env] in
theorem unnamedCall_good {fields : List (Field V)} (hg : TupleGood fields) {f : Field V} (hf : f ∈ fields)
    (hp : f.isParsable = true) (index : Nat) (s : Stream) (rest : List Stream) :
    (unnamedCall f index (s :: rest)).1 ≠ .panic ∧
      AdvL (unnamedCall f index (s :: rest)).2 (s :: rest) := by
  simp only [unnamedCall]
  split
  · rename_i hfl
    exact hg.flat f hf ((flatParsable_iff f).2 ⟨hfl, hp⟩) index _
  · rename_i hfl
    have := hg.item f hf ⟨by simpa using hfl, hp⟩ s
    exact ⟨this.1, .cons this.2 (.refl _)⟩

omit [Env] in
theorem skipHead_adv (l : List Stream) : AdvL (skipHead l) l := by
  cases l with
  | nil => exact .nil
  | cons s l => exact .cons (skipMetaItem_adv s) (.refl _)

/-- A failed slot is accompanied by a message. -/
def Reported (n : Nat) (sts : Slots V) (errs : Errors) : Prop :=
  sts.length = n ∧ ∀ (k : Nat), sts[k]? = some .parseError → errs.toList ≠ []

omit [Env] in
theorem unnamedStep_inv {d : Fields V} (hg : TupleGood d.fields) (c : Nat) (k : Acc (Slots V × Nat))
    (s : Stream) (rest : List Stream) (hc : c < d.fields.countP (·.isParsable))
    (hk : Reported d.fields.length k.val.1 k.errs) :
    TupleInv (β := Unit) (fun _ k => Reported d.fields.length k.val.1 k.errs)
      (d.fields.countP (·.isParsable)) (fun _ => c + 1) (s :: rest) (unnamedStep d c (k, s :: rest)) := by
  obtain ⟨f, j, hf⟩ := nthField_exists hc
  have ha := (nthArm_some hg.noAppendRest).2 hf
  obtain ⟨h1, h2⟩ := unnamedCall_good hg (List.mem_of_getElem? hf.1) hf.2.1 k.val.2 s rest
  simp only [unnamedStep, ha]
  cases hcall : unnamedCall f k.val.2 (s :: rest) with
  | mk r l' =>
    rw [hcall] at h1 h2
    cases r with
    | panic => exact absurd rfl h1
    | ok v =>
      refine ⟨by simp, h2, fun b hb => ⟨hc, by simpa using hk.1, ?_⟩, fun e he => by simp at he⟩
      intro i hi
      by_cases hij : j = i
      · subst hij
        simp only [List.getElem?_set_self'] at hi
        cases hx : k.val.1[j]? <;> simp [hx] at hi
      · rw [List.getElem?_set_ne hij] at hi
        exact hk.2 i hi
    | err e =>
      refine ⟨by simp, (skipHead_adv l').trans h2, fun b hb => ⟨hc, by simpa using hk.1, ?_⟩,
        fun e he => by simp at he⟩
      intro i _
      simp [SynErr.toList]

omit [Env] in
theorem emptyFlat_ne_panic {f : Field V} (h : ∀ i, Good (f.flatUnnamed.parse .unnamed i)) (sp : Span)
    (i : Nat) : emptyFlat sp f i ≠ .panic := by
  refine parseEmpty_ne_panic (fun s => ?_) _
  obtain ⟨h1, h2⟩ := h i [s]
  generalize f.flatUnnamed.parse .unnamed i [s] = x at h1 h2
  obtain ⟨r, l⟩ := x
  cases h2 with
  | @cons a b as bs ha _ =>
    cases r with
    | panic => exact absurd rfl h1
    | ok v => exact ⟨by simp, ha⟩
    | err e => exact ⟨by simp, ha⟩

/-- A slot that will hold a value in the end, or has been reported, or is filled from a default. -/
def SlotFine (d : Fields V) (f : Field V) (st : FieldStatus V) (errs : Errors) : Prop :=
  (∃ v, st = .some v) ∨ errs.toList ≠ [] ∨
    (st = .none ∧ (f.default.isSome = true ∨ d.target.isSome = true))

omit [Env] in
theorem SlotFine.mono {d : Fields V} {f : Field V} {st : FieldStatus V} {errs errs' : Errors}
    (h : SlotFine d f st errs) (he : errs.toList ≠ [] → errs'.toList ≠ []) : SlotFine d f st errs' := by
  rcases h with h | h | h
  · exact .inl h
  · exact .inr (.inl (he h))
  · exact .inr (.inr h)

theorem missingUnnamed_fine (d : Fields V) (ht : d.transparent = false) (mode : Mode) (l : List Stream)
    (fs : List (Field V)) :
    (∀ f ∈ fs, f.isParsable = false → f.default.isSome = true ∨ d.target.isSome = true ∨
      (f.isContainer = true ∧ d.obj.isSome = true)) →
    (∀ f ∈ fs, f.flatParsable = true → ∀ i, Good (f.flatUnnamed.parse .unnamed i)) →
    (∀ f ∈ fs, ∀ n sp, f.item.missing n sp ≠ .panic) →
    ∀ (sts : Slots V) (errs : Errors) (index cur extra : Nat), Reported fs.length sts errs →
      missingUnnamed d mode l fs sts errs index cur extra ≠ .panic ∧
      ∀ sts' errs', missingUnnamed d mode l fs sts errs index cur extra = .ok (sts', errs') →
        sts'.length = fs.length ∧ (errs.toList ≠ [] → errs'.toList ≠ []) ∧
        ∀ (i : Nat) f st, fs[i]? = some f → sts'[i]? = some st → SlotFine d f st errs' := by
  induction fs with
  | nil =>
    intro _ _ _ sts errs index cur extra hr
    have : sts = [] := List.length_eq_zero_iff.1 hr.1
    subst this
    refine ⟨by simp [missingUnnamed], ?_⟩
    intro sts' errs' h
    simp [missingUnnamed] at h
    obtain ⟨rfl, rfl⟩ := h
    simp
  | cons f fs ih =>
    intro hfill hflat hm sts errs index cur extra hr
    cases sts with
    | nil => simp [Reported] at hr
    | cons st sts =>
      -- the head and the tail put together
      have key : ∀ (st' : FieldStatus V) (errs1 : Errors) (index1 cur1 extra1 : Nat),
          missingUnnamed d mode l (f :: fs) (st :: sts) errs index cur extra =
            (missingUnnamed d mode l fs sts errs1 index1 cur1 extra1).map
              (fun x => (st' :: x.1, x.2)) →
          (errs.toList ≠ [] → errs1.toList ≠ []) → SlotFine d f st' errs1 →
          missingUnnamed d mode l (f :: fs) (st :: sts) errs index cur extra ≠ .panic ∧
          ∀ sts' errs', missingUnnamed d mode l (f :: fs) (st :: sts) errs index cur extra =
              .ok (sts', errs') →
            sts'.length = (f :: fs).length ∧ (errs.toList ≠ [] → errs'.toList ≠ []) ∧
            ∀ (i : Nat) g st1, (f :: fs)[i]? = some g → sts'[i]? = some st1 →
              SlotFine d g st1 errs' := by
        intro st' errs1 index1 cur1 extra1 heq hmono hfine
        have hr1 : Reported fs.length sts errs1 := by
          refine ⟨by simpa using hr.1, fun k hk => hmono (hr.2 (k + 1) (by simpa using hk))⟩
        obtain ⟨i1, i2⟩ := ih (fun x hx => hfill x (List.mem_cons_of_mem _ hx))
          (fun x hx => hflat x (List.mem_cons_of_mem _ hx))
          (fun x hx => hm x (List.mem_cons_of_mem _ hx)) sts errs1 index1 cur1 extra1 hr1
        rw [heq]
        cases hx : missingUnnamed d mode l fs sts errs1 index1 cur1 extra1 with
        | panic => exact absurd hx i1
        | err e => exact ⟨by simp [Res.map], fun _ _ h => by simp [Res.map] at h⟩
        | ok x =>
          obtain ⟨sts2, errs2⟩ := x
          obtain ⟨j1, j2, j3⟩ := i2 sts2 errs2 hx
          refine ⟨by simp [Res.map], fun sts' errs' h => ?_⟩
          simp only [Res.map, Res.ok.injEq, Prod.mk.injEq] at h
          obtain ⟨rfl, rfl⟩ := h
          refine ⟨by simp [j1], fun h => j2 (hmono h), fun i g st1 hg hs => ?_⟩
          cases i with
          | zero =>
            simp only [List.getElem?_cons_zero, Option.some.injEq] at hg hs
            subst hg; subst hs
            exact hfine.mono j2
          | succ i =>
            simp only [List.getElem?_cons_succ] at hg hs
            exact j3 i g st1 hg hs
      have hpe : st = .parseError → errs.toList ≠ [] := fun h => hr.2 0 (by simp [h])
      by_cases hc : f.isContainer = true
      · refine key (containerSet d f st) errs index cur extra (by simp [missingUnnamed, hc]) id ?_
        cases hobj : d.obj with
        | some v => exact .inl ⟨v, by simp [containerSet, hobj, hc]⟩
        | none =>
          have hcs : containerSet d f st = st := by simp [containerSet, hobj]
          rw [hcs]
          cases st with
          | some v => exact .inl ⟨v, rfl⟩
          | parseError => exact .inr (.inl (hpe rfl))
          | none =>
            refine .inr (.inr ⟨rfl, ?_⟩)
            rcases hfill f (List.mem_cons_self ..) (by simp [Field.isParsable, hc]) with h | h | h
            · exact .inl h
            · exact .inr h
            · simp [hobj] at h
      · have hc' : f.isContainer = false := by simpa using hc
        have hcs : containerSet d f st = st := by
          cases hobj : d.obj <;> simp [containerSet, hc', hobj]
        by_cases hd : (f.default.isNone && d.target.isNone && st.isNone) = true
        · have hd' := hd
          simp only [Bool.and_eq_true] at hd'
          have hpar : f.isParsable = true := by
            cases hp : f.isParsable with
            | true => rfl
            | false =>
              rcases hfill f (List.mem_cons_self ..) hp with h | h | h
              · rw [Option.isSome_iff_ne_none] at h; exact absurd (Option.isNone_iff_eq_none.1 hd'.1.1) h
              · rw [Option.isSome_iff_ne_none] at h; exact absurd (Option.isNone_iff_eq_none.1 hd'.1.2) h
              · simp [hc'] at h
          by_cases hfl : f.isFlat = true
          · have he := emptyFlat_ne_panic (hflat f (List.mem_cons_self ..)
              ((flatParsable_iff f).2 ⟨hfl, hpar⟩)) d.emptySpan index
            cases hx : emptyFlat d.emptySpan f index with
            | panic => exact absurd hx he
            | err e =>
              have : missingUnnamed d mode l (f :: fs) (st :: sts) errs index cur extra = .err e := by
                simp only [missingUnnamed, hc', ht, Bool.or_false, Bool.false_eq_true, if_false, hcs, hd,
                  if_true, hfl, hx]
              rw [this]
              exact ⟨by simp, fun _ _ h => by simp at h⟩
            | ok x =>
              cases x with
              | ok v =>
                refine key (.some v) errs (index + f.flatUnnamed.fieldCount.getD 0)
                  (if f.isFlatten then cur else cur + 1)
                  (if f.isFlatten then extra + f.flatUnnamed.fieldCount.getD 0 else extra) ?_ id
                  (.inl ⟨v, rfl⟩)
                simp only [missingUnnamed, hc', ht, Bool.or_false, Bool.false_eq_true, if_false, hcs, hd,
                  if_true, hfl, hx]
              | error e =>
                refine key .parseError (errs.pushSyn e) (index + f.flatUnnamed.fieldCount.getD 0)
                  (if f.isFlatten then cur else cur + 1)
                  (if f.isFlatten then extra + f.flatUnnamed.fieldCount.getD 0 else extra) ?_ (fun _ => by simp [SynErr.toList])
                  (.inr (.inl (by simp [SynErr.toList])))
                simp only [missingUnnamed, hc', ht, Bool.or_false, Bool.false_eq_true, if_false, hcs, hd,
                  if_true, hfl, hx]
          · have hmm := hm f (List.mem_cons_self ..) (missingIndexName d (index + cur + extra))
              (mode.toFullSpan l)
            cases hx : f.item.missing (missingIndexName d (index + cur + extra)) (mode.toFullSpan l) with
            | panic => exact absurd hx hmm
            | ok v =>
              refine key (.some v) errs index (if f.isFlatten then cur else cur + 1)
                (if f.isFlatten then extra + f.flatUnnamed.fieldCount.getD 0 else extra) ?_ id
                (.inl ⟨v, rfl⟩)
              simp only [missingUnnamed, hc', ht, Bool.or_false, Bool.false_eq_true, if_false, hcs, hd,
                if_true, hfl, hx]
            | err e =>
              refine key st (errs.pushSyn e) index (if f.isFlatten then cur else cur + 1)
                (if f.isFlatten then extra + f.flatUnnamed.fieldCount.getD 0 else extra) ?_ (fun _ => by simp [SynErr.toList])
                (.inr (.inl (by simp [SynErr.toList])))
              simp only [missingUnnamed, hc', ht, Bool.or_false, Bool.false_eq_true, if_false, hcs, hd,
                if_true, hfl, hx]
        · refine key st errs index (if f.isFlatten then cur else cur + 1)
            (if f.isFlatten then extra + f.flatUnnamed.fieldCount.getD 0 else extra) ?_ id ?_
          · simp only [missingUnnamed, hc', ht, Bool.or_false, Bool.false_eq_true, if_false, hcs, hd]
          · cases st with
            | some v => exact .inl ⟨v, rfl⟩
            | parseError => exact .inr (.inl (hpe rfl))
            | none =>
              refine .inr (.inr ⟨rfl, ?_⟩)
              cases hdf : f.default with
              | some v => exact .inl rfl
              | none =>
                cases htg : d.target with
                | some t => exact .inr rfl
                | none => simp [hdf, htg, FieldStatus.isNone] at hd

omit [Env] in
/-- Slots that are fine do not lead to a panic. -/
theorem finish_fine (d : Fields V) {sts : Slots V} {errs : Errors} (hl : sts.length = d.fields.length)
    (h : ∀ (i : Nat) f st, d.fields[i]? = some f → sts[i]? = some st → SlotFine d f st errs) :
    finish d (setPass d.fields sts errs).1 (setPass d.fields sts errs).2 ≠ .panic := by
  obtain ⟨errs', h1, h2⟩ := setPass_eq d.fields sts errs
  rw [h1]
  simp only
  obtain ⟨f1, f2⟩ := finish_eq d (List.zipWith (fun f st => (setOut f st).1) d.fields sts) errs'
  by_cases he : errs'.toList = []
  · rw [f2 he]
    cases htg : d.target with
    | some t => simp
    | none =>
      rw [h2, List.append_eq_nil_iff, flatten_zipWith_nil] at he
      obtain ⟨vs, hvs⟩ := slots_all (sts := List.zipWith (fun f st => (setOut f st).1) d.fields sts)
        (fun i st3 hs => by
          have hlt := (List.getElem?_eq_some_iff.1 hs).1
          have hlt' : i < d.fields.length := by simp [hl] at hlt; exact hlt
          have hf := List.getElem?_eq_getElem hlt'
          have hst := List.getElem?_eq_getElem (l := sts) (i := i) (by omega)
          have hfine := h i _ _ hf hst
          have hm := he.2 i _ _ hf hst
          rw [List.getElem?_zipWith, hf, hst] at hs
          simp only [Option.some.injEq] at hs
          rw [← hs]
          have hw : ∃ b, withDefault d.fields[i] sts[i] = .some b := by
            rcases hfine with ⟨v, hv⟩ | hx | ⟨hv, hx⟩
            · rw [hv, withDefault]; cases d.fields[i].default <;> exact ⟨v, rfl⟩
            · exact absurd he.1 hx
            · rcases hx with hx | hx
              · obtain ⟨b, hb⟩ := Option.isSome_iff_exists.1 hx
                exact ⟨b, by rw [hv, withDefault, hb]; rfl⟩
              · simp [htg] at hx
          obtain ⟨b, hb⟩ := hw
          rw [setOut, hb, transOut] at hm ⊢
          cases hr : runTransforms d.fields[i].transforms b with
          | ok v => exact ⟨v, rfl⟩
          | error e => simp [hr, SynErr.toList] at hm)
      simp only
      rw [hvs, unwrapAll_some]
      simp
  · obtain ⟨e, h3, _⟩ := f1 he
    rw [h3]; simp

omit [Env] in
theorem init_reported (d : Fields V) : Reported d.fields.length d.init Errors.new := by
  refine ⟨by simp [Fields.init], fun k hk => ?_⟩
  simp only [Fields.init, List.getElem?_map] at hk
  cases h : d.fields[k]? <;> simp [h] at hk

omit [Env] in
theorem eofAll_adv (l : List Stream) : AdvL (eofAll l).2 l := by
  induction l with
  | nil => exact .nil
  | cons s l ih =>
    simp only [eofAll]
    have h := (parseEof_good s).2
    split
    · rename_i s' heq
      rw [heq] at h
      exact .cons h ih
    · rename_i r s' hp heq
      rw [heq] at h
      exact .cons h (.refl _)

/-- A tuple structure. -/
theorem unnamedFlat_good (d : Fields V) (ha : Accepted d) (ht : d.transparent = false)
    (hg : TupleGood d.fields) (mode : Mode) (index : Nat) : Good (unnamedFlat d mode index) := by
  have post : ∀ (l1 : List Stream) (sts : Slots V) (index : Nat) (errs : Errors),
      Reported d.fields.length sts errs → postUnnamed d mode l1 sts index errs ≠ .panic := by
    intro l1 sts index errs hr
    obtain ⟨h1, h2⟩ := missingUnnamed_fine d ht mode l1 d.fields ha.filled hg.flat hg.missing sts errs
      index 0 0 hr
    simp only [postUnnamed]
    cases hx : missingUnnamed d mode l1 d.fields sts errs index 0 0 with
    | panic => exact absurd hx h1
    | err e => simp
    | ok x =>
      obtain ⟨sts', errs'⟩ := x
      obtain ⟨h3, _, h4⟩ := h2 sts' errs' hx
      exact finish_fine d h3 h4
  intro l
  simp only [unnamedFlat]
  split
  · have h1 := eofAll_ne_panic l
    have h2 := eofAll_adv l
    cases hx : eofAll l with
    | mk r l1 =>
      rw [hx] at h1 h2
      cases r with
      | panic => exact absurd rfl h1
      | err e => exact ⟨by simp, h2⟩
      | ok u => exact ⟨post _ _ _ _ (init_reported d), h2⟩
  · have hinv := parseTupleStruct_inv (func := unnamedStep d)
      (I := fun _ k => Reported d.fields.length k.val.1 k.errs)
      (len := d.fields.countP (·.isParsable))
      (fun c k s rest hc hk _ => unnamedStep_inv hg c k s rest hc hk)
      ⟨(d.init, index), Errors.new⟩ l (init_reported d)
    cases hx : parseTupleStruct (unnamedStep d) (d.fields.countP (·.isParsable))
      (⟨(d.init, index), Errors.new⟩, l) with
    | mk r st =>
      obtain ⟨acc, l1⟩ := st
      rw [hx] at hinv
      cases r with
      | panic => exact absurd rfl hinv.noPanic
      | ok c => exact ⟨post _ _ _ _ (hinv.ok c rfl).2, hinv.adv⟩
      | err e =>
        obtain ⟨c, _, hI⟩ := hinv.err e rfl
        refine ⟨post _ _ _ _ ⟨hI.1, fun k _ => by simp [SynErr.toList]⟩, hinv.adv⟩

/-! ## Structures of every shape -/

omit [Env] in
theorem runAndThens_ne_panic {α : Type} (fs : List (α → Except SynErr α)) {r : Res α} (h : r ≠ .panic) :
    runAndThens fs r ≠ .panic := by
  cases r with
  | panic => exact absurd rfl h
  | err e => simp [runAndThens]
  | ok v =>
    simp only [runAndThens]
    split <;> simp

omit [Env] in
theorem mapRes_good {σ α β : Type} [Prog σ] {g : Res α → Res β} {m : M σ α} (hm : Good m)
    (hg : ∀ r, r ≠ .panic → g r ≠ .panic) : Good (m.mapRes g) := by
  intro s
  exact ⟨hg _ (hm s).1, (hm s).2⟩

/-- What the derive ensures of the structures it accepts: of the fields as above; a transparent structure
has exactly one field that is parsed (macros/types/struct.rs:419-451); the fields of a tuple structure are
not `append` or `rest` (macros/types/field.rs:1079-1134). -/
structure StructDef.Accepted (d : StructDef V) : Prop where
  fields : Deluxe.Accepted d.data
  transparent : d.isTransparent = true → d.fields.countP (·.isParsable) = 1
  tuple : d.shape = .unnamed → NoAppendRest d.fields

/-- The parsers of the fields that the derived code calls end without panic. -/
structure StructDef.FieldsFine (d : StructDef V) : Prop where
  item : ∀ f ∈ d.fields, f.item.Good
  flat : d.shape = .named → ∀ f ∈ d.fields, f.flatParsable = true → ∀ pre sp allowed,
    Good (f.flatCall pre sp allowed)
  flatUnnamed : d.shape = .unnamed → ∀ f ∈ d.fields, f.flatParsable = true → ∀ i,
    Good (f.flatUnnamed.parse .unnamed i)

omit [Env] in
theorem countP_one_unique {fields : List (Field V)} (h : fields.countP (·.isParsable) = 1) {i k : Nat}
    {f g : Field V} (hg : fields[i]? = some g) (hgp : g.isParsable = true) (hf : fields[k]? = some f)
    (hfp : f.isParsable = true) : i = k := by
  induction fields generalizing i k with
  | nil => simp at hg
  | cons x xs ih =>
    rw [List.countP_cons] at h
    have none_left : x.isParsable = true → ∀ (j : Nat) y, xs[j]? = some y → y.isParsable = false := by
      intro hx j y hy
      simp only [hx, if_true, Nat.add_eq_right, List.countP_eq_zero] at h
      have := h y (List.mem_of_getElem? hy)
      simpa using this
    cases i with
    | zero =>
      simp only [List.getElem?_cons_zero, Option.some.injEq] at hg
      subst hg
      cases k with
      | zero => rfl
      | succ k =>
        have := none_left hgp k f (by simpa using hf)
        rw [hfp] at this; cases this
    | succ i =>
      simp only [List.getElem?_cons_succ] at hg
      cases k with
      | zero =>
        simp only [List.getElem?_cons_zero, Option.some.injEq] at hf
        subst hf
        have := none_left hfp i g hg
        rw [hgp] at this; cases this
      | succ k =>
        cases hx : x.isParsable with
        | true =>
          have := none_left hx i g hg
          rw [hgp] at this; cases this
        | false =>
          rw [hx] at h
          simp only [List.getElem?_cons_succ] at hf
          rw [ih (by simpa using h) hg hf]

omit [Env] in
theorem transparentPost_ne_panic {d : StructDef V} (ha : d.Accepted) (ht : d.isTransparent = true)
    {f : Field V} {k : Nat} (hf : d.fields[k]? = some f) (hp : f.isParsable = true) {r : Res V}
    (hr : r ≠ .panic) : transparentPost d k r ≠ .panic := by
  cases r with
  | panic => exact absurd rfl hr
  | err e => simp [transparentPost]
  | ok v =>
    simp only [transparentPost]
    refine runAndThens_ne_panic _ ?_
    refine finish_fine d.data (sts := d.data.init.set k (.some v)) (errs := Errors.new)
      (by simp [Fields.init, StructDef.data]) fun i g st hg hst => ?_
    by_cases hik : i = k
    · subst hik
      have hlt := (List.getElem?_eq_some_iff.1 hst).1
      rw [List.getElem?_set_self (by simpa using hlt)] at hst
      exact .inl ⟨v, by simpa using hst.symm⟩
    · rw [List.getElem?_set_ne (Ne.symm hik)] at hst
      have hno : g.isParsable = false := by
        cases hq : g.isParsable with
        | false => rfl
        | true => exact absurd (countP_one_unique (ha.transparent ht) hg hq hf hp) hik
      refine .inr (.inr ⟨?_, ?_⟩)
      · simp only [Fields.init, List.getElem?_map] at hst
        rw [hg] at hst
        simpa using hst.symm
      · rcases ha.fields.filled g (List.mem_of_getElem? hg) hno with h | h | h
        · exact .inl h
        · exact .inr h
        · simp [StructDef.data] at h

theorem StructDef.flatNamed_good {d : StructDef V} (ha : d.Accepted) (ht : d.isTransparent = false)
    (hs : d.shape = .named) (hg : d.FieldsFine) : d.flatNamed.Good := fun mode pre validate =>
  mapRes_good (namedFlat_good d.data ha.fields ht
    ⟨fun f hf _ n sp => (hg.item f hf).named n sp, fun f hf n sp => (hg.item f hf).missing n sp,
      hg.flat hs⟩ _ mode pre validate) fun _ hr => runAndThens_ne_panic _ hr

theorem StructDef.flatUnnamed_good {d : StructDef V} (ha : d.Accepted) (ht : d.isTransparent = false)
    (hs : d.shape ≠ .unit) (hg : d.FieldsFine) : d.flatUnnamed.Good := by
  intro mode index
  cases h : d.shape with
  | unit => exact absurd h hs
  | named =>
    simp only [StructDef.flatUnnamed, h]
    exact d.flatNamed_good ha ht h hg mode [] true
  | unnamed =>
    simp only [StructDef.flatUnnamed, h]
    exact mapRes_good (unnamedFlat_good d.data ha.fields ht
      ⟨ha.tuple h, fun f hf _ => (hg.item f hf).parse _, hg.flatUnnamed h,
        fun f hf n sp => (hg.item f hf).missing n sp⟩ mode index) fun _ hr => runAndThens_ne_panic _ hr

omit [Env] in
theorem StructDef.missing_ne_panic (d : StructDef V) (n : Str) (sp : Span) : d.missing n sp ≠ .panic := by
  simp only [StructDef.missing]
  split <;> simp

/-- A derived structure, whatever its shape. -/
theorem StructDef.dict_good {d : StructDef V} (ha : d.Accepted) (hg : d.FieldsFine) : d.dict.Good := by
  simp only [StructDef.dict]
  split
  · rename_i ht
    split
    · rename_i f k hfind
      obtain ⟨hp, hmem⟩ := And.intro (List.find?_some hfind) (List.mem_of_find?_eq_some hfind)
      have hf : d.fields[k]? = some f := by
        have := List.mem_zipIdx_iff_getElem?.1 hmem
        simpa using this
      have hp' : f.isParsable = true := by simp at hp; exact hp.1
      have hi := hg.item f (List.mem_of_getElem? hf)
      have hpost : ∀ r, r ≠ .panic → transparentPost d k r ≠ .panic := fun r hr =>
        transparentPost_ne_panic ha ht hf hp' hr
      exact Dict.mk'_good (fun m => mapRes_good (hi.parse m) hpost)
        (fun m => mapRes_good (hi.inline m) hpost) (fun sp => hpost _ (hi.flag sp)) d.missing_ne_panic
    · rename_i hfind
      exfalso
      rw [List.find?_eq_none] at hfind
      simp only [StructDef.isTransparent, Bool.and_eq_true, beq_iff_eq] at ht
      have hne : d.fields.filter (fun f => f.isParsable && !f.isFlat) ≠ [] := by
        intro h
        simp [h] at ht
      obtain ⟨f, hf⟩ := List.exists_mem_of_ne_nil _ hne
      rw [List.mem_filter] at hf
      obtain ⟨k, hk⟩ := List.mem_iff_getElem?.1 hf.1
      exact hfind (f, k) (List.mem_zipIdx_iff_getElem?.2 hk) hf.2
  · rename_i ht
    have ht' : d.isTransparent = false := by simpa using ht
    split
    · rename_i hs
      have hi := fun m => d.flatNamed_good ha ht' hs hg m [] (!d.acceptsAll)
      exact Dict.mk'_good (fun m => parseDelimitedWith_good .brace (single_good (hi m))) hi
        (fun sp => parseEmpty_ne_panic (single_good (hi _)) _) d.missing_ne_panic
    · rename_i hs
      have hi := fun m => d.flatUnnamed_good ha ht' (by simp [hs]) hg m 0
      refine Dict.mk'_good (fun m => parseDelimitedWith_good .paren (single_good (hi m))) hi
        (fun sp => ?_) d.missing_ne_panic
      split
      · exact parseEmpty_ne_panic (single_good (hi _)) _
      · simp
    · have hr : runAndThens d.andThens (.ok []) ≠ .panic := runAndThens_ne_panic _ (by simp)
      have hi : Good (fun (l : List Stream) => (runAndThens d.andThens (.ok []), l)) :=
        fun l => ⟨hr, AdvL.refl l⟩
      exact Dict.mk'_good (fun m => parseDelimitedWith_good .paren (single_good hi)) (fun _ => hi)
        (fun _ => hr) d.missing_ne_panic

end

end Deluxe
