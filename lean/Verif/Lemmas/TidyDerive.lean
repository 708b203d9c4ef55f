import Verif.Lemmas.TidyTypes
import Verif.Lemmas.EnumOut
/-!
# Derived types leave nothing unexpected behind when they succeed
-/
namespace Deluxe

section
variable {V : Type} [Env]

/-- The fields of a structure or variant with names leave nothing unexpected behind. -/
structure NamedTidy (fields : List (Field V)) : Prop where
  plain : ∀ f ∈ fields, f.isFlat = false → f.isParsable = true → f.item.Tidy
  flat : ∀ f ∈ fields, f.flatParsable = true → ∀ pre sp allowed, TidyL (f.flatCall pre sp allowed)

/-- Likewise for fields without names. -/
structure TupleTidy (fields : List (Field V)) : Prop where
  plain : ∀ f ∈ fields, f.isFlat = false → f.isParsable = true → f.item.Tidy
  flat : ∀ f ∈ fields, f.flatParsable = true → ∀ i, TidyL (f.flatUnnamed.parse .unnamed i)

/-- Likewise, depending on the shape. -/
def ShapeTidy (shape : Shape) (fields : List (Field V)) : Prop :=
  match shape with
  | .named => NamedTidy fields
  | .unnamed => TupleTidy fields
  | .unit => True

/-! ## Named fields -/

omit [Env] in
theorem flatPass_fresh {fs : List (Field V)}
    (hf : ∀ f ∈ fs, f.flatParsable = true → ∀ pre sp allowed, TidyL (f.flatCall pre sp allowed)) (pre : Str) (span : Span)
    (allowed : List Str) (sts : Slots V) (hlen : sts.length = fs.length) {errs errs' : Errors} {l l' : List Stream}
    (hl : Fresh l) {slots : Slots V} (h : flatPass pre span allowed fs sts errs l = (.ok (slots, errs'), l'))
    (he : errs'.toList = []) : errs.toList = [] ∧ Fresh l' := by
  induction fs generalizing sts errs l slots with
  | nil =>
    cases sts with
    | nil => simp only [flatPass] at h; cases h; exact ⟨he, hl⟩
    | cons st sts => cases hlen
  | cons f fs ih =>
    cases sts with
    | nil => cases hlen
    | cons st sts =>
      have hlen : sts.length = fs.length := by simpa using hlen
      have ih := fun {errs} {l} hl {slots} h =>
        ih (fun g hg => hf g (List.mem_cons_of_mem _ hg)) sts hlen (errs := errs) (l := l) hl (slots := slots) h
      have tail : ∀ {x : FieldStatus V} {e1 l1}, Fresh l1 →
          ((flatPass pre span allowed fs sts e1 l1).1.map (fun y => (x :: y.1, y.2)),
            (flatPass pre span allowed fs sts e1 l1).2) = (.ok (slots, errs'), l') →
          e1.toList = [] ∧ Fresh l' := by
        intro x e1 l1 h1 h
        cases hr : flatPass pre span allowed fs sts e1 l1 with
        | mk r l2 =>
          rw [hr] at h
          cases r with
          | ok y =>
            obtain ⟨y1, y2⟩ := y
            simp only [Res.map, Prod.mk.injEq, Res.ok.injEq] at h
            obtain ⟨⟨-, rfl⟩, rfl⟩ := h
            exact ih h1 hr
          | err e => simp [Res.map] at h
          | panic => simp [Res.map] at h
      simp only [flatPass] at h
      by_cases hp : f.flatParsable = true
      · rw [if_pos hp] at h
        by_cases ha : fs.any (·.flatParsable) = true
        · rw [if_pos ha] at h
          dsimp only at h
          cases hc : (f.flatCall pre span allowed (forkInputs l)).1 with
          | ok v => rw [hc] at h; exact tail hl h
          | err e =>
            rw [hc] at h
            have := (tail hl h).1
            simp [SynErr.toList] at this
          | panic => rw [hc] at h; cases h
        · rw [if_neg ha] at h
          have hd := hf f List.mem_cons_self hp pre span allowed l hl
          cases hc : f.flatCall pre span allowed l with
          | mk r l1 =>
            rw [hc] at h hd
            dsimp only at h hd
            cases r with
            | ok v => exact tail (hd v rfl) h
            | err e =>
              dsimp only at h
              have hf' : (flatPass pre span allowed fs sts (errs.pushSyn e) l1) = (.ok (sts, errs.pushSyn e), l1) :=
                flatPass_none (by simpa using ha) pre span allowed sts hlen _ _
              rw [hf'] at h
              simp only [Res.map, Prod.mk.injEq, Res.ok.injEq] at h
              obtain ⟨⟨-, rfl⟩, -⟩ := h
              simp [SynErr.toList] at he
            | panic => cases h
      · rw [if_neg hp] at h
        exact tail hl h

theorem namedFlat_tidy {d : Fields V} (hg : FieldsGood d.fields) (ht : NamedTidy d.fields) (allowed : List Str)
    (mode : Mode) (pre : Str) (validate : Bool) : TidyL (namedFlat d allowed mode pre validate) := by
  cases ha : d.fields.any (·.flatParsable) with
  | false =>
    refine (namedFlat_drains_all hg (fun f hf h1 h2 => (ht.plain f hf h1 h2).named) (fun f hf hp => ?_) allowed mode pre
      validate).tidyL
    have := List.any_eq_false.1 ha f hf
    rw [hp] at this
    exact absurd rfl this
  | true =>
    intro l hl vs h
    unfold namedFlat at h ⊢
    simp only [ha, if_true] at h ⊢
    obtain ⟨rs, fatal, l0, hr⟩ := ReadsAll.exists (structItem_good (fields := d.fields) hg.named pre) (forkInputs l)
    obtain ⟨e0, h1, -⟩ := parseStruct_reads d hg.named allowed pre validate hr
    have hlen : (parseStruct (namedStep d allowed pre validate) (⟨d.init, Errors.new⟩, forkInputs l)).2.1.val.length =
        d.fields.length := by
      rw [h1]
      simp [itemSlots]
    clear h1
    generalize parseStruct (namedStep d allowed pre validate) (⟨d.init, Errors.new⟩, forkInputs l) = x at h hlen ⊢
    obtain ⟨r, ⟨acc, l1⟩⟩ := x
    have key : ∀ errs, (match flatPass pre (mode.toFullSpan l) allowed d.fields acc.val errs l with
        | (.ok (slots, errs), l2) => (postNamed d pre (mode.toFullSpan l) slots errs, l2)
        | (.err e, l2) => (.err e, l2)
        | (.panic, l2) => (.panic, l2) : Res (List V) × List Stream).1 = .ok vs →
        Fresh (match flatPass pre (mode.toFullSpan l) allowed d.fields acc.val errs l with
        | (.ok (slots, errs), l2) => (postNamed d pre (mode.toFullSpan l) slots errs, l2)
        | (.err e, l2) => (.err e, l2)
        | (.panic, l2) => (.panic, l2) : Res (List V) × List Stream).2 := by
      intro errs h
      cases hr : flatPass pre (mode.toFullSpan l) allowed d.fields acc.val errs l with
      | mk r l2 =>
        rw [hr] at h
        cases r with
        | ok x =>
          obtain ⟨slots, errs'⟩ := x
          exact (flatPass_fresh ht.flat pre _ allowed acc.val hlen hl hr (postNamed_nil hg.missing h)).2
        | err e => cases h
        | panic => cases h
    cases r with
    | panic => cases h
    | ok u => exact key _ h
    | err e => exact key _ h

/-! ## Positional fields -/

omit [Env] in
theorem setPass_nil {fs : List (Field V)} {sts : Slots V} {errs : Errors} (h : (setPass fs sts errs).2.toList = []) :
    errs.toList = [] := by
  obtain ⟨errs', h1, h2⟩ := setPass_eq fs sts errs
  rw [h1] at h
  change errs'.toList = [] at h
  rw [h] at h2
  exact (List.append_eq_nil_iff.1 h2.symm).1

omit [Env] in
theorem finish_nil {d : Fields V} {slots : Slots V} {errs : Errors} {vs : List V} (h : finish d slots errs = .ok vs) :
    errs.toList = [] := by
  cases he : errs.toList with
  | nil => rfl
  | cons m ms =>
    obtain ⟨e, hx, -⟩ := (finish_eq d slots errs).1 (by simp [he])
    rw [hx] at h
    cases h

theorem missingUnnamed_nil {d : Fields V} {mode : Mode} {l : List Stream} {fs : List (Field V)} (sts : Slots V)
    {errs errs' : Errors} (index cur extra : Nat) {slots : Slots V}
    (h : missingUnnamed d mode l fs sts errs index cur extra = .ok (slots, errs')) (he : errs'.toList = []) :
    errs.toList = [] := by
  have push : ∀ (e : Errors) x, (e.pushSyn x).toList ≠ [] := fun e x => by simp [SynErr.toList]
  induction fs generalizing sts errs index cur extra slots with
  | nil => simp only [missingUnnamed] at h; cases h; exact he
  | cons f fs ih =>
    cases sts with
    | nil => simp only [missingUnnamed] at h; cases h; exact he
    | cons st sts =>
      have tail : ∀ {x : FieldStatus V} {e1 i c ex}, (missingUnnamed d mode l fs sts e1 i c ex).map
          (fun y => (x :: y.1, y.2)) = .ok (slots, errs') → e1.toList = [] := by
        intro x e1 i c ex h
        cases hr : missingUnnamed d mode l fs sts e1 i c ex with
        | ok y =>
          obtain ⟨y1, y2⟩ := y
          rw [hr] at h
          simp only [Res.map, Res.ok.injEq, Prod.mk.injEq] at h
          obtain ⟨-, rfl⟩ := h
          exact ih _ _ _ _ hr
        | err e => rw [hr] at h; cases h
        | panic => rw [hr] at h; cases h
      simp only [missingUnnamed] at h
      split at h
      · exact tail h
      · split at h
        · split at h
          · split at h
            · exact tail h
            · exact absurd (tail h) (push _ _)
            · cases h
            · cases h
          · split at h
            · exact tail h
            · exact absurd (tail h) (push _ _)
            · cases h
        · exact tail h

theorem postUnnamed_nil {d : Fields V} {mode : Mode} {l : List Stream} {slots : Slots V} {index : Nat} {errs : Errors}
    {vs : List V} (h : postUnnamed d mode l slots index errs = .ok vs) : errs.toList = [] := by
  unfold postUnnamed at h
  split at h
  · next hm => exact missingUnnamed_nil _ _ _ _ hm (setPass_nil (finish_nil h))
  · cases h
  · cases h

omit [Env] in
theorem eofAll_fresh {l l' : List Stream} (h : eofAll l = (.ok (), l')) (hl : Fresh l) : Fresh l' := by
  induction l generalizing l' with
  | nil => simp only [eofAll] at h; cases h; exact hl
  | cons s l ih =>
    simp only [eofAll] at h
    have h1 := parseEof_tidy s (hl s List.mem_cons_self)
    cases hp : parseEof s with
    | mk r s1 =>
      rw [hp] at h h1
      cases r with
      | ok u =>
        cases he : eofAll l with
        | mk r l1 =>
          simp only [he] at h
          cases h
          exact .cons (h1 () rfl).1 (ih he fun t ht => hl t (List.mem_cons_of_mem _ ht))
      | err e => cases h
      | panic => cases h

omit [Env] in
theorem nthArm_mem {fields : List (Field V)} {i : Nat} {f : Field V} {k : Nat} (h : nthArm fields i = some (f, k)) :
    f ∈ fields ∧ f.isParsable = true := by
  unfold nthArm at h
  have hm := List.mem_of_getElem? h
  obtain ⟨h1, h2⟩ := List.mem_filter.1 hm
  refine ⟨?_, ?_⟩
  · exact (List.mem_zipIdx h1).2.2 ▸ List.getElem_mem _
  · simp only [Bool.and_eq_true] at h2
    exact h2.1.1

omit [Env] in
theorem unnamedCall_tidy {f : Field V} (hp : f.isFlat = false → f.item.Tidy)
    (hf : f.isFlat = true → ∀ i, TidyL (f.flatUnnamed.parse .unnamed i)) (i : Nat) : TidyL (unnamedCall f i) := by
  intro l hl v h
  unfold unnamedCall at h ⊢
  split at h
  · next hx => rw [if_pos hx]; exact hf hx i l hl v h
  · next hx =>
    rw [if_neg hx]
    cases l with
    | nil => cases h
    | cons s rest =>
      have := (hp (by simpa using hx)).parse .unnamed s (hl s List.mem_cons_self) v h
      exact .cons this.1 fun t ht => hl t (List.mem_cons_of_mem _ ht)

omit [Env] in
theorem unnamedStep_tidy {d : Fields V} (ht : TupleTidy d.fields) (i : Nat) : TidyStepL Acc.Clean (unnamedStep d i) := by
  intro k l k' l' hst hc
  simp only [unnamedStep] at hst
  cases hn : nthArm d.fields i with
  | none => rw [hn] at hst; cases hst
  | some x =>
    obtain ⟨f, j⟩ := x
    obtain ⟨hm, hp⟩ := nthArm_mem hn
    rw [hn] at hst
    have hu := unnamedCall_tidy (fun h => ht.plain f hm h hp) (fun h => ht.flat f hm (by simp [Field.flatParsable, h, hp]))
      k.val.2 l
    dsimp only at hst
    cases hc' : unnamedCall f k.val.2 l with
    | mk r l1 =>
      rw [hc'] at hst hu
      cases r with
      | ok v => cases hst; exact ⟨hc, fun hl => hu hl v rfl⟩
      | err e => cases hst; simp [Acc.Clean, SynErr.toList] at hc
      | panic => cases hst

theorem unnamedFlat_tidy {d : Fields V} (ht : TupleTidy d.fields) (mode : Mode) (index : Nat) :
    TidyL (unnamedFlat d mode index) := by
  intro l hl vs h
  unfold unnamedFlat at h ⊢
  dsimp only at h ⊢
  split at h
  · next hz =>
    rw [if_pos hz]
    cases he : eofAll l with
    | mk r l1 =>
      rw [he] at h
      cases r with
      | ok u => exact eofAll_fresh he hl
      | err e => cases h
      | panic => cases h
  · next hz =>
    rw [if_neg hz]
    cases hp : parseTupleStruct (unnamedStep d) (d.fields.countP (·.isParsable)) (⟨(d.init, index), Errors.new⟩, l) with
    | mk r x =>
      obtain ⟨acc, l1⟩ := x
      rw [hp] at h
      cases r with
      | ok c => exact (parseTupleStruct_tidy (unnamedStep_tidy ht) _ _ _ hp (postUnnamed_nil h)).2 hl
      | err e =>
        have := postUnnamed_nil h
        simp [SynErr.toList] at this
      | panic => cases h

/-! ## Structures -/

omit [Env] in
theorem runAndThens_noRescue {α : Type} (fs : List (α → Except SynErr α)) : Res.NoRescue (runAndThens fs) := by
  intro r b h
  cases r with
  | ok a => exact ⟨a, rfl⟩
  | err e => cases h
  | panic => cases h

omit [Env] in
theorem transparentPost_noRescue (d : StructDef V) (k : Nat) : Res.NoRescue (transparentPost d k) := by
  intro r b h
  cases r with
  | ok a => exact ⟨a, rfl⟩
  | err e => cases h
  | panic => cases h

theorem StructDef.flatNamed_tidy {d : StructDef V} (hg : FieldsGood d.fields) (ht : NamedTidy d.fields) (m : Mode)
    (pre : Str) (validate : Bool) : TidyL (d.flatNamed.parse m pre validate) :=
  (namedFlat_tidy (d := d.data) hg ht _ m pre validate).mapRes (runAndThens_noRescue _)

theorem StructDef.flatUnnamed_tidy {d : StructDef V} (hs : d.shape ≠ .unit)
    (hg : d.shape = .named → FieldsGood d.fields) (ht : ShapeTidy d.shape d.fields) (m : Mode) (i : Nat) :
    TidyL (d.flatUnnamed.parse m i) := by
  unfold StructDef.flatUnnamed
  cases h : d.shape with
  | named => rw [h] at ht; exact d.flatNamed_tidy (hg h) ht m [] true
  | unnamed => rw [h] at ht; exact (unnamedFlat_tidy (d := d.data) ht m i).mapRes (runAndThens_noRescue _)
  | unit => exact absurd h hs

theorem StructDef.dict_tidy {d : StructDef V}
    (hx : d.isTransparent = true → ∀ f ∈ d.fields, f.isParsable = true → f.isFlat = false → f.item.Tidy)
    (hg : d.isTransparent = false → d.shape = .named → FieldsGood d.fields)
    (ht : d.isTransparent = false → ShapeTidy d.shape d.fields) : d.dict.Tidy := by
  unfold StructDef.dict
  split
  · next h =>
    split
    · next f k hf =>
      have hp := List.find?_some hf
      have hm := List.mem_zipIdx (List.mem_of_find?_eq_some hf)
      have hm : f ∈ d.fields := hm.2.2 ▸ List.getElem_mem _
      simp only [Bool.and_eq_true, Bool.not_eq_true'] at hp
      have := hx h f hm hp.1 hp.2
      exact .mk' (fun m => (this.parse m).mapRes (transparentPost_noRescue d k))
        fun m => (this.inline m).mapRes (transparentPost_noRescue d k)
    · exact .first fun _ s _ a ha => (nomatch ha)
  · next h =>
    have h : d.isTransparent = false := by simpa using h
    have ht := ht h
    cases hs : d.shape with
    | named =>
      rw [hs] at ht
      have hi := fun m => d.flatNamed_tidy (hg h hs) ht m [] (!d.acceptsAll)
      exact .mk' (fun m => delimited_tidyL (hi m) _) hi
    | unnamed =>
      have hi := fun m => d.flatUnnamed_tidy (by simp [hs]) (fun h' => hg h h') ht m 0
      exact .mk' (fun m => delimited_tidyL (hi m) _) hi
    | unit =>
      have hi : ∀ m : Mode, TidyL (fun l => (runAndThens d.andThens (.ok []), l) : M (List Stream) (List V)) :=
        fun m l hl a ha => hl
      exact .mk' (fun m => delimited_tidyL (hi .unnamed) _) hi

/-! ## Enums -/

theorem Variant.inline_tidy {v : Variant V} (hg : v.shape = .named → FieldsGood v.fields) (ht : ShapeTidy v.shape v.fields)
    (site : Site V) (pre : Str) (span : Span) (m : Mode) : TidyL (v.inline site pre span m) := by
  unfold Variant.inline
  cases h : v.shape with
  | named => rw [h] at ht; exact namedFlat_tidy (d := v.data site span) (hg h) ht _ _ _ _
  | unnamed => rw [h] at ht; exact unnamedFlat_tidy (d := v.data site span) ht _ _
  | unit => exact fun l hl a ha => hl

/-- The fields of a variant leave nothing unexpected behind. -/
structure Variant.Tidy (v : Variant V) : Prop where
  good : v.shape = .named → FieldsGood v.fields
  shape : ShapeTidy v.shape v.fields
  only : v.isTransparent = true → ∀ f ∈ v.fields, f.isParsable = true → f.isFlat = false → f.item.Tidy

theorem Variant.item_tidy {v : Variant V} (h : v.Tidy) (site : Site V) (pre p : Str) (span : Span) :
    Deluxe.Tidy (v.item site pre p span) := by
  unfold Variant.item
  split
  · next hx =>
    split
    · next f k hf =>
      have hp := List.find?_some hf
      have hm := List.mem_zipIdx (List.mem_of_find?_eq_some hf)
      have hm : f ∈ v.fields := hm.2.2 ▸ List.getElem_mem _
      simp only [Bool.and_eq_true, Bool.not_eq_true'] at hp
      refine ((h.only hx f hm hp.1 hp.2).named p span).mapRes ?_
      intro r b hr
      cases r with
      | ok a => exact ⟨a, rfl⟩
      | err e => cases hr
      | panic => cases hr
    · exact fun s _ a ha => (nomatch ha)
  · intro s hs a ha
    have hi := h.good
    have hi := fun m => v.inline_tidy h.good h.shape site pre span m
    unfold parseNamedWith at ha ⊢
    split at ha
    · next h' =>
      rw [if_pos h']
      exact delimited_tidyL (hi _) _ { s with toks := s.toks.tail } hs a ha
    · next h' =>
      rw [if_neg h']
      split at ha
      · next h'' => rw [if_pos h'']; exact delimited_tidyL (hi _) _ s hs a ha
      · next h'' => rw [if_neg h'']; exact ⟨hs, rfl⟩

theorem enumStep_tidy {e : EnumDef V} (h : ∀ v ∈ e.variants, v.isSkipped = false → v.Tidy) (site : Site V) (pre p : Str)
    (span : Span) : TidyStep Acc.Clean (enumStep e site pre p span) := by
  intro k s k' s' hst hc
  simp only [enumStep] at hst
  split at hst
  · next ky v i hf =>
    obtain ⟨k0, -, hk0⟩ := Option.bind_eq_some_iff.1 hf
    obtain ⟨x, hx, hxe⟩ := Option.map_eq_some_iff.1 hk0
    cases hxe
    unfold findVariant at hx
    have hp := List.find?_some hx
    have hm := List.mem_zipIdx (List.mem_of_find?_eq_some hx)
    have hm : v ∈ e.variants := hm.2.2 ▸ List.getElem_mem _
    simp only [Bool.and_eq_true, Bool.not_eq_true'] at hp
    have hi := v.item_tidy (h v hm hp.1.2) site pre p span s
    cases he : v.item site pre p span s with
    | mk r s1 =>
      rw [he] at hst hi
      cases r with
      | ok a =>
        cases hst
        refine ⟨?_, fun hu => hi hu a rfl⟩
        simp only [Acc.Clean] at hc ⊢
        split at hc
        · simp [onlyOneVariant, Errors.push, SynErr.toList] at hc
        · exact hc
      | err e => cases hst; simp [Acc.Clean, SynErr.toList] at hc
      | panic => cases hst
  · cases hst
    exact ⟨hc, fun hu => ⟨hu, rfl⟩⟩

theorem keyItem_fresh {s : Stream} (h : s.unexp = none) : (keyItem s).2.unexp = none := by
  have hp : (parseAnyPath s).2.unexp = none := by
    unfold parseAnyPath
    dsimp only
    split
    · exact h
    · split <;> exact h
  simp only [keyItem, keyed]
  cases he : parseAnyPath s with
  | mk r s1 =>
    rw [he] at hp
    cases r <;> exact hp

theorem checkKeys_fresh (allowed : List Str) (errs : Errors) {l : List Stream} (hl : Fresh l) :
    Fresh (checkKeys allowed errs l).2 := by
  obtain ⟨rs, fatal, l', h⟩ := ReadsAll.exists keyItem_good l
  obtain ⟨errs', h1, -⟩ := checkKeys_reads allowed errs h
  rw [h1]
  have one : ∀ {s rs fatal s'}, Reads keyItem s rs fatal s' → s.unexp = none → s'.unexp = none := by
    intro s rs fatal s' h hs
    induction h with
    | done => exact hs
    | last _ hi _ => have := keyItem_fresh hs; rw [hi] at this; exact this
    | more _ hi _ _ _ ih => have := keyItem_fresh hs; rw [hi] at this; exact ih this
    | failItem _ hi => have := keyItem_fresh hs; rw [hi] at this; exact this
    | failSep _ hi _ _ => have := keyItem_fresh hs; rw [hi] at this; exact this
  change Fresh l'
  clear h1 errs'
  induction h with
  | nil => exact hl
  | cons h1 _ ih => exact .cons (one h1 (hl _ List.mem_cons_self)) (ih fun t ht => hl t (List.mem_cons_of_mem _ ht))
  | fail h1 => exact .cons (one h1 (hl _ List.mem_cons_self)) fun t ht => hl t (List.mem_cons_of_mem _ ht)

theorem validatePass_fresh (e : EnumDef V) (validate : Bool) (errs : Errors) {l : List Stream} (hl : Fresh l) :
    Fresh (validatePass e validate errs l).2 := by
  unfold validatePass
  split
  · exact checkKeys_fresh _ _ hl
  · exact hl

theorem validatePass_nil (e : EnumDef V) (validate : Bool) (errs : Errors) (l : List Stream) {errs' : Errors} {l' : List Stream}
    (h : validatePass e validate errs l = (.ok errs', l')) (he : errs'.toList = []) : errs.toList = [] := by
  obtain ⟨e1, l1, h1, -, h2⟩ := validatePass_good e validate errs l
  rw [h1] at h
  cases h
  exact Decidable.byContradiction fun hne => h2 hne he

omit [Env] in
theorem disallowPaths_nil {paths : PathMap} {keys : List (Str × List Str)} {cur : Str} {errs : Errors}
    (h : (disallowPaths paths keys cur errs).toList = []) : errs.toList = [] := by
  obtain ⟨ms, hm⟩ := disallow_msgs paths keys cur errs
  rw [hm] at h
  exact (List.append_eq_nil_iff.1 h).1

theorem flatBlock_tidy {e : EnumDef V} {v : Variant V} (hg : FieldsGood v.fields) (ht : NamedTidy v.fields) (site : Site V)
    (pre : Str) (span : Span) (paths : PathMap) (i : Nat) (empty : Bool) (errs : Errors) {l : List Stream} (hl : Fresh l)
    {value : FieldStatus (EnumVal V)} {errs' : Errors} {l' : List Stream}
    (h : flatBlock e site pre span paths v i empty errs l = (.ok (value, errs'), l')) (he : errs'.toList = []) :
    Fresh l' := by
  unfold flatBlock at h
  dsimp only at h
  split at h
  · next errs1 hx =>
    have hn := namedFlat_tidy (d := v.data site span) hg ht (Field.fieldNames v.fields) (.named span) pre
      (!v.acceptsAll && !(empty && !v.allowUnknown.getD false)) l hl
    cases hr : namedFlat (v.data site span) (Field.fieldNames v.fields) (.named span) pre
      (!v.acceptsAll && !(empty && !v.allowUnknown.getD false)) l with
    | mk r l1 =>
      rw [hr] at h hn
      cases r with
      | ok x => cases h; exact hn x rfl
      | err x =>
        cases h
        split at he
        · simp [SynErr.toList] at he
        · have := disallowPaths_nil he
          simp [SynErr.toList] at this
      | panic => cases h
  · cases h
  · cases h

theorem pick_tidy {e : EnumDef V} (h : ∀ v ∈ e.variants, v.isSkipped = false → v.isFlatten = true →
      FieldsGood v.fields ∧ NamedTidy v.fields) (site : Site V) (pre : Str) (span : Span) (validate : Bool) (st : EnumSt V)
    (errs : Errors) {l : List Stream} (hl : Fresh l) {value : FieldStatus (EnumVal V)} {errs' : Errors} {l' : List Stream}
    (hp : pick e site pre span validate st errs l = (.ok (value, errs'), l')) (he : errs'.toList = []) : Fresh l' := by
  have flat : ∀ (x : VKey × (Variant V × Nat)) (b : Bool) (p : VKey → Bool), e.flatMatches.find? (fun x => p x.1) = some x →
      flatBlock e site pre span st.paths x.2.1 x.2.2 b errs l = (.ok (value, errs'), l') → Fresh l' := by
    rintro ⟨k, v, i⟩ b p hx hf
    obtain ⟨-, h2, h3⟩ := find_flatMatches (p := p) hx
    have hm := List.mem_of_getElem? h2
    obtain ⟨g1, g2⟩ := h v hm h3.2 h3.1
    exact flatBlock_tidy g1 g2 site pre span st.paths i b errs hl hf he
  have val : ∀ (errs : Errors) (x : Errors → FieldStatus (EnumVal V) × Errors), (match validatePass e validate errs l with
      | (.ok errs, l1) => (.ok (x errs), l1)
      | (.err x, l1) => (.err x, l1)
      | (.panic, l1) => (.panic, l1) : Picked V × List Stream) = (.ok (value, errs'), l') → Fresh l' := by
    intro errs x h
    have := validatePass_fresh e validate errs hl
    cases hv : validatePass e validate errs l with
    | mk r l1 =>
      rw [hv] at h this
      cases r with
      | ok e1 =>
        simp only [Prod.mk.injEq] at h
        exact h.2 ▸ this
      | err e1 => cases h
      | panic => cases h
  unfold pick at hp
  split at hp
  · split at hp
    · cases hp
    · dsimp only at hp
      exact val _ (fun errs => (.some _, errs)) hp
  · cases hp; exact hl
  · unfold pickFlat at hp
    split at hp
    · next hx => exact flat _ false (fun k => !k.isEmpty && hasPaths st.paths k) hx hp
    · split at hp
      · next hx => exact flat _ true (fun k => k.isEmpty) hx hp
      · split at hp
        · cases hp; exact hl
        · exact val _ (fun errs => (.none, variantRequired span pre e.keyMsgs errs)) hp

theorem flatBlock_nil {e : EnumDef V} {v : Variant V} {site : Site V} {pre : Str} {span : Span} {paths : PathMap} {i : Nat}
    {empty : Bool} {errs : Errors} {l : List Stream} {value : FieldStatus (EnumVal V)} {errs' : Errors} {l' : List Stream}
    (h : flatBlock e site pre span paths v i empty errs l = (.ok (value, errs'), l')) (he : errs'.toList = []) :
    errs.toList = [] := by
  have check : ∀ {errs1}, (if (empty && !v.allowUnknown.getD false) && !v.acceptsAll then emptyCheck e v pre span errs l
      else .ok errs) = .ok errs1 → errs1.toList = [] → errs.toList = [] := by
    intro errs1 hx h1
    split at hx
    · unfold emptyCheck at hx
      split at hx
      · obtain ⟨_ | e⟩ := errs
        · rfl
        · cases hx
      · next hn =>
        obtain ⟨_ | e⟩ := errs
        · rfl
        · exact absurd rfl hn
    · cases hx; exact h1
  unfold flatBlock at h
  dsimp only at h
  split at h
  · next errs1 hx =>
    refine check hx ?_
    split at h
    · cases h
      split at he
      · exact he
      · exact disallowPaths_nil he
    · cases h
      split at he
      · simp [SynErr.toList] at he
      · have := disallowPaths_nil he
        simp [SynErr.toList] at this
    · cases h
  · cases h
  · cases h

theorem pick_nil {e : EnumDef V} {site : Site V} {pre : Str} {span : Span} {validate : Bool} {st : EnumSt V}
    {errs : Errors} {l : List Stream} {value : FieldStatus (EnumVal V)} {errs' : Errors} {l' : List Stream}
    (hp : pick e site pre span validate st errs l = (.ok (value, errs'), l')) (he : errs'.toList = []) :
    errs.toList = [] := by
  have val : ∀ (errs : Errors) (x : Errors → FieldStatus (EnumVal V) × Errors), (∀ e, (x e).2.toList = [] → e.toList = []) →
      (match validatePass e validate errs l with
      | (.ok errs, l1) => (.ok (x errs), l1)
      | (.err x, l1) => (.err x, l1)
      | (.panic, l1) => (.panic, l1) : Picked V × List Stream) = (.ok (value, errs'), l') → errs.toList = [] := by
    intro errs x hx h
    cases hv : validatePass e validate errs l with
    | mk r l1 =>
      rw [hv] at h
      cases r with
      | ok e1 =>
        simp only [Prod.mk.injEq, Res.ok.injEq] at h
        exact validatePass_nil _ _ _ _ hv (hx _ (by rw [h.1]; exact he))
      | err e1 => cases h
      | panic => cases h
  unfold pick at hp
  split at hp
  · split at hp
    · cases hp
    · dsimp only at hp
      have := val _ (fun errs => (.some _, errs)) (fun _ h => h) hp
      split at this
      · exact disallowPaths_nil this
      · exact this
  · cases hp; exact he
  · unfold pickFlat at hp
    split at hp
    · exact flatBlock_nil hp he
    · split at hp
      · exact flatBlock_nil hp he
      · split at hp
        · cases hp; exact he
        · refine val _ (fun errs => (.none, variantRequired span pre e.keyMsgs errs)) (fun e h => ?_) hp
          simp [variantRequired, Errors.push, SynErr.toList] at h

omit [Env] in
theorem enumAndThens_nil {fs : List (EnumVal V → Except SynErr (EnumVal V))} {x : Option (EnumVal V)} {errs : Errors}
    (h : (enumAndThens fs x errs).2.toList = []) : errs.toList = [] := by
  unfold enumAndThens at h
  induction fs generalizing x errs with
  | nil => exact h
  | cons f fs ih =>
    rw [List.foldl_cons] at h
    cases x with
    | none => exact ih h
    | some v =>
      dsimp only at h
      cases hf : f v with
      | ok v' => rw [hf] at h; exact ih h
      | error err =>
        rw [hf] at h
        have := ih h
        simp [SynErr.toList] at this

omit [Env] in
theorem skipAll_fresh {l : List Stream} (h : Fresh l) : Fresh (skipAll l) := by
  intro s hs
  obtain ⟨t, ht, rfl⟩ := List.mem_map.1 hs
  exact h t ht

theorem enumFlat_tidy {e : EnumDef V} (h : ∀ v ∈ e.variants, v.isSkipped = false → v.Tidy)
    (hf : ∀ v ∈ e.variants, v.isSkipped = false → v.isFlatten = true → v.shape = .named) (site : Site V) (mode : Mode)
    (pre : Str) (validate : Bool) : TidyL (enumFlat e site mode pre validate) := by
  intro l hl a ha
  have hflat : ∀ v ∈ e.variants, v.isSkipped = false → v.isFlatten = true → FieldsGood v.fields ∧ NamedTidy v.fields := by
    intro v hv hs hfl
    have hn := hf v hv hs hfl
    have ht := h v hv hs
    have := ht.shape
    rw [hn] at this
    exact ⟨ht.good hn, this⟩
  unfold enumFlat at ha ⊢
  dsimp only at ha ⊢
  have hloop : ∀ {r acc l1}, parseStruct (enumStep e site pre) (⟨⟨none, .none, []⟩, Errors.new⟩, l) = (r, (acc, l1)) →
      r = .ok () → acc.errs.toList = [] → Fresh l1 := by
    intro r acc l1 hp hr he
    rw [parseStruct_eq] at hp
    subst hr
    rw [forStreams_drained (keyStep_tidy fun key sp => enumStep_tidy h site pre key sp) hp he hl]
    exact drained_fresh hl
  have key : ∀ (st : EnumSt V) (errs : Errors) (l1 : List Stream), (errs.toList = [] → Fresh l1) →
      (match pick e site pre (mode.toFullSpan l) validate st errs l1 with
      | (.ok (value, errs), l2) =>
        (match (enumAndThens e.andThens value.intoOption errs).2.check with
          | .ok () =>
            match (enumAndThens e.andThens value.intoOption errs).1 with
            | some x => .ok x
            | none => .panic
          | .err x => .err x
          | .panic => .panic, skipAll l2)
      | (.err x, l2) => (.err x, l2)
      | (.panic, l2) => (.panic, l2) : Res (EnumVal V) × List Stream).1 = .ok a →
      Fresh (match pick e site pre (mode.toFullSpan l) validate st errs l1 with
      | (.ok (value, errs), l2) =>
        (match (enumAndThens e.andThens value.intoOption errs).2.check with
          | .ok () =>
            match (enumAndThens e.andThens value.intoOption errs).1 with
            | some x => .ok x
            | none => .panic
          | .err x => .err x
          | .panic => .panic, skipAll l2)
      | (.err x, l2) => (.err x, l2)
      | (.panic, l2) => (.panic, l2) : Res (EnumVal V) × List Stream).2 := by
    intro st errs l1 h1 ha
    cases hp : pick e site pre (mode.toFullSpan l) validate st errs l1 with
    | mk r l2 =>
      rw [hp] at ha
      cases r with
      | ok x =>
        obtain ⟨value, errs'⟩ := x
        dsimp only at ha ⊢
        have he : errs'.toList = [] := by
          split at ha
          · next hc => exact enumAndThens_nil (Errors.check_ok hc)
          · cases ha
          · cases ha
        exact skipAll_fresh (pick_tidy hflat site pre _ validate st errs (h1 (pick_nil hp he)) hp he)
      | err x => cases ha
      | panic => cases ha
  cases hfk : (e.anyFlat || !e.unknownOk) with
  | true =>
    simp only [hfk, if_true] at ha ⊢
    generalize parseStruct (enumStep e site pre) (⟨⟨none, .none, []⟩, Errors.new⟩, forkInputs l) = q at ha ⊢
    obtain ⟨r, acc, l1⟩ := q
    cases r with
    | ok u => exact key _ _ _ (fun _ => hl) ha
    | err x => exact key _ _ _ (fun _ => hl) ha
    | panic => cases ha
  | false =>
    simp only [hfk, Bool.false_eq_true, if_false] at ha ⊢
    generalize hps : parseStruct (enumStep e site pre) (⟨⟨none, .none, []⟩, Errors.new⟩, l) = q at ha ⊢
    obtain ⟨r, acc, l1⟩ := q
    cases r with
    | ok u => exact key _ _ _ (fun he => hloop hps rfl he) ha
    | err x => exact key _ _ _ (fun he => by simp [SynErr.toList] at he) ha
    | panic => cases ha

theorem EnumDef.dict_tidy {e : EnumDef V} (h : ∀ v ∈ e.variants, v.isSkipped = false → v.Tidy)
    (hf : ∀ v ∈ e.variants, v.isSkipped = false → v.isFlatten = true → v.shape = .named) : e.dict.Tidy := by
  have hi := fun m => enumFlat_tidy h hf .meta m [] (!e.flatNamed.acceptsAll)
  exact .mk' (fun m s hs a ha => delimited_tidyL (hi _) _ s hs a ha) hi

end

end Deluxe
