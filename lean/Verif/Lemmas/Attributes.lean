import Verif.Model.Attributes
import Verif.Lemmas.EnumOut
/-!
# The attribute derives: the object matters only to container fields, and nothing panics
-/
namespace Deluxe

variable {V : Type}

/-- The fields have no container. -/
def NoContainer (fields : List (Field V)) : Prop := ∀ f ∈ fields, f.isContainer = false

section
variable [Env]

omit [Env] in
theorem containerSet_none {d : Fields V} {f : Field V} (h : f.isContainer = false) (st : FieldStatus V) :
    containerSet d f st = st := by
  unfold containerSet
  split
  · simp [h]
  · rfl

/-- Two field data that differ at most in the object. -/
structure SameButObj (d d' : Fields V) : Prop where
  fields : d.fields = d'.fields
  target : d.target = d'.target
  transparent : d.transparent = d'.transparent
  allowUnknown : d.allowUnknown = d'.allowUnknown
  attrName : d.attrName = d'.attrName
  emptySpan : d.emptySpan = d'.emptySpan

omit [Env] in
theorem SameButObj.missingName {d d' : Fields V} (h : SameButObj d d') (pre : Str) (f : Field V) :
    missingName d pre f = missingName d' pre f := by
  simp only [Deluxe.missingName, h.attrName]

omit [Env] in
theorem SameButObj.missingPass {d d' : Fields V} (h : SameButObj d d') (pre : Str) (span : Span) :
    ∀ (fields : List (Field V)) (slots : Slots V) (errs : Errors), NoContainer fields →
      missingPass d pre span fields slots errs = missingPass d' pre span fields slots errs := by
  intro fields
  induction fields with
  | nil => intro slots errs _; simp [Deluxe.missingPass]
  | cons f fs ih =>
    intro slots errs hn
    cases slots with
    | nil => simp [Deluxe.missingPass]
    | cons st sts =>
      have hf := hn f (by simp)
      have hfs : NoContainer fs := fun g hg => hn g (by simp [hg])
      simp only [Deluxe.missingPass, containerSet_none hf]
      have : missingNamed d pre span f st errs = missingNamed d' pre span f st errs := by
        simp only [missingNamed, h.transparent, h.target, h.missingName]
      rw [this]
      split
      · rw [ih _ _ hfs]
      · rfl
      · rfl

omit [Env] in
theorem SameButObj.finish {d d' : Fields V} (h : SameButObj d d') (slots : Slots V) (errs : Errors) :
    finish d slots errs = finish d' slots errs := by
  simp only [Deluxe.finish, h.target]

theorem SameButObj.namedFlat {d d' : Fields V} (h : SameButObj d d') (hn : NoContainer d.fields)
    (allowed : List Str) (mode : Mode) (pre : Str) (validate : Bool) :
    namedFlat d allowed mode pre validate = namedFlat d' allowed mode pre validate := by
  funext l
  have hs : namedStep d allowed pre validate = namedStep d' allowed pre validate := by
    funext p span st
    simp only [namedStep, h.fields, h.allowUnknown]
  have hp : ∀ slots errs, postNamed d pre (mode.toFullSpan l) slots errs =
      postNamed d' pre (mode.toFullSpan l) slots errs := by
    intro slots errs
    simp only [postNamed, h.missingPass pre _ _ _ _ hn]
    simp only [h.fields, h.finish]
  simp only [Deluxe.namedFlat, hs, hp]
  simp only [Fields.init, h.fields]

theorem SameButObj.missingUnnamed {d d' : Fields V} (h : SameButObj d d') (mode : Mode) (l : List Stream) :
    ∀ (fields : List (Field V)) (slots : Slots V) (errs : Errors) (index cur extra : Nat),
      NoContainer fields →
      missingUnnamed d mode l fields slots errs index cur extra =
        missingUnnamed d' mode l fields slots errs index cur extra := by
  intro fields
  induction fields with
  | nil => intro slots errs _ _ _ _; simp [Deluxe.missingUnnamed]
  | cons f fs ih =>
    intro slots errs index cur extra hn
    cases slots with
    | nil => simp [Deluxe.missingUnnamed]
    | cons st sts =>
      have hf := hn f (by simp)
      have hfs : NoContainer fs := fun g hg => hn g (by simp [hg])
      simp only [Deluxe.missingUnnamed, containerSet_none hf, h.transparent, h.target, h.emptySpan,
        missingIndexName, h.attrName, ih _ _ _ _ _ hfs]

theorem SameButObj.unnamedFlat {d d' : Fields V} (h : SameButObj d d') (hn : NoContainer d.fields)
    (mode : Mode) (index : Nat) : unnamedFlat d mode index = unnamedFlat d' mode index := by
  funext l
  have hp : ∀ l slots index errs, postUnnamed d mode l slots index errs =
      postUnnamed d' mode l slots index errs := by
    intro l slots index errs
    simp only [postUnnamed, h.missingUnnamed mode l _ _ _ _ _ _ hn]
    simp only [h.fields, h.finish]
  have hs : unnamedStep d = unnamedStep d' := by
    funext i st
    simp only [unnamedStep, h.fields, tupleIncrement]
  simp only [Deluxe.unnamedFlat, hs, hp]
  simp only [Fields.init, h.fields]

omit [Env] in
theorem StructDef.sameButObj (d : StructDef V) (x y : Option V) (n : Option Str) :
    SameButObj (d.attrData ⟨x, n⟩) (d.attrData ⟨y, n⟩) := ⟨rfl, rfl, rfl, rfl, rfl, rfl⟩

omit [Env] in
theorem zipWith_noContainer {d : Fields V} : ∀ (fields : List (Field V)) (slots : Slots V),
    NoContainer fields → slots.length = fields.length → List.zipWith (containerSet d) fields slots = slots := by
  intro fields
  induction fields with
  | nil => intro slots _ h; simp at h; simp [h]
  | cons f fs ih =>
    intro slots hn h
    cases slots with
    | nil => simp at h
    | cons st sts =>
      rw [List.zipWith_cons_cons, containerSet_none (hn f (by simp)),
        ih sts (fun g hg => hn g (by simp [hg])) (by simpa using h)]

/-- A structure without container field does not look at the object. -/
theorem StructDef.attrBody_obj {d : StructDef V} (hn : NoContainer d.fields) (x y : Option V)
    (n : Option Str) : d.attrBody ⟨x, n⟩ = d.attrBody ⟨y, n⟩ := by
  funext mode
  have h := d.sameButObj x y n
  unfold StructDef.attrBody
  split
  · split
    · rename_i f k _
      have : d.attrTransparentPost ⟨x, n⟩ k = d.attrTransparentPost ⟨y, n⟩ k := by
        funext r
        cases r with
        | panic => rfl
        | err e => rfl
        | ok v =>
          have hl : (d.data.init.set k (.some v)).length = d.fields.length := by
            simp [Fields.init, StructDef.data]
          simp only [StructDef.attrTransparentPost, zipWith_noContainer _ _ hn hl]
      rw [this]
    · rfl
  · split
    · rw [h.namedFlat hn]
    · rw [h.unnamedFlat hn]
    · rfl

omit [Env] in
theorem Variant.sameButObj (v : Variant V) (x y : Option V) (n : Option Str) (sp : Span) :
    SameButObj (v.data ⟨x, n⟩ sp) (v.data ⟨y, n⟩ sp) := ⟨rfl, rfl, rfl, rfl, rfl, rfl⟩

theorem Variant.item_obj {v : Variant V} (hn : NoContainer v.fields) (x y : Option V) (n : Option Str) :
    v.item ⟨x, n⟩ = v.item ⟨y, n⟩ := by
  funext pre p span
  have hi : v.inline ⟨x, n⟩ = v.inline ⟨y, n⟩ := by
    funext pre span mode
    have h := v.sameButObj x y n span
    unfold Variant.inline
    split
    · rw [h.namedFlat hn]
    · rw [h.unnamedFlat hn]
    · rfl
  unfold Variant.item
  split
  · split
    · rename_i f k _
      have : v.transparentPost ⟨x, n⟩ span k = v.transparentPost ⟨y, n⟩ span k := by
        funext r
        cases r with
        | panic => rfl
        | err e => rfl
        | ok a =>
          have hl : ∀ x, ((v.data ⟨x, n⟩ span).init.set k (.some a)).length = v.fields.length := by
            intro x; simp [Fields.init, Variant.data]
          simp only [Variant.transparentPost, zipWith_noContainer _ _ hn (hl _)]
          rfl
      rw [this]
    · rfl
  · have hp : v.parse ⟨x, n⟩ = v.parse ⟨y, n⟩ := by
      funext pre span mode
      simp only [Variant.parse, hi]
    have hf : v.flag ⟨x, n⟩ = v.flag ⟨y, n⟩ := by
      funext pre span
      simp only [Variant.flag, hi]
    rw [hi, hp, hf]

/-- An enum without container fields does not look at the object. -/
theorem EnumDef.attrBody_obj {e : EnumDef V} (hn : ∀ v ∈ e.variants, NoContainer v.fields) (x y : Option V)
    (n : Option Str) : e.attrBody ⟨x, n⟩ = e.attrBody ⟨y, n⟩ := by
  have hstep : enumStep e ⟨x, n⟩ = enumStep e ⟨y, n⟩ := by
    funext pre p span st
    obtain ⟨acc, s⟩ := st
    simp only [enumStep]
    split
    · rename_i k v i hsel
      have hv : v ∈ e.variants := by
        obtain ⟨k', _, hk⟩ := Option.bind_eq_some_iff.1 hsel
        obtain ⟨z, hz, hz'⟩ := Option.map_eq_some_iff.1 hk
        have := List.mem_of_find?_eq_some hz
        rw [(Prod.mk.inj hz').2] at this
        exact List.mem_of_getElem? (List.mem_zipIdx_iff_getElem?.1 this)
      rw [Variant.item_obj (hn v hv) x y n]
    · rfl
  have hblock : ∀ v ∈ e.variants, ∀ pre span paths i empty errs l,
      flatBlock e ⟨x, n⟩ pre span paths v i empty errs l =
        flatBlock e ⟨y, n⟩ pre span paths v i empty errs l := by
    intro v hv pre span paths i empty errs l
    simp only [flatBlock, (v.sameButObj x y n span).namedFlat (hn v hv)]
  have hmem : ∀ z ∈ e.flatMatches, z.2.1 ∈ e.variants := by
    intro z hz
    exact List.mem_of_getElem? (mem_flatMatches hz).2.1
  have hpick : ∀ pre span validate paths errs l, pickFlat e ⟨x, n⟩ pre span validate paths errs l =
      pickFlat e ⟨y, n⟩ pre span validate paths errs l := by
    intro pre span validate paths errs l
    simp only [pickFlat]
    split
    · rename_i hz
      exact hblock _ (hmem _ (List.mem_of_find?_eq_some hz)) ..
    · split
      · rename_i hz
        exact hblock _ (hmem _ (List.mem_of_find?_eq_some hz)) ..
      · rfl
  funext mode l
  simp only [EnumDef.attrBody, enumFlat, hstep, pick, hpick]

/-! ## No panics -/

/-- What the attribute derives ensure of the structures they accept (compare `StructDef.Accepted`; a container
field gets its value from the object). -/
structure StructDef.AttrAccepted (d : StructDef V) : Prop where
  filled : ∀ f ∈ d.fields, f.isParsable = false →
    f.default.isSome = true ∨ d.default.isSome = true ∨ f.isContainer = true
  target : ∀ t, d.default = some t → t.length = d.fields.length
  transparent : d.isTransparent = true → d.fields.countP (·.isParsable) = 1
  tuple : d.shape = .unnamed → NoAppendRest d.fields

omit [Env] in
theorem StructDef.AttrAccepted.data {d : StructDef V} (h : d.AttrAccepted) (x : V) (n : Option Str) :
    Deluxe.Accepted (d.attrData ⟨some x, n⟩) := by
  refine ⟨fun f hf hp => ?_, h.target⟩
  rcases h.filled f hf hp with h | h | h
  · exact .inl h
  · exact .inr (.inl h)
  · exact .inr (.inr ⟨h, rfl⟩)

omit [Env] in
theorem StructDef.attrTransparentPost_ne_panic {d : StructDef V} (ha : d.AttrAccepted)
    (ht : d.isTransparent = true) (x : V) (n : Option Str) {f : Field V} {k : Nat}
    (hf : d.fields[k]? = some f) (hp : f.isParsable = true) {r : Res V} (hr : r ≠ .panic) :
    d.attrTransparentPost ⟨some x, n⟩ k r ≠ .panic := by
  cases r with
  | panic => exact absurd rfl hr
  | err e => simp [StructDef.attrTransparentPost]
  | ok v =>
    simp only [StructDef.attrTransparentPost]
    refine runAndThens_ne_panic _ ?_
    refine finish_fine d.data (sts := List.zipWith (containerSet (d.attrData ⟨some x, n⟩)) d.fields
      (d.data.init.set k (.some v))) (errs := Errors.new)
      (by simp [Fields.init, StructDef.data]) fun i g st hg hst => ?_
    have hg' : d.fields[i]? = some g := hg
    rw [List.getElem?_zipWith, hg'] at hst
    cases hst0 : (d.data.init.set k (.some v))[i]? with
    | none => simp [hst0] at hst
    | some st0 =>
      simp only [hst0, Option.some.injEq] at hst
      by_cases hik : i = k
      · subst hik
        have hlt := (List.getElem?_eq_some_iff.1 hst0).1
        rw [List.getElem?_set_self (by simpa using hlt)] at hst0
        rw [hf] at hg'
        cases hg'
        rw [containerSet_none (by simpa using plain_not_container hp)] at hst
        simp only [Option.some.injEq] at hst0
        exact .inl ⟨v, by rw [← hst, ← hst0]⟩
      · rw [List.getElem?_set_ne (Ne.symm hik)] at hst0
        have hno : g.isParsable = false := by
          cases hq : g.isParsable with
          | false => rfl
          | true => exact absurd (countP_one_unique (ha.transparent ht) hg' hq hf hp) hik
        have h0 : st0 = .none := by
          simp only [Fields.init, List.getElem?_map] at hst0
          rw [show d.data.fields[i]? = some g from hg'] at hst0
          simpa using hst0.symm
        cases hc : g.isContainer with
        | true =>
          refine .inl ⟨x, ?_⟩
          rw [← hst]
          simp [containerSet, StructDef.attrData, hc]
        | false =>
          refine .inr (.inr ⟨?_, ?_⟩)
          · rw [← hst, containerSet_none hc, h0]
          · rcases ha.filled g (List.mem_of_getElem? hg') hno with h | h | h
            · exact .inl h
            · exact .inr h
            · rw [hc] at h; cases h

theorem StructDef.attrBody_good {d : StructDef V} (ha : d.AttrAccepted) (hg : d.FieldsFine) (x : V)
    (n : Option Str) (mode : Mode) : Good (d.attrBody ⟨some x, n⟩ mode) := by
  unfold StructDef.attrBody
  split
  · rename_i ht
    split
    · rename_i f k hfind
      obtain ⟨hp, hmem⟩ := And.intro (List.find?_some hfind) (List.mem_of_find?_eq_some hfind)
      have hf : d.fields[k]? = some f := by
        have := List.mem_zipIdx_iff_getElem?.1 hmem
        simpa using this
      have hp' : f.isParsable = true := by simp at hp; exact hp.1
      exact mapRes_good ((hg.item f (List.mem_of_getElem? hf)).inline mode) fun r hr =>
        d.attrTransparentPost_ne_panic ha ht x n hf hp' hr
    · rename_i hfind
      exfalso
      rw [List.find?_eq_none] at hfind
      simp only [StructDef.isTransparent, Bool.and_eq_true, beq_iff_eq] at ht
      have hne : d.fields.filter (fun f => f.isParsable && !f.isFlat) ≠ [] := by
        intro h
        simp [h] at ht
      obtain ⟨f, hf⟩ := List.exists_mem_of_ne_nil _ hne
      rw [List.mem_filter] at hf
      obtain ⟨k, hk⟩ := List.mem_iff_getElem?.1 hf.1
      exact hfind (f, k) (List.mem_zipIdx_iff_getElem?.2 hk) hf.2
  · rename_i ht
    have ht' : (d.attrData ⟨some x, n⟩).transparent = false := by
      simpa [StructDef.attrData, StructDef.data] using ht
    split
    · rename_i hs
      exact mapRes_good (namedFlat_good _ (ha.data x n) ht'
        ⟨fun f hf _ n sp => (hg.item f hf).named n sp, fun f hf n sp => (hg.item f hf).missing n sp,
          hg.flat hs⟩ _ mode [] _) fun _ hr => runAndThens_ne_panic _ hr
    · rename_i hs
      exact mapRes_good (unnamedFlat_good _ (ha.data x n) ht'
        ⟨ha.tuple hs, fun f hf _ => (hg.item f hf).parse _, hg.flatUnnamed hs,
          fun f hf n sp => (hg.item f hf).missing n sp⟩ mode 0) fun _ hr => runAndThens_ne_panic _ hr
    · intro l
      have h1 := eofAll_ne_panic l
      have h2 := eofAll_adv l
      cases he : eofAll l with
      | mk r l' =>
        rw [he] at h1 h2
        cases r with
        | ok a => exact ⟨by simpa only [he] using runAndThens_ne_panic _ (by simp), by simp only [he]; exact h2⟩
        | err e => exact ⟨by simp only [he]; simp, by simp only [he]; exact h2⟩
        | panic => exact absurd rfl h1

theorem EnumDef.attrBody_good {e : EnumDef V} (x : V) (n : Option Str) (ha : e.Accepted ⟨some x, n⟩)
    (hg : e.FieldsFine) (hn : e.Infallible) (mode : Mode) : Good (e.attrBody ⟨some x, n⟩ mode) :=
  enumFlat_good ha hg hn mode [] _

end

end Deluxe
