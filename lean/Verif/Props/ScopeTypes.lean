import Verif.Props.ScopeEnum

/-!
# C97: types in the generated code
-/

namespace Deluxe
open Code (skip use set bind block untyped)

/-! ## What is typed -/

theorem codes_typed (l : List Code) : (codes l).typed = true ↔ ∀ c ∈ l, c.typed = true := by
  induction l with
  | nil => simp [codes, Code.typed]
  | cons c cs ih => simp [codes, Code.typed, ih]

theorem codes_cons_typed (c : Code) (cs : List Code) : (codes (c :: cs)).typed = (c.typed && (codes cs).typed) := rfl

theorem codes_nil_typed : (codes []).typed = true := rfl

theorem uses_typed (xs : List Var) : (uses xs).typed = true := by
  unfold uses
  rw [codes_typed]
  intro c hc
  obtain ⟨x, -, rfl⟩ := List.mem_map.1 hc
  rfl

theorem perField_typed (fields : List FieldDecl) (g : Nat → FieldDecl → Code) :
    (perField fields g).typed = true ↔ ∀ i f, fields[i]? = some f → (g i f).typed = true := by
  unfold perField
  rw [codes_typed]
  simp only [List.mem_map, Prod.exists, List.mk_mem_zipIdx_iff_getElem?]
  constructor
  · intro h i f hf
    exact h _ ⟨f, i, hf, rfl⟩
  · rintro h c ⟨f, i, hf, rfl⟩
    exact h i f hf

theorem countCode_typed (f : FieldDecl) : (countCode f).typed = true ↔ f.transforms = [] := by
  unfold countCode
  split
  · rename_i h
    simpa [Code.typed] using h
  · rename_i h
    simpa [Code.typed] using h

theorem callCode_typed (f : FieldDecl) {a : Code} (ha : a.typed = true) : (callCode f a).typed = true := by
  have hu := uses_typed
  unfold callCode
  split
  · exact hu _
  · split
    · simp [codes, Code.typed, ha]
    · split
      · split
        · simp only [codes, Code.typed, Bool.and_true]
          split <;> rfl
        · exact hu _
      · split <;> split <;> simp [codes, Code.typed, hu]

theorem nameFormatCode_typed (attr : Bool) : (nameFormatCode attr).typed = true := by
  have hu := uses_typed
  unfold nameFormatCode
  split <;> simp [codes, Code.typed, hu]

theorem fieldSetCode_typed (i : Nat) (f : FieldDecl) : (fieldSetCode i f).typed = true := by
  have hu := uses_typed
  unfold fieldSetCode
  rw [codes_typed]
  intro c hc
  simp only [List.mem_cons, List.not_mem_nil, or_false] at hc
  rcases hc with rfl | rfl
  · split <;> rfl
  · rw [codes_typed]
    intro c hc
    obtain ⟨t, -, rfl⟩ := List.mem_map.1 hc
    cases t <;> simp [transformCode, codes, Code.typed, hu]

theorem retCode_typed (var : Bool) (n : Nat) : (retCode var n).typed = true := by
  unfold retCode
  split
  · rw [codes_typed]
    intro c hc
    simp only [List.mem_cons, List.not_mem_nil, or_false] at hc
    rcases hc with rfl | rfl
    · rw [codes_typed]
      intro c hc
      obtain ⟨t, -, rfl⟩ := List.mem_map.1 hc
      simp [codes, Code.typed]
    · rfl
  · exact uses_typed _

/-! ## Where types cannot be found -/

/-- No flattened field that is read has `map` or `and_then`. -/
def FlatPlain (fields : List FieldDecl) : Prop :=
  ∀ f ∈ fields, f.isParsable = true → f.isFlatten = true → f.transforms = []

/-- The field must be there, and an error is reported if it is not. -/
def FieldDecl.Needed (g : FieldDecl) : Prop := g.isContainer = false ∧ g.default = none ∧ g.isFlat = false

/-- No field that must be there comes after a flattened one with `map` or `and_then`. -/
def NoneAfter (fields : List FieldDecl) : Prop :=
  fields.Pairwise fun f g => ¬ (f.isContainer = false ∧ f.isFlatten = true ∧ f.transforms ≠ [] ∧ g.Needed)

theorem fieldNamesCode_typed (fields : List FieldDecl) : (fieldNamesCode fields).typed = true ↔ FlatPlain fields := by
  unfold fieldNamesCode FlatPlain
  split
  · simp only [codes, Code.typed, Bool.true_and, Bool.and_true]
    rw [codes_typed]
    simp only [List.mem_map, forall_exists_index, and_imp, forall_apply_eq_imp_iff₂]
    refine forall_congr' fun f => forall_congr' fun _ => ?_
    cases hp : f.isParsable with
    | false => simp [Code.typed]
    | true =>
      cases hf : f.isFlatten with
      | false => simp [Code.typed]
      | true => simp [Code.typed, countCode_typed]
  · rename_i h
    refine ⟨fun _ f hf _ hfl => ?_, fun _ => rfl⟩
    exact absurd (List.any_eq_true.2 ⟨f, hf, hfl⟩) h

theorem fieldErrorsCode_named (d : CodeData) (ha : d.allowedE.typed = true) :
    ∀ (l : List FieldDecl) (extra : Code) (k : Nat), (fieldErrorsCode true d extra k l).typed = true
  | [], _, _ => rfl
  | f :: fs, extra, k => by
    have hu := uses_typed
    have hn := nameFormatCode_typed
    unfold fieldErrorsCode
    simp only [Code.typed, Bool.and_eq_true]
    refine ⟨?_, fieldErrorsCode_named d ha fs _ _⟩
    unfold fieldErrorCode
    split
    · rfl
    · split
      · simp_all
      · split
        · simp [codes, Code.typed, hu, hn]
        · rfl

theorem fieldErrorsCode_silent (d : CodeData) (h : d.transparent = true ∨ d.var = true) (named : Bool) :
    ∀ (l : List FieldDecl) (extra : Code) (k : Nat), (fieldErrorsCode named d extra k l).typed = true
  | [], _, _ => rfl
  | f :: fs, extra, k => by
    unfold fieldErrorsCode
    simp only [Code.typed, Bool.and_eq_true]
    refine ⟨?_, fieldErrorsCode_silent d h named fs _ _⟩
    unfold fieldErrorCode
    rw [if_pos (by rcases h with h | h <;> simp [h])]
    rfl

/-- The code for missing fields of a tuple. -/
theorem fieldErrorsCode_unnamed (d : CodeData) (ha : d.allowedE.typed = true) (ht : d.transparent = false)
    (hv : d.var = false) : ∀ (l : List FieldDecl) (extra : Code) (k : Nat),
      (∀ f ∈ l, f.append = none ∧ f.rest = none) →
      (∀ f ∈ l, f.isParsable = false → f.default.isSome = true ∨ f.isContainer = true) → FlatPlain l →
    ((fieldErrorsCode false d extra k l).typed = true ↔ (extra.typed = true ∨ ∀ g ∈ l, ¬ g.Needed) ∧ NoneAfter l)
  | [], extra, k, _, _, _ => by simp [fieldErrorsCode, Code.typed, NoneAfter]
  | f :: fs, extra, k, hplain, hpar, hfp => by
    have hu := uses_typed
    have hn := nameFormatCode_typed
    have ih := fun e => fieldErrorsCode_unnamed d ha ht hv fs e (k + 1) (fun g hg => hplain g (List.mem_cons_of_mem _ hg))
      (fun g hg => hpar g (List.mem_cons_of_mem _ hg)) (fun g hg => hfp g (List.mem_cons_of_mem _ hg))
    have hflat : f.isFlat = f.isFlatten := by
      have := hplain f (List.mem_cons_self ..)
      simp [FieldDecl.isFlat, FieldDecl.isAppend, FieldDecl.isRest, this.1, this.2]
    have hhead : (fieldErrorCode false d extra k f).typed = true ↔ (f.Needed → extra.typed = true) := by
      unfold fieldErrorCode FieldDecl.Needed
      by_cases h0 : (f.isContainer || d.transparent || f.default.isSome || d.var) = true
      · rw [if_pos h0]
        simp only [ht, hv, Bool.or_false, Bool.or_eq_true] at h0
        refine ⟨fun _ h => ?_, fun _ => rfl⟩
        rcases h0 with h0 | h0
        · simp [h.1] at h0
        · simp [h.2.1] at h0
      · rw [if_neg h0]
        simp only [ht, hv, Bool.or_false, Bool.or_eq_true, not_or, Bool.not_eq_true] at h0
        have hd : f.default = none := by simpa using h0.2
        rw [if_pos (by rfl)]
        cases hfl : f.isFlat with
        | true =>
          have hp : f.isParsable = true := by
            cases hx : f.isParsable with
            | true => rfl
            | false =>
              rcases hpar f (List.mem_cons_self ..) hx with h | h
              · simp [hd] at h
              · simp [h0.1] at h
          have htr := hfp f (List.mem_cons_self ..) hp (hflat ▸ hfl)
          have hc := (countCode_typed f).2 htr
          have hcall := callCode_typed f ha
          cases hvv : d.variant <;> cases f.with_ <;> simp [codes, Code.typed, hc, hcall]
        | false =>
          simp [codes, Code.typed, hu, hn, h0.1, hd]
    have hpw : NoneAfter (f :: fs) ↔
        (∀ g ∈ fs, ¬ (f.isContainer = false ∧ f.isFlatten = true ∧ f.transforms ≠ [] ∧ g.Needed)) ∧ NoneAfter fs := by
      unfold NoneAfter
      rw [List.pairwise_cons]
    have hif : (if (!false && !(f.isContainer || d.transparent) && f.isFlatten) = true then Code.seq extra (countCode f)
        else extra).typed = true ↔
        extra.typed = true ∧ ¬ (f.isContainer = false ∧ f.isFlatten = true ∧ f.transforms ≠ []) := by
      rw [ht]
      cases hc : f.isContainer <;> cases hfl : f.isFlatten <;> simp [Code.typed, countCode_typed]
    unfold fieldErrorsCode
    show (_ && _) = true ↔ _
    rw [Bool.and_eq_true, hhead, ih, hif, hpw]
    simp only [List.mem_cons, forall_eq_or_imp]
    constructor
    · rintro ⟨h1, h2, h3⟩
      refine ⟨?_, ?_, h3⟩
      · by_cases he : extra.typed = true
        · exact .inl he
        · exact .inr ⟨fun h => he (h1 h), h2.resolve_left fun h => he h.1⟩
      · rintro g hg ⟨a, b, c, e⟩
        rcases h2 with h2 | h2
        · exact h2.2 ⟨a, b, c⟩
        · exact h2 g hg e
    · rintro ⟨h1, h2, h3⟩
      refine ⟨fun h => h1.resolve_right fun h' => h'.1 h, ?_, h3⟩
      by_cases hN : ∀ g ∈ fs, ¬ g.Needed
      · exact .inr hN
      · refine .inl ⟨h1.resolve_right fun h => hN h.2, fun ⟨a, b, c⟩ => hN fun g hg e => h2 g hg ⟨a, b, c, e⟩⟩

theorem preCode_typed (shape : Shape) (fields : List FieldDecl) (t : Bool) : (preCode shape fields t).typed = true := by
  have : (perField fields fun i _ => bind (.field i) true).typed = true := (perField_typed _ _).2 fun _ _ _ => rfl
  unfold preCode
  cases shape <;> cases t <;> simp [codes, Code.typed, this]

theorem postCode_typed (shape : Shape) (fields : List FieldDecl) (d : CodeData) (ha : d.allowedE.typed = true) :
    (postCode shape fields d).typed = true ↔
      (shape = .unnamed → (fieldErrorsCode false d skip 0 fields).typed = true) := by
  have h1 : (perField fields (flatFieldCode d)).typed = true := (perField_typed _ _).2 fun i f _ => by
    have := callCode_typed f ha
    unfold flatFieldCode
    split <;> simp [codes, Code.typed, this]
  have h2 : (perField fields (containerCode d.attr)).typed = true := (perField_typed _ _).2 fun i f _ => by
    unfold containerCode
    split <;> rfl
  have h3 : (perField fields fieldSetCode).typed = true := (perField_typed _ _).2 fun i f _ => fieldSetCode_typed i f
  have h4 : (perField fields fun i _ => unwrapCode d.var i).typed = true := (perField_typed _ _).2 fun i f _ => by
    unfold unwrapCode
    split <;> rfl
  have h5 := retCode_typed d.var fields.length
  have h6 := fieldErrorsCode_named d ha fields skip 0
  have h7 : (if d.transparent = true then skip else use .errors : Code).typed = true := by split <;> rfl
  unfold postCode
  cases shape <;> simp [codes, Code.typed, h1, h2, h3, h4, h5, h6, h7]

theorem thensCode_typed (ts : List (List Tok)) (post : Code) : (thensCode ts post).typed = post.typed := by
  unfold thensCode
  split
  · rfl
  · have hu := uses_typed
    have : (codes (ts.map fun _ => codes [use .ret, block [.v] (codes [bind .f false, uses [.errors, .f, .v]]),
        bind .ret false])).typed = true := by
      rw [codes_typed]
      intro c hc
      obtain ⟨_, -, rfl⟩ := List.mem_map.1 hc
      simp [codes, Code.typed, hu]
    simp only [codes_cons_typed, codes_nil_typed, Code.typed, this, hu, Bool.and_true]

/-- What is known about the fields; `var` tells that there is a default for all of them. -/
structure FieldsTyped (shape : Shape) (var : Bool) (fields : List FieldDecl) : Prop where
  plain : shape = .unnamed → ∀ f ∈ fields, f.append = none ∧ f.rest = none
  filled : var = false → ∀ f ∈ fields, f.isParsable = false → f.default.isSome = true ∨ f.isContainer = true

theorem itemCode_typed {shape : Shape} {fields : List FieldDecl} {var : Bool} (hf : FieldsTyped shape var fields) {pre post : Code}
    {d : CodeData} (ha : d.allowedE.typed = true) (hpre : pre.typed = true) :
    ((itemCode shape fields pre post d).inline.typed = true ↔
      (shape = .unnamed → FlatPlain fields) ∧ post.typed = true) := by
  have hu := uses_typed
  cases shape with
  | unit =>
    cases hd : d.attr <;> simp [itemCode, codes, Code.typed, hpre, hd, hu]
  | named =>
    have h1 : (perField fields fun i f =>
        if f.isFlat || !f.isParsable then skip
        else block [] (codes [set (.field i), uses [.input, .span, .errors],
          block [.input, .p, .span] (callCode f d.allowedE)])).typed = true := (perField_typed _ _).2 fun i f _ => by
      have := callCode_typed f ha
      split <;> simp [codes, Code.typed, this, hu]
    have h2 : (if d.allowUnknown = true then skip
        else codes [use .validate, block [] (codes [uses [.p, .span], d.allowedE, use .errors])] : Code).typed = true := by
      split <;> simp [codes, Code.typed, hu, ha]
    simp only [itemCode, codes_cons_typed, codes_nil_typed, Code.typed, hpre, hu, h1, h2, reduceCtorEq, false_implies,
      Bool.and_true, Bool.true_and, true_and]
  | unnamed =>
    have hflat : ∀ f ∈ fields, f.isFlat = f.isFlatten := by
      intro f hm
      have := hf.plain rfl f hm
      simp [FieldDecl.isFlat, FieldDecl.isAppend, FieldDecl.isRest, this.1, this.2]
    have h1 : (perField fields fun i f =>
        if f.isParsable && !f.isAppend && !f.isRest then
          block [] (codes [set (.field i), uses [.input, .errors],
            block [.input, .mode] (callCode f d.allowedE),
            if !fields.any (fun f => f.isParsable && f.isFlat) then skip
            else if f.isFlat then codes [countCode f, block [.count] (codes [use .count, set .index])]
            else set .index])
        else skip).typed = true ↔ FlatPlain fields := by
      rw [perField_typed]
      have hone : ∀ i f, f ∈ fields → ((if f.isParsable && !f.isAppend && !f.isRest then
          block [] (codes [set (.field i), uses [.input, .errors],
            block [.input, .mode] (callCode f d.allowedE),
            if !fields.any (fun f => f.isParsable && f.isFlat) then skip
            else if f.isFlat then codes [countCode f, block [.count] (codes [use .count, set .index])]
            else set .index])
          else skip : Code).typed = true ↔ (f.isParsable = true → f.isFlatten = true → f.transforms = [])) := by
        intro i f hm
        have hp := hf.plain rfl f hm
        have hcall := callCode_typed f ha
        have h1 : f.isAppend = false := by simp [FieldDecl.isAppend, hp.1]
        have h2 : f.isRest = false := by simp [FieldDecl.isRest, hp.2]
        rw [hflat f hm, h1, h2]
        cases hpar : f.isParsable with
        | false => simp [Code.typed]
        | true =>
          cases hfl : f.isFlatten with
          | false =>
            simp only [codes, Code.typed, hu, hcall, Bool.not_false, Bool.and_true, Bool.true_and, if_true,
              Bool.false_eq_true, if_false]
            split <;> simp [Code.typed]
          | true =>
            have hany : fields.any (fun f => f.isParsable && f.isFlat) = true :=
              List.any_eq_true.2 ⟨f, hm, by simp [hpar, hflat f hm, hfl]⟩
            simp [codes, Code.typed, hu, hcall, hany, countCode_typed]
      constructor
      · intro h f hm hp hfl
        obtain ⟨i, hi⟩ := List.getElem?_of_mem hm
        exact (hone i f hm).1 (h i f hi) hp hfl
      · intro h i f hi
        have hm := List.mem_of_getElem? hi
        exact (hone i f hm).2 (h f hm)
    have h2 : (if (fields.any fun f => f.isParsable) = true then
          codes [use .errors, use .inputs,
            block [.input, .inputs, .i] (codes [use .i,
              perField fields fun i f =>
                if f.isParsable && !f.isAppend && !f.isRest then
                  block [] (codes [set (.field i), uses [.input, .errors],
                    block [.input, .mode] (callCode f d.allowedE),
                    if !fields.any (fun f => f.isParsable && f.isFlat) then skip
                    else if f.isFlat then codes [countCode f, block [.count] (codes [use .count, set .index])]
                    else set .index])
                else skip])]
        else codes [use .inputs, block [.input] (use .input)] : Code).typed = true ↔ FlatPlain fields := by
      split
      · rw [← h1]
        simp only [codes, Code.typed, Bool.true_and, Bool.and_true]
      · rename_i h
        refine ⟨fun _ f hm hp => ?_, fun _ => rfl⟩
        exact absurd (List.any_eq_true.2 ⟨f, hm, hp⟩) h
    simp only [itemCode]
    rw [codes_typed]
    simp only [List.mem_cons, List.not_mem_nil, or_false, forall_eq_or_imp, forall_eq, hpre, true_and, h2, forall_const]

theorem fillContainer_keeps (f : FieldDecl) : (fillContainer f).isFlatten = f.isFlatten ∧
    (f.isContainer = false → (fillContainer f).default = f.default) ∧
    (f.default.isSome = true → (fillContainer f).default.isSome = true) := by
  unfold fillContainer
  split
  · rename_i c h
    split
    · rename_i hv
      refine ⟨rfl, fun hc => ?_, fun _ => rfl⟩
      simp only [Bool.and_eq_true] at hv
      simp [FieldDecl.isContainer, h, hv.1] at hc
    · exact ⟨rfl, fun _ => rfl, fun h => h⟩
  · exact ⟨rfl, fun _ => rfl, fun h => h⟩

theorem flatPlain_fill (fields : List FieldDecl) : FlatPlain (fields.map fillContainer) ↔ FlatPlain fields := by
  unfold FlatPlain
  simp only [List.mem_map, forall_exists_index, and_imp, forall_apply_eq_imp_iff₂, (fillContainer_same _).2.2.2.2.1,
    (fillContainer_same _).2.2.2.2.2.1, (fillContainer_keeps _).1]

theorem noneAfter_fill (fields : List FieldDecl) : NoneAfter (fields.map fillContainer) ↔ NoneAfter fields := by
  unfold NoneAfter
  rw [List.pairwise_map]
  have : ∀ f g : FieldDecl, (¬ ((fillContainer f).isContainer = false ∧ (fillContainer f).isFlatten = true ∧
      (fillContainer f).transforms ≠ [] ∧ (fillContainer g).Needed)) ↔
      ¬ (f.isContainer = false ∧ f.isFlatten = true ∧ f.transforms ≠ [] ∧ g.Needed) := by
    intro f g
    have hg : (fillContainer g).Needed ↔ g.Needed := by
      unfold FieldDecl.Needed
      rw [(fillContainer_same g).2.2.2.2.2.2, (fillContainer_same g).2.2.2.1]
      refine and_congr_right fun h => ?_
      rw [(fillContainer_keeps g).2.1 h]
    rw [hg, (fillContainer_same f).2.2.2.2.2.1, (fillContainer_keeps f).1, (fillContainer_same f).2.2.2.2.2.2]
  simp only [this]

theorem fieldsTyped_fill {shape : Shape} {var : Bool} {fields : List FieldDecl} (h : FieldsTyped shape var fields) :
    FieldsTyped shape var (fields.map fillContainer) where
  plain hs f hf := by
    obtain ⟨g, hg, rfl⟩ := List.mem_map.1 hf
    rw [(fillContainer_same g).2.1, (fillContainer_same g).2.2.1]
    exact h.plain hs g hg
  filled hd f hf hp := by
    obtain ⟨g, hg, rfl⟩ := List.mem_map.1 hf
    rw [(fillContainer_same g).2.2.2.2.1] at hp
    rw [(fillContainer_same g).2.2.2.2.2.2]
    exact (h.filled hd g hg hp).imp (fillContainer_keeps g).2.2 id

/-- The code for the fields, if it is not transparent. -/
theorem post_typed {shape : Shape} {fields : List FieldDecl} {d : CodeData} (hf : FieldsTyped shape d.var fields)
    (hfp : FlatPlain fields) (ha : d.allowedE.typed = true) :
    (postCode shape fields d).typed = true ↔
      (shape = .unnamed → d.transparent = false → d.var = false → NoneAfter fields) := by
  rw [postCode_typed _ _ _ ha]
  refine forall_congr' fun hs => ?_
  by_cases h : d.transparent = true ∨ d.var = true
  · simp only [fieldErrorsCode_silent d h, true_iff]
    intro h1 h2
    rcases h with h | h
    · simp [h] at h1
    · simp [h] at h2
  · simp only [not_or, Bool.not_eq_true] at h
    rw [fieldErrorsCode_unnamed d ha h.1 h.2 fields skip 0 (hf.plain hs) (hf.filled h.2) hfp]
    simp [h.1, h.2, Code.typed]

/-- The types in the code of a structure that is not transparent can be found. -/
theorem StructDecl.inline_typed {d : StructDecl} (ht : d.isTransparent = false) {fields : List FieldDecl}
    (hf : FieldsTyped d.shape d.default.isSome fields) {attr : Bool} {inlineE allowedE : Code} (ha : allowedE.typed = true) :
    (d.code fields attr inlineE allowedE).1.inline.typed = true ↔
      (d.shape = .unnamed → FlatPlain fields ∧ (d.default = none → NoneAfter fields)) := by
  have hcode : (d.code fields attr inlineE allowedE).1.inline =
      codes [if d.default.isSome then bind .target true else skip,
        (itemCode d.shape fields (preCode d.shape fields false)
          (thensCode d.andThens (postCode d.shape fields (structData d attr inlineE allowedE)))
          (structData d attr inlineE allowedE)).inline] := by
    simp only [StructDecl.code, ht, Bool.false_eq_true, if_false, structData]
  have h1 : (if d.default.isSome then bind .target true else skip : Code).typed = true := by split <;> rfl
  have h2 := itemCode_typed hf (pre := preCode d.shape fields false)
    (post := thensCode d.andThens (postCode d.shape fields (structData d attr inlineE allowedE)))
    (d := structData d attr inlineE allowedE) ha (preCode_typed _ _ _)
  rw [hcode, codes_cons_typed, codes_cons_typed, codes_nil_typed, h1, Bool.true_and, Bool.and_true, h2, thensCode_typed]
  by_cases hs : d.shape = .unnamed
  · simp only [hs, forall_const]
    refine and_congr_right fun hfp => ?_
    rw [← hs, post_typed (d := structData d attr inlineE allowedE) hf hfp ha]
    simp [structData, ht, hs]
  · rw [postCode_typed _ _ (structData d attr inlineE allowedE) ha]
    simp [hs]

theorem transparentCode_typed {d : StructDecl} (ht : d.isTransparent = true) (fields : List FieldDecl) (attr : Bool)
    (inlineE : Code) {allowedE : Code} (ha : allowedE.typed = true) (xs : List Var) :
    (transparentCode d fields attr inlineE allowedE xs).typed = true := by
  have h1 := preCode_typed d.shape fields true
  have h2 : (if d.default.isSome then bind .target true else skip : Code).typed = true := by split <;> rfl
  have h3 : (if d.shape = .unnamed then bind .index false else skip : Code).typed = true := by split <;> rfl
  have h4 : (postCode d.shape fields (structData d attr inlineE allowedE)).typed = true := by
    rw [postCode_typed _ _ (structData d attr inlineE allowedE) ha]
    exact fun _ => fieldErrorsCode_silent _ (.inl ht) _ _ _ _
  simp only [transparentCode, codes_cons_typed, codes_nil_typed, Code.typed, h1, h2, h3, thensCode_typed, h4, uses_typed,
    Bool.and_true]

theorem attrFns_typed (as : List (List Tok)) (c : Code) : (∀ g ∈ attrFns as c, g.Typed) ↔ c.typed = true := by
  unfold attrFns
  simp only [List.mem_cons, List.not_mem_nil, or_false, forall_eq_or_imp, forall_eq, FnCode.Typed]
  have : (codes (as.map fun _ => use .path)).typed = true := by
    rw [codes_typed]
    intro c hc
    obtain ⟨_, -, rfl⟩ := List.mem_map.1 hc
    rfl
  simp [this, codes_cons_typed, codes_nil_typed, Code.typed]

section
variable [Env]

theorem fieldsTyped_of {lib : SynLib} {d : StructIn} {r : StructDecl} (h : d.read lib = .ok r)
    (hw : ShapeIs d.shape d.fields) : FieldsTyped r.shape r.default.isSome r.fields := by
  obtain ⟨h1, -, h3, -⟩ := struct_facts h hw.fits
  refine ⟨h3, fun hd f hf hp => ?_⟩
  rcases h1 f hf hp with h | h | h
  · exact .inl h
  · simp [hd] at h
  · exact .inr h

/-- C97 for structures. -/
theorem c97_struct {lib : SynLib} {d : StructIn} {r : StructDecl} (h : d.read lib = .ok r) (hw : ShapeIs d.shape d.fields)
    (which : Derive) :
    (∀ g ∈ (Decl.struct r).fns which, g.Typed) ↔ (r.isTransparent = true ∨
      FlatPlain r.fields ∧ (r.shape = .unnamed → r.default = none → NoneAfter r.fields)) := by
  have hf := fieldsFine_of h hw
  have hft := fieldsTyped_of h hw
  have hsil : ∀ ht : r.isTransparent = true, FlatPlain r.fields := by
    intro ht f hm hp hfl
    have := (hf.one ht).1 f hm hp
    simp [FieldDecl.isFlat, hfl] at this
  have hunit : r.shape = .unit → FlatPlain r.fields := by
    intro hs f hm
    rw [hf.unit hs] at hm
    exact absurd hm List.not_mem_nil
  have hcond : r.isTransparent = false → ((r.isTransparent = true ∨
      FlatPlain r.fields ∧ (r.shape = .unnamed → r.default = none → NoneAfter r.fields)) ↔
      (r.shape = .named → FlatPlain r.fields) ∧
      (r.shape = .unnamed → FlatPlain r.fields ∧ (r.default = none → NoneAfter r.fields))) := by
    intro ht
    cases hs : r.shape with
    | unit => simp [ht, hunit hs]
    | named => simp [ht]
    | unnamed => simp [ht]
  cases which with
  | metaItem =>
    change (∀ g ∈ r.metaFns, g.Typed) ↔ _
    rw [StructDecl.metaFns_eq]
    cases ht : r.isTransparent with
    | true =>
      simp only [true_or, iff_true]
      intro g hg
      rw [StructDecl.code_transparent ht] at hg
      unfold structMetaFns at hg
      simp only [ht, Bool.true_or, if_true, List.append_nil, List.mem_append] at hg
      have htc := fun e xs => transparentCode_typed ht (r.fields.map fillContainer) false e (allowedE := skip) rfl xs
      rcases hg with ((hg | hg) | hg) | hg
      · simp only [List.mem_cons, List.not_mem_nil, or_false] at hg
        rcases hg with rfl | rfl <;> exact htc _ _
      · simp only [Option.toList, List.map_cons, List.map_nil, List.mem_cons, List.not_mem_nil, or_false] at hg
        subst hg
        exact htc _ _
      · split at hg
        · simp only [List.mem_cons, List.not_mem_nil, or_false] at hg
          subst hg
          rfl
        · exact absurd hg List.not_mem_nil
      · rcases StructDecl.code_extra ht _ _ _ _ hg with rfl | ⟨ps, rfl⟩
        · rfl
        · exact htc _ _
    | false =>
      have hc := hcond ht
      rw [ht] at hc
      rw [hc]
      have hin := StructDecl.inline_typed ht (fieldsTyped_fill hft) (attr := false) (inlineE := metaInline r .input)
        (allowedE := skip) rfl
      rw [flatPlain_fill, noneAfter_fill] at hin
      obtain ⟨h1, h2, h3⟩ := StructDecl.code_rest ht (fields := r.fields.map fillContainer) (attr := false)
        (inlineE := metaInline r .input) (allowedE := skip)
      have hmi : ∀ x, (metaInline r x).typed = true := by
        intro x
        unfold metaInline
        split
        · rfl
        · exact uses_typed _
      rw [h3]
      constructor
      · intro hall
        unfold structMetaFns at hall
        refine ⟨fun hs => ?_, fun hs => ?_⟩
        · have := hall ⟨[], fieldNamesCode (r.fields.map fillContainer)⟩ (by simp [ht, hs])
          exact (flatPlain_fill _).1 ((fieldNamesCode_typed _).1 this)
        · have := hall ⟨[(.inputs, false), (.mode_, false), (.index, r.fields.any (·.isFlat))], _⟩
            (List.mem_append_right _ (by rw [hs, ht]; exact List.mem_cons_of_mem _ (List.mem_cons_self ..)))
          exact hin.1 this hs
      · rintro ⟨hn, hu⟩ g hg
        have hin' := hin.2 hu
        unfold structMetaFns at hg
        simp only [List.append_nil, List.mem_append] at hg
        rcases hg with ((hg | hg) | hg) | hg
        · simp only [List.mem_cons, List.not_mem_nil, or_false] at hg
          rcases hg with rfl | rfl
          · unfold FnCode.Typed
            rw [h1]
            simp [codes_cons_typed, codes_nil_typed, Code.typed, hmi]
          · unfold FnCode.Typed
            simp only
            split
            · exact hin'
            · exact hmi _
        · obtain ⟨c, hc, rfl⟩ := List.mem_map.1 hg
          unfold FnCode.Typed
          rcases h2 c (by simpa using hc) with rfl | rfl | ⟨hs, rfl⟩
          · simp [codes_cons_typed, codes_nil_typed, Code.typed, hmi]
          · simp [codes_cons_typed, codes_nil_typed, Code.typed, hmi]
          · simp [codes_cons_typed, codes_nil_typed, preCode_typed, thensCode_typed, postCode, Code.typed]
        · split at hg
          · simp only [List.mem_cons, List.not_mem_nil, or_false] at hg
            subst hg
            rfl
          · exact absurd hg List.not_mem_nil
        · split at hg
          · exact absurd hg List.not_mem_nil
          · split at hg
            · rename_i hs
              simp only [List.mem_cons, List.not_mem_nil, or_false] at hg
              rcases hg with rfl | rfl | rfl | rfl
              · exact (fieldNamesCode_typed _).2 ((flatPlain_fill _).2 (hn hs))
              · unfold FnCode.Typed
                simp [codes_cons_typed, codes_nil_typed, Code.typed, uses_typed, hin']
              · rfl
              · exact uses_typed _
            · simp only [List.mem_cons, List.not_mem_nil, or_false] at hg
              rcases hg with rfl | rfl
              · rfl
              · exact hin'
            · exact absurd hg List.not_mem_nil
  | attrs m =>
    change (∀ g ∈ r.attrFns, g.Typed) ↔ _
    rw [StructDecl.attrFns_eq]
    rw [attrFns_typed, codes_cons_typed, codes_cons_typed, codes_nil_typed, Bool.and_true, Bool.and_eq_true]
    have hhead : (attrHead r).typed = true ↔ (r.shape = .named → FlatPlain r.fields) := by
      unfold attrHead
      cases r.shape <;> simp [codes_cons_typed, codes_nil_typed, Code.typed, fieldNamesCode_typed]
    rw [hhead]
    cases ht : r.isTransparent with
    | true =>
      rw [StructDecl.code_transparent ht]
      simp [transparentCode_typed ht _ _ _ (allowedE := use .allowed) rfl, hsil ht]
    | false =>
      have hc := hcond ht
      rw [ht] at hc
      rw [hc, StructDecl.inline_typed ht hft rfl]

end

/-! ## Enums -/

theorem valueCode_typed (b : Bool) : (valueCode b).typed = true := by
  cases b <;> simp [valueCode, codes, Code.typed]

theorem headCode_typed (v : VariantDecl) : v.headCode.typed = true ↔ (v.shape = .named → FlatPlain v.fields) := by
  unfold VariantDecl.headCode
  cases v.shape <;> simp [codes_cons_typed, codes_nil_typed, Code.typed, fieldNamesCode_typed]

/-- The types in the code of a variant can be found. -/
def VariantDecl.Inferred (v : VariantDecl) : Prop :=
  v.transparent = some true ∨ FlatPlain v.fields ∧ (v.shape = .unnamed → NoneAfter v.fields)

theorem variant_code_typed {v : VariantDecl} (hf : FieldsTyped v.shape false v.fields)
    (hunit : v.shape = .unit → v.fields = []) (attr : Bool) (flat : Option Bool) :
    (v.code attr flat).typed = true ↔ v.Inferred := by
  have hu := uses_typed
  have hv := valueCode_typed
  cases ht : v.transparent.getD false with
  | true =>
    have htr : v.transparent = some true := by
      cases hx : v.transparent with
      | none => simp [hx] at ht
      | some b => rw [hx] at ht; exact congrArg some ht
    have hcode : v.code attr flat = codes [preCode v.shape v.fields true, use .errors, uses [.input, .p, .span],
        block [.v] (codes [use .v, set (.field (transparentIndex v.fields)),
          postCode v.shape v.fields (variantData v attr)]), valueCode true] := by
      simp only [VariantDecl.code, ht, if_true, variantData]
    have hpost : (postCode v.shape v.fields (variantData v attr)).typed = true := by
      rw [postCode_typed _ _ (variantData v attr) rfl]
      exact fun _ => fieldErrorsCode_silent _ (.inl ht) _ _ _ _
    rw [hcode]
    simp [codes_cons_typed, codes_nil_typed, Code.typed, preCode_typed, hu, hv, hpost, VariantDecl.Inferred, htr]
  | false =>
    have htr : v.transparent ≠ some true := by
      intro h
      simp [h] at ht
    have hin : ∀ attr', ((itemCode v.shape v.fields (preCode v.shape v.fields false)
        (postCode v.shape v.fields (variantData v attr)) { variantData v attr with attr := attr' }).inline.typed = true ↔
        (v.shape = .unnamed → FlatPlain v.fields ∧ NoneAfter v.fields)) := by
      intro attr'
      rw [itemCode_typed hf (d := { variantData v attr with attr := attr' }) rfl (preCode_typed _ _ _)]
      by_cases hs : v.shape = .unnamed
      · simp only [hs, forall_const]
        refine and_congr_right fun hfp => ?_
        rw [← hs, post_typed (d := variantData v attr) hf hfp rfl]
        simp [hs, variantData, ht]
      · rw [postCode_typed _ _ (variantData v attr) rfl]
        simp [hs]
    have hboth : (v.shape = .named → FlatPlain v.fields) ∧ (v.shape = .unnamed → FlatPlain v.fields ∧ NoneAfter v.fields) ↔
        v.Inferred := by
      unfold VariantDecl.Inferred
      cases hs : v.shape with
      | named => simp [htr]
      | unnamed => simp [htr]
      | unit =>
        have : FlatPlain v.fields := by
          intro f hm
          rw [hunit hs] at hm
          exact absurd hm List.not_mem_nil
        simp [this]
    rw [← hboth, ← headCode_typed]
    cases flat with
    | none =>
      have hcode : v.code attr none =
          let item := itemCode v.shape v.fields (preCode v.shape v.fields false)
            (postCode v.shape v.fields (variantData v attr)) { variantData v attr with attr := false }
          codes [v.headCode, block [.inputs, .mode_] item.inline, bind .inline true, use .input,
            block [] (codes [use .span, bind .mode_ false, item.parse]),
            block [.buffer] (codes [set .inline, uses [.buffer, .span], block [.v] (uses [.buffer, .v])]),
            block [] (item.flag.getD (use .span)),
            block [.e] (use .e),
            bind .res false, uses [.errors, .res], valueCode true] := by
        simp only [VariantDecl.code, ht, variantData]
        rfl
      have hparse : (itemCode v.shape v.fields (preCode v.shape v.fields false)
          (postCode v.shape v.fields (variantData v attr)) { variantData v attr with attr := false }).parse.typed = true := by
        unfold itemCode
        cases v.shape <;> simp [codes, Code.typed, variantData, hu]
      have hflag : ((itemCode v.shape v.fields (preCode v.shape v.fields false)
          (postCode v.shape v.fields (variantData v attr)) { variantData v attr with attr := false }).flag.getD
            (use .span)).typed = true := by
        unfold itemCode
        cases v.shape with
        | named => simp [codes, Code.typed, variantData, hu]
        | unnamed =>
          dsimp only
          split
          · simp [codes, Code.typed, variantData, hu]
          · rfl
        | unit => simp [codes, Code.typed, preCode, postCode]
      rw [hcode]
      simp only [codes_cons_typed, codes_nil_typed, Code.typed, hu, hv, hparse, hflag, Bool.and_true, Bool.and_eq_true, hin]
    | some empty =>
      have hcode : v.code attr (some empty) =
          let item := itemCode v.shape v.fields (preCode v.shape v.fields false)
            (postCode v.shape v.fields (variantData v attr)) { variantData v attr with attr := attr }
          let checks := empty && !v.allowUnknown.getD false
          codes [v.headCode,
            if checks then codes [use .validate, block [] (codes [use .errors, use .inputs,
              block [.input, .p, .span] (uses [.p, .span, .allowed, .errors, .input]),
              uses [.errors, .span, .prefix_]])] else .skip,
            block [] (codes [if checks then bind .validate false else .skip, item.inline]),
            bind .ret false, uses [.errors, .ret], valueCode false] := by
        simp only [VariantDecl.code, ht, variantData]
        rfl
      have h1 : (if (empty && !v.allowUnknown.getD false) = true then codes [use .validate, block [] (codes [use .errors,
          use .inputs, block [.input, .p, .span] (uses [.p, .span, .allowed, .errors, .input]),
          uses [.errors, .span, .prefix_]])] else .skip : Code).typed = true := by
        split <;> simp [codes, Code.typed, hu]
      have h2 : (if (empty && !v.allowUnknown.getD false) = true then bind .validate false else .skip : Code).typed = true := by
        split <;> rfl
      rw [hcode]
      simp only [codes_cons_typed, codes_nil_typed, Code.typed, hu, hv, h1, h2, Bool.and_true, Bool.true_and]
      rw [Bool.and_eq_true, hin]

theorem arms_typed {v : VariantDecl} (hf : FieldsTyped v.shape false v.fields)
    (hunit : v.shape = .unit → v.fields = []) (attr allow : Bool) :
    ((v.armCode attr).typed = true ∧ (v.flatArmCode attr allow).typed = true) ↔ (v.isSkipped = false → v.Inferred) := by
  have hu := uses_typed
  have hc := fun flat => variant_code_typed hf hunit attr flat
  have hids : (codes (v.idents.map fun _ => block [] (set .key))).typed = true := by
    rw [codes_typed]
    intro c hc
    obtain ⟨_, -, rfl⟩ := List.mem_map.1 hc
    rfl
  unfold VariantDecl.armCode VariantDecl.flatArmCode
  cases hs : v.isSkipped with
  | true => simp [Code.typed]
  | false =>
    cases hfl : v.isFlatten with
    | false =>
      simp [codes_cons_typed, codes_nil_typed, Code.typed, hu, hids, hc]
    | true =>
      have h1 : (if v.fieldKey.isEmpty = true then .skip else use .paths : Code).typed = true := by split <;> rfl
      have h2 : (if (allow || v.allowUnknown.getD false) = true then .skip
          else codes [use .validate, block [] (codes [set .paths, use .paths, use .errors])] : Code).typed = true := by
        split <;> rfl
      simp only [codes_cons_typed, codes_nil_typed, Code.typed, h1, h2, hc, Bool.true_or, if_true, Bool.not_true,
        Bool.or_self, Bool.false_eq_true, if_false, Bool.and_true, Bool.true_and, true_and, forall_const]

theorem enumValidateCode_typed (b : Bool) : (enumValidateCode b).typed = true := by
  cases b <;> simp [enumValidateCode, codes, Code.typed, uses_typed]

theorem enum_code_typed {d : EnumDecl} (hf : ∀ v ∈ d.variants, FieldsTyped v.shape false v.fields)
    (hunit : ∀ v ∈ d.variants, v.shape = .unit → v.fields = []) (attr : Bool) :
    (d.code attr).typed = true ↔ ∀ v ∈ d.variants, v.isSkipped = false → v.Inferred := by
  have hu := uses_typed
  have hev := enumValidateCode_typed
  have harms : ((codes (d.variants.map (·.armCode attr))).typed = true ∧
      (codes (d.variants.map (·.flatArmCode attr (d.allowUnknown.getD false)))).typed = true) ↔
      ∀ v ∈ d.variants, v.isSkipped = false → v.Inferred := by
    rw [codes_typed, codes_typed]
    simp only [List.mem_map, forall_exists_index, and_imp, forall_apply_eq_imp_iff₂]
    constructor
    · rintro ⟨h1, h2⟩ v hv
      exact (arms_typed (hf v hv) (hunit v hv) attr (d.allowUnknown.getD false)).1 ⟨h1 v hv, h2 v hv⟩
    · intro h
      exact ⟨fun v hv => ((arms_typed (hf v hv) (hunit v hv) attr (d.allowUnknown.getD false)).2 (h v hv)).1,
        fun v hv => ((arms_typed (hf v hv) (hunit v hv) attr (d.allowUnknown.getD false)).2 (h v hv)).2⟩
  rw [← harms]
  have hthens : (codes (d.andThens.map fun _ => codes [use .value,
      block [.v] (codes [bind .f false, uses [.errors, .f, .v]]), bind .value false])).typed = true := by
    rw [codes_typed]
    intro c hc
    obtain ⟨_, -, rfl⟩ := List.mem_map.1 hc
    simp [codes, Code.typed, hu]
  unfold EnumDecl.code
  dsimp only
  generalize (d.variants.any fun v => v.isFlatten && !v.isSkipped) = any
  have h1 : (if any = true then bind .paths true else .skip : Code).typed = true := by split <;> rfl
  have h2 : (if any = true then codes [use .cur, block [.cur] (codes [uses [.cur, .span], set .paths])] else .skip :
      Code).typed = true := by split <;> simp [codes, Code.typed, hu]
  have h3 : (if (any && !d.allowUnknown.getD false) = true then
      codes [use .validate, block [] (codes [use .key, set .paths, uses [.paths, .key, .errors]])]
      else .skip : Code).typed = true := by split <;> simp [codes, Code.typed, hu]
  have h4 : (if (d.variants.any fun v => !v.isSkipped && v.isFlatten && v.fieldKey.isEmpty) = true then .skip
      else if d.default.isSome then block [] (set .value)
      else block [] (codes [enumValidateCode (d.allowUnknown.getD false), uses [.span, .prefix_, .errors]]) :
        Code).typed = true := by
    split
    · rfl
    · split
      · rfl
      · simp [codes, Code.typed, hu, hev]
  simp only [codes_cons_typed, codes_nil_typed, Code.typed, h1, h2, h3, h4, hu, hev, hthens, Bool.and_true, Bool.true_and]
  rw [Bool.and_eq_true]

/-- No flattened field of a flattened variant has a prefix. -/
def NoPrefixes (vs : List VariantDecl) : Prop :=
  ∀ v ∈ vs, v.isFlatten = true → ∀ f ∈ v.fields, ∀ x, f.flatten = some x → x.value = true → x.pre = none

theorem namesCode_typed (d : EnumDecl) : d.namesCode.typed = true ↔ NoPrefixes d.variants := by
  unfold EnumDecl.namesCode NoPrefixes
  split
  · simp only [Code.typed, codes_cons_typed, codes_nil_typed, Bool.true_and, Bool.and_true]
    rw [codes_typed]
    simp only [List.mem_map, forall_exists_index, and_imp, forall_apply_eq_imp_iff₂]
    refine forall_congr' fun v => forall_congr' fun _ => ?_
    rw [codes_cons_typed, codes_cons_typed, codes_nil_typed, Bool.and_true]
    simp only [Code.typed, Bool.true_and]
    cases hfl : v.isFlatten with
    | false => simp [Code.typed]
    | true =>
      split
      · rename_i h
        simp only [Bool.true_and, List.any_eq_true] at h
        obtain ⟨f, hm, h⟩ := h
        cases hx : f.flatten with
        | none => simp [hx] at h
        | some x =>
          simp only [hx, Option.any_some, Bool.and_eq_true] at h
          refine ⟨(fun h' => nomatch h'), fun h' => ?_⟩
          have := h' rfl f hm x hx h.1
          simp [this] at h
      · rename_i h
        refine ⟨fun _ _ f hm x hx hv => ?_, fun _ => rfl⟩
        cases hp : x.pre with
        | none => rfl
        | some p =>
          exact absurd (by
            simp only [Bool.true_and, List.any_eq_true]
            exact ⟨f, hm, by simp [hx, hv, hp]⟩) h
  · rename_i h
    refine ⟨fun _ v hv hfl f hm x hx hval => ?_, fun _ => rfl⟩
    refine absurd (List.any_eq_true.2 ⟨v, hv, ?_⟩) h
    simp only [hfl, Bool.true_and, List.any_eq_true]
    exact ⟨f, hm, by simp [FieldDecl.isFlat, FieldDecl.isFlatten, hx, hval]⟩

section
variable [Env]

/-- C97 for enums. -/
theorem c97_enum {lib : SynLib} {d : EnumIn} {r : EnumDecl} (h : d.read lib = .ok r)
    (hw : ∀ v ∈ d.variants, ShapeIs v.shape v.fields) (which : Derive) :
    (∀ g ∈ (Decl.enum r).fns which, g.Typed) ↔
      (∀ v ∈ r.variants, v.isSkipped = false → v.transparent = some true ∨
        FlatPlain v.fields ∧ (v.shape = .unnamed → NoneAfter v.fields)) ∧ NoPrefixes r.variants := by
  obtain ⟨hvs, -⟩ := EnumIn.read_ok h
  have hk : ∀ v ∈ r.variants, FieldsTyped v.shape false v.fields ∧ (v.shape = .unit → v.fields = []) := by
    intro v hv
    have : (Res.ok v : Res VariantDecl) ∈ d.variants.map (VariantIn.read lib) := by
      rw [hvs]; exact List.mem_map_of_mem hv
    obtain ⟨w, hw', he⟩ := List.mem_map.1 this
    obtain ⟨h1, -, h3⟩ := variant_facts he (hw w hw').fits
    exact ⟨⟨h3, fun _ => h1⟩, (variant_names he (hw w hw')).2⟩
  have hcode := fun attr => enum_code_typed (fun v hv => (hk v hv).1) (fun v hv => (hk v hv).2) attr
  cases which with
  | metaItem =>
    change (∀ g ∈ r.metaFns, g.Typed) ↔ _
    unfold EnumDecl.metaFns
    have hu := uses_typed
    constructor
    · intro hall
      refine ⟨(hcode false).1 ?_, (namesCode_typed r).1 ?_⟩
      · have := hall ⟨[(.inputs, false), (.mode_, false), (.prefix_, false), (.validate, false)],
          codes [uses [.mode_, .inputs], bind .span false, bind .allowed false, r.code false]⟩
          (List.mem_append_right _ (by simp))
        unfold FnCode.Typed at this
        simpa only [codes_cons_typed, codes_nil_typed, Code.typed, hu, Bool.and_true, Bool.true_and] using this
      · exact hall ⟨[], r.namesCode⟩ (List.mem_append_right _ (List.mem_cons_self ..))
    · rintro ⟨h1, h2⟩ g hg
      simp only [List.mem_append] at hg
      rcases hg with (hg | hg) | hg
      · simp only [List.mem_cons, List.not_mem_nil, or_false] at hg
        rcases hg with rfl | rfl | rfl <;> rfl
      · split at hg
        · simp only [List.mem_cons, List.not_mem_nil, or_false] at hg
          subst hg
          rfl
        · exact absurd hg List.not_mem_nil
      · simp only [List.mem_cons, List.not_mem_nil, or_false] at hg
        rcases hg with rfl | rfl | rfl | rfl
        · exact (namesCode_typed r).2 h2
        · unfold FnCode.Typed
          simp only [codes_cons_typed, codes_nil_typed, Code.typed, hu, (hcode false).2 h1, Bool.and_true]
        · rfl
        · rfl
  | attrs m =>
    change (∀ g ∈ r.attrFns, g.Typed) ↔ _
    unfold EnumDecl.attrFns
    rw [attrFns_typed]
    simp only [codes_cons_typed, codes_nil_typed, Code.typed, Bool.and_true, Bool.true_and, Bool.and_eq_true, hcode,
      namesCode_typed]
    exact And.comm
end

end Deluxe
