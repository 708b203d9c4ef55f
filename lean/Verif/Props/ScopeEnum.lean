import Verif.Props.Scope

/-!
# C96: names in the code generated for enums
-/

namespace Deluxe
open Code (skip use set bind block untyped)

/-- What is known about a variant that the code is made from. -/
structure VariantKnown (v : VariantDecl) : Prop where
  names : ∀ f ∈ v.fields, f.ident.isSome = true ↔ v.shape = .named
  unit : v.shape = .unit → v.fields = []
  plain : v.shape = .unnamed → ∀ f ∈ v.fields, f.append = none ∧ f.rest = none
  flatNamed : v.isFlatten = true → v.shape = .named
  one : v.isSkipped = false → v.transparent = some true → (∀ f ∈ v.fields, f.isParsable = true → f.isFlat = false) ∧
    (v.fields.findIdx? fun f => f.isParsable && !f.isFlat).isSome = true

theorem one_of_any {fields : List FieldDecl} (hc : CanBeTransparent fields)
    (h : (fields.any fun f => f.isParsable && !f.isFlat) = true) :
    (∀ f ∈ fields, f.isParsable = true → f.isFlat = false) ∧
    (fields.findIdx? fun f => f.isParsable && !f.isFlat).isSome = true := by
  refine ⟨fun g hg hp => ?_, by rw [List.findIdx?_isSome]; exact h⟩
  obtain ⟨f, hf, -⟩ := hc
  obtain ⟨k, hk, hk'⟩ := List.any_eq_true.1 h
  simp only [Bool.and_eq_true, Bool.not_eq_true'] at hk'
  have h1 : g ∈ fields.filter (·.isParsable) := List.mem_filter.2 ⟨hg, hp⟩
  have h2 : k ∈ fields.filter (·.isParsable) := List.mem_filter.2 ⟨hk, hk'.1⟩
  rw [hf, List.mem_singleton] at h1 h2
  rw [h1, ← h2]
  exact hk'.2

/-- The variables that the code of every variant needs. -/
structure VariantScope (attr : Bool) (sc : Scope) : Prop where
  errors : (sc .errors).isSome = true
  inputs : (sc .inputs).isSome = true
  span : (sc .span).isSome = true
  prefix_ : (sc .prefix_).isSome = true
  validate : (sc .validate).isSome = true
  allowed : (sc .allowed).isSome = true
  value : sc .value = some true
  obj : attr = true → (sc .obj).isSome = true
  pathName : attr = true → (sc .pathName).isSome = true

theorem VariantScope.addAll {attr : Bool} : ∀ {sc : Scope} {ps : List Var}, VariantScope attr sc → .value ∉ ps →
    VariantScope attr (sc.addAll ps)
  | _, [], h, _ => h
  | sc, x :: ps, h, hv => by
    refine VariantScope.addAll (ps := ps) ⟨?_, ?_, ?_, ?_, ?_, ?_, ?_, ?_, ?_⟩ (fun h => hv (List.mem_cons_of_mem _ h))
    · exact Scope.isSome_add h.errors
    · exact Scope.isSome_add h.inputs
    · exact Scope.isSome_add h.span
    · exact Scope.isSome_add h.prefix_
    · exact Scope.isSome_add h.validate
    · exact Scope.isSome_add h.allowed
    · have : Var.value ≠ x := fun e => hv (e ▸ List.mem_cons_self ..)
      simp [Scope.add, this, h.value]
    · exact fun ha => Scope.isSome_add (h.obj ha)
    · exact fun ha => Scope.isSome_add (h.pathName ha)

theorem Scope.isSome_addAll : ∀ {sc : Scope} {x : Var} {ps : List Var}, (sc x).isSome = true →
    (sc.addAll ps x).isSome = true
  | _, _, [], h => h
  | sc, _, y :: _, h => Scope.isSome_addAll (sc := sc.add y false) (Scope.isSome_add h)

theorem VariantScope.add {attr : Bool} {sc : Scope} {x : Var} {m : Bool} (h : VariantScope attr sc) (hx : x ≠ .value) :
    VariantScope attr (sc.add x m) where
  errors := Scope.isSome_add h.errors
  inputs := Scope.isSome_add h.inputs
  span := Scope.isSome_add h.span
  prefix_ := Scope.isSome_add h.prefix_
  validate := Scope.isSome_add h.validate
  allowed := Scope.isSome_add h.allowed
  value := by simp [Scope.add, hx.symm, h.value]
  obj ha := Scope.isSome_add (h.obj ha)
  pathName ha := Scope.isSome_add (h.pathName ha)

theorem valueCode_stay {skips : Bool} {sc : Scope} (hv : sc .value = some true)
    (hi : skips = true → (sc .input).isSome = true) : (valueCode skips).check sc = some sc := by
  unfold valueCode
  cases skips <;> simp_all [codes, Code.check, Scope.addAll, Scope.add]

/-- What is around the code of a variant. -/
def variantData (v : VariantDecl) (attr : Bool) : CodeData :=
  { attr := attr, var := false, inlineE := codes [set .inline, uses [.input, .mode_]], allowedE := use .allowed,
    transparent := v.transparent.getD false, variant := true, allowUnknown := v.allowUnknown.getD false }

/-- After the head of a variant. -/
theorem headCode_check (v : VariantDecl) {attr : Bool} {sc : Scope} (h : VariantScope attr sc) :
    ∃ s, v.headCode.check sc = some s ∧ VariantScope attr s ∧ (v.shape = .unnamed → s .index = some true) ∧
      (∀ x, (sc x).isSome = true → (s x).isSome = true) := by
  unfold VariantDecl.headCode
  cases v.shape with
  | named =>
    refine ⟨(sc.add .allowed false).add .validate false, ?_, (h.add (by simp)).add (by simp), by simp,
      fun x hx => Scope.isSome_add (Scope.isSome_add hx)⟩
    rw [codes_cons (fieldNamesCode_stay _ _)]
    rfl
  | unnamed => exact ⟨_, rfl, h.add (by simp), fun _ => by simp [Scope.add], fun x hx => Scope.isSome_add hx⟩
  | unit => exact ⟨_, rfl, h, by simp, fun x hx => hx⟩

/-- The code for the fields of a variant that is not transparent. -/
theorem variant_inline {v : VariantDecl} (hv : VariantKnown v) (ht : v.transparent.getD false = false) {attr attr' : Bool}
    {sc : Scope} (h : VariantScope attr sc) (hm : v.shape ≠ .named → (sc .mode_).isSome = true)
    (hx : v.shape = .unnamed → sc .index = some true) :
    ∃ sc', (itemCode v.shape v.fields (preCode v.shape v.fields false) (postCode v.shape v.fields (variantData v attr))
      { variantData v attr with attr := attr' }).inline.check sc = some sc' ∧
      (∀ x, (∀ i, x ≠ .field i) → x ≠ .errors → sc' x = sc x) ∧ (sc' .errors).isSome = true := by
  obtain ⟨sc1, hp, hs⟩ : ∃ sc1, (postCode v.shape v.fields (variantData v attr)).check
      (if v.shape = .unit then sc else sc.pre v.fields.length false) = some sc1 ∧
      SameVars (if v.shape = .unit then sc else sc.pre v.fields.length false) sc1 := by
    by_cases hu : v.shape = .unit
    · refine ⟨sc, ?_, ?_⟩
      · rw [hu]; rfl
      · rw [if_pos hu]; exact SameVars.refl _
    · rw [if_neg hu]
      have ho : ∀ y, (∀ i, y ≠ .field i) → y ≠ .errors → sc.pre v.fields.length false y = sc y :=
        fun y h1 h2 => Scope.pre_other h1 h2
      refine postCode_keep (fun _ =>
        { allowed := fun _ => .inr ⟨rfl, Scope.isSome_pre h.allowed⟩
          field := fun i hi => Scope.pre_field hi
          errors := fun _ => by rw [Scope.pre_errors]; rfl
          obj := fun ha => Scope.isSome_pre (h.obj ha)
          pathName := fun ha => Scope.isSome_pre (h.pathName ha)
          target := fun h => nomatch h
          names := hv.names
          flat := fun h' => by rw [show (variantData v attr).transparent = false from ht] at h'; exact nomatch h'
          named := fun _ _ => ⟨Scope.isSome_pre h.inputs, Scope.isSome_pre h.span, Scope.isSome_pre h.prefix_⟩
          unnamed := fun hs _ => by
            have := ho .index (fun _ => by simp) (by simp)
            rw [hx hs] at this
            exact ⟨Scope.isSome_pre h.inputs, Scope.isSome_pre (hm (by rw [hs]; simp)), by rw [this]; rfl, fun _ => this,
              fun _ => Scope.isSome_pre h.span⟩
          plain := hv.plain })
  refine ⟨sc1, ?_, fun x h1 h2 => ?_, ?_⟩
  · refine itemCode_inline
      { allowed := fun _ => .inr ⟨rfl, h.allowed⟩
        validate := fun _ _ => h.validate
        names := hv.names
        plain := hv.plain
        inputs := h.inputs
        mode_ := fun hs _ => hm (by rw [hs]; simp)
        prefix_ := fun _ => h.prefix_
        index := fun hs => ⟨by rw [hx hs]; rfl, fun _ => hx hs⟩ } hp
  · rw [hs.1 x h1]
    split
    · rfl
    · exact Scope.pre_other h1 h2
  · rw [hs.1 .errors (fun _ => by simp)]
    split
    · exact h.errors
    · exact Scope.isSome_pre h.errors

/-- The code of a variant that is found by its name. -/
theorem variant_code_arm {v : VariantDecl} (hv : VariantKnown v) (hskip : v.isSkipped = false) {attr : Bool} {sc : Scope}
    (h : VariantScope attr sc) (hi : (sc .input).isSome = true) (hp : (sc .p).isSome = true) :
    ((v.code attr none).check sc).isSome = true := by
  cases ht : v.transparent.getD false with
  | true =>
    have htr : v.transparent = some true := by
      cases hx : v.transparent with
      | none => simp [hx] at ht
      | some b => rw [hx] at ht; exact congrArg some ht
    obtain ⟨h1, h2⟩ := hv.one hskip htr
    have hlt := transparentIndex_lt h2
    have hs : v.shape ≠ .unit := by
      intro hs
      rw [hv.unit hs] at hlt
      exact absurd hlt (by simp)
    have hcode : v.code attr none = codes [preCode v.shape v.fields true, use .errors, uses [.input, .p, .span],
        block [.v] (codes [use .v, set (.field (transparentIndex v.fields)),
          postCode v.shape v.fields (variantData v attr)]), valueCode true] := by
      simp only [VariantDecl.code, ht, if_true, variantData]
    rw [hcode, codes_cons (preCode_check hs _ _ _)]
    have hval : sc.pre v.fields.length true .value = some true :=
      (Scope.pre_other (fun _ => by simp) (by simp)).trans h.value
    have hsome : ∀ x, (sc x).isSome = true → (sc.pre v.fields.length true x).isSome = true := fun x hx => Scope.isSome_pre hx
    have hfield : ∀ i, i < v.fields.length → sc.pre v.fields.length true (.field i) = some true :=
      fun i hi => Scope.pre_field hi
    generalize sc.pre v.fields.length true = S at *
    obtain ⟨sc1, hpost, -⟩ := postCode_keep (shape := v.shape) (fields := v.fields) (d := variantData v attr)
      (sc := S.addAll [.v]) (fun _ =>
        { allowed := fun _ => .inr ⟨rfl, Scope.isSome_addAll (hsome _ h.allowed)⟩
          field := fun i hi => by simp [Scope.addAll, Scope.add, hfield i hi]
          errors := fun _ => Scope.isSome_addAll (hsome _ h.errors)
          obj := fun ha => Scope.isSome_addAll (hsome _ (h.obj ha))
          pathName := fun ha => Scope.isSome_addAll (hsome _ (h.pathName ha))
          target := fun h => nomatch h
          names := hv.names
          flat := fun _ => h1
          named := fun _ h' => by rw [show (variantData v attr).transparent = true from ht] at h'; exact nomatch h'
          unnamed := fun _ h' => by rw [show (variantData v attr).transparent = true from ht] at h'; exact nomatch h'
          plain := hv.plain })
    rw [codes_cons (use_stay (hsome _ h.errors)), codes_cons (uses_stay (by
      simp [hsome _ hi, hsome _ hp, hsome _ h.span])), codes_cons (block_stay (sc' := sc1) ?_),
      codes_cons (valueCode_stay hval fun _ => hsome _ hi)]
    · rfl
    · rw [codes_cons (use_stay (by simp [Scope.addAll, Scope.add])), codes_cons (set_stay (by
        simp [Scope.addAll, Scope.add, hfield _ hlt])), codes_cons hpost]
      rfl
  | false =>
    have hcode : v.code attr none =
        let item := itemCode v.shape v.fields (preCode v.shape v.fields false)
          (postCode v.shape v.fields (variantData v attr)) { variantData v attr with attr := false }
        codes [v.headCode, block [.inputs, .mode_] item.inline, bind .inline true, use .input,
          block [] (codes [use .span, bind .mode_ false, item.parse]),
          block [.buffer] (codes [set .inline, uses [.buffer, .span], block [.v] (uses [.buffer, .v])]),
          block [] (item.flag.getD (use .span)),
          block [.e] (use .e),
          bind .res false, uses [.errors, .res], valueCode true] := by
      simp only [VariantDecl.code, ht, variantData]
      rfl
    obtain ⟨s, hs, hsv, hsx, hsome⟩ := headCode_check v h
    have hin := hsome _ hi
    rw [hcode]
    dsimp only
    obtain ⟨sc1, h1, -⟩ := variant_inline hv ht (attr := attr) (attr' := false) (sc := s.addAll [.inputs, .mode_])
      (hsv.addAll (by simp)) (fun _ => by simp [Scope.addAll, Scope.add]) (fun hu => by simp [Scope.addAll, Scope.add, hsx hu])
    have hparse : (itemCode v.shape v.fields (preCode v.shape v.fields false)
        (postCode v.shape v.fields (variantData v attr)) { variantData v attr with attr := false }).parse =
        codes [use .input, block [.input] (codes [set .inline, uses [.input, .mode_]])] := by
      unfold itemCode
      cases v.shape <;> rfl
    have hflag : ∀ sc : Scope, (sc .span).isSome = true → sc .inline = some true →
        (((itemCode v.shape v.fields (preCode v.shape v.fields false)
        (postCode v.shape v.fields (variantData v attr)) { variantData v attr with attr := false }).flag.getD
          (use .span)).check sc).isSome = true := by
      intro sc h1 h2
      unfold itemCode
      cases v.shape with
      | named =>
        simp [codes, uses, Code.check, h1, h2, variantData, Scope.add, Scope.addAll]
      | unnamed =>
        dsimp only
        split
        · simp [codes, uses, Code.check, h1, h2, variantData, Scope.add, Scope.addAll]
        · simp [Code.check, h1]
      | unit => rfl
    rw [codes_cons hs, codes_cons (block_stay h1), codes_cons (sc' := s.add .inline true) rfl]
    have hi' : (s.add .inline true .input).isSome = true := Scope.isSome_add hin
    have hsv' : VariantScope attr (s.add .inline true) := hsv.add (by simp)
    have hin' : s.add .inline true .inline = some true := by simp [Scope.add]
    generalize s.add .inline true = t at *
    obtain ⟨sc3, h3⟩ := Option.isSome_iff_exists.1 (hflag (t.addAll []) hsv'.span hin')
    rw [codes_cons (use_stay hi'), codes_cons (block_stay (sc' := t.add .mode_ false) ?_), codes_cons (block_stay (sc' :=
      t.addAll [.buffer]) ?_), codes_cons (block_stay h3), codes_cons (block_stay (sc' := t.addAll [.e]) ?_),
      codes_cons (sc' := t.add .res false) rfl, codes_cons (uses_stay ?_), codes_cons (valueCode_stay
        (by simp [Scope.add, hsv'.value]) fun _ => Scope.isSome_add hi')]
    · rfl
    · simp [Scope.add, hsv'.errors]
    · simp [Code.check, Scope.addAll, Scope.add]
    · simp [codes, uses, Code.check, Scope.addAll, Scope.add, hin', hsv'.span]
    · rw [hparse]
      simp [codes, uses, Code.check, Scope.addAll, Scope.add, hin', hsv'.span, hi']

/-- The code of a flattened variant that is not transparent. -/
theorem variant_code_flat {v : VariantDecl} (hv : VariantKnown v) (hn : v.shape = .named)
    (ht : v.transparent.getD false = false) {attr empty : Bool} {sc : Scope} (h : VariantScope attr sc) :
    ∃ sc', (v.code attr (some empty)).check sc = some sc' ∧ (sc' .errors).isSome = true ∧ (sc' .validate).isSome = true ∧
      sc' .paths = sc .paths := by
  have hcode : v.code attr (some empty) =
      let item := itemCode v.shape v.fields (preCode v.shape v.fields false)
        (postCode v.shape v.fields (variantData v attr)) { variantData v attr with attr := attr }
      let checks := empty && !v.allowUnknown.getD false
      codes [v.headCode,
        if checks then codes [use .validate, block [] (codes [use .errors, use .inputs,
          block [.input, .p, .span] (uses [.p, .span, .allowed, .errors, .input]),
          uses [.errors, .span, .prefix_]])] else .skip,
        block [] (codes [if checks then bind .validate false else .skip, item.inline]),
        bind .ret false, uses [.errors, .ret], valueCode false] := by
    simp only [VariantDecl.code, ht, variantData]
    rfl
  rw [hcode]
  have hhead : v.headCode.check sc = some ((sc.add .allowed false).add .validate false) := by
    unfold VariantDecl.headCode
    rw [hn]
    exact (codes_cons (fieldNamesCode_stay _ _)).trans rfl
  have hs : VariantScope attr ((sc.add .allowed false).add .validate false) := (h.add (by simp)).add (by simp)
  have hpaths : ((sc.add .allowed false).add .validate false) .paths = sc .paths := by simp [Scope.add]
  dsimp only
  rw [codes_cons hhead]
  generalize ((sc.add .allowed false).add .validate false) = s at *
  have hchecks : (if (empty && !v.allowUnknown.getD false) = true then codes [use .validate, block [] (codes [use .errors,
      use .inputs, block [.input, .p, .span] (uses [.p, .span, .allowed, .errors, .input]),
      uses [.errors, .span, .prefix_]])] else .skip : Code).check s = some s := by
    split
    · simp [codes, uses, Code.check, Scope.addAll, Scope.add, hs.validate, hs.errors, hs.inputs, hs.span, hs.allowed,
        hs.prefix_]
    · rfl
  have hbody : ∃ sc', (codes [if (empty && !v.allowUnknown.getD false) = true then bind .validate false else .skip,
      (itemCode v.shape v.fields (preCode v.shape v.fields false) (postCode v.shape v.fields (variantData v attr))
        { variantData v attr with attr := attr }).inline]).check (s.addAll []) = some sc' := by
    have hb : ∃ t, (if (empty && !v.allowUnknown.getD false) = true then bind .validate false else .skip : Code).check s =
        some t ∧ VariantScope attr t := by
      split
      · exact ⟨_, rfl, hs.add (by simp)⟩
      · exact ⟨_, rfl, hs⟩
    obtain ⟨t, h1, h2⟩ := hb
    obtain ⟨sc1, h3, -⟩ := variant_inline hv ht (attr' := attr) h2 (fun h => absurd hn h)
      (fun h => by rw [hn] at h; exact nomatch h)
    exact ⟨sc1, by rw [Scope.addAll, codes_cons h1, codes_cons h3]; rfl⟩
  obtain ⟨sc', hb⟩ := hbody
  refine ⟨s.add .ret false, ?_, Scope.isSome_add hs.errors, Scope.isSome_add hs.validate, by simp [Scope.add, hpaths]⟩
  rw [codes_cons hchecks, codes_cons (block_stay hb), codes_cons (sc' := s.add .ret false) rfl,
    codes_cons (uses_stay (by simp [Scope.add, hs.errors])),
    codes_cons (valueCode_stay (skips := false) (by simp [Scope.add, hs.value]) (by simp))]
  rfl

/-- A variant with code that uses variables of the loop although it is not in the loop. -/
def VariantDecl.misplaced (v : VariantDecl) : Bool := !v.isSkipped && v.isFlatten && v.transparent.getD false

theorem armCode_stay {v : VariantDecl} (hv : VariantKnown v) {attr : Bool} {sc : Scope} (h : VariantScope attr sc)
    (hi : (sc .input).isSome = true) (hp : (sc .p).isSome = true) (hk : sc .key = some true) :
    (v.armCode attr).check sc = some sc := by
  unfold VariantDecl.armCode
  split
  · rfl
  · rename_i hs
    simp only [Bool.or_eq_true, not_or, Bool.not_eq_true] at hs
    obtain ⟨sc1, h1⟩ := Option.isSome_iff_exists.1 (variant_code_arm hv hs.2 (h.addAll (ps := [.k]) (by simp))
      (Scope.isSome_addAll hi) (Scope.isSome_addAll hp))
    refine block_stay (sc' := sc1) ?_
    have hids : (codes (v.idents.map fun _ => block [] (set .key))).check (sc.addAll [.k]) = some (sc.addAll [.k]) := by
      refine codes_stay fun c hc => ?_
      obtain ⟨_, -, rfl⟩ := List.mem_map.1 hc
      exact block_stay (set_stay (by simp [Scope.addAll, Scope.add, hk]))
    have hkk : (sc.addAll [.k] .key).isSome = true := by simp [Scope.addAll, Scope.add, hk]
    rw [codes_cons (use_stay hkk), codes_cons (block_stay (uses_stay ?_)), codes_cons (use_stay hkk),
      codes_cons (block_stay (sc' := sc.addAll [.k]) ?_), codes_cons h1]
    · rfl
    · rw [Scope.addAll, codes_cons (use_stay (by simp [Scope.addAll, Scope.add])), codes_cons hids]
      rfl
    · simp [Scope.addAll, Scope.add, h.span, h.prefix_, h.errors]

theorem flatArmCode_stay {v : VariantDecl} (hv : VariantKnown v) (hm : v.misplaced = false) {attr allow : Bool} {sc : Scope}
    (h : VariantScope attr sc) (hp : (v.isFlatten && !v.isSkipped) = true → sc .paths = some true) :
    (v.flatArmCode attr allow).check sc = some sc := by
  unfold VariantDecl.flatArmCode
  split
  · rfl
  · rename_i hs
    simp only [Bool.or_eq_true, not_or, Bool.not_eq_true, Bool.not_eq_false'] at hs
    have hpaths := hp (by simp [hs.1, hs.2])
    have ht : v.transparent.getD false = false := by
      cases hx : v.transparent.getD false with
      | false => rfl
      | true => simp [VariantDecl.misplaced, hs.1, hs.2, hx] at hm
    obtain ⟨sc1, h1, h2, h3, h4⟩ := variant_code_flat hv (hv.flatNamed hs.2) ht (empty := v.fieldKey.isEmpty) h
    rw [codes_cons (sc' := sc), codes_cons (block_stay (sc' := sc1) ?_)]
    · rfl
    · rw [Scope.addAll, codes_cons h1]
      refine (codes_cons (sc' := sc1) (cs := []) ?_).trans rfl
      split
      · rfl
      · simp [codes, Code.check, Scope.addAll, h2, h3, h4, hpaths]
    · split
      · rfl
      · exact use_stay (by rw [hpaths]; rfl)

theorem enumValidateCode_stay {allow : Bool} {sc : Scope} (h1 : (sc .validate).isSome = true)
    (h2 : (sc .inputs).isSome = true) (h3 : (sc .allowed).isSome = true) (h4 : (sc .errors).isSome = true) :
    (enumValidateCode allow).check sc = some sc := by
  unfold enumValidateCode
  split
  · rfl
  · simp [codes, uses, Code.check, Scope.addAll, Scope.add, h1, h2, h3, h4]

/-- The code of an enum has all its names, if no flattened variant is transparent. -/
theorem enum_code_resolves {d : EnumDecl} (hv : ∀ v ∈ d.variants, VariantKnown v)
    (hm : ∀ v ∈ d.variants, v.misplaced = false) {attr : Bool} {sc : Scope}
    (hinputs : (sc .inputs).isSome = true) (hspan : (sc .span).isSome = true) (hprefix : (sc .prefix_).isSome = true)
    (hvalidate : (sc .validate).isSome = true) (hallowed : (sc .allowed).isSome = true)
    (hobj : attr = true → (sc .obj).isSome = true) (hpath : attr = true → (sc .pathName).isSome = true) :
    ((d.code attr).check sc).isSome = true := by
  unfold EnumDecl.code
  dsimp only
  generalize hany : (d.variants.any fun v => v.isFlatten && !v.isSkipped) = any
  rw [codes_cons (sc' := sc.add .key true) rfl, codes_cons (sc' := (sc.add .key true).add .value true) rfl,
    codes_cons (sc' := if any then ((sc.add .key true).add .value true).add .paths true else
      (sc.add .key true).add .value true) (by cases any <;> rfl),
    codes_cons (sc' := (if any then ((sc.add .key true).add .value true).add .paths true else
      (sc.add .key true).add .value true).add .errors false) rfl]
  generalize hS : (if any then ((sc.add .key true).add .value true).add .paths true else
      (sc.add .key true).add .value true).add .errors false = S
  have hsome : ∀ x, (sc x).isSome = true → (S x).isSome = true := by
    intro x hx
    rw [← hS]
    refine Scope.isSome_add ?_
    split
    · exact Scope.isSome_add (Scope.isSome_add (Scope.isSome_add hx))
    · exact Scope.isSome_add (Scope.isSome_add hx)
  have hvs : VariantScope attr S :=
    { errors := by rw [← hS]; simp [Scope.add]
      inputs := hsome _ hinputs
      span := hsome _ hspan
      prefix_ := hsome _ hprefix
      validate := hsome _ hvalidate
      allowed := hsome _ hallowed
      value := by rw [← hS]; cases any <;> simp [Scope.add]
      obj := fun h => hsome _ (hobj h)
      pathName := fun h => hsome _ (hpath h) }
  have hkey : S .key = some true := by rw [← hS]; cases any <;> simp [Scope.add]
  have hpaths : any = true → S .paths = some true := by rintro rfl; rw [← hS]; simp [Scope.add]
  clear hS
  have hval : (S .value).isSome = true := by rw [hvs.value]; rfl
  have hdis : (if (any && !d.allowUnknown.getD false) = true then
      codes [use .validate, block [] (codes [use .key, set .paths, uses [.paths, .key, .errors]])]
      else .skip : Code).check S = some S := by
    split
    · rename_i h
      simp only [Bool.and_eq_true] at h
      simp [codes, uses, Code.check, Scope.addAll, hvs.validate, hkey, hpaths h.1, hvs.errors]
    · rfl
  have hval' : ∀ s : Scope, s = S → (enumValidateCode (d.allowUnknown.getD false)).check s = some s := by
    rintro s rfl
    exact enumValidateCode_stay hvs.validate hvs.inputs hvs.allowed hvs.errors
  have hflat : (codes (d.variants.map (·.flatArmCode attr (d.allowUnknown.getD false)))).check S = some S := by
    refine codes_stay fun c hc => ?_
    obtain ⟨v, hm', rfl⟩ := List.mem_map.1 hc
    exact flatArmCode_stay (hv v hm') (hm v hm') hvs fun h => hpaths (by
      rw [← hany]; exact List.any_eq_true.2 ⟨v, hm', h⟩)
  have hempty : (if (d.variants.any fun v => !v.isSkipped && v.isFlatten && v.fieldKey.isEmpty) = true then .skip
      else if d.default.isSome then block [] (set .value)
      else block [] (codes [enumValidateCode (d.allowUnknown.getD false), uses [.span, .prefix_, .errors]]) : Code).check S =
      some S := by
    split
    · rfl
    · split
      · exact block_stay (set_stay hvs.value)
      · refine block_stay (sc' := S) ?_
        rw [Scope.addAll, codes_cons (hval' S rfl), codes_cons (uses_stay (by
          simp [hvs.span, hvs.prefix_, hvs.errors]))]
        rfl
  have hthens : ∃ s, (codes (d.andThens.map fun _ => codes [use .value,
      block [.v] (codes [bind .f false, uses [.errors, .f, .v]]), bind .value false])).check (S.add .value false) = some s ∧
      (s .inputs).isSome = true ∧ (s .errors).isSome = true ∧ (s .value).isSome = true := by
    refine codes_keep (I := fun s => (s .inputs).isSome = true ∧ (s .errors).isSome = true ∧ (s .value).isSome = true)
      (fun c hc s hs => ?_) (by simp [Scope.add, hvs.inputs, hvs.errors])
    obtain ⟨_, -, rfl⟩ := List.mem_map.1 hc
    exact ⟨s.add .value false, by simp [codes, uses, Code.check, hs.2, Scope.addAll, Scope.add],
      by simpa [Scope.add] using hs.1, by simpa [Scope.add] using hs.2.1, by simp [Scope.add]⟩
  obtain ⟨s, h1, h2, h3, h4⟩ := hthens
  have hloop : ∃ s, (codes [use .input, bind .inputs false, use .inputs, bind .inputs false,
      uses [.p, .prefix_], bind .cur false,
      if any then codes [use .cur, block [.cur] (codes [uses [.cur, .span], set .paths])] else .skip,
      use .cur, codes (d.variants.map (·.armCode attr)), use .input]).check (S.addAll [.input, .p, .span]) = some s := by
    let t := (((S.addAll [.input, .p, .span]).add .inputs false).add .inputs false).add .cur false
    have htv : VariantScope attr t :=
      (((hvs.addAll (ps := [.input, .p, .span]) (by simp)).add (by simp)).add (by simp)).add (by simp)
    refine ⟨t, ?_⟩
    rw [codes_cons (use_stay (by simp [Scope.addAll, Scope.add])), codes_cons rfl,
      codes_cons (use_stay (by simp [Scope.add])), codes_cons rfl,
      codes_cons (uses_stay (by simp [Scope.addAll, Scope.add, hvs.prefix_])), codes_cons (sc' := t) rfl]
    have harms : (codes (d.variants.map (·.armCode attr))).check t = some t := by
      refine codes_stay fun c hc => ?_
      obtain ⟨v, hm', rfl⟩ := List.mem_map.1 hc
      exact armCode_stay (hv v hm') htv (by simp [t, Scope.addAll, Scope.add]) (by simp [t, Scope.addAll, Scope.add])
        (by simp [t, Scope.addAll, Scope.add, hkey])
    have hcur : (t .cur).isSome = true := by simp [t, Scope.add]
    have hif : (if any then codes [use .cur, block [.cur] (codes [uses [.cur, .span], set .paths])] else .skip :
        Code).check t = some t := by
      cases hx : any with
      | false => rfl
      | true =>
        have : t .paths = some true := by simp [t, Scope.addAll, Scope.add, hpaths hx]
        simp [codes, uses, Code.check, Scope.addAll, Scope.add, hcur, htv.span, this]
    rw [codes_cons hif, codes_cons (use_stay hcur), codes_cons harms, codes_cons (use_stay (by
      simp [t, Scope.addAll, Scope.add]))]
    rfl
  obtain ⟨sl, hl⟩ := hloop
  rw [codes_cons (use_stay hvs.errors), codes_cons (use_stay hvs.inputs), codes_cons (block_stay hl),
    codes_cons (use_stay hval), codes_cons (block_stay (sc' := S) ?_), codes_cons (use_stay hval),
    codes_cons (block_stay (sc' := S) ?_), codes_cons (use_stay hval), codes_cons (sc' := S.add .value false) rfl,
    codes_cons h1, codes_cons (uses_stay (by simp [h2, h3, h4]))]
  · rfl
  · rw [Scope.addAll, codes_cons hflat, codes_cons hempty]
    rfl
  · rw [Scope.addAll, codes_cons hdis, codes_cons (hval' S rfl)]
    rfl

/-- The code of a transparent variant uses `input`. -/
theorem variant_code_exposes {v : VariantDecl} (ht : v.transparent.getD false = true) (attr : Bool) (flat : Option Bool) :
    (v.code attr flat).Exposes .input := by
  have hcode : v.code attr flat = codes [preCode v.shape v.fields true, use .errors, uses [.input, .p, .span],
      block [.v] (codes [use .v, set (.field (transparentIndex v.fields)),
        postCode v.shape v.fields (variantData v attr)]), valueCode true] := by
    simp only [VariantDecl.code, ht, if_true, variantData]
  have hpre : ∀ s, (preCode s v.fields true).binds .input = false := by
    intro s
    unfold preCode
    have : (perField v.fields fun i _ => bind (.field i) true).binds .input = false :=
      perField_binds fun i f _ => by simp [Code.binds]
    cases s <;> simp [codes, Code.binds, this]
  rw [hcode]
  exact .inr ⟨hpre _, .inr ⟨rfl, .inl (.inl rfl)⟩⟩

theorem flatArmCode_binds (v : VariantDecl) (attr allow : Bool) : (v.flatArmCode attr allow).binds .input = false := by
  unfold VariantDecl.flatArmCode
  split
  · rfl
  · split <;> simp [codes, Code.binds]

/-- The code of an enum uses `input` outside of the loop, if a flattened variant is transparent. -/
theorem enum_code_exposes {d : EnumDecl} {v : VariantDecl} (hv : v ∈ d.variants) (hm : v.misplaced = true) (attr : Bool) :
    (d.code attr).Exposes .input := by
  simp only [VariantDecl.misplaced, Bool.and_eq_true, Bool.not_eq_true'] at hm
  have harm : (v.flatArmCode attr (d.allowUnknown.getD false)).Exposes .input := by
    unfold VariantDecl.flatArmCode
    rw [if_neg (by simp [hm.1.1, hm.1.2])]
    refine .inr ⟨?_, .inl ⟨by simp, .inl (variant_code_exposes hm.2 _ _)⟩⟩
    split <;> rfl
  have harms : (codes (d.variants.map (·.flatArmCode attr (d.allowUnknown.getD false)))).Exposes .input := by
    refine codes_exposes (fun c hc => ?_) (List.mem_map.2 ⟨v, hv, rfl⟩) harm
    obtain ⟨w, -, rfl⟩ := List.mem_map.1 hc
    exact flatArmCode_binds w _ _
  unfold EnumDecl.code
  dsimp only
  refine .inr ⟨rfl, .inr ⟨rfl, .inr ⟨?_, .inr ⟨rfl, .inr ⟨rfl, .inr ⟨rfl, .inr ⟨rfl, .inr ⟨rfl, .inr ⟨rfl, .inr ⟨rfl,
    .inl ⟨by simp, .inl harms⟩⟩⟩⟩⟩⟩⟩⟩⟩⟩⟩
  split <;> rfl

theorem EnumDecl.namesCode_stay (d : EnumDecl) (sc : Scope) : d.namesCode.check sc = some sc := by
  unfold EnumDecl.namesCode
  split
  · refine block_stay (sc' := sc) ?_
    refine block_stay (sc' := sc.add .vec true) ?_
    have : (codes (d.variants.map fun v => codes [set .vec,
        if v.isFlatten && v.fields.any fun f => f.flatten.any fun x => x.value && x.pre.isSome then untyped else .skip])).check
        (sc.add .vec true) = some (sc.add .vec true) := by
      refine codes_stay fun c hc => ?_
      obtain ⟨v, -, rfl⟩ := List.mem_map.1 hc
      rw [codes_cons (set_stay (by simp [Scope.add]))]
      split <;> rfl
    rw [codes_cons (sc' := sc.add .vec true) rfl, codes_cons this, codes_cons (use_stay (by simp [Scope.add]))]
    rfl
  · rfl

section
variable [Env]

theorem variantKnown_of {lib : SynLib} {d : EnumIn} {r : EnumDecl} (h : d.read lib = .ok r)
    (hw : ∀ v ∈ d.variants, ShapeIs v.shape v.fields) (hp : (r.variants.any (·.genPanics)) = false) :
    ∀ v ∈ r.variants, VariantKnown v := by
  obtain ⟨hvs, hc⟩ := EnumIn.read_ok h
  intro v hv
  have : (Res.ok v : Res VariantDecl) ∈ d.variants.map (VariantIn.read lib) := by rw [hvs]; exact List.mem_map_of_mem hv
  obtain ⟨w, hw', he⟩ := List.mem_map.1 this
  obtain ⟨-, h2, h3⟩ := variant_facts he (hw w hw').fits
  obtain ⟨h4, h5⟩ := variant_names he (hw w hw')
  refine ⟨h4, h5, h3, hc.flatNamed v hv, fun hs ht => one_of_any (h2 (by rw [ht]; rfl)) ?_⟩
  have := List.any_eq_false.1 hp v hv
  unfold VariantDecl.genPanics at this
  unfold VariantDecl.isSkipped at hs
  simpa [hs, ht] using this

/-- C96 for enums. -/
theorem c96_enum {lib : SynLib} {d : EnumIn} {r : EnumDecl} (h : d.read lib = .ok r)
    (hw : ∀ v ∈ d.variants, ShapeIs v.shape v.fields) (hp : (r.variants.any (·.genPanics)) = false) (which : Derive) :
    (∀ g ∈ (Decl.enum r).fns which, g.Resolves) ↔
      ¬ ∃ v ∈ r.variants, v.isSkipped = false ∧ v.isFlatten = true ∧ v.transparent = some true := by
  have hk := variantKnown_of h hw hp
  have hmis : ∀ v : VariantDecl, v.misplaced = true ↔
      v.isSkipped = false ∧ v.isFlatten = true ∧ v.transparent = some true := by
    intro v
    unfold VariantDecl.misplaced
    cases v.transparent <;> simp [and_assoc]
  constructor
  · rintro hall ⟨v, hv, hm⟩
    have hex := fun attr => enum_code_exposes hv ((hmis v).2 hm) attr
    cases which with
    | metaItem =>
      have := hall ⟨[(.inputs, false), (.mode_, false), (.prefix_, false), (.validate, false)],
        codes [uses [.mode_, .inputs], bind .span false, bind .allowed false, r.code false]⟩
        (List.mem_append_right _ (by simp))
      refine absurd this ?_
      unfold FnCode.Resolves
      rw [Code.check_exposed (x := .input)]
      · simp
      · exact .inr ⟨rfl, .inr ⟨rfl, .inr ⟨rfl, .inl (hex false)⟩⟩⟩
      · simp [Scope.add]
    | attrs m =>
      have := hall _ (List.mem_cons_of_mem _ (List.mem_cons_self ..))
      refine absurd this ?_
      unfold FnCode.Resolves
      rw [Code.check_exposed (x := .input)]
      · simp
      · refine .inr ⟨rfl, .inl ⟨by simp, .inr ⟨rfl, .inr ⟨rfl, .inr ⟨rfl, .inr ⟨rfl, .inr ⟨rfl, .inr ⟨rfl, .inl ?_⟩⟩⟩⟩⟩⟩⟩⟩
        refine .inr ⟨?_, .inr ⟨rfl, .inr ⟨rfl, .inr ⟨rfl, .inl (hex true)⟩⟩⟩⟩
        unfold EnumDecl.namesCode
        split <;> rfl
      · simp [Scope.add]
  · intro hn
    have hm : ∀ v ∈ r.variants, v.misplaced = false := by
      intro v hv
      cases hx : v.misplaced with
      | false => rfl
      | true => exact absurd ⟨v, hv, (hmis v).1 hx⟩ hn
    cases which with
    | metaItem =>
      intro g hg
      change g ∈ r.metaFns at hg
      unfold EnumDecl.metaFns at hg
      simp only [List.mem_append] at hg
      rcases hg with (hg | hg) | hg
      · simp only [List.mem_cons, List.not_mem_nil, or_false] at hg
        rcases hg with rfl | rfl | rfl <;> rfl
      · split at hg
        · simp only [List.mem_cons, List.not_mem_nil, or_false] at hg
          subst hg
          rfl
        · exact absurd hg List.not_mem_nil
      · simp only [List.mem_cons, List.not_mem_nil, or_false] at hg
        rcases hg with rfl | rfl | rfl | rfl
        · unfold FnCode.Resolves
          simp only
          rw [EnumDecl.namesCode_stay]
          rfl
        · unfold FnCode.Resolves
          simp only
          rw [codes_cons (uses_stay (by simp [Scope.add])), codes_cons rfl, codes_cons rfl]
          obtain ⟨s, hs⟩ := Option.isSome_iff_exists.1 (enum_code_resolves hk hm (attr := false) (sc := (Scope.add
            ([(Var.inputs, false), (.mode_, false), (.prefix_, false), (.validate, false)].foldl
              (fun (sc : Scope) q => sc.add q.1 q.2) fun _ => none) .span false).add .allowed false)
            (by simp [Scope.add]) (by simp [Scope.add]) (by simp [Scope.add]) (by simp [Scope.add]) (by simp [Scope.add])
            (fun h => nomatch h) (fun h => nomatch h))
          rw [codes_cons hs]
          rfl
        · rfl
        · rfl
    | attrs m =>
      change ∀ g ∈ r.attrFns, g.Resolves
      refine attrFns_resolves ?_
      rw [codes_cons (EnumDecl.namesCode_stay _ _), codes_cons rfl, codes_cons rfl, codes_cons rfl]
      obtain ⟨s, hs⟩ := Option.isSome_iff_exists.1 (enum_code_resolves hk hm (attr := true)
        (sc := ((attrScope.add .allowed false).add .validate false).add .prefix_ false)
        (by simp [attrScope, Scope.add]) (by simp [attrScope, Scope.add]) (by simp [Scope.add])
        (by simp [Scope.add]) (by simp [Scope.add])
        (fun _ => by simp [attrScope, Scope.add]) (fun _ => by simp [attrScope, Scope.add]))
      rw [codes_cons hs]
      rfl
end

end Deluxe
