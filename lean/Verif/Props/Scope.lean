import Verif.Lemmas.Scope
/-!
# C96: the names in the generated code can be resolved
-/
namespace Deluxe
open Code (skip use set bind block untyped)

/-! ## Names that cannot be resolved -/

/-- The code binds the variable for the code after it. -/
def Code.binds (x : Var) : Code → Bool
  | .bind y _ => y = x
  | .seq a b => a.binds x || b.binds x
  | _ => false

/-- The code uses the variable before it binds it. -/
def Code.Exposes (x : Var) : Code → Prop
  | .use y => y = x
  | .set y => y = x
  | .seq a b => a.Exposes x ∨ a.binds x = false ∧ b.Exposes x
  | .block ps b => x ∉ ps ∧ b.Exposes x
  | _ => False

theorem Code.check_unbound {x : Var} {c : Code} {sc sc' : Scope} (h : c.check sc = some sc') (hb : c.binds x = false) :
    sc' x = sc x := by
  induction c generalizing sc sc' with
  | skip | untyped => cases h; rfl
  | seq a b iha ihb =>
    simp only [Code.check, Option.bind_eq_some_iff] at h
    obtain ⟨s, h1, h2⟩ := h
    simp only [Code.binds, Bool.or_eq_false_iff] at hb
    exact (ihb h2 hb.2).trans (iha h1 hb.1)
  | use y | set y =>
    simp only [Code.check] at h
    split at h <;> cases h
    rfl
  | bind y m =>
    cases h
    unfold Scope.add
    rw [if_neg (fun h => by simp [Code.binds, h] at hb)]
  | block ps b =>
    simp only [Code.check, Option.map_eq_some_iff] at h
    obtain ⟨_, -, rfl⟩ := h
    rfl

theorem Scope.addAll_not_mem {x : Var} : ∀ {ps : List Var} {sc : Scope}, x ∉ ps → sc.addAll ps x = sc x
  | [], _, _ => rfl
  | y :: ps, sc, h => by
    simp only [List.mem_cons, not_or] at h
    unfold Scope.addAll
    rw [Scope.addAll_not_mem h.2]
    unfold Scope.add
    rw [if_neg h.1]

theorem Code.check_exposed {x : Var} {c : Code} {sc : Scope} (h : c.Exposes x) (hx : sc x = none) : c.check sc = none := by
  induction c generalizing sc with
  | skip | untyped | bind => exact absurd h id
  | use y => cases (show y = x from h); simp [Code.check, hx]
  | set y => cases (show y = x from h); simp [Code.check, hx]
  | seq a b iha ihb =>
    rcases h with h | ⟨hb, h⟩
    · simp [Code.check, iha h hx]
    · cases ha : a.check sc with
      | none => simp [Code.check, ha]
      | some s => simp [Code.check, ha, ihb h ((Code.check_unbound ha hb).trans hx)]
  | block ps b ih => simp [Code.check, ih h.2 ((Scope.addAll_not_mem h.1).trans hx)]

theorem codes_binds {x : Var} {l : List Code} (h : ∀ c ∈ l, c.binds x = false) : (codes l).binds x = false := by
  induction l with
  | nil => rfl
  | cons c cs ih =>
    simp only [codes, Code.binds, Bool.or_eq_false_iff]
    exact ⟨h c (List.mem_cons_self ..), ih (fun c hc => h c (List.mem_cons_of_mem _ hc))⟩

theorem perField_binds {x : Var} {fields : List FieldDecl} {g : Nat → FieldDecl → Code}
    (h : ∀ i, ∀ f ∈ fields, (g i f).binds x = false) : (perField fields g).binds x = false := by
  refine codes_binds fun c hc => ?_
  obtain ⟨⟨f, i⟩, hm, rfl⟩ := List.mem_map.1 hc
  exact h i f (List.fst_mem_of_mem_zipIdx hm)

theorem codes_exposes {x : Var} {l : List Code} (hb : ∀ c ∈ l, c.binds x = false) {c : Code} (hc : c ∈ l) (he : c.Exposes x) :
    (codes l).Exposes x := by
  induction l with
  | nil => exact absurd hc (List.not_mem_nil)
  | cons d ds ih =>
    rcases List.mem_cons.1 hc with rfl | hc
    · exact .inl he
    · exact .inr ⟨hb d (List.mem_cons_self ..), ih (fun c hc => hb c (List.mem_cons_of_mem _ hc)) hc⟩

/-! ## Structures -/

/-- The fields of a definition as syn gives them: those of a structure with braces have names, those of a tuple have
none, and `struct S;` has no fields. -/
def ShapeIs (shape : Shape) (fields : List FieldIn) : Prop :=
  (∀ f ∈ fields, f.ident.isSome = true ↔ shape = .named) ∧ (shape = .unit → fields = [])

theorem ShapeIs.fits {shape : Shape} {fields : List FieldIn} (h : ShapeIs shape fields) : ShapeFits shape fields := by
  intro hs f hf
  cases hi : f.ident with
  | none => rfl
  | some x => exact absurd ((h.1 f hf).1 (by rw [hi]; rfl)) (by rw [hs]; decide)

section
variable [Env]

theorem read_names {lib : SynLib} {shape : Shape} {fields : List FieldIn} {ds : List FieldDecl}
    (hw : ShapeIs shape fields) (hf : fields.map (FieldIn.read lib) = ds.map .ok) :
    (∀ g ∈ ds, g.ident.isSome = true ↔ shape = .named) ∧ (shape = .unit → ds = []) := by
  refine ⟨fun g hg => ?_, fun hs => ?_⟩
  · have : (Res.ok g : Res FieldDecl) ∈ fields.map (FieldIn.read lib) := by rw [hf]; exact List.mem_map_of_mem hg
    obtain ⟨f, hf, he⟩ := List.mem_map.1 this
    obtain ⟨acc, -, -, -, rfl⟩ := FieldIn.read_ok he
    exact hw.1 f hf
  · rw [hw.2 hs] at hf
    cases ds with
    | nil => rfl
    | cons => simp at hf

theorem struct_names {lib : SynLib} {d : StructIn} {r : StructDecl} (h : d.read lib = .ok r)
    (hw : ShapeIs d.shape d.fields) :
    (∀ g ∈ r.fields, g.ident.isSome = true ↔ r.shape = .named) ∧ (r.shape = .unit → r.fields = []) := by
  obtain ⟨ds, acc, hf, -, -, -, rfl⟩ := StructIn.read_ok h
  obtain ⟨h1, h2⟩ := read_names hw hf
  have hfields : (structDone d.shape ds acc).2.fields =
      if acc.val.default.isNone then ds.map fillSkipped else ds := rfl
  rw [hfields]
  split
  · refine ⟨fun g hg => ?_, fun hs => by rw [h2 hs]; rfl⟩
    obtain ⟨g, hg', rfl⟩ := List.mem_map.1 hg
    rw [fillSkipped_eq]
    exact h1 g hg'
  · exact ⟨h1, h2⟩

theorem variant_names {lib : SynLib} {v : VariantIn} {r : VariantDecl} (h : v.read lib = .ok r)
    (hw : ShapeIs v.shape v.fields) :
    (∀ g ∈ r.fields, g.ident.isSome = true ↔ r.shape = .named) ∧ (r.shape = .unit → r.fields = []) := by
  obtain ⟨ds, acc, hf, -, -, -, rfl⟩ := VariantIn.read_ok h
  obtain ⟨h1, h2⟩ := read_names hw hf
  have hfields : (variantDone lib v ds acc).2.fields = ds.map fillSkipped := rfl
  rw [hfields]
  refine ⟨fun g hg => ?_, fun hs => by rw [h2 hs]; rfl⟩
  obtain ⟨g, hg', rfl⟩ := List.mem_map.1 hg
  rw [fillSkipped_eq]
  exact h1 g hg'
end

theorem Scope.isSome_add {sc : Scope} {x y : Var} {m : Bool} (h : (sc x).isSome = true) :
    (sc.add y m x).isSome = true := by
  unfold Scope.add
  split
  · rfl
  · exact h

theorem Scope.isSome_pre {sc : Scope} {x : Var} {n : Nat} {t : Bool} (h : (sc x).isSome = true) :
    (sc.pre n t x).isSome = true := by
  by_cases hf : ∃ i, x = .field i
  · obtain ⟨i, rfl⟩ := hf
    cases t <;>
    · simp only [Scope.pre, Scope.fields, Scope.add, Bool.false_eq_true, if_false, if_true, reduceCtorEq]
      split
      · rfl
      · exact h
  · by_cases he : x = .errors
    · subst he
      cases t
      · rw [Scope.pre_errors]; rfl
      · rw [Scope.pre_errors_transparent]; exact h
    · rw [Scope.pre_other (fun i hi => hf ⟨i, hi⟩) he]
      exact h

theorem fillContainer_same (f : FieldDecl) : (fillContainer f).ident = f.ident ∧ (fillContainer f).append = f.append ∧
    (fillContainer f).rest = f.rest ∧ (fillContainer f).isFlat = f.isFlat ∧ (fillContainer f).isParsable = f.isParsable ∧
    (fillContainer f).transforms = f.transforms ∧ (fillContainer f).isContainer = f.isContainer := by
  unfold fillContainer
  split
  · split <;> exact ⟨rfl, rfl, rfl, rfl, rfl, rfl, rfl⟩
  · exact ⟨rfl, rfl, rfl, rfl, rfl, rfl, rfl⟩

/-- Some field has `and_then`. -/
def HasAndThen (fields : List FieldDecl) : Prop := ∃ f ∈ fields, ∃ t, TransformD.andThen t ∈ f.transforms

theorem hasAndThen_fill (fields : List FieldDecl) : HasAndThen (fields.map fillContainer) ↔ HasAndThen fields := by
  unfold HasAndThen
  simp only [List.mem_map]
  constructor
  · rintro ⟨_, ⟨f, hf, rfl⟩, h⟩
    rw [(fillContainer_same f).2.2.2.2.2.1] at h
    exact ⟨f, hf, h⟩
  · rintro ⟨f, hf, h⟩
    exact ⟨_, ⟨f, hf, rfl⟩, by rw [(fillContainer_same f).2.2.2.2.2.1]; exact h⟩

/-- What is known about the fields that the code is made from. -/
structure FieldsFine (d : StructDecl) (fields : List FieldDecl) : Prop where
  names : ∀ f ∈ fields, f.ident.isSome = true ↔ d.shape = .named
  unit : d.shape = .unit → fields = []
  plain : d.shape = .unnamed → ∀ f ∈ fields, f.append = none ∧ f.rest = none
  one : d.isTransparent = true → (∀ f ∈ fields, f.isParsable = true → f.isFlat = false) ∧
    (fields.findIdx? fun f => f.isParsable && !f.isFlat).isSome = true

theorem transparentIndex_lt {fields : List FieldDecl}
    (h : (fields.findIdx? fun f => f.isParsable && !f.isFlat).isSome = true) : transparentIndex fields < fields.length := by
  unfold transparentIndex
  cases hf : fields.findIdx? fun f => f.isParsable && !f.isFlat with
  | none => simp [hf] at h
  | some i => exact (List.findIdx?_eq_some_iff_getElem.1 hf).1

theorem one_of {fields : List FieldDecl} (hc : CanBeTransparent fields)
    (h : ((fields.filter fun f => f.isParsable && !f.isFlat).take 2).length = 1) :
    (∀ f ∈ fields, f.isParsable = true → f.isFlat = false) ∧
    (fields.findIdx? fun f => f.isParsable && !f.isFlat).isSome = true := by
  obtain ⟨f, hf, -⟩ := hc
  have h2 : (fields.filter fun f => f.isParsable && !f.isFlat) = [f].filter fun f => !f.isFlat := by
    rw [← hf, List.filter_filter]
    congr 1
    funext f
    exact Bool.and_comm _ _
  have hflat : f.isFlat = false := by
    rw [h2] at h
    cases hfl : f.isFlat with
    | false => rfl
    | true => simp [hfl] at h
  refine ⟨fun g hg hp => ?_, ?_⟩
  · have : g ∈ fields.filter (·.isParsable) := List.mem_filter.2 ⟨hg, hp⟩
    rw [hf, List.mem_singleton] at this
    rw [this]; exact hflat
  · rw [List.findIdx?_isSome]
    have : f ∈ fields.filter (·.isParsable) := by rw [hf]; exact List.mem_singleton.2 rfl
    obtain ⟨hm, hp⟩ := List.mem_filter.1 this
    exact List.any_eq_true.2 ⟨f, hm, by simp [hp, hflat]⟩

section
variable [Env]

theorem fieldsFine_of {lib : SynLib} {d : StructIn} {r : StructDecl} (h : d.read lib = .ok r)
    (hw : ShapeIs d.shape d.fields) : FieldsFine r r.fields := by
  obtain ⟨-, h2, h3, -⟩ := struct_facts h hw.fits
  obtain ⟨h4, h5⟩ := struct_names h hw
  refine ⟨h4, h5, h3, fun ht => ?_⟩
  unfold StructDecl.isTransparent at ht
  simp only [Bool.and_eq_true, beq_iff_eq] at ht
  have : r.transparent.isSome = true := by
    cases htr : r.transparent with
    | none => simp [htr] at ht
    | some _ => rfl
  exact one_of (h2 this) ht.2
end

theorem FieldsFine.fill {d : StructDecl} {fields : List FieldDecl} (h : FieldsFine d fields) :
    FieldsFine d (fields.map fillContainer) where
  names f hf := by
    obtain ⟨g, hg, rfl⟩ := List.mem_map.1 hf
    rw [(fillContainer_same g).1]
    exact h.names g hg
  unit hs := by rw [h.unit hs]; rfl
  plain hs f hf := by
    obtain ⟨g, hg, rfl⟩ := List.mem_map.1 hf
    rw [(fillContainer_same g).2.1, (fillContainer_same g).2.2.1]
    exact h.plain hs g hg
  one ht := by
    obtain ⟨h1, h2⟩ := h.one ht
    refine ⟨fun f hf hp => ?_, ?_⟩
    · obtain ⟨g, hg, rfl⟩ := List.mem_map.1 hf
      rw [(fillContainer_same g).2.2.2.2.1] at hp
      rw [(fillContainer_same g).2.2.2.1]
      exact h1 g hg hp
    · rw [List.findIdx?_isSome, List.any_map]
      rw [List.findIdx?_isSome] at h2
      have : ((fun f : FieldDecl => f.isParsable && !f.isFlat) ∘ fillContainer) = fun f => f.isParsable && !f.isFlat := by
        funext f
        simp only [Function.comp, (fillContainer_same f).2.2.2.2.1, (fillContainer_same f).2.2.2.1]
      rw [this]
      exact h2

/-- What is around the code of a transparent structure. -/
def structData (d : StructDecl) (attr : Bool) (inlineE allowedE : Code) : CodeData :=
  { attr := attr, var := d.default.isSome, inlineE := inlineE, allowedE := allowedE, transparent := d.isTransparent,
    variant := false, allowUnknown := d.allowUnknown.getD false }

/-- The code of a transparent structure around the call of the field's parser. -/
def transparentCode (d : StructDecl) (fields : List FieldDecl) (attr : Bool) (inlineE allowedE : Code) (xs : List Var) :
    Code :=
  codes [codes [preCode d.shape fields true, if d.default.isSome then bind .target true else skip,
      if d.shape = .unnamed then bind .index false else skip],
    uses xs, set (.field (transparentIndex fields)),
    thensCode d.andThens (postCode d.shape fields (structData d attr inlineE allowedE))]

theorem transparentCode_resolves {d : StructDecl} {fields : List FieldDecl} (hf : FieldsFine d fields)
    (ht : d.isTransparent = true) (ha : ¬ HasAndThen fields) {attr : Bool} {inlineE allowedE : Code} {xs : List Var}
    {sc : Scope} (hx : ∀ x ∈ xs, (sc x).isSome = true) (hallowed : d.shape = .named → AllowedFine allowedE sc)
    (hattr : attr = true → (sc .obj).isSome = true ∧ (sc .pathName).isSome = true) :
    ((transparentCode d fields attr inlineE allowedE xs).check sc).isSome = true := by
  obtain ⟨h1, h2⟩ := hf.one ht
  have hlt := transparentIndex_lt h2
  have hs : d.shape ≠ .unit := by
    intro hs
    rw [hf.unit hs] at hlt
    exact absurd hlt (by simp)
  unfold transparentCode
  -- the variables after `pre`
  have hpre : (codes [preCode d.shape fields true, if d.default.isSome then bind .target true else skip,
      if d.shape = .unnamed then bind .index false else skip]).check sc =
      some (let s := sc.pre fields.length true
        let s := if d.default.isSome then s.add .target true else s
        if d.shape = .unnamed then s.add .index false else s) := by
    rw [codes_cons (preCode_check hs fields true sc)]
    cases d.default <;> by_cases hu : d.shape = .unnamed <;> simp [codes, Code.check, hu]
  rw [codes_cons hpre]
  generalize hS : (let s := sc.pre fields.length true
        let s := if d.default.isSome then s.add .target true else s
        if d.shape = .unnamed then s.add .index false else s) = S
  have hsome : ∀ x, (sc x).isSome = true → (S x).isSome = true := by
    intro x hx
    have := Scope.isSome_pre (n := fields.length) (t := true) hx
    rw [← hS]
    dsimp only
    split <;> split <;> first | exact Scope.isSome_add (Scope.isSome_add this) | exact Scope.isSome_add this | exact this
  have hfield : ∀ i, i < fields.length → S (.field i) = some true := by
    intro i hi
    have := Scope.pre_field (sc := sc) (t := true) hi
    rw [← hS]
    dsimp only
    split <;> split <;> simp [Scope.add, this]
  have htarget : d.default.isSome = true → S .target = some true := by
    intro hd
    rw [← hS]
    dsimp only
    rw [if_pos hd]
    split <;> simp [Scope.add]
  rw [codes_cons (uses_stay fun x h => hsome x (hx x h)), codes_cons (set_stay (hfield _ hlt))]
  obtain ⟨sc1, hp, -⟩ := postCode_keep (shape := d.shape) (fields := fields) (d := structData d attr inlineE allowedE)
    (sc := S) (fun _ =>
    { allowed := fun h => (hallowed h).mono (hsome _)
      field := hfield
      errors := by
        rintro (h | h)
        · exact absurd (show d.isTransparent = false from h) (by simp [ht])
        · exact absurd h ha
      obj := fun h => hsome _ (hattr h).1
      pathName := fun h => hsome _ (hattr h).2
      target := htarget
      names := hf.names
      flat := fun _ => h1
      named := fun _ h => absurd (show d.isTransparent = false from h) (by simp [ht])
      unnamed := fun _ h => absurd (show d.isTransparent = false from h) (by simp [ht])
      plain := hf.plain })
  have := thensCode_isSome (ts := d.andThens) hp
  cases hc : (thensCode d.andThens (postCode d.shape fields (structData d attr inlineE allowedE))).check S with
  | none => simp [hc] at this
  | some s => rw [codes_cons hc]; rfl

/-- In a transparent structure `errors` is used, and nothing binds it. -/
theorem transparentCode_exposes {d : StructDecl} {fields : List FieldDecl} (hf : FieldsFine d fields)
    (ht : d.isTransparent = true) (ha : HasAndThen fields) {attr : Bool} {inlineE allowedE : Code} {xs : List Var} :
    (transparentCode d fields attr inlineE allowedE xs).Exposes .errors := by
  obtain ⟨-, h2⟩ := hf.one ht
  have hs : d.shape ≠ .unit := by
    intro hs
    have := transparentIndex_lt h2
    rw [hf.unit hs] at this
    exact absurd this (by simp)
  have hset : ∀ i f, (fieldSetCode i f).binds .errors = false := by
    intro i f
    have : (codes (f.transforms.map (transformCode i))).binds .errors = false := by
      refine codes_binds fun c hc => ?_
      obtain ⟨t, -, rfl⟩ := List.mem_map.1 hc
      cases t <;> simp [transformCode, codes, Code.binds]
    unfold fieldSetCode
    cases f.default <;> simp [codes, Code.binds, this]
  have hpost : (postCode d.shape fields (structData d attr inlineE allowedE)).Exposes .errors := by
    have hshape : postCode d.shape fields (structData d attr inlineE allowedE) = codes [
        if d.shape = .named then perField fields (flatFieldCode (structData d attr inlineE allowedE)) else skip,
        perField fields (containerCode attr),
        fieldErrorsCode (d.shape = .named) (structData d attr inlineE allowedE) skip 0 fields,
        perField fields fieldSetCode,
        if d.isTransparent then skip else use .errors,
        perField fields fun i _ => unwrapCode d.default.isSome i,
        retCode d.default.isSome fields.length] := by
      unfold postCode
      cases h : d.shape with
      | unit => exact absurd h hs
      | _ => rfl
    rw [hshape]
    -- nothing before binds `errors`
    refine .inr ⟨?_, .inr ⟨?_, .inr ⟨?_, .inl ?_⟩⟩⟩
    · split
      · refine perField_binds fun i f hm => ?_
        unfold flatFieldCode
        cases hp : f.isParsable with
        | false => rfl
        | true => rw [(hf.one ht).1 f hm hp]; rfl
      · rfl
    · refine perField_binds fun i f hm => ?_
      unfold containerCode
      split <;> rfl
    · have : ∀ (l : List FieldDecl) (e : Code) (k : Nat),
          (fieldErrorsCode (d.shape = .named) (structData d attr inlineE allowedE) e k l).binds .errors = false := by
        intro l
        induction l with
        | nil => intros; rfl
        | cons f fs ih =>
          intro e k
          simp only [fieldErrorsCode, Code.binds, ih, Bool.or_false]
          simp [fieldErrorCode, structData, ht, Code.binds]
      exact this _ _ _
    · obtain ⟨f, hm, t, htr⟩ := ha
      obtain ⟨i, hi⟩ := List.getElem?_of_mem hm
      refine codes_exposes (c := fieldSetCode i f) (fun c hc => ?_)
        (List.mem_map.2 ⟨(f, i), List.mem_zipIdx_iff_getElem?.2 hi, rfl⟩) ?_
      · obtain ⟨⟨g, j⟩, -, rfl⟩ := List.mem_map.1 hc
        exact hset j g
      · refine .inr ⟨?_, .inl ?_⟩
        · cases f.default <;> simp [codes, Code.binds]
        · refine codes_exposes (c := transformCode i (.andThen t)) (fun c hc => ?_) (List.mem_map.2 ⟨_, htr, rfl⟩) ?_
          · obtain ⟨t, -, rfl⟩ := List.mem_map.1 hc
            cases t <;> simp [transformCode, codes, Code.binds]
          · simp [transformCode, codes, uses, Code.Exposes, Code.binds]
  unfold transparentCode
  have hthens : (thensCode d.andThens (postCode d.shape fields (structData d attr inlineE allowedE))).Exposes .errors := by
    unfold thensCode
    split
    · exact hpost
    · exact .inl ⟨List.not_mem_nil, hpost⟩
  refine .inr ⟨?_, .inr ⟨?_, .inr ⟨rfl, .inl hthens⟩⟩⟩
  · have : ∀ s, (preCode s fields true).binds .errors = false := by
      intro s
      unfold preCode
      have : (perField fields fun i _ => bind (.field i) true).binds .errors = false :=
        perField_binds fun i f _ => by simp [Code.binds]
      cases s <;> simp [codes, Code.binds, this]
    cases d.default <;> by_cases hu : d.shape = .unnamed <;> simp [codes, Code.binds, this, hu]
  · refine codes_binds fun c hc => ?_
    obtain ⟨x, -, rfl⟩ := List.mem_map.1 hc
    rfl

theorem StructDecl.code_transparent {d : StructDecl} (ht : d.isTransparent = true) (fields : List FieldDecl) (attr : Bool)
    (inlineE allowedE : Code) :
    (d.code fields attr inlineE allowedE).1 = ⟨transparentCode d fields attr inlineE allowedE [.input, .mode_],
      transparentCode d fields attr inlineE allowedE [.inputs, .mode_],
      some (transparentCode d fields attr inlineE allowedE [.span])⟩ := by
  simp only [StructDecl.code, ht, if_true, transparentCode, structData]

theorem StructDecl.code_extra {d : StructDecl} (ht : d.isTransparent = true) (fields : List FieldDecl) (attr : Bool)
    (inlineE allowedE : Code) {g : FnCode} (hg : g ∈ (d.code fields attr inlineE allowedE).2) :
    g = ⟨[], skip⟩ ∨ ∃ ps : List Var, g = ⟨ps.map fun x => (x, false), transparentCode d fields attr inlineE allowedE ps⟩ := by
  simp only [StructDecl.code, ht, if_true] at hg
  simp only [List.mem_append] at hg
  rcases hg with ((hg | hg) | hg) | hg
  · split at hg
    · simp only [List.mem_cons, List.not_mem_nil, or_false] at hg
      rcases hg with rfl | rfl
      · exact .inl rfl
      · exact .inr ⟨[.inputs, .mode, .prefix_, .validate], by simp only [transparentCode, structData, ht]; rfl⟩
    · exact absurd hg List.not_mem_nil
  · split at hg
    · simp only [List.mem_cons, List.not_mem_nil, or_false] at hg
      rcases hg with rfl | rfl
      · exact .inl rfl
      · exact .inr ⟨[.inputs, .mode, .index], by simp only [transparentCode, structData, ht]; rfl⟩
    · exact absurd hg List.not_mem_nil
  · split at hg
    · simp only [List.mem_cons, List.not_mem_nil, or_false] at hg
      subst hg
      exact .inr ⟨[.inputs, .exclude], by simp only [transparentCode, structData, ht]; rfl⟩
    · exact absurd hg List.not_mem_nil
  · split at hg
    · simp only [List.mem_cons, List.not_mem_nil, or_false] at hg
      subst hg
      exact .inr ⟨[.inputs, .paths], by simp only [transparentCode, structData, ht]; rfl⟩
    · exact absurd hg List.not_mem_nil

theorem params_isSome : ∀ (ps : List Var) (sc : Scope), (∀ x, x ∈ ps ∨ (sc x).isSome = true →
    ((ps.map fun x => (x, false)).foldl (fun (sc : Scope) q => sc.add q.1 q.2) sc x).isSome = true)
  | [], _, x, h => h.resolve_left List.not_mem_nil
  | y :: ps, sc, x, h => by
    simp only [List.map_cons, List.foldl_cons]
    refine params_isSome ps _ x ?_
    rcases h with h | h
    · rcases List.mem_cons.1 h with rfl | h
      · exact .inr (by simp [Scope.add])
      · exact .inl h
    · exact .inr (Scope.isSome_add h)

/-- The code of a structure that is not transparent. -/
theorem StructDecl.code_inline {d : StructDecl} (ht : d.isTransparent = false) {fields : List FieldDecl}
    (hf : FieldsFine d fields) {attr : Bool} {inlineE allowedE : Code} {sc : Scope} (hallowed : d.shape = .named → AllowedFine allowedE sc)
    (hattr : attr = true → (sc .obj).isSome = true ∧ (sc .pathName).isSome = true)
    (hi : (sc .inputs).isSome = true) (hm : (sc .mode_).isSome = true)
    (hn : d.shape = .named → (sc .span).isSome = true ∧ (sc .prefix_).isSome = true ∧ (sc .validate).isSome = true)
    (hx : d.shape = .unnamed → (sc .index).isSome = true ∧
      ((fields.any fun f => f.isFlat) = true → sc .index = some true)) :
    ((d.code fields attr inlineE allowedE).1.inline.check sc).isSome = true := by
  have hcode : (d.code fields attr inlineE allowedE).1.inline =
      codes [if d.default.isSome then bind .target true else skip,
        (itemCode d.shape fields (preCode d.shape fields false)
          (thensCode d.andThens (postCode d.shape fields (structData d attr inlineE allowedE)))
          (structData d attr inlineE allowedE)).inline] := by
    simp only [StructDecl.code, ht, Bool.false_eq_true, if_false, structData]
  rw [hcode]
  have hset : (if d.default.isSome then bind .target true else skip : Code).check sc =
      some (if d.default.isSome then sc.add .target true else sc) := by
    split <;> rfl
  rw [codes_cons hset]
  generalize hS : (if d.default.isSome then sc.add .target true else sc) = S
  have hsame : ∀ y, y ≠ .target → S y = sc y := by
    intro y hy
    rw [← hS]
    split
    · simp [Scope.add, hy]
    · rfl
  have htarget : d.default.isSome = true → S .target = some true := by
    intro hd
    rw [← hS, if_pos hd]
    simp [Scope.add]
  have hallowed' : d.shape = .named → AllowedFine allowedE S := fun h => (hallowed h).mono (by rw [hsame _ (by simp)]; exact id)
  obtain ⟨sc1, hp⟩ : ∃ sc1, (postCode d.shape fields (structData d attr inlineE allowedE)).check
      (if d.shape = .unit then S else S.pre fields.length false) = some sc1 := by
    by_cases hu : d.shape = .unit
    · exact ⟨_, by rw [hu]; rfl⟩
    · rw [if_neg hu]
      have ho : ∀ y, (∀ i, y ≠ .field i) → y ≠ .errors → y ≠ .target → S.pre fields.length false y = sc y :=
        fun y h1 h2 h3 => (Scope.pre_other h1 h2).trans (hsame y h3)
      obtain ⟨sc1, h, -⟩ := postCode_keep (shape := d.shape) (fields := fields)
        (d := structData d attr inlineE allowedE) (sc := S.pre fields.length false) (fun _ =>
        { allowed := fun h => (hallowed' h).mono (Scope.isSome_pre)
          field := fun i hi => Scope.pre_field hi
          errors := fun _ => by rw [Scope.pre_errors]; rfl
          obj := fun h => by rw [ho _ (fun _ => by simp) (by simp) (by simp)]; exact (hattr h).1
          pathName := fun h => by rw [ho _ (fun _ => by simp) (by simp) (by simp)]; exact (hattr h).2
          target := fun h => by rw [Scope.pre_other (fun _ => by simp) (by simp)]; exact htarget h
          names := hf.names
          flat := fun h => absurd (show d.isTransparent = true from h) (by simp [ht])
          named := fun h _ => by
            rw [ho _ (fun _ => by simp) (by simp) (by simp), ho _ (fun _ => by simp) (by simp) (by simp),
              ho _ (fun _ => by simp) (by simp) (by simp)]
            exact ⟨hi, (hn h).1, (hn h).2.1⟩
          unnamed := fun h _ => by
            rw [ho _ (fun _ => by simp) (by simp) (by simp), ho _ (fun _ => by simp) (by simp) (by simp),
              ho .index (fun _ => by simp) (by simp) (by simp)]
            exact ⟨hi, hm, (hx h).1, (hx h).2, fun h => nomatch (show false = true from h)⟩
          plain := hf.plain })
      exact ⟨sc1, h⟩
  have hthens := thensCode_isSome (ts := d.andThens) hp
  obtain ⟨sc2, hp2⟩ := Option.isSome_iff_exists.1 hthens
  have := itemCode_inline (shape := d.shape) (fields := fields) (d := structData d attr inlineE allowedE) (sc := S)
    { allowed := hallowed'
      validate := fun h _ => by rw [hsame _ (by simp)]; exact (hn h).2.2
      names := hf.names
      plain := hf.plain
      inputs := by rw [hsame _ (by simp)]; exact hi
      mode_ := fun _ _ => by rw [hsame _ (by simp)]; exact hm
      prefix_ := fun h => by rw [hsame _ (by simp)]; exact (hn h).2.1
      index := fun h => by rw [hsame _ (by simp)]; exact hx h } hp2
  rw [codes_cons this]
  rfl

/-- The code of a structure that is not transparent, for values and flags. -/
theorem StructDecl.code_rest {d : StructDecl} (ht : d.isTransparent = false) {fields : List FieldDecl} {attr : Bool}
    {inlineE allowedE : Code} :
    (d.code fields attr inlineE allowedE).1.parse = codes [use .input, block [.input] inlineE] ∧
    (∀ g, (d.code fields attr inlineE allowedE).1.flag = some g →
      g = codes [use .span, codes [bind .mode_ false, use .span, block [.input] inlineE]] ∨
      g = codes [bind .mode_ false, use .span, block [.input] inlineE] ∨
      d.shape = .unit ∧ g = codes [preCode .unit fields false,
        thensCode d.andThens (postCode .unit fields (structData d attr inlineE allowedE))]) ∧
    (d.code fields attr inlineE allowedE).2 = [] := by
  simp only [StructDecl.code, ht, Bool.false_eq_true, if_false, itemCode]
  cases hs : d.shape with
  | named => exact ⟨rfl, fun g hg => .inl (by cases hg; rfl), trivial⟩
  | unnamed =>
    refine ⟨rfl, fun g hg => .inr (.inl ?_), trivial⟩
    dsimp only at hg
    split at hg <;> cases hg
    rfl
  | unit => exact ⟨rfl, fun g hg => .inr (.inr ⟨rfl, by cases hg; rfl⟩), trivial⟩

/-- What an attribute derive does before the code of a structure. -/
def attrHead (d : StructDecl) : Code :=
  match d.shape with
  | .named => codes [fieldNamesCode d.fields, bind .allowed false, bind .validate false, bind .prefix_ false]
  | .unnamed => bind .index true
  | .unit => skip

theorem StructDecl.attrFns_eq (d : StructDecl) : d.attrFns = Deluxe.attrFns d.attributes (codes [attrHead d,
    (d.code d.fields true (uses [.inline, .input]) (use .allowed)).1.inline]) := rfl

/-- The call of the other function for the same type. -/
def metaInline (d : StructDecl) (x : Var) : Code :=
  match d.shape with
  | .unit => use x
  | _ => uses [x, .mode_]

/-- The scope in which an attribute derive runs the code of the type. -/
def attrScope : Scope :=
  ((((((Scope.add (fun _ => none) .obj false).add .inputs false).add .spans false).add .span false).add .pathName
    false).add .mode_ false)

/-- The functions of `ParseMetaItem` around the code of a structure. -/
def structMetaFns (d : StructDecl) (c : ItemCode) (extra : List FnCode) : List FnCode :=
  [⟨[(.input, false), (.mode_, false)], c.parse⟩,
    ⟨[(.inputs, false), (.mode_, false)], if d.isTransparent || d.shape = .unit then c.inline else metaInline d .inputs⟩] ++
  (c.flag.toList.map fun g => ⟨[(.span, false)], g⟩) ++
  (if d.default.isSome then [⟨[(.name, false), (.span, false)], skip⟩] else []) ++
  extra ++
  if d.isTransparent || d.shape = .unit then []
  else match d.shape with
    | .named =>
      [⟨[], fieldNamesCode (d.fields.map fillContainer)⟩,
        ⟨[(.inputs, false), (.mode_, false), (.prefix_, false), (.validate, false)],
          codes [uses [.mode_, .inputs], bind .span false, c.inline]⟩,
        ⟨[], skip⟩,
        ⟨[(.inputs, false), (.mode, false), (.index_, false)], uses [.inputs, .mode]⟩]
    | .unnamed =>
      [⟨[], skip⟩,
        ⟨[(.inputs, false), (.mode_, false), (.index, d.fields.any (·.isFlat))], c.inline⟩]
    | .unit => []

theorem StructDecl.metaFns_eq (d : StructDecl) : d.metaFns = structMetaFns d
    (d.code (d.fields.map fillContainer) false (metaInline d .input) skip).1
    (d.code (d.fields.map fillContainer) false (metaInline d .input) skip).2 := rfl

theorem attrFns_resolves {as : List (List Tok)} {parse : Code} (h : (parse.check attrScope).isSome = true) :
    ∀ g ∈ attrFns as parse, g.Resolves := by
  intro g hg
  unfold attrFns at hg
  simp only [List.mem_cons, List.not_mem_nil, or_false] at hg
  rcases hg with rfl | rfl
  · unfold FnCode.Resolves
    rw [codes_stay]
    · rfl
    · intro c hc
      obtain ⟨_, -, rfl⟩ := List.mem_map.1 hc
      exact use_stay (by simp [Scope.add])
  · unfold FnCode.Resolves
    obtain ⟨sc, hsc⟩ := Option.isSome_iff_exists.1 h
    rw [codes_cons (use_stay (by simp [Scope.add])), codes_cons (block_stay (sc' := sc) ?_)]
    · rfl
    · rw [codes_cons (use_stay (by simp [Scope.add, Scope.addAll])), codes_cons rfl,
        codes_cons (use_stay (by simp [Scope.add, Scope.addAll])), codes_cons rfl,
        codes_cons (use_stay (by simp [Scope.add])), codes_cons rfl]
      exact (codes_cons (cs := []) hsc).trans rfl

theorem attrFns_exposes {as : List (List Tok)} {parse : Code} (h : parse.Exposes .errors) :
    ¬ ∀ g ∈ attrFns as parse, g.Resolves := by
  intro hall
  have := hall _ (List.mem_cons_of_mem _ (List.mem_cons_self ..))
  refine absurd this ?_
  unfold FnCode.Resolves
  rw [Code.check_exposed (x := .errors)]
  · simp
  · exact .inr ⟨rfl, .inl ⟨by simp, .inr ⟨rfl, .inr ⟨by simp [Code.binds], .inr ⟨rfl, .inr ⟨by simp [Code.binds],
      .inr ⟨rfl, .inr ⟨by simp [Code.binds], .inl h⟩⟩⟩⟩⟩⟩⟩⟩
  · simp [Scope.add]

section
variable [Env]

/-- C96 for structures. -/
theorem c96_struct {lib : SynLib} {d : StructIn} {r : StructDecl} (h : d.read lib = .ok r) (hw : ShapeIs d.shape d.fields)
    (which : Derive) :
    (∀ g ∈ (Decl.struct r).fns which, g.Resolves) ↔ ¬ (r.isTransparent = true ∧ HasAndThen r.fields) := by
  have hf := fieldsFine_of h hw
  constructor
  · rintro hall ⟨ht, ha⟩
    cases which with
    | metaItem =>
      have := hall ⟨[(.input, false), (.mode_, false)],
        transparentCode r (r.fields.map fillContainer) false (metaInline r .input) skip [.input, .mode_]⟩ (by
          change _ ∈ r.metaFns
          rw [StructDecl.metaFns_eq, StructDecl.code_transparent ht]
          exact List.mem_append_left _ (List.mem_append_left _
            (List.mem_append_left _ (List.mem_append_left _ (List.mem_cons_self ..)))))
      have hn := Code.check_exposed (sc := [(Var.input, false), (Var.mode_, false)].foldl
        (fun (sc : Scope) q => sc.add q.1 q.2) fun _ => none)
        (transparentCode_exposes hf.fill ht ((hasAndThen_fill _).2 ha) (attr := false)
          (inlineE := metaInline r .input) (allowedE := skip) (xs := [.input, .mode_])) (by simp [Scope.add])
      exact absurd this (by unfold FnCode.Resolves; rw [hn]; simp)
    | attrs m =>
      change ∀ g ∈ r.attrFns, g.Resolves at hall
      rw [StructDecl.attrFns_eq, StructDecl.code_transparent ht] at hall
      refine attrFns_exposes ?_ hall
      refine .inr ⟨?_, .inl (transparentCode_exposes hf ht ha)⟩
      have : (fieldNamesCode r.fields).binds .errors = false := by
        unfold fieldNamesCode
        split <;> rfl
      unfold attrHead
      cases r.shape <;> simp [codes, Code.binds, this]
  · intro hn
    have hval : ∀ ht : r.isTransparent = true, ¬ HasAndThen r.fields := fun ht ha => hn ⟨ht, ha⟩
    cases which with
    | metaItem =>
      intro g hg
      change g ∈ r.metaFns at hg
      rw [StructDecl.metaFns_eq] at hg
      cases ht : r.isTransparent with
      | true =>
        have ha : ¬ HasAndThen (r.fields.map fillContainer) := fun h => hval ht ((hasAndThen_fill _).1 h)
        have hok : ∀ (ps xs : List Var) (e : Code), (∀ x ∈ xs, x ∈ ps) → FnCode.Resolves
            ⟨ps.map fun x => (x, false), transparentCode r (r.fields.map fillContainer) false e skip xs⟩ := by
          intro ps xs e hx
          exact transparentCode_resolves hf.fill ht ha
            (fun x hm => params_isSome ps _ x (.inl (hx x hm))) (fun _ => .inl rfl) (fun h => nomatch h)
        rw [StructDecl.code_transparent ht] at hg
        unfold structMetaFns at hg
        simp only [ht, Bool.true_or, if_true, List.append_nil, List.mem_append] at hg
        rcases hg with ((hg | hg) | hg) | hg
        · simp only [List.mem_cons, List.not_mem_nil, or_false] at hg
          rcases hg with rfl | rfl
          · exact hok [.input, .mode_] [.input, .mode_] _ (fun _ h => h)
          · exact hok [.inputs, .mode_] [.inputs, .mode_] _ (fun _ h => h)
        · simp only [Option.toList, List.map_cons, List.map_nil, List.mem_cons, List.not_mem_nil, or_false] at hg
          subst hg
          exact hok [.span] [.span] _ (fun _ h => h)
        · split at hg
          · simp only [List.mem_cons, List.not_mem_nil, or_false] at hg
            subst hg
            rfl
          · exact absurd hg List.not_mem_nil
        · rcases StructDecl.code_extra ht _ _ _ _ hg with rfl | ⟨ps, rfl⟩
          · rfl
          · exact hok ps ps _ (fun _ h => h)
      | false =>
        obtain ⟨h1, h2, h3⟩ := StructDecl.code_rest ht (fields := r.fields.map fillContainer) (attr := false)
          (inlineE := metaInline r .input) (allowedE := skip)
        have hany : (r.fields.map fillContainer).any (fun f => f.isFlat) = r.fields.any (fun f => f.isFlat) := by
          rw [List.any_map]
          congr 1
          funext f
          exact (fillContainer_same f).2.2.2.1
        have hmi : ∀ {sc : Scope} {x : Var}, (sc x).isSome = true → (sc .mode_).isSome = true →
            (metaInline r x).check sc = some sc := by
          intro sc x hx hm
          unfold metaInline
          cases r.shape
          case unit => exact use_stay hx
          all_goals exact uses_stay (by simp [hx, hm])
        have hcode := fun (sc : Scope) => StructDecl.code_inline ht hf.fill (attr := false) (sc := sc)
          (inlineE := metaInline r .input) (fun _ => .inl rfl) (fun h => nomatch h)
        rw [h3] at hg
        unfold structMetaFns at hg
        simp only [ht, Bool.false_or, List.append_nil, List.mem_append] at hg
        rcases hg with ((hg | hg) | hg) | hg
        · simp only [List.mem_cons, List.not_mem_nil, or_false] at hg
          rcases hg with rfl | rfl
          · unfold FnCode.Resolves
            simp only
            rw [h1, codes_cons (use_stay (by simp [Scope.add])), codes_cons (block_stay (hmi _ _))]
            · rfl
            · simp [Scope.add, Scope.addAll]
            · simp [Scope.add, Scope.addAll]
          · unfold FnCode.Resolves
            simp only
            by_cases hu : r.shape = .unit
            · simp only [hu, decide_true, if_true]
              exact hcode _ (by simp [Scope.add]) (by simp [Scope.add]) (by simp [hu]) (by simp [hu])
            · simp only [hu, decide_false, Bool.false_eq_true, if_false]
              rw [hmi (by simp [Scope.add]) (by simp [Scope.add])]
              rfl
        · obtain ⟨c, hc, rfl⟩ := List.mem_map.1 hg
          rcases h2 c (by simpa using hc) with rfl | rfl | ⟨hu, rfl⟩
          · unfold FnCode.Resolves
            simp only
            rw [codes_cons (use_stay (by simp [Scope.add]))]
            have : ∀ sc : Scope, (sc .span).isSome = true → (codes [bind .mode_ false, use .span,
                block [.input] (metaInline r .input)]).check sc = some (sc.add .mode_ false) := by
              intro sc hsp
              rw [codes_cons rfl, codes_cons (use_stay (by simp [Scope.add, hsp])), codes_cons (block_stay (hmi _ _))]
              · rfl
              · simp [Scope.add, Scope.addAll]
              · simp [Scope.add, Scope.addAll]
            rw [codes_cons (this _ (by simp [Scope.add]))]
            rfl
          · unfold FnCode.Resolves
            simp only
            rw [codes_cons rfl, codes_cons (use_stay (by simp [Scope.add])), codes_cons (block_stay (hmi _ _))]
            · rfl
            · simp [Scope.add, Scope.addAll]
            · simp [Scope.add, Scope.addAll]
          · unfold FnCode.Resolves
            simp only
            rw [codes_cons rfl]
            obtain ⟨sc2, hsc2⟩ := Option.isSome_iff_exists.1 (thensCode_isSome (ts := r.andThens)
              (post := postCode .unit (r.fields.map fillContainer) (structData r false (metaInline r .input) skip))
              (sc := [(Var.span, false)].foldl (fun (sc : Scope) q => sc.add q.1 q.2) fun _ => none) rfl)
            rw [codes_cons hsc2]
            rfl
        · split at hg
          · simp only [List.mem_cons, List.not_mem_nil, or_false] at hg
            subst hg
            rfl
          · exact absurd hg List.not_mem_nil
        · cases hs : r.shape with
          | unit => simp [hs] at hg
          | named =>
            simp only [hs, reduceCtorEq, decide_false, Bool.false_eq_true, if_false, List.mem_cons, List.not_mem_nil,
              or_false] at hg
            rcases hg with rfl | rfl | rfl | rfl
            · unfold FnCode.Resolves
              simp only
              rw [fieldNamesCode_stay]
              rfl
            · unfold FnCode.Resolves
              simp only
              rw [codes_cons (uses_stay (by simp [Scope.add])), codes_cons rfl]
              obtain ⟨sc2, hsc2⟩ := Option.isSome_iff_exists.1 (hcode (Scope.add ([(Var.inputs, false), (.mode_, false),
                (.prefix_, false), (.validate, false)].foldl (fun (sc : Scope) q => sc.add q.1 q.2) fun _ => none) .span
                false) (by simp [Scope.add]) (by simp [Scope.add]) (by simp [Scope.add]) (by simp [hs]))
              rw [codes_cons hsc2]
              rfl
            · rfl
            · rfl
          | unnamed =>
            simp only [hs, reduceCtorEq, decide_false, Bool.false_eq_true, if_false, List.mem_cons, List.not_mem_nil,
              or_false] at hg
            rcases hg with rfl | rfl
            · rfl
            · exact hcode _ (by simp [Scope.add]) (by simp [Scope.add]) (by simp [hs])
                (by rw [hany]; simp [Scope.add])
    | attrs m =>
      change ∀ g ∈ r.attrFns, g.Resolves
      rw [StructDecl.attrFns_eq]
      refine attrFns_resolves ?_
      obtain ⟨S, hS, hold, hnamed, hunnamed⟩ : ∃ S, (attrHead r).check attrScope = some S ∧
          (∀ x, (attrScope x).isSome = true → (S x).isSome = true) ∧
          (r.shape = .named → (S .allowed).isSome = true ∧ (S .prefix_).isSome = true ∧ (S .validate).isSome = true) ∧
          (r.shape = .unnamed → S .index = some true) := by
        unfold attrHead
        cases r.shape with
        | named =>
          refine ⟨((attrScope.add .allowed false).add .validate false).add .prefix_ false, ?_,
            fun x h => Scope.isSome_add (Scope.isSome_add (Scope.isSome_add h)), fun _ => by simp [Scope.add], by simp⟩
          exact (codes_cons (fieldNamesCode_stay _ _)).trans rfl
        | unnamed =>
          exact ⟨_, rfl, fun x h => Scope.isSome_add h, by simp, fun _ => by simp [Scope.add]⟩
        | unit => exact ⟨_, rfl, fun x h => h, by simp, by simp⟩
      rw [codes_cons hS]
      have hin : ((r.code r.fields true (uses [.inline, .input]) (use .allowed)).1.inline.check S).isSome = true := by
        cases ht : r.isTransparent with
        | true =>
          rw [StructDecl.code_transparent ht]
          exact transparentCode_resolves hf ht (hval ht)
            (by simp [hold .inputs (by simp [attrScope, Scope.add]), hold .mode_ (by simp [attrScope, Scope.add])])
            (fun h => .inr ⟨rfl, (hnamed h).1⟩)
            (fun _ => ⟨hold _ (by simp [attrScope, Scope.add]), hold _ (by simp [attrScope, Scope.add])⟩)
        | false =>
          exact StructDecl.code_inline ht hf (fun h => .inr ⟨rfl, (hnamed h).1⟩)
            (fun _ => ⟨hold _ (by simp [attrScope, Scope.add]), hold _ (by simp [attrScope, Scope.add])⟩)
            (hold _ (by simp [attrScope, Scope.add])) (hold _ (by simp [attrScope, Scope.add]))
            (fun h => ⟨hold _ (by simp [attrScope, Scope.add]), (hnamed h).2⟩)
            (fun h => ⟨by rw [hunnamed h]; rfl, fun _ => hunnamed h⟩)
      obtain ⟨sc2, hsc2⟩ := Option.isSome_iff_exists.1 hin
      rw [codes_cons hsc2]
      rfl
end

end Deluxe
