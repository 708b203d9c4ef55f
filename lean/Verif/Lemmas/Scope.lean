import Verif.Model.Scope
import Verif.Props.Defs
/-!
# Lemmas about the variables of the generated code
-/
namespace Deluxe
open Code (skip use set bind block untyped)

/-- The same variables apart from those of the fields, and no field is lost. -/
def SameVars (sc sc' : Scope) : Prop :=
  (∀ y, (∀ i, y ≠ .field i) → sc' y = sc y) ∧ ∀ i, (sc (.field i)).isSome = true → (sc' (.field i)).isSome = true

theorem SameVars.refl (sc : Scope) : SameVars sc sc := ⟨fun _ _ => rfl, fun _ h => h⟩

theorem SameVars.trans {a b c : Scope} (h : SameVars a b) (h' : SameVars b c) : SameVars a c :=
  ⟨fun y hy => (h'.1 y hy).trans (h.1 y hy), fun i hi => h'.2 i (h.2 i hi)⟩

theorem SameVars.add (sc : Scope) (i : Nat) (m : Bool) : SameVars sc (sc.add (.field i) m) := by
  refine ⟨fun y hy => ?_, fun j hj => ?_⟩
  · simp [Scope.add, hy i]
  · unfold Scope.add
    split
    · rfl
    · exact hj

/-- Code that leaves the variables as they are. -/
theorem codes_stay {l : List Code} {sc : Scope} (h : ∀ c ∈ l, c.check sc = some sc) : (codes l).check sc = some sc := by
  induction l with
  | nil => rfl
  | cons c cs ih =>
    simp only [codes, Code.check, h c (List.mem_cons_self ..), Option.bind_some]
    exact ih fun x hx => h x (List.mem_cons_of_mem _ hx)

theorem uses_stay {xs : List Var} {sc : Scope} (h : ∀ x ∈ xs, (sc x).isSome = true) :
    (uses xs).check sc = some sc := by
  refine codes_stay fun c hc => ?_
  obtain ⟨x, hx, rfl⟩ := List.mem_map.1 hc
  simp [Code.check, h x hx]

theorem perField_stay {fields : List FieldDecl} {g : Nat → FieldDecl → Code} {sc : Scope}
    (h : ∀ i f, fields[i]? = some f → (g i f).check sc = some sc) : (perField fields g).check sc = some sc := by
  refine codes_stay fun c hc => ?_
  obtain ⟨⟨f, i⟩, hx, rfl⟩ := List.mem_map.1 hc
  exact h i f (List.mem_zipIdx_iff_getElem?.1 hx)

/-- Code that keeps a property of the variables. -/
theorem codes_keep {I : Scope → Prop} {l : List Code} (h : ∀ c ∈ l, ∀ sc, I sc → ∃ sc', c.check sc = some sc' ∧ I sc')
    {sc : Scope} (hi : I sc) : ∃ sc', (codes l).check sc = some sc' ∧ I sc' := by
  induction l generalizing sc with
  | nil => exact ⟨sc, rfl, hi⟩
  | cons c cs ih =>
    obtain ⟨sc1, h1, i1⟩ := h c (List.mem_cons_self ..) sc hi
    obtain ⟨sc2, h2, i2⟩ := ih (fun x hx => h x (List.mem_cons_of_mem _ hx)) i1
    exact ⟨sc2, by simp [codes, Code.check, h1, h2], i2⟩

theorem perField_keep {I : Scope → Prop} {fields : List FieldDecl} {g : Nat → FieldDecl → Code}
    (h : ∀ i f, fields[i]? = some f → ∀ sc, I sc → ∃ sc', (g i f).check sc = some sc' ∧ I sc')
    {sc : Scope} (hi : I sc) : ∃ sc', (perField fields g).check sc = some sc' ∧ I sc' := by
  refine codes_keep (fun c hc => ?_) hi
  obtain ⟨⟨f, i⟩, hx, rfl⟩ := List.mem_map.1 hc
  exact h i f (List.mem_zipIdx_iff_getElem?.1 hx)

theorem seq_check {a b : Code} {sc sc' : Scope} (h : a.check sc = some sc') : (Code.seq a b).check sc = b.check sc' := by
  simp [Code.check, h]

theorem codes_cons {c : Code} {cs : List Code} {sc sc' : Scope} (h : c.check sc = some sc') :
    (codes (c :: cs)).check sc = (codes cs).check sc' := seq_check h

theorem codes_nil (sc : Scope) : (codes []).check sc = some sc := rfl

theorem block_stay {ps : List Var} {b : Code} {sc sc' : Scope} (h : b.check (sc.addAll ps) = some sc') :
    (block ps b).check sc = some sc := by simp [Code.check, h]

theorem use_stay {x : Var} {sc : Scope} (h : (sc x).isSome = true) : (use x).check sc = some sc := by
  simp [Code.check, h]

theorem set_stay {x : Var} {sc : Scope} (h : sc x = some true) : (set x).check sc = some sc := by
  simp [Code.check, h]

theorem isSome_of_mut {sc : Scope} {x : Var} (h : sc x = some true) : (sc x).isSome = true := by rw [h]; rfl

/-! ## The variables after `pre` -/

/-- With the variables of the fields from `k` to `k + n`. -/
def Scope.fields (sc : Scope) (k n : Nat) : Scope := fun y =>
  match y with
  | .field i => if k ≤ i ∧ i < k + n then some true else sc y
  | y => sc y

theorem bindFields_check (fields : List FieldDecl) (sc : Scope) :
    (perField fields fun i _ => bind (.field i) true).check sc = some (sc.fields 0 fields.length) := by
  have : ∀ (l : List FieldDecl) (k : Nat) (sc : Scope),
      (codes ((l.zipIdx k).map fun x => bind (.field x.2) true)).check sc = some (sc.fields k l.length) := by
    intro l
    induction l with
    | nil =>
      intro k sc
      simp only [List.zipIdx_nil, List.map_nil, codes, Code.check]
      congr 1
      funext y
      unfold Scope.fields
      split
      · simp only [List.length_nil, Nat.add_zero]
        rw [if_neg (by omega)]
      · rfl
    | cons f fs ih =>
      intro k sc
      simp only [List.zipIdx_cons, List.map_cons, codes, Code.check, Option.bind_some]
      rw [ih]
      congr 1
      funext y
      cases y <;> try rfl
      rename_i i
      simp only [Scope.fields, Scope.add, List.length_cons, Var.field.injEq]
      by_cases hk : i = k
      · subst hk
        simp
      · by_cases h1 : k + 1 ≤ i ∧ i < k + 1 + fs.length
        · rw [if_pos h1, if_pos (by omega)]
        · rw [if_neg h1, if_neg hk, if_neg (by omega)]
  exact this fields 0 sc

/-- The variables after `pre`. -/
def Scope.pre (sc : Scope) (n : Nat) (transparent : Bool) : Scope :=
  if transparent then sc.fields 0 n else (sc.fields 0 n).add .errors false

theorem preCode_check {shape : Shape} (h : shape ≠ .unit) (fields : List FieldDecl) (t : Bool) (sc : Scope) :
    (preCode shape fields t).check sc = some (sc.pre fields.length t) := by
  cases shape with
  | unit => exact absurd rfl h
  | _ =>
    cases t <;>
      simp [preCode, codes, Code.check, bindFields_check, Scope.pre]

theorem Scope.pre_field {sc : Scope} {n i : Nat} {t : Bool} (h : i < n) : sc.pre n t (.field i) = some true := by
  cases t <;> simp [Scope.pre, Scope.fields, Scope.add, h]

theorem Scope.pre_other {sc : Scope} {n : Nat} {t : Bool} {y : Var} (h : ∀ i, y ≠ .field i) (he : y ≠ .errors) :
    sc.pre n t y = sc y := by
  cases t <;> cases y <;> simp_all [Scope.pre, Scope.fields, Scope.add]

theorem Scope.pre_errors {sc : Scope} {n : Nat} : sc.pre n false .errors = some false := by
  simp [Scope.pre, Scope.add]

theorem Scope.pre_errors_transparent {sc : Scope} {n : Nat} : sc.pre n true .errors = sc .errors := by
  simp [Scope.pre, Scope.fields]

/-! ## Calls -/

/-- What `#allowed_expr` is. -/
def AllowedFine (c : Code) (sc : Scope) : Prop := c = skip ∨ c = use .allowed ∧ (sc .allowed).isSome = true

theorem AllowedFine.stay {c : Code} {sc : Scope} (h : AllowedFine c sc) : c.check sc = some sc := by
  rcases h with rfl | ⟨rfl, h⟩
  · rfl
  · simp [Code.check, h]

theorem AllowedFine.mono {c : Code} {sc sc' : Scope} (h : AllowedFine c sc)
    (hs : (sc .allowed).isSome = true → (sc' .allowed).isSome = true) : AllowedFine c sc' := by
  rcases h with h | ⟨h, h'⟩
  · exact .inl h
  · exact .inr ⟨h, hs h'⟩

theorem callCode_flatten {f : FieldDecl} {a : Code} (h : f.isFlatten = true) (h1 : f.isAppend = false)
    (h2 : f.isRest = false) : ∃ x, f.flatten = some x ∧ callCode f a =
      if f.ident.isSome then codes [use .inputs, use .span, if x.pre.isSome then use .prefix_ else skip]
      else uses [.inputs, .index] := by
  unfold FieldDecl.isFlatten at h
  obtain ⟨x, hx, hv⟩ : ∃ x, f.flatten = some x ∧ x.value = true := by
    cases hf : f.flatten with
    | none => simp [hf] at h
    | some x => exact ⟨x, rfl, by simpa [hf] using h⟩
  refine ⟨x, hx, ?_⟩
  obtain ⟨s, v, p⟩ := x
  cases hv
  simp [callCode, h1, h2, hx]

theorem callCode_plain {f : FieldDecl} {a : Code} (h : f.isFlat = false) : callCode f a =
      if f.ident.isSome then
        if f.with_.isSome then block [] (codes [uses [.input, .p, .span], bind .value false, use .value])
        else uses [.input, .p, .span]
      else if f.with_.isSome then block [] (codes [use .input, bind .value false, use .value])
      else use .input := by
  unfold FieldDecl.isFlat at h
  simp only [Bool.or_eq_false_iff] at h
  obtain ⟨⟨h0, h1⟩, h2⟩ := h
  unfold FieldDecl.isFlatten at h0
  unfold callCode
  simp only [h1, h2, Bool.false_eq_true, if_false]
  cases hf : f.flatten with
  | none => cases f.with_ <;> rfl
  | some x =>
    obtain ⟨s, v, p⟩ := x
    cases v with
    | false => cases f.with_ <;> rfl
    | true => simp [hf] at h0

/-- The call for a field of a structure with names. -/
theorem callCode_named_flat {f : FieldDecl} {a : Code} {sc : Scope} (hf : f.isFlat = true) (hn : f.ident.isSome = true)
    (h1 : (sc .inputs).isSome = true) (h2 : (sc .span).isSome = true) (h3 : (sc .prefix_).isSome = true)
    (ha : AllowedFine a sc) : (callCode f a).check sc = some sc := by
  by_cases happ : f.isAppend = true
  · simp [callCode, happ, uses, codes, Code.check, h1, h3]
  · by_cases hr : f.isRest = true
    · simp [callCode, happ, hr, codes, Code.check, h1, ha.stay]
    · have hfl : f.isFlatten = true := by
        unfold FieldDecl.isFlat at hf
        simpa [happ, hr] using hf
      obtain ⟨x, -, hc⟩ := callCode_flatten (a := a) hfl (by simpa using happ) (by simpa using hr)
      rw [hc, hn]
      cases x.pre <;> simp [codes, Code.check, h1, h2, h3]

/-- The call for a flattened field of a tuple. -/
theorem callCode_unnamed_flat {f : FieldDecl} {a : Code} {sc : Scope} (hf : f.isFlat = true) (hn : f.ident = none)
    (happ : f.append = none) (hr : f.rest = none) (h1 : (sc .inputs).isSome = true)
    (h2 : (sc .index).isSome = true) : (callCode f a).check sc = some sc := by
  have h1' : f.isAppend = false := by simp [FieldDecl.isAppend, happ]
  have h2' : f.isRest = false := by simp [FieldDecl.isRest, hr]
  have hfl : f.isFlatten = true := by
    unfold FieldDecl.isFlat at hf
    simpa [h1', h2'] using hf
  obtain ⟨x, -, hc⟩ := callCode_flatten (a := a) hfl h1' h2'
  rw [hc, hn]
  simp [uses, codes, Code.check, h1, h2]

/-- The call for another field. -/
theorem callCode_plain_stay {f : FieldDecl} {a : Code} {sc : Scope} (hf : f.isFlat = false)
    (h1 : (sc .input).isSome = true)
    (hn : f.ident.isSome = true → (sc .p).isSome = true ∧ (sc .span).isSome = true) :
    (callCode f a).check sc = some sc := by
  rw [callCode_plain hf]
  by_cases hi : f.ident.isSome = true
  · obtain ⟨h2, h3⟩ := hn hi
    simp only [hi, if_true]
    cases f.with_ <;> simp [uses, codes, Code.check, h1, h2, h3, Scope.addAll, Scope.add]
  · simp only [hi]
    cases f.with_ <;> simp [codes, Code.check, h1, Scope.addAll, Scope.add]

/-! ## `post` -/

/-- What `post` needs. -/
structure PostReady (shape : Shape) (fields : List FieldDecl) (d : CodeData) (sc : Scope) : Prop where
  allowed : shape = .named → AllowedFine d.allowedE sc
  field : ∀ i, i < fields.length → sc (.field i) = some true
  errors : d.transparent = false ∨ (∃ f ∈ fields, ∃ t, TransformD.andThen t ∈ f.transforms) →
    (sc .errors).isSome = true
  obj : d.attr = true → (sc .obj).isSome = true
  pathName : d.attr = true → (sc .pathName).isSome = true
  target : d.var = true → sc .target = some true
  names : ∀ f ∈ fields, f.ident.isSome = true ↔ shape = .named
  flat : d.transparent = true → ∀ f ∈ fields, f.isParsable = true → f.isFlat = false
  named : shape = .named → d.transparent = false →
    (sc .inputs).isSome = true ∧ (sc .span).isSome = true ∧ (sc .prefix_).isSome = true
  unnamed : shape = .unnamed → d.transparent = false →
    (sc .inputs).isSome = true ∧ (sc .mode_).isSome = true ∧ (sc .index).isSome = true ∧
    ((fields.any fun f => f.isFlat) = true → sc .index = some true) ∧ (d.variant = true → (sc .span).isSome = true)
  plain : shape = .unnamed → ∀ f ∈ fields, f.append = none ∧ f.rest = none

theorem nameFormatCode_stay {attr : Bool} {sc : Scope} (h : (sc .name).isSome = true)
    (hp : attr = true → (sc .pathName).isSome = true) : (nameFormatCode attr).check sc = some sc := by
  cases attr <;> simp_all [nameFormatCode, codes, uses, Code.check, Scope.addAll, Scope.add]

theorem getElem?_lt {α : Type} {l : List α} {i : Nat} {a : α} (h : l[i]? = some a) : i < l.length :=
  (List.getElem?_eq_some_iff.1 h).1

/-- Code without variables. -/
def Code.Silent : Code → Prop
  | .skip => True
  | .untyped => True
  | .seq a b => a.Silent ∧ b.Silent
  | _ => False

theorem Code.Silent.stay {c : Code} (h : c.Silent) (sc : Scope) : c.check sc = some sc := by
  induction c with
  | seq a b iha ihb => simp [Code.check, iha h.1, ihb h.2]
  | skip | untyped => rfl
  | _ => exact absurd h id

theorem countCode_silent (f : FieldDecl) : (countCode f).Silent := by
  unfold countCode
  split <;> trivial

theorem fieldErrorCode_stay {shape : Shape} (hs : shape ≠ .unit) {fields : List FieldDecl} {d : CodeData} {sc : Scope}
    (h : PostReady shape fields d sc) {extra : Code} (he : extra.Silent) {i : Nat} {f : FieldDecl}
    (hf : fields[i]? = some f) : (fieldErrorCode (shape = .named) d extra i f).check sc = some sc := by
  have hm := List.mem_of_getElem? hf
  have hfi := h.field i (getElem?_lt hf)
  unfold fieldErrorCode
  by_cases h0 : (f.isContainer || d.transparent || f.default.isSome || d.var) = true
  · rw [if_pos h0]; rfl
  · rw [if_neg h0]
    have ht : d.transparent = false := by
      cases hd : d.transparent with
      | false => rfl
      | true => simp [hd] at h0
    have hse := h.errors (.inl ht)
    cases shape with
    | unit => exact absurd rfl hs
    | named =>
      obtain ⟨-, h2, h3⟩ := h.named rfl ht
      cases hfl : f.isFlat with
      | true => simp [Code.check]
      | false =>
        have hn := nameFormatCode_stay (attr := d.attr)
          (sc := ((sc.addAll []).add .name false)) (by simp [Scope.add]) (fun ha => by
            simpa [Scope.add, Scope.addAll] using h.pathName ha)
        simp only [Scope.addAll] at hn
        simp [codes, uses, Code.check, h3, hse, h2, hfi, hn, Scope.addAll, Scope.add]
    | unnamed =>
      obtain ⟨h1, h2, h3, h4, h5⟩ := h.unnamed rfl ht
      have hid : f.ident = none := by
        cases hi : f.ident with
        | none => rfl
        | some x => exact absurd ((h.names f hm).1 (by rw [hi]; rfl)) (by decide)
      cases hfl : f.isFlat with
      | true =>
        have hix := h4 (List.any_eq_true.2 ⟨f, hm, hfl⟩)
        have hcall : (callCode f d.allowedE).check
            (((((sc.addAll []).add .mode_ false).addAll [.input]).add .inputs false)) =
            some ((((sc.addAll []).add .mode_ false).addAll [.input]).add .inputs false) :=
          callCode_unnamed_flat hfl hid (h.plain rfl f hm).1 (h.plain rfl f hm).2 (by simp [Scope.add])
            (by simpa [Scope.add, Scope.addAll] using h3)
        simp only [Scope.addAll] at hcall
        have hcnt := fun sc => ((countCode_silent f).stay sc)
        cases hv : d.variant <;> cases hw : f.with_ <;>
          simp [codes, Code.check, hse, hfi, hcall, hix, hcnt, Scope.addAll, Scope.add, h5, hv]
      | false =>
        have hn := nameFormatCode_stay (attr := d.attr)
          (sc := (((sc.addAll []).add .span false).add .name false)) (by simp [Scope.add]) (fun ha => by
            simpa [Scope.add, Scope.addAll] using h.pathName ha)
        simp only [Scope.addAll] at hn
        simp [codes, uses, Code.check, h1, h2, h3, hse, hfi, hn, he.stay, Scope.addAll, Scope.add]

theorem fieldErrorsCode_stay {shape : Shape} (hs : shape ≠ .unit) {fields : List FieldDecl} {d : CodeData} {sc : Scope}
    (h : PostReady shape fields d sc) : (fieldErrorsCode (shape = .named) d skip 0 fields).check sc = some sc := by
  have : ∀ (l : List FieldDecl) (k : Nat) (extra : Code), extra.Silent → (∀ i f, l[i]? = some f → fields[k + i]? = some f) →
      (fieldErrorsCode (shape = .named) d extra k l).check sc = some sc := by
    intro l
    induction l with
    | nil => intros; rfl
    | cons f fs ih =>
      intro k extra he hl
      unfold fieldErrorsCode
      rw [seq_check (fieldErrorCode_stay hs h he (by simpa using hl 0 f rfl))]
      refine ih (k + 1) _ ?_ fun i g hg => ?_
      · split
        · exact ⟨he, countCode_silent f⟩
        · exact he
      · have := hl (i + 1) g (by simpa using hg)
        rwa [show k + (i + 1) = k + 1 + i by omega] at this
  exact this fields 0 skip trivial fun i f hf => by simpa using hf

theorem transformCode_keep {sc0 : Scope} (i : Nat) (t : TransformD) (hi : (sc0 (.field i)).isSome = true)
    (he : (∃ e, t = .andThen e) → (sc0 .errors).isSome = true) {sc : Scope} (h : SameVars sc0 sc) :
    ∃ sc', (transformCode i t).check sc = some sc' ∧ SameVars sc0 sc' := by
  have hi' := h.2 i hi
  refine ⟨sc.add (.field i) false, ?_, h.trans (SameVars.add ..)⟩
  cases t with
  | map e => simp [transformCode, codes, Code.check, hi']
  | andThen e =>
    have he' : (sc .errors).isSome = true := by rw [h.1 .errors (fun _ => by simp)]; exact he ⟨e, rfl⟩
    simp [transformCode, codes, uses, Code.check, hi', he', Scope.addAll, Scope.add]

theorem fieldSetCode_keep {sc0 : Scope} {i : Nat} {f : FieldDecl} (hi : (sc0 (.field i)).isSome = true)
    (he : (∃ t, TransformD.andThen t ∈ f.transforms) → (sc0 .errors).isSome = true) {sc : Scope}
    (h : SameVars sc0 sc) : ∃ sc', (fieldSetCode i f).check sc = some sc' ∧ SameVars sc0 sc' := by
  have hi' := h.2 i hi
  obtain ⟨sc1, h1, hs1⟩ : ∃ sc1, (if f.default.isSome then codes [use (.field i), block [] skip, bind (.field i) false]
      else skip : Code).check sc = some sc1 ∧ SameVars sc0 sc1 := by
    cases f.default with
    | none => exact ⟨sc, rfl, h⟩
    | some _ =>
      exact ⟨sc.add (.field i) false, by simp [codes, Code.check, hi'], h.trans (SameVars.add ..)⟩
  obtain ⟨sc2, h2, hs2⟩ : ∃ sc2, (codes (f.transforms.map (transformCode i))).check sc1 = some sc2 ∧ SameVars sc0 sc2 := by
    refine codes_keep (I := SameVars sc0) (fun c hc sc hsc => ?_) hs1
    obtain ⟨t, ht, rfl⟩ := List.mem_map.1 hc
    exact transformCode_keep i t hi (fun ⟨e, h⟩ => he ⟨e, h ▸ ht⟩) hsc
  refine ⟨sc2, ?_, hs2⟩
  unfold fieldSetCode
  rw [codes_cons h1, codes_cons h2]
  rfl

theorem retCode_stay {var : Bool} {n : Nat} {sc : Scope} (h : ∀ i, i < n → (sc (.field i)).isSome = true)
    (ht : var = true → sc .target = some true) : (retCode var n).check sc = some sc := by
  unfold retCode
  cases var with
  | false =>
    refine uses_stay fun x hx => ?_
    obtain ⟨i, hi, rfl⟩ := List.mem_map.1 hx
    exact h i (List.mem_range.1 hi)
  | true =>
    have ht := ht rfl
    have : (codes ((List.range n).map fun i => codes [use (.field i), block [.val] (codes [use .val, set .target])])).check sc =
        some sc := by
      refine codes_stay fun c hc => ?_
      obtain ⟨i, hi, rfl⟩ := List.mem_map.1 hc
      simp [codes, Code.check, h i (List.mem_range.1 hi), ht, Scope.addAll, Scope.add]
    simp only [if_true]
    rw [codes_cons this]
    simp [codes, Code.check, ht]

theorem postCode_keep {shape : Shape} {fields : List FieldDecl} {d : CodeData} {sc : Scope}
    (h : shape ≠ .unit → PostReady shape fields d sc) :
    ∃ sc', (postCode shape fields d).check sc = some sc' ∧ SameVars sc sc' := by
  by_cases hs : shape = .unit
  · subst hs
    exact ⟨sc, rfl, SameVars.refl sc⟩
  · have h := h hs
    have hflat : (if shape = .named then perField fields (flatFieldCode d) else skip : Code).check sc = some sc := by
      cases shape with
      | unit => rfl
      | unnamed => rfl
      | named =>
        rw [if_pos rfl]
        refine perField_stay fun i f hf => ?_
        have hm := List.mem_of_getElem? hf
        unfold flatFieldCode
        by_cases hp : (f.isParsable && f.isFlat) = true
        · rw [if_pos hp]
          simp only [Bool.and_eq_true] at hp
          have ht : d.transparent = false := by
            cases hd : d.transparent with
            | false => rfl
            | true => exact absurd (h.flat hd f hm hp.1) (by simp [hp.2])
          obtain ⟨h1, h2, h3⟩ := h.named rfl ht
          have hse := h.errors (.inl ht)
          have hcall := callCode_named_flat hp.2 ((h.names f hm).2 rfl) h1 h2 h3 (h.allowed rfl)
          simp [codes, Code.check, hse, hcall, h.field i (getElem?_lt hf), Scope.addAll, Scope.add]
        · rw [if_neg hp]; rfl
    have hcont : (perField fields (containerCode d.attr)).check sc = some sc := by
      refine perField_stay fun i f hf => ?_
      unfold containerCode
      by_cases hp : (f.isContainer && d.attr) = true
      · rw [if_pos hp]
        simp only [Bool.and_eq_true] at hp
        simp [codes, Code.check, h.obj hp.2, h.field i (getElem?_lt hf)]
      · rw [if_neg hp]; rfl
    obtain ⟨sc1, h1, hs1⟩ := perField_keep (I := SameVars sc) (g := fieldSetCode) (fields := fields)
      (fun i f hf sc' hsc => fieldSetCode_keep (isSome_of_mut (h.field i (getElem?_lt hf)))
        (fun ⟨t, ht⟩ => h.errors (.inr ⟨f, List.mem_of_getElem? hf, t, ht⟩)) hsc) (SameVars.refl sc)
    have herr : (if d.transparent then skip else use .errors : Code).check sc1 = some sc1 := by
      cases hd : d.transparent with
      | true => rfl
      | false =>
        have : (sc1 .errors).isSome = true := by
          rw [hs1.1 .errors (fun _ => by simp)]
          exact h.errors (.inl hd)
        simp [Code.check, this]
    obtain ⟨sc2, h2, hs2⟩ := perField_keep (I := SameVars sc) (g := fun i _ => unwrapCode d.var i) (fields := fields)
      (fun i f hf sc' hsc => by
        unfold unwrapCode
        cases d.var with
        | true => exact ⟨sc', rfl, hsc⟩
        | false =>
          have := hsc.2 i (isSome_of_mut (h.field i (getElem?_lt hf)))
          exact ⟨sc'.add (.field i) false, by simp [codes, Code.check, this], hsc.trans (SameVars.add ..)⟩) hs1
    have hret : (retCode d.var fields.length).check sc2 = some sc2 :=
      retCode_stay (fun i hi => hs2.2 i (isSome_of_mut (h.field i hi)))
        (fun hv => (hs2.1 .target (fun _ => by simp)).trans (h.target hv))
    refine ⟨sc2, ?_, hs2⟩
    have : postCode shape fields d = codes [
        if shape = .named then perField fields (flatFieldCode d) else skip,
        perField fields (containerCode d.attr),
        fieldErrorsCode (shape = .named) d skip 0 fields,
        perField fields fieldSetCode,
        if d.transparent then skip else use .errors,
        perField fields fun i _ => unwrapCode d.var i,
        retCode d.var fields.length] := by
      cases shape with
      | unit => exact absurd rfl hs
      | _ => rfl
    rw [this, codes_cons hflat, codes_cons hcont, codes_cons (fieldErrorsCode_stay hs h), codes_cons h1, codes_cons herr,
      codes_cons h2, codes_cons hret]
    rfl

/-! ## The code of `Field::to_parsing_tokens` -/

/-- What the code for the fields needs, besides the variables that it binds itself. -/
structure InlineReady (shape : Shape) (fields : List FieldDecl) (d : CodeData) (sc : Scope) : Prop where
  allowed : shape = .named → AllowedFine d.allowedE sc
  validate : shape = .named → d.allowUnknown = false → (sc .validate).isSome = true
  names : ∀ f ∈ fields, f.ident.isSome = true ↔ shape = .named
  plain : shape = .unnamed → ∀ f ∈ fields, f.append = none ∧ f.rest = none
  inputs : (sc .inputs).isSome = true
  mode_ : shape = .unit → d.attr = false → (sc .mode_).isSome = true
  prefix_ : shape = .named → (sc .prefix_).isSome = true
  index : shape = .unnamed → (sc .index).isSome = true ∧
    ((fields.any fun f => f.isFlat) = true → sc .index = some true)

theorem itemCode_inline {shape : Shape} {fields : List FieldDecl} {d : CodeData} {post : Code} {sc sc1 : Scope}
    (h : InlineReady shape fields d sc)
    (hpost : post.check (if shape = .unit then sc else sc.pre fields.length false) = some sc1) :
    (itemCode shape fields (preCode shape fields false) post d).inline.check sc = some sc1 := by
  cases shape with
  | unit =>
    have hi := h.inputs
    have hm := h.mode_ rfl
    simp only [if_true] at hpost
    cases hd : d.attr <;>
      simp_all [itemCode, preCode, codes, uses, Code.check, Scope.addAll, Scope.add]
  | named =>
    simp only [reduceCtorEq, if_false] at hpost
    unfold itemCode
    simp only
    rw [codes_cons (preCode_check (by simp) fields false sc)]
    have ho : ∀ y, (∀ i, y ≠ .field i) → y ≠ .errors → sc.pre fields.length false y = sc y :=
      fun y hy he => Scope.pre_other hy he
    have hfield : ∀ i, i < fields.length → sc.pre fields.length false (.field i) = some true :=
      fun i hi => Scope.pre_field hi
    have herr : sc.pre fields.length false .errors = some false := Scope.pre_errors
    generalize sc.pre fields.length false = s at *
    have hi : (s .inputs).isSome = true := by rw [ho _ (fun _ => by simp) (by simp)]; exact h.inputs
    have hp : (s .prefix_).isSome = true := by rw [ho _ (fun _ => by simp) (by simp)]; exact h.prefix_ rfl
    have ha : AllowedFine d.allowedE s := (h.allowed rfl).mono (by rw [ho .allowed (fun _ => by simp) (by simp)]; exact id)
    have hv : d.allowUnknown = false → (s .validate).isSome = true := by
      rw [ho _ (fun _ => by simp) (by simp)]; exact h.validate rfl
    have hloop : (perField fields fun i f =>
        if f.isFlat || !f.isParsable then skip
        else block [] (codes [set (.field i), uses [.input, .span, .errors],
          block [.input, .p, .span] (callCode f d.allowedE)])).check (s.addAll [.input, .p, .span]) =
        some (s.addAll [.input, .p, .span]) := by
      refine perField_stay fun i f hf => ?_
      by_cases hc : (f.isFlat || !f.isParsable) = true
      · rw [if_pos hc]; rfl
      · rw [if_neg hc]
        simp only [Bool.or_eq_true, not_or] at hc
        have hcall := callCode_plain_stay (f := f) (a := d.allowedE)
          (sc := (((s.addAll [.input, .p, .span]).addAll []).addAll [.input, .p, .span]))
          (by simpa using hc.1) (by simp [Scope.addAll, Scope.add]) (fun _ => by simp [Scope.addAll, Scope.add])
        refine block_stay (sc' := (s.addAll [.input, .p, .span]).addAll []) ?_
        rw [codes_cons (set_stay (by simpa [Scope.addAll, Scope.add] using hfield i (getElem?_lt hf))),
          codes_cons (uses_stay (by simp [Scope.addAll, Scope.add, herr])), codes_cons (block_stay hcall)]
        rfl
    have hallow : (if d.allowUnknown then skip
        else codes [use .validate, block [] (codes [uses [.p, .span], d.allowedE, use .errors])] : Code).check
          ((s.addAll [.input, .p, .span]).addAll []) = some ((s.addAll [.input, .p, .span]).addAll []) := by
      cases hu : d.allowUnknown with
      | true => rfl
      | false =>
        have := hv hu
        have ha' : AllowedFine d.allowedE (((s.addAll [.input, .p, .span]).addAll []).addAll []) :=
          ha.mono (by simp [Scope.addAll, Scope.add])
        have ha' := ha'.stay
        simp only [Scope.addAll] at ha'
        simp [codes, uses, Code.check, Scope.addAll, Scope.add, this, ha', herr]
    rw [codes_cons (use_stay (by rw [herr]; rfl)), codes_cons (use_stay hi), codes_cons (block_stay (b := _) (sc' :=
      s.addAll [.input, .p, .span]) _), codes_cons hpost]
    · rfl
    · rw [codes_cons (uses_stay (by simp [Scope.addAll, Scope.add, hp])), codes_cons hloop, codes_cons (block_stay (sc' :=
        (s.addAll [.input, .p, .span]).addAll []) _)]
      · rfl
      · rw [codes_cons hallow, codes_cons (use_stay (by simp [Scope.addAll, Scope.add]))]
        rfl
  | unnamed =>
    simp only [reduceCtorEq, if_false] at hpost
    unfold itemCode
    simp only
    rw [codes_cons (preCode_check (by simp) fields false sc)]
    have ho : ∀ y, (∀ i, y ≠ .field i) → y ≠ .errors → sc.pre fields.length false y = sc y :=
      fun y hy he => Scope.pre_other hy he
    have hfield : ∀ i, i < fields.length → sc.pre fields.length false (.field i) = some true :=
      fun i hi => Scope.pre_field hi
    have herr : sc.pre fields.length false .errors = some false := Scope.pre_errors
    generalize sc.pre fields.length false = s at *
    have hi : (s .inputs).isSome = true := by rw [ho _ (fun _ => by simp) (by simp)]; exact h.inputs
    obtain ⟨hx, hx'⟩ := h.index rfl
    rw [← ho .index (fun _ => by simp) (by simp)] at hx hx'
    have hloop : (perField fields fun i f =>
        if f.isParsable && !f.isAppend && !f.isRest then
          block [] (codes [set (.field i), uses [.input, .errors],
            block [.input, .mode] (callCode f d.allowedE),
            if !fields.any (fun f => f.isParsable && f.isFlat) then skip
            else if f.isFlat then codes [countCode f, block [.count] (codes [use .count, set .index])]
            else set .index])
        else skip).check (s.addAll [.input, .inputs, .i]) = some (s.addAll [.input, .inputs, .i]) := by
      refine perField_stay fun i f hf => ?_
      have hm := List.mem_of_getElem? hf
      by_cases hc : (f.isParsable && !f.isAppend && !f.isRest) = true
      · rw [if_pos hc]
        have hid : f.ident = none := by
          cases hi : f.ident with
          | none => rfl
          | some x => exact absurd ((h.names f hm).1 (by rw [hi]; rfl)) (by decide)
        have hcall : (callCode f d.allowedE).check (((s.addAll [.input, .inputs, .i]).addAll []).addAll [.input, .mode]) =
            some (((s.addAll [.input, .inputs, .i]).addAll []).addAll [.input, .mode]) := by
          cases hfl : f.isFlat with
          | true =>
            exact callCode_unnamed_flat hfl hid (h.plain rfl f hm).1 (h.plain rfl f hm).2
              (by simp [Scope.addAll, Scope.add]) (by simpa [Scope.addAll, Scope.add] using hx)
          | false =>
            exact callCode_plain_stay hfl (by simp [Scope.addAll, Scope.add]) (fun h => by simp [hid] at h)
        have hinc : (if !fields.any (fun f => f.isParsable && f.isFlat) then skip
            else if f.isFlat then codes [countCode f, block [.count] (codes [use .count, set .index])]
            else set .index : Code).check ((s.addAll [.input, .inputs, .i]).addAll []) =
            some ((s.addAll [.input, .inputs, .i]).addAll []) := by
          by_cases hany : fields.any (fun f => f.isParsable && f.isFlat) = true
          · have hmut : s .index = some true := by
              refine hx' ?_
              obtain ⟨g, hg, hg'⟩ := List.any_eq_true.1 hany
              simp only [Bool.and_eq_true] at hg'
              exact List.any_eq_true.2 ⟨g, hg, hg'.2⟩
            rw [hany]
            have hcnt := fun sc => (countCode_silent f).stay sc
            cases f.isFlat <;> simp [codes, Code.check, hcnt, Scope.addAll, Scope.add, hmut]
          · simp only [hany]
            rfl
        refine block_stay (sc' := (s.addAll [.input, .inputs, .i]).addAll []) ?_
        rw [codes_cons (set_stay (by simpa [Scope.addAll, Scope.add] using hfield i (getElem?_lt hf))),
          codes_cons (uses_stay (by simp [Scope.addAll, Scope.add, herr])), codes_cons (block_stay hcall), codes_cons hinc]
        rfl
      · rw [if_neg hc]; rfl
    rw [codes_cons (sc' := s) _, codes_cons hpost]
    · rfl
    · split
      · rw [codes_cons (use_stay (by rw [herr]; rfl)), codes_cons (use_stay hi), codes_cons (block_stay (sc' :=
          s.addAll [.input, .inputs, .i]) _)]
        · rfl
        · rw [codes_cons (use_stay (by simp [Scope.addAll, Scope.add])), codes_cons hloop]
          rfl
      · simp [codes, Code.check, hi, Scope.addAll, Scope.add]

theorem thensCode_isSome {ts : List (List Tok)} {post : Code} {sc sc1 : Scope} (h : post.check sc = some sc1) :
    ((thensCode ts post).check sc).isSome = true := by
  unfold thensCode
  by_cases ht : ts.isEmpty = true
  · rw [if_pos ht, h]; rfl
  · rw [if_neg ht, codes_cons (block_stay (sc' := sc1) (by simpa [Scope.addAll] using h)),
      codes_cons (sc' := sc.add .ret false) rfl, codes_cons (sc' := (sc.add .ret false).add .errors false) rfl,
      codes_cons (use_stay (by simp [Scope.add])),
      codes_cons (sc' := ((sc.add .ret false).add .errors false).add .ret false) rfl]
    obtain ⟨sc2, h2, h3, h4⟩ := codes_keep (I := fun s => (s .errors).isSome = true ∧ (s .ret).isSome = true)
      (l := ts.map fun _ => codes [use .ret, block [.v] (codes [bind .f false, uses [.errors, .f, .v]]), bind .ret false])
      (fun c hc s hs => by
        obtain ⟨_, -, rfl⟩ := List.mem_map.1 hc
        exact ⟨s.add .ret false, by simp [codes, uses, Code.check, hs.1, hs.2, Scope.addAll, Scope.add],
          by simpa [Scope.add] using hs.1, by simp [Scope.add]⟩)
      (sc := ((sc.add .ret false).add .errors false).add .ret false) (by simp [Scope.add])
    rw [codes_cons h2, codes_cons (uses_stay (by simp [h3, h4]))]
    rfl

theorem fieldNamesCode_stay (fields : List FieldDecl) (sc : Scope) : (fieldNamesCode fields).check sc = some sc := by
  unfold fieldNamesCode
  split
  · refine block_stay (block_stay (sc' := (sc.addAll []).add .vec true) ?_)
    rw [codes_cons (sc' := (sc.addAll []).add .vec true) rfl, codes_cons (codes_stay (fun c hc => ?_)),
      codes_cons (use_stay (by simp [Scope.add]))]
    · rfl
    · obtain ⟨f, -, rfl⟩ := List.mem_map.1 hc
      have := (countCode_silent f).stay
      by_cases h1 : f.isParsable = true <;> by_cases h2 : f.isFlatten = true <;>
        simp [h1, h2, codes, Code.check, this, Scope.add, Scope.addAll]
  · rfl

end Deluxe
