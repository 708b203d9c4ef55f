import Verif.Props.Attributes
import Verif.Lemmas.Defs
/-!
# C121: A default of the whole structure acts like defaults of its fields

`#[deluxe(default = expr)]` on a structure and `#[deluxe(default = ..)]` on each of its fields are two
ways of saying that fields may be left out.  Moving the default of a structure to those of its fields
that have none changes nothing about what is read from an item, an attribute or a flattened field:
neither the value, nor the messages, nor the tokens consumed.  Two differences remain.  The functions
of a field (`map`, `and_then`) are applied to the field's own default but not to the value taken from
the default of the structure, and only the default of the structure is used if a field of the
structure's type is left out altogether.
-/
namespace Deluxe

variable {V : Type}

/-- The field with `v` as its default unless it has one. -/
def Field.orDefault (f : Field V) (v : V) : Field V := { f with default := some (f.default.getD v) }

/-- The structure with the values `t` as defaults of its fields instead of a default of its own. -/
def StructDef.spread (d : StructDef V) (t : List V) : StructDef V :=
  { d with fields := List.zipWith Field.orDefault d.fields t, default := none }

/-- The same for the fields in the generated code. -/
def Fields.spread (d : Fields V) (t : List V) : Fields V :=
  { d with fields := List.zipWith Field.orDefault d.fields t, target := none }

/-! ## The fields are the same but for the default -/

/-- The field without its default. -/
def Field.noDefault (f : Field V) : Field V := { f with default := none }

theorem zipWith_noDefault (fs : List (Field V)) (t : List V) (h : t.length = fs.length) :
    (List.zipWith Field.orDefault fs t).map Field.noDefault = fs.map Field.noDefault := by
  induction fs generalizing t with
  | nil => simp
  | cons f fs ih =>
    cases t with
    | nil => simp at h
    | cons v t =>
      have h' : t.length = fs.length := by simpa using h
      simp only [List.zipWith_cons_cons, List.map_cons, ih t h']
      rfl

theorem any_noDefault (p : Field V → Bool) (hp : ∀ f : Field V, p f.noDefault = p f)
    (fs : List (Field V)) : (fs.map Field.noDefault).any p = fs.any p := by
  rw [List.any_map]
  congr 1
  funext f
  exact hp f

theorem any_spread (p : Field V → Bool) (hp : ∀ f : Field V, p f.noDefault = p f)
    {fs : List (Field V)} {t : List V} (h : t.length = fs.length) :
    (List.zipWith Field.orDefault fs t).any p = fs.any p := by
  rw [← any_noDefault p hp, zipWith_noDefault _ _ h, any_noDefault p hp]

theorem countP_spread (p : Field V → Bool) (hp : ∀ f : Field V, p f.noDefault = p f)
    {fs : List (Field V)} {t : List V} (h : t.length = fs.length) :
    (List.zipWith Field.orDefault fs t).countP p = fs.countP p := by
  have key : ∀ gs : List (Field V), (gs.map Field.noDefault).countP p = gs.countP p := fun gs => by
    rw [List.countP_map]
    congr 1
    funext f
    exact hp f
  rw [← key, zipWith_noDefault _ _ h, key]

/-- Whatever is computed from the fields without looking at their defaults is the same. -/
theorem filterMap_spread {β : Type} (p : Field V → Bool) (g : Field V → β)
    (hp : ∀ f : Field V, p f.noDefault = p f) (hg : ∀ f : Field V, g f.noDefault = g f)
    {fs : List (Field V)} {t : List V} (h : t.length = fs.length) :
    ((List.zipWith Field.orDefault fs t).filter p).map g = (fs.filter p).map g := by
  have key : ∀ gs : List (Field V),
      ((gs.map Field.noDefault).filter p).map g = (gs.filter p).map g := fun gs => by
    induction gs with
    | nil => rfl
    | cons f gs ih =>
      simp only [List.map_cons, List.filter_cons, hp]
      split
      · simp only [List.map_cons, ih, hg]
      · exact ih
  rw [← key, zipWith_noDefault _ _ h, key]

theorem fieldNames_spread {fs : List (Field V)} {t : List V} (h : t.length = fs.length) :
    Field.fieldNames (List.zipWith Field.orDefault fs t) = Field.fieldNames fs := by
  unfold Field.fieldNames
  rw [List.flatMap_def, List.flatMap_def,
    filterMap_spread (p := fun f => f.isParsable) (g := Field.names) (fun _ => rfl) (fun _ => rfl) h]

theorem acceptsAll_spread {fs : List (Field V)} {t : List V} (h : t.length = fs.length) :
    Field.acceptsAll (List.zipWith Field.orDefault fs t) = Field.acceptsAll fs := by
  unfold Field.acceptsAll
  rw [any_spread (p := fun f => f.rest.getD false) (fun _ => rfl) h,
    any_spread (p := fun f => f.isFlatten && f.flatNamed.acceptsAll) (fun _ => rfl) h]

/-- The first field with some property that does not depend on defaults, and its position. -/
theorem find_spread (p : Field V → Bool) (hp : ∀ f : Field V, p f.noDefault = p f)
    {fs : List (Field V)} {t : List V} (h : t.length = fs.length) :
    ((List.zipWith Field.orDefault fs t).zipIdx.find? fun x => p x.1).map
        (fun x => (x.1.noDefault, x.2)) =
      (fs.zipIdx.find? fun x => p x.1).map (fun x => (x.1.noDefault, x.2)) := by
  have key : ∀ gs : List (Field V), (gs.zipIdx.find? fun x => p x.1).map
      (fun x => (x.1.noDefault, x.2)) =
        (gs.map Field.noDefault).zipIdx.find? fun x => p x.1 := fun gs => by
    rw [List.zipIdx_map, List.find?_map]
    congr 1
    congr 1
    funext x
    exact (hp x.1).symm
  rw [key, key, zipWith_noDefault _ _ h]

/-- The `i`-th field with some property that does not depend on defaults, and its position. -/
theorem nth_spread (p : Field V → Bool) (hp : ∀ f : Field V, p f.noDefault = p f)
    {fs : List (Field V)} {t : List V} (h : t.length = fs.length) (i : Nat) :
    (((List.zipWith Field.orDefault fs t).zipIdx.filter fun x => p x.1)[i]?).map
        (fun x => (x.1.noDefault, x.2)) =
      ((fs.zipIdx.filter fun x => p x.1)[i]?).map (fun x => (x.1.noDefault, x.2)) := by
  have key : ∀ gs : List (Field V), ((gs.zipIdx.filter fun x => p x.1)[i]?).map
      (fun x => (x.1.noDefault, x.2)) =
        ((gs.map Field.noDefault).zipIdx.filter fun x => p x.1)[i]? := fun gs => by
    rw [List.zipIdx_map, List.filter_map, List.getElem?_map]
    congr 3
    funext x
    exact (hp x.1).symm
  rw [key, key, zipWith_noDefault _ _ h]

theorem length_spread {fs : List (Field V)} {t : List V} (h : t.length = fs.length) :
    (List.zipWith Field.orDefault fs t).length = fs.length := by
  simp [h]

/-! ## The passes -/

section
variable [Env]

omit [Env] in
theorem init_spread (d : Fields V) {t : List V} (h : t.length = d.fields.length) :
    (d.spread t).init = d.init := by
  unfold Fields.init
  rw [List.map_const', List.map_const']
  congr 1
  exact length_spread h

theorem namedStep_spread (d : Fields V) {t : List V} (h : t.length = d.fields.length)
    (allowed : List Str) (pre : Str) (validate : Bool) :
    namedStep (d.spread t) allowed pre validate = namedStep d allowed pre validate := by
  funext p span ⟨acc, s⟩
  have hf : ∀ k, (findArm (d.spread t).fields k).map (fun x => (x.1.noDefault, x.2)) =
      (findArm d.fields k).map (fun x => (x.1.noDefault, x.2)) := fun k =>
    find_spread (fun f => f.matchesKey k) (fun _ => rfl) h
  unfold namedStep
  cases hs : stripPrefix pre p with
  | none => rfl
  | some k =>
    have hk := hf k
    simp only [Option.bind_some]
    cases h1 : findArm (d.spread t).fields k with
    | none =>
      cases h2 : findArm d.fields k with
      | none => rfl
      | some y => rw [h1, h2] at hk; simp at hk
    | some x =>
      cases h2 : findArm d.fields k with
      | none => rw [h1, h2] at hk; simp at hk
      | some y =>
        rw [h1, h2] at hk
        obtain ⟨f, i⟩ := x
        obtain ⟨g, j⟩ := y
        simp only [Option.map_some, Option.some.injEq, Prod.mk.injEq] at hk
        obtain ⟨hfg, rfl⟩ := hk
        have e1 : f.item = g.item := by
          have : f.noDefault.item = g.noDefault.item := by rw [hfg]
          exact this
        have e2 : f.idents = g.idents := by
          have : f.noDefault.idents = g.noDefault.idents := by rw [hfg]
          exact this
        simp only [e1, e2]

omit [Env] in
theorem unnamedStep_spread (d : Fields V) {t : List V} (h : t.length = d.fields.length) :
    unnamedStep (d.spread t) = unnamedStep d := by
  funext i ⟨acc, l⟩
  have hk : (nthArm (d.spread t).fields i).map (fun x => (x.1.noDefault, x.2)) =
      (nthArm d.fields i).map (fun x => (x.1.noDefault, x.2)) :=
    nth_spread (fun f => f.isParsable && !f.append.getD false && !f.rest.getD false)
      (fun _ => rfl) h i
  have hany : (d.spread t).fields.any (·.flatParsable) = d.fields.any (·.flatParsable) :=
    any_spread _ (fun _ => rfl) h
  unfold unnamedStep
  cases h1 : nthArm (d.spread t).fields i with
  | none =>
    cases h2 : nthArm d.fields i with
    | none => rfl
    | some y => rw [h1, h2] at hk; simp at hk
  | some x =>
    cases h2 : nthArm d.fields i with
    | none => rw [h1, h2] at hk; simp at hk
    | some y =>
      rw [h1, h2] at hk
      obtain ⟨f, i⟩ := x
      obtain ⟨g, j⟩ := y
      simp only [Option.map_some, Option.some.injEq, Prod.mk.injEq] at hk
      obtain ⟨hfg, rfl⟩ := hk
      have e1 : unnamedCall f = unnamedCall g := by
        have : unnamedCall f.noDefault = unnamedCall g.noDefault := by rw [hfg]
        exact this
      have e2 : f.isFlat = g.isFlat := by
        have : f.noDefault.isFlat = g.noDefault.isFlat := by rw [hfg]
        exact this
      have e3 : f.flatUnnamed = g.flatUnnamed := by
          have : f.noDefault.flatUnnamed = g.noDefault.flatUnnamed := by rw [hfg]
          exact this
      simp only [e1, tupleIncrement, e2, e3, hany]

omit [Env] in
theorem flatPass_spread (pre : Str) (span : Span) (allowed : List Str) (fs : List (Field V)) :
    ∀ (t : List V) (sts : Slots V) (errs : Errors) (l : List Stream), t.length = fs.length →
      flatPass pre span allowed (List.zipWith Field.orDefault fs t) sts errs l =
        flatPass pre span allowed fs sts errs l := by
  induction fs with
  | nil => intro t sts errs l _; simp
  | cons f fs ih =>
    intro t sts errs l h
    cases t with
    | nil => simp at h
    | cons v t =>
      have h' : t.length = fs.length := by simpa using h
      cases sts with
      | nil => rfl
      | cons st sts =>
        have hany : (List.zipWith Field.orDefault fs t).any (·.flatParsable) =
            fs.any (·.flatParsable) := any_spread _ (fun _ => rfl) h'
        have e1 : (f.orDefault v).flatParsable = f.flatParsable := rfl
        have e2 : (f.orDefault v).flatCall = f.flatCall := rfl
        simp only [List.zipWith_cons_cons, flatPass, hany, e1, e2, ih t _ _ _ h']

omit [Env] in
/-- With a default of the structure no field is missing. -/
theorem missingPass_target (d : Fields V) (pre : Str) (span : Span) (fs : List (Field V)) :
    ∀ (sts : Slots V) (errs : Errors),
      (∀ f ∈ fs, f.default.isSome = true ∨ d.target.isSome = true) →
      missingPass d pre span fs sts errs = .ok (List.zipWith (containerSet d) fs sts, errs) := by
  induction fs with
  | nil => intro sts errs _; rfl
  | cons f fs ih =>
    intro sts errs h
    cases sts with
    | nil => rfl
    | cons st sts =>
      have hm : missingNamed d pre span f (containerSet d f st) errs =
          .ok (containerSet d f st, errs) := by
        unfold missingNamed
        have hb : (f.default.isNone && d.target.isNone) = false := by
          rcases h f (List.mem_cons_self ..) with h | h
          · cases hd : f.default <;> simp [hd] at h ⊢
          · cases hd : d.target <;> simp [hd] at h ⊢
        simp [hb]
      rw [missingPass, hm]
      simp only [List.zipWith_cons_cons]
      rw [ih sts errs fun g hg => h g (List.mem_cons_of_mem _ hg)]

theorem missingUnnamed_target (d : Fields V) (mode : Mode) (l : List Stream) (fs : List (Field V)) :
    ∀ (sts : Slots V) (errs : Errors) (index cur extra : Nat),
      (∀ f ∈ fs, f.default.isSome = true ∨ d.target.isSome = true) →
      missingUnnamed d mode l fs sts errs index cur extra =
        .ok (List.zipWith (containerSet d) fs sts, errs) := by
  induction fs with
  | nil => intro sts errs _ _ _ _; rfl
  | cons f fs ih =>
    intro sts errs index cur extra h
    cases sts with
    | nil => rfl
    | cons st sts =>
      have hb : (f.default.isNone && d.target.isNone) = false := by
        rcases h f (List.mem_cons_self ..) with h | h
        · cases hd : f.default <;> simp [hd] at h ⊢
        · cases hd : d.target <;> simp [hd] at h ⊢
      rw [missingUnnamed]
      simp only [hb, Bool.false_and, Bool.false_eq_true, if_false,
        ih sts errs _ _ _ fun g hg => h g (List.mem_cons_of_mem _ hg)]
      split <;> rfl

omit [Env] in
theorem zipWith_containerSet (d d' : Fields V) (ho : d'.obj = d.obj) (fs : List (Field V)) :
    ∀ (t : List V) (sts : Slots V), t.length = fs.length →
      List.zipWith (containerSet d') (List.zipWith Field.orDefault fs t) sts =
        List.zipWith (containerSet d) fs sts := by
  induction fs with
  | nil => intro t sts _; simp
  | cons f fs ih =>
    intro t sts h
    cases t with
    | nil => simp at h
    | cons v t =>
      cases sts with
      | nil => rfl
      | cons st sts =>
        have e : containerSet d' (f.orDefault v) st = containerSet d f st := by
          unfold containerSet
          rw [ho]
          rfl
        simp only [List.zipWith_cons_cons, e, ih t sts (by simpa using h)]

omit [Env] in
theorem foldl_transform (ts : List (Transform V)) :
    ∀ (st : FieldStatus V) (errs : Errors),
      ((ts.foldl (fun x t => Field.transform t x.1 x.2) (st, errs)).1 = .none ↔ st = .none) ∧
      (errs.toList ≠ [] →
        (ts.foldl (fun x t => Field.transform t x.1 x.2) (st, errs)).2.toList ≠ []) ∧
      ((ts.foldl (fun x t => Field.transform t x.1 x.2) (st, errs)).1 = .parseError →
        st = .parseError ∨
          (ts.foldl (fun x t => Field.transform t x.1 x.2) (st, errs)).2.toList ≠ []) := by
  induction ts with
  | nil => intro st errs; exact ⟨Iff.rfl, id, .inl⟩
  | cons x ts ih =>
    intro st errs
    simp only [List.foldl_cons]
    have h := ih (Field.transform x st errs).1 (Field.transform x st errs).2
    cases st with
    | none => exact h
    | parseError => exact h
    | some v =>
      cases x with
      | map g =>
        obtain ⟨h1, h2, h3⟩ := h
        refine ⟨h1.trans (by simp [Field.transform]), h2, fun hp => ?_⟩
        rcases h3 hp with h | h
        · simp [Field.transform] at h
        · exact .inr h
      | andThen g =>
        obtain ⟨h1, h2, h3⟩ := h
        cases hg : g v with
        | ok w =>
          simp only [Field.transform, hg] at h1 h2 h3 ⊢
          refine ⟨h1.trans (by simp), h2, fun hp => ?_⟩
          rcases h3 hp with h | h
          · simp at h
          · exact .inr h
        | error e =>
          simp only [Field.transform, hg] at h1 h2 h3 ⊢
          have hne : (errs.pushSyn e).toList ≠ [] := by simp [SynErr.toList]
          exact ⟨h1.trans (by simp), fun _ => h2 hne, fun _ => .inr (h2 hne)⟩

omit [Env] in
/-- Setting a field whose default came from the structure. -/
theorem set_spread (f : Field V) (v : V) (hf : f.default = none → f.transforms = [])
    (st : FieldStatus V) (errs : Errors) :
    (f.orDefault v).set st errs =
      ((f.set st errs).1.orElse (fun _ => .some v), (f.set st errs).2) := by
  cases hd : f.default with
  | none =>
    simp only [Field.set, Field.orDefault, hd, hf hd, Option.getD_none, List.foldl_nil]
  | some w =>
    have e : (f.orDefault v).set st errs = f.set st errs := by
      simp only [Field.set, Field.orDefault, hd, Option.getD_some]
    rw [e]
    have hn : (f.set st errs).1 ≠ .none := by
      unfold Field.set
      rw [hd]
      intro h
      have := (foldl_transform f.transforms (st.orElse fun _ => .some w) errs).1.1 h
      cases st <;> simp [FieldStatus.orElse] at this
    have : (f.set st errs).1.orElse (fun _ => .some v) = (f.set st errs).1 := by
      cases h : (f.set st errs).1 with
      | none => exact absurd h hn
      | some _ => rfl
      | parseError => rfl
    rw [this]

omit [Env] in
theorem setPass_spread (fs : List (Field V)) :
    ∀ (t : List V) (sts : Slots V) (errs : Errors), t.length = fs.length →
      (∀ f ∈ fs, f.default = none → f.transforms = []) →
      setPass (List.zipWith Field.orDefault fs t) sts errs =
        (List.zipWith (fun st v => st.orElse (fun _ => .some v)) (setPass fs sts errs).1 t,
          (setPass fs sts errs).2) := by
  induction fs with
  | nil => intro t sts errs _ _; simp [setPass]
  | cons f fs ih =>
    intro t sts errs h hf
    cases t with
    | nil => simp at h
    | cons v t =>
      cases sts with
      | nil => simp [setPass]
      | cons st sts =>
        simp only [List.zipWith_cons_cons, setPass,
          set_spread f v (hf f (List.mem_cons_self ..)) st errs]
        rw [ih t sts _ (by simpa using h) fun g hg => hf g (List.mem_cons_of_mem _ hg)]

/-- A failed slot is accompanied by a message. -/
def SlotsTold (sts : Slots V) (errs : Errors) : Prop := .parseError ∈ sts → errs.toList ≠ []

omit [Env] in
theorem set_told (f : Field V) (st : FieldStatus V) (errs : Errors) :
    (errs.toList ≠ [] → (f.set st errs).2.toList ≠ []) ∧
      ((f.set st errs).1 = .parseError → st = .parseError ∨ (f.set st errs).2.toList ≠ []) := by
  unfold Field.set
  cases hd : f.default with
  | none =>
    have h := foldl_transform f.transforms st errs
    exact ⟨h.2.1, h.2.2⟩
  | some w =>
    have h := foldl_transform f.transforms (st.orElse fun _ => .some w) errs
    refine ⟨h.2.1, fun hp => ?_⟩
    rcases h.2.2 hp with hs | hs
    · cases st <;> simp [FieldStatus.orElse] at hs ⊢
    · exact .inr hs

omit [Env] in
theorem setPass_told (fs : List (Field V)) :
    ∀ (sts : Slots V) (errs : Errors),
      (errs.toList ≠ [] → (setPass fs sts errs).2.toList ≠ []) ∧
      (.parseError ∈ (setPass fs sts errs).1 → .parseError ∈ sts ∨
        (setPass fs sts errs).2.toList ≠ []) := by
  induction fs with
  | nil => intro sts errs; exact ⟨id, fun h => by simp [setPass] at h⟩
  | cons f fs ih =>
    intro sts errs
    cases sts with
    | nil => exact ⟨id, fun h => by simp [setPass] at h⟩
    | cons st sts =>
      obtain ⟨s1, s2⟩ := set_told f st errs
      obtain ⟨i1, i2⟩ := ih sts (f.set st errs).2
      refine ⟨fun h => i1 (s1 h), fun h => ?_⟩
      rcases List.mem_cons.1 h with h | h
      · rcases s2 h.symm with h | h
        · exact .inl (h ▸ List.mem_cons_self ..)
        · exact .inr (i1 h)
      · rcases i2 h with h | h
        · exact .inl (List.mem_cons_of_mem _ h)
        · exact .inr h

omit [Env] in
theorem flatPass_told (pre : Str) (span : Span) (allowed : List Str) (fs : List (Field V)) :
    ∀ (sts : Slots V) (errs : Errors) (l : List Stream) (sts' : Slots V) (errs' : Errors)
      (l' : List Stream), flatPass pre span allowed fs sts errs l = (.ok (sts', errs'), l') →
      (errs.toList ≠ [] → errs'.toList ≠ []) ∧
        (.parseError ∈ sts' → .parseError ∈ sts ∨ errs'.toList ≠ []) := by
  induction fs with
  | nil =>
    intro sts errs l sts' errs' l' h
    simp only [flatPass, Prod.mk.injEq, Res.ok.injEq] at h
    obtain ⟨⟨rfl, rfl⟩, rfl⟩ := h
    exact ⟨id, fun h => by simp at h⟩
  | cons f fs ih =>
    intro sts errs l sts' errs' l' h
    cases sts with
    | nil =>
      simp only [flatPass, Prod.mk.injEq, Res.ok.injEq] at h
      obtain ⟨⟨rfl, rfl⟩, rfl⟩ := h
      exact ⟨id, fun h => by simp at h⟩
    | cons st sts =>
      have rest : ∀ (x : FieldStatus V) (errs1 : Errors) (l1 : List Stream),
          ((flatPass pre span allowed fs sts errs1 l1).1.map fun y => (x :: y.1, y.2),
            (flatPass pre span allowed fs sts errs1 l1).2) = (Res.ok (sts', errs'), l') →
          ∃ sts1, sts' = x :: sts1 ∧ (errs1.toList ≠ [] → errs'.toList ≠ []) ∧
            (.parseError ∈ sts1 → .parseError ∈ sts ∨ errs'.toList ≠ []) := by
        intro x errs1 l1 h
        cases hp : flatPass pre span allowed fs sts errs1 l1 with
        | mk r l2 =>
          rw [hp] at h
          cases r with
          | ok y =>
            simp only [Res.map, Prod.mk.injEq, Res.ok.injEq] at h
            obtain ⟨⟨rfl, rfl⟩, rfl⟩ := h
            exact ⟨y.1, rfl, ih sts errs1 l1 y.1 y.2 l2 hp⟩
          | err e => simp [Res.map] at h
          | panic => simp [Res.map] at h
      simp only [flatPass] at h
      split at h
      · generalize (if (fs.any fun x => x.flatParsable) = true then
            ((f.flatCall pre span allowed (forkInputs l)).1, l)
            else f.flatCall pre span allowed l) = q at h
        obtain ⟨r, l1⟩ := q
        cases r with
        | ok v =>
          obtain ⟨sts1, rfl, h1, h2⟩ := rest _ _ _ h
          refine ⟨h1, fun hm => ?_⟩
          rcases List.mem_cons.1 hm with hm | hm
          · cases hm
          · exact (h2 hm).imp (List.mem_cons_of_mem _) id
        | err e =>
          obtain ⟨sts1, rfl, h1, h2⟩ := rest _ _ _ h
          have := h1 (by simp [SynErr.toList])
          exact ⟨fun _ => this, fun _ => .inr this⟩
        | panic => simp at h
      · obtain ⟨sts1, rfl, h1, h2⟩ := rest _ _ _ h
        refine ⟨h1, fun hm => ?_⟩
        rcases List.mem_cons.1 hm with hm | hm
        · exact .inl (hm ▸ List.mem_cons_self ..)
        · exact (h2 hm).imp (List.mem_cons_of_mem _) id

omit [Env] in
theorem containerSet_told (d : Fields V) (fs : List (Field V)) :
    ∀ (sts : Slots V), .parseError ∈ List.zipWith (containerSet d) fs sts → .parseError ∈ sts := by
  induction fs with
  | nil => intro sts h; simp at h
  | cons f fs ih =>
    intro sts h
    cases sts with
    | nil => simp at h
    | cons st sts =>
      rcases List.mem_cons.1 h with h | h
      · unfold containerSet at h
        split at h
        · split at h
          · cases h
          · exact h ▸ List.mem_cons_self ..
        · exact h ▸ List.mem_cons_self ..
      · exact List.mem_cons_of_mem _ (ih sts h)

omit [Env] in
/-- Without failed slots the values of both forms agree. -/
theorem unwrapAll_orElse (sts : Slots V) :
    ∀ (t : List V), .parseError ∉ sts →
      unwrapAll (List.zipWith (fun st v => st.orElse (fun _ => .some v)) sts t) =
        .ok (List.zipWith (fun st v => st.unwrapOr v) sts t) := by
  induction sts with
  | nil => intro t _; simp [unwrapAll]
  | cons st sts ih =>
    intro t h
    cases t with
    | nil => simp [unwrapAll]
    | cons v t =>
      have h' : .parseError ∉ sts := fun hm => h (List.mem_cons_of_mem _ hm)
      cases st with
      | parseError => exact absurd (List.mem_cons_self ..) h
      | none =>
        have hi := ih t h'
        simp only [List.zipWith_cons_cons, unwrapAll, hi]
        rfl
      | some x =>
        have hi := ih t h'
        simp only [List.zipWith_cons_cons, unwrapAll, hi]
        rfl

omit [Env] in
theorem finish_spread (d d' : Fields V) {t : List V} (ht : d.target = some t) (ht' : d'.target = none)
    (hl : t.length = d.fields.length) (hf : ∀ f ∈ d.fields, f.default = none → f.transforms = [])
    (sts : Slots V) (errs : Errors) (hs : SlotsTold sts errs) :
    finish d' (setPass (List.zipWith Field.orDefault d.fields t) sts errs).1
        (setPass (List.zipWith Field.orDefault d.fields t) sts errs).2 =
      finish d (setPass d.fields sts errs).1 (setPass d.fields sts errs).2 := by
  obtain ⟨s1, s2⟩ := setPass_told d.fields sts errs
  rw [setPass_spread d.fields t sts errs hl hf]
  unfold finish
  rw [ht, ht']
  cases hc : (setPass d.fields sts errs).2.check with
  | err e => rfl
  | panic => rfl
  | ok u =>
    have hn : (setPass d.fields sts errs).2.toList = [] := by
      cases h : (setPass d.fields sts errs).2 with
      | mk i =>
        cases i with
        | none => rfl
        | some e => rw [h] at hc; simp [Errors.check, Errors.intoResult] at hc
    have hne : .parseError ∉ (setPass d.fields sts errs).1 := by
      intro hm
      rcases s2 hm with h | h
      · exact s1 (hs h) hn
      · exact h hn
    exact unwrapAll_orElse _ t hne

/-! ## The loops -/

theorem namedStep_told (d : Fields V) (allowed : List Str) (pre : Str) (validate : Bool) (p : Str)
    (span : Span) (st : Acc (Slots V) × Stream) (h : SlotsTold st.1.val st.1.errs) :
    SlotsTold (namedStep d allowed pre validate p span st).2.1.val
      (namedStep d allowed pre validate p span st).2.1.errs := by
  obtain ⟨acc, s⟩ := st
  unfold namedStep
  cases (stripPrefix pre p).bind (findArm d.fields) with
  | none =>
    simp only
    split
    · intro hm
      have := h hm
      unfold checkUnknownAttribute
      split
      · exact this
      · simp [this]
    · exact h
  | some x =>
    obtain ⟨f, i⟩ := x
    simp only
    generalize hx : acc.val.getD i .none = x
    have hmem : x = .parseError → .parseError ∈ acc.val := by
      rintro rfl
      rw [List.getD_eq_getElem?_getD] at hx
      cases hi : acc.val[i]? with
      | none => simp [hi] at hx
      | some y =>
        simp only [hi, Option.getD_some] at hx
        subst hx
        exact List.mem_of_getElem? hi
    unfold FieldStatus.parseNamedItemWith
    cases hr : f.item.named (f.idents.headD []) span s with
    | mk r s' =>
      cases r with
      | ok v =>
        simp only
        intro hm
        rcases List.mem_or_eq_of_mem_set hm with hm | hm
        · have := h hm
          split
          · exact this
          · simp [this]
        · cases x with
          | none => simp [FieldStatus.isNone] at hm
          | some y => simp [FieldStatus.isNone] at hm
          | parseError =>
            have := h (hmem rfl)
            simp [FieldStatus.isNone]
      | err e =>
        simp only
        intro _
        simp [SynErr.toList]
      | panic =>
        simp only
        intro hm
        have hne : acc.errs.toList ≠ [] := by
          rcases List.mem_or_eq_of_mem_set hm with hm | hm
          · exact h hm
          · exact h (hmem hm.symm)
        split
        · exact hne
        · simp

omit [Env] in
theorem unnamedStep_told (d : Fields V) (i : Nat) (st : Acc (Slots V × Nat) × List Stream)
    (h : SlotsTold st.1.val.1 st.1.errs) :
    SlotsTold (unnamedStep d i st).2.1.val.1 (unnamedStep d i st).2.1.errs := by
  obtain ⟨acc, l⟩ := st
  unfold unnamedStep
  cases nthArm d.fields i with
  | none => exact h
  | some x =>
    obtain ⟨f, k⟩ := x
    simp only
    cases unnamedCall f acc.val.2 l with
    | mk r l' =>
      cases r with
      | ok v =>
        intro hm
        rcases List.mem_or_eq_of_mem_set hm with hm | hm
        · exact h hm
        · cases hm
      | err e =>
        intro _
        simp [SynErr.toList]
      | panic => exact h

omit [Env] in
theorem tupleLoop_keep {κ : Type} {P : κ → Prop} {func : Nat → M (κ × List Stream) Unit}
    (hf : ∀ c st, P st.1 → P (func c st).2.1) (rem : Nat) :
    ∀ (c : Nat) (k : κ) (l : List Stream), P k → P (tupleLoop func rem c (k, l)).2.1 := by
  induction rem with
  | zero =>
    intro c k l h
    cases l with
    | nil => exact h
    | cons s l =>
      rw [tupleLoop_cons]
      split <;> exact h
  | succ rem ih =>
    intro c k l h
    cases l with
    | nil => exact h
    | cons s l =>
      rw [tupleLoop_cons]
      split
      · exact h
      · have h1 := hf c (k, s :: l) h
        simp only
        cases hc : func c (k, s :: l) with
        | mk r st1 =>
          rw [hc] at h1
          cases r with
          | ok u =>
            simp only
            split
            · exact ih _ _ _ h1
            · have h2 : (onHead (κ := κ) parseComma st1).2.1 = st1.1 := by
                obtain ⟨k1, l1⟩ := st1
                cases l1 with
                | nil => rfl
                | cons s1 l1 => rfl
              cases ho : onHead parseComma st1 with
              | mk r st2 =>
                rw [ho] at h2
                have h3 : P st2.1 := h2 ▸ h1
                cases r with
                | ok u => exact ih _ _ _ h3
                | err e => exact h3
                | panic => exact h3
          | err e => exact h1
          | panic => exact h1

omit [Env] in
theorem parseTupleStruct_keep {κ : Type} {P : κ → Prop} {func : Nat → M (κ × List Stream) Unit}
    (hf : ∀ c st, P st.1 → P (func c st).2.1) (len : Nat) (k : κ) (l : List Stream) (h : P k) :
    P (parseTupleStruct func len (k, l)).2.1 := by
  have key : ∀ (n c : Nat) (k : κ) (l : List Stream), P k →
      P (parseTupleStruct.go func len n c (k, l)).2.1 := by
    intro n
    induction n with
    | zero => intro c k l h; exact h
    | succ n ih =>
      intro c k l h
      rw [parseTupleStruct.go]
      have h1 := tupleLoop_keep hf (len - c) c k l h
      cases ht : tupleLoop func (len - c) c (k, l) with
      | mk r st1 =>
        rw [ht] at h1
        simp only [ht]
        obtain ⟨k1, l1⟩ := st1
        cases r with
        | ok x =>
          obtain ⟨c1, b⟩ := x
          cases b with
          | true => exact h1
          | false =>
            cases l1 with
            | nil => exact h1
            | cons s l1 => exact ih c1 k1 l1 h1
        | err e => exact h1
        | panic => exact h1
  exact key _ _ _ _ h

omit [Env] in
theorem init_told (d : Fields V) : SlotsTold d.init Errors.new := by
  intro h
  simp [Fields.init] at h

/-- What the fields of a structure with a default have to satisfy: one value of the default for each
field, and functions only on fields with a default of their own. -/
structure Spreads (fields : List (Field V)) (t : List V) : Prop where
  length : t.length = fields.length
  plain : ∀ f ∈ fields, f.default = none → f.transforms = []

omit [Env] in
theorem spread_default {fs : List (Field V)} {t : List V} :
    ∀ f ∈ List.zipWith Field.orDefault fs t, f.default.isSome = true := by
  intro f hf
  obtain ⟨i, hi⟩ := List.getElem?_of_mem hf
  rw [List.getElem?_zipWith] at hi
  cases h1 : fs[i]? with
  | none => simp [h1] at hi
  | some g =>
    cases h2 : t[i]? with
    | none => simp [h1, h2] at hi
    | some v =>
      simp only [h1, h2, Option.some.injEq] at hi
      rw [← hi]
      rfl

omit [Env] in
theorem postNamed_spread (d : Fields V) {t : List V} (ht : d.target = some t)
    (hs : Spreads d.fields t) (pre : Str) (span : Span) (sts : Slots V) (errs : Errors)
    (h : SlotsTold sts errs) :
    postNamed (d.spread t) pre span sts errs = postNamed d pre span sts errs := by
  unfold postNamed
  rw [missingPass_target d pre span d.fields sts errs fun _ _ => .inr (by simp [ht]),
    missingPass_target (d.spread t) pre span (d.spread t).fields sts errs
      fun f hf => .inl (spread_default f hf)]
  simp only
  have hz : List.zipWith (containerSet (d.spread t)) (d.spread t).fields sts =
      List.zipWith (containerSet d) d.fields sts :=
    zipWith_containerSet d (d.spread t) rfl d.fields t sts hs.length
  rw [hz]
  exact finish_spread d (d.spread t) ht rfl hs.length hs.plain _ _
    fun hm => h (containerSet_told d d.fields sts hm)

theorem postUnnamed_spread (d : Fields V) {t : List V} (ht : d.target = some t)
    (hs : Spreads d.fields t) (mode : Mode) (l : List Stream) (sts : Slots V) (index : Nat)
    (errs : Errors) (h : SlotsTold sts errs) :
    postUnnamed (d.spread t) mode l sts index errs = postUnnamed d mode l sts index errs := by
  unfold postUnnamed
  rw [missingUnnamed_target d mode l d.fields sts errs index 0 0 fun _ _ => .inr (by simp [ht]),
    missingUnnamed_target (d.spread t) mode l (d.spread t).fields sts errs index 0 0
      fun f hf => .inl (spread_default f hf)]
  simp only
  have hz : List.zipWith (containerSet (d.spread t)) (d.spread t).fields sts =
      List.zipWith (containerSet d) d.fields sts :=
    zipWith_containerSet d (d.spread t) rfl d.fields t sts hs.length
  rw [hz]
  exact finish_spread d (d.spread t) ht rfl hs.length hs.plain _ _
    fun hm => h (containerSet_told d d.fields sts hm)

/-- Reading the fields by name. -/
theorem namedFlat_spread (d : Fields V) {t : List V} (ht : d.target = some t)
    (hs : Spreads d.fields t) (allowed : List Str) (mode : Mode) (pre : Str) (validate : Bool) :
    namedFlat (d.spread t) allowed mode pre validate = namedFlat d allowed mode pre validate := by
  funext l
  have hany : (d.spread t).fields.any (·.flatParsable) = d.fields.any (·.flatParsable) :=
    any_spread _ (fun _ => rfl) hs.length
  unfold namedFlat
  simp only [hany, namedStep_spread d hs.length, init_spread d hs.length]
  have htold := parseStruct_inv (P := fun acc : Acc (Slots V) => SlotsTold acc.val acc.errs)
    (func := namedStep d allowed pre validate)
    (fun p span st h => namedStep_told d allowed pre validate p span st h)
    ⟨d.init, Errors.new⟩ (if (d.fields.any (·.flatParsable)) = true then forkInputs l else l)
    (init_told d)
  cases hp : parseStruct (namedStep d allowed pre validate)
      (⟨d.init, Errors.new⟩, if (d.fields.any (·.flatParsable)) = true then forkInputs l else l) with
  | mk r x =>
    obtain ⟨acc, l1⟩ := x
    rw [hp] at htold
    have key : ∀ errs, SlotsTold acc.val errs →
        (match flatPass pre (mode.toFullSpan l) allowed (d.spread t).fields acc.val errs
            (if (d.fields.any (·.flatParsable)) = true then l else l1) with
          | (.ok (slots, errs), l2) =>
            (postNamed (d.spread t) pre (mode.toFullSpan l) slots errs, l2)
          | (.err e, l2) => (.err e, l2)
          | (.panic, l2) => (.panic, l2)) =
        (match flatPass pre (mode.toFullSpan l) allowed d.fields acc.val errs
            (if (d.fields.any (·.flatParsable)) = true then l else l1) with
          | (.ok (slots, errs), l2) => (postNamed d pre (mode.toFullSpan l) slots errs, l2)
          | (.err e, l2) => (.err e, l2)
          | (.panic, l2) => (.panic, l2)) := by
      intro errs he
      have hfp : flatPass pre (mode.toFullSpan l) allowed (d.spread t).fields acc.val errs
            (if (d.fields.any (·.flatParsable)) = true then l else l1) =
          flatPass pre (mode.toFullSpan l) allowed d.fields acc.val errs
            (if (d.fields.any (·.flatParsable)) = true then l else l1) :=
        flatPass_spread pre (mode.toFullSpan l) allowed d.fields t acc.val errs _ hs.length
      rw [hfp]
      cases hq : flatPass pre (mode.toFullSpan l) allowed d.fields acc.val errs
          (if (d.fields.any (·.flatParsable)) = true then l else l1) with
      | mk r2 l2 =>
        cases r2 with
        | ok y =>
          obtain ⟨sts', errs'⟩ := y
          obtain ⟨f1, f2⟩ := flatPass_told _ _ _ _ _ _ _ _ _ _ hq
          simp only
          rw [postNamed_spread d ht hs pre (mode.toFullSpan l) sts' errs' fun hm =>
            (f2 hm).elim (fun h => f1 (he h)) id]
        | err e => rfl
        | panic => rfl
    cases r with
    | ok u => exact key _ htold
    | err e => exact key _ fun _ => by simp [SynErr.toList]
    | panic => rfl

/-- Reading the fields by position. -/
theorem unnamedFlat_spread (d : Fields V) {t : List V} (ht : d.target = some t)
    (hs : Spreads d.fields t) (mode : Mode) (index : Nat) :
    unnamedFlat (d.spread t) mode index = unnamedFlat d mode index := by
  funext l
  have hcount : (d.spread t).fields.countP (·.isParsable) = d.fields.countP (·.isParsable) :=
    countP_spread _ (fun _ => rfl) hs.length
  unfold unnamedFlat
  simp only [hcount, unnamedStep_spread d hs.length, init_spread d hs.length]
  split
  · cases eofAll l with
    | mk r l1 =>
      cases r with
      | ok u =>
        simp only
        rw [postUnnamed_spread d ht hs mode l1 d.init index Errors.new (init_told d)]
      | err e => rfl
      | panic => rfl
  · have htold := parseTupleStruct_keep
      (P := fun acc : Acc (Slots V × Nat) => SlotsTold acc.val.1 acc.errs) (func := unnamedStep d)
      (fun c st h => unnamedStep_told d c st h) (d.fields.countP (·.isParsable))
      ⟨(d.init, index), Errors.new⟩ l (init_told d)
    cases hp : parseTupleStruct (unnamedStep d) (d.fields.countP (·.isParsable))
        (⟨(d.init, index), Errors.new⟩, l) with
    | mk r x =>
      obtain ⟨acc, l1⟩ := x
      rw [hp] at htold
      cases r with
      | ok u => simp only; rw [postUnnamed_spread d ht hs _ _ _ _ _ htold]
      | err e =>
        simp only
        rw [postUnnamed_spread d ht hs _ _ _ _ _ fun _ => by simp [SynErr.toList]]
      | panic => rfl

end

/-! ## Structures -/

theorem data_spread (d : StructDef V) {t : List V} (h : t.length = d.fields.length) :
    (d.spread t).data = d.data.spread t := by
  have hl : ((d.spread t).fields.filter fun f => f.isParsable && !f.isFlat).length =
      (d.fields.filter fun f => f.isParsable && !f.isFlat).length := by
    have := congrArg List.length (filterMap_spread (p := fun f => f.isParsable && !f.isFlat)
      (g := fun _ => ()) (fun _ => rfl) (fun _ => rfl) h)
    simpa [StructDef.spread] using this
  have ht : (d.spread t).isTransparent = d.isTransparent := by
    unfold StructDef.isTransparent
    rw [List.length_take, List.length_take, hl]
    rfl
  unfold StructDef.data
  rw [ht]
  rfl

theorem acceptsAll_spreadDef (d : StructDef V) {t : List V} (h : t.length = d.fields.length) :
    (d.spread t).acceptsAll = d.acceptsAll := by
  unfold StructDef.acceptsAll
  show (_ || Field.acceptsAll (List.zipWith Field.orDefault d.fields t)) = _
  rw [acceptsAll_spread h]
  rfl

section
variable [Env]

/-- C121, flattened: a field that flattens the structure is read in the same way, under names and by
position. -/
theorem c121_flat (d : StructDef V) {t : List V} (ht : d.default = some t) (hs : Spreads d.fields t) :
    (d.spread t).flatNamed = d.flatNamed ∧ (d.spread t).flatUnnamed = d.flatUnnamed := by
  have h1 : (d.spread t).flatNamed = d.flatNamed := by
    unfold StructDef.flatNamed
    have hn : Field.fieldNames (d.spread t).fields = Field.fieldNames d.fields :=
      fieldNames_spread hs.length
    rw [acceptsAll_spreadDef d hs.length, data_spread d hs.length, hn]
    congr 1
    funext mode pre validate
    rw [namedFlat_spread d.data ht hs]
    rfl
  refine ⟨h1, ?_⟩
  unfold StructDef.flatUnnamed
  rw [h1, data_spread d hs.length]
  have e1 : ((d.spread t).fields.filter fun f => !f.isFlat).length =
      (d.fields.filter fun f => !f.isFlat).length := by
    have := congrArg List.length (filterMap_spread (p := fun f => !f.isFlat)
      (g := fun _ => ()) (fun _ => rfl) (fun _ => rfl) hs.length)
    simpa [StructDef.spread] using this
  have e2 : ((d.spread t).fields.filter (·.isFlat)).map (fun f => f.flatUnnamed.fieldCount.getD 0) =
      (d.fields.filter (·.isFlat)).map fun f => f.flatUnnamed.fieldCount.getD 0 :=
    filterMap_spread _ _ (fun _ => rfl) (fun _ => rfl) hs.length
  rw [e1, e2]
  cases hshape : d.shape with
  | named =>
    have : (d.spread t).shape = .named := hshape
    rw [this]
  | unnamed =>
    have : (d.spread t).shape = .unnamed := hshape
    rw [this]
    simp only
    congr 1
    funext mode index
    rw [unnamedFlat_spread d.data ht hs]
    rfl
  | unit =>
    have : (d.spread t).shape = .unit := hshape
    rw [this]
    simp only
    congr 1
    funext mode index
    rw [unnamedFlat_spread d.data ht hs]
    rfl

omit [Env] in
theorem finish_spreadDef (d : StructDef V) {t : List V} (ht : d.default = some t)
    (hs : Spreads d.fields t) (sts : Slots V) (hn : .parseError ∉ sts) :
    runAndThens (d.spread t).andThens (finish (d.spread t).data
        (setPass (d.spread t).fields sts Errors.new).1 (setPass (d.spread t).fields sts Errors.new).2) =
      runAndThens d.andThens (finish d.data
        (setPass d.fields sts Errors.new).1 (setPass d.fields sts Errors.new).2) := by
  rw [data_spread d hs.length]
  exact congrArg (runAndThens d.andThens)
    (finish_spread d.data (d.data.spread t) ht rfl hs.length hs.plain sts Errors.new
      fun hm => absurd hm hn)

omit [Env] in
theorem slot_told (d : Fields V) (k : Nat) (v : V) : .parseError ∉ d.init.set k (.some v) := by
  intro hm
  rcases List.mem_or_eq_of_mem_set hm with hm | hm
  · simp [Fields.init] at hm
  · cases hm

omit [Env] in
theorem transparentPost_spread (d : StructDef V) {t : List V} (ht : d.default = some t)
    (hs : Spreads d.fields t) (k : Nat) :
    transparentPost (d.spread t) k = transparentPost d k := by
  funext r
  cases r with
  | ok v =>
    have hi : (d.spread t).data.init = d.data.init := by
      rw [data_spread d hs.length]
      exact init_spread d.data hs.length
    unfold transparentPost
    simp only [hi]
    exact finish_spreadDef d ht hs _ (slot_told d.data k v)
  | err e => rfl
  | panic => rfl

omit [Env] in
/-- The field of a transparent structure, and its position. -/
theorem transparent_spread (d : StructDef V) {t : List V} (h : t.length = d.fields.length) :
    ((d.spread t).fields.zipIdx.find? fun x => x.1.isParsable && !x.1.isFlat).map
        (fun x => (x.1.noDefault, x.2)) =
      (d.fields.zipIdx.find? fun x => x.1.isParsable && !x.1.isFlat).map
        (fun x => (x.1.noDefault, x.2)) :=
  find_spread (fun f => f.isParsable && !f.isFlat) (fun _ => rfl) h

omit [Env] in
theorem flag_spread {fs : List (Field V)} {t : List V} :
    ((List.zipWith Field.orDefault fs t).filter (·.isParsable)).all
      (fun f => f.isFlat || f.default.isSome) = true := by
  rw [List.all_eq_true]
  intro f hf
  rw [spread_default f (List.mem_filter.1 hf).1, Bool.or_true]

/-- C121: a structure with a default is read like the structure without one whose fields have the
values of the default as their defaults: as a whole item, as a list of items, as a flag and behind its
key.  Only leaving out an item of the structure's type is different (`c121_missing_violated`). -/
theorem c121_reads (d : StructDef V) {t : List V} (ht : d.default = some t) (hs : Spreads d.fields t) :
    (d.spread t).dict = { d.dict with missing := (d.spread t).dict.missing } := by
  obtain ⟨hfn, hfu⟩ := c121_flat d ht hs
  have htr : (d.spread t).isTransparent = d.isTransparent :=
    congrArg Fields.transparent (data_spread d hs.length)
  unfold StructDef.dict
  rw [htr]
  cases hT : d.isTransparent with
  | true =>
    simp only [if_true]
    have hk := transparent_spread d hs.length
    cases h1 : (d.spread t).fields.zipIdx.find? fun x => x.1.isParsable && !x.1.isFlat with
    | none =>
      cases h2 : d.fields.zipIdx.find? fun x => x.1.isParsable && !x.1.isFlat with
      | none => rfl
      | some y => rw [h1, h2] at hk; simp at hk
    | some x =>
      cases h2 : d.fields.zipIdx.find? fun x => x.1.isParsable && !x.1.isFlat with
      | none => rw [h1, h2] at hk; simp at hk
      | some y =>
        rw [h1, h2] at hk
        obtain ⟨f, i⟩ := x
        obtain ⟨g, j⟩ := y
        simp only [Option.map_some, Option.some.injEq, Prod.mk.injEq] at hk
        obtain ⟨hfg, rfl⟩ := hk
        have e1 : f.item = g.item := by
          have : f.noDefault.item = g.noDefault.item := by rw [hfg]
          exact this
        dsimp only
        rw [e1, transparentPost_spread d ht hs]
        rfl
  | false =>
    simp only [Bool.false_eq_true, if_false]
    have hsh : (d.spread t).shape = d.shape := rfl
    rw [hsh, hfn, hfu, acceptsAll_spreadDef d hs.length]
    cases d.shape with
    | named => rfl
    | unit => rfl
    | unnamed =>
      have e1 : (d.default.isSome || (d.fields.filter (·.isParsable)).all (fun f =>
          f.isFlat || f.default.isSome)) = true := by rw [ht]; rfl
      have e2 : ((d.spread t).default.isSome || ((d.spread t).fields.filter (·.isParsable)).all
          (fun f => f.isFlat || f.default.isSome)) = true := by
        rw [Bool.or_eq_true]
        exact .inr flag_spread
      simp only [e1, e2, if_true]
      rfl

/-- C121, attributes: both are read from the same attributes with the same outcome, and take the same
attributes away. -/
theorem c121_attributes (d : StructDef V) {t : List V} (ht : d.default = some t)
    (hs : Spreads d.fields t) (attributes : List (List Str)) :
    (d.spread t).attrTarget attributes = d.attrTarget attributes := by
  have hat : ∀ site, (d.spread t).attrData site = (d.attrData site).spread t := fun site => by
    unfold StructDef.attrData
    rw [data_spread d hs.length]
    rfl
  have hb : (d.spread t).attrBody = d.attrBody := by
    funext site mode
    have htr : (d.spread t).isTransparent = d.isTransparent :=
      congrArg Fields.transparent (data_spread d hs.length)
    unfold StructDef.attrBody
    rw [htr]
    cases hT : d.isTransparent with
    | true =>
      simp only [if_true]
      have hk := transparent_spread d hs.length
      cases h1 : (d.spread t).fields.zipIdx.find? fun x => x.1.isParsable && !x.1.isFlat with
      | none =>
        cases h2 : d.fields.zipIdx.find? fun x => x.1.isParsable && !x.1.isFlat with
        | none => rfl
        | some y => rw [h1, h2] at hk; simp at hk
      | some x =>
        cases h2 : d.fields.zipIdx.find? fun x => x.1.isParsable && !x.1.isFlat with
        | none => rw [h1, h2] at hk; simp at hk
        | some y =>
          rw [h1, h2] at hk
          obtain ⟨f, i⟩ := x
          obtain ⟨g, j⟩ := y
          simp only [Option.map_some, Option.some.injEq, Prod.mk.injEq] at hk
          obtain ⟨hfg, rfl⟩ := hk
          have e1 : f.item = g.item := by
            have : f.noDefault.item = g.noDefault.item := by rw [hfg]
            exact this
          have e2 : (d.spread t).attrTransparentPost site i = d.attrTransparentPost site i := by
            funext r
            cases r with
            | ok v =>
              have hi : (d.spread t).data.init = d.data.init := by
                rw [data_spread d hs.length]
                exact init_spread d.data hs.length
              have hz : List.zipWith (containerSet ((d.spread t).attrData site)) (d.spread t).fields
                  (d.data.init.set i (.some v)) =
                  List.zipWith (containerSet (d.attrData site)) d.fields
                    (d.data.init.set i (.some v)) :=
                zipWith_containerSet (d.attrData site) _ (by rw [hat]; rfl) d.fields t _ hs.length
              unfold StructDef.attrTransparentPost
              simp only [hi, hz]
              exact finish_spreadDef d ht hs _ fun hm =>
                slot_told d.data i v (containerSet_told _ _ _ hm)
            | err e => rfl
            | panic => rfl
          simp only [e1, e2]
    | false =>
      simp only [Bool.false_eq_true, if_false]
      have hsh : (d.spread t).shape = d.shape := rfl
      have hn : Field.fieldNames (d.spread t).fields = Field.fieldNames d.fields :=
        fieldNames_spread hs.length
      rw [hsh, hat, hn, acceptsAll_spreadDef d hs.length]
      rw [namedFlat_spread (d.attrData site) ht hs, unnamedFlat_spread (d.attrData site) ht hs]
      rfl
  unfold StructDef.attrTarget
  rw [hb]

end

/-! ## Examples -/

section
variable [Env]

/-- `#[deluxe(default = S { a: true, b: false })] struct S { a: bool, #[deluxe(default = true, map = not)] b: bool }`:
the second field has a default of its own, so its function does not matter. -/
def wholeDefault : StructDef Bool where
  shape := .named
  fields := [plainField "a".toList boolDict,
    { plainField "b".toList boolDict with default := some true, transforms := [.map not] }]
  default := some [true, false]
  transparent := none
  allowUnknown := none
  andThens := []

/-- The hypotheses of C121 are met, and leaving both fields out gives the default of the structure for
the first field and the field's own one, after its function, for the second. -/
example : Spreads wholeDefault.fields [true, false] ∧ wholeDefault.default = some [true, false] ∧
    wholeDefault.dict.flag 3 = .ok [true, false] ∧
    (wholeDefault.spread [true, false]).dict.flag 3 = .ok [true, false] := by
  have hs : Spreads wholeDefault.fields [true, false] := by
    refine ⟨rfl, fun f hf => ?_⟩
    simp only [wholeDefault, List.mem_cons, List.not_mem_nil, or_false] at hf
    rcases hf with rfl | rfl
    · intro _; rfl
    · intro h; simp at h
  have h : wholeDefault.dict.flag 3 = .ok [true, false] := rfl
  refine ⟨hs, rfl, h, ?_⟩
  rw [c121_reads wholeDefault rfl hs]
  exact h

/-- The same structure as a tuple structure. -/
example : ({ wholeDefault with shape := .unnamed } : StructDef Bool).dict.flag 3 =
      .ok [true, false] ∧
    (({ wholeDefault with shape := .unnamed } : StructDef Bool).spread [true, false]).dict.flag 3 =
      .ok [true, false] := ⟨rfl, rfl⟩

/-- `#[deluxe(default = S { a: true })] struct S { #[deluxe(map = not)] a: bool }` -/
def mappedDefault : StructDef Bool where
  shape := .named
  fields := [{ plainField "a".toList boolDict with transforms := [.map not] }]
  default := some [true]
  transparent := none
  allowUnknown := none
  andThens := []

/-- Functions of a field see its own default but not the value it takes from the default of the
structure: without items, `mappedDefault` gives `true`, and with the default at the field `false`. -/
theorem c121_functions_violated :
    mappedDefault.dict.flag 3 = .ok [true] ∧
      (mappedDefault.spread [true]).dict.flag 3 = .ok [false] := ⟨rfl, rfl⟩

/-- A field of a structure's type may be left out if the structure has a default, and may not be if
all fields of the structure have one, although `key` alone is enough for both. -/
theorem c121_missing_violated (name : Str) (sp : Span) :
    wholeDefault.dict.missing name sp = .ok [true, false] ∧
      (wholeDefault.spread [true, false]).dict.missing name sp =
        .err (missingFieldError name sp) := ⟨rfl, rfl⟩

end

end Deluxe
