import Verif.Lemmas.Attributes
/-!
# The label of the attribute and the place of the whole value do not change what is read
-/
namespace Deluxe

/-- Both succeed with related values, or both fail, or both panic. -/
inductive Res.Rel {α β : Type} (R : α → β → Prop) : Res α → Res β → Prop
  | ok {a b} : R a b → Res.Rel R (.ok a) (.ok b)
  | err {e e'} : Res.Rel R (.err e) (.err e')
  | panic : Res.Rel R .panic .panic

/-- Both succeed with the same value, or both fail, or both panic. -/
abbrev Res.Same {α : Type} (r r' : Res α) : Prop := Res.Rel Eq r r'

theorem Res.Same.refl {α : Type} (r : Res α) : r.Same r := by
  cases r
  · exact .ok rfl
  · exact .err
  · exact .panic

theorem Res.Same.symm {α : Type} {r r' : Res α} (h : r.Same r') : r'.Same r := by
  cases h with
  | ok h => exact .ok h.symm
  | err => exact .err
  | panic => exact .panic

theorem Res.Same.ok_iff {α : Type} {r r' : Res α} (h : r.Same r') (a : α) : r = .ok a ↔ r' = .ok a := by
  cases h with
  | ok h => rw [h]
  | err => simp
  | panic => simp

/-- Both have errors or none. -/
def Errors.Alike (e e' : Errors) : Prop := e.isEmpty = e'.isEmpty

theorem Errors.pushSyn_alike (e e' : Errors) (x x' : SynErr) : (e.pushSyn x).Alike (e'.pushSyn x') := by
  unfold Errors.Alike Errors.isEmpty Errors.pushSyn
  cases e.inner <;> cases e'.inner <;> rfl

theorem Errors.Alike.check {e e' : Errors} (h : e.Alike e') : Res.Same e.check e'.check := by
  unfold Errors.Alike Errors.isEmpty at h
  unfold Errors.check Errors.intoResult
  cases h1 : e.inner <;> cases h2 : e'.inner <;> simp [h1, h2] at h
  · exact .ok rfl
  · exact .err

theorem Errors.Alike.refl (e : Errors) : e.Alike e := rfl

/-- The same slots, and both have errors or none. -/
def SlotsAlike {V : Type} (x y : Slots V × Errors) : Prop := x.1 = y.1 ∧ x.2.Alike y.2

variable {V : Type}

theorem Field.transform_alike (t : Transform V) (st : FieldStatus V) {e e' : Errors} (h : e.Alike e') :
    (Field.transform t st e).1 = (Field.transform t st e').1 ∧
      (Field.transform t st e).2.Alike (Field.transform t st e').2 := by
  unfold Field.transform
  cases st with
  | none => exact ⟨rfl, h⟩
  | parseError => exact ⟨rfl, h⟩
  | some v =>
    cases t with
    | map g => exact ⟨rfl, h⟩
    | andThen g =>
      simp only
      cases g v with
      | ok v' => exact ⟨rfl, h⟩
      | error x => exact ⟨rfl, Errors.pushSyn_alike _ _ _ _⟩

theorem Field.set_alike (f : Field V) (st : FieldStatus V) {e e' : Errors} (h : e.Alike e') :
    (f.set st e).1 = (f.set st e').1 ∧ (f.set st e).2.Alike (f.set st e').2 := by
  have key : ∀ (ts : List (Transform V)) (st : FieldStatus V) (e e' : Errors), e.Alike e' →
      (ts.foldl (fun x t => Field.transform t x.1 x.2) (st, e)).1 =
        (ts.foldl (fun x t => Field.transform t x.1 x.2) (st, e')).1 ∧
      (ts.foldl (fun x t => Field.transform t x.1 x.2) (st, e)).2.Alike
        (ts.foldl (fun x t => Field.transform t x.1 x.2) (st, e')).2 := by
    intro ts
    induction ts with
    | nil => intro st e e' h; exact ⟨rfl, h⟩
    | cons t ts ih =>
      intro st e e' h
      have ht := Field.transform_alike t st h
      simp only [List.foldl_cons]
      have := ih (Field.transform t st e).1 (Field.transform t st e).2 (Field.transform t st e').2 ht.2
      rw [ht.1] at this
      rw [show Field.transform t st e = ((Field.transform t st e').1, (Field.transform t st e).2) from
        Prod.ext ht.1 rfl]
      exact this
  exact key _ _ _ _ h

theorem setPass_alike : ∀ (fields : List (Field V)) (slots : Slots V) {e e' : Errors}, e.Alike e' →
    SlotsAlike (setPass fields slots e) (setPass fields slots e') := by
  intro fields
  induction fields with
  | nil => intro slots e e' h; exact ⟨rfl, h⟩
  | cons f fs ih =>
    intro slots e e' h
    cases slots with
    | nil => exact ⟨rfl, h⟩
    | cons st sts =>
      have hs := f.set_alike st h
      have := ih sts hs.2
      simp only [setPass]
      exact ⟨by rw [hs.1, this.1], this.2⟩

/-- Two field data that differ at most in the object and the label. -/
structure SameFields (d d' : Fields V) : Prop where
  fields : d.fields = d'.fields
  target : d.target = d'.target
  transparent : d.transparent = d'.transparent
  allowUnknown : d.allowUnknown = d'.allowUnknown

theorem SameFields.finish {d d' : Fields V} (h : SameFields d d') {slots : Slots V} {e e' : Errors} (he : e.Alike e') :
    Res.Same (finish d slots e) (finish d' slots e') := by
  simp only [Deluxe.finish, h.target]
  have := he.check
  generalize e.check = a at this ⊢
  generalize e'.check = b at this ⊢
  cases this with
  | ok h => exact Res.Same.refl _
  | err => exact .err
  | panic => exact .panic

/-- The type of the field does not look at names and places given for a value that is not written, nor at the place of
the whole value if it is flattened. -/
structure Field.Placeless (f : Field V) : Prop where
  missing : ∀ n n' sp sp', Res.Same (f.item.missing n sp) (f.item.missing n' sp')
  flat : ∀ pre sp sp' allowed l, Res.Same (f.flatCall pre sp allowed l).1 (f.flatCall pre sp' allowed l).1 ∧
    (f.flatCall pre sp allowed l).2 = (f.flatCall pre sp' allowed l).2

/-- All fields are. -/
def Placeless (fields : List (Field V)) : Prop := ∀ f ∈ fields, f.Placeless

theorem missingNamed_alike {d d' : Fields V} (h : SameFields d d') {f : Field V} (hp : f.Placeless) (pre : Str)
    (sp sp' : Span) (st : FieldStatus V) {e e' : Errors} (he : e.Alike e') :
    Res.Rel (fun x y => x.1 = y.1 ∧ x.2.Alike y.2) (missingNamed d pre sp f st e) (missingNamed d' pre sp' f st e') := by
  unfold missingNamed
  rw [h.transparent, h.target]
  split
  · exact .ok ⟨rfl, he⟩
  · split
    · have := hp.missing (missingName d pre f) (missingName d' pre f) sp sp'
      generalize f.item.missing (missingName d pre f) sp = a at this ⊢
      generalize f.item.missing (missingName d' pre f) sp' = b at this ⊢
      cases this with
      | ok h => exact .ok ⟨by rw [h], he⟩
      | err => exact .ok ⟨rfl, Errors.pushSyn_alike _ _ _ _⟩
      | panic => exact .panic
    · exact .ok ⟨rfl, he⟩

theorem missingPass_alike {d d' : Fields V} (h : SameFields d d') (pre : Str) (sp sp' : Span) :
    ∀ (fields : List (Field V)) (slots : Slots V) {e e' : Errors}, NoContainer fields → Placeless fields → e.Alike e' →
      Res.Rel SlotsAlike (missingPass d pre sp fields slots e) (missingPass d' pre sp' fields slots e') := by
  intro fields
  induction fields with
  | nil => intro slots e e' _ _ he; exact .ok ⟨rfl, he⟩
  | cons f fs ih =>
    intro slots e e' hn hp he
    cases slots with
    | nil => exact .ok ⟨rfl, he⟩
    | cons st sts =>
      simp only [missingPass, containerSet_none (hn f (by simp))]
      have := missingNamed_alike h (hp f (by simp)) pre sp sp' st he
      generalize missingNamed d pre sp f st e = a at this ⊢
      generalize missingNamed d' pre sp' f st e' = b at this ⊢
      cases this with
      | err => exact .err
      | panic => exact .panic
      | @ok x y hxy =>
        obtain ⟨x1, x2⟩ := x
        obtain ⟨y1, y2⟩ := y
        obtain ⟨h1, h2⟩ := hxy
        simp only at h1 h2 ⊢
        subst h1
        have hr := ih sts (fun g hg => hn g (by simp [hg])) (fun g hg => hp g (by simp [hg])) h2
        generalize missingPass d pre sp fs sts x2 = a at hr ⊢
        generalize missingPass d' pre sp' fs sts y2 = b at hr ⊢
        cases hr with
        | err => exact .err
        | panic => exact .panic
        | ok hxy => exact .ok ⟨by rw [hxy.1], hxy.2⟩

theorem postNamed_alike {d d' : Fields V} (h : SameFields d d') (hn : NoContainer d.fields) (hp : Placeless d.fields)
    (pre : Str) (sp sp' : Span) (slots : Slots V) {e e' : Errors} (he : e.Alike e') :
    Res.Same (postNamed d pre sp slots e) (postNamed d' pre sp' slots e') := by
  unfold postNamed
  have := missingPass_alike h pre sp sp' d.fields slots hn hp he
  rw [← h.fields]
  generalize missingPass d pre sp d.fields slots e = a at this ⊢
  generalize missingPass d' pre sp' d.fields slots e' = b at this ⊢
  cases this with
  | err => exact .err
  | panic => exact .panic
  | @ok x y hxy =>
    obtain ⟨x1, x2⟩ := x
    obtain ⟨y1, y2⟩ := y
    obtain ⟨h1, h2⟩ := hxy
    simp only at h1 h2 ⊢
    subst h1
    have hs := setPass_alike d.fields x1 h2
    rw [hs.1]
    exact h.finish hs.2

theorem flatPass_alike (pre : Str) (sp sp' : Span) (allowed : List Str) :
    ∀ (fields : List (Field V)) (slots : Slots V) {e e' : Errors} (l : List Stream), Placeless fields → e.Alike e' →
      Res.Rel SlotsAlike (flatPass pre sp allowed fields slots e l).1 (flatPass pre sp' allowed fields slots e' l).1 ∧
        (flatPass pre sp allowed fields slots e l).2 = (flatPass pre sp' allowed fields slots e' l).2 := by
  intro fields
  induction fields with
  | nil => intro slots e e' l _ he; exact ⟨.ok ⟨rfl, he⟩, rfl⟩
  | cons f fs ih =>
    intro slots e e' l hp he
    cases slots with
    | nil => exact ⟨.ok ⟨rfl, he⟩, rfl⟩
    | cons st sts =>
      have hfs : Placeless fs := fun g hg => hp g (by simp [hg])
      have lift : ∀ (v : FieldStatus V) {x y : Res (Slots V × Errors)}, Res.Rel SlotsAlike x y →
          Res.Rel SlotsAlike (x.map fun x => (v :: x.1, x.2)) (y.map fun x => (v :: x.1, x.2)) := by
        intro v x y hxy
        cases hxy with
        | ok h => exact .ok ⟨by simp [h.1], h.2⟩
        | err => exact .err
        | panic => exact .panic
      simp only [flatPass]
      split
      · generalize hA : (if fs.any (·.flatParsable) then ((f.flatCall pre sp allowed (forkInputs l)).1, l)
          else f.flatCall pre sp allowed l) = A
        generalize hB : (if fs.any (·.flatParsable) then ((f.flatCall pre sp' allowed (forkInputs l)).1, l)
          else f.flatCall pre sp' allowed l) = B
        have hAB : Res.Same A.1 B.1 ∧ A.2 = B.2 := by
          rw [← hA, ← hB]
          split
          · exact ⟨((hp f (by simp)).flat pre sp sp' allowed (forkInputs l)).1, rfl⟩
          · exact (hp f (by simp)).flat pre sp sp' allowed l
        obtain ⟨a, la⟩ := A
        obtain ⟨b, lb⟩ := B
        obtain ⟨hab, hl⟩ := hAB
        simp only at hab hl ⊢
        subst hl
        cases hab with
        | panic => exact ⟨.panic, rfl⟩
        | @ok x y hxy =>
          subst hxy
          have := ih sts la hfs he
          exact ⟨lift _ this.1, this.2⟩
        | @err x y =>
          have := ih sts la hfs (Errors.pushSyn_alike e e' x y)
          exact ⟨lift _ this.1, this.2⟩
      · have := ih sts l hfs he
        exact ⟨lift _ this.1, this.2⟩

section
variable [Env]

/-- The part of `namedFlat` after the loop. -/
def namedTail (d : Fields V) (allowed : List Str) (pre : Str) (sp : Span) (slots : Slots V) (errs : Errors)
    (l : List Stream) : Res (List V) × List Stream :=
  match flatPass pre sp allowed d.fields slots errs l with
  | (.ok (slots, errs), l2) => (postNamed d pre sp slots errs, l2)
  | (.err e, l2) => (.err e, l2)
  | (.panic, l2) => (.panic, l2)

omit [Env] in
theorem namedTail_alike {d d' : Fields V} (h : SameFields d d') (hn : NoContainer d.fields) (hp : Placeless d.fields)
    (allowed : List Str) (pre : Str) (sp sp' : Span) (slots : Slots V) (errs : Errors) (l : List Stream) :
    Res.Same (namedTail d allowed pre sp slots errs l).1 (namedTail d' allowed pre sp' slots errs l).1 ∧
      (namedTail d allowed pre sp slots errs l).2 = (namedTail d' allowed pre sp' slots errs l).2 := by
  unfold namedTail
  have := flatPass_alike pre sp sp' allowed d.fields slots l hp (Errors.Alike.refl errs)
  rw [← h.fields]
  generalize flatPass pre sp allowed d.fields slots errs l = a at this ⊢
  generalize flatPass pre sp' allowed d.fields slots errs l = b at this ⊢
  obtain ⟨a, la⟩ := a
  obtain ⟨b, lb⟩ := b
  obtain ⟨hab, hl⟩ := this
  simp only at hab hl
  subst hl
  cases hab with
  | err => exact ⟨.err, rfl⟩
  | panic => exact ⟨.panic, rfl⟩
  | @ok x y hxy =>
    obtain ⟨x1, x2⟩ := x
    obtain ⟨y1, y2⟩ := y
    obtain ⟨h1, h2⟩ := hxy
    simp only at h1 h2 ⊢
    subst h1
    exact ⟨postNamed_alike h hn hp pre sp sp' x1 h2, trivial⟩

theorem namedFlat_eq (d : Fields V) (allowed : List Str) (mode : Mode) (pre : Str) (validate : Bool) (l : List Stream) :
    namedFlat d allowed mode pre validate l =
      (let q := parseStruct (namedStep d allowed pre validate) (⟨d.init, Errors.new⟩,
        if d.fields.any (·.flatParsable) then forkInputs l else l)
      let l1 := if d.fields.any (·.flatParsable) then l else q.2.2
      match q.1 with
      | .panic => (.panic, l1)
      | .ok _ => namedTail d allowed pre (mode.toFullSpan l) q.2.1.val q.2.1.errs l1
      | .err e => namedTail d allowed pre (mode.toFullSpan l) q.2.1.val (q.2.1.errs.pushSyn e) l1) := by
  simp only [namedFlat]
  generalize parseStruct (namedStep d allowed pre validate) _ = q
  obtain ⟨r, acc, l1⟩ := q
  cases r <;> rfl

/-- The label and the place do not change the value of a structure with named fields, nor what is left. -/
theorem namedFlat_alike {d d' : Fields V} (h : SameFields d d') (hn : NoContainer d.fields) (hp : Placeless d.fields)
    (allowed : List Str) (mode mode' : Mode) (pre : Str) (validate : Bool) (l : List Stream) :
    Res.Same (namedFlat d allowed mode pre validate l).1 (namedFlat d' allowed mode' pre validate l).1 ∧
      (namedFlat d allowed mode pre validate l).2 = (namedFlat d' allowed mode' pre validate l).2 := by
  have hs : namedStep d' allowed pre validate = namedStep d allowed pre validate := by
    funext p span st
    simp only [namedStep, h.fields, h.allowUnknown]
  have hi : d'.init = d.init := by simp only [Fields.init, h.fields]
  rw [namedFlat_eq, namedFlat_eq, hs, hi, ← h.fields]
  generalize parseStruct (namedStep d allowed pre validate) _ = q
  obtain ⟨r, acc, l1⟩ := q
  cases r with
  | ok x => exact namedTail_alike h hn hp ..
  | err e => exact namedTail_alike h hn hp ..
  | panic => exact ⟨.panic, rfl⟩

theorem missingUnnamed_alike {d d' : Fields V} (h : SameFields d d') (he : d.emptySpan = d'.emptySpan)
    (mode mode' : Mode) (l : List Stream) :
    ∀ (fields : List (Field V)) (slots : Slots V) {e e' : Errors} (index cur extra : Nat), NoContainer fields →
      Placeless fields → e.Alike e' →
      Res.Rel SlotsAlike (missingUnnamed d mode l fields slots e index cur extra)
        (missingUnnamed d' mode' l fields slots e' index cur extra) := by
  intro fields
  induction fields with
  | nil => intro slots e e' _ _ _ _ _ he; exact .ok ⟨rfl, he⟩
  | cons f fs ih =>
    intro slots e e' index cur extra hn hp hee
    cases slots with
    | nil => exact .ok ⟨rfl, hee⟩
    | cons st sts =>
      have hfs : NoContainer fs := fun g hg => hn g (by simp [hg])
      have hps : Placeless fs := fun g hg => hp g (by simp [hg])
      have lift : ∀ (v : FieldStatus V) {x y : Res (Slots V × Errors)}, Res.Rel SlotsAlike x y →
          Res.Rel SlotsAlike (x.map fun x => (v :: x.1, x.2)) (y.map fun x => (v :: x.1, x.2)) := by
        intro v x y hxy
        cases hxy with
        | ok h => exact .ok ⟨by simp [h.1], h.2⟩
        | err => exact .err
        | panic => exact .panic
      simp only [missingUnnamed, containerSet_none (hn f (by simp)), h.transparent, h.target, he]
      split
      · exact lift _ (ih sts _ _ _ hfs hps hee)
      · split
        · split
          · split
            · exact lift _ (ih sts _ _ _ hfs hps hee)
            · exact lift _ (ih sts _ _ _ hfs hps (Errors.pushSyn_alike _ _ _ _))
            · exact .err
            · exact .panic
          · have := (hp f (by simp)).missing (missingIndexName d (index + cur + extra))
              (missingIndexName d' (index + cur + extra)) (mode.toFullSpan l) (mode'.toFullSpan l)
            generalize f.item.missing (missingIndexName d (index + cur + extra)) (mode.toFullSpan l) = a at this ⊢
            generalize f.item.missing (missingIndexName d' (index + cur + extra)) (mode'.toFullSpan l) = b at this ⊢
            cases this with
            | ok h => subst h; exact lift _ (ih sts _ _ _ hfs hps hee)
            | err => exact lift _ (ih sts _ _ _ hfs hps (Errors.pushSyn_alike _ _ _ _))
            | panic => exact .panic
        · exact lift _ (ih sts _ _ _ hfs hps hee)

theorem postUnnamed_alike {d d' : Fields V} (h : SameFields d d') (hs : d.emptySpan = d'.emptySpan)
    (hn : NoContainer d.fields) (hp : Placeless d.fields)
    (mode mode' : Mode) (l : List Stream) (slots : Slots V) (index : Nat) {e e' : Errors} (he : e.Alike e') :
    Res.Same (postUnnamed d mode l slots index e) (postUnnamed d' mode' l slots index e') := by
  unfold postUnnamed
  have := missingUnnamed_alike h hs mode mode' l d.fields slots index 0 0 hn hp he
  rw [← h.fields]
  generalize missingUnnamed d mode l d.fields slots e index 0 0 = a at this ⊢
  generalize missingUnnamed d' mode' l d.fields slots e' index 0 0 = b at this ⊢
  cases this with
  | err => exact .err
  | panic => exact .panic
  | @ok x y hxy =>
    obtain ⟨x1, x2⟩ := x
    obtain ⟨y1, y2⟩ := y
    obtain ⟨h1, h2⟩ := hxy
    simp only at h1 h2 ⊢
    subst h1
    have hs := setPass_alike d.fields x1 h2
    rw [hs.1]
    exact h.finish hs.2

/-- The label and the place do not change the value of a tuple structure, nor what is left. -/
theorem unnamedFlat_alike {d d' : Fields V} (h : SameFields d d') (he : d.emptySpan = d'.emptySpan)
    (hn : NoContainer d.fields) (hp : Placeless d.fields) (mode mode' : Mode) (index : Nat) (l : List Stream) :
    Res.Same (unnamedFlat d mode index l).1 (unnamedFlat d' mode' index l).1 ∧
      (unnamedFlat d mode index l).2 = (unnamedFlat d' mode' index l).2 := by
  have hs : unnamedStep d' = unnamedStep d := by
    funext i st
    simp only [unnamedStep, h.fields, tupleIncrement]
  have hi : d'.init = d.init := by simp only [Fields.init, h.fields]
  simp only [unnamedFlat, hs, hi, ← h.fields]
  split
  · split
    · exact ⟨postUnnamed_alike h he hn hp _ _ _ _ _ (.refl _), rfl⟩
    · exact ⟨.err, rfl⟩
    · exact ⟨.panic, rfl⟩
  · generalize parseTupleStruct (unnamedStep d) _ _ = q
    obtain ⟨r, acc, l1⟩ := q
    cases r with
    | ok x => exact ⟨postUnnamed_alike h he hn hp _ _ _ _ _ (.refl _), rfl⟩
    | err e => exact ⟨postUnnamed_alike h he hn hp _ _ _ _ _ (.refl _), rfl⟩
    | panic => exact ⟨.panic, rfl⟩

end

/-! ## Computations that differ only in messages -/

/-- The same value, or both fail; and the same state afterwards. -/
def M.Alike {σ α : Type} (m m' : M σ α) : Prop := ∀ s, Res.Same (m s).1 (m' s).1 ∧ (m s).2 = (m' s).2

theorem M.Alike.refl {σ α : Type} (m : M σ α) : m.Alike m := fun _ => ⟨.refl _, rfl⟩

theorem M.Alike.single {α : Type} {m m' : M (List Stream) α} (h : m.Alike m') : (single m).Alike (single m') := fun s =>
  ⟨(h [s]).1, by simp only [Deluxe.single, (h [s]).2]⟩

theorem M.Alike.delimited {α : Type} {m m' : M Stream α} (h : m.Alike m') (d : Delim) :
    (parseDelimitedWith d m).Alike (parseDelimitedWith d m') := fun s => by
  simp only [parseDelimitedWith, withContent]
  cases enter d s with
  | error e => exact ⟨.err, rfl⟩
  | ok x =>
    obtain ⟨c, s'⟩ := x
    have := h c
    simp only [Bind.bind, M.bind]
    generalize m c = a at this ⊢
    generalize m' c = b at this ⊢
    obtain ⟨a, la⟩ := a
    obtain ⟨b, lb⟩ := b
    obtain ⟨hab, hl⟩ := this
    simp only at hab hl
    subst hl
    cases hab with
    | err => exact ⟨.err, rfl⟩
    | panic => exact ⟨.panic, rfl⟩
    | ok h => subst h; exact ⟨.refl _, rfl⟩

theorem M.Alike.parse2 {α : Type} {m m' : M Stream α} (h : m.Alike m') (toks : List Tok) :
    Res.Same (parse2 m toks) (parse2 m' toks) := by
  unfold Deluxe.parse2
  have := h ⟨toks, callSite, none⟩
  generalize m ⟨toks, callSite, none⟩ = a at this ⊢
  generalize m' ⟨toks, callSite, none⟩ = b at this ⊢
  obtain ⟨a, la⟩ := a
  obtain ⟨b, lb⟩ := b
  obtain ⟨hab, hl⟩ := this
  simp only at hab hl
  subst hl
  cases hab with
  | err => exact .err
  | panic => exact .panic
  | ok h => subst h; exact .refl _

theorem M.Alike.parseEmpty {α : Type} {m m' : M Stream α} (h : m.Alike m') (sp : Span) :
    Res.Same (parseEmpty sp m) (parseEmpty sp m') := by
  unfold Deluxe.parseEmpty
  have := h.parse2 []
  generalize Deluxe.parse2 m [] = a at this ⊢
  generalize Deluxe.parse2 m' [] = b at this ⊢
  cases this with
  | err => exact .err
  | panic => exact .panic
  | ok h => subst h; exact .refl _

theorem parseNamedWith_alike {α : Type} {parse parse' : Mode → M Stream α} {inline inline' : Mode → M (List Stream) α}
    {flag flag' : Span → Res α} (hp : ∀ m, (parse m).Alike (parse' m)) (hi : ∀ m, (inline m).Alike (inline' m))
    (hf : ∀ sp, Res.Same (flag sp) (flag' sp)) (sp : Span) :
    (parseNamedWith parse inline flag sp).Alike (parseNamedWith parse' inline' flag' sp) := fun s => by
  unfold parseNamedWith
  split
  · exact hp _ _
  · split
    · exact (hi _).single.delimited .paren s
    · exact ⟨hf _, rfl⟩

/-! ## Loops whose states are related -/

section
variable [Env] {κ κ' : Type}

/-- Both steps succeed or both fail, on related states, and leave the same stream. -/
def StepRel (R : κ → κ' → Prop) (f : M (κ × Stream) Unit) (f' : M (κ' × Stream) Unit) : Prop :=
  ∀ k k' s, R k k' → Res.Same (f (k, s)).1 (f' (k', s)).1 ∧ R (f (k, s)).2.1 (f' (k', s)).2.1 ∧
    (f (k, s)).2.2 = (f' (k', s)).2.2

theorem structLoop_rel {R : κ → κ' → Prop} {func : Str → Span → M (κ × Stream) Unit}
    {func' : Str → Span → M (κ' × Stream) Unit} (h : ∀ p sp, StepRel R (func p sp) (func' p sp)) (n : Nat) :
    StepRel R (structLoop func n) (structLoop func' n) := by
  induction n with
  | zero => intro k k' s hk; exact ⟨.refl _, hk, rfl⟩
  | succ n ih =>
    intro k k' s hk
    simp only [structLoop]
    split
    · exact ⟨.ok rfl, hk, rfl⟩
    · simp only [Bind.bind, M.bind, M.onSnd]
      cases hp : parseAnyPath s with
      | mk r s1 =>
        cases r with
        | err e => exact ⟨.err, hk, rfl⟩
        | panic => exact ⟨.panic, hk, rfl⟩
        | ok path =>
          have := h (keyString path.segs) path.span k k' s1 hk
          simp only
          generalize func (keyString path.segs) path.span (k, s1) = a at this ⊢
          generalize func' (keyString path.segs) path.span (k', s1) = b at this ⊢
          obtain ⟨a, ka, sa⟩ := a
          obtain ⟨b, kb, sb⟩ := b
          obtain ⟨hab, hr, hl⟩ := this
          simp only at hab hl hr
          subst hl
          cases hab with
          | err => exact ⟨.err, hr, rfl⟩
          | panic => exact ⟨.panic, hr, rfl⟩
          | ok =>
            simp only [M.get]
            by_cases he : sa.isEmpty = true
            · simp only [he, if_true]
              exact ih ka kb sa hr
            · rw [if_neg he, if_neg he]
              simp only [M.bind, M.onSnd]
              cases hc : parseComma sa with
              | mk r s2 =>
                cases r with
                | err e => exact ⟨.err, hr, rfl⟩
                | panic => exact ⟨.panic, hr, rfl⟩
                | ok _ => exact ih ka kb s2 hr

theorem parseStruct_rel {R : κ → κ' → Prop} {func : Str → Span → M (κ × Stream) Unit}
    {func' : Str → Span → M (κ' × Stream) Unit} (h : ∀ p sp, StepRel R (func p sp) (func' p sp)) :
    ∀ (l : List Stream) (k : κ) (k' : κ'), R k k' →
      Res.Same (parseStruct func (k, l)).1 (parseStruct func' (k', l)).1 ∧
      R (parseStruct func (k, l)).2.1 (parseStruct func' (k', l)).2.1 ∧
      (parseStruct func (k, l)).2.2 = (parseStruct func' (k', l)).2.2 := by
  intro l
  induction l with
  | nil => intro k k' hk; exact ⟨.ok rfl, hk, rfl⟩
  | cons s rest ih =>
    intro k k' hk
    simp only [parseStruct, forStreams, forStreams.go]
    have := structLoop_rel h (s.toks.length + 1) k k' s hk
    generalize structLoop func (s.toks.length + 1) (k, s) = a at this ⊢
    generalize structLoop func' (s.toks.length + 1) (k', s) = b at this ⊢
    obtain ⟨a, ka, sa⟩ := a
    obtain ⟨b, kb, sb⟩ := b
    obtain ⟨hab, hr, hl⟩ := this
    simp only at hab hl hr
    subst hl
    cases hab with
    | err => exact ⟨.err, hr, rfl⟩
    | panic => exact ⟨.panic, hr, rfl⟩
    | ok =>
      have := ih ka kb hr
      simp only [parseStruct, forStreams] at this
      exact ⟨this.1, this.2.1, by simp only [this.2.2]⟩

end

/-! ## Enums -/

section
variable [Env]

theorem Variant.inline_alike {v : Variant V} (hn : NoContainer v.fields) (hp : Placeless v.fields) (site site' : Site V)
    (pre : Str) (sp : Span) (mode : Mode) : (v.inline site pre sp mode).Alike (v.inline site' pre sp mode) := fun l => by
  have hf : SameFields (v.data site sp) (v.data site' sp) := ⟨rfl, rfl, rfl, rfl⟩
  unfold Variant.inline
  cases v.shape with
  | named => exact namedFlat_alike hf hn hp _ _ _ _ _ l
  | unnamed => exact unnamedFlat_alike hf rfl hn hp _ _ _ l
  | unit => exact ⟨.refl _, rfl⟩

theorem Variant.item_alike {v : Variant V} (hn : NoContainer v.fields) (hp : Placeless v.fields) (site site' : Site V)
    (pre p : Str) (sp : Span) : (v.item site pre p sp).Alike (v.item site' pre p sp) := by
  unfold Variant.item
  split
  · split
    · intro s
      have : v.transparentPost site sp = v.transparentPost site' sp := by
        funext k r
        cases r with
        | ok x =>
          have hl : ∀ site : Site V, ((v.data site sp).init.set k (.some x)).length = v.fields.length := by
            intro x; simp [Fields.init, Variant.data]
          simp only [Variant.transparentPost, zipWith_noContainer _ _ hn (hl _)]
          rfl
        | err e => rfl
        | panic => rfl
      rw [this]
      exact ⟨.refl _, rfl⟩
    · exact .refl _
  · refine parseNamedWith_alike (fun m => ?_) (fun m => v.inline_alike hn hp site site' pre sp m) (fun _ => ?_) sp
    · exact (v.inline_alike hn hp site site' pre sp m).single.delimited _
    · unfold Variant.flag
      cases v.shape with
      | named => exact (v.inline_alike hn hp site site' pre sp (.named sp)).single.parseEmpty sp
      | unnamed =>
        simp only
        split
        · exact (v.inline_alike hn hp site site' pre sp .unnamed).single.parseEmpty sp
        · exact .err
      | unit => exact .refl _

/-- The same state, and both have errors or none. -/
def AccAlike {κ : Type} (x y : Acc κ) : Prop := x.val = y.val ∧ x.errs.Alike y.errs

theorem enumStep_rel {e : EnumDef V} (hn : ∀ v ∈ e.variants, NoContainer v.fields)
    (hp : ∀ v ∈ e.variants, Placeless v.fields) (site site' : Site V) (pre p : Str) (sp : Span) :
    StepRel AccAlike (enumStep e site pre p sp) (enumStep e site' pre p sp) := by
  intro k k' s hk
  obtain ⟨val, errs⟩ := k
  obtain ⟨val', errs'⟩ := k'
  obtain ⟨h1, h2⟩ := hk
  simp only at h1 h2
  subst h1
  simp only [enumStep]
  split
  · rename_i k v i hsel
    have hv : v ∈ e.variants := by
      obtain ⟨k', _, hk⟩ := Option.bind_eq_some_iff.1 hsel
      obtain ⟨z, hz, hz'⟩ := Option.map_eq_some_iff.1 hk
      have := List.mem_of_find?_eq_some hz
      rw [(Prod.mk.inj hz').2] at this
      exact List.mem_of_getElem? (List.mem_zipIdx_iff_getElem?.1 this)
    have := Variant.item_alike (hn v hv) (hp v hv) site site' pre p sp s
    generalize v.item site pre p sp s = a at this ⊢
    generalize v.item site' pre p sp s = b at this ⊢
    obtain ⟨a, sa⟩ := a
    obtain ⟨b, sb⟩ := b
    obtain ⟨hab, hl⟩ := this
    simp only at hab hl
    subst hl
    cases hab with
    | panic => exact ⟨.panic, ⟨rfl, h2⟩, rfl⟩
    | err => exact ⟨.ok rfl, ⟨rfl, Errors.pushSyn_alike _ _ _ _⟩, rfl⟩
    | ok h =>
      subst h
      refine ⟨.ok rfl, ⟨rfl, ?_⟩, rfl⟩
      simp only
      split
      · exact Errors.pushSyn_alike _ _ _ _
      · exact h2
  · exact ⟨.ok rfl, ⟨rfl, h2⟩, rfl⟩

theorem checkUnknown_alike (p : Str) (sp : Span) (allowed : List Str) {e e' : Errors} (h : e.Alike e') :
    (checkUnknownAttribute p sp allowed e).1.Alike (checkUnknownAttribute p sp allowed e').1 := by
  unfold checkUnknownAttribute
  split
  · exact h
  · exact Errors.pushSyn_alike _ _ _ _

theorem checkKeys_alike (allowed : List Str) {e e' : Errors} (h : e.Alike e') (l : List Stream) :
    Res.Rel Errors.Alike (checkKeys allowed e l).1 (checkKeys allowed e' l).1 ∧
      (checkKeys allowed e l).2 = (checkKeys allowed e' l).2 := by
  have := parseStruct_rel (R := AccAlike) (func := checkStep allowed) (func' := checkStep allowed)
    (fun p sp k k' s hk => ⟨.ok rfl, ⟨rfl, checkUnknown_alike p sp allowed hk.2⟩, rfl⟩) l ⟨(), e⟩ ⟨(), e'⟩ ⟨rfl, h⟩
  unfold checkKeys
  generalize parseStruct (checkStep allowed) (⟨(), e⟩, l) = a at this ⊢
  generalize parseStruct (checkStep allowed) (⟨(), e'⟩, l) = b at this ⊢
  obtain ⟨a, ka, sa⟩ := a
  obtain ⟨b, kb, sb⟩ := b
  obtain ⟨hab, hr, hl⟩ := this
  simp only at hab hl hr
  subst hl
  cases hab with
  | err => exact ⟨.ok hr.2, rfl⟩
  | panic => exact ⟨.panic, rfl⟩
  | ok => exact ⟨.ok hr.2, rfl⟩

theorem validatePass_alike (e : EnumDef V) (validate : Bool) {x x' : Errors} (h : x.Alike x') (l : List Stream) :
    Res.Rel Errors.Alike (validatePass e validate x l).1 (validatePass e validate x' l).1 ∧
      (validatePass e validate x l).2 = (validatePass e validate x' l).2 := by
  unfold validatePass
  split
  · exact checkKeys_alike _ h l
  · exact ⟨.ok h, rfl⟩

omit [Env] in
theorem disallowPaths_alike (paths : PathMap) (keys : List (Str × List Str)) (cur : Str) {e e' : Errors}
    (h : e.Alike e') : (disallowPaths paths keys cur e).Alike (disallowPaths paths keys cur e') := by
  have inner : ∀ (pre : Str) (ks : List Str) (e e' : Errors), e.Alike e' →
      (ks.foldl (fun errs path =>
        match paths.get (joinPath pre path) with
        | some span => errs.push span (.notAllowedWith (joinPath pre path) cur)
        | none => errs) e).Alike (ks.foldl (fun errs path =>
        match paths.get (joinPath pre path) with
        | some span => errs.push span (.notAllowedWith (joinPath pre path) cur)
        | none => errs) e') := by
    intro pre ks
    induction ks with
    | nil => intro e e' h; exact h
    | cons k ks ih =>
      intro e e' h
      simp only [List.foldl_cons]
      apply ih
      split
      · exact Errors.pushSyn_alike _ _ _ _
      · exact h
  unfold disallowPaths
  induction keys generalizing e e' with
  | nil => exact h
  | cons k ks ih =>
    simp only [List.foldl_cons]
    exact ih (inner _ _ _ _ h)

omit [Env] in
theorem Errors.Alike.bail {α : Type} {e e' : Errors} (h : e.Alike e') (R : α → α → Prop) :
    Res.Rel R (e.bail : Res α) (e'.bail : Res α) := by
  unfold Errors.Alike Errors.isEmpty at h
  unfold Errors.bail Errors.unwrapErr
  cases h1 : e.inner <;> cases h2 : e'.inner <;> simp [h1, h2] at h
  · exact .panic
  · exact .err

theorem emptyCheck_alike (e : EnumDef V) (v : Variant V) (pre : Str) (sp sp' : Span) {x x' : Errors} (h : x.Alike x')
    (l : List Stream) : Res.Rel Errors.Alike (emptyCheck e v pre sp x l) (emptyCheck e v pre sp' x' l) := by
  unfold emptyCheck
  rw [show x.isEmpty = x'.isEmpty from h]
  split
  · exact h.bail _
  · have := (checkKeys_alike (Field.fieldNames v.fields) h (forkInputs l)).1
    generalize (checkKeys (Field.fieldNames v.fields) x (forkInputs l)).1 = a at this ⊢
    generalize (checkKeys (Field.fieldNames v.fields) x' (forkInputs l)).1 = b at this ⊢
    cases this with
    | err => exact .err
    | panic => exact .panic
    | @ok a b hab =>
      simp only
      rw [show a.isEmpty = b.isEmpty from hab]
      split
      · exact .ok hab
      · exact (Errors.pushSyn_alike _ _ _ _).bail _

/-- The same status, and both have errors or none. -/
def PickedAlike (x y : FieldStatus (EnumVal V) × Errors) : Prop := x.1 = y.1 ∧ x.2.Alike y.2

theorem flatBlock_alike {e : EnumDef V} {v : Variant V} (hn : NoContainer v.fields) (hp : Placeless v.fields)
    (site site' : Site V) (pre : Str) (sp sp' : Span) (paths : PathMap) (i : Nat) (empty : Bool) {x x' : Errors}
    (h : x.Alike x') (l : List Stream) :
    Res.Rel PickedAlike (flatBlock e site pre sp paths v i empty x l).1 (flatBlock e site' pre sp' paths v i empty x' l).1 ∧
      (flatBlock e site pre sp paths v i empty x l).2 = (flatBlock e site' pre sp' paths v i empty x' l).2 := by
  unfold flatBlock
  have h0 : Res.Rel Errors.Alike
      (if (empty && !v.allowUnknown.getD false) && !v.acceptsAll then emptyCheck e v pre sp x l else .ok x)
      (if (empty && !v.allowUnknown.getD false) && !v.acceptsAll then emptyCheck e v pre sp' x' l else .ok x') := by
    split
    · exact emptyCheck_alike e v pre sp sp' h l
    · exact .ok h
  simp only
  generalize (if ((empty && !v.allowUnknown.getD false) && !v.acceptsAll) = true then emptyCheck e v pre sp x l
    else .ok x) = a at h0 ⊢
  generalize (if ((empty && !v.allowUnknown.getD false) && !v.acceptsAll) = true then emptyCheck e v pre sp' x' l
    else .ok x') = b at h0 ⊢
  cases h0 with
  | err => exact ⟨.err, rfl⟩
  | panic => exact ⟨.panic, rfl⟩
  | @ok a b hab =>
    simp only
    have hf : SameFields (v.data site sp) (v.data site' sp') := ⟨rfl, rfl, rfl, rfl⟩
    have := namedFlat_alike hf hn hp (Field.fieldNames v.fields) (.named sp) (.named sp') pre
      (!v.acceptsAll && !(empty && !v.allowUnknown.getD false)) l
    generalize namedFlat (v.data site sp) (Field.fieldNames v.fields) (.named sp) pre
      (!v.acceptsAll && !(empty && !v.allowUnknown.getD false)) l = y at this ⊢
    generalize namedFlat (v.data site' sp') (Field.fieldNames v.fields) (.named sp') pre
      (!v.acceptsAll && !(empty && !v.allowUnknown.getD false)) l = z at this ⊢
    obtain ⟨y, ly⟩ := y
    obtain ⟨z, lz⟩ := z
    obtain ⟨hyz, hl⟩ := this
    simp only at hyz hl
    subst hl
    cases hyz with
    | panic => exact ⟨.panic, rfl⟩
    | err =>
      refine ⟨.ok ⟨rfl, ?_⟩, rfl⟩
      simp only
      split
      · exact Errors.pushSyn_alike _ _ _ _
      · exact disallowPaths_alike _ _ _ (Errors.pushSyn_alike _ _ _ _)
    | ok h =>
      subst h
      refine ⟨.ok ⟨rfl, ?_⟩, rfl⟩
      simp only
      split
      · exact hab
      · exact disallowPaths_alike _ _ _ hab

omit [Env] in
theorem flatMatches_variant {e : EnumDef V} {k : VKey} {v : Variant V} {i : Nat} (h : (k, v, i) ∈ e.flatMatches) :
    v ∈ e.variants := 
  List.mem_of_getElem? (mem_flatMatches h).2.1

theorem pick_alike {e : EnumDef V} (hn : ∀ v ∈ e.variants, NoContainer v.fields)
    (hp : ∀ v ∈ e.variants, Placeless v.fields) (site site' : Site V) (pre : Str) (sp sp' : Span) (validate : Bool)
    (st : EnumSt V) {x x' : Errors} (h : x.Alike x') (l : List Stream) :
    Res.Rel PickedAlike (pick e site pre sp validate st x l).1 (pick e site' pre sp' validate st x' l).1 ∧
      (pick e site pre sp validate st x l).2 = (pick e site' pre sp' validate st x' l).2 := by
  unfold pick
  cases st.value with
  | parseError => exact ⟨.ok ⟨rfl, h⟩, rfl⟩
  | some y =>
    simp only
    cases st.key with
    | none => exact ⟨.panic, rfl⟩
    | some key =>
      simp only
      have h0 : Errors.Alike (if e.anyFlat && !e.unknownOk && !validate then
            disallowPaths (st.paths.remove key) (otherFlatNames e none) key x else x)
          (if e.anyFlat && !e.unknownOk && !validate then
            disallowPaths (st.paths.remove key) (otherFlatNames e none) key x' else x') := by
        split
        · exact disallowPaths_alike _ _ _ h
        · exact h
      have := validatePass_alike e validate h0 l
      generalize validatePass e validate (if (e.anyFlat && !e.unknownOk && !validate) = true then
            disallowPaths (st.paths.remove key) (otherFlatNames e none) key x else x) l = a at this ⊢
      generalize validatePass e validate (if (e.anyFlat && !e.unknownOk && !validate) = true then
            disallowPaths (st.paths.remove key) (otherFlatNames e none) key x' else x') l = b at this ⊢
      obtain ⟨a, la⟩ := a
      obtain ⟨b, lb⟩ := b
      obtain ⟨hab, hl⟩ := this
      simp only at hab hl
      subst hl
      cases hab with
      | ok h => exact ⟨.ok ⟨rfl, h⟩, rfl⟩
      | err => exact ⟨.err, rfl⟩
      | panic => exact ⟨.panic, rfl⟩
  | none =>
    simp only [pickFlat]
    split
    · rename_i hf
      have hv := flatMatches_variant (List.mem_of_find?_eq_some hf)
      exact flatBlock_alike (hn _ hv) (hp _ hv) site site' pre sp sp' _ _ _ h l
    · split
      · rename_i hf
        have hv := flatMatches_variant (List.mem_of_find?_eq_some hf)
        exact flatBlock_alike (hn _ hv) (hp _ hv) site site' pre sp sp' _ _ _ h l
      · split
        · exact ⟨.ok ⟨rfl, h⟩, rfl⟩
        · have := validatePass_alike e validate h l
          generalize validatePass e validate x l = a at this ⊢
          generalize validatePass e validate x' l = b at this ⊢
          obtain ⟨a, la⟩ := a
          obtain ⟨b, lb⟩ := b
          obtain ⟨hab, hl⟩ := this
          simp only at hab hl
          subst hl
          cases hab with
          | ok h => exact ⟨.ok ⟨rfl, Errors.pushSyn_alike _ _ _ _⟩, rfl⟩
          | err => exact ⟨.err, rfl⟩
          | panic => exact ⟨.panic, rfl⟩

omit [Env] in
theorem enumAndThens_alike (fs : List (EnumVal V → Except SynErr (EnumVal V))) (x : Option (EnumVal V)) {e e' : Errors}
    (h : e.Alike e') : (enumAndThens fs x e).1 = (enumAndThens fs x e').1 ∧
      (enumAndThens fs x e).2.Alike (enumAndThens fs x e').2 := by
  induction fs generalizing x e e' with
  | nil => exact ⟨rfl, h⟩
  | cons f fs ih =>
    unfold enumAndThens
    simp only [List.foldl_cons]
    cases x with
    | none => exact ih none h
    | some v =>
      simp only
      cases f v with
      | ok v' => exact ih _ h
      | error err => exact ih none (Errors.pushSyn_alike _ _ _ _)

/-- The part of `enumFlat` after the loop. -/
def enumTail (e : EnumDef V) (site : Site V) (pre : Str) (sp : Span) (validate : Bool) (st : EnumSt V) (errs : Errors)
    (l : List Stream) : Res (EnumVal V) × List Stream :=
  match pick e site pre sp validate st errs l with
  | (.ok (value, errs), l2) =>
    (match (enumAndThens e.andThens value.intoOption errs).2.check with
      | .ok () =>
        match (enumAndThens e.andThens value.intoOption errs).1 with
        | some x => .ok x
        | none => .panic
      | .err x => .err x
      | .panic => .panic, skipAll l2)
  | (.err x, l2) => (.err x, l2)
  | (.panic, l2) => (.panic, l2)

theorem enumFlat_tail (e : EnumDef V) (site : Site V) (mode : Mode) (pre : Str) (validate : Bool) (l : List Stream) :
    enumFlat e site mode pre validate l =
      (let q := parseStruct (enumStep e site pre) (⟨⟨none, .none, []⟩, Errors.new⟩,
        if e.anyFlat || !e.unknownOk then forkInputs l else l)
      let l1 := if e.anyFlat || !e.unknownOk then l else q.2.2
      match q.1 with
      | .panic => (.panic, l1)
      | .ok _ => enumTail e site pre (mode.toFullSpan l) validate q.2.1.val q.2.1.errs l1
      | .err x => enumTail e site pre (mode.toFullSpan l) validate q.2.1.val (q.2.1.errs.pushSyn x) l1) := by
  simp only [enumFlat]
  generalize parseStruct (enumStep e site pre) _ = q
  obtain ⟨r, acc, l1⟩ := q
  cases r <;> rfl

theorem enumTail_alike {e : EnumDef V} (hn : ∀ v ∈ e.variants, NoContainer v.fields)
    (hp : ∀ v ∈ e.variants, Placeless v.fields) (site site' : Site V) (pre : Str) (sp sp' : Span) (validate : Bool)
    (st : EnumSt V) {x x' : Errors} (h : x.Alike x') (l : List Stream) :
    Res.Same (enumTail e site pre sp validate st x l).1 (enumTail e site' pre sp' validate st x' l).1 ∧
      (enumTail e site pre sp validate st x l).2 = (enumTail e site' pre sp' validate st x' l).2 := by
  unfold enumTail
  have := pick_alike hn hp site site' pre sp sp' validate st h l
  generalize pick e site pre sp validate st x l = a at this ⊢
  generalize pick e site' pre sp' validate st x' l = b at this ⊢
  obtain ⟨a, la⟩ := a
  obtain ⟨b, lb⟩ := b
  obtain ⟨hab, hl⟩ := this
  simp only at hab hl
  subst hl
  cases hab with
  | err => exact ⟨.err, rfl⟩
  | panic => exact ⟨.panic, rfl⟩
  | @ok a b hab =>
    obtain ⟨a1, a2⟩ := a
    obtain ⟨b1, b2⟩ := b
    obtain ⟨h1, h2⟩ := hab
    simp only at h1 h2
    subst h1
    have ht := enumAndThens_alike e.andThens a1.intoOption h2
    simp only
    rw [ht.1]
    have hc := ht.2.check
    generalize (enumAndThens e.andThens a1.intoOption a2).2.check = c at hc ⊢
    generalize (enumAndThens e.andThens a1.intoOption b2).2.check = d at hc ⊢
    cases hc with
    | ok _ => exact ⟨.refl _, trivial⟩
    | err => exact ⟨.err, trivial⟩
    | panic => exact ⟨.panic, trivial⟩

/-- The label and the place do not change the value of an enum, nor what is left. -/
theorem enumFlat_alike {e : EnumDef V} (hn : ∀ v ∈ e.variants, NoContainer v.fields)
    (hp : ∀ v ∈ e.variants, Placeless v.fields) (site site' : Site V) (mode mode' : Mode) (pre : Str) (validate : Bool) :
    (enumFlat e site mode pre validate).Alike (enumFlat e site' mode' pre validate) := fun l => by
  rw [enumFlat_tail, enumFlat_tail]
  have := parseStruct_rel (R := AccAlike) (func := enumStep e site pre) (func' := enumStep e site' pre)
    (enumStep_rel hn hp site site' pre) (if (e.anyFlat || !e.unknownOk) = true then forkInputs l else l)
    ⟨⟨none, .none, []⟩, Errors.new⟩ ⟨⟨none, .none, []⟩, Errors.new⟩ ⟨rfl, rfl⟩
  generalize parseStruct (enumStep e site pre) _ = a at this ⊢
  generalize parseStruct (enumStep e site' pre) _ = b at this ⊢
  obtain ⟨a, ka, sa⟩ := a
  obtain ⟨b, kb, sb⟩ := b
  obtain ⟨hab, hr, hl⟩ := this
  simp only at hab hl hr
  subst hl
  simp only
  rw [← hr.1]
  cases hab with
  | panic => exact ⟨.panic, rfl⟩
  | ok => exact enumTail_alike hn hp site site' pre _ _ validate ka.val hr.2 _
  | err => exact enumTail_alike hn hp site site' pre _ _ validate ka.val (Errors.pushSyn_alike _ _ _ _) _

end

end Deluxe
