import Verif.Lemmas.RelocTypes
/-!
# Derived structures do not look at locations
-/
namespace Deluxe

/-! ## Related lists -/

section
variable {α β γ δ : Type} {P : α → β → Prop} {l : List α} {l' : List β}

theorem All2.length (h : All2 P l l') : l'.length = l.length := by
  induction l generalizing l' with
  | nil => cases l' <;> simp_all [All2]
  | cons a l ih =>
    cases l' with
    | nil => exact h.elim
    | cons b l' => simp [ih h.2]

theorem All2.any {p : α → Bool} {q : β → Bool} (h : All2 P l l') (hp : ∀ a b, P a b → q b = p a) :
    l'.any q = l.any p := by
  induction l generalizing l' with
  | nil => cases l' <;> simp_all [All2]
  | cons a l ih =>
    cases l' with
    | nil => exact h.elim
    | cons b l' => simp only [List.any_cons, hp _ _ h.1, ih h.2]

theorem All2.all {p : α → Bool} {q : β → Bool} (h : All2 P l l') (hp : ∀ a b, P a b → q b = p a) :
    l'.all q = l.all p := by
  induction l generalizing l' with
  | nil => cases l' <;> simp_all [All2]
  | cons a l ih =>
    cases l' with
    | nil => exact h.elim
    | cons b l' => simp only [List.all_cons, hp _ _ h.1, ih h.2]

theorem All2.countP {p : α → Bool} {q : β → Bool} (h : All2 P l l') (hp : ∀ a b, P a b → q b = p a) :
    l'.countP q = l.countP p := by
  induction l generalizing l' with
  | nil => cases l' <;> simp_all [All2]
  | cons a l ih =>
    cases l' with
    | nil => exact h.elim
    | cons b l' => simp only [List.countP_cons, hp _ _ h.1, ih h.2]

theorem All2.filter {p : α → Bool} {q : β → Bool} (h : All2 P l l') (hp : ∀ a b, P a b → q b = p a) :
    All2 P (l.filter p) (l'.filter q) := by
  induction l generalizing l' with
  | nil => cases l' <;> simp_all [All2]
  | cons a l ih =>
    cases l' with
    | nil => exact h.elim
    | cons b l' =>
      simp only [List.filter_cons, hp _ _ h.1]
      split
      · exact ⟨h.1, ih h.2⟩
      · exact ih h.2

theorem All2.map_eq {p : α → γ} {q : β → γ} (h : All2 P l l') (hp : ∀ a b, P a b → q b = p a) :
    l'.map q = l.map p := by
  induction l generalizing l' with
  | nil => cases l' <;> simp_all [All2]
  | cons a l ih =>
    cases l' with
    | nil => exact h.elim
    | cons b l' => simp only [List.map_cons, hp _ _ h.1, ih h.2]

theorem All2.flatMap_eq {p : α → List γ} {q : β → List γ} (h : All2 P l l') (hp : ∀ a b, P a b → q b = p a) :
    l'.flatMap q = l.flatMap p := by
  simp only [List.flatMap_def, h.map_eq hp]

theorem All2.filterMap_eq {p : α → Option γ} {q : β → Option γ} (h : All2 P l l') (hp : ∀ a b, P a b → q b = p a) :
    l'.filterMap q = l.filterMap p := by
  induction l generalizing l' with
  | nil => cases l' <;> simp_all [All2]
  | cons a l ih =>
    cases l' with
    | nil => exact h.elim
    | cons b l' => simp only [List.filterMap_cons, hp _ _ h.1, ih h.2]

theorem All2.map {Q : γ → δ → Prop} {p : α → γ} {q : β → δ} (h : All2 P l l') (hp : ∀ a b, P a b → Q (p a) (q b)) :
    All2 Q (l.map p) (l'.map q) := by
  induction l generalizing l' with
  | nil => cases l' <;> simp_all [All2]
  | cons a l ih =>
    cases l' with
    | nil => exact h.elim
    | cons b l' => exact ⟨hp _ _ h.1, ih h.2⟩

/-- Elements with their positions. -/
def AtPos (P : α → β → Prop) (x : α × Nat) (y : β × Nat) : Prop := P x.1 y.1 ∧ y.2 = x.2

theorem All2.zipIdx (h : All2 P l l') (n : Nat) : All2 (AtPos P) (l.zipIdx n) (l'.zipIdx n) := by
  induction l generalizing l' n with
  | nil => cases l' <;> simp_all [All2]
  | cons a l ih =>
    cases l' with
    | nil => exact h.elim
    | cons b l' => exact ⟨⟨h.1, rfl⟩, ih h.2 (n + 1)⟩

/-- Both are there and related, or none is. -/
inductive OptRel (P : α → β → Prop) : Option α → Option β → Prop
  | none : OptRel P none none
  | some {a : α} {b : β} (h : P a b) : OptRel P (some a) (some b)

theorem All2.get (h : All2 P l l') (i : Nat) : OptRel P l[i]? l'[i]? := by
  induction l generalizing l' i with
  | nil =>
    cases l' with
    | nil => simpa using OptRel.none
    | cons b l' => exact h.elim
  | cons a l ih =>
    cases l' with
    | nil => exact h.elim
    | cons b l' =>
      cases i with
      | zero => exact .some h.1
      | succ i => simpa using ih h.2 i

theorem All2.find {p : α → Bool} {q : β → Bool} (h : All2 P l l') (hp : ∀ a b, P a b → q b = p a) :
    OptRel P (l.find? p) (l'.find? q) := by
  induction l generalizing l' with
  | nil =>
    cases l' with
    | nil => exact .none
    | cons b l' => exact h.elim
  | cons a l ih =>
    cases l' with
    | nil => exact h.elim
    | cons b l' =>
      simp only [List.find?_cons, hp _ _ h.1]
      cases p a
      · exact ih h.2
      · exact .some h.1

end

variable {f : Span → Span} {V W : Type} {v : V → W}

/-! ## Fields -/

namespace Field.Reloc
variable {x : Field V} {y : Field W} (h : x.Reloc f v y)
include h

theorem isFlatten : y.isFlatten = x.isFlatten := by simp only [Field.isFlatten, h.flatten]
theorem isFlat : y.isFlat = x.isFlat := by simp only [Field.isFlat, h.isFlatten, h.append, h.rest]
theorem isContainer : y.isContainer = x.isContainer := by simp only [Field.isContainer, h.container]
theorem isParsable : y.isParsable = x.isParsable := by simp only [Field.isParsable, h.isContainer, h.skip]
theorem flatParsable : y.flatParsable = x.flatParsable := by simp only [Field.flatParsable, h.isFlat, h.isParsable]
theorem matchesKey (k : Str) : y.matchesKey k = x.matchesKey k := by
  simp only [Field.matchesKey, h.isFlat, h.isParsable, h.idents]
theorem names : y.names = x.names := by
  simp only [Field.names, h.flatten, h.flatNamed.fieldNames, h.idents]
theorem default_isNone : y.default.isNone = x.default.isNone := by simp only [h.default, Option.isNone_map]
theorem default_isSome : y.default.isSome = x.default.isSome := by simp only [h.default, Option.isSome_map]

theorem flatCall (pre : Str) (sp : Span) (allowed : List Str) :
    RelocL f v (x.flatCall pre sp allowed) (y.flatCall pre (f sp) allowed) := by
  simp only [Field.flatCall, h.append, h.rest, h.idents, h.flatten]
  split
  · exact h.appendP _
  · split
    · exact h.restP _
    · exact h.flatNamed.parse (.named sp) _ false

end Field.Reloc

theorem fieldNames_reloc {l : List (Field V)} {l' : List (Field W)} (h : All2 (Field.Reloc f v) l l') :
    Field.fieldNames l' = Field.fieldNames l := by
  simp only [Field.fieldNames]
  exact (h.filter fun _ _ h => h.isParsable).flatMap_eq fun _ _ h => h.names

theorem acceptsAll_reloc {l : List (Field V)} {l' : List (Field W)} (h : All2 (Field.Reloc f v) l l') :
    Field.acceptsAll l' = Field.acceptsAll l := by
  simp only [Field.acceptsAll]
  rw [h.any (p := fun f => f.rest.getD false) fun _ _ h => by simp only [h.rest],
    h.any (p := fun f => f.isFlatten && f.flatNamed.acceptsAll)
      fun _ _ h => by simp only [h.isFlatten, h.flatNamed.acceptsAll]]

/-- The slots with other locations. -/
abbrev relocSlots (v : V → W) : Slots V → Slots W := List.map (FieldStatus.map · v)

theorem transform_reloc {t : Transform V} {t' : Transform W} (h : t.Reloc f v t') (st : FieldStatus V) (e : Errors) :
    Field.transform t' (st.map v) (e.reloc f) =
      ((Field.transform t st e).1.map v, (Field.transform t st e).2.reloc f) := by
  cases st with
  | none => rfl
  | parseError => rfl
  | some a =>
    cases t <;> cases t'
    · simp only [Transform.Reloc] at h
      simp [Field.transform, FieldStatus.map, h a]
    · exact h.elim
    · exact h.elim
    · simp only [Transform.Reloc] at h
      have e1 : (FieldStatus.some a).map v = .some (v a) := rfl
      rw [e1]
      simp only [Field.transform, h a]
      rename_i g g'
      cases g a with
      | ok b => rfl
      | error er => simp only [relocExcept, Errors.reloc_pushSyn]; rfl

theorem Field.Reloc.set {x : Field V} {y : Field W} (h : x.Reloc f v y) (st : FieldStatus V) (e : Errors) :
    y.set (st.map v) (e.reloc f) = ((x.set st e).1.map v, (x.set st e).2.reloc f) := by
  have key : ∀ {l : List (Transform V)} {l' : List (Transform W)}, All2 (Transform.Reloc f v) l l' →
      ∀ (st : FieldStatus V) (e : Errors),
      l'.foldl (fun x t => Field.transform t x.1 x.2) (st.map v, e.reloc f) =
        ((l.foldl (fun x t => Field.transform t x.1 x.2) (st, e)).1.map v,
          (l.foldl (fun x t => Field.transform t x.1 x.2) (st, e)).2.reloc f) := by
    intro l
    induction l with
    | nil =>
      intro l' h st e
      cases l' with
      | nil => rfl
      | cons b l' => exact h.elim
    | cons a l ih =>
      intro l' h st e
      cases l' with
      | nil => exact h.elim
      | cons b l' =>
        simp only [List.foldl_cons, transform_reloc h.1]
        exact ih h.2 _ _
  simp only [Field.set, h.default]
  cases x.default with
  | none => exact key h.transforms _ _
  | some d =>
    have e1 : (st.map v).orElse (fun _ => .some (v d)) = (st.orElse fun _ => .some d).map v := by cases st <;> rfl
    simp only [Option.map_some, e1]
    exact key h.transforms _ _

theorem setPass_reloc {l : List (Field V)} {l' : List (Field W)} (h : All2 (Field.Reloc f v) l l') (sts : Slots V)
    (e : Errors) : setPass l' (relocSlots v sts) (e.reloc f) =
      (relocSlots v (setPass l sts e).1, (setPass l sts e).2.reloc f) := by
  induction l generalizing l' sts e with
  | nil =>
    cases l' with
    | nil => rfl
    | cons b l' => exact h.elim
  | cons a l ih =>
    cases l' with
    | nil => exact h.elim
    | cons b l' =>
      cases sts with
      | nil => rfl
      | cons st sts =>
        simp only [relocSlots, List.map_cons, setPass, h.1.set]
        have := ih h.2 sts (a.set st e).2
        simp only [relocSlots] at this
        rw [this]

section
variable {d : Fields V} {d' : Fields W} (h : d.Reloc f v d')
include h

theorem Fields.Reloc.init : d'.init = relocSlots v d.init := by
  simp only [Fields.init, relocSlots, List.map_map]
  exact h.fields.map_eq fun _ _ _ => rfl

theorem finish_reloc (sts : Slots V) (e : Errors) :
    finish d' (relocSlots v sts) (e.reloc f) = (finish d sts e).reloc f (List.map v) := by
  simp only [finish, Errors.reloc_check, h.target]
  rcases e.check with _ | _ | _
  · simp only [Res.reloc_ok, id]
    cases d.target with
    | none => exact unwrapAll_reloc sts
    | some t =>
      simp only [Option.map_some, Res.reloc_ok, relocSlots, List.zipWith_map, List.map_zipWith]
      congr 2
      funext st a
      cases st <;> rfl
  · rfl
  · rfl

theorem containerSet_reloc {x : Field V} {y : Field W} (hx : x.Reloc f v y) (st : FieldStatus V) :
    containerSet d' y (st.map v) = (containerSet d x st).map v := by
  simp only [containerSet, h.obj, hx.isContainer]
  cases d.obj with
  | none => rfl
  | some o =>
    simp only [Option.map_some]
    split <;> rfl

theorem missingName_reloc {x : Field V} {y : Field W} (hx : x.Reloc f v y) (pre : Str) :
    missingName d' pre y = missingName d pre x := by
  simp only [missingName, hx.ident, h.attrName]

theorem missingNamed_reloc {x : Field V} {y : Field W} (hx : x.Reloc f v y) (pre : Str) (sp : Span)
    (st : FieldStatus V) (e : Errors) :
    missingNamed d' pre (f sp) y (st.map v) (e.reloc f) =
      (missingNamed d pre sp x st e).reloc f (Prod.map (FieldStatus.map · v) (Errors.reloc f)) := by
  simp only [missingNamed, hx.isContainer, h.transparent, hx.default_isNone, h.target, Option.isNone_map, hx.isFlat,
    FieldStatus.isNone_map, missingName_reloc h hx, hx.item.missing]
  split
  · rfl
  · split
    · cases x.item.missing (missingName d pre x) sp with
      | ok a => rfl
      | err er => simp
      | panic => rfl
    · rfl

theorem missingPass_reloc {l : List (Field V)} {l' : List (Field W)} (hl : All2 (Field.Reloc f v) l l') (pre : Str)
    (sp : Span) (sts : Slots V) (e : Errors) :
    missingPass d' pre (f sp) l' (relocSlots v sts) (e.reloc f) =
      (missingPass d pre sp l sts e).reloc f (Prod.map (relocSlots v) (Errors.reloc f)) := by
  induction l generalizing l' sts e with
  | nil =>
    cases l' with
    | nil => rfl
    | cons b l' => exact hl.elim
  | cons a l ih =>
    cases l' with
    | nil => exact hl.elim
    | cons b l' =>
      cases sts with
      | nil => rfl
      | cons st sts =>
        simp only [relocSlots, List.map_cons, missingPass, containerSet_reloc h hl.1, missingNamed_reloc h hl.1]
        rcases missingNamed d pre sp a (containerSet d a st) e with ⟨st', e'⟩ | er | _
        · have := ih hl.2 sts e'
          simp only [relocSlots] at this
          simp only [Res.reloc_ok, Prod.map_apply, this]
          rcases missingPass d pre sp l sts e' with _ | er | _ <;> rfl
        · rfl
        · rfl

theorem postNamed_reloc (pre : Str) (sp : Span) (sts : Slots V) (e : Errors) :
    postNamed d' pre (f sp) (relocSlots v sts) (e.reloc f) = (postNamed d pre sp sts e).reloc f (List.map v) := by
  simp only [postNamed, missingPass_reloc h h.fields]
  rcases missingPass d pre sp d.fields sts e with ⟨sts', e'⟩ | er | _
  · simp only [Res.reloc_ok, Prod.map_apply, setPass_reloc h.fields]
    exact finish_reloc h _ _
  · rfl
  · rfl

omit h in
theorem flatPass_reloc {l : List (Field V)} {l' : List (Field W)} (hl : All2 (Field.Reloc f v) l l') (pre : Str)
    (sp : Span) (allowed : List Str) (sts : Slots V) (e : Errors) (is : List Stream) :
    flatPass pre (f sp) allowed l' (relocSlots v sts) (e.reloc f) (is.map (Stream.reloc f)) =
      ((flatPass pre sp allowed l sts e is).1.reloc f (Prod.map (relocSlots v) (Errors.reloc f)),
        (flatPass pre sp allowed l sts e is).2.map (Stream.reloc f)) := by
  induction l generalizing l' sts e is with
  | nil =>
    cases l' with
    | nil => rfl
    | cons b l' => exact hl.elim
  | cons a l ih =>
    cases l' with
    | nil => exact hl.elim
    | cons b l' =>
      cases sts with
      | nil => rfl
      | cons st sts =>
        have hc : (if l'.any (·.flatParsable) then
              ((b.flatCall pre (f sp) allowed (forkInputs (is.map (Stream.reloc f)))).1, is.map (Stream.reloc f))
            else b.flatCall pre (f sp) allowed (is.map (Stream.reloc f))) =
            ((if l.any (·.flatParsable) then ((a.flatCall pre sp allowed (forkInputs is)).1, is)
              else a.flatCall pre sp allowed is).1.reloc f v,
             (if l.any (·.flatParsable) then ((a.flatCall pre sp allowed (forkInputs is)).1, is)
              else a.flatCall pre sp allowed is).2.map (Stream.reloc f)) := by
          rw [hl.2.any (p := fun g => g.flatParsable) fun _ _ h => h.flatParsable]
          split
          · rw [forkInputs_reloc, hl.1.flatCall pre sp allowed (forkInputs is)]
          · exact hl.1.flatCall pre sp allowed is
        simp only [relocSlots, List.map_cons, flatPass, hl.1.flatParsable]
        rw [hc]
        rcases (if l.any (·.flatParsable) then ((a.flatCall pre sp allowed (forkInputs is)).1, is)
              else a.flatCall pre sp allowed is) with ⟨x | er | _, l1⟩
        · have := ih hl.2 sts e l1
          have hn := ih hl.2 sts e is
          simp only [relocSlots] at this hn
          simp only [Res.reloc_ok, this, hn]
          split
          · rcases flatPass pre sp allowed l sts e l1 with ⟨_ | _ | _, l2⟩ <;> rfl
          · rcases flatPass pre sp allowed l sts e is with ⟨_ | _ | _, l2⟩ <;> rfl
        · have := ih hl.2 sts (e.pushSyn er) l1
          have hn := ih hl.2 sts e is
          simp only [relocSlots, ← Errors.reloc_pushSyn] at this hn
          simp only [Res.reloc_err, this, hn]
          split
          · rcases flatPass pre sp allowed l sts (e.pushSyn er) l1 with ⟨_ | _ | _, l2⟩ <;> rfl
          · rcases flatPass pre sp allowed l sts e is with ⟨_ | _ | _, l2⟩ <;> rfl
        · have hn := ih hl.2 sts e is
          simp only [relocSlots] at hn
          simp only [Res.reloc_panic, hn]
          split
          · rfl
          · rcases flatPass pre sp allowed l sts e is with ⟨_ | _ | _, l2⟩ <;> rfl

omit h in
theorem findArm_reloc {l : List (Field V)} {l' : List (Field W)} (hl : All2 (Field.Reloc f v) l l') (k : Str) :
    OptRel (AtPos (Field.Reloc f v)) (findArm l k) (findArm l' k) :=
  (hl.zipIdx 0).find fun _ _ h => h.1.matchesKey k

variable {E' E : Env} (R : Relocates E E' f)
include R

theorem namedStep_reloc (allowed : List Str) (pre : Str) (validate : Bool) (p : Str) (sp : Span) :
    RelocM f (Prod.map (Acc.reloc f (relocSlots v)) (Stream.reloc f)) id (namedStep d allowed pre validate p sp)
      (@namedStep W E' d' allowed pre validate p (f sp)) := by
  rintro ⟨acc, s⟩
  have none_case : ((.ok (), (⟨(acc.reloc f (relocSlots v)).val,
        if !d'.allowUnknown && validate then
          (@checkUnknownAttribute E' p (f sp) allowed (acc.reloc f (relocSlots v)).errs).1
        else (acc.reloc f (relocSlots v)).errs⟩, skipMetaItem (s.reloc f))) : Res Unit × (Acc (Slots W) × Stream)) =
      (.ok (), Prod.map (Acc.reloc f (relocSlots v)) (Stream.reloc f)
        (⟨acc.val, if !d.allowUnknown && validate then (checkUnknownAttribute p sp allowed acc.errs).1 else acc.errs⟩,
          skipMetaItem s)) := by
    have := checkUnknownAttribute_reloc R p sp allowed acc.errs
    simp only [Acc.reloc, h.allowUnknown, this, skipMetaItem_reloc, Prod.map_apply]
    split <;> rfl
  simp only [namedStep, Prod.map_apply]
  cases stripPrefix pre p with
  | none => exact none_case
  | some k =>
    simp only [Option.bind_some]
    generalize ho : findArm d.fields k = o
    generalize ho' : findArm d'.fields k = o'
    have hr := findArm_reloc h.fields k
    rw [ho, ho'] at hr
    cases hr with
    | none => exact none_case
    | some hx =>
      rename_i x y
      obtain ⟨x, i⟩ := x
      obtain ⟨y, i'⟩ := y
      obtain ⟨hx, rfl⟩ := hx
      have hg : (relocSlots v acc.val).getD i' .none = (acc.val.getD i' .none).map v := by
        simp only [relocSlots, List.getD_eq_getElem?_getD, List.getElem?_map]
        cases acc.val[i']? <;> rfl
      simp only at hx
      simp only [Acc.reloc, hx.idents, hg]
      rw [parseNamedItemWith_reloc (hx.item.named (x.idents.headD []) sp)]
      simp only [Prod.map_apply, relocSlots, List.map_set, Acc.reloc]

theorem namedFlat_reloc (allowed : List Str) (mode : Mode) (pre : Str) (validate : Bool) :
    RelocL f (List.map v) (namedFlat d allowed mode pre validate)
      (@namedFlat W E' d' allowed (mode.reloc f) pre validate) := by
  intro l
  have hany : d'.fields.any (·.flatParsable) = d.fields.any (·.flatParsable) :=
    h.fields.any fun _ _ h => h.flatParsable
  have hp := parseStruct_reloc R (namedStep_reloc h R allowed pre validate)
    (⟨d.init, Errors.new⟩, if d.fields.any (·.flatParsable) then forkInputs l else l)
  have e0 : Acc.reloc f (relocSlots v) ⟨d.init, Errors.new⟩ = ⟨d'.init, Errors.new⟩ := by
    rw [h.init]; rfl
  have e1 : (if d.fields.any (·.flatParsable) then forkInputs (l.map (Stream.reloc f)) else l.map (Stream.reloc f)) =
      (if d.fields.any (·.flatParsable) then forkInputs l else l).map (Stream.reloc f) := by
    split
    · exact forkInputs_reloc l
    · rfl
  simp only [Prod.map_apply, e0] at hp
  simp only [namedFlat, hany, e1, hp, Mode.reloc_toFullSpan R]
  generalize parseStruct _ (_, _) = X
  obtain ⟨r, acc, l1⟩ := X
  simp only [Prod.map_apply, Acc.reloc]
  have e2 : (if d.fields.any (·.flatParsable) then l.map (Stream.reloc f) else l1.map (Stream.reloc f)) =
      (if d.fields.any (·.flatParsable) then l else l1).map (Stream.reloc f) := by split <;> rfl
  simp only [e2]
  generalize (if d.fields.any (·.flatParsable) then l else l1) = l1'
  rcases r with _ | er | _
  · simp only [Res.reloc_ok, flatPass_reloc h.fields]
    rcases flatPass pre (mode.toFullSpan l) allowed d.fields acc.val acc.errs l1' with ⟨⟨sts, e⟩ | _ | _, l2⟩
    · simp only [Res.reloc_ok, Prod.map_apply, postNamed_reloc h]
    · rfl
    · rfl
  · simp only [Res.reloc_err, Errors.reloc_pushSyn, flatPass_reloc h.fields]
    rcases flatPass pre (mode.toFullSpan l) allowed d.fields acc.val (acc.errs.pushSyn er) l1' with
      ⟨⟨sts, e⟩ | _ | _, l2⟩
    · simp only [Res.reloc_ok, Prod.map_apply, postNamed_reloc h]
    · rfl
    · rfl
  · rfl

end

/-! ## Tuple structures -/

theorem nthArm_reloc {l : List (Field V)} {l' : List (Field W)} (hl : All2 (Field.Reloc f v) l l') (i : Nat) :
    OptRel (AtPos (Field.Reloc f v)) (nthArm l i) (nthArm l' i) :=
  ((hl.zipIdx 0).filter fun _ _ h => by simp only [h.1.isParsable, h.1.append, h.1.rest]).get i

theorem unnamedCall_reloc {x : Field V} {y : Field W} (h : x.Reloc f v y) (index : Nat) :
    RelocL f v (unnamedCall x index) (unnamedCall y index) := by
  intro l
  simp only [unnamedCall, h.isFlat]
  split
  · exact h.flatUnnamed.parse .unnamed index l
  · cases l with
    | nil => rfl
    | cons s rest =>
      have := h.item.parse .unnamed s
      simp only [Mode.reloc_unnamed] at this
      simp [this]

@[simp] theorem skipHead_reloc (l : List Stream) :
    skipHead (l.map (Stream.reloc f)) = (skipHead l).map (Stream.reloc f) := by
  cases l <;> simp [skipHead]

theorem emptyFlat_reloc (hs : f callSite = callSite) {x : Field V} {y : Field W} (h : x.Reloc f v y) (sp : Span)
    (index : Nat) : emptyFlat (f sp) y index = (emptyFlat sp x index).reloc f (relocExcept f v) := by
  refine parseEmpty_reloc hs ?_ sp
  intro s
  have := h.flatUnnamed.parse .unnamed index [s]
  simp only [Mode.reloc_unnamed, List.map_cons, List.map_nil] at this
  simp only [this]
  rcases x.flatUnnamed.parse .unnamed index [s] with ⟨_ | _ | _, _ | ⟨s', l'⟩⟩ <;> rfl

section
variable {d : Fields V} {d' : Fields W} (h : d.Reloc f v d')
include h

theorem tupleIncrement_reloc {x : Field V} {y : Field W} (hx : x.Reloc f v y) (index : Nat) :
    tupleIncrement d' y index = tupleIncrement d x index := by
  simp only [tupleIncrement, hx.isFlat, hx.flatUnnamed.fieldCount]
  rw [h.fields.any (p := fun g => g.flatParsable) fun _ _ h => h.flatParsable]

theorem unnamedStep_reloc (i : Nat) :
    RelocM f (Prod.map (Acc.reloc f (Prod.map (relocSlots v) id)) (List.map (Stream.reloc f))) id (unnamedStep d i)
      (unnamedStep d' i) := by
  rintro ⟨acc, l⟩
  simp only [unnamedStep, Prod.map_apply]
  generalize ho : nthArm d.fields i = o
  generalize ho' : nthArm d'.fields i = o'
  have hr := nthArm_reloc h.fields i
  rw [ho, ho'] at hr
  cases hr with
  | none => rfl
  | some hx =>
    rename_i x y
    obtain ⟨x, k⟩ := x
    obtain ⟨y, k'⟩ := y
    obtain ⟨hx, rfl⟩ := hx
    simp only at hx
    simp only [Acc.reloc, Prod.map_snd, id, unnamedCall_reloc hx acc.val.2 l, tupleIncrement_reloc h hx]
    rcases unnamedCall x acc.val.2 l with ⟨a | e | _, l'⟩
    · simp only [Res.reloc_ok, Prod.map_apply, Acc.reloc, relocSlots, List.map_set, Prod.map_fst, id]
      rfl
    · simp only [Res.reloc_err, Res.reloc_ok, Prod.map_apply, Acc.reloc, relocSlots, List.map_set, Prod.map_fst, id,
        skipHead_reloc, Errors.reloc_pushSyn]
      rfl
    · rfl

omit h in
theorem missingIndexName_reloc (h : d.Reloc f v d') (n : Nat) : missingIndexName d' n = missingIndexName d n := by
  simp only [missingIndexName, h.attrName]

variable {E' E : Env} (R : Relocates E E' f)
include R

theorem missingUnnamed_reloc {l : List (Field V)} {l' : List (Field W)} (hl : All2 (Field.Reloc f v) l l')
    (mode : Mode) (is : List Stream) (sts : Slots V) (e : Errors) (index cur extra : Nat) :
    @missingUnnamed W E' d' (mode.reloc f) (is.map (Stream.reloc f)) l' (relocSlots v sts) (e.reloc f) index cur extra =
      (missingUnnamed d mode is l sts e index cur extra).reloc f (Prod.map (relocSlots v) (Errors.reloc f)) := by
  induction l generalizing l' sts e index cur extra with
  | nil =>
    cases l' with
    | nil => rfl
    | cons b l' => exact hl.elim
  | cons a l ih =>
    cases l' with
    | nil => exact hl.elim
    | cons b l' =>
      cases sts with
      | nil => rfl
      | cons st sts =>
        have hi : ∀ (e : Errors) (index cur extra : Nat),
            @missingUnnamed W E' d' (mode.reloc f) (is.map (Stream.reloc f)) l'
              (sts.map (FieldStatus.map · v)) (e.reloc f) index cur extra =
            (missingUnnamed d mode is l sts e index cur extra).reloc f (Prod.map (relocSlots v) (Errors.reloc f)) :=
          fun e index cur extra => ih hl.2 sts e index cur extra
        have hm : ∀ (st : FieldStatus V) (r : Res (Slots V × Errors)),
            (r.reloc f (Prod.map (relocSlots v) (Errors.reloc f))).map (fun x => (st.map v :: x.1, x.2)) =
            (r.map fun x => (st :: x.1, x.2)).reloc f (Prod.map (relocSlots v) (Errors.reloc f)) := by
          intro st r
          cases r <;> rfl
        simp only [relocSlots, List.map_cons, missingUnnamed, containerSet_reloc h hl.1, hl.1.isContainer,
          h.transparent, hl.1.default_isNone, h.target, Option.isNone_map, hl.1.isFlat, hl.1.isFlatten,
          FieldStatus.isNone_map, hl.1.flatUnnamed.fieldCount, h.emptySpan, emptyFlat_reloc R.site hl.1,
          missingIndexName_reloc h, Mode.reloc_toFullSpan R, hl.1.item.missing, hi, hm]
        by_cases h1 : (a.isContainer || d.transparent) = true
        · simp only [h1, if_true]
        · simp only [h1]
          by_cases h2 : (a.default.isNone && d.target.isNone && (containerSet d a st).isNone) = true
          · simp only [h2, if_true]
            by_cases h3 : a.isFlat = true
            · simp only [h3, if_true]
              rcases emptyFlat d.emptySpan a index with (er | x) | er | _
              · simp only [Res.reloc_ok, relocExcept, Errors.reloc_pushSyn, hi]
                exact hm .parseError _
              · simp only [Res.reloc_ok, relocExcept]
                exact hm (.some x) _
              · rfl
              · rfl
            · simp only [h3]
              rcases a.item.missing (missingIndexName d (index + cur + extra)) (mode.toFullSpan is) with x | er | _
              · simp only [Res.reloc_ok]
                exact hm (.some x) _
              · simp only [Res.reloc_err, Errors.reloc_pushSyn, hi]
                exact hm _ _
              · rfl
          · simp only [h2]
            exact rfl

theorem postUnnamed_reloc (mode : Mode) (is : List Stream) (sts : Slots V) (index : Nat) (e : Errors) :
    @postUnnamed W E' d' (mode.reloc f) (is.map (Stream.reloc f)) (relocSlots v sts) index (e.reloc f) =
      (postUnnamed d mode is sts index e).reloc f (List.map v) := by
  simp only [postUnnamed, missingUnnamed_reloc h R h.fields]
  rcases missingUnnamed d mode is d.fields sts e index 0 0 with ⟨sts', e'⟩ | er | _
  · simp only [Res.reloc_ok, Prod.map_apply, setPass_reloc h.fields]
    exact finish_reloc h _ _
  · rfl
  · rfl

theorem unnamedFlat_reloc (mode : Mode) (index : Nat) :
    RelocL f (List.map v) (unnamedFlat d mode index) (@unnamedFlat W E' d' (mode.reloc f) index) := by
  intro l
  have hn : d'.fields.countP (·.isParsable) = d.fields.countP (·.isParsable) :=
    h.fields.countP fun _ _ h => h.isParsable
  simp only [unnamedFlat, hn]
  split
  · simp only [eofAll_reloc l, h.init]
    rcases eofAll l with ⟨_ | _ | _, l1⟩
    · have := postUnnamed_reloc h R mode l1 d.init index Errors.new
      simp only [Errors.reloc_new] at this
      simp only [Res.reloc_ok, id, this]
    · rfl
    · rfl
  · have hp := parseTupleStruct_reloc (unnamedStep_reloc h) (d.fields.countP (·.isParsable))
      (⟨(d.init, index), Errors.new⟩, l)
    have e0 : Acc.reloc f (Prod.map (relocSlots v) id) ⟨(d.init, index), Errors.new⟩ =
        ⟨(d'.init, index), Errors.new⟩ := by
      rw [h.init]; rfl
    simp only [Prod.map_apply, e0] at hp
    simp only [hp]
    generalize parseTupleStruct _ _ (_, l) = X
    obtain ⟨r, acc, l1⟩ := X
    rcases r with _ | er | _
    · simp only [Res.reloc_ok, Prod.map_apply, Acc.reloc, Prod.map_fst, Prod.map_snd, id, postUnnamed_reloc h R]
    · simp only [Res.reloc_err, Prod.map_apply, Acc.reloc, Prod.map_fst, Prod.map_snd, id, Errors.reloc_pushSyn,
        postUnnamed_reloc h R]
    · rfl

end

/-! ## Structures -/

theorem runAndThens_reloc {α β : Type} {w : α → β} {fs : List (α → Except SynErr α)} {fs' : List (β → Except SynErr β)}
    (h : All2 (fun g g' => ∀ x, g' (w x) = relocExcept f w (g x)) fs fs') (r : Res α) :
    runAndThens fs' (r.reloc f w) = (runAndThens fs r).reloc f w := by
  have key : ∀ a, fs'.foldlM (fun v g => g v) (w a) = relocExcept f w (fs.foldlM (fun v g => g v) a) := by
    induction fs generalizing fs' with
    | nil =>
      intro a
      cases fs' with
      | nil => rfl
      | cons b l' => exact h.elim
    | cons g fs ih =>
      intro a
      cases fs' with
      | nil => exact h.elim
      | cons g' fs' =>
        simp only [List.foldlM_cons, h.1 a]
        cases g a with
        | ok b => exact ih h.2 b
        | error e => rfl
  cases r with
  | ok a =>
    simp only [runAndThens, Res.reloc_ok, key]
    cases fs.foldlM (fun v g => g v) a <;> rfl
  | err e => rfl
  | panic => rfl

section
variable {d : StructDef V} {d' : StructDef W} (h : d.Reloc f v d')
include h

theorem StructDef.Reloc.isTransparent : d'.isTransparent = d.isTransparent := by
  have hl := (h.fields.filter (p := fun f => f.isParsable && !f.isFlat) (q := fun f => f.isParsable && !f.isFlat)
    fun _ _ h => by simp only [h.isParsable, h.isFlat]).length
  simp only [StructDef.isTransparent, h.transparent, List.length_take, hl]

theorem StructDef.Reloc.acceptsAll : d'.acceptsAll = d.acceptsAll := by
  simp only [StructDef.acceptsAll, h.allowUnknown, acceptsAll_reloc h.fields]

theorem StructDef.Reloc.data (hs : f callSite = callSite) : d.data.Reloc f v d'.data where
  fields := h.fields
  target := h.default
  transparent := h.isTransparent
  allowUnknown := by simp only [StructDef.data, h.allowUnknown]
  obj := rfl
  attrName := rfl
  emptySpan := hs.symm

theorem StructDef.Reloc.missing (n : Str) (sp : Span) :
    d'.missing n (f sp) = (d.missing n sp).reloc f (List.map v) := by
  simp only [StructDef.missing, h.default]
  cases d.default <;> rfl

theorem transparentPost_reloc (hs : f callSite = callSite) (k : Nat) (r : Res V) :
    transparentPost d' k (r.reloc f v) = (transparentPost d k r).reloc f (List.map v) := by
  cases r with
  | ok a =>
    have e1 : (relocSlots v d.data.init).set k (.some (v a)) = relocSlots v (d.data.init.set k (.some a)) := by
      simp only [relocSlots, List.map_set]
      rfl
    have hp := setPass_reloc h.fields (d.data.init.set k (.some a)) Errors.new
    simp only [Errors.reloc_new] at hp
    simp only [transparentPost, Res.reloc_ok, (h.data hs).init, e1, hp]
    rw [finish_reloc (h.data hs), runAndThens_reloc h.andThens]
  | err e => rfl
  | panic => rfl

variable {E' E : Env} (R : Relocates E E' f)
include R

theorem StructDef.Reloc.flatNamed : d.flatNamed.Reloc f (List.map v) (@StructDef.flatNamed W E' d') where
  acceptsAll := h.acceptsAll
  fieldNames := fieldNames_reloc h.fields
  parse m p b := by
    simp only [StructDef.flatNamed, fieldNames_reloc h.fields]
    exact (namedFlat_reloc (h.data R.site) R _ m p b).mapRes (runAndThens_reloc h.andThens)

theorem StructDef.Reloc.flatUnnamed : d.flatUnnamed.Reloc f (List.map v) (@StructDef.flatUnnamed W E' d') := by
  have e1 := (h.fields.filter (p := fun f => !f.isFlat) (q := fun f => !f.isFlat)
    fun _ _ h => by simp only [h.isFlat]).length
  have e2 := (h.fields.filter (p := fun f => f.isFlat) (q := fun f => f.isFlat)
    fun _ _ h => h.isFlat).map_eq (p := fun f => f.flatUnnamed.fieldCount.getD 0)
    (q := fun f => f.flatUnnamed.fieldCount.getD 0) fun _ _ h => by simp only [h.flatUnnamed.fieldCount]
  have hu : ∀ (m : Mode) (i : Nat), RelocL f (List.map v) ((unnamedFlat d.data m i).mapRes (runAndThens d.andThens))
      ((@unnamedFlat W E' d'.data (m.reloc f) i).mapRes (runAndThens d'.andThens)) :=
    fun m i => (unnamedFlat_reloc (h.data R.site) R m i).mapRes (runAndThens_reloc h.andThens)
  simp only [StructDef.flatUnnamed, h.shape]
  cases d.shape with
  | named => exact ⟨rfl, fun m _ => (h.flatNamed R).parse m [] true⟩
  | unnamed => exact ⟨by simp only [e1, e2], hu⟩
  | unit => exact ⟨by simp only [e1, e2], hu⟩

theorem StructDef.Reloc.dict : d.dict.Reloc f (List.map v) (@StructDef.dict W E' d') := by
  simp only [StructDef.dict, h.isTransparent, h.shape]
  by_cases ht : d.isTransparent = true
  · simp only [ht, if_true]
    generalize ho : (d.fields.zipIdx.find? fun x => x.1.isParsable && !x.1.isFlat) = o
    generalize ho' : (d'.fields.zipIdx.find? fun x => x.1.isParsable && !x.1.isFlat) = o'
    have hr := (h.fields.zipIdx 0).find (p := fun x => x.1.isParsable && !x.1.isFlat)
      (q := fun x => x.1.isParsable && !x.1.isFlat) fun _ _ h => by simp only [h.1.isParsable, h.1.isFlat]
    rw [ho, ho'] at hr
    cases hr with
    | none =>
      exact .mk'_parse R.site fun _ _ => rfl
    | some hx =>
      rename_i x y
      obtain ⟨x, k⟩ := x
      obtain ⟨y, k'⟩ := y
      obtain ⟨hx, rfl⟩ := hx
      simp only at hx
      exact .mk'_all (fun m => (hx.item.parse m).mapRes (transparentPost_reloc h R.site k'))
        (fun m => (hx.item.inline m).mapRes (transparentPost_reloc h R.site k'))
        (fun sp => by rw [hx.item.flag, transparentPost_reloc h R.site]) h.missing
  · simp only [ht]
    cases d.shape with
    | named =>
      have hi : ∀ m : Mode, RelocL f (List.map v) (d.flatNamed.parse m [] (!d.acceptsAll))
          ((@StructDef.flatNamed W E' d').parse (m.reloc f) [] (!d'.acceptsAll)) := fun m => by
        rw [h.acceptsAll]
        exact (h.flatNamed R).parse m [] _
      exact .mk'_all (fun m => parseDelimitedWith_reloc .brace (single_reloc (hi m))) hi
        (fun sp => parseEmpty_reloc R.site (single_reloc (hi (.named sp))) sp) h.missing
    | unnamed =>
      have hi : ∀ m : Mode, RelocL f (List.map v) (d.flatUnnamed.parse m 0)
          ((@StructDef.flatUnnamed W E' d').parse (m.reloc f) 0) := fun m => (h.flatUnnamed R).parse m 0
      refine .mk'_all (fun m => parseDelimitedWith_reloc .paren (single_reloc (hi m))) hi (fun sp => ?_) h.missing
      have e1 : (d'.fields.filter (·.isParsable)).all (fun f => f.isFlat || f.default.isSome) =
          (d.fields.filter (·.isParsable)).all (fun f => f.isFlat || f.default.isSome) :=
        (h.fields.filter fun _ _ h => h.isParsable).all fun _ _ h => by simp only [h.isFlat, h.default_isSome]
      simp only [h.default, Option.isSome_map, e1]
      split
      · exact parseEmpty_reloc R.site (single_reloc (hi .unnamed)) sp
      · rfl
    | unit =>
      have ha : runAndThens d'.andThens (.ok []) = (runAndThens d.andThens (.ok [])).reloc f (List.map v) :=
        runAndThens_reloc h.andThens (.ok [])
      have hi : RelocL f (List.map v) (fun l => (runAndThens d.andThens (.ok []), l))
          (fun l => (runAndThens d'.andThens (.ok []), l)) := fun l => by simp only [ha]
      exact .mk'_all (fun _ => parseDelimitedWith_reloc .paren (single_reloc hi)) (fun _ => hi) (fun _ => ha) h.missing

end
end Deluxe
